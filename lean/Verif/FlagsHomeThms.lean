import Verif.FlagsHomeStart
import Verif.Demo

/-!
# Updates with the flags of UPDATE in BOOT (`FLAGS_HOME`): C68
-/

namespace Verif

namespace Fho

open Verif.Nvu (Exec)

theorem zero_torn {k : Cfg} : TornOK k (fun _ => 0#8) := by
  unfold TornOK le32
  refine ⟨?_, ?_, ?_⟩ <;> · dsimp only; decide

/-- A reboot without a power failure in the middle of an installation. -/
theorem bootUp_rel {k : Cfg} (w : k.WF) (fit : Fits k) {e : Env} {V : Prop × Prop} {X Y : Mem} (hX : GoodImage k e X) (hY : GoodImage k e Y)
    (hj : V.1 → e.junk ≠ ST_FINAL) (hV : V.2 → e.ver X < e.ver Y) {A F : Flash} (h : Rel k A F) (hM : Mid k V X Y A)
    (hg : V.1 ∨ V.2 := by first | assumption | exact Or.inl trivial | exact Or.inr (by assumption)) :
    ∃ w', bootUp k e F = .ok () w' ∧ w'.locked = true ∧ Updated k Y X w'.fl ∧ bootable k e (w'.fl .boot) := by
  have := start_rel w fit hX hY hj hV h hM (b := none) zero_torn
  unfold bootUp
  cases hr : start k e ⟨F, true, none, fun _ => 0#8⟩ with
  | ok a w' =>
    rw [hr] at this
    obtain ⟨h1, A', h2, h3⟩ := this
    have hu := updated_of w fit hX hY h2 h3
    refine ⟨w', rfl, h1, hu, bootable_of w fit (newOK w hY) fun o _ ho => hu.new o ?_⟩
    unfold imageBytes
    unfold imgLen at ho
    omega
  | crash F' => rw [hr] at this; exact absurd rfl this.1
  | panic f => rw [hr] at this; exact this.elim
  | stuck f => rw [hr] at this; exact this.elim
  | fault f => rw [hr] at this; exact this.elim

/-- A reboot with a power failure in the middle of an installation. -/
theorem bootFail_rel {k : Cfg} (w : k.WF) (fit : Fits k) {e : Env} {V : Prop × Prop} {X Y : Mem} (hX : GoodImage k e X) (hY : GoodImage k e Y)
    (hj : V.1 → e.junk ≠ ST_FINAL) (hV : V.2 → e.ver X < e.ver Y) {A F F' : Flash} (h : Rel k A F) (hM : Mid k V X Y A) {n : Nat} {t : Mem}
    (ht : TornOK k t) (hr : bootFail k e F n t = .crash F') (hR : Recorded k F')
    (hg : V.1 ∨ V.2 := by first | assumption | exact Or.inl trivial | exact Or.inr (by assumption)) :
    ∃ A', Rel k A' F' ∧ (Mid k V X Y A' ∨ Verif.Updated k Y X A') := by
  have := start_rel w fit hX hY hj hV h hM (b := some n) ht
  unfold bootFail at hr
  rw [hr] at this
  obtain ⟨_, A', h1, h2⟩ := this
  exact ⟨A', h1.resolve_right fun g => g hR, h2⟩

/-- **C68.** With the flags of UPDATE in BOOT a requested update survives any number of power failures, as long as none of them leaves both partitions
without a record of the installation. If no interrupted reboot had already completed the installation, the first uninterrupted reboot installs the new image
completely, keeps the old image completely, marks BOOT as TESTING, locks the flash and boots the new image.

Partial: the record is lost by a power failure between the erase of the flags of BOOT and the new state of BOOT (`update_record_lost`,
`update_new_image_lost`); and as C01 it assumes that the word "BOOT" is not present at `tmpBootPos` and does not appear by accident in a torn operation. -/
theorem update_power_fail_safe_partial {k : Cfg} (w : k.WF) (fit : 14 + k.n / 2 ≤ k.ss) {e : Env} {Old New : Mem} (hO : GoodImage k e Old)
    (hN : GoodImage k e New) (hv : e.ver Old < e.ver New) {f g : Flash} (hp : Pending k Old New f)
    (hi : Interrupted k e (fun x => Recorded k x ∧ ¬ Updated k New Old x) f g) :
    ∃ w', bootUp k e g = .ok () w' ∧ w'.locked = true ∧ Updated k New Old w'.fl ∧ bootable k e (w'.fl .boot) := by
  have hmid : ∃ A, Rel k A g ∧ Mid k (False, e.ver Old < e.ver New) Old New A := by
    induction hi with
    | none => exact ⟨_, rel_abs w fit f, ((hp.abs w fit hO hN).mid w).resolve_right fun h => h hv⟩
    | again _ ht hr hP ih =>
      obtain ⟨A, h1, h2⟩ := ih
      obtain ⟨A', h3, h4 | h4⟩ := bootFail_rel w fit hO hN False.elim (fun _ => hv) h1 h2 ht hr hP.1
      · exact ⟨A', h3, h4⟩
      · exact absurd (updated_of w fit hO hN h3 h4) hP.2
  obtain ⟨A, h1, h2⟩ := hmid
  exact bootUp_rel w fit hO hN False.elim (fun _ => hv) h1 h2

/-- **C68.** The same for the replacement of an image that was not confirmed by the previous one. Partial as above, and the uninitialised byte that is taken
for the state of UPDATE must not be `IMG_STATE_FINAL_FLAGS` (C12). -/
theorem rollback_power_fail_safe_partial {k : Cfg} (w : k.WF) (fit : 14 + k.n / 2 ≤ k.ss) {e : Env} {Old New : Mem} (hO : GoodImage k e Old)
    (hN : GoodImage k e New) (hj : e.junk ≠ ST_FINAL) {f g : Flash} (hp : Updated k New Old f)
    (hi : Interrupted k e (fun x => Recorded k x ∧ ¬ Updated k Old New x) f g) :
    ∃ w', bootUp k e g = .ok () w' ∧ w'.locked = true ∧ Updated k Old New w'.fl ∧ bootable k e (w'.fl .boot) := by
  have hmid : ∃ A, Rel k A g ∧ Mid k (True, False) New Old A := by
    induction hi with
    | none => exact ⟨_, rel_abs w fit f, (hp.abs w fit hO hN).mid w⟩
    | again _ ht hr hP ih =>
      obtain ⟨A, h1, h2⟩ := ih
      obtain ⟨A', h3, h4 | h4⟩ := bootFail_rel w fit hN hO (fun _ => hj) False.elim h1 h2 ht hr hP.1
      · exact ⟨A', h3, h4⟩
      · exact absurd (updated_of w fit hN hO h3 h4) hP.2
  obtain ⟨A, h1, h2⟩ := hmid
  exact bootUp_rel w fit hN hO (fun _ => hj) False.elim h1 h2

/-- **C68.** Without power failures an update with the flags in BOOT installs the new image, and the reboot after it, without a confirmation, brings the
previous one back. -/
theorem update_then_rollback {k : Cfg} (w : k.WF) (fit : 14 + k.n / 2 ≤ k.ss) {e : Env} {Old New : Mem} (hO : GoodImage k e Old) (hN : GoodImage k e New)
    (hv : e.ver Old < e.ver New) (hj : e.junk ≠ ST_FINAL) {f : Flash} (hp : Pending k Old New f) :
    ∃ w1 w2, bootUp k e f = .ok () w1 ∧ Updated k New Old w1.fl ∧ bootUp k e w1.fl = .ok () w2 ∧ Updated k Old New w2.fl := by
  obtain ⟨w1, h1, _, h2, _⟩ := update_power_fail_safe_partial w fit hO hN hv hp .none
  obtain ⟨w2, h3, _, h4, _⟩ := rollback_power_fail_safe_partial w fit hO hN hj h2 .none
  exact ⟨w1, w2, h1, h2, h3, h4⟩

/-! ### The request -/

theorem setState_update {k : Cfg} (w : k.WF) (fit : Fits k) {f : Flash} (hf : ∀ x, k.last ≤ x → x < k.part - 8 → f .boot x = 0xFF#8) :
    ∃ g, Exec (setState k .update ST_UPDATING) false f () g false ∧ getState k g .update = some ST_UPDATING ∧
      (∀ j, j < k.n → getFlag k g j = some FL_NEW) ∧ ∀ p x, ¬ (p = .boot ∧ k.part - 13 ≤ x ∧ x < k.part - 8) → g p x = f p x := by
  obtain ⟨g1, g2, g3, g4⟩ := geo w
  have fit' := fit
  unfold Fits at fit'
  have e0 : cellAt k .update 0 = k.part - 12 := by show k.part - 8 - 4 = _; omega
  have e1 : cellAt k .update 1 = k.part - 13 := by show k.part - 8 - 5 = _; omega
  have hm : ¬ hasMagic k f .update := le32_ff w fit fun x h1 h2 => hf x (by omega) (by omega)
  have hN1 : ∀ i, i < 4 → f .boot (cellAt k .update 0 + i) &&& magicByte i = magicByte i := by
    intro i hi
    rw [hf _ (by omega) (by omega)]
    exact and_ff _
  have h5 : (f.program .boot (cellAt k .update 0) 4 magicByte) .boot (cellAt k .update 1) = 0xFF#8 := by
    unfold Flash.program
    rw [if_neg (by omega)]
    exact hf _ (by omega) (by omega)
  have rd : ∀ A l, Exec readFlash l A A A l := fun A l => ⟨0, fun t => ⟨rfl, fun b => by rw [Nat.zero_add]; rfl⟩⟩
  refine ⟨(f.program .boot (cellAt k .update 0) 4 magicByte).program .boot (cellAt k .update 1) 1 (fun _ => ST_UPDATING), ?_, ?_, ?_, ?_⟩
  · unfold setState
    refine Exec.bind (l' := false) (a := ()) (A' := f.program .boot (cellAt k .update 0) 4 magicByte) ?_ (Exec.bind (rd _ _) ?_)
    · unfold ensureMagic
      refine Exec.bind (rd _ _) ?_
      rw [if_neg hm]
      exact exec_program hN1
    · rw [if_pos (by rw [h5]; decide)]
      refine exec_program fun i hi => ?_
      rw [show cellAt k .update 1 + i = cellAt k .update 1 by omega, h5]
      exact and_ff _
  all_goals
    have hmg : hasMagic k ((f.program .boot (cellAt k .update 0) 4 magicByte).program .boot (cellAt k .update 1) 1 (fun _ => ST_UPDATING)) .update := by
      have hb : ∀ i, i < 4 → ((f.program .boot (cellAt k .update 0) 4 magicByte).program .boot (cellAt k .update 1) 1 (fun _ => ST_UPDATING)) .boot
          (cellAt k .update 0 + i) = magicByte i := by
        intro i hi
        rw [Flash.program]
        rw [if_neg (by omega), Flash.program]
        rw [if_pos ⟨rfl, by omega, by omega⟩, Nat.add_sub_cancel_left]
        exact hN1 i hi
      unfold hasMagic le32
      have h0 := hb 0 (by omega)
      rw [Nat.add_zero] at h0
      rw [h0, hb 1 (by omega), hb 2 (by omega), hb 3 (by omega)]
      decide
  · unfold getState
    rw [if_pos hmg]
    refine congrArg some ?_
    rw [Flash.program]
    rw [if_pos ⟨rfl, by omega, by omega⟩, h5]
    exact and_ff _
  · intro j hj
    have hc := flagCell w fit hj
    have ej : cellAt k .update (2 + flagPos j) = k.part - 8 - (4 + (2 + flagPos j)) := rfl
    unfold getFlag
    rw [if_pos hmg]
    refine congrArg some ?_
    have : ((f.program .boot (cellAt k .update 0) 4 magicByte).program .boot (cellAt k .update 1) 1 (fun _ => ST_UPDATING)) .boot
        (cellAt k .update (2 + flagPos j)) = 0xFF#8 := by
      rw [Flash.program]
      rw [if_neg (by omega), Flash.program]
      rw [if_neg (by omega)]
      exact hf _ (by omega) (by omega)
    rw [this]
    unfold nibbleOf
    split <;> decide
  · intro p x hx
    rw [Flash.program]
    rw [if_neg (fun g => hx ⟨g.1, by omega, by omega⟩), Flash.program]
    rw [if_neg (fun g => hx ⟨g.1, by omega, by omega⟩)]

/-- A complete run of `wolfBoot_update_trigger` by the application. -/
def triggered (k : Cfg) (whole : Bool) (f : Flash) : Res Unit := updateTrigger k whole { fl := f, locked := true, budget := none, torn := fun _ => 0#8 }

/-- **C68.** A request made while `Old` is installed and `New` is in UPDATE makes the update pending, whatever the flags were before. -/
theorem trigger_pending {k : Cfg} (w : k.WF) (fit : 14 + k.n / 2 ≤ k.ss) {e : Env} {Old New : Mem} (hO : GoodImage k e Old) (hN : GoodImage k e New) (whole : Bool)
    {f : Flash} (h1 : Holds k f .boot Old) (h2 : Holds k f .update New) (hq : Quiet k f) :
    ∃ w', triggered k whole f = .ok () w' ∧ w'.locked = true ∧ Pending k Old New w'.fl ∧
      getState k w'.fl .boot = if whole then none else getState k f .boot := by
  obtain ⟨g1, g2, g3, g4⟩ := geo w
  have fit' := fit
  have hl := img_last w hO
  have hl' := img_last w hN
  have lenle : k.ss - 5 ≤ (if whole = true then k.ss else k.ss - 5) ∧ (if whole = true then k.ss else k.ss - 5) ≤ k.ss := by
    cases whole <;> simp
  have out : ∀ p x, p ≠ .boot ∨ x < k.last → (f.erase .boot k.last (if whole then k.ss else k.ss - 5)) p x = f p x := by
    intro p x hx
    refine if_neg fun g => ?_
    rcases hx with e | e
    · exact e g.1
    · omega
  obtain ⟨g, x1, x2, x3, x4⟩ := setState_update w fit (f := f.erase .boot k.last (if whole then k.ss else k.ss - 5)) (by
    intro x h1 h2
    exact if_pos ⟨rfl, h1, by omega⟩)
  have all : ∀ p x, p ≠ .boot ∨ x < k.last → g p x = f p x := by
    intro p x hx
    rw [x4 p x (fun g => hx.elim (fun e => e g.1) (fun e => by omega)), out p x hx]
  obtain ⟨j, x1⟩ := x1
  refine ⟨⟨g, true, none, fun _ => 0#8⟩, ?_, rfl, ⟨?_, ?_, x2, fun j hj => x3 j (by omega), ?_⟩, ?_⟩
  · unfold triggered updateTrigger
    rw [Nvu.bind_ok (show unlock ⟨f, true, none, fun _ => 0#8⟩ = .ok () ⟨f, false, none, fun _ => 0#8⟩ from rfl)]
    rw [Nvu.bind_ok (show erase k .boot k.last (if whole = true then k.ss else k.ss - 5) ⟨f, false, none, fun _ => 0#8⟩ =
      .ok () ⟨f.erase .boot k.last (if whole = true then k.ss else k.ss - 5), false, none, fun _ => 0#8⟩ from rfl)]
    rw [Nvu.bind_ok (x1 _).1]
    rfl
  · intro o ho
    show g .boot o = _
    rw [all _ _ (.inr (by omega))]
    exact h1 o ho
  · intro o ho
    show g .update o = _
    rw [all _ _ (.inl (by simp))]
    exact h2 o ho
  · unfold Quiet
    show le32 (g .boot) k.tmp ≠ _ ∧ le32 (g .update) k.tmp ≠ _
    rw [le32_congr (x := f .boot) fun o h1 h2 => all _ _ (.inr (by omega)), le32_congr (x := f .update) fun o h1 h2 => all _ _ (.inl (by simp))]
    exact hq
  · have e2 : cellAt k .boot 0 = k.part - 4 := rfl
    have e3 : cellAt k .boot 1 = k.part - 5 := rfl
    show getState k g .boot = _
    cases whole with
    | true =>
      have hm : ¬ hasMagic k g .boot := by
        refine le32_ff w fit fun x h1 h2 => ?_
        rw [x4 _ _ (by omega)]
        exact if_pos ⟨rfl, by omega, by simp only [if_true]; omega⟩
      unfold getState
      rw [if_neg hm]
      rfl
    | false =>
      have hb : ∀ x, k.part - 5 ≤ x → g .boot x = f .boot x := by
        intro x hx
        rw [x4 _ _ (by omega)]
        exact if_neg (by simp only [Bool.false_eq_true, if_false]; omega)
      have hm : hasMagic k g .boot ↔ hasMagic k f .boot := by
        unfold hasMagic
        rw [le32_congr (x := f .boot) fun o h1 h2 => hb o (by omega)]
      show (if _ then some (g .boot _) else none) = (if _ then some (f .boot _) else none)
      rw [hb _ (by omega)]
      by_cases hh : hasMagic k f .boot
      · rw [if_pos hh, if_pos (hm.2 hh)]
      · rw [if_neg hh, if_neg (fun g => hh (hm.1 g))]

/-! ### A small device -/

namespace Demo
open Verif.Demo

/-- A BOOT partition: an image in front, the states of BOOT and of UPDATE, the rest erased. -/
def bootPart (m : Mem) (bs us : Option Byte) : Mem := fun o =>
  if o < 64 then m o
  else match o, bs, us with
    | 91, some s, _ => s | 92, some _, _ => 0x42#8 | 93, some _, _ => 0x4F#8 | 94, some _, _ => 0x4F#8 | 95, some _, _ => 0x54#8
    | 83, _, some s => s | 84, _, some _ => 0x42#8 | 85, _, some _ => 0x4F#8 | 86, _, some _ => 0x4F#8 | 87, _, some _ => 0x54#8
    | _, _, _ => 0xFF#8

/-- A flash with given images and states. -/
def flashH (b : Mem) (bs : Option Byte) (u : Mem) (us : Option Byte) : Flash
  | .boot => bootPart b bs us
  | .update => withTrailer u none
  | .swap => fun _ => 0xFF#8

/-- `old` running and confirmed, `new` in UPDATE, requested. -/
def pendingH : Flash := flashH old (some ST_SUCCESS) new (some ST_UPDATING)

/-- `new` installed and not yet confirmed, `old` in UPDATE. -/
def updatedH : Flash := flashH new (some ST_TESTING) old none

theorem pendingH_ok : Pending cfg old new pendingH :=
  ⟨holds_of (by decide), holds_of (by decide), by decide, by decide, by unfold Quiet; decide⟩

theorem erasedH_of {f : Flash} (h : ∀ x, x < 88 → 64 ≤ x → f .boot x = 0xFF#8) :
    ∀ x, cfg.part - cfg.ss ≤ x → x < cfg.part - 8 → f .boot x = 0xFF#8 := fun x h1 h2 => h x h2 h1

theorem updatedH_ok : Updated cfg new old updatedH :=
  ⟨holds_of (by decide), holds_of (by decide), by decide, erasedH_of (by decide), by unfold Quiet; decide⟩

/-- Power failure at operation 13 of the installation of `new`, leaving zero bytes. -/
def cutH : Flash := crashFl (bootFail cfg env pendingH 13 (fun _ => 0#8))

/-- ... and again at operation 15 of the next reboot, leaving 0x77 bytes. -/
def cutH' : Flash := crashFl (bootFail cfg env cutH 15 (fun _ => 0x77#8))

/-- The same for the rollback. -/
def backH : Flash := crashFl (bootFail cfg env updatedH 12 (fun _ => 0#8))

/-- Non-vacuity of `update_power_fail_safe_partial`: BOOT cannot be booted after the first power failure. -/
example : ¬ bootable cfg env (cutH .boot) ∧ getFlag cfg cutH 0 = some FL_BACKUP ∧
    ∃ w', bootUp cfg env cutH' = .ok () w' ∧ w'.locked = true ∧ Updated cfg new old w'.fl ∧ bootable cfg env (w'.fl .boot) := by
  refine ⟨by decide +kernel, by decide +kernel, ?_⟩
  refine update_power_fail_safe_partial wf (by decide) (good_old _) (good_new _) (by decide) pendingH_ok ?_
  have h1 : isCrash (bootFail cfg env pendingH 13 (fun _ => 0#8)) = true := by decide +kernel
  have h2 : isCrash (bootFail cfg env cutH 15 (fun _ => 0x77#8)) = true := by decide +kernel
  have n1 : ¬ Updated cfg new old cutH := fun h => absurd h.state (by decide +kernel)
  have n2 : ¬ Updated cfg new old cutH' := fun h => absurd h.state (by decide +kernel)
  have r1 : Recorded cfg cutH := by decide +kernel
  have r2 : Recorded cfg cutH' := by decide +kernel
  exact .again (.again .none (by unfold TornOK; decide) (isCrash_eq h1) ⟨r1, n1⟩) (by unfold TornOK; decide) (isCrash_eq h2) ⟨r2, n2⟩

/-- Non-vacuity of `rollback_power_fail_safe_partial`. -/
example : ∃ w', bootUp cfg env backH = .ok () w' ∧ w'.locked = true ∧ Updated cfg old new w'.fl ∧ bootable cfg env (w'.fl .boot) := by
  refine rollback_power_fail_safe_partial wf (by decide) (good_old _) (good_new _) (by decide) updatedH_ok ?_
  have h1 : isCrash (bootFail cfg env updatedH 12 (fun _ => 0#8)) = true := by decide +kernel
  have n1 : ¬ Updated cfg old new backH := fun h => absurd (h.new 8 (by decide)) (by decide +kernel)
  have r1 : Recorded cfg backH := by decide +kernel
  exact .again .none (by unfold TornOK; decide) (isCrash_eq h1) ⟨r1, n1⟩

/-- Non-vacuity of `update_then_rollback`. -/
example : ∃ w1 w2, bootUp cfg env pendingH = .ok () w1 ∧ Updated cfg new old w1.fl ∧ bootUp cfg env w1.fl = .ok () w2 ∧ Updated cfg old new w2.fl :=
  update_then_rollback wf (by decide) (good_old _) (good_new _) (by decide) (by decide) pendingH_ok

/-- Non-vacuity of `trigger_pending`: a running image that is not confirmed; the request erases its state if the HAL erases whole sectors. -/
example : ∃ w', triggered cfg true (flashH old (some ST_TESTING) new none) = .ok () w' ∧ w'.locked = true ∧ Pending cfg old new w'.fl ∧
    getState cfg w'.fl .boot = none :=
  trigger_pending (e := env) wf (by decide) (good_old _) (good_new _) true (holds_of (by decide)) (holds_of (by decide)) (by unfold Quiet; decide)

/-- **C68 without the guard on the record is false**: a power failure during the erase of the flags at the end of the installation leaves the new image
installed and started without the mark TESTING: it is never replaced by the previous one if it does not work. -/
theorem update_record_lost : ∃ (k : Cfg) (e : Env) (Old New : Mem) (f g : Flash) (n : Nat) (t : Mem) (w' : World), k.WF ∧ 14 + k.n / 2 ≤ k.ss ∧
    GoodImage k e Old ∧ GoodImage k e New ∧ e.ver Old < e.ver New ∧ e.junk ≠ ST_FINAL ∧ Pending k Old New f ∧ TornOK k t ∧
    bootFail k e f n t = .crash g ∧ bootUp k e g = .ok () w' ∧ Holds k w'.fl .boot New ∧ getState k w'.fl .boot = none := by
  have h0 : isCrash (bootFail cfg env pendingH 39 (fun _ => 0x77#8)) = true := by decide +kernel
  obtain ⟨a, w', h1, h2⟩ := ok_of (r := bootUp cfg env (crashFl (bootFail cfg env pendingH 39 (fun _ => 0x77#8))))
    (p := fun g => eqUpto g .boot new (imageBytes cfg new) && (getState cfg g .boot == none)) (by decide +kernel)
  rw [Bool.and_eq_true] at h2
  exact ⟨cfg, env, old, new, pendingH, _, 39, _, w', wf, by decide, good_old _, good_new _, by decide, by decide, pendingH_ok, by unfold TornOK; decide,
    isCrash_eq h0, h1, holds_of h2.1, by simpa using h2.2⟩

/-- **C68 without the guard on the record is false**: a power failure during the restoration of the sector at `tmpBootPos` leaves BOOT incomplete without a
record of what has to be restored; the next reboot takes the old image from UPDATE, and the new image is in neither partition. -/
theorem update_new_image_lost : ∃ (k : Cfg) (e : Env) (Old New : Mem) (f g : Flash) (n : Nat) (t : Mem) (w' : World), k.WF ∧ 14 + k.n / 2 ≤ k.ss ∧
    GoodImage k e Old ∧ GoodImage k e New ∧ e.ver Old < e.ver New ∧ e.junk ≠ ST_FINAL ∧ Pending k Old New f ∧ TornOK k t ∧
    bootFail k e f n t = .crash g ∧ ¬ bootable k e (g .boot) ∧ bootUp k e g = .ok () w' ∧ Holds k w'.fl .boot Old ∧ ¬ Holds k w'.fl .update New := by
  have h0 : isCrash (bootFail cfg env pendingH 42 (fun _ => 0x77#8)) = true := by decide +kernel
  obtain ⟨a, w', h1, h2⟩ := ok_of (r := bootUp cfg env (crashFl (bootFail cfg env pendingH 42 (fun _ => 0x77#8))))
    (p := fun g => eqUpto g .boot old (imageBytes cfg old) && !(eqUpto g .update new (imageBytes cfg new))) (by decide +kernel)
  rw [Bool.and_eq_true] at h2
  refine ⟨cfg, env, old, new, pendingH, _, 42, _, w', wf, by decide, good_old _, good_new _, by decide, by decide, pendingH_ok, by unfold TornOK; decide,
    isCrash_eq h0, by decide +kernel, h1, holds_of h2.1, ?_⟩
  intro h
  have : eqUpto w'.fl .update new (imageBytes cfg new) = true := by
    unfold eqUpto
    rw [List.all_eq_true]
    intro o ho
    simpa using h o (List.mem_range.1 ho)
  rw [this] at h2
  simp at h2

end Demo

end Fho

end Verif
