import Verif.NvmStart
import Verif.Demo

/-!
# Power failures during an update on write-once flash: C67
-/

namespace Verif

namespace Nvu

theorem zero_torn {k : Cfg} : TornOK k (fun _ => 0#8) := by
  unfold TornOK le32
  refine ⟨?_, ?_, ?_⟩ <;> · dsimp only; decide

/-- A reboot without a power failure in the middle of an installation. -/
theorem bootUp_rel {k : Cfg} (w : k.WF) (n3 : 3 ≤ k.n) {e : Env} {V : Prop × Prop} {X Y : Mem} (hX : GoodImage k e X) (hY : GoodImage k e Y)
    (hj : V.1 → e.junk ≠ ST_FINAL) (hV : V.2 → e.ver X < e.ver Y) {A F : Flash} (h : Rel k A F) (hM : Mid (pre k) V X Y A)
    (hg : V.1 ∨ V.2 := by first | assumption | exact Or.inl trivial | exact Or.inr (by assumption)) :
    ∃ w', bootUp k e F = .ok () w' ∧ w'.locked = true ∧ Updated k Y X w'.fl ∧ bootable k e (w'.fl .boot) := by
  have := start_rel w n3 hX hY hj hV h hM (b := none) zero_torn
  unfold bootUp
  cases hr : start k e ⟨F, true, none, fun _ => 0#8⟩ with
  | ok a w' =>
    rw [hr] at this
    obtain ⟨h1, A', h2, h3⟩ := this
    have hu := updated_of w n3 hX hY h2 h3
    exact ⟨w', rfl, h1, hu, hY.bootable w n3 hu.new⟩
  | crash F' => rw [hr] at this; exact absurd rfl this.1
  | panic f => rw [hr] at this; exact this.elim
  | stuck f => rw [hr] at this; exact this.elim
  | fault f => rw [hr] at this; exact this.elim

/-- A reboot with a power failure in the middle of an installation. -/
theorem bootFail_rel {k : Cfg} (w : k.WF) (n3 : 3 ≤ k.n) {e : Env} {V : Prop × Prop} {X Y : Mem} (hX : GoodImage k e X) (hY : GoodImage k e Y)
    (hj : V.1 → e.junk ≠ ST_FINAL) (hV : V.2 → e.ver X < e.ver Y) {A F F' : Flash} (h : Rel k A F) (hM : Mid (pre k) V X Y A) {n : Nat} {t : Mem}
    (ht : TornOK k t) (hr : bootFail k e F n t = .crash F')
    (hg : V.1 ∨ V.2 := by first | assumption | exact Or.inl trivial | exact Or.inr (by assumption)) :
    ∃ A', Rel k A' F' ∧ (Mid (pre k) V X Y A' ∨ Verif.Updated (pre k) Y X A') := by
  have := start_rel w n3 hX hY hj hV h hM (b := some n) ht
  unfold bootFail at hr
  rw [hr] at this
  exact this.2

/-- **C67.** On write-once flash a requested update survives any number of power failures at any flash operations, including those in which the flags
are moved from one sector to the other. If no interrupted reboot had already completed the installation, the first uninterrupted reboot installs the new
image completely, keeps the old image completely, marks BOOT as TESTING, locks the flash and boots the new image; it neither panics nor hangs nor writes to
a unit of the flags that is not erased.

Partial: it assumes that the word "BOOT" is not present at `tmpBootPos` (in `Pending`) and does not appear there or at the end of a sector of the flags by
accident in a torn operation (in `Interrupted`); the erase of a sector of the flags of UPDATE is not torn, nor is the write of the unit with the magic. -/
theorem update_power_fail_safe_partial {k : Cfg} (w : k.WF) (n3 : 3 ≤ k.n) {e : Env} {Old New : Mem} (hO : GoodImage k e Old) (hN : GoodImage k e New)
    (hv : e.ver Old < e.ver New) {f g : Flash} (hp : Pending k Old New f) (hi : Interrupted k e (fun x => ¬ Updated k New Old x) f g) :
    ∃ w', bootUp k e g = .ok () w' ∧ w'.locked = true ∧ Updated k New Old w'.fl ∧ bootable k e (w'.fl .boot) := by
  have hmid : ∃ A, Rel k A g ∧ Mid (pre k) (False, e.ver Old < e.ver New) Old New A := by
    induction hi with
    | none =>
      obtain ⟨h1, h2⟩ := hp.abs w n3 hO hN
      exact ⟨_, h1, (h2.mid (pre_wf w n3)).resolve_right fun h => h hv⟩
    | again _ ht hr hP ih =>
      obtain ⟨A, h1, h2⟩ := ih
      obtain ⟨A', h3, h4 | h4⟩ := bootFail_rel w n3 hO hN False.elim (fun _ => hv) h1 h2 ht hr
      · exact ⟨A', h3, h4⟩
      · exact absurd (updated_of w n3 hO hN h3 h4) hP
  obtain ⟨A, h1, h2⟩ := hmid
  exact bootUp_rel w n3 hO hN False.elim (fun _ => hv) h1 h2

/-- **C67.** On write-once flash an installed image that was not confirmed is replaced by the previous one, across any number of power failures during the
rollback. Partial as above, and the uninitialised byte that is taken for the state of UPDATE must not be `IMG_STATE_FINAL_FLAGS` (C12). -/
theorem rollback_power_fail_safe_partial {k : Cfg} (w : k.WF) (n3 : 3 ≤ k.n) {e : Env} {Old New : Mem} (hO : GoodImage k e Old) (hN : GoodImage k e New)
    (hj : e.junk ≠ ST_FINAL) {f g : Flash} (hp : Updated k New Old f) (hi : Interrupted k e (fun x => ¬ Updated k Old New x) f g) :
    ∃ w', bootUp k e g = .ok () w' ∧ w'.locked = true ∧ Updated k Old New w'.fl ∧ bootable k e (w'.fl .boot) := by
  have hmid : ∃ A, Rel k A g ∧ Mid (pre k) (True, False) New Old A := by
    induction hi with
    | none =>
      obtain ⟨h1, h2⟩ := hp.abs w n3 hO hN
      exact ⟨_, h1, h2.mid (pre_wf w n3)⟩
    | again _ ht hr hP ih =>
      obtain ⟨A, h1, h2⟩ := ih
      obtain ⟨A', h3, h4 | h4⟩ := bootFail_rel w n3 hN hO (fun _ => hj) False.elim h1 h2 ht hr
      · exact ⟨A', h3, h4⟩
      · exact absurd (updated_of w n3 hN hO h3 h4) hP
  obtain ⟨A, h1, h2⟩ := hmid
  exact bootUp_rel w n3 hN hO (fun _ => hj) False.elim h1 h2

/-- **C67, every interruption history.** Without any assumption on how far the interrupted reboots got, an uninterrupted reboot ends with one image
completely installed and the other one completely in UPDATE. -/
theorem update_any_interruption_partial {k : Cfg} (w : k.WF) (n3 : 3 ≤ k.n) {e : Env} {Old New : Mem} (hO : GoodImage k e Old) (hN : GoodImage k e New)
    (hv : e.ver Old < e.ver New) (hj : e.junk ≠ ST_FINAL) {f g : Flash} (hp : Pending k Old New f) (hi : Interrupted k e (fun _ => True) f g) :
    ∃ w', bootUp k e g = .ok () w' ∧ w'.locked = true ∧ bootable k e (w'.fl .boot) ∧ (Updated k New Old w'.fl ∨ Updated k Old New w'.fl) := by
  have wp := pre_wf w n3
  have hmid : ∃ A, Rel k A g ∧ (Mid (pre k) (False, e.ver Old < e.ver New) Old New A ∨ Mid (pre k) (True, False) Old New A ∨
      Mid (pre k) (True, False) New Old A) := by
    induction hi with
    | none =>
      obtain ⟨h1, h2⟩ := hp.abs w n3 hO hN
      exact ⟨_, h1, .inl ((h2.mid wp).resolve_right fun h => h hv)⟩
    | again _ ht hr hP ih =>
      obtain ⟨A, h1, h2 | h2 | h2⟩ := ih
      · obtain ⟨A', h3, h4 | h4⟩ := bootFail_rel w n3 hO hN False.elim (fun _ => hv) h1 h2 ht hr
        · exact ⟨A', h3, .inl h4⟩
        · exact ⟨A', h3, .inr (.inr (h4.mid wp))⟩
      · obtain ⟨A', h3, h4 | h4⟩ := bootFail_rel w n3 hO hN (fun _ => hj) False.elim h1 h2 ht hr
        · exact ⟨A', h3, .inr (.inl h4)⟩
        · exact ⟨A', h3, .inr (.inr (h4.mid wp))⟩
      · obtain ⟨A', h3, h4 | h4⟩ := bootFail_rel w n3 hN hO (fun _ => hj) False.elim h1 h2 ht hr
        · exact ⟨A', h3, .inr (.inr h4)⟩
        · exact ⟨A', h3, .inr (.inl (h4.mid wp))⟩
  obtain ⟨A, h1, h2 | h2 | h2⟩ := hmid
  · obtain ⟨w', q1, q2, q3, q4⟩ := bootUp_rel w n3 hO hN False.elim (fun _ => hv) h1 h2
    exact ⟨w', q1, q2, q4, .inl q3⟩
  · obtain ⟨w', q1, q2, q3, q4⟩ := bootUp_rel w n3 hO hN (fun _ => hj) False.elim h1 h2
    exact ⟨w', q1, q2, q4, .inl q3⟩
  · obtain ⟨w', q1, q2, q3, q4⟩ := bootUp_rel w n3 hN hO (fun _ => hj) False.elim h1 h2
    exact ⟨w', q1, q2, q4, .inr q3⟩

/-! ### A small device -/

namespace Demo
open Verif.Demo

/-- Four sectors of 32 bytes, the last two of them for the flags. -/
def cfg4 : Cfg := { ss := 32, n := 4, h := 16, fb := 8 }

theorem wf4 : cfg4.WF := by constructor <;> decide

/-- A partition: an image in front, the state in the second sector of the flags, the rest erased. -/
def part4 (m : Mem) (state : Option Byte) : Mem := fun o =>
  match state with
  | none => if o < 64 then m o else 0xFF#8
  | some s =>
    if o < 64 then m o
    else match o with
      | 123 => s | 124 => 0x42#8 | 125 => 0x4F#8 | 126 => 0x4F#8 | 127 => 0x54#8
      | _ => 0xFF#8

/-- A flash with given images and states. -/
def flash4 (b : Mem) (bs : Option Byte) (u : Mem) (us : Option Byte) : Flash
  | .boot => part4 b bs
  | .update => part4 u us
  | .swap => fun _ => 0xFF#8

/-- `old` running and confirmed, `new` in UPDATE, requested. -/
def pending4 : Flash := flash4 old (some ST_SUCCESS) new (some ST_UPDATING)

/-- `new` installed and not yet confirmed, `old` in UPDATE. -/
def updated4 : Flash := flash4 new (some ST_TESTING) old none

theorem good_old4 (j : Byte := 0#8) : GoodImage cfg4 (env j) old :=
  ⟨by decide, by decide, by decide, by show le16 old 12 % 16 = 1 ∧ le16 old 12 / 256 % 256 = 2; decide,
    by show (List.all _ _) = true; decide, by show (_ == _) = true; decide, env_loc j old⟩

theorem good_new4 (j : Byte := 0#8) : GoodImage cfg4 (env j) new :=
  ⟨by decide, by decide, by decide, by show le16 new 12 % 16 = 1 ∧ le16 new 12 / 256 % 256 = 2; decide,
    by show (List.all _ _) = true; decide, by show (_ == _) = true; decide, env_loc j new⟩

theorem has_of {f : Flash} {p : Part} {X : Mem} (h : eqUpto f p X (cfg4.h + le32 X 4) = true) : Has cfg4 f p X := by
  intro o ho
  unfold eqUpto at h
  rw [List.all_eq_true] at h
  simpa using h o (List.mem_range.mpr ho)

theorem pending4_ok : Pending cfg4 old new pending4 :=
  ⟨has_of (by decide +kernel), has_of (by decide +kernel), by decide +kernel, by decide +kernel, by unfold Quiet; decide⟩

theorem erased4_of {f : Flash} (h : ∀ x, x < 128 → 64 ≤ x → f .update x = 0xFF#8) :
    ∀ x, cfg4.part - 2 * cfg4.ss ≤ x → x < cfg4.part → f .update x = 0xFF#8 := fun x h1 h2 => h x h2 h1

theorem updated4_ok : Updated cfg4 new old updated4 :=
  ⟨has_of (by decide +kernel), has_of (by decide +kernel), by decide +kernel, erased4_of (by decide +kernel), by unfold Quiet; decide⟩

/-- Power failure at operation 10 of the installation of `new`: the first sector has been swapped out and its flag has been written to the other sector of
the flags, the previous sector of the flags is about to be erased. -/
def cut4 : Flash := crashFl (bootFail cfg4 env pending4 10 (fun _ => 0#8))

/-- ... and again at operation 15 of the next reboot, leaving 0x77 bytes. -/
def cut4' : Flash := crashFl (bootFail cfg4 env cut4 15 (fun _ => 0x77#8))

/-- The same for the rollback. -/
def back4 : Flash := crashFl (bootFail cfg4 env updated4 12 (fun _ => 0#8))

/-- Non-vacuity of `update_power_fail_safe_partial`: both sectors of the flags contain the magic after the first power failure. -/
example : ((nv cfg4).magic (cut4 .update) true ∧ (nv cfg4).magic (cut4 .update) false) ∧ flagOf cfg4 cut4 0 = some FL_SWAPPING ∧
    ∃ w', bootUp cfg4 env cut4' = .ok () w' ∧ w'.locked = true ∧ Updated cfg4 new old w'.fl ∧ bootable cfg4 env (w'.fl .boot) := by
  refine ⟨by decide +kernel, by decide +kernel, ?_⟩
  refine update_power_fail_safe_partial wf4 (by decide) (good_old4 _) (good_new4 _) (by decide) pending4_ok ?_
  have h1 : isCrash (bootFail cfg4 env pending4 10 (fun _ => 0#8)) = true := by decide +kernel
  have h2 : isCrash (bootFail cfg4 env cut4 15 (fun _ => 0x77#8)) = true := by decide +kernel
  have n1 : ¬ Updated cfg4 new old cut4 := fun h => absurd h.state (by decide +kernel)
  have n2 : ¬ Updated cfg4 new old cut4' := fun h => absurd h.state (by decide +kernel)
  exact .again (.again .none (by unfold TornOK; decide) (isCrash_eq h1) n1) (by unfold TornOK; decide) (isCrash_eq h2) n2

/-- Non-vacuity of `rollback_power_fail_safe_partial`. -/
example : ∃ w', bootUp cfg4 env back4 = .ok () w' ∧ w'.locked = true ∧ Updated cfg4 old new w'.fl ∧ bootable cfg4 env (w'.fl .boot) := by
  refine rollback_power_fail_safe_partial wf4 (by decide) (good_old4 _) (good_new4 _) (by decide) updated4_ok ?_
  have h1 : isCrash (bootFail cfg4 env updated4 12 (fun _ => 0#8)) = true := by decide +kernel
  have n1 : ¬ Updated cfg4 old new back4 := fun h => absurd (h.new 8 (by decide)) (by decide +kernel)
  exact .again .none (by unfold TornOK; decide) (isCrash_eq h1) n1

/-- Non-vacuity of `update_any_interruption_partial`. -/
example : ∃ w', bootUp cfg4 env cut4 = .ok () w' ∧ w'.locked = true ∧ bootable cfg4 env (w'.fl .boot) ∧
    (Updated cfg4 new old w'.fl ∨ Updated cfg4 old new w'.fl) := by
  refine update_any_interruption_partial wf4 (by decide) (good_old4 _) (good_new4 _) (by decide) (by decide) pending4_ok ?_
  have h1 : isCrash (bootFail cfg4 env pending4 10 (fun _ => 0#8)) = true := by decide +kernel
  exact .again .none (by unfold TornOK; decide) (isCrash_eq h1) trivial

/-- `old` followed by leftover bytes "BOOT" at offset 32. -/
def pendingWord : Flash := flash4 wordImg (some ST_SUCCESS) new (some ST_UPDATING)

/-- **C67 without the guard on the word is false**: if BOOT contains the word "BOOT" behind the old image, a requested update is not installed by an
uninterrupted reboot; the request is forgotten. -/
theorem update_power_fail_unsafe_word : ∃ (k : Cfg) (e : Env) (Old New : Mem) (f : Flash) (w' : World), k.WF ∧ 3 ≤ k.n ∧ GoodImage k e Old ∧
    GoodImage k e New ∧ e.ver Old < e.ver New ∧ Has k f .boot Old ∧ Has k f .update New ∧ stateOf k f .update = some ST_UPDATING ∧
    (∀ j, j < k.n - 2 → flagOf k f j = some FL_NEW) ∧ bootUp k e f = .ok () w' ∧ ¬ Has k w'.fl .boot New ∧ stateOf k w'.fl .update = none := by
  obtain ⟨a, w', h1, h2⟩ := ok_of (r := bootUp cfg4 env pendingWord)
    (p := fun g => !(g .boot 8 == new 8) && (stateOf cfg4 g .update == none)) (by decide +kernel)
  rw [Bool.and_eq_true] at h2
  refine ⟨cfg4, env, old, new, pendingWord, w', wf4, by decide, good_old4 _, good_new4 _, by decide, has_of (by decide +kernel),
    has_of (by decide +kernel), by decide +kernel, by decide +kernel, h1, ?_, by simpa using h2.2⟩
  intro h
  have := h 8 (by decide)
  rw [this] at h2
  simp at h2

end Demo

end Nvu

end Verif
