import Verif.InvLifecycleLemmas
import Verif.InvDemo
import Verif.Trailer

/-!
# Updates and the life cycle of a device built with `WOLFBOOT_FLAGS_INVERT`: C75

The statements of C01, C02, C07 and C10, for flash that is erased to 0x00 and in which programming sets
bits.
-/

namespace Verif.Inv
open Demo

/-- **C75, as C01.** A requested update survives any number of power failures at any flash operations.
If no interrupted reboot had already completed the installation, the first uninterrupted reboot
installs the new image completely, keeps the old image completely, marks BOOT as TESTING and boots
the new image; it neither panics nor hangs nor programs a 1 bit to 0.

Partial: it assumes that the word "BOOT" is not present at offset `c.tmp` of BOOT and UPDATE (in
`Pending`) and does not appear there by accident in a torn operation (in `Interrupted`);
`update_power_fail_unsafe_word` shows that without this the claim is false. In a torn write of the state,
the two bits by which UPDATING and FINAL_FLAGS differ must not be separated (`torn_final`). Images fit in front of
the trailer sector (see C08). -/
theorem update_power_fail_safe_partial {c : Cfg} (w : c.WF) {e : Env} {Old New : Mem}
    (hO : GoodImage c e Old) (hN : GoodImage c e New) (hv : e.ver Old < e.ver New)
    {f g : Flash} (hp : Pending c Old New f)
    (hi : Interrupted c e (fun x => ¬ Updated c New Old x) f g) :
    ∃ w', bootUp c e g = .ok () w' ∧ w'.locked = true ∧ Updated c New Old w'.fl ∧
      bootable c e (w'.fl .boot) := by
  have hmid : Mid c (False, e.ver Old < e.ver New) Old New g := by
    induction hi with
    | none => exact (hp.mid w).resolve_right (fun h => h hv)
    | again _ ht hr hP ih =>
      exact (bootFail_of (start_mid w (hO.newOK w).img (hN.newOK w) False.elim
        (fun m _ hm => version_hyp hO hv m hm) ih) ht hr).resolve_right hP
  obtain ⟨w', h1, h2, h3⟩ := bootUp_of (start_mid w (hO.newOK w).img (hN.newOK w) False.elim
    (fun m _ hm => version_hyp hO hv m hm) hmid)
  refine ⟨w', h1, h2, h3, ?_⟩
  exact (bootable_congr w (hN.newOK w).loc (holds_iff.mp h3.new)).mpr ((hN.newOK w).bootable w)

/-- Non-vacuity: a device whose installation is interrupted twice, first while the first sector of
UPDATE is being overwritten and then in the second sector. -/
example : cut2 .update 0 = 0x57#8 ∧ cut1 .boot 40 = 0x00#8 ∧
    ∃ w', bootUp cfg env cut2 = .ok () w' ∧ w'.locked = true ∧ Updated cfg new old w'.fl ∧
      bootable cfg env (w'.fl .boot) := by
  refine ⟨by decide +kernel, by decide +kernel, ?_⟩
  refine update_power_fail_safe_partial wf (good_old _) (good_new _) (by decide) pending_ok ?_
  have h1 : isCrash (bootFail cfg env pending 9 (fun _ => 0#8)) = true := by decide +kernel
  have h2 : isCrash (bootFail cfg env cut1 12 (fun _ => 0x77#8)) = true := by decide +kernel
  have n1 : ¬ Updated cfg new old cut1 := fun h => absurd h.state (by decide +kernel)
  have n2 : ¬ Updated cfg new old cut2 := fun h => absurd h.state (by decide +kernel)
  exact .again (.again .none (by unfold TornOK; decide) (isCrash_eq h1) n1)
    (by unfold TornOK; decide) (isCrash_eq h2) n2

/-- **Without the guard on the word it is false**: if BOOT contains the word "BOOT" behind the old image, a
requested update is not installed by an uninterrupted reboot; the request is forgotten and the old
image is marked as TESTING. -/
theorem update_power_fail_unsafe_word :
    ∃ (c : Cfg) (e : Env) (Old New : Mem) (f : Flash) (w' : World), c.WF ∧
      GoodImage c e Old ∧ GoodImage c e New ∧ e.ver Old < e.ver New ∧
      Holds c f .boot Old ∧ Holds c f .update New ∧ getState c f .update = some ST_UPDATING ∧
      (∀ j, j < c.n - 1 → getFlag c f j = some FL_NEW) ∧
      bootUp c e f = .ok () w' ∧ ¬ Holds c w'.fl .boot New ∧ getState c w'.fl .update = none := by
  let f : Flash := flash wordImg (some ST_SUCCESS) new (some ST_UPDATING)
  obtain ⟨a, w', h1, h2⟩ := ok_of (r := bootUp cfg env f)
    (p := fun g => !(g .boot 8 == new 8) && (getState cfg g .update == none)) (by decide +kernel)
  rw [Bool.and_eq_true] at h2
  refine ⟨cfg, env, old, new, f, w', wf, good_old _, good_new _, by decide, holds_of (by decide),
    holds_of (by decide), by decide, by decide, h1, ?_, by simpa using h2.2⟩
  intro h
  have := h 8 (by decide)
  rw [this] at h2
  simp at h2

/-- **C75, as C02.** An installed image that was not confirmed is replaced by the previous one, across any
number of power failures during the rollback.

Partial: same assumption on the word "BOOT" as C01, and the uninitialised stack byte that is taken
for the state of UPDATE (C12) must not be `IMG_STATE_FINAL_FLAGS`. -/
theorem rollback_power_fail_safe_partial {c : Cfg} (w : c.WF) {e : Env} {Old New : Mem}
    (hO : GoodImage c e Old) (hN : GoodImage c e New) (hj : e.junk ≠ ST_FINAL)
    {f g : Flash} (hp : Updated c New Old f)
    (hi : Interrupted c e (fun x => ¬ Updated c Old New x) f g) :
    ∃ w', bootUp c e g = .ok () w' ∧ w'.locked = true ∧ Updated c Old New w'.fl ∧
      bootable c e (w'.fl .boot) := by
  have hmid : Mid c (True, False) New Old g := by
    induction hi with
    | none => exact hp.mid w
    | again _ ht hr hP ih =>
      exact (bootFail_of (start_mid w (hN.newOK w).img (hO.newOK w) (fun _ => hj)
        (fun _ h _ => False.elim h) ih) ht hr).resolve_right hP
  obtain ⟨w', h1, h2, h3⟩ := bootUp_of (start_mid w (hN.newOK w).img (hO.newOK w) (fun _ => hj)
    (fun _ h _ => False.elim h) hmid)
  refine ⟨w', h1, h2, h3, ?_⟩
  exact (bootable_congr w (hO.newOK w).loc (holds_iff.mp h3.new)).mpr ((hO.newOK w).bootable w)

/-- Non-vacuity: rollback interrupted once. -/
example : ∃ w', bootUp cfg env back1 = .ok () w' ∧ w'.locked = true ∧ Updated cfg old new w'.fl ∧
      bootable cfg env (w'.fl .boot) := by
  refine rollback_power_fail_safe_partial wf (good_old _) (good_new _) (by decide) updated_ok ?_
  have h1 : isCrash (bootFail cfg env updated 9 (fun _ => 0#8)) = true := by decide +kernel
  have n1 : ¬ Updated cfg old new back1 := fun h => absurd (h.new 8 (by decide)) (by decide +kernel)
  exact .again .none (by unfold TornOK; decide) (isCrash_eq h1) n1

/-- **C75, every interruption history.** Without any assumption on how far the interrupted
reboots got, an uninterrupted reboot ends with one image completely installed and the other one
completely in UPDATE. (If the power fails after the installation has been completed, but before the
new image could confirm, the next reboot rolls back.) -/
theorem update_any_interruption_partial {c : Cfg} (w : c.WF) {e : Env} {Old New : Mem}
    (hO : GoodImage c e Old) (hN : GoodImage c e New) (hv : e.ver Old < e.ver New)
    (hj : e.junk ≠ ST_FINAL) {f g : Flash} (hp : Pending c Old New f)
    (hi : Interrupted c e (fun _ => True) f g) :
    ∃ w', bootUp c e g = .ok () w' ∧ w'.locked = true ∧ bootable c e (w'.fl .boot) ∧
      (Updated c New Old w'.fl ∨ Updated c Old New w'.fl) := by
  have goO := hO.newOK w
  have goN := hN.newOK w
  have hmid : Mid c (False, e.ver Old < e.ver New) Old New g ∨ Mid c (True, False) Old New g ∨
      Mid c (True, False) New Old g := by
    induction hi with
    | none => exact Or.inl ((hp.mid w).resolve_right (fun h => h hv))
    | again _ ht hr hP ih =>
      rcases ih with ih | ih | ih
      · rcases bootFail_of (start_mid w goO.img goN False.elim
          (fun m _ hm => version_hyp hO hv m hm) ih) ht hr with h | h
        · exact Or.inl h
        · exact Or.inr (Or.inr (h.mid w))
      · rcases bootFail_of (start_mid w goO.img goN (fun _ => hj)
          (fun _ h _ => False.elim h) ih) ht hr with h | h
        · exact Or.inr (Or.inl h)
        · exact Or.inr (Or.inr (h.mid w))
      · rcases bootFail_of (start_mid w goN.img goO (fun _ => hj)
          (fun _ h _ => False.elim h) ih) ht hr with h | h
        · exact Or.inr (Or.inr h)
        · exact Or.inr (Or.inl (h.mid w))
  rcases hmid with h | h | h
  · obtain ⟨w', h1, h2, h3⟩ := bootUp_of (start_mid w goO.img goN False.elim
      (fun m _ hm => version_hyp hO hv m hm) h)
    exact ⟨w', h1, h2, (bootable_congr w goN.loc (holds_iff.mp h3.new)).mpr (goN.bootable w),
      Or.inl h3⟩
  · obtain ⟨w', h1, h2, h3⟩ := bootUp_of (start_mid w goO.img goN (fun _ => hj)
      (fun _ h _ => False.elim h) h)
    exact ⟨w', h1, h2, (bootable_congr w goN.loc (holds_iff.mp h3.new)).mpr (goN.bootable w),
      Or.inl h3⟩
  · obtain ⟨w', h1, h2, h3⟩ := bootUp_of (start_mid w goN.img goO (fun _ => hj)
      (fun _ h _ => False.elim h) h)
    exact ⟨w', h1, h2, (bootable_congr w goO.loc (holds_iff.mp h3.new)).mpr (goO.bootable w),
      Or.inr h3⟩

/-- Non-vacuity. -/
example : ∃ w', bootUp cfg env cut1 = .ok () w' ∧ w'.locked = true ∧ bootable cfg env (w'.fl .boot) ∧
      (Updated cfg new old w'.fl ∨ Updated cfg old new w'.fl) := by
  refine update_any_interruption_partial wf (good_old _) (good_new _) (by decide) (by decide)
    pending_ok ?_
  have h1 : isCrash (bootFail cfg env pending 9 (fun _ => 0#8)) = true := by decide +kernel
  exact .again .none (by unfold TornOK; decide) (isCrash_eq h1) trivial

/-- The device is off (between two boots) or running the application. -/
inductive Sys where
  | off (f : Flash)
  | app (f : Flash)

/-- Steps of the life cycle. The application runs after `wolfBoot_start` has handed over control; it
may write UPDATE (except for the trailer sector, which belongs to the library), and call
`wolfBoot_update_trigger` and `wolfBoot_success`, at any time and in any order. Power can fail at any
flash operation of the bootloader and of the library. -/
inductive Step (c : Cfg) (e : Env) : Sys → Sys → Prop
  /-- the bootloader completes -/
  | boot {f : Flash} {w' : World} (b : Option Nat) (t : Mem) : TornOK c MAGIC_TRAIL t →
      start c e ⟨f, true, b, t⟩ = .ok () w' → Step c e (.off f) (.app w'.fl)
  /-- power failure in the bootloader -/
  | bootCut {f g : Flash} (n : Nat) (t : Mem) : TornOK c MAGIC_TRAIL t →
      start c e ⟨f, true, some n, t⟩ = .crash g → Step c e (.off f) (.off g)
  /-- reset or power failure while the application runs -/
  | reset {f : Flash} : Step c e (.app f) (.off f)
  /-- the application writes any bytes to UPDATE -/
  | write {f g : Flash} : g .boot = f .boot → (∀ x, c.part - c.ss ≤ x → g .update x = f .update x) →
      le32 (g .update) c.tmp ≠ MAGIC_TRAIL → Step c e (.app f) (.app g)
  | trigger {f : Flash} {w' : World} (whole : Bool) (b : Option Nat) (t : Mem) :
      updateTrigger c whole ⟨f, true, b, t⟩ = .ok () w' → Step c e (.app f) (.app w'.fl)
  | triggerCut {f g : Flash} (whole : Bool) (n : Nat) (t : Mem) :
      updateTrigger c whole ⟨f, true, some n, t⟩ = .crash g → Step c e (.app f) (.off g)
  | confirm {f : Flash} {w' : World} (b : Option Nat) (t : Mem) :
      success c ⟨f, true, b, t⟩ = .ok () w' → Step c e (.app f) (.app w'.fl)
  | confirmCut {f g : Flash} (n : Nat) (t : Mem) :
      success c ⟨f, true, some n, t⟩ = .crash g → Step c e (.app f) (.off g)

/-- Any finite history. -/
inductive History (c : Cfg) (e : Env) (s0 : Sys) : Sys → Prop
  | nil : History c e s0 s0
  | snoc {s s' : Sys} : History c e s0 s → Step c e s s' → History c e s0 s'

/-- Delivery state: image `X` in BOOT, trailers erased (or BOOT trailer with its magic). -/
structure Delivered (c : Cfg) (X : Mem) (f : Flash) : Prop where
  holds : Holds c f .boot X
  quiet : Quiet c f
  erasedU : ∀ x, c.part - c.ss ≤ x → x < c.part → f .update x = 0x00#8
  bootTrailer : getState c f .boot ≠ none ∨
    ∀ x, c.part - 4 ≤ x → x < c.part → f .boot x = 0x00#8

theorem Delivered.idleL {c : Cfg} {e : Env} (w : c.WF) {X : Mem} {f : Flash} (hX : GoodImage c e X)
    (h : Delivered c X f) : IdleL c e f := by
  have hss := w.ss_pos
  have hn := w.n512
  have hff := w.flags_fit
  have hpe := w.part_eq
  have htb := trailer_bounds w (k := 1) (by omega)
  have htb0 := trailer_bounds w (k := 0) (by omega)
  refine ⟨X, hX, ⟨holds_iff.mp h.holds, h.quiet.1, h.quiet.2, ?_, ?_, ?_⟩, ?_⟩
  · intro j hj
    have : flagPos j ≤ c.n / 2 := by rw [flagPos_lt (by omega)]; omega
    have := trailer_bounds w (k := 2 + flagPos j) (by omega)
    unfold rawFlag
    rw [h.erasedU _ (by omega) (by omega)]
    exact nib_ff j
  · intro i hi
    rw [h.erasedU _ (by omega) (by omega)]
    exact BitVec.zero_or
  · rw [h.erasedU _ (by omega) (by omega)]; decide
  · rcases h.bootTrailer with h | h
    · refine hasMagic.magicP ?_
      apply Classical.byContradiction
      intro hn
      exact h (by unfold getState; rw [if_neg hn])
    · intro i hi
      rw [h _ (by omega) (by omega)]
      exact BitVec.zero_or

theorem history_inv {c : Cfg} {e : Env} (w : c.WF)
    (hs : ∀ m, acceptable c e m → GoodImage c e m) (hj : e.junk ≠ ST_FINAL) {X : Mem} {f0 : Flash}
    (hX : GoodImage c e X) (h0 : Delivered c X f0) {s : Sys} (h : History c e (.off f0) s) :
    (∀ f, s = .off f → OffL c e f) ∧ (∀ f, s = .app f → IdleL c e f) := by
  induction h with
  | nil =>
    refine ⟨fun f hf => ?_, fun f hf => by simp at hf⟩
    cases hf
    exact Or.inl (h0.idleL w hX)
  | snoc _ hst ih =>
    cases hst with
    | boot b t ht hr =>
      refine ⟨fun f hf => by simp at hf, fun f hf => ?_⟩
      cases hf
      have := startL_spec w hs hj (ih.1 _ rfl) ⟨_, true, b, t⟩ ht rfl rfl
      rw [hr] at this
      exact this.2.2.2
    | bootCut n t ht hr =>
      refine ⟨fun f hf => ?_, fun f hf => by simp at hf⟩
      cases hf
      have := startL_spec w hs hj (ih.1 _ rfl) ⟨_, true, some n, t⟩ ht rfl rfl
      rw [hr] at this
      exact this.2
    | reset =>
      refine ⟨fun f hf => ?_, fun f hf => by simp at hf⟩
      cases hf
      exact Or.inl (ih.2 _ rfl)
    | write hb hu hq =>
      refine ⟨fun f hf => by simp at hf, fun f hf => ?_⟩
      cases hf
      exact writeL w (ih.2 _ rfl) hb (by rw [← last_part w]; exact hu) hq
    | trigger whole b t hr =>
      refine ⟨fun f hf => by simp at hf, fun f hf => ?_⟩
      cases hf
      have := triggerL_spec w (T := fun _ => True) (l := true) whole (ih.2 _ rfl) ⟨_, true, b, t⟩
        trivial rfl rfl
      rw [hr] at this
      exact this.2.2.2
    | triggerCut whole n t hr =>
      refine ⟨fun f hf => ?_, fun f hf => by simp at hf⟩
      cases hf
      have := triggerL_spec w (T := fun _ => True) (l := true) whole (ih.2 _ rfl)
        ⟨_, true, some n, t⟩ trivial rfl rfl
      rw [hr] at this
      exact Or.inl this.2
    | confirm b t hr =>
      refine ⟨fun f hf => by simp at hf, fun f hf => ?_⟩
      cases hf
      have := successL_spec w (T := fun _ => True) (l := true) (ih.2 _ rfl) ⟨_, true, b, t⟩
        trivial rfl rfl
      rw [hr] at this
      exact this.2.2.2
    | confirmCut n t hr =>
      refine ⟨fun f hf => ?_, fun f hf => by simp at hf⟩
      cases hf
      have := successL_spec w (T := fun _ => True) (l := true) (ih.2 _ rfl)
        ⟨_, true, some n, t⟩ trivial rfl rfl
      rw [hr] at this
      exact Or.inl this.2

/-- **C75, as C07.** After every history of application actions and interrupted or completed reboots, an
uninterrupted reboot hands over control to an image in BOOT that verifies; it never panics, hangs or
faults. (The application may even write UPDATE while an update is pending or under test.)

Partial: images that verify are assumed to fit in front of the trailer sector (C08 shows that the
bootloader does not check this) and the verdict must depend on the image bytes only (`hs`, proved
for the image format in `Verif.Image`); the word "BOOT" must not occur at offset `c.tmp` (C01); the
uninitialised byte of C12 is not 0xBF; torn erases of the UPDATE trailer sector are atomic. -/
theorem lifecycle_never_bricks_partial {c : Cfg} {e : Env} (w : c.WF)
    (hs : ∀ m, acceptable c e m → GoodImage c e m) (hj : e.junk ≠ ST_FINAL) {X : Mem} {f0 : Flash}
    (hX : GoodImage c e X) (h0 : Delivered c X f0) {f : Flash} (h : History c e (.off f0) (.off f)) :
    ∃ w', bootUp c e f = .ok () w' ∧ w'.locked = true ∧ le32 (w'.fl .boot) 0 = MAGIC ∧
      e.integ (w'.fl .boot) = true ∧ e.auth (w'.fl .boot) = true := by
  have hI := (history_inv w hs hj hX h0 h).1 f rfl
  obtain ⟨w', h1, h2, X, hX, hI, _⟩ := bootUp_of (startL_spec w hs hj hI)
  refine ⟨w', h1, h2, ?_⟩
  have := (bootable_congr w (hX.newOK w).loc hI.boot).mpr ((hX.newOK w).bootable w)
  exact ⟨this.1.1, this.2.1, this.2.2⟩

/-- **C75, as C10.** In every history, no execution of the bootloader or of the two library functions tries
to change a bit from 1 to 0 by programming: with a flash that rejects such writes
(`c.strict = true`), the rejection never happens, whether or not the power fails.

Partial: guards as for `lifecycle_never_bricks_partial`. -/
theorem no_bit_cleared_by_programming_partial {c : Cfg} {e : Env} (w : c.WF) (_strict : c.strict = true)
    (hs : ∀ m, acceptable c e m → GoodImage c e m) (hj : e.junk ≠ ST_FINAL) {X : Mem} {f0 : Flash}
    (hX : GoodImage c e X) (h0 : Delivered c X f0) (b : Option Nat) (t : Mem)
    (ht : TornOK c MAGIC_TRAIL t) (f g : Flash) :
    (History c e (.off f0) (.off f) → start c e ⟨f, true, b, t⟩ ≠ .fault g) ∧
    (History c e (.off f0) (.app f) → (∀ whole, updateTrigger c whole ⟨f, true, b, t⟩ ≠ .fault g) ∧
      success c ⟨f, true, b, t⟩ ≠ .fault g) := by
  refine ⟨fun h hr => ?_, fun h => ⟨fun whole hr => ?_, fun hr => ?_⟩⟩
  · have := startL_spec w hs hj ((history_inv w hs hj hX h0 h).1 f rfl) ⟨f, true, b, t⟩ ht rfl rfl
    rw [hr] at this; exact this
  · have := triggerL_spec w (T := fun _ => True) (l := true) whole ((history_inv w hs hj hX h0 h).2 f rfl)
      ⟨f, true, b, t⟩ trivial rfl rfl
    rw [hr] at this; exact this
  · have := successL_spec w (T := fun _ => True) (l := true) ((history_inv w hs hj hX h0 h).2 f rfl)
      ⟨f, true, b, t⟩ trivial rfl rfl
    rw [hr] at this; exact this

/-! ### Non-vacuity -/

/-- Device whose checks accept only images that fit. -/
def lifeEnv : Env := { env with auth := fun m => m 10 == 0x5A#8 && decide (le32 m 0 = MAGIC ∧ 0 < le32 m 4 ∧ le32 m 4 ≤ 48) }

theorem lifeEnv_signed : ∀ m, acceptable cfg lifeEnv m → GoodImage cfg lifeEnv m := by
  rintro m ⟨h1, h2, h3, h4⟩
  have h4' : m 10 = 0x5A#8 ∧ le32 m 0 = MAGIC ∧ 0 < le32 m 4 ∧ le32 m 4 ≤ 48 := by
    simpa [lifeEnv] using h4
  refine ⟨h4'.2.1, h4'.2.2.1, ?_, h1, h3, h4, ?_⟩
  · show 16 + le32 m 4 ≤ 64
    omega
  · intro x hx
    obtain ⟨e1, e2, e3, e4⟩ := env_loc 0#8 m x hx
    have hl : 16 ≤ imageBytes cfg m := Nat.le_add_right 16 _
    have l0 : le32 x 0 = le32 m 0 := by
      unfold le32
      rw [hx 0 (by omega), hx (0 + 1) (by omega), hx (0 + 2) (by omega), hx (0 + 3) (by omega)]
    have l4 : le32 x 4 = le32 m 4 := by
      unfold le32
      rw [hx 4 (by omega), hx (4 + 1) (by omega), hx (4 + 2) (by omega), hx (4 + 3) (by omega)]
    refine ⟨e1, e2, e3, ?_⟩
    show (x 10 == 0x5A#8 && decide (le32 x 0 = MAGIC ∧ 0 < le32 x 4 ∧ le32 x 4 ≤ 48)) =
      (m 10 == 0x5A#8 && decide (le32 m 0 = MAGIC ∧ 0 < le32 m 4 ∧ le32 m 4 ≤ 48))
    rw [l0, l4, hx 10 (by omega)]

/-- Device as delivered. -/
def delivered : Flash := flash old none (fun _ => 0x00#8) none

theorem delivered_ok : Delivered cfg old delivered :=
  ⟨holds_of (by decide), by unfold Quiet; decide, erased_of (by decide),
    Or.inr (fun x h1 h2 => by
      have h1' : 92 ≤ x := h1
      have h2' : x < 96 := h2
      show (if x < 64 then _ else 0x00#8) = 0x00#8
      rw [if_neg (by omega)])⟩

/-- The application writes `new`, requests it; the power fails during the installation. -/
example : ∃ g, History cfg lifeEnv (.off delivered) (.off g) ∧ g .update 0 = 0xFF#8 ∧
    ∃ w', bootUp cfg lifeEnv g = .ok () w' ∧ w'.locked = true ∧ le32 (w'.fl .boot) 0 = MAGIC ∧
      lifeEnv.integ (w'.fl .boot) = true ∧ lifeEnv.auth (w'.fl .boot) = true := by
  have hg : GoodImage cfg lifeEnv old := lifeEnv_signed old (by decide)
  have hr : ∃ g, History cfg lifeEnv (.off delivered) (.off g) ∧ g .update 0 = 0xFF#8 := by
    obtain ⟨_, w1, h1, p1⟩ := ok_of (r := start cfg lifeEnv ⟨delivered, true, none, fun _ => 0#8⟩)
      (p := fun f => decide (le32 (f .boot) cfg.tmp ≠ MAGIC_TRAIL)) (by decide +kernel)
    have hk := (Triple.conseq (start_idle (T := TT cfg) (l := true) (X := old) (f0 := delivered)
      (e := lifeEnv) (C := fun _ => True) wf (by decide) (by decide) (by decide) (by decide)
      (by rintro ⟨⟨h, _⟩, _⟩; revert h; decide) trivial) (fun _ h => h) (fun _ _ h => h)
      (fun _ h => h)) ⟨delivered, true, none, fun _ => 0#8⟩ (by unfold TT TornOK; decide) rfl rfl
    rw [h1] at hk
    have hw1 : w1.fl = delivered := hk.2.2.2
    have s1 : History cfg lifeEnv (.off delivered) (.app delivered) := by
      have := History.snoc .nil (Step.boot (c := cfg) (e := lifeEnv) none (fun _ => 0#8)
        (by unfold TornOK; decide) h1)
      rw [hw1] at this; exact this
    have s2 : History cfg lifeEnv (.off delivered) (.app (flash old none new none)) := by
      refine s1.snoc (Step.write rfl ?_ (by decide))
      intro x hx
      have hx' : 64 ≤ x := hx
      show (if x < 64 then _ else _) = (if x < 64 then _ else _)
      rw [if_neg (by omega), if_neg (by omega)]
    let r := updateTrigger cfg false ⟨flash old none new none, true, none, fun _ => 0#8⟩
    obtain ⟨_, w2, h2, _⟩ := ok_of (r := r) (p := fun _ => true) (by decide +kernel)
    have s3 := s2.snoc (Step.trigger false none _ h2)
    have s4 := s3.snoc Step.reset
    have e2 : w2.fl = crashFl r := by rw [h2]; rfl
    rw [e2] at s4
    have h3 : isCrash (start cfg lifeEnv ⟨crashFl r, true, some 7, fun _ => 0xFF#8⟩) = true := by
      decide +kernel
    refine ⟨_, s4.snoc (Step.bootCut 7 (fun _ => 0xFF#8) (by unfold TornOK; decide) (isCrash_eq h3)), ?_⟩
    decide +kernel
  obtain ⟨g, h, hp⟩ := hr
  exact ⟨g, h, hp, lifecycle_never_bricks_partial wf lifeEnv_signed (by decide) hg delivered_ok h⟩

/-- The strict flash of C10 does reject: a second request without an erase in between, on a trailer
whose state byte is 0xFF (never the case in a history). -/
example : (match setState cfgS .update ST_UPDATING ⟨flash old none new (some ST_SUCCESS), false, none,
    fun _ => 0#8⟩ with | .fault _ => true | _ => false) = true := by decide +kernel

/-- **Finding: the two bits.** In this encoding UPDATING (0x8F) and FINAL_FLAGS (0xBF) differ in two bits. If
the power fails when one of them has been programmed, the next, uninterrupted, reboot starts the new
image with the state the old image had left: it counts as confirmed although nobody confirmed it, and
no later reboot goes back to the old image. In the other encoding this cannot happen
(`Verif.rollback_power_fail_safe_partial`, `Verif.update_power_fail_safe_partial`). The word "BOOT" does not
occur in the torn bytes. -/
theorem torn_final :
    ∃ (c : Cfg) (e : Env) (Old New : Mem) (f g : Flash) (n : Nat) (t : Mem) (w1 w2 : World), c.WF ∧
      GoodImage c e Old ∧ GoodImage c e New ∧ e.ver Old < e.ver New ∧ e.junk ≠ ST_FINAL ∧
      Pending c Old New f ∧ le32 t c.tmp ≠ MAGIC_TRAIL ∧ bootFail c e f n t = .crash g ∧
      bootUp c e g = .ok () w1 ∧ Holds c w1.fl .boot New ∧ getState c w1.fl .boot = some ST_SUCCESS ∧
      bootUp c e w1.fl = .ok () w2 ∧ Holds c w2.fl .boot New ∧
      getState c w2.fl .boot = some ST_SUCCESS := by
  have h1 : isCrash (bootFail cfg env pending 38 (fun _ => 0x10#8)) = true := by decide +kernel
  let g := crashFl (bootFail cfg env pending 38 (fun _ => 0x10#8))
  have hg : bootFail cfg env pending 38 (fun _ => 0x10#8) = .crash g := isCrash_eq h1
  let p : Flash → Bool := fun x => eqUpto x .boot new (imageBytes cfg new) && (getState cfg x .boot == some ST_SUCCESS)
  obtain ⟨_, w1, r1, p1⟩ := ok_of (r := bootUp cfg env g)
    (p := fun x => p x && okAnd (bootUp cfg env x) p) (by decide +kernel)
  rw [Bool.and_eq_true] at p1
  obtain ⟨_, w2, r2, p2⟩ := ok_of p1.2
  have q1 := p1.1
  simp only [p, Bool.and_eq_true] at q1 p2
  exact ⟨cfg, env, old, new, pending, g, 38, fun _ => 0x10#8, w1, w2, wf, good_old _, good_new _, by decide,
    by decide, pending_ok, by decide, hg, r1, holds_of q1.1, by simpa using q1.2, r2, holds_of p2.1,
    by simpa using p2.2⟩

/-- The constants are those of the other kind of flash with every bit inverted, flags in four bits; not so the intermediate state
`IMG_STATE_FINAL_FLAGS`, `/repo/include/wolfboot/wolfboot.h:308-323`, `/repo/include/image.h:104-114`. -/
theorem constants : ST_NEW = ~~~ Verif.ST_NEW ∧ ST_UPDATING = ~~~ Verif.ST_UPDATING ∧ ST_TESTING = ~~~ Verif.ST_TESTING ∧
    ST_SUCCESS = ~~~ Verif.ST_SUCCESS ∧ ST_FINAL = (~~~ Verif.ST_FINAL) ^^^ 0x70#8 ∧
    FL_NEW = Verif.FL_NEW ^^^ 0x0F#8 ∧ FL_SWAPPING = Verif.FL_SWAPPING ^^^ 0x0F#8 ∧ FL_BACKUP = Verif.FL_BACKUP ^^^ 0x0F#8 ∧
    FL_UPDATED = Verif.FL_UPDATED ^^^ 0x0F#8 := by decide

end Verif.Inv
