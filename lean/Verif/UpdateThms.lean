import Verif.UpdateLemmas
import Verif.Demo

/-!
# Properties of the update procedure under power failures: C01, C02
-/

namespace Verif
open Demo

/-- **C01.** A requested update survives any number of power failures at any flash operations.
If no interrupted reboot had already completed the installation, the first uninterrupted reboot
installs the new image completely, keeps the old image completely, marks BOOT as TESTING and boots
the new image; it neither panics nor hangs nor programs a 0 bit to 1.

Partial: it assumes that the word "BOOT" is not present at offset `c.tmp` of BOOT and UPDATE (in
`Pending`) and does not appear there by accident in a torn operation (in `Interrupted`);
`update_power_fail_unsafe_word` shows that without this the claim is false. Images fit in front of
the trailer sector (see C08). -/
theorem update_power_fail_safe_partial {c : Cfg} (w : c.WF) {e : Env} {Old New : Mem}
    (hO : GoodImage c e Old) (hN : GoodImage c e New) (hv : e.ver Old < e.ver New)
    {f g : Flash} (hp : Pending c Old New f)
    (hi : Interrupted c e (fun x => ¬ Updated c New Old x) f g) :
    ∃ w', bootUp c e g = .ok () w' ∧ w'.locked = true ∧ Updated c New Old w'.fl ∧
      bootable c e (w'.fl .boot) := by
  have hmid : Mid c (False, e.ver Old < e.ver New) Old New g := by
    induction hi with
    | none => exact (hp.mid w).resolve_right (fun h => h hv)
    | again _ ht hr hP ih =>
      exact (bootFail_of (start_mid w (hO.newOK w).img (hN.newOK w) False.elim
        (fun m _ hm => version_hyp hO hv m hm) ih) ht hr).resolve_right hP
  obtain ⟨w', h1, h2, h3⟩ := bootUp_of (start_mid w (hO.newOK w).img (hN.newOK w) False.elim
    (fun m _ hm => version_hyp hO hv m hm) hmid)
  refine ⟨w', h1, h2, h3, ?_⟩
  exact (bootable_congr w (hN.newOK w).loc (holds_iff.mp h3.new)).mpr ((hN.newOK w).bootable w)

/-- Non-vacuity: a device whose installation is interrupted twice, first while the first sector of
UPDATE is being overwritten and then in the second sector. -/
example : cut2 .update 0 = 0x57#8 ∧ cut1 .boot 40 = 0xFF#8 ∧
    ∃ w', bootUp cfg env cut2 = .ok () w' ∧ w'.locked = true ∧ Updated cfg new old w'.fl ∧
      bootable cfg env (w'.fl .boot) := by
  refine ⟨by decide +kernel, by decide +kernel, ?_⟩
  refine update_power_fail_safe_partial wf (good_old _) (good_new _) (by decide) pending_ok ?_
  have h1 : isCrash (bootFail cfg env pending 9 (fun _ => 0#8)) = true := by decide +kernel
  have h2 : isCrash (bootFail cfg env cut1 12 (fun _ => 0x77#8)) = true := by decide +kernel
  have n1 : ¬ Updated cfg new old cut1 := fun h => absurd h.state (by decide +kernel)
  have n2 : ¬ Updated cfg new old cut2 := fun h => absurd h.state (by decide +kernel)
  exact .again (.again .none (by unfold TornOK; decide) (isCrash_eq h1) n1)
    (by unfold TornOK; decide) (isCrash_eq h2) n2

/-- **C01 without the guard is false**: if BOOT contains the word "BOOT" behind the old image, a
requested update is not installed by an uninterrupted reboot; the request is forgotten and the old
image is marked as TESTING. -/
theorem update_power_fail_unsafe_word :
    ∃ (c : Cfg) (e : Env) (Old New : Mem) (f : Flash) (w' : World), c.WF ∧
      GoodImage c e Old ∧ GoodImage c e New ∧ e.ver Old < e.ver New ∧
      Holds c f .boot Old ∧ Holds c f .update New ∧ getState c f .update = some ST_UPDATING ∧
      (∀ j, j < c.n - 1 → getFlag c f j = some FL_NEW) ∧
      bootUp c e f = .ok () w' ∧ ¬ Holds c w'.fl .boot New ∧ getState c w'.fl .update = none := by
  let f : Flash := flash wordImg (some ST_SUCCESS) new (some ST_UPDATING)
  obtain ⟨a, w', h1, h2⟩ := ok_of (r := bootUp cfg env f)
    (p := fun g => !(g .boot 8 == new 8) && (getState cfg g .update == none)) (by decide +kernel)
  rw [Bool.and_eq_true] at h2
  refine ⟨cfg, env, old, new, f, w', wf, good_old _, good_new _, by decide, holds_of (by decide),
    holds_of (by decide), by decide, by decide, h1, ?_, by simpa using h2.2⟩
  intro h
  have := h 8 (by decide)
  rw [this] at h2
  simp at h2

/-- **C02.** An installed image that was not confirmed is replaced by the previous one, across any
number of power failures during the rollback.

Partial: same assumption on the word "BOOT" as C01, and the uninitialised stack byte that is taken
for the state of UPDATE (C12) must not be `IMG_STATE_FINAL_FLAGS`. -/
theorem rollback_power_fail_safe_partial {c : Cfg} (w : c.WF) {e : Env} {Old New : Mem}
    (hO : GoodImage c e Old) (hN : GoodImage c e New) (hj : e.junk ≠ ST_FINAL)
    {f g : Flash} (hp : Updated c New Old f)
    (hi : Interrupted c e (fun x => ¬ Updated c Old New x) f g) :
    ∃ w', bootUp c e g = .ok () w' ∧ w'.locked = true ∧ Updated c Old New w'.fl ∧
      bootable c e (w'.fl .boot) := by
  have hmid : Mid c (True, False) New Old g := by
    induction hi with
    | none => exact hp.mid w
    | again _ ht hr hP ih =>
      exact (bootFail_of (start_mid w (hN.newOK w).img (hO.newOK w) (fun _ => hj)
        (fun _ h _ => False.elim h) ih) ht hr).resolve_right hP
  obtain ⟨w', h1, h2, h3⟩ := bootUp_of (start_mid w (hN.newOK w).img (hO.newOK w) (fun _ => hj)
    (fun _ h _ => False.elim h) hmid)
  refine ⟨w', h1, h2, h3, ?_⟩
  exact (bootable_congr w (hO.newOK w).loc (holds_iff.mp h3.new)).mpr ((hO.newOK w).bootable w)

/-- Non-vacuity: rollback interrupted once. -/
example : ∃ w', bootUp cfg env back1 = .ok () w' ∧ w'.locked = true ∧ Updated cfg old new w'.fl ∧
      bootable cfg env (w'.fl .boot) := by
  refine rollback_power_fail_safe_partial wf (good_old _) (good_new _) (by decide) updated_ok ?_
  have h1 : isCrash (bootFail cfg env updated 9 (fun _ => 0#8)) = true := by decide +kernel
  have n1 : ¬ Updated cfg old new back1 := fun h => absurd (h.new 8 (by decide)) (by decide +kernel)
  exact .again .none (by unfold TornOK; decide) (isCrash_eq h1) n1

/-- **C01/C02, every interruption history.** Without any assumption on how far the interrupted
reboots got, an uninterrupted reboot ends with one image completely installed and the other one
completely in UPDATE. (If the power fails after the installation has been completed, but before the
new image could confirm, the next reboot rolls back.) -/
theorem update_any_interruption_partial {c : Cfg} (w : c.WF) {e : Env} {Old New : Mem}
    (hO : GoodImage c e Old) (hN : GoodImage c e New) (hv : e.ver Old < e.ver New)
    (hj : e.junk ≠ ST_FINAL) {f g : Flash} (hp : Pending c Old New f)
    (hi : Interrupted c e (fun _ => True) f g) :
    ∃ w', bootUp c e g = .ok () w' ∧ w'.locked = true ∧ bootable c e (w'.fl .boot) ∧
      (Updated c New Old w'.fl ∨ Updated c Old New w'.fl) := by
  have goO := hO.newOK w
  have goN := hN.newOK w
  have hmid : Mid c (False, e.ver Old < e.ver New) Old New g ∨ Mid c (True, False) Old New g ∨
      Mid c (True, False) New Old g := by
    induction hi with
    | none => exact Or.inl ((hp.mid w).resolve_right (fun h => h hv))
    | again _ ht hr hP ih =>
      rcases ih with ih | ih | ih
      · rcases bootFail_of (start_mid w goO.img goN False.elim
          (fun m _ hm => version_hyp hO hv m hm) ih) ht hr with h | h
        · exact Or.inl h
        · exact Or.inr (Or.inr (h.mid w))
      · rcases bootFail_of (start_mid w goO.img goN (fun _ => hj)
          (fun _ h _ => False.elim h) ih) ht hr with h | h
        · exact Or.inr (Or.inl h)
        · exact Or.inr (Or.inr (h.mid w))
      · rcases bootFail_of (start_mid w goN.img goO (fun _ => hj)
          (fun _ h _ => False.elim h) ih) ht hr with h | h
        · exact Or.inr (Or.inr h)
        · exact Or.inr (Or.inl (h.mid w))
  rcases hmid with h | h | h
  · obtain ⟨w', h1, h2, h3⟩ := bootUp_of (start_mid w goO.img goN False.elim
      (fun m _ hm => version_hyp hO hv m hm) h)
    exact ⟨w', h1, h2, (bootable_congr w goN.loc (holds_iff.mp h3.new)).mpr (goN.bootable w),
      Or.inl h3⟩
  · obtain ⟨w', h1, h2, h3⟩ := bootUp_of (start_mid w goO.img goN (fun _ => hj)
      (fun _ h _ => False.elim h) h)
    exact ⟨w', h1, h2, (bootable_congr w goN.loc (holds_iff.mp h3.new)).mpr (goN.bootable w),
      Or.inl h3⟩
  · obtain ⟨w', h1, h2, h3⟩ := bootUp_of (start_mid w goN.img goO (fun _ => hj)
      (fun _ h _ => False.elim h) h)
    exact ⟨w', h1, h2, (bootable_congr w goO.loc (holds_iff.mp h3.new)).mpr (goO.bootable w),
      Or.inr h3⟩

/-- Non-vacuity. -/
example : ∃ w', bootUp cfg env cut1 = .ok () w' ∧ w'.locked = true ∧ bootable cfg env (w'.fl .boot) ∧
      (Updated cfg new old w'.fl ∨ Updated cfg old new w'.fl) := by
  refine update_any_interruption_partial wf (good_old _) (good_new _) (by decide) (by decide)
    pending_ok ?_
  have h1 : isCrash (bootFail cfg env pending 9 (fun _ => 0#8)) = true := by decide +kernel
  exact .again .none (by unfold TornOK; decide) (isCrash_eq h1) trivial

end Verif
