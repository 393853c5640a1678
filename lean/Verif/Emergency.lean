import Verif.FlagsHomeThms
import Verif.UpdateThms

/-!
# The emergency update: C71

`/repo/src/update_flash.c:1050-1066`: if the image in BOOT does not verify, `wolfBoot_start` installs the image in UPDATE, whatever its version and
without a request. The model is `Verif.emergency`.
-/

set_option linter.unusedSectionVars false

namespace Verif

namespace Emg

/-! ### Specification -/

/-- The contents of BOOT start with a header, and the image it describes lies in front of the trailer. Nothing is said about its digest or signature. -/
structure Readable (c : Cfg) (X : Mem) : Prop where
  magic : le32 X 0 = MAGIC
  nonempty : 0 < le32 X 4
  fits : imageBytes c X ≤ c.part - c.ss

/-- Whatever follows the image, it does not verify. -/
def Broken (c : Cfg) (e : Env) (X : Mem) : Prop :=
  ∀ m : Mem, (∀ o, o < imageBytes c X → m o = X o) → e.integ m = false ∨ e.auth m = false

/-- `X` is in BOOT, `Y` is in UPDATE; no sector has been swapped. Either the trailer of UPDATE is erased (no request), or the installation was
requested. -/
structure Spare (c : Cfg) (X Y : Mem) (f : Flash) : Prop where
  boot : Holds c f .boot X
  update : Holds c f .update Y
  trailer : (∀ x, c.part - c.ss ≤ x → x < c.part → f .update x = 0xFF#8) ∨
    (getState c f .update = some ST_UPDATING ∧ ∀ j, j < c.n - 1 → getFlag c f j = some FL_NEW)
  quiet : Quiet c f

/-! ### Proof -/

section
variable {c : Cfg} (w : c.WF) {e : Env} {X Y : Mem}
include w

/-- The phases of an emergency update. -/
abbrev MidE (c : Cfg) (X Y : Mem) (f : Flash) : Prop := Mid c (False, False) X Y f

theorem imgOK (h : Readable c X) : ImgOK c X :=
  ⟨h.magic, h.nonempty, by rw [← imageBytes_eq, ← last_part w]; exact h.fits⟩

theorem Spare.mid {f : Flash} (h : Spare c X Y f) : MidE c X Y f := by
  left
  have hn2 := w.n2
  have hss := w.ss_pos
  have hn := w.n512
  have hff := w.flags_fit
  have htb := trailer_bounds w (k := 1) (by omega)
  have htb0 := trailer_bounds w (k := 0) (by omega)
  have hold := holds_iff.mp h.boot
  have hnew := holds_iff.mp h.update
  have hsec : ∀ j, CurData c X (imgLen c X) Y (imgLen c Y) f j .new := by
    intro j
    refine ⟨?_, ?_⟩
    · intro o ho hx
      unfold secOff
      simp only [reduceCtorEq, ↓reduceIte]
      exact hold _ (by omega) hx
    · intro o ho hx
      unfold secOff
      simp only [reduceCtorEq, ↓reduceIte]
      exact hnew _ (by omega) hx
  have key : (∀ j, j < c.n - 1 → rawFlag c f j = FL_NEW) ∧ MagicP c f .update ∧
      f .update (trailerAt c 1) &&& ST_FINAL = ST_FINAL ∧ f .update (trailerAt c 1) ≠ ST_FINAL := by
    rcases h.trailer with he | ⟨h1, h2⟩
    · have he' : ∀ x, c.last ≤ x → x < c.part → f .update x = 0xFF#8 := by rw [← last_part w]; exact he
      refine ⟨?_, ?_, ?_, ?_⟩
      · intro j hj
        have : flagPos j ≤ c.n / 2 := by rw [flagPos_lt (by omega)]; omega
        have := trailer_bounds w (k := 2 + flagPos j) (by omega)
        unfold rawFlag
        rw [he' _ (by omega) (by omega)]
        unfold nibbleOf
        split <;> decide
      · intro i hi
        rw [he' _ (by omega) (by omega)]
        exact BitVec.allOnes_and
      · rw [he' _ (by omega) (by omega)]; decide
      · rw [he' _ (by omega) (by omega)]; decide
    · have hst := getState_updating.mp h1
      refine ⟨?_, hst.1.magicP, by rw [hst.2]; decide, by rw [hst.2]; decide⟩
      intro j hj
      have := h2 j hj
      unfold getFlag at this
      rw [if_pos hst.1] at this
      exact Option.some.inj this
  obtain ⟨k1, k2, k3, k4⟩ := key
  refine ⟨0, .new, ⟨?_, ?_, k2, k3, k4, Or.inr (Or.inr (by simp)), h.quiet.1, h.quiet.2⟩, ?_, ?_, by simp, by omega, by simp⟩
  · intro j hj; omega
  · intro j _ hj; exact ⟨hsec j, k1 j hj⟩
  · intro hj; exact ⟨hsec 0, k1 0 hj⟩
  · rintro (h | h)
    · omega
    · exact absurd rfl h

/-- A reboot in the middle of an emergency update. -/
theorem start_mid (hj : e.junk ≠ ST_FINAL) (hX : ImgOK c X) (hY : NewOK c e Y) {f0 : Flash} (h : MidE c X Y f0) :
    Triple (TT c) true (fun f => f = f0) (start c e) true (fun _ f => Updated c Y X f ∨ (f = f0 ∧ bootable c e (f .boot)))
      (fun f => MidE c X Y f ∨ Updated c Y X f) := by
  have conv : ∀ f, ProgI c (False, False) X (imgLen c X) Y (imgLen c Y) f → MidE c X Y f ∨ Updated c Y X f := by
    rintro g (h | h | h)
    · exact Or.inl (Or.inl h)
    · exact Or.inl (Or.inr h)
    · exact Or.inr ((updated_iff w).mpr h)
  rcases h with hI | hF
  · have hI' := hI
    obtain ⟨k, s, hS⟩ := hI'
    have hfx := hX.fits
    have hfy := hY.img.fits
    have hacc : (getFlag c f0 0).getD FL_NEW = FL_NEW → acceptable c e (f0 .update) := fun h =>
      (acceptable_congr w hY.loc (Fho.flag_new w hfx hfy hI h).2).mpr hY.acc
    have up : ∀ fb, ((getFlag c f0 0).getD FL_NEW = FL_NEW → fb = true ∨ e.ver (f0 .boot) < e.ver (f0 .update)) →
        Triple (TT c) true (fun f => f = f0) (wbUpdate c e fb) true (fun r f => r = true ∧ DoneI c X (imgLen c X) Y (imgLen c Y) f)
          (fun f => MidE c X Y f ∨ Updated c Y X f) := fun fb hfb =>
      (wbUpdate_spec w hX hY.img rfl rfl hI fun h => ⟨hacc h, hfb h⟩).conseq (fun _ h => h) (fun _ _ h => h) conv
    have hdone : ∀ f, DoneI c X (imgLen c X) Y (imgLen c Y) f → bootable c e (f .boot) := fun f h => h.bootable w hY rfl
    -- either the swap is completed at once, or nothing happens
    have hU : Triple (TT c) true (fun f => f = f0) (startUpdate c e) true
        (fun _ f => DoneI c X (imgLen c X) Y (imgLen c Y) f ∨ f = f0) (fun f => MidE c X Y f ∨ Updated c Y X f) := by
      unfold startUpdate
      refine Triple.readFlash (fun f hf => ?_)
      subst hf
      refine Triple.bind (l' := true) (swapFinal_none hS.core.ntB (state_ne_final w (Or.inr hj) hS.core.stNF)) (fun r => ?_)
      refine Triple.ofEq (fun g ⟨hr, hg⟩ => ?_)
      subst hr; subst hg
      rw [if_neg (by simp)]
      have fin : ∀ (m : M Bool), Triple (TT c) true (fun f => f = g) m true (fun r f => r = true ∧ DoneI c X (imgLen c X) Y (imgLen c Y) f)
          (fun f => MidE c X Y f ∨ Updated c Y X f) →
          Triple (TT c) true (fun f => f = g) (m >>= fun _ => pure ()) true (fun _ f => DoneI c X (imgLen c X) Y (imgLen c Y) f ∨ f = g)
            (fun f => MidE c X Y f ∨ Updated c Y X f) := by
        intro m hm
        refine Triple.bind hm (fun r => ?_)
        exact (Triple.pure (Q := fun _ f => DoneI c X (imgLen c X) Y (imgLen c Y) f ∨ f = g) ()).pre (fun f h => Or.inl h.2)
      refine Triple.ite (fun _ => fin _ (up true fun _ => Or.inl rfl)) (fun _ => Triple.ite (fun _ => ?_) (fun _ => ?_))
      · by_cases hn : (getFlag c g 0).getD FL_NEW = FL_NEW ∧ e.ver (g .update) ≤ e.ver (g .boot)
        · refine Triple.bind (wbUpdate_refuse hn.1 (Or.inr ⟨rfl, hn.2⟩)) (fun r => ?_)
          exact (Triple.pure (Q := fun _ f => DoneI c X (imgLen c X) Y (imgLen c Y) f ∨ f = g) ()).pre (fun f h => Or.inr h.2)
        · refine fin _ (up false fun h => Or.inr ?_)
          have : ¬ e.ver (g .update) ≤ e.ver (g .boot) := fun q => hn ⟨h, q⟩
          omega
      · exact (Triple.pure (Q := fun _ f => DoneI c X (imgLen c X) Y (imgLen c Y) f ∨ f = g) ()).pre (fun f h => Or.inr h)
    unfold start
    refine Triple.bind hU (fun _ => ?_)
    refine Triple.readFlash (fun f hf => ?_)
    by_cases hb : bootable c e (f .boot)
    · rw [if_pos hb]
      refine (Triple.tick (P := fun g => g = f) (C := fun f => MidE c X Y f ∨ Updated c Y X f) (fun g hg => ?_)).conseq (fun _ h => h)
        (fun _ g hg => ?_) (fun _ h => h)
      · rw [hg]
        rcases hf with h | h
        · exact Or.inr ((updated_iff w).mpr h)
        · rw [h]; exact Or.inl (Or.inl hI)
      · rw [hg]
        rcases hf with h | h
        · exact Or.inl ((updated_iff w).mpr h)
        · exact Or.inr ⟨h, hb⟩
    · rw [if_neg hb]
      rcases hf with h | h
      · exact absurd (hdone f h) hb
      subst h
      unfold emergency
      refine Triple.bind (up true fun _ => Or.inl rfl) (fun r => ?_)
      refine Triple.ofEq (fun g ⟨hr, hd⟩ => ?_)
      subst hr
      rw [if_neg (by simp)]
      refine Triple.readFlash (fun f1 h1 => ?_)
      subst h1
      rw [if_pos (hdone f1 hd)]
      exact (Triple.tick (P := fun g => g = f1) (C := fun f => MidE c X Y f ∨ Updated c Y X f)
        (fun g hg => by rw [hg]; exact Or.inr ((updated_iff w).mpr hd))).conseq (fun _ h => h)
        (fun _ g hg => by rw [hg]; exact Or.inl ((updated_iff w).mpr hd)) (fun _ h => h)
  · exact (start_fin (V := (False, False)) w hX hY rfl rfl hF).conseq (fun _ h => h)
      (fun _ f h => Or.inl ((updated_iff w).mpr h)) conv

/-- A reboot after the emergency update: the broken image is not restored. -/
theorem start_done (hj : e.junk ≠ ST_FINAL) (hX : Broken c e X) (hY : NewOK c e Y) {f0 : Flash} (h : Updated c Y X f0) :
    Triple (TT c) true (fun f => f = f0) (start c e) true (fun _ f => f = f0) (fun f => MidE c X Y f ∨ Updated c Y X f) := by
  have hd := (updated_iff w).mp h
  have hI := hd.idle w rfl
  refine start_idle (X := Y) w (hI.flag0 w) hI.ntB (hI.state w hj) (hd.bootable w hY rfl) ?_ (Or.inr h)
  rintro ⟨⟨_, _, h3, h4⟩, _⟩
  rcases hX _ h.old with q | q
  · rw [q] at h3; exact absurd h3 (by decide)
  · rw [q] at h4; exact absurd h4 (by decide)

end

/-! ### Theorems -/

/-- **C71.** If BOOT holds an image that does not verify and UPDATE holds a correctly signed image of whatever version, requested or not, a reboot installs
the image of UPDATE completely, keeps the broken one, locks the flash and boots the installed image. Partial: `Quiet` (word "BOOT"), the uninitialised
byte (C12), and the header of the broken image must be readable (`emergency_power_fail_brick` shows what a power failure does without it). -/
theorem emergency_installs_partial {c : Cfg} (w : c.WF) {e : Env} {X Y : Mem} (hX : Readable c X) (hB : Broken c e X) (hY : GoodImage c e Y)
    (hj : e.junk ≠ ST_FINAL) {f : Flash} (hs : Spare c X Y f) :
    ∃ w', bootUp c e f = .ok () w' ∧ w'.locked = true ∧ bootable c e (w'.fl .boot) ∧ Updated c Y X w'.fl := by
  obtain ⟨w', h1, h2, h3⟩ := bootUp_of (start_mid w hj (imgOK w hX) (hY.newOK w) (hs.mid w))
  have hu : Updated c Y X w'.fl := by
    rcases h3 with h | ⟨h, hb⟩
    · exact h
    · exfalso
      rw [h] at hb
      rcases hB _ hs.boot with q | q
      · exact absurd (hb.2.1.symm.trans q) (by decide)
      · exact absurd (hb.2.2.symm.trans q) (by decide)
  exact ⟨w', h1, h2, (bootable_congr w (hY.newOK w).loc (holds_iff.mp hu.new)).mpr ((hY.newOK w).bootable w), hu⟩

/-- The contents reached by interrupted reboots from a device with a broken image. -/
theorem interrupted_mid {c : Cfg} (w : c.WF) {e : Env} {X Y : Mem} (hX : Readable c X) (hB : Broken c e X) (hY : GoodImage c e Y)
    (hj : e.junk ≠ ST_FINAL) {f g : Flash} {P : Flash → Prop} (hs : Spare c X Y f) (hi : Interrupted c e P f g) : MidE c X Y g ∨ Updated c Y X g := by
  induction hi with
  | none => exact Or.inl (hs.mid w)
  | again _ ht hr _ ih =>
    rcases ih with h | h
    · exact bootFail_of (start_mid w hj (imgOK w hX) (hY.newOK w) h) ht hr
    · exact bootFail_of (start_done w hj hB (hY.newOK w) h) ht hr

/-- **C71, power failures.** After any number of reboots that were interrupted at any flash operation, an uninterrupted reboot starts an image that
verifies: it does not panic. Partial as above. -/
theorem emergency_never_stuck_partial {c : Cfg} (w : c.WF) {e : Env} {X Y : Mem} (hX : Readable c X) (hB : Broken c e X) (hY : GoodImage c e Y)
    (hj : e.junk ≠ ST_FINAL) {f g : Flash} (hs : Spare c X Y f) (hi : Interrupted c e (fun _ => True) f g) :
    ∃ w', bootUp c e g = .ok () w' ∧ w'.locked = true ∧ bootable c e (w'.fl .boot) ∧ (Updated c Y X w'.fl ∨ w'.fl = g) := by
  have nY := hY.newOK w
  have hb : ∀ f, Updated c Y X f → bootable c e (f .boot) := fun f h => (bootable_congr w nY.loc (holds_iff.mp h.new)).mpr (nY.bootable w)
  rcases interrupted_mid w hX hB hY hj hs hi with h | h
  · obtain ⟨w', h1, h2, h3⟩ := bootUp_of (start_mid w hj (imgOK w hX) nY h)
    rcases h3 with h3 | h3
    · exact ⟨w', h1, h2, hb _ h3, Or.inl h3⟩
    · exact ⟨w', h1, h2, h3.2, Or.inr h3.1⟩
  · obtain ⟨w', h1, h2, h3⟩ := bootUp_of (start_done w hj hB nY h)
    exact ⟨w', h1, h2, by rw [h3]; exact hb _ h, Or.inr h3⟩

/-- **C71, power failures.** If moreover no partly installed image verifies by accident, the image that is started is that of UPDATE. -/
theorem emergency_power_fail_safe_partial {c : Cfg} (w : c.WF) {e : Env} {X Y : Mem} (hX : Readable c X) (hB : Broken c e X) (hY : GoodImage c e Y)
    (hj : e.junk ≠ ST_FINAL) {f g : Flash} (hs : Spare c X Y f)
    (hi : Interrupted c e (fun x => bootable c e (x .boot) → Holds c x .boot Y) f g) :
    ∃ w', bootUp c e g = .ok () w' ∧ w'.locked = true ∧ bootable c e (w'.fl .boot) ∧ Holds c w'.fl .boot Y := by
  have hP : bootable c e (g .boot) → Holds c g .boot Y := by
    cases hi with
    | none =>
      intro hb
      exfalso
      rcases hB _ hs.boot with q | q
      · exact absurd (hb.2.1.symm.trans q) (by decide)
      · exact absurd (hb.2.2.symm.trans q) (by decide)
    | again _ _ _ hP => exact hP
  have hi' : Interrupted c e (fun _ => True) f g := by
    induction hi with
    | none => exact .none
    | again _ ht hr hp ih =>
      refine .again (ih ?_) ht hr trivial
      rename_i hprev
      cases hprev with
      | none =>
        intro hb
        exfalso
        rcases hB _ hs.boot with q | q
        · exact absurd (hb.2.1.symm.trans q) (by decide)
        · exact absurd (hb.2.2.symm.trans q) (by decide)
      | again _ _ _ hP => exact hP
  obtain ⟨w', h1, h2, h3, h4⟩ := emergency_never_stuck_partial w hX hB hY hj hs hi'
  refine ⟨w', h1, h2, h3, ?_⟩
  rcases h4 with h4 | h4
  · exact h4.new
  · rw [h4]; exact hP (by rw [← h4]; exact h3)

end Emg

end Verif
