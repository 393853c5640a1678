import Verif.InvUpdateSpec
import Verif.InvStartLemmas

/-!
# Helper lemmas linking the invariants to the specification vocabulary
-/

namespace Verif.Inv

section
variable {c : Cfg} {e : Env} {A B : Mem}

theorem imageBytes_eq (c : Cfg) (X : Mem) : imageBytes c X = imgLen c X := by
  unfold imageBytes imgLen; omega

theorem holds_iff {f : Flash} {p : Part} {X : Mem} :
    Holds c f p X ↔ Agree (f p) X 0 (imgLen c X) := by
  unfold Holds Agree
  rw [imageBytes_eq]
  exact ⟨fun h o _ ho => h o ho, fun h o ho => h o (Nat.zero_le _) ho⟩

theorem last_part (w : c.WF) : c.part - c.ss = c.last := by have := w.part_eq; omega

theorem GoodImage.newOK (w : c.WF) (h : GoodImage c e A) : NewOK c e A := by
  have hf := h.fits
  rw [imageBytes_eq, last_part w] at hf
  have hi : ImgOK c A := ⟨h.magic, h.nonempty, hf⟩
  refine ⟨hi, ?_, h.type, ?_, h.digest, h.signature⟩
  · intro m hm
    exact h.loc m (fun o ho => hm o (Nat.zero_le _) (by rw [← imageBytes_eq]; exact ho))
  · rw [fwSize_of_open (hi.openOK w)]
    unfold maxUpdateSize
    rw [last_part w]
    unfold imgLen at hf
    have := w.h8
    omega

theorem updated_iff (w : c.WF) {f : Flash} :
    Updated c B A f ↔ DoneI c A (imgLen c A) B (imgLen c B) f := by
  constructor
  · intro h
    exact ⟨holds_iff.mp h.new, holds_iff.mp h.old, getState_testing.mp h.state,
      by rw [← last_part w]; exact h.erased, h.quiet.1, h.quiet.2⟩
  · intro h
    exact ⟨holds_iff.mpr h.boot, holds_iff.mpr h.upd, getState_testing.mpr h.testing,
      by rw [last_part w]; exact h.blank, h.ntB, h.ntU⟩

/-- The phases of an installation, for the induction over interruptions. -/
def Mid (c : Cfg) (V : Prop × Prop) (A B : Mem) (f : Flash) : Prop :=
  InSwap c V A (imgLen c A) B (imgLen c B) f ∨ FinI c A (imgLen c A) B (imgLen c B) f

theorem start_mid (w : c.WF) {V : Prop × Prop} (hA : ImgOK c A) (hB : NewOK c e B)
    (hj : V.1 → e.junk ≠ ST_FINAL) (hV : ∀ m, V.2 → Agree m A 0 (imgLen c A) → e.ver m < e.ver B)
    {f : Flash} (h : Mid c V A B f)
    (hg : V.1 ∨ V.2 := by first | assumption | exact Or.inl trivial | exact Or.inr (by assumption)) :
    Triple (TT c) true (fun g => g = f) (start c e) true
      (fun _ g => Updated c B A g) (fun g => Mid c V A B g ∨ Updated c B A g) := by
  have : Triple (TT c) true (fun g => g = f) (start c e) true
      (fun _ g => DoneI c A (imgLen c A) B (imgLen c B) g)
      (ProgI c V A (imgLen c A) B (imgLen c B)) := by
    rcases h with h | h
    · exact start_inSwap w hj hA hB rfl rfl hV h
    · exact start_fin w hA hB rfl rfl h
  refine this.conseq (fun _ h => h) (fun _ g hg => (updated_iff w).mpr hg) ?_
  rintro g (h | h | h)
  · exact Or.inl (Or.inl h)
  · exact Or.inl (Or.inr h)
  · exact Or.inr ((updated_iff w).mpr h)

/-- A triple about `start` applied to an interrupted reboot. -/
theorem bootFail_of {Q : Unit → Flash → Prop} {C : Flash → Prop} {f g : Flash} {n : Nat} {t : Mem}
    (h : Triple (TT c) true (fun g => g = f) (start c e) true Q C) (ht : TornOK c MAGIC_TRAIL t)
    (hr : bootFail c e f n t = .crash g) : C g := by
  have := h ⟨f, true, some n, t⟩ ht rfl rfl
  unfold bootFail at hr
  rw [hr] at this
  exact this.2

/-- A triple about `start` applied to an uninterrupted reboot. -/
theorem bootUp_of {Q : Unit → Flash → Prop} {C : Flash → Prop} {f : Flash}
    (h : Triple (TT c) true (fun g => g = f) (start c e) true Q C) :
    ∃ w', bootUp c e f = .ok () w' ∧ w'.locked = true ∧ Q () w'.fl := by
  have := h ⟨f, true, none, fun _ => 0#8⟩ ⟨by change (0 : Nat) ≠ MAGIC_TRAIL; decide, Or.inl (by show (0#8 &&& 48#8 : Byte) = 0#8; decide)⟩ rfl rfl
  unfold bootUp
  cases hr : start c e ⟨f, true, none, fun _ => 0#8⟩ with
  | ok a w' => rw [hr] at this; exact ⟨w', rfl, this.1, this.2.2.2⟩
  | crash g => rw [hr] at this; exact absurd rfl this.1
  | panic g => rw [hr] at this; exact this.elim
  | stuck g => rw [hr] at this; exact this.elim
  | fault g => rw [hr] at this; exact this.elim

/-- Version condition used in the update direction. -/
theorem version_hyp (hA : GoodImage c e A) (hv : e.ver A < e.ver B) :
    ∀ m, Agree m A 0 (imgLen c A) → e.ver m < e.ver B := by
  intro m hm
  rw [(hA.loc m (fun o ho => hm o (Nat.zero_le _) (by rw [← imageBytes_eq]; exact ho))).2.1]
  exact hv

theorem Pending.mid (w : c.WF) {f : Flash} (h : Pending c A B f) :
    Mid c (False, e.ver A < e.ver B) A B f ∨ ¬ e.ver A < e.ver B := by
  by_cases hv : e.ver A < e.ver B
  · left; left
    have hst := getState_updating.mp h.state
    have hn2 := w.n2
    have hss := w.ss_pos
    have hold := holds_iff.mp h.old
    have hnew := holds_iff.mp h.new
    have hsec : ∀ j, CurData c A (imgLen c A) B (imgLen c B) f j .new := by
      intro j
      refine ⟨?_, ?_⟩
      · intro o ho hx
        unfold secOff
        simp only [reduceCtorEq, ↓reduceIte]
        exact hold _ (by omega) hx
      · intro o ho hx
        unfold secOff
        simp only [reduceCtorEq, ↓reduceIte]
        exact hnew _ (by omega) hx
    have hfl : ∀ j, j < c.n - 1 → rawFlag c f j = FL_NEW := by
      intro j hj
      have := h.flags j hj
      unfold getFlag at this
      rw [if_pos hst.1] at this
      exact Option.some.inj this
    refine ⟨0, .new, ⟨?_, ?_, hst.1.magicP, by rw [hst.2]; decide, by rw [hst.2]; decide,
      Or.inr (Or.inl ⟨hst.1, hst.2, hv⟩), h.quiet.1, h.quiet.2⟩, ?_, fun _ => hst.1, by simp, by omega, by simp⟩
    · intro j hj; omega
    · intro j _ hj; exact ⟨hsec j, hfl j hj⟩
    · intro hj; exact ⟨hsec 0, hfl 0 hj⟩
  · exact Or.inr hv

theorem Updated.mid (w : c.WF) {f : Flash} (h : Updated c A B f) :
    Mid c (True, False) A B f := by
  have hd := (updated_iff w).mp h
  have hI := hd.idle w rfl
  left
  have hn2 := w.n2
  have hss := w.ss_pos
  have hsec : ∀ j, CurData c A (imgLen c A) B (imgLen c B) f j .new := by
    intro j
    refine ⟨?_, ?_⟩
    · intro o ho hx
      unfold secOff
      simp only [reduceCtorEq, ↓reduceIte]
      exact hd.boot _ (by omega) hx
    · intro o ho hx
      unfold secOff
      simp only [reduceCtorEq, ↓reduceIte]
      exact hd.upd _ (by omega) hx
  refine ⟨0, .new, ⟨?_, ?_, hI.magicP, stU_fin w _ hI.stU, stU_ne w _ hI.stU,
      Or.inl ⟨trivial, hd.testing⟩, hI.ntB, hI.ntU⟩, ?_, ?_, by simp, by omega, by simp⟩
  · intro j hj; omega
  · intro j _ hj; exact ⟨hsec j, hI.flags j hj⟩
  · intro hj; exact ⟨hsec 0, hI.flags 0 hj⟩
  · rintro (h | h)
    · omega
    · exact absurd rfl h

end


end Verif.Inv
