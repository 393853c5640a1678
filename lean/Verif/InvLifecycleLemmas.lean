import Verif.InvUpdateLemmas

/-!
# Helper lemmas: `wolfBoot_update_trigger`, `wolfBoot_success`, device life cycle
-/

namespace Verif.Inv

theorem nib_ff (k : Nat) : nibbleOf k 0x00#8 = FL_NEW := by
  unfold nibbleOf; split <;> decide

theorem trigger_spec {c : Cfg} (w : c.WF) {T : Mem → Prop} {l : Bool} (f0 : Flash) (whole : Bool)
    (h : whole = true ∨ (MagicP c f0 .update ∧
      f0 .update (trailerAt c 1) ||| ST_UPDATING = ST_UPDATING)) :
    Triple T l (fun f => f = f0) (updateTrigger c whole) true
      (fun _ f => Same .update c.last c.part f0 f ∧ hasMagic c f .update ∧
        f .update (trailerAt c 1) = ST_UPDATING ∧ ∀ j, j < c.n → rawFlag c f j = FL_NEW)
      (fun f => f = f0 ∨ (Same .update c.last c.part f0 f ∧ MagicP c f .update ∧
        f .update (trailerAt c 1) ||| ST_UPDATING = ST_UPDATING ∧
        ∀ j, j < c.n → rawFlag c f j = FL_NEW)) := by
  have hss := w.ss_pos
  have hff := w.flags_fit
  have hn := w.n512
  have hpe := w.part_eq
  have hb := trailer_bounds w (k := 0) (by omega)
  have hb1 := trailer_bounds w (k := 1) (by omega)
  unfold updateTrigger
  refine Triple.bind (l' := false) Triple.unlock (fun _ => ?_)
  generalize hL : (if whole = true then c.ss else c.ss - 5) = L
  have hLle : L ≤ c.ss ∧ c.ss - 5 ≤ L := by rw [← hL]; split <;> omega
  refine Triple.bind (l' := false) (Q := fun _ f => f = f0.erase .update c.last L) ?_ (fun _ => ?_)
  · refine Triple.erase (fun f hf => by rw [hf]) (fun t f _ hf => Or.inl ?_)
    unfold Flash.tornErase
    rw [if_pos ⟨rfl, by omega⟩]
    exact hf
  have hs := same_erase f0 .update c.last L
  generalize hf1 : f0.erase .update c.last L = f1 at hs
  have hv : ∀ x, c.last ≤ x → x < c.last + L → f1 .update x = 0x00#8 := by
    intro x h1 h2
    rw [← hf1]; unfold Flash.erase
    rw [if_pos ⟨rfl, h1, h2⟩]
  have hm : MagicP c f1 .update ∧ f1 .update (trailerAt c 1) ||| ST_UPDATING = ST_UPDATING := by
    rcases h with h | ⟨h1, h2⟩
    · have : L = c.ss := by rw [← hL, if_pos h]
      constructor
      · intro i hi
        rw [hv _ (by omega) (by omega)]
        exact BitVec.zero_or
      · rw [hv _ (by omega) (by omega)]; decide
    · by_cases hLs : L = c.ss - 5
      · constructor
        · intro i hi
          rw [hs.out (by omega)]; exact h1 i hi
        · rw [hs.out (by omega)]; exact h2
      · have : L = c.ss := by
          rw [← hL] at hLs ⊢
          split at hLs
          · next hw => rw [if_pos hw]
          · exact absurd rfl hLs
        constructor
        · intro i hi
          rw [hv _ (by omega) (by omega)]
          exact BitVec.zero_or
        · rw [hv _ (by omega) (by omega)]; decide
  have hfl : ∀ j, j < c.n → ∀ g, Same .update (trailerAt c 1) c.part f1 g → rawFlag c g j = FL_NEW := by
    intro j hj g hg
    have : flagPos j ≤ c.n / 2 := by rw [flagPos_lt (by omega)]; omega
    have := trailer_bounds w (k := 2 + flagPos j) (by omega)
    unfold rawFlag
    rw [hg.out (by omega), hv _ (by omega) (by omega)]
    exact nib_ff j
  have hsame : ∀ g, Same .update (trailerAt c 1) c.part f1 g → Same .update c.last c.part f0 g := by
    intro g hg
    exact (hs.mono (Nat.le_refl _) (by omega)).trans (hg.mono (by omega) (by omega))
  refine Triple.bind (l' := false) ((setState_spec w (by simp) f1 ST_UPDATING hm.1 hm.2).conseq
    (fun _ h => h) (Q' := fun _ f => Same .update c.last c.part f0 f ∧ hasMagic c f .update ∧
        f .update (trailerAt c 1) = ST_UPDATING ∧ ∀ j, j < c.n → rawFlag c f j = FL_NEW)
    (fun _ f ⟨h1, h2, h3⟩ => ⟨hsame f h3, h1, h2, fun j hj => hfl j hj f h3⟩) ?_) (fun _ => ?_)
  · rintro f ⟨h1, h2, h3⟩
    refine Or.inr ⟨hsame f h1, ?_, ?_, fun j hj => hfl j hj f h1⟩
    · rcases h3 with ⟨h3, _⟩ | ⟨h3, _⟩
      · exact h3
      · exact h3.magicP
    · rcases h3 with ⟨_, h3⟩ | ⟨_, t, _, h3⟩
      · rw [h3]; exact hm.2
      · rw [h3]; exact or_torn _ _ _ hm.2
  · exact Triple.lock

theorem success_spec {c : Cfg} (w : c.WF) {T : Mem → Prop} {l : Bool} (f0 : Flash)
    (h : MagicP c f0 .boot) :
    Triple T l (fun f => f = f0) (success c) true
      (fun _ f => Same .boot (trailerAt c 1) c.part f0 f ∧ hasMagic c f .boot ∧
        f .boot (trailerAt c 1) = ST_SUCCESS)
      (fun f => Same .boot (trailerAt c 1) c.part f0 f ∧ MagicP c f .boot) := by
  unfold success
  refine Triple.bind (l' := false) Triple.unlock (fun _ => ?_)
  refine Triple.bind (l' := false) ((setState_spec w (by simp) f0 ST_SUCCESS h
    (by unfold ST_SUCCESS; exact BitVec.or_allOnes)).conseq (fun _ h => h) (fun _ f h => h) ?_) (fun _ => ?_)
  · rintro f ⟨h1, h2, h3⟩
    refine ⟨h1, ?_⟩
    rcases h3 with ⟨h3, _⟩ | ⟨h3, _⟩
    · exact h3
    · exact h3.magicP
  · exact Triple.lock.conseq (fun f h => h) (fun _ f ⟨h1, h2, h3⟩ => ⟨h3, h1, h2⟩) (fun _ h => h)

/-! ## Life cycle -/

/-- Application running, or nothing in progress. -/
def IdleL (c : Cfg) (e : Env) (f : Flash) : Prop :=
  ∃ X, GoodImage c e X ∧ Idle c X f ∧ MagicP c f .boot

/-- Any state between two boots. -/
def OffL (c : Cfg) (e : Env) (f : Flash) : Prop :=
  IdleL c e f ∨ ∃ A B, GoodImage c e A ∧ GoodImage c e B ∧ Mid c (True, e.ver A < e.ver B) A B f

theorem Updated.idleL {c : Cfg} {e : Env} (w : c.WF) {A B : Mem} {f : Flash} (hB : GoodImage c e B)
    (h : Updated c B A f) : IdleL c e f := by
  have hd := (updated_iff w).mp h
  exact ⟨B, hB, hd.idle w rfl, hd.testing.1.magicP⟩

theorem startL_spec {c : Cfg} {e : Env} (w : c.WF)
    (hs : ∀ m, acceptable c e m → GoodImage c e m) (hj : e.junk ≠ ST_FINAL) {f0 : Flash}
    (h : OffL c e f0) :
    Triple (TT c) true (fun f => f = f0) (start c e) true (fun _ f => IdleL c e f) (OffL c e) := by
  have hmid : ∀ A B, GoodImage c e A → GoodImage c e B → Mid c (True, e.ver A < e.ver B) A B f0 →
      Triple (TT c) true (fun f => f = f0) (start c e) true (fun _ f => IdleL c e f) (OffL c e) := by
    intro A B hA hB hm
    refine (start_mid w (hA.newOK w).img (hB.newOK w) (fun _ => hj)
      (fun m hv hm => version_hyp hA hv m hm) hm).conseq (fun _ h => h)
      (fun _ f hf => hf.idleL w hB) ?_
    rintro f (hf | hf)
    · exact Or.inr ⟨A, B, hA, hB, hf⟩
    · exact Or.inl (hf.idleL w hB)
  rcases h with ⟨X, hX, hI, hmp⟩ | ⟨A, B, hA, hB, hm⟩
  · by_cases hw : Wants c e f0
    · have hU := hs _ hw.1
      refine hmid X (f0 .update) hX hU (Or.inl (hI.inSwap w (hX.newOK w).img ?_))
      rcases hw.2 with h | ⟨h1, h2, h3⟩
      · exact Or.inl ⟨trivial, h⟩
      · refine Or.inr (Or.inl ⟨h1, h2, ?_⟩)
        rw [((hX.newOK w).loc _ hI.boot).2.1] at h3
        exact h3
    · have hbt : bootable c e (f0 .boot) :=
        (bootable_congr w (hX.newOK w).loc hI.boot).mpr ((hX.newOK w).bootable w)
      refine (start_idle (X := X) w (hI.flag0 w) hI.ntB (hI.state w hj) hbt hw
        (C := OffL c e) (Or.inl ⟨X, hX, hI, hmp⟩)).conseq (fun _ h => h) ?_ (fun _ h => h)
      rintro _ f rfl
      exact ⟨X, hX, hI, hmp⟩
  · exact hmid A B hA hB hm

/-- Changes confined to the trailer of UPDATE. -/
theorem Idle.trailerU {c : Cfg} (w : c.WF) {X : Mem} {f0 f : Flash} (h : Idle c X f0)
    (hs : Same .update c.last c.part f0 f) (hm : MagicP c f .update)
    (hst : f .update (trailerAt c 1) ||| ST_UPDATING = ST_UPDATING)
    (hfl : ∀ j, j < c.n → rawFlag c f j = FL_NEW) : Idle c X f := by
  have hle := w.last_eq
  have hfb := w.fb_le
  have h4 := w.fb4
  have hb : f .boot = f0 .boot := hs.other (by simp)
  refine ⟨by rw [hb]; exact h.boot, by rw [hb]; exact h.ntB, ?_, fun j hj => hfl j (by omega), hm, hst⟩
  rw [word_out (x := f0 .update) (fun y hy => hs.out hy) (by omega)]
  exact h.ntU

theorem triggerL_spec {c : Cfg} {e : Env} (w : c.WF) {f0 : Flash} {T : Mem → Prop} {l : Bool}
    (whole : Bool) (h : IdleL c e f0) :
    Triple T l (fun f => f = f0) (updateTrigger c whole) true (fun _ f => IdleL c e f)
      (IdleL c e) := by
  obtain ⟨X, hX, hI, hmp⟩ := h
  refine (trigger_spec w f0 whole (Or.inr ⟨hI.magicP, hI.stU⟩)).conseq (fun _ h => h) ?_ ?_
  · rintro _ f ⟨h1, h2, h3, h4⟩
    refine ⟨X, hX, hI.trailerU w h1 h2.magicP (by rw [h3]; decide) h4, ?_⟩
    unfold MagicP
    rw [h1.other (by simp)]; exact hmp
  · rintro f (h | ⟨h1, h2, h3, h4⟩)
    · rw [h]; exact ⟨X, hX, hI, hmp⟩
    · refine ⟨X, hX, hI.trailerU w h1 h2 h3 h4, ?_⟩
      unfold MagicP
      rw [h1.other (by simp)]; exact hmp

theorem successL_spec {c : Cfg} {e : Env} (w : c.WF) {f0 : Flash} {T : Mem → Prop} {l : Bool}
    (h : IdleL c e f0) :
    Triple T l (fun f => f = f0) (success c) true (fun _ f => IdleL c e f) (IdleL c e) := by
  obtain ⟨X, hX, hI, hmp⟩ := h
  have hle := w.last_eq
  have hfb := w.fb_le
  have h4 := w.fb4
  have hss := w.ss_pos
  have hb1 := trailer_bounds w (k := 1) (by omega)
  have hfits := (hX.newOK w).img.fits
  have key : ∀ f, Same .boot (trailerAt c 1) c.part f0 f → MagicP c f .boot → IdleL c e f := by
    intro f hs hm
    have hu : f .update = f0 .update := hs.other (by simp)
    obtain ⟨t1, t2, t3, t4⟩ := trailer_frame w (f := f0) (f' := f) (fun x _ => by rw [hu])
    refine ⟨X, hX, ⟨?_, ?_, by rw [hu]; exact hI.ntU, fun j hj => ?_, t3 hI.magicP,
      by rw [t4]; exact hI.stU⟩, hm⟩
    · intro o _ ho
      rw [hs.out (by omega)]; exact hI.boot o (by omega) ho
    · rw [word_out (x := f0 .boot) (fun y hy => hs.out hy) (by omega)]
      exact hI.ntB
    · rw [t1 j (by omega)]; exact hI.flags j hj
  exact (success_spec w f0 hmp).conseq (fun _ h => h) (fun _ f ⟨h1, h2, _⟩ => key f h1 h2.magicP)
    (fun f ⟨h1, h2⟩ => key f h1 h2)

/-- Data written to UPDATE by the application. -/
theorem writeL {c : Cfg} {e : Env} (w : c.WF) {f g : Flash} (h : IdleL c e f)
    (hb : g .boot = f .boot) (hu : ∀ x, c.last ≤ x → g .update x = f .update x)
    (hq : le32 (g .update) c.tmp ≠ MAGIC_TRAIL) : IdleL c e g := by
  obtain ⟨X, hX, hI, hmp⟩ := h
  obtain ⟨t1, t2, t3, t4⟩ := trailer_frame w hu
  refine ⟨X, hX, ⟨by rw [hb]; exact hI.boot, by rw [hb]; exact hI.ntB, hq, fun j hj => ?_,
    t3 hI.magicP, by rw [t4]; exact hI.stU⟩, by unfold MagicP; rw [hb]; exact hmp⟩
  rw [t1 j (by omega)]; exact hI.flags j hj

end Verif.Inv
