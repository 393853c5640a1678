import Verif.SwapLemmas

/-!
# Helper lemmas: final phase of the swap, `wolfBoot_update`, `wolfBoot_start`
-/

set_option linter.unusedSectionVars false
set_option linter.unusedVariables false

namespace Verif

/-- Final phase: everything is swapped, the state of UPDATE is FINAL_FLAGS; the trailer of BOOT and
its sector at `tmp` are being rewritten. -/
structure FinI (c : Cfg) (A : Mem) (a : Nat) (B : Mem) (b : Nat) (f : Flash) : Prop where
  magic : hasMagic c f .update
  st : f .update (trailerAt c 1) = ST_FINAL
  boot : ∀ o, o < b → o < c.tmp → f .boot o = B o
  swap : ∀ o, o < c.ss → c.tmp + o < b → f .swap o = B (c.tmp + o)
  swapNT : c.tmp < b → le32 (f .swap) 0 ≠ MAGIC_TRAIL
  upd : Agree (f .update) A 0 a
  ntU : le32 (f .update) c.tmp ≠ MAGIC_TRAIL

/-- The swap is complete: `B` in BOOT, TESTING; `A` in UPDATE; UPDATE trailer blank. -/
structure DoneI (c : Cfg) (A : Mem) (a : Nat) (B : Mem) (b : Nat) (f : Flash) : Prop where
  boot : Agree (f .boot) B 0 b
  upd : Agree (f .update) A 0 a
  testing : Testing c f
  blank : ∀ x, c.last ≤ x → x < c.part → f .update x = 0xFF#8
  ntB : le32 (f .boot) c.tmp ≠ MAGIC_TRAIL
  ntU : le32 (f .update) c.tmp ≠ MAGIC_TRAIL

/-- States reachable while updating from `A` to `B`. -/
def ProgI (c : Cfg) (V : Prop × Prop) (A : Mem) (a : Nat) (B : Mem) (b : Nat) (f : Flash) : Prop :=
  InSwap c V A a B b f ∨ FinI c A a B b f ∨ DoneI c A a B b f

section
variable {c : Cfg} (w : c.WF) {V : Prop × Prop} {A B : Mem} {a b : Nat}
include w

/-- After the loop, BOOT holds `B` and UPDATE holds `A`. -/
theorem holds_of_end {f : Flash} {K : Nat} (ha : a ≤ c.last) (hb : b ≤ c.last)
    (hK : EndSec c (max a b) K) (hI : SwapI c V A a B b f K .new) :
    Agree (f .boot) B 0 b ∧ Agree (f .update) A 0 a := by
  have hss := w.ss_pos
  have key : ∀ o, o < max a b → ∃ j r, j < K ∧ j < c.n - 1 ∧ r < c.ss ∧ o = j * c.ss + r := by
    intro o ho
    refine ⟨o / c.ss, o % c.ss, ?_, ?_, Nat.mod_lt _ (by omega), (Nat.div_add_mod' o c.ss).symm⟩
    · have := hK.1
      exact (Nat.div_lt_iff_lt_mul (by omega)).mpr (by omega)
    · refine lt_last_sec w (T := max a b) (by omega) ?_
      have := Nat.div_mul_le_self o c.ss
      omega
  constructor
  · intro o _ ho
    obtain ⟨j, r, h1, h2, h3, rfl⟩ := key o (by omega)
    have := (hI.core.done j h1 h2).1.1 r h3 ho
    simpa [secOff] using this
  · intro o _ ho
    obtain ⟨j, r, h1, h2, h3, rfl⟩ := key o (by omega)
    have := (hI.core.done j h1 h2).1.2 r h3 ho
    simpa [secOff] using this

/-- Only bytes of SWAP are changed. -/
theorem SwapI.swapOnly {f f' : Flash} {k : Nat} (h : SwapI c V A a B b f k .new) (hk : k ≤ c.n - 1)
    (hb : f' .boot = f .boot) (hu : f' .update = f .update) : SwapI c V A a B b f' k .new := by
  have hn2 := w.n2
  obtain ⟨h1, h2, h3, h5⟩ := trailer_frame w (f := f) (f' := f') (fun x hx => by rw [hu])
  exact ⟨h.core.swapOnly w hk hb hu, fun hk => ⟨CurData.swapOnly w (h.cur hk).1 (Or.inl rfl) hb hu,
    by rw [h1 k (by omega)]; exact (h.cur hk).2⟩, fun hh => h2.mpr (h.magic hh), by simp, h.kle,
    by simp⟩

theorem torn_final_updating : ∀ t : Byte, (ST_UPDATING &&& (ST_FINAL ||| t)) = ST_UPDATING ∨
    (ST_UPDATING &&& (ST_FINAL ||| t)) = ST_FINAL := by decide

theorem finalSave_spec (ha : a ≤ c.last) (hb : b ≤ c.last) {K : Nat} (hK1 : 1 ≤ K)
    (hK : EndSec c (max a b) K) {bootFw : Nat} (hfw : bootFw + c.h = b) {st : Byte}
    (hst : st ≠ ST_FINAL) :
    Triple (TT c) false (fun f => SwapI c V A a B b f K .new) (finalSave c bootFw st) false
      (fun _ f => FinI c A a B b f) (ProgI c V A a B b) := by
  have hss := w.ss_pos
  have hn2 := w.n2
  have h4 := w.fb4
  have hfb := w.fb_le
  have hpe := w.part_eq
  have hle := w.last_eq
  have htb := trailer_bounds w (k := 1) (by omega)
  have hKn : K ≤ c.n - 1 := by
    rcases Nat.lt_or_ge (c.n - 1) K with h | h
    · have := sec_lt (ss := c.ss) h
      have h2 : c.last = (c.n - 1) * c.ss := rfl
      have := hK.2
      omega
    · exact h
  refine Triple.ofEq (fun f0 hI => ?_)
  obtain ⟨hB, hA⟩ := holds_of_end w ha hb hK hI
  unfold finalSave
  rw [if_pos hst]
  refine Triple.bind ((copySector_spec w (by simp) (Or.inl rfl) f0).conseq (fun _ h => h)
    (fun _ _ h => h) ?_) (fun _ => ?_)
  · rintro f (rfl | ⟨hs, hw⟩)
    · exact Or.inl ⟨K, .new, hI⟩
    · exact Or.inl ⟨K, .new, hI.swapOnly w hKn (hs.other (by simp)) (hs.other (by simp))⟩
  · refine Triple.ofEq (fun f ⟨hs, hcp⟩ => ?_)
    have hbt : f .boot = f0 .boot := hs.other (by simp)
    have hup : f .update = f0 .update := hs.other (by simp)
    have hI' := hI.swapOnly w hKn hbt hup
    have hdiv := w.tmp_div
    have hso : secOff c .boot (c.tmp / c.ss) = c.tmp := by
      unfold secOff; rw [hdiv]; rfl
    have hswap : ∀ o, o < c.ss → c.tmp + o < b → f .swap o = B (c.tmp + o) := by
      intro o ho hob
      have h1 := hcp o ho
      unfold secOff at h1
      simp only [reduceCtorEq, ↓reduceIte] at h1
      rw [show (c.tmp / c.ss) * c.ss = c.tmp from hso, copied_lt (by omega) (by omega), Nat.zero_add] at h1
      rw [h1]
      exact hB _ (by omega) hob
    have hswapNT : le32 (f .swap) 0 ≠ MAGIC_TRAIL := by
      have := copied_word w (m := f .swap) (a := 0) (g := f0 .boot) (so := c.tmp) (fw := bootFw)
        (fun o ho => by
          have h1 := hcp o (by omega)
          rw [hso] at h1
          simpa [secOff] using h1)
      rcases this with h | h
      · rw [h]; exact hI.core.ntB
      · rw [h]; decide
    have hfin : ∀ g, Same .update (trailerAt c 1) c.part f g → hasMagic c g .update →
        g .update (trailerAt c 1) = ST_FINAL → FinI c A a B b g := by
      intro g hs2 hm hst
      have hgb : g .boot = f .boot := hs2.other (by simp)
      have hgs : g .swap = f .swap := hs2.other (by simp)
      refine ⟨hm, hst, ?_, ?_, ?_, ?_, ?_⟩
      · intro o h1 _; rw [hgb, hbt]; exact hB o (by omega) h1
      · rw [hgs]; exact hswap
      · rw [hgs]; exact fun _ => hswapNT
      · intro o _ ho
        rw [hs2.out (by omega), hup]; exact hA o (by omega) ho
      · rw [word_out (x := f .update) (fun y hy => hs2.out hy) (by omega), hup]
        exact hI.core.ntU
    refine (setState_spec w (by simp) f ST_FINAL hI'.core.magicP hI'.core.stP).conseq (fun _ h => h)
      ?_ ?_
    · rintro _ g ⟨h1, h2, h3⟩
      exact hfin g h3 h1 h2
    · rintro g ⟨h1, h2, h3⟩
      have hm := h2 (hI'.magic (Or.inl (by omega)))
      by_cases hgf : g .update (trailerAt c 1) = ST_FINAL
      · exact Or.inr (Or.inl (hfin g h1 hm hgf))
      · left
        refine ⟨K, .new, ?_⟩
        have hgb : g .boot = f .boot := h1.other (by simp)
        have hfl : ∀ j, j < c.n → rawFlag c g j = rawFlag c f j := by
          intro j hj
          refine rawFlag_congr (h1.out ?_)
          left
          have hff := w.flags_fit
          have hn := w.n512
          have : flagPos j ≤ c.n / 2 := by rw [flagPos_lt (by omega)]; omega
          have := trailer_bounds w (k := 2 + flagPos j) (by omega)
          omega
        have hat : ∀ q X x i, q ≠ .swap → x ≤ c.last → SecAt c f q X x i → SecAt c g q X x i := by
          intro q X x i hq hx h o ho hox
          have h2 := h o ho hox
          unfold secOff at h2 ⊢
          rw [if_neg hq] at h2 ⊢
          rw [← h2]
          by_cases hqu : q = .update
          · subst hqu; exact h1.out (by omega)
          · rw [h1.other hqu]
        have hstate : g .update (trailerAt c 1) &&& ST_FINAL = ST_FINAL ∧
            (f .update (trailerAt c 1) = ST_UPDATING → g .update (trailerAt c 1) = ST_UPDATING) := by
          rcases h3 with ⟨_, h3⟩ | ⟨_, t, h3⟩
          · rw [h3]; exact ⟨hI'.core.stP, id⟩
          · refine ⟨by rw [h3]; exact and_torn _ _ _ hI'.core.stP, fun hu => ?_⟩
            rw [hu] at h3
            rcases torn_final_updating w t with h | h
            · rw [h3]; exact h
            · exact absurd (h3.trans h) hgf
        have hcore := hI'.core
        refine ⟨⟨?_, ?_, hm.magicP, hstate.1, hgf, ?_, by rw [hgb]; exact hcore.ntB, ?_⟩, ?_,
          fun _ => hm, by simp, hI'.kle, by simp⟩
        · intro i hi hin
          obtain ⟨⟨h1, h2⟩, h3⟩ := hcore.done i hi hin
          exact ⟨⟨hat _ _ _ _ (by simp) hb h1, hat _ _ _ _ (by simp) ha h2⟩,
            by rw [hfl i (by omega)]; exact h3⟩
        · intro i hi hin
          obtain ⟨⟨h1, h2⟩, h3⟩ := hcore.fresh i hi hin
          exact ⟨⟨hat _ _ _ _ (by simp) ha h1, hat _ _ _ _ (by simp) hb h2⟩,
            by rw [hfl i (by omega)]; exact h3⟩
        · rcases hcore.go with h | ⟨_, h2, h3⟩ | h
          · exact Or.inl ⟨h.1, testing_frame w (fun x _ => by rw [hgb]) h.2⟩
          · exact Or.inr (Or.inl ⟨hm, hstate.2 h2, h3⟩)
          · exact Or.inr (Or.inr h)
        · rw [word_out (x := f .update) (fun y hy => h1.out hy) (by omega)]
          exact hcore.ntU
        · intro hkn
          obtain ⟨⟨h1, h2⟩, h3⟩ := hI'.cur hkn
          exact ⟨⟨hat _ _ _ _ (by simp) ha h1, hat _ _ _ _ (by simp) hb h2⟩,
            by rw [hfl K (by omega)]; exact h3⟩

/-- FinI does not depend on the last two sectors of BOOT. -/
theorem FinI.bootFrame {f f' : Flash} (h : FinI c A a B b f) (hs : Same .boot c.tmp c.part f f') :
    FinI c A a B b f' := by
  have hu : f' .update = f .update := hs.other (by simp)
  have hw : f' .swap = f .swap := hs.other (by simp)
  refine ⟨?_, by rw [hu]; exact h.st, ?_, by rw [hw]; exact h.swap, by rw [hw]; exact h.swapNT,
    by rw [hu]; exact h.upd, by rw [hu]; exact h.ntU⟩
  · unfold hasMagic; rw [hu]; exact h.magic
  · intro o h1 h2
    rw [hs.out (by omega)]; exact h.boot o h1 h2

/-- `wolfBoot_swap_and_final_erase` from line 308 on. -/
def finalTail (c : Cfg) (bootFw : Nat) : M Bool := do
  erase c .boot c.last c.ss
  finalRestore c bootFw
  setState c .boot ST_TESTING
  erase c .update c.last c.ss
  lock
  pure true

theorem finalTail_spec (ha : a ≤ c.last) (hb : b ≤ c.last) {bootFw : Nat}
    (hfw : c.tmp < bootFw + c.h ↔ c.tmp < b) :
    Triple (TT c) false (FinI c A a B b) (finalTail c bootFw) true
      (fun r f => r = true ∧ DoneI c A a B b f) (fun f => FinI c A a B b f ∨ DoneI c A a B b f) := by
  have hss := w.ss_pos
  have hn2 := w.n2
  have h4 := w.fb4
  have hfb := w.fb_le
  have hpe := w.part_eq
  have hle := w.last_eq
  have htb := trailer_bounds w (k := 1) (by omega)
  have htb0 := trailer_bounds w (k := 0) (by omega)
  have hdiv := w.tmp_div
  have hso : c.tmp / c.ss * c.ss = c.tmp := by rw [hdiv]; rfl
  unfold finalTail
  -- erase the trailer sector of BOOT
  refine Triple.bind (l' := false) (Q := fun _ f => FinI c A a B b f ∧
    ∀ x, c.last ≤ x → x < c.part → f .boot x = 0xFF#8) ?_ (fun _ => ?_)
  · refine Triple.erase (fun f hF => ⟨?_, ?_⟩) (fun t f hT hF => Or.inl ?_)
    · exact hF.bootFrame w ((same_erase _ _ _ _).mono (by omega) (by omega))
    · intro x h1 h2
      unfold Flash.erase
      rw [if_pos ⟨rfl, h1, by omega⟩]
    · exact hF.bootFrame w ((same_tornErase _ _ _ _ _ _).mono (by omega) (by omega))
  -- restore the sector at `tmp`
  refine Triple.bind (l' := false) (Q := fun _ f => FinI c A a B b f ∧
    (∀ x, c.last ≤ x → x < c.part → f .boot x = 0xFF#8) ∧ Agree (f .boot) B 0 b ∧
    le32 (f .boot) c.tmp ≠ MAGIC_TRAIL) ?_ (fun _ => ?_)
  · refine Triple.ofEq (fun f0 ⟨hF, hbl⟩ => ?_)
    unfold finalRestore
    refine Triple.ite (fun hc => ?_) (fun hc => ?_)
    · refine (copySector_spec w (by simp) (Or.inr (by rw [hdiv]; omega)) f0).conseq (fun _ h => h)
        ?_ ?_
      · rintro _ f ⟨hs, hcp⟩
        unfold secOff at hs hcp
        simp only [reduceCtorEq, ↓reduceIte, hso] at hs hcp
        refine ⟨hF.bootFrame w (hs.mono (by omega) (by omega)), ?_, ?_, ?_⟩
        · intro x h1 h2; rw [hs.out (by omega)]; exact hbl x h1 h2
        · intro o _ ho
          by_cases h : o < c.tmp
          · rw [hs.out (by omega)]; exact hF.boot o ho h
          · have h1 := hcp (o - c.tmp) (by omega)
            rw [show c.tmp + (o - c.tmp) = o by omega, copied_lt (by omega) (by omega),
              Nat.zero_add] at h1
            rw [h1, hF.swap _ (by omega) (by omega), show c.tmp + (o - c.tmp) = o by omega]
        · rcases copied_word w (m := f .boot) (a := c.tmp) (fun o ho => hcp o (by omega)) with h | h
          · rw [h]; exact hF.swapNT (hfw.mp hc)
          · rw [h]; decide
      · rintro f (rfl | ⟨hs, hw⟩)
        · exact Or.inl hF
        · unfold secOff at hs
          simp only [reduceCtorEq, ↓reduceIte, hso] at hs
          exact Or.inl (hF.bootFrame w (hs.mono (by omega) (by omega)))
    · refine Triple.erase ?_ ?_
      · rintro f rfl
        have hs := same_erase f .boot c.tmp c.ss
        refine ⟨hF.bootFrame w (hs.mono (by omega) (by omega)), ?_, ?_, ?_⟩
        · intro x h1 h2; rw [hs.out (by omega)]; exact hbl x h1 h2
        · intro o _ ho
          have := fun h => hc (hfw.mpr h)
          rw [hs.out (by omega)]; exact hF.boot o ho (by omega)
        · have : le32 (f.erase .boot c.tmp c.ss .boot) c.tmp = 4294967295 := by
            unfold le32 Flash.erase
            simp only [true_and]
            rw [if_pos (by omega), if_pos (by omega), if_pos (by omega), if_pos (by omega)]
            rfl
          rw [this]; decide
      · rintro t f hT rfl
        exact Or.inl (hF.bootFrame w ((same_tornErase _ _ _ _ _ _).mono (by omega) (by omega)))
  -- mark BOOT as TESTING
  refine Triple.bind (l' := false) (Q := fun _ f => FinI c A a B b f ∧ Testing c f ∧ Agree (f .boot) B 0 b ∧
    le32 (f .boot) c.tmp ≠ MAGIC_TRAIL) ?_ (fun _ => ?_)
  · refine Triple.ofEq (fun f0 ⟨hF, hbl, hB, hN⟩ => ?_)
    refine (setState_spec w (by simp) f0 ST_TESTING ?_ ?_).conseq (fun _ h => h) ?_ ?_
    · intro i hi
      rw [hbl _ (by omega) (by omega)]
      exact BitVec.allOnes_and
    · rw [hbl _ (by omega) (by omega)]; decide
    · rintro _ f ⟨h1, h2, h3⟩
      refine ⟨hF.bootFrame w (h3.mono (by omega) (by omega)), ⟨h1, h2⟩, ?_, ?_⟩
      · intro o _ ho; rw [h3.out (by omega)]; exact hB o (by omega) ho
      · rw [word_out (x := f0 .boot) (fun y hy => h3.out hy) (by omega)]; exact hN
    · rintro f ⟨h1, _⟩
      exact Or.inl (hF.bootFrame w (h1.mono (by omega) (by omega)))
  -- erase the trailer of UPDATE
  refine Triple.bind (l' := false) (Q := fun _ f => DoneI c A a B b f) ?_ (fun _ => ?_)
  · refine Triple.erase ?_ ?_
    · rintro f ⟨hF, hT, hB, hN⟩
      have hs := same_erase f .update c.last c.ss
      have hbo : (f.erase .update c.last c.ss) .boot = f .boot := hs.other (by simp)
      refine ⟨by rw [hbo]; exact hB, ?_, testing_frame w (fun x _ => by rw [hbo]) hT, ?_,
        by rw [hbo]; exact hN, ?_⟩
      · intro o _ ho; rw [hs.out (by omega)]; exact hF.upd o (by omega) ho
      · intro x h1 h2
        unfold Flash.erase
        rw [if_pos ⟨rfl, h1, by omega⟩]
      · rw [word_out (x := f .update) (fun y hy => hs.out hy) (by omega)]; exact hF.ntU
    · rintro t f _ ⟨hF, _⟩
      left
      unfold Flash.tornErase
      rw [if_pos ⟨rfl, by omega⟩]
      exact hF
  refine Triple.bind Triple.lock (fun _ => ?_)
  exact (Triple.pure (Q := fun r f => r = true ∧ DoneI c A a B b f) true).pre (fun f h => ⟨rfl, h⟩)

/-- At the final phase, BOOT's header tells whether the sector at `tmp` belongs to the image. -/
theorem fin_fw (hB : ImgOK c B) (hb : b = imgLen c B) {f : Flash} (hF : FinI c A a B b f) :
    c.tmp < fwSize c (f .boot) + c.h ↔ c.tmp < b := by
  have hn2 := w.n2
  have h8 := w.h8
  have hh := w.h_le
  have hbh : c.h ≤ b := by rw [hb]; unfold imgLen; omega
  by_cases h : c.n = 2
  · have : c.tmp = 0 := by unfold Cfg.tmp; rw [h]; simp
    omega
  · have := Cfg.WF.sec_le_tmp (c := c) (k := 0) (by omega)
    have e : fwSize c (f .boot) = fwSize c B :=
      fwSize_congr (fun o _ ho => hF.boot o (by omega) (by omega))
    rw [e, fwSize_of_open (hB.openOK w), hb]
    rfl

/-- Resuming the final phase. -/
theorem swapFinal_resume' (e : Env) (hB : ImgOK c B) (hb : b = imgLen c B) (ha : a ≤ c.last) :
    Triple (TT c) true (FinI c A a B b) (swapFinal c e true) true
      (fun r f => r = true ∧ DoneI c A a B b f) (fun f => FinI c A a B b f ∨ DoneI c A a B b f) := by
  unfold swapFinal
  refine Triple.readFlash (fun f hF => ?_)
  have hst : (getState c f .update).getD e.junk = ST_FINAL := by
    unfold getState; rw [if_pos hF.magic]; exact hF.st
  dsimp only
  rw [hst, if_neg (by simp)]
  refine Triple.bind (Triple.unlock) (fun _ => ?_)
  unfold finalSave
  rw [if_neg (by simp)]
  refine Triple.bind (Q := fun _ g => g = f) ((Triple.pure (Q := fun _ g => g = f) ())) (fun _ => ?_)
  exact (finalTail_spec w ha (by rw [hb]; exact hB.fits) (fin_fw w hB hb hF)).conseq
    (fun g hg => by rw [hg]; exact hF) (fun _ _ h => h) (fun _ h => h)

theorem swapFinal_resume (e : Env) (hB : ImgOK c B) (hb : b = imgLen c B) (ha : a ≤ c.last) :
    Triple (TT c) true (FinI c A a B b) (swapFinal c e true) true
      (fun r f => r = true ∧ DoneI c A a B b f) (ProgI c V A a B b) :=
  (swapFinal_resume' w e hB hb ha).conseq (fun _ h => h) (fun _ _ h => h) (fun _ h => Or.inr h)

/-- The final phase after the swap loop. -/
theorem swapFinal_first (e : Env) (hB : ImgOK c B) (hb : b = imgLen c B) (ha : a ≤ c.last) {K : Nat}
    (hK1 : 1 ≤ K) (hK : EndSec c (max a b) K) :
    Triple (TT c) true (fun f => SwapI c V A a B b f K .new) (swapFinal c e false) true
      (fun r f => r = true ∧ DoneI c A a B b f) (ProgI c V A a B b) := by
  have h8 := w.h8
  have hbl : b ≤ c.last := by rw [hb]; exact hB.fits
  unfold swapFinal
  refine Triple.readFlash (fun f hI => ?_)
  have hst : (getState c f .update).getD e.junk ≠ ST_FINAL := by
    unfold getState; rw [if_pos (hI.magic (Or.inl (by omega)))]; exact hI.core.stNF
  have hfw : fwSize c (f .boot) + c.h = b := by
    have := (holds_of_end w ha hbl hK hI).1
    rw [fwSize_congr (this.mono (Nat.le_refl _) (by rw [hb]; unfold imgLen; omega)),
      fwSize_of_open (hB.openOK w), hb]
    rfl
  dsimp only
  rw [if_neg (by simp)]
  refine Triple.bind (Triple.unlock) (fun _ => ?_)
  refine Triple.bind ((finalSave_spec w ha hbl hK1 hK hfw hst).pre
    (fun g hg => by rw [hg]; exact hI)) (fun _ => ?_)
  exact (finalTail_spec w ha hbl (by rw [hfw])).conseq
    (fun g hg => hg) (fun _ _ h => h) (fun _ h => Or.inr h)

end

end Verif
