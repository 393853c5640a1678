import Verif.NvmFlags

/-!
# Update on write-once flash: the swap

Proof technique for `Verif.NvmUpdateThms`, continued: copies of sectors, the swap of a sector, the end of the swap.
-/

set_option linter.unusedVariables false

namespace Verif

namespace Nvu

section
variable {k : Cfg} (w : k.WF) (n3 : 3 ≤ k.n)
include w n3

/-! ### Data -/

/-- A fact about the flags that operations on the data do not change. -/
def Stable (k : Cfg) (K : Flash → Flash → Prop) : Prop := ∀ A A' F F', Keep k A A' → Keep k F F' → K A F → K A' F'

theorem stable_nf : Stable k (fun A _ => NF k A) := by
  intro A A' F F' h _ hn
  have hss := w.ss_pos
  have htb := trailer_bounds (pre_wf w n3) (k := 1) (by show 4 + 1 ≤ k.ss; omega)
  unfold NF at *
  rw [h _ _ (by simp) htb.1]
  exact hn

/-- The region is in the data area. -/
def InData (k : Cfg) (p : Part) (off len : Nat) : Prop := p = .swap ∨ off + len ≤ (pre k).last

theorem simErase {K : Flash → Flash → Prop} (hK : Stable k K) {p : Part} {off len : Nat} (hd : InData k p off len) {s : Bool} :
    Sim (TT (pre k)) (TornOK k) (Rel k) s false (fun A F => RelT k A F ∧ K A F) (erase (pre k) p off len) (erase k p off len) false
      (fun _ A F => RelT k A F ∧ K A F) := by
  obtain ⟨g1, g2, g3, g4, g5, g6, g7, g8, g9⟩ := geo w n3
  have keepE : ∀ A : Flash, Keep k A (A.erase p off len) := by
    intro A q x hq hx
    refine if_neg (fun g => ?_)
    rcases hd with e | e
    · exact hq (g.1.trans e)
    · omega
  have e1 : ∀ t (A : Flash), A.tornErase (pre k) t p off len = fun q a => if q = p ∧ off ≤ a ∧ a < off + len then t a else A q a := by
    intro t A
    unfold Flash.tornErase
    rw [if_neg]
    rintro ⟨e, g⟩
    rcases hd with e' | e'
    · rw [e] at e'; exact absurd e' (by simp)
    · omega
  have e2 : ∀ t (A : Flash), A.tornErase k t p off len = fun q a => if q = p ∧ off ≤ a ∧ a < off + len then t a else A q a := by
    intro t A
    unfold Flash.tornErase
    rw [if_neg]
    rintro ⟨e, g⟩
    rcases hd with e' | e'
    · rw [e] at e'; exact absurd e' (by simp)
    · omega
  have keepT' : ∀ (t : Mem) (A : Flash), Keep k A (fun q a => if q = p ∧ off ≤ a ∧ a < off + len then t a else A q a) := by
    intro t A q x hq hx
    refine if_neg (fun g => ?_)
    rcases hd with e | e
    · exact hq (g.1.trans e)
    · omega
  refine Sim.flashOp (fun _ _ _ => rfl) ?_ ?_
  · rintro t A F ⟨h, hk⟩
    refine ⟨h.keep w n3 (keepE A) (keepE F) ?_ ?_, hK _ _ _ _ (keepE A) (keepE F) hk⟩
    · intro q x hq hx
      unfold Flash.erase
      rw [h.rel.data q x hq hx]
    · intro x
      unfold Flash.erase
      rw [h.rel.swap x]
  · rintro t A F ht ⟨h, hk⟩
    refine ⟨t, ?_, ?_⟩
    · show le32 t (pre k).tmp ≠ MAGIC_TRAIL
      have := ht.1
      rw [show k.part - 3 * k.ss = (pre k).tmp by omega] at this
      exact this
    · rw [e1, e2]
      refine h.rel.keep w n3 (keepT' t A) (keepT' t F) ?_ ?_
      · intro q x hq hx
        rw [h.rel.data q x hq hx]
      · intro x
        rw [h.rel.swap x]

theorem simProgram {K : Flash → Flash → Prop} (hK : Stable k K) {p : Part} {off len : Nat} (hd : InData k p off len) {dA dC : Nat → Byte}
    (he : ∀ i, i < len → dA i = dC i) {s : Bool} :
    Sim (TT (pre k)) (TornOK k) (Rel k) s false (fun A F => RelT k A F ∧ K A F) (program (pre k) p off len dA) (program k p off len dC) false
      (fun _ A F => RelT k A F ∧ K A F) := by
  obtain ⟨g1, g2, g3, g4, g5, g6, g7, g8, g9⟩ := geo w n3
  have same : ∀ A F : Flash, RelT k A F → ∀ i, i < len → A p (off + i) = F p (off + i) := by
    intro A F h i hi
    by_cases e : p = .swap
    · rw [e]; exact h.rel.swap _
    · refine h.rel.data p _ e ?_
      rcases hd with e' | e'
      · exact absurd e' e
      · omega
  refine Sim.ofEq fun A F ⟨h, hk⟩ => ?_
  by_cases hN : ∀ i, i < len → A p (off + i) &&& dA i = dA i
  · have hNC : ∀ i, i < len → F p (off + i) &&& dC i = dC i := by
      intro i hi
      rw [← same A F h i hi, ← he i hi]
      exact hN i hi
    have keepT' : ∀ t : Flash → Part → Nat → Byte, ∀ A : Flash, Keep k A (fun q a => if q = p ∧ off ≤ a ∧ a < off + len then t A q a else A q a) := by
      intro t A q x hq hx
      refine if_neg (fun g => ?_)
      rcases hd with e | e
      · exact hq (g.1.trans e)
      · omega
    have e1 : ∀ c : Cfg, (pre k).last ≤ c.last → ∀ t (A : Flash) d, A.tornProgram c t p off len d = fun q a => if q = p ∧ off ≤ a ∧ a < off + len then t a else A q a := by
      intro c hc t A d
      funext q a
      unfold Flash.tornProgram
      by_cases hx : q = p ∧ off ≤ a ∧ a < off + len
      · rw [if_pos hx, if_pos hx, if_neg]
        rintro ⟨e, g⟩
        rcases hd with e' | e'
        · exact e e'
        · omega
      · rw [if_neg hx, if_neg hx]
    intro A' F' b t ht hp
    obtain ⟨rfl, rfl⟩ := hp
    have hrun : program k p off len dC ⟨F', false, b, t⟩ = flashOp (fun _ f => f.program p off len dC) (fun t f => f.tornProgram k t p off len dC) ⟨F', false, b, t⟩ := by
      unfold program
      exact if_neg (fun g => g.2.2 hNC)
    have hrunA : ∀ b t, program (pre k) p off len dA ⟨A', false, b, t⟩ =
        flashOp (fun _ f => f.program p off len dA) (fun t f => f.tornProgram (pre k) t p off len dA) ⟨A', false, b, t⟩ := by
      intro b t
      unfold program
      exact if_neg (fun g => g.2.2 hN)
    have hs := Sim.flashOp (T := TT (pre k)) (N := TornOK k) (R := Rel k) (s := s) (P := fun A F => A = A' ∧ F = F')
      (opA := fun _ f => f.program p off len dA) (tornA := fun t f => f.tornProgram (pre k) t p off len dA)
      (opC := fun _ f => f.program p off len dC) (tornC := fun t f => f.tornProgram k t p off len dC)
      (Q := fun _ A F => RelT k A F ∧ K A F) (fun _ _ _ => rfl) ?_ ?_ A' F' b t ht ⟨rfl, rfl⟩
    · rcases hs with hs | hs
      · left
        intro t
        obtain ⟨f, hf⟩ := hs t
        refine ⟨f, ?_⟩
        rw [hrunA]
        exact hf
      · right
        rw [hrun]
        have conv : ∀ a A'' l, Exec (flashOp (fun _ f => f.program p off len dA) (fun t f => f.tornProgram (pre k) t p off len dA)) false A' a A'' l →
            Exec (program (pre k) p off len dA) false A' a A'' l := by
          rintro a A'' l ⟨j, hj⟩
          refine ⟨j, fun t => ⟨?_, fun b => ?_⟩⟩
          · rw [hrunA]; exact (hj t).1
          · rw [hrunA]; exact (hj t).2 b
        cases hm : flashOp (fun _ f => f.program p off len dC) (fun t f => f.tornProgram k t p off len dC) ⟨F', false, b, t⟩ with
        | ok a w =>
          rw [hm] at hs
          obtain ⟨h1, h2, h3, A'', h4, h5⟩ := hs
          exact ⟨h1, h2, h3, A'', conv _ _ _ h4, h5⟩
        | crash f =>
          rw [hm] at hs
          obtain ⟨h1, A'', h2, ⟨b', t', h3, h4⟩ | ⟨h3, a, h4⟩⟩ := hs
          · exact ⟨h1, A'', h2, .inl ⟨b', t', h3, by rw [hrunA]; exact h4⟩⟩
          · exact ⟨h1, A'', h2, .inr ⟨h3, a, conv _ _ _ h4⟩⟩
        | panic f => rw [hm] at hs; exact hs
        | stuck f => rw [hm] at hs; exact hs
        | fault f => rw [hm] at hs; exact hs
    · rintro t A1 F1 ⟨rfl, rfl⟩
      have kA := keepT' (fun A q a => A q a &&& dA (a - off)) A1
      have kF := keepT' (fun A q a => A q a &&& dC (a - off)) F1
      refine ⟨h.keep w n3 kA kF ?_ ?_, hK _ _ _ _ kA kF hk⟩
      · intro q x hq hx
        unfold Flash.program
        rw [h.rel.data q x hq hx]
        by_cases g : q = p ∧ off ≤ x ∧ x < off + len
        · rw [if_pos g, if_pos g, he _ (by omega)]
        · rw [if_neg g, if_neg g]
      · intro x
        unfold Flash.program
        rw [h.rel.swap x]
        by_cases g : Part.swap = p ∧ off ≤ x ∧ x < off + len
        · rw [if_pos g, if_pos g, he _ (by omega)]
        · rw [if_neg g, if_neg g]
    · rintro t A1 F1 ht ⟨rfl, rfl⟩
      refine ⟨t, ?_, ?_⟩
      · show le32 t (pre k).tmp ≠ MAGIC_TRAIL
        have := ht.1
        rw [show k.part - 3 * k.ss = (pre k).tmp by omega] at this
        exact this
      · rw [e1 (pre k) (by omega), e1 k (by omega)]
        refine h.rel.keep w n3 (keepT' (fun _ _ a => t a) A1) (keepT' (fun _ _ a => t a) F1) ?_ ?_
        · intro q x hq hx
          rw [h.rel.data q x hq hx]
        · intro x
          rw [h.rel.swap x]
  · rintro A' F' b t ht ⟨rfl, rfl⟩
    exact .inl (bad_program rfl hN)

/-! ### Copies -/

/-- The same size, or both sizes reach the flags. -/
def SameFw (k : Cfg) (a c : Nat) : Prop := a = c ∨ ((pre k).part ≤ a + k.h ∧ (pre k).part ≤ c + k.h)

theorem same_fw {m m' : Mem} (he : ∀ x, x < k.h → m x = m' x) : SameFw k (fwSize (pre k) m) (fwSize k m') := by
  obtain ⟨g1, g2, g3, g4, g5, g6, g7, g8, g9⟩ := geo w n3
  have hh := w.h8
  have hl := w.h_le
  have e0 : le32 m 0 = le32 m' 0 := le32_congr fun o h1 h2 => he o (by omega)
  have e4 : le32 m 4 = le32 m' 4 := le32_congr fun o h1 h2 => he o (by omega)
  unfold SameFw fwSize
  rw [e0, e4, show (pre k).h = k.h from rfl]
  by_cases h0 : le32 m' 0 ≠ MAGIC
  · rw [if_pos h0, if_pos h0]; exact .inl rfl
  · rw [if_neg h0, if_neg h0]
    by_cases h1 : le32 m' 4 > (pre k).part - k.h
    · rw [if_pos h1]
      right
      refine ⟨by omega, ?_⟩
      split <;> omega
    · rw [if_neg h1, if_neg (by omega)]
      exact .inl rfl

theorem sector_le {j : Nat} (hj : j < (pre k).n - 1) : j * k.ss + k.ss ≤ (pre k).last := by
  show _ ≤ ((pre k).n - 1) * k.ss
  rw [show j * k.ss + k.ss = (j + 1) * k.ss by rw [Nat.add_mul]; omega]
  exact Nat.mul_le_mul_right _ (by omega)

theorem simCopyLoop {K : Flash → Flash → Prop} (hK : Stable k K) {src dst : Part} {fa fc j : Nat} (hf : SameFw k fa fc) (hj : j < (pre k).n - 1) {s : Bool} :
    ∀ fuel pos, k.fb ∣ pos →
    Sim (TT (pre k)) (TornOK k) (Rel k) s false (fun A F => RelT k A F ∧ K A F) (copyLoop (pre k) src fa dst (secOff k src j) (secOff k dst j) fuel pos)
      (copyLoop k src fc dst (secOff k src j) (secOff k dst j) fuel pos) false (fun _ A F => RelT k A F ∧ K A F) := by
  obtain ⟨g1, g2, g3, g4, g5, g6, g7, g8, g9⟩ := geo w n3
  have hsl := sector_le w n3 hj
  have hso : ∀ p, secOff k p j + k.ss ≤ (pre k).last := by
    intro p
    unfold secOff
    split
    · have : 0 * k.ss ≤ j * k.ss := Nat.mul_le_mul_right _ (by omega)
      omega
    · exact hsl
  have hfb := w.fb4
  intro fuel
  induction fuel with
  | zero => intro pos _; exact Sim.stuck
  | succ fuel ih =>
    intro pos hpos
    unfold copyLoop
    refine Sim.ite (by rw [g7]) (fun hlt => ?_) (fun _ => Sim.pure (Q := fun _ A F => RelT k A F ∧ K A F) ())
    have hfit : pos + k.fb ≤ k.ss := by
      obtain ⟨a, ha⟩ := hpos
      obtain ⟨b, hb⟩ := w.fb_dvd
      rw [g7] at hlt
      have : a < b := by
        rw [ha, hb] at hlt
        exact Nat.lt_of_mul_lt_mul_left hlt
      rw [ha, hb, ← Nat.mul_succ]
      exact Nat.mul_le_mul_left _ this
    refine Sim.bind (Q := fun _ A F => RelT k A F ∧ K A F) ?_ (fun _ => ih _ (Nat.dvd_add hpos (Nat.dvd_refl _)))
    unfold copyChunk
    have hs1 := hso src
    have hs2 := hso dst
    refine Sim.ite ?_ (fun _ => ?_) (fun _ => Sim.pure (Q := fun _ A F => RelT k A F ∧ K A F) ())
    · show _ < fa + k.h + k.fb ↔ _
      unfold SameFw at hf
      omega
    · refine Sim.readA fun A => Sim.readC fun F => ?_
      refine Sim.ofEq fun A1 F1 ⟨e1, e2, h, hk⟩ => ?_
      subst e1 e2
      refine (simProgram w n3 hK (.inr ?_) ?_).pre ?_
      · show _ + k.fb ≤ _
        omega
      · intro i hi
        by_cases e : src = .swap
        · subst e; exact h.rel.swap _
        · exact h.rel.data _ _ e (by have : i < k.fb := hi; omega)
      · rintro A2 F2 ⟨rfl, rfl⟩
        exact ⟨h, hk⟩

theorem simCopy {K : Flash → Flash → Prop} (hK : Stable k K) {src dst : Part} {fa fc j : Nat} (hf : SameFw k fa fc) (hj : j < (pre k).n - 1) {s : Bool} :
    Sim (TT (pre k)) (TornOK k) (Rel k) s false (fun A F => RelT k A F ∧ K A F) (copySector (pre k) src fa dst j) (copySector k src fc dst j) false
      (fun _ A F => RelT k A F ∧ K A F) := by
  unfold copySector
  refine Sim.bind (Q := fun _ A F => RelT k A F ∧ K A F) (simErase w n3 hK ?_) fun _ => simCopyLoop w n3 hK hf hj _ 0 (Nat.dvd_zero _)
  by_cases e : dst = .swap
  · exact .inl e
  · right
    rw [if_neg e]
    exact sector_le w n3 hj

/-! ### The swap of a sector -/

theorem simMark {j : Nat} (hj : j < (pre k).n - 1) (fl : Byte) {s : Bool} :
    Sim (TT (pre k)) (TornOK k) (Rel k) s false (fun A F => RelT k A F ∧ NF k A) (Verif.markSector (pre k) j fl) (markSector k j fl) false
      (fun _ A F => RelT k A F ∧ NF k A) := by
  obtain ⟨g1, g2, g3, g4, g5, g6, g7, g8, g9⟩ := geo w n3
  have hsl := sector_le w n3 hj
  have hss := w.ss_pos
  have hn : (pre k).n = k.n - 1 := rfl
  unfold Verif.markSector markSector
  rw [if_pos (by rw [g7, Nat.add_mul]; omega), if_pos (by rw [Nat.add_mul]; omega)]
  exact simSetFlag w n3 (by omega) fl

theorem simBackup {j : Nat} (hj : j < (pre k).n - 1) {s : Bool} :
    Sim (TT (pre k)) (TornOK k) (Rel k) s false (fun A F => RelT k A F ∧ NF k A) (Verif.doBackup (pre k) j) (doBackup k j) false
      (fun _ A F => RelT k A F ∧ NF k A) := by
  unfold Verif.doBackup doBackup
  exact Sim.bind (simCopy w n3 (stable_nf w n3) (.inl rfl) hj) fun _ => simMark w n3 hj _

theorem simSwapping {fa fc j : Nat} (hf : SameFw k fa fc) (hj : j < (pre k).n - 1) {s : Bool} :
    Sim (TT (pre k)) (TornOK k) (Rel k) s false (fun A F => RelT k A F ∧ NF k A) (Verif.doSwapping (pre k) fa j) (doSwapping k fc j) false
      (fun _ A F => RelT k A F ∧ NF k A) := by
  unfold Verif.doSwapping doSwapping
  exact Sim.bind (simCopy w n3 (stable_nf w n3) hf hj) fun _ => Sim.bind (simMark w n3 hj _) fun _ => simBackup w n3 hj

theorem simNew {fa fc ua uc j : Nat} (hf : SameFw k fa fc) (hu : SameFw k ua uc) (hj : j < (pre k).n - 1) {s : Bool} :
    Sim (TT (pre k)) (TornOK k) (Rel k) s false (fun A F => RelT k A F ∧ NF k A) (Verif.doNew (pre k) fa ua j) (doNew k fc uc j) false
      (fun _ A F => RelT k A F ∧ NF k A) := by
  unfold Verif.doNew doNew
  exact Sim.bind (simCopy w n3 (stable_nf w n3) hu hj) fun _ => Sim.bind (simMark w n3 hj _) fun _ => simSwapping w n3 hf hj

theorem simSector {fa fc ua uc j : Nat} (hf : SameFw k fa fc) (hu : SameFw k ua uc) (hj : j < (pre k).n - 1) {s : Bool} :
    Sim (TT (pre k)) (TornOK k) (Rel k) s false (fun A F => RelT k A F ∧ NF k A) (Verif.swapSector (pre k) fa ua j) (swapSector k fc uc j) false
      (fun _ A F => RelT k A F ∧ NF k A) := by
  have hn : (pre k).n = k.n - 1 := rfl
  unfold Verif.swapSector swapSector
  refine Sim.readA fun A => Sim.obs (fun F => flagOf k F j) (fun A F b t h => getFlag_tidy h.2.1.update j) fun F => ?_
  refine Sim.ofEq fun A1 F1 ⟨e1, e2, h, hk⟩ => ?_
  subst e1 e2
  rw [h.rel.flag w n3 (by omega)]
  have hp : ∀ A F, A = A1 ∧ F = F1 → RelT k A F ∧ NF k A := by
    rintro A F ⟨rfl, rfl⟩
    exact ⟨h, hk⟩
  refine Sim.ite Iff.rfl (fun _ => (simNew w n3 hf hu hj).pre hp) fun _ => ?_
  refine Sim.ite Iff.rfl (fun _ => (simSwapping w n3 hf hj).pre hp) fun _ => ?_
  refine Sim.ite Iff.rfl (fun _ => (simBackup w n3 hj).pre hp) fun _ => ?_
  exact (Sim.pure (Q := fun _ A F => RelT k A F ∧ NF k A) ()).pre hp

/-! ### The end of the swap -/

theorem simRest : ∀ fa fc j, fa ≤ fc → ∀ {s : Bool},
    Sim (TT (pre k)) (TornOK k) (Rel k) s false (fun A F => RelT k A F ∧ NF k A) (Verif.eraseRest (pre k) fa j) (eraseRest k fc j) false
      (fun _ A F => RelT k A F ∧ NF k A) := by
  obtain ⟨g1, g2, g3, g4, g5, g6, g7, g8, g9⟩ := geo w n3
  intro fa
  induction fa with
  | zero => intro fc j _ s; exact Sim.stuck
  | succ fa ih =>
    intro fc j hfc s
    obtain ⟨fc, rfl⟩ : ∃ c, fc = c + 1 := ⟨fc - 1, by omega⟩
    unfold Verif.eraseRest eraseRest
    refine Sim.ite (by rw [g7, Nat.mul_comm k.ss 2]; omega) (fun hlt => ?_) (fun _ => Sim.pure (Q := fun _ A F => RelT k A F ∧ NF k A) ())
    have hl : j * k.ss + k.ss ≤ (pre k).last := by
      refine sector_le w n3 ?_
      have : j * k.ss < ((pre k).n - 1) * k.ss := by
        have e : (pre k).last = ((pre k).n - 1) * k.ss := rfl
        rw [g7] at hlt
        omega
      exact Nat.lt_of_mul_lt_mul_right this
    rw [g7]
    exact Sim.bind (simErase w n3 (stable_nf w n3) (.inr hl)) fun _ => Sim.bind (simErase w n3 (stable_nf w n3) (.inr hl)) fun _ => ih fc _ (by omega)

/-- What is known of the flags of UPDATE when they are about to be erased. -/
def UF (k : Cfg) (A : Flash) : Prop := ¬ hasMagic (pre k) A .update ∨ A .update (trailerAt (pre k) 1) = ST_FINAL

theorem uf_congr {A A' : Flash} (he : ∀ x, (pre k).last ≤ x → A' .update x = A .update x) (h : UF k A) : UF k A' := by
  have hss := w.ss_pos
  have htb0 := trailer_bounds (pre_wf w n3) (k := 0) (by show 4 + 0 ≤ k.ss; omega)
  have htb := trailer_bounds (pre_wf w n3) (k := 1) (by show 4 + 1 ≤ k.ss; omega)
  unfold UF hasMagic at *
  rw [he _ htb.1, le32_congr (x := A .update) fun o h1 h2 => he o (by omega)]
  exact h

/-- The same, and the flags of BOOT are erased. -/
def EF (k : Cfg) (A F : Flash) : Prop := UF k A ∧ ∀ b, (nv k).Clear (F .boot) b

theorem stable_ef : Stable k (EF k) := by
  intro A A' F F' h h' hk
  exact ⟨uf_congr w n3 (fun x hx => h _ x (by simp) hx) hk.1, fun b => (h'.clear w n3 (by simp) b).2 (hk.2 b)⟩

theorem tmp_sector : tmp k / k.ss = (pre k).n - 2 ∧ (pre k).n - 2 < (pre k).n - 1 ∧ (pre k).tmp / (pre k).ss = (pre k).n - 2 := by
  obtain ⟨g1, g2, g3, g4, g5, g6, g7, g8, g9⟩ := geo w n3
  have hn : (pre k).n = k.n - 1 := rfl
  have hss := w.ss_pos
  have : (pre k).tmp / k.ss = (pre k).n - 2 := Nat.mul_div_cancel _ (by omega)
  refine ⟨by rw [tmp_eq w n3]; exact this, by omega, this⟩

theorem simSave {fa fc : Nat} (hf : SameFw k fa fc) {A F : Flash} {st junk : Byte} (h : RelT k A F) (hst : st = (Verif.getState (pre k) A .update).getD junk)
    {s : Bool} :
    Sim (TT (pre k)) (TornOK k) (Rel k) s false (fun A' F' => A' = A ∧ F' = F) (Verif.finalSave (pre k) fa st) (finalSave k fc st) false
      (fun _ A F => RelT k A F ∧ UF k A) := by
  have hss := w.ss_pos
  obtain ⟨e1, e2, e3⟩ := tmp_sector w n3
  unfold Verif.finalSave finalSave
  refine Sim.ite Iff.rfl (fun hn => ?_) (fun hn => ?_)
  · have hnf : NF k A := by
      unfold NF
      by_cases hm : hasMagic (pre k) A .update
      · unfold Verif.getState at hst
        rw [if_pos hm] at hst
        rw [hst] at hn
        exact hn
      · rw [h.cell_ff w n3 (by simp) (h.clear w n3 hm) (by omega)]
        decide
    rw [e1, e3]
    refine Sim.bind (((simCopy w n3 (stable_nf w n3) hf e2)).pre ?_) fun _ => ?_
    · rintro A' F' ⟨rfl, rfl⟩
      exact ⟨h, hnf⟩
    · refine Sim.ofEq fun A' F' ⟨h', hnf'⟩ => ?_
      refine (simSetState w n3 (by simp) ST_FINAL h' (fun hm => h'.clear w n3 hm) (fun _ => hnf')).conseq (fun _ _ h => h) ?_
      rintro _ A2 F2 ⟨g1, g2, g3, g4⟩
      exact ⟨g1, .inr g3⟩
  · refine (Sim.pure (Q := fun _ A F => RelT k A F ∧ UF k A) ()).pre ?_
    rintro A' F' ⟨rfl, rfl⟩
    refine ⟨h, ?_⟩
    by_cases hm : hasMagic (pre k) A' .update
    · right
      unfold Verif.getState at hst
      rw [if_pos hm] at hst
      have : st = ST_FINAL := Decidable.not_not.1 hn
      rw [this] at hst
      exact hst.symm
    · exact .inl hm

theorem simRestore {fa fc : Nat} (hf : SameFw k fa fc) {s : Bool} :
    Sim (TT (pre k)) (TornOK k) (Rel k) s false (fun A F => RelT k A F ∧ EF k A F) (Verif.finalRestore (pre k) fa) (finalRestore k fc) false
      (fun _ A F => RelT k A F ∧ EF k A F) := by
  obtain ⟨g1, g2, g3, g4, g5, g6, g7, g8, g9⟩ := geo w n3
  obtain ⟨e1, e2, e3⟩ := tmp_sector w n3
  have ht := tmp_eq w n3
  have hss := w.ss_pos
  unfold Verif.finalRestore finalRestore
  refine Sim.ite ?_ (fun _ => ?_) (fun _ => ?_)
  · show _ < fa + k.h ↔ _
    unfold SameFw at hf
    omega
  · rw [e1, e3]
    exact simCopy w n3 (stable_ef w n3) (.inl rfl) e2
  · rw [ht]
    exact simErase w n3 (stable_ef w n3) (.inr (by show _ + k.ss ≤ _; omega))

/-- `swapFinal` finds nothing to resume. -/
theorem simFinal_none {e : Env} {A F : Flash} (h : RelT k A F) (h1 : le32 (A .boot) (pre k).tmp ≠ MAGIC_TRAIL)
    (h2 : (Verif.getState (pre k) A .update).getD e.junk ≠ ST_FINAL) {s l : Bool} :
    Sim (TT (pre k)) (TornOK k) (Rel k) s l (fun A' F' => A' = A ∧ F' = F) (Verif.swapFinal (pre k) e true) (swapFinal k e true) l
      (fun r A' F' => r = false ∧ A' = A ∧ F' = F) := by
  obtain ⟨g1, g2, g3, g4, g5, g6, g7, g8, g9⟩ := geo w n3
  have hss := w.ss_pos
  unfold Verif.swapFinal swapFinal
  refine Sim.readA fun A1 => Sim.readC fun F1 => Sim.obs (fun F => stateOf k F .update) ?_ fun F2 => Sim.readC fun F3 => ?_
  · rintro A' F' b t ⟨-, -, rfl, rfl⟩
    exact getState_tidy h.update
  · refine Sim.ofEq ?_
    rintro A' F' ⟨rfl, rfl, rfl, rfl, rfl, rfl⟩
    rw [h.rel.state w n3 (by simp)] at h2 ⊢
    have h1' : le32 (F' .boot) (tmp k) ≠ MAGIC_TRAIL := by
      rw [tmp_eq w n3]
      rw [le32_congr (x := F' .boot) fun o h1 h2 => h.rel.data _ _ (by simp) (by omega)] at h1
      exact h1
    dsimp only
    rw [if_pos ⟨rfl, h1, h2⟩, if_pos ⟨rfl, h1', h2⟩]
    exact (Sim.pure (Q := fun r A1 F1 => r = false ∧ A1 = A' ∧ F1 = F') false).pre fun _ _ h => ⟨rfl, h⟩

theorem exec_end (A : Flash) : Exec (Verif.lock >>= fun _ => (pure true : M Bool)) false A true A true :=
  ⟨0, fun t => ⟨rfl, fun b => by rw [Nat.zero_add]; rfl⟩⟩

theorem simFinal {e : Env} {resume : Bool} :
    Sim (TT (pre k)) (TornOK k) (Rel k) true true (RelT k) (Verif.swapFinal (pre k) e resume) (swapFinal k e resume) true (fun _ => RelT k) := by
  obtain ⟨g1, g2, g3, g4, g5, g6, g7, g8, g9⟩ := geo w n3
  have hss := w.ss_pos
  have hh := w.h_le
  unfold Verif.swapFinal swapFinal
  refine Sim.readA fun A1 => Sim.readC fun F1 => Sim.obs (fun F => stateOf k F .update) ?_ fun F2 => Sim.readC fun F3 => ?_
  · rintro A' F' b t ⟨-, -, h⟩
    exact getState_tidy h.update
  · refine Sim.ofEq ?_
    rintro A' F' ⟨rfl, rfl, rfl, rfl, h⟩
    have hst := h.rel.state w n3 (p := .update) (by simp)
    have hf : SameFw k (fwSize (pre k) (A' .boot)) (fwSize k (F' .boot)) :=
      same_fw w n3 fun x hx => h.rel.data _ _ (by simp) (by omega)
    have hw : le32 (F' .boot) (tmp k) = le32 (A' .boot) (pre k).tmp := by
      rw [tmp_eq w n3]
      exact le32_congr fun o h1 h2 => (h.rel.data _ _ (by simp) (by omega)).symm
    dsimp only
    rw [hw, ← hst]
    refine Sim.ite Iff.rfl (fun _ => ?_) (fun _ => ?_)
    · refine (Sim.pure (Q := fun _ => RelT k) false).pre ?_
      rintro A F ⟨rfl, rfl⟩
      exact h
    · refine Sim.bind (Q := fun _ A F => A = A' ∧ F = F') Sim.unlock fun _ => ?_
      refine Sim.bind (simSave w n3 hf h rfl) fun _ => ?_
      refine Sim.ofEq fun A2 F2 ⟨h2, u2⟩ => ?_
      refine Sim.bind (Q := fun _ A F => RelT k A F ∧ EF k A F) ((simEraseBoot w n3 h2).conseq (fun _ _ h => h) ?_) fun _ => ?_
      · rintro _ A F ⟨q1, q2, q3⟩
        exact ⟨q1, uf_congr w n3 (fun x hx => q3 _ _ (by simp)) u2, q2⟩
      refine Sim.bind (simRestore w n3 hf) fun _ => ?_
      refine Sim.ofEq fun A3 F3 ⟨h3, u3, c3⟩ => ?_
      refine Sim.bind (Q := fun _ A F => RelT k A F ∧ UF k A) ((simSetState w n3 (by simp) ST_TESTING h3 (fun _ => c3) (by simp)).conseq (fun _ _ h => h) ?_) fun _ => ?_
      · rintro _ A F ⟨q1, q2, q3, q4⟩
        exact ⟨q1, uf_congr w n3 (fun x hx => q4 _ _ (by simp)) u3⟩
      refine Sim.ofEq fun A4 F4 ⟨h4, u4⟩ => ?_
      refine Sim.bindLate (simEraseUpdate w n3 h4 u4) (fun A F a A' _ _ => .inr ⟨rfl, true, exec_end w n3 A'⟩) fun _ => ?_
      exact Sim.bind (Q := fun _ => RelT k) Sim.lock fun _ => Sim.pure (Q := fun _ => RelT k) true

end

end Nvu

end Verif
