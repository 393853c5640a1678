import Verif.FlagsHome
import Verif.NvmSim
import Verif.UpdateLemmas

/-!
# Update with the flags of UPDATE in BOOT: simulation

Proof technique for `Verif.FlagsHomeThms`: runs of `Verif.FlagsHome` are matched by runs of `Verif.Swap`, as long as the flags are not lost.
-/

set_option linter.unusedVariables false

namespace Verif

namespace Fho

open Verif.Nvu (Exec CrashTo Bad Sim)

/-- The flags fit into the last sector of BOOT. -/
def Fits (k : Cfg) : Prop := 14 + k.n / 2 ≤ k.ss

/-- The same images. -/
structure Data (k : Cfg) (A F : Flash) : Prop where
  data : ∀ p x, p ≠ .swap → x < k.last → A p x = F p x
  swap : ∀ x, A .swap x = F .swap x

/-- The same flags. -/
structure Flags (k : Cfg) (A F : Flash) : Prop where
  bt : ∀ x, k.part - 5 ≤ x → x < k.part → A .boot x = F .boot x
  ut : ∀ x, k.last + 8 ≤ x → x < k.part → A .update x = F .boot (x - 8)

/-- The same contents. -/
def Rel (k : Cfg) (A F : Flash) : Prop := Data k A F ∧ Flags k A F

/-- After a power failure. -/
def RL (k : Cfg) (A F : Flash) : Prop := Rel k A F ∨ ¬ Recorded k F

/-! ### Operations -/

section
variable {T N : Mem → Prop} {R : Flash → Flash → Prop} {s : Bool} {P : Flash → Flash → Prop} {c : Cfg} {p q : Part} {off off' len : Nat} {dA dC : Nat → Byte}

theorem simProg {Q : Unit → Flash → Flash → Prop} (hN : ∀ A F, P A F → ∀ i, i < len → (A p (off + i) &&& dA i = dA i ↔ F q (off' + i) &&& dC i = dC i))
    (hQ : ∀ A F, P A F → Q () (A.program p off len dA) (F.program q off' len dC))
    (hC : ∀ t A F, N t → P A F → ∃ t', T t' ∧ R (A.tornProgram c t' p off len dA) (F.tornProgram c t q off' len dC)) :
    Sim T N R s false P (program c p off len dA) (program c q off' len dC) false Q := by
  intro A F b t ht hp
  have hNi := hN A F hp
  by_cases hf : c.strict = true ∧ ¬ ∀ i, i < len → A p (off + i) &&& dA i = dA i
  · left
    intro t
    refine ⟨A, .inr (.inr ?_)⟩
    unfold program
    exact if_pos ⟨hf.1, rfl, hf.2⟩
  · have hf' : ¬ (c.strict = true ∧ ¬ ∀ i, i < len → F q (off' + i) &&& dC i = dC i) := fun g => hf ⟨g.1, fun h => g.2 fun i hi => (hNi i hi).1 (h i hi)⟩
    have runC : program c q off' len dC ⟨F, false, b, t⟩ = flashOp (fun _ f => f.program q off' len dC) (fun t f => f.tornProgram c t q off' len dC) ⟨F, false, b, t⟩ := by
      unfold program
      exact if_neg fun g => hf' ⟨g.1, g.2.2⟩
    have runA : ∀ b t, program c p off len dA ⟨A, false, b, t⟩ =
        flashOp (fun _ f => f.program p off len dA) (fun t f => f.tornProgram c t p off len dA) ⟨A, false, b, t⟩ := by
      intro b t
      unfold program
      exact if_neg fun g => hf ⟨g.1, g.2.2⟩
    right
    have he : Exec (program c p off len dA) false A () (A.program p off len dA) false := by
      refine ⟨1, fun t => ⟨runA _ _, fun b => ?_⟩⟩
      rw [runA, Nat.add_comm]
      rfl
    rw [runC]
    rcases b with _ | _ | b
    · exact ⟨rfl, rfl, id, _, he, hQ A F hp⟩
    · obtain ⟨t', h1, h2⟩ := hC t A F ht hp
      exact ⟨by simp, _, h2, .inl ⟨0, t', h1, runA _ _⟩⟩
    · exact ⟨rfl, rfl, by simp, _, he, hQ A F hp⟩

end

/-- The flags are not changed. -/
def Keep (k : Cfg) (A A' : Flash) : Prop := ∀ p x, p ≠ .swap → k.last ≤ x → A' p x = A p x

/-- A fact about the flags that operations on the data do not change, and that is enough after a power failure. -/
structure Stable (k : Cfg) (K : Flash → Flash → Prop) : Prop where
  keep : ∀ A A' F F', Keep k A A' → Keep k F F' → K A F → K A' F'
  lost : ∀ A F, Data k A F → K A F → RL k A F

/-- The region is in the data area. -/
def InData (k : Cfg) (p : Part) (off len : Nat) : Prop := p = .swap ∨ off + len ≤ k.last

/-- The region replaced. -/
def put (A : Flash) (p : Part) (off len : Nat) (v : Nat → Byte) : Flash := fun q a => if q = p ∧ off ≤ a ∧ a < off + len then v a else A q a

section
variable {k : Cfg} {p : Part} {off len : Nat}

theorem keep_put (hd : InData k p off len) (A : Flash) (v : Nat → Byte) : Keep k A (put A p off len v) := by
  intro q x hq hx
  refine if_neg fun g => ?_
  rcases hd with e | e
  · exact hq (g.1.trans e)
  · omega

theorem Data.put {A F : Flash} (h : Data k A F) {v v' : Nat → Byte} (hv : ∀ a, off ≤ a → a < off + len → v a = v' a) :
    Data k (put A p off len v) (put F p off len v') := by
  constructor
  · intro q x hq hx
    unfold Fho.put
    by_cases g : q = p ∧ off ≤ x ∧ x < off + len
    · rw [if_pos g, if_pos g, hv x g.2.1 g.2.2]
    · rw [if_neg g, if_neg g, h.data q x hq hx]
  · intro x
    unfold Fho.put
    by_cases g : Part.swap = p ∧ off ≤ x ∧ x < off + len
    · rw [if_pos g, if_pos g, hv x g.2.1 g.2.2]
    · rw [if_neg g, if_neg g, h.swap]

theorem Data.at {A F : Flash} (h : Data k A F) (hd : InData k p off len) {a : Nat} (ha : a < off + len) : A p a = F p a := by
  by_cases e : p = .swap
  · subst e; exact h.swap a
  · rcases hd with e' | e'
    · exact absurd e' e
    · exact h.data p a e (by omega)

theorem erase_put (A : Flash) : A.erase p off len = put A p off len (fun _ => 0xFF#8) := rfl

theorem torn_erase_put (hd : InData k p off len) (t : Mem) (A : Flash) : A.tornErase k t p off len = put A p off len t := by
  unfold Flash.tornErase
  rw [if_neg]
  · rfl
  · rintro ⟨e, g⟩
    rcases hd with e' | e'
    · rw [e] at e'; exact absurd e' (by simp)
    · omega

theorem program_put (A : Flash) (d : Nat → Byte) : A.program p off len d = put A p off len (fun a => A p a &&& d (a - off)) := by
  funext q a
  unfold Flash.program Fho.put
  by_cases g : q = p ∧ off ≤ a ∧ a < off + len
  · rw [if_pos g, if_pos g, g.1]
  · rw [if_neg g, if_neg g]

theorem torn_program_put (hd : InData k p off len) (t : Mem) (A : Flash) (d : Nat → Byte) : A.tornProgram k t p off len d = put A p off len t := by
  funext q a
  unfold Flash.tornProgram Fho.put
  by_cases g : q = p ∧ off ≤ a ∧ a < off + len
  · rw [if_pos g, if_pos g, if_neg]
    rintro ⟨e, h⟩
    rcases hd with e' | e'
    · exact e e'
    · omega
  · rw [if_neg g, if_neg g]

theorem tornOK_tt {t : Mem} (h : TornOK k t) : TT k t := h.1

theorem simErase {K : Flash → Flash → Prop} (hK : Stable k K) (hd : InData k p off len) {s : Bool} :
    Sim (TT k) (TornOK k) (RL k) s false (fun A F => Data k A F ∧ K A F) (erase k p off len) (erase k p off len) false (fun _ A F => Data k A F ∧ K A F) := by
  refine Sim.flashOp (fun _ _ _ => rfl) ?_ ?_
  · rintro t A F ⟨h, hk⟩
    exact ⟨h.put fun _ _ _ => rfl, hK.keep _ _ _ _ (keep_put hd A _) (keep_put hd F _) hk⟩
  · rintro t A F ht ⟨h, hk⟩
    refine ⟨t, tornOK_tt ht, ?_⟩
    rw [torn_erase_put hd, torn_erase_put hd]
    exact hK.lost _ _ (h.put fun _ _ _ => rfl) (hK.keep _ _ _ _ (keep_put hd A _) (keep_put hd F _) hk)

theorem simProgram {K : Flash → Flash → Prop} (hK : Stable k K) (hd : InData k p off len) {dA dC : Nat → Byte} (he : ∀ i, i < len → dA i = dC i) {s : Bool} :
    Sim (TT k) (TornOK k) (RL k) s false (fun A F => Data k A F ∧ K A F) (program k p off len dA) (program k p off len dC) false
      (fun _ A F => Data k A F ∧ K A F) := by
  refine simProg ?_ ?_ ?_
  · rintro A F ⟨h, hk⟩ i hi
    rw [he i hi, h.at hd (show off + i < off + len by omega)]
  · rintro A F ⟨h, hk⟩
    rw [program_put, program_put]
    refine ⟨h.put fun a h1 h2 => ?_, hK.keep _ _ _ _ (keep_put hd A _) (keep_put hd F _) hk⟩
    rw [he _ (by omega), h.at hd h2]
  · rintro t A F ht ⟨h, hk⟩
    refine ⟨t, tornOK_tt ht, ?_⟩
    rw [torn_program_put hd, torn_program_put hd]
    exact hK.lost _ _ (h.put fun _ _ _ => rfl) (hK.keep _ _ _ _ (keep_put hd A _) (keep_put hd F _) hk)

end

section
variable {k : Cfg} (w : k.WF)
include w

theorem geo : k.last + k.ss = k.part ∧ k.tmp + k.ss = k.last ∧ k.n ≥ 2 ∧ 0 < k.ss := by
  have := w.ss_pos
  have := w.n2
  refine ⟨?_, ?_, w.n2, by omega⟩
  · show (k.n - 1) * k.ss + k.ss = k.n * k.ss
    rw [show k.n = (k.n - 1) + 1 by omega, Nat.add_mul]
    simp
  · show (k.n - 2) * k.ss + k.ss = (k.n - 1) * k.ss
    rw [show k.n - 1 = (k.n - 2) + 1 by omega, Nat.add_mul]
    omega

theorem sector_le {j : Nat} (hj : j < k.n - 1) : j * k.ss + k.ss ≤ k.last := by
  show _ ≤ (k.n - 1) * k.ss
  rw [show j * k.ss + k.ss = (j + 1) * k.ss by rw [Nat.add_mul]; omega]
  exact Nat.mul_le_mul_right _ (by omega)

/-! ### Copies -/

theorem simCopyLoop {K : Flash → Flash → Prop} (hK : Stable k K) {src dst : Part} {fw j : Nat} (hj : j < k.n - 1) {s : Bool} :
    ∀ fuel pos, k.fb ∣ pos →
    Sim (TT k) (TornOK k) (RL k) s false (fun A F => Data k A F ∧ K A F) (copyLoop k src fw dst (secOff k src j) (secOff k dst j) fuel pos)
      (copyLoop k src fw dst (secOff k src j) (secOff k dst j) fuel pos) false (fun _ A F => Data k A F ∧ K A F) := by
  have hsl := sector_le w hj
  have hso : ∀ p, secOff k p j + k.ss ≤ k.last := by
    intro p
    unfold secOff
    split
    · omega
    · exact hsl
  have hfb := w.fb4
  intro fuel
  induction fuel with
  | zero => intro pos _; exact Sim.stuck
  | succ fuel ih =>
    intro pos hpos
    unfold copyLoop
    refine Sim.ite Iff.rfl (fun hlt => ?_) (fun _ => Sim.pure (Q := fun _ A F => Data k A F ∧ K A F) ())
    have hfit : pos + k.fb ≤ k.ss := by
      obtain ⟨a, ha⟩ := hpos
      obtain ⟨b, hb⟩ := w.fb_dvd
      have : a < b := by
        rw [ha, hb] at hlt
        exact Nat.lt_of_mul_lt_mul_left hlt
      rw [ha, hb, ← Nat.mul_succ]
      exact Nat.mul_le_mul_left _ this
    refine Sim.bind (Q := fun _ A F => Data k A F ∧ K A F) ?_ (fun _ => ih _ (Nat.dvd_add hpos (Nat.dvd_refl _)))
    unfold copyChunk
    have hs1 := hso src
    have hs2 := hso dst
    refine Sim.ite Iff.rfl (fun _ => ?_) (fun _ => Sim.pure (Q := fun _ A F => Data k A F ∧ K A F) ())
    refine Sim.readA fun A => Sim.readC fun F => ?_
    refine Sim.ofEq fun A1 F1 ⟨e1, e2, h, hk⟩ => ?_
    subst e1 e2
    refine (simProgram hK (.inr (by omega)) ?_).pre ?_
    · intro i hi
      by_cases e : src = .swap
      · subst e; exact h.swap _
      · exact h.data _ _ e (by omega)
    · rintro A2 F2 ⟨rfl, rfl⟩
      exact ⟨h, hk⟩

theorem simCopy {K : Flash → Flash → Prop} (hK : Stable k K) {src dst : Part} {fw j : Nat} (hj : j < k.n - 1) {s : Bool} :
    Sim (TT k) (TornOK k) (RL k) s false (fun A F => Data k A F ∧ K A F) (copySector k src fw dst j) (copySector k src fw dst j) false
      (fun _ A F => Data k A F ∧ K A F) := by
  unfold copySector
  refine Sim.bind (Q := fun _ A F => Data k A F ∧ K A F) (simErase hK ?_) fun _ => simCopyLoop w hK hj _ 0 (Nat.dvd_zero _)
  by_cases e : dst = .swap
  · exact .inl e
  · right
    rw [if_neg e]
    exact sector_le w hj

/-! ### Flags -/

theorem stable_flags (fit : Fits k) : Stable k (Flags k) := by
  obtain ⟨g1, g2, g3, g4⟩ := geo w
  unfold Fits at fit
  refine ⟨?_, fun A F h h' => .inl ⟨h, h'⟩⟩
  intro A A' F F' ha hf h
  constructor
  · intro x h1 h2
    rw [ha _ _ (by simp) (by omega), hf _ _ (by simp) (by omega)]
    exact h.bt x h1 h2
  · intro x h1 h2
    rw [ha _ _ (by simp) (by omega), hf _ _ (by simp) (by omega)]
    exact h.ut x h1 h2

variable (fit : Fits k)
include fit

theorem Rel.cell {A F : Flash} (h : Rel k A F) {i : Nat} (hi : 12 + i ≤ k.ss) : A .update (trailerAt k i) = F .boot (cellAt k .update i) := by
  obtain ⟨g1, g2, g3, g4⟩ := geo w
  unfold trailerAt cellAt
  rw [h.2.ut _ (by omega) (by omega)]
  congr 1
  simp only [if_true]
  omega

theorem Rel.magic {A F : Flash} (h : Rel k A F) {p : Part} (hp : p ≠ .swap) : Verif.hasMagic k A p ↔ hasMagic k F p := by
  obtain ⟨g1, g2, g3, g4⟩ := geo w
  unfold Fits at fit
  unfold Verif.hasMagic hasMagic trailerAt cellAt
  cases p with
  | swap => exact absurd rfl hp
  | boot =>
    simp only [reduceCtorEq, if_false]
    rw [le32_congr (x := F .boot) fun o h1 h2 => h.2.bt o (by omega) (by omega)]
    exact Iff.rfl
  | update =>
    simp only [if_true]
    have : le32 (A .update) (k.part - (4 + 0)) = le32 (F .boot) (k.part - 8 - (4 + 0)) := by
      unfold le32
      rw [h.2.ut _ (by omega) (by omega), h.2.ut _ (by omega) (by omega), h.2.ut _ (by omega) (by omega), h.2.ut _ (by omega) (by omega)]
      rw [show k.part - (4 + 0) - 8 = k.part - 8 - (4 + 0) by omega, show k.part - (4 + 0) + 1 - 8 = k.part - 8 - (4 + 0) + 1 by omega,
        show k.part - (4 + 0) + 2 - 8 = k.part - 8 - (4 + 0) + 2 by omega, show k.part - (4 + 0) + 3 - 8 = k.part - 8 - (4 + 0) + 3 by omega]
    rw [this]

theorem Rel.state {A F : Flash} (h : Rel k A F) {p : Part} (hp : p ≠ .swap) : Verif.getState k A p = getState k F p := by
  obtain ⟨g1, g2, g3, g4⟩ := geo w
  have hm := h.magic w fit hp
  have hc := h.cell w fit (i := 1) (by unfold Fits at fit; omega)
  have hb := h.2.bt (k.part - 5) (by omega) (by unfold Fits at fit; omega)
  unfold Verif.getState getState
  by_cases g : Verif.hasMagic k A p
  · rw [if_pos g, if_pos (hm.1 g)]
    cases p with
    | swap => exact absurd rfl hp
    | boot => exact congrArg some hb
    | update => exact congrArg some hc
  · rw [if_neg g, if_neg fun q => g (hm.2 q)]

theorem flagCell {j : Nat} (hj : j < k.n) : 12 + (2 + flagPos j) ≤ k.ss := by
  unfold Fits at fit
  unfold flagPos
  omega

theorem Rel.flag {A F : Flash} (h : Rel k A F) {j : Nat} (hj : j < k.n) : Verif.getFlag k A j = getFlag k F j := by
  have hm := h.magic w fit (p := .update) (by simp)
  have hc := h.cell w fit (flagCell w fit hj)
  unfold Verif.getFlag getFlag rawFlag
  by_cases g : Verif.hasMagic k A .update
  · rw [if_pos g, if_pos (hm.1 g), hc]
  · rw [if_neg g, if_neg fun q => g (hm.2 q)]

/-- Writes of the flags of UPDATE. -/
theorem simCell {i len : Nat} (h1 : 12 + i ≤ k.ss) (h2 : len ≤ 4 + i) (d : Nat → Byte) {s : Bool} :
    Sim (TT k) (TornOK k) (RL k) s false (Rel k) (program k .update (trailerAt k i) len d) (program k .boot (cellAt k .update i) len d) false
      (fun _ => Rel k) := by
  obtain ⟨g1, g2, g3, g4⟩ := geo w
  have fit' := fit
  unfold Fits at fit'
  have e1 : trailerAt k i = k.part - (4 + i) := rfl
  have e2 : cellAt k .update i = k.part - 8 - (4 + i) := rfl
  have eq : ∀ A F, Rel k A F → ∀ j, j < len → A .update (trailerAt k i + j) = F .boot (cellAt k .update i + j) := by
    intro A F h j hj
    rw [h.2.ut _ (by omega) (by omega)]
    congr 1
    omega
  have relput : ∀ A F v v', Rel k A F → (∀ j, j < len → v (trailerAt k i + j) = v' (cellAt k .update i + j)) →
      Rel k (put A .update (trailerAt k i) len v) (put F .boot (cellAt k .update i) len v') := by
    intro A F v v' h hv
    refine ⟨⟨?_, ?_⟩, ⟨?_, ?_⟩⟩
    · intro q x hq hx
      unfold put
      rw [if_neg (by omega), if_neg (by omega)]
      exact h.1.data q x hq hx
    · intro x
      unfold put
      rw [if_neg (by simp), if_neg (by simp)]
      exact h.1.swap x
    · intro x h1 h2
      unfold put
      rw [if_neg (by simp), if_neg (by omega)]
      exact h.2.bt x h1 h2
    · intro x h1 h2
      unfold put
      by_cases g : trailerAt k i ≤ x ∧ x < trailerAt k i + len
      · rw [if_pos ⟨rfl, g⟩, if_pos ⟨rfl, by omega, by omega⟩]
        have := hv (x - trailerAt k i) (by omega)
        rw [show trailerAt k i + (x - trailerAt k i) = x by omega, show cellAt k .update i + (x - trailerAt k i) = x - 8 by omega] at this
        exact this
      · rw [if_neg (fun q => g q.2), if_neg (by omega)]
        exact h.2.ut x h1 h2
  refine simProg ?_ ?_ ?_
  · intro A F h j hj
    rw [eq A F h j hj]
  · intro A F h
    rw [program_put, program_put]
    refine relput A F _ _ h fun j hj => ?_
    rw [eq A F h j hj, Nat.add_sub_cancel_left, Nat.add_sub_cancel_left]
  · intro t A F ht h
    refine ⟨fun x => if x < k.last then t x else t (x - 8), ?_, .inl ?_⟩
    · have := ht.1
      unfold TT Verif.TornOK
      rw [le32_congr (x := t) fun o h1 h2 => if_pos (by omega)]
      exact this
    · have tp : ∀ (A : Flash) (t : Mem) p off, p ≠ .swap → k.last ≤ off → A.tornProgram k t p off len d = put A p off len (fun a => A p a &&& (d (a - off) ||| t a)) := by
        intro A t p off hp ho
        funext q a
        unfold Flash.tornProgram put
        by_cases g : q = p ∧ off ≤ a ∧ a < off + len
        · rw [if_pos g, if_pos g, if_pos ⟨hp, by omega⟩, g.1]
        · rw [if_neg g, if_neg g]
      rw [tp _ _ _ _ (by simp) (by omega), tp _ _ _ _ (by simp) (by omega)]
      refine relput A F _ _ h fun j hj => ?_
      rw [eq A F h j hj, Nat.add_sub_cancel_left, Nat.add_sub_cancel_left, if_neg (by omega), show trailerAt k i + j - 8 = cellAt k .update i + j by omega]

theorem simEnsure {s : Bool} : Sim (TT k) (TornOK k) (RL k) s false (Rel k) (Verif.ensureMagic k .update) (ensureMagic k .update) false (fun _ => Rel k) := by
  unfold Verif.ensureMagic ensureMagic
  refine Sim.readA fun A => Sim.readC fun F => Sim.ofEq fun A1 F1 ⟨e1, e2, h⟩ => ?_
  subst e1 e2
  have hp : ∀ A F, A = A1 ∧ F = F1 → Rel k A F := by
    rintro A F ⟨rfl, rfl⟩
    exact h
  refine Sim.ite (h.magic w fit (by simp)) (fun _ => (Sim.pure (Q := fun _ => Rel k) ()).pre hp) fun _ => ?_
  exact (simCell w fit (i := 0) (by unfold Fits at fit; omega) (by omega) magicByte).pre hp

theorem simSetFlag {j : Nat} (hj : j < k.n) (fl : Byte) {s : Bool} :
    Sim (TT k) (TornOK k) (RL k) s false (Rel k) (Verif.setFlag k j fl) (setFlag k j fl) false (fun _ => Rel k) := by
  unfold Verif.setFlag setFlag
  refine Sim.bind (simEnsure w fit) fun _ => ?_
  refine Sim.readA fun A => Sim.readC fun F => Sim.ofEq fun A1 F1 ⟨e1, e2, h⟩ => ?_
  subst e1 e2
  have hp : ∀ A F, A = A1 ∧ F = F1 → Rel k A F := by
    rintro A F ⟨rfl, rfl⟩
    exact h
  dsimp only
  rw [h.cell w fit (flagCell w fit hj)]
  refine Sim.ite Iff.rfl (fun _ => ?_) fun _ => (Sim.pure (Q := fun _ => Rel k) ()).pre hp
  exact (simCell w fit (flagCell w fit hj) (by omega) _).pre hp

theorem simSetState (st : Byte) {s : Bool} :
    Sim (TT k) (TornOK k) (RL k) s false (Rel k) (Verif.setState k .update st) (setState k .update st) false (fun _ => Rel k) := by
  have hc : 12 + 1 ≤ k.ss := by unfold Fits at fit; omega
  unfold Verif.setState setState
  refine Sim.bind (simEnsure w fit) fun _ => ?_
  refine Sim.readA fun A => Sim.readC fun F => Sim.ofEq fun A1 F1 ⟨e1, e2, h⟩ => ?_
  subst e1 e2
  have hp : ∀ A F, A = A1 ∧ F = F1 → Rel k A F := by
    rintro A F ⟨rfl, rfl⟩
    exact h
  rw [h.cell w fit hc]
  refine Sim.ite Iff.rfl (fun _ => ?_) fun _ => (Sim.pure (Q := fun _ => Rel k) ()).pre hp
  exact (simCell w fit hc (by omega) _).pre hp

/-! ### The swap of a sector -/

theorem simMark {j : Nat} (hj : j < k.n - 1) (fl : Byte) {s : Bool} :
    Sim (TT k) (TornOK k) (RL k) s false (Rel k) (Verif.markSector k j fl) (markSector k j fl) false (fun _ => Rel k) := by
  unfold Verif.markSector markSector
  exact Sim.ite Iff.rfl (fun _ => simSetFlag w fit (by omega) fl) fun _ => Sim.pure (Q := fun _ => Rel k) ()

theorem simCopyRel {src dst : Part} {fw j : Nat} (hj : j < k.n - 1) {s : Bool} :
    Sim (TT k) (TornOK k) (RL k) s false (Rel k) (copySector k src fw dst j) (copySector k src fw dst j) false (fun _ => Rel k) :=
  simCopy w (stable_flags w fit) hj

theorem simBackup {j : Nat} (hj : j < k.n - 1) {s : Bool} :
    Sim (TT k) (TornOK k) (RL k) s false (Rel k) (Verif.doBackup k j) (doBackup k j) false (fun _ => Rel k) := by
  unfold Verif.doBackup doBackup
  exact Sim.bind (simCopyRel w fit hj) fun _ => simMark w fit hj _

theorem simSwapping {b j : Nat} (hj : j < k.n - 1) {s : Bool} :
    Sim (TT k) (TornOK k) (RL k) s false (Rel k) (Verif.doSwapping k b j) (doSwapping k b j) false (fun _ => Rel k) := by
  unfold Verif.doSwapping doSwapping
  exact Sim.bind (simCopyRel w fit hj) fun _ => Sim.bind (simMark w fit hj _) fun _ => simBackup w fit hj

theorem simNew {b u j : Nat} (hj : j < k.n - 1) {s : Bool} :
    Sim (TT k) (TornOK k) (RL k) s false (Rel k) (Verif.doNew k b u j) (doNew k b u j) false (fun _ => Rel k) := by
  unfold Verif.doNew doNew
  exact Sim.bind (simCopyRel w fit hj) fun _ => Sim.bind (simMark w fit hj _) fun _ => simSwapping w fit hj

theorem simSector {b u j : Nat} (hj : j < k.n - 1) {s : Bool} :
    Sim (TT k) (TornOK k) (RL k) s false (Rel k) (Verif.swapSector k b u j) (swapSector k b u j) false (fun _ => Rel k) := by
  unfold Verif.swapSector swapSector
  refine Sim.readA fun A => Sim.readC fun F => Sim.ofEq fun A1 F1 ⟨e1, e2, h⟩ => ?_
  subst e1 e2
  have hp : ∀ A F, A = A1 ∧ F = F1 → Rel k A F := by
    rintro A F ⟨rfl, rfl⟩
    exact h
  rw [h.flag w fit (by omega)]
  refine Sim.ite Iff.rfl (fun _ => (simNew w fit hj).pre hp) fun _ => ?_
  refine Sim.ite Iff.rfl (fun _ => (simSwapping w fit hj).pre hp) fun _ => ?_
  refine Sim.ite Iff.rfl (fun _ => (simBackup w fit hj).pre hp) fun _ => ?_
  exact (Sim.pure (Q := fun _ => Rel k) ()).pre hp

theorem simRest : ∀ fuel j, ∀ {s : Bool},
    Sim (TT k) (TornOK k) (RL k) s false (Rel k) (eraseRest k fuel j) (eraseRest k fuel j) false (fun _ => Rel k) := by
  obtain ⟨g1, g2, g3, g4⟩ := geo w
  intro fuel
  induction fuel with
  | zero => intro j s; exact Sim.stuck
  | succ fuel ih =>
    intro j s
    unfold eraseRest
    refine Sim.ite Iff.rfl (fun hlt => ?_) (fun _ => Sim.pure (Q := fun _ => Rel k) ())
    have hl : j * k.ss + k.ss ≤ k.last := by
      refine sector_le w ?_
      have : j * k.ss < (k.n - 1) * k.ss := by
        have e : k.last = (k.n - 1) * k.ss := rfl
        omega
      exact Nat.lt_of_mul_lt_mul_right this
    exact Sim.bind (simErase (stable_flags w fit) (.inr hl)) fun _ => Sim.bind (simErase (stable_flags w fit) (.inr hl)) fun _ => ih _

/-! ### The end of the swap -/

/-- The flags are erased, those of the second program with those of UPDATE. -/
def Blank (k : Cfg) (A F : Flash) : Prop := ∀ x, k.last ≤ x → x < k.part → A .boot x = 0xFF#8 ∧ F .boot x = 0xFF#8

theorem le32_ff {m : Mem} {o : Nat} (h : ∀ x, o ≤ x → x < o + 4 → m x = 0xFF#8) : le32 m o ≠ MAGIC_TRAIL := by
  unfold le32
  rw [h _ (by omega) (by omega), h _ (by omega) (by omega), h _ (by omega) (by omega), h _ (by omega) (by omega)]
  decide

theorem blank_lost {A F : Flash} (h : Blank k A F) : ¬ Recorded k F := by
  obtain ⟨g1, g2, g3, g4⟩ := geo w
  have fit' := fit
  unfold Fits at fit'
  have e1 : cellAt k .update 0 = k.part - 8 - 4 := rfl
  have e2 : cellAt k .boot 0 = k.part - 4 := rfl
  have m1 : ¬ hasMagic k F .update := le32_ff w fit fun x h1 h2 => (h x (by omega) (by omega)).2
  have m2 : ¬ hasMagic k F .boot := le32_ff w fit fun x h1 h2 => (h x (by omega) (by omega)).2
  unfold Recorded getState
  rw [if_neg m1, if_neg m2]
  simp

theorem stable_blank : Stable k (Blank k) := by
  refine ⟨?_, fun A F _ h => .inr (blank_lost w fit h)⟩
  intro A A' F F' ha hf h x h1 h2
  rw [ha _ _ (by simp) h1, hf _ _ (by simp) h1]
  exact h x h1 h2

theorem tmp_sector : k.tmp / k.ss = k.n - 2 ∧ k.n - 2 < k.n - 1 := by
  obtain ⟨g1, g2, g3, g4⟩ := geo w
  exact ⟨Nat.mul_div_cancel _ g4, by omega⟩

theorem simSave {b : Nat} {st : Byte} {s : Bool} :
    Sim (TT k) (TornOK k) (RL k) s false (Rel k) (Verif.finalSave k b st) (finalSave k b st) false (fun _ => Rel k) := by
  obtain ⟨e1, e2⟩ := tmp_sector w fit
  unfold Verif.finalSave finalSave
  refine Sim.ite Iff.rfl (fun hn => ?_) (fun hn => Sim.pure (Q := fun _ => Rel k) ())
  rw [e1]
  exact Sim.bind (simCopyRel w fit e2) fun _ => simSetState w fit ST_FINAL

theorem simRestore {b : Nat} {s : Bool} :
    Sim (TT k) (TornOK k) (RL k) s false (fun A F => Data k A F ∧ Blank k A F) (finalRestore k b) (finalRestore k b) false
      (fun _ A F => Data k A F ∧ Blank k A F) := by
  obtain ⟨e1, e2⟩ := tmp_sector w fit
  obtain ⟨g1, g2, g3, g4⟩ := geo w
  unfold finalRestore
  refine Sim.ite Iff.rfl (fun _ => ?_) (fun _ => ?_)
  · rw [e1]
    exact simCopy w (stable_blank w fit) e2
  · exact simErase (stable_blank w fit) (.inr (by omega))

theorem simEraseBoot {s : Bool} :
    Sim (TT k) (TornOK k) (RL k) s false (Rel k) (erase k .boot k.last k.ss) (erase k .boot k.last k.ss) false (fun _ A F => Data k A F ∧ Blank k A F) := by
  obtain ⟨g1, g2, g3, g4⟩ := geo w
  have fit' := fit
  unfold Fits at fit'
  refine Sim.flashOp (fun _ _ _ => rfl) ?_ ?_
  · intro t A F h
    exact ⟨h.1.put (p := .boot) (off := k.last) (len := k.ss) fun _ _ _ => rfl, fun x h1 h2 => ⟨if_pos ⟨rfl, h1, by omega⟩, if_pos ⟨rfl, h1, by omega⟩⟩⟩
  · intro t A F ht h
    refine ⟨t, tornOK_tt ht, .inr ?_⟩
    have hb : ∀ x, k.last ≤ x → x < k.part → F.tornErase k t .boot k.last k.ss .boot x = t x := by
      intro x h1 h2
      unfold Flash.tornErase
      rw [if_neg (by simp)]
      exact if_pos ⟨rfl, h1, by omega⟩
    have e1 : cellAt k .update 0 = k.part - 12 := by show k.part - 8 - 4 = _; omega
    have e2 : cellAt k .boot 0 = k.part - 4 := rfl
    have m1 : ¬ hasMagic k (F.tornErase k t .boot k.last k.ss) .update := by
      unfold hasMagic
      rw [le32_congr (x := t) fun o h1 h2 => hb o (by omega) (by omega), e1]
      exact ht.2.1
    have m2 : ¬ hasMagic k (F.tornErase k t .boot k.last k.ss) .boot := by
      unfold hasMagic
      rw [le32_congr (x := t) fun o h1 h2 => hb o (by omega) (by omega), e2]
      exact ht.2.2
    unfold Recorded getState
    rw [if_neg m1, if_neg m2]
    simp

end

end Fho

end Verif
