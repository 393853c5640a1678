import Verif.Armor
import Lean.Elab.Tactic

/-!
# C55: what skipped instructions can and cannot do to the armored checks

A potential argument: to every state belongs a number of instructions that must still be skipped to get through; a step
lowers it by at most one, and only if the instruction is skipped.
-/

namespace Verif.Armor

/-! ## Specification -/

/-- Number of skipped instructions of an execution. -/
def skips (l : List Bool) : Nat := l.count true

/-- `p` can be passed from its start to its end with these decisions of the attacker. -/
def Passes (p : Prog) (l : List Bool) (s : Cpu) : Prop := s.pc = 0 ∧ ∃ s', run p l s = some s' ∧ s'.pc = p.size

/-- Skipping costs one. -/
def cost (b : Bool) : Nat := if b then 1 else 0

/-! ## Tables of instructions -/

/-- All addresses with an instruction. -/
def table : Prog → Nat → List (Nat × Ins × Nat)
  | [], _ => []
  | x :: p, b =>
    (if x.size = 0 then [] else [(b, x.ins, x.size)]) ++
      (match x.mid with
      | none => []
      | some i => [(b + 2, i, 2)]) ++ table p (b + x.size)

theorem fetch_table : ∀ {p : Prog} {a : Nat} {y : Ins × Nat} (b : Nat), fetch p a = some y → (b + a, y) ∈ table p b := by
  intro p
  induction p with
  | nil => intro a y b h; cases h
  | cons x p ih =>
    intro a y b h
    rw [fetch] at h
    rw [table]
    split at h
    · rename_i h1
      split at h
      · rename_i h2
        injection h with h
        subst h
        rw [if_neg (by omega), h2]
        simp
      · split at h
        · rename_i h2 h3
          cases hm : x.mid with
          | none => rw [hm] at h; cases h
          | some i =>
            rw [hm] at h
            injection h with h
            subst h
            rw [h3]
            simp
        · cases h
    · rename_i h1
      have := ih (b + x.size) h
      rw [show b + x.size + (a - x.size) = b + a by omega] at this
      exact List.mem_append_right _ this

theorem size_append : ∀ p q : Prog, Prog.size (p ++ q) = Prog.size p + Prog.size q := by
  intro p
  induction p with
  | nil => intro q; simp [Prog.size]
  | cons x p ih => intro q; rw [List.cons_append, Prog.size, Prog.size, ih]; omega

theorem fetch_append : ∀ (p q : Prog) (a : Nat),
    fetch (p ++ q) a = if a < Prog.size p then fetch p a else fetch q (a - Prog.size p) := by
  intro p
  induction p with
  | nil => intro q a; rw [Prog.size, if_neg (by omega)]; rfl
  | cons x p ih =>
    intro q a
    rw [List.cons_append, fetch, fetch, Prog.size]
    by_cases h : a < x.size
    · rw [if_pos h, if_pos h, if_pos (show a < x.size + Prog.size p by omega)]
    · rw [if_neg h, if_neg h, ih]
      by_cases h2 : a - x.size < Prog.size p
      · rw [if_pos h2, if_pos (by omega)]
      · rw [if_neg h2, if_neg (by omega), Nat.sub_sub]

theorem fetch_lt : ∀ {p : Prog} {a : Nat} {y : Ins × Nat}, fetch p a = some y → a < Prog.size p := by
  intro p
  induction p with
  | nil => intro a y h; cases h
  | cons x p ih =>
    intro a y h
    rw [fetch] at h
    rw [Prog.size]
    by_cases h1 : a < x.size
    · omega
    · rw [if_neg h1] at h
      have := ih h
      omega

/-! ## Potentials -/

/-- Instructions without labels: their effect does not depend on the position. -/
def Ins.simple : Ins → Bool
  | .bl _ _ => false
  | _ => true

/-- At least `k` instructions of `p` must be skipped to get from its start to its end; it does not leave its bounds. -/
def Pot (p : Prog) (k : Nat) : Prop :=
  0 < p.size ∧ (∀ a i sz, fetch p a = some (i, sz) → i.simple = true ∧ ∀ c off, i = .br c off → 0 ≤ (a : Int) + off) ∧
    ∃ φ : Cpu → Nat, (∀ s, s.pc = 0 → k ≤ φ s) ∧ ∀ b s s', step p b s = some s' → s'.pc ≤ p.size ∧
      φ s ≤ (if s'.pc < p.size then φ s' else 0) + cost b

theorem skips_cons (b : Bool) (l : List Bool) : skips (b :: l) = cost b + skips l := by
  unfold skips cost
  cases b <;> simp [List.count_cons] <;> omega

/-- General principle, with an invariant. -/
theorem run_pot {p : Prog} {φ : Cpu → Nat} {I G : Cpu → Prop}
    (h : ∀ b s s', I s → step p b s = some s' → I s' ∧ φ s ≤ φ s' + cost b)
    (hg : ∀ s, I s → G s → φ s = 0) : ∀ (l : List Bool) (s s' : Cpu), I s → run p l s = some s' → G s' → φ s ≤ skips l := by
  intro l
  induction l with
  | nil =>
    intro s s' hi hr hG
    injection hr with hr
    subst hr
    rw [hg _ hi hG]
    omega
  | cons b l ih =>
    intro s s' hi hr hG
    rw [run] at hr
    cases hs : step p b s with
    | none => rw [hs] at hr; cases hr
    | some s1 =>
      rw [hs] at hr
      obtain ⟨h1, h2⟩ := h b s s1 hi hs
      have := ih s1 s' h1 hr hG
      rw [skips_cons]
      omega

/-- A run through a program with potential `k` has at least `k` skipped instructions. -/
theorem Pot.run {p : Prog} {k : Nat} (h : Pot p k) {l : List Bool} {s : Cpu} (hp : Passes p l s) : k ≤ skips l := by
  obtain ⟨h0, s', hr, he⟩ := hp
  obtain ⟨hpos, _, φ, hk, hst⟩ := h
  have hlt := hk s h0
  have := run_pot (p := p) (φ := fun s => if s.pc < p.size then φ s else 0) (I := fun _ => True) (G := fun s => s.pc = p.size)
    (by
      intro b s1 s2 _ h1
      refine ⟨trivial, ?_⟩
      have hl : s1.pc < p.size := by
        unfold step at h1
        cases hf : fetch p s1.pc with
        | none => rw [hf] at h1; cases h1
        | some y => exact fetch_lt hf
      rw [if_pos hl]
      exact (hst b s1 s2 h1).2)
    (by
      intro s1 _ h1
      rw [if_neg (by omega)])
    l s s' trivial hr he
  rw [if_pos (by omega)] at this
  omega

/-- Move the program counter. -/
def up (n : Nat) (s : Cpu) : Cpu := { s with pc := s.pc + n }

theorem exec_up {p q : Prog} {i : Ins} {s : Cpu} {sz n : Nat} (hs : i.simple = true)
    (hb : ∀ c off, i = .br c off → 0 ≤ (s.pc : Int) + off) : exec q (up n s) sz i = (exec p s sz i).map (up n) := by
  cases i <;> simp only [exec, up, flagged, Armor.compare, Option.map_some, Nat.add_right_comm] <;> try rfl
  · rename_i c off
    have hb := hb c off rfl
    unfold branch target
    have e : c.holds { s with pc := s.pc + n } = c.holds s := by cases c <;> rfl
    rw [e]
    dsimp only
    have h2 : 0 ≤ ((s.pc + n : Nat) : Int) + off := by omega
    rw [if_pos hb, if_pos h2]
    have h3 : (((s.pc + n : Nat) : Int) + off).toNat = ((s.pc : Int) + off).toNat + n := by omega
    rw [h3]
    by_cases hc : c.holds s = true
    · rw [if_pos hc, if_pos hc]; rfl
    · rw [if_neg hc, if_neg hc]
      simp only [Option.map_some, up, Nat.add_right_comm]
  · simp [Ins.simple] at hs

theorem Pot.append {p q : Prog} {k1 k2 : Nat} (h1 : Pot p k1) (h2 : Pot q k2) : Pot (p ++ q) (k1 + k2) := by
  obtain ⟨p1, c1, φ1, e1, s1⟩ := h1
  obtain ⟨p2, c2, φ2, e2, s2⟩ := h2
  refine ⟨by rw [size_append]; omega, ?_, fun s => if s.pc < p.size then φ1 s + k2 else φ2 { s with pc := s.pc - p.size }, ?_, ?_⟩
  · intro a i sz hf
    rw [fetch_append] at hf
    split at hf
    · exact c1 a i sz hf
    · obtain ⟨x, y⟩ := c2 _ i sz hf
      exact ⟨x, fun c off ho => by have := y c off ho; omega⟩
  · intro s hs
    dsimp only
    rw [if_pos (by omega)]
    have := e1 s hs
    omega
  · intro b s s' hs
    have hs0 := hs
    unfold step at hs
    rw [fetch_append] at hs
    rw [size_append]
    dsimp only
    by_cases hlt : s.pc < p.size
    · rw [if_pos hlt] at hs ⊢
      have hst : step p b s = some s' := by
        unfold step
        cases hf : fetch p s.pc with
        | none => rw [hf] at hs; cases hs
        | some y =>
          obtain ⟨i, sz⟩ := y
          rw [hf] at hs
          dsimp only at hs ⊢
          obtain ⟨x1, x2⟩ := c1 _ _ _ hf
          have := exec_up (p := p) (q := p ++ q) (s := s) (sz := sz) (n := 0) x1 x2
          cases b
          · simp only [Bool.false_eq_true, if_false] at hs ⊢
            have e0 : up 0 s = s := rfl
            rw [e0] at this
            rw [this] at hs
            cases hx : exec p s sz i with
            | none => rw [hx] at hs; cases hs
            | some z => rw [hx] at hs; exact hs
          · exact hs
      obtain ⟨y1, y2⟩ := s1 b s s' hst
      refine ⟨by omega, ?_⟩
      by_cases hl : s'.pc < p.size
      · rw [if_pos hl] at y2
        rw [if_pos (by omega), if_pos hl]
        omega
      · rw [if_neg hl] at y2
        have hpe : s'.pc = p.size := by omega
        rw [if_pos (by omega), if_neg hl]
        have := e2 { s' with pc := s'.pc - p.size } (by dsimp only; omega)
        omega
    · rw [if_neg hlt] at hs ⊢
      cases hf : fetch q (s.pc - p.size) with
      | none => rw [hf] at hs; cases hs
      | some y =>
        obtain ⟨i, sz⟩ := y
        rw [hf] at hs
        dsimp only at hs
        obtain ⟨x1, x2⟩ := c2 _ _ _ hf
        -- the state relative to `q`
        have hu : s = up p.size { s with pc := s.pc - p.size } := by
          unfold up
          dsimp only
          rw [Nat.sub_add_cancel (by omega)]
        generalize hq : ({ s with pc := s.pc - p.size } : Cpu) = sq at *
        have hpc : sq.pc = s.pc - p.size := by rw [← hq]
        have hst : ∃ s3, step q b sq = some s3 ∧ s' = up p.size s3 := by
          unfold step
          rw [hpc, hf]
          dsimp only
          cases b
          · simp only [Bool.false_eq_true, if_false] at hs ⊢
            rw [hu, exec_up (p := q) x1 (by rw [hpc]; exact x2)] at hs
            cases hx : exec q sq sz i with
            | none => rw [hx] at hs; cases hs
            | some z =>
              rw [hx] at hs
              injection hs with hs
              exact ⟨z, rfl, hs.symm⟩
          · simp only [if_true] at hs ⊢
            injection hs with hs
            refine ⟨_, rfl, ?_⟩
            rw [← hs, hu]
            unfold up
            dsimp only
            rw [hpc]
            congr 1
            omega
        obtain ⟨s3, t1, t2⟩ := hst
        obtain ⟨y1, y2⟩ := s2 b sq s3 t1
        subst t2
        have e3 : ({ up p.size s3 with pc := (up p.size s3).pc - p.size } : Cpu) = s3 := by
          unfold up
          dsimp only
          rw [Nat.add_sub_cancel]
        have e4 : (up p.size s3).pc = s3.pc + p.size := rfl
        rw [e3, e4]
        refine ⟨by omega, ?_⟩
        by_cases hl : s3.pc < q.size
        · rw [if_pos hl] at y2
          rw [if_pos (by omega), if_neg (by omega)]
          exact y2
        · rw [if_neg hl] at y2
          rw [if_neg (by omega)]
          exact y2

/-- The program branches only relative to itself and not to before its start. -/
def Closed (p : Prog) : Prop :=
  ∀ a i sz, fetch p a = some (i, sz) → i.simple = true ∧ ∀ c off, i = .br c off → 0 ≤ (a : Int) + off

theorem Closed.append {p q : Prog} (h1 : Closed p) (h2 : Closed q) : Closed (p ++ q) := by
  intro a i sz hf
  rw [fetch_append] at hf
  split at hf
  · exact h1 a i sz hf
  · obtain ⟨x, y⟩ := h2 _ i sz hf
    exact ⟨x, fun c off ho => by have := y c off ho; omega⟩

theorem step_left {p q : Prog} (c1 : Closed p) {b : Bool} {s s' : Cpu} (hlt : s.pc < p.size) (hs : step (p ++ q) b s = some s') :
    step p b s = some s' := by
  unfold step at hs ⊢
  rw [fetch_append, if_pos hlt] at hs
  cases hf : fetch p s.pc with
  | none => rw [hf] at hs; cases hs
  | some y =>
    obtain ⟨i, sz⟩ := y
    rw [hf] at hs
    dsimp only at hs ⊢
    obtain ⟨x1, x2⟩ := c1 _ _ _ hf
    have := exec_up (p := p) (q := p ++ q) (s := s) (sz := sz) (n := 0) x1 x2
    cases b
    · simp only [Bool.false_eq_true, if_false] at hs ⊢
      have e0 : up 0 s = s := rfl
      rw [e0] at this
      rw [this] at hs
      cases hx : exec p s sz i with
      | none => rw [hx] at hs; cases hs
      | some z => rw [hx] at hs; exact hs
    · exact hs

theorem step_right {p q : Prog} (c2 : Closed q) {b : Bool} {s s' : Cpu} (hlt : ¬ s.pc < p.size) (hs : step (p ++ q) b s = some s') :
    ∃ s3, step q b { s with pc := s.pc - p.size } = some s3 ∧ s' = up p.size s3 := by
  unfold step at hs ⊢
  rw [fetch_append, if_neg hlt] at hs
  dsimp only
  cases hf : fetch q (s.pc - p.size) with
  | none => rw [hf] at hs; cases hs
  | some y =>
    obtain ⟨i, sz⟩ := y
    rw [hf] at hs
    dsimp only at hs ⊢
    obtain ⟨x1, x2⟩ := c2 _ _ _ hf
    have hu : s = up p.size { s with pc := s.pc - p.size } := by
      unfold up
      dsimp only
      rw [Nat.sub_add_cancel (by omega)]
    cases b
    · simp only [Bool.false_eq_true, if_false] at hs ⊢
      rw [hu, exec_up (p := q) x1 x2] at hs
      cases hx : exec q { s with pc := s.pc - p.size } sz i with
      | none => rw [hx] at hs; cases hs
      | some z =>
        rw [hx] at hs
        injection hs with hs
        exact ⟨z, rfl, hs.symm⟩
    · simp only [if_true] at hs ⊢
      injection hs with hs
      refine ⟨_, rfl, ?_⟩
      rw [← hs]
      unfold up
      dsimp only
      congr 1
      omega

/-- A potential that is at least `a` at the start of `p` and at most `b` at its end; `a` and `b` depend on the registers. -/
def Flow (p : Prog) (a b : Cpu → Nat) : Prop :=
  0 < p.size ∧ Closed p ∧
    ∃ φ : Cpu → Nat, (∀ s, s.pc = 0 → a s ≤ φ s) ∧ ∀ sk s s', step p sk s = some s' → s'.pc ≤ p.size ∧
      φ s ≤ (if s'.pc < p.size then φ s' else b s') + cost sk

/-- It does not matter where the program counter is. -/
def Still (b : Cpu → Nat) : Prop := ∀ s n, b { s with pc := n } = b s

theorem Flow.append {p q : Prog} {a b c : Cpu → Nat} (hb : Still b) (hc : Still c) (h1 : Flow p a b) (h2 : Flow q b c) :
    Flow (p ++ q) a c := by
  obtain ⟨p1, c1, φ1, e1, s1⟩ := h1
  obtain ⟨p2, c2, φ2, e2, s2⟩ := h2
  refine ⟨by rw [size_append]; omega, c1.append c2,
    fun s => if s.pc < p.size then φ1 s else φ2 { s with pc := s.pc - p.size }, ?_, ?_⟩
  · intro s hs
    dsimp only
    rw [if_pos (by omega)]
    exact e1 s hs
  · intro sk s s' hs
    rw [size_append]
    dsimp only
    by_cases hlt : s.pc < p.size
    · rw [if_pos hlt]
      obtain ⟨y1, y2⟩ := s1 sk s s' (step_left c1 hlt hs)
      refine ⟨by omega, ?_⟩
      rw [if_pos (by omega)]
      by_cases hl : s'.pc < p.size
      · rw [if_pos hl] at y2 ⊢
        exact y2
      · rw [if_neg hl] at y2 ⊢
        have := e2 { s' with pc := s'.pc - p.size } (by dsimp only; omega)
        rw [hb] at this
        omega
    · rw [if_neg hlt]
      obtain ⟨s3, t1, t2⟩ := step_right c2 hlt hs
      obtain ⟨y1, y2⟩ := s2 sk _ s3 t1
      subst t2
      have e3 : ({ up p.size s3 with pc := (up p.size s3).pc - p.size } : Cpu) = s3 := by
        unfold up
        dsimp only
        rw [Nat.add_sub_cancel]
      have e4 : (up p.size s3).pc = s3.pc + p.size := rfl
      rw [e3, e4]
      refine ⟨by omega, ?_⟩
      by_cases hl : s3.pc < q.size
      · rw [if_pos hl] at y2
        rw [if_pos (by omega), if_neg (by omega)]
        exact y2
      · rw [if_neg hl] at y2
        rw [if_neg (by omega)]
        have : c (up p.size s3) = c s3 := hc s3 _
        rw [this]
        exact y2

/-! ## Blocks -/

/-- Value at an address. -/
def look : List (Nat × Nat) → Nat → Nat
  | [], _ => 0
  | (a, k) :: l, x => if x = a then k else look l x

theorem step_cases {p : Prog} {b : Bool} {s s' : Cpu} (h : step p b s = some s') :
    ∃ i sz, fetch p s.pc = some (i, sz) ∧ (s.pc, i, sz) ∈ table p 0 ∧
      ((b = true ∧ s' = { s with pc := s.pc + sz }) ∨ (b = false ∧ exec p s sz i = some s')) := by
  unfold step at h
  cases hf : fetch p s.pc with
  | none => rw [hf] at h; cases h
  | some y =>
    obtain ⟨i, sz⟩ := y
    rw [hf] at h
    have ht := fetch_table 0 hf
    rw [Nat.zero_add] at ht
    refine ⟨i, sz, rfl, ht, ?_⟩
    cases b
    · exact Or.inr ⟨rfl, by simpa using h⟩
    · refine Or.inl ⟨rfl, ?_⟩
      simp only [if_true] at h
      injection h with h
      exact h.symm

/-- Potential of a check of `r2` against `c`: tables for `r2 = c`, for Z set and for Z clear. -/
def tri (c : W) (A B C : List (Nat × Nat)) (s : Cpu) : Nat :=
  if s.r 2 = c then look A s.pc else if s.z then look B s.pc else look C s.pc


/-- Potential of a check of a canary `c`, whose value is moved to `r0` at address `a`. -/
def can (c : W) (a : Nat) (B C : List (Nat × Nat)) (s : Cpu) : Nat :=
  if s.pc < a then 1
  else if s.pc = a then if s.r 2 = c then 0 else 1
  else if s.r 2 = s.r 0 then 0 else if s.z then look B s.pc else look C s.pc

theorem lsr_ne (x : W) : ¬ x >>> 28 = 0xFFFFFFFE#32 := by
  intro h
  have := congrArg BitVec.toNat h
  rw [BitVec.toNat_ushiftRight, Nat.shiftRight_eq_div_pow] at this
  have := x.isLt
  simp at *
  omega

theorem flag_pot_thumb (k : W) (h : k ≠ 1#32) : Pot (flagBlock true k) 4 := by
  refine ⟨Nat.lt_of_lt_of_le (by decide : 0 < 38) (Nat.le_refl _), ?_, tri 1#32 [(0, 4), (4, 4), (8, 4), (12, 3), (16, 2), (20, 1)]
    [(0, 4), (4, 4), (8, 4), (12, 4), (16, 4), (20, 4), (22, 4), (24, 3), (26, 3), (28, 2), (30, 2), (32, 1), (34, 1), (36, 0)]
    [(0, 4), (4, 4), (8, 4), (12, 4), (16, 4), (20, 4), (22, 4), (24, 4), (26, 3), (28, 3), (30, 2), (32, 2), (34, 1), (36, 1)], ?_, ?_⟩
  · intro a i sz hf
    have := fetch_table 0 hf
    simp [flagBlock, load, four, ins, table] at this
    rcases this with ⟨rfl, rfl, rfl⟩ | ⟨rfl, rfl, rfl⟩ | ⟨rfl, rfl, rfl⟩ | ⟨rfl, rfl, rfl⟩ | ⟨rfl, rfl, rfl⟩ | ⟨rfl, rfl, rfl⟩ |
      ⟨rfl, rfl, rfl⟩ | ⟨rfl, rfl, rfl⟩ | ⟨rfl, rfl, rfl⟩ | ⟨rfl, rfl, rfl⟩ | ⟨rfl, rfl, rfl⟩ | ⟨rfl, rfl, rfl⟩ |
      ⟨rfl, rfl, rfl⟩ | ⟨rfl, rfl, rfl⟩ <;>
      refine ⟨rfl, fun c off hc => ?_⟩ <;> cases hc <;> decide
  · intro s hs
    unfold tri
    rw [hs]
    split
    · decide
    · split <;> decide
  · intro b s s' hs
    obtain ⟨i, sz, hf, ht, hx⟩ := step_cases hs
    clear hs hf
    obtain ⟨r, z, n, v, pc, mem, ok⟩ := s
    have hsz : (flagBlock true k).size = 38 := rfl
    rw [hsz]
    clear hsz
    simp [flagBlock, load, four, ins, table] at ht
    rcases ht with ⟨rfl, rfl, rfl⟩ | ⟨rfl, rfl, rfl⟩ | ⟨rfl, rfl, rfl⟩ | ⟨rfl, rfl, rfl⟩ | ⟨rfl, rfl, rfl⟩ | ⟨rfl, rfl, rfl⟩ |
      ⟨rfl, rfl, rfl⟩ | ⟨rfl, rfl, rfl⟩ | ⟨rfl, rfl, rfl⟩ | ⟨rfl, rfl, rfl⟩ | ⟨rfl, rfl, rfl⟩ | ⟨rfl, rfl, rfl⟩ |
      ⟨rfl, rfl, rfl⟩ | ⟨rfl, rfl, rfl⟩ <;>
      rcases hx with ⟨rfl, rfl⟩ | ⟨rfl, hx⟩ <;>
      (try simp only [exec, branch, target, Cond.holds] at hx) <;>
      (by_cases hr : r 2 = 1#32) <;> cases z <;>
      (try simp at hx) <;> (try subst hx) <;>
      simp [tri, look, cost, Armor.compare, Armor.set, hr, h] <;> (try (split <;> omega))

theorem flag_ok_thumb (k : W) : Pot (flagBlock true k) 0 := by
  refine ⟨Nat.lt_of_lt_of_le (by decide : 0 < 38) (Nat.le_refl _), ?_, fun _ => 0, ?_, ?_⟩
  · intro a i sz hf
    have := fetch_table 0 hf
    simp [flagBlock, load, four, ins, table] at this
    rcases this with ⟨rfl, rfl, rfl⟩ | ⟨rfl, rfl, rfl⟩ | ⟨rfl, rfl, rfl⟩ | ⟨rfl, rfl, rfl⟩ | ⟨rfl, rfl, rfl⟩ | ⟨rfl, rfl, rfl⟩ |
      ⟨rfl, rfl, rfl⟩ | ⟨rfl, rfl, rfl⟩ | ⟨rfl, rfl, rfl⟩ | ⟨rfl, rfl, rfl⟩ | ⟨rfl, rfl, rfl⟩ | ⟨rfl, rfl, rfl⟩ |
      ⟨rfl, rfl, rfl⟩ | ⟨rfl, rfl, rfl⟩ <;>
      refine ⟨rfl, fun c off hc => ?_⟩ <;> cases hc <;> decide
  · intro s hs
    exact Nat.zero_le _
  · intro b s s' hs
    obtain ⟨i, sz, hf, ht, hx⟩ := step_cases hs
    clear hs hf
    obtain ⟨r, z, n, v, pc, mem, ok⟩ := s
    have hsz : (flagBlock true k).size = 38 := rfl
    rw [hsz]
    clear hsz
    simp [flagBlock, load, four, ins, table] at ht
    rcases ht with ⟨rfl, rfl, rfl⟩ | ⟨rfl, rfl, rfl⟩ | ⟨rfl, rfl, rfl⟩ | ⟨rfl, rfl, rfl⟩ | ⟨rfl, rfl, rfl⟩ | ⟨rfl, rfl, rfl⟩ |
      ⟨rfl, rfl, rfl⟩ | ⟨rfl, rfl, rfl⟩ | ⟨rfl, rfl, rfl⟩ | ⟨rfl, rfl, rfl⟩ | ⟨rfl, rfl, rfl⟩ | ⟨rfl, rfl, rfl⟩ |
      ⟨rfl, rfl, rfl⟩ | ⟨rfl, rfl, rfl⟩ <;>
      rcases hx with ⟨rfl, rfl⟩ | ⟨rfl, hx⟩ <;>
      (try simp only [exec, branch, target, Cond.holds] at hx) <;>
      cases z <;>
      (try simp at hx) <;> (try subst hx) <;>
      (try simp [cost, Armor.compare]) <;> (try (split <;> omega))

theorem flag_pot_arm (k : W) (h : k ≠ 1#32) : Pot (flagBlock false k) 4 := by
  refine ⟨Nat.lt_of_lt_of_le (by decide : 0 < 56) (Nat.le_refl _), ?_, tri 1#32 [(0, 4), (4, 4), (8, 4), (12, 3), (16, 2), (20, 1)]
    [(0, 4), (4, 4), (8, 4), (12, 4), (16, 4), (20, 4), (24, 4), (28, 3), (32, 3), (36, 2), (40, 2), (44, 1), (48, 1), (52, 0)]
    [(0, 4), (4, 4), (8, 4), (12, 4), (16, 4), (20, 4), (24, 4), (28, 4), (32, 3), (36, 3), (40, 2), (44, 2), (48, 1), (52, 1)], ?_, ?_⟩
  · intro a i sz hf
    have := fetch_table 0 hf
    simp [flagBlock, load, four, ins, table] at this
    rcases this with ⟨rfl, rfl, rfl⟩ | ⟨rfl, rfl, rfl⟩ | ⟨rfl, rfl, rfl⟩ | ⟨rfl, rfl, rfl⟩ | ⟨rfl, rfl, rfl⟩ | ⟨rfl, rfl, rfl⟩ |
      ⟨rfl, rfl, rfl⟩ | ⟨rfl, rfl, rfl⟩ | ⟨rfl, rfl, rfl⟩ | ⟨rfl, rfl, rfl⟩ | ⟨rfl, rfl, rfl⟩ | ⟨rfl, rfl, rfl⟩ |
      ⟨rfl, rfl, rfl⟩ | ⟨rfl, rfl, rfl⟩ <;>
      refine ⟨rfl, fun c off hc => ?_⟩ <;> cases hc <;> decide
  · intro s hs
    unfold tri
    rw [hs]
    split
    · decide
    · split <;> decide
  · intro b s s' hs
    obtain ⟨i, sz, hf, ht, hx⟩ := step_cases hs
    clear hs hf
    obtain ⟨r, z, n, v, pc, mem, ok⟩ := s
    have hsz : (flagBlock false k).size = 56 := rfl
    rw [hsz]
    clear hsz
    simp [flagBlock, load, four, ins, table] at ht
    rcases ht with ⟨rfl, rfl, rfl⟩ | ⟨rfl, rfl, rfl⟩ | ⟨rfl, rfl, rfl⟩ | ⟨rfl, rfl, rfl⟩ | ⟨rfl, rfl, rfl⟩ | ⟨rfl, rfl, rfl⟩ |
      ⟨rfl, rfl, rfl⟩ | ⟨rfl, rfl, rfl⟩ | ⟨rfl, rfl, rfl⟩ | ⟨rfl, rfl, rfl⟩ | ⟨rfl, rfl, rfl⟩ | ⟨rfl, rfl, rfl⟩ |
      ⟨rfl, rfl, rfl⟩ | ⟨rfl, rfl, rfl⟩ <;>
      rcases hx with ⟨rfl, rfl⟩ | ⟨rfl, hx⟩ <;>
      (try simp only [exec, branch, target, Cond.holds] at hx) <;>
      (by_cases hr : r 2 = 1#32) <;> cases z <;>
      (try simp at hx) <;> (try subst hx) <;>
      simp [tri, look, cost, Armor.compare, Armor.set, hr, h] <;> (try (split <;> omega))

theorem flag_ok_arm (k : W) : Pot (flagBlock false k) 0 := by
  refine ⟨Nat.lt_of_lt_of_le (by decide : 0 < 56) (Nat.le_refl _), ?_, fun _ => 0, ?_, ?_⟩
  · intro a i sz hf
    have := fetch_table 0 hf
    simp [flagBlock, load, four, ins, table] at this
    rcases this with ⟨rfl, rfl, rfl⟩ | ⟨rfl, rfl, rfl⟩ | ⟨rfl, rfl, rfl⟩ | ⟨rfl, rfl, rfl⟩ | ⟨rfl, rfl, rfl⟩ | ⟨rfl, rfl, rfl⟩ |
      ⟨rfl, rfl, rfl⟩ | ⟨rfl, rfl, rfl⟩ | ⟨rfl, rfl, rfl⟩ | ⟨rfl, rfl, rfl⟩ | ⟨rfl, rfl, rfl⟩ | ⟨rfl, rfl, rfl⟩ |
      ⟨rfl, rfl, rfl⟩ | ⟨rfl, rfl, rfl⟩ <;>
      refine ⟨rfl, fun c off hc => ?_⟩ <;> cases hc <;> decide
  · intro s hs
    exact Nat.zero_le _
  · intro b s s' hs
    obtain ⟨i, sz, hf, ht, hx⟩ := step_cases hs
    clear hs hf
    obtain ⟨r, z, n, v, pc, mem, ok⟩ := s
    have hsz : (flagBlock false k).size = 56 := rfl
    rw [hsz]
    clear hsz
    simp [flagBlock, load, four, ins, table] at ht
    rcases ht with ⟨rfl, rfl, rfl⟩ | ⟨rfl, rfl, rfl⟩ | ⟨rfl, rfl, rfl⟩ | ⟨rfl, rfl, rfl⟩ | ⟨rfl, rfl, rfl⟩ | ⟨rfl, rfl, rfl⟩ |
      ⟨rfl, rfl, rfl⟩ | ⟨rfl, rfl, rfl⟩ | ⟨rfl, rfl, rfl⟩ | ⟨rfl, rfl, rfl⟩ | ⟨rfl, rfl, rfl⟩ | ⟨rfl, rfl, rfl⟩ |
      ⟨rfl, rfl, rfl⟩ | ⟨rfl, rfl, rfl⟩ <;>
      rcases hx with ⟨rfl, rfl⟩ | ⟨rfl, hx⟩ <;>
      (try simp only [exec, branch, target, Cond.holds] at hx) <;>
      cases z <;>
      (try simp at hx) <;> (try subst hx) <;>
      (try simp [cost, Armor.compare]) <;> (try (split <;> omega))

theorem not_pot_thumb (k : W) (h : k ≠ 0xFFFFFFFE#32) : Pot (notBlock true k) 4 := by
  refine ⟨Nat.lt_of_lt_of_le (by decide : 0 < 46) (Nat.le_refl _), ?_, tri 0xFFFFFFFE#32 [(0, 4), (4, 4), (8, 4), (12, 3), (16, 2), (20, 1)]
    [(0, 4), (4, 4), (8, 4), (12, 4), (16, 4), (20, 4), (22, 4), (24, 3), (26, 3), (28, 3), (30, 2), (32, 2), (34, 2), (36, 1), (38, 1), (40, 1), (42, 0), (44, 0)]
    [(0, 4), (4, 4), (8, 4), (12, 4), (16, 4), (20, 4), (22, 4), (24, 3), (26, 4), (28, 3), (30, 2), (32, 3), (34, 2), (36, 1), (38, 2), (40, 1), (42, 0), (44, 1)], ?_, ?_⟩
  · intro a i sz hf
    have := fetch_table 0 hf
    simp [notBlock, load, four, ins, table, cmn] at this
    rcases this with ⟨rfl, rfl, rfl⟩ | ⟨rfl, rfl, rfl⟩ | ⟨rfl, rfl, rfl⟩ | ⟨rfl, rfl, rfl⟩ | ⟨rfl, rfl, rfl⟩ | ⟨rfl, rfl, rfl⟩ |
      ⟨rfl, rfl, rfl⟩ | ⟨rfl, rfl, rfl⟩ | ⟨rfl, rfl, rfl⟩ | ⟨rfl, rfl, rfl⟩ | ⟨rfl, rfl, rfl⟩ | ⟨rfl, rfl, rfl⟩ |
      ⟨rfl, rfl, rfl⟩ | ⟨rfl, rfl, rfl⟩ | ⟨rfl, rfl, rfl⟩ | ⟨rfl, rfl, rfl⟩ | ⟨rfl, rfl, rfl⟩ | ⟨rfl, rfl, rfl⟩ <;>
      refine ⟨rfl, fun c off hc => ?_⟩ <;> cases hc <;> decide
  · intro s hs
    unfold tri
    rw [hs]
    split
    · decide
    · split <;> decide
  · intro b s s' hs
    obtain ⟨i, sz, hf, ht, hx⟩ := step_cases hs
    clear hs hf
    obtain ⟨r, z, n, v, pc, mem, ok⟩ := s
    have hsz : (notBlock true k).size = 46 := rfl
    rw [hsz]
    clear hsz
    simp [notBlock, load, four, ins, table, cmn] at ht
    rcases ht with ⟨rfl, rfl, rfl⟩ | ⟨rfl, rfl, rfl⟩ | ⟨rfl, rfl, rfl⟩ | ⟨rfl, rfl, rfl⟩ | ⟨rfl, rfl, rfl⟩ | ⟨rfl, rfl, rfl⟩ |
      ⟨rfl, rfl, rfl⟩ | ⟨rfl, rfl, rfl⟩ | ⟨rfl, rfl, rfl⟩ | ⟨rfl, rfl, rfl⟩ | ⟨rfl, rfl, rfl⟩ | ⟨rfl, rfl, rfl⟩ |
      ⟨rfl, rfl, rfl⟩ | ⟨rfl, rfl, rfl⟩ | ⟨rfl, rfl, rfl⟩ | ⟨rfl, rfl, rfl⟩ | ⟨rfl, rfl, rfl⟩ | ⟨rfl, rfl, rfl⟩ <;>
      rcases hx with ⟨rfl, rfl⟩ | ⟨rfl, hx⟩ <;>
      (try simp only [exec, branch, target, Cond.holds] at hx) <;>
      (by_cases hr : r 2 = 0xFFFFFFFE#32) <;> cases z <;>
      (try simp at hx) <;> (try subst hx) <;>
      simp [tri, look, cost, Armor.compare, Armor.set, hr, h, Armor.flagged, lsr_ne] <;> (try (split <;> omega))

theorem not_ok_thumb (k : W) : Pot (notBlock true k) 0 := by
  refine ⟨Nat.lt_of_lt_of_le (by decide : 0 < 46) (Nat.le_refl _), ?_, fun _ => 0, ?_, ?_⟩
  · intro a i sz hf
    have := fetch_table 0 hf
    simp [notBlock, load, four, ins, table, cmn] at this
    rcases this with ⟨rfl, rfl, rfl⟩ | ⟨rfl, rfl, rfl⟩ | ⟨rfl, rfl, rfl⟩ | ⟨rfl, rfl, rfl⟩ | ⟨rfl, rfl, rfl⟩ | ⟨rfl, rfl, rfl⟩ |
      ⟨rfl, rfl, rfl⟩ | ⟨rfl, rfl, rfl⟩ | ⟨rfl, rfl, rfl⟩ | ⟨rfl, rfl, rfl⟩ | ⟨rfl, rfl, rfl⟩ | ⟨rfl, rfl, rfl⟩ |
      ⟨rfl, rfl, rfl⟩ | ⟨rfl, rfl, rfl⟩ | ⟨rfl, rfl, rfl⟩ | ⟨rfl, rfl, rfl⟩ | ⟨rfl, rfl, rfl⟩ | ⟨rfl, rfl, rfl⟩ <;>
      refine ⟨rfl, fun c off hc => ?_⟩ <;> cases hc <;> decide
  · intro s hs
    exact Nat.zero_le _
  · intro b s s' hs
    obtain ⟨i, sz, hf, ht, hx⟩ := step_cases hs
    clear hs hf
    obtain ⟨r, z, n, v, pc, mem, ok⟩ := s
    have hsz : (notBlock true k).size = 46 := rfl
    rw [hsz]
    clear hsz
    simp [notBlock, load, four, ins, table, cmn] at ht
    rcases ht with ⟨rfl, rfl, rfl⟩ | ⟨rfl, rfl, rfl⟩ | ⟨rfl, rfl, rfl⟩ | ⟨rfl, rfl, rfl⟩ | ⟨rfl, rfl, rfl⟩ | ⟨rfl, rfl, rfl⟩ |
      ⟨rfl, rfl, rfl⟩ | ⟨rfl, rfl, rfl⟩ | ⟨rfl, rfl, rfl⟩ | ⟨rfl, rfl, rfl⟩ | ⟨rfl, rfl, rfl⟩ | ⟨rfl, rfl, rfl⟩ |
      ⟨rfl, rfl, rfl⟩ | ⟨rfl, rfl, rfl⟩ | ⟨rfl, rfl, rfl⟩ | ⟨rfl, rfl, rfl⟩ | ⟨rfl, rfl, rfl⟩ | ⟨rfl, rfl, rfl⟩ <;>
      rcases hx with ⟨rfl, rfl⟩ | ⟨rfl, hx⟩ <;>
      (try simp only [exec, branch, target, Cond.holds] at hx) <;>
      cases z <;>
      (try simp at hx) <;> (try subst hx) <;>
      (try simp [cost, Armor.compare, Armor.flagged]) <;> (try (split <;> omega))

theorem not_pot_arm (k : W) (h : k ≠ 0xFFFFFFFE#32) : Pot (notBlock false k) 4 := by
  refine ⟨Nat.lt_of_lt_of_le (by decide : 0 < 56) (Nat.le_refl _), ?_, tri 0xFFFFFFFE#32 [(0, 4), (4, 4), (8, 4), (12, 3), (16, 2), (20, 1)]
    [(0, 4), (4, 4), (8, 4), (12, 4), (16, 4), (20, 4), (24, 4), (28, 3), (32, 3), (36, 2), (40, 2), (44, 1), (48, 1), (52, 0)]
    [(0, 4), (4, 4), (8, 4), (12, 4), (16, 4), (20, 4), (24, 4), (28, 4), (32, 3), (36, 3), (40, 2), (44, 2), (48, 1), (52, 1)], ?_, ?_⟩
  · intro a i sz hf
    have := fetch_table 0 hf
    simp [notBlock, load, four, ins, table, cmn] at this
    rcases this with ⟨rfl, rfl, rfl⟩ | ⟨rfl, rfl, rfl⟩ | ⟨rfl, rfl, rfl⟩ | ⟨rfl, rfl, rfl⟩ | ⟨rfl, rfl, rfl⟩ | ⟨rfl, rfl, rfl⟩ |
      ⟨rfl, rfl, rfl⟩ | ⟨rfl, rfl, rfl⟩ | ⟨rfl, rfl, rfl⟩ | ⟨rfl, rfl, rfl⟩ | ⟨rfl, rfl, rfl⟩ | ⟨rfl, rfl, rfl⟩ |
      ⟨rfl, rfl, rfl⟩ | ⟨rfl, rfl, rfl⟩ <;>
      refine ⟨rfl, fun c off hc => ?_⟩ <;> cases hc <;> decide
  · intro s hs
    unfold tri
    rw [hs]
    split
    · decide
    · split <;> decide
  · intro b s s' hs
    obtain ⟨i, sz, hf, ht, hx⟩ := step_cases hs
    clear hs hf
    obtain ⟨r, z, n, v, pc, mem, ok⟩ := s
    have hsz : (notBlock false k).size = 56 := rfl
    rw [hsz]
    clear hsz
    simp [notBlock, load, four, ins, table, cmn] at ht
    rcases ht with ⟨rfl, rfl, rfl⟩ | ⟨rfl, rfl, rfl⟩ | ⟨rfl, rfl, rfl⟩ | ⟨rfl, rfl, rfl⟩ | ⟨rfl, rfl, rfl⟩ | ⟨rfl, rfl, rfl⟩ |
      ⟨rfl, rfl, rfl⟩ | ⟨rfl, rfl, rfl⟩ | ⟨rfl, rfl, rfl⟩ | ⟨rfl, rfl, rfl⟩ | ⟨rfl, rfl, rfl⟩ | ⟨rfl, rfl, rfl⟩ |
      ⟨rfl, rfl, rfl⟩ | ⟨rfl, rfl, rfl⟩ <;>
      rcases hx with ⟨rfl, rfl⟩ | ⟨rfl, hx⟩ <;>
      (try simp only [exec, branch, target, Cond.holds] at hx) <;>
      (by_cases hr : r 2 = 0xFFFFFFFE#32) <;> cases z <;>
      (try simp at hx) <;> (try subst hx) <;>
      simp [tri, look, cost, Armor.compare, Armor.set, hr, h] <;> (try (split <;> omega))

theorem not_ok_arm (k : W) : Pot (notBlock false k) 0 := by
  refine ⟨Nat.lt_of_lt_of_le (by decide : 0 < 56) (Nat.le_refl _), ?_, fun _ => 0, ?_, ?_⟩
  · intro a i sz hf
    have := fetch_table 0 hf
    simp [notBlock, load, four, ins, table, cmn] at this
    rcases this with ⟨rfl, rfl, rfl⟩ | ⟨rfl, rfl, rfl⟩ | ⟨rfl, rfl, rfl⟩ | ⟨rfl, rfl, rfl⟩ | ⟨rfl, rfl, rfl⟩ | ⟨rfl, rfl, rfl⟩ |
      ⟨rfl, rfl, rfl⟩ | ⟨rfl, rfl, rfl⟩ | ⟨rfl, rfl, rfl⟩ | ⟨rfl, rfl, rfl⟩ | ⟨rfl, rfl, rfl⟩ | ⟨rfl, rfl, rfl⟩ |
      ⟨rfl, rfl, rfl⟩ | ⟨rfl, rfl, rfl⟩ <;>
      refine ⟨rfl, fun c off hc => ?_⟩ <;> cases hc <;> decide
  · intro s hs
    exact Nat.zero_le _
  · intro b s s' hs
    obtain ⟨i, sz, hf, ht, hx⟩ := step_cases hs
    clear hs hf
    obtain ⟨r, z, n, v, pc, mem, ok⟩ := s
    have hsz : (notBlock false k).size = 56 := rfl
    rw [hsz]
    clear hsz
    simp [notBlock, load, four, ins, table, cmn] at ht
    rcases ht with ⟨rfl, rfl, rfl⟩ | ⟨rfl, rfl, rfl⟩ | ⟨rfl, rfl, rfl⟩ | ⟨rfl, rfl, rfl⟩ | ⟨rfl, rfl, rfl⟩ | ⟨rfl, rfl, rfl⟩ |
      ⟨rfl, rfl, rfl⟩ | ⟨rfl, rfl, rfl⟩ | ⟨rfl, rfl, rfl⟩ | ⟨rfl, rfl, rfl⟩ | ⟨rfl, rfl, rfl⟩ | ⟨rfl, rfl, rfl⟩ |
      ⟨rfl, rfl, rfl⟩ | ⟨rfl, rfl, rfl⟩ <;>
      rcases hx with ⟨rfl, rfl⟩ | ⟨rfl, hx⟩ <;>
      (try simp only [exec, branch, target, Cond.holds] at hx) <;>
      cases z <;>
      (try simp at hx) <;> (try subst hx) <;>
      (try simp [cost, Armor.compare]) <;> (try (split <;> omega))

theorem can_pot_thumb (k c : W) (h : k ≠ c) : Pot (canaryBlock true k c) 1 := by
  refine ⟨Nat.lt_of_lt_of_le (by decide : 0 < 40) (Nat.le_refl _), ?_, can c 22 [(24, 1), (26, 1), (28, 1), (30, 1), (32, 1), (34, 1), (36, 1)]
    [(24, 1), (26, 1), (28, 1), (30, 1), (32, 1), (34, 1), (36, 1), (38, 1)], ?_, ?_⟩
  · intro a i sz hf
    have := fetch_table 0 hf
    simp [canaryBlock, load, four, ins, table] at this
    rcases this with ⟨rfl, rfl, rfl⟩ | ⟨rfl, rfl, rfl⟩ | ⟨rfl, rfl, rfl⟩ | ⟨rfl, rfl, rfl⟩ | ⟨rfl, rfl, rfl⟩ | ⟨rfl, rfl, rfl⟩ |
      ⟨rfl, rfl, rfl⟩ | ⟨rfl, rfl, rfl⟩ | ⟨rfl, rfl, rfl⟩ | ⟨rfl, rfl, rfl⟩ | ⟨rfl, rfl, rfl⟩ | ⟨rfl, rfl, rfl⟩ |
      ⟨rfl, rfl, rfl⟩ | ⟨rfl, rfl, rfl⟩ | ⟨rfl, rfl, rfl⟩ <;>
      refine ⟨rfl, fun c off hc => ?_⟩ <;> cases hc <;> decide
  · intro s hs
    unfold can
    rw [hs, if_pos (by decide)]
    decide
  · intro b s s' hs
    obtain ⟨i, sz, hf, ht, hx⟩ := step_cases hs
    clear hs hf
    obtain ⟨r, z, n, v, pc, mem, ok⟩ := s
    have hsz : (canaryBlock true k c).size = 40 := rfl
    rw [hsz]
    clear hsz
    simp [canaryBlock, load, four, ins, table] at ht
    rcases ht with ⟨rfl, rfl, rfl⟩ | ⟨rfl, rfl, rfl⟩ | ⟨rfl, rfl, rfl⟩ | ⟨rfl, rfl, rfl⟩ | ⟨rfl, rfl, rfl⟩ | ⟨rfl, rfl, rfl⟩ |
      ⟨rfl, rfl, rfl⟩ | ⟨rfl, rfl, rfl⟩ | ⟨rfl, rfl, rfl⟩ | ⟨rfl, rfl, rfl⟩ | ⟨rfl, rfl, rfl⟩ | ⟨rfl, rfl, rfl⟩ |
      ⟨rfl, rfl, rfl⟩ | ⟨rfl, rfl, rfl⟩ | ⟨rfl, rfl, rfl⟩ <;>
      rcases hx with ⟨rfl, rfl⟩ | ⟨rfl, hx⟩ <;>
      (try simp only [exec, branch, target, Cond.holds] at hx) <;>
      (by_cases hr : r 2 = r 0) <;> (by_cases hr2 : r 2 = c) <;> cases z <;>
      (try simp at hx) <;> (try subst hx) <;>
      simp [can, look, cost, Armor.compare, Armor.set, hr, hr2, h] <;> (try (split <;> omega))

theorem can_ok_thumb (k c : W) : Pot (canaryBlock true k c) 0 := by
  refine ⟨Nat.lt_of_lt_of_le (by decide : 0 < 40) (Nat.le_refl _), ?_, fun _ => 0, ?_, ?_⟩
  · intro a i sz hf
    have := fetch_table 0 hf
    simp [canaryBlock, load, four, ins, table] at this
    rcases this with ⟨rfl, rfl, rfl⟩ | ⟨rfl, rfl, rfl⟩ | ⟨rfl, rfl, rfl⟩ | ⟨rfl, rfl, rfl⟩ | ⟨rfl, rfl, rfl⟩ | ⟨rfl, rfl, rfl⟩ |
      ⟨rfl, rfl, rfl⟩ | ⟨rfl, rfl, rfl⟩ | ⟨rfl, rfl, rfl⟩ | ⟨rfl, rfl, rfl⟩ | ⟨rfl, rfl, rfl⟩ | ⟨rfl, rfl, rfl⟩ |
      ⟨rfl, rfl, rfl⟩ | ⟨rfl, rfl, rfl⟩ | ⟨rfl, rfl, rfl⟩ <;>
      refine ⟨rfl, fun c off hc => ?_⟩ <;> cases hc <;> decide
  · intro s hs
    exact Nat.zero_le _
  · intro b s s' hs
    obtain ⟨i, sz, hf, ht, hx⟩ := step_cases hs
    clear hs hf
    obtain ⟨r, z, n, v, pc, mem, ok⟩ := s
    have hsz : (canaryBlock true k c).size = 40 := rfl
    rw [hsz]
    clear hsz
    simp [canaryBlock, load, four, ins, table] at ht
    rcases ht with ⟨rfl, rfl, rfl⟩ | ⟨rfl, rfl, rfl⟩ | ⟨rfl, rfl, rfl⟩ | ⟨rfl, rfl, rfl⟩ | ⟨rfl, rfl, rfl⟩ | ⟨rfl, rfl, rfl⟩ |
      ⟨rfl, rfl, rfl⟩ | ⟨rfl, rfl, rfl⟩ | ⟨rfl, rfl, rfl⟩ | ⟨rfl, rfl, rfl⟩ | ⟨rfl, rfl, rfl⟩ | ⟨rfl, rfl, rfl⟩ |
      ⟨rfl, rfl, rfl⟩ | ⟨rfl, rfl, rfl⟩ | ⟨rfl, rfl, rfl⟩ <;>
      rcases hx with ⟨rfl, rfl⟩ | ⟨rfl, hx⟩ <;>
      (try simp only [exec, branch, target, Cond.holds] at hx) <;>
      cases z <;>
      (try simp at hx) <;> (try subst hx) <;>
      (try simp [cost, Armor.compare]) <;> (try (split <;> omega))

theorem can_pot_arm (k c : W) (h : k ≠ c) : Pot (canaryBlock false k c) 1 := by
  refine ⟨Nat.lt_of_lt_of_le (by decide : 0 < 60) (Nat.le_refl _), ?_, can c 24 [(28, 1), (32, 1), (36, 1), (40, 1), (44, 1), (48, 1), (52, 1)]
    [(28, 1), (32, 1), (36, 1), (40, 1), (44, 1), (48, 1), (52, 1), (56, 1)], ?_, ?_⟩
  · intro a i sz hf
    have := fetch_table 0 hf
    simp [canaryBlock, load, four, ins, table] at this
    rcases this with ⟨rfl, rfl, rfl⟩ | ⟨rfl, rfl, rfl⟩ | ⟨rfl, rfl, rfl⟩ | ⟨rfl, rfl, rfl⟩ | ⟨rfl, rfl, rfl⟩ | ⟨rfl, rfl, rfl⟩ |
      ⟨rfl, rfl, rfl⟩ | ⟨rfl, rfl, rfl⟩ | ⟨rfl, rfl, rfl⟩ | ⟨rfl, rfl, rfl⟩ | ⟨rfl, rfl, rfl⟩ | ⟨rfl, rfl, rfl⟩ |
      ⟨rfl, rfl, rfl⟩ | ⟨rfl, rfl, rfl⟩ | ⟨rfl, rfl, rfl⟩ <;>
      refine ⟨rfl, fun c off hc => ?_⟩ <;> cases hc <;> decide
  · intro s hs
    unfold can
    rw [hs, if_pos (by decide)]
    decide
  · intro b s s' hs
    obtain ⟨i, sz, hf, ht, hx⟩ := step_cases hs
    clear hs hf
    obtain ⟨r, z, n, v, pc, mem, ok⟩ := s
    have hsz : (canaryBlock false k c).size = 60 := rfl
    rw [hsz]
    clear hsz
    simp [canaryBlock, load, four, ins, table] at ht
    rcases ht with ⟨rfl, rfl, rfl⟩ | ⟨rfl, rfl, rfl⟩ | ⟨rfl, rfl, rfl⟩ | ⟨rfl, rfl, rfl⟩ | ⟨rfl, rfl, rfl⟩ | ⟨rfl, rfl, rfl⟩ |
      ⟨rfl, rfl, rfl⟩ | ⟨rfl, rfl, rfl⟩ | ⟨rfl, rfl, rfl⟩ | ⟨rfl, rfl, rfl⟩ | ⟨rfl, rfl, rfl⟩ | ⟨rfl, rfl, rfl⟩ |
      ⟨rfl, rfl, rfl⟩ | ⟨rfl, rfl, rfl⟩ | ⟨rfl, rfl, rfl⟩ <;>
      rcases hx with ⟨rfl, rfl⟩ | ⟨rfl, hx⟩ <;>
      (try simp only [exec, branch, target, Cond.holds] at hx) <;>
      (by_cases hr : r 2 = r 0) <;> (by_cases hr2 : r 2 = c) <;> cases z <;>
      (try simp at hx) <;> (try subst hx) <;>
      simp [can, look, cost, Armor.compare, Armor.set, hr, hr2, h] <;> (try (split <;> omega))

theorem can_ok_arm (k c : W) : Pot (canaryBlock false k c) 0 := by
  refine ⟨Nat.lt_of_lt_of_le (by decide : 0 < 60) (Nat.le_refl _), ?_, fun _ => 0, ?_, ?_⟩
  · intro a i sz hf
    have := fetch_table 0 hf
    simp [canaryBlock, load, four, ins, table] at this
    rcases this with ⟨rfl, rfl, rfl⟩ | ⟨rfl, rfl, rfl⟩ | ⟨rfl, rfl, rfl⟩ | ⟨rfl, rfl, rfl⟩ | ⟨rfl, rfl, rfl⟩ | ⟨rfl, rfl, rfl⟩ |
      ⟨rfl, rfl, rfl⟩ | ⟨rfl, rfl, rfl⟩ | ⟨rfl, rfl, rfl⟩ | ⟨rfl, rfl, rfl⟩ | ⟨rfl, rfl, rfl⟩ | ⟨rfl, rfl, rfl⟩ |
      ⟨rfl, rfl, rfl⟩ | ⟨rfl, rfl, rfl⟩ | ⟨rfl, rfl, rfl⟩ <;>
      refine ⟨rfl, fun c off hc => ?_⟩ <;> cases hc <;> decide
  · intro s hs
    exact Nat.zero_le _
  · intro b s s' hs
    obtain ⟨i, sz, hf, ht, hx⟩ := step_cases hs
    clear hs hf
    obtain ⟨r, z, n, v, pc, mem, ok⟩ := s
    have hsz : (canaryBlock false k c).size = 60 := rfl
    rw [hsz]
    clear hsz
    simp [canaryBlock, load, four, ins, table] at ht
    rcases ht with ⟨rfl, rfl, rfl⟩ | ⟨rfl, rfl, rfl⟩ | ⟨rfl, rfl, rfl⟩ | ⟨rfl, rfl, rfl⟩ | ⟨rfl, rfl, rfl⟩ | ⟨rfl, rfl, rfl⟩ |
      ⟨rfl, rfl, rfl⟩ | ⟨rfl, rfl, rfl⟩ | ⟨rfl, rfl, rfl⟩ | ⟨rfl, rfl, rfl⟩ | ⟨rfl, rfl, rfl⟩ | ⟨rfl, rfl, rfl⟩ |
      ⟨rfl, rfl, rfl⟩ | ⟨rfl, rfl, rfl⟩ | ⟨rfl, rfl, rfl⟩ <;>
      rcases hx with ⟨rfl, rfl⟩ | ⟨rfl, hx⟩ <;>
      (try simp only [exec, branch, target, Cond.holds] at hx) <;>
      cases z <;>
      (try simp at hx) <;> (try subst hx) <;>
      (try simp [cost, Armor.compare]) <;> (try (split <;> omega))

/-! ## The check of the image flags -/

/-- Closes a goal `a = b` with `Eq.refl a`; only the kernel checks it. -/
macro "kernel_eq" : tactic => `(tactic| run_tac do
    let g ← Lean.Elab.Tactic.getMainGoal
    let some (_, a, _) := (← g.getType).eq? | throwError "not an equation"
    g.assign (← Lean.Meta.mkEqRefl a))

/-- 1 if the field does not have the value it must have. -/
def wrong (x c : W) : Nat := if x = c then 0 else 1

theorem flag_pot (t : Bool) (k : W) : Pot (flagBlock t k) (4 * wrong k 1) := by
  unfold wrong
  split
  · cases t
    · exact flag_ok_arm k
    · exact flag_ok_thumb k
  · rename_i h
    cases t
    · exact flag_pot_arm k h
    · exact flag_pot_thumb k h

theorem not_pot (t : Bool) (k : W) : Pot (notBlock t k) (4 * wrong k 0xFFFFFFFE) := by
  unfold wrong
  split
  · cases t
    · exact not_ok_arm k
    · exact not_ok_thumb k
  · rename_i h
    cases t
    · exact not_pot_arm k h
    · exact not_pot_thumb k h

theorem canary_pot (t : Bool) (k c : W) : Pot (canaryBlock t k c) (wrong k c) := by
  unfold wrong
  split
  · cases t
    · exact can_ok_arm k c
    · exact can_ok_thumb k c
  · rename_i h
    cases t
    · exact can_pot_arm k c h
    · exact can_pot_thumb k c h

/-- **C55, flags.** To pass the check with wrong flags, at least four instructions must be skipped for each of them, and one
for each wrong canary; in particular it is passed without skipped instructions only if all are right. -/
theorem sanity_skips {t : Bool} {p : Img} {l : List Bool} {s : Cpu} (h : Passes (sanity t p) l s) :
    4 * (wrong p.hdr 1 + wrong p.sha 1 + wrong p.sig 1 + wrong p.nsig 0xFFFFFFFE) +
      (wrong p.c6789 0xFEED6789 + wrong p.c4567 0xFEED4567 + wrong p.c89AB 0xFEED89AB) ≤ skips l := by
  have := ((((((((flag_pot t p.hdr).append (flag_pot t p.sha)).append (flag_pot t p.sig)).append (not_pot t p.nsig)).append
    (canary_pot t p.c6789 0xFEED6789)).append (canary_pot t p.c4567 0xFEED4567)).append
    (canary_pot t p.c89AB 0xFEED89AB))).run h
  omega

/-- An image that has never been confirmed: eight skipped instructions at least. -/
theorem unconfirmed_skips {t : Bool} {p : Img} {l : List Bool} {s : Cpu} (h : Passes (sanity t p.clear) l s) : 8 ≤ skips l := by
  have := sanity_skips h
  have h1 : wrong p.clear.sig 1 = 1 := rfl
  have h2 : wrong p.clear.nsig 0xFFFFFFFE = 1 := rfl
  omega

/-- **C55, flags.** A confirmed image passes. -/
theorem sanity_pass (t : Bool) (p : Img) (s : Cpu) (h0 : s.pc = 0) (h1 : p.hdr = 1) (h2 : p.sha = 1) :
    Passes (sanity t p.confirm) (List.replicate 101 false) s := by
  obtain ⟨r, z, n, v, pc, mem, ok⟩ := s
  obtain ⟨a, b, c, d, e, f, g⟩ := p
  dsimp only at h0 h1 h2
  subst h0 h1 h2
  have h : ∀ t : Bool, (run (sanity t (Img.confirm ⟨1, 1, c, d, e, f, g⟩)) (List.replicate 101 false) ⟨r, z, n, v, 0, mem, ok⟩).map
      Cpu.pc = some (sanity t (Img.confirm ⟨1, 1, c, d, e, f, g⟩)).size := by
    intro t
    cases t
    · kernel_eq
    · kernel_eq
  refine ⟨rfl, ?_⟩
  have h := h t
  cases hr : run (sanity t (Img.confirm ⟨1, 1, c, d, e, f, g⟩)) (List.replicate 101 false) ⟨r, z, n, v, 0, mem, ok⟩ with
  | none => rw [hr] at h; cases h
  | some s' =>
    rw [hr] at h
    injection h with h
    exact ⟨s', rfl, h⟩

theorem skips_none (n : Nat) : skips (List.replicate n false) = 0 := by
  unfold skips
  rw [List.count_replicate]
  rfl

/-- A wrong flag (`sha_ok`), with the four branches skipped: the bound is sharp. -/
example (s : Cpu) : Passes (flagBlock true 0)
    [false, false, false, false, false, false, false, true, false, true, false, true, false, true]
    { s with pc := 0 } := ⟨rfl, _, rfl, rfl⟩

/-- **Finding.** If the instruction that loads the expected canary into `r0` is skipped, the comparison is with whatever is in `r0`. -/
theorem canary_one_skip (c : W) (s : Cpu) (h : s.pc = 0) (h0 : s.r 0 = 0) :
    Passes (canaryBlock true 0 c) (List.replicate 6 false ++ true :: List.replicate 8 false) s ∧
      skips (List.replicate 6 false ++ true :: List.replicate 8 false) = 1 := by
  obtain ⟨r, z, n, v, pc, mem, ok⟩ := s
  dsimp only at h h0
  subst h
  refine ⟨⟨rfl, ?_⟩, rfl⟩
  simp [run, step, fetch, canaryBlock, load, four, ins, exec, branch, Cond.holds, Armor.set, Armor.compare, h0, Prog.size,
    List.replicate]

end Verif.Armor
