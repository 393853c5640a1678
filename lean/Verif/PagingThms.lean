import Verif.Paging

/-!
# Theorems about the page tables (C51)
-/

namespace Verif

/-! ## Bits -/

theorem or_low (k b : Nat) (hb : b < 4096) : k * 4096 ||| b = k * 4096 + b := by
  have := Nat.two_pow_add_eq_or_of_lt (i := 12) (b := b) hb k
  rw [Nat.mul_comm]
  exact this.symm

theorem setup_val (e a : Nat) : setupEntry e a = e ||| (a / 4096 * 4096 + 3) := by
  unfold setupEntry
  rw [Nat.or_assoc, Nat.or_assoc, show (1 ||| 2 : Nat) = 3 from rfl, or_low _ _ (by omega)]

theorem setup_zero (a : Nat) : setupEntry 0 a = a / 4096 * 4096 + 3 := by rw [setup_val, Nat.zero_or]

theorem ps_setup_zero (a : Nat) : setPs (setupEntry 0 a) = a / 4096 * 4096 + 131 := by
  have e : (3 ||| 128 : Nat) = 131 := by decide
  rw [setup_zero]
  unfold setPs
  rw [← or_low _ 3 (by omega), Nat.or_assoc, e, or_low _ _ (by omega)]

theorem vaIdx_val (va level : Nat) : vaIdx va level = va / 2 ^ (12 + (level - 1) * 9) % 512 := by
  unfold vaIdx
  rw [show (0x1FF : Nat) = 2 ^ 9 - 1 from rfl, Nat.and_two_pow_sub_one_eq_mod, Nat.shiftRight_eq_div_pow]

theorem needed_val (size level : Nat) : neededEntries size level = size / 2 ^ (9 * level + 3) % 4096 + 1 := by
  unfold neededEntries
  rw [show (0xfff : Nat) = 2 ^ 12 - 1 from rfl, Nat.and_two_pow_sub_one_eq_mod, Nat.shiftRight_eq_div_pow]

/-! ## The tree of tables -/

/-- Page number of the table reached by a path of indices (last one first), by the CPU. -/
def tbl (m : PMem) (root : Nat) : List Nat → Option Nat
  | [] => some root
  | i :: p =>
    match tbl m root p with
    | none => none
    | some t => if allows (m t i) && !isLarge (m t i) then some (pfn (m t i)) else none

/-- A path of indices to a table. -/
def PathOK (p : List Nat) : Prop := p.length ≤ 3 ∧ ∀ i ∈ p, i < 512

/-- Invariant of the tables: no table is shared or is a free page of the pool, all used entries are valid. -/
structure PgInv (pool root : Nat) (s : PgSt) : Prop where
  inj : ∀ p q t, PathOK p → PathOK q → tbl s.m root p = some t → tbl s.m root q = some t → p = q
  free : ∀ p t, PathOK p → tbl s.m root p = some t → ¬ (pool + s.used ≤ t ∧ t < pool + 512)
  ent : ∀ p t i, PathOK p → tbl s.m root p = some t → i < 512 → s.m t i ≠ 0 →
    allows (s.m t i) = true ∧ s.m t i < 2 ^ 52 ∧ (p.length ≤ 1 → isLarge (s.m t i) = false)
  used : s.used < 512

theorem tbl_cons {m : PMem} {root : Nat} {p : List Nat} {t : Nat} (h : tbl m root p = some t) (i : Nat) :
    tbl m root (i :: p) = if allows (m t i) && !isLarge (m t i) then some (pfn (m t i)) else none := by
  simp only [tbl, h]

theorem tbl_cons_none {m : PMem} {root : Nat} {p : List Nat} (h : tbl m root p = none) (i : Nat) :
    tbl m root (i :: p) = none := by
  simp only [tbl, h]

theorem allows_zero : allows 0 = false := by decide

theorem ptp_entry {n : Nat} (h : n < 2 ^ 40) :
    allows (setupEntry 0 (n * 4096)) = true ∧ isLarge (setupEntry 0 (n * 4096)) = false ∧
    pfn (setupEntry 0 (n * 4096)) = n ∧ setupEntry 0 (n * 4096) < 2 ^ 52 := by
  rw [setup_zero]
  unfold allows isLarge pfn
  refine ⟨?_, ?_, ?_, ?_⟩
  · rw [decide_eq_true_eq]; omega
  · rw [decide_eq_false_iff_not]; omega
  · omega
  · omega

theorem PathOK.tail {i : Nat} {p : List Nat} (h : PathOK (i :: p)) : PathOK p ∧ i < 512 ∧ p.length ≤ 2 := by
  refine ⟨⟨?_, fun j hj => h.2 j (List.mem_cons_of_mem _ hj)⟩, h.2 i List.mem_cons_self, ?_⟩
  · have := h.1; simp at this; omega
  · have := h.1; simp at this; omega

/-! ## A new table -/

section ptp
variable {pool root : Nat} {s s' : PgSt} {p : List Nat} {t i : Nat}

/-- The memory after a new table was put at entry (`t`, `i`). -/
def ptpMem (pool t i : Nat) (s : PgSt) : PMem := fun a j =>
  if a = pool + s.used then 0 else if a = t ∧ j = i then setupEntry 0 ((pool + s.used) * 4096) else s.m a j

theorem setupPtp_val (h0 : s.m t i = 0) (h : setupPtp pool t i s = some s') :
    s'.m = ptpMem pool t i s ∧ s'.used = s.used + 1 ∧ s.used + 1 ≠ 512 := by
  unfold setupPtp at h
  by_cases hu : s.used + 1 = 512
  · rw [if_pos hu] at h; cases h
  · rw [if_neg hu] at h
    cases h
    refine ⟨?_, rfl, hu⟩
    funext a j
    simp only [ptpMem, PMem.set, h0]

theorem ptp_tbl (inv : PgInv pool root s) (hp : PathOK (i :: p)) (ht : tbl s.m root p = some t) (h0 : s.m t i = 0)
    (hpool : pool + 512 ≤ 2 ^ 40) (q : List Nat) (hq : PathOK q) :
    tbl (ptpMem pool t i s) root q = if q = i :: p then some (pool + s.used) else tbl s.m root q := by
  obtain ⟨hp', hi, _⟩ := hp.tail
  have hus := inv.used
  induction q with
  | nil => simp [tbl]
  | cons j q ih =>
    obtain ⟨hq', hj, hl⟩ := hq.tail
    have ih := ih hq'
    by_cases hqp : q = i :: p
    · subst hqp
      rw [if_pos rfl] at ih
      have hne : ¬ (j :: i :: p = i :: p) := by
        intro h
        have := congrArg List.length h
        simp at this
      rw [if_neg hne, tbl_cons ih]
      have h1 : tbl s.m root (i :: p) = none := by
        rw [tbl_cons ht, h0, allows_zero]; rfl
      rw [tbl_cons_none h1]
      have h2 : ptpMem pool t i s (pool + s.used) j = 0 := by simp only [ptpMem, if_true]
      rw [h2, allows_zero]; rfl
    · rw [if_neg hqp] at ih
      cases hqt : tbl s.m root q with
      | none =>
        rw [hqt] at ih
        have hne : ¬ (j :: q = i :: p) := by
          intro h
          injection h with h1 h2
          subst h2
          rw [hqt] at ht; cases ht
        rw [if_neg hne, tbl_cons_none ih, tbl_cons_none hqt]
      | some u =>
        rw [hqt] at ih
        have hun : u ≠ pool + s.used := by
          intro h
          exact inv.free q u hq' hqt (by omega)
        rw [tbl_cons ih, tbl_cons hqt]
        by_cases hc : j :: q = i :: p
        · injection hc with h1 h2
          subst h1 h2
          rw [hqt] at ht; cases ht
          rw [if_pos rfl]
          have h2 : ptpMem pool t j s t j = setupEntry 0 ((pool + s.used) * 4096) := by
            simp only [ptpMem, if_neg hun, and_self, if_true]
          obtain ⟨e1, e2, e3, _⟩ := ptp_entry (n := pool + s.used) (by omega)
          rw [h2, e1, e2, e3]; rfl
        · rw [if_neg hc]
          have h2 : ptpMem pool t i s u j = s.m u j := by
            have : ¬ (u = t ∧ j = i) := by
              rintro ⟨rfl, rfl⟩
              exact hc (by rw [inv.inj q p u hq' hp' hqt ht])
            simp only [ptpMem, if_neg hun, if_neg this]
          rw [h2]

theorem ptp_inv (inv : PgInv pool root s) (hp : PathOK (i :: p)) (ht : tbl s.m root p = some t) (h0 : s.m t i = 0)
    (hpool : pool + 512 ≤ 2 ^ 40) (hu : s.used + 1 ≠ 512) :
    PgInv pool root ⟨ptpMem pool t i s, s.used + 1⟩ := by
  have hT := ptp_tbl inv hp ht h0 hpool
  obtain ⟨hp', hi, hlen⟩ := hp.tail
  have hus := inv.used
  refine ⟨?_, ?_, ?_, by dsimp only; omega⟩
  · intro a b u ha hb h1 h2
    dsimp only at h1 h2
    rw [hT a ha] at h1
    rw [hT b hb] at h2
    by_cases ea : a = i :: p
    · by_cases eb : b = i :: p
      · rw [ea, eb]
      · rw [if_pos ea] at h1; rw [if_neg eb] at h2
        cases h1
        exact absurd ⟨Nat.le_refl _, by omega⟩ (inv.free b _ hb h2)
    · by_cases eb : b = i :: p
      · rw [if_neg ea] at h1; rw [if_pos eb] at h2
        cases h2
        exact absurd ⟨Nat.le_refl _, by omega⟩ (inv.free a _ ha h1)
      · rw [if_neg ea] at h1; rw [if_neg eb] at h2
        exact inv.inj a b u ha hb h1 h2
  · intro a u ha h1
    dsimp only at h1 ⊢
    rw [hT a ha] at h1
    by_cases ea : a = i :: p
    · rw [if_pos ea] at h1; cases h1; omega
    · rw [if_neg ea] at h1
      have := inv.free a u ha h1
      omega
  · intro a u j ha h1 hj hne
    dsimp only at h1 hne ⊢
    rw [hT a ha] at h1
    by_cases ea : a = i :: p
    · rw [if_pos ea] at h1; cases h1
      exact absurd (by simp only [ptpMem, if_true]) hne
    · rw [if_neg ea] at h1
      have hun : u ≠ pool + s.used := by
        intro h
        exact inv.free a u ha h1 (by omega)
      by_cases hc : u = t ∧ j = i
      · obtain ⟨rfl, rfl⟩ := hc
        have h2 : ptpMem pool u j s u j = setupEntry 0 ((pool + s.used) * 4096) := by
          simp only [ptpMem, if_neg hun, and_self, if_true]
        obtain ⟨e1, e2, e3, e4⟩ := ptp_entry (n := pool + s.used) (by omega)
        rw [h2]
        exact ⟨e1, e4, fun _ => e2⟩
      · have h2 : ptpMem pool t i s u j = s.m u j := by
          simp only [ptpMem, if_neg hun, if_neg hc]
        rw [h2] at hne ⊢
        exact inv.ent a u j ha h1 hj hne

end ptp

/-! ## The walk through the tree -/

/-- The last two levels of the walk. -/
def treeWalk (m : PMem) (o : Option Nat) (x2 x1 va : Nat) : Option Nat :=
  match o with
  | none => none
  | some l2 =>
    if allows (m l2 x2) = false then none
    else if isLarge (m l2 x2) then some (pfn (m l2 x2) / 2 ^ 9 * 2 ^ 21 + va % 2 ^ 21)
    else if allows (m (pfn (m l2 x2)) x1) = false then none
    else some (pfn (m (pfn (m l2 x2)) x1) * 4096 + va % 4096)

/-- The walk by the tree of tables. -/
theorem walk_tree {pool root : Nat} {s : PgSt} (inv : PgInv pool root s) (va : Nat) :
    walk s.m root va =
      treeWalk s.m (tbl s.m root [va / 2 ^ 30 % 512, va / 2 ^ 39 % 512]) (va / 2 ^ 21 % 512) (va / 2 ^ 12 % 512) va := by
  have i4 : va / 2 ^ 39 % 512 < 512 := Nat.mod_lt _ (by decide)
  have i3 : va / 2 ^ 30 % 512 < 512 := Nat.mod_lt _ (by decide)
  unfold walk
  generalize va / 2 ^ 39 % 512 = x4 at *
  generalize va / 2 ^ 30 % 512 = x3 at *
  generalize va / 2 ^ 21 % 512 = x2 at *
  generalize va / 2 ^ 12 % 512 = x1 at *
  dsimp only
  have h0 : tbl s.m root [] = some root := rfl
  have ok0 : PathOK [] := ⟨by simp, by simp⟩
  have ok1 : PathOK [x4] := ⟨by simp, by simp [i4]⟩
  by_cases a4 : allows (s.m root x4) = false
  · have h1 : tbl s.m root [x4] = none := by rw [tbl_cons h0, a4]; rfl
    rw [if_pos a4, tbl_cons_none h1]
    rfl
  · rw [if_neg a4]
    have n4 : s.m root x4 ≠ 0 := fun h => a4 (by rw [h]; rfl)
    have L4 := (inv.ent [] root x4 ok0 h0 i4 n4).2.2 (by simp)
    have h1 : tbl s.m root [x4] = some (pfn (s.m root x4)) := by
      rw [tbl_cons h0, L4, (Bool.not_eq_false _).mp a4]; rfl
    generalize pfn (s.m root x4) = l3 at *
    by_cases a3 : allows (s.m l3 x3) = false
    · have h2 : tbl s.m root [x3, x4] = none := by rw [tbl_cons h1, a3]; rfl
      rw [if_pos a3, h2]
      rfl
    · rw [if_neg a3]
      have n3 : s.m l3 x3 ≠ 0 := fun h => a3 (by rw [h]; rfl)
      have L3 := (inv.ent [x4] l3 x3 ok1 h1 i3 n3).2.2 (by simp)
      have h2 : tbl s.m root [x3, x4] = some (pfn (s.m l3 x3)) := by
        rw [tbl_cons h1, L3, (Bool.not_eq_false _).mp a3]; rfl
      rw [L3, h2]
      rfl

theorem ptp_walk {pool root t i : Nat} {s : PgSt} {p : List Nat} (inv : PgInv pool root s) (hp : PathOK (i :: p))
    (ht : tbl s.m root p = some t) (h0 : s.m t i = 0) (hpool : pool + 512 ≤ 2 ^ 40) (hu : s.used + 1 ≠ 512) (va : Nat) :
    walk (ptpMem pool t i s) root va = walk s.m root va := by
  have inv' := ptp_inv inv hp ht h0 hpool hu
  rw [walk_tree inv va]
  have e := walk_tree inv' va
  dsimp only at e
  rw [e]
  clear e
  have i4 : va / 2 ^ 39 % 512 < 512 := Nat.mod_lt _ (by decide)
  have i3 : va / 2 ^ 30 % 512 < 512 := Nat.mod_lt _ (by decide)
  have i2 : va / 2 ^ 21 % 512 < 512 := Nat.mod_lt _ (by decide)
  generalize va / 2 ^ 39 % 512 = x4 at *
  generalize va / 2 ^ 30 % 512 = x3 at *
  generalize va / 2 ^ 21 % 512 = x2 at *
  generalize va / 2 ^ 12 % 512 = x1 at *
  have ok2 : PathOK [x3, x4] := ⟨by simp, by simp [i4, i3]⟩
  have ok3 : PathOK [x2, x3, x4] := ⟨by simp, by simp [i4, i3, i2]⟩
  have hus := inv.used
  obtain ⟨hp', hi, hlen⟩ := hp.tail
  have hz : ∀ j, ptpMem pool t i s (pool + s.used) j = 0 := fun j => by simp only [ptpMem, if_true]
  have hother : ∀ q u j, PathOK q → tbl s.m root q = some u → (q = p → j ≠ i) → ptpMem pool t i s u j = s.m u j := by
    intro q u j hq hqu hne
    have hun : u ≠ pool + s.used := by
      intro h
      exact inv.free q u hq hqu (by omega)
    have : ¬ (u = t ∧ j = i) := by
      rintro ⟨rfl, rfl⟩
      exact hne (inv.inj q p u hq hp' hqu ht) rfl
    simp only [ptpMem, if_neg hun, if_neg this]
  rw [ptp_tbl inv hp ht h0 hpool _ ok2]
  by_cases hc : [x3, x4] = i :: p
  · rw [if_pos hc, hc, tbl_cons ht, h0, allows_zero]
    simp only [treeWalk]
    rw [hz, allows_zero, if_pos rfl]
    rfl
  · rw [if_neg hc]
    cases hl2 : tbl s.m root [x3, x4] with
    | none => rfl
    | some l2 =>
      simp only [treeWalk]
      by_cases hd : [x3, x4] = p ∧ x2 = i
      · obtain ⟨rfl, rfl⟩ := hd
        rw [hl2] at ht; cases ht
        have hun : t ≠ pool + s.used := by
          intro h
          exact inv.free _ t ok2 hl2 (by omega)
        have h2 : ptpMem pool t x2 s t x2 = setupEntry 0 ((pool + s.used) * 4096) := by
          simp only [ptpMem, if_neg hun, and_self, if_true]
        obtain ⟨e1, e2, e3, e4⟩ := ptp_entry (n := pool + s.used) (by omega)
        rw [h2, e1, e2, e3, hz, h0, allows_zero]
        rfl
      · rw [hother _ _ _ ok2 hl2 (fun h h' => hd ⟨h, h'⟩)]
        by_cases a2 : allows (s.m l2 x2) = false
        · rw [if_pos a2, if_pos a2]
        · rw [if_neg a2, if_neg a2]
          cases L2 : isLarge (s.m l2 x2) with
          | true => rfl
          | false =>
            have h3 : tbl s.m root [x2, x3, x4] = some (pfn (s.m l2 x2)) := by
              rw [tbl_cons hl2, L2, (Bool.not_eq_false _).mp a2]; rfl
            rw [hother _ _ _ ok3 h3 (fun h => by rw [← h] at hlen; simp at hlen)]

/-- `ensurePtp`: the invariant is kept, no translation changes, and the entry leads on. -/
theorem ensure_ok {pool root t i : Nat} {s s' : PgSt} {p : List Nat} (inv : PgInv pool root s) (hp : PathOK (i :: p))
    (ht : tbl s.m root p = some t) (hpool : pool + 512 ≤ 2 ^ 40) (h : ensurePtp pool t i s = some s') :
    PgInv pool root s' ∧ (∀ va, walk s'.m root va = walk s.m root va) ∧
    (∀ q u, PathOK q → tbl s.m root q = some u → tbl s'.m root q = some u) ∧
    s'.m t i ≠ 0 ∧ s.used ≤ s'.used := by
  unfold ensurePtp at h
  by_cases h0 : s.m t i = 0
  · rw [if_pos h0] at h
    obtain ⟨e1, e2, e3⟩ := setupPtp_val h0 h
    have e : s' = ⟨ptpMem pool t i s, s.used + 1⟩ := by
      cases s'; dsimp only at e1 e2; rw [e1, e2]
    subst e
    have hus := inv.used
    refine ⟨ptp_inv inv hp ht h0 hpool e3, ptp_walk inv hp ht h0 hpool e3, ?_, ?_, Nat.le_succ _⟩
    · intro q u hq hqu
      dsimp only
      rw [ptp_tbl inv hp ht h0 hpool q hq, if_neg, hqu]
      intro hc
      rw [hc, tbl_cons ht, h0, allows_zero] at hqu
      cases hqu
    · dsimp only
      have hun : t ≠ pool + s.used := by
        intro h
        exact inv.free p t hp.tail.1 ht (by omega)
      have h2 : ptpMem pool t i s t i = setupEntry 0 ((pool + s.used) * 4096) := by
        simp only [ptpMem, if_neg hun, and_self, if_true]
      rw [h2, setup_zero]
      omega
  · rw [if_neg h0] at h
    cases h
    exact ⟨inv, fun _ => rfl, fun _ _ _ h => h, h0, Nat.le_refl _⟩

theorem ensure_next {pool root t i : Nat} {s : PgSt} {p : List Nat} (inv : PgInv pool root s) (hp : PathOK (i :: p))
    (ht : tbl s.m root p = some t) (hne : s.m t i ≠ 0) (hL : isLarge (s.m t i) = false) :
    tbl s.m root (i :: p) = some (getPfn (s.m t i)) := by
  obtain ⟨hp', hi, _⟩ := hp.tail
  obtain ⟨h1, h2, _⟩ := inv.ent p t i hp' ht hi hne
  rw [tbl_cons ht, h1, hL]
  have : pfn (s.m t i) = getPfn (s.m t i) := by
    unfold pfn getPfn
    omega
  rw [this]; rfl

/-! ## A leaf -/

section leaf
variable {pool root t i v : Nat} {s : PgSt} {p : List Nat}

theorem leaf_tbl (inv : PgInv pool root s) (hp : PathOK p) (hlen : p.length = 3) (ht : tbl s.m root p = some t)
    (q : List Nat) (hq : PathOK q) : tbl (s.m.set t i v) root q = tbl s.m root q := by
  induction q with
  | nil => rfl
  | cons j q ih =>
    obtain ⟨hq', hj, hl⟩ := hq.tail
    have ih := ih hq'
    cases hqt : tbl s.m root q with
    | none => rw [hqt] at ih; rw [tbl_cons_none ih, tbl_cons_none hqt]
    | some u =>
      rw [hqt] at ih
      rw [tbl_cons ih, tbl_cons hqt]
      have : s.m.set t i v u j = s.m u j := by
        unfold PMem.set
        rw [if_neg]
        rintro ⟨rfl, _⟩
        have := inv.inj q p u hq' hp hqt ht
        rw [this] at hl; omega
      rw [this]

theorem leaf_inv (inv : PgInv pool root s) (hp : PathOK p) (hlen : p.length = 3) (ht : tbl s.m root p = some t)
    (hv : allows v = true) (hv' : v < 2 ^ 52) : PgInv pool root ⟨s.m.set t i v, s.used⟩ := by
  have hT := leaf_tbl (i := i) (v := v) inv hp hlen ht
  refine ⟨?_, ?_, ?_, inv.used⟩
  · intro a b u ha hb h1 h2
    dsimp only at h1 h2
    rw [hT a ha] at h1
    rw [hT b hb] at h2
    exact inv.inj a b u ha hb h1 h2
  · intro a u ha h1
    dsimp only at h1 ⊢
    rw [hT a ha] at h1
    exact inv.free a u ha h1
  · intro a u j ha h1 hj hne
    dsimp only at h1 hne ⊢
    rw [hT a ha] at h1
    by_cases hc : u = t ∧ j = i
    · obtain ⟨rfl, rfl⟩ := hc
      have e : s.m.set u j v u j = v := by simp only [PMem.set, and_self, if_true]
      rw [e]
      refine ⟨hv, hv', ?_⟩
      intro hl
      have := inv.inj a p u ha hp h1 ht
      rw [this] at hl; omega
    · have e : s.m.set t i v u j = s.m u j := by simp only [PMem.set, if_neg hc]
      rw [e] at hne ⊢
      exact inv.ent a u j ha h1 hj hne

end leaf

theorem leaf_entry {pa : Nat} (h : pa < 2 ^ 52) :
    allows (setupEntry 0 pa) = true ∧ setupEntry 0 pa < 2 ^ 52 ∧ pfn (setupEntry 0 pa) = pa / 4096 := by
  rw [setup_zero]
  unfold allows pfn
  refine ⟨?_, ?_, ?_⟩
  · rw [decide_eq_true_eq]; omega
  · omega
  · omega

theorem same_page {va vb : Nat} (ha : Canon va) (hb : Canon vb) :
    va / 4096 = vb / 4096 ↔
    va / 2 ^ 39 % 512 = vb / 2 ^ 39 % 512 ∧ va / 2 ^ 30 % 512 = vb / 2 ^ 30 % 512 ∧
    va / 2 ^ 21 % 512 = vb / 2 ^ 21 % 512 ∧ va / 2 ^ 12 % 512 = vb / 2 ^ 12 % 512 := by
  unfold Canon at ha hb
  omega

/-- The translation after a page was entered in its table. -/
theorem leaf_walk {pool root l2 va pa : Nat} {s : PgSt} (inv : PgInv pool root s)
    (h2 : tbl s.m root [va / 2 ^ 30 % 512, va / 2 ^ 39 % 512] = some l2)
    (hne : s.m l2 (va / 2 ^ 21 % 512) ≠ 0) (hL : isLarge (s.m l2 (va / 2 ^ 21 % 512)) = false)
    (h0 : s.m (getPfn (s.m l2 (va / 2 ^ 21 % 512))) (va / 2 ^ 12 % 512) = 0)
    (hva : Canon va) (hpa : pa < 2 ^ 52) :
    let s' : PgSt := ⟨s.m.set (getPfn (s.m l2 (va / 2 ^ 21 % 512))) (va / 2 ^ 12 % 512) (setupEntry 0 pa), s.used⟩
    PgInv pool root s' ∧
    ∀ vb, Canon vb → walk s'.m root vb =
      if vb / 4096 = va / 4096 ∧ walk s.m root vb = none then some (pa / 4096 * 4096 + vb % 4096)
      else walk s.m root vb := by
  have i4 : va / 2 ^ 39 % 512 < 512 := Nat.mod_lt _ (by decide)
  have i3 : va / 2 ^ 30 % 512 < 512 := Nat.mod_lt _ (by decide)
  have i2 : va / 2 ^ 21 % 512 < 512 := Nat.mod_lt _ (by decide)
  have hsp := fun vb (h : Canon vb) => same_page h hva
  generalize va / 2 ^ 39 % 512 = x4 at *
  generalize va / 2 ^ 30 % 512 = x3 at *
  generalize va / 2 ^ 21 % 512 = x2 at *
  generalize va / 2 ^ 12 % 512 = x1 at *
  have ok3 : PathOK [x2, x3, x4] := ⟨by simp, by simp [i4, i3, i2]⟩
  have h3 := ensure_next inv ok3 h2 hne hL
  obtain ⟨e1, e2, e3⟩ := leaf_entry hpa
  generalize setupEntry 0 pa = v at *
  generalize hl1 : getPfn (s.m l2 x2) = l1 at *
  intro s'
  have inv' : PgInv pool root s' := leaf_inv inv ok3 rfl h3 e1 e2
  refine ⟨inv', ?_⟩
  intro vb hvb
  have hsp := hsp vb hvb
  rw [walk_tree inv vb, walk_tree inv' vb]
  have j4 : vb / 2 ^ 39 % 512 < 512 := Nat.mod_lt _ (by decide)
  have j3 : vb / 2 ^ 30 % 512 < 512 := Nat.mod_lt _ (by decide)
  have j2 : vb / 2 ^ 21 % 512 < 512 := Nat.mod_lt _ (by decide)
  generalize vb / 2 ^ 39 % 512 = y4 at *
  generalize vb / 2 ^ 30 % 512 = y3 at *
  generalize vb / 2 ^ 21 % 512 = y2 at *
  generalize vb / 2 ^ 12 % 512 = y1 at *
  have k2 : PathOK [y3, y4] := ⟨by simp, by simp [j4, j3]⟩
  have k3 : PathOK [y2, y3, y4] := ⟨by simp, by simp [j4, j3, j2]⟩
  have hm : s'.m = s.m.set l1 x1 v := rfl
  clear_value s'
  rw [hm, leaf_tbl inv ok3 rfl h3 _ k2]
  cases hu : tbl s.m root [y3, y4] with
  | none =>
    have hn : ¬ (vb / 4096 = va / 4096) := by
      intro h
      obtain ⟨a, b, _, _⟩ := hsp.mp h
      rw [a, b, h2] at hu
      cases hu
    rw [if_neg (fun h => hn h.1)]
    rfl
  | some u =>
    have hu1 : u ≠ l1 := by
      intro h
      rw [h] at hu
      have := congrArg List.length (inv.inj _ _ _ k2 ok3 hu h3)
      simp at this
    have hset : s.m.set l1 x1 v u y2 = s.m u y2 := by
      unfold PMem.set
      rw [if_neg (fun h => hu1 h.1)]
    by_cases hs : vb / 4096 = va / 4096
    · obtain ⟨a, b, c, d⟩ := hsp.mp hs
      subst a b c d
      rw [h2] at hu
      injection hu with hu
      subst hu
      have hA : allows (s.m l2 y2) = true := (inv.ent _ _ _ k2 h2 j2 hne).1
      have hP : pfn (s.m l2 y2) = l1 := by
        have := h3
        rw [tbl_cons h2, hA, hL] at this
        injection this
      have hv : s.m.set l1 y1 v l1 y1 = v := by simp only [PMem.set, and_self, if_true]
      have hold : treeWalk s.m (some l2) y2 y1 vb = none := by
        simp only [treeWalk]
        rw [hA, hL, hP, h0, allows_zero]
        rfl
      have hnew : treeWalk (s.m.set l1 y1 v) (some l2) y2 y1 vb = some (pa / 4096 * 4096 + vb % 4096) := by
        simp only [treeWalk]
        rw [hset, hA, hL, hP, hv, e1, e3]
        rfl
      rw [hold, hnew, if_pos ⟨hs, rfl⟩]
    · rw [if_neg (fun h => hs h.1)]
      simp only [treeWalk]
      rw [hset]
      by_cases hA : allows (s.m u y2) = false
      · rw [if_pos hA, if_pos hA]
      · rw [if_neg hA, if_neg hA]
        cases hB : isLarge (s.m u y2) with
        | true => rfl
        | false =>
          have hu3 : tbl s.m root [y2, y3, y4] = some (pfn (s.m u y2)) := by
            rw [tbl_cons hu, hB, (Bool.not_eq_false _).mp hA]; rfl
          have : s.m.set l1 x1 v (pfn (s.m u y2)) y1 = s.m (pfn (s.m u y2)) y1 := by
            unfold PMem.set
            rw [if_neg]
            rintro ⟨a, b⟩
            rw [a] at hu3
            have := inv.inj _ _ _ k3 ok3 hu3 h3
            injection this with c this
            injection this with d this
            injection this with e _
            exact hs (hsp.mpr ⟨e, d, c, b⟩)
          rw [this]

theorem vaIdx4 (va : Nat) : vaIdx va 4 = va / 2 ^ 39 % 512 := vaIdx_val va 4
theorem vaIdx3 (va : Nat) : vaIdx va 3 = va / 2 ^ 30 % 512 := vaIdx_val va 3
theorem vaIdx2 (va : Nat) : vaIdx va 2 = va / 2 ^ 21 % 512 := vaIdx_val va 2
theorem vaIdx1 (va : Nat) : vaIdx va 1 = va / 2 ^ 12 % 512 := vaIdx_val va 1

/-- C51: mapping a page translates all its addresses to the physical page if they were not translated before;
all other translations are kept. -/
theorem mapPage_ok {pool root va pa : Nat} {s s' : PgSt} (inv : PgInv pool root s) (hpool : pool + 512 ≤ 2 ^ 40)
    (hva : Canon va) (hpa : pa < 2 ^ 52) (h : mapPage pool root va pa s = some s') :
    PgInv pool root s' ∧
    ∀ vb, Canon vb → walk s'.m root vb =
      if vb / 4096 = va / 4096 ∧ walk s.m root vb = none then some (pa / 4096 * 4096 + vb % 4096)
      else walk s.m root vb := by
  have i4 : va / 2 ^ 39 % 512 < 512 := Nat.mod_lt _ (by decide)
  have i3 : va / 2 ^ 30 % 512 < 512 := Nat.mod_lt _ (by decide)
  have i2 : va / 2 ^ 21 % 512 < 512 := Nat.mod_lt _ (by decide)
  have i1 : va / 2 ^ 12 % 512 < 512 := Nat.mod_lt _ (by decide)
  have ok0 : PathOK [] := ⟨by simp, by simp⟩
  have ok1 : PathOK [va / 2 ^ 39 % 512] := ⟨by simp, by simp [i4]⟩
  have ok2 : PathOK [va / 2 ^ 30 % 512, va / 2 ^ 39 % 512] := ⟨by simp, by simp [i4, i3]⟩
  have ok3 : PathOK [va / 2 ^ 21 % 512, va / 2 ^ 30 % 512, va / 2 ^ 39 % 512] := ⟨by simp, by simp [i4, i3, i2]⟩
  unfold mapPage at h
  rw [vaIdx4] at h
  cases h1 : ensurePtp pool root (va / 2 ^ 39 % 512) s with
  | none => rw [h1] at h; cases h
  | some s1 =>
    rw [h1] at h
    simp only [Option.bind_some] at h
    rw [vaIdx3] at h
    obtain ⟨inv1, w1, _, n1, _⟩ := ensure_ok inv ok1 rfl hpool h1
    have L1 := (inv1.ent _ _ _ ok0 rfl i4 n1).2.2 (by simp)
    have t1 := ensure_next inv1 ok1 rfl n1 L1
    generalize getPfn (s1.m root (va / 2 ^ 39 % 512)) = l3 at *
    cases h2 : ensurePtp pool l3 (va / 2 ^ 30 % 512) s1 with
    | none => rw [h2] at h; cases h
    | some s2 =>
      rw [h2] at h
      simp only [Option.bind_some] at h
      rw [vaIdx2] at h
      obtain ⟨inv2, w2, k2, n2, _⟩ := ensure_ok inv1 ok2 t1 hpool h2
      have t1' := k2 _ _ ok1 t1
      have L2 := (inv2.ent _ _ _ ok1 t1' i3 n2).2.2 (by simp)
      have t2 := ensure_next inv2 ok2 t1' n2 L2
      generalize getPfn (s2.m l3 (va / 2 ^ 30 % 512)) = l2 at *
      cases h3 : ensurePtp pool l2 (va / 2 ^ 21 % 512) s2 with
      | none => rw [h3] at h; cases h
      | some s3 =>
        rw [h3] at h
        simp only [Option.bind_some] at h
        rw [vaIdx1] at h
        obtain ⟨inv3, w3, k3, n3, _⟩ := ensure_ok inv2 ok3 t2 hpool h3
        have t2' := k3 _ _ ok2 t2
        have w : ∀ v, walk s3.m root v = walk s.m root v := fun v => by rw [w3, w2, w1]
        have A3 := (inv3.ent _ _ _ ok2 t2' i2 n3).1
        cases hB : isLarge (s3.m l2 (va / 2 ^ 21 % 512)) with
        | true =>
          rw [hB, if_pos rfl] at h
          cases h
          refine ⟨inv3, ?_⟩
          intro vb hvb
          rw [w, if_neg]
          rintro ⟨hs, hn⟩
          obtain ⟨a, b, c, d⟩ := (same_page hvb hva).mp hs
          rw [← w, walk_tree inv3, a, b, t2', c] at hn
          simp only [treeWalk, A3, hB] at hn
          simp at hn
        | false =>
          rw [hB, if_neg (by simp)] at h
          by_cases h0 : s3.m (getPfn (s3.m l2 (va / 2 ^ 21 % 512))) (va / 2 ^ 12 % 512) = 0
          · rw [if_neg (fun hc => hc h0), h0] at h
            have hw := leaf_walk inv3 t2' n3 hB h0 hva hpa
            cases h
            refine ⟨hw.1, ?_⟩
            intro vb hvb
            have := hw.2 vb hvb
            rw [w vb] at this
            exact this
          · rw [if_pos h0] at h
            cases h
            refine ⟨inv3, ?_⟩
            intro vb hvb
            rw [w, if_neg]
            rintro ⟨hs, hn⟩
            obtain ⟨a, b, c, d⟩ := (same_page hvb hva).mp hs
            have t3 := ensure_next inv3 ok3 t2' n3 hB
            have A1 := (inv3.ent _ _ _ ok3 t3 i1 h0).1
            have hP : pfn (s'.m l2 (va / 2 ^ 21 % 512)) = getPfn (s'.m l2 (va / 2 ^ 21 % 512)) := by
              have := t3
              rw [tbl_cons t2', A3, hB] at this
              injection this
            rw [← w, walk_tree inv3, a, b, t2', c, d] at hn
            simp only [treeWalk, A3, hB, hP, A1] at hn
            simp at hn

/-! ## Mapping memory -/

/-- A region inside one half of the address space that does not touch the last page. -/
def InHalf (va size : Nat) : Prop := va + size ≤ 2 ^ 47 ∨ (2 ^ 64 - 2 ^ 47 ≤ va ∧ va + size ≤ 2 ^ 64 - 4096)

theorem mapLoop_ok {pool root : Nat} (hpool : pool + 512 ≤ 2 ^ 40) {end_ : Nat} (hend : end_ ≤ 2 ^ 64 - 4096) (n : Nat) :
    ∀ page pa s s', end_ ≤ 2 ^ 47 ∨ 2 ^ 64 - 2 ^ 47 ≤ page → page % 4096 = 0 → pa % 4096 = 0 →
    pa + (end_ - page) ≤ 2 ^ 52 → PgInv pool root s → mapLoop pool root n page pa end_ s = .ok s' →
    PgInv pool root s' ∧
    ∀ vb, Canon vb → walk s'.m root vb =
      if page ≤ vb ∧ vb / 4096 * 4096 < end_ ∧ walk s.m root vb = none then some (pa + (vb - page))
      else walk s.m root vb := by
  induction n with
  | zero => intro page pa s s' _ _ _ _ _ h; cases h
  | succ n ih =>
    intro page pa s s' hhalf hpg hpa hfit inv h
    by_cases hlt : page < end_
    · simp only [mapLoop, if_pos hlt] at h
      have hc : Canon page := by unfold Canon; omega
      cases h1 : mapPage pool root page pa s with
      | none => rw [h1] at h; cases h
      | some s1 =>
        rw [h1, Nat.mod_eq_of_lt (by omega), Nat.mod_eq_of_lt (by omega)] at h
        dsimp only at h
        obtain ⟨inv1, w1⟩ := mapPage_ok inv hpool hc (by omega) h1
        obtain ⟨inv2, w2⟩ := ih (page + 4096) (pa + 4096) s1 s' (by omega) (by omega) (by omega) (by omega) inv1 h
        refine ⟨inv2, ?_⟩
        intro vb hvb
        have w1 := w1 vb hvb
        rw [w2 vb hvb]
        by_cases hn : walk s.m root vb = none
        · by_cases hs : vb / 4096 = page / 4096
          · rw [if_pos ⟨hs, hn⟩] at w1
            rw [w1, if_neg (fun h => by cases h.2.2), if_pos ⟨by omega, by omega, hn⟩]
            exact congrArg some (by omega)
          · rw [if_neg (fun h => hs h.1)] at w1
            rw [w1]
            by_cases hr : page + 4096 ≤ vb ∧ vb / 4096 * 4096 < end_
            · rw [if_pos ⟨hr.1, hr.2, hn⟩, if_pos ⟨by omega, by omega, hn⟩]
              exact congrArg some (by omega)
            · rw [if_neg (fun h => hr ⟨h.1, h.2.1⟩), if_neg]
              rintro ⟨a, b, _⟩
              omega
        · rw [if_neg (fun h => hn h.2)] at w1
          rw [w1, if_neg (fun h => hn h.2.2), if_neg (fun h => hn h.2.2)]
    · simp only [mapLoop, if_neg hlt] at h
      cases h
      refine ⟨inv, ?_⟩
      intro vb hvb
      rw [if_neg]
      rintro ⟨a, b, _⟩
      omega

/-- C51: `x86_paging_map_memory`. Every address of the pages that the region touches is translated to the
physical pages in order, unless it was translated before; all other translations are kept. -/
theorem mapMemory_ok {fuel pool root va pa size : Nat} {s s' : PgSt} (inv : PgInv pool root s)
    (hpool : pool + 512 ≤ 2 ^ 40) (hva : InHalf va size) (hpa : pa + size + 4096 ≤ 2 ^ 52)
    (h : mapMemory fuel pool root va pa size s = .ok s') :
    PgInv pool root s' ∧
    ∀ vb, Canon vb → walk s'.m root vb =
      if va / 4096 * 4096 ≤ vb ∧ vb / 4096 * 4096 < va + size ∧ walk s.m root vb = none then
        some (pa / 4096 * 4096 + (vb - va / 4096 * 4096))
      else walk s.m root vb := by
  unfold InHalf at hva
  unfold mapMemory at h
  by_cases h0 : pa / 4096 * 4096 = 0
  · rw [if_pos h0] at h; cases h
  · rw [if_neg h0, Nat.mod_eq_of_lt (by omega)] at h
    exact mapLoop_ok hpool (by omega) _ _ _ _ _ (by omega) (by omega) (by omega) (by omega) inv h

/-- C51: a region that was not mapped and has the same offset in its pages as the physical region is mapped
byte for byte. Missing: regions that fail these conditions, where the code returns success all the same
(`mapMemory_silent`, `mapMemory_misaligned`, `mapMemory_wrap`). -/
theorem mapMemory_exact_partial {fuel pool root va pa size : Nat} {s s' : PgSt} (inv : PgInv pool root s)
    (hpool : pool + 512 ≤ 2 ^ 40) (hva : InHalf va size) (hpa : pa + size + 4096 ≤ 2 ^ 52)
    (halign : va % 4096 = pa % 4096) (hfree : ∀ x, x < size → walk s.m root (va + x) = none)
    (h : mapMemory fuel pool root va pa size s = .ok s') :
    ∀ x, x < size → walk s'.m root (va + x) = some (pa + x) := by
  intro x hx
  have hc : Canon (va + x) := by unfold InHalf at hva; unfold Canon; omega
  rw [(mapMemory_ok inv hpool hva hpa h).2 (va + x) hc, if_pos ⟨by omega, by omega, hfree x hx⟩]
  congr 1
  omega

/-- C51: what was translated stays so, whatever is mapped. -/
theorem mapMemory_kept {fuel pool root va pa size vb q : Nat} {s s' : PgSt} (inv : PgInv pool root s)
    (hpool : pool + 512 ≤ 2 ^ 40) (hva : InHalf va size) (hpa : pa + size + 4096 ≤ 2 ^ 52)
    (hvb : Canon vb) (hq : walk s.m root vb = some q) (h : mapMemory fuel pool root va pa size s = .ok s') :
    walk s'.m root vb = some q := by
  rw [(mapMemory_ok inv hpool hva hpa h).2 vb hvb, if_neg, hq]
  rintro ⟨_, _, hn⟩
  rw [hq] at hn; cases hn

/-- C51: no address outside the pages of the region becomes accessible. -/
theorem mapMemory_outside {fuel pool root va pa size vb : Nat} {s s' : PgSt} (inv : PgInv pool root s)
    (hpool : pool + 512 ≤ 2 ^ 40) (hva : InHalf va size) (hpa : pa + size + 4096 ≤ 2 ^ 52)
    (hvb : Canon vb) (hout : vb / 4096 < va / 4096 ∨ va + size ≤ vb / 4096 * 4096)
    (h : mapMemory fuel pool root va pa size s = .ok s') : walk s'.m root vb = walk s.m root vb := by
  rw [(mapMemory_ok inv hpool hva hpa h).2 vb hvb, if_neg]
  rintro ⟨a, b, _⟩
  omega

/-- Finding: a region that is already mapped elsewhere is reported as mapped. -/
theorem mapMemory_silent {fuel pool root va pa size x q : Nat} {s s' : PgSt} (inv : PgInv pool root s)
    (hpool : pool + 512 ≤ 2 ^ 40) (hva : InHalf va size) (hpa : pa + size + 4096 ≤ 2 ^ 52)
    (hx : x < size) (hq : walk s.m root (va + x) = some q) (hne : q ≠ pa + x)
    (h : mapMemory fuel pool root va pa size s = .ok s') : walk s'.m root (va + x) ≠ some (pa + x) := by
  have hc : Canon (va + x) := by unfold InHalf at hva; unfold Canon; omega
  rw [mapMemory_kept inv hpool hva hpa hc hq h]
  intro h
  injection h with h
  exact hne h

/-- Finding: with different offsets in the page no byte of a new mapping is at its place. -/
theorem mapMemory_misaligned {fuel pool root va pa size x : Nat} {s s' : PgSt} (inv : PgInv pool root s)
    (hpool : pool + 512 ≤ 2 ^ 40) (hva : InHalf va size) (hpa : pa + size + 4096 ≤ 2 ^ 52)
    (halign : va % 4096 ≠ pa % 4096) (hx : x < size) (hfree : walk s.m root (va + x) = none)
    (h : mapMemory fuel pool root va pa size s = .ok s') : walk s'.m root (va + x) ≠ some (pa + x) := by
  have hc : Canon (va + x) := by unfold InHalf at hva; unfold Canon; omega
  rw [(mapMemory_ok inv hpool hva hpa h).2 (va + x) hc, if_pos ⟨by omega, by omega, hfree⟩]
  intro h
  injection h with h
  omega

/-- Finding: a region over the end of the address space is reported as mapped and nothing is done. -/
theorem mapMemory_wrap {fuel pool root va pa size : Nat} {s : PgSt} (h0 : 4096 ≤ pa) (hva : va < 2 ^ 64)
    (hsize : size < 2 ^ 32) (hw : 2 ^ 64 ≤ va + size) : mapMemory (fuel + 1) pool root va pa size s = .ok s := by
  unfold mapMemory
  have e : (va + size) % 2 ^ 64 = va + size - 2 ^ 64 := by omega
  rw [if_neg (by omega), e]
  simp only [mapLoop]
  rw [if_neg (by omega)]

/-- Finding: a region that ends inside the last page of the address space is mapped for ever: the page counter
wraps to 0 and goes on through all pages. -/
theorem mapMemory_endless {fuel pool root va pa size : Nat} {s : PgSt}
    (h1 : 2 ^ 64 - 4096 < va + size) (h2 : va + size < 2 ^ 64) :
    ∀ s', mapMemory fuel pool root va pa size s ≠ .ok s' := by
  have key : ∀ n page pa s s', page % 4096 = 0 → page < 2 ^ 64 →
      mapLoop pool root n page pa (va + size) s ≠ .ok s' := by
    intro n
    induction n with
    | zero => intro page pa s s' _ _ h; cases h
    | succ n ih =>
      intro page pa s s' hp hl h
      have hlt : page < va + size := by omega
      simp only [mapLoop, if_pos hlt] at h
      cases hm : mapPage pool root page pa s with
      | none => rw [hm] at h; cases h
      | some s1 =>
        rw [hm] at h
        exact ih _ _ s1 s' (by omega) (Nat.mod_lt _ (by decide)) h
  intro s'
  unfold mapMemory
  by_cases h0 : pa / 4096 * 4096 = 0
  · rw [if_pos h0]; intro h; cases h
  · rw [if_neg h0, Nat.mod_eq_of_lt h2]
    exact key _ _ _ _ _ (by omega) (by omega)

/-! ## Enough pages -/

theorem ensure_some {pool page idx : Nat} {s : PgSt} (h : s.used < 511) :
    ∃ s', ensurePtp pool page idx s = some s' ∧ s'.used ≤ s.used + 1 := by
  unfold ensurePtp
  by_cases h0 : s.m page idx = 0
  · rw [if_pos h0]
    unfold setupPtp
    rw [if_neg (by omega)]
    exact ⟨_, rfl, Nat.le_refl _⟩
  · rw [if_neg h0]
    exact ⟨s, rfl, Nat.le_succ _⟩

theorem mapPage_some {pool root va pa : Nat} {s : PgSt} (h : s.used + 3 ≤ 511) :
    ∃ s', mapPage pool root va pa s = some s' ∧ s'.used ≤ s.used + 3 := by
  unfold mapPage
  obtain ⟨s1, h1, u1⟩ := ensure_some (pool := pool) (page := root) (idx := vaIdx va 4) (s := s) (by omega)
  rw [h1]
  simp only [Option.bind_some]
  generalize getPfn (s1.m root (vaIdx va 4)) = l3
  obtain ⟨s2, h2, u2⟩ := ensure_some (pool := pool) (page := l3) (idx := vaIdx va 3) (s := s1) (by omega)
  rw [h2]
  simp only [Option.bind_some]
  generalize getPfn (s2.m l3 (vaIdx va 3)) = l2
  obtain ⟨s3, h3, u3⟩ := ensure_some (pool := pool) (page := l2) (idx := vaIdx va 2) (s := s2) (by omega)
  rw [h3]
  simp only [Option.bind_some]
  split
  · exact ⟨_, rfl, by omega⟩
  · split
    · exact ⟨_, rfl, by omega⟩
    · exact ⟨_, rfl, by dsimp only; omega⟩

theorem mapLoop_some {pool root end_ : Nat} (hend : end_ ≤ 2 ^ 64 - 4096) (k : Nat) :
    ∀ page pa s, (end_ - page + 4095) / 4096 = k → s.used + 3 * k ≤ 511 →
    ∃ s', mapLoop pool root (k + 1) page pa end_ s = .ok s' := by
  induction k with
  | zero =>
    intro page pa s hk hu
    simp only [mapLoop]
    rw [if_neg (by omega)]
    exact ⟨s, rfl⟩
  | succ k ih =>
    intro page pa s hk hu
    rw [mapLoop, if_pos (by omega)]
    obtain ⟨s1, h1, u1⟩ := mapPage_some (pool := pool) (root := root) (va := page) (pa := pa) (s := s) (by omega)
    rw [h1, Nat.mod_eq_of_lt (a := page + 4096) (by omega)]
    exact ih _ _ _ (by omega) (by omega)

/-- C51: the loop ends and there is no panic while three pages of the pool are left for every page of the region. -/
theorem mapMemory_some {pool root va pa size : Nat} {s : PgSt} (hpa : 4096 ≤ pa) (hva : va + size ≤ 2 ^ 64 - 4096)
    (hu : s.used + 3 * ((va % 4096 + size + 4095) / 4096) ≤ 511) :
    ∃ fuel s', mapMemory fuel pool root va pa size s = .ok s' := by
  have e : va + size - va / 4096 * 4096 = va % 4096 + size := by omega
  obtain ⟨s', h⟩ := mapLoop_some (pool := pool) (root := root) (end_ := va + size) hva _ (va / 4096 * 4096)
    (pa / 4096 * 4096) s rfl (by rw [e]; exact hu)
  refine ⟨(va + size - va / 4096 * 4096 + 4095) / 4096 + 1, s', ?_⟩
  unfold mapMemory
  rw [if_neg (by omega), Nat.mod_eq_of_lt (by omega)]
  exact h

/-- Finding: the last page of the pool is never used. -/
theorem pool_last (pool page idx : Nat) (m : PMem) : setupPtp pool page idx ⟨m, 511⟩ = none := by
  unfold setupPtp
  exact if_pos rfl

/-! ## The identity mapping -/

theorem fill_val {g : Nat → Nat → Nat} {page n : Nat} (k : Nat) :
    ∀ i m, n - i = k → ∀ p j, j < 512 → fillLoop g page n i m p j =
      if page ≤ p ∧ i ≤ (p - page) * 512 + j ∧ (p - page) * 512 + j < n then g ((p - page) * 512 + j) (m p j)
      else m p j := by
  induction k with
  | zero =>
    intro i m hk p j hj
    rw [fillLoop, if_neg (by omega), if_neg (by omega)]
  | succ k ih =>
    intro i m hk p j hj
    rw [fillLoop, if_pos (by omega), ih (i + 1) _ (by omega) p j hj]
    by_cases hc : p = page + i / 512 ∧ j = i % 512
    · obtain ⟨h1, h2⟩ := hc
      have e : (p - page) * 512 + j = i := by omega
      rw [e, if_neg (by omega), if_pos (by omega)]
      simp only [PMem.set, h1, h2, and_self, if_true]
    · have e : ∀ v, m.set (page + i / 512) (i % 512) v p j = m p j := by
        intro v
        simp only [PMem.set, if_neg hc]
      rw [e]
      by_cases h1 : page ≤ p ∧ i ≤ (p - page) * 512 + j ∧ (p - page) * 512 + j < n
      · rw [if_pos h1, if_pos (by omega)]
      · rw [if_neg h1, if_neg (by omega)]

/-- The entries written by `buildIdentity` to zeroed tables. -/
def idMem (top pt : Nat) (m : PMem) : PMem := fun p j =>
  if p = pt ∧ j = 0 then (pt + 1) * 4096 + 3
  else if p = pt + 1 ∧ j ≤ top / 2 ^ 30 then (pt + 2 + j) * 4096 + 3
  else if pt + 2 ≤ p ∧ (p - pt - 2) * 512 + j ≤ top / 2 ^ 21 then
    ((p - pt - 2) * 512 + j) * 2 ^ 21 % 2 ^ 32 + 131
  else m p j

theorem buildIdentity_val {top pt : Nat} {m : PMem} (htop : top < 5 * 2 ^ 30)
    (hz : ∀ p j, pt ≤ p → p < pt + 7 → m p j = 0) :
    ∃ m', buildIdentity top pt m = some m' ∧ ∀ p j, j < 512 → m' p j = idMem top pt m p j := by
  unfold buildIdentity
  have e4 : neededEntries top 4 = 1 := by rw [needed_val]; simp only [Nat.reduceMul, Nat.reduceAdd]; omega
  have e3 : neededEntries top 3 = top / 2 ^ 30 + 1 := by
    rw [needed_val]; simp only [Nat.reduceMul, Nat.reduceAdd]; omega
  have e2 : neededEntries top 2 = top / 2 ^ 21 + 1 := by
    rw [needed_val]; simp only [Nat.reduceMul, Nat.reduceAdd]; omega
  rw [e4, e3, e2]
  have hn3 : top / 2 ^ 30 ≤ 4 := by omega
  have hn2 : top / 2 ^ 21 < 2560 := by omega
  rw [if_neg (by omega)]
  refine ⟨_, rfl, ?_⟩
  intro p j hj
  rw [fill_val _ 0 _ rfl p j hj, fill_val _ 0 _ rfl p j hj, fill_val _ 0 _ rfl p j hj]
  unfold idMem
  generalize top / 2 ^ 30 = a at *
  generalize top / 2 ^ 21 = b at *
  by_cases c1 : p = pt
  · subst c1
    rw [if_neg (by omega), if_neg (by omega)]
    by_cases c2 : j = 0
    · subst c2
      rw [if_pos (by omega), if_pos ⟨rfl, rfl⟩, hz p 0 (by omega) (by omega), setup_zero]
      omega
    · rw [if_neg (by omega), if_neg (fun h => c2 h.2), if_neg (by omega), if_neg (by omega)]
  · rw [if_neg (c := p = pt ∧ j = 0) (fun h => c1 h.1)]
    by_cases c2 : p = pt + 1
    · subst c2
      rw [if_neg (by omega)]
      rw [if_neg (c := pt ≤ pt + 1 ∧ _) (by omega)]
      by_cases c3 : j ≤ a
      · rw [if_pos (by omega), if_pos ⟨rfl, c3⟩, hz _ j (by omega) (by omega), setup_zero]
        omega
      · rw [if_neg (by omega), if_neg (fun h => c3 h.2), if_neg (by omega)]
    · rw [if_neg (c := p = pt + 1 ∧ _) (fun h => c2 h.1)]
      rw [if_neg (c := pt ≤ p ∧ _) (by omega)]
      rw [if_neg (c := pt + 1 ≤ p ∧ _) (by omega)]
      have e : p - (pt + 1 + 1) = p - pt - 2 := by omega
      rw [e]
      by_cases c3 : pt + 2 ≤ p ∧ (p - pt - 2) * 512 + j ≤ b
      · rw [if_pos c3, if_pos (by omega), hz _ j (by omega) (by omega), ps_setup_zero]
        omega
      · rw [if_neg c3, if_neg (by omega)]

theorem large_entry {k : Nat} :
    allows (k * 2 ^ 21 % 2 ^ 32 + 131) = true ∧ isLarge (k * 2 ^ 21 % 2 ^ 32 + 131) = true ∧
    pfn (k * 2 ^ 21 % 2 ^ 32 + 131) / 2 ^ 9 * 2 ^ 21 = k * 2 ^ 21 % 2 ^ 32 ∧ k * 2 ^ 21 % 2 ^ 32 + 131 < 2 ^ 52 := by
  unfold allows isLarge pfn
  refine ⟨?_, ?_, ?_, ?_⟩
  · rw [decide_eq_true_eq]; omega
  · rw [decide_eq_true_eq]; omega
  · omega
  · omega

theorem table_entry {n : Nat} (h : n < 2 ^ 40) :
    allows (n * 4096 + 3) = true ∧ isLarge (n * 4096 + 3) = false ∧ pfn (n * 4096 + 3) = n ∧
    n * 4096 + 3 < 2 ^ 52 := by
  have := ptp_entry h
  rw [setup_zero, Nat.mul_div_cancel _ (by omega)] at this
  exact this

section ident
variable {top pt : Nat} {m m' : PMem}

theorem id_l4 (hz : ∀ p j, pt ≤ p → p < pt + 7 → m p j = 0) (hm : ∀ p j, j < 512 → m' p j = idMem top pt m p j)
    {j : Nat} (hj : j < 512) : m' pt j = if j = 0 then (pt + 1) * 4096 + 3 else 0 := by
  rw [hm _ _ hj]
  unfold idMem
  by_cases h : j = 0
  · rw [if_pos ⟨rfl, h⟩, if_pos h]
  · rw [if_neg (fun c => h c.2), if_neg (by omega), if_neg (by omega), if_neg h, hz _ _ (by omega) (by omega)]

theorem id_l3 (hz : ∀ p j, pt ≤ p → p < pt + 7 → m p j = 0) (hm : ∀ p j, j < 512 → m' p j = idMem top pt m p j)
    {j : Nat} (hj : j < 512) : m' (pt + 1) j = if j ≤ top / 2 ^ 30 then (pt + 2 + j) * 4096 + 3 else 0 := by
  rw [hm _ _ hj]
  unfold idMem
  rw [if_neg (by omega)]
  by_cases h : j ≤ top / 2 ^ 30
  · rw [if_pos ⟨rfl, h⟩, if_pos h]
  · rw [if_neg (fun c => h c.2), if_neg (by omega), if_neg h, hz _ _ (by omega) (by omega)]

theorem id_l2 (hz : ∀ p j, pt ≤ p → p < pt + 7 → m p j = 0) (hm : ∀ p j, j < 512 → m' p j = idMem top pt m p j)
    {i j : Nat} (hi : i < 5) (hj : j < 512) :
    m' (pt + 2 + i) j = if i * 512 + j ≤ top / 2 ^ 21 then (i * 512 + j) * 2 ^ 21 % 2 ^ 32 + 131 else 0 := by
  rw [hm _ _ hj]
  unfold idMem
  have e : pt + 2 + i - pt - 2 = i := by omega
  rw [if_neg (by omega), if_neg (by omega), e]
  by_cases h : i * 512 + j ≤ top / 2 ^ 21
  · rw [if_pos ⟨by omega, h⟩, if_pos h]
  · rw [if_neg (fun c => h c.2), if_neg h, hz _ _ (by omega) (by omega)]

theorem id_walk (hz : ∀ p j, pt ≤ p → p < pt + 7 → m p j = 0) (hm : ∀ p j, j < 512 → m' p j = idMem top pt m p j)
    (htop : top < 5 * 2 ^ 30) (hpt : pt + 7 ≤ 2 ^ 40) {va : Nat} (hva : Canon va) :
    walk m' pt va = if va / 2 ^ 21 ≤ top / 2 ^ 21 then some (va % 2 ^ 32) else none := by
  unfold Canon at hva
  unfold walk
  have i4 : va / 2 ^ 39 % 512 < 512 := Nat.mod_lt _ (by decide)
  have i3 : va / 2 ^ 30 % 512 < 512 := Nat.mod_lt _ (by decide)
  have i2 : va / 2 ^ 21 % 512 < 512 := Nat.mod_lt _ (by decide)
  dsimp only
  rw [id_l4 hz hm i4]
  by_cases c4 : va / 2 ^ 39 % 512 = 0
  · obtain ⟨a1, _, a3, _⟩ := table_entry (n := pt + 1) (by omega)
    rw [if_pos c4, a1, a3, id_l3 hz hm i3]
    by_cases c3 : va / 2 ^ 30 % 512 ≤ top / 2 ^ 30
    · obtain ⟨b1, b2, b3, _⟩ := table_entry (n := pt + 2 + va / 2 ^ 30 % 512) (by omega)
      rw [if_pos c3, b1, b2, b3, id_l2 hz hm (by omega) i2]
      have e : va / 2 ^ 30 % 512 * 512 + va / 2 ^ 21 % 512 = va / 2 ^ 21 := by omega
      rw [e]
      by_cases c2 : va / 2 ^ 21 ≤ top / 2 ^ 21
      · obtain ⟨d1, d2, d3, _⟩ := large_entry (k := va / 2 ^ 21)
        rw [if_pos c2, if_pos c2, d1, d2, d3]
        have e : va / 2 ^ 21 * 2 ^ 21 % 2 ^ 32 + va % 2 ^ 21 = va % 2 ^ 32 := by omega
        rw [e]
        rfl
      · rw [if_neg c2, if_neg c2, allows_zero]
        rfl
    · rw [if_neg c3, allows_zero, if_neg (c := va / 2 ^ 21 ≤ _) (by omega)]
      rfl
  · rw [if_neg c4, allows_zero, if_neg (c := va / 2 ^ 21 ≤ _) (by omega)]
    rfl

theorem id_tbl (hz : ∀ p j, pt ≤ p → p < pt + 7 → m p j = 0) (hm : ∀ p j, j < 512 → m' p j = idMem top pt m p j)
    (htop : top < 5 * 2 ^ 30) (hpt : pt + 7 ≤ 2 ^ 40) {p : List Nat} {t : Nat} (hp : PathOK p)
    (h : tbl m' pt p = some t) :
    (p = [] ∧ t = pt) ∨ (p = [0] ∧ t = pt + 1) ∨ (∃ j, j < 5 ∧ p = [j, 0] ∧ t = pt + 2 + j) := by
  induction p generalizing t with
  | nil => left; simp only [tbl] at h; cases h; exact ⟨rfl, rfl⟩
  | cons i q ih =>
    right
    obtain ⟨hq, hi, hlen⟩ := hp.tail
    cases hqt : tbl m' pt q with
    | none => rw [tbl_cons_none hqt] at h; cases h
    | some u =>
      rw [tbl_cons hqt] at h
      rcases ih hq hqt with ⟨rfl, rfl⟩ | ⟨rfl, rfl⟩ | ⟨j, hj, rfl, rfl⟩
      · left
        rw [id_l4 hz hm hi] at h
        by_cases c : i = 0
        · obtain ⟨a1, a2, a3, _⟩ := table_entry (n := u + 1) (by omega)
          rw [if_pos c, a1, a2, a3] at h
          cases h
          exact ⟨by rw [c], rfl⟩
        · rw [if_neg c, allows_zero] at h; cases h
      · right
        rw [id_l3 hz hm hi] at h
        by_cases c : i ≤ top / 2 ^ 30
        · obtain ⟨a1, a2, a3, _⟩ := table_entry (n := pt + 2 + i) (by omega)
          rw [if_pos c, a1, a2, a3] at h
          cases h
          exact ⟨i, by omega, rfl, rfl⟩
        · rw [if_neg c, allows_zero] at h; cases h
      · exfalso
        rw [id_l2 hz hm hj hi] at h
        by_cases c : j * 512 + i ≤ top / 2 ^ 21
        · obtain ⟨a1, a2, _, _⟩ := large_entry (k := j * 512 + i)
          rw [if_pos c, a1, a2] at h
          cases h
        · rw [if_neg c, allows_zero] at h; cases h

theorem id_inv (hz : ∀ p j, pt ≤ p → p < pt + 7 → m p j = 0) (hm : ∀ p j, j < 512 → m' p j = idMem top pt m p j)
    (htop : top < 5 * 2 ^ 30) (hpt : pt + 7 ≤ 2 ^ 40) {pool : Nat} (hd : pool + 512 ≤ pt ∨ pt + 7 ≤ pool) :
    PgInv pool pt ⟨m', 0⟩ := by
  have hT := fun p t hp => id_tbl (p := p) (t := t) hz hm htop hpt hp
  refine ⟨?_, ?_, ?_, by dsimp only; omega⟩
  · intro p q t hp hq h1 h2
    dsimp only at h1 h2
    rcases hT p t hp h1 with ⟨rfl, e1⟩ | ⟨rfl, e1⟩ | ⟨j, hj, rfl, e1⟩ <;>
      rcases hT q t hq h2 with ⟨rfl, e2⟩ | ⟨rfl, e2⟩ | ⟨j', hj', rfl, e2⟩ <;> first | rfl | (exfalso; omega) | skip
    have : j = j' := by omega
    rw [this]
  · intro p t hp h1
    dsimp only at h1 ⊢
    rcases hT p t hp h1 with ⟨rfl, e1⟩ | ⟨rfl, e1⟩ | ⟨j, hj, rfl, e1⟩ <;> omega
  · intro p t i hp h1 hi hne
    dsimp only at h1 hne ⊢
    rcases hT p t hp h1 with ⟨rfl, e1⟩ | ⟨rfl, e1⟩ | ⟨j, hj, rfl, e1⟩
    · subst e1
      rw [id_l4 hz hm hi] at hne ⊢
      by_cases c : i = 0
      · obtain ⟨a1, a2, a3, a4⟩ := table_entry (n := t + 1) (by omega)
        rw [if_pos c]
        exact ⟨a1, a4, fun _ => a2⟩
      · rw [if_neg c] at hne; exact absurd rfl hne
    · subst e1
      rw [id_l3 hz hm hi] at hne ⊢
      by_cases c : i ≤ top / 2 ^ 30
      · obtain ⟨a1, a2, a3, a4⟩ := table_entry (n := pt + 2 + i) (by omega)
        rw [if_pos c]
        exact ⟨a1, a4, fun _ => a2⟩
      · rw [if_neg c] at hne; exact absurd rfl hne
    · subst e1
      rw [id_l2 hz hm hj hi] at hne ⊢
      by_cases c : j * 512 + i ≤ top / 2 ^ 21
      · obtain ⟨a1, a2, _, a4⟩ := large_entry (k := j * 512 + i)
        rw [if_pos c]
        exact ⟨a1, a4, fun h => by simp at h⟩
      · rw [if_neg c] at hne; exact absurd rfl hne

end ident

/-- C51: the identity mapping of zeroed tables, for top addresses below 5 GiB: exactly the large pages up to the one
of `top` are mapped, to their address modulo 2^32; only the seven table pages are written. -/
theorem identity_ok {top pt pool : Nat} {m : PMem} (htop : top < 5 * 2 ^ 30) (hpt : pt + 7 ≤ 2 ^ 40)
    (hz : ∀ p j, pt ≤ p → p < pt + 7 → m p j = 0) (hd : pool + 512 ≤ pt ∨ pt + 7 ≤ pool) :
    ∃ m', buildIdentity top pt m = some m' ∧ PgInv pool pt ⟨m', 0⟩ ∧
      (∀ va, Canon va → walk m' pt va = if va / 2 ^ 21 ≤ top / 2 ^ 21 then some (va % 2 ^ 32) else none) ∧
      (∀ p j, j < 512 → p < pt ∨ pt + 7 ≤ p → m' p j = m p j) := by
  obtain ⟨m', h, hm⟩ := buildIdentity_val htop hz
  refine ⟨m', h, id_inv hz hm htop hpt hd, fun va hva => id_walk hz hm htop hpt hva, ?_⟩
  intro p j hj hp
  rw [hm p j hj]
  unfold idMem
  rw [if_neg (by omega), if_neg (by omega), if_neg (by omega)]

/-- C51: as stage 1 calls it, with 4 GiB: every address below 4 GiB is translated to itself.
Missing: that nothing else is translated (`identity_alias`). -/
theorem identity_4g_partial {pt : Nat} {m : PMem} (hpt : pt + 7 ≤ 2 ^ 40) (hz : ∀ p j, pt ≤ p → p < pt + 7 → m p j = 0) :
    ∃ m', buildIdentity (4 * 2 ^ 30) pt m = some m' ∧ ∀ va, va < 4 * 2 ^ 30 → walk m' pt va = some va := by
  obtain ⟨m', h, _, hw, _⟩ := identity_ok (pool := pt + 7) (top := 4 * 2 ^ 30) (by omega) hpt hz (Or.inr (Nat.le_refl _))
  refine ⟨m', h, ?_⟩
  intro va hva
  rw [hw va (Or.inl (by omega)), if_pos (by omega), Nat.mod_eq_of_lt (by omega)]

/-- Finding: as stage 1 calls it, the 2 MiB above 4 GiB are mapped, to physical address 0. -/
theorem identity_alias {pt : Nat} {m : PMem} (hpt : pt + 7 ≤ 2 ^ 40) (hz : ∀ p j, pt ≤ p → p < pt + 7 → m p j = 0) :
    ∃ m', buildIdentity (4 * 2 ^ 30) pt m = some m' ∧ ∀ x, x < 2 ^ 21 → walk m' pt (4 * 2 ^ 30 + x) = some x := by
  obtain ⟨m', h, _, hw, _⟩ := identity_ok (pool := pt + 7) (top := 4 * 2 ^ 30) (by omega) hpt hz (Or.inr (Nat.le_refl _))
  refine ⟨m', h, ?_⟩
  intro x hx
  rw [hw _ (Or.inl (by omega)), if_pos (by omega)]
  congr 1
  omega

/-- Finding: so a segment of an ELF file at virtual 4 GiB is loaded to physical 0, whatever its physical address. -/
theorem elf_alias {pt pool pa size : Nat} {m : PMem} (hpt : pt + 7 ≤ 2 ^ 40) (hpool : pool + 512 ≤ 2 ^ 40)
    (hz : ∀ p j, pt ≤ p → p < pt + 7 → m p j = 0) (hd : pool + 512 ≤ pt ∨ pt + 7 ≤ pool)
    (hsize : size ≤ 2 ^ 21) (hpa : pa + size + 4096 ≤ 2 ^ 52) :
    ∃ m', buildIdentity (4 * 2 ^ 30) pt m = some m' ∧
      ∀ fuel s', mapMemory fuel pool pt (4 * 2 ^ 30) pa size ⟨m', 0⟩ = .ok s' →
        ∀ x, x < size → walk s'.m pt (4 * 2 ^ 30 + x) = some x := by
  obtain ⟨m', h, inv, hw, _⟩ := identity_ok (pool := pool) (top := 4 * 2 ^ 30) (by omega) hpt hz hd
  refine ⟨m', h, ?_⟩
  intro fuel s' hs x hx
  refine mapMemory_kept inv hpool (Or.inl (by omega)) hpa (Or.inl (by omega)) ?_ hs
  dsimp only
  rw [hw _ (Or.inl (by omega)), if_pos (by omega)]
  congr 1
  omega

/-- C51: more than seven tables are refused. -/
theorem identity_refuse {top pt : Nat} {m : PMem} (h1 : 5 * 2 ^ 30 ≤ top) (h2 : top < 2 ^ 42) :
    buildIdentity top pt m = none := by
  unfold buildIdentity
  have e4 : neededEntries top 4 = top / 2 ^ 39 + 1 := by
    rw [needed_val]; simp only [Nat.reduceMul, Nat.reduceAdd]; omega
  have e3 : neededEntries top 3 = top / 2 ^ 30 + 1 := by
    rw [needed_val]; simp only [Nat.reduceMul, Nat.reduceAdd]; omega
  rw [e4, e3, if_pos (by omega)]

/-- Finding: the counts are cut to 12 bits, so a top address of 2^51 is accepted and maps 2 MiB. -/
theorem identity_cut {pt : Nat} {m : PMem} (hpt : pt + 7 ≤ 2 ^ 40) (hz : ∀ p j, pt ≤ p → p < pt + 7 → m p j = 0) :
    ∃ m', buildIdentity (2 ^ 51) pt m = some m' ∧ walk m' pt (2 ^ 21) = none := by
  have e : buildIdentity (2 ^ 51) pt m = buildIdentity 0 pt m := by
    unfold buildIdentity
    simp only [needed_val, Nat.reduceMul, Nat.reduceAdd]
  obtain ⟨m', h, _, hw, _⟩ := identity_ok (pool := pt + 7) (top := 0) (by omega) hpt hz (Or.inr (Nat.le_refl _))
  refine ⟨m', by rw [e, h], ?_⟩
  rw [hw _ (Or.inl (by omega)), if_neg (by omega)]

/-! ## Both together -/

/-- C51: after the identity mapping of stage 1, mapping a region above it in stage 2 works byte for byte and leaves
the lower 4 GiB as they are. Missing: as in `mapMemory_exact_partial`; sizes that need more of the pool. -/
theorem stage2_map_partial {pt pool va pa size : Nat} {m : PMem} (hpt : pt + 7 ≤ 2 ^ 40) (hpool : pool + 512 ≤ 2 ^ 40)
    (hz : ∀ p j, pt ≤ p → p < pt + 7 → m p j = 0) (hd : pool + 512 ≤ pt ∨ pt + 7 ≤ pool)
    (hva : 4 * 2 ^ 30 + 2 ^ 21 ≤ va) (hva' : InHalf va size) (hpa : 4096 ≤ pa) (hpa' : pa + size + 4096 ≤ 2 ^ 52)
    (halign : va % 4096 = pa % 4096) (hsize : size ≤ 169 * 4096) :
    ∃ m' fuel s', buildIdentity (4 * 2 ^ 30) pt m = some m' ∧ mapMemory fuel pool pt va pa size ⟨m', 0⟩ = .ok s' ∧
      (∀ x, x < size → walk s'.m pt (va + x) = some (pa + x)) ∧
      (∀ x, x < 4 * 2 ^ 30 → walk s'.m pt x = some x) := by
  obtain ⟨m', h, inv, hw, _⟩ := identity_ok (pool := pool) (top := 4 * 2 ^ 30) (by omega) hpt hz hd
  obtain ⟨fuel, s', hs⟩ := mapMemory_some (pool := pool) (root := pt) (va := va) (pa := pa) (size := size) (s := ⟨m', 0⟩) hpa
    (by unfold InHalf at hva'; omega) (by dsimp only; omega)
  refine ⟨m', fuel, s', h, hs, ?_, ?_⟩
  · refine mapMemory_exact_partial inv hpool hva' hpa' halign ?_ hs
    intro x hx
    dsimp only
    rw [hw _ (by unfold InHalf at hva'; unfold Canon; omega), if_neg (by omega)]
  · intro x hx
    refine mapMemory_kept inv hpool hva' hpa' (Or.inl (by omega)) ?_ hs
    dsimp only
    rw [hw _ (Or.inl (by omega)), if_pos (by omega), Nat.mod_eq_of_lt (by omega)]

/-! ## Examples -/

/-- Tables at 2 GiB, pool at 1 GiB, a segment of a kernel in the upper half. -/
example : ∃ m' fuel s', buildIdentity (4 * 2 ^ 30) 0x80000 (fun _ _ => 0) = some m' ∧
    mapMemory fuel 0x40000 0x80000 0xffffffff80001200 0x1001200 0x3456 ⟨m', 0⟩ = .ok s' ∧
    (∀ x, x < 0x3456 → walk s'.m 0x80000 (0xffffffff80001200 + x) = some (0x1001200 + x)) ∧
    (∀ x, x < 4 * 2 ^ 30 → walk s'.m 0x80000 x = some x) :=
  stage2_map_partial (by decide) (by decide) (fun _ _ _ _ => rfl) (by decide) (by decide) (by unfold InHalf; decide) (by decide)
    (by decide) (by decide) (by decide)

/-- A region in the last page. -/
example (s : PgSt) : ∀ fuel s', mapMemory fuel 0x40000 0x80000 0xfffffffffffff000 0x1000000 0x800 s ≠ .ok s' :=
  fun _ => mapMemory_endless (by decide) (by decide)

end Verif
