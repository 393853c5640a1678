import Verif.ArmorThms

/-!
# C55: the results of verification under skipped instructions
-/

namespace Verif.Armor

set_option linter.unusedSimpArgs false

/-- Potential from a table: the rows are the instructions (in the order of their addresses `A`), the columns the truth values
of `r0 = 0`, `r2 = 1`, `*p_res = 1` and Z. -/
def pick (T : List (List Nat)) (A : List Nat) (pc : Nat) (a b c z : Bool) : Nat :=
  (T.getD (A.idxOf pc) []).getD (8 * a.toNat + 4 * b.toNat + 2 * c.toNat + z.toNat) 12

/-- The potential of a state. -/
def pot (T : List (List Nat)) (A : List Nat) (s : Cpu) : Nat :=
  if s.ok then 0 else pick T A s.pc (s.r 0 == 0#32) (s.r 2 == 1#32) (s.mem == 1#32) s.z

/-- Addresses of the instructions of `verifyFn`. -/
def vAddrT : List Nat := [0, 4, 8, 12, 14, 18, 20, 22, 24, 26, 28, 30, 32, 34, 36, 38, 40, 42, 44, 46, 48, 50, 52, 54, 56, 58, 62]

/-- Addresses of the instructions of `verifyFn`. -/
def vAddrA : List Nat := [0, 4, 8, 12, 16, 20, 24, 28, 32, 36, 40, 44, 48, 52, 56, 60, 64, 68, 72, 76, 80, 84, 88, 92, 96, 100, 104]

/-- Skipped instructions still needed in `verifyFn` if the function does not return 0. -/
def vTaba : List (List Nat) := [
  [4, 4, 4, 4, 4, 4, 4, 4, 4, 4, 4, 4, 4, 4, 4, 4],
  [4, 4, 4, 4, 4, 4, 4, 4, 4, 4, 4, 4, 4, 4, 4, 4],
  [4, 4, 4, 4, 4, 4, 4, 4, 4, 4, 3, 3, 4, 4, 3, 3],
  [4, 4, 4, 4, 4, 4, 4, 4, 4, 4, 2, 2, 4, 4, 2, 2],
  [4, 4, 4, 4, 4, 4, 4, 4, 4, 4, 1, 1, 4, 4, 1, 1],
  [8, 8, 4, 4, 8, 8, 4, 4, 4, 4, 0, 0, 4, 4, 0, 0],
  [8, 7, 4, 3, 8, 7, 4, 3, 5, 4, 1, 0, 5, 4, 1, 0],
  [7, 7, 3, 3, 7, 7, 3, 3, 4, 4, 0, 0, 4, 4, 0, 0],
  [7, 6, 3, 2, 7, 6, 3, 2, 5, 4, 1, 0, 5, 4, 1, 0],
  [6, 6, 2, 2, 6, 6, 2, 2, 4, 4, 0, 0, 4, 4, 0, 0],
  [6, 5, 2, 1, 6, 5, 2, 1, 5, 4, 1, 0, 5, 4, 1, 0],
  [5, 5, 1, 1, 5, 5, 1, 1, 4, 4, 0, 0, 4, 4, 0, 0],
  [5, 4, 1, 0, 5, 4, 1, 0, 5, 4, 1, 0, 5, 4, 1, 0],
  [4, 4, 0, 0, 4, 4, 0, 0, 4, 4, 0, 0, 4, 4, 0, 0],
  [4, 4, 1, 1, 3, 3, 0, 0, 4, 4, 1, 1, 3, 3, 0, 0],
  [4, 3, 1, 0, 4, 3, 1, 0, 4, 3, 1, 0, 4, 3, 1, 0],
  [3, 3, 0, 0, 3, 3, 0, 0, 3, 3, 0, 0, 3, 3, 0, 0],
  [3, 3, 1, 1, 2, 2, 0, 0, 3, 3, 1, 1, 2, 2, 0, 0],
  [3, 2, 1, 0, 3, 2, 1, 0, 3, 2, 1, 0, 3, 2, 1, 0],
  [2, 2, 0, 0, 2, 2, 0, 0, 2, 2, 0, 0, 2, 2, 0, 0],
  [2, 2, 1, 1, 1, 1, 0, 0, 2, 2, 1, 1, 1, 1, 0, 0],
  [2, 1, 1, 0, 2, 1, 1, 0, 2, 1, 1, 0, 2, 1, 1, 0],
  [1, 1, 0, 0, 1, 1, 0, 0, 1, 1, 0, 0, 1, 1, 0, 0],
  [1, 1, 1, 1, 0, 0, 0, 0, 1, 1, 1, 1, 0, 0, 0, 0],
  [1, 0, 1, 0, 1, 0, 1, 0, 1, 0, 1, 0, 1, 0, 1, 0],
  [0, 0, 0, 0, 0, 0, 0, 0, 0, 0, 0, 0, 0, 0, 0, 0],
  [12, 12, 12, 12, 12, 12, 12, 12, 12, 12, 12, 12, 12, 12, 12, 12]]

theorem v_a_thumb {arg ret res : W} {junk : Cpu → Cpu} (ha : (arg == 0#32) = false) (h1 : (ret == 0#32) = false)
    (b : Bool) (s s' : Cpu) (hs : step (verifyFn true arg (verifyCall ret res junk)) b s = some s') :
    pot vTaba vAddrT s ≤ pot vTaba vAddrT s' + cost b := by
  obtain ⟨i, sz, hf, ht, hx⟩ := step_cases hs
  clear hs hf
  have hlab : labAddr (verifyFn true arg (verifyCall ret res junk)) 0 = 62 := by
    simp [verifyFn, labAddr, Ins.isLab, ins]
  obtain ⟨r, z, n, v, pc, mem, ok⟩ := s
  cases ok
  case true => exact Nat.zero_le _
  simp [verifyFn, ins, table] at ht
  rcases ht with ⟨rfl, rfl, rfl⟩ | ⟨rfl, rfl, rfl⟩ | ⟨rfl, rfl, rfl⟩ | ⟨rfl, rfl, rfl⟩ | ⟨rfl, rfl, rfl⟩ | ⟨rfl, rfl, rfl⟩ |
      ⟨rfl, rfl, rfl⟩ | ⟨rfl, rfl, rfl⟩ | ⟨rfl, rfl, rfl⟩ | ⟨rfl, rfl, rfl⟩ | ⟨rfl, rfl, rfl⟩ | ⟨rfl, rfl, rfl⟩ |
      ⟨rfl, rfl, rfl⟩ | ⟨rfl, rfl, rfl⟩ | ⟨rfl, rfl, rfl⟩ | ⟨rfl, rfl, rfl⟩ | ⟨rfl, rfl, rfl⟩ | ⟨rfl, rfl, rfl⟩ |
      ⟨rfl, rfl, rfl⟩ | ⟨rfl, rfl, rfl⟩ | ⟨rfl, rfl, rfl⟩ | ⟨rfl, rfl, rfl⟩ | ⟨rfl, rfl, rfl⟩ | ⟨rfl, rfl, rfl⟩ |
      ⟨rfl, rfl, rfl⟩ | ⟨rfl, rfl, rfl⟩ | ⟨rfl, rfl, rfl⟩ <;>
    rcases hx with ⟨rfl, rfl⟩ | ⟨rfl, hx⟩ <;>
    (try simp only [exec, branch, Cond.holds] at hx) <;>
    cases z <;>
    (try simp only [Bool.not_true, Bool.not_false, if_true, Bool.false_eq_true, if_false, Option.map_some] at hx) <;>
    (try injection hx with hx) <;> (try subst hx) <;>
    simp only [pot, Armor.compare, Armor.set, verifyCall, if_true, Bool.false_eq_true, if_false, ha, h1, Nat.reduceAdd, Nat.reduceEqDiff, hlab, BitVec.reduceBEq] <;>
    (try exact Nat.zero_le _) <;>
    (try generalize (res == 1#32) = o) <;>
    (try generalize ((junk _).r 2 == 1#32) = o1) <;> (try generalize (junk _).z = o2) <;>
    generalize (r 0 == 0#32) = a <;> generalize (r 2 == 1#32) = b <;> generalize (mem == 1#32) = c <;>
    decide +revert

theorem v_a_arm {arg ret res : W} {junk : Cpu → Cpu} (ha : (arg == 0#32) = false) (h1 : (ret == 0#32) = false)
    (b : Bool) (s s' : Cpu) (hs : step (verifyFn false arg (verifyCall ret res junk)) b s = some s') :
    pot vTaba vAddrA s ≤ pot vTaba vAddrA s' + cost b := by
  obtain ⟨i, sz, hf, ht, hx⟩ := step_cases hs
  clear hs hf
  have hlab : labAddr (verifyFn false arg (verifyCall ret res junk)) 0 = 104 := by
    simp [verifyFn, labAddr, Ins.isLab, ins]
  obtain ⟨r, z, n, v, pc, mem, ok⟩ := s
  cases ok
  case true => exact Nat.zero_le _
  simp [verifyFn, ins, table] at ht
  rcases ht with ⟨rfl, rfl, rfl⟩ | ⟨rfl, rfl, rfl⟩ | ⟨rfl, rfl, rfl⟩ | ⟨rfl, rfl, rfl⟩ | ⟨rfl, rfl, rfl⟩ | ⟨rfl, rfl, rfl⟩ |
      ⟨rfl, rfl, rfl⟩ | ⟨rfl, rfl, rfl⟩ | ⟨rfl, rfl, rfl⟩ | ⟨rfl, rfl, rfl⟩ | ⟨rfl, rfl, rfl⟩ | ⟨rfl, rfl, rfl⟩ |
      ⟨rfl, rfl, rfl⟩ | ⟨rfl, rfl, rfl⟩ | ⟨rfl, rfl, rfl⟩ | ⟨rfl, rfl, rfl⟩ | ⟨rfl, rfl, rfl⟩ | ⟨rfl, rfl, rfl⟩ |
      ⟨rfl, rfl, rfl⟩ | ⟨rfl, rfl, rfl⟩ | ⟨rfl, rfl, rfl⟩ | ⟨rfl, rfl, rfl⟩ | ⟨rfl, rfl, rfl⟩ | ⟨rfl, rfl, rfl⟩ |
      ⟨rfl, rfl, rfl⟩ | ⟨rfl, rfl, rfl⟩ | ⟨rfl, rfl, rfl⟩ <;>
    rcases hx with ⟨rfl, rfl⟩ | ⟨rfl, hx⟩ <;>
    (try simp only [exec, branch, Cond.holds] at hx) <;>
    cases z <;>
    (try simp only [Bool.not_true, Bool.not_false, if_true, Bool.false_eq_true, if_false, Option.map_some] at hx) <;>
    (try injection hx with hx) <;> (try subst hx) <;>
    simp only [pot, Armor.compare, Armor.set, verifyCall, if_true, Bool.false_eq_true, if_false, ha, h1, Nat.reduceAdd, Nat.reduceEqDiff, hlab, BitVec.reduceBEq] <;>
    (try exact Nat.zero_le _) <;>
    (try generalize (res == 1#32) = o) <;>
    (try generalize ((junk _).r 2 == 1#32) = o1) <;> (try generalize (junk _).z = o2) <;>
    generalize (r 0 == 0#32) = a <;> generalize (r 2 == 1#32) = b <;> generalize (mem == 1#32) = c <;>
    decide +revert

/-- Skipped instructions still needed in `verifyFn` if the function returns 0, but stores no 1. -/
def vTabb : List (List Nat) := [
  [4, 4, 4, 4, 4, 4, 4, 4, 4, 4, 4, 4, 4, 4, 4, 4],
  [4, 4, 4, 4, 4, 4, 4, 4, 4, 4, 4, 4, 4, 4, 4, 4],
  [4, 4, 4, 4, 4, 4, 4, 4, 4, 4, 3, 3, 4, 4, 3, 3],
  [4, 4, 4, 4, 4, 4, 4, 4, 4, 4, 2, 2, 4, 4, 2, 2],
  [4, 4, 4, 4, 4, 4, 4, 4, 4, 4, 1, 1, 4, 4, 1, 1],
  [8, 8, 4, 4, 8, 8, 4, 4, 4, 4, 0, 0, 4, 4, 0, 0],
  [8, 7, 4, 3, 8, 7, 4, 3, 5, 4, 1, 0, 5, 4, 1, 0],
  [7, 7, 3, 3, 7, 7, 3, 3, 4, 4, 0, 0, 4, 4, 0, 0],
  [7, 6, 3, 2, 7, 6, 3, 2, 5, 4, 1, 0, 5, 4, 1, 0],
  [6, 6, 2, 2, 6, 6, 2, 2, 4, 4, 0, 0, 4, 4, 0, 0],
  [6, 5, 2, 1, 6, 5, 2, 1, 5, 4, 1, 0, 5, 4, 1, 0],
  [5, 5, 1, 1, 5, 5, 1, 1, 4, 4, 0, 0, 4, 4, 0, 0],
  [5, 4, 1, 0, 5, 4, 1, 0, 5, 4, 1, 0, 5, 4, 1, 0],
  [4, 4, 0, 0, 4, 4, 0, 0, 4, 4, 0, 0, 4, 4, 0, 0],
  [4, 4, 1, 1, 3, 3, 0, 0, 4, 4, 1, 1, 3, 3, 0, 0],
  [4, 3, 1, 0, 4, 3, 1, 0, 4, 3, 1, 0, 4, 3, 1, 0],
  [3, 3, 0, 0, 3, 3, 0, 0, 3, 3, 0, 0, 3, 3, 0, 0],
  [3, 3, 1, 1, 2, 2, 0, 0, 3, 3, 1, 1, 2, 2, 0, 0],
  [3, 2, 1, 0, 3, 2, 1, 0, 3, 2, 1, 0, 3, 2, 1, 0],
  [2, 2, 0, 0, 2, 2, 0, 0, 2, 2, 0, 0, 2, 2, 0, 0],
  [2, 2, 1, 1, 1, 1, 0, 0, 2, 2, 1, 1, 1, 1, 0, 0],
  [2, 1, 1, 0, 2, 1, 1, 0, 2, 1, 1, 0, 2, 1, 1, 0],
  [1, 1, 0, 0, 1, 1, 0, 0, 1, 1, 0, 0, 1, 1, 0, 0],
  [1, 1, 1, 1, 0, 0, 0, 0, 1, 1, 1, 1, 0, 0, 0, 0],
  [1, 0, 1, 0, 1, 0, 1, 0, 1, 0, 1, 0, 1, 0, 1, 0],
  [0, 0, 0, 0, 0, 0, 0, 0, 0, 0, 0, 0, 0, 0, 0, 0],
  [12, 12, 12, 12, 12, 12, 12, 12, 12, 12, 12, 12, 12, 12, 12, 12]]

theorem v_b_thumb {arg ret res : W} {junk : Cpu → Cpu} (ha : (arg == 0#32) = false) (h1 : (ret == 0#32) = true) (h2 : (res == 1#32) = false)
    (b : Bool) (s s' : Cpu) (hs : step (verifyFn true arg (verifyCall ret res junk)) b s = some s') :
    pot vTabb vAddrT s ≤ pot vTabb vAddrT s' + cost b := by
  obtain ⟨i, sz, hf, ht, hx⟩ := step_cases hs
  clear hs hf
  have hlab : labAddr (verifyFn true arg (verifyCall ret res junk)) 0 = 62 := by
    simp [verifyFn, labAddr, Ins.isLab, ins]
  obtain ⟨r, z, n, v, pc, mem, ok⟩ := s
  cases ok
  case true => exact Nat.zero_le _
  simp [verifyFn, ins, table] at ht
  rcases ht with ⟨rfl, rfl, rfl⟩ | ⟨rfl, rfl, rfl⟩ | ⟨rfl, rfl, rfl⟩ | ⟨rfl, rfl, rfl⟩ | ⟨rfl, rfl, rfl⟩ | ⟨rfl, rfl, rfl⟩ |
      ⟨rfl, rfl, rfl⟩ | ⟨rfl, rfl, rfl⟩ | ⟨rfl, rfl, rfl⟩ | ⟨rfl, rfl, rfl⟩ | ⟨rfl, rfl, rfl⟩ | ⟨rfl, rfl, rfl⟩ |
      ⟨rfl, rfl, rfl⟩ | ⟨rfl, rfl, rfl⟩ | ⟨rfl, rfl, rfl⟩ | ⟨rfl, rfl, rfl⟩ | ⟨rfl, rfl, rfl⟩ | ⟨rfl, rfl, rfl⟩ |
      ⟨rfl, rfl, rfl⟩ | ⟨rfl, rfl, rfl⟩ | ⟨rfl, rfl, rfl⟩ | ⟨rfl, rfl, rfl⟩ | ⟨rfl, rfl, rfl⟩ | ⟨rfl, rfl, rfl⟩ |
      ⟨rfl, rfl, rfl⟩ | ⟨rfl, rfl, rfl⟩ | ⟨rfl, rfl, rfl⟩ <;>
    rcases hx with ⟨rfl, rfl⟩ | ⟨rfl, hx⟩ <;>
    (try simp only [exec, branch, Cond.holds] at hx) <;>
    cases z <;>
    (try simp only [Bool.not_true, Bool.not_false, if_true, Bool.false_eq_true, if_false, Option.map_some] at hx) <;>
    (try injection hx with hx) <;> (try subst hx) <;>
    simp only [pot, Armor.compare, Armor.set, verifyCall, if_true, Bool.false_eq_true, if_false, ha, h1, h2, Nat.reduceAdd, Nat.reduceEqDiff, hlab, BitVec.reduceBEq] <;>
    (try exact Nat.zero_le _) <;>
    (try generalize (res == 1#32) = o) <;>
    (try generalize ((junk _).r 2 == 1#32) = o1) <;> (try generalize (junk _).z = o2) <;>
    generalize (r 0 == 0#32) = a <;> generalize (r 2 == 1#32) = b <;> generalize (mem == 1#32) = c <;>
    decide +revert

theorem v_b_arm {arg ret res : W} {junk : Cpu → Cpu} (ha : (arg == 0#32) = false) (h1 : (ret == 0#32) = true) (h2 : (res == 1#32) = false)
    (b : Bool) (s s' : Cpu) (hs : step (verifyFn false arg (verifyCall ret res junk)) b s = some s') :
    pot vTabb vAddrA s ≤ pot vTabb vAddrA s' + cost b := by
  obtain ⟨i, sz, hf, ht, hx⟩ := step_cases hs
  clear hs hf
  have hlab : labAddr (verifyFn false arg (verifyCall ret res junk)) 0 = 104 := by
    simp [verifyFn, labAddr, Ins.isLab, ins]
  obtain ⟨r, z, n, v, pc, mem, ok⟩ := s
  cases ok
  case true => exact Nat.zero_le _
  simp [verifyFn, ins, table] at ht
  rcases ht with ⟨rfl, rfl, rfl⟩ | ⟨rfl, rfl, rfl⟩ | ⟨rfl, rfl, rfl⟩ | ⟨rfl, rfl, rfl⟩ | ⟨rfl, rfl, rfl⟩ | ⟨rfl, rfl, rfl⟩ |
      ⟨rfl, rfl, rfl⟩ | ⟨rfl, rfl, rfl⟩ | ⟨rfl, rfl, rfl⟩ | ⟨rfl, rfl, rfl⟩ | ⟨rfl, rfl, rfl⟩ | ⟨rfl, rfl, rfl⟩ |
      ⟨rfl, rfl, rfl⟩ | ⟨rfl, rfl, rfl⟩ | ⟨rfl, rfl, rfl⟩ | ⟨rfl, rfl, rfl⟩ | ⟨rfl, rfl, rfl⟩ | ⟨rfl, rfl, rfl⟩ |
      ⟨rfl, rfl, rfl⟩ | ⟨rfl, rfl, rfl⟩ | ⟨rfl, rfl, rfl⟩ | ⟨rfl, rfl, rfl⟩ | ⟨rfl, rfl, rfl⟩ | ⟨rfl, rfl, rfl⟩ |
      ⟨rfl, rfl, rfl⟩ | ⟨rfl, rfl, rfl⟩ | ⟨rfl, rfl, rfl⟩ <;>
    rcases hx with ⟨rfl, rfl⟩ | ⟨rfl, hx⟩ <;>
    (try simp only [exec, branch, Cond.holds] at hx) <;>
    cases z <;>
    (try simp only [Bool.not_true, Bool.not_false, if_true, Bool.false_eq_true, if_false, Option.map_some] at hx) <;>
    (try injection hx with hx) <;> (try subst hx) <;>
    simp only [pot, Armor.compare, Armor.set, verifyCall, if_true, Bool.false_eq_true, if_false, ha, h1, h2, Nat.reduceAdd, Nat.reduceEqDiff, hlab, BitVec.reduceBEq] <;>
    (try exact Nat.zero_le _) <;>
    (try generalize (res == 1#32) = o) <;>
    (try generalize ((junk _).r 2 == 1#32) = o1) <;> (try generalize (junk _).z = o2) <;>
    generalize (r 0 == 0#32) = a <;> generalize (r 2 == 1#32) = b <;> generalize (mem == 1#32) = c <;>
    decide +revert

/-- Skipped instructions still needed in `verifyFn` if the function does not return 0 and stores no 1. -/
def vTabc : List (List Nat) := [
  [8, 8, 5, 5, 8, 8, 5, 5, 8, 8, 5, 5, 8, 8, 5, 5],
  [8, 8, 5, 5, 8, 8, 5, 5, 8, 8, 4, 4, 8, 8, 4, 4],
  [8, 8, 5, 5, 8, 8, 5, 5, 7, 7, 3, 3, 7, 7, 3, 3],
  [8, 8, 5, 5, 8, 8, 5, 5, 6, 6, 2, 2, 6, 6, 2, 2],
  [8, 8, 5, 5, 8, 8, 5, 5, 5, 5, 1, 1, 5, 5, 1, 1],
  [8, 8, 4, 4, 8, 8, 4, 4, 4, 4, 0, 0, 4, 4, 0, 0],
  [8, 7, 4, 3, 8, 7, 4, 3, 5, 4, 1, 0, 5, 4, 1, 0],
  [7, 7, 3, 3, 7, 7, 3, 3, 4, 4, 0, 0, 4, 4, 0, 0],
  [7, 6, 3, 2, 7, 6, 3, 2, 5, 4, 1, 0, 5, 4, 1, 0],
  [6, 6, 2, 2, 6, 6, 2, 2, 4, 4, 0, 0, 4, 4, 0, 0],
  [6, 5, 2, 1, 6, 5, 2, 1, 5, 4, 1, 0, 5, 4, 1, 0],
  [5, 5, 1, 1, 5, 5, 1, 1, 4, 4, 0, 0, 4, 4, 0, 0],
  [5, 4, 1, 0, 5, 4, 1, 0, 5, 4, 1, 0, 5, 4, 1, 0],
  [4, 4, 0, 0, 4, 4, 0, 0, 4, 4, 0, 0, 4, 4, 0, 0],
  [4, 4, 1, 1, 3, 3, 0, 0, 4, 4, 1, 1, 3, 3, 0, 0],
  [4, 3, 1, 0, 4, 3, 1, 0, 4, 3, 1, 0, 4, 3, 1, 0],
  [3, 3, 0, 0, 3, 3, 0, 0, 3, 3, 0, 0, 3, 3, 0, 0],
  [3, 3, 1, 1, 2, 2, 0, 0, 3, 3, 1, 1, 2, 2, 0, 0],
  [3, 2, 1, 0, 3, 2, 1, 0, 3, 2, 1, 0, 3, 2, 1, 0],
  [2, 2, 0, 0, 2, 2, 0, 0, 2, 2, 0, 0, 2, 2, 0, 0],
  [2, 2, 1, 1, 1, 1, 0, 0, 2, 2, 1, 1, 1, 1, 0, 0],
  [2, 1, 1, 0, 2, 1, 1, 0, 2, 1, 1, 0, 2, 1, 1, 0],
  [1, 1, 0, 0, 1, 1, 0, 0, 1, 1, 0, 0, 1, 1, 0, 0],
  [1, 1, 1, 1, 0, 0, 0, 0, 1, 1, 1, 1, 0, 0, 0, 0],
  [1, 0, 1, 0, 1, 0, 1, 0, 1, 0, 1, 0, 1, 0, 1, 0],
  [0, 0, 0, 0, 0, 0, 0, 0, 0, 0, 0, 0, 0, 0, 0, 0],
  [12, 12, 12, 12, 12, 12, 12, 12, 12, 12, 12, 12, 12, 12, 12, 12]]

theorem v_c_thumb {arg ret res : W} {junk : Cpu → Cpu} (ha : (arg == 0#32) = false) (h1 : (ret == 0#32) = false) (h2 : (res == 1#32) = false)
    (b : Bool) (s s' : Cpu) (hs : step (verifyFn true arg (verifyCall ret res junk)) b s = some s') :
    pot vTabc vAddrT s ≤ pot vTabc vAddrT s' + cost b := by
  obtain ⟨i, sz, hf, ht, hx⟩ := step_cases hs
  clear hs hf
  have hlab : labAddr (verifyFn true arg (verifyCall ret res junk)) 0 = 62 := by
    simp [verifyFn, labAddr, Ins.isLab, ins]
  obtain ⟨r, z, n, v, pc, mem, ok⟩ := s
  cases ok
  case true => exact Nat.zero_le _
  simp [verifyFn, ins, table] at ht
  rcases ht with ⟨rfl, rfl, rfl⟩ | ⟨rfl, rfl, rfl⟩ | ⟨rfl, rfl, rfl⟩ | ⟨rfl, rfl, rfl⟩ | ⟨rfl, rfl, rfl⟩ | ⟨rfl, rfl, rfl⟩ |
      ⟨rfl, rfl, rfl⟩ | ⟨rfl, rfl, rfl⟩ | ⟨rfl, rfl, rfl⟩ | ⟨rfl, rfl, rfl⟩ | ⟨rfl, rfl, rfl⟩ | ⟨rfl, rfl, rfl⟩ |
      ⟨rfl, rfl, rfl⟩ | ⟨rfl, rfl, rfl⟩ | ⟨rfl, rfl, rfl⟩ | ⟨rfl, rfl, rfl⟩ | ⟨rfl, rfl, rfl⟩ | ⟨rfl, rfl, rfl⟩ |
      ⟨rfl, rfl, rfl⟩ | ⟨rfl, rfl, rfl⟩ | ⟨rfl, rfl, rfl⟩ | ⟨rfl, rfl, rfl⟩ | ⟨rfl, rfl, rfl⟩ | ⟨rfl, rfl, rfl⟩ |
      ⟨rfl, rfl, rfl⟩ | ⟨rfl, rfl, rfl⟩ | ⟨rfl, rfl, rfl⟩ <;>
    rcases hx with ⟨rfl, rfl⟩ | ⟨rfl, hx⟩ <;>
    (try simp only [exec, branch, Cond.holds] at hx) <;>
    cases z <;>
    (try simp only [Bool.not_true, Bool.not_false, if_true, Bool.false_eq_true, if_false, Option.map_some] at hx) <;>
    (try injection hx with hx) <;> (try subst hx) <;>
    simp only [pot, Armor.compare, Armor.set, verifyCall, if_true, Bool.false_eq_true, if_false, ha, h1, h2, Nat.reduceAdd, Nat.reduceEqDiff, hlab, BitVec.reduceBEq] <;>
    (try exact Nat.zero_le _) <;>
    (try generalize (res == 1#32) = o) <;>
    (try generalize ((junk _).r 2 == 1#32) = o1) <;> (try generalize (junk _).z = o2) <;>
    generalize (r 0 == 0#32) = a <;> generalize (r 2 == 1#32) = b <;> generalize (mem == 1#32) = c <;>
    decide +revert

theorem v_c_arm {arg ret res : W} {junk : Cpu → Cpu} (ha : (arg == 0#32) = false) (h1 : (ret == 0#32) = false) (h2 : (res == 1#32) = false)
    (b : Bool) (s s' : Cpu) (hs : step (verifyFn false arg (verifyCall ret res junk)) b s = some s') :
    pot vTabc vAddrA s ≤ pot vTabc vAddrA s' + cost b := by
  obtain ⟨i, sz, hf, ht, hx⟩ := step_cases hs
  clear hs hf
  have hlab : labAddr (verifyFn false arg (verifyCall ret res junk)) 0 = 104 := by
    simp [verifyFn, labAddr, Ins.isLab, ins]
  obtain ⟨r, z, n, v, pc, mem, ok⟩ := s
  cases ok
  case true => exact Nat.zero_le _
  simp [verifyFn, ins, table] at ht
  rcases ht with ⟨rfl, rfl, rfl⟩ | ⟨rfl, rfl, rfl⟩ | ⟨rfl, rfl, rfl⟩ | ⟨rfl, rfl, rfl⟩ | ⟨rfl, rfl, rfl⟩ | ⟨rfl, rfl, rfl⟩ |
      ⟨rfl, rfl, rfl⟩ | ⟨rfl, rfl, rfl⟩ | ⟨rfl, rfl, rfl⟩ | ⟨rfl, rfl, rfl⟩ | ⟨rfl, rfl, rfl⟩ | ⟨rfl, rfl, rfl⟩ |
      ⟨rfl, rfl, rfl⟩ | ⟨rfl, rfl, rfl⟩ | ⟨rfl, rfl, rfl⟩ | ⟨rfl, rfl, rfl⟩ | ⟨rfl, rfl, rfl⟩ | ⟨rfl, rfl, rfl⟩ |
      ⟨rfl, rfl, rfl⟩ | ⟨rfl, rfl, rfl⟩ | ⟨rfl, rfl, rfl⟩ | ⟨rfl, rfl, rfl⟩ | ⟨rfl, rfl, rfl⟩ | ⟨rfl, rfl, rfl⟩ |
      ⟨rfl, rfl, rfl⟩ | ⟨rfl, rfl, rfl⟩ | ⟨rfl, rfl, rfl⟩ <;>
    rcases hx with ⟨rfl, rfl⟩ | ⟨rfl, hx⟩ <;>
    (try simp only [exec, branch, Cond.holds] at hx) <;>
    cases z <;>
    (try simp only [Bool.not_true, Bool.not_false, if_true, Bool.false_eq_true, if_false, Option.map_some] at hx) <;>
    (try injection hx with hx) <;> (try subst hx) <;>
    simp only [pot, Armor.compare, Armor.set, verifyCall, if_true, Bool.false_eq_true, if_false, ha, h1, h2, Nat.reduceAdd, Nat.reduceEqDiff, hlab, BitVec.reduceBEq] <;>
    (try exact Nat.zero_le _) <;>
    (try generalize (res == 1#32) = o) <;>
    (try generalize ((junk _).r 2 == 1#32) = o1) <;> (try generalize (junk _).z = o2) <;>
    generalize (r 0 == 0#32) = a <;> generalize (r 2 == 1#32) = b <;> generalize (mem == 1#32) = c <;>
    decide +revert

/-- Addresses of the instructions of `rsaHash`. -/
def hAddrT : List Nat := [0, 4, 8, 12, 14, 18, 20, 22, 24, 26, 28, 30, 32, 34, 36, 40, 42, 44, 46, 48, 50, 52, 54, 56, 60]

/-- Addresses of the instructions of `rsaHash`. -/
def hAddrA : List Nat := [0, 4, 8, 12, 16, 20, 24, 28, 32, 36, 40, 44, 48, 52, 56, 60, 64, 68, 72, 76, 80, 84, 88, 92, 96]

/-- Skipped instructions still needed in `rsaHash` if the function does not return 0. -/
def hTaba : List (List Nat) := [
  [8, 8, 8, 8, 8, 8, 8, 8, 7, 7, 7, 7, 7, 7, 7, 7],
  [8, 8, 8, 8, 8, 8, 8, 8, 6, 6, 6, 6, 6, 6, 6, 6],
  [8, 8, 8, 8, 8, 8, 8, 8, 5, 5, 5, 5, 5, 5, 5, 5],
  [8, 8, 8, 8, 8, 8, 8, 8, 4, 4, 4, 4, 4, 4, 4, 4],
  [8, 8, 8, 8, 8, 8, 8, 8, 3, 3, 3, 3, 3, 3, 3, 3],
  [8, 8, 8, 8, 8, 8, 8, 8, 2, 2, 2, 2, 2, 2, 2, 2],
  [8, 7, 8, 7, 8, 7, 8, 7, 3, 2, 3, 2, 3, 2, 3, 2],
  [7, 7, 7, 7, 7, 7, 7, 7, 2, 2, 2, 2, 2, 2, 2, 2],
  [7, 6, 7, 6, 7, 6, 7, 6, 3, 2, 3, 2, 3, 2, 3, 2],
  [6, 6, 6, 6, 6, 6, 6, 6, 2, 2, 2, 2, 2, 2, 2, 2],
  [6, 5, 6, 5, 6, 5, 6, 5, 3, 2, 3, 2, 3, 2, 3, 2],
  [5, 5, 5, 5, 5, 5, 5, 5, 2, 2, 2, 2, 2, 2, 2, 2],
  [5, 4, 5, 4, 5, 4, 5, 4, 3, 2, 3, 2, 3, 2, 3, 2],
  [4, 4, 4, 4, 4, 4, 4, 4, 2, 2, 2, 2, 2, 2, 2, 2],
  [4, 4, 4, 4, 4, 4, 4, 4, 1, 1, 1, 1, 1, 1, 1, 1],
  [4, 4, 4, 4, 4, 4, 4, 4, 0, 0, 0, 0, 0, 0, 0, 0],
  [4, 3, 4, 3, 4, 3, 4, 3, 1, 0, 1, 0, 1, 0, 1, 0],
  [3, 3, 3, 3, 3, 3, 3, 3, 0, 0, 0, 0, 0, 0, 0, 0],
  [3, 2, 3, 2, 3, 2, 3, 2, 1, 0, 1, 0, 1, 0, 1, 0],
  [2, 2, 2, 2, 2, 2, 2, 2, 0, 0, 0, 0, 0, 0, 0, 0],
  [2, 1, 2, 1, 2, 1, 2, 1, 1, 0, 1, 0, 1, 0, 1, 0],
  [1, 1, 1, 1, 1, 1, 1, 1, 0, 0, 0, 0, 0, 0, 0, 0],
  [1, 0, 1, 0, 1, 0, 1, 0, 1, 0, 1, 0, 1, 0, 1, 0],
  [0, 0, 0, 0, 0, 0, 0, 0, 0, 0, 0, 0, 0, 0, 0, 0],
  [12, 12, 12, 12, 12, 12, 12, 12, 12, 12, 12, 12, 12, 12, 12, 12]]

theorem h_a_thumb {arg ret res : W} {junk : Cpu → Cpu} (ha : (arg == 0#32) = false) (h1 : (ret == 0#32) = false)
    (b : Bool) (s s' : Cpu) (hs : step (rsaHash true arg (verifyCall ret res junk)) b s = some s') :
    pot hTaba hAddrT s ≤ pot hTaba hAddrT s' + cost b := by
  obtain ⟨i, sz, hf, ht, hx⟩ := step_cases hs
  clear hs hf
  have hlab : labAddr (rsaHash true arg (verifyCall ret res junk)) 0 = 60 := by
    simp [rsaHash, labAddr, Ins.isLab, ins]
  obtain ⟨r, z, n, v, pc, mem, ok⟩ := s
  cases ok
  case true => exact Nat.zero_le _
  simp [rsaHash, ins, table] at ht
  rcases ht with ⟨rfl, rfl, rfl⟩ | ⟨rfl, rfl, rfl⟩ | ⟨rfl, rfl, rfl⟩ | ⟨rfl, rfl, rfl⟩ | ⟨rfl, rfl, rfl⟩ | ⟨rfl, rfl, rfl⟩ |
      ⟨rfl, rfl, rfl⟩ | ⟨rfl, rfl, rfl⟩ | ⟨rfl, rfl, rfl⟩ | ⟨rfl, rfl, rfl⟩ | ⟨rfl, rfl, rfl⟩ | ⟨rfl, rfl, rfl⟩ |
      ⟨rfl, rfl, rfl⟩ | ⟨rfl, rfl, rfl⟩ | ⟨rfl, rfl, rfl⟩ | ⟨rfl, rfl, rfl⟩ | ⟨rfl, rfl, rfl⟩ | ⟨rfl, rfl, rfl⟩ |
      ⟨rfl, rfl, rfl⟩ | ⟨rfl, rfl, rfl⟩ | ⟨rfl, rfl, rfl⟩ | ⟨rfl, rfl, rfl⟩ | ⟨rfl, rfl, rfl⟩ | ⟨rfl, rfl, rfl⟩ |
      ⟨rfl, rfl, rfl⟩ <;>
    rcases hx with ⟨rfl, rfl⟩ | ⟨rfl, hx⟩ <;>
    (try simp only [exec, branch, Cond.holds] at hx) <;>
    cases z <;>
    (try simp only [Bool.not_true, Bool.not_false, if_true, Bool.false_eq_true, if_false, Option.map_some] at hx) <;>
    (try injection hx with hx) <;> (try subst hx) <;>
    simp only [pot, Armor.compare, Armor.set, verifyCall, if_true, Bool.false_eq_true, if_false, ha, h1, Nat.reduceAdd, Nat.reduceEqDiff, hlab, BitVec.reduceBEq] <;>
    (try exact Nat.zero_le _) <;>
    (try generalize (res == 1#32) = o) <;>
    (try generalize ((junk _).r 2 == 1#32) = o1) <;> (try generalize (junk _).z = o2) <;>
    generalize (r 0 == 0#32) = a <;> generalize (r 2 == 1#32) = b <;> generalize (mem == 1#32) = c <;>
    decide +revert

theorem h_a_arm {arg ret res : W} {junk : Cpu → Cpu} (ha : (arg == 0#32) = false) (h1 : (ret == 0#32) = false)
    (b : Bool) (s s' : Cpu) (hs : step (rsaHash false arg (verifyCall ret res junk)) b s = some s') :
    pot hTaba hAddrA s ≤ pot hTaba hAddrA s' + cost b := by
  obtain ⟨i, sz, hf, ht, hx⟩ := step_cases hs
  clear hs hf
  have hlab : labAddr (rsaHash false arg (verifyCall ret res junk)) 0 = 96 := by
    simp [rsaHash, labAddr, Ins.isLab, ins]
  obtain ⟨r, z, n, v, pc, mem, ok⟩ := s
  cases ok
  case true => exact Nat.zero_le _
  simp [rsaHash, ins, table] at ht
  rcases ht with ⟨rfl, rfl, rfl⟩ | ⟨rfl, rfl, rfl⟩ | ⟨rfl, rfl, rfl⟩ | ⟨rfl, rfl, rfl⟩ | ⟨rfl, rfl, rfl⟩ | ⟨rfl, rfl, rfl⟩ |
      ⟨rfl, rfl, rfl⟩ | ⟨rfl, rfl, rfl⟩ | ⟨rfl, rfl, rfl⟩ | ⟨rfl, rfl, rfl⟩ | ⟨rfl, rfl, rfl⟩ | ⟨rfl, rfl, rfl⟩ |
      ⟨rfl, rfl, rfl⟩ | ⟨rfl, rfl, rfl⟩ | ⟨rfl, rfl, rfl⟩ | ⟨rfl, rfl, rfl⟩ | ⟨rfl, rfl, rfl⟩ | ⟨rfl, rfl, rfl⟩ |
      ⟨rfl, rfl, rfl⟩ | ⟨rfl, rfl, rfl⟩ | ⟨rfl, rfl, rfl⟩ | ⟨rfl, rfl, rfl⟩ | ⟨rfl, rfl, rfl⟩ | ⟨rfl, rfl, rfl⟩ |
      ⟨rfl, rfl, rfl⟩ <;>
    rcases hx with ⟨rfl, rfl⟩ | ⟨rfl, hx⟩ <;>
    (try simp only [exec, branch, Cond.holds] at hx) <;>
    cases z <;>
    (try simp only [Bool.not_true, Bool.not_false, if_true, Bool.false_eq_true, if_false, Option.map_some] at hx) <;>
    (try injection hx with hx) <;> (try subst hx) <;>
    simp only [pot, Armor.compare, Armor.set, verifyCall, if_true, Bool.false_eq_true, if_false, ha, h1, Nat.reduceAdd, Nat.reduceEqDiff, hlab, BitVec.reduceBEq] <;>
    (try exact Nat.zero_le _) <;>
    (try generalize (res == 1#32) = o) <;>
    (try generalize ((junk _).r 2 == 1#32) = o1) <;> (try generalize (junk _).z = o2) <;>
    generalize (r 0 == 0#32) = a <;> generalize (r 2 == 1#32) = b <;> generalize (mem == 1#32) = c <;>
    decide +revert

theorem pot_start {T : List (List Nat)} {A : List Nat} {s : Cpu} {k : Nat} (h0 : s.pc = 0) (hok : s.ok = false)
    (h : ∀ a b c z, pick T A 0 a b c z = k) : pot T A s = k := by
  unfold pot
  rw [h0, hok]
  exact h _ _ _ _

/-- **C55, verification.** If the function returns an error or does not store 1, the signature is not confirmed with fewer than
four skipped instructions (`arg`, the first argument, is a pointer, not null). -/
theorem verify_skips {t : Bool} {arg ret res : W} {junk : Cpu → Cpu} {l : List Bool} {s s' : Cpu} (ha : arg ≠ 0)
    (hb : ret ≠ 0 ∨ res ≠ 1) (h0 : s.pc = 0) (hok : s.ok = false)
    (hr : run (verifyFn t arg (verifyCall ret res junk)) l s = some s') (h : s'.ok = true) : 4 ≤ skips l := by
  have ha : (arg == 0#32) = false := by simpa using ha
  have key : ∃ T A, pot T A s = 4 ∧ ∀ b s s', step (verifyFn t arg (verifyCall ret res junk)) b s = some s' →
      pot T A s ≤ pot T A s' + cost b := by
    by_cases h1 : (ret == 0#32) = true
    · have h2 : (res == 1#32) = false := by
        rcases hb with hb | hb
        · exact absurd (by simpa using h1) hb
        · simpa using hb
      cases t
      · exact ⟨_, _, pot_start h0 hok (by decide), v_b_arm ha h1 h2⟩
      · exact ⟨_, _, pot_start h0 hok (by decide), v_b_thumb ha h1 h2⟩
    · have h1 : (ret == 0#32) = false := by simpa using h1
      cases t
      · exact ⟨_, _, pot_start h0 hok (by decide), v_a_arm ha h1⟩
      · exact ⟨_, _, pot_start h0 hok (by decide), v_a_thumb ha h1⟩
  obtain ⟨T, A, k1, k2⟩ := key
  have := run_pot (φ := pot T A) (I := fun _ => True) (G := fun s => s.ok = true) (fun b s s' _ hs => ⟨trivial, k2 b s s' hs⟩)
    (fun s _ h => by unfold pot; rw [h]; rfl) l s s' trivial hr h
  omega

/-- **C55, verification.** If the function neither returns 0 nor stores 1 (and 1 was not stored before), eight are necessary. -/
theorem verify_skips_both {t : Bool} {arg ret res : W} {junk : Cpu → Cpu} {l : List Bool} {s s' : Cpu} (ha : arg ≠ 0)
    (h1 : ret ≠ 0) (h2 : res ≠ 1) (h0 : s.pc = 0) (hok : s.ok = false) (hm : s.mem ≠ 1)
    (hr : run (verifyFn t arg (verifyCall ret res junk)) l s = some s') (h : s'.ok = true) : 8 ≤ skips l := by
  have ha : (arg == 0#32) = false := by simpa using ha
  have h1 : (ret == 0#32) = false := by simpa using h1
  have h2 : (res == 1#32) = false := by simpa using h2
  have hm : (s.mem == 1#32) = false := by simpa using hm
  have key : ∃ T A, pot T A s = 8 ∧ ∀ b s s', step (verifyFn t arg (verifyCall ret res junk)) b s = some s' →
      pot T A s ≤ pot T A s' + cost b := by
    cases t
    · refine ⟨_, _, ?_, v_c_arm ha h1 h2⟩
      unfold pot
      rw [h0, hok, hm]
      exact (by decide : ∀ a b z, pick vTabc vAddrA 0 a b false z = 8) _ _ _
    · refine ⟨_, _, ?_, v_c_thumb ha h1 h2⟩
      unfold pot
      rw [h0, hok, hm]
      exact (by decide : ∀ a b z, pick vTabc vAddrT 0 a b false z = 8) _ _ _
  obtain ⟨T, A, k1, k2⟩ := key
  have := run_pot (φ := pot T A) (I := fun _ => True) (G := fun s => s.ok = true) (fun b s s' _ hs => ⟨trivial, k2 b s s' hs⟩)
    (fun s _ h => by unfold pot; rw [h]; rfl) l s s' trivial hr h
  omega

/-- **C55, verification.** The digest of an RSA signature that differs is not confirmed with fewer than seven skipped instructions. -/
theorem hash_skips {t : Bool} {digest ret res : W} {junk : Cpu → Cpu} {l : List Bool} {s s' : Cpu} (ha : digest ≠ 0)
    (hb : ret ≠ 0) (h0 : s.pc = 0) (hok : s.ok = false)
    (hr : run (rsaHash t digest (verifyCall ret res junk)) l s = some s') (h : s'.ok = true) : 7 ≤ skips l := by
  have ha : (digest == 0#32) = false := by simpa using ha
  have h1 : (ret == 0#32) = false := by simpa using hb
  have key : ∃ T A, 7 ≤ pot T A s ∧ ∀ b s s', step (rsaHash t digest (verifyCall ret res junk)) b s = some s' →
      pot T A s ≤ pot T A s' + cost b := by
    cases t
    · refine ⟨_, _, ?_, h_a_arm ha h1⟩
      unfold pot
      rw [h0, hok]
      exact (by decide : ∀ a b c z, 7 ≤ pick hTaba hAddrA 0 a b c z) _ _ _ _
    · refine ⟨_, _, ?_, h_a_thumb ha h1⟩
      unfold pot
      rw [h0, hok]
      exact (by decide : ∀ a b c z, 7 ≤ pick hTaba hAddrT 0 a b c z) _ _ _ _
  obtain ⟨T, A, k1, k2⟩ := key
  have := run_pot (φ := pot T A) (I := fun _ => True) (G := fun s => s.ok = true) (fun b s s' _ hs => ⟨trivial, k2 b s s' hs⟩)
    (fun s _ h => by unfold pot; rw [h]; rfl) l s s' trivial hr h
  omega

/-- **C55, verification.** Without skipped instructions a valid signature is confirmed. -/
theorem verify_pass (t : Bool) (arg : W) (junk : Cpu → Cpu) (s : Cpu) (h0 : s.pc = 0) :
    ∃ s', run (verifyFn t arg (verifyCall 0 1 junk)) (List.replicate 26 false) s = some s' ∧ s'.ok = true := by
  obtain ⟨r, z, n, v, pc, mem, ok⟩ := s
  dsimp only at h0
  subst h0
  cases t <;>
    simp [run, step, fetch, verifyFn, verifyCall, ins, exec, branch, Cond.holds, Armor.set, Armor.compare, List.replicate]

/-- **C55, verification.** Without skipped instructions an equal digest is confirmed. -/
theorem hash_pass (t : Bool) (digest res : W) (junk : Cpu → Cpu) (s : Cpu) (h0 : s.pc = 0) :
    ∃ s', run (rsaHash t digest (verifyCall 0 res junk)) (List.replicate 24 false) s = some s' ∧ s'.ok = true := by
  obtain ⟨r, z, n, v, pc, mem, ok⟩ := s
  dsimp only at h0
  subst h0
  cases t <;>
    simp [run, step, fetch, rsaHash, verifyCall, ins, exec, branch, Cond.holds, Armor.set, Armor.compare, List.replicate]

/-- Four are enough: the function returns 0 but stores 0, the last four branches are skipped. -/
example (s : Cpu) : ∃ s', run (verifyFn true 0x20000000 (verifyCall 0 0 id)) (List.replicate 15 false ++ [true, false, false, true,
    false, false, true, false, false, true, false]) { s with pc := 0 } = some s' ∧ s'.ok = true := ⟨_, rfl, rfl⟩

end Verif.Armor
