import Verif.PkcsStore
import Mathlib.Data.Finset.Card

/-!
# PKCS#11 object store: lemmas
-/

namespace Verif

/-! ## Memory -/

/-- `v` with the `n` bytes from `off` replaced by those of `c`. -/
def vPut (v : Mem) (off n : Nat) (c : Mem) : Mem := fun i => if off ≤ i ∧ i < off + n then c (i - off) else v i

theorem vPut_in {v c : Mem} {off n i : Nat} (h1 : off ≤ i) (h2 : i < off + n) : vPut v off n c i = c (i - off) := if_pos ⟨h1, h2⟩

theorem vPut_out {v c : Mem} {off n i : Nat} (h : i < off ∨ off + n ≤ i) : vPut v off n c i = v i := if_neg (by omega)

/-- An erased sector. -/
def vFF : Mem := fun _ => 0xFF#8

theorem ff_and (b : Byte) : 0xFF#8 &&& b = b := by
  apply BitVec.eq_of_getLsbD_eq
  intro i hi
  have : (0xFF#8).getLsbD i = true := by
    have : ∀ i : Fin 8, (0xFF#8).getLsbD i.1 = true := by decide
    exact this ⟨i, hi⟩
  rw [BitVec.getLsbD_and, this, Bool.true_and]

theorem run_erase (v : Mem) (off n : Nat) : vRun v [.erase off n] = vPut v off n vFF := rfl

theorem run_erase_write (v : Mem) (off n : Nat) (c : Mem) :
    vRun v [.erase off n, .write off n c] = vPut v off n c := by
  funext i
  simp only [vRun, List.foldl, VOp.run]
  by_cases h : off ≤ i ∧ i < off + n
  · rw [if_pos h, if_pos h, vPut_in h.1 h.2, ff_and]
  · rw [if_neg h, if_neg h, vPut_out (by omega)]

theorem vRun_append (v : Mem) (a b : List VOp) : vRun v (a ++ b) = vRun (vRun v a) b := List.foldl_append

theorem run_commit (g : VCfg) (v : Mem) (off : Nat) (c : Mem) :
    vRun v (vCommit g off c) = vPut (vPut v g.ss g.ss c) off g.ss c := by
  show vRun v ([.erase g.ss g.ss, .write g.ss g.ss c] ++ [.erase off g.ss, .write off g.ss c]) = _
  rw [vRun_append, run_erase_write, run_erase_write]

theorem run_restore (g : VCfg) (v : Mem) (off : Nat) (h : off + g.ss ≤ g.ss ∨ 2 * g.ss ≤ off) :
    vRun v (vRestore g off v) = vPut v off g.ss fun i => v (g.ss + i) := by
  unfold vRestore
  rw [run_erase_write]
  funext i
  by_cases hi : off ≤ i ∧ i < off + g.ss
  · rw [vPut_in hi.1 hi.2, vPut_in hi.1 hi.2, run_erase, vPut_out (by omega)]
  · rw [vPut_out (by omega), vPut_out (by omega)]

/-- The states in which `cache_commit` can be interrupted. -/
theorem commit_prefix {g : VCfg} {v c : Mem} {off : Nat} {l : List VOp} (h : l <+: vCommit g off c) :
    vRun v l = v ∨ vRun v l = vPut v g.ss g.ss vFF ∨ vRun v l = vPut v g.ss g.ss c ∨
    vRun v l = vPut (vPut v g.ss g.ss c) off g.ss vFF ∨ vRun v l = vPut (vPut v g.ss g.ss c) off g.ss c := by
  have hl : l = (vCommit g off c).take l.length := by
    obtain ⟨t, ht⟩ := h
    rw [← ht]; simp
  have hlen : l.length ≤ 4 := by
    have := h.length_le
    simpa [vCommit] using this
  generalize hn : l.length = n at hl hlen
  obtain rfl | rfl | rfl | rfl | rfl : n = 0 ∨ n = 1 ∨ n = 2 ∨ n = 3 ∨ n = 4 := by omega
  · left; rw [hl]; rfl
  · right; left; rw [hl]; exact run_erase _ _ _
  · right; right; left; rw [hl]; exact run_erase_write _ _ _ _
  · right; right; right; left
    rw [hl]
    show vRun v ([.erase g.ss g.ss, .write g.ss g.ss c] ++ [.erase off g.ss]) = _
    rw [vRun_append, run_erase_write, run_erase]
  · right; right; right; right
    rw [hl]
    exact run_commit g v off c

theorem prefix_append {a b l : List VOp} (h : l <+: a ++ b) : l <+: a ∨ ∃ t, l = a ++ t ∧ t <+: b := by
  obtain ⟨t, ht⟩ := h
  rcases List.append_eq_append_iff.mp ht with ⟨c, h1, _⟩ | ⟨c, h1, h2⟩
  · exact Or.inl ⟨c, h1.symm⟩
  · exact Or.inr ⟨c, h1, t, h2.symm⟩

/-! ## Words -/

theorem le32_agree {m x : Mem} {a b : Nat} (h : ∀ i, i < 4 → m (a + i) = x (b + i)) : le32 m a = le32 x b := by
  have h0 := h 0 (by omega)
  simp only [Nat.add_zero] at h0
  unfold le32
  rw [h0, h 1 (by omega), h 2 (by omega), h 3 (by omega)]

theorem le32_ff {m : Mem} {a : Nat} (h : ∀ i, i < 4 → m (a + i) = 0xFF#8) : le32 m a = VNONE := by
  rw [le32_agree (x := fun _ => 0xFF#8) (b := 0) (fun i hi => h i hi)]
  rfl

theorem le32_putW (c : Mem) (a x : Nat) (hx : x < 4294967296) : le32 (putW c a x) a = x := by
  unfold le32 putW
  simp only [if_true]
  rw [if_neg (by omega), if_neg (by omega), if_neg (by omega), if_neg (by omega), if_neg (by omega), if_neg (by omega)]
  simp only [BitVec.toNat_ofNat]
  omega

theorem putW_out {c : Mem} {a x i : Nat} (h : i < a ∨ a + 4 ≤ i) : putW c a x i = c i := by
  unfold putW
  rw [if_neg (by omega), if_neg (by omega), if_neg (by omega), if_neg (by omega)]

theorem le32_putW_out {c : Mem} {a x b : Nat} (h : b + 4 ≤ a ∨ a + 4 ≤ b) : le32 (putW c a x) b = le32 c b :=
  le32_agree fun i hi => putW_out (by omega)

theorem le32_bitPut {c : Mem} {p a : Nat} {x : Bool} (h : a + 4 ≤ 4 + p / 8 ∨ 4 + p / 8 < a) : le32 (vBitPut c p x) a = le32 c a :=
  le32_agree fun i hi => by unfold vBitPut; rw [if_neg (by omega)]

theorem bit_set (c : Mem) (p : Nat) : vBit (vBitPut c p true) p = true := by
  unfold vBit vBitPut
  rw [if_pos rfl]
  simp only [if_true, BitVec.getLsbD_or, BitVec.getLsbD_shiftLeft]
  have h8 : p % 8 < 8 := Nat.mod_lt _ (by omega)
  simp [h8]

theorem bit_set_other (c : Mem) (p q : Nat) (h : vBit c q = true) : vBit (vBitPut c p true) q = true := by
  unfold vBit at h ⊢
  unfold vBitPut
  by_cases he : 4 + q / 8 = 4 + p / 8
  · rw [if_pos he]
    simp only [if_true, BitVec.getLsbD_or, h, Bool.true_or]
  · rw [if_neg he]; exact h

theorem vFreePos_spec {v : Mem} : ∀ {n i p : Nat}, vFreePos v n i = some p → i ≤ p ∧ p < i + n ∧ vBit v p = false := by
  intro n
  induction n with
  | zero => intro i p h; simp [vFreePos] at h
  | succ n ih =>
    intro i p h
    unfold vFreePos at h
    split at h
    · next hb => obtain rfl := Option.some.inj h; exact ⟨Nat.le_refl _, by omega, hb⟩
    · have := ih h; exact ⟨by omega, by omega, this.2.2⟩

/-! ## Loops over nodes -/

theorem vScan_some {v : Mem} {k : VKey} : ∀ {n a b : Nat}, vScan v k n a = some b →
    ∃ j, j < n ∧ b = a + 32 * j ∧ vMatch v b k = true ∧ ∀ i, i < j → vMatch v (a + 32 * i) k = false := by
  intro n
  induction n with
  | zero => intro a b h; simp [vScan] at h
  | succ n ih =>
    intro a b h
    unfold vScan at h
    split at h
    · next hm => obtain rfl := Option.some.inj h; exact ⟨0, by omega, by omega, hm, fun i hi => by omega⟩
    · next hm =>
      obtain ⟨j, h1, h2, h3, h4⟩ := ih h
      refine ⟨j + 1, by omega, by omega, h3, ?_⟩
      intro i hi
      cases i with
      | zero => simpa using hm
      | succ i => have := h4 i (by omega); rwa [show a + 32 * (i + 1) = a + 32 + 32 * i by omega]

theorem vScan_none {v : Mem} {k : VKey} : ∀ {n a : Nat}, vScan v k n a = none ↔ ∀ i, i < n → vMatch v (a + 32 * i) k = false := by
  intro n
  induction n with
  | zero => intro a; exact ⟨fun _ i hi => by omega, fun _ => rfl⟩
  | succ n ih =>
    intro a
    unfold vScan
    split
    · next hm =>
      refine ⟨fun h => by simp at h, fun h => ?_⟩
      have := h 0 (by omega)
      simp only [Nat.mul_zero, Nat.add_zero] at this
      rw [hm] at this; simp at this
    · next hm =>
      rw [ih]
      constructor
      · intro h i hi
        cases i with
        | zero => simpa using hm
        | succ i => have := h i (by omega); rwa [show a + 32 * (i + 1) = a + 32 + 32 * i by omega]
      · intro h i hi
        have := h (i + 1) (by omega)
        rwa [show a + 32 * (i + 1) = a + 32 + 32 * i by omega] at this

theorem vFreeNode_some {v : Mem} : ∀ {n a b : Nat}, vFreeNode v n a = some b →
    ∃ j, j < n ∧ b = a + 32 * j ∧ le32 v b = VNONE ∧ ∀ i, i < j → le32 v (a + 32 * i) ≠ VNONE := by
  intro n
  induction n with
  | zero => intro a b h; simp [vFreeNode] at h
  | succ n ih =>
    intro a b h
    unfold vFreeNode at h
    split at h
    · next hm => obtain rfl := Option.some.inj h; exact ⟨0, by omega, by omega, hm, fun i hi => by omega⟩
    · next hm =>
      obtain ⟨j, h1, h2, h3, h4⟩ := ih h
      refine ⟨j + 1, by omega, by omega, h3, ?_⟩
      intro i hi
      cases i with
      | zero => simpa using hm
      | succ i => have := h4 i (by omega); rwa [show a + 32 * (i + 1) = a + 32 + 32 * i by omega]

theorem vMatch_iff {v : Mem} {a : Nat} {k : VKey} :
    vMatch v a k = true ↔ le32 v a = k.tok ∧ le32 v (a + 4) = k.oid ∧ le32 v (a + 8) = k.typ := by
  unfold vMatch; simp

theorem vMatch_congr {v w : Mem} {a b : Nat} {k : VKey} (h : ∀ i, i < 12 → v (a + i) = w (b + i)) : vMatch v a k = vMatch w b k := by
  have h0 : le32 v a = le32 w b := le32_agree fun i hi => h i (by omega)
  have h4 : le32 v (a + 4) = le32 w (b + 4) := le32_agree fun i hi => by
    rw [Nat.add_assoc, Nat.add_assoc]; exact h (4 + i) (by omega)
  have h8 : le32 v (a + 8) = le32 w (b + 8) := le32_agree fun i hi => by
    rw [Nat.add_assoc, Nat.add_assoc]; exact h (8 + i) (by omega)
  unfold vMatch
  rw [h0, h4, h8]

/-- Injective functions from `k` numbers into fewer than `n` numbers. -/
theorem inj_bound {f : Nat → Nat} {k n p : Nat} (h1 : ∀ i, i < k → f i < n ∧ f i ≠ p) (hp : p < n)
    (h2 : ∀ i j, i < k → j < k → f i = f j → i = j) : k < n := by
  have hc : (Finset.range k).card ≤ ((Finset.range n).erase p).card := by
    apply Finset.card_le_card_of_injOn f
    · intro i hi
      have := h1 i (Finset.mem_range.mp hi)
      exact Finset.mem_erase.mpr ⟨this.2, Finset.mem_range.mpr this.1⟩
    · intro i hi j hj e
      exact h2 i j (Finset.mem_range.mp hi) (Finset.mem_range.mp hj) e
  rw [Finset.card_range, Finset.card_erase_of_mem (Finset.mem_range.mpr hp), Finset.card_range] at hc
  omega

end Verif
