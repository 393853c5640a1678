import Verif.CStringThms

/-!
# C library replacement functions: deviations from the C standard, examples (C35)
-/

namespace Verif

variable {m : CMem}

/-- `strncpy` leaves the bytes behind the terminator as they were; the C standard (7.24.2.4) requires zeros. -/
theorem strncpy_no_padding {t : List Byte} {d s n : Nat} (h : CStr m s t) (hd : Acc m d n)
    (ho : Apart d n s (t.length + 1)) (hn : t.length + 1 < n) :
    ∃ m', cStrncpy m d s n = some m' ∧ ∀ i, t.length + 1 ≤ i → i < n → m' (d + i) = m (d + i) := by
  have hm : min n (t.length + 1) = t.length + 1 := by omega
  obtain ⟨m', h1, h2⟩ := strncpy_partial n h (d := d) (by rw [hm]; exact hd.mono (by omega))
    (by rw [hm]; unfold Apart at *; omega)
  rw [hm] at h2
  refine ⟨m', h1, fun i h3 h4 => ?_⟩
  rw [h2, if_neg (by omega)]

/-- With `n = 0` the whole string is appended. -/
theorem strncat_zero {S d s : Nat} {a t : List Byte} (ha : CStr m d a) (h : CStr m s t) (hS : a.length + t.length + 1 < S)
    (hd : Acc m d (a.length + t.length + 1)) (ho : Apart d (a.length + t.length + 1) s (t.length + 1)) :
    ∃ m', cStrncat S m d s 0 = some m' ∧ m' (d + a.length + t.length) = some 0 ∧
      ∀ i, i < t.length → m' (d + a.length + i) = m (s + i) := by
  unfold Apart at ho
  have hmin : min t.length (S - 1 - a.length) = t.length := by omega
  obtain ⟨m', h1, h2⟩ := strncatLoop_exact (d := d) (s := s) (t := t) (lim := S - 1) t.length (m := m) (i := 0) (j := a.length)
    (by omega) h (by omega)
    (fun i hi => by have := hd (a.length + i) (by omega); rwa [show d + (a.length + i) = d + a.length + i by omega] at this)
    (by rw [hmin]; unfold Apart; omega)
  rw [hmin] at h2
  refine ⟨m', ?_, by rw [h2, if_pos rfl], fun i hi => ?_⟩
  · unfold cStrncat
    rw [strlen_exact ha, Nat.zero_add, Nat.mod_eq_of_lt (by omega)]
    exact h1
  · rw [h2, if_neg (by omega), if_pos (by omega)]
    congr 1
    omega

/-- The first characters decide if they differ. -/
theorem strcmp_first (sg : Bool) {p q : Nat} {x y : Byte} (hx : m p = some x) (hx0 : x ≠ 0) (hy : m q = some y) (hxy : x ≠ y) :
    cStrcmp sg m p q = some (charInt sg x - charInt sg y) := by
  unfold cStrcmp
  rw [cStrcmpLoop, if_neg (by simp), hx]
  simp only [Option.bind_eq_bind, Option.bind_some]
  rw [if_neg hx0, hy]
  simp only [Option.bind_some]
  exact strcmpLoop_ne sg _ (fun h => hxy ((charInt_inj sg x y).1 (by omega))) _ _

/-- **`strcmp` compares signed characters** where `char` is signed: characters from 128 on are smaller than ASCII characters,
the C standard says larger. -/
theorem strcmp_signed {p q : Nat} {x y : Byte} {a b : List Byte} (ha : CStr m p (x :: a)) (hb : CStr m q (y :: b))
    (hx : 128 ≤ x.toNat) (hy : y.toNat < 128) :
    ∃ r, cStrcmp true m p q = some r ∧ r < 0 ∧ stdCmp (x :: a) (y :: b) = 1 := by
  refine ⟨_, strcmp_first true ha.1 ha.2.1 hb.1 (fun h => by rw [h] at hx; omega), ?_, ?_⟩
  · unfold charInt
    simp only [if_true]
    rw [BitVec.toInt_eq_toNat_of_lt (x := y) (by omega), BitVec.toInt_eq_toNat_cond, if_neg (by omega)]
    have := x.isLt
    omega
  · unfold stdCmp
    rw [if_neg (by omega), if_pos (by omega)]

/-- The two-character strings used below. -/
theorem strcasecmp_step (sg : Bool) {p q : Nat} {x y : Byte} (hx : m p = some x) (hx0 : x ≠ 0) (hy : m q = some y) :
    cStrcasecmp sg m p q = cStrcasecmpLoop sg m (caseDiff sg x y) (p + 1) (q + 1) := by
  unfold cStrcasecmp
  rw [cStrcasecmpLoop, if_neg (by simp), hx]
  simp only [Option.bind_eq_bind, Option.bind_some]
  rw [if_neg hx0, hy]
  simp only [Option.bind_some]

/-- **`strcasecmp` equates different characters**: "0" and "P". -/
theorem strcasecmp_equates (sg : Bool) {p q : Nat} (ha : CStr m p [0x30#8]) (hb : CStr m q [0x50#8]) :
    cStrcasecmp sg m p q = some 0 ∧ [0x30#8].map lower ≠ [0x50#8].map lower := by
  refine ⟨?_, by decide⟩
  rw [strcasecmp_step sg ha.1 ha.2.1 hb.1, show caseDiff sg 0x30#8 0x50#8 = 0 by cases sg <;> decide, cStrcasecmpLoop,
    if_neg (by simp), show m (p + 1) = some 0 from ha.2.2]
  rfl

/-- **`strcasecmp` orders by case**: "a" comes after "B". -/
theorem strcasecmp_order (sg : Bool) {p q : Nat} (ha : CStr m p [0x61#8]) (hb : CStr m q [0x42#8]) :
    cStrcasecmp sg m p q = some 31 ∧ stdCmp ([0x61#8].map lower) ([0x42#8].map lower) = -1 := by
  refine ⟨?_, by decide⟩
  rw [strcasecmp_step sg ha.1 ha.2.1 hb.1, show caseDiff sg 0x61#8 0x42#8 = 31 by cases sg <;> decide,
    strcasecmpLoop_ne sg _ (by omega)]

/-- **`strncasecmp` compares one character too many**: "ax" and "ay" differ in their first character. -/
theorem strncasecmp_one_more (sg : Bool) {p q : Nat} (ha : CStr m p [0x61#8, 0x78#8]) (hb : CStr m q [0x61#8, 0x79#8]) :
    ∃ r, cStrncasecmp sg m p q 1 = some r ∧ r ≠ 0 := by
  have hs : CaseSafe sg [0x61#8, 0x78#8] [0x61#8, 0x79#8] := by
    refine ⟨?_, ?_, trivial⟩ <;> unfold CaseOK <;> cases sg <;> decide
  obtain ⟨r, h1, h2⟩ := strncasecmp_partial sg (n := 1) (i := 0) ha hb hs (by omega)
  refine ⟨r, h1, fun h => absurd (h2.1 h) (by decide)⟩

/-! ## Examples -/

namespace StrDemo

/-- Memory holding these bytes from address 0; nothing else may be accessed. -/
def lay (l : List Byte) : CMem := fun a => l[a]?

/-- "abc", "ab", eight free bytes. -/
def m0 : CMem := lay [0x61, 0x62, 0x63, 0, 0x61, 0x62, 0, 0xEE, 0xEE, 0xEE, 0xEE, 0xEE, 0xEE, 0xEE, 0xEE]

theorem abc : CStr m0 0 [0x61, 0x62, 0x63] := by unfold CStr CStr CStr CStr; decide
theorem ab : CStr m0 4 [0x61, 0x62] := by unfold CStr CStr CStr; decide
theorem free : Acc m0 7 8 := by unfold Acc; decide

example : ∃ m', cMemset m0 8 0x11 4 = some m' ∧ ∀ q, m' q = if 8 ≤ q ∧ q < 8 + 4 then some 0x11 else m0 q :=
  memset_exact 0x11 4 m0 8 (by unfold Acc; decide)

/-- Overlapping ranges, both directions, with and without words of 4 bytes. -/
example : ∃ m', cMemmove none m0 2 0 8 = some m' ∧ Copied m0 m' 2 0 8 :=
  memmove_exact_partial none (by simp) (by unfold Acc; decide) (by unfold Acc; decide) (by omega)

example : ∃ m', cMemmove (some 4) m0 0 4 9 = some m' ∧ Copied m0 m' 0 4 9 :=
  memmove_exact_partial (some 4) (by simp) (by unfold Acc; decide) (by unfold Acc; decide) (by omega)

example : ∃ m', cMemcpy (some 4) m0 8 0 7 = some m' ∧ Copied m0 m' 8 0 7 :=
  memcpy_exact (some 4) (by simp) (by unfold Acc; decide) (by unfold Acc; decide) (by omega)

example : ∃ r, cMemcmp m0 0 0 4 3 = some r ∧ SameSign r (stdCmp [0x61, 0x62, 0x63] [0x61, 0x62, 0]) :=
  memcmp_exact (m := m0) [0x61, 0x62, 0x63] [0x61, 0x62, 0] 0 4 rfl (by unfold Block; decide) (by unfold Block; decide)

example : ∃ r, cMemchr m0 0 0x63 5 = some r ∧ match r with
      | none => ∀ i, i < 5 → m0 (0 + i) ≠ some 0x63
      | some a => ∃ i, i < 5 ∧ a = 0 + i ∧ m0 a = some 0x63 ∧ ∀ j, j < i → m0 (0 + j) ≠ some 0x63 :=
  memchr_exact 0x63 5 0 (by unfold Acc; decide)

example : cStrlen m0 0 = some 3 := strlen_exact abc

example : ∃ m', cStrcpyLoop m0 7 0 = some m' ∧ Copied m0 m' 7 0 4 ∧ CStr m' 7 [0x61, 0x62, 0x63] :=
  strcpy_exact abc (free.mono (by decide)) (by unfold Apart; decide)

example : ∃ m', cStrncpy m0 7 0 7 = some m' ∧ ∀ i, 4 ≤ i → i < 7 → m' (7 + i) = m0 (7 + i) :=
  strncpy_no_padding abc (free.mono (by decide)) (by unfold Apart; decide) (by decide)

/-- "ab" at 4 is extended by "abc". -/
example : ∃ m', cStrcat m0 4 0 = some m' ∧ CStr m' 4 [0x61, 0x62, 0x61, 0x62, 0x63] ∧
    ∀ q, ¬ (4 ≤ q ∧ q < 4 + 6) → m' q = m0 q :=
  strcat_exact ab abc (by unfold Acc; decide) (by unfold Apart; decide)

/-- Only one more character fits in four bytes. -/
example : ∃ m', cStrncat 4294967296 m0 4 0 4 = some m' ∧ CStr m' 4 [0x61, 0x62, 0x61] ∧
    ∀ q, ¬ (4 ≤ q ∧ q < 4 + 4) → m' q = m0 q :=
  strncat_partial ab abc (by decide) (by decide) (by unfold Acc; decide) (by unfold Apart; decide)

/-- "ab" is a prefix of "abc". -/
example : cStrcmp true m0 4 0 = some 0 := (strcmp_prefix_equal true ab (b := [0x63]) abc (by simp)).1

example : ∃ r, cStrcmp true m0 0 4 = some r ∧ SameSign r (stdCmp [0x61, 0x62, 0x63] [0x61, 0x62]) := by
  obtain ⟨r, h1, h2, h3⟩ := strcmp_partial true abc ab
  exact ⟨r, h1, h3 (by decide) (fun h => absurd (h2.1 h) (by decide))⟩

example : ∃ r, cStrncmp m0 0 0 4 2 = some r ∧ SameSign r (stdCmp [0x61, 0x62] [0x61, 0x62]) := strncmp_exact 2 abc ab

/-- "aB" and "Abc". -/
def m1 : CMem := lay [0x61, 0x42, 0, 0x41, 0x62, 0x63, 0]

example : ∃ r, cStrcasecmp true m1 0 3 = some r ∧ (r = 0 ↔ [0x61#8, 0x62] <+: [0x61, 0x62, 0x63]) :=
  strcasecmp_partial true (a := [0x61, 0x42]) (b := [0x41, 0x62, 0x63]) (by unfold CStr CStr CStr; decide)
    (by unfold CStr CStr CStr CStr; decide)
    (by refine ⟨?_, ?_, trivial⟩ <;> unfold CaseOK <;> decide)

/-- "a b" and "a" at the end of memory. -/
example : cStrcasecmp true (lay [0x61, 0x20, 0x62, 0, 0x61, 0]) 0 4 = none :=
  strcasecmp_overread true (a := [0x61]) (x := 0x62) (b := []) (by
    show CStr _ _ [0x61, 0x20, 0x62]
    unfold CStr CStr CStr CStr; decide) (by unfold CStr CStr; decide) rfl

/-- 0x80 and "a". -/
example : ∃ r, cStrcmp true (lay [0x80, 0, 0x61, 0]) 0 2 = some r ∧ r < 0 ∧ stdCmp [0x80#8] [0x61#8] = 1 :=
  strcmp_signed (by unfold CStr CStr; decide) (by unfold CStr CStr; decide) (by decide) (by decide)

end StrDemo

end Verif
