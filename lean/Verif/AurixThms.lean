import Verif.Aurix

/-!
# What the flash driver of the AURIX guarantees
-/

namespace Verif.Aurix

open Verif

theorem erased_iff (ev : Byte) (m : Mem) (o n : Nat) : erased ev m o n = true ↔ ∀ i, o ≤ i → i < o + n → m i = ev := by
  unfold erased
  rw [List.all_eq_true]
  constructor
  · intro h i h1 h2
    have := h (i - o) (List.mem_range.2 (by omega))
    rw [decide_eq_true_iff, Nat.add_sub_cancel' h1] at this
    exact this
  · intro h x hx
    have := List.mem_range.1 hx
    exact decide_eq_true (h _ (by omega) (by omega))

theorem needs_false (ev : Byte) (m : Mem) (a size : Nat) (hs : 0 < size) :
    needsRmw ev m a size = false ↔ ∀ i, a / PAGE * PAGE ≤ i → i < ((a + size - 1) / PAGE + 1) * PAGE → m i = ev := by
  unfold needsRmw
  rw [List.any_eq_false]
  constructor
  · intro h i h1 h2
    have h3 := h (i / PAGE - a / PAGE) (List.mem_range.2 (by unfold PAGE at *; omega))
    simp only [Bool.not_eq_true', Bool.not_eq_false] at h3
    exact (erased_iff ev m _ _).1 h3 i (by unfold PAGE at *; omega) (by unfold PAGE at *; omega)
  · intro h k hk
    have := List.mem_range.1 hk
    simp only [Bool.not_eq_true', Bool.not_eq_false]
    rw [erased_iff]
    intro i h1 h2
    exact h i (by unfold PAGE at *; omega) (by unfold PAGE at *; omega)

/-- What a write should do. -/
def written (m : Mem) (a : Nat) (d : Mem) (size : Nat) : Mem := fun i => if a ≤ i ∧ i < a + size then d (i - a) else m i

/-- The memory after the first operations of a direct write: some pages are written, in order. -/
theorem chunks_prefix (S : Nat) (ev : Byte) : ∀ f a (d : Mem) size (m : Mem), size ≤ f →
    (∀ i, a / PAGE * PAGE ≤ i → 0 < size → i < ((a + size - 1) / PAGE + 1) * PAGE → m i = ev) →
    ∀ k, ∃ t, t ≤ size ∧ runOps S ev m ((chunks ev f a d size).take k) = some (written m a d t) ∧
      ((chunks ev f a d size).length ≤ k → t = size) := by
  intro f
  induction f with
  | zero =>
    intro a d size m hf _ k
    obtain rfl : size = 0 := by omega
    refine ⟨0, Nat.le_refl _, ?_, fun _ => rfl⟩
    simp only [chunks, List.take_nil, runOps]
    congr 1
    funext i
    simp only [written]
    rw [if_neg (by omega)]
  | succ f ih =>
    intro a d size m hf he k
    by_cases hs : size = 0
    · subst hs
      refine ⟨0, Nat.le_refl _, ?_, fun _ => rfl⟩
      rw [chunks, if_pos rfl, List.take_nil, runOps]
      congr 1
      funext i
      simp only [written]
      rw [if_neg (by omega)]
    · rw [chunks, if_neg hs]
      cases k with
      | zero =>
        refine ⟨0, Nat.zero_le _, ?_, fun h => by simp at h⟩
        simp only [List.take_zero, runOps]
        congr 1
        funext i
        simp only [written]
        rw [if_neg (by omega)]
      | succ k =>
        obtain ⟨n, hn⟩ : ∃ n, n = min (PAGE - a % PAGE) size := ⟨_, rfl⟩
        simp only [← hn]
        have hn0 : 0 < n := by unfold PAGE at *; omega
        have hn1 : n ≤ size := by omega
        have hpe : erased ev m (a / PAGE * PAGE) PAGE = true := by
          rw [erased_iff]
          intro i h1 h2
          exact he i h1 (by omega) (by unfold PAGE at *; omega)
        have hw : wr m (a / PAGE * PAGE) (wr (fun _ => ev) (a % PAGE) d n) PAGE = written m a d n := by
          funext i
          simp only [wr, written]
          by_cases c1 : a / PAGE * PAGE ≤ i ∧ i < a / PAGE * PAGE + PAGE
          · rw [if_pos c1]
            by_cases c2 : a ≤ i ∧ i < a + n
            · have e1 : i - a / PAGE * PAGE - a % PAGE = i - a := by unfold PAGE at *; omega
              rw [if_pos c2, if_pos (by unfold PAGE at *; omega), e1]
            · rw [if_neg c2, if_neg (by unfold PAGE at *; omega)]
              exact ((erased_iff ev m _ _).1 hpe i c1.1 c1.2).symm
          · rw [if_neg c1, if_neg]
            unfold PAGE at *
            omega
        rw [List.take_succ_cons, runOps, apply, if_pos hpe, hw]
        obtain ⟨t, h1, h2, h3⟩ := ih (a + n) (fun i => d (n + i)) (size - n) (written m a d n) (by omega) (by
          intro i g1 g2 g3
          simp only [written]
          have hnp : n = PAGE - a % PAGE := by omega
          have hal : (a + n) % PAGE = 0 := by unfold PAGE at *; omega
          rw [if_neg (by unfold PAGE at *; omega)]
          exact he i (by unfold PAGE at *; omega) (by omega) (by unfold PAGE at *; omega)) k
        refine ⟨n + t, by omega, ?_, fun h => by simp only [List.length_cons] at h; have := h3 (by omega); omega⟩
        show runOps S ev (written m a d n) _ = _
        rw [h2]
        congr 1
        funext i
        simp only [written]
        by_cases c1 : a + n ≤ i ∧ i < a + n + t
        · have e1 : n + (i - (a + n)) = i - a := by omega
          rw [if_pos c1, if_pos (by omega), e1]
        · rw [if_neg c1]
          by_cases c2 : a ≤ i ∧ i < a + n
          · rw [if_pos c2, if_pos (by omega)]
          · rw [if_neg c2, if_neg (by omega)]

theorem run_append (S : Nat) (ev : Byte) (l r : List Op) : ∀ m, runOps S ev m (l ++ r) = (runOps S ev m l).bind fun m' => runOps S ev m' r := by
  induction l with
  | nil => intro m; rfl
  | cons o l ih =>
    intro m
    simp only [List.cons_append, runOps]
    cases apply S ev m o with
    | none => rfl
    | some m' => exact ih m'

/-- The sector is erased and its first `k` bursts are programmed. -/
def partly (S : Nat) (ev : Byte) (base : Nat) (sb m : Mem) (k : Nat) : Mem := fun i =>
  if base ≤ i ∧ i < base + S then (if i < base + k * BURST then sb (i - base) else ev) else m i

theorem bursts_run (S : Nat) (ev : Byte) (base : Nat) (sb m : Mem) : ∀ k, k * BURST ≤ S →
    runOps S ev (partly S ev base sb m 0) ((List.range k).map fun k => .prog (base + k * BURST) BURST fun i => sb (k * BURST + i)) =
      some (partly S ev base sb m k) := by
  intro k
  induction k with
  | zero => intro _; rfl
  | succ k ih =>
    intro h
    have hB : (k + 1) * BURST = k * BURST + BURST := Nat.succ_mul k BURST
    rw [List.range_succ, List.map_append, run_append, ih (by omega)]
    have he : erased ev (partly S ev base sb m k) (base + k * BURST) BURST = true := by
      rw [erased_iff]
      intro i h1 h2
      simp only [partly]
      rw [if_pos (by omega), if_neg (by omega)]
    simp only [List.map_cons, List.map_nil, Option.bind_some, runOps, apply]
    rw [if_pos he]
    simp only [Option.some.injEq]
    funext i
    simp only [wr, partly]
    by_cases c1 : base + k * BURST ≤ i ∧ i < base + k * BURST + BURST
    · have e1 : k * BURST + (i - (base + k * BURST)) = i - base := by omega
      rw [if_pos c1, if_pos (by omega), if_pos (by omega), e1]
    · rw [if_neg c1]
      by_cases c2 : base ≤ i ∧ i < base + S
      · rw [if_pos c2, if_pos c2]
        by_cases c3 : i < base + k * BURST
        · rw [if_pos c3, if_pos (by omega)]
        · rw [if_neg c3, if_neg (by omega)]
      · rw [if_neg c2, if_neg c2]

/-- **A write stores the bytes and changes nothing else**, whether the pages are erased or not, and no page is programmed twice, if the driver does
not write past its buffer. -/
theorem write_spec (S : Nat) (ev : Byte) (m : Mem) (a : Nat) (d : Mem) (size : Nat) (l : List Op) (hS : 0 < S) (hb : S % BURST = 0)
    (hs : 0 < size) (h : writeOps S ev m a d size = some l) : runOps S ev m l = some (written m a d size) := by
  unfold writeOps at h
  by_cases hn : needsRmw ev m a size = true
  · rw [if_pos hn] at h
    by_cases hf : S < a % S + size
    · rw [if_pos hf] at h
      cases h
    · rw [if_neg hf] at h
      cases h
      have hmod : a % S + a / S * S = a := by rw [Nat.mul_comm]; exact Nat.mod_add_div a S
      have hfull : S / BURST * BURST = S := by unfold BURST at *; omega
      rw [runOps, apply]
      have h0 : (fun i => if a / S * S ≤ i ∧ i < a / S * S + S then ev else m i) =
          partly S ev (a / S * S) (sectorBuf S m a d size) m 0 := by
        funext i
        simp only [partly]
        split
        · rw [if_neg (by omega)]
        · rfl
      show runOps S ev _ (bursts S (a / S * S) (sectorBuf S m a d size)) = _
      rw [h0, bursts, bursts_run S ev _ _ m (S / BURST) (by omega)]
      congr 1
      funext i
      simp only [partly, hfull, sectorBuf, wr, written]
      by_cases c1 : a / S * S ≤ i ∧ i < a / S * S + S
      · rw [if_pos c1, if_pos c1.2]
        by_cases c2 : a ≤ i ∧ i < a + size
        · have e1 : i - a / S * S - a % S = i - a := by omega
          rw [if_pos c2, if_pos (by omega), e1]
        · rw [if_neg c2, if_neg (by omega), Nat.add_sub_cancel' c1.1]
      · rw [if_neg c1, if_neg (by omega)]
  · rw [if_neg hn] at h
    cases h
    have he := (needs_false ev m a size hs).1 (by simpa using hn)
    obtain ⟨t, -, h2, h3⟩ := chunks_prefix S ev size a d size m (Nat.le_refl _) (fun i h1 _ h2 => he i h1 h2)
      (chunks ev size a d size).length
    rw [List.take_length] at h2
    rw [h2, h3 (Nat.le_refl _)]

/-- When the driver writes past the end of its buffer: a page of the range is not erased and the range is not in one sector. -/
theorem write_ub_iff (S : Nat) (ev : Byte) (m : Mem) (a : Nat) (d : Mem) (size : Nat) :
    writeOps S ev m a d size = none ↔ needsRmw ev m a size = true ∧ S < a % S + size := by
  unfold writeOps
  split <;> simp_all

/-- **A write to erased pages is safe when the power fails**: after any number of operations, the first `t` bytes are written and all others are as
before. -/
theorem direct_power_fail (S : Nat) (ev : Byte) (m : Mem) (a : Nat) (d : Mem) (size : Nat) (l : List Op) (hs : 0 < size)
    (h : writeOps S ev m a d size = some l) (hn : needsRmw ev m a size = false) (k : Nat) :
    ∃ t, t ≤ size ∧ runOps S ev m (l.take k) = some (written m a d t) := by
  unfold writeOps at h
  rw [if_neg (by simp [hn])] at h
  cases h
  have he := (needs_false ev m a size hs).1 hn
  obtain ⟨t, h1, h2, -⟩ := chunks_prefix S ev size a d size m (Nat.le_refl _) (fun i h1 _ h2 => he i h1 h2) k
  exact ⟨t, h1, h2⟩

/-- **A write to a page that is not erased is not**: if the power fails after the first operation, the whole sector is erased, also all bytes that the
write does not concern. -/
theorem rmw_power_fail (S : Nat) (ev : Byte) (m : Mem) (a : Nat) (d : Mem) (size : Nat) (l : List Op)
    (h : writeOps S ev m a d size = some l) (hn : needsRmw ev m a size = true) :
    ∃ m', runOps S ev m (l.take 1) = some m' ∧ ∀ i, i / S = a / S → 0 < S → m' i = ev := by
  unfold writeOps at h
  rw [if_pos hn] at h
  by_cases hf : S < a % S + size
  · rw [if_pos hf] at h
    cases h
  · rw [if_neg hf] at h
    cases h
    refine ⟨_, rfl, fun i hi hS => ?_⟩
    have h1 := Nat.div_add_mod i S
    have h2 := Nat.mod_lt i hS
    rw [hi, Nat.mul_comm] at h1
    show (if _ then ev else m i) = ev
    rw [if_pos (by omega)]

/-- A byte that is not erased makes every write to its page rewrite the sector. -/
theorem needs_of_byte (ev : Byte) (m : Mem) (a size i : Nat) (hs : 0 < size) (h : m i ≠ ev) (h1 : a / PAGE ≤ i / PAGE)
    (h2 : i / PAGE ≤ (a + size - 1) / PAGE) : needsRmw ev m a size = true := by
  cases hn : needsRmw ev m a size with
  | true => rfl
  | false => exact absurd ((needs_false ev m a size hs).1 hn i (by unfold PAGE at *; omega) (by unfold PAGE at *; omega)) h

/-- **The flags of a partition can be lost**: `e` is the end of the partition, its magic is in the last 4 bytes and its state in the byte before
(`/repo/src/libwolfboot.c:140-160,453-523`). If the magic is there, a write of the state erases the sector first; when the power fails then, the
magic, the state and all flags of the sectors are gone. -/
theorem trailer_lost (S : Nat) (ev : Byte) (m : Mem) (e : Nat) (d : Mem) (hS : 0 < S) (he : e % S = 0) (hp : S % PAGE = 0) (h0 : 0 < e)
    (hm : m (e - 4) ≠ ev) :
    ∃ l m', writeOps S ev m (e - 5) d 1 = some l ∧ runOps S ev m (l.take 1) = some m' ∧ ∀ i, e - S ≤ i → i < e → m' i = ev := by
  have hd : S ∣ e := Nat.dvd_of_mod_eq_zero he
  have hSe : S ≤ e := Nat.le_of_dvd h0 hd
  have hS32 : PAGE ≤ S := Nat.le_of_dvd hS (Nat.dvd_of_mod_eq_zero hp)
  have hep : e % PAGE = 0 := Nat.mod_eq_zero_of_dvd (Nat.dvd_trans (Nat.dvd_of_mod_eq_zero hp) hd)
  have hn : needsRmw ev m (e - 5) 1 = true :=
    needs_of_byte ev m (e - 5) 1 (e - 4) (by omega) hm (by unfold PAGE at *; omega) (by unfold PAGE at *; omega)
  have hf : ¬ S < (e - 5) % S + 1 := by have := Nat.mod_lt (e - 5) hS; omega
  cases hw : writeOps S ev m (e - 5) d 1 with
  | none => exact absurd ((write_ub_iff S ev m (e - 5) d 1).1 hw).2 hf
  | some l =>
    obtain ⟨m', h1, h2⟩ := rmw_power_fail S ev m (e - 5) d 1 l hw hn
    refine ⟨l, m', rfl, h1, fun i g1 g2 => h2 i ?_ hS⟩
    obtain ⟨c, rfl⟩ := hd
    obtain ⟨b, rfl⟩ : ∃ b, c = b + 1 := ⟨c - 1, by cases c with | zero => omega | succ c => rfl⟩
    have hx : S * (b + 1) = S * b + S := Nat.mul_succ S b
    have key : ∀ j, S * b ≤ j → j < S * b + S → j / S = b := by
      intro j k1 k2
      exact Nat.div_eq_of_lt_le (by rw [Nat.mul_comm]; exact k1) (by rw [Nat.mul_comm, Nat.mul_succ]; exact k2)
    unfold PAGE at *
    rw [key i (by omega) (by omega), key (S * (b + 1) - 5) (by omega) (by omega)]

theorem erase_run (S : Nat) (ev : Byte) (s : Nat) : ∀ n m, runOps S ev m ((List.range n).map fun k => .erase (s + k)) =
    some fun i => if s * S ≤ i ∧ i < (s + n) * S then ev else m i := by
  intro n
  induction n with
  | zero =>
    intro m
    simp only [List.range_zero, List.map_nil, runOps]
    congr 1
    funext i
    rw [if_neg (by simp only [Nat.add_zero]; omega)]
  | succ n ih =>
    intro m
    rw [List.range_succ, List.map_append, run_append, ih]
    simp only [List.map_cons, List.map_nil, Option.bind_some, runOps, apply, Option.some.injEq]
    funext i
    have h1 : (s + (n + 1)) * S = (s + n) * S + S := by rw [← Nat.add_assoc, Nat.succ_mul]
    have h2 : s * S ≤ (s + n) * S := Nat.mul_le_mul_right _ (by omega)
    rw [h1]
    by_cases c1 : (s + n) * S ≤ i ∧ i < (s + n) * S + S
    · rw [if_pos c1, if_pos (by omega)]
    · rw [if_neg c1]
      by_cases c2 : s * S ≤ i ∧ i < (s + n) * S
      · rw [if_pos c2, if_pos (by omega)]
      · rw [if_neg c2, if_neg (by omega)]

/-- Which bytes are erased: whole sectors from the one with the address, as many as the length needs. -/
theorem erase_spec (S : Nat) (ev : Byte) (m : Mem) (a len : Nat) (hl : 0 < len) :
    runOps S ev m (eraseOps S a len) =
      some fun i => if a / S * S ≤ i ∧ i < (a / S + ((len - 1) / S + 1)) * S then ev else m i := by
  unfold eraseOps
  rw [if_neg (by omega), erase_run]

/-- Nothing is erased for a length of 0. -/
theorem erase_zero (S : Nat) (ev : Byte) (m : Mem) (a : Nat) : runOps S ev m (eraseOps S a 0) = some m := rfl

/-- From the start of a sector the range is erased, and less than a sector more. -/
theorem erase_aligned (S : Nat) (ev : Byte) (m : Mem) (a len : Nat) (hS : 0 < S) (hl : 0 < len) (ha : a % S = 0) :
    ∃ m', runOps S ev m (eraseOps S a len) = some m' ∧ (∀ i, a ≤ i → i < a + len → m' i = ev) ∧
      ∀ i, i < a ∨ a + len + S ≤ i + 1 → m' i = m i := by
  refine ⟨_, erase_spec S ev m a len hl, ?_, ?_⟩
  · intro i h1 h2
    have h3 : a / S * S = a := by have := Nat.div_add_mod a S; rw [ha, Nat.mul_comm] at this; exact this
    have h4 := Nat.lt_mul_div_succ (len - 1) hS
    rw [if_pos]
    rw [Nat.add_mul, h3, Nat.mul_comm ((len - 1) / S + 1)]
    omega
  · intro i h1
    have h3 : a / S * S = a := by have := Nat.div_add_mod a S; rw [ha, Nat.mul_comm] at this; exact this
    have h4 := Nat.div_mul_le_self (len - 1) S
    rw [if_neg]
    rw [Nat.add_mul, h3, Nat.succ_mul]
    omega

/-- **From within a sector the end of the range is not erased** if it is in the sector after. -/
theorem erase_unaligned (S : Nat) (ev : Byte) (m : Mem) (a len : Nat) (hS : 0 < S) (hl : 0 < len) (hc : S ≤ a % S + (len - 1) % S) :
    ∃ m', runOps S ev m (eraseOps S a len) = some m' ∧ m' (a + len - 1) = m (a + len - 1) := by
  refine ⟨_, erase_spec S ev m a len hl, ?_⟩
  have h1 := Nat.div_add_mod a S
  have h2 := Nat.div_add_mod (len - 1) S
  rw [if_neg]
  rw [Nat.add_mul, Nat.succ_mul, Nat.mul_comm (a / S), Nat.mul_comm ((len - 1) / S)]
  omega

theorem readPage_spec (ev : Byte) (m : Mem) (er : Bool) : ∀ k a len, (er = true → ∀ i, i < k → m (a + i) = ev) →
    readPage ev m er k a len = (List.range (min k len)).map fun i => m (a + i) := by
  intro k
  induction k with
  | zero => intro a len _; simp [readPage]
  | succ k ih =>
    intro a len h
    cases len with
    | zero => simp [readPage]
    | succ len =>
      rw [readPage, ih (a + 1) len (fun h1 i hi => by rw [Nat.add_assoc, Nat.add_comm 1]; exact h h1 (i + 1) (by omega))]
      rw [show min (k + 1) (len + 1) = min k len + 1 by omega, List.range_succ_eq_map, List.map_cons, List.map_map]
      congr 1
      · cases er with
        | false => rfl
        | true => rw [if_pos rfl]; exact (h rfl 0 (by omega)).symm
      · apply List.map_congr_left
        intro i _
        simp only [Function.comp]
        congr 1
        omega

theorem readLoop_spec (ev : Byte) (m : Mem) : ∀ f a len, len ≤ f → readLoop ev m f a len = (List.range len).map fun i => m (a + i) := by
  intro f
  induction f with
  | zero =>
    intro a len h
    obtain rfl : len = 0 := by omega
    rfl
  | succ f ih =>
    intro a len h
    rw [readLoop]
    by_cases h0 : len = 0
    · rw [if_pos h0, h0]
      rfl
    · rw [if_neg h0]
      have hp := readPage_spec ev m (erased ev m (a / PAGE * PAGE) PAGE) (PAGE - a % PAGE) a len (by
        intro he i hi
        exact (erased_iff ev m _ _).1 he (a + i) (by unfold PAGE at *; omega) (by unfold PAGE at *; omega))
      obtain ⟨n, hn⟩ : ∃ n, n = min (PAGE - a % PAGE) len := ⟨_, rfl⟩
      have hn0 : 0 < n := by unfold PAGE at *; omega
      rw [← hn] at hp
      simp only [hp, List.length_map, List.length_range]
      rw [ih (a + n) (len - n) (by omega)]
      have hlen : len = n + (len - n) := by omega
      conv => rhs; rw [hlen, List.range_add, List.map_append, List.map_map]
      congr 1
      apply List.map_congr_left
      intro i _
      simp only [Function.comp]
      congr 1
      omega

/-- A read gives the bytes of the flash. -/
theorem read_spec (ev : Byte) (m : Mem) (a len : Nat) : (extFlashRead ev m a len).1 = (List.range len).map fun i => m (a + i) :=
  readLoop_spec ev m len a len (Nat.le_refl _)

/-- **The result of a read is never its length**, which the callers compare it with, `/repo/src/update_ram.c:62-63`,
`/repo/src/libwolfboot.c:1743,1828,1844,1863`. -/
theorem read_result (ev : Byte) (m : Mem) (a len : Nat) (h : 0 < len) : (extFlashRead ev m a len).2 ≠ len := by
  show (0 : Int) ≠ len
  omega

end Verif.Aurix
