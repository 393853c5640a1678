import Verif.Zynq

/-!
# What the QSPI driver of the ZynqMP guarantees
-/

namespace Verif.Zynq

open Verif

/-- **Sizes are encoded correctly**: the controller transfers as many bytes as the driver thinks, at most as many as asked for, and either all or a
multiple of 256. -/
theorem calc_spec (n : Nat) (h : 0 < n) : meaning (calcExp n).2 = (calcExp n).1 ∧ 0 < (calcExp n).1 ∧ (calcExp n).1 ≤ n ∧
    ((calcExp n).1 = n ∨ (calcExp n).1 % 256 = 0) := by
  unfold calcExp
  by_cases h1 : 255 < n
  · rw [if_pos h1]
    cases hf : (List.range 21).find? fun k => decide (2 ^ (28 - k) ≤ n) with
    | none =>
      rw [List.find?_eq_none] at hf
      have := hf 20 (by decide)
      rw [decide_eq_true_iff] at this
      exact absurd (show 2 ^ (28 - 20) ≤ n by omega) this
    | some k =>
      have hk := List.mem_range.1 (List.mem_of_find?_eq_some hf)
      have hp := List.find?_some hf
      rw [decide_eq_true_iff] at hp
      refine ⟨rfl, Nat.pow_pos (by decide), hp, Or.inr ?_⟩
      show 2 ^ (28 - k) % 256 = 0
      have : 28 - k = 8 + (20 - k) := by omega
      rw [this, Nat.pow_add]
      exact Nat.mul_mod_right (2 ^ 8) _
  · rw [if_neg h1]
    exact ⟨rfl, h, Nat.le_refl _, Or.inl rfl⟩

/-- The bytes on the wire: each entry takes whole words from the FIFO and sends as many bytes as it says. -/
def wire (l : List ((Bool × Nat) × List Byte)) : List Byte := l.flatMap fun x => x.2.take (meaning x.1)

/-- **A transfer sends exactly the bytes given**, and each entry gets whole words, just enough for its size. -/
theorem tx_spec : ∀ f l, l.length ≤ f → wire (txLoop f l) = l ∧
    ∀ x ∈ txLoop f l, x.2.length % 4 = 0 ∧ meaning x.1 ≤ x.2.length ∧ x.2.length < meaning x.1 + 4 := by
  intro f
  induction f with
  | zero =>
    intro l h
    obtain rfl : l = [] := List.length_eq_zero_iff.1 (by omega)
    exact ⟨rfl, fun x hx => by cases hx⟩
  | succ f ih =>
    intro l h
    rw [txLoop]
    by_cases h0 : l = []
    · subst h0
      exact ⟨rfl, fun x hx => by cases hx⟩
    · rw [if_neg h0]
      have hl : 0 < l.length := List.length_pos_iff.2 h0
      obtain ⟨h1, h2, h3, -⟩ := calc_spec l.length hl
      obtain ⟨h4, h5⟩ := ih (l.drop (calcExp l.length).1) (by rw [List.length_drop]; omega)
      generalize hc : calcExp l.length = c at *
      have hlen : (l.take c.1).length = c.1 := by rw [List.length_take]; omega
      constructor
      · simp only [wire, List.flatMap_cons] at h4 ⊢
        rw [h4, h1, List.take_append_of_le_length (by omega), List.take_take, Nat.min_self, List.take_append_drop]
      · intro x hx
        rcases List.mem_cons.1 hx with rfl | hx
        · simp only [List.length_append, hlen, List.length_replicate, h1]
          omega
        · exact h5 x hx

/-- A DMA transfer moves forward, stays within the temporary buffer, and takes more from the flash than it uses only at the end. -/
theorem dma_spec (T p n : Nat) (hT : 0 < T) (hn : 0 < n) : ∃ x y, dma T p n = some (x, y) ∧ 0 < y ∧ y ≤ n ∧ y ≤ x ∧ (x = y ∨ y = n) := by
  obtain ⟨-, h2, h3, -⟩ := calc_spec n hn
  unfold dma
  generalize (calcExp n).1 = c at *
  by_cases hc : p % ALIGN ≠ 0 ∨ c % 4 ≠ 0
  · simp only [if_pos hc]
    have h0 : 0 < min ((c + (ALIGN - 1)) / ALIGN * ALIGN) T := by unfold ALIGN; omega
    obtain ⟨-, g2, g3, -⟩ := calc_spec _ h0
    generalize (calcExp (min ((c + (ALIGN - 1)) / ALIGN * ALIGN) T)).1 = x at *
    rw [if_neg (by omega)]
    refine ⟨x, if n < x then n else x, rfl, ?_⟩
    split <;> omega
  · simp only [if_neg hc]
    exact ⟨c, c, rfl, h2, h3, Nat.le_refl _, Or.inl rfl⟩

theorem rx_run (T p : Nat) (st : Mem) (hT : 0 < T) : ∀ f pos out off n, n ≤ f →
    rxLoop T p st f pos out off n = some (wr out off (fun i => st (pos + i)) n) := by
  intro f
  induction f with
  | zero =>
    intro pos out off n h
    obtain rfl : n = 0 := by omega
    rw [rxLoop, if_pos rfl]
    congr 1
    funext i
    simp only [wr]
    rw [if_neg (by omega)]
  | succ f ih =>
    intro pos out off n h
    rw [rxLoop]
    by_cases h0 : n = 0
    · subst h0
      rw [if_pos rfl]
      congr 1
      funext i
      simp only [wr]
      rw [if_neg (by omega)]
    · rw [if_neg h0]
      obtain ⟨x, y, hd, h1, h2, h3, h4⟩ := dma_spec T (p + off) n hT (by omega)
      rw [hd]
      show rxLoop T p st f (pos + x) _ (off + y) (n - y) = _
      rw [ih _ _ _ _ (by omega)]
      congr 1
      funext i
      simp only [wr]
      by_cases c1 : off + y ≤ i ∧ i < off + y + (n - y)
      · have hxy : x = y := by omega
        have e1 : pos + x + (i - (off + y)) = pos + (i - off) := by omega
        rw [if_pos c1, if_pos (by omega), e1]
      · rw [if_neg c1]
        by_cases c2 : off ≤ i ∧ i < off + y
        · rw [if_pos c2, if_pos (by omega)]
        · rw [if_neg c2, if_neg (by omega)]

/-- Addresses that a command can hold. -/
def Dev.limit (v : Dev) : Nat := (if v.stripe then 2 else 1) * if v.b4 then 2 ^ 32 else 2 ^ 24

/-- What the flash makes of an address: **an odd address is the even one before if there are two chips**. -/
theorem decode_addr (v : Dev) (a : Nat) (h : a < v.limit) : decode v (addrBytes v a) = if v.stripe then a / 2 * 2 else a := by
  obtain ⟨s, b, S⟩ := v
  cases s <;> cases b <;> simp [decode, addrBytes, Dev.limit] at h ⊢ <;> omega

/-- **A read gives the bytes at the address**, for every length and place of the buffer, writes nothing else, and returns the length, if the address
is even or there is one chip. -/
theorem read_spec (v : Dev) (T p : Nat) (m : Mem) (a : Nat) (out : Mem) (len : Nat) (hT : 0 < T) (ha : a < v.limit)
    (he : v.stripe = true → a % 2 = 0) :
    extFlashRead v T p m a out len = some ((fun i => if i < len then m (a + i) else out i), len) := by
  unfold extFlashRead
  rw [rx_run T p _ hT len 0 out 0 len (Nat.le_refl _), decode_addr v a ha]
  have h1 : (if v.stripe = true then a / 2 * 2 else a) = a := by
    split
    · have := he (by assumption); omega
    · rfl
  simp only [Option.map_some, h1]
  congr 2
  funext i
  simp [wr]

/-- **Otherwise all bytes are one off.** -/
theorem read_odd (v : Dev) (T p : Nat) (m : Mem) (a : Nat) (out : Mem) (len : Nat) (hT : 0 < T) (ha : a < v.limit) (hs : v.stripe = true)
    (ho : a % 2 = 1) : extFlashRead v T p m a out len = some ((fun i => if i < len then m (a - 1 + i) else out i), len) := by
  unfold extFlashRead
  rw [rx_run T p _ hT len 0 out 0 len (Nat.le_refl _), decode_addr v a ha, if_pos hs]
  have h1 : a / 2 * 2 = a - 1 := by omega
  simp only [Option.map_some, h1]
  congr 2
  funext i
  simp [wr]

/-- Bits of the bytes in a range are cleared, all other bytes stay. -/
def cleared (m : Mem) (a : Nat) (d : Mem) (n : Nat) : Mem := fun i => if a ≤ i ∧ i < a + n then m i &&& d (i - a) else m i

theorem program_aligned (P : Nat) (m : Mem) (a : Nat) (d : Mem) (n : Nat) (hP : 0 < P) (ha : a % P = 0) (hn : n ≤ P) :
    program P m a d n = cleared m a d n := by
  funext i
  simp only [program, cleared]
  have h1 := Nat.div_add_mod i P
  have h2 := Nat.div_add_mod a P
  have h3 := Nat.mod_lt i hP
  have h4 : (i % P + P - a % P) % P = i % P := by rw [ha, Nat.sub_zero, Nat.add_mod_right, Nat.mod_mod]
  rw [h4]
  by_cases c : a ≤ i ∧ i < a + n
  · have hd : i / P = a / P := by
      apply Nat.div_eq_of_lt_le
      · rw [Nat.mul_comm]; omega
      · rw [Nat.mul_comm, Nat.mul_succ]; omega
    rw [if_pos c]
    rw [hd] at h1
    have h5 : i % P = i - a := by omega
    rw [if_pos ⟨hd, by omega⟩, h5]
  · rw [if_neg c, if_neg]
    rintro ⟨hd, hl⟩
    rw [hd] at h1
    omega

theorem write_run (v : Dev) (we : Nat → Bool) (a : Nat) (d : Mem) (ha : a % v.page = 0) : ∀ k pg m len,
    (∀ j, j < pg + k → we j = true) → len ≤ k * v.page → pg * v.page + k * v.page + a ≤ v.limit → (k - 1) * v.page < len ∨ k = 0 →
    writeLoop v we a d k pg m len = (cleared m (a + pg * v.page) (fun i => d (pg * v.page + i)) len, 0) := by
  have hpe : v.stripe = true → v.page % 2 = 0 := by intro h; simp [Dev.page, h]
  have hp0 : 0 < v.page := by unfold Dev.page; split <;> omega
  intro k
  induction k with
  | zero =>
    intro pg m len _ h2 _ _
    obtain rfl : len = 0 := by omega
    rw [writeLoop]
    congr 1
    funext i
    simp only [cleared]
    rw [if_neg (by omega)]
  | succ k ih =>
    intro pg m len h1 h2 h3 h4
    have e1 : (k + 1) * v.page = k * v.page + v.page := Nat.succ_mul _ _
    have e2 : (pg + 1) * v.page = pg * v.page + v.page := Nat.succ_mul _ _
    have e3 : k + 1 - 1 = k := rfl
    rw [e3] at h4
    have hal : (a + pg * v.page) % v.page = 0 := by rw [Nat.add_mul_mod_self_right, ha]
    have hdec : decode v (addrBytes v (a + pg * v.page)) = a + pg * v.page := by
      rw [decode_addr v _ (by omega)]
      split
      · next hs =>
        obtain ⟨q, hq⟩ := Nat.dvd_of_mod_eq_zero hal
        obtain ⟨r, hr⟩ := Nat.dvd_of_mod_eq_zero (hpe hs)
        have : a + pg * v.page = 2 * (r * q) := by rw [hq, ← Nat.mul_assoc, ← hr]
        omega
      · rfl
    rw [writeLoop, if_pos (h1 pg (by omega)), hdec, program_aligned _ _ _ _ _ hp0 hal (by omega)]
    rw [ih (pg + 1) _ _ (fun j hj => h1 j (by omega)) (by omega) (by omega) (by
      cases k with
      | zero => exact Or.inr rfl
      | succ k =>
        left
        have e4 : (k + 1) * v.page = k * v.page + v.page := Nat.succ_mul _ _
        have e5 : k + 1 - 1 = k := rfl
        rw [e5]
        omega)]
    congr 1
    funext i
    simp only [cleared, e2]
    by_cases c1 : a + (pg * v.page + v.page) ≤ i ∧ i < a + (pg * v.page + v.page) + (len - min len v.page)
    · have e6 : pg * v.page + v.page + (i - (a + (pg * v.page + v.page))) = pg * v.page + (i - (a + pg * v.page)) := by omega
      rw [if_pos c1, if_neg (by omega), if_pos (by omega), e6]
    · rw [if_neg c1]
      by_cases c2 : a + pg * v.page ≤ i ∧ i < a + pg * v.page + min len v.page
      · rw [if_pos c2, if_pos (by omega)]
      · rw [if_neg c2, if_neg (by omega)]

/-- **A write from the start of a page programs exactly the bytes given**, for every length. -/
theorem write_spec (v : Dev) (we : Nat → Bool) (m : Mem) (a : Nat) (d : Mem) (len : Nat) (ha : a % v.page = 0) (hl : a + len + v.page ≤ v.limit)
    (hw : ∀ j, we j = true) : extFlashWrite v we m a d len = (cleared m a d len, 0) := by
  have hp0 : 0 < v.page := by unfold Dev.page; split <;> omega
  unfold extFlashWrite
  have h1 := Nat.div_add_mod (len + (v.page - 1)) v.page
  have h2 := Nat.mod_lt (len + (v.page - 1)) hp0
  rw [Nat.mul_comm] at h1
  generalize (len + (v.page - 1)) / v.page = k at *
  rw [write_run v we a d ha k 0 m len (fun j _ => hw j) (by omega) (by omega) (by
    cases k with
    | zero => exact Or.inr rfl
    | succ k =>
      left
      have e1 : (k + 1) * v.page = k * v.page + v.page := Nat.succ_mul _ _
      have e2 : k + 1 - 1 = k := rfl
      rw [e2]
      omega)]
  simp

/-- **A write from within a page over its end overwrites the start of the page**: the bytes for the next page go there. -/
theorem write_wraps (v : Dev) (we : Nat → Bool) (m : Mem) (a : Nat) (d : Mem) (len : Nat) (ha : a < v.limit) (he : v.stripe = true → a % 2 = 0)
    (h1 : len ≤ v.page) (h2 : v.page < a % v.page + len) (hw : we 0 = true) :
    (extFlashWrite v we m a d len).1 (a / v.page * v.page) = m (a / v.page * v.page) &&& d (v.page - a % v.page) ∧
    (extFlashWrite v we m a d len).1 (a / v.page * v.page + v.page) = m (a / v.page * v.page + v.page) ∧ (extFlashWrite v we m a d len).2 = 0 := by
  have hp0 : 0 < v.page := by unfold Dev.page; split <;> omega
  have h3 := Nat.mod_lt a hp0
  have hk : (len + (v.page - 1)) / v.page = 1 := by
    apply Nat.div_eq_of_lt_le <;> omega
  have hdec : decode v (addrBytes v (a + 0 * v.page)) = a := by
    rw [Nat.zero_mul, Nat.add_zero, decode_addr v a ha]
    split
    · have := he (by assumption); omega
    · rfl
  unfold extFlashWrite
  rw [hk, writeLoop, if_pos hw, hdec, writeLoop]
  refine ⟨?_, ?_, rfl⟩
  · simp only [program]
    have e1 : a / v.page * v.page / v.page = a / v.page := Nat.mul_div_cancel _ hp0
    have e2 : a / v.page * v.page % v.page = 0 := Nat.mul_mod_left _ _
    rw [e1, e2]
    have e3 : (0 + v.page - a % v.page) % v.page = v.page - a % v.page := by
      rw [Nat.zero_add]
      exact Nat.mod_eq_of_lt (by omega)
    rw [e3, if_pos ⟨rfl, by omega⟩]
    simp
  · simp only [program]
    rw [if_neg]
    rintro ⟨h, -⟩
    rw [Nat.add_div_right _ hp0, Nat.mul_div_cancel _ hp0] at h
    omega

/-- **With two chips, a write of a byte to an odd address is a write to the even address before.** So the state of a partition, at `e - 5`, and the
flags of its first sectors, at `e - 6`, are the same byte (`/repo/src/libwolfboot.c:453-490,540-566`). -/
theorem state_is_flags (v : Dev) (we : Nat → Bool) (m : Mem) (e : Nat) (d : Mem) (hs : v.stripe = true) (h6 : 6 ≤ e) (he : e % 2 = 0)
    (hl : e ≤ v.limit) : extFlashWrite v we m (e - 5) d 1 = extFlashWrite v we m (e - 6) d 1 := by
  have hp : v.page = 512 := by simp [Dev.page, hs]
  have hk : (1 + (v.page - 1)) / v.page = 1 := by rw [hp]
  have hd : decode v (addrBytes v (e - 5 + 0 * v.page)) = decode v (addrBytes v (e - 6 + 0 * v.page)) := by
    rw [Nat.zero_mul, Nat.add_zero, Nat.add_zero, decode_addr v _ (by omega), decode_addr v _ (by omega), if_pos hs, if_pos hs]
    omega
  unfold extFlashWrite
  rw [hk, writeLoop, writeLoop, hd, writeLoop, writeLoop]

theorem addr_len (v : Dev) (a : Nat) : (addrBytes v a).length = if v.b4 then 4 else 3 := by
  obtain ⟨s, b, S⟩ := v
  cases b <;> rfl

/-- **An erase of one sector erases it and nothing else.** -/
theorem erase_one (v : Dev) (we ok : Nat → Bool) (m : Mem) (a len : Nat) (hS : 0 < v.S) (h0 : 0 < len) (h1 : len ≤ v.S) (ha : a < v.limit)
    (he : v.stripe = true → a % 2 = 0) (hw : we 0 = true) :
    extFlashErase v we ok m a len = some ((fun i => if i / v.S = a / v.S then 0xFF#8 else m i), if ok 0 then 0 else -1) := by
  have hk : (len + v.S - 1) / v.S = 1 := by apply Nat.div_eq_of_lt_le <;> omega
  have hdec : decode v (addrBytes v (a + 0 * v.S)) = a := by
    rw [Nat.zero_mul, Nat.add_zero, decode_addr v a ha]
    split
    · have := he (by assumption); omega
    · rfl
  unfold extFlashErase
  rw [hk, eraseLoop, if_pos hw]
  simp only [List.length_cons, addr_len]
  rw [if_neg (by split <;> omega), eraseLoop]
  simp only [List.replicate_zero, List.nil_append, execErase, hdec]

theorem erase_ub_run (v : Dev) (we ok : Nat → Bool) (a : Nat) (hb : v.b4 = true) : ∀ n k m ret,
    (eraseLoop v we ok a n k 5 m ret = none ↔ ∃ j, k ≤ j ∧ j < k + n ∧ we j = true) ∧
    (eraseLoop v we ok a n k 0 m ret = none ↔ ∃ i j, k ≤ i ∧ i < j ∧ j < k + n ∧ we i = true ∧ we j = true) := by
  have hl : ∀ x, (0xD8 :: addrBytes v x).length = 5 := by intro x; rw [List.length_cons, addr_len, if_pos hb]
  intro n
  induction n with
  | zero =>
    intro k m ret
    constructor
    · simp only [eraseLoop]
      constructor
      · intro h; cases h
      · rintro ⟨j, h1, h2, -⟩; omega
    · simp only [eraseLoop]
      constructor
      · intro h; cases h
      · rintro ⟨i, j, h1, h2, h3, -⟩; omega
  | succ n ih =>
    intro k m ret
    by_cases hw : we k = true
    · constructor
      · rw [eraseLoop, if_pos hw]
        simp only [hl]
        rw [if_pos (by omega)]
        exact ⟨fun _ => ⟨k, Nat.le_refl _, by omega, hw⟩, fun _ => rfl⟩
      · rw [eraseLoop, if_pos hw]
        simp only [hl]
        rw [if_neg (by omega), Nat.zero_add, (ih (k + 1) _ _).1]
        constructor
        · rintro ⟨j, h1, h2, h3⟩
          exact ⟨k, j, Nat.le_refl _, by omega, by omega, hw, h3⟩
        · rintro ⟨i, j, h1, h2, h3, -, h5⟩
          exact ⟨j, by omega, by omega, h5⟩
    · constructor
      · rw [eraseLoop, if_neg hw, (ih (k + 1) _ _).1]
        constructor
        · rintro ⟨j, h1, h2, h3⟩
          exact ⟨j, by omega, by omega, h3⟩
        · rintro ⟨j, h1, h2, h3⟩
          refine ⟨j, ?_, by omega, h3⟩
          rcases Nat.lt_or_ge k j with h | h
          · exact h
          · exact absurd (by rwa [show j = k by omega] at h3) hw
      · rw [eraseLoop, if_neg hw, (ih (k + 1) _ _).2]
        constructor
        · rintro ⟨i, j, h1, h2, h3, h4, h5⟩
          exact ⟨i, j, by omega, h2, by omega, h4, h5⟩
        · rintro ⟨i, j, h1, h2, h3, h4, h5⟩
          refine ⟨i, j, ?_, h2, by omega, h4, h5⟩
          rcases Nat.lt_or_ge k i with h | h
          · exact h
          · exact absurd (by rwa [show i = k by omega] at h4) hw

/-- **The command buffer overflows at the second sector**: `idx` is not set to 0 in the loop. With addresses of 4 bytes, exactly when two sectors get to
their command. -/
theorem erase_overflow_iff (v : Dev) (we ok : Nat → Bool) (m : Mem) (a len : Nat) (hb : v.b4 = true) :
    extFlashErase v we ok m a len = none ↔ ∃ i j, i < j ∧ j < (len + v.S - 1) / v.S ∧ we i = true ∧ we j = true := by
  unfold extFlashErase
  rw [(erase_ub_run v we ok a hb _ 0 m 0).2]
  constructor
  · rintro ⟨i, j, -, h2, h3, h4, h5⟩
    exact ⟨i, j, h2, by omega, h4, h5⟩
  · rintro ⟨i, j, h2, h3, h4, h5⟩
    exact ⟨i, j, Nat.zero_le _, h2, by omega, h4, h5⟩

/-- Every erase of more than a sector, if nothing fails. -/
theorem erase_overflow (v : Dev) (ok : Nat → Bool) (m : Mem) (a len : Nat) (hb : v.b4 = true) (hS : 0 < v.S) (h : v.S < len) :
    extFlashErase v (fun _ => true) ok m a len = none := by
  rw [erase_overflow_iff v _ ok m a len hb]
  refine ⟨0, 1, by decide, ?_, rfl, rfl⟩
  apply (Nat.le_div_iff_mul_le hS).2
  omega

/-- **With addresses of 3 bytes the second sector is not erased**, and the result is success. -/
theorem erase_second_lost (v : Dev) (m : Mem) (a len : Nat) (hb : v.b4 = false) (hS : 0 < v.S) (h : v.S < len) (h2 : len ≤ 2 * v.S)
    (ha : a < v.limit) (he : v.stripe = true → a % 2 = 0) :
    extFlashErase v (fun _ => true) (fun _ => true) m a len = some ((fun i => if i / v.S = a / v.S then 0xFF#8 else m i), 0) := by
  have hk : (len + v.S - 1) / v.S = 2 := by apply Nat.div_eq_of_lt_le <;> omega
  have hdec : decode v (addrBytes v (a + 0 * v.S)) = a := by
    rw [Nat.zero_mul, Nat.add_zero, decode_addr v a ha]
    split
    · have := he (by assumption); omega
    · rfl
  have hl : ∀ x, (0xD8 :: addrBytes v x).length = 4 := by intro x; rw [List.length_cons, addr_len, hb]; rfl
  unfold extFlashErase
  rw [hk, eraseLoop, if_pos rfl]
  simp only [hl]
  rw [if_neg (by omega), eraseLoop, if_pos rfl]
  simp only [hl]
  rw [if_neg (by omega), eraseLoop]
  simp only [List.replicate_zero, List.nil_append, execErase, hdec, Nat.zero_add, List.replicate_succ, List.cons_append, if_true]

/-- **An error at a sector before the last is forgotten.** -/
theorem erase_error_lost (v : Dev) (ok : Nat → Bool) (m : Mem) (a len : Nat) (hS : 0 < v.S) (h : v.S < len) (h2 : len ≤ 2 * v.S)
    (ha : a % v.S = 0) (hl : a + v.S < v.limit) (he : v.stripe = true → (a + v.S) % 2 = 0) (hok : ok 1 = true) :
    ∃ m', extFlashErase v (fun k => decide (k = 1)) ok m a len = some (m', 0) ∧ m' a = m a := by
  have hk : (len + v.S - 1) / v.S = 2 := by apply Nat.div_eq_of_lt_le <;> omega
  have hdec : decode v (addrBytes v (a + (0 + 1) * v.S)) = a + v.S := by
    rw [Nat.zero_add, Nat.one_mul, decode_addr v _ hl]
    split
    · have := he (by assumption); omega
    · rfl
  refine ⟨fun i => if i / v.S = (a + v.S) / v.S then 0xFF#8 else m i, ?_, ?_⟩
  · unfold extFlashErase
    rw [hk, eraseLoop, if_neg (by decide), eraseLoop, if_pos (by decide)]
    simp only [List.length_cons, addr_len]
    rw [if_neg (by split <;> omega), eraseLoop]
    simp only [List.replicate_zero, List.nil_append, execErase, hdec, Nat.zero_add, hok, if_true]
  · show (if _ then _ else _) = _
    rw [if_neg]
    rw [Nat.add_div_right _ hS]
    omega

/-- **Errors of a write are reported**: 0 exactly when `qspi_write_enable` succeeds for every page of `v.page` bytes, else -1. -/
theorem write_error (v : Dev) (we : Nat → Bool) (m : Mem) (a : Nat) (d : Mem) (len : Nat) :
    ((extFlashWrite v we m a d len).2 = 0 ∧ ∀ j, j < (len + (v.page - 1)) / v.page → we j = true) ∨
    ((extFlashWrite v we m a d len).2 = -1 ∧ ∃ j, j < (len + (v.page - 1)) / v.page ∧ we j = false) := by
  have key : ∀ k pg m len, ((writeLoop v we a d k pg m len).2 = 0 ∧ ∀ j, pg ≤ j → j < pg + k → we j = true) ∨
      ((writeLoop v we a d k pg m len).2 = -1 ∧ ∃ j, pg ≤ j ∧ j < pg + k ∧ we j = false) := by
    intro k
    induction k with
    | zero => intro pg m len; exact .inl ⟨rfl, fun j h1 h2 => absurd h2 (by omega)⟩
    | succ k ih =>
      intro pg m len
      rw [writeLoop]
      cases hw : we pg with
      | false =>
        refine .inr ⟨rfl, pg, Nat.le_refl _, by omega, hw⟩
      | true =>
        rw [if_pos rfl]
        rcases ih (pg + 1) (program v.page m (decode v (addrBytes v (a + pg * v.page))) (fun i => d (pg * v.page + i)) (min len v.page))
          (len - min len v.page) with ⟨h1, h2⟩ | ⟨h1, j, h2, h3, h4⟩
        · refine .inl ⟨h1, fun j h3 h4 => ?_⟩
          rcases Nat.eq_or_lt_of_le h3 with h | h
          · rw [← h]; exact hw
          · exact h2 j h (by omega)
        · exact .inr ⟨h1, j, by omega, by omega, h4⟩
  rcases key ((len + (v.page - 1)) / v.page) 0 m len with ⟨h1, h2⟩ | ⟨h1, j, -, h3, h4⟩
  · exact .inl ⟨h1, fun j h => h2 j (Nat.zero_le _) (by omega)⟩
  · exact .inr ⟨h1, j, by omega, h4⟩

/-- **The result of an erase is that of its last sector**. -/
theorem erase_last_error (v : Dev) (we ok : Nat → Bool) (m m' : Mem) (a len n : Nat) (r : Int) (hn : (len + v.S - 1) / v.S = n + 1)
    (h : extFlashErase v we ok m a len = some (m', r)) : r = if we n = true ∧ ok n = true then 0 else -1 := by
  have key : ∀ n k idx m ret, eraseLoop v we ok a (n + 1) k idx m ret = some (m', r) → r = if we (k + n) = true ∧ ok (k + n) = true then 0 else -1 := by
    intro n
    induction n with
    | zero =>
      intro k idx m ret h
      rw [eraseLoop] at h
      cases hw : we k with
      | false =>
        rw [hw, if_neg (by decide), eraseLoop, Option.some.injEq, Prod.mk.injEq] at h
        rw [Nat.add_zero, if_neg (by simp)]
        exact h.2.symm
      | true =>
        rw [hw, if_pos rfl] at h
        dsimp only at h
        split at h
        · cases h
        · rw [eraseLoop, Option.some.injEq, Prod.mk.injEq] at h
          rw [Nat.add_zero, ← h.2]
          simp
    | succ n ih =>
      intro k idx m ret h
      have e : k + (n + 1) = k + 1 + n := by omega
      rw [e]
      rw [eraseLoop] at h
      split at h
      · dsimp only at h
        split at h
        · cases h
        · exact ih _ _ _ _ h
      · exact ih _ _ _ _ h
  unfold extFlashErase at h
  rw [hn] at h
  have := key n 0 0 m 0 h
  rw [Nat.zero_add] at this
  exact this

end Verif.Zynq
