import Verif.Imx

/-!
# What the flash drivers of the i.MX RT and the Renesas RA guarantee
-/

namespace Verif.Imx

open Verif

/-- Flash after `n` bytes at `a` have been programmed: bits are cleared. -/
def cleared (m : Mem) (a : Nat) (d : Mem) (n : Nat) : Mem := fun i => if a ≤ i ∧ i < a + n then m i &&& d (i - a) else m i

theorem run_step (m d : Mem) (a Q Q' K K' i : Nat) (e1 : Q' = Q + 256) (e2 : K' = K + 256) (hQ : (a + Q) % 256 = 0) (h1 : ¬ i / 256 = (a + Q) / 256) :
    (if a + Q' ≤ i ∧ i < a + Q' + K then m i &&& d (Q' + (i - (a + Q'))) else m i) =
      if a + Q ≤ i ∧ i < a + Q + K' then m i &&& d (Q + (i - (a + Q))) else m i := by
  by_cases h2 : a + Q' ≤ i ∧ i < a + Q' + K
  · rw [if_pos h2, if_pos (by omega), show Q' + (i - (a + Q')) = Q + (i - (a + Q)) by omega]
  · rw [if_neg h2, if_neg (by omega)]

theorem imx_run (ok : Nat → Bool) (a : Nat) (d : Mem) (ha : a % 256 = 0) : ∀ k q m, (∀ j, q ≤ j → j < q + k → ok j = true) →
    loop ok a d k q m = (cleared m (a + q * 256) (fun j => d (q * 256 + j)) (k * 256), 0) := by
  intro k
  induction k with
  | zero =>
    intro q m _
    rw [loop, Prod.mk.injEq]
    refine ⟨?_, rfl⟩
    funext i
    rw [cleared, if_neg (by omega)]
  | succ k ih =>
    intro q m h
    rw [loop, if_pos (h q (Nat.le_refl _) (by omega)), ih _ _ (fun j h1 h2 => h j (by omega) (by omega)), Prod.mk.injEq]
    refine ⟨?_, rfl⟩
    funext i
    unfold cleared program
    have hQ : (a + q * 256) % 256 = 0 := by omega
    by_cases h1 : i / 256 = (a + q * 256) / 256
    · rw [if_neg (by omega), if_pos h1, if_pos (by omega), show (i % 256 + 256 - (a + q * 256) % 256) % 256 = i - (a + q * 256) by omega]
    · rw [if_neg h1]
      exact run_step m d a (q * 256) ((q + 1) * 256) (k * 256) ((k + 1) * 256) i (Nat.succ_mul q 256) (Nat.succ_mul k 256) hQ h1

/-- **What a write of the i.MX RT programs** from the start of a page: whole pages. -/
theorem imx_write (ok : Nat → Bool) (m : Mem) (a : Nat) (d : Mem) (len : Nat) (ha : a % 256 = 0) (h : ∀ j, j < (len + 255) / 256 → ok j = true) :
    imxWrite ok m a d len = (cleared m a d ((len + 255) / 256 * 256), 0) := by
  unfold imxWrite
  rw [imx_run ok a d ha _ 0 m (fun j _ h2 => h j (by omega)), Nat.zero_mul, Nat.add_zero]
  simp only [Nat.zero_add]

/-- **A write of whole pages is exact.** -/
theorem imx_write_pages (ok : Nat → Bool) (m : Mem) (a : Nat) (d : Mem) (len : Nat) (ha : a % 256 = 0) (hl : len % 256 = 0) (h : ∀ j, ok j = true) :
    imxWrite ok m a d len = (cleared m a d len, 0) := by
  rw [imx_write ok m a d len ha (fun j _ => h j), show (len + 255) / 256 * 256 = len by omega]

/-- **Other lengths program what is in memory after the data.** -/
theorem imx_overread (ok : Nat → Bool) (m : Mem) (a : Nat) (d : Mem) (len : Nat) (ha : a % 256 = 0) (hl : len % 256 ≠ 0) (h : ∀ j, ok j = true) :
    (imxWrite ok m a d len).1 (a + len) = m (a + len) &&& d len := by
  rw [imx_write ok m a d len ha (fun j _ => h j)]
  show (if _ then _ else _) = _
  rw [if_pos (by omega), Nat.add_sub_cancel_left]

/-- **A write of up to a page within a page changes the bytes before it**: with what follows the data. -/
theorem imx_wraps (ok : Nat → Bool) (m : Mem) (a : Nat) (d : Mem) (len : Nat) (ha : a % 256 ≠ 0) (h0 : 0 < len) (hl : len ≤ 256) (h : ok 0 = true) :
    (imxWrite ok m a d len).1 (a - a % 256) = m (a - a % 256) &&& d (256 - a % 256) := by
  unfold imxWrite
  rw [show (len + 255) / 256 = 1 by omega, loop, if_pos h, loop]
  dsimp only
  unfold program
  rw [Nat.zero_mul, Nat.add_zero, if_pos (by omega), show ((a - a % 256) % 256 + 256 - a % 256) % 256 = 256 - a % 256 by omega]
  dsimp only
  rw [Nat.zero_add]

/-- **Errors of the i.MX RT are reported**, and end the write. -/
theorem imx_error (ok : Nat → Bool) (m : Mem) (a : Nat) (d : Mem) (len : Nat) (n : Nat) (hn : n < (len + 255) / 256) (ha : a % 256 = 0)
    (hk : ∀ j, j < n → ok j = true) (h : ok n = false) : imxWrite ok m a d len = (cleared m a d (n * 256), -1) := by
  have key : ∀ n k q m, n < k → (∀ j, q ≤ j → j < q + n → ok j = true) → ok (q + n) = false →
      loop ok a d k q m = ((loop ok a d n q m).1, -1) := by
    intro n
    induction n with
    | zero =>
      intro k q m h1 _ h3
      obtain ⟨k, rfl⟩ : ∃ j, k = j + 1 := ⟨k - 1, by omega⟩
      rw [Nat.add_zero] at h3
      simp [loop, h3]
    | succ n ih =>
      intro k q m h1 h2 h3
      obtain ⟨k, rfl⟩ : ∃ j, k = j + 1 := ⟨k - 1, by omega⟩
      rw [loop, loop, if_pos (h2 q (Nat.le_refl _) (by omega)), if_pos (h2 q (Nat.le_refl _) (by omega))]
      exact ih k (q + 1) _ (by omega) (fun j h4 h5 => h2 j (by omega) (by omega)) (by rw [show q + 1 + n = q + (n + 1) by omega]; exact h3)
  unfold imxWrite
  rw [key n _ 0 m hn (fun j _ h2 => hk j (by omega)) (by rw [Nat.zero_add]; exact h),
    imx_run ok a d ha n 0 m (fun j _ h2 => hk j (by omega)), Nat.zero_mul, Nat.add_zero]
  simp only [Nat.zero_add]

/-- **The whole range leaves the cache exactly when the offsets of address and length fit in a line.** -/
theorem imx_cache (a len : Nat) (h0 : 0 < len) :
    (∀ i, a ≤ i → i < a + len → (invalidated a len).1 ≤ i ∧ i < (invalidated a len).1 + (invalidated a len).2) ↔ a % 32 + len % 32 ≤ 32 := by
  unfold invalidated
  dsimp only
  constructor
  · intro h
    have := h (a + len - 1) (by omega) (by omega)
    omega
  · intro h i h1 h2
    omega

/-- Never less than whole lines, from the start of the line with the address. -/
theorem imx_cache_lines (a len : Nat) : (invalidated a len).1 % 32 = 0 ∧ (invalidated a len).2 % 32 = 0 ∧ (invalidated a len).1 ≤ a ∧
    a < (invalidated a len).1 + 32 ∧ len < (invalidated a len).2 ∧ (invalidated a len).2 ≤ len + 32 := by
  unfold invalidated
  dsimp only
  omega

theorem erase_run (bs : Nat) : ∀ n a m i,
    ((∃ j, j < n ∧ blk (a + j * bs) = blk i) → eraseLoop bs n a m i = 0xFF#8) ∧
    ((∀ j, j < n → blk (a + j * bs) ≠ blk i) → eraseLoop bs n a m i = m i) := by
  have keep : ∀ n a m i, m i = 0xFF#8 → eraseLoop bs n a m i = 0xFF#8 := by
    intro n
    induction n with
    | zero => intro a m i h; exact h
    | succ n ih =>
      intro a m i h
      rw [eraseLoop]
      apply ih
      unfold eraseBlk
      split
      · rfl
      · exact h
  intro n
  induction n with
  | zero => intro a m i; exact ⟨fun ⟨j, h, _⟩ => absurd h (by omega), fun _ => rfl⟩
  | succ n ih =>
    intro a m i
    rw [eraseLoop]
    constructor
    · rintro ⟨j, h1, h2⟩
      cases j with
      | zero =>
        apply keep
        rw [Nat.zero_mul, Nat.add_zero] at h2
        rw [eraseBlk, if_pos h2.symm]
      | succ j =>
        refine (ih _ _ _).1 ⟨j, by omega, ?_⟩
        rw [← h2, Nat.succ_mul, show a + bs + j * bs = a + (j * bs + bs) by omega]
    · intro h
      rw [(ih _ _ _).2 fun j hj => by
        have := h (j + 1) (by omega)
        rw [Nat.succ_mul, show a + (j * bs + bs) = a + bs + j * bs by omega] at this
        exact this]
      have := h 0 (by omega)
      rw [Nat.zero_mul, Nat.add_zero] at this
      rw [eraseBlk, if_neg (Ne.symm this)]

/-- **An erase of the RA erases exactly its range**, from the start of a block, within the small blocks or within the large ones. -/
theorem ra_erase (m : Mem) (a len : Nat) (ha : a % blockSize a = 0) (hl : len % blockSize a = 0) (h : 0x10000 ≤ a ∨ a + len ≤ 0x10000) :
    raErase m a len = ((fun i => if a ≤ i ∧ i < a + len then 0xFF#8 else m i), 0) := by
  unfold raErase
  rw [if_neg (by omega), Prod.mk.injEq]
  refine ⟨?_, rfl⟩
  funext i
  unfold blockSize at *
  by_cases hc : 0x10000 ≤ a
  · rw [if_pos hc] at *
    by_cases hi : a ≤ i ∧ i < a + len
    · rw [if_pos hi]
      refine (erase_run _ _ a m i).1 ⟨(i - a) / 0x8000, by omega, ?_⟩
      unfold blk
      rw [if_neg (by omega), if_neg (by omega)]
      omega
    · rw [if_neg hi]
      refine (erase_run _ _ a m i).2 fun j hj => ?_
      unfold blk
      rw [if_neg (by omega)]
      split <;> omega
  · rw [if_neg hc] at *
    by_cases hi : a ≤ i ∧ i < a + len
    · rw [if_pos hi]
      refine (erase_run _ _ a m i).1 ⟨(i - a) / 0x2000, by omega, ?_⟩
      unfold blk
      rw [if_pos (by omega), if_pos (by omega)]
      omega
    · rw [if_neg hi]
      refine (erase_run _ _ a m i).2 fun j hj => ?_
      unfold blk
      rw [if_pos (by omega)]
      split <;> omega

/-- **An erase from the small blocks into the large ones erases more than asked for**: up to the end of a large block. -/
theorem ra_erase_over (m : Mem) (a len : Nat) (ha : a % 0x2000 = 0) (h1 : a < 0x10000) (hl : len % 0x2000 = 0) (h : 0x10000 < a + len) :
    raErase m a len = ((fun i => if a ≤ i ∧ i < (a + len + 0x7FFF) / 0x8000 * 0x8000 then 0xFF#8 else m i), 0) := by
  have hb : blockSize a = 0x2000 := by rw [blockSize, if_neg (by omega)]
  unfold raErase
  rw [hb, if_neg (by omega), Prod.mk.injEq]
  refine ⟨?_, rfl⟩
  funext i
  by_cases hi : a ≤ i ∧ i < (a + len + 0x7FFF) / 0x8000 * 0x8000
  · rw [if_pos hi]
    by_cases h3 : i < 0x10000
    · refine (erase_run _ _ a m i).1 ⟨(i - a) / 0x2000, by omega, ?_⟩
      unfold blk
      rw [if_pos (by omega), if_pos (by omega)]
      omega
    · refine (erase_run _ _ a m i).1 ⟨(i / 0x8000 * 0x8000 - a) / 0x2000, by omega, ?_⟩
      unfold blk
      rw [if_neg (by omega), if_neg (by omega)]
      omega
  · rw [if_neg hi]
    refine (erase_run _ _ a m i).2 fun j hj => ?_
    unfold blk
    split <;> split <;> omega

/-- A length that is no multiple of the size of the block of the address is refused, and nothing is erased. -/
theorem ra_erase_refused (m : Mem) (a len : Nat) (h : len % blockSize a ≠ 0) : raErase m a len = (m, -1) := by rw [raErase, if_pos h]

theorem block_run (d : Mem) : ∀ n p a m, blockWrite d n p a m = cleared m a (fun j => d (p + j)) (n * 128) := by
  intro n
  induction n with
  | zero => intro p a m; funext i; rw [blockWrite, cleared, if_neg (by omega)]
  | succ n ih =>
    intro p a m
    rw [blockWrite, ih]
    funext i
    unfold cleared write
    by_cases h1 : a ≤ i ∧ i < a + 128
    · rw [if_neg (by omega), if_pos h1, if_pos (by omega)]
    · rw [if_neg h1]
      by_cases h2 : a + 128 ≤ i ∧ i < a + 128 + n * 128
      · rw [if_pos h2, if_pos (by omega)]
        dsimp only
        rw [show p + 128 + (i - (a + 128)) = p + (i - a) by omega]
      · rw [if_neg h2, if_neg (by omega)]

/-- **A write of the RA is exact** for address and length that are multiples of 128. -/
theorem ra_write (m : Mem) (a : Nat) (d : Mem) (len : Nat) (ha : a % 128 = 0) (hl : len % 128 = 0) : raWrite m a d len = cleared m a d len := by
  unfold raWrite raRest
  dsimp only
  rw [if_pos ha, if_pos hl, block_run, show len / 128 * 128 = len by omega]
  simp only [Nat.zero_add]

/-- **For other lengths a whole block is erased**: from the start of 128 bytes, a write of less than 128 bytes sets its bytes, keeps the others of the 128,
and loses the rest of the block. -/
theorem ra_write_tail (m : Mem) (a : Nat) (d : Mem) (len : Nat) (ha : a % 128 = 0) (h0 : 0 < len) (hl : len < 128) (i : Nat) :
    raWrite m a d len i = if a ≤ i ∧ i < a + len then d (i - a) else if a ≤ i ∧ i < a + 128 then m i else if blk i = blk a then 0xFF#8 else m i := by
  have hb : a ≤ i ∧ i < a + 128 → blk i = blk a := by
    intro h
    unfold blk
    split <;> split <;> omega
  have hff : ∀ x : Byte, 0xFF#8 &&& x = x := fun x => by
    rw [show (0xFF#8 : Byte) = BitVec.allOnes 8 by decide, BitVec.allOnes_and]
  unfold raWrite raRest
  dsimp only
  rw [if_pos ha, show len / 128 = 0 by omega, if_neg (by omega), blockWrite, Nat.zero_mul, Nat.add_zero, show len % 128 = len by omega]
  unfold write eraseBlk
  by_cases h1 : a ≤ i ∧ i < a + 128
  · rw [if_pos h1, if_pos (hb h1), hff, if_pos h1]
    dsimp only
    by_cases h2 : i < a + len
    · rw [if_pos (show i - a < len by omega), if_pos ⟨h1.1, h2⟩, Nat.add_zero, Nat.zero_add]
    · rw [if_neg (show ¬ i - a < len by omega), if_neg (fun h => h2 h.2), show a + (i - a) = i by omega]
  · rw [if_neg h1, if_neg (show ¬ (a ≤ i ∧ i < a + len) by omega), if_neg h1]

/-- **From other addresses data goes to the wrong place**: with an offset `o` in the 128 bytes, byte `o` of the data goes to the next 128 bytes, not to `a + o`. -/
theorem ra_write_misplaced (m : Mem) (a : Nat) (d : Mem) (o : Nat) (ho : a % 128 = o) (h0 : 0 < o) (h64 : o < 64) (hb : blk (a - o + 128) = blk (a - o)) :
    raWrite m a d (o + 128) (a - o + 128) = m (a - o + 128) &&& d o ∧ a + o < a - o + 128 ∧ raWrite m a d (o + 128) (a + o) = m (a + o) := by
  have hff : ∀ x : Byte, 0xFF#8 &&& x = x := fun x => by
    rw [show (0xFF#8 : Byte) = BitVec.allOnes 8 by decide, BitVec.allOnes_and]
  have hb2 : blk (a + o) = blk (a - o) := by
    unfold blk
    split <;> split <;> omega
  unfold raWrite raRest
  dsimp only
  rw [ho, if_neg (by omega), show min o (o + 128) = o by omega, show o + 128 - o = 128 by omega, if_pos (by decide), block_run]
  unfold cleared write eraseBlk
  refine ⟨?_, by omega, ?_⟩
  · rw [if_pos (by omega), if_pos (by omega), if_pos hb, hff]
    dsimp only
    rw [if_neg (show ¬ (o ≤ a - o + 128 - (a - o) ∧ a - o + 128 - (a - o) < o + o) by omega), Nat.sub_self (a - o + 128), Nat.add_zero o,
      show a - o + (a - o + 128 - (a - o)) = a - o + 128 by omega]
  · rw [if_neg (by omega), if_pos (by omega), if_pos hb2, hff]
    dsimp only
    rw [if_neg (show ¬ (o ≤ a + o - (a - o) ∧ a + o - (a - o) < o + o) by omega), show a - o + (a + o - (a - o)) = a + o by omega]

/-- **What a write of the RA leaves**, from a multiple of 128 with a length that is none: the last bytes are written after an erase of their block, which
takes with it what has just been written before. -/
theorem ra_write_rest (m : Mem) (a : Nat) (d : Mem) (q r : Nat) (ha : a % 128 = 0) (h0 : 0 < r) (hr : r < 128) (i : Nat) :
    raWrite m a d (q * 128 + r) i = if a + q * 128 ≤ i ∧ i < a + q * 128 + r then d (i - a) else if a + q * 128 ≤ i ∧ i < a + q * 128 + 128 then m i
      else if blk i = blk (a + q * 128) then 0xFF#8 else if a ≤ i ∧ i < a + q * 128 then m i &&& d (i - a) else m i := by
  have hb : a + q * 128 ≤ i ∧ i < a + q * 128 + 128 → blk i = blk (a + q * 128) := by
    intro h
    have : (a + q * 128) % 128 = 0 := by omega
    generalize a + q * 128 = b at *
    unfold blk
    split <;> split <;> omega
  have hff : ∀ x : Byte, 0xFF#8 &&& x = x := fun x => by
    rw [show (0xFF#8 : Byte) = BitVec.allOnes 8 by decide, BitVec.allOnes_and]
  unfold raWrite raRest
  dsimp only
  rw [if_pos ha, show (q * 128 + r) / 128 = q by omega, show (q * 128 + r) % 128 = r by omega, if_neg (by omega), block_run]
  unfold write eraseBlk cleared
  by_cases h1 : a + q * 128 ≤ i ∧ i < a + q * 128 + 128
  · rw [if_pos h1, if_pos (hb h1), hff, if_pos h1]
    dsimp only
    by_cases h2 : i < a + q * 128 + r
    · rw [if_pos (show i - (a + q * 128) < r by omega), if_pos ⟨h1.1, h2⟩, show 0 + q * 128 + (i - (a + q * 128)) = i - a by omega]
    · rw [if_neg (show ¬ i - (a + q * 128) < r by omega), show a + q * 128 + (i - (a + q * 128)) = i by omega,
        if_neg (show ¬ (a ≤ i ∧ i < a + q * 128) by omega), if_neg (fun h => h2 h.2)]
  · rw [if_neg h1, if_neg (show ¬ (a + q * 128 ≤ i ∧ i < a + q * 128 + r) by omega), if_neg h1]
    simp only [Nat.zero_add]

/-- **A write of more than 128 bytes loses its start** when the length is no multiple of 128 and the write stays in a block; success is returned. -/
theorem ra_write_loses (m : Mem) (a : Nat) (d : Mem) (len : Nat) (ha : a % 128 = 0) (hl : len % 128 ≠ 0) (h : 128 < len)
    (hb : blk a = blk (a + len / 128 * 128)) : raWrite m a d len a = 0xFF#8 := by
  have e := ra_write_rest m a d (len / 128) (len % 128) ha (by omega) (by omega) a
  rw [show len / 128 * 128 + len % 128 = len by omega] at e
  rw [e, if_neg (by omega), if_neg (by omega), if_pos hb]

end Verif.Imx
