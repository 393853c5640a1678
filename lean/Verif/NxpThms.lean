import Verif.Nxp

/-!
# What the flash drivers of the NXP processors do
-/

namespace Verif.Nxp

open Verif

/-- The first two pages of a read are not marked. -/
def Clean (c : Chip) (a : Nat) : Prop := c.mark (a / c.PS) = 0xFF#8 ∧ c.mark (a / c.PS + 1) = 0xFF#8

theorem copied_zero (n : Nat) : copied 0 n = (n + 3) / 4 * 4 := by
  unfold copied
  split
  · rfl
  · have : n = 0 := by omega
    subst this
    rfl

theorem read_run (c : Chip) (ok : Nat → Bool) (len : Nat) (hP : 0 < c.PS) (h4 : c.PS % 4 = 0) (hl : c.PS ≤ len) (hok : ∀ t, ok t = true)
    (p0 o j : Nat) (hm : ∀ q, j + q < 2 → c.mark (p0 + q) = 0xFF#8) : ∀ k f t q out, len ≤ (q + k) * c.PS → (k ≠ 0 → (q + k - 1) * c.PS < len) → k ≤ f →
    readLoop c ok len f t { addr := (p0 + q) * c.PS, pos := q * c.PS, off := o + q * c.PS, i := j + q, out := out } =
      some (wr out (o + q * c.PS) (fun j => c.m ((p0 + q) * c.PS + j)) (k * c.PS)) := by
  intro k
  induction k with
  | zero =>
    intro f t q out h1 _ _
    have h5 : len ≤ q * c.PS := h1
    have h6 : wr out (o + q * c.PS) (fun j => c.m ((p0 + q) * c.PS + j)) (0 * c.PS) = out := by
      funext i
      simp only [wr]
      rw [if_neg (by omega)]
    rw [h6]
    cases f with
    | zero => rw [readLoop, if_pos h5]
    | succ f => rw [readLoop, if_pos h5]
  | succ k ih =>
    intro f t q out h1 h2 h3
    obtain ⟨g, rfl⟩ : ∃ g, f = g + 1 := ⟨f - 1, by omega⟩
    have hlt := h2 (by omega)
    have e0 : q + (k + 1) - 1 = q + k := by omega
    rw [e0] at hlt
    have hle : q * c.PS ≤ (q + k) * c.PS := Nat.mul_le_mul_right _ (by omega)
    have e1 : (p0 + q) * c.PS / c.PS = p0 + q := Nat.mul_div_cancel _ hP
    have e2 : (p0 + q) * c.PS % c.PS = 0 := Nat.mul_mod_left _ _
    have e3 : copied 0 (min len c.PS) = c.PS := by rw [copied_zero]; omega
    have e4 : (q + 1) * c.PS = q * c.PS + c.PS := Nat.succ_mul _ _
    have e5 : (p0 + (q + 1)) * c.PS = (p0 + q) * c.PS + c.PS := by rw [← Nat.add_assoc]; exact Nat.succ_mul _ _
    have e6 : (k + 1) * c.PS = k * c.PS + c.PS := Nat.succ_mul _ _
    rw [readLoop, if_neg (by dsimp only; omega), if_pos (hok t)]
    dsimp only
    rw [e1, e2, e3, if_neg (by
      rintro ⟨g1, g2⟩
      exact g2 (hm q g1))]
    rw [Nat.sub_zero, Nat.add_assoc o, Nat.add_assoc j, ← e4, ← e5]
    rw [ih g (t + 1) (q + 1) _ (by rw [show q + 1 + k = q + (k + 1) by omega]; exact h1) (by
      intro _
      rw [show q + 1 + k - 1 = q + k by omega]
      exact hlt) (by omega)]
    congr 1
    funext i
    simp only [wr, e4, e5, e6]
    by_cases c1 : o + (q * c.PS + c.PS) ≤ i ∧ i < o + (q * c.PS + c.PS) + k * c.PS
    · rw [if_pos c1, if_pos (by omega)]
      congr 1
      omega
    · rw [if_neg c1]
      by_cases c2 : o + q * c.PS ≤ i ∧ i < o + q * c.PS + c.PS
      · rw [if_pos c2, if_pos (by omega)]
        simp only [Chip.buf, Nat.zero_add]
        rw [if_pos (by omega)]
      · rw [if_neg c2, if_neg (by omega)]

/-- The number of pages for a length. -/
def pagesFor (PS len : Nat) : Nat := (len + PS - 1) / PS

/-- **What a read of the P1021 writes**: from the start of a page, for at least a page: whole pages, whatever the marks of later blocks are. -/
theorem p1021_read (c : Chip) (ok : Nat → Bool) (f a : Nat) (out : Mem) (len : Nat) (hP : 0 < c.PS) (h4 : c.PS % 4 = 0) (hl : c.PS ≤ len)
    (ha : a % c.PS = 0) (hok : ∀ t, ok t = true) (hc : Clean c a) (hf : pagesFor c.PS len ≤ f) :
    extFlashRead c ok f a out len = some (wr out 0 (fun j => c.m (a + j)) (pagesFor c.PS len * c.PS)) := by
  have h1 := Nat.div_add_mod (len + c.PS - 1) c.PS
  have h2 := Nat.mod_lt (len + c.PS - 1) hP
  rw [Nat.mul_comm] at h1
  have h3 : a / c.PS * c.PS = a := by have := Nat.div_add_mod a c.PS; rw [ha, Nat.mul_comm] at this; exact this
  have hr := read_run c ok len hP h4 hl hok (a / c.PS) 0 0 (by
    intro q hq
    have : q = 0 ∨ q = 1 := by omega
    rcases this with rfl | rfl
    · exact hc.1
    · exact hc.2) (pagesFor c.PS len) f 0 0 out (by
    rw [Nat.zero_add]; unfold pagesFor; omega) (by
    intro hk
    obtain ⟨b, hb⟩ : ∃ b, pagesFor c.PS len = b + 1 := ⟨pagesFor c.PS len - 1, by omega⟩
    have hb' : (len + c.PS - 1) / c.PS = b + 1 := hb
    rw [hb', Nat.succ_mul] at h1
    rw [hb, show 0 + (b + 1) - 1 = b by omega]
    omega) hf
  simp only [Nat.add_zero, Nat.zero_mul, h3] at hr
  exact hr

/-- **Whole pages are read correctly.** -/
theorem p1021_read_pages (c : Chip) (ok : Nat → Bool) (f a : Nat) (out : Mem) (len : Nat) (hP : 0 < c.PS) (h4 : c.PS % 4 = 0) (h0 : 0 < len)
    (hl : len % c.PS = 0) (ha : a % c.PS = 0) (hok : ∀ t, ok t = true) (hc : Clean c a) (hf : len / c.PS ≤ f) :
    extFlashRead c ok f a out len = some fun i => if i < len then c.m (a + i) else out i := by
  obtain ⟨k, rfl⟩ := Nat.dvd_of_mod_eq_zero hl
  have hk : 0 < k := Nat.pos_of_mul_pos_left h0
  have e1 : pagesFor c.PS (c.PS * k) = k := by
    unfold pagesFor
    apply Nat.div_eq_of_lt_le
    · rw [Nat.mul_comm k]; omega
    · rw [Nat.succ_mul, Nat.mul_comm k]; omega
  rw [Nat.mul_div_cancel_left _ hP] at hf
  rw [p1021_read c ok f a out _ hP h4 (Nat.le_mul_of_pos_right _ hk) ha hok hc (by rw [e1]; exact hf), e1, Nat.mul_comm k]
  congr 1
  funext i
  simp [wr]

/-- **A longer read that is not whole pages writes past the end of the buffer.** -/
theorem p1021_read_overrun (c : Chip) (ok : Nat → Bool) (f a : Nat) (out : Mem) (len : Nat) (hP : 0 < c.PS) (h4 : c.PS % 4 = 0) (hl : c.PS ≤ len)
    (hr : len % c.PS ≠ 0) (ha : a % c.PS = 0) (hok : ∀ t, ok t = true) (hc : Clean c a) (hf : pagesFor c.PS len ≤ f) :
    ∃ o, extFlashRead c ok f a out len = some o ∧ o len = c.m (a + len) := by
  refine ⟨_, p1021_read c ok f a out len hP h4 hl ha hok hc hf, ?_⟩
  simp only [wr, Nat.sub_zero]
  rw [if_pos]
  refine ⟨Nat.zero_le _, ?_⟩
  have h1 := Nat.div_add_mod len c.PS
  have h5 : len / c.PS + 1 ≤ pagesFor c.PS len := by
    unfold pagesFor
    apply (Nat.le_div_iff_mul_le hP).2
    rw [Nat.succ_mul, Nat.mul_comm]
    omega
  have h6 := Nat.mul_le_mul_right c.PS h5
  have h7 := Nat.mod_lt len hP
  rw [Nat.succ_mul, Nat.mul_comm] at h6
  omega

/-- **If the second page is marked as bad, the first page stays in the buffer**: the read starts again in the next block, but `data` is not set back. All
bytes after the first page are wrong, and a page too much is written. -/
theorem p1021_second_bad (c : Chip) (ok : Nat → Bool) (f b k : Nat) (out : Mem) (len : Nat) (hP : 0 < c.PS) (h4 : c.PS % 4 = 0) (hB : c.B = k * c.PS)
    (hk : 2 ≤ k) (hl : c.PS < len) (hok : ∀ t, ok t = true) (hm : c.mark (b * k) = 0xFF#8) (hm1 : c.mark (b * k + 1) ≠ 0xFF#8)
    (hf : pagesFor c.PS len ≤ f) :
    extFlashRead c ok (f + 2) (b * c.B) out len =
      some (wr (wr out 0 (fun j => c.m (b * c.B + j)) c.PS) c.PS (fun j => c.m ((b + 1) * c.B + j)) (pagesFor c.PS len * c.PS)) := by
  have h1 := Nat.div_add_mod (len + c.PS - 1) c.PS
  have h2 := Nat.mod_lt (len + c.PS - 1) hP
  rw [Nat.mul_comm] at h1
  have ha : b * c.B = b * k * c.PS := by rw [hB, Nat.mul_assoc]
  have hb1 : (b + 1) * c.B = (b + 1) * k * c.PS := by rw [hB, Nat.mul_assoc]
  have e1 : b * k * c.PS / c.PS = b * k := Nat.mul_div_cancel _ hP
  have e2 : b * k * c.PS % c.PS = 0 := Nat.mul_mod_left _ _
  have e3 : copied 0 (min len c.PS) = c.PS := by rw [copied_zero]; omega
  have e4 : b * k * c.PS + c.PS = (b * k + 1) * c.PS := (Nat.succ_mul _ _).symm
  have e5 : (b * k + 1) * c.PS / c.PS = b * k + 1 := Nat.mul_div_cancel _ hP
  have hkP : 2 * c.PS ≤ k * c.PS := Nat.mul_le_mul_right _ hk
  have hB0 : 0 < c.B := by omega
  have e6 : ((b * k + 1) * c.PS + c.B) / c.B * c.B = (b + 1) * k * c.PS := by
    rw [← e4, ← ha, ← hb1, Nat.add_div_right _ hB0]
    have : (b * c.B + c.PS) / c.B = b := by
      apply Nat.div_eq_of_lt_le
      · omega
      · rw [Nat.succ_mul]; omega
    rw [this]
  have e7 : c.PS / c.B * c.B = 0 := by rw [Nat.div_eq_of_lt (by omega), Nat.zero_mul]
  unfold extFlashRead
  rw [readLoop, if_neg (by dsimp only; omega), if_pos (hok 0)]
  dsimp only
  rw [ha, e1, e2, e3, if_neg (fun h => h.2 hm), Nat.sub_zero, Nat.zero_add, e4]
  rw [readLoop, if_neg (by dsimp only; omega), if_pos (hok _)]
  dsimp only
  rw [e5, if_pos ⟨by omega, hm1⟩, e6, Nat.zero_add, e7]
  have hr := read_run c ok len hP h4 (by omega) hok ((b + 1) * k) c.PS 2 (by intro q hq; omega) (pagesFor c.PS len) f 2 0
    (wr out 0 (fun j => c.buf (b * k) (0 + j)) c.PS) (by rw [Nat.zero_add]; unfold pagesFor; omega) (by
    intro hk
    obtain ⟨b, hb⟩ : ∃ b, pagesFor c.PS len = b + 1 := ⟨pagesFor c.PS len - 1, by omega⟩
    have hb' : (len + c.PS - 1) / c.PS = b + 1 := hb
    rw [hb', Nat.succ_mul] at h1
    rw [hb, show 0 + (b + 1) - 1 = b by omega]
    omega) hf
  simp only [Nat.add_zero, Nat.zero_mul] at hr
  have e8 : wr out 0 (fun j => c.buf (b * k) (0 + j)) c.PS = wr out 0 (fun j => c.m (b * k * c.PS + j)) c.PS := by
    funext i
    simp only [wr, Chip.buf, Nat.zero_add]
    by_cases ci : 0 ≤ i ∧ i < c.PS
    · rw [if_pos ci, if_pos ci, if_pos (by omega)]
    · rw [if_neg ci, if_neg ci]
  rw [← e8, hb1]
  exact hr

/-- **A short read within a page can give nothing**: with `len ≤ col` no byte is copied, but the read ends with success. The flags at the end of a
partition are read so. -/
theorem p1021_read_nothing (c : Chip) (ok : Nat → Bool) (f a : Nat) (out : Mem) (len : Nat) (hP : 0 < c.PS) (hok : ∀ t, ok t = true)
    (hm : c.mark (a / c.PS) = 0xFF#8) (hl : len ≤ a % c.PS) (hfit : a % c.PS + len ≤ c.PS) : extFlashRead c ok (f + 1) a out len = some out := by
  have h1 := Nat.mod_lt a hP
  unfold extFlashRead
  by_cases h0 : len = 0
  · rw [readLoop, if_pos (by dsimp only; omega)]
  · rw [readLoop, if_neg (by dsimp only; omega), if_pos (hok 0)]
    dsimp only
    rw [if_neg (fun h => h.2 hm)]
    have e1 : copied (a % c.PS) (min len c.PS) = 0 := by
      unfold copied
      rw [if_neg (by omega)]
    have e2 : wr out 0 (fun j => c.buf (a / c.PS) (a % c.PS + j)) 0 = out := by
      funext i
      simp only [wr]
      rw [if_neg (by omega)]
    rw [e1, e2]
    cases f with
    | zero => rw [readLoop, if_pos (by dsimp only; omega)]
    | succ f => rw [readLoop, if_pos (by dsimp only; omega)]

/-- **A flash that does not answer makes a read hang**: no number of steps is enough. -/
theorem p1021_read_hangs (c : Chip) (f a : Nat) (out : Mem) (len : Nat) (h0 : 0 < len) : extFlashRead c (fun _ => false) f a out len = none := by
  have key : ∀ f t r, r.pos < len → readLoop c (fun _ => false) len f t r = none := by
    intro f
    induction f with
    | zero => intro t r h; rw [readLoop, if_neg (by omega)]
    | succ f ih =>
      intro t r h
      rw [readLoop, if_neg (by omega), if_neg (by decide)]
      exact ih _ _ h
  exact key f 0 _ h0

/-- **An erase erases the first block only**, whatever the length. -/
theorem p1021_erase (B : Nat) (m : Mem) (a len : Nat) (hB : 0 < B) (h : 0 < len) :
    extFlashErase B m a len = fun i => if i / B = a / B then 0xFF#8 else m i := by
  have key : ∀ n m, eraseLoop B a (n + 1) m = fun i => if i / B = a / B then 0xFF#8 else m i := by
    intro n
    induction n with
    | zero => intro m; rfl
    | succ n ih =>
      intro m
      rw [eraseLoop, ih]
      funext i
      try dsimp only
      split <;> rfl
  unfold extFlashErase
  obtain ⟨k, hk⟩ : ∃ k, (len + B - 1) / B = k + 1 := by
    have : 1 ≤ (len + B - 1) / B := (Nat.le_div_iff_mul_le hB).2 (by omega)
    exact ⟨(len + B - 1) / B - 1, by omega⟩
  rw [hk, key]

/-- Bits of the bytes in a range are cleared, all other bytes stay. -/
def cleared (m : Mem) (a : Nat) (d : Mem) (n : Nat) : Mem := fun i => if a ≤ i ∧ i < a + n then m i &&& d (i - a) else m i

theorem write_run (PS : Nat) (junk : Nat → Mem) (d : Mem) (len : Nat) (hP : 0 < PS) (h4 : PS % 4 = 0) (hl : PS ≤ len) : ∀ n p off m,
    writeLoop PS junk d len n (p * PS) off m = cleared m (p * PS) (fun j => d (off + j)) (n * PS) := by
  intro n
  induction n with
  | zero =>
    intro p off m
    funext i
    simp only [writeLoop, cleared]
    rw [if_neg (by omega)]
  | succ n ih =>
    intro p off m
    have e1 : p * PS / PS = p := Nat.mul_div_cancel _ hP
    have e2 : p * PS % PS = 0 := Nat.mul_mod_left _ _
    have e3 : copied 0 (min len PS) = PS := by rw [copied_zero]; omega
    have e4 : p * PS + PS = (p + 1) * PS := (Nat.succ_mul _ _).symm
    have e5 : (n + 1) * PS = n * PS + PS := Nat.succ_mul _ _
    rw [writeLoop]
    try dsimp only
    rw [e1, e2, e3, if_pos rfl, Nat.sub_zero, e4, ih]
    funext i
    simp only [cleared, wr, ← e4, e5]
    by_cases c1 : p * PS + PS ≤ i ∧ i < p * PS + PS + n * PS
    · rw [if_pos c1, if_neg (by omega), if_pos (by omega)]
      congr 2
      omega
    · rw [if_neg c1]
      by_cases c2 : p * PS ≤ i ∧ i < p * PS + PS
      · rw [if_pos (by omega), if_pos (by omega), if_pos (by omega), Nat.sub_zero]
      · rw [if_neg (by omega), if_neg (by omega)]

/-- **Whole pages are written correctly.** -/
theorem p1021_write_pages (PS : Nat) (junk : Nat → Mem) (m : Mem) (a : Nat) (d : Mem) (len : Nat) (hP : 0 < PS) (h4 : PS % 4 = 0) (h0 : 0 < len)
    (hl : len % PS = 0) (ha : a % PS = 0) : extFlashWrite PS junk m a d len = cleared m a d len := by
  obtain ⟨k, rfl⟩ := Nat.dvd_of_mod_eq_zero hl
  have hk : 0 < k := Nat.pos_of_mul_pos_left h0
  have h3 : a / PS * PS = a := by have := Nat.div_add_mod a PS; rw [ha, Nat.mul_comm] at this; exact this
  have e1 : (PS * k + a % PS + PS - 1) / PS = k := by
    rw [ha]
    apply Nat.div_eq_of_lt_le
    · rw [Nat.mul_comm k]; omega
    · rw [Nat.succ_mul, Nat.mul_comm k]; omega
  have hr := write_run PS junk d (PS * k) hP h4 (Nat.le_mul_of_pos_right _ hk) k (a / PS) 0 m
  unfold extFlashWrite
  rw [h3] at hr
  rw [e1, hr, Nat.mul_comm k]
  simp

/-- **A write of less than a page also programs the rest of the page**, with what is in the buffer of the controller. -/
theorem p1021_write_stale (PS : Nat) (junk : Nat → Mem) (m : Mem) (a : Nat) (d : Mem) (len : Nat) (h4 : PS % 4 = 0) (h0 : 0 < len) (hl : len < PS)
    (ha : a % PS = 0) (i : Nat) (h1 : a + (len + 3) / 4 * 4 ≤ i) (h2 : i < a + PS) :
    extFlashWrite PS junk m a d len i = m i &&& junk (a / PS) (i - a) := by
  have h3 : a / PS * PS = a := by have := Nat.div_add_mod a PS; rw [ha, Nat.mul_comm] at this; exact this
  have e1 : (len + a % PS + PS - 1) / PS = 1 := by
    rw [ha]
    apply Nat.div_eq_of_lt_le <;> omega
  have e2 : copied 0 (min len PS) = (len + 3) / 4 * 4 := by rw [copied_zero, Nat.min_eq_left (by omega)]
  unfold extFlashWrite
  rw [e1, writeLoop, writeLoop]
  try dsimp only
  rw [ha, if_pos rfl, e2, h3, if_pos (by omega)]
  simp only [wr]
  rw [if_neg (by omega)]

/-- **A write of a flag is lost**: with `len ≤ col` what is programmed does not depend on the data. -/
theorem p1021_write_lost (PS : Nat) (junk : Nat → Mem) (m : Mem) (a : Nat) (d d' : Mem) (len : Nat) (hP : 0 < PS) (hl : len ≤ a % PS)
    (hfit : a % PS + len ≤ PS) : extFlashWrite PS junk m a d len = extFlashWrite PS junk m a d' len := by
  have h1 := Nat.mod_lt a hP
  have e1 : copied (a % PS) (min len PS) = 0 := by
    unfold copied
    rw [if_neg (by omega)]
  have hle : (len + a % PS + PS - 1) / PS ≤ 1 := by
    have : (len + a % PS + PS - 1) / PS < 2 := (Nat.div_lt_iff_lt_mul hP).2 (by omega)
    omega
  have e2 : ∀ x : Mem, ∀ y : Mem, wr x (a % PS) y 0 = x := by
    intro x y
    funext i
    simp only [wr]
    rw [if_neg (by omega)]
  unfold extFlashWrite
  generalize (len + a % PS + PS - 1) / PS = n at *
  have : n = 0 ∨ n = 1 := by omega
  rcases this with rfl | rfl
  · rfl
  · rw [writeLoop, writeLoop, writeLoop, writeLoop]
    try dsimp only
    rw [e1, e2, e2]

theorem fill_spec (d : Mem) : ∀ n p i, i < 4 * n → (fill d n p)[i]? = some (d (p + i / 4 + i % 4)) := by
  intro n
  induction n with
  | zero => intro p i h; omega
  | succ n ih =>
    intro p i h
    rw [fill]
    by_cases h4 : i < 4
    · have : i = 0 ∨ i = 1 ∨ i = 2 ∨ i = 3 := by omega
      rcases this with rfl | rfl | rfl | rfl <;> rfl
    · rw [List.getElem?_append_right (by simpa using h4)]
      show (fill d n (p + 1))[i - 4]? = _
      rw [ih (p + 1) (i - 4) (by omega)]
      congr 2
      omega

theorem fill_length (d : Mem) : ∀ n p, (fill d n p).length = 4 * n := by
  intro n
  induction n with
  | zero => intro p; rfl
  | succ n ih => intro p; rw [fill, List.length_append, ih]; simp; omega

/-- **What the LS1028A sends for a part**: byte `i` is byte `i / 4 + i % 4` of the data. -/
theorem ls1028a_part (d : Mem) (size p i : Nat) (h : i < size) : (part d size p)[i]? = some (d (p + i / 4 + i % 4)) := by
  unfold part
  rw [List.getElem?_take_of_lt h]
  by_cases h1 : i < 4 * (size / 8 * 2)
  · rw [List.getElem?_append_left (by rw [fill_length]; exact h1)]
    exact fill_spec d _ p i h1
  · rw [List.getElem?_append_right (by rw [fill_length]; omega), fill_length, if_neg (by omega)]
    unfold rest
    by_cases h2 : size % 8 < 4
    · rw [if_pos h2, List.getElem?_map, List.getElem?_range (by omega)]
      simp only [Option.map_some]
      rw [if_pos (by omega)]
      congr 2
      omega
    · rw [if_neg h2, fill_spec d _ _ _ (by omega)]
      congr 2
      omega

/-- Up to 4 bytes are sent correctly, in one part. -/
theorem ls1028a_short (d : Mem) (len f i : Nat) (h0 : i < len) (h : len ≤ 4) : (xspiWrite d (f + 1) len 0)[i]? = some (d i) := by
  rw [xspiWrite, if_neg (by omega), Nat.min_eq_left (by omega)]
  have hp := ls1028a_part d len 0 i h0
  have hlt : i < (part d len 0).length := (List.getElem?_eq_some_iff.1 hp).1
  rw [List.getElem?_append_left hlt, hp]
  congr 2
  omega

/-- **Longer data is garbled**: the fifth byte sent is the second of the data. -/
theorem ls1028a_garbled (d : Mem) (len f i : Nat) (h0 : i < len) (h : len ≤ 256) :
    (xspiWrite d (f + 1) len 0)[i]? = some (d (i / 4 + i % 4)) ∧ (4 ≤ i → i / 4 + i % 4 < i) := by
  refine ⟨?_, by omega⟩
  rw [xspiWrite, if_neg (by omega), Nat.min_eq_left (by omega)]
  have hp := ls1028a_part d len 0 i h0
  have hlt : i < (part d len 0).length := (List.getElem?_eq_some_iff.1 hp).1
  rw [List.getElem?_append_left hlt, hp, Nat.zero_add]

/-- **Only the first sector is waited for**: the status is not reset, so that the next erase starts while the flash is busy. -/
theorem ls1028a_erase_waits (s : Nat → Bool) (f n t : Nat) (l : List Nat) (h : eraseWaits s f (n + 1) t false = some l) :
    ∃ k, 0 < k ∧ l = k :: List.replicate n 0 := by
  have hp : ∀ f t st k st', poll s f t st = some (k, st') → st' = true ∧ (st = false → 0 < k) := by
    intro f
    induction f with
    | zero =>
      intro t st k st' h
      cases st with
      | true => cases h; exact ⟨rfl, fun h => by cases h⟩
      | false => cases h
    | succ f ih =>
      intro t st k st' h
      cases st with
      | true => cases h; exact ⟨rfl, fun h => by cases h⟩
      | false =>
        rw [poll, if_neg (by decide)] at h
        cases hq : poll s f (t + 1) (s t) with
        | none => rw [hq] at h; cases h
        | some x =>
          rw [hq] at h
          cases h
          exact ⟨(ih _ _ _ _ hq).1, fun _ => Nat.succ_pos _⟩
  have hz : ∀ f t, poll s f t true = some (0, true) := by intro f t; cases f <;> rfl
  have hr : ∀ n t, eraseWaits s f n t true = some (List.replicate n 0) := by
    intro n
    induction n with
    | zero => intro t; rfl
    | succ n ih => intro t; simp only [eraseWaits, hz, ih]; rfl
  rw [eraseWaits] at h
  cases hq : poll s f t false with
  | none => rw [hq] at h; cases h
  | some x =>
    obtain ⟨k, st'⟩ := x
    rw [hq] at h
    obtain ⟨h1, h2⟩ := hp f t false k st' hq
    subst h1
    simp only [hr, Option.map_some, Option.some.injEq] at h
    exact ⟨k, h2 rfl, h.symm⟩

/-- **The T1024 writes all words to the start of the sector**, also those for other places in it; the first word is right only at the start. -/
theorem t1024_place (S P f a pos len : Nat) (hP : 2 ≤ P) (h : 2 ≤ len) :
    ∃ r, busWrites S P (f + 1) a pos len = (a / S * S, pos) :: r ∧ (a / S * S = a ↔ a % S = 0) := by
  rw [busWrites, if_neg (by omega)]
  obtain ⟨k, hk⟩ : ∃ k, min len P / 2 = k + 1 := ⟨min len P / 2 - 1, by omega⟩
  dsimp only
  rw [hk, List.range_succ_eq_map, List.map_cons, List.cons_append, Nat.zero_mul, Nat.add_zero, Nat.add_zero]
  refine ⟨_, rfl, ?_⟩
  have := Nat.div_add_mod a S
  rw [Nat.mul_comm] at this
  omega

/-- At the start of a sector, up to a page is written to its place, without the last byte if the length is odd. -/
theorem t1024_first (S P f a len : Nat) (h : len ≤ P) (h0 : 0 < len) (ha : a % S = 0) :
    busWrites S P (f + 1) a 0 len = (List.range (len / 2)).map fun i => (a + i * 2, i * 2) := by
  have h3 : a / S * S = a := by have := Nat.div_add_mod a S; rw [ha, Nat.mul_comm] at this; exact this
  rw [busWrites, if_neg (by omega)]
  dsimp only
  rw [Nat.min_eq_left h, h3, Nat.sub_self]
  have : ∀ f x y, busWrites S P f x y 0 = [] := by intro f x y; cases f <;> rfl
  rw [this, List.append_nil]
  simp

/-- **A single byte is not written at all**: flags are lost. -/
theorem t1024_byte (S P f a pos : Nat) (hP : 1 ≤ P) : busWrites S P (f + 1) a pos 1 = [] := by
  rw [busWrites, if_neg (by decide)]
  dsimp only
  rw [Nat.min_eq_left hP]
  have : ∀ f x y, busWrites S P f x y 0 = [] := by intro f x y; cases f <;> rfl
  rw [Nat.sub_self, this]
  rfl

theorem part_length (d : Mem) (size p : Nat) (h : 0 < size) : (part d size p).length = size := by
  have h1 := (List.getElem?_eq_some_iff.1 (ls1028a_part d size p (size - 1) (by omega))).1
  have h2 : (part d size p).length ≤ size := by unfold part; exact List.length_take_le _ _
  omega

/-- **Which bytes the LS1028A writes**, for all lengths: as many as asked for, but byte `i` is that at `i / 4 + i % 4`. -/
theorem ls1028a_all (d : Mem) : ∀ f len p, len ≤ 256 * f →
    (xspiWrite d f len p).length = len ∧ ∀ i, i < len → (xspiWrite d f len p)[i]? = some (d (p + i / 4 + i % 4)) := by
  intro f
  induction f with
  | zero =>
    intro len p h
    obtain rfl : len = 0 := by omega
    exact ⟨rfl, fun i hi => absurd hi (by omega)⟩
  | succ f ih =>
    intro len p h
    rw [xspiWrite]
    by_cases h0 : len = 0
    · rw [if_pos h0]
      exact ⟨h0.symm, fun i hi => absurd hi (by omega)⟩
    · rw [if_neg h0]
      have hl := part_length d (min len 256) p (by omega)
      obtain ⟨h1, h2⟩ := ih (len - min len 256) (next (min len 256) p) (by omega)
      refine ⟨by rw [List.length_append, hl, h1]; omega, fun i hi => ?_⟩
      by_cases hm : i < min len 256
      · rw [List.getElem?_append_left (by omega)]
        exact ls1028a_part d _ p i hm
      · rw [List.getElem?_append_right (by omega), hl, h2 _ (by omega)]
        have e : min len 256 = 256 := by omega
        have e2 : next 256 p + (i - 256) / 4 + (i - 256) % 4 = p + i / 4 + i % 4 := by unfold next; omega
        rw [e, e2]

/-- **Where the T1024 writes**, for all lengths: word `i` of page `k` of the data goes to word `i` of the sector of that page. -/
theorem t1024_all (S P : Nat) (hP : 2 ≤ P) (h2 : P % 2 = 0) : ∀ f a pos len x y, len ≤ f →
    ((x, y) ∈ busWrites S P f a pos len ↔
      ∃ k i, 2 * i + 1 < P ∧ k * P + 2 * i + 1 < len ∧ x = (a + k * P) / S * S + 2 * i ∧ y = pos + k * P + 2 * i) := by
  intro f
  induction f with
  | zero =>
    intro a pos len x y h
    rw [busWrites]
    constructor
    · intro h; cases h
    · rintro ⟨k, i, -, h3, -⟩; omega
  | succ f ih =>
    intro a pos len x y h
    rw [busWrites]
    by_cases h0 : len = 0
    · rw [if_pos h0]
      constructor
      · intro h; cases h
      · rintro ⟨k, i, -, h3, -⟩; omega
    · rw [if_neg h0]
      dsimp only
      rw [List.mem_append, ih _ _ _ _ _ (by omega), List.mem_map]
      constructor
      · rintro (⟨i, hi, he⟩ | ⟨k, i, h3, h4, h5, h6⟩)
        · rw [List.mem_range] at hi
          rw [Prod.mk.injEq] at he
          refine ⟨0, i, by omega, by omega, ?_, by omega⟩
          rw [Nat.zero_mul, Nat.add_zero]
          omega
        · have hm : min len P = P := by omega
          rw [hm] at h4 h5 h6
          refine ⟨k + 1, i, h3, by rw [Nat.succ_mul]; omega, ?_, by rw [Nat.succ_mul]; omega⟩
          rw [Nat.succ_mul, show a + (k * P + P) = a + P + k * P by omega]
          exact h5
      · rintro ⟨k, i, h3, h4, h5, h6⟩
        cases k with
        | zero =>
          rw [Nat.zero_mul, Nat.add_zero] at h5
          refine .inl ⟨i, List.mem_range.2 (by omega), ?_⟩
          rw [Prod.mk.injEq]
          omega
        | succ k =>
          rw [Nat.succ_mul] at h4 h5 h6
          have hm : min len P = P := by omega
          refine .inr ⟨k, i, h3, by omega, ?_, by omega⟩
          rw [hm, show a + P + k * P = a + (k * P + P) by omega]
          exact h5

end Verif.Nxp
