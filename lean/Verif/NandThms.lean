import Verif.Nand

/-!
# What a read of the NAND flash gives
-/

namespace Verif.Nand

open Verif

theorem inner_spec (n d : Nat) (hd : 0 < d) (hn : n < 2 ^ 32) :
    ∀ f sh, sh + f = 33 → d * 2 ^ sh ≤ n →
      ∃ k, inner n f (d * 2 ^ sh) sh = .brk (d * 2 ^ k) k ∧ d * 2 ^ k ≤ n ∧ n - d * 2 ^ k < d * 2 ^ k := by
  intro f
  induction f with
  | zero =>
    intro sh h1 h2
    obtain rfl : sh = 33 := by omega
    exfalso
    omega
  | succ f ih =>
    intro sh h1 h2
    rw [inner, if_neg (by omega)]
    by_cases h : n - d * 2 ^ sh < d * 2 ^ sh
    · rw [if_pos h]
      exact ⟨sh, rfl, h2, h⟩
    · rw [if_neg h]
      have h3 : d * 2 ^ sh * 2 = d * 2 ^ (sh + 1) := by rw [Nat.pow_succ, Nat.mul_assoc]
      have h4 : d * 2 ^ (sh + 1) ≤ n := by omega
      rw [Nat.mod_eq_of_lt (by omega), h3]
      exact ih (sh + 1) (by omega) h4

theorem outer_spec (d : Nat) (hd : 0 < d) :
    ∀ f n fac e, n < 2 ^ f → f ≤ 32 → fac + n / d < 2 ^ 32 → outer d (f + 1) n fac e = some (fac + n / d, n % d) := by
  intro f
  induction f with
  | zero =>
    intro n fac e hn _ _
    obtain rfl : n = 0 := by simpa using hn
    rw [outer, if_pos hd]
    simp
  | succ f ih =>
    intro n fac e hn hf hq
    rw [outer]
    by_cases h : n < d
    · rw [if_pos h, Nat.div_eq_of_lt h, Nat.mod_eq_of_lt h, Nat.add_zero]
    · rw [if_neg h]
      have h32 : n < 2 ^ 32 := Nat.lt_of_lt_of_le hn (Nat.pow_le_pow_right (by decide) hf)
      obtain ⟨k, hk, h1, h2⟩ := inner_spec n d hd h32 33 0 rfl (by simpa using Nat.not_lt.1 h)
      rw [Nat.pow_zero, Nat.mul_one] at hk
      rw [hk]
      have hdiv : n / d = (n - d * 2 ^ k) / d + 2 ^ k := by
        conv => lhs; rw [← Nat.sub_add_cancel h1]
        rw [Nat.add_mul_div_left _ _ hd]
      have hmod : n % d = (n - d * 2 ^ k) % d := by
        conv => lhs; rw [← Nat.sub_add_cancel h1]
        rw [Nat.add_mul_mod_self_left]
      have hlt : n - d * 2 ^ k < 2 ^ f := by
        have : 2 ^ (f + 1) = 2 * 2 ^ f := by rw [Nat.pow_succ, Nat.mul_comm]
        omega
      show outer d (f + 1) (n - d * 2 ^ k) ((fac + 2 ^ k) % 2 ^ 32) true = _
      rw [hdiv] at hq
      have hfac : (fac + 2 ^ k) % 2 ^ 32 = fac + 2 ^ k :=
        Nat.mod_eq_of_lt (Nat.lt_of_le_of_lt (Nat.add_le_add_left (Nat.le_add_left _ _) _) hq)
      have hsum : fac + ((n - d * 2 ^ k) / d + 2 ^ k) = fac + 2 ^ k + (n - d * 2 ^ k) / d := by
        rw [Nat.add_comm ((n - d * 2 ^ k) / d), Nat.add_assoc]
      rw [hfac, ih _ _ _ hlt (by omega) (by rw [← hsum]; exact hq), hdiv, hmod, hsum]

/-- The division without a division instruction is right, for all operands. -/
theorem division_spec (n d : Nat) (hn : n < 2 ^ 32) :
    division n d = some (if d = 0 then none else some (n / d, n % d)) := by
  unfold division
  by_cases h : d = 0
  · simp [h]
  · rw [if_neg h, if_neg h]
    by_cases h1 : n < d
    · rw [if_pos h1, Nat.div_eq_of_lt h1, Nat.mod_eq_of_lt h1]
    · have h2 : n / d < 2 ^ 32 := Nat.lt_of_le_of_lt (Nat.div_le_self n d) hn
      rw [if_neg h1, outer_spec d (by omega) 32 n 0 false hn (by omega) (by omega)]
      simp

/-- The bytes that the reader should see: byte `o` counted from the start of block 0 of the list of good blocks `g`. -/
def src (c : Chip) (g : Nat → Nat) (o : Nat) : Byte :=
  c.page (g (o / PS / c.ppb) * c.ppb + o / PS % c.ppb) (o % PS)

/-- The pages that hold `n` bytes. -/
def ceil (n : Nat) : Nat := (n + PS - 1) / PS

theorem src_at (c : Chip) (g : Nat → Nat) (k p x : Nat) (hp : p < c.ppb) (hx : x < PS) :
    src c g ((k * c.ppb + p) * PS + x) = c.page (g k * c.ppb + p) x := by
  have h1 : ((k * c.ppb + p) * PS + x) / PS = k * c.ppb + p := by unfold PS at *; omega
  have h2 : ((k * c.ppb + p) * PS + x) % PS = x := by unfold PS at *; omega
  have h3 : (k * c.ppb + p) / c.ppb = k := by
    rw [Nat.add_comm, Nat.add_mul_div_right _ _ (by omega), Nat.div_eq_of_lt hp, Nat.zero_add]
  have h4 : (k * c.ppb + p) % c.ppb = p := by
    rw [Nat.add_comm, Nat.add_mul_mod_self_right, Nat.mod_eq_of_lt hp]
  rw [src, h1, h2, h3, h4]

theorem pages_full (c : Chip) (g : Nat → Nat) (k : Nat) : ∀ n p (r : R), PS ≤ r.sz → p + n ≤ c.ppb →
    (pages c (g k) n p r).off = r.off + n * PS ∧ (pages c (g k) n p r).ltr = r.ltr - (n * PS : Nat) ∧
    ∀ i, (pages c (g k) n p r).out i =
      if r.off ≤ i ∧ i < r.off + n * PS then src c g ((k * c.ppb + p) * PS + (i - r.off)) else r.out i := by
  intro n
  induction n with
  | zero => intro p r _ _; simp [pages]; intro i h1 h2; omega
  | succ n ih =>
    intro p r hs hp
    have hm : min r.sz PS = PS := by omega
    have hr : pageStep c (g k) p r =
        { out := wr r.out r.off (c.page (g k * c.ppb + p)) PS, off := r.off + PS, sz := PS, ltr := r.ltr - (PS : Nat) } := by
      simp only [pageStep, hm]
    obtain ⟨h1, h2, h3⟩ := ih (p + 1) (pageStep c (g k) p r) (by rw [hr]; exact Nat.le_refl _) (by omega)
    rw [pages]
    have e1 : (pageStep c (g k) p r).off = r.off + PS := by rw [hr]
    have e2 : (pageStep c (g k) p r).ltr = r.ltr - (PS : Nat) := by rw [hr]
    have e3 : (pageStep c (g k) p r).out = wr r.out r.off (c.page (g k * c.ppb + p)) PS := by rw [hr]
    rw [e1] at h1
    rw [e2] at h2
    refine ⟨by rw [h1]; unfold PS; omega, by rw [h2]; unfold PS; omega, fun i => ?_⟩
    rw [h3 i, e1, e3]
    have hq : (k * c.ppb + (p + 1)) * PS = (k * c.ppb + p) * PS + PS := by unfold PS; omega
    by_cases c1 : r.off + PS ≤ i ∧ i < r.off + PS + n * PS
    · have he : (k * c.ppb + p) * PS + PS + (i - (r.off + PS)) = (k * c.ppb + p) * PS + (i - r.off) := by omega
      rw [if_pos c1, if_pos (by unfold PS at *; omega), hq, he]
    · rw [if_neg c1, wr]
      by_cases c2 : r.off ≤ i ∧ i < r.off + PS
      · rw [if_pos c2, if_pos (by unfold PS at *; omega), src_at c g k p (i - r.off) (by omega) (by omega)]
      · rw [if_neg c2, if_neg (by unfold PS at *; omega)]

theorem pages_one (c : Chip) (g : Nat → Nat) (k p : Nat) (r : R) (hs : r.sz < PS) (hp : p < c.ppb) :
    (pages c (g k) 1 p r).ltr = r.ltr - (r.sz : Nat) ∧
    ∀ i, (pages c (g k) 1 p r).out i =
      if r.off ≤ i ∧ i < r.off + PS then src c g ((k * c.ppb + p) * PS + (i - r.off)) else r.out i := by
  have hm : min r.sz PS = r.sz := by omega
  constructor
  · simp [pages, pageStep, hm]
  · intro i
    simp only [pages, pageStep, wr]
    by_cases c2 : r.off ≤ i ∧ i < r.off + PS
    · rw [if_pos c2, if_pos c2, src_at c g k p (i - r.off) hp (by omega)]
    · rw [if_neg c2, if_neg c2]

/-- `g` lists good blocks, from the first one at or after `b`. -/
def Good (c : Chip) (F b : Nat) (g : Nat → Nat) (K : Nat) : Prop :=
  skip c F b = some (g 0) ∧ ∀ j < K, skip c F (g j + 1) = some (g (j + 1))

theorem blocks_done (c : Chip) (F f b sp rem : Nat) (out : Mem) (off : Nat) (ltr : Int) (h : ltr ≤ 0) :
    blocks c F (f + 1) b sp rem out off ltr = some out := by
  rw [blocks, if_pos h]

theorem blocks_spec (c : Chip) (F : Nat) (g : Nat → Nat) (K : Nat) (hp : 0 < c.ppb)
    (hg : ∀ j < K, skip c F (g j + 1) = some (g (j + 1))) :
    ∀ f k b sp (out : Mem) off (L : Nat), skip c F b = some (g k) → sp < c.ppb → 0 < L →
      (k * c.ppb + sp) * PS + L ≤ (K + 1) * (c.ppb * PS) → K + 2 ≤ f + k →
      ∃ m, blocks c F f b sp ((c.ppb - sp) * PS) out off L = some m ∧
        ∀ i, m i = if off ≤ i ∧ i < off + ceil L * PS then src c g ((k * c.ppb + sp) * PS + (i - off)) else out i := by
  intro f
  induction f with
  | zero =>
    intro k b sp out off L _ _ hL h1 h2
    exfalso
    have h3 : (K + 1) * (c.ppb * PS) ≤ k * (c.ppb * PS) := Nat.mul_le_mul_right _ (by omega)
    have h4 : (k * c.ppb + sp) * PS = k * (c.ppb * PS) + sp * PS := by rw [Nat.add_mul, Nat.mul_assoc]
    omega
  | succ f ih =>
    intro k b sp out off L hb hsp hL h1 h2
    have hneg : ¬ (L : Int) ≤ 0 := by omega
    rw [blocks, if_neg hneg, hb]
    simp only [Int.toNat_natCast]
    have hkK : k ≤ K := by
      apply Nat.le_of_not_lt
      intro hlt
      have h3 : (K + 1) * (c.ppb * PS) ≤ k * (c.ppb * PS) := Nat.mul_le_mul_right _ (by omega)
      have h4 : (k * c.ppb + sp) * PS = k * (c.ppb * PS) + sp * PS := by rw [Nat.add_mul, Nat.mul_assoc]
      omega
    obtain ⟨m, hm⟩ : ∃ m, m = c.ppb - sp := ⟨_, rfl⟩
    rw [← hm]
    have hm0 : 0 < m := by omega
    by_cases hle : L ≤ m * PS
    · -- the last block
      have hsz : min L (m * PS) = L := by omega
      have hc : count L (m * PS) = ceil L := by
        unfold count ceil
        rw [if_neg]
        unfold PS at *
        omega
      rw [hsz, hc]
      obtain ⟨f', rfl⟩ : ∃ f', f = f' + 1 := ⟨f - 1, by omega⟩
      by_cases hps : PS ≤ L
      · obtain ⟨e1, e2, e3⟩ := pages_full c g k (ceil L) sp { out := out, off := off, sz := L, ltr := (L : Int) } hps
          (by unfold ceil PS at *; omega)
        dsimp only at e2 e3
        rw [blocks_done _ _ _ _ _ _ _ _ _ (by rw [e2]; unfold ceil PS; omega)]
        exact ⟨_, rfl, e3⟩
      · have h1c : ceil L = 1 := by unfold ceil PS at *; omega
        rw [h1c]
        obtain ⟨e2, e3⟩ := pages_one c g k sp { out := out, off := off, sz := L, ltr := (L : Int) } (Nat.lt_of_not_le hps) hsp
        dsimp only at e2 e3
        rw [blocks_done _ _ _ _ _ _ _ _ _ (by rw [e2]; simp)]
        refine ⟨_, rfl, fun i => ?_⟩
        rw [e3 i, Nat.one_mul]
    · -- the rest of this block, and more
      have hsz : min L (m * PS) = m * PS := by omega
      have hc : count (m * PS) (m * PS) = m := by
        unfold count
        have : (m * PS + PS - 1) / PS = m := by unfold PS; omega
        rw [this, if_neg (by omega)]
      rw [hsz, hc]
      obtain ⟨e1, e2, e3⟩ := pages_full c g k m sp { out := out, off := off, sz := m * PS, ltr := (L : Int) }
        (by show PS ≤ m * PS; exact Nat.le_mul_of_pos_left _ hm0) (by omega)
      dsimp only at e1 e2 e3
      have hk : k < K := by
        apply Nat.lt_of_le_of_ne hkK
        rintro rfl
        have h3 : (k * c.ppb + sp) * PS + m * PS = (k + 1) * (c.ppb * PS) := by
          rw [← Nat.add_mul, ← Nat.mul_assoc, Nat.add_assoc, Nat.succ_mul]
          congr 2
          omega
        omega
      have hnext : ((k + 1) * c.ppb + 0) * PS = (k * c.ppb + sp) * PS + m * PS := by
        have he : (k + 1) * c.ppb + 0 = k * c.ppb + sp + m := by rw [Nat.succ_mul]; omega
        rw [he, Nat.add_mul]
      have hlt : ((L : Int) - ((m * PS : Nat) : Int)) = ((L - m * PS : Nat) : Int) := by omega
      rw [e1, e2]
      show ∃ m_1, blocks c F f (g k + 1) 0 (c.ppb * PS) _ (off + m * PS) ((L : Int) - ((m * PS : Nat) : Int)) = some m_1 ∧ _
      rw [hlt]
      obtain ⟨w, hw, hw2⟩ := ih (k + 1) (g k + 1) 0 (pages c (g k) m sp { out := out, off := off, sz := m * PS, ltr := (L : Int) }).out
        (off + m * PS) (L - m * PS) (hg k hk) hp (by omega) (by rw [hnext]; omega) (by omega)
      rw [Nat.sub_zero] at hw
      refine ⟨w, hw, fun i => ?_⟩
      rw [hw2 i, hnext]
      have hcl : ceil L = ceil (L - m * PS) + m := by unfold ceil PS at *; omega
      have hcl2 : ceil L * PS = ceil (L - m * PS) * PS + m * PS := by rw [hcl, Nat.add_mul]
      by_cases c1 : off + m * PS ≤ i ∧ i < off + m * PS + ceil (L - m * PS) * PS
      · have he : (k * c.ppb + sp) * PS + m * PS + (i - (off + m * PS)) = (k * c.ppb + sp) * PS + (i - off) := by omega
        rw [if_pos c1, if_pos (by omega), he]
      · rw [if_neg c1, e3 i]
        by_cases c2 : off ≤ i ∧ i < off + m * PS
        · rw [if_pos c2, if_pos (by omega)]
        · rw [if_neg c2, if_neg (by omega)]

/-- The address in pages. -/
theorem at_page (c : Chip) (hp : 0 < c.ppb) (a : Nat) (ha : a % PS = 0) :
    a / (c.ppb * PS) = a / PS / c.ppb ∧ c.ppb * PS - a % (c.ppb * PS) = (c.ppb - a / PS % c.ppb) * PS ∧
      (a / PS / c.ppb * c.ppb + a / PS % c.ppb) * PS = a := by
  have h1 : a / (c.ppb * PS) = a / PS / c.ppb := by rw [Nat.mul_comm, Nat.div_div_eq_div_mul]
  have h2 : (a / PS / c.ppb * c.ppb + a / PS % c.ppb) * PS = a := by
    rw [Nat.mul_comm (a / PS / c.ppb), Nat.div_add_mod]
    unfold PS at *
    omega
  refine ⟨h1, ?_, h2⟩
  have h3 : a % (c.ppb * PS) = a / PS % c.ppb * PS := by
    have h4 := Nat.mod_add_div a (c.ppb * PS)
    rw [h1] at h4
    rw [Nat.add_mul] at h2
    have h5 : c.ppb * PS * (a / PS / c.ppb) = a / PS / c.ppb * c.ppb * PS := by
      rw [Nat.mul_comm, Nat.mul_assoc]
    omega
  rw [h3, Nat.sub_mul]

/-- The list of good blocks, counted so that the block of the address `a` has its own number if it is not bad. -/
def Blocks (c : Chip) (F a : Nat) (g : Nat → Nat) (K : Nat) : Prop :=
  skip c F (a / PS / c.ppb) = some (g (a / PS / c.ppb)) ∧ ∀ j < K, skip c F (g j + 1) = some (g (j + 1))

/-- **A read of at least a page from the start of a page gives the bytes of the good blocks**, and it writes whole pages: up to `PS - 1` bytes more than
asked for. -/
theorem read_long (c : Chip) (F f a : Nat) (g : Nat → Nat) (K : Nat) (buf data : Mem) (len : Nat) (hp : 0 < c.ppb) (ha : a % PS = 0)
    (hl : PS ≤ len) (hg : Blocks c F a g K) (hK : a + len ≤ (K + 1) * (c.ppb * PS)) (hf : K + 2 ≤ f + a / PS / c.ppb) :
    ∃ m, extFlashRead c F f a buf data len = some m ∧ ∀ i, m i = if i < ceil len * PS then src c g (a + i) else data i := by
  obtain ⟨h1, h2, h3⟩ := at_page c hp a ha
  have hpos : 0 < len := Nat.lt_of_lt_of_le (by decide) hl
  obtain ⟨m, e1, e2⟩ := blocks_spec c F g K hp hg.2 f (a / PS / c.ppb) (a / PS / c.ppb) (a / PS % c.ppb) data 0 len hg.1
    (Nat.mod_lt _ hp) hpos (by rw [h3]; exact hK) hf
  refine ⟨m, ?_, fun i => ?_⟩
  · unfold extFlashRead
    rw [if_neg (Nat.not_lt.2 hl), h1, h2]
    exact e1
  · rw [e2 i, h3]
    simp

/-- A read of less than a page from the start of a page gives the bytes, without the last ones that do not fill a word. -/
theorem read_short (c : Chip) (F f a : Nat) (g : Nat → Nat) (K : Nat) (buf data : Mem) (len : Nat) (hp : 0 < c.ppb) (ha : a % PS = 0)
    (hl : len < PS) (hg : Blocks c F a g K) (hK : a + PS ≤ (K + 1) * (c.ppb * PS)) (hf : K + 2 ≤ f + a / PS / c.ppb) :
    ∃ m, extFlashRead c F f a buf data len = some m ∧ ∀ i, m i = if i < len / 4 * 4 then src c g (a + i) else data i := by
  obtain ⟨h1, h2, h3⟩ := at_page c hp a ha
  obtain ⟨m, e1, e2⟩ := blocks_spec c F g K hp hg.2 f (a / PS / c.ppb) (a / PS / c.ppb) (a / PS % c.ppb) buf 0 PS hg.1
    (Nat.mod_lt _ hp) (by decide) (by rw [h3]; exact hK) hf
  refine ⟨wr data 0 m (len / 4 * 4), ?_, fun i => ?_⟩
  · unfold extFlashRead
    rw [if_pos hl, h1, h2, e1]
    rfl
  · have hc : ceil PS * PS = PS := by decide
    unfold wr
    by_cases hi : i < len / 4 * 4
    · rw [if_pos ⟨Nat.zero_le _, by omega⟩, if_pos hi, e2, hc, Nat.sub_zero, if_pos ⟨Nat.zero_le _, by omega⟩, h3]
      simp
    · rw [if_neg (by omega), if_neg hi]

/-- The byte at an address of a chip without bad blocks. -/
def byteAt (c : Chip) (a : Nat) : Byte := c.page (a / PS) (a % PS)

theorem skip_good (c : Chip) (F b : Nat) (h : c.bad b = false) : skip c (F + 1) b = some b := by
  rw [skip, h]
  rfl

theorem src_id (c : Chip) (o : Nat) : src c id o = byteAt c o := by
  unfold src byteAt
  rw [id, Nat.mul_comm, Nat.div_add_mod]

/-- **Without bad blocks a read of whole pages is right**: exactly the bytes asked for, and nothing else is written. -/
theorem read_pages (c : Chip) (F f a : Nat) (buf data : Mem) (len : Nat) (hp : 0 < c.ppb) (ha : a % PS = 0) (hl : len % PS = 0)
    (h0 : 0 < len) (hb : ∀ b, c.bad b = false) (hf : (a + len) / (c.ppb * PS) + 2 ≤ f) :
    ∃ m, extFlashRead c (F + 1) f a buf data len = some m ∧ ∀ i, m i = if i < len then byteAt c (a + i) else data i := by
  have hpos : 0 < c.ppb * PS := Nat.mul_pos hp (by decide)
  obtain ⟨m, e1, e2⟩ := read_long c (F + 1) f a id ((a + len) / (c.ppb * PS)) buf data len hp ha (by unfold PS at *; omega)
    ⟨skip_good c F _ (hb _), fun j _ => skip_good c F _ (hb _)⟩
    (by
      have := Nat.lt_mul_div_succ (a + len) hpos
      rw [Nat.mul_comm] at this
      exact Nat.le_of_lt this) (Nat.le_add_right_of_le hf)
  refine ⟨m, e1, fun i => ?_⟩
  have hc : ceil len * PS = len := by unfold ceil PS at *; omega
  rw [e2 i, hc, src_id]

/-- **A read writes past the end of the buffer**: if the length is at least a page and no multiple of it, the byte after the end is overwritten with
the one from flash. -/
theorem read_overrun (c : Chip) (F f a : Nat) (buf data : Mem) (len : Nat) (hp : 0 < c.ppb) (ha : a % PS = 0) (hl : PS ≤ len)
    (hm : len % PS ≠ 0) (hb : ∀ b, c.bad b = false) (hf : (a + len) / (c.ppb * PS) + 2 ≤ f) :
    ∃ m, extFlashRead c (F + 1) f a buf data len = some m ∧ m len = byteAt c (a + len) := by
  have hpos : 0 < c.ppb * PS := Nat.mul_pos hp (by decide)
  obtain ⟨m, e1, e2⟩ := read_long c (F + 1) f a id ((a + len) / (c.ppb * PS)) buf data len hp ha hl
    ⟨skip_good c F _ (hb _), fun j _ => skip_good c F _ (hb _)⟩
    (by
      have := Nat.lt_mul_div_succ (a + len) hpos
      rw [Nat.mul_comm] at this
      exact Nat.le_of_lt this) (Nat.le_add_right_of_le hf)
  refine ⟨m, e1, ?_⟩
  rw [e2 len, if_pos (by unfold ceil PS at *; omega), src_id]

/-- **The place within the page is ignored**: a short read from the middle of a page, not the last one of the block, gives the start of the page. -/
theorem read_unaligned (c : Chip) (F f a : Nat) (buf data : Mem) (len : Nat) (hp : 0 < c.ppb) (hl : len < PS)
    (hb : ∀ b, c.bad b = false) (hlast : a / PS % c.ppb + 1 < c.ppb) :
    extFlashRead c (F + 1) (f + 2) a buf data len = extFlashRead c (F + 1) (f + 2) (a / PS * PS) buf data len := by
  have hq : a / PS * PS / PS = a / PS := by unfold PS; omega
  have hx : ∀ x, x / PS = a / PS → x / (c.ppb * PS) = a / PS / c.ppb ∧ PS < c.ppb * PS - x % (c.ppb * PS) := by
    intro x hx
    have h1 : x / (c.ppb * PS) = a / PS / c.ppb := by rw [Nat.mul_comm, ← Nat.div_div_eq_div_mul, hx]
    refine ⟨h1, ?_⟩
    have h4 := Nat.mod_add_div x (c.ppb * PS)
    rw [h1] at h4
    have h5 : c.ppb * PS * (a / PS / c.ppb) = c.ppb * (a / PS / c.ppb) * PS := by rw [Nat.mul_right_comm]
    have h6 := Nat.div_add_mod (a / PS) c.ppb
    have h7 : x < (a / PS + 1) * PS := by unfold PS at *; omega
    have h8 : (a / PS % c.ppb + 2) * PS ≤ c.ppb * PS := Nat.mul_le_mul_right _ (by omega)
    rw [← h6] at h7
    unfold PS at *
    omega
  obtain ⟨a1, a2⟩ := hx a rfl
  obtain ⟨b1, b2⟩ := hx (a / PS * PS) hq
  unfold extFlashRead
  rw [if_pos hl, if_pos hl, a1, b1, hq]
  have key : ∀ rem, PS < rem → blocks c (F + 1) (f + 2) (a / PS / c.ppb) (a / PS % c.ppb) rem buf 0 (PS : Nat) =
      blocks c (F + 1) (f + 2) (a / PS / c.ppb) (a / PS % c.ppb) (PS + 1) buf 0 (PS : Nat) := by
    intro rem hr
    rw [blocks, blocks, if_neg (by decide), if_neg (by decide), skip_good c F _ (hb _)]
    have hm1 : min (PS : Int).toNat rem = PS := by simp; omega
    have hm2 : min (PS : Int).toNat (PS + 1) = PS := by simp
    have hc1 : count PS rem = 1 := by
      have : (PS + PS - 1) / PS = 1 := by decide
      unfold count
      rw [this, if_neg (by omega)]
    have hc2 : count PS (PS + 1) = 1 := by decide
    simp only [hm1, hm2, hc1, hc2]
  rw [key _ a2, key _ b2]

/-- **A short read from the middle of the last page of a block gives the start of the next block.** -/
theorem read_last_page (c : Chip) (F f a : Nat) (buf data : Mem) (len : Nat) (hl : len < PS)
    (hb : ∀ b, c.bad b = false) (h1 : c.ppb * PS - a % (c.ppb * PS) < PS) (hp : 0 < c.ppb) :
    extFlashRead c (F + 1) (f + 1) a buf data len =
      extFlashRead c (F + 1) f ((a / (c.ppb * PS) + 1) * (c.ppb * PS)) buf data len := by
  have hpos : 0 < c.ppb * PS := Nat.mul_pos hp (by decide)
  have hlt := Nat.mod_lt a hpos
  obtain ⟨rem, hrem⟩ : ∃ rem, rem = c.ppb * PS - a % (c.ppb * PS) := ⟨_, rfl⟩
  have e1 : (a / (c.ppb * PS) + 1) * (c.ppb * PS) / (c.ppb * PS) = a / (c.ppb * PS) + 1 := Nat.mul_div_cancel _ hpos
  have e2 : (a / (c.ppb * PS) + 1) * (c.ppb * PS) % (c.ppb * PS) = 0 := Nat.mul_mod_left _ _
  have e3 : (a / (c.ppb * PS) + 1) * (c.ppb * PS) / PS % c.ppb = 0 := by
    rw [← Nat.mul_assoc, Nat.mul_div_cancel _ (by decide), Nat.mul_mod_left]
  unfold extFlashRead
  dsimp only
  rw [if_pos hl, if_pos hl, e1, e2, e3, ← hrem, Nat.sub_zero]
  rw [← hrem] at h1
  have h0 : 0 < rem := by omega
  congr 1
  rw [blocks, if_neg (by decide), skip_good c F _ (hb _)]
  have hm : min (PS : Int).toNat rem = rem := by simp; omega
  have hc : count rem rem = 0 := by
    have : (rem + PS - 1) / PS = 1 := by unfold PS at *; omega
    unfold count
    rw [this, if_pos (by omega)]
  simp only [hm, hc, pages]

/-- **The flags of a partition are not read**: they are in the last bytes, `/repo/src/libwolfboot.c:407,425`. If the partition ends with a block, the
first bytes after it are read in their place. -/
theorem trailer_lost (c : Chip) (F f e : Nat) (buf data : Mem) (hb : ∀ b, c.bad b = false) (hp : 0 < c.ppb) (he : 0 < e)
    (hf : e + 3 ≤ f) : ∃ m, extFlashRead c (F + 1) (f + 1) (e * (c.ppb * PS) - 4) buf data 4 = some m ∧
      ∀ i, m i = if i < 4 then byteAt c (e * (c.ppb * PS) + i) else data i := by
  have hpos : PS ≤ c.ppb * PS := Nat.le_mul_of_pos_left _ hp
  have hps : PS = 2048 := rfl
  obtain ⟨e, rfl⟩ : ∃ k, e = k + 1 := ⟨e - 1, by omega⟩
  have ha : (e + 1) * (c.ppb * PS) - 4 = c.ppb * PS * e + (c.ppb * PS - 4) := by
    rw [Nat.add_mul, Nat.one_mul, Nat.mul_comm]
    omega
  have hdiv : ((e + 1) * (c.ppb * PS) - 4) / (c.ppb * PS) = e := by
    rw [ha, Nat.mul_add_div (by omega), Nat.div_eq_of_lt (by omega), Nat.add_zero]
  have hmod : ((e + 1) * (c.ppb * PS) - 4) % (c.ppb * PS) = c.ppb * PS - 4 := by
    rw [ha, Nat.mul_add_mod, Nat.mod_eq_of_lt (by omega)]
  rw [read_last_page c F f _ buf data 4 (by decide) hb (by rw [hmod]; omega) hp, hdiv]
  have hk : (e + 1) * (c.ppb * PS) / PS / c.ppb = e + 1 := by
    rw [← Nat.mul_assoc, Nat.mul_div_cancel _ (by decide), Nat.mul_div_cancel _ hp]
  obtain ⟨m, e1, e2⟩ := read_short c (F + 1) f ((e + 1) * (c.ppb * PS)) id (e + 1) buf data 4 hp
    (by rw [← Nat.mul_assoc, Nat.mul_mod_left]) (by decide)
    ⟨skip_good c F _ (hb _), fun j _ => skip_good c F _ (hb _)⟩
    (by rw [Nat.add_mul (e + 1), Nat.one_mul]; omega) (by omega)
  refine ⟨m, e1, fun i => ?_⟩
  rw [e2 i, src_id]

theorem skip_bad (c : Chip) (hb : ∀ b, c.bad b = true) : ∀ F b, skip c F b = none := by
  intro F
  induction F with
  | zero => intro b; rfl
  | succ F ih => intro b; rw [skip, hb b, if_pos rfl]; exact ih _

/-- **The search for a good block does not end**: on a chip that does not answer (every spare area reads as something else than `0xFF`), no read ends,
however long it runs. -/
theorem read_never_ends (c : Chip) (hb : ∀ b, c.bad b = true) (F f a : Nat) (buf data : Mem) (len : Nat) (h : 0 < len) :
    extFlashRead c F f a buf data len = none := by
  have key : ∀ b sp rem (out : Mem) (L : Nat), 0 < L → blocks c F f b sp rem out 0 L = none := by
    intro b sp rem out L hL
    cases f with
    | zero => rfl
    | succ f =>
      have : ¬ (L : Int) ≤ 0 := by omega
      rw [blocks, if_neg this, skip_bad c hb]
  unfold extFlashRead
  split
  · dsimp only
    rw [key _ _ _ _ PS (by decide)]
    rfl
  · exact key _ _ _ _ len h

/-- **The block used is the first without a mark**: both marks of it are 0xFF, and every block passed over has one that is not. -/
theorem skip_marks (c : Chip) : ∀ F b g, skip c F b = some g → b ≤ g ∧ (c.oob (g * c.ppb) = 0xFF#8 ∧ c.oob (g * c.ppb + 1) = 0xFF#8) ∧
    ∀ x, b ≤ x → x < g → c.oob (x * c.ppb) ≠ 0xFF#8 ∨ c.oob (x * c.ppb + 1) ≠ 0xFF#8 := by
  intro F
  induction F with
  | zero => intro b g h; cases h
  | succ F ih =>
    intro b g h
    rw [skip] at h
    by_cases hb : c.bad b = true
    · rw [if_pos hb] at h
      obtain ⟨h1, h2, h3⟩ := ih _ _ h
      refine ⟨by omega, h2, fun x hx1 hx2 => ?_⟩
      by_cases hx : x = b
      · subst hx
        simpa [Chip.bad] using hb
      · exact h3 x (by omega) hx2
    · rw [if_neg hb] at h
      cases h
      refine ⟨Nat.le_refl _, ?_, fun x h1 h2 => by omega⟩
      simpa [Chip.bad] using hb

end Verif.Nand
