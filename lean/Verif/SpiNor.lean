import Verif.ExtFlash
import Verif.HalLink

/-!
# SPI and QSPI NOR flash drivers

`/repo/src/spi_flash.c` and `/repo/src/qspi_flash.c` implement `ext_flash_read`, `ext_flash_write` and
`ext_flash_erase` (`/repo/include/hal.h:86-106`) for flash chips on an SPI bus. The model is at the level
of chip commands: what the driver sends in one chip-select period is one command. The chip follows the
data sheets of these chips: addresses have 24 bits, PAGE PROGRAM clears bits and wraps around at the end
of a page of 256 bytes, SECTOR ERASE ignores the low address bits.

Not modelled: the status register polling (`wait_busy`, `flash_write_enable`: the chip becomes ready), the
bus controllers (`/repo/hal/spi`), identification, quad mode and the modes with addresses of 4 bytes.
-/

namespace Verif

/-- The 24 address bits sent by `write_address`, `/repo/src/spi_flash.c:64-72`. -/
def norAddr (a : Nat) : Nat := a % 16777216

/-- One byte programmed at chip address `a`. Data sheet behaviour of `BYTE_WRITE`/`PAGE_PROG_CMD`. -/
def norByte (m : Mem) (a : Nat) (b : Byte) : Mem := fun y => if y = a then m y &&& b else m y

/-- The chip's PAGE PROGRAM: byte `i` goes to the page of `a`, at `(a + i) mod 256`
(`/repo/src/spi_flash.c:122-132`, `/repo/src/qspi_flash.c:443-450`). -/
def norPage (m : Mem) (a : Nat) (d : Nat → Byte) : Nat → Mem
  | 0 => m
  | k + 1 => norByte (norPage m a d k) (norAddr a / 256 * 256 + (norAddr a + k) % 256) (d k)

/-- The chip's SECTOR ERASE (4 KiB), `/repo/src/spi_flash.c:221-234`, `/repo/src/qspi_flash.c:356-381`. -/
def norErase (m : Mem) (a : Nat) : Mem :=
  fun y => if y / 4096 = norAddr a / 4096 then 0xFF#8 else m y

/-- `spi_flash_read`, `/repo/src/spi_flash.c:247-263`: byte `i`; the chip's address counter wraps around. -/
def norRead (m : Mem) (a i : Nat) : Byte := m (norAddr (norAddr a + i))

/-- The `do … while` loop, `/repo/src/spi_flash.c:127-132`: number of bytes sent. It does not look at
`len`. -/
def wpCount (address : Nat) : Nat :=
  if (address + 1) % 256 ≠ 0 then 1 + wpCount (address + 1) else 1
termination_by 256 - address % 256
decreasing_by omega

/-- The `while` loop, `/repo/src/spi_flash.c:118-134`. `j` indexes the caller's buffer. `address` is an
`uint32_t`; as 2^24 divides 2^32 its overflow makes no difference. -/
def wpLoop (m : Mem) (address j : Nat) (len : Int) (d : Nat → Byte) : Mem :=
  if 0 < len then
    wpLoop (norPage m address (fun i => d (j + i)) (wpCount address)) (address + wpCount address)
      (j + wpCount address) (len - wpCount address) d
  else m
termination_by len.toNat
decreasing_by
  have : 1 ≤ wpCount address := by rw [wpCount]; split <;> omega
  omega

/-- `spi_flash_write_page`, `/repo/src/spi_flash.c:112-137`. `none`: return value -1. -/
def spiWritePage (m : Mem) (address : Nat) (d : Nat → Byte) (len : Int) : Option Mem :=
  if len < 1 then none else some (wpLoop m address 0 len d)

/-- `spi_flash_write_sb`, `/repo/src/spi_flash.c:139-170`. The verify condition
`(verify & ~buf[j]) == 0` always holds on a working chip; if it did not, the byte would be written
again. First component: return value 0. -/
def sbLoop (m : Mem) (address : Nat) (d : Nat → Byte) : Nat → Bool × Mem
  | 0 => (true, m)
  | k + 1 =>
    let m' := norByte m (norAddr address) (d 0)
    if norRead m' address 0 &&& ~~~(d 0) = 0#8 then
      if norRead m' address 0 ≠ d 0 then (false, m')
      else sbLoop m' (address + 1) (fun i => d (1 + i)) k
    else (false, m')

/-- `spi_flash_write_sb` with the check of the length, `/repo/src/spi_flash.c:146-147`. -/
def spiWriteSb (m : Mem) (address : Nat) (d : Nat → Byte) (len : Int) : Bool × Mem :=
  if len < 1 then (false, m) else sbLoop m address d len.toNat

/-- The page loop of the QSPI driver, `/repo/src/qspi_flash.c:432-464`. `en page`:
`qspi_write_enable` succeeded (within its number of tries); the transfers themselves succeed. `ret`
is the last return value. -/
def qspiLoop (m : Mem) (address : Nat) (d : Nat → Byte) (len : Nat) (en : Nat → Bool) (ret : Bool) :
    (fuel page : Nat) → Bool × Mem
  | 0, _ => (ret, m)
  | fuel + 1, page =>
    if en page then
      qspiLoop (norPage m (address + page * 256) (fun i => d (page * 256 + i)) (min len 256))
        address d len en true fuel (page + 1)
    else qspiLoop m address d len en false fuel (page + 1)

/-- `spi_flash_write` of the QSPI driver, `/repo/src/qspi_flash.c:419-467`. -/
def qspiWrite (m : Mem) (address : Nat) (d : Nat → Byte) (len : Nat) (en : Nat → Bool) : Bool × Mem :=
  qspiLoop m address d len en true ((len + 255) / 256) 0

/-- The loop of `ext_flash_erase`, `/repo/include/hal.h:94-106`; `p` and `end` are `uint32_t`.
`none`: not finished after `fuel` rounds. -/
def extEraseLoop (m : Mem) (p end_ : Nat) : Nat → Option Mem
  | 0 => none
  | fuel + 1 =>
    if p ≤ end_ then extEraseLoop (norErase m (p / 4096 * 4096)) ((p + 4096) % 4294967296) end_ fuel
    else some m

/-- `ext_flash_erase`, `/repo/include/hal.h:94-106`. -/
def extErase (m : Mem) (address len fuel : Nat) : Option Mem :=
  extEraseLoop m address ((address + len + 4294967295) % 4294967296) fuel

/-! ## What should happen -/

/-- NOR programming of exactly the bytes `[a, a + len)`. -/
def Programmed (m m' : Mem) (a len : Nat) (d : Nat → Byte) : Prop :=
  ∀ y, m' y = if a ≤ y ∧ y < a + len then m y &&& d (y - a) else m y

/-- The bytes `[a, a + len)` erased and no others. -/
def ErasedExactly (m m' : Mem) (a len : Nat) : Prop :=
  ∀ y, m' y = if a ≤ y ∧ y < a + len then 0xFF#8 else m y

theorem Programmed.append {m m1 m2 : Mem} {a l k : Nat} {d : Nat → Byte} (h1 : Programmed m m1 a l d)
    (h2 : Programmed m1 m2 (a + l) k (fun i => d (l + i))) : Programmed m m2 a (l + k) d := by
  intro y
  rw [h2 y]
  by_cases hy : a + l ≤ y ∧ y < a + l + k
  · rw [if_pos hy, h1 y, if_neg (by omega), if_pos (by omega)]
    dsimp only
    rw [show l + (y - (a + l)) = y - a by omega]
  · rw [if_neg hy, h1 y]
    by_cases h : a ≤ y ∧ y < a + l
    · rw [if_pos h, if_pos (by omega)]
    · rw [if_neg h, if_neg (by omega)]

/-- PAGE PROGRAM without wrap around. -/
theorem norPage_in {m : Mem} {a : Nat} {d : Nat → Byte} (ha : a < 16777216) : ∀ k, a % 256 + k ≤ 256 →
    Programmed m (norPage m a d k) a k d := by
  intro k
  induction k with
  | zero => intro _ y; rw [if_neg (by omega)]; rfl
  | succ k ih =>
    intro hk y
    have hA : norAddr a = a := Nat.mod_eq_of_lt ha
    show norByte _ (norAddr a / 256 * 256 + (norAddr a + k) % 256) (d k) y = _
    rw [hA, show a / 256 * 256 + (a + k) % 256 = a + k by omega]
    unfold norByte
    rw [ih (by omega) y]
    by_cases hy : y = a + k
    · rw [if_pos hy, if_neg (by omega), if_pos (by omega), show y - a = k by omega]
    · rw [if_neg hy]
      by_cases h : a ≤ y ∧ y < a + k
      · rw [if_pos h, if_pos (by omega)]
      · rw [if_neg h, if_neg (by omega)]

theorem wpCount_eq (a : Nat) : wpCount a = 256 - a % 256 := by
  generalize hn : 256 - a % 256 = n
  induction n generalizing a with
  | zero => omega
  | succ n ih =>
    rw [wpCount]
    split
    · rw [ih (a + 1) (by omega)]; omega
    · omega

/-! ## Page writes of the SPI driver -/

/-- End of the last page touched by `[a, a + len)`. -/
def pageEnd (a len : Nat) : Nat := (a + len + 255) / 256 * 256

theorem wpLoop_eff (n : Nat) : ∀ (m : Mem) (a j : Nat) (d : Nat → Byte), 0 < n → pageEnd a n ≤ 16777216 →
    Programmed m (wpLoop m a j n d) a (pageEnd a n - a) (fun i => d (j + i)) := by
  induction n using Nat.strongRecOn with
  | ind n ih =>
    intro m a j d hn he
    unfold pageEnd at he ⊢
    rw [wpLoop, if_pos (by omega), wpCount_eq]
    have h1 : Programmed m (norPage m a (fun i => d (j + i)) (256 - a % 256)) a (256 - a % 256)
        (fun i => d (j + i)) := by
      have ha : a < 16777216 := by omega
      exact norPage_in ha (256 - a % 256) (by omega)
    by_cases hlast : n ≤ 256 - a % 256
    · rw [wpLoop, if_neg (by omega), show (a + n + 255) / 256 * 256 - a = 256 - a % 256 by omega]
      exact h1
    · have h2 := ih (n - (256 - a % 256)) (by omega) (norPage m a (fun i => d (j + i)) (256 - a % 256))
        (a + (256 - a % 256)) (j + (256 - a % 256)) d (by omega) (by
          unfold pageEnd
          rw [show a + (256 - a % 256) + (n - (256 - a % 256)) = a + n by omega]
          exact he)
      unfold pageEnd at h2
      rw [show ((n : Int) - ((256 - a % 256 : Nat) : Int)) = ((n - (256 - a % 256) : Nat) : Int) by omega]
      rw [show (a + n + 255) / 256 * 256 - a = (256 - a % 256) +
        ((a + (256 - a % 256) + (n - (256 - a % 256)) + 255) / 256 * 256 - (a + (256 - a % 256))) by omega]
      refine h1.append ?_
      intro y
      rw [h2 y]
      simp only [Nat.add_assoc]

/-- **What `spi_flash_write_page` does**: it programs up to the end of the last page, with whatever
follows the caller's data in memory. -/
theorem spi_page_effect (m : Mem) (a len : Nat) (d : Nat → Byte) (h : 0 < len) (he : pageEnd a len ≤ 16777216) :
    ∃ m', spiWritePage m a d len = some m' ∧ Programmed m m' a (pageEnd a len - a) d := by
  refine ⟨_, by unfold spiWritePage; rw [if_neg (by omega)], ?_⟩
  have := wpLoop_eff len m a 0 d h he
  simpa using this

/-- **C48, page writes.** A write that ends at a page boundary is exact.

Partial: writes that end elsewhere program further bytes, see `spi_page_overrun`. -/
theorem spi_page_exact_partial (m : Mem) (a len : Nat) (d : Nat → Byte) (h : 0 < len)
    (he : a + len ≤ 16777216) (hp : (a + len) % 256 = 0) :
    ∃ m', spiWritePage m a d len = some m' ∧ Programmed m m' a len d := by
  have e : pageEnd a len = a + len := by unfold pageEnd; omega
  obtain ⟨m', h1, h2⟩ := spi_page_effect m a len d h (by omega)
  exact ⟨m', h1, by rwa [e, Nat.add_sub_cancel_left] at h2⟩

example : ∃ m', spiWritePage (fun _ => 0xFF#8) 300 (fun i => BitVec.ofNat 8 i) 212 = some m' ∧
    Programmed (fun _ => 0xFF#8) m' 300 212 (fun i => BitVec.ofNat 8 i) :=
  spi_page_exact_partial _ 300 212 _ (by decide) (by decide) (by decide)

/-- **Finding.** A write that does not end at a page boundary always programs the byte behind it, with the
byte that follows the caller's buffer. -/
theorem spi_page_overrun (m : Mem) (a len : Nat) (d : Nat → Byte) (h : 0 < len)
    (he : pageEnd a len ≤ 16777216) (hp : (a + len) % 256 ≠ 0) :
    ∃ m', spiWritePage m a d len = some m' ∧ m' (a + len) = m (a + len) &&& d len := by
  obtain ⟨m', h1, h2⟩ := spi_page_effect m a len d h he
  refine ⟨m', h1, ?_⟩
  rw [h2, if_pos (by unfold pageEnd; omega), Nat.add_sub_cancel_left]

example : ∃ m', spiWritePage (fun _ => 0xFF#8) 16 (fun i => if i < 4 then 0xAA#8 else 0x00#8) 4 = some m' ∧
    m' 20 = 0x00#8 := by
  obtain ⟨m', h1, h2⟩ := spi_page_overrun (fun _ => 0xFF#8) 16 4 (fun i => if i < 4 then 0xAA#8 else 0x00#8)
    (by decide) (by decide) (by decide)
  exact ⟨m', h1, h2⟩

/-- **Finding.** Writing the state of an external partition through a page write destroys the last byte
('T') of its magic unless the byte that happens to follow `ext_cache` in RAM has the bits of 'T'. `E` is
the end of the partition; `set_trailer_at` (`/repo/src/libwolfboot.c:456-464`) writes 4 bytes at
`E - 5`. -/
theorem spi_state_destroys_magic (m : Mem) (E : Nat) (d : Nat → Byte) (hE : E % 256 = 0) (h0 : 0 < E)
    (h1 : E ≤ 16777216) (hm : m (E - 1) = 0x54#8) (hj : d 4 &&& 0x54#8 ≠ 0x54#8) :
    ∃ m', spiWritePage m (E - 5) d 4 = some m' ∧ m' (E - 1) ≠ 0x54#8 := by
  obtain ⟨m', e1, e2⟩ := spi_page_overrun m (E - 5) 4 d (by decide) (by unfold pageEnd; omega) (by omega)
  refine ⟨m', e1, ?_⟩
  rw [show E - 1 = E - 5 + 4 by omega, e2, show E - 5 + 4 = E - 1 by omega, hm, BitVec.and_comm]
  exact hj

example : ∃ m', spiWritePage (fun y => if y = 0x1FFFF then 0x54#8 else 0xFF#8) 0x1FFFB
      (fun i => if i = 0 then 0x70#8 else if i < 4 then 0xFF#8 else 0x00#8) 4 = some m' ∧
    m' 0x1FFFF ≠ 0x54#8 :=
  spi_state_destroys_magic _ 0x20000 _ (by decide) (by decide) (by decide) (by decide) (by decide)

/-- A length of zero or less is refused. -/
theorem spi_page_refused (m : Mem) (a : Nat) (d : Nat → Byte) (len : Int) (h : len ≤ 0) :
    spiWritePage m a d len = none := by
  unfold spiWritePage
  rw [if_pos (by omega)]

example : spiWritePage (fun _ => 0xFF#8) 0 (fun _ => 0#8) (-3) = none :=
  spi_page_refused _ _ _ _ (by decide)

/-! ## Single byte writes -/

theorem and_compl_zero (x b : Byte) : x &&& b &&& ~~~b = 0#8 := by
  apply BitVec.eq_of_getLsbD_eq; intro i hi
  simp only [BitVec.getLsbD_and, BitVec.getLsbD_not]
  cases b.getLsbD i <;> simp

theorem sbLoop_ok (k : Nat) : ∀ (m : Mem) (a : Nat) (d : Nat → Byte), a + k ≤ 16777216 →
    (∀ i, i < k → m (a + i) &&& d i = d i) →
    ∃ m', sbLoop m a d k = (true, m') ∧ Programmed m m' a k d := by
  induction k with
  | zero => intro m a d _ _; exact ⟨m, rfl, fun y => by rw [if_neg (by omega)]⟩
  | succ k ih =>
    intro m a d ha hd
    have hA : norAddr a = a := Nat.mod_eq_of_lt (by omega)
    have h0 : m a &&& d 0 = d 0 := hd 0 (by omega)
    have hr : norRead (norByte m a (d 0)) a 0 = d 0 := by
      unfold norRead norByte
      rw [hA, Nat.add_zero, hA, if_pos rfl, h0]
    obtain ⟨m', e1, e2⟩ := ih (norByte m a (d 0)) (a + 1) (fun i => d (1 + i)) (by omega) (by
      intro i hi
      have := hd (1 + i) (by omega)
      unfold norByte
      rwa [if_neg (by omega), show a + 1 + i = a + (1 + i) by omega])
    refine ⟨m', ?_, ?_⟩
    · unfold sbLoop
      dsimp only
      rw [hA, hr, if_pos (by have := and_compl_zero (d 0) (d 0); rwa [BitVec.and_self] at this),
        if_neg (by simp), e1]
    · have hb : Programmed m (norByte m a (d 0)) a 1 d := by
        intro y
        unfold norByte
        by_cases hy : y = a
        · rw [if_pos hy, if_pos (by omega), show y - a = 0 by omega]
        · rw [if_neg hy, if_neg (by omega)]
      rw [Nat.add_comm k 1]
      exact hb.append e2

/-- **C48, single byte mode.** If no bit has to be set, exactly the given bytes are programmed and they
read back as written. -/
theorem spi_sb_exact (m : Mem) (a len : Nat) (d : Nat → Byte) (h : 0 < len) (ha : a + len ≤ 16777216)
    (hd : ∀ i, i < len → m (a + i) &&& d i = d i) :
    ∃ m', spiWriteSb m a d len = (true, m') ∧ Programmed m m' a len d ∧
      ∀ i, i < len → norRead m' a i = d i := by
  obtain ⟨m', e1, e2⟩ := sbLoop_ok len m a d ha hd
  refine ⟨m', by unfold spiWriteSb; rw [if_neg (by omega)]; exact e1, e2, ?_⟩
  intro i hi
  unfold norRead
  rw [show norAddr a = a from Nat.mod_eq_of_lt (by omega), show norAddr (a + i) = a + i from Nat.mod_eq_of_lt (by omega),
    e2, if_pos (by omega), Nat.add_sub_cancel_left, hd i hi]

example : ∃ m', spiWriteSb (fun _ => 0xFF#8) 4094 (fun i => BitVec.ofNat 8 (7 * i)) 5 = (true, m') ∧
    Programmed (fun _ => 0xFF#8) m' 4094 5 (fun i => BitVec.ofNat 8 (7 * i)) ∧
    ∀ i, i < 5 → norRead m' 4094 i = BitVec.ofNat 8 (7 * i) :=
  spi_sb_exact _ 4094 5 _ (by decide) (by decide) (by decide)

/-- **C48, single byte mode, errors are reported**: if some byte would need a bit set, the return value
is not 0. -/
theorem spi_sb_detects (m : Mem) (a len : Nat) (d : Nat → Byte) (ha : a + len ≤ 16777216)
    (hd : ∃ i, i < len ∧ m (a + i) &&& d i ≠ d i) : (spiWriteSb m a d len).1 = false := by
  have key : ∀ (k : Nat) (m : Mem) (a : Nat) (d : Nat → Byte), a + k ≤ 16777216 →
      (∃ i, i < k ∧ m (a + i) &&& d i ≠ d i) → (sbLoop m a d k).1 = false := by
    intro k
    induction k with
    | zero => rintro m a d _ ⟨i, hi, _⟩; omega
    | succ k ih =>
      rintro m a d ha ⟨i, hi, hne⟩
      have hA : norAddr a = a := Nat.mod_eq_of_lt (by omega)
      have hr : norRead (norByte m a (d 0)) a 0 = m a &&& d 0 := by
        unfold norRead norByte
        rw [hA, Nat.add_zero, hA, if_pos rfl]
      unfold sbLoop
      dsimp only
      rw [hA, hr, if_pos (and_compl_zero _ _)]
      split
      · rfl
      · rename_i h0
        have h0 : m a &&& d 0 = d 0 := Classical.byContradiction h0
        have : i ≠ 0 := by rintro rfl; exact hne h0
        refine ih _ _ _ (by omega) ⟨i - 1, by omega, ?_⟩
        unfold norByte
        rw [if_neg (by omega), show a + 1 + (i - 1) = a + i by omega, show 1 + (i - 1) = i by omega]
        exact hne
  unfold spiWriteSb
  split
  · rfl
  · exact key len m a d ha hd

example : (spiWriteSb (fun _ => 0x0F#8) 0 (fun _ => 0xF0#8) 3).1 = false :=
  spi_sb_detects _ 0 3 _ (by decide) ⟨0, by decide, by decide⟩

/-! ## Erasing -/

theorem extEraseLoop_ok (n : Nat) : ∀ (m : Mem) (p end_ fuel : Nat), p % 4096 = 0 → n < fuel → 0 < n →
    p + (n - 1) * 4096 ≤ end_ → end_ < p + n * 4096 → p + n * 4096 ≤ 16777216 →
    ∃ m', extEraseLoop m p end_ fuel = some m' ∧ ErasedExactly m m' p (n * 4096) := by
  induction n with
  | zero => intro m p e fuel _ _ h; omega
  | succ n ih =>
    intro m p e fuel hp hf _ h1 h2 h3
    obtain ⟨fuel, rfl⟩ : ∃ k, fuel = k + 1 := ⟨fuel - 1, by omega⟩
    have hA : norAddr p = p := Nat.mod_eq_of_lt (by omega)
    have hone : ErasedExactly m (norErase m (p / 4096 * 4096)) p 4096 := by
      intro y
      unfold norErase
      rw [show p / 4096 * 4096 = p by omega, hA]
      by_cases hy : p ≤ y ∧ y < p + 4096
      · rw [if_pos (by omega), if_pos hy]
      · rw [if_neg (by omega), if_neg hy]
    unfold extEraseLoop
    rw [if_pos (by omega), show (p + 4096) % 4294967296 = p + 4096 from Nat.mod_eq_of_lt (by omega)]
    by_cases hn : n = 0
    · subst hn
      obtain ⟨fuel, rfl⟩ : ∃ k, fuel = k + 1 := ⟨fuel - 1, by omega⟩
      refine ⟨_, by unfold extEraseLoop; rw [if_neg (by omega)], by simpa using hone⟩
    · obtain ⟨m', e1, e2⟩ := ih (norErase m (p / 4096 * 4096)) (p + 4096) e fuel (by omega) (by omega)
        (by omega) (by omega) (by omega) (by omega)
      refine ⟨m', e1, ?_⟩
      intro y
      rw [e2 y]
      by_cases hy : p + 4096 ≤ y ∧ y < p + 4096 + n * 4096
      · rw [if_pos hy, if_pos (by omega)]
      · rw [if_neg hy, hone y]
        by_cases h : p ≤ y ∧ y < p + 4096
        · rw [if_pos h, if_pos (by omega)]
        · rw [if_neg h, if_neg (by omega)]

/-- **C48, erasing.** An erase that starts at a sector boundary erases exactly the sectors of 4 KiB that
contain its bytes. -/
theorem spi_erase_exact_partial (m : Mem) (a len : Nat) (ha : a % 4096 = 0) (h : 0 < len)
    (he : a + (len + 4095) / 4096 * 4096 ≤ 16777216) :
    ∃ fuel m', extErase m a len fuel = some m' ∧ ErasedExactly m m' a ((len + 4095) / 4096 * 4096) := by
  have k1 : (len + 4095) / 4096 < (len + 4095) / 4096 + 1 := Nat.lt_succ_self _
  have k2 : 0 < (len + 4095) / 4096 := by omega
  have k3 : a + ((len + 4095) / 4096 - 1) * 4096 ≤ a + len - 1 := by
    clear he
    rw [Nat.sub_mul]
    omega
  have k4 : a + len - 1 < a + (len + 4095) / 4096 * 4096 := by omega
  obtain ⟨m', h1, h2⟩ := extEraseLoop_ok ((len + 4095) / 4096) m a (a + len - 1)
    ((len + 4095) / 4096 + 1) ha k1 k2 k3 k4 he
  refine ⟨(len + 4095) / 4096 + 1, m', ?_, h2⟩
  unfold extErase
  rwa [show (a + len + 4294967295) % 4294967296 = a + len - 1 by omega]

example : ∃ fuel m', extErase (fun _ => 0#8) 0x10000 5000 fuel = some m' ∧
    ErasedExactly (fun _ => 0#8) m' 0x10000 8192 :=
  spi_erase_exact_partial _ 0x10000 5000 (by decide) (by decide) (by decide)

/-- **Finding.** An erase that does not start at a sector boundary may leave its last sector unerased. -/
theorem spi_erase_misses (m : Mem) : ∃ m', extErase m 4095 2 2 = some m' ∧ m' 4096 = m 4096 := by
  refine ⟨_, rfl, ?_⟩
  simp [norErase, norAddr]

/-- **Finding.** Erasing 0 bytes at address 0 does not end; it keeps erasing the whole chip. -/
theorem spi_erase_zero_endless (fuel : Nat) (m : Mem) : extErase m 0 0 fuel = none := by
  have key : ∀ (fuel p : Nat) (m : Mem), p < 4294967296 → extEraseLoop m p 4294967295 fuel = none := by
    intro fuel
    induction fuel with
    | zero => intro p m _; rfl
    | succ n ih =>
      intro p m hp
      unfold extEraseLoop
      rw [if_pos (by omega)]
      exact ih _ _ (Nat.mod_lt _ (by decide))
  exact key fuel 0 m (by decide)

/-- **Finding.** Addresses from 16 MiB on are folded back: only 24 bits are sent. Erasing or writing
there changes the beginning of the chip. -/
theorem spi_address_folded (m : Mem) (a : Nat) (d : Nat → Byte) (k i : Nat) :
    norErase m (a + 16777216) = norErase m a ∧ norPage m (a + 16777216) d k = norPage m a d k ∧
    norRead m (a + 16777216) i = norRead m a i := by
  have h : norAddr (a + 16777216) = norAddr a := by unfold norAddr; omega
  refine ⟨by unfold norErase; rw [h], ?_, by unfold norRead; rw [h]⟩
  induction k with
  | zero => rfl
  | succ k ih =>
    show norByte _ (norAddr (a + 16777216) / 256 * 256 + (norAddr (a + 16777216) + k) % 256) _ = _
    rw [h, ih]; rfl

/-! ## The QSPI driver -/

theorem qspiLoop_ok (f : Nat) : ∀ (m : Mem) (a : Nat) (d : Nat → Byte) (len page : Nat) (en : Nat → Bool),
    (∀ i, en i = true) → a % 256 = 0 → 256 ≤ len → a + (page + f) * 256 ≤ 16777216 →
    ∃ m', qspiLoop m a d len en true f page = (true, m') ∧
      Programmed m m' (a + page * 256) (f * 256) (fun i => d (page * 256 + i)) := by
  induction f with
  | zero => intro m a d len page en _ _ _ _; exact ⟨m, rfl, fun y => by rw [if_neg (by omega)]⟩
  | succ f ih =>
    intro m a d len page en hen ha hl hb
    have h1 : Programmed m (norPage m (a + page * 256) (fun i => d (page * 256 + i)) 256)
        (a + page * 256) 256 (fun i => d (page * 256 + i)) := by
      have h0 : a + page * 256 < 16777216 := by omega
      exact norPage_in h0 256 (by omega)
    obtain ⟨m', e1, e2⟩ := ih (norPage m (a + page * 256) (fun i => d (page * 256 + i)) 256) a d len (page + 1)
      en hen ha hl (by rw [show page + 1 + f = page + (f + 1) by omega]; exact hb)
    refine ⟨m', ?_, ?_⟩
    · unfold qspiLoop
      rw [if_pos (hen page), Nat.min_eq_right hl, e1]
    · rw [show (f + 1) * 256 = 256 + f * 256 by omega]
      refine h1.append ?_
      intro y
      rw [e2 y, show a + (page + 1) * 256 = a + page * 256 + 256 by omega,
        show (page + 1) * 256 = page * 256 + 256 by omega]
      simp only [Nat.add_assoc]

/-- **C48, QSPI, whole pages.** Partial: other lengths above a page program up to the end of the last page
(`qspi_overrun`), and a failed write enable is reported only for the last page (`qspi_page_skipped`). -/
theorem qspi_exact_partial (m : Mem) (a len : Nat) (d : Nat → Byte) (en : Nat → Bool) (hen : ∀ i, en i = true)
    (ha : a % 256 = 0) (hl : len % 256 = 0) (h : 0 < len) (he : a + len ≤ 16777216) :
    ∃ m', qspiWrite m a d len en = (true, m') ∧ Programmed m m' a len d := by
  obtain ⟨m', e1, e2⟩ := qspiLoop_ok ((len + 255) / 256) m a d len 0 en hen ha (by omega) (by omega)
  refine ⟨m', e1, ?_⟩
  rw [show (len + 255) / 256 * 256 = len by omega] at e2
  simpa using e2

example : ∃ m', qspiWrite (fun _ => 0xFF#8) 0x1000 (fun i => BitVec.ofNat 8 i) 512 (fun _ => true) = (true, m') ∧
    Programmed (fun _ => 0xFF#8) m' 0x1000 512 (fun i => BitVec.ofNat 8 i) :=
  qspi_exact_partial _ 0x1000 512 _ _ (fun _ => rfl) (by decide) (by decide) (by decide) (by decide)

/-- **C48, QSPI, inside a page** (state, flags and magic of a trailer). -/
theorem qspi_small_exact (m : Mem) (a len : Nat) (d : Nat → Byte) (en : Nat → Bool) (hen : ∀ i, en i = true)
    (hl : a % 256 + len ≤ 256) (h : 0 < len) (he : a < 16777216) :
    ∃ m', qspiWrite m a d len en = (true, m') ∧ Programmed m m' a len d := by
  refine ⟨norPage m a d len, ?_, norPage_in he len hl⟩
  unfold qspiWrite
  rw [show (len + 255) / 256 = 1 by omega]
  unfold qspiLoop qspiLoop
  rw [if_pos (hen 0), Nat.min_eq_left (by omega)]
  simp

example : ∃ m', qspiWrite (fun _ => 0xFF#8) 0x1FFFB (fun _ => 0x70#8) 4 (fun _ => true) = (true, m') ∧
    Programmed (fun _ => 0xFF#8) m' 0x1FFFB 4 (fun _ => 0x70#8) :=
  qspi_small_exact _ 0x1FFFB 4 _ _ (fun _ => rfl) (by decide) (by decide) (by decide)

/-- **Finding.** More than one page, the last one incomplete: `len` is not decreased, so whole pages are sent
and the bytes behind the caller's buffer are programmed as well. -/
theorem qspi_overrun (m : Mem) (a len : Nat) (d : Nat → Byte) (en : Nat → Bool) (hen : ∀ i, en i = true)
    (ha : a % 256 = 0) (hl : len % 256 ≠ 0) (h : 256 < len) (he : pageEnd a len ≤ 16777216) :
    ∃ m', qspiWrite m a d len en = (true, m') ∧ m' (a + len) = m (a + len) &&& d len := by
  unfold pageEnd at he
  obtain ⟨m', e1, e2⟩ := qspiLoop_ok ((len + 255) / 256) m a d len 0 en hen ha (by omega) (by omega)
  refine ⟨m', e1, ?_⟩
  rw [e2, if_pos (by omega)]
  simp

example : ∃ m', qspiWrite (fun _ => 0xFF#8) 0 (fun i => if i < 300 then 0xAA#8 else 0#8) 300 (fun _ => true) = (true, m') ∧
    m' 300 = 0#8 :=
  qspi_overrun _ 0 300 _ _ (fun _ => rfl) (by decide) (by decide) (by decide) (by decide)

/-- **Finding.** If enabling the write fails for the first of two pages, that page is not written, and
success is returned. -/
theorem qspi_page_skipped (m : Mem) (a : Nat) (d : Nat → Byte) (ha : a % 256 = 0) (he : a + 512 ≤ 16777216) :
    ∃ m', qspiWrite m a d 512 (fun page => page ≠ 0) = (true, m') ∧ ∀ i, i < 256 → m' (a + i) = m (a + i) := by
  refine ⟨norPage m (a + 256) (fun i => d (256 + i)) 256, by simp [qspiWrite, qspiLoop], ?_⟩
  intro i hi
  rw [norPage_in (by omega) 256 (by omega) (a + i), if_neg (by omega)]

example : ∃ m', qspiWrite (fun _ => 0xFF#8) 0 (fun _ => 0#8) 512 (fun page => page ≠ 0) = (true, m') ∧
    ∀ i, i < 256 → m' (0 + i) = 0xFF#8 :=
  qspi_page_skipped _ 0 _ (by decide) (by decide)

theorem qspiLoop_ret (m : Mem) (a : Nat) (d : Nat → Byte) (len : Nat) (en : Nat → Bool) :
    ∀ (f page : Nat) (m : Mem) (ret : Bool),
      (qspiLoop m a d len en ret f page).1 = if f = 0 then ret else en (page + f - 1) := by
  intro f
  induction f with
  | zero => intro page m ret; rfl
  | succ f ih =>
    intro page m ret
    rw [qspiLoop, if_neg (Nat.succ_ne_zero f)]
    have e : page + (f + 1) - 1 = page + 1 + f - 1 := by omega
    cases he : en page with
    | true =>
      rw [if_pos rfl, ih, e]
      by_cases h : f = 0
      · subst h; rw [if_pos rfl]; exact he.symm
      · rw [if_neg h]
    | false =>
      rw [if_neg (by decide), ih, e]
      by_cases h : f = 0
      · subst h; rw [if_pos rfl]; exact he.symm
      · rw [if_neg h]

/-- **C48, QSPI, result.** The value returned is the one of the last page, and only that: an error on the last
page is reported, an error on an earlier one is not (`qspi_page_skipped`). -/
theorem qspi_result (m : Mem) (a len : Nat) (d : Nat → Byte) (en : Nat → Bool) (h : 0 < len) :
    (qspiWrite m a d len en).1 = en ((len - 1) / 256) := by
  unfold qspiWrite
  rw [qspiLoop_ret m a d len en, if_neg (by omega)]
  congr 1
  omega

example : (qspiWrite (fun _ => 0xFF#8) 0 (fun _ => 0#8) 512 (fun page => page ≠ 1)).1 = false := by
  rw [qspi_result _ _ _ _ _ (by decide)]
  decide

/-! ## Connection with the update model -/

/-- Programming bytes of the chip that belong to a partition is `Flash.program`. -/
theorem programmed_refines {base size : Part → Nat} {f : Flash} {m m' : Mem} (hh : PHolds base size f m)
    (hdj : DisjointParts base size) (p : Part) {off len : Nat} {d : Nat → Byte} (hin : off + len ≤ size p)
    (h : Programmed m m' (base p + off) len d) : PHolds base size (f.program p off len d) m' := by
  intro q x hx
  rw [h]
  unfold Flash.program
  by_cases hq : q = p
  · subst hq
    by_cases hr : off ≤ x ∧ x < off + len
    · rw [if_pos (by omega), if_pos ⟨rfl, hr⟩, hh q x hx]
      congr 2; omega
    · rw [if_neg (by omega), if_neg (fun h => hr h.2), hh q x hx]
  · rw [if_neg, if_neg (fun h => hq h.1), hh q x hx]
    have := hdj q p hq
    omega

/-- Erasing sectors of the chip that belong to a partition is `Flash.erase`. -/
theorem erased_refines {base size : Part → Nat} {f : Flash} {m m' : Mem} (hh : PHolds base size f m)
    (hdj : DisjointParts base size) (p : Part) {off len : Nat} (hin : off + len ≤ size p)
    (h : ErasedExactly m m' (base p + off) len) : PHolds base size (f.erase p off len) m' := by
  intro q x hx
  rw [h]
  unfold Flash.erase
  by_cases hq : q = p
  · subst hq
    by_cases hr : off ≤ x ∧ x < off + len
    · rw [if_pos (by omega), if_pos ⟨rfl, hr⟩]
    · rw [if_neg (by omega), if_neg (fun h => hr h.2), hh q x hx]
  · rw [if_neg, if_neg (fun h => hq h.1), hh q x hx]
    have := hdj q p hq
    omega

/-- **C48, the update model on an SPI chip.** Partitions on an SPI flash: the blocks of the copy loop
written by any of the three write functions, the trailer words written by the single byte mode or by the
QSPI driver, and sector erases do what `Flash.program` and `Flash.erase` say. -/
theorem spi_refines_partial {base size : Part → Nat} {f : Flash} {m : Mem} (hh : PHolds base size f m)
    (hdj : DisjointParts base size) (p : Part) {off len : Nat} {d : Nat → Byte} (hin : off + len ≤ size p)
    (hpos : 0 < len) (hend : base p + off + len ≤ 16777216) :
    ((base p + off) % 256 = 0 → len % 256 = 0 → ∃ m', spiWritePage m (base p + off) d len = some m' ∧
      PHolds base size (f.program p off len d) m') ∧
    ((base p + off) % 256 = 0 → len % 256 = 0 → ∃ m', qspiWrite m (base p + off) d len (fun _ => true) = (true, m') ∧
      PHolds base size (f.program p off len d) m') ∧
    ((base p + off) % 256 + len ≤ 256 → ∃ m', qspiWrite m (base p + off) d len (fun _ => true) = (true, m') ∧
      PHolds base size (f.program p off len d) m') ∧
    ((∀ i, i < len → f p (off + i) &&& d i = d i) → ∃ m', spiWriteSb m (base p + off) d len = (true, m') ∧
      PHolds base size (f.program p off len d) m') ∧
    ((base p + off) % 4096 = 0 → len % 4096 = 0 → ∃ fuel m', extErase m (base p + off) len fuel = some m' ∧
      PHolds base size (f.erase p off len) m') := by
  refine ⟨fun h1 h2 => ?_, fun h1 h2 => ?_, fun h1 => ?_, fun h1 => ?_, fun h1 h2 => ?_⟩
  · obtain ⟨m', a, b⟩ := spi_page_exact_partial m (base p + off) len d hpos hend (by omega)
    exact ⟨m', a, programmed_refines hh hdj p hin b⟩
  · obtain ⟨m', a, b⟩ := qspi_exact_partial m (base p + off) len d (fun _ => true) (fun _ => rfl) h1 h2 hpos hend
    exact ⟨m', a, programmed_refines hh hdj p hin b⟩
  · obtain ⟨m', a, b⟩ := qspi_small_exact m (base p + off) len d (fun _ => true) (fun _ => rfl) h1 hpos
      (Nat.lt_of_lt_of_le (Nat.lt_add_of_pos_right hpos) hend)
    exact ⟨m', a, programmed_refines hh hdj p hin b⟩
  · obtain ⟨m', a, b, _⟩ := spi_sb_exact m (base p + off) len d hpos hend (by
      intro i hi
      rw [Nat.add_assoc, hh p (off + i) (by omega)]
      exact h1 i hi)
    exact ⟨m', a, programmed_refines hh hdj p hin b⟩
  · have e : (len + 4095) / 4096 * 4096 = len := by clear hend; omega
    obtain ⟨fuel, m', a, b⟩ := spi_erase_exact_partial m (base p + off) len h1 hpos (by rw [e]; exact hend)
    rw [e] at b
    exact ⟨fuel, m', a, erased_refines hh hdj p hin b⟩

/-- Layout of the example: partitions of 64 KiB at the start of the chip. -/
def norBase : Part → Nat
  | .boot => 0
  | .update => 0x10000
  | .swap => 0x20000

theorem norDisjoint : DisjointParts norBase (fun _ => 0x10000) := by
  intro p q h
  cases p <;> cases q <;> first | exact absurd rfl h | (simp only [norBase]; omega)

/-- Non-vacuity: the state UPDATING written by `set_trailer_at` to an external UPDATE partition. -/
example : ∃ m', spiWriteSb (fun _ => 0xFF#8) (norBase .update + 0xFFFB) (fun _ => 0x70#8) (4 : Nat) = (true, m') ∧
    PHolds norBase (fun _ => 0x10000) (Flash.program (fun _ _ => 0xFF#8) .update 0xFFFB 4 (fun _ => 0x70#8)) m' :=
  (spi_refines_partial (f := fun _ _ => 0xFF#8) (m := fun _ => 0xFF#8) (fun _ _ _ => rfl) norDisjoint .update
    (off := 0xFFFB) (len := 4) (d := fun _ => 0x70#8) (by decide) (by decide) (by decide)).2.2.2.1 (by decide)

end Verif
