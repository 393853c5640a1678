import Verif.HalFlashC
import Verif.HalErase
import Verif.Flash

/-!
# Flash drivers below the bootloader

The update model works on partitions (`Flash.program`, `Flash.erase`). This file connects it with
the models of the drivers: the requests made by the copy loop and the erase of a sector have the
effect the update model gives them, on every chip listed; and it says which requests on the flags
are possible on flash with error correction.
-/

namespace Verif

/-- The drivers whose requests are compared, with their parameters. -/
inductive Chip where
  /-- `hal/stm32f4.c`, `hal/stm32f7.c` -/
  | f4
  /-- `hal/nrf52.c`, `hal/nrf5340.c`, `hal/stm32l0.c` -/
  | nrf
  /-- `hal/stm32wb.c`, `hal/stm32l4.c` -/
  | wb
  /-- `hal/samr21.c`, `hal/same51.c` -/
  | sam
  /-- `hal/kinetis.c` -/
  | kinetis
  /-- `hal/mcxa.c` -/
  | mcxa
  /-- `hal/mcxw.c` -/
  | mcxw
  /-- `hal/stm32l5.c` -/
  | l5
  /-- `hal/stm32h5.c` -/
  | h5
  /-- `hal/stm32u5.c` -/
  | u5
  /-- `hal/stm32h7.c` -/
  | h7
  /-- `hal/stm32f1.c` -/
  | f1
  /-- `hal/lpc.c` -/
  | lpc
  /-- `hal/hifive1.c` -/
  | hifive
  /-- `hal/renesas-rx.c` -/
  | rx
  /-- `hal/ti_hercules.c` with blocks of `FLASHBUFFER_SIZE` = 256 bytes (`/repo/hal/ti_hercules.c:115-122`) -/
  | ti

/-- `hal_flash_write` of the driver (references at the single models). -/
def Chip.write (c : Chip) (f : Mem) (addr : Nat) (d : HBuf) : HwRes :=
  match c with
  | .f4 => byteLoop f addr d 0
  | .nrf => wordLoop f addr d 0
  | .wb => dwLoop 0 f addr d 0
  | .sam => samLoop f addr d 0
  | .kinetis => kinLoop 8 f addr d 0 d.len
  | .mcxa => kinLoop 16 f addr d 0 d.len
  | .mcxw => mcxPass f addr d
  | .l5 => wideLoop 8 false f addr d 0
  | .h5 => wideLoop 8 true f addr d 0
  | .u5 => wideLoop 16 false f addr d 0
  | .h7 => h7Loop f addr d 0
  | .f1 => f1Write f addr d
  | .lpc => lpcLoop f addr d 0
  | .hifive => hifLoop f d 0 (addr % 256) (addr / 256)
  | .rx => rxLoop f addr d 0
  | .ti => tiWrite 256 f addr d

/-- Program unit and whether it must be erased (as in the single models). -/
def Chip.dev : Chip → HDev
  | .f4 => ⟨1, false⟩
  | .nrf | .sam => ⟨4, false⟩
  | .wb | .kinetis | .l5 | .h5 => ⟨8, true⟩
  | .mcxa | .mcxw | .u5 => ⟨16, true⟩
  | .h7 => ⟨32, true⟩
  | .f1 => ⟨2, true⟩
  | .lpc | .hifive => ⟨256, false⟩
  | .rx => ⟨128, true⟩
  | .ti => ⟨256, false⟩

theorem mod_of_256 {a k : Nat} (h : a % 256 = 0) (hk : k ∣ 256) : a % k = 0 :=
  Nat.mod_eq_zero_of_dvd (Nat.dvd_trans hk (Nat.dvd_of_mod_eq_zero h))

/-- **Blocks are written as asked**: a block whose address and length are multiples of 256, from a
buffer aligned to 32, is programmed exactly by every driver. `FLASHBUFFER_SIZE` is the header size
(256 or a multiple) or the sector size (`/repo/include/wolfboot/wolfboot.h:48-54`). -/
theorem chip_block_exact (c : Chip) (f : Mem) (addr : Nat) (d : HBuf) (h0 : 0 < addr)
    (hA : addr % 256 = 0) (hl : d.len % 256 = 0) (hp : 0 < d.len) (hd : d.addr % 32 = 0)
    (hfr : Fresh c.dev f addr d.len) :
    c.write f addr d = .ok (written f addr d d.len) := by
  cases c with
  | f4 => exact byte_write_exact f addr d
  | nrf => exact (word_write_iff f addr d (by omega)).1 (by unfold WordOK; omega)
  | wb => exact dw_write_exact f addr d hfr (by unfold DwOK; omega)
  | sam => exact (sam_write_iff addr d.addr d.len).2 (by unfold SamOK; omega) f d.b
  | kinetis => exact kin_write_exact 8 f addr d (by omega) hfr (by unfold KinOK; omega)
  | mcxa => exact kin_write_exact 16 f addr d (by omega) hfr (by unfold KinOK; omega)
  | mcxw => exact mcx_write_exact f addr d hfr (Or.inr ⟨by omega, by omega, by omega⟩)
  | l5 => exact (wide_write_iff 8 false (by omega) f addr d hfr hp).2 ⟨by omega, by omega⟩
  | h5 => exact (wide_write_iff 8 true (by omega) f addr d hfr hp).2 ⟨by omega, by omega⟩
  | u5 => exact (wide_write_iff 16 false (by omega) f addr d hfr hp).2 ⟨by omega, by omega⟩
  | h7 => exact h7_write_exact f addr d hfr
  | f1 => exact f1_write_exact f addr d hp hfr
  | lpc => exact lpc_write_exact f addr d
  | hifive => exact hif_write_exact f addr d (by unfold HifOK; omega)
  | rx =>
    have := rx_write_iff f addr d hp hfr
    rw [if_pos (by omega)] at this
    exact this
  | ti => exact ti_write_exact 256 (by omega) f addr d (Or.inl (by omega))

/-- The drivers that can write a single byte at any address (`set_trailer_at`,
`/repo/src/libwolfboot.c:453-487`, writes one byte). -/
def Chip.bytewise : Chip → Prop
  | .l5 | .h5 | .u5 | .rx => False
  | _ => True

/-- **A flag byte can be written** into an erased unit by the drivers in `bytewise` (on MCXW unless
it is the byte `0x0F` at offset 3 of a phrase, see `mcx_blank_skipped`). -/
theorem chip_byte_exact (c : Chip) (hc : c.bytewise) (f : Mem) (addr : Nat) (d : HBuf)
    (h0 : 3 ≤ addr) (h1 : d.len = 1) (hm : c = .mcxw → addr % 16 ≠ 3 ∨ d.b 0 ≠ 0x0F#8 ∧ d.b 0 ≠ 0xFF#8)
    (hfr : Fresh c.dev f addr d.len) :
    c.write f addr d = .ok (written f addr d 1) := by
  rw [← h1]
  cases c with
  | f4 => exact byte_write_exact f addr d
  | nrf => exact (word_write_iff f addr d (by omega)).1 (by unfold WordOK; omega)
  | wb => exact dw_write_exact f addr d hfr (by unfold DwOK; omega)
  | sam => exact (sam_write_iff addr d.addr d.len).2 (by unfold SamOK; omega) f d.b
  | kinetis => exact kin_write_exact 8 f addr d (by omega) hfr (by unfold KinOK; omega)
  | mcxa => exact kin_write_exact 16 f addr d (by omega) hfr (by unfold KinOK; omega)
  | mcxw =>
    refine mcx_write_exact f addr d hfr (Or.inl ⟨by omega, ?_⟩)
    by_cases h3 : addr % 16 = 3
    · right; right; left
      rcases hm rfl with h | h
      · exact absurd h3 h
      · exact ⟨0, by omega, h⟩
    · right; right; right; omega
  | l5 => exact hc.elim
  | h5 => exact hc.elim
  | u5 => exact hc.elim
  | h7 => exact h7_write_exact f addr d hfr
  | f1 => exact f1_write_exact f addr d (by omega) hfr
  | lpc => exact lpc_write_exact f addr d
  | hifive => exact hif_write_exact f addr d (by unfold HifOK; omega)
  | rx => exact hc.elim
  | ti => exact ti_write_exact 256 (by omega) f addr d (Or.inr ⟨by omega, by omega⟩)

/-- **Flags next to each other need erasing on flash with error correction**: on STM32WB/L4,
Kinetis, MCXA and H7 (outside the flags pages) a byte other than 0 is refused if its unit already
holds another written byte. The magic word and the state are neighbours, so these chips need
`NVM_FLASH_WRITEONCE`, which writes whole flag sectors (`Nvm`). -/
theorem chip_second_byte_refused (c : Chip) (hc : c = .wb ∨ c = .kinetis ∨ c = .mcxa ∨ c = .h7)
    (f : Mem) (addr : Nat) (d : HBuf) (h1 : d.len = 1) (hb : d.b 0 ≠ 0#8)
    (y : Nat) (hy : y / c.dev.unit = addr / c.dev.unit) (hne : y ≠ addr) (hf : f y ≠ 0xFF#8) :
    c.write f addr d = .refused := by
  have key : ∀ W (w : Nat → Byte), 0 < W → y / W = addr / W → w (addr % W) = d.b 0 →
      (⟨W, true⟩ : HDev).store f (addr - addr % W) w = .refused := by
    intro W w hW hyW hw
    have e1 := Nat.div_add_mod y W
    have e2 := Nat.div_add_mod addr W
    have l1 := Nat.mod_lt y hW
    have l2 := Nat.mod_lt addr hW
    rw [hyW] at e1
    have hbase : (addr - addr % W) % W = 0 := by
      rw [show addr - addr % W = W * (addr / W) by omega]; exact Nat.mul_mod_right _ _
    unfold HDev.store
    rw [if_neg (by simp [hbase]), if_pos]
    refine ⟨rfl, fun h => hf ?_, fun h => hb ?_⟩
    · have := h (y % W) l1
      rwa [show addr - addr % W + y % W = y by omega] at this
    · rw [← hw]; exact h _ l2
  rcases hc with rfl | rfl | rfl | rfl
  · show dwLoop 0 f addr d 0 = _
    rw [dwLoop, if_pos (by omega), if_neg (by omega)]
    dsimp only
    rw [show addr - addr % 8 + 4 * (0 / 4) = addr - addr % 8 by omega,
      key 8 _ (by omega) hy (by simp only [Nat.add_zero]; rw [if_pos (by omega)]; congr 1; omega)]
  · show kinLoop 8 f addr d 0 d.len = _
    rw [kinLoop, if_neg (by omega), if_neg (by omega), if_pos (by omega)]
    dsimp only
    rw [if_pos (by omega), if_neg, key 8 _ (by omega) hy
      (by rw [if_pos (by omega)]; congr 1; omega)]
    intro h
    have := h (y % 8) (by omega)
    have hy : y / 8 = addr / 8 := hy
    rw [if_neg (by omega), show addr - addr % 8 + y % 8 = y by omega] at this
    exact hf this
  · show kinLoop 16 f addr d 0 d.len = _
    rw [kinLoop, if_neg (by omega), if_neg (by omega), if_pos (by omega)]
    dsimp only
    rw [if_pos (by omega), if_neg, key 16 _ (by omega) hy
      (by rw [if_pos (by omega)]; congr 1; omega)]
    intro h
    have := h (y % 16) (by omega)
    have hy : y / 16 = addr / 16 := hy
    rw [if_neg (by omega), show addr - addr % 16 + y % 16 = y by omega] at this
    exact hf this
  · show h7Loop f addr d 0 = _
    rw [h7Loop, if_pos (by omega), if_neg (by omega)]
    dsimp only
    rw [Nat.add_zero, key 32 _ (by omega) hy (by rw [if_pos (by omega)]; congr 1; omega)]

/-! ## Refinement of the update model -/

/-- The memory of the chip holds the partitions at the addresses `base` (`WOLFBOOT_PARTITION_*_ADDRESS`,
`/repo/include/target.h.in`); `size` is the size of each. -/
def PHolds (base size : Part → Nat) (f : Flash) (m : Mem) : Prop :=
  ∀ p x, x < size p → m (base p + x) = f p x

/-- The partitions do not overlap. -/
def DisjointParts (base size : Part → Nat) : Prop :=
  ∀ p q, p ≠ q → base p + size p ≤ base q ∨ base q + size q ≤ base p

/-- Programming inside a partition is what the update model says. -/
theorem written_program {base size : Part → Nat} {f : Flash} {m : Mem} (hh : PHolds base size f m)
    (hdj : DisjointParts base size) (p : Part) {off : Nat} {d : HBuf} (hin : off + d.len ≤ size p) :
    PHolds base size (f.program p off d.len d.b) (written m (base p + off) d d.len) := by
  intro q x hx
  unfold written Flash.program
  by_cases hq : q = p
  · subst hq
    by_cases hr : off ≤ x ∧ x < off + d.len
    · rw [if_pos (by omega), if_pos ⟨rfl, hr⟩, hh q x hx]
      congr 2; omega
    · rw [if_neg (by omega), if_neg (fun h => hr h.2), hh q x hx]
  · rw [if_neg, if_neg (fun h => hq h.1), hh q x hx]
    have := hdj q p hq
    omega

/-- **Copying a block on a real chip is `Flash.program`**: the block writes of the copy loop
(`/repo/src/update_flash.c:136-208`), done by any of the drivers into an erased area, have the
effect assumed by the update model. -/
theorem chip_write_refines (c : Chip) {base size : Part → Nat} {f : Flash} {m : Mem}
    (hh : PHolds base size f m) (hdj : DisjointParts base size) (p : Part) (off : Nat) (d : HBuf)
    (hin : off + d.len ≤ size p) (h0 : 0 < base p + off) (hA : (base p + off) % 256 = 0)
    (hl : d.len % 256 = 0) (hp : 0 < d.len) (hd : d.addr % 32 = 0)
    (hfr : Fresh c.dev m (base p + off) d.len) :
    ∃ m', c.write m (base p + off) d = .ok m' ∧
      PHolds base size (f.program p off d.len d.b) m' :=
  ⟨_, chip_block_exact c m _ d h0 hA hl hp hd hfr, written_program hh hdj p hin⟩

/-- Erasing whole pages inside a partition is what the update model says. -/
theorem cleared_erase {base size : Part → Nat} {f : Flash} {m : Mem} (hh : PHolds base size f m)
    (hdj : DisjointParts base size) (p : Part) {P off len : Nat} (hP : 0 < P) (hin : off + len ≤ size p)
    (hA : (base p + off) % P = 0) (hl : len % P = 0) (h0 : 0 < len) :
    PHolds base size (f.erase p off len) (cleared P m (base p + off) len) := by
  rw [cleared_pages hP _ h0]
  obtain ⟨u, hu⟩ : ∃ u, base p + off = u * P := ⟨_, (Nat.div_mul_cancel (Nat.dvd_of_mod_eq_zero hA)).symm⟩
  obtain ⟨n, hn⟩ : ∃ n, len = n * P := ⟨_, (Nat.div_mul_cancel (Nat.dvd_of_mod_eq_zero hl)).symm⟩
  have hn0 : 0 < n := Nat.pos_of_ne_zero fun h => by subst h; omega
  have e1 : (base p + off) / P = u := by rw [hu, Nat.mul_div_cancel _ hP]
  have e2 : (base p + off + len - 1) / P + 1 = u + n := by
    have e3 : (n - 1) * P + P = n * P := by
      rw [Nat.sub_mul, Nat.one_mul]
      have : 1 * P ≤ n * P := Nat.mul_le_mul_right P hn0
      omega
    rw [hu, hn, show u * P + n * P - 1 = (P - 1) + (u + (n - 1)) * P by rw [Nat.add_mul]; omega,
      Nat.add_mul_div_right _ _ hP, Nat.div_eq_of_lt (by omega)]
    omega
  have hiff : ∀ y, (u ≤ y / P ∧ y / P < u + n) ↔ (base p + off ≤ y ∧ y < base p + off + len) := by
    intro y
    rw [Nat.le_div_iff_mul_le hP, Nat.div_lt_iff_lt_mul hP, Nat.add_mul, ← hu, ← hn]
  intro q x hx
  unfold pages Flash.erase
  rw [e1, e2]
  by_cases hq : q = p
  · subst hq
    by_cases hr : off ≤ x ∧ x < off + len
    · rw [if_pos ((hiff _).2 (by omega)), if_pos ⟨rfl, hr⟩]
    · rw [if_neg (fun h => hr (by have := (hiff _).1 h; omega)), if_neg (fun h => hr h.2), hh q x hx]
  · rw [if_neg, if_neg (fun h => hq h.1), hh q x hx]
    intro h
    have := (hiff _).1 h
    have := hdj q p hq
    omega

/-- The `hal_flash_erase` models that are right for whole sectors anywhere in the flash; `none` is
an error. -/
inductive Eraser where
  /-- `hal/stm32l0.c`, `stm32g0.c`, `stm32c0.c`, `stm32wb.c`, `stm32l5.c`, `stm32u5.c`, `stm32h5.c` -/
  | stm
  /-- `hal/nrf52.c`, `hal/hifive1.c` -/
  | le
  /-- `hal/nrf5340.c` -/
  | mask
  /-- `hal/same51.c`, `hal/cc26x2.c` -/
  | count
  /-- `hal/kinetis.c` -/
  | once
  /-- `hal/psoc6.c` -/
  | row
  /-- `hal/stm32f1.c` -/
  | f1
  /-- `hal/lpc.c` -/
  | lpc

/-- `hal_flash_erase` with pages of `P` bytes (references at the single models). -/
def Eraser.run (e : Eraser) (P : Nat) (f : Mem) (a len : Nat) : Option Mem :=
  match e with
  | .stm => stmErase P f a len
  | .le => some (leErase P f a len)
  | .mask => some (maskErase P f a len)
  | .count => some (countErase P f a len)
  | .once => some (doErase P f a len)
  | .row => some (rowLoop P f a (a + len))
  | .f1 => f1Erase P f a len
  | .lpc => some (lpcErase P f a len)

/-- **Erasing sectors on a real chip is `Flash.erase`**: for whole pages these drivers have the
effect assumed by the update model. -/
theorem chip_erase_refines (e : Eraser) {base size : Part → Nat} {f : Flash} {m : Mem}
    (hh : PHolds base size f m) (hdj : DisjointParts base size) (p : Part) {P off len : Nat}
    (hP : 1 < P) (hin : off + len ≤ size p) (hA : (base p + off) % P = 0) (hl : len % P = 0)
    (h0 : 0 < len) :
    ∃ m', e.run P m (base p + off) len = some m' ∧ PHolds base size (f.erase p off len) m' := by
  refine ⟨cleared P m (base p + off) len, ?_, cleared_erase hh hdj p (by omega) hin hA hl h0⟩
  cases e with
  | stm => exact stm_erase_aligned hP m _ _ hA h0 (by omega)
  | le => exact congrArg some (le_erase_aligned (by omega) m _ _ hA h0)
  | mask => exact congrArg some (mask_erase_exact (by omega) m _ _ h0)
  | count => exact congrArg some (count_erase_aligned (by omega) m _ _ hA h0)
  | once => exact congrArg some (do_erase_aligned (by omega) m _ _ hA h0)
  | row => exact congrArg some ((row_erase_iff (by omega) _ _ hA h0).2 hl m)
  | f1 =>
    have := f1_erase (by omega : 0 < P) m (base p + off) len hA
    rw [if_neg (by omega)] at this
    exact this
  | lpc => exact congrArg some (lpc_erase_exact (by omega) m _ _ h0)

/-! ## Examples -/

/-- Layout of the examples: three partitions of 128 KB. -/
def linkBase : Part → Nat
  | .boot => 0x08020000
  | .update => 0x08040000
  | .swap => 0x08060000

theorem linkDisjoint : DisjointParts linkBase (fun _ => 0x20000) := by
  intro p q h
  cases p <;> cases q <;> simp [linkBase] at h ⊢

/-- A block of 1 KB written to offset 0x1400 of UPDATE on a Kinetis. -/
example : ∃ m', Chip.kinetis.write (fun _ => 0xFF#8) (linkBase .update + 0x1400)
      ⟨0x20000100, 0x400, fun k => BitVec.ofNat 8 k⟩ = .ok m' ∧
    PHolds linkBase (fun _ => 0x20000)
      (Flash.program (fun _ _ => 0xFF#8) .update 0x1400 0x400 (fun k => BitVec.ofNat 8 k)) m' :=
  chip_write_refines .kinetis (fun _ _ _ => rfl) linkDisjoint .update 0x1400
    ⟨0x20000100, 0x400, fun k => BitVec.ofNat 8 k⟩ (by simp) (by simp [linkBase]) (by simp [linkBase])
    (by simp) (by simp) (by simp) (fun _ _ _ _ => rfl)

/-- On an STM32L4 the state byte below a magic word that was written before is refused. -/
example : Chip.wb.write (fun x => if 0x0803FFFC ≤ x ∧ x < 0x08040000 then 0x42#8 else 0xFF#8)
    0x0803FFFB ⟨0x20000000, 1, fun _ => 0x70#8⟩ = .refused :=
  chip_second_byte_refused .wb (Or.inl rfl) _ _ _ rfl (by decide) 0x0803FFFC (by decide)
    (by decide) (by decide)

/-- Erasing sector 3 of BOOT on an nRF52. -/
example : ∃ m', Eraser.le.run 0x1000 (fun _ => 0#8) (linkBase .boot + 0x3000) 0x1000 = some m' ∧
    PHolds linkBase (fun _ => 0x20000) (Flash.erase (fun _ _ => 0#8) .boot 0x3000 0x1000) m' :=
  chip_erase_refines .le (fun _ _ _ => rfl) linkDisjoint .boot (by omega) (by simp)
    (by simp [linkBase]) (by simp) (by simp)

end Verif
