import Verif.ZynqThms

/-!
# Runs of the QSPI driver of the ZynqMP, as in `/repo/config/examples/zynqmp.config`: two chips, addresses of 4 bytes, sectors of 128 kB
-/

namespace Verif.Zynq

open Verif

/-- The ZCU102. -/
def zcu : Dev := { stripe := true, b4 := true, S := 0x20000 }

/-- One chip with addresses of 3 bytes. -/
def small : Dev := { stripe := false, b4 := false, S := 0x10000 }

/-- Each byte is its address. -/
def m0 : Mem := fun i => BitVec.ofNat 8 i

theorem zcu_page : zcu.page = 512 := rfl
theorem zcu_limit : zcu.limit = 2 * 2 ^ 32 := rfl
theorem small_limit : small.limit = 1 * 2 ^ 24 := rfl

-- 1000 bytes are sent as 512 and 256 and 232 bytes.
example : (calcExp 1000, calcExp 488, calcExp 232) = ((512, true, 9), (256, true, 8), (232, false, 232)) := by decide
example : wire (txLoop 5 [1#8, 2#8, 3#8, 4#8, 5#8]) = [1#8, 2#8, 3#8, 4#8, 5#8] ∧
    txLoop 5 [1#8, 2#8, 3#8, 4#8, 5#8] = [((false, 5), [1#8, 2#8, 3#8, 4#8, 5#8, 0#8, 0#8, 0#8])] := ⟨(tx_spec 5 _ (by decide)).1, by decide⟩

-- 300 bytes to an address that is not a multiple of 64: 256 and 44 bytes, the last as 64.
example : dma 4096 0x1001 300 = some (256, 256) ∧ dma 4096 0x1101 44 = some (64, 44) := by decide
example : ∃ x y, dma 4096 0x1001 300 = some (x, y) ∧ 0 < y ∧ y ≤ 300 ∧ y ≤ x ∧ (x = y ∨ y = 300) :=
  dma_spec 4096 0x1001 300 (by decide) (by decide)

example : extFlashRead zcu 4096 0x1001 m0 0x800000 (fun _ => 0) 300 = some ((fun i => if i < 300 then m0 (0x800000 + i) else 0), 300) :=
  read_spec zcu 4096 0x1001 m0 0x800000 _ 300 (by decide) (by rw [zcu_limit]; decide) (by decide)

-- The state of the update partition, at an odd address: the byte before is read.
example : extFlashRead zcu 4096 0x1000 m0 0x63FFFFB (fun _ => 0) 1 = some ((fun i => if i < 1 then m0 (0x63FFFFB - 1 + i) else 0), 1) :=
  read_odd zcu 4096 0x1000 m0 0x63FFFFB _ 1 (by decide) (by rw [zcu_limit]; decide) rfl (by decide)

example : extFlashWrite zcu (fun _ => true) m0 0x3A00000 m0 1300 = (cleared m0 0x3A00000 m0 1300, 0) :=
  write_spec zcu _ m0 0x3A00000 m0 1300 (by decide) (by rw [zcu_limit, zcu_page]; decide) (fun _ => rfl)

-- 16 bytes from 8 bytes before the end of a page: byte 8 goes to the start of that page.
example : (extFlashWrite zcu (fun _ => true) (fun _ => 0xFF#8) 504 m0 16).1 0 = 8#8 := by
  have := (write_wraps zcu (fun _ => true) (fun _ => 0xFF#8) 504 m0 16 (by rw [zcu_limit]; decide) (by decide) (by rw [zcu_page]; decide)
    (by rw [zcu_page]; decide) rfl).1
  rw [zcu_page] at this
  exact this

example : extFlashWrite zcu (fun _ => true) m0 (0x6400000 - 5) m0 1 = extFlashWrite zcu (fun _ => true) m0 (0x6400000 - 6) m0 1 :=
  state_is_flags zcu _ m0 0x6400000 m0 rfl (by decide) (by decide) (by rw [zcu_limit]; decide)

example : extFlashErase zcu (fun _ => true) (fun _ => true) m0 0x63E0000 0x20000 =
    some ((fun i => if i / 0x20000 = 0x63E0000 / 0x20000 then 0xFF#8 else m0 i), 0) :=
  erase_one zcu _ _ m0 0x63E0000 0x20000 (by decide) (by decide) (by decide) (by rw [zcu_limit]; decide) (by decide) rfl

-- Erasing the update partition.
example : extFlashErase zcu (fun _ => true) (fun _ => true) m0 0x3A00000 0x2A00000 = none :=
  erase_overflow zcu _ m0 0x3A00000 0x2A00000 rfl (by decide) (by decide)

-- No overflow if only one of three sectors gets to its command.
example : extFlashErase zcu (fun k => decide (k = 1)) (fun _ => true) m0 0x3A00000 0x60000 ≠ none := by
  rw [Ne, erase_overflow_iff zcu _ _ m0 _ _ rfl]
  rintro ⟨i, j, h1, -, h3, h4⟩
  rw [decide_eq_true_iff] at h3 h4
  omega

example : extFlashErase small (fun _ => true) (fun _ => true) m0 0 0x20000 = some ((fun i => if i / 0x10000 = 0 / 0x10000 then 0xFF#8 else m0 i), 0) :=
  erase_second_lost small m0 0 0x20000 rfl (by decide) (by decide) (by decide) (by rw [small_limit]; decide) (by decide)

example : ∃ m', extFlashErase zcu (fun k => decide (k = 1)) (fun _ => true) m0 0x20000 0x40000 = some (m', 0) ∧ m' 0x20000 = m0 0x20000 :=
  erase_error_lost zcu _ m0 0x20000 0x40000 (by decide) (by decide) (by decide) (by decide) (by rw [zcu_limit]; decide) (by decide) rfl

-- The second of three pages fails.
example : (extFlashWrite zcu (fun k => decide (k ≠ 1)) m0 0x3A00000 m0 1300).2 = -1 := by
  rcases write_error zcu (fun k => decide (k ≠ 1)) m0 0x3A00000 m0 1300 with ⟨-, h⟩ | ⟨h, -⟩
  · exact absurd (h 1 (by rw [zcu_page]; decide)) (by decide)
  · exact h

-- The second of two sectors fails.
example (m' : Mem) (r : Int) (h : extFlashErase zcu (fun k => decide (k = 0)) (fun _ => true) m0 0x20000 0x40000 = some (m', r)) : r = -1 :=
  erase_last_error zcu _ _ m0 m' 0x20000 0x40000 1 r (by decide) h
example : extFlashErase zcu (fun k => decide (k = 0)) (fun _ => true) m0 0x20000 0x40000 ≠ none := by
  intro h
  obtain ⟨i, j, h1, h2, h3, h4⟩ := (erase_overflow_iff zcu _ _ m0 0x20000 0x40000 rfl).1 h
  rw [decide_eq_true_iff] at h3 h4
  omega

end Verif.Zynq
