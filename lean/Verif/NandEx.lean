import Verif.NandThms

/-!
# Reads of a small chip
-/

namespace Verif.Nand

open Verif

namespace Demo

/-- Two pages per block; the first byte of page `p` is `p`, the others are `100 + p`; the blocks in `l` are bad. -/
def chip (l : List Nat) : Chip :=
  { page := fun p i => if i = 0 then BitVec.ofNat 8 p else BitVec.ofNat 8 (100 + p), oob := fun r => if l.contains (r / 2) then 0#8 else 0xFF#8,
    ppb := 2 }

/-- A buffer. -/
def buf : Mem := fun _ => 0xEE#8

/-- Some bytes of the result. -/
def look (m : Option Mem) (l : List Nat) : Option (List Byte) := m.map fun m => l.map m

theorem good : ∀ b, (chip []).bad b = false := by intro b; simp [Chip.bad, chip]

theorem allBad : ∀ b, ({ chip [] with oob := fun _ => 0#8 } : Chip).bad b = true := by intro b; simp [Chip.bad]

end Demo

open Demo

example : division 0x400800 0x20000 = some (some (0x20, 0x800)) ∧ division 0xFFFFFFFF 1 = some (some (0xFFFFFFFF, 0)) ∧
    division 5 0 = some none := by decide +kernel

/-- The conditions of `read_pages`: three pages from page 1, over the end of a block. -/
example : 0 < (chip []).ppb ∧ PS % PS = 0 ∧ (3 * PS) % PS = 0 ∧ (PS + 3 * PS) / ((chip []).ppb * PS) + 2 ≤ 4 := by decide

example : look (extFlashRead (chip []) 9 9 PS buf buf (3 * PS)) [0, 1, PS, 2 * PS, 3 * PS - 1, 3 * PS] =
    some [1#8, 101#8, 2#8, 3#8, 103#8, 0xEE#8] := by decide +kernel

/-- The conditions of `read_long` with a bad block: block 1 is replaced by block 2. -/
example : Blocks (chip [1]) 9 0 (fun k => if k = 0 then 0 else k + 1) 1 := by
  refine ⟨by decide, fun j hj => ?_⟩
  obtain rfl : j = 0 := by omega
  decide

example : look (extFlashRead (chip [1]) 9 9 0 buf buf (4 * PS)) [0, PS, 2 * PS, 3 * PS] = some [0#8, 1#8, 4#8, 5#8] := by decide +kernel

/-- The conditions of `read_short`: 10 bytes of page 3; the last 2 are not copied. -/
theorem short_tail_lost : look (extFlashRead (chip []) 9 9 (3 * PS) buf buf 10) [0, 1, 7, 8, 9] =
    some [3#8, 103#8, 103#8, 0xEE#8, 0xEE#8] := by decide +kernel

/-- **Nothing is read with a length of 1**, on any chip, at any address. -/
theorem one_byte_lost (c : Chip) (F f a : Nat) (buf data : Mem) (m : Mem) (h : extFlashRead c F f a buf data 1 = some m) : m = data := by
  unfold extFlashRead at h
  rw [if_pos (by decide)] at h
  obtain ⟨x, -, rfl⟩ := Option.map_eq_some_iff.1 h
  funext i
  unfold wr
  rw [if_neg (by omega)]

/-- The condition of `read_overrun`: the first byte after a buffer of 2048 + 100 bytes is overwritten. -/
example : look (extFlashRead (chip []) 9 9 0 buf buf (PS + 100)) [PS + 99, PS + 100, 2 * PS - 1, 2 * PS] =
    some [101#8, 101#8, 101#8, 0xEE#8] := by decide +kernel

/-- The condition of `read_unaligned`: from byte 4 of page 2 one gets byte 0 of page 2. -/
example : look (extFlashRead (chip []) 9 9 (2 * PS + 4) buf buf 4) [0] = some [2#8] ∧ byteAt (chip []) (2 * PS + 4) = 102#8 := by
  decide +kernel

/-- The conditions of `read_last_page` and `trailer_lost`. -/
example : look (extFlashRead (chip []) 9 9 (PS + 4) buf buf 4) [0] = some [2#8] ∧
    byteAt (chip []) (PS + 4) = 101#8 ∧ byteAt (chip []) (2 * PS) = 2#8 := by decide +kernel

example : look (extFlashRead (chip []) 9 9 (2 * ((chip []).ppb * PS) - 4) buf buf 4) [0, 3] = some [4#8, 104#8] := by decide +kernel

/-- **With a bad block, a read in two parts gives something else than one read**: bad blocks are skipped within a read, but the next read starts
from its address again. -/
theorem split_differs : look (extFlashRead (chip [0]) 9 9 0 buf buf (4 * PS)) [2 * PS] = some [4#8] ∧
    look (extFlashRead (chip [0]) 9 9 0 buf buf (2 * PS)) [0] = some [2#8] ∧
    look (extFlashRead (chip [0]) 9 9 (2 * PS) buf buf (2 * PS)) [0] = some [2#8] := by decide +kernel

/-- The condition of `read_never_ends`. -/
example : extFlashRead { chip [] with oob := fun _ => 0#8 } 1000 9 0 buf buf 4 = none := read_never_ends _ allBad _ _ _ _ _ _ (by decide)

/-- Blocks of 64 pages; block 3 is marked in its second page. -/
def marked : Chip := { page := fun _ _ => 0#8, oob := fun p => if p = 3 * 64 + 1 then 0#8 else 0xFF#8, ppb := 64 }

example : skip marked 5 3 = some 4 ∧ (marked.oob (3 * 64) ≠ 0xFF#8 ∨ marked.oob (3 * 64 + 1) ≠ 0xFF#8) := by
  have h : skip marked 5 3 = some 4 := by decide
  exact ⟨h, (skip_marks marked 5 3 4 h).2.2 3 (by decide) (by decide)⟩

end Verif.Nand
