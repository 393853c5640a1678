import Verif.NxpThms

/-!
# Runs of the flash drivers of the NXP processors
-/

namespace Verif.Nxp

open Verif

/-- Pages of 512 bytes in blocks of 16 kB; each byte is its address; `bad` is marked. -/
def chip (bad : Nat) : Chip :=
  { m := fun i => BitVec.ofNat 8 (i / 3), spare := fun _ _ => 0xFF#8, mark := fun p => if p = bad then 0#8 else 0xFF#8, PS := 512, B := 16384 }

/-- A buffer. -/
def z : Mem := fun _ => 0#8

-- Block 1 starts with page 32; page 70 is in block 2.
theorem clean : Clean (chip 70) 16384 := ⟨by decide, by decide⟩

example : extFlashRead (chip 70) (fun _ => true) 10 16384 z 1024 = some fun i => if i < 1024 then (chip 70).m (16384 + i) else z i :=
  p1021_read_pages (chip 70) _ 10 16384 z 1024 (by decide) (by decide) (by decide) (by decide) (by decide) (fun _ => rfl) clean (by decide)

example : ∃ o, extFlashRead (chip 70) (fun _ => true) 10 16384 z 1000 = some o ∧ o 1000 = (chip 70).m (16384 + 1000) :=
  p1021_read_overrun (chip 70) _ 10 16384 z 1000 (by decide) (by decide) (by decide) (by decide) (by decide) (fun _ => rfl) clean (by decide)

-- 40 pages, with a marked page in the second block: it is read all the same.
example : extFlashRead (chip 70) (fun _ => true) 40 16384 z 20480 = some (wr z 0 (fun j => (chip 70).m (16384 + j)) (40 * 512)) :=
  p1021_read (chip 70) _ 40 16384 z 20480 (by decide) (by decide) (by decide) (by decide) (fun _ => rfl) clean (by decide)

-- Page 33 is marked: the first page of block 1, then two pages of block 2, in a buffer of two pages.
example : extFlashRead (chip 33) (fun _ => true) 4 16384 z 1024 =
    some (wr (wr z 0 (fun j => (chip 33).m (1 * 16384 + j)) 512) 512 (fun j => (chip 33).m ((1 + 1) * 16384 + j)) (2 * 512)) :=
  p1021_second_bad (chip 33) _ 2 1 32 z 1024 (by decide) (by decide) (by decide) (by decide) (by decide) (fun _ => rfl) (by decide) (by decide)
    (by decide)

-- The magic at the end of a partition.
example : extFlashRead (chip 70) (fun _ => true) 3 (32768 - 4) z 4 = some z :=
  p1021_read_nothing (chip 70) _ 2 (32768 - 4) z 4 (by decide) (fun _ => rfl) (by decide) (by decide) (by decide)

example : extFlashRead (chip 70) (fun _ => false) 1000 0 z 4 = none := p1021_read_hangs (chip 70) 1000 0 z 4 (by decide)

-- An erase of 4 blocks leaves the second as it is.
example : extFlashErase 16384 (fun _ => 5#8) 0 65536 0 = 0xFF#8 ∧ extFlashErase 16384 (fun _ => 5#8) 0 65536 16384 = 5#8 := by
  rw [p1021_erase 16384 _ 0 65536 (by decide) (by decide)]
  exact ⟨rfl, rfl⟩

example : extFlashWrite 512 (fun _ => z) (fun _ => 0xFF#8) 1024 (chip 0).m 1024 = cleared (fun _ => 0xFF#8) 1024 (chip 0).m 1024 :=
  p1021_write_pages 512 _ _ 1024 _ 1024 (by decide) (by decide) (by decide) (by decide) (by decide)

-- With zeros in the buffer of the controller, bytes after the data become 0.
example : extFlashWrite 512 (fun _ => z) (fun _ => 0xFF#8) 1024 (chip 0).m 100 (1024 + 200) = 0#8 := by
  rw [p1021_write_stale 512 _ _ 1024 _ 100 (by decide) (by decide) (by decide) (by decide) (1024 + 200) (by decide) (by decide)]
  decide

-- The state of a partition.
example : extFlashWrite 512 (fun _ => z) (fun _ => 0xFF#8) (32768 - 5) (fun _ => 0x70#8) 1 =
    extFlashWrite 512 (fun _ => z) (fun _ => 0xFF#8) (32768 - 5) (fun _ => 0x10#8) 1 :=
  p1021_write_lost 512 _ _ _ _ _ 1 (by decide) (by decide) (by decide)

/-- Bytes 0, 1, 2, … -/
def count : Mem := fun i => BitVec.ofNat 8 i

example : xspiWrite count 2 10 0 = [0#8, 1#8, 2#8, 3#8, 1#8, 2#8, 3#8, 4#8, 2#8, 3#8] := by decide
example : (xspiWrite count 2 10 0)[7]? = some (count 4) := (ls1028a_garbled count 10 1 7 (by decide) (by decide)).1
example : (xspiWrite count 2 4 0)[3]? = some (count 3) := ls1028a_short count 4 1 3 (by decide) (by decide)
example : (part count 12 20)[9]? = some (count 23) := ls1028a_part count 12 20 9 (by decide)

-- Ready at the fourth poll; no poll for the other sectors.
example : eraseWaits (fun t => decide (3 ≤ t)) 9 3 0 false = some [4, 0, 0] := by decide
example : ∃ k, 0 < k ∧ [4, 0, 0] = k :: List.replicate 2 0 :=
  ls1028a_erase_waits (fun t => decide (3 ≤ t)) 9 2 0 [4, 0, 0] (by decide)

-- Two pages to the start of a sector of 128 kB: the second overwrites the first.
example : ∃ r, busWrites 0x20000 1024 1 0x20400 1024 1024 = (0x20000, 1024) :: r ∧ (0x20000 = 0x20400 ↔ 0x20400 % 0x20000 = 0) :=
  t1024_place 0x20000 1024 0 0x20400 1024 1024 (by decide) (by decide)
example : busWrites 0x20000 1024 1 0x20000 0 5 = [(0x20000, 0), (0x20002, 2)] := by
  rw [t1024_first 0x20000 1024 0 0x20000 5 (by decide) (by decide) (by decide)]
  decide
example : busWrites 0x20000 1024 1 0x3FFFB 0 1 = [] := t1024_byte 0x20000 1024 0 0x3FFFB 0 (by decide)

-- 1000 bytes: byte 900 is that at 225.
example : (xspiWrite count 4 1000 0)[900]? = some (count 225) := (ls1028a_all count 4 1000 0 (by decide)).2 900 (by decide)
-- Word 3 of the second page goes to word 3 of the sector.
example : (0x20006, 1024 + 6) ∈ busWrites 0x20000 1024 4000 0x20000 0 4000 :=
  (t1024_all 0x20000 1024 (by decide) (by decide) 4000 0x20000 0 4000 _ _ (by decide)).2 ⟨1, 3, by decide, by decide, by decide, by decide⟩

end Verif.Nxp
