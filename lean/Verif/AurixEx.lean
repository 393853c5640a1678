import Verif.AurixThms

/-!
# Runs of the flash driver of the AURIX: sectors of 512 bytes, the end of a partition with its magic
-/

namespace Verif.Aurix

open Verif

/-- Two sectors; `B` is at 1020, code at 512. -/
def m0 : Mem := fun i => if i = 1020 then 66 else if i = 512 then 7 else 0

/-- Three bytes. -/
def d0 : Mem := fun i => if i = 0 then 0x70 else if i = 1 then 0x71 else 0x72

theorem m0_direct : needsRmw 0 m0 30 3 = false := by decide
theorem m0_rmw : needsRmw 0 m0 1019 1 = true := by decide
theorem m0_unsafe : needsRmw 0 m0 500 20 = true := by decide

-- A write over a page boundary, in erased pages: two operations.
example : ∃ l, writeOps 512 0 m0 30 d0 3 = some l ∧ l.length = 2 ∧ runOps 512 0 m0 l = some (written m0 30 d0 3) := by
  refine ⟨chunks 0 3 30 d0 3, ?_, by decide, write_spec 512 0 m0 30 d0 3 _ (by decide) (by decide) (by decide) ?_⟩ <;>
    · unfold writeOps
      rw [if_neg (by rw [m0_direct]; decide)]

-- The power fails after the first.
example : ∃ t, t ≤ 3 ∧ runOps 512 0 m0 ((chunks 0 3 30 d0 3).take 1) = some (written m0 30 d0 t) :=
  direct_power_fail 512 0 m0 30 d0 3 _ (by decide) (by unfold writeOps; rw [if_neg (by rw [m0_direct]; decide)]) m0_direct 1

-- A write into a page that is in use rewrites the sector: one erase and two bursts.
example : ∃ l, writeOps 512 0 m0 1019 d0 1 = some l ∧ l.length = 3 ∧ runOps 512 0 m0 l = some (written m0 1019 d0 1) := by
  refine ⟨.erase (1019 / 512) :: bursts 512 (1019 / 512 * 512) (sectorBuf 512 m0 1019 d0 1), ?_, by decide,
    write_spec 512 0 m0 1019 d0 1 _ (by decide) (by decide) (by decide) ?_⟩ <;>
    · unfold writeOps
      rw [if_pos m0_rmw, if_neg (by decide)]

-- A write over the end of a sector into a page in use: past the end of the buffer.
example : writeOps 512 0 m0 500 d0 20 = none := (write_ub_iff 512 0 m0 500 d0 20).2 ⟨m0_unsafe, by decide⟩

-- The magic and the byte at 512 are lost.
example : ∃ l m', writeOps 512 0 m0 1019 d0 1 = some l ∧ runOps 512 0 m0 (l.take 1) = some m' ∧ m' 1020 = 0 ∧ m' 512 = 0 ∧ m0 1020 ≠ 0 := by
  obtain ⟨l, m', h1, h2, h3⟩ := trailer_lost 512 0 m0 1024 d0 (by decide) (by decide) (by decide) (by decide) (by decide)
  exact ⟨l, m', h1, h2, h3 1020 (by decide) (by decide), h3 512 (by decide) (by decide), by decide⟩

example : ∃ l m', writeOps 512 0 m0 1019 d0 1 = some l ∧ runOps 512 0 m0 (l.take 1) = some m' ∧ m' 1020 = 0 := by
  obtain ⟨m', h1, h2⟩ := rmw_power_fail 512 0 m0 1019 d0 1
    (.erase (1019 / 512) :: bursts 512 (1019 / 512 * 512) (sectorBuf 512 m0 1019 d0 1))
    (by unfold writeOps; rw [if_pos m0_rmw, if_neg (by decide)]) m0_rmw
  exact ⟨_, m', by unfold writeOps; rw [if_pos m0_rmw, if_neg (by decide)], h1, h2 1020 (by decide) (by decide)⟩

-- Erasing 600 bytes from 512: two sectors.
example : ∃ m', runOps 512 0 m0 (eraseOps 512 512 600) = some m' ∧ (∀ i, 512 ≤ i → i < 512 + 600 → m' i = 0) ∧
    ∀ i, i < 512 ∨ 512 + 600 + 512 ≤ i + 1 → m' i = m0 i := erase_aligned 512 0 m0 512 600 (by decide) (by decide) (by decide)

-- Erasing 13 bytes from 500: the code at 512 stays.
example : ∃ m', runOps 512 0 m0 (eraseOps 512 500 13) = some m' ∧ m' 512 = 7 :=
  erase_unaligned 512 0 m0 500 13 (by decide) (by decide) (by decide)

example : (extFlashRead 0 m0 510 4).1 = [0, 0, 7, 0] := by rw [read_spec]; decide
example : (extFlashRead 0 m0 510 4).2 ≠ 4 := read_result 0 m0 510 4 (by decide)

end Verif.Aurix
