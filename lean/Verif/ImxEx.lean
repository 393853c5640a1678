import Verif.ImxThms

/-!
# Runs of the flash drivers of the i.MX RT and the Renesas RA
-/

namespace Verif.Imx

open Verif

/-- Erased flash. -/
def ff : Mem := fun _ => 0xFF#8

/-- Data: 0, 1, 2, … -/
def cnt : Mem := fun i => BitVec.ofNat 8 i

example : imxWrite (fun _ => true) ff 0x60000 cnt 0x1000 = (cleared ff 0x60000 cnt 0x1000, 0) :=
  imx_write_pages _ ff 0x60000 cnt 0x1000 (by decide) (by decide) (fun _ => rfl)
-- 300 bytes: two pages.
example : imxWrite (fun _ => true) ff 0x60000 cnt 300 = (cleared ff 0x60000 cnt 512, 0) :=
  imx_write _ ff 0x60000 cnt 300 (by decide) (fun _ _ => rfl)
-- 10 bytes: the byte after them is programmed too.
example : (imxWrite (fun _ => true) ff 0x60000 cnt 10).1 0x6000A = 10#8 :=
  (imx_overread (fun _ => true) ff 0x60000 cnt 10 (by decide) (by decide) (fun _ => rfl)).trans (by decide)
-- One byte at the end of a page: the first byte of the page is programmed with what is after the byte.
example : (imxWrite (fun _ => true) ff 0x600FB cnt 1).1 0x60000 = 5#8 :=
  (imx_wraps (fun _ => true) ff 0x600FB cnt 1 (by decide) (by decide) (by decide) rfl).trans (by decide)
-- The second of three pages fails.
example : imxWrite (fun q => decide (q ≠ 1)) ff 0x60000 cnt 700 = (cleared ff 0x60000 cnt 256, -1) :=
  imx_error _ ff 0x60000 cnt 700 1 (by decide) (by decide) (fun j h => decide_eq_true (by omega)) (by decide)
-- 2 bytes over the end of a cache line: one is left in the cache. Whole pages are not.
example : ¬ ∀ i, 0x6001F ≤ i → i < 0x6001F + 2 → (invalidated 0x6001F 2).1 ≤ i ∧ i < (invalidated 0x6001F 2).1 + (invalidated 0x6001F 2).2 :=
  fun h => absurd ((imx_cache 0x6001F 2 (by decide)).1 h) (by decide)
example (i : Nat) (h1 : 0x60000 ≤ i) (h2 : i < 0x60000 + 256) : 0x60000 ≤ i ∧ i < 0x60000 + 288 :=
  (imx_cache 0x60000 256 (by decide)).2 (by decide) i h1 h2
example : 31 < (invalidated 40 31).2 := (imx_cache_lines 40 31).2.2.2.2.1

/-- Written flash. -/
def old : Mem := fun _ => 0x33#8

example : raErase old 0x18000 0x10000 = ((fun i => if 0x18000 ≤ i ∧ i < 0x18000 + 0x10000 then 0xFF#8 else old i), 0) :=
  ra_erase old 0x18000 0x10000 (by decide) (by decide) (Or.inl (by decide))
example : raErase old 0x4000 0x4000 = ((fun i => if 0x4000 ≤ i ∧ i < 0x4000 + 0x4000 then 0xFF#8 else old i), 0) :=
  ra_erase old 0x4000 0x4000 (by decide) (by decide) (Or.inr (by decide))
-- 16 kB from the last small block on: the last byte of the 24 kB after the end is erased.
example : (raErase old 0xE000 0x4000).1 0x17FFF = 0xFF#8 := by
  rw [ra_erase_over old 0xE000 0x4000 (by decide) (by decide) (by decide) (by decide)]
  decide
example : raErase old 0x10000 0x2000 = (old, -1) := ra_erase_refused old 0x10000 0x2000 (by decide)

example : raWrite ff 0x20000 cnt 1024 = cleared ff 0x20000 cnt 1024 := ra_write ff 0x20000 cnt 1024 (by decide) (by decide)
-- 5 bytes: the bytes are right, the 128 bytes before are lost.
example : raWrite old 0x20080 cnt 5 0x20084 = 4#8 ∧ raWrite old 0x20080 cnt 5 0x20000 = 0xFF#8 :=
  ⟨(ra_write_tail old 0x20080 cnt 5 (by decide) (by decide) (by decide) _).trans (by decide),
    (ra_write_tail old 0x20080 cnt 5 (by decide) (by decide) (by decide) _).trans (by decide)⟩
-- 138 bytes at an offset of 10: byte 10 is not at 20 but at 128.
example : raWrite ff 0x2000A cnt 138 0x20080 = 10#8 ∧ raWrite ff 0x2000A cnt 138 0x20014 = 0xFF#8 :=
  ⟨(ra_write_misplaced ff 0x2000A cnt 10 (by decide) (by decide) (by decide) (by decide)).1.trans (by decide),
    (ra_write_misplaced ff 0x2000A cnt 10 (by decide) (by decide) (by decide) (by decide)).2.2⟩

-- 300 bytes: the first 256 are lost, byte 256 is there.
example : raWrite ff 0x20000 cnt 300 0x20000 = 0xFF#8 := ra_write_loses ff 0x20000 cnt 300 (by decide) (by decide) (by decide) (by decide)
example : raWrite ff 0x20000 cnt (2 * 128 + 44) 0x20101 = 1#8 :=
  (ra_write_rest ff 0x20000 cnt 2 44 (by decide) (by decide) (by decide) _).trans (by decide)

end Verif.Imx
