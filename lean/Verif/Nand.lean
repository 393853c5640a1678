import Verif.Flash

/-!
# NAND flash of the SAMA5D3

`ext_flash_read` of `/repo/hal/sama5d3.c:605-667` and the division it uses, 34-105. The page size is fixed (any other is refused, 518-521), the
number of pages per block is not. Not modelled: the protocol of the chip (a read of a page gives the page), error correction (there is none in
the code), overflow of `address + len` and of block numbers.
-/

namespace Verif.Nand

open Verif

/-- How the inner loop of `division` ends, `/repo/hal/sama5d3.c:54-62`. -/
inductive Inner where
  | brk (ds sh : Nat)
  | out (ds sh : Nat)
  | more
deriving DecidableEq

/-- The inner loop, `/repo/hal/sama5d3.c:54-62`; `n`: `dividend`. -/
def inner (n : Nat) : Nat → Nat → Nat → Inner
  | 0, _, _ => .more
  | f + 1, ds, sh =>
    if n < ds then .out ds sh
    else if n - ds < ds then .brk ds sh
    else inner n f (ds * 2 % 2 ^ 32) (sh + 1)

/-- The outer loop, `/repo/hal/sama5d3.c:53-69`; gives quotient and remainder, `none` if it does not end. `e`: `end_flag`. -/
def outer (d : Nat) : Nat → Nat → Nat → Bool → Option (Nat × Nat)
  | 0, _, _, _ => none
  | f + 1, n, fac, e =>
    if n < d then some (fac, n)
    else
      match inner n 33 d 0 with
      | .brk ds sh => outer d f (n - ds) ((fac + 2 ^ sh) % 2 ^ 32) true
      | .out ds sh => if e then outer d f n fac e else outer d f (n - ds / 2) ((fac + 2 ^ (sh - 1)) % 2 ^ 32) e
      | .more => none

/-- `division`, `/repo/hal/sama5d3.c:34-79`: `some none` is the error for a divisor of 0. -/
def division (n d : Nat) : Option (Option (Nat × Nat)) :=
  if d = 0 then some none
  else if n < d then some (some (0, n))
  else (outer d 33 n 0 false).map some

/-- `NAND_FLASH_PAGE_SIZE`, `/repo/hal/sama5d3.h:344`. -/
def PS : Nat := 0x800

/-- The chip: the pages, the first byte of their spare areas, and the pages per block. -/
structure Chip where
  page : Nat → Mem
  oob : Nat → Byte
  ppb : Nat

/-- `nand_check_bad_block`, `/repo/hal/sama5d3.c:589-601`. -/
def Chip.bad (c : Chip) (b : Nat) : Bool := decide (c.oob (b * c.ppb) ≠ 0xFF#8) || decide (c.oob (b * c.ppb + 1) ≠ 0xFF#8)

/-- The search for a block that is not bad, `/repo/hal/sama5d3.c:631-637`; at most `f` blocks. -/
def skip (c : Chip) : Nat → Nat → Option Nat
  | 0, _ => none
  | f + 1, b => if c.bad b then skip c f (b + 1) else some b

/-- `n` bytes to a buffer. -/
def wr (m : Mem) (o : Nat) (src : Mem) (n : Nat) : Mem := fun i => if o ≤ i ∧ i < o + n then src (i - o) else m i

/-- Variables of the loop over the pages; `out`, `off`: the buffer and the place in it. -/
structure R where
  out : Mem
  off : Nat
  sz : Nat
  ltr : Int

/-- One page, `/repo/hal/sama5d3.c:647-651`, `nand_read_page`, 583-587. -/
def pageStep (c : Chip) (b p : Nat) (r : R) : R :=
  { out := wr r.out r.off (c.page (b * c.ppb + p)) PS, off := r.off + min r.sz PS, sz := min r.sz PS, ltr := r.ltr - (min r.sz PS : Nat) }

/-- The loop over the pages of a block, `/repo/hal/sama5d3.c:646-652`. -/
def pages (c : Chip) (b : Nat) : Nat → Nat → R → R
  | 0, _, r => r
  | n + 1, p, r => pages c b n (p + 1) (pageStep c b p r)

/-- How many pages are read of a block, `/repo/hal/sama5d3.c:640-643`. -/
def count (sz rem : Nat) : Nat := if rem < (sz + PS - 1) / PS * PS then (sz + PS - 1) / PS - 1 else (sz + PS - 1) / PS

/-- The loop over the blocks, `/repo/hal/sama5d3.c:625-657`: `b` block, `sp` start page, `rem` remaining bytes of the block. `none`: not finished
after `f` blocks, or a search for a block after `F`. -/
def blocks (c : Chip) (F : Nat) : Nat → Nat → Nat → Nat → Mem → Nat → Int → Option Mem
  | 0, _, _, _, _, _, _ => none
  | f + 1, b, sp, rem, out, off, ltr =>
    if ltr ≤ 0 then some out
    else
      match skip c F b with
      | none => none
      | some g =>
        let sz := min ltr.toNat rem
        let r := pages c g (count sz rem) sp { out := out, off := off, sz := sz, ltr := ltr }
        blocks c F f (g + 1) 0 (c.ppb * PS) r.out r.off r.ltr

/-- `ext_flash_read`, `/repo/hal/sama5d3.c:605-667`: the memory at `data`. `buf`: what is in the buffer on the stack. -/
def extFlashRead (c : Chip) (F f : Nat) (a : Nat) (buf data : Mem) (len : Nat) : Option Mem :=
  let b := a / (c.ppb * PS)
  let sp := a / PS % c.ppb
  let rem := c.ppb * PS - a % (c.ppb * PS)
  if len < PS then
    (blocks c F f b sp rem buf 0 PS).map fun page => wr data 0 page (len / 4 * 4)
  else blocks c F f b sp rem data 0 len

end Verif.Nand
