import Verif.Flash

/-!
# QSPI flash of the ZynqMP

`ext_flash_read`, `ext_flash_write`, `ext_flash_erase` and the transfers of `/repo/hal/zynq.c`, in the build without QNX and with DMA
(`GQSPI_MODE_IO` not defined). Two flash chips in parallel (`stripe`) are one flash with pages and sectors of twice the size and even
addresses: each address sent is half of that. Not modelled: timeouts within a transfer, the data cache, the end of the chip.
-/

namespace Verif.Zynq

open Verif

/-- `qspi_calc_exp`, `/repo/hal/zynq.c:952-973`: the size, whether the exponent bit is set, and the immediate field. -/
def calcExp (n : Nat) : Nat × Bool × Nat :=
  if 255 < n then
    match (List.range 21).find? fun k => decide (2 ^ (28 - k) ≤ n) with
    | some k => (2 ^ (28 - k), true, 28 - k)
    | none => (n, false, 0)
  else (n, false, n)

/-- What the controller transfers for an entry of its FIFO, `/repo/hal/zynq.h:148-152`. -/
def meaning (e : Bool × Nat) : Nat := if e.1 then 2 ^ e.2 else e.2

/-- `n` bytes to memory. -/
def wr (m : Mem) (o : Nat) (src : Mem) (n : Nat) : Mem := fun i => if o ≤ i ∧ i < o + n then src (i - o) else m i

/-- The loop of `qspi_transfer` that sends, `/repo/hal/zynq.c:1021-1046`: entries for the controller, each with the words that `gspi_fifo_tx`
fills in, 862-897; `f` bounds the loop. -/
def txLoop : Nat → List Byte → List ((Bool × Nat) × List Byte)
  | 0, _ => []
  | f + 1, l =>
    if l = [] then []
    else
      let c := calcExp l.length
      (c.2, l.take c.1 ++ List.replicate ((4 - c.1 % 4) % 4) 0#8) :: txLoop f (l.drop c.1)

/-- `QQSPI_DMA_ALIGN`, `/repo/hal/zynq.h:201`. -/
def ALIGN : Nat := 64

/-- One DMA transfer, `/repo/hal/zynq.c:1068-1083,1118-1125`, with `n` bytes to go to address `p`: the bytes the controller takes from the flash and
the bytes that are used; `none`: DMA past the end of `dmatmp`, of size `T`. -/
def dma (T p n : Nat) : Option (Nat × Nat) :=
  let c := (calcExp n).1
  if p % ALIGN ≠ 0 ∨ c % 4 ≠ 0 then
    let x := (calcExp (min ((c + (ALIGN - 1)) / ALIGN * ALIGN) T)).1
    if T < x then none else some (x, if n < x then n else x)
  else some (c, c)

/-- The loop of `qspi_transfer` that receives, `/repo/hal/zynq.c:1060-1137`: `st` the bytes of the flash from the address on, `pos` the place in them,
`off` the place in the buffer, which is at address `p`. -/
def rxLoop (T p : Nat) (st : Mem) : Nat → Nat → Mem → Nat → Nat → Option Mem
  | 0, _, out, _, n => if n = 0 then some out else none
  | f + 1, pos, out, off, n =>
    if n = 0 then some out
    else
      match dma T (p + off) n with
      | none => none
      | some (x, y) => rxLoop T p st f (pos + x) (wr out off (fun i => st (pos + i)) y) (off + y) (n - y)

/-- How the driver is built: `GQPI_USE_DUAL_PARALLEL`, `GQPI_USE_4BYTE_ADDR`, `/repo/hal/zynq.h:219-224`, and `WOLFBOOT_SECTOR_SIZE`. -/
structure Dev where
  stripe : Bool
  b4 : Bool
  S : Nat

/-- `FLASH_PAGE_SIZE`, `/repo/hal/zynq.h:237-244`. -/
def Dev.page (v : Dev) : Nat := if v.stripe then 512 else 256

/-- The bytes of an address in a command, `/repo/hal/zynq.c:1650-1661,1710-1717,1747-1753`. -/
def addrBytes (v : Dev) (a : Nat) : List Nat :=
  let q := if v.stripe then a / 2 else a
  (if v.b4 then [q / 2 ^ 24 % 256] else []) ++ [q / 2 ^ 16 % 256, q / 2 ^ 8 % 256, q % 256]

/-- The address the flash takes from a command. Hardware, not code in `/repo`; commands at `/repo/hal/zynq.h:259-273`. -/
def decode (v : Dev) (l : List Nat) : Nat := (if v.stripe then 2 else 1) * l.foldl (fun x b => x * 256 + b) 0

/-- `ext_flash_read`, `/repo/hal/zynq.c:1693-1725`, to a buffer at address `p`. -/
def extFlashRead (v : Dev) (T p : Nat) (m : Mem) (a : Nat) (out : Mem) (len : Nat) : Option (Mem × Nat) :=
  (rxLoop T p (fun i => m (decode v (addrBytes v a) + i)) len 0 out 0 len).map fun o => (o, len)

/-- Page program of NOR flash (`PAGE_PROG_CMD`, `/repo/hal/zynq.h:266`): bits are cleared only, and the address wraps at the end of the page. -/
def program (P : Nat) (m : Mem) (a : Nat) (d : Mem) (n : Nat) : Mem := fun i =>
  if i / P = a / P ∧ (i % P + P - a % P) % P < n then m i &&& d ((i % P + P - a % P) % P) else m i

/-- `ext_flash_write`, `/repo/hal/zynq.c:1622-1677`, `k` pages to go from page `pg`; `we`: `qspi_write_enable` succeeds. -/
def writeLoop (v : Dev) (we : Nat → Bool) (a : Nat) (d : Mem) : Nat → Nat → Mem → Nat → Mem × Int
  | 0, _, m, _ => (m, 0)
  | k + 1, pg, m, len =>
    if we pg then
      writeLoop v we a d k (pg + 1)
        (program v.page m (decode v (addrBytes v (a + pg * v.page))) (fun i => d (pg * v.page + i)) (min len v.page)) (len - min len v.page)
    else (m, -1)

/-- `ext_flash_write`, `/repo/hal/zynq.c:1622-1677`. -/
def extFlashWrite (v : Dev) (we : Nat → Bool) (m : Mem) (a : Nat) (d : Mem) (len : Nat) : Mem × Int :=
  writeLoop v we a d ((len + (v.page - 1)) / v.page) 0 m len

/-- What the flash does with a command: it erases a sector for `SEC_ERASE_CMD`, `/repo/hal/zynq.h:273`, and ignores a command 0. -/
def execErase (v : Dev) (m : Mem) : List Nat → Mem
  | 0xD8 :: r => fun i => if i / v.S = decode v r / v.S then 0xFF#8 else m i
  | _ => m

/-- The loop of `ext_flash_erase`, `/repo/hal/zynq.c:1739-1767`: `n` sectors to go, `k` the number of the next, `idx` the place in `cmd`, which has 8
bytes. `none`: a write past its end. `we`: `qspi_write_enable` succeeds; `ok`: `qspi_wait_ready` does. -/
def eraseLoop (v : Dev) (we ok : Nat → Bool) (a : Nat) : Nat → Nat → Nat → Mem → Int → Option (Mem × Int)
  | 0, _, _, m, ret => some (m, ret)
  | n + 1, k, idx, m, _ =>
    if we k then
      let c := 0xD8 :: addrBytes v (a + k * v.S)
      if 8 < idx + c.length then none
      else eraseLoop v we ok a n (k + 1) (idx + c.length) (execErase v m (List.replicate idx 0 ++ c)) (if ok k then 0 else -1)
    else eraseLoop v we ok a n (k + 1) idx m (-1)

/-- `ext_flash_erase`, `/repo/hal/zynq.c:1727-1770`. -/
def extFlashErase (v : Dev) (we ok : Nat → Bool) (m : Mem) (a len : Nat) : Option (Mem × Int) :=
  eraseLoop v we ok a ((len + v.S - 1) / v.S) 0 0 m 0

end Verif.Zynq
