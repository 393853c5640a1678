import Verif.Flash

/-!
# Flash drivers of three NXP processors

The NAND flash of the P1021 (`/repo/hal/nxp_p1021.c:1608-1821`), the XSPI flash of the LS1028A (`/repo/hal/nxp_ls1028a.c:536-646`) and the NOR flash
of the T1024 (`/repo/hal/nxp_t1024.c:3052-3108`). The controllers are taken as kindly as possible: a read of a page puts the whole page in the
buffer; a command that is given is carried out. Not modelled: registers, overflow of addresses and counters.
-/

namespace Verif.Nxp

open Verif

/-- `n` bytes to memory. -/
def wr (m : Mem) (o : Nat) (src : Mem) (n : Nat) : Mem := fun i => if o ≤ i ∧ i < o + n then src (i - o) else m i

/-- The NAND flash of the P1021: bytes, the rest of a page after them, the mark of a page. `PS` and `B`: sizes of pages and blocks, 512 and 16 kB or 2048 and
128 kB, `/repo/hal/nxp_p1021.c:1695-1719`. -/
structure Chip where
  m : Mem
  spare : Nat → Mem
  mark : Nat → Byte
  PS : Nat
  B : Nat

/-- The buffer of the controller after a read of a page, `/repo/hal/nxp_p1021.c:1736-1738`. -/
def Chip.buf (c : Chip) (p : Nat) : Mem := fun j => if j < c.PS then c.m (p * c.PS + j) else c.spare p (j - c.PS)

/-- How many bytes `hal_flash_read_bytes` and `hal_flash_write_bytes` copy, `/repo/hal/nxp_p1021.c:741-769`: words from `col` while below `n`. -/
def copied (col n : Nat) : Nat := if col < n then (n - col + 3) / 4 * 4 else 0

/-- Variables of `ext_flash_read`, `/repo/hal/nxp_p1021.c:1689-1692`; `off`: how far `data` is. -/
structure R where
  addr : Nat
  pos : Nat
  off : Nat
  i : Nat
  out : Mem

/-- The loops of `ext_flash_read`, `/repo/hal/nxp_p1021.c:1721-1761`, as one: both end for `pos ≥ len` only, an error leaves the inner one only. `ok`: the
command at time `t` does not time out. `none`: not finished after `f` steps. -/
def readLoop (c : Chip) (ok : Nat → Bool) (len : Nat) : Nat → Nat → R → Option Mem
  | 0, _, r => if len ≤ r.pos then some r.out else none
  | f + 1, t, r =>
    if len ≤ r.pos then some r.out
    else if ok t then
      let p := r.addr / c.PS
      let col := r.addr % c.PS
      if r.i < 2 ∧ c.mark p ≠ 0xFF#8 then
        readLoop c ok len f (t + 1) { r with addr := (r.addr + c.B) / c.B * c.B, pos := r.pos / c.B * c.B, i := r.i + 1 }
      else
        readLoop c ok len f (t + 1)
          { addr := r.addr + (c.PS - col), pos := r.pos + (c.PS - col), off := r.off + (c.PS - col), i := r.i + 1,
            out := wr r.out r.off (fun j => c.buf p (col + j)) (copied col (min len c.PS)) }
    else readLoop c ok len f (t + 1) r

/-- `ext_flash_read`, `/repo/hal/nxp_p1021.c:1689-1771`. -/
def extFlashRead (c : Chip) (ok : Nat → Bool) (f a : Nat) (out : Mem) (len : Nat) : Option Mem :=
  readLoop c ok len f 0 { addr := a, pos := 0, off := 0, i := 0, out := out }

/-- `ext_flash_erase` of the P1021, `/repo/hal/nxp_p1021.c:1774-1822`, `n` rounds: `address` does not change. -/
def eraseLoop (B : Nat) (a : Nat) : Nat → Mem → Mem
  | 0, m => m
  | n + 1, m => eraseLoop B a n fun i => if i / B = a / B then 0xFF#8 else m i

/-- `ext_flash_erase` of the P1021, `/repo/hal/nxp_p1021.c:1774-1822`. -/
def extFlashErase (B : Nat) (m : Mem) (a len : Nat) : Mem := eraseLoop B a ((len + B - 1) / B) m

/-- `ext_flash_write` of the P1021, `/repo/hal/nxp_p1021.c:1608-1684`, `n` pages: the buffer has the data from `col` on and is as before (`junk`) elsewhere;
the byte count is `col`, 0 for the whole page (1661). -/
def writeLoop (PS : Nat) (junk : Nat → Mem) (d : Mem) (len : Nat) : Nat → Nat → Nat → Mem → Mem
  | 0, _, _, m => m
  | n + 1, a, off, m =>
    let p := a / PS
    let col := a % PS
    let b : Mem := wr (junk p) col (fun j => d (off + j)) (copied col (min len PS))
    let cnt := if col = 0 then PS else min col (PS - col)
    writeLoop PS junk d len n (a + (PS - col)) (off + (PS - col))
      fun i => if p * PS + col ≤ i ∧ i < p * PS + col + cnt then m i &&& b (i - p * PS) else m i

/-- `ext_flash_write` of the P1021, `/repo/hal/nxp_p1021.c:1608-1684`, without timeouts: as many rounds as `pos < len` allows. -/
def extFlashWrite (PS : Nat) (junk : Nat → Mem) (m : Mem) (a : Nat) (d : Mem) (len : Nat) : Mem :=
  writeLoop PS junk d len ((len + a % PS + PS - 1) / PS) a 0 m

/-- Words that `xspi_flash_write` sends, `/repo/hal/nxp_ls1028a.c:556-559`: 4 bytes each, `data++`. Simplified: words are taken in the order of the writes,
whatever the register is (557 counts `j` in words, not bytes). -/
def fill (d : Mem) : Nat → Nat → List Byte
  | 0, _ => []
  | n + 1, p => [d p, d (p + 1), d (p + 2), d (p + 3)] ++ fill d n (p + 1)

/-- The words for `size % 8` bytes, `/repo/hal/nxp_ls1028a.c:565-582`. -/
def rest (d : Mem) (r p : Nat) : List Byte :=
  if r < 4 then (List.range 4).map fun j => if j < r then d (p + j) else 0#8 else fill d ((r + 3) / 4) p

/-- What is sent for a part of `size` bytes, `/repo/hal/nxp_ls1028a.c:546-585`; `XSPI_IP_WM_SIZE` is 8, `/repo/hal/nxp_ls1028a.h:380`. -/
def part (d : Mem) (size p : Nat) : List Byte :=
  (fill d (size / 8 * 2) p ++ if size % 8 = 0 then [] else rest d (size % 8) (p + size / 8 * 2)).take size

/-- Where `data` is after that, `/repo/hal/nxp_ls1028a.c:546-582`. -/
def next (size p : Nat) : Nat := p + size / 8 * 2 + (size % 8 + 3) / 4

/-- `xspi_flash_write`, `/repo/hal/nxp_ls1028a.c:536-596`: all bytes, in parts of `XSPI_IP_BUF_SIZE`; `f` bounds the loop. -/
def xspiWrite (d : Mem) : Nat → Nat → Nat → List Byte
  | 0, _, _ => []
  | f + 1, len, p => if len = 0 then [] else part d (min len 256) p ++ xspiWrite d f (len - min len 256) (next (min len 256) p)

/-- The wait for a sector in `hal_flash_erase` of the LS1028A, `/repo/hal/nxp_ls1028a.c:638-640`: the number of polls and the status after; `s`: the answers. -/
def poll (s : Nat → Bool) : Nat → Nat → Bool → Option (Nat × Bool)
  | 0, _, st => if st then some (0, st) else none
  | f + 1, t, st => if st then some (0, st) else (poll s f (t + 1) (s t)).map fun x => (x.1 + 1, x.2)

/-- `hal_flash_erase` of the LS1028A, `/repo/hal/nxp_ls1028a.c:625-646`: the number of polls for each of `n` sectors. -/
def eraseWaits (s : Nat → Bool) (f : Nat) : Nat → Nat → Bool → Option (List Nat)
  | 0, _, _ => some []
  | n + 1, t, st => match poll s f t st with
    | none => none
    | some (k, st') => (eraseWaits s f n (t + k) st').map (k :: ·)

/-- `hal_flash_write` of the T1024, `/repo/hal/nxp_t1024.c:3052-3108`: where each word of data is written, and where the word is in the data;
`FLASH_SECTOR_SIZE` `S`, `FLASH_PAGE_SIZE` `P`, words of 16 bits, `FLASH_IO16_WRITE`, 596-597. -/
def busWrites (S P : Nat) : Nat → Nat → Nat → Nat → List (Nat × Nat)
  | 0, _, _, _ => []
  | f + 1, a, pos, len =>
    if len = 0 then []
    else
      let x := min len P
      ((List.range (x / 2)).map fun i => (a / S * S + i * 2, pos + i * 2)) ++ busWrites S P f (a + x) (pos + x / 2 * 2) (len - x)

end Verif.Nxp
