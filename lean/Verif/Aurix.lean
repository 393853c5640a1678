import Verif.Flash

/-!
# Flash driver of the AURIX TC3xx

`hal_flash_write`, `hal_flash_erase` and `ext_flash_read` of `/repo/hal/aurix_tc3xx.c`. The flash is write-once: a page can be programmed only when
it is erased. The driver therefore rewrites a whole sector if a page is not. A write is a list of operations of the flash controller; the power
can fail between any two of them. The test of the hardware for an erased page is taken for a test of its bytes. Not modelled: the registers, the
watchdog, wolfHSM.
-/

namespace Verif.Aurix

open Verif

/-- `IFXFLASH_PFLASH_PAGE_LENGTH` of the SDK, used in `/repo/hal/aurix_tc3xx.c:57-58`. -/
def PAGE : Nat := 32

/-- `IFXFLASH_PFLASH_BURST_LENGTH` of the SDK, used in `/repo/hal/aurix_tc3xx.c:215-216`. -/
def BURST : Nat := 256

/-- What the flash controller does: erase a sector, `/repo/hal/aurix_tc3xx.c:440`, or program `n` bytes, 113-139 and 218-243. -/
inductive Op where
  | erase (s : Nat)
  | prog (addr n : Nat) (buf : Mem)

/-- `n` bytes at an address. -/
def wr (m : Mem) (o : Nat) (src : Mem) (n : Nat) : Mem := fun i => if o ≤ i ∧ i < o + n then src (i - o) else m i

/-- Bytes that have the erased value `ev` (`FLASH_BYTE_ERASED`), `flashIsErased`, `/repo/hal/aurix_tc3xx.c:141-174`. -/
def erased (ev : Byte) (m : Mem) (o n : Nat) : Bool := (List.range n).all fun i => decide (m (o + i) = ev)

/-- The effect of an operation; `none`: a page that is not erased is programmed. `S`: `WOLFBOOT_SECTOR_SIZE`. -/
def apply (S : Nat) (ev : Byte) (m : Mem) : Op → Option Mem
  | .erase s => some fun i => if s * S ≤ i ∧ i < s * S + S then ev else m i
  | .prog a n b => if erased ev m a n then some (wr m a b n) else none

/-- Operations in order. -/
def runOps (S : Nat) (ev : Byte) : Mem → List Op → Option Mem
  | m, [] => some m
  | m, o :: r => match apply S ev m o with
    | none => none
    | some m' => runOps S ev m' r

/-- `programBytesToErasedFlash`, `/repo/hal/aurix_tc3xx.c:248-284`; `f` bounds the loop. -/
def chunks (ev : Byte) : Nat → Nat → Mem → Nat → List Op
  | 0, _, _, _ => []
  | f + 1, a, d, size =>
    if size = 0 then []
    else
      let n := min (PAGE - a % PAGE) size
      .prog (a / PAGE * PAGE) PAGE (wr (fun _ => ev) (a % PAGE) d n) :: chunks ev f (a + n) (fun i => d (n + i)) (size - n)

/-- A page of the range is not erased, `/repo/hal/aurix_tc3xx.c:381-389`. -/
def needsRmw (ev : Byte) (m : Mem) (a size : Nat) : Bool :=
  (List.range ((a + size - 1) / PAGE + 1 - a / PAGE)).any fun k => !erased ev m ((a / PAGE + k) * PAGE) PAGE

/-- `cacheSector` and the change in RAM, `/repo/hal/aurix_tc3xx.c:300-325,396-404`. -/
def sectorBuf (S : Nat) (m : Mem) (a : Nat) (d : Mem) (size : Nat) : Mem := wr (fun i => m (a / S * S + i)) (a % S) d size

/-- `programCachedSector`, `/repo/hal/aurix_tc3xx.c:199-244`. -/
def bursts (S base : Nat) (sb : Mem) : List Op :=
  (List.range (S / BURST)).map fun k => .prog (base + k * BURST) BURST fun i => sb (k * BURST + i)

/-- `hal_flash_write`, `/repo/hal/aurix_tc3xx.c:361-417`, for a size above 0; `none`: `memcpy` writes past the end of `sectorBuffer`, 404. -/
def writeOps (S : Nat) (ev : Byte) (m : Mem) (a : Nat) (d : Mem) (size : Nat) : Option (List Op) :=
  if needsRmw ev m a size then
    if S < a % S + size then none
    else some (.erase (a / S) :: bursts S (a / S * S) (sectorBuf S m a d size))
  else some (chunks ev size a d size)

/-- `hal_flash_erase`, `/repo/hal/aurix_tc3xx.c:426-450`. -/
def eraseOps (S a len : Nat) : List Op :=
  (List.range (if len = 0 then 0 else (len - 1) / S + 1)).map fun k => .erase (a / S + k)

/-- The bytes of a page in `ext_flash_read`, `/repo/hal/aurix_tc3xx.c:500-511`: `k` more bytes are in the page. -/
def readPage (ev : Byte) (m : Mem) (er : Bool) : Nat → Nat → Nat → List Byte
  | 0, _, _ => []
  | _, _, 0 => []
  | k + 1, a, len + 1 => (if er then ev else m a) :: readPage ev m er k (a + 1) len

/-- `ext_flash_read`, `/repo/hal/aurix_tc3xx.c:483-517`: the bytes and the result; `f` bounds the loop. -/
def readLoop (ev : Byte) (m : Mem) : Nat → Nat → Nat → List Byte
  | 0, _, _ => []
  | f + 1, a, len =>
    if len = 0 then []
    else
      let l := readPage ev m (erased ev m (a / PAGE * PAGE) PAGE) (PAGE - a % PAGE) a len
      l ++ readLoop ev m f (a + l.length) (len - l.length)

/-- The bytes and the result of `ext_flash_read`, `/repo/hal/aurix_tc3xx.c:483-517`. -/
def extFlashRead (ev : Byte) (m : Mem) (a len : Nat) : List Byte × Int := (readLoop ev m len a len, 0)

end Verif.Aurix
