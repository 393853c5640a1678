import Verif.Tpm

/-!
# Access to the TPM over SPI

C60. `TPM2_IoCb` of `/repo/src/tpm.c` and the `spi_xfer` below it: the byte loop of the drivers for
STM32, nRF52, nRF5340, Zynq and RX, the word loop of the eSPI of the P1021 and T1024, and the queues of
the DSPI of the LS1028A.

Simplifications: waiting for the flags of a controller always ends; clock, mode and pins are not
modelled; on the eSPI the limit of 64 KiB per selection is left out (accesses have 68 bytes at most,
and the polls of the wait states).
-/

namespace Verif.Spi

open Verif
open Verif.Tpm (Bytes)

/-- A device at the bus: what happens when it is selected, at every byte, and when it is released. -/
structure Dev (D : Type) where
  sel : D → D
  byte : D → Byte → D × Byte
  desel : D → D

/-- The bus: state of the device, and whether it is selected (line low). -/
structure Bus (D : Type) where
  dev : D
  cs : Bool

variable {D : Type}

/-- `spi_cs_on`, `/repo/hal/spi/spi_drv_stm32.c:125-130`, `/repo/hal/spi/spi_drv_nrf52.c:44-50`. -/
def csOn (v : Dev D) (b : Bus D) : Bus D := if b.cs then b else ⟨v.sel b.dev, true⟩

/-- `spi_cs_off`, `/repo/hal/spi/spi_drv_stm32.c:118-123`, `/repo/hal/spi/spi_drv_nrf52.c:36-42`. -/
def csOff (v : Dev D) (b : Bus D) : Bus D := if b.cs then ⟨v.desel b.dev, false⟩ else b

/-- A transfer: bus, bytes to send, and the flag `SPI_XFER_FLAG_CONTINUE`; the result is the return
value, the bus and what has been received. -/
abbrev Xfer (D : Type) := Bus D → Bytes → Bool → Int × Bus D × Bytes

/-! ## Byte loop -/

/-- The loop of `spi_xfer`, `/repo/hal/spi/spi_drv_stm32.c:521-524`. -/
def byteLoop (v : Dev D) : D → Bytes → D × Bytes
  | d, [] => (d, [])
  | d, x :: r =>
    let q := v.byte d x
    let t := byteLoop v q.1 r
    (t.1, q.2 :: t.2)

/-- `spi_xfer`, `/repo/hal/spi/spi_drv_stm32.c:517-529`, `/repo/hal/spi/spi_drv_nrf52.c:102-114`,
`/repo/hal/spi/spi_drv_nrf5340.c:292-304`, `/repo/hal/spi/spi_drv_zynq.c:76-88`, and
`/repo/hal/spi/spi_drv_renesas_rx.c:229-247`, which needs `spi_init` before (`ready`). -/
def simpleXfer (v : Dev D) (ready : Bool) : Xfer D := fun b tx cont =>
  if ready then
    let b1 := csOn v b
    let q := byteLoop v b1.dev tx
    let b2 : Bus D := ⟨q.1, true⟩
    (0, if cont then b2 else csOff v b2, q.2)
  else (-1, b, List.replicate tx.length 0)

/-! ## eSPI -/

/-- `*((uint32_t*)tx)` on a big endian processor, `/repo/hal/nxp_p1021.c:576`. -/
def word (a b c d : Byte) : Nat := a.toNat * 16777216 + b.toNat * 65536 + c.toNat * 256 + d.toNat

/-- Byte `i` of a word, from the most significant one (`/repo/hal/nxp_p1021.c:605`: stored big endian;
the controller shifts the most significant byte first). -/
def wordByte (w i : Nat) : Byte := BitVec.ofNat 8 (w / 256 ^ (3 - i))

/-- One word through the FIFO, `/repo/hal/nxp_p1021.c:575-606`: the word received. -/
def shiftWord (v : Dev D) (d : D) (w : Nat) : D × Nat :=
  let q0 := v.byte d (wordByte w 0)
  let q1 := v.byte q0.1 (wordByte w 1)
  let q2 := v.byte q1.1 (wordByte w 2)
  let q3 := v.byte q2.1 (wordByte w 3)
  (q3.1, word q0.2 q1.2 q2.2 q3.2)

/-- The loop of `hal_espi_xfer`, `/repo/hal/nxp_p1021.c:569-618`, `/repo/hal/nxp_t1024.c:1138-1187`:
words as long as there are four bytes, single bytes then. -/
def espiLoop (v : Dev D) : D → Bytes → D × Bytes
  | d, a :: b :: c :: e :: r =>
    let q := shiftWord v d (word a b c e)
    let t := espiLoop v q.1 r
    (t.1, wordByte q.2 0 :: wordByte q.2 1 :: wordByte q.2 2 :: wordByte q.2 3 :: t.2)
  | d, x :: r =>
    let q := v.byte d x
    let t := espiLoop v q.1 r
    (t.1, q.2 :: t.2)
  | d, [] => (d, [])

/-- `hal_espi_xfer`, `/repo/hal/nxp_p1021.c:555-627`, `/repo/hal/nxp_t1024.c:1124-1196`. -/
def espiXfer (v : Dev D) : Xfer D := fun b tx cont =>
  let b1 := if tx.length > 0 then csOn v b else b
  let q := espiLoop v b1.dev tx
  let b2 : Bus D := ⟨q.1, b1.cs⟩
  (0, if cont then b2 else csOff v b2, q.2)

/-! ## DSPI -/

/-- `SPI_FIFO_DEPTH`, `/repo/hal/nxp_ls1028a.h:787`. -/
def DEPTH : Nat := 4

/-- The variables of `spi_transaction`, `/repo/hal/nxp_ls1028a.c:140-182`, and the controller. -/
structure Sys (D : Type) where
  /-- what `out` points to -/
  out : Bytes
  /-- `tx_count` -/
  txc : Nat
  /-- `rx_count` -/
  rxc : Nat
  /-- what has been stored through `in` -/
  inp : Bytes
  /-- queue of bytes to send, with the mark of the last one -/
  txq : List (Byte × Bool)
  /-- queue of bytes received -/
  rxq : Bytes
  bus : Bus D
  /-- a received byte was lost because the queue was full -/
  lost : Bool

/-- The beginning of `spi_transaction`, after `spi_flush_rx`, `/repo/hal/nxp_ls1028a.c:144-153`. -/
def dspiInit (b : Bus D) (tx : Bytes) : Sys D := ⟨tx, tx.length, tx.length, [], [], [], b, false⟩

/-- `/repo/hal/nxp_ls1028a.c:161-170`: a byte is pushed. -/
def push (cont : Bool) (s : Sys D) : Sys D :=
  { s with out := s.out.drop 1, txc := s.txc - 1
           txq := s.txq ++ [(s.out.headD 0, !cont && s.txc - 1 == 0)] }

/-- `/repo/hal/nxp_ls1028a.c:173-180`: a byte is popped. -/
def pop (s : Sys D) : Sys D :=
  { s with inp := s.inp ++ [s.rxq.headD 0], rxq := s.rxq.drop 1, rxc := s.rxc - 1 }

/-- The controller exchanges one byte with the device; the mark of the last byte
(`SPI_PUSHR_LAST`, `/repo/hal/nxp_ls1028a.h:791`) releases it. -/
def shift (v : Dev D) (s : Sys D) : Sys D :=
  match s.txq with
  | [] => s
  | (x, last) :: q =>
    let b1 := csOn v s.bus
    let e := v.byte b1.dev x
    let b2 : Bus D := ⟨e.1, true⟩
    { s with txq := q, bus := if last then csOff v b2 else b2
             rxq := if s.rxq.length < DEPTH then s.rxq ++ [e.2] else s.rxq
             lost := s.lost || decide (DEPTH ≤ s.rxq.length) }

/-- What may happen next in the loop of `spi_transaction`, `/repo/hal/nxp_ls1028a.c:159-181`: the
program pushes or pops, or the controller does its work. The order is left open, which allows more than
the loops do. -/
inductive Step (v : Dev D) (cont : Bool) : Sys D → Sys D → Prop
  | push (s : Sys D) (h1 : 0 < s.txc) (h2 : s.rxc - s.txc < DEPTH) (h3 : s.txq.length < DEPTH) :
      Step v cont s (push cont s)
  | pop (s : Sys D) (h1 : 0 < s.rxc) (h2 : s.rxq ≠ []) : Step v cont s (pop s)
  | shift (s : Sys D) (h : s.txq ≠ []) : Step v cont s (shift v s)

/-- Any number of steps. -/
inductive Steps (v : Dev D) (cont : Bool) : Sys D → Nat → Sys D → Prop
  | refl (s : Sys D) : Steps v cont s 0 s
  | tail {s t u : Sys D} {n : Nat} (h : Steps v cont s n t) (h2 : Step v cont t u) :
      Steps v cont s (n + 1) u

/-- `x` is an outcome of `spi_transaction` (`nxp_ls1028a_spi_xfer`,
`/repo/hal/nxp_ls1028a.c:228-235`): without anything to send it returns at once (156-157), else it
ends when everything has been received. -/
def DspiOutcome (v : Dev D) (b : Bus D) (tx : Bytes) (cont : Bool) (x : Int × Bus D × Bytes) : Prop :=
  if tx.length = 0 then x = (0, b, [])
  else ∃ n s, Steps v cont (dspiInit b tx) n s ∧ s.rxc = 0 ∧ x = (0, s.bus, s.inp)

/-! ## TPM2_IoCb -/

/-- `TPM_RC_FAILURE` -/
def FAILURE : Int := 0x101

/-- `MAX_SPI_FRAMESIZE` of wolfTPM -/
def FRAME : Nat := 64

/-- The wait states, `/repo/src/tpm.c:164-176`: the argument is `timeout`, `r3` is `rxBuf[3]`; the result
is `timeout`, `ret` and the bus. -/
def waitLoop (xfer : Xfer D) (poll : Byte) : Nat → Byte → Bus D → Nat × Int × Bus D
  | 0, _, b => (0, 0, b)
  | t + 1, r3, b =>
    if t > 0 ∧ r3 &&& 1 = 0 then
      let q := xfer b [poll] true
      if q.1 = 0 then waitLoop xfer poll t (q.2.2.headD r3) q.2.1 else (t, q.1, q.2.1)
    else (t, 0, b)

/-- `/repo/src/tpm.c:158-192`: with `WOLFTPM_CHECK_WAIT_STATE`. `retry` is `TPM_SPI_WAIT_RETRY`. The
result is the return value, the bus, and `rxBuf` from byte 4 on (`none` if the function has returned
before the copy). -/
def ioWait (xfer : Xfer D) (retry : Nat) (tx : Bytes) (b : Bus D) : Int × Bus D × Option Bytes :=
  let q := xfer b (tx.take 4) true
  let w := if q.1 = 0 then waitLoop xfer (tx.getD 3 0) retry (q.2.2.getD 3 0) q.2.1
    else (retry, q.1, q.2.1)
  let ret := if w.2.1 = 0 ∧ w.1 = 0 then FAILURE else w.2.1
  if ret = 0 then
    let p := xfer w.2.2 (tx.drop 4) false
    (p.1, p.2.1, some p.2.2)
  else (ret, (xfer w.2.2 [] false).2.1, none)

/-- `/repo/src/tpm.c:193-194`: without wait states. -/
def ioPlain (xfer : Xfer D) (tx : Bytes) (b : Bus D) : Int × Bus D × Option Bytes :=
  let p := xfer b tx false
  (p.1, p.2.1, some (p.2.2.drop 4))

/-- The first byte of the header, `/repo/src/tpm.c:147,151`: the expression is of type `int`. -/
def sizeByte (isRead : Bool) (size : Nat) : Byte :=
  (if isRead then 0x80#8 else 0#8) ||| (BitVec.ofNat 8 (size % 256) - 1#8)

/-- The header, `/repo/src/tpm.c:142-153`. -/
def header (isRead : Bool) (addr size : Nat) : Bytes :=
  [sizeByte isRead size, BitVec.ofNat 8 (addr / 65536), BitVec.ofNat 8 (addr / 256), BitVec.ofNat 8 addr]

/-- `TPM2_IoCb` with `WOLFTPM_ADV_IO`, `/repo/src/tpm.c:104-213`: `buf` has `size` bytes, `wait` is
`WOLFTPM_CHECK_WAIT_STATE`. The result is the return value, the bus and `buf`. `none`: the arrays are
overrun. -/
def ioAdv (xfer : Xfer D) (wait : Bool) (retry : Nat) (isRead : Bool) (addr : Nat) (buf : Bytes)
    (b : Bus D) : Option (Int × Bus D × Bytes) :=
  if buf.length > FRAME then none
  else
    let tx := header isRead addr buf.length ++ (if isRead then List.replicate buf.length 0 else buf)
    let q := if wait then ioWait xfer retry tx b else ioPlain xfer tx b
    some (q.1, q.2.1, if isRead then q.2.2.getD buf else buf)

/-- `TPM2_IoCb` without `WOLFTPM_ADV_IO`, `/repo/src/tpm.c:124-213`: `tx` are the `xferSz` bytes at
`txBuf`, with the header; the result has `rxBuf` from byte 4 on. `none`: fewer than four bytes, the size
of the second transfer is negative. -/
def ioBuf (xfer : Xfer D) (wait : Bool) (retry : Nat) (tx : Bytes) (b : Bus D) :
    Option (Int × Bus D × Option Bytes) :=
  if tx.length < 4 then none
  else some (if wait then ioWait xfer retry tx b else ioPlain xfer tx b)

end Verif.Spi
