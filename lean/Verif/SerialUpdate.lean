import Verif.Trailer

/-!
# Update over the serial line: `/repo/test-app/app_stm32f4.c`, `/repo/tools/test-update-server/server.c`

The application that comes with wolfBoot receives a new image from a tool on the host, writes it to UPDATE and
requests its installation. `Dev` is the application, byte by byte; `Srv` is the tool. Host and target are
little-endian. `hal_flash_erase` erases whole sectors; UPDATE begins at a multiple of the sector size; the power does not fail in this part.
-/

namespace Verif.SerialUpdate

open Verif

/-- Bytes on the line. -/
abbrev Bytes := List Byte

/-- A `uint32_t` in memory. -/
def le4 (n : Nat) : Bytes := [BitVec.ofNat 8 n, BitVec.ofNat 8 (n / 256), BitVec.ofNat 8 (n / 65536), BitVec.ofNat 8 (n / 16777216)]

/-- `msg[4] + (msg[5] << 8) + (msg[6] << 16) + (msg[7] << 24)`, `/repo/test-app/app_stm32f4.c:270,289`; 0 for
other lists, which do not occur. (`msg[7] << 24` is not defined by the C standard if it reaches the sign bit.) -/
def val4 : Bytes → Nat
  | [a, b, c, d] => a.toNat + 256 * b.toNat + 65536 * c.toNat + 16777216 * d.toNat
  | _ => 0

/-- The sum of the complete 16-bit words, `/repo/test-app/app_stm32f4.c:196-197`, `/repo/tools/test-update-server/server.c:118-119`. -/
def wordSum : Bytes → Nat
  | a :: b :: r => a.toNat + 256 * b.toNat + wordSum r
  | _ => 0

/-- `#define ACK`, `ERR`, `START`, `/repo/test-app/app_stm32f4.c:75-78`. -/
def ACK : Byte := 0x23
/-- See `ACK`. -/
def ERR : Byte := 0x21
/-- See `ACK`. -/
def START : Byte := 0x2A

/-- `ack`, `/repo/test-app/app_stm32f4.c:180-188`. -/
def ack (off : Nat) : Bytes := ACK :: le4 off

/-! ## The application -/

/-- `MSGSIZE`, `/repo/test-app/app_stm32f4.c:72`. -/
def MSGSIZE : Nat := 16

/-- `PAGESIZE`, `/repo/test-app/app_stm32f4.c:73`. -/
def PAGESIZE : Nat := 256

/-- The application receives, waits for the reboot, has left an array, or its request has not returned. -/
inductive St where
  | run
  | done
  | ub
  | fault
deriving DecidableEq

/-- Variables of `main`, `/repo/test-app/app_stm32f4.c:204-212`, and the flash. `msg` are the bytes of the
message received so far, `r_total` is its length; older bytes of the array are not read. -/
structure Dev where
  st : St := .run
  msg : Bytes := []
  tot : Nat := 0
  next : Nat := 0
  page : Mem := fun _ => 0xFF#8
  fl : Flash
  /-- The flash is locked. -/
  locked : Bool

/-- `hal_flash_erase` in UPDATE, `/repo/test-app/app_stm32f4.c:299`: without effect if the flash is locked. -/
def eraseUpd (d : Dev) (off len : Nat) : Dev := if d.locked then d else { d with fl := d.fl.erase .update off len }

/-- `hal_flash_write` in UPDATE, `/repo/test-app/app_stm32f4.c:301`: without effect if the flash is locked. -/
def writeUpd (d : Dev) (off len : Nat) (b : Mem) : Dev := if d.locked then d else { d with fl := d.fl.program .update off len b }

/-- `/repo/test-app/app_stm32f4.c:297-302`; `off` is `dst` without `WOLFBOOT_PARTITION_UPDATE_ADDRESS`. -/
def flushPage (c : Cfg) (d : Dev) (off : Nat) : Dev :=
  let d1 := if off % c.ss = 0 then eraseUpd d off c.ss else d
  { writeUpd d1 off PAGESIZE d.page with page := fun _ => 0xFF#8 }

/-- `/repo/test-app/app_stm32f4.c:292-304`: the data of a message with the expected number. -/
def store (c : Cfg) (d : Dev) : Dev :=
  let data := d.msg.drop 8
  let idx := d.next % PAGESIZE
  if PAGESIZE < idx + data.length then { d with st := .ub }
  else
    let d1 := { d with page := fun i => if idx ≤ i ∧ i < idx + data.length then data.getD (i - idx) 0 else d.page i }
    let d2 := if idx + data.length = PAGESIZE ∨ d.tot ≤ d.next + data.length then flushPage c d1 (d.next - idx) else d1
    { d2 with next := d.next + data.length }

/-- `/repo/test-app/app_stm32f4.c:306-315`. -/
def finish (c : Cfg) (d : Dev) : Dev :=
  if d.tot ≤ d.next then
    match updateTrigger c true ⟨d.fl, d.locked, none, fun _ => 0#8⟩ with
    | .ok _ w => { d with st := .done, fl := w.fl, locked := w.locked }
    | _ => { d with st := .fault }
  else d

/-- The length of the image, `/repo/test-app/app_stm32f4.c:269-284`. -/
def onSize (c : Cfg) (d : Dev) : Dev × Bytes :=
  let tlen := val4 ((d.msg.drop 2).take 4)
  if c.part - 8 < tlen then ({ d with msg := [], tot := 0 }, [ERR, ERR, ERR, ERR, START])
  else ({ d with msg := [], tot := tlen }, ack 0)

/-- `check(msg, r_total) == 0`, `/repo/test-app/app_stm32f4.c:190-201`. -/
def checked (m : Bytes) : Bool :=
  wordSum (m.drop 4) % 65536 == (m.getD 2 0).toNat + 256 * (m.getD 3 0).toNat

/-- A complete message, `/repo/test-app/app_stm32f4.c:269-315`. -/
def onMsg (c : Cfg) (d : Dev) : Dev × Bytes :=
  if d.tot = 0 then onSize c d
  else if checked d.msg = false then ({ d with msg := [] }, ack d.next)
  else
    let d1 := if val4 ((d.msg.drop 4).take 4) = d.next then store c d else d
    if d1.st = .ub then (d1, [])
    else (finish c { d1 with msg := [] }, ack d1.next)

/-- The loop that collects a message ends, `/repo/test-app/app_stm32f4.c:264-268`. -/
def ready (d : Dev) : Prop :=
  (d.tot = 0 ∧ d.msg.length = 6) ∨ (8 < d.msg.length ∧ d.tot ≤ d.msg.length - 8 + d.next) ∨ MSGSIZE ≤ d.msg.length

instance (d) : Decidable (ready d) := inferInstanceAs (Decidable (_ ∨ _))

/-- One byte, `/repo/test-app/app_stm32f4.c:253-268`; gives the bytes sent back. -/
def recv (c : Cfg) (d : Dev) (b : Byte) : Dev × Bytes :=
  if d.st ≠ .run then (d, [])
  else if MSGSIZE ≤ d.msg.length then ({ d with st := .ub }, [])
  else
    let d1 := { d with msg := d.msg ++ [b] }
    if d1.msg.length < 2 then (d1, [])
    else if d1.msg.length = 2 then
      (if d1.msg = [0xA5#8, 0x5A#8] then d1 else { d with msg := [] }, [])
    else if ready d1 then onMsg c d1
    else (d1, [])

/-- Any number of bytes. -/
def recvAll (c : Cfg) : Dev → Bytes → Dev × Bytes
  | d, [] => (d, [])
  | d, b :: r =>
    let x := recv c d b
    let y := recvAll c x.1 r
    (y.1, x.2 ++ y.2)

/-- `wolfBoot_success` for an even version, `/repo/test-app/app_stm32f4.c:239-240`. -/
def confirm (c : Cfg) (version : Nat) (f : Flash) : World :=
  if version % 2 = 0 then
    match success c ⟨f, false, none, fun _ => 0#8⟩ with
    | .ok _ w => w
    | _ => ⟨f, true, none, fun _ => 0#8⟩
  else ⟨f, false, none, fun _ => 0#8⟩

/-- `/repo/test-app/app_stm32f4.c:237-247`, without `EXT_ENCRYPTED`: the flash is unlocked, and
`wolfBoot_success` locks it again. -/
def devStart (c : Cfg) (version : Nat) (f : Flash) : Dev × Bytes :=
  ({ fl := (confirm c version f).fl, locked := (confirm c version f).locked }, START :: (le4 version).reverse)

/-! ## The tool -/

/-- Where the tool is: before the `*`, `/repo/tools/test-update-server/server.c:174-191`; in the loop, 195-240; waiting for the
last ack, 242-249; at the end. -/
inductive Phase where
  | star
  | send
  | last
  | ended
deriving DecidableEq

/-- Variables of the tool. `pkt` is `pktbuf` up to `pktbuf_size`; `part` are the bytes of an ack received so
far, if any; `err` counts the `!`. -/
structure Srv where
  ph : Phase := .star
  file : Bytes
  len : Nat := 0
  high : Nat := 0
  pkt : Bytes := []
  part : Option Bytes := none
  err : Nat := 0
deriving DecidableEq

/-- `check` and the packet, `/repo/tools/test-update-server/server.c:110-120,220-228`. -/
def packet (off : Nat) (data : Bytes) : Bytes :=
  let s := wordSum (le4 off ++ data) % 65536
  [0xA5#8, 0x5A#8, BitVec.ofNat 8 s, BitVec.ofNat 8 (s / 256)] ++ (le4 off ++ data)

/-- The data at an offset of the file, `/repo/tools/test-update-server/server.c:215-221`. -/
def chunk (file : Bytes) (off : Nat) : Bytes := (file.drop off).take 8

/-- An ack in the loop, `/repo/tools/test-update-server/server.c:204-237`. -/
def onAck (s : Srv) (off : Nat) : Srv × Bytes :=
  if s.file.length < off then (s, [])
  else if off < s.high then (s, [])
  else
    let p := packet off (chunk s.file off)
    let l := off + (chunk s.file off).length
    ({ s with high := off, pkt := p, len := l, ph := if l < s.file.length then .send else .last }, p)

/-- The last ack, `/repo/tools/test-update-server/server.c:242-249`. -/
def onLast (s : Srv) (off : Nat) : Srv × Bytes :=
  if off = s.file.length then ({ s with ph := .ended }, []) else (s, [])

/-- The end of `recv_ack` with an ack. -/
def gotAck (s : Srv) (off : Nat) : Srv × Bytes :=
  match s.ph with
  | .send => onAck s off
  | .last => onLast s off
  | _ => (s, [])

/-- A byte in `recv_ack`, `/repo/tools/test-update-server/server.c:78-108`; the return value -1 is ignored by both callers. -/
def inAck (s : Srv) (b : Byte) : Srv × Bytes :=
  match s.part with
  | some p =>
    if p.length < 3 then ({ s with part := some (p ++ [b]) }, [])
    else gotAck { s with part := none, err := 0 } (val4 (p ++ [b]))
  | none =>
    if b = ACK then ({ s with part := some [], err := 0 }, [])
    else if b = ERR then ({ s with err := if 3 < s.err + 1 then 0 else s.err + 1 }, [])
    else (s, [])

/-- A byte read by the tool, `/repo/tools/test-update-server/server.c:174-249`. -/
def srvRecv (s : Srv) (b : Byte) : Srv × Bytes :=
  match s.ph with
  | .star =>
    if b = START then ({ s with ph := if 0 < s.file.length then .send else .last }, [0xA5#8, 0x5A#8] ++ le4 s.file.length)
    else (s, [])
  | .ended => (s, [])
  | _ => inAck s b

/-- Any number of bytes. -/
def srvAll : Srv → Bytes → Srv × Bytes
  | s, [] => (s, [])
  | s, b :: r =>
    let x := srvRecv s b
    let y := srvAll x.1 r
    (y.1, x.2 ++ y.2)

/-- `alarm_handler`, `/repo/tools/test-update-server/server.c:69-76`: sends the packet again. -/
def alarm (s : Srv) : Bytes := s.pkt

/-- Tool and application over a line that loses nothing, without alarms: `n` is a bound on the number of turns, `o` are the bytes
on the way to the tool. -/
def exchange (c : Cfg) : Nat → Srv → Dev → Bytes → Srv × Dev
  | 0, s, d, _ => (s, d)
  | n + 1, s, d, o =>
    let x := srvAll s o
    let y := recvAll c d x.2
    if y.2 = [] then (x.1, y.1) else exchange c n x.1 y.1 y.2

end Verif.SerialUpdate
