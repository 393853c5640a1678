import Verif.Ata

/-!
# Commands to a disk behind an AHCI controller

`/repo/src/x86/ata.c:194-372,687-745`: the bytes that the driver puts into the command list and the command table, and the registers of the port. How
controller and drive read them is in the second half (AHCI 1.3.1, chapters 4 and 5; ATA8-ACS, 7.25, 7.60). `Verif.Ata` is the view of the disk on top of
this. Bit-fields are laid out as GCC does for x86: lowest bits first. A register with one bit per slot is a function of the slot.
-/

namespace Verif

namespace Ahci

/-- Bytes written to memory, `/repo/src/x86/ata.c:261-269`. -/
def wr (m : Mem) (a : Nat) (l : List Byte) : Mem := fun x => if a ≤ x ∧ x < a + l.length then (l[x - a]?).getD 0 else m x

/-- A byte of a number. -/
def byt (n : Nat) : Byte := BitVec.ofNat 8 n

/-- A 32-bit field, least significant byte first. -/
def bytes4 (n : Nat) : List Byte := [byt n, byt (n / 256), byt (n / 65536), byt (n / 16777216)]

/-- `memset` with 0, `/repo/src/x86/ata.c:261,265`. -/
def zeros (n : Nat) : List Byte := List.replicate n 0

/-- Loop of `find_cmd_slot`, `/repo/src/x86/ata.c:229-233`. -/
def findFrom (used : Nat → Bool) : Nat → Nat → Option Nat
  | 0, _ => none
  | n + 1, i => if used i then findFrom used n (i + 1) else some i

/-- `find_cmd_slot`, `/repo/src/x86/ata.c:221-236`: `PxSACT` and `PxCI`; nothing stands for -1. -/
def findSlot (sact ci : Nat → Bool) : Option Nat := findFrom (fun i => sact i || ci i) 32 0

/-- `prepare_cmd_h2d_slot` for the slot found, `/repo/src/x86/ata.c:259-270`: `clb` is the command list, `ctable` the table. Offsets: `cfl` and `w` are
in byte 0 of the header, `prdtl` in bytes 2 and 3, `ctba` in bytes 8 to 11 (`/repo/include/x86/ata.h:27-37`), the first entry of the PRDT is at byte 128 of
the table (`/repo/src/x86/ata.c:94-110`). `dbc` has 22 bits. -/
def prepare (m : Mem) (clb ctable slot buf sz : Nat) (w : Bool) : Mem :=
  let h := clb + 32 * slot
  let m := wr m h (zeros 32)
  let m := wr m h [byt 5]
  let m := wr m (h + 8) (bytes4 ctable)
  let m := wr m ctable (zeros 256)
  let m := wr m (h + 2) [byt 1, byt 0]
  let m := wr m h [byt (5 + if w then 64 else 0)]
  let m := wr m (ctable + 128) (bytes4 buf)
  wr m (ctable + 140) (bytes4 ((sz + 4194303) % 4194304))

/-- `ATA_CMD_READ_DMA_EX`, `/repo/include/x86/ata.h:89`. -/
def READ_DMA_EX : Nat := 0x25
/-- `ATA_CMD_WRITE_DMA`, `/repo/include/x86/ata.h:92`. -/
def WRITE_DMA : Nat := 0xCA

/-- The register FIS of a transfer, `/repo/src/x86/ata.c:698-712,727-741`: the table is found through `ctba` in the header; bytes that are not
assigned stay 0 (`struct fis_reg_h2d`, 116-139). -/
def putFis (m : Mem) (clb slot cmd start count : Nat) : Mem :=
  let t := le32 m (clb + 32 * slot + 8)
  let m := wr m t [byt 0x27]
  let m := wr m (t + 1) [byt 0x80]
  let m := wr m (t + 2) [byt cmd]
  let m := wr m (t + 4) [byt start]
  let m := wr m (t + 5) [byt (start / 256)]
  let m := wr m (t + 6) [byt (start / 65536)]
  let m := wr m (t + 8) [byt (start / 16777216)]
  let m := wr m (t + 9) [byt (start / 4294967296)]
  let m := wr m (t + 10) [byt (start / 1099511627776)]
  let m := wr m (t + 7) [byt 0x40]
  wr m (t + 12) [byt count, byt (count / 256)]

/-! ## Controller and drive -/

/-- What the drive does on a command, ATA8-ACS: number of the first sector and of sectors. -/
inductive Op where
  | read (lba n : Nat)
  | write (lba n : Nat)
  | other

/-- Decoding of a register FIS at `t` (`/repo/src/x86/ata.c:112-139`; Serial ATA 10.3.4; ATA8-ACS 7.25 READ DMA EXT, 7.24 READ DMA, 7.60 WRITE DMA, 7.61
WRITE DMA EXT): commands with 28 bits have bits 24 to 27 of the sector number in the device register, and a counter of 8 bits. -/
def decode (m : Mem) (t : Nat) : Op :=
  let b := fun i => (m (t + i)).toNat
  let lba48 := b 4 + 256 * b 5 + 65536 * b 6 + 16777216 * b 8 + 4294967296 * b 9 + 1099511627776 * b 10
  let lba28 := b 4 + 256 * b 5 + 65536 * b 6 + 16777216 * (b 7 % 16)
  let n16 := cmdCount (b 12 + 256 * b 13) 65536
  let n8 := cmdCount (b 12) 256
  if b 0 = 0x27 ∧ b 1 / 128 = 1 ∧ b 7 / 64 % 2 = 1 then
    if b 2 = 0x25 then .read lba48 n16
    else if b 2 = 0x35 then .write lba48 n16
    else if b 2 = 0xC8 then .read lba28 n8
    else if b 2 = 0xCA then .write lba28 n8
    else .other
  else .other

/-- Memory, disk, and whether the command succeeds, when the controller executes a slot (`/repo/src/x86/ata.c:347`; AHCI 1.3.1, 4.2, 5.3): header at 32 times
the slot in the command list, table at a multiple of 128, FIS of five words, the direction, one entry in the PRDT, whose address is even and whose length is `dbc + 1`. The
transfer ends with the shorter of both lengths. If one of the sectors is bad, nothing is transferred. -/
def run (m : Mem) (a : Ata) (clb slot : Nat) : Mem × Ata × Bool :=
  let h := clb + 32 * slot
  let t := le32 m (h + 8) / 128 * 128 + 4294967296 * le32 m (h + 12)
  let w := (m h).toNat / 64 % 2 = 1
  let addr := le32 m (t + 128) / 2 * 2 + 4294967296 * le32 m (t + 132)
  let len := le32 m (t + 140) % 4194304 + 1
  if (m h).toNat % 32 = 5 ∧ le16 m (h + 2) = 1 then
    match decode m t with
    | .read s n =>
      if w then (m, a, false)
      else if anyBad a s n then (m, a, false)
      else (fun i => if addr ≤ i ∧ i < addr + min (n * 512) len then a.disk (s * 512 + (i - addr)) else m i, a, true)
    | .write s n =>
      if ¬ w then (m, a, false)
      else if anyBad a s n then (m, a, false)
      else (m, { a with disk := fun x => if s * 512 ≤ x ∧ x < s * 512 + min (n * 512) len then m (addr + (x - s * 512)) else a.disk x }, true)
    | .other => (m, a, false)
  else (m, a, false)

/-- Memory, drive and port: `PxCMD.ST`, whether the controller has stopped after an error (AHCI 1.3.1, 6.2.2.1: until `ST` is cleared), `PxIS.TFES`, `PxSACT`,
`PxCI`, addresses of the drive (`struct ata_drive`, `/repo/src/x86/ata.c:71-81`), and the slot of the asynchronous command (60-66). -/
structure Sys where
  mem : Mem
  ata : Ata
  st : Bool
  halted : Bool
  tfes : Bool
  sact : Nat → Bool
  ci : Nat → Bool
  clb : Nat
  ctable : Nat
  async : Option Nat

/-- A bit of a register replaced. -/
def setBit (f : Nat → Bool) (i : Nat) (v : Bool) : Nat → Bool := fun j => if j = i then v else f j

/-- The first slot that is to be executed. -/
def firstSlot (ci : Nat → Bool) : Option Nat := findFrom (fun i => !ci i) 32 0

/-- A step of the controller (`/repo/src/x86/ata.c:347,355`; AHCI 1.3.1, 5.3, 6.2.2.1): the next command is executed; after an error the slot stays and
nothing more is executed. -/
def tick (s : Sys) : Sys :=
  if s.st = true ∧ s.halted = false then
    match firstSlot s.ci with
    | none => s
    | some i =>
      match run s.mem s.ata s.clb i with
      | (m, a, true) => { s with mem := m, ata := a, ci := setBit s.ci i false }
      | (m, a, false) => { s with mem := m, ata := a, tfes := true, halted := true }
  else s

/-- The drive is busy while the controller has a command (`PxTFD`, `/repo/src/x86/ata.c:344`). -/
def busy (s : Sys) : Bool := s.st && !s.halted && (firstSlot s.ci).isSome

/-- Between two reads of registers the controller makes a step or not: `/repo/src/x86/ata.c:344,355,356`. -/
def step (sched : Nat → Bool) (k : Nat) (s : Sys) : Sys := if sched k then tick s else s

/-- Waiting for the drive, `/repo/src/x86/ata.c:343-345`. Nothing: not ended after `fuel` rounds. -/
def waitIdle (sched : Nat → Bool) : Nat → Nat → Sys → Option (Nat × Sys)
  | 0, _, _ => none
  | fuel + 1, k, s => if busy s then waitIdle sched fuel (k + 1) (step sched k s) else some (k, s)

/-- Waiting for the command, `/repo/src/x86/ata.c:355-360`. -/
def poll (sched : Nat → Bool) (slot : Nat) : Nat → Nat → Sys → Option (Int × Sys)
  | 0, _, _ => none
  | fuel + 1, k, s =>
    if s.ci slot then
      let s := step sched k s
      if s.tfes then some (-1, s) else poll sched slot fuel (k + 2) (step sched (k + 1) s)
    else some (0, s)

/-- `exec_cmd_slot_ex`, `/repo/src/x86/ata.c:327-362`. -/
def exec (sched : Nat → Bool) (fuel : Nat) (slot : Nat) (async : Bool) (s : Sys) : Option (Int × Sys) :=
  if s.async.isSome then some (-3, s)
  else
    let s := { s with tfes := false }
    match waitIdle sched fuel 0 s with
    | none => none
    | some (k, s) =>
      let s := { s with ci := setBit s.ci slot true }
      if async then some (-2, { s with async := some slot })
      else poll sched slot fuel k s

/-- `ata_cmd_complete_async`, `/repo/src/x86/ata.c:285-305`. -/
def completeAsync (s : Sys) : Int × Sys :=
  match s.async with
  | none => (-4, s)
  | some slot =>
    if s.tfes then (-1, { s with async := none })
    else if s.ci slot then (-2, s)
    else (0, { s with async := none })

/-- `ata_drive_read_sector`, `/repo/src/x86/ata.c:687-715`; sectors of 512 bytes (207). -/
def readSector (sched : Nat → Bool) (fuel : Nat) (start count buf : Nat) (s : Sys) : Option (Int × Sys) :=
  match findSlot s.sact s.ci with
  | none => some (-1, s)
  | some slot =>
    let m := prepare s.mem s.clb s.ctable slot buf (count * 512) false
    let m := putFis m s.clb slot READ_DMA_EX start count
    match exec sched fuel slot false { s with mem := m } with
    | none => none
    | some (_, s) => some (((count * 512 : Nat) : Int), s)

/-- `ata_drive_write_sector`, `/repo/src/x86/ata.c:717-745`. -/
def writeSector (sched : Nat → Bool) (fuel : Nat) (start count buf : Nat) (s : Sys) : Option (Int × Sys) :=
  match findSlot s.sact s.ci with
  | none => some (-1, s)
  | some slot =>
    let m := prepare s.mem s.clb s.ctable slot buf (count * 512) true
    let m := putFis m s.clb slot WRITE_DMA start count
    match exec sched fuel slot false { s with mem := m } with
    | none => none
    | some (_, s) => some (((count * 512 : Nat) : Int), s)

end Ahci

end Verif
