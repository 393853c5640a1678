import Verif.AhciThms

/-!
# Starting and stopping the ports of an AHCI controller

`/repo/src/x86/ahci.c:497-800`, `/repo/src/x86/ata.c:194-210`. The bits of `PxCMD` are those that the code uses. Time is the number of registers read; at
any read the controller may have followed the bits `ST` and `FRE` with `CR` and `FR` (AHCI 1.3.1, 3.3.7), or not yet: `World.follow`. The addresses
written while the port may be using them, and the starts of the port, are recorded. The reset of the controller (540-577) is not modelled, except for the two flags.
-/

namespace Verif

namespace AhciPort

/-- Bits of `PxCMD`, `/repo/include/x86/ahci.h:124-133`. -/
structure Cmd where
  st : Bool
  cr : Bool
  fre : Bool
  fr : Bool
  sud : Bool
  pod : Bool
  cpd : Bool
  icc : Bool

/-- What happens at a port: an address is changed, or the port started, in a state. -/
inductive Ev where
  | addr (c : Cmd)
  | start (c : Cmd) (det : Nat)

/-- A port: `PxCMD`, `PxCLB`, `PxFB` (`/repo/include/x86/ahci.h:55-61`), time, and what has happened. -/
structure Port where
  cmd : Cmd
  clb : Nat
  fb : Nat
  t : Nat
  log : List Ev

/-- Behaviour of the hardware: when the controller follows, what `PxSSTS.DET` reads, the signature (`PxSIG`, `/repo/src/x86/ahci.c:707`). -/
structure World where
  follow : Nat → Bool
  det : Nat → Nat
  sig : Nat

/-- The controller follows, `/repo/src/x86/ahci.c:647,666`. -/
def settle (c : Cmd) : Cmd := { c with cr := c.st, fr := c.fre }

/-- Read of `PxCMD`, `/repo/src/x86/ahci.c:638`: the state at this time. -/
def rd (w : World) (p : Port) : Port := { p with cmd := if w.follow p.t then settle p.cmd else p.cmd, t := p.t + 1 }

/-- Write to `PxCMD`, `/repo/src/x86/ahci.c:641`: `CR`, `FR` and `CPD` cannot be written. -/
def wrCmd (w : World) (p : Port) (c : Cmd) : Port :=
  { p with cmd := { p.cmd with st := c.st, fre := c.fre, sud := c.sud, pod := c.pod, icc := c.icc },
           log := if c.st && !p.cmd.st then p.log ++ [.start p.cmd (w.det p.t)] else p.log }

/-- `sata_wait_until_clear`, `/repo/src/x86/ahci.c:497-516`: nothing stands for the failure, after which the caller calls `panic`. -/
def waitClear (w : World) (bit : Cmd → Bool) : Nat → Port → Option Port
  | 0, _ => none
  | n + 1, p => if bit (rd w p).cmd then waitClear w bit n (rd w p) else some (rd w p)

/-- `SATA_MAX_TRIES`, `/repo/src/x86/ahci.c:103`. -/
def MAX_TRIES : Nat := 5

/-- Stop of a port, `/repo/src/x86/ahci.c:637-670` and `762-791`: the value of `PxCMD` read last, and the port. -/
def stop (w : World) (p : Port) : Option (Cmd × Port) :=
  let p := rd w p
  let p := if p.cmd.st || p.cmd.cr then if p.cmd.st then wrCmd w p { p.cmd with st := false } else p else p
  match waitClear w (·.cr) MAX_TRIES p with
  | none => none
  | some p =>
    let p := rd w p
    let reg := p.cmd
    let p := if reg.cr || reg.st then p else if reg.fr then wrCmd w p { reg with fre := false } else p
    match waitClear w (·.fr) MAX_TRIES p with
    | none => none
    | some p => some (reg, p)

/-- `cap_sud`, `/repo/src/x86/ahci.c:532,568`: a bit above the eight of the variable. -/
def capSud (cap : Nat) : Nat := (cap &&& 134217728) % 256

/-- `sata_only`, `/repo/src/x86/ahci.c:531,567`. -/
def sataOnly (cap : Nat) : Nat := (cap &&& 262144) % 256

/-- Polling of `PxSSTS.DET`, `/repo/src/x86/ahci.c:605-617`: the value read last, and the time. -/
def detLoop (w : World) : Nat → Nat → Nat × Nat
  | 0, t => (w.det t % 16, t + 1)
  | n + 1, t => if w.det t % 16 = 3 then (3, t + 1) else detLoop w n (t + 1)

/-- `HBA_CLB_SIZE`, `/repo/src/x86/ahci.c:84`. -/
def CLB_SIZE : Nat := 0x400
/-- `HBA_FIS_SIZE`, `/repo/src/x86/ahci.c:83`. -/
def FIS_SIZE : Nat := 0x100
/-- `HBA_TBL_SIZE`, `/repo/src/x86/ahci.c:85`. -/
def TBL_SIZE : Nat := 0x800

/-- Addresses of `ahci_hba_fis`, `ahci_hba_clb`, `ahci_hba_tbl`, `/repo/src/x86/ahci.c:88-93`. -/
structure Areas where
  fis : Nat
  clb : Nat
  tbl : Nat

/-- `/repo/src/x86/ahci.c:674`. -/
def clbOf (a : Areas) (i : Nat) : Nat := a.clb + i * CLB_SIZE
/-- `/repo/src/x86/ahci.c:675`. -/
def fisOf (a : Areas) (i : Nat) : Nat := a.fis + i * FIS_SIZE
/-- `/repo/src/x86/ahci.c:676`. -/
def tblOf (a : Areas) (i : Nat) : Nat := a.tbl + i * TBL_SIZE

/-- Bits set before a disk is looked for, `/repo/src/x86/ahci.c:588-599`. `mmio_or32` reads the register again. -/
def power (w : World) (cap : Nat) (p : Port) : Port :=
  let p := rd w p
  let p := if p.cmd.cpd then wrCmd w (rd w p) { (rd w p).cmd with pod := true } else p
  if capSud cap ≠ 0 then wrCmd w (rd w p) { (rd w p).cmd with sud := true } else p

/-- Addresses of the port, `/repo/src/x86/ahci.c:679-685`. -/
def setAddr (p : Port) (clb fb : Nat) : Port := { p with clb := clb, fb := fb, log := p.log ++ [.addr p.cmd, .addr p.cmd] }

/-- One round of the loop of `sata_enable`, `/repo/src/x86/ahci.c:582-706`: the port and whether a disk is used, nothing for `panic`. -/
def enablePort (w : World) (cap : Nat) (a : Areas) (i : Nat) (p : Port) : Option (Port × Bool) :=
  let p := power w cap { p with t := p.t + 1 }
  let (det, t) := detLoop w 6 p.t
  let p := { p with t := t }
  if det = 0 then some (p, false)
  else
    match stop w p with
    | none => none
    | some (reg, p) =>
      let p := setAddr p (clbOf a i) (fisOf a i)
      match waitClear w (·.cr) MAX_TRIES p with
      | none => none
      | some p =>
        let p := wrCmd w p { reg with fre := true, st := true }
        let p := rd w p
        let p := wrCmd w p { p.cmd with icc := true }
        some (p, w.sig = 0x101)

/-- One round of the loop of `sata_disable`, `/repo/src/x86/ahci.c:751-795`. -/
def disablePort (w : World) (p : Port) : Option Port :=
  match stop w p with
  | none => none
  | some (_, p) =>
    let p := rd w p
    some (wrCmd w p { p.cmd with icc := false })

/-- `sata_disable`, `/repo/src/x86/ahci.c:740-799`: the ports from `i` on, those of `ports_impl`. -/
def disableFrom (w : Nat → World) (impl : Nat → Bool) : Nat → Nat → (Nat → Port) → Option (Nat → Port)
  | 0, _, ps => some ps
  | n + 1, i, ps =>
    if impl i then
      match disablePort (w i) (ps i) with
      | none => none
      | some p => disableFrom w impl n (i + 1) (fun j => if j = i then p else ps j)
    else disableFrom w impl n (i + 1) ps

/-- `sata_disable`, `/repo/src/x86/ahci.c:740-799`. -/
def disable (w : Nat → World) (impl : Nat → Bool) (ps : Nat → Port) : Option (Nat → Port) := disableFrom w impl 32 0 ps

/-- `ata_drive_new`, `/repo/src/x86/ata.c:194-210`: the new `ata_drive_count` and the result. `MAX_ATA_DRIVES` is 4 (39). -/
def driveNew (count : Int) : Int × Int := if count + 1 ≥ 4 then (count + 1, -1) else (count + 1, count + 1)

/-- The check of the drive, `/repo/src/x86/ata.c:794`. -/
def rejects (drv count : Int) : Bool := drv > count

/-- `ata_drive_count` after `n` disks, from -1 (`/repo/src/x86/ata.c:59`). -/
def countAfter : Nat → Int
  | 0 => -1
  | n + 1 => (driveNew (countAfter n)).1

end AhciPort

end Verif
