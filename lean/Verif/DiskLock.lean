import Verif.TpmSeal

/-!
# Locking of the disk: `/repo/src/x86/ahci.c`, `/repo/src/x86/ata.c`

C58 (`WOLFBOOT_ATA_DISK_LOCK`). The drive is modelled as the security feature set of ATA8-ACS (4.7, 7.44-7.49)
describes it: passwords of 32 bytes, states by the flags enabled, locked, frozen, a counter of attempts. A command
may fail without or after having been carried out. The registers of the controller, waiting and printing (which
includes the secret) are not modelled; no asynchronous command is in progress. The secret comes from the
configuration or from the TPM (`Verif.TpmSeal`).
-/

namespace Verif.Lock

open Verif Verif.Tpm

/-! ## The drive -/

/-- Security state of a drive. -/
structure Drive where
  supported : Bool
  enabled : Bool
  locked : Bool
  frozen : Bool
  /-- level Maximum: the master password does not unlock -/
  maximum : Bool
  user : Bytes
  master : Bytes
  /-- attempts left -/
  tries : Nat

/-- Password in the data of a command: 32 bytes from offset 2 (ATA8-ACS table 33). -/
def password (d : Bytes) : Bytes := (d.drop 2).take 32

/-- SECURITY SET PASSWORD (0xF1). -/
def cmdSetPassword (data : Bytes) (d : Drive) : Bool × Drive :=
  if d.supported = false ∨ d.locked = true ∨ d.frozen = true then (false, d)
  else if (data.getD 0 0).getLsbD 0 = true then (true, { d with master := password data })
  else (true, { d with user := password data, enabled := true,
                       maximum := (data.getD 1 0).getLsbD 0 })

/-- SECURITY UNLOCK (0xF2). -/
def cmdUnlock (data : Bytes) (d : Drive) : Bool × Drive :=
  if d.supported = false ∨ d.frozen = true then (false, d)
  else if d.locked = false then (true, d)
  else if d.tries = 0 then (false, d)
  else if (data.getD 0 0).getLsbD 0 = true then
    if d.maximum = false ∧ password data = d.master then (true, { d with locked := false })
    else (false, { d with tries := d.tries - 1 })
  else if password data = d.user then (true, { d with locked := false })
  else (false, { d with tries := d.tries - 1 })

/-- SECURITY FREEZE LOCK (0xF5). -/
def cmdFreeze (d : Drive) : Bool × Drive :=
  if d.supported = false ∨ d.locked = true then (false, d) else (true, { d with frozen := true })

/-- SECURITY DISABLE PASSWORD (0xF6). -/
def cmdDisable (data : Bytes) (d : Drive) : Bool × Drive :=
  if d.supported = false ∨ d.locked = true ∨ d.frozen = true then (false, d)
  else if (data.getD 0 0).getLsbD 0 = true then
    if d.maximum = false ∧ password data = d.master then (true, { d with enabled := false })
    else (false, d)
  else if password data = d.user then (true, { d with enabled := false })
  else (false, d)

/-- Power off and on. -/
def powerCycle (d : Drive) : Drive := { d with locked := d.enabled, frozen := false, tries := 5 }

/-- Bit `i` of a word set to `v`. -/
def withBit (w : BitVec 16) (i : Nat) (v : Bool) : BitVec 16 :=
  if v then w ||| BitVec.ofNat 16 (2 ^ i) else w &&& ~~~(BitVec.ofNat 16 (2 ^ i))

/-- Word 82 of IDENTIFY DEVICE: bit 1 says that the security feature set is supported; other bits of `n`. -/
def word82 (n : BitVec 16) (d : Drive) : BitVec 16 := withBit n 1 d.supported

/-- Word 128 of IDENTIFY DEVICE: bit 1 enabled, bit 2 locked, bit 3 frozen; other bits of `n`. -/
def word128 (n : BitVec 16) (d : Drive) : BitVec 16 :=
  withBit (withBit (withBit n 1 d.enabled) 2 d.locked) 3 d.frozen

/-! ## The driver -/

/-- `enum ata_security_state`, `/repo/include/x86/ata.h:57-65`. -/
inductive Sec where
  | sec0 | sec1 | sec2 | sec4 | sec5 | sec6
deriving DecidableEq

/-- What a command does. -/
inductive Fault where
  /-- the command is carried out -/
  | none
  /-- error, the command is not carried out (also: no free slot, `/repo/src/x86/ata.c:255-258`) -/
  | before
  /-- error after the command has been carried out -/
  | after
deriving DecidableEq

/-- Behaviour of the drive: failures of commands, other bits of the identification. -/
structure Env where
  fault : Nat → Fault
  noise : Nat → BitVec 16 × BitVec 16

/-- State: TPM, drive, `ata->sec`, number of commands sent to the drive. -/
structure W where
  tpm : S
  drv : Drive
  sec : Sec
  k : Nat

/-- Undefined behaviour: the string is not terminated within its array, or that of the TPM code. -/
inductive LBad where
  | overread
  | tpm (b : Bad)
deriving DecidableEq

/-- Result of a function. -/
inductive Out where
  | ret (rc : Int) (w : W)
  | panic (w : W)
  | bad (b : LBad) (w : W)

/-- `exec_cmd_slot`, `/repo/src/x86/ata.c:327-372`: result 0 or -1. -/
def exec (e : Env) (cmd : Drive → Bool × Drive) (w : W) : Int × W :=
  match e.fault w.k with
  | .none => (if (cmd w.drv).1 = true then 0 else -1, { w with drv := (cmd w.drv).2, k := w.k + 1 })
  | .before => (-1, { w with k := w.k + 1 })
  | .after => (-1, { w with drv := (cmd w.drv).2, k := w.k + 1 })

/-- `/repo/src/x86/ata.c:637-670`: the state from the words 82 and 128. -/
def decode (w82 w128 : BitVec 16) : Sec :=
  if w82 &&& 2 = 0 then .sec0
  else
    let frozen := w128 &&& 8 ≠ 0
    let locked := w128 &&& 4 ≠ 0
    let enabled := w128 &&& 2 ≠ 0
    if ¬ enabled ∧ ¬ frozen then .sec1
    else if ¬ enabled ∧ frozen then .sec2
    else if enabled ∧ locked then .sec4
    else if ¬ locked ∧ ¬ frozen then .sec5
    else if ¬ locked ∧ frozen then .sec6
    else .sec0

/-- `ata_identify_device`, `/repo/src/x86/ata.c:583-679`. -/
def identify (e : Env) (w : W) : Int × W :=
  let r := exec e (fun d => (true, d)) w
  if r.1 = 0 then
    (0, { r.2 with sec := decode (word82 (e.noise w.k).1 w.drv) (word128 (e.noise w.k).2 w.drv) })
  else r

/-- The string in an array: `strlen`, `/repo/src/x86/ata.c:466`. `none`: there is no terminator. -/
def cstr : Bytes → Option Bytes
  | [] => none
  | b :: r => if b = 0 then some [] else (cstr r).map (b :: ·)

/-- The data sent with a command, `/repo/src/x86/ata.c:462-466`. -/
def block (master : Bool) (p : Bytes) : Bytes :=
  [if master then 1 else 0, 0] ++ p ++ List.replicate (510 - p.length) 0

/-- `ata_security_set_password`, `/repo/src/x86/ata.c:534-537`, `security_command_passphrase`, 453-480. -/
def setPassword (e : Env) (p : Bytes) (w : W) : Int × W := exec e (cmdSetPassword (block false p)) w

/-- `ata_security_unlock_device`, `/repo/src/x86/ata.c:519-522`. -/
def unlockDevice (e : Env) (p : Bytes) (master : Bool) (w : W) : Int × W :=
  exec e (cmdUnlock (block master p)) w

/-- `ata_security_freeze_lock`, `/repo/src/x86/ata.c:491-494`, `security_command`, 414-436. -/
def freezeLock (e : Env) (w : W) : Int × W := exec e cmdFreeze w

/-- `ata_security_disable_password`, `/repo/src/x86/ata.c:550-553`. -/
def disablePassword (e : Env) (p : Bytes) (master : Bool) (w : W) : Int × W :=
  exec e (cmdDisable (block master p)) w

/-! ## The secret -/

/-- Where the secret comes from. -/
inductive Source where
  /-- `WOLFBOOT_ATA_DISK_LOCK_PASSWORD` -/
  | pw (p : Bytes)
  /-- `WOLFBOOT_TPM_SEAL`: build, `Base64_Encode_NoNl`, hash of the key
  `WOLFBOOT_TPM_SEAL_KEY_ID`, memory from the policy of stage 1 on, its size, password of the object -/
  | tpm (c : Cfg) (b64 : Bytes → Bytes) (hint mem : Bytes) (policySz : BitVec 16) (auth : Bytes)

/-- `sata_get_random_base64`, `/repo/src/x86/ahci.c:243-266`, with `*out_size == 32`: the new secret with its
terminator. `BUFFER_E` (-132) if the text does not fit. -/
def randomB64 (c : Cfg) (b64 : Bytes → Bytes) : T Bytes := do
  let r ← getRandom c.chip 21
  if 32 < (b64 r).length then fail (-132)
  else if (b64 r).length < 32 then pure (b64 r ++ [0])
  else pure ((b64 r).take 31 ++ [0])

/-- `sata_create_and_seal_unlock_secret`, `/repo/src/x86/ahci.c:268-318`; `sz` is `*secret_size`. -/
def createSecret (c : Cfg) (b64 : Bytes → Bytes) (hint mem : Bytes) (p : BitVec 16) (auth : Bytes)
    (sz : Nat) : T Bytes :=
  if sz < 32 then fail (-1)
  else do
    let sec ← randomB64 c b64
    sealAuth c hint p.toNat 0 sec auth
    let chk ← unsealAuth c hint mem p 0 auth c.maxSeal
    if sec = chk then pure sec else fail (-1)

/-- The low bits of a return value say `TPM_RC_HANDLE` (`ret & RC_MAX_FMT1`, `/repo/src/x86/ahci.c:350`). -/
def isHandle (rc : Int) : Bool := BitVec.ofInt 32 rc &&& 0xBF == 0x8B

/-- `wolfBoot_unseal`, `/repo/src/tpm.c:1072-1115`, with the value of `*secret_sz` in case of an error: it is set to
0 once the index has been read (`/repo/src/tpm.c:941`). -/
def unsealSized (c : Cfg) (hint mem : Bytes) (p : BitVec 16) (auth : Bytes) (cap : Nat) (s : S) :
    R Bytes × Nat :=
  match readBlob c (c.nvBase + 0) [] s with
  | .ok b s1 => (unsealBlob c hint mem p b.1 b.2 auth cap s1, if p = 0 then 32 else 0)
  | .err rc s1 => (.err rc s1, 32)
  | .bad b s1 => (.bad b s1, 32)

/-- `sata_get_unlock_secret` with TPM, `/repo/src/x86/ahci.c:320-376`. A policy of more than 512 bytes is refused
(338). -/
def tpmSecret (c : Cfg) (b64 : Bytes → Bytes) (hint mem : Bytes) (p : BitVec 16) (auth : Bytes) : T Bytes :=
  fun s =>
    if 512 < p.toNat then .err (-1) s
    else match unsealSized c hint mem p auth 32 s with
      | (.err rc s1, sz) =>
        if isHandle rc = true then createSecret c b64 hint mem p auth sz s1 else .err rc s1
      | (r, _) => r

/-- The array `secret` of `sata_unlock_disk` after `sata_get_unlock_secret`: `junk` is what it contained before
(`/repo/src/x86/ahci.c:407,198-208`). -/
def getSecret (src : Source) (junk : Bytes) : T Bytes :=
  match src with
  | .pw p => if 32 < p.length then fail (-1) else pure (p ++ junk.drop p.length)
  | .tpm c b64 hint mem psz auth => do
    let s ← tpmSecret c b64 hint mem psz auth
    pure (s ++ junk.drop s.length)

/-! ## Unlocking -/

/-- `/repo/src/x86/ahci.c:473-482` -/
def finish (freeze : Bool) (w : W) : Out :=
  if (freeze = true ∧ w.sec ≠ .sec6) ∨ (freeze = false ∧ w.sec ≠ .sec5) then .panic w else .ret 0 w

/-- Identification, then the next step; -1 if it fails (`/repo/src/x86/ahci.c:438-442`). -/
def identifyThen (e : Env) (next : W → Out) (w : W) : Out :=
  if (identify e w).1 ≠ 0 then .ret (-1) (identify e w).2 else next (identify e w).2

/-- Freezing if requested, then the next step (`/repo/src/x86/ahci.c:432-437,457-466`). -/
def freezeThen (e : Env) (freeze : Bool) (next : W → Out) (w : W) : Out :=
  if freeze = true then
    if (freezeLock e w).1 ≠ 0 then .ret (-1) (freezeLock e w).2 else next (freezeLock e w).2
  else next w

/-- Security disabled: `/repo/src/x86/ahci.c:426-444`. -/
def lockIt (e : Env) (freeze : Bool) (p : Bytes) (w : W) : Out :=
  if (setPassword e p w).1 ≠ 0 then .ret (-1) (setPassword e p w).2
  else freezeThen e freeze (identifyThen e (finish freeze)) (setPassword e p w).2

/-- After unlocking, `/repo/src/x86/ahci.c:455-471`. -/
def unlocked (e : Env) (freeze : Bool) (w : W) : Out :=
  if w.sec = .sec5 then freezeThen e freeze (identifyThen e (finish freeze)) w else finish freeze w

/-- Drive locked: `/repo/src/x86/ahci.c:445-472`. -/
def unlockIt (e : Env) (freeze : Bool) (p : Bytes) (w : W) : Out :=
  if (unlockDevice e p false w).1 ≠ 0 then .ret (-1) (unlockDevice e p false w).2
  else identifyThen e (unlocked e freeze) (unlockDevice e p false w).2

/-- `sata_unlock_disk` with the secret, `/repo/src/x86/ahci.c:419-482`; `qemu`: `TARGET_x86_fsp_qemu`. -/
def unlockWith (e : Env) (qemu freeze : Bool) (arr : Bytes) (w : W) : Out :=
  if qemu = true ∧ w.sec = .sec0 then .ret 0 w
  else if w.sec = .sec1 then
    match cstr arr with
    | none => .bad .overread w
    | some p => lockIt e freeze p w
  else if w.sec = .sec4 then
    match cstr arr with
    | none => .bad .overread w
    | some p => unlockIt e freeze p w
  else finish freeze w

/-- `sata_unlock_disk`, `/repo/src/x86/ahci.c:404-482`. -/
def unlockDisk (e : Env) (src : Source) (qemu freeze : Bool) (junk : Bytes) (w : W) : Out :=
  match getSecret src junk w.tpm with
  | .ok arr s => unlockWith e qemu freeze arr { w with tpm := s }
  | .err rc s => .ret rc { w with tpm := s }
  | .bad b s => .bad (.tpm b) { w with tpm := s }

/-- `sata_disable_password`, `/repo/src/x86/ahci.c:372-389` (`WOLFBOOT_ATA_DISABLE_USER_PASSWORD`): always ends in
`panic`. -/
def sataDisable (e : Env) (master : Bytes) (w : W) : Out :=
  if w.sec = .sec4 then
    if (unlockDevice e master true w).1 = 0 then
      .panic (disablePassword e master true (unlockDevice e master true w).2).2
    else .panic (unlockDevice e master true w).2
  else .panic w

end Verif.Lock
