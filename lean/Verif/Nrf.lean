import Verif.Flash

/-!
# Two cores of the nRF5340

`/repo/hal/nrf5340.c` is built twice: for the application core, which has the update for the network core in its flash, and for the
network core. The two bootloaders run at the same time; they exchange state and image in shared memory, and each can raise an event
(IPC) of the other. Here every access to the shared memory is one step, and the steps of the cores alternate in any way (sequentially
consistent memory). A wait may end with a timeout at any time. Not modelled: printing, the clocks, the flash of the application core,
what the bootloader of the network core does with the image (it may write anything to the shared data).
-/

namespace Verif.Nrf

open Verif

/-- `SHARED_STATUS_READY`, `/repo/hal/nrf5340.c:77`. -/
def READY : BitVec 32 := 0x01#32
/-- `SHARED_STATUS_VERSION`, `/repo/hal/nrf5340.c:78`. -/
def VERSION : BitVec 32 := 0x02#32
/-- `SHARED_STATUS_UPDATE_START`, `/repo/hal/nrf5340.c:79`. -/
def START : BitVec 32 := 0x04#32
/-- `SHARED_STATUS_UPDATE_DONE`, `/repo/hal/nrf5340.c:80`. -/
def DONE : BitVec 32 := 0x08#32
/-- `SHARED_STATUS_DO_BOOT`, `/repo/hal/nrf5340.c:81`. -/
def BOOT : BitVec 32 := 0x10#32
/-- `SHARED_STATUS_TIMEOUT`, `/repo/hal/nrf5340.c:82`. -/
def TIMEOUT : BitVec 32 := 0x80#32

/-- `ShmInfo_t`, `/repo/hal/nrf5340.c:86-91`; `magic`: the field has the value `SHAREM_MEM_MAGIC`. -/
structure Info where
  magic : Bool
  status : BitVec 32
  version : Nat
  size : Nat
deriving DecidableEq

/-- The test of `hal_shm_status_wait`, `/repo/hal/nrf5340.c:485`. -/
def bits (x m : BitVec 32) : Bool := decide (x &&& m ≠ 0#32)

/-- What the cores find in their flash, and how the application core is built. `found`: `hal_net_get_image` of the application core
succeeds, `/repo/hal/nrf5340.c:415-451`; `valid`: integrity and authenticity; `img`: the bytes that are copied; `netVer`, `netSize`: the
image of the network core, 0 if there is none; `readOk`: the image can be read from external flash; `newVer`: the version of the network
core after its update. -/
structure Env where
  sync : Bool
  found : Bool
  valid : Bool
  appVer : Nat
  appSize : Nat
  img : Mem
  netVer : Nat
  netSize : Nat
  readOk : Bool
  newVer : Nat

/-- Places in the application core, `hal_net_check_version`, `/repo/hal/nrf5340.c:555-635`, and `hal_prepare_boot`, 733-765. `…Chk`, `…Read`,
`…Await` are the places in `hal_shm_status_wait`, 476-507; `…Ev`, `…Magic`, `…Stat` those in `hal_shm_status_set`, 467-474. -/
inductive APc where
  | getImg | release | sig | sigWait
  | verChk | verRead | verAwait
  | decide | verify | load | fill
  | stEv | stMagic | stStat
  | dnChk | dnRead | dnAwait
  | btEv | btMagic | btStat
  | syChk | syRead | syAwait
  | ended
deriving DecidableEq

/-- Places in the network core, `hal_net_check_version`, `/repo/hal/nrf5340.c:636-674`, and `hal_prepare_boot`, 733-765; `off`: the core is
held, `hal_net_core`, 380-396; `work`: the bootloader between them. -/
inductive NPc where
  | off | init | sig | sigWait
  | rdEv | rdMagic | rdStat
  | getImg
  | vsEv | vsMagic | vsStat
  | chk | read | await | branch
  | work
  | fiEv | fiMagic | fiStat
  | ended
deriving DecidableEq

/-- The state. `evA`, `evN`: events of the application and the network core; `aShm`, `nShm`: `enableShm`; `nUpd`: `doUpdateNet` of the network
core; `got`: the result of the wait of the network core. `seen` is no variable of the program: the shared data when the network core
decides to update. -/
structure S where
  apc : APc := .getImg
  npc : NPc := .off
  app : Info
  net : Info
  data : Mem
  evA : Bool := false
  evN : Bool := false
  aShm : Bool := false
  nShm : Bool := false
  nUpd : Bool := false
  got : BitVec 32 := 0#32
  seen : Option Mem := none

/-- The image in shared memory, the rest erased, `/repo/hal/nrf5340.c:598-608`. -/
def padded (e : Env) : Mem := fun i => if i < e.appSize then e.img i else 0xFF#8

/-- A step of the application core; `t`: a wait ends with a timeout; `junk`: what is in shared memory while the image is copied. -/
def appStep (e : Env) (t : Bool) (junk : Mem) (s : S) : S :=
  match s.apc with
  -- /repo/hal/nrf5340.c:563,415-451
  | .getImg => if e.found then { s with apc := .release, app := { s.app with version := e.appVer, size := e.appSize } }
               else { s with apc := .release, app := { s.app with version := 0 } }
  -- /repo/hal/nrf5340.c:566
  | .release => { s with apc := .sig, npc := if s.npc = .off then .init else s.npc }
  -- /repo/hal/nrf5340.c:546
  | .sig => { s with apc := .sigWait, evN := true }
  -- /repo/hal/nrf5340.c:547-552,572-582
  | .sigWait => if s.evA then { s with apc := .verChk, evA := false, aShm := true }
                else if t then { s with apc := .btEv } else { s with apc := .sig }
  -- /repo/hal/nrf5340.c:577-578
  | .verChk => if s.net.magic && bits s.net.status VERSION then { s with apc := .verRead } else { s with apc := .verAwait }
  | .verRead => { s with apc := .decide }
  | .verAwait => if t then { s with apc := .decide } else if s.evA then { s with apc := .verChk, evA := false } else s
  -- /repo/hal/nrf5340.c:585
  | .decide => if s.app.version ≤ s.net.version then { s with apc := .btEv } else { s with apc := .verify }
  -- /repo/hal/nrf5340.c:594-596
  | .verify => if e.valid then { s with apc := .load } else { s with apc := .btEv }
  -- /repo/hal/nrf5340.c:599-605, not finished
  | .load => if t then { s with data := junk } else { s with apc := .fill, data := junk }
  -- /repo/hal/nrf5340.c:606-609
  | .fill => { s with apc := if e.readOk then .stEv else .btEv, data := padded e }
  -- /repo/hal/nrf5340.c:613
  | .stEv => { s with apc := .stMagic, evN := true }
  | .stMagic => { s with apc := .stStat, app := { s.app with magic := true } }
  | .stStat => { s with apc := if e.sync then .btEv else .dnChk, app := { s.app with status := START } }
  -- /repo/hal/nrf5340.c:619-620
  | .dnChk => if s.net.magic && bits s.net.status DONE then { s with apc := .dnRead } else { s with apc := .dnAwait }
  | .dnRead => { s with apc := .btEv }
  | .dnAwait => if t then { s with apc := .btEv } else if s.evA then { s with apc := .dnChk, evA := false } else s
  -- /repo/hal/nrf5340.c:635
  | .btEv => { s with apc := .btMagic, evN := true }
  | .btMagic => { s with apc := .btStat, app := { s.app with magic := true } }
  | .btStat => { s with apc := if e.sync && s.aShm then .syChk else .ended, app := { s.app with status := BOOT } }
  -- /repo/hal/nrf5340.c:754-761
  | .syChk => if s.net.magic && bits s.net.status (DONE ||| BOOT) then { s with apc := .syRead } else { s with apc := .syAwait }
  | .syRead => { s with apc := .ended }
  | .syAwait => if t then { s with apc := .ended } else if s.evA then { s with apc := .syChk, evA := false } else s
  | .ended => s

/-- A step of the network core; `junk`: what the bootloader of the network core leaves in the shared data. Without `enableShm` the status goes to a
variable of its own. -/
def netStep (e : Env) (t : Bool) (junk : Mem) (s : S) : S :=
  match s.npc with
  | .off => s
  -- /repo/hal/nrf5340.c:458
  | .init => { s with npc := .sig, evN := false }
  -- /repo/hal/nrf5340.c:638,546
  | .sig => { s with npc := .sigWait, evA := true }
  -- /repo/hal/nrf5340.c:547-552,639-646
  | .sigWait => if s.evN then { s with npc := .rdEv, evN := false, nShm := true }
                else if t then { s with npc := .rdEv } else { s with npc := .sig }
  -- /repo/hal/nrf5340.c:649
  | .rdEv => { s with npc := if s.nShm then .rdMagic else .work, evA := true }
  | .rdMagic => { s with npc := .rdStat, net := { s.net with magic := true } }
  | .rdStat => { s with npc := .getImg, net := { s.net with status := READY } }
  -- /repo/hal/nrf5340.c:654
  | .getImg => { s with npc := .vsEv, net := { s.net with version := e.netVer, size := e.netSize } }
  -- /repo/hal/nrf5340.c:655
  | .vsEv => { s with npc := .vsMagic, evA := true }
  | .vsMagic => { s with npc := .vsStat, net := { s.net with magic := true } }
  | .vsStat => { s with npc := .chk, net := { s.net with status := VERSION } }
  -- /repo/hal/nrf5340.c:659-660
  | .chk => if s.app.magic && bits s.app.status (START ||| BOOT) then { s with npc := .read } else { s with npc := .await }
  | .read => { s with npc := .branch, got := s.app.status }
  | .await => if t then { s with npc := .branch, got := TIMEOUT } else if s.evN then { s with npc := .chk, evN := false } else s
  -- /repo/hal/nrf5340.c:663-671
  | .branch => if s.got = START then { s with npc := .work, nUpd := true, seen := some s.data } else { s with npc := .work }
  -- between hal_init and hal_prepare_boot; /repo/hal/nrf5340.c:744
  | .work => if s.nShm then (if t then { s with data := junk }
                             else { s with npc := .fiEv, net := { s.net with version := if s.nUpd then e.newVer else s.net.version } })
             else { s with npc := .ended }
  -- /repo/hal/nrf5340.c:738-751
  | .fiEv => { s with npc := .fiMagic, evA := true }
  | .fiMagic => { s with npc := .fiStat, net := { s.net with magic := true } }
  | .fiStat => { s with npc := .ended, net := { s.net with status := if s.nUpd then DONE else BOOT } }
  | .ended => s

/-- Which core makes a step, and how. -/
inductive Act where
  | app (t : Bool) (junk : Mem)
  | net (t : Bool) (junk : Mem)

/-- One step. -/
def step (e : Env) (s : S) : Act → S
  | .app t j => appStep e t j s
  | .net t j => netStep e t j s

/-- Any number of steps. -/
def run (e : Env) : S → List Act → S
  | s, [] => s
  | s, a :: r => run e (step e s a) r

/-- No wait ends with a timeout. -/
def Act.noTimeout : Act → Prop
  | .app t _ => t = false
  | .net t _ => t = false

/-- After reset, with anything in shared memory. -/
def reset (app net : Info) (data : Mem) : S := { app := app, net := net, data := data }

/-- The application core has a valid image that is newer than the one of the network core. -/
def Offer (e : Env) : Prop := e.found = true ∧ e.valid = true ∧ e.readOk = true ∧ e.netVer < e.appVer

/-- Shared memory without leftovers of an earlier run. -/
def Fresh (app net : Info) : Prop :=
  app.status &&& (START ||| BOOT) = 0#32 ∧ net.status &&& (VERSION ||| DONE ||| BOOT) = 0#32

/-- Where an image for the network core can be, `/repo/hal/nrf5340.c:419-433`. -/
inductive Loc where
  | update | alternate
deriving DecidableEq

/-- The place of the image that is opened and verified, `/repo/hal/nrf5340.c:415-451`; `u`, `a`: there is an image for the network core at the place;
`ext`: `EXT_FLASH`. -/
def opened (ext u a : Bool) : Option Loc := if u then some .update else if ext && a then some .alternate else none

/-- The place that is copied to shared memory, `/repo/hal/nrf5340.c:599-605`. -/
def copied (ext : Bool) (o : Loc) : Loc := if ext then .alternate else o

/-- `FLASH_SIZE_NET`, `/repo/hal/nrf5340.h:55`; the size of the shared data, `/repo/hal/nrf5340.c:103`. -/
def FLASH_SIZE_NET : BitVec 32 := 0x40000#32

/-- The size test of `IMAGE_IS_NET_CORE`, `/repo/hal/nrf5340.c:412-414`. -/
def sizeOk (hdr fw : BitVec 32) : Bool := decide (fw < FLASH_SIZE_NET - hdr)

/-- The bytes that are read from external flash, `/repo/hal/nrf5340.c:442,601-602`. -/
def readLen (hdr fw : BitVec 32) : BitVec 32 := (hdr + fw + 3#32) &&& ~~~3#32

/-- `SPU_BLOCK_SIZE`, `/repo/hal/nrf5340.h:107`. -/
def SPU_BLOCK_SIZE : BitVec 32 := 0x4000#32

/-- `hal_flash_protect`, `/repo/hal/nrf5340.c:704-731`: the first region and how many are protected; `fl`: `FLASH_SIZE`. -/
def protect (fl start len : BitVec 32) : Option (BitVec 32 × BitVec 32) :=
  if fl < start then none
  else
    let len := if fl < start + len then fl - start else len
    some (start / SPU_BLOCK_SIZE, len / SPU_BLOCK_SIZE)

end Verif.Nrf
