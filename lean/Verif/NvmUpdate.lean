import Verif.Swap
import Verif.Nvm

/-!
# Three-way swap update on write-once flash

Model of `/repo/src/update_flash.c` and of the flags of `/repo/src/libwolfboot.c`, build with `NVM_FLASH_WRITEONCE`: the flags of BOOT and UPDATE are kept
in the last two sectors of the partition (`Verif.Nvm`), an image ends in front of them. Otherwise the build of `Verif.Swap`: internal flash, no
`DELTA_UPDATES`, `EXT_ENCRYPTED`, `DISABLE_BACKUP`, `FLAGS_HOME`, `FLAGS_INVERT`, `WOLFBOOT_FLASH_MULTI_SECTOR_ERASE`.

A power failure can hit during any operation on the flash. What a torn operation leaves behind: in the data area arbitrary bytes (`erase`, `program` of
`Verif.Flash`); in a sector of the flags see `tornFlags`.
-/

namespace Verif

namespace Nvu

/-- The two sectors of the flags of BOOT or UPDATE, as offsets in the partition: `PART_BOOT_ENDFLAGS`, `PART_UPDATE_ENDFLAGS` are the end of the
partition, `/repo/src/libwolfboot.c:140,159`. The sector is written in units of `FLASHBUFFER_SIZE` (307-312). -/
def nv (k : Cfg) : NvCfg := { ss := k.ss, u := k.fb, a := (k.n - 1) * k.ss, e := k.ss, er := 0xFF#8, inv := false }

/-- Effect of an operation on the flags of a partition. -/
def opFlags (k : Cfg) (p : Part) (op : NvOp) (f : Flash) : Flash := fun q => if q = p then (nv k).apply (f q) op else f q

/-- What a power failure during an operation on the flags of a partition leaves behind. Erase: arbitrary bytes in the sector, but the erase of a sector of
UPDATE is not torn (as in `Flash.tornErase`). Write: every bit of the unit that should have been cleared is or is not cleared, but a unit with bytes of
the magic is not torn (as in `NvCfg.Torn`). -/
def tornFlags (k : Cfg) (p : Part) (op : NvOp) (t : Mem) (f : Flash) : Flash :=
  match op with
  | .erase b => if p = .update then f else fun q a => if q = p ∧ (nv k).base b ≤ a ∧ a < (nv k).base b + k.ss then t a else f q a
  | .write b j d =>
    if (j + 1) * k.fb ≤ k.ss - 4 then
      fun q a => if q = p ∧ (nv k).base b + j * k.fb ≤ a ∧ a < (nv k).base b + j * k.fb + k.fb then f q a &&& (d (a - (nv k).base b) ||| t a) else f q a
    else f

/-- The operation writes to a unit that is not erased, `/repo/hal/sim.c:172-179`. -/
def dirty (k : Cfg) (p : Part) (op : NvOp) (f : Flash) : Prop :=
  match op with
  | .erase _ => False
  | .write b j _ => ¬ (nv k).blank (f p) b j

instance (k p op f) : Decidable (dirty k p op f) := by
  unfold dirty
  cases op <;> infer_instance

/-- `hal_flash_erase` of a sector or `hal_flash_write` of a unit of the flags, `/repo/src/libwolfboot.c:274,306-317`. -/
def flagOp (k : Cfg) (p : Part) (op : NvOp) : M Unit := fun w =>
  if w.locked = false ∧ dirty k p op w.fl then .fault w.fl else flashOp (fun _ f => opFlags k p op f) (fun t f => tornFlags k p op t f) w

/-- A sequence of operations on the flags. -/
def flagOps (k : Cfg) (p : Part) : List NvOp → M Unit
  | [] => pure ()
  | op :: ops => do
    flagOp k p op
    flagOps k p ops

/-- `nvm_select_fresh_sector`, `/repo/src/libwolfboot.c:192-278`, called by every read of the flags; the erase has no effect while the flash is locked. -/
def choose (k : Cfg) (p : Part) : M Unit := do
  let f ← readFlash
  flagOps k p ((nv k).selOps false (f p))

/-- `*get_partition_magic(part) == WOLFBOOT_MAGIC_TRAIL`, `/repo/src/libwolfboot.c:399-441,536-539`. -/
def getMagic (k : Cfg) (p : Part) : M Bool := do
  choose k p
  let f ← readFlash
  pure (decide ((nv k).magic (f p) ((nv k).select (f p))))

/-- `*get_trailer_at(part, at)`, `/repo/src/libwolfboot.c:399-441`. -/
def getCell (k : Cfg) (p : Part) (at_ : Nat) : M Byte := do
  choose k p
  let f ← readFlash
  pure ((nv k).get (f p) at_)

/-- `wolfBoot_get_partition_state`, `/repo/src/libwolfboot.c:644-656`. -/
def getState (k : Cfg) (p : Part) : M (Option Byte) := do
  let m ← getMagic k p
  if m = true then do
    let st ← getCell k p 1
    pure (some st)
  else pure none

/-- `wolfBoot_get_update_sector_flag`, `/repo/src/libwolfboot.c:670-684`. -/
def getFlag (k : Cfg) (sector : Nat) : M (Option Byte) := do
  let m ← getMagic k .update
  if m = true then do
    let b ← getCell k .update (2 + flagPos sector)
    pure (some (nibbleOf sector b))
  else pure none

/-- `set_partition_magic` if the magic is missing, `/repo/src/libwolfboot.c:333-349,496-522,595-597,621-623`. -/
def ensureMagic (k : Cfg) (p : Part) : M Unit := do
  let m ← getMagic k p
  if m = true then pure ()
  else do
    let f ← readFlash
    flagOps k p ((nv k).magicOps (f p))

/-- `set_trailer_at`, `/repo/src/libwolfboot.c:290-322,453-487`. -/
def setCell (k : Cfg) (p : Part) (at_ : Nat) (v : Byte) : M Unit := do
  let f ← readFlash
  flagOps k p ((nv k).setOps (f p) at_ v)

/-- `wolfBoot_set_partition_state`, `/repo/src/libwolfboot.c:589-602`. -/
def setState (k : Cfg) (p : Part) (st : Byte) : M Unit := do
  ensureMagic k p
  let old ← getCell k p 1
  if old ≠ st then setCell k p 1 st else pure ()

/-- `wolfBoot_set_update_sector_flag`, `/repo/src/libwolfboot.c:613-633`. -/
def setFlag (k : Cfg) (sector : Nat) (newflag : Byte) : M Unit := do
  ensureMagic k .update
  let old ← getCell k .update (2 + flagPos sector)
  let v := flagByte sector old newflag
  if v ≠ old then setCell k .update (2 + flagPos sector) v else pure ()

/-- `wb_flash_erase(img, WOLFBOOT_PARTITION_SIZE - eraseLen, eraseLen)` with `eraseLen` of two sectors, in ascending order,
`/repo/src/update_flash.c:247-251,308,328`. -/
def eraseFlags (k : Cfg) (p : Part) : M Unit := do
  flagOp k p (.erase true)
  flagOp k p (.erase false)

/-- `tmpBootPos`, `/repo/src/update_flash.c:247-254`. -/
def tmp (k : Cfg) : Nat := k.part - 2 * k.ss - k.ss

/-- `/repo/src/update_flash.c:289-294`. -/
def finalSave (k : Cfg) (bootFw : Nat) (updateState : Byte) : M Unit :=
  if updateState ≠ ST_FINAL then do
    copySector k .boot bootFw .swap (tmp k / k.ss)
    setState k .update ST_FINAL
  else pure ()

/-- `/repo/src/update_flash.c:317-322`. -/
def finalRestore (k : Cfg) (bootFw : Nat) : M Unit :=
  if tmp k < bootFw + k.h then copySector k .swap k.ss .boot (tmp k / k.ss)
  else erase k .boot (tmp k) k.ss

/-- `wolfBoot_swap_and_final_erase(resume)`, `/repo/src/update_flash.c:241-336`. Returns `true` for return value 0. -/
def swapFinal (k : Cfg) (e : Env) (resume : Bool) : M Bool := do
  let f ← readFlash
  -- 258
  let bootFw := fwSize k (f .boot)
  -- 261
  let st ← getState k .update
  let updateState := st.getD e.junk
  -- 268
  let f ← readFlash
  -- 273-281
  if resume = true ∧ le32 (f .boot) (tmp k) ≠ MAGIC_TRAIL ∧ updateState ≠ ST_FINAL then
    pure false
  else do
    unlock
    finalSave k bootFw updateState
    -- 308
    eraseFlags k .boot
    finalRestore k bootFw
    -- 325
    setState k .boot ST_TESTING
    -- 328
    eraseFlags k .update
    lock
    pure true

/-- `MAX_UPDATE_SIZE`, `/repo/src/update_flash.c:563-564`. -/
def maxUpdateSize (k : Cfg) : Nat := k.part - 2 * k.ss

/-- `/repo/src/update_flash.c:727-728,736-737,745-746`. -/
def markSector (k : Cfg) (sector : Nat) (flag : Byte) : M Unit :=
  if (sector + 1) * k.ss < k.part then setFlag k sector flag else pure ()

/-- `case SECT_FLAG_BACKUP`, `/repo/src/update_flash.c:739-747`. -/
def doBackup (k : Cfg) (sector : Nat) : M Unit := do
  copySector k .swap k.ss .boot sector
  markSector k sector FL_UPDATED

/-- `case SECT_FLAG_SWAPPING`, `/repo/src/update_flash.c:730-738`, falling through. -/
def doSwapping (k : Cfg) (bootFw : Nat) (sector : Nat) : M Unit := do
  copySector k .boot bootFw .update sector
  markSector k sector FL_BACKUP
  doBackup k sector

/-- `case SECT_FLAG_NEW`, `/repo/src/update_flash.c:724-729`, falling through. -/
def doNew (k : Cfg) (bootFw updFw : Nat) (sector : Nat) : M Unit := do
  copySector k .update updFw .swap sector
  markSector k sector FL_SWAPPING
  doSwapping k bootFw sector

/-- The `switch` in the swap loop, `/repo/src/update_flash.c:721-752`. -/
def swapSector (k : Cfg) (bootFw updFw : Nat) (sector : Nat) : M Unit := do
  let fl ← getFlag k sector
  let flag := fl.getD FL_NEW
  if flag = FL_NEW then doNew k bootFw updFw sector
  else if flag = FL_SWAPPING then doSwapping k bootFw sector
  else if flag = FL_BACKUP then doBackup k sector
  else pure ()

/-- The swap loop, `/repo/src/update_flash.c:720-771`. Returns the final sector number. -/
def swapLoop (k : Cfg) : Nat → (bootFw updFw total sector : Nat) → M Nat
  | 0, _, _, _, _ => stuckM
  | fuel + 1, bootFw, updFw, total, sector =>
    if sector * k.ss < total then do
      swapSector k bootFw updFw sector
      let sector := sector + 1
      if sector = 1 then
        let f ← readFlash
        let b := fwSize k (f .update)
        let u := fwSize k (f .boot)
        swapLoop k fuel b u (totalSize k b u) sector
      else swapLoop k fuel bootFw updFw total sector
    else pure sector

/-- Erase of the remaining sectors, `/repo/src/update_flash.c:794-805`. -/
def eraseRest (k : Cfg) : Nat → Nat → M Unit
  | 0, _ => stuckM
  | fuel + 1, sector =>
    if sector * k.ss < k.part - k.ss * 2 then do
      erase k .boot (sector * k.ss) k.ss
      erase k .update (sector * k.ss) k.ss
      eraseRest k fuel (sector + 1)
    else pure ()

/-- Checks of a new update except for the version, `/repo/src/update_flash.c:624-642`. -/
def acceptable (k : Cfg) (e : Env) (u : Mem) : Prop :=
  typeOK e.authType (e.typ u) ∧ ¬ (fwSize k u > maxUpdateSize k - 1) ∧ e.integ u = true ∧ e.auth u = true

instance (k e u) : Decidable (acceptable k e u) := inferInstanceAs (Decidable (_ ∧ _ ∧ _ ∧ _))

/-- `wolfBoot_update(fallback_allowed)`, `/repo/src/update_flash.c:580-875`. Returns `true` for 0, `false` for -1. -/
def wbUpdate (k : Cfg) (e : Env) (fallback : Bool) : M Bool := do
  let f ← readFlash
  let updFw := fwSize k (f .update)
  let bootFw := fwSize k (f .boot)
  -- 610-613
  if totalSize k bootFw updFw ≤ k.h then pure false
  else do
    -- 620
    let fl ← getFlag k 0
    let f ← readFlash
    -- 622-642
    if fl.getD FL_NEW = FL_NEW ∧ ¬ acceptable k e (f .update) then pure false
    -- 645-664
    else if fl.getD FL_NEW = FL_NEW ∧ ¬ (fallback = true ∨ e.ver (f .boot) < e.ver (f .update)) then pure false
    else do
      unlock
      let sector ← swapLoop k (k.n + 2) bootFw updFw (totalSize k bootFw updFw) 0
      eraseRest k (k.n + 2) sector
      lock
      let _ ← swapFinal k e false
      pure true

/-- Resume an interrupted update, roll back, or start a new one, `/repo/src/update_flash.c:1024-1045`. -/
def startUpdate (k : Cfg) (e : Env) (bootState updateState : Option Byte) : M Unit := do
  let resumed ← swapFinal k e true
  if resumed = true then pure ()
  else if bootState = some ST_TESTING then do
    let _ ← wbUpdate k e true
    pure ()
  else if updateState = some ST_UPDATING then do
    let _ ← wbUpdate k e false
    pure ()
  else pure ()

/-- Second attempt after an emergency update, `/repo/src/update_flash.c:1054-1082`. -/
def emergency (k : Cfg) (e : Env) : M Unit := do
  let r ← wbUpdate k e true
  if r = false then panicM
  else do
    let f ← readFlash
    if bootable k e (f .boot) then tick else panicM

/-- `wolfBoot_start` after line 1023, `/repo/src/update_flash.c:1024-1112`. -/
def startTail (k : Cfg) (e : Env) (bootState updateState : Option Byte) : M Unit := do
  startUpdate k e bootState updateState
  let f ← readFlash
  if bootable k e (f .boot) then tick else emergency k e

/-- `wolfBoot_start`, `/repo/src/update_flash.c:987-1112`. The flash is unlocked while the states are read, so that the sector that is not selected can be
erased (1006-1023). Returning (`Res.ok`) is `do_boot` of the firmware in BOOT. -/
def start (k : Cfg) (e : Env) : M Unit := do
  unlock
  let bootState ← getState k .boot
  let updateState ← getState k .update
  lock
  startTail k e bootState updateState

/-! ### Specification -/

/-- The state of a partition, as read from the flash by `wolfBoot_get_partition_state`. -/
def stateOf (k : Cfg) (f : Flash) (p : Part) : Option Byte :=
  if (nv k).magic (f p) ((nv k).select (f p)) then some ((nv k).get (f p) 1) else none

/-- The flag of a sector, as read from the flash by `wolfBoot_get_update_sector_flag`. -/
def flagOf (k : Cfg) (f : Flash) (sector : Nat) : Option Byte :=
  if (nv k).magic (f .update) ((nv k).select (f .update)) then some (nibbleOf sector ((nv k).get (f .update) (2 + flagPos sector))) else none

/-- A correctly signed application image that fits in front of the two sectors of the flags. -/
structure GoodImage (k : Cfg) (e : Env) (X : Mem) : Prop where
  magic : le32 X 0 = MAGIC
  nonempty : 0 < le32 X 4
  fits : k.h + le32 X 4 ≤ k.part - 2 * k.ss
  type : e.typ X % 16 = 1 ∧ e.typ X / 256 % 256 = e.authType
  digest : e.integ X = true
  signature : e.auth X = true
  loc : ∀ m : Mem, (∀ o, o < k.h + le32 X 4 → m o = X o) →
    e.typ m = e.typ X ∧ e.ver m = e.ver X ∧ e.integ m = e.integ X ∧ e.auth m = e.auth X

/-- The partition holds the image. -/
def Has (k : Cfg) (f : Flash) (p : Part) (X : Mem) : Prop := ∀ o, o < k.h + le32 X 4 → f p o = X o

/-- Neither partition contains the word "BOOT" at `tmpBootPos`. -/
def Quiet (k : Cfg) (f : Flash) : Prop :=
  le32 (f .boot) (k.part - 3 * k.ss) ≠ MAGIC_TRAIL ∧ le32 (f .update) (k.part - 3 * k.ss) ≠ MAGIC_TRAIL

/-- `Old` is installed, `New` is in UPDATE and its installation has been requested. -/
structure Pending (k : Cfg) (Old New : Mem) (f : Flash) : Prop where
  old : Has k f .boot Old
  new : Has k f .update New
  state : stateOf k f .update = some ST_UPDATING
  flags : ∀ j, j < k.n - 2 → flagOf k f j = some FL_NEW
  quiet : Quiet k f

/-- `New` is installed, to be confirmed; `Old` is in UPDATE; both sectors of the flags of UPDATE are erased. -/
structure Updated (k : Cfg) (New Old : Mem) (f : Flash) : Prop where
  new : Has k f .boot New
  old : Has k f .update Old
  state : stateOf k f .boot = some ST_TESTING
  erased : ∀ x, k.part - 2 * k.ss ≤ x → x < k.part → f .update x = 0xFF#8
  quiet : Quiet k f

/-- The arbitrary bytes left by a torn operation do not happen to be the magic word at `tmpBootPos` or at the end of one of the two sectors of the
flags. -/
def TornOK (k : Cfg) (t : Mem) : Prop :=
  le32 t (k.part - 3 * k.ss) ≠ MAGIC_TRAIL ∧ le32 t (k.part - k.ss - 4) ≠ MAGIC_TRAIL ∧ le32 t (k.part - 4) ≠ MAGIC_TRAIL

/-- A reboot during which the power does not fail. -/
def bootUp (k : Cfg) (e : Env) (f : Flash) : Res Unit :=
  start k e { fl := f, locked := true, budget := none, torn := fun _ => 0#8 }

/-- A reboot during which the power fails at flash operation number `n`, leaving `t` behind. -/
def bootFail (k : Cfg) (e : Env) (f : Flash) (n : Nat) (t : Mem) : Res Unit :=
  start k e { fl := f, locked := true, budget := some n, torn := t }

/-- `g` is reached from `f` by any number of reboots, each of them ended by a power failure; the flash contents after each of them satisfy `P`. -/
inductive Interrupted (k : Cfg) (e : Env) (P : Flash → Prop) (f : Flash) : Flash → Prop
  | none : Interrupted k e P f f
  | again {g g' : Flash} {n : Nat} {t : Mem} : Interrupted k e P f g → TornOK k t → bootFail k e g n t = .crash g' → P g' → Interrupted k e P f g'

end Nvu

end Verif
