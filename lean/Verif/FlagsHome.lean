import Verif.UpdateSpec

/-!
# Update with the flags of UPDATE in BOOT

Model of `/repo/src/update_flash.c` and of the flags of `/repo/src/libwolfboot.c`, build with `FLAGS_HOME`: the flags of UPDATE (magic, state, flags of the
sectors) are kept in the last sector of BOOT, below those of BOOT (`/repo/src/libwolfboot.c:145-156`). Otherwise the build of `Verif.Swap`. Copies of
sectors, sizes and checks of images are those of `Verif.Swap`.
-/

namespace Verif

namespace Fho

/-- Offset in BOOT of the cell `at_` of the flags of a partition, `ENDFLAGS - (4 + at)`: `PART_UPDATE_ENDFLAGS` is `PART_BOOT_ENDFLAGS - 8`,
`/repo/src/libwolfboot.c:140,155,416,437`. -/
def cellAt (k : Cfg) (p : Part) (at_ : Nat) : Nat := k.part - (if p = .update then 8 else 0) - (4 + at_)

/-- `*get_partition_magic(part) == WOLFBOOT_MAGIC_TRAIL`, `/repo/src/libwolfboot.c:399-441,536-539`. -/
def hasMagic (k : Cfg) (f : Flash) (p : Part) : Prop := le32 (f .boot) (cellAt k p 0) = MAGIC_TRAIL

instance (k f p) : Decidable (hasMagic k f p) := inferInstanceAs (Decidable (_ = _))

/-- `wolfBoot_get_partition_state`, `/repo/src/libwolfboot.c:644-656`. -/
def getState (k : Cfg) (f : Flash) (p : Part) : Option Byte := if hasMagic k f p then some (f .boot (cellAt k p 1)) else none

/-- `wolfBoot_get_update_sector_flag`, `/repo/src/libwolfboot.c:670-684`. -/
def getFlag (k : Cfg) (f : Flash) (sector : Nat) : Option Byte :=
  if hasMagic k f .update then some (nibbleOf sector (f .boot (cellAt k .update (2 + flagPos sector)))) else none

/-- Write of the magic, if missing, `/repo/src/libwolfboot.c:353-354,496-522,595-597,621-623`. -/
def ensureMagic (k : Cfg) (p : Part) : M Unit := do
  let f ← readFlash
  if hasMagic k f p then pure () else program k .boot (cellAt k p 0) 4 magicByte

/-- `wolfBoot_set_partition_state`, `/repo/src/libwolfboot.c:589-602`. -/
def setState (k : Cfg) (p : Part) (st : Byte) : M Unit := do
  ensureMagic k p
  let f ← readFlash
  if f .boot (cellAt k p 1) ≠ st then program k .boot (cellAt k p 1) 1 (fun _ => st) else pure ()

/-- `wolfBoot_set_update_sector_flag`, `/repo/src/libwolfboot.c:613-633`. -/
def setFlag (k : Cfg) (sector : Nat) (newflag : Byte) : M Unit := do
  ensureMagic k .update
  let f ← readFlash
  let old := f .boot (cellAt k .update (2 + flagPos sector))
  let v := flagByte sector old newflag
  if v ≠ old then program k .boot (cellAt k .update (2 + flagPos sector)) 1 (fun _ => v) else pure ()

/-- `/repo/src/update_flash.c:289-294`. -/
def finalSave (k : Cfg) (bootFw : Nat) (updateState : Byte) : M Unit :=
  if updateState ≠ ST_FINAL then do
    copySector k .boot bootFw .swap (k.tmp / k.ss)
    setState k .update ST_FINAL
  else pure ()

/-- `wolfBoot_swap_and_final_erase(resume)`, `/repo/src/update_flash.c:241-336`. Returns `true` for return value 0. -/
def swapFinal (k : Cfg) (e : Env) (resume : Bool) : M Bool := do
  let f ← readFlash
  -- 258
  let bootFw := fwSize k (f .boot)
  -- 261
  let updateState := (getState k f .update).getD e.junk
  -- 273-281
  if resume = true ∧ le32 (f .boot) k.tmp ≠ MAGIC_TRAIL ∧ updateState ≠ ST_FINAL then
    pure false
  else do
    unlock
    finalSave k bootFw updateState
    -- 308
    erase k .boot k.last k.ss
    finalRestore k bootFw
    -- 325
    setState k .boot ST_TESTING
    -- 328
    erase k .update k.last k.ss
    lock
    pure true

/-- `/repo/src/update_flash.c:727-728,736-737,745-746`. -/
def markSector (k : Cfg) (sector : Nat) (flag : Byte) : M Unit :=
  if (sector + 1) * k.ss < k.part then setFlag k sector flag else pure ()

/-- `case SECT_FLAG_BACKUP`, `/repo/src/update_flash.c:739-747`. -/
def doBackup (k : Cfg) (sector : Nat) : M Unit := do
  copySector k .swap k.ss .boot sector
  markSector k sector FL_UPDATED

/-- `case SECT_FLAG_SWAPPING`, `/repo/src/update_flash.c:730-738`, falling through. -/
def doSwapping (k : Cfg) (bootFw : Nat) (sector : Nat) : M Unit := do
  copySector k .boot bootFw .update sector
  markSector k sector FL_BACKUP
  doBackup k sector

/-- `case SECT_FLAG_NEW`, `/repo/src/update_flash.c:724-729`, falling through. -/
def doNew (k : Cfg) (bootFw updFw : Nat) (sector : Nat) : M Unit := do
  copySector k .update updFw .swap sector
  markSector k sector FL_SWAPPING
  doSwapping k bootFw sector

/-- The `switch` in the swap loop, `/repo/src/update_flash.c:721-752`. -/
def swapSector (k : Cfg) (bootFw updFw : Nat) (sector : Nat) : M Unit := do
  let f ← readFlash
  let flag := (getFlag k f sector).getD FL_NEW
  if flag = FL_NEW then doNew k bootFw updFw sector
  else if flag = FL_SWAPPING then doSwapping k bootFw sector
  else if flag = FL_BACKUP then doBackup k sector
  else pure ()

/-- The swap loop, `/repo/src/update_flash.c:720-771`. Returns the final sector number. -/
def swapLoop (k : Cfg) : Nat → (bootFw updFw total sector : Nat) → M Nat
  | 0, _, _, _, _ => stuckM
  | fuel + 1, bootFw, updFw, total, sector =>
    if sector * k.ss < total then do
      swapSector k bootFw updFw sector
      let sector := sector + 1
      if sector = 1 then
        let f ← readFlash
        let b := fwSize k (f .update)
        let u := fwSize k (f .boot)
        swapLoop k fuel b u (totalSize k b u) sector
      else swapLoop k fuel bootFw updFw total sector
    else pure sector

/-- `wolfBoot_update(fallback_allowed)`, `/repo/src/update_flash.c:580-875`. Returns `true` for 0, `false` for -1. -/
def wbUpdate (k : Cfg) (e : Env) (fallback : Bool) : M Bool := do
  let f ← readFlash
  let updFw := fwSize k (f .update)
  let bootFw := fwSize k (f .boot)
  -- 610-613
  if totalSize k bootFw updFw ≤ k.h then pure false
  -- 620-642
  else if (getFlag k f 0).getD FL_NEW = FL_NEW ∧ ¬ acceptable k e (f .update) then pure false
  -- 645-664
  else if (getFlag k f 0).getD FL_NEW = FL_NEW ∧ ¬ (fallback = true ∨ e.ver (f .boot) < e.ver (f .update)) then pure false
  else do
    unlock
    let sector ← swapLoop k (k.n + 2) bootFw updFw (totalSize k bootFw updFw) 0
    eraseRest k (k.n + 2) sector
    lock
    let _ ← swapFinal k e false
    pure true

/-- Resume an interrupted update, roll back, or start a new one, `/repo/src/update_flash.c:1017-1045`. -/
def startUpdate (k : Cfg) (e : Env) : M Unit := do
  let f ← readFlash
  let resumed ← swapFinal k e true
  if resumed = true then pure ()
  else if getState k f .boot = some ST_TESTING then do
    let _ ← wbUpdate k e true
    pure ()
  else if getState k f .update = some ST_UPDATING then do
    let _ ← wbUpdate k e false
    pure ()
  else pure ()

/-- Second attempt after an emergency update, `/repo/src/update_flash.c:1054-1082`. -/
def emergency (k : Cfg) (e : Env) : M Unit := do
  let r ← wbUpdate k e true
  if r = false then panicM
  else do
    let f ← readFlash
    if bootable k e (f .boot) then tick else panicM

/-- `wolfBoot_start`, `/repo/src/update_flash.c:987-1112`. Returning (`Res.ok`) is `do_boot` of the firmware in BOOT. -/
def start (k : Cfg) (e : Env) : M Unit := do
  startUpdate k e
  let f ← readFlash
  if bootable k e (f .boot) then tick else emergency k e

/-- `wolfBoot_update_trigger`, `/repo/src/libwolfboot.c:735-781`: the erase of `SECTOR_FLAGS_SIZE` bytes is in BOOT. `whole`: the HAL rounds it up to the
sector. -/
def updateTrigger (k : Cfg) (whole : Bool) : M Unit := do
  unlock
  erase k .boot k.last (if whole then k.ss else k.ss - 5)
  setState k .update ST_UPDATING
  lock

/-! ### Specification -/

/-- `Old` is installed, `New` is in UPDATE and its installation has been requested. -/
structure Pending (k : Cfg) (Old New : Mem) (f : Flash) : Prop where
  old : Holds k f .boot Old
  new : Holds k f .update New
  state : getState k f .update = some ST_UPDATING
  flags : ∀ j, j < k.n - 1 → getFlag k f j = some FL_NEW
  quiet : Quiet k f

/-- `New` is installed, to be confirmed; `Old` is in UPDATE; the flags of UPDATE are erased. -/
structure Updated (k : Cfg) (New Old : Mem) (f : Flash) : Prop where
  new : Holds k f .boot New
  old : Holds k f .update Old
  state : getState k f .boot = some ST_TESTING
  erased : ∀ x, k.part - k.ss ≤ x → x < k.part - 8 → f .boot x = 0xFF#8
  quiet : Quiet k f

/-- The flash tells that an installation is under way or has to be confirmed. -/
def Recorded (k : Cfg) (f : Flash) : Prop := getState k f .update ≠ none ∨ getState k f .boot = some ST_TESTING

instance (k f) : Decidable (Recorded k f) := inferInstanceAs (Decidable (_ ∨ _))

/-- The arbitrary bytes left by a torn operation do not happen to be the magic word at `tmpBootPos` or at the end of the flags of BOOT or UPDATE. -/
def TornOK (k : Cfg) (t : Mem) : Prop :=
  le32 t k.tmp ≠ MAGIC_TRAIL ∧ le32 t (k.part - 12) ≠ MAGIC_TRAIL ∧ le32 t (k.part - 4) ≠ MAGIC_TRAIL

/-- A reboot during which the power does not fail. -/
def bootUp (k : Cfg) (e : Env) (f : Flash) : Res Unit :=
  start k e { fl := f, locked := true, budget := none, torn := fun _ => 0#8 }

/-- A reboot during which the power fails at flash operation number `n`, leaving `t` behind. -/
def bootFail (k : Cfg) (e : Env) (f : Flash) (n : Nat) (t : Mem) : Res Unit :=
  start k e { fl := f, locked := true, budget := some n, torn := t }

/-- `g` is reached from `f` by any number of reboots, each of them ended by a power failure; the flash contents after each of them satisfy `P`. -/
inductive Interrupted (k : Cfg) (e : Env) (P : Flash → Prop) (f : Flash) : Flash → Prop
  | none : Interrupted k e P f f
  | again {g g' : Flash} {n : Nat} {t : Mem} : Interrupted k e P f g → TornOK k t → bootFail k e g n t = .crash g' → P g' → Interrupted k e P f g'

end Fho

end Verif
