import Verif.InvTrailer

/-!
# Three-way swap update and boot: `/repo/src/update_flash.c`

Build: `WOLFBOOT_FLAGS_INVERT`, internal flash, `WOLFBOOT_FIXED_PARTITIONS`, no `DELTA_UPDATES`, no `EXT_ENCRYPTED`, no
`NVM_FLASH_WRITEONCE`, no `DISABLE_BACKUP`, no `WOLFBOOT_ELF_SCATTERED`, no
`WOLFBOOT_FLASH_MULTI_SECTOR_ERASE`, no `ALLOW_DOWNGRADE`, no `RAM_CODE` self-update.
Sizes and offsets are natural numbers; with `Cfg.WF` no 32-bit computation can wrap
(`fw_size` is clamped to the partition size by `wolfBoot_open_image_address`).
Verification of images is a parameter (`Env`); its model is in `Verif.Image`.
-/

namespace Verif.Inv

/-- `WOLFBOOT_MAGIC` ("WOLF"), `/repo/include/wolfboot/wolfboot.h`. -/
def MAGIC : Nat := 0x464C4F57

/-- Image checks, as functions of the contents of the partition holding the image, and the
value found in uninitialised stack memory (`updateState`, `/repo/src/update_flash.c:246`). -/
structure Env where
  /-- `wolfBoot_get_image_type(part)` -/
  typ : Mem → Nat
  /-- `wolfBoot_get_blob_version` -/
  ver : Mem → Nat
  /-- `wolfBoot_verify_integrity(img) >= 0` for the opened image -/
  integ : Mem → Bool
  /-- `wolfBoot_verify_authenticity(img) >= 0` after a successful integrity check -/
  auth : Mem → Bool
  /-- `HDR_IMG_TYPE_AUTH >> 8`, depends on the configured signature algorithm,
  `/repo/include/wolfboot/wolfboot.h:228-286` -/
  authType : Nat
  /-- uninitialised stack byte -/
  junk : Byte

/-- `img->fw_size` after `wolfBoot_open_image` on BOOT or UPDATE,
`/repo/src/image.c:1144-1184,1220-1282`: 0 if the magic is missing, clamped if too large. -/
def fwSize (c : Cfg) (m : Mem) : Nat :=
  if le32 m 0 ≠ MAGIC then 0
  else if le32 m 4 > c.part - c.h then c.part - c.h else le32 m 4

/-- Return value of `wolfBoot_open_image` is 0. `/repo/src/image.c:1144-1184` -/
def openOK (c : Cfg) (m : Mem) : Prop := le32 m 0 = MAGIC ∧ le32 m 4 ≤ c.part - c.h

instance (c m) : Decidable (openOK c m) := inferInstanceAs (Decidable (_ ∧ _))

/-- Body of the copy loop, `/repo/src/update_flash.c:200-204`.
`fw` is `src->fw_size`, `so`/`do_` the source/destination sector offsets. -/
def copyChunk (c : Cfg) (src : Part) (fw : Nat) (dst : Part) (so do_ pos : Nat) : M Unit :=
  if so + pos < fw + c.h + c.fb then do
    let f ← readFlash
    program c dst (do_ + pos) c.fb (fun i => f src (so + pos + i))
  else pure ()

/-- The `while` loop of `wolfBoot_copy_sector`, `/repo/src/update_flash.c:199-206`. -/
def copyLoop (c : Cfg) (src : Part) (fw : Nat) (dst : Part) (so do_ : Nat) : Nat → Nat → M Unit
  | 0, _ => stuckM
  | fuel + 1, pos =>
    if pos < c.ss then do
      copyChunk c src fw dst so do_ pos
      copyLoop c src fw dst so do_ fuel (pos + c.fb)
    else pure ()

/-- `wolfBoot_copy_sector(src, dst, sector)`, `/repo/src/update_flash.c:136-208` (internal flash).
`src == dst` does not occur. -/
def copySector (c : Cfg) (src : Part) (fw : Nat) (dst : Part) (sector : Nat) : M Unit := do
  let so := if src = .swap then 0 else sector * c.ss
  let do_ := if dst = .swap then 0 else sector * c.ss
  erase c dst do_ c.ss
  copyLoop c src fw dst so do_ (c.ss + 1) 0

/-- Save the BOOT sector at `tmpBootPos` to SWAP and set the re-entry state,
`/repo/src/update_flash.c:289-294`. -/
def finalSave (c : Cfg) (bootFw : Nat) (updateState : Byte) : M Unit :=
  if updateState ≠ ST_FINAL then do
    copySector c .boot bootFw .swap (c.tmp / c.ss)
    setState c .update ST_FINAL
  else pure ()

/-- Restore (or erase) the BOOT sector at `tmpBootPos`, `/repo/src/update_flash.c:317-322`. -/
def finalRestore (c : Cfg) (bootFw : Nat) : M Unit :=
  if c.tmp < bootFw + c.h then copySector c .swap c.ss .boot (c.tmp / c.ss)
  else erase c .boot c.tmp c.ss

/-- `wolfBoot_swap_and_final_erase(resume)`, `/repo/src/update_flash.c:241-336`.
Returns `true` for return value 0. -/
def swapFinal (c : Cfg) (e : Env) (resume : Bool) : M Bool := do
  let f ← readFlash
  -- 258: `wolfBoot_open_image(boot, PART_BOOT)`
  let bootFw := fwSize c (f .boot)
  -- 261: `wolfBoot_get_partition_state(PART_UPDATE, &updateState)` may leave it uninitialised
  let updateState := (getState c f .update).getD e.junk
  -- 273: `swapDone`; 277-281
  if resume = true ∧ le32 (f .boot) c.tmp ≠ MAGIC_TRAIL ∧ updateState ≠ ST_FINAL then
    pure false
  else do
    unlock
    finalSave c bootFw updateState
    -- 308
    erase c .boot c.last c.ss
    finalRestore c bootFw
    -- 325
    setState c .boot ST_TESTING
    -- 328
    erase c .update c.last c.ss
    lock
    pure true

/-- `MAX_UPDATE_SIZE`, `/repo/src/update_flash.c:561-562`. -/
def maxUpdateSize (c : Cfg) : Nat := c.part - c.ss

/-- `wolfBoot_get_total_size`, `/repo/src/update_flash.c:567-578`. -/
def totalSize (c : Cfg) (bootFw updFw : Nat) : Nat :=
  if updFw + c.h > bootFw + c.h then updFw + c.h else bootFw + c.h

/-- Set the flag of a sector, unless it is the last sector of the partition,
`/repo/src/update_flash.c:727-728,736-737,745-746`. -/
def markSector (c : Cfg) (sector : Nat) (flag : Byte) : M Unit :=
  if (sector + 1) * c.ss < c.part then setFlag c sector flag else pure ()

/-- `case SECT_FLAG_BACKUP`, `/repo/src/update_flash.c:739-747`. -/
def doBackup (c : Cfg) (sector : Nat) : M Unit := do
  copySector c .swap c.ss .boot sector
  markSector c sector FL_UPDATED

/-- `case SECT_FLAG_SWAPPING`, `/repo/src/update_flash.c:730-738`, falling through. -/
def doSwapping (c : Cfg) (bootFw : Nat) (sector : Nat) : M Unit := do
  copySector c .boot bootFw .update sector
  markSector c sector FL_BACKUP
  doBackup c sector

/-- `case SECT_FLAG_NEW`, `/repo/src/update_flash.c:724-729`, falling through. -/
def doNew (c : Cfg) (bootFw updFw : Nat) (sector : Nat) : M Unit := do
  copySector c .update updFw .swap sector
  markSector c sector FL_SWAPPING
  doSwapping c bootFw sector

/-- The `switch` in the swap loop, `/repo/src/update_flash.c:721-752`. -/
def swapSector (c : Cfg) (bootFw updFw : Nat) (sector : Nat) : M Unit := do
  let f ← readFlash
  let flag := (getFlag c f sector).getD FL_NEW
  if flag = FL_NEW then doNew c bootFw updFw sector
  else if flag = FL_SWAPPING then doSwapping c bootFw sector
  else if flag = FL_BACKUP then doBackup c sector
  else pure ()

/-- The swap loop, `/repo/src/update_flash.c:720-771`. Returns the final sector number. -/
def swapLoop (c : Cfg) : Nat → (bootFw updFw total sector : Nat) → M Nat
  | 0, _, _, _, _ => stuckM
  | fuel + 1, bootFw, updFw, total, sector =>
    if sector * c.ss < total then do
      swapSector c bootFw updFw sector
      let sector := sector + 1
      if sector = 1 then
        -- 758-769: re-open, exchange the sizes
        let f ← readFlash
        let b := fwSize c (f .update)
        let u := fwSize c (f .boot)
        swapLoop c fuel b u (totalSize c b u) sector
      else swapLoop c fuel bootFw updFw total sector
    else pure sector

/-- Erase of the remaining sectors, `/repo/src/update_flash.c:796-805`. -/
def eraseRest (c : Cfg) : Nat → Nat → M Unit
  | 0, _ => stuckM
  | fuel + 1, sector =>
    if sector * c.ss < c.part - c.ss then do
      erase c .boot (sector * c.ss) c.ss
      erase c .update (sector * c.ss) c.ss
      eraseRest c fuel (sector + 1)
    else pure ()

/-- Image type check, `/repo/src/update_flash.c:624-626` with the masks of
`/repo/include/wolfboot/wolfboot.h:105,121-124`: `(t & 0x000F) == HDR_IMG_TYPE_APP (1)` and
`(t & 0xFF00) == HDR_IMG_TYPE_AUTH`. -/
def typeOK (authType t : Nat) : Prop := t % 16 = 1 ∧ t / 256 % 256 = authType

instance (a t) : Decidable (typeOK a t) := inferInstanceAs (Decidable (_ ∧ _))

/-- Checks of a new update except for the version, `/repo/src/update_flash.c:624-642`.
(`update.hdr_ok` is always 1 here, since `wolfBoot_open_image` sets it, image.c:1279;
`PART_SANITY_CHECK` at line 643 cannot fail after these checks.) -/
def acceptable (c : Cfg) (e : Env) (u : Mem) : Prop :=
  typeOK e.authType (e.typ u) ∧ ¬ (fwSize c u > maxUpdateSize c - 1) ∧ e.integ u = true ∧
    e.auth u = true

instance (c e u) : Decidable (acceptable c e u) := inferInstanceAs (Decidable (_ ∧ _ ∧ _ ∧ _))

/-- `wolfBoot_update(fallback_allowed)`, `/repo/src/update_flash.c:580-875`.
Returns `true` for 0, `false` for -1. -/
def wbUpdate (c : Cfg) (e : Env) (fallback : Bool) : M Bool := do
  let f ← readFlash
  let updFw := fwSize c (f .update)
  let bootFw := fwSize c (f .boot)
  -- 610-613
  if totalSize c bootFw updFw ≤ c.h then pure false
  -- 620-642: checks of a new update (`flag` of sector 0 is `SECT_FLAG_NEW`)
  else if (getFlag c f 0).getD FL_NEW = FL_NEW ∧ ¬ acceptable c e (f .update) then pure false
  -- 645-664: version check
  else if (getFlag c f 0).getD FL_NEW = FL_NEW ∧
      ¬ (fallback = true ∨ e.ver (f .boot) < e.ver (f .update)) then pure false
  else do
    unlock
    let sector ← swapLoop c (c.n + 2) bootFw updFw (totalSize c bootFw updFw) 0
    eraseRest c (c.n + 2) sector
    lock
    let _ ← swapFinal c e false
    pure true

/-- The check before booting, `/repo/src/update_flash.c:1046-1049,1063-1066`. -/
def bootable (c : Cfg) (e : Env) (m : Mem) : Prop :=
  openOK c m ∧ e.integ m = true ∧ e.auth m = true

instance (c e m) : Decidable (bootable c e m) := inferInstanceAs (Decidable (_ ∧ _ ∧ _))

/-- Resume an interrupted update, roll back, or start a new one:
`/repo/src/update_flash.c:1017-1045`. -/
def startUpdate (c : Cfg) (e : Env) : M Unit := do
  let f ← readFlash
  let resumed ← swapFinal c e true
  if resumed = true then pure ()
  else if getState c f .boot = some ST_TESTING then do
    let _ ← wbUpdate c e true
    pure ()
  else if getState c f .update = some ST_UPDATING then do
    let _ ← wbUpdate c e false
    pure ()
  else pure ()

/-- Second attempt after an emergency update, `/repo/src/update_flash.c:1054-1082`. -/
def emergency (c : Cfg) (e : Env) : M Unit := do
  let r ← wbUpdate c e true
  if r = false then panicM
  else do
    let f ← readFlash
    if bootable c e (f .boot) then tick else panicM

/-- `wolfBoot_start`, `/repo/src/update_flash.c:987-1112`. Returning (`Res.ok`) is `do_boot` of
the firmware in the BOOT partition. (`PART_SANITY_CHECK` at line 1084 cannot fail after the
checks; the flash is read once at the beginning for lines 1017-1018, `swapFinal` reads it again.) -/
def start (c : Cfg) (e : Env) : M Unit := do
  startUpdate c e
  let f ← readFlash
  if bootable c e (f .boot) then tick else emergency c e

end Verif.Inv
