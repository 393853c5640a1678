import Verif.Flash

/-!
# Partition trailer: magic, partition state, sector flags

`/repo/src/libwolfboot.c:352-684`, build without `NVM_FLASH_WRITEONCE`, `FLAGS_HOME`,
`EXT_FLASH`, `FLAGS_INVERT` (`TRAILER_SKIP` 0): the trailer is at the end of each partition,
growing downwards: magic (4 bytes), state (1 byte), sector flags (one nibble per sector).
-/

namespace Verif

/-- `WOLFBOOT_MAGIC_TRAIL` ("BOOT"), `/repo/include/wolfboot/wolfboot.h`. -/
def MAGIC_TRAIL : Nat := 0x544F4F42

/-- Byte `i` of the magic word, little endian. -/
def magicByte (i : Nat) : Byte :=
  match i with
  | 0 => 0x42#8
  | 1 => 0x4F#8
  | 2 => 0x4F#8
  | _ => 0x54#8

/-- `IMG_STATE_*`, `/repo/include/wolfboot/wolfboot.h`. -/
def ST_NEW : Byte := 0xFF#8
def ST_UPDATING : Byte := 0x70#8
def ST_FINAL : Byte := 0x30#8
def ST_TESTING : Byte := 0x10#8
def ST_SUCCESS : Byte := 0x00#8

/-- `SECT_FLAG_*`, `/repo/include/wolfboot/wolfboot.h`. -/
def FL_NEW : Byte := 0x0F#8
def FL_SWAPPING : Byte := 0x07#8
def FL_BACKUP : Byte := 0x03#8
def FL_UPDATED : Byte := 0x00#8

/-- Address used by `get_trailer_at(part, at)` / `set_trailer_at`,
`/repo/src/libwolfboot.c:399-441,453-487`: `ENDFLAGS - (4 + at)`. -/
def trailerAt (c : Cfg) (at_ : Nat) : Nat := c.part - (4 + at_)

/-- `*get_partition_magic(part) == WOLFBOOT_MAGIC_TRAIL`, `/repo/src/libwolfboot.c:536-539`. -/
def hasMagic (c : Cfg) (f : Flash) (p : Part) : Prop := le32 (f p) (trailerAt c 0) = MAGIC_TRAIL

instance (c f p) : Decidable (hasMagic c f p) := inferInstanceAs (Decidable (_ = _))

/-- `wolfBoot_get_partition_state`, `/repo/src/libwolfboot.c:644-656`. `none` is the return value
-1, in which case `*st` is left untouched. -/
def getState (c : Cfg) (f : Flash) (p : Part) : Option Byte :=
  if hasMagic c f p then some (f p (trailerAt c 1)) else none

/-- `uint8_t pos = sector >> 1` with `uint16_t sector`, `/repo/src/libwolfboot.c:618,674`. -/
def flagPos (sector : Nat) : Nat := (sector % 65536 / 2) % 256

/-- Nibble selection, `/repo/src/libwolfboot.c:679-682`. -/
def nibbleOf (sector : Nat) (b : Byte) : Byte :=
  if sector % 65536 = 2 * flagPos sector then b &&& 0x0F#8 else (b &&& 0xF0#8) >>> 4

/-- Flag of a sector ignoring the magic check. -/
def rawFlag (c : Cfg) (f : Flash) (sector : Nat) : Byte :=
  nibbleOf sector (f .update (trailerAt c (2 + flagPos sector)))

/-- `wolfBoot_get_update_sector_flag`, `/repo/src/libwolfboot.c:670-684`. `none`: return value -1
and `*flag` is left untouched. -/
def getFlag (c : Cfg) (f : Flash) (sector : Nat) : Option Byte :=
  if hasMagic c f .update then some (rawFlag c f sector) else none

/-- Write of the magic, if missing. `partition_magic_write`, `/repo/src/libwolfboot.c:353-354`,
`set_partition_magic` 496-522, called by lines 595-597 and 621-623. -/
def ensureMagic (c : Cfg) (p : Part) : M Unit := do
  let f ← readFlash
  if hasMagic c f p then pure () else program c p (trailerAt c 0) 4 magicByte

/-- `wolfBoot_set_partition_state`, `/repo/src/libwolfboot.c:589-602`. -/
def setState (c : Cfg) (p : Part) (st : Byte) : M Unit := do
  ensureMagic c p
  let f ← readFlash
  if f p (trailerAt c 1) ≠ st then program c p (trailerAt c 1) 1 (fun _ => st) else pure ()

/-- New value of a flag byte, `/repo/src/libwolfboot.c:626-629`. -/
def flagByte (sector : Nat) (old newflag : Byte) : Byte :=
  if sector % 65536 = 2 * flagPos sector then (old &&& 0xF0#8) ||| (newflag &&& 0x0F#8)
  else ((newflag &&& 0x0F#8) <<< 4) ||| (old &&& 0x0F#8)

/-- `wolfBoot_set_update_sector_flag`, `/repo/src/libwolfboot.c:613-633`. -/
def setFlag (c : Cfg) (sector : Nat) (newflag : Byte) : M Unit := do
  ensureMagic c .update
  let f ← readFlash
  let old := f .update (trailerAt c (2 + flagPos sector))
  let v := flagByte sector old newflag
  if v ≠ old then program c .update (trailerAt c (2 + flagPos sector)) 1 (fun _ => v)
  else pure ()

/-- `wolfBoot_update_trigger`, `/repo/src/libwolfboot.c:735-781`. `whole`: the HAL rounds the
erase of `SECTOR_FLAGS_SIZE = WOLFBOOT_SECTOR_SIZE - 5` bytes (line 86) up to the whole sector (as
page-erasing hardware does); otherwise exactly that many bytes are erased (`/repo/hal/sim.c:205`). -/
def updateTrigger (c : Cfg) (whole : Bool) : M Unit := do
  unlock
  erase c .update c.last (if whole then c.ss else c.ss - 5)
  setState c .update ST_UPDATING
  lock

/-- `wolfBoot_success`, `/repo/src/libwolfboot.c:791-806`. -/
def success (c : Cfg) : M Unit := do
  unlock
  setState c .boot ST_SUCCESS
  lock

end Verif
