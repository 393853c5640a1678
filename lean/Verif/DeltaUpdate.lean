import Verif.Delta
import Verif.Image

/-!
# Delta update: `/repo/src/update_flash.c:345-546,667-706`

Build as in `Verif.Swap`, with `DELTA_UPDATES`. The patch and the base image are memory mapped.
-/

namespace Verif

/-- Delta update configuration. -/
structure DCfg where
  /-- `DELTA_BLOCK_SIZE`, `/repo/src/update_flash.c:341-343` -/
  bk : Nat
  /-- `WOLFBOOT_SHA_DIGEST_SIZE` -/
  dlen : Nat
  /-- `HDR_SHA256`, `HDR_SHA384` or `HDR_SHA3_384`, `/repo/src/update_flash.c:404-415` -/
  shaTag : Nat

/-- Header tags, `/repo/include/wolfboot/wolfboot.h:64-83`. -/
def HDR_IMG_DELTA_BASE : Nat := 5
def HDR_IMG_DELTA_SIZE : Nat := 6
def HDR_IMG_DELTA_BASE_HASH : Nat := 7
def HDR_IMG_DELTA_INVERSE : Nat := 0x15
def HDR_IMG_DELTA_INVERSE_SIZE : Nat := 0x16

/-- Return value of `wolfBoot_find_header`. -/
def Find.len : Find → Nat
  | .found _ len => len
  | _ => 0

/-- `*ptr` after `wolfBoot_find_header`, as offset from the start of the header (0 for `NULL`). -/
def Find.ptr : Find → Nat
  | .found off _ => off
  | _ => 0

/-- `wolfBoot_get_blob_diffbase_version`, `/repo/src/libwolfboot.c:1099-1120`. -/
def diffBase (H : Nat) (m : Mem) : Nat :=
  if le32 m 0 ≠ MAGIC then 0
  else if (findHdr m H HDR_IMG_DELTA_BASE).len = 0 then 0
  else le32 m (findHdr m H HDR_IMG_DELTA_BASE).ptr

/-- `wolfBoot_get_delta_info`, `/repo/src/libwolfboot.c:935-989`: values of `*img_offset` and
`*img_size`; in the forward direction the offset is not used, the patch is behind the header
(`/repo/src/update_flash.c:439-440`). -/
def deltaInfo (H : Nat) (u : Mem) (inverse : Bool) : Option (Nat × Nat) :=
  if le32 u 0 ≠ MAGIC then none
  else if inverse = true then
    if (findHdr u H HDR_IMG_DELTA_INVERSE).len ≠ 4 then none
    else if (findHdr u H HDR_IMG_DELTA_INVERSE_SIZE).len ≠ 4 then none
    else some (le32 u (findHdr u H HDR_IMG_DELTA_INVERSE).ptr,
      le32 u (findHdr u H HDR_IMG_DELTA_INVERSE_SIZE).ptr)
  else
    if (findHdr u H HDR_IMG_DELTA_SIZE).len ≠ 4 then none
    else some (H, le32 u (findHdr u H HDR_IMG_DELTA_SIZE).ptr)

/-- `memcmp(x + i, y + j, n) == 0`. -/
def memEq (x y : Mem) (i j n : Nat) : Bool := slice x i n == slice y j n

/-- Outcome of the checks in front of the patching loop: `return -1` in lines 386 and 400, with the
flash unlocked; `goto out` in line 444; or a patch. -/
inductive DSel where
  | early
  | refuse
  | go (off size : Nat)
deriving DecidableEq

/-- `wb_patch_init`, `/repo/src/delta.c:55-70` (`ssz` is not 0, it includes the header). -/
def initPatch (off size : Nat) : DSel := if size = 0 then .refuse else .go off size

/-- `/repo/src/update_flash.c:384-444`. -/
def deltaSelect (c : Cfg) (e : Env) (d : DCfg) (f : Flash) (inverse resume : Bool) : DSel :=
  match deltaInfo c.h (f .update) inverse with
  | none => .early
  | some (off, size) =>
    let cur := e.ver (f .boot)
    let upd := e.ver (f .update)
    let base := diffBase c.h (f .update)
    let dh := findHdr (f .update) c.h HDR_IMG_DELTA_BASE_HASH
    -- 392-401
    if dh.len ≠ d.dlen ∧ dh.len ≠ 0 then .early
    else
      -- 404-415
      let bh := findHdr (f .boot) c.h d.shaTag
      if inverse = true then
        -- 417-426
        if (cur = upd ∧ base < cur) ∨ resume = true then initPatch off size else .refuse
      -- 427-441
      else if resume = false ∧ cur ≠ base then .refuse
      else if resume = false ∧ dh.len ≠ 0 ∧ memEq (f .boot) (f .update) bh.ptr dh.ptr bh.len = false then
        .refuse
      else initPatch off size

/-- Undefined behaviour. -/
def ubM {α} : M α := fun w => .fault w.fl

/-- The base of the patch is the BOOT partition; reads outside of it are reported. -/
def bootSrc (c : Cfg) (f : Flash) : Nat → Option Byte :=
  fun x => if x < c.part then some (f .boot x) else none

/-- Inner loop, `/repo/src/update_flash.c:449-476`: decode one sector into SWAP. `none`: `goto out`
with `ret < 0`. `off`, `size`: position of the patch in UPDATE. -/
def patchToSwap (c : Cfg) (d : DCfg) (off size : Nat) : Nat → PCtx → Nat → M (Option PCtx)
  | 0, _, _ => stuckM
  | fuel + 1, ctx, len =>
    if len < c.ss then do
      let f ← readFlash
      match wbPatch (bootSrc c f) (slice (f .update) off size) ctx d.bk with
      | .ok ctx' out =>
        if out = [] then pure (some ctx')
        else do
          program c .swap len out.length (fun i => out.getD i 0xFF#8)
          patchToSwap c d off size fuel ctx' (len + out.length)
      | .err => pure none
      | _ => ubM
    else pure (some ctx)

/-- `/repo/src/update_flash.c:493-498`. -/
def deltaCopy (c : Cfg) (sector : Nat) : M Unit := do
  copySector c .swap c.ss .boot sector
  markSector c sector FL_UPDATED

/-- One iteration of the sector loop, `/repo/src/update_flash.c:447-498`. -/
def deltaSector (c : Cfg) (d : DCfg) (off size sector : Nat) (ctx : PCtx) : M (Option PCtx) := do
  let f ← readFlash
  if (getFlag c f sector).getD FL_NEW = FL_NEW then do
    erase c .swap 0 c.ss
    let r ← patchToSwap c d off size (c.ss + 2) ctx 0
    match r with
    | none => pure none
    | some ctx' => do
      -- 478: not guarded by the number of the sector
      setFlag c sector FL_SWAPPING
      deltaCopy c sector
      pure (some ctx')
  else
    -- 479-492
    match sectorGo (bootSrc c f) (slice (f .update) off size) d.bk c.ss (c.ss + 2) ctx [] with
    | .ok ctx' _ =>
      if (getFlag c f sector).getD FL_NEW = FL_SWAPPING then do
        deltaCopy c sector
        pure (some ctx')
      else pure (some ctx')
    | .err => pure none
    | _ => ubM

/-- The sector loop, `/repo/src/update_flash.c:446-520`: number of sectors, or `none` for `goto out`
with `ret < 0`. -/
def deltaLoop (c : Cfg) (d : DCfg) (off size : Nat) : Nat → Nat → Nat → PCtx → M (Option Nat)
  | 0, _, _, _ => stuckM
  | fuel + 1, total, sector, ctx =>
    if sector * c.ss < total then do
      let r ← deltaSector c d off size sector ctx
      match r with
      | none => pure none
      | some ctx' =>
        if sector = 0 then do
          -- 499-518; `update_size` is a `uint32_t`
          lock
          let f ← readFlash
          unlock
          let us := (le32 (f .boot) 4 + c.h) % 4294967296
          let total' := if us > total then us else total
          if total' ≤ c.h then pure none
          else if total' > c.part then pure none
          else deltaLoop c d off size fuel total' (sector + 1) ctx'
        else deltaLoop c d off size fuel total (sector + 1) ctx'
    else pure (some sector)

/-- Erase of the rest of BOOT, `/repo/src/update_flash.c:523-531`. -/
def eraseBoot (c : Cfg) : Nat → Nat → M Unit
  | 0, _ => stuckM
  | fuel + 1, sector =>
    if sector * c.ss < c.part - c.ss then do
      erase c .boot (sector * c.ss) c.ss
      eraseBoot c fuel (sector + 1)
    else pure ()

/-- `wolfBoot_delta_update`, `/repo/src/update_flash.c:345-546`. `bootFw`, `updFw` are the sizes of the
images opened by the caller. Returns `true` for 0. -/
def deltaUpdate (c : Cfg) (e : Env) (d : DCfg) (bootFw updFw : Nat) (inverse resume : Bool) : M Bool := do
  unlock
  let f ← readFlash
  match deltaSelect c e d f inverse resume with
  | .early => pure false
  | .refuse => do
    lock
    pure false
  | .go off size => do
    let r ← deltaLoop c d off size (c.n + 2) (totalSize c bootFw updFw) 0 patchInit
    match r with
    | none => do
      lock
      pure false
    | some sector => do
      eraseBoot c (c.n + 2) sector
      lock
      let _ ← swapFinal c e false
      pure true

/-- `(update_type & 0x00F0) == HDR_IMG_TYPE_DIFF`, `/repo/src/update_flash.c:668`. -/
def isDelta (t : Nat) : Prop := t / 16 % 16 = 13

instance (t) : Decidable (isDelta t) := inferInstanceAs (Decidable (_ = _))

/-- Direction of a delta update, `/repo/src/update_flash.c:669-705`. -/
def deltaBranch (c : Cfg) (e : Env) (d : DCfg) (fallback : Bool) (f : Flash) : M Bool :=
  let updFw := fwSize c (f .update)
  let bootFw := fwSize c (f .boot)
  let cur := e.ver (f .boot)
  let up := e.ver (f .update)
  let fresh : M Bool :=
    if cur < up ∧ fallback = true then do
      -- 695-703
      unlock
      setState c .update ST_UPDATING
      lock
      deltaUpdate c e d bootFw updFw false false
    else deltaUpdate c e d bootFw updFw (decide (up ≤ cur)) false
  match getState c f .update with
  | some st =>
    if (getFlag c f 0).getD FL_NEW ≠ FL_NEW ∨ cur = 0 then
      deltaUpdate c e d bootFw updFw (decide (st ≠ ST_UPDATING)) true
    else fresh
  | none => fresh

/-- `wolfBoot_update(fallback_allowed)`, `/repo/src/update_flash.c:580-815`, with `DELTA_UPDATES`. -/
def wbUpdateD (c : Cfg) (e : Env) (d : DCfg) (fallback : Bool) : M Bool := do
  let f ← readFlash
  let updFw := fwSize c (f .update)
  let bootFw := fwSize c (f .boot)
  if totalSize c bootFw updFw ≤ c.h then pure false
  else if (getFlag c f 0).getD FL_NEW = FL_NEW ∧ ¬ acceptable c e (f .update) then pure false
  else if (getFlag c f 0).getD FL_NEW = FL_NEW ∧
      ¬ (fallback = true ∨ e.ver (f .boot) < e.ver (f .update)) then pure false
  else if isDelta (e.typ (f .update)) then deltaBranch c e d fallback f
  else do
    unlock
    let sector ← swapLoop c (c.n + 2) bootFw updFw (totalSize c bootFw updFw) 0
    eraseRest c (c.n + 2) sector
    lock
    let _ ← swapFinal c e false
    pure true

/-- `/repo/src/update_flash.c:1017-1045` with `DELTA_UPDATES`. -/
def startUpdateD (c : Cfg) (e : Env) (d : DCfg) : M Unit := do
  let f ← readFlash
  let resumed ← swapFinal c e true
  if resumed = true then pure ()
  else if getState c f .boot = some ST_TESTING then do
    let _ ← wbUpdateD c e d true
    pure ()
  else if getState c f .update = some ST_UPDATING then do
    let _ ← wbUpdateD c e d false
    pure ()
  else pure ()

/-- `/repo/src/update_flash.c:1054-1082` with `DELTA_UPDATES`. -/
def emergencyD (c : Cfg) (e : Env) (d : DCfg) : M Unit := do
  let r ← wbUpdateD c e d true
  if r = false then panicM
  else do
    let f ← readFlash
    if bootable c e (f .boot) then tick else panicM

/-- `wolfBoot_start`, `/repo/src/update_flash.c:987-1112`, with `DELTA_UPDATES`. -/
def startD (c : Cfg) (e : Env) (d : DCfg) : M Unit := do
  startUpdateD c e d
  let f ← readFlash
  if bootable c e (f .boot) then tick else emergencyD c e d

end Verif
