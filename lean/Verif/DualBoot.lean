import Verif.Swap

/-!
# Builds that boot from either of two partitions

* `/repo/src/libwolfboot.c:1226-1333`: choice of the partition (`WOLFBOOT_DUALBOOT`).
* `/repo/src/update_ram.c`: images are executed in place or loaded to RAM.
* `/repo/src/update_flash_hwswap.c`: the hardware exchanges the two flash banks.

Verification of images is the parameter `Env`, as in `Verif.Swap`. Not modelled: U-Boot legacy headers, ELF,
device trees (`/repo/src/update_ram.c:233-340`), encryption (see `Verif.Crypt`).
-/

namespace Verif

/-- `part ^ 1` for `PART_BOOT` (0) and `PART_UPDATE` (1). -/
def Part.other : Part → Part
  | .boot => .update
  | .update => .boot
  | .swap => .swap

/-- `wolfBoot_erase_partition`, `/repo/src/libwolfboot.c:693-724`. Only external flash (`ext p`) is unlocked
for the operation. -/
def erasePartition (c : Cfg) (ext : Part → Bool) (p : Part) : M Unit :=
  if ext p = true then do
    unlock
    erase c p 0 c.part
    lock
  else erase c p 0 c.part

/-- Partition with the higher version; BOOT if they are equal, `/repo/src/libwolfboot.c:1253-1260`. -/
def newest (bv uv : Nat) : Part :=
  if bv = 0 then .update
  else if bv > 0 ∧ uv > 0 then (if uv > bv then .update else .boot)
  else .boot

/-- `wolfBoot_fallback_is_possible`, `/repo/src/libwolfboot.c:1324-1332`. -/
def fallbackPossible (e : Env) (f : Flash) : Bool := !(e.ver (f .boot) == 0 || e.ver (f .update) == 0)

/-- `wolfBoot_dualboot_candidate`, `/repo/src/libwolfboot.c:1239-1273`. -/
def candidate (c : Cfg) (e : Env) (ext : Part → Bool) : M (Option Part) := do
  let f ← readFlash
  let bv := e.ver (f .boot)
  let uv := e.ver (f .update)
  if bv = 0 ∧ uv = 0 then pure none
  else if fallbackPossible e f = true ∧ getState c f (newest bv uv) = some ST_TESTING then do
    erasePartition c ext (newest bv uv)
    pure (some (newest bv uv).other)
  else pure (some (newest bv uv))

/-- `wolfBoot_dualboot_candidate_addr`, `/repo/src/libwolfboot.c:1284-1313` (builds without
`WOLFBOOT_FIXED_PARTITIONS`); the partitions stand for the two addresses given by the HAL. -/
def candidateAddr (e : Env) (f : Flash) : Option Part :=
  if e.ver (f .boot) = 0 ∧ e.ver (f .update) = 0 then none
  else some (newest (e.ver (f .boot)) (e.ver (f .update)))

/-- Build options of `/repo/src/update_ram.c`. -/
structure RamCfg where
  /-- `WOLFBOOT_USE_RAMBOOT` -/
  ramboot : Bool
  /-- `WOLFBOOT_DUALBOOT` and `WOLFBOOT_FIXED_PARTITIONS` -/
  fixed : Bool
  /-- bytes of RAM from `WOLFBOOT_LOAD_ADDRESS - IMAGE_HEADER_SIZE` on -/
  room : Nat

/-- Result of the attempt to use an image. `over`: bytes were written after the end of the RAM. -/
inductive Try where
  | bad
  | good
  | over
deriving DecidableEq

/-- `wolfBoot_ramboot`, `/repo/src/update_ram.c:53-98` (lines 74-78: the version is an `int`), followed by
opening and verification of the image in RAM (155-177). Without `WOLFBOOT_USE_RAMBOOT` the image is verified in
flash, and copied afterwards (257-275). RAM is addressed relative to the load address minus the header size. -/
def tryImage (c : Cfg) (e : Env) (r : RamCfg) (m ram : Mem) : Try × Mem :=
  if r.ramboot = true then
    let ram1 : Mem := fun a => if a < c.h then m a else ram a
    if e.ver ram1 = 0 ∨ 2147483648 ≤ e.ver ram1 then (.bad, ram1)
    else if c.h + le32 ram1 4 > r.room then (.over, ram1)
    else
      let ram2 : Mem := fun a => if a < c.h + le32 ram1 4 then m a else ram a
      if bootable c e ram2 then (.good, ram2) else (.bad, ram2)
  else if bootable c e m then
    if c.h + le32 m 4 > r.room then (.over, ram)
    else (.good, fun a => if c.h ≤ a ∧ a < c.h + le32 m 4 then m a else ram a)
  else (.bad, ram)

/-- First boot of an update: `/repo/src/update_ram.c:213-232`, `/repo/src/update_flash_hwswap.c:75-81`. -/
def setTesting (c : Cfg) (p : Part) : M Unit := do
  let f ← readFlash
  if getState c f p = some ST_UPDATING then do
    unlock
    setState c p ST_TESTING
    lock
  else pure ()

/-- What is executed in the end: the image of partition `p`, in RAM; or bytes were written after the end of the
RAM. -/
inductive RamRun where
  | boots (p : Part) (ram : Mem)
  | over

/-- `/repo/src/update_ram.c:119-131`. -/
def pickActive (c : Cfg) (e : Env) (ext : Part → Bool) (r : RamCfg) (active : Option Part) : M (Option Part) :=
  if r.fixed = true then
    match active with
    | none => candidate c e ext
    | some p => pure (some p)
  else do
    let f ← readFlash
    pure (candidateAddr e f)

/-- `/repo/src/update_ram.c:213-232`. -/
def ramMark (c : Cfg) (r : RamCfg) (p : Part) : M Unit :=
  if r.fixed = true then setTesting c p else pure ()

/-- The loop of `wolfBoot_start`, `/repo/src/update_ram.c:118-201`. -/
def ramBootLoop (c : Cfg) (e : Env) (ext : Part → Bool) (r : RamCfg) : Nat → Option Part → Mem → M RamRun
  | 0, _, _ => stuckM
  | fuel + 1, active, ram => do
    let a ← pickActive c e ext r active
    match a with
    | none => panicM
    | some p => do
      let f ← readFlash
      match tryImage c e r (f p) ram with
      | (.good, ram') => do
        ramMark c r p
        tick
        pure (.boots p ram')
      | (.over, _) => pure .over
      | (.bad, ram') =>
        -- 190-200
        if fallbackPossible e f = true then ramBootLoop c e ext r fuel (some p.other) ram' else panicM

/-- `wolfBoot_start`, `/repo/src/update_ram.c:100-364`. -/
def ramStart (c : Cfg) (e : Env) (ext : Part → Bool) (r : RamCfg) (fuel : Nat) (ram : Mem) : M RamRun :=
  ramBootLoop c e ext r fuel none ram

/-- The loop of `wolfBoot_start`, `/repo/src/update_flash_hwswap.c:52-70`. -/
def hwLoop (c : Cfg) (e : Env) (ext : Part → Bool) : Nat → Part → M Part
  | 0, _ => stuckM
  | fuel + 1, p => do
    let f ← readFlash
    if bootable c e (f p) then pure p
    else if fallbackPossible e f = true then do
      erasePartition c ext p
      hwLoop c e ext fuel p.other
    else panicM

/-- The flash with BOOT and UPDATE exchanged. -/
def Flash.banksSwapped (f : Flash) : Flash := fun p => f p.other

/-- `hal_flash_dualbank_swap()`, e.g. `/repo/hal/stm32l5.c:354-367`; the effect is permanent. -/
def bankSwap : M Unit := fun w => .ok () { w with fl := w.fl.banksSwapped }

/-- `/repo/src/update_flash_hwswap.c:75-100`: the exchange of the banks, if needed, and the state change. -/
def hwFinish (c : Cfg) (p : Part) : M Unit :=
  if p = .update then do
    tick
    bankSwap
    tick
    setTesting c .boot
  else setTesting c .boot

/-- `wolfBoot_start`, `/repo/src/update_flash_hwswap.c:42-111`. Returning is `do_boot` of the firmware in BOOT.
A reboot instead of a return from the swap is the same as a power failure there. -/
def hwStart (c : Cfg) (e : Env) (ext : Part → Bool) (fuel : Nat) : M Unit := do
  let a ← candidate c e ext
  match a with
  | none => panicM
  | some p => do
    let p ← hwLoop c e ext fuel p
    hwFinish c p
    tick

end Verif
