import Verif.UpdateThms

/-!
# Partitions in external flash: `EXT_FLASH`

With `EXT_FLASH` each partition may be in a flash that is not memory mapped. Trailers are then read
and written as words of four bytes through the static variable `ext_cache`
(`/repo/src/libwolfboot.c:116,399-487`), and sectors are copied through a buffer
(`/repo/src/update_flash.c:168-195`). This file models the update procedure of such a build (without
encryption) and shows that it is the same function of the flash as the one for internal flash. All
theorems about `start` therefore hold for it.

`x p` says whether partition `p` is external (`PARTN_IS_EXT`, `FLAGS_*_EXT`). The external flash
programs and erases what it is asked to; `Verif.SpiNor` has the drivers.
-/

namespace Verif

/-- `set_trailer_at` for an external partition, `/repo/src/libwolfboot.c:456-464,472-480`: the
low byte of `ext_cache` is replaced and the four bytes are written. `k` are the bytes of `ext_cache`
in memory order; the low byte is the first one on little-endian CPUs and the last one otherwise. -/
def extSet (be : Bool) (c : Cfg) (p : Part) (at_ : Nat) (k : Nat → Byte) (val : Byte) : M Unit :=
  program c p (trailerAt c at_) 4 (fun i => if i = (if be then 3 else 0) then val else k i)

/-- `get_trailer_at` for an external partition reads four bytes into `ext_cache` and returns its
address, `/repo/src/libwolfboot.c:404-410,422-428`. -/
def extGet (c : Cfg) (p : Part) (at_ : Nat) : M (Nat → Byte) := do
  let f ← readFlash
  pure (fun i => f p (trailerAt c at_ + i))

/-- `get_partition_magic` and `set_partition_magic` as used by the setters,
`/repo/src/libwolfboot.c:496-522,536-539,595-597,621-623`. -/
def ensureMagicX (x : Part → Bool) (c : Cfg) (p : Part) : M Unit :=
  if x p then do
    let k ← extGet c p 0
    if le32 k 0 = MAGIC_TRAIL then pure () else program c p (trailerAt c 0) 4 magicByte
  else ensureMagic c p

/-- `wolfBoot_set_partition_state`, `/repo/src/libwolfboot.c:589-602`. -/
def setStateX (be : Bool) (x : Part → Bool) (c : Cfg) (p : Part) (st : Byte) : M Unit :=
  if x p then do
    ensureMagicX x c p
    let k ← extGet c p 1
    if k 0 ≠ st then extSet be c p 1 k st else pure ()
  else setState c p st

/-- `wolfBoot_set_update_sector_flag`, `/repo/src/libwolfboot.c:613-633`. -/
def setFlagX (be : Bool) (x : Part → Bool) (c : Cfg) (sector : Nat) (newflag : Byte) : M Unit :=
  if x .update then do
    ensureMagicX x c .update
    let k ← extGet c .update (2 + flagPos sector)
    let v := flagByte sector (k 0) newflag
    if v ≠ k 0 then extSet be c .update (2 + flagPos sector) k v else pure ()
  else setFlag c sector newflag

/-! ## Setting a trailer byte -/

section
variable {c : Cfg} (w : c.WF)

/-- Rewriting three bytes with their own contents makes no difference: not for the result, not if
the power fails, and not on flash that refuses to set bits. -/
theorem extSet_eq {p : Part} (hp : p ≠ .swap) {at_ : Nat} (h1 : 4 + at_ ≤ c.ss) (hc : c.last + c.ss = c.part)
    (val : Byte) (wo : World) :
    extSet false c p at_ (fun i => wo.fl p (trailerAt c at_ + i)) val wo
      = program c p (trailerAt c at_) 1 (fun _ => val) wo := by
  have hlast : c.last ≤ trailerAt c at_ := by unfold trailerAt; omega
  generalize hA : trailerAt c at_ = A at *
  have and_self (b : Byte) : b &&& b = b := BitVec.and_self
  have and_or (b t : Byte) : b &&& (b ||| t) = b := by
    apply BitVec.eq_of_getLsbD_eq; intro i hi
    simp only [BitVec.getLsbD_and, BitVec.getLsbD_or]
    cases b.getLsbD i <;> simp
  have hprog : wo.fl.program p A 4 (fun i => if i = 0 then val else wo.fl p (A + i))
      = wo.fl.program p A 1 (fun _ => val) := by
    funext q y
    unfold Flash.program
    by_cases hq : q = p
    · subst hq
      by_cases h0 : y = A
      · subst h0; simp
      · by_cases hr : A ≤ y ∧ y < A + 4
        · rw [if_pos ⟨rfl, hr⟩, if_neg (by omega)]
          dsimp only
          rw [if_neg (by omega), show A + (y - A) = y by omega, and_self]
        · rw [if_neg (by omega), if_neg (by omega)]
    · rw [if_neg (fun h => hq h.1), if_neg (fun h => hq h.1)]
  have htorn : wo.fl.tornProgram c wo.torn p A 4 (fun i => if i = 0 then val else wo.fl p (A + i))
      = wo.fl.tornProgram c wo.torn p A 1 (fun _ => val) := by
    funext q y
    unfold Flash.tornProgram
    by_cases hq : q = p
    · subst hq
      by_cases h0 : y = A
      · subst h0; simp
      · by_cases hr : A ≤ y ∧ y < A + 4
        · rw [if_pos ⟨rfl, hr⟩, if_pos ⟨hp, by omega⟩, if_neg (by omega)]
          dsimp only
          rw [if_neg (by omega), show A + (y - A) = y by omega, and_or]
        · rw [if_neg (by omega), if_neg (by omega)]
    · rw [if_neg (fun h => hq h.1), if_neg (fun h => hq h.1)]
  have hst : (∀ i, i < 4 → wo.fl p (A + i) &&& (if i = 0 then val else wo.fl p (A + i))
        = (if i = 0 then val else wo.fl p (A + i)))
      ↔ (∀ i, i < 1 → wo.fl p (A + i) &&& val = val) := by
    constructor
    · intro h i hi
      have := h i (by omega)
      rwa [if_pos (by omega)] at this
    · intro h i hi
      by_cases h0 : i = 0
      · rw [if_pos h0]; exact h i (by omega)
      · rw [if_neg h0]; exact and_self _
  unfold extSet program
  simp only [Bool.false_eq_true, if_false, hA]
  simp only [hst]
  split
  · rfl
  · unfold flashOp
    simp only [hprog, htorn]

theorem ensureMagicX_eq (x : Part → Bool) (p : Part) : ensureMagicX x c p = ensureMagic c p := by
  unfold ensureMagicX
  split
  · rfl
  · rfl

include w

theorem setStateX_eq (x : Part → Bool) {p : Part} (hp : p ≠ .swap) (st : Byte) :
    setStateX false x c p st = setState c p st := by
  have := w.h8
  have := w.h_le
  unfold setStateX
  split
  · unfold setState
    rw [ensureMagicX_eq]
    congr 1
    funext _
    funext wo
    show (if wo.fl p (trailerAt c 1 + 0) ≠ st then
        extSet false c p 1 (fun i => wo.fl p (trailerAt c 1 + i)) st else pure ()) wo
      = (if wo.fl p (trailerAt c 1) ≠ st then program c p (trailerAt c 1) 1 (fun _ => st)
        else pure ()) wo
    rw [Nat.add_zero]
    split
    · exact extSet_eq hp (by omega) w.part_eq.symm st wo
    · rfl
  · rfl

theorem setFlagX_eq (x : Part → Bool) {sector : Nat} (hs : sector < c.n) (fl : Byte) :
    setFlagX false x c sector fl = setFlag c sector fl := by
  have h1 := w.flags_fit
  have h2 := w.n512
  have hpos : flagPos sector ≤ c.n / 2 := by unfold flagPos; omega
  unfold setFlagX
  split
  · unfold setFlag
    rw [ensureMagicX_eq]
    congr 1
    funext _
    funext wo
    show (if flagByte sector (wo.fl .update (trailerAt c (2 + flagPos sector) + 0)) fl
          ≠ wo.fl .update (trailerAt c (2 + flagPos sector) + 0) then
        extSet false c .update (2 + flagPos sector)
          (fun i => wo.fl .update (trailerAt c (2 + flagPos sector) + i))
          (flagByte sector (wo.fl .update (trailerAt c (2 + flagPos sector) + 0)) fl)
        else pure ()) wo
      = (if flagByte sector (wo.fl .update (trailerAt c (2 + flagPos sector))) fl
          ≠ wo.fl .update (trailerAt c (2 + flagPos sector)) then
        program c .update (trailerAt c (2 + flagPos sector)) 1
          (fun _ => flagByte sector (wo.fl .update (trailerAt c (2 + flagPos sector))) fl)
        else pure ()) wo
    rw [Nat.add_zero]
    split
    · exact extSet_eq (by decide) (by omega) w.part_eq.symm _ wo
    · rfl
  · rfl

end

/-! ## The update procedure -/

/-- Body of the copy loops, `/repo/src/update_flash.c:175-192,200-204`: from an external partition
through `buffer`. -/
def copyChunkX (x : Part → Bool) (c : Cfg) (src : Part) (fw : Nat) (dst : Part) (so do_ pos : Nat) : M Unit :=
  if x src then
    if so + pos < fw + c.h + c.fb then do
      let f ← readFlash
      let buffer := fun i => f src (so + pos + i)
      program c dst (do_ + pos) c.fb buffer
    else pure ()
  else copyChunk c src fw dst so do_ pos

/-- The loops of `/repo/src/update_flash.c:175-194,199-206`. -/
def copyLoopX (x : Part → Bool) (c : Cfg) (src : Part) (fw : Nat) (dst : Part) (so do_ : Nat) : Nat → Nat → M Unit
  | 0, _ => stuckM
  | fuel + 1, pos =>
    if pos < c.ss then do
      copyChunkX x c src fw dst so do_ pos
      copyLoopX x c src fw dst so do_ fuel (pos + c.fb)
    else pure ()

/-- `wolfBoot_copy_sector`, `/repo/src/update_flash.c:136-208`. -/
def copySectorX (x : Part → Bool) (c : Cfg) (src : Part) (fw : Nat) (dst : Part) (sector : Nat) : M Unit := do
  let so := if src = .swap then 0 else sector * c.ss
  let do_ := if dst = .swap then 0 else sector * c.ss
  erase c dst do_ c.ss
  copyLoopX x c src fw dst so do_ (c.ss + 1) 0

/-- `/repo/src/update_flash.c:289-294`. -/
def finalSaveX (be : Bool) (x : Part → Bool) (c : Cfg) (bootFw : Nat) (updateState : Byte) : M Unit :=
  if updateState ≠ ST_FINAL then do
    copySectorX x c .boot bootFw .swap (c.tmp / c.ss)
    setStateX be x c .update ST_FINAL
  else pure ()

/-- `/repo/src/update_flash.c:317-322`. -/
def finalRestoreX (x : Part → Bool) (c : Cfg) (bootFw : Nat) : M Unit :=
  if c.tmp < bootFw + c.h then copySectorX x c .swap c.ss .boot (c.tmp / c.ss)
  else erase c .boot c.tmp c.ss

/-- `wolfBoot_swap_and_final_erase`, `/repo/src/update_flash.c:241-336`; the word at `tmpBootPos` is
read with `ext_flash_read` or `memcpy` (264-269). -/
def swapFinalX (be : Bool) (x : Part → Bool) (c : Cfg) (e : Env) (resume : Bool) : M Bool := do
  let f ← readFlash
  let bootFw := fwSize c (f .boot)
  let updateState := (getState c f .update).getD e.junk
  if resume = true ∧ le32 (f .boot) c.tmp ≠ MAGIC_TRAIL ∧ updateState ≠ ST_FINAL then
    pure false
  else do
    unlock
    finalSaveX be x c bootFw updateState
    erase c .boot c.last c.ss
    finalRestoreX x c bootFw
    setStateX be x c .boot ST_TESTING
    erase c .update c.last c.ss
    lock
    pure true

/-- `/repo/src/update_flash.c:727-728,736-737,745-746`. -/
def markSectorX (be : Bool) (x : Part → Bool) (c : Cfg) (sector : Nat) (flag : Byte) : M Unit :=
  if (sector + 1) * c.ss < c.part then setFlagX be x c sector flag else pure ()

/-- `case SECT_FLAG_BACKUP`, `/repo/src/update_flash.c:739-747`. -/
def doBackupX (be : Bool) (x : Part → Bool) (c : Cfg) (sector : Nat) : M Unit := do
  copySectorX x c .swap c.ss .boot sector
  markSectorX be x c sector FL_UPDATED

/-- `case SECT_FLAG_SWAPPING`, `/repo/src/update_flash.c:730-738`. -/
def doSwappingX (be : Bool) (x : Part → Bool) (c : Cfg) (bootFw : Nat) (sector : Nat) : M Unit := do
  copySectorX x c .boot bootFw .update sector
  markSectorX be x c sector FL_BACKUP
  doBackupX be x c sector

/-- `case SECT_FLAG_NEW`, `/repo/src/update_flash.c:724-729`. -/
def doNewX (be : Bool) (x : Part → Bool) (c : Cfg) (bootFw updFw : Nat) (sector : Nat) : M Unit := do
  copySectorX x c .update updFw .swap sector
  markSectorX be x c sector FL_SWAPPING
  doSwappingX be x c bootFw sector

/-- The `switch` in the swap loop, `/repo/src/update_flash.c:721-752`. -/
def swapSectorX (be : Bool) (x : Part → Bool) (c : Cfg) (bootFw updFw : Nat) (sector : Nat) : M Unit := do
  let f ← readFlash
  let flag := (getFlag c f sector).getD FL_NEW
  if flag = FL_NEW then doNewX be x c bootFw updFw sector
  else if flag = FL_SWAPPING then doSwappingX be x c bootFw sector
  else if flag = FL_BACKUP then doBackupX be x c sector
  else pure ()

/-- The swap loop, `/repo/src/update_flash.c:720-771`. -/
def swapLoopX (be : Bool) (x : Part → Bool) (c : Cfg) : Nat → (bootFw updFw total sector : Nat) → M Nat
  | 0, _, _, _, _ => stuckM
  | fuel + 1, bootFw, updFw, total, sector =>
    if sector * c.ss < total then do
      swapSectorX be x c bootFw updFw sector
      let sector := sector + 1
      if sector = 1 then
        let f ← readFlash
        let b := fwSize c (f .update)
        let u := fwSize c (f .boot)
        swapLoopX be x c fuel b u (totalSize c b u) sector
      else swapLoopX be x c fuel bootFw updFw total sector
    else pure sector

/-- `wolfBoot_update`, `/repo/src/update_flash.c:580-875`. Headers of external images are read through
the buffers `hdr_cpy` (`/repo/src/image.c:775-791`, refilled after every `wolfBoot_open_image`). -/
def wbUpdateX (be : Bool) (x : Part → Bool) (c : Cfg) (e : Env) (fallback : Bool) : M Bool := do
  let f ← readFlash
  let updFw := fwSize c (f .update)
  let bootFw := fwSize c (f .boot)
  if totalSize c bootFw updFw ≤ c.h then pure false
  else if (getFlag c f 0).getD FL_NEW = FL_NEW ∧ ¬ acceptable c e (f .update) then pure false
  else if (getFlag c f 0).getD FL_NEW = FL_NEW ∧
      ¬ (fallback = true ∨ e.ver (f .boot) < e.ver (f .update)) then pure false
  else do
    unlock
    let sector ← swapLoopX be x c (c.n + 2) bootFw updFw (totalSize c bootFw updFw) 0
    eraseRest c (c.n + 2) sector
    lock
    let _ ← swapFinalX be x c e false
    pure true

/-- `/repo/src/update_flash.c:1017-1045`. -/
def startUpdateX (be : Bool) (x : Part → Bool) (c : Cfg) (e : Env) : M Unit := do
  let f ← readFlash
  let resumed ← swapFinalX be x c e true
  if resumed = true then pure ()
  else if getState c f .boot = some ST_TESTING then do
    let _ ← wbUpdateX be x c e true
    pure ()
  else if getState c f .update = some ST_UPDATING then do
    let _ ← wbUpdateX be x c e false
    pure ()
  else pure ()

/-- `/repo/src/update_flash.c:1054-1082`. -/
def emergencyX (be : Bool) (x : Part → Bool) (c : Cfg) (e : Env) : M Unit := do
  let r ← wbUpdateX be x c e true
  if r = false then panicM
  else do
    let f ← readFlash
    if bootable c e (f .boot) then tick else panicM

/-- `wolfBoot_start`, `/repo/src/update_flash.c:987-1112`. -/
def startX (be : Bool) (x : Part → Bool) (c : Cfg) (e : Env) : M Unit := do
  startUpdateX be x c e
  let f ← readFlash
  if bootable c e (f .boot) then tick else emergencyX be x c e

/-! ## Equivalence -/

section
variable {c : Cfg} (w : c.WF) (x : Part → Bool)

theorem copyChunkX_eq (src : Part) (fw : Nat) (dst : Part) (so do_ pos : Nat) :
    copyChunkX x c src fw dst so do_ pos = copyChunk c src fw dst so do_ pos := by
  unfold copyChunkX
  split <;> rfl

theorem copyLoopX_eq (src : Part) (fw : Nat) (dst : Part) (so do_ : Nat) : ∀ fuel pos,
    copyLoopX x c src fw dst so do_ fuel pos = copyLoop c src fw dst so do_ fuel pos := by
  intro fuel
  induction fuel with
  | zero => intro pos; rfl
  | succ n ih =>
    intro pos
    unfold copyLoopX copyLoop
    rw [copyChunkX_eq, ih]

theorem copySectorX_eq (src : Part) (fw : Nat) (dst : Part) (sector : Nat) :
    copySectorX x c src fw dst sector = copySector c src fw dst sector := by
  unfold copySectorX copySector
  simp only [copyLoopX_eq]

include w

theorem markSectorX_eq (sector : Nat) (fl : Byte) :
    markSectorX false x c sector fl = markSector c sector fl := by
  unfold markSectorX markSector
  split
  · rename_i h
    refine setFlagX_eq w x ?_ fl
    have h : (sector + 1) * c.ss < c.n * c.ss := h
    have := Nat.lt_of_mul_lt_mul_right h
    omega
  · rfl

theorem swapSectorX_eq (b u sector : Nat) :
    swapSectorX false x c b u sector = swapSector c b u sector := by
  unfold swapSectorX swapSector doNewX doNew doSwappingX doSwapping doBackupX doBackup
  simp only [copySectorX_eq, markSectorX_eq w]

theorem swapLoopX_eq : ∀ fuel b u total sector,
    swapLoopX false x c fuel b u total sector = swapLoop c fuel b u total sector := by
  intro fuel
  induction fuel with
  | zero => intro b u total sector; rfl
  | succ n ih =>
    intro b u total sector
    unfold swapLoopX swapLoop
    simp only [swapSectorX_eq w, ih]

theorem swapFinalX_eq (e : Env) (resume : Bool) :
    swapFinalX false x c e resume = swapFinal c e resume := by
  unfold swapFinalX swapFinal finalSaveX finalSave finalRestoreX finalRestore
  simp only [copySectorX_eq, setStateX_eq w x (p := .update) (by decide),
    setStateX_eq w x (p := .boot) (by decide)]

theorem wbUpdateX_eq (e : Env) (fb : Bool) : wbUpdateX false x c e fb = wbUpdate c e fb := by
  unfold wbUpdateX wbUpdate
  simp only [swapLoopX_eq w, swapFinalX_eq w]

/-- **A build with external partitions behaves like one with internal partitions**: on a
little-endian CPU, whichever of the three partitions are external, `wolfBoot_start` is the same
function of flash contents, power failure and torn bytes. -/
theorem ext_start_eq (e : Env) : startX false x c e = start c e := by
  unfold startX start startUpdateX startUpdate emergencyX emergency
  simp only [wbUpdateX_eq w, swapFinalX_eq w]

/-- `wolfBoot_update_trigger` with an external UPDATE partition, `/repo/src/libwolfboot.c:735-781`. -/
def updateTriggerX (be : Bool) (x : Part → Bool) (c : Cfg) (whole : Bool) : M Unit := do
  unlock
  erase c .update c.last (if whole then c.ss else c.ss - 5)
  setStateX be x c .update ST_UPDATING
  lock

/-- `wolfBoot_success` with an external BOOT partition, `/repo/src/libwolfboot.c:791-806`. -/
def successX (be : Bool) (x : Part → Bool) (c : Cfg) : M Unit := do
  unlock
  setStateX be x c .boot ST_SUCCESS
  lock

/-- The two functions the application calls are the same as well. -/
theorem ext_trigger_eq (whole : Bool) : updateTriggerX false x c whole = updateTrigger c whole ∧
    successX false x c = success c := by
  unfold updateTriggerX updateTrigger successX success
  simp only [setStateX_eq w x (p := .update) (by decide), setStateX_eq w x (p := .boot) (by decide),
    and_self]

end

/-- A reboot of a device with external partitions, up to a power failure. -/
inductive InterruptedX (x : Part → Bool) (c : Cfg) (e : Env) (P : Flash → Prop) (f : Flash) : Flash → Prop
  | none : InterruptedX x c e P f f
  | again {g g' : Flash} {n : Nat} {t : Mem} : InterruptedX x c e P f g → TornOK c MAGIC_TRAIL t →
      startX false x c e { fl := g, locked := true, budget := some n, torn := t } = .crash g' →
      P g' → InterruptedX x c e P f g'

/-- **C01 for external partitions.** Partial for the same reasons as
`update_power_fail_safe_partial`. -/
theorem ext_update_power_fail_safe_partial (x : Part → Bool) {c : Cfg} (w : c.WF) {e : Env} {Old New : Mem}
    (hO : GoodImage c e Old) (hN : GoodImage c e New) (hv : e.ver Old < e.ver New)
    {f g : Flash} (hp : Pending c Old New f)
    (hi : InterruptedX x c e (fun x => ¬ Updated c New Old x) f g) :
    ∃ w', startX false x c e { fl := g, locked := true, budget := none, torn := fun _ => 0#8 } = .ok () w' ∧
      w'.locked = true ∧ Updated c New Old w'.fl ∧ bootable c e (w'.fl .boot) := by
  have : Interrupted c e (fun x => ¬ Updated c New Old x) f g := by
    induction hi with
    | none => exact .none
    | again _ ht hr hP ih =>
      rw [ext_start_eq w] at hr
      exact .again ih ht hr hP
  rw [ext_start_eq w]
  exact update_power_fail_safe_partial w hO hN hv hp this

open Demo in
/-- Non-vacuity: an update from external flash (UPDATE and SWAP external), interrupted at flash
operation 9. The trailer byte is written as a word of four bytes. -/
example : ∃ w', startX false (fun p => p ≠ .boot) cfg env
      { fl := cut1, locked := true, budget := none, torn := fun _ => 0#8 } = .ok () w' ∧
      w'.locked = true ∧ Updated cfg new old w'.fl ∧ bootable cfg env (w'.fl .boot) := by
  have h1 : isCrash (bootFail cfg env pending 9 (fun _ => 0#8)) = true := by decide +kernel
  have n1 : ¬ Updated cfg new old cut1 := fun h => absurd h.state (by decide +kernel)
  refine ext_update_power_fail_safe_partial _ wf (good_old _) (good_new _) (by decide) pending_ok
    (.again (n := 9) (t := fun _ => 0#8) .none (by unfold TornOK; decide) ?_ n1)
  rw [ext_start_eq wf]; exact isCrash_eq h1

/-! ## Big-endian CPUs

`ext_cache &= ~0xFF; ext_cache |= val;` changes the byte at the highest address there. -/

/-- **Finding.** On a big-endian CPU, setting the state of an external partition whose trailer has the
magic (and another state) leaves the state as it is and clears bits of the third byte of the magic. -/
theorem ext_state_big_endian {c : Cfg} (w : c.WF) (hs : c.strict = false) (x : Part → Bool) {p : Part} (hx : x p = true)
    {st : Byte} {wo : World} (hu : wo.locked = false) (hb : wo.budget = none)
    (hm : hasMagic c wo.fl p) (hst : wo.fl p (trailerAt c 1) ≠ st) :
    ∃ w', setStateX true x c p st wo = .ok () w' ∧
      w'.fl p (trailerAt c 1) = wo.fl p (trailerAt c 1) ∧
      w'.fl p (trailerAt c 0 + 2) = wo.fl p (trailerAt c 0 + 2) &&& st := by
  have h1 := w.h8
  have h2 := w.h_le
  have h3 := w.part_eq
  have ht : trailerAt c 0 = trailerAt c 1 + 1 := by unfold trailerAt; omega
  have e1 : ensureMagicX x c p wo = .ok () wo := by
    unfold ensureMagicX
    rw [if_pos hx]
    show (if le32 (fun i => wo.fl p (trailerAt c 0 + i)) 0 = MAGIC_TRAIL then (pure () : M Unit) else _) wo = _
    have : le32 (fun i => wo.fl p (trailerAt c 0 + i)) 0 = MAGIC_TRAIL := hm
    rw [if_pos this]; rfl
  refine ⟨{ wo with fl := (wo.fl.program p (trailerAt c 1) 4
      (fun i => if i = 3 then st else wo.fl p (trailerAt c 1 + i))) }, ?_, ?_, ?_⟩
  · unfold setStateX
    rw [if_pos hx]
    show M.bind _ _ wo = _
    unfold M.bind
    rw [e1]
    show (if wo.fl p (trailerAt c 1 + 0) ≠ st then
        extSet true c p 1 (fun i => wo.fl p (trailerAt c 1 + i)) st else pure ()) wo = _
    rw [Nat.add_zero, if_pos hst]
    unfold extSet program flashOp
    simp [hs, hb, hu]
  · dsimp only
    unfold Flash.program
    simp
  · dsimp only
    unfold Flash.program
    rw [if_pos ⟨rfl, by omega⟩, ht]
    dsimp only
    rw [if_pos (by omega)]

/-- So after confirming an update the partition has no state at all. -/
theorem ext_success_big_endian {c : Cfg} (w : c.WF) (hs : c.strict = false) (x : Part → Bool) (hx : x .boot = true)
    {f : Flash} (h : getState c f .boot = some ST_TESTING) :
    ∃ w', successX true x c { fl := f, locked := true, budget := none, torn := fun _ => 0#8 } = .ok () w' ∧
      getState c w'.fl .boot = none := by
  have hm : hasMagic c f .boot := by
    unfold getState at h; split at h
    · assumption
    · exact absurd h (by simp)
  have hv : f .boot (trailerAt c 1) = ST_TESTING := by
    unfold getState at h; rw [if_pos hm] at h; exact Option.some.inj h
  obtain ⟨w', e1, e2, e3⟩ := ext_state_big_endian w hs x hx (st := ST_SUCCESS) (p := .boot)
    (wo := { fl := f, locked := false, budget := none, torn := fun _ => 0#8 }) rfl rfl hm
    (by show f .boot _ ≠ _; rw [hv]; decide)
  refine ⟨{ w' with locked := true }, ?_, ?_⟩
  · unfold successX
    show M.bind _ _ _ = _
    unfold M.bind
    show M.bind (setStateX true x c .boot ST_SUCCESS) (fun _ => lock)
      { fl := f, locked := false, budget := none, torn := fun _ => 0#8 } = _
    unfold M.bind
    rw [e1]
    rfl
  · unfold getState
    rw [if_neg]
    intro hc
    have hc : le32 (w'.fl .boot) (trailerAt c 0) = MAGIC_TRAIL := hc
    have h0 : w'.fl .boot (trailerAt c 0 + 2) = 0#8 := by
      rw [e3]; show _ &&& 0x00#8 = _; simp
    unfold le32 at hc
    rw [h0] at hc
    have b1 := (w'.fl .boot (trailerAt c 0)).isLt
    have b2 := (w'.fl .boot (trailerAt c 0 + 1)).isLt
    have b3 := (w'.fl .boot (trailerAt c 0 + 3)).isLt
    simp only [MAGIC_TRAIL, BitVec.toNat_ofNat] at hc
    omega

open Demo in
/-- Non-vacuity. -/
example : ∃ w', successX true (fun _ => true) cfg
      { fl := updated, locked := true, budget := none, torn := fun _ => 0#8 } = .ok () w' ∧
      getState cfg w'.fl .boot = none :=
  ext_success_big_endian wf rfl _ rfl (by decide +kernel)

end Verif
