import Verif.UpdateSpec
import Verif.TrailerLemmas

/-!
# Updates with encrypted external flash (`EXT_ENCRYPTED`)

`/repo/src/update_flash.c:136-336,580-875,987-1112`, `/repo/src/libwolfboot.c:1359-1604,1689-1860`.

Build: `EXT_FLASH`, `EXT_ENCRYPTED`, no `MMU`, no `NVM_FLASH_WRITEONCE`, no `FLAGS_HOME`, no `DELTA_UPDATES`,
no `CUSTOM_ENCRYPT_KEY`; BOOT in internal flash, UPDATE and SWAP in external flash. The other options are those
of `Verif.Swap`, of which this is a variant; all parts not concerned with encryption are shared with it.

* The secret (key and nonce, `S` bytes) is kept in the last `S` bytes of BOOT
  (`ENCRYPT_TMP_SECRET_OFFSET`, `/repo/src/libwolfboot.c:79`); the trailers of both partitions end at that offset
  (`PART_*_ENDFLAGS`, lines 141,159). In the model the trailers are where `Verif.Trailer` has them and the secret
  follows them: an offset `o` of the model behind the beginning of the last sector is the offset `o - S` of the
  flash, so that the last sector is `S` bytes longer in the model (its first `S` bytes are never looked at).
* AES-CTR and ChaCha are XOR with a key stream (`Verif.Crypt` has the functions that select the counter, and
  proves that whole sectors are encrypted with the key stream of their place in UPDATE). Here the key stream is
  given by the place only: `Par.ks key nonce o` for the byte at offset `o` of UPDATE. The trailer sector of UPDATE
  is not encrypted (`libwolfboot.c:1722-1726,1804-1808`; the code leaves its last `S + bs + 5 + n/2` bytes in
  clear, no other byte of that sector is used by an image in the theorems).
* The cipher is set up from the key in flash the first time it is needed after a reset
  (`encrypt_initialized`); this is the parameter `ctx` of the functions below.
-/

namespace Verif.EncUp

/-- What is fixed by the build and the cipher. -/
structure Par where
  c : Cfg
  /-- `ENCRYPT_KEY_SIZE` -/
  kl : Nat
  /-- `ENCRYPT_KEY_SIZE + ENCRYPT_NONCE_SIZE` -/
  S : Nat
  /-- Key stream for a key (`none`: the cipher was not set up, its context is zero) and a nonce, by offset in
  UPDATE. -/
  ks : Option Mem → Mem → Nat → Byte
  /-- What is read from UPDATE if the cipher could not be set up: the buffer of the header
  (`hdr_cpy`, `/repo/src/image.c:775-791`) keeps what it had. -/
  stale : Mem

/-- `S` bytes of `m` at offset `o`. -/
def secretAt (P : Par) (m : Mem) (o : Nat) : Mem := fun i => if i < P.S then m (o + i) else 0#8

/-- The secret in flash. `wolfBoot_get_encrypt_key`, `/repo/src/libwolfboot.c:1463-1482`. -/
def secret (P : Par) (f : Flash) : Mem := secretAt P (f .boot) P.c.part

/-- The key and the nonce of a secret. -/
def keyOf (P : Par) (s : Mem) : Mem := fun i => if i < P.kl then s i else 0#8
def nonceOf (P : Par) (s : Mem) : Mem := fun i => if i < P.S - P.kl then s (P.kl + i) else 0#8

/-- `chacha_init` and `aes_init` refuse a key of bytes all 0xFF or all 0, `/repo/src/libwolfboot.c:1535-1540,
1587-1592`. -/
def keyOK (P : Par) (s : Mem) : Prop :=
  ¬ (∀ i, i < P.kl → s i = 0xFF#8) ∧ ¬ (∀ i, i < P.kl → s i = 0#8)

instance (P s) : Decidable (keyOK P s) := inferInstanceAs (Decidable (_ ∧ _))

/-- `if (!encrypt_initialized) crypto_init()`, `/repo/src/libwolfboot.c:1727-1730,1809-1813`. -/
def load (P : Par) (ctx : Option Mem) (f : Flash) : Option Mem :=
  match ctx with
  | some s => some s
  | none => if keyOK P (secret P f) then some (secret P f) else none

/-- Key stream for UPDATE with the secret `s` loaded (`crypto_set_iv(encrypt_iv_nonce, ...)`, lines 1731,1814). -/
def stream (P : Par) (s : Mem) : Nat → Byte := P.ks (some (keyOf P s)) (nonceOf P s)

/-- UPDATE as the bootloader reads it (`ext_flash_check_read` = `ext_flash_decrypt_read`,
`/repo/include/image.h:870-876`). -/
def decU (P : Par) (ctx : Option Mem) (f : Flash) : Mem :=
  match ctx with
  | none => P.stale
  | some s => fun o => if o < P.c.last then f .update o ^^^ stream P s o else f .update o

/-- What a byte of the source becomes at offset `o` of the destination. `/repo/src/update_flash.c:158-168,178-190,
200-204` with `ext_flash_encrypt_write` and `ext_flash_decrypt_read`: BOOT to UPDATE encrypts; SWAP to BOOT
decrypts with the nonce in flash and the counter of the destination; UPDATE to SWAP and BOOT to SWAP copy raw. -/
def conv (P : Par) (ctx : Option Mem) (nonce : Mem) (src dst : Part) (o : Nat) (b : Byte) : Byte :=
  match src, dst with
  | .boot, .update => b ^^^ stream P (ctx.getD P.stale) o
  | .swap, .boot => b ^^^ P.ks (ctx.map (keyOf P)) nonce o
  | _, _ => b

/-- Body of the copy loops, `/repo/src/update_flash.c:174-193,199-206`. Without a key nothing is written to
UPDATE (`/repo/src/libwolfboot.c:1727-1730`). -/
def copyChunk (P : Par) (ctx : Option Mem) (nonce : Mem) (src : Part) (fw : Nat) (dst : Part) (so do_ pos : Nat) :
    M Unit :=
  if so + pos < fw + P.c.h + P.c.fb then
    if dst = .update ∧ ctx = none then pure ()
    else do
      let f ← readFlash
      program P.c dst (do_ + pos) P.c.fb (fun i => conv P ctx nonce src dst (do_ + pos + i) (f src (so + pos + i)))
  else pure ()

/-- The loops of `wolfBoot_copy_sector`, `/repo/src/update_flash.c:174-193,199-206`. -/
def copyLoop (P : Par) (ctx : Option Mem) (nonce : Mem) (src : Part) (fw : Nat) (dst : Part) (so do_ : Nat) :
    Nat → Nat → M Unit
  | 0, _ => stuckM
  | fuel + 1, pos =>
    if pos < P.c.ss then do
      copyChunk P ctx nonce src fw dst so do_ pos
      copyLoop P ctx nonce src fw dst so do_ fuel (pos + P.c.fb)
    else pure ()

/-- `wolfBoot_copy_sector(src, dst, sector)`, `/repo/src/update_flash.c:136-208`. The nonce is read from the flash
first (line 158). -/
def copySector (P : Par) (ctx : Option Mem) (src : Part) (fw : Nat) (dst : Part) (sector : Nat) : M Unit := do
  let f ← readFlash
  let so := if src = .swap then 0 else sector * P.c.ss
  let do_ := if dst = .swap then 0 else sector * P.c.ss
  erase P.c dst do_ P.c.ss
  copyLoop P ctx (nonceOf P (secret P f)) src fw dst so do_ (P.c.ss + 1) 0

/-- Length of the last sector in the model. -/
def lastLen (P : Par) : Nat := P.c.ss + P.S

/-- The last sector of BOOT as written by `hal_set_key`: the old contents, the magic word of the trailer and the
secret `s`; `i` is the offset in the sector. `/repo/src/libwolfboot.c:1391-1408` -/
def keySector (P : Par) (old s : Mem) (i : Nat) : Byte :=
  if P.c.part ≤ P.c.last + i then s (P.c.last + i - P.c.part)
  else if trailerAt P.c 0 ≤ P.c.last + i then magicByte (P.c.last + i - trailerAt P.c 0)
  else old (P.c.last + i)

/-- `wolfBoot_set_encrypt_key` = `hal_set_key`, `/repo/src/libwolfboot.c:1359-1428,1441-1446`. -/
def setKey (P : Par) (s : Mem) : M Unit := do
  unlock
  let f ← readFlash
  erase P.c .boot P.c.last (lastLen P)
  program P.c .boot P.c.last (lastLen P) (keySector P (f .boot) s)
  lock

/-- Save the BOOT sector at `tmpBootPos` and set the re-entry state, `/repo/src/update_flash.c:289-294`. -/
def finalSave (P : Par) (ctx : Option Mem) (bootFw : Nat) (updateState : Byte) : M Unit :=
  if updateState ≠ ST_FINAL then do
    copySector P ctx .boot bootFw .swap (P.c.tmp / P.c.ss)
    setState P.c .update ST_FINAL
  else pure ()

/-- Save the secret at `tmpBootPos`, followed by the magic word, unless that has been done;
`/repo/src/update_flash.c:295-306`. `buf` is `tmpBuffer` as read at line 269. Returns the secret in `tmpBuffer`. -/
def saveKey (P : Par) (swapDone : Bool) (buf : Mem) : M Mem :=
  if swapDone = true then pure buf
  else do
    let f ← readFlash
    erase P.c .boot P.c.tmp P.c.ss
    program P.c .boot P.c.tmp (P.S + 4) (fun i => if i < P.S then secret P f i else magicByte (i - P.S))
    pure (secret P f)

/-- Restore (or erase) the BOOT sector at `tmpBootPos`, `/repo/src/update_flash.c:317-322`. -/
def finalRestore (P : Par) (ctx : Option Mem) (bootFw : Nat) : M Unit :=
  if P.c.tmp < bootFw + P.c.h then copySector P ctx .swap P.c.ss .boot (P.c.tmp / P.c.ss)
  else erase P.c .boot P.c.tmp P.c.ss

/-- `wolfBoot_swap_and_final_erase(resume)`, `/repo/src/update_flash.c:241-336`. Returns whether the return value is
0, and the cipher context (the header of UPDATE is read at line 259). -/
def swapFinal (P : Par) (e : Env) (ctx : Option Mem) (resume : Bool) : M (Bool × Option Mem) := do
  let f ← readFlash
  let bootFw := fwSize P.c (f .boot)
  let ctx := load P ctx f
  let updateState := (getState P.c f .update).getD e.junk
  -- 265-275
  let swapDone := decide (le32 (f .boot) (P.c.tmp + P.S) = MAGIC_TRAIL)
  let buf := secretAt P (f .boot) P.c.tmp
  if resume = true ∧ swapDone = false ∧ updateState ≠ ST_FINAL then
    pure (false, ctx)
  else do
    unlock
    finalSave P ctx bootFw updateState
    let s ← saveKey P swapDone buf
    -- 308
    erase P.c .boot P.c.last (lastLen P)
    -- 311-314
    setKey P s
    unlock
    finalRestore P ctx bootFw
    -- 325
    setState P.c .boot ST_TESTING
    -- 328
    erase P.c .update P.c.last (lastLen P)
    lock
    pure (true, ctx)

/-- `case SECT_FLAG_BACKUP`, `/repo/src/update_flash.c:739-747`. -/
def doBackup (P : Par) (ctx : Option Mem) (sector : Nat) : M Unit := do
  copySector P ctx .swap P.c.ss .boot sector
  markSector P.c sector FL_UPDATED

/-- `case SECT_FLAG_SWAPPING`, `/repo/src/update_flash.c:730-738`, falling through. -/
def doSwapping (P : Par) (ctx : Option Mem) (bootFw : Nat) (sector : Nat) : M Unit := do
  copySector P ctx .boot bootFw .update sector
  markSector P.c sector FL_BACKUP
  doBackup P ctx sector

/-- `case SECT_FLAG_NEW`, `/repo/src/update_flash.c:724-729`, falling through. -/
def doNew (P : Par) (ctx : Option Mem) (bootFw updFw : Nat) (sector : Nat) : M Unit := do
  copySector P ctx .update updFw .swap sector
  markSector P.c sector FL_SWAPPING
  doSwapping P ctx bootFw sector

/-- The `switch` in the swap loop, `/repo/src/update_flash.c:721-752`. -/
def swapSector (P : Par) (ctx : Option Mem) (bootFw updFw : Nat) (sector : Nat) : M Unit := do
  let f ← readFlash
  let flag := (getFlag P.c f sector).getD FL_NEW
  if flag = FL_NEW then doNew P ctx bootFw updFw sector
  else if flag = FL_SWAPPING then doSwapping P ctx bootFw sector
  else if flag = FL_BACKUP then doBackup P ctx sector
  else pure ()

/-- The swap loop, `/repo/src/update_flash.c:720-771`. Returns the final sector number. The header of UPDATE has been
read before the loop, which does not change the secret, so that the context is what it is. -/
def swapLoop (P : Par) (ctx : Option Mem) : Nat → (bootFw updFw total sector : Nat) → M Nat
  | 0, _, _, _, _ => stuckM
  | fuel + 1, bootFw, updFw, total, sector =>
    if sector * P.c.ss < total then do
      swapSector P ctx bootFw updFw sector
      let sector := sector + 1
      if sector = 1 then
        -- 758-769: re-open, exchange the sizes
        let f ← readFlash
        let b := fwSize P.c (decU P ctx f)
        let u := fwSize P.c (f .boot)
        swapLoop P ctx fuel b u (totalSize P.c b u) sector
      else swapLoop P ctx fuel bootFw updFw total sector
    else pure sector

/-- `wolfBoot_update(fallback_allowed)`, `/repo/src/update_flash.c:580-875`. Returns whether the return value is 0, and
the cipher context. -/
def wbUpdate (P : Par) (e : Env) (ctx : Option Mem) (fallback : Bool) : M (Bool × Option Mem) := do
  let f ← readFlash
  let ctx := load P ctx f
  let u := decU P ctx f
  let updFw := fwSize P.c u
  let bootFw := fwSize P.c (f .boot)
  if totalSize P.c bootFw updFw ≤ P.c.h then pure (false, ctx)
  else if (getFlag P.c f 0).getD FL_NEW = FL_NEW ∧ ¬ acceptable P.c e u then pure (false, ctx)
  else if (getFlag P.c f 0).getD FL_NEW = FL_NEW ∧
      ¬ (fallback = true ∨ e.ver (f .boot) < e.ver u) then pure (false, ctx)
  else do
    unlock
    let sector ← swapLoop P ctx (P.c.n + 2) bootFw updFw (totalSize P.c bootFw updFw) 0
    eraseRest P.c (P.c.n + 2) sector
    lock
    let r ← swapFinal P e ctx false
    pure (true, r.2)

/-- Resume an interrupted update, roll back, or start a new one, `/repo/src/update_flash.c:1017-1045`. Returns the
cipher context. -/
def startUpdate (P : Par) (e : Env) : M (Option Mem) := do
  let f ← readFlash
  let r ← swapFinal P e none true
  if r.1 = true then pure r.2
  else if getState P.c f .boot = some ST_TESTING then do
    let r ← wbUpdate P e r.2 true
    pure r.2
  else if getState P.c f .update = some ST_UPDATING then do
    let r ← wbUpdate P e r.2 false
    pure r.2
  else pure r.2

/-- Second attempt after an emergency update, `/repo/src/update_flash.c:1054-1082`. -/
def emergency (P : Par) (e : Env) (ctx : Option Mem) : M Unit := do
  let r ← wbUpdate P e ctx true
  if r.1 = false then panicM
  else do
    let f ← readFlash
    if bootable P.c e (f .boot) then tick else panicM

/-- `wolfBoot_start`, `/repo/src/update_flash.c:987-1112`. Returning is `do_boot` of the firmware in BOOT, which is not
encrypted. -/
def start (P : Par) (e : Env) : M Unit := do
  let ctx ← startUpdate P e
  let f ← readFlash
  if bootable P.c e (f .boot) then tick else emergency P e ctx

/-! ## Vocabulary of the statements -/

/-- UPDATE holds every byte of image `X`, encrypted with the secret `s`. -/
def HoldsEnc (P : Par) (s : Mem) (f : Flash) (X : Mem) : Prop :=
  ∀ o, o < imageBytes P.c X → f .update o = X o ^^^ stream P s o

/-- The secret `s` is in its place, and BOOT does not have the word "BOOT" where
`wolfBoot_swap_and_final_erase` looks for it (`/repo/src/update_flash.c:253-275`). -/
def KeyIn (P : Par) (s : Mem) (f : Flash) : Prop :=
  (∀ i, i < P.S → f .boot (P.c.part + i) = s i) ∧ le32 (f .boot) (P.c.tmp + P.S) ≠ MAGIC_TRAIL

/-- `Old` is installed, `New` is encrypted in UPDATE and its installation has been requested. -/
structure Pending (P : Par) (s : Mem) (Old New : Mem) (f : Flash) : Prop where
  old : Holds P.c f .boot Old
  new : HoldsEnc P s f New
  state : getState P.c f .update = some ST_UPDATING
  flags : ∀ j, j < P.c.n - 1 → getFlag P.c f j = some FL_NEW
  key : KeyIn P s f

/-- `New` is installed, to be confirmed; `Old` is encrypted in UPDATE; the secret is in its place; no request is
pending. -/
structure Updated (P : Par) (s : Mem) (New Old : Mem) (f : Flash) : Prop where
  new : Holds P.c f .boot New
  old : HoldsEnc P s f Old
  state : getState P.c f .boot = some ST_TESTING
  erased : ∀ x, P.c.part - P.c.ss ≤ x → x < P.c.part → f .update x = 0xFF#8
  key : KeyIn P s f

/-- A reboot during which the power does not fail. -/
def bootUp (P : Par) (e : Env) (f : Flash) : Res Unit :=
  start P e { fl := f, locked := true, budget := none, torn := fun _ => 0#8 }

/-- A reboot during which the power fails at flash operation number `n`, leaving `t` behind. -/
def bootFail (P : Par) (e : Env) (f : Flash) (n : Nat) (t : Mem) : Res Unit :=
  start P e { fl := f, locked := true, budget := some n, torn := t }

/-- The bytes left by a torn operation do not happen to be the word "BOOT" behind the place of the saved secret. (The
word is the last thing written there.) -/
def TornOK (P : Par) (t : Mem) : Prop := le32 t (P.c.tmp + P.S) ≠ MAGIC_TRAIL

/-- Reboots ended by power failures, with `Q` of all flash contents reached. -/
inductive Interrupted (P : Par) (e : Env) (Q : Flash → Prop) (f : Flash) : Flash → Prop
  | none : Interrupted P e Q f f
  | again {g g' : Flash} {n : Nat} {t : Mem} : Interrupted P e Q f g → TornOK P t →
      bootFail P e g n t = .crash g' → Q g' → Interrupted P e Q f g'

/-- Conditions on the build: the secret is behind the trailer in the last sector, and fits with the magic word in the
sector at `tmpBootPos`. -/
structure Par.WF (P : Par) : Prop where
  c : P.c.WF
  key : P.kl ≤ P.S
  room : P.S + 6 + P.c.n / 2 ≤ P.c.ss

end Verif.EncUp
