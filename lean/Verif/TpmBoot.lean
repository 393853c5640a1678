import Verif.TpmSeal
import Verif.Image

/-!
# Measured boot and the root of trust in the TPM

C59. `wolfBoot_tpm2_extend`, `self_sha256`, `self_sha384`, `wolfBoot_tpm2_init`,
`wolfBoot_tpm2_deinit`, `wolfBoot_check_rot` of `/repo/src/tpm.c`, the call in `main`
(`/repo/src/loader.c`) and the measurements of the first stage on x86 (`/repo/src/boot_x86_fsp.c`),
on the TPM of `Verif.Tpm`.

Simplifications: the storage root key and the session for the encryption of parameters are calls
without effect on the modelled state; printing is left out; the branch `EXT_FLASH && NO_XIP` of
`self_sha256` is not modelled (it uses variables that are not declared and cannot be compiled).
-/

namespace Verif.Measure

open Verif Verif.Tpm

/-- Hash context of wolfCrypt (`wc_InitSha256`, `wc_Sha256Update`, `wc_Sha256Final`,
`/repo/src/tpm.c:229-245`). -/
structure Hasher where
  Ctx : Type
  init : Ctx
  update : Ctx → Bytes → Ctx
  final : Ctx → Bytes

/-- The build. -/
structure Build where
  chip : Chip
  h : Hasher
  /-- `WOLFBOOT_SHA_BLOCK_SIZE` -/
  blk : Nat
  /-- `WOLFBOOT_SHA_DIGEST_SIZE` -/
  dlen : Nat
  /-- `WOLFBOOT_MEASURED_PCR_A` -/
  pcr : Nat
  /-- `TPM2_GetHashDigestSize(WOLFBOOT_TPM_PCR_ALG)` -/
  pcrSz : Nat
  /-- `WOLFBOOT_TPM_KEYSTORE` -/
  keystore : Bool
  /-- `WOLFBOOT_TPM_SEAL` -/
  sealing : Bool
  /-- `WOLFBOOT_MEASURED_BOOT` -/
  measured : Bool
  /-- not `WOLFBOOT_NO_PARTITIONS` -/
  parts : Bool
  /-- `WOLFBOOT_DEBUG_TPM` -/
  debug : Bool
  /-- `ARCH_SIM` -/
  sim : Bool
  /-- not `WOLFBOOT_TPM_NO_CHG_PLAT_AUTH` -/
  chgPlat : Bool
  /-- `WOLFBOOT_TPM_KEYSTORE_NV_BASE`, `/repo/include/tpm.h:37-39` -/
  rotBase : Nat
  /-- does reading beyond the end of an index give fewer bytes (or an error)? -/
  short : Bool

/-- The do-while loop of `self_sha256`, `/repo/src/tpm.c:230-244` (`self_sha384`, 259-273, and
`self_extend_pcr`, `/repo/src/boot_x86_fsp.c:376-383`, are the same): `pos` is `position`, `p` the
address. All sums are of type `uint32_t` except for the address. `none`: the loop has not ended after
`fuel` rounds. -/
def hashLoop (B : Build) (m : Mem) (sz : Nat) : Nat → Nat → Nat → B.h.Ctx → Option B.h.Ctx
  | 0, _, _, _ => none
  | fuel + 1, pos, p, x =>
    let b := if (pos + B.blk) % 4294967296 > sz then sz - pos else B.blk
    let x' := B.h.update x (slice m p b)
    let pos' := (pos + b) % 4294967296
    if pos' < sz then hashLoop B m sz fuel pos' (p + b) x' else some x'

/-- `self_sha256`, `/repo/src/tpm.c:222-249`, and `self_sha384`, 251-278: digest of `sz` bytes from
address `p`. -/
def selfHash (B : Build) (m : Mem) (p sz : Nat) : Option Bytes :=
  (hashLoop B m sz (sz + 1) 0 p B.h.init).map B.h.final

/-- `wolfTPM2_ResetPCR` (`/repo/src/tpm.c:309`). -/
def resetPCR (B : Build) (i : Nat) : T Unit := call B.chip fun s =>
  .ok () { s with pcr := fun j => if j = i then List.replicate B.pcrSz 0 else s.pcr j }

/-- `/repo/src/tpm.c:306-311`. -/
def simReset (B : Build) (i : Nat) : T Unit :=
  if B.sim = true ∧ 16 ≤ i then ignore (resetPCR B i) else pure ()

/-- `/repo/src/tpm.c:315-325`: the return value becomes that of reading the register. -/
def debugRead (B : Build) (i : Nat) : T Unit :=
  if B.debug then do
    let _ ← readPCR B.chip i
    pure ()
  else pure ()

/-- The call of `wolfTPM2_ExtendPCR`, `/repo/src/tpm.c:313-314`: the size is that of the bank of
registers. -/
def extendBy (B : Build) (i : Nat) (hash : Bytes) : T Unit :=
  if hash.length < B.pcrSz then ub .hashBuf else extendPCR B.chip i (hash.take B.pcrSz)

/-- `wolfBoot_tpm2_extend`, `/repo/src/tpm.c:295-334`: `hash` are the bytes that may be read at the
pointer. -/
def extend (B : Build) (i : Nat) (hash : Bytes) : T Unit := do
  ignore (plain B.chip)
  simReset B i
  extendBy B i hash
  debugRead B i

/-- Storage root key and session, `/repo/src/tpm.c:1186-1212`. -/
def initKeys (B : Build) : T Unit :=
  if B.keystore || B.sealing then do
    plain B.chip
    plain B.chip
  else pure ()

/-- `/repo/src/tpm.c:1215-1226`: `m` is the BOOT partition, `sz` its size. -/
def measureSelf (B : Build) (m : Mem) (sz : Nat) : T Unit :=
  if B.measured && B.parts then
    match selfHash B m 0 sz with
    | none => ub .endless
    | some d => extend B B.pcr d
  else pure ()

/-- `wolfBoot_tpm2_init`, `/repo/src/tpm.c:1143-1229`. -/
def tpmInit (B : Build) (m : Mem) (sz : Nat) : T Unit := do
  plain B.chip
  plain B.chip
  initKeys B
  measureSelf B m sz

/-- The change of the platform authorization, `/repo/src/tpm.c:1242-1256`. -/
def changePlat (B : Build) : T Unit := do
  plain B.chip
  plain B.chip

/-- `wolfBoot_tpm2_deinit`, `/repo/src/tpm.c:1239-1262`: state, and whether the platform authorization
has been changed. -/
def deinit (B : Build) (s : S) : Bool × S :=
  if B.keystore && !B.sim && B.chgPlat then
    match changePlat B s with
    | .ok _ s1 => (true, s1)
    | .err _ s1 => (false, s1)
    | .bad _ s1 => (false, s1)
  else (false, s)

/-- `main`, `/repo/src/loader.c:118-124`: the return value of `wolfBoot_tpm2_init` is ignored. The
result is that of `wolfBoot_start` (`Verif.start`; the TPM is used in it for the root of trust only,
`checkRot`, which is part of `e.auth`), with the state of the TPM after the initialisation; `none` if
that does not end. -/
def main (B : Build) (c : Verif.Cfg) (e : Env) (w : World) (s : S) : Option (Res Unit × S) :=
  match ignore (tpmInit B (w.fl .boot) c.part) s with
  | .ok _ s1 => some (start c e w, s1)
  | _ => none

/-! ## First stage on x86 -/

/-- The parts of the first stage. -/
structure Stage1 where
  /-- `STAGE1_AUTH` -/
  authOn : Bool
  /-- `TARGET_x86_fsp_qemu` -/
  qemu : Bool
  /-- do `wolfBoot_open_image_address`, `wolfBoot_verify_integrity`, `wolfBoot_verify_authenticity`
  succeed? -/
  verified : Mem → Bool
  /-- `IMAGE_HEADER_SIZE` -/
  H : Nat
  /-- `WOLFBOOT_SHA_HDR` -/
  tag : Nat
  /-- address of `_start_keystore`; the flash ends at 4 GiB -/
  keys : Nat

/-- `self_extend_pcr`, `/repo/src/boot_x86_fsp.c:365-388`: from the keystore to the end of the flash. -/
def selfExtend (B : Build) (P : Stage1) (m : Mem) : T Unit :=
  match selfHash B m P.keys ((4294967296 - P.keys) % 4294967296) with
  | none => ub .endless
  | some d => extend B B.pcr d

/-- `wolfBoot_image_measure`, `/repo/src/boot_x86_fsp.c:258-267`: neither the result of the search nor
the length is checked; the pointer is `NULL` if there is no digest. The memory goes on behind the
header. -/
def imageMeasure (B : Build) (P : Stage1) (im : Mem) : T Unit :=
  match findHdr im P.H P.tag with
  | .found off _ => extend B B.pcr (slice im off B.pcrSz)
  | _ => extend B B.pcr []

/-- `/repo/src/boot_x86_fsp.c:428-432`: a failure is only printed. -/
def measureStage1 (B : Build) (P : Stage1) (m : Mem) : T Unit :=
  if P.qemu then ignore (selfExtend B P m) else pure ()

/-- `/repo/src/boot_x86_fsp.c:440-448`, where `panic` ends the boot. -/
def checkStage2 (P : Stage1) (im : Mem) : T Unit :=
  if P.authOn && !P.verified im then fail (-1) else pure ()

/-- `memory_ready_entry` with `WOLFBOOT_MEASURED_BOOT`, `/repo/src/boot_x86_fsp.c:414-470`: `m` is the
memory with the flash, `im` the second stage as loaded, `part` the BOOT partition, `sz` its size.
`R.ok`: the second stage is entered, `R.err`: `panic`. -/
def stage1 (B : Build) (P : Stage1) (m im part : Mem) (sz : Nat) : T Unit := do
  tpmInit B part sz
  plain B.chip
  measureStage1 B P m
  checkStage2 P im
  imageMeasure B P im
  fun s => .ok () (deinit B s).2

/-! ## Root of trust -/

/-- `wolfTPM2_NVReadAuth` of up to `n` bytes (`/repo/src/tpm.c:1303`). -/
def nvReadUpTo (B : Build) (i n : Nat) : T Bytes := call B.chip fun s =>
  match s.nv i with
  | none => .err rcHandle s
  | some b => if n ≤ b.length ∨ B.short = true then .ok (b.take n) s else .err rcNvRange s

/-- `/repo/src/tpm.c:1306-1313`. -/
def matchHint (B : Build) (d hint : Bytes) : T Unit :=
  if d.length = B.dlen ∧ d = hint then pure () else fail (-1)

/-- The body of `if (rc == 0)`, `/repo/src/tpm.c:1300-1320`. -/
def readRot (B : Build) (slot : Nat) (hint : Bytes) : T Unit := do
  ignore (plain B.chip)
  let d ← nvReadUpTo B (B.rotBase + slot) B.dlen
  matchHint B d hint

/-- `wolfBoot_check_rot`, `/repo/src/tpm.c:1280-1325`: `hint` are the `WOLFBOOT_SHA_DIGEST_SIZE` bytes
at the pointer. -/
def checkRot (B : Build) (slot : Nat) (hint : Bytes) : T Unit :=
  cleanup (do
    ignore (plain B.chip)
    plain B.chip
    readRot B slot hint)
    (fun s => s)

end Verif.Measure
