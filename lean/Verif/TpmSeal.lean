import Verif.Tpm

/-!
# Sealing of secrets: `/repo/src/tpm.c`, `/repo/src/update_flash.c`

C57. Functions of `WOLFBOOT_TPM_SEAL` on the TPM of `Verif.Tpm`. A cascade of `if (rc == 0)` is a
sequence that stops at the first failure, followed by the calls made in every case. Printing is left
out. `NULL` pointers for policy and secret are not modelled (the functions return -1), a missing
password is the empty string.
-/

namespace Verif.Tpm

open Verif

/-- `AUTH_KEY_*`, `/repo/include/wolfboot/wolfboot.h:86-97`, as far as distinguished by
`wolfBoot_load_pubkey`. -/
inductive KeyType where
  | ecc256 | ecc384 | ecc521 | rsa2048 | rsa3072 | rsa4096 | other
deriving DecidableEq

/-- A slot of the keystore: type, array `pubkey`, value of `keystore_get_size`. -/
structure Slot where
  typ : KeyType
  arr : Bytes
  size : Nat

/-- Which branch of `wolfBoot_load_pubkey` is compiled (`/repo/src/tpm.c:364,381,404`). -/
inductive Algo where
  | ecc | rsa | none
deriving DecidableEq

/-- The build: keystore, hash of keys, decoder of RSA keys, sizes of arrays. -/
structure Cfg where
  chip : Chip
  slots : List Slot
  sha : Bytes → Bytes
  algo : Algo
  /-- `wc_RsaPublicKeyDecode_ex`: modulus, offset of the exponent -/
  rsaDecode : Bytes → Option (Bytes × Nat)
  /-- `PCR_SELECT_MAX*2` (6 in wolfTPM), `/repo/src/tpm.c:494,931` -/
  pcrCap : Nat
  /-- `sizeof(TPM2B_PUBLIC)` -/
  pubCap : Nat
  /-- `sizeof(blob->priv.buffer)` -/
  privCap : Nat
  /-- `sizeof(handle.auth.buffer)` -/
  authCap : Nat
  /-- `WOLFBOOT_MAX_SEAL_SZ` -/
  maxSeal : Nat
  /-- contents of the uninitialised `pubAreaBuffer` -/
  junk : Bytes
  /-- `WOLFBOOT_TPM_SEAL_NV_BASE`, `/repo/include/tpm.h:41` -/
  nvBase : Nat

/-- Little-endian 32-bit number at the start of a string. -/
def num32 (b : Bytes) : Nat := le32 (fun i => b.getD i 0) 0

/-- Little-endian 16-bit number at the start of a string. -/
def num16 (b : Bytes) : Nat := le16 (fun i => b.getD i 0) 0

/-- The bytes of a `uint16_t` (`(uint8_t*)&blob->pub.size`, `/repo/src/tpm.c:626`). -/
def enc16 (n : Nat) : Bytes := [BitVec.ofNat 8 n, BitVec.ofNat 8 (n / 256)]

/-- `keyslot_id_by_sha`, `/repo/src/image.c:1768-1779`. -/
def slotOf (c : Cfg) (hint : Bytes) : List Slot → Option Slot
  | [] => none
  | s :: r => if c.sha (s.arr.take s.size) = hint then some s else slotOf c hint r

/-- `tpmcurve`, `/repo/src/tpm.c:369-372`. -/
def curveOf : KeyType → Option Nat
  | .ecc256 => some 3
  | .ecc384 => some 4
  | .ecc521 => some 5
  | _ => none

/-- `/repo/src/tpm.c:387-390` -/
def isRsa : KeyType → Bool
  | .rsa2048 | .rsa3072 | .rsa4096 => true
  | _ => false

/-- `wolfBoot_load_pubkey`, `/repo/src/tpm.c:338-409`; the sizes fit into `uint16_t`. The exponent is
`*((uint32_t*)e)` (401): four bytes, whatever the size of the exponent, in the order of the CPU
(little endian). -/
def loadPubkey (c : Cfg) (hint : Bytes) : T PubKey :=
  match slotOf c hint c.slots with
  | none => fail (-1)
  | some s =>
    if s.size = 0 then fail (-1)
    else match c.algo with
    | .ecc =>
      match curveOf s.typ with
      | none => fail (-1)
      | some cv =>
        loadPublic c.chip (.ecc cv (s.arr.take (s.size / 2))
          ((s.arr.drop (s.size / 2)).take (s.size / 2)))
    | .rsa =>
      if isRsa s.typ = false then fail (-1)
      else match c.rsaDecode (s.arr.take s.size) with
        | none => fail (-140)
        | some (n, off) =>
          if s.arr.length < off + 4 then ub .keyBuf
          else loadPublic c.chip (.rsa n (num32 (s.arr.drop off)))
    | .none => fail (-1)

/-- `is_zero_digest`, `/repo/src/tpm.c:418-425`. -/
def isZeroDigest : Bytes → Bool
  | [] => true
  | b :: r => if b ≠ 0 then false else isZeroDigest r

/-- Loop of `wolfBoot_get_pcr_active`, `/repo/src/tpm.c:447-465`: `n` iterations from index `i`, for
a maximum below 31 (for 255 the loop never ends, since `pcrIndex` is a `uint8_t`; for 31 and more
the shift is undefined). The only callers pass 0. Result: return value of the last read, mask. -/
def pcrActiveLoop (c : Cfg) : Nat → Nat → Int → Nat → S → Int × Nat × S
  | 0, _, rc, m, s => (rc, m, s)
  | n + 1, i, _, m, s =>
    match readPCR c.chip i s with
    | .ok d s1 => pcrActiveLoop c n (i + 1) 0 (if isZeroDigest d then m else m ||| (1 <<< i)) s1
    | .err rc s1 => pcrActiveLoop c n (i + 1) rc m s1
    | .bad _ s1 => pcrActiveLoop c n (i + 1) 0 m s1

/-- `wolfBoot_get_pcr_active`, `/repo/src/tpm.c:427-470`, without `ARCH_SIM`. -/
def getPcrActive (c : Cfg) (pcrMax : Nat) (s : S) : Int × Nat × S :=
  pcrActiveLoop c ((if pcrMax = 0 then 15 else pcrMax) + 1) 0 0 0 s

/-- Loop of `wolfBoot_tpm_pcrmask_sel`, `/repo/src/tpm.c:477-484`. -/
def pcrSelLoop (mask cap : Nat) : Nat → Nat → List Nat → List Nat
  | 0, _, acc => acc
  | n + 1, i, acc =>
    pcrSelLoop mask cap n (i + 1)
      (if mask.testBit i then (if acc.length < cap then acc ++ [i] else acc) else acc)

/-- `wolfBoot_tpm_pcrmask_sel`, `/repo/src/tpm.c:472-486`; `IMPLEMENTATION_PCR` is 24. -/
def pcrSel (mask cap : Nat) : List Nat := pcrSelLoop mask cap 24 0 []

/-- `wolfBoot_build_policy`, `/repo/src/tpm.c:489-533`: mask and digest to be signed, for the current
values of the PCRs. `wolfTPM2_PCRGetDigest` (509) reads the PCRs and hashes them,
`wolfTPM2_PolicyPCRMake` (520) computes the policy digest. -/
def buildPolicy (c : Cfg) (mask : Nat) (ref : Bytes) : T Bytes := do
  let sel := pcrSel mask c.pcrCap
  let pd ← call c.chip fun s => .ok (c.chip.pcrHash (sel.map s.pcr)) s
  let d ← call c.chip fun s => .ok (c.chip.policyPcr c.chip.zero sel pd) s
  let d2 ← policyRefMake c.chip d ref
  pure (enc16 mask ++ enc16 (mask / 65536) ++ d2)

/-- `wolfBoot_store_blob`, `/repo/src/tpm.c:580-660`. The size written is that of the encoded public
area, as `uint16_t`. -/
def storeBlob (c : Cfg) (i : Nat) (pub priv auth : Bytes) : T Unit :=
  if c.authCap < auth.length then ub .authBuf
  else do
    let e ← call c.chip fun s =>
      if (c.chip.encPub pub).length ≤ c.pubCap then R.ok (c.chip.encPub pub) s else .err (-132) s
    (fun s => match nvCreate c.chip i (2 + e.length + 2 + priv.length) s with
      | .err rc s1 => if rc = rcNvDefined then .ok () s1 else .err rc s1
      | r => r)
    nvWrite c.chip i 0 (enc16 e.length)
    nvWrite c.chip i 2 e
    nvWrite c.chip i (2 + e.length) (enc16 priv.length)
    nvWrite c.chip i (2 + e.length + 2) priv

/-- `wolfBoot_read_blob`, `/repo/src/tpm.c:662-720`: public and private part. The sizes found in the
index are not compared with the sizes of the arrays. -/
def readBlob (c : Cfg) (i : Nat) (auth : Bytes) : T (Bytes × Bytes) :=
  if c.authCap < auth.length then ub .authBuf
  else do
    let a ← nvRead c.chip i 0 2 2 .pubBuf
    let e ← nvRead c.chip i 2 (num16 a) c.pubCap .pubBuf
    let pub ← call c.chip fun s =>
      match c.chip.decPub (e ++ c.junk.drop e.length) with
      | some p => R.ok p s
      | none => .err (-1) s
    let b ← nvRead c.chip i (2 + num16 a) 2 2 .privBuf
    let priv ← nvRead c.chip i (2 + num16 a + 2) (num16 b) c.privCap .privBuf
    pure (pub, priv)

/-- `wolfBoot_delete_blob`, `/repo/src/tpm.c:722-751`. -/
def deleteBlob (c : Cfg) (i : Nat) : T Unit := do
  nvOpen c.chip i
  nvDelete c.chip i

/-- `wolfBoot_seal_blob`, `/repo/src/tpm.c:754-835`. The policy is only tested for being non-empty:
the object gets the policy digest of the key. -/
def sealBlob (c : Cfg) (hint : Bytes) (policySz : Nat) (secret auth : Bytes) : T (Bytes × Bytes) :=
  if policySz = 0 ∨ c.maxSeal < secret.length then fail (-1)
  else do
    let k ← cleanup (loadPubkey c hint) (unloadKey c.chip)
    cleanup (do
        startSession c.chip
        plain c.chip
        let d ← call c.chip fun s => R.ok (c.chip.policyAuth k []) s
        createSeal c.chip ⟨secret, d, !auth.isEmpty, auth⟩)
      (unloadSession c.chip)

/-- `wolfBoot_seal_auth`, `/repo/src/tpm.c:845-895` (`wolfBoot_seal`, 896-908, passes the configured
password). -/
def sealAuth (c : Cfg) (hint : Bytes) (policySz idx : Nat) (secret auth : Bytes) : T Unit :=
  if c.authCap < auth.length then ub .authBuf
  else do
    let b ← sealBlob c hint policySz secret auth
    ignore (deleteBlob c (c.nvBase + idx))
    storeBlob c (c.nvBase + idx) b.1 b.2 []

/-- Authorization key part of `wolfBoot_unseal_blob`, `/repo/src/tpm.c:998-1029`. -/
def authorize (c : Cfg) (hint sig d pd : Bytes) : T Unit :=
  cleanup (do
      let k ← loadPubkey c hint
      let t ← verifyTicket c.chip k sig pd
      policyAuthorize c.chip k t d [])
    (unloadKey c.chip)

/-- Choice of the authorization, `/repo/src/tpm.c:1042-1054`. The result of
`wolfTPM2_SetAuthSession` (1049) is overwritten by that of `TPM2_Unseal`. -/
def setAuth (c : Cfg) (auth : Bytes) : T Unit :=
  if auth = [] then ignore (plain c.chip)
  else if c.authCap < auth.length then ub .authBuf
  else pure ()

/-- Copy of the secret, `/repo/src/tpm.c:1061-1062`, into an array of `cap` bytes. -/
def copyOut (cap : Nat) (sec : Bytes) : T Bytes :=
  if cap < sec.length then ub .secretBuf else pure sec

/-- Last part of `wolfBoot_unseal_blob`, `/repo/src/tpm.c:1031-1063`; `cap` is the size of the array
`secret`. -/
def unsealLoaded (c : Cfg) (pub priv auth : Bytes) (cap : Nat) : T Bytes := do
  loadSeal c.chip pub priv
  setAuth c auth
  let sec ← unsealObj c.chip auth
  copyOut cap sec

/-- `wolfBoot_unseal_blob`, `/repo/src/tpm.c:911-1070`. `mem` is the memory from `policy` on,
`policySz` a `uint16_t`: the size of the signature, `policySz - 4`, wraps around (954). -/
def unsealBlob (c : Cfg) (hint mem : Bytes) (policySz : BitVec 16) (pub priv auth : Bytes)
    (cap : Nat) : T Bytes :=
  if policySz = 0 then fail (-1)
  else if mem.length < 4 + (policySz - 4).toNat then ub .policy
  else
    let sel := pcrSel (num32 mem) c.pcrCap
    let sig := (mem.drop 4).take (policySz - 4).toNat
    cleanup (do
        startSession c.chip
        plain c.chip
        policyPCR c.chip sel
        let d ← getPolicyDigest c.chip
        let pd ← policyRefMake c.chip d []
        authorize c hint sig d pd
        unsealLoaded c pub priv auth cap)
      (fun s => unloadSession c.chip (unloadObj c.chip s))

/-- `wolfBoot_unseal_auth`, `/repo/src/tpm.c:1072-1102` (`wolfBoot_unseal`, 1103-1115, passes the
configured password). -/
def unsealAuth (c : Cfg) (hint mem : Bytes) (policySz : BitVec 16) (idx : Nat) (auth : Bytes)
    (cap : Nat) : T Bytes := do
  let b ← readBlob c (c.nvBase + idx) []
  unsealBlob c hint mem policySz b.1 b.2 auth cap

/-- Second half of `wolfBoot_unlock_disk`, `/repo/src/update_flash.c:910-947`: a new secret of 32
bytes replaces the sealed one, and is unsealed again. -/
def newSecret (c : Cfg) (hint mem : Bytes) (policySz : BitVec 16) (auth : Bytes) : T Bytes := do
  let sec ← getRandom c.chip 32
  sealAuth c hint policySz.toNat 0 sec auth
  let chk ← unsealAuth c hint mem policySz 0 auth c.maxSeal
  if chk = sec then pure sec else fail (-1)

/-- `wolfBoot_unlock_disk`, `/repo/src/update_flash.c:880-984` (`ARCH_SIM`), from the call of
`wolfBoot_unseal` on; what precedes it finds the hint and the policy in the header of the image in the
boot partition, which has not been verified. A new secret is made after every failure, not only if
there is none (`TPM_RC_HANDLE` is tested for a message only, 912-914). -/
def unlockDisk (c : Cfg) (hint mem : Bytes) (policySz : BitVec 16) (auth : Bytes) : T Bytes := fun s =>
  match unsealAuth c hint mem policySz 0 auth c.maxSeal s with
  | .ok sec s1 => .ok sec s1
  | .err _ s1 => newSecret c hint mem policySz auth s1
  | .bad b s1 => .bad b s1

/-- The array `secret` of `wolfBoot_unlock_disk` on return: `TPM2_ForceZero(secret,
sizeof(secretSz))` (`/repo/src/update_flash.c:982`) clears as many bytes as an `int` has. -/
def wiped (arr : Bytes) : Bytes := List.replicate (min 4 arr.length) 0 ++ arr.drop 4

end Verif.Tpm
