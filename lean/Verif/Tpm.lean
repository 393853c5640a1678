import Verif.Basic

/-!
# A TPM 2.0 seen through wolfTPM

The TPM chip and the library wolfTPM are not part of the repository. This file states what is
assumed about them; `Verif.TpmSeal` and `Verif.TpmBoot` model the code of `/repo/src/tpm.c` on top
of it.

Every call of the library consults an oracle `fault`: it may fail at any time with any non-zero
return value. If it does not fail, it behaves as the TPM 2.0 specification (part 3) describes the
command, on a state of platform configuration registers (PCRs), non-volatile indices, one policy
session and the transient objects. A failing call changes nothing (a failing multi-part read or
write of a non-volatile index could have been carried out in part; this is not modelled). Hash
functions, signature verification and wrapping of objects are functions without any assumption;
theorems that need one have it as a hypothesis.
-/

namespace Verif.Tpm

open Verif

/-- Strings of bytes. -/
abbrev Bytes := List Byte

/-- A public key as given to the TPM (`wolfTPM2_LoadEccPublicKey`, `wolfTPM2_LoadRsaPublicKey_ex`,
`/repo/src/tpm.c:375-379,400-402`). -/
inductive PubKey where
  | ecc (curve : Nat) (x y : Bytes)
  | rsa (n : Bytes) (e : Nat)
deriving DecidableEq

/-- A sealed data object: the secret, the policy digest, and the password, which alone suffices for
unsealing if `withAuth` (`TPMA_OBJECT_userWithAuth`, `/repo/src/tpm.c:818-825`). -/
structure Obj where
  secret : Bytes
  policy : Bytes
  withAuth : Bool
  auth : Bytes
deriving DecidableEq

/-- Accesses outside of an array, and endless loops. -/
inductive Bad where
  /-- the size of the signature in the policy exceeds the policy (`/repo/src/tpm.c:944-954`) -/
  | policy
  /-- `pubAreaBuffer` (`/repo/src/tpm.c:689`) -/
  | pubBuf
  /-- `blob->priv.buffer` (`/repo/src/tpm.c:705`) -/
  | privBuf
  /-- `handle.auth.buffer` (`/repo/src/tpm.c:598,678,862,1044`) -/
  | authBuf
  /-- the buffer of the caller for the secret (`/repo/src/tpm.c:1062`) -/
  | secretBuf
  /-- the array with the key (`/repo/src/tpm.c:401`) -/
  | keyBuf
  /-- the digest that is measured (`/repo/src/tpm.c:313`) -/
  | hashBuf
  /-- the loop over the measured area does not end (`/repo/src/tpm.c:230-244`) -/
  | endless
deriving DecidableEq

/-- State of the TPM. `k` counts the calls made. -/
structure S where
  k : Nat
  pcr : Nat → Bytes
  nv : Nat → Option Bytes
  /-- digest of the policy session -/
  session : Option Bytes
  /-- key loaded for the verification of signatures -/
  key : Option PubKey
  /-- sealed object loaded -/
  obj : Option Obj

/-- Result of a function: value, non-zero return value, or undefined behaviour. -/
inductive R (α : Type) where
  | ok (a : α) (s : S)
  | err (rc : Int) (s : S)
  | bad (b : Bad) (s : S)

/-- Functions with access to the TPM. -/
abbrev T (α : Type) := S → R α

/-- Sequence of calls guarded by `if (rc == 0)`: what follows a failure is not executed. -/
def T.bind {α β : Type} (m : T α) (f : α → T β) : T β := fun s =>
  match m s with
  | .ok a s1 => f a s1
  | .err rc s1 => .err rc s1
  | .bad b s1 => .bad b s1

instance : Monad T where
  pure a := fun s => .ok a s
  bind := T.bind

/-- `return rc` with `rc != 0`. -/
def fail {α : Type} (rc : Int) : T α := fun s => .err rc s

/-- Undefined behaviour. -/
def ub {α : Type} (b : Bad) : T α := fun s => .bad b s

/-- `m`, followed by calls that are made whether or not `m` failed and whose result is ignored. -/
def cleanup {α : Type} (m : T α) (f : S → S) : T α := fun s =>
  match m s with
  | .ok a s1 => .ok a (f s1)
  | .err rc s1 => .err rc (f s1)
  | .bad b s1 => .bad b s1

/-- A call whose return value is ignored. -/
def ignore {α : Type} (m : T α) : T Unit := fun s =>
  match m s with
  | .ok _ s1 => .ok () s1
  | .err _ s1 => .ok () s1
  | .bad b s1 => .bad b s1

/-- The library and the chip. -/
structure Chip where
  /-- return value of the `k`-th call; 0: the command is executed -/
  fault : Nat → Int
  /-- failure of `wolfTPM2_UnloadHandle` -/
  unloadFails : Nat → Bool
  /-- output of `TPM2_GetRandom` -/
  random : Nat → Nat → Bytes
  /-- policy digest of a new session -/
  zero : Bytes
  /-- digest of the values of the selected PCRs -/
  pcrHash : List Bytes → Bytes
  /-- new value of a PCR from the old one and the digest -/
  extend : Bytes → Bytes → Bytes
  /-- policy digest after `TPM2_PolicyPCR`: from old digest, selection, digest of the values -/
  policyPcr : Bytes → List Nat → Bytes → Bytes
  /-- digest to be signed: from policy digest and reference -/
  addRef : Bytes → Bytes → Bytes
  /-- policy digest after `TPM2_PolicyAuthorize`: from key and reference -/
  policyAuth : PubKey → Bytes → Bytes
  /-- the signature is valid for the digest -/
  verify : PubKey → Bytes → Bytes → Bool
  /-- public and private part of a new object below the storage root key; depends on the call, since
  it is randomised -/
  wrap : Nat → Obj → Bytes × Bytes
  /-- the object loaded from a public and a private part -/
  unwrap : Bytes → Bytes → Option Obj
  /-- `TPM2_AppendPublic` -/
  encPub : Bytes → Bytes
  /-- `TPM2_ParsePublic`, applied to the whole buffer -/
  decPub : Bytes → Option Bytes

/-- `TPM_RC_HANDLE` for the first handle of a command: the index does not exist. The callers test
`(ret & RC_MAX_FMT1) == TPM_RC_HANDLE` (`/repo/src/update_flash.c:912`). -/
def rcHandle : Int := 0x18B
/-- `TPM_RC_NV_DEFINED` (tested at `/repo/src/tpm.c:615`). -/
def rcNvDefined : Int := 0x14C
/-- `TPM_RC_NV_RANGE` -/
def rcNvRange : Int := 0x146
/-- `TPM_RC_POLICY_FAIL` (`/repo/src/tpm.c:573`) -/
def rcPolicyFail : Int := 0x9D
/-- `TPM_RC_SIGNATURE` -/
def rcSignature : Int := 0x9B
/-- `TPM_RC_VALUE` -/
def rcValue : Int := 0x84
/-- `TPM_RC_INTEGRITY` -/
def rcIntegrity : Int := 0x9F
/-- `TPM_RC_AUTH_FAIL` -/
def rcAuthFail : Int := 0x8E

/-- One call of the library: it fails with the value of the oracle, or `f` is carried out. -/
def call {α : Type} (c : Chip) (f : T α) : T α := fun s =>
  if c.fault s.k = 0 then f { s with k := s.k + 1 }
  else .err (c.fault s.k) { s with k := s.k + 1 }

/-- A call without effect on the modelled state (`wolfTPM2_SetAuthSession`, ...). -/
def plain (c : Chip) : T Unit := call c (fun s => .ok () s)

/-- `wolfTPM2_StartSession(.., TPM_SE_POLICY, ..)` (`/repo/src/tpm.c:790,962`). -/
def startSession (c : Chip) : T Unit := call c fun s => .ok () { s with session := some c.zero }

/-- `wolfTPM2_PolicyPCR` (`/repo/src/tpm.c:972`). -/
def policyPCR (c : Chip) (sel : List Nat) : T Unit := call c fun s =>
  match s.session with
  | some d => .ok () { s with session := some (c.policyPcr d sel (c.pcrHash (sel.map s.pcr))) }
  | none => .err rcHandle s

/-- `wolfTPM2_GetPolicyDigest` (`/repo/src/tpm.c:977`). -/
def getPolicyDigest (c : Chip) : T Bytes := call c fun s =>
  match s.session with
  | some d => .ok d s
  | none => .err rcHandle s

/-- `wolfTPM2_PolicyRefMake` (`/repo/src/tpm.c:525,989`). -/
def policyRefMake (c : Chip) (d ref : Bytes) : T Bytes := call c fun s => .ok (c.addRef d ref) s

/-- `wolfTPM2_LoadEccPublicKey`, `wolfTPM2_LoadRsaPublicKey_ex` (`/repo/src/tpm.c:375,400`). -/
def loadPublic (c : Chip) (k : PubKey) : T PubKey := call c fun s => .ok k { s with key := some k }

/-- `wolfTPM2_VerifyHashTicket` (`/repo/src/tpm.c:1003`): the ticket says which key verified which
digest. -/
def verifyTicket (c : Chip) (k : PubKey) (sig d : Bytes) : T (PubKey × Bytes) := call c fun s =>
  if c.verify k sig d then .ok (k, d) s else .err rcSignature s

/-- `wolfTPM2_PolicyAuthorize` (`/repo/src/tpm.c:1014`): the digest of the session must be the
approved one and the ticket must say that the key signed it; the session then has the policy digest
of the key. -/
def policyAuthorize (c : Chip) (k : PubKey) (t : PubKey × Bytes) (approved ref : Bytes) : T Unit :=
  call c fun s =>
    match s.session with
    | some d =>
      if d = approved ∧ t = (k, c.addRef approved ref) then
        .ok () { s with session := some (c.policyAuth k ref) }
      else .err rcValue s
    | none => .err rcHandle s

/-- `wolfTPM2_CreateKeySeal_ex` (`/repo/src/tpm.c:826`). -/
def createSeal (c : Chip) (o : Obj) : T (Bytes × Bytes) := call c fun s => .ok (c.wrap s.k o) s

/-- `wolfTPM2_LoadKey` (`/repo/src/tpm.c:1033`). -/
def loadSeal (c : Chip) (pub priv : Bytes) : T Unit := call c fun s =>
  match c.unwrap pub priv with
  | some o => .ok () { s with obj := some o }
  | none => .err rcIntegrity s

/-- `TPM2_Unseal` (`/repo/src/tpm.c:1058`) with the password `auth` or, if it is empty, with the
policy session. -/
def unsealObj (c : Chip) (auth : Bytes) : T Bytes := call c fun s =>
  match s.obj with
  | none => .err rcHandle s
  | some o =>
    if auth ≠ [] then
      if o.withAuth = true ∧ o.auth = auth then .ok o.secret s else .err rcAuthFail s
    else if s.session = some o.policy then .ok o.secret s else .err rcPolicyFail s

/-- `wolfTPM2_UnloadHandle` of the authorization key; nothing happens if there is none. -/
def unloadKey (c : Chip) (s : S) : S :=
  if s.key = none ∨ c.unloadFails s.k = true then s else { s with k := s.k + 1, key := none }

/-- `wolfTPM2_UnloadHandle` of the sealed object. -/
def unloadObj (c : Chip) (s : S) : S :=
  if s.obj = none ∨ c.unloadFails s.k = true then s else { s with k := s.k + 1, obj := none }

/-- `wolfTPM2_UnloadHandle` of the policy session. -/
def unloadSession (c : Chip) (s : S) : S :=
  if s.session = none ∨ c.unloadFails s.k = true then s
  else { s with k := s.k + 1, session := none }

/-- Change of the contents of an index. -/
def setNv (s : S) (i : Nat) (v : Option Bytes) : S :=
  { s with nv := fun j => if j = i then v else s.nv j }

/-- `wolfTPM2_NVCreateAuth` (`/repo/src/tpm.c:613`): a new index of `sz` bytes. -/
def nvCreate (c : Chip) (i sz : Nat) : T Unit := call c fun s =>
  match s.nv i with
  | some _ => .err rcNvDefined s
  | none => .ok () (setNv s i (some (List.replicate sz 0xFF#8)))

/-- The bytes `b` with `d` written at offset `off`. -/
def splice (b : Bytes) (off : Nat) (d : Bytes) : Bytes := b.take off ++ d ++ b.drop (off + d.length)

/-- `wolfTPM2_NVWriteAuth` (`/repo/src/tpm.c:625,632,638,645`). -/
def nvWrite (c : Chip) (i off : Nat) (d : Bytes) : T Unit := call c fun s =>
  match s.nv i with
  | none => .err rcHandle s
  | some b =>
    if off + d.length ≤ b.length then .ok () (setNv s i (some (splice b off d)))
    else .err rcNvRange s

/-- `wolfTPM2_NVReadAuth` of `n` bytes into an array of `cap` bytes (`/repo/src/tpm.c:684,689,699,705`). -/
def nvRead (c : Chip) (i off n cap : Nat) (e : Bad) : T Bytes := call c fun s =>
  match s.nv i with
  | none => .err rcHandle s
  | some b =>
    if off + n ≤ b.length then
      if cap < n then .bad e s else .ok ((b.drop off).take n) s
    else .err rcNvRange s

/-- `wolfTPM2_NVOpen` (`/repo/src/tpm.c:742`). -/
def nvOpen (c : Chip) (i : Nat) : T Unit := call c fun s =>
  match s.nv i with
  | none => .err rcHandle s
  | some _ => .ok () s

/-- `wolfTPM2_NVDeleteAuth` (`/repo/src/tpm.c:744`). -/
def nvDelete (c : Chip) (i : Nat) : T Unit := call c fun s =>
  match s.nv i with
  | none => .err rcHandle s
  | some _ => .ok () (setNv s i none)

/-- `wolfTPM2_GetRandom` (`/repo/src/tpm.c:415`, `wolfBoot_get_random`). -/
def getRandom (c : Chip) (n : Nat) : T Bytes := call c fun s => .ok (c.random s.k n) s

/-- `wolfTPM2_ExtendPCR` (`/repo/src/tpm.c:313`). -/
def extendPCR (c : Chip) (i : Nat) (d : Bytes) : T Unit := call c fun s =>
  .ok () { s with pcr := fun j => if j = i then c.extend (s.pcr i) d else s.pcr j }

/-- `TPM2_PCR_Read` (`/repo/src/tpm.c:451`). -/
def readPCR (c : Chip) (i : Nat) : T Bytes := call c fun s => .ok (s.pcr i) s

end Verif.Tpm
