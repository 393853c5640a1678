import Verif.TpmBoot
import Verif.BinAssemble
import Verif.SignSteps

/-!
# The tools for the TPM: `/repo/tools/tpm/policy_create.c`, `policy_sign.c`, `rot.c`

C76. Command lines are lists of texts without the name of the program. The file system, the TPM and the
libraries wolfTPM and wolfCrypt are parameters: `Lib` for the computation of policy digests and
signatures (the return value `none` is an error), `Verif.Tpm.Chip` for the non-volatile indices.
`XATOI` and `XSTRTOL` are `atoi` and `strtol` of glibc with 64-bit `long`, as in `Verif.BinAssemble`. The
host is little endian. Messages are left out, except where printing reads beyond an array.
-/

namespace Verif.TpmTools

open Verif Verif.Tpm

/-- What the tools use of wolfTPM and wolfCrypt. -/
structure Lib where
  /-- `wolfTPM2_PCRGetDigest` (`/repo/tools/tpm/policy_create.c:160`): from the array of indices and the
  values of the registers -/
  getDigest : List Nat → (Nat → Bytes) → Bytes
  /-- `wolfTPM2_PolicyPCRMake` (`/repo/tools/tpm/policy_create.c:176`, `policy_sign.c:364`) with a zero
  digest at the start: from the array of indices and the digest of the values -/
  pcrMake : List Nat → Bytes → Option Bytes
  /-- `wolfTPM2_PolicyRefMake` without reference (`/repo/tools/tpm/policy_create.c:180`,
  `policy_sign.c:372`) -/
  refMake : Bytes → Bytes
  /-- `wc_ecc_import_unsigned`, `wc_ecc_sign_hash_ex` (`/repo/tools/tpm/policy_sign.c:134-140`): from size
  of the coordinates, key file and digest to the numbers `r` and `s` -/
  ecdsa : Nat → Bytes → Bytes → Option (Nat × Nat)

/-- `sizeof(pcrArray)`, `PCR_SELECT_MAX*2` (`/repo/tools/tpm/policy_create.c:205`, `policy_sign.c:242`); 3
in wolfTPM. -/
def CAP : Nat := 6

/-- `WC_MAX_DIGEST_SIZE`, 64 bytes (`/repo/tools/tpm/policy_create.c:208`, `policy_sign.c:246,248`,
`rot.c:64`). -/
def MAXDIG : Nat := 64

/-- The text behind an option, `XSTRNCMP(argv[argc-1], "-pcr=", XSTRLEN("-pcr=")) == 0`
(`/repo/tools/tpm/policy_create.c:223-224`). -/
def after (p s : List Char) : Option (List Char) :=
  if p.isPrefixOf s then some (s.drop p.length) else none

/-- `(byte)XATOI(pcrStr)`, `/repo/tools/tpm/policy_create.c:225`, `policy_sign.c:274`. -/
def atoiByte (s : List Char) : Nat :=
  match s.dropWhile BinAssemble.isSpace with
  | '-' :: r => (256 - min (BinAssemble.number 10 0 r).1 9223372036854775808 % 256) % 256
  | '+' :: r => min (BinAssemble.number 10 0 r).1 9223372036854775807 % 256
  | r => min (BinAssemble.number 10 0 r).1 9223372036854775807 % 256

/-- `(word32)XSTRTOL(pcrMaskStr, NULL, 0)`, `/repo/tools/tpm/policy_create.c:235`, `rot.c:218`. -/
def word32 (s : List Char) : Nat := BinAssemble.address s % 4294967296

/-- `hexCharToByte`, `/repo/tools/tpm/policy_create.c:70-82`, `policy_sign.c:171-183`; `none`: -1. -/
def hexChar (c : Char) : Option Nat :=
  if 48 ≤ c.toNat ∧ c.toNat ≤ 57 then some (c.toNat - 48)
  else if 65 ≤ c.toNat ∧ c.toNat ≤ 70 then some (c.toNat - 55)
  else if 97 ≤ c.toNat ∧ c.toNat ≤ 102 then some (c.toNat - 87)
  else none

/-- `hexToByte`, `/repo/tools/tpm/policy_create.c:83-97`, `policy_sign.c:185-199`; `none`: -1. In a text of
odd length the last character is paired with the terminating zero. -/
def hexToByte : List Char → Option Bytes
  | [] => some []
  | [_] => none
  | a :: b :: r =>
    match hexChar a, hexChar b with
    | some x, some y => (hexToByte r).map (BitVec.ofNat 8 (x * 16 + y) :: ·)
    | _, _ => none

/-- A digest on the command line: not given (size 0), bytes, or the size -1, which is 0xFFFFFFFF as
`word32` and passes the test `pcrDigestSz <= 0` (`/repo/tools/tpm/policy_create.c:209,240-245`). -/
inductive Dig where
  | unset
  | bytes (b : Bytes)
  | huge
deriving DecidableEq

/-- `/repo/tools/tpm/policy_create.c:238-248`, `policy_sign.c:283-295,296-308`; `none`: usage message. -/
def digest (t : List Char) : Option Dig :=
  if 2 * MAXDIG + 1 < t.length then some .huge
  else match hexToByte t with
    | none => some .huge
    | some [] => none
    | some b => some (.bytes b)

/-- The end of a tool: usage message with exit code; access beyond an array; exit code and the file
written, with its name. -/
inductive Out where
  | usage (rc : Int)
  | ub
  | done (rc : Int) (file : Option (List Char × Bytes))
deriving DecidableEq

/-- The variables set by the options of both tools (`/repo/tools/tpm/policy_create.c:204-213`,
`policy_sign.c:236-255`). -/
structure Opts where
  pcrs : List Nat := []
  mask : Nat := 0
  pcrDig : Dig := .unset
  polDig : Dig := .unset
  key : List Char := "wolfboot_signing_private_key.der".toList
  ecc384 : Bool := false
  out : List Char
deriving DecidableEq

/-- Result of one option. -/
inductive Step where
  | go (o : Opts)
  | stop (e : Out)
deriving DecidableEq

/-- `-pcr=`, `/repo/tools/tpm/policy_create.c:223-232`, `policy_sign.c:272-282`: the array is not
checked for room. -/
def optPcr (o : Opts) (t : List Char) : Step :=
  if 23 < atoiByte t then .stop (.usage 0)
  else if CAP ≤ o.pcrs.length then .stop .ub
  else .go { o with pcrs := o.pcrs ++ [atoiByte t] }

/-- `-pcrdigest=`. -/
def optPcrDig (o : Opts) (t : List Char) : Step :=
  match digest t with
  | none => .stop (.usage (-1))
  | some d => .go { o with pcrDig := d }

/-- `-policydigest=`, `/repo/tools/tpm/policy_sign.c:296-308`. -/
def optPolDig (o : Opts) (t : List Char) : Step :=
  match digest t with
  | none => .stop (.usage (-1))
  | some d => .go { o with polDig := d }

/-- One option of `policy_create`, `/repo/tools/tpm/policy_create.c:223-256`. -/
def createStep (o : Opts) (a : List Char) : Step :=
  match after "-pcr=".toList a with
  | some t => optPcr o t
  | none => match after "-pcrmask=".toList a with
    | some t => .go { o with mask := word32 t }
    | none => match after "-pcrdigest=".toList a with
      | some t => optPcrDig o t
      | none => match after "-out=".toList a with
        | some t => .go { o with out := t }
        | none => .go o

/-- One option of `policy_sign`, `/repo/tools/tpm/policy_sign.c:266-319`. -/
def signStep (o : Opts) (a : List Char) : Step :=
  if a = "-ecc256".toList then .go { o with ecc384 := false }
  else if a = "-ecc384".toList then .go { o with ecc384 := true }
  else match after "-pcr=".toList a with
  | some t => optPcr o t
  | none => match after "-pcrdigest=".toList a with
    | some t => optPcrDig o t
    | none => match after "-policydigest=".toList a with
      | some t => optPolDig o t
      | none => match after "-key=".toList a with
        | some t => .go { o with key := t }
        | none => match after "-outpolicy=".toList a with
          | some t => .go { o with out := t }
          | none => .go o

/-- The loop `while (argc > 1)`, `/repo/tools/tpm/policy_create.c:222-258`, `policy_sign.c:265-321`: `l`
are the arguments from the last to the first. -/
def parse (step : Opts → List Char → Step) (o : Opts) : List (List Char) → Step
  | [] => .go o
  | a :: r => match step o a with
    | .go o' => parse step o' r
    | .stop e => .stop e

/-- `/repo/tools/tpm/policy_create.c:214-221`, `policy_sign.c:257-264`, `rot.c:207-214`: only the first
argument is looked at. -/
def wantsHelp : List (List Char) → Bool
  | a :: _ => a = "-?".toList || a = "-h".toList || a = "--help".toList
  | [] => false

/-- `pcrMask |= (1 << pcrArray[i])`, `/repo/tools/tpm/policy_create.c:146-149`, `policy_sign.c:382-384`. -/
def maskOf (l : List Nat) : Nat := l.foldl (fun m i => m ||| (1 <<< i)) 0

/-- `XMEMCPY(policy, &pcrMask, sizeof(pcrMask))`, `/repo/tools/tpm/policy_create.c:152`,
`policy_sign.c:386`. -/
def enc32 (n : Nat) : Bytes := enc16 n ++ enc16 (n / 65536)

/-- `writeBin`, `/repo/tools/tpm/policy_create.c:47-68`, `policy_sign.c:214-234`: can the file be
written? -/
abbrev Writable := List Char → Bool

/-- The digest of the values, `/repo/tools/tpm/policy_create.c:155-171`: the given one, or that of the TPM
(`none`: the TPM fails). -/
def valuesDigest (L : Lib) (tpm : Option (Nat → Bytes)) (l : List Nat) : Dig → Option Dig
  | .unset => tpm.map fun v => .bytes (L.getDigest l v)
  | d => some d

/-- `TPM2_PCR_Policy_Create`, `/repo/tools/tpm/policy_create.c:128-199`: printing (172-173) reads as many
bytes of the digest as its size says. The return value of `writeBin` (192) is ignored. -/
def policyCreate (L : Lib) (tpm : Option (Nat → Bytes)) (w : Writable) (l : List Nat) (out : List Char)
    (d : Dig) : Out :=
  match valuesDigest L tpm l d with
  | none => .done (-1) none
  | some (.bytes pd) =>
    match L.pcrMake l pd with
    | none => .done (-1) none
    | some x =>
      .done 0 (if w out then some (out, enc32 (maskOf l) ++ L.refMake x) else none)
  | some _ => .ub

/-- `/repo/tools/tpm/policy_create.c:260-269`. -/
def chosen (o : Opts) : List Nat :=
  if o.pcrs = [] then (if o.mask = 0 then [16] else pcrSel o.mask CAP) else o.pcrs

/-- `main` of `policy_create`, `/repo/tools/tpm/policy_create.c:201-274`. -/
def create (L : Lib) (tpm : Option (Nat → Bytes)) (w : Writable) (args : List (List Char)) : Out :=
  if wantsHelp args then .usage 0
  else match parse createStep { out := "policy.bin".toList } args.reverse with
    | .stop e => e
    | .go o => policyCreate L tpm w (chosen o) o.out o.pcrDig

/-- `mp_to_unsigned_bin`, `/repo/tools/tpm/policy_sign.c:148,150`: the bytes of a number, most significant
first, without leading zeros. -/
def minBytes (n : Nat) : Bytes :=
  if n = 0 then [] else minBytes (n / 256) ++ [BitVec.ofNat 8 n]
termination_by n
decreasing_by omega

/-- A number at the end of a cleared array of `k` bytes, `/repo/tools/tpm/policy_sign.c:143-150`. -/
def pad (k n : Nat) : Bytes := List.replicate (k - (minBytes n).length) 0#8 ++ minBytes n

/-- Result of `PolicySign`. -/
inductive Sig where
  | ok (b : Bytes)
  | err
  | ub
deriving DecidableEq

/-- `PolicySign`, `/repo/tools/tpm/policy_sign.c:102-169`, with `loadFile`, 59-99; an empty file is an
error. The size of the key file is not compared with that of the key. -/
def policySign (L : Lib) (files : List Char → Option Bytes) (o : Opts) (hash : Bytes) : Sig :=
  match files o.key with
  | none => .err
  | some buf =>
    if buf = [] then .err
    else if buf.length < 3 * (if o.ecc384 then 48 else 32) then .ub
    else match L.ecdsa (if o.ecc384 then 48 else 32) buf hash with
      | none => .err
      | some (r, s) => .ok (pad (if o.ecc384 then 48 else 32) r ++ pad (if o.ecc384 then 48 else 32) s)

/-- The digest to be signed, `/repo/tools/tpm/policy_sign.c:352-377`; printing (358,377) reads as
many bytes as the sizes say. -/
inductive ToSign where
  | ok (d : Bytes)
  | end (e : Out)
deriving DecidableEq

/-- See `ToSign`; `l` are the PCRs. -/
def digestToSign (L : Lib) (l : List Nat) : Dig → Dig → ToSign
  | .unset, .unset => .end (.usage (-1))
  | .huge, _ => .end .ub
  | .bytes pd, .unset =>
    match L.pcrMake l pd with
    | none => .end (.done (-1) none)
    | some x => .ok (L.refMake x)
  | _, .bytes d => .ok d
  | _, .huge => .end .ub

/-- `/repo/tools/tpm/policy_sign.c:325-328`. -/
def signed (o : Opts) : List Nat := if o.pcrs = [] then [16] else o.pcrs

/-- `/repo/tools/tpm/policy_sign.c:380-404`. -/
def finish (L : Lib) (files : List Char → Option Bytes) (w : Writable) (o : Opts) (d : Bytes) : Out :=
  match policySign L files o d with
  | .ub => .ub
  | .err => .done (-1) none
  | .ok sig =>
    if w o.out then .done 0 (some (o.out, enc32 (maskOf (signed o)) ++ sig)) else .done (-1) none

/-- `policy_sign`, `/repo/tools/tpm/policy_sign.c:236-405`. -/
def sign (L : Lib) (files : List Char → Option Bytes) (w : Writable) (args : List (List Char)) : Out :=
  if wantsHelp args then .usage 0
  else match parse signStep { out := "policy.bin.sig".toList } args.reverse with
    | .stop e => e
    | .go o => match digestToSign L (signed o) o.pcrDig o.polDig with
      | .end e => e
      | .ok d => finish L files w o d

/-! ## Root of trust -/

/-- `TPM_RC_NV_LOCKED` -/
def rcNvLocked : Int := 0x148

/-- `wolfTPM2_NVCreateAuth`, `/repo/tools/tpm/rot.c:132-137`: an index that exists is used as it is. -/
def createIndex (c : Chip) (i n : Nat) : T Unit := fun s =>
  match nvCreate c i n s with
  | .err rc s1 => if rc = rcNvDefined then .ok () s1 else .err rc s1
  | r => r

/-- `wolfTPM2_NVWriteAuth`, `/repo/tools/tpm/rot.c:141`; `lk`: the indices that are locked against
writing. -/
def writeIndex (c : Chip) (lk : Nat → Bool) (i : Nat) (d : Bytes) : T Unit := call c fun s =>
  match s.nv i with
  | none => .err rcHandle s
  | some b =>
    if lk i then .err rcNvLocked s
    else if d.length ≤ b.length then .ok () (setNv s i (some (d ++ b.drop d.length)))
    else .err rcNvRange s

/-- `/repo/tools/tpm/rot.c:121-146`. -/
def rotWrite (c : Chip) (lk : Nat → Bool) (doWrite : Bool) (i : Nat) (d : Bytes) : T Unit :=
  if doWrite then do
    plain c
    createIndex c i d.length
    writeIndex c lk i d
  else pure ()

/-- `wolfTPM2_NVReadPublic`, `/repo/tools/tpm/rot.c:156`: size of the index. -/
def readPublic (c : Chip) (i : Nat) : T Nat := call c fun s =>
  match s.nv i with
  | none => .err rcHandle s
  | some b => .ok b.length s

/-- `/repo/tools/tpm/rot.c:154-165`: the whole index is read into an array of `MAXDIG` bytes. -/
def rotRead (c : Chip) (i : Nat) : T Bytes := do
  let n ← readPublic c i
  nvRead c i 0 n MAXDIG .hashBuf

/-- Result of `rot`: exit code, locked indices and state of the TPM, or undefined behaviour. -/
inductive Rot where
  | done (rc : Int) (lk : Nat → Bool) (s : S)
  | ub

/-- `/repo/tools/tpm/rot.c:174-180`: `wolfTPM2_NVWriteLock`. -/
def rotLock (c : Chip) (lk : Nat → Bool) (doLock : Bool) (i : Nat) : T (Nat → Bool) :=
  if doLock then do
    plain c
    pure (fun j => j == i || lk j)
  else pure lk

/-- One round of the loop, `/repo/tools/tpm/rot.c:101-183`; `d` is the digest of the key. -/
def rotKey (c : Chip) (lk : Nat → Bool) (doWrite doLock : Bool) (i : Nat) (d : Bytes) : T (Nat → Bool) := do
  rotWrite c lk doWrite i d
  let _ ← rotRead c i
  rotLock c lk doLock i

/-- The loop over the keys, `/repo/tools/tpm/rot.c:101-183`, from index `i` on; `ds` are the digests of the
public keys of `keystore.c`. -/
def rotLoop (c : Chip) (doWrite doLock : Bool) : List Bytes → Nat → (Nat → Bool) → S → Rot
  | [], _, lk, s => .done 0 lk s
  | d :: r, i, lk, s =>
    match rotKey c lk doWrite doLock i d s with
    | .ok lk' s1 => rotLoop c doWrite doLock r (i + 1) lk' s1
    | .err rc s1 => .done rc lk s1
    | .bad _ _ => .ub

/-- `wolfTPM2_Init`, `wolfTPM2_StartSession`, `wolfTPM2_SetAuthSession`, `/repo/tools/tpm/rot.c:75-96`. -/
def rotStart (c : Chip) : T Unit := do
  plain c
  plain c
  plain c

/-- `TPM2_Boot_SecureROT_Example`, `/repo/tools/tpm/rot.c:50-195`; `hash` is that of `hashType`, `keys` the
public keys of the keystore. The password is not modelled. -/
def rot (c : Chip) (base : Nat) (hash : Bytes → Bytes) (doWrite doLock : Bool) (keys : List Bytes)
    (lk : Nat → Bool) (s : S) : Rot :=
  match rotStart c s with
  | .err rc s1 => .done rc lk s1
  | .bad _ _ => .ub
  | .ok _ s1 => rotLoop c doWrite doLock (keys.map hash) base lk s1

end Verif.TpmTools
