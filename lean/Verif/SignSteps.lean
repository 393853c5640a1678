import Verif.SignThms

/-!
# Signing in separate steps: `/repo/tools/keytools/sign.c`

C73. Instead of giving the private key to the tool, the digest can be exported (`--sha-only`), signed elsewhere, and put into the image in a second run (`--manual-sign`). Both runs
get the public key. Modelled: selection of header and signature size, loading of the key, and the three modes, for one Ed25519, Ed448, ECC or RSA key, without `--delta` and
`--hybrid`. Not modelled: LMS, XMSS, ML-DSA.
-/

namespace Verif.SignSteps

open Verif

/-- Signature algorithm chosen on the command line, `/repo/tools/keytools/sign.c:190-197`. -/
inductive Alg where
  | ed25519 | ed448 | ecc256 | ecc384 | ecc521 | rsa2048 | rsa3072 | rsa4096
deriving DecidableEq

/-- `HDR_IMG_TYPE_AUTH_*`, `/repo/include/wolfboot/wolfboot.h:100-110`. -/
def Alg.auth : Alg → Nat
  | .ed25519 => 0x0100
  | .ecc256 => 0x0200
  | .rsa2048 => 0x0300
  | .rsa4096 => 0x0400
  | .ed448 => 0x0500
  | .ecc384 => 0x0600
  | .ecc521 => 0x0700
  | .rsa3072 => 0x0800

/-- The smallest header, `set_signature_sizes`, `/repo/tools/keytools/sign.c:2053-2093`. -/
def Alg.minHdr : Alg → HashAlgo → Nat
  | .ed25519, _ => 256
  | .ed448, _ => 512
  | .ecc256, _ => 256
  | .ecc384, _ => 512
  | .ecc521, _ => 512
  | .rsa2048, _ => 512
  | .rsa3072, .sha256 => 512
  | .rsa3072, _ => 1024
  | .rsa4096, _ => 1024

/-- Size of the signature, `/repo/tools/keytools/sign.c:2056-2092`. -/
def Alg.sigSize : Alg → Nat
  | .ed25519 => 64
  | .ed448 => 114
  | .ecc256 => 64
  | .ecc384 => 96
  | .ecc521 => 132
  | .rsa2048 => 256
  | .rsa3072 => 384
  | .rsa4096 => 512

/-- `set_signature_sizes(0)`, `/repo/tools/keytools/sign.c:2042-2237`: header size (`CMD.header_sz` is 0 before) and signature size; `env` is the value of `IMAGE_HEADER_SIZE` in
the environment (0: not set). Without an algorithm on the command line (`SIGN_AUTO`) no branch is taken. -/
def sizes (a : Option Alg) (algo : HashAlgo) (env : Nat) : Nat × Nat :=
  let h := match a with
    | some a => a.minHdr algo
    | none => 0
  let s := match a with
    | some a => a.sigSize
    | none => 0
  (if env ≠ 0 ∧ h ≤ env then env else h, s)

/-- What wolfCrypt does with key files. -/
structure KeyLib where
  /-- `wc_EccPublicKeyDecode`, `wc_Ed25519PublicKeyDecode`, `wc_Ed448PublicKeyDecode` and the export of the raw key -/
  decPub : Alg → List Byte → Option (List Byte)
  /-- `wc_EccPrivateKeyDecode`, `wc_RsaPrivateKeyDecode` and the export of the public part -/
  decPriv : Alg → List Byte → Option (List Byte)
  /-- `wc_ecc_import_unsigned`, `wc_ed25519_import_private_key`, `wc_ed448_import_private_key` succeed -/
  impRaw : Alg → List Byte → Bool
  /-- `wc_RsaEncryptSize` of the key in the file -/
  rsaSz : List Byte → Nat
  /-- `sign_digest` with the private key in the file -/
  sign : Alg → List Byte → List Byte → Option (List Byte)

/-- Outcome of `load_key`: the public key with header and signature size; the public key in memory that has been freed; an error; the cases of the stateful algorithms. -/
inductive Loaded where
  | key (pub : List Byte) (h s : Nat)
  | freed
  | fail
  | other
deriving DecidableEq

/-- Cases `SIGN_ED25519` and `SIGN_ED448` of `load_key`, `/repo/tools/keytools/sign.c:560-689`. `n`: size of a public key, `h0`: smallest header, `sz`: size of a signature. -/
def loadEd (K : KeyLib) (a : Alg) (n h0 sz : Nat) (pubOnly : Bool) (file : List Byte) (h : Nat) : Loaded :=
  let r := if pubOnly = true then
      if file.length = n then some file else K.decPub a file
    else if file.length = 2 * n then
      if K.impRaw a file = true then some ((file.drop n).take n) else none
    else none
  match r with
  | some p => .key p (if h < h0 then h0 else h) sz
  | none => .fail

/-- `load_key_ecc`, `/repo/tools/keytools/sign.c:347-437`. When the key cannot be decoded, the public key is freed (429) and, as the algorithm has been given on the command line,
the result is 0 all the same (431-435). -/
def loadEcc (K : KeyLib) (a : Alg) (c h0 : Nat) (pubOnly : Bool) (file : List Byte) (h : Nat) : Loaded :=
  let r := if pubOnly = true then
      if file.length = c * 2 then some file else K.decPub a file
    else if file.length = c * 3 then
      if K.impRaw a file = true then some (file.take (c * 2)) else none
    else K.decPriv a file
  match r with
  | some p => .key p (if h < h0 then h0 else h) (c * 2)
  | none => .freed

/-- `load_key_rsa`, `/repo/tools/keytools/sign.c:439-504`. With a public key, the header size is set and not only raised (458). -/
def loadRsa (K : KeyLib) (a : Alg) (keysz pubsz h0 : Nat) (pubOnly : Bool) (file : List Byte) (h s : Nat) : Loaded :=
  if pubOnly = true then
    if file.length ≤ pubsz then .key file h0 keysz else .key file h s
  else
    match K.decPriv a file with
    | some p => .key p (if h < h0 then h0 else h) (K.rsaSz file)
    | none => .other

/-- `load_key`, `/repo/tools/keytools/sign.c:516-888`, with an algorithm given on the command line. `pubOnly`: `CMD.manual_sign || CMD.sha_only`. `ED25519_PRV_KEY_SIZE` is 64,
`ED448_PRV_KEY_SIZE` is 114. -/
def loadKey (K : KeyLib) (a : Alg) (pubOnly : Bool) (file : List Byte) (h s : Nat) : Loaded :=
  match a with
  | .ed25519 => loadEd K a 32 256 64 pubOnly file h
  | .ed448 => loadEd K a 57 512 114 pubOnly file h
  | .ecc256 => loadEcc K a 32 256 pubOnly file h
  | .ecc384 => loadEcc K a 48 512 pubOnly file h
  | .ecc521 => loadEcc K a 66 512 pubOnly file h
  | .rsa2048 => loadRsa K a 256 320 512 pubOnly file h s
  | .rsa3072 => loadRsa K a 384 448 512 pubOnly file h s
  | .rsa4096 => loadRsa K a 512 576 1024 pubOnly file h s

/-- Version, time stamp, partition, custom fields and hash algorithm of an image: `CMD`, `/repo/tools/keytools/sign.c:241-286`. -/
structure Job where
  version : Nat
  timestamp : Option (List Byte)
  part : Nat
  custom : List (Nat × List Byte)
  algo : HashAlgo
  hash : List Byte → List Byte

/-- Input of `make_header_ex` for a job, `/repo/tools/keytools/sign.c:1046-1050,1112-1113`; `part` is below 16, so that `|` is `+`. -/
def Job.opts (j : Job) (a : Alg) (pub : List Byte) (sign : List Byte → List Byte) (policy : Option (List Byte)) : SignOpts :=
  { version := j.version, timestamp := j.timestamp, typ := a.auth + j.part, delta := none, custom := j.custom, algo := j.algo, pubkey := pub, secondary := none, hash := j.hash,
    sign := sign, sign2 := fun _ => [], policy := policy }

/-- The ways to run the tool: with the private key, `--sha-only`, `--manual-sign` with the contents of the signature file. -/
inductive Mode where
  | oneStep
  | shaOnly
  | manual (sigFile : List Byte)

/-- `CMD.manual_sign || CMD.sha_only`, `/repo/tools/keytools/sign.c:360`. -/
def Mode.pubOnly : Mode → Bool
  | .oneStep => false
  | _ => true

/-- Outcome of a run: contents of the output file, a write behind the header buffer, an error, use of the freed public key, not modelled. -/
inductive Out where
  | digest (l : List Byte)
  | image (l : List Byte)
  | overflow
  | exit
  | freed
  | other
deriving DecidableEq

/-- Result of `make_header_ex` as outcome of the run, `/repo/tools/keytools/sign.c:1583-1610`. -/
def Out.of : SignOut → Out
  | .file l => .image l
  | .overflow => .overflow

/-- `make_header_ex`, `/repo/tools/keytools/sign.c:1408-1462`: the digest is written to a file, signed by the tool, or the signature is read from a file, of which at most
`CMD.signature_sz` bytes are used (1455) and at least one must be there. -/
def makeHeader (K : KeyLib) (j : Job) (a : Alg) (mode : Mode) (keyFile img pub : List Byte) (h s : Nat) : Out :=
  let o := j.opts a pub (fun _ => []) none
  match mode with
  | .shaOnly =>
    if ((Item.tag j.algo.tag (o.digest img)).app (o.hashed img)).length > h then .overflow else .digest (o.digest img)
  | .oneStep =>
    match K.sign a keyFile (o.digest img) with
    | some sig => .of (signTool (j.opts a pub (fun _ => sig) none) h img)
    | none => .exit
  | .manual f =>
    if f.take s = [] then .exit else .of (signTool (j.opts a pub (fun _ => f.take s) none) h img)

/-- `main`, `/repo/tools/keytools/sign.c:2712-2757`. -/
def run (K : KeyLib) (j : Job) (alg : Option Alg) (env : Nat) (mode : Mode) (keyFile img : List Byte) : Out :=
  -- 2717-2722
  if (sizes alg j.algo env).2 = 0 ∨ (sizes alg j.algo env).1 = 0 then .exit
  else match alg with
    | none => .exit
    | some a =>
      match loadKey K a mode.pubOnly keyFile (sizes alg j.algo env).1 (sizes alg j.algo env).2 with
      | .key pub h s => makeHeader K j a mode keyFile img pub h s
      | .freed => .freed
      | .fail => .exit
      | .other => .other

/-! ## Signed PCR policy -/

/-- The policy field with `--policy` and the private key, `/repo/tools/keytools/sign.c:1492-1528,1571-1575`: PCR mask and signature of the policy digest. -/
def policyOne (sign : List Byte → Option (List Byte)) (file : List Byte) : Option (List Byte) :=
  if (file.take 4).length ≠ 4 then none
  else if ((file.drop 4).take 32).length ≠ 32 then none
  else match sign ((file.drop 4).take 32) with
    | some sig => some (file.take 4 ++ sig)
    | none => none

/-- The policy field with `--policy` and `--manual-sign`, `/repo/tools/keytools/sign.c:1492-1513,1529-1538,1571-1575`. The buffer has `sz + 4` bytes, of which `sz` are cleared (1498); `junk`
is the rest (contents of the heap). The mask is read to the start of the buffer, and the signature, by line 1531, as well. -/
def policyManual (junk : List Byte) (sz : Nat) (file : List Byte) : Option (List Byte) :=
  if (file.take 4).length ≠ 4 then none
  else
    let buf := file.take 4 ++ (List.replicate sz 0#8 ++ junk).drop 4
    let r := (file.drop 4).take sz
    if r = [] then none else some ((r ++ buf.drop r.length).take (r.length + 4))

/-! ## Vocabulary of the statements -/

/-- Size of a raw public key; 0 for RSA, whose keys are always DER files. -/
def rawPub : Alg → Nat
  | .ed25519 => 32
  | .ed448 => 57
  | .ecc256 => 64
  | .ecc384 => 96
  | .ecc521 => 132
  | _ => 0

/-- Size of a raw private key file; 0 for RSA. -/
def rawPriv : Alg → Nat
  | .ed25519 => 64
  | .ed448 => 114
  | .ecc256 => 96
  | .ecc384 => 144
  | .ecc521 => 198
  | _ => 0

def isEd : Alg → Bool
  | .ed25519 | .ed448 => true
  | _ => false

def isRsa : Alg → Bool
  | .rsa2048 | .rsa3072 | .rsa4096 => true
  | _ => false

/-- The file contains the public key `p`. -/
def PubFile (K : KeyLib) (a : Alg) (file p : List Byte) : Prop :=
  if isRsa a = true then file = p
  else (file.length = rawPub a ∧ file = p) ∨ (file.length ≠ rawPub a ∧ K.decPub a file = some p)

/-- The file contains a private key with public part `p`; an RSA key has the size of the algorithm. -/
def PrivFile (K : KeyLib) (a : Alg) (file p : List Byte) : Prop :=
  if isRsa a = true then K.decPriv a file = some p ∧ K.rsaSz file = a.sigSize
  else if isEd a = true then
    ∃ d, file = d ++ p ∧ d.length = rawPub a ∧ p.length = rawPub a ∧ K.impRaw a file = true
  else (∃ d, file = p ++ d ∧ p.length = rawPub a ∧ file.length = rawPriv a ∧ K.impRaw a file = true) ∨
    (file.length ≠ rawPriv a ∧ K.decPriv a file = some p)

/-- Largest RSA public key for which the size of the header is replaced. -/
def maxPub : Alg → Nat
  | .rsa2048 => 320
  | .rsa3072 => 448
  | .rsa4096 => 576
  | _ => 0

/-- The header size in the run with the private key. -/
def hdrOne (a : Alg) (algo : HashAlgo) (env : Nat) : Nat := if env ≠ 0 ∧ a.minHdr algo ≤ env then env else a.minHdr algo

/-- The header size in the runs with the public key `p`. -/
def hdrPub (a : Alg) (algo : HashAlgo) (env : Nat) (p : List Byte) : Nat :=
  if isRsa a = true ∧ p.length ≤ maxPub a then (if a = .rsa4096 then 1024 else 512) else hdrOne a algo env

/-! ## Loading of keys -/

theorem load_priv {K : KeyLib} {a : Alg} {file p : List Byte} (h : PrivFile K a file p) (algo : HashAlgo) (env : Nat) :
    loadKey K a false file (hdrOne a algo env) a.sigSize = .key p (hdrOne a algo env) a.sigSize := by
  have hm : ∀ h0, h0 ≤ a.minHdr algo → (if hdrOne a algo env < h0 then h0 else hdrOne a algo env) = hdrOne a algo env := by
    intro h0 hle
    rw [if_neg]
    unfold hdrOne
    split <;> omega
  have hed : ∀ n h0 sz, isRsa a = false → isEd a = true → n = rawPub a → h0 ≤ a.minHdr algo →
      loadEd K a n h0 sz false file (hdrOne a algo env) = .key p (hdrOne a algo env) sz := by
    intro n h0 sz hr he hn hle
    unfold PrivFile at h
    rw [hr, he] at h
    simp only [Bool.false_eq_true, if_false, if_true] at h
    obtain ⟨d, rfl, h1, h2, h3⟩ := h
    unfold loadEd
    subst hn
    rw [if_neg (by decide), if_pos (by simp; omega), if_pos h3]
    dsimp only
    rw [hm h0 hle, ← h1, List.drop_left, h1, ← h2, List.take_length]
  have hec : ∀ c h0, isRsa a = false → isEd a = false → c * 2 = rawPub a → c * 3 = rawPriv a → h0 ≤ a.minHdr algo →
      loadEcc K a c h0 false file (hdrOne a algo env) = .key p (hdrOne a algo env) (c * 2) := by
    intro c h0 hr he hn hn3 hle
    unfold PrivFile at h
    rw [hr, he] at h
    simp only [Bool.false_eq_true, if_false] at h
    unfold loadEcc
    rw [if_neg (by decide)]
    rcases h with ⟨d, rfl, h1, h2, h3⟩ | ⟨h1, h2⟩
    · rw [if_pos (by rw [h2, hn3]), if_pos h3]
      dsimp only
      rw [hm h0 hle, hn, ← h1, List.take_left]
    · rw [if_neg (by rw [hn3]; exact h1), h2]
      dsimp only
      rw [hm h0 hle]
  have hrs : ∀ k q h0, isRsa a = true → h0 ≤ a.minHdr algo →
      loadRsa K a k q h0 false file (hdrOne a algo env) a.sigSize = .key p (hdrOne a algo env) a.sigSize := by
    intro k q h0 hr hle
    unfold PrivFile at h
    rw [if_pos hr] at h
    unfold loadRsa
    rw [if_neg (by decide), h.1]
    dsimp only
    rw [hm h0 hle, h.2]
  cases a
  · exact hed _ _ _ rfl rfl rfl (Nat.le_refl _)
  · exact hed _ _ _ rfl rfl rfl (Nat.le_refl _)
  · exact hec _ _ rfl rfl rfl rfl (Nat.le_refl _)
  · exact hec _ _ rfl rfl rfl rfl (Nat.le_refl _)
  · exact hec _ _ rfl rfl rfl rfl (Nat.le_refl _)
  · exact hrs _ _ _ rfl (Nat.le_refl _)
  · exact hrs _ _ _ rfl (by cases algo <;> simp [Alg.minHdr])
  · exact hrs _ _ _ rfl (Nat.le_refl _)

theorem load_pub {K : KeyLib} {a : Alg} {file p : List Byte} (h : PubFile K a file p) (algo : HashAlgo) (env : Nat) :
    loadKey K a true file (hdrOne a algo env) a.sigSize = .key p (hdrPub a algo env p) a.sigSize := by
  have hm : ∀ h0, h0 ≤ a.minHdr algo → (if hdrOne a algo env < h0 then h0 else hdrOne a algo env) = hdrOne a algo env := by
    intro h0 hle
    rw [if_neg]
    unfold hdrOne
    split <;> omega
  have hraw : ∀ n, n = rawPub a → isRsa a = false →
      (if file.length = n then some file else K.decPub a file) = some p := by
    intro n hn hr
    unfold PubFile at h
    rw [hr] at h
    simp only [Bool.false_eq_true, if_false] at h
    subst hn
    rcases h with ⟨h1, rfl⟩ | ⟨h1, h2⟩
    · rw [if_pos h1]
    · rw [if_neg h1, h2]
  have hp : isRsa a = false → hdrPub a algo env p = hdrOne a algo env := by
    intro hr
    unfold hdrPub
    rw [if_neg (by simp [hr])]
  have hed : ∀ n h0 sz, isRsa a = false → n = rawPub a → h0 ≤ a.minHdr algo →
      loadEd K a n h0 sz true file (hdrOne a algo env) = .key p (hdrPub a algo env p) sz := by
    intro n h0 sz hr hn hle
    unfold loadEd
    rw [if_pos rfl, hraw n hn hr, hp hr]
    dsimp only
    rw [hm h0 hle]
  have hec : ∀ c h0, isRsa a = false → c * 2 = rawPub a → h0 ≤ a.minHdr algo →
      loadEcc K a c h0 true file (hdrOne a algo env) = .key p (hdrPub a algo env p) (c * 2) := by
    intro c h0 hr hn hle
    unfold loadEcc
    rw [if_pos rfl, hraw _ hn hr, hp hr]
    dsimp only
    rw [hm h0 hle]
  have hrs : ∀ h0, isRsa a = true → h0 = (if a = .rsa4096 then 1024 else 512) →
      loadRsa K a a.sigSize (maxPub a) h0 true file (hdrOne a algo env) a.sigSize = .key p (hdrPub a algo env p) a.sigSize := by
    intro h0 hr hh
    unfold PubFile at h
    rw [if_pos hr] at h
    subst h
    unfold loadRsa hdrPub
    rw [if_pos rfl]
    split
    · next hl => rw [if_pos ⟨hr, hl⟩, hh]
    · next hl => rw [if_neg (fun hc => hl hc.2)]
  cases a
  · exact hed _ _ _ rfl rfl (Nat.le_refl _)
  · exact hed _ _ _ rfl rfl (Nat.le_refl _)
  · exact hec _ _ rfl rfl (Nat.le_refl _)
  · exact hec _ _ rfl rfl (Nat.le_refl _)
  · exact hec _ _ rfl rfl (Nat.le_refl _)
  · exact hrs _ rfl rfl
  · exact hrs _ rfl rfl
  · exact hrs _ rfl rfl

theorem sizes_some (a : Alg) (algo : HashAlgo) (env : Nat) : sizes (some a) algo env = (hdrOne a algo env, a.sigSize) := rfl

theorem sizes_pos (a : Alg) (algo : HashAlgo) (env : Nat) :
    ¬((sizes (some a) algo env).2 = 0 ∨ (sizes (some a) algo env).1 = 0) := by
  rw [sizes_some]
  have h1 : a.sigSize ≠ 0 := by cases a <;> simp [Alg.sigSize]
  have h2 : a.minHdr algo ≠ 0 := by cases a <;> cases algo <;> simp [Alg.minHdr]
  have h3 : hdrOne a algo env ≠ 0 := by
    unfold hdrOne
    split
    · next h => exact h.1
    · exact h2
  intro h
  rcases h with h | h
  · exact h1 h
  · exact h3 h

theorem run_priv {K : KeyLib} {a : Alg} {file p : List Byte} (h : PrivFile K a file p) (j : Job) (env : Nat) (img : List Byte) :
    run K j (some a) env .oneStep file img = makeHeader K j a .oneStep file img p (hdrOne a j.algo env) a.sigSize := by
  unfold run
  rw [if_neg (sizes_pos _ _ _)]
  dsimp only
  rw [sizes_some]
  dsimp only [Mode.pubOnly]
  rw [load_priv h]

theorem run_pub {K : KeyLib} {a : Alg} {file p : List Byte} (h : PubFile K a file p) (j : Job) (env : Nat) (img : List Byte) (mode : Mode)
    (hm : mode.pubOnly = true) :
    run K j (some a) env mode file img = makeHeader K j a mode file img p (hdrPub a j.algo env p) a.sigSize := by
  unfold run
  rw [if_neg (sizes_pos _ _ _)]
  dsimp only
  rw [sizes_some]
  dsimp only
  rw [hm, load_pub h]

/-! ## Claims -/

theorem opts_digest (j : Job) (a : Alg) (pub : List Byte) (s s' : List Byte → List Byte) (q q' : Option (List Byte)) (img : List Byte) :
    (j.opts a pub s q).digest img = (j.opts a pub s' q').digest img := rfl

theorem signTool_prefix {o : SignOpts} {h : Nat} {img l : List Byte} (hs : signTool o h img = .file l) :
    ((Item.tag o.algo.tag (o.digest img)).app (o.hashed img)).length ≤ h := by
  unfold signTool at hs
  dsimp only at hs
  split at hs
  · simp at hs
  · next hl =>
    unfold SignOpts.items at hl
    rw [render_append] at hl
    have := render_length_le ((Item.tag o.algo.tag (o.digest img)).app (o.hashed img)) (o.part3 (o.digest img))
    have he : render (render (u32 MAGIC ++ u32 img.length) (o.part1 ++ o.part2)) (.tag o.algo.tag (o.digest img) :: o.part3 (o.digest img)) =
        render ((Item.tag o.algo.tag (o.digest img)).app (o.hashed img)) (o.part3 (o.digest img)) := rfl
    rw [he] at hl
    omega

/-- **C73 (three steps).** With a public key file that belongs to the private key, and if the header has the same size: when the run with the private key makes an image, then the digest
exported with `--sha-only`, signed with this private key (by whoever has it) and given to `--manual-sign`, makes exactly the same image. -/
theorem three_steps (K : KeyLib) (j : Job) (a : Alg) (env : Nat) (priv pub p img l : List Byte) (hpr : PrivFile K a priv p) (hpu : PubFile K a pub p)
    (hh : hdrPub a j.algo env p = hdrOne a j.algo env) (hsz : ∀ d s, K.sign a priv d = some s → s.length = a.sigSize)
    (ho : run K j (some a) env .oneStep priv img = .image l) :
    ∃ d s, run K j (some a) env .shaOnly pub img = .digest d ∧ K.sign a priv d = some s ∧
      run K j (some a) env (.manual s) pub img = .image l := by
  rw [run_priv hpr] at ho
  unfold makeHeader at ho
  dsimp only at ho
  cases hs : K.sign a priv ((j.opts a p (fun _ => []) none).digest img) with
  | none => rw [hs] at ho; cases ho
  | some s =>
    rw [hs] at ho
    dsimp only at ho
    have hlen := hsz _ _ hs
    have hpos : a.sigSize ≠ 0 := by cases a <;> simp [Alg.sigSize]
    have htk : s.take a.sigSize = s := by rw [← hlen, List.take_length]
    have hne : s ≠ [] := by
      rintro rfl
      simp at hlen
      omega
    refine ⟨_, s, ?_, hs, ?_⟩
    · rw [run_pub hpu _ _ _ _ rfl, hh]
      unfold makeHeader
      dsimp only
      rw [if_neg]
      cases ht : signTool (j.opts a p (fun _ => s) none) (hdrOne a j.algo env) img with
      | overflow => rw [ht] at ho; cases ho
      | file l' =>
        have := signTool_prefix ht
        have he : ((Item.tag (j.opts a p (fun _ => s) none).algo.tag ((j.opts a p (fun _ => s) none).digest img)).app
            ((j.opts a p (fun _ => s) none).hashed img)).length =
          ((Item.tag j.algo.tag ((j.opts a p (fun _ => []) none).digest img)).app ((j.opts a p (fun _ => []) none).hashed img)).length := rfl
        rw [he] at this
        omega
    · rw [run_pub hpu _ _ _ _ rfl, hh]
      unfold makeHeader
      dsimp only
      rw [htk, if_neg hne]
      exact ho

/-- **C73 (same header size, exact).** The size of the header in the separate steps is that of the run with the private key for Ed25519, Ed448 and ECC. For RSA keys of ordinary size it
is so exactly if `IMAGE_HEADER_SIZE` does not ask for more than the smallest header, and, for RSA 3072, if the hash is SHA-256. -/
theorem hdr_same_iff (a : Alg) (algo : HashAlgo) (env : Nat) (p : List Byte) :
    hdrPub a algo env p = hdrOne a algo env ↔
      (isRsa a = true → p.length ≤ maxPub a → env ≤ a.minHdr algo ∧ (a = .rsa3072 → algo = .sha256)) := by
  have hm : isRsa a = true → ((if a = .rsa4096 then 1024 else 512) = a.minHdr algo ↔ (a = .rsa3072 → algo = .sha256)) ∧
      (if a = .rsa4096 then 1024 else 512) ≤ a.minHdr algo ∧ 0 < a.minHdr algo := by
    intro hr
    cases a <;> cases algo <;> first | (cases hr; done) | simp [Alg.minHdr]
  unfold hdrPub
  by_cases hc : isRsa a = true ∧ p.length ≤ maxPub a
  · obtain ⟨h1, h2, h3⟩ := hm hc.1
    rw [if_pos hc]
    generalize (if a = .rsa4096 then 1024 else 512) = x at h1 h2
    unfold hdrOne
    constructor
    · intro he _ _
      split at he
      · next hv => exact ⟨by omega, h1.mp (by omega)⟩
      · next hv =>
        refine ⟨?_, h1.mp he⟩
        by_cases h0 : env = 0
        · omega
        · exact Nat.le_of_not_le (fun hle => hv ⟨h0, hle⟩)
    · intro h
      obtain ⟨h4, h5⟩ := h hc.1 hc.2
      have h6 := h1.mpr h5
      split
      · next hv => omega
      · exact h6
  · rw [if_neg hc]
    exact ⟨fun _ h1 h2 => absurd ⟨h1, h2⟩ hc, fun _ => rfl⟩

end Verif.SignSteps
