import Verif.Rsa

/-!
# Signature verification functions: `/repo/src/image.c`

C56. Every algorithm has a function `wolfBoot_verify_signature_*` between the image code and the
cryptographic library (wolfCrypt, wolfHSM client, wolfTPM, drivers of Renesas devices). The library
is not part of the repository: it is a parameter, a record of functions with arbitrary results. The
functions are modelled as the list of calls that they make, with the values returned; the last
entry of interest is `confirm`, the call of `wolfBoot_image_confirm_signature_ok`.

`VERIFY_FN` and `RSA_VERIFY_HASH` are the plain macros (`/repo/include/image.h:803-814`); their
armored counterparts are in `Verif.Armor`, only the return value of the armored `RSA_VERIFY_FN` is
repeated here. `int` is unbounded. Contexts (`ed25519_key`, `ecc_key`, ...) are represented by the
key that was put into them.
-/

namespace Verif.SigWrap

open Verif

/-- Where the public key in a context comes from: the bytes of a key slot, a key stored under the id
`hsmClientKeyIdPubKey` on the HSM, bytes of a key slot cached on the HSM, the key installed in a
Renesas device. -/
inductive Key where
  | raw (k : List Byte)
  | hsmId
  | cached (k : List Byte)
  | device
deriving DecidableEq

/-- Calls of the library with their return values. -/
inductive Ev where
  /-- creation of the context -/
  | init (rc : Int)
  /-- choice of the parameters of the algorithm -/
  | params (rc : Int)
  /-- cache a key on the HSM -/
  | cache (k : List Byte) (rc : Int)
  /-- put a key into the context -/
  | key (k : Key) (rc : Int)
  /-- use of the context to check a signature of a digest; `good`: accepted -/
  | verify (k : Key) (hash : List Byte) (good : Bool)
  /-- remove a key from the cache of the HSM -/
  | evict (rc : Int)
  | free
  /-- `wolfBoot_image_confirm_signature_ok` -/
  | confirm
  /-- read through a NULL pointer or beyond the memory behind `sig` -/
  | crash
deriving DecidableEq

/-- The cryptographic library. Functions with an output argument `res` get its initial value. -/
structure Lib where
  init : Int
  params : Int
  key : Key → Int
  /-- `ecc.type == ECC_PUBLICKEY` after the import -/
  isPub : Key → Bool
  cache : List Byte → Int
  evict : Int
  pubLen : Int × Int
  sigLen : Int × Int
  /-- signature as bytes: return value and `res` -/
  verify : Key → List Byte → List Byte → Int → Int × Int
  /-- signature as a pair of numbers -/
  verifyRS : Key → Nat → Nat → List Byte → Int → Int × Int
  /-- `wc_ecc_rs_raw_to_sig` -/
  toDer : Nat → Nat → Int
  /-- `wc_RsaSSL_VerifyInline`: return value (error, or length of the plain text) and plain text -/
  recover : Key → List Byte → Int × List Byte
  /-- `wc_RsaSSL_Verify` of Renesas devices, which compares the digest itself -/
  rsaDev : List Byte → List Byte → Int

/-- Values of the build: `KEYSTORE_PUBKEY_SIZE`, size of a signature of the algorithm,
`WOLFBOOT_SHA_DIGEST_SIZE`, armored build. -/
structure Build where
  pubSz : Nat
  sigSz : Nat
  dlen : Nat
  armored : Bool

/-- Arguments: `keystore_get_buffer` and `keystore_get_size` of the slot, memory behind `sig` (to
the end of what may be read), the digest `img->sha_hash`. -/
structure Args where
  buf : Option (List Byte)
  size : Int
  sig : List Byte
  hash : List Byte

/-! ## Ed25519, Ed448 -/

/-- `VERIFY_FN`, `/repo/include/image.h:803-807`. -/
def verifyFn (k : Key) (hash : List Byte) (r : Int × Int) : List Ev :=
  if r.1 = 0 ∧ r.2 = 1 then [.verify k hash true, .confirm] else [.verify k hash false]

/-- `wolfBoot_verify_signature_ed25519`, `/repo/src/image.c:116-134`, and
`wolfBoot_verify_signature_ed448`, `/repo/src/image.c:140-158`. `g`: the value of the uninitialised
variable `res`. A NULL key buffer is refused by the import, here and in wolfCrypt. -/
def ed (L : Lib) (b : Build) (a : Args) (g : Int) : List Ev :=
  .init L.init :: if L.init < 0 then [] else
  match a.buf with
  | none => []
  | some p =>
    let k := Key.raw (p.take b.pubSz)
    .key k (L.key k) :: if L.key k < 0 then [] else
    if a.sig.length < b.sigSz then [.crash] else
    verifyFn k a.hash (L.verify k (a.sig.take b.sigSz) a.hash g)

/-! ## ECDSA -/

/-- `mp_read_unsigned_bin`: big-endian number. -/
def be (l : List Byte) : Nat := l.foldl (fun n x => n * 256 + x.toNat) 0

/-- `mp_unsigned_bin_size`: number of bytes without leading zeros. -/
def binSize (n : Nat) : Nat := if h : n = 0 then 0 else binSize (n / 256) + 1
termination_by n
decreasing_by omega

/-- `wolfBoot_verify_signature_ecc` without HSM or device, `/repo/src/image.c:186-291` with 273-285. -/
def eccSoft (L : Lib) (a : Args) : List Ev :=
  match a.buf with
  | none => []
  | some p =>
    -- 199
    if a.size ≤ 0 then [] else
    let pt := a.size.toNat / 2
    let k := Key.raw (p.take (2 * pt))
    .init L.init :: if L.init = 0 then
      .key k (L.key k) :: if L.key k = 0 ∧ L.isPub k = true then
        if a.sig.length < 2 * pt then [.crash] else
        verifyFn k a.hash (L.verifyRS k (be (a.sig.take pt)) (be ((a.sig.drop pt).take pt)) a.hash 0)
          ++ [.free]
      else [.free]
    else [.free]

/-- The numbers that `wc_ecc_rs_raw_to_sig` is given, `/repo/src/image.c:259-262`: the first `rSz` bytes
behind `sig`, the first `sSz` bytes behind `sig + point_sz`, where `rSz` and `sSz` are the sizes of the
two numbers without leading zeros. -/
def hsmRS (sig : List Byte) (pt : Nat) : Nat × Nat :=
  (be (sig.take (binSize (be (sig.take pt)))),
    be ((sig.drop pt).take (binSize (be ((sig.drop pt).take pt)))))

/-- Common end of the HSM variants, `/repo/src/image.c:250-271,287`. -/
def eccHsmTail (L : Lib) (a : Args) (k : Key) (pt : Nat) : List Ev :=
  if a.sig.length < 2 * pt then [.crash] else
  let rs := hsmRS a.sig pt
  if L.toDer rs.1 rs.2 = 0 then verifyFn k a.hash (L.verifyRS k rs.1 rs.2 a.hash 0) ++ [.free]
  else [.free]

/-- `wolfBoot_verify_signature_ecc` with a key id of the HSM (`WOLFBOOT_USE_WOLFHSM_PUBKEY_ID`),
`/repo/src/image.c:186-291` with 225-237. -/
def eccHsmId (L : Lib) (b : Build) (a : Args) : List Ev :=
  .init L.init :: if L.init = 0 then
    .key .hsmId (L.key .hsmId) :: if L.key .hsmId ≠ 0 then [] else
    eccHsmTail L a .hsmId (b.sigSz / 2)
  else [.free]

/-- `wolfBoot_verify_signature_ecc` with the HSM and the key of the slot, `/repo/src/image.c:186-291` with
238-248. -/
def eccHsm (L : Lib) (a : Args) : List Ev :=
  match a.buf with
  | none => []
  | some p =>
    if a.size ≤ 0 then [] else
    let pt := a.size.toNat / 2
    let k := Key.raw (p.take (2 * pt))
    .init L.init :: if L.init = 0 then
      .key k (L.key k) :: if L.key k ≠ 0 then [] else eccHsmTail L a k pt
    else [.free]

/-- `wolfBoot_verify_signature_ecc` on Renesas devices, `/repo/src/image.c:186-291` with 209-222. The
result of `wc_ecc_set_curve` is not looked at. -/
def eccDev (L : Lib) (b : Build) (a : Args) : List Ev :=
  match a.buf with
  | none => []
  | some _ =>
    if a.size ≤ 0 then [] else
    .init L.init :: if L.init = 0 then
      .key .device (L.key .device) ::
      if a.sig.length < b.sigSz then [.crash] else
      verifyFn .device a.hash (L.verify .device (a.sig.take b.sigSz) a.hash 0) ++ [.free]
    else [.free]

/-! ## RSA -/

/-- `RSA_VERIFY_FN`: `/repo/include/image.h:809-810`, armored `/repo/include/image.h:372-398` (results
below the size of a digest become -1). -/
def rsaFn (b : Build) (r : Int) : Int :=
  if b.armored = true then (if r < b.dlen then -1 else r) else r

/-- What the end of `wolfBoot_verify_signature_rsa` makes of the result, `/repo/src/image.c:441-449`: `r` is
`ret` and `o` the plain text behind `digest_out` (`rsaCompare` of `Verif.Rsa`). -/
def rsaOut (a : Args) (r : Int) (o : List Byte) : RdOut Bool :=
  if r < 0 then .ok false else rsaCompare (o.take r.toNat) a.hash

/-- End of `wolfBoot_verify_signature_rsa`, `/repo/src/image.c:439-449`. -/
def rsaEnd (v : RdOut Bool) : List Ev :=
  .free :: match v with
    | .ok true => [.confirm]
    | .oob => [.crash]
    | _ => []

/-- End of `wolfBoot_verify_signature_rsa` without a plain text, `/repo/src/image.c:439-449`: a result larger
than a digest is decoded through the NULL pointer `digest_out`. -/
def rsaNone (b : Build) (r : Int) : List Ev :=
  .free :: if r > b.dlen then [.crash] else []

/-- `wolfBoot_verify_signature_rsa` in software, `/repo/src/image.c:360-451` with 425-437. -/
def rsaSoft (L : Lib) (b : Build) (a : Args) : List Ev :=
  match a.buf with
  | none => []
  | some p =>
    if a.size < 0 then [] else
    let k := Key.raw (p.take a.size.toNat)
    .init L.init :: if L.init = 0 then
      .key k (L.key k) :: if L.key k ≥ 0 then
        if a.sig.length < b.sigSz then [.crash] else
        let r := L.recover k (a.sig.take b.sigSz)
        let v := rsaOut a (rsaFn b r.1) r.2
        .verify k a.hash (v == .ok true) :: rsaEnd v
      else rsaNone b (L.key k)
    else rsaNone b L.init

/-- `wolfBoot_verify_signature_rsa` with a key id of the HSM, `/repo/src/image.c:360-451` with 391-401
and 415-417. -/
def rsaHsmId (L : Lib) (b : Build) (a : Args) : List Ev :=
  .init L.init :: if L.init ≠ 0 then [] else
  .key .hsmId (L.key .hsmId) :: if L.key .hsmId ≠ 0 then [] else
  if a.sig.length < b.sigSz then [.crash] else
  let r := L.recover .hsmId (a.sig.take b.sigSz)
  let v := rsaOut a (rsaFn b r.1) r.2
  .verify .hsmId a.hash (v == .ok true) :: rsaEnd v

/-- `wolfBoot_verify_signature_rsa` with the HSM and the key of the slot, `/repo/src/image.c:360-451` with
391-424: the key is cached on the HSM and evicted after use. -/
def rsaHsm (L : Lib) (b : Build) (a : Args) : List Ev :=
  match a.buf with
  | none => []
  | some p =>
    if a.size < 0 then [] else
    let pk := p.take a.size.toNat
    .init L.init :: if L.init ≠ 0 then [] else
    .cache pk (L.cache pk) :: if L.cache pk ≠ 0 then [] else
    .key (.cached pk) (L.key (.cached pk)) :: if L.key (.cached pk) ≠ 0 then [] else
    if a.sig.length < b.sigSz then [.crash] else
    let r := L.recover (.cached pk) (a.sig.take b.sigSz)
    let v := rsaOut a (rsaFn b r.1) r.2
    .verify (.cached pk) a.hash (v == .ok true) ::
    .evict L.evict :: if L.evict ≠ 0 then [] else rsaEnd v

/-- `wolfBoot_verify_signature_rsa` on Renesas devices, `/repo/src/image.c:360-451` with 378-390: the
device compares the digest, success is 0. `digest_out` stays NULL. -/
def rsaDev (L : Lib) (b : Build) (a : Args) : List Ev :=
  match a.buf with
  | none => []
  | some _ =>
    if a.size < 0 then [] else
    .init L.init :: if L.init = 0 then
      .key .device 0 ::
      if a.sig.length < b.sigSz then [.crash] else
      let r := rsaFn b (L.rsaDev a.hash (a.sig.take b.sigSz))
      .verify .device a.hash (decide (L.rsaDev a.hash (a.sig.take b.sigSz) = 0)) ::
        ((if r = 0 then [.confirm] else []) ++ rsaNone b r)
    else rsaNone b L.init

/-! ## LMS, XMSS, ML-DSA -/

/-- `wolfBoot_verify_signature_lms`, `/repo/src/image.c:468-527`, and `wolfBoot_verify_signature_xmss`,
`/repo/src/image.c:538-595`. Success of the library is 0. -/
def hbs (L : Lib) (b : Build) (a : Args) : List Ev :=
  match a.buf with
  | none => []
  | some p =>
    let k := Key.raw (p.take b.pubSz)
    .init L.init :: if L.init ≠ 0 then [] else
    .params L.params :: if L.params ≠ 0 then [] else
    .key k (L.key k) :: if L.key k ≠ 0 then [] else
    if a.sig.length < b.sigSz then [.crash] else
    if (L.verify k (a.sig.take b.sigSz) a.hash 1).1 = 0 then [.verify k a.hash true, .confirm, .free]
    else [.verify k a.hash false, .free]

/-- End of `wolfBoot_verify_signature_ml_dsa`, `/repo/src/image.c:676-713`, with `ret = r`. -/
def mlDsaEnd (L : Lib) (b : Build) (a : Args) (k : Key) (r : Int) : List Ev :=
  if r = 0 ∧ L.sigLen.1 = 0 ∧ L.sigLen.2 > 0 ∧ L.sigLen.2 = b.sigSz then
    if a.sig.length < b.sigSz then [.crash] else
    verifyFn k a.hash (L.verify k (a.sig.take b.sigSz) a.hash 0) ++ [.free]
  else [.free]

/-- First steps of `wolfBoot_verify_signature_ml_dsa`, `/repo/src/image.c:628-648`: calls and `ret`. -/
def mlDsaInit (L : Lib) : List Ev × Int :=
  if L.init = 0 then ([.init 0, .params L.params], L.params) else ([.init L.init], L.init)

/-- `wolfBoot_verify_signature_ml_dsa` with the key of the slot, `/repo/src/image.c:604-713` with 657-673. -/
def mlDsa (L : Lib) (b : Build) (a : Args) : List Ev :=
  match a.buf with
  | none => []
  | some p =>
    let s := mlDsaInit L
    if s.2 = 0 ∧ L.pubLen.1 = 0 ∧ 0 < L.pubLen.2 ∧ L.pubLen.2 ≤ b.pubSz then
      let k := Key.raw (p.take L.pubLen.2.toNat)
      s.1 ++ .key k (L.key k) :: mlDsaEnd L b a k (L.key k)
    else s.1 ++ [.free]

/-- `wolfBoot_verify_signature_ml_dsa` with a key id of the HSM, `/repo/src/image.c:604-713` with 649-656:
the result of setting the key id replaces `ret`. -/
def mlDsaHsmId (L : Lib) (b : Build) (a : Args) : List Ev :=
  (mlDsaInit L).1 ++ .key .hsmId (L.key .hsmId) :: mlDsaEnd L b a .hsmId (L.key .hsmId)

/-! ## TPM -/

/-- `wolfBoot_verify_signature_tpm`, `/repo/src/image.c:65-111`. `hintLen`: size of the field
`HDR_PUBKEY`; `buf`: the key of the slot that `wolfBoot_load_pubkey` finds for the hint
(`/repo/src/tpm.c:338-409`), whose result is `L.key`. The handle is unloaded in any case. -/
def tpm (L : Lib) (b : Build) (a : Args) (hintLen : Nat) : List Ev :=
  .init 0 ::
  if hintLen ≠ b.dlen then [.free] else
  match a.buf with
  | none => [.free]
  | some p =>
    let k := Key.raw p
    .key k (L.key k) :: if L.key k ≠ 0 then [.free] else
    if a.sig.length < b.sigSz then [.crash] else
    if (L.verify k (a.sig.take b.sigSz) a.hash 1).1 = 0 then
      [.verify k a.hash true, .free, .confirm]
    else [.verify k a.hash false, .free]

/-! ## All of them -/

/-- The functions of one build each. -/
inductive Fn where
  | ed (g : Int)
  | eccSoft | eccHsm | eccHsmId | eccDev
  | rsaSoft | rsaHsm | rsaHsmId | rsaDev
  | hbs | mlDsa | mlDsaHsmId
  | tpm (hintLen : Nat)
deriving DecidableEq

/-- `wolfBoot_verify_signature_primary` and `wolfBoot_verify_signature_secondary` of a build,
`/repo/include/image.h:116-177`. -/
def run (f : Fn) (L : Lib) (b : Build) (a : Args) : List Ev :=
  match f with
  | .ed g => ed L b a g
  | .eccSoft => eccSoft L a
  | .eccHsm => eccHsm L a
  | .eccHsmId => eccHsmId L b a
  | .eccDev => eccDev L b a
  | .rsaSoft => rsaSoft L b a
  | .rsaHsm => rsaHsm L b a
  | .rsaHsmId => rsaHsmId L b a
  | .rsaDev => rsaDev L b a
  | .hbs => hbs L b a
  | .mlDsa => mlDsa L b a
  | .mlDsaHsmId => mlDsaHsmId L b a
  | .tpm h => tpm L b a h

end Verif.SigWrap
