import Verif.Header
import Verif.Swap

/-!
# Image verification: `/repo/src/image.c`

Digest and signature check of an image that is memory mapped (`PART_IS_EXT(img)` false). Hash
function and signature verification of wolfCrypt are parameters. Hash contexts are modelled by the
list of bytes fed into them so far.
-/

namespace Verif

/-- A key of the keystore (`struct keystore_slot`, `/repo/include/keystore.h:43-49`); `mask` is
`part_id_mask`. -/
structure Slot where
  pub : List Byte
  mask : BitVec 32

/-- wolfCrypt and the build configuration. -/
structure ImgCfg where
  /-- `IMAGE_HEADER_SIZE` -/
  H : Nat
  /-- `WOLFBOOT_SHA_BLOCK_SIZE` -/
  blk : Nat
  /-- `WOLFBOOT_SHA_HDR` -/
  shaTag : Nat
  /-- `WOLFBOOT_SHA_DIGEST_SIZE` -/
  dlen : Nat
  /-- `HDR_IMG_TYPE_AUTH >> 8` -/
  authType : Nat
  /-- `IMAGE_SIGNATURE_SIZE` -/
  sigSz : Nat
  /-- size of the secondary signature -/
  sigSz2 : Nat
  /-- `SIGN_HYBRID` -/
  hybrid : Bool
  /-- keystore -/
  keys : List Slot
  /-- hash function -/
  hash : List Byte → List Byte
  /-- primary signature scheme: public key, digest, signature -/
  verify : List Byte → List Byte → List Byte → Bool
  /-- secondary signature scheme -/
  verify2 : List Byte → List Byte → List Byte → Bool

/-- `HDR_*` tags, `/repo/include/wolfboot/wolfboot.h:64-83`. -/
def HDR_VERSION : Nat := 1
def HDR_IMG_TYPE : Nat := 4
def HDR_PUBKEY : Nat := 0x10
def HDR_SECONDARY_PUBKEY : Nat := 0x12
def HDR_SIGNATURE : Nat := 0x20
def HDR_SECONDARY_SIGNATURE : Nat := 0x22

/-- `wolfBoot_get_blob_version`, `/repo/src/libwolfboot.c:1025-1048`. Four bytes are read, whatever
the (non-zero) length of the field. -/
def blobVersion (H : Nat) (m : Mem) : Nat :=
  if le32 m 0 ≠ MAGIC then 0
  else match findHdr m H HDR_VERSION with
    | .found off len => if len = 0 then 0 else le32 m off
    | _ => 0

/-- `wolfBoot_get_blob_type`, `/repo/src/libwolfboot.c:1061-1083`. -/
def blobType (H : Nat) (m : Mem) : Nat :=
  if le32 m 0 ≠ MAGIC then 0
  else match findHdr m H HDR_IMG_TYPE with
    | .found off len => if len = 0 then 0 else le16 m off
    | _ => 0

/-- Where `img->sha_hash` points to: nowhere, into the image, or to the static buffer `digest`
(`/repo/src/image.c:56`). -/
inductive ShaPtr where
  | null
  | stored (off : Nat)
  | digestBuf
deriving DecidableEq

/-- The static `digest` buffer and the fields of `struct wolfBoot_image` that are written by the
verification functions. -/
structure ImgSt where
  digest : List Byte
  sha : ShaPtr
  sigOk : Bool
  shaOk : Bool

/-- Result of a verification function: 0, negative, undefined behaviour (NULL pointer dereference),
no termination. -/
inductive Ret where
  | ok
  | err
  | ub
  | hang
deriving DecidableEq

/-- Result of `image_hash`: the message that was hashed, -1, or no termination. -/
inductive HRes where
  | msg (l : List Byte)
  | err
  | hang
deriving DecidableEq

/-- Loop of `header_sha256`, `/repo/src/image.c:841-847`: `p` and `stop` (`end_sha`) are offsets in
the header. -/
def hashHdr (m : Mem) (blk stop : Nat) : Nat → Nat → List Byte → HRes
  | 0, _, _ => .hang
  | fuel + 1, p, acc =>
    if p < stop then
      let b := if stop - p < blk then stop - p else blk
      hashHdr m blk stop fuel (p + b) (acc ++ slice m p b)
    else .msg acc

/-- Loop of `image_sha256`, `/repo/src/image.c:867-876`, with `get_sha_block` (760-772). `position`
is a `uint32_t`. -/
def hashFw (m : Mem) (H blk fw : Nat) : Nat → Nat → List Byte → HRes
  | 0, _, _ => .hang
  | fuel + 1, pos, acc =>
    if pos > fw then .msg acc
    else
      let b := if (pos + blk) % 4294967296 > fw then fw - pos else blk
      let acc' := acc ++ slice m (H + pos) b
      let pos' := (pos + b) % 4294967296
      if pos' < fw then hashFw m H blk fw fuel pos' acc' else .msg acc'

/-- `image_hash` (`image_sha256`, `/repo/src/image.c:822-881`; the SHA-384 and SHA3 versions,
920-985 and 1015-1080, are the same). The number of iterations is bounded by the number of bytes
(`2 ^ 32` is not reached). -/
def imageHash (k : ImgCfg) (m : Mem) (fw : Nat) : HRes :=
  match findHdr m k.H k.shaTag with
  | .found off len =>
    if len ≠ k.dlen then .err
    else match hashHdr m k.blk (off - 4) (off + 1) 0 [] with
      | .msg a => hashFw m k.H k.blk fw (fw + 1) 0 a
      | r => r
  | _ => .err

/-- `wolfBoot_verify_integrity`, `/repo/src/image.c:1314-1328`. -/
def verifyIntegrity (k : ImgCfg) (m : Mem) (fw : Nat) (st : ImgSt) : Ret × ImgSt :=
  match findHdr m k.H k.shaTag with
  | .found off len =>
    if len ≠ k.dlen then (.err, st)
    else match imageHash k m fw with
      | .msg l =>
        let st := { st with digest := k.hash l }
        if st.digest ≠ slice m off k.dlen then (.err, st)
        else (.ok, { st with shaOk := true, sha := .stored off })
      | .err => (.err, st)
      | .hang => (.hang, st)
  | _ => (.err, st)

/-- `keyslot_id_by_sha`, `/repo/src/image.c:1768-1779`, with `key_hash` (891-905), whose parameter is
`uint8_t key_slot`. `i` is the first slot to try. Result: slot number and contents of `digest`. -/
def keySlot (k : ImgCfg) (hint : List Byte) : Nat → Nat → List Byte → Option Nat × List Byte
  | 0, _, d => (none, d)
  | n + 1, i, d =>
    match k.keys[i % 256]? with
    | some s =>
      if k.hash s.pub = hint then (some i, k.hash s.pub)
      else keySlot k hint n (i + 1) (k.hash s.pub)
    | none => keySlot k hint n (i + 1) d

/-- What `img->sha_hash` points to. -/
def ImgSt.shaBytes (k : ImgCfg) (m : Mem) (st : ImgSt) : List Byte :=
  match st.sha with
  | .null => []
  | .stored off => slice m off k.dlen
  | .digestBuf => st.digest

/-- `(1U << image_part) & key_mask == 1U << image_part`, `/repo/src/image.c:1687`;
`CONFIRM_MASK_VALID` (1691) repeats the same check. -/
def maskAllows (mask : BitVec 32) (part : Nat) : Bool :=
  ((1#32 <<< part) &&& mask) == (1#32 <<< part)

/-- Secondary signature, `/repo/src/image.c:1706-1731`. -/
def verifySecondary (k : ImgCfg) (m : Mem) (part : Nat) (st : ImgSt) : Ret × ImgSt :=
  -- 1710
  let st := { st with sigOk := false }
  match findHdr m k.H HDR_SECONDARY_PUBKEY with
  | .found hoff hlen =>
    if hlen ≠ k.dlen then (.err, st)
    else
      match keySlot k (slice m hoff k.dlen) k.keys.length 0 st.digest with
      | (none, d) => (.err, { st with digest := d })
      | (some id, d) =>
        let st := { st with digest := d }
        match k.keys[id]?, k.keys[id % 256]? with
        | some s, some sv =>
          if maskAllows s.mask part = false then (.err, st)
          else match findHdr m k.H HDR_SECONDARY_SIGNATURE with
            | .found soff _ =>
              if k.verify2 sv.pub (st.shaBytes k m) (slice m soff k.sigSz2) = true then
                (.ok, { st with sigOk := true })
              else (.err, st)
            | _ => (.ub, st)
        | _, _ => (.err, st)
  | _ => (.err, st)

/-- Primary signature, `/repo/src/image.c:1680-1706`, then the secondary one in hybrid builds. `id` is
the selected key slot (a `uint8_t` for the verification function), `t` the image type. -/
def verifyPrimary (k : ImgCfg) (m : Mem) (id t : Nat) (st : ImgSt) : Ret × ImgSt :=
  match k.keys[id]?, k.keys[id % 256]? with
  | some s, some sv =>
    if maskAllows s.mask (t % 16) = false then (.err, st)
    else match findHdr m k.H HDR_SIGNATURE with
      | .found soff _ =>
        let st := if k.verify sv.pub (st.shaBytes k m) (slice m soff k.sigSz) = true then
          { st with sigOk := true } else st
        -- 1703
        if st.sigOk = true then
          if k.hybrid = true then verifySecondary k m (t % 16) st else (.ok, st)
        else (.err, st)
      | _ => (.ub, st)
  | _, _ => (.err, st)

/-- `wolfBoot_verify_authenticity`, `/repo/src/image.c:1627-1734` (software keystore, no TPM, no HSM).
Neither the presence nor the size of the signature field is checked: a missing field is a NULL
pointer passed to the verification function. -/
def verifyAuthenticity (k : ImgCfg) (m : Mem) (fw : Nat) (st : ImgSt) : Ret × ImgSt :=
  match findHdr m k.H HDR_PUBKEY with
  | .found hoff hlen =>
    if hlen ≠ k.dlen then (.err, st)
    else
      match keySlot k (slice m hoff k.dlen) k.keys.length 0 st.digest with
      | (none, d) => (.err, { st with digest := d })
      | (some id, d) =>
        let st := { st with digest := d }
        match findHdr m k.H HDR_IMG_TYPE with
        | .found toff tlen =>
          if tlen ≠ 2 then (.err, st)
          else if le16 m toff / 256 ≠ k.authType then (.err, st)
          else match st.sha with
            | .null =>
              -- 1678-1682
              match imageHash k m fw with
              | .msg l => verifyPrimary k m id (le16 m toff) { st with digest := k.hash l, sha := .digestBuf }
              | .err => (.err, st)
              | .hang => (.hang, st)
            | _ => verifyPrimary k m id (le16 m toff) st
        | _ => (.err, st)
  | _ => (.err, st)

/-- State after `wolfBoot_open_image` (`memset`, `/repo/src/image.c:1232`); `digest` holds anything. -/
def freshSt (d : List Byte) : ImgSt := ⟨d, .null, false, false⟩

/-- The sequence used before every boot and update: integrity, then authenticity
(`/repo/src/update_flash.c:640-641,1046-1049,1063-1066`). -/
def verifyImage (k : ImgCfg) (m : Mem) (fw : Nat) (d : List Byte) : Ret :=
  match verifyIntegrity k m fw (freshSt d) with
  | (.ok, st) => (verifyAuthenticity k m fw st).1
  | (r, _) => r

/-- The checks used by the update code (`Verif.Swap`) for this image format. `fw` is `img->fw_size`
as set by `wolfBoot_open_image`. -/
def imgEnv (k : ImgCfg) (c : Cfg) (junk : Byte) : Env where
  typ := blobType k.H
  ver := blobVersion k.H
  integ := fun m => (verifyIntegrity k m (fwSize c m) (freshSt [])).1 == .ok
  auth := fun m => verifyImage k m (fwSize c m) [] == .ok
  authType := k.authType
  junk := junk

end Verif
