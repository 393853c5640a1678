import Verif.SignStepsThms
import Verif.DeltaUpdate

/-!
# The Python signing tool: `/repo/tools/keytools/sign.py`

C73. `make_header` and the files written by the script, for an image, a key and the options. wolfcrypt-py (hash, loading of keys, signatures) is a parameter. Not modelled: choice of the algorithm
from the size of the key file, encryption, `bmdiff`.
-/

namespace Verif.SignPy

open Verif Verif.SignSteps

/-- `struct.pack('<Q', ..)`, `/repo/tools/keytools/sign.py:115`. -/
def u64 (v : Nat) : List Byte := u32 v ++ u32 (v / 4294967296)

/-- Fields of a delta image, `/repo/tools/keytools/sign.py:711-716`. -/
structure PyDelta where
  base : Nat
  size : Nat
  inv : Nat
  invSize : Nat

/-- Input of `make_header`, `/repo/tools/keytools/sign.py:94`, and the global variables it uses. `alg` is `none` with `--no-sign`. -/
structure PyJob where
  version : Nat
  mtime : Nat
  alg : Option Alg
  part : Nat
  delta : Option PyDelta
  algo : HashAlgo
  hash : List Byte → List Byte

/-- `img_type`, `/repo/tools/keytools/sign.py:119-142`; `part` is below 16, so that `|=` is `+`. -/
def PyJob.typ (j : PyJob) : Nat :=
  (match j.alg with | some a => a.auth | none => 0xFF00) + j.part + (match j.delta with | some _ => 0xD0 | none => 0)

/-- The fields in front of the digest, `/repo/tools/keytools/sign.py:95-160`: the four bytes of padding behind the version are those of `align8`; extra fields of four bytes are aligned to 4 (149-151), those of two
bytes are not aligned. -/
def PyJob.pre (j : PyJob) : List Item :=
  [.tag 0x01 (u32 j.version), .align8, .tag 0x02 (u64 j.mtime), .tag 0x04 (u16 j.typ)] ++
  (match j.delta with
   | some d => [.align4, .tag 0x05 (u32 d.base), .tag 0x06 (u16 d.size), .align4, .tag 0x15 (u32 d.inv), .tag 0x16 (u16 d.invSize)]
   | none => []) ++ [.align8]

/-- What is hashed, together with the image: `/repo/tools/keytools/sign.py:167-176`. -/
def PyJob.hashed (j : PyJob) (img : List Byte) : List Byte := render (u32 MAGIC ++ u32 img.length) j.pre

/-- The digest, `/repo/tools/keytools/sign.py:164-176,189-201,213-224`. -/
def PyJob.digest (j : PyJob) (img : List Byte) : List Byte := j.hash (j.hashed img ++ img)

/-- `header` in line 244: digest and hash of the public key, `/repo/tools/keytools/sign.py:178-187,203-211,226-235`. -/
def PyJob.upToKey (j : PyJob) (pub img : List Byte) : List Byte :=
  render (u32 MAGIC ++ u32 img.length) (j.pre ++ [.tag j.algo.tag (j.digest img)] ++
    (match j.alg with | some _ => [.tag 0x10 (j.hash pub)] | none => []))

/-- `make_header` with a signature, `/repo/tools/keytools/sign.py:276-277`: the length in the field is `HDR_SIGNATURE_LEN` (`n`), whatever the signature is. -/
def PyJob.header (j : PyJob) (pub : List Byte) (n : Nat) (sig img : List Byte) : List Byte :=
  j.upToKey pub img ++ (match j.alg with | some _ => u16 0x20 ++ u16 n ++ sig | none => [])

/-- The output file, `/repo/tools/keytools/sign.py:664-677,718-731`: the header is padded to `WOLFBOOT_HEADER_SIZE`, and not cut or refused if it is longer. -/
def pyFile (H : Nat) (hd img : List Byte) : List Byte := hd ++ List.replicate (H - hd.length) 0xFF#8 ++ img

/-- `WOLFBOOT_HEADER_SIZE` (`cfg`: 256 or the value of `.config`, lines 379-391) and `HDR_SIGNATURE_LEN` with a private key, `/repo/tools/keytools/sign.py:552-637`. -/
def sizesPriv (cfg : Nat) (algo : HashAlgo) : Alg → Nat × Nat
  | .ed25519 => (cfg, 64)
  | .ed448 => (if cfg < 512 then 512 else cfg, 114)
  | .ecc256 => (cfg, 64)
  | .ecc384 => (if cfg < 512 then 512 else cfg, 96)
  | .ecc521 => (if cfg < 512 then 512 else cfg, 132)
  | .rsa2048 => (if cfg < 512 then 512 else cfg, 256)
  | .rsa3072 =>
    let h := match algo with
      | .sha256 => cfg
      | _ => if cfg < 1024 then 1024 else cfg
    (if h < 512 then 512 else h, 384)
  | .rsa4096 => (if cfg < 1024 then 1024 else cfg, 512)

/-- The same with `--sha-only` or `--manual-sign`, `/repo/tools/keytools/sign.py:639-651`. -/
def sizesPub (cfg : Nat) : Alg → Nat × Nat
  | .rsa2048 => (if cfg < 512 then 512 else cfg, 256)
  | .rsa3072 => (if cfg < 512 then 512 else cfg, 384)
  | .rsa4096 => (if cfg < 1024 then 1024 else cfg, 512)
  | _ => (cfg, 64)

/-- Outcome of a run of the script: contents of the output file, an exception of `struct.pack`, or exit with an error. -/
inductive PyOut where
  | digest (l : List Byte)
  | image (l : List Byte)
  | exception
  | exit
deriving DecidableEq

/-- The values that `struct.pack` takes, `/repo/tools/keytools/sign.py:99,105,115,711-716`. -/
def PyJob.packs (j : PyJob) (img : List Byte) : Bool :=
  decide (img.length < 4294967296) && decide (j.version < 4294967296) && decide (j.mtime < 18446744073709551616) &&
  (match j.delta with
   | some d => decide (d.base < 4294967296) && decide (d.size < 65536) && decide (d.inv < 4294967296) && decide (d.invSize < 65536)
   | none => true)

/-- A run of the script for a signed image, `/repo/tools/keytools/sign.py:94-283,662-677`. `sign` is the signature function of the key (not used in the other modes), `pub` the public key. -/
def pyRun (j : PyJob) (a : Alg) (cfg : Nat) (mode : Mode) (sign : List Byte → List Byte) (pub img : List Byte) : PyOut :=
  let j := { j with alg := some a }
  if j.packs img = false then .exception
  else match mode with
    | .shaOnly => .digest (j.digest img)
    | .oneStep =>
      .image (pyFile (sizesPriv cfg j.algo a).1 (j.header pub (sizesPriv cfg j.algo a).2 (sign (j.digest img)) img) img)
    | .manual f =>
      -- 267-272
      if (f.take 1024).length ≠ (sizesPub cfg a).2 then .exit
      else .image (pyFile (sizesPub cfg a).1 (j.header pub (sizesPub cfg a).2 (f.take 1024) img) img)

/-! ## Names of the output files -/

/-- `str.split('.')`, used in `/repo/tools/keytools/sign.py:407-423`. -/
def split : List Char → List (List Char)
  | [] => [[]]
  | c :: r =>
    match split r with
    | x :: xs => if c = '.' then [] :: x :: xs else (c :: x) :: xs
    | [] => []

/-- The first part of the name of the output file, `/repo/tools/keytools/sign.py:407-414`: all parts but the last one, without the dots between them. -/
def pyBase (name : List Char) : List Char :=
  if '.' ∈ name then (split name).dropLast.flatten else name

/-- The same in the C tool, `/repo/tools/keytools/sign.c:2632-2637`: up to the last dot (`strrchr`). -/
def cBase (name : List Char) : List Char :=
  if '.' ∈ name then ((name.reverse.dropWhile (· ≠ '.')).drop 1).reverse else name

/-! ## Exact acceptance, for any header made of fields -/

theorem accepted_items {k : ImgCfg} {is pre post : List Item} {img dg pub sig : List Byte} {typ : Nat} {m : Mem} (hok : ItemsOK true is)
    (hl : (render (u32 MAGIC ++ u32 img.length) is).length ≤ k.H) (hm : HasBytes m (pyFile k.H (render (u32 MAGIC ++ u32 img.length) is) img))
    (hs : is = pre ++ .tag k.shaTag dg :: post) (hn : k.shaTag ∉ tagsOf pre) (hdg : dg = k.hash (render (u32 MAGIC ++ u32 img.length) pre ++ img))
    (hdl : ∀ l, (k.hash l).length = k.dlen) (f4 : fieldOf 4 is = some (u16 typ)) (f10 : fieldOf 0x10 is = some (k.hash pub)) (f20 : fieldOf 0x20 is = some sig)
    (hty : typ < 65536) (hyb : k.hybrid = false) (hsig : sig.length = k.sigSz) (hkeys : DistinctKeys k) (hH : k.H < 65544) (d0 : 0 < k.dlen) (s0 : 0 < k.sigSz)
    (hb : 0 < k.blk) (hfw : img.length + k.blk < 4294967296) (d : List Byte) :
    verifyImage k m img.length d = .ok ↔
      typ / 256 = k.authType ∧ ∃ s ∈ k.keys, s.mask.getLsbD (typ % 16) = true ∧ k.hash s.pub = k.hash pub ∧ k.verify s.pub dg sig = true := by
  have hbytes : HasBytes m (render (u32 MAGIC ++ u32 img.length) is) := by
    unfold pyFile at hm
    exact hm.pre.pre
  have hfind : ∀ {t v}, fieldOf t is = some v → v ≠ [] → ∃ off, findHdr m k.H t = .found off v.length ∧ slice m off v.length = v := by
    intro t v hf hv
    obtain ⟨a, b, rfl, hna⟩ := fieldOf_split hf
    exact ⟨_, find_rendered hH rfl hok hbytes hl hna (.inl (List.length_pos_iff.mpr hv))⟩
  have hfwb : slice m k.H img.length = img := by
    unfold pyFile at hm
    have : HasBytes m ((render (u32 MAGIC ++ u32 img.length) is ++ List.replicate (k.H - (render (u32 MAGIC ++ u32 img.length) is).length) 0xFF#8) ++ img ++ []) := by
      simpa using hm
    have := this.slice
    rwa [List.length_append, List.length_replicate, Nat.add_sub_cancel' hl] at this
  have hdgl : dg.length = k.dlen := by rw [hdg]; exact hdl _
  obtain ⟨o4, e4, v4⟩ := hfind f4 (by simp [u16])
  obtain ⟨o10, e10, v10⟩ := hfind f10 (by intro h; have := hdl pub; rw [h] at this; simp at this; omega)
  obtain ⟨o20, e20, v20⟩ := hfind f20 (by rintro rfl; simp at hsig; omega)
  rw [hdl] at e10 v10
  rw [hsig] at e20 v20
  have ht : le16 m o4 = typ := le16_u16 hty v4
  have hfd : findHdr m k.H k.shaTag = .found ((render (u32 MAGIC ++ u32 img.length) pre).length + 4) k.dlen ∧
      slice m ((render (u32 MAGIC ++ u32 img.length) pre).length + 4) k.dlen = dg := by
    have hl2 := hl
    have hb2 := hbytes
    have hok2 := hok
    rw [hs] at hl2 hb2 hok2
    have := find_rendered hH rfl hok2 hb2 hl2 hn (.inl (by omega))
    rwa [hdgl] at this
  have hmsg : k.hash (signedMsg k.H m ((render (u32 MAGIC ++ u32 img.length) pre).length + 4) img.length) = dg := by
    unfold signedMsg
    rw [hfwb, Nat.add_sub_cancel, hdg]
    have : HasBytes m (render (u32 MAGIC ++ u32 img.length) pre) := by
      have := hbytes
      rw [hs, render_append] at this
      exact this.of_render
    rw [holds_slice0 this]
  have hdok : DigestOK k m img.length ((render (u32 MAGIC ++ u32 img.length) pre).length + 4) := ⟨hfd.1, by rw [hmsg, hfd.2]⟩
  have hp4 : findHdr m k.H HDR_IMG_TYPE = .found o4 2 := e4
  have hp10 : findHdr m k.H HDR_PUBKEY = .found o10 k.dlen := e10
  have hp20 : findHdr m k.H HDR_SIGNATURE = .found o20 k.sigSz := e20
  rw [verified_iff k hkeys m img.length d hb hfw]
  constructor
  · rintro ⟨off', hd', toff, hft, hat, ⟨s, hs, hmask, ⟨hoff, h1, h2⟩, soff, slen, h3, h4⟩, -⟩
    have hfo' := hd'.1
    rw [hdok.1] at hfo'
    obtain rfl := (Find.found.inj hfo').1
    rw [hp4] at hft
    obtain rfl : o4 = toff := (Find.found.inj hft).1
    rw [hp10] at h1
    obtain rfl : o10 = hoff := (Find.found.inj h1).1
    rw [hp20] at h3
    obtain rfl : o20 = soff := (Find.found.inj h3).1
    rw [ht] at hat hmask
    rw [hmsg, v20] at h4
    exact ⟨hat, s, hs, hmask, by rw [← h2, v10], h4⟩
  · rintro ⟨hat, s, hs, hmask, h2, h4⟩
    refine ⟨_, hdok, o4, hp4, by rw [ht]; exact hat, ⟨s, hs, by rw [ht]; exact hmask, ⟨o10, hp10, by rw [v10, h2]⟩, o20, _, hp20, ?_⟩, ?_⟩
    · rw [hmsg, v20]
      exact h4
    · intro h
      rw [hyb] at h
      cases h

/-! ## Images of the script -/

/-- All fields of a signed image. -/
def pyItems (j : PyJob) (pub sig img : List Byte) : List Item :=
  j.pre ++ .tag j.algo.tag (j.digest img) :: [.tag 0x10 (j.hash pub), .tag 0x20 sig]

theorem header_items (j : PyJob) (a : Alg) (ha : j.alg = some a) (pub sig img : List Byte) (hs : sig.length < 65536) :
    j.header pub sig.length sig img = render (u32 MAGIC ++ u32 img.length) (pyItems j pub sig img) := by
  unfold PyJob.header PyJob.upToKey pyItems
  rw [ha]
  simp only [render_append, render, List.foldl_append, List.foldl_cons, List.foldl_nil]
  conv => rhs; rw [Item.app, Nat.mod_eq_of_lt hs, List.take_length]
  simp only [List.append_assoc]

theorem pre_tags (j : PyJob) : ∀ t ∈ tagsOf j.pre, t ∈ [1, 2, 4, 5, 6, 0x15, 0x16] := by
  intro t ht
  unfold PyJob.pre at ht
  cases hd : j.delta with
  | none =>
    rw [hd] at ht
    simp [tagsOf] at ht
    rcases ht with rfl | rfl | rfl <;> simp
  | some d =>
    rw [hd] at ht
    simp [tagsOf] at ht
    rcases ht with rfl | rfl | rfl | rfl | rfl | rfl | rfl <;> simp

theorem pre_ok (j : PyJob) : ItemsOK true j.pre ∧ endE true j.pre = true := by
  unfold PyJob.pre
  cases j.delta with
  | none => simp [ItemsOK, endE, TagOK, u16, u32, u64]
  | some d => simp [ItemsOK, endE, TagOK, u16, u32, u64]

theorem pyItems_ok (j : PyJob) (pub sig img : List Byte) (hh : ∀ l, (j.hash l).length % 2 = 0 ∧ (j.hash l).length < 65536) (hs : sig.length < 65536) :
    ItemsOK true (pyItems j pub sig img) := by
  unfold pyItems
  rw [itemsOK_append_iff]
  refine ⟨(pre_ok j).1, ?_⟩
  rw [(pre_ok j).2]
  refine ⟨rfl, ?_, (hh _).2, ?_, ?_, (hh _).2, ?_, ?_, hs, trivial⟩
  · cases j.algo <;> simp [HashAlgo.tag, TagOK]
  · simp [PyJob.digest, (hh _).1]
  · simp [TagOK]
  · simp [(hh _).1]
  · simp [TagOK]

theorem fieldOf_skip {a b : List Item} {t : Nat} (h : t ∉ tagsOf a) : fieldOf t (a ++ b) = fieldOf t b := by
  induction a with
  | nil => rfl
  | cons i a ih =>
    cases i with
    | tag t' d =>
      simp only [tagsOf, List.mem_cons, not_or] at h
      show (if t' = t then _ else _) = _
      rw [if_neg (Ne.symm h.1)]
      exact ih h.2
    | align8 => exact ih h
    | align4 => exact ih h

theorem fieldOf_typ (j : PyJob) (pub sig img : List Byte) : fieldOf 4 (pyItems j pub sig img) = some (u16 j.typ) := by
  unfold pyItems PyJob.pre
  simp [fieldOf]

theorem algo_tag (algo : HashAlgo) : algo.tag = 3 ∨ algo.tag = 0x13 ∨ algo.tag = 0x14 := by cases algo <;> simp [HashAlgo.tag]

/-- The device of an image of the script. -/
structure PyFits (k : ImgCfg) (j : PyJob) (sig : List Byte) (img : List Byte) : Prop where
  tag : k.shaTag = j.algo.tag
  hash : k.hash = j.hash
  dlen : ∀ l, (j.hash l).length = k.dlen
  even : k.dlen % 2 = 0 ∧ k.dlen < 65536
  hyb : k.hybrid = false
  sig : sig.length = k.sigSz ∧ k.sigSz < 65536
  keys : DistinctKeys k
  small : k.H < 65544
  d0 : 0 < k.dlen
  s0 : 0 < k.sigSz
  blk : 0 < k.blk
  room : img.length + k.blk < 4294967296

/-- **C73 (Python, exact acceptance).** An image made by the script is accepted by a device with the same header size, hash and signature size exactly if its type is the one of the device, and a key of the device with the hash of the public key may sign for the partition and
accepts the signature - provided that the header fits. -/
theorem py_accepted_iff {k : ImgCfg} {j : PyJob} {a : Alg} {pub sig img : List Byte} {m : Mem} (ha : j.alg = some a) (hp : j.part < 16) (hf : PyFits k j sig img)
    (hl : (j.header pub sig.length sig img).length ≤ k.H) (hm : HasBytes m (pyFile k.H (j.header pub sig.length sig img) img)) (d : List Byte) :
    verifyImage k m img.length d = .ok ↔
      j.typ / 256 = k.authType ∧ ∃ s ∈ k.keys, s.mask.getLsbD (j.typ % 16) = true ∧ k.hash s.pub = k.hash pub ∧ k.verify s.pub (j.digest img) sig = true := by
  have hs : sig.length < 65536 := by rw [hf.sig.1]; exact hf.sig.2
  rw [header_items j a ha pub sig img hs] at hl hm
  have hne : ∀ t, t ∉ [1, 2, 4, 5, 6, 0x15, 0x16] → t ∉ tagsOf j.pre := fun t h h' => h (pre_tags j t h')
  have hat := algo_tag j.algo
  refine accepted_items (pub := pub) (pre := j.pre) (post := [.tag 0x10 (j.hash pub), .tag 0x20 sig]) (pyItems_ok j pub sig img (fun l => by rw [hf.dlen]; exact hf.even) hs) hl hm ?_ ?_ ?_ ?_
    (fieldOf_typ j pub sig img) ?_ ?_ ?_ hf.hyb hf.sig.1 hf.keys hf.small hf.d0 hf.s0 hf.blk hf.room d
  · rw [hf.tag]; rfl
  · refine hne _ ?_
    rw [hf.tag]
    rcases hat with h | h | h <;> rw [h] <;> decide
  · rw [hf.hash]; rfl
  · rw [hf.hash]; exact hf.dlen
  · unfold pyItems
    rw [fieldOf_skip (hne _ (by decide)), hf.hash]
    show (if j.algo.tag = 0x10 then _ else _) = _
    rw [if_neg (by rcases hat with h | h | h <;> rw [h] <;> decide)]
    rfl
  · unfold pyItems
    rw [fieldOf_skip (hne _ (by decide))]
    show (if j.algo.tag = 0x20 then _ else _) = _
    rw [if_neg (by rcases hat with h | h | h <;> rw [h] <;> decide)]
    rfl
  · unfold PyJob.typ
    rw [ha]
    have : a.auth ≤ 0x0800 := by cases a <;> simp [Alg.auth]
    cases j.delta <;> dsimp only <;> omega

/-- **C73 (Python, three steps).** If header and signature sizes are the same in both modes, the image made with `--manual-sign` from the signature of the digest exported with `--sha-only` is the image made with the private key. -/
theorem py_three_steps (j : PyJob) (a : Alg) (cfg : Nat) (sign : List Byte → List Byte) (pub img l : List Byte) (hs : sizesPub cfg a = sizesPriv cfg j.algo a)
    (hl : ∀ d, (sign d).length = a.sigSize) (ho : pyRun j a cfg .oneStep sign pub img = .image l) :
    ∃ d, pyRun j a cfg .shaOnly sign pub img = .digest d ∧ pyRun j a cfg (.manual (sign d)) sign pub img = .image l := by
  unfold pyRun at ho ⊢
  dsimp only at ho ⊢
  split at ho
  · cases ho
  · next hp =>
    refine ⟨PyJob.digest { j with alg := some a } img, by rw [if_neg hp], ?_⟩
    have h2 : (sizesPub cfg a).2 = a.sigSize := by
      rw [hs]
      cases a <;> rfl
    have h3 : a.sigSize ≤ 1024 := by cases a <;> simp [Alg.sigSize]
    have h4 : ∀ d, (sign d).take 1024 = sign d := fun d => List.take_of_length_le (by rw [hl]; exact h3)
    rw [if_neg hp, h4, if_neg (by rw [hl, h2]; simp), hs]
    exact ho

/-- **C73 (Python, exact).** The sizes are the same in both modes exactly for Ed25519, ECC 256, RSA 2048, RSA 4096, and for RSA 3072 with SHA-256 or a configured header of 1024 bytes or more. -/
theorem py_sizes_same_iff (cfg : Nat) (algo : HashAlgo) (a : Alg) :
    sizesPub cfg a = sizesPriv cfg algo a ↔ a = .ed25519 ∨ a = .ecc256 ∨ a = .rsa2048 ∨ a = .rsa4096 ∨ (a = .rsa3072 ∧ (algo = .sha256 ∨ 1024 ≤ cfg)) := by
  cases a with
  | rsa3072 =>
    simp only [reduceCtorEq, false_or, true_and]
    cases algo with
    | sha256 => simp [sizesPub, sizesPriv]
    | sha384 =>
      simp only [sizesPub, sizesPriv, Prod.mk.injEq, and_true, reduceCtorEq, false_or]
      constructor
      · intro h
        by_cases hc : cfg < 1024
        · rw [if_pos hc, if_neg (show ¬(1024 < 512) by decide)] at h
          split at h <;> omega
        · omega
      · intro h
        rw [if_neg (show ¬cfg < 1024 by omega)]
    | sha3 =>
      simp only [sizesPub, sizesPriv, Prod.mk.injEq, and_true, reduceCtorEq, false_or]
      constructor
      · intro h
        by_cases hc : cfg < 1024
        · rw [if_pos hc, if_neg (show ¬(1024 < 512) by decide)] at h
          split at h <;> omega
        · omega
      · intro h
        rw [if_neg (show ¬cfg < 1024 by omega)]
  | _ => simp [sizesPub, sizesPriv]

/-! ## Findings -/

/-- **Finding.** With `--manual-sign` and Ed448, ECC 384 or ECC 521, the script refuses every signature file of the right size. -/
theorem py_manual_refused (j : PyJob) (a : Alg) (cfg : Nat) (sign : List Byte → List Byte) (pub img f l : List Byte) (ha : a = .ed448 ∨ a = .ecc384 ∨ a = .ecc521)
    (hf : f.length = a.sigSize) : pyRun j a cfg (.manual f) sign pub img ≠ .image l := by
  have h : (f.take 1024).length ≠ (sizesPub cfg a).2 := by
    rw [List.length_take, hf]
    rcases ha with rfl | rfl | rfl <;> simp [sizesPub, Alg.sigSize]
  unfold pyRun
  dsimp only
  split
  · simp
  · simp

theorem upToKey_length (j : PyJob) (a : Alg) (ha : j.alg = some a) (hd : j.delta = none) (pub img : List Byte) (n : Nat) (hn : n < 65536) (hl : ∀ x, (j.hash x).length = n) :
    (j.upToKey pub img).length = 52 + 2 * n := by
  unfold PyJob.upToKey PyJob.pre
  rw [ha, hd]
  have h1 : (j.digest img).length = n := hl _
  simp only [List.append_nil, List.cons_append, List.nil_append, render, List.foldl_cons, List.foldl_nil, Item.app, List.length_append, List.length_replicate, List.length_take, u16_length,
    u32_length, u64, h1, hl, Nat.mod_eq_of_lt hn]
  omega

/-- **Finding.** With `--manual-sign`, RSA 3072 and SHA-384 or SHA3 the header is longer than the 512 bytes reserved for it, and the program in the output file starts 24 bytes too late, for every image. -/
theorem py_rsa3072_misplaced (j : PyJob) (cfg : Nat) (sign : List Byte → List Byte) (pub img f : List Byte) (hd : j.delta = none) (hc : cfg ≤ 512) (hl : ∀ x, (j.hash x).length = 48)
    (hf : f.length = 384) (hp : PyJob.packs { j with alg := some .rsa3072 } img = true) :
    ∃ hdr, pyRun j .rsa3072 cfg (.manual f) sign pub img = .image (hdr ++ img) ∧ hdr.length = 536 ∧ (sizesPub cfg .rsa3072).1 = 512 := by
  have hs : (sizesPub cfg .rsa3072).1 = 512 := by
    simp only [sizesPub]
    split <;> omega
  have ht : f.take 1024 = f := List.take_of_length_le (by omega)
  have hlen : (PyJob.header { j with alg := some .rsa3072 } pub 384 f img).length = 536 := by
    unfold PyJob.header
    rw [List.length_append, upToKey_length { j with alg := some .rsa3072 } .rsa3072 rfl hd pub img 48 (by decide) hl]
    simp [u16_length, hf]
  refine ⟨_, ?_, hlen, hs⟩
  unfold pyRun
  dsimp only
  rw [if_neg (by rw [hp]; decide), ht, if_neg (by rw [hf]; simp [sizesPub]), hs]
  unfold pyFile
  have : (512 - (PyJob.header { j with alg := some .rsa3072 } pub (sizesPub cfg .rsa3072).2 f img).length) = 0 := by
    show 512 - (PyJob.header { j with alg := some .rsa3072 } pub 384 f img).length = 0
    omega
  rw [this, List.replicate_zero, List.append_nil]
  rfl

/-- **Finding.** The digest does not cover the hash of the public key: it is the same for all keys. (In images of the C tool the hash of the key is in front of the digest.) -/
theorem py_digest_without_key (j : PyJob) (a : Alg) (cfg : Nat) (sign sign' : List Byte → List Byte) (pub pub' img : List Byte) :
    pyRun j a cfg .shaOnly sign pub img = pyRun j a cfg .shaOnly sign' pub' img := rfl

/-- **Finding.** A delta image made by the script is never used: the sizes of the patches have two bytes, and the device wants four. -/
theorem py_delta_refused {j : PyJob} {a : Alg} {pub sig img : List Byte} {m : Mem} {H : Nat} (ha : j.alg = some a) (dl : PyDelta) (hd : j.delta = some dl)
    (hh : ∀ l, (j.hash l).length % 2 = 0 ∧ (j.hash l).length < 65536) (hs : sig.length < 65536) (hH : H < 65544)
    (hl : (j.header pub sig.length sig img).length ≤ H) (hm : HasBytes m (pyFile H (j.header pub sig.length sig img) img)) (inv : Bool) :
    deltaInfo H m inv = none := by
  rw [header_items j a ha pub sig img hs] at hl hm
  have hb : HasBytes m (render (u32 MAGIC ++ u32 img.length) (pyItems j pub sig img)) := by
    unfold pyFile at hm
    exact hm.pre.pre
  have hok := pyItems_ok j pub sig img hh hs
  have hfind : ∀ {t v}, fieldOf t (pyItems j pub sig img) = some v → v ≠ [] → ∃ off, findHdr m H t = .found off v.length := by
    intro t v hf hv
    obtain ⟨x, y, hxy, hna⟩ := fieldOf_split hf
    rw [hxy] at hok hb hl
    exact ⟨_, (find_rendered hH rfl hok hb hl hna (.inl (List.length_pos_iff.mpr hv))).1⟩
  obtain ⟨o6, e6⟩ := hfind (t := 6) (v := u16 dl.size) (by unfold pyItems PyJob.pre; rw [hd]; simp [fieldOf]) (by simp [u16])
  obtain ⟨o16, e16⟩ := hfind (t := 0x16) (v := u16 dl.invSize) (by unfold pyItems PyJob.pre; rw [hd]; simp [fieldOf]) (by simp [u16])
  unfold deltaInfo
  split
  · rfl
  · cases inv with
    | true =>
      rw [if_pos rfl]
      split
      · rfl
      · rw [if_pos]
        show (findHdr m H 0x16).len ≠ 4
        rw [e16]
        simp [Find.len, u16_length]
    | false =>
      rw [if_neg (by decide), if_pos]
      show (findHdr m H 6).len ≠ 4
      rw [e6]
      simp [Find.len, u16_length]

/-! ## Names -/

theorem split_ne (l : List Char) : split l ≠ [] := by
  induction l with
  | nil => simp [split]
  | cons c r ih =>
    unfold split
    cases h : split r with
    | nil => exact absurd h ih
    | cons x xs => dsimp only; split <;> simp

theorem split_nodot (e : List Char) (h : '.' ∉ e) : split e = [e] := by
  induction e with
  | nil => rfl
  | cons c r ih =>
    simp only [List.mem_cons, not_or] at h
    unfold split
    rw [ih h.2]
    dsimp only
    rw [if_neg (Ne.symm h.1)]

theorem split_app (d e : List Char) (h : '.' ∉ e) : ∃ x xs, split (d ++ '.' :: e) = x :: (xs ++ [e]) ∧ (x :: xs).flatten = d.filter (· ≠ '.') := by
  induction d with
  | nil =>
    refine ⟨[], [], ?_, rfl⟩
    show split ('.' :: e) = _
    unfold split
    rw [split_nodot e h]
    rfl
  | cons c d ih =>
    obtain ⟨x, xs, h1, h2⟩ := ih
    show ∃ y ys, split (c :: (d ++ '.' :: e)) = _ ∧ _
    unfold split
    rw [h1]
    dsimp only
    by_cases hc : c = '.'
    · refine ⟨[], x :: xs, ?_, ?_⟩
      · rw [if_pos hc]; rfl
      · rw [List.flatten_cons, h2, hc]; simp
    · refine ⟨c :: x, xs, by rw [if_neg hc], ?_⟩
      rw [List.filter_cons_of_pos (by simpa using hc), ← h2]
      rfl

/-- **Finding (names, exact).** The script removes all dots from the path of the image, not only the extension: the name of the output file starts with the path, up to the extension, without its dots. The C tool removes the extension only. -/
theorem names (d e : List Char) (h : '.' ∉ e) : pyBase (d ++ '.' :: e) = d.filter (· ≠ '.') ∧ cBase (d ++ '.' :: e) = d := by
  constructor
  · unfold pyBase
    rw [if_pos (by simp)]
    obtain ⟨x, xs, h1, h2⟩ := split_app d e h
    rw [h1, show x :: (xs ++ [e]) = (x :: xs) ++ [e] from rfl, List.dropLast_concat, h2]
  · unfold cBase
    rw [if_pos (by simp)]
    have hr : (d ++ '.' :: e).reverse = e.reverse ++ '.' :: d.reverse := by simp
    have hdw : ∀ l : List Char, '.' ∉ l → (l ++ '.' :: d.reverse).dropWhile (· ≠ '.') = '.' :: d.reverse := by
      intro l hl
      induction l with
      | nil => simp
      | cons c l ih =>
        simp only [List.mem_cons, not_or] at hl
        rw [List.cons_append, List.dropWhile_cons_of_pos (by simpa using Ne.symm hl.1), ih hl.2]
    rw [hr, hdw _ (by simpa using h)]
    simp

/-- **Finding.** For an image in the working directory given as `./fw.bin` the script writes to the root directory, and images `a.b.bin` and `ab.bin` have the same output file. -/
theorem py_name_examples : pyBase "./fw.bin".toList = "/fw".toList ∧ pyBase "a.b.bin".toList = pyBase "ab.bin".toList ∧ cBase "./fw.bin".toList = "./fw".toList := by
  decide +kernel

end Verif.SignPy
