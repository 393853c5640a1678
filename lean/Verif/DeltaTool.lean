import Verif.DeltaPower
import Verif.SignThms

/-!
# C70: a delta image made by the signing tool installs the image it was made from

`base_diff` of `/repo/tools/keytools/sign.c:1730-2012` on top of `make_header_ex` (`Verif.SignTool`) and `wb_diff`
(`Verif.Delta`), together with the bootloader of `Verif.DeltaUpdate` for the image format of `Verif.Image`.

Build of the tool: `HAVE_MMAP`. Files are lists of bytes. `sign_tool_find_header` (lines 295-342) is, line by line,
`wolfBoot_find_header` with `CMD.header_sz` for `IMAGE_HEADER_SIZE` (`Verif.findHdr`); the file is mapped at a page
boundary.
-/

set_option linter.unusedSectionVars false
set_option linter.unusedVariables false

namespace Verif.DeltaTool
open Verif

/-! ## Model -/

/-- `HDR_SHA256_LEN`, `HDR_SHA384_LEN`, `HDR_SHA3_384_LEN`, `/repo/include/wolfboot/wolfboot.h:94-96`. -/
def hashLen : HashAlgo → Nat
  | .sha256 => 32
  | .sha384 => 48
  | .sha3 => 48

/-- Number of zero bytes behind the first patch: `while ((len3 % padding) != 0)`,
`/repo/tools/keytools/sign.c:1926-1937`. -/
def padLen (pad n : Nat) : Nat := (pad - n % pad) % pad

/-- Patch from file `a` to file `b` with sectors of `ss` bytes: `wb_diff_init` and the loop around `wb_diff`, the
buffer being one sector, `/repo/tools/keytools/sign.c:1760-1766,1905-1924`. -/
def patch (ss : Nat) (a b : List Byte) : List Byte := makePatch (ofList a) (ofList b) a.length b.length ss ss

/-- The temporary file: patch, padding, inverse patch. `/repo/tools/keytools/sign.c:1904-1962` -/
def patchFile (ss pad : Nat) (base new : List Byte) : List Byte :=
  patch ss base new ++ List.replicate (padLen pad (patch ss base new).length) 0#8 ++ patch ss new base

/-- Parameters of `make_header_ex` for the delta image, `/repo/tools/keytools/sign.c:1112-1116,1716-1728,1983-1984`:
the same command line, the type marked as a difference, the time `ts` of the temporary file, no secondary key. -/
def deltaOpts (o : SignOpts) (ts : Option (List Byte)) (H ss pad version : Nat) (bh : Option (List Byte))
    (base new : List Byte) : SignOpts :=
  { o with
    timestamp := ts
    typ := o.typ ||| 0xD0
    delta := some {
      base := version
      size := (patch ss base new).length
      inv := (patch ss base new).length + padLen pad (patch ss base new).length + H
      invSize := (patch ss new base).length
      baseHash := bh }
    secondary := none
    sign2 := fun _ => [] }

/-- `base_diff`, `/repo/tools/keytools/sign.c:1730-2012`, without `--hybrid`. `none`: the tool ends with an error.
`noSha`: `--no-base-sha`; `pad` is 64 with encryption, otherwise 16 (2755-2758). -/
def baseDiff (o : SignOpts) (noSha : Bool) (ts : Option (List Byte)) (H ss pad : Nat) (base new : List Byte) :
    Option SignOut :=
  -- 1772
  if 16777216 < base.length then none
  else
    match findHdr (ofList base) H 0x01 with
    | .found off len =>
      -- 1807-1814
      if len ≠ 4 ∨ le32 (ofList base) off = 0 then none
      -- 1846, wb_diff_init
      else if new.length = 0 ∨ base.length = 0 then none
      else
        let v := le32 (ofList base) off
        if noSha = true then
          some (signTool (deltaOpts o ts H ss pad v none base new) H (patchFile ss pad base new))
        else
          -- 1816-1822, 1134-1160
          match findHdr (ofList base) H o.algo.tag with
          | .found hoff hlen =>
            if hlen ≠ hashLen o.algo then none
            else some (signTool (deltaOpts o ts H ss pad v (some (slice (ofList base) hoff hlen)) base new) H
              (patchFile ss pad base new))
          | _ => none
    | _ => none

/-- With `--hybrid`, the secondary key is not passed to `make_header_ex` (`make_header_delta`, lines 1716-1728), so that
the fields with the secondary cipher and the hash of the secondary key are left out (lines 1215, 1283, 1353), but the
secondary signature is added (lines 1563-1568): operations on the header behind the digest. -/
def part3Hybrid (o : SignOpts) (sign2 : List Byte → List Byte) (digest : List Byte) : List Item :=
  [.align8, .tag 0x20 (o.sign digest)] ++ [.align8, .tag 0x22 (sign2 digest)] ++
  (match o.policy with | some p => [.align8, .tag 0x21 p] | none => [])

/-- The header of a delta image with `--hybrid`; `o` has no secondary key. -/
def hybridHeader (o : SignOpts) (sign2 : List Byte → List Byte) (img : List Byte) : List Byte :=
  render (u32 MAGIC ++ u32 img.length) ((o.part1 ++ o.part2) ++ .tag o.algo.tag (o.digest img) ::
    part3Hybrid o sign2 (o.digest img))

/-- The delta image with `--hybrid`. -/
def signHybrid (o : SignOpts) (sign2 : List Byte → List Byte) (H : Nat) (img : List Byte) : SignOut :=
  if (hybridHeader o sign2 img).length > H then .overflow
  else .file (hybridHeader o sign2 img ++ List.replicate (H - (hybridHeader o sign2 img).length) 0xFF#8 ++ img)

/-! ## Vocabulary of the statements -/

/-- The device is configured for the images of this signer (without hybrid signatures), whatever they contain. -/
structure Signer (k : ImgCfg) (o : SignOpts) (H : Nat) : Prop where
  hdr : k.H = H
  tag : k.shaTag = o.algo.tag
  hash : k.hash = o.hash
  dlen : ∀ l, (o.hash l).length = k.dlen
  auth : o.typ / 256 = k.authType
  hyb : k.hybrid = false
  one : o.secondary = none
  sig : ∀ l, (o.sign l).length = k.sigSz
  key : ∃ s ∈ k.keys, s.pub = o.pubkey ∧ s.mask.getLsbD (o.typ % 16) = true ∧ ∀ l, k.verify s.pub l (o.sign l) = true

/-- Sizes of the device that matter for verification. -/
structure Dev (k : ImgCfg) (c : Cfg) : Prop where
  img : ImgWF k c
  keys : DistinctKeys k
  hdr : k.H < 65544
  dlen : 0 < k.dlen
  sig : 0 < k.sigSz

section
variable {k : ImgCfg} {c : Cfg} {o : SignOpts} {H : Nat} {img : List Byte} {junk : Byte}

/-- A use of the tool: `base` and `new` are images made by the tool with options `ob` and `o` from the programs `imgB` and
`img`, `del` is the delta image made from both files, and the device is configured for their signer. -/
structure Job (k : ImgCfg) (c : Cfg) (d : DCfg) (ob o : SignOpts) (noSha : Bool) (ts : Option (List Byte)) (pad : Nat)
    (imgB img base new del : List Byte) : Prop where
  dev : Dev k c
  sb : Signer k ob c.h
  so : Signer k o c.h
  wb : ob.WF imgB
  wn : o.WF img
  time : ∀ t, ts = some t → t.length = 8
  mkB : signTool ob c.h imgB = .file base
  mkN : signTool o c.h img = .file new
  mkD : baseDiff o noSha ts c.h c.ss pad base new = some (.file del)
  pos : 0 < imgB.length ∧ 0 < img.length
  fitB : base.length ≤ c.part - c.ss
  fitN : new.length ≤ c.part - c.ss
  fitD : del.length ≤ c.part - c.ss
  typB : ob.typ % 16 = 1
  typN : o.typ % 16 = 1 ∧ o.typ / 16 % 16 = 0
  newer : 0 < ob.version ∧ ob.version < o.version
  block : 6 ≤ d.bk ∧ d.bk ∣ c.ss
  dlen : d.dlen = k.dlen
  tag : d.shaTag = k.shaTag
  diff : DiffOK (ofList new) base.length new.length c.ss
  diffI : DiffOK (ofList base) new.length base.length c.ss
  word : le32 (ofList new) c.tmp ≠ MAGIC_TRAIL
  wordI : le32 (ofList base) c.tmp ≠ MAGIC_TRAIL

/-! ## Lemmas -/

theorem Signer.matches (s : Signer k o H) (img : List Byte) : Matches k o H img where
  hdr := s.hdr
  tag := s.tag
  hash := s.hash
  dlen := s.dlen
  auth := s.auth
  hyb := by rw [s.hyb, s.one]; rfl
  key := by
    obtain ⟨x, h1, h2, h3, h4⟩ := s.key
    exact ⟨x, h1, h2, h3, s.sig _, h4 _⟩
  key2 := by
    intro a b h
    rw [s.one] at h
    exact absurd h (by simp)

theorem hasBytes_ofList (l : List Byte) : HasBytes (ofList l) l := fun i b h => by simp [ofList, h]

theorem flashed_of {l : List Byte} (h : signTool o H img = .file l) : Flashed (ofList l) o H img :=
  ⟨l, h, hasBytes_ofList l⟩

theorem file_length {l : List Byte} (h : signTool o H img = .file l) : l.length = H + img.length := by
  unfold signTool at h
  dsimp only at h
  split at h
  · exact absurd h (by simp)
  · cases h
    simp only [List.length_append, List.length_replicate]
    omega

/-- Every file made by the tool that fits is a good image in the sense of the update properties. -/
theorem good_of {l : List Byte} (dv : Dev k c) (w : o.WF img) (s : Signer k o H) (hl : signTool o H img = .file l)
    (hne : 0 < img.length) (hfit : l.length ≤ c.part - c.ss) (ht : o.typ % 16 = 1) :
    GoodImage c (imgEnv k c junk) (ofList l) ∧ imageBytes c (ofList l) = l.length ∧
      (imgEnv k c junk).ver (ofList l) = o.version ∧ (imgEnv k c junk).typ (ofList l) = o.typ := by
  have hH : c.h = H := by rw [dv.img.hdr, s.hdr]
  have hHk := s.hdr
  have h65 := dv.hdr
  have h8 := dv.img.hdr8
  have hnw := dv.img.noWrap
  have hlen := file_length hl
  have hfl := flashed_of hl
  have hnh : ∀ l, o.hash l ≠ [] := fun l h => by have := s.dlen l; rw [h] at this; have := dv.dlen; simp at *; omega
  obtain ⟨m1, m2, _⟩ := sign_digest_agrees _ o H img w (by omega) hfl hnh
  have hib : imageBytes c (ofList l) = l.length := by unfold imageBytes; omega
  have key : ∀ m : Mem, (∀ i, i < l.length → m i = ofList l i) → Flashed m o H img := by
    intro m hm
    refine ⟨l, hl, fun i b hi => ?_⟩
    have := (List.getElem?_eq_some_iff.mp hi).1
    rw [hm i this]
    exact hasBytes_ofList l i b hi
  have acc : ∀ m : Mem, (∀ i, i < l.length → m i = ofList l i) →
      verifyImage k m img.length [] = .ok ∧ blobVersion H m = o.version ∧ blobType H m = o.typ ∧
        fwSize c m = img.length := by
    intro m hm
    have hf := key m hm
    obtain ⟨a1, a2, a3⟩ := signed_image_accepted k o H img m dv.keys w (s.matches img) (by omega) hf dv.dlen dv.sig
      (fun h => by rw [s.hyb] at h; exact absurd h (by simp)) dv.img.blk (by omega) []
    obtain ⟨b1, b2, _⟩ := sign_digest_agrees m o H img w (by omega) hf hnh
    refine ⟨a1, a2, a3, ?_⟩
    unfold fwSize
    rw [b1, b2, if_neg (by simp), if_neg (by omega)]
  have integ : ∀ m : Mem, (∀ i, i < l.length → m i = ofList l i) →
      (verifyIntegrity k m img.length (freshSt [])).1 = .ok := by
    intro m hm
    have hv := (acc m hm).1
    unfold verifyImage at hv
    split at hv
    · next heq => rw [heq]
    · next r _ hn heq => subst hv; exact (hn rfl).elim
  have e0 := acc (ofList l) (fun _ _ => rfl)
  have i0 := integ (ofList l) (fun _ _ => rfl)
  have htl := w.typ
  refine ⟨⟨m1, by omega, by omega, ?_, ?_, ?_, ?_⟩, hib, ?_, ?_⟩
  · show blobType k.H (ofList l) % 16 = 1 ∧ blobType k.H (ofList l) / 256 % 256 = k.authType
    rw [hHk, e0.2.2.1]
    have := s.auth
    exact ⟨ht, by omega⟩
  · show ((verifyIntegrity k (ofList l) (fwSize c (ofList l)) (freshSt [])).1 == .ok) = true
    rw [e0.2.2.2, i0]; rfl
  · show (verifyImage k (ofList l) (fwSize c (ofList l)) [] == .ok) = true
    rw [e0.2.2.2, e0.1]; rfl
  · intro m hm
    have em := acc m (fun i hi => hm i (by omega))
    have im := integ m (fun i hi => hm i (by omega))
    refine ⟨?_, ?_, ?_, ?_⟩
    · show blobType k.H m = blobType k.H (ofList l)
      rw [hHk, em.2.2.1, e0.2.2.1]
    · show blobVersion k.H m = blobVersion k.H (ofList l)
      rw [hHk, em.2.1, e0.2.1]
    · show ((verifyIntegrity k m (fwSize c m) (freshSt [])).1 == .ok) =
        ((verifyIntegrity k (ofList l) (fwSize c (ofList l)) (freshSt [])).1 == .ok)
      rw [em.2.2.2, e0.2.2.2, im, i0]
    · show (verifyImage k m (fwSize c m) [] == .ok) = (verifyImage k (ofList l) (fwSize c (ofList l)) [] == .ok)
      rw [em.2.2.2, e0.2.2.2, em.1, e0.1]
  · show blobVersion k.H (ofList l) = o.version
    rw [hHk]; exact e0.2.1
  · show blobType k.H (ofList l) = o.typ
    rw [hHk]; exact e0.2.2.1

/-! ### The fields of a delta image -/

theorem find_delta {d : DeltaHdr} (w : o.WF img) (hd : o.delta = some d) (g : List Byte) :
    (o.fields g).find? (·.1 = 0x05) = some (0x05, u32 d.base) ∧
    (o.fields g).find? (·.1 = 0x06) = some (0x06, u32 d.size) ∧
    (o.fields g).find? (·.1 = 0x15) = some (0x15, u32 d.inv) ∧
    (o.fields g).find? (·.1 = 0x16) = some (0x16, u32 d.invSize) ∧
    (∀ h, d.baseHash = some h → (o.fields g).find? (·.1 = 0x07) = some (0x07, h)) := by
  have ho : ∀ (f : List Byte → Nat × List Byte) (x : Option (List Byte)) (t : Nat), (∀ y, (f y).1 ≠ t) →
      (x.toList.map f).find? (·.1 = t) = none := by
    intro f x t h
    cases x <;> simp [h]
  unfold SignOpts.fields
  refine ⟨?_, ?_, ?_, ?_, ?_⟩
  · simp only [List.find?_append]
    rw [ho (fun t => (0x02, t)) _ _ (by simp), hd]
    simp
  · simp only [List.find?_append]
    rw [ho (fun t => (0x02, t)) _ _ (by simp), hd]
    simp
  · simp only [List.find?_append]
    rw [ho (fun t => (0x02, t)) _ _ (by simp), hd]
    simp
  · simp only [List.find?_append]
    rw [ho (fun t => (0x02, t)) _ _ (by simp), hd]
    simp
  · intro h hh
    simp only [List.find?_append]
    rw [ho (fun t => (0x02, t)) _ _ (by simp), hd]
    simp [hh]

theorem find_no_hash {d : DeltaHdr} (w : o.WF img) (hd : o.delta = some d) (hb : d.baseHash = none) (g : List Byte) :
    (o.fields g).find? (·.1 = 0x07) = none := by
  have c7 := find_custom_none w (t := 0x07) (by omega)
  have ho : ∀ (f : List Byte → Nat × List Byte) (x : Option (List Byte)) (t : Nat), (∀ y, (f y).1 ≠ t) →
      (x.toList.map f).find? (·.1 = t) = none := by
    intro f x t h
    cases x <;> simp [h]
  have hsec : (o.secondary.toList.flatMap fun s => [(0x11, s.1), (0x12, o.hash s.2)]).find?
      (·.1 = 0x07) = none := by
    cases o.secondary <;> simp
  have hat : o.algo.tag ≠ 0x07 := by cases o.algo <;> simp [HashAlgo.tag]
  have h22 : (o.secondary.toList.map fun _ => (0x22, o.sign2 g)).find? (·.1 = 0x07) = none := by
    cases o.secondary <;> simp
  unfold SignOpts.fields
  simp only [List.find?_append]
  rw [ho (fun t => (0x02, t)) _ _ (by simp), hd, c7, hsec, h22, ho (fun t => (0x21, t)) _ _ (by simp)]
  simp [hb, hat]

theorem or_d0 {t : Nat} (h : t < 65536) : (t ||| 0xD0) < 65536 ∧ (t ||| 0xD0) % 16 = t % 16 ∧
    (t ||| 0xD0) / 256 = t / 256 ∧ (t / 16 % 16 = 0 → (t ||| 0xD0) / 16 % 16 = 13) := by
  refine ⟨Nat.or_lt_two_pow (n := 16) h (by decide), ?_, ?_, ?_⟩
  · have := Nat.or_mod_two_pow (a := t) (b := 0xD0) (n := 4)
    simpa using this
  · have := Nat.shiftRight_or_distrib (a := t) (b := 0xD0) (i := 8)
    simpa [Nat.shiftRight_eq_div_pow] using this
  · intro h0
    have h1 := Nat.shiftRight_or_distrib (a := t) (b := 0xD0) (i := 4)
    have h2 := Nat.or_mod_two_pow (a := t / 16) (b := 13) (n := 4)
    simp only [Nat.shiftRight_eq_div_pow] at h1
    have e1 : (t ||| 0xD0) / 16 = t / 16 ||| 13 := h1
    have e2 : (t / 16 ||| 13) % 16 = t / 16 % 16 ||| 13 := h2
    rw [e1, e2, h0]
    decide

theorem cutAt_ofList {t : Nat} {l : List Byte} (h : l.length ≤ t) : cutAt t (ofList l) = ofList l := by
  funext x
  unfold cutAt
  split
  · rfl
  · simp only [ofList]
    rw [List.getElem?_eq_none (by omega)]
    rfl

variable {d : DCfg} {ob : SignOpts} {noSha : Bool} {ts : Option (List Byte)} {pad : Nat}
  {imgB base new del : List Byte}

theorem slice_of_hasBytes {m : Mem} {a b : List Byte} (h : HasBytes m (a ++ b)) : slice m a.length b.length = b := by
  apply List.ext_getElem?
  intro i
  by_cases hi : i < b.length
  · rw [slice_getElem? _ _ _ _ hi]
    obtain ⟨x, hx⟩ : ∃ x, b[i]? = some x := ⟨b[i], List.getElem?_eq_getElem hi⟩
    rw [hx, h (a.length + i) x]
    rw [List.getElem?_append_right (by omega)]
    simpa using hx
  · rw [List.getElem?_eq_none (by rw [slice_length]; omega), List.getElem?_eq_none (by omega)]

theorem Job.spec (j : Job k c d ob o noSha ts pad imgB img base new del) :
    ∃ bh, signTool (deltaOpts o ts c.h c.ss pad ob.version bh base new) c.h (patchFile c.ss pad base new) = .file del ∧
      (bh = none ∨ ∃ h, bh = some h ∧ h.length = k.dlen ∧ 0 < h.length ∧ HasField c.h (ofList base) k.shaTag h) := by
  have hHk := j.sb.hdr
  have h65 := j.dev.hdr
  have hfl := flashed_of j.mkB
  have hv := field_found j.wb (by omega) hfl (fields_find j.wb (ob.digest imgB)).1 (by simp [u32])
  obtain ⟨off, h1, h2⟩ := hv
  rw [u32_length] at h1 h2
  have hval : le32 (ofList base) off = ob.version := le32_u32 j.wb.ver h2
  have hnh : ∀ l, ob.hash l ≠ [] := fun l h => by
    have := j.sb.dlen l; rw [h] at this; have := j.dev.dlen; simp at *; omega
  obtain ⟨_, _, _, ho, g1, _, _⟩ := sign_digest_agrees _ ob c.h imgB j.wb (by omega) hfl hnh
  have hdl : (ob.digest imgB).length = k.dlen := j.sb.dlen _
  have htag : ob.algo.tag = o.algo.tag := by rw [← j.sb.tag, j.so.tag]
  rw [htag, hdl] at g1
  have hd := j.mkD
  have hdp := j.dev.dlen
  unfold baseDiff at hd
  rw [h1, g1] at hd
  simp only [hval] at hd
  split at hd
  · exact absurd hd (by simp)
  split at hd
  · exact absurd hd (by simp)
  split at hd
  · exact absurd hd (by simp)
  split at hd
  · exact ⟨none, by injection hd, Or.inl rfl⟩
  split at hd
  · exact absurd hd (by simp)
  · refine ⟨some (slice (ofList base) ho k.dlen), by injection hd, Or.inr ⟨_, rfl, slice_length _ _ _, ?_, ho, ?_, ?_⟩⟩
    · rw [slice_length]; exact hdp
    · rw [slice_length, j.so.tag]; exact g1
    · rw [slice_length]

theorem Job.wfD (j : Job k c d ob o noSha ts pad imgB img base new del) {bh : Option (List Byte)}
    (hs : signTool (deltaOpts o ts c.h c.ss pad ob.version bh base new) c.h (patchFile c.ss pad base new) = .file del)
    (hb : bh = none ∨ ∃ h, bh = some h ∧ h.length = k.dlen ∧ 0 < h.length ∧ HasField c.h (ofList base) k.shaTag h) :
    (deltaOpts o ts c.h c.ss pad ob.version bh base new).WF (patchFile c.ss pad base new) where
  ver := j.wn.ver
  ts := j.time
  typ := (or_d0 j.wn.typ).1
  cust := j.wn.cust
  hlen := j.wn.hlen
  cipher := by intro a b h; exact absurd h (by simp [deltaOpts])
  bhash := by
    intro x h hx hh
    simp only [deltaOpts, Option.some.injEq] at hx
    subst hx
    simp only at hh
    rcases hb with hb | ⟨y, hb, hl, _⟩
    · rw [hb] at hh; exact absurd hh (by simp)
    · rw [hb] at hh
      injection hh with hh
      subst hh
      rw [hl, ← j.so.dlen []]
      exact (j.wn.hlen []).2
  sig := by
    have h1 := j.wn.sig
    rw [j.so.sig] at h1
    show (o.sign _).length < 65536
    rw [j.so.sig]
    exact h1
  sig2 := by show ([] : List Byte).length < 65536; decide
  pol := j.wn.pol
  img := by
    have := file_length hs
    have := j.fitD
    have := j.dev.img.noWrap
    omega

theorem Job.soD (j : Job k c d ob o noSha ts pad imgB img base new del) (bh : Option (List Byte)) :
    Signer k (deltaOpts o ts c.h c.ss pad ob.version bh base new) c.h where
  hdr := j.so.hdr
  tag := j.so.tag
  hash := j.so.hash
  dlen := j.so.dlen
  auth := by
    show (o.typ ||| 0xD0) / 256 = _
    rw [(or_d0 j.wn.typ).2.2.1]
    exact j.so.auth
  hyb := j.so.hyb
  one := rfl
  sig := j.so.sig
  key := by
    show ∃ s ∈ k.keys, s.pub = o.pubkey ∧ s.mask.getLsbD ((o.typ ||| 0xD0) % 16) = true ∧ _
    rw [(or_d0 j.wn.typ).2.1]
    exact j.so.key

/-- The delta image is one in the sense of the update properties: it is accepted, names the base, and carries the
patches in both directions. -/
theorem Job.deltaImage (w : c.WF) (j : Job k c d ob o noSha ts pad imgB img base new del) :
    DeltaImage c (imgEnv k c junk) d (ofList base) (ofList new) (ofList del) ∧
      PatchFor c (ofList new) (ofList base) (ofList del) true := by
  obtain ⟨bh, hs, hb⟩ := j.spec
  have wD := j.wfD hs hb
  have sD := j.soD bh
  have hHk := j.sb.hdr
  have h65 := j.dev.hdr
  have hnw := j.dev.img.noWrap
  have hfl := flashed_of hs
  obtain ⟨gB, iB, vB, _⟩ := good_of (junk := junk) j.dev j.wb j.sb j.mkB j.pos.1 j.fitB j.typB
  obtain ⟨gN, iN, vN, tN⟩ := good_of (junk := junk) j.dev j.wn j.so j.mkN j.pos.2 j.fitN j.typN.1
  have hPlen : (patchFile c.ss pad base new).length = (patch c.ss base new).length +
      padLen pad (patch c.ss base new).length + (patch c.ss new base).length := by
    unfold patchFile
    simp only [List.length_append, List.length_replicate]
  have hdl := file_length hs
  have fitD := j.fitD
  -- the first patch is not empty
  have hp1 : 0 < (patch c.ss base new).length := by
    obtain ⟨P, q1, q2, _⟩ := makePatch_spec (a := ofList base) (len := c.ss) j.diff j.diff.ss6
    rcases Nat.eq_zero_or_pos (patch c.ss base new).length with h | h
    · have h0 : makePatch (ofList base) (ofList new) base.length new.length c.ss c.ss = [] :=
        List.length_eq_zero_iff.mp h
      rw [h0] at q1
      have hp : plan [] = some [] := by unfold plan; rfl
      rw [hp] at q1
      injection q1 with q1
      rw [← q1] at q2
      have h2 := file_length j.mkN
      have h3 := j.pos.2
      rw [h2] at q2
      simp at q2
      rw [q2.2] at h3
      simp at h3
    · exact h
  obtain ⟨gD, iD, vD, tD⟩ := good_of (junk := junk) j.dev wD sD hs (by omega) j.fitD
    (by show (o.typ ||| 0xD0) % 16 = 1; rw [(or_d0 j.wn.typ).2.1]; exact j.typN.1)
  obtain ⟨f5, f6, f15, f16, f7⟩ := find_delta wD rfl ((deltaOpts o ts c.h c.ss pad ob.version bh base new).digest
    (patchFile c.ss pad base new))
  obtain ⟨o5, a5, b5⟩ := field_found wD (by omega) hfl f5 (by simp [u32])
  obtain ⟨o6, a6, b6⟩ := field_found wD (by omega) hfl f6 (by simp [u32])
  obtain ⟨o15, a15, b15⟩ := field_found wD (by omega) hfl f15 (by simp [u32])
  obtain ⟨o16, a16, b16⟩ := field_found wD (by omega) hfl f16 (by simp [u32])
  rw [u32_length] at a5 b5 a6 b6 a15 b15 a16 b16
  have e5 := le32_u32 j.wb.ver b5
  have e6 := le32_u32 (by dsimp only; omega) b6
  have e15 := le32_u32 (by dsimp only; omega) b15
  have e16 := le32_u32 (by dsimp only; omega) b16
  have hM := gD.magic
  have hcont : slice (ofList del) c.h (patchFile c.ss pad base new).length = patchFile c.ss pad base new := by
    have hnh : ∀ l, (deltaOpts o ts c.h c.ss pad ob.version bh base new).hash l ≠ [] := fun l h => by
      have := sD.dlen l; rw [h] at this; have := j.dev.dlen; simp at *; omega
    exact (sign_digest_agrees _ _ c.h _ wD (by omega) hfl hnh).2.2.1
  rw [hPlen, slice_append, slice_append] at hcont
  obtain ⟨hc1, hc3⟩ := List.append_inj hcont (by simp [slice_length])
  obtain ⟨hc1, hc2⟩ := List.append_inj hc1 (by simp [slice_length])
  have i0 : deltaInfo c.h (ofList del) false = some (c.h, (patch c.ss base new).length) := by
    unfold deltaInfo
    rw [if_neg (by rw [hM]; simp)]
    have : findHdr (ofList del) c.h HDR_IMG_DELTA_SIZE = .found o6 4 := a6
    rw [this]
    simp only [Find.len, Find.ptr, e6]
    simp
  have i1 : deltaInfo c.h (ofList del) true = some ((patch c.ss base new).length +
      padLen pad (patch c.ss base new).length + c.h, (patch c.ss new base).length) := by
    unfold deltaInfo
    rw [if_neg (by rw [hM]; simp)]
    have h1 : findHdr (ofList del) c.h HDR_IMG_DELTA_INVERSE = .found o15 4 := a15
    have h2 : findHdr (ofList del) c.h HDR_IMG_DELTA_INVERSE_SIZE = .found o16 4 := a16
    rw [h1, h2]
    simp only [Find.len, Find.ptr, e15, e16]
    simp
  refine ⟨⟨gB, gN, gD, ?_, ⟨?_, ?_⟩, ?_, ?_, ?_, j.block, ?_⟩, ?_⟩
  · rw [tD]
    exact (or_d0 j.wn.typ).2.2.2 j.typN.2
  · rw [vB]
    unfold diffBase
    have : findHdr (ofList del) c.h HDR_IMG_DELTA_BASE = .found o5 4 := a5
    rw [if_neg (by rw [hM]; simp), this]
    simp only [Find.len, Find.ptr, e5]
    simp
  · have : findHdr (ofList del) c.h HDR_IMG_DELTA_BASE = .found o5 4 := a5
    rw [this]; rfl
  · rw [vD, vN]; rfl
  · rw [vB, vN]; exact j.newer
  · rcases hb with hb | ⟨h, hb, hl, hp, hF⟩
    · left
      have := sign_lookup (ofList del) _ c.h _ wD (by omega) hfl 0x07
      rw [find_no_hash wD rfl hb] at this
      have : findHdr (ofList del) c.h HDR_IMG_DELTA_BASE_HASH = .notFound := this (by decide)
      rw [this]; rfl
    · right
      obtain ⟨o7, a7, b7⟩ := field_found wD (by omega) hfl (f7 h hb) (List.length_pos_iff.mp hp)
      exact ⟨h, by rw [hl, j.dlen], by rw [j.tag]; exact hF, o7, a7, b7⟩
  · refine tool_patch_partial w gB gN ⟨c.h, _, c.ss, i0, by omega, ?_, j.diff.ss6, ?_, ?_⟩
    · rw [hc1, iB, iN]; rfl
    · rw [iB, iN]; exact j.diff
    · intro t ht
      rw [iN] at ht
      rw [cutAt_ofList ht]
      exact j.word
  · refine tool_patch_partial w gN gB ⟨_, _, c.ss, i1, by omega, ?_, j.diffI.ss6, ?_, ?_⟩
    · have : (patch c.ss base new).length + padLen pad (patch c.ss base new).length + c.h =
          c.h + ((patch c.ss base new).length + padLen pad (patch c.ss base new).length) := by omega
      rw [this, hc3, iB, iN]; rfl
    · rw [iB, iN]; exact j.diffI
    · intro t ht
      rw [iB] at ht
      rw [cutAt_ofList ht]
      exact j.wordI

/-! ## C70 -/

/-- **C70, installation.** The delta image that the tool makes from two of its images, flashed into UPDATE of a device that
runs the base and is then asked to update, installs the new image, exactly, whatever power failures interrupt it.

Partial: `Job` (files of at most `0x7F0000` bytes without repetitions of 64 KiB, that fit in front of the trailer sector and
do not hold the trailer magic at one particular place, `--hybrid` not used); torn operations do not produce this magic. -/
theorem tool_delta_update_partial (w : c.WF) (j : Job k c d ob o noSha ts pad imgB img base new del) {f g : Flash}
    (hp : Pending c (ofList base) (ofList del) f)
    (hi : InterruptedD c (imgEnv k c junk) d (TornOK c MAGIC_TRAIL)
      (fun x => ¬ Updated c (ofList new) (ofList del) x) f g) :
    ∃ w', bootUpD c (imgEnv k c junk) d g = .ok () w' ∧ w'.locked = true ∧
      Updated c (ofList new) (ofList del) w'.fl ∧ bootable c (imgEnv k c junk) (w'.fl .boot) :=
  delta_power_fail_safe_partial w (j.deltaImage w).1 hp hi

/-- **C70, rollback.** If the new image is not confirmed, the next reboot restores the base from the same delta image.

Partial: see `tool_delta_update_partial` and `delta_rollback_power_fail_safe_partial`. -/
theorem tool_delta_rollback_partial (w : c.WF) (j : Job k c d ob o noSha ts pad imgB img base new del) (hfb : 8 ≤ c.fb)
    (hj : junk ≠ ST_FINAL) {f g : Flash} (hp : Updated c (ofList new) (ofList del) f)
    (hi : InterruptedD c (imgEnv k c junk) d (TornNoMagic c) (fun x => ¬ Updated c (ofList base) (ofList del) x) f g) :
    ∃ w', bootUpD c (imgEnv k c junk) d g = .ok () w' ∧ w'.locked = true ∧
      Updated c (ofList base) (ofList del) w'.fl ∧ bootable c (imgEnv k c junk) (w'.fl .boot) :=
  delta_rollback_power_fail_safe_partial w (j.deltaImage w).1 (j.deltaImage (junk := junk) w).2 hfb hj hp hi

/-- **C70, all histories.** Whatever power failures follow the request, the device boots the base or the new image.

Partial: see `tool_delta_rollback_partial`. -/
theorem tool_delta_never_lost_partial (w : c.WF) (j : Job k c d ob o noSha ts pad imgB img base new del) (hfb : 8 ≤ c.fb)
    (hj : junk ≠ ST_FINAL) {f g : Flash} (hp : Pending c (ofList base) (ofList del) f)
    (hi : InterruptedD c (imgEnv k c junk) d (TornNoMagic c) (fun _ => True) f g) :
    ∃ w', bootUpD c (imgEnv k c junk) d g = .ok () w' ∧ w'.locked = true ∧
      (Updated c (ofList new) (ofList del) w'.fl ∨ Updated c (ofList base) (ofList del) w'.fl) ∧
      bootable c (imgEnv k c junk) (w'.fl .boot) :=
  delta_never_lost_partial w (j.deltaImage w).1 (j.deltaImage (junk := junk) w).2 hfb hj hp hi

/-! ### The fields in front of the patches -/

/-- **C70, header.** What the header of the delta image says about its patches is true of the file: the field with the
size of the forward patch, the offset (counted from the beginning of the file) and the size of the inverse patch. The
patches are those of the two files, and the offset is a multiple of the padding behind the header. -/
theorem tool_delta_layout (w : c.WF) (j : Job k c d ob o noSha ts pad imgB img base new del) :
    ∃ n off n', deltaInfo c.h (ofList del) false = some (c.h, n) ∧ deltaInfo c.h (ofList del) true = some (off, n') ∧
      (del.drop c.h).take n = patch c.ss base new ∧ del.drop off = patch c.ss new base ∧ n' = del.length - off ∧
      (0 < pad → pad ∣ off - c.h) ∧ c.h + n ≤ off ∧ off < c.h + n + (pad + 1) := by
  obtain ⟨bh, hs, hb⟩ := j.spec
  have wD := j.wfD hs hb
  have hHk := j.sb.hdr
  have h65 := j.dev.hdr
  have hnw := j.dev.img.noWrap
  have hfl := flashed_of hs
  have hPlen : (patchFile c.ss pad base new).length = (patch c.ss base new).length +
      padLen pad (patch c.ss base new).length + (patch c.ss new base).length := by
    unfold patchFile
    simp only [List.length_append, List.length_replicate]
  have hdl := file_length hs
  have fitD := j.fitD
  obtain ⟨f5, f6, f15, f16, f7⟩ := find_delta wD rfl ((deltaOpts o ts c.h c.ss pad ob.version bh base new).digest
    (patchFile c.ss pad base new))
  obtain ⟨o6, a6, b6⟩ := field_found wD (by omega) hfl f6 (by simp [u32])
  obtain ⟨o15, a15, b15⟩ := field_found wD (by omega) hfl f15 (by simp [u32])
  obtain ⟨o16, a16, b16⟩ := field_found wD (by omega) hfl f16 (by simp [u32])
  rw [u32_length] at a6 b6 a15 b15 a16 b16
  have e6 := le32_u32 (by dsimp only; omega) b6
  have e15 := le32_u32 (by dsimp only; omega) b15
  have e16 := le32_u32 (by dsimp only; omega) b16
  have hM : le32 (ofList del) 0 = MAGIC := (j.deltaImage (junk := 0#8) w).1.good.magic
  have i0 : deltaInfo c.h (ofList del) false = some (c.h, (patch c.ss base new).length) := by
    unfold deltaInfo
    rw [if_neg (by rw [hM]; simp)]
    have : findHdr (ofList del) c.h HDR_IMG_DELTA_SIZE = .found o6 4 := a6
    rw [this]
    simp only [Find.len, Find.ptr, e6]
    simp
  have i1 : deltaInfo c.h (ofList del) true = some ((patch c.ss base new).length +
      padLen pad (patch c.ss base new).length + c.h, (patch c.ss new base).length) := by
    unfold deltaInfo
    rw [if_neg (by rw [hM]; simp)]
    have h1 : findHdr (ofList del) c.h HDR_IMG_DELTA_INVERSE = .found o15 4 := a15
    have h2 : findHdr (ofList del) c.h HDR_IMG_DELTA_INVERSE_SIZE = .found o16 4 := a16
    rw [h1, h2]
    simp only [Find.len, Find.ptr, e15, e16]
    simp
  have hfile : ∃ hd : List Byte, hd.length = c.h ∧ del = hd ++ patchFile c.ss pad base new := by
    unfold signTool at hs
    dsimp only at hs
    split at hs
    · exact absurd hs (by simp)
    · injection hs with hs
      refine ⟨_, ?_, hs.symm⟩
      simp only [List.length_append, List.length_replicate]
      omega
  obtain ⟨hd, hl, he⟩ := hfile
  have hdrop : del.drop c.h = patchFile c.ss pad base new := by rw [he, ← hl, List.drop_left]
  have hmod : ∀ n, 0 < pad → pad ∣ n + padLen pad n ∧ padLen pad n < pad := by
    intro n hp
    unfold padLen
    have h1 := Nat.mod_lt n hp
    have h2 := Nat.div_add_mod n pad
    refine ⟨?_, Nat.mod_lt _ hp⟩
    rcases Nat.eq_zero_or_pos (n % pad) with h0 | h0
    · rw [h0, Nat.sub_zero, Nat.mod_self, Nat.add_zero]
      exact Nat.dvd_of_mod_eq_zero h0
    · rw [Nat.mod_eq_of_lt (by omega)]
      exact ⟨n / pad + 1, by rw [Nat.mul_add]; omega⟩
  refine ⟨_, _, _, i0, i1, ?_, ?_, by omega, ?_, by omega, ?_⟩
  · rw [hdrop]
    unfold patchFile
    rw [List.append_assoc, List.take_left]
  · have : del.drop ((patch c.ss base new).length + padLen pad (patch c.ss base new).length + c.h) =
        (del.drop c.h).drop ((patch c.ss base new).length + padLen pad (patch c.ss base new).length) := by
      rw [List.drop_drop]
      congr 1
      omega
    rw [this, hdrop]
    unfold patchFile
    apply List.drop_left'
    simp only [List.length_append, List.length_replicate]
  · intro hp
    rw [Nat.add_sub_cancel]
    exact (hmod _ hp).1
  · rcases Nat.eq_zero_or_pos pad with h | h
    · have : padLen pad (patch c.ss base new).length = 0 := by unfold padLen; rw [h]; simp
      omega
    · have := (hmod (patch c.ss base new).length h).2
      omega

/-! ### Hybrid signatures -/

theorem tagsOf_append (a b : List Item) : tagsOf (a ++ b) = tagsOf a ++ tagsOf b := by
  induction a with
  | nil => rfl
  | cons i a ih => cases i <;> simp [tagsOf, ih]

theorem rendered_none {m : Mem} {H t : Nat} {hd : List Byte} {is : List Item} (h8 : hd.length = 8)
    (hk : ItemsOK true is) (hm : HasBytes m (render hd is ++ List.replicate (H - (render hd is).length) 0xFF#8))
    (hl : (render hd is).length ≤ H) (hn : t ∉ tagsOf is) (ht0 : t ≠ 0) : findHdr m H t = .notFound := by
  rcases hfind : findHdr m H t with ⟨off, len⟩ | _ | _ | _
  · exfalso
    obtain ⟨h4, hlt, hw, ht, -, hne, -⟩ := (findHeader_iff m 0 H t off len).mp hfind
    have h8' : hd.length = 8 := h8
    refine walk_absent is true hd hk (fun _ => by omega) hm.pre hl ?_ hn (off - 4) (by omega) hne ht (by rw [h8]; exact hw)
    intro x h1 h2
    have := hm.get (x - (render hd is).length) 0xFF#8 (List.getElem?_replicate_of_lt (by omega))
    rwa [show ∀ a : Nat, a ≤ x → a + (x - a) = x from fun a h => by omega] at this
    exact h1
  · rfl
  · exact absurd hfind (findHeader_total m 0 H t).1
  · exact absurd hfind (findHeader_total m 0 H t).2

/-- **Finding.** A delta image made with `--hybrid` is refused by every device with hybrid signatures, for all options, keys
and programs: the hash of the secondary key is missing in its header. -/
theorem tool_delta_hybrid_refused (k : ImgCfg) (o : SignOpts) (sign2 : List Byte → List Byte) (img l : List Byte) (m : Mem)
    (hd : DistinctKeys k) (hy : k.hybrid = true) (w : o.WF img) (hs2 : (sign2 (o.digest img)).length < 65536)
    (h1 : o.secondary = none) (hs : signHybrid o sign2 k.H img = .file l) (hm : HasBytes m l) (hblk : 0 < k.blk)
    (hfw : img.length + k.blk < 4294967296) (dg : List Byte) : verifyImage k m img.length dg ≠ .ok := by
  intro hv
  obtain ⟨_, _, _, _, _, _, hx⟩ := (verified_iff k hd m _ dg hblk hfw).mp hv
  obtain ⟨_, _, _, ⟨off, hf, _⟩, _⟩ := hx hy
  unfold signHybrid at hs
  split at hs
  · exact absurd hs (by simp)
  · next hle =>
    injection hs with hs
    subst hs
    have hn : findHdr m k.H HDR_SECONDARY_PUBKEY = .notFound := by
      refine rendered_none (hd := u32 MAGIC ++ u32 img.length) (by simp [u32_length]) ?_ hm.pre (by
        unfold hybridHeader at hle; omega) ?_ (by decide)
      · rw [itemsOK_append_iff, itemsOK_append_iff, endE_append]
        have h1 : endE true o.part1 = true := by
          unfold SignOpts.part1
          rw [endE_align8]
        rw [h1]
        refine ⟨⟨part1_ok w, (part2_ok w).1⟩, ?_⟩
        rw [(part2_ok w).2]
        refine ⟨rfl, ?_, (w.hlen _).2, ?_⟩
        · cases o.algo <;> simp [TagOK, HashAlgo.tag]
        · unfold part3Hybrid
          cases hp : o.policy with
          | none => simp [ItemsOK, TagOK, w.sig, hs2]
          | some p => simp [ItemsOK, TagOK, w.sig, hs2, w.pol p hp]
      · have hc : 0x12 ∉ tagsOf (o.custom.flatMap fun c => [.align8, .tag c.1 c.2]) := by
          have : ∀ l : List (Nat × List Byte), (∀ c ∈ l, CustomOK c) →
              0x12 ∉ tagsOf (l.flatMap fun c => [.align8, .tag c.1 c.2]) := by
            intro l
            induction l with
            | nil => intro _; simp [tagsOf]
            | cons c l ih =>
              intro hl
              have h1 := (hl c (by simp)).1
              have h2 := ih (fun c' hc' => hl c' (by simp [hc']))
              simp only [List.flatMap_cons, List.cons_append, List.nil_append, tagsOf, List.mem_cons, not_or]
              exact ⟨by omega, h2⟩
          exact this _ w.cust
        unfold SignOpts.part1 SignOpts.part2 part3Hybrid HDR_SECONDARY_PUBKEY
        simp only [tagsOf_append, h1]
        cases o.timestamp <;> cases o.algo <;> cases o.policy <;> cases o.delta with
        | none => simp [tagsOf, hc, HashAlgo.tag]
        | some d =>
          obtain ⟨_, _, _, _, bh⟩ := d
          cases bh <;> simp [tagsOf, hc, HashAlgo.tag]
    rw [hn] at hf
    exact absurd hf (by simp)

end

/-- **C70.** What the tool demands of its input for a delta image: a base image of at most 16 MiB with a version of four bytes that is not zero, and,
unless `--no-base-sha` is given, a digest of the chosen algorithm of the right length; the new file is not empty. -/
theorem tool_delta_input {o : SignOpts} {noSha : Bool} {ts : Option (List Byte)} {H ss pad : Nat} {base new : List Byte} {r : SignOut}
    (h : baseDiff o noSha ts H ss pad base new = some r) :
    base.length ≤ 16777216 ∧ 0 < base.length ∧ 0 < new.length ∧ (∃ off, findHdr (ofList base) H 0x01 = .found off 4 ∧ le32 (ofList base) off ≠ 0) ∧
    (noSha = false → ∃ off, findHdr (ofList base) H o.algo.tag = .found off (hashLen o.algo)) := by
  unfold baseDiff at h
  split at h
  · exact absurd h (by simp)
  · next h1 =>
    cases hf : findHdr (ofList base) H 0x01 with
    | found off len =>
      simp only [hf] at h
      split at h
      · exact absurd h (by simp)
      · next h2 =>
        split at h
        · exact absurd h (by simp)
        · next h3 =>
          simp only [not_or, ne_eq, Decidable.not_not] at h2 h3
          refine ⟨by omega, by omega, by omega, ⟨off, by rw [h2.1], h2.2⟩, fun hn => ?_⟩
          rw [if_neg (by simp [hn])] at h
          cases hg : findHdr (ofList base) H o.algo.tag with
          | found hoff hlen =>
            simp only [hg] at h
            split at h
            · exact absurd h (by simp)
            · next h4 => exact ⟨hoff, by rw [Decidable.not_not.1 h4]⟩
          | _ => simp only [hg] at h; exact absurd h (by simp)
    | _ => simp only [hf] at h; exact absurd h (by simp)

end Verif.DeltaTool
