import Verif.SignSteps

/-!
# Images signed in separate steps are accepted exactly if the signature is valid; what goes wrong (C73)
-/

namespace Verif.SignSteps

open Verif

/-! ## Exact acceptance of the images of the tool -/

/-- The device uses header size, hash and digest size of the tool, one signature per image, and signatures of the size in the image. -/
structure Fits (k : ImgCfg) (o : SignOpts) (H : Nat) (img : List Byte) : Prop where
  hdr : k.H = H
  tag : k.shaTag = o.algo.tag
  hash : k.hash = o.hash
  dlen : ∀ l, (o.hash l).length = k.dlen
  hyb : k.hybrid = false
  sig : (o.sign (o.digest img)).length = k.sigSz
  keys : DistinctKeys k
  small : H < 65544
  d0 : 0 < k.dlen
  s0 : 0 < k.sigSz
  blk : 0 < k.blk
  room : img.length + k.blk < 4294967296

/-- **C73 (exact acceptance).** An image made by the tool, whatever its signature field contains, is accepted exactly if its type is the one of the device, and the keystore has a key with the hash of the
public key of the image that may sign for the partition and for which the field is a valid signature of the digest. -/
theorem accepted_iff {k : ImgCfg} {o : SignOpts} {H : Nat} {img : List Byte} {m : Mem} (w : o.WF img) (hf : Fits k o H img) (f : Flashed m o H img) (d : List Byte) :
    verifyImage k m img.length d = .ok ↔
      o.typ / 256 = k.authType ∧ ∃ s ∈ k.keys, s.mask.getLsbD (o.typ % 16) = true ∧ k.hash s.pub = k.hash o.pubkey ∧
        k.verify s.pub (o.digest img) (o.sign (o.digest img)) = true := by
  have hne : ∀ l, o.hash l ≠ [] := fun l h => by have := hf.dlen l; have := hf.d0; simp_all
  have hH := hf.small
  obtain ⟨-, -, -, off, hfo, hmsg, hdig⟩ := sign_digest_agrees m o H img w hH f hne
  obtain ⟨-, q4, q10, q20, -⟩ := fields_find w (o.digest img)
  obtain ⟨o4, f4, v4⟩ := field_found w hH f q4 (by simp [u16])
  obtain ⟨o10, f10, v10⟩ := field_found w hH f q10 (hne _)
  obtain ⟨o20, f20, v20⟩ := field_found w hH f q20 (by intro h; have := hf.sig; have := hf.s0; simp_all)
  have ht : le16 m o4 = o.typ := le16_u16 w.typ v4
  have hkH := hf.hdr
  subst hkH
  have hdg : k.hash (signedMsg k.H m off img.length) = o.digest img := by
    rw [hf.hash, hmsg]
    rfl
  have hdl : (o.digest img).length = k.dlen := hf.dlen _
  have hdok : DigestOK k m img.length off := by
    refine ⟨?_, ?_⟩
    · rw [hf.tag, hfo, hdl]
    · rw [hf.hash, ← hdig, hdl]
  rw [verified_iff k hf.keys m img.length d hf.blk hf.room]
  have hp4 : findHdr m k.H HDR_IMG_TYPE = .found o4 2 := f4
  have hp10 : findHdr m k.H HDR_PUBKEY = .found o10 k.dlen := by rw [← hf.dlen o.pubkey]; exact f10
  have hv10 : slice m o10 k.dlen = k.hash o.pubkey := by rw [hf.hash, ← hf.dlen o.pubkey]; exact v10
  have hp20 : findHdr m k.H HDR_SIGNATURE = .found o20 k.sigSz := by rw [← hf.sig]; exact f20
  have hv20 : slice m o20 k.sigSz = o.sign (o.digest img) := by rw [← hf.sig]; exact v20
  constructor
  · rintro ⟨off', hd', toff, hft, hat, ⟨s, hs, hmask, ⟨hoff, h1, h2⟩, soff, slen, h3, h4⟩, -⟩
    have hfo' := hd'.1
    rw [hdok.1] at hfo'
    obtain rfl : off = off' := (Find.found.inj hfo').1
    rw [hp4] at hft
    obtain rfl : o4 = toff := (Find.found.inj hft).1
    rw [hp10] at h1
    obtain rfl : o10 = hoff := (Find.found.inj h1).1
    rw [hp20] at h3
    obtain rfl : o20 = soff := (Find.found.inj h3).1
    rw [ht] at hat hmask
    rw [hdg, hv20] at h4
    exact ⟨hat, s, hs, hmask, by rw [← h2, hv10], h4⟩
  · rintro ⟨hat, s, hs, hmask, h2, h4⟩
    refine ⟨off, hdok, o4, hp4, by rw [ht]; exact hat, ⟨s, hs, by rw [ht]; exact hmask, ⟨o10, hp10, by rw [hv10, h2]⟩, o20, _, hp20, ?_⟩, ?_⟩
    · rw [hdg, hv20]
      exact h4
    · intro h
      rw [hf.hyb] at h
      cases h

/-- **C73 (manual signing, exact).** The image made with `--manual-sign` is accepted exactly if the first `signature size` bytes of the signature file are a valid signature, by a key of the device with the hash of the public key and the
permission for the partition, of the digest that `--sha-only` exports. -/
theorem manual_accepted_iff (K : KeyLib) (j : Job) (a : Alg) (env : Nat) (pub p img f l : List Byte) (k : ImgCfg) (m : Mem) (d : List Byte) (hpu : PubFile K a pub p)
    (hr : run K j (some a) env (.manual f) pub img = .image l) (hm : HasBytes m l)
    (w : (j.opts a p (fun _ => f.take a.sigSize) none).WF img)
    (hf : Fits k (j.opts a p (fun _ => f.take a.sigSize) none) (hdrPub a j.algo env p) img) :
    ∃ dg, run K j (some a) env .shaOnly pub img = .digest dg ∧
      (verifyImage k m img.length d = .ok ↔
        (a.auth + j.part) / 256 = k.authType ∧ ∃ s ∈ k.keys, s.mask.getLsbD ((a.auth + j.part) % 16) = true ∧ k.hash s.pub = k.hash p ∧
          k.verify s.pub dg (f.take a.sigSize) = true) := by
  rw [run_pub hpu _ _ _ _ rfl] at hr
  unfold makeHeader at hr
  dsimp only at hr
  split at hr
  · cases hr
  · cases ht : signTool (j.opts a p (fun _ => f.take a.sigSize) none) (hdrPub a j.algo env p) img with
    | overflow => rw [ht] at hr; cases hr
    | file l' =>
      rw [ht] at hr
      cases hr
      refine ⟨(j.opts a p (fun _ => []) none).digest img, ?_, accepted_iff w hf ⟨l, ht, hm⟩ d⟩
      rw [run_pub hpu _ _ _ _ rfl]
      unfold makeHeader
      dsimp only
      rw [if_neg]
      have := signTool_prefix ht
      have he : ((Item.tag (j.opts a p (fun _ => f.take a.sigSize) none).algo.tag ((j.opts a p (fun _ => f.take a.sigSize) none).digest img)).app
          ((j.opts a p (fun _ => f.take a.sigSize) none).hashed img)).length =
        ((Item.tag j.algo.tag ((j.opts a p (fun _ => []) none).digest img)).app ((j.opts a p (fun _ => []) none).hashed img)).length := rfl
      rw [he] at this
      omega

/-! ## Lower bound of the header -/

/-- Bytes of the fields. -/
def fieldBytes (l : List (Nat × List Byte)) : Nat := (l.map fun p => 4 + p.2.length).sum

theorem render_ge : ∀ (is : List Item) (hd : List Byte), (∀ p ∈ tagList is, p.2.length < 65536) → hd.length + fieldBytes (tagList is) ≤ (render hd is).length := by
  intro is
  induction is with
  | nil => intro hd _; simp [tagList, fieldBytes, render]
  | cons i is ih =>
    intro hd h
    show _ ≤ (render (i.app hd) is).length
    cases i with
    | tag t d =>
      have hl : d.length < 65536 := h (t, d) (by simp [tagList])
      have := ih ((Item.tag t d).app hd) (fun p hp => h p (by simp [tagList, hp]))
      have hlen : ((Item.tag t d).app hd).length = hd.length + 4 + d.length := by
        simp [Item.app, u16_length, Nat.mod_eq_of_lt hl]
        omega
      have hs : fieldBytes (tagList (.tag t d :: is)) = 4 + d.length + fieldBytes (tagList is) := by
        simp [tagList, fieldBytes]
      omega
    | align8 =>
      have := ih (Item.align8.app hd) h
      have hlen : hd.length ≤ (Item.align8.app hd).length := by simp [Item.app]
      have hs : fieldBytes (tagList (.align8 :: is)) = fieldBytes (tagList is) := rfl
      omega
    | align4 =>
      have := ih (Item.align4.app hd) h
      have hlen : hd.length ≤ (Item.align4.app hd).length := by simp [Item.app]
      have hs : fieldBytes (tagList (.align4 :: is)) = fieldBytes (tagList is) := rfl
      omega

theorem items_small {e : Bool} : ∀ {is : List Item}, ItemsOK e is → ∀ p ∈ tagList is, p.2.length < 65536 := by
  intro is
  induction is generalizing e with
  | nil => intro _ p hp; simp [tagList] at hp
  | cons i is ih =>
    intro h p hp
    cases i with
    | tag t d =>
      simp only [tagList, List.mem_cons] at hp
      rcases hp with rfl | hp
      · exact h.2.2.1
      · exact ih h.2.2.2 p hp
    | align8 => exact ih (e := true) h p hp
    | align4 => exact ih (e := true) h p hp

/-- Every image of the tool needs at least this much header. -/
theorem header_ge {o : SignOpts} {img : List Byte} (w : o.WF img) :
    34 + (o.hash o.pubkey).length + (o.digest img).length + (o.sign (o.digest img)).length ≤ (render (u32 MAGIC ++ u32 img.length) (o.items img)).length := by
  have h := render_ge (o.items img) (u32 MAGIC ++ u32 img.length) (items_small (items_ok w))
  rw [tagList_items] at h
  refine Nat.le_trans ?_ h
  unfold SignOpts.fields fieldBytes
  simp only [List.map_append, List.sum_append, List.map_cons, List.map_nil, List.sum_cons, List.sum_nil, List.length_append, u32_length, u16_length]
  omega

theorem overflow_of_sizes {o : SignOpts} {H : Nat} {img : List Byte} (w : o.WF img)
    (h : H < 34 + (o.hash o.pubkey).length + (o.digest img).length + (o.sign (o.digest img)).length) : signTool o H img = .overflow := by
  have := header_ge w
  unfold signTool
  dsimp only
  rw [if_pos (by omega)]

/-! ## Findings -/

/-- **Finding.** The tool never detects the type of the key: without an algorithm on the command line it ends with an error before the key file is opened (`/repo/docs/Signing.md:75` says that it guesses). -/
theorem auto_never_works (K : KeyLib) (j : Job) (env : Nat) (mode : Mode) (file img : List Byte) : run K j none env mode file img = .exit := by
  unfold run
  split
  · rfl
  · rfl

/-- **Finding.** With `--rsa3072` and SHA-384 or SHA3, `--manual-sign` writes behind the header buffer, for every image and every signature of the right size: the size of the header, which had been set to 1024, is set back to 512 when the
public key is loaded. -/
theorem rsa3072_manual_overflow (K : KeyLib) (j : Job) (env : Nat) (pub img f : List Byte) (ha : j.algo ≠ .sha256) (hl : ∀ x, (j.hash x).length = 48) (hp : pub.length ≤ 448)
    (hs : 384 ≤ f.length) (w : (j.opts .rsa3072 pub (fun _ => f.take 384) none).WF img) :
    run K j (some .rsa3072) env (.manual f) pub img = .overflow ∧ hdrOne .rsa3072 j.algo env ≥ 1024 := by
  have ht : (f.take 384).length = 384 := by rw [List.length_take]; omega
  refine ⟨?_, ?_⟩
  · rw [run_pub (K := K) (a := .rsa3072) (file := pub) (p := pub) rfl _ _ _ _ rfl]
    have hh : hdrPub .rsa3072 j.algo env pub = 512 := by
      unfold hdrPub
      rw [if_pos ⟨rfl, hp⟩]
      rfl
    rw [hh]
    unfold makeHeader
    dsimp only
    have hne : f.take (Alg.sigSize .rsa3072) ≠ [] := by
      intro h
      have h : f.take 384 = [] := h
      rw [h] at ht
      simp at ht
    rw [if_neg hne]
    show Out.of (signTool (j.opts .rsa3072 pub (fun _ => f.take 384) none) 512 img) = .overflow
    rw [overflow_of_sizes w]
    · rfl
    · have e1 : ((j.opts .rsa3072 pub (fun _ => f.take 384) none).hash (j.opts .rsa3072 pub (fun _ => f.take 384) none).pubkey).length = 48 := hl _
      have e2 : ((j.opts .rsa3072 pub (fun _ => f.take 384) none).digest img).length = 48 := hl _
      have e3 : ((j.opts .rsa3072 pub (fun _ => f.take 384) none).sign ((j.opts .rsa3072 pub (fun _ => f.take 384) none).digest img)).length = 384 := ht
      omega
  · have hm : Alg.minHdr .rsa3072 j.algo = 1024 := by
      cases h : j.algo with
      | sha256 => exact absurd h ha
      | sha384 => rfl
      | sha3 => rfl
    unfold hdrOne
    rw [hm]
    split <;> omega

/-- **Finding.** With an RSA public key of ordinary size, `IMAGE_HEADER_SIZE` is ignored by the separate steps: the header of the image has 512 or 1024 bytes, whatever larger size the device (and the run with the private key)
uses. -/
theorem rsa_manual_ignores_env (K : KeyLib) (j : Job) (a : Alg) (env : Nat) (pub img f l : List Byte) (ha : isRsa a = true) (hp : pub.length ≤ maxPub a)
    (hr : run K j (some a) env (.manual f) pub img = .image l) : l.length = (if a = .rsa4096 then 1024 else 512) + img.length := by
  have hpf : PubFile K a pub pub := by unfold PubFile; rw [if_pos ha]
  rw [run_pub hpf _ _ _ _ rfl] at hr
  have hh : hdrPub a j.algo env pub = (if a = .rsa4096 then 1024 else 512) := by
    unfold hdrPub
    rw [if_pos ⟨ha, hp⟩]
  rw [hh] at hr
  unfold makeHeader at hr
  dsimp only at hr
  split at hr
  · cases hr
  · generalize (if a = .rsa4096 then 1024 else 512) = H at hr
    unfold signTool at hr
    dsimp only at hr
    split at hr
    · cases hr
    · next hl =>
      cases hr
      simp only [List.length_append, List.length_replicate] at hl ⊢
      omega

/-- **Finding.** An ECC key file that cannot be decoded (damaged, or for another curve) is not refused: the run goes on with a public key in freed memory, in all three modes. -/
theorem ecc_bad_key_not_refused (K : KeyLib) (j : Job) (a : Alg) (env : Nat) (mode : Mode) (file img : List Byte) (ha : isRsa a = false) (he : isEd a = false)
    (h1 : file.length ≠ rawPub a) (h2 : file.length ≠ rawPriv a) (h3 : K.decPub a file = none) (h4 : K.decPriv a file = none) :
    run K j (some a) env mode file img = .freed := by
  have hec : ∀ c h0 h, c * 2 = rawPub a → c * 3 = rawPriv a → loadEcc K a c h0 mode.pubOnly file h = .freed := by
    intro c h0 h e1 e2
    unfold loadEcc
    cases mode.pubOnly with
    | true => rw [if_pos rfl, if_neg (by rw [e1]; exact h1), h3]
    | false => rw [if_neg (by decide), if_neg (by rw [e2]; exact h2), h4]
  unfold run
  rw [if_neg (sizes_pos _ _ _)]
  dsimp only
  have : ∀ h s, loadKey K a mode.pubOnly file h s = .freed := by
    intro h s
    cases a <;> first | (cases ha; done) | (cases he; done) | exact hec _ _ _ rfl rfl
  rw [this]

/-- **Finding.** The size of a private RSA key is not compared with the algorithm: with `--rsa2048` or `--rsa3072` and a key of 4096 bits in a header of 512 bytes, the signature is written behind the header buffer, for every image. -/
theorem rsa_key_size_overflow (K : KeyLib) (j : Job) (a : Alg) (file p img sig : List Byte) (ha : a = .rsa2048 ∨ a = .rsa3072) (halg : j.algo = .sha256) (hd : K.decPriv a file = some p)
    (hz : K.rsaSz file = 512) (hs : K.sign a file ((j.opts a p (fun _ => []) none).digest img) = some sig) (hl : sig.length = 512)
    (w : (j.opts a p (fun _ => sig) none).WF img) : run K j (some a) 0 .oneStep file img = .overflow := by
  have hH : sizes (some a) j.algo 0 = (512, a.sigSize) := by
    rw [sizes_some, halg]
    rcases ha with rfl | rfl <;> rfl
  have hload : loadKey K a false file 512 a.sigSize = .key p 512 512 := by
    rcases ha with rfl | rfl <;> (unfold loadKey loadRsa; dsimp only; rw [if_neg (by decide), hd]; dsimp only; rw [if_neg (by decide), hz])
  unfold run
  rw [if_neg (sizes_pos _ _ _), hH]
  dsimp only [Mode.pubOnly]
  rw [hload]
  dsimp only
  unfold makeHeader
  dsimp only
  rw [hs]
  dsimp only
  rw [overflow_of_sizes w]
  · rfl
  · have : ((j.opts a p (fun _ => sig) none).sign ((j.opts a p (fun _ => sig) none).digest img)).length = 512 := hl
    omega

/-- **Finding.** A signature file that is too short is used without a message. -/
theorem short_signature_used (K : KeyLib) (j : Job) (a : Alg) (env : Nat) (pub p img f : List Byte) (hpu : PubFile K a pub p) (h0 : f ≠ []) (hs : f.length < a.sigSize) :
    run K j (some a) env (.manual f) pub img = .of (signTool (j.opts a p (fun _ => f) none) (hdrPub a j.algo env p) img) := by
  rw [run_pub hpu _ _ _ _ rfl]
  unfold makeHeader
  dsimp only
  have : f.take a.sigSize = f := List.take_of_length_le (by omega)
  rw [this, if_neg h0]

/-- **C73 (policy).** With the private key, the policy field is the PCR mask of the policy file and the signature of the policy digest. -/
theorem policy_one (sign : List Byte → Option (List Byte)) (mask pd sig : List Byte) (rest : List Byte) (hm : mask.length = 4) (hp : pd.length = 32) (hs : sign pd = some sig) :
    policyOne sign (mask ++ pd ++ rest) = some (mask ++ sig) := by
  have e1 : (mask ++ pd ++ rest).take 4 = mask := by rw [List.append_assoc, ← hm, List.take_left]
  have e2 : ((mask ++ pd ++ rest).drop 4).take 32 = pd := by rw [List.append_assoc, ← hm, List.drop_left, ← hp, List.take_left]
  unfold policyOne
  rw [e1, e2, if_neg (by omega), if_neg (by omega), hs]

/-- **Finding.** In manual mode the PCR mask is lost: for a policy file with a mask and a signature of full size, the field consists of the signature and four bytes of the heap, instead of the mask and the signature. The device takes the first four bytes
of the signature for the mask. -/
theorem policy_manual_mask_lost (junk mask sig : List Byte) (hm : mask.length = 4) (hj : junk.length = 4) (hs : 4 ≤ sig.length) :
    policyManual junk sig.length (mask ++ sig) = some (sig ++ junk) ∧ (sig.take 4 ≠ mask → policyManual junk sig.length (mask ++ sig) ≠ some (mask ++ sig)) := by
  have e1 : (mask ++ sig).take 4 = mask := by rw [← hm, List.take_left]
  have e2 : ((mask ++ sig).drop 4).take sig.length = sig := by rw [← hm, List.drop_left, List.take_length]
  have e3 : (mask ++ (List.replicate sig.length 0#8 ++ junk).drop 4).drop sig.length = junk := by
    rw [List.drop_append, List.drop_of_length_le (by omega), List.nil_append, List.drop_drop, hm,
      show 4 + (sig.length - 4) = (List.replicate sig.length 0#8).length by rw [List.length_replicate]; omega, List.drop_left]
  have h : policyManual junk sig.length (mask ++ sig) = some (sig ++ junk) := by
    unfold policyManual
    rw [e1, if_neg (by omega)]
    dsimp only
    rw [e2, if_neg (by intro h; rw [h] at hs; simp at hs), e3, List.take_of_length_le (by simp; omega)]
  refine ⟨h, ?_⟩
  intro hne hc
  rw [h] at hc
  have hc := Option.some.inj hc
  have := congrArg (List.take 4) hc
  rw [List.take_append_of_le_length hs, ← hm, List.take_left] at this
  rw [hm] at this
  exact hne this

end Verif.SignSteps
