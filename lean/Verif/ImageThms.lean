import Verif.ImageLemmas
import Verif.LifecycleThms
import Verif.BootThms

/-!
# Image verification: C16, C17, C18 (and the image format's instance of C01-C08)
-/

namespace Verif

/-! ## Specification -/

/-- The signed message: all header bytes in front of the digest tag (whose value is at offset `off`,
so the tag starts at `off - 4`), followed by all firmware bytes. -/
def signedMsg (H : Nat) (m : Mem) (off fw : Nat) : List Byte :=
  slice m 0 (off - 4) ++ slice m H fw

/-- The stored digest is the hash of the signed message. -/
def DigestOK (k : ImgCfg) (m : Mem) (fw off : Nat) : Prop :=
  findHdr m k.H k.shaTag = .found off k.dlen ∧ k.hash (signedMsg k.H m off fw) = slice m off k.dlen

/-- A key of the keystore that is allowed to sign for partition id `part` is named by the hint
tag, and the signature in tag `sigTag` verifies with this key for `digest`. -/
def SignedBy (k : ImgCfg) (m : Mem) (digest : List Byte) (part hintTag sigTag sz : Nat)
    (vf : List Byte → List Byte → List Byte → Bool) : Prop :=
  ∃ s ∈ k.keys, s.mask.getLsbD part = true ∧
    (∃ hoff, findHdr m k.H hintTag = .found hoff k.dlen ∧ slice m hoff k.dlen = k.hash s.pub) ∧
    ∃ soff slen, findHdr m k.H sigTag = .found soff slen ∧ vf s.pub digest (slice m soff sz) = true

/-- The image is authentic: type tag present and of the configured kind; signed by an authorised
key (both keys in hybrid builds) for its partition id. -/
def AuthenticFor (k : ImgCfg) (m : Mem) (digest : List Byte) : Prop :=
  ∃ toff, findHdr m k.H HDR_IMG_TYPE = .found toff 2 ∧ le16 m toff / 256 = k.authType ∧
    SignedBy k m digest (le16 m toff % 16) HDR_PUBKEY HDR_SIGNATURE k.sigSz k.verify ∧
    (k.hybrid = true → SignedBy k m digest (le16 m toff % 16) HDR_SECONDARY_PUBKEY
      HDR_SECONDARY_SIGNATURE k.sigSz2 k.verify2)

/-! ## C16 -/

/-- **C16.** Integrity verification of an opened image succeeds exactly if the stored digest equals
the hash of the signed message, for every block size; in particular the result does not depend on
the block size. (`fw + blk < 2^32`: see `hash_loop_hangs`.) -/
theorem integrity_iff (k : ImgCfg) (m : Mem) (fw : Nat) (st : ImgSt) (hb : 0 < k.blk)
    (hfw : fw + k.blk < 4294967296) :
    (verifyIntegrity k m fw st).1 = .ok ↔ ∃ off, DigestOK k m fw off := by
  constructor
  · intro h
    obtain ⟨off, hf, _, _, _, _, l, hl, he⟩ := verifyIntegrity_ok (st' := (verifyIntegrity k m fw st).2)
      (Prod.ext h rfl)
    refine ⟨off, hf, ?_⟩
    rw [imageHash_eq hb hfw hf] at hl
    rw [← HRes.msg.inj hl] at he
    exact he
  · rintro ⟨off, hf, he⟩
    unfold verifyIntegrity
    rw [hf]
    simp only [ne_eq, not_true_eq_false, if_false]
    rw [imageHash_eq hb hfw hf]
    simp only [signedMsg] at he
    simp only [he, not_true_eq_false, if_false]

/-- **C16 (totality).** It never fails to terminate and never dereferences a bad pointer. -/
theorem integrity_total (k : ImgCfg) (m : Mem) (fw : Nat) (st : ImgSt) (hb : 0 < k.blk)
    (hfw : fw + k.blk < 4294967296) :
    (verifyIntegrity k m fw st).1 = .ok ∨ (verifyIntegrity k m fw st).1 = .err := by
  unfold verifyIntegrity
  split
  · next off len hf =>
    split
    · exact Or.inr rfl
    · next hl =>
      have hl : len = k.dlen := Classical.byContradiction hl
      subst hl
      rw [imageHash_eq hb hfw hf]
      dsimp only
      split
      · exact Or.inr rfl
      · exact Or.inl rfl
  · exact Or.inr rfl

/-- **C16 (coverage).** The signed message determines the firmware size, the position of the digest
tag, every header byte in front of it and every firmware byte: two images with the same signed
message agree on all of these, even if their headers are laid out differently. (The size word is
itself covered, which is what excludes shifting bytes between header and firmware.) -/
theorem signedMsg_injective {k : ImgCfg} {m m' : Mem} {off off' len len' : Nat}
    (h1 : findHdr m k.H k.shaTag = .found off len) (h2 : findHdr m' k.H k.shaTag = .found off' len')
    (he : signedMsg k.H m off (le32 m 4) = signedMsg k.H m' off' (le32 m' 4)) :
    off = off' ∧ le32 m 4 = le32 m' 4 ∧ Agree m m' 0 (off - 4) ∧ Agree m m' k.H (k.H + le32 m 4) := by
  have b1 := findHdr_bounds h1
  have b2 := findHdr_bounds h2
  unfold signedMsg at he
  have hpre : Agree m m' 0 8 := by
    have h8 : ∀ (x : Mem) (o f : Nat), 12 ≤ o →
        (slice x 0 (o - 4) ++ slice x k.H f).take 8 = slice x 0 8 := by
      intro x o f ho
      rw [show o - 4 = 8 + (o - 12) by omega, slice_append, List.append_assoc,
        List.take_append_of_le_length (by rw [slice_length]; omega),
        List.take_of_length_le (by rw [slice_length]; omega)]
    have := congrArg (List.take 8) he
    rw [h8 _ _ _ b1.1, h8 _ _ _ b2.1] at this
    exact slice_inj (off := 0) this
  have hsz : le32 m 4 = le32 m' 4 := le32_congr (hpre.mono (by omega) (by omega))
  have hlen := congrArg List.length he
  simp only [List.length_append, slice_length] at hlen
  have hoff : off = off' := by omega
  subst hoff
  have hsplit := List.append_inj he (by rw [slice_length, slice_length])
  refine ⟨rfl, hsz, ?_, ?_⟩
  · have := slice_inj hsplit.1
    rwa [Nat.zero_add] at this
  · have h2 := hsplit.2
    rw [← hsz] at h2
    exact slice_inj h2

/-- **C16 (fields).** Two images that pass verification with equal digests have the same signed
message - unless these two messages are a hash collision - and hence the same value for every tag in front of the
digest tag (version, type, key hint, ...) and the same firmware. -/
theorem same_digest_same_image {k : ImgCfg} {m m' : Mem} {off off' : Nat} {st st' : ImgSt}
    (hb : 0 < k.blk) (hfw : le32 m 4 + k.blk < 4294967296) (hfw' : le32 m' 4 + k.blk < 4294967296)
    (h1 : findHdr m k.H k.shaTag = .found off k.dlen) (h2 : findHdr m' k.H k.shaTag = .found off' k.dlen)
    (hv : (verifyIntegrity k m (le32 m 4) st).1 = .ok)
    (hv' : (verifyIntegrity k m' (le32 m' 4) st').1 = .ok)
    (hd : slice m off k.dlen = slice m' off' k.dlen) :
    (signedMsg k.H m off (le32 m 4) ≠ signedMsg k.H m' off' (le32 m' 4) ∧
      k.hash (signedMsg k.H m off (le32 m 4)) = k.hash (signedMsg k.H m' off' (le32 m' 4))) ∨
    (off = off' ∧ le32 m 4 = le32 m' 4 ∧ Agree m m' k.H (k.H + le32 m 4) ∧
      ∀ type o l, findHdr m k.H type = .found o l → o + l ≤ off - 4 →
        findHdr m' k.H type = .found o l ∧ slice m' o l = slice m o l) := by
  obtain ⟨o1, g1, e1⟩ := (integrity_iff k m _ st hb hfw).mp hv
  obtain ⟨o2, g2, e2⟩ := (integrity_iff k m' _ st' hb hfw').mp hv'
  rw [h1] at g1
  rw [h2] at g2
  simp only [Find.found.injEq, and_true] at g1 g2
  subst g1 g2
  by_cases hm : signedMsg k.H m off (le32 m 4) = signedMsg k.H m' off' (le32 m' 4)
  · obtain ⟨ho, hs, ha, hf⟩ := signedMsg_injective h1 h2 hm
    refine Or.inr ⟨ho, hs, hf, fun type o l hfo hle => ?_⟩
    exact findHeader_signed_field_stable m m' k.H type o l (off - 4) hfo hle
      (ha.symm.mono (by omega) (by omega))
  · exact Or.inl ⟨hm, by rw [e1, e2, hd]⟩

/-- **Finding.** With a firmware size in the last 256 bytes of the 32-bit range (possible where
`wolfBoot_open_image_address` does not clamp, i.e. without `WOLFBOOT_FIXED_PARTITIONS`), the hash
loop never terminates, since `position + blksz` wraps to 0. -/
theorem hash_loop_hangs (m : Mem) (H : Nat) : ∀ fuel j acc, j < 16777216 →
    hashFw m H 256 4294967295 fuel (256 * j) acc = .hang := by
  intro fuel
  induction fuel with
  | zero => intro j acc _; rfl
  | succ n ih =>
    intro j acc hj
    unfold hashFw
    rw [if_neg (by omega)]
    dsimp only
    rw [if_neg (show ¬ (256 * j + 256) % 4294967296 > 4294967295 by omega)]
    rw [if_pos (by omega)]
    by_cases hj' : j + 1 = 16777216
    · rw [show (256 * j + 256) % 4294967296 = 256 * 0 by omega]
      exact ih 0 _ (by omega)
    · rw [show (256 * j + 256) % 4294967296 = 256 * (j + 1) by omega]
      exact ih (j + 1) _ (by omega)

/-! ## C17, C18 -/

theorem signedBy_of_keySlot {k : ImgCfg} {m : Mem} {hoff n id : Nat} {d d' : List Byte}
    (hk : keySlot k (slice m hoff k.dlen) n 0 d = (some id, d')) {s sv : Slot}
    (h1 : k.keys[id]? = some s) (h2 : k.keys[id % 256]? = some sv) :
    sv = s ∧ s ∈ k.keys ∧ slice m hoff k.dlen = k.hash s.pub := by
  obtain ⟨hid, s', hs', he⟩ := keySlot_lt hk
  rw [hid, h1] at h2
  rw [h1] at hs'
  obtain rfl := Option.some.inj h2
  obtain rfl := Option.some.inj hs'
  exact ⟨rfl, List.mem_of_getElem? h1, he.symm⟩

theorem verifySecondary_ok {k : ImgCfg} {m : Mem} {t off : Nat} {st : ImgSt}
    (hsha : st.sha = .stored off)
    (h : (verifySecondary k m (t % 16) st).1 = .ok) :
    SignedBy k m (slice m off k.dlen) (t % 16) HDR_SECONDARY_PUBKEY HDR_SECONDARY_SIGNATURE
      k.sigSz2 k.verify2 := by
  unfold verifySecondary at h
  split at h
  · next hoff hlen hf =>
    split at h
    · simp at h
    · next hl =>
      have hl : hlen = k.dlen := Classical.byContradiction hl
      subst hl
      dsimp only at h
      generalize hk : keySlot k (slice m hoff k.dlen) k.keys.length 0 st.digest = r at h
      obtain ⟨_ | id, d⟩ := r
      · simp at h
      · dsimp only at h
        split at h
        · next s sv h1 h2 =>
          obtain ⟨rfl, hmem, hhash⟩ := signedBy_of_keySlot hk h1 h2
          split at h
          · simp at h
          · next hmask =>
            split at h
            · next soff slen hsf =>
              split at h
              · next hv =>
                refine ⟨sv, hmem, ?_, ⟨hoff, hf, hhash⟩, soff, slen, hsf, ?_⟩
                · exact (maskAllows_iff (by omega)).mp (by simpa using hmask)
                · simpa [ImgSt.shaBytes, hsha] using hv
              · simp at h
            · simp at h
        · simp at h
  · simp at h

theorem verifyPrimary_ok {k : ImgCfg} {m : Mem} {id t hoff off n : Nat} {st : ImgSt} {d d' : List Byte}
    (hsha : st.sha = .stored off) (hsig : st.sigOk = false)
    (hf : findHdr m k.H HDR_PUBKEY = .found hoff k.dlen)
    (hk : keySlot k (slice m hoff k.dlen) n 0 d = (some id, d'))
    (h : (verifyPrimary k m id t st).1 = .ok) :
    SignedBy k m (slice m off k.dlen) (t % 16) HDR_PUBKEY HDR_SIGNATURE k.sigSz k.verify ∧
    (k.hybrid = true → SignedBy k m (slice m off k.dlen) (t % 16) HDR_SECONDARY_PUBKEY
      HDR_SECONDARY_SIGNATURE k.sigSz2 k.verify2) := by
  unfold verifyPrimary at h
  split at h
  · next s sv h1 h2 =>
    obtain ⟨rfl, hmem, hhash⟩ := signedBy_of_keySlot hk h1 h2
    split at h
    · simp at h
    · next hmask =>
      split at h
      · next soff slen hsf =>
        dsimp only at h
        by_cases hv : k.verify sv.pub (st.shaBytes k m) (slice m soff k.sigSz) = true
        · rw [if_pos hv] at h
          have hP : SignedBy k m (slice m off k.dlen) (t % 16) HDR_PUBKEY HDR_SIGNATURE k.sigSz
              k.verify := by
            refine ⟨sv, hmem, (maskAllows_iff (by omega)).mp (by simpa using hmask),
              ⟨hoff, hf, hhash⟩, soff, slen, hsf, ?_⟩
            simpa [ImgSt.shaBytes, hsha] using hv
          refine ⟨hP, fun hy => ?_⟩
          rw [if_pos rfl, if_pos hy] at h
          exact verifySecondary_ok (st := { st with sigOk := true }) hsha h
        · rw [if_neg hv] at h
          simp [hsig] at h
      · simp at h
  · simp at h

/-- **C17, C18 (soundness).** If the verification of a freshly opened image (integrity, then
authenticity, as done before every boot and update) succeeds, then the stored digest is the hash of
the signed message, and the image is signed over this digest by a key of the keystore that is
named by the hint and whose permission mask contains the partition id of the type tag; in hybrid
builds both signatures verify. -/
theorem verified_sound (k : ImgCfg) (m : Mem) (fw : Nat) (d : List Byte) (hb : 0 < k.blk)
    (hfw : fw + k.blk < 4294967296) (h : verifyImage k m fw d = .ok) :
    ∃ off, DigestOK k m fw off ∧ AuthenticFor k m (k.hash (signedMsg k.H m off fw)) := by
  unfold verifyImage at h
  split at h
  · next st hi =>
    obtain ⟨off, hf, hsha, hsig, _, _, l, hl, he⟩ := verifyIntegrity_ok hi
    rw [imageHash_eq hb hfw hf] at hl
    obtain rfl := HRes.msg.inj hl
    refine ⟨off, ⟨hf, he⟩, ?_⟩
    have he' : k.hash (signedMsg k.H m off fw) = slice m off k.dlen := he
    rw [he']
    unfold verifyAuthenticity at h
    split at h
    · next hoff hlen hfp =>
      split at h
      · simp at h
      · next hl =>
        have hl : hlen = k.dlen := Classical.byContradiction hl
        subst hl
        split at h
        · simp at h
        · next id dd hk =>
          dsimp only at h
          split at h
          · next toff tlen hft =>
            split at h
            · simp at h
            · next htl =>
              have htl : tlen = 2 := Classical.byContradiction htl
              subst htl
              split at h
              · simp at h
              · next hat =>
                rw [hsha] at h
                dsimp only at h
                have := verifyPrimary_ok (st := { st with digest := dd }) hsha hsig hfp hk
                  (by rw [← h]; exact congrArg (fun s => (verifyPrimary k m id (le16 m toff) s).1) (by rw [← hsha]))
                exact ⟨toff, hft, Classical.byContradiction hat, this.1, this.2⟩
          · simp at h
    · simp at h
  · next r _ hne heq =>
    subst h
    exact (hne rfl).elim


/-- Keystore with at most 256 keys, whose hashes are pairwise different. -/
def DistinctKeys (k : ImgCfg) : Prop :=
  k.keys.length ≤ 256 ∧ ∀ s ∈ k.keys, ∀ s' ∈ k.keys, k.hash s.pub = k.hash s'.pub → s = s'

theorem keySlot_complete {k : ImgCfg} (hd : DistinctKeys k) {s : Slot} (hs : s ∈ k.keys)
    {hint : List Byte} (hh : hint = k.hash s.pub) (d : List Byte) :
    ∃ id d', keySlot k hint k.keys.length 0 d = (some id, d') ∧ k.keys[id]? = some s ∧
      k.keys[id % 256]? = some s := by
  subst hh
  obtain ⟨i, hi, he⟩ := List.getElem_of_mem hs
  rcases hk : keySlot k (k.hash s.pub) k.keys.length 0 d with ⟨_ | id, d'⟩
  · exfalso
    have hlt : i < 256 := Nat.lt_of_lt_of_le hi hd.1
    refine keySlot_none _ _ _ _ hk i s (by omega) (by omega) ?_ rfl
    rw [Nat.mod_eq_of_lt hlt, List.getElem?_eq_getElem hi, he]
  · obtain ⟨h1, s', hs', hh'⟩ := keySlot_lt hk
    have : s' = s := hd.2 s' (List.mem_of_getElem? hs') s hs hh'
    subst this
    exact ⟨id, d', rfl, hs', by rw [h1]; exact hs'⟩

theorem verifySecondary_complete {k : ImgCfg} (hd : DistinctKeys k) {m : Mem} {t off : Nat}
    {st : ImgSt} (hsha : st.sha = .stored off)
    (h : SignedBy k m (slice m off k.dlen) (t % 16) HDR_SECONDARY_PUBKEY HDR_SECONDARY_SIGNATURE
      k.sigSz2 k.verify2) : (verifySecondary k m (t % 16) st).1 = .ok := by
  obtain ⟨s, hs, hmask, ⟨hoff, hf, hh⟩, soff, slen, hsf, hv⟩ := h
  obtain ⟨id, d', hk, h1, h2⟩ := keySlot_complete hd hs hh st.digest
  unfold verifySecondary
  rw [hf]
  simp only [ne_eq, not_true_eq_false, if_false, hk, h1, h2]
  rw [if_neg (by rw [(maskAllows_iff (by omega)).mpr hmask]; simp), hsf]
  simp only [ImgSt.shaBytes, hsha, hv, if_true]

theorem verifyPrimary_complete {k : ImgCfg} (hd : DistinctKeys k) {m : Mem} {t off id : Nat}
    {st : ImgSt} (hsha : st.sha = .stored off) {s : Slot} (h1 : k.keys[id]? = some s)
    (h2 : k.keys[id % 256]? = some s) (hmask : s.mask.getLsbD (t % 16) = true)
    {soff slen : Nat} (hsf : findHdr m k.H HDR_SIGNATURE = .found soff slen)
    (hv : k.verify s.pub (slice m off k.dlen) (slice m soff k.sigSz) = true)
    (hy : k.hybrid = true → SignedBy k m (slice m off k.dlen) (t % 16) HDR_SECONDARY_PUBKEY
      HDR_SECONDARY_SIGNATURE k.sigSz2 k.verify2) : (verifyPrimary k m id t st).1 = .ok := by
  unfold verifyPrimary
  rw [h1, h2]
  dsimp only
  rw [if_neg (by rw [(maskAllows_iff (by omega)).mpr hmask]; simp), hsf]
  dsimp only
  have hv' : k.verify s.pub (st.shaBytes k m) (slice m soff k.sigSz) = true := by
    simpa [ImgSt.shaBytes, hsha] using hv
  rw [if_pos hv', if_pos rfl]
  split
  · next hyb => exact verifySecondary_complete hd hsha (hy hyb)
  · rfl

/-- **C17, C18 (exact).** For a keystore of at most 256 keys with different hashes, verification
succeeds exactly if the image is authentic. -/
theorem verified_iff (k : ImgCfg) (hd : DistinctKeys k) (m : Mem) (fw : Nat) (d : List Byte)
    (hb : 0 < k.blk) (hfw : fw + k.blk < 4294967296) :
    verifyImage k m fw d = .ok ↔
      ∃ off, DigestOK k m fw off ∧ AuthenticFor k m (k.hash (signedMsg k.H m off fw)) := by
  refine ⟨verified_sound k m fw d hb hfw, ?_⟩
  rintro ⟨off, hdg, toff, hft, hat, ⟨s, hs, hmask, ⟨hoff, hf, hh⟩, soff, slen, hsf, hv⟩, hy⟩
  have hi : (verifyIntegrity k m fw (freshSt d)).1 = .ok :=
    (integrity_iff k m fw _ hb hfw).mpr ⟨off, hdg⟩
  obtain ⟨off', hf', hsha, _⟩ := verifyIntegrity_ok (st := freshSt d)
    (st' := (verifyIntegrity k m fw (freshSt d)).2) (Prod.ext hi rfl)
  rw [hdg.1] at hf'
  obtain rfl := (Find.found.inj hf').1
  rw [hdg.2] at hv hy
  obtain ⟨id, d', hk, h1, h2⟩ := keySlot_complete hd hs hh
    (verifyIntegrity k m fw (freshSt d)).2.digest
  unfold verifyImage
  rw [show verifyIntegrity k m fw (freshSt d) = (.ok, (verifyIntegrity k m fw (freshSt d)).2) from
    Prod.ext hi rfl]
  dsimp only
  generalize (verifyIntegrity k m fw (freshSt d)).2 = st at hsha hk ⊢
  unfold verifyAuthenticity
  rw [hf]
  dsimp only
  rw [if_neg (by simp), hk]
  dsimp only
  rw [hft]
  dsimp only
  rw [if_neg (by simp), if_neg (by simpa using hat)]
  obtain ⟨dg, sha, so, sh⟩ := st
  subst hsha
  exact verifyPrimary_complete hd rfl h1 h2 hmask hsf hv hy

/-- The verdict does not depend on what the static `digest` buffer held before. -/
theorem verified_digest_irrelevant (k : ImgCfg) (hd : DistinctKeys k) (m : Mem) (fw : Nat)
    (d d' : List Byte) (hb : 0 < k.blk) (hfw : fw + k.blk < 4294967296) :
    verifyImage k m fw d = .ok ↔ verifyImage k m fw d' = .ok := by
  rw [verified_iff k hd m fw d hb hfw, verified_iff k hd m fw d' hb hfw]

/-! ### Witnesses and non-vacuity

A toy signature scheme: the "hash" of a message is the xor of its bytes and its length (two bytes),
a signature of `d` by the key `p` is `p ++ d`. -/

namespace ImgDemo

def toyHash (l : List Byte) : List Byte := [l.foldl (· ^^^ ·) 0x55#8, BitVec.ofNat 8 l.length]

def k1 : Slot := ⟨[0x11#8], 2#32⟩
def k2 : Slot := ⟨[0x22#8], 2#32⟩

/-- Hybrid build with two keys that may sign applications. -/
def cfgH : ImgCfg :=
  { H := 56, blk := 5, shaTag := 3, dlen := 2, authType := 3, sigSz := 3, sigSz2 := 3, hybrid := true
    keys := [k1, k2], hash := toyHash, verify := fun p d s => s == p ++ d
    verify2 := fun p d s => s == p ++ d }

/-- Header (magic, size, type, two key hints), firmware of 7 bytes, digest and signatures. -/
def pre (t : Byte) : List Byte :=
  [0x57#8, 0x4F#8, 0x4C#8, 0x46#8, 7#8, 0#8, 0#8, 0#8,
   4#8, 0#8, 2#8, 0#8, t, 3#8,
   0x10#8, 0#8, 2#8, 0#8] ++ toyHash k1.pub ++ [0x12#8, 0#8, 2#8, 0#8] ++ toyHash k2.pub

def fwB : List Byte := [1#8, 2#8, 3#8, 4#8, 5#8, 6#8, 7#8]

def image (t : Byte) (sig1 sig2 : List Byte) : Mem :=
  let h := pre t ++ [3#8, 0#8, 2#8, 0#8] ++ toyHash (pre t ++ fwB) ++
    (if sig1 = [] then [] else [0x20#8, 0#8, 3#8, 0#8] ++ sig1 ++ [0xFF#8]) ++
    [0x22#8, 0#8, 3#8, 0#8] ++ sig2
  ofList (h ++ List.replicate (56 - h.length) 0xFF#8 ++ fwB)

def dg : List Byte := toyHash (pre 1#8 ++ fwB)

/-- A correctly signed image. -/
def good : Mem := image 1#8 (k1.pub ++ dg) (k2.pub ++ dg)

end ImgDemo

open ImgDemo

/-- Non-vacuity: a correctly signed image is accepted; wrong primary or secondary signature, wrong
partition id are rejected. -/
example : verifyImage cfgH good 7 [] = .ok ∧
    verifyImage cfgH (image 1#8 [0#8, 0#8, 0#8] (k2.pub ++ dg)) 7 [] = .err ∧
    verifyImage cfgH (image 1#8 (k1.pub ++ dg) [0#8, 0#8, 0#8]) 7 [] = .err ∧
    verifyImage cfgH (image 2#8 (k1.pub ++ toyHash (pre 2#8 ++ fwB)) (k2.pub ++ toyHash (pre 2#8 ++ fwB)))
      7 [] = .err := by decide +kernel

example : DistinctKeys cfgH := by
  refine ⟨by decide, ?_⟩
  intro s hs s' hs' h
  have : s = k1 ∨ s = k2 := by simpa [cfgH] using hs
  have h' : s' = k1 ∨ s' = k2 := by simpa [cfgH] using hs'
  rcases this with rfl | rfl <;> rcases h' with rfl | rfl
  · rfl
  · exact absurd h (by decide)
  · exact absurd h (by decide)
  · rfl

example : ∃ off, DigestOK cfgH good 7 off ∧ AuthenticFor cfgH good (cfgH.hash (signedMsg cfgH.H good off 7)) :=
  verified_sound cfgH good 7 [] (by decide) (by decide) (by decide +kernel)

/-- **Finding (C18).** If authenticity is verified without a preceding integrity check
(`img->sha_hash == NULL`, `/repo/src/image.c:1678-1682`), the search for the secondary key
overwrites the static buffer that holds the image digest: the secondary signature is then checked
against the hash of the secondary *public key*. A secondary signature that has nothing to do with
the image is accepted. -/
theorem hybrid_digest_clobbered :
    (verifyAuthenticity cfgH (image 1#8 (k1.pub ++ dg) (k2.pub ++ toyHash k2.pub)) 7 (freshSt [])).1 = .ok ∧
    ¬ AuthenticFor cfgH (image 1#8 (k1.pub ++ dg) (k2.pub ++ toyHash k2.pub)) dg := by
  refine ⟨by decide +kernel, ?_⟩
  rintro ⟨toff, _, _, _, h⟩
  obtain ⟨s, hs, _, ⟨hoff, hf, hh⟩, soff, slen, hsf, hv⟩ := h rfl
  have e1 : findHdr (image 1#8 (k1.pub ++ dg) (k2.pub ++ toyHash k2.pub)) 56 0x22 = .found 44 3 := by
    decide +kernel
  have hsf' : findHdr (image 1#8 (k1.pub ++ dg) (k2.pub ++ toyHash k2.pub)) 56 0x22 = .found soff slen := hsf
  rw [e1] at hsf'
  obtain ⟨rfl, rfl⟩ := Find.found.inj hsf'
  have : s = k1 ∨ s = k2 := by simpa [cfgH] using hs
  rcases this with rfl | rfl
  · exact absurd hv (by decide +kernel)
  · exact absurd hv (by decide +kernel)

/-- **Finding (C17).** The presence of the signature tag is not checked
(`/repo/src/image.c:1642,1700`): without it, a NULL pointer is passed to the signature check. -/
theorem missing_signature_null :
    verifyImage cfgH (image 1#8 [] (k2.pub ++ dg)) 7 [] = .ub := by decide +kernel

/-- **Finding (C17).** `signature_ok` is not reset by `wolfBoot_verify_authenticity`: if it is still
set from an earlier image in the same structure (`wolfBoot_open_image_address` does not clear it), a
wrong primary signature goes unnoticed. -/
theorem stale_signature_ok :
    (verifyAuthenticity { cfgH with hybrid := false } (image 1#8 [0#8, 0#8, 0#8] (k2.pub ++ dg)) 7
      ⟨[], .stored 30, true, true⟩).1 = .ok := by decide +kernel

/-! ## The update properties for this image format -/

/-- Build configuration: header sizes agree, and no 32-bit position can wrap. -/
structure ImgWF (k : ImgCfg) (c : Cfg) : Prop where
  hdr : c.h = k.H
  hdr8 : 8 ≤ k.H
  blk : 0 < k.blk
  noWrap : c.part + k.blk < 4294967296

/-- A correctly signed image that fits and is not smaller than a signature is a `GoodImage`: the
verdict of all checks depends only on the bytes of the image. (Signature sizes enter since the
signature is read without regard to the size of its tag.) -/
theorem goodImage_of_verified {k : ImgCfg} {c : Cfg} (w : ImgWF k c) {junk : Byte} {X : Mem}
    (hm : le32 X 0 = MAGIC) (hfit : imageBytes c X ≤ c.part - c.ss)
    (h4 : 4 ≤ le32 X 4) (hs : k.sigSz ≤ le32 X 4) (hs2 : k.sigSz2 ≤ le32 X 4)
    (ht : blobType k.H X % 16 = 1 ∧ blobType k.H X / 256 % 256 = k.authType)
    (hv : verifyImage k X (le32 X 4) [] = .ok) : GoodImage c (imgEnv k c junk) X := by
  have hH := w.hdr
  have h8 := w.hdr8
  have hnw := w.noWrap
  have hib : imageBytes c X = c.h + le32 X 4 := rfl
  have hfw : ∀ m : Mem, (∀ o, o < imageBytes c X → m o = X o) → fwSize c m = le32 X 4 := by
    intro m hmX
    have e0 : le32 m 0 = le32 X 0 := le32_congr (fun o _ _ => hmX o (by omega))
    have e4 : le32 m 4 = le32 X 4 := le32_congr (fun o _ _ => hmX o (by omega))
    unfold fwSize
    rw [e0, e4, if_neg (by simpa using hm), if_neg (by omega)]
  have hX := hfw X (fun _ _ => rfl)
  have hi : (verifyIntegrity k X (le32 X 4) (freshSt [])).1 = .ok := by
    unfold verifyImage at hv
    split at hv
    · next heq => rw [heq]
    · next r _ hne heq => subst hv; exact (hne rfl).elim
  refine ⟨hm, by omega, hfit, ht, ?_, ?_, ?_⟩
  · show ((verifyIntegrity k X (fwSize c X) (freshSt [])).1 == .ok) = true
    rw [hX, hi]; rfl
  · show (verifyImage k X (fwSize c X) [] == .ok) = true
    rw [hX, hv]; rfl
  · intro m hmX
    have hag : Agree m X 0 (k.H + le32 X 4) := fun o _ h => hmX o (by omega)
    have hagH : Agree m X 0 k.H := hag.mono (by omega) (by omega)
    have e0 : le32 m 0 = le32 X 0 := le32_congr (hagH.mono (by omega) (by omega))
    refine ⟨?_, ?_, ?_, ?_⟩
    · show blobType k.H m = blobType k.H X
      unfold blobType
      rw [e0, findHdr_congr hagH]
      split
      · rfl
      · split
        · next off len hf =>
          have := findHdr_bounds hf
          rw [le16_congr (m := m) (x := X) (a := off) (hag.mono (by omega) (by omega))]
        · rfl
    · show blobVersion k.H m = blobVersion k.H X
      unfold blobVersion
      rw [e0, findHdr_congr hagH]
      split
      · rfl
      · split
        · next off len hf =>
          have := findHdr_bounds hf
          rw [le32_congr (m := m) (x := X) (a := off) (hag.mono (by omega) (by omega))]
        · rfl
    · show ((verifyIntegrity k m (fwSize c m) (freshSt [])).1 == .ok) =
        ((verifyIntegrity k X (fwSize c X) (freshSt [])).1 == .ok)
      rw [hfw m hmX, hX, verifyIntegrity_congr w.blk (by omega) hag]
    · show (verifyImage k m (fwSize c m) [] == .ok) = (verifyImage k X (fwSize c X) [] == .ok)
      rw [hfw m hmX, hX, verifyImage_congr [] w.blk (by omega) hag hs hs2]

/-- Everything that the holder of the signing keys has signed fits in front of the trailer sector and
is not smaller than a signature. -/
def SignerCareful (k : ImgCfg) (c : Cfg) : Prop :=
  ∀ m, le32 m 0 = MAGIC → verifyImage k m (fwSize c m) [] = .ok →
    imageBytes c m ≤ c.part - c.ss ∧ 4 ≤ le32 m 4 ∧ k.sigSz ≤ le32 m 4 ∧ k.sigSz2 ≤ le32 m 4

theorem acceptable_good {k : ImgCfg} {c : Cfg} (w : c.WF) (wi : ImgWF k c) (hs : SignerCareful k c)
    (hat : k.authType ≠ 0) {junk : Byte} (m : Mem) (h : acceptable c (imgEnv k c junk) m) :
    GoodImage c (imgEnv k c junk) m := by
  obtain ⟨ht, _, _, hv⟩ := h
  have hv : verifyImage k m (fwSize c m) [] = .ok := by simpa [imgEnv] using hv
  have hm : le32 m 0 = MAGIC := by
    apply Classical.byContradiction
    intro hm
    refine hat ?_
    have : blobType k.H m = 0 := by unfold blobType; rw [if_pos hm]
    have h2 : blobType k.H m / 256 % 256 = k.authType := ht.2
    rw [this] at h2
    exact h2.symm
  obtain ⟨hfit, h4, hs1, hs2⟩ := hs m hm hv
  have hss := w.ss_pos
  have hpe := w.part_eq
  have hfw : fwSize c m = le32 m 4 := by
    unfold fwSize
    have : imageBytes c m = c.h + le32 m 4 := rfl
    rw [if_neg (by simpa using hm), if_neg (by omega)]
  rw [hfw] at hv
  exact goodImage_of_verified wi hm hfit h4 hs1 hs2 ht hv

/-- **C07 for the real image format.** As `lifecycle_never_bricks_partial`, with hash and signature
scheme arbitrary, and the remaining assumption about images being that the holder of the signing
keys only signs images that fit (C08). The booted image is authentic in the sense of C16-C18. -/
theorem lifecycle_image_partial {k : ImgCfg} {c : Cfg} (w : c.WF) (wi : ImgWF k c)
    (hat : k.authType ≠ 0) (hs : SignerCareful k c) {junk : Byte} (hj : junk ≠ ST_FINAL) {X : Mem}
    {f0 : Flash} (hX : GoodImage c (imgEnv k c junk) X) (h0 : Delivered c X f0) {f : Flash}
    (h : History c (imgEnv k c junk) (.off f0) (.off f)) :
    ∃ w', bootUp c (imgEnv k c junk) f = .ok () w' ∧ w'.locked = true ∧
      le32 (w'.fl .boot) 0 = MAGIC ∧
      ∃ fw off, DigestOK k (w'.fl .boot) fw off ∧
        AuthenticFor k (w'.fl .boot) (k.hash (signedMsg k.H (w'.fl .boot) off fw)) := by
  obtain ⟨w', h1, h2, h3, _, h5⟩ := lifecycle_never_bricks_partial w
    (fun m hm => acceptable_good w wi hs hat m hm) hj hX h0 h
  refine ⟨w', h1, h2, h3, fwSize c (w'.fl .boot), ?_⟩
  have hv : verifyImage k (w'.fl .boot) (fwSize c (w'.fl .boot)) [] = .ok := by
    simpa [imgEnv] using h5
  have hfw : fwSize c (w'.fl .boot) ≤ c.part := by
    unfold fwSize
    split
    · omega
    · split <;> omega
  have := wi.noWrap
  exact verified_sound k _ _ [] wi.blk (by omega) hv

/-- **C06 for the real image format.** In every execution from every flash contents: if the firmware
in BOOT is started, its stored digest is the hash of header and firmware, and it is signed by an
authorised key (two keys in hybrid builds). -/
theorem boot_gate_image {k : ImgCfg} {c : Cfg} (wi : ImgWF k c) (junk : Byte) (w w' : World)
    (h : start c (imgEnv k c junk) w = .ok () w') :
    le32 (w'.fl .boot) 0 = MAGIC ∧ le32 (w'.fl .boot) 4 ≤ c.part - c.h ∧
    ∃ off, DigestOK k (w'.fl .boot) (le32 (w'.fl .boot) 4) off ∧
      AuthenticFor k (w'.fl .boot)
        (k.hash (signedMsg k.H (w'.fl .boot) off (le32 (w'.fl .boot) 4))) := by
  obtain ⟨h1, h2, _, h4⟩ := boot_gate c _ w w' h
  refine ⟨h1, h2, ?_⟩
  have hfw : fwSize c (w'.fl .boot) = le32 (w'.fl .boot) 4 := by
    unfold fwSize
    rw [if_neg (by simpa using h1), if_neg (by omega)]
  have hv : verifyImage k (w'.fl .boot) (fwSize c (w'.fl .boot)) [] = .ok := by
    simpa [imgEnv] using h4
  rw [hfw] at hv
  have := wi.noWrap
  exact verified_sound k _ _ [] wi.blk (by omega) hv

/-! ### Non-vacuity: a device whose signer is careful -/

namespace ImgDemo

/-- "Hash": length and size word of the message. -/
def sizeHash (l : List Byte) : List Byte :=
  [BitVec.ofNat 8 l.length, (l[4]?).getD 0#8, (l[5]?).getD 0#8, (l[6]?).getD 0#8, (l[7]?).getD 0#8]

/-- One key; only digests of images with 7 bytes of firmware are "signed" (with any signature). -/
def cfgC : ImgCfg :=
  { H := 56, blk := 5, shaTag := 3, dlen := 5, authType := 3, sigSz := 1, sigSz2 := 1, hybrid := false
    keys := [k1], hash := sizeHash, verify := fun _ d _ => d.drop 1 == [7#8, 0#8, 0#8, 0#8]
    verify2 := fun _ _ _ => false }

def geo : Cfg := { ss := 64, n := 3, h := 56, fb := 8 }

def preC : List Byte :=
  [0x57#8, 0x4F#8, 0x4C#8, 0x46#8, 7#8, 0#8, 0#8, 0#8, 1#8, 0#8, 4#8, 0#8, 1#8, 0#8, 0#8, 0#8,
   4#8, 0#8, 2#8, 0#8, 1#8, 3#8, 0x10#8, 0#8, 5#8, 0#8] ++ sizeHash k1.pub ++ [0xFF#8]

def imgC : Mem :=
  let h := preC ++ [3#8, 0#8, 5#8, 0#8] ++ sizeHash (preC ++ fwB) ++ [0xFF#8, 0x20#8, 0#8, 1#8, 0#8, 9#8]
  ofList (h ++ List.replicate (56 - h.length) 0xFF#8 ++ fwB)

theorem geo_wf : geo.WF := by constructor <;> decide

theorem geo_img : ImgWF cfgC geo := by constructor <;> decide

theorem careful : SignerCareful cfgC geo := by
  intro m hm hv
  have hfw : fwSize geo m ≤ 192 := by
    unfold fwSize
    split
    · omega
    · split
      · decide
      · next h => have : geo.part - geo.h = 136 := by decide
                  omega
  obtain ⟨off, hd, toff, _, _, ⟨s, hs, _, _, soff, slen, hsf, hvf⟩, _⟩ :=
    verified_sound cfgC m _ [] (by decide) (by have : cfgC.blk = 5 := rfl; omega) hv
  have hb := findHdr_bounds hd.1
  have h4 : le32 m 4 = 7 := by
    have hvf' : ((sizeHash (signedMsg 56 m off (fwSize geo m))).drop 1 == [7#8, 0#8, 0#8, 0#8]) = true := hvf
    have hg : ∀ i, i < 8 → (signedMsg 56 m off (fwSize geo m))[i]? = some (m i) := by
      intro i hi
      unfold signedMsg
      rw [List.getElem?_append_left (by rw [slice_length]; omega),
        slice_getElem? m 0 (off - 4) i (by omega), Nat.zero_add]
    rw [beq_iff_eq] at hvf'
    simp only [sizeHash, hg 4 (by omega), hg 5 (by omega), hg 6 (by omega), hg 7 (by omega),
      List.drop_succ_cons, List.drop_zero, Option.getD_some, List.cons.injEq, and_true] at hvf'
    obtain ⟨a, b, c, d⟩ := hvf'
    unfold le32
    rw [a, b, c, d]; decide
  refine ⟨?_, by omega, ?_, ?_⟩
  · show 56 + le32 m 4 ≤ 128
    omega
  · show 1 ≤ le32 m 4
    omega
  · show 1 ≤ le32 m 4
    omega

theorem imgC_good : GoodImage geo (imgEnv cfgC geo 0#8) imgC :=
  goodImage_of_verified geo_img (by decide +kernel) (by decide +kernel) (by decide +kernel)
    (by decide +kernel) (by decide +kernel) (by decide +kernel) (by decide +kernel)

def flashC : Flash
  | .boot => imgC
  | _ => fun _ => 0xFF#8

theorem flashC_delivered : Delivered geo imgC flashC :=
  ⟨fun _ _ => rfl, by unfold Quiet; decide +kernel, fun _ _ _ => rfl, Or.inr (fun x h1 _ => by
    have h1' : 188 ≤ x := h1
    show imgC x = 0xFF#8
    unfold imgC ofList
    rw [List.getElem?_eq_none (by
      refine Nat.le_trans ?_ h1'
      decide +kernel)]
    rfl)⟩

end ImgDemo

example : ∃ w', bootUp geo (imgEnv cfgC geo 0#8) flashC = .ok () w' ∧ w'.locked = true ∧
      le32 (w'.fl .boot) 0 = MAGIC ∧
      ∃ fw off, DigestOK cfgC (w'.fl .boot) fw off ∧
        AuthenticFor cfgC (w'.fl .boot) (cfgC.hash (signedMsg cfgC.H (w'.fl .boot) off fw)) :=
  lifecycle_image_partial geo_wf geo_img (by decide) careful (by decide) imgC_good flashC_delivered
    (History.nil)

end Verif
