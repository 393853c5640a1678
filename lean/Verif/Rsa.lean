import Verif.Basic

/-!
# Decoding of the RSA PKCS#1 v1.5 result: `/repo/src/image.c`

C19. The plain text that the RSA primitive of wolfCrypt recovers from the signature is `inp`
(`inputSz` = its length); it is the tail of the array `output`, so index `inputSz` is outside of
the array.
-/

namespace Verif

/-- Outcome of a C function that reads from a buffer: value, negative return value, or out-of-bounds
read. -/
inductive RdOut (α : Type) where
  | ok (a : α)
  | err
  | oob
deriving DecidableEq

/-- `DecodeAsn1Tag`, `/repo/src/image.c:317-330`. Result: index of the value and its length. -/
def decodeAsn1Tag (inp : List Byte) (idx : Nat) (tag : Byte) : RdOut (Nat × Nat) :=
  match inp[idx]? with
  | none => .oob
  | some t =>
    if t ≠ tag then .err
    else match inp[idx + 1]? with
      | none => .oob
      | some l => if l.toNat + (idx + 2) > inp.length then .err else .ok (idx + 2, l.toNat)

/-- `RsaDecodeSignature`, `/repo/src/image.c:331-358`. Result: offset and length of the digest. -/
def rsaDecodeSignature (inp : List Byte) : RdOut (Nat × Nat) :=
  match decodeAsn1Tag inp 0 0x30#8 with
  | .err => .err
  | .oob => .oob
  | .ok (i, _) =>
    match decodeAsn1Tag inp i 0x30#8 with
    | .err => .err
    | .oob => .oob
    | .ok (j, alen) => decodeAsn1Tag inp (j + alen) 0x04#8

/-- End of `wolfBoot_verify_signature_rsa`, `/repo/src/image.c:441-449` (software RSA): `inp` is the
recovered plain text, `sha` the digest of the image (`WOLFBOOT_SHA_DIGEST_SIZE` bytes). `.ok true`:
signature confirmed. -/
def rsaCompare (inp sha : List Byte) : RdOut Bool :=
  if inp.length > sha.length then
    match rsaDecodeSignature inp with
    | .oob => .oob
    | .err => .ok false
    | .ok (off, len) =>
      if len = sha.length then
        if off + len ≤ inp.length then .ok ((inp.drop off).take len == sha) else .oob
      else .ok false
  else if inp.length = sha.length then .ok (inp == sha)
  else .ok false

/-! ## Specification: the part of `DigestInfo` that is looked at -/

/-- `30 t 30 a <a bytes> 04 d <d bytes> <anything>`, the first two lengths inside the buffer. -/
def IsDigestInfo (inp : List Byte) (algo dig tail : List Byte) : Prop :=
  ∃ t a d : Byte, inp = [0x30#8, t, 0x30#8, a] ++ algo ++ [0x04#8, d] ++ dig ++ tail ∧
    a.toNat = algo.length ∧ d.toNat = dig.length ∧ t.toNat + 2 ≤ inp.length

theorem decodeAsn1Tag_ok {inp : List Byte} {idx off len : Nat} {tag : Byte}
    (h : decodeAsn1Tag inp idx tag = .ok (off, len)) :
    off = idx + 2 ∧ off + len ≤ inp.length ∧ inp[idx]? = some tag ∧
      ∃ l : Byte, inp[idx + 1]? = some l ∧ l.toNat = len := by
  unfold decodeAsn1Tag at h
  split at h
  · simp at h
  · next t ht =>
    split at h
    · simp at h
    · next hne =>
      have hne : t = tag := Classical.byContradiction hne
      subst hne
      split at h
      · simp at h
      · next l hl =>
        split at h
        · simp at h
        · simp only [RdOut.ok.injEq, Prod.mk.injEq] at h
          obtain ⟨rfl, rfl⟩ := h
          exact ⟨rfl, by omega, ht, l, hl, rfl⟩

theorem decodeAsn1Tag_some {inp : List Byte} {idx : Nat} {tag l : Byte}
    (h1 : inp[idx]? = some tag) (h2 : inp[idx + 1]? = some l) (h3 : l.toNat + (idx + 2) ≤ inp.length) :
    decodeAsn1Tag inp idx tag = .ok (idx + 2, l.toNat) := by
  unfold decodeAsn1Tag
  rw [h1]
  simp only [ne_eq, not_true_eq_false, if_false, h2]
  rw [if_neg (by omega)]

/-- **C19 (bounds).** A successful decoding points to a digest that lies inside the buffer. -/
theorem rsaDecode_in_bounds {inp : List Byte} {off len : Nat}
    (h : rsaDecodeSignature inp = .ok (off, len)) : off + len ≤ inp.length := by
  unfold rsaDecodeSignature at h
  split at h
  · simp at h
  · simp at h
  · split at h
    · simp at h
    · simp at h
    · exact (decodeAsn1Tag_ok h).2.1

/-- **C19 (no over-read of the digest).** The comparison with the digest never reads out of bounds;
the only out-of-bounds reads are those of the ASN.1 walk. -/
theorem rsaCompare_oob_iff (inp sha : List Byte) :
    rsaCompare inp sha = .oob ↔ sha.length < inp.length ∧ rsaDecodeSignature inp = .oob := by
  unfold rsaCompare
  by_cases hl : inp.length > sha.length
  · rw [if_pos hl]
    rcases h : rsaDecodeSignature inp with ⟨off, len⟩ | _ | _
    · have := rsaDecode_in_bounds h
      dsimp only
      by_cases h1 : len = sha.length <;> simp [h1]
      omega
    · simp
    · simpa using hl
  · rw [if_neg hl]
    by_cases h2 : inp.length = sha.length <;> simp [h2]
    omega

/-- `List.drop` one element at a time. -/
theorem drop_cons_of {α : Type} {l : List α} {i : Nat} {a : α} (h : l[i]? = some a) :
    l.drop i = a :: l.drop (i + 1) := by
  obtain ⟨hi, rfl⟩ := List.getElem?_eq_some_iff.mp h
  exact List.drop_eq_getElem_cons hi

/-- **C19 (exact).** Decoding succeeds with digest `dig` exactly for buffers of the form
`30 t 30 a <algorithm> 04 d <dig> <tail>`: the algorithm identifier and trailing bytes are arbitrary. -/
theorem rsaDecode_iff (inp dig : List Byte) :
    (∃ off, rsaDecodeSignature inp = .ok (off, dig.length) ∧ (inp.drop off).take dig.length = dig) ↔
      ∃ algo tail, IsDigestInfo inp algo dig tail := by
  constructor
  · rintro ⟨off, h, hd⟩
    unfold rsaDecodeSignature at h
    split at h
    · simp at h
    · simp at h
    · next i tl h1 =>
      split at h
      · simp at h
      · simp at h
      · next j alen h2 =>
        obtain ⟨rfl, b1, e1, t, e1', ht⟩ := decodeAsn1Tag_ok h1
        obtain ⟨rfl, b2, e2, a, e2', ha⟩ := decodeAsn1Tag_ok h2
        obtain ⟨rfl, b3, e3, d, e3', hd'⟩ := decodeAsn1Tag_ok h
        refine ⟨(inp.drop 4).take alen, inp.drop (4 + alen + 2 + dig.length), t, a, d, ?_, ?_, hd', ?_⟩
        · have s0 : inp = 0x30#8 :: t :: 0x30#8 :: a :: inp.drop 4 := by
            have := drop_cons_of e1
            rw [List.drop_zero, drop_cons_of e1', drop_cons_of e2, drop_cons_of e2'] at this
            exact this
          have s1 : inp.drop 4 = (inp.drop 4).take alen ++ inp.drop (4 + alen) := by
            rw [← List.drop_drop, List.take_append_drop]
          have s2 : inp.drop (4 + alen) = 0x04#8 :: d :: inp.drop (4 + alen + 2) := by
            have e3 : inp[4 + alen]? = some 0x04#8 := e3
            have e3' : inp[4 + alen + 1]? = some d := e3'
            rw [drop_cons_of e3, drop_cons_of e3']
          have s3 : inp.drop (4 + alen + 2) = dig ++ inp.drop (4 + alen + 2 + dig.length) := by
            have hd : (inp.drop (4 + alen + 2)).take dig.length = dig := hd
            conv => lhs; rw [← List.take_append_drop dig.length (inp.drop (4 + alen + 2)), hd, List.drop_drop]
          conv => lhs; rw [s0, s1, s2, s3]
          simp
        · rw [List.length_take, List.length_drop]
          omega
        · omega
  · rintro ⟨algo, tail, t, a, d, he, ha, hd, ht⟩
    have hlen : inp.length = 4 + algo.length + 2 + dig.length + tail.length := by
      rw [he]; simp [List.length_append]; omega
    have g0 : inp[0]? = some 0x30#8 := by rw [he]; rfl
    have g1 : inp[1]? = some t := by rw [he]; rfl
    have g2 : inp[2]? = some 0x30#8 := by rw [he]; rfl
    have g3 : inp[3]? = some a := by rw [he]; rfl
    have he' : inp = ([0x30#8, t, 0x30#8, a] ++ algo) ++ (0x04#8 :: d :: (dig ++ tail)) := by
      rw [he]; simp
    have hl4 : ([0x30#8, t, 0x30#8, a] ++ algo).length = 4 + algo.length := by simp; omega
    have g4 : inp[4 + algo.length]? = some 0x04#8 := by
      rw [he', List.getElem?_append_right (by omega), hl4, Nat.sub_self]; rfl
    have g5 : inp[4 + algo.length + 1]? = some d := by
      rw [he', List.getElem?_append_right (by omega), hl4,
        show 4 + algo.length + 1 - (4 + algo.length) = 1 by omega]; rfl
    refine ⟨4 + algo.length + 2, ?_, ?_⟩
    · unfold rsaDecodeSignature
      rw [decodeAsn1Tag_some g0 g1 (by omega)]
      dsimp only
      rw [decodeAsn1Tag_some g2 g3 (by omega)]
      dsimp only
      rw [show 0 + 2 + 2 + a.toNat = 4 + algo.length by omega, decodeAsn1Tag_some g4 g5 (by omega), hd]
    · rw [he', show 4 + algo.length + 2 = ([0x30#8, t, 0x30#8, a] ++ algo).length + 2 by omega,
        List.drop_append]
      rw [List.drop_eq_nil_of_le (by omega), List.nil_append, Nat.add_sub_cancel_left]
      simp

/-- **C19 (decision).** The signature is confirmed exactly if the plain text is the digest itself or
a `DigestInfo` (in the above loose sense) that contains it. -/
theorem rsaCompare_iff (inp sha : List Byte) :
    rsaCompare inp sha = .ok true ↔ inp = sha ∨ ∃ algo tail, IsDigestInfo inp algo sha tail := by
  have hlong : (∃ algo tail, IsDigestInfo inp algo sha tail) → sha.length < inp.length := by
    rintro ⟨algo, tail, t, a, d, he, _⟩
    rw [he]; simp [List.length_append]; omega
  rw [← rsaDecode_iff] at hlong
  rw [← rsaDecode_iff]
  unfold rsaCompare
  by_cases hl : inp.length > sha.length
  · rw [if_pos hl]
    have hne : inp ≠ sha := fun h => by rw [h] at hl; omega
    rcases h : rsaDecodeSignature inp with ⟨off, len⟩ | _ | _
    · have hb := rsaDecode_in_bounds h
      dsimp only
      by_cases h1 : len = sha.length
      · subst h1
        simp [hb, hne]
      · simp [h1, hne]
    · simp [hne]
    · simp [hne]
  · rw [if_neg hl]
    constructor
    · intro h
      by_cases h2 : inp.length = sha.length
      · rw [if_pos h2] at h
        exact Or.inl (by simpa using h)
      · rw [if_neg h2] at h; simp at h
    · rintro (h | h)
      · subst h; simp
      · exact absurd (hlong h) hl

/-- **Finding (C19).** The index is not checked before the tag and length bytes are read: a plain
text that ends with the algorithm identifier makes the code read the byte behind the buffer ... -/
theorem rsaDecode_overread : ∃ inp : List Byte, inp.length = 33 ∧ rsaDecodeSignature inp = .oob := by
  refine ⟨[0x30#8, 31#8, 0x30#8, 29#8] ++ List.replicate 29 0#8, by decide, by decide⟩

/-- ... and this is the only way: **C19 (guarded safety)**. If the buffer has room for the digest
tag behind the algorithm identifier, no byte outside of it is read. -/
theorem rsaDecode_safe_partial (inp : List Byte) (h6 : 6 ≤ inp.length)
    (ha : ∀ a, inp[3]? = some a → a.toNat + 6 ≤ inp.length) : rsaDecodeSignature inp ≠ .oob := by
  have hget : ∀ i, i < inp.length → ∃ b, inp[i]? = some b := fun i hi => ⟨inp[i], by simp [hi]⟩
  have hno : ∀ idx tag, idx + 1 < inp.length → decodeAsn1Tag inp idx tag ≠ .oob := by
    intro idx tag hi
    obtain ⟨x, hx⟩ := hget idx (by omega)
    obtain ⟨y, hy⟩ := hget (idx + 1) hi
    unfold decodeAsn1Tag
    rw [hx]
    dsimp only
    split
    · simp
    · rw [hy]
      dsimp only
      split <;> simp
  unfold rsaDecodeSignature
  split
  · simp
  · next h => exact absurd h (hno _ _ (by omega))
  · next i tl h1 =>
    obtain ⟨rfl, _⟩ := decodeAsn1Tag_ok h1
    split
    · simp
    · next h => exact absurd h (hno _ _ (by omega))
    · next j alen h2 =>
      obtain ⟨rfl, b2, e2, a, e2', hal⟩ := decodeAsn1Tag_ok h2
      have := ha a e2'
      exact hno _ _ (by omega)

/-- **Finding (C19).** Trailing bytes are accepted: whatever follows the digest, the signature is
confirmed. (With a public exponent of 3 this permits forged signatures, Bleichenbacher 2006; the key
generation tool uses 65537.) -/
theorem rsa_trailing_garbage_accepted (sha tail : List Byte) (hs : sha.length ≤ 255) :
    rsaCompare ([0x30#8, 4#8, 0x30#8, 0#8, 0x04#8, BitVec.ofNat 8 sha.length] ++ sha ++ tail) sha
      = .ok true := by
  rw [rsaCompare_iff]
  refine Or.inr ⟨[], tail, 4#8, 0#8, BitVec.ofNat 8 sha.length, by simp, by simp, ?_, ?_⟩
  · simp; omega
  · simp

/-- Non-vacuity: the SHA-256 `DigestInfo` emitted by the signing tool
(`30 31 30 0d 06 09 60 86 48 01 65 03 04 02 01 05 00 04 20`). -/
def sha256Info : List Byte :=
  [0x30#8, 0x31#8, 0x30#8, 0x0d#8, 0x06#8, 0x09#8, 0x60#8, 0x86#8, 0x48#8, 0x01#8, 0x65#8, 0x03#8,
   0x04#8, 0x02#8, 0x01#8, 0x05#8, 0x00#8, 0x04#8, 0x20#8]

/-- Completeness for the encoding produced by the signing tool, for all digests. -/
theorem rsa_canonical_accepted (sha : List Byte) (hs : sha.length = 32) :
    rsaCompare (sha256Info ++ sha) sha = .ok true := by
  rw [rsaCompare_iff]
  refine Or.inr ⟨(sha256Info.drop 4).take 13, [], 0x31#8, 0x0d#8, 0x20#8, by simp [sha256Info],
    by simp [sha256Info], by simp [hs], by simp [hs, sha256Info]⟩

example : rsaDecodeSignature (sha256Info ++ List.replicate 32 7#8) = .ok (19, 32) := by decide
example : rsaDecodeSignature (sha256Info ++ List.replicate 31 7#8) = .err := by decide
example : rsaCompare (sha256Info ++ List.replicate 32 7#8) (List.replicate 32 8#8) = .ok false := by
  decide

end Verif
