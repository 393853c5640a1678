import Verif.TpmToolsThms

/-!
# The policies made by the tools and the bootloader (C76)
-/

namespace Verif.TpmTools

open Verif Verif.Tpm

/-! ## Hexadecimal digests -/

/-- The two characters of `%02x`. -/
def hex2 (b : Byte) : List Char :=
  [if b.toNat / 16 < 10 then Char.ofNat (48 + b.toNat / 16) else Char.ofNat (87 + b.toNat / 16),
   if b.toNat % 16 < 10 then Char.ofNat (48 + b.toNat % 16) else Char.ofNat (87 + b.toNat % 16)]

/-- A digest as printed by the tools. -/
def hex (b : Bytes) : List Char := b.flatMap hex2

theorem hexToByte_hex2 (b : Byte) (t : List Char) :
    hexToByte (hex2 b ++ t) = (hexToByte t).map (b :: ·) := by
  have h : ∀ n : Fin 256, hexChar ((hex2 (BitVec.ofNat 8 n)).getD 0 'x') = some (n.val / 16) ∧
      hexChar ((hex2 (BitVec.ofNat 8 n)).getD 1 'x') = some (n.val % 16) := by decide +kernel
  obtain ⟨h1, h2⟩ := h b.toFin
  have e : BitVec.ofNat 8 (b.toFin : Nat) = b := by apply BitVec.eq_of_toNat_eq; simp
  rw [e] at h1 h2
  have e2 : hex2 b ++ t = (hex2 b).getD 0 'x' :: (hex2 b).getD 1 'x' :: t := rfl
  rw [e2, hexToByte, h1, h2]
  dsimp only
  have : BitVec.ofNat 8 (b.toFin.val / 16 * 16 + b.toFin.val % 16) = b := by
    rw [Nat.div_add_mod']
    exact e
  rw [this]

/-- **A printed digest is read back.** -/
theorem hex_roundtrip (b : Bytes) : hexToByte (hex b) = some b := by
  induction b with
  | nil => rfl
  | cons a b ih =>
    rw [show hex (a :: b) = hex2 a ++ hex b from rfl, hexToByte_hex2, ih]
    rfl

theorem hex_length (b : Bytes) : (hex b).length = 2 * b.length := by
  induction b with
  | nil => rfl
  | cons a b ih =>
    rw [show hex (a :: b) = hex2 a ++ hex b from rfl, List.length_append, ih]
    simp [hex2]; omega

/-- What is read has half as many bytes, and all characters are hexadecimal digits. -/
theorem hexToByte_some : ∀ {t : List Char} {b : Bytes}, hexToByte t = some b →
    t.length = 2 * b.length ∧ ∀ c ∈ t, hexChar c ≠ none
  | [], b, h => by cases h; simp
  | [_], b, h => by simp [hexToByte] at h
  | x :: y :: r, b, h => by
    unfold hexToByte at h
    split at h
    · next p q hx hy =>
      cases hr : hexToByte r with
      | none => rw [hr] at h; cases h
      | some b' =>
        rw [hr] at h
        simp only [Option.map_some, Option.some.injEq] at h
        obtain ⟨h1, h2⟩ := hexToByte_some hr
        subst h
        refine ⟨by simp [h1]; omega, ?_⟩
        intro c hc
        simp only [List.mem_cons] at hc
        rcases hc with rfl | rfl | hc
        · rw [hx]; simp
        · rw [hy]; simp
        · exact h2 c hc
    · cases h

/-- A digest of up to 64 bytes is accepted. -/
theorem digest_hex {b : Bytes} (h : b ≠ []) (hl : b.length ≤ 64) : digest (hex b) = some (.bytes b) := by
  unfold digest
  rw [if_neg (by rw [hex_length]; unfold MAXDIG; omega), hex_roundtrip]
  cases b with
  | nil => exact absurd rfl h
  | cons a b => rfl

/-- **Finding: a malformed digest is not refused.** A text that is too long, of odd length, or has a
character that is no hexadecimal digit, gives the size 0xFFFFFFFF. -/
theorem digest_malformed {t : List Char} (h : 129 < t.length ∨ t.length % 2 = 1 ∨ ∃ c ∈ t, hexChar c = none) :
    digest t = some .huge := by
  unfold digest
  split
  · rfl
  · next hl =>
    cases hx : hexToByte t with
    | none => rfl
    | some b =>
      exfalso
      obtain ⟨h1, h2⟩ := hexToByte_some hx
      rcases h with h | h | ⟨c, hc, h⟩
      · unfold MAXDIG at hl; omega
      · omega
      · exact h2 c hc h

/-- What follows is a read of 4 GiB beyond the array, in both tools. -/
theorem malformed_reads_beyond (L : Lib) (tpm : Option (Nat → Bytes)) (w : Writable) (l : List Nat)
    (out : List Char) : policyCreate L tpm w l out .huge = .ub := rfl

/-- **Finding, for the command line of `policy_create`.** -/
theorem create_malformed (L : Lib) (tpm : Option (Nat → Bytes)) (w : Writable) {args : List (List Char)}
    {o : Opts} {t : List Char} (hh : wantsHelp args = false) (h : parse createStep start0 args.reverse = .go o)
    (ht : (given "-pcrdigest=".toList args).head? = some t)
    (hm : 129 < t.length ∨ t.length % 2 = 1 ∨ ∃ c ∈ t, hexChar c = none) : create L tpm w args = .ub := by
  obtain ⟨_, _, _, _, h5, _⟩ := create_options h
  rw [ht] at h5
  dsimp only at h5
  rw [digest_malformed hm] at h5
  have : o.pcrDig = .huge := Option.some.inj h5
  unfold create
  rw [hh]
  unfold start0 at h
  rw [h]
  dsimp only
  rw [this]
  rfl

/-- `policy_sign`, likewise, for both digests. -/
theorem sign_malformed (L : Lib) (l : List Nat) (d : Dig) :
    digestToSign L l .huge d = .end .ub ∧ digestToSign L l .unset .huge = .end .ub ∧
      ∀ b, digestToSign L l (.bytes b) .huge = .end .ub := by
  refine ⟨?_, rfl, fun b => rfl⟩
  cases d <;> rfl

/-! ## The file -/

/-- **The policy file.** For an ascending selection of PCRs and the digest `pd` of their values, the file
has the mask of the PCRs and the digest that the owner has to sign for these values. -/
theorem create_file {L : Lib} {h : Chip} (ag : Agrees L h) (tpm : Option (Nat → Bytes)) {w : Writable}
    {l : List Nat} {out : List Char} (pd : Bytes) (hn : l ≠ []) (ha : Asc l) (hl : ∀ i ∈ l, i < 24)
    (hw : w out = true) :
    policyCreate L tpm w l out (.bytes pd) =
      .done 0 (some (out, enc32 (maskOf l) ++ h.addRef (h.policyPcr h.zero l pd) [])) := by
  unfold policyCreate valuesDigest
  dsimp only
  rw [ag.make l pd hn ha hl]
  dsimp only
  rw [if_pos hw, ag.ref]

/-- If the library does not depend on the order, options in any order give the file of the ascending
selection. -/
theorem create_any_order {L : Lib} {h : Chip} (ag : Agrees L h) (od : OrderFree L)
    (tpm : Option (Nat → Bytes)) {w : Writable} {l : List Nat} {out : List Char} (pd : Bytes) (hn : l ≠ [])
    (hl : ∀ i ∈ l, i < 24) (hw : w out = true) :
    policyCreate L tpm w l out (.bytes pd) =
      .done 0 (some (out, enc32 (maskOf (canon l)) ++ h.addRef (h.policyPcr h.zero (canon l) pd) [])) := by
  have hm : maskOf l = maskOf (canon l) := by
    apply Nat.eq_of_testBit_eq
    intro i
    rw [mask_testBit, mask_testBit, Bool.eq_iff_iff, decide_eq_true_eq, decide_eq_true_eq]
    exact (mem_canon hl i).symm
  have hn' : canon l ≠ [] := by
    cases l with
    | nil => exact absurd rfl hn
    | cons a l =>
      intro e
      have := (mem_canon hl a).2 (List.mem_cons_self ..)
      rw [e] at this
      cases this
  unfold policyCreate valuesDigest
  dsimp only
  rw [od.make, ag.make _ pd hn' (asc_canon l) (fun i hi => hl i ((mem_canon hl i).1 hi))]
  dsimp only
  rw [if_pos hw, ag.ref, hm]

/-- **Reading the TPM gives the same file as `wolfBoot_build_policy`** for the mask of the selection. -/
theorem create_reads {L : Lib} {c : Tpm.Cfg} (ag : Agrees L c.chip) (s : S) {w : Writable} {l : List Nat}
    {out : List Char} (hn : l ≠ []) (ha : Asc l) (hl : ∀ i ∈ l, i < 24) (hc : l.length ≤ c.pcrCap)
    (hw : w out = true) (hq : Tpm.Quiet c.chip s) :
    ∃ pol s', buildPolicy c (maskOf l) [] s = .ok pol s' ∧
      policyCreate L (some s.pcr) w l out .unset = .done 0 (some (out, pol)) := by
  have hsel : pcrSel (maskOf l) c.pcrCap = l := by
    rw [pcrSel_eq, mask_selects hl (by rw [canon_asc ha hl]; exact hc), canon_asc ha hl]
  refine ⟨enc32 (maskOf l) ++ c.chip.addRef (c.chip.policyPcr c.chip.zero l (c.chip.pcrHash (l.map s.pcr))) [],
    { s with k := s.k + 1 + 1 + 1 }, ?_, ?_⟩
  · unfold buildPolicy
    rw [hsel, bind_eq, call_quiet hq]
    dsimp only
    rw [bind_eq, call_quiet (hq.step (by simp))]
    dsimp only
    rw [bind_eq, policyRefMake, call_quiet (hq.step (by simp; omega))]
    rfl
  · unfold policyCreate valuesDigest
    dsimp only [Option.map_some]
    rw [ag.make _ _ hn ha hl]
    dsimp only
    rw [if_pos hw, ag.ref, ag.digest l _ hn ha hl]

/-- **Finding: a failure to write the file is not reported.** -/
theorem create_unwritten {L : Lib} {h : Chip} (ag : Agrees L h) (tpm : Option (Nat → Bytes)) {w : Writable}
    {l : List Nat} {out : List Char} (pd : Bytes) (hn : l ≠ []) (ha : Asc l) (hl : ∀ i ∈ l, i < 24)
    (hw : w out = false) : policyCreate L tpm w l out (.bytes pd) = .done 0 none := by
  unfold policyCreate valuesDigest
  dsimp only
  rw [ag.make l pd hn ha hl]
  simp [hw]

/-! ## From the tool to the bootloader -/

/-- The policy field of the image: what `sign.c --policy` makes of the file. -/
theorem field_of_file {sg : Bytes → Option Bytes} {m d sig : Bytes} (hm : m.length = 4) (hd : d.length = 32)
    (hs : sg d = some sig) : SignSteps.policyOne sg (m ++ d) = some (m ++ sig) := by
  unfold SignSteps.policyOne
  have e1 : (m ++ d).take 4 = m := List.take_left' hm
  have e2 : ((m ++ d).drop 4).take 32 = d := by rw [List.drop_left' hm, List.take_of_length_le (by omega)]
  rw [e1, e2, if_neg (by omega), if_neg (by omega), hs]

/-- **A policy made by the tool and signed opens the secret whenever the PCRs have the values it was made
for.** `pd` is the digest of the expected values. -/
theorem policy_unseals {L : Lib} {c : Tpm.Cfg} (ag : Agrees L c.chip) {tpm : Option (Nat → Bytes)} {w : Writable}
    {l : List Nat} {out : List Char} {pd file sig hint pub priv auth : Bytes} {cap : Nat} {p : BitVec 16}
    {t : S} {k : PubKey} {o : Obj} {sg : Bytes → Option Bytes} (hn : l ≠ []) (ha : Asc l)
    (hl : ∀ i ∈ l, i < 24) (hc : l.length ≤ c.pcrCap) (hw : w out = true)
    (hf : policyCreate L tpm w l out (.bytes pd) = .done 0 (some (out, file))) (h32 : file.length = 36)
    (hs : sg (file.drop 4) = some sig) (hk : HintKey c hint k) (hv : c.chip.verify k sig (file.drop 4) = true)
    (hp : p.toNat = 4 + sig.length) (hq : Tpm.Quiet c.chip t) (hpd : c.chip.pcrHash (l.map t.pcr) = pd)
    (hau : auth.length ≤ c.authCap) (ho : c.chip.unwrap pub priv = some o) (hop : Opens c.chip k auth o)
    (hcap : o.secret.length ≤ cap) :
    ∃ fld t', SignSteps.policyOne sg file = some fld ∧
      unsealBlob c hint fld p pub priv auth cap t = .ok o.secret t' := by
  rw [create_file ag tpm pd hn ha hl hw] at hf
  have e : enc32 (maskOf l) ++ c.chip.addRef (c.chip.policyPcr c.chip.zero l pd) [] = file := by
    injection hf with _ hf
    injection hf with hf
    injection hf
  subst e
  rw [List.drop_left' (enc32_length _)] at hs hv
  have hd : (c.chip.addRef (c.chip.policyPcr c.chip.zero l pd) []).length = 32 := by
    rw [List.length_append, enc32_length] at h32; omega
  obtain ⟨t', ht⟩ := unseal_complete (mem := enc32 (maskOf l) ++ sig) (p := p) (cap := cap) hq (by omega)
    (by rw [List.length_append, enc32_length]; omega) hau hk (by
      rw [num32_enc32 (maskOf_lt hl), mask_selects hl (by rw [canon_asc ha hl]; exact hc), canon_asc ha hl,
        List.drop_left' (enc32_length _), List.take_of_length_le (by omega), toSign, hpd]
      exact hv) ho hop hcap
  exact ⟨_, t', field_of_file (enc32_length _) hd hs, ht⟩

/-- **It opens the secret for no other values**, unless the signature is valid for another digest, or two
different inputs have the same digest. -/
theorem policy_bound {L : Lib} {c : Tpm.Cfg} (ag : Agrees L c.chip) {tpm : Option (Nat → Bytes)} {w : Writable}
    {l : List Nat} {out : List Char} {pd file sig hint pub priv auth sec : Bytes} {cap : Nat} {p : BitVec 16}
    {t t' : S} (hn : l ≠ []) (ha : Asc l) (hl : ∀ i ∈ l, i < 24) (hc : l.length ≤ c.pcrCap)
    (hw : w out = true) (hf : policyCreate L tpm w l out (.bytes pd) = .done 0 (some (out, file)))
    (hp : p.toNat = 4 + sig.length) (hsz : sig.length < 65532)
    (hu : unsealBlob c hint (file.take 4 ++ sig) p pub priv auth cap t = .ok sec t') :
    c.chip.pcrHash (l.map t.pcr) = pd ∨
    (∃ k d, HintKey c hint k ∧ d ≠ file.drop 4 ∧ c.chip.verify k sig d = true) ∨
    (∃ x y, x ≠ y ∧ c.chip.policyPcr c.chip.zero l x = c.chip.policyPcr c.chip.zero l y) ∨
    (∃ x y, x ≠ y ∧ c.chip.addRef x [] = c.chip.addRef y []) := by
  rw [create_file ag tpm pd hn ha hl hw] at hf
  have e : enc32 (maskOf l) ++ c.chip.addRef (c.chip.policyPcr c.chip.zero l pd) [] = file := by
    injection hf with _ hf
    injection hf with hf
    injection hf
  subst e
  rw [List.take_left' (enc32_length _)] at hu
  obtain ⟨_, _, k, o, hk, hv, _⟩ := unseal_sound (by rw [List.length_append, enc32_length]; omega) hu
  rw [num32_enc32 (maskOf_lt hl), mask_selects hl (by rw [canon_asc ha hl]; exact hc), canon_asc ha hl,
    List.drop_left' (enc32_length _), List.take_of_length_le (by omega)] at hv
  rw [List.drop_left' (enc32_length _)]
  unfold toSign at hv
  by_cases h1 : c.chip.pcrHash (l.map t.pcr) = pd
  · exact .inl h1
  · refine .inr ?_
    by_cases h2 : c.chip.policyPcr c.chip.zero l (c.chip.pcrHash (l.map t.pcr)) = c.chip.policyPcr c.chip.zero l pd
    · exact .inr (.inl ⟨_, _, h1, h2⟩)
    · by_cases h3 : c.chip.addRef (c.chip.policyPcr c.chip.zero l (c.chip.pcrHash (l.map t.pcr))) [] =
        c.chip.addRef (c.chip.policyPcr c.chip.zero l pd) []
      · exact .inr (.inr ⟨_, _, h2, h3⟩)
      · exact .inl ⟨k, _, hk, h3, hv⟩

/-! ## The mask option -/

/-- **`-pcrmask=` with up to six PCRs**: exactly these are selected, ascending, and the mask of the file
names them. -/
theorem mask_option {m : Nat} (hm : ((List.range 24).filter m.testBit).length ≤ 6) (h0 : m ≠ 0) {o : Opts}
    (ho : o.pcrs = []) (hom : o.mask = m) :
    Asc (chosen o) ∧ ∀ i, (i ∈ chosen o ↔ Named m i) ∧ ((maskOf (chosen o)).testBit i = true ↔ Named m i) := by
  have e : chosen o = Covered m 6 := by
    unfold chosen
    rw [if_pos ho, hom, if_neg h0, pcrSel_eq]
    rfl
  rw [e]
  refine ⟨asc_covered m 6, fun i => ⟨covered_all hm i, ?_⟩⟩
  rw [mask_testBit, decide_eq_true_eq]
  exact covered_all hm i

/-- **Finding: of a mask of more PCRs only the first six are used**, without a message; the file names
another mask than was asked for, and its secret does not depend on the rest. -/
theorem mask_option_cut {m : Nat} (hm : 6 < ((List.range 24).filter m.testBit).length) {o : Opts}
    (ho : o.pcrs = []) (hom : o.mask = m) :
    (chosen o).length = 6 ∧ ∃ i, Named m i ∧ i ∉ chosen o ∧ (maskOf (chosen o)).testBit i = false := by
  have h0 : m ≠ 0 := by rintro rfl; revert hm; decide
  have e : chosen o = Covered m 6 := by
    unfold chosen
    rw [if_pos ho, hom, if_neg h0, pcrSel_eq]
    rfl
  rw [e]
  refine ⟨by rw [Covered, List.length_take]; omega, ?_⟩
  obtain ⟨i, h1, h2⟩ := covered_misses hm
  exact ⟨i, h1, h2, by rw [mask_testBit]; simp [h2]⟩

/-- Without `-pcr=` and mask, PCR 16 is used. -/
theorem default_pcr {o : Opts} (ho : o.pcrs = []) (hom : o.mask = 0) : chosen o = [16] := by
  unfold chosen; rw [if_pos ho, if_pos hom]

/-- With options `-pcr=` the mask is ignored. -/
theorem pcr_options {o : Opts} (ho : o.pcrs ≠ []) : chosen o = o.pcrs := by
  unfold chosen; rw [if_neg ho]

/-! ## `policy_sign` -/

/-- Value of a string of bytes, most significant first. -/
def value (b : Bytes) : Nat := b.foldl (fun n x => 256 * n + x.toNat) 0

theorem value_append (a b : Bytes) : value (a ++ b) = value a * 256 ^ b.length + value b := by
  suffices h : ∀ n, b.foldl (fun n x => 256 * n + x.toNat) n = n * 256 ^ b.length + value b by
    unfold value
    rw [List.foldl_append, h]
    rfl
  intro n
  unfold value
  induction b generalizing n with
  | nil => simp
  | cons x b ih =>
    rw [List.foldl_cons, List.foldl_cons, ih, ih (256 * 0 + x.toNat), List.length_cons, Nat.pow_succ]
    rw [Nat.add_mul, Nat.mul_zero, Nat.zero_add, Nat.mul_comm 256 n, Nat.mul_assoc, Nat.mul_comm 256]
    omega

theorem value_zeros (n : Nat) : value (List.replicate n 0#8) = 0 := by
  induction n with
  | zero => rfl
  | succ n ih =>
    rw [List.replicate_succ', value_append, ih]
    rfl

theorem minBytes_value (n : Nat) : value (minBytes n) = n := by
  induction n using Nat.strongRecOn with
  | ind n ih =>
    unfold minBytes
    split
    · next h => rw [h]; rfl
    · next h =>
      rw [value_append, ih (n / 256) (by omega)]
      simp [value]
      omega

theorem minBytes_length {n k : Nat} (h : n < 256 ^ k) : (minBytes n).length ≤ k := by
  induction k generalizing n with
  | zero =>
    have : n = 0 := by simpa using h
    subst this
    unfold minBytes
    simp
  | succ k ih =>
    unfold minBytes
    split
    · simp
    · rw [List.length_append]
      have := ih (n := n / 256) (by rw [Nat.pow_succ] at h; omega)
      simp
      omega

/-- **Each number of the signature has the full size and its value.** -/
theorem pad_spec {k n : Nat} (h : n < 256 ^ k) : (pad k n).length = k ∧ value (pad k n) = n := by
  have := minBytes_length h
  refine ⟨by unfold pad; rw [List.length_append, List.length_replicate]; omega, ?_⟩
  unfold pad
  rw [value_append, value_zeros, minBytes_value]
  omega

/-- The signature of the key in the file, as made by `policy_sign`. -/
def rawSign (L : Lib) (files : List Char → Option Bytes) (o : Opts) (d : Bytes) : Option Bytes :=
  match policySign L files o d with
  | .ok b => some b
  | _ => none

/-- **`policy_sign` gives the policy field that `policy_create` and `sign.c --policy` with the same
signature give**, for the same PCRs and the same digest of their values. -/
theorem sign_same (L : Lib) (files : List Char → Option Bytes) {w : Writable} (tpm : Option (Nat → Bytes))
    {o : Opts} {pd file sig : Bytes} {f : List Char} (hd : o.pcrDig = .bytes pd) (hp : o.polDig = .unset)
    (hf : policyCreate L tpm w (signed o) f (.bytes pd) = .done 0 (some (f, file))) (h32 : file.length = 36)
    (hs : rawSign L files o (file.drop 4) = some sig) (hw : w o.out = true) :
    SignSteps.policyOne (rawSign L files o) file = some (enc32 (maskOf (signed o)) ++ sig) ∧
    ∃ d, digestToSign L (signed o) o.pcrDig o.polDig = .ok d ∧
      finish L files w o d = .done 0 (some (o.out, enc32 (maskOf (signed o)) ++ sig)) := by
  unfold policyCreate valuesDigest at hf
  dsimp only at hf
  cases hm : L.pcrMake (signed o) pd with
  | none => rw [hm] at hf; injection hf with h1; cases h1
  | some x =>
    rw [hm] at hf
    dsimp only at hf
    split at hf
    · have e : enc32 (maskOf (signed o)) ++ L.refMake x = file := by
        injection hf with _ hf
        injection hf with hf
        injection hf
      subst e
      rw [List.drop_left' (enc32_length _)] at hs
      have hl : (L.refMake x).length = 32 := by
        rw [List.length_append, enc32_length] at h32; omega
      refine ⟨field_of_file (enc32_length _) hl hs, L.refMake x, ?_, ?_⟩
      · rw [hd, hp]
        unfold digestToSign
        dsimp only
        rw [hm]
      · unfold finish
        unfold rawSign at hs
        cases hps : policySign L files o (L.refMake x) with
        | ok b =>
          rw [hps] at hs
          dsimp only at hs ⊢
          rw [if_pos hw, Option.some.inj hs]
        | err => rw [hps] at hs; cases hs
        | ub => rw [hps] at hs; cases hs
    · injection hf with _ h2; cases h2

/-- The signature has the size of the curve and holds `r` and `s`. -/
theorem sign_format {L : Lib} {files : List Char → Option Bytes} {o : Opts} {d sig : Bytes} {n : Nat}
    (hn : n = if o.ecc384 then 48 else 32)
    (hL : ∀ b r s, L.ecdsa n b d = some (r, s) → r < 256 ^ n ∧ s < 256 ^ n)
    (h : policySign L files o d = .ok sig) :
    sig.length = 2 * n ∧ ∃ buf r s, files o.key = some buf ∧ L.ecdsa n buf d = some (r, s) ∧
      value (sig.take n) = r ∧ value (sig.drop n) = s := by
  unfold policySign at h
  rw [← hn] at h
  cases hf : files o.key with
  | none => rw [hf] at h; cases h
  | some buf =>
    rw [hf] at h
    dsimp only at h
    split at h
    · cases h
    · split at h
      · cases h
      · cases he : L.ecdsa n buf d with
        | none => rw [he] at h; cases h
        | some rs =>
          obtain ⟨r, s⟩ := rs
          rw [he] at h
          dsimp only at h
          obtain ⟨b1, b2⟩ := hL buf r s he
          obtain ⟨l1, v1⟩ := pad_spec b1
          obtain ⟨l2, v2⟩ := pad_spec b2
          have e : pad n r ++ pad n s = sig := by injection h
          subst e
          refine ⟨by rw [List.length_append]; omega, buf, r, s, rfl, he, ?_, ?_⟩
          · rw [List.take_left' l1, v1]
          · rw [List.drop_left' l1, v2]

/-- **Finding: a key file that is shorter than the key is read beyond its end**, e.g. a key for P-256 (96
bytes) with `-ecc384`. -/
theorem sign_short_key {L : Lib} {files : List Char → Option Bytes} {o : Opts} {d buf : Bytes}
    (hf : files o.key = some buf) (hb : buf ≠ []) (hl : buf.length < 3 * (if o.ecc384 then 48 else 32)) :
    policySign L files o d = .ub := by
  unfold policySign
  rw [hf]
  dsimp only
  rw [if_neg hb, if_pos hl]

/-- Without any digest nothing is signed. -/
theorem sign_needs_digest (L : Lib) (l : List Nat) : digestToSign L l .unset .unset = .end (.usage (-1)) := rfl

/-- `-policydigest=` is signed as it is, for whatever PCRs the mask of the file names: the digest does not
depend on the options `-pcr=`. -/
theorem sign_given (L : Lib) (l : List Nat) (pd d : Bytes) :
    digestToSign L l .unset (.bytes d) = .ok d ∧ digestToSign L l (.bytes pd) (.bytes d) = .ok d := ⟨rfl, rfl⟩

/-- Exactly the hexadecimal digits have a value. -/
theorem hexChar_sound {c : Char} {v : Nat} (h : hexChar c = some v) :
    v < 16 ∧ (c = "0123456789abcdef".toList.getD v 'x' ∨ c = "0123456789ABCDEF".toList.getD v 'x') := by
  have h128 : c.toNat < 128 := by
    unfold hexChar at h
    split at h
    · omega
    split at h
    · omega
    split at h
    · omega
    · simp at h
  have hall : ∀ n : Fin 128, ∀ v ∈ hexChar (Char.ofNat n.val), v < 16 ∧
      (Char.ofNat n.val = "0123456789abcdef".toList.getD v 'x' ∨ Char.ofNat n.val = "0123456789ABCDEF".toList.getD v 'x') := by
    decide +kernel
  have := hall ⟨c.toNat, h128⟩ v
  rw [show Char.ofNat (⟨c.toNat, h128⟩ : Fin 128).val = c from Char.ofNat_toNat c] at this
  exact this h

/-- An empty digest is refused with the usage message. -/
theorem digest_empty : digest [] = none := rfl

/-- **C76: `policy_sign` with a policy digest signs this digest; without `-pcr=` the file names PCR 16. If the file cannot be written the tool
fails.** -/
theorem sign_policy_digest (L : Lib) (files : List Char → Option Bytes) (w : Writable) {d : Bytes} (h0 : d ≠ []) (hl : d.length ≤ 64) :
    sign L files w ["-policydigest=".toList ++ hex d] =
      match policySign L files { out := "policy.bin.sig".toList, polDig := .bytes d } d with
      | .ub => .ub
      | .err => .done (-1) none
      | .ok sig => if w "policy.bin.sig".toList then .done 0 (some ("policy.bin.sig".toList, enc32 0x10000 ++ sig)) else .done (-1) none := by
  have hs : signStep { out := "policy.bin.sig".toList } ("-policydigest=".toList ++ hex d) =
      .go { out := "policy.bin.sig".toList, polDig := .bytes d } := by
    have hp : after "-policydigest=".toList ("-policydigest=".toList ++ hex d) = some (hex d) := after_some.2 rfl
    have h1 : after "-pcr=".toList ("-policydigest=".toList ++ hex d) = none := rfl
    have h2 : after "-pcrdigest=".toList ("-policydigest=".toList ++ hex d) = none := rfl
    unfold signStep
    rw [if_neg (fun e => by have := congrArg (fun l => l.getD 1 'x') e; exact absurd this (by show ¬ 'p' = 'e'; decide)),
      if_neg (fun e => by have := congrArg (fun l => l.getD 1 'x') e; exact absurd this (by show ¬ 'p' = 'e'; decide)), h1, h2, hp]
    show optPolDig _ (hex d) = _
    unfold optPolDig
    rw [digest_hex h0 hl]
  have hw : wantsHelp ["-policydigest=".toList ++ hex d] = false := by
    unfold wantsHelp
    rw [Bool.or_eq_false_iff, Bool.or_eq_false_iff, decide_eq_false_iff_not, decide_eq_false_iff_not, decide_eq_false_iff_not]
    exact ⟨⟨fun e => by have := congrArg (fun l => l.getD 1 'x') e; exact absurd this (by show ¬ 'p' = '?'; decide),
      fun e => by have := congrArg (fun l => l.getD 1 'x') e; exact absurd this (by show ¬ 'p' = 'h'; decide)⟩,
      fun e => by have := congrArg (fun l => l.getD 1 'x') e; exact absurd this (by show ¬ 'p' = '-'; decide)⟩
  unfold sign
  rw [hw, if_neg (by simp)]
  show (match parse signStep { out := "policy.bin.sig".toList } ["-policydigest=".toList ++ hex d] with | .stop e => _ | .go o => _) = _
  have hp : parse signStep { out := "policy.bin.sig".toList } ["-policydigest=".toList ++ hex d] =
      .go { out := "policy.bin.sig".toList, polDig := .bytes d } := by
    unfold parse
    rw [hs]
    rfl
  rw [hp]
  dsimp only
  have hsg : signed { out := "policy.bin.sig".toList, polDig := .bytes d } = [16] := rfl
  have hm : maskOf [16] = 0x10000 := by decide
  have hd : digestToSign L (signed { out := "policy.bin.sig".toList, polDig := .bytes d }) .unset (.bytes d) = .ok d := by
    rw [hsg]
    rfl
  rw [hd]
  unfold finish
  dsimp only
  rw [hsg, hm]
  rfl

end Verif.TpmTools
