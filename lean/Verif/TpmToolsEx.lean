import Verif.TpmPolicyThms
import Verif.TpmRotThms

/-!
# The tools for the TPM: examples (C76)
-/

namespace Verif.TpmTools.Ex

open Verif Verif.Tpm Verif.Measure

/-- A library that sorts the PCRs, for the toy chip of `Verif.Tpm.Demo`. -/
def L : Lib where
  getDigest l v := Tpm.Demo.chip.pcrHash ((canon l).map v)
  pcrMake l pd := if canon l = [] then none else some (Tpm.Demo.chip.policyPcr Tpm.Demo.chip.zero (canon l) pd)
  refMake d := Tpm.Demo.chip.addRef d []
  ecdsa n b d := if b.length = 3 * n then some (d.length, 256 * d.length + 7) else none

theorem agrees : Agrees L Tpm.Demo.cfg.chip where
  digest l v _ ha hl := by
    show Tpm.Demo.chip.pcrHash ((canon l).map v) = _
    rw [canon_asc ha hl]; rfl
  make l pd hn ha hl := by
    show (if canon l = [] then none else some _) = _
    rw [canon_asc ha hl, if_neg hn]; rfl
  ref _ := rfl

theorem canon_idem (l : List Nat) : canon (canon l) = canon l :=
  canon_asc (asc_canon l) fun i hi => by
    have := List.mem_filter.1 hi
    simpa using this.1

theorem orderFree : OrderFree L where
  digest l v := by
    show Tpm.Demo.chip.pcrHash ((canon l).map v) = Tpm.Demo.chip.pcrHash ((canon (canon l)).map v)
    rw [canon_idem]
  make l pd := by
    show (if canon l = [] then none else some _) = (if canon (canon l) = [] then none else some _)
    rw [canon_idem]

/-- All files can be written. -/
def yes : Writable := fun _ => true

/-- The argument for an option. -/
def arg (o t : String) : List Char := o.toList ++ t.toList

/-- `create_options`: the array has the PCRs in reverse order, the first digest counts. -/
example : parse createStep start0 [arg "-pcr=" "1", arg "-pcrdigest=" "0aFF", arg "-pcr=" "4", arg "-pcrdigest=" "00"].reverse =
    .go { pcrs := [4, 1], pcrDig := .bytes [0x0A, 0xFF], out := "policy.bin".toList } := by decide +kernel

/-- `-pcr=256` is PCR 0, and so is any other text that is no number. -/
example : atoiByte "256".toList = 0 ∧ atoiByte "x".toList = 0 ∧ atoiByte " 16".toList = 16 ∧ atoiByte "-240".toList = 16 := by
  decide +kernel

/-- `create_overflow` -/
example : create L none yes (List.replicate 7 (arg "-pcr=" "3")) = .ub :=
  create_overflow L none yes (by decide +kernel) (by decide +kernel) (by decide +kernel) (by decide +kernel)

/-- `create_accepts` -/
example : ∃ o, parse createStep start0 (List.replicate 6 (arg "-pcr=" "3")).reverse = .go o :=
  create_accepts (by decide +kernel) (by decide +kernel) (by decide +kernel)

/-- `create_file`, for a command line: mask 0x12 -/
example : create L none yes [arg "-pcrmask=" "0x12", arg "-pcrdigest=" "0102", arg "-out=" "p"] =
    .done 0 (some ("p".toList, [0x12, 0, 0, 0] ++ [0xAA, 0, 1, 4, 1, 2])) := by decide +kernel

/-- `create_any_order` -/
example : policyCreate L none yes [4, 1] [] (.bytes [1, 2]) = policyCreate L none yes [1, 4] [] (.bytes [1, 2]) := by
  rw [create_any_order agrees orderFree none [1, 2] (by decide) (by decide) rfl,
    create_any_order agrees orderFree none [1, 2] (by decide) (by decide) rfl]
  rfl

/-- `create_reads`: PCR 1 and 4 of the demo -/
example : ∃ pol s', buildPolicy Tpm.Demo.cfg (maskOf [1, 4]) [] Tpm.Demo.s0 = .ok pol s' ∧
    policyCreate L (some Tpm.Demo.s0.pcr) yes [1, 4] [] .unset = .done 0 (some ([], pol)) :=
  create_reads agrees Tpm.Demo.s0 (by decide) (by decide) (by decide) (by decide) rfl (Tpm.Demo.quiet _)

example : maskOf [1, 4] = 0x12 := by decide

/-- `create_unwritten` -/
example : policyCreate L none (fun _ => false) [1, 4] [] (.bytes [1, 2]) = .done 0 none :=
  create_unwritten agrees none _ (by decide) (by decide) (by decide) rfl

/-- `create_malformed`: a digit is missing -/
example : create L none yes [arg "-pcrmask=" "0x12", arg "-pcrdigest=" "010"] = .ub := by decide +kernel

/-- `digest_hex` -/
example : digest (hex [0x0A, 0xFF]) = some (.bytes [0x0A, 0xFF]) := digest_hex (by decide) (by decide)
example : hex [0x0A, 0xFF] = "0aff".toList := by decide +kernel

/-- Values of PCR 1 and 4 whose policy digest has 32 bytes. -/
def s1 : S := { Tpm.Demo.s0 with pcr := fun i => if i = 1 then [1, 2, 3, 4, 5, 6] else if i = 4 then [1, 2, 3, 4, 5, 6, 7] else [0] }

/-- The digest of these values. -/
def pd : Bytes := Tpm.Demo.chip.pcrHash [[1, 2, 3, 4, 5, 6], [1, 2, 3, 4, 5, 6, 7]]

/-- The policy file. -/
def file : Bytes := [0x12, 0, 0, 0] ++ [0xAA, 0, 1, 4] ++ pd

theorem file_made : policyCreate L none yes [1, 4] [] (.bytes pd) = .done 0 (some ([], file)) := by decide +kernel

/-- `policy_unseals` -/
example : ∃ fld t', SignSteps.policyOne (fun d => some ([1, 2] ++ d)) file = some fld ∧
    unsealBlob Tpm.Demo.cfg [1, 2, 3, 4] fld 38 [3, 1, 2, 3, 4] [0, 0, 8, 8, 8] [] 32 s1 = .ok [8, 8, 8] t' :=
  policy_unseals agrees (sig := [1, 2] ++ file.drop 4) (o := ⟨[8, 8, 8], [3, 1, 2, 3, 4], false, []⟩)
    (by decide) (by decide) (by decide) (by decide) rfl file_made (by decide +kernel) rfl Tpm.Demo.hintKey
    (by decide +kernel) (by decide +kernel) (Tpm.Demo.quiet _) (by decide +kernel) (by decide) (by decide +kernel)
    (.inl ⟨rfl, by decide⟩) (by decide)

/-- `policy_bound`: the hypothesis holds for these values. -/
example : Tpm.Demo.val (unsealBlob Tpm.Demo.cfg [1, 2, 3, 4] (file.take 4 ++ ([1, 2] ++ file.drop 4)) 38 [3, 1, 2, 3, 4] [0, 0, 8, 8, 8]
    [] 32 s1) = some [8, 8, 8] := by decide +kernel

/-- `mask_option` -/
example : ∀ i, i ∈ chosen { mask := 0x12, out := [] } ↔ Named 0x12 i := fun i =>
  ((mask_option (by decide +kernel) (by decide) rfl rfl).2 i).1

/-- `mask_option_cut`: eight PCRs are asked for, the file names six. -/
example : create L none yes [arg "-pcrmask=" "0xFF", arg "-pcrdigest=" "0102", arg "-out=" "p"] =
    .done 0 (some ("p".toList, [0x3F, 0, 0, 0] ++ [0xAA, 0, 0, 1, 2, 3, 4, 5, 1, 2])) := by decide +kernel

/-- The key file. -/
def files : List Char → Option Bytes := fun n => if n = "k".toList then some (List.replicate 96 1) else none

/-- `sign_same`, `sign_format`, for a command line -/
example : sign L files yes [arg "-pcr=" "4", arg "-pcr=" "1", arg "-key=" "k", arg "-outpolicy=" "o", arg "-pcrdigest=" "0102"] =
    .done 0 (some ("o".toList, [0x12, 0, 0, 0] ++ (List.replicate 31 0#8 ++ [6]) ++ (List.replicate 30 0#8 ++ [6, 7]))) := by
  decide +kernel

example : rawSign L files { pcrs := [1, 4], key := "k".toList, pcrDig := .bytes pd, out := [] } (file.drop 4) =
    some ((List.replicate 31 0#8 ++ [32]) ++ (List.replicate 30 0#8 ++ [32, 7])) ∧ file.length = 36 := by decide +kernel

/-- `sign_short_key` -/
example : sign L files yes [arg "-ecc384" "", arg "-pcr=" "1", arg "-key=" "k", arg "-pcrdigest=" "0102"] = .ub := by
  decide +kernel

/-! ## Root of trust -/

/-- A bootloader with a digest of two bytes; the index base is 100. -/
def B : Build where
  chip := Tpm.Demo.chip
  h := ⟨Bytes, [], fun x y => x ++ y, id⟩
  blk := 4
  dlen := 2
  pcr := 0
  pcrSz := 2
  keystore := true
  sealing := false
  measured := false
  parts := true
  debug := false
  sim := false
  chgPlat := true
  rotBase := 100
  short := true

/-- A toy hash of two bytes. -/
def hash (b : Bytes) : Bytes := [BitVec.ofNat 8 b.length, b.getD 0 0]

/-- The exit code, the indices 100 to 102 and their locks. -/
def view : Rot → Option (Int × List (Option Bytes) × List Bool)
  | .done rc lk s => some (rc, [s.nv 100, s.nv 101, s.nv 102], [lk 100, lk 101, lk 102])
  | .ub => none

/-- `rot_ok`: two keys -/
example : view (rot B.chip 100 hash true true [[7, 8], [9]] (fun _ => false) Tpm.Demo.s0) =
    some (0, [some [2, 7], some [1, 9], none], [true, true, false]) := by decide +kernel

/-- `rot_then_boot`, `rot_no_other`, `rot_short_hash`, `rot_long_hash`, `rot_locked`: a run with exit code 0
exists. -/
example : ∃ lk s, rot B.chip B.rotBase hash true true [[7, 8], [9]] (fun _ => false) Tpm.Demo.s0 = .done 0 lk s :=
  ⟨_, _, rfl⟩

example : ∀ x, (hash x).length = B.dlen := fun _ => rfl

/-- The second run after locking fails. -/
example : view (rot B.chip 100 hash true true [[7, 8], [9]] (fun j => j == 100)
    { Tpm.Demo.s0 with nv := fun j => if j = 100 then some [2, 7] else none }) =
    some (rcNvLocked, [some [2, 7], none, none], [true, false, false]) := by decide +kernel

/-- `rot_overflow` -/
example : view (rot B.chip 100 hash false false [[7, 8]] (fun _ => false)
    { Tpm.Demo.s0 with nv := fun _ => some (List.replicate 65 0) }) = none := by decide +kernel

/-- `sign_policy_digest` -/
example (files : List Char → Option Bytes) : sign L files (fun _ => true) ["-policydigest=".toList ++ hex [0xAB#8, 1#8]] =
    match policySign L files { out := "policy.bin.sig".toList, polDig := .bytes [0xAB#8, 1#8] } [0xAB#8, 1#8] with
    | .ub => .ub
    | .err => .done (-1) none
    | .ok sig => .done 0 (some ("policy.bin.sig".toList, enc32 0x10000 ++ sig)) := by
  rw [sign_policy_digest L files (fun _ => true) (by simp) (by decide)]
  rfl

/-- `hexChar_sound` -/
example : hexChar 'e' = some 14 ∧ hexChar ':' = none ∧ hexChar 'g' = none := by decide

end Verif.TpmTools.Ex
