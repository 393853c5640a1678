import Verif.KeyToolOtp

/-!
# Examples for the key tools (C72)
-/

namespace Verif

namespace KeyTool

namespace Demo

open ImgDemo

/-- `keygen --ed25519 --id 1 -i b.der -g a.der`. -/
def cmd : List Opt := [.alg "--ed25519".toList 1, .ids [1], .imp "b.der".toList, .gen "a.der".toList]

/-- The key in `b.der`. -/
def imp (_ : Nat) (f : Str) : Option (List Byte) := if f = "b.der".toList then some [0x11#8] else none

/-- The key that is made. -/
def gen (_ : Nat) (_ : Str) : List Byte := [0x22#8]

/-- The table. -/
def table : List Entry := [⟨0, 1, 2#32, 1, [0x11#8]⟩, ⟨1, 1, 2#32, 1, [0x22#8]⟩]

theorem cmd_valid : Valid cmd := by
  refine ⟨?_, by decide +kernel, by decide +kernel⟩
  intro x hx
  simp only [cmd, List.mem_cons, List.not_mem_nil, or_false] at hx
  rcases hx with rfl | rfl | rfl | rfl
  · simp [Opt.OK, algs]
  · simp [Opt.OK]
  · trivial
  · trivial

theorem cmd_table : keygen imp gen (cmd.flatMap Opt.text) = some table := by decide +kernel

/-- The arguments as given by the shell. -/
example : cmd.flatMap Opt.text = ["--ed25519", "--id", "1", "-i", "b.der", "-g", "a.der"].map String.toList := by decide +kernel

example : (asked 0 none cmd).map (fun a => (a.old, a.alg, a.ids)) = [(true, 1, some [1]), (false, 1, some [1])] := by decide +kernel

example : ∃ ks, keygen imp gen (cmd.flatMap Opt.text) = some ks :=
  keygen_writes cmd_valid (by decide) (by
    intro a ha ho
    simp only [cmd, asked, List.mem_cons, List.not_mem_nil, or_false] at ha
    rcases ha with rfl | rfl
    · exact ⟨_, rfl⟩
    · exact absurd ho (by simp))

theorem distinct : DistinctKeys cfgH := by
  refine ⟨by decide, ?_⟩
  intro s hs s' hs' h
  have : s = k1 ∨ s = k2 := by simpa [cfgH] using hs
  have h' : s' = k1 ∨ s' = k2 := by simpa [cfgH] using hs'
  rcases this with rfl | rfl <;> rcases h' with rfl | rfl
  · rfl
  · exact absurd h (by decide)
  · exact absurd h (by decide)
  · rfl

/-- The correctly signed image is accepted with this table, and one of the keys asked for has signed it. -/
example : ∃ off, DigestOK cfgH good 7 off ∧ AuthenticAsked cfgH (material imp gen) (asked 0 none cmd) good (cfgH.hash (signedMsg cfgH.H good off 7)) :=
  key_tool_sound cmd_valid (by decide) cmd_table cfgH (by rfl) good 7 [] (by decide) (by decide) (by decide +kernel)

/-- An image for partition 2, signed by the same keys, is not. -/
example : ¬ ∃ off, DigestOK cfgH (image 2#8 (k1.pub ++ toyHash (pre 2#8 ++ fwB)) (k2.pub ++ toyHash (pre 2#8 ++ fwB))) 7 off ∧
    AuthenticAsked cfgH (material imp gen) (asked 0 none cmd) (image 2#8 (k1.pub ++ toyHash (pre 2#8 ++ fwB)) (k2.pub ++ toyHash (pre 2#8 ++ fwB)))
      (cfgH.hash (signedMsg cfgH.H (image 2#8 (k1.pub ++ toyHash (pre 2#8 ++ fwB)) (k2.pub ++ toyHash (pre 2#8 ++ fwB))) off 7)) := by
  rw [← key_tool_iff cmd_valid (by decide) cmd_table (by
    intro a ha
    simp only [cmd, asked, List.mem_cons, List.not_mem_nil, or_false] at ha
    rcases ha with rfl | rfl <;> simp) cfgH (by rfl) distinct _ 7 [] (by decide) (by decide)]
  decide +kernel

/-- With `--nolocalkeys`. -/
example : ∀ e ∈ [(⟨0, 1, 2#32, 1, [0#8]⟩ : Entry), ⟨1, 1, 2#32, 1, [0#8]⟩], ∀ x ∈ e.key, x = 0#8 :=
  no_local_keys (l := .noLocal :: cmd) (imp := imp) (gen := gen) ⟨by
    intro x hx
    rw [List.mem_cons] at hx
    rcases hx with rfl | hx
    · trivial
    · exact cmd_valid.ok x hx, by decide +kernel, by decide +kernel⟩ rfl (by decide +kernel)

/-- Without an algorithm before `-g` the entry is empty and allows nothing; without one at all there is no table. -/
example : keygen imp gen (["-g", "a.der", "--ecc256"].map String.toList) = some [⟨0, 0, 0#32, 0, []⟩] ∧
    keygen imp gen (["-g", "a.der"].map String.toList) = none := by decide +kernel

/-- Ids. -/
example : parseId "1,15,3".toList = 0x800A#32 ∧ parseId "32".toList = 0#32 ∧ parseId "0,".toList = 1#32 ∧ parseId " +7".toList = 0x80#32 ∧
    parseId "-1".toList = 0#32 := by decide +kernel

example : ∀ p, p < 32 → ((parseId (listText [1, 15, 3])).getLsbD p = true ↔ p ∈ [1, 15, 3]) :=
  ((parse_id_list [1, 15, 3] (by simp) (by decide)).1 (by decide)).2

example : parseId (listText [1, 32]) = 0#32 := (parse_id_list [1, 32] (by simp) (by decide)).2 ⟨32, by simp, by decide⟩

example : parseId "boot".toList = 1#32 := id_name_means_bootloader 'b' ['o', 'o', 't'] (by decide) (by decide) (by decide) (by decide) (by decide)

example : parseId "4294967297".toList = 2#32 := by
  have := id_wraps 1 (by decide)
  rw [show dec (4294967296 + 1) = "4294967297".toList by decide +kernel] at this
  exact this

/-- An `--id` after `-keystoreDir` is not seen: the key may sign for every partition (the number that follows is then an unknown option). -/
example : main (["--ed25519", "-keystoreDir", "d", "--force", "-g", "a"].map String.toList) =
    .opts { type := 1, generated := [⟨"a".toList, 1, 0xFFFFFFFF#32⟩], dir := some "d".toList } ∧
    main (["--ed25519", "-keystoreDir", "d", "--nolocalkeys", "-g", "a"].map String.toList) =
    .opts { type := 1, generated := [⟨"a".toList, 1, 0xFFFFFFFF#32⟩], dir := some "d".toList } := by decide +kernel

example : args {} ["-keystoreDir".toList, "d".toList, "--nolocalkeys".toList, "-g".toList, "a".toList] =
    args {} ["-keystoreDir".toList, "d".toList, "--force".toList, "-g".toList, "a".toList] := dir_skips_option _ _ _ _ _

example : get table 1 = .val ⟨1, 1, 2#32, 1, [0x22#8]⟩ ∧ get table 2 = .err ∧ getType table 2 = .oob ∧ get table (-1) = .oob :=
  ⟨((get_spec table 1).1 (by decide)).1, (get_spec table 2).2 (by decide), (get_outside table).2 2 (by decide), ((get_outside table).1 (-1) (by decide)).1⟩

/-! ### Import -/

/-- A raw ECC256 key; one in DER; an RSA key that is cut off. -/
example : keyImport 0 (fun _ _ => none) (fun _ _ => none) 2 (List.replicate 64 7#8) = some (List.replicate 64 7#8) :=
  (import_spec 0 _ _ 2 _ (by decide) (by decide)).1 (by decide)

example : keyImport 0 (fun _ _ => some (List.replicate 32 1#8, List.replicate 32 2#8)) (fun _ _ => none) 2 (List.replicate 91 7#8) =
    some (List.replicate 32 1#8 ++ List.replicate 32 2#8) :=
  (import_spec 0 _ _ 2 _ (by decide) (by decide)).2.1 _ _ (by decide) (Or.inl rfl) rfl (by decide) (by decide)

example : keyImport 0 (fun _ _ => none) (fun _ _ => some (List.replicate 32 1#8)) 1 (List.replicate 44 7#8) = some (List.replicate 32 1#8) :=
  (import_spec 0 _ _ 1 _ (by decide) (by decide)).2.2.1 _ (by decide) (Or.inl rfl) rfl (by decide)

example : keyImport 0 (fun _ _ => none) (fun _ _ => none) 3 (List.replicate 330 7#8) = some ((List.replicate 330 7#8).take 320) :=
  (import_spec 0 _ _ 3 _ (by decide +kernel) (by decide +kernel)).2.2.2 (by decide +kernel) (Or.inl rfl) (by decide +kernel)

example : keyImport 0 (fun _ _ => some (List.replicate 66 1#8, List.replicate 66 2#8)) (fun _ _ => none) 7 (List.replicate 158 7#8) = some [] := by
  decide +kernel

example (b : List Byte) (h : keyImport 0 (fun _ _ => some (List.replicate 66 1#8, List.replicate 66 2#8)) (fun _ _ => none) 7 (List.replicate 158 7#8) =
    some b) : b = [] := import_ecc521_empty _ _ _ _ _ h

example : keyImport 0 (fun _ _ => none) (fun _ _ => none) 2 (derKey (derEntry false 0 (List.replicate 64 9#8) 0 2 2#32 (List.replicate 64 7#8))) =
    some (List.replicate 64 7#8) :=
  (reimport_iff 0 _ _ (List.replicate 64 9#8) 0 2 2#32 (List.replicate 64 7#8) (by decide) (by decide) (by decide) (by decide)).mpr (by decide)

example : keyImport 0 (fun _ _ => none) (fun _ _ => none) 3 (derKey (derEntry false 0 (List.replicate 320 9#8) 0 3 2#32 (List.replicate 294 7#8))) ≠
    some (List.replicate 294 7#8) := fun h =>
  absurd ((reimport_iff 0 _ _ (List.replicate 320 9#8) 0 3 2#32 (List.replicate 294 7#8) (by decide +kernel) (by decide +kernel) (by decide +kernel) (by decide +kernel)).mp h) (by decide +kernel)

example : le32 (ofList (derEntry false 0 [] 0 2 2#32 (List.replicate 64 7#8))) 4 = authKey 2 ∧
    le32 (ofList (derEntry false 1312 [] 0 11 2#32 (List.replicate 1312 7#8))) 4 ≠ authKey 11 :=
  ⟨(der_type_iff false 0 [] 0 2 2#32 _ (by decide)).mpr (by decide), fun h => absurd ((der_type_iff false 1312 [] 0 11 2#32 _ (by decide)).mp h) (by decide)⟩

/-! ### OTP -/

/-- Two ECC256 keys on the STM32H7. -/
def keys2 : List Entry := [⟨0, 2, 2#32, 64, List.replicate 64 7#8⟩, ⟨1, 2, 4#32, 64, List.replicate 64 9#8⟩]

/-- `FLASH_OTP_BASE`, `OTP_SIZE`. -/
def cfg : OtpCfg := ⟨0x08FFF000, 1024, 64⟩

theorem cfg_wf : cfg.WF := ⟨by decide, by decide, by decide, by decide⟩

theorem keys2_len : ∀ e ∈ keys2, e.key.length = cfg.P ∧ e.size = cfg.P := by decide

example : ∃ m, primer (write7 cfg) cfg 1 keys2 (fun _ => 0xFF#8) = .ok m ∧ Holding cfg 1 keys2 m :=
  primer_ok (programs7 cfg (by decide)) (by decide) 1 keys2 (by decide) (fun e he => Nat.le_of_eq (keys2_len e he).1) (by decide)

example : ∃ m, primer (write5 cfg) cfg 1 keys2 (fun _ => 0xFF#8) = .ok m ∧ Holding cfg 1 keys2 m :=
  primer_ok (programs5 cfg (by decide)) (by decide) 1 keys2 (by decide) (fun e he => Nat.le_of_eq (keys2_len e he).1) (by decide)

/-- The bootloader reads the mask of the second key from the area, after either tool. -/
example : ∃ f, otpFile 1 keys2 = some f ∧ otpNum cfg (ofList f) (fun _ => 0) = .ok 2 ∧ otpField cfg 8 (ofList f) (fun _ => 0) (fun _ => 0) 1 = .ok 4 := by
  obtain ⟨f, hf, hh⟩ := file_ok (c := cfg) (v := 1) (ks := keys2) (by decide) keys2_len (by decide)
  have := otp_same_keys cfg_wf (by decide) (fun e he => Nat.le_of_eq (keys2_len e he).1) (by decide) (by decide) (by decide) hh (fun _ => 0) (fun _ => 0)
  exact ⟨f, hf, this.1, (this.2 1 (by decide)).1⟩

/-- Thirteen ECC256 keys do not fit in 1024 bytes. -/
def keys13 : List Entry := List.replicate 13 ⟨0, 2, 2#32, 64, List.replicate 64 7#8⟩

example (m : Mem) (h : primer (write7 cfg) cfg 1 keys13 (fun _ => 0xFF#8) = .ok m) : otpNum cfg m (fun _ => 0) = .ok 0 :=
  primer_too_many (programs7 cfg (by decide)) (upward7 cfg) cfg_wf (by decide) (by decide) h _

/-- The primer does get to its end. -/
example : (match primer (write7 cfg) cfg 1 keys13 (fun _ => 0xFF#8) with | .ok _ => true | _ => false) = true := by decide +kernel

example : otpNum cfg (ofList (hdrBytes 1 13)) (fun _ => 0) = .ok 0 :=
  too_many_keys cfg_wf (v := 1) (n := 13) (by decide) (by decide) (fun _ _ => rfl) _

/-- Ed448 on the STM32H5. -/
example : write5 ⟨0x08FFF000, 2048, 57⟩ (fun _ => 0xFF#8) (0x08FFF000 + 16 + 1 * 73) (structBytes 57 ⟨1, 5, 2#32, 57, List.replicate 57 1#8⟩)
    (structBytes 57 ⟨1, 5, 2#32, 57, List.replicate 57 1#8⟩).length = .fail :=
  odd_slot_refused (c := ⟨0x08FFF000, 2048, 57⟩) (by decide) (by decide) (by decide) _ _

/-- Two RSA2048 keys of 294 bytes: the mask that the bootloader finds for the second consists of bytes of the key. -/
def rsa2 : List Entry := [⟨0, 3, 2#32, 294, List.replicate 294 7#8⟩, ⟨1, 3, 4#32, 294, List.replicate 294 0xFE#8⟩]

example : ∃ f, otpFile 1 rsa2 = some f ∧ le32 (otpByte ⟨0x08FFF000, 1024, 320⟩ (ofList f) 1) 8 = 0xFEFEFEFE := by
  refine ⟨_, rfl, ?_⟩
  decide +kernel

example (f : List Byte) (hf : otpFile 1 rsa2 = some f) : otpByte ⟨0x08FFF000, 1024, 320⟩ (ofList f) 1 8 = ofList (slotBytes 576 ⟨1, 3, 4#32, 294, List.replicate 294 0xFE#8⟩) 34 :=
  file_shifted (c := ⟨0x08FFF000, 1024, 320⟩) (by decide +kernel) (by decide +kernel) (by decide +kernel) (by decide +kernel) hf 8 (by decide +kernel)

end Demo

end KeyTool

end Verif
