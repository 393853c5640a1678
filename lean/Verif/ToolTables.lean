import Verif.KeyToolOtp
import Verif.SignPy

/-!
# The tables of the tools against those of the bootloader (C72, C73)

Numbers of algorithms, sizes of keys, sizes of headers, and the limits of the OTP drivers.
-/

namespace Verif.ToolTables

open Verif Verif.KeyTool Verif.SignSteps Verif.SignPy

/-! ### Specification -/

/-- `AUTH_KEY_*`, `/repo/include/wolfboot/wolfboot.h:86-97`, by the name of the option of the key tool. -/
def bootAuth : List (Str × Nat) :=
  [("--ed25519".toList, 0x01), ("--ecc256".toList, 0x02), ("--rsa2048".toList, 0x03), ("--rsa4096".toList, 0x04), ("--ed448".toList, 0x05),
   ("--ecc384".toList, 0x06), ("--ecc521".toList, 0x07), ("--rsa3072".toList, 0x08), ("--lms".toList, 0x09), ("--xmss".toList, 0x10), ("--ml_dsa".toList, 0x11)]

/-- `KEYSTORE_PUBKEY_SIZE_*`, `/repo/include/wolfboot/wolfboot.h:127-154`, by the name of the option; `ml` is the size for ML-DSA. -/
def bootSize (ml : Nat) : List (Str × Nat) :=
  [("--ed25519".toList, 32), ("--ecc256".toList, 64), ("--rsa2048".toList, 320), ("--rsa4096".toList, 576), ("--ed448".toList, 57),
   ("--ecc384".toList, 96), ("--ecc521".toList, 132), ("--rsa3072".toList, 448), ("--lms".toList, 60), ("--xmss".toList, 68), ("--ml_dsa".toList, ml)]

/-- The name of the option of the key tool for an algorithm of the signing tools. -/
def optName : Alg → Str
  | .ed25519 => "--ed25519".toList
  | .ed448 => "--ed448".toList
  | .ecc256 => "--ecc256".toList
  | .ecc384 => "--ecc384".toList
  | .ecc521 => "--ecc521".toList
  | .rsa2048 => "--rsa2048".toList
  | .rsa3072 => "--rsa3072".toList
  | .rsa4096 => "--rsa4096".toList

/-! ### Types and sizes of keys -/

/-- **Types of keys**: the key tool knows exactly the algorithms of the bootloader, and stores the number that the bootloader expects. -/
theorem key_types : (∀ p ∈ bootAuth, (algs.lookup p.1).map authKey = some p.2) ∧ ∀ p ∈ algs, bootAuth.lookup p.1 = some (authKey p.2) := by
  decide +kernel

/-- **Sizes of keys**: the nominal sizes of the key tool are those of the bootloader, exactly for all algorithms but ECC 521, for which the tool
has none. -/
theorem key_sizes (ml : Nat) : ∀ p ∈ algs, (bootSize ml).lookup p.1 = some (pubkeySize ml p.2) ↔ p.1 ≠ "--ecc521".toList := by
  intro p hp
  unfold algs at hp
  simp only [List.mem_cons, List.not_mem_nil, or_false] at hp
  rcases hp with rfl | rfl | rfl | rfl | rfl | rfl | rfl | rfl | rfl | rfl | rfl <;>
    first
      | exact ⟨fun _ => by decide +kernel, fun _ => rfl⟩
      | exact ⟨fun h => absurd (show some 132 = some 0 from h) (by decide), fun h => absurd rfl h⟩

/-- **Images and keys**: the type in an image made by the signing tools is the type of the keys made for the algorithm by the key tool. -/
theorem image_and_key_types (a : Alg) : (algs.lookup (optName a)).map authKey = some (a.auth / 256) ∧ a.auth % 256 = 0 := by
  cases a <;> decide +kernel

/-! ### `keystore.der` -/

/-- **Size in `keystore.der`**: the nominal one, whatever the length of the key, as long as something follows it in the buffer; entries of a universal keystore are all of the same length. -/
theorem der_size (univ : Bool) (ml : Nat) (junk : List Byte) (i t : Nat) (mask : BitVec 32) (key : List Byte) (h1 : pubkeySize ml t ≤ 2592)
    (hj : pubkeySize ml t ≤ key.length + junk.length) :
    le32 (ofList (derEntry univ ml junk i t mask key)) 12 = pubkeySize ml t ∧
    (derEntry univ ml junk i t mask key).length = 16 + if univ then 2592 else pubkeySize ml t := by
  constructor
  · unfold derEntry w32 le32 ofList
    simp
    omega
  · unfold derEntry w32
    cases univ <;> simp <;> omega

/-- Non-vacuity: an RSA 2048 key of 270 bytes. -/
example : (derEntry false 0 (List.replicate 2592 7#8) 0 3 1#32 (List.replicate 270 5#8)).length = 336 :=
  (der_size false 0 _ 0 3 1#32 _ (by decide) (by rw [List.length_replicate, List.length_replicate]; decide)).2

/-! ### The drivers of the OTP area -/

theorem loop7_cut (c : OtpCfg) (data : List Byte) (addr : Nat) (hB : c.B ≤ addr) (hS : c.B % 2 = 0 ∧ c.S % 2 = 0) (h0 : 0 < c.S) (ha : addr % 2 = 0)
    (he : data.length % 2 = 0) : ∀ k idx otp, k = data.length - idx → idx ≤ data.length → idx % 2 = 0 →
    loop7 c data data.length addr idx otp =
      .ok fun j => if addr - c.B + idx ≤ j ∧ j < min (addr - c.B + data.length) c.S then otp j &&& ofList data (j - (addr - c.B)) else otp j := by
  intro k
  induction k using Nat.strongRecOn with
  | ind k ih =>
    intro idx otp hk hi hi2
    rw [loop7]
    by_cases h : idx < data.length ∧ addr + idx ≤ c.B + c.S - 1 - 1
    · rw [dif_pos h, if_neg (by omega), ih (data.length - (idx + 2)) (by omega) _ _ rfl (by omega) (by omega)]
      congr 1
      funext j
      by_cases h1 : addr - c.B + (idx + 2) ≤ j ∧ j < min (addr - c.B + data.length) c.S
      · rw [if_pos h1, if_neg (by omega), if_pos (by omega)]
      · rw [if_neg h1]
        by_cases h2 : j = addr + idx - c.B ∨ j = addr + idx + 1 - c.B
        · rw [if_pos h2, if_pos (by omega)]
        · rw [if_neg h2, if_neg (by omega)]
    · rw [dif_neg h]
      congr 1
      funext j
      rw [if_neg (by omega)]

/-- **STM32H7, exact**: from an even address of the area on, the driver programs what fits; what does not fit is left out, and success is reported. -/
theorem write7_cut (c : OtpCfg) (otp : Mem) (data : List Byte) (addr : Nat) (hB : c.B ≤ addr) (hin : addr ≤ c.B + c.S - 1) (h0 : 0 < c.S) (hS : c.B % 2 = 0 ∧ c.S % 2 = 0)
    (ha : addr % 2 = 0) (he : data.length % 2 = 0) :
    write7 c otp addr data data.length =
      .ok fun j => if addr - c.B ≤ j ∧ j < min (addr - c.B + data.length) c.S then otp j &&& ofList data (j - (addr - c.B)) else otp j := by
  unfold write7
  rw [if_neg (by omega), loop7_cut c data addr hB hS h0 ha he data.length 0 _ (by omega) (by omega) (by omega)]
  rfl

/-- Non-vacuity: four bytes at the last halfword of an area of 8 bytes; two are programmed. -/
example : ∃ m, write7 ⟨100, 8, 16⟩ (fun _ => 0xFF#8) 106 [1#8, 2#8, 3#8, 4#8] 4 = .ok m ∧ m 6 = 1#8 ∧ m 7 = 2#8 ∧ m 8 = 0xFF#8 :=
  ⟨_, write7_cut ⟨100, 8, 16⟩ (fun _ => 0xFF#8) [1#8, 2#8, 3#8, 4#8] 106 (by decide) (by decide) (by decide) (by decide) (by decide) (by decide), by decide +kernel⟩

/-- The last byte of the area alone is never programmed. -/
theorem write7_last (c : OtpCfg) (otp : Mem) (data : List Byte) (len : Nat) (h : 2 ≤ c.S) : write7 c otp (c.B + c.S - 1) data len = .ok otp := by
  unfold write7
  rw [if_neg (by omega), loop7, dif_neg (by omega)]

/-- **STM32H7, alignment**: an odd address is undefined. -/
theorem write7_odd (c : OtpCfg) (otp : Mem) (data : List Byte) (addr len : Nat) (hB : c.B ≤ addr) (hin : addr + 2 ≤ c.B + c.S) (ha : addr % 2 = 1) (hl : 0 < len) :
    write7 c otp addr data len = .bad := by
  unfold write7
  rw [if_neg (by omega), loop7, dif_pos (by omega), if_pos (by omega)]

theorem loop5_short (c : OtpCfg) (data : List Byte) (addr : Nat) (hB : c.B ≤ addr) (hin : addr + data.length ≤ c.B + c.S)
    (he : data.length % 4 = 2) : ∀ k idx otp, k = data.length - idx → idx < data.length → idx % 4 = 0 →
    (∀ j, addr - c.B + idx ≤ j → j < addr - c.B + data.length → otp j = 0xFF#8) →
    loop5 c data data.length addr idx otp = .bad := by
  intro k
  induction k using Nat.strongRecOn with
  | ind k ih =>
    intro idx otp hk hi hi2 hff
    rw [loop5, dif_pos (by omega)]
    by_cases hs : data.length < idx + 4 ∨ c.B + c.S < addr + idx + 4
    · rw [if_pos hs]
    · rw [if_neg hs, if_neg]
      · refine ih (data.length - (idx + 4)) (by omega) _ _ rfl (by omega) (by omega) ?_
        intro j h1 h2
        rw [if_neg (by omega)]
        exact hff j (by omega) h2
      · rintro ⟨i, hi4, hne⟩
        rw [hff _ (by omega) (by omega)] at hne
        exact hne BitVec.allOnes_and

/-- **Finding (STM32H5)**: the length is rounded to two bytes, but four are programmed at a time: with a length that is 2 modulo 4, for erased flash, the driver reads beyond the data, wherever it is written. -/
theorem write5_short (c : OtpCfg) (otp : Mem) (data : List Byte) (addr : Nat) (hB : c.B ≤ addr) (hin : addr + data.length ≤ c.B + c.S) (ha : addr % 2 = 0)
    (he : data.length % 4 = 2) (hff : ∀ j, addr - c.B ≤ j → j < addr - c.B + data.length → otp j = 0xFF#8) :
    write5 c otp addr data data.length = .bad := by
  unfold write5
  rw [if_neg (by omega), if_neg (by omega), show data.length / 2 * 2 = data.length by omega]
  exact loop5_short c data addr hB hin he data.length 0 otp (by omega) (by omega) (by omega) (fun j h1 h2 => hff j (by omega) h2)

/-- Non-vacuity: six bytes at the start of an erased area of 16 bytes. -/
example : write5 ⟨100, 16, 16⟩ (fun _ => 0xFF#8) 100 [1#8, 2#8, 3#8, 4#8, 5#8, 6#8] 6 = .bad :=
  write5_short ⟨100, 16, 16⟩ (fun _ => 0xFF#8) [1#8, 2#8, 3#8, 4#8, 5#8, 6#8] 100 (by decide) (by decide) (by decide) (by decide) (fun _ _ _ => rfl)

/-- **Finding (STM32H5)**: at the last two bytes of the area, the driver programs two bytes behind the area. -/
theorem write5_last (c : OtpCfg) (otp : Mem) (data : List Byte) (hS : 2 ≤ c.S) (ha : (c.B + c.S) % 2 = 0) (hl : 4 ≤ data.length) :
    write5 c otp (c.B + c.S - 2) data data.length = .bad := by
  unfold write5
  rw [if_neg (by omega), if_neg (by omega), loop5, dif_pos (by omega), if_pos (by omega)]

/-! ### The signing tools -/

/-- **`--sha-only`**: no digest is written exactly if it would not fit into the header behind the fields in front of it. -/
theorem sha_only_iff (K : KeyLib) (j : Job) (a : Alg) (keyFile img pub : List Byte) (h s : Nat) (d : List Byte) :
    makeHeader K j a .shaOnly keyFile img pub h s = .digest d ↔
      d = (j.opts a pub (fun _ => []) none).digest img ∧ ((j.opts a pub (fun _ => []) none).hashed img).length + 4 + min (d.length % 65536) d.length ≤ h := by
  unfold makeHeader
  dsimp only
  have hl : ∀ x : List Byte, ((Item.tag j.algo.tag x).app ((j.opts a pub (fun _ => []) none).hashed img)).length =
      ((j.opts a pub (fun _ => []) none).hashed img).length + 4 + min (x.length % 65536) x.length := by
    intro x
    simp only [Item.app, List.length_append, u16_length, List.length_take]
  rw [hl]
  constructor
  · intro hx
    split at hx
    · cases hx
    · obtain rfl := Out.digest.inj hx
      exact ⟨rfl, by omega⟩
  · rintro ⟨rfl, h2⟩
    rw [if_neg (by omega)]

/-- **Type of images of the script**: authentication, delta and partition are in fields of their own. -/
theorem py_type (j : PyJob) (hp : j.part < 16) :
    j.typ / 256 = (match j.alg with | some a => a.auth / 256 | none => 0xFF) ∧ j.typ / 16 % 16 = (match j.delta with | some _ => 0xD | none => 0) ∧ j.typ % 16 = j.part := by
  unfold PyJob.typ
  cases j.alg with
  | none => cases j.delta <;> dsimp only <;> omega
  | some a => cases a <;> cases j.delta <;> simp only [Alg.auth] <;> omega

/-- **Exceptions of the script**: exactly if a number does not fit into its field. -/
theorem py_exception_iff (j : PyJob) (a : Alg) (cfg : Nat) (mode : Mode) (sign : List Byte → List Byte) (pub img : List Byte) :
    pyRun j a cfg mode sign pub img = .exception ↔
      ¬ (img.length < 2 ^ 32 ∧ j.version < 2 ^ 32 ∧ j.mtime < 2 ^ 64 ∧ ∀ d, j.delta = some d → d.base < 2 ^ 32 ∧ d.size < 2 ^ 16 ∧ d.inv < 2 ^ 32 ∧ d.invSize < 2 ^ 16) := by
  have hp : PyJob.packs { j with alg := some a } img = true ↔
      (img.length < 2 ^ 32 ∧ j.version < 2 ^ 32 ∧ j.mtime < 2 ^ 64 ∧ ∀ d, j.delta = some d → d.base < 2 ^ 32 ∧ d.size < 2 ^ 16 ∧ d.inv < 2 ^ 32 ∧ d.invSize < 2 ^ 16) := by
    unfold PyJob.packs
    cases hd : j.delta with
    | none => simp [and_assoc]
    | some d => simp [and_assoc]
  rw [← hp]
  unfold pyRun
  dsimp only
  by_cases h : PyJob.packs { j with alg := some a } img = true
  · rw [if_neg (by rw [h]; decide)]
    simp only [h, not_true_eq_false, iff_false]
    cases mode with
    | shaOnly => simp
    | oneStep => simp
    | manual f => dsimp only; split <;> simp
  · rw [if_pos (by simpa using h)]
    simp [h]

/-- **The header fits**: with a private key, the header of an image without delta fields, made by the script with hashes of 32 bytes for SHA-256 and of 48 bytes at most otherwise, fits into the size
the script takes for it, whatever the configured size. -/
theorem py_header_fits (j : PyJob) (a : Alg) (cfg : Nat) (pub img sig : List Byte) (n : Nat) (ha : j.alg = some a) (hd : j.delta = none) (hc : 256 ≤ cfg)
    (hl : ∀ x, (j.hash x).length = n) (hn : n ≤ 48) (hs : j.algo = .sha256 → n = 32) (hsig : sig.length = a.sigSize) :
    (j.header pub (sizesPriv cfg j.algo a).2 sig img).length ≤ (sizesPriv cfg j.algo a).1 := by
  have : (j.header pub (sizesPriv cfg j.algo a).2 sig img).length = 52 + 2 * n + 4 + a.sigSize := by
    unfold PyJob.header
    rw [List.length_append, upToKey_length j a ha hd pub img n (by omega) hl, ha]
    simp [u16_length, hsig]
    omega
  rw [this]
  cases hg : j.algo with
  | sha256 =>
    have := hs hg
    cases a <;> simp only [Alg.sigSize, sizesPriv] <;> (try split) <;> omega
  | sha384 => cases a <;> simp only [Alg.sigSize, sizesPriv] <;> (repeat' split) <;> omega
  | sha3 => cases a <;> simp only [Alg.sigSize, sizesPriv] <;> (repeat' split) <;> omega

/-- Non-vacuity: Ed448 and SHA-384 with a configured size of 256 bytes; the header has 266 bytes, and the script takes 512. -/
example : (PyJob.header ⟨1, 0, some .ed448, 1, none, .sha384, fun _ => List.replicate 48 0#8⟩ [] (sizesPriv 256 .sha384 .ed448).2 (List.replicate 114 1#8) []).length ≤ 512 :=
  py_header_fits ⟨1, 0, some .ed448, 1, none, .sha384, fun _ => List.replicate 48 0#8⟩ .ed448 256 [] [] (List.replicate 114 1#8) 48 rfl rfl (by decide) (fun _ => rfl)
    (by decide) (by intro h; cases h) rfl

/-- **Delta fields of the script** are at offsets that are multiples of 4, that is, the words in them are aligned. -/
theorem py_delta_aligned (j : PyJob) (d : PyDelta) (hd : j.delta = some d) (n : Nat) :
    ∃ a, render (u32 MAGIC ++ u32 n) j.pre = a ++ u16 0x05 ++ u16 4 ++ u32 d.base ++ u16 0x06 ++ u16 2 ++ u16 d.size ++ List.replicate 2 0xFF#8 ++
      u16 0x15 ++ u16 4 ++ u32 d.inv ++ u16 0x16 ++ u16 2 ++ u16 d.invSize ++ List.replicate 6 0xFF#8 ∧ a.length = 40 := by
  unfold PyJob.pre
  rw [hd]
  have t2 : ∀ v, (u16 v).take (2 % 65536) = u16 v := fun _ => rfl
  have t4 : ∀ v, (u32 v).take (4 % 65536) = u32 v := fun _ => rfl
  have t8 : ∀ v, (u64 v).take ((4 + 4) % 65536) = u64 v := fun _ => rfl
  have l8 : ∀ v, (u64 v).length = 4 + 4 := fun _ => rfl
  refine ⟨u32 MAGIC ++ u32 n ++ u16 1 ++ u16 4 ++ u32 j.version ++ List.replicate 4 0xFF#8 ++ u16 2 ++ u16 8 ++ u64 j.mtime ++ u16 4 ++ u16 2 ++ u16 j.typ ++
    List.replicate 2 0xFF#8, ?_, by simp [u16_length, u32_length, l8]⟩
  simp only [List.cons_append, List.nil_append, render, List.foldl_cons, List.foldl_nil, Item.app, List.length_append, List.length_replicate, u16_length,
    u32_length, l8, t2, t4, t8]

/-- **Finding**: the length in the signature field of the script is the nominal one, whatever the length of the signature. -/
theorem py_sig_length (j : PyJob) (a : Alg) (ha : j.alg = some a) (pub sig img : List Byte) (n : Nat) (hn : n < 65536) :
    le16 (ofList (j.header pub n sig img)) ((j.upToKey pub img).length + 2) = n := by
  have h : ∀ i, ofList (j.header pub n sig img) ((j.upToKey pub img).length + i) = ofList (u16 0x20 ++ u16 n ++ sig) i := by
    intro i
    unfold PyJob.header
    rw [ha, ofList_append, if_neg (by omega), Nat.add_sub_cancel_left]
  unfold le16
  rw [h 2, Nat.add_assoc, h (2 + 1)]
  simp [u16, ofList]
  omega

end Verif.ToolTables
