import Verif.KeyTool
import Verif.Otp

/-!
# Keys in files and in one-time-programmable flash: `/repo/tools/keytools/keygen.c`, `/repo/tools/keytools/otp/` (C72)

Import of public keys, the binary image `keystore.der`, and the two tools that bring the table of `KeyTool` into the OTP area that is read by the functions
of `Otp`.
-/

namespace Verif

namespace KeyTool

/-! ### Import -/

/-- `get_pubkey_size`, `/repo/tools/keytools/keygen.c:421-484`; `ml` is the size for `ML_DSA_LEVEL`. There is no case for `KEYGEN_ECC521` (7). -/
def pubkeySize (ml t : Nat) : Nat :=
  match t with
  | 1 => 32
  | 5 => 57
  | 2 => 64
  | 6 => 96
  | 3 => 320
  | 8 => 448
  | 4 => 576
  | 9 => 60
  | 10 => 68
  | 11 => ml
  | _ => 0

/-- Bytes stored into a buffer, for `/repo/tools/keytools/keygen.c:1281-1282`. -/
def put (buf : List Byte) (off : Nat) (l : List Byte) : List Byte := buf.take off ++ l ++ buf.drop (off + l.length)

/-- `key_import`, `/repo/tools/keytools/keygen.c:1240-1321`, for the contents of a file. `decE`: coordinates of a point from an ECC key file, `decEd`: the key
from an Ed25519 or Ed448 key file (wolfCrypt); `none` ends the program. -/
def keyImport (ml : Nat) (decE : Nat → List Byte → Option (List Byte × List Byte)) (decEd : Nat → List Byte → Option (List Byte)) (t : Nat)
    (file : List Byte) : Option (List Byte) :=
  if file.take 2592 = [] then none
  else if (file.take 2592).length ≤ pubkeySize ml t then some (file.take 2592)
  else if t = 2 ∨ t = 6 ∨ t = 7 then
    (decE t (file.take 2592)).map fun xy => (put (put (file.take 2592) 0 xy.1) (pubkeySize ml t / 2) xy.2).take (pubkeySize ml t)
  else if t = 1 ∨ t = 5 then (decEd t (file.take 2592)).map fun x => (put (file.take 2592) 0 x).take (pubkeySize ml t)
  else some ((file.take 2592).take (pubkeySize ml t))

/-- **Import**: a file of exactly the size of a key is the key; a longer ECC file gives the point it encodes; a longer RSA file is cut off. -/
theorem import_spec (ml : Nat) (decE decEd) (t : Nat) (file : List Byte) (h0 : 0 < pubkeySize ml t) (h1 : pubkeySize ml t ≤ 2592) :
    (file.length = pubkeySize ml t → keyImport ml decE decEd t file = some file) ∧
    (∀ x y, pubkeySize ml t < file.length → t = 2 ∨ t = 6 → decE t (file.take 2592) = some (x, y) → x.length = pubkeySize ml t / 2 →
      y.length = pubkeySize ml t / 2 → keyImport ml decE decEd t file = some (x ++ y)) ∧
    (∀ x, pubkeySize ml t < file.length → t = 1 ∨ t = 5 → decEd t (file.take 2592) = some x → x.length = pubkeySize ml t →
      keyImport ml decE decEd t file = some x) ∧
    (pubkeySize ml t < file.length → t = 3 ∨ t = 4 ∨ t = 8 ∨ 9 ≤ t → pubkeySize ml t < 2592 →
      keyImport ml decE decEd t file = some (file.take (pubkeySize ml t))) := by
  have hne : pubkeySize ml t ≤ file.length → file.take 2592 ≠ [] := by
    intro h2 h
    have := congrArg List.length h
    rw [List.length_take, List.length_nil] at this
    omega
  unfold keyImport
  refine ⟨fun h => ?_, fun x y h ht hd hx hy => ?_, fun x h ht hd hx => ?_, fun h ht hlt => ?_⟩
  · rw [if_neg (hne (by omega)), if_pos (by rw [List.length_take]; omega), List.take_of_length_le (by omega)]
  · have hs : pubkeySize ml t = 64 ∨ pubkeySize ml t = 96 := by rcases ht with rfl | rfl <;> simp [pubkeySize]
    rw [if_neg (hne (by omega)), if_neg (by rw [List.length_take]; omega), if_pos (by omega), hd]
    simp only [Option.map_some, Option.some.injEq]
    unfold put
    have h2 : (x ++ (file.take 2592).drop (0 + x.length)).take (pubkeySize ml t / 2) = x := by
      rw [← hx, List.take_left]
    rw [List.take_zero, List.nil_append, h2, List.take_append_of_le_length (by rw [List.length_append]; omega),
      List.take_of_length_le (by rw [List.length_append]; omega)]
  · have hs : pubkeySize ml t = 32 ∨ pubkeySize ml t = 57 := by rcases ht with rfl | rfl <;> simp [pubkeySize]
    rw [if_neg (hne (by omega)), if_neg (by rw [List.length_take]; omega), if_neg (by omega), if_pos ht, hd]
    simp only [Option.map_some, Option.some.injEq]
    unfold put
    rw [List.take_zero, List.nil_append, List.take_append_of_le_length (by omega), List.take_of_length_le (by omega)]
  · rw [if_neg (hne (by omega)), if_neg (by rw [List.length_take]; omega), if_neg (by omega), if_neg (by omega), List.take_take,
      Nat.min_eq_left (by omega)]

/-- **Finding**: an imported ECC521 key is always empty. -/
theorem import_ecc521_empty (ml : Nat) (decE decEd) (file b : List Byte) (h : keyImport ml decE decEd 7 file = some b) : b = [] := by
  unfold keyImport at h
  by_cases h0 : file.take 2592 = []
  · rw [if_pos h0] at h
    simp at h
  · have hp : pubkeySize ml 7 = 0 := rfl
    rw [if_neg h0, hp, if_neg, if_pos (by omega)] at h
    · cases hd : decE 7 (file.take 2592) with
      | none => rw [hd] at h; simp at h
      | some xy => rw [hd] at h; simp at h; exact h
    · intro h1
      exact h0 (List.length_eq_zero_iff.mp (by omega))

/-! ### `keystore.der` -/

/-- A little-endian 32-bit word. -/
def w32 (n : Nat) : List Byte := [BitVec.ofNat 8 n, BitVec.ofNat 8 (n / 256), BitVec.ofNat 8 (n / 65536), BitVec.ofNat 8 (n / 16777216)]

/-- An entry of `keystore.der`, `keystore_add`, `/repo/tools/keytools/keygen.c:514-533`: slot, type, mask, size and key; `junk` is what follows the key in the
buffer of the caller. `univ`: `WOLFBOOT_UNIVERSAL_KEYSTORE`. -/
def derEntry (univ : Bool) (ml : Nat) (junk : List Byte) (i t : Nat) (mask : BitVec 32) (key : List Byte) : List Byte :=
  w32 i ++ w32 t ++ w32 mask.toNat ++ w32 (pubkeySize ml t) ++ (key ++ junk).take (pubkeySize ml t) ++
    if univ then List.replicate (2592 - pubkeySize ml t) 0#8 else []

/-- The first key taken out of `keystore.der` again, as done for builds with two keys: `dd bs=1 skip=16`, `/repo/Makefile:229`. -/
def derKey (der : List Byte) : List Byte := der.drop 16

/-- **Round trip of a key over `keystore.der`**: the key is imported again exactly if it has the nominal size of its type, that is, for all but RSA keys;
otherwise it is followed by what happened to be in the buffer, and its hash is another one. -/
theorem reimport_iff (ml : Nat) (decE decEd) (junk : List Byte) (i t : Nat) (mask : BitVec 32) (key : List Byte) (h0 : 0 < pubkeySize ml t)
    (h1 : pubkeySize ml t ≤ 2592) (hk : key.length ≤ pubkeySize ml t) (hj : pubkeySize ml t ≤ junk.length) :
    keyImport ml decE decEd t (derKey (derEntry false ml junk i t mask key)) = some key ↔ key.length = pubkeySize ml t := by
  have hd : derKey (derEntry false ml junk i t mask key) = (key ++ junk).take (pubkeySize ml t) := by
    unfold derKey derEntry
    simp [w32]
  have hl : ((key ++ junk).take (pubkeySize ml t)).length = pubkeySize ml t := by
    rw [List.length_take, List.length_append]
    omega
  rw [hd, (import_spec ml decE decEd t _ h0 h1).1 hl, Option.some.injEq]
  constructor
  · intro h
    rw [← h, hl]
  · intro h
    rw [← h, List.take_left]

/-- **Finding**: the type in `keystore.der` is the number used inside the tool; it is the type in the table for the bootloader for all algorithms but XMSS and
ML-DSA. -/
theorem der_type_iff (univ : Bool) (ml : Nat) (junk : List Byte) (i t : Nat) (mask : BitVec 32) (key : List Byte) (ht : t < 12) :
    le32 (ofList (derEntry univ ml junk i t mask key)) 4 = authKey t ↔ t ≠ 10 ∧ t ≠ 11 := by
  have : le32 (ofList (derEntry univ ml junk i t mask key)) 4 = t := by
    unfold derEntry w32 le32 ofList
    simp
    omega
  rw [this]
  unfold authKey
  split
  · omega
  · split <;> omega

/-! ### The OTP area -/

/-- `struct keystore_slot` of the table with room for `P` bytes of key, `/repo/include/keystore.h:43-49`; the compiler fills the rest of the key with
zeros. -/
def slotBytes (P : Nat) (e : Entry) : List Byte :=
  w32 e.id ++ w32 e.type ++ w32 e.mask.toNat ++ w32 e.size ++ (e.key ++ List.replicate (P - e.key.length) 0#8)

/-- The same with the padding of the compiler at the end, `sizeof(struct keystore_slot)`, `/repo/tools/keytools/otp/otp-keystore-primer.c:60`. -/
def structBytes (P : Nat) (e : Entry) : List Byte := slotBytes P e ++ List.replicate ((4 - P % 4) % 4) 0#8

/-- `struct wolfBoot_otp_hdr`, `/repo/include/otp_keystore.h:50-55`, `/repo/tools/keytools/otp/otp-keystore-primer.c:42-45`; `v` is `WOLFBOOT_VERSION`. -/
def hdrBytes (v n : Nat) : List Byte := otpMagic ++ [BitVec.ofNat 8 n, BitVec.ofNat 8 (n / 256), 0#8, 0#8] ++ w32 v

/-- Outcomes of programming: undefined behaviour, an endless loop after an error, an error code, the new contents. -/
inductive PRes where
  | bad
  | hang
  | fail
  | ok (m : Mem)

/-- The loop of `hal_flash_otp_write`, `/repo/hal/stm32h7.c:564-595`, from index `idx` on: 16 bits at a time; programming only clears bits. A halfword beyond
the source and an address that is not aligned are undefined. -/
def loop7 (c : OtpCfg) (data : List Byte) (len addr idx : Nat) (otp : Mem) : PRes :=
  if h : idx < len ∧ addr + idx ≤ c.B + c.S - 1 - 1 then
    if (addr + idx) % 2 ≠ 0 ∨ data.length < idx + 2 then .bad
    else loop7 c data len addr (idx + 2) fun j => if j = addr + idx - c.B ∨ j = addr + idx + 1 - c.B then otp j &&& ofList data (j - (addr - c.B)) else otp j
  else .ok otp
termination_by len - idx

/-- `hal_flash_otp_write`, `/repo/hal/stm32h7.c:552-599`. -/
def write7 (c : OtpCfg) (otp : Mem) (addr : Nat) (data : List Byte) (len : Nat) : PRes :=
  if ¬ (c.B ≤ addr ∧ addr ≤ c.B + c.S - 1) then .fail else loop7 c data len addr 0 otp

/-- The loop of `hal_flash_otp_write`, `/repo/hal/stm32h5.c:630-661`, from index `idx` on: 32 bits at a time, read back. -/
def loop5 (c : OtpCfg) (data : List Byte) (len addr idx : Nat) (otp : Mem) : PRes :=
  if h : idx < len ∧ addr + idx ≤ c.B + c.S - 1 - 1 then
    if data.length < idx + 4 ∨ c.B + c.S < addr + idx + 4 then .bad
    else if ∃ i, i < 4 ∧ otp (addr + idx - c.B + i) &&& ofList data (idx + i) ≠ ofList data (idx + i) then .hang
    else loop5 c data len addr (idx + 4) fun j =>
      if addr + idx - c.B ≤ j ∧ j < addr + idx + 4 - c.B then otp j &&& ofList data (j - (addr - c.B)) else otp j
  else .ok otp
termination_by len - idx

/-- `hal_flash_otp_write`, `/repo/hal/stm32h5.c:606-664`. -/
def write5 (c : OtpCfg) (otp : Mem) (addr : Nat) (data : List Byte) (len : Nat) : PRes :=
  if ¬ (c.B ≤ addr ∧ addr ≤ c.B + c.S - 1) then .fail
  else if addr % 2 ≠ 0 then .fail
  else loop5 c data (len / 2 * 2) addr 0 otp

/-- Writes in a row; return values are not looked at, `/repo/tools/keytools/otp/otp-keystore-primer.c:54-61`. -/
def writes (wr : Mem → Nat → List Byte → Nat → PRes) : List (Nat × List Byte) → Mem → PRes
  | [], otp => .ok otp
  | (a, d) :: r, otp =>
    match wr otp a d d.length with
    | .ok m => writes wr r m
    | .fail => writes wr r otp
    | .bad => .bad
    | .hang => .hang

/-- The slots written by the primer from number `i` on, `/repo/tools/keytools/otp/otp-keystore-primer.c:56-61`. -/
def slotWrites (c : OtpCfg) (i : Nat) : List Entry → List (Nat × List Byte)
  | [] => []
  | e :: r => (c.B + 16 + i * c.slot, structBytes c.P e) :: slotWrites c (i + 1) r

/-- `main` of the primer, `/repo/tools/keytools/otp/otp-keystore-primer.c:33-73`: the contents of the OTP area when it is done. -/
def primer (wr : Mem → Nat → List Byte → Nat → PRes) (c : OtpCfg) (v : Nat) (ks : List Entry) (otp : Mem) : PRes :=
  if ks = [] then .hang else writes wr ((c.B, hdrBytes v ks.length) :: slotWrites c 0 ks) otp

/-- The file `otp.bin`, `/repo/tools/keytools/otp/otp-keystore-gen.c:43-95`: of every slot as many bytes as the *first* key has, plus 16. The tool is compiled
without an algorithm, so that its own slots have room for 576 bytes (`/repo/include/keystore.h:33-40`). -/
def otpFile (v : Nat) (ks : List Entry) : Option (List Byte) :=
  match ks with
  | [] => none
  | e :: _ => some (hdrBytes v ks.length ++ ks.flatMap fun x => (slotBytes 576 x).take (16 + e.size))

/-! ### Proofs -/

theorem ofList_append (a b : List Byte) (j : Nat) : ofList (a ++ b) j = if j < a.length then ofList a j else ofList b (j - a.length) := by
  unfold ofList
  by_cases h : j < a.length
  · rw [if_pos h, List.getElem?_append_left h]
  · rw [if_neg h, List.getElem?_append_right (by omega)]

theorem ofList_ff {a : List Byte} {j : Nat} (h : a.length ≤ j) : ofList a j = 0xFF#8 := by
  unfold ofList
  rw [List.getElem?_eq_none h]
  rfl

theorem slotBytes_length {P : Nat} {e : Entry} (h : e.key.length ≤ P) : (slotBytes P e).length = 16 + P := by
  unfold slotBytes w32
  simp
  omega

theorem hdrBytes_length (v n : Nat) : (hdrBytes v n).length = 16 := by simp [hdrBytes, w32, otpMagic]

theorem loop7_ok (c : OtpCfg) (data : List Byte) (addr : Nat) (hB : c.B ≤ addr) (hin : addr + data.length ≤ c.B + c.S) (ha : addr % 2 = 0)
    (he : data.length % 2 = 0) : ∀ k idx otp, k = data.length - idx → idx ≤ data.length → idx % 2 = 0 →
    loop7 c data data.length addr idx otp =
      .ok fun j => if addr - c.B + idx ≤ j ∧ j < addr - c.B + data.length then otp j &&& ofList data (j - (addr - c.B)) else otp j := by
  intro k
  induction k using Nat.strongRecOn with
  | ind k ih =>
    intro idx otp hk hi hi2
    rw [loop7]
    by_cases h : idx < data.length
    · rw [dif_pos ⟨h, by omega⟩, if_neg (by omega), ih (data.length - (idx + 2)) (by omega) _ _ rfl (by omega) (by omega)]
      congr 1
      funext j
      by_cases h1 : addr - c.B + (idx + 2) ≤ j ∧ j < addr - c.B + data.length
      · rw [if_pos h1, if_neg (by omega), if_pos (by omega)]
      · rw [if_neg h1]
        by_cases h2 : j = addr + idx - c.B ∨ j = addr + idx + 1 - c.B
        · rw [if_pos h2, if_pos (by omega)]
        · rw [if_neg h2, if_neg (by omega)]
    · rw [dif_neg (by omega)]
      congr 1
      funext j
      rw [if_neg (by omega)]

theorem loop5_ok (c : OtpCfg) (data : List Byte) (addr : Nat) (hB : c.B ≤ addr) (hin : addr + data.length ≤ c.B + c.S)
    (he : data.length % 4 = 0) : ∀ k idx otp, k = data.length - idx → idx ≤ data.length → idx % 4 = 0 →
    (∀ j, addr - c.B + idx ≤ j → j < addr - c.B + data.length → otp j = 0xFF#8) →
    loop5 c data data.length addr idx otp =
      .ok fun j => if addr - c.B + idx ≤ j ∧ j < addr - c.B + data.length then otp j &&& ofList data (j - (addr - c.B)) else otp j := by
  intro k
  induction k using Nat.strongRecOn with
  | ind k ih =>
    intro idx otp hk hi hi2 hff
    rw [loop5]
    by_cases h : idx < data.length
    · rw [dif_pos ⟨h, by omega⟩, if_neg (by omega), if_neg, ih (data.length - (idx + 4)) (by omega) _ _ rfl (by omega) (by omega)]
      · congr 1
        funext j
        by_cases h1 : addr - c.B + (idx + 4) ≤ j ∧ j < addr - c.B + data.length
        · rw [if_pos h1, if_neg (by omega), if_pos (by omega)]
        · rw [if_neg h1]
          by_cases h2 : addr + idx - c.B ≤ j ∧ j < addr + idx + 4 - c.B
          · rw [if_pos h2, if_pos (by omega)]
          · rw [if_neg h2, if_neg (by omega)]
      · intro j h1 h2
        rw [if_neg (by omega)]
        exact hff j (by omega) h2
      · rintro ⟨i, hi4, hne⟩
        rw [hff _ (by omega) (by omega)] at hne
        exact hne BitVec.allOnes_and
    · rw [dif_neg (by omega)]
      congr 1
      funext j
      rw [if_neg (by omega)]

/-- The driver programs what it is given into an erased part of the area. -/
def Programs (wr : Mem → Nat → List Byte → Nat → PRes) (c : OtpCfg) : Prop :=
  ∀ (pre data : List Byte), pre.length % 2 = 0 → data.length % 4 = 0 → 0 < data.length → pre.length + data.length ≤ c.S →
    wr (ofList pre) (c.B + pre.length) data data.length = .ok (ofList (pre ++ data))

theorem overlay {pre data : List Byte} : (fun j => if pre.length ≤ j ∧ j < pre.length + data.length then ofList pre j &&& ofList data (j - pre.length)
    else ofList pre j) = ofList (pre ++ data) := by
  funext j
  rw [ofList_append]
  by_cases h1 : j < pre.length
  · rw [if_neg (by omega), if_pos h1]
  · rw [if_neg h1, ofList_ff (a := pre) (by omega)]
    by_cases h2 : j < pre.length + data.length
    · rw [if_pos (by omega)]
      exact BitVec.allOnes_and
    · rw [if_neg (by omega), ofList_ff (a := data) (by omega)]

/-- **The drivers** of both families program the area. -/
theorem programs7 (c : OtpCfg) (hB : c.B % 2 = 0) : Programs (write7 c) c := by
  intro pre data h1 h2 h0 h3
  unfold write7
  rw [if_neg (by omega), loop7_ok c data _ (by omega) (by omega) (by omega) (by omega) data.length 0 _ (by omega) (by omega) (by omega)]
  congr 1
  rw [show c.B + pre.length - c.B = pre.length by omega, Nat.add_zero]
  exact overlay

theorem programs5 (c : OtpCfg) (hB : c.B % 2 = 0) : Programs (write5 c) c := by
  intro pre data h1 h2 h0 h3
  unfold write5
  rw [if_neg (by omega), if_neg (by omega), show data.length / 2 * 2 = data.length by omega,
    loop5_ok c data _ (by omega) (by omega) (by omega) data.length 0 _ (by omega) (by omega) (by omega)]
  · congr 1
    rw [show c.B + pre.length - c.B = pre.length by omega, Nat.add_zero]
    exact overlay
  · intro j hj _
    exact ofList_ff (by omega)

theorem structBytes_eq {P : Nat} (h : P % 4 = 0) (e : Entry) : structBytes P e = slotBytes P e := by
  unfold structBytes
  rw [h]
  simp

theorem writes_slots {wr} {c : OtpCfg} (hw : Programs wr c) (hP : c.P % 4 = 0) (ks : List Entry) (hks : ∀ e ∈ ks, e.key.length ≤ c.P) (i : Nat)
    (pre : List Byte) (hpre : pre.length = 16 + i * c.slot) (hfit : 16 + (i + ks.length) * c.slot ≤ c.S) :
    writes wr (slotWrites c i ks) (ofList pre) = .ok (ofList (pre ++ ks.flatMap (slotBytes c.P))) := by
  induction ks generalizing i pre with
  | nil => simp [slotWrites, writes]
  | cons e r ih =>
    have hl := slotBytes_length (hks e (by simp))
    have hs : c.slot = 16 + c.P := rfl
    have hmul : (i + (e :: r).length) * c.slot = (i + 1 + r.length) * c.slot := by rw [List.length_cons]; congr 1; omega
    have hmul2 : (i + 1) * c.slot ≤ (i + 1 + r.length) * c.slot := Nat.mul_le_mul_right _ (by omega)
    have hmul3 : (i + 1) * c.slot = i * c.slot + c.slot := by rw [Nat.add_mul, Nat.one_mul]
    have h4 : i * c.slot % 4 = 0 := by rw [Nat.mul_mod, hs, Nat.add_mod, hP]; simp
    rw [slotWrites, writes, structBytes_eq hP, show c.B + 16 + i * c.slot = c.B + pre.length by omega,
      hw pre (slotBytes c.P e) (by omega) (by omega) (by omega) (by omega)]
    dsimp only
    rw [ih (fun x hx => hks x (by simp [hx])) (i + 1) (pre ++ slotBytes c.P e) (by rw [List.length_append]; omega) (by omega),
      List.flatMap_cons, List.append_assoc]

/-- The OTP area holds the table: header and slots in a row. -/
def Holding (c : OtpCfg) (v : Nat) (ks : List Entry) (otp : Mem) : Prop := otp = ofList (hdrBytes v ks.length ++ ks.flatMap (slotBytes c.P))

/-- **The primer** brings the table into the erased area, if it fits. -/
theorem primer_ok {wr} {c : OtpCfg} (hw : Programs wr c) (hP : c.P % 4 = 0) (v : Nat) (ks : List Entry) (hne : ks ≠ [])
    (hks : ∀ e ∈ ks, e.key.length ≤ c.P) (hfit : 16 + ks.length * c.slot ≤ c.S) :
    ∃ m, primer wr c v ks (fun _ => 0xFF#8) = .ok m ∧ Holding c v ks m := by
  have h0 : (fun _ => 0xFF#8 : Mem) = ofList [] := by funext j; simp [ofList]
  have hl := hdrBytes_length v ks.length
  refine ⟨_, ?_, rfl⟩
  unfold primer
  rw [if_neg hne, h0, writes]
  have := hw [] (hdrBytes v ks.length) (by simp) (by omega) (by omega) (by rw [List.length_nil]; omega)
  rw [List.length_nil, Nat.add_zero, List.nil_append] at this
  rw [this]
  dsimp only
  exact writes_slots hw hP ks hks 0 _ (by omega) (by rw [Nat.zero_add]; exact hfit)

theorem flatMap_get {α : Type} (f : α → List Byte) (L : Nat) (l : List α) (h : ∀ x ∈ l, (f x).length = L) (k : Nat) (hk : k < l.length) (j : Nat) (hj : j < L) :
    (l.flatMap f)[k * L + j]? = (f l[k])[j]? := by
  induction l generalizing k with
  | nil => simp at hk
  | cons x r ih =>
    have hx := h x (by simp)
    rw [List.flatMap_cons]
    cases k with
    | zero => rw [List.getElem?_append_left (by omega)]; simp
    | succ k =>
      have : (k + 1) * L = k * L + L := by rw [Nat.add_mul, Nat.one_mul]
      rw [List.getElem?_append_right (by omega), show (k + 1) * L + j - (f x).length = k * L + j by omega,
        ih (fun y hy => h y (by simp [hy])) k (by simpa using hk)]
      rfl

theorem hdr_magic (v n : Nat) (l : List Byte) : (List.range 8).map (ofList (hdrBytes v n ++ l)) = otpMagic := by
  simp [hdrBytes, otpMagic, ofList, List.range, List.range.loop]

theorem hdr_count (v n : Nat) (l : List Byte) (hn : n < 65536) : le16 (ofList (hdrBytes v n ++ l)) 8 = n := by
  simp [hdrBytes, otpMagic, ofList, le16]
  omega

theorem slot_byte {c : OtpCfg} {v : Nat} {ks : List Entry} (hks : ∀ e ∈ ks, e.key.length ≤ c.P) {otp : Mem} (h : Holding c v ks otp) (k : Nat)
    (hk : k < ks.length) (j : Nat) (hj : j < 16 + c.P) : otpByte c otp k j = ofList (slotBytes c.P ks[k]) j := by
  unfold otpByte Holding at *
  rw [h, ofList_append, hdrBytes_length, if_neg (by omega), show 16 + k * (16 + c.P) + j - 16 = k * (16 + c.P) + j by omega]
  unfold ofList
  rw [flatMap_get (slotBytes c.P) (16 + c.P) ks (fun x hx => slotBytes_length (hks x hx)) k hk j hj]

/-- **The bootloader finds in the area what is in the table**: the number of keys; for every slot the mask, the type, the size and the key; nothing for
another number. -/
theorem otp_same_keys {c : OtpCfg} (hc : c.WF) (hP : c.P % 2 = 0) {v : Nat} {ks : List Entry} (hks : ∀ e ∈ ks, e.key.length ≤ c.P)
    (hid : ∀ e ∈ ks, e.type < 2 ^ 32 ∧ e.size < 2 ^ 32) (hn : ks.length < 65536) (hfit : 16 + ks.length * c.slot ≤ c.S) {otp : Mem}
    (h : Holding c v ks otp) (junk cache : Mem) :
    otpNum c otp junk = .ok ks.length ∧ ∀ k (hk : k < ks.length),
      otpField c 8 otp junk cache k = .ok ks[k].mask.toNat ∧ otpField c 4 otp junk cache k = .ok ks[k].type ∧
      otpField c 12 otp junk cache k = .ok ks[k].size ∧
      ∃ m, otpBuffer c otp junk cache k = .ok m ∧ ∀ j, j < ks[k].key.length → ks[k].key[j]? = some (m j) := by
  have hrange := hc.range
  have hslot : c.slot = 16 + c.P := rfl
  have hholds : OtpHolds c otp ks.length := by
    unfold Holding at h
    refine ⟨?_, ?_, hfit⟩
    · rw [h]; exact hdr_magic _ _ _
    · rw [h]; exact hdr_count _ _ _ hn
  refine ⟨(otp_num c hc otp junk).1 _ hholds, fun k hk => ?_⟩
  have hmul : (k + 1) * c.slot ≤ ks.length * c.slot := Nat.mul_le_mul_right _ hk
  rw [Nat.add_mul, Nat.one_mul] at hmul
  have hir : IntRange ((k : Int) * c.slot) := by
    have hcast : (k : Int) * (c.slot : Nat) = ((k * c.slot : Nat) : Int) := by rw [Int.natCast_mul]
    unfold IntRange
    rw [hcast]
    omega
  obtain ⟨⟨m, hm, hmb⟩, hf⟩ := (otp_accessors_partial c hc hP otp junk cache k hir).1 ⟨_, hholds, by omega, by omega⟩
  have hb : ∀ j, j < 16 + c.P → otpByte c otp k j = ofList (slotBytes c.P ks[k]) j := fun j hj => slot_byte hks h k hk j hj
  have hmem := List.getElem_mem hk
  have hmask := ks[k].mask.isLt
  obtain ⟨ht, hs⟩ := hid _ hmem
  have hw : ∀ off, off + 4 ≤ 16 → le32 (otpByte c otp k) off = le32 (ofList (slotBytes c.P ks[k])) off := by
    intro off hoff
    unfold le32
    rw [hb _ (by omega), hb _ (by omega), hb _ (by omega), hb _ (by omega)]
  have hK := hks _ hmem
  refine ⟨?_, ?_, ?_, m, hm, fun j hj => ?_⟩
  · rw [hf 8 (by omega), Int.toNat_natCast, hw 8 (by omega)]
    congr 1
    simp [slotBytes, w32, ofList, le32]
    omega
  · rw [hf 4 (by omega), Int.toNat_natCast, hw 4 (by omega)]
    congr 1
    simp [slotBytes, w32, ofList, le32]
    omega
  · rw [hf 12 (by omega), Int.toNat_natCast, hw 12 (by omega)]
    congr 1
    simp [slotBytes, w32, ofList, le32]
    omega
  · rw [hmb j (by omega), Int.toNat_natCast, hb _ (by omega)]
    have : slotBytes c.P ks[k] = (w32 ks[k].id ++ w32 ks[k].type ++ w32 ks[k].mask.toNat ++ w32 ks[k].size) ++ (ks[k].key ++ List.replicate (c.P -
      ks[k].key.length) 0#8) := rfl
    rw [this, ofList_append, if_neg (by simp [w32])]
    have hl : (w32 ks[k].id ++ w32 ks[k].type ++ w32 ks[k].mask.toNat ++ w32 ks[k].size).length = 16 := by simp [w32]
    rw [hl, show 16 + j - 16 = j by omega, ofList_append, if_pos hj]
    unfold ofList
    rw [List.getElem?_eq_getElem hj]
    rfl

/-- **The file** is the same as what the primer writes, if all keys have the size the bootloader is built for (or there is only one key, which has it). -/
theorem file_ok {c : OtpCfg} {v : Nat} {ks : List Entry} (hne : ks ≠ []) (hks : ∀ e ∈ ks, e.key.length = c.P ∧ e.size = c.P) (hP : c.P ≤ 576) :
    ∃ f, otpFile v ks = some f ∧ Holding c v ks (ofList f) := by
  cases ks with
  | nil => exact absurd rfl hne
  | cons e r =>
    refine ⟨_, rfl, ?_⟩
    unfold Holding
    have hc : ∀ x ∈ e :: r, (slotBytes 576 x).take (16 + e.size) = slotBytes c.P x := ?_
    · rw [List.flatMap_def, List.flatMap_def, List.map_congr_left hc]
    intro x hx
    obtain ⟨hx1, hx2⟩ := hks x hx
    rw [(hks e (by simp)).2]
    unfold slotBytes
    rw [hx1, Nat.sub_self, List.replicate_zero, List.append_nil, ← List.append_assoc]
    rw [List.take_append_of_le_length (by simp [w32, hx1]; omega), List.take_of_length_le (by simp [w32, hx1]; omega)]

/-- **Finding**: nothing checks that the keys fit. If they do not, the bootloader finds no key at all; whatever the rest of the area holds, since the header
cannot be written again. -/
theorem too_many_keys {c : OtpCfg} (hc : c.WF) {v n : Nat} (hn : n < 65536) (hfit : c.S < 16 + n * c.slot) {otp : Mem}
    (h : ∀ j, j < 16 → otp j = ofList (hdrBytes v n) j) (junk : Mem) : otpNum c otp junk = .ok 0 := by
  rw [otpNum_eq c hc, if_neg]
  rintro ⟨-, h2⟩
  have : le16 otp 8 = n := by
    have h3 := hdr_count v n [] hn
    rw [List.append_nil] at h3
    unfold le16 at *
    rw [h 8 (by omega), h (8 + 1) (by omega)]
    exact h3
  rw [this] at h2
  have : n * c.slot = n * (16 + c.P) := rfl
  omega

theorem loop7_low (c : OtpCfg) (data : List Byte) (len addr : Nat) (hB : c.B ≤ addr) : ∀ k idx otp m, k = len - idx →
    loop7 c data len addr idx otp = .ok m → ∀ j, j < addr - c.B → m j = otp j := by
  intro k
  induction k using Nat.strongRecOn with
  | ind k ih =>
    intro idx otp m hk h j hj
    rw [loop7] at h
    split at h
    · split at h
      · exact absurd h (by simp)
      · rw [ih (len - (idx + 2)) (by omega) _ _ m rfl h j hj, if_neg (by omega)]
    · injection h with h
      rw [h]

theorem loop5_low (c : OtpCfg) (data : List Byte) (len addr : Nat) (hB : c.B ≤ addr) : ∀ k idx otp m, k = len - idx →
    loop5 c data len addr idx otp = .ok m → ∀ j, j < addr - c.B → m j = otp j := by
  intro k
  induction k using Nat.strongRecOn with
  | ind k ih =>
    intro idx otp m hk h j hj
    rw [loop5] at h
    split at h
    · split at h
      · exact absurd h (by simp)
      · split at h
        · exact absurd h (by simp)
        · rw [ih (len - (idx + 4)) (by omega) _ _ m rfl h j hj, if_neg (by omega)]
    · injection h with h
      rw [h]

/-- The driver changes nothing below the address. -/
def Upward (wr : Mem → Nat → List Byte → Nat → PRes) (c : OtpCfg) : Prop :=
  ∀ otp addr data len m, c.B ≤ addr → wr otp addr data len = .ok m → ∀ j, j < addr - c.B → m j = otp j

theorem upward7 (c : OtpCfg) : Upward (write7 c) c := by
  intro otp addr data len m hB h
  unfold write7 at h
  split at h
  · exact absurd h (by simp)
  · exact loop7_low c data len addr hB _ 0 otp m rfl h

theorem upward5 (c : OtpCfg) : Upward (write5 c) c := by
  intro otp addr data len m hB h
  unfold write5 at h
  split at h
  · exact absurd h (by simp)
  · split at h
    · exact absurd h (by simp)
    · exact loop5_low c data _ addr hB _ 0 otp m rfl h

theorem writes_low {wr} {c : OtpCfg} (hu : Upward wr c) (ks : List Entry) (i : Nat) (otp m : Mem) (h : writes wr (slotWrites c i ks) otp = .ok m) :
    ∀ j, j < 16 → m j = otp j := by
  induction ks generalizing i otp with
  | nil =>
    intro j _
    simp only [slotWrites, writes, PRes.ok.injEq] at h
    rw [h]
  | cons e r ih =>
    intro j hj
    rw [slotWrites, writes] at h
    split at h
    · next m1 hm1 => rw [ih _ _ h j hj, hu _ _ _ _ _ (by omega) hm1 j (by omega)]
    · exact ih _ _ h j hj
    · exact absurd h (by simp)
    · exact absurd h (by simp)

/-- **Finding**: the primer does not check either: with too many keys, if it gets to its end, the part is left without a key. -/
theorem primer_too_many {wr} {c : OtpCfg} (hw : Programs wr c) (hu : Upward wr c) (hc : c.WF) {v : Nat} {ks : List Entry} (hn : ks.length < 65536)
    (hfit : c.S < 16 + ks.length * c.slot) {m : Mem} (h : primer wr c v ks (fun _ => 0xFF#8) = .ok m) (junk : Mem) : otpNum c m junk = .ok 0 := by
  have h0 : (fun _ => 0xFF#8 : Mem) = ofList [] := by funext j; simp [ofList]
  have hl := hdrBytes_length v ks.length
  have hone := hc.one
  refine too_many_keys hc (v := v) hn hfit ?_ junk
  unfold primer at h
  split at h
  · exact absurd h (by simp)
  · have hh := hw [] (hdrBytes v ks.length) (by simp) (by omega) (by omega) (by rw [List.length_nil]; omega)
    rw [List.length_nil, Nat.add_zero, List.nil_append] at hh
    rw [h0, writes, hh] at h
    exact writes_low hu ks 0 _ _ h

/-- **Finding**: on the STM32H5 a slot at an odd address, every second one for keys of odd size (Ed448), is refused by the driver; the primer goes on. -/
theorem odd_slot_refused {c : OtpCfg} (hB : c.B % 2 = 0) (hP : c.P % 2 = 1) {i : Nat} (hi : i % 2 = 1) (otp : Mem) (e : Entry) :
    write5 c otp (c.B + 16 + i * c.slot) (structBytes c.P e) (structBytes c.P e).length = .fail := by
  have : i * c.slot % 2 = 1 := by
    rw [Nat.mul_mod, hi, show c.slot = 16 + c.P from rfl, show (16 + c.P) % 2 = 1 by omega]
  unfold write5
  split
  · rfl
  · rw [if_pos (by omega)]

/-- **Finding**: the file takes the size of the first key as the size of all slots. If that is smaller than what the bootloader is built for (RSA keys in DER
form are always smaller), every slot but the first is read shifted: what the bootloader takes for byte `j` of the second slot is byte `j + d` of it. -/
theorem file_shifted {c : OtpCfg} {v : Nat} {e e2 : Entry} {r : List Entry} (he : e.key.length ≤ 576) (he2 : e2.key.length ≤ 576) (hs : e.size ≤ c.P)
    (hP : c.P ≤ 576) {f : List Byte} (hf : otpFile v (e :: e2 :: r) = some f) (j : Nat) (hj : c.P - e.size + j < 16 + e.size) :
    otpByte c (ofList f) 1 j = ofList (slotBytes 576 e2) (c.P - e.size + j) := by
  unfold otpFile at hf
  simp only [Option.some.injEq] at hf
  rw [← hf]
  have h1 := slotBytes_length he
  have h2 := slotBytes_length he2
  unfold otpByte
  rw [ofList_append, hdrBytes_length, if_neg (by omega), List.flatMap_cons, ofList_append, List.length_take, h1, if_neg (by omega), List.flatMap_cons,
    ofList_append, List.length_take, h2, if_pos (by omega)]
  unfold ofList
  rw [List.getElem?_take_of_lt (by omega)]
  congr 2
  omega

end KeyTool

end Verif
