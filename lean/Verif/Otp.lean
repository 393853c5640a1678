import Verif.Basic

/-!
# Public keys in one-time-programmable flash: `/repo/src/flash_otp_keystore.c` (C36)

The OTP area of `S` bytes starts at address `B`. Reads are done by the driver `hal_flash_otp_read` of the STM32H7 (that of the STM32H5 is
the same), 16 bits at a time. A read outside of the area, a write outside of the destination buffer and a signed overflow are the outcome `bad`.
-/

namespace Verif

/-- `FLASH_OTP_BASE`, `OTP_SIZE`, `KEYSTORE_PUBKEY_SIZE`, `/repo/hal/stm32h7.h:283-285`, `/repo/include/wolfboot/wolfboot.h:127-155`. -/
structure OtpCfg where
  B : Nat
  S : Nat
  P : Nat

namespace OtpCfg
variable (c : OtpCfg)

/-- `SIZEOF_KEYSTORE_SLOT`, `/repo/include/keystore.h:51-52`. -/
def slot : Nat := 16 + c.P

/-- `KEYSTORE_MAX_PUBKEYS`, `/repo/include/otp_keystore.h:59`. -/
def maxKeys : Nat := (c.S - 16) / c.slot

/-- What the build checks and the hardware gives: at least one slot fits (`/repo/include/otp_keystore.h:65`), the area has an even size
and fits in the positive `int` range. -/
structure WF : Prop where
  one : 16 + c.slot ≤ c.S
  pos : 0 < c.P
  even : c.S % 2 = 0
  range : c.B + c.S < 2 ^ 31

end OtpCfg

/-- Outcomes: undefined behaviour, error code, success. -/
inductive OtpRes (α : Type) where
  | bad
  | fail
  | ok (a : α)
deriving DecidableEq

/-- The copy loop of `hal_flash_otp_read`, `/repo/hal/stm32h7.c:608-615`, at index `i`; the destination `buf` is an array of `L` bytes. -/
def otpCopy (c : OtpCfg) (otp : Mem) (L addr len i : Nat) (buf : Mem) : OtpRes Mem :=
  if h : i < len ∧ addr + i ≤ c.B + c.S - 1 - 1 then
    if addr + i < c.B ∨ c.B + c.S < addr + i + 2 then .bad
    else if L < i + 2 then .bad
    else otpCopy c otp L addr len (i + 2) (fun j => if j = i ∨ j = i + 1 then otp (addr - c.B + j) else buf j)
  else .ok buf
termination_by len - i

/-- `hal_flash_otp_read`, `/repo/hal/stm32h7.c:601-617`, `/repo/hal/stm32h5.c:666-682`. -/
def otpRead (c : OtpCfg) (otp : Mem) (L addr len : Nat) (buf : Mem) : OtpRes Mem :=
  if ¬ (c.B ≤ addr ∧ addr ≤ c.B + c.S - 1) then .fail else otpCopy c otp L addr len 0 buf

/-- `"WOLFBOOT"`, `/repo/include/otp_keystore.h:57`. -/
def otpMagic : List Byte := [0x57, 0x4F, 0x4C, 0x46, 0x42, 0x4F, 0x4F, 0x54]

/-- `keystore_num_pubkeys`, `/repo/src/flash_otp_keystore.c:34-47`; `junk` is the uninitialised local buffer. -/
def otpNum (c : OtpCfg) (otp junk : Mem) : OtpRes Nat :=
  match otpRead c otp 16 c.B 16 junk with
  | .bad => .bad
  | .fail => .ok 0
  | .ok hdr =>
    if (List.range 8).map hdr ≠ otpMagic then .ok 0
    else if c.maxKeys < le16 hdr 8 then .ok 0
    else .ok (le16 hdr 8)

/-- `int` values. -/
def IntRange (x : Int) : Prop := -2 ^ 31 ≤ x ∧ x < 2 ^ 31

instance (x : Int) : Decidable (IntRange x) := by unfold IntRange; infer_instance

/-- The address `FLASH_OTP_BASE + OTP_HDR_SIZE + id * SIZEOF_KEYSTORE_SLOT`, `/repo/src/flash_otp_keystore.c:55-57`: computed with `int`s and
converted to `uint32_t`; `none` is a signed overflow. -/
def otpSlotAddr (c : OtpCfg) (id : Int) : Option Nat :=
  if IntRange (id * c.slot) ∧ IntRange (c.B + 16 + id * c.slot) then some ((c.B + 16 + id * c.slot) % 2 ^ 32).toNat else none

/-- The common part of the accessors, `/repo/src/flash_otp_keystore.c:50-100`: check the number, read the slot into the cache. `fail` is the
error return. -/
def otpFetch (c : OtpCfg) (otp junk : Mem) (cache : Mem) (id : Int) : OtpRes Mem :=
  match otpNum c otp junk with
  | .bad => .bad
  | .fail => .bad
  | .ok n =>
    if (n : Int) ≤ id then .fail
    else
      match otpSlotAddr c id with
      | none => .bad
      | some a => otpRead c otp c.slot a c.slot cache

/-- `keystore_get_buffer`, `/repo/src/flash_otp_keystore.c:50-61`: the bytes from `slot->pubkey` on. -/
def otpBuffer (c : OtpCfg) (otp junk cache : Mem) (id : Int) : OtpRes Mem :=
  match otpFetch c otp junk cache id with
  | .ok m => .ok fun j => m (16 + j)
  | .fail => .fail
  | .bad => .bad

/-- A 32-bit field of the cache: `keystore_get_size` (12), `keystore_get_mask` (8), `keystore_get_key_type` (4),
`/repo/src/flash_otp_keystore.c:63-100`; `fail` is the return value -1, 0 and -1. The size is converted to `int`. -/
def otpField (c : OtpCfg) (off : Nat) (otp junk cache : Mem) (id : Int) : OtpRes Nat :=
  match otpFetch c otp junk cache id with
  | .ok m => .ok (le32 m off)
  | .fail => .fail
  | .bad => .bad

/-! ## Specification -/

/-- The area holds a valid header that announces `n` keys. -/
def OtpHolds (c : OtpCfg) (otp : Mem) (n : Nat) : Prop :=
  (List.range 8).map otp = otpMagic ∧ le16 otp 8 = n ∧ 16 + n * (16 + c.P) ≤ c.S

/-- Slot `id` exists. -/
def OtpHas (c : OtpCfg) (otp : Mem) (id : Int) : Prop := ∃ n, OtpHolds c otp n ∧ 0 ≤ id ∧ id < n

/-- Byte `j` of slot `k`. -/
def otpByte (c : OtpCfg) (otp : Mem) (k j : Nat) : Byte := otp (16 + k * (16 + c.P) + j)

/-! ## Proofs -/

theorem otpCopy_ok (c : OtpCfg) (otp : Mem) (L addr len : Nat) (hB : c.B ≤ addr) (hin : addr + len ≤ c.B + c.S) (he : len % 2 = 0)
    (hL : len ≤ L) : ∀ k i buf, k = len - i → i ≤ len → i % 2 = 0 →
    otpCopy c otp L addr len i buf = .ok fun j => if i ≤ j ∧ j < len then otp (addr - c.B + j) else buf j := by
  intro k
  induction k using Nat.strongRecOn with
  | ind k ih =>
    intro i buf hk hi hi2
    rw [otpCopy]
    by_cases h : i < len
    · rw [dif_pos ⟨h, by omega⟩, if_neg (by omega), if_neg (by omega), ih (len - (i + 2)) (by omega) _ _ rfl (by omega) (by omega)]
      congr 1
      funext j
      by_cases h1 : i + 2 ≤ j ∧ j < len
      · rw [if_pos h1, if_pos (by omega)]
      · rw [if_neg h1]
        by_cases h2 : j = i ∨ j = i + 1
        · rw [if_pos h2, if_pos (by omega)]
        · rw [if_neg h2, if_neg (by omega)]
    · rw [dif_neg (by omega)]
      congr 1
      funext j
      rw [if_neg (by omega)]

theorem otpNum_eq (c : OtpCfg) (hc : c.WF) (otp junk : Mem) :
    otpNum c otp junk = .ok (if (List.range 8).map otp = otpMagic ∧ 16 + le16 otp 8 * (16 + c.P) ≤ c.S then le16 otp 8 else 0) := by
  have h1 := hc.one
  unfold OtpCfg.slot at h1
  have hr : otpRead c otp 16 c.B 16 junk = .ok fun j => if j < 16 then otp j else junk j := by
    unfold otpRead
    rw [if_neg (by omega), otpCopy_ok c otp 16 c.B 16 (Nat.le_refl _) (by omega) (by omega) (by omega) 16 0 junk rfl (by omega) (by omega)]
    congr 1
    funext j
    simp
  unfold otpNum
  rw [hr]
  dsimp only
  have hm : (List.range 8).map (fun j => if j < 16 then otp j else junk j) = (List.range 8).map otp := by
    apply List.map_congr_left
    intro a ha
    rw [List.mem_range] at ha
    rw [if_pos (by omega)]
  have hl : le16 (fun j => if j < 16 then otp j else junk j) 8 = le16 otp 8 := by
    unfold le16
    simp
  rw [hm, hl]
  by_cases hg : (List.range 8).map otp = otpMagic
  · rw [if_neg (by simpa using hg)]
    have hcount : c.maxKeys < le16 otp 8 ↔ ¬ (16 + le16 otp 8 * (16 + c.P) ≤ c.S) := by
      unfold OtpCfg.maxKeys OtpCfg.slot
      rw [Nat.div_lt_iff_lt_mul (by omega)]
      omega
    by_cases hb : 16 + le16 otp 8 * (16 + c.P) ≤ c.S
    · rw [if_neg (by rw [hcount]; simpa using hb), if_pos ⟨hg, hb⟩]
    · rw [if_pos (by rw [hcount]; exact hb), if_neg (fun h => hb h.2)]
  · rw [if_pos hg, if_neg (fun h => hg h.1)]

/-- **`keystore_num_pubkeys`** returns the number of keys of a valid header whose slots fit in the area, and 0 otherwise. -/
theorem otp_num (c : OtpCfg) (hc : c.WF) (otp junk : Mem) :
    (∀ n, OtpHolds c otp n → otpNum c otp junk = .ok n) ∧ ((¬ ∃ n, OtpHolds c otp n) → otpNum c otp junk = .ok 0) := by
  rw [otpNum_eq c hc]
  constructor
  · rintro n ⟨h1, h2, h3⟩
    rw [if_pos ⟨h1, by rw [h2]; exact h3⟩, h2]
  · intro h
    rw [if_neg]
    exact fun hh => h ⟨_, hh.1, rfl, hh.2⟩

/-- The fetch: the whole slot if it is present, an error otherwise; no read outside of the area. -/
theorem otpFetch_spec (c : OtpCfg) (hc : c.WF) (hP : c.P % 2 = 0) (otp junk cache : Mem) (id : Int) (hid : IntRange (id * c.slot)) :
    (OtpHas c otp id → otpFetch c otp junk cache id = .ok fun j => if j < 16 + c.P then otpByte c otp id.toNat j else cache j) ∧
    (¬ OtpHas c otp id → otpFetch c otp junk cache id = .fail) := by
  have hone := hc.one
  have hrange := hc.range
  have hpos := hc.pos
  unfold OtpCfg.slot at hone
  unfold otpFetch
  constructor
  · rintro ⟨n, hn, h0, hlt⟩
    rw [(otp_num c hc otp junk).1 n hn]
    dsimp only
    rw [if_neg (by omega)]
    obtain ⟨k, rfl⟩ := Int.eq_ofNat_of_zero_le h0
    have hkn : k < n := by omega
    have hfit := hn.2.2
    have hmul : (k + 1) * (16 + c.P) ≤ n * (16 + c.P) := Nat.mul_le_mul_right _ hkn
    rw [Nat.add_mul, Nat.one_mul] at hmul
    have hcast : (k : Int) * (c.slot : Nat) = ((k * (16 + c.P) : Nat) : Int) := by
      unfold OtpCfg.slot
      norm_cast
    have haddr : otpSlotAddr c k = some (c.B + 16 + k * (16 + c.P)) := by
      unfold otpSlotAddr
      rw [if_pos]
      · rw [hcast]
        congr 1
        have : (c.B + 16 + ((k * (16 + c.P) : Nat) : Int)) % 2 ^ 32 = c.B + 16 + ((k * (16 + c.P) : Nat) : Int) := by
          apply Int.emod_eq_of_lt
          · omega
          · omega
        rw [this]
        omega
      · refine ⟨hid, ?_⟩
        rw [hcast]
        unfold IntRange
        omega
    rw [haddr]
    dsimp only
    unfold otpRead OtpCfg.slot
    rw [if_neg (by omega), otpCopy_ok c otp _ _ (16 + c.P) (by omega) (by omega) (by omega) (Nat.le_refl _) (16 + c.P) 0 cache rfl
      (by omega) (by omega)]
    refine congrArg OtpRes.ok (funext fun j => ?_)
    unfold otpByte
    simp only [Nat.zero_le, true_and]
    rw [show c.B + 16 + k * (16 + c.P) - c.B + j = 16 + k * (16 + c.P) + j by omega, Int.toNat_natCast]
  · intro hno
    have hn := otpNum_eq c hc otp junk
    rw [hn]
    dsimp only
    generalize hN : (if (List.range 8).map otp = otpMagic ∧ 16 + le16 otp 8 * (16 + c.P) ≤ c.S then le16 otp 8 else 0) = N
    by_cases hlt : (N : Int) ≤ id
    · rw [if_pos hlt]
    · rw [if_neg hlt]
      have hneg : id < 0 := by
        refine Int.not_le.1 fun h0 => ?_
        apply hno
        split at hN
        · next hh => exact ⟨le16 otp 8, ⟨hh.1, rfl, hh.2⟩, h0, by omega⟩
        · omega
      have hmul : id * (c.slot : Nat) ≤ -(c.slot : Int) := by
        have : id ≤ -1 := by omega
        have := Int.mul_le_mul_of_nonneg_right this (show (0 : Int) ≤ (c.slot : Nat) by omega)
        omega
      have hslot : (c.slot : Int) = 16 + c.P := by unfold OtpCfg.slot; norm_cast
      unfold otpSlotAddr
      rw [if_pos]
      · dsimp only
        unfold otpRead
        rw [if_pos]
        intro ⟨h1, h2⟩
        unfold IntRange at hid
        generalize hx : id * (c.slot : Nat) = x at *
        omega
      · refine ⟨hid, ?_⟩
        unfold IntRange at hid ⊢
        generalize hx : id * (c.slot : Nat) = x at *
        omega

/-- **Accessors**: for all contents of the area and all slot numbers (without a signed overflow in the address), a slot that is present
gives exactly its key bytes and fields, every other number is rejected, and nothing outside of the area is read (no `bad`). Key sizes are even
(all but Ed448). -/
theorem otp_accessors_partial (c : OtpCfg) (hc : c.WF) (hP : c.P % 2 = 0) (otp junk cache : Mem) (id : Int) (hid : IntRange (id * c.slot)) :
    (OtpHas c otp id →
      (∃ m, otpBuffer c otp junk cache id = .ok m ∧ ∀ j, j < c.P → m j = otpByte c otp id.toNat (16 + j)) ∧
      ∀ off, off + 4 ≤ 16 → otpField c off otp junk cache id = .ok (le32 (otpByte c otp id.toNat) off)) ∧
    (¬ OtpHas c otp id → otpBuffer c otp junk cache id = .fail ∧ ∀ off, otpField c off otp junk cache id = .fail) := by
  obtain ⟨h1, h2⟩ := otpFetch_spec c hc hP otp junk cache id hid
  unfold otpBuffer otpField
  constructor
  · intro h
    rw [h1 h]
    refine ⟨⟨_, rfl, fun j hj => ?_⟩, fun off hoff => ?_⟩
    · dsimp only
      rw [if_pos (by omega)]
    · dsimp only
      congr 1
      apply le32_congr
      intro i hi hi2
      dsimp only
      rw [if_pos (by omega)]
  · intro h
    rw [h2 h]
    exact ⟨rfl, fun _ => rfl⟩

/-- The pointer returned for one slot shows another slot's key after an access to that one: the cache is shared. -/
theorem otp_cache_shared (c : OtpCfg) (hc : c.WF) (hP : c.P % 2 = 0) (otp junk cache m : Mem) (id : Int) (hid : IntRange (id * c.slot))
    (h : otpFetch c otp junk cache id = .ok m) : ∀ j, j < 16 + c.P → m j = otpByte c otp id.toNat j := by
  obtain ⟨h1, h2⟩ := otpFetch_spec c hc hP otp junk cache id hid
  by_cases hh : OtpHas c otp id
  · rw [h1 hh] at h
    cases h
    intro j hj
    dsimp only
    rw [if_pos hj]
  · rw [h2 hh] at h
    cases h

/-- The buffer obtained for a slot still shows the key of this slot after any number of further accesses to the *same* slot
(`key_hash` asks for the buffer and then for the size, `/repo/src/image.c:373-374`). -/
theorem otp_same_slot (c : OtpCfg) (hc : c.WF) (hP : c.P % 2 = 0) (otp junk cache m m' : Mem) (id : Int) (hid : IntRange (id * c.slot))
    (h : otpFetch c otp junk cache id = .ok m) (h' : otpFetch c otp junk m id = .ok m') : ∀ j, j < 16 + c.P → m' j = m j := by
  intro j hj
  rw [otp_cache_shared c hc hP otp junk cache m id hid h j hj, otp_cache_shared c hc hP otp junk m m' id hid h' j hj]

/-! ## Findings -/

theorem otpCopy_over (c : OtpCfg) (otp : Mem) (L addr : Nat) (hB : c.B ≤ addr) (hin : addr + L + 1 ≤ c.B + c.S) (ho : L % 2 = 1) :
    ∀ k i buf, k = L - i → i ≤ L → i % 2 = 0 → otpCopy c otp L addr L i buf = .bad := by
  intro k
  induction k using Nat.strongRecOn with
  | ind k ih =>
    intro i buf hk hi hi2
    rw [otpCopy]
    rw [dif_pos ⟨by omega, by omega⟩, if_neg (by omega)]
    by_cases h : L < i + 2
    · rw [if_pos h]
    · rw [if_neg h]
      exact ih (L - (i + 2)) (by omega) _ _ rfl (by omega) (by omega)

/-- **Finding**: with an odd key size (Ed448: 57 bytes) the 16-bit copy loop writes one byte past `otp_slot_item_cache`, for every slot that
is present (but for a last slot that ends at the very end of the area). -/
theorem otp_odd_overflow (c : OtpCfg) (hc : c.WF) (hP : c.P % 2 = 1) (otp junk cache : Mem) (n k : Nat) (hn : OtpHolds c otp n) (hk : k < n)
    (hroom : 16 + (k + 1) * (16 + c.P) < c.S) : otpBuffer c otp junk cache k = .bad := by
  have hrange := hc.range
  unfold otpBuffer otpFetch
  rw [(otp_num c hc otp junk).1 n hn]
  dsimp only
  rw [if_neg (by omega)]
  rw [Nat.add_mul, Nat.one_mul] at hroom
  have hcast : (k : Int) * (c.slot : Nat) = ((k * (16 + c.P) : Nat) : Int) := by
    unfold OtpCfg.slot
    norm_cast
  have haddr : otpSlotAddr c k = some (c.B + 16 + k * (16 + c.P)) := by
    unfold otpSlotAddr
    rw [if_pos]
    · rw [hcast]
      congr 1
      have : (c.B + 16 + ((k * (16 + c.P) : Nat) : Int)) % 2 ^ 32 = c.B + 16 + ((k * (16 + c.P) : Nat) : Int) := by
        apply Int.emod_eq_of_lt
        · omega
        · omega
      rw [this]
      omega
    · rw [hcast]
      unfold IntRange
      omega
  rw [haddr]
  dsimp only
  unfold otpRead OtpCfg.slot
  rw [if_neg (by omega), otpCopy_over c otp (16 + c.P) _ (by omega) (by omega) (by omega) (16 + c.P) 0 cache rfl (by omega) (by omega)]

/-- **Finding**: the size returned by `keystore_get_size` is whatever the slot says; it may exceed the size of the key buffer, of which
`key_hash` then reads that many bytes (`/repo/src/image.c:373-380`). -/
theorem otp_size_unchecked (c : OtpCfg) (hc : c.WF) (hP : c.P % 2 = 0) (v : Nat) (hv : v < 2 ^ 31) :
    ∃ otp, OtpHas c otp 0 ∧ ∀ junk cache, otpField c 12 otp junk cache 0 = .ok v := by
  have hone := hc.one
  unfold OtpCfg.slot at hone
  let otp : Mem := fun i => if i < 8 then otpMagic.getD i 0 else if i = 8 then 1 else if i = 9 then 0 else
    if i = 28 then BitVec.ofNat 8 v else if i = 29 then BitVec.ofNat 8 (v / 256) else if i = 30 then BitVec.ofNat 8 (v / 65536)
    else if i = 31 then BitVec.ofNat 8 (v / 16777216) else 0
  have hh : OtpHolds c otp 1 := by
    refine ⟨?_, ?_, by omega⟩
    · simp [otp, otpMagic, List.range, List.range.loop]
    · simp [otp, le16]
  have hhas : OtpHas c otp 0 := ⟨1, hh, by omega, by omega⟩
  refine ⟨otp, hhas, fun junk cache => ?_⟩
  rw [((otp_accessors_partial c hc hP otp junk cache 0 (by simp [IntRange])).1 hhas).2 12 (by omega)]
  congr 1
  simp [le32, otpByte, otp]
  omega

/-- **Finding**: a slot number so negative that the address overflows is not rejected before the computation. -/
theorem otp_negative_overflow (c : OtpCfg) (hc : c.WF) (otp junk cache : Mem) : otpBuffer c otp junk cache (-2 ^ 31) = .bad := by
  unfold otpBuffer otpFetch
  rw [otpNum_eq c hc]
  dsimp only
  rw [if_neg (by split <;> omega)]
  have : otpSlotAddr c (-2 ^ 31) = none := by
    unfold otpSlotAddr
    rw [if_neg]
    rintro ⟨h, _⟩
    have : (c.slot : Int) = 16 + c.P := by unfold OtpCfg.slot; norm_cast
    unfold IntRange at h
    rw [this] at h
    omega
  rw [this]

/-! ## Examples -/

namespace OtpDemo

/-- STM32H7 with ECC256 keys. -/
def cfg : OtpCfg := ⟨0x08FFF000, 1024, 64⟩

/-- Two keys; every key byte is the slot number plus 1. -/
def otp : Mem := fun i =>
  if i < 8 then otpMagic.getD i 0 else if i = 8 then 2 else if i = 9 then 0 else
  if i < 16 then 0 else BitVec.ofNat 8 ((i - 16) / 80 + 1)

theorem cfg_wf : cfg.WF := ⟨by decide, by decide, by decide, by decide⟩

theorem holds : OtpHolds cfg otp 2 := ⟨by decide, by decide, by decide⟩

example : otpNum cfg otp (fun _ => 0) = .ok 2 := (otp_num cfg cfg_wf otp _).1 2 holds

example : ∃ m, otpBuffer cfg otp (fun _ => 0) (fun _ => 0) 1 = .ok m ∧ m 0 = 2 := by
  obtain ⟨⟨m, h1, h2⟩, _⟩ := (otp_accessors_partial cfg cfg_wf (by decide) otp (fun _ => 0) (fun _ => 0) 1 (by decide)).1
    ⟨2, holds, by decide, by decide⟩
  exact ⟨m, h1, by rw [h2 0 (by decide)]; decide⟩

example : otpBuffer cfg otp (fun _ => 0) (fun _ => 0) 2 = .fail ∧ otpBuffer cfg otp (fun _ => 0) (fun _ => 0) (-1) = .fail := by
  constructor
  · refine ((otp_accessors_partial cfg cfg_wf (by decide) otp (fun _ => 0) (fun _ => 0) 2 (by decide)).2 ?_).1
    rintro ⟨n, ⟨_, h, _⟩, _, h2⟩
    rw [holds.2.1] at h
    omega
  · refine ((otp_accessors_partial cfg cfg_wf (by decide) otp (fun _ => 0) (fun _ => 0) (-1) (by decide)).2 ?_).1
    rintro ⟨n, _, h, _⟩
    omega

/-- Ed448 on the STM32H7: the hypotheses of `otp_odd_overflow`. -/
example : (⟨0x08FFF000, 1024, 57⟩ : OtpCfg).WF ∧ OtpHolds ⟨0x08FFF000, 1024, 57⟩ otp 2 :=
  ⟨⟨by decide, by decide, by decide, by decide⟩, by decide, by decide, by decide⟩

end OtpDemo

end Verif
