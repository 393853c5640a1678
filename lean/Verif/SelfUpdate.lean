import Verif.ImageThms

/-!
# Update of the bootloader itself: `/repo/src/update_flash.c:66-133` (C39)

Build: `RAM_CODE`. The internal flash is a memory whose offset 0 is `ARCH_FLASH_OFFSET`; the bootloader area is `[0, L)` with
`L = WOLFBOOT_PARTITION_BOOT_ADDRESS - ARCH_FLASH_OFFSET`, and `_start_text` is at offset `tx`. The UPDATE partition is a memory of its own (it is not
touched by the writes below as long as these stay in front of it).
-/

namespace Verif

/-- Flash operations on the internal flash. -/
inductive BlOp where
  | erase (off len : Nat)
  | write (off len : Nat) (d : Nat → Byte)

/-- Bytes that an operation touches. -/
def BlOp.range : BlOp → Nat × Nat
  | .erase off len => (off, len)
  | .write off len _ => (off, len)

/-- Effect of an operation; writing can only clear bits. -/
def BlOp.apply (m : Mem) : BlOp → Mem
  | .erase off len => fun i => if off ≤ i ∧ i < off + len then 0xFF#8 else m i
  | .write off len d => fun i => if off ≤ i ∧ i < off + len then m i &&& d (i - off) else m i

/-- The copy loop of `wolfBoot_self_update`, `/repo/src/update_flash.c:83-103` (the loop for external flash does the same through a buffer). -/
def selfChunks (c : Cfg) (tx : Nat) (u : Mem) (fw : Nat) : Nat → Nat → List BlOp
  | 0, _ => []
  | fuel + 1, pos =>
    if pos < fw then
      (if c.h + pos < fw + c.h + c.fb then [.write (pos + tx) c.fb fun i => u (c.h + pos + i)] else []) ++
        selfChunks c tx u fw fuel (pos + c.fb)
    else []

/-- `wolfBoot_self_update` with `wolfBoot_erase_bootloader`, `/repo/src/update_flash.c:66-108`. -/
def selfOps (c : Cfg) (L tx : Nat) (u : Mem) : List BlOp :=
  .erase 0 L :: selfChunks c tx u (fwSize c u) (fwSize c u) 0

/-- What `wolfBoot_check_self_update` does. -/
inductive SelfAct where
  | nothing
  | eraseUpdate
  | update (ops : List BlOp)

/-- `wolfBoot_check_self_update`, `/repo/src/update_flash.c:110-133`; `running` is `wolfboot_version`. -/
def checkSelf (c : Cfg) (e : Env) (L tx running : Nat) (f : Flash) : SelfAct :=
  if getState c f .update = some ST_UPDATING ∧ openOK c (f .update) ∧ e.typ (f .update) = 256 * e.authType then
    if e.ver (f .update) ≤ running then .eraseUpdate
    else if e.integ (f .update) = false then .nothing
    else if e.auth (f .update) = false then .nothing
    else .update (selfOps c L tx (f .update))
  else .nothing

/-- The internal flash after the first `k` operations; the operation after these may be torn. -/
def BlReach (m : Mem) (ops : List BlOp) (m' : Mem) : Prop :=
  ∃ k, ∀ i, m' i = ((ops.take k).foldl BlOp.apply m) i ∨
    ∃ o ∈ ops[k]?, o.range.1 ≤ i ∧ i < o.range.1 + o.range.2

/-- The internal flash at any point of the execution. -/
def SelfReach (c : Cfg) (e : Env) (L tx running : Nat) (f : Flash) (m m' : Mem) : Prop :=
  match checkSelf c e L tx running f with
  | .update ops => BlReach m ops m'
  | _ => m' = m

/-- Specification: the conditions under which the bootloader may be overwritten. -/
def SelfAllowed (c : Cfg) (e : Env) (running : Nat) (f : Flash) : Prop :=
  getState c f .update = some ST_UPDATING ∧
  le32 (f .update) 0 = MAGIC ∧ le32 (f .update) 4 ≤ c.part - c.h ∧
  e.typ (f .update) = 256 * e.authType ∧
  running < e.ver (f .update) ∧
  e.integ (f .update) = true ∧ e.auth (f .update) = true

/-- **Gate**: for all contents of the UPDATE partition, if any byte of the internal flash differs from before at any point of the execution, then
an update was triggered, is of bootloader type, strictly newer than the running bootloader, intact and authentic. -/
theorem self_update_gate (c : Cfg) (e : Env) (L tx running : Nat) (f : Flash) (m m' : Mem)
    (h : SelfReach c e L tx running f m m') (hne : m' ≠ m) : SelfAllowed c e running f := by
  unfold SelfReach checkSelf at h
  by_cases h1 : getState c f .update = some ST_UPDATING ∧ openOK c (f .update) ∧ e.typ (f .update) = 256 * e.authType
  · rw [if_pos h1] at h
    by_cases h2 : e.ver (f .update) ≤ running
    · rw [if_pos h2] at h; exact absurd h hne
    · rw [if_neg h2] at h
      by_cases h3 : e.integ (f .update) = false
      · rw [if_pos h3] at h; exact absurd h hne
      · rw [if_neg h3] at h
        by_cases h4 : e.auth (f .update) = false
        · rw [if_pos h4] at h; exact absurd h hne
        · exact ⟨h1.1, h1.2.1.1, h1.2.1.2, h1.2.2, by omega, by simpa using h3, by simpa using h4⟩
  · rw [if_neg h1] at h; exact absurd h hne

/-- The gate for the real image format: the digest of header and firmware is right and signed by an authorised key. -/
theorem self_update_gate_image {k : ImgCfg} {c : Cfg} (wi : ImgWF k c) (junk : Byte) (L tx running : Nat) (f : Flash) (m m' : Mem)
    (h : SelfReach c (imgEnv k c junk) L tx running f m m') (hne : m' ≠ m) :
    running < blobVersion k.H (f .update) ∧ blobType k.H (f .update) = 256 * k.authType ∧
    ∃ off, DigestOK k (f .update) (le32 (f .update) 4) off ∧
      AuthenticFor k (f .update) (k.hash (signedMsg k.H (f .update) off (le32 (f .update) 4))) := by
  obtain ⟨_, h1, h2, h3, h4, _, h5⟩ := self_update_gate c _ L tx running f m m' h hne
  refine ⟨h4, h3, ?_⟩
  have hfw : fwSize c (f .update) = le32 (f .update) 4 := by
    unfold fwSize
    rw [if_neg (by simpa using h1), if_neg (by omega)]
  have hv : verifyImage k (f .update) (fwSize c (f .update)) [] = .ok := by
    simpa [imgEnv] using h5
  rw [hfw] at hv
  have := wi.noWrap
  exact verified_sound k _ _ [] wi.blk (by omega) hv

/-- …and it is performed exactly under these conditions. -/
theorem self_update_iff (c : Cfg) (e : Env) (L tx running : Nat) (f : Flash) :
    (∃ ops, checkSelf c e L tx running f = .update ops) ↔ SelfAllowed c e running f := by
  unfold checkSelf SelfAllowed openOK
  constructor
  · rintro ⟨ops, h⟩
    split at h
    · next h1 =>
      split at h
      · cases h
      · split at h
        · cases h
        · split at h
          · cases h
          · next h2 h3 h4 => exact ⟨h1.1, h1.2.1.1, h1.2.1.2, h1.2.2, by omega, by simpa using h3, by simpa using h4⟩
    · cases h
  · rintro ⟨h1, h2, h3, h4, h5, h6, h7⟩
    refine ⟨selfOps c L tx (f .update), ?_⟩
    · rw [if_pos ⟨h1, ⟨h2, h3⟩, h4⟩, if_neg (by omega), if_neg (by simp [h6]), if_neg (by simp [h7])]

/-! ## What is written -/

/-- Size of the firmware, rounded up to the write unit. -/
def roundUp (fb n : Nat) : Nat := (n + fb - 1) / fb * fb

theorem selfChunks_apply (c : Cfg) (hfb : 0 < c.fb) (tx : Nat) (u : Mem) (fw : Nat) : ∀ fuel j (m : Mem), fw ≤ j * c.fb + fuel * c.fb →
    (∀ i, tx + j * c.fb ≤ i → i < tx + roundUp c.fb fw → m i = 0xFF#8) →
    ∀ i, ((selfChunks c tx u fw fuel (j * c.fb)).foldl BlOp.apply m) i =
      if tx + j * c.fb ≤ i ∧ i < tx + roundUp c.fb fw then u (c.h + (i - tx)) else m i := by
  intro fuel
  induction fuel with
  | zero =>
    intro j m hf _ i
    have : roundUp c.fb fw ≤ j * c.fb := by
      unfold roundUp
      apply Nat.mul_le_mul_right
      rw [Nat.div_le_iff_le_mul hfb]
      have : c.fb * j = j * c.fb := Nat.mul_comm ..
      omega
    unfold selfChunks
    rw [if_neg (by omega)]
    rfl
  | succ fuel ih =>
    intro j m hf hm i
    unfold selfChunks
    by_cases h : j * c.fb < fw
    · rw [if_pos h, if_pos (by omega), List.singleton_append, List.foldl_cons]
      have hru : (j + 1) * c.fb ≤ roundUp c.fb fw := by
        unfold roundUp
        apply Nat.mul_le_mul_right
        rw [Nat.le_div_iff_mul_le hfb, Nat.add_mul]
        omega
      rw [Nat.add_mul, Nat.one_mul] at hru
      have hstep : j * c.fb + c.fb = (j + 1) * c.fb := by rw [Nat.add_mul, Nat.one_mul]
      have hf' : fw ≤ (j + 1) * c.fb + fuel * c.fb := by
        rw [Nat.add_mul, Nat.one_mul]
        rw [Nat.add_mul, Nat.one_mul] at hf
        omega
      rw [hstep, ih (j + 1) _ hf']
      · rw [← hstep]
        simp only [BlOp.apply]
        by_cases h1 : tx + (j * c.fb + c.fb) ≤ i ∧ i < tx + roundUp c.fb fw
        · rw [if_pos h1, if_pos (by omega)]
        · rw [if_neg h1]
          by_cases h2 : j * c.fb + tx ≤ i ∧ i < j * c.fb + tx + c.fb
          · rw [if_pos h2, if_pos (by omega), hm i (by omega) (by omega)]
            rw [show c.h + j * c.fb + (i - (j * c.fb + tx)) = c.h + (i - tx) by omega]
            exact BitVec.allOnes_and
          · rw [if_neg h2, if_neg (by omega)]
      · intro i h1 h2
        rw [← hstep] at h1
        simp only [BlOp.apply]
        rw [if_neg (by omega)]
        exact hm i (by omega) h2
    · rw [if_neg h]
      have : roundUp c.fb fw ≤ j * c.fb := by
        unfold roundUp
        apply Nat.mul_le_mul_right
        rw [Nat.div_le_iff_le_mul hfb]
        have : c.fb * j = j * c.fb := Nat.mul_comm ..
        omega
      rw [if_neg (by omega)]
      rfl

/-- **Complete self-update**: if the new bootloader, rounded up to the write unit, fits in the bootloader area, then afterwards its firmware bytes
are at the bootloader start, nothing outside of the bootloader area has changed, and the rest of the area is erased, except for the bytes that fill the last
write unit, which are those that follow the firmware in the UPDATE partition. -/
theorem self_update_writes_partial (c : Cfg) (hfb : 0 < c.fb) (L tx : Nat) (u m : Mem) (hfit : tx + roundUp c.fb (fwSize c u) ≤ L) :
    let m' := (selfOps c L tx u).foldl BlOp.apply m
    (∀ i, i < fwSize c u → m' (tx + i) = u (c.h + i)) ∧ (∀ i, L ≤ i → m' i = m i) ∧
    (∀ i, i < L → (i < tx ∨ tx + roundUp c.fb (fwSize c u) ≤ i) → m' i = 0xFF#8) := by
  intro m'
  have hle : fwSize c u ≤ roundUp c.fb (fwSize c u) := by
    unfold roundUp
    have h1 := Nat.div_add_mod (fwSize c u + c.fb - 1) c.fb
    have h2 := Nat.mod_lt (fwSize c u + c.fb - 1) hfb
    have h3 : c.fb * ((fwSize c u + c.fb - 1) / c.fb) = (fwSize c u + c.fb - 1) / c.fb * c.fb := Nat.mul_comm ..
    omega
  have hm' : ∀ i, m' i = if tx ≤ i ∧ i < tx + roundUp c.fb (fwSize c u) then u (c.h + (i - tx)) else (if i < L then 0xFF#8 else m i) := by
    intro i
    have := selfChunks_apply c hfb tx u (fwSize c u) (fwSize c u) 0 (BlOp.apply m (.erase 0 L)) (by
      have := Nat.mul_le_mul_left (fwSize c u) hfb
      omega) (by
      intro i _ h2
      simp only [BlOp.apply]
      rw [if_pos (by omega)]) i
    rw [Nat.zero_mul, Nat.add_zero] at this
    simp only [m', selfOps, List.foldl_cons]
    rw [this]
    simp only [BlOp.apply, Nat.zero_le, true_and, Nat.zero_add]
  refine ⟨fun i hi => ?_, fun i hi => ?_, fun i hi h => ?_⟩
  · rw [hm', if_pos (by omega), Nat.add_sub_cancel_left]
  · rw [hm', if_neg (by omega), if_neg (by omega)]
  · rw [hm', if_neg (by omega), if_pos hi]

theorem selfChunks_range (c : Cfg) (tx : Nat) (u : Mem) (fw : Nat) : ∀ fuel pos, ∀ o ∈ selfChunks c tx u fw fuel pos,
    tx + pos ≤ o.range.1 ∧ o.range.1 + o.range.2 < tx + fw + c.fb := by
  intro fuel
  induction fuel with
  | zero => intro pos o h; simp [selfChunks] at h
  | succ fuel ih =>
    intro pos o h
    unfold selfChunks at h
    split at h
    · next hp =>
      rw [List.mem_append] at h
      rcases h with h | h
      · rw [if_pos (by omega), List.mem_singleton] at h
        subst h
        simp only [BlOp.range]
        omega
      · have := ih _ o h
        omega
    · simp at h

theorem foldl_apply_outside (i : Nat) : ∀ (ops : List BlOp) (m : Mem), (∀ o ∈ ops, ¬ (o.range.1 ≤ i ∧ i < o.range.1 + o.range.2)) →
    (ops.foldl BlOp.apply m) i = m i := by
  intro ops
  induction ops with
  | nil => intro m _; rfl
  | cons o ops ih =>
    intro m h
    rw [List.foldl_cons, ih _ fun o' ho' => h o' (by simp [ho'])]
    have := h o (by simp)
    cases o with
    | erase a b => simp only [BlOp.apply, BlOp.range] at *; rw [if_neg this]
    | write a b d => simp only [BlOp.apply, BlOp.range] at *; rw [if_neg this]

/-- **Confinement**: at no point of the execution, even with power loss, a byte outside of the bootloader area and of
`[_start_text, _start_text + fw_size + FLASHBUFFER_SIZE - 1)` changes. -/
theorem self_update_confined (c : Cfg) (e : Env) (L tx running : Nat) (f : Flash) (m m' : Mem)
    (h : SelfReach c e L tx running f m m') : ∀ i, L ≤ i → tx + fwSize c (f .update) + c.fb ≤ i + 1 → m' i = m i := by
  intro i hL hi
  unfold SelfReach at h
  have hops : ∀ o ∈ selfOps c L tx (f .update), ¬ (o.range.1 ≤ i ∧ i < o.range.1 + o.range.2) := by
    intro o ho
    unfold selfOps at ho
    rcases List.mem_cons.1 ho with rfl | ho
    · simp only [BlOp.range]
      omega
    · have := selfChunks_range c tx (f .update) _ _ _ o ho
      omega
  cases hc : checkSelf c e L tx running f with
  | nothing => rw [hc] at h; rw [h]
  | eraseUpdate => rw [hc] at h; rw [h]
  | update ops =>
    have hops' : ops = selfOps c L tx (f .update) := by
      unfold checkSelf at hc
      split at hc
      · split at hc
        · cases hc
        · split at hc
          · cases hc
          · split at hc
            · cases hc
            · injection hc with hc; exact hc.symm
      · cases hc
    rw [hc] at h
    obtain ⟨k, hk⟩ := h
    subst hops'
    rcases hk i with h1 | ⟨o, ho, hr⟩
    · rw [h1, foldl_apply_outside i _ _ fun o ho => hops o (List.mem_of_mem_take ho)]
    · exact absurd hr (hops o (List.mem_of_getElem? (by simpa using ho)))

/-! ## Findings -/

/-- **Finding**: the size of the new bootloader is compared with the size of the UPDATE partition only. If it exceeds the bootloader area, the first
bytes of the BOOT partition are overwritten (and not even erased before: the result is the bitwise AND of the two). Here for a firmware that is larger
than the area, which is a multiple of the write unit. -/
theorem self_update_overruns (c : Cfg) (hfb : 0 < c.fb) (n : Nat) (u m : Mem) (hbig : n * c.fb < fwSize c u) (hone : fwSize c u ≤ n * c.fb + c.fb) :
    ((selfOps c (n * c.fb) 0 u).foldl BlOp.apply m) (n * c.fb) = m (n * c.fb) &&& u (c.h + n * c.fb) := by
  -- the chunks up to `n` do not touch this byte, chunk `n` does
  have key : ∀ fuel j (m : Mem), j ≤ n → n < j + fuel →
      ((selfChunks c 0 u (fwSize c u) fuel (j * c.fb)).foldl BlOp.apply m) (n * c.fb) = m (n * c.fb) &&& u (c.h + n * c.fb) := by
    intro fuel
    induction fuel with
    | zero => intro j m h1 h2; omega
    | succ fuel ih =>
      intro j m hj hn
      have hjn : j * c.fb ≤ n * c.fb := Nat.mul_le_mul_right _ hj
      have hstep : j * c.fb + c.fb = (j + 1) * c.fb := by rw [Nat.add_mul, Nat.one_mul]
      unfold selfChunks
      rw [if_pos (by omega), if_pos (by omega), List.singleton_append, List.foldl_cons, hstep]
      by_cases he : j = n
      · subst he
        rw [foldl_apply_outside]
        · simp only [BlOp.apply]
          rw [if_pos (by omega)]
          simp
        · intro o ho
          have := selfChunks_range c 0 u _ _ _ o ho
          omega
      · rw [ih (j + 1) _ (by omega) (by omega)]
        have hlt : (j + 1) * c.fb ≤ n * c.fb := Nat.mul_le_mul_right _ (by omega)
        simp only [BlOp.apply]
        rw [if_neg (by omega)]
  unfold selfOps
  rw [List.foldl_cons]
  have hn : n < fwSize c u := by
    have := Nat.mul_le_mul_left n hfb
    omega
  have := key (fwSize c u) 0 (BlOp.apply m (.erase 0 (n * c.fb))) (by omega) (by omega)
  rw [Nat.zero_mul] at this
  rw [this]
  simp only [BlOp.apply]
  rw [if_neg (by omega)]

/-- **Finding**: power loss after the erase leaves no bootloader at all: whatever was in the area, it may be all `0xFF`. -/
theorem self_update_power_loss (c : Cfg) (e : Env) (L tx running : Nat) (f : Flash) (m : Mem) (ha : SelfAllowed c e running f) :
    ∃ m', SelfReach c e L tx running f m m' ∧ ∀ i, i < L → m' i = 0xFF#8 := by
  obtain ⟨ops, ho⟩ := (self_update_iff c e L tx running f).2 ha
  have hops' : ops = selfOps c L tx (f .update) := by
    unfold checkSelf at ho
    split at ho
    · split at ho
      · cases ho
      · split at ho
        · cases ho
        · split at ho
          · cases ho
          · injection ho with ho; exact ho.symm
    · cases ho
  refine ⟨BlOp.apply m (.erase 0 L), ?_, fun i hi => ?_⟩
  · unfold SelfReach
    rw [ho, hops']
    exact ⟨1, fun i => .inl rfl⟩
  · simp only [BlOp.apply]
    rw [if_pos (by omega)]

/-- An older or equal version erases the UPDATE partition before any check of integrity or signature. -/
theorem self_update_erases_unverified (c : Cfg) (e : Env) (L tx running : Nat) (f : Flash)
    (h : getState c f .update = some ST_UPDATING ∧ openOK c (f .update) ∧ e.typ (f .update) = 256 * e.authType)
    (hv : e.ver (f .update) ≤ running) : checkSelf c e L tx running f = .eraseUpdate := by
  unfold checkSelf
  rw [if_pos h, if_pos hv]

/-! ## Example -/

namespace SelfDemo

open ImgDemo

/-- Header of a bootloader image (type 0) in version 1. -/
def pre0 : List Byte :=
  [0x57#8, 0x4F#8, 0x4C#8, 0x46#8, 7#8, 0#8, 0#8, 0#8, 1#8, 0#8, 4#8, 0#8, 1#8, 0#8, 0#8, 0#8,
   4#8, 0#8, 2#8, 0#8, 0#8, 3#8, 0x10#8, 0#8, 5#8, 0#8] ++ sizeHash k1.pub ++ [0xFF#8]

def img0 : Mem :=
  let h := pre0 ++ [3#8, 0#8, 5#8, 0#8] ++ sizeHash (pre0 ++ fwB) ++ [0xFF#8, 0x20#8, 0#8, 1#8, 0#8, 9#8]
  ofList (h ++ List.replicate (56 - h.length) 0xFF#8 ++ fwB)

/-- UPDATE holds the image and a trailer in state "updating". -/
def fl : Flash
  | .update => fun i => if i = 187 then ST_UPDATING else if 188 ≤ i ∧ i < 192 then [0x42#8, 0x4F#8, 0x4F#8, 0x54#8].getD (i - 188) 0 else img0 i
  | _ => fun _ => 0xFF#8

/-- The key of the demonstration may sign bootloaders as well. -/
def cfgB : ImgCfg := { cfgC with keys := [{ k1 with mask := 3#32 }] }

end SelfDemo

open ImgDemo SelfDemo in
/-- A triggered, newer, signed bootloader: allowed; the same when version 1 is running: not. -/
example : SelfAllowed geo (imgEnv cfgB geo 0#8) 0 fl ∧ ¬ SelfAllowed geo (imgEnv cfgB geo 0#8) 1 fl ∧
    0 + roundUp geo.fb (fwSize geo (fl .update)) ≤ 64 := by
  refine ⟨⟨by decide +kernel, by decide +kernel, by decide +kernel, by decide +kernel, by decide +kernel, by decide +kernel, by decide +kernel⟩,
    fun h => ?_, by decide +kernel⟩
  have h1 : blobVersion 56 (fl .update) = 1 := by decide +kernel
  have h2 := h.2.2.2.2.1
  change 1 < blobVersion 56 (fl .update) at h2
  omega

end Verif
