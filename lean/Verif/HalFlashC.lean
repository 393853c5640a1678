import Verif.HalFlashB

/-!
# Internal flash drivers, continued: pages and rows with read-modify-write

STM32H7, STM32F1, LPC546xx, HiFive1, PSoC 6, TMS570 and RX, and the bulk path of MCXW.
-/

namespace Verif

/-! ## STM32H7 -/

/-- The loop of `/repo/hal/stm32h7.c:87-159` outside the flags pages: 32-byte words; the position
of the word is computed from `address + i`, so that every round is complete. -/
def h7Loop (f : Mem) (addr : Nat) (d : HBuf) (i : Nat) : HwRes :=
  if i < d.len then
    if d.len - i > 32 ∧ (addr + i) % 32 = 0 ∧ (d.addr + i) % 32 = 0 then
      match (⟨32, true⟩ : HDev).store f (addr + i) (fun k => d.b (i + k)) with
      | .ok m => h7Loop m addr d (i + 32)
      | r => r
    else
      let off := (addr + i) % 32
      let p := addr + i - off
      let n := min (32 - off) (d.len - i)
      match (⟨32, true⟩ : HDev).store f p
        (fun k => if off ≤ k ∧ k < off + n then d.b (i + (k - off)) else f (p + k)) with
      | .ok m => h7Loop m addr d (i + n)
      | r => r
  else .ok f
termination_by d.len - i

theorem h7Loop_ok (f : Mem) (addr : Nat) (d : HBuf) (hfr : Fresh ⟨32, true⟩ f addr d.len) :
    ∀ n i, d.len - i = n → i ≤ d.len → (i = 0 ∨ i = d.len ∨ (addr + i) % 32 = 0) →
    h7Loop (written f addr d i) addr d i = .ok (written f addr d d.len) := by
  intro n
  induction n using Nat.strongRecOn with
  | _ n ih =>
    intro i hn hi hst
    rw [h7Loop]
    by_cases hlt : i < d.len
    · rw [if_pos hlt]
      by_cases hf : d.len - i > 32 ∧ (addr + i) % 32 = 0 ∧ (d.addr + i) % 32 = 0
      · rw [if_pos hf]
        rw [unit_step (j := i + 32) (by simp; omega) (Nat.le_refl _) (by simp; omega) (by omega)
          (Or.inr (Nat.le_refl _))
          (fun he x hx1 hx2 => hfr he x (by simp only at hx2 ⊢; omega)
            (by simp only at hx2 ⊢; omega)) (by
            intro k hk
            simp only at hk
            rw [if_pos (by omega)]
            congr 1; omega)]
        exact ih (d.len - (i + 32)) (by omega) (i + 32) rfl (by omega) (by omega)
      · rw [if_neg hf]
        dsimp only
        rw [unit_step (j := i + min (32 - (addr + i) % 32) (d.len - i)) (by simp; omega) (by omega)
          (by simp only; omega) (by omega) (by omega)
          (fun he x hx1 hx2 => hfr he x (by simp only at hx2 ⊢; omega)
            (by simp only at hx2 ⊢; omega)) (by
            intro k hk
            simp only at hk
            by_cases hko : (addr + i) % 32 ≤ k ∧
                k < (addr + i) % 32 + min (32 - (addr + i) % 32) (d.len - i)
            · rw [if_pos hko, if_pos (by omega)]
              congr 1; omega
            · rw [if_neg hko, if_neg (by omega)])]
        exact ih (d.len - (i + min (32 - (addr + i) % 32) (d.len - i))) (by omega) _ rfl (by omega)
          (by omega)
    · rw [if_neg hlt, show i = d.len by omega]

/-- **STM32H7, outside the flags pages**: every request on erased words is carried out exactly. -/
theorem h7_write_exact (f : Mem) (addr : Nat) (d : HBuf)
    (hfr : Fresh ⟨32, true⟩ f addr d.len) : h7Loop f addr d 0 = .ok (written f addr d d.len) := by
  have := h7Loop_ok f addr d hfr d.len 0 (by omega) (by omega) (Or.inl rfl)
  rwa [written_zero] at this

/-- One round of `/repo/hal/stm32h7.c:117-152` in a flags page `[page, stop)` of `ss` bytes
(`STM32H7_BOOT_FLAGS_PAGE`, `/repo/hal/stm32h7.h:301-311`): only the last 32-byte word can be
written; the whole page is erased and the word is programmed with the bytes replaced. Requests
longer than the word are not modelled. -/
def h7Flags (page stop : Nat) (f : Mem) (addr : Nat) (d : HBuf) : HwRes :=
  let off := addr % 32
  let p := addr - off
  if p + 32 ≠ stop then .error
  else
    let g : Mem := fun x => if page ≤ x ∧ x < stop then 0xFF#8 else f x
    (⟨32, true⟩ : HDev).store g p
      (fun k => if off ≤ k ∧ k < off + min (32 - off) d.len then d.b (k - off) else f (p + k))

/-- **STM32H7, flags pages**: a request inside the last word of the page replaces the bytes (bits
can also be set), keeps the rest of the word and erases the rest of the page. -/
theorem h7_flags_write (page stop : Nat) (f : Mem) (addr : Nat) (d : HBuf) (hs : stop % 32 = 0)
    (hp : page + 32 ≤ stop) (h1 : stop ≤ addr + 32) (h2 : addr + d.len ≤ stop) (h0 : 0 < d.len) :
    ∃ m, h7Flags page stop f addr d = .ok m ∧
      (∀ k, k < d.len → m (addr + k) = d.b k) ∧
      (∀ x, stop ≤ x + 32 → x < stop → (x < addr ∨ addr + d.len ≤ x) → m x = f x) ∧
      (∀ x, page ≤ x → x + 32 < stop → m x = 0xFF#8) ∧
      (∀ x, x < page ∨ stop ≤ x → m x = f x) := by
  unfold h7Flags
  dsimp only
  have hbase : addr - addr % 32 + 32 = stop := by omega
  rw [if_neg (by omega)]
  rw [store_fresh (v := ⟨32, true⟩) (by simp only; omega) (by
    intro _ k hk
    simp only at hk
    rw [if_pos (by omega)])]
  refine ⟨_, rfl, ?_, ?_, ?_, ?_⟩
  · intro k hk
    simp only
    rw [if_pos (by omega), if_pos (by omega), if_pos (by omega), BitVec.and_comm, and_ff8]
    congr 1; omega
  · intro x a b c
    simp only
    rw [if_pos (by omega), if_pos (by omega), if_neg (by omega), BitVec.and_comm, and_ff8]
    congr 1; omega
  · intro x a b
    simp only
    rw [if_neg (by omega), if_pos (by omega)]
  · intro x a
    simp only
    rw [if_neg (by omega), if_neg (by omega)]

/-- **STM32H7: flags below the last word cannot be written**: the driver returns -1. With 32 bytes
for magic, state and two sector flags per byte this limits the number of sectors. -/
theorem h7_flags_refused (page stop : Nat) (f : Mem) (addr : Nat) (d : HBuf) (hs : stop % 32 = 0)
    (h : addr + 32 < stop) : h7Flags page stop f addr d = .error := by
  unfold h7Flags
  dsimp only
  rw [if_pos (by omega)]

/-! ## STM32F1 -/

/-- Main loop of `/repo/hal/stm32f1.c:186-206`, `s` bytes of the buffer done: half words, and a
read-modify-write for a single last byte. `flash_w16` (`146-157`) returns an error when the chip
did not take the value, which is the outcome `refused`. -/
def f1Loop (f : Mem) (addr : Nat) (d : HBuf) (s : Nat) : HwRes :=
  if s < d.len then
    if s + 1 = d.len then
      (⟨2, true⟩ : HDev).store f (addr + s) (fun k => if k = 0 then d.b s else f (addr + s + k))
    else
      match (⟨2, true⟩ : HDev).store f (addr + s) (fun k => d.b (s + k)) with
      | .ok m => f1Loop m addr d (s + 2)
      | r => r
  else .ok f
termination_by d.len - s

/-- `hal_flash_write` of `/repo/hal/stm32f1.c:159-208`: the area check refuses an empty request
(`107-117`, the bounds of the flash are not modelled); an odd address starts with a
read-modify-write of the upper half. -/
def f1Write (f : Mem) (addr : Nat) (d : HBuf) : HwRes :=
  if d.len = 0 then .error
  else if addr % 2 = 1 then
    match (⟨2, true⟩ : HDev).store f (addr - 1)
      (fun k => if k = 1 then d.b 0 else f (addr - 1 + k)) with
    | .ok m => f1Loop m addr d 1
    | r => r
  else f1Loop f addr d 0

theorem f1Loop_ok (f : Mem) (addr : Nat) (d : HBuf) (hfr : Fresh ⟨2, true⟩ f addr d.len) :
    ∀ n s, d.len - s = n → s ≤ d.len → ((addr + s) % 2 = 0 ∨ s = d.len) →
    f1Loop (written f addr d s) addr d s = .ok (written f addr d d.len) := by
  intro n
  induction n using Nat.strongRecOn with
  | _ n ih =>
    intro s hn hs hst
    rw [f1Loop]
    by_cases hlt : s < d.len
    · rw [if_pos hlt]
      by_cases hl : s + 1 = d.len
      · rw [if_pos hl]
        rw [unit_step (j := s + 1) (by simp; omega) (Nat.le_refl _) (by simp; omega) (by omega)
          (Or.inr (Nat.le_refl _))
          (fun he x hx1 hx2 => hfr he x (by simp only at hx2 ⊢; omega)
            (by simp only at hx2 ⊢; omega)) (by
            intro k hk
            simp only at hk
            by_cases hk0 : k = 0
            · rw [if_pos hk0, if_pos (by omega)]
              congr 1; omega
            · rw [if_neg hk0, if_neg (by omega)]), hl]
      · rw [if_neg hl]
        rw [unit_step (j := s + 2) (by simp; omega) (Nat.le_refl _) (by simp; omega) (by omega)
          (Or.inr (Nat.le_refl _))
          (fun he x hx1 hx2 => hfr he x (by simp only at hx2 ⊢; omega)
            (by simp only at hx2 ⊢; omega)) (by
            intro k hk
            simp only at hk
            rw [if_pos (by omega)]
            congr 1; omega)]
        exact ih (d.len - (s + 2)) (by omega) (s + 2) rfl (by omega) (by omega)
    · rw [if_neg hlt, show s = d.len by omega]

/-- **STM32F1**: every request of at least one byte on erased half words is carried out exactly. -/
theorem f1_write_exact (f : Mem) (addr : Nat) (d : HBuf) (h0 : 0 < d.len)
    (hfr : Fresh ⟨2, true⟩ f addr d.len) : f1Write f addr d = .ok (written f addr d d.len) := by
  unfold f1Write
  rw [if_neg (by omega)]
  by_cases hA : addr % 2 = 1
  · rw [if_pos hA]
    have h := unit_step (v := ⟨2, true⟩) (f := f) (addr := addr) (d := d) (i := 0) (j := 1)
      (U := addr - 1) (w := fun k => if k = 1 then d.b 0 else f (addr - 1 + k)) (by simp; omega)
      (by omega) (by simp; omega) (by omega) (Or.inl rfl)
      (fun he x hx1 hx2 => hfr he x (by simp only at hx2 ⊢; omega)
        (by simp only at hx2 ⊢; omega)) (by
        intro k hk
        simp only at hk
        rw [written_zero]
        by_cases hk1 : k = 1
        · rw [if_pos hk1, if_pos (by omega)]
          congr 1; omega
        · rw [if_neg hk1, if_neg (by omega)])
    rw [written_zero] at h
    rw [h]
    exact f1Loop_ok f addr d hfr (d.len - 1) 1 rfl (by omega) (by omega)
  · rw [if_neg hA]
    have := f1Loop_ok f addr d hfr d.len 0 (by omega) (by omega) (by omega)
    rwa [written_zero] at this

/-! ## LPC546xx -/

/-- `/repo/hal/lpc.c:107-132`: pages of 256 bytes through a cache; the offset is computed from
`address` and is 0 for all pages but the first. -/
def lpcLoop (f : Mem) (addr : Nat) (d : HBuf) (i : Nat) : HwRes :=
  if i < d.len then
    let p := (addr + i) / 256 * 256
    let off := if addr > p then addr - p else 0
    let n := min (256 - off) (d.len - i)
    if hn : n = 0 then .error
    else
      match (⟨256, false⟩ : HDev).store f p
        (fun k => if off ≤ k ∧ k < off + n then d.b (i + (k - off)) else f (p + k)) with
      | .ok m => lpcLoop m addr d (i + n)
      | r => r
  else .ok f
termination_by d.len - i
decreasing_by
  show d.len - (i + n) < d.len - i
  have h : n ≤ d.len - i := Nat.min_le_right _ _
  clear_value n
  omega

theorem lpcLoop_ok (f : Mem) (addr : Nat) (d : HBuf) :
    ∀ n i, d.len - i = n → i ≤ d.len → (i = 0 ∨ i = d.len ∨ (addr + i) % 256 = 0) →
    lpcLoop (written f addr d i) addr d i = .ok (written f addr d d.len) := by
  intro n
  induction n using Nat.strongRecOn with
  | _ n ih =>
    intro i hn hi hst
    rw [lpcLoop]
    by_cases hlt : i < d.len
    · rw [if_pos hlt]
      dsimp only
      have hoff : (if addr > (addr + i) / 256 * 256 then addr - (addr + i) / 256 * 256 else 0)
          = (addr + i) % 256 := by
        split <;> omega
      have hp : (addr + i) / 256 * 256 = addr + i - (addr + i) % 256 := by omega
      rw [hoff, hp, dif_neg (by omega)]
      rw [unit_step (j := i + min (256 - (addr + i) % 256) (d.len - i)) (by simp; omega) (by omega)
        (by simp only; omega) (by omega) (by omega) (by intro h; simp at h) (by
          intro k hk
          simp only at hk
          by_cases hko : (addr + i) % 256 ≤ k ∧
              k < (addr + i) % 256 + min (256 - (addr + i) % 256) (d.len - i)
          · rw [if_pos hko, if_pos (by omega)]
            congr 1; omega
          · rw [if_neg hko, if_neg (by omega)])]
      exact ih (d.len - (i + min (256 - (addr + i) % 256) (d.len - i))) (by omega) _ rfl (by omega)
        (by omega)
    · rw [if_neg hlt, show i = d.len by omega]

/-- **LPC546xx**: every request is carried out exactly. -/
theorem lpc_write_exact (f : Mem) (addr : Nat) (d : HBuf) :
    lpcLoop f addr d 0 = .ok (written f addr d d.len) := by
  have := lpcLoop_ok f addr d d.len 0 (by omega) (by omega) (Or.inl rfl)
  rwa [written_zero] at this

/-! ## HiFive1 -/

/-- `/repo/hal/hifive1.c:480-536`: `j` bytes done, `off` the offset in page `page`; `len` is
compared as it was passed, not with the bytes that remain. The base of the flash is subtracted
from the address by the caller of this function. -/
def hifLoop (f : Mem) (d : HBuf) (j off page : Nat) : HwRes :=
  if hj : j < d.len then
    if off > 0 ∨ d.len < 256 then
      let n := min (256 - off) d.len
      if hn : n = 0 then .error
      else if j + n ≤ d.len then
        match (⟨256, false⟩ : HDev).store f (page * 256)
          (fun k => if off ≤ k ∧ k < off + n then d.b (j + (k - off)) else f (page * 256 + k)) with
        | .ok m => hifLoop m d (j + n) 0 (page + 1)
        | r => r
      else .oob
    else if j + 256 ≤ d.len then
      match (⟨256, false⟩ : HDev).store f (page * 256) (fun k => d.b (j + k)) with
      | .ok m => hifLoop m d (j + 256) 0 (page + 1)
      | r => r
    else .oob
  else .ok f
termination_by d.len - j
decreasing_by
  · omega
  · omega

/-- The requests the HiFive1 driver carries out: inside one page, or at least one page long and
ending at the end of a page. -/
def HifOK (addr len : Nat) : Prop :=
  addr % 256 + len ≤ 256 ∨ (256 ≤ len ∧ (addr + len) % 256 = 0)

theorem hif_store {f : Mem} {a : Nat} {w : Nat → Byte} (h : a % 256 = 0) :
    ∃ m, (⟨256, false⟩ : HDev).store f a w = .ok m := by
  rw [store_fresh (v := ⟨256, false⟩) h (by intro h; simp at h)]
  exact ⟨_, rfl⟩

set_option maxRecDepth 4000 in
/-- Whole pages from a page boundary on. -/
theorem hifLoop_pages (f : Mem) (addr : Nat) (d : HBuf) (hl : 256 ≤ d.len)
    (he : (addr + d.len) % 256 = 0) : ∀ n j, d.len - j = n → j ≤ d.len → (addr + j) % 256 = 0 →
    hifLoop (written f addr d j) d j 0 ((addr + j) / 256) = .ok (written f addr d d.len) := by
  intro n
  induction n using Nat.strongRecOn with
  | _ n ih =>
    intro j hn hj hst
    rw [hifLoop]
    by_cases hlt : j < d.len
    · rw [dif_pos hlt, if_neg (by omega), if_pos (by omega)]
      have hp : (addr + j) / 256 * 256 = addr + j := by omega
      rw [hp]
      rw [unit_step (j := j + 256) (by simp; omega) (Nat.le_refl _) (by simp; omega) (by omega)
        (Or.inr (Nat.le_refl _)) (by intro h; simp at h) (by
          intro k hk
          simp only at hk
          rw [if_pos (by omega)]
          congr 1; omega)]
      have := ih (d.len - (j + 256)) (by omega) (j + 256) rfl (by omega) (by omega)
      rw [show (addr + (j + 256)) / 256 = (addr + j) / 256 + 1 by omega] at this
      exact this
    · rw [dif_neg hlt, show j = d.len by omega]

/-- **HiFive1**: the requests in `HifOK` are carried out exactly. -/
theorem hif_write_exact (f : Mem) (addr : Nat) (d : HBuf) (hok : HifOK addr d.len) :
    hifLoop f d 0 (addr % 256) (addr / 256) = .ok (written f addr d d.len) := by
  unfold HifOK at hok
  by_cases h0 : d.len = 0
  · rw [hifLoop, dif_neg (by omega), h0, written_zero]
  by_cases hfst : addr % 256 > 0 ∨ d.len < 256
  · rw [hifLoop, dif_pos (by omega), if_pos hfst]
    dsimp only
    rw [dif_neg (by omega), if_pos (by omega)]
    have h := unit_step (v := ⟨256, false⟩) (f := f) (addr := addr) (d := d) (i := 0)
      (j := min (256 - addr % 256) d.len) (U := addr / 256 * 256)
      (w := fun k => if addr % 256 ≤ k ∧ k < addr % 256 + min (256 - addr % 256) d.len
        then d.b (0 + (k - addr % 256)) else f (addr / 256 * 256 + k)) (by simp)
      (by omega) (by simp only; omega) (by omega) (Or.inl rfl) (by intro h; simp at h) (by
        intro k hk
        simp only at hk
        rw [written_zero]
        by_cases hko : addr % 256 ≤ k ∧ k < addr % 256 + min (256 - addr % 256) d.len
        · rw [if_pos hko, if_pos (by omega)]
          congr 1; omega
        · rw [if_neg hko, if_neg (by omega)])
    rw [written_zero] at h
    rw [h]
    dsimp only
    rw [Nat.zero_add]
    by_cases hin : addr % 256 + d.len ≤ 256
    · have e : min (256 - addr % 256) d.len = d.len := by omega
      rw [e, hifLoop, dif_neg (by omega)]
    · have := hifLoop_pages f addr d (by omega) (by omega) _
        (min (256 - addr % 256) d.len) rfl (by omega) (by omega)
      rw [show (addr + min (256 - addr % 256) d.len) / 256 = addr / 256 + 1 by omega] at this
      exact this
  · have := hifLoop_pages f addr d (by omega) (by omega) d.len 0 (by omega) (by omega) (by omega)
    rw [written_zero, Nat.add_zero] at this
    rw [show addr % 256 = 0 by omega]
    exact this

theorem hifLoop_bad (d : HBuf) : ∀ n f j page, d.len - j = n → j < d.len → 0 < d.len - j →
    (d.len < 256 → 0 < j) → (256 ≤ d.len → (d.len - j) % 256 ≠ 0) →
    hifLoop f d j 0 page = .oob := by
  intro n
  induction n using Nat.strongRecOn with
  | _ n ih =>
    intro f j page hn hj h0 h1 h2
    rw [hifLoop, dif_pos hj]
    by_cases hl : d.len < 256
    · rw [if_pos (Or.inr hl)]
      dsimp only
      rw [dif_neg (by omega), if_neg (by have := h1 hl; omega)]
    · rw [if_neg (by omega)]
      by_cases hr : j + 256 ≤ d.len
      · rw [if_pos hr]
        obtain ⟨m, hm⟩ := hif_store (f := f) (a := page * 256) (w := fun k => d.b (j + k))
          (by omega)
        rw [hm]
        have := h2 (by omega)
        exact ih (d.len - (j + 256)) (by omega) m (j + 256) (page + 1) rfl (by omega) (by omega)
          (by omega) (by omega)
      · rw [if_neg hr]

/-- **HiFive1: every other request reads behind the buffer** (and programs what it finds there). -/
theorem hif_write_bad (f : Mem) (addr : Nat) (d : HBuf) (hok : ¬ HifOK addr d.len) :
    hifLoop f d 0 (addr % 256) (addr / 256) = .oob := by
  unfold HifOK at hok
  by_cases hfst : addr % 256 > 0
  · rw [hifLoop, dif_pos (by omega), if_pos (Or.inl hfst)]
    dsimp only
    rw [dif_neg (by omega), if_pos (by omega)]
    obtain ⟨m, hm⟩ := hif_store (f := f) (a := addr / 256 * 256)
      (w := fun k => if addr % 256 ≤ k ∧ k < addr % 256 + min (256 - addr % 256) d.len
        then d.b (0 + (k - addr % 256)) else f (addr / 256 * 256 + k)) (by omega)
    rw [hm]
    dsimp only
    exact hifLoop_bad d _ m _ _ rfl (by omega) (by omega) (by omega) (by omega)
  · rw [show addr % 256 = 0 by omega]
    exact hifLoop_bad d d.len f 0 _ (by omega) (by omega) (by omega) (by omega) (by omega)

/-! ## PSoC 6 -/

/-- The loop of `/repo/hal/psoc6.c:134-141`: neither `address` nor `src` is advanced. -/
def psocLoop (R : Nat) (f : Mem) (addr : Nat) (d : HBuf) (len : Nat) : HwRes :=
  if len = 0 then .ok f
  else if len < R ∨ R = 0 then .error
  else
    match (⟨R, false⟩ : HDev).store f addr d.b with
    | .ok m => psocLoop R m addr d (len - R)
    | r => r
termination_by len

/-- `hal_flash_write` of `/repo/hal/psoc6.c:121-143` with rows of `R` bytes; `inFlash` is the test
of the buffer's address (`127`), in which case the row goes through a buffer. -/
def psocWrite (R : Nat) (inFlash : Bool) (f : Mem) (addr : Nat) (d : HBuf) : HwRes :=
  if d.len < R then .error
  else if inFlash = true ∧ d.len ≠ R then .error
  else psocLoop R f addr d d.len

theorem psocLoop_spec (R : Nat) (hR : 0 < R) (f : Mem) (addr : Nat) (d : HBuf)
    (hA : addr % R = 0) : ∀ n, psocLoop R (written f addr d R) addr d (n * R)
      = .ok (written f addr d R) := by
  intro n
  induction n with
  | zero => rw [Nat.zero_mul, psocLoop, if_pos rfl]
  | succ n ih =>
    have e : (n + 1) * R = n * R + R := by rw [Nat.add_mul]; omega
    rw [e, psocLoop, if_neg (by omega), if_neg (by omega)]
    rw [store_fresh (v := ⟨R, false⟩) hA (by intro h; simp at h)]
    have : (fun x => if addr ≤ x ∧ x < addr + R then written f addr d R x &&& d.b (x - addr)
        else written f addr d R x) = written f addr d R := by
      funext x
      unfold written
      by_cases hx : addr ≤ x ∧ x < addr + R
      · rw [if_pos hx, if_pos hx, BitVec.and_assoc, and_self8]
      · rw [if_neg hx, if_neg hx]
    dsimp only
    rw [this, Nat.add_sub_cancel]
    exact ih

/-- **PSoC 6: one row is written, also when more are asked for.** A request of `n` aligned rows
returns 0, and only the first row is programmed. -/
theorem psoc_first_row (R : Nat) (hR : 0 < R) (f : Mem) (addr : Nat) (d : HBuf)
    (hA : addr % R = 0) (n : Nat) (hn : d.len = (n + 1) * R) :
    psocWrite R false f addr d = .ok (written f addr d R) := by
  unfold psocWrite
  have e : (n + 1) * R = n * R + R := by rw [Nat.add_mul]; omega
  rw [if_neg (by omega), if_neg (by simp), hn, e]
  rw [psocLoop, if_neg (by omega), if_neg (by omega)]
  rw [store_fresh (v := ⟨R, false⟩) hA (by intro h; simp at h)]
  dsimp only
  rw [Nat.add_sub_cancel]
  exact psocLoop_spec R hR f addr d hA n

/-- **PSoC 6**: a request of one row is carried out exactly. -/
theorem psoc_write_exact (R : Nat) (hR : 0 < R) (b : Bool) (f : Mem) (addr : Nat) (d : HBuf)
    (hA : addr % R = 0) (hn : d.len = R) :
    psocWrite R b f addr d = .ok (written f addr d d.len) := by
  have h := psoc_first_row R hR f addr d hA 0 (by omega)
  unfold psocWrite at h ⊢
  rw [if_neg (by omega)] at h ⊢
  rw [if_neg (by simp)] at h
  rw [if_neg (by simp [hn]), h, hn]

/-- **PSoC 6: no other request is carried out.** If the driver returns 0 and the result is right
for an erased chip, the request had one row, or repeats what it programmed. -/
theorem psoc_write_iff (R : Nat) (hR : 0 < R) (addr daddr len : Nat) (hA : addr % R = 0) :
    (∀ b : Nat → Byte, psocWrite R false (fun _ => 0xFF#8) addr ⟨daddr, len, b⟩
      = .ok (written (fun _ => 0xFF#8) addr ⟨daddr, len, b⟩ len)) ↔ len = R := by
  constructor
  · intro h
    have h := h (fun _ => 0#8)
    by_cases hlt : len < R
    · unfold psocWrite at h
      rw [if_pos hlt] at h
      cases h
    · by_cases hm : len % R = 0
      · have hd : (len / R - 1 + 1) * R = len := by
          have h1 : 0 < len / R := Nat.div_pos (by omega) hR
          rw [Nat.sub_add_cancel h1, Nat.div_mul_cancel (Nat.dvd_of_mod_eq_zero hm)]
        rw [psoc_first_row R hR _ addr ⟨daddr, len, _⟩ hA (len / R - 1) hd.symm] at h
        simp only [HwRes.ok.injEq] at h
        refine Classical.byContradiction fun hne => ?_
        have h := congrFun h (addr + R)
        unfold written at h
        rw [if_neg (by omega), if_pos (by omega)] at h
        have h3 : (0xFF#8 : Byte) = 0xFF#8 &&& 0#8 := h
        revert h3; decide
      · exfalso
        unfold psocWrite at h
        rw [if_neg (by simpa using hlt), if_neg (by simp)] at h
        have : ∀ n f, n % R ≠ 0 → ∀ m, psocLoop R f addr ⟨daddr, len, fun _ => 0#8⟩ n ≠ .ok m := by
          intro n
          induction n using Nat.strongRecOn with
          | _ n ih =>
            intro f hn m
            rw [psocLoop, if_neg (by intro h0; rw [h0] at hn; exact hn (Nat.zero_mod R))]
            by_cases hs : n < R ∨ R = 0
            · rw [if_pos hs]; intro h; cases h
            · rw [if_neg hs]
              rw [store_fresh (v := ⟨R, false⟩) hA (by intro h; simp at h)]
              dsimp only
              refine ih (n - R) (by omega) _ ?_ m
              intro h0
              apply hn
              have : n = (n - R) + R := by omega
              rw [this, Nat.add_mod_right]; exact h0
        exact this len _ hm _ h
  · intro hl b
    exact psoc_write_exact R hR false _ addr ⟨daddr, len, b⟩ hA hl

/-! ## RX -/

/-- The loop of `/repo/hal/renesas-rx.c:488-527`: units of 128 bytes, the last one completed from
the flash behind the request. -/
def rxLoop (f : Mem) (addr : Nat) (d : HBuf) (i : Nat) : HwRes :=
  if hi : i < d.len then
    match (⟨128, true⟩ : HDev).store f (addr + i)
      (fun k => if k < d.len - i then d.b (i + k) else f (addr + i + k)) with
    | .ok m => rxLoop m addr d (i + 128)
    | r => r
  else .ok f
termination_by d.len - i
decreasing_by omega

theorem rxLoop_ok (f : Mem) (addr : Nat) (d : HBuf) (hfr : Fresh ⟨128, true⟩ f addr d.len)
    (hA : addr % 128 = 0) : ∀ n i, d.len - i = n → i % 128 = 0 →
    rxLoop (written f addr d (min i d.len)) addr d i = .ok (written f addr d d.len) := by
  intro n
  induction n using Nat.strongRecOn with
  | _ n ih =>
    intro i hn hi
    rw [rxLoop]
    by_cases hlt : i < d.len
    · rw [dif_pos hlt, show min i d.len = i by omega]
      rw [unit_step (j := min (i + 128) d.len) (by simp; omega) (Nat.le_refl _)
        (by simp only; omega) (by omega) (Or.inr (Nat.le_refl _))
        (fun he x hx1 hx2 => hfr he x (by simp only at hx2 ⊢; omega)
          (by simp only at hx2 ⊢; omega)) (by
          intro k hk
          simp only at hk
          by_cases hk2 : k < d.len - i
          · rw [if_pos hk2, if_pos (by omega)]
            congr 1; omega
          · rw [if_neg hk2, if_neg (by omega)])]
      exact ih (d.len - (i + 128)) (by omega) (i + 128) rfl (by omega)
    · rw [dif_neg hlt, show min i d.len = d.len by omega]

/-- **RX**: exactly the requests that start at a multiple of 128 are carried out; the others end
with an alignment error. -/
theorem rx_write_iff (f : Mem) (addr : Nat) (d : HBuf) (h0 : 0 < d.len)
    (hfr : Fresh ⟨128, true⟩ f addr d.len) :
    rxLoop f addr d 0 = if addr % 128 = 0 then .ok (written f addr d d.len) else .align := by
  by_cases hA : addr % 128 = 0
  · rw [if_pos hA]
    have := rxLoop_ok f addr d hfr hA d.len 0 (by omega) (by omega)
    rwa [Nat.zero_min, written_zero] at this
  · rw [if_neg hA, rxLoop, dif_pos h0, store_align (by simpa using hA)]

/-! ## TMS570 -/

/-- Whole blocks of `B` bytes and a shorter last block from offset `off` on
(`/repo/hal/ti_hercules.c:139-160`); `Fapi_issueProgrammingCommand` programs `blk_size` bytes and
needs an address at the start of a block. -/
def tiLoop (B : Nat) (f : Mem) (addr : Nat) (d : HBuf) (off : Nat) : HwRes :=
  if off < d.len ∧ 0 < B then
    let n := min B (d.len - off)
    match (⟨B, false⟩ : HDev).store f (addr + off)
      (fun k => if k < n then d.b (off + k) else 0xFF#8) with
    | .ok m => tiLoop B m addr d (off + n)
    | r => r
  else .ok f
termination_by d.len - off

/-- `hal_flash_write` of `/repo/hal/ti_hercules.c:117-170`: a short request goes through the
buffer `temp` of `B` bytes, at the offset of the address. -/
def tiWrite (B : Nat) (f : Mem) (addr : Nat) (d : HBuf) : HwRes :=
  if d.len < B then
    if addr % B + d.len > B then .smash
    else (⟨B, false⟩ : HDev).store f (addr - addr % B)
      (fun k => if addr % B ≤ k ∧ k < addr % B + d.len then d.b (k - addr % B)
        else f (addr - addr % B + k))
  else tiLoop B f addr d 0

/-- **TMS570: a short request across a block boundary overflows the stack buffer `temp`.** -/
theorem ti_smash (B : Nat) (f : Mem) (addr : Nat) (d : HBuf) (h1 : d.len < B)
    (h2 : B < addr % B + d.len) : tiWrite B f addr d = .smash := by
  unfold tiWrite
  rw [if_pos h1, if_pos h2]

theorem tiLoop_ok (B : Nat) (hB : 0 < B) (f : Mem) (addr : Nat) (d : HBuf) (hA : addr % B = 0) :
    ∀ n off, d.len - off = n → off ≤ d.len → (off % B = 0 ∨ off = d.len) →
    tiLoop B (written f addr d off) addr d off = .ok (written f addr d d.len) := by
  intro n
  induction n using Nat.strongRecOn with
  | _ n ih =>
    intro off hn ho hst
    rw [tiLoop]
    by_cases hlt : off < d.len
    · rw [if_pos ⟨hlt, hB⟩]
      have hm : off % B = 0 := by
        rcases hst with h | h
        · exact h
        · omega
      have hU : (addr + off) % B = 0 := by
        rw [Nat.add_mod, hA, hm, Nat.zero_add, Nat.zero_mod]
      dsimp only
      rw [store_fresh (v := ⟨B, false⟩) hU (by intro h; simp at h)]
      have hw : (fun x => if addr + off ≤ x ∧ x < addr + off + B then
          written f addr d off x &&& (if x - (addr + off) < min B (d.len - off)
            then d.b (off + (x - (addr + off))) else 0xFF#8) else written f addr d off x)
          = written f addr d (off + min B (d.len - off)) := by
        funext x
        unfold written
        by_cases hx : addr + off ≤ x ∧ x < addr + off + B
        · rw [if_pos hx, if_neg (by omega)]
          by_cases hx2 : x - (addr + off) < min B (d.len - off)
          · rw [if_pos hx2, if_pos (by omega)]
            congr 2; omega
          · rw [if_neg hx2, if_neg (by omega), and_ff8]
        · rw [if_neg hx]
          by_cases hx2 : addr ≤ x ∧ x < addr + off
          · rw [if_pos hx2, if_pos (by omega)]
          · rw [if_neg hx2, if_neg (by omega)]
      dsimp only
      rw [hw]
      refine ih (d.len - (off + min B (d.len - off))) (by omega) _ rfl (by omega) ?_
      by_cases hb : B ≤ d.len - off
      · left
        rw [Nat.min_eq_left hb, Nat.add_mod_right]; exact hm
      · right; omega
    · rw [if_neg (by omega), show off = d.len by omega]

/-- **TMS570**: a request inside one block, or one that starts at a block, is carried out
exactly. -/
theorem ti_write_exact (B : Nat) (hB : 0 < B) (f : Mem) (addr : Nat) (d : HBuf)
    (h : addr % B = 0 ∨ (d.len < B ∧ addr % B + d.len ≤ B)) :
    tiWrite B f addr d = .ok (written f addr d d.len) := by
  have hml := Nat.mod_lt addr hB
  have hle := Nat.mod_le addr B
  have hdm := Nat.div_add_mod addr B
  unfold tiWrite
  by_cases hs : d.len < B
  · have hin : addr % B + d.len ≤ B := by
      rcases h with h | h
      · rw [h]; omega
      · exact h.2
    have hbase : (addr - addr % B) % B = 0 := by
      rw [show addr - addr % B = B * (addr / B) by omega]
      exact Nat.mul_mod_right _ _
    rw [if_pos hs, if_neg (by omega)]
    clear h hdm
    generalize addr % B = A at *
    have := unit_step (v := ⟨B, false⟩) (f := f) (addr := addr) (d := d) (i := 0) (j := d.len)
      (U := addr - A)
      (w := fun k => if A ≤ k ∧ k < A + d.len then d.b (k - A) else f (addr - A + k)) hbase
      (by omega) (by show _ ≤ _ + B; omega) (by omega) (Or.inl rfl) (by intro h; simp at h) (by
        intro k hk
        simp only at hk
        rw [written_zero]
        by_cases hko : A ≤ k ∧ k < A + d.len
        · rw [if_pos hko, if_pos (by omega)]
          congr 1; omega
        · rw [if_neg hko, if_neg (by omega)])
    rwa [written_zero] at this
  · rw [if_neg hs]
    have hA : addr % B = 0 := by
      rcases h with h | h
      · exact h
      · omega
    have := tiLoop_ok B hB f addr d hA d.len 0 (by omega) (by omega) (Or.inl (Nat.zero_mod B))
    rwa [written_zero] at this

/-- **TMS570: a long request that does not start at a block fails.** -/
theorem ti_long_unaligned (B : Nat) (hB : 0 < B) (f : Mem) (addr : Nat) (d : HBuf)
    (hl : B ≤ d.len) (hA : addr % B ≠ 0) : tiWrite B f addr d = .align := by
  unfold tiWrite
  rw [if_neg (by omega), tiLoop, if_pos (by omega)]
  dsimp only
  rw [store_align (by simpa using hA)]

/-! ## MCXW -/

/-- `empty_qword` of `/repo/hal/mcxw.c:89-91` as bytes: the first constant, `0xFFFFFFF`, has one
digit too few. -/
def mcxEmpty (k : Nat) : Byte := if k = 3 then 0x0F#8 else 0xFF#8

/-- `memcmp` of two words of `W` bytes is 0 (`/repo/hal/mcxw.c:106`). -/
def SameWord (W : Nat) (v e : Nat → Byte) : Prop := ∀ k, k < W → v k = e k

instance (W : Nat) (v e : Nat → Byte) : Decidable (SameWord W v e) := by
  unfold SameWord; infer_instance

/-- One pass of the loop of `/repo/hal/mcxw.c:94-130` for a request that needs only one pass
(inside a phrase of 16 bytes, or whole aligned phrases). In the bulk path a buffer that
is not 16-aligned is copied whole into the 16 bytes of `aligned_data` (`118-122`). -/
def mcxPass (f : Mem) (addr : Nat) (d : HBuf) : HwRes :=
  if d.len < 16 ∨ addr % 16 ≠ 0 then
    let so := addr % 16
    let p := addr - so
    let v : Nat → Byte := fun k => if so ≤ k ∧ k < so + d.len then d.b (k - so) else f (p + k)
    if SameWord 16 v mcxEmpty then .ok f
    else (⟨16, true⟩ : HDev).store f p v
  else
    let la := d.len - d.len % 16
    if d.addr % 16 ≠ 0 ∧ 16 < la then .smash
    else progN ⟨16, true⟩ f addr d.b (la / 16)

/-- **MCXW: a long write from an unaligned buffer overflows the stack.** -/
theorem mcx_smash (f : Mem) (addr : Nat) (d : HBuf) (hA : addr % 16 = 0) (hl : 32 ≤ d.len)
    (hd : d.addr % 16 ≠ 0) : mcxPass f addr d = .smash := by
  unfold mcxPass
  rw [if_neg (by omega)]
  dsimp only
  rw [if_pos ⟨hd, by omega⟩]

/-- **MCXW: the value of the mistyped constant is not written.** Programming the byte `0x0F` as
the fourth byte of an erased phrase returns 0 and leaves the flash erased. -/
theorem mcx_blank_skipped (f : Mem) (addr : Nat) (d : HBuf) (hA : addr % 16 = 3)
    (hl : d.len = 1) (hb : d.b 0 = 0x0F#8)
    (hf : ∀ k, k < 16 → f (addr - 3 + k) = 0xFF#8) : mcxPass f addr d = .ok f := by
  unfold mcxPass
  rw [if_pos (by omega)]
  dsimp only
  rw [if_pos]
  intro k hk
  simp only [mcxEmpty]
  by_cases h3 : k = 3
  · rw [if_pos (by omega), if_pos h3, show k - addr % 16 = 0 by omega, hb]
  · rw [if_neg (by omega), if_neg h3, hA]
    exact hf k hk

/-- **MCXW**: a request inside one phrase with another value, or of whole aligned phrases from an
aligned buffer (or of one phrase), is carried out exactly. -/
theorem mcx_write_exact (f : Mem) (addr : Nat) (d : HBuf) (hfr : Fresh ⟨16, true⟩ f addr d.len)
    (hok : (addr % 16 + d.len ≤ 16 ∧ (d.len = 16 ∨ d.len = 0 ∨ (∃ j, j < d.len ∧ d.b j ≠ 0x0F#8 ∧
        d.b j ≠ 0xFF#8) ∨ addr % 16 + d.len ≤ 3 ∨ 3 < addr % 16)) ∨
      (addr % 16 = 0 ∧ d.len % 16 = 0 ∧ (d.addr % 16 = 0 ∨ d.len ≤ 16))) :
    mcxPass f addr d = .ok (written f addr d d.len) := by
  have hfr : ∀ x, addr - addr % 16 ≤ x → x < addr + d.len + 16 → f x = 0xFF#8 := hfr rfl
  unfold mcxPass
  by_cases hp : d.len < 16 ∨ addr % 16 ≠ 0
  · rw [if_pos hp]
    dsimp only
    have hin : addr % 16 + d.len ≤ 16 := by omega
    rw [if_neg]
    · have := unit_step (v := ⟨16, true⟩) (f := f) (addr := addr) (d := d) (i := 0) (j := d.len)
        (U := addr - addr % 16)
        (w := fun k => if addr % 16 ≤ k ∧ k < addr % 16 + d.len then d.b (k - addr % 16)
          else f (addr - addr % 16 + k)) (by simp; omega)
        (by omega) (by simp only; omega) (by omega) (Or.inl rfl)
        (fun he x h1 h2 => hfr x h1 (by simp only at h2 ⊢; omega)) (by
          intro k hk
          simp only at hk
          rw [written_zero]
          by_cases hko : addr % 16 ≤ k ∧ k < addr % 16 + d.len
          · rw [if_pos hko, if_pos (by omega)]
            congr 1; omega
          · rw [if_neg hko, if_neg (by omega)])
      rwa [written_zero] at this
    · intro hall
      simp only [SameWord, mcxEmpty] at hall
      have h3 := hall 3 (by omega)
      rw [if_pos rfl] at h3
      by_cases hk : addr % 16 ≤ 3 ∧ 3 < addr % 16 + d.len
      · have hj : ∃ j, j < d.len ∧ d.b j ≠ 0x0F#8 ∧ d.b j ≠ 0xFF#8 := by
          rcases hok with ⟨_, h | h | h | h | h⟩ | h
          · omega
          · omega
          · exact h
          · omega
          · omega
          · omega
        obtain ⟨j, hj1, hj2, hj3⟩ := hj
        have := hall (addr % 16 + j) (by omega)
        rw [if_pos (by omega), Nat.add_sub_cancel_left] at this
        by_cases h : addr % 16 + j = 3
        · rw [if_pos h] at this; exact hj2 this
        · rw [if_neg h] at this; exact hj3 this
      · rw [if_neg hk, hfr _ (by omega) (by omega)] at h3
        revert h3; decide
  · rw [if_neg hp]
    dsimp only
    have hA : addr % 16 = 0 := by omega
    have hL : d.len % 16 = 0 := by omega
    rw [hL, Nat.sub_zero, if_neg (by omega)]
    have := progN_ok 16 f addr d (by omega) hA (fun x h1 h2 => hfr x (by omega) (by omega))
      (d.len / 16) 0 (by omega)
    rw [Nat.zero_mul, written_zero, Nat.zero_add, Nat.div_mul_cancel (Nat.dvd_of_mod_eq_zero hL)]
      at this
    simpa using this

/-! ## Examples -/

/-- Five bytes at offset 30 of an erased STM32H7 word, crossing into the next one. -/
example : ∃ m, h7Loop (fun _ => 0xFF#8) 0x0801001E ⟨0x20000000, 5, fun k => BitVec.ofNat 8 k⟩ 0
    = .ok m ∧ m 0x08010020 = 2#8 := by
  refine ⟨_, h7_write_exact _ _ _ (fun _ _ _ _ => rfl), ?_⟩
  decide

/-- Setting the state byte again in the last word of an STM32H7 flags page: bits are set, too. -/
example : ∃ m, h7Flags 0x20000 0x40000 (fun x => if x = 0x3FFFB then 0#8 else 0x55#8) 0x3FFFB
    ⟨0, 1, fun _ => 0x70#8⟩ = .ok m ∧ m 0x3FFFB = 0x70#8 ∧ m 0x3FFFC = 0x55#8 ∧
      m 0x30000 = 0xFF#8 := by
  obtain ⟨m, h, h1, h2, h3, _⟩ := h7_flags_write 0x20000 0x40000
    (fun x => if x = 0x3FFFB then 0#8 else 0x55#8) 0x3FFFB ⟨0, 1, fun _ => 0x70#8⟩ (by omega)
    (by omega) (by omega) (by simp) (by simp)
  refine ⟨m, h, h1 0 (by simp), ?_, h3 _ (by omega) (by omega)⟩
  rw [h2 0x3FFFC (by omega) (by omega) (by simp)]
  rfl

/-- Three bytes at an odd address of an STM32F1. -/
example : ∃ m, f1Write (fun _ => 0xFF#8) 0x08004001 ⟨0, 3, fun k => BitVec.ofNat 8 k⟩ = .ok m ∧
    m 0x08004003 = 2#8 := by
  refine ⟨_, f1_write_exact _ _ _ (by simp) (fun _ _ _ _ => rfl), ?_⟩
  decide

/-- A HiFive1 request of 300 bytes at a page boundary reads behind the buffer. -/
example : hifLoop (fun _ => 0xFF#8) ⟨0, 300, fun _ => 0#8⟩ 0 (0x20000 % 256) (0x20000 / 256)
    = .oob :=
  hif_write_bad _ _ _ (by unfold HifOK; simp)

/-- A PSoC 6 request of two rows leaves the second row erased and returns 0. -/
example : ∃ m, psocWrite 512 false (fun _ => 0xFF#8) 0x10020000 ⟨0, 1024, fun _ => 0#8⟩ = .ok m ∧
    m 0x10020000 = 0#8 ∧ m 0x10020200 = 0xFF#8 := by
  refine ⟨_, psoc_first_row 512 (by omega) _ _ _ (by omega) 1 (by simp), ?_, ?_⟩ <;> decide

/-- Ten bytes at offset 28 of a 32-byte block of a TMS570 overflow the stack buffer. -/
example : tiWrite 32 (fun _ => 0xFF#8) 0x2001C ⟨0, 10, fun _ => 0#8⟩ = .smash :=
  ti_smash _ _ _ _ (by simp) (by simp)

/-- RX: 200 bytes at a block boundary. -/
example : rxLoop (fun _ => 0xFF#8) 0x100000 ⟨0, 200, fun _ => 0x12#8⟩ 0
    = .ok (written (fun _ => 0xFF#8) 0x100000 ⟨0, 200, fun _ => 0x12#8⟩ 200) := by
  rw [rx_write_iff _ _ _ (by simp) (fun _ _ _ _ => rfl), if_pos (by omega)]

end Verif
