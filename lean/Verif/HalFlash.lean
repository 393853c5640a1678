import Verif.Basic

/-!
# Internal flash drivers: `hal_flash_write`

The bootloader model (`Verif.Flash`) takes for granted that `hal_flash_write(address, data, len)`
programs exactly the bytes `[address, address+len)`. This file models the loops of the drivers in
`/repo/hal` that split such a request into the program units of the chip, and determines for which
requests they do what is asked.

The chip is a memory that can be programmed only in aligned units; programming clears bits
(`old AND new`). On chips with error correction a unit that is not erased can only be overwritten
by zeros. The registers of the flash controllers (unlock keys, busy and error flags, caches) are
not modelled; a busy wait returns once the unit is programmed.

A request that makes the driver store at an address that is not a multiple of the unit, read
behind the caller's buffer, or program a unit that is not erased has its own outcome.
-/

namespace Verif

/-- Outcome of a driver call. -/
inductive HwRes where
  /-- returned 0 with these contents -/
  | ok (m : Mem)
  /-- store that is not aligned to the program unit (fault, or `PGAERR`/`PGSERR`) -/
  | align
  /-- programming of a unit that is not erased (`PROGERR`/`PGERR`) -/
  | refused
  /-- read behind the end of the caller's buffer -/
  | oob
  /-- write behind the end of a buffer of the driver -/
  | smash
  /-- returned an error code -/
  | error

/-- Program unit of the chip, and whether units must be erased before they are programmed
(`/repo/hal/stm32g0.c:119-157` 8 bytes, `/repo/hal/stm32h7.c:87-159` 32 bytes, ...). -/
structure HDev where
  unit : Nat
  ecc : Bool

/-- The caller's buffer: its address (the drivers test its alignment), its length and contents
(`const uint8_t *data, int len`, `/repo/include/hal.h:60`). -/
structure HBuf where
  addr : Nat
  len : Nat
  b : Nat → Byte

/-- The chip programs one unit. -/
def HDev.store (d : HDev) (f : Mem) (a : Nat) (v : Nat → Byte) : HwRes :=
  if a % d.unit ≠ 0 then .align
  else if d.ecc = true ∧ ¬ (∀ k, k < d.unit → f (a + k) = 0xFF#8) ∧
      ¬ (∀ k, k < d.unit → v k = 0#8) then .refused
  else .ok (fun x => if a ≤ x ∧ x < a + d.unit then f x &&& v (x - a) else f x)

/-! ## What a write must do -/

/-- Contents after the first `n` bytes of the buffer were programmed at `addr`. -/
def written (f : Mem) (addr : Nat) (d : HBuf) (n : Nat) : Mem :=
  fun x => if addr ≤ x ∧ x < addr + n then f x &&& d.b (x - addr) else f x

/-- The units touched by `[addr, addr+len)` are erased, if the chip insists on it. -/
def Fresh (v : HDev) (f : Mem) (addr len : Nat) : Prop :=
  v.ecc = true → ∀ x, addr - addr % v.unit ≤ x → x < addr + len + v.unit → f x = 0xFF#8

theorem written_zero (f : Mem) (addr : Nat) (d : HBuf) : written f addr d 0 = f := by
  funext x; unfold written
  rw [if_neg (by omega)]

theorem and_self8 (x : Byte) : x &&& x = x := by
  apply BitVec.eq_of_getLsbD_eq; intro i hi; simp

theorem and_ff8 (x : Byte) : x &&& 0xFF#8 = x := by
  have : (0xFF#8 : Byte) = BitVec.allOnes 8 := rfl
  rw [this, BitVec.and_allOnes]

/-- One read-modify-write step: programming the unit at `U` with the bytes `[i, j)` of the buffer
and the old contents around them is progress from `i` to `j`. -/
theorem unit_step {v : HDev} {f : Mem} {addr : Nat} {d : HBuf} {i j U : Nat} {w : Nat → Byte}
    (hU : U % v.unit = 0) (h1 : U ≤ addr + i) (h2 : addr + j ≤ U + v.unit) (hij : i ≤ j)
    (hfr : i = 0 ∨ addr + i ≤ U)
    (hE : v.ecc = true → ∀ x, U ≤ x → x < U + v.unit → f x = 0xFF#8)
    (hw : ∀ k, k < v.unit → w k =
      if addr + i ≤ U + k ∧ U + k < addr + j then d.b (U + k - addr)
      else written f addr d i (U + k)) :
    v.store (written f addr d i) U w = .ok (written f addr d j) := by
  have hback : ∀ x, U ≤ x → x < U + v.unit → written f addr d i x = f x := by
    intro x hx1 hx2; unfold written
    rw [if_neg (by omega)]
  unfold HDev.store
  rw [if_neg (by omega), if_neg ?_]
  · congr 1
    funext x
    by_cases hx : U ≤ x ∧ x < U + v.unit
    · rw [if_pos hx, hw (x - U) (by omega), hback x hx.1 hx.2]
      have hxe : U + (x - U) = x := by omega
      rw [hxe]
      by_cases hr : addr + i ≤ x ∧ x < addr + j
      · rw [if_pos hr]; unfold written; rw [if_pos (by omega)]
      · rw [if_neg hr, hback x hx.1 hx.2, and_self8]; unfold written
        rw [if_neg (by omega)]
    · rw [if_neg hx]; unfold written
      by_cases hr : addr ≤ x ∧ x < addr + i
      · rw [if_pos hr, if_pos (by omega)]
      · rw [if_neg hr, if_neg (by omega)]
  · rintro ⟨he, hn, _⟩
    apply hn
    intro k hk
    rw [hback _ (by omega) (by omega)]
    exact hE he _ (by omega) (by omega)

/-! ## Byte-programmable flash: `stm32f4.c`, `stm32f7.c` -/

/-- `/repo/hal/stm32f4.c:175-190`, `/repo/hal/stm32f7.c:245-260`: one 8-bit store per byte. -/
def byteLoop (f : Mem) (addr : Nat) (d : HBuf) (i : Nat) : HwRes :=
  if i < d.len then
    match (⟨1, false⟩ : HDev).store f (addr + i) (fun _ => d.b i) with
    | .ok m => byteLoop m addr d (i + 1)
    | r => r
  else .ok f
termination_by d.len - i

theorem byteLoop_spec (f : Mem) (addr : Nat) (d : HBuf) : ∀ n i, d.len - i = n → i ≤ d.len →
    byteLoop (written f addr d i) addr d i = .ok (written f addr d d.len) := by
  intro n
  induction n with
  | zero =>
    intro i hn hi
    rw [byteLoop, if_neg (by omega)]
    rw [show i = d.len by omega]
  | succ n ih =>
    intro i hn hi
    rw [byteLoop, if_pos (by omega)]
    rw [unit_step (j := i + 1) (Nat.mod_one _) (Nat.le_refl _) (by simp; omega) (by omega)
      (Or.inr (Nat.le_refl _)) (by intro h; simp at h) (by
        intro k hk
        have hk0 : k = 0 := by simp at hk; exact hk
        subst hk0
        rw [if_pos (by omega)]
        congr 1; omega)]
    exact ih (i + 1) (by omega) (by omega)

/-- **Byte-programmed flash**: every request is carried out exactly. -/
theorem byte_write_exact (f : Mem) (addr : Nat) (d : HBuf) :
    byteLoop f addr d 0 = .ok (written f addr d d.len) := by
  have := byteLoop_spec f addr d d.len 0 (by omega) (by omega)
  rwa [written_zero] at this

/-! ## Word-programmable flash with a byte path: `nrf52.c`, `nrf5340.c`, `stm32l0.c` -/

/-- `/repo/hal/nrf52.c:65-94` (also `nrf5340.c:211-247`, and `stm32l0.c:97-125` where the flash
space base is added to both pointers): words when the distance to the end and the alignment of
both pointers allow it, otherwise a read-modify-write of one byte at `dst[i >> 2]` with `dst`
being `address - off` (no wrap: the flash does not start at address 0 for these requests). -/
def wordLoop (f : Mem) (addr : Nat) (d : HBuf) (i : Nat) : HwRes :=
  if i < d.len then
    if d.len - i > 3 ∧ (addr + i) % 4 = 0 ∧ (d.addr + i) % 4 = 0 then
      if 4 * (i / 4) + 4 ≤ d.len then
        match (⟨4, false⟩ : HDev).store f (addr + 4 * (i / 4)) (fun k => d.b (4 * (i / 4) + k)) with
        | .ok m => wordLoop m addr d (i + 4)
        | r => r
      else .oob
    else
      let off := (addr + i) % 4
      let p := addr - off + 4 * (i / 4)
      match (⟨4, false⟩ : HDev).store f p (fun k => if k = off then d.b i else f (p + k)) with
      | .ok m => wordLoop m addr d (i + 1)
      | r => r
  else .ok f
termination_by d.len - i

/-- The requests the word drivers carry out. -/
def WordOK (addr daddr len : Nat) : Prop :=
  len ≤ 1 ∨ (addr % 4 = 0 ∧ daddr % 4 = 0 ∧ len % 4 ≤ 1)

theorem wordLoop_ok (f : Mem) (addr : Nat) (d : HBuf) (hw : 3 ≤ addr)
    (hok : WordOK addr d.addr d.len) : ∀ n i, d.len - i = n → i ≤ d.len →
    (i % 4 = 0 ∨ i = d.len) →
    wordLoop (written f addr d i) addr d i = .ok (written f addr d d.len) := by
  intro n
  induction n using Nat.strongRecOn with
  | _ n ih =>
    intro i hn hi h4
    rw [wordLoop]
    by_cases hlt : i < d.len
    · have h4' : i % 4 = 0 := by omega
      have hi4 : 4 * (i / 4) = i := by omega
      rw [if_pos hlt]
      by_cases hf : d.len - i > 3 ∧ (addr + i) % 4 = 0 ∧ (d.addr + i) % 4 = 0
      · rw [if_pos hf, if_pos (by omega), hi4]
        rw [unit_step (j := i + 4) (by simp; omega) (Nat.le_refl _) (by simp; omega) (by omega)
          (Or.inr (Nat.le_refl _)) (by intro h; simp at h) (by
            intro k hk
            simp only at hk
            rw [if_pos (by omega)]
            congr 1; omega)]
        exact ih (d.len - (i + 4)) (by omega) (i + 4) rfl (by omega) (by omega)
      · rw [if_neg hf, hi4]
        have hlast : i + 1 = d.len := by
          rcases hok with h | h
          · omega
          · omega
        have hp : addr - (addr + i) % 4 + i
            = addr + i - (addr + i) % 4 := by omega
        dsimp only
        rw [hp]
        rw [unit_step (j := i + 1) (by simp; omega) (by omega) (by simp; omega) (by omega)
          (by
            rcases hok with h | h
            · left; omega
            · right; omega) (by intro h; simp at h) (by
            intro k hk
            simp only at hk
            by_cases hko : k = (addr + i) % 4
            · rw [if_pos hko, if_pos (by omega)]
              congr 1; omega
            · rw [if_neg hko, if_neg (by omega)])]
        exact ih (d.len - (i + 1)) (by omega) (i + 1) rfl (by omega) (by omega)
    · rw [if_neg hlt, show i = d.len by omega]

theorem word_store_align {f : Mem} {a : Nat} {w : Nat → Byte} (h : a % 4 ≠ 0) :
    (⟨4, false⟩ : HDev).store f a w = .align := by
  unfold HDev.store; rw [if_pos h]

theorem word_store_ok {f : Mem} {a : Nat} {w : Nat → Byte} (h : a % 4 = 0) :
    ∃ m, (⟨4, false⟩ : HDev).store f a w = .ok m := by
  unfold HDev.store
  rw [if_neg (by simp only; omega), if_neg (by intro h; simp at h)]
  exact ⟨_, rfl⟩

/-- A step of the word loop at a position that is not a multiple of four stores at an unaligned
address. -/
theorem wordLoop_odd (f : Mem) (addr : Nat) (d : HBuf) (hw : 3 ≤ addr) {i : Nat} (hi : i < d.len)
    (h4 : i % 4 ≠ 0) : wordLoop f addr d i = .align := by
  rw [wordLoop, if_pos hi]
  by_cases hf : d.len - i > 3 ∧ (addr + i) % 4 = 0 ∧ (d.addr + i) % 4 = 0
  · rw [if_pos hf, if_pos (by omega), word_store_align (by omega)]
  · rw [if_neg hf]
    dsimp only
    rw [word_store_align (by omega)]

theorem wordLoop_bad (addr : Nat) (d : HBuf) (hw : 3 ≤ addr)
    (hok : ¬ WordOK addr d.addr d.len) : ∀ n i, d.len - i = n → i % 4 = 0 → i < d.len →
    d.len - i ≥ 2 → ∀ f, (i = 0 ∨ (addr % 4 = 0 ∧ d.addr % 4 = 0 ∧ d.len % 4 ≥ 2)) →
    wordLoop f addr d i = .align := by
  intro n
  induction n using Nat.strongRecOn with
  | _ n ih =>
    intro i hn h4 hlt h2 f hst
    have hi4 : 4 * (i / 4) = i := by omega
    rw [wordLoop, if_pos hlt]
    by_cases hf : d.len - i > 3 ∧ (addr + i) % 4 = 0 ∧ (d.addr + i) % 4 = 0
    · rw [if_pos hf, if_pos (by omega), hi4]
      obtain ⟨m, hm⟩ := word_store_ok (f := f) (a := addr + i) (w := fun k => d.b (i + k)) hf.2.1
      rw [hm]
      have hl : d.len % 4 ≥ 2 := by
        unfold WordOK at hok
        omega
      exact ih (d.len - (i + 4)) (by omega) (i + 4) rfl (by omega) (by omega) (by omega) m
        (Or.inr ⟨by omega, by omega, hl⟩)
    · rw [if_neg hf]
      dsimp only
      obtain ⟨m, hm⟩ := word_store_ok (f := f)
        (a := (addr - (addr + i) % 4 + 4 * (i / 4)))
        (w := fun k => if k = (addr + i) % 4 then d.b i
          else f ((addr - (addr + i) % 4 + 4 * (i / 4)) + k)) (by omega)
      rw [hm]
      exact wordLoop_odd m addr d hw (by omega) (by omega)

/-- **nRF52, nRF5340, STM32L0**: a request is carried out exactly if it is a single byte, or if
both addresses are word aligned and at most one byte remains after the last whole word; every
other request makes the driver access an unaligned word. -/
theorem word_write_iff (f : Mem) (addr : Nat) (d : HBuf) (hw : 3 ≤ addr) :
    (WordOK addr d.addr d.len → wordLoop f addr d 0 = .ok (written f addr d d.len)) ∧
    (¬ WordOK addr d.addr d.len → wordLoop f addr d 0 = .align) := by
  constructor
  · intro h
    have := wordLoop_ok f addr d hw h d.len 0 (by omega) (by omega) (by omega)
    rwa [written_zero] at this
  · intro h
    have h2 : d.len ≥ 2 := by unfold WordOK at h; omega
    exact wordLoop_bad addr d hw h d.len 0 (by omega) (by omega) (by omega) (by omega) f (Or.inl rfl)

/-! ## 64-bit units: `stm32g0.c`, `stm32c0.c`, `stm32wb.c`, `stm32l4.c` -/

/-- `/repo/hal/stm32g0.c:119-157` (also `stm32c0.c:135-173`, `stm32wb.c:164-208`,
`stm32l4.c:125-175`): two words when both pointers are aligned to 8 and more than 3 bytes are
left, otherwise a read-modify-write at `base_addr + 4 * (i >> 2)` with `base_addr = address & ~7`.
`fo` is the constant added to the address on the first path only (`FLASHMEM_ADDRESS_SPACE` on G0
and C0, 0 on WB and L4). -/
def dwLoop (fo : Nat) (f : Mem) (addr : Nat) (d : HBuf) (i : Nat) : HwRes :=
  if i < d.len then
    if d.len - i > 3 ∧ (addr + i) % 8 = 0 ∧ (d.addr + i) % 8 = 0 then
      if 4 * (i / 4) + 8 ≤ d.len then
        match (⟨8, true⟩ : HDev).store f (addr + fo + 4 * (i / 4))
          (fun k => d.b (4 * (i / 4) + k)) with
        | .ok m => dwLoop fo m addr d (i + 8)
        | r => r
      else .oob
    else
      let off := (addr + i) % 8
      let n := min (8 - off) (d.len - i)
      let p := addr - addr % 8 + 4 * (i / 4)
      match (⟨8, true⟩ : HDev).store f p
        (fun k => if off ≤ k ∧ k < off + n then d.b (i + (k - off)) else f (p + k)) with
      | .ok m => dwLoop fo m addr d (i + n)
      | r => r
  else .ok f
termination_by d.len - i

/-- The requests the 64-bit drivers carry out: an aligned address, unless 4 to 7 bytes remain for
the double-word path; a request inside one unit; or both addresses in the middle of a unit and the
end at the end of a unit. -/
def DwOK (addr daddr len : Nat) : Prop :=
  (addr % 8 = 0 ∧ (daddr % 8 ≠ 0 ∨ len % 8 ≤ 3)) ∨
  (addr % 8 ≠ 0 ∧ addr % 8 + len ≤ 8) ∨
  (addr % 8 = 4 ∧ daddr % 8 = 4 ∧ (len + 4) % 8 = 0)

theorem dwLoop_ok (f : Mem) (addr : Nat) (d : HBuf) (hfr : Fresh ⟨8, true⟩ f addr d.len)
    (hok : DwOK addr d.addr d.len) : ∀ n i, d.len - i = n → i ≤ d.len →
    (i = 0 ∨ i = d.len ∨ ((addr + i) % 8 = 0 ∧ i % 4 = 0)) →
    dwLoop 0 (written f addr d i) addr d i = .ok (written f addr d d.len) := by
  intro n
  induction n using Nat.strongRecOn with
  | _ n ih =>
    intro i hn hi hst
    rw [dwLoop]
    by_cases hlt : i < d.len
    · rw [if_pos hlt]
      have hi4 : 4 * (i / 4) = i := by omega
      by_cases hf : d.len - i > 3 ∧ (addr + i) % 8 = 0 ∧ (d.addr + i) % 8 = 0
      · have h8 : i + 8 ≤ d.len := by unfold DwOK at hok; omega
        rw [if_pos hf, hi4, if_pos h8, Nat.add_zero]
        rw [unit_step (j := i + 8) (by simp; omega) (Nat.le_refl _) (by simp; omega) (by omega)
          (Or.inr (Nat.le_refl _))
          (fun he x hx1 hx2 => hfr he x (by simp only at hx2 ⊢; omega)
            (by simp only at hx2 ⊢; omega)) (by
            intro k hk
            simp only at hk
            rw [if_pos (by omega)]
            congr 1; omega)]
        exact ih (d.len - (i + 8)) (by omega) (i + 8) rfl (by omega) (by omega)
      · rw [if_neg hf, hi4]
        dsimp only
        have hp : addr - addr % 8 + i = addr + i - (addr + i) % 8 := by
          unfold DwOK at hok; omega
        rw [hp]
        rw [unit_step (j := i + min (8 - (addr + i) % 8) (d.len - i)) (by simp; omega) (by omega)
          (by simp only; omega) (by omega) (by omega)
          (fun he x hx1 hx2 => hfr he x (by simp only at hx2 ⊢; omega)
            (by simp only at hx2 ⊢; omega)) (by
            intro k hk
            simp only at hk
            by_cases hko : (addr + i) % 8 ≤ k ∧
                k < (addr + i) % 8 + min (8 - (addr + i) % 8) (d.len - i)
            · rw [if_pos hko, if_pos (by omega)]
              congr 1; omega
            · rw [if_neg hko, if_neg (by omega)])]
        refine ih (d.len - (i + min (8 - (addr + i) % 8) (d.len - i))) (by omega) _ rfl (by omega) ?_
        unfold DwOK at hok
        omega
    · rw [if_neg hlt, show i = d.len by omega]

/-- **STM32WB, STM32L4 (and the slow path of G0 and C0)**: the requests in `DwOK` on erased units
are carried out exactly. -/
theorem dw_write_exact (f : Mem) (addr : Nat) (d : HBuf) (hfr : Fresh ⟨8, true⟩ f addr d.len)
    (hok : DwOK addr d.addr d.len) : dwLoop 0 f addr d 0 = .ok (written f addr d d.len) := by
  have := dwLoop_ok f addr d hfr hok d.len 0 (by omega) (by omega) (Or.inl rfl)
  rwa [written_zero] at this

/-- Programming only clears bits. -/
theorem store_zero {v : HDev} {f m : Mem} {a : Nat} {w : Nat → Byte} (h : v.store f a w = .ok m)
    {x : Nat} (hx : f x = 0#8) : m x = 0#8 := by
  unfold HDev.store at h
  by_cases h1 : a % v.unit ≠ 0
  · rw [if_pos h1] at h; cases h
  · rw [if_neg h1] at h
    split at h
    · cases h
    · cases h
      dsimp only
      split
      · rw [hx]; simp
      · exact hx

/-- Bytes outside the programmed unit keep their contents. -/
theorem store_out {v : HDev} {f m : Mem} {a : Nat} {w : Nat → Byte} (h : v.store f a w = .ok m)
    {x : Nat} (hx : x < a ∨ a + v.unit ≤ x) : m x = f x := by
  unfold HDev.store at h
  by_cases h1 : a % v.unit ≠ 0
  · rw [if_pos h1] at h; cases h
  · rw [if_neg h1] at h
    split at h
    · cases h
    · cases h
      dsimp only
      rw [if_neg (by omega)]

/-- A byte of the programmed unit. -/
theorem store_in {v : HDev} {f m : Mem} {a : Nat} {w : Nat → Byte} (h : v.store f a w = .ok m)
    {x : Nat} (h1 : a ≤ x) (h2 : x < a + v.unit) : m x = f x &&& w (x - a) := by
  unfold HDev.store at h
  by_cases h3 : a % v.unit ≠ 0
  · rw [if_pos h3] at h; cases h
  · rw [if_neg h3] at h
    split at h
    · cases h
    · cases h
      dsimp only
      rw [if_pos ⟨h1, h2⟩]

/-- An erased aligned unit can be programmed. -/
theorem store_fresh {v : HDev} {f : Mem} {a : Nat} {w : Nat → Byte} (h : a % v.unit = 0)
    (hf : v.ecc = true → ∀ k, k < v.unit → f (a + k) = 0xFF#8) :
    v.store f a w = .ok (fun x => if a ≤ x ∧ x < a + v.unit then f x &&& w (x - a) else f x) := by
  unfold HDev.store
  rw [if_neg (by rw [h]; simp), if_neg]
  rintro ⟨he, hn, _⟩
  exact hn (hf he)

theorem store_align {v : HDev} {f : Mem} {a : Nat} {w : Nat → Byte} (h : a % v.unit ≠ 0) :
    v.store f a w = .align := by
  unfold HDev.store; rw [if_pos h]

theorem dwLoop_zero (fo addr : Nat) (d : HBuf) (x : Nat) : ∀ n i f m, d.len - i = n →
    dwLoop fo f addr d i = .ok m → f x = 0#8 → m x = 0#8 := by
  intro n
  induction n using Nat.strongRecOn with
  | _ n ih =>
    intro i f m hn h hx
    rw [dwLoop] at h
    by_cases hlt : i < d.len
    · rw [if_pos hlt] at h
      by_cases hf : d.len - i > 3 ∧ (addr + i) % 8 = 0 ∧ (d.addr + i) % 8 = 0
      · rw [if_pos hf] at h
        split at h
        · split at h
          · rename_i m1 hm1
            exact ih (d.len - (i + 8)) (by omega) (i + 8) m1 m rfl h (store_zero hm1 hx)
          · rename_i r hr
            exact absurd h (hr m)
        · cases h
      · rw [if_neg hf] at h
        dsimp only at h
        split at h
        · rename_i m1 hm1
          exact ih (d.len - (i + min (8 - (addr + i) % 8) (d.len - i))) (by omega) _ m1 m rfl h
            (store_zero hm1 hx)
        · rename_i r hr
          exact absurd h (hr m)
    · rw [if_neg hlt] at h
      cases h; exact hx

/-- The double-word path with an incomplete last unit, or an odd tail after a start in the middle
of a unit, never completes. -/
theorem dwLoop_tail (addr : Nat) (d : HBuf) : ∀ n i, d.len - i = n → i < d.len → i % 4 = 0 →
    (addr + i) % 8 = 0 → (d.addr + i) % 8 = 0 →
    ((4 ≤ (d.len - i) % 8) ∨ (addr % 8 = 4 ∧ (d.len - i) % 8 ≠ 0)) →
    ∀ f m, dwLoop 0 f addr d i ≠ .ok m := by
  intro n
  induction n using Nat.strongRecOn with
  | _ n ih =>
    intro i hn hlt h4 h8 hd8 hc f m h
    have hi4 : 4 * (i / 4) = i := by omega
    rw [dwLoop, if_pos hlt] at h
    by_cases hf : d.len - i > 3 ∧ (addr + i) % 8 = 0 ∧ (d.addr + i) % 8 = 0
    · rw [if_pos hf] at h
      split at h
      · split at h
        · rename_i m1 hm1
          exact ih (d.len - (i + 8)) (by omega) (i + 8) rfl (by omega) (by omega) (by omega)
            (by omega) (by omega) m1 m h
        · rename_i r hr
          exact absurd h (hr m)
      · cases h
    · rw [if_neg hf] at h
      dsimp only at h
      rw [store_align (by simp only; omega)] at h
      cases h

/-- **The other requests of the 64-bit drivers go wrong**: for zero bytes on erased flash the call
does not complete with the requested contents. -/
theorem dw_write_bad (addr daddr len : Nat) (hok : ¬ DwOK addr daddr len) :
    dwLoop 0 (fun _ => 0xFF#8) addr ⟨daddr, len, fun _ => 0#8⟩ 0 ≠
      .ok (written (fun _ => 0xFF#8) addr ⟨daddr, len, fun _ => 0#8⟩ len) := by
  unfold DwOK at hok
  by_cases hA : addr % 8 = 0
  · have hd : daddr % 8 = 0 ∧ 4 ≤ len % 8 := by omega
    exact dwLoop_tail addr ⟨daddr, len, fun _ => 0#8⟩ len 0 rfl (by simp only; omega) (by omega)
      (by omega) (by simp only; omega) (by simp only; omega) _ _
  · intro h
    have hlen : addr % 8 + len > 8 := by omega
    rw [dwLoop, if_pos (by simp only; omega), if_neg (by omega)] at h
    dsimp only at h
    simp only [Nat.add_zero] at h
    have hmin : min (8 - addr % 8) (len - 0) = 8 - addr % 8 := by omega
    split at h
    · rename_i m1 hm1
      rw [Nat.zero_add, hmin] at h
      by_cases hD : len - (8 - addr % 8) > 3 ∧ (daddr + (8 - addr % 8)) % 8 = 0
      · by_cases h4 : addr % 8 = 4
        · exact dwLoop_tail addr ⟨daddr, len, fun _ => 0#8⟩ _ (8 - addr % 8) rfl
            (by simp only; omega) (by omega) (by omega) (by simp only; omega)
            (by simp only; omega) _ _ h
        · rw [dwLoop, if_pos (by simp only; omega), if_pos ⟨hD.1, by omega, hD.2⟩] at h
          split at h
          · rw [store_align (by simp only; omega)] at h
            cases h
          · cases h
      · rw [dwLoop, if_pos (by simp only; omega), if_neg (by simp only; omega)] at h
        dsimp only at h
        by_cases h5 : addr % 8 ≤ 4
        · rw [store_align (by simp only; omega)] at h
          cases h
        · split at h
          · rename_i m2 hm2
            have hz : m2 (addr - addr % 8) = 0#8 := by
              have hp : addr - addr % 8 + 4 * ((8 - addr % 8) / 4) = addr - addr % 8 := by omega
              rw [hp] at hm2
              rw [store_in hm2 (Nat.le_refl _) (by simp only; omega)]
              rw [Nat.sub_self, if_pos (by omega)]
              simp
            have hz2 := dwLoop_zero 0 addr ⟨daddr, len, fun _ => 0#8⟩ (addr - addr % 8) _ _ _ _ rfl
              h hz
            unfold written at hz2
            rw [if_neg (by omega)] at hz2
            have h3 : (0xFF#8 : Byte) = 0#8 := hz2
            revert h3; decide
          · rename_i r hr
            exact absurd h (hr _)
    · rename_i r hr
      exact absurd h (hr _)

/-- **STM32WB, STM32L4**: `DwOK` is exactly the set of requests that are carried out for all
contents of the buffer and all erased flashes. -/
theorem dw_write_iff (addr daddr len : Nat) :
    (∀ f b, Fresh ⟨8, true⟩ f addr len →
      dwLoop 0 f addr ⟨daddr, len, b⟩ 0 = .ok (written f addr ⟨daddr, len, b⟩ len))
    ↔ DwOK addr daddr len := by
  constructor
  · intro h
    apply Classical.byContradiction
    intro hn
    exact dw_write_bad addr daddr len hn (h _ _ (fun _ _ _ _ => rfl))
  · intro h f b hf
    exact dw_write_exact f addr ⟨daddr, len, b⟩ hf h

/-- **STM32G0, STM32C0**: with both pointers aligned the first path stores at
`address + FLASHMEM_ADDRESS_SPACE`, the second path at `address`. A request for one aligned
double word leaves the requested addresses as they were. -/
theorem g0_fast_path_elsewhere (fo : Nat) (f m : Mem) (addr : Nat) (d : HBuf) (h8 : d.len = 8)
    (ha : addr % 8 = 0) (hd : d.addr % 8 = 0) (hfo : 8 ≤ fo)
    (h : dwLoop fo f addr d 0 = .ok m) (x : Nat) (h1 : addr ≤ x) (h2 : x < addr + 8) :
    m x = f x := by
  rw [dwLoop, if_pos (by omega), if_pos ⟨by omega, by omega, by omega⟩, if_pos (by omega)] at h
  split at h
  · rename_i m1 hm1
    rw [dwLoop, if_neg (by omega)] at h
    cases h
    exact store_out hm1 (Or.inl (by omega))
  · rename_i r hr
    exact absurd h (hr _)

/-! ## SAM R21 and SAM E51 -/

/-- `/repo/hal/samr21.c:158-193`, `/repo/hal/same51.c:339-374`: `off` is `address % 4` in every
round of the slow path. The commands that move the page buffer of the chip into the flash array
are not modelled. -/
def samLoop (f : Mem) (addr : Nat) (d : HBuf) (i : Nat) : HwRes :=
  if i < d.len then
    if d.len - i > 3 ∧ (addr + i) % 4 = 0 ∧ (d.addr + i) % 4 = 0 then
      if 4 * (i / 4) + 4 ≤ d.len then
        match (⟨4, false⟩ : HDev).store f (addr + 4 * (i / 4)) (fun k => d.b (4 * (i / 4) + k)) with
        | .ok m => samLoop m addr d (i + 4)
        | r => r
      else .oob
    else
      let off := addr % 4
      let p := addr - off + 4 * ((i + off) / 4)
      let n := min (4 - off) (d.len - i)
      match (⟨4, false⟩ : HDev).store f p
        (fun k => if off ≤ k ∧ k < off + n then d.b (i + (k - off)) else f (p + k)) with
      | .ok m => samLoop m addr d (i + n)
      | r => r
  else .ok f
termination_by d.len - i
decreasing_by all_goals omega

/-- The requests the SAM drivers carry out: an aligned address, or a request inside one word. -/
def SamOK (addr len : Nat) : Prop := addr % 4 = 0 ∨ addr % 4 + len ≤ 4

theorem samLoop_ok (f : Mem) (addr : Nat) (d : HBuf) (hok : SamOK addr d.len) :
    ∀ n i, d.len - i = n → i ≤ d.len →
    (i = 0 ∨ i = d.len ∨ (addr % 4 = 0 ∧ i % 4 = 0)) →
    samLoop (written f addr d i) addr d i = .ok (written f addr d d.len) := by
  intro n
  induction n using Nat.strongRecOn with
  | _ n ih =>
    intro i hn hi hst
    rw [samLoop]
    by_cases hlt : i < d.len
    · rw [if_pos hlt]
      have hi4 : 4 * (i / 4) = i := by omega
      by_cases hf : d.len - i > 3 ∧ (addr + i) % 4 = 0 ∧ (d.addr + i) % 4 = 0
      · rw [if_pos hf, hi4, if_pos (by omega)]
        rw [unit_step (j := i + 4) (by simp; omega) (Nat.le_refl _) (by simp; omega) (by omega)
          (Or.inr (Nat.le_refl _)) (by intro h; simp at h) (by
            intro k hk
            simp only at hk
            rw [if_pos (by omega)]
            congr 1; omega)]
        exact ih (d.len - (i + 4)) (by omega) (i + 4) rfl (by omega) (by unfold SamOK at hok; omega)
      · rw [if_neg hf]
        dsimp only
        rw [unit_step (j := i + min (4 - addr % 4) (d.len - i)) (by simp; omega) (by omega)
          (by simp only; omega) (by omega) (by omega) (by intro h; simp at h) (by
            intro k hk
            simp only at hk
            by_cases hko : addr % 4 ≤ k ∧ k < addr % 4 + min (4 - addr % 4) (d.len - i)
            · rw [if_pos hko, if_pos (by omega)]
              congr 1; omega
            · rw [if_neg hko, if_neg (by omega)])]
        refine ih (d.len - (i + min (4 - addr % 4) (d.len - i))) (by omega) _ rfl (by omega) ?_
        unfold SamOK at hok
        omega
    · rw [if_neg hlt, show i = d.len by omega]

/-- With an unaligned address the SAM drivers never touch the bytes at the start of a word. -/
theorem samLoop_skip (addr : Nat) (d : HBuf) (x : Nat) (hx : x % 4 < addr % 4) :
    ∀ n i f m, d.len - i = n → samLoop f addr d i = .ok m → m x = f x := by
  intro n
  induction n using Nat.strongRecOn with
  | _ n ih =>
    intro i f m hn h
    rw [samLoop] at h
    by_cases hlt : i < d.len
    · rw [if_pos hlt] at h
      by_cases hf : d.len - i > 3 ∧ (addr + i) % 4 = 0 ∧ (d.addr + i) % 4 = 0
      · rw [if_pos hf] at h
        split at h
        · rw [store_align (by simp only; omega)] at h
          cases h
        · cases h
      · rw [if_neg hf] at h
        dsimp only at h
        split at h
        · rename_i m1 hm1
          rw [ih (d.len - (i + min (4 - addr % 4) (d.len - i))) (by omega) _ m1 m rfl h]
          by_cases hin : addr - addr % 4 + 4 * ((i + addr % 4) / 4) ≤ x ∧
              x < addr - addr % 4 + 4 * ((i + addr % 4) / 4) + 4
          · rw [store_in hm1 hin.1 hin.2, if_neg (by omega)]
            rw [show addr - addr % 4 + 4 * ((i + addr % 4) / 4) +
              (x - (addr - addr % 4 + 4 * ((i + addr % 4) / 4))) = x by omega, and_self8]
          · exact store_out hm1 (by simp only; omega)
        · rename_i r hr
          exact absurd h (hr _)
    · rw [if_neg hlt] at h
      cases h; rfl

/-- **SAM R21, SAM E51**: `SamOK` is exactly the set of requests that are carried out for all
contents. -/
theorem sam_write_iff (addr daddr len : Nat) :
    (∀ f b, samLoop f addr ⟨daddr, len, b⟩ 0 = .ok (written f addr ⟨daddr, len, b⟩ len))
    ↔ SamOK addr len := by
  constructor
  · intro h
    apply Classical.byContradiction
    intro hn
    unfold SamOK at hn
    have h1 := h (fun _ => 0xFF#8) (fun _ => 0#8)
    have h2 := samLoop_skip addr ⟨daddr, len, fun _ => 0#8⟩ (addr - addr % 4 + 4)
      (by omega) _ _ _ _ rfl h1
    unfold written at h2
    rw [if_pos (by omega)] at h2
    have h3 : (0xFF#8 &&& 0#8 : Byte) = 0xFF#8 := h2
    revert h3; decide
  · intro h f b
    have := samLoop_ok f addr ⟨daddr, len, b⟩ h len 0 (by simp) (by simp) (Or.inl rfl)
    rwa [written_zero] at this

/-! ## Examples -/

/-- STM32F4: three bytes at an odd address. -/
example : ∃ m, byteLoop (fun _ => 0xFF#8) 0x08020001 ⟨0, 3, fun k => BitVec.ofNat 8 k⟩ 0 = .ok m ∧
    m 0x08020003 = 2#8 ∧ m 0x08020004 = 0xFF#8 :=
  ⟨_, byte_write_exact _ _ _, by decide, by decide⟩

/-- nRF52: nine bytes from aligned addresses are written; eight bytes from an address that is
aligned to 2 are not. -/
example : (∃ m, wordLoop (fun _ => 0xFF#8) 0x20000 ⟨0x20000000, 9, fun k => BitVec.ofNat 8 k⟩ 0
      = .ok m ∧ m 0x20008 = 8#8) ∧
    wordLoop (fun _ => 0xFF#8) 0x20000 ⟨0x20000002, 8, fun k => BitVec.ofNat 8 k⟩ 0 = .align :=
  ⟨⟨_, (word_write_iff _ _ _ (by omega)).1 (by unfold WordOK; simp), by decide⟩,
    (word_write_iff _ _ _ (by omega)).2 (by unfold WordOK; simp)⟩

/-- STM32L4: five bytes inside a double word can be written, six bytes from an aligned buffer at an
aligned address cannot in general. -/
example : DwOK 0x08020003 0x20000000 5 ∧ ¬ DwOK 0x08020000 0x20000000 6 := by
  unfold DwOK; omega

example : ∃ m, dwLoop 0 (fun _ => 0xFF#8) 0x08020003 ⟨0x20000000, 5, fun _ => 7#8⟩ 0 = .ok m ∧
    m 0x08020007 = 7#8 :=
  ⟨_, dw_write_exact _ _ _ (fun _ _ _ _ => rfl) (by unfold DwOK; simp), by decide⟩

/-- STM32G0: one double word on an erased chip, the requested place stays erased. -/
example : ∃ m, dwLoop 0x08000000 (fun _ => 0xFF#8) 0x08008000 ⟨0x20000000, 8, fun _ => 7#8⟩ 0 = .ok m ∧
    m 0x08008000 = 0xFF#8 := by
  have h : ∃ m, dwLoop 0x08000000 (fun _ => 0xFF#8) 0x08008000 ⟨0x20000000, 8, fun _ => 7#8⟩ 0
      = .ok m := by
    rw [dwLoop, if_pos (by simp), if_pos (by simp), if_pos (by simp),
      store_fresh (by simp) (fun _ _ _ => rfl)]
    dsimp only
    rw [dwLoop, if_neg (by simp)]
    exact ⟨_, rfl⟩
  obtain ⟨m, h⟩ := h
  exact ⟨m, h, g0_fast_path_elsewhere _ _ m _ _ rfl (by omega) (by simp) (by omega) h _
    (Nat.le_refl _) (by omega)⟩

/-- SAM E51: seven bytes at an aligned address are written, two bytes across a word boundary are
not (for some contents). -/
example : (∃ m, samLoop (fun _ => 0xFF#8) 0x8000 ⟨1, 7, fun k => BitVec.ofNat 8 k⟩ 0 = .ok m ∧
      m 0x8006 = 6#8) ∧
    ¬ ∀ f b, samLoop f 0x8003 ⟨1, 2, b⟩ 0 = .ok (written f 0x8003 ⟨1, 2, b⟩ 2) :=
  ⟨⟨_, (sam_write_iff 0x8000 1 7).2 (by unfold SamOK; omega) _ _, by decide⟩,
    fun h => absurd ((sam_write_iff 0x8003 1 2).1 h) (by unfold SamOK; omega)⟩

end Verif
