import Verif.Tz

/-!
# What the non-secure application can reach

For all 2^32 addresses: which are non-secure, which non-secure callable (`l5_ns`, `l5_callable`, `h5_ns`, `h5_callable`, `rp_ns`, `rp_callable`), which blocks of SRAM are
secure (`l5_sram`, `h5_sram`, `u5_sram`, `rp_sram`), and that no memory of wolfBoot is reached through any alias (`l5_isolated`, `h5_isolated`, `rp_isolated`).
Findings: the callable area is 32 bytes too long (`l5_nsc_beyond`), on STM32H5 all of the secure RAM, on RP2350 also all of wolfBoot's flash can be entered
(`h5_ram_callable`, `rp_all_callable`), on STM32U5 the application has no RAM (`u5_no_ram`), and `wcs_get_random` writes wherever the application wants (`random_overwrites`).
-/

namespace Verif

namespace Tz

/-! ## The attribution unit of ARMv8-M -/

/-- Region `r` is enabled and contains `a`; the five low bits of the limit are taken as ones. -/
def Match (s : Sau) (r a : Nat) : Prop := s.rlar r % 2 = 1 ∧ s.rbar r / 32 * 32 ≤ a ∧ a ≤ s.rlar r / 32 * 32 + 31

/-- Region `r` is the only one of the eight that contains `a`; an address in two regions is secure. -/
def Sole (s : Sau) (r a : Nat) : Prop := Match s r a ∧ ∀ j, j < 8 → Match s j a → j = r

/-- The unit says non-secure. -/
def SauNs (s : Sau) (a : Nat) : Prop := s.ctrl % 2 = 1 ∧ ∃ r, r < 8 ∧ Sole s r a ∧ s.rlar r / 2 % 2 = 0

/-- The unit says non-secure callable. -/
def SauNsc (s : Sau) (a : Nat) : Prop := s.ctrl % 2 = 1 ∧ ∃ r, r < 8 ∧ Sole s r a ∧ s.rlar r / 2 % 2 = 1

/-- The attribution fixed by the implementation (IDAU) of STM32L5, U5 and H5: the aliases with this property are at best non-secure callable. -/
def stAlias (a : Nat) : Prop := (0x0C000000 ≤ a ∧ a < 0x10000000) ∨ (0x30000000 ≤ a ∧ a < 0x40000000) ∨ (0x50000000 ≤ a ∧ a < 0x60000000)

/-- An address is non-secure if both units say so (STM32). -/
def StNs (s : Sau) (a : Nat) : Prop := SauNs s a ∧ ¬ stAlias a

/-- An address is non-secure callable: the stricter of both. -/
def StNsc (s : Sau) (a : Nat) : Prop := SauNsc s a ∨ (SauNs s a ∧ stAlias a)

/-- What is behind an address of STM32: flash, SRAM and peripherals have two aliases. -/
def phys (a : Nat) : Nat :=
  if 0x0C000000 ≤ a ∧ a < 0x10000000 then a - 0x04000000
  else if (0x30000000 ≤ a ∧ a < 0x40000000) ∨ (0x50000000 ≤ a ∧ a < 0x60000000) then a - 0x10000000 else a

/-! ## Regions -/

theorem and_mask {a : Nat} (h : a < 4294967296) : a &&& ADDR_MASK = a / 32 * 32 := by
  apply Nat.eq_of_testBit_eq
  intro i
  have e1 : a / 32 * 32 = (a >>> 5) <<< 5 := by rw [Nat.shiftLeft_eq, Nat.shiftRight_eq_div_pow]
  have e2 : ADDR_MASK = (2 ^ 27 - 1) <<< 5 := by decide
  rw [e1, e2, Nat.testBit_and, Nat.testBit_shiftLeft, Nat.testBit_shiftLeft, Nat.testBit_shiftRight, Nat.testBit_two_pow_sub_one]
  by_cases h5 : 5 ≤ i
  · by_cases h32 : i < 32
    · have : i - 5 < 27 := by omega
      simp [h5, this]
    · have : a.testBit i = false := Nat.testBit_lt_two_pow (Nat.lt_of_lt_of_le h (by
        calc 4294967296 = 2 ^ 32 := by decide
          _ ≤ 2 ^ i := Nat.pow_le_pow_right (by decide) (by omega)))
      have e3 : 5 + (i - 5) = i := by omega
      simp [h5, this, e3]
  · simp [h5]

theorem or_flags (k : Nat) (b : Bool) : 32 * k ||| (if b then REG_SECURE else 0) ||| REG_ENABLE = 32 * k + (if b then 3 else 1) := by
  rw [Nat.or_assoc]
  have e : (if b then REG_SECURE else 0) ||| REG_ENABLE = if b then 3 else 1 := by cases b <;> rfl
  rw [e]
  exact (Nat.two_pow_add_eq_or_of_lt (i := 5) (by cases b <;> decide) k).symm

/-- A region as the arguments say. -/
def put (s : Sau) (r lo hi : Nat) (b : Bool) : Sau :=
  { s with rnr := r, rbar := upd s.rbar r (lo / 32 * 32), rlar := upd s.rlar r (hi / 32 * 32 + (if b then 3 else 1)) }

theorem init_put {s : Sau} {r lo hi : Nat} {b : Bool} (hr : r < 8) (hl : lo < 4294967296) (hh : hi < 4294967296) :
    initRegion s r lo hi b = put s r lo hi b := by
  unfold initRegion put
  have er : r &&& REGION_MASK = r := by
    have : ∀ r, r < 8 → r &&& REGION_MASK = r := by decide
    exact this r hr
  dsimp only
  rw [er, and_mask hl, and_mask hh, Nat.mul_comm (hi / 32) 32, or_flags]

theorem put_match_same {s : Sau} {r lo hi a : Nat} {b : Bool} : Match (put s r lo hi b) r a ↔ lo / 32 * 32 ≤ a ∧ a ≤ hi / 32 * 32 + 31 := by
  unfold Match put
  simp only [upd, if_true]
  cases b <;> simp <;> omega

theorem put_match_other {s : Sau} {r lo hi a j : Nat} {b : Bool} (h : j ≠ r) : Match (put s r lo hi b) j a ↔ Match s j a := by
  unfold Match put
  simp only [upd, h, if_false]

theorem put_flag_same {s : Sau} {r lo hi : Nat} {b : Bool} : (put s r lo hi b).rlar r / 2 % 2 = if b then 1 else 0 := by
  unfold put
  simp only [upd, if_true]
  cases b <;> simp <;> omega

theorem put_flag_other {s : Sau} {r lo hi j : Nat} {b : Bool} (h : j ≠ r) : (put s r lo hi b).rlar j = s.rlar j := by
  unfold put
  simp only [upd, h, if_false]

theorem ctrl_match {s : Sau} {c j a : Nat} : Match { s with ctrl := c } j a ↔ Match s j a := Iff.rfl

theorem eight {P : Nat → Prop} : (∃ r, r < 8 ∧ P r) ↔ P 0 ∨ P 1 ∨ P 2 ∨ P 3 ∨ P 4 ∨ P 5 ∨ P 6 ∨ P 7 := by
  constructor
  · rintro ⟨r, h, hp⟩
    have : r = 0 ∨ r = 1 ∨ r = 2 ∨ r = 3 ∨ r = 4 ∨ r = 5 ∨ r = 6 ∨ r = 7 := by omega
    rcases this with e | e | e | e | e | e | e | e <;> subst e <;> simp [hp]
  · rintro (h | h | h | h | h | h | h | h)
    · exact ⟨0, by decide, h⟩
    · exact ⟨1, by decide, h⟩
    · exact ⟨2, by decide, h⟩
    · exact ⟨3, by decide, h⟩
    · exact ⟨4, by decide, h⟩
    · exact ⟨5, by decide, h⟩
    · exact ⟨6, by decide, h⟩
    · exact ⟨7, by decide, h⟩

theorem all_eight {P : Nat → Prop} : (∀ r, r < 8 → P r) ↔ P 0 ∧ P 1 ∧ P 2 ∧ P 3 ∧ P 4 ∧ P 5 ∧ P 6 ∧ P 7 := by
  constructor
  · intro h
    exact ⟨h 0 (by decide), h 1 (by decide), h 2 (by decide), h 3 (by decide), h 4 (by decide), h 5 (by decide), h 6 (by decide), h 7 (by decide)⟩
  · rintro ⟨h0, h1, h2, h3, h4, h5, h6, h7⟩ r hr
    have : r = 0 ∨ r = 1 ∨ r = 2 ∨ r = 3 ∨ r = 4 ∨ r = 5 ∨ r = 6 ∨ r = 7 := by omega
    rcases this with e | e | e | e | e | e | e | e <;> subst e <;> assumption

/-- A table of eight regions: bounds (or none) and whether callable. -/
structure Table (s : Sau) (T : Nat → Nat → Prop) (C : Nat → Prop) : Prop where
  on : s.ctrl % 2 = 1
  hit : ∀ r a, r < 8 → (Match s r a ↔ T r a)
  flag : ∀ r, r < 8 → (∃ a, T r a) → (s.rlar r / 2 % 2 = 1 ↔ C r)
  apart : ∀ r j a, r < 8 → j < 8 → T r a → T j a → j = r

theorem table_ns {s : Sau} {T : Nat → Nat → Prop} {C : Nat → Prop} (h : Table s T C) (a : Nat) : SauNs s a ↔ ∃ r, r < 8 ∧ T r a ∧ ¬ C r := by
  constructor
  · rintro ⟨_, r, hr, ⟨hm, _⟩, hf⟩
    have ht := (h.hit r a hr).1 hm
    exact ⟨r, hr, ht, fun hc => by have := (h.flag r hr ⟨a, ht⟩).2 hc; omega⟩
  · rintro ⟨r, hr, ht, hc⟩
    refine ⟨h.on, r, hr, ⟨(h.hit r a hr).2 ht, fun j hj hm => h.apart r j a hr hj ht ((h.hit j a hj).1 hm)⟩, ?_⟩
    have : ¬ s.rlar r / 2 % 2 = 1 := fun hh => hc ((h.flag r hr ⟨a, ht⟩).1 hh)
    omega

theorem table_nsc {s : Sau} {T : Nat → Nat → Prop} {C : Nat → Prop} (h : Table s T C) (a : Nat) : SauNsc s a ↔ ∃ r, r < 8 ∧ T r a ∧ C r := by
  constructor
  · rintro ⟨_, r, hr, ⟨hm, _⟩, hf⟩
    have ht := (h.hit r a hr).1 hm
    exact ⟨r, hr, ht, (h.flag r hr ⟨a, ht⟩).1 hf⟩
  · rintro ⟨r, hr, ht, hc⟩
    exact ⟨h.on, r, hr, ⟨(h.hit r a hr).2 ht, fun j hj hm => h.apart r j a hr hj ht ((h.hit j a hj).1 hm)⟩, (h.flag r hr ⟨a, ht⟩).2 hc⟩

/-! ## STM32L5 and U5 -/

/-- Regions 4 to 7, which `hal_tz_sau_init` does not set, are disabled. -/
def Clean (s : Sau) : Prop := ∀ r, 4 ≤ r → r < 8 → s.rlar r % 2 = 0

/-- The regions of STM32L5. -/
def tabL5 (r a : Nat) : Prop :=
  (r = 0 ∧ 0x0C038000 ≤ a ∧ a ≤ 0x0C04001F) ∨ (r = 1 ∧ 0x08040000 ≤ a ∧ a ≤ 0x0807FFFF) ∨ (r = 2 ∧ 0x20020000 ≤ a ∧ a ≤ 0x2003FFFF) ∨
    (r = 3 ∧ 0x40000000 ≤ a ∧ a ≤ 0x4FFFFFFF)

theorem l5_table {s : Sau} (h : Clean s) : Table (sauL5 s) tabL5 (· = 0) := by
  have e : sauL5 s = { put (put (put (put s 0 0x0C038000 0x0C040000 true) 1 0x08040000 0x0807FFFF false) 2 0x20020000 0x2003FFFF false) 3
      0x40000000 0x4FFFFFFF false with ctrl := 1 } := by
    unfold sauL5
    simp (disch := first | decide | omega) only [init_put]
    rfl
  rw [e]
  refine ⟨rfl, ?_, ?_, ?_⟩
  · intro r a hr
    rw [ctrl_match]
    unfold tabL5
    by_cases h3 : r = 3
    · subst h3; rw [put_match_same]; omega
    rw [put_match_other h3]
    by_cases h2 : r = 2
    · subst h2; rw [put_match_same]; omega
    rw [put_match_other h2]
    by_cases h1 : r = 1
    · subst h1; rw [put_match_same]; omega
    rw [put_match_other h1]
    by_cases h0 : r = 0
    · subst h0; rw [put_match_same]; omega
    rw [put_match_other h0]
    have := h r (by omega) hr
    unfold Match
    omega
  · rintro r hr ⟨a, ht⟩
    dsimp only
    unfold tabL5 at ht
    by_cases h3 : r = 3
    · subst h3; rw [put_flag_same]; simp
    rw [put_flag_other h3]
    by_cases h2 : r = 2
    · subst h2; rw [put_flag_same]; simp
    rw [put_flag_other h2]
    by_cases h1 : r = 1
    · subst h1; rw [put_flag_same]; simp
    rw [put_flag_other h1]
    have h0 : r = 0 := by omega
    subst h0; rw [put_flag_same]; simp
  · intro r j a hr hj h1 h2
    unfold tabL5 at h1 h2
    omega

/-- Non-secure on STM32L5 and U5 are exactly the second half of 512 KiB of flash, the second half of 256 KiB of SRAM, and the non-secure alias of the peripherals. -/
theorem l5_ns {s : Sau} (h : Clean s) (a : Nat) :
    StNs (sauL5 s) a ↔ (0x08040000 ≤ a ∧ a ≤ 0x0807FFFF) ∨ (0x20020000 ≤ a ∧ a ≤ 0x2003FFFF) ∨ (0x40000000 ≤ a ∧ a ≤ 0x4FFFFFFF) := by
  unfold StNs
  rw [table_ns (l5_table h)]
  unfold stAlias tabL5
  constructor
  · rintro ⟨⟨r, hr, ht, hc⟩, hn⟩
    omega
  · rintro (ha | ha | ha)
    · exact ⟨⟨1, by decide, by omega, by decide⟩, by omega⟩
    · exact ⟨⟨2, by decide, by omega, by decide⟩, by omega⟩
    · exact ⟨⟨3, by decide, by omega, by decide⟩, by omega⟩

/-- Non-secure callable is exactly the area of the stubs and the 32 bytes that follow it. -/
theorem l5_callable {s : Sau} (h : Clean s) (a : Nat) : StNsc (sauL5 s) a ↔ 0x0C038000 ≤ a ∧ a ≤ 0x0C04001F := by
  unfold StNsc
  rw [table_ns (l5_table h), table_nsc (l5_table h)]
  unfold stAlias tabL5
  constructor
  · rintro (⟨r, hr, ht, hc⟩ | ⟨⟨r, hr, ht, hc⟩, hn⟩) <;> omega
  · intro ha
    exact Or.inl ⟨0, by decide, by omega, rfl⟩

/-- **Finding.** The callable area reaches 32 bytes into the partition of the application: the limit given is the address after the area, while the unit takes its five
low bits as ones. -/
theorem l5_nsc_beyond {s : Sau} (h : Clean s) {a : Nat} (h1 : 0x0C040000 ≤ a) (h2 : a < 0x0C040020) : StNsc (sauL5 s) a ∧ 0x08040000 ≤ phys a := by
  refine ⟨(l5_callable h a).2 (by omega), ?_⟩
  unfold phys
  rw [if_pos (by omega)]
  omega

/-! ## SRAM -/

/-- The block of `bs` bytes that contains offset `o` is secure: one bit per block, 32 blocks per register. -/
def blockSecure (f : Nat → Nat) (bs o : Nat) : Bool := (f (o / bs / 32)).testBit (o / bs % 32)

theorem fill_spec (v : Nat) : ∀ n i f j, fill v n i f j = if i ≤ j ∧ j < i + n then v else f j := by
  intro n
  induction n with
  | zero => intro i f j; rw [fill, if_neg (by omega)]
  | succ n ih =>
    intro i f j
    rw [fill, ih]
    unfold upd
    by_cases h : j = i
    · subst h; rw [if_neg (by omega), if_pos rfl, if_pos (by omega)]
    · by_cases h2 : i + 1 ≤ j ∧ j < i + 1 + n
      · rw [if_pos h2, if_pos (by omega)]
      · rw [if_neg h2, if_neg h, if_neg (by omega)]

theorem ones (i : Nat) (h : i < 32) : Nat.testBit 0xFFFFFFFF i = true := by
  rw [show 0xFFFFFFFF = 2 ^ 32 - 1 from rfl, Nat.testBit_two_pow_sub_one]
  simpa using h

theorem block_ones {f : Nat → Nat} {bs o : Nat} (h : f (o / bs / 32) = 0xFFFFFFFF) : blockSecure f bs o = true := by
  unfold blockSecure
  rw [h, ones _ (Nat.mod_lt _ (by decide))]

theorem block_zero {f : Nat → Nat} {bs o : Nat} (h : f (o / bs / 32) = 0) : blockSecure f bs o = false := by
  unfold blockSecure
  rw [h, Nat.zero_testBit]

/-- SRAM1 and SRAM2 of STM32L5, blocks of 256 bytes (RM0438). -/
def sramL5 (g : Gtzc) (o : Nat) : Bool := if o < 0x30000 then blockSecure g.b1 256 o else blockSecure g.b2 256 (o - 0x30000)

/-- Exactly the first half of the SRAM is secure on STM32L5. -/
theorem l5_sram (g : Gtzc) {o : Nat} (h : o < 0x40000) : sramL5 (gtzcL5 g) o = true ↔ o < 0x20000 := by
  unfold sramL5 gtzcL5
  dsimp only
  by_cases h1 : o < 0x20000
  · rw [if_pos (by omega), block_ones]
    · simp [h1]
    · rw [fill_spec, if_neg (by omega), fill_spec, if_pos (by omega)]
  · by_cases h2 : o < 0x30000
    · rw [if_pos h2, block_zero]
      · simp; omega
      · rw [fill_spec, if_pos (by omega)]
    · rw [if_neg h2, block_zero]
      · simp; omega
      · rw [fill_spec, if_pos (by omega)]

/-- Non-secure code reaches `a` on STM32L5. -/
def L5Reach (s : Sau) (g : Gtzc) (a : Nat) : Prop := StNs s a ∧ (0x20000000 ≤ a → a < 0x20040000 → sramL5 g (a - 0x20000000) = false)

/-- What is reached, exactly. -/
theorem l5_reach {s : Sau} (h : Clean s) (g : Gtzc) (a : Nat) :
    L5Reach (sauL5 s) (gtzcL5 g) a ↔ (0x08040000 ≤ a ∧ a ≤ 0x0807FFFF) ∨ (0x20020000 ≤ a ∧ a ≤ 0x2003FFFF) ∨ (0x40000000 ≤ a ∧ a ≤ 0x4FFFFFFF) := by
  unfold L5Reach
  rw [l5_ns h]
  constructor
  · exact fun hh => hh.1
  · intro hh
    refine ⟨hh, fun h1 h2 => ?_⟩
    have := l5_sram g (o := a - 0x20000000) (by omega)
    cases hc : sramL5 (gtzcL5 g) (a - 0x20000000) with
    | false => rfl
    | true => have := this.1 hc; omega

/-- The memory of wolfBoot on STM32L5 (`/repo/hal/stm32l5.ld:1-9`): text, key vault and stubs in the first bank, data, heap and RAM vault in the first half of the SRAM. -/
def L5Own (x : Nat) : Prop := (0x08000000 ≤ x ∧ x < 0x08040000) ∨ (0x20000000 ≤ x ∧ x < 0x20020000)

/-- No memory of wolfBoot is behind an address that the application reaches. -/
theorem l5_isolated {s : Sau} (h : Clean s) (g : Gtzc) {a : Nat} (ha : L5Reach (sauL5 s) (gtzcL5 g) a) : ¬ L5Own (phys a) := by
  rw [l5_reach h] at ha
  unfold L5Own phys
  rw [if_neg (by omega), if_neg (by omega)]
  omega

/-- SRAM1 and SRAM2 of STM32U5: 768 and 64 KiB, blocks of 512 bytes (RM0456). -/
def sramU5 (g : Gtzc) (o : Nat) : Bool := if o < 0xC0000 then blockSecure g.b1 512 o else blockSecure g.b2 512 (o - 0xC0000)

theorem u5_sram (g : Gtzc) {o : Nat} : (o < 0x40000 → sramU5 (gtzcL5 g) o = true) ∧ (0x40000 ≤ o → o < 0x60000 → sramU5 (gtzcL5 g) o = false) := by
  unfold sramU5 gtzcL5
  dsimp only
  constructor
  · intro h
    rw [if_pos (by omega), block_ones]
    rw [fill_spec, if_neg (by omega), fill_spec, if_pos (by omega)]
  · intro h1 h2
    rw [if_pos (by omega), block_zero]
    rw [fill_spec, if_pos (by omega)]

/-- Non-secure code reaches `a` on STM32U5. -/
def U5Reach (s : Sau) (g : Gtzc) (a : Nat) : Prop := StNs s a ∧ (0x20000000 ≤ a → a < 0x200D0000 → sramU5 g (a - 0x20000000) = false)

/-- **Finding.** On STM32U5 the application reaches no SRAM: the blocks are twice as large as on STM32L5, so that the memory the attribution unit declares non-secure is
secure for the memory protection controller. (The RAM of the application in `/repo/test-app/ARM-stm32u5-ns.ld:4` is non-secure for the controller only.) -/
theorem u5_no_ram {s : Sau} (h : Clean s) (g : Gtzc) {a : Nat} (h1 : 0x20000000 ≤ a) (h2 : a < 0x200D0000) : ¬ U5Reach (sauL5 s) (gtzcL5 g) a := by
  rintro ⟨ha, hb⟩
  rw [l5_ns h] at ha
  have := hb h1 h2
  rw [(u5_sram g).1 (by omega)] at this
  exact absurd this (by decide)

/-! ## STM32H5 -/

/-- Partitions of STM32H5: one in each bank, aligned. -/
structure H5Parts (boot update : Nat) : Prop where
  boot1 : 0x08000000 ≤ boot
  boot2 : boot < 0x08100000
  upd1 : 0x08100000 ≤ update
  upd2 : update < 0x08200000
  boot32 : boot % 32 = 0
  upd32 : update % 32 = 0

/-- The regions of STM32H5. -/
def tabH5 (boot update r a : Nat) : Prop :=
  (r = 0 ∧ 0x0C038000 ≤ a ∧ a ≤ 0x0C04001F) ∨ (r = 1 ∧ boot ≤ a ∧ a ≤ 0x080FFFFF) ∨ (r = 2 ∧ update ≤ a ∧ a ≤ 0x081FFFFF) ∨
    (r = 3 ∧ 0x30000000 ≤ a ∧ a ≤ 0x3004FFFF) ∨ (r = 4 ∧ 0x20050000 ≤ a ∧ a ≤ 0x2008FFFF) ∨ (r = 5 ∧ 0x40000000 ≤ a ∧ a ≤ 0x4FFFFFFF) ∨
    (r = 6 ∧ 0x50000000 ≤ a ∧ a ≤ 0x5FFFFFFF) ∨ (r = 7 ∧ 0x08FFF000 ≤ a ∧ a ≤ 0x08FFFFFF)

theorem h5_table {boot update : Nat} (hp : H5Parts boot update) (s : Sau) :
    Table (sauH5 boot update s) (tabH5 boot update) (fun r => r = 0 ∨ r = 3 ∨ r = 6) := by
  obtain ⟨p1, p2, p3, p4, p5, p6⟩ := hp
  have e : sauH5 boot update s = { put (put (put (put (put (put (put (put s 0 0x0C038000 0x0C040000 true) 1 boot (0x08100000 - 1) false) 2 update (0x081FFFFF - 1) false) 3
      0x30000000 0x3004FFFF true) 4 0x20050000 0x2008FFFF false) 5 0x40000000 0x4FFFFFFF false) 6 0x50000000 0x5FFFFFFF true) 7 0x08FFF000 0x08FFFFFF false with ctrl := 1 } := by
    unfold sauH5
    simp (disch := first | decide | omega) only [init_put]
    rfl
  rw [e]
  refine ⟨rfl, ?_, ?_, ?_⟩
  · intro r a hr
    rw [ctrl_match]
    unfold tabH5
    by_cases h7 : r = 7
    · subst h7; rw [put_match_same]; omega
    rw [put_match_other h7]
    by_cases h6 : r = 6
    · subst h6; rw [put_match_same]; omega
    rw [put_match_other h6]
    by_cases h5 : r = 5
    · subst h5; rw [put_match_same]; omega
    rw [put_match_other h5]
    by_cases h4 : r = 4
    · subst h4; rw [put_match_same]; omega
    rw [put_match_other h4]
    by_cases h3 : r = 3
    · subst h3; rw [put_match_same]; omega
    rw [put_match_other h3]
    by_cases h2 : r = 2
    · subst h2; rw [put_match_same]; omega
    rw [put_match_other h2]
    by_cases h1 : r = 1
    · subst h1; rw [put_match_same]; omega
    rw [put_match_other h1]
    have h0 : r = 0 := by omega
    subst h0; rw [put_match_same]; omega
  · rintro r hr _
    dsimp only
    by_cases h7 : r = 7
    · subst h7; rw [put_flag_same]; simp
    rw [put_flag_other h7]
    by_cases h6 : r = 6
    · subst h6; rw [put_flag_same]; simp
    rw [put_flag_other h6]
    by_cases h5 : r = 5
    · subst h5; rw [put_flag_same]; simp
    rw [put_flag_other h5]
    by_cases h4 : r = 4
    · subst h4; rw [put_flag_same]; simp
    rw [put_flag_other h4]
    by_cases h3 : r = 3
    · subst h3; rw [put_flag_same]; simp
    rw [put_flag_other h3]
    by_cases h2 : r = 2
    · subst h2; rw [put_flag_same]; simp
    rw [put_flag_other h2]
    by_cases h1 : r = 1
    · subst h1; rw [put_flag_same]; simp
    rw [put_flag_other h1]
    have h0 : r = 0 := by omega
    subst h0; rw [put_flag_same]; simp
  · intro r j a hr hj h1 h2
    unfold tabH5 at h1 h2
    omega

/-- Non-secure on STM32H5 are exactly the partitions with what follows them in their banks, SRAM3 without its last 64 KiB, the peripherals, and the one-time programmable area. -/
theorem h5_ns {boot update : Nat} (hp : H5Parts boot update) (s : Sau) (a : Nat) :
    StNs (sauH5 boot update s) a ↔ (boot ≤ a ∧ a ≤ 0x080FFFFF) ∨ (update ≤ a ∧ a ≤ 0x081FFFFF) ∨ (0x20050000 ≤ a ∧ a ≤ 0x2008FFFF) ∨
      (0x40000000 ≤ a ∧ a ≤ 0x4FFFFFFF) ∨ (0x08FFF000 ≤ a ∧ a ≤ 0x08FFFFFF) := by
  unfold StNs
  rw [table_ns (h5_table hp s)]
  obtain ⟨p1, p2, p3, p4, p5, p6⟩ := hp
  unfold stAlias tabH5
  constructor
  · rintro ⟨⟨r, hr, ht, hc⟩, hn⟩
    omega
  · rintro (ha | ha | ha | ha | ha)
    · exact ⟨⟨1, by decide, by omega, by decide⟩, by omega⟩
    · exact ⟨⟨2, by decide, by omega, by decide⟩, by omega⟩
    · exact ⟨⟨4, by decide, by omega, by decide⟩, by omega⟩
    · exact ⟨⟨5, by decide, by omega, by decide⟩, by omega⟩
    · exact ⟨⟨7, by decide, by omega, by decide⟩, by omega⟩

/-- Non-secure callable on STM32H5. -/
theorem h5_callable {boot update : Nat} (hp : H5Parts boot update) (s : Sau) (a : Nat) :
    StNsc (sauH5 boot update s) a ↔ (0x0C038000 ≤ a ∧ a ≤ 0x0C04001F) ∨ (0x30000000 ≤ a ∧ a ≤ 0x3004FFFF) ∨ (0x50000000 ≤ a ∧ a ≤ 0x5FFFFFFF) := by
  unfold StNsc
  rw [table_ns (h5_table hp s), table_nsc (h5_table hp s)]
  obtain ⟨p1, p2, p3, p4, p5, p6⟩ := hp
  unfold stAlias tabH5
  constructor
  · rintro (⟨r, hr, ht, hc⟩ | ⟨⟨r, hr, ht, hc⟩, hn⟩) <;> omega
  · rintro (ha | ha | ha)
    · exact Or.inl ⟨0, by decide, by omega, by decide⟩
    · exact Or.inl ⟨3, by decide, by omega, by decide⟩
    · exact Or.inl ⟨6, by decide, by omega, by decide⟩

/-- SRAM1 (256 KiB), SRAM2 (64 KiB) and SRAM3 (320 KiB) of STM32H5, blocks of 512 bytes (RM0481). -/
def sramH5 (g : Gtzc) (o : Nat) : Bool :=
  if o < 0x40000 then blockSecure g.b1 512 o else if o < 0x50000 then blockSecure g.b2 512 (o - 0x40000) else blockSecure g.b3 512 (o - 0x50000)

/-- Exactly SRAM1 and SRAM2 are secure on STM32H5. -/
theorem h5_sram (g : Gtzc) {o : Nat} (h : o < 0xA0000) : sramH5 (gtzcH5 g) o = true ↔ o < 0x50000 := by
  unfold sramH5 gtzcH5
  dsimp only
  by_cases h1 : o < 0x40000
  · rw [if_pos h1, block_ones]
    · simp; omega
    · rw [fill_spec, if_pos (by omega)]
  · rw [if_neg h1]
    by_cases h2 : o < 0x50000
    · rw [if_pos h2, block_ones]
      · simp [h2]
      · rw [fill_spec, if_pos (by omega)]
    · rw [if_neg h2, block_zero]
      · simp; omega
      · rw [fill_spec, if_pos (by omega)]

/-- Non-secure code reaches `a` on STM32H5. -/
def H5Reach (s : Sau) (g : Gtzc) (a : Nat) : Prop := StNs s a ∧ (0x20000000 ≤ a → a < 0x200A0000 → sramH5 g (a - 0x20000000) = false)

/-- The memory of wolfBoot on STM32H5 (`/repo/hal/stm32h5.ld:1-9`, `/repo/hal/stm32h5.h:321`): the flash before the partition in each bank (the second holds a copy with
`DUALBANK_SWAP`), SRAM1 and SRAM2. -/
def H5Own (boot update x : Nat) : Prop :=
  (0x08000000 ≤ x ∧ x < boot) ∨ (0x08100000 ≤ x ∧ x < update) ∨ (0x20000000 ≤ x ∧ x < 0x20050000)

theorem h5_isolated {boot update : Nat} (hp : H5Parts boot update) (s : Sau) (g : Gtzc) {a : Nat} (ha : H5Reach (sauH5 boot update s) (gtzcH5 g) a) :
    ¬ H5Own boot update (phys a) := by
  have h := (h5_ns hp s a).1 ha.1
  obtain ⟨p1, p2, p3, p4, p5, p6⟩ := hp
  unfold H5Own phys
  rw [if_neg (by omega), if_neg (by omega)]
  omega

/-- The application has the memory it is linked for (`/repo/test-app/ARM-stm32h5-ns.ld:4`). -/
theorem h5_app {boot update : Nat} (hp : H5Parts boot update) (s : Sau) (g : Gtzc) {a : Nat} (h1 : 0x20050000 ≤ a) (h2 : a < 0x20090000) :
    H5Reach (sauH5 boot update s) (gtzcH5 g) a := by
  refine ⟨(h5_ns hp s a).2 (by omega), fun _ _ => ?_⟩
  have := h5_sram g (o := a - 0x20000000) (by omega)
  cases hc : sramH5 (gtzcH5 g) (a - 0x20000000) with
  | false => rfl
  | true => have := this.1 hc; omega

/-- **Finding.** On STM32H5 all of the secure RAM is non-secure callable: wherever four bytes of data there equal the instruction `SG`, the application can enter. -/
theorem h5_ram_callable {boot update : Nat} (hp : H5Parts boot update) (s : Sau) {x : Nat} (h1 : 0x20000000 ≤ x) (h2 : x < 0x20050000) :
    StNsc (sauH5 boot update s) (x + 0x10000000) ∧ phys (x + 0x10000000) = x := by
  refine ⟨(h5_callable hp s _).2 (by omega), ?_⟩
  unfold phys
  rw [if_neg (by omega), if_pos (by omega)]
  omega

/-! ## RP2350 -/

/-- Region 5, which is not set, is disabled. -/
def tabRp (r a : Nat) : Prop :=
  (r = 0 ∧ 0x10000000 ≤ a ∧ a ≤ 0x1002FFFF) ∨ (r = 1 ∧ 0x10030000 ≤ a ∧ a ≤ 0x1003FFFF) ∨ (r = 2 ∧ 0x10040000 ≤ a ∧ a ≤ 0x101FFFFF) ∨
    (r = 3 ∧ 0x20000000 ≤ a ∧ a ≤ 0x2003FFFF) ∨ (r = 4 ∧ 0x20040000 ≤ a ∧ a ≤ 0x20081FFF) ∨ (r = 6 ∧ 0x40000000 ≤ a ∧ a ≤ 0x5FFFFFFF) ∨
    (r = 7 ∧ 0xD0000000 ≤ a ∧ a ≤ 0xDFFFFFFF)

theorem rp_table {s : Sau} (h : s.rlar 5 % 2 = 0) : Table (sauRp s) tabRp (fun r => r = 0 ∨ r = 1 ∨ r = 3) := by
  have e : sauRp s = { put (put (put (put (put (put (put { s with ctrl := 0 } 0 0x10000000 0x1002FFFF true) 1 0x10030000 0x1003FFFF true) 2 0x10040000 0x101FFFFF false) 3
      0x20000000 0x2003FFFF true) 4 0x20040000 0x20081FFF false) 6 0x40000000 0x5FFFFFFF false) 7 0xD0000000 0xDFFFFFFF false with ctrl := 1 } := by
    unfold sauRp
    simp (disch := first | decide | omega) only [init_put]
  rw [e]
  refine ⟨rfl, ?_, ?_, ?_⟩
  · intro r a hr
    rw [ctrl_match]
    unfold tabRp
    by_cases h7 : r = 7
    · subst h7; rw [put_match_same]; omega
    rw [put_match_other h7]
    by_cases h6 : r = 6
    · subst h6; rw [put_match_same]; omega
    rw [put_match_other h6]
    by_cases h4 : r = 4
    · subst h4; rw [put_match_same]; omega
    rw [put_match_other h4]
    by_cases h3 : r = 3
    · subst h3; rw [put_match_same]; omega
    rw [put_match_other h3]
    by_cases h2 : r = 2
    · subst h2; rw [put_match_same]; omega
    rw [put_match_other h2]
    by_cases h1 : r = 1
    · subst h1; rw [put_match_same]; omega
    rw [put_match_other h1]
    by_cases h0 : r = 0
    · subst h0; rw [put_match_same]; omega
    rw [put_match_other h0, ctrl_match]
    have h5 : r = 5 := by omega
    subst h5
    unfold Match
    omega
  · rintro r hr ⟨a, ht⟩
    dsimp only
    unfold tabRp at ht
    by_cases h7 : r = 7
    · subst h7; rw [put_flag_same]; simp
    rw [put_flag_other h7]
    by_cases h6 : r = 6
    · subst h6; rw [put_flag_same]; simp
    rw [put_flag_other h6]
    by_cases h4 : r = 4
    · subst h4; rw [put_flag_same]; simp
    rw [put_flag_other h4]
    by_cases h3 : r = 3
    · subst h3; rw [put_flag_same]; simp
    rw [put_flag_other h3]
    by_cases h2 : r = 2
    · subst h2; rw [put_flag_same]; simp
    rw [put_flag_other h2]
    by_cases h1 : r = 1
    · subst h1; rw [put_flag_same]; simp
    rw [put_flag_other h1]
    have h0 : r = 0 := by omega
    subst h0; rw [put_flag_same]; simp
  · intro r j a hr hj h1 h2
    unfold tabRp at h1 h2
    omega

/-- Non-secure on RP2350 (the unit alone): the partitions, the upper half of the SRAM, peripherals. -/
theorem rp_ns {s : Sau} (h : s.rlar 5 % 2 = 0) (a : Nat) :
    SauNs (sauRp s) a ↔ (0x10040000 ≤ a ∧ a ≤ 0x101FFFFF) ∨ (0x20040000 ≤ a ∧ a ≤ 0x20081FFF) ∨ (0x40000000 ≤ a ∧ a ≤ 0x5FFFFFFF) ∨
      (0xD0000000 ≤ a ∧ a ≤ 0xDFFFFFFF) := by
  rw [table_ns (rp_table h)]
  unfold tabRp
  constructor
  · rintro ⟨r, hr, ht, hc⟩
    omega
  · rintro (ha | ha | ha | ha)
    · exact ⟨2, by decide, by omega, by decide⟩
    · exact ⟨4, by decide, by omega, by decide⟩
    · exact ⟨6, by decide, by omega, by decide⟩
    · exact ⟨7, by decide, by omega, by decide⟩

/-- Non-secure callable on RP2350. -/
theorem rp_callable {s : Sau} (h : s.rlar 5 % 2 = 0) (a : Nat) :
    SauNsc (sauRp s) a ↔ (0x10000000 ≤ a ∧ a ≤ 0x1003FFFF) ∨ (0x20000000 ≤ a ∧ a ≤ 0x2003FFFF) := by
  rw [table_nsc (rp_table h)]
  unfold tabRp
  constructor
  · rintro ⟨r, hr, ht, hc⟩
    omega
  · rintro (ha | ha)
    · by_cases h3 : a ≤ 0x1002FFFF
      · exact ⟨0, by decide, by omega, by decide⟩
      · exact ⟨1, by decide, by omega, by decide⟩
    · exact ⟨3, by decide, by omega, by decide⟩

/-- The bank of the SRAM of RP2350 that holds `a`: two groups of four banks that alternate from word to word, and two small banks. -/
def rpBank (a : Nat) : Nat :=
  if a < 0x20040000 then a / 4 % 4 else if a < 0x20080000 then 4 + a / 4 % 4 else if a < 0x20081000 then 8 else 9

/-- A bank is open to non-secure code: bits `NSP` and `NSU`. -/
def rpOpen (v : Nat) : Bool := v.testBit 0 || v.testBit 1

/-- Exactly the banks of the upper half are open to non-secure code, in agreement with the attribution unit. -/
theorem rp_sram (f : Nat → Nat) {a : Nat} (h1 : 0x20000000 ≤ a) (h2 : a < 0x20082000) : rpOpen (sramRp f (rpBank a)) = true ↔ 0x20040000 ≤ a := by
  unfold sramRp rpBank
  rw [fill_spec, fill_spec]
  by_cases h3 : a < 0x20040000
  · rw [if_pos h3, if_neg (by omega), if_pos (by omega)]
    have : rpOpen SECURE_FL = false := by decide
    rw [this]
    simp; omega
  · rw [if_neg h3, if_pos (by split <;> (try split) <;> omega)]
    have : rpOpen (NON_SECURE_FL ||| SECURE_FL) = true := by decide
    rw [this]
    simp; omega

/-- The memory of wolfBoot on RP2350, `/repo/hal/rp2350.ld:23-31`. -/
def RpOwn (x : Nat) : Prop := (0x10000000 ≤ x ∧ x < 0x10040000) ∨ (0x20000000 ≤ x ∧ x < 0x20040000)

theorem rp_isolated {s : Sau} (h : s.rlar 5 % 2 = 0) {a : Nat} (ha : SauNs (sauRp s) a) : ¬ RpOwn a := by
  rw [rp_ns h] at ha
  unfold RpOwn
  omega

/-- **Finding.** On RP2350 all memory of wolfBoot, text and data, is non-secure callable: regions meant to be secure are given to the unit, whose regions are non-secure or
callable; secure is what is in no region. -/
theorem rp_all_callable {s : Sau} (h : s.rlar 5 % 2 = 0) {x : Nat} (hx : RpOwn x) : SauNsc (sauRp s) x := by
  unfold RpOwn at hx
  rw [rp_callable h]
  omega

/-! ## Calls from the application -/

/-- The bytes given out are exactly those asked for. -/
theorem random_exact (rng : Nat → Byte) (m : Mem) (rand size : Nat) :
    (∀ i, i < size → getRandom rng m rand size (rand + i) = rng i) ∧ ∀ x, (x < rand ∨ rand + size ≤ x) → getRandom rng m rand size x = m x := by
  unfold getRandom
  constructor
  · intro i hi
    rw [if_pos (by omega)]
    congr 1
    omega
  · intro x hx
    rw [if_neg (by omega)]

/-- **Finding.** The application changes any byte of secure memory, although it does not reach it: the pointer is not checked (`cmse_check_address_range`). The same holds
for all pointers of `/repo/src/pkcs11_callable.c`. -/
theorem random_overwrites {s : Sau} (h : Clean s) (g : Gtzc) (rng : Nat → Byte) (m : Mem) {x : Nat} (hx : L5Own x) (hd : m x ≠ rng 0) :
    ¬ L5Reach (sauL5 s) (gtzcL5 g) x ∧ getRandom rng m x 1 x = rng 0 ∧ getRandom rng m x 1 x ≠ m x := by
  have e : getRandom rng m x 1 x = rng 0 := by
    have := (random_exact rng m x 1).1 0 (by decide)
    simpa using this
  refine ⟨fun hr => ?_, e, by rw [e]; exact fun hh => hd hh.symm⟩
  rw [l5_reach h] at hr
  unfold L5Own at hx
  omega

/-! ## Examples -/

/-- The unit after reset. -/
def reset : Sau := { ctrl := 0, rnr := 0, rbar := fun _ => 0, rlar := fun _ => 0 }

example : Clean reset := fun _ _ _ => rfl
example : L5Reach (sauL5 reset) (gtzcL5 ⟨fun _ => 0, fun _ => 0, fun _ => 0⟩) 0x20021234 := (l5_reach (fun _ _ _ => rfl) _ _).2 (by decide)
example : H5Parts 0x08040000 0x08140000 := by constructor <;> decide
example : L5Own (phys 0x3001E000) := Or.inr (by decide)
/-- The first bytes of the image header, through the secure alias. -/
example : StNsc (sauL5 reset) 0x0C040000 := (l5_nsc_beyond (fun _ _ _ => rfl) (by decide) (by decide)).1

end Tz

end Verif
