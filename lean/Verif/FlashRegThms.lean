import Verif.FlashReg

/-!
# Which pages STM32 flash controllers are asked to erase

For every previous value of the control register in which no other operation is selected: STM32G0, C0, WB, F4, F7, L5, U5 are asked for exactly the pages meant (`g0_exact`,
`wb_exact`, `f4_exact`, `l5_exact`, `u5_exact`), over any number of calls (the register stays in such a state). Findings: on STM32H5 the bank stays selected (`h5_sticky`,
`h5_update_then_boot`); exact only until then (`h5_exact`); the secure `fork_bootloader` of STM32H5 erases the bootloader that runs (`h5_fork_erases_itself`); STM32L5 out of
range and in single-bank mode (`l5_out_of_range`, `l5_single_bank`); STM32U5 with the sectors of the examples (`u5_sector`). STM32H7 is in `Verif.FlashRegH7`, claim and release of
non-secure flash in `Verif.FlashRegTz`.
-/

namespace Verif

namespace FlashReg

/-! ## The chips -/

/-- An operation: one page of a bank, or something else. -/
inductive Req where
  | page (bank : Bool) (n : Nat)
  | other
  deriving DecidableEq

/-- Bits `s` to `s + w - 1`. -/
def fld (x s w : Nat) : Nat := x >>> s % 2 ^ w

/-- STM32G0 and C0 (RM0444, RM0490): `PG` 0, `PER` 1, `MER` 2, `PNB` 3 to 8, `STRT` 16. -/
def reqG0 (w : Nat) : Req := if w.testBit 1 ∧ w.testBit 16 ∧ ¬ w.testBit 0 ∧ ¬ w.testBit 2 then .page false (fld w 3 6) else .other

/-- STM32WB (RM0434): `PNB` 3 to 10. -/
def reqWb (w : Nat) : Req := if w.testBit 1 ∧ w.testBit 16 ∧ ¬ w.testBit 0 ∧ ¬ w.testBit 2 then .page false (fld w 3 8) else .other

/-- STM32F4 and F7 (RM0090, RM0410): `PG` 0, `SER` 1, `MER` 2 and 15, `SNB` 3 to 7. -/
def reqF4 (w : Nat) : Req := if w.testBit 1 ∧ w.testBit 16 ∧ ¬ w.testBit 0 ∧ ¬ w.testBit 2 ∧ ¬ w.testBit 15 then .page false (fld w 3 5) else .other

/-- STM32L5 and U5 (RM0438, RM0456): `PG` 0, `PER` 1, `MER1` 2, `PNB` 3 to 9, `BKER` 11, `MER2` 15, `STRT` 16. -/
def reqL5 (w : Nat) : Req :=
  if w.testBit 1 ∧ w.testBit 16 ∧ ¬ w.testBit 0 ∧ ¬ w.testBit 2 ∧ ¬ w.testBit 15 then .page (w.testBit 11) (fld w 3 7) else .other

/-- STM32H5 (RM0481): `PG` 1, `SER` 2, `BER` 3, `STRT` 5, `SNB` 6 to 12, `MER` 15, `BKSEL` 31. -/
def reqH5 (w : Nat) : Req :=
  if w.testBit 2 ∧ w.testBit 5 ∧ ¬ w.testBit 1 ∧ ¬ w.testBit 3 ∧ ¬ w.testBit 15 then .page (w.testBit 31) (fld w 6 7) else .other

/-- One bank of STM32H7 (RM0433): `PG` 1, `SER` 2, `BER` 3, `START` 7, `SNB` 8 to 10. -/
def reqH7 (bank : Bool) (w : Nat) : Req := if w.testBit 2 ∧ w.testBit 7 ∧ ¬ w.testBit 1 ∧ ¬ w.testBit 3 then .page bank (fld w 8 3) else .other

/-- The points of the loop. -/
def pts (P p e : Nat) : List Nat := if h : p < e ∧ 0 < P then p :: pts P (p + P) e else []
termination_by e - p

/-! ## Words -/

theorem clr_testBit (x m i : Nat) : (clr x m).testBit i = (x.testBit i && (decide (i < 32) ^^ m.testBit i)) := by
  unfold clr
  rw [Nat.testBit_and, Nat.testBit_xor, show (0xFFFFFFFF : Nat) = 2 ^ 32 - 1 from rfl, Nat.testBit_two_pow_sub_one]

theorem shl_testBit (v n i : Nat) : (shl v n).testBit i = (decide (i < 32) && (decide (n ≤ i) && v.testBit (i - n))) := by
  unfold shl
  rw [show (4294967296 : Nat) = 2 ^ 32 from rfl, Nat.testBit_mod_two_pow, Nat.testBit_shiftLeft]

theorem fld_testBit (x s w i : Nat) : (fld x s w).testBit i = (decide (i < w) && x.testBit (s + i)) := by
  unfold fld
  rw [Nat.testBit_mod_two_pow, Nat.testBit_shiftRight]

theorem fld_or (a b s w : Nat) : fld (a ||| b) s w = fld a s w ||| fld b s w := by
  apply Nat.eq_of_testBit_eq
  intro i
  rw [Nat.testBit_or, fld_testBit, fld_testBit, fld_testBit, Nat.testBit_or]
  cases decide (i < w) <;> simp

theorem fld_clr {x M s w : Nat} (h : s + w ≤ 32) (hM : ∀ i, i < w → M.testBit (s + i) = true) : fld (clr x M) s w = 0 := by
  apply Nat.eq_of_testBit_eq
  intro i
  rw [fld_testBit, clr_testBit, Nat.zero_testBit]
  by_cases hi : i < w
  · have : s + i < 32 := by omega
    simp [hM i hi, this]
  · simp [hi]

theorem fld_shl {v s w : Nat} (h : s + w ≤ 32) : fld (shl v s) s w = v % 2 ^ w := by
  apply Nat.eq_of_testBit_eq
  intro i
  rw [fld_testBit, shl_testBit, Nat.testBit_mod_two_pow]
  by_cases hi : i < w
  · have h1 : s + i < 32 := by omega
    have h2 : s + i - s = i := by omega
    simp [h1, h2]
  · simp [hi]

theorem testBit_div (v i : Nat) : v.testBit i = decide (v / 2 ^ i % 2 = 1) := by rw [Nat.testBit_eq_decide_div_mod_eq]

/-- The loop, if each round does what is meant and keeps the register usable. -/
theorem loop_spec {step : Nat → Nat → Nat × Nat} {req : Nat → Req} {want : Nat → Req} {Inv : Nat → Prop} {P lo hi : Nat}
    (hs : ∀ p cr, lo ≤ p → p < hi → Inv cr → req (step p cr).1 = want p ∧ Inv (step p cr).2) :
    ∀ p e cr, lo ≤ p → e ≤ hi → Inv cr → (eraseLoop step P p e cr).1.map req = (pts P p e).map want ∧ Inv (eraseLoop step P p e cr).2 := by
  intro p e cr
  induction p, cr using eraseLoop.induct (step := step) (P := P) (e := e) with
  | case1 p cr h r ih =>
    intro hl hh hi
    rw [eraseLoop, pts, dif_pos h, dif_pos h]
    obtain ⟨h1, h2⟩ := hs p cr hl (by omega) hi
    obtain ⟨h3, h4⟩ := ih (by omega) hh h2
    dsimp only
    refine ⟨?_, h4⟩
    rw [List.map_cons, List.map_cons, h1]
    congr 1
  | case2 p cr h =>
    intro _ _ hi
    rw [eraseLoop, pts, dif_neg h, dif_neg h]
    exact ⟨rfl, hi⟩

/-! ## STM32G0, C0, WB, F4, F7 -/

/-- No programming and no mass erase is selected. -/
def Idle (cr : Nat) : Prop := cr.testBit 0 = false ∧ cr.testBit 2 = false

theorem g0_step {p cr : Nat} (h1 : 0x08000000 ≤ p) (h2 : p < 0x08020000) (h : Idle cr) :
    reqG0 (g0Step p cr).1 = .page false ((p - 0x08000000) / 0x800) ∧ Idle (g0Step p cr).2 := by
  obtain ⟨i0, i2⟩ := h
  unfold g0Step
  dsimp only
  constructor
  · unfold reqG0
    rw [if_pos]
    · rw [fld_or, fld_or, fld_or, fld_clr (by decide) (by decide), fld_shl (by decide), show fld 2 3 6 = 0 by decide, show fld 0x10000 3 6 = 0 by decide, Nat.or_zero, Nat.or_zero, Nat.zero_or,
        Nat.shiftRight_eq_div_pow]
      congr 1
      omega
    · simp only [Nat.testBit_or, clr_testBit, shl_testBit, i0, i2]
      simp [testBit_div]
  · unfold Idle
    simp only [Nat.testBit_or, clr_testBit, shl_testBit, i0, i2]
    simp [testBit_div]

/-- **STM32G0, C0** (128 KiB): exactly the pages at the points of the loop are asked for, and the next call finds the register as it has to be. -/
theorem g0_exact {address len cr : Nat} (h1 : 0x08000000 ≤ address) (h2 : address + len ≤ 0x08020000) (hl : 0 < len) (h : Idle cr) :
    (g0Erase address len cr).1.map reqG0 = (pts 0x800 address (address + len - 1)).map (fun p => .page false ((p - 0x08000000) / 0x800)) ∧ Idle (g0Erase address len cr).2 := by
  unfold g0Erase
  rw [if_neg (by omega)]
  exact loop_spec (step := g0Step) (req := reqG0) (want := fun p => .page false ((p - 0x08000000) / 0x800)) (Inv := Idle) (P := 0x800) (lo := 0x08000000) (hi := 0x08020000) (fun p cr a b c => g0_step a b c) _ _ _ h1 (by omega) h

theorem wb_step {p cr : Nat} (h2 : p < 0x00100000) (h : Idle cr) : reqWb (wbStep p cr).1 = .page false (p / 0x1000) ∧ Idle (wbStep p cr).2 := by
  obtain ⟨i0, i2⟩ := h
  unfold wbStep
  dsimp only
  constructor
  · unfold reqWb
    rw [if_pos]
    · rw [fld_or, fld_or, fld_or, fld_clr (by decide) (by decide), fld_shl (by decide), show fld 2 3 8 = 0 by decide, show fld 0x10000 3 8 = 0 by decide, Nat.or_zero, Nat.or_zero, Nat.zero_or,
        Nat.shiftRight_eq_div_pow]
      congr 1
      omega
    · simp only [Nat.testBit_or, clr_testBit, shl_testBit, i0, i2]
      simp [testBit_div]
  · unfold Idle
    simp only [Nat.testBit_or, clr_testBit, shl_testBit, i0, i2]
    simp [testBit_div]

/-- **STM32WB** (1 MiB). -/
theorem wb_exact {address len cr : Nat} (h1 : 0x08000000 ≤ address) (h2 : address + len ≤ 0x08100000) (hl : 0 < len) (h : Idle cr) :
    (wbErase address len cr).1.map reqWb = (pts 0x1000 (address - 0x08000000) (address - 0x08000000 + len - 1)).map (fun p => .page false (p / 0x1000)) ∧
      Idle (wbErase address len cr).2 := by
  obtain ⟨o, rfl⟩ : ∃ o, address = 0x08000000 + o := ⟨address - 0x08000000, by omega⟩
  unfold wbErase
  rw [if_neg (by omega)]
  simp only [Nat.add_sub_cancel_left]
  exact loop_spec (step := wbStep) (req := reqWb) (want := fun p => .page false (p / 0x1000)) (Inv := Idle) (P := 0x1000) (lo := 0) (hi := 0x00100000) (fun p cr _ b c => wb_step b c) _ _ _ (by omega) (by omega) h

/-- **STM32F4, F7**: sector `sec`. -/
theorem f4_exact {sec cr : Nat} (hs : sec < 32) (h : Idle cr) (h15 : cr.testBit 15 = false) :
    reqF4 (f4Sector sec cr).1 = .page false sec ∧ Idle (f4Sector sec cr).2 ∧ (f4Sector sec cr).2.testBit 15 = false := by
  obtain ⟨i0, i2⟩ := h
  have em : sec &&& 0x1f = sec := by
    have : ∀ s, s < 32 → s &&& 0x1f = s := by decide
    exact this sec hs
  have e12 : sec.testBit 12 = false := Nat.testBit_lt_two_pow (by omega)
  unfold f4Sector
  dsimp only
  rw [em]
  refine ⟨?_, ?_, ?_⟩
  · unfold reqF4
    rw [if_pos]
    · rw [fld_or, fld_or, fld_or, fld_clr (by decide) (by decide), fld_shl (by decide), show fld 2 3 5 = 0 by decide, show fld 0x10000 3 5 = 0 by decide, Nat.or_zero, Nat.or_zero, Nat.zero_or]
      congr 1
      omega
    · simp only [Nat.testBit_or, clr_testBit, shl_testBit, i0, i2, h15]
      simp [testBit_div] at e12 ⊢
      simp [e12]
  · unfold Idle
    simp only [Nat.testBit_or, clr_testBit, shl_testBit, i0, i2]
    simp [testBit_div]
  · simp only [Nat.testBit_or, clr_testBit, shl_testBit, h15]
    simp [e12, testBit_div]

/-! ## STM32L5 and U5 -/

/-- No programming and no mass erase is selected. -/
def Idle5 (cr : Nat) : Prop := cr.testBit 0 = false ∧ cr.testBit 2 = false ∧ cr.testBit 15 = false

theorem l5_write {sh p base cr : Nat} {b : Bool} (hv : (p - base) >>> sh < 256) (h : Idle5 cr) :
    reqL5 (l5Write sh p base (if b then L5_BKER else 0) cr ||| 0x10000) = .page b ((p - base) >>> sh % 128) ∧
      Idle5 (l5Write sh p base (if b then L5_BKER else 0) cr) := by
  obtain ⟨i0, i2, i15⟩ := h
  obtain ⟨v, ev⟩ : ∃ v, v = (p - base) >>> sh := ⟨_, rfl⟩
  unfold l5Write
  rw [← ev] at hv ⊢
  have e8 : v.testBit 8 = false := Nat.testBit_lt_two_pow (by omega)
  have e12 : v.testBit 12 = false := Nat.testBit_lt_two_pow (by omega)
  constructor
  · unfold reqL5
    rw [if_pos]
    · congr 1
      · simp only [Nat.testBit_or, clr_testBit, shl_testBit]
        cases b <;> simp [e8, testBit_div, L5_PNB, L5_BKER, H5_SNB]
      · rw [fld_or, fld_or, fld_or, fld_or, fld_clr (by decide) (by decide), fld_shl (by decide), show fld 2 3 7 = 0 by decide, show fld 0x10000 3 7 = 0 by decide,
          show fld (if b then L5_BKER else 0) 3 7 = 0 by cases b <;> decide, Nat.or_zero, Nat.or_zero, Nat.or_zero, Nat.zero_or]
    · simp only [Nat.testBit_or, clr_testBit, shl_testBit, i0, i2, i15]
      cases b <;> simp [e12, testBit_div, L5_PNB, L5_BKER, H5_SNB]
  · unfold Idle5
    simp only [Nat.testBit_or, clr_testBit, shl_testBit, i0, i2, i15]
    cases b <;> simp [e12, testBit_div, L5_PNB, L5_BKER, H5_SNB]

theorem idle5_clr {cr m : Nat} (h : Idle5 cr) : Idle5 (clr cr m) := by
  obtain ⟨i0, i2, i15⟩ := h
  unfold Idle5
  simp only [clr_testBit, i0, i2, i15]
  simp

/-- The page of STM32L5 at an address. -/
def wantL5 (p : Nat) : Req := if p < 0x08040000 then .page false ((p - 0x08000000) / 0x800) else .page true ((p - 0x08040000) / 0x800)

theorem l5_loop {P : Nat} : ∀ p e cr, 0x08000000 ≤ p → e ≤ 0x0807FFFF → Idle5 cr →
    (l5Loop P false true p e cr).1.map reqL5 = (pts P p e).map wantL5 ∧ Idle5 (l5Loop P false true p e cr).2 := by
  intro p e cr
  induction p, cr using l5Loop.induct (P := P) (secure := false) (dbank := true) (e := e) with
  | case1 p cr h hb _ ih =>
    intro hl hh hi
    have hb : p < 0x08040000 := by simpa using hb
    have hw := l5_write (sh := 11) (p := p) (base := 0x08000000) (cr := cr) (b := false) (by rw [Nat.shiftRight_eq_div_pow]; omega) hi
    obtain ⟨h3, h4⟩ := ih (by omega) hh hw.2
    rw [l5Loop, pts, dif_pos h, dif_pos h, if_pos (Or.inr hb)]
    refine ⟨?_, h4⟩
    rw [List.map_cons, List.map_cons]
    congr 1
    rw [show l5Write 11 p 0x08000000 0 cr = l5Write 11 p 0x08000000 (if false = true then L5_BKER else 0) cr from rfl, hw.1, wantL5, if_pos hb, Nat.shiftRight_eq_div_pow]
    congr 1
    omega
  | case2 p cr h hb ht hs => exact absurd hs (by decide)
  | case3 p cr h hb ht hs _ ih =>
    intro hl hh hi
    have hb' : ¬ p < 0x08040000 := fun hc => hb (Or.inr hc)
    have hw := l5_write (sh := 11) (p := p) (base := 0x08040000) (cr := cr) (b := true) (by rw [Nat.shiftRight_eq_div_pow]; omega) hi
    obtain ⟨h3, h4⟩ := ih (by omega) hh hw.2
    rw [l5Loop, pts, dif_pos h, dif_pos h, if_neg hb, if_pos ht, if_neg (by decide)]
    refine ⟨?_, h4⟩
    rw [List.map_cons, List.map_cons]
    congr 1
    rw [show l5Write 11 p 0x08040000 L5_BKER cr = l5Write 11 p 0x08040000 (if true = true then L5_BKER else 0) cr from rfl, hw.1, wantL5, if_neg hb', Nat.shiftRight_eq_div_pow]
    congr 1
    omega
  | case4 p cr h hb ht =>
    intro hl hh hi
    exact absurd (show p ≤ 0x0807FFFF by omega) ht
  | case5 p cr h =>
    intro _ _ hi
    rw [l5Loop, pts, dif_neg h, dif_neg h]
    exact ⟨rfl, idle5_clr hi⟩

/-- **STM32L5**, two banks, not secure: exactly the pages at the points of the loop, in the right bank. -/
theorem l5_exact {address len cr : Nat} (h1 : 0x08000000 ≤ address) (h2 : address + len ≤ 0x08080000) (hl : 0 < len) (h : Idle5 cr) :
    (l5Erase false true address len cr).1 = 0 ∧ (l5Erase false true address len cr).2.1.map reqL5 = (pts 0x800 address (address + len - 1)).map wantL5 ∧
      Idle5 (l5Erase false true address len cr).2.2 := by
  unfold l5Erase
  rw [if_neg (by omega), if_neg (by omega)]
  exact ⟨rfl, l5_loop _ _ _ h1 (by omega) h⟩

/-- **Finding.** STM32L5: outside the flash nothing is erased and success is returned. The UPDATE partition of `/repo/config/examples/stm32l5.config:24` and
`stm32l5-nonsecure-dualbank.config:24`, at `0x08110000`, is there. -/
theorem l5_out_of_range {secure dbank : Bool} {address len cr : Nat} (h1 : 0x08080000 ≤ address) (hl : 0 < len) :
    (l5Erase secure dbank address len cr).1 = 0 ∧ (l5Erase secure dbank address len cr).2.1 = [] := by
  unfold l5Erase
  rw [if_neg (by omega), if_neg (by omega)]
  refine ⟨rfl, ?_⟩
  unfold l5Loop
  split
  · rw [if_neg (by omega), if_neg (by omega)]
  · rfl

/-- **Finding.** STM32L5 with a single bank (`DBANK` = 0), where pages have 4 KiB: for the page `k` the page `2 k` is asked for, and page `2 k + 1` next. -/
theorem l5_single_bank {k cr : Nat} (hk : k < 64) (h : Idle5 cr) :
    (l5Erase false false (0x08000000 + 4096 * k) 4096 cr).2.1.map reqL5 = [.page false (2 * k), .page false (2 * k + 1)] := by
  unfold l5Erase
  rw [if_neg (by decide), if_neg (by omega)]
  dsimp only
  rw [l5Loop, dif_pos (by omega), if_pos (by simp; omega)]
  dsimp only
  rw [l5Loop, dif_pos (by omega), if_pos (by simp; omega)]
  dsimp only
  rw [l5Loop, dif_neg (by omega)]
  have w1 := l5_write (sh := 11) (p := 0x08000000 + 4096 * k) (base := 0x08000000) (cr := cr) (b := false) (by rw [Nat.shiftRight_eq_div_pow]; omega) h
  have w2 := l5_write (sh := 11) (p := 0x08000000 + 4096 * k + 0x800) (base := 0x08000000) (b := false) (by rw [Nat.shiftRight_eq_div_pow]; omega) w1.2
  simp only [List.map_cons, List.map_nil]
  rw [show (if false = true then L5_BKER else 0) = 0 from rfl] at w1 w2
  rw [w1.1, w2.1, Nat.shiftRight_eq_div_pow, Nat.shiftRight_eq_div_pow]
  congr 2
  · omega
  · congr 1
    omega

/-- The page of STM32U5 at an address, and the register for it. -/
def wantU5 (secure : Bool) (p : Nat) : Bool × Req :=
  if p < 0x08100000 then (secure, .page false ((p - 0x08000000) / 0x2000)) else (false, .page true ((p - 0x08100000) / 0x2000))

theorem u5_loop {P : Nat} {secure : Bool} : ∀ p e r cur, 0x08000000 ≤ p → e ≤ 0x081FFFFF → Idle5 r.s → Idle5 r.n →
    (u5Loop P secure true cur p e r).1.map (fun x => (x.1, reqL5 x.2)) = (pts P p e).map (wantU5 secure) ∧
      Idle5 (u5Loop P secure true cur p e r).2.s ∧ Idle5 (u5Loop P secure true cur p e r).2.n := by
  intro p e r cur
  obtain ⟨k, hk⟩ : ∃ k, k = e - p := ⟨_, rfl⟩
  induction k using Nat.strongRecOn generalizing p r cur with
  | ind k ih =>
    intro hl hh hs hn
    rw [u5Loop, pts]
    by_cases h : p < e ∧ 0 < P
    · rw [dif_pos h, dif_pos h]
      by_cases hb : p < 0x08100000
      · rw [if_pos (Or.inr hb)]
        cases secure with
        | true =>
          rw [if_pos rfl]
          have hw := l5_write (sh := 13) (p := p) (base := 0x08000000) (cr := r.s) (b := false) (by rw [Nat.shiftRight_eq_div_pow]; omega) hs
          rw [show (if false = true then L5_BKER else 0) = 0 from rfl] at hw
          obtain ⟨h3, h4⟩ := ih (e - (p + P)) (by omega) (p + P) { r with s := l5Write 13 p 0x08000000 0 r.s } true rfl (by omega) hh hw.2 hn
          refine ⟨?_, h4⟩
          rw [List.map_cons, List.map_cons, h3]
          congr 1
          dsimp only
          rw [hw.1, wantU5, if_pos hb, Nat.shiftRight_eq_div_pow]
          congr 2
          omega
        | false =>
          rw [if_neg (by decide)]
          have hw := l5_write (sh := 13) (p := p) (base := 0x08000000) (cr := r.n) (b := false) (by rw [Nat.shiftRight_eq_div_pow]; omega) hn
          rw [show (if false = true then L5_BKER else 0) = 0 from rfl] at hw
          obtain ⟨h3, h4⟩ := ih (e - (p + P)) (by omega) (p + P) { r with n := l5Write 13 p 0x08000000 0 r.n } false rfl (by omega) hh hs hw.2
          refine ⟨?_, h4⟩
          rw [List.map_cons, List.map_cons, h3]
          congr 1
          dsimp only
          rw [hw.1, wantU5, if_pos hb, Nat.shiftRight_eq_div_pow]
          congr 2
          omega
      · rw [if_neg (by simpa using hb), if_pos (by omega)]
        have hw := l5_write (sh := 13) (p := p) (base := 0x08100000) (cr := r.n) (b := true) (by rw [Nat.shiftRight_eq_div_pow]; omega) hn
        rw [show (if true = true then L5_BKER else 0) = L5_BKER from rfl] at hw
        obtain ⟨h3, h4⟩ := ih (e - (p + P)) (by omega) (p + P) { r with n := l5Write 13 p 0x08100000 L5_BKER r.n } false rfl (by omega) hh hs hw.2
        refine ⟨?_, h4⟩
        rw [List.map_cons, List.map_cons, h3]
        congr 1
        dsimp only
        rw [hw.1, wantU5, if_neg hb, Nat.shiftRight_eq_div_pow]
        congr 2
        omega
    · rw [dif_neg h, dif_neg h]
      refine ⟨rfl, ?_⟩
      cases cur
      · exact ⟨hs, idle5_clr hn⟩
      · exact ⟨idle5_clr hs, hn⟩

/-- **STM32U5**, two banks: exactly the pages at the points of the loop; in the secure state the first bank through the secure register. -/
theorem u5_exact {secure : Bool} {address len : Nat} {r : U5} (h1 : 0x08000000 ≤ address) (h2 : address + len ≤ 0x08200000) (hl : 0 < len) (hs : Idle5 r.s) (hn : Idle5 r.n) :
    (u5Erase secure true address len r).1 = 0 ∧
      (u5Erase secure true address len r).2.1.map (fun x => (x.1, reqL5 x.2)) = (pts 0x2000 address (address + len - 1)).map (wantU5 secure) ∧
      Idle5 (u5Erase secure true address len r).2.2.s ∧ Idle5 (u5Erase secure true address len r).2.2.n := by
  unfold u5Erase
  rw [if_neg (by omega), if_neg (by omega)]
  exact ⟨rfl, u5_loop _ _ _ _ h1 (by omega) hs hn⟩

/-- **Finding.** STM32U5 with `WOLFBOOT_SECTOR_SIZE` 0x800 (`/repo/config/examples/stm32u5.config:24`, `stm32u5-wolfcrypt-tz.config:22`): the erase of a sector erases three more, because pages have
8 KiB. -/
theorem u5_sector {secure : Bool} {k j : Nat} {r : U5} (hk : k < 128) (hj : j < 4) (hs : Idle5 r.s) (hn : Idle5 r.n) :
    (u5Erase secure true (0x08000000 + 0x2000 * k + 0x800 * j) 0x800 r).2.1.map (fun x => reqL5 x.2) = [.page false k] := by
  have h := (u5_exact (secure := secure) (address := 0x08000000 + 0x2000 * k + 0x800 * j) (len := 0x800) (r := r) (by omega) (by omega) (by omega) hs hn).2.1
  have e : pts 0x2000 (0x08000000 + 0x2000 * k + 0x800 * j) (0x08000000 + 0x2000 * k + 0x800 * j + 0x800 - 1) = [0x08000000 + 0x2000 * k + 0x800 * j] := by
    rw [pts, dif_pos (by omega), pts, dif_neg (by omega)]
  rw [e] at h
  have h2 := congrArg (List.map Prod.snd) h
  rw [List.map_map] at h2
  simp only [List.map_cons, List.map_nil, wantU5] at h2
  rw [if_pos (by omega)] at h2
  rw [show (fun x : Bool × Nat => reqL5 x.2) = Prod.snd ∘ (fun x : Bool × Nat => (x.1, reqL5 x.2)) from rfl, h2]
  dsimp only
  congr 2
  omega

/-! ## STM32H5 -/

/-- No programming and no mass erase is selected. -/
def IdleH (cr : Nat) : Prop := cr.testBit 1 = false ∧ cr.testBit 15 = false

/-- In the second half of the address range. -/
def second (p : Nat) : Bool := decide (0x08100000 ≤ p)

/-- The sector at an address: its number, and the bank that is there. -/
def wantH5 (swap : Bool) (p : Nat) : Req := .page (second p ^^ swap) ((p - if second p then 0x08100000 else 0x08000000) / 0x2000)

theorem h5_word {v cr : Nat} {b : Bool} (h9 : v.testBit 9 = false) (h25 : v.testBit 25 = false) (h : IdleH cr) :
    let w := clr cr (H5_SNB ||| 8) ||| (shl v 6 ||| 4 ||| shl b.toNat 31)
    reqH5 (w ||| 0x20) = .page (cr.testBit 31 || b) (v % 128) ∧ IdleH w ∧ w.testBit 31 = (cr.testBit 31 || b) := by
  obtain ⟨i1, i15⟩ := h
  dsimp only
  have e31 : (clr cr (H5_SNB ||| 8) ||| (shl v 6 ||| 4 ||| shl b.toNat 31)).testBit 31 = (cr.testBit 31 || b) := by
    simp only [Nat.testBit_or, clr_testBit, shl_testBit]
    cases b <;> simp [h25, testBit_div, L5_PNB, L5_BKER, H5_SNB]
  refine ⟨?_, ?_, e31⟩
  · unfold reqH5
    rw [if_pos]
    · congr 1
      · rw [Nat.testBit_or, e31, show Nat.testBit 0x20 31 = false by decide, Bool.or_false]
      · rw [fld_or, fld_or, fld_or, fld_or, fld_clr (by decide) (by decide), fld_shl (by decide), show fld 4 6 7 = 0 by decide, show fld 0x20 6 7 = 0 by decide,
          show fld (shl b.toNat 31) 6 7 = 0 by cases b <;> decide, Nat.or_zero, Nat.or_zero, Nat.or_zero, Nat.zero_or]
    · simp only [Nat.testBit_or, clr_testBit, shl_testBit, i1, i15]
      cases b <;> simp [h9, testBit_div, L5_PNB, L5_BKER, H5_SNB]
  · unfold IdleH
    simp only [Nat.testBit_or, clr_testBit, shl_testBit, i1, i15]
    cases b <;> simp [h9, testBit_div, L5_PNB, L5_BKER, H5_SNB]

/-- The bank asked for is the one meant, or the one that was selected before: the bit is never cleared. -/
theorem h5_step {swap : Bool} {p cr : Nat} (h1 : 0x08000000 ≤ p) (h2 : p < 0x08200000) (h : IdleH cr) :
    reqH5 (h5Step swap p cr).1 = .page (cr.testBit 31 || (second p ^^ swap)) ((p - if second p then 0x08100000 else 0x08000000) / 0x2000) ∧ IdleH (h5Step swap p cr).2 ∧
      (h5Step swap p cr).2.testBit 31 = (cr.testBit 31 || (second p ^^ swap)) := by
  have e1 : decide (0x08100000 ≤ p ∧ p ≤ 0x081FFFFF) = second p := by
    unfold second
    congr 1
    exact propext ⟨fun h => h.1, fun h => ⟨h, by omega⟩⟩
  have e2 : (if swap then !second p else second p) = (second p ^^ swap) := by cases swap <;> simp
  unfold h5Step
  dsimp only
  rw [e1, e2]
  obtain ⟨v, ev⟩ : ∃ v, v = (p - if second p then 0x08100000 else 0x08000000) >>> 13 := ⟨_, rfl⟩
  have hv : v < 128 := by
    rw [ev, Nat.shiftRight_eq_div_pow]
    unfold second
    by_cases hs : 0x08100000 ≤ p
    · simp [hs]; omega
    · simp [hs]; omega
  have key := h5_word (v := v) (b := second p ^^ swap) (Nat.testBit_lt_two_pow (by omega)) (Nat.testBit_lt_two_pow (by omega)) h
  rw [← ev]
  refine ⟨?_, key.2.1, key.2.2⟩
  rw [key.1, Nat.mod_eq_of_lt hv, ev, Nat.shiftRight_eq_div_pow]

/-- **STM32H5**: exact if and only if the bank selected before does not interfere. -/
theorem h5_step_exact {swap : Bool} {p cr : Nat} (h1 : 0x08000000 ≤ p) (h2 : p < 0x08200000) (h : IdleH cr) :
    reqH5 (h5Step swap p cr).1 = wantH5 swap p ↔ cr.testBit 31 = false ∨ (second p ^^ swap) = true := by
  rw [(h5_step h1 h2 h).1, wantH5]
  cases cr.testBit 31 <;> cases (second p ^^ swap) <;> simp

/-- A request within one bank, of sectors that are not non-secure. -/
structure H5Req (tz dual : Bool) (boot address len : Nat) (b : Bool) : Prop where
  nonempty : 0 < len
  secure : ¬ (tz = true ∧ h5NonSecure dual boot address = true)
  low : (if b then 0x08100000 else 0x08000000) ≤ address
  high : address + len ≤ (if b then 0x08200000 else 0x08100000)

theorem h5_loop {swap : Bool} {P lo hi : Nat} {b k : Bool} (hlo : 0x08000000 ≤ lo) (hhi : hi ≤ 0x08200000) (hb : ∀ p, lo ≤ p → p < hi → second p = b) :
    ∀ p e cr, lo ≤ p → e ≤ hi → IdleH cr → (p < e → 0 < P → (cr.testBit 31 || (b ^^ swap)) = k) →
    (eraseLoop (h5Step swap) P p e cr).1.map reqH5 = (pts P p e).map (fun p => .page k ((p - if b then 0x08100000 else 0x08000000) / 0x2000)) ∧
      IdleH (eraseLoop (h5Step swap) P p e cr).2 ∧ ((p < e ∧ 0 < P) → (eraseLoop (h5Step swap) P p e cr).2.testBit 31 = k) ∧
      (¬ (p < e ∧ 0 < P) → (eraseLoop (h5Step swap) P p e cr).2 = cr) := by
  intro p e cr
  induction p, cr using eraseLoop.induct (step := h5Step swap) (P := P) (e := e) with
  | case1 p cr h r ih =>
    intro hl hh hi hk
    have hk' := hk h.1 h.2
    rw [eraseLoop, pts, dif_pos h, dif_pos h]
    obtain ⟨s1, s2, s3⟩ := h5_step (swap := swap) (p := p) (cr := cr) (by omega) (by omega) hi
    rw [hb p hl (by omega), hk'] at s1 s3
    have hk2 : ((h5Step swap p cr).2.testBit 31 || (b ^^ swap)) = k := by
      rw [s3, ← hk']
      cases cr.testBit 31 <;> cases (b ^^ swap) <;> rfl
    obtain ⟨h3, h4, h5, h6⟩ := ih (by omega) hh s2 (fun _ _ => hk2)
    refine ⟨?_, h4, ?_, fun hc => absurd h hc⟩
    · rw [List.map_cons, List.map_cons, s1]
      congr 1
    · intro _
      by_cases hn : p + P < e ∧ 0 < P
      · exact h5 hn
      · show (eraseLoop (h5Step swap) P (p + P) e (h5Step swap p cr).2).2.testBit 31 = k
        rw [h6 hn, s3]
  | case2 p cr h =>
    intro _ _ hi _
    rw [eraseLoop, pts, dif_neg h, dif_neg h]
    exact ⟨rfl, hi, fun hc => absurd hc h, fun _ => rfl⟩

/-- What a call asks for: the sectors meant, in the bank meant or in the one selected earlier; and what it leaves. -/
theorem h5_erase {tz dual swap b : Bool} {boot address len cr : Nat} (hr : H5Req tz dual boot address len b) (h : IdleH cr) :
    (h5Erase tz dual swap boot address len cr).1 = 0 ∧
      (h5Erase tz dual swap boot address len cr).2.1.map reqH5 = (pts 0x2000 address (address + len - 1)).map
        (fun p => .page (cr.testBit 31 || (b ^^ swap)) ((p - if b then 0x08100000 else 0x08000000) / 0x2000)) ∧
      IdleH (h5Erase tz dual swap boot address len cr).2.2 ∧ (1 < len → (h5Erase tz dual swap boot address len cr).2.2.testBit 31 = (cr.testBit 31 || (b ^^ swap))) := by
  obtain ⟨hl, hs, hlo, hhi⟩ := hr
  have ha : 0x08000000 ≤ address := by cases b <;> simp at hlo <;> omega
  unfold h5Erase
  rw [if_neg (by omega), if_neg (by omega), if_neg (fun hc => hs ⟨hc.1, hc.2.1⟩)]
  have hb : ∀ p, (if b then 0x08100000 else 0x08000000) ≤ p → p < (if b then 0x08200000 else 0x08100000) → second p = b := by
    intro p
    unfold second
    cases b <;> simp <;> omega
  obtain ⟨k1, k2, k3, _⟩ := h5_loop (swap := swap) (P := 0x2000) (b := b) (k := cr.testBit 31 || (b ^^ swap)) (lo := if b then 0x08100000 else 0x08000000)
    (hi := if b then 0x08200000 else 0x08100000) (by cases b <;> decide) (by cases b <;> decide) hb address (address + len - 1) cr hlo (by omega) h (fun _ _ => rfl)
  refine ⟨rfl, k1, ?_, ?_⟩
  · unfold IdleH
    rw [clr_testBit, clr_testBit, k2.1, k2.2]
    exact ⟨rfl, rfl⟩
  · intro h1
    show (clr _ 4).testBit 31 = _
    rw [clr_testBit, k3 ⟨by omega, by decide⟩]
    simp
    intro; decide

/-- **STM32H5**: exact as long as no bank that needs the bit has been selected. -/
theorem h5_exact {tz dual swap b : Bool} {boot address len cr : Nat} (hr : H5Req tz dual boot address len b) (h : IdleH cr) (h31 : cr.testBit 31 = false ∨ (b ^^ swap) = true) :
    (h5Erase tz dual swap boot address len cr).2.1.map reqH5 = (pts 0x2000 address (address + len - 1)).map (wantH5 swap) := by
  rw [(h5_erase hr h).2.1]
  apply List.map_congr_left
  intro p hp
  have hrange : ∀ p, p ∈ pts 0x2000 address (address + len - 1) → address ≤ p ∧ p < address + len - 1 := by
    have : ∀ q e, ∀ p, p ∈ pts 0x2000 q e → q ≤ p ∧ p < e := by
      intro q e
      induction q using pts.induct (P := 0x2000) (e := e) with
      | case1 q hq ih =>
        intro p hp
        rw [pts, dif_pos hq, List.mem_cons] at hp
        rcases hp with rfl | hp
        · exact ⟨Nat.le_refl _, hq.1⟩
        · have := ih p hp; omega
      | case2 q hq =>
        intro p hp
        rw [pts, dif_neg hq] at hp
        exact absurd hp (by simp)
    exact this _ _
  have hb : second p = b := by
    have := hrange p hp
    have h1 := hr.low
    have h2 := hr.high
    unfold second
    cases b <;> simp at h1 h2 ⊢ <;> omega
  rw [wantH5, hb]
  congr 1
  cases hc : (b ^^ swap) with
  | true => simp
  | false =>
    rw [hc] at h31
    simpa using h31

/-- Any further use of the flash. -/
inductive Op where
  | erase (tz dual swap : Bool) (boot address len : Nat)
  | write

/-- The register after uses of the flash. -/
def runOps : List Op → Nat → Nat
  | [], cr => cr
  | .erase tz dual swap boot address len :: l, cr => runOps l (h5Erase tz dual swap boot address len cr).2.2
  | .write :: l, cr => runOps l (h5Write cr)

theorem loop_keeps31 {swap : Bool} {P : Nat} : ∀ p e cr, cr.testBit 31 = true → (eraseLoop (h5Step swap) P p e cr).2.testBit 31 = true := by
  intro p e cr
  induction p, cr using eraseLoop.induct (step := h5Step swap) (P := P) (e := e) with
  | case1 p cr h r ih =>
    intro h31
    rw [eraseLoop, dif_pos h]
    apply ih
    show (h5Step swap p cr).2.testBit 31 = true
    unfold h5Step
    simp only [Nat.testBit_or, clr_testBit, h31]
    simp
    exact Or.inl (by decide)
  | case2 p cr h =>
    intro h31
    rw [eraseLoop, dif_neg h]
    exact h31

/-- **Finding.** STM32H5: once selected, the second bank stays selected, whatever is erased or written. -/
theorem h5_sticky : ∀ (l : List Op) (cr : Nat), cr.testBit 31 = true → (runOps l cr).testBit 31 = true := by
  intro l
  induction l with
  | nil => intro cr h; exact h
  | cons o l ih =>
    intro cr h
    cases o with
    | erase tz dual swap boot address len =>
      apply ih
      unfold h5Erase
      split
      · exact h
      · split
        · exact h
        · split
          · exact h
          · show (clr _ 4).testBit 31 = true
            rw [clr_testBit, loop_keeps31 _ _ _ h]
            decide
    | write =>
      apply ih
      unfold h5Write
      rw [clr_testBit, Nat.testBit_or, h]
      decide

/-- **Finding.** STM32H5, banks not swapped: after an erase in the second bank (UPDATE), an erase in the first one (BOOT, or SWAP) erases the sectors of the second bank at the same place. -/
theorem h5_update_then_boot {tz dual : Bool} {boot a1 n1 a2 n2 cr : Nat} (l : List Op) (h1 : H5Req tz dual boot a1 n1 true) (hn : 1 < n1)
    (h2 : H5Req tz dual boot a2 n2 false) (h : IdleH cr) (hq : IdleH (runOps l (h5Erase tz dual false boot a1 n1 cr).2.2)) :
    (h5Erase tz dual false boot a2 n2 (runOps l (h5Erase tz dual false boot a1 n1 cr).2.2)).2.1.map reqH5 =
      (pts 0x2000 a2 (a2 + n2 - 1)).map (fun p => wantH5 false (p + 0x00100000)) := by
  have h31 := (h5_erase (swap := false) h1 h).2.2.2 hn
  have hs := h5_sticky l _ (h31.trans (by simp))
  rw [(h5_erase (swap := false) h2 hq).2.1, hs]
  apply List.map_congr_left
  intro p hp
  have hlow : 0x08000000 ≤ p := by
    have : ∀ q e, ∀ p, p ∈ pts 0x2000 q e → q ≤ p := by
      intro q e
      induction q using pts.induct (P := 0x2000) (e := e) with
      | case1 q hq ih =>
        intro p hp
        rw [pts, dif_pos hq, List.mem_cons] at hp
        rcases hp with rfl | hp
        · exact Nat.le_refl _
        · have := ih p hp; omega
      | case2 q hq =>
        intro p hp
        rw [pts, dif_neg hq] at hp
        exact absurd hp (by simp)
    have h3 := this _ _ p hp
    have h4 := h2.low
    simp at h4
    omega
  unfold wantH5
  have e : second (p + 0x00100000) = true := by unfold second; simp; omega
  rw [e]
  simp only [Bool.true_or, if_true, if_false, Bool.true_xor, Bool.not_false, Req.page.injEq, true_and, Bool.false_eq_true]
  omega

theorem fork_step {swap : Bool} {p q cr : Nat} (hq : q = p + 0x04100000) (hp : 0x08000000 ≤ p) (hp2 : p < 0x08100000) (hi : IdleH cr) (h3 : cr.testBit 31 = true → swap = true) :
    reqH5 (h5Step swap q cr).1 = wantH5 swap p ∧ IdleH (h5Step swap q cr).2 ∧ ((h5Step swap q cr).2.testBit 31 = true → swap = true) := by
  obtain ⟨o, rfl⟩ : ∃ o, p = 0x08000000 + o := ⟨p - 0x08000000, by omega⟩
  obtain ⟨v, ev⟩ : ∃ v, v = (q - 0x08000000) >>> 13 := ⟨_, rfl⟩
  have hv : v = 8320 + o / 8192 := by rw [ev, Nat.shiftRight_eq_div_pow]; omega
  have ef : decide (0x08100000 ≤ q ∧ q ≤ 0x081FFFFF) = false := by simp; omega
  have es : h5Step swap q cr = ((clr cr (H5_SNB ||| 8) ||| (shl v 6 ||| 4 ||| shl swap.toNat 31)) ||| 0x20,
      clr cr (H5_SNB ||| 8) ||| (shl v 6 ||| 4 ||| shl swap.toNat 31)) := by
    unfold h5Step
    simp only [ef, ev, Bool.false_eq_true, if_false]
    cases swap <;> simp only [Bool.false_eq_true, if_false, if_true, Bool.not_false]
  have kw := h5_word (v := v) (cr := cr) (b := swap) (by rw [testBit_div]; simp; omega) (Nat.testBit_lt_two_pow (by omega)) hi
  dsimp only at kw
  have eb : (cr.testBit 31 || swap) = swap := by
    cases hc : cr.testBit 31 with
    | false => rfl
    | true => rw [h3 hc]; rfl
  rw [eb] at kw
  rw [es]
  refine ⟨?_, kw.2.1, by rw [kw.2.2]; exact id⟩
  rw [kw.1]
  unfold wantH5
  have e2 : second (0x08000000 + o) = false := by unfold second; simp; omega
  rw [e2]
  simp only [Bool.false_eq_true, if_false, Bool.false_xor, Req.page.injEq, true_and, Nat.add_sub_cancel_left]
  omega

theorem fork_loop {swap : Bool} {P D : Nat} (hD : D = 0x04100000) : ∀ k p e cr, k = e - p → 0x08000000 ≤ p → e ≤ 0x080FFFFF → IdleH cr → (cr.testBit 31 = true → swap = true) →
    (eraseLoop (h5Step swap) P (p + D) (e + D) cr).1.map reqH5 = (pts P p e).map (wantH5 swap) := by
  intro k
  induction k using Nat.strongRecOn with
  | ind k ih =>
    intro p e cr hk hp he hi h3
    rw [eraseLoop, pts]
    by_cases hpe : p < e ∧ 0 < P
    · rw [dif_pos ⟨by omega, hpe.2⟩, dif_pos hpe]
      obtain ⟨k1, k2, k3⟩ := fork_step (swap := swap) (q := p + D) (cr := cr) (by rw [hD]) hp (by omega) hi h3
      have step := ih (e - (p + P)) (by omega) (p + P) e _ rfl (by omega) he k2 k3
      rw [show p + P + D = p + D + P by omega] at step
      dsimp only
      rw [List.map_cons, List.map_cons, k1, step]
    · rw [dif_neg (fun hc => hpe ⟨by omega, hc.2⟩), dif_neg hpe]
      rfl

theorem erase_loop {tz dual swap : Bool} {boot address len cr : Nat} (h0 : ¬ len = 0) (h1 : ¬ address < 0x08000000) (h2 : h5NonSecure dual boot address = false) :
    (h5Erase tz dual swap boot address len cr).2.1 = (eraseLoop (h5Step swap) 0x2000 address (address + len - 1) cr).1 := by
  unfold h5Erase
  rw [if_neg h0, if_neg h1, if_neg (by rw [h2]; simp)]

/-- **Finding.** STM32H5 with TrustZone and `DUALBANK_SWAP`: `fork_bootloader`, which has to copy wolfBoot to the other bank, erases the wolfBoot that runs (the one at `0x08000000`, which is in
bank `swap`): the secure alias of the second bank is not recognised. -/
theorem h5_fork_erases_itself {swap : Bool} {boot cr : Nat} (hb : 0x08002000 ≤ boot) (hb2 : boot ≤ 0x08100000) (h : IdleH cr) (h31 : cr.testBit 31 = false) :
    (h5Fork true true swap boot cr).2.1.map reqH5 = (pts 0x2000 0x08000000 (boot - 1)).map (wantH5 swap) := by
  have e1 : h5Fork true true swap boot cr = h5Erase true true swap boot (clr 0x08100000 0x08000000 ||| 0x0C000000) (boot - 0x08000000) cr := by
    unfold h5Fork
    simp only [if_true]
  have ed : clr 0x08100000 0x08000000 ||| 0x0C000000 = 0x0C100000 := by decide
  obtain ⟨A, hA⟩ : ∃ A, A = 0x0C100000 := ⟨_, rfl⟩
  obtain ⟨n, hn⟩ : ∃ n, n = boot - 0x08000000 := ⟨_, rfl⟩
  rw [ed, ← hA, ← hn] at e1
  have ns : h5NonSecure true boot A = false := by
    unfold h5NonSecure
    rw [if_pos rfl, ← hn, hA, show (0x0C100000 &&& 0x000FFFFF : Nat) = 0 by decide]
    simp
    omega
  rw [e1, erase_loop (by omega) (by omega) ns]
  obtain ⟨D, hD⟩ : ∃ D, D = 0x04100000 := ⟨_, rfl⟩
  obtain ⟨p0, hp0⟩ : ∃ p0, p0 = 0x08000000 := ⟨_, rfl⟩
  rw [← hp0]
  have := fork_loop (swap := swap) (P := 0x2000) hD _ p0 (boot - 1) cr rfl (by omega) (by omega) h (by rw [h31]; intro hc; exact absurd hc (by decide))
  rw [← this, show p0 + D = A by omega, show boot - 1 + D = A + n - 1 by omega]

/-! ## Examples -/

example : (g0Erase 0x08008000 0x1000 0).1.map reqG0 = (pts 0x800 0x08008000 (0x08008000 + 0x1000 - 1)).map (fun p => .page false ((p - 0x08000000) / 0x800)) :=
  (g0_exact (address := 0x08008000) (len := 0x1000) (cr := 0) (by decide) (by decide) (by decide) ⟨by decide, by decide⟩).1

example : reqG0 (g0Step 0x08008800 0x20).1 = .page false 17 := by decide

example : reqWb (wbStep 0x5000 0).1 = .page false 5 := by decide

example : reqF4 (f4Sector 7 0x200).1 = .page false 7 := (f4_exact (by decide) ⟨by decide, by decide⟩ (by decide)).1

example : (l5Erase false true 0x0803F800 0x1000 0).1 = 0 ∧ Idle5 (l5Erase false true 0x0803F800 0x1000 0).2.2 :=
  have h := l5_exact (address := 0x0803F800) (len := 0x1000) (cr := 0) (by decide) (by decide) (by decide) ⟨by decide, by decide, by decide⟩
  ⟨h.1, h.2.2⟩

example : wantL5 0x0803F800 = .page false 127 ∧ wantL5 0x08040000 = .page true 0 := by decide

example : (l5Erase false true 0x08110000 0x2000 0).1 = 0 ∧ (l5Erase false true 0x08110000 0x2000 0).2.1 = [] := l5_out_of_range (by decide) (by decide)

example : (l5Erase false false (0x08000000 + 4096 * 5) 4096 0).2.1.map reqL5 = [.page false 10, .page false 11] := l5_single_bank (by decide) ⟨by decide, by decide, by decide⟩

example : (u5Erase true true (0x08000000 + 0x2000 * 32 + 0x800 * 3) 0x800 { s := 0, n := 0 }).2.1.map (fun x => reqL5 x.2) = [.page false 32] :=
  u5_sector (by decide) (by decide) ⟨by decide, by decide, by decide⟩ ⟨by decide, by decide, by decide⟩

/-- Erase of a sector of UPDATE, then of BOOT, as in `stm32h5-dualbank.config`: sector 32 of the second bank both times. -/
example : H5Req false true 0x08040000 0x08140000 0x2000 true ∧ H5Req false true 0x08040000 0x08040000 0x2000 false ∧ IdleH 0 :=
  ⟨⟨by decide, by decide, by decide, by decide⟩, ⟨by decide, by decide, by decide, by decide⟩, by decide, by decide⟩

example : reqH5 (h5Step false 0x08140000 0).1 = .page true 32 ∧ reqH5 (h5Step false 0x08040000 (clr (h5Step false 0x08140000 0).2 4)).1 = .page true 32 := by decide

example : wantH5 false 0x08040000 = .page false 32 := by decide

example : (h5Fork true true false 0x08040000 0).2.1.map reqH5 = (pts 0x2000 0x08000000 (0x08040000 - 1)).map (wantH5 false) :=
  h5_fork_erases_itself (by decide) (by decide) ⟨by decide, by decide⟩ (by decide)

end FlashReg

end Verif
