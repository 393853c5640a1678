import Verif.HalFlashC

/-!
# Internal flash drivers: `hal_flash_erase`

The bootloader model takes for granted that `hal_flash_erase(address, len)` erases every page that
has a byte in `[address, address+len)`, and no other. This file models the page loops of the
drivers in `/repo/hal`. The chip erases the page that contains the address it is given. The
registers, busy flags and error flags are not modelled.
-/

namespace Verif

/-- The chip erases the page of `P` bytes around `p`. -/
def erasePage (P : Nat) (f : Mem) (p : Nat) : Mem := fun x => if x / P = p / P then 0xFF#8 else f x

/-! ## What an erase must do -/

open Classical in
/-- Contents after all pages with a byte in `[a, a+len)` were erased. -/
noncomputable def cleared (P : Nat) (f : Mem) (a len : Nat) : Mem :=
  fun x => if ∃ y, a ≤ y ∧ y < a + len ∧ y / P = x / P then 0xFF#8 else f x

/-- Contents after the pages with numbers in `[u, v)` were erased. -/
def pages (P : Nat) (f : Mem) (u v : Nat) : Mem :=
  fun x => if u ≤ x / P ∧ x / P < v then 0xFF#8 else f x

theorem cleared_pages {P : Nat} (hP : 0 < P) (f : Mem) {a len : Nat} (hl : 0 < len) :
    cleared P f a len = pages P f (a / P) ((a + len - 1) / P + 1) := by
  funext x
  unfold cleared pages
  have key : (∃ y, a ≤ y ∧ y < a + len ∧ y / P = x / P) ↔
      (a / P ≤ x / P ∧ x / P < (a + len - 1) / P + 1) := by
    constructor
    · rintro ⟨y, h1, h2, h3⟩
      rw [← h3]
      exact ⟨Nat.div_le_div_right h1, Nat.lt_succ_of_le (Nat.div_le_div_right (by omega))⟩
    · rintro ⟨h1, h2⟩
      by_cases he : a / P = x / P
      · exact ⟨a, Nat.le_refl _, by omega, he⟩
      · refine ⟨x / P * P, ?_, ?_, Nat.mul_div_cancel _ hP⟩
        · have h3 : a / P + 1 ≤ x / P := by omega
          have h4 := Nat.mul_le_mul_right P h3
          have h5 := Nat.lt_mul_div_succ a hP
          rw [Nat.mul_comm] at h5
          omega
        · have h3 : x / P ≤ (a + len - 1) / P := by omega
          have h4 := Nat.mul_le_mul_right P h3
          have h5 := Nat.div_mul_le_self (a + len - 1) P
          omega
  by_cases h : a / P ≤ x / P ∧ x / P < (a + len - 1) / P + 1
  · rw [if_pos h, if_pos (key.2 h)]
  · rw [if_neg h, if_neg (fun e => h (key.1 e))]

theorem erasePage_pages {P : Nat} (f : Mem) {u v p : Nat} (hp : p / P = v) (h : u ≤ v) :
    erasePage P (pages P f u v) p = pages P f u (v + 1) := by
  funext x
  unfold erasePage pages
  by_cases hx : x / P = p / P
  · rw [if_pos hx, if_pos (by omega)]
  · rw [if_neg hx]
    by_cases hx2 : u ≤ x / P ∧ x / P < v
    · rw [if_pos hx2, if_pos (by omega)]
    · rw [if_neg hx2, if_neg (by omega)]

theorem pages_empty (P : Nat) (f : Mem) (u : Nat) : pages P f u u = f := by
  funext x; unfold pages; rw [if_neg (by omega)]

/-- The numbers of the erased pages can be read off an area without `0xFF`. -/
theorem pages_inj {P : Nat} (hP : 0 < P) {u v w : Nat} (hv : u ≤ v) (hw : u ≤ w)
    (h : pages P (fun _ => 0#8) u v = pages P (fun _ => 0#8) u w) : v = w := by
  refine Classical.byContradiction fun hne => ?_
  have hx := congrFun h (min v w * P)
  unfold pages at hx
  rw [Nat.mul_div_cancel _ hP] at hx
  rcases Nat.lt_or_gt_of_ne hne with h1 | h1
  · rw [if_neg (by omega), if_pos (by omega)] at hx
    have h3 : (0#8 : Byte) = 0xFF#8 := hx
    revert h3; decide
  · rw [if_pos (by omega), if_neg (by omega)] at hx
    have h3 : (0xFF#8 : Byte) = 0#8 := hx
    revert h3; decide

/-! ## `for (p = address; p < end; p += PAGE)` -/

/-- The page loop of `/repo/hal/stm32l0.c:164-169`, `/repo/hal/stm32g0.c:188-195`,
`/repo/hal/stm32c0.c:204-211`, `/repo/hal/stm32wb.c:220-230`, `/repo/hal/stm32l5.c:163-189`,
`/repo/hal/stm32u5.c:190-216`, `/repo/hal/stm32h5.c:193-219`: pages at `p`, `p + P`, ... below
`e`. The selection of the bank (L5, U5, H5) is taken to address the page of `p`. -/
def pageLoop (P : Nat) (f : Mem) (p e : Nat) : Mem :=
  if p < e ∧ 0 < P then pageLoop P (erasePage P f p) (p + P) e else f
termination_by e - p

theorem pageLoop_spec {P : Nat} (hP : 0 < P) (f : Mem) (a e : Nat) : ∀ n k, e - (a + k * P) = n →
    ∃ j, k ≤ j ∧ e ≤ a + j * P ∧ (j = k ∨ a + (j - 1) * P < e) ∧
      pageLoop P (pages P f (a / P) (a / P + k)) (a + k * P) e
        = pages P f (a / P) (a / P + j) := by
  intro n
  induction n using Nat.strongRecOn with
  | _ n ih =>
    intro k hn
    rw [pageLoop]
    by_cases h : a + k * P < e
    · rw [if_pos ⟨h, hP⟩, erasePage_pages f (by
        rw [Nat.add_mul_div_right _ _ hP]) (by omega)]
      have e1 : a + k * P + P = a + (k + 1) * P := by rw [Nat.add_mul]; omega
      rw [e1]
      obtain ⟨j, h1, h2, h3, h4⟩ := ih (e - (a + (k + 1) * P)) (by omega) (k + 1) rfl
      refine ⟨j, by omega, h2, Or.inr ?_, ?_⟩
      · rcases h3 with h3 | h3
        · rw [h3, Nat.add_sub_cancel]; exact h
        · exact h3
      · rw [← h4]; rfl
    · rw [if_neg (by omega)]
      exact ⟨k, Nat.le_refl _, by omega, Or.inl rfl, rfl⟩

/-- The number of rounds of the page loop. -/
theorem pageLoop_pages {P : Nat} (hP : 0 < P) (f : Mem) (a l : Nat) :
    pageLoop P f a (a + l) = pages P f (a / P) (a / P + (l + (P - 1)) / P) := by
  obtain ⟨j, _, h2, h3, h4⟩ := pageLoop_spec hP f a (a + l) _ 0 rfl
  rw [Nat.zero_mul, Nat.add_zero, Nat.add_zero, pages_empty] at h4
  rw [h4]
  have hj : j = (l + (P - 1)) / P := by
    apply Nat.le_antisymm
    · rw [Nat.le_div_iff_mul_le hP]
      rcases h3 with h3 | h3
      · rw [h3, Nat.zero_mul]; omega
      · by_cases hj0 : j = 0
        · rw [hj0, Nat.zero_mul]; omega
        · have : j * P = (j - 1) * P + P := by
            rw [show j = j - 1 + 1 by omega, Nat.add_mul]; simp
          omega
    · rw [Nat.div_le_iff_le_mul_add_pred hP]
      rw [Nat.mul_comm P j]; omega
  rw [hj]

/-- `hal_flash_erase` of the STM32 drivers above: `end_address = address + len - 1`, the loop runs
while `p < end_address`. -/
def stmErase (P : Nat) (f : Mem) (a len : Nat) : Option Mem :=
  if len = 0 then none else some (pageLoop P f a (a + (len - 1)))

/-- **STM32 L0/G0/C0/WB/L5/U5/H5**: an erase is exact if and only if the number of rounds
(`len - 1` over the page size, rounded up) is the number of pages in the area. -/
theorem stm_erase_iff {P : Nat} (hP : 0 < P) (a len : Nat) (hl : 0 < len) :
    (∀ f, stmErase P f a len = some (cleared P f a len)) ↔
      a / P + (len - 1 + (P - 1)) / P = (a + len - 1) / P + 1 := by
  have hs : ∀ f, stmErase P f a len = some (pageLoop P f a (a + (len - 1))) := by
    intro f; unfold stmErase; rw [if_neg (by omega)]
  simp only [hs]
  constructor
  · intro h
    have h := h (fun _ => 0#8)
    rw [cleared_pages hP _ hl, pageLoop_pages hP] at h
    have hm : a / P ≤ (a + len - 1) / P := Nat.div_le_div_right (by omega)
    exact pages_inj hP (Nat.le_add_right _ _) (Nat.le_succ_of_le hm) (Option.some.inj h)
  · intro h f
    rw [cleared_pages hP _ hl, pageLoop_pages hP, h]

/-- **STM32 L0/G0/C0/WB/L5/U5/H5**: from a page boundary on, every length but those with
`len % page = 1` is erased exactly. -/
theorem stm_erase_aligned {P : Nat} (hP : 1 < P) (f : Mem) (a len : Nat) (hA : a % P = 0)
    (hl : 0 < len) (h1 : len % P ≠ 1) : stmErase P f a len = some (cleared P f a len) := by
  refine (stm_erase_iff (by omega) a len hl).2 ?_ f
  have hP0 : 0 < P := by omega
  have ha : a / P * P = a := Nat.div_mul_cancel (Nat.dvd_of_mod_eq_zero hA)
  have e1 : (a + len - 1) / P = a / P + (len - 1) / P := by
    rw [show a + len - 1 = len - 1 + a / P * P by omega, Nat.add_mul_div_right _ _ hP0, Nat.add_comm]
  have e2 : (len - 1 + (P - 1)) / P = (len - 1) / P + 1 := by
    have hm : (len - 1) % P ≠ 0 := by
      intro h0
      apply h1
      have : len = len - 1 + 1 := by omega
      rw [this, Nat.add_mod, h0, Nat.mod_eq_of_lt hP]
      simp [Nat.mod_eq_of_lt hP]
    have hd := Nat.div_add_mod (len - 1) P
    have hlt := Nat.mod_lt (len - 1) hP0
    rw [show len - 1 + (P - 1) = ((len - 1) % P - 1) + ((len - 1) / P + 1) * P by
      rw [Nat.add_mul, Nat.mul_comm ((len - 1) / P)]; omega]
    rw [Nat.add_mul_div_right _ _ hP0, Nat.div_eq_of_lt (by omega), Nat.zero_add]
  rw [e1, e2]; omega

/-- **STM32 L0/G0/C0/WB/L5/U5/H5: the last page can be missed.** From a page boundary on, with
`len % page = 1`, the driver returns 0 and leaves the last page as it was; `len = 1` erases
nothing. -/
theorem stm_erase_short {P : Nat} (hP : 1 < P) (f : Mem) (a len : Nat) (hA : a % P = 0)
    (hl : 0 < len) (h1 : len % P = 1) : ∃ m, stmErase P f a len = some m ∧
      ∀ x, x / P = (a + len - 1) / P → m x = f x := by
  have hP0 : 0 < P := by omega
  unfold stmErase
  rw [if_neg (by omega), pageLoop_pages hP0]
  refine ⟨_, rfl, ?_⟩
  intro x hx
  unfold pages
  rw [if_neg]
  have ha : a / P * P = a := Nat.div_mul_cancel (Nat.dvd_of_mod_eq_zero hA)
  have hd := Nat.div_add_mod len P
  rw [h1] at hd
  have e0 : len - 1 = len / P * P := by rw [Nat.mul_comm]; omega
  have e1 : (a + len - 1) / P = a / P + len / P := by
    rw [show a + len - 1 = a + len / P * P by omega, Nat.add_mul_div_right _ _ hP0]
  have e2 : (len - 1 + (P - 1)) / P = len / P := by
    rw [e0, Nat.add_comm, Nat.add_mul_div_right _ _ hP0, Nat.div_eq_of_lt (by omega), Nat.zero_add]
  rw [hx, e1, e2]; omega

/-- Erasing the example layout `/repo/config/examples/stm32g0.config` style page of 2048 bytes. -/
example : stmErase 2048 (fun _ => 0#8) 0x08010000 4096 =
    some (cleared 2048 (fun _ => 0#8) 0x08010000 4096) :=
  stm_erase_aligned (by omega) _ _ _ (by omega) (by omega) (by omega)

/-! ## `for (p = address; p <= end; p += PAGE)` -/

/-- `/repo/hal/nrf52.c:105-116` and `/repo/hal/hifive1.c:570-596`: `end = address + len - 1`, the
loop runs while `p <= end`. (`len = 0` at address 0, where `end` wraps, is not modelled.) -/
def leErase (P : Nat) (f : Mem) (a len : Nat) : Mem := pageLoop P f a (a + len)

/-- `/repo/hal/nrf5340.c:249-270`: the same from the start of the page. -/
def maskErase (P : Nat) (f : Mem) (a len : Nat) : Mem :=
  pageLoop P f (a - a % P) (a + len)

/-- **nRF52, HiFive1**: an erase is exact if and only if the area has as many pages as its length
(always from a page boundary on, see `le_erase_aligned`). -/
theorem le_erase_iff {P : Nat} (hP : 0 < P) (a len : Nat) (hl : 0 < len) :
    (∀ f, leErase P f a len = cleared P f a len) ↔
      a / P + (len + (P - 1)) / P = (a + len - 1) / P + 1 := by
  unfold leErase
  constructor
  · intro h
    have h := h (fun _ => 0#8)
    rw [cleared_pages hP _ hl, pageLoop_pages hP] at h
    have hm : a / P ≤ (a + len - 1) / P := Nat.div_le_div_right (by omega)
    exact pages_inj hP (Nat.le_add_right _ _) (Nat.le_succ_of_le hm) h
  · intro h f
    rw [cleared_pages hP _ hl, pageLoop_pages hP, h]

theorem rounds_aligned {P a len : Nat} (hP : 0 < P) (hA : a % P = 0) (hl : 0 < len) :
    a / P + (len + (P - 1)) / P = (a + len - 1) / P + 1 := by
  have ha : a / P * P = a := Nat.div_mul_cancel (Nat.dvd_of_mod_eq_zero hA)
  rw [show a + len - 1 = len - 1 + a / P * P by omega, Nat.add_mul_div_right _ _ hP,
    show len + (P - 1) = len - 1 + P by omega, Nat.add_div_right _ hP]
  omega

/-- **nRF52, HiFive1**: exact from a page boundary on. -/
theorem le_erase_aligned {P : Nat} (hP : 0 < P) (f : Mem) (a len : Nat) (hA : a % P = 0)
    (hl : 0 < len) : leErase P f a len = cleared P f a len :=
  (le_erase_iff hP a len hl).2 (rounds_aligned hP hA hl) f

/-- **nRF5340**: every erase is exact. -/
theorem mask_erase_exact {P : Nat} (hP : 0 < P) (f : Mem) (a len : Nat) (hl : 0 < len) :
    maskErase P f a len = cleared P f a len := by
  have hle := Nat.mod_le a P
  have hd := Nat.div_add_mod a P
  have hb : (a - a % P) % P = 0 := by
    rw [show a - a % P = P * (a / P) by omega]; exact Nat.mul_mod_right _ _
  have hq : (a - a % P) / P = a / P := by
    rw [show a - a % P = P * (a / P) by omega, Nat.mul_div_cancel_left _ hP]
  unfold maskErase
  rw [show a + len = (a - a % P) + (a % P + len) by omega, pageLoop_pages hP,
    cleared_pages hP _ hl, rounds_aligned hP hb (by omega), hq,
    show a - a % P + (a % P + len) - 1 = a + len - 1 by omega]

/-- nRF52: two bytes across a page boundary; only the first page is erased. -/
example : ¬ ∀ f, leErase 4096 f 0x1FFFF 2 = cleared 4096 f 0x1FFFF 2 := by
  rw [le_erase_iff (by omega) _ _ (by omega)]
  omega

/-! ## Counting `len` down -/

/-- `/repo/hal/same51.c:386-397` and `/repo/hal/cc26x2.c:63-76`: one page per round, `len`
counted down. -/
def countErase (P : Nat) (f : Mem) (p len : Nat) : Mem :=
  if 0 < len ∧ 0 < P then countErase P (erasePage P f p) (p + P) (len - P) else f
termination_by len

/-- `/repo/hal/kinetis.c:356-368`: `do ... while (len > 0)`. -/
def doErase (P : Nat) (f : Mem) (p len : Nat) : Mem :=
  countErase P (erasePage P f p) (p + P) (len - P)

theorem countErase_eq {P : Nat} (hP : 0 < P) : ∀ n f p len, len = n →
    countErase P f p len = pageLoop P f p (p + len) := by
  intro n
  induction n using Nat.strongRecOn with
  | _ n ih =>
    intro f p len hn
    rw [countErase, pageLoop]
    by_cases h : 0 < len
    · rw [if_pos ⟨h, hP⟩, if_pos ⟨by omega, hP⟩, ih (len - P) (by omega) _ _ _ rfl]
      by_cases h2 : P ≤ len
      · rw [show p + P + (len - P) = p + len by omega]
      · rw [show len - P = 0 by omega, Nat.add_zero]
        rw [pageLoop, if_neg (by omega), pageLoop, if_neg (by omega)]
    · rw [if_neg (by omega), if_neg (by omega)]

/-- **SAME51, CC26x2**: exact from a page boundary on. -/
theorem count_erase_aligned {P : Nat} (hP : 0 < P) (f : Mem) (a len : Nat) (hA : a % P = 0)
    (hl : 0 < len) : countErase P f a len = cleared P f a len := by
  rw [countErase_eq hP _ f a len rfl]
  exact le_erase_aligned hP f a len hA hl

/-- **Kinetis**: exact from a page boundary on. -/
theorem do_erase_aligned {P : Nat} (hP : 0 < P) (f : Mem) (a len : Nat) (hA : a % P = 0)
    (hl : 0 < len) : doErase P f a len = cleared P f a len := by
  have h := count_erase_aligned hP f a len hA hl
  rw [countErase, if_pos ⟨hl, hP⟩] at h
  exact h

/-- **Kinetis**: a request of length 0 erases a sector. -/
theorem do_erase_zero {P : Nat} (f : Mem) (a : Nat) : doErase P f a 0 = erasePage P f a := by
  unfold doErase
  rw [countErase, if_neg (by omega)]

/-! ## Drivers that do not move on -/

/-- `/repo/hal/mcxw.c:144-163`: `address` is rounded down once and not advanced. -/
def mcxwErase (P : Nat) (f : Mem) (a len : Nat) : Mem :=
  if 0 < len ∧ 0 < P then mcxwErase P (erasePage P f (a - a % P)) (a - a % P) (len - P) else f
termination_by len

/-- **MCXW: only the first sector is erased**, whatever the length. -/
theorem mcxw_erase_first {P : Nat} (hP : 0 < P) : ∀ n (f : Mem) a len, len = n → 0 < len →
    mcxwErase P f a len = erasePage P f a := by
  intro n
  induction n using Nat.strongRecOn with
  | _ n ih =>
    intro f a len hn hl
    have hd := Nat.div_add_mod a P
    have hle := Nat.mod_le a P
    have hq : (a - a % P) / P = a / P := by
      rw [show a - a % P = P * (a / P) by omega, Nat.mul_div_cancel_left _ hP]
    have e1 : erasePage P f (a - a % P) = erasePage P f a := by
      unfold erasePage; rw [hq]
    rw [mcxwErase, if_pos ⟨hl, hP⟩, e1]
    by_cases h : 0 < len - P
    · rw [ih (len - P) (by omega) _ _ _ rfl h]
      funext x
      unfold erasePage
      rw [hq]
      by_cases hx : x / P = a / P
      · rw [if_pos hx, if_pos hx]
      · rw [if_neg hx, if_neg hx]
    · rw [mcxwErase, if_neg (by omega)]

/-- **MCXW: erases longer than a sector are not carried out.** -/
theorem mcxw_erase_iff {P : Nat} (hP : 0 < P) (a len : Nat) (hl : 0 < len) :
    (∀ f, mcxwErase P f a len = cleared P f a len) ↔ a % P + len ≤ P := by
  have hd := Nat.div_add_mod a P
  have hlt := Nat.mod_lt a hP
  have hone : ∀ f, erasePage P f a = pages P f (a / P) (a / P + 1) := by
    intro f
    have := erasePage_pages (P := P) f (u := a / P) (v := a / P) (p := a) rfl (Nat.le_refl _)
    rwa [pages_empty] at this
  have hiff : (a + len - 1) / P = a / P ↔ a % P + len ≤ P := by
    rw [Nat.div_eq_iff hP]
    rw [Nat.mul_comm (a / P)]
    omega
  constructor
  · intro h
    have h := h (fun _ => 0#8)
    rw [mcxw_erase_first hP _ _ a len rfl hl, cleared_pages hP _ hl, hone] at h
    have hm : a / P ≤ (a + len - 1) / P := Nat.div_le_div_right (by omega)
    have := pages_inj hP (Nat.le_add_right _ _) (Nat.le_succ_of_le hm) h
    exact hiff.1 (by omega)
  · intro h f
    rw [mcxw_erase_first hP _ _ a len rfl hl, cleared_pages hP _ hl, hone, hiff.2 h]

/-- `/repo/hal/samr21.c:205-214`, `n` rounds: `address` is not advanced, and for want of a
semicolon (`210`) `len` is counted down once for every poll that finds the controller busy;
`busy r` is the number of such polls in round `r`. `none`: still running. -/
def sam21Erase (P : Nat) (busy : Nat → Nat) (f : Mem) (a : Nat) (len : Int) : Nat → Option Mem
  | 0 => none
  | n + 1 =>
    if len ≤ 0 then some f
    else sam21Erase P busy (erasePage P f a) a (len - P * busy n) n

/-- **SAMR21: only the first row is erased**, whatever the controller answers. -/
theorem sam21_erase_first {P : Nat} (busy : Nat → Nat) (a : Nat) : ∀ n (f : Mem) (len : Int) m,
    sam21Erase P busy f a len n = some m → ∀ x, x / P ≠ a / P → m x = f x := by
  intro n
  induction n with
  | zero => intro f len m h; cases h
  | succ n ih =>
    intro f len m h x hx
    unfold sam21Erase at h
    split at h
    · cases h; rfl
    · rw [ih _ _ m h x hx]
      unfold erasePage
      rw [if_neg hx]

/-- **SAMR21: with a controller that is never seen busy the erase does not return.** -/
theorem sam21_erase_stuck {P : Nat} (a : Nat) (len : Int) (hl : 0 < len) :
    ∀ n (f : Mem), sam21Erase P (fun _ => 0) f a len n = none := by
  intro n
  induction n with
  | zero => intro f; rfl
  | succ n ih =>
    intro f
    unfold sam21Erase
    rw [if_neg (by omega)]
    simpa using ih (erasePage P f a)

/-! ## Whole rows only -/

/-- The loop of `/repo/hal/psoc6.c:161-166`: whole rows while at least one fits. -/
def rowLoop (P : Nat) (f : Mem) (p e : Nat) : Mem :=
  if P ≤ e - p ∧ 0 < P then rowLoop P (erasePage P f p) (p + P) e else f
termination_by e - p

theorem rowLoop_eq {P : Nat} (hP : 0 < P) : ∀ n f p l, l = n →
    rowLoop P f p (p + l) = pageLoop P f p (p + l / P * P) := by
  intro n
  induction n using Nat.strongRecOn with
  | _ n ih =>
    intro f p l hn
    rw [rowLoop]
    by_cases h : P ≤ l
    · rw [if_pos ⟨by omega, hP⟩]
      have e1 : l / P = (l - P) / P + 1 := by
        rw [Nat.div_eq_sub_div hP h]
      have e2 : l / P * P = (l - P) / P * P + P := by rw [e1, Nat.add_mul]; omega
      rw [pageLoop, if_pos ⟨by omega, hP⟩]
      have := ih (l - P) (by omega) (erasePage P f p) (p + P) (l - P) rfl
      rw [show p + P + (l - P) = p + l by omega] at this
      rw [this]
      congr 1; omega
    · rw [if_neg (by omega), Nat.div_eq_of_lt (by omega), Nat.zero_mul, Nat.add_zero]
      rw [pageLoop, if_neg (by omega)]

/-- **PSoC 6**: from a row boundary on, exactly the lengths that are multiples of a row are
erased exactly; otherwise the last row is left as it was, and 0 is returned. -/
theorem row_erase_iff {P : Nat} (hP : 0 < P) (a len : Nat) (hA : a % P = 0) (hl : 0 < len) :
    (∀ f, rowLoop P f a (a + len) = cleared P f a len) ↔ len % P = 0 := by
  have hq : ∀ f, rowLoop P f a (a + len) = pages P f (a / P) (a / P + len / P) := by
    intro f
    rw [rowLoop_eq hP _ f a len rfl, pageLoop_pages hP]
    congr 2
    rw [Nat.add_comm, Nat.add_mul_div_right _ _ hP, Nat.div_eq_of_lt (by omega), Nat.zero_add]
  have hr := rounds_aligned hP hA hl
  have hd := Nat.div_add_mod len P
  have hlt := Nat.mod_lt len hP
  have hkey : (len + (P - 1)) / P = len / P ↔ len % P = 0 := by
    rw [Nat.div_eq_iff hP, Nat.mul_comm (len / P)]
    omega
  constructor
  · intro h
    have h := h (fun _ => 0#8)
    rw [hq, cleared_pages hP _ hl] at h
    have hm : a / P ≤ (a + len - 1) / P := Nat.div_le_div_right (by omega)
    have := pages_inj hP (Nat.le_add_right _ _) (Nat.le_succ_of_le hm) h
    exact hkey.1 (Nat.add_left_cancel (hr.trans this.symm))
  · intro h f
    rw [hq, cleared_pages hP _ hl, ← hr, hkey.2 h]

/-- `/repo/hal/stm32f1.c:221-238`: lengths that are not a multiple of the page are refused
(the bounds check is not modelled). -/
def f1Erase (P : Nat) (f : Mem) (a len : Nat) : Option Mem :=
  if len = 0 ∨ len % P ≠ 0 then none else some (pageLoop P f a (a + len))

/-- **STM32F1**: an erase from a page boundary on is exact or refused. -/
theorem f1_erase {P : Nat} (hP : 0 < P) (f : Mem) (a len : Nat) (hA : a % P = 0) :
    f1Erase P f a len = if len = 0 ∨ len % P ≠ 0 then none else some (cleared P f a len) := by
  unfold f1Erase
  split
  · rfl
  · rw [← le_erase_aligned hP f a len hA (by omega)]; rfl

/-- `/repo/hal/lpc.c:143-151`: the sectors from that of the first to that of the last byte. -/
def lpcErase (P : Nat) (f : Mem) (a len : Nat) : Mem :=
  pages P f (a / P) ((a + (len - 1)) / P + 1)

/-- **LPC546xx**: every erase is exact. -/
theorem lpc_erase_exact {P : Nat} (hP : 0 < P) (f : Mem) (a len : Nat) (hl : 0 < len) :
    lpcErase P f a len = cleared P f a len := by
  rw [cleared_pages hP _ hl, show a + len - 1 = a + (len - 1) by omega]; rfl

/-! ## STM32L4: two banks -/

/-- `GetPage` of `/repo/hal/stm32l4.c:36-47` for an address relative to `FLASH_BASE`; banks of `K`
pages. -/
def l4Page (P K x : Nat) : Nat := if x < K * P then x / P else (x - K * P) / P

/-- `/repo/hal/stm32l4.c:85-111`: page numbers are counted from the start of the bank,
the bank is that of the first byte; `base` is `FLASH_BASE`, `K` the number of pages in a bank.
`HAL_FLASHEx_Erase` erases `NbPages` pages; `NbOfPages` is a 32-bit difference and wraps (the
library then erases nothing it could name; modelled as `none`). -/
def l4Erase (P K : Nat) (f : Mem) (a len : Nat) : Option Mem :=
  if len = 0 then none
  else
    if l4Page P K (a + len - 1) + 1 < l4Page P K a then none
    else
      let b := (if a < K * P then 0 else K) + l4Page P K a
      some (pages P f b (b + (l4Page P K (a + len - 1) + 1 - l4Page P K a)))

/-- **STM32L4**: an area inside one bank is erased exactly (addresses from `FLASH_BASE`). -/
theorem l4_erase_bank {P K : Nat} (hP : 0 < P) (f : Mem) (a len : Nat) (hl : 0 < len)
    (h : a + len ≤ K * P ∨ K * P ≤ a) : l4Erase P K f a len = some (cleared P f a len) := by
  unfold l4Erase
  rw [if_neg (by omega), cleared_pages hP _ hl]
  have hm : a / P ≤ (a + len - 1) / P := Nat.div_le_div_right (by omega)
  rcases h with h | h
  · have p1 : l4Page P K a = a / P := if_pos (by omega)
    have p2 : l4Page P K (a + len - 1) = (a + len - 1) / P := if_pos (by omega)
    rw [p1, p2, if_neg (by omega), if_pos (by omega)]
    dsimp only
    rw [Nat.zero_add]
    congr 2; omega
  · have p1 : l4Page P K a = (a - K * P) / P := if_neg (by omega)
    have p2 : l4Page P K (a + len - 1) = (a + len - 1 - K * P) / P := if_neg (by omega)
    rw [p1, p2]
    have sub : ∀ x, K * P ≤ x → (x - K * P) / P = x / P - K := by
      intro x _
      rw [Nat.mul_comm K P, Nat.sub_mul_div]
    rw [sub a h, sub (a + len - 1) (by omega)]
    have hK : K ≤ a / P := by rw [Nat.le_div_iff_mul_le hP]; exact h
    rw [if_neg (by omega), if_neg (by omega)]
    dsimp only
    rw [show K + (a / P - K) = a / P by omega]
    congr 2; omega

/-- **STM32L4: an erase across the two banks leaves the second bank as it was.** -/
theorem l4_erase_across {P K : Nat} (hP : 0 < P) (f m : Mem) (a len : Nat) (h1 : a < K * P)
    (h2 : K * P < a + len) (h : l4Erase P K f a len = some m)
    (hin : (a + len - 1 - K * P) / P < K) (x : Nat) (hx : K * P ≤ x) : m x = f x := by
  unfold l4Erase at h
  rw [if_neg (by omega)] at h
  have p2 : l4Page P K (a + len - 1) = (a + len - 1 - K * P) / P := if_neg (by omega)
  rw [p2, if_pos h1] at h
  split at h
  · cases h
  · rename_i hlt
    have hm := Option.some.inj h
    rw [← hm]
    unfold pages
    rw [if_neg]
    have hK : K ≤ x / P := by rw [Nat.le_div_iff_mul_le hP]; exact hx
    omega

/-! ## Examples -/

/-- MCXW: two sectors asked for, the second one is kept. -/
example : mcxwErase 8192 (fun _ => 0#8) 0x20000 16384 0x22000 = 0#8 := by
  rw [mcxw_erase_first (by omega) _ _ _ _ rfl (by omega)]
  decide

/-- SAM R21: the loop ends only if the busy wait takes long enough; never if the chip is never seen
busy. -/
example (n : Nat) : sam21Erase 64 (fun _ => 0) (fun _ => 0#8) 0x8000 256 n = none :=
  sam21_erase_stuck _ _ (by omega) _ _

/-- PSoC 6: an incomplete row is not erased. -/
example : ¬ ∀ f, rowLoop 512 f 0x10000 (0x10000 + 700) = cleared 512 f 0x10000 700 := by
  rw [row_erase_iff (by omega) _ _ (by omega) (by omega)]
  omega

end Verif
