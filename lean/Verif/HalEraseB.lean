import Verif.HalErase

/-!
# Internal flash drivers: `hal_flash_erase`, sector tables and banks
-/

namespace Verif

/-! ## STM32F4 and STM32F7: table of sectors -/

/-- The chip erases sector `i` of a layout with the boundaries `hw`. -/
def eraseSec (hw : Nat → Nat) (f : Mem) (i : Nat) : Mem :=
  fun x => if hw i ≤ x ∧ x < hw (i + 1) then 0xFF#8 else f x

/-- `for (i = start; i <= end; i++) flash_erase_sector(i)`, `n` sectors from `i` on
(`/repo/hal/stm32f4.c:231-232`, `/repo/hal/stm32f7.c:309-310`). -/
def eraseSecs (hw : Nat → Nat) (f : Mem) (i : Nat) : Nat → Mem
  | 0 => f
  | n + 1 => eraseSecs hw (eraseSec hw f i) (i + 1) n

/-- The search of `/repo/hal/stm32f4.c:218-228`, `n` sectors from `i` on: the sectors of the first
and the last address; it stops as soon as both are found and neither is sector 0. (The search of
`/repo/hal/stm32f7.c:287-305` is the same in single bank mode, without unused entries.) -/
def findSecs (tab : Nat → Nat) (a e : Nat) (st en : Option Nat) (i : Nat) :
    Nat → Option Nat × Option Nat
  | 0 => (st, en)
  | n + 1 =>
    let st := if tab i ≤ a ∧ a < tab (i + 1) then some i else st
    let en := if tab i ≤ e ∧ e < tab (i + 1) then some i else en
    if (∃ s, st = some s ∧ 0 < s) ∧ (∃ s, en = some s ∧ 0 < s) then (st, en)
    else findSecs tab a e st en (i + 1) n

/-- `hal_flash_erase` of `/repo/hal/stm32f4.c:205-234` and `/repo/hal/stm32f7.c:275-312`: `N`
sectors with the boundaries `tab` (`FLASH_TOP` is `tab N`), on a chip with the boundaries `hw`.
`none`: returns -1. -/
def tabErase (tab hw : Nat → Nat) (N : Nat) (f : Mem) (a len : Nat) : Option Mem :=
  if len = 0 then none
  else if a < tab 0 ∨ tab N < a + len - 1 then none
  else
    match findSecs tab a (a + len - 1) none none 0 N with
    | (some s, some e) => some (eraseSecs hw f s (e + 1 - s))
    | _ => none

/-- Spec: all sectors that have a byte in `[a, a+len)` are erased. -/
def clearedSecs (hw : Nat → Nat) (N : Nat) (f m : Mem) (a len : Nat) : Prop :=
  ∀ i x, i < N → hw i ≤ x → x < hw (i + 1) →
    m x = if a < hw (i + 1) ∧ hw i < a + len then 0xFF#8 else f x

theorem tab_mono {tab : Nat → Nat} {N : Nat} (ht : ∀ i, i < N → tab i < tab (i + 1)) :
    ∀ j i, i ≤ j → j ≤ N → tab i ≤ tab j := by
  intro j
  induction j with
  | zero => intro i h _; rw [Nat.le_zero.1 h]; exact Nat.le_refl _
  | succ j ih =>
    intro i h1 h2
    by_cases he : i = j + 1
    · rw [he]; exact Nat.le_refl _
    · have := ih i (by omega) (by omega)
      have := ht j (by omega)
      omega

theorem tab_unique {tab : Nat → Nat} {N : Nat} (ht : ∀ i, i < N → tab i < tab (i + 1)) {i j x : Nat}
    (hi : i < N) (hj : j < N) (h1 : tab i ≤ x) (h2 : x < tab (i + 1)) (h3 : tab j ≤ x)
    (h4 : x < tab (j + 1)) : i = j := by
  refine Classical.byContradiction fun hne => ?_
  rcases Nat.lt_or_gt_of_ne hne with h | h
  · have := tab_mono ht j (i + 1) (by omega) (by omega); omega
  · have := tab_mono ht i (j + 1) (by omega) (by omega); omega

theorem tab_find {tab : Nat → Nat} : ∀ N, (∀ i, i < N → tab i < tab (i + 1)) → ∀ x, tab 0 ≤ x →
    x < tab N → ∃ i, i < N ∧ tab i ≤ x ∧ x < tab (i + 1) := by
  intro N
  induction N with
  | zero => intro _ x h1 h2; omega
  | succ N ih =>
    intro ht x h1 h2
    by_cases h : x < tab N
    · obtain ⟨i, a, b⟩ := ih (fun i hi => ht i (by omega)) x h1 h
      exact ⟨i, by omega, b⟩
    · exact ⟨N, by omega, by omega, h2⟩

/-- What the search has found after `i` sectors. -/
def secInv (tab : Nat → Nat) (x i : Nat) (o : Option Nat) : Prop :=
  o = none ∧ (∀ j, j < i → ¬ (tab j ≤ x ∧ x < tab (j + 1))) ∨
  ∃ s, o = some s ∧ s < i ∧ tab s ≤ x ∧ x < tab (s + 1)

theorem secInv_step {tab : Nat → Nat} {x i : Nat} {o : Option Nat} (h : secInv tab x i o) :
    secInv tab x (i + 1) (if tab i ≤ x ∧ x < tab (i + 1) then some i else o) := by
  by_cases hx : tab i ≤ x ∧ x < tab (i + 1)
  · rw [if_pos hx]
    exact Or.inr ⟨i, rfl, by omega, hx⟩
  · rw [if_neg hx]
    rcases h with ⟨h1, h2⟩ | ⟨s, h1, h2, h3⟩
    · refine Or.inl ⟨h1, ?_⟩
      intro j hj
      by_cases he : j = i
      · rw [he]; exact hx
      · exact h2 j (by omega)
    · exact Or.inr ⟨s, h1, by omega, h3⟩

theorem findSecs_spec {tab : Nat → Nat} (a e : Nat) : ∀ n i st en, secInv tab a i st →
    secInv tab e i en → ∃ k, k ≤ i + n ∧
      (k = i + n ∨ (∃ s, (findSecs tab a e st en i n).1 = some s) ∧
        ∃ s, (findSecs tab a e st en i n).2 = some s) ∧
      secInv tab a k (findSecs tab a e st en i n).1 ∧
      secInv tab e k (findSecs tab a e st en i n).2 := by
  intro n
  induction n with
  | zero =>
    intro i st en h1 h2
    exact ⟨i, by omega, Or.inl (by omega), h1, h2⟩
  | succ n ih =>
    intro i st en h1 h2
    have g1 := secInv_step h1
    have g2 := secInv_step h2
    unfold findSecs
    dsimp only
    generalize (if tab i ≤ a ∧ a < tab (i + 1) then some i else st) = st' at g1 ⊢
    generalize (if tab i ≤ e ∧ e < tab (i + 1) then some i else en) = en' at g2 ⊢
    split
    · rename_i hb
      obtain ⟨⟨s, hs, _⟩, t, ht, _⟩ := hb
      exact ⟨i + 1, by omega, Or.inr ⟨⟨s, hs⟩, t, ht⟩, g1, g2⟩
    · obtain ⟨k, k1, k2, k3, k4⟩ := ih (i + 1) st' en' g1 g2
      refine ⟨k, by omega, ?_, k3, k4⟩
      rcases k2 with h | h
      · left; omega
      · right; exact h

theorem findSecs_found {tab : Nat → Nat} {N : Nat} (ht : ∀ i, i < N → tab i < tab (i + 1))
    {a e : Nat} (ha0 : tab 0 ≤ a) (ha : a < tab N) (he0 : tab 0 ≤ e) (he : e < tab N) :
    ∃ s t, findSecs tab a e none none 0 N = (some s, some t) ∧ s < N ∧ t < N ∧
      tab s ≤ a ∧ a < tab (s + 1) ∧ tab t ≤ e ∧ e < tab (t + 1) := by
  obtain ⟨k, k1, k2, k3, k4⟩ := findSecs_spec (tab := tab) a e N 0 none none
    (Or.inl ⟨rfl, fun j hj => by omega⟩) (Or.inl ⟨rfl, fun j hj => by omega⟩)
  generalize hr : findSecs tab a e none none 0 N = r at k2 k3 k4
  obtain ⟨r1, r2⟩ := r
  dsimp only at k2 k3 k4
  have get : ∀ {x : Nat} {o : Option Nat}, tab 0 ≤ x → x < tab N → secInv tab x k o →
      (k = N ∨ ∃ s, o = some s) → ∃ s, o = some s ∧ s < N ∧ tab s ≤ x ∧ x < tab (s + 1) := by
    intro x o h0 h1 h2 h3
    rcases h2 with ⟨hn, hno⟩ | ⟨s, hs, hlt, hb⟩
    · rcases h3 with h3 | ⟨s, h3⟩
      · obtain ⟨i, hi, hb⟩ := tab_find N ht x h0 h1
        exact absurd hb (hno i (by omega))
      · rw [hn] at h3; cases h3
    · exact ⟨s, hs, by omega, hb⟩
  obtain ⟨s, s1, s2, s3⟩ := get ha0 ha k3 (by
    rcases k2 with h | h
    · left; omega
    · right; exact h.1)
  obtain ⟨t, t1, t2, t3⟩ := get he0 he k4 (by
    rcases k2 with h | h
    · left; omega
    · right; exact h.2)
  exact ⟨s, t, by rw [s1, t1], s2, t2, s3.1, s3.2, t3.1, t3.2⟩

theorem eraseSecs_at (hw : Nat → Nat) (N : Nat) (hh : ∀ i, i < N → hw i < hw (i + 1)) :
    ∀ n f i j x, i + n ≤ N → j < N → hw j ≤ x → x < hw (j + 1) →
    eraseSecs hw f i n x = if i ≤ j ∧ j < i + n then 0xFF#8 else f x := by
  intro n
  induction n with
  | zero => intro f i j x h1 h2 h3 h4; rw [if_neg (by omega)]; rfl
  | succ n ih =>
    intro f i j x h1 h2 h3 h4
    unfold eraseSecs
    rw [ih _ (i + 1) j x (by omega) h2 h3 h4]
    by_cases hj : i + 1 ≤ j ∧ j < i + 1 + n
    · rw [if_pos hj, if_pos (by omega)]
    · rw [if_neg hj]
      unfold eraseSec
      by_cases he : j = i
      · rw [if_pos (by rw [← he]; exact ⟨h3, h4⟩), if_pos (by omega)]
      · rw [if_neg, if_neg (by omega)]
        rintro ⟨g1, g2⟩
        exact he (tab_unique hh h2 (by omega) h3 h4 g1 g2)

/-- **STM32F4 (and F7): with a correct table every erase inside the flash is exact**: all sectors
that have a byte in the area are erased, and no others. -/
theorem tab_erase_exact (tab : Nat → Nat) (N : Nat) (ht : ∀ i, i < N → tab i < tab (i + 1))
    (f : Mem) (a len : Nat) (hl : 0 < len) (h0 : tab 0 ≤ a) (h1 : a + len ≤ tab N) :
    ∃ m, tabErase tab tab N f a len = some m ∧ clearedSecs tab N f m a len ∧
      ∀ x, x < tab 0 ∨ tab N ≤ x → m x = f x := by
  obtain ⟨s, t, hf, hs, htt, s1, s2, t1, t2⟩ := findSecs_found ht (a := a) (e := a + len - 1) h0
    (by omega) (by omega) (by omega)
  have hst : s ≤ t := by
    refine Classical.byContradiction fun h => ?_
    have := tab_mono ht s (t + 1) (by omega) (by omega)
    omega
  unfold tabErase
  rw [if_neg (by omega), if_neg (by omega), hf]
  refine ⟨_, rfl, ?_, ?_⟩
  · intro i x hi x1 x2
    rw [eraseSecs_at tab N ht (t + 1 - s) f s i x (by omega) hi x1 x2]
    by_cases hc : a < tab (i + 1) ∧ tab i < a + len
    · rw [if_pos hc, if_pos]
      constructor
      · refine Classical.byContradiction fun h => ?_
        have := tab_mono ht s (i + 1) (by omega) (by omega)
        omega
      · refine Classical.byContradiction fun h => ?_
        have := tab_mono ht i (t + 1) (by omega) (by omega)
        omega
    · rw [if_neg hc, if_neg]
      rintro ⟨g1, g2⟩
      apply hc
      have := tab_mono ht (i + 1) (s + 1) (by omega) (by omega)
      have := tab_mono ht t i (by omega) (by omega)
      omega
  · have hout : ∀ n f i x, i + n ≤ N → (x < tab 0 ∨ tab N ≤ x) → eraseSecs tab f i n x = f x := by
      intro n
      induction n with
      | zero => intro f i x _ _; rfl
      | succ n ih =>
        intro f i x hin hx
        unfold eraseSecs
        rw [ih _ (i + 1) x (by omega) hx]
        unfold eraseSec
        have := tab_mono ht i 0 (by omega) (by omega)
        have := tab_mono ht N (i + 1) (by omega) (by omega)
        rw [if_neg (by omega)]
    intro x hx
    exact hout _ f s x (by omega) hx

/-- `flash_sector` of `/repo/hal/stm32f4.c:107-137`. -/
def f4Tab (i : Nat) : Nat :=
  [0x0, 0x4000, 0x8000, 0xC000, 0x10000, 0x20000, 0x40000, 0x60000, 0x80000, 0xA0000, 0xC0000,
   0xE0000, 0x100000].getD i 0x100000

/-- `flash_sector` of `/repo/hal/stm32f7.c:168-216`, single bank. -/
def f7Tab (i : Nat) : Nat :=
  [0x8000000, 0x8008000, 0x8010000, 0x8018000, 0x8020000, 0x8040000, 0x8080000, 0x80C0000,
   0x8100000, 0x8140000, 0x8180000, 0x818C000, 0x8200000].getD i 0x8200000

/-- The layout of the chip: sector 10 has 256 KB, as the comment in `/repo/hal/stm32f7.c:179`
says, so that sector 11 starts at `0x81C0000`. -/
def f7Hw (i : Nat) : Nat := if i = 11 then 0x81C0000 else f7Tab i

theorem f4Tab_ok : ∀ i, i < 12 → f4Tab i < f4Tab (i + 1) := by decide

/-- **STM32F4**: every erase inside the flash is exact (addresses from `ARCH_FLASH_OFFSET`). -/
theorem f4_erase_exact (f : Mem) (a len : Nat) (hl : 0 < len) (h : a + len ≤ 0x100000) :
    ∃ m, tabErase f4Tab f4Tab 12 f a len = some m ∧ clearedSecs f4Tab 12 f m a len := by
  obtain ⟨m, h1, h2, _⟩ := tab_erase_exact f4Tab 12 f4Tab_ok f a len hl (Nat.zero_le _) h
  exact ⟨m, h1, h2⟩

/-- **STM32F7: the wrong sector is erased.** The table has sector 11 at `0x818C000`. An erase of
128 KB at `0x81A0000`, which is in sector 10, returns 0, erases sector 11 and leaves sector 10 as
it was. -/
theorem f7_wrong_sector (f : Mem) : ∃ m, tabErase f7Tab f7Hw 12 f 0x81A0000 0x20000 = some m ∧
    m 0x81A0000 = f 0x81A0000 ∧ m 0x81C0000 = 0xFF#8 := by
  have hf : findSecs f7Tab 0x81A0000 (0x81A0000 + 0x20000 - 1) none none 0 12
      = (some 11, some 11) := by
    obtain ⟨s, t, h, hs, ht, s1, s2, t1, t2⟩ := findSecs_found (tab := f7Tab) (N := 12) (by decide)
      (a := 0x81A0000) (e := 0x81A0000 + 0x20000 - 1) (by decide) (by decide) (by decide) (by decide)
    have e1 : s = 11 := tab_unique (tab := f7Tab) (N := 12) (by decide) hs (by omega) s1 s2
      (by decide) (by decide)
    have e2 : t = 11 := tab_unique (tab := f7Tab) (N := 12) (by decide) ht (by omega) t1 t2
      (by decide) (by decide)
    rw [h, e1, e2]
  unfold tabErase
  rw [if_neg (by omega), if_neg (by decide), hf]
  refine ⟨_, rfl, ?_, ?_⟩
  · show (if f7Hw 11 ≤ 0x81A0000 ∧ 0x81A0000 < f7Hw 12 then 0xFF#8 else f 0x81A0000) = _
    rw [if_neg (by decide)]
  · show (if f7Hw 11 ≤ 0x81C0000 ∧ 0x81C0000 < f7Hw 12 then 0xFF#8 else f 0x81C0000) = _
    rw [if_pos (by decide)]

/-- Erasing 128 KB at 64 KB on an STM32F4: sectors 4 and 5. -/
example : ∃ m, tabErase f4Tab f4Tab 12 (fun _ => 0#8) 0x10000 0x20000 = some m ∧
    m 0x1FFFF = 0xFF#8 ∧ m 0x3FFFF = 0xFF#8 ∧ m 0x40000 = 0#8 := by
  obtain ⟨m, h1, h2⟩ := f4_erase_exact (fun _ => 0#8) 0x10000 0x20000 (by omega) (by omega)
  refine ⟨m, h1, ?_, ?_, ?_⟩
  · rw [h2 4 0x1FFFF (by omega) (by decide) (by decide), if_pos (by decide)]
  · rw [h2 5 0x3FFFF (by omega) (by decide) (by decide), if_pos (by decide)]
  · rw [h2 6 0x40000 (by omega) (by decide) (by decide), if_neg (by decide)]

/-! ## STM32H7: two banks -/

/-- The loop of `/repo/hal/stm32h7.c:203-227` (addresses relative to `0x08000000`), at most `n`
rounds, `none`: still running. In the second bank `p` is replaced by `p - 0x08100000` before
sector number and next address are computed from it; the subtraction is one of `uint32_t`
(`220`). Bank and sector number select the sector of 128 KB that is erased. -/
def h7EraseLoop (f : Mem) (p e : Nat) : Nat → Option Mem
  | 0 => none
  | n + 1 =>
    if p < e then
      if p < 0x100000 then h7EraseLoop (erasePage 0x20000 f p) (p + 0x20000) e n
      else if p ≤ 0x1FFFFF then
        let q := p + 4294967296 - 0x08100000
        h7EraseLoop (erasePage 0x20000 f (0x100000 + q / 0x20000 % 8 * 0x20000)) (q + 0x20000) e n
      else h7EraseLoop f (p + 0x20000) e n
    else some f

/-- **STM32H7: in the second bank only one sector is erased.** Whatever the length, the loop ends
after the first sector of the second bank: the sectors behind it are left as they were, and 0 is
returned. -/
theorem h7_erase_bank2 (f : Mem) (p e n : Nat) (h1 : 0x100000 ≤ p) (h2 : p < e)
    (h3 : e ≤ 0x200000) : h7EraseLoop f p e (n + 2) = some (erasePage 0x20000 f p) := by
  unfold h7EraseLoop
  rw [if_pos h2, if_neg (by omega), if_pos (by omega)]
  dsimp only
  unfold h7EraseLoop
  rw [if_neg (by omega)]
  unfold erasePage
  have : (0x100000 + (p + 4294967296 - 0x08100000) / 0x20000 % 8 * 0x20000) / 0x20000
      = p / 0x20000 := by omega
  rw [this]

/-- **STM32H7**: an erase inside the first bank is that of `stmErase`. -/
theorem h7_erase_bank1 : ∀ n (f : Mem) (p e : Nat), e ≤ 0x100000 → e - p < n * 0x20000 + 1 →
    h7EraseLoop f p e (n + 1) = some (pageLoop 0x20000 f p e) := by
  intro n
  induction n with
  | zero =>
    intro f p e h1 h2
    unfold h7EraseLoop
    rw [if_neg (by omega), pageLoop, if_neg (by omega)]
  | succ n ih =>
    intro f p e h1 h2
    unfold h7EraseLoop
    by_cases h : p < e
    · rw [if_pos h, if_pos (by omega), pageLoop, if_pos ⟨h, by omega⟩]
      exact ih _ _ _ h1 (by omega)
    · rw [if_neg h, pageLoop, if_neg (by omega)]

/-- **STM32H7, the layout of `/repo/config/examples/stm32h7.config` and `/repo/docs/Targets.md`:
the partitions are not aligned to the sectors of the chip.** The UPDATE partition starts at
`0x80F0000`, in the middle of a sector of 128 KB that also holds the end of the BOOT partition
(with its flags). Erasing the first sector of UPDATE erases the last 64 KB of BOOT, and leaves the
second half of the sector in UPDATE as it was. -/
theorem h7_example_layout (f : Mem) (n : Nat) : ∃ m,
    h7EraseLoop f 0xF0000 (0xF0000 + 0x20000 - 1) (n + 2) = some m ∧
      (∀ x, 0xE0000 ≤ x → x < 0xF0000 → m x = 0xFF#8) ∧
      (∀ x, 0x100000 ≤ x → x < 0x110000 → m x = f x) := by
  refine ⟨erasePage 0x20000 f 0xF0000, ?_, ?_, ?_⟩
  · unfold h7EraseLoop
    rw [if_pos (by omega), if_pos (by omega)]
    unfold h7EraseLoop
    rw [if_neg (by omega)]
  · intro x h1 h2
    unfold erasePage
    rw [if_pos (by omega)]
  · intro x h1 h2
    unfold erasePage
    rw [if_neg (by omega)]

/-- Erasing the UPDATE partition of the layout above leaves all of it behind the first sector of
the second bank as it was. -/
example (f : Mem) : h7EraseLoop f 0x100000 0x1BFFFF 2 = some (erasePage 0x20000 f 0x100000) :=
  h7_erase_bank2 f _ _ 0 (by omega) (by omega) (by omega)

end Verif
