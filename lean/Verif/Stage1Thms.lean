import Verif.Stage1

/-!
# C53: the first stage starts what it has verified; C54: checksums of the MP table

The specification: `Low` is the area that the first stage takes from the top of the memory, `Placed` says
that it, the second stage and the data of the first stage do not overlap.
-/

namespace Verif.Stage1

open HandOff (wr wr_out wr_in le32_eq le32_out le32_wr le32_byte)

/-! ## Specification -/

/-- The ranges have no common address. -/
def Disj (a b c d : Nat) : Prop := ∀ x, a ≤ x → x < b → c ≤ x → x < d → False

/-- There is room below the top. -/
structure Room (w64 : Bool) (L : Lk) (top : Nat) : Prop where
  below : top < 4294967296
  room : 0x10000 + L.ps + (if w64 then ptSize + 4096 else 0) + 8 ≤ top
  ps : L.ps = 12 ∨ L.ps = 18

/-- What the linker scripts and the memory map must guarantee. -/
structure Placed (w64 : Bool) (L : Lk) (top : Nat) : Prop extends Room w64 L top where
  nowrap : wbStart L + (L.fe - L.fs) < 4294967296
  /-- the second stage does not lie in the area taken from the top, neither do the data of this stage -/
  lowImage : Disj (layout w64 L.ps top).holder top (wbStart L) (wbStart L + (L.fe - L.fs))
  lowBss : Disj (layout w64 L.ps top).holder top L.ws L.we
  lowData : Disj (layout w64 L.ps top).holder top L.ds (L.ds + 4 * ((L.de - L.ds + 3) / 4))
  lowBss1 : Disj (layout w64 L.ps top).holder top L.bs L.be
  /-- the second stage -/
  image : Disj (wbStart L) (wbStart L + (L.fe - L.fs)) L.ws L.we
  s2 : L.ws ≤ L.s2 ∧ L.s2 + L.ps ≤ L.we
  /-- the flash is no RAM -/
  flashLow : Disj (layout w64 L.ps top).holder top L.fs L.fe
  flashData : Disj L.ds (L.ds + 4 * ((L.de - L.ds + 3) / 4)) L.fs L.fe
  flashBss : Disj L.bs L.be L.fs L.fe

/-- The construction of the tables writes only them, the code on the new stack only the stack. -/
structure Frames (E : Env) (top : Nat) : Prop where
  build : ∀ a m x, x < a ∨ a + ptSize ≤ x → E.build a m x = m x
  stk : ∀ m x, x < top - 0x10000 ∨ top ≤ x → E.stk m x = m x

/-! ## Layout -/

/-- **C53, layout (64 bit).** From the top: stack, parameters, page tables on a page boundary, pointer. -/
theorem layout_64 {ps top : Nat} (h1 : 0x10000 + ps + (ptSize + 4096) + 8 ≤ top) (h2 : top < 4294967296) :
    (layout true ps top).stack = top ∧ (layout true ps top).params + ps + 0x10000 = top ∧
      (layout true ps top).pt + ptSize ≤ (layout true ps top).params ∧ (layout true ps top).pt % 4096 = 0 ∧
      (layout true ps top).holder + 8 = (layout true ps top).pt := by
  unfold layout layParams layPt layHolder
  unfold ptSize at *
  simp only [if_true]
  have e : (top + 8589934592 - 0x10000 - ps) % 4294967296 = top - 0x10000 - ps := by omega
  rw [e]
  have e2 : (top - 0x10000 - ps + 4294967296 - 28672) % 4294967296 = top - 0x10000 - ps - 28672 := by omega
  rw [e2]
  refine ⟨trivial, ?_, ?_, ?_, ?_⟩ <;> omega

/-- **C53, layout (32 bit).** -/
theorem layout_32 {ps top : Nat} (h1 : 0x10000 + ps + 8 ≤ top) (h2 : top < 4294967296) :
    (layout false ps top).stack = top ∧ (layout false ps top).params + ps + 0x10000 = top ∧
      (layout false ps top).holder + 8 = (layout false ps top).params := by
  unfold layout layParams layPt layHolder
  simp only [if_false, Bool.false_eq_true]
  refine ⟨trivial, ?_, ?_⟩ <;> omega

theorem layout_low {w64 : Bool} {L : Lk} {top : Nat} (h : Room w64 L top) :
    (layout w64 L.ps top).params + L.ps + 0x10000 = top ∧
      (layout w64 L.ps top).holder + 8 ≤ (layout w64 L.ps top).params ∧
      (w64 = true → (layout w64 L.ps top).holder + 8 = (layout w64 L.ps top).pt ∧
        (layout w64 L.ps top).pt + ptSize ≤ (layout w64 L.ps top).params) := by
  have hr := h.room
  cases w64 with
  | true =>
    obtain ⟨_, a, b, _, c⟩ := layout_64 (ps := L.ps) (top := top) (by simpa using hr) h.below
    exact ⟨a, by omega, fun _ => ⟨c, b⟩⟩
  | false =>
    obtain ⟨_, a, c⟩ := layout_32 (ps := L.ps) (top := top) (by simpa using hr) h.below
    exact ⟨a, by omega, fun h => by cases h⟩

/-- **Finding.** There is no check that the top is high enough: below 64 KiB the parameters are written to
the other end of the address space. -/
theorem layout_underflow {w64 : Bool} {ps top : Nat} (hps : ps = 12 ∨ ps = 18) (h : top < 0x10000) :
    4294901742 ≤ (layout w64 ps top).params := by
  show 4294901742 ≤ layParams ps top
  unfold layParams
  omega

/-! ## The check of the ranges -/

theorem overlaps_false {a b c d : Nat} (h : overlaps a b c d = false) : Disj a b c d := by
  unfold overlaps at h
  intro x h1 h2 h3 h4
  simp only [Bool.not_eq_false', Bool.or_eq_true, decide_eq_true_eq] at h
  omega

/-- `range_overlaps` is exact for ranges that are not empty. -/
theorem overlaps_iff {a b c d : Nat} (h1 : a < b) (h2 : c < d) : overlaps a b c d = true ↔ ¬ Disj a b c d := by
  unfold overlaps Disj
  simp only [Bool.not_eq_true', Bool.or_eq_false_iff, decide_eq_false_iff_not]
  constructor
  · intro h hd
    by_cases hac : a ≤ c
    · exact hd c hac (by omega) (Nat.le_refl _) h2
    · exact hd a (Nat.le_refl _) h1 (by omega) (by omega)
  · intro h
    by_cases h3 : b ≤ c
    · exact absurd (fun x _ _ _ _ => by omega) h
    · by_cases h4 : d ≤ a
      · exact absurd (fun x _ _ _ _ => by omega) h
      · exact ⟨h3, h4⟩

/-- **C53, ranges.** When the check passes, loading the second stage leaves the data of this stage alone. -/
theorem load_keeps_stage1 {L : Lk} (h : checkRanges L = true) (hw : wbStart L + (L.fe - L.fs) < 4294967296) (m : Mem)
    (x : Nat) (hx : L.ds ≤ x ∧ x < L.de ∨ L.bs ≤ x ∧ x < L.be) : loadWb L m x = m x := by
  have he : wbEnd L = wbStart L + (L.fe - L.fs) := Nat.mod_eq_of_lt hw
  unfold checkRanges at h
  simp only [Bool.and_eq_true, Bool.not_eq_true'] at h
  obtain ⟨⟨⟨h1, h2⟩, h3⟩, h4⟩ := h
  rw [he] at h1 h2
  have d1 := overlaps_false h1
  have d2 := overlaps_false h2
  have d3 := overlaps_false h3
  have d4 := overlaps_false h4
  unfold loadWb zero copy
  rw [if_neg, if_neg]
  · rintro ⟨a, b⟩
    rcases hx with ⟨p, q⟩ | ⟨p, q⟩
    · exact d1 x a b p q
    · exact d2 x a b p q
  · rintro ⟨a, b⟩
    rcases hx with ⟨p, q⟩ | ⟨p, q⟩
    · exact d3 x a (by omega) p q
    · exact d4 x a (by omega) p q

/-- **Finding.** The end of the second stage is a 32-bit sum: if it wraps the check passes, whatever is overwritten. -/
theorem check_wraps : ∃ L : Lk, checkRanges L = true ∧
    ¬ Disj (wbStart L) (wbStart L + (L.fe - L.fs)) L.ds L.de :=
  ⟨{ load := 0xfff00100, hdr := 0x100, fs := 0, fe := 0x100000, ds := 0xfff10000, de := 0xfff10100, stored := 0, bs := 0,
     be := 0, ws := 0, we := 0, s2 := 0, ps := 12 }, by decide, fun h => h 0xfff10000 (by decide) (by decide) (by decide) (by decide)⟩

/-! ## Memory -/

theorem copyWords_out : ∀ (n d s : Nat) (m : Mem) (x : Nat), x < d ∨ d + 4 * n ≤ x → copyWords n d s m x = m x := by
  intro n
  induction n with
  | zero => intro d s m x _; rfl
  | succ n ih =>
    intro d s m x h
    rw [copyWords, ih _ _ _ _ (by omega), wr_out (by omega)]

theorem wr_le32 (m p : Mem) (d s i : Nat) (hi : i < 4) : wr m d 4 (le32 p s) (d + i) = p (s + i) := by
  rw [wr_in i hi]
  have h0 := (p s).isLt
  have h1 := (p (s + 1)).isLt
  have h2 := (p (s + 2)).isLt
  have h3 := (p (s + 3)).isLt
  apply BitVec.eq_of_toNat_eq
  rw [BitVec.toNat_ofNat]
  unfold le32
  have : i = 0 ∨ i = 1 ∨ i = 2 ∨ i = 3 := by omega
  rcases this with rfl | rfl | rfl | rfl
  · rw [Nat.pow_zero, Nat.div_one]
    show _ = (p s).toNat
    omega
  · omega
  · omega
  · omega

/-- The initial values of the data are copied. -/
theorem copyWords_in : ∀ (n d s : Nat) (m : Mem), Disj d (d + 4 * n) s (s + 4 * n) → ∀ i, i < 4 * n →
    copyWords n d s m (d + i) = m (s + i) := by
  intro n
  induction n with
  | zero => intro d s m _ i hi; omega
  | succ n ih =>
    intro d s m hd i hi
    rw [copyWords]
    by_cases h4 : i < 4
    · rw [copyWords_out _ _ _ _ _ (by omega), wr_le32 m m d s i h4]
    · have := ih (d + 4) (s + 4) (wr m d 4 (le32 m s))
        (fun x a b c e => hd x (by omega) (by omega) (by omega) (by omega)) (i - 4) (by omega)
      rw [show d + 4 + (i - 4) = d + i from by omega, show s + 4 + (i - 4) = s + i from by omega] at this
      rw [this, wr_out]
      by_cases hlt : s + i < d
      · exact Or.inl hlt
      · right
        by_cases hge : d + 4 ≤ s + i
        · exact hge
        · exact absurd (hd (s + i) (by omega) (by omega) (by omega) (by omega)) id

theorem dataBss_out {L : Lk} {m : Mem} {x : Nat} (h1 : ¬ (L.ds ≤ x ∧ x < L.ds + 4 * ((L.de - L.ds + 3) / 4)))
    (h2 : ¬ (L.bs ≤ x ∧ x < L.be)) : dataBss L m x = m x := by
  unfold dataBss zero
  rw [if_neg (by omega), copyWords_out _ _ _ _ _ (by omega)]

theorem loadWb_out {L : Lk} {m : Mem} {x : Nat} (h1 : ¬ (wbStart L ≤ x ∧ x < wbStart L + (L.fe - L.fs)))
    (h2 : ¬ (L.ws ≤ x ∧ x < L.we)) : loadWb L m x = m x := by
  unfold loadWb zero copy
  rw [if_neg (by omega), if_neg h1]

/-- **C53, data.** `.data` of the first stage gets its initial values, `.bss` is cleared. -/
theorem data_initialised {L : Lk} {m : Mem} (h0 : (L.de - L.ds) % 4 = 0)
    (h1 : Disj L.ds L.de L.stored (L.stored + (L.de - L.ds))) (h2 : Disj L.ds L.de L.bs L.be) (hle : L.ds ≤ L.de) :
    (∀ x, L.ds ≤ x → x < L.de → dataBss L m x = m (L.stored + (x - L.ds))) ∧
      ∀ x, L.bs ≤ x → x < L.be → dataBss L m x = 0 := by
  have hn : L.ds + 4 * ((L.de - L.ds + 3) / 4) = L.de := by omega
  constructor
  · intro x ha hb
    unfold dataBss zero
    rw [if_neg (fun h => h2 x ha hb h.1 (by omega))]
    have := copyWords_in ((L.de - L.ds + 3) / 4) L.ds L.stored m
      (fun y a b c d => h1 y a (by omega) c (by omega)) (x - L.ds) (by omega)
    rw [show L.ds + (x - L.ds) = x from by omega] at this
    exact this
  · intro x ha hb
    exact if_pos (by omega)

/-! ## The parameters -/

/-- The parameters are at `a`. -/
structure ParamsAt (w64 : Bool) (m : Mem) (a ps hob pt tolum pol polSize : Nat) : Prop where
  hob : le32 m a = hob
  pt : w64 = true → le32 m (a + 4) = pt
  tolum : le32 m (a + 8) = tolum
  pol : ps = 18 → le32 m (a + 12) = pol ∧ le16 m (a + 16) = polSize

theorem le16_eq {o p : Mem} {a : Nat} (h : ∀ i, i < 2 → o (a + i) = p (a + i)) : le16 o a = le16 p a := by
  have h0 := h 0 (by decide)
  have h1 := h 1 (by decide)
  rw [Nat.add_zero] at h0
  unfold le16
  rw [h0, h1]

theorem le16_wr {o : Mem} {a v : Nat} : le16 (wr o a 2 v) a = v % 65536 := by
  unfold le16
  have h0 := wr_in (o := o) (off := a) (n := 2) (v := v) 0 (by decide)
  rw [Nat.add_zero] at h0
  rw [h0, wr_in 1 (by decide)]
  simp only [BitVec.toNat_ofNat]
  omega

theorem ParamsAt.move {w64 : Bool} {m m' : Mem} {a a' ps hob pt tolum pol polSize : Nat} (hps : ps = 12 ∨ ps = 18)
    (h : ParamsAt w64 m a ps hob pt tolum pol polSize) (e : ∀ i, i < ps → m' (a' + i) = m (a + i)) :
    ParamsAt w64 m' a' ps hob pt tolum pol polSize := by
  have e32 : ∀ k, k + 4 ≤ ps → le32 m' (a' + k) = le32 m (a + k) := by
    intro k hk
    unfold le32
    simp only [Nat.add_assoc]
    rw [e k (by omega), e (k + 1) (by omega), e (k + 2) (by omega), e (k + 3) (by omega)]
  refine ⟨?_, fun hw => ?_, ?_, fun h18 => ⟨?_, ?_⟩⟩
  · have := e32 0 (by omega)
    rw [Nat.add_zero, Nat.add_zero] at this
    exact this.trans h.hob
  · exact (e32 4 (by omega)).trans (h.pt hw)
  · exact (e32 8 (by omega)).trans h.tolum
  · exact (e32 12 (by omega)).trans (h.pol h18).1
  · rw [← (h.pol h18).2]
    unfold le16
    simp only [Nat.add_assoc]
    rw [e 16 (by omega), e (16 + 1) (by omega)]

theorem zero_out {m : Mem} {a n x : Nat} (h : x < a ∨ a + n ≤ x) : zero m a n x = m x := if_neg (by omega)

theorem le32_zero_out {m : Mem} {a n b : Nat} (h : b + 4 ≤ a ∨ a + n ≤ b) : le32 (zero m a n) b = le32 m b :=
  le32_eq (fun i hi => zero_out (by omega))

theorem fillParams_ok {w64 : Bool} {L : Lk} {top hob pol polSize : Nat} {m : Mem} (hp : Room w64 L top)
    (hh : hob < 4294967296) (hpol : pol < 4294967296) (hsz : polSize < 65536) :
    ParamsAt w64 (fillParams w64 L.ps hob pol polSize (layout w64 L.ps top) m) (layout w64 L.ps top).params L.ps hob
      (layout w64 L.ps top).pt (layout w64 L.ps top).holder pol polSize ∧
    ∀ x, x < (layout w64 L.ps top).holder ∨ top ≤ x →
      fillParams w64 L.ps hob pol polSize (layout w64 L.ps top) m x = m x := by
  obtain ⟨l1, l2, l3⟩ := layout_low hp
  have hps := hp.ps
  have htop := hp.below
  generalize layout w64 L.ps top = y at l1 l2 l3
  obtain ⟨st, pa, pt, ho⟩ := y
  dsimp only at l1 l2 l3 ⊢
  unfold fillParams
  dsimp only
  have key : ∀ q : Mem, le32 q pa = hob → (w64 = true → le32 q (pa + 4) = pt) → le32 q (pa + 8) = ho →
      (∀ x, x < ho ∨ top ≤ x → q x = m x) →
      ParamsAt w64 (if L.ps = 18 then wr (wr q (pa + 12) 4 pol) (pa + 16) 2 polSize else q) pa L.ps hob pt ho pol polSize ∧
        ∀ x, x < ho ∨ top ≤ x → (if L.ps = 18 then wr (wr q (pa + 12) 4 pol) (pa + 16) 2 polSize else q) x = m x := by
    intro q q1 q2 q3 q4
    by_cases h18 : L.ps = 18
    · rw [if_pos h18]
      refine ⟨⟨?_, fun hw => ?_, ?_, fun _ => ⟨?_, ?_⟩⟩, ?_⟩
      · rw [le32_out (by omega), le32_out (by omega)]; exact q1
      · rw [le32_out (by omega), le32_out (by omega)]; exact q2 hw
      · rw [le32_out (by omega), le32_out (by omega)]; exact q3
      · rw [le32_out (by omega), le32_wr]; omega
      · rw [le16_wr]; omega
      · intro x hx
        rw [wr_out (by omega), wr_out (by omega)]
        exact q4 x hx
    · rw [if_neg h18]
      exact ⟨⟨q1, q2, q3, fun h => absurd h h18⟩, q4⟩
  cases w64 with
  | true =>
    obtain ⟨l4, l5⟩ := l3 rfl
    rw [if_pos rfl]
    unfold ptSize at l5 ⊢
    apply key
    · rw [le32_out (by omega), le32_zero_out (by omega), le32_out (by omega), le32_wr]; omega
    · intro _
      rw [le32_out (by omega), le32_zero_out (by omega), le32_wr]; omega
    · rw [le32_wr]; omega
    · intro x hx
      rw [wr_out (by omega), zero_out (by omega), wr_out (by omega), wr_out (by omega), zero_out (by omega)]
  | false =>
    rw [if_neg (show ¬ (false = true) by decide)]
    apply key
    · rw [le32_out (by omega), le32_wr]; omega
    · intro h; cases h
    · rw [le32_wr]; omega
    · intro x hx
      rw [wr_out (by omega), wr_out (by omega), zero_out (by omega)]

/-- **C53, parameters.** What is stored under the descriptor table register is found there. -/
theorem params_round_trip (p holder : Nat) (s : St) (hp : p < 4294967296) : getParams (setParams p holder s) = p := by
  unfold getParams setParams
  dsimp only
  rw [Nat.add_sub_cancel, le32_wr]
  omega

/-! ## The whole stage -/

theorem guard_run {E : Env} {ok : Bool} {k : Out} {c n : Mem} (h : guard E ok k = .run c n) :
    k = .run c n ∧ (E.wakes = false → ok = true) := by
  unfold guard at h
  by_cases hc : (ok || E.wakes) = true
  · rw [if_pos hc] at h
    refine ⟨h, fun hw => ?_⟩
    rw [hw, Bool.or_false] at hc
    exact hc
  · rw [if_neg hc] at h
    cases h

theorem jump_checked {E : Env} {L : Lk} {chk : Mem} {s : St} {c n : Mem} (h : jump E L chk s = .run c n) : c = chk := by
  unfold jump at h
  split at h
  · obtain ⟨h, _⟩ := guard_run h
    injection h with h _
    exact h.symm
  · injection h with h _
    exact h.symm

/-- **C53, verification.** Provided that `panic` does not return, a second stage is started only if the three
steps of the verification have succeeded on the memory as loaded, the ranges do not overlap and the top is below 4 GiB. -/
theorem stage1_verified {E : Env} {L : Lk} {top : Option Nat} {hob pol polSize : Nat} {m c n : Mem}
    (hw : E.wakes = false) (ha : E.authOn = true) (h : start E L top hob pol polSize m = .run c n) :
    0 ≤ E.ck.opn c ∧ 0 ≤ E.ck.integ c ∧ E.ck.auth c = 0 ∧ checkRanges L = true ∧
      ∃ t, top = some t ∧ t < 4294967296 := by
  unfold start at h
  obtain ⟨h, g1⟩ := guard_run h
  obtain ⟨h, g2⟩ := guard_run h
  unfold prepared ready at h
  obtain ⟨h, g3⟩ := guard_run h
  unfold verified at h
  rw [if_pos ha] at h
  obtain ⟨h, g4⟩ := guard_run h
  obtain ⟨h, g5⟩ := guard_run h
  obtain ⟨h, g6⟩ := guard_run h
  obtain ⟨h, g7⟩ := guard_run h
  unfold enter at h
  have e := jump_checked h
  rw [e]
  refine ⟨of_decide_eq_true (g4 hw), of_decide_eq_true (g5 hw), of_decide_eq_true (g7 hw), g3 hw, ?_⟩
  cases top with
  | none => cases g1 hw
  | some t => exact ⟨t, rfl, of_decide_eq_true (g2 hw)⟩

/-- **Finding.** `panic` is one `hlt` without a loop around it. If the processor goes on (an interrupt, an SMI without
automatic restart of `hlt`), nothing holds up the start of a second stage: not even a failed verification. -/
theorem stage1_panic_returns {E : Env} (L : Lk) (top : Option Nat) (hob pol polSize : Nat) (m : Mem) (hw : E.wakes = true) :
    ∃ c n, start E L top hob pol polSize m = .run c n := by
  have g : ∀ ok k, guard E ok k = k := by
    intro ok k
    unfold guard
    rw [hw, Bool.or_true, if_pos rfl]
  unfold start prepared ready verified enter jump
  simp only [g]
  split <;> split <;> exact ⟨_, _, rfl⟩

/-- The memory at the time of the verification. -/
def atCheck (E : Env) (L : Lk) (t hob pol polSize : Nat) (m : Mem) : Mem :=
  loadWb L (dataBss L (setParams (layout E.w64 L.ps t).params (layout E.w64 L.ps t).holder
    ⟨fillParams E.w64 L.ps hob pol polSize (layout E.w64 L.ps t) m, 0⟩).m)

/-- **C53, verification.** … and a second stage that passes is started. -/
theorem stage1_runs {E : Env} {L : Lk} {t hob pol polSize : Nat} {m : Mem} (ht : t < 4294967296) (hc : checkRanges L = true)
    (h1 : 0 ≤ E.ck.opn (atCheck E L t hob pol polSize m)) (h2 : 0 ≤ E.ck.integ (atCheck E L t hob pol polSize m))
    (h3 : E.ck.auth (atCheck E L t hob pol polSize m) = 0) (h4 : E.buildRet = 0) :
    start E L (some t) hob pol polSize m =
      jump { E with wakes := true } L (atCheck E L t hob pol polSize m)
        ⟨E.stk (atCheck E L t hob pol polSize m), (layout E.w64 L.ps t).holder + 4⟩ := by
  have g : ∀ ok k, ok = true → guard E ok k = k := by
    intro ok k h
    unfold guard
    rw [h, Bool.true_or, if_pos rfl]
  unfold start
  rw [g (some t).isSome _ rfl, g _ _ (by simpa using ht)]
  simp only [Option.getD_some]
  rw [Nat.mod_eq_of_lt ht]
  unfold prepared ready
  rw [g _ _ hc]
  show verified E L ⟨atCheck E L t hob pol polSize m, (layout E.w64 L.ps t).holder + 4⟩ = _
  generalize atCheck E L t hob pol polSize m = c at *
  have he : enter E L ⟨c, (layout E.w64 L.ps t).holder + 4⟩ =
      jump { E with wakes := true } L c ⟨E.stk c, (layout E.w64 L.ps t).holder + 4⟩ := by
    unfold enter jump
    dsimp only
    rw [g _ _ (by simpa using h4)]
    unfold guard
    dsimp only
    rw [Bool.or_true, if_pos rfl]
  unfold verified
  dsimp only
  split
  · rw [g _ _ (decide_eq_true h1), g _ _ (decide_eq_true h2), g _ _ (decide_eq_true (by rw [h3]; exact Int.le_refl _)),
      g _ _ (decide_eq_true h3)]
    exact he
  · exact he

theorem jump_wakes (E : Env) (L : Lk) (c : Mem) (s : St) : ∃ n, jump { E with wakes := true } L c s = .run c n := by
  unfold jump guard
  dsimp only
  rw [Bool.or_true, if_pos rfl]
  split <;> exact ⟨_, rfl⟩

/-- **C53, image.** With everything in its place, the second stage that is started is, byte for byte, the one
that has been verified and the one in flash; its `.bss` is cleared except for the parameters, which are complete. -/
theorem stage1_image_partial {E : Env} {L : Lk} {t hob pol polSize : Nat} {m c n : Mem} (hp : Placed E.w64 L t)
    (hfr : Frames E t) (hh : hob < 4294967296) (hpol : pol < 4294967296) (hsz : polSize < 65536)
    (h : start E L (some t) hob pol polSize m = .run c n) :
    (∀ x, wbStart L ≤ x → x < wbStart L + (L.fe - L.fs) → n x = c x ∧ c x = m (L.fs + (x - wbStart L))) ∧
      (∀ x, L.ws ≤ x → x < L.we → x < L.s2 ∨ L.s2 + L.ps ≤ x → n x = 0) ∧
      ParamsAt E.w64 n L.s2 L.ps hob (layout E.w64 L.ps t).pt (layout E.w64 L.ps t).holder pol polSize := by
  obtain ⟨l1, l2, l3⟩ := layout_low hp.toRoom
  obtain ⟨f1, f2⟩ := fillParams_ok (m := m) hp.toRoom hh hpol hsz
  have hps := hp.ps
  have htop := hp.below
  have pI := hp.lowImage
  have pB := hp.lowBss
  have pD := hp.lowData
  have pB1 := hp.lowBss1
  have hi := hp.image
  have hs2 := hp.s2
  have qL := hp.flashLow
  have qD := hp.flashData
  have qB := hp.flashBss
  unfold start at h
  obtain ⟨h, _⟩ := guard_run h
  obtain ⟨h, _⟩ := guard_run h
  simp only [Option.getD_some] at h
  rw [Nat.mod_eq_of_lt htop] at h
  unfold prepared ready at h
  obtain ⟨h, _⟩ := guard_run h
  generalize hy : layout E.w64 L.ps t = y at *
  obtain ⟨st, pa, pt, ho⟩ := y
  dsimp only at *
  generalize hm1 : fillParams E.w64 L.ps hob pol polSize ⟨st, pa, pt, ho⟩ m = m1 at *
  -- the memory with the pointer
  have hset : ∀ x, (x < ho ∨ ho + 8 ≤ x) → (setParams pa ho ⟨m1, 0⟩).m x = m1 x := by
    intro x hx
    unfold setParams
    dsimp only
    rw [wr_out (by omega), zero_out (by omega)]
  have hptr : le32 (setParams pa ho ⟨m1, 0⟩).m ho = pa := by
    unfold setParams
    dsimp only
    rw [le32_wr]
    omega
  have hidt : (setParams pa ho ⟨m1, 0⟩).idt = ho + 4 := rfl
  generalize setParams pa ho ⟨m1, 0⟩ = s2 at *
  obtain ⟨m2, idt⟩ := s2
  dsimp only at *
  subst hidt
  -- loading leaves the low area alone
  generalize hm3 : loadWb L (dataBss L m2) = m3 at *
  have low3 : ∀ x, ho ≤ x → x < t → m3 x = m2 x := by
    intro x h1 h2
    rw [← hm3, loadWb_out (fun h => pI x h1 h2 h.1 h.2) (fun h => pB x h1 h2 h.1 h.2),
      dataBss_out (fun h => pD x h1 h2 h.1 h.2) (fun h => pB1 x h1 h2 h.1 h.2)]
  have img3 : ∀ x, wbStart L ≤ x → x < wbStart L + (L.fe - L.fs) → m3 x = m (L.fs + (x - wbStart L)) := by
    intro x h1 h2
    have hf : ∀ z, L.fs ≤ z → z < L.fe → dataBss L m2 z = m z := by
      intro z z1 z2
      rw [dataBss_out (fun h => qD z h.1 h.2 z1 z2) (fun h => qB z h.1 h.2 z1 z2)]
      have hz : z < ho ∨ t ≤ z := by
        by_cases h' : z < ho
        · exact Or.inl h'
        · by_cases h'' : t ≤ z
          · exact Or.inr h''
          · exact absurd (qL z (by omega) (by omega) z1 z2) id
      rw [hset z (by omega), f2 z hz]
    rw [← hm3]
    unfold loadWb zero copy
    rw [if_neg (fun h => hi x h1 h2 h.1 (by omega)), if_pos ⟨h1, h2⟩]
    exact hf _ (by omega) (by omega)
  have bss3 : ∀ x, L.ws ≤ x → x < L.we → m3 x = 0 := by
    intro x h1 h2
    rw [← hm3]
    exact if_pos (by omega)
  have hv : enter E L ⟨m3, ho + 4⟩ = .run c n := by
    unfold verified at h
    split at h
    · obtain ⟨h, _⟩ := guard_run h
      obtain ⟨h, _⟩ := guard_run h
      obtain ⟨h, _⟩ := guard_run h
      obtain ⟨h, _⟩ := guard_run h
      exact h
    · exact h
  unfold enter at hv
  have hc := jump_checked hv
  dsimp only at hc hv
  generalize hm4 : E.stk m3 = m4 at hv
  have out4 : ∀ x, (x < t - 0x10000 ∨ t ≤ x) → m4 x = m3 x := by
    intro x hx
    rw [← hm4]
    exact hfr.stk m3 x hx
  have hget : getParams ⟨m4, ho + 4⟩ = pa := by
    show le32 m4 (ho + 4 - 4) = pa
    rw [Nat.add_sub_cancel, ← hptr]
    exact le32_eq (fun i hi' => by rw [out4 _ (by omega), low3 _ (by omega) (by omega)])
  have par4 : ∀ i, i < L.ps → m4 (pa + i) = m1 (pa + i) := by
    intro i hi'
    rw [out4 _ (by omega), low3 _ (by omega) (by omega), hset _ (by omega)]
  -- the jump
  have fin : ∃ m5, n = copy m5 L.s2 pa L.ps ∧ (∀ i, i < L.ps → m5 (pa + i) = m1 (pa + i)) ∧
      ∀ x, (x < ho ∨ t ≤ x) → m5 x = m3 x := by
    unfold jump at hv
    rw [hget] at hv
    by_cases hw : E.w64 = true
    · obtain ⟨l4, l5⟩ := l3 hw
      rw [if_pos hw] at hv
      obtain ⟨hv, _⟩ := guard_run hv
      injection hv with _ hv
      have hpt : le32 m4 (pa + 4) = pt := by
        rw [← f1.pt hw]
        refine le32_eq (fun i hi' => ?_)
        have := par4 (4 + i) (by omega)
        rw [← Nat.add_assoc] at this
        exact this
      refine ⟨E.build pt m4, ?_, ?_, ?_⟩
      · rw [← hv]
        show copy (E.build (le32 m4 (pa + 4)) m4) L.s2 pa L.ps = _
        rw [hpt]
      · intro i hi'
        rw [hfr.build pt m4 _ (by omega)]
        exact par4 i hi'
      · intro x hx
        rw [hfr.build pt m4 _ (by omega), out4 x (by omega)]
    · rw [if_neg hw] at hv
      injection hv with _ hv
      exact ⟨m4, hv.symm, par4, fun x hx => out4 x (by omega)⟩
  obtain ⟨m5, hn, p5, o5⟩ := fin
  have notlow : ∀ x, (wbStart L ≤ x ∧ x < wbStart L + (L.fe - L.fs)) ∨ (L.ws ≤ x ∧ x < L.we) → x < ho ∨ t ≤ x := by
    intro x hx
    by_cases h' : x < ho
    · exact Or.inl h'
    · by_cases h'' : t ≤ x
      · exact Or.inr h''
      · rcases hx with hx | hx
        · exact absurd (pI x (by omega) (by omega) hx.1 hx.2) id
        · exact absurd (pB x (by omega) (by omega) hx.1 hx.2) id
  refine ⟨?_, ?_, ?_⟩
  · intro x h1 h2
    rw [hc]
    refine ⟨?_, img3 x h1 h2⟩
    rw [hn]
    unfold copy
    rw [if_neg (fun h => hi x h1 h2 (by omega) (by omega))]
    exact o5 x (notlow x (Or.inl ⟨h1, h2⟩))
  · intro x h1 h2 h3
    rw [hn]
    unfold copy
    rw [if_neg (by omega), o5 x (notlow x (Or.inr ⟨h1, h2⟩))]
    exact bss3 x h1 h2
  · refine ParamsAt.move hps f1 ?_
    intro i hi'
    rw [hn]
    unfold copy
    rw [if_pos (by omega), Nat.add_sub_cancel_left]
    exact p5 i hi'

/-! ## Examples and findings about overlaps -/

/-- Second stage at 32 MiB, as for QEMU. -/
def exLk : Lk :=
  { load := 0x2000100, hdr := 0x100, fs := 0xff000000, fe := 0xff100000, ds := 0x800000, de := 0x800100,
    stored := 0xfff00000, bs := 0x800100, be := 0x800200, ws := 0x2100000, we := 0x2110000, s2 := 0x2100010, ps := 12 }

/-- Tables filled with 3, … -/
def exBuild (a : Nat) (m : Mem) : Mem := fun x => if a ≤ x ∧ x < a + ptSize then 3 else m x

/-- … a stack filled with ones. -/
def exStk (top : Nat) (m : Mem) : Mem := fun x => if top - 0x10000 ≤ x ∧ x < top then 0xff else m x

/-- An environment. -/
def exEnv (top : Nat) (auth : Int) : Env :=
  { w64 := true, authOn := true, wakes := false, ck := ⟨fun _ => 0, fun _ => 0, fun _ => auth⟩,
    build := exBuild, buildRet := 0, stk := exStk top }

theorem exEnv_build (top : Nat) (auth : Int) : (exEnv top auth).build = exBuild := by unfold exEnv; dsimp only

theorem exEnv_stk (top : Nat) (auth : Int) : (exEnv top auth).stk = exStk top := by unfold exEnv; dsimp only

theorem exBuild_out {a x : Nat} {m : Mem} (h : x < a ∨ a + ptSize ≤ x) : exBuild a m x = m x := by
  unfold exBuild
  generalize ptSize = s at *
  exact if_neg (fun h' => by omega)

theorem exStk_out {top x : Nat} {m : Mem} (h : x < top - 0x10000 ∨ top ≤ x) : exStk top m x = m x := by
  unfold exStk
  generalize 0x10000 = s at *
  exact if_neg (fun h' => by omega)

theorem exEnv_frames (top : Nat) (auth : Int) : Frames (exEnv top auth) top :=
  ⟨fun a m x h => by
      rw [exEnv_build]
      exact exBuild_out h,
    fun m x h => by
      rw [exEnv_stk]
      exact exStk_out h⟩

theorem exLk_placed : Placed true exLk 0x7e000000 := by
  have e : (layout true exLk.ps 0x7e000000).holder = 0x7dfe7ff8 := by decide
  have e1 : wbStart exLk = 0x2000000 := by decide
  have e2 : exLk.fe - exLk.fs = 0x100000 := by decide
  have e3 : exLk.de - exLk.ds = 0x100 := by decide
  refine ⟨⟨by decide, by decide, .inl rfl⟩, by decide, ?_, ?_, ?_, ?_, ?_, by decide, ?_, ?_, ?_⟩
  · rw [e, e1, e2]; intro x h1 h2 h3 h4; omega
  · rw [e]; intro x h1 h2 h3 h4; simp only [exLk] at h3 h4; omega
  · rw [e, e3]; intro x h1 h2 h3 h4; simp only [exLk] at h3 h4; omega
  · rw [e]; intro x h1 h2 h3 h4; simp only [exLk] at h3 h4; omega
  · rw [e1, e2]; intro x h1 h2 h3 h4; simp only [exLk] at h3 h4; omega
  · rw [e]; intro x h1 h2 h3 h4; simp only [exLk] at h3 h4; omega
  · rw [e3]; intro x h1 h2 h3 h4; simp only [exLk] at h1 h2 h3 h4; omega
  · intro x h1 h2 h3 h4; simp only [exLk] at h1 h2 h3 h4; omega

example (m : Mem) : ∃ c n, start (exEnv 0x7e000000 0) exLk (some 0x7e000000) 0x7f000000 0 0 m = .run c n ∧
    (∀ x, 0x2000000 ≤ x → x < 0x2100000 → n x = m (0xff000000 + (x - 0x2000000))) ∧ le32 n 0x2100010 = 0x7f000000 := by
  have hr := stage1_runs (E := exEnv 0x7e000000 0) (L := exLk) (t := 0x7e000000) (hob := 0x7f000000) (pol := 0) (polSize := 0)
    (m := m) (by decide) (by decide) (Int.le_refl _) (Int.le_refl _) rfl rfl
  obtain ⟨n, hn⟩ := jump_wakes (exEnv 0x7e000000 0) exLk (atCheck (exEnv 0x7e000000 0) exLk 0x7e000000 0x7f000000 0 0 m)
    ⟨(exEnv 0x7e000000 0).stk (atCheck (exEnv 0x7e000000 0) exLk 0x7e000000 0x7f000000 0 0 m),
      (layout (exEnv 0x7e000000 0).w64 exLk.ps 0x7e000000).holder + 4⟩
  have h := hr.trans hn
  obtain ⟨h1, _, h3⟩ := stage1_image_partial (E := exEnv 0x7e000000 0) exLk_placed (exEnv_frames _ _) (by decide) (by decide) (by decide) h
  refine ⟨_, n, h, ?_, h3.hob⟩
  intro x a b
  have e : wbStart exLk = 0x2000000 := by decide
  have ef : exLk.fe - exLk.fs = 0x100000 := by decide
  have := h1 x (by omega) (by omega)
  rw [this.1, this.2, e]
  rfl

example (m : Mem) : start (exEnv 0x7e000000 (-1)) exLk (some 0x7e000000) 0x7f000000 0 0 m = .halted := by
  cases h : start (exEnv 0x7e000000 (-1)) exLk (some 0x7e000000) 0x7f000000 0 0 m with
  | halted => rfl
  | run c n =>
    obtain ⟨_, _, ha, _⟩ := stage1_verified (E := exEnv 0x7e000000 (-1)) rfl rfl h
    exact absurd ha (by show (-1 : Int) ≠ 0; decide)

example (m : Mem) : ∃ c n, start { exEnv 0x7e000000 (-1) with wakes := true } exLk none 0 0 0 m = .run c n :=
  stage1_panic_returns _ _ _ _ _ _ rfl

example : (layout true 12 0x7e000000).pt % 4096 = 0 := (layout_64 (by decide) (by decide)).2.2.2.1

example : (layout false 18 0x7e000000).holder + 8 = (layout false 18 0x7e000000).params := (layout_32 (by decide) (by decide)).2.2

example : 4294901742 ≤ (layout true 12 0x1000).params := layout_underflow (.inl rfl) (by decide)

example : overlaps 0 10 9 20 = true ↔ ¬ Disj 0 10 9 20 := overlaps_iff (by decide) (by decide)

example (m : Mem) : loadWb exLk m 0x800050 = m 0x800050 :=
  load_keeps_stage1 (by decide) (by decide) m _ (.inl (by decide))

example (m : Mem) : dataBss exLk m 0x800004 = m 0xfff00004 :=
  (data_initialised (L := exLk) (m := m) (by decide) (by intro x a b c d; simp only [exLk] at a b c d; omega)
    (by intro x a b c d; simp only [exLk] at a b c d; omega) (by decide)).1 0x800004 (by decide) (by decide)

example (s : St) : getParams (setParams 0x1234 0x7000 s) = 0x1234 := params_round_trip _ _ _ (by decide)

/-- A small second stage that lies where the page tables go. -/
def exLk2 : Lk := { exLk with load := 0x20fd100, fe := 0xff001000, ws := 0x3000000, we := 0x3010000, s2 := 0x3000010 }

/-- **Finding.** The area at the top is not compared with the second stage. If the page tables fall into it, they are
built after its verification: what runs is not what has been verified. -/
theorem stage1_tables_over_image : ∃ (E : Env) (L : Lk) (t : Nat), E.wakes = false ∧ Frames E t ∧ checkRanges L = true ∧
    ∀ m, ∃ c n, start E L (some t) 0 0 0 m = .run c n ∧
      ∃ x, wbStart L ≤ x ∧ x < wbStart L + (L.fe - L.fs) ∧ c x = m (L.fs + (x - wbStart L)) ∧ n x = 3 := by
  refine ⟨exEnv 0x2114000 0, exLk2, 0x2114000, rfl, exEnv_frames _ _, by decide, fun m => ?_⟩
  have room : Room true exLk2 0x2114000 := ⟨by decide, by decide, .inl rfl⟩
  obtain ⟨f1, f2⟩ := fillParams_ok (m := m) room (hob := 0) (pol := 0) (polSize := 0) (by decide) (by decide) (by decide)
  have ey : layout true exLk2.ps 0x2114000 = ⟨0x2114000, 0x2103ff4, 0x20fc000, 0x20fbff8⟩ := by
    unfold layout
    congr 1
  have ew : wbStart exLk2 = 0x20fd000 := by decide
  have es : exLk2.fe - exLk2.fs = 0x1000 := by decide
  have ed : exLk2.de - exLk2.ds = 0x100 := by decide
  rw [ey] at f1 f2
  dsimp only at f1 f2
  have hr := stage1_runs (E := exEnv 0x2114000 0) (L := exLk2) (t := 0x2114000) (hob := 0) (pol := 0) (polSize := 0)
    (m := m) (by decide) (by decide) (Int.le_refl _) (Int.le_refl _) rfl rfl
  have ew64 : (exEnv 0x2114000 0).w64 = true := rfl
  rw [ew64, ey] at hr
  dsimp only at hr
  generalize hc : atCheck (exEnv 0x2114000 0) exLk2 0x2114000 0 0 0 m = c at hr
  unfold atCheck at hc
  rw [ew64, ey] at hc
  dsimp only at hc
  generalize fillParams true exLk2.ps 0 0 0 ⟨0x2114000, 0x2103ff4, 0x20fc000, 0x20fbff8⟩ m = m1 at *
  -- bytes that loading leaves alone
  have keep : ∀ (q : Mem) x, x < 0x20fd000 ∨ 0x20fe000 ≤ x → 0x800200 ≤ x → x < 0x3000000 → loadWb exLk2 (dataBss exLk2 q) x = q x := by
    intro q x h1 h2 h3
    rw [loadWb_out, dataBss_out]
    · rw [ed]; simp only [exLk2, exLk]; omega
    · simp only [exLk2, exLk]; omega
    · rw [ew, es]; omega
    · simp only [exLk2, exLk]; omega
  have cset : ∀ x, 0x20fc000 ≤ x → x < 0x20fd000 ∨ 0x20fe000 ≤ x → x < 0x3000000 → c x = m1 x := by
    intro x h1 h2 h3
    rw [← hc, keep _ x h2 (by omega) h3]
    unfold setParams
    dsimp only
    rw [wr_out (by omega), zero_out (by omega)]
  have cptr : le32 c 0x20fbff8 = 0x2103ff4 := by
    rw [← hc, le32_eq (fun i hi => keep _ _ (by omega) (by omega) (by omega))]
    unfold setParams
    dsimp only
    rw [le32_wr]
  have cpt : le32 c (0x2103ff4 + 4) = 0x20fc000 := by
    rw [← f1.pt rfl]
    exact le32_eq (fun i hi => cset _ (by omega) (by omega) (by omega))
  have stk : ∀ a, a + 4 ≤ 0x2104000 → le32 ((exEnv 0x2114000 0).stk c) a = le32 c a := by
    intro a ha
    exact le32_eq (fun i hi => (exEnv_frames 0x2114000 0).stk c _ (by omega))
  unfold jump guard at hr
  dsimp only at hr
  rw [if_pos rfl, Bool.or_true, if_pos rfl] at hr
  have eg : getParams ⟨(exEnv 0x2114000 0).stk c, 0x20fbff8 + 4⟩ = 0x2103ff4 := by
    show le32 ((exEnv 0x2114000 0).stk c) (0x20fbff8 + 4 - 4) = _
    rw [Nat.add_sub_cancel, stk _ (by omega), cptr]
  rw [eg] at hr
  rw [stk _ (by omega), cpt] at hr
  refine ⟨c, _, hr, 0x20fd000, by decide, by decide, ?_, ?_⟩
  · rw [ew, Nat.sub_self, Nat.add_zero, ← hc]
    unfold loadWb zero copy
    rw [if_neg (by simp only [exLk2, exLk]; omega), if_pos (by rw [ew, es]; omega), ew, Nat.sub_self, Nat.add_zero]
    rw [dataBss_out (by rw [ed]; simp only [exLk2, exLk]; omega) (by simp only [exLk2, exLk]; omega)]
    unfold setParams
    dsimp only
    rw [wr_out (by simp only [exLk2, exLk]; omega), zero_out (by simp only [exLk2, exLk]; omega)]
    exact f2 _ (by simp only [exLk2, exLk]; omega)
  · show copy ((exEnv 0x2114000 0).build 0x20fc000 ((exEnv 0x2114000 0).stk c)) exLk2.s2 0x2103ff4 exLk2.ps 0x20fd000 = 3
    unfold copy
    rw [if_neg (by simp only [exLk2, exLk]; omega)]
    rw [exEnv_build]
    unfold exBuild ptSize
    rw [if_pos (by omega)]

/-- **Finding.** The size of the policy is cut to 16 bits before it is compared with the space for it. -/
theorem policy_size_cut (w avail : Nat) (h : w % 65536 ≤ avail) : policySize w avail = w % 65536 := if_neg (by omega)

/-- **C53, parameters.** The size of the policy never exceeds the space for it. -/
theorem policy_size_le (w avail : Nat) : policySize w avail ≤ avail := by
  unfold policySize
  split <;> omega

example : policySize 65552 512 = 16 := policy_size_cut _ _ (by decide)
example : policySize 600 512 = 0 := by decide

/-! ## MP table -/

theorem sumBytes_congr {m p : Mem} {a : Nat} : ∀ n, (∀ i, i < n → m (a + i) = p (a + i)) → sumBytes m a n = sumBytes p a n := by
  intro n
  induction n with
  | zero => intro _; rfl
  | succ n ih =>
    intro h
    rw [sumBytes, sumBytes, ih (fun i hi => h i (by omega)), h n (by omega)]

theorem wr1 (m : Mem) (a : Nat) (v : Byte) : wr m a 1 v.toNat a = v := by
  have := wr_in (o := m) (off := a) (n := 1) (v := v.toNat) 0 (by decide)
  rw [Nat.add_zero, Nat.pow_zero, Nat.div_one] at this
  rw [this]
  exact BitVec.eq_of_toNat_eq (by rw [BitVec.toNat_ofNat]; exact Nat.mod_eq_of_lt v.isLt)

/-- Changing one byte changes the sum by the difference. -/
theorem sumBytes_wr {m : Mem} {a k : Nat} (v : Byte) : ∀ n, k < n → m (a + k) = 0 →
    sumBytes (wr m (a + k) 1 v.toNat) a n = sumBytes m a n + v := by
  intro n
  induction n with
  | zero => intro h; omega
  | succ n ih =>
    intro hk h0
    rw [sumBytes, sumBytes]
    by_cases hn : k = n
    · subst hn
      rw [wr1, h0, sumBytes_congr (p := m) k (fun i hi => wr_out (by omega))]
      simp
    · rw [ih (by omega) h0, wr_out (by omega)]
      rw [BitVec.add_assoc, BitVec.add_assoc, BitVec.add_comm v]

theorem wr1_zero (m : Mem) (a : Nat) : wr m a 1 0 a = 0 := wr1 m a 0

/-- **C54.** The bytes of both parts of the table add up to zero, and only the two checksums are changed. -/
theorem mp_checksum (b size : Nat) (m : Mem) (hs : 24 ≤ size) :
    sumBytes (calcChecksum b size m) b 16 = 0 ∧ sumBytes (calcChecksum b size m) (b + 16) (size - 16) = 0 ∧
      ∀ x, x ≠ b + 10 → x ≠ b + 23 → calcChecksum b size m x = m x := by
  unfold calcChecksum
  dsimp only
  generalize h1 : wr m (b + 23) 1 0 = m1
  have z1 : m1 (b + 16 + 7) = 0 := by rw [← h1]; exact wr1_zero m (b + 23)
  generalize h2 : wr m1 (b + 23) 1 (-(sumBytes m1 (b + 16) (size - 16))).toNat = m2
  generalize h3 : wr m2 (b + 10) 1 0 = m3
  have z3 : m3 (b + 10) = 0 := by rw [← h3]; exact wr1_zero m2 (b + 10)
  refine ⟨?_, ?_, ?_⟩
  · rw [sumBytes_wr _ 16 (by decide) z3]
    exact BitVec.add_right_neg _
  · rw [sumBytes_congr (p := m2) _ (fun i hi => by rw [wr_out (by omega), ← h3, wr_out (by omega)]), ← h2]
    rw [show b + 23 = b + 16 + 7 from rfl, sumBytes_wr _ (size - 16) (by omega) z1]
    exact BitVec.add_right_neg _
  · intro x ha hb
    rw [wr_out (by omega), ← h3, wr_out (by omega), ← h2, wr_out (by omega), ← h1, wr_out (by omega)]

/-- The sum of `n` bytes at `a`. -/
def total (m : Mem) (a n : Nat) : Nat := ((List.range n).map fun i => (m (a + i)).toNat).sum

theorem sumBytes_total (m : Mem) (a : Nat) : ∀ n, (sumBytes m a n).toNat = total m a n % 256 := by
  intro n
  induction n with
  | zero => rfl
  | succ n ih =>
    rw [sumBytes, BitVec.toNat_add, ih]
    unfold total
    rw [List.range_succ, List.map_append, List.sum_append, List.map_cons, List.map_nil, List.sum_cons, List.sum_nil]
    omega

theorem cpuEntry_out {a id ver flags sign x : Nat} {m : Mem} (h : x ≤ a ∨ a + 20 ≤ x) :
    cpuEntry a id ver flags sign m x = m x := by
  unfold cpuEntry
  rw [wr_out (by omega), wr_out (by omega), wr_out (by omega), wr_out (by omega), wr_out (by omega), wr_out (by omega),
    wr_out (by omega)]

theorem cpuLoop_out {b ver sign x : Nat} : ∀ (k i : Nat) (m : Mem), (x < b + 60 + 20 * i ∨ b + 60 + 20 * (i + k) ≤ x) ∨
    (∃ j, x = b + 60 + 20 * j) → cpuLoop b ver sign k i m x = m x := by
  intro k
  induction k with
  | zero => intro i m _; rfl
  | succ k ih =>
    intro i m h
    rw [cpuLoop]
    rw [ih]
    · refine cpuEntry_out ?_
      rcases h with h | ⟨j, h⟩ <;> omega
    · rcases h with h | h
      · exact Or.inl (by omega)
      · exact Or.inr h

/-- A processor entry holds these values. -/
structure CpuAt (m : Mem) (a id ver flags sign : Nat) : Prop where
  id : (m (a + 1)).toNat = id
  ver : (m (a + 2)).toNat = ver
  flags : (m (a + 3)).toNat = flags
  sign : le32 m (a + 4) = sign
  rest : ∀ i, 8 ≤ i → i < 20 → m (a + i) = 0

theorem wr_byte {m : Mem} {a v : Nat} (h : v < 256) : (wr m a 1 v a).toNat = v := by
  have := wr_in (o := m) (off := a) (n := 1) (v := v) 0 (by decide)
  rw [Nat.add_zero, Nat.pow_zero, Nat.div_one] at this
  rw [this, BitVec.toNat_ofNat]
  exact Nat.mod_eq_of_lt h

theorem wr_zero {m : Mem} {a i : Nat} (h : i < 4) : wr m a 4 0 (a + i) = 0 := by
  rw [wr_in _ h, Nat.zero_div]
  rfl

theorem cpuEntry_at {a id ver flags sign : Nat} {m : Mem} (h1 : id < 256) (h2 : flags < 256) (h3 : sign < 4294967296) :
    CpuAt (cpuEntry a id ver flags sign m) a id (ver % 256) flags sign := by
  unfold cpuEntry
  dsimp only
  refine ⟨?_, ?_, ?_, ?_, ?_⟩
  · rw [wr_out (by omega), wr_out (by omega), wr_out (by omega), wr_out (by omega), wr_out (by omega), wr_out (by omega)]
    exact wr_byte h1
  · rw [wr_out (by omega), wr_out (by omega), wr_out (by omega), wr_out (by omega), wr_out (by omega)]
    exact wr_byte (by omega)
  · rw [wr_out (by omega), wr_out (by omega), wr_out (by omega), wr_out (by omega)]
    exact wr_byte h2
  · rw [le32_eq (p := wr (wr (wr (wr m (a + 1) 1 id) (a + 2) 1 (ver % 256)) (a + 3) 1 flags) (a + 4) 4 sign)
      (fun i hi => by rw [wr_out (by omega), wr_out (by omega), wr_out (by omega)]), le32_wr]
    exact Nat.mod_eq_of_lt h3
  · intro i hi hj
    by_cases c1 : i < 12
    · rw [wr_out (by omega), wr_out (by omega), show a + i = a + 8 + (i - 8) by omega]
      exact wr_zero (by omega)
    · by_cases c2 : i < 16
      · rw [show a + i = a + 12 + (i - 12) by omega]
        exact wr_zero (by omega)
      · rw [wr_out (by omega), show a + i = a + 16 + (i - 16) by omega]
        exact wr_zero (by omega)

theorem CpuAt.move {m p : Mem} {a id ver flags sign : Nat} (h : CpuAt m a id ver flags sign)
    (e : ∀ i, 1 ≤ i → i < 20 → p (a + i) = m (a + i)) : CpuAt p a id ver flags sign :=
  ⟨by rw [e 1 (by decide) (by decide)]; exact h.id, by rw [e 2 (by decide) (by decide)]; exact h.ver,
    by rw [e 3 (by decide) (by decide)]; exact h.flags,
    by rw [le32_eq (p := m) (fun i hi => by rw [Nat.add_assoc]; exact e (4 + i) (by omega) (by omega))]; exact h.sign,
    fun i h1 h2 => by rw [e i (by omega) h2]; exact h.rest i h1 h2⟩

theorem cpuLoop_at {b ver sign : Nat} (hs : sign < 4294967296) : ∀ (k i : Nat) (m : Mem), i + k ≤ 128 → ∀ j, i ≤ j → j < i + k →
    CpuAt (cpuLoop b ver sign k i m) (b + 60 + 20 * j) (j * 2) (ver % 256) 1 sign := by
  intro k
  induction k with
  | zero => intro i m _ j h1 h2; omega
  | succ k ih =>
    intro i m hk j h1 h2
    rw [cpuLoop]
    by_cases hj : j = i
    · subst hj
      exact (cpuEntry_at (by omega) (by decide) hs).move (fun i' hi hj => cpuLoop_out _ _ _ (Or.inl (Or.inl (by omega))))
    · exact ih (i + 1) _ (by omega) j (by omega) (by omega)

/-- **C54.** The table left in memory: both parts add up to zero; the first processor is the running one and the
others have the even numbers; everything else is the initial value, and nothing outside the table is written. -/
theorem mp_setup {b size cpus tpl id ver sign : Nat} {m : Mem} (h1 : 1 ≤ cpus) (h2 : cpus ≤ 128) (hs : 60 + 20 * cpus ≤ size)
    (hid : id < 4294967296) (hsg : sign < 4294967296) :
    total (mpSetup b size cpus tpl id ver sign m) b 16 % 256 = 0 ∧
    total (mpSetup b size cpus tpl id ver sign m) (b + 16) (size - 16) % 256 = 0 ∧
    CpuAt (mpSetup b size cpus tpl id ver sign m) (b + 60) (id / 16777216) (ver % 256) 3 sign ∧
    (∀ i, 1 ≤ i → i < cpus → CpuAt (mpSetup b size cpus tpl id ver sign m) (b + 60 + 20 * i) (2 * i) (ver % 256) 1 sign) ∧
    (∀ i, i < size → i ≠ 10 → i ≠ 23 → (i < 60 ∨ (∃ j, i = 60 + 20 * j) ∨ 60 + 20 * cpus ≤ i) →
      mpSetup b size cpus tpl id ver sign m (b + i) = m (tpl + i)) ∧
    (∀ x, x < b ∨ b + size ≤ x → mpSetup b size cpus tpl id ver sign m x = m x) := by
  unfold mpSetup
  generalize hm1 : cpuEntry (b + 60) (id / 16777216) ver 3 sign (copy m b tpl size) = m1
  generalize hm2 : cpuLoop b ver sign (cpus - 1) 1 m1 = m2
  obtain ⟨c1, c2, c3⟩ := mp_checksum b size m2 (by omega)
  refine ⟨?_, ?_, ?_, ?_, ?_, ?_⟩
  · rw [← sumBytes_total, c1]; rfl
  · rw [← sumBytes_total, c2]; rfl
  · have e : CpuAt m1 (b + 60) (id / 16777216) (ver % 256) 3 sign := by
      rw [← hm1]; exact cpuEntry_at (by omega) (by decide) hsg
    refine e.move (fun i hi hj => ?_)
    rw [c3 _ (by omega) (by omega), ← hm2]
    exact cpuLoop_out _ _ _ (Or.inl (Or.inl (by omega)))
  · intro i hi hj
    have e := cpuLoop_at (b := b) (ver := ver) hsg (cpus - 1) 1 m1 (by omega) i hi (by omega)
    rw [hm2, Nat.mul_comm i 2] at e
    exact e.move (fun k hk hl => c3 _ (by omega) (by omega))
  · intro i hi n1 n2 hr
    rw [c3 _ (by omega) (by omega), ← hm2, cpuLoop_out, ← hm1, cpuEntry_out]
    · unfold copy
      rw [if_pos (by omega), Nat.add_sub_cancel_left]
    · rcases hr with hr | ⟨j, hr⟩ | hr <;> omega
    · rcases hr with hr | ⟨j, hr⟩ | hr
      · exact Or.inl (by omega)
      · exact Or.inr ⟨j, by omega⟩
      · exact Or.inl (by omega)
  · intro x hx
    rw [c3 _ (by omega) (by omega), ← hm2, cpuLoop_out _ _ _ (Or.inl (by omega)), ← hm1, cpuEntry_out (by omega)]
    unfold copy
    exact if_neg (by omega)

example (m : Mem) : CpuAt (mpSetup 0x100 300 4 0x5000 0x07000000 0x50014 0x806c1 m) 0x178 6 0x14 1 0x806c1 :=
  (mp_setup (m := m) (by decide) (by decide) (by decide) (by decide) (by decide)).2.2.2.1 3 (by decide) (by decide)

end Verif.Stage1
