import Verif.DeltaThms

/-!
# Delta encoder and in-place patching: C20
-/

namespace Verif

/-! ## Specification -/

/-- Byte `i` of a patched image may come from `x` if the image is patched in place, sector by sector,
over base `a`, with result `b`: a literal; a byte of the base that has not been overwritten yet; or
a byte of a sector that has been finished already. -/
def InPlace (a b : Mem) (sizeA sizeB ss i : Nat) : BSrc → Prop
  | .bad => False
  | .lit v => v = b i
  | .at o => (i / ss * ss ≤ o ∧ o < sizeA ∧ a o = b i) ∨ (o < i / ss * ss ∧ o < sizeB ∧ b o = b i)

/-- `InPlace` for consecutive bytes starting at `off`. -/
def InPlaceAt (a b : Mem) (sizeA sizeB ss off : Nat) (P : List BSrc) : Prop :=
  ∀ k x, P[k]? = some x → InPlace a b sizeA sizeB ss (off + k) x

/-! ## Lemmas -/

theorem plan_append {p q : List Byte} {P Q : List BSrc} (hp : plan p = some P) (hq : plan q = some Q) :
    plan (p ++ q) = some (P ++ Q) := by
  induction hn : p.length using Nat.strongRecOn generalizing p P with
  | ind n ih =>
    match p with
    | [] =>
      simp only [plan, Option.some.injEq] at hp
      subst hp
      exact hq
    | b :: r =>
      by_cases hb : b = ESC
      · subst hb
        match r with
        | [] => rw [plan_esc_end] at hp; simp at hp
        | o0 :: r =>
          by_cases ho : o0 = ESC
          · subst ho
            rw [plan_esc] at hp
            obtain ⟨T, hT, rfl⟩ := Option.map_eq_some_iff.mp hp
            have := ih r.length (by simp at hn; omega) hT rfl
            rw [List.cons_append, List.cons_append, plan_esc, this]
            rfl
          · match r with
            | [] => rw [plan_trunc ho (by simp)] at hp; simp at hp
            | [_] => rw [plan_trunc ho (by simp)] at hp; simp at hp
            | [_, _] => rw [plan_trunc ho (by simp)] at hp; simp at hp
            | [_, _, _] => rw [plan_trunc ho (by simp)] at hp; simp at hp
            | o1 :: o2 :: s0 :: s1 :: r =>
              rw [plan_blk ho] at hp
              obtain ⟨T, hT, rfl⟩ := Option.map_eq_some_iff.mp hp
              have := ih r.length (by simp at hn; omega) hT rfl
              simp only [List.cons_append]
              rw [plan_blk ho, this]
              simp
      · rw [plan_lit hb] at hp
        obtain ⟨T, hT, rfl⟩ := Option.map_eq_some_iff.mp hp
        have := ih r.length (by simp at hn; omega) hT rfl
        rw [List.cons_append, plan_lit hb, this]
        rfl

theorem plan_litBytes (v : Byte) : plan (litBytes v) = some [.lit v] := by
  unfold litBytes
  split
  · rename_i h
    rw [plan_esc, h]
    rfl
  · rename_i h
    rw [plan_lit h]
    rfl

theorem plan_blkHdr {o n : Nat} (ho : o < 0x7F0000) (hn : n < 65536) : plan (blkHdr o n) = some (blk o n) := by
  unfold blkHdr
  have h0 : (BitVec.ofNat 8 (o / 65536)).toNat = o / 65536 := by
    rw [BitVec.toNat_ofNat]; omega
  have hne : BitVec.ofNat 8 (o / 65536) ≠ ESC := by
    intro h
    have := congrArg BitVec.toNat h
    rw [h0] at this
    simp [ESC] at this
    omega
  rw [plan_blk hne]
  have h1 : (BitVec.ofNat 8 (o / 65536)).toNat * 65536 + (BitVec.ofNat 8 (o / 256)).toNat * 256 +
      (BitVec.ofNat 8 o).toNat = o := by
    rw [h0]
    simp only [BitVec.toNat_ofNat, Nat.reducePow]
    clear h0 hne hn
    omega
  have h2 : (BitVec.ofNat 8 (n / 256)).toNat * 256 + (BitVec.ofNat 8 n).toNat = n := by
    simp only [BitVec.toNat_ofNat, Nat.reducePow]
    clear h0 hne ho h1
    omega
  rw [h1, h2]
  simp [plan]

theorem blk_get {o n k : Nat} {x : BSrc} (h : (blk o n)[k]? = some x) : k < n ∧ x = .at (o + k) := by
  induction n generalizing o k with
  | zero => simp [blk] at h
  | succ n ih =>
    cases k with
    | zero =>
      simp only [blk, List.getElem?_cons_zero, Option.some.injEq] at h
      exact ⟨by omega, by rw [← h, Nat.add_zero]⟩
    | succ k =>
      simp only [blk, List.getElem?_cons_succ] at h
      obtain ⟨h1, h2⟩ := ih h
      exact ⟨by omega, by rw [h2]; congr 1; omega⟩

theorem eq6_spec {x y : Mem} {i j : Nat} (h : eq6 x y i j = true) : ∀ k, k < 6 → x (i + k) = y (j + k) := by
  simp only [eq6, Bool.and_eq_true, beq_iff_eq] at h
  obtain ⟨⟨⟨⟨⟨h0, h1⟩, h2⟩, h3⟩, h4⟩, h5⟩ := h
  intro k hk
  match k, hk with
  | 0, _ => exact h0
  | 1, _ => exact h1
  | 2, _ => exact h2
  | 3, _ => exact h3
  | 4, _ => exact h4
  | 5, _ => exact h5

theorem scanA_spec {a b : Mem} {sizeA off : Nat} : ∀ {n pa r}, scanA a b sizeA off n pa = some r →
    pa ≤ r ∧ r + 6 ≤ sizeA ∧ ∀ k, k < 6 → a (r + k) = b (off + k) := by
  intro n
  induction n with
  | zero => intro pa r h; simp [scanA] at h
  | succ n ih =>
    intro pa r h
    unfold scanA at h
    split at h
    · split at h
      · simp at h
      · split at h
        · rename_i h1 h2 h3
          simp only [Option.some.injEq] at h
          subst h
          exact ⟨Nat.le_refl _, by omega, eq6_spec h3⟩
        · obtain ⟨h1, h2, h3⟩ := ih h
          exact ⟨by omega, h2, h3⟩
    · simp at h

theorem extA_spec {a b : Mem} {sizeA ss bs : Nat} : ∀ n pa off k, k < extA a b sizeA ss bs n pa off →
    a (pa + k) = b (off + k) ∧ pa + k + 1 < sizeA ∧ (off + k + 1) / ss ≤ bs / ss := by
  intro n
  induction n with
  | zero => intro pa off k h; simp [extA] at h
  | succ n ih =>
    intro pa off k h
    unfold extA at h
    split at h
    · rename_i heq
      split at h
      · omega
      · split at h
        · omega
        · cases k with
          | zero => exact ⟨heq, by omega, by simp only [Nat.add_zero]; omega⟩
          | succ k =>
            obtain ⟨h1, h2, h3⟩ := ih (pa + 1) (off + 1) k (by omega)
            rw [show pa + (k + 1) = pa + 1 + k by omega, show off + (k + 1) = off + 1 + k by omega]
            exact ⟨h1, h2, h3⟩
    · omega

theorem scanB_spec {b : Mem} {sizeB ss pe off : Nat} : ∀ {n pb r}, scanB b sizeB ss pe off n pb = some r →
    r + ss ≤ pe ∧ r < pe ∧ ∀ k, k < 6 → b (r + k) = b (off + k) := by
  intro n
  induction n with
  | zero => intro pb r h; simp [scanB] at h
  | succ n ih =>
    intro pb r h
    unfold scanB at h
    split at h
    · split at h
      · simp at h
      · split at h
        · simp at h
        · split at h
          · rename_i h1 h2 h3 h4
            simp only [Option.some.injEq] at h
            subst h
            exact ⟨by omega, by omega, eq6_spec h4⟩
          · exact ih h
    · simp at h

theorem extB_spec {b : Mem} {pe : Nat} : ∀ n pb off k, k < extB b pe n pb off →
    b (pb + k) = b (off + k) ∧ pb + k + 1 < pe := by
  intro n
  induction n with
  | zero => intro pb off k h; simp [extB] at h
  | succ n ih =>
    intro pb off k h
    unfold extB at h
    split at h
    · rename_i heq
      split at h
      · omega
      · cases k with
        | zero => exact ⟨heq, by omega⟩
        | succ k =>
          obtain ⟨h1, h2⟩ := ih (pb + 1) (off + 1) k (by omega)
          rw [show pb + (k + 1) = pb + 1 + k by omega, show off + (k + 1) = off + 1 + k by omega]
          exact ⟨h1, h2⟩
    · omega

/-! ## Encoder -/

/-- Conditions under which the fields of a block header cannot overflow: sectors of at most 64 KiB,
images below `0x7F0000` bytes (the first offset byte would be taken for an escaped `7F`
otherwise), and no two equal stretches of 64 KiB in the new image. -/
structure DiffOK (b : Mem) (sizeA sizeB ss : Nat) : Prop where
  ss6 : 6 < ss
  ss64 : ss ≤ 65536
  szA : sizeA ≤ 0x7F0000
  szB : sizeB ≤ 0x7F0000
  rep : ∀ i j, i + 65536 ≤ j → j < sizeB → ∃ k, k < 65536 ∧ b (i + k) ≠ b (j + k)

theorem div_eq_of_range {x y ss : Nat} (h1 : x ≤ y) (h2 : y / ss ≤ x / ss) : y / ss = x / ss :=
  Nat.le_antisymm h2 (Nat.div_le_div_right h1)

theorem mod_sector {off k ss : Nat} (hss : 0 < ss) (h : k < ss - off % ss) : (off + k) / ss = off / ss := by
  have h1 := Nat.div_add_mod off ss
  have hm := Nat.mod_lt off hss
  have h2 : off + k = off % ss + k + ss * (off / ss) := by omega
  rw [h2, Nat.add_mul_div_left _ _ hss, Nat.div_eq_of_lt (by omega), Nat.zero_add]

/-- What one iteration of the encoder emits. -/
theorem diffStep_spec {a b : Mem} {sizeA sizeB ss off : Nat} (hok : DiffOK b sizeA sizeB ss)
    (hoff : off < sizeB) :
    ∃ P, plan (diffStep a b sizeA sizeB ss off).1 = some P ∧ 0 < P.length ∧
      (diffStep a b sizeA sizeB ss off).2 = off + P.length ∧ InPlaceAt a b sizeA sizeB ss off P ∧
      (diffStep a b sizeA sizeB ss off).1.length ≤ 6 := by
  have hss := hok.ss6
  have hdm : off / ss * ss ≤ off := Nat.div_mul_le_self off ss
  unfold diffStep
  dsimp only
  cases hA : (if ss - off % ss < 6 then none else scanA a b sizeA off (sizeA + 1) (off / ss * ss)) with
  | some pa =>
    dsimp only
    split at hA
    · simp at hA
    · rename_i hsec
      obtain ⟨h1, h2, h3⟩ := scanA_spec hA
      have hext := extA_spec (a := a) (b := b) (sizeA := sizeA) (ss := ss) (bs := off) (sizeA + 1) (pa + 6) (off + 6)
      generalize extA a b sizeA ss off (sizeA + 1) (pa + 6) (off + 6) = e at hext
      -- all positions are in the sector of `off`
      have hsect : ∀ k, k < 6 + e → (off + k) / ss = off / ss := by
        intro k hk
        by_cases hk6 : k < 6
        · exact mod_sector (by omega) (by omega)
        · obtain ⟨_, _, h⟩ := hext (k - 6) (by omega)
          rw [show off + 6 + (k - 6) + 1 = off + k + 1 by omega] at h
          exact div_eq_of_range (by omega) (Nat.le_trans (Nat.div_le_div_right (by omega)) h)
      have hlen : 6 + e < 65536 := by
        by_cases he : e = 0
        · omega
        · have := (hext (e - 1) (by omega)).2.2
          rw [show off + 6 + (e - 1) + 1 = off + 6 + e by omega] at this
          have h6 : off + 6 + e < (off / ss + 1) * ss := by
            rw [← Nat.div_lt_iff_lt_mul (by omega)]
            omega
          have h7 : (off / ss + 1) * ss = off / ss * ss + ss := by rw [Nat.add_mul, Nat.one_mul]
          have := hok.ss64
          omega
      rw [Nat.mod_eq_of_lt hlen]
      refine ⟨blk pa (6 + e), plan_blkHdr (by have := hok.szA; omega) hlen, by rw [blk_length]; omega,
        by rw [blk_length]; omega, ?_, by simp [blkHdr]⟩
      intro k x hx
      obtain ⟨hk, rfl⟩ := blk_get hx
      left
      rw [hsect k hk]
      refine ⟨by omega, ?_, ?_⟩
      · by_cases hk6 : k < 6
        · omega
        · have := (hext (k - 6) (by omega)).2.1
          omega
      · by_cases hk6 : k < 6
        · exact h3 k hk6
        · have := (hext (k - 6) (by omega)).1
          rw [show pa + 6 + (k - 6) = pa + k by omega, show off + 6 + (k - 6) = off + k by omega] at this
          exact this
  | none =>
    dsimp only
    cases hB : scanB b sizeB ss (off / ss * ss) off (off / ss * ss + 1) 0 with
    | some pb =>
      dsimp only
      obtain ⟨h1, h2, h3⟩ := scanB_spec hB
      have hext := extB_spec (b := b) (pe := off / ss * ss) (off / ss * ss + 1) (pb + 6) (off + 6)
      generalize extB b (off / ss * ss) (off / ss * ss + 1) (pb + 6) (off + 6) = e at hext
      have hpe : pb + (6 + e) ≤ off / ss * ss := by
        by_cases he : e = 0
        · omega
        · have := (hext (e - 1) (by omega)).2
          omega
      have heq : ∀ k, k < 6 + e → b (pb + k) = b (off + k) := by
        intro k hk
        by_cases hk6 : k < 6
        · exact h3 k hk6
        · have := (hext (k - 6) (by omega)).1
          rw [show pb + 6 + (k - 6) = pb + k by omega, show off + 6 + (k - 6) = off + k by omega] at this
          exact this
      have hlen : 6 + e < 65536 := by
        apply Classical.byContradiction
        intro hn
        obtain ⟨k, hk1, hk2⟩ := hok.rep pb off (by omega) hoff
        exact hk2 (heq k (by omega))
      rw [Nat.mod_eq_of_lt hlen]
      refine ⟨blk pb (6 + e), plan_blkHdr (by have := hok.szB; omega) hlen, by rw [blk_length]; omega,
        by rw [blk_length]; omega, ?_, by simp [blkHdr]⟩
      intro k x hx
      obtain ⟨hk, rfl⟩ := blk_get hx
      right
      have : off / ss * ss ≤ (off + k) / ss * ss :=
        Nat.mul_le_mul_right _ (Nat.div_le_div_right (by omega))
      exact ⟨by omega, by omega, heq k hk⟩
    | none =>
      dsimp only
      refine ⟨[.lit (b off)], plan_litBytes _, by simp, by simp, ?_, by unfold litBytes; split <;> simp⟩
      intro k x hx
      cases k with
      | zero => simp only [List.getElem?_cons_zero, Option.some.injEq] at hx; subst hx; rfl
      | succ k => simp at hx

theorem InPlaceAt.append {a b : Mem} {sizeA sizeB ss off : Nat} {P Q : List BSrc}
    (hP : InPlaceAt a b sizeA sizeB ss off P) (hQ : InPlaceAt a b sizeA sizeB ss (off + P.length) Q) :
    InPlaceAt a b sizeA sizeB ss off (P ++ Q) := by
  intro k x hx
  rw [List.getElem?_append] at hx
  split at hx
  · exact hP k x hx
  · have := hQ _ x hx
    rw [show off + P.length + (k - P.length) = off + k by omega] at this
    exact this

theorem litAt {a b : Mem} {sizeA sizeB ss off : Nat} : InPlaceAt a b sizeA sizeB ss off [.lit (b off)] := by
  intro k x hx
  cases k with
  | zero => simp only [List.getElem?_cons_zero, Option.some.injEq] at hx; subst hx; rfl
  | succ k => simp at hx

theorem diffMain_spec {a b : Mem} {sizeA sizeB ss len off0 : Nat} (hok : DiffOK b sizeA sizeB ss) :
    ∀ n off p P, plan p = some P → off = off0 + P.length → InPlaceAt a b sizeA sizeB ss off0 P →
      p.length ≤ len →
      ∃ P', plan (diffMain a b sizeA sizeB ss len n off p).2 = some P' ∧
        (diffMain a b sizeA sizeB ss len n off p).1 = off0 + P'.length ∧
        InPlaceAt a b sizeA sizeB ss off0 P' ∧
        (P.length < P'.length ∨ diffMain a b sizeA sizeB ss len n off p = (off, p)) ∧
        (diffMain a b sizeA sizeB ss len n off p).2.length ≤ len := by
  intro n
  induction n with
  | zero => intro off p P h1 h2 h3 hl; exact ⟨P, h1, h2, h3, .inr rfl, hl⟩
  | succ n ih =>
    intro off p P h1 h2 h3 hl
    unfold diffMain
    split
    · rename_i hc
      obtain ⟨Q, q1, q2, q3, q4, q5⟩ := diffStep_spec (a := a) hok (off := off) (by omega)
      obtain ⟨P', r1, r2, r3, r4, r5⟩ := ih (diffStep a b sizeA sizeB ss off).2
        (p ++ (diffStep a b sizeA sizeB ss off).1) (P ++ Q) (plan_append h1 q1)
        (by rw [q3, List.length_append]; omega) (h3.append (by rw [← h2]; exact q4))
        (by rw [List.length_append]; omega)
      refine ⟨P', r1, r2, r3, ?_, r5⟩
      left
      rcases r4 with r4 | r4
      · rw [List.length_append] at r4; omega
      · rw [r4] at r2
        rw [q3] at r2
        dsimp only at r2
        omega
    · exact ⟨P, h1, h2, h3, .inr rfl, hl⟩

theorem diffTail_spec {a b : Mem} {sizeA sizeB ss len off0 : Nat} :
    ∀ n off p P, plan p = some P → off = off0 + P.length → InPlaceAt a b sizeA sizeB ss off0 P →
      p.length ≤ len →
      ∃ P', plan (diffTail b sizeB len n off p).2 = some P' ∧
        (diffTail b sizeB len n off p).1 = off0 + P'.length ∧
        InPlaceAt a b sizeA sizeB ss off0 P' ∧ P.length ≤ P'.length ∧
        (diffTail b sizeB len n off p).2.length ≤ len ∧
        (0 < n → p.length < len - 6 → off < sizeB → P.length < P'.length) := by
  intro n
  induction n with
  | zero => intro off p P h1 h2 h3 hl; exact ⟨P, h1, h2, h3, Nat.le_refl _, hl, by omega⟩
  | succ n ih =>
    intro off p P h1 h2 h3 hl
    unfold diffTail
    split
    · rename_i hc
      have hll : (litBytes (b off)).length ≤ 2 := by unfold litBytes; split <;> simp
      obtain ⟨P', r1, r2, r3, r4, r5, r6⟩ := ih (off + 1) (p ++ litBytes (b off)) (P ++ [.lit (b off)])
        (plan_append h1 (plan_litBytes _)) (by rw [List.length_append]; simp; omega)
        (h3.append (by rw [← h2]; exact litAt)) (by rw [List.length_append]; omega)
      refine ⟨P', r1, r2, r3, by rw [List.length_append] at r4; omega, r5, ?_⟩
      intro _ _ _
      rw [List.length_append] at r4
      simp at r4
      omega
    · exact ⟨P, h1, h2, h3, Nat.le_refl _, hl, by omega⟩

/-- One call of `wb_diff` fits into its buffer, makes progress, and emits a well-formed piece of the
patch for the bytes of the new image that it has consumed. -/
theorem wbDiff_spec {a b : Mem} {sizeA sizeB ss len off : Nat} (hok : DiffOK b sizeA sizeB ss) (hl : 6 < len)
    (hoff : off < sizeB) :
    ∃ P, plan (wbDiff a b sizeA sizeB ss len off).2 = some P ∧ 0 < P.length ∧
      (wbDiff a b sizeA sizeB ss len off).1 = off + P.length ∧ InPlaceAt a b sizeA sizeB ss off P ∧
      (wbDiff a b sizeA sizeB ss len off).2.length ≤ len := by
  unfold wbDiff
  rw [if_neg (by omega)]
  dsimp only
  obtain ⟨P, h1, h2, h3, h4, h5⟩ := diffMain_spec (a := a) (len := len) (off0 := off) hok (sizeB + 1) off [] [] rfl
    (by simp) (fun k x hx => by simp at hx) (by simp)
  obtain ⟨P', r1, r2, r3, r4, r5, r6⟩ := diffTail_spec (len := len) (sizeB + 1)
    (diffMain a b sizeA sizeB ss len (sizeB + 1) off []).1
    (diffMain a b sizeA sizeB ss len (sizeB + 1) off []).2 P h1 h2 h3 h5
  refine ⟨P', r1, ?_, r2, r3, r5⟩
  rcases h4 with h4 | h4
  · simp only [List.length_nil] at h4
    omega
  · rw [h4] at r6 h2
    have := r6 (by omega) (by simp; omega) hoff
    omega

theorem diffAll_spec {a b : Mem} {sizeA sizeB ss len : Nat} (hok : DiffOK b sizeA sizeB ss) (hl : 6 < len) :
    ∀ n off, sizeB - off < n → ∃ P, plan (diffAll a b sizeA sizeB ss len n off) = some P ∧
      sizeB ≤ off + P.length ∧ InPlaceAt a b sizeA sizeB ss off P := by
  intro n
  induction n with
  | zero => intro off h; omega
  | succ n ih =>
    intro off h
    unfold diffAll
    dsimp only
    by_cases hoff : off < sizeB
    · obtain ⟨P, h1, h2, h3, h4, _⟩ := wbDiff_spec (a := a) hok hl hoff
      have hne : (wbDiff a b sizeA sizeB ss len off).2 ≠ [] := by
        intro he
        rw [he] at h1
        simp only [plan, Option.some.injEq] at h1
        subst h1
        simp at h2
      rw [if_neg hne]
      obtain ⟨Q, q1, q2, q3⟩ := ih (wbDiff a b sizeA sizeB ss len off).1 (by omega)
      refine ⟨P ++ Q, plan_append h1 q1, by rw [List.length_append]; omega, ?_⟩
      exact h4.append (by rw [← h3]; exact q3)
    · have : wbDiff a b sizeA sizeB ss len off = (off, []) := by
        unfold wbDiff; rw [if_pos (by omega)]
      rw [this, if_pos rfl]
      exact ⟨[], rfl, by simp; omega, fun k x hx => by simp at hx⟩

/-- The patch made by the signing tool is well formed, covers the new image, and is fit for patching in
place. -/
theorem makePatch_spec {a b : Mem} {sizeA sizeB ss len : Nat} (hok : DiffOK b sizeA sizeB ss) (hl : 6 < len) :
    ∃ P, plan (makePatch a b sizeA sizeB ss len) = some P ∧ sizeB ≤ P.length ∧
      InPlaceAt a b sizeA sizeB ss 0 P := by
  obtain ⟨P, h1, h2, h3⟩ := diffAll_spec (a := a) hok hl (sizeB + 1) 0 (by omega)
  exact ⟨P, h1, by omega, h3⟩

/-! ## Sector-wise decoding -/

theorem sectorGo_spec {src : Nat → Option Byte} {patch : List Byte} {bk q : Nat} {P0 : List BSrc}
    (h6 : 6 ≤ bk) (hsrc : ∀ x ∈ P0.take (bk * q), evalB src x ≠ none) : ∀ fuel j c out,
    q - j + 1 < fuel → j ≤ q → Rem patch c (P0.drop (bk * j)) → out.map some = (P0.take (bk * j)).map (evalB src) →
    ∃ c' out', sectorGo src patch bk (bk * q) fuel c out = .ok c' out' ∧
      out'.map some = (P0.take (bk * q)).map (evalB src) ∧ Rem patch c' (P0.drop (bk * q)) := by
  intro fuel
  induction fuel with
  | zero => intro j c out h; omega
  | succ fuel ih =>
    intro j c out hf hj hrem hout
    have hlen : out.length = min (bk * j) P0.length := by
      have := congrArg List.length hout
      simpa using this
    have hjq : bk * j ≤ bk * q := Nat.mul_le_mul_left _ hj
    unfold sectorGo
    by_cases hc : out.length < bk * q
    · rw [if_pos hc]
      by_cases hq : j = q
      · -- the patch was exhausted in the last block
        subst hq
        have hP : P0.drop (bk * j) = [] := List.drop_eq_nil_of_le (by omega)
        rw [hP] at hrem
        obtain ⟨c', o, h1, h2, h3⟩ := wbPatch_spec (src := src) h6 hrem (by simp)
        have ho : o = [] := by simpa using h2
        rw [h1]
        dsimp only
        rw [if_pos ho]
        exact ⟨c', out, rfl, hout, by rw [hP]; simpa using h3⟩
      · have hj1 : bk * (j + 1) ≤ bk * q := Nat.mul_le_mul_left _ (by omega)
        have hjm : bk * (j + 1) = bk * j + bk := by rw [Nat.mul_add, Nat.mul_one]
        obtain ⟨c', o, h1, h2, h3⟩ := wbPatch_spec (src := src) h6 hrem (by
          intro x hx
          refine hsrc x ?_
          rw [← List.take_append_drop (bk * j) (P0.take (bk * q)), List.drop_take]
          refine List.mem_append_right _ ?_
          have : (P0.drop (bk * j)).take bk = ((P0.drop (bk * j)).take (bk * q - bk * j)).take bk := by
            rw [List.take_take, Nat.min_eq_left (by omega)]
          rw [this] at hx
          exact List.mem_of_mem_take hx)
        rw [h1]
        dsimp only
        rw [List.drop_drop] at h3
        by_cases ho : o = []
        · rw [if_pos ho]
          subst ho
          have hP : P0.length ≤ bk * j := by
            have := congrArg List.length h2
            simp at this
            omega
          refine ⟨c', out, rfl, ?_, ?_⟩
          · rw [hout, List.take_of_length_le hP, List.take_of_length_le (by omega)]
          · rw [List.drop_eq_nil_of_le (by omega)] at h3 ⊢
            exact h3
        · rw [if_neg ho]
          refine ih (j + 1) c' (out ++ o) (by omega) (by omega) (by rw [hjm]; exact h3) ?_
          rw [List.map_append, hout, h2, ← List.map_append, hjm, List.take_add]
    · rw [if_neg hc]
      have he : bk * j = bk * q := by omega
      exact ⟨c, out, rfl, by rw [hout, he], by rw [← he]; exact hrem⟩

/-- One sector. -/
theorem sector_spec {src : Nat → Option Byte} {patch : List Byte} {bk ss : Nat} {P0 : List BSrc} {c : PCtx}
    (h6 : 6 ≤ bk) (hdvd : bk ∣ ss) (hrem : Rem patch c P0) (hsrc : ∀ x ∈ P0.take ss, evalB src x ≠ none) :
    ∃ c' out', sectorGo src patch bk ss (ss + 2) c [] = .ok c' out' ∧
      out'.map some = (P0.take ss).map (evalB src) ∧ Rem patch c' (P0.drop ss) := by
  obtain ⟨q, rfl⟩ := hdvd
  refine sectorGo_spec h6 hsrc (bk * q + 2) 0 c [] ?_ (Nat.zero_le _) (by simpa using hrem) (by simp)
  have : 1 * q ≤ bk * q := Nat.mul_le_mul_right q (by omega)
  omega

/-- In-place patching invariant: when the sectors in front of `x` are done. -/
theorem patchSectors_spec {a b : Mem} {patch : List Byte} {sizeA sizeB size bk ss : Nat} {P0 : List BSrc}
    (h6 : 6 ≤ bk) (hdvd : bk ∣ ss) (hss : 0 < ss) (hA : sizeA ≤ size) (hB : sizeB ≤ size) (hBP : sizeB ≤ P0.length)
    (hin : InPlaceAt a b sizeA sizeB ss 0 P0) : ∀ n s c m, Rem patch c (P0.drop (s * ss)) →
    (∀ x, x < s * ss → x < P0.length → m x = b x) → (∀ x, s * ss ≤ x → m x = a x) →
    ∃ c' m', patchSectors patch bk ss size n s c m = some (c', m') ∧
      (∀ x, x < (s + n) * ss → x < P0.length → m' x = b x) := by
  intro n
  induction n with
  | zero => intro s c m _ h2 _; exact ⟨c, m, rfl, by simpa using h2⟩
  | succ n ih =>
    intro s c m hrem h2 h3
    -- every byte needed for this sector evaluates to the byte of the new image
    have hval : ∀ k x, (P0.drop (s * ss))[k]? = some x → k < ss →
        evalB (fun x => if x < size then some (m x) else none) x = some (b (s * ss + k)) := by
      intro k x hx hk
      rw [List.getElem?_drop] at hx
      have hi := hin _ _ hx
      rw [Nat.zero_add] at hi
      cases x with
      | bad => exact absurd hi id
      | lit v => exact congrArg some hi
      | «at» o =>
        have hsec : (s * ss + k) / ss * ss = s * ss := by
          rw [Nat.mul_comm s ss, Nat.mul_add_div hss, Nat.div_eq_of_lt hk, Nat.add_zero, Nat.mul_comm]
        simp only [InPlace, hsec] at hi
        rcases hi with ⟨i1, i2, i3⟩ | ⟨i1, i2, i3⟩
        · simp only [evalB]
          rw [if_pos (by omega), h3 o i1, i3]
        · simp only [evalB]
          rw [if_pos (by omega), h2 o i1 (by omega), i3]
    obtain ⟨c', out, e1, e2, e3⟩ := sector_spec (src := fun x => if x < size then some (m x) else none) h6 hdvd hrem (by
      intro x hx
      obtain ⟨k, hk⟩ := List.getElem?_of_mem hx
      rw [List.getElem?_take] at hk
      split at hk
      · rw [hval k x hk (by assumption)]; simp
      · simp at hk)
    have hlen : out.length = min ss (P0.length - s * ss) := by
      have := congrArg List.length e2
      simpa using this
    have hout : ∀ k, k < out.length → out.getD k 0xFF#8 = b (s * ss + k) := by
      intro k hk
      have h1 : (out.map some)[k]? = some (some (out.getD k 0xFF#8)) := by
        rw [List.getElem?_map, List.getD_eq_getElem?_getD, List.getElem?_eq_getElem hk]; rfl
      rw [e2, List.getElem?_map, List.getElem?_take, if_pos (by omega)] at h1
      have hex : k < (P0.drop (s * ss)).length := by rw [List.length_drop]; omega
      rw [List.getElem?_eq_getElem hex] at h1
      have := hval k _ (List.getElem?_eq_getElem hex) (by omega)
      simp only [Option.map_some, Option.some.injEq] at h1
      rw [this] at h1
      exact (Option.some.inj h1).symm
    unfold patchSectors
    rw [e1]
    dsimp only
    have hs1 : (s + 1) * ss = s * ss + ss := by rw [Nat.add_mul, Nat.one_mul]
    obtain ⟨c'', m'', g1, g2⟩ := ih (s + 1) c' (patchMem m (s * ss) ss out)
      (by rw [hs1, ← List.drop_drop]; exact e3)
      (by
        intro x hx hxP
        unfold patchMem
        split
        · rename_i hr
          rw [hout _ (by omega)]
          congr 1; omega
        · rename_i hr
          exact h2 x (by omega) hxP)
      (by
        intro x hx
        unfold patchMem
        rw [if_neg (by omega)]
        exact h3 x (by omega))
    exact ⟨c'', m'', g1, by rw [show s + (n + 1) = s + 1 + n by omega]; exact g2⟩

/-! ## C20 -/

/-- **C20, partial.** The patch made by the signing tool for base `a` and new image `b`, applied in
place over `a`, sector by sector, yields `b`. `a` and `b` contain arbitrary bytes behind the ends of the
images. Missing: `DiffOK`, that is sectors above 64 KiB, images from `0x7F0000` bytes on, and new
images with two equal stretches of 64 KiB; see `delta_large_sector`, `delta_offset_7f`. -/
theorem delta_roundtrip_partial {a b : Mem} {sizeA sizeB ss len bk size n : Nat} (hok : DiffOK b sizeA sizeB ss)
    (hl : 6 < len) (h6 : 6 ≤ bk) (hdvd : bk ∣ ss) (hA : sizeA ≤ size) (hB : sizeB ≤ size) (hn : sizeB ≤ n * ss) :
    ∃ c m, patchSectors (makePatch a b sizeA sizeB ss len) bk ss size n 0 patchInit a = some (c, m) ∧
      ∀ x, x < sizeB → m x = b x := by
  obtain ⟨P, h1, h2, h3⟩ := makePatch_spec (a := a) hok hl
  obtain ⟨c, m, g1, g2⟩ := patchSectors_spec h6 hdvd (by have := hok.ss6; omega) hA hB h2 h3 n 0 patchInit a
    (by simpa using rem_init h1) (by intro x hx; omega) (fun x _ => rfl)
  exact ⟨c, m, g1, fun x hx => g2 x (by rw [Nat.zero_add]; omega) (by omega)⟩

/-! ### Example -/

namespace DeltaDemo

/-- Base: 40 bytes. -/
def a : Mem := fun x => BitVec.ofNat 8 (x * 7 + 3)
/-- New image: 44 bytes, parts of the base, a repeated part of itself, literals. -/
def b : Mem := fun x => if x < 12 then BitVec.ofNat 8 (x * 7 + 3) else if x < 20 then 0x7F#8
  else if x < 32 then BitVec.ofNat 8 ((x - 20) * 7 + 3) else BitVec.ofNat 8 (x * 7 + 10)

theorem ok : DiffOK b 40 44 16 :=
  ⟨by decide, by decide, by decide, by decide, fun i j h1 h2 => by omega⟩

example : ∃ c m, patchSectors (makePatch a b 40 44 16 16) 8 16 48 3 0 patchInit a = some (c, m) ∧
    ∀ x, x < 44 → m x = b x :=
  delta_roundtrip_partial ok (by decide) (by decide) (by decide) (by decide) (by decide) (by decide)

-- the patch: a copied block, literals, a copy of the finished first sector, copies of the base
example : makePatch a b 40 44 16 64 =
    blkHdr 0 12 ++ [0x7F#8, 0x7F#8, 0x7F#8, 0x7F#8, 0x7F#8, 0x7F#8, 0x7F#8, 0x7F#8] ++
    [0x7F#8, 0x7F#8, 0x7F#8, 0x7F#8, 0x7F#8, 0x7F#8, 0x7F#8, 0x7F#8] ++ blkHdr 0 12 ++ blkHdr 33 6 ++
    [20#8, 27#8, 34#8, 41#8, 48#8, 55#8] := by decide +kernel

end DeltaDemo

/-! ## Violations -/

theorem extA_const {z : Byte} {sizeA ss : Nat} (hs : sizeA ≤ ss) : ∀ n k, k < sizeA → sizeA ≤ n + k →
    extA (fun _ => z) (fun _ => z) sizeA ss 0 n k k = sizeA - 1 - k := by
  intro n
  induction n with
  | zero => intro k h1 h2; omega
  | succ n ih =>
    intro k h1 h2
    unfold extA
    rw [if_pos rfl]
    split
    · omega
    · rename_i h3
      rw [if_neg (by
        rw [Nat.zero_div, Nat.div_eq_of_lt (by omega)]
        omega)]
      rw [ih (k + 1) (by omega) (by omega)]
      omega

theorem scanA_hit {a b : Mem} {sizeA off n pa : Nat} (h : pa + 6 ≤ sizeA) (he : eq6 a b pa off = true) :
    scanA a b sizeA off (n + 1) pa = some pa := by
  unfold scanA
  rw [if_pos (by omega), if_neg (by omega), if_pos he]

/-- The patch between two identical constant images of one sector. -/
theorem makePatch_large {z : Byte} (hz : z ≠ ESC) {len N : Nat} (hl : 13 ≤ len) (hN : 8 ≤ N) :
    makePatch (fun _ => z) (fun _ => z) N N N len = blkHdr 0 ((N - 1) % 65536) ++ [z] := by
  have hstep : diffStep (fun _ => z) (fun _ => z) N N N 0 = (blkHdr 0 ((N - 1) % 65536), N - 1) := by
    unfold diffStep
    have h1 : (if N - 0 % N < 6 then none else
        scanA (fun _ => z) (fun _ => z) N 0 (N + 1) (0 / N * N)) = some 0 := by
      rw [if_neg (by rw [Nat.zero_mod]; omega), Nat.zero_div, Nat.zero_mul]
      exact scanA_hit (by omega) (by simp [eq6])
    dsimp only
    rw [h1]
    dsimp only
    rw [extA_const (Nat.le_refl _) (N + 1) 6 (by omega) (by omega),
      show 6 + (N - 1 - 6) = N - 1 by omega]
  have hlb : ∀ m, (blkHdr 0 m).length = 6 := fun m => rfl
  have hmain : diffMain (fun _ => z) (fun _ => z) N N N len (N + 1) 0 [] =
      (N - 1, blkHdr 0 ((N - 1) % 65536)) := by
    obtain ⟨M, rfl⟩ : ∃ M, N = M + 1 := ⟨N - 1, by omega⟩
    unfold diffMain
    rw [if_pos ⟨by omega, by simp; omega⟩, hstep]
    unfold diffMain
    rw [if_neg (by omega), List.nil_append]
  have htail : diffTail (fun _ => z) N len (N + 1) (N - 1) (blkHdr 0 ((N - 1) % 65536)) =
      (N, blkHdr 0 ((N - 1) % 65536) ++ [z]) := by
    obtain ⟨M, rfl⟩ : ∃ M, N = M + 1 := ⟨N - 1, by omega⟩
    unfold diffTail
    rw [if_pos ⟨by rw [hlb]; omega, by omega⟩]
    unfold diffTail
    rw [if_neg (by omega), litBytes, if_neg hz]
    rfl
  have hd : wbDiff (fun _ => z) (fun _ => z) N N N len 0 = (N, blkHdr 0 ((N - 1) % 65536) ++ [z]) := by
    unfold wbDiff
    rw [if_neg (by omega)]
    dsimp only
    rw [hmain, htail]
  have hd2 : wbDiff (fun _ => z) (fun _ => z) N N N len N = (N, []) := by
    unfold wbDiff
    rw [if_pos (by omega)]
  obtain ⟨M, hM⟩ : ∃ M, N = M + 1 := ⟨N - 1, by omega⟩
  unfold makePatch diffAll
  dsimp only
  rw [hd]
  rw [if_neg (by simp)]
  dsimp only
  suffices h : diffAll (fun _ => z) (fun _ => z) N N N len N N = [] by rw [h, List.append_nil]
  conv => lhs; arg 7; rw [hM]
  unfold diffAll
  dsimp only
  rw [hd2, if_pos rfl]

/-- Violation of C20: with sectors of 128 KiB (as on STM32H7), the length of a match does not fit into
the 16-bit `match_len`. The patch between two identical images of 128 KiB yields 64 KiB of the
image, and erased flash behind it. -/
theorem delta_large_sector {len bk : Nat} (hl : 13 ≤ len) (h6 : 6 ≤ bk) (hdvd : bk ∣ 131072) :
    ∃ c m, patchSectors (makePatch (fun _ => 0#8) (fun _ => 0#8) 131072 131072 131072 len) bk 131072 131072 1 0
      patchInit (fun _ => 0#8) = some (c, m) ∧ m 65536 ≠ 0#8 := by
  have key : ∀ N K, N = 131072 → K = 65535 → bk ∣ N →
      ∃ c m, patchSectors (blkHdr 0 K ++ [0#8]) bk N N 1 0
      patchInit (fun _ => 0#8) = some (c, m) ∧ m 65536 ≠ 0#8 := by
    intro N K hN hK hdvd
    have hP : plan (blkHdr 0 K ++ [0#8]) = some (blk 0 K ++ [.lit 0#8]) :=
      plan_append (plan_blkHdr (by decide) (by omega)) (by decide +kernel)
    have hlen : (blk 0 K ++ [BSrc.lit 0#8]).length = K + 1 := by
      rw [List.length_append, blk_length]; rfl
    obtain ⟨c', out, e1, e2, e3⟩ := sector_spec (src := fun x => if x < N then some 0#8 else none) (bk := bk)
      (ss := N) h6 hdvd (rem_init hP) (by
        intro x hx
        have hx := List.mem_of_mem_take hx
        rw [List.mem_append] at hx
        rcases hx with hx | hx
        · obtain ⟨k, hk⟩ := List.getElem?_of_mem hx
          obtain ⟨hk1, rfl⟩ := blk_get hk
          simp only [evalB]
          rw [if_pos (by omega)]
          simp
        · simp only [List.mem_singleton] at hx
          subst hx
          simp [evalB])
    have hol : out.length = 65536 := by
      have := congrArg List.length e2
      rw [List.length_map, List.length_map, List.length_take, hlen] at this
      omega
    refine ⟨c', patchMem (fun _ => 0#8) (0 * N) N out, ?_, ?_⟩
    · unfold patchSectors
      rw [e1]
      rfl
    · unfold patchMem
      rw [if_pos (by omega), List.getD_eq_getElem?_getD, List.getElem?_eq_none (by omega)]
      simp
  rw [makePatch_large (by decide) hl (by decide)]
  exact key 131072 ((131072 - 1) % 65536) rfl (by decide) hdvd

/-- Violation of C20: the header of a block at offset `0x7F0000` to `0x7FFFFF` is `7F 7F ...`, which
means a literal `7F` and four more literal bytes. -/
theorem delta_offset_7f : plan (blkHdr 0x7F0000 0x00FF) =
    some [.lit 0x7F#8, .lit 0#8, .lit 0#8, .lit 0#8, .lit 0xFF#8] := by
  decide +kernel

/-- The encoder emits such headers: two identical images, block at the beginning of the sector
`0x7F0000`. -/
theorem delta_offset_7f_emitted : ∃ n e, diffStep (fun _ => 0#8) (fun _ => 0#8) 0x800000 0x800000 1024 0x7F0000 =
    (blkHdr 0x7F0000 n, 0x7F0000 + 6 + e) := by
  have h : ∀ S N T, N + 6 ≤ S → 6 ≤ T → N % T = 0 → ∃ n e, diffStep (fun _ => 0#8) (fun _ => 0#8) S S T N =
      (blkHdr N n, N + 6 + e) := by
    intro S N T h1 h2 h3
    unfold diffStep
    have h4 : N / T * T = N := Nat.div_mul_cancel (Nat.dvd_of_mod_eq_zero h3)
    have h5 : (if T - N % T < 6 then none else
        scanA (fun _ => 0#8) (fun _ => 0#8) S N (S + 1) (N / T * T)) = some N := by
      rw [if_neg (by omega), h4]
      exact scanA_hit h1 (by simp [eq6])
    dsimp only
    rw [h5]
    exact ⟨_, _, rfl⟩
  exact h 0x800000 0x7F0000 1024 (by decide) (by decide) (by decide)

/-- Another deviation: the extension of a match is not limited to the new image (`src_b` is read
behind its end), so the patched image may be longer than the new one: here the new image has 20 bytes
and the patch stands for 39. -/
theorem delta_output_longer : ∃ P, plan (makePatch (fun _ => 0#8) (fun _ => 0#8) 40 20 64 64) = some P ∧
    P.length = 39 := by
  exact ⟨blk 0 39, by decide +kernel, by decide +kernel⟩

end Verif
