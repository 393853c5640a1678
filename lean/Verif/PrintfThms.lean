import Verif.Printf

/-!
# `uart_printf` (C42)
-/

namespace Verif

/-- A numeral is determined by its value. -/
theorem IsNumeral.unique {base : Nat} (hb : 2 ≤ base) (v : Nat) : ∀ {a b : List Nat}, IsNumeral base a v → IsNumeral base b v →
    a = b := by
  induction v using Nat.strongRecOn with
  | _ v ih =>
    intro a b ha hb'
    rcases Nat.lt_or_ge v base with hv | hv
    · have one : ∀ {a : List Nat}, IsNumeral base a v → a = [v] := by
        intro a ha
        have hl : ¬ 1 < a.length := fun h => by
          have := ha.big (by omega) h (by omega)
          rw [Nat.pow_one] at this
          omega
        match a, ha, hl with
        | [], ha, _ => exact absurd rfl ha.ne
        | [d], ha, _ =>
          have := ha.val
          unfold digitsVal at this
          simp at this
          rw [this]
        | _ :: _ :: _, _, hl => simp at hl
      rw [one ha, one hb']
    · have split : ∀ {a : List Nat}, IsNumeral base a v → ∃ i, a = i ++ [v % base] ∧ IsNumeral base i (v / base) := by
        intro a ha
        have hl : 1 < a.length := by
          rcases Nat.lt_or_ge 1 a.length with h | h
          · exact h
          · have := ha.small
            have h2 := Nat.pow_le_pow_right (n := base) (by omega) h
            rw [Nat.pow_one] at h2
            omega
        rcases List.eq_nil_or_concat a with h | ⟨i, l, h⟩
        · exact absurd h ha.ne
        · rw [List.concat_eq_append] at h
          subst h
          have hv := ha.val
          rw [digitsVal_append] at hv
          have hl1 := ha.lt l (by simp)
          have hm : v % base = l := by
            rw [← hv, Nat.add_comm, Nat.add_mul_mod_self_left, Nat.mod_eq_of_lt hl1]
          have hd : v / base = digitsVal base i := by
            rw [← hv, Nat.add_comm, Nat.add_mul_div_left _ _ (by omega), Nat.div_eq_of_lt hl1, Nat.zero_add]
          refine ⟨i, by rw [hm], hd.symm, fun d h => ha.lt d (by simp [h]), ?_, ?_⟩
          · rintro rfl
            simp at hl
          · intro h
            have := ha.lead (by
              cases i with
              | nil => simp at h
              | cons x i => simpa using h)
            have := congrArg List.length this
            simp at this
            subst this
            simp at hl
      obtain ⟨i, h1, h2⟩ := split ha
      obtain ⟨j, h3, h4⟩ := split hb'
      rw [h1, h3, ih (v / base) (Nat.div_lt_self (by omega) hb) h2 h4]

/-! ## Specification: directives -/

/-- What a format consists of. `w` is 0 (no padding) or a number of digits. -/
inductive Dir where
  | lit (c : Byte)
  | pct
  | dec (k : Byte) (w : Nat)
  | hex (w : Nat)
  | ptr
  | str
  | chr

/-- Padding flags: `0` and one digit. -/
def widthText (w : Nat) : List Byte := if w = 0 then [] else [48, BitVec.ofNat 8 (48 + w)]

/-- The format that denotes a directive. -/
def Dir.text : Dir → List Byte
  | .lit c => [c]
  | .pct => [0x25, 0x25]
  | .dec k w => 0x25 :: widthText w ++ [k]
  | .hex w => 0x25 :: widthText w ++ [0x78]
  | .ptr => [0x25, 0x70]
  | .str => [0x25, 0x73]
  | .chr => [0x25, 0x63]

/-- The text that a format and arguments should produce. -/
inductive Prints : List Dir → List FmtArg → List Byte → Prop where
  | nil (args) : Prints [] args []
  | lit {ds args t} (c : Byte) : Prints ds args t → Prints (.lit c :: ds) args (c :: t)
  | pct {ds args t} : Prints ds args t → Prints (.pct :: ds) args (0x25 :: t)
  | dec {ds args t k w n nds} : IsNumeral 10 nds (Int.natAbs n) → Prints ds args t →
      Prints (.dec k w :: ds) (.int n :: args) (signText (decide (n < 0)) ++ numText w nds ++ t)
  | hex {ds args t w n nds} : IsNumeral 16 nds (n % 4294967296).toNat → Prints ds args t →
      Prints (.hex w :: ds) (.int n :: args) (numText w nds ++ t)
  | ptr {ds args t n nds} : IsNumeral 16 nds (n % 4294967296).toNat → Prints ds args t →
      Prints (.ptr :: ds) (.int n :: args) (0x30 :: 0x78 :: numText 0 nds ++ t)
  | str {ds args t} (s : List Byte) : Prints ds args t → Prints (.str :: ds) (.str s :: args) (s ++ t)
  | chr {ds args t} (n : Int) : Prints ds args t → Prints (.chr :: ds) (.int n :: args) (BitVec.ofInt 8 n :: t)

/-- Formats covered: literal characters other than `%` and the terminator, conversions `d`, `i`, `u`, one-digit widths. -/
def Dir.OK (L : Nat) : Dir → Prop
  | .lit c => c ≠ 0x25 ∧ c ≠ 0
  | .dec k w => (k = 0x64 ∨ k = 0x69 ∨ k = 0x75) ∧ w ≤ 9 ∧ w ≤ 2 * L
  | .hex w => w ≤ 9
  | _ => True

/-- Numbers that `uart_printf` can print in decimal: not the smallest one, and not too long for the 9-byte buffer with 32-bit `long`. -/
def FmtArg.OK (L : Nat) : FmtArg → Prop
  | .int n => -2147483648 < n ∧ n < 2147483648 ∧ (8 ≤ L ∨ -100000000 < n ∧ n < 1000000000)
  | .str _ => True

/-! ## Proof -/

theorem fmtFlags_width {w : Nat} (hw : w ≤ 9) (k : Byte) (hk : ¬ (48 ≤ k.toNat ∧ k.toNat ≤ 57)) (hk2 : ¬ (k = 0x6C ∨ k = 0x7A))
    (f : List Byte) : fmtFlags (widthText w ++ k :: f) false 0 = some (decide (w ≠ 0), w, k :: f) := by
  unfold widthText
  by_cases h : w = 0
  · subst h
    simp only [if_true, List.nil_append]
    unfold fmtFlags
    rw [if_neg hk, if_neg hk2]
    rfl
  · simp only [h, if_false, List.cons_append, List.nil_append]
    have ht : (BitVec.ofNat 8 (48 + w)).toNat = 48 + w := by
      rw [BitVec.toNat_ofNat]
      exact Nat.mod_eq_of_lt (by omega)
    unfold fmtFlags
    rw [if_pos (by decide), if_neg (by omega)]
    unfold fmtFlags
    rw [if_pos (by rw [ht]; omega), if_neg (by decide), ht]
    unfold fmtFlags
    rw [if_neg hk, if_neg hk2]
    have hz : ((false || (48#8 == 48)) || BitVec.ofNat 8 (48 + w) == 48) = decide (w ≠ 0) := by
      rw [show (false || (48#8 == 48)) = true from rfl, Bool.true_or]
      simp [h]
    have hw' : (0 * 256 + ((48 : Byte).toNat - 48)) * 256 + (48 + w - 48) = w := by
      rw [show (48 : Byte).toNat - 48 = 0 from rfl]
      omega
    rw [hw']
    exact congrArg (fun z => some (z, w, k :: f)) hz

theorem fmtConv_dec (L : Nat) {k : Byte} (hk : k = 0x64 ∨ k = 0x69 ∨ k = 0x75) (z : Bool) (w : Nat) (n : Int) (args : List FmtArg) :
    fmtConv L k z w (.int n :: args) = (writenum L n 10 z w).map (·, args) := by
  rcases hk with h | h | h <;> subst h <;> rfl

theorem fmtConv_hex (L : Nat) (z : Bool) (w : Nat) (n : Int) (args : List FmtArg) :
    fmtConv L 0x78 z w (.int n :: args) = (writenum L n 16 z w).map (·, args) := rfl

theorem padWidth_small {B w : Nat} (h0 : w ≠ 0) (hw : w ≤ B) : padWidth B w = w := by
  unfold padWidth
  dsimp only
  rw [if_neg h0, if_neg (by omega)]

theorem vprintf_conv (L : Nat) (f : List Byte) (args args' : List FmtArg) (k : Byte) (z : Bool) (w : Nat)
    (f' : List Byte) (t t' : List Byte) (h1 : fmtFlags f false 0 = some (z, w, k :: f'))
    (h2 : fmtConv L k z w args = some (t, args')) (h3 : vprintf L f' args' = some t') :
    vprintf L (0x25 :: f) args = some (t ++ t') := by
  rw [vprintf]
  rw [if_neg (by simp)]
  simp only [Option.bind_eq_bind, h1, Option.bind_some, h2, h3]

theorem writenum_hexw (L : Nat) (hL : 4 ≤ L) (hL2 : L < 1000) (n : Int) (w : Nat) (hw : w ≤ 9) :
    ∃ nds, IsNumeral 16 nds (n % 4294967296).toNat ∧ writenum L n 16 (decide (w ≠ 0)) w = some (numText w nds) := by
  obtain ⟨nds, h1, h2⟩ := writenum_hex L hL hL2 n (decide (w ≠ 0)) w
  refine ⟨nds, h1, ?_⟩
  rw [h2]
  by_cases h : w = 0
  · subst h; rfl
  · simp only [h, ne_eq, not_false_iff, decide_true, if_true]
    rw [padWidth_small h (by omega)]

theorem writenum_decw (L : Nat) (hL : 4 ≤ L) (hL2 : L < 1000) (n : Int) (hn : FmtArg.OK L (.int n)) (w : Nat) (hw : w ≤ 9)
    (hw2 : w ≤ 2 * L) :
    ∃ nds, IsNumeral 10 nds n.natAbs ∧
      writenum L n 10 (decide (w ≠ 0)) w = some (signText (decide (n < 0)) ++ numText w nds) := by
  obtain ⟨h1, h2, h3⟩ := hn
  obtain ⟨nds, h4, h5, _⟩ := writenum_dec_partial L hL2 n h1 h2 (decide (w ≠ 0)) w
  refine ⟨nds, h4, ?_⟩
  have hlen : (if n < 0 then 1 else 0) + nds.length ≤ 2 * L + 1 := by
    rcases h3 with h3 | h3
    · have : nds.length ≤ 10 := by
        rcases Nat.lt_or_ge 10 nds.length with h | h
        · have := h4.big (by omega) h (by omega)
          have h10 : (10 : Nat) ^ 10 = 10000000000 := by decide
          omega
        · exact h
      split <;> omega
    · by_cases hn : n < 0
      · rw [if_pos hn]
        rcases Nat.lt_or_ge 8 nds.length with h | h
        · have := h4.big (by omega) h (by omega)
          have h8 : (10 : Nat) ^ 8 = 100000000 := by decide
          omega
        · omega
      · rw [if_neg hn]
        rcases Nat.lt_or_ge 9 nds.length with h | h
        · have := h4.big (by omega) h (by omega)
          have h8 : (10 : Nat) ^ 9 = 1000000000 := by decide
          omega
        · omega
  have := h5 hlen (fun hz => by
    have hw0 : w ≠ 0 := by simpa using hz
    rw [padWidth_small hw0 (by omega)]
    split <;> omega)
  rw [this]
  by_cases h : w = 0
  · subst h; rfl
  · simp only [h, ne_eq, not_false_iff, decide_true, if_true]
    rw [padWidth_small h (by omega)]

/-- **`uart_printf` prints what its format says.** Missing: the smallest number, long numbers with 32-bit `long`
(`writenum_dec_overflow`), widths of two digits (`printf_wide`), and unsigned numbers from 2^31 on, which come out negative (`printf_unsigned`). -/
theorem printf_partial (L : Nat) (hL : 4 ≤ L) (hL2 : L < 1000) {ds : List Dir} {args : List FmtArg} {t : List Byte}
    (h : Prints ds args t) : (∀ d ∈ ds, d.OK L) → (∀ a ∈ args, a.OK L) →
    vprintf L (ds.flatMap Dir.text) args = some t := by
  induction h with
  | nil args => intro _ _; rw [List.flatMap_nil, vprintf]
  | @lit ds args t c _ ih =>
    intro hd ha
    rw [List.flatMap_cons]
    show vprintf L (c :: ds.flatMap Dir.text) args = _
    rw [vprintf, if_pos (hd (.lit c) (by simp)).1, ih (fun d h => hd d (by simp [h])) ha]
    rfl
  | @pct ds args t _ ih =>
    intro hd ha
    rw [List.flatMap_cons]
    exact vprintf_conv L (0x25 :: ds.flatMap Dir.text) args args 0x25 false 0 _ [0x25] t rfl rfl
      (ih (fun d h => hd d (by simp [h])) ha)
  | @dec ds args t k w n nds hn _ ih =>
    intro hd ha
    obtain ⟨hk, hw, hw2⟩ := hd (.dec k w) (by simp)
    obtain ⟨nds', h1, h2⟩ := writenum_decw L hL hL2 n (ha (.int n) (by simp)) w hw hw2
    rw [hn.unique (by omega) _ h1]
    rw [List.flatMap_cons, show Dir.text (.dec k w) = 0x25 :: (widthText w ++ [k]) from rfl]
    rw [List.cons_append, List.append_assoc]
    refine vprintf_conv L _ _ args k _ w _ _ t (fmtFlags_width hw k ?_ ?_ _) ?_
      (ih (fun d h => hd d (by simp [h])) (fun a h => ha a (by simp [h])))
    · rcases hk with h | h | h <;> subst h <;> decide
    · rcases hk with h | h | h <;> subst h <;> decide
    · rw [fmtConv_dec L hk, h2]
      rfl
  | @hex ds args t w n nds hn _ ih =>
    intro hd ha
    have hw : w ≤ 9 := hd (.hex w) (by simp)
    obtain ⟨nds', h1, h2⟩ := writenum_hexw L hL hL2 n w hw
    rw [hn.unique (by omega) _ h1]
    rw [List.flatMap_cons, show Dir.text (.hex w) = 0x25 :: (widthText w ++ [0x78]) from rfl]
    rw [List.cons_append, List.append_assoc]
    refine vprintf_conv L _ _ args 0x78 _ w _ _ t (fmtFlags_width hw _ (by decide) (by decide) _) ?_
      (ih (fun d h => hd d (by simp [h])) (fun a h => ha a (by simp [h])))
    rw [fmtConv_hex, h2]
    rfl
  | @ptr ds args t n nds hn _ ih =>
    intro hd ha
    obtain ⟨nds', h1, h2⟩ := writenum_hexw L hL hL2 n 0 (by omega)
    rw [hn.unique (by omega) _ h1]
    rw [List.flatMap_cons, show Dir.text .ptr = 0x25 :: (widthText 0 ++ [0x70]) from rfl]
    rw [List.cons_append, List.append_assoc]
    refine vprintf_conv L _ _ args 0x70 _ 0 _ (0x30 :: 0x78 :: numText 0 nds') t (fmtFlags_width (by omega) _ (by decide) (by decide) _) ?_
      (ih (fun d h => hd d (by simp [h])) (fun a h => ha a (by simp [h])))
    have h3 : writenum L n 16 false 0 = some (numText 0 nds') := h2
    unfold fmtConv
    simp [h3]
  | @str ds args t s _ ih =>
    intro hd ha
    rw [List.flatMap_cons]
    exact vprintf_conv L (0x73 :: ds.flatMap Dir.text) (.str s :: args) args 0x73 false 0 _ s t rfl rfl
      (ih (fun d h => hd d (by simp [h])) (fun a h => ha a (by simp [h])))
  | @chr ds args t n _ ih =>
    intro hd ha
    rw [List.flatMap_cons]
    exact vprintf_conv L (0x63 :: ds.flatMap Dir.text) (.int n :: args) args 0x63 false 0 _ [BitVec.ofInt 8 n] t rfl rfl
      (ih (fun d h => hd d (by simp [h])) (fun a h => ha a (by simp [h])))

/-! ## Findings -/

/-- **Unsigned numbers from 2^31 on are printed as negative numbers**: `u` is treated as `d`. `n` is the number as passed, its bit
pattern read as an `int`. -/
theorem printf_unsigned (n : Nat) (h1 : 2147483648 < n) (h2 : n < 4294967296) :
    ∃ t, vprintf 8 [0x25, 0x75] [.int ((n : Int) - 4294967296)] = some (0x2D :: t) := by
  obtain ⟨nds, h3, h4⟩ := writenum_decw 8 (by omega) (by omega) ((n : Int) - 4294967296) ⟨by omega, by omega, .inl (by omega)⟩ 0
    (by omega) (by omega)
  have := vprintf_conv 8 [0x75] [.int ((n : Int) - 4294967296)] [] 0x75 false 0 [] _ [] rfl
    (by rw [fmtConv_dec 8 (by simp)]; exact Option.map_eq_some_iff.2 ⟨_, h4, rfl⟩) (by rw [vprintf])
  rw [this]
  refine ⟨numText 0 nds, ?_⟩
  have : decide ((n : Int) - 4294967296 < 0) = true := by simp; omega
  rw [this]
  simp [signText]

/-- **Widths of two digits are misread**: `%010x` pads to 17 characters (64-bit `long`) instead of 10. -/
theorem printf_wide (n : Int) : ∃ nds, IsNumeral 16 nds (n % 4294967296).toNat ∧
    vprintf 8 [0x25, 0x30, 0x31, 0x30, 0x78] [.int n] = some (numText 17 nds) := by
  obtain ⟨nds, h1, h2⟩ := writenum_hex 8 (by omega) (by omega) n true 256
  refine ⟨nds, h1, ?_⟩
  have := vprintf_conv 8 [0x30, 0x31, 0x30, 0x78] [.int n] [] 0x78 true 256 [] _ [] (by decide +kernel)
    (by rw [fmtConv_hex]; exact Option.map_eq_some_iff.2 ⟨_, h2, rfl⟩) (by rw [vprintf])
  rw [this]
  rw [List.append_nil]
  rfl

/-- **A format that ends with `%`** makes `uart_printf` read behind the format. -/
theorem printf_trailing_percent (L : Nat) (args : List FmtArg) (f : List Byte) (hf : ∀ c ∈ f, c ≠ 0x25) :
    vprintf L (f ++ [0x25]) args = none := by
  induction f with
  | nil =>
    rw [List.nil_append, vprintf, if_neg (by simp)]
    rfl
  | cons c f ih =>
    rw [List.cons_append, vprintf, if_pos (hf c (by simp)), ih (fun x h => hf x (by simp [h]))]
    rfl

/-- The smallest number: `-num` is undefined. -/
theorem printf_int_min (L : Nat) (z : Bool) (maxd : Nat) : writenum L (-2147483648) 10 z maxd = none := by
  unfold writenum
  simp

/-- **Padding of a negative number to the size of the buffer** writes behind the buffer: e.g. `%09d` with 32-bit `long`. -/
theorem printf_pad_overflow (L : Nat) (num : Int) (hn : num < 0) (hn2 : -2147483648 < num) (maxd : Nat) (hm : 2 * L + 1 ≤ maxd) :
    writenum L num 10 true maxd = none := by
  unfold writenum
  dsimp only
  rw [if_pos ⟨rfl, hn⟩, if_neg (by omega)]
  have hBUF : BUF = 64 := rfl
  have hst : (numBuf (2 * L + 1)).st BUF 45 = some (fun q => if q = BUF then some 45 else numBuf (2 * L + 1) q) :=
    CMem.st_some (by rw [numBuf_acc, decide_eq_true_eq]; omega) _
  rw [hst]
  simp only [Option.bind_eq_bind, Option.bind_some]
  have hw : padWidth (2 * L + 1) maxd = 2 * L + 1 := by
    unfold padWidth
    dsimp only
    rw [if_neg (c := maxd = 0) (by omega)]
    split <;> omega
  unfold wnRest wnPad
  rw [hw, if_pos rfl]
  have hbad : ∀ (k a : Nat) (mm : CMem), a + k = BUF + (2 * L + 1) + 1 → 0 < k → mm (BUF + (2 * L + 1)) = none →
      cMemset mm a 48 k = none := by
    intro k
    induction k with
    | zero => intro a mm _ h2 _; omega
    | succ k ih =>
      intro a mm h1 h2 h3
      unfold cMemset
      cases hs : mm.st a 48 with
      | none => rfl
      | some mm' =>
        have hsome : (mm a).isSome := by
          unfold CMem.st at hs
          split at hs
          · assumption
          · cases hs
        have hane : a ≠ BUF + (2 * L + 1) := by
          rintro rfl
          rw [h3] at hsome
          cases hsome
        rw [CMem.st_some hsome] at hs
        cases hs
        exact ih (a + 1) _ (by omega) (by omega) (by rw [if_neg (by omega)]; exact h3)
  rw [hbad (2 * L + 1) (BUF + 1) _ (by omega) (by omega) (by
    rw [if_neg (by omega)]
    unfold numBuf
    rw [if_neg (by omega)])]
  rfl

/-! ## Examples -/

namespace PrintDemo

theorem n1234 : IsNumeral 10 [1, 2, 3, 4] 1234 := ⟨rfl, by decide, by simp, by decide⟩
theorem nff : IsNumeral 16 [15, 15] 255 := ⟨rfl, by decide, by simp, by decide⟩

/-- `"x=%d %04x%%"` with -1234 and 255. -/
example : vprintf 4 [0x78, 0x3D, 0x25, 0x64, 0x20, 0x25, 0x30, 0x34, 0x78, 0x25, 0x25] [.int (-1234), .int 255] =
    some [0x78, 0x3D, 0x2D, 0x31, 0x32, 0x33, 0x34, 0x20, 0x30, 0x30, 0x46, 0x46, 0x25] :=
  printf_partial 4 (by omega) (by omega)
    (ds := [.lit 0x78, .lit 0x3D, .dec 0x64 0, .lit 0x20, .hex 4, .pct])
    (.lit _ (.lit _ (.dec (n := -1234) n1234 (.lit _ (.hex (n := 255) nff (.pct (.nil [])))))))
    (by intro d hd; simp at hd; rcases hd with h | h | h | h | h | h <;> subst h <;> simp [Dir.OK])
    (by intro a h; simp at h; rcases h with h | h <;> subst h <;> simp [FmtArg.OK])

example : writenum 4 1000000000 10 false 0 = none := writenum_dec_overflow _ (by omega) (by omega) _ _ (by omega)

example : ∃ t, vprintf 8 [0x25, 0x75] [.int (-1)] = some (0x2D :: t) := printf_unsigned 4294967295 (by omega) (by omega)

end PrintDemo

end Verif
