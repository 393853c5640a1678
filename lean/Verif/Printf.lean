import Verif.CStringThms

/-!
# Number formatting: `/repo/src/string.c:309-425` (C42)

The local buffer `buf` of `uart_writenum` is the only memory that may be accessed. `memset` and `memmove` are those of `Verif.CString`.
The result is the text given to `uart_write`, or `none` for undefined behaviour.
-/

namespace Verif

/-- Address of the local buffer. -/
def BUF : Nat := 64

/-- Buffer of `B` bytes, cleared by `memset`, `/repo/src/string.c:313,321`. -/
def numBuf (B : Nat) : CMem := fun a => if BUF ≤ a ∧ a < BUF + B then some 0 else none

/-- `kDigitLut`, `/repo/src/string.c:314`. -/
def digitChar (d : Nat) : Byte := if d < 10 then BitVec.ofNat 8 (48 + d) else BitVec.ofNat 8 (55 + d)

/-- Loop over the digits, `/repo/src/string.c:329-333`. -/
def wnDigits (B base : Nat) (m : CMem) (val sz : Nat) : Option (CMem × Nat) := do
  let m ← m.st (BUF + B - sz - 1) (digitChar (val % base))
  if val / base > 0 then wnDigits B base m (val / base) (sz + 1) else some (m, sz + 1)
partial_fixpoint

/-- Number of digits to pad to, `/repo/src/string.c:317-320`. -/
def padWidth (B maxd : Nat) : Nat :=
  let maxd := if maxd = 0 then 8 else maxd
  if maxd > B then B else maxd

/-- Zero padding, `/repo/src/string.c:326-328`. -/
def wnPad (zeropad : Bool) (w i : Nat) (m : CMem) : Option CMem :=
  if zeropad then cMemset m (BUF + i) 48 w else some m

/-- Position of the first digit, `/repo/src/string.c:334-336`. -/
def wnPos (zeropad : Bool) (w i sz : Nat) : Nat := if zeropad && sz < w then i + (w - sz) else i

/-- The rest of `uart_writenum` after the sign, `/repo/src/string.c:326-339`. -/
def wnRest (B base : Nat) (zeropad : Bool) (w : Nat) (m : CMem) (i val : Nat) : Option (List Byte) := do
  let m ← wnPad zeropad w i m
  let (m, sz) ← wnDigits B base m val 0
  let j := wnPos zeropad w i sz
  let m ← cMemmove none m (BUF + j) (BUF + B - sz) sz
  m.ldN BUF (j + sz)

/-- `uart_writenum`, `/repo/src/string.c:310-340`. `L` is `sizeof(unsigned long)`; `num` is a 32-bit `int`, `base` 10 or 16, `maxd` is
not negative (see `fmtFlags`). `-num` overflows for the smallest number. -/
def writenum (L : Nat) (num : Int) (base : Nat) (zeropad : Bool) (maxd : Nat) : Option (List Byte) :=
  let B := 2 * L + 1
  let w := padWidth B maxd
  if base = 10 ∧ num < 0 then
    if num = -2147483648 then none
    else do
      let m ← (numBuf B).st BUF 45
      wnRest B base zeropad w m 1 (-num).toNat
  else wnRest B base zeropad w (numBuf B) 0 (num % 4294967296).toNat

/-- An argument of `uart_printf`. -/
inductive FmtArg where
  | int (n : Int)
  | str (s : List Byte)

/-- Flags and width, `/repo/src/string.c:355-377`: the width is shifted by 8 bits for each digit; overflow of the `int` is undefined. -/
def fmtFlags : List Byte → Bool → Nat → Option (Bool × Nat × List Byte)
  | [], z, w => some (z, w, [])
  | c :: f, z, w =>
    if 48 ≤ c.toNat ∧ c.toNat ≤ 57 then
      if w * 256 ≥ 2147483648 then none
      else fmtFlags f (z || c == 48) (w * 256 + (c.toNat - 48))
    else if c = 0x6C ∨ c = 0x7A then fmtFlags f z w
    else some (z, w, c :: f)

/-- The conversions, `/repo/src/string.c:379-414`: output and remaining arguments. A missing or wrong argument is undefined. -/
def fmtConv (L : Nat) (k : Byte) (z : Bool) (w : Nat) (args : List FmtArg) : Option (List Byte × List FmtArg) :=
  if k = 0x25 then some ([0x25], args)
  else if k = 0x75 ∨ k = 0x69 ∨ k = 0x64 then
    match args with
    | .int n :: args => (writenum L n 10 z w).map (·, args)
    | _ => none
  else if k = 0x70 then
    match args with
    | .int n :: args => (writenum L n 16 z w).map (fun t => (0x30 :: 0x78 :: t, args))
    | _ => none
  else if k = 0x78 then
    match args with
    | .int n :: args => (writenum L n 16 z w).map (·, args)
    | _ => none
  else if k = 0x73 then
    match args with
    | .str s :: args => some (s, args)
    | _ => none
  else if k = 0x63 then
    match args with
    | .int n :: args => some ([BitVec.ofInt 8 n], args)
    | _ => none
  else some ([], args)

/-- `uart_vprintf`, `/repo/src/string.c:342-417`. The list is the format up to its terminator. If the format ends after `%` and flags,
the pointer is moved behind the terminator (415) and the loop goes on there: undefined. -/
def vprintf (L : Nat) (fmt : List Byte) (args : List FmtArg) : Option (List Byte) :=
  match fmt with
  | [] => some []
  | c :: f =>
    if c ≠ 0x25 then do
      let t ← vprintf L f args
      some (c :: t)
    else do
      let (z, w, f') ← fmtFlags f false 0
      match f' with
      | [] => none
      | k :: f'' => do
        let (t, args) ← fmtConv L k z w args
        let t' ← vprintf L f'' args
        some (t ++ t')
partial_fixpoint

/-! ## Specification -/

/-- Value of a sequence of digits, most significant first. -/
def digitsVal (base : Nat) (ds : List Nat) : Nat := ds.foldl (fun v d => base * v + d) 0

/-- The numeral of a number: at least one digit, no leading zero except for the number 0. -/
structure IsNumeral (base : Nat) (ds : List Nat) (v : Nat) : Prop where
  val : digitsVal base ds = v
  lt : ∀ d ∈ ds, d < base
  ne : ds ≠ []
  lead : ds.head? = some 0 → ds = [0]

/-- Text of a numeral, padded with zeros to `w` characters. -/
def numText (w : Nat) (ds : List Nat) : List Byte := List.replicate (w - ds.length) 48 ++ ds.map digitChar

/-- Text of a signed number. -/
def signText (neg : Bool) : List Byte := if neg then [45] else []

/-! ## Digits -/

theorem digitsVal_append (base : Nat) (ds : List Nat) (d : Nat) :
    digitsVal base (ds ++ [d]) = base * digitsVal base ds + d := by
  unfold digitsVal
  rw [List.foldl_append]
  rfl

theorem foldl_base (base : Nat) (ds : List Nat) : ∀ v,
    base ^ ds.length * v ≤ ds.foldl (fun v d => base * v + d) v := by
  induction ds with
  | nil => intro v; simp
  | cons d ds ih =>
    intro v
    rw [List.foldl_cons, List.length_cons, Nat.pow_succ]
    refine Nat.le_trans ?_ (ih _)
    rw [Nat.mul_assoc]
    exact Nat.mul_le_mul_left _ (Nat.le_add_right _ _)

/-- A numeral with more than `k` digits is at least `base ^ k`. -/
theorem IsNumeral.big {base v k : Nat} {ds : List Nat} (h : IsNumeral base ds v) (hk : 1 ≤ k)
    (hl : k < ds.length) (hb : 0 < base) : base ^ k ≤ v := by
  cases ds with
  | nil => exact absurd rfl h.ne
  | cons d ds =>
    have hd : d ≠ 0 := by
      rintro rfl
      have := h.lead rfl
      simp at this
      subst this
      simp at hl
      omega
    have := foldl_base base ds (base * 0 + d)
    have h2 := h.val
    unfold digitsVal at h2
    rw [List.foldl_cons] at h2
    rw [h2] at this
    rw [Nat.mul_zero, Nat.zero_add] at this
    rw [List.length_cons] at hl
    have h3 : base ^ k ≤ base ^ ds.length := Nat.pow_le_pow_right hb (by omega)
    have h4 : base ^ ds.length * 1 ≤ base ^ ds.length * d := Nat.mul_le_mul_left _ (by omega)
    omega

theorem foldl_lt (base : Nat) (ds : List Nat) : ∀ v, (∀ d ∈ ds, d < base) →
    ds.foldl (fun v d => base * v + d) v < base ^ ds.length * (v + 1) := by
  induction ds with
  | nil => intro v _; simp
  | cons d ds ih =>
    intro v h
    rw [List.foldl_cons, List.length_cons, Nat.pow_succ]
    refine Nat.lt_of_lt_of_le (ih _ (fun x hx => h x (by simp [hx]))) ?_
    rw [Nat.mul_assoc]
    apply Nat.mul_le_mul_left
    have := h d (by simp)
    rw [Nat.mul_add]
    omega

/-- A numeral of `n` digits is below `base ^ n`. -/
theorem IsNumeral.small {base v : Nat} {ds : List Nat} (h : IsNumeral base ds v) : v < base ^ ds.length := by
  have := foldl_lt base ds 0 h.lt
  rw [Nat.zero_add, Nat.mul_one] at this
  rw [← h.val]
  exact this

theorem digitsVal_pos {base : Nat} : ∀ {ds : List Nat} {v}, 0 < v → 0 < base → 0 < ds.foldl (fun v d => base * v + d) v := by
  intro ds
  induction ds with
  | nil => intro v h _; exact h
  | cons d ds ih =>
    intro v h hb
    rw [List.foldl_cons]
    exact ih (by have := Nat.mul_pos hb h; omega) hb

/-- What the loop over the digits does, for every number: its numeral is put right before position `B - sz`; if there is no room
the access is out of bounds. -/
theorem wnDigits_spec {B base : Nat} (hb : 2 ≤ base) (v : Nat) : ∃ ds, IsNumeral base ds v ∧
    ∀ (m : CMem) (sz : Nat), (∀ a, (m a).isSome = decide (BUF ≤ a ∧ a < BUF + B)) → sz ≤ B →
      if ds.length + sz ≤ B then
        ∃ m', wnDigits B base m v sz = some (m', sz + ds.length) ∧
          ∀ q, m' q = if BUF + B - sz - ds.length ≤ q ∧ q < BUF + B - sz
            then (ds[q - (BUF + B - sz - ds.length)]?).map digitChar else m q
      else wnDigits B base m v sz = none := by
  induction v using Nat.strongRecOn with
  | _ v ih =>
    have hst : ∀ (m : CMem) (sz : Nat), (∀ a, (m a).isSome = decide (BUF ≤ a ∧ a < BUF + B)) → sz ≤ B → ∀ b,
        (sz = B → m.st (BUF + B - sz - 1) b = none) ∧
        (sz < B → m.st (BUF + B - sz - 1) b = some (fun q => if q = BUF + B - sz - 1 then some b else m q)) := by
      intro m sz hm hsz b
      constructor
      · intro h
        unfold CMem.st
        rw [hm, if_neg]
        rw [decide_eq_true_eq]
        have : BUF = 64 := rfl
        omega
      · intro h
        apply CMem.st_some
        rw [hm]
        rw [decide_eq_true_eq]
        have : BUF = 64 := rfl
        omega
    rcases Nat.lt_or_ge v base with hv | hv
    · refine ⟨[v], ⟨by unfold digitsVal; simp, by simpa using hv, by simp, by simp⟩, fun m sz hm hsz => ?_⟩
      rw [wnDigits]
      rw [Nat.mod_eq_of_lt hv, Nat.div_eq_of_lt hv]
      rw [List.length_singleton]
      split
      · next h =>
        rw [(hst m sz hm hsz _).2 (by omega)]
        simp only [Option.bind_eq_bind, Option.bind_some]
        rw [if_neg (by omega)]
        refine ⟨_, rfl, fun q => ?_⟩
        have hB : BUF = 64 := rfl
        by_cases e : q = BUF + B - sz - 1
        · rw [if_pos e, if_pos (by omega), e]
          simp
        · rw [if_neg e, if_neg (by omega)]
      · next h =>
        rw [(hst m sz hm hsz _).1 (by omega)]
        rfl
    · have hdiv : v / base < v := Nat.div_lt_self (by omega) hb
      have hpos : 0 < v / base := Nat.div_pos hv (by omega)
      obtain ⟨ds, hn, hd⟩ := ih (v / base) hdiv
      refine ⟨ds ++ [v % base], ⟨?_, ?_, by simp, ?_⟩, fun m sz hm hsz => ?_⟩
      · rw [digitsVal_append, hn.val]
        exact Nat.div_add_mod v base
      · intro d h
        rw [List.mem_append] at h
        rcases h with h | h
        · exact hn.lt d h
        · have : d = v % base := by simpa using h
          rw [this]
          exact Nat.mod_lt _ (by omega)
      · intro h
        have : ds.head? = some 0 := by
          cases ds with
          | nil => exact absurd rfl hn.ne
          | cons d ds => simpa using h
        have h0 := hn.lead this
        have := hn.val
        rw [h0] at this
        unfold digitsVal at this
        simp at this
        omega
      · rw [wnDigits]
        rw [List.length_append, List.length_singleton]
        have hB : BUF = 64 := rfl
        rcases Nat.lt_or_ge sz B with hlt | hge
        · rw [(hst m sz hm hsz _).2 hlt]
          simp only [Option.bind_eq_bind, Option.bind_some]
          rw [if_pos hpos]
          have := hd (fun q => if q = BUF + B - sz - 1 then some (digitChar (v % base)) else m q) (sz + 1) (by
            intro a
            split
            · next h => rw [← hm]; subst h; rw [hm]; simp only [Option.isSome_some]; symm; rw [decide_eq_true_eq]; omega
            · exact hm a) (by omega)
          by_cases hfit : ds.length + (sz + 1) ≤ B
          · rw [if_pos hfit] at this
            rw [if_pos (by omega)]
            obtain ⟨m', h1, h2⟩ := this
            refine ⟨m', ?_, fun q => ?_⟩
            · rw [h1]
              congr 2
              omega
            · rw [h2]
              rw [show BUF + B - (sz + 1) - ds.length = BUF + B - sz - (ds.length + 1) by omega]
              by_cases e1 : BUF + B - sz - (ds.length + 1) ≤ q ∧ q < BUF + B - (sz + 1)
              · rw [if_pos e1, if_pos (by omega), List.getElem?_append_left (by omega)]
              · rw [if_neg e1]
                by_cases e2 : q = BUF + B - sz - 1
                · rw [if_pos e2, if_pos (by omega), List.getElem?_append_right (by omega)]
                  rw [show q - (BUF + B - sz - (ds.length + 1)) - ds.length = 0 by omega]
                  rfl
                · rw [if_neg e2, if_neg (by omega)]
          · rw [if_neg hfit] at this
            rw [if_neg (by omega)]
            exact this
        · rw [if_neg (by omega), (hst m sz hm hsz _).1 (by omega)]
          rfl

/-! ## The text -/

theorem wnPad_spec (z : Bool) (w i B : Nat) (m : CMem) (hm : ∀ a, (m a).isSome = decide (BUF ≤ a ∧ a < BUF + B))
    (hw : z = true → i + w ≤ B) :
    ∃ m', wnPad z w i m = some m' ∧ (∀ a, (m' a).isSome = decide (BUF ≤ a ∧ a < BUF + B)) ∧
      ∀ q, m' q = if z = true ∧ BUF + i ≤ q ∧ q < BUF + i + w then some 48 else m q := by
  unfold wnPad
  cases z
  · exact ⟨m, rfl, hm, fun q => by rw [if_neg (by simp)]⟩
  · have hw := hw rfl
    obtain ⟨m', h1, h2⟩ := memset_exact 48 w m (BUF + i) (fun a ha => by rw [hm, decide_eq_true_eq]; omega)
    refine ⟨m', h1, fun a => ?_, fun q => ?_⟩
    · rw [h2]
      split
      · rw [Option.isSome_some]; symm; rw [decide_eq_true_eq]; omega
      · exact hm a
    · rw [h2]
      simp

/-- The sign is in front; the digits follow, padded with zeros. -/
theorem wnRest_spec {B base : Nat} (hb : 2 ≤ base) (hB : B ≤ 2147483648) (hB1 : 1 ≤ B) (z : Bool) (w : Nat) (pre : List Byte)
    (m : CMem) (hm : ∀ a, (m a).isSome = decide (BUF ≤ a ∧ a < BUF + B)) (hp : Block m BUF pre) (hw : w ≤ B)
    (val : Nat) :
    ∃ ds, IsNumeral base ds val ∧
      (pre.length + ds.length ≤ B → (z = true → pre.length + w ≤ B) →
        wnRest B base z w m pre.length val = some (pre ++ numText (if z then w else 0) ds)) ∧
      (pre.length ≤ 1 → pre.length + ds.length > B → wnRest B base z w m pre.length val = none) := by
  obtain ⟨ds, hn, hd⟩ := wnDigits_spec (B := B) hb val
  have hBUF : BUF = 64 := rfl
  refine ⟨ds, hn, fun hfit hzw => ?_, fun hi hov => ?_⟩
  · obtain ⟨m1, h1, h2, h3⟩ := wnPad_spec z w pre.length B m hm hzw
    have h4 := hd m1 0 h2 (by omega)
    rw [if_pos (by omega)] at h4
    obtain ⟨m2, h5, h6⟩ := h4
    rw [Nat.zero_add] at h5
    rw [Nat.sub_zero] at h6
    have hm2 : ∀ a, BUF ≤ a → a < BUF + B → (m2 a).isSome := by
      intro a ha1 ha2
      rw [h6]
      split
      · next h =>
        rw [Option.isSome_map, List.getElem?_eq_getElem (by omega)]
        rfl
      · rw [h2, decide_eq_true_eq]; omega
    have hj : wnPos z w pre.length ds.length = pre.length + (if z then w else 0) - min ds.length (if z then w else 0) := by
      unfold wnPos
      cases z
      · simp
      · simp only [Bool.true_and, decide_eq_true_eq, if_true]
        split <;> omega
    have hpad : pre.length + (if z then w else 0) ≤ B := by
      cases z
      · simp; omega
      · simpa using hzw rfl
    generalize hj' : wnPos z w pre.length ds.length = j at hj
    have hz0 : z = false → (if z then w else 0) = 0 := by rintro rfl; rfl
    have hz1 : z = true → (if z then w else 0) = w := by rintro rfl; rfl
    generalize (if z then w else 0) = W at *
    obtain ⟨m3, h7, h8⟩ := memmove_exact_partial none (m := m2) (d := BUF + j) (s := BUF + B - ds.length) (n := ds.length)
      (by simp) (fun i hi => hm2 _ (by omega) (by omega)) (fun i hi => hm2 _ (by omega) (by omega)) (by omega)
    obtain ⟨l, h9, h10, h11⟩ := ldN_some (j + ds.length) m3 BUF (fun i hi => by
      rw [h8]
      split
      · exact hm2 _ (by omega) (by omega)
      · exact hm2 _ (by omega) (by omega))
    unfold wnRest
    rw [h1]
    simp only [Option.bind_eq_bind, Option.bind_some]
    rw [h5]
    simp only [Option.bind_some, hj', h7, h9]
    congr 1
    have hlen : l.length = (pre ++ numText W ds).length := by
      rw [h10, List.length_append]
      unfold numText
      rw [List.length_append, List.length_replicate, List.length_map]
      omega
    apply List.ext_getElem?
    intro a
    rcases Nat.lt_or_ge a (j + ds.length) with ha | ha
    · rw [← h11 a ha, h8]
      by_cases e : BUF + j ≤ BUF + a ∧ BUF + a < BUF + j + ds.length
      · rw [if_pos e, h6, if_pos (by omega), List.getElem?_append_right (by omega)]
        unfold numText
        rw [List.getElem?_append_right (by rw [List.length_replicate]; omega), List.length_replicate, List.getElem?_map]
        rw [show BUF + B - ds.length + (BUF + a - (BUF + j)) - (BUF + B - ds.length) = a - pre.length - (W - ds.length) by omega]
      · rw [if_neg e, h6, if_neg (by omega), h3]
        by_cases e2 : a < pre.length
        · rw [if_neg (by omega), List.getElem?_append_left e2]
          exact hp a e2
        · have hzt : z = true := by
            cases z
            · have := hz0 rfl; omega
            · rfl
          have := hz1 hzt
          rw [if_pos ⟨hzt, by omega, by omega⟩, List.getElem?_append_right (by omega)]
          unfold numText
          rw [List.getElem?_append_left (by rw [List.length_replicate]; omega), List.getElem?_replicate, if_pos (by omega)]
    · rw [List.getElem?_eq_none (by omega), List.getElem?_eq_none (by omega)]
  · unfold wnRest
    cases hpd : wnPad z w pre.length m with
    | none => rfl
    | some m1 =>
      simp only [Option.bind_eq_bind, Option.bind_some]
      have hzw : z = true → pre.length + w ≤ B := by
        intro hz
        subst hz
        rcases Nat.lt_or_ge B (pre.length + w) with h | h
        · exfalso
          have hbad : ∀ (k a : Nat) (mm : CMem), a ≤ BUF + B → BUF + B < a + k → (mm (BUF + B)).isSome = false →
              cMemset mm a 48 k = none := by
            intro k
            induction k with
            | zero => intro a mm h1 h2 _; omega
            | succ k ih =>
              intro a mm h1 h2 h3
              unfold cMemset
              cases hs : mm.st a 48 with
              | none => rfl
              | some mm' =>
                have hsome : (mm a).isSome := by
                  unfold CMem.st at hs
                  split at hs
                  · assumption
                  · cases hs
                have hane : a ≠ BUF + B := by
                  rintro rfl
                  rw [h3] at hsome
                  cases hsome
                rw [CMem.st_some hsome] at hs
                cases hs
                refine ih (a + 1) _ (by omega) (by omega) ?_
                rw [if_neg (by omega)]
                exact h3
          unfold wnPad at hpd
          rw [if_pos rfl, hbad w (BUF + pre.length) m (by omega) (by omega) (by rw [hm]; simp)] at hpd
          cases hpd
        · exact h
      obtain ⟨m1', h1, h2, h3⟩ := wnPad_spec z w pre.length B m hm hzw
      rw [h1] at hpd
      cases hpd
      have h4 := hd m1 0 h2 (by omega)
      by_cases hl : ds.length + 0 ≤ B
      · rw [if_pos hl] at h4
        obtain ⟨m2, h5, h6⟩ := h4
        rw [Nat.zero_add] at h5
        rw [Nat.sub_zero] at h6
        rw [h5]
        simp only [Option.bind_some]
        have hds : ds.length = B := by omega
        have hpl : pre.length = 1 := by omega
        have hpos : wnPos z w pre.length ds.length = 1 := by
          unfold wnPos
          rw [if_neg (by
            simp only [Bool.and_eq_true, decide_eq_true_eq]
            intro h
            omega)]
          exact hpl
        rw [hpos, hds]
        have hB0 : 0 < B := by
          have := hn.ne
          cases ds with
          | nil => exact absurd rfl this
          | cons x ds => simp at hds; omega
        have : cMemmove none m2 (BUF + 1) (BUF + B - B) B = none := by
          unfold cMemmove
          rw [if_neg (by omega), if_pos (by omega)]
          have hc : bwdCount B = B := by
            unfold bwdCount
            dsimp only
            rw [show (B + 4294967295) % 4294967296 = B - 1 by omega, if_pos (by omega)]
            omega
          rw [hc]
          obtain ⟨b, rfl⟩ : ∃ b, B = b + 1 := ⟨B - 1, by omega⟩
          unfold copyBwd
          cases hx : m2 (BUF + (b + 1) - (b + 1) + b) with
          | none => rfl
          | some x =>
            simp only [Option.bind_eq_bind, Option.bind_some]
            have : m2.st (BUF + 1 + b) x = none := by
              have h0 : (m2 (BUF + 1 + b)).isSome = false := by
                rw [h6, if_neg (by omega), h2, decide_eq_false_iff_not]
                omega
              unfold CMem.st
              rw [h0]
              rfl
            rw [this]
            rfl
        rw [this]
        rfl
      · rw [if_neg hl] at h4
        rw [h4]
        rfl

theorem numBuf_acc (B : Nat) (a : Nat) : (numBuf B a).isSome = decide (BUF ≤ a ∧ a < BUF + B) := by
  unfold numBuf
  split
  · next h => rw [Option.isSome_some]; symm; rw [decide_eq_true_eq]; exact h
  · next h => rw [Option.isSome_none]; symm; rw [decide_eq_false_iff_not]; exact h

theorem padWidth_le (B maxd : Nat) : padWidth B maxd ≤ B := by
  unfold padWidth
  dsimp only
  generalize (if maxd = 0 then 8 else maxd) = k
  split <;> omega

/-- **Hexadecimal numbers** are printed right, for all numbers, widths and both sizes of `long`; nothing outside of the buffer
is accessed. The sign is not printed: the text is the numeral of the 32-bit pattern. -/
theorem writenum_hex (L : Nat) (hL : 4 ≤ L) (hL2 : L < 1000) (num : Int) (z : Bool) (maxd : Nat) :
    ∃ ds, IsNumeral 16 ds (num % 4294967296).toNat ∧
      writenum L num 16 z maxd = some (numText (if z then padWidth (2 * L + 1) maxd else 0) ds) := by
  obtain ⟨ds, h1, h2, _⟩ := wnRest_spec (B := 2 * L + 1) (base := 16) (by omega) (by omega) (by omega) z (padWidth (2 * L + 1) maxd) []
    (numBuf _) (numBuf_acc _) (fun i hi => by simp at hi) (padWidth_le _ _) (num % 4294967296).toNat
  refine ⟨ds, h1, ?_⟩
  have hlen : ds.length ≤ 8 := by
    rcases Nat.lt_or_ge 8 ds.length with h | h
    · have := h1.big (by omega) h (by omega)
      have h16 : (16 : Nat) ^ 8 = 4294967296 := by decide
      rw [h16] at this
      have : num % 4294967296 < 4294967296 := Int.emod_lt_of_pos _ (by omega)
      omega
    · exact h
  have := h2 (by rw [List.length_nil]; omega) (fun _ => by rw [List.length_nil, Nat.zero_add]; exact padWidth_le _ _)
  unfold writenum
  dsimp only
  rw [if_neg (by omega)]
  exact this

/-- **Decimal numbers**: sign and numeral, padded with zeros, as far as the buffer of `2 * L + 1` bytes is large enough; not
proved for the smallest number, whose negation is undefined, and for texts longer than the buffer (`writenum_dec_overflow`). -/
theorem writenum_dec_partial (L : Nat) (hL2 : L < 1000) (num : Int) (h1 : -2147483648 < num) (h2 : num < 2147483648) (z : Bool)
    (maxd : Nat) :
    ∃ ds, IsNumeral 10 ds num.natAbs ∧
      ((if num < 0 then 1 else 0) + ds.length ≤ 2 * L + 1 →
        (z = true → (if num < 0 then 1 else 0) + padWidth (2 * L + 1) maxd ≤ 2 * L + 1) →
        writenum L num 10 z maxd = some (signText (decide (num < 0)) ++ numText (if z then padWidth (2 * L + 1) maxd else 0) ds)) ∧
      ((if num < 0 then 1 else 0) + ds.length > 2 * L + 1 → writenum L num 10 z maxd = none) := by
  have hBUF : BUF = 64 := rfl
  unfold writenum
  dsimp only
  by_cases hn : num < 0
  · simp only [hn, and_self, if_true, decide_true, signText]
    rw [if_neg (by omega)]
    have hst : (numBuf (2 * L + 1)).st BUF 45 = some (fun q => if q = BUF then some 45 else numBuf (2 * L + 1) q) :=
      CMem.st_some (by rw [numBuf_acc, decide_eq_true_eq]; omega) _
    rw [hst]
    simp only [Option.bind_eq_bind, Option.bind_some]
    obtain ⟨ds, h3, h4, h5⟩ := wnRest_spec (B := 2 * L + 1) (base := 10) (by omega) (by omega) (by omega) z (padWidth (2 * L + 1) maxd) [45]
      (fun q => if q = BUF then some 45 else numBuf (2 * L + 1) q)
      (fun a => by
        split
        · next h => rw [Option.isSome_some]; symm; rw [decide_eq_true_eq]; omega
        · exact numBuf_acc _ a)
      (fun i hi => by
        have : i = 0 := by simpa using hi
        subst this
        rfl) (padWidth_le _ _) (-num).toNat
    refine ⟨ds, ?_, fun ha hb => ?_, fun ha => ?_⟩
    · rwa [show num.natAbs = (-num).toNat by omega]
    · exact h4 ha hb
    · exact h5 (by simp) ha
  · rw [if_neg (by omega)]
    simp only [hn, decide_false, signText, Nat.zero_add]
    obtain ⟨ds, h3, h4, h5⟩ := wnRest_spec (B := 2 * L + 1) (base := 10) (by omega) (by omega) (by omega) z (padWidth (2 * L + 1) maxd) []
      (numBuf _) (numBuf_acc _) (fun i hi => by simp at hi) (padWidth_le _ _) (num % 4294967296).toNat
    refine ⟨ds, ?_, fun ha hb => ?_, fun ha => ?_⟩
    · rwa [show num.natAbs = (num % 4294967296).toNat by omega]
    · exact h4 (by rw [List.length_nil]; omega) (fun hz => by rw [List.length_nil, Nat.zero_add]; exact hb hz)
    · exact h5 (by simp) (by rw [List.length_nil]; omega)

/-- With 64-bit `long` all decimal numbers but the smallest are printed right; with padding, if the width is below 17. -/
theorem writenum_dec_64 (num : Int) (h1 : -2147483648 < num) (h2 : num < 2147483648) (z : Bool) (maxd : Nat)
    (hw : z = true → maxd < 17) :
    ∃ ds, IsNumeral 10 ds num.natAbs ∧
      writenum 8 num 10 z maxd = some (signText (decide (num < 0)) ++
        numText (if z then (if maxd = 0 then 8 else maxd) else 0) ds) := by
  obtain ⟨ds, h3, h4, _⟩ := writenum_dec_partial 8 (by omega) num h1 h2 z maxd
  refine ⟨ds, h3, ?_⟩
  have hlen : ds.length ≤ 10 := by
    rcases Nat.lt_or_ge 10 ds.length with h | h
    · have := h3.big (by omega) h (by omega)
      have h10 : (10 : Nat) ^ 10 = 10000000000 := by decide
      omega
    · exact h
  have hp : z = true → padWidth (2 * 8 + 1) maxd = (if maxd = 0 then 8 else maxd) := by
    intro hz
    have := hw hz
    unfold padWidth
    dsimp only
    rw [if_neg]
    split <;> omega
  have := h4 (by split <;> omega) (fun hz => by
    have h17 := hw hz
    rw [hp hz]
    split <;> split <;> omega)
  rw [this]
  cases z
  · rfl
  · rw [hp rfl]

/-- **Overflow**: with 32-bit `long` the buffer has 9 bytes. Numbers of 10 digits, and negative numbers of 9 digits, make
`uart_writenum` write outside of it. -/
theorem writenum_dec_overflow (num : Int) (h1 : -2147483648 < num) (h2 : num < 2147483648) (z : Bool) (maxd : Nat)
    (h : num ≥ 1000000000 ∨ num ≤ -100000000) : writenum 4 num 10 z maxd = none := by
  obtain ⟨ds, h3, _, h5⟩ := writenum_dec_partial 4 (by omega) num h1 h2 z maxd
  apply h5
  have hs := h3.small
  by_cases hn : num < 0
  · rw [if_pos hn]
    rcases Nat.lt_or_ge 8 ds.length with hl | hl
    · omega
    · have := Nat.pow_le_pow_right (n := 10) (by omega) hl
      have h8 : (10 : Nat) ^ 8 = 100000000 := by decide
      omega
  · rw [if_neg hn]
    rcases Nat.lt_or_ge 9 ds.length with hl | hl
    · omega
    · have := Nat.pow_le_pow_right (n := 10) (by omega) hl
      have h9 : (10 : Nat) ^ 9 = 1000000000 := by decide
      omega

end Verif
