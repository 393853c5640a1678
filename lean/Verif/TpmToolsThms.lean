import Verif.TpmTools
import Verif.TpmSealThms
import Verif.TpmBootThms

/-!
# The tools for the TPM: theorems (C76)
-/

namespace Verif.TpmTools

open Verif Verif.Tpm

/-! ## Vocabulary of the statements -/

/-- Strictly ascending. -/
def Asc (l : List Nat) : Prop := l.Pairwise (· < ·)

instance (l : List Nat) : Decidable (Asc l) := inferInstanceAs (Decidable (l.Pairwise (· < ·)))

/-- For an ascending selection of PCRs, the library computes what the TPM computes. -/
structure Agrees (L : Lib) (h : Chip) : Prop where
  digest : ∀ l v, l ≠ [] → Asc l → (∀ i ∈ l, i < 24) → L.getDigest l v = h.pcrHash (l.map v)
  make : ∀ l pd, l ≠ [] → Asc l → (∀ i ∈ l, i < 24) → L.pcrMake l pd = some (h.policyPcr h.zero l pd)
  ref : ∀ d, L.refMake d = h.addRef d []

/-- The PCRs of a list, ascending. -/
def canon (l : List Nat) : List Nat := (List.range 24).filter (fun i => decide (i ∈ l))

/-- The library does not depend on the order of the indices. -/
structure OrderFree (L : Lib) : Prop where
  digest : ∀ l v, L.getDigest l v = L.getDigest (canon l) v
  make : ∀ l pd, L.pcrMake l pd = L.pcrMake (canon l) pd

/-- The texts given with an option. -/
def given (p : List Char) (args : List (List Char)) : List (List Char) := args.filterMap (after p)

/-! ## Lists of PCRs -/

theorem asc_ext : ∀ {l m : List Nat}, Asc l → Asc m → (∀ i, i ∈ l ↔ i ∈ m) → l = m
  | [], [], _, _, _ => rfl
  | [], b :: m, _, _, h => absurd ((h b).2 (by simp)) (by simp)
  | a :: l, [], _, _, h => absurd ((h a).1 (by simp)) (by simp)
  | a :: l, b :: m, h1, h2, h => by
    have h1' := List.pairwise_cons.1 h1
    have h2' := List.pairwise_cons.1 h2
    have hab : a = b := by
      have p := (h a).1 (by simp)
      have q := (h b).2 (by simp)
      simp only [List.mem_cons] at p q
      rcases p with p | p
      · exact p
      · rcases q with q | q
        · exact q.symm
        · have := h1'.1 b q; have := h2'.1 a p; omega
    subst hab
    congr 1
    refine asc_ext h1'.2 h2'.2 fun i => ⟨fun hi => ?_, fun hi => ?_⟩
    · have := (h i).1 (by simp [hi])
      simp only [List.mem_cons] at this
      rcases this with rfl | this
      · exact absurd (h1'.1 i hi) (by omega)
      · exact this
    · have := (h i).2 (by simp [hi])
      simp only [List.mem_cons] at this
      rcases this with rfl | this
      · exact absurd (h2'.1 i hi) (by omega)
      · exact this

theorem asc_range : Asc (List.range 24) := by unfold Asc; decide

theorem asc_filter (p : Nat → Bool) : Asc ((List.range 24).filter p) := asc_range.filter _

theorem asc_covered (m cap : Nat) : Asc (Covered m cap) :=
  (asc_filter _).sublist (List.take_sublist _ _)

theorem covered_lt {m cap i : Nat} (h : i ∈ Covered m cap) : i < 24 := by
  have := List.mem_of_mem_take h
  simpa using (List.mem_filter.1 this).1

theorem asc_canon (l : List Nat) : Asc (canon l) := asc_filter _

theorem mem_canon {l : List Nat} (h : ∀ i ∈ l, i < 24) (i : Nat) : i ∈ canon l ↔ i ∈ l := by
  simp only [canon, List.mem_filter, List.mem_range, decide_eq_true_eq]
  exact ⟨fun q => q.2, fun q => ⟨h i q, q⟩⟩

theorem canon_asc {l : List Nat} (ha : Asc l) (h : ∀ i ∈ l, i < 24) : canon l = l :=
  asc_ext (asc_canon l) ha (mem_canon h)

theorem maskFold (l : List Nat) (m i : Nat) :
    (l.foldl (fun m i => m ||| (1 <<< i)) m).testBit i = (m.testBit i || decide (i ∈ l)) := by
  induction l generalizing m with
  | nil => simp
  | cons a l ih =>
    rw [List.foldl_cons, ih, Nat.testBit_or, Nat.shiftLeft_eq, Nat.one_mul, Nat.testBit_two_pow]
    by_cases h : i = a
    · subst h; simp
    · have : ¬ a = i := fun q => h q.symm
      simp [h, this]

/-- **The mask in the file names exactly the PCRs of the array.** -/
theorem mask_testBit (l : List Nat) (i : Nat) : (maskOf l).testBit i = decide (i ∈ l) := by
  rw [maskOf, maskFold]; simp

/-- Of a mask made from an array of PCRs the bootloader selects exactly these, ascending. -/
theorem mask_selects {l : List Nat} (h : ∀ i ∈ l, i < 24) {cap : Nat} (hc : (canon l).length ≤ cap) :
    Covered (maskOf l) cap = canon l := by
  have e : (List.range 24).filter (maskOf l).testBit = canon l := by
    unfold canon
    exact List.filter_congr fun i _ => mask_testBit l i
  rw [Covered, e, List.take_of_length_le hc]

theorem maskOf_lt {l : List Nat} (h : ∀ i ∈ l, i < 24) : maskOf l < 4294967296 := by
  have : maskOf l < 2 ^ 32 := by
    apply Nat.lt_pow_two_of_testBit
    intro i hi
    rw [mask_testBit, decide_eq_false_iff_not]
    intro hm
    have := h i hm
    omega
  simpa using this

theorem num32_enc32 {n : Nat} (h : n < 4294967296) (t : Bytes) : num32 (enc32 n ++ t) = n := by
  simp [num32, enc32, enc16, le32]
  omega

theorem enc32_length (n : Nat) : (enc32 n).length = 4 := rfl

/-! ## Options -/

theorem after_some {p s t : List Char} : after p s = some t ↔ s = p ++ t := by
  unfold after
  by_cases h : p.isPrefixOf s = true
  · rw [if_pos h]
    obtain ⟨q, rfl⟩ := List.isPrefixOf_iff_prefix.1 h
    simp only [List.drop_left, Option.some.injEq, List.append_cancel_left_eq]
  · rw [if_neg h]
    constructor
    · intro q; cases q
    · rintro rfl
      exact absurd (List.isPrefixOf_iff_prefix.2 (List.prefix_append _ _)) h

/-- An argument cannot be two options. -/
theorem after_excl {p q s t : List Char} (h1 : p.isPrefixOf q = false) (h2 : q.isPrefixOf p = false)
    (h : after p s = some t) : after q s = none := by
  rw [after_some] at h
  cases hq : after q s with
  | none => rfl
  | some u =>
    rw [after_some] at hq
    exfalso
    have a : p <+: s := h ▸ List.prefix_append _ _
    have b : q <+: s := hq ▸ List.prefix_append _ _
    rcases List.prefix_or_prefix_of_prefix a b with c | c
    · rw [List.isPrefixOf_iff_prefix.2 c] at h1; cases h1
    · rw [List.isPrefixOf_iff_prefix.2 c] at h2; cases h2

theorem given_nil (p : List Char) : given p [] = [] := rfl

theorem given_cons_some {p a t : List Char} {l} (h : after p a = some t) : given p (a :: l) = t :: given p l := by
  unfold given; rw [List.filterMap_cons, h]

theorem given_cons_none {p a : List Char} {l} (h : after p a = none) : given p (a :: l) = given p l := by
  unfold given; rw [List.filterMap_cons, h]

theorem given_reverse (p : List Char) (l) : given p l.reverse = (given p l).reverse := by
  unfold given; exact List.filterMap_reverse

/-- What the loop of `policy_create` makes of the arguments `l`, taken in this order. -/
theorem parse_create (o : Opts) (l : List (List Char)) {o' : Opts} (h : parse createStep o l = .go o') :
    o'.pcrs = o.pcrs ++ (given "-pcr=".toList l).map atoiByte ∧
    (∀ t ∈ given "-pcr=".toList l, atoiByte t ≤ 23) ∧
    (o.pcrs.length ≤ CAP → o'.pcrs.length ≤ CAP) ∧
    o'.mask = ((given "-pcrmask=".toList l).getLast?.map word32).getD o.mask ∧
    some o'.pcrDig = (match (given "-pcrdigest=".toList l).getLast? with
      | some t => digest t | none => some o.pcrDig) ∧
    o'.out = (given "-out=".toList l).getLast?.getD o.out := by
  induction l generalizing o with
  | nil =>
    cases h
    simp [given_nil]
  | cons a l ih =>
    unfold parse createStep at h
    cases h1 : after "-pcr=".toList a with
    | some t =>
      have e2 : after "-pcrmask=".toList a = none := after_excl (by decide) (by decide) h1
      have e3 : after "-pcrdigest=".toList a = none := after_excl (by decide) (by decide) h1
      have e4 : after "-out=".toList a = none := after_excl (by decide) (by decide) h1
      rw [h1] at h
      dsimp only at h
      unfold optPcr at h
      split at h
      · next hs => split at hs <;> (try split at hs) <;> cases hs
                   obtain ⟨i1, i2, i3, i4, i5, i6⟩ := ih _ h
                   rw [given_cons_some h1, given_cons_none e2, given_cons_none e3, given_cons_none e4]
                   next p1 p2 =>
                   refine ⟨by rw [i1]; simp, ?_, ?_, i4, i5, i6⟩
                   · intro u hu
                     simp only [List.mem_cons] at hu
                     rcases hu with rfl | hu
                     · omega
                     · exact i2 u hu
                   · intro _
                     apply i3
                     simp
                     omega
      · cases h
    | none =>
      rw [h1] at h
      dsimp only at h
      rw [given_cons_none h1]
      cases h2 : after "-pcrmask=".toList a with
      | some t =>
        have e3 : after "-pcrdigest=".toList a = none := after_excl (by decide) (by decide) h2
        have e4 : after "-out=".toList a = none := after_excl (by decide) (by decide) h2
        rw [h2] at h
        dsimp only at h
        obtain ⟨i1, i2, i3, i4, i5, i6⟩ := ih _ h
        rw [given_cons_some h2, given_cons_none e3, given_cons_none e4]
        refine ⟨i1, i2, i3, ?_, i5, i6⟩
        rw [i4]
        cases hg : given "-pcrmask=".toList l with
        | nil => rfl
        | cons x y =>
          rw [List.getLast?_cons_cons]
          cases hz : (x :: y).getLast? with
          | none => simp at hz
          | some z => rfl
      | none =>
        rw [h2] at h
        dsimp only at h
        rw [given_cons_none h2]
        cases h3 : after "-pcrdigest=".toList a with
        | some t =>
          have e4 : after "-out=".toList a = none := after_excl (by decide) (by decide) h3
          rw [h3] at h
          dsimp only at h
          unfold optPcrDig at h
          rw [given_cons_some h3, given_cons_none e4]
          cases hd : digest t with
          | none => rw [hd] at h; cases h
          | some d =>
            rw [hd] at h
            dsimp only at h
            obtain ⟨i1, i2, i3, i4, i5, i6⟩ := ih _ h
            refine ⟨i1, i2, i3, i4, ?_, i6⟩
            rw [i5]
            cases hg : given "-pcrdigest=".toList l with
            | nil => simp [hd]
            | cons x y =>
              rw [List.getLast?_cons_cons]
              cases hz : (x :: y).getLast? with
              | none => simp at hz
              | some z => rfl
        | none =>
          rw [h3] at h
          dsimp only at h
          rw [given_cons_none h3]
          cases h4 : after "-out=".toList a with
          | some t =>
            rw [h4] at h
            dsimp only at h
            obtain ⟨i1, i2, i3, i4, i5, i6⟩ := ih _ h
            rw [given_cons_some h4]
            refine ⟨i1, i2, i3, i4, i5, ?_⟩
            rw [i6]
            cases hg : given "-out=".toList l with
            | nil => rfl
            | cons x y =>
              rw [List.getLast?_cons_cons]
              cases hz : (x :: y).getLast? with
              | none => simp at hz
              | some z => rfl
          | none =>
            rw [h4] at h
            dsimp only at h
            rw [given_cons_none h4]
            exact ih _ h

theorem parse_go {step : Opts → List Char → Step} {o o' : Opts} {a : List Char} (l) (h : step o a = .go o') :
    parse step o (a :: l) = parse step o' l := by
  rw [parse, h]

theorem parse_stop {step : Opts → List Char → Step} {o : Opts} {a : List Char} {e : Out} (l)
    (h : step o a = .stop e) : parse step o (a :: l) = .stop e := by
  rw [parse, h]

/-- A digest that is not empty is never refused with a message. -/
theorem digest_some {t : List Char} (ht : t ≠ []) : ∃ d, digest t = some d := by
  cases hx : digest t with
  | some d => exact ⟨d, rfl⟩
  | none =>
    exfalso
    unfold digest at hx
    split at hx
    · cases hx
    · split at hx
      · cases hx
      · next hb =>
        match t, ht with
        | [x], _ => simp [hexToByte] at hb
        | x :: y :: r, _ =>
          unfold hexToByte at hb
          split at hb
          · cases hr : hexToByte r <;> rw [hr] at hb <;> simp at hb
          · cases hb
      · cases hx

/-- When the loop of `policy_create` comes to its end, and when it writes beyond the array. -/
theorem parse_create_ends (o : Opts) (l : List (List Char))
    (hp : ∀ t ∈ given "-pcr=".toList l, atoiByte t ≤ 23)
    (hd : ∀ t ∈ given "-pcrdigest=".toList l, t ≠ []) (hc : o.pcrs.length ≤ CAP) :
    if o.pcrs.length + (given "-pcr=".toList l).length ≤ CAP then ∃ o', parse createStep o l = .go o'
    else parse createStep o l = .stop .ub := by
  induction l generalizing o with
  | nil => rw [if_pos (by simpa [given_nil] using hc)]; exact ⟨_, rfl⟩
  | cons a l ih =>
    cases h1 : after "-pcr=".toList a with
    | some t =>
      have e3 : after "-pcrdigest=".toList a = none := after_excl (by decide) (by decide) h1
      rw [given_cons_some h1] at hp ⊢
      rw [given_cons_none e3] at hd
      have p1 := hp t (List.mem_cons_self ..)
      have st : createStep o a = optPcr o t := by unfold createStep; rw [h1]
      unfold optPcr at st
      rw [if_neg (by omega)] at st
      by_cases q : CAP ≤ o.pcrs.length
      · rw [if_pos q] at st
        rw [if_neg (by rw [List.length_cons]; omega)]
        exact parse_stop l st
      · rw [if_neg q] at st
        rw [parse_go l st]
        have := ih { o with pcrs := o.pcrs ++ [atoiByte t] } (fun u hu => hp u (List.mem_cons_of_mem _ hu)) hd
          (by rw [List.length_append]; simp only [List.length_cons, List.length_nil]; omega)
        have e : (o.pcrs ++ [atoiByte t]).length + (given "-pcr=".toList l).length =
            o.pcrs.length + (t :: given "-pcr=".toList l).length := by
          rw [List.length_append, List.length_cons, List.length_cons, List.length_nil]; omega
        dsimp only at this
        rw [e] at this
        exact this
    | none =>
      rw [given_cons_none h1] at hp ⊢
      cases h2 : after "-pcrmask=".toList a with
      | some t =>
        have e3 : after "-pcrdigest=".toList a = none := after_excl (by decide) (by decide) h2
        rw [given_cons_none e3] at hd
        rw [parse_go (o' := { o with mask := word32 t }) l (by unfold createStep; rw [h1, h2])]
        exact ih { o with mask := word32 t } hp hd hc
      | none =>
        cases h3 : after "-pcrdigest=".toList a with
        | some t =>
          rw [given_cons_some h3] at hd
          obtain ⟨d, hx⟩ := digest_some (hd t (List.mem_cons_self ..))
          rw [parse_go (o' := { o with pcrDig := d }) l (by
            unfold createStep; rw [h1, h2, h3]; dsimp only; unfold optPcrDig; rw [hx])]
          exact ih { o with pcrDig := d } hp (fun u hu => hd u (List.mem_cons_of_mem _ hu)) hc
        | none =>
          rw [given_cons_none h3] at hd
          cases h4 : after "-out=".toList a with
          | some t =>
            rw [parse_go (o' := { o with out := t }) l (by unfold createStep; rw [h1, h2, h3, h4])]
            exact ih { o with out := t } hp hd hc
          | none =>
            rw [parse_go (o' := o) l (by unfold createStep; rw [h1, h2, h3, h4])]
            exact ih o hp hd hc

/-- The options that `policy_create` starts with. -/
def start0 : Opts := { out := "policy.bin".toList }

/-- **The meaning of a command line of `policy_create`.** The array has the PCRs of all options `-pcr=`, in
reverse order; of all other options the first one on the command line counts. -/
theorem create_options {args : List (List Char)} {o : Opts} (h : parse createStep start0 args.reverse = .go o) :
    o.pcrs = ((given "-pcr=".toList args).map atoiByte).reverse ∧ (∀ i ∈ o.pcrs, i < 24) ∧
    o.pcrs.length ≤ CAP ∧ o.mask = ((given "-pcrmask=".toList args).head?.map word32).getD 0 ∧
    some o.pcrDig = (match (given "-pcrdigest=".toList args).head? with
      | some t => digest t | none => some .unset) ∧
    o.out = (given "-out=".toList args).head?.getD "policy.bin".toList := by
  obtain ⟨h1, h2, h3, h4, h5, h6⟩ := parse_create _ _ h
  rw [given_reverse, List.getLast?_reverse] at h4 h5 h6
  rw [given_reverse] at h1 h2
  have e : o.pcrs = ((given "-pcr=".toList args).map atoiByte).reverse := by
    rw [h1, List.map_reverse]; rfl
  refine ⟨e, ?_, h3 (by decide), h4, h5, h6⟩
  intro i hi
  rw [e] at hi
  simp only [List.mem_reverse, List.mem_map] at hi
  obtain ⟨t, ht, rfl⟩ := hi
  have := h2 t (by simpa using ht)
  omega

/-- **Finding: seven options `-pcr=` write beyond the array** (exactly when there are more than six). -/
theorem create_overflow (L : Lib) (tpm : Option (Nat → Bytes)) (w : Writable) {args : List (List Char)}
    (hh : wantsHelp args = false) (hp : ∀ t ∈ given "-pcr=".toList args, atoiByte t ≤ 23)
    (hd : ∀ t ∈ given "-pcrdigest=".toList args, t ≠ []) (hn : 6 < (given "-pcr=".toList args).length) :
    create L tpm w args = .ub := by
  have := parse_create_ends start0 args.reverse (fun t ht => hp t (by simpa [given_reverse] using ht))
    (fun t ht => hd t (by simpa [given_reverse] using ht)) (by decide)
  rw [if_neg (by
    rw [given_reverse, List.length_reverse]
    have : start0.pcrs.length = 0 := rfl
    rw [this]; unfold CAP; omega)] at this
  unfold create
  rw [hh]
  unfold start0 at this
  rw [this]
  rfl

/-- Up to six are accepted. -/
theorem create_accepts {args : List (List Char)} (hp : ∀ t ∈ given "-pcr=".toList args, atoiByte t ≤ 23)
    (hd : ∀ t ∈ given "-pcrdigest=".toList args, t ≠ []) (hn : (given "-pcr=".toList args).length ≤ 6) :
    ∃ o, parse createStep start0 args.reverse = .go o := by
  have := parse_create_ends start0 args.reverse (fun t ht => hp t (by simpa [given_reverse] using ht))
    (fun t ht => hd t (by simpa [given_reverse] using ht)) (by decide)
  rw [if_pos (by
    rw [given_reverse, List.length_reverse]
    have : start0.pcrs.length = 0 := rfl
    rw [this]; unfold CAP; omega)] at this
  exact this

end Verif.TpmTools
