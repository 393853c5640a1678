import Verif.Delta

/-!
# Delta decoder: C21, C23
-/

namespace Verif

/-! ## Specification of the patch format -/

/-- Where an output byte comes from: it is given literally, it is the byte at an offset of the base, or
nowhere, because the patch ends inside of an escape sequence. -/
inductive BSrc where
  | lit (b : Byte)
  | at (o : Nat)
  | bad
deriving DecidableEq

/-- Copy of `n` bytes from offset `o`. -/
def blk (o : Nat) : Nat → List BSrc
  | 0 => []
  | n + 1 => .at o :: blk (o + 1) n

/-- Meaning of a patch, `none` for a patch that ends inside of an escape sequence. `7F 7F` is a
literal `7F`; `7F o0 o1 o2 s0 s1` copies `s0 s1` bytes from offset `o0 o1 o2` (big endian). -/
def plan : List Byte → Option (List BSrc)
  | [] => some []
  | b :: r =>
    if b ≠ 0x7F#8 then (plan r).map (BSrc.lit b :: ·)
    else match r with
      | [] => none
      | c :: r' =>
        if c = 0x7F#8 then (plan r').map (BSrc.lit 0x7F#8 :: ·)
        else match r' with
          | o1 :: o2 :: s0 :: s1 :: r'' =>
            (plan r'').map (blk (c.toNat * 65536 + o1.toNat * 256 + o2.toNat) (s0.toNat * 256 + s1.toNat) ++ ·)
          | _ => none

/-- Meaning of an arbitrary patch: the output ends with `bad` if the patch ends inside of an escape
sequence. -/
def planT : List Byte → List BSrc
  | [] => []
  | b :: r =>
    if b ≠ 0x7F#8 then BSrc.lit b :: planT r
    else match r with
      | [] => [.bad]
      | c :: r' =>
        if c = 0x7F#8 then BSrc.lit 0x7F#8 :: planT r'
        else match r' with
          | o1 :: o2 :: s0 :: s1 :: r'' =>
            blk (c.toNat * 65536 + o1.toNat * 256 + o2.toNat) (s0.toNat * 256 + s1.toNat) ++ planT r''
          | _ => [.bad]

/-- Value of an output byte for a given base. -/
def evalB (src : Nat → Option Byte) : BSrc → Option Byte
  | .lit b => some b
  | .at o => src o
  | .bad => none

/-! ## Lemmas -/

theorem blk_length (o n : Nat) : (blk o n).length = n := by
  induction n generalizing o with
  | zero => rfl
  | succ n ih => simp [blk, ih]

theorem blk_take (o n k : Nat) (h : k ≤ n) : (blk o n).take k = blk o k := by
  induction k generalizing o n with
  | zero => simp [blk]
  | succ k ih =>
    cases n with
    | zero => omega
    | succ n => simp [blk, ih (o + 1) n (by omega)]

theorem blk_drop (o n k : Nat) (h : k ≤ n) : (blk o n).drop k = blk (o + k) (n - k) := by
  induction k generalizing o n with
  | zero => simp
  | succ k ih =>
    cases n with
    | zero => omega
    | succ n =>
      simp only [blk, List.drop_succ_cons]
      rw [ih (o + 1) n (by omega)]
      congr 1 <;> omega

theorem rdRange_some {src : Nat → Option Byte} {o n : Nat}
    (h : ∀ x ∈ blk o n, evalB src x ≠ none) :
    ∃ bs, rdRange src o n = some bs ∧ bs.map some = (blk o n).map (evalB src) ∧ bs.length = n := by
  induction n generalizing o with
  | zero => exact ⟨[], rfl, rfl, rfl⟩
  | succ n ih =>
    obtain ⟨bs, h1, h2, h3⟩ := ih (o := o + 1) (fun x hx => h x (by simp [blk, hx]))
    have h0 : src o ≠ none := h (.at o) (by simp [blk])
    obtain ⟨b, hb⟩ := Option.ne_none_iff_exists'.mp h0
    exact ⟨b :: bs, by simp [rdRange, hb, h1], by simp [blk, evalB, hb, h2], by simp [h3]⟩

theorem rdRange_length {src : Nat → Option Byte} {o n : Nat} {bs : List Byte} (h : rdRange src o n = some bs) :
    bs.length = n := by
  induction n generalizing o bs with
  | zero => simp only [rdRange, Option.some.injEq] at h; subst h; rfl
  | succ n ih =>
    unfold rdRange at h
    cases h1 : src o with
    | none => simp [h1] at h
    | some b =>
      cases h2 : rdRange src (o + 1) n with
      | none => simp [h1, h2] at h
      | some l =>
        simp only [h1, h2, Option.some.injEq] at h
        subst h
        simp [ih h2]

theorem rdRange_none {src : Nat → Option Byte} {o n : Nat} {x : BSrc} (hx : x ∈ blk o n)
    (h : evalB src x = none) : rdRange src o n = none := by
  induction n generalizing o with
  | zero => simp [blk] at hx
  | succ n ih =>
    simp only [blk, List.mem_cons] at hx
    unfold rdRange
    rcases hx with rfl | hx
    · have h : src o = none := h
      rw [h]
    · rw [ih hx]
      cases src o <;> rfl

/-- Output still to be produced in a decoder state. -/
structure Rem (patch : List Byte) (c : PCtx) (P : List BSrc) : Prop where
  le : c.pOff ≤ patch.length
  plan : P = (if c.matching = true then blk c.blkOff c.blkSz else []) ++ planT (patch.drop c.pOff)
  blk : c.matching = true → 0 < c.blkSz ∧ c.blkSz < 65536

theorem drop_succ_of {patch : List Byte} {i : Nat} {b : Byte} (h : patch[i]? = some b) :
    patch.drop i = b :: patch.drop (i + 1) := by
  obtain ⟨hi, rfl⟩ := List.getElem?_eq_some_iff.mp h
  exact List.drop_eq_getElem_cons hi

theorem plan_lit {b : Byte} {r : List Byte} (h : b ≠ ESC) :
    plan (b :: r) = (plan r).map (BSrc.lit b :: ·) := by
  rw [plan.eq_def]
  exact if_pos h

theorem plan_esc {r : List Byte} : plan (ESC :: ESC :: r) = (plan r).map (BSrc.lit ESC :: ·) := by
  rw [plan.eq_def]
  simp [ESC]

theorem plan_blk {o0 o1 o2 s0 s1 : Byte} {r : List Byte} (h : o0 ≠ ESC) :
    plan (ESC :: o0 :: o1 :: o2 :: s0 :: s1 :: r) = (plan r).map
      (blk (o0.toNat * 65536 + o1.toNat * 256 + o2.toNat) (s0.toNat * 256 + s1.toNat) ++ ·) := by
  rw [plan.eq_def]
  have h' : o0 ≠ 127#8 := h
  simp [ESC, h']

theorem plan_trunc {o0 : Byte} {r : List Byte} (h : o0 ≠ ESC) (hr : r.length < 4) :
    plan (ESC :: o0 :: r) = none := by
  rw [plan.eq_def]
  have h' : o0 ≠ 127#8 := h
  match r, hr with
  | [], _ => simp [ESC, h']
  | [_], _ => simp [ESC, h']
  | [_, _], _ => simp [ESC, h']
  | [_, _, _], _ => simp [ESC, h']

theorem plan_esc_end : plan [ESC] = none := by
  rw [plan.eq_def]
  simp [ESC]

theorem planT_lit {b : Byte} {r : List Byte} (h : b ≠ ESC) : planT (b :: r) = BSrc.lit b :: planT r := by
  rw [planT.eq_def]
  exact if_pos h

theorem planT_esc {r : List Byte} : planT (ESC :: ESC :: r) = BSrc.lit ESC :: planT r := by
  rw [planT.eq_def]
  simp [ESC]

theorem planT_blk {o0 o1 o2 s0 s1 : Byte} {r : List Byte} (h : o0 ≠ ESC) :
    planT (ESC :: o0 :: o1 :: o2 :: s0 :: s1 :: r) =
      blk (o0.toNat * 65536 + o1.toNat * 256 + o2.toNat) (s0.toNat * 256 + s1.toNat) ++ planT r := by
  rw [planT.eq_def]
  have h' : o0 ≠ 127#8 := h
  simp [ESC, h']

theorem planT_trunc {o0 : Byte} {r : List Byte} (h : o0 ≠ ESC) (hr : r.length < 4) :
    planT (ESC :: o0 :: r) = [.bad] := by
  rw [planT.eq_def]
  have h' : o0 ≠ 127#8 := h
  match r, hr with
  | [], _ => simp [ESC, h']
  | [_], _ => simp [ESC, h']
  | [_, _], _ => simp [ESC, h']
  | [_, _, _], _ => simp [ESC, h']

theorem planT_esc_end : planT [ESC] = [.bad] := by
  rw [planT.eq_def]
  simp [ESC]

theorem planT_of_plan {p : List Byte} {P : List BSrc} (hp : plan p = some P) : planT p = P := by
  induction hn : p.length using Nat.strongRecOn generalizing p P with
  | ind n ih =>
    match p with
    | [] =>
      simp only [plan, Option.some.injEq] at hp
      subst hp
      rfl
    | b :: r =>
      by_cases hb : b = ESC
      · subst hb
        match r with
        | [] => rw [plan_esc_end] at hp; simp at hp
        | o0 :: r =>
          by_cases ho : o0 = ESC
          · subst ho
            rw [plan_esc] at hp
            obtain ⟨T, hT, rfl⟩ := Option.map_eq_some_iff.mp hp
            rw [planT_esc, ih r.length (by simp at hn; omega) hT rfl]
          · match r with
            | [] => rw [plan_trunc ho (by simp)] at hp; simp at hp
            | [_] => rw [plan_trunc ho (by simp)] at hp; simp at hp
            | [_, _] => rw [plan_trunc ho (by simp)] at hp; simp at hp
            | [_, _, _] => rw [plan_trunc ho (by simp)] at hp; simp at hp
            | o1 :: o2 :: s0 :: s1 :: r =>
              rw [plan_blk ho] at hp
              obtain ⟨T, hT, rfl⟩ := Option.map_eq_some_iff.mp hp
              rw [planT_blk ho, ih r.length (by simp at hn; omega) hT rfl]
      · rw [plan_lit hb] at hp
        obtain ⟨T, hT, rfl⟩ := Option.map_eq_some_iff.mp hp
        rw [planT_lit hb, ih r.length (by simp at hn; omega) hT rfl]

theorem map_some_inj {α : Type} {a b : List α} (h : a.map some = b.map some) : a = b := by
  induction a generalizing b with
  | nil => cases b <;> simp_all
  | cons x a ih =>
    cases b with
    | nil => simp at h
    | cons y b =>
      simp only [List.map_cons, List.cons.injEq, Option.some.injEq] at h
      rw [h.1, ih h.2]

/-- What the decoder must do for the remaining output `P`, when `k` more bytes are wanted: yield the bytes
and the state for the rest of `P`, or report an access outside of the base or of the patch. -/
def DecSpec (src : Nat → Option Byte) (patch : List Byte) (out : List Byte) (k : Nat) (P : List BSrc) (r : PRes) : Prop :=
  ((∀ x ∈ P.take k, evalB src x ≠ none) →
    ∃ c' bs, r = .ok c' (out ++ bs) ∧ bs.map some = (P.take k).map (evalB src) ∧ Rem patch c' (P.drop k)) ∧
  ((∃ x ∈ P.take k, evalB src x = none) → r = .oob)

theorem DecSpec.step {src : Nat → Option Byte} {patch out cs : List Byte} {k n : Nat} {C P : List BSrc} {r : PRes}
    (hC : cs.map some = C.map (evalB src)) (hn : n = C.length) (hk : C.length ≤ k)
    (h : DecSpec src patch (out ++ cs) (k - n) P r) : DecSpec src patch out k (C ++ P) r := by
  subst hn
  have ht : (C ++ P).take k = C ++ P.take (k - C.length) := List.take_append.trans (by
    rw [List.take_of_length_le hk])
  have hd : (C ++ P).drop k = P.drop (k - C.length) := by
    rw [List.drop_append, List.drop_eq_nil_of_le hk, List.nil_append]
  refine ⟨?_, ?_⟩
  · intro hs
    rw [ht] at hs
    obtain ⟨c', bs, h1, h2, h3⟩ := h.1 (fun x hx => hs x (List.mem_append_right _ hx))
    refine ⟨c', cs ++ bs, by rw [h1, List.append_assoc], ?_, by rw [hd]; exact h3⟩
    rw [ht, List.map_append, List.map_append, hC, h2]
  · rintro ⟨x, hx, hn⟩
    rw [ht, List.mem_append] at hx
    rcases hx with hx | hx
    · exfalso
      have : evalB src x ∈ cs.map some := by rw [hC]; exact List.mem_map_of_mem hx
      rw [hn] at this
      simp at this
    · exact h.2 ⟨x, hx, hn⟩

theorem DecSpec.oob {src : Nat → Option Byte} {patch out : List Byte} {k : Nat} {P : List BSrc} {x : BSrc}
    (hx : x ∈ P.take k) (hn : evalB src x = none) : DecSpec src patch out k P .oob :=
  ⟨fun h => absurd hn (h x hx), fun _ => rfl⟩

/-- Nothing more is wanted, or nothing is left. -/
theorem DecSpec.done {src : Nat → Option Byte} {patch out : List Byte} {k : Nat} {P : List BSrc} {c : PCtx}
    (hk : k = 0 ∨ P = []) (hrem : Rem patch c P) : DecSpec src patch out k P (.ok c out) := by
  have ht : P.take k = [] := by rcases hk with rfl | rfl <;> simp
  have hd : P.drop k = P := by rcases hk with rfl | rfl <;> simp
  refine ⟨fun _ => ⟨c, [], by simp, by rw [ht]; rfl, by rw [hd]; exact hrem⟩, ?_⟩
  rintro ⟨x, hx, _⟩
  rw [ht] at hx
  simp at hx

/-- `cp` bytes of a block. -/
theorem DecSpec.copy {src : Nat → Option Byte} {patch out : List Byte} {k cp : Nat} {o : Nat} {P : List BSrc}
    {f : List Byte → PRes} (hk : cp ≤ k)
    (h : ∀ bs, bs.length = cp → DecSpec src patch (out ++ bs) (k - cp) P (f bs)) :
    DecSpec src patch out k (blk o cp ++ P)
      (match rdRange src o cp with | none => .oob | some bs => f bs) := by
  by_cases hall : ∀ x ∈ blk o cp, evalB src x ≠ none
  · obtain ⟨bs, e1, e2, e3⟩ := rdRange_some hall
    rw [e1]
    exact DecSpec.step e2 (blk_length o cp).symm (by rw [blk_length]; omega) (h bs e3)
  · simp only [Classical.not_forall, Classical.not_not] at hall
    obtain ⟨x, hx, hn⟩ := hall
    rw [rdRange_none hx hn]
    exact DecSpec.oob (by
      rw [List.take_append, List.take_of_length_le (by rw [blk_length]; omega)]
      exact List.mem_append_left _ hx) hn

theorem blk_split {o n k : Nat} (h : k ≤ n) : blk o n = blk o k ++ blk (o + k) (n - k) := by
  rw [← blk_take o n k h, ← blk_drop o n k h, List.take_append_drop]

/-- Main invariant of the decoder loop. -/
theorem patchGo_spec {src : Nat → Option Byte} {patch : List Byte} {len : Nat} : ∀ fuel c out P,
    2 * (patch.length - c.pOff) + (if c.matching = true ∧ out.length < len then 1 else 0) + 1 ≤ fuel →
    out.length ≤ len → (c.matching = true → out.length = 0 ∨ out.length = len) → Rem patch c P →
    DecSpec src patch out (len - out.length) P (patchGo src patch len fuel c out) := by
  intro fuel
  induction fuel with
  | zero => intro c out P hf; omega
  | succ fuel ih =>
    intro c out P hf hlen hmat hrem
    unfold patchGo
    have hP := hrem.plan
    by_cases hc : (c.matching = true ∨ c.pOff < patch.length) ∧ out.length < len
    · rw [if_pos hc]
      by_cases hm : c.matching = true
      · rw [if_pos hm]
        have ho0 : out.length = 0 := by
          rcases hmat hm with h | h
          · exact h
          · omega
        obtain ⟨hb1, hb2⟩ := hrem.blk hm
        rw [if_pos hm] at hP
        rw [if_pos ⟨hm, hc.2⟩] at hf
        rw [Nat.mod_eq_of_lt hb2]
        dsimp only
        by_cases hbig : c.blkSz > len
        · simp only [if_pos hbig]
          rw [if_neg (by omega), hP, blk_split (k := len) (by omega), List.append_assoc]
          refine DecSpec.copy (by omega) (fun bs hbs => ?_)
          have hobs : (out ++ bs).length = len := by rw [List.length_append]; omega
          have := ih { c with blkSz := c.blkSz - len, blkOff := c.blkOff + len } (out ++ bs)
            (blk (c.blkOff + len) (c.blkSz - len) ++ planT (patch.drop c.pOff))
            (by rw [if_neg (by omega)]; dsimp only; omega) (by omega) (fun _ => .inr hobs)
            ⟨hrem.le, by simp only [hm, if_true], fun _ => by dsimp only; omega⟩
          rw [hobs] at this
          rw [show len - out.length - len = len - len by omega]
          exact this
        · simp only [if_neg hbig]
          rw [if_neg (by omega), hP]
          refine DecSpec.copy (by omega) (fun bs hbs => ?_)
          have hobs : (out ++ bs).length = out.length + c.blkSz := by rw [List.length_append]; omega
          have := ih { c with blkSz := 0, blkOff := 0, matching := false } (out ++ bs)
            (planT (patch.drop c.pOff))
            (by rw [if_neg (by simp)]; dsimp only; omega) (by omega) (fun h => by simp at h)
            ⟨hrem.le, by simp, fun h => by simp at h⟩
          rw [hobs, ← Nat.sub_sub] at this
          exact this
      · rw [if_neg hm]
        have hp : c.pOff < patch.length := by
          rcases hc.1 with h | h
          · exact absurd h hm
          · exact h
        rw [if_neg hm, List.nil_append] at hP
        rw [if_neg (fun h => hm h.1)] at hf
        have hm' : c.matching = false := by simpa using hm
        obtain ⟨b, hb⟩ : ∃ b, patch[c.pOff]? = some b := ⟨patch[c.pOff], by simp [hp]⟩
        rw [hb]
        dsimp only
        rw [drop_succ_of hb] at hP
        have hbad : P = [.bad] → DecSpec src patch out (len - out.length) P .oob := by
          intro h
          rw [h]
          exact DecSpec.oob (x := .bad) (by rw [List.take_of_length_le (by simp; omega)]; simp) rfl
        by_cases hesc : b = ESC
        · subst hesc
          rw [if_pos rfl]
          rcases h1 : patch[c.pOff + 1]? with _ | o0
          · rw [List.drop_eq_nil_of_le (by simpa using h1), planT_esc_end] at hP
            exact hbad hP
          · dsimp only
            rw [drop_succ_of h1] at hP
            have hp1 : c.pOff + 1 < patch.length := (List.getElem?_eq_some_iff.mp h1).1
            by_cases he2 : o0 = ESC
            · subst he2
              rw [if_pos rfl]
              rw [planT_esc] at hP
              rw [hP, ← List.singleton_append]
              refine DecSpec.step (cs := [ESC]) (n := 1) rfl rfl (by simp; omega) ?_
              have := ih { c with pOff := c.pOff + 2 } (out ++ [ESC]) (planT (patch.drop (c.pOff + 2)))
                (by rw [if_neg (by simp [hm'])]; dsimp only; omega) (by simp; omega) (fun h => by simp [hm'] at h)
                ⟨by dsimp only; omega, by simp [hm'], fun h => by simp [hm'] at h⟩
              rw [List.length_append, List.length_singleton, ← Nat.sub_sub] at this
              exact this
            · rw [if_neg he2]
              rcases h2 : patch[c.pOff + 2]? with _ | o1
              · rw [List.drop_eq_nil_of_le (by simpa using h2), planT_trunc he2 (by simp)] at hP
                exact hbad hP
              rcases h3 : patch[c.pOff + 3]? with _ | o2
              · rw [drop_succ_of h2, List.drop_eq_nil_of_le (by simpa using h3), planT_trunc he2 (by simp)] at hP
                exact hbad hP
              rcases h4 : patch[c.pOff + 4]? with _ | s0
              · rw [drop_succ_of h2, drop_succ_of h3, List.drop_eq_nil_of_le (by simpa using h4),
                  planT_trunc he2 (by simp)] at hP
                exact hbad hP
              rcases h5 : patch[c.pOff + 5]? with _ | s1
              · rw [drop_succ_of h2, drop_succ_of h3, drop_succ_of h4, List.drop_eq_nil_of_le (by simpa using h5),
                  planT_trunc he2 (by simp)] at hP
                exact hbad hP
              have hp5 : c.pOff + 5 < patch.length := (List.getElem?_eq_some_iff.mp h5).1
              rw [drop_succ_of h2, drop_succ_of h3, drop_succ_of h4, drop_succ_of h5, planT_blk he2] at hP
              dsimp only
              have hszlt : s0.toNat * 256 + s1.toNat < 65536 := by
                have := s0.isLt; have := s1.isLt; omega
              obtain ⟨sz, hszd⟩ : ∃ sz, sz = s0.toNat * 256 + s1.toNat := ⟨_, rfl⟩
              obtain ⟨so, hsod⟩ : ∃ so, so = o0.toNat * 65536 + o1.toNat * 256 + o2.toNat := ⟨_, rfl⟩
              rw [← hszd, ← hsod] at hP
              rw [← hszd] at hszlt
              simp only [← hszd, ← hsod]
              by_cases hbig : sz > len - out.length
              · simp only [if_pos hbig]
                rw [if_neg (by omega), hP, blk_split (k := len - out.length) (by omega), List.append_assoc]
                refine DecSpec.copy (by omega) (fun bs hbs => ?_)
                have hobs : (out ++ bs).length = len := by rw [List.length_append]; omega
                have := ih ⟨c.pOff + 6, true, sz - (len - out.length), so + (len - out.length)⟩ (out ++ bs)
                  (blk (so + (len - out.length)) (sz - (len - out.length)) ++ planT (patch.drop (c.pOff + 6)))
                  (by rw [if_neg (by omega)]; dsimp only; omega) (by omega) (fun _ => .inr hobs)
                  ⟨by dsimp only; omega, by simp, fun _ => by dsimp only; omega⟩
                rw [hobs] at this
                rw [show len - out.length - (len - out.length) = len - len by omega]
                exact this
              · simp only [if_neg hbig]
                rw [if_pos trivial, hP]
                refine DecSpec.copy (by omega) (fun bs hbs => ?_)
                have hobs : (out ++ bs).length = out.length + sz := by rw [List.length_append]; omega
                have := ih { c with matching := false, blkOff := 0, pOff := c.pOff + 6 } (out ++ bs)
                  (planT (patch.drop (c.pOff + 6)))
                  (by rw [if_neg (by simp)]; dsimp only; omega) (by omega) (fun h => by simp at h)
                  ⟨by dsimp only; omega, by simp, fun h => by simp at h⟩
                rw [hobs, ← Nat.sub_sub] at this
                exact this
        · rw [if_neg hesc]
          rw [planT_lit hesc] at hP
          rw [hP, ← List.singleton_append]
          refine DecSpec.step (cs := [b]) (n := 1) rfl rfl (by simp; omega) ?_
          have := ih { c with pOff := c.pOff + 1 } (out ++ [b]) (planT (patch.drop (c.pOff + 1)))
            (by rw [if_neg (by simp [hm'])]; dsimp only; omega) (by simp; omega) (fun h => by simp [hm'] at h)
            ⟨by dsimp only; omega, by simp [hm'], fun h => by simp [hm'] at h⟩
          rw [List.length_append, List.length_singleton, ← Nat.sub_sub] at this
          exact this
    · rw [if_neg hc]
      refine DecSpec.done ?_ hrem
      by_cases hl : out.length < len
      · right
        have hm : ¬ c.matching = true := fun h => hc ⟨.inl h, hl⟩
        have hp : ¬ c.pOff < patch.length := fun h => hc ⟨.inr h, hl⟩
        rw [hP, if_neg hm, List.drop_eq_nil_of_le (by omega)]
        rfl
      · left; omega

/-! ## C21: the output does not depend on the block sizes -/

theorem wbPatch_dec {src : Nat → Option Byte} {patch : List Byte} {len : Nat} {c : PCtx} {P : List BSrc}
    (h6 : 6 ≤ len) (hrem : Rem patch c P) : DecSpec src patch [] len P (wbPatch src patch c len) := by
  unfold wbPatch
  rw [if_neg (by omega)]
  exact patchGo_spec (2 * patch.length + 3) c [] P
    (by
      have : (if c.matching = true ∧ ([] : List Byte).length < len then 1 else 0) ≤ 1 := by split <;> omega
      omega) (by simp) (fun _ => .inl rfl) hrem

/-- One call of `wb_patch` produces the next `len` bytes. -/
theorem wbPatch_spec {src : Nat → Option Byte} {patch : List Byte} {len : Nat} {c : PCtx} {P : List BSrc}
    (h6 : 6 ≤ len) (hrem : Rem patch c P) (hsrc : ∀ x ∈ P.take len, evalB src x ≠ none) :
    ∃ c' out, wbPatch src patch c len = .ok c' out ∧ out.map some = (P.take len).map (evalB src) ∧
      Rem patch c' (P.drop len) := by
  obtain ⟨c', bs, h1, h2, h3⟩ := (wbPatch_dec h6 hrem).1 hsrc
  exact ⟨c', bs, h1, h2, h3⟩

theorem rem_initT {patch : List Byte} : Rem patch patchInit (planT patch) :=
  ⟨Nat.zero_le _, by simp [patchInit], fun h => by simp [patchInit] at h⟩

theorem rem_init {patch : List Byte} {P : List BSrc} (h : plan patch = some P) : Rem patch patchInit P := by
  rw [← planT_of_plan h]
  exact rem_initT

/-- Calls of `wb_patch` with output buffers of the given sizes, one after the other; `none` if one of them
does not return. -/
def wbPatches (src : Nat → Option Byte) (patch : List Byte) : PCtx → List Nat → Option (List Byte)
  | _, [] => some []
  | c, len :: ls =>
    match wbPatch src patch c len with
    | .ok c' o => (wbPatches src patch c' ls).map (o ++ ·)
    | _ => none

theorem wbPatches_spec {src : Nat → Option Byte} {patch : List Byte} (ls : List Nat)
    (hl : ∀ l ∈ ls, 6 ≤ l) : ∀ {c : PCtx} {P : List BSrc}, Rem patch c P →
    ((∀ x ∈ P.take ls.sum, evalB src x ≠ none) →
      ∃ out, wbPatches src patch c ls = some out ∧ out.map some = (P.take ls.sum).map (evalB src)) ∧
    ((∃ x ∈ P.take ls.sum, evalB src x = none) → wbPatches src patch c ls = none) := by
  induction ls with
  | nil => intro c P _; exact ⟨fun _ => ⟨[], rfl, by simp⟩, by rintro ⟨x, hx, _⟩; simp at hx⟩
  | cons l ls ih =>
    intro c P hrem
    rw [List.sum_cons]
    have hsplit : P.take (l + ls.sum) = P.take l ++ (P.drop l).take ls.sum := List.take_add
    have hd := wbPatch_dec (src := src) (hl l (by simp)) hrem
    have ih' := fun {c} {P} h => ih (fun x hx => hl x (by simp [hx])) (c := c) (P := P) h
    refine ⟨?_, ?_⟩
    · intro hsrc
      obtain ⟨c', o, h1, h2, h3⟩ := hd.1
        (fun x hx => hsrc x (by rw [hsplit]; exact List.mem_append_left _ hx))
      obtain ⟨o', h4, h5⟩ := (ih' h3).1
        (fun x hx => hsrc x (by rw [hsplit]; exact List.mem_append_right _ hx))
      refine ⟨o ++ o', by simp [wbPatches, h1, h4], ?_⟩
      rw [List.map_append, h2, h5, hsplit, List.map_append]
    · rintro ⟨x, hx, hn⟩
      by_cases hall : ∀ x ∈ P.take l, evalB src x ≠ none
      · obtain ⟨c', o, h1, h2, h3⟩ := hd.1 hall
        rw [hsplit, List.mem_append] at hx
        rcases hx with hx | hx
        · exact absurd hn (hall x hx)
        · have := (ih' h3).2 ⟨x, hx, hn⟩
          simp [wbPatches, h1, this]
      · simp only [Classical.not_forall, Classical.not_not] at hall
        obtain ⟨y, hy, hyn⟩ := hall
        simp [wbPatches, hd.2 ⟨y, hy, hyn⟩]

/-- **C21.** For every patch and base, and all sizes of the output blocks: the bytes produced are those
given by the patch format. -/
theorem patch_output {src : Nat → Option Byte} {patch : List Byte} {ls : List Nat} (hl : ∀ l ∈ ls, 6 ≤ l) :
    (wbPatches src patch patchInit ls).map (·.map some) =
      if ∀ x ∈ (planT patch).take ls.sum, evalB src x ≠ none then some (((planT patch).take ls.sum).map (evalB src))
      else none := by
  have h := wbPatches_spec (src := src) (patch := patch) ls hl rem_initT
  split
  · rename_i hall
    obtain ⟨out, h1, h2⟩ := h.1 hall
    rw [h1, Option.map_some, h2]
  · rename_i hall
    simp only [Classical.not_forall, Classical.not_not] at hall
    obtain ⟨y, hy, hyn⟩ := hall
    rw [h.2 ⟨y, hy, hyn⟩]
    rfl

theorem map_map_some_inj {a b : Option (List Byte)} (h : a.map (·.map some) = b.map (·.map some)) : a = b := by
  cases a <;> cases b <;> simp at h ⊢
  exact map_some_inj h

/-- **C21.** For every patch and base: two sequences of block sizes with the same sum yield the same
bytes (or both run into an access outside of the base or the patch); and if both cover the whole
output, the sums need not be equal. -/
theorem patch_block_independent {src : Nat → Option Byte} {patch : List Byte} {ls ls' : List Nat}
    (hl : ∀ l ∈ ls, 6 ≤ l) (hl' : ∀ l ∈ ls', 6 ≤ l)
    (hs : ls.sum = ls'.sum ∨ (planT patch).length ≤ ls.sum ∧ (planT patch).length ≤ ls'.sum) :
    wbPatches src patch patchInit ls = wbPatches src patch patchInit ls' := by
  apply map_map_some_inj
  rw [patch_output hl, patch_output hl']
  rcases hs with h | ⟨h, h'⟩
  · rw [h]
  · rw [List.take_of_length_le h, List.take_of_length_le h']

/-- Example: a patch with a copied block, an escaped `7F` and literals; blocks of 6, 7 and 20 bytes. -/
def exPatch : List Byte := [1#8, 0x7F#8, 0x7F#8, 0x7F#8, 0#8, 0#8, 3#8, 0#8, 9#8, 5#8, 6#8]
def exBase (x : Nat) : Option Byte := if x < 16 then some (BitVec.ofNat 8 (x + 32)) else none
example : plan exPatch = some ([.lit 1#8, .lit 0x7F#8] ++ blk 3 9 ++ [.lit 5#8, .lit 6#8]) := by decide +kernel
example : wbPatches exBase exPatch patchInit [6, 7, 20] = wbPatches exBase exPatch patchInit [33] :=
  patch_block_independent (by decide) (by decide) (by decide)
example : wbPatches exBase exPatch patchInit [6, 7, 20] =
    some [1#8, 0x7F#8, 35#8, 36#8, 37#8, 38#8, 39#8, 40#8, 41#8, 42#8, 43#8, 5#8, 6#8] := by decide +kernel

/-! ## C23: memory accesses of the decoder -/

/-- Decoder states that `wb_patch` can leave behind. -/
def PCtx.Good (c : PCtx) : Prop := c.matching = true → 0 < c.blkSz ∧ c.blkSz < 65536

/-- Whatever the patch contains, `wb_patch` terminates, and it never writes more than `len` bytes to
the output buffer. -/
theorem patchGo_total {src : Nat → Option Byte} {patch : List Byte} {len : Nat} : ∀ fuel c out,
    2 * (patch.length - c.pOff) + (if c.matching = true ∧ out.length < len then 1 else 0) + 1 ≤ fuel →
    out.length ≤ len → (c.matching = true → out.length = 0 ∨ out.length = len) → c.Good →
    patchGo src patch len fuel c out ≠ .fuel ∧ patchGo src patch len fuel c out ≠ .err ∧
      patchGo src patch len fuel c out ≠ .dst ∧
      ∀ c' out', patchGo src patch len fuel c out = .ok c' out' → out'.length ≤ len ∧ c'.Good := by
  intro fuel
  induction fuel with
  | zero => intro c out hf; omega
  | succ fuel ih =>
    intro c out hf hlen hmat hgood
    unfold patchGo
    by_cases hc : (c.matching = true ∨ c.pOff < patch.length) ∧ out.length < len
    · rw [if_pos hc]
      by_cases hm : c.matching = true
      · rw [if_pos hm]
        have ho0 : out.length = 0 := by
          rcases hmat hm with h | h
          · exact h
          · omega
        obtain ⟨hb1, hb2⟩ := hgood hm
        rw [Nat.mod_eq_of_lt hb2]
        dsimp only
        rw [if_pos ⟨hm, hc.2⟩] at hf
        by_cases hbig : c.blkSz > len
        · simp only [if_pos hbig]
          rw [if_neg (by omega)]
          cases hr : rdRange src c.blkOff len with
          | none => simp
          | some bs =>
            have hbl := rdRange_length hr
            refine ih _ _ ?_ ?_ ?_ ?_
            · rw [if_neg (by rw [List.length_append]; omega)]
              dsimp only; omega
            · rw [List.length_append]; omega
            · intro _; right; rw [List.length_append]; omega
            · intro _; dsimp only; omega
        · simp only [if_neg hbig]
          rw [if_neg (by omega)]
          cases hr : rdRange src c.blkOff c.blkSz with
          | none => simp
          | some bs =>
            have hbl := rdRange_length hr
            refine ih _ _ ?_ ?_ ?_ ?_
            · rw [if_neg (by simp)]
              dsimp only; omega
            · rw [List.length_append]; omega
            · intro h; simp at h
            · intro h; simp at h
      · rw [if_neg hm]
        rw [if_neg (fun h => hm h.1)] at hf
        have hp : c.pOff < patch.length := by
          rcases hc.1 with h | h
          · exact absurd h hm
          · exact h
        have hm' : c.matching = false := by simpa using hm
        cases patch[c.pOff]? with
        | none => simp
        | some b =>
          dsimp only
          split
          · cases patch[c.pOff + 1]? with
            | none => simp
            | some o0 =>
              dsimp only
              split
              · refine ih _ _ ?_ ?_ ?_ ?_
                · rw [if_neg (by simp [hm'])]; dsimp only; omega
                · simp; omega
                · intro h; simp [hm'] at h
                · intro h; simp [hm'] at h
              · rcases patch[c.pOff + 2]? with _ | o1
                · simp
                rcases patch[c.pOff + 3]? with _ | o2
                · simp
                rcases patch[c.pOff + 4]? with _ | s0
                · simp
                rcases patch[c.pOff + 5]? with _ | s1
                · simp
                dsimp only
                have hszlt : s0.toNat * 256 + s1.toNat < 65536 := by
                  have := s0.isLt; have := s1.isLt; omega
                obtain ⟨sz, hszd⟩ : ∃ sz, sz = s0.toNat * 256 + s1.toNat := ⟨_, rfl⟩
                obtain ⟨so, hsod⟩ : ∃ so, so = o0.toNat * 65536 + o1.toNat * 256 + o2.toNat := ⟨_, rfl⟩
                rw [← hszd] at hszlt
                simp only [← hszd, ← hsod]
                by_cases hbig : sz > len - out.length
                · simp only [if_pos hbig]
                  cases hr : rdRange src so (len - out.length) with
                  | none => simp
                  | some bs =>
                    have hbl := rdRange_length hr
                    dsimp only
                    rw [if_neg (by omega)]
                    refine ih _ _ ?_ ?_ ?_ ?_
                    · rw [if_neg (by rw [List.length_append]; omega)]
                      dsimp only; omega
                    · rw [List.length_append]; omega
                    · intro _; right; rw [List.length_append]; omega
                    · intro _; dsimp only; omega
                · simp only [if_neg hbig]
                  cases hr : rdRange src so sz with
                  | none => simp
                  | some bs =>
                    have hbl := rdRange_length hr
                    dsimp only
                    rw [if_pos trivial]
                    refine ih _ _ ?_ ?_ ?_ ?_
                    · rw [if_neg (by simp)]
                      dsimp only; omega
                    · rw [List.length_append]; omega
                    · intro h; simp at h
                    · intro h; simp at h
          · refine ih _ _ ?_ ?_ ?_ ?_
            · rw [if_neg (by simp [hm'])]; dsimp only; omega
            · simp; omega
            · intro h; simp [hm'] at h
            · intro h; simp [hm'] at h
    · rw [if_neg hc]
      refine ⟨by simp, by simp, by simp, ?_⟩
      intro c' out' h
      simp only [PRes.ok.injEq] at h
      obtain ⟨rfl, rfl⟩ := h
      exact ⟨hlen, hgood⟩

/-- **C23, output side.** Whatever the patch and the base contain, a call of `wb_patch` terminates and
writes at most `len` bytes to its output buffer; and so does the next call. -/
theorem wbPatch_bounded {src : Nat → Option Byte} {patch : List Byte} {len : Nat} {c : PCtx} (hc : c.Good) :
    wbPatch src patch c len ≠ .fuel ∧ wbPatch src patch c len ≠ .dst ∧
      (wbPatch src patch c len = .err ↔ len < 6) ∧
      ∀ c' out, wbPatch src patch c len = .ok c' out → out.length ≤ len ∧ c'.Good := by
  unfold wbPatch
  by_cases h6 : len < 6
  · rw [if_pos h6]
    simp [h6]
  · rw [if_neg h6]
    obtain ⟨h1, h2, h3, h4⟩ := patchGo_total (src := src) (patch := patch) (len := len) (2 * patch.length + 3) c []
      (by
        have : (if c.matching = true ∧ ([] : List Byte).length < len then 1 else 0) ≤ 1 := by split <;> omega
        omega) (by simp) (fun _ => .inl rfl) hc
    exact ⟨h1, h3, ⟨fun h => absurd h h2, fun h => absurd h h6⟩, h4⟩

theorem patchInit_good : patchInit.Good := fun h => by simp [patchInit] at h

example : (wbPatch exBase exPatch patchInit 6) ≠ .dst := (wbPatch_bounded patchInit_good).2.1

/-- **C23.** Exactly when the decoder reads outside of the base or of the patch: one of the bytes to be
produced refers to the outside of the base, or comes from an incomplete escape sequence. -/
theorem wbPatch_oob_iff {src : Nat → Option Byte} {patch : List Byte} {ls : List Nat} (hl : ∀ l ∈ ls, 6 ≤ l) :
    wbPatches src patch patchInit ls = none ↔ ∃ x ∈ (planT patch).take ls.sum, evalB src x = none := by
  have h := wbPatches_spec (src := src) (patch := patch) ls hl rem_initT
  refine ⟨?_, h.2⟩
  intro hn
  apply Classical.byContradiction
  intro hne
  obtain ⟨out, h1, _⟩ := h.1 (fun x hx he => hne ⟨x, hx, he⟩)
  rw [hn] at h1
  simp at h1

/-- **C23, partial.** Decoding a well-formed patch whose references are inside of the base never reads
outside of the base or of the patch. Missing: the decoder does not check either condition, see
`patch_reads_outside_base` and `patch_reads_behind_patch`; so it holds for authenticated patches made
by the signing tool only. -/
theorem wbPatch_safe_partial {src : Nat → Option Byte} {patch : List Byte} {P : List BSrc} {ls : List Nat}
    (hP : plan patch = some P) (hl : ∀ l ∈ ls, 6 ≤ l) (hsrc : ∀ x ∈ P, evalB src x ≠ none) :
    wbPatches src patch patchInit ls ≠ none := by
  rw [Ne, wbPatch_oob_iff hl, planT_of_plan hP]
  rintro ⟨x, hx, hn⟩
  exact hsrc x (List.mem_of_mem_take hx) hn

/-- Violation of C23: six bytes make the decoder read outside of every base image smaller than
`0x7F0000` bytes. -/
theorem patch_reads_outside_base {src : Nat → Option Byte} (h : src 0x7EFFFF = none) {len : Nat} (hl : 6 ≤ len) :
    wbPatch src [0x7F#8, 0x7E#8, 0xFF#8, 0xFF#8, 0#8, 1#8] patchInit len = .oob := by
  unfold wbPatch
  rw [if_neg (by omega)]
  unfold patchGo
  simp only [patchInit, List.length_cons, List.length_nil]
  rw [if_pos ⟨.inr (by decide), by omega⟩]
  simp only [Bool.false_eq_true, if_false]
  simp [ESC, rdRange, h, show ¬ len < 1 by omega]

/-- Violation of C23: a patch that ends with a single `7F` makes the decoder read behind the patch. -/
theorem patch_reads_behind_patch {src : Nat → Option Byte} {len : Nat} (hl : 6 ≤ len) :
    wbPatch src [0x7F#8] patchInit len = .oob := by
  unfold wbPatch
  rw [if_neg (by omega)]
  unfold patchGo
  simp only [patchInit, List.length_cons, List.length_nil]
  rw [if_pos ⟨.inr (by decide), by omega⟩]
  simp [ESC]

example : wbPatches exBase exPatch patchInit [6, 7, 20] ≠ none :=
  wbPatch_safe_partial (P := [.lit 1#8, .lit 0x7F#8] ++ blk 3 9 ++ [.lit 5#8, .lit 6#8])
    (by decide +kernel) (by decide) (by decide +kernel)

end Verif
