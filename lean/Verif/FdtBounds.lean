import Verif.Fdt

/-!
# Traversal of arbitrary blobs

What holds for every content of the buffer (`/repo/src/fdt.c:83-159,426-464`): no access outside of it, and an end of
the traversal unless a property has the length `0xFFFFFFF4`.
-/

namespace Verif

namespace FM

variable {α β : Type}

theorem throw_bind (e : FErr) (k : α → FM β) : ((throw e : FM α) >>= k) = throw e := rfl

theorem none_bind (k : α → FM β) : ((show FM α from (none : Option (Except FErr α))) >>= k) = (none : Option (Except FErr β)) := rfl

theorem pure_ne_none (a : α) : (pure a : FM α) ≠ (none : Option _) := fun h => nomatch h

theorem throw_ne_none (e : FErr) : (throw e : FM α) ≠ (none : Option _) := fun h => nomatch h

theorem pure_ne_throw (a : α) (e : FErr) : (pure a : FM α) ≠ throw e := fun h => nomatch h

theorem pure_inj {a b : α} (h : (pure a : FM α) = pure b) : a = b := by
  cases h; rfl

theorem throw_inj {e d : FErr} (h : (throw e : FM α) = throw d) : e = d := by
  cases h; rfl

/-- The three kinds of outcome. -/
theorem cases (x : FM α) : x = (none : Option _) ∨ (∃ e, x = throw e) ∨ ∃ a, x = pure a := by
  match x with
  | none => exact .inl rfl
  | some (.error e) => exact .inr (.inl ⟨e, rfl⟩)
  | some (.ok a) => exact .inr (.inr ⟨a, rfl⟩)

/-- A proof that an endless loop is one. -/
theorem admissible_none {γ : Type} (c : γ) :
    Lean.Order.admissible (fun g : γ → FM α => g c = (none : Option _)) := by
  refine Lean.Order.admissible_apply (β := fun _ => FM α) (P := fun _ y => y = (none : Option _)) c ?_
  exact Lean.Order.admissible_flatOrder (b := (none : Option (Except FErr α))) (P := fun y => y = none) rfl

theorem admissible_none2 {γ δ : Type} (c : γ) (d : δ) :
    Lean.Order.admissible (fun g : γ → δ → FM α => g c d = (none : Option _)) :=
  Lean.Order.admissible_apply (β := fun _ => δ → FM α) (P := fun _ y => y d = (none : Option _)) c (admissible_none d)

end FM

open Fdt in
theorem be32_lt (m : Mem) (a : Nat) : be32 m a < 4294967296 := by
  unfold be32
  have := (m a).isLt; have := (m (a+1)).isLt; have := (m (a+2)).isLt; have := (m (a+3)).isLt
  omega

theorem fu32_lt (x : Int) : fu32 x < 4294967296 := by
  unfold fu32; omega

theorem s32_range (x : Int) : -2147483648 ≤ s32 x ∧ s32 x < 2147483648 := by
  unfold s32; omega

theorem s32_id {x : Int} (h : -2147483648 ≤ x) (h' : x < 2147483648) : s32 x = x := by
  unfold s32; omega

theorem fu32_id {x : Int} (h : 0 ≤ x) (h' : x < 4294967296) : (fu32 x : Int) = x := by
  unfold fu32; omega

theorem fu32_nat {x : Nat} (h' : x < 4294967296) : fu32 (x : Int) = x := by
  unfold fu32; omega

theorem chk_ok {x : Int} (h : -2147483648 ≤ x) (h' : x < 2147483648) : chk x = pure x := if_pos ⟨h, h'⟩

theorem chk_cases (x : Int) : chk x = pure x ∨ chk x = throw .ub := by
  unfold chk; split
  · exact .inl rfl
  · exact .inr rfl

namespace Fdt

/-- The blob lies inside the buffer and its size is not close to the largest `int`. -/
structure Within (f : Fdt) : Prop where
  size : f.total < 2147483632
  cap : f.total ≤ f.cap

/-- A pointer that was checked is inside the blob. -/
theorem offsetPtr_some {f : Fdt} {o : Int} {len a : Nat} (ho : o < 2147483648) (hl : len < 4294967296)
    (h : f.offsetPtr o len = some a) :
    0 ≤ o ∧ (a : Int) = f.offStruct + o ∧ a + len ≤ f.total ∧ (f.version ≥ 0x11 → o + len ≤ f.sizeStruct) := by
  unfold offsetPtr at h
  have h1 : f.offStruct < 4294967296 := be32_lt _ _
  have h2 : f.total < 4294967296 := be32_lt _ _
  have h3 : f.sizeStruct < 4294967296 := be32_lt _ _
  dsimp only at h
  split at h
  · cases h
  · split at h
    · cases h
    · split at h
      · cases h
      · rename_i g1 g2 g3
        simp only [Option.some.injEq] at h
        unfold fu32 at g2 g3
        refine ⟨by omega, by omega, by omega, ?_⟩
        intro hv
        have g4 : ¬ ((fu32 ((fu32 o + len : Nat) : Int) < fu32 o) ∨ fu32 ((fu32 o + len : Nat) : Int) > f.sizeStruct) := by
          intro hh; exact g3 ⟨hv, hh⟩
        unfold fu32 at g4
        omega

/-- When the checks pass. -/
theorem offsetPtr_ok {f : Fdt} {o : Int} {len : Nat} (ho : 0 ≤ o) (h1 : f.offStruct + o + len ≤ f.total)
    (h2 : f.version ≥ 0x11 → o + len ≤ f.sizeStruct) :
    f.offsetPtr o len = some (f.offStruct + o.toNat) := by
  have h4 : f.total < 4294967296 := be32_lt _ _
  unfold offsetPtr
  dsimp only
  rw [if_neg (by omega), if_neg (by unfold fu32; omega), if_neg]
  rintro ⟨hv, hh⟩
  have := h2 hv
  unfold fu32 at hh
  omega

theorem rd_ok {f : Fdt} {a : Nat} (h : a < f.cap) : f.rd a = pure (f.m a) := if_pos h

theorem rd32_ok {f : Fdt} {a : Nat} (h : a + 4 ≤ f.cap) : f.rd32 a = pure (be32 f.m a) := if_pos h

/-- The loop over a name ends inside the blob. -/
theorem skipName_within {f : Fdt} (w : f.Within) (o : Int) (h0 : 0 ≤ o) (h1 : o < 2147483647) :
    f.skipName o = pure none ∨
      ∃ e, f.skipName o = pure (some e) ∧ o < e ∧ e ≤ f.total := by
  have hs0 : (f.offStruct : Int) ≥ 0 := by omega
  generalize hk : (f.total - o.toNat) = k
  induction k using Nat.strongRecOn generalizing o with
  | _ k ih =>
    rw [skipName, chk_ok (by omega) (by omega), pure_bind]
    cases hp : f.offsetPtr o 1 with
    | none => exact .inl rfl
    | some p =>
      obtain ⟨_, g1, g2, _⟩ := offsetPtr_some (by omega) (by omega) hp
      have := w.cap
      have := w.size
      dsimp only
      rw [rd_ok (by omega), pure_bind]
      split
      · have := w.size
        rcases ih (f.total - (o+1).toNat) (by omega) (o + 1) (by omega) (by omega) rfl with h | ⟨e, h, a, b⟩
        · exact .inl h
        · exact .inr ⟨e, h, by omega, b⟩
      · exact .inr ⟨o + 1, rfl, by omega, by omega⟩

/-- A property whose length makes the end of the property its start. -/
def Stuck (f : Fdt) (o : Int) : Prop := f.nextTag o = pure (PROP, o)

/-- Outcomes of `fdt_next_tag` for all blobs and offsets: never an access outside, never an endless loop, a signed
overflow or no progress only at a property. -/
theorem nextTag_within {f : Fdt} (w : f.Within) (o : Int) (ho : o < 2147483648) :
    (f.nextTag o = throw .ub ∧ 0 ≤ o ∧ f.offStruct + o + 8 ≤ f.total ∧ be32 f.m (f.offStruct + o.toNat) = PROP
        ∧ be32 f.m (f.offStruct + o.toNat + 4) ≥ 2147483632 - f.total) ∨
    (∃ n, f.nextTag o = pure (END, n) ∧ (n = -8 ∨ n = -3)) ∨
    (∃ t n, f.nextTag o = pure (t, n) ∧ (t = BEGIN_NODE ∨ t = END_NODE ∨ t = PROP ∨ t = NOP ∨ t = END)
      ∧ 0 ≤ o ∧ o ≤ n ∧ n % 4 = 0 ∧ n ≤ f.total + 3
      ∧ f.offStruct + o + 4 ≤ f.total ∧ be32 f.m (f.offStruct + o.toNat) = t
      ∧ (n = o → t = PROP ∧ be32 f.m (f.offStruct + o.toNat + 4) ≥ 4294967280)) := by
  have hsz := w.size
  have hcap := w.cap
  unfold nextTag
  cases hp : f.offsetPtr o 4 with
  | none => exact .inr (.inl ⟨-8, rfl, .inl rfl⟩)
  | some tagp =>
    obtain ⟨g0, g1, g2, _⟩ := offsetPtr_some ho (by omega) hp
    have ha : tagp = f.offStruct + o.toNat := by omega
    subst ha
    dsimp only
    rw [rd32_ok (by omega), pure_bind]
    generalize htag : be32 f.m (f.offStruct + o.toNat) = tag
    rw [s32_id (x := o + 4) (by omega) (by omega)]
    -- the rest, from the end of the tag
    have fin : ∀ e : Int, -2147483648 ≤ e → e < 2147483648 →
        ((o ≤ e → o + 4 ≤ e ∨ (tag = PROP ∧ be32 f.m (f.offStruct + o.toNat + 4) ≥ 4294967280)) ) →
        (tag = BEGIN_NODE ∨ tag = END_NODE ∨ tag = PROP ∨ tag = NOP ∨ tag = END) →
        (e - o < -2147483648 → f.offStruct + o + 8 ≤ f.total ∧ tag = PROP
          ∧ be32 f.m (f.offStruct + o.toNat + 4) ≥ 2147483632 - f.total) →
        ((do let d ← chk (e - o)
             match f.offsetPtr o (fu32 d) with
             | none => pure (END, -3)
             | some _ => pure (tag, tagAlign e)) = (throw .ub : FM _) ∧ 0 ≤ o ∧ f.offStruct + o + 8 ≤ f.total ∧ tag = PROP
             ∧ be32 f.m (f.offStruct + o.toNat + 4) ≥ 2147483632 - f.total) ∨
        (∃ n, (do let d ← chk (e - o)
                  match f.offsetPtr o (fu32 d) with
                  | none => pure (END, -3)
                  | some _ => pure (tag, tagAlign e)) = (pure (END, n) : FM _) ∧ (n = -8 ∨ n = -3)) ∨
        (∃ t n, (do let d ← chk (e - o)
                    match f.offsetPtr o (fu32 d) with
                    | none => pure (END, -3)
                    | some _ => pure (tag, tagAlign e)) = (pure (t, n) : FM _)
          ∧ (t = BEGIN_NODE ∨ t = END_NODE ∨ t = PROP ∨ t = NOP ∨ t = END)
          ∧ 0 ≤ o ∧ o ≤ n ∧ n % 4 = 0 ∧ n ≤ f.total + 3 ∧ f.offStruct + o + 4 ≤ f.total ∧ tag = t
          ∧ (n = o → t = PROP ∧ be32 f.m (f.offStruct + o.toNat + 4) ≥ 4294967280)) := by
      intro e e1 e2 e3 e4 e5
      by_cases hov : e - o < -2147483648
      · obtain ⟨x1, x2, x3⟩ := e5 hov
        refine .inl ⟨?_, g0, x1, x2, x3⟩
        rw [show chk (e - o) = throw .ub from if_neg (by omega)]
        rfl
      · rw [chk_ok (by omega) (by omega), pure_bind]
        cases hq : f.offsetPtr o (fu32 (e - o)) with
        | none => exact .inr (.inl ⟨-3, rfl, .inr rfl⟩)
        | some q =>
          obtain ⟨_, q1, q2, _⟩ := offsetPtr_some ho (fu32_lt _) hq
          have heo : o ≤ e := by unfold fu32 at q2; omega
          have hu : (fu32 (e - o) : Int) = e - o := fu32_id (by omega) (by omega)
          refine .inr (.inr ⟨tag, tagAlign e, rfl, e4, g0, ?_⟩)
          unfold tagAlign
          rw [s32_id (by omega) (by omega)]
          refine ⟨by omega, by omega, by omega, by omega, rfl, ?_⟩
          intro hn
          rcases e3 heo with h | h
          · omega
          · exact h
    unfold tagEnd
    by_cases h1 : tag = BEGIN_NODE
    · rw [if_pos h1]
      rcases skipName_within w (o + 4) (by omega) (by omega) with h | ⟨e, h, a, b⟩
      · rw [h]; exact .inr (.inl ⟨-3, rfl, .inr rfl⟩)
      · rw [h, pure_bind]
        exact fin e (by omega) (by omega) (fun _ => .inl (by omega)) (.inl h1) (fun _ => by omega)
    · rw [if_neg h1]
      by_cases h2 : tag = PROP
      · rw [if_pos h2]
        cases hl : f.offsetPtr (o + 4) 4 with
        | none => exact .inr (.inl ⟨-3, rfl, .inr rfl⟩)
        | some lenp =>
          obtain ⟨_, l1, l2, _⟩ := offsetPtr_some (by omega) (by omega) hl
          have hb : lenp = f.offStruct + o.toNat + 4 := by omega
          subst hb
          dsimp only
          rw [rd32_ok (by omega), pure_bind]
          have hlen := be32_lt f.m (f.offStruct + o.toNat + 4)
          generalize hlv : be32 f.m (f.offStruct + o.toNat + 4) = len at hlen fin ⊢
          split
          · rename_i hv
            rw [pure_bind]
            refine fin _ (s32_range _).1 (s32_range _).2 ?_ (.inr (.inr (.inl h2))) ?_
            · intro _
              by_cases hbig : len ≥ 4294967280
              · exact .inr ⟨h2, hbig⟩
              · left; unfold s32 at *; omega
            · intro hd
              unfold s32 at hd
              exact ⟨by omega, h2, by omega⟩
          · rw [pure_bind]
            refine fin _ (s32_range _).1 (s32_range _).2 ?_ (.inr (.inr (.inl h2))) ?_
            · intro _
              by_cases hbig : len ≥ 4294967280
              · exact .inr ⟨h2, hbig⟩
              · left; unfold s32 at *; omega
            · intro hd
              unfold s32 at hd
              exact ⟨by omega, h2, by omega⟩
      · rw [if_neg h2]
        split
        · rename_i h3
          rw [pure_bind]
          refine fin _ (by omega) (by omega) (fun _ => .inl (by omega)) ?_ (fun _ => by omega)
          rcases h3 with h | h | h
          · exact .inr (.inr (.inr (.inr h)))
          · exact .inr (.inl h)
          · exact .inr (.inr (.inr (.inl h)))
        · rw [pure_bind]; exact .inr (.inl ⟨-3, rfl, .inr rfl⟩)

/-- Which properties are stuck: those with length `0xFFFFFFF4`. -/
theorem stuck_iff {f : Fdt} (w : f.Within) (hv : f.version ≥ 0x10) (o : Int) (ho : o < 2147483648) :
    f.Stuck o ↔ 0 ≤ o ∧ o % 4 = 0 ∧ f.offStruct + o + 8 ≤ f.total ∧ (f.version ≥ 0x11 → o + 8 ≤ f.sizeStruct)
      ∧ be32 f.m (f.offStruct + o.toNat) = PROP ∧ be32 f.m (f.offStruct + o.toNat + 4) = 4294967284 := by
  have hsz := w.size
  have hcap := w.cap
  unfold Stuck nextTag
  constructor
  · intro h
    cases hp : f.offsetPtr o 4 with
    | none => rw [hp] at h; exact absurd (FM.pure_inj h) (by simp [END, PROP])
    | some tagp =>
      obtain ⟨g0, g1, g2, _⟩ := offsetPtr_some ho (by omega) hp
      have ha : tagp = f.offStruct + o.toNat := by omega
      subst ha
      rw [hp] at h
      dsimp only at h
      rw [rd32_ok (by omega), pure_bind, s32_id (x := o + 4) (by omega) (by omega)] at h
      have htag : be32 f.m (f.offStruct + o.toNat) = PROP := by
        rcases nextTag_within w o ho with h' | ⟨n, h', _⟩ | ⟨t, n, h', _, _, _, _, _, _, hb, _⟩
        all_goals
          have h2 := h'
        · have h3 := h2.1
          unfold nextTag at h3
          rw [hp] at h3
          dsimp only at h3
          rw [rd32_ok (by omega), pure_bind, s32_id (x := o + 4) (by omega) (by omega), h] at h3
          exact absurd h3 (FM.pure_ne_throw _ _)
        · unfold nextTag at h2
          rw [hp] at h2
          dsimp only at h2
          rw [rd32_ok (by omega), pure_bind, s32_id (x := o + 4) (by omega) (by omega), h] at h2
          exact absurd (FM.pure_inj h2) (by simp [END, PROP])
        · unfold nextTag at h2
          rw [hp] at h2
          dsimp only at h2
          rw [rd32_ok (by omega), pure_bind, s32_id (x := o + 4) (by omega) (by omega), h] at h2
          have := FM.pure_inj h2
          simp only [Prod.mk.injEq] at this
          omega
      rw [htag] at h
      unfold tagEnd at h
      rw [if_neg (by decide), if_pos rfl] at h
      cases hl : f.offsetPtr (o + 4) 4 with
      | none =>
        rw [hl] at h
        simp only [pure_bind] at h
        exact absurd (FM.pure_inj h) (by simp [END, PROP])
      | some lenp =>
        obtain ⟨_, l1, l2, l3⟩ := offsetPtr_some (by omega) (by omega) hl
        have hb : lenp = f.offStruct + o.toNat + 4 := by omega
        subst hb
        rw [hl] at h
        simp only at h
        rw [rd32_ok (by omega), pure_bind] at h
        have hlen := be32_lt f.m (f.offStruct + o.toNat + 4)
        generalize hlv : be32 f.m (f.offStruct + o.toNat + 4) = len at hlen h
        rw [if_neg (by omega), pure_bind] at h
        dsimp only at h
        rcases chk_cases (s32 (o + 4 + 12 - 4 + len) - o) with hc | hc
        · rw [hc, pure_bind] at h
          cases hq : f.offsetPtr o (fu32 (s32 (o + 4 + 12 - 4 + len) - o)) with
          | none => rw [hq] at h; exact absurd (FM.pure_inj h) (by simp [END, PROP])
          | some q =>
            obtain ⟨_, q1, q2, _⟩ := offsetPtr_some ho (fu32_lt _) hq
            rw [hq] at h
            have hn := FM.pure_inj h
            simp only [Prod.mk.injEq, true_and] at hn
            unfold tagAlign at hn
            have hr := s32_range (o + 4 + 12 - 4 + len)
            have hmod : ∃ k, s32 (o + 4 + 12 - 4 + len) = o + 4 + 12 - 4 + len - 4294967296 * k :=
              ⟨(o + 4 + 12 - 4 + len + 2147483648) / 4294967296, by unfold s32; omega⟩
            obtain ⟨k, hk⟩ := hmod
            have hge : o ≤ s32 (o + 4 + 12 - 4 + len) := by
              unfold fu32 at q2
              omega
            have hu : (fu32 (s32 (o + 4 + 12 - 4 + len) - o) : Int) = s32 (o + 4 + 12 - 4 + len) - o :=
              fu32_id (by omega) (by omega)
            rw [s32_id (by omega) (by omega)] at hn
            refine ⟨g0, by omega, by omega, fun hv => by have := l3 hv; omega, htag, ?_⟩
            omega
        · rw [hc] at h
          exact absurd h.symm (FM.pure_ne_throw _ _)
  · rintro ⟨h0, h4, h8, hs, ht, hl⟩
    rw [offsetPtr_ok h0 (by omega) (fun hv => by have := hs hv; omega)]
    dsimp only
    rw [rd32_ok (by omega), pure_bind, s32_id (x := o + 4) (by omega) (by omega), ht]
    unfold tagEnd
    rw [if_neg (by decide), if_pos rfl,
      offsetPtr_ok (by omega) (by omega) (fun hv => by have := hs hv; omega)]
    dsimp only
    rw [show f.offStruct + (o + 4).toNat = f.offStruct + o.toNat + 4 by omega, rd32_ok (by omega), pure_bind, hl,
      if_neg (by omega), pure_bind]
    dsimp only
    rw [show s32 (o + 4 + 12 - 4 + (4294967284 : Nat)) = o by unfold s32; omega, chk_ok (by omega) (by omega), pure_bind,
      offsetPtr_ok h0 (by unfold fu32; omega) (fun hv => by have := hs hv; unfold fu32; omega)]
    dsimp only
    rw [show tagAlign o = o by unfold tagAlign s32; omega]

/-- No property is stuck. -/
def NoStuck (f : Fdt) : Prop := ∀ o, o < 2147483648 → ¬ f.Stuck o

/-- Finding a property of a node ends, for all blobs. -/
theorem nextProperty_within {f : Fdt} (w : f.Within) (o : Int) (ho : o < 2147483648) :
    f.nextProperty o = throw .ub ∨ (∃ n, f.nextProperty o = pure n ∧ n < 0) ∨
      ∃ n k, f.nextProperty o = pure n ∧ o ≤ n ∧ 0 ≤ n ∧ n < 2147483648 ∧ f.nextTag n = pure (PROP, k) := by
  have hsz := w.size
  generalize hk : (f.total + 4 - o.toNat) = k
  induction k using Nat.strongRecOn generalizing o with
  | _ k ih =>
    rw [nextProperty]
    rcases nextTag_within w o ho with ⟨h, _⟩ | ⟨n, h, hn⟩ | ⟨t, n, h, ht, h0, h1, h2, h3, h4, h5, h6⟩
    · rw [h]; exact .inl rfl
    · rw [h, pure_bind]
      dsimp only
      rw [if_pos rfl, if_neg (by omega)]
      exact .inr (.inl ⟨n, rfl, by omega⟩)
    · rw [h, pure_bind]
      dsimp only
      by_cases a1 : t = END
      · rw [if_pos a1, if_pos (by omega)]
        exact .inr (.inl ⟨_, rfl, by omega⟩)
      · rw [if_neg a1]
        by_cases a2 : t = PROP
        · rw [if_pos a2]
          exact .inr (.inr ⟨o, n, rfl, by omega, h0, ho, by rw [h, a2]⟩)
        · rw [if_neg a2]
          by_cases a3 : t = NOP
          · rw [if_pos a3]
            have hno : n ≠ o := fun hh => a2 (h6 hh).1
            rcases ih (f.total + 4 - n.toNat) (by omega) n (by omega) rfl with h | h | ⟨r, k, h, b1, b2⟩
            · exact .inl h
            · exact .inr (.inl h)
            · exact .inr (.inr ⟨r, k, h, by omega, b2⟩)
          · rw [if_neg a3]
            exact .inr (.inl ⟨_, rfl, by omega⟩)

/-- The check of an offset ends inside the blob. -/
theorem checkOffset_within {f : Fdt} (w : f.Within) (tag : Nat) (htag : tag ≠ END) (o : Int) (ho : o < 2147483648) :
    f.checkOffset tag o = throw .ub ∨ f.checkOffset tag o = pure (-4) ∨
      ∃ n, f.checkOffset tag o = pure n ∧ 0 ≤ o ∧ o ≤ n ∧ n ≤ f.total + 3 ∧ f.nextTag o = pure (tag, n) := by
  unfold checkOffset
  split
  · exact .inr (.inl rfl)
  · rcases nextTag_within w o ho with ⟨h, _⟩ | ⟨n, h, hn⟩ | ⟨t, n, h, ht, h0, h1, h2, h3, h4, h5, h6⟩
    · rw [h]; exact .inl rfl
    · rw [h, pure_bind]
      dsimp only
      rw [if_pos (Ne.symm htag)]
      exact .inr (.inl rfl)
    · rw [h, pure_bind]
      dsimp only
      by_cases a : t = tag
      · rw [if_neg (by simp [a])]
        exact .inr (.inr ⟨n, rfl, h0, h1, h3, by rw [a]⟩)
      · rw [if_pos a]
        exact .inr (.inl rfl)

/-- Finding the next node ends inside the blob, when no property is stuck. -/
theorem nextNodeLoop_within {f : Fdt} (w : f.Within) (ns : f.NoStuck) (o : Int) (ho : o < 2147483648)
    (d : Option Int) :
    f.nextNodeLoop o d = throw .ub ∨
      ∃ r d', f.nextNodeLoop o d = pure (r, d') ∧ (d' = none ↔ d = none) ∧
        (0 ≤ r → r ≤ f.total + 3 ∧ ((∃ k, o ≤ r ∧ f.nextTag r = pure (BEGIN_NODE, k)) ∨ (∃ e, d' = some e ∧ e < 0))) := by
  have hsz := w.size
  generalize hk : (f.total + 4 - o.toNat) = k
  induction k using Nat.strongRecOn generalizing o d with
  | _ k ih =>
    rw [nextNodeLoop.eq_def]
    rcases nextTag_within w o ho with ⟨h, _⟩ | ⟨n, h, hn⟩ | ⟨t, n, h, ht, h0, h1, h2, h3, h4, h5, h6⟩
    · rw [h]; exact .inl rfl
    · rw [h, pure_bind]
      dsimp only
      rw [if_neg (by decide), if_neg (by decide), if_pos rfl]
      split
      · exact .inr ⟨-6, d, rfl, Iff.rfl, fun h => by omega⟩
      · exact .inr ⟨n, d, rfl, Iff.rfl, fun h => by omega⟩
    · have hno : n ≠ o := by
        intro hh
        have ht := (h6 hh).1
        rw [ht, hh] at h
        exact ns o ho h
      have again : ∀ d2 : Option Int, (d2 = none ↔ d = none) → f.nextNodeLoop n d2 = throw .ub ∨
          ∃ r d', f.nextNodeLoop n d2 = pure (r, d') ∧ (d' = none ↔ d = none) ∧
            (0 ≤ r → r ≤ f.total + 3 ∧ ((∃ k, o ≤ r ∧ f.nextTag r = pure (BEGIN_NODE, k)) ∨ (∃ e, d' = some e ∧ e < 0))) := by
        intro d2 hd2
        rcases ih (f.total + 4 - n.toNat) (by omega) n (by omega) d2 rfl with x | ⟨r, d', x, y, z⟩
        · exact .inl x
        · refine .inr ⟨r, d', x, y.trans hd2, fun hr => ⟨(z hr).1, ?_⟩⟩
          rcases (z hr).2 with ⟨k, b1, b2⟩ | b
          · exact .inl ⟨k, by omega, b2⟩
          · exact .inr b
      rw [h, pure_bind]
      dsimp only
      by_cases a1 : t = BEGIN_NODE
      · rw [if_pos a1]
        rw [a1] at h
        cases d with
        | none => exact .inr ⟨o, none, rfl, Iff.rfl, fun _ => ⟨by omega, .inl ⟨n, by omega, h⟩⟩⟩
        | some d =>
          rcases chk_cases (d + 1) with hc | hc
          · dsimp only
            rw [hc, pure_bind]
            exact .inr ⟨o, some (d + 1), rfl, by simp, fun _ => ⟨by omega, .inl ⟨n, by omega, h⟩⟩⟩
          · dsimp only
            rw [hc]; exact .inl rfl
      · rw [if_neg a1]
        by_cases a2 : t = END_NODE
        · rw [if_pos a2]
          cases d with
          | none => exact again none Iff.rfl
          | some d =>
            dsimp only
            rcases chk_cases (d - 1) with hc | hc
            · rw [hc, pure_bind]
              split
              · rename_i hneg
                exact .inr ⟨n, some (d - 1), rfl, by simp, fun _ => ⟨by omega, .inr ⟨d - 1, rfl, hneg⟩⟩⟩
              · exact again _ (by simp)
            · rw [hc]; exact .inl rfl
        · rw [if_neg a2]
          by_cases a3 : t = END
          · rw [if_pos a3, if_pos (by omega)]
            exact .inr ⟨-6, d, rfl, Iff.rfl, fun h => by omega⟩
          · rw [if_neg a3]
            exact again d Iff.rfl

/-- A stuck property makes the search for the next node endless. -/
theorem stuck_nextNodeLoop {f : Fdt} {o : Int} (h : f.Stuck o) (d : Option Int) :
    f.nextNodeLoop o d = (none : Option _) := by
  have : (fun g : Int → Option Int → FM (Int × Option Int) => ∀ d, g o d = (none : Option _)) (nextNodeLoop f) := by
    refine nextNodeLoop.fixpoint_induct f (fun g => ∀ d, g o d = (none : Option _)) ?_ ?_
    · exact Lean.Order.admissible_pi _ (fun d => FM.admissible_none2 o d)
    · intro g hg d
      unfold Stuck at h
      simp only [h, pure_bind]
      rw [if_neg (by decide), if_neg (by decide), if_neg (by decide)]
      exact hg d
  exact this d

end Fdt

end Verif
