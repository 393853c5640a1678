import Verif.FdtSet

/-!
# Setting a property of a device tree: theorems

`/repo/src/fdt.c:533-578`.
-/

namespace Verif

/-- What setting a property does to the tags after that of its node and to the strings: the first property of that name gets the new
value, or a new property comes first and its name is among the strings. -/
inductive SetIn (strs name val : List Byte) (post : List FTok) : List Byte → List FTok → Prop
  | replaced (a b : List FTok) (no : Nat) (v p pad : List Byte) (e : post = a ++ .prop no v p :: b)
      (ha : ∀ x ∈ a, x = .nop ∨ ∃ no' v' p', x = .prop no' v' p' ∧ nameAt strs no' ≠ some name)
      (hn : nameAt strs no = some name) : SetIn strs name val post strs (a ++ .prop no val pad :: b)
  | added (strs' : List Byte) (no : Nat) (pad : List Byte) (hnone : propVal strs name post = none)
      (hs : strs' = strs ∨ strs' = strs ++ (name ++ [0])) (hn : nameAt strs' no = some name) :
      SetIn strs name val post strs' (.prop no val pad :: post)

/-- **C40 (setting).** On an encoded blob `fdt_setprop` ends with the blob that has the property set, or with `-FDT_ERR_NOSPACE` and the same
tags and strings. Nothing before the structure block changes but the sizes and the offset of the strings. -/
theorem fdt_setprop_spec {f : Fdt} {ts : List FTok} {strs : List Byte} (h : FdtOK f ts strs) {pre post : List FTok} {nm pd : List Byte}
    (e : ts = pre ++ .node nm pd :: post) (pe : PropsEnd post) {name val : List Byte} (hz : (0 : Byte) ∉ name)
    (hlen : name.length < 2147483600) (hval : val.length < 2147483600) :
    ∃ r f', f.setprop (offOf pre) name val = pure (r, f') ∧ Kept f f' ∧
      ((r = -7 ∧ FdtOK f' ts strs ∧ f.offStrings + f.sizeStrings + (12 + FdtOK.room val.length + (name.length + 1)) > f.total) ∨
        (r = 0 ∧ ∃ post' strs', FdtOK f' (pre ++ .node nm pd :: post') strs' ∧ SetIn strs name val post strs' post')) := by
  cases hp : propVal strs name post with
  | none =>
    rcases h.set_new e hp pe hz hlen hval with ⟨f', h1, h2, h3, h4⟩ | ⟨f', no, pad, strs', h1, h2, h3, h4, h5⟩
    · exact ⟨-7, f', h1, h2, .inl ⟨rfl, h3, h4⟩⟩
    · exact ⟨0, f', h1, h2, .inr ⟨rfl, _, strs', h3, .added strs' no pad hp h5 h4⟩⟩
  | some v =>
    obtain ⟨a, no, p, b, h1, h2, h3, h4⟩ := look_some (so := f.offStruct) (o := offOf (pre ++ [.node nm pd])) hp
    have hg := h.getProperty e name
    rw [h4] at hg
    have e' : ts = (pre ++ [.node nm pd] ++ a) ++ .prop no v p :: b := by rw [e, h1]; simp
    have ho : offOf (pre ++ [.node nm pd] ++ a) = offOf (pre ++ [.node nm pd]) + (encs a).length := by
      unfold offOf; rw [encs_append _ a, List.length_append]
    rw [← ho] at hg
    rcases h.set_existing e' hg hval with ⟨g1, g2⟩ | ⟨g1, f', pad, g2, g3, g4⟩
    · refine ⟨-7, f, g2, Kept.refl f, .inl ⟨rfl, h, ?_⟩⟩
      have hl := (h.tok e').2.1
      have := h.order; have := h.low
      have ok := (h.tok e').2.2.1
      simp only [FTok.OK] at ok
      unfold FdtOK.room at *
      omega
    · refine ⟨0, f', g2, g3, .inr ⟨rfl, a ++ .prop no val pad :: b, strs, ?_, .replaced a b no v p pad h1 h3 h2⟩⟩
      rw [show pre ++ FTok.node nm pd :: (a ++ FTok.prop no val pad :: b) = pre ++ [FTok.node nm pd] ++ a ++ FTok.prop no val pad :: b by simp]
      exact g4

theorem propVal_skip {strs name : List Byte} {a : List FTok} (x : List FTok)
    (ha : ∀ y ∈ a, y = .nop ∨ ∃ no' v' p', y = .prop no' v' p' ∧ nameAt strs no' ≠ some name) :
    propVal strs name (a ++ x) = propVal strs name x := by
  induction a with
  | nil => rfl
  | cons y a ih =>
    have h1 := ha y (by simp)
    have h2 := ih fun z hz => ha z (by simp [hz])
    rcases h1 with h1 | ⟨no', v', p', h1, h3⟩
    · rw [h1, List.cons_append, propVal, h2]
    · rw [h1, List.cons_append, propVal, if_neg h3, h2]

/-- The names of the properties do not change when strings are appended. -/
theorem propVal_strs {strs name x : List Byte} {l : List FTok} (h : ∀ no v p, FTok.prop no v p ∈ l → ∃ s, nameAt strs no = some s) :
    propVal (strs ++ x) name l = propVal strs name l := by
  induction l with
  | nil => rfl
  | cons t l ih =>
    have h2 := ih fun no v p hp => h no v p (by simp [hp])
    cases t with
    | prop no v p =>
      obtain ⟨s, hs⟩ := h no v p (by simp)
      rw [propVal, propVal, h2, FdtOK.nameAt_append hs, hs]
    | nop => rw [propVal, propVal, h2]
    | node _ _ => rfl
    | endNode => rfl
    | fin => rfl

/-- The property set is read back. -/
theorem SetIn.same {strs name val strs' : List Byte} {post post' : List FTok} (h : SetIn strs name val post strs' post') :
    propVal strs' name post' = some val := by
  cases h with
  | replaced a b no v p pad e ha hn => rw [propVal_skip _ ha, propVal, if_pos hn]
  | added _ no pad hnone hs hn => rw [propVal, if_pos hn]

/-- The other properties of the node are read as before. -/
theorem SetIn.other {strs name val strs' : List Byte} {post post' : List FTok} (h : SetIn strs name val post strs' post')
    (hn : ∀ no v p, FTok.prop no v p ∈ post → ∃ s, nameAt strs no = some s) {name' : List Byte} (hne : name' ≠ name) :
    propVal strs' name' post' = propVal strs name' post := by
  cases h with
  | replaced a b no v p pad e ha hnm =>
    subst e
    clear hn ha
    induction a with
    | nil => 
      have : nameAt strs no ≠ some name' := by rw [hnm]; intro hh; exact hne (Option.some.inj hh).symm
      rw [List.nil_append, List.nil_append, propVal, propVal, if_neg this, if_neg this]
    | cons t a ih =>
      rw [List.cons_append, List.cons_append]
      cases t <;> simp only [propVal] <;> rw [ih]
  | added _ no pad hnone hs hnm =>
    have : nameAt strs' no ≠ some name' := by
      rw [hnm]; intro hh; exact hne (Option.some.inj hh).symm
    rw [propVal, if_neg this]
    rcases hs with hh | hh
    · rw [hh]
    · rw [hh]; exact propVal_strs hn

/-- The strings are the same or longer. -/
theorem SetIn.strs {strs name val strs' : List Byte} {post post' : List FTok} (h : SetIn strs name val post strs' post') :
    ∃ x, strs' = strs ++ x := by
  cases h with
  | replaced a b no v p pad e ha hn => exact ⟨[], by simp⟩
  | added _ no pad hnone hs hn =>
    rcases hs with hh | hh
    · exact ⟨[], by rw [hh]; simp⟩
    · exact ⟨_, hh⟩

/-- Nodes further on are moved, not changed. -/
theorem SetIn.later {strs name val strs' : List Byte} {post post' : List FTok} (h : SetIn strs name val post strs' post')
    {q r : List FTok} {n d : List Byte} (e : post = q ++ .node n d :: r) :
    ∃ q', post' = q' ++ .node n d :: r ∧ offOf q' + offOf post = offOf q + offOf post' := by
  cases h with
  | replaced a b no v p pad e' ha hn =>
    rw [e'] at e
    -- the property comes before the node
    have : ∃ c, q = a ++ .prop no v p :: c ∧ b = c ++ .node n d :: r := by
      clear e' hn
      induction a generalizing q with
      | nil =>
        rw [List.nil_append] at e
        cases q with
        | nil => rw [List.nil_append] at e; cases e
        | cons t q =>
          rw [List.cons_append] at e
          have := List.cons.inj e
          exact ⟨q, by rw [← this.1]; rfl, this.2⟩
      | cons t a ih =>
        cases q with
        | nil =>
          rw [List.cons_append, List.nil_append] at e
          have := (List.cons.inj e).1
          rcases ha t (by simp) with hh | ⟨_, _, _, hh, _⟩ <;> rw [hh] at this <;> cases this
        | cons t' q =>
          rw [List.cons_append, List.cons_append] at e
          have := List.cons.inj e
          obtain ⟨c, h1, h2⟩ := ih this.2 (fun x hx => ha x (by simp [hx]))
          exact ⟨c, by rw [h1, ← this.1]; rfl, h2⟩
    obtain ⟨c, h1, h2⟩ := this
    refine ⟨a ++ .prop no val pad :: c, by rw [h2]; simp, ?_⟩
    rw [e', h1, h2]
    unfold offOf
    simp only [encs_append, encs_cons, List.length_append]
    omega
  | added _ no pad hnone hs hn =>
    refine ⟨.prop no val pad :: q, by rw [e]; rfl, ?_⟩
    unfold offOf
    rw [encs_cons, encs_cons, List.length_append, List.length_append]
    omega

theorem propVal_stop {strs name : List Byte} {n d : List Byte} (r x y : List FTok) :
    propVal strs name (r ++ .node n d :: x) = propVal strs name (r ++ .node n d :: y) := by
  induction r with
  | nil => rfl
  | cons t r ih =>
    rw [List.cons_append, List.cons_append]
    cases t <;> simp only [propVal] <;> rw [ih]

/-- What `fdt_getprop` says: the bytes of a value, or that there is none. -/
def Reads (f : Fdt) (o : Int) (name : List Byte) : Option (List Byte) → Prop
  | some v => ∃ a : Nat, f.getprop o name = pure (.found (a : Int) v.length) ∧ BytesAt f.m a v ∧ a + v.length ≤ f.total
  | none => ∃ err, f.getprop o name = pure (.err err) ∧ err < 0

theorem reads_propVal {f : Fdt} {ts : List FTok} {strs : List Byte} (h : FdtOK f ts strs) {pre post : List FTok}
    {nm pd : List Byte} (e : ts = pre ++ .node nm pd :: post) (name : List Byte) :
    Reads f (offOf pre) name (propVal strs name post) := by
  have := fdt_getprop_spec h e name
  revert this
  cases propVal strs name post with
  | none => exact fun ⟨err, h1, h2, _⟩ => ⟨err, h1, h2⟩
  | some v => exact fun h => h

/-- One value is read. -/
theorem Reads.unique {f : Fdt} {o : Int} {name : List Byte} {v w : Option (List Byte)} (h : Reads f o name v) (h' : Reads f o name w) : v = w := by
  cases v with
  | none =>
    obtain ⟨_, h1, _⟩ := h
    cases w with
    | none => rfl
    | some w =>
      obtain ⟨_, h2, _⟩ := h'
      rw [h1] at h2
      exact absurd (FM.pure_inj h2) (by simp)
  | some v =>
    obtain ⟨a, h1, b1, _⟩ := h
    cases w with
    | none =>
      obtain ⟨_, h2, _⟩ := h'
      rw [h1] at h2
      exact absurd (FM.pure_inj h2) (by simp)
    | some w =>
      obtain ⟨c, h2, b2, _⟩ := h'
      rw [h1] at h2
      have := FM.pure_inj h2
      simp only [Fdt.GVal.found.injEq] at this
      have h3 : a = c := by omega
      have h4 : v.length = w.length := by omega
      subst h3
      unfold BytesAt at b1 b2
      rw [← h4, b1] at b2
      rw [b2]

/-- **C40.** `fdt_setprop` on an encoded blob, when it succeeds: the property reads back as the value, the other properties of the node read as
before, and so do all properties of all other nodes, those that come later at their new offset. When it fails, everything reads as before. -/
theorem fdt_setprop_reads_partial {f : Fdt} {ts : List FTok} {strs : List Byte} (h : FdtOK f ts strs) {pre post : List FTok} {nm pd : List Byte}
    (e : ts = pre ++ .node nm pd :: post) (pe : PropsEnd post) {name val : List Byte} (hz : (0 : Byte) ∉ name)
    (hlen : name.length < 2147483600) (hval : val.length < 2147483600) :
    ∃ r f', f.setprop (offOf pre) name val = pure (r, f') ∧
      ((r = -7 ∧ ∀ q n d s x v, ts = q ++ .node n d :: s → Reads f (offOf q) x v → Reads f' (offOf q) x v) ∨
        (r = 0 ∧ ∃ δ : Int,
          Reads f' (offOf pre) name (some val) ∧
          (∀ x v, x ≠ name → Reads f (offOf pre) x v → Reads f' (offOf pre) x v) ∧
          (∀ q n d s x v, pre = q ++ .node n d :: s → Reads f (offOf q) x v → Reads f' (offOf q) x v) ∧
          (∀ q n d s x v, post = q ++ .node n d :: s → Reads f (offOf (pre ++ .node nm pd :: q)) x v →
            Reads f' (offOf (pre ++ .node nm pd :: q) + δ) x v))) := by
  obtain ⟨r, f', h1, _, h2⟩ := fdt_setprop_spec h e pe hz hlen hval
  refine ⟨r, f', h1, ?_⟩
  rcases h2 with ⟨hr, h', _⟩ | ⟨hr, post', strs', h', hset⟩
  · refine .inl ⟨hr, fun q n d s x v hq hv => ?_⟩
    have a := reads_propVal h hq x
    have b := reads_propVal h' hq x
    rw [hv.unique a]
    exact b
  · refine .inr ⟨hr, (offOf post' : Int) - offOf post, ?_, ?_, ?_, ?_⟩
    · have := reads_propVal h' rfl name
      rw [hset.same] at this
      exact this
    · intro x v hx hv
      have a := reads_propVal h e x
      have b := reads_propVal h' rfl x
      rw [hset.other (fun no v p hp => h.names no v p (by rw [e]; simp [hp])) hx] at b
      rw [hv.unique a]
      exact b
    · intro q n d s x v hq hv
      have a := reads_propVal h (pre := q) (nm := n) (pd := d) (post := s ++ .node nm pd :: post) (by rw [e, hq]; simp) x
      have b := reads_propVal h' (pre := q) (nm := n) (pd := d) (post := s ++ .node nm pd :: post') (by rw [hq]; simp) x
      obtain ⟨y, hy⟩ := hset.strs
      rw [propVal_stop s post' post, hy, propVal_strs (fun no v p hp => h.names no v p (by rw [e, hq]; simp at hp ⊢; rcases hp with hp | hp <;> simp [hp]))] at b
      rw [hv.unique a]
      exact b
    · intro q n d s x v hq hv
      have a := reads_propVal h (pre := pre ++ .node nm pd :: q) (nm := n) (pd := d) (post := s) (by rw [e, hq]; simp) x
      obtain ⟨q', hq', ho⟩ := hset.later hq
      have b := reads_propVal h' (pre := pre ++ .node nm pd :: q') (nm := n) (pd := d) (post := s) (by rw [hq']; simp) x
      obtain ⟨y, hy⟩ := hset.strs
      rw [hy, propVal_strs (fun no v p hp => h.names no v p (by rw [e, hq]; simp [hp]))] at b
      rw [hv.unique a]
      have e2 : (offOf (pre ++ .node nm pd :: q) : Int) + ((offOf post' : Int) - offOf post) = (offOf (pre ++ .node nm pd :: q') : Int) := by
        unfold offOf at *
        simp only [encs_append, encs_cons, List.length_append] at *
        omega
      rw [e2]
      exact b

/-- **C40 (traversal).** For every content of a buffer that holds the blob, with no property of length `0xFFFFFFF4`: one step of the traversal,
the search for a property and that for the next node end and access nothing outside of the buffer. What is left is a signed overflow. -/
theorem fdt_traversal_partial {f : Fdt} (w : f.Within) (hv : f.version ≥ 0x10)
    (hlen : ∀ a, a + 8 ≤ f.total → be32 f.m a = 3 → be32 f.m (a + 4) ≠ 0xFFFFFFF4) (o : Int) (ho : o < 2147483648) (d : Option Int) :
    ((∃ r, f.nextTag o = pure r) ∨ f.nextTag o = throw .ub) ∧
    ((∃ r, f.nextProperty o = pure r) ∨ f.nextProperty o = throw .ub) ∧
    ((∃ r, f.nextNode o d = pure r) ∨ f.nextNode o d = throw .ub) := by
  have ns : f.NoStuck := by
    intro p hp hs
    obtain ⟨h1, h2, h3, h4, h5, h6⟩ := (Fdt.stuck_iff w hv p hp).1 hs
    exact hlen (f.offStruct + p.toNat) (by omega) h5 (by rw [h6])
  refine ⟨?_, ?_, ?_⟩
  · rcases Fdt.nextTag_within w o ho with ⟨h, _⟩ | ⟨n, h, _⟩ | ⟨t, n, h, _⟩
    · exact .inr h
    · exact .inl ⟨_, h⟩
    · exact .inl ⟨_, h⟩
  · rcases Fdt.nextProperty_within w o ho with h | ⟨n, h, _⟩ | ⟨t, n, h, _⟩
    · exact .inr h
    · exact .inl ⟨_, h⟩
    · exact .inl ⟨_, h⟩
  · have loop : ∀ p : Int, p < 2147483648 → (∃ r, f.nextNodeLoop p d = pure r) ∨ f.nextNodeLoop p d = throw .ub := by
      intro p hp
      rcases Fdt.nextNodeLoop_within w ns p hp d with h | ⟨r, d', h, _⟩
      · exact .inr h
      · exact .inl ⟨_, h⟩
    unfold Fdt.nextNode
    split
    · have hsz := w.size
      rcases Fdt.checkOffset_within w Fdt.BEGIN_NODE (by decide) o ho with h | h | ⟨n, h, h0, h1, h2, _⟩
      · rw [h]; exact .inr rfl
      · rw [h, pure_bind, if_pos (by omega)]; exact .inl ⟨_, rfl⟩
      · rw [h, pure_bind, if_neg (by omega)]; exact loop n (by omega)
    · exact loop 0 (by omega)

end Verif
