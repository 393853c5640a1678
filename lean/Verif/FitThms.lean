import Verif.Fit

/-!
# What is loaded from a FIT

Specification apart from the code: the nodes of a tree in their order, their names and properties.
-/

namespace Verif

/-- The nodes of a list of tags that starts at offset `o`, up to the end tag: offset, name, and the tags after that of the node. -/
def nodesFrom : Nat → List FTok → List (Nat × List Byte × List FTok)
  | _, [] => []
  | _, .fin :: _ => []
  | o, .node nm pd :: r => (o, nm, r) :: nodesFrom (o + (FTok.node nm pd).enc.length) r
  | o, .endNode :: r => nodesFrom (o + FTok.endNode.enc.length) r
  | o, .nop :: r => nodesFrom (o + FTok.nop.enc.length) r
  | o, .prop no v p :: r => nodesFrom (o + (FTok.prop no v p).enc.length) r

/-- The first node with a name. -/
def nodeNamed (ts : List FTok) (name : List Byte) : Option (Nat × List Byte × List FTok) :=
  (nodesFrom 0 ts).find? fun n => n.2.1 = name

/-- The first node with a property of a given value. -/
def nodeWith (strs : List Byte) (ts : List FTok) (prop val : List Byte) : Option (Nat × List Byte × List FTok) :=
  (nodesFrom 0 ts).find? fun n => propVal strs prop n.2.2 = some val

/-- The string of bytes that hold one with its terminator. -/
theorem strOf_zero {s : List Byte} (hz : (0 : Byte) ∉ s) (r : List Byte) : strOf (s ++ 0 :: r) = some s := by
  induction s with
  | nil => rfl
  | cons b l ih =>
    simp only [List.mem_cons, not_or] at hz
    rw [List.cons_append, strOf, if_neg (fun x => hz.1 x.symm), ih hz.2]
    rfl

namespace FdtOK

variable {f : Fdt} {ts : List FTok} {strs : List Byte}

theorem checkNode (h : FdtOK f ts strs) {pre post : List FTok} {nm pd : List Byte} (e : ts = pre ++ .node nm pd :: post) :
    f.checkOffset Fdt.BEGIN_NODE (offOf pre) = pure ((offOf (pre ++ [.node nm pd]) : Nat) : Int) := by
  rw [h.checkOffset e, if_pos (by tg)]

theorem getName (h : FdtOK f ts strs) (hh : f.checkHeader = 0) {pre post : List FTok} {nm pd : List Byte} (e : ts = pre ++ .node nm pd :: post) :
    f.getName (offOf pre) = pure (.ok nm) := by
  obtain ⟨hb, hl, ok, hm⟩ := h.tok e
  have hc := h.cap_ok (a := offOf pre + (FTok.node nm pd).enc.length) (by omega)
  unfold Fdt.getName
  rw [if_pos hh, h.checkNode e, pure_bind, if_pos (by omega)]
  unfold Fdt.str Fdt.ptr
  rw [if_neg (by omega), show ((f.offStruct : Int) + (offOf pre : Int) + 4).toNat = f.offStruct + offOf pre + 4 by omega]
  have hb' := (BytesAt.append.1 (BytesAt.append.1 hb).2).1
  rw [beBytes_length] at hb'
  have hs : strOf (nm ++ [0]) = some nm := strOf_zero ok.1 []
  simp only [FTok.enc, List.length_append, beBytes_length, List.length_cons, List.length_nil] at hc
  rw [strGo hb' hs (by simp only [List.length_append, List.length_cons, List.length_nil]; omega), pure_bind]

theorem nextNode (h : FdtOK f ts strs) {pre post : List FTok} {nm pd : List Byte} (e : ts = pre ++ .node nm pd :: post) :
    f.nextNode (offOf pre) none = f.nextNodeLoop (offOf (pre ++ [.node nm pd])) none := by
  unfold Fdt.nextNode
  rw [if_pos (by omega), h.checkNode e, pure_bind, if_neg (by omega)]

/-- The loop over the nodes, before a search `g`. -/
theorem nodes (h : FdtOK f ts strs) {g : Int → FM Int} {p : Nat × List Byte × List FTok → Bool} (g0 : ∀ o < 0, g o = pure o)
    (g1 : ∀ pre nm pd post, ts = pre ++ .node nm pd :: post →
      g (offOf pre) = if p (offOf pre, nm, post) then pure ((offOf pre : Nat) : Int) else do
        let (o, _) ← f.nextNode (offOf pre) none
        g o)
    (pre post : List FTok) (e : ts = pre ++ post) :
    (do let (o, _) ← f.nextNodeLoop (offOf pre) none
        g o) = pure (match (nodesFrom (offOf pre) post).find? p with
          | some n => (n.1 : Int)
          | none => -6) := by
  induction post generalizing pre with
  | nil =>
    rw [List.append_nil] at e
    subst e
    rw [Fdt.nextNodeLoop, h.nextTag_end]
    simp only [pure_bind, nodesFrom, List.find?_nil]
    rw [if_neg (by decide), if_neg (by decide), if_pos (by trivial), if_pos (by simp), pure_bind]
    exact g0 _ (by decide)
  | cons t r ih =>
    have e' : ts = (pre ++ [t]) ++ r := by rw [e]; simp
    have ih := ih (pre ++ [t]) e'
    rw [Fdt.nextNodeLoop, h.nextTag e, pure_bind]
    dsimp only
    rw [← offOf_snoc]
    cases t with
    | node nm pd =>
      rw [if_pos (by tg), pure_bind]
      dsimp only
      rw [g1 pre nm pd r e, nodesFrom, ← offOf_snoc, List.find?_cons]
      by_cases hp : p (offOf pre, nm, r) = true
      · rw [if_pos hp, hp]
      · rw [if_neg hp, h.nextNode e, ih]
        simp only [Bool.not_eq_true] at hp
        rw [hp]
    | fin =>
      rw [if_neg (by tg), if_neg (by tg), if_pos (by tg), if_pos (by omega), pure_bind]
      simp only [nodesFrom, List.find?_nil]
      exact g0 _ (by decide)
    | endNode =>
      rw [if_neg (by tg), if_pos (by tg), ih, nodesFrom, ← offOf_snoc]
    | nop =>
      rw [if_neg (by tg), if_neg (by tg), if_neg (by tg), ih, nodesFrom, ← offOf_snoc]
    | prop no v p =>
      rw [if_neg (by tg), if_neg (by tg), if_neg (by tg), ih, nodesFrom, ← offOf_snoc]

/-- `fdt_find_node_offset` finds the first node with the name. -/
theorem findNodeOffset (h : FdtOK f ts strs) (hh : f.checkHeader = 0) (name : List Byte) :
    f.findNodeOffset (-1) name = pure (match nodeNamed ts name with
      | some n => (n.1 : Int)
      | none => -6) := by
  unfold Fdt.findNodeOffset Fdt.nextNode nodeNamed
  rw [if_neg (by decide)]
  refine h.nodes (g := f.findNodeLoop name) (p := fun n => decide (n.2.1 = name)) ?_ ?_ [] ts rfl
  · intro o ho
    rw [Fdt.findNodeLoop, if_pos ho]
  · intro pre nm pd post e
    rw [Fdt.findNodeLoop, if_neg (by omega), h.getName hh e, pure_bind]
    dsimp only
    simp only [decide_eq_true_eq]

/-- `fdt_find_prop_offset` finds the first node with the string as value of the property. -/
theorem findPropOffset (h : FdtOK f ts strs) (prop val : List Byte) :
    f.findPropOffset (-1) prop val = pure (match nodeWith strs ts prop (val ++ [0]) with
      | some n => (n.1 : Int)
      | none => -6) := by
  unfold Fdt.findPropOffset Fdt.nextNode nodeWith
  rw [if_neg (by decide)]
  refine h.nodes (g := f.findPropLoop prop val) (p := fun n => decide (propVal strs prop n.2.2 = some (val ++ [0]))) ?_ ?_ [] ts rfl
  · intro o ho
    rw [Fdt.findPropLoop, if_pos ho]
  · intro pre nm pd post e
    rw [Fdt.findPropLoop, if_neg (by omega)]
    have hg := fdt_getprop_spec h e prop
    simp only [decide_eq_true_eq]
    cases hp : propVal strs prop post with
    | none =>
      rw [hp] at hg
      obtain ⟨err, hg, _⟩ := hg
      rw [hg, pure_bind]
      dsimp only
      rw [pure_bind, if_neg (by decide), if_neg (by simp)]
    | some v =>
      rw [hp] at hg
      obtain ⟨a, hg, hb, hc⟩ := hg
      rw [hg, pure_bind]
      dsimp only
      have := h.within.cap
      by_cases hl : (v.length : Int) = (val.length : Int) + 1
      · rw [if_pos hl]
        unfold Fdt.bytes
        rw [if_pos (by omega), pure_bind, pure_bind, Int.toNat_natCast, show val.length + 1 = v.length by omega,
          show slice f.m a v.length = v from hb]
        simp only [decide_eq_true_eq, Option.some.injEq]
      · rw [if_neg hl, pure_bind, if_neg (by decide), if_neg]
        intro hv
        cases hv
        simp at hl

/-- A node of the list is in the blob. -/
theorem node_at {n : Nat × List Byte × List FTok} {pre post : List FTok} (hn : n ∈ nodesFrom (offOf pre) post) :
    ∃ a pd, pre ++ post = a ++ .node n.2.1 pd :: n.2.2 ∧ n.1 = offOf a := by
  induction post generalizing pre with
  | nil => simp [nodesFrom] at hn
  | cons t r ih =>
    have step : n ∈ nodesFrom (offOf (pre ++ [t])) r → ∃ a pd, pre ++ t :: r = a ++ .node n.2.1 pd :: n.2.2 ∧ n.1 = offOf a := by
      intro hn
      obtain ⟨a, pd, h1, h2⟩ := ih hn
      exact ⟨a, pd, by rw [← h1]; simp, h2⟩
    cases t with
    | fin => simp [nodesFrom] at hn
    | node nm pd =>
      rw [nodesFrom, List.mem_cons, ← offOf_snoc] at hn
      rcases hn with hn | hn
      · subst hn
        exact ⟨pre, pd, rfl, rfl⟩
      · exact step hn
    | endNode => rw [nodesFrom, ← offOf_snoc] at hn; exact step hn
    | nop => rw [nodesFrom, ← offOf_snoc] at hn; exact step hn
    | prop no v p => rw [nodesFrom, ← offOf_snoc] at hn; exact step hn

theorem getpropAt (h : FdtOK f ts strs) {n : Nat × List Byte × List FTok} (hn : n ∈ nodesFrom 0 ts) (name : List Byte) :
    match propVal strs name n.2.2 with
    | some v => ∃ a : Nat, f.getprop (n.1 : Int) name = pure (.found (a : Int) v.length) ∧ BytesAt f.m a v ∧ a + v.length ≤ f.total
    | none => ∃ err, f.getprop (n.1 : Int) name = pure (.err err) ∧ err < 0 := by
  obtain ⟨a, pd, h1, h2⟩ := node_at (pre := []) hn
  rw [List.nil_append] at h1
  have := fdt_getprop_spec h h1 name
  rw [h2]
  split
  · rename_i v hv
    rw [hv] at this
    exact this
  · rename_i hv
    rw [hv] at this
    obtain ⟨e, h3, h4, _⟩ := this
    exact ⟨e, h3, h4⟩

theorem named_mem {ts : List FTok} {name : List Byte} {n : Nat × List Byte × List FTok} (h : nodeNamed ts name = some n) :
    n ∈ nodesFrom 0 ts ∧ n.2.1 = name := by
  unfold nodeNamed at h
  have h1 := List.mem_of_find?_eq_some h
  have h2 := List.find?_some h
  exact ⟨h1, by simpa using h2⟩

theorem with_mem {strs : List Byte} {ts : List FTok} {prop val : List Byte} {n : Nat × List Byte × List FTok} (h : nodeWith strs ts prop val = some n) :
    n ∈ nodesFrom 0 ts ∧ propVal strs prop n.2.2 = some val := by
  unfold nodeWith at h
  have h1 := List.mem_of_find?_eq_some h
  have h2 := List.find?_some h
  exact ⟨h1, by simpa using h2⟩

end FdtOK

theorem strOf_some {v s : List Byte} (h : strOf v = some s) : ∃ r, v = s ++ 0 :: r ∧ (0 : Byte) ∉ s := by
  induction v generalizing s with
  | nil => cases h
  | cons b l ih =>
    rw [strOf] at h
    split at h
    · rename_i h0
      cases h
      exact ⟨l, by simp [h0], by simp⟩
    · rename_i h0
      cases hl : strOf l with
      | none => rw [hl] at h; cases h
      | some t =>
        rw [hl] at h
        simp only [Option.map_some, Option.some.injEq] at h
        obtain ⟨r, h1, h2⟩ := ih hl
        subst h
        refine ⟨r, by rw [h1]; rfl, ?_⟩
        simp only [List.mem_cons, not_or]
        exact ⟨fun x => h0 x.symm, h2⟩

theorem strOf_mem {v : List Byte} (h : (0 : Byte) ∈ v) : ∃ s, strOf v = some s := by
  induction v with
  | nil => simp at h
  | cons b l ih =>
    rw [strOf]
    split
    · exact ⟨_, rfl⟩
    · rename_i h0
      simp only [List.mem_cons] at h
      rcases h with h | h
      · exact absurd h.symm h0
      · obtain ⟨s, hs⟩ := ih h
        exact ⟨b :: s, by rw [hs]; rfl⟩

namespace Fit

/-! ## Specification -/

/-- The value of the property of a node that is not the root. -/
def valueOf (strs prop : List Byte) : Option (Nat × List Byte × List FTok) → Option (List Byte)
  | some (o, _, post) => if o = 0 then none else propVal strs prop post
  | none => none

/-- The name of a node that is not the root and has one. -/
def nameOf : Option (Nat × List Byte × List FTok) → Option (List Byte)
  | some (o, nm, _) => if o = 0 ∨ nm = [] then none else some nm
  | none => none

/-- Name of the default configuration. -/
def confOf (strs : List Byte) (ts : List FTok) : Option (List Byte) :=
  match valueOf strs DEFAULT (nodeNamed ts CONFIGURATIONS) with
  | some v => strOf v
  | none => none

/-- Name of the image that is to be loaded: the one given by the property `prop` of the default configuration, otherwise the first of type `ty`. -/
def chosen (strs : List Byte) (ts : List FTok) (prop ty : List Byte) : Option (List Byte) :=
  match (confOf strs ts).bind fun c => valueOf strs prop (nodeNamed ts c) with
  | some v => strOf v
  | none => nameOf (nodeWith strs ts TYPE (ty ++ [0]))

/-- The names given by `default`, `kernel` and `fdt` are terminated. -/
def Terminated (strs : List Byte) (ts : List FTok) : Prop :=
  ∀ n ∈ nodesFrom 0 ts, ∀ prop ∈ [DEFAULT, KERNEL, FDT], ∀ v, propVal strs prop n.2.2 = some v → (0 : Byte) ∈ v

/-- Address given by a property of four or eight bytes. -/
def addrVal (top : Nat) : Option (List Byte) → Nat
  | some v => if v.length = 4 ∨ v.length = 8 then beVal v % top else 0
  | none => 0

/-- A pointer to a name: at `p` there is the string `s` with its terminator. -/
def Names (f : Fdt) : Option Int → Option (List Byte) → Prop
  | some p, some s => ∃ a : Nat, p = a ∧ BytesAt f.m a (s ++ [0]) ∧ (0 : Byte) ∉ s ∧ a + s.length + 1 ≤ f.total
  | none, none => True
  | _, _ => False

/-! ## The images chosen -/

variable {f : Fdt} {ts : List FTok} {strs : List Byte}

theorem names_str (h : FdtOK f ts strs) {a : Nat} {s : List Byte} (hb : BytesAt f.m a (s ++ [0])) (hz : (0 : Byte) ∉ s) (hc : a + s.length + 1 ≤ f.total) :
    f.str (a : Int) = pure s := by
  have := h.within.cap
  unfold Fdt.str
  rw [if_neg (by omega), Int.toNat_natCast]
  exact FdtOK.strGo hb (strOf_zero hz []) (by simp only [List.length_append, List.length_cons, List.length_nil]; omega)

theorem names_value (h : FdtOK f ts strs) {a : Nat} {v : List Byte} (hb : BytesAt f.m a v) (hc : a + v.length ≤ f.total) (hz : (0 : Byte) ∈ v) :
    ∃ s, strOf v = some s ∧ Names f (some (a : Int)) (some s) := by
  obtain ⟨s, hs⟩ := strOf_mem hz
  obtain ⟨r, h1, h2⟩ := strOf_some hs
  refine ⟨s, hs, a, rfl, ?_, h2, ?_⟩
  · rw [h1, show s ++ 0 :: r = (s ++ [0]) ++ r by simp, BytesAt.append] at hb
    exact hb.1
  · rw [h1] at hc
    simp only [List.length_append, List.length_cons] at hc
    omega

/-- A property read for the pointer to a name. -/
theorem getprop_names (h : FdtOK f ts strs) (ht : Terminated strs ts) {prop : List Byte} (hp : prop ∈ [DEFAULT, KERNEL, FDT])
    {n : Nat × List Byte × List FTok} (hn : n ∈ nodesFrom 0 ts) :
    match propVal strs prop n.2.2 with
    | some v => ∃ a : Nat, f.getprop (n.1 : Int) prop = pure (.found a v.length) ∧ 0 < v.length ∧
        ∃ s, strOf v = some s ∧ Names f (some (a : Int)) (some s)
    | none => ∃ e, f.getprop (n.1 : Int) prop = pure (.err e) := by
  have h1 := h.getpropAt hn prop
  split
  · rename_i v hv
    rw [hv] at h1
    obtain ⟨a, h2, h3, h4⟩ := h1
    have hz := ht n hn prop hp v hv
    exact ⟨a, h2, List.length_pos_of_mem hz, names_value h h3 h4 hz⟩
  · rename_i hv
    rw [hv] at h1
    obtain ⟨e, h2, _⟩ := h1
    exact ⟨e, h2⟩

theorem findConf_spec (h : FdtOK f ts strs) (hh : f.checkHeader = 0) (ht : Terminated strs ts) :
    ∃ c, findConf f = pure c ∧ Names f c (confOf strs ts) := by
  unfold findConf confOf
  rw [h.findNodeOffset hh, pure_bind]
  cases hn : nodeNamed ts CONFIGURATIONS with
  | none =>
    dsimp only
    rw [if_neg (by decide)]
    exact ⟨none, rfl, trivial⟩
  | some n =>
    obtain ⟨hm, _⟩ := FdtOK.named_mem hn
    dsimp only [valueOf]
    by_cases h0 : n.1 = 0
    · rw [if_neg (show ¬ (n.1 : Int) > 0 by omega), if_pos h0]
      exact ⟨none, rfl, trivial⟩
    · rw [if_pos (show (n.1 : Int) > 0 by omega), if_neg h0]
      have hg := getprop_names h ht (prop := DEFAULT) (by simp) hm
      cases hv : propVal strs DEFAULT n.2.2 with
      | none =>
        rw [hv] at hg
        obtain ⟨e, hg⟩ := hg
        rw [hg, pure_bind]
        exact ⟨none, rfl, trivial⟩
      | some v =>
        rw [hv] at hg
        obtain ⟨a, hg, hl, s, h1, h2⟩ := hg
        rw [hg, pure_bind]
        dsimp only
        rw [if_pos (by omega), h1]
        exact ⟨_, rfl, h2⟩

theorem confImages_spec (h : FdtOK f ts strs) (hh : f.checkHeader = 0) (ht : Terminated strs ts) {p : Option Int} {c : Option (List Byte)}
    (hc : Names f p c) :
    ∃ k d, confImages f p = pure (k, d) ∧
      Names f k ((c.bind fun c => valueOf strs KERNEL (nodeNamed ts c)).bind strOf) ∧
      Names f d ((c.bind fun c => valueOf strs FDT (nodeNamed ts c)).bind strOf) ∧
      ((c.bind fun c => valueOf strs KERNEL (nodeNamed ts c)) = none ↔ k = none) ∧
      ((c.bind fun c => valueOf strs FDT (nodeNamed ts c)) = none ↔ d = none) := by
  unfold confImages
  match p, c, hc with
  | none, none, _ => exact ⟨none, none, rfl, trivial, trivial, by simp, by simp⟩
  | some p, some c, ⟨a, h1, h2, h3, h4⟩ =>
    subst h1
    dsimp only [Option.bind_some]
    rw [names_str h h2 h3 h4, pure_bind, h.findNodeOffset hh, pure_bind]
    cases hn : nodeNamed ts c with
    | none =>
      dsimp only
      rw [if_neg (by decide)]
      exact ⟨none, none, rfl, trivial, trivial, by simp [valueOf], by simp [valueOf]⟩
    | some n =>
      obtain ⟨hm, _⟩ := FdtOK.named_mem hn
      dsimp only [valueOf]
      by_cases h0 : n.1 = 0
      · rw [if_neg (show ¬ (n.1 : Int) > 0 by omega), if_pos h0, if_pos h0]
        exact ⟨none, none, rfl, trivial, trivial, by simp, by simp⟩
      · rw [if_pos (show (n.1 : Int) > 0 by omega), if_neg h0, if_neg h0]
        have sub : ∀ prop ∈ [DEFAULT, KERNEL, FDT], ∃ v, f.getprop (n.1 : Int) prop = pure v ∧
            Names f (ptrOf v) ((propVal strs prop n.2.2).bind strOf) ∧ (propVal strs prop n.2.2 = none ↔ ptrOf v = none) := by
          intro prop hp
          have hg := getprop_names h ht hp hm
          cases hv : propVal strs prop n.2.2 with
          | none =>
            rw [hv] at hg
            obtain ⟨e, hg⟩ := hg
            exact ⟨_, hg, trivial, by simp [ptrOf]⟩
          | some v =>
            rw [hv] at hg
            obtain ⟨a, hg, _, s, h1, h2⟩ := hg
            refine ⟨_, hg, ?_, by simp [ptrOf]⟩
            dsimp only [Option.bind_some]
            rw [h1]
            exact h2
        obtain ⟨v, h5, h6, h7⟩ := sub KERNEL (by simp)
        obtain ⟨w, h8, h9, h10⟩ := sub FDT (by simp)
        rw [h5, pure_bind, h8, pure_bind]
        exact ⟨_, _, rfl, h6, h9, h7, h10⟩

theorem byType_spec (h : FdtOK f ts strs) (hh : f.checkHeader = 0) (ty : List Byte) :
    ∃ p, byType f ty = pure p ∧ Names f p (nameOf (nodeWith strs ts TYPE (ty ++ [0]))) := by
  unfold byType
  rw [h.findPropOffset, pure_bind]
  cases hn : nodeWith strs ts TYPE (ty ++ [0]) with
  | none =>
    dsimp only
    rw [if_neg (by decide)]
    exact ⟨none, rfl, trivial⟩
  | some n =>
    obtain ⟨hm, _⟩ := FdtOK.with_mem hn
    obtain ⟨a, pd, h1, h2⟩ := FdtOK.node_at (pre := []) hm
    rw [List.nil_append] at h1
    dsimp only [nameOf]
    by_cases h0 : n.1 = 0
    · rw [if_neg (by omega), if_pos (.inl h0)]
      exact ⟨none, rfl, trivial⟩
    · rw [if_pos (by omega), h2, h.getName hh h1, pure_bind]
      dsimp only
      cases hl : n.2.1 with
      | nil =>
        rw [if_neg (by simp), if_pos (.inr rfl)]
        exact ⟨none, rfl, trivial⟩
      | cons x l =>
        rw [if_pos (by simp), if_neg (by rw [← h2]; simp [h0])]
        refine ⟨_, rfl, f.offStruct + offOf a + 4, by unfold Fdt.ptr; omega, ?_⟩
        rw [hl] at h1
        obtain ⟨hb, hc, ok, _⟩ := h.tok h1
        have hb' := (BytesAt.append.1 (BytesAt.append.1 hb).2).1
        rw [beBytes_length] at hb'
        refine ⟨hb', ok.1, ?_⟩
        have := h.order
        have := h.high
        simp only [FTok.enc, List.length_append, beBytes_length, List.length_cons, List.length_nil] at hc ⊢
        omega

/-- **C61 (choice).** On an encoded tree with terminated names `fit_find_images` returns pointers to the names of the default configuration, of the kernel
and of the device tree that is to be loaded. -/
theorem findImages_spec (h : FdtOK f ts strs) (hh : f.checkHeader = 0) (ht : Terminated strs ts) :
    ∃ c k d, findImages f = pure (c, k, d) ∧ Names f c (confOf strs ts) ∧ Names f k (chosen strs ts KERNEL KERNEL) ∧
      Names f d (chosen strs ts FDT FLAT_DT) := by
  obtain ⟨c, h1, h2⟩ := findConf_spec h hh ht
  obtain ⟨k, d, h3, h4, h5, h6, h7⟩ := confImages_spec h hh ht h2
  have fin : ∀ (p : Option Int) (prop ty : List Byte),
      Names f p (((confOf strs ts).bind fun c => valueOf strs prop (nodeNamed ts c)).bind strOf) →
      (((confOf strs ts).bind fun c => valueOf strs prop (nodeNamed ts c)) = none ↔ p = none) →
      ∃ q, orType f p ty = pure q ∧ Names f q (chosen strs ts prop ty) := by
    intro p prop ty g1 g2
    unfold orType chosen
    cases p with
    | none =>
      rw [g2.2 rfl]
      exact byType_spec h hh ty
    | some a =>
      cases hv : ((confOf strs ts).bind fun c => valueOf strs prop (nodeNamed ts c)) with
      | none => exact absurd (g2.1 hv) (by simp)
      | some v =>
        rw [hv] at g1
        exact ⟨_, rfl, g1⟩
  obtain ⟨k', h8, h9⟩ := fin k KERNEL KERNEL h4 h6
  obtain ⟨d', h10, h11⟩ := fin d FDT FLAT_DT h5 h7
  refine ⟨c, k', d', ?_, h2, h9, h11⟩
  unfold findImages
  rw [h1, pure_bind, h3, pure_bind]
  dsimp only
  rw [h8, pure_bind, h10, pure_bind]

end Fit

end Verif
