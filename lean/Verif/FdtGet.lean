import Verif.FdtSpec

/-!
# Reading a device tree

`/repo/src/fdt.c:105-232,466-530,563-578` on blobs that are encodings of tags.
-/

namespace Verif

/-- Comparison of tags. -/
macro "tg" : tactic => `(tactic| simp [FTok.tag, Fdt.END, Fdt.PROP, Fdt.NOP, Fdt.BEGIN_NODE, Fdt.END_NODE])

namespace FdtOK

variable {f : Fdt} {ts : List FTok} {strs : List Byte}

theorem offStruct_lt (h : FdtOK f ts strs) : f.offStruct + (encs ts).length ≤ f.total := by
  have := h.size; have := h.order; have := h.high; omega

/-- The bytes of one tag. -/
theorem tok (h : FdtOK f ts strs) {pre post : List FTok} {t : FTok} (e : ts = pre ++ t :: post) :
    BytesAt f.m (f.offStruct + offOf pre) t.enc ∧ offOf pre + t.enc.length ≤ f.sizeStruct ∧ t.OK ∧ offOf pre % 4 = 0 := by
  have hs := h.struct
  have hz := h.size
  rw [e, encs_append, encs_cons] at hs hz
  rw [BytesAt.append, BytesAt.append] at hs
  refine ⟨hs.2.1, ?_, h.toks t (by rw [e]; simp), encs_mod fun u hu => h.toks u (by rw [e]; simp [hu])⟩
  simp only [List.length_append] at hz
  unfold offOf; omega

theorem ptr_ok (h : FdtOK f ts strs) {o : Int} {len : Nat} (h0 : 0 ≤ o) (h1 : o + len ≤ f.sizeStruct) :
    f.offsetPtr o len = some (f.offStruct + o.toNat) := by
  have := h.order; have := h.high
  exact Fdt.offsetPtr_ok h0 (by omega) fun _ => h1

theorem cap_ok (h : FdtOK f ts strs) {a : Nat} (h1 : a ≤ f.sizeStruct) : f.offStruct + a ≤ f.cap := by
  have := h.order; have := h.high; have := h.within.cap; omega

theorem small (h : FdtOK f ts strs) : f.offStruct + f.sizeStruct < 2147483632 ∧ f.offStrings + f.sizeStrings < 2147483632 := by
  have := h.order; have := h.high; have := h.within.size; omega

/-- The loop over the name of a node. -/
theorem skipName (h : FdtOK f ts strs) (name : List Byte) (o : Nat) (hz : (0 : Byte) ∉ name)
    (hb : BytesAt f.m (f.offStruct + o) (name ++ [0])) (hl : o + name.length + 1 ≤ f.sizeStruct) :
    f.skipName o = pure (some ((o + name.length + 1 : Nat) : Int)) := by
  have hs := h.small
  induction name generalizing o with
  | nil =>
    simp only [List.nil_append, BytesAt.cons, List.length_nil, Nat.add_zero] at hb hl ⊢
    rw [Fdt.skipName, chk_ok (by omega) (by omega), pure_bind, h.ptr_ok (by omega) (by omega)]
    dsimp only
    rw [Fdt.rd_ok (by have := h.cap_ok (a := o + 1) (by omega); omega), pure_bind, Int.toNat_natCast, hb.1, if_neg (by simp)]
    rfl
  | cons b name ih =>
    simp only [List.cons_append, BytesAt.cons, List.length_cons, List.mem_cons, not_or] at hb hl hz ⊢
    rw [Fdt.skipName, chk_ok (by omega) (by omega), pure_bind, h.ptr_ok (by omega) (by omega)]
    dsimp only
    rw [Fdt.rd_ok (by have := h.cap_ok (a := o + 1) (by omega); omega), pure_bind, Int.toNat_natCast, hb.1,
      if_pos (fun hh => hz.1 hh.symm)]
    have := ih (o + 1) hz.2 (by rw [← Nat.add_assoc]; exact hb.2) (by omega)
    rw [show ((o : Int) + 1) = ((o + 1 : Nat) : Int) by omega, this]
    rw [show o + 1 + name.length + 1 = o + (name.length + 1) + 1 by omega]

/-- `fdt_next_tag` reads one tag of the list. -/
theorem nextTag (h : FdtOK f ts strs) {pre post : List FTok} {t : FTok} (e : ts = pre ++ t :: post) :
    f.nextTag (offOf pre) = pure (t.tag, ((offOf pre + t.enc.length : Nat) : Int)) := by
  obtain ⟨hb, hl, ok, hm⟩ := h.tok e
  have hs := h.small
  have hmod := FTok.enc_mod ok
  generalize offOf pre = o at *
  have h4 : 4 ≤ t.enc.length := by
    cases t <;> simp only [FTok.enc, List.length_append, beBytes_length] <;> omega
  have htag : be32 f.m (f.offStruct + o) = t.tag := by
    cases t with
    | node _ _ => exact be32_at (by simp [FTok.tag]) (BytesAt.append.1 hb).1
    | prop _ _ _ => exact be32_at (by simp [FTok.tag]) (BytesAt.append.1 hb).1
    | endNode => exact be32_at (by decide) hb
    | nop => exact be32_at (by decide) hb
    | fin => exact be32_at (by decide) hb
  unfold Fdt.nextTag
  rw [h.ptr_ok (by omega) (by omega)]
  dsimp only
  rw [Int.toNat_natCast, Fdt.rd32_ok (by have := h.cap_ok (a := o + 4) (by omega); omega), pure_bind, htag,
    s32_id (by omega) (by omega), show ((o : Int) + 4) = ((o + 4 : Nat) : Int) by omega]
  have fin : ∀ e : Nat, o + 4 ≤ e → (e + 3) / 4 * 4 = o + t.enc.length →
      (do let d ← chk ((e : Int) - o)
          match f.offsetPtr o (fu32 d) with
          | none => pure (Fdt.END, -3)
          | some _ => pure (t.tag, Fdt.tagAlign e)) = (pure (t.tag, ((o + t.enc.length : Nat) : Int)) : FM _) := by
    intro e e1 e2
    rw [chk_ok (by omega) (by omega), pure_bind, h.ptr_ok (by omega) (by unfold fu32; omega)]
    dsimp only
    unfold Fdt.tagAlign
    rw [s32_id (by omega) (by omega), show ((e : Int) + 3) / 4 * 4 = ((o + t.enc.length : Nat) : Int) by omega]
  unfold Fdt.tagEnd
  cases t with
  | node name pad =>
    simp only [FTok.OK] at ok
    have hb' := (BytesAt.append.1 (BytesAt.append.1 hb).2).1
    simp only [FTok.enc, List.length_append, beBytes_length, List.length_cons, List.length_nil] at hl hmod fin ⊢
    rw [if_pos (by tg), h.skipName name (o + 4) ok.1 (by rw [← Nat.add_assoc]; exact hb') (by omega), pure_bind]
    exact fin _ (by omega) (by omega)
  | prop no v p =>
    simp only [FTok.OK] at ok
    have hb' := (BytesAt.append.1 (BytesAt.append.1 hb).2).1
    rw [beBytes_length] at hb'
    simp only [FTok.enc, List.length_append, beBytes_length] at hl hmod fin ⊢
    have hlen := be32_at (by omega) hb'
    rw [if_neg (by tg), if_pos (by tg), h.ptr_ok (by omega) (by omega)]
    dsimp only
    rw [Int.toNat_natCast, ← Nat.add_assoc, Fdt.rd32_ok (by have := h.cap_ok (a := o + 8) (by omega); omega), pure_bind, hlen]
    have hv := h.version
    rw [if_neg (by omega), pure_bind]
    dsimp only
    rw [s32_id (by omega) (by omega), show ((o + 4 : Nat) : Int) + 12 - 4 + (v.length : Int) = ((o + 12 + v.length : Nat) : Int) by omega]
    exact fin _ (by omega) (by omega)
  | endNode =>
    simp only [FTok.enc, beBytes_length] at hl fin ⊢
    rw [if_neg (by tg), if_neg (by tg), if_pos (by tg), pure_bind]
    exact fin _ (by omega) (by omega)
  | nop =>
    simp only [FTok.enc, beBytes_length] at hl fin ⊢
    rw [if_neg (by tg), if_neg (by tg), if_pos (by tg), pure_bind]
    exact fin _ (by omega) (by omega)
  | fin =>
    simp only [FTok.enc, beBytes_length] at hl fin ⊢
    rw [if_neg (by tg), if_neg (by tg), if_pos (by tg), pure_bind]
    exact fin _ (by omega) (by omega)

/-- `fdt_next_tag` at the end of the block. -/
theorem nextTag_end (h : FdtOK f ts strs) : f.nextTag (offOf ts) = pure (Fdt.END, -8) := by
  unfold Fdt.nextTag
  have hs := h.small
  have hsz := h.size
  cases hp : f.offsetPtr (offOf ts) 4 with
  | none => rfl
  | some a =>
    obtain ⟨_, _, _, h4⟩ := Fdt.offsetPtr_some (by unfold offOf; omega) (by omega) hp
    have := h4 h.version
    unfold offOf at this
    omega

theorem offOf_snoc (pre : List FTok) (t : FTok) : offOf (pre ++ [t]) = offOf pre + t.enc.length := by
  unfold offOf; rw [encs_append, encs_single, List.length_append]

/-- A tag of the given kind at an offset. -/
theorem checkOffset (h : FdtOK f ts strs) {pre post : List FTok} {t : FTok} (e : ts = pre ++ t :: post) (tag : Nat) :
    f.checkOffset tag (offOf pre) = pure (if t.tag = tag then ((offOf (pre ++ [t]) : Nat) : Int) else -4) := by
  obtain ⟨hb, hl, ok, hm⟩ := h.tok e
  have hs := h.small
  unfold Fdt.checkOffset
  rw [if_neg (by unfold fu32; omega), h.nextTag e, pure_bind]
  dsimp only
  rw [offOf_snoc]
  by_cases hh : t.tag = tag
  · rw [if_neg (by simp [hh]), if_pos hh]
  · rw [if_pos hh, if_neg hh]

theorem strGo {m : Mem} {l s : List Byte} {a n : Nat} (hb : BytesAt m a l) (hs : strOf l = some s) (hn : l.length ≤ n) :
    Fdt.strGo m a n = pure s := by
  induction l generalizing a n s with
  | nil => simp [strOf] at hs
  | cons b l ih =>
    cases n with
    | zero => simp at hn
    | succ n =>
      rw [BytesAt.cons] at hb
      rw [Fdt.strGo]
      rw [strOf] at hs
      by_cases h0 : b = 0
      · rw [if_pos (hb.1.trans h0)]
        rw [if_pos h0] at hs
        cases hs; rfl
      · rw [if_neg (by rw [hb.1]; exact h0)]
        rw [if_neg h0] at hs
        cases hr : strOf l with
        | none => rw [hr] at hs; cases hs
        | some r =>
          rw [hr] at hs
          simp only [Option.map_some, Option.some.injEq] at hs
          rw [ih hb.2 hr (by simpa using hn), pure_bind, hb.1, hs]

theorem nameAt_lt {strs s : List Byte} {off : Nat} (h : nameAt strs off = some s) : off < strs.length := by
  unfold nameAt at h
  by_cases hlt : off < strs.length
  · exact hlt
  · rw [List.drop_of_length_le (by omega)] at h
    cases h

/-- `fdt_get_string` reads a name of the strings block. -/
theorem getString (h : FdtOK f ts strs) {off : Nat} {s : List Byte} (hn : nameAt strs off = some s) :
    f.getString (s32 off) = pure s := by
  have hlt := nameAt_lt hn
  have hs := h.small
  have hz := h.sizeS
  have hc := h.within.cap
  have hh := h.high
  unfold Fdt.getString Fdt.str
  rw [s32_id (by omega) (by omega), if_neg (by omega)]
  have hb : BytesAt f.m (f.offStrings + off) (strs.drop off) := by
    have := h.strings
    rw [← List.take_append_drop off strs, BytesAt.append, List.length_take, Nat.min_eq_left (by omega)] at this
    exact this.2
  rw [show ((f.offStrings : Int) + (off : Int)).toNat = f.offStrings + off by omega]
  exact strGo hb hn (by rw [List.length_drop]; omega)

/-- The loop over the properties computes `look`. -/
theorem scan (h : FdtOK f ts strs) (name : List Byte) (pre post : List FTok) (e : ts = pre ++ post) :
    (do let o ← f.nextProperty (offOf pre)
        f.getPropertyLoop name o) = pure (look strs name f.offStruct (offOf pre) post) := by
  have hs := h.small
  induction post generalizing pre with
  | nil =>
    rw [List.append_nil] at e
    subst e
    rw [Fdt.nextProperty, h.nextTag_end]
    simp only [pure_bind]
    rw [if_pos (by tg), if_neg (by omega), pure_bind, Fdt.getPropertyLoop, if_pos (by omega)]
    rfl
  | cons t r ih =>
    have ht := h.nextTag e
    have e' : ts = (pre ++ [t]) ++ r := by rw [e]; simp
    obtain ⟨hb, hl, ok, hm⟩ := h.tok e
    rw [Fdt.nextProperty, ht]
    simp only [pure_bind]
    cases t with
    | fin =>
      rw [if_pos (by tg), if_pos (by omega), pure_bind, Fdt.getPropertyLoop, if_pos (by omega)]
      rfl
    | node a b =>
      rw [if_neg (by tg), if_neg (by tg), if_neg (by tg), pure_bind, Fdt.getPropertyLoop,
        if_pos (by omega)]
      rfl
    | endNode =>
      rw [if_neg (by tg), if_neg (by tg), if_neg (by tg), pure_bind, Fdt.getPropertyLoop,
        if_pos (by omega)]
      rfl
    | nop =>
      rw [if_neg (by tg), if_neg (by tg), if_pos (by tg)]
      have := ih (pre ++ [.nop]) e'
      rw [offOf_snoc] at this
      rw [this]
      rfl
    | prop no v p =>
      rw [if_neg (by tg), if_pos (by tg), pure_bind, Fdt.getPropertyLoop, if_neg (by omega)]
      unfold Fdt.getPropertyByOffset Fdt.nextPropertyOffset
      simp only [FTok.OK] at ok
      have hck := h.checkOffset e Fdt.PROP
      rw [if_pos (by tg)] at hck
      have hb1 := (BytesAt.append.1 hb).2
      have hb2 := (BytesAt.append.1 (BytesAt.append.1 hb1).2).1
      have hb3 := (BytesAt.append.1 hb1).1
      simp only [beBytes_length] at hb2 hb3
      have hno := be32_at ok.1 hb2
      simp only [FTok.enc, List.length_append, beBytes_length] at hl
      have hlen := be32_at (by omega) hb3
      rw [hck]
      simp only [pure_bind]
      rw [if_neg (by omega), Fdt.rd32_ok (by
        have := h.cap_ok (a := offOf pre + 8) (by omega); unfold Fdt.ptr; omega)]
      unfold Fdt.ptr
      rw [show ((f.offStruct : Int) + (offOf pre : Nat) + 4).toNat = f.offStruct + offOf pre + 4 by omega, hlen]
      simp only [pure_bind]
      rw [Fdt.rd32_ok (by have := h.cap_ok (a := offOf pre + 12) (by omega); omega),
        show ((f.offStruct : Int) + (offOf pre : Nat) + 8).toNat = f.offStruct + offOf pre + 4 + 4 by omega, hno]
      simp only [pure_bind]
      obtain ⟨s, hsn⟩ := h.names no v p (by rw [e]; simp)
      rw [h.getString hsn, pure_bind, s32_id (by omega) (by omega)]
      rw [look, hsn]
      by_cases hname : s = name
      · rw [if_pos hname, if_pos (by rw [hname])]
        rw [show ((f.offStruct : Int) + (offOf pre : Nat)) = ((f.offStruct + offOf pre : Nat) : Int) by omega]
      · rw [if_neg hname, if_neg (show ¬ (some s = some name) from fun hh => hname (Option.some.inj hh))]
        have := ih (pre ++ [.prop no v p]) e'
        rw [if_neg (show ¬ ((offOf (pre ++ [FTok.prop no v p]) : Nat) : Int) < 0 by omega)]
        rw [this, offOf_snoc]

/-- `fdt_get_property` on an encoded blob. -/
theorem getProperty (h : FdtOK f ts strs) {pre post : List FTok} {nm pd : List Byte} (e : ts = pre ++ .node nm pd :: post)
    (name : List Byte) :
    f.getProperty (offOf pre) name = pure (look strs name f.offStruct (offOf (pre ++ [.node nm pd])) post) := by
  have e' : ts = (pre ++ [.node nm pd]) ++ post := by rw [e]; simp
  unfold Fdt.getProperty Fdt.firstPropertyOffset
  rw [h.checkOffset e, if_pos (by tg), pure_bind, if_neg (by omega)]
  exact h.scan name _ _ e'

end FdtOK

/-- `look` finds what `propVal` says, and where. -/
theorem look_some {strs name : List Byte} {so : Nat} {v : List Byte} : ∀ {post : List FTok} {o : Nat}, propVal strs name post = some v →
    ∃ a no p b, post = a ++ .prop no v p :: b ∧ nameAt strs no = some name ∧
      (∀ x ∈ a, x = .nop ∨ ∃ no' v' p', x = .prop no' v' p' ∧ nameAt strs no' ≠ some name) ∧
      look strs name so o post = .found ((so + (o + (encs a).length) : Nat) : Int) v.length ((o + (encs a).length : Nat) : Int)
  | [], _, h => by simp [propVal] at h
  | .fin :: _, _, h => by simp [propVal] at h
  | .node _ _ :: _, _, h => by simp [propVal] at h
  | .endNode :: _, _, h => by simp [propVal] at h
  | .nop :: r, o, h => by
    rw [propVal] at h
    obtain ⟨a, no, p, b, h1, h2, h3, h4⟩ := look_some (so := so) (o := o + 4) h
    refine ⟨.nop :: a, no, p, b, by rw [h1]; rfl, h2, ?_, ?_⟩
    · intro x hx
      rcases List.mem_cons.1 hx with hx | hx
      · exact .inl hx
      · exact h3 x hx
    · rw [look, h4, encs_cons, List.length_append, show (FTok.nop).enc.length = 4 from rfl, Nat.add_assoc o]
  | .prop no v' p :: r, o, h => by
    rw [propVal] at h
    by_cases hn : nameAt strs no = some name
    · rw [if_pos hn] at h
      cases h
      exact ⟨[], no, p, r, rfl, hn, by simp, by rw [look, if_pos hn]; rfl⟩
    · rw [if_neg hn] at h
      obtain ⟨a, no', p', b, h1, h2, h3, h4⟩ := look_some (so := so) (o := o + (FTok.prop no v' p).enc.length) h
      refine ⟨.prop no v' p :: a, no', p', b, by rw [h1]; rfl, h2, ?_, ?_⟩
      · intro x hx
        rcases List.mem_cons.1 hx with hx | hx
        · exact .inr ⟨no, v', p, hx, hn⟩
        · exact h3 x hx
      · rw [look, if_neg hn, h4, encs_cons, List.length_append, Nat.add_assoc o]

/-- When there is no such property, the search says so. -/
theorem look_none {strs name : List Byte} {so : Nat} : ∀ {post : List FTok} {o : Nat}, propVal strs name post = none → 
    ∃ e, look strs name so o post = .err e ∧ (PropsEnd post → e = -6) ∧ e < 0
  | [], _, _ => ⟨_, rfl, fun h => h.elim, by omega⟩
  | .fin :: _, _, _ => ⟨_, rfl, fun h => h.elim, by omega⟩
  | .node _ _ :: _, _, _ => ⟨_, rfl, fun _ => rfl, by omega⟩
  | .endNode :: _, _, _ => ⟨_, rfl, fun _ => rfl, by omega⟩
  | .nop :: r, o, h => by
    rw [propVal] at h
    exact look_none (o := o + 4) h
  | .prop no v' p :: r, o, h => by
    rw [propVal] at h
    by_cases hn : nameAt strs no = some name
    · rw [if_pos hn] at h; cases h
    · rw [if_neg hn] at h
      rw [look, if_neg hn]
      exact look_none (o := o + (FTok.prop no v' p).enc.length) h

/-- **C40 (reading).** On an encoded blob `fdt_getprop` returns a pointer to the value of the property, or an error when there is none. -/
theorem fdt_getprop_spec {f : Fdt} {ts : List FTok} {strs : List Byte} (h : FdtOK f ts strs) {pre post : List FTok}
    {nm pd : List Byte} (e : ts = pre ++ .node nm pd :: post) (name : List Byte) :
    match propVal strs name post with
    | some v => ∃ a : Nat, f.getprop (offOf pre) name = pure (.found (a : Int) v.length) ∧ BytesAt f.m a v ∧ a + v.length ≤ f.total
    | none => ∃ err, f.getprop (offOf pre) name = pure (.err err) ∧ err < 0 ∧ (PropsEnd post → err = -6) := by
  have hv := h.version
  unfold Fdt.getprop
  rw [h.getProperty e, pure_bind]
  cases hp : propVal strs name post with
  | none =>
    obtain ⟨err, h1, h2, h3⟩ := look_none (so := f.offStruct) (o := offOf (pre ++ [.node nm pd])) hp
    rw [h1]
    exact ⟨err, rfl, h3, h2⟩
  | some v =>
    obtain ⟨a, no, p, b, h1, h2, h3, h4⟩ := look_some (so := f.offStruct) (o := offOf (pre ++ [.node nm pd])) hp
    rw [h4]
    dsimp only
    rw [if_neg (by omega)]
    have e' : ts = (pre ++ [.node nm pd] ++ a) ++ .prop no v p :: b := by rw [e, h1]; simp
    obtain ⟨hb, hl, ok, hm⟩ := h.tok e'
    have ho : offOf (pre ++ [.node nm pd] ++ a) = offOf (pre ++ [.node nm pd]) + (encs a).length := by
      unfold offOf; rw [encs_append _ a, List.length_append]
    rw [ho] at hb hl
    have hb' := (BytesAt.append.1 (BytesAt.append.1 (BytesAt.append.1 (BytesAt.append.1 hb).2).2).2).1
    simp only [beBytes_length] at hb'
    clear ho h3 h4
    generalize offOf (pre ++ [.node nm pd]) + (encs a).length = q at *
    refine ⟨f.offStruct + q + 4 + 4 + 4, ?_, hb', ?_⟩
    · rw [show (((f.offStruct + q : Nat) : Int) + 12) = ((f.offStruct + q + 4 + 4 + 4 : Nat) : Int) by omega]
    · have := h.order; have := h.high
      simp only [FTok.enc, List.length_append, beBytes_length] at hl
      omega

end Verif
