import Verif.FdtGet

/-!
# Changing a device tree

`/repo/src/fdt.c:234-369,533-561` on blobs that are encodings of tags.
-/

namespace Verif

/-- Same buffer, and the same bytes before the structure block apart from the offset of the strings and the two sizes. -/
structure Kept (f f' : Fdt) : Prop where
  cap : f'.cap = f.cap
  bytes : ∀ i, i < f.offStruct → (i < 12 ∨ (16 ≤ i ∧ i < 32) ∨ 40 ≤ i) → f'.m i = f.m i

namespace Kept

variable {f f' f'' : Fdt}

theorem refl (f : Fdt) : Kept f f := ⟨rfl, fun _ _ _ => rfl⟩

theorem field (k : Kept f f') (low : 40 ≤ f.offStruct) {a : Nat} (ha : a + 4 ≤ 12 ∨ (16 ≤ a ∧ a + 4 ≤ 32)) :
    be32 f'.m a = be32 f.m a :=
  be32_congr fun o h1 h2 => k.bytes o (by omega) (by omega)

theorem offStruct (k : Kept f f') (low : 40 ≤ f.offStruct) : f'.offStruct = f.offStruct := k.field low (by omega)
theorem total (k : Kept f f') (low : 40 ≤ f.offStruct) : f'.total = f.total := k.field low (by omega)
theorem version (k : Kept f f') (low : 40 ≤ f.offStruct) : f'.version = f.version := k.field low (by omega)
theorem magic (k : Kept f f') (low : 40 ≤ f.offStruct) : f'.magic = f.magic := k.field low (by omega)
theorem lastComp (k : Kept f f') (low : 40 ≤ f.offStruct) : f'.lastComp = f.lastComp := k.field low (by omega)

theorem trans (k : Kept f f') (k' : Kept f' f'') (low : 40 ≤ f.offStruct) : Kept f f'' := by
  refine ⟨k'.cap.trans k.cap, fun i h1 h2 => ?_⟩
  rw [k'.bytes i (by rw [k.offStruct low]; exact h1) h2, k.bytes i h1 h2]

end Kept

theorem be32_stBe (m : Mem) {a v : Nat} (hv : v < 4294967296) : be32 (stBe m a v) a = v :=
  be32_at hv (BytesAt.st m a (beBytes v))

theorem be32_stBe_out (m : Mem) {a b v : Nat} (h : b + 4 ≤ a ∨ a + 4 ≤ b) : be32 (stBe m a v) b = be32 m b :=
  be32_congr fun o h1 h2 => stBytes_out (by rw [beBytes_length]; omega)

theorem tagAlign_nat {n : Nat} (h : n < 2147483640) : Fdt.tagAlign (n : Int) = (((n + 3) / 4 * 4 : Nat) : Int) := by
  unfold Fdt.tagAlign
  rw [s32_id (by omega) (by omega)]
  omega

namespace FdtOK

variable {f : Fdt} {ts : List FTok} {strs : List Byte}

theorem dataSize (h : FdtOK f ts strs) : f.dataSize = ((f.offStrings + f.sizeStrings : Nat) : Int) := by
  have := h.small
  unfold Fdt.dataSize
  exact s32_id (by omega) (by omega)

/-- The parts of a blob put together. -/
theorem mk' (h : FdtOK f ts strs) {f' : Fdt} (k : Kept f f') {ts' : List FTok} {strs' : List Byte}
    (size : f'.sizeStruct = (encs ts').length) (order : f.offStruct + f'.sizeStruct ≤ f'.offStrings)
    (sizeS : f'.sizeStrings = strs'.length) (high : f'.offStrings + f'.sizeStrings ≤ f.total)
    (struct : BytesAt f'.m f.offStruct (encs ts')) (strings : BytesAt f'.m f'.offStrings strs')
    (toks : ∀ t ∈ ts', t.OK) (names : ∀ no v p, FTok.prop no v p ∈ ts' → ∃ s, nameAt strs' no = some s) : FdtOK f' ts' strs' := by
  have e1 := k.offStruct h.low
  have e2 := k.total h.low
  have e3 := k.version h.low
  refine ⟨⟨by rw [e2]; exact h.within.size, by rw [e2, k.cap]; exact h.within.cap⟩, by rw [e3]; exact h.version, by rw [e1]; exact h.low,
    size, by rw [e1]; exact order, sizeS, by rw [e2]; exact high, by rw [e1]; exact struct, strings, toks, names⟩

/-- Making space in the structure block, or closing it. -/
theorem spliceStruct (h : FdtOK f ts strs) {X Y Z : List Byte} (e : encs ts = X ++ (Y ++ Z)) {new : Nat} (hnew : new < 2147483648) :
    (f.offStrings + f.sizeStrings + new > f.total + Y.length ∧
      f.spliceStruct ((f.offStruct + X.length : Nat) : Int) Y.length new = pure (-7, f)) ∨
    (f.offStrings + f.sizeStrings + new ≤ f.total + Y.length ∧
      ∃ f', f.spliceStruct ((f.offStruct + X.length : Nat) : Int) Y.length new = pure (0, f') ∧ Kept f f' ∧
        f'.sizeStruct = X.length + new + Z.length ∧ f'.offStrings + Y.length = f.offStrings + new ∧
        f'.sizeStrings = f.sizeStrings ∧ BytesAt f'.m f.offStruct X ∧ BytesAt f'.m (f.offStruct + X.length + new) Z ∧
        BytesAt f'.m f'.offStrings strs) := by
  have hs := h.small
  have hlow := h.low
  have hord := h.order
  have hhigh := h.high
  have hcap := h.within.cap
  have hsz := h.size
  have hst := h.struct
  have hstr := h.strings
  have hsS := h.sizeS
  rw [e] at hsz hst
  simp only [List.length_append] at hsz
  rw [BytesAt.append, BytesAt.append] at hst
  obtain ⟨bX, bY, bZ⟩ := hst
  unfold Fdt.spliceStruct Fdt.splice
  rw [chk_ok (by omega) (by omega), pure_bind, h.dataSize]
  dsimp only
  rw [if_neg (by omega), if_neg (by omega)]
  by_cases hroom : f.offStrings + f.sizeStrings + new > f.total + Y.length
  · left
    refine ⟨hroom, ?_⟩
    rw [if_pos (by omega), pure_bind]
    rfl
  · right
    refine ⟨by omega, ?_⟩
    rw [if_neg (by omega), if_neg (by omega)]
    unfold Fdt.move
    rw [if_pos (by omega)]
    rw [show (((f.offStruct + X.length : Nat) : Int) + (new : Int)).toNat = f.offStruct + X.length + new by omega,
      show (((f.offStruct + X.length : Nat) : Int) + (Y.length : Int)).toNat = f.offStruct + X.length + Y.length by omega,
      show (((f.offStrings + f.sizeStrings : Nat) : Int) - ((f.offStruct + X.length : Nat) : Int) - (Y.length : Int)).toNat
        = f.offStrings + f.sizeStrings - (f.offStruct + X.length + Y.length) by omega]
    generalize hm : (fun i => if f.offStruct + X.length + new ≤ i ∧
      i < f.offStruct + X.length + new + (f.offStrings + f.sizeStrings - (f.offStruct + X.length + Y.length)) then
        f.m (f.offStruct + X.length + Y.length + (i - (f.offStruct + X.length + new))) else f.m i) = m'
    have m1 : ∀ i, i < f.offStruct + X.length + new → m' i = f.m i := by
      intro i hi; rw [← hm]; dsimp only; rw [if_neg (by omega)]
    have m2 : ∀ i, i < f.offStrings + f.sizeStrings - (f.offStruct + X.length + Y.length) →
        m' (f.offStruct + X.length + new + i) = f.m (f.offStruct + X.length + Y.length + i) := by
      intro i hi; rw [← hm]; dsimp only; rw [if_pos (by omega)]
      rw [show f.offStruct + X.length + new + i - (f.offStruct + X.length + new) = i by omega]
    have z1 : be32 m' 36 = f.sizeStruct := be32_congr fun o _ _ => m1 o (by omega)
    have z2 : be32 m' 12 = f.offStrings := be32_congr fun o _ _ => m1 o (by omega)
    have z3 : be32 m' 32 = f.sizeStrings := be32_congr fun o _ _ => m1 o (by omega)
    have u1 : fu32 ((f.sizeStruct : Int) + ((new : Int) - (Y.length : Int))) = X.length + new + Z.length := by unfold fu32; omega
    have u2 : fu32 ((f.offStrings : Int) + ((new : Int) - (Y.length : Int))) = f.offStrings + new - Y.length := by unfold fu32; omega
    have out : ∀ i, 40 ≤ i → stBe (stBe m' 36 (X.length + new + Z.length)) 12 (f.offStrings + new - Y.length) i = m' i := by
      intro i hi
      unfold stBe
      rw [stBytes_out (by rw [beBytes_length]; omega), stBytes_out (by rw [beBytes_length]; omega)]
    refine ⟨⟨stBe (stBe m' 36 (X.length + new + Z.length)) 12 (f.offStrings + new - Y.length), f.cap⟩, ?_, ⟨rfl, ?_⟩, ?_, ?_, ?_, ?_, ?_, ?_⟩
    · simp only [pure_bind]
      rw [if_pos trivial]
      have w1 : ({ m := m', cap := f.cap } : Fdt).sizeStruct = f.sizeStruct := z1
      rw [w1, u1]
      have w2 : (({ m := m', cap := f.cap } : Fdt).setSizeStruct (X.length + new + Z.length)).offStrings = f.offStrings := by
        unfold Fdt.setSizeStruct Fdt.offStrings
        dsimp only
        rw [be32_stBe_out m' (by omega)]
        exact z2
      rw [w2, u2]
      rfl
    · intro i h1 h2
      dsimp only
      unfold stBe
      rw [stBytes_out (by rw [beBytes_length]; omega), stBytes_out (by rw [beBytes_length]; omega), m1 i (by omega)]
    · unfold Fdt.sizeStruct
      dsimp only
      rw [be32_stBe_out _ (by omega), be32_stBe _ (by omega)]
    · show be32 _ 12 + _ = _
      dsimp only
      rw [be32_stBe _ (by omega)]
      omega
    · show be32 _ 32 = _
      dsimp only
      rw [be32_stBe_out _ (by omega), be32_stBe_out _ (by omega), z3]
    · refine bX.congr fun i h1 h2 => ?_
      exact (out i (by omega)).trans (m1 i (by omega))
    · refine bZ.shift fun j hj => ?_
      exact (out _ (by omega)).trans (m2 j (by omega))
    · rw [show (Fdt.offStrings ⟨stBe (stBe m' 36 (X.length + new + Z.length)) 12 (f.offStrings + new - Y.length), f.cap⟩) =
        f.offStrings + new - Y.length from be32_stBe _ (by omega)]
      refine hstr.shift fun j hj => ?_
      refine (out _ (by omega)).trans ?_
      have := m2 (f.offStrings + j - (f.offStruct + X.length + Y.length)) (by omega)
      rw [show f.offStruct + X.length + new + (f.offStrings + j - (f.offStruct + X.length + Y.length)) = f.offStrings + new - Y.length + j by omega,
        show f.offStruct + X.length + Y.length + (f.offStrings + j - (f.offStruct + X.length + Y.length)) = f.offStrings + j by omega] at this
      exact this

/-- A store inside the structure block. -/
theorem wr_kept {f : Fdt} {a : Nat} {l : List Byte} (low : 40 ≤ f.offStruct) (ha : f.offStruct ≤ a) (hc : a + l.length ≤ f.cap) :
    f.wr a l = pure { f with m := stBytes f.m a l } ∧ Kept f { f with m := stBytes f.m a l } ∧
      ({ f with m := stBytes f.m a l } : Fdt).sizeStruct = f.sizeStruct ∧
      ({ f with m := stBytes f.m a l } : Fdt).sizeStrings = f.sizeStrings ∧
      ({ f with m := stBytes f.m a l } : Fdt).offStrings = f.offStrings := by
  refine ⟨if_pos hc, ⟨rfl, fun i h1 _ => stBytes_out (by omega)⟩, ?_, ?_, ?_⟩ <;>
    exact be32_congr fun o h1 h2 => stBytes_out (by omega)

/-- A blob with a property in place, from the pieces. -/
theorem finish (h : FdtOK f ts strs) {f3 : Fdt} {strs' : List Byte} {pre' post' : List FTok} {no : Nat} {val : List Byte} (k : Kept f f3)
    (hno : no < 4294967296)
    (size : f3.sizeStruct = (encs pre').length + (12 + (val.length + 3) / 4 * 4) + (encs post').length)
    (order : f.offStruct + f3.sizeStruct ≤ f3.offStrings)
    (sizeS : f3.sizeStrings = strs'.length) (high : f3.offStrings + f3.sizeStrings ≤ f.total)
    (b1 : BytesAt f3.m f.offStruct (encs pre'))
    (b2 : BytesAt f3.m (f.offStruct + (encs pre').length) (beBytes 3))
    (b3 : BytesAt f3.m (f.offStruct + (encs pre').length + 4) (beBytes val.length))
    (b4 : BytesAt f3.m (f.offStruct + (encs pre').length + 8) (beBytes no))
    (b5 : BytesAt f3.m (f.offStruct + (encs pre').length + 12) val)
    (b6 : BytesAt f3.m (f.offStruct + (encs pre').length + (12 + (val.length + 3) / 4 * 4)) (encs post'))
    (strings : BytesAt f3.m f3.offStrings strs')
    (toks : ∀ t ∈ pre' ++ post', t.OK)
    (names : ∀ no' v p, FTok.prop no' v p ∈ pre' ++ post' → ∃ s, nameAt strs' no' = some s)
    (name : ∃ s, nameAt strs' no = some s) :
    ∃ pad, FdtOK f3 (pre' ++ .prop no val pad :: post') strs' := by
  generalize hpad : slice f3.m (f.offStruct + (encs pre').length + 12 + val.length) ((val.length + 3) / 4 * 4 - val.length) = pad
  have bp : BytesAt f3.m (f.offStruct + (encs pre').length + 12 + val.length) pad := by
    rw [← hpad]; exact BytesAt.of_slice _ _ _
  have lp : pad.length = (val.length + 3) / 4 * 4 - val.length := by rw [← hpad, slice_length]
  refine ⟨pad, h.mk' k ?_ order sizeS high ?_ strings ?_ ?_⟩
  · rw [size, encs_append, encs_cons]
    simp only [List.length_append, FTok.enc, beBytes_length]
    omega
  · rw [encs_append, encs_cons, BytesAt.append, BytesAt.append]
    refine ⟨b1, ?_, ?_⟩
    · unfold FTok.enc
      rw [BytesAt.append, BytesAt.append, BytesAt.append, BytesAt.append]
      exact ⟨b2, b3, b4, b5, bp⟩
    · have : (FTok.prop no val pad).enc.length = 12 + (val.length + 3) / 4 * 4 := by
        simp only [List.length_append, FTok.enc, beBytes_length]
        omega
      rw [this]; exact b6
  · intro t ht
    rcases List.mem_append.1 ht with ht | ht
    · exact toks t (List.mem_append_left _ ht)
    · rcases List.mem_cons.1 ht with ht | ht
      · rw [ht]; exact ⟨hno, by omega, by omega⟩
      · exact toks t (List.mem_append_right _ ht)
  · intro no' v p ht
    rcases List.mem_append.1 ht with ht | ht
    · exact names no' v p (List.mem_append_left _ ht)
    · rcases List.mem_cons.1 ht with ht | ht
      · cases ht; exact name
      · exact names no' v p (List.mem_append_right _ ht)

/-- The last step of `fdt_setprop`, `/repo/src/fdt.c:548-553`. -/
theorem wrVal {f : Fdt} {a : Nat} {val : List Byte} (low : 40 ≤ f.offStruct) (ha : f.offStruct ≤ a) (hc : a + val.length ≤ f.cap) :
    (if (val.length : Int) > 0 then do
        let f ← f.wr a val
        pure ((0 : Int), f)
      else pure (0, f)) = (pure (0, { f with m := stBytes f.m a val }) : FM _) := by
  by_cases h0 : (val.length : Int) > 0
  · rw [if_pos h0, (wr_kept low ha hc).1, pure_bind]
  · rw [if_neg h0]
    have : val = [] := List.eq_nil_of_length_eq_zero (by omega)
    subst this
    have : stBytes f.m a [] = f.m := by funext i; exact stBytes_out (by simp; omega)
    rw [this]

/-- Space needed by a value. -/
def room (n : Nat) : Nat := (n + 3) / 4 * 4

/-- `fdt_setprop` for a property that exists. -/
theorem set_existing (h : FdtOK f ts strs) {pre' post' : List FTok} {no : Nat} {v p : List Byte} (e : ts = pre' ++ .prop no v p :: post')
    {o oo : Int} {name val : List Byte}
    (hg : f.getProperty o name = pure (.found ((f.offStruct + offOf pre' : Nat) : Int) v.length oo)) (hval : val.length < 2147483600) :
    (f.offStrings + f.sizeStrings + room val.length > f.total + room v.length ∧ f.setprop o name val = pure (-7, f)) ∨
    (f.offStrings + f.sizeStrings + room val.length ≤ f.total + room v.length ∧
      ∃ f' pad, f.setprop o name val = pure (0, f') ∧ Kept f f' ∧ FdtOK f' (pre' ++ .prop no val pad :: post') strs) := by
  obtain ⟨hb, hl, ok, hm⟩ := h.tok e
  have hs := h.small
  have hlow := h.low
  have hord := h.order
  have hhigh := h.high
  have hcap := h.within.cap
  have hwsz := h.within.size
  simp only [FTok.OK] at ok
  simp only [FTok.enc, List.length_append, beBytes_length] at hl
  unfold offOf at *
  generalize hX : encs pre' ++ (beBytes 3 ++ (beBytes v.length ++ beBytes no)) = X
  have hXl : X.length = (encs pre').length + 12 := by rw [← hX]; simp only [List.length_append, beBytes_length]
  have he : encs ts = X ++ ((v ++ p) ++ encs post') := by
    rw [e, encs_append, encs_cons, ← hX]
    simp only [FTok.enc, List.append_assoc]
  have hvr : room v.length = (v ++ p).length := by unfold room; rw [List.length_append]; omega
  unfold Fdt.setprop
  rw [s32_id (by omega) (by omega), if_pos (by omega)]
  unfold Fdt.resizeProperty
  rw [hg]
  simp only [pure_bind]
  rw [tagAlign_nat (by omega), tagAlign_nat (by omega)]
  rw [show ((f.offStruct + (encs pre').length : Nat) : Int) + 12 = ((f.offStruct + X.length : Nat) : Int) by omega,
    show (v.length + 3) / 4 * 4 = (v ++ p).length from hvr]
  rw [hvr]
  rcases h.spliceStruct he (new := (val.length + 3) / 4 * 4) (by omega) with ⟨h1, h2⟩ | ⟨h1, f1, h2, k1, s1, s2, s3, bX, bZ, bS⟩
  · refine .inl ⟨h1, ?_⟩
    rw [h2]
    simp only [pure_bind]
    rw [if_neg (by simp), pure_bind]
    simp
  · refine .inr ⟨h1, ?_⟩
    have z1 := k1.offStruct hlow
    have c1 := k1.cap
    rw [h2]
    simp only [pure_bind]
    rw [if_pos trivial]
    have hz := h.size
    rw [e, encs_append, encs_cons] at hz
    simp only [FTok.enc, List.length_append, beBytes_length] at hz
    rw [List.length_append] at s2 h1
    rw [show (((f.offStruct + (encs pre').length : Nat) : Int) + 4).toNat = f.offStruct + (encs pre').length + 4 by omega]
    obtain ⟨w1, w2, w3, w4, w5⟩ := wr_kept (f := f1) (a := f.offStruct + (encs pre').length + 4) (l := beBytes (fu32 (val.length : Int)))
      (by omega) (by omega) (by rw [beBytes_length]; omega)
    rw [w1]
    simp only [pure_bind]
    rw [if_pos trivial, show (((f.offStruct + (encs pre').length : Nat) : Int) + 12).toNat = f.offStruct + X.length by omega]
    generalize hf2 : ({ m := stBytes f1.m (f.offStruct + (encs pre').length + 4) (beBytes (fu32 (val.length : Int))), cap := f1.cap } : Fdt) = f2 at *
    have hm2 : f2.m = stBytes f1.m (f.offStruct + (encs pre').length + 4) (beBytes val.length) := by
      rw [← hf2, fu32_nat (by omega)]
    have z2 := w2.offStruct (by omega)
    have c2 := w2.cap
    have wv := wrVal (f := f2) (a := f.offStruct + X.length) (val := val) (by omega) (by omega) (by omega)
    obtain ⟨_, v2, v3, v4, v5⟩ := wr_kept (f := f2) (a := f.offStruct + X.length) (l := val) (by omega) (by omega) (by omega)
    rw [wv]
    generalize hf3 : ({ m := stBytes f2.m (f.offStruct + X.length) val, cap := f2.cap } : Fdt) = f3 at *
    have hm3 : f3.m = stBytes f2.m (f.offStruct + X.length) val := by rw [← hf3]
    have k := (k1.trans w2 hlow).trans v2 hlow
    have out : ∀ i, (i < f.offStruct + (encs pre').length + 4 ∨ (f.offStruct + (encs pre').length + 8 ≤ i ∧ i < f.offStruct + X.length) ∨
        f.offStruct + X.length + val.length ≤ i) → f3.m i = f1.m i := by
      intro i hi
      rw [hm3, stBytes_out (by omega), hm2, stBytes_out (by rw [beBytes_length]; omega)]
    rw [← hX, BytesAt.append, BytesAt.append, BytesAt.append] at bX
    simp only [beBytes_length] at bX
    obtain ⟨x1, x2, x3, x4⟩ := bX
    have key := h.finish (f3 := f3) (strs' := strs) (pre' := pre') (post' := post') (no := no) (val := val) k ok.1
      (by rw [v3, w3, s1]; omega) (by rw [v3, w3, s1, v5, w5]; omega) (by rw [v4, w4, s3]; exact h.sizeS)
      (by rw [v5, w5, v4, w4, s3]; omega)
      (x1.congr fun i _ _ => out i (by omega))
      (x2.congr fun i h1 h2 => out i (by rw [beBytes_length] at h2; omega))
      (by
        have := BytesAt.st f1.m (f.offStruct + (encs pre').length + 4) (beBytes val.length)
        rw [← hm2] at this
        exact this.congr fun i h1 h2 => by rw [hm3, stBytes_out (by rw [beBytes_length] at h2; omega)])
      (by
        rw [show f.offStruct + (encs pre').length + 8 = f.offStruct + (encs pre').length + 4 + 4 by omega]
        exact x4.congr fun i h1 h2 => out i (by rw [beBytes_length] at h2; omega))
      (by
        have := BytesAt.st f2.m (f.offStruct + X.length) val
        rw [← hm3] at this
        rw [show f.offStruct + (encs pre').length + 12 = f.offStruct + X.length by omega]
        exact this)
      (by
        rw [show f.offStruct + (encs pre').length + (12 + (val.length + 3) / 4 * 4) = f.offStruct + X.length + (val.length + 3) / 4 * 4 by omega]
        exact bZ.congr fun i h1 h2 => out i (by omega))
      (by
        rw [v5, w5]
        exact bS.congr fun i h1 h2 => out i (by omega))
      (fun t ht => h.toks t (by rw [e]; rcases List.mem_append.1 ht with ht | ht <;> simp [ht]))
      (fun no' v' p' ht => h.names no' v' p' (by rw [e]; rcases List.mem_append.1 ht with ht | ht <;> simp [ht]))
      (h.names no v p (by rw [e]; simp))
    obtain ⟨pad, hpad⟩ := key
    exact ⟨f3, pad, rfl, k, hpad⟩

theorem strOf_append {l s x : List Byte} (h : strOf l = some s) : strOf (l ++ x) = some s := by
  induction l generalizing s with
  | nil => cases h
  | cons b l ih =>
    rw [strOf] at h
    rw [List.cons_append, strOf]
    by_cases h0 : b = 0
    · rw [if_pos h0] at h ⊢; exact h
    · rw [if_neg h0] at h ⊢
      cases hr : strOf l with
      | none => rw [hr] at h; cases h
      | some r => rw [hr] at h; rw [ih hr]; exact h

theorem strOf_name {name x : List Byte} (h : (0 : Byte) ∉ name) : strOf (name ++ [0] ++ x) = some name := by
  induction name with
  | nil => rfl
  | cons b l ih =>
    simp only [List.mem_cons, not_or] at h
    rw [List.cons_append, List.cons_append, strOf, if_neg (fun hh => h.1 hh.symm), ih h.2]
    rfl

theorem nameAt_append {strs s x : List Byte} {off : Nat} (h : nameAt strs off = some s) : nameAt (strs ++ x) off = some s := by
  have := nameAt_lt h
  unfold nameAt at *
  rw [List.drop_append_of_le_length (by omega)]
  exact strOf_append h

/-- The search in the strings block finds the name or nothing. -/
theorem findStringGo (h : FdtOK f ts strs) {name : List Byte} (hz : (0 : Byte) ∉ name) (n i : Nat)
    (hi : n = 0 ∨ i + n + name.length = strs.length) :
    f.findStringGo f.offStrings (name ++ [0]) i n = pure none ∨
      ∃ j, f.findStringGo f.offStrings (name ++ [0]) i n = pure (some j) ∧ nameAt strs j = some name := by
  have hcap := h.within.cap
  have hhigh := h.high
  have hsS := h.sizeS
  induction n generalizing i with
  | zero => exact .inl rfl
  | succ n ih =>
    rw [Fdt.findStringGo]
    simp only [List.length_append, List.length_cons, List.length_nil]
    rw [if_neg (by omega)]
    split
    · rename_i heq
      refine .inr ⟨i, rfl, ?_⟩
      have hb : BytesAt f.m (f.offStrings + i) (strs.drop i) := by
        have := h.strings
        rw [← List.take_append_drop i strs, BytesAt.append, List.length_take, Nat.min_eq_left (by omega)] at this
        exact this.2
      rw [← List.take_append_drop (name.length + 1) (strs.drop i), BytesAt.append] at hb
      have hb1 := hb.1
      unfold BytesAt at hb1
      rw [List.length_take, List.length_drop, Nat.min_eq_left (by omega), heq] at hb1
      unfold nameAt
      rw [← List.take_append_drop (name.length + 1) (strs.drop i), ← hb1]
      exact strOf_name hz
    · exact ih (i + 1) (by omega)

/-- `fdt_find_add_string_` on an encoded blob. -/
theorem findAddString (h : FdtOK f ts strs) {name : List Byte} (hz : (0 : Byte) ∉ name) (hlen : name.length < 2147483600) :
    (∃ j : Nat, f.findAddString name = pure ((j : Int), false, f) ∧ nameAt strs j = some name) ∨
    (f.offStrings + f.sizeStrings + (name.length + 1) > f.total ∧ f.findAddString name = pure (-7, false, f)) ∨
    (∃ f', f.findAddString name = pure ((strs.length : Int), true, f') ∧ Kept f f' ∧
      FdtOK f' ts (strs ++ (name ++ [0])) ∧ nameAt (strs ++ (name ++ [0])) strs.length = some name ∧
      f'.offStrings = f.offStrings ∧ f'.sizeStruct = f.sizeStruct) := by
  have hs := h.small
  have hlow := h.low
  have hord := h.order
  have hhigh := h.high
  have hcap := h.within.cap
  have hwsz := h.within.size
  have hsS := h.sizeS
  unfold Fdt.findAddString Fdt.findString
  rw [s32_id (by omega) (by omega)]
  rcases h.findStringGo hz (((f.sizeStrings : Int) - (name.length + 1) + 1).toNat) 0 (by omega) with h1 | ⟨j, h1, h2⟩
  · right
    rw [h1]
    simp only [pure_bind]
    unfold Fdt.spliceString Fdt.splice
    rw [h.dataSize]
    dsimp only
    rw [if_neg (by omega), if_neg (by omega)]
    by_cases hroom : f.offStrings + f.sizeStrings + (name.length + 1) > f.total
    · left
      refine ⟨hroom, ?_⟩
      rw [if_pos (by omega)]
      simp only [pure_bind]
      simp
    · right
      rw [if_neg (by omega), if_neg (by omega)]
      unfold Fdt.move
      rw [if_pos (by omega)]
      rw [show (((f.offStrings + f.sizeStrings : Nat) : Int) - ((f.offStrings : Int) + (f.sizeStrings : Int)) - 0).toNat = 0 by omega]
      generalize hm : (fun i => if (((f.offStrings : Int) + (f.sizeStrings : Int)) + ((name.length : Int) + 1)).toNat ≤ i ∧
        i < (((f.offStrings : Int) + (f.sizeStrings : Int)) + ((name.length : Int) + 1)).toNat + 0 then
          f.m (((f.offStrings : Int) + (f.sizeStrings : Int) + 0).toNat +
            (i - (((f.offStrings : Int) + (f.sizeStrings : Int)) + ((name.length : Int) + 1)).toNat)) else f.m i) = m'
      have hm' : m' = f.m := by
        rw [← hm]; funext i; rw [if_neg (by omega)]
      subst hm'
      simp only [pure_bind]
      have u1 : fu32 ((f.sizeStrings : Int) + ((name.length : Int) + 1)) = strs.length + (name.length + 1) := by unfold fu32; omega
      rw [show ({ m := f.m, cap := f.cap } : Fdt).sizeStrings = f.sizeStrings from rfl, u1]
      simp only [not_true_eq_false, ne_eq, if_false, pure_bind]
      unfold Fdt.setSizeStrings Fdt.wr
      dsimp only
      rw [if_pos (by simp only [List.length_append, List.length_cons, List.length_nil]; omega)]
      simp only [pure_bind]
      rw [hsS]
      have out : ∀ i, (i < 32 ∨ (36 ≤ i ∧ i < f.offStrings + strs.length)) →
          stBytes (stBe f.m 32 (strs.length + (name.length + 1))) (f.offStrings + strs.length) (name ++ [0]) i = f.m i := by
        intro i hi
        unfold stBe
        rw [stBytes_out (by omega), stBytes_out (by rw [beBytes_length]; omega)]
      generalize hf : (⟨stBytes (stBe f.m 32 (strs.length + (name.length + 1))) (f.offStrings + strs.length) (name ++ [0]), f.cap⟩ : Fdt) = f'
      have fm : f'.m = stBytes (stBe f.m 32 (strs.length + (name.length + 1))) (f.offStrings + strs.length) (name ++ [0]) := by rw [← hf]
      have k : Kept f f' := ⟨by rw [← hf], fun i h1 h2 => by rw [fm]; exact out i (by omega)⟩
      have e1 : f'.offStrings = f.offStrings := by
        unfold Fdt.offStrings; rw [fm]; exact be32_congr fun i _ _ => out i (by omega)
      have e2 : f'.sizeStruct = f.sizeStruct := by
        unfold Fdt.sizeStruct; rw [fm]; exact be32_congr fun i _ _ => out i (by omega)
      have e3 : f'.sizeStrings = strs.length + (name.length + 1) := by
        unfold Fdt.sizeStrings; rw [fm]
        rw [be32_congr (x := stBe f.m 32 (strs.length + (name.length + 1))) fun i _ _ => stBytes_out (by omega)]
        exact be32_stBe _ (by omega)
      refine ⟨f', rfl, k, h.mk' k (by rw [e2]; exact h.size) (by rw [e1, e2]; exact hord) (by rw [e3]; simp) (by rw [e1, e3]; omega) ?_ ?_ h.toks ?_,
        ?_, e1, e2⟩
      · refine h.struct.congr fun i h1 h2 => ?_
        have := h.size
        rw [fm]; exact out i (by omega)
      · rw [e1, BytesAt.append]
        refine ⟨h.strings.congr fun i h1 h2 => by rw [fm]; exact out i (by omega), ?_⟩
        rw [fm]; exact BytesAt.st _ _ _
      · intro no v p hp
        obtain ⟨s, hs⟩ := h.names no v p hp
        exact ⟨s, nameAt_append hs⟩
      · unfold nameAt
        rw [List.drop_left, ← List.append_nil (name ++ [0])]
        exact strOf_name hz
  · left
    rw [h1]
    exact ⟨j, rfl, h2⟩

/-- A new property between two tags. -/
theorem insert (h : FdtOK f ts strs) {pre' post' : List FTok} (e : ts = pre' ++ post') {no : Nat} {name : List Byte}
    (hno : nameAt strs no = some name) {val : List Byte} (hval : val.length < 2147483600) :
    (f.offStrings + f.sizeStrings + (12 + room val.length) > f.total ∧
      f.spliceStruct (f.ptr (offOf pre')) 0 (s32 (12 + Fdt.tagAlign val.length)) = pure (-7, f)) ∨
    (f.offStrings + f.sizeStrings + (12 + room val.length) ≤ f.total ∧
      ∃ f1 f2 f3 f4 f' pad, f.spliceStruct (f.ptr (offOf pre')) 0 (s32 (12 + Fdt.tagAlign val.length)) = pure (0, f1) ∧
        f1.wr (f.ptr (offOf pre')).toNat (beBytes Fdt.PROP) = pure f2 ∧
        f2.wr (f.ptr (offOf pre') + 8).toNat (beBytes (fu32 no)) = pure f3 ∧
        f3.wr (f.ptr (offOf pre') + 4).toNat (beBytes (fu32 val.length)) = pure f4 ∧
        (if (val.length : Int) > 0 then do
          let f ← f4.wr (f.ptr (offOf pre') + 12).toNat val
          pure ((0 : Int), f)
         else pure (0, f4)) = (pure (0, f') : FM _) ∧ Kept f f' ∧ FdtOK f' (pre' ++ .prop no val pad :: post') strs) := by
  have hs := h.small
  have hlow := h.low
  have hord := h.order
  have hhigh := h.high
  have hcap := h.within.cap
  have hwsz := h.within.size
  have hsS := h.sizeS
  have hnl := nameAt_lt hno
  have hz := h.size
  have he : encs ts = encs pre' ++ ([] ++ encs post') := by rw [e, encs_append]; rfl
  rw [e, encs_append, List.length_append] at hz
  unfold Fdt.ptr offOf
  rw [tagAlign_nat (by omega), show ((12 : Int) + (((val.length + 3) / 4 * 4 : Nat) : Int)) = ((12 + (val.length + 3) / 4 * 4 : Nat) : Int) by omega,
    s32_id (by omega) (by omega), show ((f.offStruct : Int) + ((encs pre').length : Int)) = ((f.offStruct + (encs pre').length : Nat) : Int) by omega]
  rcases h.spliceStruct he (new := 12 + (val.length + 3) / 4 * 4) (by omega) with ⟨h1, h2⟩ | ⟨h1, f1, h2, k1, s1, s2, s3, bX, bZ, bS⟩
  · exact .inl ⟨h1, h2⟩
  · refine .inr ⟨h1, ?_⟩
    simp only [List.length_nil, Nat.add_zero] at s2 h1
    have z1 := k1.offStruct hlow
    have c1 := k1.cap
    generalize hq : f.offStruct + (encs pre').length = q at *
    rw [Int.toNat_natCast, show ((q : Int) + 8).toNat = q + 8 by omega, show ((q : Int) + 4).toNat = q + 4 by omega,
      show ((q : Int) + 12).toNat = q + 12 by omega, fu32_nat (by omega), fu32_nat (by omega)]
    obtain ⟨w1, k2, a1, a2, a3⟩ := wr_kept (f := f1) (a := q) (l := beBytes Fdt.PROP) (by omega) (by omega) (by rw [beBytes_length]; omega)
    generalize hf2 : ({ m := stBytes f1.m q (beBytes Fdt.PROP), cap := f1.cap } : Fdt) = f2 at *
    have m2 : f2.m = stBytes f1.m q (beBytes 3) := by rw [← hf2]
    have z2 := k2.offStruct (by omega)
    have c2 := k2.cap
    obtain ⟨w2, k3, b1, b2, b3⟩ := wr_kept (f := f2) (a := q + 8) (l := beBytes no) (by omega) (by omega) (by rw [beBytes_length]; omega)
    generalize hf3 : ({ m := stBytes f2.m (q + 8) (beBytes no), cap := f2.cap } : Fdt) = f3 at *
    have m3 : f3.m = stBytes f2.m (q + 8) (beBytes no) := by rw [← hf3]
    have z3 := k3.offStruct (by omega)
    have c3 := k3.cap
    obtain ⟨w3, k4, d1, d2, d3⟩ := wr_kept (f := f3) (a := q + 4) (l := beBytes val.length) (by omega) (by omega) (by rw [beBytes_length]; omega)
    generalize hf4 : ({ m := stBytes f3.m (q + 4) (beBytes val.length), cap := f3.cap } : Fdt) = f4 at *
    have m4 : f4.m = stBytes f3.m (q + 4) (beBytes val.length) := by rw [← hf4]
    have z4 := k4.offStruct (by omega)
    have c4 := k4.cap
    have wv := wrVal (f := f4) (a := q + 12) (val := val) (by omega) (by omega) (by omega)
    obtain ⟨_, k5, g1, g2, g3⟩ := wr_kept (f := f4) (a := q + 12) (l := val) (by omega) (by omega) (by omega)
    generalize hf5 : ({ m := stBytes f4.m (q + 12) val, cap := f4.cap } : Fdt) = f5 at *
    have m5 : f5.m = stBytes f4.m (q + 12) val := by rw [← hf5]
    have k : Kept f f5 := (((k1.trans k2 hlow).trans k3 hlow).trans k4 hlow).trans k5 hlow
    have out : ∀ i, (i < q ∨ q + 12 + val.length ≤ i) → f5.m i = f1.m i := by
      intro i hi
      rw [m5, stBytes_out (by omega), m4, stBytes_out (by rw [beBytes_length]; omega), m3, stBytes_out (by rw [beBytes_length]; omega),
        m2, stBytes_out (by rw [beBytes_length]; omega)]
    obtain ⟨pad, hp⟩ := h.finish (f3 := f5) (strs' := strs) (pre' := pre') (post' := post') (no := no) (val := val) k (by omega)
      (by rw [g1, d1, b1, a1, s1]) (by rw [g1, d1, b1, a1, s1, g3, d3, b3, a3]; omega) (by rw [g2, d2, b2, a2, s3]; exact hsS)
      (by rw [g3, d3, b3, a3, g2, d2, b2, a2, s3]; omega)
      (bX.congr fun i _ _ => out i (by omega))
      (by
        rw [hq]
        have := BytesAt.st f1.m q (beBytes 3)
        rw [← m2] at this
        exact this.congr fun i i1 i2 => by
          rw [beBytes_length] at i2
          rw [m5, stBytes_out (by omega), m4, stBytes_out (by omega), m3, stBytes_out (by omega)])
      (by
        rw [hq]
        have := BytesAt.st f3.m (q + 4) (beBytes val.length)
        rw [← m4] at this
        exact this.congr fun i i1 i2 => by
          rw [beBytes_length] at i2
          rw [m5, stBytes_out (by omega)])
      (by
        rw [hq]
        have := BytesAt.st f2.m (q + 8) (beBytes no)
        rw [← m3] at this
        exact this.congr fun i i1 i2 => by
          rw [beBytes_length] at i2
          rw [m5, stBytes_out (by omega), m4, stBytes_out (by rw [beBytes_length]; omega)])
      (by
        rw [hq, m5]; exact BytesAt.st _ _ _)
      (by
        rw [hq]
        exact bZ.congr fun i h1 h2 => out i (by omega))
      (by
        rw [g3, d3, b3, a3]
        exact bS.congr fun i h1 h2 => out i (by omega))
      (fun t ht => h.toks t (by rw [e]; exact ht))
      (fun no' v' p' ht => h.names no' v' p' (by rw [e]; exact ht))
      ⟨name, hno⟩
    exact ⟨f1, f2, f3, f4, f5, pad, h2, w1, w2, w3, wv, k, hp⟩

/-- Taking the last string out again. -/
theorem delLastString (h : FdtOK f ts strs) {f' : Fdt} {name : List Byte} (k : Kept f f') (h' : FdtOK f' ts (strs ++ (name ++ [0])))
    (e1 : f'.offStrings = f.offStrings) : Kept f (f'.delLastString name) ∧ FdtOK (f'.delLastString name) ts strs := by
  have hlow := h.low
  have hs := h'.small
  have hS := h'.sizeS
  have hh := h'.high
  have hz := h'.size
  have ho := h'.order
  have hl' := h'.low
  have z1 := k.offStruct hlow
  simp only [List.length_append, List.length_cons, List.length_nil] at hS
  unfold Fdt.delLastString Fdt.setSizeStrings
  have u1 : fu32 ((f'.sizeStrings : Int) - ((name.length : Int) + 1)) = strs.length := by unfold fu32; omega
  rw [u1]
  have out : ∀ i, (i < 32 ∨ 36 ≤ i) → stBe f'.m 32 strs.length i = f'.m i := by
    intro i hi; exact stBytes_out (by rw [beBytes_length]; omega)
  generalize hf : ({ m := stBe f'.m 32 strs.length, cap := f'.cap } : Fdt) = g
  have fm : g.m = stBe f'.m 32 strs.length := by rw [← hf]
  have kk : Kept f' g := ⟨by rw [← hf], fun i h1 h2 => by rw [fm]; exact out i (by omega)⟩
  have k2 := k.trans kk hlow
  have x1 : g.offStrings = f'.offStrings := by
    unfold Fdt.offStrings; rw [fm]; exact be32_congr fun i _ _ => out i (by omega)
  have x2 : g.sizeStruct = f'.sizeStruct := by
    unfold Fdt.sizeStruct; rw [fm]; exact be32_congr fun i _ _ => out i (by omega)
  have x3 : g.sizeStrings = strs.length := by
    unfold Fdt.sizeStrings; rw [fm]; exact be32_stBe _ (by omega)
  refine ⟨k2, h.mk' k2 (by rw [x2]; exact hz) (by rw [x1, x2, ← z1]; exact ho) x3 (by have := h.high; have := h.sizeS; omega) ?_ ?_ h.toks h.names⟩
  · rw [← z1]; exact h'.struct.congr fun i h1 h2 => by rw [fm]; exact out i (by omega)
  · rw [x1]; exact (BytesAt.append.1 h'.strings).1.congr fun i h1 h2 => by rw [fm]; exact out i (by omega)

/-- `fdt_setprop` for a new property. -/
theorem set_new (h : FdtOK f ts strs) {pre post : List FTok} {nm pd : List Byte} (e : ts = pre ++ .node nm pd :: post)
    {name val : List Byte} (hp : propVal strs name post = none) (pe : PropsEnd post) (hz : (0 : Byte) ∉ name)
    (hlen : name.length < 2147483600) (hval : val.length < 2147483600) :
    (∃ f', f.setprop (offOf pre) name val = pure (-7, f') ∧ Kept f f' ∧ FdtOK f' ts strs ∧
      f.offStrings + f.sizeStrings + (12 + room val.length + (name.length + 1)) > f.total) ∨
    (∃ f' no pad strs', f.setprop (offOf pre) name val = pure (0, f') ∧ Kept f f' ∧
      FdtOK f' (pre ++ .node nm pd :: .prop no val pad :: post) strs' ∧ nameAt strs' no = some name ∧
      (strs' = strs ∨ strs' = strs ++ (name ++ [0]))) := by
  have hs := h.small
  have hlow := h.low
  have hwsz := h.within.size
  have hhigh := h.high
  have hord := h.order
  have e' : ts = (pre ++ [.node nm pd]) ++ post := by rw [e]; simp
  have shape : ∀ no pad, (pre ++ [.node nm pd]) ++ .prop no val pad :: post = pre ++ .node nm pd :: .prop no val pad :: post := by simp
  obtain ⟨err, hl, hl6, _⟩ := look_none (so := f.offStruct) (o := offOf (pre ++ [.node nm pd])) hp
  rw [hl6 pe] at hl
  unfold Fdt.setprop Fdt.resizeProperty
  rw [s32_id (by omega) (by omega), if_pos (by omega), h.getProperty e, hl]
  simp only [pure_bind]
  rw [if_pos trivial]
  unfold Fdt.addProperty
  rw [h.checkOffset e, if_pos (by tg), pure_bind, if_neg (by omega)]
  have hr : (12 + room val.length : Nat) = 12 + (val.length + 3) / 4 * 4 := rfl
  rcases h.findAddString hz hlen with ⟨j, h1, h2⟩ | ⟨h1, h2⟩ | ⟨fb, h1, kb, hb, h2, x1, x2⟩
  · rw [h1]
    simp only [pure_bind]
    rw [if_neg (by omega)]
    rcases h.insert e' h2 hval with ⟨i1, i2⟩ | ⟨i1, f1, f2, f3, f4, f5, pad, i2, i3, i4, i5, i6, i7, i8⟩
    · refine .inl ⟨f, ?_, Kept.refl f, h, by omega⟩
      rw [i2]
      simp
    · refine .inr ⟨f5, j, pad, strs, ?_, i7, by rw [← shape]; exact i8, h2, .inl rfl⟩
      rw [i2]
      simp only [pure_bind, not_true_eq_false, ne_eq, if_false]
      rw [i3, pure_bind, i4, pure_bind, i5]
      simp only [pure_bind]
      rw [if_pos trivial]
      exact i6
  · rw [h2]
    simp only [pure_bind]
    refine .inl ⟨f, ?_, Kept.refl f, h, by omega⟩
    simp
  · rw [h1]
    simp only [pure_bind]
    rw [if_neg (by omega)]
    rcases hb.insert e' h2 hval with ⟨i1, i2⟩ | ⟨i1, f1, f2, f3, f4, f5, pad, i2, i3, i4, i5, i6, i7, i8⟩
    · have hd := h.delLastString kb hb x1
      refine .inl ⟨_, ?_, hd.1, hd.2, ?_⟩
      · rw [i2]
        simp
      · have hbs := hb.sizeS
        have hss := h.sizeS
        simp only [List.length_append, List.length_cons, List.length_nil] at hbs
        rw [kb.total hlow] at i1
        omega
    · refine .inr ⟨f5, strs.length, pad, strs ++ (name ++ [0]), ?_, kb.trans i7 hlow, by rw [← shape]; exact i8, h2, .inr rfl⟩
      rw [i2]
      simp only [pure_bind, not_true_eq_false, ne_eq, if_false]
      rw [i3, pure_bind, i4, pure_bind, i5]
      simp only [pure_bind]
      rw [if_pos trivial]
      exact i6

end FdtOK

end Verif
