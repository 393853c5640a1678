import Verif.Image
import Verif.HeaderThms
import Verif.LifecycleLemmas

/-!
# Helper lemmas: image verification
-/

namespace Verif

theorem hashHdr_eq {m : Mem} {blk stop : Nat} (hb : 0 < blk) :
    ∀ fuel p acc, p ≤ stop → stop - p < fuel →
      hashHdr m blk stop fuel p acc = .msg (acc ++ slice m p (stop - p)) := by
  intro fuel
  induction fuel with
  | zero => intro p acc _ h; omega
  | succ n ih =>
    intro p acc h1 h2
    unfold hashHdr
    split
    · dsimp only
      split
      · next h =>
        rw [ih _ _ (by omega) (by omega), show stop - (p + (stop - p)) = 0 by omega]
        simp [slice]
      · next h =>
        rw [ih _ _ (by omega) (by omega), List.append_assoc, ← slice_append,
          show blk + (stop - (p + blk)) = stop - p by omega]
    · next h => rw [show stop - p = 0 by omega]; simp [slice]

theorem hashFw_eq {m : Mem} {H blk fw : Nat} (hb : 0 < blk) (hfw : fw + blk < 4294967296) :
    ∀ fuel pos acc, pos ≤ fw → fw - pos < fuel →
      hashFw m H blk fw fuel pos acc = .msg (acc ++ slice m (H + pos) (fw - pos)) := by
  intro fuel
  induction fuel with
  | zero => intro p acc _ h; omega
  | succ n ih =>
    intro pos acc h1 h2
    unfold hashFw
    rw [if_neg (by omega), Nat.mod_eq_of_lt (show pos + blk < 4294967296 by omega)]
    by_cases h : pos + blk > fw
    · simp only [if_pos h]
      rw [Nat.mod_eq_of_lt (by omega), if_neg (by omega)]
    · simp only [if_neg h]
      rw [Nat.mod_eq_of_lt (show pos + blk < 4294967296 by omega)]
      split
      · rw [ih _ _ (by omega) (by omega), List.append_assoc,
          show H + (pos + blk) = H + pos + blk by omega, ← slice_append,
          show blk + (fw - (pos + blk)) = fw - pos by omega]
      · rw [show blk = fw - pos by omega]

theorem imageHash_eq {k : ImgCfg} {m : Mem} {fw off : Nat} (hb : 0 < k.blk)
    (hfw : fw + k.blk < 4294967296) (hf : findHdr m k.H k.shaTag = .found off k.dlen) :
    imageHash k m fw = .msg (slice m 0 (off - 4) ++ slice m k.H fw) := by
  unfold imageHash
  rw [hf]
  simp only [ne_eq, not_true_eq_false, if_false]
  rw [hashHdr_eq hb _ _ _ (by omega) (by omega)]
  simp only [List.nil_append, Nat.sub_zero]
  rw [hashFw_eq hb hfw _ _ _ (by omega) (by omega)]
  simp

theorem keySlot_some {k : ImgCfg} {hint : List Byte} :
    ∀ n i d id d', keySlot k hint n i d = (some id, d') →
      i ≤ id ∧ id < i + n ∧ (∃ s, k.keys[id % 256]? = some s ∧ k.hash s.pub = hint) ∧
      ∀ j s, i ≤ j → j < id → k.keys[j % 256]? = some s → k.hash s.pub ≠ hint := by
  intro n
  induction n with
  | zero => intro i d id d' h; simp [keySlot] at h
  | succ n ih =>
    intro i d id d' h
    unfold keySlot at h
    split at h
    · next s hs =>
      split at h
      · next he =>
        simp only [Prod.mk.injEq, Option.some.injEq] at h
        obtain ⟨rfl, _⟩ := h
        exact ⟨Nat.le_refl _, by omega, ⟨s, hs, he⟩, fun j _ h1 h2 => by omega⟩
      · next he =>
        obtain ⟨h1, h2, h3, h4⟩ := ih _ _ _ _ h
        refine ⟨by omega, by omega, h3, fun j s' hj1 hj2 hj3 => ?_⟩
        by_cases hji : j = i
        · subst hji
          rw [hs] at hj3
          obtain rfl := Option.some.inj hj3
          exact he
        · exact h4 j s' (by omega) hj2 hj3
    · next hs =>
      obtain ⟨h1, h2, h3, h4⟩ := ih _ _ _ _ h
      refine ⟨by omega, by omega, h3, fun j s' hj1 hj2 hj3 => ?_⟩
      by_cases hji : j = i
      · subst hji
        rw [hs] at hj3
        simp at hj3
      · exact h4 j s' (by omega) hj2 hj3

theorem keySlot_none {k : ImgCfg} {hint : List Byte} :
    ∀ n i d d', keySlot k hint n i d = (none, d') →
      ∀ j s, i ≤ j → j < i + n → k.keys[j % 256]? = some s → k.hash s.pub ≠ hint := by
  intro n
  induction n with
  | zero => intro i d d' _ j s h1 h2; omega
  | succ n ih =>
    intro i d d' h j s' hj1 hj2 hj3
    unfold keySlot at h
    split at h
    · next s hs =>
      split at h
      · simp at h
      · next he =>
        by_cases hji : j = i
        · subst hji
          rw [hs] at hj3
          obtain rfl := Option.some.inj hj3
          exact he
        · exact ih _ _ _ h j s' (by omega) (by omega) hj3
    · next hs =>
      by_cases hji : j = i
      · subst hji
        rw [hs] at hj3
        simp at hj3
      · exact ih _ _ _ h j s' (by omega) (by omega) hj3

/-- The selected slot number fits in a `uint8_t`, so all functions see the same key. -/
theorem keySlot_lt {k : ImgCfg} {hint : List Byte} {n id : Nat} {d d' : List Byte}
    (h : keySlot k hint n 0 d = (some id, d')) :
    id % 256 = id ∧ ∃ s, k.keys[id]? = some s ∧ k.hash s.pub = hint := by
  obtain ⟨_, _, ⟨s, hs, he⟩, hmin⟩ := keySlot_some _ _ _ _ _ h
  have : id % 256 = id := by
    apply Classical.byContradiction
    intro hne
    have hle : id % 256 < id := by omega
    exact hmin (id % 256) s (by omega) hle (by rw [Nat.mod_mod]; exact hs) he
  exact ⟨this, s, by rw [this] at hs; exact hs, he⟩

/-- The slot number does not depend on the prior contents of `digest`. -/
theorem keySlot_fst (k : ImgCfg) (hint : List Byte) :
    ∀ n i d d', (keySlot k hint n i d).1 = (keySlot k hint n i d').1 := by
  intro n
  induction n with
  | zero => intro i d d'; rfl
  | succ n ih =>
    intro i d d'
    unfold keySlot
    split
    · split
      · rfl
      · rfl
    · exact ih _ _ _

theorem maskAllows_iff {mask : BitVec 32} {p : Nat} (hp : p < 32) :
    maskAllows mask p = true ↔ mask.getLsbD p = true := by
  unfold maskAllows
  rw [beq_iff_eq]
  constructor
  · intro h
    have := congrArg (fun x => BitVec.getLsbD x p) h
    simpa [hp] using this
  · intro h
    ext i hi
    simp only [BitVec.getElem_and, BitVec.getElem_shiftLeft]
    by_cases hip : i = p
    · subst hip
      simp [BitVec.getLsbD_eq_getElem hi] at h ⊢
      exact h
    · by_cases hlt : i < p
      · simp [hlt]
      · have : (1#32)[i - p]'(by omega) = false := by
          simp [BitVec.getElem_one]; omega
        simp [this]

theorem findHdr_bounds {m : Mem} {H type off len : Nat} (h : findHdr m H type = .found off len) :
    12 ≤ off ∧ off + len ≤ H := by
  have := findHeader_in_bounds m 0 H type off len h
  unfold hdrOff at this
  omega

theorem findHdr_congr {m x : Mem} {H : Nat} (h : Agree m x 0 H) (type : Nat) :
    findHdr m H type = findHdr x H type := by
  have : hdrBuf m H = hdrBuf x H := by
    funext a
    unfold hdrBuf
    split
    · next ha => rw [h a (by omega) ha]
    · rfl
  unfold findHdr
  rw [this]

/-! ## Locality -/

theorem verifyIntegrity_congr {k : ImgCfg} {m x : Mem} {fw : Nat} (hb : 0 < k.blk)
    (hfw : fw + k.blk < 4294967296) (h : Agree m x 0 (k.H + fw)) (st : ImgSt) :
    verifyIntegrity k m fw st = verifyIntegrity k x fw st := by
  have hH : Agree m x 0 k.H := h.mono (by omega) (by omega)
  have hf := findHdr_congr hH k.shaTag
  unfold verifyIntegrity
  rw [hf]
  split
  · next off len hx =>
    have hbd := findHdr_bounds hx
    split
    · rfl
    · next hl =>
      have hl : len = k.dlen := Classical.byContradiction hl
      subst hl
      rw [imageHash_eq hb hfw (hf.trans hx), imageHash_eq hb hfw hx,
        slice_congr (m := m) (x := x) (hH.mono (by omega) (by omega)),
        slice_congr (m := m) (x := x) (off := k.H) (h.mono (by omega) (by omega)),
        slice_congr (m := m) (x := x) (off := off) (hH.mono (by omega) (by omega))]
  · rfl

theorem shaBytes_congr {k : ImgCfg} {m x : Mem} {st : ImgSt} {H : Nat} (hH : Agree m x 0 H)
    (hs : ∀ off, st.sha = .stored off → off + k.dlen ≤ H) : st.shaBytes k m = st.shaBytes k x := by
  unfold ImgSt.shaBytes
  split
  · rfl
  · next off ho =>
    have := hs off ho
    exact slice_congr (hH.mono (by omega) (by omega))
  · rfl

theorem verifySecondary_congr {k : ImgCfg} {m x : Mem} {fw part : Nat} {st : ImgSt}
    (h : Agree m x 0 (k.H + fw)) (hs2 : k.sigSz2 ≤ fw)
    (hst : ∀ off, st.sha = .stored off → off + k.dlen ≤ k.H) :
    verifySecondary k m part st = verifySecondary k x part st := by
  have hH : Agree m x 0 k.H := h.mono (by omega) (by omega)
  unfold verifySecondary
  simp only [findHdr_congr hH]
  split
  · next hoff hlen hx =>
    have hbd := findHdr_bounds hx
    split
    · rfl
    · next hl =>
      rw [slice_congr (m := m) (x := x) (off := hoff) (hH.mono (by omega) (by omega))]
      split
      · rfl
      · next id d _ =>
        split
        · next s sv _ _ =>
          split
          · rfl
          · split
            · next soff _ hsx =>
              have := findHdr_bounds hsx
              rw [slice_congr (m := m) (x := x) (off := soff) (h.mono (by omega) (by omega)),
                shaBytes_congr hH (by exact hst)]
            · rfl
        · rfl
  · rfl

theorem verifyPrimary_congr {k : ImgCfg} {m x : Mem} {fw id t : Nat} {st : ImgSt}
    (h : Agree m x 0 (k.H + fw)) (hs : k.sigSz ≤ fw) (hs2 : k.sigSz2 ≤ fw)
    (hst : ∀ off, st.sha = .stored off → off + k.dlen ≤ k.H) :
    verifyPrimary k m id t st = verifyPrimary k x id t st := by
  have hH : Agree m x 0 k.H := h.mono (by omega) (by omega)
  unfold verifyPrimary
  simp only [findHdr_congr hH]
  split
  · split
    · rfl
    · split
      · next soff _ hsx =>
        have := findHdr_bounds hsx
        rw [slice_congr (m := m) (x := x) (off := soff) (h.mono (by omega) (by omega)),
          shaBytes_congr hH hst]
        have key : ∀ st' : ImgSt, st'.sha = st.sha →
            (if st'.sigOk = true then
              if k.hybrid = true then verifySecondary k m (t % 16) st' else (Ret.ok, st')
              else (Ret.err, st')) =
            (if st'.sigOk = true then
              if k.hybrid = true then verifySecondary k x (t % 16) st' else (Ret.ok, st')
              else (Ret.err, st')) := by
          intro st' hst'
          rw [verifySecondary_congr h hs2 (fun off ho => hst off (hst' ▸ ho))]
        split
        · exact key _ rfl
        · exact key _ rfl
      · rfl
  · rfl

theorem verifyAuthenticity_congr {k : ImgCfg} {m x : Mem} {fw : Nat} {st : ImgSt}
    (h : Agree m x 0 (k.H + fw)) (hs : k.sigSz ≤ fw)
    (hs2 : k.sigSz2 ≤ fw) (hst : ∀ off, st.sha = .stored off → off + k.dlen ≤ k.H)
    (hn : st.sha ≠ .null) :
    verifyAuthenticity k m fw st = verifyAuthenticity k x fw st := by
  have hH : Agree m x 0 k.H := h.mono (by omega) (by omega)
  unfold verifyAuthenticity
  simp only [findHdr_congr hH]
  split
  · next hoff hlen hx =>
    have hbd := findHdr_bounds hx
    split
    · rfl
    · next hl =>
      rw [slice_congr (m := m) (x := x) (off := hoff) (hH.mono (by omega) (by omega))]
      split
      · rfl
      · next id d _ =>
        split
        · next toff tlen htx =>
          have := findHdr_bounds htx
          split
          · rfl
          · rw [le16_congr (m := m) (x := x) (a := toff) (hH.mono (by omega) (by omega))]
            split
            · rfl
            · obtain ⟨dg, sha, so, sh⟩ := st
              cases sha with
              | null => exact absurd rfl hn
              | stored off => exact verifyPrimary_congr h hs hs2 hst
              | digestBuf => exact verifyPrimary_congr h hs hs2 hst
        · rfl
  · rfl

theorem verifyIntegrity_ok {k : ImgCfg} {m : Mem} {fw : Nat} {st st' : ImgSt}
    (h : verifyIntegrity k m fw st = (.ok, st')) :
    ∃ off, findHdr m k.H k.shaTag = .found off k.dlen ∧ st'.sha = .stored off ∧ st'.sigOk = st.sigOk ∧
      st'.shaOk = true ∧ st'.digest = slice m off k.dlen ∧
      ∃ l, imageHash k m fw = .msg l ∧ k.hash l = slice m off k.dlen := by
  unfold verifyIntegrity at h
  split at h
  · next off len hf =>
    split at h
    · simp at h
    · next hl =>
      have hl : len = k.dlen := Classical.byContradiction hl
      subst hl
      split at h
      · next l hm =>
        dsimp only at h
        split at h
        · simp at h
        · next he =>
          have he : k.hash l = slice m off k.dlen := Classical.byContradiction he
          simp only [Prod.mk.injEq, true_and] at h
          subst h
          exact ⟨off, hf, rfl, rfl, rfl, he, l, hm, he⟩
      · simp at h
      · simp at h
  · simp at h

theorem verifyImage_congr {k : ImgCfg} {m x : Mem} {fw : Nat} (d : List Byte) (hb : 0 < k.blk)
    (hfw : fw + k.blk < 4294967296) (h : Agree m x 0 (k.H + fw)) (hs : k.sigSz ≤ fw)
    (hs2 : k.sigSz2 ≤ fw) : verifyImage k m fw d = verifyImage k x fw d := by
  unfold verifyImage
  rw [verifyIntegrity_congr hb hfw h]
  split
  · next st hi =>
    obtain ⟨off, hf, hsha, _⟩ := verifyIntegrity_ok hi
    rw [verifyAuthenticity_congr h hs hs2]
    · intro off' h'
      rw [hsha] at h'
      obtain rfl := ShaPtr.stored.inj h'
      exact (findHdr_bounds hf).2
    · rw [hsha]; simp
  · rfl

end Verif
