import Verif.InvTrailer

/-!
# Helper lemmas about the trailer (no property statements here)
-/

namespace Verif.Inv

/-- Assumptions on the build-time geometry. -/
structure Cfg.WF (c : Cfg) : Prop where
  fb4 : 4 ≤ c.fb
  fb_dvd : c.fb ∣ c.ss
  h8 : 8 ≤ c.h
  h_le : c.h ≤ c.ss
  n2 : 2 ≤ c.n
  n512 : c.n ≤ 512
  flags_fit : 6 + c.n / 2 ≤ c.ss
  no_wrap : c.part + c.ss < 4294967296

namespace Cfg.WF
variable {c : Cfg} (w : c.WF)
include w

theorem part_eq : c.part = c.last + c.ss := by
  unfold Cfg.part Cfg.last
  have := w.n2
  obtain ⟨m, hm⟩ : ∃ m, c.n = m + 1 := ⟨c.n - 1, by omega⟩
  rw [hm, Nat.succ_mul]; simp

theorem last_eq : c.last = c.tmp + c.ss := by
  unfold Cfg.tmp Cfg.last
  have := w.n2
  obtain ⟨m, hm⟩ : ∃ m, c.n = m + 2 := ⟨c.n - 2, by omega⟩
  rw [hm, show m + 2 - 1 = m + 1 by omega, Nat.succ_mul]; simp

theorem ss_pos : 6 ≤ c.ss := by have := w.flags_fit; omega

theorem tmp_div : c.tmp / c.ss = c.n - 2 := by
  unfold Cfg.tmp
  exact Nat.mul_div_cancel _ (by have := w.ss_pos; omega)

theorem fb_le : c.fb ≤ c.ss := Nat.le_of_dvd (by have := w.ss_pos; omega) w.fb_dvd

omit w in
/-- Data sectors end before the trailer sector. -/
theorem sec_le_last {k : Nat} (hk : k < c.n - 1) : k * c.ss + c.ss ≤ c.last := by
  unfold Cfg.last
  calc k * c.ss + c.ss = (k + 1) * c.ss := by rw [Nat.succ_mul]
    _ ≤ (c.n - 1) * c.ss := Nat.mul_le_mul_right _ (by omega)

omit w in
theorem sec_le_tmp {k : Nat} (hk : k < c.n - 2) : k * c.ss + c.ss ≤ c.tmp := by
  unfold Cfg.tmp
  calc k * c.ss + c.ss = (k + 1) * c.ss := by rw [Nat.succ_mul]
    _ ≤ (c.n - 2) * c.ss := Nat.mul_le_mul_right _ (by omega)

end Cfg.WF

theorem sec_lt {ss j k : Nat} (h : j < k) : j * ss + ss ≤ k * ss := by
  calc j * ss + ss = (j + 1) * ss := by rw [Nat.succ_mul]
    _ ≤ k * ss := Nat.mul_le_mul_right _ (by omega)

/-! ## Bits -/

theorem or_torn (o d t : Byte) (h : o ||| d = d) : (o ||| (d &&& t)) ||| d = d := by
  rw [← h]
  ext i
  simp only [BitVec.getElem_and, BitVec.getElem_or]
  cases o[i] <;> cases d[i] <;> cases t[i] <;> rfl

theorem nib_and (k : Nat) (a b : Byte) : nibbleOf k (a &&& b) = nibbleOf k a &&& nibbleOf k b := by
  unfold nibbleOf
  split
  · ext i; simp only [BitVec.getElem_and]; cases a[i] <;> cases b[i] <;> simp
  · ext i hi
    simp only [BitVec.getElem_and, BitVec.getElem_ushiftRight, BitVec.getLsbD_and]
    cases a.getLsbD (4 + i) <;> cases b.getLsbD (4 + i) <;> simp

theorem nib_or (k : Nat) (a b : Byte) : nibbleOf k (a ||| b) = nibbleOf k a ||| nibbleOf k b := by
  unfold nibbleOf
  split
  · ext i; simp only [BitVec.getElem_and, BitVec.getElem_or]; cases a[i] <;> cases b[i] <;> simp
  · ext i hi
    simp only [BitVec.getElem_or, BitVec.getElem_ushiftRight,
      BitVec.getLsbD_and, BitVec.getLsbD_or]
    cases a.getLsbD (4 + i) <;> cases b.getLsbD (4 + i) <;> simp

theorem nib_lt (k : Nat) (a : Byte) : nibbleOf k a &&& 0x0F#8 = nibbleOf k a := by
  revert a; unfold nibbleOf; split <;> decide

theorem nib_flagByte_same (k : Nat) (old fl : Byte) (h : fl &&& 0x0F#8 = fl) :
    nibbleOf k (flagByte k old fl) = fl := by
  unfold nibbleOf flagByte
  split
  · rw [h]
    rw [show (old &&& 0xF0#8 ||| fl) &&& 0x0F#8 = fl &&& 0x0F#8 by
      ext i hi
      simp only [BitVec.getElem_and, BitVec.getElem_or]
      have : ∀ i, (h : i < 8) → (0xF0#8)[i] = !(0x0F#8)[i] := by decide
      rw [this i hi]
      cases (0x0F#8)[i] <;> simp]
    exact h
  · rw [h]
    have h2 : ((fl <<< 4 ||| old &&& 0x0F#8) &&& 0xF0#8) = fl <<< 4 &&& 0xF0#8 := by
      ext i hi
      simp only [BitVec.getElem_and, BitVec.getElem_or]
      have : ∀ i, (h : i < 8) → (0xF0#8)[i] = !(0x0F#8)[i] := by decide
      rw [this i hi]
      cases (0x0F#8)[i] <;> simp
    rw [h2]
    clear h2
    revert h; revert fl; decide

theorem flagPos_lt {k : Nat} (h : k < 512) : flagPos k = k / 2 := by
  unfold flagPos; omega

theorem nib_flagByte_other {j k : Nat} (hj : j < 512) (hk : k < 512) (hne : j ≠ k)
    (hp : flagPos j = flagPos k) (old fl : Byte) :
    nibbleOf j (flagByte k old fl) = nibbleOf j old := by
  have hj' := flagPos_lt hj
  have hk' := flagPos_lt hk
  unfold nibbleOf flagByte
  have e : ∀ i, (h : i < 8) → (0xF0#8)[i] = !(0x0F#8)[i] := by decide
  by_cases hjk : j % 65536 = 2 * flagPos j
  · rw [if_pos hjk, if_neg (by omega), if_pos hjk]
    ext i hi
    have : ∀ fl : Byte, ((fl &&& 0x0F#8) <<< 4) &&& 0x0F#8 = 0#8 := by decide
    have h3 := congrArg (fun x : Byte => x[i]) (this fl)
    simp only [BitVec.getElem_and, BitVec.getElem_or] at h3 ⊢
    cases h : (0x0F#8)[i] <;> simp_all
  · rw [if_neg hjk, if_pos (by omega), if_neg hjk]
    congr 1
    ext i hi
    simp only [BitVec.getElem_and, BitVec.getElem_or]
    rw [e i hi]
    cases (0x0F#8)[i] <;> simp

/-! ## Frames -/

/-- `f` and `f0` differ at most in the bytes `[lo, hi)` of partition `p`. -/
def Same (p : Part) (lo hi : Nat) (f0 f : Flash) : Prop :=
  ∀ q a, ¬ (q = p ∧ lo ≤ a ∧ a < hi) → f q a = f0 q a

theorem Same.refl (p : Part) (lo hi : Nat) (f : Flash) : Same p lo hi f f := fun _ _ _ => rfl

theorem Same.trans {p : Part} {lo hi : Nat} {f g h : Flash} (h1 : Same p lo hi f g)
    (h2 : Same p lo hi g h) : Same p lo hi f h :=
  fun q a hn => by rw [h2 q a hn, h1 q a hn]

theorem Same.mono {p : Part} {lo hi lo' hi' : Nat} {f g : Flash} (h1 : Same p lo hi f g)
    (h2 : lo' ≤ lo) (h3 : hi ≤ hi') : Same p lo' hi' f g :=
  fun q a hn => h1 q a (fun ⟨a1, a2, a3⟩ => hn ⟨a1, by omega, by omega⟩)

theorem Same.other {p q : Part} {lo hi : Nat} {f g : Flash} (h : Same p lo hi f g) (hq : q ≠ p) :
    g q = f q := by
  funext a; exact h q a (fun hh => hq hh.1)

theorem Same.out {p : Part} {lo hi : Nat} {f g : Flash} (h : Same p lo hi f g) {a : Nat}
    (ha : a < lo ∨ hi ≤ a) : g p a = f p a :=
  h p a (fun hh => by omega)

theorem same_erase (f : Flash) (p : Part) (off len : Nat) :
    Same p off (off + len) f (f.erase p off len) := by
  intro q a hn; unfold Flash.erase; rw [if_neg hn]

theorem same_program (f : Flash) (p : Part) (off len : Nat) (d : Nat → Byte) :
    Same p off (off + len) f (f.program p off len d) := by
  intro q a hn; unfold Flash.program; rw [if_neg hn]

theorem same_tornErase (c : Cfg) (t : Mem) (f : Flash) (p : Part) (off len : Nat) :
    Same p off (off + len) f (f.tornErase c t p off len) := by
  intro q a hn; unfold Flash.tornErase; split
  · rfl
  · exact if_neg hn

theorem same_tornProgram (c : Cfg) (t : Mem) (f : Flash) (p : Part) (off len : Nat)
    (d : Nat → Byte) : Same p off (off + len) f (f.tornProgram c t p off len d) := by
  intro q a hn; unfold Flash.tornProgram; rw [if_neg hn]

/-! ## Magic -/

/-- The magic word can be programmed without an erase (or is already there). -/
def MagicP (c : Cfg) (f : Flash) (p : Part) : Prop :=
  ∀ i, i < 4 → f p (trailerAt c 0 + i) ||| magicByte i = magicByte i

theorem le32_magic {m : Mem} {a : Nat} (h : ∀ i, i < 4 → m (a + i) = magicByte i) :
    le32 m a = MAGIC_TRAIL := by
  unfold le32
  have h0 := h 0 (by omega)
  rw [Nat.add_zero] at h0
  rw [h0, h 1 (by omega), h 2 (by omega), h 3 (by omega)]
  decide

theorem magic_of_le32 {m : Mem} {a : Nat} (h : le32 m a = MAGIC_TRAIL) :
    ∀ i, i < 4 → m (a + i) = magicByte i := by
  unfold le32 MAGIC_TRAIL at h
  have e0 := (m a).isLt
  have e1 := (m (a+1)).isLt
  have e2 := (m (a+2)).isLt
  have e3 := (m (a+3)).isLt
  intro i hi
  apply BitVec.eq_of_toNat_eq
  match i, hi with
  | 0, _ => show (m (a + 0)).toNat = 0x42; rw [Nat.add_zero]; omega
  | 1, _ => show (m (a + 1)).toNat = 0x4F; omega
  | 2, _ => show (m (a + 2)).toNat = 0x4F; omega
  | 3, _ => show (m (a + 3)).toNat = 0x54; omega

theorem hasMagic.magicP {c : Cfg} {f : Flash} {p : Part} (h : hasMagic c f p) : MagicP c f p := by
  intro i hi
  rw [magic_of_le32 h i hi]
  exact BitVec.or_self

theorem trailer_bounds {c : Cfg} (w : c.WF) {k : Nat} (hk : 4 + k ≤ c.ss) :
    c.last ≤ trailerAt c k ∧ trailerAt c k + (4 + k) = c.part := by
  unfold trailerAt
  have := w.part_eq
  omega

theorem ensureMagic_spec {c : Cfg} (w : c.WF) {T : Mem → Prop} {p : Part} (hp : p ≠ .swap)
    (f0 : Flash) (hm : MagicP c f0 p) :
    Triple T false (fun f => f = f0) (ensureMagic c p) false
      (fun _ f => hasMagic c f p ∧ Same p (trailerAt c 0) c.part f0 f)
      (fun f => (hasMagic c f0 p → hasMagic c f p) ∧ MagicP c f p ∧
        Same p (trailerAt c 0) c.part f0 f) := by
  have hb := trailer_bounds w (k := 0) (by have := w.ss_pos; omega)
  unfold ensureMagic
  refine Triple.readFlash (fun f hf => ?_)
  subst hf
  refine Triple.ite (fun h => ?_) (fun h => ?_)
  · refine (Triple.pure (Q := fun _ g => g = f) ()).conseq (fun _ h => h) ?_ (fun _ h => h)
    rintro _ g rfl
    exact ⟨h, Same.refl _ _ _ _⟩
  · refine Triple.program ?_ ?_ ?_
    · rintro g rfl i hi
      exact hm i hi
    · rintro g rfl
      refine ⟨le32_magic ?_, (same_program _ _ _ _ _).mono (by omega) (by omega)⟩
      intro i hi
      unfold Flash.program
      rw [if_pos ⟨rfl, by omega, by omega⟩, show trailerAt c 0 + i - trailerAt c 0 = i by omega]
      exact hm i hi
    · rintro t g _ rfl
      refine ⟨fun hh => absurd hh h, ?_,
        (same_tornProgram _ _ _ _ _ _ _).mono (by omega) (by omega)⟩
      intro i hi
      unfold Flash.tornProgram
      rw [if_pos ⟨rfl, by omega, by omega⟩, if_pos ⟨hp, by omega⟩,
        show trailerAt c 0 + i - trailerAt c 0 = i by omega]
      exact or_torn _ _ _ (hm i hi)

/-! ## Partition state -/

theorem setState_spec {c : Cfg} (w : c.WF) {T : Mem → Prop} {p : Part} (hp : p ≠ .swap)
    (f0 : Flash) (st : Byte) (hm : MagicP c f0 p) (hst : f0 p (trailerAt c 1) ||| st = st) :
    Triple T false (fun f => f = f0) (setState c p st) false
      (fun _ f => hasMagic c f p ∧ f p (trailerAt c 1) = st ∧
        Same p (trailerAt c 1) c.part f0 f)
      (fun f => Same p (trailerAt c 1) c.part f0 f ∧ (hasMagic c f0 p → hasMagic c f p) ∧
        ((MagicP c f p ∧ f p (trailerAt c 1) = f0 p (trailerAt c 1)) ∨
         (hasMagic c f p ∧ ∃ t, T t ∧ f p (trailerAt c 1) = f0 p (trailerAt c 1) ||| (st &&& t (trailerAt c 1))))) := by
  have hss := w.ss_pos
  have hb := trailer_bounds w (k := 0) (by omega)
  have hb1 := trailer_bounds w (k := 1) (by omega)
  unfold setState
  refine Triple.bind (Q := fun _ f => hasMagic c f p ∧ Same p (trailerAt c 0) c.part f0 f)
    ((ensureMagic_spec w hp f0 hm).conseq (fun _ h => h) (fun _ _ h => h) ?_) (fun _ => ?_)
  · rintro f ⟨h0, h1, h2⟩
    exact ⟨h2.mono (by omega) (by omega), h0, Or.inl ⟨h1, h2.out (by omega)⟩⟩
  · refine Triple.readFlash (fun f hf => ?_)
    obtain ⟨h1, h2⟩ := hf
    have h3 : f p (trailerAt c 1) = f0 p (trailerAt c 1) := h2.out (by omega)
    refine Triple.ite (fun h => ?_) (fun h => ?_)
    · refine Triple.program ?_ ?_ ?_
      · rintro g rfl i hi
        have : i = 0 := by omega
        subst this
        rw [Nat.add_zero, h3]; exact hst
      · rintro g rfl
        have hs := same_program g p (trailerAt c 1) 1 (fun _ => st)
        refine ⟨?_, ?_, (h2.mono (by omega) (by omega)).trans (hs.mono (by omega) (by omega))⟩
        · unfold hasMagic
          rw [← h1]
          exact le32_congr (fun o a b => hs.out (by omega))
        · unfold Flash.program
          rw [if_pos ⟨rfl, by omega, by omega⟩, h3]
          exact hst
      · rintro t g hT rfl
        have hs := same_tornProgram c t g p (trailerAt c 1) 1 (fun _ => st)
        have hmg : hasMagic c (g.tornProgram c t p (trailerAt c 1) 1 fun _ => st) p := by
          unfold hasMagic
          rw [← h1]
          exact le32_congr (fun o a b => hs.out (by omega))
        refine ⟨(h2.mono (by omega) (by omega)).trans (hs.mono (by omega) (by omega)),
          fun _ => hmg, Or.inr ⟨hmg, ?_⟩⟩
        · refine ⟨t, hT, ?_⟩
          unfold Flash.tornProgram
          rw [if_pos ⟨rfl, by omega, by omega⟩, if_pos ⟨hp, by omega⟩, h3]
    · refine (Triple.pure (Q := fun _ g => g = f) ()).conseq (fun _ h => h) ?_ (fun _ h => h)
      rintro _ g rfl
      exact ⟨h1, by simpa using h, h2.mono (by omega) (by omega)⟩

/-! ## Sector flags -/

theorem rawFlag_congr {c : Cfg} {f g : Flash} {k : Nat}
    (h : f .update (trailerAt c (2 + flagPos k)) = g .update (trailerAt c (2 + flagPos k))) :
    rawFlag c f k = rawFlag c g k := by unfold rawFlag; rw [h]

theorem setFlag_spec {c : Cfg} (w : c.WF) {T : Mem → Prop} (f0 : Flash) (k : Nat) (hk : k < c.n)
    (fl : Byte) (hfl : fl &&& 0x0F#8 = fl) (hm : MagicP c f0 .update)
    (hst : rawFlag c f0 k ||| fl = fl) :
    Triple T false (fun f => f = f0) (setFlag c k fl) false
      (fun _ f => Same .update c.last c.part f0 f ∧ hasMagic c f .update ∧
        f .update (trailerAt c 1) = f0 .update (trailerAt c 1) ∧
        rawFlag c f k = fl ∧ ∀ j, j < c.n → j ≠ k → rawFlag c f j = rawFlag c f0 j)
      (fun f => Same .update c.last c.part f0 f ∧
        (hasMagic c f0 .update → hasMagic c f .update) ∧
        f .update (trailerAt c 1) = f0 .update (trailerAt c 1) ∧
        (∀ j, j < c.n → j ≠ k → rawFlag c f j = rawFlag c f0 j) ∧
        ((MagicP c f .update ∧ rawFlag c f k = rawFlag c f0 k) ∨
         (hasMagic c f .update ∧ ∃ t, rawFlag c f k = rawFlag c f0 k ||| (fl &&& t)))) := by
  have hss := w.flags_fit
  have hss6 := w.ss_pos
  have hn := w.n512
  have hb := trailer_bounds w (k := 0) (by omega)
  have hb1 := trailer_bounds w (k := 1) (by omega)
  have hpos : ∀ j, j < c.n → flagPos j ≤ c.n / 2 := by
    intro j hj; rw [flagPos_lt (by omega)]; omega
  have hbj : ∀ j, j < c.n → c.last ≤ trailerAt c (2 + flagPos j) ∧
      trailerAt c (2 + flagPos j) + (4 + (2 + flagPos j)) = c.part := by
    intro j hj
    have := hpos j hj
    exact trailer_bounds w (by omega)
  have hbk := hbj k hk
  unfold setFlag
  refine Triple.bind (Q := fun _ f => hasMagic c f .update ∧
      Same .update (trailerAt c 0) c.part f0 f)
    ((ensureMagic_spec w (by simp) f0 hm).conseq (fun _ h => h) (fun _ _ h => h) ?_) (fun _ => ?_)
  · rintro f ⟨h0, h1, h2⟩
    have hfl : ∀ j, j < c.n → rawFlag c f j = rawFlag c f0 j := by
      intro j hj
      have := hbj j hj
      exact rawFlag_congr (h2.out (by omega))
    exact ⟨h2.mono (by omega) (by omega), h0, h2.out (by omega), fun j hj _ => hfl j hj,
      Or.inl ⟨h1, hfl k hk⟩⟩
  · refine Triple.readFlash (fun f hf => ?_)
    obtain ⟨h1, h2⟩ := hf
    have h3 : ∀ j, j < c.n → f .update (trailerAt c (2 + flagPos j)) =
        f0 .update (trailerAt c (2 + flagPos j)) := by
      intro j hj
      have := hbj j hj
      exact h2.out (by omega)
    have h3s : f .update (trailerAt c 1) = f0 .update (trailerAt c 1) := h2.out (by omega)
    have hmg : ∀ g, Same .update (trailerAt c (2 + flagPos k)) (trailerAt c (2 + flagPos k) + 1) f g →
        hasMagic c g .update := by
      intro g hs
      unfold hasMagic
      rw [← h1]
      exact le32_congr (fun o a b => hs.out (by omega))
    -- a byte whose own nibble is anything, and whose other nibble is unchanged
    have hoth : ∀ g j, j < c.n → j ≠ k →
        Same .update (trailerAt c (2 + flagPos k)) (trailerAt c (2 + flagPos k) + 1) f g →
        (flagPos j = flagPos k → nibbleOf j (g .update (trailerAt c (2 + flagPos k))) =
          nibbleOf j (f .update (trailerAt c (2 + flagPos k)))) →
        rawFlag c g j = rawFlag c f0 j := by
      intro g j hj hjk hs hnib
      by_cases hp : flagPos j = flagPos k
      · unfold rawFlag
        rw [hp, hnib hp, ← hp, h3 j hj]
      · have hbj' := hbj j hj
        refine rawFlag_congr ?_
        rw [← h3 j hj]
        exact hs.out (by omega)
    have hsub : ∀ old : Byte, nibbleOf k old ||| fl = fl → old ||| flagByte k old fl = flagByte k old fl := by
      intro old ho
      unfold nibbleOf at ho
      unfold flagByte
      have e : ∀ i, (h : i < 8) → (0xF0#8)[i] = !(0x0F#8)[i] := by decide
      split
      · next he =>
        rw [if_pos he] at ho
        rw [hfl]
        ext i hi
        have h1 := congrArg (fun x : Byte => x.getLsbD i) ho
        simp only [BitVec.getElem_and, BitVec.getElem_or, BitVec.getLsbD_eq_getElem hi, e i hi] at h1 ⊢
        cases h2 : (0x0F#8)[i] <;> cases h3 : old[i] <;> cases h4 : fl[i] <;> simp_all
      · next he =>
        rw [if_neg he] at ho
        rw [hfl]
        have h5 : ∀ a : Byte, ((a &&& 0xF0#8) >>> 4) <<< 4 = a &&& 0xF0#8 := by decide
        have h7 : (old &&& 0xF0#8) ||| fl <<< 4 = fl <<< 4 := by
          rw [← h5, ← BitVec.shiftLeft_or_distrib, ho]
        generalize fl <<< 4 = x at h7 ⊢
        ext i hi
        have h1 := congrArg (fun x : Byte => x.getLsbD i) h7
        simp only [BitVec.getElem_and, BitVec.getElem_or, BitVec.getLsbD_eq_getElem hi, e i hi] at h1 ⊢
        cases h2 : (0x0F#8)[i] <;> cases h3 : old[i] <;> cases h4 : x[i] <;> simp_all
    refine Triple.ite (fun h => ?_) (fun h => ?_)
    · refine Triple.program ?_ ?_ ?_
      · rintro g rfl i hi
        have : i = 0 := by omega
        subst this
        refine hsub _ ?_
        rw [Nat.add_zero, h3 k hk]; exact hst
      · rintro g rfl
        have hs := same_program g .update (trailerAt c (2 + flagPos k)) 1
          (fun _ => flagByte k (g .update (trailerAt c (2 + flagPos k))) fl)
        have hv : (g.program .update (trailerAt c (2 + flagPos k)) 1
            (fun _ => flagByte k (g .update (trailerAt c (2 + flagPos k))) fl)) .update
            (trailerAt c (2 + flagPos k)) = flagByte k (g .update (trailerAt c (2 + flagPos k))) fl := by
          unfold Flash.program
          rw [if_pos ⟨rfl, by omega, by omega⟩]
          refine hsub _ ?_
          rw [h3 k hk]; exact hst
        refine ⟨(h2.mono (by omega) (by omega)).trans (hs.mono (by omega) (by omega)), hmg _ hs, ?_, ?_, ?_⟩
        · rw [← h3s]; exact hs.out (by omega)
        · unfold rawFlag
          rw [hv]
          exact nib_flagByte_same _ _ _ hfl
        · intro j hj hjk
          refine hoth _ j hj hjk hs (fun hp => ?_)
          rw [hv]
          exact nib_flagByte_other (by omega) (by omega) hjk hp _ _
      · rintro t g _ rfl
        have hs := same_tornProgram c t g .update (trailerAt c (2 + flagPos k)) 1
          (fun _ => flagByte k (g .update (trailerAt c (2 + flagPos k))) fl)
        have hv : (g.tornProgram c t .update (trailerAt c (2 + flagPos k)) 1
            (fun _ => flagByte k (g .update (trailerAt c (2 + flagPos k))) fl)) .update
            (trailerAt c (2 + flagPos k)) = g .update (trailerAt c (2 + flagPos k)) |||
              (flagByte k (g .update (trailerAt c (2 + flagPos k))) fl &&&
                t (trailerAt c (2 + flagPos k))) := by
          unfold Flash.tornProgram
          rw [if_pos ⟨rfl, by omega, by omega⟩, if_pos ⟨by simp, by omega⟩]
        refine ⟨(h2.mono (by omega) (by omega)).trans (hs.mono (by omega) (by omega)),
          fun _ => hmg _ hs, ?_, ?_, Or.inr ⟨hmg _ hs, ?_⟩⟩
        · rw [← h3s]; exact hs.out (by omega)
        · intro j hj hjk
          refine hoth _ j hj hjk hs (fun hp => ?_)
          rw [hv, nib_or, nib_and, nib_flagByte_other (by omega) (by omega) hjk hp]
          generalize nibbleOf j (g Part.update (trailerAt c (2 + flagPos k))) = x
          generalize nibbleOf j _ = y
          ext i
          simp only [BitVec.getElem_and, BitVec.getElem_or]
          cases x[i] <;> simp
        · refine ⟨nibbleOf k (t (trailerAt c (2 + flagPos k))), ?_⟩
          unfold rawFlag
          rw [hv, nib_or, nib_and, nib_flagByte_same _ _ _ hfl, h3 k hk]
    · refine (Triple.pure (Q := fun _ g => g = f) ()).conseq (fun _ h => h) ?_ (fun _ h => h)
      rintro _ g rfl
      refine ⟨h2.mono (by omega) (by omega), h1, h3s, ?_, fun j hj _ => rawFlag_congr (h3 j hj)⟩
      simp only [ne_eq, Decidable.not_not] at h
      unfold rawFlag
      rw [← h]
      exact nib_flagByte_same _ _ _ hfl

end Verif.Inv
