import Verif.DeltaLoop

/-!
# Helper lemmas: `wolfBoot_delta_update` and its final phase
-/

set_option linter.unusedSectionVars false
set_option linter.unusedVariables false

namespace Verif

/-- The patch has been applied; the final phase has not begun. -/
structure D2 (c : Cfg) (Y U : Mem) (inv : Bool) (f : Flash) : Prop where
  upd : Agree (f .update) U 0 (imgLen c U)
  boot : Agree (f .boot) Y 0 (imgLen c Y)
  magic : hasMagic c f .update
  st : f .update (trailerAt c 1) &&& ST_FINAL = ST_FINAL
  stNF : f .update (trailerAt c 1) ≠ ST_FINAL
  flags : ∀ j, j * c.ss < max (imgLen c Y) (imgLen c U) → rawFlag c f j ≠ FL_NEW ∧ rawFlag c f j ≠ FL_SWAPPING
  go : inv = false → f .update (trailerAt c 1) = ST_UPDATING
  test : inv = true → Testing c f
  ntB : le32 (f .boot) c.tmp ≠ MAGIC_TRAIL
  ntU : le32 (f .update) c.tmp ≠ MAGIC_TRAIL

/-- States reachable during a delta update. -/
def DProg (c : Cfg) (X Y U : Mem) (inv : Bool) (P : List BSrc) (f : Flash) : Prop :=
  DIx c X Y U inv P f ∨ D2 c Y U inv f ∨ FinI c U (imgLen c U) Y (imgLen c Y) f ∨
    DoneI c U (imgLen c U) Y (imgLen c Y) f

section
variable {c : Cfg} (w : c.WF) {d : DCfg} {e : Env} {X Y U : Mem} {inv : Bool} {off size : Nat} {P : List BSrc}
include w

/-- The sector loop from the second sector on. -/
theorem deltaLoop_spec (hp : DParm c d X Y U inv off size P) {total : Nat} (ht : total ≤ c.part)
    (hti : inv = true → total ≤ c.last) : ∀ fuel s k sw ctx, 1 ≤ s → s ≤ c.n → min s (c.n - 1) ≤ k →
    Rem (slice U off size) ctx (P.drop (s * c.ss)) → c.n < fuel + s →
    Triple (TD c inv) false (DI c X Y U inv P k sw) (deltaLoop c d off size fuel total s ctx) false
      (fun r f => ∃ K, r = some K ∧ K ≤ c.n ∧ total ≤ K * c.ss ∧ ∃ k sw, min K (c.n - 1) ≤ k ∧
        DI c X Y U inv P k sw f) (DIx c X Y U inv P) := by
  have hn2 := w.n2
  have hss := w.ss_pos
  intro fuel
  induction fuel with
  | zero => intro s k sw ctx h1 h2 h3 h4 h5; omega
  | succ fuel ih =>
    intro s k sw ctx hs1 hsn hk hrem hfuel
    unfold deltaLoop
    refine Triple.ite (fun hlt => ?_) (fun hge => ?_)
    · have hsn' : s < c.n := by
        have : s * c.ss < c.n * c.ss := Nat.lt_of_lt_of_le hlt ht
        exact Nat.lt_of_mul_lt_mul_right this
      have hnext : ∀ k' sw', min (s + 1) (c.n - 1) ≤ k' → ∀ r : Option PCtx,
          Triple (TD c inv) false (fun f => DI c X Y U inv P k' sw' f ∧ ∃ ctx', r = some ctx' ∧
            Rem (slice U off size) ctx' (P.drop ((s + 1) * c.ss)))
          (match r with
            | none => pure none
            | some ctx' =>
              if s = 0 then do
                lock
                let f ← readFlash
                unlock
                let us := (le32 (f .boot) 4 + c.h) % 4294967296
                let total' := if us > total then us else total
                if total' ≤ c.h then pure none
                else if total' > c.part then pure none
                else deltaLoop c d off size fuel total' (s + 1) ctx'
              else deltaLoop c d off size fuel total (s + 1) ctx') false
          (fun r f => ∃ K, r = some K ∧ K ≤ c.n ∧ total ≤ K * c.ss ∧ ∃ k sw, min K (c.n - 1) ≤ k ∧
            DI c X Y U inv P k sw f) (DIx c X Y U inv P) := by
        intro k' sw' hk' r
        cases r with
        | none => exact Triple.false_pre (fun f h => by obtain ⟨_, _, h, _⟩ := h; simp at h)
        | some ctx1 =>
          dsimp only
          rw [if_neg (by omega)]
          refine Triple.ofEq (fun f ⟨hI, ctx', he, hr⟩ => ?_)
          injection he with he
          subst he
          exact (ih (s + 1) k' sw' ctx1 (by omega) (by omega) hk' hr (by omega)).pre
            (fun g hg => by rw [hg]; exact hI)
      by_cases hsk : s < k
      · refine Triple.bind (l' := false) (Q := fun r f => DI c X Y U inv P k sw f ∧ ∃ ctx', r = some ctx' ∧
            Rem (slice U off size) ctx' (P.drop ((s + 1) * c.ss))) ?_ (hnext k sw (by omega))
        refine Triple.ofEq (fun f0 hI => ?_)
        exact (deltaSector_skip hp.bk6 hp.bkd hp.patch hI.upd (hI.flagDone w hsk) hrem).conseq
          (fun _ h => h) (fun _ g hg => ⟨by rw [hg.1]; exact hI, hg.2⟩) (fun _ h => h)
      · by_cases hsl : s < c.n - 1
        · have hks : k ≤ c.n - 1 → k = s := by omega
          refine Triple.ofEq (fun f0 hI => ?_)
          have := hks hI.kle
          subst this
          refine Triple.bind ((deltaSector_cur w hp hsl hrem).pre (fun g hg => by rw [hg]; exact hI))
            (hnext (k + 1) false (by omega))
        · have hs : s = c.n - 1 := by omega
          subst hs
          have hinv : inv = false := by
            cases inv with
            | false => rfl
            | true =>
              have := hti rfl
              have h2 : (c.n - 1) * c.ss = c.last := rfl
              omega
          refine Triple.ofEq (fun f0 hI => ?_)
          have hkl := hI.kle
          have hk' : k = c.n - 1 := by omega
          subst hk'
          have hsw : sw = false := by
            cases sw with
            | false => rfl
            | true => have := hI.swk rfl; omega
          subst hsw
          refine Triple.bind ((deltaSector_last w hp hinv hrem).pre (fun g hg => by rw [hg]; exact hI))
            (hnext (c.n - 1) false (by omega))
    · exact (Triple.pure (Q := fun r f => ∃ K, r = some K ∧ K ≤ c.n ∧ total ≤ K * c.ss ∧ ∃ k sw,
        min K (c.n - 1) ≤ k ∧ DI c X Y U inv P k sw f) (some s)).pre
        (fun f h => ⟨s, rfl, hsn, by omega, k, sw, hk, h⟩)

/-- Header of BOOT during a delta update. -/
theorem DI.fw (hp : DParm c d X Y U inv off size P) {k : Nat} {sw : Bool} {f : Flash}
    (hI : DI c X Y U inv P k sw f) :
    (0 < k → Agree (f .boot) Y 0 8) ∧ (inv = true → fwSize c (f .boot) + c.h ≤ c.last) ∧
      fwSize c (f .update) + c.h = imgLen c U := by
  have h8 := w.h8
  have hh := w.h_le
  have hU8 : 8 ≤ imgLen c U := by unfold imgLen; omega
  have hX8 : 8 ≤ imgLen c X := by unfold imgLen; omega
  have hY : 0 < k → Agree (f .boot) Y 0 8 := by
    intro hk o h1 h2
    have : c.ss ≤ k * c.ss := Nat.le_mul_of_pos_left _ hk
    rw [hI.done o (by omega)]
    exact padded_hdr w hp o h1 h2
  refine ⟨hY, ?_, fw_base w hp.hU (hI.upd.mono (Nat.le_refl _) hU8)⟩
  intro hi
  by_cases hk : 0 < k
  · rw [fw_base w hp.hY (hY hk)]; exact hp.hY.fits
  · cases sw with
    | false =>
      rw [fw_base w hp.hX (fun o _ ho => hI.rest o (by
        have : k = 0 := by omega
        simp [this]) (by omega))]
      exact hp.hX.fits
    | true => exact hI.hdr (by omega) rfl hi

/-- The whole sector loop. -/
theorem deltaLoop0_spec (hp : DParm c d X Y U inv off size P) {k : Nat} {sw : Bool} {f0 : Flash}
    (hI : DI c X Y U inv P k sw f0) :
    Triple (TD c inv) false (fun f => f = f0)
      (deltaLoop c d off size (c.n + 2) (totalSize c (fwSize c (f0 .boot)) (fwSize c (f0 .update))) 0 patchInit) false
      (fun r f => ∃ K, r = some K ∧ K ≤ c.n ∧ max (imgLen c Y) (imgLen c U) ≤ K * c.ss ∧
        ∃ k sw, min K (c.n - 1) ≤ k ∧ DI c X Y U inv P k sw f) (DIx c X Y U inv P) := by
  have hn2 := w.n2
  have hss := w.ss_pos
  have h8 := w.h8
  have hh := w.h_le
  have hnw := w.no_wrap
  have hpe := w.part_eq
  have hfY := hp.hY.fits
  have hfU := hp.hU.fits
  have hUpos := hp.hU.pos
  obtain ⟨hf1, hf2, hf3⟩ := hI.fw w hp
  obtain ⟨total, htot⟩ : ∃ t, t = totalSize c (fwSize c (f0 .boot)) (fwSize c (f0 .update)) := ⟨_, rfl⟩
  rw [← htot]
  rw [totalSize_eq, hf3] at htot
  have hfl := fwSize_le c (f0 .boot)
  have htot1 : total ≤ c.part := by omega
  have htot2 : inv = true → total ≤ c.last := by intro h; have := hf2 h; omega
  have htot3 : imgLen c U ≤ total := by omega
  have hrem : Rem (slice U off size) patchInit (P.drop (0 * c.ss)) := by
    rw [Nat.zero_mul]; exact rem_init hp.patch.plan
  rw [show c.n + 2 = (c.n + 1) + 1 from rfl]
  unfold deltaLoop
  rw [if_pos (by unfold imgLen at htot3; omega)]
  refine Triple.bind (l' := false) (Q := fun r f => (∃ k sw, 0 < k ∧ DI c X Y U inv P k sw f) ∧
    ∃ ctx', r = some ctx' ∧ Rem (slice U off size) ctx' (P.drop ((0 + 1) * c.ss))) ?_ (fun r => ?_)
  · by_cases hk : 0 < k
    · exact (deltaSector_skip hp.bk6 hp.bkd hp.patch hI.upd (hI.flagDone w hk) hrem).conseq
        (fun _ h => h) (fun _ g hg => ⟨by rw [hg.1]; exact ⟨k, sw, hk, hI⟩, hg.2⟩) (fun _ h => h)
    · have : k = 0 := by omega
      subst this
      exact (deltaSector_cur w hp (by omega) hrem).conseq (fun g hg => by rw [hg]; exact hI)
        (fun _ g hg => ⟨⟨_, _, by omega, hg.1⟩, hg.2⟩) (fun _ h => h)
  · cases r with
    | none => exact Triple.false_pre (fun f h => by obtain ⟨_, _, h, _⟩ := h; simp at h)
    | some ctx1 =>
      dsimp only
      rw [if_pos rfl]
      refine Triple.bind (l' := true) Triple.lock (fun _ => ?_)
      refine Triple.readFlash (fun f ⟨⟨k, sw, hk, hI⟩, ctx', he, hr⟩ => ?_)
      injection he with he
      subst he
      refine Triple.bind (l' := false) Triple.unlock (fun _ => ?_)
      have hY8 := (hI.fw w hp).1 hk
      have hus : (le32 (f .boot) 4 + c.h) % 4294967296 = imgLen c Y := by
        rw [le32_congr (m := f .boot) (x := Y) (hY8.mono (by omega) (by omega))]
        change imgLen c Y % _ = _
        exact Nat.mod_eq_of_lt (by omega)
      rw [hus]
      obtain ⟨total', htot'⟩ : ∃ t, t = if imgLen c Y > total then imgLen c Y else total := ⟨_, rfl⟩
      rw [← htot']
      have hge : max (imgLen c Y) (imgLen c U) ≤ total' ∧ total' ≤ c.part ∧ (inv = true → total' ≤ c.last) := by
        rw [htot']
        split
        · exact ⟨by omega, by omega, fun _ => by omega⟩
        · exact ⟨by omega, by omega, htot2⟩
      rw [if_neg (by unfold imgLen at hge; omega), if_neg (by omega)]
      refine (deltaLoop_spec w hp hge.2.1 hge.2.2 (c.n + 1) 1 k sw ctx1 (by omega) (by omega) (by omega)
        hr (by omega)).conseq (fun g hg => by rw [hg]; exact hI) ?_ (fun _ h => h)
      rintro r g ⟨K, h1, h2, h3, h4⟩
      exact ⟨K, h1, h2, by omega, h4⟩

/-- The patch has been applied. -/
theorem DI.d2 (hp : DParm c d X Y U inv off size P) {K k : Nat} {sw : Bool} {f : Flash}
    (hK : max (imgLen c Y) (imgLen c U) ≤ K * c.ss) (hk : min K (c.n - 1) ≤ k)
    (hI : DI c X Y U inv P k sw f) : D2 c Y U inv f := by
  have hn2 := w.n2
  have h8 := w.h8
  have hss := w.ss_pos
  have hfY := hp.hY.fits
  have hfU := hp.hU.fits
  have hKpos : 0 < K := by
    rcases Nat.eq_zero_or_pos K with h | h
    · rw [h] at hK; unfold imgLen at hK; omega
    · exact h
  have hlast : (c.n - 1) * c.ss = c.last := rfl
  have hlen := hp.len
  refine ⟨hI.upd, ?_, hI.magic (Or.inr (Or.inl (by omega))), by rw [hI.st]; split <;> decide,
    by rw [hI.st]; split <;> decide, ?_, ?_, hI.test, hI.ntB, hI.ntU⟩
  · intro x _ hx
    have : x < k * c.ss := by
      rcases Nat.le_total K (c.n - 1) with h | h
      · have : K * c.ss ≤ k * c.ss := Nat.mul_le_mul_right _ (by omega)
        omega
      · have : (c.n - 1) * c.ss ≤ k * c.ss := Nat.mul_le_mul_right _ (by omega)
        omega
    rw [hI.done x this]
    unfold padded
    rw [if_pos (by omega)]
  · intro j hj
    refine hI.fdone j ?_
    have h1 : j < K := Nat.lt_of_mul_lt_mul_right (Nat.lt_of_lt_of_le hj hK)
    have h2 : j < c.n - 1 := Nat.lt_of_mul_lt_mul_right (a := c.ss) (by omega)
    omega
  · intro hi
    rw [hI.st, if_neg (by simp [hi])]

/-! ## After the patch has been applied -/

theorem D2.frame {f f' : Flash} (hY : ImgOK c Y) (hU : ImgOK c U) (h : D2 c Y U inv f)
    (hu : f' .update = f .update)
    (hb : ∀ x, x < imgLen c Y → f' .boot x = f .boot x)
    (ht : ∀ x, c.last ≤ x → f' .boot x = f .boot x)
    (hntB : le32 (f' .boot) c.tmp ≠ MAGIC_TRAIL) : D2 c Y U inv f' := by
  have hn2 := w.n2
  have hfY := hY.fits
  have hfU := hU.fits
  have hlast : (c.n - 1) * c.ss = c.last := rfl
  obtain ⟨h1, h2, h3, h4⟩ := trailer_frame w (f := f) (f' := f') (fun x _ => by rw [hu])
  refine ⟨by rw [hu]; exact h.upd, ?_, h2.mpr h.magic, by rw [h4]; exact h.st, by rw [h4]; exact h.stNF, ?_,
    by rw [h4]; exact h.go, ?_, hntB, by rw [hu]; exact h.ntU⟩
  · intro o h1 h2; rw [hb o h2]; exact h.boot o h1 h2
  · intro j hj
    rw [h1 j (by
      have : j < c.n - 1 := Nat.lt_of_mul_lt_mul_right (a := c.ss) (by omega)
      omega)]
    exact h.flags j hj
  · intro hi; exact testing_frame w ht (h.test hi)

theorem D2.fw {f : Flash} (hY : ImgOK c Y) (hU : ImgOK c U) (h : D2 c Y U inv f) :
    fwSize c (f .boot) + c.h = imgLen c Y ∧ fwSize c (f .update) + c.h = imgLen c U := by
  have h8 := w.h8
  exact ⟨fw_base w hY (h.boot.mono (Nat.le_refl _) (by unfold imgLen; omega)),
    fw_base w hU (h.upd.mono (Nat.le_refl _) (by unfold imgLen; omega))⟩

/-- The sector loop when everything is done. -/
theorem deltaLoop_done {T C} {inv' : Bool} (h6 : 6 ≤ d.bk) (hd : d.bk ∣ c.ss) (hY : ImgOK c Y) (hU : ImgOK c U)
    (hp : HasPatch c U inv' off size P) {f0 : Flash} (h : D2 c Y U inv f0) : ∀ fuel s ctx, s ≤ c.n →
    Rem (slice U off size) ctx (P.drop (s * c.ss)) → c.n < fuel + s →
    Triple T false (fun f => f = f0)
      (deltaLoop c d off size fuel (max (imgLen c Y) (imgLen c U)) s ctx) false
      (fun r f => f = f0 ∧ ∃ K, r = some K ∧ K ≤ c.n ∧ max (imgLen c Y) (imgLen c U) ≤ K * c.ss) C := by
  have hn2 := w.n2
  have hss := w.ss_pos
  have h8 := w.h8
  have hpe := w.part_eq
  have hnw := w.no_wrap
  have hfY := hY.fits
  have hfU := hU.fits
  have hUpos := hU.pos
  have hlast : (c.n - 1) * c.ss = c.last := rfl
  intro fuel
  induction fuel with
  | zero => intro s ctx h1 h2 h3; omega
  | succ fuel ih =>
    intro s ctx hsn hrem hfuel
    unfold deltaLoop
    refine Triple.ite (fun hlt => ?_) (fun hge => ?_)
    · have hs : s < c.n - 1 := Nat.lt_of_mul_lt_mul_right (a := c.ss) (by omega)
      have hfl : (getFlag c f0 s).getD FL_NEW ≠ FL_NEW ∧ (getFlag c f0 s).getD FL_NEW ≠ FL_SWAPPING := by
        unfold getFlag
        rw [if_pos h.magic]
        exact h.flags s hlt
      refine Triple.bind (l' := false) (deltaSector_skip h6 hd hp h.upd hfl hrem) (fun r => ?_)
      cases r with
      | none => exact Triple.false_pre (fun f h => by obtain ⟨_, _, h, _⟩ := h; simp at h)
      | some ctx1 =>
        refine Triple.ofEq (fun f ⟨hf, ctx', he, hr⟩ => ?_)
        injection he with he
        subst he
        subst hf
        dsimp only
        refine Triple.ite (fun h0 => ?_) (fun h0 => ?_)
        · refine Triple.bind (l' := true) Triple.lock (fun _ => ?_)
          refine Triple.readFlash (fun g hg => ?_)
          subst hg
          refine Triple.bind (l' := false) Triple.unlock (fun _ => ?_)
          have hus : (le32 (g .boot) 4 + c.h) % 4294967296 = imgLen c Y := by
            rw [le32_congr (m := g .boot) (x := Y) (h.boot.mono (by omega) (by unfold imgLen; omega))]
            change imgLen c Y % _ = _
            exact Nat.mod_eq_of_lt (by omega)
          have hmx : ¬ imgLen c Y > max (imgLen c Y) (imgLen c U) := by omega
          have hgt : ¬ max (imgLen c Y) (imgLen c U) ≤ c.h := by
            have : c.h < imgLen c U := by unfold imgLen; omega
            omega
          rw [hus]
          rw [if_neg hmx, if_neg hgt, if_neg (by omega)]
          exact ih (s + 1) ctx1 (by omega) hr (by omega)
        · exact ih (s + 1) ctx1 (by omega) hr (by omega)
    · exact (Triple.pure (Q := fun r f => f = f0 ∧ ∃ K, r = some K ∧ K ≤ c.n ∧
        max (imgLen c Y) (imgLen c U) ≤ K * c.ss) (some s)).pre
        (fun f h => ⟨h, s, rfl, hsn, by omega⟩)

theorem eraseBoot_spec (hY : ImgOK c Y) (hU : ImgOK c U) : ∀ fuel j, max (imgLen c Y) (imgLen c U) ≤ j * c.ss →
    j ≤ c.n → c.n < fuel + j →
    Triple (TT c) false (D2 c Y U inv) (eraseBoot c fuel j) false (fun _ => D2 c Y U inv) (D2 c Y U inv) := by
  have hn2 := w.n2
  have hss := w.ss_pos
  have hpe := w.part_eq
  have hle := w.last_eq
  intro fuel
  induction fuel with
  | zero => intro j h1 h2 h3; omega
  | succ fuel ih =>
    intro j hT hjn hfuel
    unfold eraseBoot
    refine Triple.ite (fun hlt => ?_) (fun hge => ?_)
    · have hjn' : j < c.n - 1 := lt_last_sec w (T := c.last) (Nat.le_refl _) (by omega)
      have hl := Cfg.WF.sec_le_last hjn'
      have hfr : ∀ f f' : Flash, D2 c Y U inv f → Same .boot (j * c.ss) (j * c.ss + c.ss) f f' →
          (j = c.n - 2 → le32 (f' .boot) c.tmp ≠ MAGIC_TRAIL) → D2 c Y U inv f' := by
        intro f f' h hs hnt
        refine h.frame w hY hU (hs.other (by simp)) (fun x hx => hs.out (by omega)) (fun x hx => hs.out (by omega)) ?_
        exact nt_copy w (src := .swap) hjn' (by simp) (by simpa [secOff] using hs) h.ntB hnt
      refine Triple.bind (l' := false) (Q := fun _ => D2 c Y U inv) ?_ (fun _ => ?_)
      · refine Triple.erase (fun f hI => ?_) (fun t f hT hI => ?_)
        · refine hfr f _ hI (same_erase _ _ _ _) (fun hj2 => ?_)
          have ht := tmp_sec w hj2
          have : le32 (f.erase .boot (j * c.ss) c.ss .boot) c.tmp = 4294967295 := by
            unfold le32 Flash.erase
            simp only [true_and]
            rw [if_pos (by omega), if_pos (by omega), if_pos (by omega), if_pos (by omega)]
            rfl
          rw [this]; decide
        · refine hfr f _ hI (same_tornErase _ _ _ _ _ _) (fun hj2 => ?_)
          have ht := tmp_sec w hj2
          have : le32 (f.tornErase c t .boot (j * c.ss) c.ss .boot) c.tmp = le32 t c.tmp := by
            refine le32_congr (fun o h1 h2 => ?_)
            unfold Flash.tornErase
            rw [if_neg (by rintro ⟨_, h⟩; omega)]
            simp only
            rw [if_pos ⟨trivial, by omega, by omega⟩]
          rw [this]; exact hT
      · refine ih (j + 1) ?_ (by omega) (by omega)
        rw [Nat.succ_mul]; omega
    · exact Triple.pure (Q := fun _ => D2 c Y U inv) ()

theorem deltaSave_spec (hY : ImgOK c Y) (hU : ImgOK c U) {bootFw : Nat} (hfw : bootFw + c.h = imgLen c Y) {st : Byte}
    (hst : st ≠ ST_FINAL) :
    Triple (TT c) false (D2 c Y U inv) (finalSave c bootFw st) false
      (fun _ => FinI c U (imgLen c U) Y (imgLen c Y))
      (fun f => D2 c Y U inv f ∨ FinI c U (imgLen c U) Y (imgLen c Y) f) := by
  have hss := w.ss_pos
  have hn2 := w.n2
  have h4 := w.fb4
  have hfb := w.fb_le
  have hpe := w.part_eq
  have hle := w.last_eq
  have hfY := hY.fits
  have hfU := hU.fits
  have htb := trailer_bounds w (k := 1) (by omega)
  have hlast : (c.n - 1) * c.ss = c.last := rfl
  refine Triple.ofEq (fun f0 hI => ?_)
  unfold finalSave
  rw [if_pos hst]
  refine Triple.bind ((copySector_spec w (by simp) (Or.inl rfl) f0).conseq (fun _ h => h)
    (fun _ _ h => h) ?_) (fun _ => ?_)
  · rintro f (rfl | ⟨hs, hw⟩)
    · exact Or.inl hI
    · exact Or.inl (hI.frame w hY hU (hs.other (by simp)) (fun x _ => by rw [hs.other (by simp)])
        (fun x _ => by rw [hs.other (by simp)]) (by rw [hs.other (by simp)]; exact hI.ntB))
  · refine Triple.ofEq (fun f ⟨hs, hcp⟩ => ?_)
    have hbt : f .boot = f0 .boot := hs.other (by simp)
    have hup : f .update = f0 .update := hs.other (by simp)
    have hI' : D2 c Y U inv f := hI.frame w hY hU hup (fun x _ => by rw [hbt]) (fun x _ => by rw [hbt])
      (by rw [hbt]; exact hI.ntB)
    have hdiv := w.tmp_div
    have hso : secOff c .boot (c.tmp / c.ss) = c.tmp := by
      unfold secOff; rw [hdiv]; rfl
    have hswap : ∀ o, o < c.ss → c.tmp + o < imgLen c Y → f .swap o = Y (c.tmp + o) := by
      intro o ho hob
      have h1 := hcp o ho
      rw [hso, copied_lt (by omega) (by omega)] at h1
      simp only [secOff, ↓reduceIte, Nat.zero_add] at h1
      rw [h1]
      exact hI.boot _ (by omega) hob
    have hswapNT : le32 (f .swap) 0 ≠ MAGIC_TRAIL := by
      have := copied_word w (m := f .swap) (a := 0) (g := f0 .boot) (so := c.tmp) (fw := bootFw)
        (fun o ho => by
          have h1 := hcp o (by omega)
          rw [hso] at h1
          simpa [secOff] using h1)
      rcases this with h | h
      · rw [h]; exact hI.ntB
      · rw [h]; decide
    have hfin : ∀ g, Same .update (trailerAt c 1) c.part f g → hasMagic c g .update →
        g .update (trailerAt c 1) = ST_FINAL → FinI c U (imgLen c U) Y (imgLen c Y) g := by
      intro g hs2 hm hst
      have hgb : g .boot = f .boot := hs2.other (by simp)
      have hgs : g .swap = f .swap := hs2.other (by simp)
      refine ⟨hm, hst, ?_, ?_, ?_, ?_, ?_⟩
      · intro o h1 _; rw [hgb, hbt]; exact hI.boot o (by omega) h1
      · rw [hgs]; exact hswap
      · rw [hgs]; exact fun _ => hswapNT
      · intro o _ ho
        rw [hs2.out (by omega)]; exact hI'.upd o (by omega) ho
      · rw [word_out (x := f .update) (fun y hy => hs2.out hy) (by omega)]
        exact hI'.ntU
    refine (setState_spec w (by simp) f ST_FINAL hI'.magic.magicP hI'.st).conseq (fun _ h => h) ?_ ?_
    · rintro _ g ⟨h1, h2, h3⟩
      exact hfin g h3 h1 h2
    · rintro g ⟨h1, h2, h3⟩
      have hm := h2 hI'.magic
      by_cases hgf : g .update (trailerAt c 1) = ST_FINAL
      · exact Or.inr (hfin g h1 hm hgf)
      · left
        have hgb : g .boot = f .boot := h1.other (by simp)
        have hfl : ∀ j, j < c.n → rawFlag c g j = rawFlag c f j := by
          intro j hj
          refine rawFlag_congr (h1.out ?_)
          left
          have hff := w.flags_fit
          have hn := w.n512
          have : flagPos j ≤ c.n / 2 := by rw [flagPos_lt (by omega)]; omega
          have := trailer_bounds w (k := 2 + flagPos j) (by omega)
          omega
        have hstate : g .update (trailerAt c 1) &&& ST_FINAL = ST_FINAL ∧
            (f .update (trailerAt c 1) = ST_UPDATING → g .update (trailerAt c 1) = ST_UPDATING) := by
          rcases h3 with ⟨_, h3⟩ | ⟨_, t, h3⟩
          · rw [h3]; exact ⟨hI'.st, id⟩
          · refine ⟨by rw [h3]; exact and_torn _ _ _ hI'.st, fun hu => ?_⟩
            rw [hu] at h3
            rcases torn_final_updating w t with h | h
            · rw [h3]; exact h
            · exact absurd (h3.trans h) hgf
        refine ⟨?_, by rw [hgb]; exact hI'.boot, hm, hstate.1, hgf, ?_, fun hi => hstate.2 (hI'.go hi), ?_,
          by rw [hgb]; exact hI'.ntB, ?_⟩
        · intro o h2 ho
          rw [h1.out (by omega)]; exact hI'.upd o h2 ho
        · intro j hj
          rw [hfl j (by
            have : j < c.n - 1 := Nat.lt_of_mul_lt_mul_right (a := c.ss) (by omega)
            omega)]
          exact hI'.flags j hj
        · intro hi
          exact testing_frame w (fun x _ => by rw [hgb]) (hI'.test hi)
        · rw [word_out (x := f .update) (fun y hy => h1.out hy) (by omega)]
          exact hI'.ntU

theorem deltaFinal_spec (hY : ImgOK c Y) (hU : ImgOK c U) :
    Triple (TT c) true (D2 c Y U inv) (swapFinal c e false) true
      (fun r f => r = true ∧ DoneI c U (imgLen c U) Y (imgLen c Y) f) (DProg c X Y U inv P) := by
  unfold swapFinal
  refine Triple.readFlash (fun f hI => ?_)
  have hst : (getState c f .update).getD e.junk ≠ ST_FINAL := by
    unfold getState; rw [if_pos hI.magic]; exact hI.stNF
  have hfw := (hI.fw w hY hU).1
  dsimp only
  rw [if_neg (by simp)]
  refine Triple.bind (Triple.unlock) (fun _ => ?_)
  refine Triple.bind ((deltaSave_spec w hY hU (inv := inv) hfw hst).conseq
    (fun g hg => by rw [hg]; exact hI) (fun _ _ h => h) ?_) (fun _ => ?_)
  · rintro g (h | h)
    · exact Or.inr (Or.inl h)
    · exact Or.inr (Or.inr (Or.inl h))
  · exact (finalTail_spec w hU.fits hY.fits (by rw [hfw])).conseq
      (fun g hg => hg) (fun _ _ h => h) (fun _ h => Or.inr (Or.inr h))

/-- The rest of `wolfBoot_delta_update` behind the sector loop. -/
theorem deltaRest_spec (hY : ImgOK c Y) (hU : ImgOK c U) {K : Nat} (hK : K ≤ c.n)
    (hT : max (imgLen c Y) (imgLen c U) ≤ K * c.ss) :
    Triple (TD c inv) false (D2 c Y U inv)
      (eraseBoot c (c.n + 2) K >>= fun _ => lock >>= fun _ => swapFinal c e false >>= fun _ => pure true) true
      (fun r f => r = true ∧ DoneI c U (imgLen c U) Y (imgLen c Y) f) (DProg c X Y U inv P) := by
  have hmono : ∀ t, TD c inv t → TT c t := fun t h => h.1
  refine Triple.bind (l' := false) (((eraseBoot_spec w hY hU (c.n + 2) K hT hK (by omega)).monoT hmono).conseq
    (fun _ h => h) (fun _ _ h => h) (fun _ h => Or.inr (Or.inl h))) (fun _ => ?_)
  refine Triple.bind (l' := true) Triple.lock (fun _ => ?_)
  refine Triple.bind ((deltaFinal_spec w hY hU).monoT hmono) (fun _ => ?_)
  exact (Triple.pure (Q := fun r f => r = true ∧ DoneI c U (imgLen c U) Y (imgLen c Y) f) true).pre
    (fun f h => ⟨rfl, h.2⟩)

/-- `wolfBoot_delta_update` in progress. -/
theorem deltaUpdate_DI (hp : DParm c d X Y U inv off size P) {k : Nat} {sw res : Bool} {f0 : Flash}
    (hI : DI c X Y U inv P k sw f0) (hsel : deltaSelect c e d f0 inv res = .go off size) :
    Triple (TD c inv) true (fun f => f = f0)
      (deltaUpdate c e d (fwSize c (f0 .boot)) (fwSize c (f0 .update)) inv res) true
      (fun r f => r = true ∧ DoneI c U (imgLen c U) Y (imgLen c Y) f) (DProg c X Y U inv P) := by
  unfold deltaUpdate
  refine Triple.bind (l' := false) Triple.unlock (fun _ => ?_)
  refine Triple.readFlash (fun f hf => ?_)
  subst hf
  rw [hsel]
  dsimp only
  refine Triple.bind (l' := false) ((deltaLoop0_spec w hp hI).conseq (fun _ h => h) (fun _ _ h => h)
    (fun _ h => Or.inl h)) (fun r => ?_)
  refine Triple.ofEq (fun g ⟨K, hr, hK, hT, k, sw, hk, hg⟩ => ?_)
  subst hr
  dsimp only
  exact (deltaRest_spec w hp.hY hp.hU hK hT).pre (fun x hx => by rw [hx]; exact hg.d2 w hp hT hk)

/-- `wolfBoot_delta_update` when the patch has been applied. -/
theorem deltaUpdate_D2 {inv' : Bool} (h6 : 6 ≤ d.bk) (hd : d.bk ∣ c.ss) (hY : ImgOK c Y) (hU : ImgOK c U)
    {P' : List BSrc} (hp : HasPatch c U inv' off size P') {res : Bool} {f0 : Flash} (hI : D2 c Y U inv f0)
    (hsel : deltaSelect c e d f0 inv' res = .go off size) :
    Triple (TD c inv) true (fun f => f = f0)
      (deltaUpdate c e d (fwSize c (f0 .boot)) (fwSize c (f0 .update)) inv' res) true
      (fun r f => r = true ∧ DoneI c U (imgLen c U) Y (imgLen c Y) f) (DProg c X Y U inv P) := by
  have hrem : Rem (slice U off size) patchInit (P'.drop (0 * c.ss)) := by
    rw [Nat.zero_mul]; exact rem_init hp.plan
  obtain ⟨hf1, hf2⟩ := hI.fw w hY hU
  unfold deltaUpdate
  refine Triple.bind (l' := false) Triple.unlock (fun _ => ?_)
  refine Triple.readFlash (fun f hf => ?_)
  subst hf
  rw [hsel]
  dsimp only
  rw [totalSize_eq, hf1, hf2]
  refine Triple.bind (l' := false) (deltaLoop_done w h6 hd hY hU hp hI (c.n + 2) 0 patchInit (by omega) hrem
    (by omega)) (fun r => ?_)
  refine Triple.ofEq (fun g ⟨hg, K, hr, hK, hT⟩ => ?_)
  subst hr
  subst hg
  dsimp only
  exact (deltaRest_spec w hY hU hK hT).pre (fun x hx => by rw [hx]; exact hI)

end

end Verif
