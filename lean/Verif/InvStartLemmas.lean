import Verif.InvFinalLemmas

/-!
# Helper lemmas: `wolfBoot_update`, `wolfBoot_start`
-/

set_option linter.unusedSectionVars false
set_option linter.unusedVariables false

namespace Verif.Inv

/-- The checks of image `X` only look at the bytes of the image. -/
def Local (c : Cfg) (e : Env) (X : Mem) : Prop :=
  ∀ m, Agree m X 0 (imgLen c X) → e.typ m = e.typ X ∧ e.ver m = e.ver X ∧ e.integ m = e.integ X ∧
    e.auth m = e.auth X

section
variable {c : Cfg} (w : c.WF) {V : Prop × Prop} {A B : Mem} {a b : Nat} {e : Env}
include w

theorem acceptable_congr {m X : Mem} (hL : Local c e X) (h : Agree m X 0 (imgLen c X)) :
    acceptable c e m ↔ acceptable c e X := by
  have h8 := w.h8
  obtain ⟨h1, h2, h3, h4⟩ := hL m h
  unfold acceptable
  rw [h1, h3, h4, fwSize_congr (h.mono (Nat.le_refl _) (by unfold imgLen; omega))]

theorem bootable_congr {m X : Mem} (hL : Local c e X) (h : Agree m X 0 (imgLen c X)) :
    bootable c e m ↔ bootable c e X := by
  have h8 := w.h8
  obtain ⟨h1, h2, h3, h4⟩ := hL m h
  have hh : Agree m X 0 8 := h.mono (Nat.le_refl _) (by unfold imgLen; omega)
  unfold bootable openOK
  rw [h3, h4, le32_congr (hh.mono (by omega) (by omega)), le32_congr (hh.mono (by omega) (by omega) :
    Agree m X 4 (4 + 4))]

theorem ImgOK.congr {m X : Mem} (h : ImgOK c X) (ha : Agree m X 0 (imgLen c X)) : ImgOK c m := by
  have h8 := w.h8
  have hh : Agree m X 0 8 := ha.mono (Nat.le_refl _) (by unfold imgLen; omega)
  have h0 : le32 m 0 = le32 X 0 := le32_congr (hh.mono (by omega) (by omega))
  have h4 : le32 m 4 = le32 X 4 := le32_congr (hh.mono (by omega) (by omega))
  exact ⟨h0.trans h.magic, by rw [h4]; exact h.pos, by unfold imgLen; rw [h4]; exact h.fits⟩

omit w in
theorem totalSize_eq (x y : Nat) : totalSize c x y = max (x + c.h) (y + c.h) := by
  unfold totalSize; split <;> omega

/-- Headers found in BOOT and UPDATE during the swap. -/
theorem hdr_boot {f : Flash} {k : Nat} {s : Stage} (hA : ImgOK c A) (hB : ImgOK c B)
    (ha : a = imgLen c A) (hb : b = imgLen c B) (hI : SwapI c V A a B b f k s) :
    (k = 0 → s ≠ .backup → fwSize c (f .boot) + c.h = a) ∧
    (k = 0 → s = .new → fwSize c (f .update) + c.h = b) ∧
    (k = 0 → s = .backup → fwSize c (f .update) + c.h = a) ∧
    (0 < k → fwSize c (f .boot) + c.h = b ∧ fwSize c (f .update) + c.h = a) := by
  have hn2 := w.n2
  have h8 := w.h8
  have ha8 : 8 ≤ a := by rw [ha]; unfold imgLen; omega
  have hb8 : 8 ≤ b := by rw [hb]; unfold imgLen; omega
  have eA : ∀ {p}, p ≠ Part.swap → SecAt c f p A a 0 → fwSize c (f p) + c.h = a := by
    intro p hp h
    rw [fwSize_congr (hdr_of_secAt w hp ha8 h), fwSize_of_open (hA.openOK w), ha]; rfl
  have eB : ∀ {p}, p ≠ Part.swap → SecAt c f p B b 0 → fwSize c (f p) + c.h = b := by
    intro p hp h
    rw [fwSize_congr (hdr_of_secAt w hp hb8 h), fwSize_of_open (hB.openOK w), hb]; rfl
  refine ⟨?_, ?_, ?_, ?_⟩
  · rintro rfl hs
    have := (hI.cur (by omega)).1
    cases s with
    | new => exact eA (by simp) this.1
    | swapping => exact eA (by simp) this.1
    | backup => exact absurd rfl hs
    | done => exact absurd rfl hI.ndone
  · rintro rfl rfl
    exact eB (by simp) (hI.cur (by omega)).1.2
  · rintro rfl rfl
    exact eA (by simp) (hI.cur (by omega)).1.1
  · intro hk
    have := (hI.core.done 0 hk (by omega)).1
    exact ⟨eB (by simp) this.1, eA (by simp) this.2⟩

theorem EndSec.le {T K : Nat} (hT : T ≤ c.last) (hK : EndSec c T K) : K ≤ c.n - 1 := by
  rcases Nat.lt_or_ge (c.n - 1) K with h | h
  · have := sec_lt (ss := c.ss) h
    have h2 : c.last = (c.n - 1) * c.ss := rfl
    have := hK.2
    omega
  · exact h

/-- The whole swap loop, including the exchange of the sizes after the first sector. -/
theorem swapLoop0_spec (hA : ImgOK c A) (hB : ImgOK c B) (ha : a = imgLen c A) (hb : b = imgLen c B)
    {k : Nat} {s : Stage} {f0 : Flash} (hI : SwapI c V A a B b f0 k s) {total : Nat}
    (htot : 0 < total) :
    Triple (TT c) false (fun f => f = f0)
      (swapLoop c (c.n + 2) (fwSize c (f0 .boot)) (fwSize c (f0 .update)) total 0) false
      (fun r f => EndSec c (max a b) r ∧ SwapI c V A a B b f r .new) (InSwap c V A a B b) := by
  have hn2 := w.n2
  have hss := w.ss_pos
  have h8 := w.h8
  have ha8 : 8 ≤ a := by rw [ha]; unfold imgLen; omega
  have hfa : a ≤ c.last := by rw [ha]; exact hA.fits
  have hfb : b ≤ c.last := by rw [hb]; exact hB.fits
  obtain ⟨h1, h2, h3, h4⟩ := hdr_boot w hA hB ha hb hI
  unfold swapLoop
  rw [if_pos (by omega)]
  refine Triple.bind (l' := false) (Q := fun _ f => ∃ k s, 0 < k ∧ SwapI c V A a B b f k s) ?_
    (fun _ => ?_)
  · by_cases hk : k = 0
    · subst hk
      refine (swapSector_cur w (s := s) (by omega) (by omega)).conseq (fun g hg => ?_)
        (fun _ g hg => ⟨1, .new, by omega, hg⟩) (fun _ h => h)
      rw [hg]
      exact ⟨hI, h1 rfl, h2 rfl⟩
    · exact (swapSector_done w (s := s) (by omega) (by omega) _ _).conseq
        (fun g hg => by rw [hg]; exact hI) (fun _ g hg => ⟨k, s, by omega, hg⟩) (fun _ h => h)
  · dsimp only
    rw [if_pos (by rfl)]
    refine Triple.readFlash (fun f ⟨k, s, hk, hI⟩ => ?_)
    obtain ⟨h5, h6⟩ := (hdr_boot w hA hB ha hb hI).2.2.2 hk
    rw [totalSize_eq, h5, h6]
    exact (swapLoop_spec w hfa hfb (by omega) h6 h5 (c.n + 1) 1 k s (by omega) hk (by omega)).pre
      (fun g hg => by rw [hg]; exact hI)

/-- `wolfBoot_update` when a swap is in progress or accepted. -/
theorem wbUpdate_spec (hA : ImgOK c A) (hB : ImgOK c B) (ha : a = imgLen c A) (hb : b = imgLen c B)
    {fallback : Bool} {f0 : Flash} (hI : InSwap c V A a B b f0)
    (hgo : (getFlag c f0 0).getD FL_NEW = FL_NEW → acceptable c e (f0 .update) ∧
      (fallback = true ∨ e.ver (f0 .boot) < e.ver (f0 .update))) :
    Triple (TT c) true (fun f => f = f0) (wbUpdate c e fallback) true
      (fun r f => r = true ∧ DoneI c A a B b f) (ProgI c V A a B b) := by
  obtain ⟨k, s, hI⟩ := hI
  have h8 := w.h8
  have hfa : a ≤ c.last := by rw [ha]; exact hA.fits
  have hfb : b ≤ c.last := by rw [hb]; exact hB.fits
  have hpa : c.h < a := by rw [ha]; have := hA.pos; unfold imgLen; omega
  have hpb : c.h < b := by rw [hb]; have := hB.pos; unfold imgLen; omega
  have htot : c.h < totalSize c (fwSize c (f0 .boot)) (fwSize c (f0 .update)) := by
    rw [totalSize_eq]
    obtain ⟨h1, h2, h3, h4⟩ := hdr_boot w hA hB ha hb hI
    by_cases hk : k = 0
    · by_cases hs : s = .backup
      · rw [h3 hk hs]; omega
      · rw [h1 hk hs]; omega
    · rw [(h4 (by omega)).1]; omega
  unfold wbUpdate
  refine Triple.readFlash (fun f hf => ?_)
  subst hf
  dsimp only
  rw [if_neg (by omega), if_neg (fun h => h.2 (hgo h.1).1), if_neg (fun h => h.2 (hgo h.1).2)]
  refine Triple.bind (l' := false) Triple.unlock (fun _ => ?_)
  refine Triple.bind (l' := false)
    ((swapLoop0_spec w hA hB ha hb hI (by omega)).conseq (fun _ h => h) (fun _ _ h => h)
      (fun _ h => Or.inl h)) (fun r => ?_)
  refine Triple.ofEq (fun f1 ⟨hK, hI1⟩ => ?_)
  have hK1 : 1 ≤ r := by
    have := hK.1
    rcases Nat.eq_zero_or_pos r with h | h
    · rw [h] at this; omega
    · exact h
  have hKn := hK.le w (by omega)
  refine Triple.bind (l' := false)
    ((eraseRest_spec w (V := V) (A := A) (B := B) hfa hfb hK hK1 (c.n + 2) r (Nat.le_refl _) hKn
      (by omega)).conseq (fun g hg => by rw [hg]; exact hI1) (fun _ _ h => h)
      (fun _ h => Or.inl h)) (fun _ => ?_)
  refine Triple.bind (l' := true) Triple.lock (fun _ => ?_)
  refine Triple.bind (swapFinal_first w e hB hb hfa hK1 hK) (fun _ => ?_)
  exact (Triple.pure (Q := fun r f => r = true ∧ DoneI c A a B b f) true).pre (fun f h => ⟨rfl, h.2⟩)

omit w in
/-- `wolfBoot_update` refuses: nothing changes. -/
theorem wbUpdate_refuse {fallback : Bool} {T : Mem → Prop} {l : Bool} {f0 : Flash}
    {C : Flash → Prop}
    (hflag : (getFlag c f0 0).getD FL_NEW = FL_NEW)
    (hno : ¬ acceptable c e (f0 .update) ∨
      (fallback = false ∧ e.ver (f0 .update) ≤ e.ver (f0 .boot))) :
    Triple T l (fun f => f = f0) (wbUpdate c e fallback) l (fun r f => r = false ∧ f = f0) C := by
  unfold wbUpdate
  refine Triple.readFlash (fun f hf => ?_)
  subst hf
  dsimp only
  have hp : Triple T l (fun g => g = f) (Pure.pure false : M Bool) l (fun r g => r = false ∧ g = f)
      C := (Triple.pure (Q := fun r g => r = false ∧ g = f) false).pre (fun g h => ⟨rfl, h⟩)
  split
  · exact hp
  split
  · exact hp
  rename_i h2
  have h3 : (getFlag c f 0).getD FL_NEW = FL_NEW ∧
      ¬ (fallback = true ∨ e.ver (f .boot) < e.ver (f .update)) := by
    refine ⟨hflag, ?_⟩
    rcases hno with h | ⟨h3, h4⟩
    · exact absurd ⟨hflag, h⟩ h2
    · rintro (h | h)
      · rw [h3] at h; exact absurd h (by decide)
      · omega
  rw [if_pos h3]
  exact hp

omit w in
/-- `wolfBoot_swap_and_final_erase(1)` finds nothing to resume. -/
theorem swapFinal_none {T : Mem → Prop} {l : Bool} {f0 : Flash} {C : Flash → Prop}
    (hB : le32 (f0 .boot) c.tmp ≠ MAGIC_TRAIL)
    (hst : (getState c f0 .update).getD e.junk ≠ ST_FINAL) :
    Triple T l (fun f => f = f0) (swapFinal c e true) l (fun r f => r = false ∧ f = f0) C := by
  unfold swapFinal
  refine Triple.readFlash (fun f hf => ?_)
  subst hf
  dsimp only
  rw [if_pos ⟨rfl, hB, hst⟩]
  exact (Triple.pure (Q := fun r g => r = false ∧ g = f) false).pre (fun g h => ⟨rfl, h⟩)

theorem state_ne_final {f : Flash} (hj : hasMagic c f .update ∨ e.junk ≠ ST_FINAL)
    (h : f .update (trailerAt c 1) ≠ ST_FINAL) :
    (getState c f .update).getD e.junk ≠ ST_FINAL := by
  unfold getState
  split
  · exact h
  · next hm => exact hj.resolve_left hm

/-- The image in BOOT is started. -/
theorem boot_tick {T : Mem → Prop} {P : Flash → Prop} {C : Flash → Prop} {l : Bool} {m2 : M Unit}
    (hb : ∀ f, P f → bootable c e (f .boot)) (hC : ∀ f, P f → C f) :
    Triple T l P (Verif.Inv.readFlash >>= fun f => if bootable c e (f .boot) then tick else m2) l
      (fun _ f => P f) C := by
  refine Triple.readFlash (fun f hf => ?_)
  rw [if_pos (hb f hf)]
  exact (Triple.tick (P := fun g => g = f) (C := C) (fun g hg => by rw [hg]; exact hC f hf)).conseq
    (fun _ h => h) (fun _ g hg => by rw [hg]; exact hf) (fun _ h => h)

/-- What is needed of a new image. -/
structure NewOK (c : Cfg) (e : Env) (B : Mem) : Prop where
  img : ImgOK c B
  loc : Local c e B
  acc : acceptable c e B

theorem NewOK.bootable {B : Mem} (h : NewOK c e B) : bootable c e B :=
  ⟨h.img.openOK w, h.acc.2.2.1, h.acc.2.2.2⟩

/-- `startUpdate` in the middle of a swap. -/
theorem startUpdate_inSwap (hj : V.1 → e.junk ≠ ST_FINAL) (hA : ImgOK c A) (hB : NewOK c e B)
    (ha : a = imgLen c A) (hb : b = imgLen c B) {f0 : Flash}
    (hV : ∀ m, V.2 → Agree m A 0 a → e.ver m < e.ver B)
    (hI : InSwap c V A a B b f0)
    (hg : V.1 ∨ V.2 := by first | assumption | exact Or.inl trivial | exact Or.inr (by assumption)) :
    Triple (TT c) true (fun f => f = f0) (startUpdate c e) true
      (fun _ f => DoneI c A a B b f) (ProgI c V A a B b) := by
  have hn2 := w.n2
  obtain ⟨k, s, hS⟩ := hI
  have hfa : a ≤ c.last := by rw [ha]; exact hA.fits
  have hfb : b ≤ c.last := by rw [hb]; exact hB.img.fits
  have hj' : hasMagic c f0 .update ∨ e.junk ≠ ST_FINAL := by
    rcases hS.core.go with h | h | h
    · exact Or.inr (hj h.1)
    · exact Or.inl h.1
    · exact absurd hg h
  unfold startUpdate
  refine Triple.readFlash (fun f hf => ?_)
  subst hf
  refine Triple.bind (l' := true) (swapFinal_none hS.core.ntB (state_ne_final w hj' hS.core.stNF))
    (fun r => ?_)
  refine Triple.ofEq (fun g ⟨hr, hg⟩ => ?_)
  subst hr; subst hg
  rw [if_neg (by simp)]
  -- at the beginning of the swap the images are in place
  have h0 : (getFlag c g 0).getD FL_NEW = FL_NEW → Agree (g .boot) A 0 a ∧ Agree (g .update) B 0 b := by
    intro hfl
    have hk : k = 0 := by
      rcases Nat.eq_zero_or_pos k with h | h
      · exact h
      · exact absurd hfl (flag_done w h (by omega) hS).1
    subst hk
    rw [flag_of_swapI w (by omega) hS] at hfl
    have hs : s = .new := by
      cases s with
      | new => rfl
      | swapping => exact absurd hfl (by decide)
      | backup => exact absurd hfl (by decide)
      | done => exact absurd rfl hS.ndone
    subst hs
    have hss := w.ss_pos
    have key : ∀ X x p, p ≠ Part.swap → x ≤ c.last → (∀ j, j < c.n - 1 → SecAt c g p X x j) →
        Agree (g p) X 0 x := by
      intro X x p hp hx h o _ ho
      have e1 := (Nat.div_add_mod' o c.ss)
      have := h (o / c.ss) (lt_last_sec w (T := x) hx (by
        have := Nat.div_mul_le_self o c.ss
        omega)) (o % c.ss) (Nat.mod_lt _ (by omega)) (by omega)
      unfold secOff at this
      rw [if_neg hp, e1] at this
      exact this
    have hall : ∀ j, j < c.n - 1 → CurData c A a B b g j .new := by
      intro j hj
      rcases Nat.eq_zero_or_pos j with h | h
      · subst h; exact (hS.cur hj).1
      · exact (hS.core.fresh j h hj).1
    exact ⟨key _ _ _ (by simp) hfa (fun j hj => (hall j hj).1),
      key _ _ _ (by simp) hfb (fun j hj => (hall j hj).2)⟩
  have hacc : (getFlag c g 0).getD FL_NEW = FL_NEW → acceptable c e (g .update) := fun h =>
    (acceptable_congr w hB.loc (by rw [← hb]; exact (h0 h).2)).mpr hB.acc
  have fin : ∀ (m : M Bool), Triple (TT c) true (fun f => f = g) m true
      (fun r f => r = true ∧ DoneI c A a B b f) (ProgI c V A a B b) →
      Triple (TT c) true (fun f => f = g) (m >>= fun _ => pure ()) true
      (fun _ f => DoneI c A a B b f) (ProgI c V A a B b) := by
    intro m hm
    refine Triple.bind hm (fun r => ?_)
    exact (Triple.pure (Q := fun _ f => DoneI c A a B b f) ()).pre (fun f h => h.2)
  refine Triple.ite (fun hT => ?_) (fun hT => ?_)
  · exact fin _ (wbUpdate_spec w hA hB.img ha hb ⟨k, s, hS⟩ (fun h => ⟨hacc h, Or.inl rfl⟩))
  · rcases hS.core.go with ⟨_, h1, h2⟩ | ⟨h1, h2, h3⟩ | h
    · exfalso; apply hT
      unfold getState; rw [if_pos h1, h2]
    · rw [if_pos (by unfold getState; rw [if_pos h1, h2])]
      refine fin _ (wbUpdate_spec w hA hB.img ha hb ⟨k, s, hS⟩ (fun h => ⟨hacc h, Or.inr ?_⟩))
      rw [(hB.loc (g .update) (by rw [← hb]; exact (h0 h).2)).2.1]
      exact hV _ h3 (h0 h).1
    · exact absurd hg h

theorem DoneI.bootable (hB : NewOK c e B) (hb : b = imgLen c B) {f : Flash}
    (h : DoneI c A a B b f) : bootable c e (f .boot) :=
  (bootable_congr w hB.loc (by rw [← hb]; exact h.boot)).mpr (hB.bootable w)

/-- `wolfBoot_start` in the middle of a swap. -/
theorem start_inSwap (hj : V.1 → e.junk ≠ ST_FINAL) (hA : ImgOK c A) (hB : NewOK c e B)
    (ha : a = imgLen c A) (hb : b = imgLen c B) {f0 : Flash}
    (hV : ∀ m, V.2 → Agree m A 0 a → e.ver m < e.ver B)
    (hI : InSwap c V A a B b f0)
    (hg : V.1 ∨ V.2 := by first | assumption | exact Or.inl trivial | exact Or.inr (by assumption)) :
    Triple (TT c) true (fun f => f = f0) (start c e) true
      (fun _ f => DoneI c A a B b f) (ProgI c V A a B b) := by
  unfold start
  refine Triple.bind (startUpdate_inSwap w hj hA hB ha hb hV hI) (fun _ => ?_)
  exact boot_tick w (fun f h => h.bootable w hB hb) (fun f h => Or.inr (Or.inr h))

/-- `wolfBoot_start` in the final phase. -/
theorem start_fin (hA : ImgOK c A) (hB : NewOK c e B)
    (ha : a = imgLen c A) (hb : b = imgLen c B) {f0 : Flash} (hI : FinI c A a B b f0) :
    Triple (TT c) true (fun f => f = f0) (start c e) true
      (fun _ f => DoneI c A a B b f) (ProgI c V A a B b) := by
  have hfa : a ≤ c.last := by rw [ha]; exact hA.fits
  unfold start
  refine Triple.bind (l' := true) (Q := fun _ f => DoneI c A a B b f) ?_ (fun _ => ?_)
  · unfold startUpdate
    refine Triple.readFlash (fun f hf => ?_)
    subst hf
    refine Triple.bind (l' := true) ((swapFinal_resume w e hB.img hb hfa).pre (fun g hg => by
      rw [hg]; exact hI)) (fun r => ?_)
    refine Triple.ofEq (fun g ⟨hr, hg⟩ => ?_)
    subst hr
    rw [if_pos rfl]
    exact (Triple.pure (Q := fun _ f => DoneI c A a B b f) ()).pre (fun f h => by rw [h]; exact hg)
  · exact boot_tick w (fun f h => h.bootable w hB hb) (fun f h => Or.inr (Or.inr h))

/-! ## No swap in progress -/

/-- `X` in BOOT, no swap in progress. -/
structure Idle (c : Cfg) (X : Mem) (f : Flash) : Prop where
  boot : Agree (f .boot) X 0 (imgLen c X)
  ntB : le32 (f .boot) c.tmp ≠ MAGIC_TRAIL
  ntU : le32 (f .update) c.tmp ≠ MAGIC_TRAIL
  flags : ∀ j, j < c.n - 1 → rawFlag c f j = FL_NEW
  magicP : MagicP c f .update
  stU : f .update (trailerAt c 1) ||| ST_UPDATING = ST_UPDATING

theorem stU_ne : ∀ s : Byte, s ||| ST_UPDATING = ST_UPDATING → s ≠ ST_FINAL := by decide

theorem stU_fin : ∀ s : Byte, s ||| ST_UPDATING = ST_UPDATING → s ||| ST_FINAL = ST_FINAL := by
  decide

theorem Idle.flag0 {X : Mem} {f : Flash} (h : Idle c X f) :
    (getFlag c f 0).getD FL_NEW = FL_NEW := by
  have hn2 := w.n2
  unfold getFlag
  split
  · exact h.flags 0 (by omega)
  · rfl

theorem Idle.state {X : Mem} {f : Flash} (hj : e.junk ≠ ST_FINAL) (h : Idle c X f) :
    (getState c f .update).getD e.junk ≠ ST_FINAL :=
  state_ne_final w (Or.inr hj) (stU_ne w _ h.stU)

/-- After a completed swap the device is idle. -/
theorem DoneI.idle {f : Flash} (hb : b = imgLen c B) (h : DoneI c A a B b f) : Idle c B f := by
  have hss := w.ss_pos
  have hn := w.n512
  have hff := w.flags_fit
  have htb := trailer_bounds w (k := 1) (by omega)
  have htb0 := trailer_bounds w (k := 0) (by omega)
  refine ⟨by rw [← hb]; exact h.boot, h.ntB, h.ntU, ?_, ?_, ?_⟩
  · intro j hj
    have : flagPos j ≤ c.n / 2 := by rw [flagPos_lt (by omega)]; omega
    have := trailer_bounds w (k := 2 + flagPos j) (by omega)
    unfold rawFlag
    rw [h.blank _ (by omega) (by omega)]
    unfold nibbleOf
    split <;> decide
  · intro i hi
    rw [h.blank _ (by omega) (by omega)]
    exact BitVec.zero_or
  · rw [h.blank _ (by omega) (by omega)]; decide

/-- An idle device with an image in UPDATE that is to be installed is at the beginning of a swap. -/
theorem Idle.inSwap {X : Mem} {f : Flash} (h : Idle c X f) (hX : ImgOK c X)
    (hgo : (V.1 ∧ Testing c f) ∨
      (hasMagic c f .update ∧ f .update (trailerAt c 1) = ST_UPDATING ∧ V.2) ∨ ¬ (V.1 ∨ V.2)) :
    InSwap c V X (imgLen c X) (f .update) (imgLen c (f .update)) f := by
  have hn2 := w.n2
  have hss := w.ss_pos
  have hsec : ∀ j, CurData c X (imgLen c X) (f .update) (imgLen c (f .update)) f j .new := by
    intro j
    refine ⟨?_, ?_⟩
    · intro o ho hx
      unfold secOff
      simp only [reduceCtorEq, ↓reduceIte]
      exact h.boot _ (by omega) hx
    · intro o ho hx
      unfold secOff
      simp only [reduceCtorEq, ↓reduceIte]
  refine ⟨0, .new, ⟨?_, ?_, h.magicP, stU_fin w _ h.stU, stU_ne w _ h.stU, hgo, h.ntB, h.ntU⟩, ?_, ?_,
    by simp, by omega, by simp⟩
  · intro j hj; omega
  · intro j _ hj; exact ⟨hsec j, h.flags j hj⟩
  · intro hj; exact ⟨hsec 0, h.flags 0 hj⟩
  · rintro (h | h)
    · omega
    · exact absurd rfl h

/-- The decision made by `wolfBoot_start` for an idle device: install the image in UPDATE? -/
def Wants (c : Cfg) (e : Env) (f : Flash) : Prop :=
  acceptable c e (f .update) ∧ (Testing c f ∨
    (hasMagic c f .update ∧ f .update (trailerAt c 1) = ST_UPDATING ∧
      e.ver (f .boot) < e.ver (f .update)))

omit w in
theorem getState_testing {f : Flash} : getState c f .boot = some ST_TESTING ↔ Testing c f := by
  unfold getState Testing
  split <;> simp_all

omit w in
theorem getState_updating {f : Flash} : getState c f .update = some ST_UPDATING ↔
    hasMagic c f .update ∧ f .update (trailerAt c 1) = ST_UPDATING := by
  unfold getState
  split <;> simp_all

/-- An idle device with nothing to install boots without touching the flash. -/
theorem start_idle {T : Mem → Prop} {l : Bool} {X : Mem} {f0 : Flash} {C : Flash → Prop}
    (hflag : (getFlag c f0 0).getD FL_NEW = FL_NEW)
    (hB : le32 (f0 .boot) c.tmp ≠ MAGIC_TRAIL)
    (hst : (getState c f0 .update).getD e.junk ≠ ST_FINAL)
    (hbt : bootable c e (f0 .boot)) (hno : ¬ Wants c e f0) (hC : C f0) :
    Triple T l (fun f => f = f0) (start c e) l (fun _ f => f = f0) C := by
  unfold start
  refine Triple.bind (l' := l) (Q := fun _ f => f = f0) ?_ (fun _ => ?_)
  · unfold startUpdate
    refine Triple.readFlash (fun f hf => ?_)
    subst hf
    refine Triple.bind (l' := l) (swapFinal_none hB hst) (fun r => ?_)
    refine Triple.ofEq (fun g ⟨hr, hg⟩ => ?_)
    subst hr; subst hg
    rw [if_neg (by simp)]
    have fin : ∀ (m : M Bool), Triple T l (fun f => f = g) m l
        (fun r f => r = false ∧ f = g) C →
        Triple T l (fun f => f = g) (m >>= fun _ => pure ()) l (fun _ f => f = g) C := by
      intro m hm
      refine Triple.bind hm (fun r => ?_)
      exact (Triple.pure (Q := fun _ f => f = g) ()).pre (fun f h => h.2)
    refine Triple.ite (fun hT => ?_) (fun hT => ?_)
    · refine fin _ (wbUpdate_refuse hflag ?_)
      left
      intro h
      exact hno ⟨h, Or.inl (getState_testing.mp hT)⟩
    · refine Triple.ite (fun hU => ?_) (fun hU => ?_)
      · refine fin _ (wbUpdate_refuse hflag ?_)
        by_cases h : acceptable c e (g .update)
        · right
          refine ⟨rfl, ?_⟩
          obtain ⟨h1, h2⟩ := getState_updating.mp hU
          exact Nat.le_of_not_lt (fun hlt => hno ⟨h, Or.inr ⟨h1, h2, hlt⟩⟩)
        · exact Or.inl h
      · exact Triple.pure (Q := fun _ f => f = g) ()
  · exact boot_tick w (fun f h => by rw [h]; exact hbt) (fun f h => by rw [h]; exact hC)

end

end Verif.Inv
