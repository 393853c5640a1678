import Verif.EncCopy
import Verif.StartLemmas

/-!
# Helper lemmas: the swap of builds with encrypted external flash, in the decrypted view
-/

set_option linter.unusedSectionVars false
set_option linter.unusedVariables false

namespace Verif.EncUp

/-- The swap of `A` and `B` is in sector `k`, stage `s`. -/
structure SwE (P : Par) (K : Mem) (V : Prop × Prop) (A : Mem) (a : Nat) (B : Mem) (b : Nat) (f : Flash) (k : Nat)
    (s : Stage) : Prop where
  view : SwapI P.c V A a B b (pl P (stream P K) k f) k s
  safe : Safe P K f

/-- Some stage of the swap. -/
def InE (P : Par) (K : Mem) (V : Prop × Prop) (A : Mem) (a : Nat) (B : Mem) (b : Nat) (f : Flash) : Prop :=
  ∃ k s, SwE P K V A a B b f k s

section
variable {P : Par} (w : P.WF) {K : Mem} {V : Prop × Prop} {A B : Mem} {a b : Nat}
include w

theorem lt_tmp_sec {k T : Nat} (hT : T ≤ P.c.tmp) (h : k * P.c.ss < T) : k < P.c.n - 2 := by
  unfold Cfg.tmp at hT
  exact Nat.lt_of_mul_lt_mul_right (a := P.c.ss) (by omega)

/-- In stage NEW it does not matter which sector the view takes SWAP for. -/
theorem view_new {f : Flash} {i j k : Nat} (hk : k ≤ P.c.n - 1)
    (h : SwapI P.c V A a B b (pl P (stream P K) i f) k .new) :
    SwapI P.c V A a B b (pl P (stream P K) j f) k .new :=
  h.swapOnly w.c hk rfl rfl

theorem mark_spec {k : Nat} (hk : k < P.c.n - 1) (hlt : k * P.c.ss < max a b) (s : Stage)
    (hs : s ≠ .done) (f0 : Flash) (hS : Safe P K f0) (hc : Core P.c V A a B b (pl P (stream P K) k f0) k)
    (hd : CurData P.c A a B b (pl P (stream P K) k f0) k s)
    (hd' : CurData P.c A a B b (pl P (stream P K) k f0) k s.next)
    (hf : FlagOK (rawFlag P.c (pl P (stream P K) k f0) k) s)
    (hm : 0 < k ∨ s ≠ .new → hasMagic P.c (pl P (stream P K) k f0) .update) :
    Triple (TE P) false (fun f => f = f0) (markSector P.c k s.next.flag) false
      (fun _ f => Safe P K f ∧ Core P.c V A a B b (pl P (stream P K) k f) k ∧
        CurData P.c A a B b (pl P (stream P K) k f) k s.next ∧
        FlagOK (rawFlag P.c (pl P (stream P K) k f) k) s.next ∧ hasMagic P.c (pl P (stream P K) k f) .update)
      (InE P K V A a B b) := by
  have hn2 := w.c.n2
  have hl := Cfg.WF.sec_le_last hk
  have hpe := w.c.part_eq
  have hle := w.c.last_eq
  have h4 := w.c.fb4
  have hfb := w.c.fb_le
  have hss := w.c.ss_pos
  obtain ⟨r0, m0, p0, s0⟩ := pl_trailer w (st := stream P K) k f0
  have hraw : rawFlag P.c f0 k = s.flag := by
    rw [← r0 k (by omega)]
    cases s with
    | done => exact absurd rfl hs
    | _ => exact hf
  have hsafe : ∀ f, Same .update P.c.last P.c.part f0 f → Safe P K f := fun f h => hS.same w h (Or.inl (by simp))
  have hcore : ∀ f, Same .update P.c.last P.c.part f0 f → (hasMagic P.c f0 .update → hasMagic P.c f .update) →
      MagicP P.c f .update → f .update (trailerAt P.c 1) = f0 .update (trailerAt P.c 1) →
      (∀ j, j < P.c.n → j ≠ k → rawFlag P.c f j = rawFlag P.c f0 j) →
      Core P.c V A a B b (pl P (stream P K) k f) k := by
    intro f h1 h2 h3 h4 h5
    obtain ⟨r1, m1, _, s1⟩ := pl_trailer w (st := stream P K) k f
    have h1' := pl_same (P := P) (st := stream P K) (j := k) h1
    refine hc.frame w.c (by omega) (fun x _ => by rw [h1'.other (by simp)])
      (fun x _ hx => h1'.out (by omega)) (fun j hj hjk => by rw [r1 j hj, r0 j hj, h5 j hj hjk])
      ((trailer_frame w.c (f := f) (fun x hx => pl_upd_ge w hx)).2.2.1 h3)
      (fun h => m1.mpr (h2 (m0.mp h))) (by rw [s1, s0, h4]) (pl_ntB w _ _) (pl_ntU w _ _)
  unfold markSector
  rw [if_pos (by rw [Nat.succ_mul]; omega)]
  refine (setFlag_spec w.c f0 k (by omega) s.next.flag (by cases s <;> decide) (p0 hc.magicP)
    (by rw [hraw]; cases s <;> first | exact absurd rfl hs | decide)).conseq (fun _ h => h) ?_ ?_
  · rintro _ f ⟨h1, h2, h3, h4, h5⟩
    obtain ⟨r1, m1, _, s1⟩ := pl_trailer w (st := stream P K) k f
    refine ⟨hsafe f h1, hcore f h1 (fun _ => h2) h2.magicP h3 h5, hd'.trailerOnly w.c hk (pl_same h1), ?_, m1.mpr h2⟩
    rw [r1 k (by omega), h4]
    cases s with
    | done => exact absurd rfl hs
    | backup => exact ⟨by decide, by decide, by decide⟩
    | _ => rfl
  · rintro f ⟨h1, h2, h3, h4, h5⟩
    obtain ⟨r1, m1, _, s1⟩ := pl_trailer w (st := stream P K) k f
    have hmp : MagicP P.c f .update := by
      rcases h5 with ⟨h5, _⟩ | ⟨h5, _⟩
      · exact h5
      · exact h5.magicP
    have hc' := hcore f h1 h2 hmp h3 h4
    have hold : (rawFlag P.c f k = rawFlag P.c f0 k) → InE P K V A a B b f := by
      intro he
      refine ⟨k, s, ⟨hc', fun _ => ⟨hd.trailerOnly w.c hk (pl_same h1), by rw [r1 k (by omega), he, ← r0 k (by omega)]; exact hf⟩,
        fun h => m1.mpr (h2 (m0.mp (hm h))), hs, by omega, fun _ => hlt⟩, hsafe f h1⟩
    rcases h5 with ⟨_, h5⟩ | ⟨h5, t, h6⟩
    · exact hold h5
    · rw [hraw] at h6 hold
      have hnew : s.next ≠ .done → rawFlag P.c f k = s.next.flag → InE P K V A a B b f := by
        intro hnd he
        refine ⟨k, s.next, ⟨hc', fun _ => ⟨hd'.trailerOnly w.c hk (pl_same h1), ?_⟩, fun _ => m1.mpr h5, hnd, by omega,
          fun _ => hlt⟩, hsafe f h1⟩
        rw [r1 k (by omega), he]
        cases s with
        | new => rfl
        | swapping => rfl
        | backup => exact absurd rfl hnd
        | done => exact absurd rfl hs
      cases s with
      | new =>
        rcases torn_flag_new w.c t with h | h
        · exact hold (h6.trans h)
        · exact hnew (by simp [Stage.next]) (h6.trans h)
      | swapping =>
        rcases torn_flag_swapping w.c t with h | h
        · exact hold (h6.trans h)
        · exact hnew (by simp [Stage.next]) (h6.trans h)
      | backup =>
        rcases torn_flag_backup w.c t with h | h
        · exact hold (h6.trans h)
        · refine ⟨k + 1, .new, view_new w (i := k) (by omega) (swapI_advance w.c hk hc'
            (hd'.trailerOnly w.c hk (pl_same h1)) ?_ (m1.mpr h5) hlt), hsafe f h1⟩
          rw [r1 k (by omega), h6]; exact h
      | done => exact absurd rfl hs

theorem backup_spec {k : Nat} (hk2 : k < P.c.n - 2) :
    Triple (TE P) false (fun f => SwE P K V A a B b f k .backup) (doBackup P (some K) k) false
      (fun _ f => SwE P K V A a B b f (k + 1) .new) (InE P K V A a B b) := by
  have hn2 := w.c.n2
  have h4 := w.c.fb4
  have hfb := w.c.fb_le
  have hss := w.c.ss_pos
  have hk : k < P.c.n - 1 := by omega
  have hl := Cfg.WF.sec_le_last hk
  refine Triple.ofEq (fun F0 ⟨hI, hS⟩ => ?_)
  generalize hf0 : pl P (stream P K) k F0 = f0 at hI
  have hlt := hI.slt (by simp)
  obtain ⟨⟨hda, hdb, hnt⟩, hfl⟩ := hI.cur hk
  have hm := hI.magic (Or.inr (by simp))
  have hframe : ∀ F, Same .boot (secOff P.c .boot k) (secOff P.c .boot k + P.c.ss) f0 (pl P (stream P K) k F) →
      Core P.c V A a B b (pl P (stream P K) k F) k := by
    intro F hs
    generalize hf : pl P (stream P K) k F = f at hs
    have hu : f .update = f0 .update := hs.other (by simp)
    obtain ⟨h1, h2, h3, h5⟩ := trailer_frame w.c (f := f0) (f' := f) (fun x _ => by rw [hu])
    refine hI.core.frame w.c (by omega) (fun x hx => hs.out ?_) (fun x _ _ => by rw [hu])
      (fun j hj _ => h1 j hj) (h3 hI.core.magicP) h2.mpr h5 (by rw [← hf]; exact pl_ntB w _ _)
      (by rw [hu]; exact hI.core.ntU)
    unfold secOff
    simp only [reduceCtorEq, ↓reduceIte]
    omega
  have hcurb : ∀ f, Same .boot (secOff P.c .boot k) (secOff P.c .boot k + P.c.ss) f0 f →
      CurData P.c A a B b f k .backup ∧ FlagOK (rawFlag P.c f k) .backup ∧ hasMagic P.c f .update := by
    intro f hs
    have hu : f .update = f0 .update := hs.other (by simp)
    have hw : f .swap = f0 .swap := hs.other (by simp)
    obtain ⟨h1, h2, h3, h5⟩ := trailer_frame w.c (f := f0) (f' := f) (fun x _ => by rw [hu])
    refine ⟨⟨?_, ?_, by rw [hw]; exact hnt⟩, by rw [h1 k (by omega)]; exact hfl, h2.mpr hm⟩
    · intro o ho hx; rw [hu]; exact hda o ho hx
    · intro o ho hx; rw [hw]; exact hdb o ho hx
  unfold doBackup
  refine Triple.bind ((copy_view w (fw := P.c.ss) hk2 rfl (Or.inr (Or.inr ⟨rfl, rfl⟩)) F0 hS).conseq (fun _ h => h)
    (fun _ _ h => h) ?_) (fun _ => ?_)
  · rintro F ⟨hS', hs⟩
    rw [hf0] at hs
    obtain ⟨h1, h2, h3⟩ := hcurb _ hs
    exact ⟨k, .backup, ⟨hframe F hs, fun _ => ⟨h1, h2⟩, fun _ => h3, by simp, by omega, fun _ => hlt⟩, hS'⟩
  · refine Triple.ofEq (fun F ⟨hS', hs, hcp⟩ => ?_)
    rw [hf0] at hs hcp
    obtain ⟨h1, h2, h3⟩ := hcurb _ hs
    have hc := hframe F hs
    have hdone : CurData P.c A a B b (pl P (stream P K) k F) k .done := by
      refine ⟨?_, h1.1⟩
      intro o ho hx
      rw [hcp o ho (by unfold secOff; simp only [↓reduceIte]; omega)]
      exact hdb o ho hx
    refine (mark_spec w hk hlt .backup (by simp) F hS' hc h1 hdone h2 (fun _ => h3)).conseq
      (fun _ h => h) ?_ (fun _ h => h)
    rintro _ g ⟨g0, g1, g2, g3, g4⟩
    exact ⟨view_new w (i := k) (by omega) (swapI_advance w.c hk g1 g2 g3 g4 hlt), g0⟩

theorem swapping_spec {k : Nat} (hk2 : k < P.c.n - 2) {bootFw : Nat} (hfw : bootFw + P.c.h = a) :
    Triple (TE P) false (fun f => SwE P K V A a B b f k .swapping) (doSwapping P (some K) bootFw k) false
      (fun _ f => SwE P K V A a B b f (k + 1) .new) (InE P K V A a B b) := by
  have hn2 := w.c.n2
  have h4 := w.c.fb4
  have hfb := w.c.fb_le
  have hss := w.c.ss_pos
  have hk : k < P.c.n - 1 := by omega
  have hl := Cfg.WF.sec_le_last hk
  refine Triple.ofEq (fun F0 ⟨hI, hS⟩ => ?_)
  generalize hf0 : pl P (stream P K) k F0 = f0 at hI
  have hlt := hI.slt (by simp)
  obtain ⟨⟨hda, hdb, hnt⟩, hfl⟩ := hI.cur hk
  have hm := hI.magic (Or.inr (by simp))
  have hframe : ∀ F, Same .update (secOff P.c .update k) (secOff P.c .update k + P.c.ss) f0 (pl P (stream P K) k F) →
      Core P.c V A a B b (pl P (stream P K) k F) k ∧
        CurData P.c A a B b (pl P (stream P K) k F) k .swapping ∧
        FlagOK (rawFlag P.c (pl P (stream P K) k F) k) .swapping ∧
        hasMagic P.c (pl P (stream P K) k F) .update := by
    intro F hs
    generalize hf : pl P (stream P K) k F = f at hs
    have hu : f .boot = f0 .boot := hs.other (by simp)
    have hw : f .swap = f0 .swap := hs.other (by simp)
    unfold secOff at hs
    simp only [reduceCtorEq, ↓reduceIte] at hs
    obtain ⟨h1, h2, h3, h5⟩ := trailer_frame w.c (f := f0) (f' := f) (fun x hx => hs.out (by omega))
    refine ⟨hI.core.frame w.c (by omega) (fun x hx => by rw [hu]) (fun x hx _ => hs.out hx)
      (fun j hj _ => h1 j hj) (h3 hI.core.magicP) h2.mpr h5 (by rw [hu]; exact hI.core.ntB)
      (by rw [← hf]; exact pl_ntU w _ _),
      ⟨?_, ?_, by rw [hw]; exact hnt⟩, by rw [h1 k (by omega)]; exact hfl, h2.mpr hm⟩
    · intro o ho hx; rw [hu]; exact hda o ho hx
    · intro o ho hx; rw [hw]; exact hdb o ho hx
  unfold doSwapping
  refine Triple.bind ((copy_view w (fw := bootFw) hk2 rfl (Or.inr (Or.inl ⟨rfl, rfl⟩)) F0 hS).conseq (fun _ h => h)
    (fun _ _ h => h) ?_) (fun _ => ?_)
  · rintro F ⟨hS', hs⟩
    rw [hf0] at hs
    obtain ⟨h1, h2, h3, h5⟩ := hframe F hs
    exact ⟨k, .swapping, ⟨h1, fun _ => ⟨h2, h3⟩, fun _ => h5, by simp, by omega, fun _ => hlt⟩, hS'⟩
  · refine Triple.ofEq (fun F ⟨hS', hs, hcp⟩ => ?_)
    rw [hf0] at hs hcp
    obtain ⟨h1, h2, h3, h5⟩ := hframe F hs
    have hback : CurData P.c A a B b (pl P (stream P K) k F) k .backup := by
      refine ⟨?_, h2.2.1, h2.2.2⟩
      intro o ho hx
      rw [hcp o ho (by unfold secOff; simp only [reduceCtorEq, ↓reduceIte]; omega)]
      exact hda o ho hx
    refine Triple.bind (Q := fun _ f => SwE P K V A a B b f k .backup)
      ((mark_spec w hk hlt .swapping (by simp) F hS' h1 h2 hback h3 (fun _ => h5)).conseq
        (fun _ h => h) ?_ (fun _ h => h)) (fun _ => backup_spec w hk2)
    rintro _ g ⟨g0, g1, g2, g3, g4⟩
    exact ⟨⟨g1, fun _ => ⟨g2, g3⟩, fun _ => g4, by simp, by omega, fun _ => hlt⟩, g0⟩

theorem new_spec {k : Nat} (hk2 : k < P.c.n - 2) (hlt : k * P.c.ss < max a b) {bootFw updFw : Nat}
    (hfw : bootFw + P.c.h = a) (hfu : updFw + P.c.h = b) :
    Triple (TE P) false (fun f => SwE P K V A a B b f k .new) (doNew P (some K) bootFw updFw k) false
      (fun _ f => SwE P K V A a B b f (k + 1) .new) (InE P K V A a B b) := by
  have hn2 := w.c.n2
  have h4 := w.c.fb4
  have hfb := w.c.fb_le
  have hss := w.c.ss_pos
  have hk : k < P.c.n - 1 := by omega
  have hl := Cfg.WF.sec_le_last hk
  refine Triple.ofEq (fun F0 ⟨hI, hS⟩ => ?_)
  generalize hf0 : pl P (stream P K) k F0 = f0 at hI
  obtain ⟨⟨hda, hdb⟩, hfl⟩ := hI.cur hk
  have hframe : ∀ f, Same .swap (secOff P.c .swap k) (secOff P.c .swap k + P.c.ss) f0 f →
      SwapI P.c V A a B b f k .new := by
    intro f hs
    have hb : f .boot = f0 .boot := hs.other (by simp)
    have hu : f .update = f0 .update := hs.other (by simp)
    obtain ⟨h1, h2, h3, h5⟩ := trailer_frame w.c (f := f0) (f' := f) (fun x hx => by rw [hu])
    exact ⟨hI.core.swapOnly w.c (by omega) hb hu, fun _ => ⟨CurData.swapOnly w.c ⟨hda, hdb⟩
      (Or.inl rfl) hb hu, by rw [h1 k (by omega)]; exact hfl⟩, fun h => h2.mpr (hI.magic h), by simp,
      hI.kle, by simp⟩
  unfold doNew
  refine Triple.bind ((copy_view w (fw := updFw) hk2 rfl (Or.inl ⟨rfl, rfl⟩) F0 hS).conseq (fun _ h => h)
    (fun _ _ h => h) ?_) (fun _ => ?_)
  · rintro F ⟨hS', hs⟩
    rw [hf0] at hs
    exact ⟨k, .new, hframe _ hs, hS'⟩
  · refine Triple.ofEq (fun F ⟨hS', hs, hcp⟩ => ?_)
    rw [hf0] at hs hcp
    have hI' := hframe _ hs
    have hcur := hI'.cur hk
    have hswp : CurData P.c A a B b (pl P (stream P K) k F) k .swapping := by
      refine ⟨hcur.1.1, ?_, ?_⟩
      · intro o ho hx
        rw [hcp o ho (by unfold secOff; simp only [reduceCtorEq, ↓reduceIte]; omega)]
        exact hdb o ho hx
      · intro h; omega
    refine Triple.bind (Q := fun _ f => SwE P K V A a B b f k .swapping)
      ((mark_spec w hk hlt .new (by simp) F hS' hI'.core hcur.1 hswp hcur.2 hI'.magic).conseq
        (fun _ h => h) ?_ (fun _ h => h)) (fun _ => swapping_spec w hk2 hfw)
    rintro _ g ⟨g0, g1, g2, g3, g4⟩
    exact ⟨⟨g1, fun _ => ⟨g2, g3⟩, fun _ => g4, by simp, by omega, fun _ => hlt⟩, g0⟩

/-! ## The loops -/

theorem swapSector_done {j k : Nat} {s : Stage} (hj : j < k) (hjn : j < P.c.n - 1)
    (bootFw updFw : Nat) :
    Triple (TE P) false (fun f => SwE P K V A a B b f k s) (swapSector P (some K) bootFw updFw j) false
      (fun _ f => SwE P K V A a B b f k s) (InE P K V A a B b) := by
  unfold swapSector
  refine Triple.readFlash (fun f hf => ?_)
  obtain ⟨h1, h2, h3⟩ := flag_done w.c hj hjn hf.view
  rw [pl_getFlag w (by omega)] at h1 h2 h3
  dsimp only
  rw [if_neg h1, if_neg h2, if_neg h3]
  refine (Triple.pure (Q := fun _ g => g = f) ()).conseq (fun _ h => h) ?_ (fun _ h => h)
  rintro _ g rfl
  exact hf

theorem swapSector_cur {k : Nat} {s : Stage} (hk2 : k < P.c.n - 2) (hlt : k * P.c.ss < max a b)
    {bootFw updFw : Nat} :
    Triple (TE P) false (fun f => SwE P K V A a B b f k s ∧ (s ≠ .backup → bootFw + P.c.h = a) ∧
        (s = .new → updFw + P.c.h = b)) (swapSector P (some K) bootFw updFw k) false
      (fun _ f => SwE P K V A a B b f (k + 1) .new) (InE P K V A a B b) := by
  unfold swapSector
  refine Triple.readFlash (fun f hf => ?_)
  obtain ⟨hf, hfb, hfu⟩ := hf
  have hfl := flag_of_swapI w.c (by omega) hf.view
  rw [pl_getFlag w (by omega)] at hfl
  dsimp only
  rw [hfl]
  cases s with
  | done => exact absurd rfl hf.view.ndone
  | new =>
    rw [if_pos (by rfl)]
    exact (new_spec w hk2 hlt (hfb (by simp)) (hfu rfl)).pre (fun g hg => by rw [hg]; exact hf)
  | swapping =>
    rw [if_neg (by decide), if_pos (by rfl)]
    exact (swapping_spec w hk2 (hfb (by simp))).pre (fun g hg => by rw [hg]; exact hf)
  | backup =>
    rw [if_neg (by decide), if_neg (by decide), if_pos (by rfl)]
    exact (backup_spec w hk2).pre (fun g hg => by rw [hg]; exact hf)

theorem swapLoop_spec (ha : a ≤ P.c.tmp) (hb : b ≤ P.c.tmp) (hT : 0 < max a b) {bootFw updFw : Nat}
    (hfa : bootFw + P.c.h = a) (hfb : updFw + P.c.h = b) :
    ∀ fuel j k s, 1 ≤ j → j ≤ k → P.c.n < fuel + j →
    Triple (TE P) false (fun f => SwE P K V A a B b f k s)
      (swapLoop P (some K) fuel bootFw updFw (max a b) j) false
      (fun r f => EndSec P.c (max a b) r ∧ SwE P K V A a B b f r .new) (InE P K V A a B b) := by
  have hss := w.c.ss_pos
  have hn2 := w.c.n2
  have hle := w.c.last_eq
  intro fuel
  induction fuel with
  | zero =>
    intro j k s h1 hjk h
    refine Triple.false_pre (fun f hI => ?_)
    have := hI.view.kle
    have hk1 := sec_lt (ss := P.c.ss) (j := P.c.n) (k := k) (by omega)
    have := w.c.part_eq
    have hpp : P.c.part = P.c.n * P.c.ss := rfl
    omega
  | succ fuel ih =>
    intro j k s hj hjk hfuel
    unfold swapLoop
    refine Triple.ite (fun hlt => ?_) (fun hge => ?_)
    · have hjn := lt_tmp_sec w (T := max a b) (by omega) hlt
      by_cases hjk' : j < k
      · refine Triple.bind (swapSector_done w hjk' (by omega) bootFw updFw) (fun _ => ?_)
        dsimp only
        rw [if_neg (by omega)]
        exact ih (j + 1) k s (by omega) (by omega) (by omega)
      · have : j = k := by omega
        subst this
        refine Triple.bind ((swapSector_cur w hjn hlt).pre
          (fun f hf => ⟨hf, fun _ => hfa, fun _ => hfb⟩)) (fun _ => ?_)
        dsimp only
        rw [if_neg (by omega)]
        exact ih (j + 1) (j + 1) .new (by omega) (by omega) (by omega)
    · refine (Triple.pure (Q := fun r f => r = j ∧ SwE P K V A a B b f k s) j).conseq
        (fun f h => ⟨rfl, h⟩) ?_ (fun f h => ⟨k, s, h⟩)
      rintro r f ⟨rfl, hI⟩
      have hkle := hI.view.kle
      have : r = k := by
        rcases Nat.lt_or_ge r k with h | h
        · have := sec_lt (ss := P.c.ss) h
          omega
        · omega
      subst this
      refine ⟨⟨by omega, hkle⟩, ?_⟩
      have hs : s = .new := by
        by_cases h : s = .new
        · exact h
        · exact absurd (hI.view.slt h) hge
      rw [← hs]; exact hI

theorem eraseRest_spec (ha : a ≤ P.c.tmp) (hb : b ≤ P.c.tmp) {K' : Nat} (hK : EndSec P.c (max a b) K')
    (hK1 : 1 ≤ K') : ∀ fuel j, K' ≤ j → j ≤ P.c.n - 1 → P.c.n < fuel + j →
    Triple (TE P) false (fun f => SwE P K V A a B b f K' .new) (eraseRest P.c fuel j) false
      (fun _ f => SwE P K V A a B b f K' .new) (InE P K V A a B b) := by
  have hss := w.c.ss_pos
  have hn2 := w.c.n2
  have hpe := w.c.part_eq
  have hle := w.c.last_eq
  have hroom := w.room
  -- changing a data sector after the images
  have hfr : ∀ p j (F F' : Flash), p ≠ .swap → K' ≤ j → j < P.c.n - 1 →
      Same p (j * P.c.ss) (j * P.c.ss + P.c.ss) F F' → Safe P K F' →
      SwE P K V A a B b F K' .new → SwE P K V A a B b F' K' .new := by
    intro p j F F' hp hj hjn hs hS' ⟨hI, _⟩
    refine ⟨?_, hS'⟩
    have hs := pl_same (P := P) (st := stream P K) (j := K') hs
    have hBt := pl_ntB w (st := stream P K) K' F'
    have hUt := pl_ntU w (st := stream P K) K' F'
    generalize pl P (stream P K) K' F = f at hs hI
    generalize pl P (stream P K) K' F' = f' at hs hBt hUt
    have hl := Cfg.WF.sec_le_last hjn
    have hjK : K' * P.c.ss ≤ j * P.c.ss := Nat.mul_le_mul_right _ hj
    have hTj : max a b ≤ j * P.c.ss := Nat.le_trans hK.1 hjK
    obtain ⟨t1, t2, t3, t4⟩ := trailer_frame w.c (f := f) (f' := f') (fun x hx => by
      by_cases h : p = .update
      · subst h; exact hs.out (by omega)
      · rw [hs.other (fun e => h e.symm)])
    have hbt : ∀ x, P.c.last ≤ x → f' .boot x = f .boot x := by
      intro x hx
      by_cases h : p = .boot
      · subst h; exact hs.out (by omega)
      · rw [hs.other (fun e => h e.symm)]
    have hat : ∀ q X x i, q ≠ .swap → x ≤ max a b → SecAt P.c f q X x i → SecAt P.c f' q X x i := by
      intro q X x i hq hx h o ho hox
      have h1 := h o ho hox
      unfold secOff at h1 ⊢
      rw [if_neg hq] at h1 ⊢
      rw [← h1]
      by_cases h : p = q
      · subst h; exact hs.out (by omega)
      · rw [hs.other (fun e => h e.symm)]
    have hcore := hI.core
    have hla : a ≤ max a b := by omega
    have hlb : b ≤ max a b := by omega
    refine ⟨⟨?_, ?_, t3 hcore.magicP, by rw [t4]; exact hcore.stP, by rw [t4]; exact hcore.stNF, ?_,
      hBt, hUt⟩, ?_, fun h => t2.mpr (hI.magic h), by simp, hI.kle, by simp⟩
    · intro i hi hin
      obtain ⟨⟨h1, h2⟩, h3⟩ := hcore.done i hi hin
      exact ⟨⟨hat _ _ _ _ (by simp) hlb h1, hat _ _ _ _ (by simp) hla h2⟩,
        by rw [t1 i (by omega)]; exact h3⟩
    · intro i hi hin
      obtain ⟨⟨h1, h2⟩, h3⟩ := hcore.fresh i hi hin
      exact ⟨⟨hat _ _ _ _ (by simp) hla h1, hat _ _ _ _ (by simp) hlb h2⟩,
        by rw [t1 i (by omega)]; exact h3⟩
    · rcases hcore.go with h1 | ⟨h1, h2, h3⟩ | h1
      · exact Or.inl ⟨h1.1, testing_frame w.c hbt h1.2⟩
      · exact Or.inr (Or.inl ⟨t2.mpr h1, by rw [t4]; exact h2, h3⟩)
      · exact Or.inr (Or.inr h1)
    · intro hkn
      obtain ⟨⟨h1, h2⟩, h3⟩ := hI.cur hkn
      exact ⟨⟨hat _ _ _ _ (by simp) hla h1, hat _ _ _ _ (by simp) hlb h2⟩,
        by rw [t1 K' (by omega)]; exact h3⟩
  -- the secret and the word
  have hsf : ∀ p j (F F' : Flash), j < P.c.n - 1 → Same p (j * P.c.ss) (j * P.c.ss + P.c.ss) F F' →
      (p = .boot → j = P.c.n - 2 → le32 (F' .boot) (P.c.tmp + P.S) ≠ MAGIC_TRAIL) → Safe P K F → Safe P K F' := by
    intro p j F F' hjn hs hw hS
    by_cases hp : p = .boot
    · subst hp
      by_cases hj2 : j = P.c.n - 2
      · have ht := tmp_sec w.c hj2
        refine ⟨?_, hw rfl hj2⟩
        rw [← hS.key]
        funext i
        unfold secret secretAt
        rw [hs.out (by omega)]
      · have := Cfg.WF.sec_le_tmp (c := P.c) (k := j) (by omega)
        exact hS.same w hs (Or.inr (Or.inl this))
    · exact hS.same w hs (Or.inl hp)
  have herase : ∀ p j, p ≠ .swap → K' ≤ j → j < P.c.n - 1 →
      Triple (TE P) false (fun f => SwE P K V A a B b f K' .new) (erase P.c p (j * P.c.ss) P.c.ss) false
      (fun _ f => SwE P K V A a B b f K' .new) (InE P K V A a B b) := by
    intro p j hp hj hjn
    have hl := Cfg.WF.sec_le_last hjn
    refine Triple.erase (fun f hI => ?_) (fun t f hT hI => ⟨K', .new, ?_⟩)
    · refine hfr p j f _ hp hj hjn (same_erase _ _ _ _) (hsf p j f _ hjn (same_erase _ _ _ _) ?_ hI.safe) hI
      rintro rfl hj2
      have ht := tmp_sec w.c hj2
      have : le32 (f.erase .boot (j * P.c.ss) P.c.ss .boot) (P.c.tmp + P.S) = 4294967295 := by
        unfold le32 Flash.erase
        simp only [true_and]
        rw [if_pos (by omega), if_pos (by omega), if_pos (by omega), if_pos (by omega)]
        rfl
      rw [this]; decide
    · refine hfr p j f _ hp hj hjn (same_tornErase _ _ _ _ _ _)
        (hsf p j f _ hjn (same_tornErase _ _ _ _ _ _) ?_ hI.safe) hI
      rintro rfl hj2
      have ht := tmp_sec w.c hj2
      have : le32 (f.tornErase P.c t .boot (j * P.c.ss) P.c.ss .boot) (P.c.tmp + P.S) = le32 t (P.c.tmp + P.S) := by
        refine le32_congr (fun o h1 h2 => ?_)
        unfold Flash.tornErase
        rw [if_neg (by rintro ⟨h, _⟩; simp at h)]
        simp only
        rw [if_pos ⟨trivial, by omega, by omega⟩]
      rw [this]; exact hT
  intro fuel
  induction fuel with
  | zero => intro j _ _ _; omega
  | succ fuel ih =>
    intro j hKj hjn hfuel
    unfold eraseRest
    refine Triple.ite (fun hlt => ?_) (fun hge => ?_)
    · have hjn' : j < P.c.n - 1 := lt_last_sec w.c (T := P.c.last) (Nat.le_refl _) (by omega)
      refine Triple.bind (herase .boot j (by simp) hKj hjn') (fun _ => ?_)
      refine Triple.bind (herase .update j (by simp) hKj hjn') (fun _ => ?_)
      exact ih (j + 1) (by omega) (by omega) (by omega)
    · exact (Triple.pure (Q := fun _ f => SwE P K V A a B b f K' .new) ()).conseq
        (fun f h => h) (fun _ f h => h) (fun f h => ⟨K', .new, h⟩)

end

end Verif.EncUp
