import Verif.CopyLemmas

/-!
# Helper lemmas: invariant of the three-way swap
-/

set_option linter.unusedSectionVars false
set_option linter.unusedVariables false

namespace Verif

/-- Bytes of the image `X` including its header. -/
def imgLen (c : Cfg) (X : Mem) : Nat := le32 X 4 + c.h

/-- Image with a sane header, fitting in front of the trailer sector. -/
structure ImgOK (c : Cfg) (X : Mem) : Prop where
  magic : le32 X 0 = MAGIC
  pos : 0 < le32 X 4
  fits : imgLen c X ≤ c.last

theorem ImgOK.openOK {c : Cfg} {X : Mem} (w : c.WF) (h : ImgOK c X) : openOK c X := by
  refine ⟨h.magic, ?_⟩
  have := h.fits
  unfold imgLen at this
  have := w.part_eq
  omega

theorem fwSize_of_open {c : Cfg} {X : Mem} (h : openOK c X) : fwSize c X = le32 X 4 := by
  unfold fwSize
  rw [if_neg (by simp [h.1]), if_neg (by have := h.2; omega)]

theorem fwSize_le (c : Cfg) (X : Mem) : fwSize c X ≤ c.part - c.h := by
  unfold fwSize; split
  · omega
  · split <;> omega

theorem fwSize_congr {c : Cfg} {m x : Mem} (h : Agree m x 0 8) : fwSize c m = fwSize c x := by
  unfold fwSize
  rw [le32_congr (h.mono (by omega) (by omega)), le32_congr (h.mono (by omega) (by omega) :
    Agree m x 4 (4 + 4))]

/-- The part of sector `k` that belongs to the first `x` bytes of image `X` is in partition `p`. -/
def SecAt (c : Cfg) (f : Flash) (p : Part) (X : Mem) (x k : Nat) : Prop :=
  ∀ o, o < c.ss → k * c.ss + o < x → f p (secOff c p k + o) = X (k * c.ss + o)

/-- Progress of one sector. -/
inductive Stage where
  | new | swapping | backup | done
deriving DecidableEq

/-- Which copies of the sector exist in each stage. -/
def CurData (c : Cfg) (A : Mem) (a : Nat) (B : Mem) (b : Nat) (f : Flash) (k : Nat) : Stage → Prop
  | .new => SecAt c f .boot A a k ∧ SecAt c f .update B b k
  | .swapping => SecAt c f .boot A a k ∧ SecAt c f .swap B b k ∧
      (k = c.n - 2 → le32 (f .swap) 0 ≠ MAGIC_TRAIL)
  | .backup => SecAt c f .update A a k ∧ SecAt c f .swap B b k ∧
      (k = c.n - 2 → le32 (f .swap) 0 ≠ MAGIC_TRAIL)
  | .done => SecAt c f .boot B b k ∧ SecAt c f .update A a k

/-- Sector flag of each stage. -/
def FlagOK (fl : Byte) : Stage → Prop
  | .new => fl = FL_NEW
  | .swapping => fl = FL_SWAPPING
  | .backup => fl = FL_BACKUP
  | .done => fl ≠ FL_NEW ∧ fl ≠ FL_SWAPPING ∧ fl ≠ FL_BACKUP

/-- BOOT is marked TESTING. -/
def Testing (c : Cfg) (f : Flash) : Prop :=
  hasMagic c f .boot ∧ f .boot (trailerAt c 1) = ST_TESTING

/-- Everything except the sector in progress. `V.1`: the swap may be a rollback (BOOT is TESTING);
`V.2`: the version check of an update was passed. -/
structure Core (c : Cfg) (V : Prop × Prop) (A : Mem) (a : Nat) (B : Mem) (b : Nat) (f : Flash) (k : Nat) :
    Prop where
  done : ∀ j, j < k → j < c.n - 1 → CurData c A a B b f j .done ∧ FlagOK (rawFlag c f j) .done
  fresh : ∀ j, k < j → j < c.n - 1 → CurData c A a B b f j .new ∧ FlagOK (rawFlag c f j) .new
  magicP : MagicP c f .update
  stP : f .update (trailerAt c 1) &&& ST_FINAL = ST_FINAL
  stNF : f .update (trailerAt c 1) ≠ ST_FINAL
  go : (V.1 ∧ Testing c f) ∨ (hasMagic c f .update ∧ f .update (trailerAt c 1) = ST_UPDATING ∧ V.2) ∨ ¬ (V.1 ∨ V.2)
  ntB : le32 (f .boot) c.tmp ≠ MAGIC_TRAIL
  ntU : le32 (f .update) c.tmp ≠ MAGIC_TRAIL

/-- The invariant of an interrupted swap from `A` (in BOOT) to `B` (in UPDATE): sectors below `k`
are swapped, sector `k` is in stage `s`, the others are untouched. -/
structure SwapI (c : Cfg) (V : Prop × Prop) (A : Mem) (a : Nat) (B : Mem) (b : Nat) (f : Flash) (k : Nat)
    (s : Stage) : Prop where
  core : Core c V A a B b f k
  cur : k < c.n - 1 → CurData c A a B b f k s ∧ FlagOK (rawFlag c f k) s
  magic : 0 < k ∨ s ≠ .new → hasMagic c f .update
  ndone : s ≠ .done
  kle : k * c.ss < max a b + c.ss
  slt : s ≠ .new → k * c.ss < max a b

section
variable {c : Cfg} (w : c.WF) {V : Prop × Prop} {A B : Mem} {a b : Nat}
include w

/-- The trailer as a function of the bytes of the last sector of UPDATE. -/
theorem trailer_frame {f f' : Flash} (h : ∀ x, c.last ≤ x → f' .update x = f .update x) :
    (∀ j, j < c.n → rawFlag c f' j = rawFlag c f j) ∧
    (hasMagic c f' .update ↔ hasMagic c f .update) ∧ (MagicP c f .update → MagicP c f' .update) ∧
    f' .update (trailerAt c 1) = f .update (trailerAt c 1) := by
  have hss := w.flags_fit
  have hss6 := w.ss_pos
  have hb := trailer_bounds w (k := 0) (by omega)
  have hb1 := trailer_bounds w (k := 1) (by omega)
  refine ⟨?_, ?_, ?_, h _ hb1.1⟩
  · intro j hj
    have hn := w.n512
    have : flagPos j ≤ c.n / 2 := by rw [flagPos_lt (by omega)]; omega
    exact rawFlag_congr (h _ (trailer_bounds w (by omega)).1)
  · unfold hasMagic
    rw [le32_congr (m := f' .update) (x := f .update) (fun o h1 h2 => h o (by omega))]
  · intro hm i hi
    rw [h _ (by omega)]
    exact hm i hi

theorem testing_frame {f f' : Flash} (h : ∀ x, c.last ≤ x → f' .boot x = f .boot x)
    (ht : Testing c f) : Testing c f' := by
  have hss := w.ss_pos
  have hb := trailer_bounds w (k := 0) (by omega)
  have hb1 := trailer_bounds w (k := 1) (by omega)
  refine ⟨?_, by rw [h _ hb1.1]; exact ht.2⟩
  unfold hasMagic
  rw [← ht.1]
  exact le32_congr (fun o h1 h2 => h o (by omega))

theorem Core.frame {f f' : Flash} {k : Nat} (h : Core c V A a B b f k) (hk : k ≤ c.n - 1)
    (hb : ∀ x, (x < k * c.ss ∨ k * c.ss + c.ss ≤ x ∨ c.last ≤ x) → f' .boot x = f .boot x)
    (hu : ∀ x, (x < k * c.ss ∨ k * c.ss + c.ss ≤ x) → x < c.last → f' .update x = f .update x)
    (hfl : ∀ j, j < c.n → j ≠ k → rawFlag c f' j = rawFlag c f j)
    (hmp : MagicP c f' .update) (hm : hasMagic c f .update → hasMagic c f' .update)
    (hst : f' .update (trailerAt c 1) = f .update (trailerAt c 1))
    (hB : le32 (f' .boot) c.tmp ≠ MAGIC_TRAIL) (hU : le32 (f' .update) c.tmp ≠ MAGIC_TRAIL) :
    Core c V A a B b f' k := by
  have hsec : ∀ j, j < c.n - 1 → j ≠ k → (∀ o, o < c.ss →
      f' .boot (j * c.ss + o) = f .boot (j * c.ss + o) ∧
      f' .update (j * c.ss + o) = f .update (j * c.ss + o)) := by
    intro j hj hjk o ho
    have h1 := Cfg.WF.sec_le_last hj
    rcases Nat.lt_or_gt_of_ne hjk with hlt | hgt
    · have := sec_lt (ss := c.ss) hlt
      exact ⟨hb _ (by omega), hu _ (by omega) (by omega)⟩
    · have := sec_lt (ss := c.ss) hgt
      exact ⟨hb _ (by omega), hu _ (by omega) (by omega)⟩
  have hat : ∀ j p X x, p ≠ .swap → j < c.n - 1 → j ≠ k → SecAt c f p X x j → SecAt c f' p X x j := by
    intro j p X x hp hj hjk hs o ho hx
    have h1 := hsec j hj hjk o ho
    have h2 := hs o ho hx
    unfold secOff at h2 ⊢
    rw [if_neg hp] at h2 ⊢
    cases p with
    | boot => rw [h1.1]; exact h2
    | update => rw [h1.2]; exact h2
    | swap => exact absurd rfl hp
  have hn2 := w.n2
  constructor
  · intro j hj hj2
    obtain ⟨⟨h1, h2⟩, h3⟩ := h.done j hj hj2
    exact ⟨⟨hat j _ _ _ (by simp) hj2 (by omega) h1, hat j _ _ _ (by simp) hj2 (by omega) h2⟩,
      by rw [hfl j (by omega) (by omega)]; exact h3⟩
  · intro j hj hj2
    obtain ⟨⟨h1, h2⟩, h3⟩ := h.fresh j hj hj2
    exact ⟨⟨hat j _ _ _ (by simp) hj2 (by omega) h1, hat j _ _ _ (by simp) hj2 (by omega) h2⟩,
      by rw [hfl j (by omega) (by omega)]; exact h3⟩
  · exact hmp
  · rw [hst]; exact h.stP
  · rw [hst]; exact h.stNF
  · rcases h.go with h1 | ⟨h1, h2, h3⟩ | h1
    · exact Or.inl ⟨h1.1, testing_frame w (fun x hx => hb x (by omega)) h1.2⟩
    · exact Or.inr (Or.inl ⟨hm h1, by rw [hst]; exact h2, h3⟩)
    · exact Or.inr (Or.inr h1)
  · exact hB
  · exact hU

/-- Changing only the swap partition. -/
theorem Core.swapOnly {f f' : Flash} {k : Nat} (h : Core c V A a B b f k) (hk : k ≤ c.n - 1)
    (hb : f' .boot = f .boot) (hu : f' .update = f .update) : Core c V A a B b f' k := by
  obtain ⟨h1, h2, h3, h4⟩ := trailer_frame w (f := f) (f' := f') (fun x _ => by rw [hu])
  exact h.frame w hk (fun x _ => by rw [hb]) (fun x _ _ => by rw [hu]) (fun j hj _ => h1 j hj)
    (h3 h.magicP) h2.mpr h4 (by rw [hb]; exact h.ntB) (by rw [hu]; exact h.ntU)

theorem CurData.swapOnly {f f' : Flash} {k : Nat} {s : Stage} (h : CurData c A a B b f k s)
    (hs : s = .new ∨ s = .done) (hb : f' .boot = f .boot) (hu : f' .update = f .update) :
    CurData c A a B b f' k s := by
  have : ∀ p X x, p ≠ .swap → SecAt c f p X x k → SecAt c f' p X x k := by
    intro p X x hp h o ho hx
    have := h o ho hx
    cases p with
    | boot => rw [hb]; exact this
    | update => rw [hu]; exact this
    | swap => exact absurd rfl hp
  rcases hs with rfl | rfl
  · exact ⟨this _ _ _ (by simp) h.1, this _ _ _ (by simp) h.2⟩
  · exact ⟨this _ _ _ (by simp) h.1, this _ _ _ (by simp) h.2⟩

/-- Changing only the trailer of UPDATE. -/
theorem CurData.trailerOnly {f f' : Flash} {k : Nat} {s : Stage} (hk : k < c.n - 1)
    (h : CurData c A a B b f k s) (hs : Same .update c.last c.part f f') :
    CurData c A a B b f' k s := by
  have hl := Cfg.WF.sec_le_last hk
  have : ∀ p X x, SecAt c f p X x k → SecAt c f' p X x k := by
    intro p X x h o ho hx
    have := h o ho hx
    cases p with
    | boot => rw [hs.other (by simp)]; exact this
    | swap => rw [hs.other (by simp)]; exact this
    | update =>
      unfold secOff at this ⊢
      simp only [reduceCtorEq, ↓reduceIte] at this ⊢
      rw [hs.out (by omega)]; exact this
  have hsw : f' .swap = f .swap := hs.other (by simp)
  cases s with
  | new => exact ⟨this _ _ _ h.1, this _ _ _ h.2⟩
  | swapping => exact ⟨this _ _ _ h.1, this _ _ _ h.2.1, by rw [hsw]; exact h.2.2⟩
  | backup => exact ⟨this _ _ _ h.1, this _ _ _ h.2.1, by rw [hsw]; exact h.2.2⟩
  | done => exact ⟨this _ _ _ h.1, this _ _ _ h.2⟩

/-- A completed sector. -/
theorem swapI_advance {f : Flash} {k : Nat} (hk : k < c.n - 1) (h : Core c V A a B b f k)
    (hd : CurData c A a B b f k .done) (hf : FlagOK (rawFlag c f k) .done)
    (hm : hasMagic c f .update) (hlt : k * c.ss < max a b) : SwapI c V A a B b f (k + 1) .new := by
  refine ⟨⟨?_, ?_, h.magicP, h.stP, h.stNF, h.go, h.ntB, h.ntU⟩, ?_, fun _ => hm, by simp, ?_,
    by simp⟩
  · intro j hj hj2
    by_cases hjk : j = k
    · subst hjk; exact ⟨hd, hf⟩
    · exact h.done j (by omega) hj2
  · intro j hj hj2
    exact h.fresh j (by omega) hj2
  · intro hk1
    exact h.fresh (k + 1) (by omega) hk1
  · rw [Nat.succ_mul]; omega

end

/-! ## One sector -/

/-- The magic word does not appear by accident in torn bytes. -/
abbrev TT (c : Cfg) : Mem → Prop := TornOK c MAGIC_TRAIL

/-- Stage following a stage. -/
def Stage.next : Stage → Stage
  | .new => .swapping
  | .swapping => .backup
  | .backup => .done
  | .done => .done

/-- Flag value of a stage. -/
def Stage.flag : Stage → Byte
  | .new => FL_NEW
  | .swapping => FL_SWAPPING
  | .backup => FL_BACKUP
  | .done => FL_UPDATED

section
variable {c : Cfg} (w : c.WF) {V : Prop × Prop} {A B : Mem} {a b : Nat}
include w

/-- Some stage of the swap. -/
def InSwap (c : Cfg) (V : Prop × Prop) (A : Mem) (a : Nat) (B : Mem) (b : Nat) (f : Flash) : Prop :=
  ∃ k s, SwapI c V A a B b f k s

theorem torn_flag_new : ∀ t : Byte, (FL_NEW &&& (FL_SWAPPING ||| t)) = FL_NEW ∨
    (FL_NEW &&& (FL_SWAPPING ||| t)) = FL_SWAPPING := by decide

theorem torn_flag_swapping : ∀ t : Byte, (FL_SWAPPING &&& (FL_BACKUP ||| t)) = FL_SWAPPING ∨
    (FL_SWAPPING &&& (FL_BACKUP ||| t)) = FL_BACKUP := by decide

theorem torn_flag_backup : ∀ t : Byte, (FL_BACKUP &&& (FL_UPDATED ||| t)) = FL_BACKUP ∨
    FlagOK (FL_BACKUP &&& (FL_UPDATED ||| t)) .done := by unfold FlagOK; decide

theorem mark_spec {k : Nat} (hk : k < c.n - 1) (hlt : k * c.ss < max a b) (s : Stage)
    (hs : s ≠ .done) (f0 : Flash) (hc : Core c V A a B b f0 k) (hd : CurData c A a B b f0 k s)
    (hd' : CurData c A a B b f0 k s.next) (hf : FlagOK (rawFlag c f0 k) s)
    (hm : 0 < k ∨ s ≠ .new → hasMagic c f0 .update) :
    Triple (TT c) false (fun f => f = f0) (markSector c k s.next.flag) false
      (fun _ f => Core c V A a B b f k ∧ CurData c A a B b f k s.next ∧
        FlagOK (rawFlag c f k) s.next ∧ hasMagic c f .update)
      (InSwap c V A a B b) := by
  have hn2 := w.n2
  have hl := Cfg.WF.sec_le_last hk
  have hpe := w.part_eq
  have hle := w.last_eq
  have h4 := w.fb4
  have hfb := w.fb_le
  have hss := w.ss_pos
  have hraw : rawFlag c f0 k = s.flag := by
    cases s with
    | done => exact absurd rfl hs
    | _ => exact hf
  have hcore : ∀ f, Same .update c.last c.part f0 f → (hasMagic c f0 .update → hasMagic c f .update) →
      MagicP c f .update → f .update (trailerAt c 1) = f0 .update (trailerAt c 1) →
      (∀ j, j < c.n → j ≠ k → rawFlag c f j = rawFlag c f0 j) → Core c V A a B b f k := by
    intro f h1 h2 h3 h4 h5
    refine hc.frame w (by omega) (fun x _ => by rw [h1.other (by simp)])
      (fun x _ hx => h1.out (by omega)) h5 h3 h2 h4 ?_ ?_
    · rw [h1.other (by simp)]; exact hc.ntB
    · rw [le32_congr (m := f .update) (x := f0 .update) (fun o _ _ => h1.out (by omega))]
      exact hc.ntU
  unfold markSector
  rw [if_pos (by rw [Nat.succ_mul]; omega)]
  refine (setFlag_spec w f0 k (by omega) s.next.flag (by cases s <;> decide) hc.magicP
    (by rw [hraw]; cases s <;> first | exact absurd rfl hs | decide)).conseq (fun _ h => h) ?_ ?_
  · rintro _ f ⟨h1, h2, h3, h4, h5⟩
    refine ⟨hcore f h1 (fun _ => h2) h2.magicP h3 h5, hd'.trailerOnly w hk h1, ?_, h2⟩
    rw [h4]
    cases s with
    | done => exact absurd rfl hs
    | backup => exact ⟨by decide, by decide, by decide⟩
    | _ => rfl
  · rintro f ⟨h1, h2, h3, h4, h5⟩
    have hmp : MagicP c f .update := by
      rcases h5 with ⟨h5, _⟩ | ⟨h5, _⟩
      · exact h5
      · exact h5.magicP
    have hc' := hcore f h1 h2 hmp h3 h4
    have hold : (rawFlag c f k = rawFlag c f0 k) → InSwap c V A a B b f := by
      intro he
      refine ⟨k, s, hc', fun _ => ⟨hd.trailerOnly w hk h1, by rw [he]; exact hf⟩,
        fun h => h2 (hm h), hs, by omega, fun _ => hlt⟩
    rcases h5 with ⟨_, h5⟩ | ⟨h5, t, h6⟩
    · exact hold h5
    · rw [hraw] at h6 hold
      have hnew : s.next ≠ .done → rawFlag c f k = s.next.flag → InSwap c V A a B b f := by
        intro hnd he
        refine ⟨k, s.next, hc', fun _ => ⟨hd'.trailerOnly w hk h1, ?_⟩, fun _ => h5, hnd, by omega,
          fun _ => hlt⟩
        rw [he]
        cases s with
        | new => rfl
        | swapping => rfl
        | backup => exact absurd rfl hnd
        | done => exact absurd rfl hs
      cases s with
      | new =>
        rcases torn_flag_new w t with h | h
        · exact hold (h6.trans h)
        · exact hnew (by simp [Stage.next]) (h6.trans h)
      | swapping =>
        rcases torn_flag_swapping w t with h | h
        · exact hold (h6.trans h)
        · exact hnew (by simp [Stage.next]) (h6.trans h)
      | backup =>
        rcases torn_flag_backup w t with h | h
        · exact hold (h6.trans h)
        · refine ⟨k + 1, .new, swapI_advance w hk hc' (hd'.trailerOnly w hk h1) ?_ h5 hlt⟩
          rw [h6]; exact h
      | done => exact absurd rfl hs

omit w in
theorem word_out {m x : Mem} {lo hi p : Nat} (h : ∀ y, y < lo ∨ hi ≤ y → m y = x y)
    (hp : p + 4 ≤ lo ∨ hi ≤ p) : le32 m p = le32 x p :=
  le32_congr (fun o _ _ => h o (by omega))

/-- `NT` of a partition after an (interrupted) copy into its sector `k`. -/
theorem nt_copy {f0 f : Flash} {src dst : Part} {k : Nat} (hk : k < c.n - 1) (hdst : dst ≠ .swap)
    (hs : Same dst (secOff c dst k) (secOff c dst k + c.ss) f0 f)
    (hnt : le32 (f0 dst) c.tmp ≠ MAGIC_TRAIL)
    (hw : k = c.n - 2 → le32 (f dst) c.tmp ≠ MAGIC_TRAIL) : le32 (f dst) c.tmp ≠ MAGIC_TRAIL := by
  have hss := w.ss_pos
  by_cases hk2 : k = c.n - 2
  · exact hw hk2
  · have := Cfg.WF.sec_le_tmp (c := c) (k := k) (by omega)
    unfold secOff at hs
    rw [if_neg hdst] at hs
    rw [word_out (x := f0 dst) (fun y hy => hs.out hy) (by omega)]
    exact hnt

theorem tmp_sec {k : Nat} (h : k = c.n - 2) : k * c.ss = c.tmp := by rw [h]; rfl

theorem backup_spec {k : Nat} (hk : k < c.n - 1) :
    Triple (TT c) false (fun f => SwapI c V A a B b f k .backup) (doBackup c k) false
      (fun _ f => SwapI c V A a B b f (k + 1) .new) (InSwap c V A a B b) := by
  have hn2 := w.n2
  have h4 := w.fb4
  have hfb := w.fb_le
  have hss := w.ss_pos
  have hl := Cfg.WF.sec_le_last hk
  refine Triple.ofEq (fun f0 hI => ?_)
  have hlt := hI.slt (by simp)
  obtain ⟨⟨hda, hdb, hnt⟩, hfl⟩ := hI.cur hk
  have hm := hI.magic (Or.inr (by simp))
  have hframe : ∀ f, Same .boot (secOff c .boot k) (secOff c .boot k + c.ss) f0 f →
      le32 (f .boot) c.tmp ≠ MAGIC_TRAIL → Core c V A a B b f k := by
    intro f hs hB
    have hu : f .update = f0 .update := hs.other (by simp)
    obtain ⟨h1, h2, h3, h5⟩ := trailer_frame w (f := f0) (f' := f) (fun x _ => by rw [hu])
    refine hI.core.frame w (by omega) (fun x hx => hs.out ?_) (fun x _ _ => by rw [hu])
      (fun j hj _ => h1 j hj) (h3 hI.core.magicP) h2.mpr h5 hB (by rw [hu]; exact hI.core.ntU)
    unfold secOff
    simp only [reduceCtorEq, ↓reduceIte]
    omega
  have hcurb : ∀ f, Same .boot (secOff c .boot k) (secOff c .boot k + c.ss) f0 f →
      CurData c A a B b f k .backup ∧ FlagOK (rawFlag c f k) .backup ∧ hasMagic c f .update := by
    intro f hs
    have hu : f .update = f0 .update := hs.other (by simp)
    have hw : f .swap = f0 .swap := hs.other (by simp)
    obtain ⟨h1, h2, h3, h5⟩ := trailer_frame w (f := f0) (f' := f) (fun x _ => by rw [hu])
    refine ⟨⟨?_, ?_, by rw [hw]; exact hnt⟩, by rw [h1 k (by omega)]; exact hfl, h2.mpr hm⟩
    · intro o ho hx; rw [hu]; exact hda o ho hx
    · intro o ho hx; rw [hw]; exact hdb o ho hx
  unfold doBackup
  refine Triple.bind ((copySector_spec w (by simp) (Or.inr hk) f0).conseq (fun _ h => h)
    (fun _ _ h => h) ?_) (fun _ => ?_)
  · rintro f (rfl | ⟨hs, hw⟩)
    · exact ⟨k, .backup, hI⟩
    · obtain ⟨h1, h2, h3⟩ := hcurb f hs
      refine ⟨k, .backup, hframe f hs ?_, fun _ => ⟨h1, h2⟩, fun _ => h3, by simp, by omega,
        fun _ => hlt⟩
      refine nt_copy w (src := .swap) hk (by simp) hs hI.core.ntB (fun hk2 => ?_)
      have ht := tmp_sec w hk2
      unfold secOff at hw
      simp only [reduceCtorEq, ↓reduceIte, ht] at hw
      rcases hw with ⟨t, ht, hw⟩ | hw | hw
      · rw [hw]; exact ht
      · rw [hw]; decide
      · rw [hw]; exact hnt hk2
  · refine Triple.ofEq (fun f ⟨hs, hcp⟩ => ?_)
    obtain ⟨h1, h2, h3⟩ := hcurb f hs
    have hB : le32 (f .boot) c.tmp ≠ MAGIC_TRAIL := by
      refine nt_copy w (src := .swap) hk (by simp) hs hI.core.ntB (fun hk2 => ?_)
      have ht := tmp_sec w hk2
      have := copied_word w (m := f .boot) (a := secOff c .boot k)
        (fun o ho => hcp o (by omega))
      unfold secOff at this
      simp only [reduceCtorEq, ↓reduceIte, ht] at this
      rcases this with h | h
      · rw [h]; exact hnt hk2
      · rw [h]; decide
    have hc := hframe f hs hB
    have hdone : CurData c A a B b f k .done := by
      refine ⟨?_, h1.1⟩
      intro o ho hx
      rw [hcp o ho, copied_lt (by omega) (by unfold secOff; simp only [↓reduceIte]; omega)]
      exact hdb o ho hx
    refine (mark_spec w hk hlt .backup (by simp) f hc h1 hdone h2 (fun _ => h3)).conseq
      (fun _ h => h) ?_ (fun _ h => h)
    rintro _ g ⟨g1, g2, g3, g4⟩
    exact swapI_advance w hk g1 g2 g3 g4 hlt

theorem swapping_spec {k : Nat} (hk : k < c.n - 1) {bootFw : Nat} (hfw : bootFw + c.h = a) :
    Triple (TT c) false (fun f => SwapI c V A a B b f k .swapping) (doSwapping c bootFw k) false
      (fun _ f => SwapI c V A a B b f (k + 1) .new) (InSwap c V A a B b) := by
  have hn2 := w.n2
  have h4 := w.fb4
  have hfb := w.fb_le
  have hss := w.ss_pos
  have hl := Cfg.WF.sec_le_last hk
  refine Triple.ofEq (fun f0 hI => ?_)
  have hlt := hI.slt (by simp)
  obtain ⟨⟨hda, hdb, hnt⟩, hfl⟩ := hI.cur hk
  have hm := hI.magic (Or.inr (by simp))
  have hframe : ∀ f, Same .update (secOff c .update k) (secOff c .update k + c.ss) f0 f →
      le32 (f .update) c.tmp ≠ MAGIC_TRAIL → Core c V A a B b f k ∧
        CurData c A a B b f k .swapping ∧ FlagOK (rawFlag c f k) .swapping ∧
        hasMagic c f .update := by
    intro f hs hU
    have hu : f .boot = f0 .boot := hs.other (by simp)
    have hw : f .swap = f0 .swap := hs.other (by simp)
    unfold secOff at hs
    simp only [reduceCtorEq, ↓reduceIte] at hs
    obtain ⟨h1, h2, h3, h5⟩ := trailer_frame w (f := f0) (f' := f) (fun x hx => hs.out (by omega))
    refine ⟨hI.core.frame w (by omega) (fun x hx => by rw [hu]) (fun x hx _ => hs.out hx)
      (fun j hj _ => h1 j hj) (h3 hI.core.magicP) h2.mpr h5 (by rw [hu]; exact hI.core.ntB) hU,
      ⟨?_, ?_, by rw [hw]; exact hnt⟩, by rw [h1 k (by omega)]; exact hfl, h2.mpr hm⟩
    · intro o ho hx; rw [hu]; exact hda o ho hx
    · intro o ho hx; rw [hw]; exact hdb o ho hx
  unfold doSwapping
  refine Triple.bind ((copySector_spec w (by simp) (Or.inr hk) f0).conseq (fun _ h => h)
    (fun _ _ h => h) ?_) (fun _ => ?_)
  · rintro f (rfl | ⟨hs, hw⟩)
    · exact ⟨k, .swapping, hI⟩
    · have hU : le32 (f .update) c.tmp ≠ MAGIC_TRAIL := by
        refine nt_copy w (src := .boot) hk (by simp) hs hI.core.ntU (fun hk2 => ?_)
        have ht := tmp_sec w hk2
        unfold secOff at hw
        simp only [reduceCtorEq, ↓reduceIte, ht] at hw
        rcases hw with ⟨t, ht, hw⟩ | hw | hw
        · rw [hw]; exact ht
        · rw [hw]; decide
        · rw [hw]; exact hI.core.ntB
      obtain ⟨h1, h2, h3, h5⟩ := hframe f hs hU
      exact ⟨k, .swapping, h1, fun _ => ⟨h2, h3⟩, fun _ => h5, by simp, by omega, fun _ => hlt⟩
  · refine Triple.ofEq (fun f ⟨hs, hcp⟩ => ?_)
    have hU : le32 (f .update) c.tmp ≠ MAGIC_TRAIL := by
      refine nt_copy w (src := .boot) hk (by simp) hs hI.core.ntU (fun hk2 => ?_)
      have ht := tmp_sec w hk2
      have := copied_word w (m := f .update) (a := secOff c .update k)
        (fun o ho => hcp o (by omega))
      unfold secOff at this
      simp only [reduceCtorEq, ↓reduceIte, ht] at this
      rcases this with h | h
      · rw [h]; exact hI.core.ntB
      · rw [h]; decide
    obtain ⟨h1, h2, h3, h5⟩ := hframe f hs hU
    have hback : CurData c A a B b f k .backup := by
      refine ⟨?_, h2.2.1, h2.2.2⟩
      intro o ho hx
      rw [hcp o ho, copied_lt (by omega)
        (by unfold secOff; simp only [reduceCtorEq, ↓reduceIte]; omega)]
      exact hda o ho hx
    refine Triple.bind (Q := fun _ f => SwapI c V A a B b f k .backup)
      ((mark_spec w hk hlt .swapping (by simp) f h1 h2 hback h3 (fun _ => h5)).conseq
        (fun _ h => h) ?_ (fun _ h => h)) (fun _ => backup_spec w hk)
    rintro _ g ⟨g1, g2, g3, g4⟩
    exact ⟨g1, fun _ => ⟨g2, g3⟩, fun _ => g4, by simp, by omega, fun _ => hlt⟩

theorem new_spec {k : Nat} (hk : k < c.n - 1) (hlt : k * c.ss < max a b) {bootFw updFw : Nat}
    (hfw : bootFw + c.h = a) (hfu : updFw + c.h = b) :
    Triple (TT c) false (fun f => SwapI c V A a B b f k .new) (doNew c bootFw updFw k) false
      (fun _ f => SwapI c V A a B b f (k + 1) .new) (InSwap c V A a B b) := by
  have hn2 := w.n2
  have h4 := w.fb4
  have hfb := w.fb_le
  have hss := w.ss_pos
  have hl := Cfg.WF.sec_le_last hk
  refine Triple.ofEq (fun f0 hI => ?_)
  obtain ⟨⟨hda, hdb⟩, hfl⟩ := hI.cur hk
  have hframe : ∀ f, Same .swap (secOff c .swap k) (secOff c .swap k + c.ss) f0 f →
      SwapI c V A a B b f k .new := by
    intro f hs
    have hb : f .boot = f0 .boot := hs.other (by simp)
    have hu : f .update = f0 .update := hs.other (by simp)
    obtain ⟨h1, h2, h3, h5⟩ := trailer_frame w (f := f0) (f' := f) (fun x hx => by rw [hu])
    exact ⟨hI.core.swapOnly w (by omega) hb hu, fun _ => ⟨CurData.swapOnly w ⟨hda, hdb⟩
      (Or.inl rfl) hb hu, by rw [h1 k (by omega)]; exact hfl⟩, fun h => h2.mpr (hI.magic h), by simp,
      hI.kle, by simp⟩
  unfold doNew
  refine Triple.bind ((copySector_spec w (by simp) (Or.inl rfl) f0).conseq (fun _ h => h)
    (fun _ _ h => h) ?_) (fun _ => ?_)
  · rintro f (rfl | ⟨hs, hw⟩)
    · exact ⟨k, .new, hI⟩
    · exact ⟨k, .new, hframe f hs⟩
  · refine Triple.ofEq (fun f ⟨hs, hcp⟩ => ?_)
    have hI' := hframe f hs
    have hcur := hI'.cur hk
    have hswp : CurData c A a B b f k .swapping := by
      refine ⟨hcur.1.1, ?_, ?_⟩
      · intro o ho hx
        rw [hcp o ho, copied_lt (by omega)
          (by unfold secOff; simp only [reduceCtorEq, ↓reduceIte]; omega)]
        exact hdb o ho hx
      · intro hk2
        have ht := tmp_sec w hk2
        have := copied_word w (m := f .swap) (a := secOff c .swap k)
          (fun o ho => hcp o (by omega))
        unfold secOff at this
        simp only [reduceCtorEq, ↓reduceIte, ht] at this
        rcases this with h | h
        · rw [h]; exact hI.core.ntU
        · rw [h]; decide
    refine Triple.bind (Q := fun _ f => SwapI c V A a B b f k .swapping)
      ((mark_spec w hk hlt .new (by simp) f hI'.core hcur.1 hswp hcur.2 hI'.magic).conseq
        (fun _ h => h) ?_ (fun _ h => h)) (fun _ => swapping_spec w hk hfw)
    rintro _ g ⟨g1, g2, g3, g4⟩
    exact ⟨g1, fun _ => ⟨g2, g3⟩, fun _ => g4, by simp, by omega, fun _ => hlt⟩

/-! ## The loops -/

theorem flag_of_swapI {f : Flash} {k : Nat} {s : Stage} (hk : k < c.n - 1)
    (h : SwapI c V A a B b f k s) : (getFlag c f k).getD FL_NEW = s.flag := by
  have hc := (h.cur hk).2
  unfold getFlag
  cases s with
  | done => exact absurd rfl h.ndone
  | new =>
    split
    · exact hc
    · rfl
  | swapping => rw [if_pos (h.magic (Or.inr (by simp)))]; exact hc
  | backup => rw [if_pos (h.magic (Or.inr (by simp)))]; exact hc

theorem flag_done {f : Flash} {j k : Nat} {s : Stage} (hj : j < k) (hjn : j < c.n - 1)
    (h : SwapI c V A a B b f k s) : FlagOK ((getFlag c f j).getD FL_NEW) .done := by
  unfold getFlag
  rw [if_pos (h.magic (Or.inl (by omega)))]
  exact (h.core.done j hj hjn).2

theorem swapSector_done {j k : Nat} {s : Stage} (hj : j < k) (hjn : j < c.n - 1)
    (bootFw updFw : Nat) :
    Triple (TT c) false (fun f => SwapI c V A a B b f k s) (swapSector c bootFw updFw j) false
      (fun _ f => SwapI c V A a B b f k s) (InSwap c V A a B b) := by
  unfold swapSector
  refine Triple.readFlash (fun f hf => ?_)
  obtain ⟨h1, h2, h3⟩ := flag_done w hj hjn hf
  dsimp only
  rw [if_neg h1, if_neg h2, if_neg h3]
  refine (Triple.pure (Q := fun _ g => g = f) ()).conseq (fun _ h => h) ?_ (fun _ h => h)
  rintro _ g rfl
  exact hf

theorem swapSector_cur {k : Nat} {s : Stage} (hk : k < c.n - 1) (hlt : k * c.ss < max a b)
    {bootFw updFw : Nat} :
    Triple (TT c) false (fun f => SwapI c V A a B b f k s ∧ (s ≠ .backup → bootFw + c.h = a) ∧
        (s = .new → updFw + c.h = b)) (swapSector c bootFw updFw k) false
      (fun _ f => SwapI c V A a B b f (k + 1) .new) (InSwap c V A a B b) := by
  unfold swapSector
  refine Triple.readFlash (fun f hf => ?_)
  obtain ⟨hf, hfb, hfu⟩ := hf
  dsimp only
  rw [flag_of_swapI w hk hf]
  cases s with
  | done => exact absurd rfl hf.ndone
  | new =>
    rw [if_pos (by rfl)]
    exact (new_spec w hk hlt (hfb (by simp)) (hfu rfl)).pre (fun g hg => by rw [hg]; exact hf)
  | swapping =>
    rw [if_neg (by decide), if_pos (by rfl)]
    exact (swapping_spec w hk (hfb (by simp))).pre (fun g hg => by rw [hg]; exact hf)
  | backup =>
    rw [if_neg (by decide), if_neg (by decide), if_pos (by rfl)]
    exact (backup_spec w hk).pre (fun g hg => by rw [hg]; exact hf)

/-- Number of the first sector after the swap. -/
def EndSec (c : Cfg) (T K : Nat) : Prop := T ≤ K * c.ss ∧ K * c.ss < T + c.ss

theorem lt_last_sec {k T : Nat} (hT : T ≤ c.last) (h : k * c.ss < T) : k < c.n - 1 := by
  unfold Cfg.last at hT
  exact Nat.lt_of_mul_lt_mul_right (a := c.ss) (by omega)

theorem swapLoop_spec (ha : a ≤ c.last) (hb : b ≤ c.last) (hT : 0 < max a b) {bootFw updFw : Nat}
    (hfa : bootFw + c.h = a) (hfb : updFw + c.h = b) :
    ∀ fuel j k s, 1 ≤ j → j ≤ k → c.n < fuel + j →
    Triple (TT c) false (fun f => SwapI c V A a B b f k s)
      (swapLoop c fuel bootFw updFw (max a b) j) false
      (fun r f => EndSec c (max a b) r ∧ SwapI c V A a B b f r .new) (InSwap c V A a B b) := by
  have hss := w.ss_pos
  have hn2 := w.n2
  intro fuel
  induction fuel with
  | zero =>
    intro j k s h1 hjk h
    refine Triple.false_pre (fun f hI => ?_)
    have := hI.kle
    have hk1 := sec_lt (ss := c.ss) (j := c.n) (k := k) (by omega)
    have := w.part_eq
    have hpp : c.part = c.n * c.ss := rfl
    omega
  | succ fuel ih =>
    intro j k s hj hjk hfuel
    unfold swapLoop
    refine Triple.ite (fun hlt => ?_) (fun hge => ?_)
    · have hjn := lt_last_sec w (T := max a b) (by omega) hlt
      by_cases hjk' : j < k
      · refine Triple.bind (swapSector_done w hjk' hjn bootFw updFw) (fun _ => ?_)
        dsimp only
        rw [if_neg (by omega)]
        exact ih (j + 1) k s (by omega) (by omega) (by omega)
      · have : j = k := by omega
        subst this
        refine Triple.bind ((swapSector_cur w hjn hlt).pre
          (fun f hf => ⟨hf, fun _ => hfa, fun _ => hfb⟩)) (fun _ => ?_)
        dsimp only
        rw [if_neg (by omega)]
        exact ih (j + 1) (j + 1) .new (by omega) (by omega) (by omega)
    · refine (Triple.pure (Q := fun r f => r = j ∧ SwapI c V A a B b f k s) j).conseq
        (fun f h => ⟨rfl, h⟩) ?_ (fun f h => ⟨k, s, h⟩)
      rintro r f ⟨rfl, hI⟩
      have hkle := hI.kle
      have : r = k := by
        rcases Nat.lt_or_ge r k with h | h
        · have := sec_lt (ss := c.ss) h
          omega
        · omega
      subst this
      refine ⟨⟨by omega, hkle⟩, ?_⟩
      have hs : s = .new := by
        by_cases h : s = .new
        · exact h
        · exact absurd (hI.slt h) hge
      rw [← hs]; exact hI

/-- Header words of an image in sector 0. -/
theorem hdr_of_secAt {f : Flash} {p : Part} {X : Mem} {x : Nat} (hp : p ≠ .swap) (hx : 8 ≤ x)
    (h : SecAt c f p X x 0) : Agree (f p) X 0 8 := by
  have h8 := w.h8
  have hh := w.h_le
  intro o _ ho
  have := h o (by omega) (by omega)
  unfold secOff at this
  rw [if_neg hp] at this
  simpa using this

theorem eraseRest_spec (ha : a ≤ c.last) (hb : b ≤ c.last) {K : Nat} (hK : EndSec c (max a b) K)
    (hK1 : 1 ≤ K) : ∀ fuel j, K ≤ j → j ≤ c.n - 1 → c.n < fuel + j →
    Triple (TT c) false (fun f => SwapI c V A a B b f K .new) (eraseRest c fuel j) false
      (fun _ f => SwapI c V A a B b f K .new) (InSwap c V A a B b) := by
  have hss := w.ss_pos
  have hn2 := w.n2
  have hpe := w.part_eq
  have hle := w.last_eq
  -- changing a data sector after the images
  have hfr : ∀ p j (f f' : Flash), p ≠ .swap → K ≤ j → j < c.n - 1 →
      Same p (j * c.ss) (j * c.ss + c.ss) f f' →
      (j = c.n - 2 → le32 (f' p) c.tmp ≠ MAGIC_TRAIL) →
      SwapI c V A a B b f K .new → SwapI c V A a B b f' K .new := by
    intro p j f f' hp hj hjn hs hnt hI
    have hl := Cfg.WF.sec_le_last hjn
    have hjK : K * c.ss ≤ j * c.ss := Nat.mul_le_mul_right _ hj
    have hTj : max a b ≤ j * c.ss := Nat.le_trans hK.1 hjK
    have hKn : K ≤ c.n - 1 := by omega
    obtain ⟨t1, t2, t3, t4⟩ := trailer_frame w (f := f) (f' := f') (fun x hx => by
      by_cases h : p = .update
      · subst h; exact hs.out (by omega)
      · rw [hs.other (fun e => h e.symm)])
    have hbt : ∀ x, c.last ≤ x → f' .boot x = f .boot x := by
      intro x hx
      by_cases h : p = .boot
      · subst h; exact hs.out (by omega)
      · rw [hs.other (fun e => h e.symm)]
    have hat : ∀ q X x i, q ≠ .swap → x ≤ max a b → SecAt c f q X x i → SecAt c f' q X x i := by
      intro q X x i hq hx h o ho hox
      have h1 := h o ho hox
      unfold secOff at h1 ⊢
      rw [if_neg hq] at h1 ⊢
      rw [← h1]
      by_cases h : p = q
      · subst h; exact hs.out (by omega)
      · rw [hs.other (fun e => h e.symm)]
    have hword : ∀ q, q ≠ .swap → le32 (f q) c.tmp ≠ MAGIC_TRAIL → le32 (f' q) c.tmp ≠ MAGIC_TRAIL := by
      intro q hq hn
      by_cases h : p = q
      · subst h
        by_cases hj2 : j = c.n - 2
        · exact hnt hj2
        · have := Cfg.WF.sec_le_tmp (c := c) (k := j) (by omega)
          rw [word_out (x := f p) (fun y hy => hs.out hy) (by omega)]
          exact hn
      · rw [hs.other (fun e => h e.symm)]; exact hn
    have hcore := hI.core
    have hla : a ≤ max a b := by omega
    have hlb : b ≤ max a b := by omega
    refine ⟨⟨?_, ?_, t3 hcore.magicP, by rw [t4]; exact hcore.stP, by rw [t4]; exact hcore.stNF, ?_,
      hword _ (by simp) hcore.ntB, hword _ (by simp) hcore.ntU⟩, ?_, fun h => t2.mpr (hI.magic h),
      by simp, hI.kle, by simp⟩
    · intro i hi hin
      obtain ⟨⟨h1, h2⟩, h3⟩ := hcore.done i hi hin
      exact ⟨⟨hat _ _ _ _ (by simp) hlb h1, hat _ _ _ _ (by simp) hla h2⟩,
        by rw [t1 i (by omega)]; exact h3⟩
    · intro i hi hin
      obtain ⟨⟨h1, h2⟩, h3⟩ := hcore.fresh i hi hin
      exact ⟨⟨hat _ _ _ _ (by simp) hla h1, hat _ _ _ _ (by simp) hlb h2⟩,
        by rw [t1 i (by omega)]; exact h3⟩
    · rcases hcore.go with h1 | ⟨h1, h2, h3⟩ | h1
      · exact Or.inl ⟨h1.1, testing_frame w hbt h1.2⟩
      · exact Or.inr (Or.inl ⟨t2.mpr h1, by rw [t4]; exact h2, h3⟩)
      · exact Or.inr (Or.inr h1)
    · intro hkn
      obtain ⟨⟨h1, h2⟩, h3⟩ := hI.cur hkn
      exact ⟨⟨hat _ _ _ _ (by simp) hla h1, hat _ _ _ _ (by simp) hlb h2⟩,
        by rw [t1 K (by omega)]; exact h3⟩
  have herase : ∀ p j, p ≠ .swap → K ≤ j → j < c.n - 1 →
      Triple (TT c) false (fun f => SwapI c V A a B b f K .new) (erase c p (j * c.ss) c.ss) false
      (fun _ f => SwapI c V A a B b f K .new) (InSwap c V A a B b) := by
    intro p j hp hj hjn
    have hl := Cfg.WF.sec_le_last hjn
    refine Triple.erase (fun f hI => ?_) (fun t f hT hI => ⟨K, .new, ?_⟩)
    · refine hfr p j f _ hp hj hjn (same_erase _ _ _ _) (fun hj2 => ?_) hI
      have ht := tmp_sec w hj2
      have : le32 (f.erase p (j * c.ss) c.ss p) c.tmp = 4294967295 := by
        unfold le32 Flash.erase
        simp only [true_and]
        rw [if_pos (by omega), if_pos (by omega), if_pos (by omega), if_pos (by omega)]
        rfl
      rw [this]; decide
    · refine hfr p j f _ hp hj hjn (same_tornErase _ _ _ _ _ _) (fun hj2 => ?_) hI
      have ht := tmp_sec w hj2
      have : le32 (f.tornErase c t p (j * c.ss) c.ss p) c.tmp = le32 t c.tmp := by
        refine le32_congr (fun o h1 h2 => ?_)
        unfold Flash.tornErase
        rw [if_neg (by rintro ⟨_, h⟩; omega)]
        simp only
        rw [if_pos ⟨trivial, by omega, by omega⟩]
      rw [this]; exact hT
  intro fuel
  induction fuel with
  | zero => intro j _ _ _; omega
  | succ fuel ih =>
    intro j hKj hjn hfuel
    unfold eraseRest
    refine Triple.ite (fun hlt => ?_) (fun hge => ?_)
    · have hjn' : j < c.n - 1 := lt_last_sec w (T := c.last) (Nat.le_refl _) (by omega)
      refine Triple.bind (herase .boot j (by simp) hKj hjn') (fun _ => ?_)
      refine Triple.bind (herase .update j (by simp) hKj hjn') (fun _ => ?_)
      exact ih (j + 1) (by omega) (by omega) (by omega)
    · exact (Triple.pure (Q := fun _ f => SwapI c V A a B b f K .new) ()).conseq
        (fun f h => h) (fun _ f h => h) (fun f h => ⟨K, .new, h⟩)

end

end Verif
