import Verif.NvmSwap

/-!
# Update on write-once flash: `wolfBoot_update` and `wolfBoot_start`

Proof technique for `Verif.NvmUpdateThms`, continued.
-/

set_option linter.unusedVariables false

namespace Verif

namespace Nvu

section
variable {k : Cfg} (w : k.WF) (n3 : 3 ≤ k.n)
include w n3

/-! ### The swap loop -/

theorem simLoop {b u total : Nat} (ht : total ≤ (pre k).last) : ∀ fa fc j, fa ≤ fc → 1 ≤ j → ∀ {s : Bool},
    Sim (TT (pre k)) (TornOK k) (Rel k) s false (fun A F => RelT k A F ∧ NF k A) (Verif.swapLoop (pre k) fa b u total j) (swapLoop k fc b u total j) false
      (fun _ A F => RelT k A F ∧ NF k A) := by
  intro fa
  induction fa with
  | zero => intro fc j _ _ s; exact Sim.stuck
  | succ fa ih =>
    intro fc j hfc hj s
    obtain ⟨fc, rfl⟩ : ∃ c, fc = c + 1 := ⟨fc - 1, by omega⟩
    unfold Verif.swapLoop swapLoop
    refine Sim.ite Iff.rfl (fun hlt => ?_) (fun _ => Sim.pure (Q := fun _ A F => RelT k A F ∧ NF k A) j)
    refine Sim.bind (simSector w n3 (.inl rfl) (.inl rfl) (lt_last_sec (pre_wf w n3) ht hlt)) fun _ => ?_
    dsimp only
    rw [if_neg (by omega), if_neg (by omega)]
    exact ih fc _ (by omega) (by omega)

theorem torn_ex : ∃ t, TT (pre k) t := ⟨_, tt_ff⟩

/-- The whole loop, in the middle of a swap. -/
theorem simLoop0 {V : Prop × Prop} {X Y : Mem} {x y : Nat} (hX : ImgOK (pre k) X) (hY : ImgOK (pre k) Y) (hx : x = imgLen (pre k) X) (hy : y = imgLen (pre k) Y)
    {A F : Flash} (h : RelT k A F) (hI : InSwap (pre k) V X x Y y A) {ta tc : Nat} (hta : 0 < ta) (htc : 0 < tc) {s : Bool} :
    Sim (TT (pre k)) (TornOK k) (Rel k) s false (fun A' F' => A' = A ∧ F' = F)
      (Verif.swapLoop (pre k) ((pre k).n + 2) (fwSize (pre k) (A .boot)) (fwSize (pre k) (A .update)) ta 0)
      (swapLoop k (k.n + 2) (fwSize k (F .boot)) (fwSize k (F .update)) tc 0) false (fun _ A F => RelT k A F ∧ NF k A) := by
  obtain ⟨g1, g2, g3, g4, g5, g6, g7, g8, g9⟩ := geo w n3
  have wp := pre_wf w n3
  have hn : (pre k).n = k.n - 1 := rfl
  have hss := w.ss_pos
  have hh := w.h_le
  have h8 := w.h8
  obtain ⟨i, st, hS⟩ := hI
  obtain ⟨q1, q2, q3, q4⟩ := hdr_boot wp hX hY hx hy hS
  have hxa : x ≤ (pre k).last := by rw [hx]; exact hX.fits
  have hya : y ≤ (pre k).last := by rw [hy]; exact hY.fits
  have hx8 : 8 ≤ x := by rw [hx]; unfold imgLen; show 8 ≤ _ + k.h; omega
  have hsame : ∀ p A F, p ≠ Part.swap → RelT k A F → SameFw k (fwSize (pre k) (A p)) (fwSize k (F p)) := by
    intro p A F hp h
    exact same_fw w n3 fun o ho => h.rel.data _ _ hp (by omega)
  unfold Verif.swapLoop swapLoop
  rw [if_pos (show 0 * (pre k).ss < ta by omega), if_pos (show 0 * k.ss < tc by omega)]
  refine Sim.bind (l' := false) (Q := fun _ A F => (RelT k A F ∧ NF k A) ∧ ∃ i st, 0 < i ∧ SwapI (pre k) V X x Y y A i st) ?_ fun _ => ?_
  · have key := simSector w n3 (s := false) (hsame .boot A F (by simp) h) (hsame .update A F (by simp) h) (j := 0) (by omega)
    by_cases hi : i = 0
    · subst hi
      refine (key.triple (swapSector_cur wp (s := st) (V := V) (A := X) (a := x) (B := Y) (b := y) (by omega) (by omega)) (torn_ex w n3) ?_).conseq
        (P' := fun A' F' => A' = A ∧ F' = F) (fun _ _ h => h) ?_
      · rintro A' F' ⟨rfl, rfl⟩
        exact ⟨⟨h, hS.core.stNF⟩, hS, q1 rfl, q2 rfl⟩
      · rintro _ A' F' ⟨p1, p2⟩
        exact ⟨p1, 1, .new, by omega, p2⟩
    · refine (key.triple (swapSector_done wp (s := st) (V := V) (A := X) (a := x) (B := Y) (b := y) (k := i) (by omega) (by omega) _ _) (torn_ex w n3) ?_).conseq
        (P' := fun A' F' => A' = A ∧ F' = F) (fun _ _ h => h) ?_
      · rintro A' F' ⟨rfl, rfl⟩
        exact ⟨⟨h, hS.core.stNF⟩, hS⟩
      · rintro _ A' F' ⟨p1, p2⟩
        exact ⟨p1, i, st, by omega, p2⟩
  · dsimp only
    rw [if_pos (by rfl), if_pos (by rfl)]
    refine Sim.readA fun A1 => Sim.readC fun F1 => Sim.ofEq ?_
    rintro A2 F2 ⟨rfl, rfl, ⟨h2, nf2⟩, j, st', hj, hS'⟩
    obtain ⟨r1, r2⟩ := (hdr_boot wp hX hY hx hy hS').2.2.2 hj
    have s1 := hsame .boot A2 F2 (by simp) h2
    have s2 := hsame .update A2 F2 (by simp) h2
    have hph : (pre k).h = k.h := rfl
    have e1 : fwSize (pre k) (A2 .boot) = fwSize k (F2 .boot) := by unfold SameFw at s1; omega
    have e2 : fwSize (pre k) (A2 .update) = fwSize k (F2 .update) := by unfold SameFw at s2; omega
    rw [← e1, ← e2]
    refine (simLoop w n3 (total := totalSize (pre k) _ _) ?_ _ _ 1 (by omega) (by omega)).pre ?_
    · rw [totalSize_eq]; omega
    · rintro A F ⟨rfl, rfl⟩
      exact ⟨h2, nf2⟩

/-- `wolfBoot_update` in the middle of a swap. -/
theorem simUpdate {e : Env} {fb : Bool} {V : Prop × Prop} {X Y : Mem} {x y : Nat} (hX : ImgOK (pre k) X) (hY : ImgOK (pre k) Y) (hx : x = imgLen (pre k) X)
    (hy : y = imgLen (pre k) Y) {A F : Flash} (h : RelT k A F) (hI : InSwap (pre k) V X x Y y A)
    (hga : (Verif.getFlag (pre k) A 0).getD FL_NEW = FL_NEW → Verif.acceptable (pre k) e (A .update) ∧ (fb = true ∨ e.ver (A .boot) < e.ver (A .update)))
    (hgc : (Verif.getFlag (pre k) A 0).getD FL_NEW = FL_NEW → acceptable k e (F .update) ∧ (fb = true ∨ e.ver (F .boot) < e.ver (F .update))) :
    Sim (TT (pre k)) (TornOK k) (Rel k) true true (fun A' F' => A' = A ∧ F' = F) (Verif.wbUpdate (pre k) e fb) (wbUpdate k e fb) true
      (fun _ => RelT k) := by
  obtain ⟨g1, g2, g3, g4, g5, g6, g7, g8, g9⟩ := geo w n3
  have wp := pre_wf w n3
  have hn : (pre k).n = k.n - 1 := rfl
  have hph : (pre k).h = k.h := rfl
  have hss := w.ss_pos
  have hh := w.h_le
  have h8 := w.h8
  have hsame : ∀ p, p ≠ Part.swap → SameFw k (fwSize (pre k) (A p)) (fwSize k (F p)) := by
    intro p hp
    exact same_fw w n3 fun o ho => h.rel.data _ _ hp (by omega)
  have s1 := hsame .boot (by simp)
  have s2 := hsame .update (by simp)
  have htot : k.h < totalSize (pre k) (fwSize (pre k) (A .boot)) (fwSize (pre k) (A .update)) := by
    rw [totalSize_eq]
    obtain ⟨i, st, hS⟩ := hI
    obtain ⟨q1, q2, q3, q4⟩ := hdr_boot wp hX hY hx hy hS
    have hpx : k.h < x := by rw [hx]; have := hX.pos; unfold imgLen; omega
    have hpy : k.h < y := by rw [hy]; have := hY.pos; unfold imgLen; omega
    by_cases hk : i = 0
    · by_cases hs : st = .backup
      · rw [q3 hk hs]; omega
      · rw [q1 hk hs]; omega
    · rw [(q4 (by omega)).1]; omega
  have htot' : k.h < totalSize k (fwSize k (F .boot)) (fwSize k (F .update)) := by
    rw [totalSize_eq] at htot ⊢
    unfold SameFw at s1 s2
    omega
  have hfl := h.rel.flag w n3 (j := 0) (by omega)
  unfold Verif.wbUpdate wbUpdate
  refine Sim.readA fun A1 => Sim.readC fun F1 => Sim.ofEq ?_
  rintro A2 F2 ⟨rfl, rfl, rfl, rfl⟩
  dsimp only
  rw [if_neg (show ¬ totalSize (pre k) (fwSize (pre k) (A2 .boot)) (fwSize (pre k) (A2 .update)) ≤ (pre k).h by omega),
    if_neg (show ¬ totalSize k (fwSize k (F2 .boot)) (fwSize k (F2 .update)) ≤ k.h by omega)]
  refine Sim.obs (fun F => flagOf k F 0) ?_ fun F2 => Sim.readC fun F3 => Sim.ofEq ?_
  · rintro A' F' b t ⟨rfl, rfl⟩
    exact getFlag_tidy h.update 0
  rintro A' F' ⟨rfl, rfl, rfl, rfl⟩
  rw [← hfl, if_neg (fun g => g.2 (hga g.1).1), if_neg (fun g => g.2 (hga g.1).2), if_neg (fun g => g.2 (hgc g.1).1), if_neg (fun g => g.2 (hgc g.1).2)]
  refine Sim.bind (Q := fun _ A F => A = A' ∧ F = F') Sim.unlock fun _ => ?_
  refine Sim.bind (simLoop0 w n3 hX hY hx hy h hI (by omega) (by omega)) fun r => ?_
  refine Sim.bind (simRest w n3 _ _ r (by omega)) fun _ => ?_
  refine Sim.bind (Q := fun _ A F => RelT k A F ∧ NF k A) Sim.lock fun _ => ?_
  refine Sim.bindLate ((simFinal w n3).pre fun _ _ h => h.1) (fun A F a A' _ _ => .inr ⟨rfl, true, Exec.pure true A' true⟩) fun _ => ?_
  exact Sim.pure (Q := fun _ => RelT k) true

/-! ### Images -/

/-- What is needed of an image that is installed. -/
theorem GoodImage.newOK {e : Env} {X : Mem} (h : GoodImage k e X) : Verif.NewOK (pre k) e X := by
  obtain ⟨g1, g2, g3, g4, g5, g6, g7, g8, g9⟩ := geo w n3
  have hf : k.h + le32 X 4 ≤ (pre k).last := by
    have := h.fits
    omega
  have hph : (pre k).h = k.h := rfl
  have hi : ImgOK (pre k) X := ⟨h.magic, h.nonempty, by unfold imgLen; omega⟩
  refine ⟨hi, ?_, h.type, ?_, h.digest, h.signature⟩
  · intro m hm
    exact h.loc m (fun o ho => hm o (Nat.zero_le _) (by unfold imgLen; omega))
  · rw [fwSize_of_open (hi.openOK (pre_wf w n3))]
    unfold Verif.maxUpdateSize
    have := w.h8
    omega

theorem GoodImage.acceptable {e : Env} {X m : Mem} (h : GoodImage k e X) (hm : ∀ o, o < k.h + le32 X 4 → m o = X o) : acceptable k e m := by
  obtain ⟨g1, g2, g3, g4, g5, g6, g7, g8, g9⟩ := geo w n3
  have h8 := w.h8
  obtain ⟨l1, l2, l3, l4⟩ := h.loc m hm
  have e0 : le32 m 0 = MAGIC := (le32_congr fun o h1 h2 => hm o (by omega)).trans h.magic
  have e4 : le32 m 4 = le32 X 4 := le32_congr fun o h1 h2 => hm o (by omega)
  have := h.fits
  refine ⟨by rw [l1]; exact h.type, ?_, by rw [l3]; exact h.digest, by rw [l4]; exact h.signature⟩
  rw [fwSize_of_open ⟨e0, by omega⟩, e4]
  unfold maxUpdateSize
  omega

theorem GoodImage.bootable {e : Env} {X m : Mem} (h : GoodImage k e X) (hm : ∀ o, o < k.h + le32 X 4 → m o = X o) : bootable k e m := by
  obtain ⟨g1, g2, g3, g4, g5, g6, g7, g8, g9⟩ := geo w n3
  have h8 := w.h8
  obtain ⟨l1, l2, l3, l4⟩ := h.loc m hm
  have e0 : le32 m 0 = MAGIC := (le32_congr fun o h1 h2 => hm o (by omega)).trans h.magic
  have e4 : le32 m 4 = le32 X 4 := le32_congr fun o h1 h2 => hm o (by omega)
  have := h.fits
  exact ⟨⟨e0, by omega⟩, by rw [l3]; exact h.digest, by rw [l4]; exact h.signature⟩

/-- While the flag of the first sector is "new" the images are in place. -/
theorem flag_new {V : Prop × Prop} {X Y : Mem} {x y : Nat} (hxa : x ≤ (pre k).last) (hya : y ≤ (pre k).last) {A : Flash} (hI : InSwap (pre k) V X x Y y A)
    (hfl : (Verif.getFlag (pre k) A 0).getD FL_NEW = FL_NEW) : Agree (A .boot) X 0 x ∧ Agree (A .update) Y 0 y := by
  have wp := pre_wf w n3
  have hn2 := wp.n2
  obtain ⟨i, s, hS⟩ := hI
  have hk : i = 0 := by
    rcases Nat.eq_zero_or_pos i with h | h
    · exact h
    · exact absurd hfl (flag_done wp h (by omega) hS).1
  subst hk
  rw [flag_of_swapI wp (by omega) hS] at hfl
  have hs : s = .new := by
    cases s with
    | new => rfl
    | swapping => exact absurd hfl (by decide)
    | backup => exact absurd hfl (by decide)
    | done => exact absurd rfl hS.ndone
  subst hs
  have hss := wp.ss_pos
  have key : ∀ Z z p, p ≠ Part.swap → z ≤ (pre k).last → (∀ j, j < (pre k).n - 1 → SecAt (pre k) A p Z z j) → Agree (A p) Z 0 z := by
    intro Z z p hp hz h o _ ho
    have e1 := (Nat.div_add_mod' o (pre k).ss)
    have := h (o / (pre k).ss) (lt_last_sec wp (T := z) hz (by
      have := Nat.div_mul_le_self o (pre k).ss
      omega)) (o % (pre k).ss) (Nat.mod_lt _ (by omega)) (by omega)
    unfold secOff at this
    rw [if_neg hp, e1] at this
    exact this
  have hall : ∀ j, j < (pre k).n - 1 → CurData (pre k) X x Y y A j .new := by
    intro j hj
    rcases Nat.eq_zero_or_pos j with h | h
    · subst h; exact (hS.cur hj).1
    · exact (hS.core.fresh j h hj).1
  exact ⟨key _ _ _ (by simp) hxa (fun j hj => (hall j hj).1), key _ _ _ (by simp) hya (fun j hj => (hall j hj).2)⟩

/-! ### `wolfBoot_start` -/

theorem simStartUpdate {e : Env} {V : Prop × Prop} {X Y : Mem} (hX : GoodImage k e X) (hY : GoodImage k e Y) (hj : V.1 → e.junk ≠ ST_FINAL)
    (hV : V.2 → e.ver X < e.ver Y) {A F : Flash} (h : RelT k A F) (hM : Mid (pre k) V X Y A)
    (hg : V.1 ∨ V.2 := by first | assumption | exact Or.inl trivial | exact Or.inr (by assumption)) :
    Sim (TT (pre k)) (TornOK k) (Rel k) true true (fun A' F' => A' = A ∧ F' = F) (Verif.startUpdate (pre k) e)
      (startUpdate k e (stateOf k F .boot) (stateOf k F .update)) true (fun _ A' F' => RelT k A' F' ∧ DoneI (pre k) X (imgLen (pre k) X) Y (imgLen (pre k) Y) A') := by
  obtain ⟨g1, g2, g3, g4, g5, g6, g7, g8, g9⟩ := geo w n3
  have wp := pre_wf w n3
  have nX := hX.newOK w n3
  have nY := hY.newOK w n3
  have fX := nX.img.fits
  have fY := nY.img.fits
  have hph : (pre k).h = k.h := rfl
  have hT := torn_ex w n3
  have hV' : ∀ m, V.2 → Agree m X 0 (imgLen (pre k) X) → e.ver m < e.ver Y := by
    intro m v hm
    rw [(nX.loc m hm).2.1]
    exact hV v
  have keep : ∀ {Z m m' : Mem} , Agree m Z 0 (imgLen (pre k) Z) → (∀ x, x < (pre k).last → m x = m' x) → imgLen (pre k) Z ≤ (pre k).last →
      ∀ o, o < k.h + le32 Z 4 → m' o = Z o := by
    intro Z m m' h1 h2 h3 o ho
    have hl : o < imgLen (pre k) Z := by unfold imgLen; omega
    rw [← h2 o (by omega)]
    exact h1 o (Nat.zero_le _) hl
  rcases hM with hI | hF
  · -- in the middle of a swap
    have tri := startUpdate_inSwap wp (e := e) hj nX.img nY rfl rfl hV' hI
    refine (Sim.triple (s := true) (P := fun A' F' => A' = A ∧ F' = F) (Q := fun _ => RelT k) ?_ tri hT ?_).conseq (fun _ _ h => h) (fun _ _ _ h => h)
    · have hS := hI
      obtain ⟨i, st, hS⟩ := hS
      have hj' : hasMagic (pre k) A .update ∨ e.junk ≠ ST_FINAL := by
        rcases hS.core.go with q | q | q
        · exact .inr (hj q.1)
        · exact .inl q.1
        · exact absurd hg q
      have img : (Verif.getFlag (pre k) A 0).getD FL_NEW = FL_NEW → (∀ o, o < k.h + le32 X 4 → A .boot o = X o) ∧ (∀ o, o < k.h + le32 Y 4 → A .update o = Y o) ∧
          (∀ o, o < k.h + le32 X 4 → F .boot o = X o) ∧ (∀ o, o < k.h + le32 Y 4 → F .update o = Y o) := by
        intro hfl
        obtain ⟨q1, q2⟩ := flag_new w n3 fX fY hI hfl
        exact ⟨keep q1 (fun _ _ => rfl) fX, keep q2 (fun _ _ => rfl) fY, keep q1 (fun x hx => h.rel.data _ _ (by simp) hx) fX,
          keep q2 (fun x hx => h.rel.data _ _ (by simp) hx) fY⟩
      have agr : ∀ {Z m : Mem}, (∀ o, o < k.h + le32 Z 4 → m o = Z o) → Agree m Z 0 (imgLen (pre k) Z) := by
        intro Z m q o _ ho
        exact q o (by unfold imgLen at ho; omega)
      have acc : ∀ fb, (fb = true ∨ e.ver X < e.ver Y) → (Verif.getFlag (pre k) A 0).getD FL_NEW = FL_NEW →
          (Verif.acceptable (pre k) e (A .update) ∧ (fb = true ∨ e.ver (A .boot) < e.ver (A .update))) ∧
          (acceptable k e (F .update) ∧ (fb = true ∨ e.ver (F .boot) < e.ver (F .update))) := by
        intro fb hfb hfl
        obtain ⟨q1, q2, q3, q4⟩ := img hfl
        refine ⟨⟨(acceptable_congr wp nY.loc (agr q2)).2 nY.acc, ?_⟩, hY.acceptable w n3 q4, ?_⟩
        · rw [(hX.loc _ q1).2.1, (hY.loc _ q2).2.1]; exact hfb
        · rw [(hX.loc _ q3).2.1, (hY.loc _ q4).2.1]; exact hfb
      unfold Verif.startUpdate startUpdate
      refine Sim.readA fun A1 => ?_
      refine Sim.ofEq ?_
      rintro A' F' ⟨rfl, rfl, rfl⟩
      refine Sim.bind (simFinal_none w n3 h hS.core.ntB (state_ne_final wp hj' hS.core.stNF)) fun r => ?_
      refine Sim.ofEq ?_
      rintro A1 F1 ⟨rfl, rfl, rfl⟩
      refine Sim.ite Iff.rfl (fun g => absurd g (by simp)) fun _ => ?_
      rw [h.rel.state w n3 (p := .boot) (by simp), h.rel.state w n3 (p := .update) (by simp)]
      have fin : ∀ {ma mc : M Bool}, Sim (TT (pre k)) (TornOK k) (Rel k) true true (fun A' F' => A' = A1 ∧ F' = F1) ma mc true (fun _ => RelT k) →
          Sim (TT (pre k)) (TornOK k) (Rel k) true true (fun A' F' => A' = A1 ∧ F' = F1) (ma >>= fun _ => pure ()) (mc >>= fun _ => pure ()) true (fun _ => RelT k) := by
        intro ma mc hm
        exact Sim.bindLate hm (fun A F a A' _ _ => .inr ⟨rfl, (), Exec.pure () A' true⟩) fun _ => Sim.pure (Q := fun _ => RelT k) ()
      refine Sim.ite Iff.rfl (fun hT => ?_) (fun hT => ?_)
      · exact fin (simUpdate w n3 nX.img nY.img rfl rfl h hI (fun q => (acc true (.inl rfl) q).1) fun q => (acc true (.inl rfl) q).2)
      · refine Sim.ite Iff.rfl (fun hU => ?_) (fun hU => ?_)
        · rcases hS.core.go with ⟨_, h1, h2⟩ | ⟨h1, h2, h3⟩ | q
          · exfalso; apply hT
            rw [← h.rel.state w n3 (by simp)]
            unfold Verif.getState; rw [if_pos h1, h2]
          · exact fin (simUpdate w n3 nX.img nY.img rfl rfl h hI (fun q => (acc false (.inr (hV h3)) q).1) fun q => (acc false (.inr (hV h3)) q).2)
          · exact absurd hg q
        · refine (Sim.pure (Q := fun _ => RelT k) ()).pre ?_
          rintro A' F' ⟨rfl, rfl⟩
          exact h
    · rintro A' F' ⟨rfl, rfl⟩
      exact ⟨⟨rfl, rfl⟩, rfl⟩
  · -- the end of a swap
    have tf := swapFinal_resume (V := V) wp e nY.img rfl fX (A := X) (a := imgLen (pre k) X) (B := Y) (b := imgLen (pre k) Y)
    unfold Verif.startUpdate startUpdate
    refine Sim.readA fun A1 => ?_
    refine Sim.bindLate (((simFinal w n3).triple tf hT (P' := fun A' F' => A' = A1 ∧ A' = A ∧ F' = F) ?_)) ?_ fun r => ?_
    · rintro A' F' ⟨-, rfl, rfl⟩
      exact ⟨h, hF⟩
    · rintro A' F' a A'' ⟨-, rfl, rfl⟩ he
      obtain ⟨rfl, -⟩ := he.post tf hT hF
      exact .inr ⟨rfl, (), Exec.pure () A'' true⟩
    · refine Sim.ofEq ?_
      rintro A' F' ⟨q1, rfl, q2⟩
      rw [if_pos rfl, if_pos rfl]
      refine (Sim.pure (Q := fun _ A' F' => RelT k A' F' ∧ DoneI (pre k) X (imgLen (pre k) X) Y (imgLen (pre k) Y) A') ()).pre ?_
      rintro A'' F'' ⟨rfl, rfl⟩
      exact ⟨q1, q2⟩

theorem triple_startUpdate {e : Env} {V : Prop × Prop} {X Y : Mem} (hX : GoodImage k e X) (hY : GoodImage k e Y) (hj : V.1 → e.junk ≠ ST_FINAL)
    (hV : V.2 → e.ver X < e.ver Y) {A : Flash} (hM : Mid (pre k) V X Y A)
    (hg : V.1 ∨ V.2 := by first | assumption | exact Or.inl trivial | exact Or.inr (by assumption)) :
    Triple (TT (pre k)) true (fun f => f = A) (Verif.startUpdate (pre k) e) true
      (fun _ f => DoneI (pre k) X (imgLen (pre k) X) Y (imgLen (pre k) Y) f) (ProgI (pre k) V X (imgLen (pre k) X) Y (imgLen (pre k) Y)) := by
  have wp := pre_wf w n3
  have nX := hX.newOK w n3
  have nY := hY.newOK w n3
  rcases hM with hI | hF
  · refine startUpdate_inSwap wp (e := e) hj nX.img nY rfl rfl ?_ hI
    intro m v hm
    rw [(nX.loc m hm).2.1]
    exact hV v
  · unfold Verif.startUpdate
    refine Triple.readFlash (fun f hf => ?_)
    subst hf
    refine Triple.bind (l' := true) ((swapFinal_resume wp e nY.img rfl nX.img.fits).pre (fun g hg => by rw [hg]; exact hF)) (fun r => ?_)
    refine Triple.ofEq (fun g ⟨hr, hg⟩ => ?_)
    subst hr
    rw [if_pos rfl]
    exact (Triple.pure (Q := fun _ f => DoneI (pre k) X (imgLen (pre k) X) Y (imgLen (pre k) Y) f) ()).pre (fun f h => by rw [h]; exact hg)

/-- From the end of the selection of the sectors on. -/
theorem simTail {e : Env} {V : Prop × Prop} {X Y : Mem} (hX : GoodImage k e X) (hY : GoodImage k e Y) (hj : V.1 → e.junk ≠ ST_FINAL)
    (hV : V.2 → e.ver X < e.ver Y) {A F : Flash} (h : RelT k A F) (hM : Mid (pre k) V X Y A)
    (hg : V.1 ∨ V.2 := by first | assumption | exact Or.inl trivial | exact Or.inr (by assumption)) :
    Sim (TT (pre k)) (TornOK k) (Rel k) false true (fun A' F' => A' = A ∧ F' = F) (Verif.start (pre k) e)
      (startTail k e (stateOf k F .boot) (stateOf k F .update)) true (fun _ => RelT k) := by
  have wp := pre_wf w n3
  have nX := hX.newOK w n3
  have nY := hY.newOK w n3
  have hT := torn_ex w n3
  have tri := triple_startUpdate w n3 hX hY hj hV hM
  unfold Verif.start startTail
  refine Sim.bindLate (simStartUpdate w n3 hX hY hj hV h hM) ?_ fun _ => ?_
  · rintro A' F' a A'' ⟨rfl, rfl⟩ he
    have hd := he.post tri hT rfl
    left
    refine ⟨_, tt_ff, ?_⟩
    rw [bind_ok (show readFlash ⟨A'', true, some 0, _⟩ = .ok A'' ⟨A'', true, some 0, _⟩ from rfl), if_pos (hd.bootable wp nY rfl)]
    rfl
  · refine Sim.readA fun A1 => Sim.readC fun F1 => Sim.ofEq ?_
    rintro A2 F2 ⟨rfl, rfl, h2, hd⟩
    have hb : bootable k e (F2 .boot) := by
      refine hY.bootable w n3 fun o ho => ?_
      have hl : o < imgLen (pre k) Y := by unfold imgLen; show _ < _ + k.h; omega
      have := nY.img.fits
      rw [← h2.rel.data .boot o (by simp) (by omega)]
      exact hd.boot o (Nat.zero_le _) hl
    rw [if_pos (hd.bootable wp nY rfl), if_pos hb]
    refine (Sim.tick (P := RelT k) (fun _ _ h => h.rel) hT).pre ?_
    rintro A F ⟨rfl, rfl⟩
    exact h2

/-! ### Selection of the sectors -/

/-- Changes in the sector that is not selected. -/
theorem Rel.other {A F F' : Flash} (h : Rel k A F) {p : Part} (hp : p ≠ .swap) (hF : ∀ q, q ≠ p → F' q = F q)
    (ho : ∀ x, ¬ (nv k).inSec (!(nv k).select (F p)) x → F' p x = F p x) (hm : ¬ (nv k).magic (F' p) (!(nv k).select (F p)))
    (hu : p = .update → F' p = F p ∨ (nv k).Clear (F' p) (!(nv k).select (F p))) : Rel k A F' ∧ (nv k).select (F' p) = (nv k).select (F p) := by
  have wn := nv_wf w n3
  have hin : ∀ x, (nv k).inSec ((nv k).select (F p)) x → F' p x = F p x := fun x hx => ho x (NvCfg.apart wn hx)
  have hmg : (nv k).magic (F' p) ((nv k).select (F p)) ↔ (nv k).magic (F p) ((nv k).select (F p)) := NvCfg.magic_congr wn fun x hx _ => hin x hx
  have hsel : (nv k).select (F' p) = (nv k).select (F p) := by
    rcases magic_sel w n3 (m := F p) with g | ⟨g, g'⟩
    · exact NvCfg.select_one (hmg.2 g) hm
    · rw [g']
      refine NvCfg.sel_none wn fun b => ?_
      cases b with
      | false => rw [g'] at hmg; exact fun q => g false (hmg.1 q)
      | true => rw [g'] at hm; exact hm
  refine ⟨h.flags w n3 hp (fun _ _ _ => rfl) hF (fun x hx => ho x (hx _)) ?_ ?_ ?_, hsel⟩
  · intro i hi
    rw [hsel, h.view p i hp hi]
    exact (hin _ ⟨by omega, by show _ < _ + k.ss; omega⟩).symm
  · rintro rfl hn b
    have hall : ∀ b, ¬ (nv k).magic (F .update) b := by
      rcases magic_sel w n3 (m := F .update) with g | ⟨g, g'⟩
      · exact absurd (hmg.2 g) (hn _)
      · exact g
    have hcl := h.blank hall
    rcases hu rfl with e | e
    · rw [e]; exact hcl b
    · rcases NvCfg.bool_cases b ((nv k).select (F .update)) with eb | eb
      · intro i hi
        rw [eb, hin _ ⟨by omega, by omega⟩, ← eb]
        exact hcl b i hi
      · rw [eb]; exact e
  · rintro rfl hm' hst
    rw [hsel] at hm' ⊢
    rcases hu rfl with e | e
    · rw [e]; exact h.fin (hmg.1 hm') hst
    · exact .inr e

theorem choose_rel {A F : Flash} (h : Rel k A F) {p : Part} (hp : p ≠ .swap) {b : Option Nat} {t : Mem} (ht : TornOK k t) :
    match choose k p ⟨F, false, b, t⟩ with
    | .ok _ w' => w'.locked = false ∧ w'.torn = t ∧ (b = none → w'.budget = none) ∧ Rel k A w'.fl ∧ (nv k).Tidy (w'.fl p) ∧ ∀ q, q ≠ p → w'.fl q = F q
    | .crash F' => b ≠ none ∧ Rel k A F'
    | _ => False := by
  have wn := nv_wf w n3
  have hrun := run_ops w n3 ht p ((nv k).selOps false (F p)) F b
  unfold choose
  rw [bind_ok (show readFlash ⟨F, false, b, t⟩ = .ok F ⟨F, false, b, t⟩ from rfl)]
  by_cases hd : (nv k).Tidy (F p)
  · rw [NvCfg.tidy_sel hd]
    exact ⟨rfl, rfl, id, h, hd, fun _ _ => rfl⟩
  · have hops : (nv k).selOps false (F p) = [.erase (!(nv k).select (F p))] := by
      unfold NvCfg.selOps
      rw [if_neg (by simp)]
      exact if_pos hd
    rw [hops] at hrun ⊢
    cases hr : flagOps k p [.erase (!(nv k).select (F p))] ⟨F, false, b, t⟩ with
    | ok a w' =>
      rw [hr] at hrun
      obtain ⟨r1, r2, r3, r4, r5⟩ := hrun
      have e : (nv k).apply (F p) (.erase (!(nv k).select (F p))) = w'.fl p := Option.some.inj r4
      have hcl : (nv k).Clear (w'.fl p) (!(nv k).select (F p)) := by
        rw [← e]
        exact fun i hi => NvCfg.erase_in ⟨by omega, by omega⟩
      obtain ⟨q1, q2⟩ := h.other w n3 hp r5 (fun x hx => by rw [← e]; exact NvCfg.erase_out hx) (NvCfg.clear_magic wn hcl) (fun _ => .inr hcl)
      refine ⟨r1, r2, r3, q1, ?_, r5⟩
      unfold NvCfg.Tidy
      rw [q2]
      exact NvCfg.clear_word wn hcl
    | crash F' =>
      rw [hr] at hrun
      obtain ⟨r1, r2, r3, r4⟩ := hrun
      refine ⟨r1, ?_⟩
      have hend : F' p = F p → Rel k A F' := by
        intro e
        have : F' = F := by
          funext q
          by_cases hq : q = p
          · rw [hq, e]
          · exact r4 q hq
        rw [this]
        exact h
      have hfull : F' p = (nv k).apply (F p) (.erase (!(nv k).select (F p))) → Rel k A F' := by
        intro e
        have hcl : (nv k).Clear (F' p) (!(nv k).select (F p)) := by
          rw [e]
          exact fun i hi => NvCfg.erase_in ⟨by omega, by omega⟩
        exact (h.other w n3 hp r4 (fun x hx => by rw [e]; exact NvCfg.erase_out hx) (NvCfg.clear_magic wn hcl) (fun _ => .inr hcl)).1
      by_cases hpu : p = .update
      · have := r3 hpu
        generalize F' p = m' at this hend hfull
        cases this with
        | here => exact hend rfl
        | erase hc =>
          cases hc with
          | here => exact hfull rfl
      · have hr2 := r2
        generalize hm' : F' p = m' at hr2
        cases hr2 with
        | here => exact hend hm'
        | torn q =>
          obtain ⟨q1, q2⟩ := NvCfg.torn_erase_out q
          exact (h.other w n3 hp r4 (fun x hx => by rw [hm']; exact q2 x hx) (by rw [hm']; exact q1) (fun e => absurd e hpu)).1
        | erase hc =>
          cases hc with
          | here => exact hfull hm'
    | panic f => rw [hr] at hrun; exact hrun
    | stuck f => rw [hr] at hrun; exact hrun
    | fault f => rw [hr] at hrun; exact absurd hrun (by simp [NvCfg.exec])

theorem getState_rel {A F : Flash} (h : Rel k A F) {p : Part} (hp : p ≠ .swap) {b : Option Nat} {t : Mem} (ht : TornOK k t) :
    match getState k p ⟨F, false, b, t⟩ with
    | .ok r w' => w'.locked = false ∧ w'.torn = t ∧ (b = none → w'.budget = none) ∧ r = stateOf k w'.fl p ∧ Rel k A w'.fl ∧ (nv k).Tidy (w'.fl p) ∧
        ∀ q, q ≠ p → w'.fl q = F q
    | .crash F' => b ≠ none ∧ Rel k A F'
    | _ => False := by
  have hc := choose_rel w n3 h hp (b := b) ht
  have assoc : getState k p ⟨F, false, b, t⟩ = M.bind (choose k p) (fun _ => M.bind (readFlash >>= fun f => pure (decide ((nv k).magic (f p) ((nv k).select (f p)))))
      (fun m => if m = true then (do let st ← getCell k p 1; pure (some st)) else pure none)) ⟨F, false, b, t⟩ := by
    unfold getState getMagic
    show M.bind (M.bind _ _) _ _ = _
    unfold M.bind
    cases choose k p ⟨F, false, b, t⟩ <;> rfl
  rw [assoc]
  unfold M.bind
  cases hr : choose k p ⟨F, false, b, t⟩ with
  | ok a w' =>
    rw [hr] at hc
    obtain ⟨r1, r2, r3, r4, r5, r6⟩ := hc
    obtain ⟨F', l', b', t'⟩ := w'
    dsimp only at r1 r2 r3 r4 r5 r6 ⊢
    subst r1 r2
    have key := getState_tidy (k := k) (l := false) (b := b') (t := t') r5
    unfold getState at key
    rw [bind_ok (getMagic_tidy r5)] at key
    rw [bind_ok (show readFlash ⟨F', false, b', t'⟩ = .ok F' ⟨F', false, b', t'⟩ from rfl)]
    dsimp only [pure, M.pure] at key ⊢
    rw [key]
    exact ⟨rfl, rfl, r3, rfl, r4, r5, r6⟩
  | crash F' => rw [hr] at hc; exact hc
  | panic f => rw [hr] at hc; exact hc
  | stuck f => rw [hr] at hc; exact hc
  | fault f => rw [hr] at hc; exact hc

theorem GoodImage.pre {e : Env} {X : Mem} (h : GoodImage k e X) : Verif.GoodImage (pre k) e X := by
  obtain ⟨g1, g2, g3, g4, g5, g6, g7, g8, g9⟩ := geo w n3
  refine ⟨h.magic, h.nonempty, ?_, h.type, h.digest, h.signature, h.loc⟩
  have := h.fits
  unfold imageBytes
  show k.h + _ ≤ _
  omega

/-- A reboot in the middle of an installation. -/
theorem start_rel {e : Env} {V : Prop × Prop} {X Y : Mem} (hX : GoodImage k e X) (hY : GoodImage k e Y) (hj : V.1 → e.junk ≠ ST_FINAL)
    (hV : V.2 → e.ver X < e.ver Y) {A F : Flash} (h : Rel k A F) (hM : Mid (Nvu.pre k) V X Y A) {b : Option Nat} {t : Mem} (ht : TornOK k t)
    (hg : V.1 ∨ V.2 := by first | assumption | exact Or.inl trivial | exact Or.inr (by assumption)) :
    match start k e ⟨F, true, b, t⟩ with
    | .ok _ w' => w'.locked = true ∧ ∃ A', Rel k A' w'.fl ∧ Verif.Updated (Nvu.pre k) Y X A'
    | .crash F' => b ≠ none ∧ ∃ A', Rel k A' F' ∧ (Mid (Nvu.pre k) V X Y A' ∨ Verif.Updated (Nvu.pre k) Y X A')
    | _ => False := by
  have wp := pre_wf w n3
  have nX := hX.newOK w n3
  have nY := hY.newOK w n3
  have tri := start_mid (e := e) wp nX.img nY hj (fun m v hm => by rw [(nX.loc m hm).2.1]; exact hV v) hM
  have hT := torn_ex w n3
  unfold start
  rw [bind_ok (show unlock ⟨F, true, b, t⟩ = .ok () ⟨F, false, b, t⟩ from rfl)]
  have hb := getState_rel w n3 h (p := .boot) (by simp) (b := b) ht
  cases hr : getState k .boot ⟨F, false, b, t⟩ with
  | ok r w' =>
    rw [bind_ok hr]
    rw [hr] at hb
    obtain ⟨F1, l1, b1, t1⟩ := w'
    obtain ⟨q1, q2, q3, q4, q5, q6, q7⟩ := hb
    dsimp only at q1 q2 q3 q4 q5 q6 q7
    subst q1 q2
    have hu := getState_rel w n3 q5 (p := .update) (by simp) (b := b1) ht
    cases hr2 : getState k .update ⟨F1, false, b1, t1⟩ with
    | ok r2 w2 =>
      rw [bind_ok hr2]
      rw [hr2] at hu
      obtain ⟨F2, l2, b2, t2⟩ := w2
      obtain ⟨p1, p2, p3, p4, p5, p6, p7⟩ := hu
      dsimp only at p1 p2 p3 p4 p5 p6 p7
      subst p1 p2
      rw [bind_ok (show lock ⟨F2, false, b2, t2⟩ = .ok () ⟨F2, true, b2, t2⟩ from rfl)]
      have hrt : RelT k A F2 := ⟨p5, by rw [p7 _ (by simp)]; exact q6, p6⟩
      have es : stateOf k F1 .boot = stateOf k F2 .boot := by
        unfold stateOf
        rw [p7 .boot (by simp)]
      rw [q4, p4, es]
      rcases simTail w n3 hX hY hj hV hrt hM hg A F2 b2 t2 ht ⟨rfl, rfl⟩ with s | s
      · exact (s.no tri hT rfl).elim
      · cases hs : startTail k e (stateOf k F2 .boot) (stateOf k F2 .update) ⟨F2, true, b2, t2⟩ with
        | ok a w3 =>
          rw [hs] at s
          obtain ⟨s1, s2, s3, A', s4, s5⟩ := s
          exact ⟨s1, A', s5.rel, s4.post tri hT rfl⟩
        | crash F3 =>
          rw [hs] at s
          obtain ⟨s1, A', s2, s3 | s3⟩ := s
          · obtain ⟨b', t', s4, s5⟩ := s3
            refine ⟨fun g => s1 (p3 (q3 g)), A', s2, ?_⟩
            have := tri ⟨A, true, some b', t'⟩ s4 rfl rfl
            rw [s5] at this
            exact this.2
          · exact absurd s3.1 (by simp)
        | panic f => rw [hs] at s; exact s
        | stuck f => rw [hs] at s; exact s
        | fault f => rw [hs] at s; exact s
    | crash F' =>
      rw [bind_crash hr2]
      rw [hr2] at hu
      exact ⟨fun g => hu.1 (q3 g), A, hu.2, .inl hM⟩
    | panic f => rw [hr2] at hu; exact hu.elim
    | stuck f => rw [hr2] at hu; exact hu.elim
    | fault f => rw [hr2] at hu; exact hu.elim
  | crash F' =>
    rw [bind_crash hr]
    rw [hr] at hb
    exact ⟨hb.1, A, hb.2, .inl hM⟩
  | panic f => rw [hr] at hb; exact hb.elim
  | stuck f => rw [hr] at hb; exact hb.elim
  | fault f => rw [hr] at hb; exact hb.elim

/-! ### The specification -/

/-- The flash with one sector of flags. -/
def abs (k : Cfg) (F : Flash) : Flash := fun p x =>
  if p = .swap ∨ x < (Nvu.pre k).last then F p x else F p ((nv k).base ((nv k).select (F p)) + (x - (Nvu.pre k).last))

theorem rel_abs {F : Flash} (hb : (∀ b, ¬ (nv k).magic (F .update) b) → ∀ b, (nv k).Clear (F .update) b) (hf : stateOf k F .update ≠ some ST_FINAL) :
    Rel k (abs k F) F := by
  have hss := w.ss_pos
  have hv : ∀ p i, p ≠ Part.swap → i < k.ss → abs k F p ((Nvu.pre k).last + i) = F p ((nv k).base ((nv k).select (F p)) + i) := by
    intro p i hp hi
    unfold abs
    rw [if_neg (fun g => g.elim hp (fun g => by omega)), Nat.add_sub_cancel_left]
  refine ⟨fun p x hp hx => if_pos (.inr hx), fun x => if_pos (.inl rfl), hv, hb, ?_⟩
  intro hm hst
  exfalso
  apply hf
  obtain ⟨g1, g2, g3, g4, g5, g6, g7, g8, g9⟩ := geo w n3
  unfold stateOf
  rw [if_pos hm, ← hst]
  unfold trailerAt NvCfg.get
  rw [show (Nvu.pre k).part - (4 + 1) = (Nvu.pre k).last + (k.ss - (4 + 1)) by omega, hv _ _ (by simp) (by omega), g9, Nat.add_sub_assoc (by omega)]

theorem Pending.abs {Old New : Mem} {F : Flash} {e : Env} (hO : GoodImage k e Old) (hN : GoodImage k e New) (h : Pending k Old New F) :
    Rel k (abs k F) F ∧ Verif.Pending (Nvu.pre k) Old New (abs k F) := by
  obtain ⟨g1, g2, g3, g4, g5, g6, g7, g8, g9⟩ := geo w n3
  have hss := w.ss_pos
  have hn : (Nvu.pre k).n = k.n - 1 := rfl
  have hm : (nv k).magic (F .update) ((nv k).select (F .update)) := by
    have := h.state
    unfold stateOf at this
    exact Decidable.byContradiction fun g => by rw [if_neg g] at this; cases this
  have hr : Rel k (Nvu.abs k F) F := by
    refine rel_abs w n3 (fun g => absurd hm (g _)) ?_
    rw [h.state]
    decide
  have hq := h.quiet
  unfold Quiet at hq
  rw [show k.part - 3 * k.ss = (Nvu.pre k).tmp by omega] at hq
  refine ⟨hr, ⟨?_, ?_, ?_, ?_, ?_⟩⟩
  · intro o ho
    have := hO.fits
    unfold imageBytes at ho
    have hph : (Nvu.pre k).h = k.h := rfl
    rw [hr.data _ _ (by simp) (by omega)]
    exact h.old o ho
  · intro o ho
    have := hN.fits
    unfold imageBytes at ho
    have hph : (Nvu.pre k).h = k.h := rfl
    rw [hr.data _ _ (by simp) (by omega)]
    exact h.new o ho
  · rw [hr.state w n3 (by simp)]
    exact h.state
  · intro j hj
    rw [hr.flag w n3 (by omega)]
    exact h.flags j (by omega)
  · refine ⟨?_, ?_⟩
    · rw [le32_congr (x := F .boot) fun o h1 h2 => hr.data _ _ (by simp) (by omega)]
      exact hq.1
    · rw [le32_congr (x := F .update) fun o h1 h2 => hr.data _ _ (by simp) (by omega)]
      exact hq.2

theorem Updated.abs {Old New : Mem} {F : Flash} {e : Env} (hO : GoodImage k e Old) (hN : GoodImage k e New) (h : Updated k New Old F) :
    Rel k (abs k F) F ∧ Verif.Updated (Nvu.pre k) New Old (abs k F) := by
  obtain ⟨g1, g2, g3, g4, g5, g6, g7, g8, g9⟩ := geo w n3
  have hss := w.ss_pos
  have hcl : ∀ b, (nv k).Clear (F .update) b := by
    intro b i hi
    have hi' : i < k.ss := hi
    refine h.erased _ ?_ ?_ <;> cases b <;> omega
  have hnm : ∀ b, ¬ (nv k).magic (F .update) b := fun b => NvCfg.clear_magic (nv_wf w n3) (hcl b)
  have hr : Rel k (Nvu.abs k F) F := by
    refine rel_abs w n3 (fun _ => hcl) ?_
    unfold stateOf
    rw [if_neg (hnm _)]
    simp
  have hq := h.quiet
  unfold Quiet at hq
  rw [show k.part - 3 * k.ss = (Nvu.pre k).tmp by omega] at hq
  refine ⟨hr, ⟨?_, ?_, ?_, ?_, ?_⟩⟩
  · intro o ho
    have := hN.fits
    unfold imageBytes at ho
    have hph : (Nvu.pre k).h = k.h := rfl
    rw [hr.data _ _ (by simp) (by omega)]
    exact h.new o ho
  · intro o ho
    have := hO.fits
    unfold imageBytes at ho
    have hph : (Nvu.pre k).h = k.h := rfl
    rw [hr.data _ _ (by simp) (by omega)]
    exact h.old o ho
  · rw [hr.state w n3 (by simp)]
    exact h.state
  · intro x h1 h2
    rw [show x = (Nvu.pre k).last + (x - (Nvu.pre k).last) by omega, hr.view _ _ (by simp) (by omega)]
    exact hcl _ _ (by show _ < k.ss; omega)
  · refine ⟨?_, ?_⟩
    · rw [le32_congr (x := F .boot) fun o h1 h2 => hr.data _ _ (by simp) (by omega)]
      exact hq.1
    · rw [le32_congr (x := F .update) fun o h1 h2 => hr.data _ _ (by simp) (by omega)]
      exact hq.2

theorem updated_fits {Old New : Mem} {A F : Flash} (hO : k.h + le32 Old 4 ≤ k.part - 2 * k.ss) (hN : k.h + le32 New 4 ≤ k.part - 2 * k.ss) (hr : Rel k A F)
    (h : Verif.Updated (Nvu.pre k) New Old A) : Updated k New Old F := by
  obtain ⟨g1, g2, g3, g4, g5, g6, g7, g8, g9⟩ := geo w n3
  have hss := w.ss_pos
  have hph : (Nvu.pre k).h = k.h := rfl
  have htb0 := trailer_bounds (pre_wf w n3) (k := 0) (by show 4 + 0 ≤ k.ss; omega)
  have hbl : ∀ x, (Nvu.pre k).last ≤ x → x < (Nvu.pre k).part → A .update x = 0xFF#8 := fun x h1 h2 => h.erased x (by omega) h2
  have hnA : ¬ hasMagic (Nvu.pre k) A .update := by
    unfold hasMagic le32
    rw [hbl _ (by omega) (by omega), hbl _ (by omega) (by omega), hbl _ (by omega) (by omega), hbl _ (by omega) (by omega)]
    decide
  have hcl : ∀ b, (nv k).Clear (F .update) b := by
    refine hr.blank ?_
    rcases magic_sel w n3 (m := F .update) with g | g
    · exact absurd ((hr.magic w n3 (by simp)).2 g) hnA
    · exact g.1
  have hq := h.quiet
  refine ⟨?_, ?_, ?_, ?_, ?_⟩
  · intro o ho
    have := hN
    rw [← hr.data _ _ (by simp) (by omega)]
    exact h.new o ho
  · intro o ho
    have := hO
    rw [← hr.data _ _ (by simp) (by omega)]
    exact h.old o ho
  · rw [← hr.state w n3 (by simp)]
    exact h.state
  · intro x h1 h2
    rcases Nat.lt_or_ge x ((Nvu.pre k).last + k.ss) with h3 | h3
    · have := hcl true (x - (Nvu.pre k).last) (by show _ < k.ss; omega)
      rw [g1, show (Nvu.pre k).last + (x - (Nvu.pre k).last) = x by omega] at this
      exact this
    · have := hcl false (x - ((Nvu.pre k).last + k.ss)) (by show _ < k.ss; omega)
      rw [g2, show (Nvu.pre k).last + k.ss + (x - ((Nvu.pre k).last + k.ss)) = x by omega] at this
      exact this
  · unfold Quiet
    rw [show k.part - 3 * k.ss = (Nvu.pre k).tmp by omega]
    refine ⟨?_, ?_⟩
    · rw [← le32_congr (m := A .boot) fun o h1 h2 => hr.data _ _ (by simp) (by omega)]
      exact hq.1
    · rw [← le32_congr (m := A .update) fun o h1 h2 => hr.data _ _ (by simp) (by omega)]
      exact hq.2

theorem updated_of {Old New : Mem} {A F : Flash} {e : Env} (hO : GoodImage k e Old) (hN : GoodImage k e New) (hr : Rel k A F)
    (h : Verif.Updated (Nvu.pre k) New Old A) : Updated k New Old F := updated_fits w n3 hO.fits hN.fits hr h

end

end Nvu

end Verif
