import Verif.Emergency
import Verif.NvmUpdateThms

/-!
# The emergency update on write-once flash: C71

`NVM_FLASH_WRITEONCE`; the model is `Verif.Nvu`.
-/

set_option linter.unusedSectionVars false

namespace Verif

namespace Nvu

/-! ### Specification -/

/-- The contents of BOOT start with a header, and the image it describes lies in front of the two sectors of the flags. Nothing is said about its digest or
signature. -/
structure Readable (k : Cfg) (e : Env) (X : Mem) : Prop where
  magic : le32 X 0 = MAGIC
  nonempty : 0 < le32 X 4
  fits : k.h + le32 X 4 ≤ k.part - 2 * k.ss
  version : ∀ m : Mem, (∀ o, o < k.h + le32 X 4 → m o = X o) → e.ver m = e.ver X

/-- Whatever follows the image, it does not verify. -/
def Broken (k : Cfg) (e : Env) (X : Mem) : Prop :=
  ∀ m : Mem, (∀ o, o < k.h + le32 X 4 → m o = X o) → e.integ m = false ∨ e.auth m = false

/-- `X` is in BOOT, `Y` is in UPDATE, both sectors of the flags of UPDATE are erased: nothing was requested. -/
structure Spare (k : Cfg) (X Y : Mem) (f : Flash) : Prop where
  boot : Has k f .boot X
  update : Has k f .update Y
  erased : ∀ x, k.part - 2 * k.ss ≤ x → x < k.part → f .update x = 0xFF#8
  quiet : Quiet k f

/-- The verdict on contents depends on the bytes of the image that its header describes. -/
def Local (k : Cfg) (e : Env) : Prop :=
  ∀ m m' : Mem, (∀ o, o < k.h + le32 m 4 → m' o = m o) → e.integ m' = e.integ m ∧ e.auth m' = e.auth m

/-- After a power failure no partly installed image verifies by accident, and the header in BOOT does not describe an image that reaches into the flags. -/
def NoAccident (k : Cfg) (e : Env) (X Y : Mem) (f : Flash) : Prop :=
  ¬ Updated k Y X f ∧ (bootable k e (f .boot) → Has k f .boot Y) ∧ (le32 (f .boot) 0 = MAGIC → k.h + le32 (f .boot) 4 ≤ k.part - 2 * k.ss)

/-! ### Proof -/

section
variable {k : Cfg} (w : k.WF) (n3 : 3 ≤ k.n)
include w n3

theorem Readable.imgOK {e : Env} {X : Mem} (h : Readable k e X) : ImgOK (pre k) X := by
  obtain ⟨g1, g2, g3, g4, g5, g6, g7, g8, g9⟩ := geo w n3
  have := h.fits
  have hph : (pre k).h = k.h := rfl
  exact ⟨h.magic, h.nonempty, by unfold imgLen; omega⟩

theorem Spare.abs {e : Env} {X Y : Mem} {F : Flash} (hX : Readable k e X) (hY : GoodImage k e Y) (h : Spare k X Y F) :
    Rel k (abs k F) F ∧ Emg.Spare (Nvu.pre k) X Y (abs k F) := by
  obtain ⟨g1, g2, g3, g4, g5, g6, g7, g8, g9⟩ := geo w n3
  have hss := w.ss_pos
  have hcl : ∀ b, (nv k).Clear (F .update) b := by
    intro b i hi
    have hi' : i < k.ss := hi
    refine h.erased _ ?_ ?_ <;> cases b <;> omega
  have hnm : ∀ b, ¬ (nv k).magic (F .update) b := fun b => NvCfg.clear_magic (nv_wf w n3) (hcl b)
  have hr : Rel k (Nvu.abs k F) F := by
    refine rel_abs w n3 (fun _ => hcl) ?_
    unfold stateOf
    rw [if_neg (hnm _)]
    simp
  have hq := h.quiet
  unfold Quiet at hq
  rw [show k.part - 3 * k.ss = (Nvu.pre k).tmp by omega] at hq
  have hph : (Nvu.pre k).h = k.h := rfl
  refine ⟨hr, ⟨?_, ?_, .inl ?_, ?_, ?_⟩⟩
  · intro o ho
    have := hX.fits
    unfold imageBytes at ho
    rw [hr.data _ _ (by simp) (by omega)]
    exact h.boot o ho
  · intro o ho
    have := hY.fits
    unfold imageBytes at ho
    rw [hr.data _ _ (by simp) (by omega)]
    exact h.update o ho
  · intro x h1 h2
    have hps : (Nvu.pre k).ss = k.ss := rfl
    have e1 := hr.view .update (x - (Nvu.pre k).last) (by simp) (by omega)
    rw [show (Nvu.pre k).last + (x - (Nvu.pre k).last) = x by omega] at e1
    rw [e1]
    exact hcl _ _ (by show _ < k.ss; omega)
  · rw [le32_congr (x := F .boot) fun o h1 h2 => hr.data _ _ (by simp) (by omega)]
    exact hq.1
  · rw [le32_congr (x := F .update) fun o h1 h2 => hr.data _ _ (by simp) (by omega)]
    exact hq.2

/-- `wolfBoot_update` refuses a version that is not newer. -/
theorem simRefuse {e : Env} {V : Prop × Prop} {X Y : Mem} {x y : Nat} (hX : ImgOK (pre k) X) (hY : ImgOK (pre k) Y) (hx : x = imgLen (pre k) X)
    (hy : y = imgLen (pre k) Y) {A F : Flash} (h : RelT k A F) (hI : InSwap (pre k) V X x Y y A)
    (hfa : (Verif.getFlag (pre k) A 0).getD FL_NEW = FL_NEW)
    (hga : Verif.acceptable (pre k) e (A .update) ∧ ¬ e.ver (A .boot) < e.ver (A .update))
    (hgc : acceptable k e (F .update) ∧ ¬ e.ver (F .boot) < e.ver (F .update)) {s : Bool} :
    Sim (TT (pre k)) (TornOK k) (Rel k) s true (fun A' F' => A' = A ∧ F' = F) (Verif.wbUpdate (pre k) e false) (wbUpdate k e false) true
      (fun _ A' F' => A' = A ∧ F' = F) := by
  obtain ⟨g1, g2, g3, g4, g5, g6, g7, g8, g9⟩ := geo w n3
  have wp := pre_wf w n3
  have hph : (pre k).h = k.h := rfl
  have hss := w.ss_pos
  have hh := w.h_le
  have h8 := w.h8
  have hsame : ∀ p, p ≠ Part.swap → SameFw k (fwSize (pre k) (A p)) (fwSize k (F p)) := by
    intro p hp
    exact same_fw w n3 fun o ho => h.rel.data _ _ hp (by omega)
  have s1 := hsame .boot (by simp)
  have s2 := hsame .update (by simp)
  have htot : k.h < totalSize (pre k) (fwSize (pre k) (A .boot)) (fwSize (pre k) (A .update)) := by
    rw [totalSize_eq]
    obtain ⟨i, st, hS⟩ := hI
    obtain ⟨q1, q2, q3, q4⟩ := hdr_boot wp hX hY hx hy hS
    have hpx : k.h < x := by rw [hx]; have := hX.pos; unfold imgLen; omega
    have hpy : k.h < y := by rw [hy]; have := hY.pos; unfold imgLen; omega
    by_cases hk : i = 0
    · by_cases hs : st = .backup
      · rw [q3 hk hs]; omega
      · rw [q1 hk hs]; omega
    · rw [(q4 (by omega)).1]; omega
  have htot' : k.h < totalSize k (fwSize k (F .boot)) (fwSize k (F .update)) := by
    rw [totalSize_eq] at htot ⊢
    unfold SameFw at s1 s2
    omega
  have hfl := h.rel.flag w n3 (j := 0) (by omega)
  unfold Verif.wbUpdate wbUpdate
  refine Sim.readA fun A1 => Sim.readC fun F1 => Sim.ofEq ?_
  rintro A2 F2 ⟨rfl, rfl, rfl, rfl⟩
  dsimp only
  rw [if_neg (show ¬ totalSize (pre k) (fwSize (pre k) (A2 .boot)) (fwSize (pre k) (A2 .update)) ≤ (pre k).h by omega),
    if_neg (show ¬ totalSize k (fwSize k (F2 .boot)) (fwSize k (F2 .update)) ≤ k.h by omega)]
  refine Sim.obs (fun F => flagOf k F 0) ?_ fun F2 => Sim.readC fun F3 => Sim.ofEq ?_
  · rintro A' F' b t ⟨rfl, rfl⟩
    exact getFlag_tidy h.update 0
  rintro A' F' ⟨rfl, rfl, rfl, rfl⟩
  rw [← hfl, if_neg (fun g => g.2 hga.1), if_pos ⟨hfa, by simpa using hga.2⟩, if_neg (fun g => g.2 hgc.1), if_pos ⟨hfa, by simpa using hgc.2⟩]
  exact (Sim.pure (Q := fun _ A1 F1 => A1 = A' ∧ F1 = F') false)

/-- From the end of the selection of the sectors on. -/
theorem simTailE {e : Env} {X Y : Mem} (hX : Readable k e X) (hY : GoodImage k e Y) (hj : e.junk ≠ ST_FINAL)
    {A F : Flash} (h : RelT k A F) (hM : Emg.MidE (pre k) X Y A) (hd : bootable (pre k) e (A .boot) ↔ bootable k e (F .boot)) :
    Sim (TT (pre k)) (TornOK k) (Rel k) false true (fun A' F' => A' = A ∧ F' = F) (Verif.start (pre k) e)
      (startTail k e (stateOf k F .boot) (stateOf k F .update)) true (fun _ => RelT k) := by
  obtain ⟨g1, g2, g3, g4, g5, g6, g7, g8, g9⟩ := geo w n3
  have wp := pre_wf w n3
  have iX := hX.imgOK w n3
  have nY := hY.newOK w n3
  have fX := iX.fits
  have fY := nY.img.fits
  have hph : (pre k).h = k.h := rfl
  have hT := torn_ex w n3
  have hC : ∀ A' F', RelT k A' F' → DoneI (pre k) X (imgLen (pre k) X) Y (imgLen (pre k) Y) A' → bootable k e (F' .boot) := by
    intro A' F' hr hdn
    refine hY.bootable w n3 fun o ho => ?_
    have hl : o < imgLen (pre k) Y := by unfold imgLen; omega
    rw [← hr.rel.data .boot o (by simp) (by omega)]
    exact hdn.boot o (Nat.zero_le _) hl
  have late : ∀ {A'' : Flash}, DoneI (pre k) X (imgLen (pre k) X) Y (imgLen (pre k) Y) A'' → ∀ m2 : M Unit,
      (readFlash >>= fun f => if bootable (pre k) e (f .boot) then tick else m2) ⟨A'', true, some 0, fun _ => 0xFF#8⟩ = .crash A'' := by
    intro A'' hdn m2
    rw [bind_ok (show readFlash ⟨A'', true, some 0, fun _ => 0xFF#8⟩ = .ok A'' ⟨A'', true, some 0, fun _ => 0xFF#8⟩ from rfl), if_pos (hdn.bootable wp nY rfl)]
    rfl
  have boot : ∀ (m2 m2' : M Unit), Sim (TT (pre k)) (TornOK k) (Rel k) false true
      (fun A' F' => RelT k A' F' ∧ DoneI (pre k) X (imgLen (pre k) X) Y (imgLen (pre k) Y) A')
      (readFlash >>= fun f => if bootable (pre k) e (f .boot) then tick else m2) (readFlash >>= fun f => if bootable k e (f .boot) then tick else m2')
      true (fun _ => RelT k) := by
    intro m2 m2'
    refine Sim.readA fun A1 => Sim.readC fun F1 => Sim.ofEq ?_
    rintro A2 F2 ⟨rfl, rfl, h2, hdn⟩
    rw [if_pos (hdn.bootable wp nY rfl), if_pos (hC _ _ h2 hdn)]
    refine (Sim.tick (P := RelT k) (fun _ _ h => h.rel) hT).pre ?_
    rintro A F ⟨rfl, rfl⟩
    exact h2
  rcases hM with hI | hF
  · have hS := hI
    obtain ⟨i, st, hS⟩ := hS
    have keep : ∀ {Z m m' : Mem} , Agree m Z 0 (imgLen (pre k) Z) → (∀ x, x < (pre k).last → m x = m' x) → imgLen (pre k) Z ≤ (pre k).last →
        ∀ o, o < k.h + le32 Z 4 → m' o = Z o := by
      intro Z m m' h1 h2 h3 o ho
      have hl : o < imgLen (pre k) Z := by unfold imgLen; omega
      rw [← h2 o (by omega)]
      exact h1 o (Nat.zero_le _) hl
    have img : (Verif.getFlag (pre k) A 0).getD FL_NEW = FL_NEW → (∀ o, o < k.h + le32 X 4 → A .boot o = X o) ∧ (∀ o, o < k.h + le32 Y 4 → A .update o = Y o) ∧
        (∀ o, o < k.h + le32 X 4 → F .boot o = X o) ∧ (∀ o, o < k.h + le32 Y 4 → F .update o = Y o) := by
      intro hfl
      obtain ⟨q1, q2⟩ := flag_new w n3 fX fY hI hfl
      exact ⟨keep q1 (fun _ _ => rfl) fX, keep q2 (fun _ _ => rfl) fY, keep q1 (fun x hx => h.rel.data _ _ (by simp) hx) fX,
        keep q2 (fun x hx => h.rel.data _ _ (by simp) hx) fY⟩
    have agr : ∀ {Z m : Mem}, (∀ o, o < k.h + le32 Z 4 → m o = Z o) → Agree m Z 0 (imgLen (pre k) Z) := by
      intro Z m q o _ ho
      exact q o (by unfold imgLen at ho; omega)
    have acc : (Verif.getFlag (pre k) A 0).getD FL_NEW = FL_NEW → Verif.acceptable (pre k) e (A .update) ∧ acceptable k e (F .update) := by
      intro hfl
      obtain ⟨q1, q2, q3, q4⟩ := img hfl
      exact ⟨(acceptable_congr wp nY.loc (agr q2)).2 nY.acc, hY.acceptable w n3 q4⟩
    have vers : (Verif.getFlag (pre k) A 0).getD FL_NEW = FL_NEW → (e.ver (A .boot) < e.ver (A .update) ↔ e.ver X < e.ver Y) ∧
        (e.ver (F .boot) < e.ver (F .update) ↔ e.ver X < e.ver Y) := by
      intro hfl
      obtain ⟨q1, q2, q3, q4⟩ := img hfl
      rw [hX.version _ q1, hX.version _ q3, (hY.loc _ q2).2.1, (hY.loc _ q4).2.1]
      exact ⟨Iff.rfl, Iff.rfl⟩
    have up : ∀ fb, ((Verif.getFlag (pre k) A 0).getD FL_NEW = FL_NEW → fb = true ∨ e.ver X < e.ver Y) →
        Sim (TT (pre k)) (TornOK k) (Rel k) true true (fun A' F' => A' = A ∧ F' = F) (Verif.wbUpdate (pre k) e fb) (wbUpdate k e fb) true
          (fun r A' F' => RelT k A' F' ∧ r = true ∧ DoneI (pre k) X (imgLen (pre k) X) Y (imgLen (pre k) Y) A') := by
      intro fb hfb
      refine ((simUpdate w n3 iX nY.img rfl rfl h hI (fun q => ⟨(acc q).1, ?_⟩) fun q => ⟨(acc q).2, ?_⟩).triple
        (wbUpdate_spec wp iX nY.img rfl rfl hI (fallback := fb) (e := e) fun q => ⟨(acc q).1, ?_⟩) hT ?_)
      · rw [(vers q).1]; exact hfb q
      · rw [(vers q).2]; exact hfb q
      · rw [(vers q).1]; exact hfb q
      · rintro A' F' ⟨rfl, rfl⟩
        exact ⟨⟨rfl, rfl⟩, rfl⟩
    have exUp : ∀ {fb : Bool} {a : Bool} {A'' : Flash}, ((Verif.getFlag (pre k) A 0).getD FL_NEW = FL_NEW → fb = true ∨ e.ver X < e.ver Y) →
        Exec (Verif.wbUpdate (pre k) e fb) true A a A'' true → a = true ∧ DoneI (pre k) X (imgLen (pre k) X) Y (imgLen (pre k) Y) A'' := by
      intro fb a A'' hfb he
      refine he.post (wbUpdate_spec wp iX nY.img rfl rfl hI (fallback := fb) (e := e) fun q => ⟨(acc q).1, ?_⟩) hT rfl
      rw [(vers q).1]; exact hfb q
    let Done2 : Unit → Flash → Flash → Prop := fun _ A' F' => RelT k A' F' ∧ DoneI (pre k) X (imgLen (pre k) X) Y (imgLen (pre k) Y) A'
    have fin : ∀ fb, ((Verif.getFlag (pre k) A 0).getD FL_NEW = FL_NEW → fb = true ∨ e.ver X < e.ver Y) →
        Sim (TT (pre k)) (TornOK k) (Rel k) true true (fun A' F' => A' = A ∧ F' = F) (Verif.wbUpdate (pre k) e fb >>= fun _ => pure ())
          (wbUpdate k e fb >>= fun _ => pure ()) true Done2 := by
      intro fb hfb
      refine Sim.bindLate (up fb hfb) (fun A F a A' _ _ => .inr ⟨rfl, (), Exec.pure () A' true⟩) fun r => ?_
      refine (Sim.pure (Q := Done2) ()).pre ?_
      rintro A' F' ⟨q1, q2, q3⟩
      exact ⟨q1, q3⟩
    have triFin : ∀ fb, ((Verif.getFlag (pre k) A 0).getD FL_NEW = FL_NEW → fb = true ∨ e.ver X < e.ver Y) →
        Triple (TT (pre k)) true (fun f => f = A) (Verif.wbUpdate (pre k) e fb >>= fun _ => pure ()) true
          (fun _ f => DoneI (pre k) X (imgLen (pre k) X) Y (imgLen (pre k) Y) f) (fun _ => True) := by
      intro fb hfb
      refine Triple.bind ((wbUpdate_spec wp iX nY.img rfl rfl hI (fallback := fb) (e := e) fun q => ⟨(acc q).1, ?_⟩).conseq (fun _ h => h) (fun _ _ h => h)
        (fun _ _ => trivial)) (fun r => ?_)
      · rw [(vers q).1]; exact hfb q
      · exact (Triple.pure (Q := fun _ f => DoneI (pre k) X (imgLen (pre k) X) Y (imgLen (pre k) Y) f) ()).pre (fun f h => h.2)
    have sF {s l : Bool} := simFinal_none w n3 (e := e) h hS.core.ntB (state_ne_final wp (.inr hj) hS.core.stNF) (s := s) (l := l)
    have tF := swapFinal_none (c := pre k) (e := e) (T := TT (pre k)) (l := true) (C := fun _ => True) hS.core.ntB (state_ne_final wp (.inr hj) hS.core.stNF)
    have bst := h.rel.state w n3 (p := .boot) (by simp)
    have ust := h.rel.state w n3 (p := .update) (by simp)
    -- either the installation is completed before the verification
    have first : ∀ fb, ((Verif.getFlag (pre k) A 0).getD FL_NEW = FL_NEW → fb = true ∨ e.ver X < e.ver Y) →
        (stateOf k F .boot = some ST_TESTING ∧ fb = true ∨ stateOf k F .boot ≠ some ST_TESTING ∧ stateOf k F .update = some ST_UPDATING ∧ fb = false) →
        Sim (TT (pre k)) (TornOK k) (Rel k) false true (fun A' F' => A' = A ∧ F' = F) (Verif.start (pre k) e)
          (startTail k e (stateOf k F .boot) (stateOf k F .update)) true (fun _ => RelT k) := by
      intro fb hfb hst
      unfold Verif.start startTail
      have hA : Triple (TT (pre k)) true (fun f => f = A) (Verif.startUpdate (pre k) e) true
          (fun _ f => DoneI (pre k) X (imgLen (pre k) X) Y (imgLen (pre k) Y) f) (fun _ => True) := by
        unfold Verif.startUpdate
        refine Triple.readFlash (fun f hf => ?_)
        subst hf
        refine Triple.bind (l' := true) tF (fun r => ?_)
        refine Triple.ofEq (fun g ⟨hr, hg⟩ => ?_)
        subst hr; subst hg
        rw [if_neg (by simp), bst, ust]
        rcases hst with ⟨q1, rfl⟩ | ⟨q1, q2, rfl⟩
        · rw [if_pos q1]; exact triFin true hfb
        · rw [if_neg q1, if_pos q2]; exact triFin false hfb
      refine Sim.bindLate (Q := Done2) ?_ ?_ fun _ => boot _ _
      · unfold Verif.startUpdate startUpdate
        refine Sim.readA fun A1 => ?_
        refine Sim.ofEq ?_
        rintro A' F' ⟨rfl, rfl, rfl⟩
        refine Sim.bind sF fun r => ?_
        refine Sim.ofEq ?_
        rintro A1 F1 ⟨rfl, rfl, rfl⟩
        refine Sim.ite Iff.rfl (fun g => absurd g (by simp)) fun _ => ?_
        rw [bst, ust]
        rcases hst with ⟨q1, rfl⟩ | ⟨q1, q2, rfl⟩
        · rw [if_pos q1, if_pos q1]; exact fin true hfb
        · rw [if_neg q1, if_pos q2, if_neg q1, if_pos q2]; exact fin false hfb
      · rintro A' F' a A'' ⟨rfl, rfl⟩ he
        exact .inl ⟨_, tt_ff, late (he.post hA hT rfl) _⟩
    -- or nothing happens before it
    have second : (stateOf k F .boot ≠ some ST_TESTING ∧ (stateOf k F .update ≠ some ST_UPDATING ∨
          (Verif.getFlag (pre k) A 0).getD FL_NEW = FL_NEW ∧ ¬ e.ver X < e.ver Y)) →
        Sim (TT (pre k)) (TornOK k) (Rel k) false true (fun A' F' => A' = A ∧ F' = F) (Verif.start (pre k) e)
          (startTail k e (stateOf k F .boot) (stateOf k F .update)) true (fun _ => RelT k) := by
      rintro ⟨q1, q2⟩
      unfold Verif.start startTail
      refine Sim.bind (Q := fun _ A' F' => A' = A ∧ F' = F) (l' := true) ?_ fun _ => ?_
      · unfold Verif.startUpdate startUpdate
        refine Sim.readA fun A1 => ?_
        refine Sim.ofEq ?_
        rintro A' F' ⟨rfl, rfl, rfl⟩
        refine Sim.bind sF fun r => ?_
        refine Sim.ofEq ?_
        rintro A1 F1 ⟨rfl, rfl, rfl⟩
        refine Sim.ite Iff.rfl (fun g => absurd g (by simp)) fun _ => ?_
        rw [bst, ust, if_neg q1, if_neg q1]
        refine Sim.ite Iff.rfl (fun q3 => ?_) (fun q3 => Sim.pure (Q := fun _ A' F' => A' = A1 ∧ F' = F1) ())
        have hn := q2.resolve_left fun g => g q3
        refine Sim.bind (simRefuse w n3 iX nY.img rfl rfl h hI hn.1 ⟨(acc hn.1).1, ?_⟩ ⟨(acc hn.1).2, ?_⟩) fun r => ?_
        · rw [(vers hn.1).1]; exact hn.2
        · rw [(vers hn.1).2]; exact hn.2
        · exact Sim.pure (Q := fun _ A' F' => A' = A1 ∧ F' = F1) ()
      · refine Sim.readA fun A1 => Sim.readC fun F1 => Sim.ofEq ?_
        rintro A2 F2 ⟨rfl, rfl, rfl, rfl⟩
        refine Sim.ite hd (fun _ => ?_) (fun _ => ?_)
        · refine (Sim.tick (P := RelT k) (fun _ _ h => h.rel) hT).pre ?_
          rintro A F ⟨rfl, rfl⟩
          exact h
        · unfold Verif.emergency emergency
          refine Sim.bindLate (up true fun _ => .inl rfl) ?_ fun r => ?_
          · rintro A' F' a A'' ⟨rfl, rfl⟩ he
            obtain ⟨rfl, hdn⟩ := exUp (fun _ => .inl rfl) he
            refine .inl ⟨_, tt_ff, ?_⟩
            rw [if_neg (by simp)]
            exact late hdn _
          · refine Sim.ofEq ?_
            rintro A' F' ⟨p1, rfl, p2⟩
            rw [if_neg (by simp), if_neg (by simp)]
            refine (boot _ _).pre ?_
            rintro A F ⟨rfl, rfl⟩
            exact ⟨p1, p2⟩
    by_cases q1 : stateOf k F .boot = some ST_TESTING
    · exact first true (fun _ => .inl rfl) (.inl ⟨q1, rfl⟩)
    · by_cases q2 : stateOf k F .update = some ST_UPDATING
      · by_cases q3 : (Verif.getFlag (pre k) A 0).getD FL_NEW = FL_NEW ∧ ¬ e.ver X < e.ver Y
        · exact second ⟨q1, .inr q3⟩
        · exact first false (fun q => .inr (Decidable.byContradiction fun g => q3 ⟨q, g⟩)) (.inr ⟨q1, q2, rfl⟩)
      · exact second ⟨q1, .inl q2⟩
  · -- the end of a swap
    have tf := swapFinal_resume (V := (False, False)) wp e nY.img rfl fX (A := X) (a := imgLen (pre k) X) (B := Y) (b := imgLen (pre k) Y)
    have hA : Triple (TT (pre k)) true (fun f => f = A) (Verif.startUpdate (pre k) e) true
        (fun _ f => DoneI (pre k) X (imgLen (pre k) X) Y (imgLen (pre k) Y) f) (ProgI (pre k) (False, False) X (imgLen (pre k) X) Y (imgLen (pre k) Y)) := by
      unfold Verif.startUpdate
      refine Triple.readFlash (fun f hf => ?_)
      subst hf
      refine Triple.bind (l' := true) (tf.pre (fun g hg => by rw [hg]; exact hF)) (fun r => ?_)
      refine Triple.ofEq (fun g ⟨hr, hg⟩ => ?_)
      subst hr
      rw [if_pos rfl]
      exact (Triple.pure (Q := fun _ f => DoneI (pre k) X (imgLen (pre k) X) Y (imgLen (pre k) Y) f) ()).pre (fun f h => by rw [h]; exact hg)
    unfold Verif.start startTail
    refine Sim.bindLate (Q := fun _ A' F' => RelT k A' F' ∧ DoneI (pre k) X (imgLen (pre k) X) Y (imgLen (pre k) Y) A') ?_ ?_ fun _ => boot _ _
    · unfold Verif.startUpdate startUpdate
      refine Sim.readA fun A1 => ?_
      refine Sim.bindLate (((simFinal w n3).triple tf hT (P' := fun A' F' => A' = A1 ∧ A' = A ∧ F' = F) ?_)) ?_ fun r => ?_
      · rintro A' F' ⟨-, rfl, rfl⟩
        exact ⟨h, hF⟩
      · rintro A' F' a A'' ⟨-, rfl, rfl⟩ he
        obtain ⟨rfl, -⟩ := he.post tf hT hF
        exact .inr ⟨rfl, (), Exec.pure () A'' true⟩
      · refine Sim.ofEq ?_
        rintro A' F' ⟨q1, rfl, q2⟩
        rw [if_pos rfl, if_pos rfl]
        refine (Sim.pure (Q := fun _ A' F' => RelT k A' F' ∧ DoneI (pre k) X (imgLen (pre k) X) Y (imgLen (pre k) Y) A') ()).pre ?_
        rintro A'' F'' ⟨rfl, rfl⟩
        exact ⟨q1, q2⟩
    · rintro A' F' a A'' ⟨rfl, rfl⟩ he
      exact .inl ⟨_, tt_ff, late (he.post hA hT rfl) _⟩

/-- The decision whether to start the image in BOOT is the same in both models. -/
theorem decision {e : Env} {X Y : Mem} (hY : GoodImage k e Y) (hl : Local k e) {A F : Flash} (h : Rel k A F) (hN : bootable k e (F .boot) → Has k F .boot Y)
    (hs : le32 (F .boot) 0 = MAGIC → k.h + le32 (F .boot) 4 ≤ k.part - 2 * k.ss) : bootable (pre k) e (A .boot) ↔ bootable k e (F .boot) := by
  obtain ⟨g1, g2, g3, g4, g5, g6, g7, g8, g9⟩ := geo w n3
  have h8 := w.h8
  have hh := w.h_le
  have hss := w.ss_pos
  have nY := hY.newOK w n3
  have hph : (pre k).h = k.h := rfl
  have e0 : le32 (A .boot) 0 = le32 (F .boot) 0 := le32_congr fun o h1 h2 => h.data _ _ (by simp) (by omega)
  have e4 : le32 (A .boot) 4 = le32 (F .boot) 4 := le32_congr fun o h1 h2 => h.data _ _ (by simp) (by omega)
  constructor
  · rintro ⟨⟨q1, q2⟩, q3, q4⟩
    have hf := hs (e0 ▸ q1)
    obtain ⟨l1, l2⟩ := hl (A .boot) (F .boot) fun o ho => by
      rw [e4] at ho
      exact (h.data .boot o (by simp) (by omega)).symm
    exact ⟨⟨e0 ▸ q1, by omega⟩, by rw [l1]; exact q3, by rw [l2]; exact q4⟩
  · intro q
    have hb := hN q
    refine (bootable_congr (pre_wf w n3) nY.loc ?_).2 (nY.bootable (pre_wf w n3))
    intro o _ ho
    have := nY.img.fits
    rw [h.data _ _ (by simp) (by omega)]
    exact hb o (by unfold imgLen at ho; omega)

/-- A reboot in the middle of an emergency update. -/
theorem start_relE {e : Env} {X Y : Mem} (hX : Readable k e X) (hY : GoodImage k e Y) (hj : e.junk ≠ ST_FINAL) (hl : Local k e) {A F : Flash} (h : Rel k A F)
    (hM : Emg.MidE (Nvu.pre k) X Y A) (hN : bootable k e (F .boot) → Has k F .boot Y)
    (hs : le32 (F .boot) 0 = MAGIC → k.h + le32 (F .boot) 4 ≤ k.part - 2 * k.ss) {b : Option Nat} {t : Mem} (ht : TornOK k t) :
    match start k e ⟨F, true, b, t⟩ with
    | .ok _ w' => w'.locked = true ∧ ∃ A', Rel k A' w'.fl ∧ (Verif.Updated (Nvu.pre k) Y X A' ∨ (A' = A ∧ bootable (Nvu.pre k) e (A' .boot)))
    | .crash F' => b ≠ none ∧ ∃ A', Rel k A' F' ∧ (Emg.MidE (Nvu.pre k) X Y A' ∨ Verif.Updated (Nvu.pre k) Y X A')
    | _ => False := by
  have wp := pre_wf w n3
  have nY := hY.newOK w n3
  have tri := Emg.start_mid (e := e) wp hj (hX.imgOK w n3) nY hM
  have hT := torn_ex w n3
  have hd := decision w n3 (X := X) hY hl h hN hs
  have geo' := geo w n3
  unfold start
  rw [bind_ok (show unlock ⟨F, true, b, t⟩ = .ok () ⟨F, false, b, t⟩ from rfl)]
  have hb := getState_rel w n3 h (p := .boot) (by simp) (b := b) ht
  cases hr : getState k .boot ⟨F, false, b, t⟩ with
  | ok r w' =>
    rw [bind_ok hr]
    rw [hr] at hb
    obtain ⟨F1, l1, b1, t1⟩ := w'
    obtain ⟨q1, q2, q3, q4, q5, q6, q7⟩ := hb
    dsimp only at q1 q2 q3 q4 q5 q6 q7
    subst q1 q2
    have hu := getState_rel w n3 q5 (p := .update) (by simp) (b := b1) ht
    cases hr2 : getState k .update ⟨F1, false, b1, t1⟩ with
    | ok r2 w2 =>
      rw [bind_ok hr2]
      rw [hr2] at hu
      obtain ⟨F2, l2, b2, t2⟩ := w2
      obtain ⟨p1, p2, p3, p4, p5, p6, p7⟩ := hu
      dsimp only at p1 p2 p3 p4 p5 p6 p7
      subst p1 p2
      rw [bind_ok (show lock ⟨F2, false, b2, t2⟩ = .ok () ⟨F2, true, b2, t2⟩ from rfl)]
      have hrt : RelT k A F2 := ⟨p5, by rw [p7 _ (by simp)]; exact q6, p6⟩
      have es : stateOf k F1 .boot = stateOf k F2 .boot := by
        unfold stateOf
        rw [p7 .boot (by simp)]
      rw [q4, p4, es]
      -- the images are not changed by the selection
      have hsameB : ∀ o, o < (Nvu.pre k).last → F2 .boot o = F .boot o := fun o ho => by
        rw [← p5.data .boot o (by simp) ho, h.data .boot o (by simp) ho]
      have e0 : le32 (F2 .boot) 0 = le32 (F .boot) 0 := le32_congr fun o h1 h2 => hsameB o (by have := w.h8; have := w.h_le; have := w.ss_pos; omega)
      have e4 : le32 (F2 .boot) 4 = le32 (F .boot) 4 := le32_congr fun o h1 h2 => hsameB o (by have := w.h8; have := w.h_le; have := w.ss_pos; omega)
      have hd2 : bootable (Nvu.pre k) e (A .boot) ↔ bootable k e (F2 .boot) := by
        rw [hd]
        unfold bootable openOK
        rw [e0, e4]
        constructor
        · rintro ⟨⟨c1, c2⟩, c3, c4⟩
          obtain ⟨l1, l2⟩ := hl (F .boot) (F2 .boot) fun o ho => hsameB o (by have := hs c1; omega)
          exact ⟨⟨c1, c2⟩, by rw [l1]; exact c3, by rw [l2]; exact c4⟩
        · rintro ⟨⟨c1, c2⟩, c3, c4⟩
          obtain ⟨l1, l2⟩ := hl (F .boot) (F2 .boot) fun o ho => hsameB o (by have := hs c1; omega)
          exact ⟨⟨c1, c2⟩, by rw [← l1]; exact c3, by rw [← l2]; exact c4⟩
      rcases simTailE w n3 hX hY hj hrt hM hd2 A F2 b2 t2 ht ⟨rfl, rfl⟩ with s | s
      · exact (s.no tri hT rfl).elim
      · cases hs : startTail k e (stateOf k F2 .boot) (stateOf k F2 .update) ⟨F2, true, b2, t2⟩ with
        | ok a w3 =>
          rw [hs] at s
          obtain ⟨s1, s2, s3, A', s4, s5⟩ := s
          exact ⟨s1, A', s5.rel, s4.post tri hT rfl⟩
        | crash F3 =>
          rw [hs] at s
          obtain ⟨s1, A', s2, s3 | s3⟩ := s
          · obtain ⟨b', t', s4, s5⟩ := s3
            refine ⟨fun g => s1 (p3 (q3 g)), A', s2, ?_⟩
            have := tri ⟨A, true, some b', t'⟩ s4 rfl rfl
            rw [s5] at this
            exact this.2
          · exact absurd s3.1 (by simp)
        | panic f => rw [hs] at s; exact s
        | stuck f => rw [hs] at s; exact s
        | fault f => rw [hs] at s; exact s
    | crash F' =>
      rw [bind_crash hr2]
      rw [hr2] at hu
      exact ⟨fun g => hu.1 (q3 g), A, hu.2, .inl hM⟩
    | panic f => rw [hr2] at hu; exact hu.elim
    | stuck f => rw [hr2] at hu; exact hu.elim
    | fault f => rw [hr2] at hu; exact hu.elim
  | crash F' =>
    rw [bind_crash hr]
    rw [hr] at hb
    exact ⟨hb.1, A, hb.2, .inl hM⟩
  | panic f => rw [hr] at hb; exact hb.elim
  | stuck f => rw [hr] at hb; exact hb.elim
  | fault f => rw [hr] at hb; exact hb.elim

end

/-! ### Theorems -/

/-- **C71, write-once flash.** If BOOT holds an image that does not verify and UPDATE holds a correctly signed image of whatever version, then after any
number of reboots interrupted at any flash operation an uninterrupted reboot installs the image of UPDATE, or finds it installed, locks the flash and starts
it. Partial: the assumptions of C67, a readable header in BOOT, and the absence of accidents (`NoAccident`). -/
theorem emergency_power_fail_safe_partial {k : Cfg} (w : k.WF) (n3 : 3 ≤ k.n) {e : Env} {X Y : Mem} (hX : Readable k e X) (hB : Broken k e X)
    (hY : GoodImage k e Y) (hl : Local k e) (hj : e.junk ≠ ST_FINAL) {f g : Flash} (hs : Spare k X Y f) (hi : Interrupted k e (NoAccident k e X Y) f g) :
    ∃ w', bootUp k e g = .ok () w' ∧ w'.locked = true ∧ bootable k e (w'.fl .boot) ∧ Has k w'.fl .boot Y ∧ (g = f → Updated k Y X w'.fl) := by
  obtain ⟨g1, g2, g3, g4, g5, g6, g7, g8, g9⟩ := geo w n3
  have h8 := w.h8
  have nb : ¬ bootable k e (f .boot) := by
    rintro ⟨_, h2, h3⟩
    rcases hB _ hs.boot with q | q
    · exact absurd (h2.symm.trans q) (by decide)
    · exact absurd (h3.symm.trans q) (by decide)
  have fits0 : le32 (f .boot) 0 = MAGIC → k.h + le32 (f .boot) 4 ≤ k.part - 2 * k.ss := by
    intro _
    rw [show le32 (f .boot) 4 = le32 X 4 from le32_congr fun o h1 h2 => hs.boot o (by omega)]
    exact hX.fits
  have hmid : (∃ A, Rel k A g ∧ Emg.MidE (pre k) X Y A) ∧ (bootable k e (g .boot) → Has k g .boot Y) ∧
      (le32 (g .boot) 0 = MAGIC → k.h + le32 (g .boot) 4 ≤ k.part - 2 * k.ss) := by
    induction hi with
    | none =>
      obtain ⟨h1, h2⟩ := hs.abs w n3 hX hY
      exact ⟨⟨_, h1, h2.mid (pre_wf w n3)⟩, fun q => absurd q nb, fits0⟩
    | @again _ _ m _ _ ht hr hP ih =>
      obtain ⟨⟨A, h1, h2⟩, h3, h4⟩ := ih
      have := start_relE w n3 hX hY hj hl h1 h2 h3 h4 (b := some m) ht
      unfold bootFail at hr
      rw [hr] at this
      obtain ⟨_, A', q1, q2 | q2⟩ := this
      · exact ⟨⟨A', q1, q2⟩, hP.2.1, hP.2.2⟩
      · exact absurd (updated_fits w n3 hX.fits hY.fits q1 q2) hP.1
  obtain ⟨⟨A, h1, h2⟩, h3, h4⟩ := hmid
  have := start_relE w n3 hX hY hj hl h1 h2 h3 h4 (b := none) zero_torn
  unfold bootUp
  have nY := hY.newOK w n3
  cases hr : start k e ⟨g, true, none, fun _ => 0#8⟩ with
  | ok a w' =>
    rw [hr] at this
    obtain ⟨q1, A', q2, q3⟩ := this
    rcases q3 with q3 | ⟨rfl, q3⟩
    · have hu := updated_fits w n3 hX.fits hY.fits q2 q3
      exact ⟨w', rfl, q1, hY.bootable w n3 hu.new, hu.new, fun _ => hu⟩
    · have hb := h3 ((decision w n3 (X := X) hY hl h1 h3 h4).1 q3)
      have hu : Has k w'.fl .boot Y := by
        intro o ho
        have := hY.fits
        rw [← q2.data .boot o (by simp) (by omega), h1.data .boot o (by simp) (by omega)]
        exact hb o ho
      refine ⟨w', rfl, q1, hY.bootable w n3 hu, hu, ?_⟩
      rintro rfl
      exact absurd ((decision w n3 (X := X) hY hl h1 h3 h4).1 q3) nb
  | crash F' => rw [hr] at this; exact absurd rfl this.1
  | panic f => rw [hr] at this; exact this.elim
  | stuck f => rw [hr] at this; exact this.elim
  | fault f => rw [hr] at this; exact this.elim

end Nvu

end Verif
