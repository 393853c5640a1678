import Verif.DeltaRun

/-!
# Helper lemmas: `wolfBoot_start` during a delta update
-/

set_option linter.unusedSectionVars false
set_option linter.unusedVariables false

namespace Verif

section
variable {c : Cfg} {d : DCfg} {e : Env} {X Y U : Mem} {inv : Bool} {off size : Nat} {P : List BSrc}

theorem le32_field {m x : Mem} {H tag : Nat} (h : Agree m x 0 H) (hl : (findHdr x H tag).len = 4) :
    le32 m (findHdr x H tag).ptr = le32 x (findHdr x H tag).ptr := by
  cases hf : findHdr x H tag with
  | found o l =>
    rw [hf] at hl
    have := findHdr_bounds hf
    simp only [Find.len] at hl
    simp only [Find.ptr]
    exact le32_congr (h.mono (by omega) (by omega))
  | _ => rw [hf] at hl; simp [Find.len] at hl

theorem deltaInfo_congr {m x : Mem} {H : Nat} (h8 : 4 ≤ H) (h : Agree m x 0 H) (inv : Bool) :
    deltaInfo H m inv = deltaInfo H x inv := by
  have h0 : le32 m 0 = le32 x 0 := le32_congr (h.mono (Nat.le_refl _) (by omega))
  unfold deltaInfo
  rw [h0, findHdr_congr h, findHdr_congr h, findHdr_congr h]
  split
  · rfl
  split
  · split
    · rfl
    · next h1 =>
      split
      · rfl
      · next h2 => rw [le32_field h (by omega), le32_field h (by omega)]
  · split
    · rfl
    · next h1 => rw [le32_field h (by omega)]

/-- The length of the base digest is acceptable. -/
def HashOK (c : Cfg) (d : DCfg) (U : Mem) : Prop :=
  (findHdr U c.h HDR_IMG_DELTA_BASE_HASH).len = d.dlen ∨ (findHdr U c.h HDR_IMG_DELTA_BASE_HASH).len = 0

theorem h_le_imgLen (c : Cfg) (U : Mem) : c.h ≤ imgLen c U := by unfold imgLen; omega

/-- A resumed update selects the patch. -/
theorem select_resume (w : c.WF) (hp : HasPatch c U inv off size P) (hh : HashOK c d U) {f : Flash}
    (hu : Agree (f .update) U 0 (imgLen c U)) : deltaSelect c e d f inv true = .go off size := by
  have h8 := w.h8
  have hH := hu.mono (Nat.le_refl _) (h_le_imgLen c U)
  unfold deltaSelect
  rw [deltaInfo_congr (by omega) hH, hp.info]
  dsimp only
  rw [findHdr_congr hH, if_neg (by unfold HashOK at hh; omega)]
  have hpos := hp.pos
  cases inv <;> simp [initPatch, show size ≠ 0 by omega]

theorem diffBase_congr {m x : Mem} {H : Nat} (h8 : 4 ≤ H) (hin : (findHdr x H HDR_IMG_DELTA_BASE).len = 4)
    (h : Agree m x 0 H) : diffBase H m = diffBase H x := by
  unfold diffBase
  rw [le32_congr (m := m) (x := x) (h.mono (Nat.le_refl _) (by omega)), findHdr_congr h, le32_field h hin]

/-- A new update in the forward direction. -/
theorem select_fwd (w : c.WF) (hp : HasPatch c U false off size P) (hb4 : (findHdr U c.h HDR_IMG_DELTA_BASE).len = 4)
    (hbase : diffBase c.h U = e.ver X) (hlX : Local c e X)
    (hdig : (findHdr U c.h HDR_IMG_DELTA_BASE_HASH).len = 0 ∨ ∃ x : List Byte, x.length = d.dlen ∧
      HasField c.h X d.shaTag x ∧ HasField c.h U HDR_IMG_DELTA_BASE_HASH x) {f : Flash}
    (hu : Agree (f .update) U 0 (imgLen c U)) (hb : Agree (f .boot) X 0 (imgLen c X)) :
    deltaSelect c e d f false false = .go off size := by
  have h8 := w.h8
  have hH := hu.mono (Nat.le_refl _) (h_le_imgLen c U)
  have hX := hb.mono (Nat.le_refl _) (h_le_imgLen c X)
  have hpos := hp.pos
  have hh : HashOK c d U := by
    rcases hdig with h | ⟨x, h1, _, o, h2, _⟩
    · exact Or.inr h
    · left; rw [h2]; exact h1
  unfold deltaSelect
  rw [deltaInfo_congr (by omega) hH, hp.info]
  dsimp only
  rw [findHdr_congr hH, if_neg (by unfold HashOK at hh; omega), if_neg (by simp), findHdr_congr hX,
    diffBase_congr (by omega) hb4 hH, hbase, (hlX _ hb).2.1, if_neg (by simp)]
  rw [if_neg]
  · simp [initPatch, show size ≠ 0 by omega]
  · rintro ⟨_, h1, h2⟩
    rcases hdig with h | ⟨x, hx, ⟨o, h3, h4⟩, o', h5, h6⟩
    · exact h1 h
    · have b1 := findHdr_bounds h3
      have b2 := findHdr_bounds h5
      rw [h3, h5] at h2
      simp only [Find.len, Find.ptr, memEq] at h2
      rw [slice_congr (hX.mono (by omega) (by omega)), slice_congr (hH.mono (by omega) (by omega)), h4, h6] at h2
      simp at h2

/-- A new update in the inverse direction. -/
theorem select_inv (w : c.WF) (hp : HasPatch c U true off size P) (hb4 : (findHdr U c.h HDR_IMG_DELTA_BASE).len = 4)
    (hv : e.ver X = e.ver U) (hbase : diffBase c.h U < e.ver X) (hlX : Local c e X) (hlU : Local c e U)
    (hh : HashOK c d U) {f : Flash}
    (hu : Agree (f .update) U 0 (imgLen c U)) (hb : Agree (f .boot) X 0 (imgLen c X)) :
    deltaSelect c e d f true false = .go off size := by
  have h8 := w.h8
  have hH := hu.mono (Nat.le_refl _) (h_le_imgLen c U)
  have hpos := hp.pos
  unfold deltaSelect
  rw [deltaInfo_congr (by omega) hH, hp.info]
  dsimp only
  rw [findHdr_congr hH, if_neg (by unfold HashOK at hh; omega), if_pos rfl,
    diffBase_congr (by omega) hb4 hH, (hlX _ hb).2.1, (hlU _ hu).2.1, if_pos (Or.inl ⟨hv, hbase⟩)]
  simp [initPatch, show size ≠ 0 by omega]

end

/-! ## `wolfBoot_start` -/

/-- Everything that is needed about a delta update in one direction. -/
structure DCtx (c : Cfg) (e : Env) (d : DCfg) (X Y U : Mem) (inv : Bool) (off size : Nat) (P : List BSrc) : Prop where
  parm : DParm c d X Y U inv off size P
  locX : Local c e X
  new : NewOK c e Y
  upd : NewOK c e U
  delta : isDelta (e.typ U)
  hash : HashOK c d U
  fresh : ∀ f : Flash, Agree (f .update) U 0 (imgLen c U) → Agree (f .boot) X 0 (imgLen c X) →
    deltaSelect c e d f inv false = .go off size
  verF : inv = false → e.ver X ≠ 0 ∧ e.ver X < e.ver U
  verI : inv = true → e.ver X ≠ 0 ∧ e.ver U ≤ e.ver X
  junk : inv = true → e.junk ≠ ST_FINAL
  other : inv = true → ∃ off' size' P', HasPatch c U false off' size' P'

section
variable {c : Cfg} (w : c.WF) {d : DCfg} {e : Env} {X Y U : Mem} {inv : Bool} {off size : Nat} {P : List BSrc}
include w

/-- `deltaBranch` of an update in progress. -/
theorem branch_resume {st : Byte} {f : Flash} {fallback : Bool} (hst : getState c f .update = some st)
    (hfl : (getFlag c f 0).getD FL_NEW ≠ FL_NEW) :
    deltaBranch c e d fallback f =
      deltaUpdate c e d (fwSize c (f .boot)) (fwSize c (f .update)) (decide (st ≠ ST_UPDATING)) true := by
  unfold deltaBranch
  dsimp only
  rw [hst]
  dsimp only
  rw [if_pos (Or.inl hfl)]

theorem branch_fresh {f : Flash} {fallback : Bool}
    (hfl : (getFlag c f 0).getD FL_NEW = FL_NEW) (h0 : e.ver (f .boot) ≠ 0) :
    deltaBranch c e d fallback f =
      if e.ver (f .boot) < e.ver (f .update) ∧ fallback = true then do
        unlock
        setState c .update ST_UPDATING
        lock
        deltaUpdate c e d (fwSize c (f .boot)) (fwSize c (f .update)) false false
      else deltaUpdate c e d (fwSize c (f .boot)) (fwSize c (f .update))
        (decide (e.ver (f .update) ≤ e.ver (f .boot))) false := by
  unfold deltaBranch
  dsimp only
  cases hs : getState c f .update with
  | none => rfl
  | some st =>
    dsimp only
    rw [if_neg (by simp [hfl, h0])]

theorem torn_updating : ∀ t : Byte, (ST_UPDATING &&& (ST_UPDATING ||| t)) = ST_UPDATING := by decide

/-- Setting the state of UPDATE to UPDATING. -/
theorem setUpdating_spec {T} {f0 : Flash} (hm : MagicP c f0 .update)
    (hst : f0 .update (trailerAt c 1) &&& ST_UPDATING = ST_UPDATING) :
    Triple T false (fun f => f = f0) (setState c .update ST_UPDATING) false
      (fun _ f => hasMagic c f .update ∧ f .update (trailerAt c 1) = ST_UPDATING ∧ f .boot = f0 .boot ∧
        (∀ x, x < c.last → f .update x = f0 .update x) ∧ ∀ j, j < c.n → rawFlag c f j = rawFlag c f0 j)
      (fun f => MagicP c f .update ∧ (hasMagic c f0 .update → hasMagic c f .update) ∧
        f .update (trailerAt c 1) &&& ST_UPDATING = ST_UPDATING ∧
        (f0 .update (trailerAt c 1) = ST_UPDATING → f .update (trailerAt c 1) = ST_UPDATING) ∧
        f .boot = f0 .boot ∧
        (∀ x, x < c.last → f .update x = f0 .update x) ∧ ∀ j, j < c.n → rawFlag c f j = rawFlag c f0 j) := by
  have hss := w.ss_pos
  have hpe := w.part_eq
  have htb := trailer_bounds w (k := 1) (by omega)
  have hfl : ∀ g, Same .update (trailerAt c 1) c.part f0 g → ∀ j, j < c.n → rawFlag c g j = rawFlag c f0 j := by
    intro g h1 j hj
    refine rawFlag_congr (h1.out ?_)
    left
    have hff := w.flags_fit
    have hn := w.n512
    have : flagPos j ≤ c.n / 2 := by rw [flagPos_lt (by omega)]; omega
    have := trailer_bounds w (k := 2 + flagPos j) (by omega)
    omega
  refine (setState_spec w (by simp) f0 ST_UPDATING hm hst).conseq (fun _ h => h) ?_ ?_
  · rintro _ f ⟨h1, h2, h3⟩
    exact ⟨h1, h2, h3.other (by simp), fun x hx => h3.out (by omega), hfl f h3⟩
  · rintro f ⟨h1, h2, h3⟩
    have hmp : MagicP c f .update := by
      rcases h3 with ⟨h, _⟩ | ⟨h, _⟩
      · exact h
      · exact h.magicP
    refine ⟨hmp, h2, ?_, ?_, h1.other (by simp), fun x hx => h1.out (by omega), hfl f h1⟩
    · rcases h3 with ⟨_, h3⟩ | ⟨_, t, h3⟩
      · rw [h3]; exact hst
      · rw [h3]; exact and_torn _ _ _ hst
    · intro hu
      rcases h3 with ⟨_, h3⟩ | ⟨_, t, h3⟩
      · rw [h3]; exact hu
      · rw [h3, hu]; exact torn_updating w t

/-- Before the first flash operation of an update whose direction is chosen by versions: BOOT holds `X`,
UPDATE holds the delta image. -/
structure PreD (c : Cfg) (X U : Mem) (f : Flash) : Prop where
  idle : Idle c X f
  upd : Agree (f .update) U 0 (imgLen c U)
  test : Testing c f

theorem DI.start0 {f : Flash} (hp : DParm c d X Y U inv off size P) (hI : DI c X Y U inv P 0 false f) :
    Agree (f .boot) X 0 (imgLen c X) := fun o _ h => hI.rest o (by simp) h

/-- `wolfBoot_delta_update` behind the update of the state. -/
theorem deltaFresh_spec (hx : DCtx c e d X Y U inv off size P) {f0 : Flash} (hI : DI c X Y U inv P 0 false f0)
    {bf uf : Nat} (hb : bf = fwSize c (f0 .boot)) (hu : uf = fwSize c (f0 .update)) :
    Triple (TD c inv) true (fun f => f = f0) (deltaUpdate c e d bf uf inv false) true
      (fun r f => r = true ∧ DoneI c U (imgLen c U) Y (imgLen c Y) f) (DProg c X Y U inv P) := by
  rw [hb, hu]
  exact deltaUpdate_DI w hx.parm hI (hx.fresh f0 hI.upd (hI.start0 w hx.parm))

/-- The delta branch during an update. -/
theorem branch_DI (hx : DCtx c e d X Y U inv off size P) {k : Nat} {sw fallback : Bool} {f0 : Flash}
    (hI : DI c X Y U inv P k sw f0) :
    Triple (TD c inv) true (fun f => f = f0) (deltaBranch c e d fallback f0) true
      (fun r f => r = true ∧ DoneI c U (imgLen c U) Y (imgLen c Y) f) (DProg c X Y U inv P) := by
  have hn2 := w.n2
  have h8 := w.h8
  have hh := w.h_le
  have hfU := hx.parm.hU.fits
  by_cases h0 : k = 0 ∧ sw = false
  · obtain ⟨rfl, rfl⟩ := h0
    have hfl : (getFlag c f0 0).getD FL_NEW = FL_NEW := by
      rw [hI.flag w (by omega)]; simp
    have hB := hI.start0 w hx.parm
    have hvb := (hx.locX _ hB).2.1
    have hvu := (hx.upd.loc _ hI.upd).2.1
    have hne : e.ver X ≠ 0 := by
      cases inv with
      | false => exact (hx.verF rfl).1
      | true => exact (hx.verI rfl).1
    rw [branch_fresh w hfl (by rw [hvb]; exact hne), hvb, hvu]
    cases inv with
    | true =>
      have := (hx.verI rfl).2
      rw [if_neg (by omega), decide_eq_true this]
      exact deltaFresh_spec w hx hI rfl rfl
    | false =>
      have hlt := (hx.verF rfl).2
      refine Triple.ite (fun _ => ?_) (fun _ => ?_)
      · have hst := hI.st
        rw [if_neg (by simp)] at hst
        have hadv : ∀ f : Flash, hasMagic c f .update → f .update (trailerAt c 1) = ST_UPDATING →
            f .boot = f0 .boot → (∀ x, x < c.last → f .update x = f0 .update x) →
            (∀ j, j < c.n → rawFlag c f j = rawFlag c f0 j) → DI c X Y U false P 0 false f := by
          intro f h1 h2 h3 h4 h5
          exact hI.frame w hx.parm.hU h4 (fun x _ _ => by rw [h3]) (by simp) (fun j hj => h5 j (by omega))
            h1.magicP (fun _ => h1) (by rw [h2, hst]) (by simp) (by simp) (by rw [h3]; exact hI.ntB) hx.parm.hX
        refine Triple.bind (l' := false) Triple.unlock (fun _ => ?_)
        refine Triple.bind (l' := false) ((setUpdating_spec w hI.magicP (by rw [hst]; decide)).conseq
          (fun _ h => h) (fun _ _ h => h) ?_) (fun _ => ?_)
        · rintro f ⟨h1, h2, h3, h4, h5, h6, h7⟩
          exact Or.inl ⟨0, false, hadv f (h2 (hI.magic (Or.inl rfl))) (h4 hst) h5 h6 h7⟩
        · refine Triple.bind (l' := true) Triple.lock (fun _ => ?_)
          refine Triple.ofEq (fun f ⟨h1, h2, h3, h4, h5⟩ => ?_)
          refine deltaFresh_spec w hx (hadv f h1 h2 h3 h4 h5) (by rw [h3]) ?_
          refine (fwSize_congr (fun o _ ho => h4 o ?_)).symm
          have := h_le_imgLen c U
          omega
      · rw [decide_eq_false (by omega)]
        exact deltaFresh_spec w hx hI rfl rfl
  · have hfl : (getFlag c f0 0).getD FL_NEW ≠ FL_NEW := by
      by_cases hk : 0 < k
      · exact (hI.flagDone w hk).1
      · have : k = 0 := by omega
        subst this
        rw [hI.flag w (by omega)]
        cases sw with
        | false => exact absurd ⟨rfl, rfl⟩ h0
        | true => decide
    have hm : hasMagic c f0 .update := hI.magic (by
      by_cases hk : 0 < k
      · exact Or.inr (Or.inl hk)
      · cases sw with
        | false => exact absurd ⟨by omega, rfl⟩ h0
        | true => exact Or.inr (Or.inr rfl))
    have hst : getState c f0 .update = some (f0 .update (trailerAt c 1)) := by
      unfold getState; rw [if_pos hm]
    rw [branch_resume w hst hfl, hI.st]
    have hd : decide ((if inv = true then 0xFF#8 else ST_UPDATING) ≠ ST_UPDATING) = inv := by
      cases inv <;> decide
    rw [hd]
    exact deltaUpdate_DI w hx.parm hI (select_resume w hx.parm.patch hx.hash hI.upd)

theorem branch_D2 (hx : DCtx c e d X Y U inv off size P) {fallback : Bool} {f0 : Flash} (hI : D2 c Y U inv f0) :
    Triple (TD c inv) true (fun f => f = f0) (deltaBranch c e d fallback f0) true
      (fun r f => r = true ∧ DoneI c U (imgLen c U) Y (imgLen c Y) f) (DProg c X Y U inv P) := by
  have h8 := w.h8
  have hfl : (getFlag c f0 0).getD FL_NEW ≠ FL_NEW := by
    unfold getFlag
    rw [if_pos hI.magic]
    exact (hI.flags 0 (by unfold imgLen; omega)).1
  have hst : getState c f0 .update = some (f0 .update (trailerAt c 1)) := by
    unfold getState; rw [if_pos hI.magic]
  rw [branch_resume w hst hfl]
  by_cases hu : f0 .update (trailerAt c 1) = ST_UPDATING
  · rw [hu, show decide (ST_UPDATING ≠ ST_UPDATING) = false by simp]
    cases inv with
    | false =>
      exact deltaUpdate_D2 w hx.parm.bk6 hx.parm.bkd hx.parm.hY hx.parm.hU hx.parm.patch hI
        (select_resume w hx.parm.patch hx.hash hI.upd)
    | true =>
      obtain ⟨off', size', P', hp'⟩ := hx.other rfl
      exact deltaUpdate_D2 w hx.parm.bk6 hx.parm.bkd hx.parm.hY hx.parm.hU hp' hI
        (select_resume w hp' hx.hash hI.upd)
  · rw [show decide (f0 .update (trailerAt c 1) ≠ ST_UPDATING) = true from decide_eq_true hu]
    cases inv with
    | false => exact absurd (hI.go rfl) hu
    | true =>
      exact deltaUpdate_D2 w hx.parm.bk6 hx.parm.bkd hx.parm.hY hx.parm.hU hx.parm.patch hI
        (select_resume w hx.parm.patch hx.hash hI.upd)

/-- `wolfBoot_update` reaches the delta branch. -/
theorem wbUpdateD_branch {T : Mem → Prop} {Q : Bool → Flash → Prop} {C : Flash → Prop} {fallback : Bool} {f0 : Flash}
    (hU : NewOK c e U) (hdel : isDelta (e.typ U)) (hu : Agree (f0 .update) U 0 (imgLen c U))
    (hgo : (getFlag c f0 0).getD FL_NEW = FL_NEW → fallback = true ∨ e.ver (f0 .boot) < e.ver (f0 .update))
    (h : Triple T true (fun f => f = f0) (deltaBranch c e d fallback f0) true Q C) :
    Triple T true (fun f => f = f0) (wbUpdateD c e d fallback) true Q C := by
  have h8 := w.h8
  have hfw := fw_base w hU.img (hu.mono (Nat.le_refl _) (by unfold imgLen; omega))
  have hpos := hU.img.pos
  unfold wbUpdateD
  refine Triple.readFlash (fun f hf => ?_)
  subst hf
  dsimp only
  rw [if_neg (by rw [totalSize_eq, hfw]; unfold imgLen; omega),
    if_neg (fun h => h.2 ((acceptable_congr w hU.loc hu).mpr hU.acc)), if_neg (fun h => h.2 (hgo h.1)),
    if_pos (by rw [(hU.loc _ hu).1]; exact hdel)]
  exact h

/-- `wolfBoot_start` until BOOT is verified. -/
theorem startUpdateD_of {T : Mem → Prop} {Q : Flash → Prop} {C : Flash → Prop} {f0 : Flash}
    (hB : le32 (f0 .boot) c.tmp ≠ MAGIC_TRAIL) (hst : (getState c f0 .update).getD e.junk ≠ ST_FINAL)
    (hgo : getState c f0 .boot = some ST_TESTING ∨ getState c f0 .update = some ST_UPDATING)
    (h : ∀ fallback, (fallback = false → getState c f0 .update = some ST_UPDATING) →
      (fallback = true → getState c f0 .boot = some ST_TESTING) →
      Triple T true (fun f => f = f0) (wbUpdateD c e d fallback) true (fun r f => r = true ∧ Q f) C) :
    Triple T true (fun f => f = f0) (startUpdateD c e d) true (fun _ f => Q f) C := by
  unfold startUpdateD
  refine Triple.readFlash (fun f hf => ?_)
  subst hf
  refine Triple.bind (l' := true) (swapFinal_none hB hst) (fun r => ?_)
  refine Triple.ofEq (fun g ⟨hr, hg⟩ => ?_)
  subst hr; subst hg
  rw [if_neg (by simp)]
  have fin : ∀ (m : M Bool), Triple T true (fun f => f = g) m true
      (fun r f => r = true ∧ Q f) C →
      Triple T true (fun f => f = g) (m >>= fun _ => pure ()) true (fun _ f => Q f) C := by
    intro m hm
    refine Triple.bind hm (fun r => ?_)
    exact (Triple.pure (Q := fun _ f => Q f) ()).pre (fun f h => h.2)
  refine Triple.ite (fun hT => ?_) (fun hT => ?_)
  · exact fin _ (h true (by simp) (fun _ => hT))
  · have hu := hgo.resolve_left hT
    rw [if_pos hu]
    exact fin _ (h false (fun _ => hu) (by simp))

theorem startD_of {T : Mem → Prop} {Q C : Flash → Prop} {f0 : Flash}
    (h : Triple T true (fun f => f = f0) (startUpdateD c e d) true (fun _ f => Q f) C)
    (hb : ∀ f, Q f → bootable c e (f .boot)) (hC : ∀ f, Q f → C f) :
    Triple T true (fun f => f = f0) (startD c e d) true (fun _ f => Q f) C := by
  unfold startD
  exact Triple.bind h (fun _ => boot_tick w hb hC)

/-- `wolfBoot_start` during a delta update. -/
theorem startD_prog (hx : DCtx c e d X Y U inv off size P) {f0 : Flash}
    (h : DIx c X Y U inv P f0 ∨ D2 c Y U inv f0 ∨ FinI c U (imgLen c U) Y (imgLen c Y) f0) :
    Triple (TD c inv) true (fun f => f = f0) (startD c e d) true
      (fun _ f => DoneI c U (imgLen c U) Y (imgLen c Y) f) (DProg c X Y U inv P) := by
  have hn2 := w.n2
  have h8 := w.h8
  have hfU := hx.parm.hU.fits
  refine startD_of w ?_ (fun f h => h.bootable w hx.new rfl) (fun f h => Or.inr (Or.inr (Or.inr h)))
  rcases h with ⟨k, sw, hI⟩ | hI | hI
  · have hm : inv = false → hasMagic c f0 .update := fun h => hI.magic (Or.inl h)
    have hnf : f0 .update (trailerAt c 1) ≠ ST_FINAL := by rw [hI.st]; split <;> decide
    refine startUpdateD_of w hI.ntB (state_ne_final w ?_ hnf) ?_ (fun fb hf1 hf2 => ?_)
    · cases inv with
      | false => exact Or.inl (hm rfl)
      | true => exact Or.inr (hx.junk rfl)
    · cases inv with
      | false =>
        right
        have := hI.st
        rw [if_neg (by simp)] at this
        exact getState_updating.mpr ⟨hm rfl, this⟩
      | true => exact Or.inl (getState_testing.mpr (hI.test rfl))
    · refine wbUpdateD_branch w hx.upd hx.delta hI.upd (fun hfl => ?_) (branch_DI w hx hI)
      cases fb with
      | true => exact Or.inl rfl
      | false =>
        right
        have hs := (getState_updating.mp (hf1 rfl)).2
        have hinv : inv = false := by
          cases inv with
          | false => rfl
          | true => rw [hI.st, if_pos rfl] at hs; exact absurd hs (by decide)
        subst hinv
        have hk : k = 0 := by
          rcases Nat.eq_zero_or_pos k with h | h
          · exact h
          · exact absurd hfl (hI.flagDone w h).1
        subst hk
        have hsw : sw = false := by
          cases sw with
          | false => rfl
          | true => rw [hI.flag w (by omega)] at hfl; exact absurd hfl (by decide)
        subst hsw
        rw [(hx.locX _ (hI.start0 w hx.parm)).2.1, (hx.upd.loc _ hI.upd).2.1]
        exact (hx.verF rfl).2
  · refine startUpdateD_of w hI.ntB (state_ne_final w (Or.inl hI.magic) hI.stNF) ?_ (fun fb hf1 hf2 => ?_)
    · cases inv with
      | false => exact Or.inr (getState_updating.mpr ⟨hI.magic, hI.go rfl⟩)
      | true => exact Or.inl (getState_testing.mpr (hI.test rfl))
    · refine wbUpdateD_branch w hx.upd hx.delta hI.upd (fun hfl => ?_) (branch_D2 w hx hI)
      unfold getFlag at hfl
      rw [if_pos hI.magic] at hfl
      exact absurd hfl (hI.flags 0 (by unfold imgLen; omega)).1
  · unfold startUpdateD
    refine Triple.readFlash (fun f hf => ?_)
    subst hf
    refine Triple.bind (l' := true) (Q := fun r f => r = true ∧ DoneI c U (imgLen c U) Y (imgLen c Y) f)
      (((swapFinal_resume' w e hx.parm.hY rfl hfU).monoT (fun t h => h.1)).conseq
        (fun g hg => by rw [hg]; exact hI) (fun _ _ h => h) ?_) (fun r => ?_)
    · rintro g h
      exact Or.inr (Or.inr h)
    · refine Triple.ofEq (fun g ⟨hr, hg⟩ => ?_)
      subst hr
      rw [if_pos rfl]
      exact (Triple.pure (Q := fun _ f => DoneI c U (imgLen c U) Y (imgLen c Y) f) ()).pre
        (fun f h => by rw [h]; exact hg)

/-- `wolfBoot_start` when an unconfirmed base is found together with a delta image that leads away from
it. -/
theorem startD_pre (hx : DCtx c e d X Y U false off size P) (hj : e.junk ≠ ST_FINAL) {f0 : Flash}
    (h : PreD c X U f0) :
    Triple (TD c false) true (fun f => f = f0) (startD c e d) true
      (fun _ f => DoneI c U (imgLen c U) Y (imgLen c Y) f) (fun f => PreD c X U f ∨ DProg c X Y U false P f) := by
  have hn2 := w.n2
  have h8 := w.h8
  have hss := w.ss_pos
  have hle := w.last_eq
  have hfX := hx.parm.hX.fits
  have hfU := hx.parm.hU.fits
  refine startD_of w ?_ (fun f h => h.bootable w hx.new rfl) (fun f h => Or.inr (Or.inr (Or.inr (Or.inr h))))
  have hI := h.idle
  refine startUpdateD_of w hI.ntB (hI.state w hj) (Or.inl (getState_testing.mpr h.test)) (fun fb hf1 hf2 => ?_)
  have hvb := (hx.locX _ hI.boot).2.1
  have hvu := (hx.upd.loc _ h.upd).2.1
  obtain ⟨hne, hlt⟩ := hx.verF rfl
  refine wbUpdateD_branch w hx.upd hx.delta h.upd (fun _ => ?_) ?_
  · right; rw [hvb, hvu]; exact hlt
  rw [branch_fresh w (hI.flag0 w) (by rw [hvb]; exact hne), hvb, hvu]
  have hadv : ∀ f : Flash, hasMagic c f .update → f .update (trailerAt c 1) = ST_UPDATING →
      f .boot = f0 .boot → (∀ x, x < c.last → f .update x = f0 .update x) →
      (∀ j, j < c.n → rawFlag c f j = rawFlag c f0 j) → DI c X Y U false P 0 false f := by
    intro f h1 h2 h3 h4 h5
    refine ⟨?_, by omega, by simp, ?_, ?_, by omega, ?_, ?_, by simp, h1.magicP, fun _ => h1, by rw [h2]; simp,
      by simp, by simp, by rw [h3]; exact hI.ntB, ?_⟩
    · intro o h1 h2; rw [h4 o (by omega)]; exact h.upd o h1 h2
    · intro x hx; rw [Nat.zero_mul] at hx; omega
    · intro x _ hxX; rw [h3]; exact hI.boot x (by omega) hxX
    · intro _; rw [h5 0 (by omega)]; simpa using hI.flags 0 (by omega)
    · intro j _ hj; rw [h5 j (by omega)]; exact hI.flags j hj
    · rw [le32_congr (m := f .update) (x := f0 .update) (fun o _ _ => h4 o (by omega))]
      exact hI.ntU
  refine Triple.ite (fun _ => ?_) (fun hn => ?_)
  · refine Triple.bind (l' := false) Triple.unlock (fun _ => ?_)
    refine Triple.bind (l' := false) ((setUpdating_spec w hI.magicP hI.stU).conseq
      (fun _ h => h) (fun _ _ h => h) ?_) (fun _ => ?_)
    · rintro f ⟨h1, h2, h3, h4, h5, h6, h7⟩
      left
      refine ⟨⟨by rw [h5]; exact hI.boot, by rw [h5]; exact hI.ntB, ?_, ?_, h1, h3⟩, ?_, ?_⟩
      · rw [le32_congr (m := f .update) (x := f0 .update) (fun o _ _ => h6 o (by omega))]
        exact hI.ntU
      · intro j hj; rw [h7 j (by omega)]; exact hI.flags j hj
      · intro o h1 h2; rw [h6 o (by omega)]; exact h.upd o h1 h2
      · exact testing_frame w (fun x _ => by rw [h5]) h.test
    · refine Triple.bind (l' := true) Triple.lock (fun _ => ?_)
      refine Triple.ofEq (fun f ⟨h1, h2, h3, h4, h5⟩ => ?_)
      refine (deltaFresh_spec w hx (hadv f h1 h2 h3 h4 h5) (by rw [h3]) ?_).conseq (fun _ h => h) (fun _ _ h => h)
        (fun _ h => Or.inr h)
      refine (fwSize_congr (fun o _ ho => h4 o ?_)).symm
      have := h_le_imgLen c U
      omega
  · have hfb : fb = false := by
      cases fb with
      | false => rfl
      | true => exact absurd ⟨hlt, rfl⟩ hn
    obtain ⟨hm, hs⟩ := getState_updating.mp (hf1 hfb)
    rw [decide_eq_false (by omega)]
    exact (deltaFresh_spec w hx (hadv f0 hm hs rfl (fun _ _ => rfl) (fun _ _ => rfl)) rfl rfl).conseq
      (fun _ h => h) (fun _ _ h => h) (fun _ h => Or.inr h)

/-- A completed update, seen as the beginning of the update in the other direction. -/
theorem DoneI.invDI {f : Flash} (hp : DParm c d X Y U true off size P)
    (h : DoneI c U (imgLen c U) X (imgLen c X) f) : DI c X Y U true P 0 false f := by
  have hI := h.idle w rfl
  have hss := w.ss_pos
  have htb := trailer_bounds w (k := 1) (by omega)
  have hn2 := w.n2
  refine ⟨h.upd, by omega, by simp, ?_, fun x _ hx => h.boot x (by omega) hx, by omega, ?_, ?_, by simp,
    hI.magicP, by simp, ?_, fun _ => h.testing, by simp, h.ntB, h.ntU⟩
  · intro x hx; rw [Nat.zero_mul] at hx; omega
  · intro _; simpa using hI.flags 0 (by omega)
  · intro j _ hj; exact hI.flags j hj
  · rw [if_pos rfl, h.blank _ (by omega) (by omega)]

theorem DoneI.pre {f : Flash} (h : DoneI c U (imgLen c U) X (imgLen c X) f) : PreD c X U f :=
  ⟨h.idle w rfl, h.upd, h.testing⟩

end

end Verif
