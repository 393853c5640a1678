import Verif.StartLemmas
import Verif.DualThms
import Verif.Demo

/-!
# Updates without a backup: `DISABLE_BACKUP`

Model of `wolfBoot_update` and `wolfBoot_start` (`/repo/src/update_flash.c:580-875,987-1112`) for the build option
`DISABLE_BACKUP`: there is no swap, the UPDATE partition is copied over the BOOT partition. The comment in the code
says "Direct Swap without power fail safety" (line 832). The theorems show which guarantees hold nevertheless.

Other build options as in `Verif.Swap`.
-/

namespace Verif

/-- The copy loop, `/repo/src/update_flash.c:845-848`. Returns the final sector number. -/
def directLoop (c : Cfg) (updFw total : Nat) : Nat → Nat → M Nat
  | 0, _ => stuckM
  | fuel + 1, sector =>
    if sector * c.ss < total then do
      copySector c .update updFw .boot sector
      directLoop c updFw total fuel (sector + 1)
    else pure sector

/-- Erase of the rest of the BOOT partition, the trailer included, `/repo/src/update_flash.c:855-858`. -/
def directErase (c : Cfg) : Nat → Nat → M Unit
  | 0, _ => stuckM
  | fuel + 1, sector =>
    if sector * c.ss < c.part then do
      erase c .boot (sector * c.ss) c.ss
      directErase c fuel (sector + 1)
    else pure ()

/-- `wolfBoot_update(fallback_allowed)` with `DISABLE_BACKUP`, `/repo/src/update_flash.c:580-664,817-874`.
Returns `true` for 0, `false` for -1. -/
def wbUpdateDirect (c : Cfg) (e : Env) (fallback : Bool) : M Bool := do
  let f ← readFlash
  let updFw := fwSize c (f .update)
  let bootFw := fwSize c (f .boot)
  -- 610-613
  if totalSize c bootFw updFw ≤ c.h then pure false
  -- 620-642
  else if (getFlag c f 0).getD FL_NEW = FL_NEW ∧ ¬ acceptable c e (f .update) then pure false
  -- 645-664
  else if (getFlag c f 0).getD FL_NEW = FL_NEW ∧
      ¬ (fallback = true ∨ e.ver (f .boot) < e.ver (f .update)) then pure false
  else do
    -- 834
    unlock
    -- 845-858
    let sector ← directLoop c updFw (totalSize c bootFw updFw) (c.n + 2) 0
    directErase c (c.n + 2) sector
    -- 861
    setState c .boot ST_SUCCESS
    -- 866
    lock
    pure true

/-- Roll back or start an update, `/repo/src/update_flash.c:1029-1043` (the resumption at lines 1023-1027 is not
compiled in). -/
def startUpdateDirect (c : Cfg) (e : Env) : M Unit := do
  let f ← readFlash
  if getState c f .boot = some ST_TESTING then do
    let _ ← wbUpdateDirect c e true
    pure ()
  else if getState c f .update = some ST_UPDATING then do
    let _ ← wbUpdateDirect c e false
    pure ()
  else pure ()

/-- The emergency update, `/repo/src/update_flash.c:1054-1082`. -/
def emergencyDirect (c : Cfg) (e : Env) : M Unit := do
  let r ← wbUpdateDirect c e true
  if r = false then panicM
  else do
    let f ← readFlash
    if bootable c e (f .boot) then tick else panicM

/-- `wolfBoot_start` with `DISABLE_BACKUP`, `/repo/src/update_flash.c:987-1112`. -/
def startDirect (c : Cfg) (e : Env) : M Unit := do
  startUpdateDirect c e
  let f ← readFlash
  if bootable c e (f .boot) then tick else emergencyDirect c e

/-! ## Specification -/

/-- A reboot during which the power does not fail. -/
def bootUpDirect (c : Cfg) (e : Env) (f : Flash) : Res Unit :=
  startDirect c e { fl := f, locked := true, budget := none, torn := fun _ => 0#8 }

/-- A reboot during which the power fails at flash operation number `n`, leaving `t` behind. -/
def bootFailDirect (c : Cfg) (e : Env) (f : Flash) (n : Nat) (t : Mem) : Res Unit :=
  startDirect c e { fl := f, locked := true, budget := some n, torn := t }

/-- `g` is reached from `f` by any number of reboots, each of them ended by a power failure that leaves arbitrary
bytes in the region being written. -/
inductive CutDirect (c : Cfg) (e : Env) (f : Flash) : Flash → Prop
  | none : CutDirect c e f f
  | again {g g' : Flash} {n : Nat} {t : Mem} : CutDirect c e f g → bootFailDirect c e g n t = .crash g' →
      CutDirect c e f g'

/-- A signed image `New` is in UPDATE and its installation has been requested. -/
structure Requested (c : Cfg) (New : Mem) (f : Flash) : Prop where
  new : Holds c f .update New
  state : getState c f .update = some ST_UPDATING
  flag : getFlag c f 0 = some FL_NEW

/-! ## Lemmas -/

section
variable {c : Cfg} (w : c.WF) {e : Env} {New : Mem}

theorem Requested.congr {f g : Flash} (h : Requested c New f) (hg : g .update = f .update) : Requested c New g := by
  refine ⟨fun o ho => by rw [hg]; exact h.new o ho, ?_, ?_⟩
  · rw [← h.state]; exact getState_congr' hg
  · have hm : hasMagic c g .update = hasMagic c f .update := by unfold hasMagic; rw [hg]
    rw [← h.flag]; unfold getFlag rawFlag; simp only [hm, hg]

include w

theorem directLoop_spec {T : Mem → Prop} {U : Mem} {fw total : Nat} (ht : total ≤ c.part) :
    ∀ fuel k, k ≤ c.n → c.n < fuel + k →
    Triple T false
      (fun f => f .update = U ∧ ∀ j o, j < k → o < c.ss → f .boot (j * c.ss + o) = copied c fw (j * c.ss) U o)
      (directLoop c fw total fuel k) false
      (fun K f => (f .update = U ∧ ∀ j o, j < K → o < c.ss → f .boot (j * c.ss + o) = copied c fw (j * c.ss) U o) ∧
        K ≤ c.n ∧ total ≤ K * c.ss)
      (fun f => f .update = U) := by
  have hss := w.ss_pos
  intro fuel
  induction fuel with
  | zero => intro k hk hf; omega
  | succ fuel ih =>
    intro k hk hf
    unfold directLoop
    refine Triple.ite (fun h => ?_) (fun h => ?_)
    · have hkn : k < c.n := by
        rcases Nat.lt_or_ge k c.n with h' | h'
        · exact h'
        · have := Nat.mul_le_mul_right c.ss h'
          unfold Cfg.part at ht
          omega
      refine Triple.bind (Triple.ofEq (fun f hf => ?_)) (fun _ => ih (k + 1) (by omega) (by omega))
      refine (copySector_specS w (T := T) (src := .update) (dst := .boot) (by decide) (fw := fw) (k := k) f).conseq
        (fun _ h => h) ?_ ?_
      · rintro _ g ⟨hs, hd⟩
        have hso : secOff c .boot k = k * c.ss := rfl
        rw [hso] at hs hd
        refine ⟨by rw [← hf.1]; exact funext fun a => hs _ _ (fun hh => by simp at hh), fun j o hj ho => ?_⟩
        rcases Nat.lt_or_ge j k with hlt | hge
        · rw [← hf.2 j o hlt ho]
          have := sec_lt (ss := c.ss) hlt
          exact hs.out (by omega)
        · have : j = k := by omega
          subst this
          rw [hd o ho, hf.1]; rfl
      · rintro g (rfl | hg)
        · exact hf.1
        · rw [← hf.1]; exact funext fun a => hg.1 _ _ (fun hh => by simp at hh)
    · refine (Triple.pure (Q := fun K f => (f .update = U ∧ ∀ j o, j < K → o < c.ss →
        f .boot (j * c.ss + o) = copied c fw (j * c.ss) U o) ∧ K ≤ c.n ∧ total ≤ K * c.ss) k).pre (fun f hf => ?_)
      exact ⟨hf, hk, by omega⟩

theorem directErase_spec {T : Mem → Prop} {K : Nat} (f0 : Flash) :
    ∀ fuel k, K ≤ k → k ≤ c.n → c.n < fuel + k →
    Triple T false
      (fun f => Same .boot (K * c.ss) c.part f0 f ∧ ∀ o, K * c.ss ≤ o → o < k * c.ss → f .boot o = 0xFF#8)
      (directErase c fuel k) false
      (fun _ f => Same .boot (K * c.ss) c.part f0 f ∧ ∀ o, K * c.ss ≤ o → o < c.part → f .boot o = 0xFF#8)
      (fun f => f .update = f0 .update) := by
  have hss := w.ss_pos
  have up : ∀ lo hi f, Same .boot lo hi f0 f → f .update = f0 .update := fun lo hi f h =>
    funext fun a => h _ _ (fun hh => by simp at hh)
  intro fuel
  induction fuel with
  | zero => intro k hK hk hf; omega
  | succ fuel ih =>
    intro k hK hk hf
    have hKk := Nat.mul_le_mul_right c.ss hK
    unfold directErase
    refine Triple.ite (fun h => ?_) (fun h => ?_)
    · have hkn : k < c.n := by
        rcases Nat.lt_or_ge k c.n with h' | h'
        · exact h'
        · have := Nat.mul_le_mul_right c.ss h'
          unfold Cfg.part at h
          omega
      have hle : k * c.ss + c.ss ≤ c.part := sec_lt hkn
      have hs1 : (k + 1) * c.ss = k * c.ss + c.ss := Nat.succ_mul _ _
      refine Triple.bind ?_ (fun _ => ih (k + 1) (by omega) (by omega) (by omega))
      refine Triple.erase ?_ ?_
      · rintro f ⟨h1, h2⟩
        have hs := same_erase f .boot (k * c.ss) c.ss
        refine ⟨h1.trans (hs.mono (by omega) (by omega)), fun o ha hb => ?_⟩
        by_cases hin : k * c.ss ≤ o
        · unfold Flash.erase
          rw [if_pos ⟨rfl, hin, by omega⟩]
        · rw [hs.out (by omega)]
          exact h2 o ha (by omega)
      · rintro t f _ ⟨h1, h2⟩
        rw [← up _ _ _ h1]
        exact funext fun a => (same_tornErase c t f .boot (k * c.ss) c.ss) _ _ (fun hh => by simp at hh)
    · refine (Triple.pure (Q := fun _ f => Same .boot (K * c.ss) c.part f0 f ∧
        ∀ o, K * c.ss ≤ o → o < c.part → f .boot o = 0xFF#8) ()).pre (fun f hf => ?_)
      exact ⟨hf.1, fun o ha hb => hf.2 o ha (by omega)⟩

/-- The installation proper. -/
theorem directInstall_spec {T : Mem → Prop} {U : Mem} {fw total : Nat} (ht : total ≤ c.part) (hfw : fw + c.h ≤ total)
    (hfl : fw + c.h ≤ c.last) (hU : le32 U (trailerAt c 0) = MAGIC_TRAIL) {l : Bool} :
    Triple T l (fun f => f .update = U)
      (unlock >>= fun _ => directLoop c fw total (c.n + 2) 0 >>= fun sector => directErase c (c.n + 2) sector >>= fun _ =>
        setState c .boot ST_SUCCESS >>= fun _ => lock >>= fun _ => (pure true : M Bool)) true
      (fun r f => r = true ∧ f .update = U ∧ (∀ o, o < fw + c.h → f .boot o = U o) ∧
        getState c f .boot = some ST_SUCCESS)
      (fun f => f .update = U) := by
  have hss := w.ss_pos
  have hfb := w.fb4
  have hpl := w.part_eq
  have hb0 := trailer_bounds w (k := 0) (by omega)
  have hb1 := trailer_bounds w (k := 1) (by omega)
  refine Triple.bind (Triple.unlock (P := fun f => f .update = U)) (fun _ => ?_)
  refine Triple.bind ((directLoop_spec w (T := T) (U := U) (fw := fw) ht (c.n + 2) 0 (by omega) (by omega)).pre
    (fun f hf => ⟨hf, fun j o hj => by omega⟩)) (fun K => ?_)
  refine Triple.ofEq (fun f1 hf1 => ?_)
  obtain ⟨⟨h1, h2⟩, hK, hT⟩ := hf1
  have hcop : ∀ o, o < K * c.ss → ∃ j r, j < K ∧ r < c.ss ∧ o = j * c.ss + r := by
    intro o ho
    refine ⟨o / c.ss, o % c.ss, (Nat.div_lt_iff_lt_mul (by omega)).mpr ho, Nat.mod_lt _ (by omega), ?_⟩
    exact (Nat.div_add_mod' o c.ss).symm
  refine Triple.bind (Q := fun _ f => Same .boot (K * c.ss) c.part f1 f ∧
      ∀ o, K * c.ss ≤ o → o < c.part → f .boot o = 0xFF#8)
    ((directErase_spec w (T := T) (K := K) f1 (c.n + 2) K (Nat.le_refl _) hK (by omega)).conseq
    (fun g hg => by subst hg; exact ⟨Same.refl _ _ _ _, fun o ha hb => by omega⟩) (fun _ _ h => h)
    (fun f hf => by rw [hf]; exact h1)) (fun _ => ?_)
  refine Triple.ofEq (fun f2 hf2 => ?_)
  obtain ⟨h3, h4⟩ := hf2
  have hu2 : f2 .update = U := by
    rw [← h1]; exact funext fun a => h3 _ _ (fun hh => by simp at hh)
  -- the magic word can be written
  have hmag : MagicP c f2 .boot := by
    intro i hi
    have ff : ∀ x : Nat, (0xFF#8) &&& magicByte x = magicByte x := by
      intro x; unfold magicByte; split <;> decide
    by_cases hKn : K = c.n
    · have e1 : f2 .boot (trailerAt c 0 + i) = f1 .boot (trailerAt c 0 + i) := by
        refine h3.out (Or.inl ?_)
        rw [hKn]
        show _ < c.n * c.ss
        have : c.part = c.n * c.ss := rfl
        omega
      have e2 : trailerAt c 0 + i = (c.n - 1) * c.ss + (c.ss - 4 + i) := by
        have : c.last = (c.n - 1) * c.ss := rfl
        omega
      rw [e1, e2, h2 (c.n - 1) (c.ss - 4 + i) (by have := w.n2; omega) (by omega)]
      unfold copied
      split
      · rw [← e2, magic_of_le32 hU i hi]; exact BitVec.and_self
      · exact ff i
    · have hlt : K < c.n := by omega
      have := sec_lt (ss := c.ss) hlt
      have hp : c.part = c.n * c.ss := rfl
      have hKl : K * c.ss ≤ c.last := by omega
      rw [h4 _ (by omega) (by omega)]
      exact ff i
  refine Triple.bind (Q := fun _ f => f .update = U ∧ (∀ o, o < fw + c.h → f .boot o = U o) ∧
    getState c f .boot = some ST_SUCCESS) ((setState_spec w (T := T) (p := .boot) (by decide) f2 ST_SUCCESS hmag
      (by show _ &&& 0x00#8 = 0x00#8; exact BitVec.and_zero)).conseq (fun _ h => h) ?_ ?_)
    (fun _ => Triple.bind Triple.lock (fun _ => ?_))
  · rintro _ f ⟨ha, hb, hs⟩
    refine ⟨by rw [← hu2]; exact funext fun a => hs _ _ (fun hh => by simp at hh), fun o ho => ?_, ?_⟩
    · obtain ⟨j, r, hj, hr, rfl⟩ := hcop o (by omega)
      rw [hs.out (by omega), h3.out (by omega), h2 j r hj hr, copied_lt (by omega) ho]
    · unfold getState
      rw [if_pos ha, hb]
  · rintro f ⟨hs, _⟩
    rw [← hu2]; exact funext fun a => hs _ _ (fun hh => by simp at hh)
  · exact (Triple.pure (Q := fun r f => r = true ∧ f .update = U ∧ (∀ o, o < fw + c.h → f .boot o = U o) ∧
      getState c f .boot = some ST_SUCCESS) true).pre (fun f hf => ⟨rfl, hf⟩)

/-- Facts about the update. -/
theorem Requested.facts {f : Flash} (hN : GoodImage c e New) (h : Requested c New f) :
    acceptable c e (f .update) ∧ fwSize c (f .update) + c.h = imageBytes c New ∧ 0 < fwSize c (f .update) ∧
    imageBytes c New ≤ c.last ∧ e.ver (f .update) = e.ver New ∧ le32 (f .update) (trailerAt c 0) = MAGIC_TRAIL := by
  have h8 := w.h8
  have hpl := w.part_eq
  have hss := w.ss_pos
  have hb := hN.bootableOf w h.new
  have hL := hN.loc _ h.new
  have hfs : fwSize c (f .update) = le32 New 4 := by rw [fwSize_of_open hb.1.1, hb.2]
  have hfit := hN.fits
  have hi : imageBytes c New = c.h + le32 New 4 := rfl
  have hne := hN.nonempty
  refine ⟨⟨by rw [hL.1]; exact hN.type, ?_, hb.1.2.1, hb.1.2.2⟩, by omega, by omega, by omega, hL.2.1, ?_⟩
  · rw [hfs]; unfold maxUpdateSize; omega
  · have := h.state
    unfold getState at this
    split at this
    · assumption
    · simp at this

theorem wbUpdateDirect_go {T : Mem → Prop} {l : Bool} {f0 : Flash} {fb : Bool} (hN : GoodImage c e New)
    (h : Requested c New f0) (hv : fb = true ∨ e.ver (f0 .boot) < e.ver New) :
    Triple T l (fun f => f = f0) (wbUpdateDirect c e fb) true
      (fun r f => r = true ∧ f .update = f0 .update ∧ Holds c f .boot New ∧ getState c f .boot = some ST_SUCCESS)
      (fun f => f .update = f0 .update) := by
  obtain ⟨ha, hs, hp, hl, hver, hm⟩ := h.facts w hN
  have hpl := w.part_eq
  unfold wbUpdateDirect
  refine Triple.readFlash (fun f hf => ?_)
  subst hf
  have htot := totalSize_eq (c := c) (fwSize c (f .boot)) (fwSize c (f .update))
  have hle := fwSize_le c (f .boot)
  have hhp : c.h ≤ c.part := by have := w.h_le; omega
  rw [if_neg (by omega), if_neg (fun hh => hh.2 ha), if_neg (fun hh => hh.2 (by rw [hver]; exact hv))]
  refine (directInstall_spec w (T := T) (U := f .update) (fw := fwSize c (f .update))
    (total := totalSize c (fwSize c (f .boot)) (fwSize c (f .update))) (by omega) (by omega) (by omega) hm).conseq
    (fun g hg => by rw [hg]) ?_ (fun _ h => h)
  rintro r g ⟨hr, hu, hb, hst⟩
  refine ⟨hr, hu, fun o ho => ?_, hst⟩
  rw [hb o (by omega)]
  exact h.new o ho

omit w in
theorem wbUpdateDirect_no {T : Mem → Prop} {C : Flash → Prop} {l : Bool} {f0 : Flash} (h : Requested c New f0)
    (hv : ¬ e.ver (f0 .boot) < e.ver (f0 .update)) :
    Triple T l (fun f => f = f0) (wbUpdateDirect c e false) l (fun r f => r = false ∧ f = f0) C := by
  unfold wbUpdateDirect
  refine Triple.readFlash (fun f hf => ?_)
  subst hf
  have hp : Triple T l (fun g => g = f) (pure false : M Bool) l (fun r g => r = false ∧ g = f) C :=
    (Triple.pure (Q := fun r g => r = false ∧ g = f) false).pre (fun g hg => ⟨rfl, hg⟩)
  have hfl : (getFlag c f 0).getD FL_NEW = FL_NEW := by rw [h.flag]; rfl
  refine Triple.ite (fun _ => hp) (fun _ => Triple.ite (fun _ => hp) (fun _ => ?_))
  rw [if_pos ⟨hfl, by rintro (h | h); (· simp at h); (· exact hv h)⟩]
  exact hp

/-- What a boot ends in. -/
def DirectEnd (c : Cfg) (e : Env) (New : Mem) (f0 f : Flash) : Prop :=
  f .update = f0 .update ∧ ((Holds c f .boot New ∧ getState c f .boot = some ST_SUCCESS) ∨
    (f = f0 ∧ e.ver New ≤ e.ver (f0 .boot) ∧ getState c f0 .boot ≠ some ST_TESTING))

theorem startDirect_spec {T : Mem → Prop} {f0 : Flash} (hN : GoodImage c e New) (h : Requested c New f0) :
    Triple T true (fun f => f = f0) (startDirect c e) true
      (fun _ f => bootable c e (f .boot) ∧ DirectEnd c e New f0 f) (fun f => f .update = f0 .update) := by
  have hver : e.ver (f0 .update) = e.ver New := (h.facts w hN).2.2.2.2.1
  unfold startDirect
  refine Triple.bind (l' := true) (Q := fun _ f => DirectEnd c e New f0 f) ?_ (fun _ => ?_)
  · unfold startUpdateDirect
    refine Triple.readFlash (fun f hf => ?_)
    subst hf
    have drop : ∀ (m : M Bool) (R : Flash → Prop), Triple T true (fun g => g = f) m true (fun _ g => R g)
        (fun g => g .update = f .update) → Triple T true (fun g => g = f) (m >>= fun _ => pure ()) true
        (fun _ g => R g) (fun g => g .update = f .update) := fun m R hm =>
      Triple.bind hm (fun _ => Triple.pure (Q := fun _ g => R g) ())
    refine Triple.ite (fun hb => ?_) (fun hb => ?_)
    · refine drop _ _ ((wbUpdateDirect_go w hN h (Or.inl rfl)).conseq (fun _ h => h) ?_ (fun _ h => h))
      rintro r g ⟨_, h1, h2⟩
      exact ⟨h1, Or.inl h2⟩
    · rw [if_pos h.state]
      refine drop _ _ ?_
      by_cases hv : e.ver (f .boot) < e.ver New
      · refine (wbUpdateDirect_go w hN h (Or.inr hv)).conseq (fun _ h => h) ?_ (fun _ h => h)
        rintro r g ⟨_, h1, h2⟩
        exact ⟨h1, Or.inl h2⟩
      · refine (wbUpdateDirect_no h (by rw [hver]; exact hv)).conseq (fun _ h => h) ?_ (fun _ h => h)
        rintro r g ⟨_, rfl⟩
        exact ⟨rfl, Or.inr ⟨rfl, by omega, hb⟩⟩
  · refine Triple.readFlash (fun f hf => ?_)
    have hfin : ∀ g, (g .update = f .update ∧ Holds c g .boot New ∧ getState c g .boot = some ST_SUCCESS) →
        bootable c e (g .boot) ∧ DirectEnd c e New f0 g := by
      rintro g ⟨h1, h2, h3⟩
      exact ⟨(hN.bootableOf w h2).1, h1.trans hf.1, Or.inl ⟨h2, h3⟩⟩
    refine Triple.ite (fun hb => ?_) (fun hb => ?_)
    · refine (Triple.tick (P := fun g => g = f) (C := fun g => g .update = f0 .update)
        (fun g hg => by rw [hg]; exact hf.1)).conseq (fun _ h => h) ?_ (fun _ h => h)
      rintro _ g rfl
      exact ⟨hb, hf⟩
    · unfold emergencyDirect
      refine Triple.bind ((wbUpdateDirect_go w hN (h.congr hf.1) (Or.inl rfl)).conseq (fun _ h => h)
        (fun _ _ h => h) (fun g hg => by rw [hg]; exact hf.1)) (fun r => ?_)
      refine Triple.ofEq (fun g hg => ?_)
      rw [if_neg (by simp [hg.1])]
      have hg' := hfin g hg.2
      exact (boot_tick w (P := fun x => x = g) (fun x hx => by rw [hx]; exact hg'.1)
        (fun x hx => by rw [hx]; exact hg'.2.1)).conseq (fun _ h => h) (fun _ x hx => by rw [hx]; exact hg') (fun _ h => h)

theorem CutDirect.update {f g : Flash} (hN : GoodImage c e New) (h : Requested c New f) (hc : CutDirect c e f g) :
    g .update = f .update := by
  induction hc with
  | none => rfl
  | again hc hr ih =>
    rename_i g g' n t
    have := startDirect_spec w (T := fun _ => True) hN (h.congr ih)
      { fl := g, locked := true, budget := some n, torn := t } trivial rfl rfl
    unfold bootFailDirect at hr
    rw [hr] at this
    exact this.2.trans ih

/-! ## The property -/

/-- **Power failures cannot brick the device in a build without backup**: a signed image `New` has been requested;
BOOT holds anything whatsoever. After any number of reboots ended by power failures (leaving arbitrary bytes behind),
a reboot with power starts an image that passes verification: `New`, all of its bytes, or what the last power failure
left in BOOT, if that passes verification, has a version at least that of `New` and is not marked TESTING. The UPDATE partition is
never changed. -/
theorem direct_update_never_bricks {f g : Flash} (hN : GoodImage c e New) (h : Requested c New f)
    (hc : CutDirect c e f g) :
    ∃ v, bootUpDirect c e g = .ok () v ∧ bootable c e (v.fl .boot) ∧ v.fl .update = f .update ∧
      ((Holds c v.fl .boot New ∧ getState c v.fl .boot = some ST_SUCCESS) ∨
        (v.fl = g ∧ e.ver New ≤ e.ver (g .boot) ∧ getState c g .boot ≠ some ST_TESTING)) := by
  have hu := hc.update w hN h
  have := startDirect_spec w (T := fun _ => True) hN (h.congr hu)
    { fl := g, locked := true, budget := none, torn := fun _ => 0#8 } trivial rfl rfl
  unfold bootUpDirect
  cases hr : startDirect c e { fl := g, locked := true, budget := none, torn := fun _ => 0#8 } with
  | ok a v =>
    rw [hr] at this
    obtain ⟨_, _, _, hb, he⟩ := this
    exact ⟨v, rfl, hb, he.1.trans hu, he.2⟩
  | crash x => rw [hr] at this; exact absurd rfl this.1
  | panic x => rw [hr] at this; exact this.elim
  | stuck x => rw [hr] at this; exact this.elim
  | fault x => rw [hr] at this; exact this.elim

/-- **The update gets installed**: if moreover `New` is the latest release, that is, every content of a partition that
passes verification and has a version at least that of `New` starts with the bytes of `New`, then `New` is what is in
BOOT afterwards. -/
theorem direct_update_installs {f g : Flash} (hN : GoodImage c e New) (h : Requested c New f)
    (latest : ∀ m, bootable c e m → e.ver New ≤ e.ver m → ∀ o, o < imageBytes c New → m o = New o)
    (hc : CutDirect c e f g) :
    ∃ v, bootUpDirect c e g = .ok () v ∧ Holds c v.fl .boot New ∧ v.fl .update = f .update := by
  obtain ⟨v, h1, h2, h3, h4⟩ := direct_update_never_bricks w hN h hc
  refine ⟨v, h1, ?_, h3⟩
  rcases h4 with h4 | ⟨h4, h5, _⟩
  · exact h4.1
  · intro o ho
    exact latest _ h2 (by rw [h4]; exact h5) o ho

/-- **No reinstallation**: once `New` is installed and not marked TESTING, a reboot changes nothing, although the
request in UPDATE is never cleared. -/
theorem direct_update_stable {f : Flash} (hN : GoodImage c e New) (h : Requested c New f) (hB : Holds c f .boot New)
    (hs : getState c f .boot ≠ some ST_TESTING) (b : Option Nat) (t : Mem) :
    (∃ v, startDirect c e { fl := f, locked := true, budget := b, torn := t } = .ok () v ∧ v.fl = f) ∨
      startDirect c e { fl := f, locked := true, budget := b, torn := t } = .crash f := by
  have hver : e.ver (f .update) = e.ver New := (h.facts w hN).2.2.2.2.1
  have hverB : e.ver (f .boot) = e.ver New := (hN.loc _ hB).2.1
  have hb := (hN.bootableOf w hB).1
  have key : Triple (fun _ => True) true (fun g => g = f) (startDirect c e) true (fun _ g => g = f) (fun g => g = f) := by
    unfold startDirect
    refine Triple.bind (l' := true) (Q := fun _ g => g = f) ?_ (fun _ => boot_tick w (fun x hx => by rw [hx]; exact hb) (fun _ h => h))
    unfold startUpdateDirect
    refine Triple.readFlash (fun x hx => ?_)
    subst hx
    rw [if_neg hs, if_pos h.state]
    refine Triple.bind (wbUpdateDirect_no h (by omega)) (fun _ => ?_)
    exact (Triple.pure (Q := fun _ g => g = x) ()).pre (fun _ h => h.2)
  have := key { fl := f, locked := true, budget := b, torn := t } trivial rfl rfl
  cases hr : startDirect c e { fl := f, locked := true, budget := b, torn := t } with
  | ok a v => rw [hr] at this; exact Or.inl ⟨v, rfl, this.2.2.2⟩
  | crash x => rw [hr] at this; exact Or.inr (by rw [this.2])
  | panic x => rw [hr] at this; exact this.elim
  | stuck x => rw [hr] at this; exact this.elim
  | fault x => rw [hr] at this; exact this.elim

omit w in
/-- **Old software is not installed over newer software, nor unsigned software over anything**: if the update is not
newer, or fails a check, and BOOT is in order and not being tested, nothing is written at all. -/
theorem direct_update_refuses {f : Flash} (hb : bootable c e (f .boot)) (hs : getState c f .boot ≠ some ST_TESTING)
    (hf : getFlag c f 0 = some FL_NEW ∨ getFlag c f 0 = none)
    (hr : ¬ acceptable c e (f .update) ∨ e.ver (f .update) ≤ e.ver (f .boot)) (t : Mem) :
    ∃ v, startDirect c e { fl := f, locked := true, budget := none, torn := t } = .ok () v ∧ v.fl = f := by
  have hfl : (getFlag c f 0).getD FL_NEW = FL_NEW := by
    rcases hf with h | h <;> rw [h] <;> rfl
  have key : Triple (fun _ => True) true (fun g => g = f) (startDirect c e) true (fun _ g => g = f) (fun _ => True) := by
    unfold startDirect
    refine Triple.bind (l' := true) (Q := fun _ g => g = f) ?_ (fun _ => ?_)
    · unfold startUpdateDirect
      refine Triple.readFlash (fun x hx => ?_)
      subst hx
      rw [if_neg hs]
      have hu : Triple (fun _ => True) true (fun g => g = x) (pure () : M Unit) true (fun _ g => g = x) (fun _ => True) :=
        Triple.pure (Q := fun _ g => g = x) ()
      refine Triple.ite (fun _ => ?_) (fun _ => hu)
      refine Triple.bind (l' := true) (Q := fun _ g => g = x) ?_ (fun _ => hu)
      unfold wbUpdateDirect
      refine Triple.readFlash (fun y hy => ?_)
      subst hy
      have hp : Triple (fun _ => True) true (fun g => g = y) (pure false : M Bool) true (fun _ g => g = y) (fun _ => True) :=
        Triple.pure (Q := fun _ g => g = y) false
      refine Triple.ite (fun _ => hp) (fun _ => Triple.ite (fun _ => hp) (fun ha => ?_))
      have hacc : acceptable c e (y .update) := by
        apply Classical.byContradiction
        intro hh; exact ha ⟨hfl, hh⟩
      have hno : ¬ (false = true ∨ e.ver (y .boot) < e.ver (y .update)) := by
        rintro (h | h)
        · simp at h
        · rcases hr with hr | hr
          · exact hr hacc
          · omega
      rw [if_pos ⟨hfl, hno⟩]
      exact hp
    · refine Triple.readFlash (fun x hx => ?_)
      subst hx
      rw [if_pos hb]
      exact Triple.tick (P := fun g => g = x) (fun _ _ => trivial)
  have := key { fl := f, locked := true, budget := none, torn := t } trivial rfl rfl
  cases hr : startDirect c e { fl := f, locked := true, budget := none, torn := t } with
  | ok a v => rw [hr] at this; exact ⟨v, rfl, this.2.2.2⟩
  | crash x => rw [hr] at this; exact absurd rfl this.1
  | panic x => rw [hr] at this; exact this.elim
  | stuck x => rw [hr] at this; exact this.elim
  | fault x => rw [hr] at this; exact this.elim

end

/-! ## Examples and findings -/

namespace DirectDemo
open Demo

theorem requested : Requested cfg new pending := by
  constructor
  · intro o ho
    have : o < 60 := ho
    have h64 : o < 64 := by omega
    show withTrailer new (some ST_UPDATING) o = new o
    unfold withTrailer
    exact if_pos h64
  · decide
  · decide

/-- The hypotheses are satisfiable: `old` in BOOT, `new` requested, power fails at the fourth flash operation, in the
middle of BOOT. -/
example : ∃ g, CutDirect cfg (env 0#8) pending g ∧ ¬ bootable cfg (env 0#8) (g .boot) ∧ g ≠ pending ∧
    (∃ v, bootUpDirect cfg (env 0#8) g = .ok () v ∧ Holds cfg v.fl .boot new) := by
  have hc : crashAnd (bootFailDirect cfg (env 0#8) pending 3 (fun _ => 0x33#8))
      (fun g => decide (¬ bootable cfg (env 0#8) (g .boot)) && (g .boot 16 != pending .boot 16)) = true := by
    decide +kernel
  cases hr : bootFailDirect cfg (env 0#8) pending 3 (fun _ => 0x33#8) with
  | crash g =>
    rw [hr] at hc
    simp only [crashAnd, Bool.and_eq_true, decide_eq_true_eq, bne_iff_ne] at hc
    have hcut : CutDirect cfg (env 0#8) pending g := .again .none hr
    obtain ⟨v, h1, h2, h3, h4⟩ := direct_update_never_bricks wf (good_new 0#8) requested hcut
    refine ⟨g, hcut, hc.1, fun hh => hc.2 (by rw [hh]), v, h1, ?_⟩
    rcases h4 with h4 | ⟨h4, _⟩
    · exact h4.1
    · rw [h4] at h2; exact absurd h2 hc.1
  | ok a v => rw [hr] at hc; simp [crashAnd] at hc
  | panic x => rw [hr] at hc; simp [crashAnd] at hc
  | stuck x => rw [hr] at hc; simp [crashAnd] at hc
  | fault x => rw [hr] at hc; simp [crashAnd] at hc

/-- Checks that accept exactly two images, `old` and `new`. -/
def twoEnv : Env where
  typ m := le16 m 12
  ver m := (m 8).toNat
  integ m := (List.range 60).all (fun o => m o == new o) || (List.range 30).all (fun o => m o == old o)
  auth _ := true
  authType := 2
  junk := 0#8

theorem two_good : GoodImage cfg twoEnv new := by
  refine ⟨by decide, by decide, by decide, by show le16 new 12 % 16 = 1 ∧ le16 new 12 / 256 % 256 = 2; decide,
    by decide +kernel, rfl, fun m h => ?_⟩
  have hm : ∀ o, o < 60 → m o = new o := fun o ho => h o ho
  refine ⟨?_, ?_, ?_, rfl⟩
  · show le16 m 12 = le16 new 12
    unfold le16
    rw [hm 12 (by omega), hm (12 + 1) (by omega)]
  · show (m 8).toNat = (new 8).toNat
    rw [hm 8 (by omega)]
  · have h1 : ∀ X : Mem, (List.range 60).all (fun o => m o == X o) = (List.range 60).all (fun o => new o == X o) := by
      intro X
      rw [Bool.eq_iff_iff, List.all_eq_true, List.all_eq_true]
      constructor
      · intro hh o ho; rw [← hm o (List.mem_range.mp ho)]; exact hh o ho
      · intro hh o ho; rw [hm o (List.mem_range.mp ho)]; exact hh o ho
    have h2 : ∀ X : Mem, (List.range 30).all (fun o => m o == X o) = (List.range 30).all (fun o => new o == X o) := by
      intro X
      rw [Bool.eq_iff_iff, List.all_eq_true, List.all_eq_true]
      constructor
      · intro hh o ho; rw [← hm o (by have := List.mem_range.mp ho; omega)]; exact hh o ho
      · intro hh o ho; rw [hm o (by have := List.mem_range.mp ho; omega)]; exact hh o ho
    have hd : ∀ x, twoEnv.integ x =
        ((List.range 60).all (fun o => x o == new o) || (List.range 30).all (fun o => x o == old o)) := fun _ => rfl
    rw [hd, hd, h1, h2]

theorem two_latest : ∀ m, bootable cfg twoEnv m → twoEnv.ver new ≤ twoEnv.ver m →
    ∀ o, o < imageBytes cfg new → m o = new o := by
  intro m hb hv o ho
  have hi : ((List.range 60).all (fun o => m o == new o) || (List.range 30).all (fun o => m o == old o)) = true := hb.2.1
  rw [Bool.or_eq_true] at hi
  rcases hi with h | h
  · have := List.all_eq_true.mp h o (List.mem_range.mpr ho)
    simpa using this
  · exfalso
    have h8 := List.all_eq_true.mp h 8 (by decide)
    have : m 8 = old 8 := by simpa using h8
    have hv' : (new 8).toNat ≤ (m 8).toNat := hv
    rw [this] at hv'
    exact absurd hv' (by decide)

/-- The hypotheses of `direct_update_installs` hold on this device. -/
example (g : Flash) (hc : CutDirect cfg twoEnv pending g) :
    ∃ v, bootUpDirect cfg twoEnv g = .ok () v ∧ Holds cfg v.fl .boot new ∧ v.fl .update = pending .update :=
  direct_update_installs wf two_good requested two_latest hc

/-- The same device with a flag of the first UPDATE sector that is not `SECT_FLAG_NEW`, and an image in UPDATE whose
signature is wrong. -/
def flagged : Flash := fun p o =>
  if p = .update ∧ o = 90 then 0xF7#8
  else if p = .update ∧ o < 64 then img 2#8 0xB2#8 44 0x00#8 o
  else pending p o

/-- **Finding**: in this build the flags of the sectors mean nothing, nothing ever changes them; but
`wolfBoot_update` still takes a flag other than `SECT_FLAG_NEW` for "update in progress" and skips every check
(`/repo/src/update_flash.c:622`). Then an image whose signature is wrong is copied over a good one, and the device does not
boot any more. -/
theorem direct_flag_bricks : ∃ (c : Cfg) (e : Env) (f : Flash), c.WF ∧ bootable c e (f .boot) ∧
    ¬ acceptable c e (f .update) ∧ getState c f .update = some ST_UPDATING ∧ getFlag c f 0 = some FL_SWAPPING ∧
    ∃ g, bootUpDirect c e f = .panic g := by
  refine ⟨cfg, env 0#8, flagged, wf, by decide +kernel, by decide +kernel, by decide, by decide, ?_⟩
  have hp : panics (bootUpDirect cfg (env 0#8) flagged) = true := by decide +kernel
  cases hr : bootUpDirect cfg (env 0#8) flagged with
  | panic g => exact ⟨g, rfl⟩
  | ok a v => rw [hr] at hp; simp [panics] at hp
  | crash x => rw [hr] at hp; simp [panics] at hp
  | stuck x => rw [hr] at hp; simp [panics] at hp
  | fault x => rw [hr] at hp; simp [panics] at hp

end DirectDemo

end Verif
