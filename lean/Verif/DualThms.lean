import Verif.DualBoot
import Verif.UpdateSpec
import Verif.TrailerLemmas

/-!
# Choice of the partition, RAM boot and hardware swap (C28, C29, C30, C43)
-/

namespace Verif

/-! ## Specification -/

/-- Partition `p` has the highest version among those that hold an image, and it holds an image. -/
def Newest (e : Env) (f : Flash) (p : Part) : Prop :=
  p ≠ .swap ∧ e.ver (f p) ≠ 0 ∧ e.ver (f p.other) ≤ e.ver (f p)

/-- A correctly signed image with a version is in partition `q`, and it is not on trial: its state is neither
TESTING nor UPDATING. -/
structure Confirmed (c : Cfg) (e : Env) (X : Mem) (q : Part) (f : Flash) : Prop where
  part : q ≠ .swap
  holds : Holds c f q X
  good : GoodImage c e X
  version : e.ver X ≠ 0
  not_testing : getState c f q ≠ some ST_TESTING
  not_updating : getState c f q ≠ some ST_UPDATING

/-! ## Lemmas -/

section
variable {c : Cfg} {e : Env} {ext : Part → Bool} {r : RamCfg}

theorem Part.other_ne {p : Part} (h : p ≠ .swap) : p.other ≠ p := by cases p <;> simp_all [Part.other]
theorem Part.other_swap {p : Part} (h : p ≠ .swap) : p.other ≠ .swap := by cases p <;> simp_all [Part.other]
theorem Part.other_other (p : Part) : p.other.other = p := by cases p <;> rfl
theorem Part.eq_other {p q : Part} (hp : p ≠ .swap) (hq : q ≠ .swap) (h : p ≠ q) : p = q.other := by
  cases p <;> cases q <;> simp_all [Part.other]

theorem newest_ne_swap (bv uv : Nat) : newest bv uv ≠ .swap := by
  unfold newest
  split
  · simp
  · split
    · split <;> simp
    · simp

theorem newest_spec {f : Flash} (h : ¬ (e.ver (f .boot) = 0 ∧ e.ver (f .update) = 0)) :
    Newest e f (newest (e.ver (f .boot)) (e.ver (f .update))) := by
  refine ⟨newest_ne_swap _ _, ?_⟩
  unfold newest
  split
  · dsimp only [Part.other]
    omega
  · split
    · split <;> dsimp only [Part.other] <;> omega
    · dsimp only [Part.other]
      omega

theorem fallbackPossible_iff {f : Flash} :
    fallbackPossible e f = true ↔ e.ver (f .boot) ≠ 0 ∧ e.ver (f .update) ≠ 0 := by
  unfold fallbackPossible
  simp

theorem fallback_other {f : Flash} {p : Part} (hp : p ≠ .swap) (h : fallbackPossible e f = true) :
    e.ver (f p.other) ≠ 0 := by
  rw [fallbackPossible_iff] at h
  cases p
  · exact h.2
  · exact h.1
  · exact absurd rfl hp

theorem fallback_of {f : Flash} {p : Part} (hp : p ≠ .swap) (h1 : e.ver (f p) ≠ 0) (h2 : e.ver (f p.other) ≠ 0) :
    fallbackPossible e f = true := by
  rw [fallbackPossible_iff]
  cases p
  · exact ⟨h1, h2⟩
  · exact ⟨h2, h1⟩
  · exact absurd rfl hp

theorem getState_congr' {f g : Flash} {p : Part} (h : g p = f p) : getState c g p = getState c f p := by
  have : hasMagic c g p ↔ hasMagic c f p := by unfold hasMagic; rw [h]
  unfold getState
  by_cases hm : hasMagic c f p
  · rw [if_pos hm, if_pos (this.2 hm), h]
  · rw [if_neg hm, if_neg (fun hc => hm (this.1 hc))]

theorem Confirmed.congr {X : Mem} {q : Part} {f g : Flash} (h : Confirmed c e X q f) (hg : g q = f q) :
    Confirmed c e X q g :=
  ⟨h.part, fun o ho => by rw [hg]; exact h.holds o ho, h.good, h.version, by rw [getState_congr' hg]; exact h.not_testing,
    by rw [getState_congr' hg]; exact h.not_updating⟩

theorem Confirmed.ver {X : Mem} {q : Part} {f : Flash} (h : Confirmed c e X q f) : e.ver (f q) ≠ 0 := by
  rw [(h.good.loc (f q) h.holds).2.1]
  exact h.version

theorem GoodImage.bootableOf {X m : Mem} (w : c.WF) (h : GoodImage c e X) (hm : ∀ o, o < imageBytes c X → m o = X o) :
    bootable c e m ∧ le32 m 4 = le32 X 4 := by
  have h8 := w.h8
  have hL := h.loc m hm
  have hi : imageBytes c X = c.h + le32 X 4 := rfl
  have e0 : le32 m 0 = le32 X 0 := le32_congr (fun o a b => hm o (by omega))
  have e4 : le32 m 4 = le32 X 4 := le32_congr (fun o a b => hm o (by omega))
  refine ⟨⟨⟨by rw [e0]; exact h.magic, ?_⟩, by rw [hL.2.2.1]; exact h.digest, by rw [hL.2.2.2]; exact h.signature⟩, e4⟩
  have := h.fits
  omega

theorem Triple.eraseLocked {T : Mem → Prop} {P C : Flash → Prop} {p : Part} {off len : Nat} (hC : ∀ f, P f → C f) :
    Triple T true P (Verif.erase c p off len) true (fun _ f => P f) C := by
  rintro ⟨fl, locked, budget, torn⟩ hT hl hP
  dsimp only at hT hl hP
  subst hl
  rcases budget with _ | _ | k
  · exact ⟨rfl, rfl, id, hP⟩
  · exact ⟨by simp, hC _ hP⟩
  · exact ⟨rfl, rfl, by simp, hP⟩

/-- Erasing a partition changes nothing else, wherever the power fails. `hl`: the flash is locked, as after
reset, or no partition is external. -/
theorem erasePartition_spec {T : Mem → Prop} {l : Bool} (hl : l = true ∨ ∀ p, ext p = false) (f0 : Flash) (p : Part) :
    Triple T l (fun f => f = f0) (erasePartition c ext p) l
      (fun _ f => (∀ q, q ≠ p → f q = f0 q) ∧
        ((l = true ∧ ext p = false ∧ f = f0) ∨ (∀ a, a < c.part → f p a = 0xFF#8)))
      (fun f => ∀ q, q ≠ p → f q = f0 q) := by
  have core : Triple T false (fun f => f = f0) (erase c p 0 c.part) false
      (fun _ f => (∀ q, q ≠ p → f q = f0 q) ∧ ∀ a, a < c.part → f p a = 0xFF#8)
      (fun f => ∀ q, q ≠ p → f q = f0 q) := by
    refine Triple.erase ?_ ?_
    · rintro f rfl
      refine ⟨fun q hq => (same_erase f p 0 c.part).other hq, fun a ha => ?_⟩
      unfold Flash.erase
      rw [if_pos ⟨rfl, by omega, by omega⟩]
    · rintro t f _ rfl
      exact fun q hq => (same_tornErase c t f p 0 c.part).other hq
  unfold erasePartition
  refine Triple.ite (fun h => ?_) (fun h => ?_)
  · have hlt : l = true := by
      rcases hl with h1 | h1
      · exact h1
      · rw [h1 p] at h; simp at h
    subst hlt
    refine Triple.bind Triple.unlock fun _ => Triple.bind (core.conseq (fun _ h => h)
      (fun _ _ h => (⟨h.1, Or.inr h.2⟩ : _ ∧ _)) fun _ h => h) fun _ => Triple.lock
  · have h' : ext p = false := by simpa using h
    cases l with
    | false => exact core.conseq (fun _ h => h) (fun _ _ h => ⟨h.1, Or.inr h.2⟩) fun _ h => h
    | true =>
      refine (Triple.eraseLocked (P := fun f => f = f0) (C := fun f => f = f0) fun _ h => h).conseq (fun _ h => h) ?_ ?_
      · rintro _ f rfl
        exact ⟨fun _ _ => rfl, Or.inl ⟨rfl, h', rfl⟩⟩
      · rintro f rfl q _
        rfl

/-- C28: the choice of the partition. No partition is chosen iff none holds an image. A partition on trial
(TESTING) is discarded in favour of the other one if that holds an image; otherwise the highest version is
chosen. Only the discarded partition is modified, even if the power fails. -/
theorem dual_candidate {T : Mem → Prop} {l : Bool} (hl : l = true ∨ ∀ p, ext p = false) (f0 : Flash) :
    Triple T l (fun f => f = f0) (candidate c e ext) l
      (fun a f =>
        (a = none ↔ e.ver (f0 .boot) = 0 ∧ e.ver (f0 .update) = 0) ∧
        ∀ p, a = some p → p ≠ .swap ∧ e.ver (f0 p) ≠ 0 ∧ f p = f0 p ∧ (∀ q, q ≠ p.other → f q = f0 q) ∧
          ((Newest e f0 p ∧ f = f0 ∧ (getState c f0 p = some ST_TESTING → e.ver (f0 p.other) = 0)) ∨
           (Newest e f0 p.other ∧ getState c f0 p.other = some ST_TESTING)))
      (fun f => ∃ p, Newest e f0 p ∧ getState c f0 p = some ST_TESTING ∧ e.ver (f0 p.other) ≠ 0 ∧
        ∀ q, q ≠ p → f q = f0 q) := by
  unfold candidate
  refine Triple.readFlash ?_
  rintro f rfl
  dsimp only
  refine Triple.ite (fun h => ?_) (fun h => ?_)
  · refine (Triple.pure (Q := fun a g => a = none ∧ g = f) none).conseq (fun _ h => ⟨rfl, h⟩) ?_ fun _ h => h
    rintro a g ⟨rfl, rfl⟩
    exact ⟨⟨fun _ => h, fun _ => rfl⟩, fun p hp => by simp at hp⟩
  have hn := newest_spec h
  generalize newest (e.ver (f .boot)) (e.ver (f .update)) = p at hn ⊢
  refine Triple.ite (fun h2 => ?_) (fun h2 => ?_)
  · have hv := fallback_other hn.1 h2.1
    refine Triple.bind ((erasePartition_spec hl f p).conseq (fun _ h => h) (fun _ _ h => h) ?_) fun _ => ?_
    · intro g hg
      exact ⟨p, hn, h2.2, hv, hg⟩
    refine (Triple.pure (Q := fun a g => a = some p.other ∧ ∀ q, q ≠ p → g q = f q) (some p.other)).conseq
      (fun _ h => ⟨rfl, h.1⟩) ?_ fun _ h => h
    rintro a g ⟨rfl, hg⟩
    refine ⟨⟨fun h => by simp at h, fun hh => absurd hh h⟩, ?_⟩
    intro q hq
    obtain rfl : p.other = q := by simpa using hq
    rw [Part.other_other]
    exact ⟨Part.other_swap hn.1, hv, hg _ (Part.other_ne hn.1), hg, Or.inr ⟨hn, h2.2⟩⟩
  · refine (Triple.pure (Q := fun a g => a = some p ∧ g = f) (some p)).conseq
      (fun _ h => ⟨rfl, h⟩) ?_ fun _ h => h
    rintro a g ⟨rfl, rfl⟩
    refine ⟨⟨fun h => by simp at h, fun hh => absurd hh h⟩, ?_⟩
    intro q hq
    obtain rfl : p = q := by simpa using hq
    refine ⟨hn.1, hn.2.1, rfl, fun _ _ => rfl, Or.inl ⟨hn, rfl, fun ht => ?_⟩⟩
    by_cases hv : e.ver (g p.other) = 0
    · exact hv
    · exact absurd ⟨fallback_of hn.1 hn.2.1 hv, ht⟩ h2

/-- Builds without fixed partitions. -/
theorem dual_candidate_addr (f : Flash) :
    (candidateAddr e f = none ↔ e.ver (f .boot) = 0 ∧ e.ver (f .update) = 0) ∧
    ∀ p, candidateAddr e f = some p → Newest e f p := by
  unfold candidateAddr
  by_cases h : e.ver (f .boot) = 0 ∧ e.ver (f .update) = 0
  · rw [if_pos h]
    exact ⟨⟨fun _ => h, fun _ => rfl⟩, fun p hp => by simp at hp⟩
  · rw [if_neg h]
    refine ⟨⟨fun hh => by simp at hh, fun hh => absurd hh h⟩, fun p hp => ?_⟩
    obtain rfl := Option.some.inj hp
    exact newest_spec h

/-- The state change at the first boot does not touch anything else. -/
theorem setTesting_spec (w : c.WF) {T : Mem → Prop} (f0 : Flash) {p : Part} (hp : p ≠ .swap) :
    Triple T true (fun f => f = f0) (setTesting c p) true
      (fun _ f => (getState c f0 p = some ST_UPDATING → getState c f p = some ST_TESTING) ∧
        (getState c f0 p ≠ some ST_UPDATING → f = f0) ∧ Same p (trailerAt c 1) c.part f0 f)
      (fun f => getState c f0 p = some ST_UPDATING ∧ Same p (trailerAt c 1) c.part f0 f) := by
  unfold setTesting
  refine Triple.readFlash ?_
  rintro f rfl
  refine Triple.ite (fun h => ?_) (fun h => ?_)
  · have hm : hasMagic c f p := by
      unfold getState at h
      split at h
      · assumption
      · simp at h
    have hs : f p (trailerAt c 1) = ST_UPDATING := by
      unfold getState at h
      rw [if_pos hm] at h
      exact Option.some.inj h
    refine Triple.bind Triple.unlock fun _ => Triple.bind ((setState_spec w hp f ST_TESTING hm.magicP
      (by rw [hs]; decide)).conseq (fun _ h => h) (fun _ _ h => h) fun g hg => ⟨h, hg.1⟩) fun _ => ?_
    refine Triple.lock.conseq (fun _ h => h) ?_ fun _ h => h
    rintro _ g ⟨h1, h2, h3⟩
    refine ⟨fun _ => ?_, fun hn => absurd h hn, h3⟩
    unfold getState
    rw [if_pos h1, h2]
  · refine (Triple.pure (Q := fun _ g => g = f) ()).conseq (fun _ h => h) ?_ fun _ h => h
    rintro _ g rfl
    exact ⟨fun hh => absurd hh h, fun _ => rfl, fun _ _ _ => rfl⟩

theorem Same.image {p : Part} {f g : Flash} (w : c.WF) (h : Same p (trailerAt c 1) c.part f g) {o : Nat} (ho : o < c.last) :
    g p o = f p o := by
  have := trailer_bounds w (k := 1) (by have := w.ss_pos; omega)
  exact h.out (by omega)

/-! ## RAM boot -/

/-- An image in RAM or (without `WOLFBOOT_USE_RAMBOOT`) in flash passed all the checks, and the firmware in RAM
is that of the image. -/
def RamAuthentic (c : Cfg) (e : Env) (ram : Mem) : Prop :=
  ∃ m, bootable c e m ∧ ∀ o, c.h ≤ o → o < c.h + le32 m 4 → ram o = m o

theorem tryImage_good {m ram ram' : Mem} (h : tryImage c e r m ram = (.good, ram')) : RamAuthentic c e ram' := by
  unfold tryImage at h
  split at h
  · dsimp only at h
    split at h
    · simp at h
    split at h
    · simp at h
    split at h
    · rename_i hb
      obtain rfl := (Prod.mk.inj h).2
      exact ⟨_, hb, fun _ _ _ => rfl⟩
    · simp at h
  · split at h
    · rename_i hb
      split at h
      · simp at h
      · obtain rfl := (Prod.mk.inj h).2
        exact ⟨m, hb, fun o h1 h2 => if_pos ⟨h1, h2⟩⟩
    · simp at h

/-- Properties of every run, whatever the flash and wherever the power fails: the code that is booted in the
end satisfies `S`. -/
def RunsOnly (S : RamRun → Prop) (m : M RamRun) : Prop := ∀ w, match m w with | .ok a _ => S a | _ => True

theorem RunsOnly.bind {α : Type} {S : RamRun → Prop} {m : M α} {k : α → M RamRun} (h : ∀ a, RunsOnly S (k a)) :
    RunsOnly S (m >>= k) := by
  intro w
  change match M.bind m k w with | .ok a _ => S a | _ => True
  unfold M.bind
  cases m w with
  | ok a w' => exact h a w'
  | _ => trivial

theorem RunsOnly.pure {S : RamRun → Prop} {a : RamRun} (h : S a) : RunsOnly S (Pure.pure a) := fun _ => h
theorem RunsOnly.panic {S : RamRun → Prop} : RunsOnly S panicM := fun _ => trivial
theorem RunsOnly.stuck {S : RamRun → Prop} : RunsOnly S stuckM := fun _ => trivial

theorem ramBootLoop_only : ∀ (fuel : Nat) (a : Option Part) (ram : Mem),
    RunsOnly (fun x => ∀ p ram, x = .boots p ram → RamAuthentic c e ram) (ramBootLoop c e ext r fuel a ram)
  | 0, _, _ => RunsOnly.stuck
  | fuel + 1, a, ram => by
    unfold ramBootLoop
    refine RunsOnly.bind fun a' => ?_
    cases a' with
    | none => exact RunsOnly.panic
    | some p =>
      refine RunsOnly.bind fun f => ?_
      rcases ht : tryImage c e r (f p) ram with ⟨v, ram'⟩
      cases v with
      | bad =>
        dsimp only
        split
        · exact ramBootLoop_only fuel _ _
        · exact RunsOnly.panic
      | over => exact RunsOnly.pure (fun p ram h => by simp at h)
      | good =>
        dsimp only
        refine RunsOnly.bind fun _ => RunsOnly.bind fun _ => RunsOnly.pure ?_
        intro p2 ram2 h
        injection h with h1 h2
        subst h2
        exact tryImage_good ht

/-- C29, first part: whatever the contents of the flash, code is started only if it is the firmware of an image
that passed the integrity and the signature check. -/
theorem ram_boot_authentic (fuel : Nat) (ram : Mem) (w w' : World) {p : Part} {ram' : Mem}
    (h : ramStart c e ext r fuel ram w = .ok (.boots p ram') w') : RamAuthentic c e ram' := by
  have := ramBootLoop_only (c := c) (e := e) (ext := ext) (r := r) fuel none ram w
  unfold ramStart at h
  rw [h] at this
  exact this p ram' rfl

/-- The attempt on a good image that fits in RAM succeeds. -/
theorem tryImage_of_good (w : c.WF) {X m : Mem} (h : GoodImage c e X) (hv : e.ver X ≠ 0) (hv2 : e.ver X < 2147483648)
    (hm : ∀ o, o < imageBytes c X → m o = X o) (hroom : imageBytes c X ≤ r.room)
    (hdr : ∀ a b : Mem, (∀ o, o < c.h → a o = b o) → e.ver a = e.ver b) (ram : Mem) :
    (tryImage c e r m ram).1 = .good := by
  have h8 := w.h8
  have hi : imageBytes c X = c.h + le32 X 4 := rfl
  obtain ⟨hb, e4⟩ := h.bootableOf w hm
  have ev : e.ver (fun a => if a < c.h then m a else ram a) = e.ver X := by
    apply hdr
    intro o ho
    rw [if_pos ho]
    exact hm o (by omega)
  have e5 : le32 (fun a => if a < c.h then m a else ram a) 4 = le32 X 4 := by
    rw [← e4]
    exact le32_congr (fun o a b => if_pos (by omega))
  have hb2 : bootable c e (fun a => if a < c.h + le32 X 4 then m a else ram a) :=
    (h.bootableOf w fun o ho => by
      rw [if_pos (by omega)]
      exact hm o ho).1
  unfold tryImage
  dsimp only
  rw [ev, e5, e4]
  by_cases hr : r.ramboot = true
  · rw [if_pos hr, if_neg (by omega), if_neg (by omega), if_pos hb2]
  · rw [if_neg hr, if_pos hb, if_neg (by omega)]

/-- What one round of the loop does with a partition that passes the checks. -/
theorem ramTry_good (w : c.WF) {T : Mem → Prop} {p : Part} (hp : p ≠ .swap) (f : Flash) (ram' : Mem) :
    Triple T true (fun g => g = f) (do
        ramMark c r p
        tick
        Pure.pure (RamRun.boots p ram')) true
      (fun a g => a = RamRun.boots p ram' ∧ ∀ o, o < c.last → g p o = f p o)
      (fun g => (∀ q, q ≠ p → g q = f q) ∧ (getState c f p ≠ some ST_UPDATING → g = f)) := by
  have key : Triple T true (fun g => g = f) (ramMark c r p) true
      (fun _ g => Same p (trailerAt c 1) c.part f g ∧ (getState c f p ≠ some ST_UPDATING → g = f))
      (fun g => (∀ q, q ≠ p → g q = f q) ∧ (getState c f p ≠ some ST_UPDATING → g = f)) := by
    unfold ramMark
    refine Triple.ite (fun _ => ?_) (fun _ => ?_)
    · refine (setTesting_spec w f hp).conseq (fun _ h => h) (fun _ g h => ⟨h.2.2, h.2.1⟩) ?_
      rintro g ⟨h1, h2⟩
      exact ⟨fun q hq => h2.other hq, fun h => absurd h1 h⟩
    · refine (Triple.pure (Q := fun _ g => g = f) ()).conseq (fun _ h => h) ?_ fun _ h => h
      rintro _ g rfl
      exact ⟨Same.refl _ _ _ _, fun _ => rfl⟩
  refine Triple.bind key fun _ => Triple.bind (Triple.tick ?_) fun _ => ?_
  · rintro g ⟨h1, h2⟩
    exact ⟨fun q hq => h1.other hq, h2⟩
  · refine (Triple.pure (Q := fun a g => a = RamRun.boots p ram' ∧ Same p (trailerAt c 1) c.part f g) _).conseq
      (fun _ h => ⟨rfl, h.1⟩) ?_ fun _ h => h
    rintro a g ⟨h1, h2⟩
    exact ⟨h1, fun o ho => h2.image w ho⟩

/-- Without `WOLFBOOT_USE_RAMBOOT` only images that passed the checks are copied, so that the size is limited. -/
theorem tryImage_ne_over (hr : r.ramboot = false) (hroom : c.part ≤ r.room) (h8 : c.h ≤ c.part) (m ram : Mem) :
    (tryImage c e r m ram).1 ≠ .over := by
  unfold tryImage
  rw [if_neg (by rw [hr]; simp)]
  split
  · rename_i hb
    have := hb.1.2
    rw [if_neg (by omega)]
    simp
  · simp

/-- Precondition for the theorems on RAM boot: RAM has room for the images of both partitions, as far as they
are copied before being checked. -/
def FitsRam (c : Cfg) (e : Env) (r : RamCfg) (p : Part) (f : Flash) : Prop :=
  ∀ ram, (tryImage c e r (f p) ram).1 ≠ .over

/-- The loop, started with partition `p`, in the presence of a good image in `q`. -/
theorem ramLoop_spec (w : c.WF) {T : Mem → Prop} (hx : r.fixed = true) {X : Mem} {q : Part}
    (hdr : ∀ a b : Mem, (∀ o, o < c.h → a o = b o) → e.ver a = e.ver b) (hv : e.ver X < 2147483648)
    (hroom : imageBytes c X ≤ r.room) (f : Flash) (hq : Confirmed c e X q f) {p : Part} (hp : p ≠ .swap)
    (hpv : e.ver (f p) ≠ 0) (hfit : FitsRam c e r p f) (fuel : Nat) (ram : Mem) :
    Triple T true (fun g => g = f) (ramBootLoop c e ext r (fuel + 2) (some p) ram) true
      (fun a _ => ∃ p' ram', a = RamRun.boots p' ram' ∧ RamAuthentic c e ram' ∧
        (p' = q ∨ p' = p ∧ (tryImage c e r (f p) ram).1 = .good))
      (fun g => Confirmed c e X q g) := by
  have good : ∀ (fuel : Nat) (p : Part) (ram : Mem), p ≠ .swap → (tryImage c e r (f p) ram).1 = .good →
      Triple T true (fun g => g = f) (ramBootLoop c e ext r (fuel + 1) (some p) ram) true
      (fun a _ => ∃ ram', a = RamRun.boots p ram' ∧ RamAuthentic c e ram')
      (fun g => Confirmed c e X q g) := by
    intro fuel p ram hp hg
    unfold ramBootLoop
    have e1 : pickActive c e ext r (some p) = Pure.pure (some p) := by
      unfold pickActive
      rw [if_pos hx]
    rw [e1]
    refine Triple.bind (Q := fun a g => a = some p ∧ g = f)
      ((Triple.pure (some p)).conseq (fun _ h => ⟨rfl, h⟩) (fun _ _ h => h) fun _ h => h) ?_
    intro a
    refine Triple.ofEq ?_
    rintro g ⟨rfl, rfl⟩
    dsimp only
    refine Triple.readFlash ?_
    rintro f' rfl
    rcases ht : tryImage c e r (f' p) ram with ⟨v, ram'⟩
    rw [ht] at hg
    obtain rfl : v = .good := hg
    dsimp only
    refine (ramTry_good w hp f' ram').conseq (fun _ h => h) ?_ ?_
    · rintro a g ⟨rfl, _⟩
      exact ⟨ram', rfl, tryImage_good ht⟩
    · rintro g ⟨h1, h2⟩
      by_cases hpq : q = p
      · subst hpq
        rw [h2 hq.not_updating]
        exact hq
      · exact hq.congr (h1 q hpq)
  rcases hv0 : (tryImage c e r (f p) ram).1 with _ | _ | _
  · -- the image is not usable
    have hpq : p ≠ q := by
      rintro rfl
      rw [tryImage_of_good w hq.good hq.version hv hq.holds hroom hdr ram] at hv0
      simp at hv0
    have hqp : p.other = q := by rw [Part.eq_other hp hq.part hpq, Part.other_other]
    have hfb : fallbackPossible e f = true := fallback_of hp hpv (by rw [hqp]; exact hq.ver)
    unfold ramBootLoop
    have e1 : pickActive c e ext r (some p) = Pure.pure (some p) := by
      unfold pickActive
      rw [if_pos hx]
    rw [e1]
    refine Triple.bind (Q := fun a g => a = some p ∧ g = f)
      ((Triple.pure (some p)).conseq (fun _ h => ⟨rfl, h⟩) (fun _ _ h => h) fun _ h => h) ?_
    intro a
    refine Triple.ofEq ?_
    rintro g ⟨rfl, rfl⟩
    dsimp only
    refine Triple.readFlash ?_
    rintro f' rfl
    rcases ht : tryImage c e r (f' p) ram with ⟨v, ram'⟩
    rw [ht] at hv0
    obtain rfl : v = .bad := hv0
    dsimp only
    rw [if_pos hfb, hqp]
    refine (good fuel q ram' hq.part (tryImage_of_good w hq.good hq.version hv hq.holds hroom hdr ram')).conseq
      (fun _ h => h) ?_ fun _ h => h
    rintro a g ⟨ram2, rfl, h2⟩
    exact ⟨q, ram2, rfl, h2, Or.inl rfl⟩
  · refine (good (fuel + 1) p ram hp hv0).conseq (fun _ h => h) ?_ fun _ h => h
    rintro a g ⟨ram2, rfl, h2⟩
    exact ⟨p, ram2, rfl, h2, Or.inr ⟨rfl, rfl⟩⟩
  · exact absurd hv0 (hfit ram)

/-- C29, second part: if one partition holds a good image that is not on trial, then an authentic image is
booted, whatever the other partition holds, and a power failure leaves that image in place. -/
theorem ramStart_spec (w : c.WF) {T : Mem → Prop} (hx : r.fixed = true) {X : Mem} {q : Part}
    (hdr : ∀ a b : Mem, (∀ o, o < c.h → a o = b o) → e.ver a = e.ver b) (hv : e.ver X < 2147483648)
    (hroom : imageBytes c X ≤ r.room) (f : Flash) (hq : Confirmed c e X q f)
    (hfit : FitsRam c e r q.other f) (fuel : Nat) (ram : Mem) :
    Triple T true (fun g => g = f) (ramStart c e ext r (fuel + 2) ram) true
      (fun a _ => ∃ p' ram', a = RamRun.boots p' ram' ∧ RamAuthentic c e ram')
      (fun g => Confirmed c e X q g) := by
  unfold ramStart ramBootLoop
  have e1 : pickActive c e ext r none = candidate c e ext := by
    unfold pickActive
    rw [if_pos hx]
  rw [e1]
  refine Triple.bind ((dual_candidate (Or.inl rfl) f).conseq (fun _ h => h) (fun _ _ h => h) ?_) ?_
  · rintro g ⟨p, _, h2, _, h4⟩
    refine hq.congr (h4 q ?_)
    rintro rfl
    exact hq.not_testing h2
  intro a
  refine Triple.ofEq ?_
  rintro g ⟨h1, h2⟩
  cases a with
  | none =>
    obtain ⟨h3, h4⟩ := h1.1 rfl
    have := hq.ver
    cases hqq : q with
    | boot => rw [hqq] at this; exact absurd h3 this
    | update => rw [hqq] at this; exact absurd h4 this
    | swap => exact absurd hqq hq.part
  | some p =>
    obtain ⟨h3, h4, h5, h6, h7⟩ := h2 p rfl
    have hqg : Confirmed c e X q g := by
      by_cases hqp : q = p.other
      · rcases h7 with ⟨_, rfl, _⟩ | ⟨_, ht⟩
        · exact hq
        · rw [← hqp] at ht
          exact absurd ht hq.not_testing
      · exact hq.congr (h6 q hqp)
    have key := ramLoop_spec (T := T) (ext := ext) w hx hdr hv hroom g hqg h3 (by rw [h5]; exact h4) ?_ fuel ram
    · unfold ramBootLoop at key
      have e2 : pickActive c e ext r (some p) = Pure.pure (some p) := by
        unfold pickActive
        rw [if_pos hx]
      rw [e2] at key
      refine Triple.conseq key (fun _ h => h) ?_ fun _ h => h
      rintro a g' ⟨p', ram', h8, h9, _⟩
      exact ⟨p', ram', h8, h9⟩
    · by_cases hqp : p = q
      · subst hqp
        intro ram
        rw [h5, tryImage_of_good w hq.good hq.version hv hq.holds hroom hdr ram]
        simp
      · rw [Part.eq_other h3 hq.part hqp]
        intro ram
        rw [← Part.eq_other h3 hq.part hqp, h5, Part.eq_other h3 hq.part hqp]
        exact hfit ram

/-- `g` is reached from `f` by any number of reboots, each of them ended by a power failure; all flash contents
on the way satisfy `P`. -/
inductive InterruptedRam (c : Cfg) (e : Env) (ext : Part → Bool) (r : RamCfg) (P : Flash → Prop) (f : Flash) : Flash → Prop
  | none : InterruptedRam c e ext r P f f
  | again {g g' : Flash} {n fuel : Nat} {t ram : Mem} : InterruptedRam c e ext r P f g →
      ramStart c e ext r (fuel + 2) ram { fl := g, locked := true, budget := some n, torn := t } = .crash g' → P g' →
      InterruptedRam c e ext r P f g'

/-- C43 for RAM boot. -/
theorem ram_power_safe (w : c.WF) (hx : r.fixed = true) {X : Mem} {q : Part}
    (hdr : ∀ a b : Mem, (∀ o, o < c.h → a o = b o) → e.ver a = e.ver b) (hv : e.ver X < 2147483648)
    (hroom : imageBytes c X ≤ r.room) {f g : Flash} (hq : Confirmed c e X q f) (hfit : FitsRam c e r q.other f)
    (hi : InterruptedRam c e ext r (FitsRam c e r q.other) f g) (fuel : Nat) (ram t : Mem) :
    ∃ p ram' w', ramStart c e ext r (fuel + 2) ram { fl := g, locked := true, budget := none, torn := t } =
      .ok (.boots p ram') w' ∧ RamAuthentic c e ram' := by
  have key : Confirmed c e X q g ∧ FitsRam c e r q.other g := by
    induction hi with
    | none => exact ⟨hq, hfit⟩
    | @again g g' n fuel t ram h1 h2 h3 ih =>
      have := ramStart_spec (T := fun _ => True) (ext := ext) w hx hdr hv hroom g ih.1 ih.2 fuel ram
        { fl := g, locked := true, budget := some n, torn := t } trivial rfl rfl
      rw [h2] at this
      exact ⟨this.2, h3⟩
  have := ramStart_spec (T := fun _ => True) (ext := ext) w hx hdr hv hroom g key.1 key.2 fuel ram
    { fl := g, locked := true, budget := none, torn := t } trivial rfl rfl
  cases hrun : ramStart c e ext r (fuel + 2) ram { fl := g, locked := true, budget := none, torn := t } with
  | ok a w' =>
    rw [hrun] at this
    obtain ⟨p, ram', rfl, h⟩ := this.2.2.2
    exact ⟨p, ram', w', rfl, h⟩
  | crash g => rw [hrun] at this; exact absurd rfl this.1
  | _ => rw [hrun] at this; exact this.elim

/-- C29 is violated: if both partitions hold an image with a version, but neither can be used, the bootloader
tries them in turn forever instead of giving up. -/
theorem ram_loops_forever (hx : r.fixed = true) (w : World) (hf : fallbackPossible e w.fl = true)
    (hb : ∀ p ram, (tryImage c e r (w.fl p) ram).1 = .bad) :
    ∀ (fuel : Nat) (p : Part) (ram : Mem), ramBootLoop c e ext r fuel (some p) ram w = .stuck w.fl
  | 0, _, _ => rfl
  | fuel + 1, p, ram => by
    have ih := ram_loops_forever hx w hf hb fuel p.other
    have hbp := hb p ram
    unfold ramBootLoop
    have e1 : pickActive c e ext r (some p) = Pure.pure (some p) := by
      unfold pickActive
      rw [if_pos hx]
    rw [e1]
    rcases ht : tryImage c e r (w.fl p) ram with ⟨v, ram'⟩
    rw [ht] at hbp
    obtain rfl : v = .bad := hbp
    change (match tryImage c e r (w.fl p) ram with
      | (.good, ram') => _
      | (.over, _) => _
      | (.bad, ram') => if fallbackPossible e w.fl = true then ramBootLoop c e ext r fuel (some p.other) ram' else panicM : M RamRun) w = _
    rw [ht]
    dsimp only
    rw [if_pos hf]
    exact ih ram'

theorem ram_both_bad (hx : r.fixed = true) (w : World) (hf : fallbackPossible e w.fl = true)
    (hb : ∀ p ram, (tryImage c e r (w.fl p) ram).1 = .bad)
    (hs : ∀ p, getState c w.fl p ≠ some ST_TESTING) (fuel : Nat) (ram : Mem) :
    ramStart c e ext r fuel ram w = .stuck w.fl := by
  cases fuel with
  | zero => rfl
  | succ fuel =>
    have h := fallbackPossible_iff.1 hf
    have e1 : candidate c e ext w = .ok (some (newest (e.ver (w.fl .boot)) (e.ver (w.fl .update)))) w := by
      unfold candidate
      change (if e.ver (w.fl .boot) = 0 ∧ e.ver (w.fl .update) = 0 then _ else if _ ∧ _ then _ else _ : M (Option Part)) w = _
      rw [if_neg (by omega), if_neg (fun hc => hs _ hc.2)]
      rfl
    have key := ram_loops_forever (ext := ext) hx w hf hb (fuel + 1) (newest (e.ver (w.fl .boot)) (e.ver (w.fl .update))) ram
    unfold ramBootLoop at key
    unfold ramStart ramBootLoop
    have e2 : pickActive c e ext r none = candidate c e ext := by
      unfold pickActive
      rw [if_pos hx]
    have e3 : ∀ p, pickActive c e ext r (some p) = Pure.pure (some p) := by
      intro p
      unfold pickActive
      rw [if_pos hx]
    rw [e3] at key
    rw [e2]
    change M.bind _ _ w = _
    unfold M.bind
    rw [e1]
    exact key

/-- C29 is violated in builds without fixed partitions: the choice is made anew after a failure, so that the
same unusable image is tried forever, and the other one never, however good it is. -/
theorem ram_addr_never_falls_back (hx : r.fixed = false) (w : World) (hf : fallbackPossible e w.fl = true) {p : Part}
    (hp : candidateAddr e w.fl = some p) (hb : ∀ ram, (tryImage c e r (w.fl p) ram).1 = .bad) :
    ∀ (fuel : Nat) (a : Option Part) (ram : Mem), ramBootLoop c e ext r fuel a ram w = .stuck w.fl
  | 0, _, _ => rfl
  | fuel + 1, a, ram => by
    have ih := ram_addr_never_falls_back hx w hf hp hb fuel (some p.other)
    have hbp := hb ram
    unfold ramBootLoop
    have e1 : pickActive c e ext r a w = .ok (some p) w := by
      unfold pickActive
      rw [if_neg (by rw [hx]; simp), ← hp]
      rfl
    rcases ht : tryImage c e r (w.fl p) ram with ⟨v, ram'⟩
    rw [ht] at hbp
    obtain rfl : v = .bad := hbp
    change M.bind _ _ w = _
    unfold M.bind
    rw [e1]
    change (match tryImage c e r (w.fl p) ram with
      | (.good, ram') => _
      | (.over, _) => _
      | (.bad, ram') => if fallbackPossible e w.fl = true then ramBootLoop c e ext r fuel (some p.other) ram' else panicM : M RamRun) w = _
    rw [ht]
    dsimp only
    rw [if_pos hf]
    exact ih ram'

/-- With `WOLFBOOT_USE_RAMBOOT` the image is copied before anything but the magic and the version is checked: a
header with a large size field overwrites the memory behind the RAM area, whoever made it. -/
theorem ramboot_overflow (hr : r.ramboot = true) {m ram : Mem} (hv : e.ver (fun a => if a < c.h then m a else ram a) ≠ 0)
    (hv2 : e.ver (fun a => if a < c.h then m a else ram a) < 2147483648)
    (hs : r.room < c.h + le32 (fun a => if a < c.h then m a else ram a) 4) : (tryImage c e r m ram).1 = .over := by
  unfold tryImage
  rw [if_pos hr]
  dsimp only
  rw [if_neg (by omega), if_pos (by omega)]

/-! ## Hardware bank swap -/

theorem hwLoop_spec (w : c.WF) {T : Mem → Prop} {l : Bool} (hl : l = true ∨ ∀ p, ext p = false) {X : Mem} {q : Part}
    (f : Flash) (hq : Confirmed c e X q f) {p : Part} (hp : p ≠ .swap) (hpv : e.ver (f p) ≠ 0) (fuel : Nat) :
    Triple T l (fun g => g = f) (hwLoop c e ext (fuel + 2) p) l
      (fun a g => a ≠ .swap ∧ bootable c e (g a) ∧ Confirmed c e X q g)
      (fun g => Confirmed c e X q g) := by
  have good : ∀ (fuel : Nat) (p : Part) (f : Flash), Confirmed c e X q f → p ≠ .swap → bootable c e (f p) →
      Triple T l (fun g => g = f) (hwLoop c e ext (fuel + 1) p) l
      (fun a g => a ≠ .swap ∧ bootable c e (g a) ∧ Confirmed c e X q g)
      (fun g => Confirmed c e X q g) := by
    intro fuel p f hq hp hb
    unfold hwLoop
    refine Triple.readFlash ?_
    rintro f' rfl
    rw [if_pos hb]
    exact (Triple.pure (Q := fun a g => a ≠ .swap ∧ bootable c e (g a) ∧ Confirmed c e X q g) p).conseq
      (by rintro _ rfl; exact ⟨hp, hb, hq⟩) (fun _ _ h => h) fun _ h => h
  by_cases hb : bootable c e (f p)
  · exact good (fuel + 1) p f hq hp hb
  · have hpq : p ≠ q := by
      rintro rfl
      exact hb (hq.good.bootableOf w hq.holds).1
    have hqp : p.other = q := by rw [Part.eq_other hp hq.part hpq, Part.other_other]
    unfold hwLoop
    refine Triple.readFlash ?_
    rintro f' rfl
    rw [if_neg hb, if_pos (fallback_of hp hpv (by rw [hqp]; exact hq.ver))]
    refine Triple.bind ((erasePartition_spec hl f' p).conseq (fun _ h => h) (fun _ _ h => h) ?_) fun _ => ?_
    · intro g hg
      exact hq.congr (hg q (Ne.symm hpq))
    · refine Triple.ofEq ?_
      rintro g ⟨hg, _⟩
      have hqg := hq.congr (hg q (Ne.symm hpq))
      rw [hqp]
      exact good fuel q g hqg hq.part (hq.good.bootableOf w hqg.holds).1

theorem Confirmed.swapped {X : Mem} {q : Part} {f : Flash} (h : Confirmed c e X q f) :
    Confirmed c e X q.other f.banksSwapped := by
  have e1 : f.banksSwapped q.other = f q := by
    unfold Flash.banksSwapped
    rw [Part.other_other]
  have e2 : getState c f.banksSwapped q.other = getState c f q := by
    have : hasMagic c f.banksSwapped q.other ↔ hasMagic c f q := by unfold hasMagic; rw [e1]
    unfold getState
    by_cases hm : hasMagic c f q
    · rw [if_pos hm, if_pos (this.2 hm), e1]
    · rw [if_neg hm, if_neg (fun hc => hm (this.1 hc))]
  exact ⟨Part.other_swap h.part, fun o ho => by rw [e1]; exact h.holds o ho, h.good, h.version,
    by rw [e2]; exact h.not_testing, by rw [e2]; exact h.not_updating⟩

theorem bankSwap_spec {T : Mem → Prop} {l : Bool} {P : Flash → Prop} {C : Flash → Prop} :
    Triple T l P bankSwap l (fun _ g => ∃ f, P f ∧ g = f.banksSwapped) C := by
  intro w hT hl hP
  exact ⟨hl, rfl, id, w.fl, hP, rfl⟩

/-- The contents `b` of a partition are those of an image that passed the checks, up to the magic and the state in
the last five bytes. -/
def PassedChecks (c : Cfg) (e : Env) (b : Mem) : Prop := ∃ m, bootable c e m ∧ ∀ o, o + 5 < c.part → b o = m o

theorem hwMark_spec (w : c.WF) {T : Mem → Prop} {X : Mem} {q : Part} (f : Flash)
    (hb : bootable c e (f .boot)) (hq : Confirmed c e X q f) :
    Triple T true (fun g => g = f) (setTesting c .boot) true
      (fun _ g => PassedChecks c e (g .boot) ∧ Confirmed c e X q g)
      (fun g => ∃ q, Confirmed c e X q g) := by
  have htr := trailer_bounds w (k := 1) (by have := w.ss_pos; omega)
  have conf : ∀ g, Same .boot (trailerAt c 1) c.part f g → (getState c f .boot ≠ some ST_UPDATING → g = f) →
      Confirmed c e X q g := by
    intro g h1 h2
    by_cases hqb : q = .boot
    · subst hqb
      rw [h2 hq.not_updating]
      exact hq
    · exact hq.congr (h1.other hqb)
  refine (setTesting_spec w f (by simp)).conseq (fun _ h => h) ?_ ?_
  · rintro _ g ⟨_, h2, h3⟩
    exact ⟨⟨_, hb, fun o ho => h3.out (by omega)⟩, conf g h3 h2⟩
  · rintro g ⟨h1, h2⟩
    exact ⟨q, conf g h2 fun h => absurd h1 h⟩

/-- C30: if one partition holds a good image that is not on trial, then the firmware that is started passed all
the checks, whatever the other partition holds; a power failure, or the reset done by the hardware at the exchange
of the banks, leaves a good image in place. -/
theorem hwStart_spec (w : c.WF) {T : Mem → Prop} {X : Mem} {q : Part}
    (f : Flash) (hq : Confirmed c e X q f) (fuel : Nat) :
    Triple T true (fun g => g = f) (hwStart c e ext (fuel + 2)) true
      (fun _ g => PassedChecks c e (g .boot))
      (fun g => ∃ q, Confirmed c e X q g) := by
  unfold hwStart
  refine Triple.bind ((dual_candidate (Or.inl rfl) f).conseq (fun _ h => h) (fun _ _ h => h) ?_) ?_
  · rintro g ⟨p, _, h2, _, h4⟩
    refine ⟨q, hq.congr (h4 q ?_)⟩
    rintro rfl
    exact hq.not_testing h2
  intro a
  refine Triple.ofEq ?_
  rintro g ⟨h1, h2⟩
  cases a with
  | none =>
    obtain ⟨h3, h4⟩ := h1.1 rfl
    have := hq.ver
    cases hqq : q with
    | boot => rw [hqq] at this; exact absurd h3 this
    | update => rw [hqq] at this; exact absurd h4 this
    | swap => exact absurd hqq hq.part
  | some p =>
    obtain ⟨h3, h4, h5, h6, h7⟩ := h2 p rfl
    have hqg : Confirmed c e X q g := by
      by_cases hqp : q = p.other
      · rcases h7 with ⟨_, rfl, _⟩ | ⟨_, ht⟩
        · exact hq
        · rw [← hqp] at ht
          exact absurd ht hq.not_testing
      · exact hq.congr (h6 q hqp)
    dsimp only
    refine Triple.bind ((hwLoop_spec w (Or.inl rfl) g hqg h3 (by rw [h5]; exact h4) fuel).conseq (fun _ h => h)
      (fun _ _ h => h) fun _ h => ⟨q, h⟩) ?_
    intro p2
    refine Triple.ofEq ?_
    rintro g2 ⟨h8, h9, h10⟩
    refine Triple.bind (l' := true) (Q := fun _ g => PassedChecks c e (g .boot) ∧ ∃ q, Confirmed c e X q g) ?_ fun _ => ?_
    · unfold hwFinish
      refine Triple.ite (fun hu => ?_) (fun hu => ?_)
      · subst hu
        refine Triple.bind (Triple.tick (by rintro _ rfl; exact ⟨q, h10⟩)) fun _ => ?_
        refine Triple.bind bankSwap_spec fun _ => ?_
        refine Triple.ofEq ?_
        rintro g3 ⟨_, rfl, rfl⟩
        refine Triple.bind (Triple.tick (by rintro _ rfl; exact ⟨_, h10.swapped⟩)) fun _ => ?_
        exact (hwMark_spec w _ h9 h10.swapped).conseq (fun _ h => h) (fun _ _ h => ⟨h.1, _, h.2⟩) fun _ h => h
      · have : p2 = .boot := by cases p2 <;> simp_all
        subst this
        exact (hwMark_spec w g2 h9 h10).conseq (fun _ h => h) (fun _ _ h => ⟨h.1, _, h.2⟩) fun _ h => h
    · exact (Triple.tick fun _ h => h.2).conseq (fun _ h => h) (fun _ _ h => h.1) fun _ h => h

/-- Any number of reboots of the hardware swap build, each ended by a power failure or by the reset at the
exchange of the banks. -/
inductive InterruptedHw (c : Cfg) (e : Env) (ext : Part → Bool) (f : Flash) : Flash → Prop
  | none : InterruptedHw c e ext f f
  | again {g g' : Flash} {n fuel : Nat} {t : Mem} : InterruptedHw c e ext f g →
      hwStart c e ext (fuel + 2) { fl := g, locked := true, budget := some n, torn := t } = .crash g' →
      InterruptedHw c e ext f g'

/-- C43 for hardware swap. -/
theorem hw_power_safe (w : c.WF) {X : Mem} {q : Part}
    {f g : Flash} (hq : Confirmed c e X q f) (hi : InterruptedHw c e ext f g) (fuel : Nat) (t : Mem) :
    ∃ w', hwStart c e ext (fuel + 2) { fl := g, locked := true, budget := none, torn := t } = .ok () w' ∧
      PassedChecks c e (w'.fl .boot) := by
  have key : ∃ q, Confirmed c e X q g := by
    induction hi with
    | none => exact ⟨q, hq⟩
    | @again g g' n fuel t h1 h2 ih =>
      obtain ⟨q', h3⟩ := ih
      have := hwStart_spec (T := fun _ => True) (ext := ext) w g h3 fuel
        { fl := g, locked := true, budget := some n, torn := t } trivial rfl rfl
      rw [h2] at this
      exact this.2
  obtain ⟨q', h3⟩ := key
  have := hwStart_spec (T := fun _ => True) (ext := ext) w g h3 fuel
    { fl := g, locked := true, budget := none, torn := t } trivial rfl rfl
  cases hrun : hwStart c e ext (fuel + 2) { fl := g, locked := true, budget := none, torn := t } with
  | ok a w' =>
    rw [hrun] at this
    exact ⟨w', rfl, this.2.2.2⟩
  | crash g => rw [hrun] at this; exact absurd rfl this.1
  | _ => rw [hrun] at this; exact this.elim

/-- C30 is violated: the failing image is to be erased, but internal flash is not unlocked for it, so that with
two unusable images the loop never ends. -/
theorem hw_loops_forever (w : World) (hl : w.locked = true) (hbud : w.budget = none) (hx : ∀ p, ext p = false)
    (hf : fallbackPossible e w.fl = true) (hb : ∀ p, ¬ bootable c e (w.fl p)) :
    ∀ (fuel : Nat) (p : Part), hwLoop c e ext fuel p w = .stuck w.fl
  | 0, _ => rfl
  | fuel + 1, p => by
    have ih := hw_loops_forever w hl hbud hx hf hb fuel p.other
    have e1 : erasePartition c ext p w = .ok () w := by
      unfold erasePartition
      rw [if_neg (by rw [hx p]; simp)]
      unfold erase flashOp
      rw [hbud]
      dsimp only
      rw [if_pos hl, ← hbud]
    unfold hwLoop
    change (if bootable c e (w.fl p) then _ else if fallbackPossible e w.fl = true then _ else _ : M Part) w = _
    rw [if_neg (hb p), if_pos hf]
    change M.bind _ _ w = _
    unfold M.bind
    rw [e1]
    exact ih

/-- If the flash is not locked, the loop decides after two rounds: an image that passed the checks, or panic
because both partitions were tried (or only one held an image). -/
theorem hw_decides (w : World) (hl : w.locked = false) (hbud : w.budget = none) (hx : ∀ p, ext p = false)
    (hff : ∀ m : Mem, (∀ a, a < c.part → m a = 0xFF#8) → e.ver m = 0) {p : Part} (hp : p ≠ .swap) (fuel : Nat) :
    (bootable c e (w.fl p) ∧ hwLoop c e ext (fuel + 2) p w = .ok p w) ∨
    (¬ bootable c e (w.fl p) ∧ bootable c e (w.fl p.other) ∧ e.ver (w.fl p) ≠ 0 ∧ e.ver (w.fl p.other) ≠ 0 ∧
      ∃ w', w'.fl p.other = w.fl p.other ∧ hwLoop c e ext (fuel + 2) p w = .ok p.other w') ∨
    (¬ bootable c e (w.fl p) ∧ (¬ bootable c e (w.fl p.other) ∨ e.ver (w.fl p) = 0 ∨ e.ver (w.fl p.other) = 0) ∧
      ∃ f, hwLoop c e ext (fuel + 2) p w = .panic f) := by
  by_cases hb : bootable c e (w.fl p)
  · refine Or.inl ⟨hb, ?_⟩
    unfold hwLoop
    change (if bootable c e (w.fl p) then _ else _ : M Part) w = _
    rw [if_pos hb]
    rfl
  have step : hwLoop c e ext (fuel + 2) p w = if fallbackPossible e w.fl = true then
      hwLoop c e ext (fuel + 1) p.other { w with fl := w.fl.erase p 0 c.part } else .panic w.fl := by
    have e1 : erasePartition c ext p w = .ok () { w with fl := w.fl.erase p 0 c.part } := by
      unfold erasePartition
      rw [if_neg (by rw [hx p]; simp)]
      unfold erase flashOp
      rw [hbud]
      dsimp only
      rw [if_neg (by rw [hl]; simp)]
    rw [hwLoop]
    change (if bootable c e (w.fl p) then _ else if fallbackPossible e w.fl = true then _ else _ : M Part) w = _
    rw [if_neg hb]
    by_cases hf : fallbackPossible e w.fl = true
    · rw [if_pos hf, if_pos hf]
      change M.bind _ _ w = _
      unfold M.bind
      rw [e1]
    · rw [if_neg hf, if_neg hf]
      rfl
  by_cases hf : fallbackPossible e w.fl = true
  · rw [if_pos hf] at step
    have hv : e.ver (w.fl p) ≠ 0 ∧ e.ver (w.fl p.other) ≠ 0 := by
      have := fallbackPossible_iff.1 hf
      cases p
      · exact this
      · exact ⟨this.2, this.1⟩
      · exact absurd rfl hp
    have e2 : (w.fl.erase p 0 c.part) p.other = w.fl p.other := (same_erase w.fl p 0 c.part).other (Part.other_ne hp)
    have e3 : e.ver ((w.fl.erase p 0 c.part) p) = 0 := by
      apply hff
      intro a ha
      unfold Flash.erase
      rw [if_pos ⟨rfl, by omega, by omega⟩]
    have e4 : ¬ fallbackPossible e (w.fl.erase p 0 c.part) = true := by
      rw [fallbackPossible_iff]
      rintro ⟨h1, h2⟩
      cases p
      · exact h1 e3
      · exact h2 e3
      · exact hp rfl
    have step2 : hwLoop c e ext (fuel + 1) p.other { w with fl := w.fl.erase p 0 c.part } =
        if bootable c e (w.fl p.other) then .ok p.other { w with fl := w.fl.erase p 0 c.part }
        else .panic (w.fl.erase p 0 c.part) := by
      rw [hwLoop]
      change (if bootable c e ((w.fl.erase p 0 c.part) p.other) then _ else
        if fallbackPossible e (w.fl.erase p 0 c.part) = true then _ else _ : M Part) _ = _
      rw [if_neg e4, e2]
      by_cases h : bootable c e (w.fl p.other)
      · rw [if_pos h, if_pos h]
        rfl
      · rw [if_neg h, if_neg h]
        rfl
    by_cases h : bootable c e (w.fl p.other)
    · rw [if_pos h] at step2
      exact Or.inr (Or.inl ⟨hb, h, hv.1, hv.2, _, e2, step.trans step2⟩)
    · rw [if_neg h] at step2
      exact Or.inr (Or.inr ⟨hb, Or.inl h, _, step.trans step2⟩)
  · rw [if_neg hf] at step
    refine Or.inr (Or.inr ⟨hb, Or.inr ?_, _, step⟩)
    rw [fallbackPossible_iff] at hf
    cases p
    · change e.ver (w.fl .boot) = 0 ∨ e.ver (w.fl .update) = 0
      omega
    · change e.ver (w.fl .update) = 0 ∨ e.ver (w.fl .boot) = 0
      omega
    · exact absurd rfl hp

end

end Verif
