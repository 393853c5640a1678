import Verif.DeltaUpdate
import Verif.UpdateLemmas
import Verif.ImageLemmas
import Verif.DiffThms

/-!
# Base checks of delta updates (C24)
-/

namespace Verif

/-! ## Specification vocabulary -/

/-- Run of `wolfBoot_start` without power failure. -/
def bootUpD (c : Cfg) (e : Env) (d : DCfg) (f : Flash) : Res Unit :=
  startD c e d { fl := f, locked := true, budget := none, torn := fun _ => 0#8 }

/-- Run of `wolfBoot_start` with a power failure at flash operation number `n`. -/
def bootFailD (c : Cfg) (e : Env) (d : DCfg) (f : Flash) (n : Nat) (t : Mem) : Res Unit :=
  startD c e d { fl := f, locked := true, budget := some n, torn := t }

/-- `g` is reached from `f` by any number of reboots, each of them ended by a power failure that leaves
bytes satisfying `T`; all flash contents in between and `g` satisfy `P`. -/
inductive InterruptedD (c : Cfg) (e : Env) (d : DCfg) (T : Mem → Prop) (P : Flash → Prop) (f : Flash) : Flash → Prop
  | none : InterruptedD c e d T P f f
  | again {g g' : Flash} {n : Nat} {t : Mem} : InterruptedD c e d T P f g → T t →
      bootFailD c e d g n t = .crash g' → P g' → InterruptedD c e d T P f g'

/-- The header of `m` has a field `tag` whose content is `l`. -/
def HasField (H : Nat) (m : Mem) (tag : Nat) (l : List Byte) : Prop :=
  ∃ off, findHdr m H tag = .found off l.length ∧ slice m off l.length = l

/-- The delta image `u` was not built for the base image `b`: its base version differs from the version
of `b`, or its base digest differs from the digest of `b`. -/
def WrongBase (c : Cfg) (e : Env) (d : DCfg) (b u : Mem) : Prop :=
  e.ver b ≠ diffBase c.h u ∨
    ∃ x y : List Byte, x.length = d.dlen ∧ y.length = d.dlen ∧ 0 < d.dlen ∧ x ≠ y ∧
      HasField c.h b d.shaTag x ∧ HasField c.h u HDR_IMG_DELTA_BASE_HASH y

/-! ## Decision -/

section
variable {c : Cfg} {e : Env} {d : DCfg} {f : Flash}

theorem initPatch_go {off size off' size' : Nat} (h : initPatch off size = .go off' size') :
    off' = off ∧ size' = size ∧ 0 < size := by
  unfold initPatch at h
  split at h
  · exact absurd h (by simp)
  · injection h with h1 h2
    exact ⟨h1.symm, h2.symm, by omega⟩

/-- A patch is started only in the right direction on the right versions: forward on the version named
by the delta image, backward on the version of the delta image itself, and only towards an older
version. -/
theorem delta_select_version {inverse : Bool} {off size : Nat}
    (h : deltaSelect c e d f inverse false = .go off size) :
    (inverse = false → e.ver (f .boot) = diffBase c.h (f .update)) ∧
    (inverse = true → e.ver (f .boot) = e.ver (f .update) ∧
      diffBase c.h (f .update) < e.ver (f .boot)) := by
  unfold deltaSelect at h
  split at h
  · exact absurd h (by simp)
  · dsimp only at h
    split at h
    · exact absurd h (by simp)
    · cases inverse with
      | true =>
        simp only [↓reduceIte, Bool.false_eq_true, or_false] at h
        split at h
        · next hc => exact ⟨by simp, fun _ => hc⟩
        · exact absurd h (by simp)
      | false =>
        simp only [Bool.false_eq_true, ↓reduceIte, true_and] at h
        split at h
        · exact absurd h (by simp)
        · next hc => exact ⟨fun _ => by simpa using hc, by simp⟩

/-- The digest is compared if both images name one. -/
theorem delta_select_digest_partial {off size : Nat} {x y : List Byte}
    (h : deltaSelect c e d f false false = .go off size)
    (hb : HasField c.h (f .boot) d.shaTag x) (hu : HasField c.h (f .update) HDR_IMG_DELTA_BASE_HASH y)
    (hx : x.length = d.dlen) (hy : y.length = d.dlen) : x = y := by
  obtain ⟨bo, hb1, hb2⟩ := hb
  obtain ⟨uo, hu1, hu2⟩ := hu
  by_cases hd : d.dlen = 0
  · rw [hd] at hx hy
    rw [List.length_eq_zero_iff.mp hx, List.length_eq_zero_iff.mp hy]
  unfold deltaSelect at h
  split at h
  · exact absurd h (by simp)
  · dsimp only at h
    rw [hb1, hu1] at h
    simp only [Find.len, Find.ptr, hx, hy, ne_eq, not_true_eq_false, false_and, ↓reduceIte,
      Bool.false_eq_true, true_and, hd, not_false_eq_true] at h
    split at h
    · exact absurd h (by simp)
    · split at h
      · exact absurd h (by simp)
      · next hm =>
        simp only [Bool.not_eq_false] at hm
        unfold memEq at hm
        rw [beq_iff_eq] at hm
        rw [← hb2, ← hu2, hx, hy]
        exact hm

theorem wrongBase_refuse (h : WrongBase c e d (f .boot) (f .update)) :
    ∀ off size, deltaSelect c e d f false false ≠ .go off size := by
  intro off size hgo
  rcases h with h | ⟨x, y, hx, hy, _, hne, hb, hu⟩
  · exact h ((delta_select_version hgo).1 rfl)
  · exact hne (delta_select_digest_partial hgo hb hu hx hy)

/-! ## Whole reboots -/

theorem deltaUpdate_refused {bf uf : Nat} {inv res : Bool} {w : World}
    (h : ∀ off size, deltaSelect c e d w.fl inv res ≠ .go off size) :
    ∃ l, deltaUpdate c e d bf uf inv res w = .ok false { w with locked := l } := by
  unfold deltaUpdate
  cases hs : deltaSelect c e d w.fl inv res with
  | early =>
    refine ⟨false, ?_⟩
    simp only [bind, M.bind, pure, M.pure, unlock, readFlash, hs]
  | refuse =>
    refine ⟨true, ?_⟩
    simp only [bind, M.bind, pure, M.pure, unlock, readFlash, hs, lock]
  | go off size => exact absurd hs (h off size)

/-- The state of a device that runs an image and is asked to install the delta image in UPDATE. -/
structure PendingDelta (c : Cfg) (e : Env) (f : Flash) : Prop where
  boots : bootable c e (f .boot)
  version : e.ver (f .boot) ≠ 0
  confirmed : getState c f .boot ≠ some ST_TESTING
  delta : isDelta (e.typ (f .update))
  state : getState c f .update = some ST_UPDATING
  flag0 : getFlag c f 0 = some FL_NEW
  quiet : le32 (f .boot) c.tmp ≠ MAGIC_TRAIL

theorem deltaBranch_fresh (hst : getState c f .update = some ST_UPDATING) (hfl : getFlag c f 0 = some FL_NEW)
    (h0 : e.ver (f .boot) ≠ 0) (hv : e.ver (f .boot) < e.ver (f .update)) :
    deltaBranch c e d false f =
      deltaUpdate c e d (fwSize c (f .boot)) (fwSize c (f .update)) false false := by
  unfold deltaBranch
  dsimp only
  rw [hst, hfl]
  dsimp only
  rw [if_neg (by simp [h0]), if_neg (by simp),
    show decide (e.ver (f .update) ≤ e.ver (f .boot)) = false from decide_eq_false (by omega)]

theorem startUpdateD_wrongBase {w : World} (hp : PendingDelta c e w.fl)
    (hw : WrongBase c e d (w.fl .boot) (w.fl .update)) :
    ∃ l, startUpdateD c e d w = .ok () { w with locked := l } := by
  have hst : (getState c w.fl .update).getD e.junk ≠ ST_FINAL := by
    rw [hp.state]
    change ST_UPDATING ≠ ST_FINAL
    decide
  have hsf : swapFinal c e true w = .ok false w := by
    unfold swapFinal
    simp only [bind, M.bind, readFlash]
    rw [if_pos ⟨trivial, hp.quiet, hst⟩]
    rfl
  have hfl : (getFlag c w.fl 0).getD FL_NEW = FL_NEW := by rw [hp.flag0]; rfl
  have hup : ∃ l, wbUpdateD c e d false w = .ok false { w with locked := l } := by
    unfold wbUpdateD
    simp only [bind, M.bind, readFlash]
    have nop : ∃ l, (pure false : M Bool) w = .ok false { w with locked := l } := ⟨w.locked, rfl⟩
    split
    · exact nop
    split
    · exact nop
    split
    · exact nop
    rename_i h3
    have hv : e.ver (w.fl .boot) < e.ver (w.fl .update) := by
      have := fun h => h3 ⟨hfl, h⟩
      simpa using this
    rw [if_pos hp.delta]
    rw [deltaBranch_fresh hp.state hp.flag0 hp.version hv]
    exact deltaUpdate_refused (wrongBase_refuse hw)
  obtain ⟨l, hl⟩ := hup
  refine ⟨l, ?_⟩
  unfold startUpdateD
  simp only [bind, M.bind, readFlash, hsf, Bool.false_eq_true, ↓reduceIte]
  rw [if_neg hp.confirmed, if_pos hp.state]
  simp only [M.bind, hl]
  rfl

theorem startD_wrongBase {w : World} (hp : PendingDelta c e w.fl)
    (hw : WrongBase c e d (w.fl .boot) (w.fl .update)) :
    (∃ w', startD c e d w = .ok () w' ∧ w'.fl = w.fl) ∨
      (startD c e d w = .crash w.fl ∧ w.budget ≠ none) := by
  obtain ⟨l, hl⟩ := startUpdateD_wrongBase hp hw
  unfold startD
  simp only [bind, M.bind, hl, readFlash]
  rw [if_pos hp.boots]
  unfold tick flashOp
  rcases hb : w.budget with _ | _ | n
  · left
    simp only [ite_self]
    exact ⟨_, rfl, rfl⟩
  · right
    simp only [ite_self]
    exact ⟨trivial, by simp⟩
  · left
    simp only [ite_self]
    exact ⟨_, rfl, rfl⟩

/-- A delta update built for another base version or another base digest is never applied: after any
number of interrupted reboots the flash is unchanged, and the installed image is started. -/
theorem delta_wrong_base_partial {T : Mem → Prop} {g : Flash} (hp : PendingDelta c e f)
    (hw : WrongBase c e d (f .boot) (f .update)) (hi : InterruptedD c e d T (fun _ => True) f g) :
    g = f ∧ ∃ w', bootUpD c e d g = .ok () w' ∧ w'.fl = f := by
  have hg : g = f := by
    induction hi with
    | none => rfl
    | @again g g' n t hi ht hr _ ih =>
      subst ih
      rcases startD_wrongBase (w := ⟨g, true, some n, t⟩) hp hw with ⟨w', h, _⟩ | ⟨h, _⟩
      · unfold bootFailD at hr
        rw [h] at hr
        exact absurd hr (by simp)
      · unfold bootFailD at hr
        rw [h] at hr
        injection hr with hr
        exact hr.symm
  refine ⟨hg, ?_⟩
  subst hg
  rcases startD_wrongBase (w := ⟨g, true, none, fun _ => 0#8⟩) hp hw with h | ⟨_, h⟩
  · exact h
  · exact absurd rfl h

end

end Verif
