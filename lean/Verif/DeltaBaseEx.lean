import Verif.DeltaDemo

/-!
# Examples and counterexamples for the base check of delta updates (C24)
-/

namespace Verif

open Demo (okAnd crashAnd panics eqUpto)

namespace DDemo

theorem pd {f : Flash} (h : bootable cfg env (f .boot) ∧ env.ver (f .boot) ≠ 0 ∧
    getState cfg f .boot ≠ some ST_TESTING ∧ isDelta (env.typ (f .update)) ∧
    getState cfg f .update = some ST_UPDATING ∧ getFlag cfg f 0 = some FL_NEW ∧
    le32 (f .boot) cfg.tmp ≠ MAGIC_TRAIL) : PendingDelta cfg env f :=
  ⟨h.1, h.2.1, h.2.2.1, h.2.2.2.1, h.2.2.2.2.1, h.2.2.2.2.2.1, h.2.2.2.2.2.2⟩

end DDemo

open DDemo

/-- The right delta image is installed. -/
example : okAnd (bootUpD cfg env dcfg (pending delta)) (fun f => eqUpto f .boot new 124) = true := by
  decide +kernel

/-- `delta_wrong_base_partial`: another base version, another base digest. -/
example : PendingDelta cfg env (pending deltaV) ∧ WrongBase cfg env dcfg (pending deltaV .boot) (pending deltaV .update) :=
  ⟨pd (by decide +kernel), Or.inl (by decide +kernel)⟩

example : PendingDelta cfg env (pending deltaH) ∧ WrongBase cfg env dcfg (pending deltaH .boot) (pending deltaH .update) :=
  ⟨pd (by decide +kernel), Or.inr ⟨[0x4C#8, 0x5A#8], [0x33#8, 0x5A#8], rfl, rfl, by decide, by decide,
    ⟨26, by decide +kernel, by decide +kernel⟩, ⟨64, by decide +kernel, by decide +kernel⟩⟩⟩

/-- `delta_select_version`, `delta_select_digest_partial`: a patch is selected, forward and backward. -/
example : deltaSelect cfg env dcfg (pending delta) false false = .go 80 52 ∧
    deltaSelect cfg env dcfg (flash new (some ST_TESTING) delta none) true false = .go 132 42 := by
  decide +kernel

/-- **Violation**: firmware with version number 0 counts as an interrupted update, and the base is not
checked at all (`/repo/src/update_flash.c:673-684`, `cur_ver == 0`): a device running a correctly signed
image of version 0 is destroyed by a correctly signed delta image made for version 1. -/
theorem delta_version_zero : ∃ (c : Cfg) (e : Env) (d : DCfg) (f : Flash), c.WF ∧ bootable c e (f .boot) ∧
    acceptable c e (f .update) ∧ WrongBase c e d (f .boot) (f .update) ∧
    (∀ j, j < c.n - 1 → getFlag c f j = some FL_NEW) ∧ Quiet c f ∧
    panics (bootUpD c e d f) = true := by
  refine ⟨cfg, env, dcfg, flash zero (some ST_SUCCESS) delta (some ST_UPDATING), wf, ?_, ?_, ?_, ?_, ?_, ?_⟩
  · decide +kernel
  · decide +kernel
  · exact Or.inl (by decide +kernel)
  · decide +kernel
  · unfold Quiet; decide +kernel
  · decide +kernel

/-- **Violation**: the digest is compared over the length of the digest field of the *installed* image;
if that has no such field, nothing is compared (`/repo/src/update_flash.c:404-415,432-434`). -/
theorem delta_digest_not_compared : ∃ (c : Cfg) (e : Env) (d : DCfg) (f : Flash) (x : List Byte), c.WF ∧
    HasField c.h (f .update) HDR_IMG_DELTA_BASE_HASH x ∧ x.length = d.dlen ∧ 0 < d.dlen ∧
    (∀ y, y.length = d.dlen → ¬ HasField c.h (f .boot) d.shaTag y) ∧
    deltaSelect c e d f false false = .go 80 52 := by
  refine ⟨cfg, env, { dcfg with shaTag := 0x14 }, pending deltaH, [0x33#8, 0x5A#8], wf,
    ⟨64, by decide +kernel, by decide +kernel⟩, rfl, by decide, ?_, by decide +kernel⟩
  rintro y hy ⟨off, h, _⟩
  have : findHdr (pending deltaH .boot) 80 0x14 = .notFound := by decide +kernel
  have h' : findHdr (pending deltaH .boot) 80 0x14 = .found off y.length := h
  rw [this] at h'
  exact absurd h' (by simp)

/-- **Violation**: if the delta image lacks its size field, `wolfBoot_delta_update` returns without
locking the flash (`/repo/src/update_flash.c:386,400`), and the application is started with the
flash unlocked. -/
theorem delta_unlocked : ∃ (c : Cfg) (e : Env) (d : DCfg) (f : Flash), c.WF ∧ acceptable c e (f .update) ∧
    PendingDelta c e f ∧ ∃ w, bootUpD c e d f = .ok () w ∧ w.locked = false ∧ w.fl .boot = f .boot := by
  refine ⟨cfg, env, dcfg, pending deltaN, wf, by decide +kernel, pd (by decide +kernel), ?_⟩
  have hl : (match bootUpD cfg env dcfg (pending deltaN) with
    | .ok _ w => w.locked == false
    | _ => false) = true := by decide +kernel
  have hw : WrongBase cfg env dcfg (pending deltaN .boot) (pending deltaN .update) :=
    Or.inl (by decide +kernel)
  obtain ⟨_, w, h, hf⟩ := delta_wrong_base_partial (T := fun _ => True) (pd (by decide +kernel)) hw .none
  rw [h] at hl
  exact ⟨w, h, by simpa using hl, by rw [hf]⟩

end Verif
