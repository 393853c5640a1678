import Verif.Demo
import Lean.Elab.Tactic

/-!
# Why the erase of the UPDATE trailer sector has to be atomic

`Flash.tornErase` assumes that the erase of the last sector of UPDATE, the sector that holds the
update trailer, is atomic. Here is the reason. The update of the demonstration device reaches its
last flash operation, `wb_flash_erase(update, LAST_SECTOR)` of
`wolfBoot_swap_and_final_erase` (`/repo/src/update_flash.c:345-372`). Power fails during it, and
the sector is left with some of its zero bits already set and some not: the magic is still there,
the state byte is no longer `IMG_STATE_FINAL_FLAGS` and the flag of sector 0 reads
`SECT_FLAG_SWAPPING`. The next boot takes the trailer at its word, resumes a swap that nobody
started, copies an unrelated swap sector over sector 0 of BOOT and panics, and so does every
later boot.
-/

namespace Verif.TornTrailer
open Verif Verif.Demo

/-- The flash right before the last operation of the update of `pending`: power fails at
operation 47, whose effect is not yet visible. -/
def before : Flash := crashFl (start cfg env ⟨pending, true, some 47, fun _ => 0#8⟩)

/-- What the torn erase leaves in the last sector of UPDATE. Every byte but two is as before. -/
def left : Mem := fun x =>
  if x = 90 then 0x07#8 else if x = 91 then 0x70#8 else before .update x

/-- The flash after the torn erase. -/
def torn : Flash := fun p x => if p = .update ∧ 64 ≤ x ∧ x < 96 then left x else before p x

/-- The flash after the next boot. -/
def dead : Flash := crashFl (start cfg env ⟨torn, true, none, fun _ => 0#8⟩)

/-- Closes a goal `a = b` with `Eq.refl a`; only the kernel checks it. -/
macro "kernel_rfl" : tactic => `(tactic| run_tac do
    let g ← Lean.Elab.Tactic.getMainGoal
    let some (_, a, _) := (← g.getType).eq? | throwError "not an equation"
    g.assign (← Lean.Meta.mkEqRefl a))

theorem panics_eq {α} {r : Res α} (h : panics r = true) : r = .panic (crashFl r) := by
  cases r with
  | panic g => rfl
  | _ => exact absurd h (by simp [panics])

/-- C01, C02: without the assumption that the erase of the trailer sector is atomic, power loss can
brick the device. `before` is what a power failure in front of the last operation of the update
leaves. `torn` differs from it only in the sector being erased, and there only in bits that the
erase is about to set. The next boot panics, and so does every boot after that, whatever power
failures happen. -/
theorem torn_trailer_bricks :
    Pending cfg old new pending ∧
    bootFail cfg env pending 47 (fun _ => 0#8) = .crash before ∧
    (∀ p x, (p = .update ∧ cfg.last ≤ x ∧ x < cfg.part) ∨ torn p x = before p x) ∧
    (∀ p x, torn p x &&& before p x = before p x) ∧
    bootUp cfg env torn = .panic dead ∧
    ∀ b t, start cfg env ⟨dead, true, b, t⟩ = .panic dead := by
  refine ⟨pending_ok, isCrash_eq (by decide +kernel), ?_, ?_, panics_eq (by decide +kernel), ?_⟩
  · intro p x
    by_cases h : p = .update ∧ 64 ≤ x ∧ x < 96
    · exact .inl h
    · exact .inr (if_neg h)
  · intro p x
    unfold torn
    split
    · next h =>
      obtain ⟨rfl, h1, h2⟩ := h
      have key : ∀ x, x < 96 → left x &&& before .update x = before .update x := by
        decide +kernel
      exact key x h2
    · exact BitVec.and_self
  · intro b t
    kernel_rfl

/-- A device without firmware in BOOT (all erased), with a signed image waiting in UPDATE. -/
def blank : Flash := fun p x => if p = .boot then 0xFF#8 else pending p x

/-- The same after a power failure at operation 8, while sector 0 is being exchanged. -/
def blankCut : Flash := crashFl (bootFail cfg env blank 8 (fun _ => 0#8))

/-- What the next boot leaves. -/
def blankDead : Flash := crashFl (bootUp cfg env blankCut)

/-- C01, C02: the update procedure relies on a firmware in BOOT. On a device whose BOOT partition is
empty the pending image is installed when power does not fail. Power loss while sector 0 is being
exchanged (the header is in SWAP, BOOT and UPDATE have none) bricks the device: `wolfBoot_update`
finds no size in either header. Every later boot panics, although the image is still complete. -/
theorem empty_boot_bricks :
    okAnd (bootUp cfg env blank) (fun f => eqUpto f .boot new (imageBytes cfg new)) = true ∧
    bootFail cfg env blank 8 (fun _ => 0#8) = .crash blankCut ∧
    bootUp cfg env blankCut = .panic blankDead ∧
    ∀ b t, start cfg env ⟨blankDead, true, b, t⟩ = .panic blankDead := by
  refine ⟨by decide +kernel, isCrash_eq (by decide +kernel), panics_eq (by decide +kernel), ?_⟩
  intro b t
  kernel_rfl

/-- The flash when power fails after the last flash operation of the update and before the new
firmware has run. -/
def neverRun : Flash := crashFl (bootFail cfg env pending 48 (fun _ => 0#8))

/-- C02: a power failure between the last flash operation of the update and the first instruction of
the new firmware counts as a failed test of that firmware: the next boot restores the old one, and
the request is gone. -/
theorem untested_rollback :
    bootFail cfg env pending 48 (fun _ => 0#8) = .crash neverRun ∧
    okAnd (bootUp cfg env neverRun) (fun f => eqUpto f .boot old (imageBytes cfg old) &&
      (getState cfg f .update == none)) = true :=
  ⟨isCrash_eq (by decide +kernel), by decide +kernel⟩

/-- After a rollback the old firmware is marked `TESTING` again, although it was confirmed before
the update. When it does not confirm itself once more the next boot installs the firmware that has just
failed. -/
def rolled : Flash := crashFl (bootUp cfg env updated)

/-- C02: two boots without confirmation end in the firmware that was rolled back. -/
theorem rollback_flips :
    okAnd (bootUp cfg env updated) (fun f => eqUpto f .boot old (imageBytes cfg old) &&
      (getState cfg f .boot == some ST_TESTING)) = true ∧
    okAnd (bootUp cfg env rolled) (fun f => eqUpto f .boot new (imageBytes cfg new) &&
      (getState cfg f .boot == some ST_TESTING)) = true :=
  ⟨by decide +kernel, by decide +kernel⟩

end Verif.TornTrailer
