import Verif.DeltaPower

/-!
# Examples for delta updates under power failures (C22)
-/

namespace Verif
namespace DDemo

open Demo (okAnd crashAnd panics eqUpto crashFl isCrash isCrash_eq)

theorem good (j : Byte) {X : Mem} (h : le32 X 0 = MAGIC ∧ 0 < le32 X 4 ∧ imageBytes cfg X ≤ cfg.part - cfg.ss ∧
    ((env 0#8).typ X % 16 = 1 ∧ (env 0#8).typ X / 256 % 256 = 2) ∧ (env 0#8).integ X = true ∧
    (env 0#8).auth X = true) : GoodImage cfg (env j) X :=
  ⟨h.1, h.2.1, h.2.2.1, h.2.2.2.1, h.2.2.2.2.1, h.2.2.2.2.2, env_loc j X⟩

theorem blank {l : List Byte} {n t : Nat} (h : l.length ≤ n) (hn : n ≤ 160) :
    le32 (cutAt t (mem l)) 160 ≠ MAGIC_TRAIL := by
  have : ∀ x, 160 ≤ x → cutAt t (mem l) x = 0xFF#8 := by
    intro x hx
    unfold cutAt mem
    split
    · rw [List.getD_eq_getElem?_getD, List.getElem?_eq_none (by omega)]; rfl
    · rfl
  unfold le32
  rw [this 160 (by omega), this (160 + 1) (by omega), this (160 + 2) (by omega), this (160 + 3) (by omega)]
  decide

theorem tool_fwd : ToolPatch cfg old new delta false := by
  refine ⟨80, 52, 100, by decide +kernel, by decide +kernel, ?_, by decide, ?_, ?_⟩
  · rw [show imageBytes cfg old = 120 by decide +kernel, show imageBytes cfg new = 124 by decide +kernel]
    exact Eq.trans (by decide +kernel : slice delta 80 52 = fwd) fwd_eq
  · rw [show imageBytes cfg old = 120 by decide +kernel, show imageBytes cfg new = 124 by decide +kernel]
    exact ⟨by decide, by decide, by decide, by decide, fun i j h1 h2 => by omega⟩
  · intro t _
    exact blank (n := 124) (by decide +kernel) (by decide)

theorem tool_inv : ToolPatch cfg new old delta true := by
  refine ⟨132, 42, 100, by decide +kernel, by decide +kernel, ?_, by decide, ?_, ?_⟩
  · rw [show imageBytes cfg old = 120 by decide +kernel, show imageBytes cfg new = 124 by decide +kernel]
    exact Eq.trans (by decide +kernel : slice delta 132 42 = inv) inv_eq
  · rw [show imageBytes cfg old = 120 by decide +kernel, show imageBytes cfg new = 124 by decide +kernel]
    exact ⟨by decide, by decide, by decide, by decide, fun i j h1 h2 => by omega⟩
  · intro t _
    exact blank (n := 124) (by decide +kernel) (by decide)

theorem delta_ok : DeltaImage cfg env dcfg old new delta where
  old := good 0#8 (by decide +kernel)
  new := good 0#8 (by decide +kernel)
  good := good 0#8 (by decide +kernel)
  type := by decide +kernel
  base := by decide +kernel
  version := by decide +kernel
  newer := by decide +kernel
  digest := Or.inr ⟨[0x4C#8, 0x5A#8], rfl, ⟨26, by decide +kernel, by decide +kernel⟩,
    ⟨64, by decide +kernel, by decide +kernel⟩⟩
  block := by decide
  fwd := tool_patch_partial wf (good 0#8 (by decide +kernel)) (good 0#8 (by decide +kernel)) tool_fwd

theorem bwd : PatchFor cfg new old delta true :=
  tool_patch_partial wf (good 0#8 (by decide +kernel)) (good 0#8 (by decide +kernel)) tool_inv

theorem holds_of {f : Flash} {p : Part} {X : Mem} (h : eqUpto f p X (imageBytes cfg X) = true) :
    Holds cfg f p X := by
  intro o ho
  unfold eqUpto at h
  rw [List.all_eq_true] at h
  simpa using h o (List.mem_range.mpr ho)

theorem pending_ok : Pending cfg old delta (pending delta) :=
  ⟨holds_of (by decide +kernel), holds_of (by decide +kernel), by decide +kernel, by decide +kernel, by
    unfold Quiet; decide +kernel⟩

/-- Power failure during the copy of the first sector from SWAP to BOOT, then during the second sector. -/
def cut1 : Flash := crashFl (bootFailD cfg env dcfg (pending delta) 8 (fun _ => 0x33#8))
def cut2 : Flash := crashFl (bootFailD cfg env dcfg cut1 18 (fun _ => 0x77#8))

/-- `new` installed and not confirmed. -/
def updated : Flash := flash new (some ST_TESTING) delta none

theorem updated_ok : Updated cfg new delta updated :=
  ⟨holds_of (by decide +kernel), holds_of (by decide +kernel), by decide +kernel, by
    intro x h1 h2
    have h3 : ∀ x, x < 320 → 240 ≤ x → updated .update x = 0xFF#8 := by decide +kernel
    exact h3 x h2 h1, by unfold Quiet; decide +kernel⟩

def rcut : Flash := crashFl (bootFailD cfg env dcfg updated 8 (fun _ => 0x33#8))

/-- Installation completed, power failure before the image is started; then a failure during the rollback. -/
def done : Flash := crashFl (bootFailD cfg env dcfg (pending delta) 57 (fun _ => 0x33#8))
def dcut : Flash := crashFl (bootFailD cfg env dcfg done 8 (fun _ => 0x33#8))

theorem torn_ok {v : Byte} (h : v = 0x33#8 ∨ v = 0x77#8) : TornNoMagic cfg (fun _ => v) := by
  unfold TornNoMagic TornOK
  rcases h with h | h <;> subst h <;> exact ⟨by decide, by decide⟩

end DDemo

open DDemo
open Demo (isCrash isCrash_eq crashFl)

/-- `delta_power_fail_safe_partial`: the header in BOOT is destroyed by the first failure; the second one is in
the second sector. -/
example : cut1 .boot 0 = 0x33#8 ∧ cut2 .boot 80 = 0x77#8 ∧
    ∃ w', bootUpD cfg env dcfg cut2 = .ok () w' ∧ w'.locked = true ∧ Updated cfg new delta w'.fl ∧
      bootable cfg env (w'.fl .boot) := by
  refine ⟨by decide +kernel, by decide +kernel, ?_⟩
  refine delta_power_fail_safe_partial wf delta_ok pending_ok ?_
  have h1 : isCrash (bootFailD cfg env dcfg (pending delta) 8 (fun _ => 0x33#8)) = true := by decide +kernel
  have h2 : isCrash (bootFailD cfg env dcfg cut1 18 (fun _ => 0x77#8)) = true := by decide +kernel
  have n1 : ¬ Updated cfg new delta cut1 := fun h => absurd h.state (by decide +kernel)
  have n2 : ¬ Updated cfg new delta cut2 := fun h => absurd h.state (by decide +kernel)
  exact .again (.again .none (torn_ok (Or.inl rfl)).1 (isCrash_eq h1) n1)
    (torn_ok (Or.inr rfl)).1 (isCrash_eq h2) n2

/-- `delta_rollback_power_fail_safe_partial`. -/
example : rcut .boot 0 = 0x33#8 ∧
    ∃ w', bootUpD cfg env dcfg rcut = .ok () w' ∧ w'.locked = true ∧ Updated cfg old delta w'.fl ∧
      bootable cfg env (w'.fl .boot) := by
  refine ⟨by decide +kernel, ?_⟩
  refine delta_rollback_power_fail_safe_partial wf delta_ok bwd (by decide) (by decide) updated_ok ?_
  have h1 : isCrash (bootFailD cfg env dcfg updated 8 (fun _ => 0x33#8)) = true := by decide +kernel
  have n1 : ¬ Updated cfg old delta rcut := fun h => absurd (h.new 0 (by decide +kernel)) (by decide +kernel)
  exact .again .none (torn_ok (Or.inl rfl)) (isCrash_eq h1) n1

/-- `delta_never_lost_partial`: the installation is complete, the power fails before the new image is started,
and again during the rollback that follows. -/
example : Demo.eqUpto done .boot new 124 = true ∧ dcut .boot 0 = 0x33#8 ∧
    ∃ w', bootUpD cfg env dcfg dcut = .ok () w' ∧ w'.locked = true ∧
      (Updated cfg new delta w'.fl ∨ Updated cfg old delta w'.fl) ∧ bootable cfg env (w'.fl .boot) := by
  refine ⟨by decide +kernel, by decide +kernel, ?_⟩
  refine delta_never_lost_partial wf delta_ok bwd (by decide) (by decide) pending_ok ?_
  have h1 : isCrash (bootFailD cfg env dcfg (pending delta) 57 (fun _ => 0x33#8)) = true := by decide +kernel
  have h2 : isCrash (bootFailD cfg env dcfg done 8 (fun _ => 0x33#8)) = true := by decide +kernel
  exact .again (.again .none (torn_ok (Or.inl rfl)) (isCrash_eq h1) trivial)
    (torn_ok (Or.inl rfl)) (isCrash_eq h2) trivial

namespace DDemo

/-- Bytes left by an interrupted operation: the image magic, then erased bytes. -/
def tornHdr : Mem := fun x =>
  match x with
  | 0 => 0x57#8 | 1 => 0x4F#8 | 2 => 0x4C#8 | 3 => 0x46#8 | _ => 0xFF#8

/-- The erase of the first BOOT sector is interrupted in a rollback. -/
def tcut1 : Flash := crashFl (bootFailD cfg env dcfg updated 8 tornHdr)
/-- The next reboot is interrupted after the erase of the last BOOT sector. -/
def tcut2 : Flash := crashFl (bootFailD cfg env dcfg tcut1 46 (fun _ => 0x33#8))

end DDemo

/-- Why `delta_rollback_power_fail_safe_partial` asks that interrupted operations do not leave the image magic at
the start of a partition: the torn header in BOOT claims the largest size, the next reboot erases all of BOOT
including its trailer, and a second failure at that point loses the TESTING state. The device starts the old
image, but the image is not under test and UPDATE keeps its trailer. -/
theorem delta_rollback_torn_header :
    ∃ (c : Cfg) (e : Env) (d : DCfg) (Old New U : Mem) (f g : Flash), c.WF ∧ DeltaImage c e d Old New U ∧
      PatchFor c New Old U true ∧ 8 ≤ c.fb ∧ e.junk ≠ ST_FINAL ∧ Updated c New U f ∧
      InterruptedD c e d (TornOK c MAGIC_TRAIL) (fun x => ¬ Updated c Old U x) f g ∧
      ∃ w', bootUpD c e d g = .ok () w' ∧ getState c w'.fl .boot = none ∧ ¬ Updated c Old U w'.fl := by
  refine ⟨cfg, env, dcfg, old, new, delta, updated, tcut2, wf, delta_ok, bwd, by decide, by decide, updated_ok, ?_, ?_⟩
  · have h1 : isCrash (bootFailD cfg env dcfg updated 8 tornHdr) = true := by decide +kernel
    have h2 : isCrash (bootFailD cfg env dcfg tcut1 46 (fun _ => 0x33#8)) = true := by decide +kernel
    have n1 : ¬ Updated cfg old delta tcut1 := fun h => absurd (h.new 4 (by decide +kernel)) (by decide +kernel)
    have n2 : ¬ Updated cfg old delta tcut2 := fun h => absurd h.state (by decide +kernel)
    exact .again (.again .none (by unfold TornOK; decide +kernel) (isCrash_eq h1) n1)
      (torn_ok (Or.inl rfl)).1 (isCrash_eq h2) n2
  · obtain ⟨_, w', h1, h2⟩ := Demo.ok_of (r := bootUpD cfg env dcfg tcut2)
      (p := fun g => (getState cfg g .boot).isNone) (by decide +kernel)
    have h3 : getState cfg w'.fl .boot = none := by simpa using h2
    exact ⟨w', h1, h3, fun h => by rw [h.state] at h3; exact absurd h3 (by simp)⟩

end Verif
