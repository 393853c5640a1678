import Verif.NvmTrigger

/-!
# Examples and findings for the emergency update: C71
-/

namespace Verif

namespace Emg

namespace Demo
open Verif.Demo

/-- `new` with a byte of the firmware changed: it is not intact. -/
def bad : Mem := fun o => if o = 20 then 0#8 else new o

/-- `bad` installed and confirmed; the older `old` in UPDATE, no request. -/
def broken : Flash := flash bad (some ST_SUCCESS) old none

theorem broken_bad (j : Byte := 0#8) : Broken cfg (env j) bad := by
  intro m hm
  left
  rw [(env_loc j bad m hm).2.2.1]
  show (List.all _ _) = false
  decide

theorem spare_ok : Spare cfg bad old broken := by
  have he : ∀ x, x < 96 → 64 ≤ x → broken .update x = 0xFF#8 := by decide +kernel
  exact ⟨holds_of (by decide +kernel), holds_of (by decide +kernel), Or.inl fun x h1 h2 => he x h2 h1, by unfold Quiet; decide⟩

/-- Non-vacuity of `emergency_installs_partial`: the image of UPDATE is older than the broken one. -/
example : (env : Env).ver old < (env : Env).ver bad ∧ ∃ w', bootUp cfg env broken = .ok () w' ∧ w'.locked = true ∧ bootable cfg env (w'.fl .boot) ∧
    Updated cfg old bad w'.fl :=
  ⟨by decide, emergency_installs_partial wf ⟨by decide, by decide, by decide⟩ (broken_bad _) (good_old _) (by decide) spare_ok⟩

/-- Power failure at operation 14 of the emergency update. -/
def cut : Flash := crashFl (bootFail cfg env broken 14 (fun _ => 0#8))

/-- ... and again at operation 1 of the next reboot. -/
def cut' : Flash := crashFl (bootFail cfg env cut 1 (fun _ => 0x77#8))

/-- Non-vacuity of `emergency_never_stuck_partial` and `emergency_power_fail_safe_partial`: after each of the two power
failures BOOT has no header. -/
example : cut .boot 0 = 0#8 ∧ cut' .boot 0 = 0x77#8 ∧ ∃ w', bootUp cfg env cut' = .ok () w' ∧ w'.locked = true ∧ bootable cfg env (w'.fl .boot) ∧ Holds cfg w'.fl .boot old := by
  refine ⟨by decide +kernel, by decide +kernel, ?_⟩
  refine emergency_power_fail_safe_partial wf (X := bad) ⟨by decide, by decide, by decide⟩ (broken_bad _) (good_old _) (by decide) spare_ok ?_
  have h1 : isCrash (bootFail cfg env broken 14 (fun _ => 0#8)) = true := by decide +kernel
  have h2 : isCrash (bootFail cfg env cut 1 (fun _ => 0x77#8)) = true := by decide +kernel
  have n1 : bootable cfg env (cut .boot) → Holds cfg cut .boot old := fun h => absurd h (by decide +kernel)
  have n2 : bootable cfg env (cut' .boot) → Holds cfg cut' .boot old := fun h => absurd h (by decide +kernel)
  exact .again (.again .none (by unfold TornOK; decide) (isCrash_eq h1) n1) (by unfold TornOK; decide) (isCrash_eq h2) n2

/-- Nothing in BOOT; `new` in UPDATE, no request: a device as it leaves the factory with an update image only. -/
def blank : Flash := flash (fun _ => 0xFF#8) none new none

/-- Power failure at operation 9 of the emergency update: the first sector of `new` is in SWAP and that of UPDATE has been overwritten with the erased
contents of BOOT. -/
def lost : Flash := crashFl (bootFail cfg env blank 9 (fun _ => 0xFF#8))

end Demo

/-- If neither partition starts with a header and no swap is about to end, the bootloader stops, and changes nothing. -/
theorem no_header_panics {c : Cfg} {e : Env} {f : Flash} (hb : le32 (f .boot) 0 ≠ MAGIC) (hu : le32 (f .update) 0 ≠ MAGIC)
    (hq : le32 (f .boot) c.tmp ≠ MAGIC_TRAIL) (hst : (getState c f .update).getD e.junk ≠ ST_FINAL) : bootUp c e f = .panic f := by
  have hw : ∀ fb, wbUpdate c e fb ⟨f, true, none, fun _ => 0#8⟩ = .ok false ⟨f, true, none, fun _ => 0#8⟩ := by
    intro fb
    unfold wbUpdate
    rw [Nvu.bind_ok (show readFlash ⟨f, true, none, fun _ => 0#8⟩ = .ok f ⟨f, true, none, fun _ => 0#8⟩ from rfl)]
    rw [if_pos]
    · rfl
    · unfold totalSize fwSize
      rw [if_pos hb, if_pos hu]
      split <;> omega
  have hs : swapFinal c e true ⟨f, true, none, fun _ => 0#8⟩ = .ok false ⟨f, true, none, fun _ => 0#8⟩ := by
    unfold swapFinal
    rw [Nvu.bind_ok (show readFlash ⟨f, true, none, fun _ => 0#8⟩ = .ok f ⟨f, true, none, fun _ => 0#8⟩ from rfl)]
    rw [if_pos ⟨rfl, hq, hst⟩]
    rfl
  have hsu : startUpdate c e ⟨f, true, none, fun _ => 0#8⟩ = .ok () ⟨f, true, none, fun _ => 0#8⟩ := by
    unfold startUpdate
    rw [Nvu.bind_ok (show readFlash ⟨f, true, none, fun _ => 0#8⟩ = .ok f ⟨f, true, none, fun _ => 0#8⟩ from rfl), Nvu.bind_ok hs, if_neg (by simp)]
    split
    · rw [Nvu.bind_ok (hw _)]; rfl
    · split
      · rw [Nvu.bind_ok (hw _)]; rfl
      · rfl
  unfold bootUp start
  rw [Nvu.bind_ok hsu, Nvu.bind_ok (show readFlash ⟨f, true, none, fun _ => 0#8⟩ = .ok f ⟨f, true, none, fun _ => 0#8⟩ from rfl), if_neg (fun h => hb h.1.1)]
  unfold emergency
  rw [Nvu.bind_ok (hw _)]
  rfl

open Verif.Demo Demo in
/-- **C71, a finding.** With nothing readable in BOOT the emergency update is not safe against power failures: the sizes are taken from the two headers, the
header of UPDATE is overwritten while its first sector is exchanged, and after a power failure in this phase no header is left in either partition. The
bootloader stops, at this and every further reboot, although the correctly signed image is still there (first sector in SWAP, the rest in UPDATE).
Without the power failure it is installed. -/
theorem emergency_power_fail_brick :
    GoodImage cfg env new ∧ Holds cfg blank .update new ∧
    (∃ w', bootUp cfg env blank = .ok () w' ∧ eqUpto w'.fl .boot new (imageBytes cfg new) = true) ∧
    bootFail cfg env blank 9 (fun _ => 0xFF#8) = .crash lost ∧ bootUp cfg env lost = .panic lost ∧
    (∀ o, o < 32 → lost .swap o = new o) ∧ (∀ o, o < imageBytes cfg new → 32 ≤ o → lost .update o = new o) := by
  refine ⟨good_new _, holds_of (by decide +kernel), ?_, isCrash_eq (by decide +kernel), ?_, by decide +kernel, by decide +kernel⟩
  · obtain ⟨a, w', h1, h2⟩ := ok_of (r := bootUp cfg env blank) (p := fun f => eqUpto f .boot new (imageBytes cfg new)) (by decide +kernel)
    exact ⟨w', h1, h2⟩
  · exact no_header_panics (by decide +kernel) (by decide +kernel) (by decide +kernel) (by decide +kernel)

end Emg

namespace Nvu

namespace Demo
open Verif.Demo Emg.Demo

/-- `bad` installed and confirmed; the older `old` in UPDATE, no request. -/
def broken4 : Flash := flash4 bad (some ST_SUCCESS) old none

theorem local4 (j : Byte := 0#8) : Local cfg4 (env j) := fun m m' h =>
  ⟨(env_loc j m m' h).2.2.1, (env_loc j m m' h).2.2.2⟩

theorem broken_bad4 (j : Byte := 0#8) : Broken cfg4 (env j) bad := fun m hm => broken_bad j m hm

theorem readable_bad4 (j : Byte := 0#8) : Readable cfg4 (env j) bad := by
  constructor <;> first | decide | (intro m hm; exact (env_loc j bad m hm).2.1)

theorem spare4_ok : Spare cfg4 bad old broken4 := by
  have he : ∀ x, x < 128 → 64 ≤ x → broken4 .update x = 0xFF#8 := by decide +kernel
  exact ⟨has_of (by decide +kernel), has_of (by decide +kernel), fun x h1 h2 => he x h2 h1, by unfold Quiet; decide⟩

/-- Power failure at operation 28 of the emergency update. -/
def cutE4 : Flash := crashFl (bootFail cfg4 env broken4 28 (fun _ => 0#8))

/-- Non-vacuity of `emergency_power_fail_safe_partial`: after the power failure BOOT has no header. -/
example : cutE4 .boot 0 = 0#8 ∧ ∃ w', bootUp cfg4 env cutE4 = .ok () w' ∧ w'.locked = true ∧ bootable cfg4 env (w'.fl .boot) ∧ Has cfg4 w'.fl .boot old ∧
    (cutE4 = broken4 → Updated cfg4 old bad w'.fl) := by
  refine ⟨by decide +kernel, ?_⟩
  refine emergency_power_fail_safe_partial wf4 (by decide) (readable_bad4 _) (broken_bad4 _) (good_old4 _) (local4 _) (by decide) spare4_ok ?_
  have h1 : isCrash (bootFail cfg4 env broken4 28 (fun _ => 0#8)) = true := by decide +kernel
  refine .again .none (by unfold TornOK; decide) (isCrash_eq h1) ⟨fun h => absurd h.state (by decide +kernel), fun h => absurd h (by decide +kernel), fun h => absurd h (by decide +kernel)⟩

/-- ... and the uninterrupted emergency update. -/
example : ∃ w', bootUp cfg4 env broken4 = .ok () w' ∧ Updated cfg4 old bad w'.fl := by
  obtain ⟨w', h1, _, _, _, h2⟩ := emergency_power_fail_safe_partial (e := env) (f := broken4) (g := broken4) wf4 (by decide) (readable_bad4 _) (broken_bad4 _)
    (good_old4 _) (local4 _) (by decide) spare4_ok .none
  exact ⟨w', h1, h2 rfl⟩

/-- Non-vacuity of `trigger_pending`. -/
example : ∃ w', triggered cfg4 (flash4 old (some ST_TESTING) new none) = .ok () w' ∧ w'.locked = true ∧ Pending cfg4 old new w'.fl ∧
    w'.fl .boot = flash4 old (some ST_TESTING) new none .boot :=
  trigger_pending (e := env) wf4 (by decide) (good_old4 _) (good_new4 _) (has_of (by decide)) (has_of (by decide)) (by unfold Quiet; decide)
    (erased4_of (by decide +kernel))

/-- Power failure at operation 36 of the emergency update: `old` is in BOOT completely, the flag of the first sector has not been set to its last value. -/
def cutL4 : Flash := crashFl (bootFail cfg4 env broken4 36 (fun _ => 0#8))

/-- The next reboot starts `old`. -/
def runL4 : Flash := crashFl (bootUp cfg4 env cutL4)

/-- A newer image, version 3. -/
def third : Mem := img 3#8 0xC3#8 44

/-- The application stores an image in UPDATE, in front of the flags. -/
def store (X : Mem) (f : Flash) : Flash := fun p o => if p = .update ∧ o < 64 then X o else f p o

/-- ... and requests its installation. -/
def reqL4 : Flash := crashFl (triggered cfg4 (store third runL4))

theorem good_third4 (j : Byte := 0#8) : GoodImage cfg4 (env j) third :=
  ⟨by decide, by decide, by decide, by show le16 third 12 % 16 = 1 ∧ le16 third 12 / 256 % 256 = 2; decide,
    by show (List.all _ _) = true; decide, by show (_ == _) = true; decide, env_loc j third⟩

end Demo

open Verif.Demo Demo in
/-- **C71, a finding.** On write-once flash an emergency update that was interrupted after the image was complete leaves its flags behind, and the next
requested update is lost: the correctly signed version 3 is not installed, `old` stays and is marked as being tested, and UPDATE holds a mixture of the
two images. -/
theorem emergency_leftover_flags :
    GoodImage cfg4 env third ∧ bootFail cfg4 env broken4 36 (fun _ => 0#8) = .crash cutL4 ∧
    (∃ w', bootUp cfg4 env cutL4 = .ok () w' ∧ w'.fl = runL4) ∧ Has cfg4 runL4 .boot old ∧
    (∃ w', triggered cfg4 (store third runL4) = .ok () w' ∧ w'.fl = reqL4) ∧ Has cfg4 reqL4 .update third ∧ stateOf cfg4 reqL4 .update = some ST_UPDATING ∧
    ∃ w', bootUp cfg4 env reqL4 = .ok () w' ∧ (eqUpto w'.fl .boot old 30 && decide (stateOf cfg4 w'.fl .boot = some ST_TESTING) &&
      (w'.fl .update 31 == 0xC3#8) && (w'.fl .update 32 == 0xB2#8)) = true := by
  refine ⟨good_third4 _, isCrash_eq (by decide +kernel), ?_, has_of (by decide +kernel), ?_, has_of (by decide +kernel), by decide +kernel, ?_⟩
  · obtain ⟨a, w', h1, _⟩ := ok_of (r := bootUp cfg4 env cutL4) (p := fun _ => true) (by decide +kernel)
    refine ⟨w', h1, ?_⟩
    unfold runL4
    rw [h1]; rfl
  · obtain ⟨a, w', h1, _⟩ := ok_of (r := triggered cfg4 (store third runL4)) (p := fun _ => true) (by decide +kernel)
    refine ⟨w', h1, ?_⟩
    unfold reqL4
    rw [h1]; rfl
  · obtain ⟨a, w', h1, h2⟩ := ok_of (r := bootUp cfg4 env reqL4) (p := fun f => eqUpto f .boot old 30 && decide (stateOf cfg4 f .boot = some ST_TESTING) &&
      (f .update 31 == 0xC3#8) && (f .update 32 == 0xB2#8)) (by decide +kernel)
    exact ⟨w', h1, h2⟩

open Verif.Demo Demo in
/-- Non-vacuity of `trigger_keeps_flags`: the first sector stays marked as being exchanged. -/
example : flagOf cfg4 (store third runL4) 0 = some FL_BACKUP ∧ ∃ w', triggered cfg4 (store third runL4) = .ok () w' ∧ w'.locked = true ∧
    stateOf cfg4 w'.fl .update = some ST_UPDATING ∧ ∀ j, j < cfg4.n → flagOf cfg4 w'.fl j = flagOf cfg4 (store third runL4) j :=
  ⟨by decide +kernel, trigger_keeps_flags (s := 0xFF#8) wf4 (by decide) (by decide +kernel)⟩

end Nvu

end Verif
