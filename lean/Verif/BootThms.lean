import Verif.UpdateLemmas
import Verif.BootLemmas
import Verif.Demo

/-!
# Properties of the boot decision: C03, C04, C05, C06, C08, C12
-/

namespace Verif
open Demo

/-! ## C06: boot gate -/

/-- **C06 (internal flash).** Whatever the contents of the flash, the configuration, the
uninitialised memory and the power failures: if `wolfBoot_start` hands control to the firmware in
BOOT, then at that moment BOOT carries a well-formed header, its digest matches and its signature
is accepted. -/
theorem boot_gate (c : Cfg) (e : Env) (w w' : World) (h : start c e w = .ok () w') :
    le32 (w'.fl .boot) 0 = MAGIC ∧ le32 (w'.fl .boot) 4 ≤ c.part - c.h ∧
    e.integ (w'.fl .boot) = true ∧ e.auth (w'.fl .boot) = true := by
  have key : bootable c e (w'.fl .boot) := by
    unfold start at h
    obtain ⟨_, w1, _, h⟩ := bind_ok h
    obtain ⟨f, w2, h2, h⟩ := bind_ok h
    cases h2
    split at h
    · next hb => rw [tick_ok h]; exact hb
    · unfold emergency at h
      obtain ⟨r, w3, _, h⟩ := bind_ok h
      split at h
      · exact absurd h (by simp [panicM])
      · obtain ⟨f, w4, h4, h⟩ := bind_ok h
        cases h4
        split at h
        · next hb => rw [tick_ok h]; exact hb
        · exact absurd h (by simp [panicM])
  exact ⟨key.1.1, key.1.2, key.2.1, key.2.2⟩

/-- Non-vacuity: a device that does boot. -/
example : ∃ w', bootUp cfg env pending = .ok () w' ∧ (env).auth (w'.fl .boot) = true := by
  obtain ⟨_, w', h, _⟩ := ok_of (r := bootUp cfg env pending) (p := fun _ => true) (by decide +kernel)
  exact ⟨w', h, (boot_gate cfg env _ w' h).2.2.2⟩

/-- A device with no valid image in either partition panics. -/
example : panics (bootUp cfg env (flash (img 1#8 0xA1#8 14 0#8) (some ST_SUCCESS)
    (img 2#8 0xA1#8 14 0#8) (some ST_UPDATING))) = true := by decide +kernel

/-! ## C05: unauthenticated update never reaches BOOT -/

/-- Contents of UPDATE that must not be installed: wrong type, or wrong digest, or wrong signature. -/
def Unverified (e : Env) (u : Mem) : Prop :=
  ¬ (e.typ u % 16 = 1 ∧ e.typ u / 256 % 256 = e.authType) ∨ e.integ u = false ∨ e.auth u = false

theorem Unverified.not_acceptable {c : Cfg} {e : Env} {u : Mem} (h : Unverified e u) :
    ¬ acceptable c e u := by
  rintro ⟨h1, _, h2, h3⟩
  rcases h with h | h | h
  · exact h h1
  · rw [h] at h2; exact absurd h2 (by decide)
  · rw [h] at h3; exact absurd h3 (by decide)

/-- **C05 (entry point).** With no swap in progress (flag of the first sector NEW, or no flags at
all), an update, fallback or emergency update of unverified contents returns -1 and does not modify
a single byte, in any of its executions. -/
theorem unverified_update_refused (c : Cfg) (e : Env) (fallback : Bool) (w : World)
    (hflag : getFlag c w.fl 0 = none ∨ getFlag c w.fl 0 = some FL_NEW)
    (hu : Unverified e (w.fl .update)) : wbUpdate c e fallback w = .ok false w := by
  have hf : (getFlag c w.fl 0).getD FL_NEW = FL_NEW := by rcases hflag with h | h <;> rw [h] <;> rfl
  have hE : wbUpdate c e fallback w = (if totalSize c (fwSize c (w.fl .boot)) (fwSize c (w.fl .update)) ≤ c.h
      then (Pure.pure false : M Bool)
      else if (getFlag c w.fl 0).getD FL_NEW = FL_NEW ∧ ¬ acceptable c e (w.fl .update) then pure false
      else _) w := rfl
  rw [hE]
  split
  · rfl
  rw [if_pos ⟨hf, hu.not_acceptable⟩]
  rfl

/-- Non-vacuity: `new` with a bad signature. -/
example : wbUpdate cfg env true
    ⟨flash old (some ST_TESTING) (img 2#8 0xB2#8 44 0#8) (some ST_UPDATING), true, none, fun _ => 0#8⟩ =
    .ok false ⟨flash old (some ST_TESTING) (img 2#8 0xB2#8 44 0#8) (some ST_UPDATING), true, none,
      fun _ => 0#8⟩ :=
  unverified_update_refused _ _ _ _ (Or.inr (by decide)) (Or.inr (Or.inr (by decide)))

/-- **C05 (whole boot).** With no swap and no final phase in progress, a reboot with unverified
contents in UPDATE leaves the flash unchanged however it ends (boot, power failure, panic). -/
theorem unverified_update_boot_unchanged (c : Cfg) (e : Env) (w : World)
    (hflag : getFlag c w.fl 0 = none ∨ getFlag c w.fl 0 = some FL_NEW)
    (hword : le32 (w.fl .boot) c.tmp ≠ MAGIC_TRAIL)
    (hst : getState c w.fl .update ≠ some ST_FINAL)
    (hj : getState c w.fl .update = none → e.junk ≠ ST_FINAL)
    (hu : Unverified e (w.fl .update)) : (start c e w).flash = w.fl := by
  have hwb : ∀ fb, Keeps w.fl (wbUpdate c e fb) := by
    intro fb w1 hw1
    rw [unverified_update_refused c e fb w1 (by rw [hw1]; exact hflag) (by rw [hw1]; exact hu)]
    exact hw1
  have hst' : (getState c w.fl .update).getD e.junk ≠ ST_FINAL := by
    cases hs : getState c w.fl .update with
    | none => exact hj hs
    | some x => intro h; exact hst (by rw [hs]; exact congrArg some h)
  have hfin : ∀ w1 : World, w1.fl = w.fl → swapFinal c e true w1 = .ok false w1 := by
    intro w1 hw1
    have : swapFinal c e true w1 = (if true = true ∧ le32 (w1.fl .boot) c.tmp ≠ MAGIC_TRAIL ∧
        (getState c w1.fl .update).getD e.junk ≠ ST_FINAL then (Pure.pure false : M Bool) else _) w1 :=
      rfl
    rw [this, hw1, if_pos ⟨rfl, hword, hst'⟩]
    rfl
  have : Keeps w.fl (start c e) := by
    unfold start
    refine Keeps.bind ?_ (fun _ => ?_)
    · unfold startUpdate
      refine Keeps.readFlash (Keeps.bind ?_ (fun r => ?_))
      · intro w1 hw1; rw [hfin w1 hw1]; exact hw1
      · refine Keeps.ite (fun _ => Keeps.pure _) (fun _ => Keeps.ite (fun _ => ?_)
          (fun _ => Keeps.ite (fun _ => ?_) (fun _ => Keeps.pure _)))
        · exact Keeps.bind (hwb _) (fun _ => Keeps.pure _)
        · exact Keeps.bind (hwb _) (fun _ => Keeps.pure _)
    · refine Keeps.readFlash (Keeps.ite (fun _ => Keeps.tick) (fun _ => ?_))
      unfold emergency
      refine Keeps.bind (hwb _) (fun r => Keeps.ite (fun _ => Keeps.panic) (fun _ => ?_))
      exact Keeps.readFlash (Keeps.ite (fun _ => Keeps.tick) (fun _ => Keeps.panic))
  exact this w rfl

/-- Non-vacuity: a requested update with a bad digest, on a device whose BOOT image is damaged. -/
example : (start cfg env ⟨flash (img 1#8 0xA1#8 14 0#8) (some ST_SUCCESS) (img 2#8 0xB2#8 44 0#8)
    (some ST_UPDATING), true, some 3, fun _ => 0#8⟩).flash = flash (img 1#8 0xA1#8 14 0#8)
    (some ST_SUCCESS) (img 2#8 0xB2#8 44 0#8) (some ST_UPDATING) :=
  unverified_update_boot_unchanged _ _ _ (Or.inr (by decide)) (by decide) (by decide) (by decide)
    (Or.inr (Or.inr (by decide)))

/-! ## C03: a confirmed image is stable -/

/-- **C03.** If BOOT verifies and is not under test, and no update is requested or being finished,
then a reboot with or without power failure changes no byte of the flash, and an uninterrupted
reboot boots. (Hence any number of reboots, `confirmed_stable_forever_partial`.)

Partial: BOOT must not contain the word "BOOT" at offset `c.tmp` (`confirmed_unstable_word`) and
the uninitialised byte of C12 must not be `IMG_STATE_FINAL_FLAGS`. -/
theorem confirmed_stable_partial (c : Cfg) (e : Env) (w : World)
    (hboot : bootable c e (w.fl .boot)) (hb : getState c w.fl .boot ≠ some ST_TESTING)
    (hu : getState c w.fl .update ≠ some ST_UPDATING) (hf : getState c w.fl .update ≠ some ST_FINAL)
    (hword : le32 (w.fl .boot) c.tmp ≠ MAGIC_TRAIL) (hj : e.junk ≠ ST_FINAL) :
    (start c e w).flash = w.fl ∧
    (w.budget = none → ∃ w', start c e w = .ok () w' ∧ w'.fl = w.fl) := by
  have hst' : (getState c w.fl .update).getD e.junk ≠ ST_FINAL := by
    cases hs : getState c w.fl .update with
    | none => exact hj
    | some x => intro h; exact hf (by rw [hs]; exact congrArg some h)
  have e1 : startUpdate c e w = .ok () w := by
    have : startUpdate c e w = (swapFinal c e true >>= fun resumed => if resumed = true then pure ()
      else if getState c w.fl .boot = some ST_TESTING then _ else
        if getState c w.fl .update = some ST_UPDATING then _ else pure ()) w := rfl
    rw [this]
    have h2 : swapFinal c e true w = (if true = true ∧ le32 (w.fl .boot) c.tmp ≠ MAGIC_TRAIL ∧
        (getState c w.fl .update).getD e.junk ≠ ST_FINAL then (Pure.pure false : M Bool) else _) w :=
      rfl
    rw [if_pos ⟨rfl, hword, hst'⟩] at h2
    change M.bind _ _ w = _
    unfold M.bind
    rw [h2]
    change (if false = true then _ else _ : M Unit) w = _
    rw [if_neg (by decide), if_neg hb, if_neg hu]
    rfl
  have e2 : start c e w = tick w := by
    change M.bind _ _ w = _
    unfold M.bind
    rw [e1]
    change (if bootable c e (w.fl .boot) then tick else emergency c e) w = _
    rw [if_pos hboot]
  rw [e2]
  refine ⟨Keeps.tick w rfl, ?_⟩
  intro hbud
  obtain ⟨fl, l, b, t⟩ := w
  subst hbud
  cases l
  · exact ⟨_, rfl, rfl⟩
  · exact ⟨_, rfl, rfl⟩

/-- `Reboots c e f g`: any number of reboots, interrupted or not. -/
inductive Reboots (c : Cfg) (e : Env) (f : Flash) : Flash → Prop
  | none : Reboots c e f f
  | more {g : Flash} (budget : Option Nat) (t : Mem) : Reboots c e f g →
      Reboots c e f (start c e ⟨g, true, budget, t⟩).flash

/-- **C03, any number of reboots.** -/
theorem confirmed_stable_forever_partial (c : Cfg) (e : Env) (f g : Flash)
    (hboot : bootable c e (f .boot)) (hb : getState c f .boot ≠ some ST_TESTING)
    (hu : getState c f .update ≠ some ST_UPDATING) (hf : getState c f .update ≠ some ST_FINAL)
    (hword : le32 (f .boot) c.tmp ≠ MAGIC_TRAIL) (hj : e.junk ≠ ST_FINAL)
    (h : Reboots c e f g) : g = f ∧ ∃ w', bootUp c e g = .ok () w' ∧ w'.fl = f := by
  have hg : g = f := by
    induction h with
    | none => rfl
    | more b t _ ih =>
      subst ih
      exact (confirmed_stable_partial c e ⟨_, true, b, t⟩ hboot hb hu hf hword hj).1
  subst hg
  exact ⟨rfl, (confirmed_stable_partial c e ⟨g, true, none, fun _ => 0#8⟩ hboot hb hu hf hword
    hj).2 rfl⟩

/-- Non-vacuity: a device with a confirmed image and a newer image in UPDATE that was not
requested. -/
example : ∀ g, Reboots cfg env (flash old (some ST_SUCCESS) new none) g →
    g = flash old (some ST_SUCCESS) new none := fun g h =>
  (confirmed_stable_forever_partial cfg env _ g (by decide) (by decide) (by decide) (by decide)
    (by decide) (by decide) h).1

/-- **C03 without the guard is false**: with the word "BOOT" at offset `c.tmp` of BOOT, a reboot of
a device with a confirmed image and no pending update modifies the flash: the confirmed image is put
back into state TESTING. -/
theorem confirmed_unstable_word : ∃ (c : Cfg) (e : Env) (f : Flash) (w' : World), c.WF ∧
    bootable c e (f .boot) ∧ getState c f .boot = some ST_SUCCESS ∧ getState c f .update = none ∧
    e.junk ≠ ST_FINAL ∧ bootUp c e f = .ok () w' ∧ getState c w'.fl .boot = some ST_TESTING := by
  obtain ⟨_, w', h1, h2⟩ := ok_of (r := bootUp cfg env (flash wordImg (some ST_SUCCESS) new none))
    (p := fun g => getState cfg g .boot == some ST_TESTING) (by decide +kernel)
  exact ⟨cfg, env, _, w', wf, by decide, by decide, by decide, by decide, h1, by simpa using h2⟩

/-! ## C04: anti-rollback -/

/-- **C04.** With no swap in progress and BOOT valid and not under test, a requested update whose
version is not greater than the running version is not installed: no flash byte changes, whether or
not the power fails, and an uninterrupted reboot boots the image that was there.

Partial: BOOT must not be under test (`downgrade_while_testing`); the guards of C03 apply. -/
theorem anti_rollback_partial (c : Cfg) (e : Env) (w : World)
    (hboot : bootable c e (w.fl .boot)) (hb : getState c w.fl .boot ≠ some ST_TESTING)
    (hv : e.ver (w.fl .update) ≤ e.ver (w.fl .boot))
    (hflag : getFlag c w.fl 0 = none ∨ getFlag c w.fl 0 = some FL_NEW)
    (hf : getState c w.fl .update ≠ some ST_FINAL)
    (hword : le32 (w.fl .boot) c.tmp ≠ MAGIC_TRAIL)
    (hj : getState c w.fl .update = none → e.junk ≠ ST_FINAL) :
    (start c e w).flash = w.fl ∧
    (w.budget = none → ∃ w', start c e w = .ok () w' ∧ w'.fl = w.fl) := by
  have hfl : (getFlag c w.fl 0).getD FL_NEW = FL_NEW := by
    rcases hflag with h | h <;> rw [h] <;> rfl
  have hst' : (getState c w.fl .update).getD e.junk ≠ ST_FINAL := by
    cases hs : getState c w.fl .update with
    | none => exact hj hs
    | some x => intro h; exact hf (by rw [hs]; exact congrArg some h)
  have hwb : wbUpdate c e false w = .ok false w := by
    have hE : wbUpdate c e false w =
        (if totalSize c (fwSize c (w.fl .boot)) (fwSize c (w.fl .update)) ≤ c.h
        then (Pure.pure false : M Bool)
        else if (getFlag c w.fl 0).getD FL_NEW = FL_NEW ∧ ¬ acceptable c e (w.fl .update) then pure false
        else if (getFlag c w.fl 0).getD FL_NEW = FL_NEW ∧
          ¬ (false = true ∨ e.ver (w.fl .boot) < e.ver (w.fl .update)) then pure false
        else _) w := rfl
    rw [hE]
    split
    · rfl
    split
    · rfl
    rw [if_pos ⟨hfl, by simp; omega⟩]
    rfl
  have e1 : startUpdate c e w = .ok () w := by
    have : startUpdate c e w = (swapFinal c e true >>= fun resumed => if resumed = true then pure ()
      else if getState c w.fl .boot = some ST_TESTING then _ else
        if getState c w.fl .update = some ST_UPDATING then (wbUpdate c e false >>= fun _ => pure ())
        else pure ()) w := rfl
    rw [this]
    have h2 : swapFinal c e true w = (if true = true ∧ le32 (w.fl .boot) c.tmp ≠ MAGIC_TRAIL ∧
        (getState c w.fl .update).getD e.junk ≠ ST_FINAL then (Pure.pure false : M Bool) else _) w :=
      rfl
    rw [if_pos ⟨rfl, hword, hst'⟩] at h2
    change M.bind _ _ w = _
    unfold M.bind
    rw [h2]
    change (if false = true then _ else _ : M Unit) w = _
    rw [if_neg (by decide), if_neg hb]
    split
    · change M.bind _ _ w = _
      unfold M.bind
      rw [hwb]
      rfl
    · rfl
  have e2 : start c e w = tick w := by
    change M.bind _ _ w = _
    unfold M.bind
    rw [e1]
    change (if bootable c e (w.fl .boot) then tick else emergency c e) w = _
    rw [if_pos hboot]
  rw [e2]
  refine ⟨Keeps.tick w rfl, ?_⟩
  intro hbud
  obtain ⟨fl, l, b, t⟩ := w
  subst hbud
  cases l
  · exact ⟨_, rfl, rfl⟩
  · exact ⟨_, rfl, rfl⟩

/-- Non-vacuity: a requested downgrade from version 2 to a valid image of version 1, and one to the
same version. -/
example : (bootUp cfg env (flash new (some ST_SUCCESS) old (some ST_UPDATING))).flash =
    flash new (some ST_SUCCESS) old (some ST_UPDATING) :=
  (anti_rollback_partial cfg env ⟨_, true, none, fun _ => 0#8⟩ (by decide) (by decide) (by decide)
    (Or.inr (by decide)) (by decide) (by decide) (by decide)).1

/-- **C04 without the guard is false**: while BOOT is under test, the request for an older, correctly
signed image is executed (as a fallback, `/repo/src/update_flash.c:1025-1035`), although it is not the
previous image: version 5 is replaced by version 1. -/
theorem downgrade_while_testing : ∃ (c : Cfg) (e : Env) (New Older : Mem) (f : Flash) (w' : World),
    c.WF ∧ GoodImage c e New ∧ GoodImage c e Older ∧ e.ver Older < e.ver New ∧
    Holds c f .boot New ∧ Holds c f .update Older ∧ Quiet c f ∧ e.junk ≠ ST_FINAL ∧
    getState c f .boot = some ST_TESTING ∧ getState c f .update = some ST_UPDATING ∧
    bootUp c e f = .ok () w' ∧ Holds c w'.fl .boot Older := by
  obtain ⟨_, w', h1, h2⟩ := ok_of
    (r := bootUp cfg env (flash new (some ST_TESTING) old (some ST_UPDATING)))
    (p := fun g => eqUpto g .boot old (imageBytes cfg old)) (by decide +kernel)
  exact ⟨cfg, env, new, old, _, w', wf, good_new _, good_old _, by decide, holds_of (by decide),
    holds_of (by decide), by unfold Quiet; decide, by decide, by decide, by decide, h1, holds_of h2⟩

/-! ## C12: uninitialised memory -/

/-- **C12.** Two devices that differ only in the uninitialised stack byte behave identically, as long
as the byte is not `IMG_STATE_FINAL_FLAGS` on either of them.

Partial: `uninitialised_consulted` shows that the value 0x30 makes a difference. -/
theorem uninitialised_irrelevant_partial (c : Cfg) (e : Env) (j1 j2 : Byte) (h1 : j1 ≠ ST_FINAL)
    (h2 : j2 ≠ ST_FINAL) : start c { e with junk := j1 } = start c { e with junk := j2 } := by
  have hfs : ∀ n st1 st2, (st1 ≠ ST_FINAL ↔ st2 ≠ ST_FINAL) → finalSave c n st1 = finalSave c n st2 := by
    intro n st1 st2 h
    unfold finalSave
    by_cases hs : st1 = ST_FINAL
    · rw [if_neg (by simpa using hs), if_neg (fun h2 => h.mpr h2 hs)]
    · rw [if_pos hs, if_pos (h.mp hs)]
  have hiff : ∀ f : Flash, ((getState c f .update).getD j1 ≠ ST_FINAL ↔
      (getState c f .update).getD j2 ≠ ST_FINAL) := by
    intro f
    cases getState c f .update with
    | none => exact ⟨fun _ => h2, fun _ => h1⟩
    | some x => exact Iff.rfl
  have hsf : ∀ r, swapFinal c { e with junk := j1 } r = swapFinal c { e with junk := j2 } r := by
    intro r
    unfold swapFinal
    congr 1
    funext f
    dsimp only
    rw [hfs _ _ _ (hiff f)]
    by_cases hc : r = true ∧ le32 (f .boot) c.tmp ≠ MAGIC_TRAIL ∧
      (getState c f .update).getD j2 ≠ ST_FINAL
    · rw [if_pos hc, if_pos ⟨hc.1, hc.2.1, (hiff f).mpr hc.2.2⟩]
    · rw [if_neg hc, if_neg (fun hh => hc ⟨hh.1, hh.2.1, (hiff f).mp hh.2.2⟩)]
  have hwb : ∀ fb, wbUpdate c { e with junk := j1 } fb = wbUpdate c { e with junk := j2 } fb := by
    intro fb
    unfold wbUpdate
    rw [hsf false]
    rfl
  unfold start startUpdate emergency
  rw [hsf true, hwb true, hwb false]
  rfl

/-- Non-vacuity: the bytes 0 and 0xFF, on a run that installs an update. -/
example : bootUp cfg (env 0#8) pending = bootUp cfg (env 0xFF#8) pending := by
  unfold bootUp
  exact congrFun (uninitialised_irrelevant_partial cfg (env 0#8) 0#8 0xFF#8 (by decide) (by decide)) _

/-- **C12 without the guard is false**: on a device with a confirmed image and an erased UPDATE
trailer, the decision to resume depends on the uninitialised byte. With 0 nothing happens; with 0x30
("FINAL_FLAGS") the last two sectors of BOOT are erased or overwritten: the valid image in BOOT is
destroyed and the device is bricked. -/
theorem uninitialised_consulted : ∃ (c : Cfg) (e : Env) (f : Flash), c.WF ∧ bootable c e (f .boot) ∧
    getState c f .boot = some ST_SUCCESS ∧ getState c f .update = none ∧ Quiet c f ∧
    (∃ w', bootUp c { e with junk := 0#8 } f = .ok () w' ∧ w'.fl = f) ∧
    (∃ g, bootUp c { e with junk := 0x30#8 } f = .panic g) := by
  let f : Flash := flash new (some ST_SUCCESS) (fun _ => 0xFF#8) none
  refine ⟨cfg, env, f, wf, by decide, by decide, by decide, by unfold Quiet; decide, ?_, ?_⟩
  · exact (confirmed_stable_partial cfg env ⟨f, true, none, fun _ => 0#8⟩ (by decide) (by decide)
      (by decide) (by decide) (by decide) (by decide)).2 rfl
  · have h : panics (bootUp cfg { env with junk := 0x30#8 } f) = true := by decide +kernel
    cases hr : bootUp cfg { env with junk := 0x30#8 } f with
    | panic g => exact ⟨g, rfl⟩
    | _ => rw [hr] at h; exact absurd h (by simp [panics])

/-! ## C08: an accepted update fits -/

/-- **C08.** The size check (`/repo/src/update_flash.c:634-637` with `MAX_UPDATE_SIZE`) bounds the
*firmware* size; an accepted image reaches into the trailer sector by less than the header size. It
never reaches the flags and state bytes if the trailer sector is larger than header plus flags.

Partial: `accepted_image_destroyed` shows that the overlap is possible and fatal. -/
theorem accepted_overlap_partial (c : Cfg) (w : c.WF) (e : Env) (u : Mem) (h : acceptable c e u)
    (hopen : le32 u 0 = MAGIC ∧ le32 u 4 ≤ c.part - c.h) :
    imageBytes c u < (c.part - c.ss) + c.h ∧
    (c.h + 6 + c.n / 2 ≤ c.ss → ∀ k, k < 2 + c.n / 2 → imageBytes c u ≤ trailerAt c k) := by
  have hp := w.part_eq
  have hl : imageBytes c u < (c.part - c.ss) + c.h := by
    have h2 := h.2.1
    rw [fwSize_of_open hopen] at h2
    unfold maxUpdateSize at h2
    unfold imageBytes
    have : 0 < c.part - c.ss := by
      have := w.last_eq
      have := w.ss_pos
      omega
    omega
  refine ⟨hl, fun hc k hk => ?_⟩
  unfold trailerAt
  omega

/-- Non-vacuity. -/
example : acceptable cfg env new ∧ imageBytes cfg new = 60 ∧ ¬ (cfg.h + 6 + cfg.n / 2 ≤ 16) := by decide

/-- **C08 is false as stated**: a correctly signed image of 70 bytes (54 bytes of firmware, less than
`MAX_UPDATE_SIZE` = 64, plus the header of 16) is accepted, although the trailer sector starts at
64. Installing it destroys its last bytes, so that the installed image does not verify. -/
theorem accepted_image_destroyed : ∃ (c : Cfg) (e : Env) (Old New : Mem) (f : Flash) (w' : World),
    c.WF ∧ GoodImage c e Old ∧ acceptable c e New ∧ bootable c e New ∧ imageBytes c New > c.part - c.ss ∧
    Holds c f .boot Old ∧ Holds c f .update New ∧ getState c f .update = some ST_UPDATING ∧
    e.ver Old < e.ver New ∧
    bootUp c e f = .ok () w' ∧ ¬ Holds c w'.fl .boot New ∧ ¬ Holds c w'.fl .update New := by
  let f : Flash := fun p => match p with
    | .boot => withTrailer old (some ST_SUCCESS)
    | .update => fun o => if o < 70 then big o else withTrailer old (some ST_UPDATING) o
    | .swap => fun _ => 0xFF#8
  obtain ⟨_, w', h1, h2⟩ := ok_of (r := bootUp cfg env f)
    (p := fun g => (!(g .boot 65 == big 65)) && !(g .update 65 == big 65)) (by decide +kernel)
  rw [Bool.and_eq_true] at h2
  refine ⟨cfg, env, old, big, f, w', wf, good_old _, by decide, by decide, by decide,
    holds_of (by decide), holds_of (by decide), by decide, by decide, h1, ?_, ?_⟩
  · intro h; have := h 65 (by decide); rw [this] at h2; simp at h2
  · intro h; have := h 65 (by decide); rw [this] at h2; simp at h2

end Verif
