import Verif.DualThms
import Verif.Demo

/-!
# Examples and counterexamples for dual boot (C28, C29, C30, C43)
-/

namespace Verif

namespace Demo

/-- An image with a broken signature. -/
def broken (v : Byte) : Mem := img v 0xC3#8 20 0x11#8

theorem conf_of {q : Part} {f : Flash} (hq : q ≠ .swap) (h : eqUpto f q old (imageBytes cfg old) = true)
    (h1 : getState cfg f q ≠ some ST_TESTING) (h2 : getState cfg f q ≠ some ST_UPDATING) : Confirmed cfg env old q f where
  part := hq
  holds := holds_of h
  good := good_old
  version := by decide
  not_testing := h1
  not_updating := h2

/-- BOOT holds a confirmed image, UPDATE a broken one. -/
def half : Flash := flash old (some ST_SUCCESS) (broken 2#8) (some ST_UPDATING)
theorem conf_half : Confirmed cfg env old .boot half :=
  conf_of (by simp) (by decide +kernel) (by decide +kernel) (by decide +kernel)

/-- Flash contents after a panic. -/
def panicFl {α} (r : Res α) : Flash := match r with | .panic f => f | _ => fun _ _ => 0#8
theorem panics_eq {α} {r : Res α} (h : panics r = true) : r = .panic (panicFl r) := by
  cases r with
  | panic f => rfl
  | _ => simp [panics] at h

theorem hdr_local (a b : Mem) (h : ∀ o, o < cfg.h → a o = b o) : env.ver a = env.ver b := by
  change (a 8).toNat = (b 8).toNat
  rw [h 8 (by decide)]

/-- Version 0 if there is no magic. -/
def envM : Env := { env with ver := fun m => if le32 m 0 = MAGIC then (m 8).toNat else 0 }

/-- Executed in place. -/
def xip : RamCfg := { ramboot := false, fixed := true, room := 96 }
/-- Copied to RAM, then checked. -/
def rb : RamCfg := { ramboot := true, fixed := true, room := 96 }
/-- Partitions given by the HAL. -/
def halp : RamCfg := { ramboot := false, fixed := false, room := 96 }
def zeros : Mem := fun _ => 0#8
def wld (f : Flash) (b : Option Nat := none) : World := { fl := f, locked := true, budget := b, torn := zeros }

end Demo

open Demo

/-- `dual_candidate`: UPDATE has the higher version. -/
example : ∃ w', candidate cfg env (fun _ => false) (wld pending) = .ok (some .update) w' := ⟨_, rfl⟩

/-- `ram_power_safe`: the update is broken; the power fails once. -/
example : ∃ p ram' w', ramStart cfg env (fun _ => true) rb 2 zeros (wld half) =
    .ok (.boots p ram') w' ∧ RamAuthentic cfg env ram' := by
  have fit : ∀ f : Flash, (∀ o, o < 16 → f .update o = broken 2#8 o) → FitsRam cfg env rb Part.boot.other f := by
    intro f hf ram
    change (tryImage cfg env rb (f .update) ram).1 ≠ .over
    have e1 : le32 (fun a => if a < cfg.h then f .update a else ram a) 4 = 20 := by
      have : le32 (fun a => if a < cfg.h then f .update a else ram a) 4 = le32 (broken 2#8) 4 :=
        le32_congr (fun o a b => by
          change (if o < 16 then f .update o else ram o) = _
          rw [if_pos (by omega)]
          exact hf o (by omega))
      rw [this]
      decide
    unfold tryImage
    rw [if_pos (show rb.ramboot = true from rfl)]
    dsimp only
    rw [e1]
    split
    · simp
    · rw [if_neg (by decide)]
      split <;> simp
  exact ram_power_safe Demo.wf rfl hdr_local (X := old) (q := .boot) (by decide) (by decide) conf_half
    (fit _ (by decide +kernel)) .none 0 zeros zeros

/-- `ram_boot_authentic`. -/
example : ∃ p ram' w', ramStart cfg env (fun _ => false) xip 2 zeros (wld pending) = .ok (.boots p ram') w' ∧
    RamAuthentic cfg env ram' := by
  have h : okAnd (ramStart cfg env (fun _ => false) xip 2 zeros (wld pending)) (fun f => getState cfg f .update == some ST_TESTING) = true := by
    decide +kernel
  obtain ⟨a, w', h1, h2⟩ := ok_of h
  cases a with
  | boots p ram' => exact ⟨p, ram', w', h1, ram_boot_authentic _ _ _ _ h1⟩
  | over =>
    have : ∃ p ram w2, ramStart cfg env (fun _ => false) xip 2 zeros (wld pending) = .ok (.boots p ram) w2 := ⟨_, _, _, rfl⟩
    obtain ⟨p, ram, w2, h3⟩ := this
    rw [h1] at h3
    simp at h3

/-- `ram_both_bad`. -/
example (fuel : Nat) (ram : Mem) :
    ramStart cfg env (fun _ => false) xip fuel ram (wld (flash (broken 1#8) (some ST_SUCCESS) (broken 2#8) (some ST_UPDATING))) =
      .stuck (flash (broken 1#8) (some ST_SUCCESS) (broken 2#8) (some ST_UPDATING)) := by
  refine ram_both_bad rfl _ (by decide +kernel) ?_ ?_ fuel ram
  · intro p ram
    have : ¬ bootable cfg env ((wld (flash (broken 1#8) (some ST_SUCCESS) (broken 2#8) (some ST_UPDATING))).fl p) := by
      cases p <;> decide +kernel
    unfold tryImage
    rw [if_neg (by decide), if_neg this]
  · intro p
    cases p <;> decide +kernel

/-- C29 is violated in builds without fixed partitions: a confirmed good image is never booted if the newer image
cannot be verified. -/
theorem ram_addr_bricked : ∃ (c : Cfg) (e : Env) (r : RamCfg) (f : Flash) (X : Mem), c.WF ∧ r.fixed = false ∧
    Confirmed c e X .boot f ∧ ∀ ext fuel ram, ramStart c e ext r fuel ram (wld f) = .stuck f := by
  refine ⟨cfg, env, halp, half, old, Demo.wf, rfl, conf_half, ?_⟩
  intro ext fuel ram
  refine ram_addr_never_falls_back (p := .update) rfl (wld half) (by decide +kernel)
    (by decide +kernel) ?_ fuel none ram
  intro ram
  have : ¬ bootable cfg env ((wld half).fl .update) := by decide +kernel
  unfold tryImage
  rw [if_neg (by decide), if_neg this]

/-- `ramboot_overflow`: size field 200, room for 96 bytes, wrong signature. -/
example : (tryImage cfg env rb (img 2#8 0#8 200 0#8) zeros).1 = .over :=
  ramboot_overflow rfl (by decide +kernel) (by decide +kernel) (by decide +kernel)

/-- An image on trial is erased before the other one was checked: with an unusable image in BOOT, the device has
no image left after an unconfirmed update, although the new image is authentic. -/
theorem testing_erased_before_check : ∃ (c : Cfg) (e : Env) (r : RamCfg) (f g : Flash), c.WF ∧ r.fixed = true ∧
    bootable c e (f .update) ∧ ramStart c e (fun _ => true) r 5 zeros (wld f) = .panic g ∧ ¬ bootable c e (g .update) ∧
    ¬ bootable c e (g .boot) := by
  have h : panics (ramStart cfg envM (fun _ => true) xip 5 zeros (wld (flash (broken 1#8) (some ST_SUCCESS) new (some ST_TESTING)))) = true := by
    decide +kernel
  exact ⟨cfg, envM, xip, _, _, Demo.wf, rfl, by decide +kernel, panics_eq h, by decide +kernel, by decide +kernel⟩

/-- `hw_power_safe`: the power fails while the banks are exchanged. -/
example : ∃ w', hwStart cfg env (fun _ => false) 2 (wld (crashFl (hwStart cfg env (fun _ => false) 2 (wld pending (some 1))))) = .ok () w' ∧
    PassedChecks cfg env (w'.fl .boot) := by
  have h : isCrash (hwStart cfg env (fun _ => false) (0 + 2) (wld pending (some 1))) = true := by decide +kernel
  exact hw_power_safe Demo.wf (X := old) (q := .boot) (f := pending)
    (conf_of (by simp) (by decide +kernel) (by decide +kernel) (by decide +kernel))
    (.again .none (isCrash_eq h)) 0 zeros

/-- `hw_loops_forever`. -/
example (fuel : Nat) (p : Part) : hwLoop cfg env (fun _ => false) fuel p (wld (flash (broken 1#8) none (broken 2#8) none)) =
    .stuck (flash (broken 1#8) none (broken 2#8) none) :=
  hw_loops_forever (wld (flash (broken 1#8) none (broken 2#8) none)) rfl rfl (fun _ => rfl) (by decide +kernel)
    (by intro p; cases p <;> decide +kernel) fuel p

/-- `hw_decides`: the first image is broken. -/
example : ∃ w', hwLoop cfg envM (fun _ => false) 2 .update { wld half with locked := false } = .ok .boot w' := by
  rcases hw_decides (c := cfg) (e := envM) (ext := fun _ => false)
    { wld half with locked := false } rfl rfl (fun _ => rfl) (fun m hm => by
      change (if le32 m 0 = MAGIC then _ else _) = _
      rw [if_neg]
      unfold le32
      rw [hm 0 (by decide), hm 1 (by decide), hm 2 (by decide), hm 3 (by decide)]
      decide) (p := .update) (by simp) 0 with h | ⟨_, _, _, _, w', _, h⟩ | h
  · exact absurd h.1 (by decide +kernel)
  · exact ⟨w', h⟩
  · exact absurd h.2.1 (by decide +kernel)

/-! Reset at the exchange of the banks -/

/-- `hal_flash_dualbank_swap` of the STM32L5, which ends with a reset (`/repo/hal/stm32l5.c:354-367`). -/
def bankSwapReset : M Unit := fun w => .crash w.fl.banksSwapped

/-- `wolfBoot_start`, `/repo/src/update_flash_hwswap.c:42-111`, with that function. -/
def hwStartReset (c : Cfg) (e : Env) (ext : Part → Bool) (fuel : Nat) : M Unit := do
  let a ← candidate c e ext
  match a with
  | none => panicM
  | some p => do
    let p ← hwLoop c e ext fuel p
    if p = .update then bankSwapReset else setTesting c .boot

/-- With two images of the same version, both on trial, the banks are exchanged at every reset, and no application
is ever started: the image on trial is to be erased, but the flash is locked. -/
theorem hw_swap_forever {c : Cfg} {e : Env} (fuel : Nat) (w : World) (hl : w.locked = true) (hbud : w.budget = none)
    (hv : e.ver (w.fl .boot) = e.ver (w.fl .update)) (hv0 : e.ver (w.fl .boot) ≠ 0)
    (hs : getState c w.fl .boot = some ST_TESTING) (hb : bootable c e (w.fl .update)) :
    hwStartReset c e (fun _ => false) (fuel + 1) w = .crash w.fl.banksSwapped := by
  have e1 : erasePartition c (fun _ => false) .boot w = .ok () w := by
    unfold erasePartition
    rw [if_neg (by simp)]
    unfold erase flashOp
    rw [hbud]
    dsimp only
    rw [if_pos hl, ← hbud]
  have e2 : candidate c e (fun _ => false) w = .ok (some .update) w := by
    unfold candidate
    have e3 : newest (e.ver (w.fl .boot)) (e.ver (w.fl .update)) = .boot := by
      unfold newest
      rw [if_neg hv0, if_pos (by omega), if_neg (by omega)]
    change (if e.ver (w.fl .boot) = 0 ∧ e.ver (w.fl .update) = 0 then _ else if _ ∧ _ then _ else _ : M (Option Part)) w = _
    rw [if_neg (by omega), e3, if_pos ⟨fallbackPossible_iff.2 ⟨hv0, by omega⟩, hs⟩]
    change M.bind _ _ w = _
    unfold M.bind
    rw [e1]
    rfl
  unfold hwStartReset
  change M.bind _ _ w = _
  unfold M.bind
  rw [e2]
  dsimp only
  change M.bind _ _ w = _
  unfold M.bind
  have e4 : hwLoop c e (fun _ => false) (fuel + 1) .update w = .ok .update w := by
    unfold hwLoop
    change (if bootable c e (w.fl .update) then _ else _ : M Part) w = _
    rw [if_pos hb]
    rfl
  rw [e4]
  rfl

/-- Two good images of version 1 on trial. -/
def twins : Flash := flash old (some ST_TESTING) old (some ST_TESTING)

example (fuel : Nat) : hwStartReset cfg env (fun _ => false) (fuel + 1) (wld twins) = .crash twins.banksSwapped ∧
    hwStartReset cfg env (fun _ => false) (fuel + 1) (wld twins.banksSwapped) = .crash twins := by
  constructor
  · exact hw_swap_forever fuel (wld twins) rfl rfl (by decide +kernel) (by decide +kernel) (by decide +kernel) (by decide +kernel)
  · have := hw_swap_forever (c := cfg) (e := env) fuel (wld twins.banksSwapped) rfl rfl (by decide +kernel) (by decide +kernel)
      (by decide +kernel) (by decide +kernel)
    rw [this]
    congr 1
    funext p
    cases p <;> rfl

end Verif
