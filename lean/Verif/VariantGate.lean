import Verif.BootGate
import Verif.EncThms
import Verif.EmergencyEx

/-!
# What is started in the variants of the update: C71

The gate of C06 for encrypted updates, write-once flash and flags of UPDATE in BOOT: in every execution, from every contents of the flash, with and without
power failures.
-/

namespace Verif

namespace EncUp

/-- **C71.** What is started in BOOT passed all checks there, encrypted updates. -/
theorem boot_gate (P : Par) (e : Env) (w w' : World) (h : start P e w = .ok () w') : bootable P.c e (w'.fl .boot) := by
  unfold start at h
  obtain ⟨_, w1, _, h⟩ := Verif.bind_ok h
  obtain ⟨f, w2, h2, h⟩ := Verif.bind_ok h
  cases h2
  split at h
  · next hb => rw [tick_ok h]; exact hb
  · unfold emergency at h
    obtain ⟨r, w3, _, h⟩ := Verif.bind_ok h
    split at h
    · exact absurd h (by simp [panicM])
    · obtain ⟨f, w4, h4, h⟩ := Verif.bind_ok h
      cases h4
      split at h
      · next hb => rw [tick_ok h]; exact hb
      · exact absurd h (by simp [panicM])

/-- ... with the image format and the verification of `Image`. -/
theorem boot_gate_image {k : ImgCfg} (P : Par) (wi : ImgWF k P.c) (junk : Byte) (w w' : World) (h : start P (imgEnv k P.c junk) w = .ok () w') :
    GateOK k (w'.fl .boot) :=
  bootable_gate wi (boot_gate _ _ _ _ h)

/-- **C69.** A secret is loaded exactly if its key is neither erased nor zero. -/
theorem load_iff (P : Par) (f : Flash) (s : Mem) :
    load P none f = some s ↔ s = secret P f ∧ (∃ i, i < P.kl ∧ s i ≠ 0xFF#8) ∧ ∃ i, i < P.kl ∧ s i ≠ 0#8 := by
  have key : ∀ v : Byte, ¬ (∀ i, i < P.kl → secret P f i = v) ↔ ∃ i, i < P.kl ∧ secret P f i ≠ v := by
    intro v
    constructor
    · intro h
      apply Classical.byContradiction
      intro hn
      exact h fun i hi => Classical.byContradiction fun hv => hn ⟨i, hi, hv⟩
    · rintro ⟨i, hi, hv⟩ h
      exact hv (h i hi)
  have hkey : keyOK P (secret P f) ↔ (∃ i, i < P.kl ∧ secret P f i ≠ 0xFF#8) ∧ ∃ i, i < P.kl ∧ secret P f i ≠ 0#8 := and_congr (key _) (key _)
  unfold load
  dsimp only
  constructor
  · intro h
    split at h
    · next hk =>
      have := Option.some.inj h
      subst this
      exact ⟨rfl, hkey.1 hk⟩
    · exact absurd h (by simp)
  · rintro ⟨rfl, hk⟩
    rw [if_pos (hkey.2 hk)]

/-- Non-vacuity of `load_iff`. -/
example : load Demo.par none Demo.pending = some (secret Demo.par Demo.pending) :=
  (load_iff _ _ _).2 ⟨rfl, ⟨0, by decide, by decide⟩, ⟨0, by decide, by decide⟩⟩

/-- What `update_encrypted_bricks` leaves in the sector in front of the trailer of BOOT: the bytes of the old image, decrypted once too often. -/
theorem brick_sector : ∃ g, bootUp Demo.par Verif.Demo.env Demo.pending3 = .panic g ∧
    ∀ i, i < 6 → g .boot (64 + i) = Demo.old3 (64 + i) ^^^ stream Demo.par Demo.sec (64 + i) := by
  have hp : (match bootUp Demo.par Verif.Demo.env Demo.pending3 with
      | .panic g => (List.range 6).all fun i => g .boot (64 + i) == Demo.old3 (64 + i) ^^^ stream Demo.par Demo.sec (64 + i)
      | _ => false) = true := by decide +kernel
  cases hr : bootUp Demo.par Verif.Demo.env Demo.pending3 with
  | panic g =>
    rw [hr] at hp
    simp only [List.all_eq_true, List.mem_range, beq_iff_eq] at hp
    exact ⟨g, rfl, fun i hi => hp i hi⟩
  | _ => rw [hr] at hp; exact absurd hp (by simp)

/-- Non-vacuity of `boot_gate`. -/
example : ∃ w', bootUp Demo.par Verif.Demo.env Demo.pending = .ok () w' ∧ bootable Demo.par.c Verif.Demo.env (w'.fl .boot) := by
  obtain ⟨_, w', h, _⟩ := Verif.Demo.ok_of (r := bootUp Demo.par Verif.Demo.env Demo.pending) (p := fun _ => true) (by decide +kernel)
  exact ⟨w', h, boot_gate _ _ _ w' h⟩

end EncUp

namespace Fho

/-- **C71.** What is started in BOOT passed all checks there, flags of UPDATE in BOOT. -/
theorem boot_gate (k : Cfg) (e : Env) (w w' : World) (h : start k e w = .ok () w') : bootable k e (w'.fl .boot) := by
  unfold start at h
  obtain ⟨_, w1, _, h⟩ := Verif.bind_ok h
  obtain ⟨f, w2, h2, h⟩ := Verif.bind_ok h
  cases h2
  split at h
  · next hb => rw [tick_ok h]; exact hb
  · unfold emergency at h
    obtain ⟨r, w3, _, h⟩ := Verif.bind_ok h
    split at h
    · exact absurd h (by simp [panicM])
    · obtain ⟨f, w4, h4, h⟩ := Verif.bind_ok h
      cases h4
      split at h
      · next hb => rw [tick_ok h]; exact hb
      · exact absurd h (by simp [panicM])

/-- ... with the image format and the verification of `Image`. -/
theorem boot_gate_image {k : ImgCfg} {c : Cfg} (wi : ImgWF k c) (junk : Byte) (w w' : World) (h : start c (imgEnv k c junk) w = .ok () w') :
    GateOK k (w'.fl .boot) :=
  bootable_gate wi (boot_gate _ _ _ _ h)

open Verif.Demo Demo in
/-- Non-vacuity of `boot_gate`. -/
example : ∃ w', bootUp cfg env pendingH = .ok () w' ∧ bootable cfg env (w'.fl .boot) := by
  obtain ⟨_, w', h, _⟩ := ok_of (r := bootUp cfg env pendingH) (p := fun _ => true) (by decide +kernel)
  exact ⟨w', h, boot_gate cfg env _ w' h⟩

end Fho

namespace Nvu

/-- **C71.** What is started in BOOT passed all checks there, write-once flash. -/
theorem boot_gate (k : Cfg) (e : Env) (w w' : World) (h : start k e w = .ok () w') : bootable k e (w'.fl .boot) := by
  unfold start at h
  obtain ⟨_, _, _, h⟩ := Verif.bind_ok h
  obtain ⟨_, _, _, h⟩ := Verif.bind_ok h
  obtain ⟨_, _, _, h⟩ := Verif.bind_ok h
  obtain ⟨_, _, _, h⟩ := Verif.bind_ok h
  unfold startTail at h
  obtain ⟨_, w1, _, h⟩ := Verif.bind_ok h
  obtain ⟨f, w2, h2, h⟩ := Verif.bind_ok h
  cases h2
  split at h
  · next hb => rw [tick_ok h]; exact hb
  · unfold emergency at h
    obtain ⟨r, w3, _, h⟩ := Verif.bind_ok h
    split at h
    · exact absurd h (by simp [panicM])
    · obtain ⟨f, w4, h4, h⟩ := Verif.bind_ok h
      cases h4
      split at h
      · next hb => rw [tick_ok h]; exact hb
      · exact absurd h (by simp [panicM])

/-- ... with the image format and the verification of `Image`. -/
theorem boot_gate_image {k : ImgCfg} {c : Cfg} (wi : ImgWF k c) (junk : Byte) (w w' : World) (h : start c (imgEnv k c junk) w = .ok () w') :
    GateOK k (w'.fl .boot) :=
  bootable_gate wi (boot_gate _ _ _ _ h)

open Verif.Demo Demo in
/-- Non-vacuity of `boot_gate`: a device that does boot. -/
example : ∃ w', bootUp cfg4 env pending4 = .ok () w' ∧ bootable cfg4 env (w'.fl .boot) := by
  obtain ⟨_, w', h, _⟩ := ok_of (r := bootUp cfg4 env pending4) (p := fun _ => true) (by decide +kernel)
  exact ⟨w', h, boot_gate cfg4 env _ w' h⟩

end Nvu

end Verif
