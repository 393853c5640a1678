import Verif.EncStart
import Verif.Demo

/-!
# C69: updates with encrypted external flash under power failures
-/

namespace Verif.EncUp

/-! ## A small concrete device -/

namespace Demo
open Verif.Demo (env img old new env_loc crashFl isCrash isCrash_eq okAnd ok_of panics)

/-- 4 sectors of 32 bytes, 16 byte header, 16 byte flash buffer, 4 byte key and 2 byte nonce; the flash rejects
programming of 0 to 1. -/
def par : Par where
  c := { ss := 32, n := 4, h := 16, fb := 16, strict := true }
  kl := 4
  S := 6
  ks := fun k n o => match k with
    | some k => k (o % 4) ^^^ n (o / 16 % 2) ^^^ BitVec.ofNat 8 (o / 16)
    | none => 0x33#8
  stale := fun _ => 0#8

theorem wf : par.WF := ⟨by constructor <;> decide, by decide, by decide⟩

/-- The secret. -/
def sec : Mem := fun i =>
  match i with
  | 0 => 0x13#8 | 1 => 0x57#8 | 2 => 0x9B#8 | 3 => 0xDF#8 | 4 => 0x24#8 | 5 => 0x68#8
  | _ => 0#8

theorem sec_ok : keyOK par sec := by decide

theorem good_old : GoodImage par.c env old :=
  ⟨by decide, by decide, by decide, by show le16 old 12 % 16 = 1 ∧ le16 old 12 / 256 % 256 = 2; decide,
    by show (List.all _ _) = true; decide, by show (_ == _) = true; decide, env_loc _ old⟩

theorem good_new : GoodImage par.c env new :=
  ⟨by decide, by decide, by decide, by show le16 new 12 % 16 = 1 ∧ le16 new 12 / 256 % 256 = 2; decide,
    by show (List.all _ _) = true; decide, by show (_ == _) = true; decide, env_loc _ new⟩

/-- The last sector. -/
def tail (st : Option Byte) (o : Nat) : Byte :=
  match st, o with
  | some s, 123 => s
  | some _, 124 => 0x42#8 | some _, 125 => 0x4F#8 | some _, 126 => 0x4F#8 | some _, 127 => 0x54#8
  | _, _ => 0xFF#8

/-- `b` in BOOT, `u` encrypted in UPDATE, the secret in its place. -/
def flash (b : Mem) (bs : Option Byte) (u : Mem) (us : Option Byte) : Flash
  | .boot => fun o => if 128 ≤ o ∧ o < 134 then sec (o - 128) else if o < 96 then b o else tail bs o
  | .update => fun o => if o < 96 then u o ^^^ stream par sec o else tail us o
  | .swap => fun _ => 0xFF#8

def pending : Flash := flash old (some ST_SUCCESS) new (some ST_UPDATING)
def updated : Flash := flash new (some ST_TESTING) old none

theorem all_lt {n : Nat} {p : Nat → Prop} [DecidablePred p] (h : (List.range n).all (fun o => decide (p o)) = true) :
    ∀ o, o < n → p o := fun o ho => by
  rw [List.all_eq_true] at h
  exact of_decide_eq_true (h o (List.mem_range.mpr ho))

theorem pending_ok : Pending par sec old new pending :=
  ⟨all_lt (by decide), all_lt (by decide), by decide, by decide, by unfold KeyIn; decide⟩

theorem updated_ok : Updated par sec new old updated :=
  ⟨all_lt (by decide), all_lt (by decide), by decide,
    fun x h1 h2 => (by decide : ∀ x, x < 128 → 96 ≤ x → updated .update x = 0xFF#8) x h2 h1, by unfold KeyIn; decide⟩

/-- Power failure while the first sector of UPDATE is written. -/
def cut1 : Flash := crashFl (bootFail par env pending 9 (fun _ => 0#8))

/-- A second one in the final phase: the secret has been saved, the last sector of BOOT is being written. -/
def cut2 : Flash := crashFl (bootFail par env cut1 24 (fun _ => 0x77#8))

/-- Images that reach the last sector in front of the trailers. -/
def old3 : Mem := img 1#8 0xA1#8 54
def new3 : Mem := img 2#8 0xB2#8 60

theorem good_old3 : GoodImage par.c env old3 :=
  ⟨by decide, by decide, by decide, by show le16 old3 12 % 16 = 1 ∧ le16 old3 12 / 256 % 256 = 2; decide,
    by show (List.all _ _) = true; decide, by show (_ == _) = true; decide, env_loc _ old3⟩

theorem good_new3 : GoodImage par.c env new3 :=
  ⟨by decide, by decide, by decide, by show le16 new3 12 % 16 = 1 ∧ le16 new3 12 / 256 % 256 = 2; decide,
    by show (List.all _ _) = true; decide, by show (_ == _) = true; decide, env_loc _ new3⟩

def pending3 : Flash := flash old3 (some ST_SUCCESS) new3 (some ST_UPDATING)

theorem pending3_ok : Pending par sec old3 new3 pending3 :=
  ⟨all_lt (by decide), all_lt (by decide), by decide, by decide, by unfold KeyIn; decide⟩

/-- The same with the old image in front of that sector. -/
def pending1 : Flash := flash old (some ST_SUCCESS) new3 (some ST_UPDATING)

theorem pending1_ok : Pending par sec old new3 pending1 :=
  ⟨all_lt (by decide), all_lt (by decide), by decide, by decide, by unfold KeyIn; decide⟩

end Demo

/-! ## The theorems -/

/-- **C69.** With encrypted external flash, a requested update survives any number of power failures at any flash
operations. If no interrupted reboot had already completed the installation, the first uninterrupted reboot installs the
new image (decrypted) completely, keeps the old image completely (encrypted with the same secret), has the secret in its
place, marks BOOT as TESTING and boots the new image.

Partial: images end in front of the last but one sector (`update_encrypted_bricks` shows what happens otherwise); the word
"BOOT" does not happen to be where the code looks for it (in `KeyIn`, and in `TornOK` for torn operations); the erase of the
trailer sector of UPDATE is atomic. -/
theorem update_encrypted_power_fail_safe_partial {P : Par} (w : P.WF) {e : Env} {Old New s : Mem}
    (hO : GoodImage P.c e Old) (hN : GoodImage P.c e New) (hO2 : imageBytes P.c Old ≤ P.c.part - 2 * P.c.ss)
    (hN2 : imageBytes P.c New ≤ P.c.part - 2 * P.c.ss) (hk : keyOK P s) (hv : e.ver Old < e.ver New)
    {f g : Flash} (hp : Pending P s Old New f) (hi : Interrupted P e (fun x => ¬ Updated P s New Old x) f g) :
    ∃ w', bootUp P e g = .ok () w' ∧ w'.locked = true ∧ Updated P s New Old w'.fl ∧
      bootable P.c e (w'.fl .boot) := by
  rw [two_last w] at hO2 hN2
  have st := fun {f : Flash} => start_mid w (V := (False, e.ver Old < e.ver New)) (f := f) (hO.newOK w.c).img
    (hN.newOK w.c) hO2 hN2 hk False.elim (fun m _ hm => version_hyp hO hv m hm)
  have hmid : Mid P s (False, e.ver Old < e.ver New) Old New g := by
    induction hi with
    | none => exact Pending.mid w hO2 hN2 hv hp
    | again _ ht hr hP ih => exact (bootFail_of (st ih) ht hr).resolve_right hP
  obtain ⟨w', h1, h2, h3⟩ := bootUp_of (st hmid)
  refine ⟨w', h1, h2, h3, ?_⟩
  exact (bootable_congr w.c (hN.newOK w.c).loc (holds_iff.mp h3.new)).mpr ((hN.newOK w.c).bootable w.c)

/-- Non-vacuity: an installation that is interrupted twice, the second time when the secret is only in the saved
place. -/
example : secret Demo.par Demo.cut2 ≠ Demo.sec ∧
    ∃ w', bootUp Demo.par Verif.Demo.env Demo.cut2 = .ok () w' ∧ w'.locked = true ∧
      Updated Demo.par Demo.sec Verif.Demo.new Verif.Demo.old w'.fl ∧
      bootable Demo.par.c Verif.Demo.env (w'.fl .boot) := by
  refine ⟨fun h => absurd (congrFun h 0) (by decide +kernel), ?_⟩
  refine update_encrypted_power_fail_safe_partial Demo.wf Demo.good_old Demo.good_new (by decide) (by decide) Demo.sec_ok
    (by decide) Demo.pending_ok ?_
  have h1 : Verif.Demo.isCrash (bootFail Demo.par Verif.Demo.env Demo.pending 9 (fun _ => 0#8)) = true := by
    decide +kernel
  have h2 : Verif.Demo.isCrash (bootFail Demo.par Verif.Demo.env Demo.cut1 24 (fun _ => 0x77#8)) = true := by
    decide +kernel
  have n1 : ¬ Updated Demo.par Demo.sec Verif.Demo.new Verif.Demo.old Demo.cut1 :=
    fun h => absurd h.state (by decide +kernel)
  have n2 : ¬ Updated Demo.par Demo.sec Verif.Demo.new Verif.Demo.old Demo.cut2 :=
    fun h => absurd h.state (by decide +kernel)
  exact .again (.again .none (by unfold TornOK; decide) (Verif.Demo.isCrash_eq h1) n1)
    (by unfold TornOK; decide) (Verif.Demo.isCrash_eq h2) n2

/-- **C69.** The rollback of an image that was not confirmed, likewise. Partial: as before; and the uninitialised byte that
is taken for the state of UPDATE (C12) is not `IMG_STATE_FINAL_FLAGS`. -/
theorem rollback_encrypted_power_fail_safe_partial {P : Par} (w : P.WF) {e : Env} {Old New s : Mem}
    (hO : GoodImage P.c e Old) (hN : GoodImage P.c e New) (hO2 : imageBytes P.c Old ≤ P.c.part - 2 * P.c.ss)
    (hN2 : imageBytes P.c New ≤ P.c.part - 2 * P.c.ss) (hk : keyOK P s) (hj : e.junk ≠ ST_FINAL)
    {f g : Flash} (hp : Updated P s New Old f) (hi : Interrupted P e (fun x => ¬ Updated P s Old New x) f g) :
    ∃ w', bootUp P e g = .ok () w' ∧ w'.locked = true ∧ Updated P s Old New w'.fl ∧
      bootable P.c e (w'.fl .boot) := by
  rw [two_last w] at hO2 hN2
  have st := fun {f : Flash} => start_mid w (V := (True, False)) (f := f) (hN.newOK w.c).img
    (hO.newOK w.c) hN2 hO2 hk (fun _ => hj) (fun _ h _ => False.elim h)
  have hmid : Mid P s (True, False) New Old g := by
    induction hi with
    | none => exact Updated.mid w hN2 hO2 hp
    | again _ ht hr hP ih => exact (bootFail_of (st ih) ht hr).resolve_right hP
  obtain ⟨w', h1, h2, h3⟩ := bootUp_of (st hmid)
  refine ⟨w', h1, h2, h3, ?_⟩
  exact (bootable_congr w.c (hO.newOK w.c).loc (holds_iff.mp h3.new)).mpr ((hO.newOK w.c).bootable w.c)

/-- Non-vacuity: a rollback interrupted once. -/
example : ∃ w', bootUp Demo.par Verif.Demo.env
        (Verif.Demo.crashFl (bootFail Demo.par Verif.Demo.env Demo.updated 9 (fun _ => 0#8))) = .ok () w' ∧
      w'.locked = true ∧ Updated Demo.par Demo.sec Verif.Demo.old Verif.Demo.new w'.fl ∧
      bootable Demo.par.c Verif.Demo.env (w'.fl .boot) := by
  refine rollback_encrypted_power_fail_safe_partial Demo.wf Demo.good_old Demo.good_new (by decide) (by decide) Demo.sec_ok
    (by decide) Demo.updated_ok ?_
  have h1 : Verif.Demo.isCrash (bootFail Demo.par Verif.Demo.env Demo.updated 9 (fun _ => 0#8)) = true := by
    decide +kernel
  exact .again .none (by unfold TornOK; decide) (Verif.Demo.isCrash_eq h1)
    (fun h => absurd (h.new 8 (by decide)) (by decide +kernel))

/-- **C69, every interruption history.** An uninterrupted reboot ends with one image completely installed, the other one
completely in UPDATE, and the secret in its place. -/
theorem update_encrypted_any_interruption_partial {P : Par} (w : P.WF) {e : Env} {Old New s : Mem}
    (hO : GoodImage P.c e Old) (hN : GoodImage P.c e New) (hO2 : imageBytes P.c Old ≤ P.c.part - 2 * P.c.ss)
    (hN2 : imageBytes P.c New ≤ P.c.part - 2 * P.c.ss) (hk : keyOK P s) (hv : e.ver Old < e.ver New)
    (hj : e.junk ≠ ST_FINAL) {f g : Flash} (hp : Pending P s Old New f) (hi : Interrupted P e (fun _ => True) f g) :
    ∃ w', bootUp P e g = .ok () w' ∧ w'.locked = true ∧ bootable P.c e (w'.fl .boot) ∧
      (Updated P s New Old w'.fl ∨ Updated P s Old New w'.fl) := by
  rw [two_last w] at hO2 hN2
  have goO := hO.newOK w.c
  have goN := hN.newOK w.c
  have s1 := fun {f : Flash} => start_mid w (V := (False, e.ver Old < e.ver New)) (f := f) goO.img
    goN hO2 hN2 hk False.elim (fun m _ hm => version_hyp hO hv m hm)
  have s2 := fun {f : Flash} => start_mid w (V := (True, False)) (f := f) goO.img
    goN hO2 hN2 hk (fun _ => hj) (fun _ h _ => False.elim h)
  have s3 := fun {f : Flash} => start_mid w (V := (True, False)) (f := f) goN.img
    goO hN2 hO2 hk (fun _ => hj) (fun _ h _ => False.elim h)
  have hmid : Mid P s (False, e.ver Old < e.ver New) Old New g ∨ Mid P s (True, False) Old New g ∨
      Mid P s (True, False) New Old g := by
    induction hi with
    | none => exact Or.inl (Pending.mid w hO2 hN2 hv hp)
    | again _ ht hr hP ih =>
      rcases ih with ih | ih | ih
      · rcases bootFail_of (s1 ih) ht hr with h | h
        · exact Or.inl h
        · exact Or.inr (Or.inr (Updated.mid w hN2 hO2 h))
      · rcases bootFail_of (s2 ih) ht hr with h | h
        · exact Or.inr (Or.inl h)
        · exact Or.inr (Or.inr (Updated.mid w hN2 hO2 h))
      · rcases bootFail_of (s3 ih) ht hr with h | h
        · exact Or.inr (Or.inr h)
        · exact Or.inr (Or.inl (Updated.mid w hO2 hN2 h))
  rcases hmid with h | h | h
  · obtain ⟨w', h1, h2, h3⟩ := bootUp_of (s1 h)
    exact ⟨w', h1, h2, (bootable_congr w.c goN.loc (holds_iff.mp h3.new)).mpr (goN.bootable w.c), Or.inl h3⟩
  · obtain ⟨w', h1, h2, h3⟩ := bootUp_of (s2 h)
    exact ⟨w', h1, h2, (bootable_congr w.c goN.loc (holds_iff.mp h3.new)).mpr (goN.bootable w.c), Or.inl h3⟩
  · obtain ⟨w', h1, h2, h3⟩ := bootUp_of (s3 h)
    exact ⟨w', h1, h2, (bootable_congr w.c goO.loc (holds_iff.mp h3.new)).mpr (goO.bootable w.c), Or.inr h3⟩

/-- Non-vacuity. -/
example : ∃ w', bootUp Demo.par Verif.Demo.env Demo.cut1 = .ok () w' ∧ w'.locked = true ∧
      bootable Demo.par.c Verif.Demo.env (w'.fl .boot) ∧
      (Updated Demo.par Demo.sec Verif.Demo.new Verif.Demo.old w'.fl ∨
        Updated Demo.par Demo.sec Verif.Demo.old Verif.Demo.new w'.fl) := by
  refine update_encrypted_any_interruption_partial Demo.wf Demo.good_old Demo.good_new (by decide) (by decide) Demo.sec_ok
    (by decide) (by decide) Demo.pending_ok ?_
  have h1 : Verif.Demo.isCrash (bootFail Demo.par Verif.Demo.env Demo.pending 9 (fun _ => 0#8)) = true := by
    decide +kernel
  exact .again .none (by unfold TornOK; decide) (Verif.Demo.isCrash_eq h1) trivial

/-- **C69 without the condition on the length is false.** Two good images that reach the sector in front of the trailers:
the first, uninterrupted reboot after the request ends in `wolfBoot_panic`, with neither image left bootable. The final
phase saves that sector of BOOT to SWAP in clear and decrypts it on the way back
(`/repo/src/update_flash.c:291,318`, with lines 178-190); this happens to the new image, and then to the old one in the
emergency update. -/
theorem update_encrypted_bricks : ∃ (P : Par) (e : Env) (s Old New : Mem) (f g : Flash), P.WF ∧
    GoodImage P.c e Old ∧ GoodImage P.c e New ∧ keyOK P s ∧ e.ver Old < e.ver New ∧ Pending P s Old New f ∧
    bootUp P e f = .panic g ∧ ¬ bootable P.c e (g .boot) ∧ ¬ acceptable P.c e (decU P (some s) g) := by
  have hp : (match bootUp Demo.par Verif.Demo.env Demo.pending3 with
      | .panic g => decide (¬ bootable Demo.par.c Verif.Demo.env (g .boot)) &&
          decide (¬ acceptable Demo.par.c Verif.Demo.env (decU Demo.par (some Demo.sec) g))
      | _ => false) = true := by decide +kernel
  cases hr : bootUp Demo.par Verif.Demo.env Demo.pending3 with
  | panic g =>
    rw [hr] at hp
    simp only [Bool.and_eq_true, decide_eq_true_eq] at hp
    exact ⟨Demo.par, Verif.Demo.env, Demo.sec, Demo.old3, Demo.new3, Demo.pending3, g, Demo.wf, Demo.good_old3,
      Demo.good_new3, Demo.sec_ok, by decide, Demo.pending3_ok, hr, hp.1, hp.2⟩
  | _ => rw [hr] at hp; exact absurd hp (by simp)

/-- If only the new image reaches that sector, it is not installed: the old image runs again, the new one is spoilt, and no
request is left. -/
theorem update_encrypted_lost : ∃ (P : Par) (e : Env) (s Old New : Mem) (f : Flash) (w' : World), P.WF ∧
    GoodImage P.c e Old ∧ GoodImage P.c e New ∧ keyOK P s ∧ e.ver Old < e.ver New ∧ Pending P s Old New f ∧
    bootUp P e f = .ok () w' ∧ Holds P.c w'.fl .boot Old ∧ ¬ acceptable P.c e (decU P (some s) w'.fl) ∧
    getState P.c w'.fl .update = none := by
  obtain ⟨a, w', h1, h2⟩ := Verif.Demo.ok_of (r := bootUp Demo.par Verif.Demo.env Demo.pending1)
    (p := fun g => Verif.Demo.eqUpto g .boot Verif.Demo.old 30 &&
      decide (¬ acceptable Demo.par.c Verif.Demo.env (decU Demo.par (some Demo.sec) g)) &&
      decide (getState Demo.par.c g .update = none)) (by decide +kernel)
  simp only [Bool.and_eq_true, decide_eq_true_eq] at h2
  refine ⟨Demo.par, Verif.Demo.env, Demo.sec, Verif.Demo.old, Demo.new3, Demo.pending1, w', Demo.wf, Demo.good_old,
    Demo.good_new3, Demo.sec_ok, by decide, Demo.pending1_ok, h1, ?_, h2.1.2, h2.2⟩
  intro o ho
  have := h2.1.1
  unfold Verif.Demo.eqUpto at this
  rw [List.all_eq_true] at this
  simpa using this o (List.mem_range.mpr ho)

end Verif.EncUp
