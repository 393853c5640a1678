import Verif.DiskLock
import Verif.TpmSealThms

/-!
# Locking of the disk: theorems (C58)
-/

namespace Verif.Lock

open Verif Verif.Tpm

/-! ## Specification -/

/-- The security state of a drive (ATA8-ACS 4.7.4). -/
def secOf (d : Drive) : Sec :=
  match d.supported, d.enabled, d.locked, d.frozen with
  | false, _, _, _ => .sec0
  | true, false, _, false => .sec1
  | true, false, _, true => .sec2
  | true, true, true, _ => .sec4
  | true, true, false, false => .sec5
  | true, true, false, true => .sec6

/-- A password as the drive sees it. -/
def pad (p : Bytes) : Bytes := p ++ List.replicate (32 - p.length) 0

/-- The driver knows the state of the drive. -/
def Fresh (w : W) : Prop := w.sec = secOf w.drv

/-- Security is enabled, the drive is unlocked, and frozen if requested. -/
def Safe (freeze : Bool) (d : Drive) : Prop :=
  d.supported = true ∧ d.enabled = true ∧ d.locked = false ∧ d.frozen = freeze

/-- State after a function. -/
def Out.w : Out → W
  | .ret _ w => w
  | .panic w => w
  | .bad _ w => w

/-! ## Identification -/

theorem and_bit (w : BitVec 16) {i : Nat} (hi : i < 16) :
    w &&& BitVec.ofNat 16 (2 ^ i) = 0 ↔ w.getLsbD i = false := by
  have h : BitVec.ofNat 16 (2 ^ i) = BitVec.twoPow 16 i := by
    apply BitVec.eq_of_toNat_eq
    simp [BitVec.toNat_twoPow]
  rw [h, BitVec.and_twoPow]
  cases hb : w.getLsbD i with
  | false => simp
  | true =>
    simp only [if_true, Bool.true_eq_false, iff_false]
    intro h0
    have := congrArg (fun x => BitVec.getLsbD x i) h0
    simp [hi] at this

theorem withBit_get (w : BitVec 16) {i : Nat} (hi : i < 16) (v : Bool) (j : Nat) :
    (withBit w i v).getLsbD j = if j = i then v else w.getLsbD j := by
  have h : BitVec.ofNat 16 (2 ^ i) = BitVec.twoPow 16 i := by
    apply BitVec.eq_of_toNat_eq
    simp [BitVec.toNat_twoPow]
  unfold withBit
  rw [h]
  cases v with
  | true =>
    by_cases hj : j = i
    · subst hj; simp [hi]
    · have : i ≠ j := fun e => hj e.symm
      simp [hj, this]
  | false =>
    by_cases hj : j = i
    · subst hj; simp [hi]
    · have : i ≠ j := fun e => hj e.symm
      by_cases h16 : j < 16
      · simp [hj, h16]
      · simp [hj, BitVec.getLsbD_of_ge _ _ (Nat.not_lt.1 h16)]

/-- **The identification is decoded as the standard defines it**, whatever the other bits are. -/
theorem decode_words (n m : BitVec 16) (d : Drive) : decode (word82 n d) (word128 m d) = secOf d := by
  have h2 : ∀ w : BitVec 16, w &&& 2 = 0 ↔ w.getLsbD 1 = false := fun w => and_bit w (i := 1) (by omega)
  have h4 : ∀ w : BitVec 16, w &&& 4 = 0 ↔ w.getLsbD 2 = false := fun w => and_bit w (i := 2) (by omega)
  have h8 : ∀ w : BitVec 16, w &&& 8 = 0 ↔ w.getLsbD 3 = false := fun w => and_bit w (i := 3) (by omega)
  have e1 : (word128 m d).getLsbD 1 = d.enabled := by simp only [word128]; rw [withBit_get _ (by omega)]; simp [withBit_get, -BitVec.getLsbD_eq_getElem]
  have e2 : (word128 m d).getLsbD 2 = d.locked := by simp only [word128]; rw [withBit_get _ (by omega)]; simp [withBit_get, -BitVec.getLsbD_eq_getElem]
  have e3 : (word128 m d).getLsbD 3 = d.frozen := by simp only [word128]; rw [withBit_get _ (by omega)]; simp [withBit_get, -BitVec.getLsbD_eq_getElem]
  have e0 : (word82 n d).getLsbD 1 = d.supported := by simp only [word82]; rw [withBit_get _ (by omega)]; simp
  unfold decode secOf
  simp only [ne_eq, h2, h4, h8, e0, e1, e2, e3]
  cases d.supported <;> cases d.enabled <;> cases d.locked <;> cases d.frozen <;> simp

/-- A drive reported as `SEC5` or `SEC6` is enabled and unlocked. -/
theorem secOf_iff (d : Drive) (freeze : Bool) :
    secOf d = (if freeze then .sec6 else .sec5) ↔ Safe freeze d := by
  unfold secOf Safe
  cases d.supported <;> cases d.enabled <;> cases d.locked <;> cases d.frozen <;> cases freeze <;> simp

/-! ## Commands -/

theorem exec_zero {e : Env} {cmd : Drive → Bool × Drive} {w w' : W} (h : exec e cmd w = (0, w')) :
    (cmd w.drv).1 = true ∧ w' = { w with drv := (cmd w.drv).2, k := w.k + 1 } := by
  unfold exec at h
  split at h
  · by_cases hc : (cmd w.drv).1 = true
    · rw [if_pos hc] at h; cases h; exact ⟨hc, rfl⟩
    · rw [if_neg hc] at h; cases h
  · cases h
  · cases h

theorem exec_drv (e : Env) (cmd : Drive → Bool × Drive) (w : W) :
    (exec e cmd w).2.drv = w.drv ∨ (exec e cmd w).2.drv = (cmd w.drv).2 := by
  unfold exec
  split
  · exact .inr rfl
  · exact .inl rfl
  · exact .inr rfl

theorem exec_tpm (e : Env) (cmd : Drive → Bool × Drive) (w : W) : (exec e cmd w).2.tpm = w.tpm := by
  unfold exec; split <;> rfl

theorem exec_sec (e : Env) (cmd : Drive → Bool × Drive) (w : W) : (exec e cmd w).2.sec = w.sec := by
  unfold exec; split <;> rfl

theorem exec_k (e : Env) (cmd : Drive → Bool × Drive) (w : W) : (exec e cmd w).2.k = w.k + 1 := by
  unfold exec; split <;> rfl

theorem identify_drv (e : Env) (w : W) : (identify e w).2.drv = w.drv := by
  unfold identify
  dsimp only
  split
  · rcases exec_drv e (fun d => (true, d)) w with h | h <;> exact h
  · rcases exec_drv e (fun d => (true, d)) w with h | h <;> exact h

theorem identify_tpm (e : Env) (w : W) : (identify e w).2.tpm = w.tpm := by
  unfold identify
  dsimp only
  split <;> exact exec_tpm _ _ _

theorem identify_sec {e : Env} {w : W} (h : (identify e w).1 = 0) :
    (identify e w).2.sec = secOf w.drv := by
  unfold identify at h ⊢
  dsimp only at h ⊢
  split at h
  · rename_i h0
    rw [if_pos h0]
    exact decode_words _ _ _
  · exact absurd h (by assumption)

theorem identify_k (e : Env) (w : W) : (identify e w).2.k = w.k + 1 := by
  unfold identify
  dsimp only
  split <;> exact exec_k _ _ _

theorem password_block {p : Bytes} (m : Bool) (h : p.length ≤ 32) : password (block m p) = pad p := by
  unfold password block pad
  rw [List.append_assoc, List.drop_left' (by simp), List.take_append,
    List.take_of_length_le h]
  congr 1
  rw [List.take_replicate]
  congr 1
  omega

theorem block_id (m : Bool) (p : Bytes) : ((block m p).getD 0 0).getLsbD 0 = m := by
  cases m <;> simp [block]

theorem block_max (m : Bool) (p : Bytes) : ((block m p).getD 1 0).getLsbD 0 = false := by
  simp [block]

theorem cmdSet_eq {p : Bytes} (h : p.length ≤ 32) (d : Drive) :
    cmdSetPassword (block false p) d =
      if d.supported = false ∨ d.locked = true ∨ d.frozen = true then (false, d)
      else (true, { d with user := pad p, enabled := true, maximum := false }) := by
  unfold cmdSetPassword
  simp only [block_id, block_max, password_block false h, Bool.false_eq_true, if_false]

theorem cmdUnlock_eq {p : Bytes} (h : p.length ≤ 32) (d : Drive) :
    cmdUnlock (block false p) d =
      if d.supported = false ∨ d.frozen = true then (false, d)
      else if d.locked = false then (true, d)
      else if d.tries = 0 then (false, d)
      else if pad p = d.user then (true, { d with locked := false })
      else (false, { d with tries := d.tries - 1 }) := by
  unfold cmdUnlock
  simp only [block_id, password_block false h, Bool.false_eq_true, if_false]

theorem cmdUnlock_master {m : Bytes} (h : m.length ≤ 32) (d : Drive) :
    cmdUnlock (block true m) d =
      if d.supported = false ∨ d.frozen = true then (false, d)
      else if d.locked = false then (true, d)
      else if d.tries = 0 then (false, d)
      else if d.maximum = false ∧ pad m = d.master then (true, { d with locked := false })
      else (false, { d with tries := d.tries - 1 }) := by
  unfold cmdUnlock
  simp only [block_id, password_block true h, if_true]

theorem cmdDisable_master {m : Bytes} (h : m.length ≤ 32) (d : Drive) :
    cmdDisable (block true m) d =
      if d.supported = false ∨ d.locked = true ∨ d.frozen = true then (false, d)
      else if d.maximum = false ∧ pad m = d.master then (true, { d with enabled := false })
      else (false, d) := by
  unfold cmdDisable
  simp only [block_id, password_block true h, if_true]

/-! ## Strings -/

theorem cstr_spec {a p : Bytes} (h : cstr a = some p) : ∃ r, a = p ++ 0 :: r ∧ 0 ∉ p := by
  induction a generalizing p with
  | nil => cases h
  | cons b r ih =>
    unfold cstr at h
    split at h
    · rename_i hb
      cases h
      exact ⟨r, by rw [hb]; rfl, by simp⟩
    · rename_i hb
      cases hr : cstr r with
      | none => rw [hr] at h; cases h
      | some q =>
        rw [hr] at h
        cases h
        obtain ⟨x, hx, hn⟩ := ih hr
        exact ⟨x, by rw [hx]; rfl, by
          intro hm
          rcases List.mem_cons.1 hm with hm | hm
          · exact hb hm.symm
          · exact hn hm⟩

theorem cstr_append {p : Bytes} (r : Bytes) (h : (0 : Byte) ∉ p) : cstr (p ++ 0 :: r) = some p := by
  induction p with
  | nil => simp [cstr]
  | cons b q ih =>
    have hb : b ≠ 0 := fun e => h (List.mem_cons.2 (.inl e.symm))
    have hq : (0 : Byte) ∉ q := fun e => h (List.mem_cons.2 (.inr e))
    rw [List.cons_append, cstr, if_neg hb, ih hq]
    rfl

theorem cstr_none {a : Bytes} : cstr a = none ↔ (0 : Byte) ∉ a := by
  induction a with
  | nil => simp [cstr]
  | cons b r ih =>
    unfold cstr
    by_cases hb : b = 0
    · rw [if_pos hb, hb]
      exact ⟨fun h => by simp at h, fun h => absurd (List.mem_cons_self) h⟩
    · rw [if_neg hb, Option.map_eq_none_iff, ih]
      exact ⟨fun h hm => (List.mem_cons.1 hm).elim (fun e => hb e.symm) h,
        fun h hm => h (List.mem_cons_of_mem _ hm)⟩

theorem cstr_more {a p : Bytes} (r : Bytes) (h : cstr a = some p) : cstr (a ++ r) = some p := by
  obtain ⟨x, rfl, hn⟩ := cstr_spec h
  rw [List.append_assoc]
  exact cstr_append _ hn

theorem cstr_length {a p : Bytes} (h : cstr a = some p) : p.length < a.length := by
  obtain ⟨x, rfl, _⟩ := cstr_spec h
  simp

/-! ## Steps -/

theorem finish_ret {freeze : Bool} {w w' : W} (h : finish freeze w = .ret 0 w') :
    w' = w ∧ w.sec = (if freeze then .sec6 else .sec5) := by
  unfold finish at h
  split at h
  · cases h
  · rename_i hc
    cases h
    refine ⟨rfl, ?_⟩
    cases freeze <;> simp_all

theorem identifyThen_ret {e : Env} {next : W → Out} {w w' : W}
    (h : identifyThen e next w = .ret 0 w') :
    ∃ w1, w1.drv = w.drv ∧ w1.tpm = w.tpm ∧ w1.sec = secOf w.drv ∧ next w1 = .ret 0 w' := by
  unfold identifyThen at h
  split at h
  · cases h
  · rename_i h0
    have h0 : (identify e w).1 = 0 := by simpa using h0
    exact ⟨_, identify_drv e w, identify_tpm e w, identify_sec h0, h⟩

theorem freezeThen_ret {e : Env} {freeze : Bool} {next : W → Out} {w w' : W}
    (h : freezeThen e freeze next w = .ret 0 w') :
    ∃ w1, w1.drv = (if freeze then { w.drv with frozen := true } else w.drv) ∧ w1.tpm = w.tpm ∧
      next w1 = .ret 0 w' := by
  unfold freezeThen at h
  split at h
  · rename_i hf
    split at h
    · cases h
    · rename_i h0
      have h0 : (freezeLock e w).1 = 0 := by simpa using h0
      have hx : exec e cmdFreeze w = (0, (freezeLock e w).2) := Prod.ext h0 rfl
      obtain ⟨h1, h2⟩ := exec_zero hx
      refine ⟨(freezeLock e w).2, ?_, exec_tpm e cmdFreeze w, h⟩
      rw [h2]
      unfold cmdFreeze at h1 ⊢
      split at h1
      · cases h1
      · rename_i hc
        rw [if_neg hc, if_pos hf]
  · rename_i hf
    exact ⟨w, by rw [if_neg hf], rfl, h⟩

/-- **Locking a new drive**: success means that the drive is enabled with the secret as user password. -/
theorem lockIt_ok {e : Env} {freeze : Bool} {p : Bytes} {w w' : W} (hp : p.length ≤ 32)
    (h : lockIt e freeze p w = .ret 0 w') :
    Safe freeze w'.drv ∧ w'.drv.user = pad p ∧ w'.drv.maximum = false ∧
      w'.drv.master = w.drv.master ∧ w'.tpm = w.tpm ∧ Fresh w' := by
  unfold lockIt at h
  split at h
  · cases h
  rename_i h0
  have h0 : (setPassword e p w).1 = 0 := by simpa using h0
  have hx : exec e (cmdSetPassword (block false p)) w = (0, (setPassword e p w).2) := Prod.ext h0 rfl
  obtain ⟨h1, h2⟩ := exec_zero hx
  rw [cmdSet_eq hp] at h1 h2
  split at h1
  · cases h1
  rename_i hc
  rw [if_neg hc] at h2
  obtain ⟨w1, hd1, ht1, h3⟩ := freezeThen_ret h
  obtain ⟨w2, hd2, ht2, hs2, h4⟩ := identifyThen_ret h3
  obtain ⟨rfl, hs⟩ := finish_ret h4
  have hf : secOf w'.drv = if freeze then .sec6 else .sec5 := by rw [hd2, ← hs2, hs]
  refine ⟨(secOf_iff _ _).1 hf, ?_, ?_, ?_, ?_, by rw [Fresh, hs, hf]⟩
  · rw [hd2, hd1, h2]; split <;> rfl
  · rw [hd2, hd1, h2]; split <;> rfl
  · rw [hd2, hd1, h2]; split <;> rfl
  · rw [ht2, ht1, h2]

theorem unlocked_ok {e : Env} {freeze : Bool} {w w' : W} (hw : Fresh w)
    (h : unlocked e freeze w = .ret 0 w') :
    Safe freeze w'.drv ∧ w'.drv.user = w.drv.user ∧ w'.tpm = w.tpm ∧ Fresh w' := by
  unfold unlocked at h
  split at h
  · obtain ⟨w1, hd1, ht1, h3⟩ := freezeThen_ret h
    obtain ⟨w2, hd2, ht2, hs2, h4⟩ := identifyThen_ret h3
    obtain ⟨rfl, hs⟩ := finish_ret h4
    have hf : secOf w'.drv = if freeze then .sec6 else .sec5 := by rw [hd2, ← hs2, hs]
    refine ⟨(secOf_iff _ _).1 hf, ?_, by rw [ht2, ht1], by rw [Fresh, hs, hf]⟩
    rw [hd2, hd1]; split <;> rfl
  · obtain ⟨rfl, hs⟩ := finish_ret h
    exact ⟨(secOf_iff _ _).1 (hw.symm.trans hs), rfl, rfl, hw⟩

/-- **Unlocking**: success means that the secret is the user password of the drive. -/
theorem unlockIt_ok {e : Env} {freeze : Bool} {p : Bytes} {w w' : W} (hp : p.length ≤ 32)
    (hl : w.drv.locked = true) (h : unlockIt e freeze p w = .ret 0 w') :
    Safe freeze w'.drv ∧ w.drv.user = pad p ∧ w'.drv.user = pad p ∧ w'.tpm = w.tpm ∧ Fresh w' := by
  unfold unlockIt at h
  split at h
  · cases h
  rename_i h0
  have h0 : (unlockDevice e p false w).1 = 0 := by simpa using h0
  have hx : exec e (cmdUnlock (block false p)) w = (0, (unlockDevice e p false w).2) := Prod.ext h0 rfl
  obtain ⟨h1, h2⟩ := exec_zero hx
  rw [cmdUnlock_eq hp] at h1 h2
  split at h1
  · cases h1
  rename_i hc
  rw [if_neg hc] at h2
  rw [hl] at h1 h2
  simp only [Bool.true_eq_false, if_false] at h1 h2
  split at h1
  · cases h1
  rename_i hc2
  rw [if_neg hc2] at h2
  split at h1
  · rename_i hu
    rw [if_pos hu] at h2
    obtain ⟨w2, hd2, ht2, hs2, h4⟩ := identifyThen_ret h
    have hfr : Fresh w2 := by rw [Fresh, hs2, hd2]
    obtain ⟨h5, h6, h7, h8⟩ := unlocked_ok hfr h4
    refine ⟨h5, hu.symm, ?_, by rw [h7, ht2, h2], h8⟩
    rw [h6, hd2, h2]
    exact hu.symm
  · cases h1

theorem sec1_drv {d : Drive} (h : secOf d = .sec1) : d.supported = true ∧ d.enabled = false ∧ d.frozen = false := by
  revert h; unfold secOf
  cases d.supported <;> cases d.enabled <;> cases d.locked <;> cases d.frozen <;> simp

theorem sec4_drv {d : Drive} (h : secOf d = .sec4) : d.supported = true ∧ d.enabled = true ∧ d.locked = true := by
  revert h; unfold secOf
  cases d.supported <;> cases d.enabled <;> cases d.locked <;> cases d.frozen <;> simp

/-- **The boot continues only with a protected drive.** If `sata_unlock_disk` returns 0, security is enabled, the
drive is unlocked, and frozen if this was requested; if it was disabled or locked before, the secret is its user
password. -/
theorem unlockWith_sound {e : Env} {freeze : Bool} {arr : Bytes} {w w' : W} (hw : Fresh w)
    (ha : arr.length ≤ 32) (h : unlockWith e false freeze arr w = .ret 0 w') :
    Safe freeze w'.drv ∧ Fresh w' ∧ w'.tpm = w.tpm ∧
      (w.sec = .sec1 ∨ w.sec = .sec4 → ∃ p, cstr arr = some p ∧ w'.drv.user = pad p) ∧
      (w.sec = .sec4 → w'.drv.user = w.drv.user) := by
  unfold unlockWith at h
  rw [if_neg (by simp)] at h
  split at h
  · rename_i h1
    cases hc : cstr arr with
    | none => rw [hc] at h; cases h
    | some p =>
      rw [hc] at h
      have hp := cstr_length hc
      obtain ⟨a, b, c, d, t, f⟩ := lockIt_ok (by omega) h
      exact ⟨a, f, t, fun _ => ⟨p, rfl, b⟩, fun h4 => by rw [h1] at h4; cases h4⟩
  split at h
  · rename_i h1 h4
    cases hc : cstr arr with
    | none => rw [hc] at h; cases h
    | some p =>
      rw [hc] at h
      have hp := cstr_length hc
      obtain ⟨a, b, c, t, f⟩ := unlockIt_ok (by omega) (sec4_drv (hw.symm.trans h4)).2.2 h
      exact ⟨a, f, t, fun _ => ⟨p, rfl, c⟩, fun _ => c.trans b.symm⟩
  · rename_i h1 h4
    obtain ⟨rfl, hs⟩ := finish_ret h
    exact ⟨(secOf_iff _ _).1 (hw.symm.trans hs), hw, rfl, fun h => h.elim (absurd · h1) (absurd · h4),
      fun _ => rfl⟩

/-- With a wrong secret a locked drive stays locked, and -1 is returned. -/
theorem unlockWith_wrong {e : Env} {qemu freeze : Bool} {arr p : Bytes} {w : W} (hw : Fresh w)
    (ha : arr.length ≤ 32) (h4 : w.sec = .sec4) (hc : cstr arr = some p) (hu : w.drv.user ≠ pad p) :
    ∃ w', unlockWith e qemu freeze arr w = .ret (-1) w' ∧ w'.drv.locked = true := by
  have hl := (sec4_drv (hw.symm.trans h4)).2.2
  have hp := cstr_length hc
  have hcmd : (cmdUnlock (block false p) w.drv).1 = false ∧
      (cmdUnlock (block false p) w.drv).2.locked = true := by
    rw [cmdUnlock_eq (by omega), hl]
    simp only [Bool.true_eq_false, if_false, if_neg (Ne.symm hu)]
    repeat' split
    all_goals exact ⟨rfl, by simp [hl]⟩
  have hx : (unlockDevice e p false w).1 = -1 ∧ (unlockDevice e p false w).2.drv.locked = true := by
    unfold unlockDevice exec
    split
    · exact ⟨by simp [hcmd.1], hcmd.2⟩
    · exact ⟨rfl, hl⟩
    · exact ⟨rfl, hcmd.2⟩
  refine ⟨(unlockDevice e p false w).2, ?_, hx.2⟩
  unfold unlockWith
  rw [if_neg (by simp [h4]), if_neg (by simp [h4]), if_pos h4, hc]
  dsimp only
  unfold unlockIt
  rw [if_pos (by rw [hx.1]; decide)]

/-- Secrets without terminator are read beyond the array. -/
theorem unlockWith_overread {e : Env} {qemu freeze : Bool} {arr : Bytes} {w : W}
    (hs : w.sec = .sec1 ∨ w.sec = .sec4) (hc : (0 : Byte) ∉ arr) :
    unlockWith e qemu freeze arr w = .bad .overread w := by
  have hn := cstr_none.2 hc
  unfold unlockWith
  rcases hs with h | h
  · rw [if_neg (by simp [h]), if_pos h, hn]
  · rw [if_neg (by simp [h]), if_neg (by simp [h]), if_pos h, hn]

/-- **A password of 32 characters**, which the check of its size allows, is not terminated. -/
theorem pw_32_overread {e : Env} {qemu freeze : Bool} {p junk : Bytes} {w : W}
    (hs : w.sec = .sec1 ∨ w.sec = .sec4) (hp : p.length = 32) (hj : junk.length = 32)
    (h0 : (0 : Byte) ∉ p) : unlockDisk e (.pw p) qemu freeze junk w = .bad .overread w := by
  unfold unlockDisk
  have : getSecret (.pw p) junk w.tpm = .ok p w.tpm := by
    unfold getSecret
    dsimp only
    rw [if_neg (by omega), List.drop_eq_nil_of_le (by omega), List.append_nil]
    rfl
  rw [this]
  exact unlockWith_overread hs h0

/-- A drive that is already unlocked and frozen is accepted whatever the secret is. -/
theorem sec6_unchecked {e : Env} {qemu : Bool} {arr : Bytes} {w : W} (h : w.sec = .sec6) :
    unlockWith e qemu true arr w = .ret 0 w := by
  unfold unlockWith finish
  simp [h]

/-- A drive that is unlocked but not frozen (as after a restart without power cycle) stops the boot. -/
theorem sec5_panics {e : Env} {qemu : Bool} {arr : Bytes} {w : W} (h : w.sec = .sec5) :
    unlockWith e qemu true arr w = .panic w := by
  unfold unlockWith finish
  simp [h]

/-! ## Frame -/

/-- What `sata_unlock_disk` may do with the passwords of the drive: nothing, or give a disabled drive the secret as
user password. -/
def Moves (arr : Bytes) (d d' : Drive) : Prop :=
  d'.supported = d.supported ∧ d'.master = d.master ∧
  ((d'.enabled = d.enabled ∧ d'.user = d.user) ∨
    (d.enabled = false ∧ ∃ p, cstr arr = some p ∧ d'.user = pad p ∧ d'.enabled = true))

theorem Moves.refl (arr : Bytes) (d : Drive) : Moves arr d d := ⟨rfl, rfl, .inl ⟨rfl, rfl⟩⟩

/-- State as `d`, except for flags that do not concern passwords, and the same TPM. -/
def Like (a w : W) : Prop :=
  w.tpm = a.tpm ∧ w.drv.supported = a.drv.supported ∧ w.drv.master = a.drv.master ∧
    w.drv.enabled = a.drv.enabled ∧ w.drv.user = a.drv.user

theorem finish_like {a : W} (freeze : Bool) (w : W) (h : Like a w) : Like a (finish freeze w).w := by
  unfold finish; split <;> exact h

theorem identifyThen_like {a : W} (e : Env) {next : W → Out} (hn : ∀ w, Like a w → Like a (next w).w)
    (w : W) (h : Like a w) : Like a (identifyThen e next w).w := by
  have h1 : Like a (identify e w).2 := by
    unfold Like at h ⊢; rw [identify_drv, identify_tpm]; exact h
  unfold identifyThen
  split
  · exact h1
  · exact hn _ h1

theorem freezeThen_like {a : W} (e : Env) (freeze : Bool) {next : W → Out}
    (hn : ∀ w, Like a w → Like a (next w).w) (w : W) (h : Like a w) :
    Like a (freezeThen e freeze next w).w := by
  have h1 : Like a (freezeLock e w).2 := by
    unfold Like at h ⊢
    rw [freezeLock, exec_tpm]
    rcases exec_drv e cmdFreeze w with h2 | h2
    · rw [h2]; exact h
    · rw [h2]; unfold cmdFreeze; split <;> exact h
  unfold freezeThen
  split
  · split
    · exact h1
    · exact hn _ h1
  · exact hn _ h

theorem cmdUnlock_like {a w : W} (data : Bytes) (h : Like a w) :
    Like a { w with drv := (cmdUnlock data w.drv).2 } := by
  unfold cmdUnlock
  repeat' split
  all_goals exact h

theorem unlockIt_like {a : W} (e : Env) (freeze : Bool) (p : Bytes) (w : W) (h : Like a w) :
    Like a (unlockIt e freeze p w).w := by
  have h1 : Like a (unlockDevice e p false w).2 := by
    have h3 := cmdUnlock_like (block false p) h
    unfold Like at h h3 ⊢
    rw [unlockDevice, exec_tpm]
    rcases exec_drv e (cmdUnlock (block false p)) w with h2 | h2
    · rw [h2]; exact h
    · rw [h2]; exact h3
  unfold unlockIt
  split
  · exact h1
  · refine identifyThen_like e (fun w h => ?_) _ h1
    unfold unlocked
    split
    · exact freezeThen_like e freeze (identifyThen_like e (finish_like freeze)) w h
    · exact finish_like freeze w h

/-- The driver knows the state of the drive, or the identification failed. -/
def Known (w : W) : Prop := w.sec = secOf w.drv ∨ w.sec = .sec0

/-- **Passwords, however the function ends.** -/
theorem unlockWith_moves (e : Env) (qemu freeze : Bool) {arr : Bytes} {w : W} (hk : Known w)
    (ha : arr.length ≤ 32) : (unlockWith e qemu freeze arr w).w.tpm = w.tpm ∧
      Moves arr w.drv (unlockWith e qemu freeze arr w).w.drv := by
  have hl : ∀ w', Like w w' → w'.tpm = w.tpm ∧ Moves arr w.drv w'.drv :=
    fun w' h => ⟨h.1, h.2.1, h.2.2.1, .inl h.2.2.2⟩
  have hw : Like w w := ⟨rfl, rfl, rfl, rfl, rfl⟩
  unfold unlockWith
  split
  · exact hl _ hw
  split
  · rename_i h1
    cases hc : cstr arr with
    | none => exact hl _ hw
    | some p =>
      have hp := cstr_length hc
      have hd : w.drv.enabled = false := by
        rcases hk with h | h
        · exact (sec1_drv (h.symm.trans h1)).2.1
        · rw [h1] at h; cases h
      have h2 : Like w (setPassword e p w).2 ∨
          Like { w with drv := { w.drv with user := pad p, enabled := true, maximum := false } } (setPassword e p w).2 := by
        unfold Like
        rw [setPassword, exec_tpm]
        rcases exec_drv e (cmdSetPassword (block false p)) w with h2 | h2
        · rw [h2]; exact .inl hw
        · rw [h2, cmdSet_eq (by omega)]
          split
          · exact .inl hw
          · exact .inr ⟨rfl, rfl, rfl, rfl, rfl⟩
      have h3 : ∀ a, Like a (setPassword e p w).2 → Like a (lockIt e freeze p w).w := by
        intro a h
        unfold lockIt
        split
        · exact h
        · exact freezeThen_like e freeze (identifyThen_like e (finish_like freeze)) _ h
      rcases h2 with h2 | h2
      · exact hl _ (h3 _ h2)
      · have h4 := h3 _ h2
        exact ⟨h4.1, h4.2.1, h4.2.2.1, .inr ⟨hd, p, hc, h4.2.2.2.2, h4.2.2.2.1⟩⟩
  split
  · cases hc : cstr arr with
    | none => exact hl _ hw
    | some p => exact hl _ (unlockIt_like e freeze p w hw)
  · exact hl _ (finish_like freeze w hw)

/-! ## Progress -/

/-- No command to the drive fails from now on. -/
def DQuiet (e : Env) (w : W) : Prop := ∀ j, w.k ≤ j → e.fault j = .none

theorem exec_quiet {e : Env} {w : W} (h : DQuiet e w) (cmd : Drive → Bool × Drive) :
    exec e cmd w = (if (cmd w.drv).1 = true then 0 else -1, { w with drv := (cmd w.drv).2, k := w.k + 1 }) := by
  unfold exec; rw [h w.k (Nat.le_refl _)]

theorem identify_quiet {e : Env} {w : W} (h : DQuiet e w) :
    identify e w = (0, { w with sec := secOf w.drv, k := w.k + 1 }) := by
  unfold identify
  rw [exec_quiet h]
  simp [decode_words]

theorem end_quiet {e : Env} {freeze : Bool} {w : W} (h : DQuiet e w) (hs : w.drv.supported = true)
    (he : w.drv.enabled = true) (hl : w.drv.locked = false) (hf : w.drv.frozen = false) :
    ∃ w', freezeThen e freeze (identifyThen e (finish freeze)) w = .ret 0 w' := by
  unfold freezeThen
  cases freeze with
  | true =>
    have hx : freezeLock e w = (0, { w with drv := { w.drv with frozen := true }, k := w.k + 1 }) := by
      unfold freezeLock
      rw [exec_quiet h]
      simp [cmdFreeze, hs, hl]
    rw [if_pos rfl, hx, if_neg (by simp)]
    have hq : DQuiet e { w with drv := { w.drv with frozen := true }, k := w.k + 1 } :=
      fun j hj => h j (by simp only at hj; omega)
    unfold identifyThen
    rw [identify_quiet hq, if_neg (by simp)]
    refine ⟨{ w with drv := { w.drv with frozen := true }, sec := .sec6, k := w.k + 1 + 1 }, ?_⟩
    simp [finish, secOf, hs, he, hl]
  | false =>
    rw [if_neg (by simp)]
    unfold identifyThen
    rw [identify_quiet h, if_neg (by simp)]
    refine ⟨{ w with sec := .sec5, k := w.k + 1 }, ?_⟩
    simp [finish, secOf, hs, he, hl, hf]

theorem lockIt_quiet {e : Env} {freeze : Bool} {p : Bytes} {w : W} (h : DQuiet e w)
    (hp : p.length ≤ 32) (hs : w.drv.supported = true) (hl : w.drv.locked = false)
    (hf : w.drv.frozen = false) : ∃ w', lockIt e freeze p w = .ret 0 w' := by
  have hx : setPassword e p w = (0, { w with
      drv := { w.drv with user := pad p, enabled := true, maximum := false }, k := w.k + 1 }) := by
    unfold setPassword
    rw [exec_quiet h, cmdSet_eq hp]
    simp [hs, hl, hf]
  unfold lockIt
  rw [hx, if_neg (by simp)]
  exact end_quiet (fun j hj => h j (by simp only at hj; omega)) hs rfl hl hf

theorem unlockIt_quiet {e : Env} {freeze : Bool} {p : Bytes} {w : W} (h : DQuiet e w)
    (hp : p.length ≤ 32) (hs : w.drv.supported = true) (he : w.drv.enabled = true)
    (hl : w.drv.locked = true) (hf : w.drv.frozen = false) (ht : w.drv.tries ≠ 0)
    (hu : w.drv.user = pad p) : ∃ w', unlockIt e freeze p w = .ret 0 w' := by
  have hx : unlockDevice e p false w = (0, { w with drv := { w.drv with locked := false }, k := w.k + 1 }) := by
    unfold unlockDevice
    rw [exec_quiet h, cmdUnlock_eq hp]
    simp [hs, hl, hf, ht, hu]
  unfold unlockIt
  rw [hx, if_neg (by simp)]
  have hq : DQuiet e { w with drv := { w.drv with locked := false }, k := w.k + 1 } :=
    fun j hj => h j (by simp only at hj; omega)
  unfold identifyThen
  rw [identify_quiet hq, if_neg (by simp)]
  unfold unlocked
  rw [if_pos (by simp [secOf, hs, he, hf])]
  exact end_quiet (fun j hj => h j (by simp only at hj; omega)) hs he rfl hf

/-! ## The sealed secret -/

/-- What the index of the TPM gives to who may unseal it. -/
def Yields (c : Cfg) (hint auth : Bytes) (nv : Nat → Option Bytes) (sec : Bytes) : Prop :=
  ∃ b e pub priv k o, nv c.nvBase = some b ∧ Layout b e priv ∧ e.length < 65536 ∧ priv.length < 65536 ∧
    e.length ≤ c.pubCap ∧ priv.length ≤ c.privCap ∧
    c.chip.decPub (e ++ c.junk.drop e.length) = some pub ∧ c.chip.unwrap pub priv = some o ∧
    HintKey c hint k ∧ Opens c.chip k auth o ∧ o.secret = sec

theorem yields_unique {c : Cfg} {hint auth : Bytes} {nv : Nat → Option Bytes} {sec sec' : Bytes}
    (h : Yields c hint auth nv sec) (h' : Yields c hint auth nv sec') : sec = sec' := by
  obtain ⟨b, e, pub, priv, k, o, h1, h2, h3, h4, -, -, h5, h6, -, -, rfl⟩ := h
  obtain ⟨b', e', pub', priv', k', o', h1', h2', h3', h4', -, -, h5', h6', -, -, rfl⟩ := h'
  rw [h1] at h1'
  cases h1'
  obtain ⟨rfl, rfl⟩ := layout_unique h2 h2' h3 h3' h4 h4'
  rw [h5] at h5'
  cases h5'
  rw [h6] at h6'
  cases h6'
  rfl

theorem yields_of_unseal {c : Cfg} {hint mem auth sec : Bytes} {p : BitVec 16} {cap : Nat} {s s' : S}
    (hm : mem.length < 65536) (h : unsealAuth c hint mem p 0 auth cap s = .ok sec s') :
    Yields c hint auth s.nv sec ∧ sec.length ≤ cap := by
  unfold unsealAuth at h
  rw [bind_ok] at h
  obtain ⟨r, s1, h1, h2⟩ := h
  obtain ⟨b, e, a1, a2, a3, a4, a5, a6, a7, a8, a9⟩ := readBlob_ok h1
  obtain ⟨_, _, k, o, b1, b2, b3, b4, b5, b6⟩ := unseal_sound hm h2
  exact ⟨⟨b, e, r.1, r.2, k, o, a1, a2, a3, a4, a5, a6, a7, b3, b1, b4, b5.symm⟩, b6⟩

/-- The policy is signed for these values of the PCRs. -/
def Signed (c : Cfg) (hint mem : Bytes) (p : BitVec 16) (pcr : Nat → Bytes) : Prop :=
  4 ≤ p.toNat ∧ p.toNat ≤ 512 ∧ p.toNat ≤ mem.length ∧ ∃ k, HintKey c hint k ∧
    c.chip.verify k ((mem.drop 4).take (p.toNat - 4))
      (toSign c.chip (Covered (num32 mem) c.pcrCap) pcr) = true

theorem readBlob_layout {c : Cfg} {i : Nat} {b e pub priv : Bytes} {s : S} (hq : Quiet c.chip s)
    (hb : s.nv i = some b) (hl : Layout b e priv) (he : e.length ≤ c.pubCap) (hc : e.length < 65536)
    (hp : priv.length ≤ c.privCap) (hc' : priv.length < 65536)
    (hd : c.chip.decPub (e ++ c.junk.drop e.length) = some pub) :
    ∃ s', readBlob c i [] s = .ok (pub, priv) s' ∧ s'.nv = s.nv ∧ s'.pcr = s.pcr ∧ s.k ≤ s'.k := by
  obtain ⟨r, rfl⟩ := hl
  have hbl : (enc16 e.length ++ e ++ enc16 priv.length ++ priv ++ r).length =
      2 + e.length + 2 + priv.length + r.length := by simp; omega
  unfold readBlob
  rw [if_neg (by simp), bind_eq, nvRead_quiet hq hb (by omega)]
  have e1 : List.take 2 (List.drop 0 (enc16 e.length ++ e ++ enc16 priv.length ++ priv ++ r)) =
      enc16 e.length := by simp [enc16]
  simp only [Nat.lt_irrefl, if_false, e1]
  rw [num16_enc16 (by omega), bind_eq, nvRead_quiet (b := enc16 e.length ++ e ++ enc16 priv.length ++ priv ++ r) (hq.step (by simp)) (by exact hb) (by omega)]
  have e2 : List.take e.length (List.drop 2 (enc16 e.length ++ e ++ enc16 priv.length ++ priv ++ r)) =
      e := by simp [enc16]
  rw [if_neg (by omega)]
  simp only [e2]
  rw [bind_eq, call_quiet (hq.step (by simp; omega))]
  simp only [hd]
  rw [bind_eq, nvRead_quiet (b := enc16 e.length ++ e ++ enc16 priv.length ++ priv ++ r) (hq.step (by simp; omega)) (by exact hb) (by omega)]
  have e3 : List.take 2 (List.drop (2 + e.length)
      (enc16 e.length ++ e ++ enc16 priv.length ++ priv ++ r)) = enc16 priv.length := by
    have : enc16 e.length ++ e ++ enc16 priv.length ++ priv ++ r =
      (enc16 e.length ++ e) ++ (enc16 priv.length ++ (priv ++ r)) := by simp
    rw [this, List.drop_left' (by simp), List.take_left' (by simp)]
  simp only [Nat.lt_irrefl, if_false, e3]
  rw [num16_enc16 (by omega), bind_eq, nvRead_quiet (b := enc16 e.length ++ e ++ enc16 priv.length ++ priv ++ r) (hq.step (by simp; omega)) (by exact hb) (by omega)]
  have e4 : List.take priv.length (List.drop (2 + e.length + 2)
      (enc16 e.length ++ e ++ enc16 priv.length ++ priv ++ r)) = priv := by
    have : enc16 e.length ++ e ++ enc16 priv.length ++ priv ++ r =
      (enc16 e.length ++ e ++ enc16 priv.length) ++ (priv ++ r) := by simp
    rw [this, List.drop_left' (by simp; omega), List.take_left' rfl]
  rw [if_neg (by omega)]
  simp only [e4]
  exact ⟨_, rfl, rfl, rfl, by simp; omega⟩

theorem unsealSized_fst (c : Cfg) (hint mem : Bytes) (p : BitVec 16) (auth : Bytes) (cap : Nat) (s : S) :
    (unsealSized c hint mem p auth cap s).1 = unsealAuth c hint mem p 0 auth cap s := by
  unfold unsealSized unsealAuth
  rw [bind_eq]
  cases readBlob c (c.nvBase + 0) [] s <;> rfl

/-- **The secret of the index is found** in a signed state. -/
theorem secret_found {c : Cfg} {b64 : Bytes → Bytes} {hint mem auth sec : Bytes} {p : BitVec 16} {s : S}
    (hq : Quiet c.chip s) (ha : auth.length ≤ c.authCap) (hy : Yields c hint auth s.nv sec)
    (hs : sec.length ≤ 32) (hg : Signed c hint mem p s.pcr) :
    ∃ s', tpmSecret c b64 hint mem p auth s = .ok sec s' ∧ s'.nv = s.nv := by
  obtain ⟨b, e, pub, priv, k, o, h1, h2, h3, h4, h5, h6, h7, h8, h9, h10, rfl⟩ := hy
  obtain ⟨g1, g2, g3, k', g4, g5⟩ := hg
  cases hintKey_unique h9 g4
  obtain ⟨s1, r1, r2, r3, r4⟩ := readBlob_layout (i := c.nvBase + 0) hq h1 h2 h5 h3 h6 h4 h7
  obtain ⟨s2, u1⟩ := unseal_complete (cap := 32) (hq.step r4) g1 g3 ha h9 (by rw [r3]; exact g5) h8 h10 hs
  have hu : unsealAuth c hint mem p 0 auth 32 s = .ok o.secret s2 := by
    unfold unsealAuth; rw [bind_eq, r1]; exact u1
  have hf := unseal_frame (c := c) (hint := hint) (mem := mem) (p := p) (idx := 0) (auth := auth) (cap := 32) s
  rw [hu] at hf
  refine ⟨s2, ?_, hf.1⟩
  unfold tpmSecret
  rw [if_neg (by omega)]
  have h0 := unsealSized_fst c hint mem p auth 32 s
  rw [hu] at h0
  generalize unsealSized c hint mem p auth 32 s = x at h0
  obtain ⟨x1, x2⟩ := x
  cases h0
  rfl

/-- `m` leaves the indices alone, and fails with a code for a missing index only if it is missing. -/
def Calm {α : Type} (i : Nat) (m : T α) : Prop := ∀ s, (m s).st.nv = s.nv ∧
  ∀ rc s', m s = .err rc s' → isHandle rc = true → s.nv i = none

theorem Calm.bind {α β : Type} {i : Nat} {m : T α} {f : α → T β} (h : Calm i m) (hf : ∀ a, Calm i (f a)) :
    Calm i (m >>= f) := by
  intro s
  have h1 := h s
  rw [bind_eq]
  cases hm : m s with
  | ok a s1 =>
    rw [hm] at h1
    have h2 := hf a s1
    have h3 : s1.nv = s.nv := h1.1
    rw [h3] at h2
    exact h2
  | err rc s1 =>
    rw [hm] at h1
    exact ⟨h1.1, fun _ _ h => by cases h; exact h1.2 _ _ rfl⟩
  | bad b s1 => rw [hm] at h1; exact ⟨h1.1, fun _ _ h => nomatch h⟩

theorem Calm.call {α : Type} {i : Nat} {c : Chip} {f : T α} (hn : ∀ j, isHandle (c.fault j) = false)
    (hf : Calm i f) : Calm i (Tpm.call c f) := by
  intro s
  unfold Tpm.call
  split
  · exact hf { s with k := s.k + 1 }
  · exact ⟨rfl, fun _ _ h hh => by cases h; rw [hn] at hh; cases hh⟩

theorem Calm.pure {α : Type} {i : Nat} (a : α) : Calm i (Pure.pure a : T α) :=
  fun _ => ⟨rfl, fun _ _ h => nomatch h⟩

theorem calm_nvRead {i off n cap : Nat} {e : Bad} {c : Chip} (hn : ∀ j, isHandle (c.fault j) = false) :
    Calm i (nvRead c i off n cap e) := by
  refine Calm.call hn fun s => ?_
  cases hb : s.nv i with
  | none => exact ⟨rfl, fun _ _ _ _ => rfl⟩
  | some b =>
    dsimp only
    split
    · split
      · exact ⟨rfl, fun _ _ h => nomatch h⟩
      · exact ⟨rfl, fun _ _ h => nomatch h⟩
    · exact ⟨rfl, fun _ _ h hh => by cases h; exact absurd hh (by decide)⟩

theorem calm_readBlob {i : Nat} {c : Cfg} (hn : ∀ j, isHandle (c.chip.fault j) = false) :
    Calm i (readBlob c i []) := by
  unfold readBlob
  rw [if_neg (by simp)]
  refine (calm_nvRead hn).bind fun _ => (calm_nvRead hn).bind fun _ => Calm.bind ?_ fun _ =>
      (calm_nvRead hn).bind fun _ => (calm_nvRead hn).bind fun _ => Calm.pure _
  refine Calm.call hn fun s => ?_
  split
  · exact ⟨rfl, fun _ _ h => nomatch h⟩
  · exact ⟨rfl, fun _ _ h hh => by cases h; exact absurd hh (by decide)⟩

theorem randomB64_ok {c : Cfg} {b64 : Bytes → Bytes} {s s' : S} {sec : Bytes}
    (h : randomB64 c b64 s = .ok sec s') : sec.length ≤ 32 ∧ ∃ p, cstr sec = some p := by
  unfold randomB64 at h
  rw [bind_ok] at h
  obtain ⟨r, s1, h1, h2⟩ := h
  have hz : ∀ l : Bytes, ∃ p, cstr (l ++ [0]) = some p := by
    intro l
    cases hc : cstr (l ++ [0]) with
    | some p => exact ⟨p, rfl⟩
    | none => exact absurd (List.mem_append.2 (.inr List.mem_cons_self)) (cstr_none.1 hc)
  split at h2
  · cases h2
  split at h2
  · cases h2
    exact ⟨by simp; omega, hz _⟩
  · cases h2
    exact ⟨by simp; omega, hz _⟩

theorem createSecret_ok {c : Cfg} {b64 : Bytes → Bytes} {hint mem auth sec : Bytes} {p : BitVec 16}
    {sz : Nat} {s s' : S} (hm : mem.length < 65536)
    (h : createSecret c b64 hint mem p auth sz s = .ok sec s') :
    sec.length ≤ 32 ∧ (∃ p, cstr sec = some p) ∧ Yields c hint auth s'.nv sec := by
  unfold createSecret at h
  split at h
  · cases h
  rw [bind_ok] at h
  obtain ⟨x, s1, h1, h⟩ := h
  rw [bind_ok] at h
  obtain ⟨u, s2, h2, h⟩ := h
  rw [bind_ok] at h
  obtain ⟨chk, s3, h3, h⟩ := h
  split at h
  · rename_i he
    cases h
    obtain ⟨ha, hb⟩ := randomB64_ok h1
    have hf := unseal_frame (c := c) (hint := hint) (mem := mem) (p := p) (idx := 0) (auth := auth) (cap := c.maxSeal) s2
    rw [h3] at hf
    have hn : s'.nv = s2.nv := hf.1
    rw [hn, he]
    exact ⟨he ▸ ha, he ▸ hb, (yields_of_unseal hm h3).1⟩
  · cases h

/-- **The sealed secret is replaced only if there is none**, provided that no failing call of the library reports a
missing index. -/
theorem secret_cases {c : Cfg} {b64 : Bytes → Bytes} {hint mem auth : Bytes} {p : BitVec 16} (s : S)
    (hn : ∀ j, isHandle (c.chip.fault j) = false) (hm : mem.length < 65536) :
    ((tpmSecret c b64 hint mem p auth s).st.nv = s.nv ∧
      ∀ sec s', tpmSecret c b64 hint mem p auth s = .ok sec s' → Yields c hint auth s.nv sec ∧ sec.length ≤ 32) ∨
    (s.nv c.nvBase = none ∧ ∀ sec s', tpmSecret c b64 hint mem p auth s = .ok sec s' →
      sec.length ≤ 32 ∧ (∃ p, cstr sec = some p) ∧ Yields c hint auth s'.nv sec) := by
  have hf := unseal_frame (c := c) (hint := hint) (mem := mem) (p := p) (idx := 0) (auth := auth) (cap := 32) s
  have hy := fun sec s' => yields_of_unseal (c := c) (hint := hint) (auth := auth) (sec := sec) (p := p)
    (cap := 32) (s := s) (s' := s') hm
  rw [← unsealSized_fst] at hf
  have h0 := unsealSized_fst c hint mem p auth 32 s
  rw [← h0] at hy
  have hc := calm_readBlob hn (i := c.nvBase + 0) s
  unfold tpmSecret
  split
  · exact .inl ⟨rfl, fun _ _ h => nomatch h⟩
  unfold unsealSized at hf hy ⊢
  cases hr : readBlob c (c.nvBase + 0) [] s with
  | ok b s1 =>
    rw [hr] at hf hy
    dsimp only at hf hy ⊢
    left
    cases hu : unsealBlob c hint mem p b.1 b.2 auth 32 s1 with
    | ok sec s2 =>
      rw [hu] at hf hy
      exact ⟨hf.1, fun _ _ h => hy _ _ h⟩
    | err rc s2 =>
      rw [hu] at hf
      dsimp only
      split
      · rename_i hh
        by_cases hp : p = 0
        · exfalso
          unfold unsealBlob at hu
          rw [if_pos hp] at hu
          cases hu
          exact absurd hh (by decide)
        · rw [if_neg hp, createSecret, if_pos (by omega)]
          exact ⟨hf.1, fun _ _ h => nomatch h⟩
      · exact ⟨hf.1, fun _ _ h => nomatch h⟩
    | bad b s2 =>
      rw [hu] at hf
      exact ⟨hf.1, fun _ _ h => nomatch h⟩
  | err rc s1 =>
    rw [hr] at hf hc
    dsimp only at hf ⊢
    split
    · rename_i hh
      exact .inr ⟨hc.2 _ _ rfl hh, fun _ _ h => createSecret_ok hm h⟩
    · exact .inl ⟨hf.1, fun _ _ h => nomatch h⟩
  | bad b s1 =>
    rw [hr] at hf
    exact .inl ⟨hf.1, fun _ _ h => nomatch h⟩

/-! ## Boots -/

/-- What is fixed: build, encoding, hash of the key, password of the object, drive, `TARGET_x86_fsp_qemu`. -/
structure Sys where
  c : Cfg
  b64 : Bytes → Bytes
  hint : Bytes
  auth : Bytes
  e : Env
  qemu : Bool

/-- What may differ between boots: PCRs measured so far, policy of stage 1, request to freeze, contents of the stack,
failure of the first identification. -/
structure Step where
  pcr : Nat → Bytes
  mem : Bytes
  psz : BitVec 16
  freeze : Bool
  junk : Bytes
  unidentified : Bool

/-- Power cycle and identification of the drive. -/
def restart (st : Step) (w : W) : W :=
  { tpm := { w.tpm with pcr := st.pcr, session := none, key := none, obj := none }
    drv := powerCycle w.drv
    sec := if st.unidentified = true then .sec0 else secOf (powerCycle w.drv)
    k := w.k }

/-- One boot. -/
def boot (y : Sys) (st : Step) (w : W) : Out :=
  unlockDisk y.e (.tpm y.c y.b64 y.hint st.mem st.psz y.auth) y.qemu st.freeze st.junk (restart st w)

/-- A sequence of boots. -/
def boots (y : Sys) : List Step → W → W
  | [], w => w
  | st :: r, w => boots y r (boot y st w).w

/-- The drive is not locked with a password that nobody knows: if it is protected, the secret in the TPM opens it. -/
def Keyed (y : Sys) (w : W) : Prop :=
  w.drv.enabled = true → ∃ sec p, Yields y.c y.hint y.auth w.tpm.nv sec ∧ sec.length ≤ 32 ∧
    cstr sec = some p ∧ w.drv.user = pad p

/-- The secret in the TPM is terminated, as those that this code makes. -/
def Own (y : Sys) (w : W) : Prop := ∀ sec, Yields y.c y.hint y.auth w.tpm.nv sec → (0 : Byte) ∈ sec

/-- The same at the beginning of all boots: nothing else writes the index. -/
def Owns (y : Sys) : List Step → W → Prop
  | [], _ => True
  | st :: r, w => Own y w ∧ Owns y r (boot y st w).w

theorem own_cstr {y : Sys} {w : W} (h : Own y w) {sec : Bytes}
    (hy : Yields y.c y.hint y.auth w.tpm.nv sec) : ∃ p, cstr sec = some p := by
  cases hc : cstr sec with
  | some p => exact ⟨p, rfl⟩
  | none => exact absurd (h _ hy) (cstr_none.1 hc)

theorem array_length {sec junk : Bytes} (hs : sec.length ≤ 32) (hj : junk.length = 32) :
    (sec ++ junk.drop sec.length).length ≤ 32 := by
  simp; omega

/-- **One boot keeps the invariant**, whatever fails. -/
theorem boot_keyed {y : Sys} {st : Step} {w : W} (hn : ∀ j, isHandle (y.c.chip.fault j) = false)
    (ho : Own y w) (hm : st.mem.length < 65536) (hj : st.junk.length = 32) (h : Keyed y w) :
    Keyed y (boot y st w).w := by
  have hk : ∀ t, Known { restart st w with tpm := t } := by
    intro t
    unfold Known restart
    dsimp only
    split
    · exact .inr rfl
    · exact .inl rfl
  have hc := secret_cases (c := y.c) (b64 := y.b64) (hint := y.hint) (mem := st.mem) (auth := y.auth)
    (p := st.psz) (restart st w).tpm hn hm
  unfold boot unlockDisk getSecret
  dsimp only
  rw [bind_eq]
  generalize hr : tpmSecret y.c y.b64 y.hint st.mem st.psz y.auth (restart st w).tpm = r at hc
  -- without a secret, the drive is not touched
  have hstop : Keyed y { restart st w with tpm := r.st } := by
    intro he
    rcases hc with ⟨h1, _⟩ | ⟨h1, _⟩
    · rw [h1]; exact h he
    · obtain ⟨_, _, ⟨b, _, _, _, _, _, hb, _⟩, _⟩ := h he
      have : w.tpm.nv y.c.nvBase = none := h1
      rw [this] at hb
      cases hb
  cases r with
  | err rc s1 => exact hstop
  | bad b s1 => exact hstop
  | ok sec s1 =>
    show Keyed y (unlockWith y.e y.qemu st.freeze (sec ++ st.junk.drop sec.length) _).w
    have hsec : sec.length ≤ 32 ∧ (∃ p, cstr sec = some p) ∧ Yields y.c y.hint y.auth s1.nv sec := by
      rcases hc with ⟨h1, h2⟩ | ⟨_, h2⟩
      · obtain ⟨h3, h4⟩ := h2 _ _ rfl
        have h1 : s1.nv = _ := h1
        exact ⟨h4, own_cstr ho h3, by rw [h1]; exact h3⟩
      · exact h2 _ _ rfl
    obtain ⟨hs, ⟨p, hp⟩, hy⟩ := hsec
    obtain ⟨m1, _, _, m2⟩ := unlockWith_moves y.e y.qemu st.freeze (hk s1) (array_length hs hj)
    intro he
    rw [m1]
    rcases m2 with ⟨m2, m3⟩ | ⟨_, q, m2, m3, _⟩
    · rw [m3]
      exact hstop (m2.symm.trans he)
    · rw [cstr_more _ hp] at m2
      cases m2
      exact ⟨sec, p, hy, hs, hp, m3⟩

/-- **No lock-out**: after any number of boots, with any failures of the drive and of the TPM (as long as they do not
pretend that the index is missing), a protected drive has a password that the TPM holds. -/
theorem boots_keyed {y : Sys} (l : List Step) {w : W} (hn : ∀ j, isHandle (y.c.chip.fault j) = false)
    (ho : Owns y l w) (hl : ∀ st ∈ l, st.mem.length < 65536 ∧ st.junk.length = 32) (h : Keyed y w) :
    Keyed y (boots y l w) := by
  induction l generalizing w with
  | nil => exact h
  | cons st r ih =>
    have h1 := hl st List.mem_cons_self
    exact ih ho.2 (fun x hx => hl x (List.mem_cons_of_mem _ hx)) (boot_keyed hn ho.1 h1.1 h1.2 h)

theorem boot_supported {y : Sys} {st : Step} {w : W} (hm : st.mem.length < 65536) (hj : st.junk.length = 32)
    (hn : ∀ j, isHandle (y.c.chip.fault j) = false) :
    (boot y st w).w.drv.supported = w.drv.supported := by
  have hk : ∀ t, Known { restart st w with tpm := t } := by
    intro t
    unfold Known restart
    dsimp only
    split
    · exact .inr rfl
    · exact .inl rfl
  have hc := secret_cases (c := y.c) (b64 := y.b64) (hint := y.hint) (mem := st.mem) (auth := y.auth)
    (p := st.psz) (restart st w).tpm hn hm
  unfold boot unlockDisk getSecret
  dsimp only
  rw [bind_eq]
  generalize hr : tpmSecret y.c y.b64 y.hint st.mem st.psz y.auth (restart st w).tpm = r at hc
  cases r with
  | err rc s1 => rfl
  | bad b s1 => rfl
  | ok sec s1 =>
    show (unlockWith y.e y.qemu st.freeze (sec ++ st.junk.drop sec.length) _).w.drv.supported = _
    have hs : sec.length ≤ 32 := by
      rcases hc with ⟨_, h2⟩ | ⟨_, h2⟩
      · exact (h2 _ _ rfl).2
      · exact (h2 _ _ rfl).1
    exact (unlockWith_moves y.e y.qemu st.freeze (hk s1) (array_length hs hj)).2.1

/-- **A protected drive is opened** by every boot in a signed state in which nothing fails. -/
theorem boot_opens {y : Sys} {st : Step} {w : W} (hq : Quiet y.c.chip w.tpm) (hd : DQuiet y.e w)
    (ha : y.auth.length ≤ y.c.authCap) (hg : Signed y.c y.hint st.mem st.psz st.pcr)
    (hi : st.unidentified = false) (hs : w.drv.supported = true)
    (he : w.drv.enabled = true) (h : Keyed y w) :
    ∃ w', boot y st w = .ret 0 w' ∧ Safe st.freeze w'.drv ∧ w'.drv.user = w.drv.user := by
  obtain ⟨sec, p, hy, hl, hp, hu⟩ := h he
  obtain ⟨s1, h1, h2⟩ := secret_found (b64 := y.b64) (s := (restart st w).tpm)
    (mem := st.mem) (p := st.psz) (fun j hj => hq j hj) ha hy hl hg
  have hb : boot y st w = unlockWith y.e y.qemu st.freeze (sec ++ st.junk.drop sec.length)
      { restart st w with tpm := s1 } := by
    unfold boot unlockDisk getSecret
    dsimp only
    rw [bind_eq, h1]
    rfl
  have h4 : ({ restart st w with tpm := s1 } : W).sec = .sec4 := by
    simp [restart, hi, powerCycle, secOf, hs, he]
  have hpl := cstr_length hp
  obtain ⟨w', h5⟩ := unlockIt_quiet (freeze := st.freeze) (p := p) (w := { restart st w with tpm := s1 })
    (e := y.e) (fun j hj => hd j hj) (by omega) hs he he rfl (by simp [restart, powerCycle]) hu
  have h6 : boot y st w = .ret 0 w' := by
    rw [hb]
    have h4' : (restart st w).sec = .sec4 := h4
    unfold unlockWith
    rw [if_neg (by simp [h4']), if_neg (by simp [h4']), if_pos h4, cstr_more _ hp]
    exact h5
  obtain ⟨a, b, c, d⟩ := unlockIt_ok (by omega) (by exact he) h5
  exact ⟨w', h6, a, c.trans hu.symm⟩

theorem boot_new {y : Sys} {st : Step} {w : W} {sec p : Bytes} {s1 : S} (hd : DQuiet y.e w)
    (hi : st.unidentified = false) (hs : w.drv.supported = true)
    (he : w.drv.enabled = false) (hl : sec.length ≤ 32) (hp : cstr sec = some p)
    (h1 : tpmSecret y.c y.b64 y.hint st.mem st.psz y.auth (restart st w).tpm = .ok sec s1) :
    ∃ w', boot y st w = .ret 0 w' ∧ Safe st.freeze w'.drv ∧ w'.drv.user = pad p ∧ w'.tpm = s1 := by
  have hb : boot y st w = unlockWith y.e y.qemu st.freeze (sec ++ st.junk.drop sec.length)
      { restart st w with tpm := s1 } := by
    unfold boot unlockDisk getSecret
    dsimp only
    rw [bind_eq, h1]
    rfl
  have h4 : (restart st w).sec = .sec1 := by
    simp [restart, hi, powerCycle, secOf, hs, he]
  have hpl := cstr_length hp
  obtain ⟨w', h5⟩ := lockIt_quiet (freeze := st.freeze) (p := p) (w := { restart st w with tpm := s1 })
    (e := y.e) (fun j hj => hd j hj) (by omega) hs he rfl
  have h6 : boot y st w = .ret 0 w' := by
    rw [hb]
    unfold unlockWith
    rw [if_neg (by simp [h4]), if_pos h4, cstr_more _ hp]
    exact h5
  obtain ⟨a, b, _, _, c, _⟩ := lockIt_ok (by omega) h5
  exact ⟨w', h6, a, b, c⟩

/-- PCRs and number of calls. -/
theorem store_keeps {c : Cfg} {i : Nat} {pub priv : Bytes} (a : S) :
    Pres (fun s => a.k ≤ s.k ∧ s.pcr = a.pcr) (storeBlob c i pub priv []) := by
  have hc : ∀ {α : Type} {f : T α}, Pres (fun s => a.k ≤ s.k ∧ s.pcr = a.pcr) f →
      Pres (fun s => a.k ≤ s.k ∧ s.pcr = a.pcr) (Tpm.call c.chip f) :=
    fun hf => Pres.call (fun s h => ⟨by have := h.1; simp only; omega, h.2⟩) hf
  have hw : ∀ off d, Pres (fun s => a.k ≤ s.k ∧ s.pcr = a.pcr) (nvWrite c.chip i off d) := by
    intro off d
    refine hc fun s h => ?_
    repeat' split
    all_goals exact h
  unfold storeBlob
  rw [if_neg (by simp)]
  refine Pres.bind (hc fun s h => by split <;> exact h) fun e => Pres.bind ?_ fun _ =>
    (hw _ _).bind fun _ => (hw _ _).bind fun _ => (hw _ _).bind fun _ => hw _ _
  intro s h
  have h1 : Pres (fun s => a.k ≤ s.k ∧ s.pcr = a.pcr) (nvCreate c.chip i (2 + e.length + 2 + priv.length)) := by
    refine hc fun s h => ?_
    split <;> exact h
  have h2 := h1 s h
  dsimp only
  cases hx : nvCreate c.chip i (2 + e.length + 2 + priv.length) s with
  | ok u s1 => rw [hx] at h2; exact h2
  | bad b s1 => rw [hx] at h2; exact h2
  | err rc s1 => rw [hx] at h2; dsimp only; split <;> exact h2

/-- Sealing succeeds if nothing fails. -/
theorem sealAuth_quiet {c : Cfg} {hint auth sec : Bytes} {psz : Nat} {s : S} {k : PubKey} (hq : Quiet c.chip s)
    (ha : auth.length ≤ c.authCap) (hz : psz ≠ 0) (hl : sec.length ≤ c.maxSeal) (hk : HintKey c hint k)
    (he : ∀ n, (c.chip.encPub (c.chip.wrap n (sealedObj c.chip k sec auth)).1).length ≤ c.pubCap) :
    ∃ s', sealAuth c hint psz 0 sec auth s = .ok () s' ∧ s.k ≤ s'.k ∧ s'.pcr = s.pcr := by
  obtain ⟨n, s2, h2, k2, _, p2⟩ := sealBlob_quiet (c := c) (auth := auth) hq hz hl hk
  obtain ⟨s3, h3, n3, k3, p3⟩ := delete_quiet (c := c) (i := c.nvBase + 0) (s := s2) (hq.step k2)
  obtain ⟨s4, h4⟩ := storeBlob_quiet (c := c) (i := c.nvBase + 0)
    (pub := (c.chip.wrap n (sealedObj c.chip k sec auth)).1)
    (priv := (c.chip.wrap n (sealedObj c.chip k sec auth)).2) (s := s3) (hq.step (by omega)) n3 (he _)
  have hm := store_keeps (c := c) (i := c.nvBase + 0) (pub := (c.chip.wrap n (sealedObj c.chip k sec auth)).1)
    (priv := (c.chip.wrap n (sealedObj c.chip k sec auth)).2) s3 s3 ⟨Nat.le_refl _, rfl⟩
  rw [h4] at hm
  refine ⟨s4, ?_, ?_, ?_⟩
  · unfold sealAuth
    rw [if_neg (by omega), bind_eq, h2]
    dsimp only
    rw [bind_eq, h3]
    exact h4
  · have := hm.1; simp only [R.st] at this; omega
  · have := hm.2; simp only [R.st] at this; rw [this, p3, p2]

/-- What the creation of a secret needs. -/
structure CanSeal (y : Sys) : Prop where
  faithful : Faithful y.c
  auth : y.auth.length ≤ y.c.authCap
  text : ∀ r, (y.b64 r).length ≤ 32
  max : 32 ≤ y.c.maxSeal
  pub : ∀ n k sec, HintKey y.c y.hint k →
    (y.c.chip.encPub (y.c.chip.wrap n (sealedObj y.c.chip k sec y.auth)).1).length ≤ y.c.pubCap

theorem create_quiet {y : Sys} {mem : Bytes} {psz : BitVec 16} {s1 : S} (hy : CanSeal y) (hq1 : Quiet y.c.chip s1)
    (hg : Signed y.c y.hint mem psz s1.pcr) :
    ∃ sec p s4, createSecret y.c y.b64 y.hint mem psz y.auth 32 s1 = .ok sec s4 ∧ sec.length ≤ 32 ∧
      cstr sec = some p := by
  obtain ⟨g1, g2, g3, k, g4, g5⟩ := hg
  have h2 : ∃ sec p s2, randomB64 y.c y.b64 s1 = .ok sec s2 ∧ sec.length ≤ 32 ∧ cstr sec = some p ∧
      s1.k ≤ s2.k ∧ s2.pcr = s1.pcr := by
    have h3 : ∃ sec, randomB64 y.c y.b64 s1 = .ok sec { s1 with k := s1.k + 1 } := by
      unfold randomB64
      rw [bind_eq, getRandom, call_quiet hq1]
      dsimp only
      rw [if_neg (by have := hy.text (y.c.chip.random (s1.k + 1) 21); omega)]
      split <;> exact ⟨_, rfl⟩
    obtain ⟨sec, h3⟩ := h3
    obtain ⟨h4, p, h5⟩ := randomB64_ok h3
    exact ⟨sec, p, _, h3, h4, h5, by simp, rfl⟩
  obtain ⟨sec, p, s2, r1, r2, r3, r4, r5⟩ := h2
  have hx := hy.max
  obtain ⟨s3, t1, t2, t3⟩ := sealAuth_quiet (c := y.c) (hint := y.hint) (auth := y.auth) (sec := sec)
    (psz := psz.toNat) (s := s2) (hq1.step r4) hy.auth (by omega) (by omega) g4 (fun n => hy.pub n k sec g4)
  obtain ⟨s4, u1⟩ := seal_unseal (mem := mem) (p := psz) (cap := y.c.maxSeal) hy.faithful t1 rfl
    (hq1.step (s' := s3) (by omega)) g1 g3 g4 (by rw [t3, r5]; exact g5) (by omega)
  refine ⟨sec, p, s4, ?_, r2, r3⟩
  unfold createSecret
  rw [if_neg (by omega), bind_eq, r1]
  dsimp only
  rw [bind_eq, t1]
  dsimp only
  rw [bind_eq, u1]
  dsimp only
  rw [if_pos rfl]
  rfl

/-- **The first boot** with a new drive and an empty TPM, in which nothing fails, protects the drive with a secret that
the TPM holds. -/
theorem boot_first {y : Sys} {st : Step} {w : W} (hy : CanSeal y) (hq : Quiet y.c.chip w.tpm)
    (hd : DQuiet y.e w) (hg : Signed y.c y.hint st.mem st.psz st.pcr)
    (hm : st.mem.length < 65536) (hi : st.unidentified = false)
    (hs : w.drv.supported = true) (he : w.drv.enabled = false) (hnv : w.tpm.nv y.c.nvBase = none) :
    ∃ w', boot y st w = .ret 0 w' ∧ Safe st.freeze w'.drv ∧ Keyed y w' := by
  have hq0 : Quiet y.c.chip (restart st w).tpm := fun j hj => hq j hj
  have hr : readBlob y.c (y.c.nvBase + 0) [] (restart st w).tpm =
      .err rcHandle { (restart st w).tpm with k := (restart st w).tpm.k + 1 } := by
    unfold readBlob
    rw [if_neg (by simp), bind_eq, nvRead, call_quiet hq0]
    have : (restart st w).tpm.nv (y.c.nvBase + 0) = none := hnv
    simp only [this]
  obtain ⟨sec, p, s4, hc, r2, r3⟩ := create_quiet (mem := st.mem) (psz := st.psz)
    (s1 := { (restart st w).tpm with k := (restart st w).tpm.k + 1 }) hy (hq0.step (by simp)) hg
  have hts : tpmSecret y.c y.b64 y.hint st.mem st.psz y.auth (restart st w).tpm = .ok sec s4 := by
    unfold tpmSecret unsealSized
    rw [if_neg (by have := hg.2.1; omega), hr]
    dsimp only
    rw [if_pos (by decide)]
    exact hc
  obtain ⟨w', b1, b2, b3, b4⟩ := boot_new hd hi hs he r2 r3 hts
  refine ⟨w', b1, b2, fun _ => ⟨sec, p, ?_, r2, r3, b3⟩⟩
  rw [b4]
  exact (createSecret_ok hm hc).2.2

/-- **Recovery.** Start with an unprotected drive. After any number of boots with any failures (of the kind above), a
boot in a signed state in which nothing fails opens the drive, if it has been protected. -/
theorem boots_recover {y : Sys} (l : List Step) {st : Step} {w : W}
    (hn : ∀ j, isHandle (y.c.chip.fault j) = false) (ho : Owns y l w) (ha : y.auth.length ≤ y.c.authCap)
    (hl' : ∀ x ∈ l, x.mem.length < 65536 ∧ x.junk.length = 32) (hs : w.drv.supported = true)
    (he : w.drv.enabled = false) (hq : Quiet y.c.chip (boots y l w).tpm) (hd : DQuiet y.e (boots y l w))
    (hg : Signed y.c y.hint st.mem st.psz st.pcr) (hi : st.unidentified = false)
    (hp : (boots y l w).drv.enabled = true) :
    ∃ w', boot y st (boots y l w) = .ret 0 w' ∧ Safe st.freeze w'.drv := by
  have hk := boots_keyed l hn ho hl' (w := w) (fun h => by rw [he] at h; cases h)
  have hs' : (boots y l w).drv.supported = true := by
    clear hq hd hp hk he ho
    induction l generalizing w with
    | nil => exact hs
    | cons a r ih =>
      have h1 := hl' a List.mem_cons_self
      exact ih (fun x hx => hl' x (List.mem_cons_of_mem _ hx)) ((boot_supported h1.1 h1.2 hn).trans hs)
  obtain ⟨w', h1, h2, _⟩ := boot_opens hq hd ha hg hi hs' hp hk
  exact ⟨w', h1, h2⟩

/-- A protected drive that the secret of the TPM does not open. -/
def Lost (y : Sys) (w : W) : Prop :=
  w.drv.enabled = true ∧ w.drv.supported = true ∧ (∃ b, w.tpm.nv y.c.nvBase = some b) ∧
    ∀ sec, Yields y.c y.hint y.auth w.tpm.nv sec → ∃ p, cstr sec = some p ∧ w.drv.user ≠ pad p

theorem boot_lost {y : Sys} {st : Step} {w : W} (hn : ∀ j, isHandle (y.c.chip.fault j) = false)
    (hm : st.mem.length < 65536) (hj : st.junk.length = 32)
    (h : Lost y w) : Lost y (boot y st w).w ∧ (boot y st w).w.drv.locked = true := by
  obtain ⟨l1, l2, ⟨b, l3⟩, l4⟩ := h
  have hc := secret_cases (c := y.c) (b64 := y.b64) (hint := y.hint) (mem := st.mem) (auth := y.auth)
    (p := st.psz) (restart st w).tpm hn hm
  have hc : _ := hc.resolve_right fun h => by
    have : w.tpm.nv y.c.nvBase = none := h.1
    rw [this] at l3; cases l3
  obtain ⟨c1, c2⟩ := hc
  unfold boot unlockDisk getSecret
  dsimp only
  rw [bind_eq]
  generalize hr : tpmSecret y.c y.b64 y.hint st.mem st.psz y.auth (restart st w).tpm = r at c1 c2
  have hstop : Lost y { restart st w with tpm := r.st } := by
    refine ⟨l1, l2, ⟨b, by rw [c1]; exact l3⟩, ?_⟩
    intro sec hy
    exact l4 sec (by rw [c1] at hy; exact hy)
  cases r with
  | err rc s1 => exact ⟨hstop, l1⟩
  | bad b s1 => exact ⟨hstop, l1⟩
  | ok sec s1 =>
    obtain ⟨hy, hs⟩ := c2 _ _ rfl
    obtain ⟨p, hp, hup⟩ := l4 sec hy
    have hc1 : s1.nv = (restart st w).tpm.nv := c1
    show Lost y (unlockWith y.e y.qemu st.freeze (sec ++ st.junk.drop sec.length)
        { restart st w with tpm := s1 }).w ∧
      (unlockWith y.e y.qemu st.freeze (sec ++ st.junk.drop sec.length)
        { restart st w with tpm := s1 }).w.drv.locked = true
    have hk : Known { restart st w with tpm := s1 } := by
      unfold Known restart
      dsimp only
      split
      · exact .inr rfl
      · exact .inl rfl
    obtain ⟨m1, m2, _, m3⟩ := unlockWith_moves y.e y.qemu st.freeze hk (array_length hs hj)
    have m3 := m3.resolve_right fun h => by
      have h : w.drv.enabled = false := h.1
      rw [l1] at h; cases h
    refine ⟨⟨m3.1.trans l1, m2.trans l2, ⟨b, by rw [m1, hc1]; exact l3⟩, ?_⟩, ?_⟩
    · intro sec' hy'
      rw [m3.2]
      exact l4 sec' (by rw [m1, hc1] at hy'; exact hy')
    · have h4 : secOf (powerCycle w.drv) = .sec4 := by simp [powerCycle, secOf, l1, l2]
      cases hi : st.unidentified with
      | true =>
        have hsec : (restart st w).sec = .sec0 := by simp [restart, hi]
        unfold unlockWith finish
        simp only [hsec]
        repeat' split
        all_goals first | exact l1 | simp_all
      | false =>
        have hsec : (restart st w).sec = .sec4 := by simp [restart, hi, h4]
        have hw : Fresh { restart st w with tpm := s1 } := hsec.trans h4.symm
        obtain ⟨w', e1, e2⟩ := unlockWith_wrong (e := y.e) (qemu := y.qemu) (freeze := st.freeze) hw
          (array_length hs hj) hsec (cstr_more (st.junk.drop sec.length) hp) hup
        rw [e1]
        exact e2

/-- **A lost secret stays lost**: once the TPM holds another secret, or nothing that can be unsealed, the drive stays
locked in all boots. The index is not made again, since it exists. -/
theorem boots_lost {y : Sys} (l : List Step) {st : Step} {w : W}
    (hn : ∀ j, isHandle (y.c.chip.fault j) = false) 
    (hl : ∀ x ∈ st :: l, x.mem.length < 65536 ∧ x.junk.length = 32) (h : Lost y w) :
    (boot y st (boots y l w)).w.drv.locked = true := by
  have hst := hl st List.mem_cons_self
  have hb : Lost y (boots y l w) := by
    have hl' : ∀ x ∈ l, x.mem.length < 65536 ∧ x.junk.length = 32 :=
      fun x hx => hl x (List.mem_cons_of_mem _ hx)
    clear hl hst
    induction l generalizing w with
    | nil => exact h
    | cons a r ih =>
      have ha := hl' a List.mem_cons_self
      exact ih (boot_lost hn ha.1 ha.2 h).1 fun x hx => hl' x (List.mem_cons_of_mem _ hx)
  exact (boot_lost hn hst.1 hst.2 hb).2

/-- **A failing read that reports a missing index destroys the secret** of a protected drive: a new secret takes its
place, and unless it happens to be the same the drive is lost. -/
theorem handle_loses {y : Sys} {st : Step} {w : W} (hy : CanSeal y) (hf : isHandle (y.c.chip.fault w.tpm.k) = true)
    (hq : ∀ j, w.tpm.k < j → y.c.chip.fault j = 0) (hg : Signed y.c y.hint st.mem st.psz st.pcr)
    (hj : st.junk.length = 32) (hm : st.mem.length < 65536)
    (hs : w.drv.supported = true) (he : w.drv.enabled = true)
    (hu : ∀ r p, cstr (y.b64 r ++ [0]) = some p ∨ cstr ((y.b64 r).take 31 ++ [0]) = some p → w.drv.user ≠ pad p) :
    Lost y (boot y st w).w := by
  have hf0 : y.c.chip.fault w.tpm.k ≠ 0 := by intro h; rw [h] at hf; revert hf; decide
  have hr : readBlob y.c (y.c.nvBase + 0) [] (restart st w).tpm = .err (y.c.chip.fault w.tpm.k)
      { (restart st w).tpm with k := (restart st w).tpm.k + 1 } := by
    unfold readBlob
    rw [if_neg (by simp), bind_eq, nvRead]
    unfold call
    rw [if_neg (by exact hf0)]
    rfl
  obtain ⟨sec, p, s4, hc, r2, r3⟩ := create_quiet (mem := st.mem) (psz := st.psz)
    (s1 := { (restart st w).tpm with k := (restart st w).tpm.k + 1 }) hy
    (fun j hj => hq j (by simp only [restart] at hj; omega)) hg
  have hne : w.drv.user ≠ pad p := by
    unfold createSecret at hc
    rw [if_neg (by omega), bind_ok] at hc
    obtain ⟨x, s2, h1, h2⟩ := hc
    have hx : sec = x := by
      rw [bind_ok] at h2
      obtain ⟨_, s3, _, h2⟩ := h2
      rw [bind_ok] at h2
      obtain ⟨_, _, _, h2⟩ := h2
      split at h2
      · cases h2; rfl
      · cases h2
    subst hx
    unfold randomB64 at h1
    rw [bind_ok] at h1
    obtain ⟨r, _, _, h1⟩ := h1
    split at h1
    · cases h1
    split at h1
    · cases h1; exact hu r p (.inl r3)
    · cases h1; exact hu r p (.inr r3)
  have hyl := (createSecret_ok hm hc).2.2
  have hts : tpmSecret y.c y.b64 y.hint st.mem st.psz y.auth (restart st w).tpm = .ok sec s4 := by
    unfold tpmSecret unsealSized
    rw [if_neg (by have := hg.2.1; omega), hr]
    dsimp only
    rw [if_pos hf]
    exact hc
  have hb : boot y st w = unlockWith y.e y.qemu st.freeze (sec ++ st.junk.drop sec.length)
      { restart st w with tpm := s4 } := by
    unfold boot unlockDisk getSecret
    dsimp only
    rw [bind_eq, hts]
    rfl
  have hk : Known { restart st w with tpm := s4 } := by
    unfold Known restart
    dsimp only
    split
    · exact .inr rfl
    · exact .inl rfl
  obtain ⟨m1, m2, _, m3⟩ := unlockWith_moves y.e y.qemu st.freeze hk (array_length r2 hj)
  have m3 := m3.resolve_right fun h => by
    have h : w.drv.enabled = false := h.1
    rw [he] at h; cases h
  rw [hb]
  refine ⟨m3.1.trans he, m2.trans hs, ?_, ?_⟩
  · obtain ⟨b, _, _, _, _, _, h1, _⟩ := hyl
    exact ⟨b, by rw [m1]; exact h1⟩
  · intro sec' h1
    rw [m1] at h1
    cases yields_unique h1 hyl
    rw [m3.2]
    exact ⟨p, r3, hne⟩

/-- **An interrupted sealing blocks the drive for ever.** If creating the index succeeded and writing it failed, the
index contains bytes 0xFF. It yields nothing, ... -/
theorem ff_yields_nothing {y : Sys} {nv : Nat → Option Bytes} {n : Nat} {sec : Bytes}
    (hb : nv y.c.nvBase = some (List.replicate n 0xFF#8)) (hn : n < 65539) :
    ¬ Yields y.c y.hint y.auth nv sec := by
  rintro ⟨b, e, pub, priv, k, o, h1, ⟨rest, h2⟩, h3, -⟩
  rw [hb] at h1
  cases h1
  have hlen := congrArg List.length h2
  simp at hlen
  have h4 : enc16 e.length = (List.replicate n 0xFF#8).take 2 := by
    rw [h2]
    simp [List.append_assoc, enc16]
  rw [List.take_replicate, Nat.min_eq_left (by omega)] at h4
  have h5 := enc16_inj h3 (n := 65535) (by omega) (h4.trans (by decide))
  omega

/-- ... and no boot finds a secret, protects the drive or opens it. -/
theorem boot_blocked {y : Sys} {st : Step} {w : W} {b : Bytes} (hn : ∀ j, isHandle (y.c.chip.fault j) = false)
    (hm : st.mem.length < 65536) (hb : w.tpm.nv y.c.nvBase = some b)
    (hy : ∀ sec, ¬ Yields y.c y.hint y.auth w.tpm.nv sec) :
    (boot y st w).w.drv = powerCycle w.drv ∧ (boot y st w).w.tpm.nv = w.tpm.nv := by
  have hc := secret_cases (c := y.c) (b64 := y.b64) (hint := y.hint) (mem := st.mem) (auth := y.auth)
    (p := st.psz) (restart st w).tpm hn hm
  have hc : _ := hc.resolve_right fun h => by
    have : w.tpm.nv y.c.nvBase = none := h.1
    rw [this] at hb; cases hb
  obtain ⟨c1, c2⟩ := hc
  unfold boot unlockDisk getSecret
  dsimp only
  rw [bind_eq]
  generalize hr : tpmSecret y.c y.b64 y.hint st.mem st.psz y.auth (restart st w).tpm = r at c1 c2
  cases r with
  | err rc s1 => exact ⟨rfl, c1⟩
  | bad b s1 => exact ⟨rfl, c1⟩
  | ok sec s1 => exact absurd (c2 _ _ rfl).1 (hy sec)

/-! ## Passwords -/

theorem pad_inj {p q : Bytes} (hp : (0 : Byte) ∉ p) (hq : (0 : Byte) ∉ q) (h : pad p = pad q) : p = q := by
  have h1 : pad p ++ [0] = pad q ++ [0] := by rw [h]
  have hz : ∀ n, List.replicate n (0 : Byte) ++ [0] = 0 :: List.replicate n 0 := by
    intro n
    rw [← List.replicate_succ', List.replicate_succ]
  unfold pad at h1
  rw [List.append_assoc, List.append_assoc, hz, hz] at h1
  have h2 := congrArg cstr h1
  rw [cstr_append _ hp, cstr_append _ hq] at h2
  exact Option.some.inj h2

/-- **The configured password is not terminated**: what was left on the stack after it is part of the password. -/
theorem pw_junk {e e' : Env} {freeze freeze' : Bool} {p junk junk' q q' : Bytes} {w w' w'' : W} (hw : Fresh w)
    (h1 : w.sec = .sec1) (hp : p.length ≤ 32) (hj : junk.length = 32) (hj' : junk'.length = 32)
    (hc : cstr (p ++ junk.drop p.length) = some q) (hc' : cstr (p ++ junk'.drop p.length) = some q')
    (hne : q ≠ q') (h : unlockDisk e (.pw p) false freeze junk w = .ret 0 w')
    (hw'' : w'' = { w' with drv := powerCycle w'.drv, sec := secOf (powerCycle w'.drv) }) :
    ∃ v, unlockDisk e' (.pw p) false freeze' junk' w'' = .ret (-1) v ∧ v.drv.locked = true := by
  have hg : ∀ j s, getSecret (.pw p) j s = .ok (p ++ j.drop p.length) s := by
    intro j s
    unfold getSecret
    dsimp only
    rw [if_neg (by omega)]
    rfl
  have hlen : ∀ j : Bytes, j.length = 32 → (p ++ j.drop p.length).length ≤ 32 := fun j hj => array_length hp hj
  unfold unlockDisk at h
  rw [hg] at h
  obtain ⟨s1, _, _, s4, _⟩ := unlockWith_sound hw (hlen _ hj) h
  obtain ⟨r, hr, hu⟩ := s4 (.inl h1)
  rw [hc] at hr
  cases hr
  have h4 : secOf (powerCycle w'.drv) = .sec4 := by simp [powerCycle, secOf, s1.1, s1.2.1]
  unfold unlockDisk
  rw [hg]
  refine unlockWith_wrong (by rw [hw'']; rfl) (hlen _ hj') (by rw [hw'']; exact h4) hc' ?_
  rw [hw'']
  show w'.drv.user ≠ pad q'
  rw [hu]
  intro hpad
  obtain ⟨_, _, n1⟩ := cstr_spec hc
  obtain ⟨_, _, n2⟩ := cstr_spec hc'
  exact hne (pad_inj n1 n2 hpad)

/-- **The master password opens the drive**: it is protected with level High. -/
theorem master_opens {e : Env} {freeze : Bool} {p m : Bytes} {w w' : W} (hp : p.length ≤ 32) (hm : m.length ≤ 32)
    (h : lockIt e freeze p w = .ret 0 w') (hmm : w.drv.master = pad m) :
    (cmdUnlock (block true m) (powerCycle w'.drv)).1 = true ∧
      (cmdUnlock (block true m) (powerCycle w'.drv)).2.locked = false := by
  obtain ⟨s, _, h1, h2, _⟩ := lockIt_ok hp h
  rw [cmdUnlock_master hm]
  simp [powerCycle, s.1, s.2.1, h1, h2, hmm]

/-- **Removing the user password**: with the right master password the drive ends unprotected, ... -/
theorem disable_ok {e : Env} {m : Bytes} {w : W} (hd : DQuiet e w) (hm : m.length ≤ 32) (h4 : w.sec = .sec4)
    (hw : Fresh w) (hf : w.drv.frozen = false) (hx : w.drv.maximum = false) (ht : w.drv.tries ≠ 0)
    (hmm : w.drv.master = pad m) :
    ∃ w', sataDisable e m w = .panic w' ∧ w'.drv.enabled = false ∧ w'.drv.locked = false := by
  obtain ⟨hs, he, hl⟩ := sec4_drv (hw.symm.trans h4)
  have hu : unlockDevice e m true w = (0, { w with drv := { w.drv with locked := false }, k := w.k + 1 }) := by
    unfold unlockDevice
    rw [exec_quiet hd, cmdUnlock_master hm]
    simp [hs, hf, hl, ht, hx, hmm]
  have hq : DQuiet e { w with drv := { w.drv with locked := false }, k := w.k + 1 } :=
    fun j hj => hd j (by simp only at hj; omega)
  refine ⟨_, by unfold sataDisable; rw [if_pos h4, hu, if_pos rfl], ?_⟩
  unfold disablePassword
  rw [exec_quiet hq, cmdDisable_master hm]
  simp [hs, hf, hx, hmm]

/-- ... with a wrong one it stays locked. -/
theorem disable_wrong {e : Env} {m : Bytes} {w : W} (hm : m.length ≤ 32) (h4 : w.sec = .sec4) (hw : Fresh w)
    (hmm : w.drv.master ≠ pad m) :
    ∃ w', sataDisable e m w = .panic w' ∧ w'.drv.enabled = true ∧ w'.drv.locked = true := by
  obtain ⟨hs, he, hl⟩ := sec4_drv (hw.symm.trans h4)
  have hc : (cmdUnlock (block true m) w.drv).1 = false ∧ (cmdUnlock (block true m) w.drv).2.enabled = true ∧
      (cmdUnlock (block true m) w.drv).2.locked = true := by
    rw [cmdUnlock_master hm, hl]
    simp only [Bool.true_eq_false, if_false, Ne.symm hmm, and_false]
    repeat' split
    all_goals exact ⟨rfl, he, by simp [hl]⟩
  have hx : (unlockDevice e m true w).1 = -1 ∧ (unlockDevice e m true w).2.drv.enabled = true ∧
      (unlockDevice e m true w).2.drv.locked = true := by
    unfold unlockDevice exec
    split
    · exact ⟨by simp [hc.1], hc.2⟩
    · exact ⟨rfl, he, hl⟩
    · exact ⟨rfl, hc.2⟩
  refine ⟨_, by unfold sataDisable; rw [if_pos h4, if_neg (by rw [hx.1]; decide)], hx.2⟩

/-! ## Examples -/

namespace Demo

/-- The text of a secret: upper-case letters. -/
def b64 (r : Bytes) : Bytes := r.take 28 |>.map fun b => (b &&& 0x0F) ||| 0x40

def env : Env := ⟨fun _ => .none, fun k => (BitVec.ofNat 16 (7 * k), 0xFFFF)⟩

def sys : Sys := ⟨Tpm.Demo.cfg, b64, [1, 2, 3, 4], [], env, false⟩

/-- The same with a TPM that fails at the given calls. -/
def sysF (f : Nat → Int) : Sys :=
  { sys with c := { Tpm.Demo.cfg with chip := { Tpm.Demo.chip with fault := f } } }

def st : Step := ⟨Tpm.Demo.s0.pcr, Tpm.Demo.policy, 18, true, List.replicate 32 0x5A, false⟩

/-- A new drive. -/
def drive : Drive := ⟨true, false, false, false, false, [], pad [0x4D], 5⟩

def w0 : W := ⟨Tpm.Demo.s0, drive, .sec0, 0⟩

theorem b64_len (r : Bytes) : (b64 r).length ≤ 32 := by simp [b64]; omega

theorem signed : Signed sys.c sys.hint st.mem st.psz st.pcr :=
  ⟨by decide, by decide, by decide, Tpm.Demo.key, Tpm.Demo.hintKey, by decide +kernel⟩

/-- Return value of a boot. -/
def rc : Out → Option Int
  | .ret r _ => some r
  | _ => none

/-- `boot_first`, `unlockWith_sound` -/
example : rc (boot sys st w0) = some 0 ∧ (boot sys st w0).w.drv.enabled = true ∧
    (boot sys st w0).w.drv.frozen = true := by decide +kernel

/-- `boots_keyed`, `boot_opens`, `boots_recover`: three boots -/
example : rc (boot sys st (boots sys [st, st] w0)) = some 0 := by decide +kernel

/-- A drive that fails after having set the password; the next boot succeeds. -/
def sysD : Sys := { sys with e := { env with fault := fun k => if k = 0 then .after else .none } }

example : rc (boot sysD st w0) = some (-1) ∧ (boots sysD [st] w0).drv.enabled = true ∧
    rc (boot sysD st (boots sysD [st] w0)) = some 0 := by decide +kernel

/-- `handle_loses`: the first read of the second boot fails with a code for a missing handle -/
def w1 : W := (boot sys st w0).w

def sysH : Sys := sysF fun k => if k = w1.tpm.k then 0x18B else 0

example : rc (boot sysH st w1) = some (-1) ∧ rc (boot sys st (boot sysH st w1).w) = some (-1) ∧
    (boot sys st (boot sysH st w1).w).w.drv.locked = true := by decide +kernel

/-- `CanSeal` -/
theorem canSeal : CanSeal sys where
  faithful := Tpm.Demo.faithful
  auth := by decide
  text := b64_len
  max := by decide
  pub _ k _ hk := by
    cases hintKey_unique hk Tpm.Demo.hintKey
    exact (by decide : (Tpm.Demo.pack [3, 1, 2, 3, 4]).length ≤ 100)

/-- `ff_yields_nothing`, `boot_blocked`: the first write of the index fails; the drive is never protected -/
def sysW : Sys := sysF fun k => if k = 12 then 0x922 else 0

example : (boot sysW st w0).w.tpm.nv sys.c.nvBase = some (List.replicate 39 0xFF#8) ∧
    rc (boot sys st (boot sysW st w0).w) = some 0x146 ∧
    (boot sys st (boot sysW st w0).w).w.drv.enabled = false := by decide +kernel

/-- `unlockWith_wrong`: a protected drive and another secret -/
def locked : W := { w0 with drv := { drive with enabled := true, locked := true, user := pad [0x41] }, sec := .sec4 }

example : rc (unlockWith env false true [0x42, 0] locked) = some (-1) := by decide +kernel
example : rc (unlockWith env false true [0x41, 0] locked) = some 0 := by decide +kernel

/-- `pw_32_overread` -/
example : unlockDisk env (.pw (List.replicate 32 0x41)) false true (List.replicate 32 0) locked = .bad .overread locked :=
  pw_32_overread (.inr rfl) (by decide) (by decide) (by decide)

/-- `pw_junk`: the same password with other bytes on the stack -/
example : rc (unlockDisk env (.pw [0x41]) false true (0 :: 0x42 :: List.replicate 30 0)
      { w0 with sec := .sec1 }) = some 0 ∧
    rc (unlockDisk env (.pw [0x41]) false true (0 :: 0x43 :: List.replicate 30 0)
      (let w := (unlockDisk env (.pw [0x41]) false true (0 :: 0x42 :: List.replicate 30 0)
          { w0 with sec := .sec1 }).w
       { w with drv := powerCycle w.drv, sec := .sec4 })) = some (-1) := by decide +kernel

/-- `master_opens`, `disable_ok`, `disable_wrong` -/
example : (cmdUnlock (block true [0x4D]) (powerCycle w1.drv)).2.locked = false := by decide +kernel
example : (sataDisable env [0x4D] locked).w.drv.enabled = false ∧
    (sataDisable env [0x4E] locked).w.drv.locked = true := by decide +kernel

/-- `sec5_panics`: a restart without power cycle -/
example : unlockWith env false true [0x41, 0]
    { w0 with drv := { drive with enabled := true, user := pad [0x41] }, sec := .sec5 } = .panic
    { w0 with drv := { drive with enabled := true, user := pad [0x41] }, sec := .sec5 } := sec5_panics rfl

/-- `decode_words` -/
example : decode (word82 0 drive) (word128 0xFFF0 drive) = .sec1 := by decide +kernel

end Demo

end Verif.Lock
