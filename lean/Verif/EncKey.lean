import Verif.EncThms
import Verif.LifecycleLemmas
import Verif.TrailerThms

/-!
# C69: setting and erasing the secret, confirming an update, and booting with a wrong secret

`/repo/src/libwolfboot.c:791-806,1359-1510`.
-/

set_option linter.unusedSectionVars false
set_option linter.unusedVariables false

namespace Verif.EncUp

/-! ## Model -/

/-- `wolfBoot_erase_encrypt_key`, `/repo/src/libwolfboot.c:1492-1510`. -/
def eraseKey (P : Par) : M Unit := do
  let f ← readFlash
  if ∀ i, i < P.S → f .boot (P.c.part + i) = 0xFF#8 then pure () else setKey P (fun _ => 0xFF#8)

/-- `wolfBoot_success` with `EXT_ENCRYPTED`, BOOT in internal flash, `/repo/src/libwolfboot.c:791-806`. -/
def successE (P : Par) : M Unit := do
  success P.c
  eraseKey P

section
variable {P : Par} (w : P.WF) {e : Env} {s : Mem}
include w

/-! ## Lemmas -/

theorem setKey_gen {T : Mem → Prop} {l : Bool} (f0 : Flash) :
    Triple T l (fun f => f = f0) (setKey P s) true
      (fun _ f => Same .boot P.c.last (P.c.part + P.S) f0 f ∧ hasMagic P.c f .boot ∧ secret P f = canon P s ∧
        ∀ x, P.c.last ≤ x → x < trailerAt P.c 0 → f .boot x = f0 .boot x)
      (fun f => Same .boot P.c.last (P.c.part + P.S) f0 f) := by
  have hle := w.c.last_eq
  have hpe := w.c.part_eq
  have hss := w.c.ss_pos
  have htb0 := trailer_bounds w.c (k := 0) (by omega)
  unfold setKey
  refine Triple.bind (l' := false) Triple.unlock (fun _ => ?_)
  refine Triple.readFlash (fun f hf => ?_)
  subst hf
  refine Triple.bind (l' := false) (Q := fun _ g => Same .boot P.c.last (P.c.part + P.S) f g ∧
      ∀ x, P.c.last ≤ x → x < P.c.part + P.S → g .boot x = 0xFF#8) (Triple.erase ?_ ?_) (fun _ => ?_)
  · rintro g rfl
    refine ⟨(same_erase _ _ _ _).mono (Nat.le_refl _) (by unfold lastLen; omega), fun x h1 h2 => ?_⟩
    unfold Flash.erase lastLen
    rw [if_pos ⟨rfl, h1, by omega⟩]
  · rintro t g hT rfl
    exact (same_tornErase _ _ _ _ _ _).mono (Nat.le_refl _) (by unfold lastLen; omega)
  · refine Triple.bind (l' := false) (Q := fun _ g => Same .boot P.c.last (P.c.part + P.S) f g ∧ hasMagic P.c g .boot ∧
        secret P g = canon P s ∧ ∀ x, P.c.last ≤ x → x < trailerAt P.c 0 → g .boot x = f .boot x)
      (Triple.program ?_ ?_ ?_) (fun _ => Triple.lock)
    · rintro g ⟨_, hff⟩ i hi
      unfold lastLen at hi
      rw [hff _ (by omega) (by omega)]
      exact BitVec.allOnes_and
    · rintro g ⟨hs, hff⟩
      have hd : ∀ x, P.c.last ≤ x → x < P.c.part + P.S → g.program .boot P.c.last (lastLen P)
          (keySector P (f .boot) s) .boot x = keySector P (f .boot) s (x - P.c.last) := by
        intro x h1 h2
        unfold Flash.program lastLen
        rw [if_pos ⟨rfl, h1, by omega⟩, hff _ h1 h2]
        exact BitVec.allOnes_and
      refine ⟨hs.trans ((same_program _ _ _ _ _).mono (Nat.le_refl _) (by unfold lastLen; omega)), ?_, ?_, ?_⟩
      · refine le32_magic (fun i hi => ?_)
        rw [hd _ (by omega) (by omega)]
        unfold keySector
        rw [if_neg (by omega), if_pos (by omega)]
        congr 1
        omega
      · funext i
        unfold secret secretAt canon
        split
        · rw [hd _ (by omega) (by omega)]
          unfold keySector
          rw [if_pos (by omega)]
          congr 1
          omega
        · rfl
      · intro x h1 h2
        rw [hd x h1 (by omega)]
        unfold keySector
        rw [if_neg (by omega), if_neg (by omega), show P.c.last + (x - P.c.last) = x by omega]
    · rintro t g hT ⟨hs, _⟩
      exact hs.trans ((same_tornProgram _ _ _ _ _ _ _).mono (Nat.le_refl _) (by unfold lastLen; omega))

theorem successE_gen {T : Mem → Prop} {l : Bool} (f0 : Flash) (hm : MagicP P.c f0 .boot) :
    Triple T l (fun f => f = f0) (successE P) true
      (fun _ f => Same .boot P.c.last (P.c.part + P.S) f0 f ∧ getState P.c f .boot = some ST_SUCCESS ∧
        ∀ i, i < P.S → f .boot (P.c.part + i) = 0xFF#8)
      (fun f => Same .boot P.c.last (P.c.part + P.S) f0 f) := by
  have hss := w.c.ss_pos
  have hpe := w.c.part_eq
  have htb := trailer_bounds w.c (k := 1) (by omega)
  have htb0 := trailer_bounds w.c (k := 0) (by omega)
  unfold successE
  refine Triple.bind (l' := true) ((success_spec w.c f0 hm).conseq (fun _ h => h) (fun _ _ h => h)
    (fun f h => h.1.mono (by omega) (by omega))) (fun _ => ?_)
  unfold eraseKey
  refine Triple.readFlash (fun f ⟨h1, h2, h3⟩ => ?_)
  have h1 := h1.mono (lo' := P.c.last) (hi' := P.c.part + P.S) (by omega) (by omega)
  refine Triple.ite (fun hff => ?_) (fun hff => ?_)
  · refine (Triple.pure (Q := fun _ g => g = f) ()).conseq (fun _ h => h) ?_ (fun _ h => h)
    rintro _ g rfl
    exact ⟨h1, by unfold getState; rw [if_pos h2, h3], hff⟩
  · refine (setKey_gen w f).conseq (fun _ h => h) ?_ (fun g h => h1.trans h)
    rintro _ g ⟨g1, g2, g3, g4⟩
    refine ⟨h1.trans g1, ?_, fun i hi => ?_⟩
    · unfold getState
      rw [if_pos g2, g4 _ (by omega) (by omega), h3]
    · have := congrFun g3 i
      unfold secret secretAt canon at this
      rwa [if_pos hi, if_pos hi] at this

omit w in
theorem wbUpdate_refuse {fallback : Bool} {T : Mem → Prop} {l : Bool} {f0 : Flash} {C : Flash → Prop} {ctx : Option Mem}
    (hflag : (getFlag P.c f0 0).getD FL_NEW = FL_NEW)
    (hno : ¬ acceptable P.c e (decU P (load P ctx f0) f0) ∨
      (fallback = false ∧ e.ver (decU P (load P ctx f0) f0) ≤ e.ver (f0 .boot))) :
    Triple T l (fun f => f = f0) (wbUpdate P e ctx fallback) l (fun r f => r.1 = false ∧ f = f0) C := by
  unfold wbUpdate
  refine Triple.readFlash (fun f hf => ?_)
  subst hf
  dsimp only
  have hp : Triple T l (fun g => g = f) (Pure.pure (false, load P ctx f) : M (Bool × Option Mem)) l
      (fun r g => r.1 = false ∧ g = f) C :=
    (Triple.pure (Q := fun (r : Bool × Option Mem) g => r.1 = false ∧ g = f) (false, load P ctx f)).pre
      (fun g h => ⟨rfl, h⟩)
  split
  · exact hp
  split
  · exact hp
  rename_i h2
  have h3 : (getFlag P.c f 0).getD FL_NEW = FL_NEW ∧
      ¬ (fallback = true ∨ e.ver (f .boot) < e.ver (decU P (load P ctx f) f)) := by
    refine ⟨hflag, ?_⟩
    rcases hno with h | ⟨h3, h4⟩
    · exact absurd ⟨hflag, h⟩ h2
    · rintro (h | h)
      · rw [h3] at h; exact absurd h (by decide)
      · omega
  rw [if_pos h3]
  exact hp

omit w in
theorem load_load {ctx : Option Mem} {f : Flash} : load P (load P ctx f) f = load P ctx f := by
  cases ctx with
  | some s => rfl
  | none =>
    by_cases h : keyOK P (secret P f)
    · have h1 : load P none f = some (secret P f) := by unfold load; simp only; rw [if_pos h]
      rw [h1]; rfl
    · have h1 : load P none f = none := by unfold load; simp only; rw [if_neg h]
      rw [h1, h1]

theorem start_idle {T : Mem → Prop} {l : Bool} {f0 : Flash} {C : Flash → Prop}
    (hflag : (getFlag P.c f0 0).getD FL_NEW = FL_NEW)
    (hB : le32 (f0 .boot) (P.c.tmp + P.S) ≠ MAGIC_TRAIL)
    (hst : (getState P.c f0 .update).getD e.junk ≠ ST_FINAL)
    (hbt : bootable P.c e (f0 .boot))
    (hno : getState P.c f0 .boot = some ST_TESTING ∨ getState P.c f0 .update = some ST_UPDATING →
      ¬ acceptable P.c e (decU P (load P none f0) f0)) (hC : C f0) :
    Triple T l (fun f => f = f0) (start P e) l (fun _ f => f = f0) C := by
  unfold start
  refine Triple.bind (l' := l) (Q := fun _ f => f = f0) ?_ (fun _ => ?_)
  · unfold startUpdate
    refine Triple.readFlash (fun f hf => ?_)
    subst hf
    refine Triple.bind (l' := l) (swapFinal_none hB hst) (fun r => ?_)
    refine Triple.ofEq (fun g ⟨hr, hg⟩ => ?_)
    subst hr; subst hg
    rw [if_neg (by simp)]
    have fin : ∀ (m : M (Bool × Option Mem)), Triple T l (fun f => f = g) m l
        (fun r f => r.1 = false ∧ f = g) C →
        Triple T l (fun f => f = g) (m >>= fun r => pure r.2) l (fun _ f => f = g) C := by
      intro m hm
      refine Triple.bind hm (fun r => ?_)
      exact (Triple.pure (Q := fun _ f => f = g) r.2).pre (fun f h => h.2)
    refine Triple.ite (fun hT => ?_) (fun hT => ?_)
    · exact fin _ (wbUpdate_refuse hflag (Or.inl (by rw [load_load]; exact hno (Or.inl hT))))
    · refine Triple.ite (fun hU => ?_) (fun hU => ?_)
      · exact fin _ (wbUpdate_refuse hflag (Or.inl (by rw [load_load]; exact hno (Or.inr hU))))
      · exact Triple.pure (Q := fun _ f => f = g) _
  · exact boot_tick w.c (fun f h => by rw [h]; exact hbt) (fun f h => by rw [h]; exact hC)

end

/-! ## Theorems -/

/-- **C69 (secret).** `wolfBoot_set_encrypt_key`, for every content of the flash: the secret is in its place, BOOT has a
valid trailer with the state byte it had, and nothing else has changed. -/
theorem set_key_effect {P : Par} (w : P.WF) (s : Mem) (f : Flash) :
    ∃ w', setKey P s (run f) = .ok () w' ∧ w'.locked = true ∧
      (∀ i, i < P.S → w'.fl .boot (P.c.part + i) = s i) ∧
      getState P.c w'.fl .boot = some (f .boot (P.c.part - 5)) ∧
      ∀ q x, q ≠ .boot ∨ x < P.c.part - 4 ∨ P.c.part + P.S ≤ x → w'.fl q x = f q x := by
  have hss := w.c.ss_pos
  have hpe := w.c.part_eq
  have htb := trailer_bounds w.c (k := 1) (by omega)
  have htb0 := trailer_bounds w.c (k := 0) (by omega)
  obtain ⟨_, w', hr, hl, h1, h2, h3, h4⟩ := (setKey_gen (T := fun _ => True) (l := false) (s := s) w f).run_ok
  refine ⟨w', hr, hl, fun i hi => ?_, ?_, ?_⟩
  · have := congrFun h3 i
    unfold secret secretAt canon at this
    rwa [if_pos hi, if_pos hi] at this
  · unfold getState
    rw [if_pos h2, h4 _ (by omega) (by omega), show trailerAt P.c 1 = P.c.part - 5 by omega]
  · intro q x h
    by_cases hq : q = .boot
    · subst hq
      by_cases hx : P.c.last ≤ x ∧ x < P.c.part - 4
      · exact h4 x hx.1 (by omega)
      · exact h1.out (by rcases h with h | h | h <;> first | exact absurd rfl h | omega)
    · rw [h1.other hq]

example : ∃ w', setKey Demo.par (fun _ => 0x11#8) (run Demo.updated) = .ok () w' ∧ w'.locked = true ∧
      (∀ i, i < Demo.par.S → w'.fl .boot (Demo.par.c.part + i) = 0x11#8) ∧
      getState Demo.par.c w'.fl .boot = some (Demo.updated .boot (Demo.par.c.part - 5)) ∧
      ∀ q x, q ≠ .boot ∨ x < Demo.par.c.part - 4 ∨ Demo.par.c.part + Demo.par.S ≤ x → w'.fl q x = Demo.updated q x :=
  set_key_effect Demo.wf _ _

/-- **C69 (secret).** A power failure during `wolfBoot_set_encrypt_key` changes the last sector of BOOT only. -/
theorem set_key_power_fail {P : Par} (w : P.WF) (s : Mem) {f g : Flash} {l : Bool} {n : Nat} {t : Mem}
    (hr : setKey P s ⟨f, l, some n, t⟩ = .crash g) :
    ∀ q x, q ≠ .boot ∨ x < P.c.part - P.c.ss ∨ P.c.part + P.S ≤ x → g q x = f q x := by
  have hpe := w.c.part_eq
  have := setKey_gen (T := fun _ => True) (l := l) (s := s) w f ⟨f, l, some n, t⟩ trivial rfl rfl
  rw [hr] at this
  intro q x h
  refine this.2 q x ?_
  rintro ⟨h1, h2, h3⟩
  rcases h with h | h | h
  · exact h h1
  · omega
  · omega

example : Demo.updated .boot 127 = 0x54#8 ∧
    Verif.Demo.crashAnd (setKey Demo.par (fun _ => 0x11#8) ⟨Demo.updated, true, some 1, fun _ => 0xFF#8⟩)
      (fun g => g .boot 127 == 0xFF#8) = true := by decide +kernel

/-- **C69 (confirmation).** `wolfBoot_success` leaves BOOT in state SUCCESS and no secret in the flash, and changes nothing
but the last sector of BOOT. Partial: the magic bytes of BOOT are present or erased before (see `success_ineffective`). -/
theorem success_erases_secret_partial {P : Par} (w : P.WF) (f : Flash) (hm : MagicOrErased P.c f .boot) :
    ∃ w', successE P (run f) = .ok () w' ∧ w'.locked = true ∧ getState P.c w'.fl .boot = some ST_SUCCESS ∧
      (∀ i, i < P.S → w'.fl .boot (P.c.part + i) = 0xFF#8) ∧
      ∀ q x, q ≠ .boot ∨ x < P.c.part - P.c.ss ∨ P.c.part + P.S ≤ x → w'.fl q x = f q x := by
  have hpe := w.c.part_eq
  obtain ⟨_, w', hr, hl, h1, h2, h3⟩ := (successE_gen (T := fun _ => True) (l := false) w f (hm.magicP w.c)).run_ok
  refine ⟨w', hr, hl, h2, h3, fun q x h => h1 q x ?_⟩
  rintro ⟨h1, h2, h3⟩
  rcases h with h | h | h
  · exact h h1
  · omega
  · omega

example : ∃ w', successE Demo.par (run Demo.updated) = .ok () w' ∧ w'.locked = true ∧
      getState Demo.par.c w'.fl .boot = some ST_SUCCESS ∧
      (∀ i, i < Demo.par.S → w'.fl .boot (Demo.par.c.part + i) = 0xFF#8) ∧
      ∀ q x, q ≠ .boot ∨ x < Demo.par.c.part - Demo.par.c.ss ∨ Demo.par.c.part + Demo.par.S ≤ x →
        w'.fl q x = Demo.updated q x :=
  success_erases_secret_partial Demo.wf _ (Or.inl (by decide))

/-- **C69 (wrong secret).** Whatever the secret in flash is: if no swap is in progress and UPDATE, read with it, is not an
acceptable image, the reboot starts the image in BOOT and does not write to the flash, whether or not an update is requested
and whether or not BOOT is confirmed. -/
theorem wrong_secret_harmless {P : Par} (w : P.WF) {e : Env} {X : Mem} {f : Flash} (hX : GoodImage P.c e X)
    (hb : Holds P.c f .boot X) (hfl : (getFlag P.c f 0).getD FL_NEW = FL_NEW)
    (hst : (getState P.c f .update).getD e.junk ≠ ST_FINAL)
    (hw : le32 (f .boot) (P.c.tmp + P.S) ≠ MAGIC_TRAIL)
    (hno : ¬ acceptable P.c e (decU P (load P none f) f)) :
    ∃ w', bootUp P e f = .ok () w' ∧ w'.fl = f ∧ bootable P.c e (w'.fl .boot) := by
  have go := hX.newOK w.c
  have hbt := (bootable_congr w.c go.loc (holds_iff.mp hb)).mpr (go.bootable w.c)
  obtain ⟨w', h1, _, h2⟩ := bootUp_of (start_idle (T := TE P) (C := fun _ => True) w hfl hw hst hbt (fun _ => hno) trivial)
  exact ⟨w', h1, h2, by rw [h2]; exact hbt⟩

/-- Non-vacuity: an update is requested and the secret has been erased. -/
example : ∃ w', bootUp Demo.par Verif.Demo.env (Demo.pending.erase .boot 128 6) = .ok () w' ∧
      w'.fl = Demo.pending.erase .boot 128 6 ∧ bootable Demo.par.c Verif.Demo.env (w'.fl .boot) :=
  wrong_secret_harmless Demo.wf Demo.good_old (Demo.all_lt (by decide)) (by decide) (by decide) (by decide) (by decide)

/-- ... and with another secret. -/
example : ∃ w', bootUp Demo.par Verif.Demo.env (Demo.pending.program .boot 128 6 (fun _ => 0x55#8)) = .ok () w' ∧
      w'.fl = Demo.pending.program .boot 128 6 (fun _ => 0x55#8) ∧ bootable Demo.par.c Verif.Demo.env (w'.fl .boot) :=
  wrong_secret_harmless Demo.wf Demo.good_old (Demo.all_lt (by decide)) (by decide) (by decide) (by decide)
    (by decide +kernel)

/-- **C69 (confirmation).** The power fails at any flash operation of `wolfBoot_success` of an updated device: the next
uninterrupted reboot starts the new image and does not write to the flash, or rolls back completely.

Partial: if the interrupted erase leaves another secret than `s`, the backup in UPDATE read with it is not acceptable (a
property of the cipher and the signature, and of the header buffer if there is no key); the uninitialised byte of C12 is not
`IMG_STATE_FINAL_FLAGS`; the conditions of `rollback_encrypted_power_fail_safe_partial`. -/
theorem confirm_encrypted_power_fail_partial {P : Par} (w : P.WF) {e : Env} {Old New s : Mem}
    (hO : GoodImage P.c e Old) (hN : GoodImage P.c e New) (hO2 : imageBytes P.c Old ≤ P.c.part - 2 * P.c.ss)
    (hN2 : imageBytes P.c New ≤ P.c.part - 2 * P.c.ss) (hk : keyOK P s) (hj : e.junk ≠ ST_FINAL)
    {f g : Flash} {l : Bool} {n : Nat} {t : Mem} (hp : Updated P s New Old f)
    (hr : successE P ⟨f, l, some n, t⟩ = .crash g)
    (hw : ¬ (∀ i, i < P.S → g .boot (P.c.part + i) = s i) → ¬ acceptable P.c e (decU P (load P none g) g)) :
    ∃ w', bootUp P e g = .ok () w' ∧ bootable P.c e (w'.fl .boot) ∧
      ((w'.fl = g ∧ Holds P.c w'.fl .boot New) ∨ Updated P s Old New w'.fl) := by
  have hss := w.c.ss_pos
  have hn2 := w.c.n2
  have hle := w.c.last_eq
  have hpe := w.c.part_eq
  have hroom := w.room
  have hT := getState_testing.mp hp.state
  have hs := (successE_gen (T := fun _ => True) (l := l) w f hT.1.magicP ⟨f, l, some n, t⟩ trivial rfl rfl)
  rw [hr] at hs
  have hs : Same .boot P.c.last (P.c.part + P.S) f g := hs.2
  have hu : g .update = f .update := hs.other (by simp)
  have hnew : Holds P.c g .boot New := by
    intro o ho
    rw [hs.out (by omega)]; exact hp.new o ho
  have hold : HoldsEnc P s g Old := by
    intro o ho
    rw [hu]; exact hp.old o ho
  have her : ∀ x, P.c.part - P.c.ss ≤ x → x < P.c.part → g .update x = 0xFF#8 := by
    intro x h1 h2
    rw [hu]; exact hp.erased x h1 h2
  have hword : le32 (g .boot) (P.c.tmp + P.S) ≠ MAGIC_TRAIL := by
    rw [le32_congr (x := f .boot) (fun o h1 h2 => hs.out (by omega))]; exact hp.key.2
  have hnone : ∀ h : Flash, (∀ x, P.c.part - P.c.ss ≤ x → x < P.c.part → h .update x = 0xFF#8) →
      ¬ hasMagic P.c h .update := by
    intro h hh
    have htb0 := trailer_bounds w.c (k := 0) (by omega)
    exact le32_ff (fun x _ _ => hh x (by omega) (by omega))
  have hm := hnone g her
  have goN := hN.newOK w.c
  have hbt := (bootable_congr w.c goN.loc (holds_iff.mp hnew)).mpr (goN.bootable w.c)
  have idle : (getState P.c g .boot = some ST_TESTING ∨ getState P.c g .update = some ST_UPDATING →
      ¬ acceptable P.c e (decU P (load P none g) g)) →
      ∃ w', bootUp P e g = .ok () w' ∧ bootable P.c e (w'.fl .boot) ∧
      ((w'.fl = g ∧ Holds P.c w'.fl .boot New) ∨ Updated P s Old New w'.fl) := by
    intro hno
    obtain ⟨w', h1, _, h2⟩ := bootUp_of (start_idle (T := TE P) (C := fun _ => True) w
      (by unfold getFlag; rw [if_neg hm]; rfl) hword (by unfold getState; rw [if_neg hm]; exact hj) hbt hno trivial)
    exact ⟨w', h1, by rw [h2]; exact hbt, Or.inl ⟨h2, by rw [h2]; exact hnew⟩⟩
  by_cases hk' : ∀ i, i < P.S → g .boot (P.c.part + i) = s i
  · by_cases ht : getState P.c g .boot = some ST_TESTING
    · obtain ⟨w', h1, _, h3, h4⟩ := rollback_encrypted_power_fail_safe_partial w hO hN hO2 hN2 hk hj
        (f := g) ⟨hnew, hold, ht, her, hk', hword⟩ .none
      exact ⟨w', h1, h4, Or.inr h3⟩
    · refine idle (fun h => ?_)
      rcases h with h | h
      · exact absurd h ht
      · exact absurd (getState_updating.mp h).1 hm
  · exact idle (fun _ => hw hk')

/-- Non-vacuity: power failure while the secret is erased. -/
example : ∃ w', bootUp Demo.par Verif.Demo.env
        (Verif.Demo.crashFl (successE Demo.par ⟨Demo.updated, true, some 2, fun _ => 0xFF#8⟩)) = .ok () w' ∧
      bootable Demo.par.c Verif.Demo.env (w'.fl .boot) ∧
      ((w'.fl = Verif.Demo.crashFl (successE Demo.par ⟨Demo.updated, true, some 2, fun _ => 0xFF#8⟩) ∧
        Holds Demo.par.c w'.fl .boot Verif.Demo.new) ∨
        Updated Demo.par Demo.sec Verif.Demo.old Verif.Demo.new w'.fl) := by
  have h1 : Verif.Demo.isCrash (successE Demo.par ⟨Demo.updated, true, some 2, fun _ => 0xFF#8⟩) = true := by
    decide +kernel
  exact confirm_encrypted_power_fail_partial Demo.wf Demo.good_old Demo.good_new (by decide) (by decide) Demo.sec_ok
    (by decide) Demo.updated_ok (Verif.Demo.isCrash_eq h1) (fun _ => by decide +kernel)

/-- **Finding.** The state of BOOT is in the sector that `wolfBoot_set_encrypt_key` erases and rewrites. If the power fails
in between while BOOT is TESTING, the image that was not confirmed stays: it is started by the next reboot, nothing is
written, and no state is left. -/
theorem set_key_forgets_testing : ∃ (P : Par) (e : Env) (s s' Old New : Mem) (f g : Flash) (n : Nat) (t : Mem)
    (w' : World), P.WF ∧ GoodImage P.c e Old ∧ GoodImage P.c e New ∧ keyOK P s ∧ e.junk ≠ ST_FINAL ∧
    Updated P s New Old f ∧ setKey P s' ⟨f, true, some n, t⟩ = .crash g ∧ bootUp P e g = .ok () w' ∧
    w'.fl = g ∧ Holds P.c w'.fl .boot New ∧ getState P.c w'.fl .boot = none := by
  have h1 : Verif.Demo.isCrash (setKey Demo.par Demo.sec ⟨Demo.updated, true, some 1, fun _ => 0xFF#8⟩) = true := by
    decide +kernel
  have hN : Holds Demo.par.c (Verif.Demo.crashFl (setKey Demo.par Demo.sec ⟨Demo.updated, true, some 1, fun _ => 0xFF#8⟩))
      .boot Verif.Demo.new := Demo.all_lt (by decide +kernel)
  obtain ⟨w', g1, g2, g3⟩ := wrong_secret_harmless (e := Verif.Demo.env) Demo.wf Demo.good_new hN (by decide +kernel)
    (by decide +kernel) (by decide +kernel) (by decide +kernel)
  refine ⟨Demo.par, Verif.Demo.env, Demo.sec, Demo.sec, Verif.Demo.old, Verif.Demo.new, Demo.updated, _, 1,
    fun _ => 0xFF#8, w', Demo.wf, Demo.good_old, Demo.good_new, Demo.sec_ok, by decide, Demo.updated_ok,
    Verif.Demo.isCrash_eq h1, g1, g2, by rw [g2]; exact hN, by rw [g2]; decide +kernel⟩

end Verif.EncUp
