import Verif.EncUpdate
import Verif.SwapLemmas

/-!
# Helper lemmas: sector copies of builds with encrypted external flash, and the decrypted view of the flash
-/

set_option linter.unusedSectionVars false
set_option linter.unusedVariables false

namespace Verif.EncUp

/-- The bytes that a power failure may leave. -/
abbrev TE (P : Par) : Mem → Prop := TornOK P

/-! ## Copy -/

/-- What byte `o` of the destination sector holds after a complete copy. -/
def copied (P : Par) (ctx : Option Mem) (nonce : Mem) (src dst : Part) (fw so do_ : Nat) (f : Flash) (o : Nat) : Byte :=
  if so + o / P.c.fb * P.c.fb < fw + P.c.h + P.c.fb ∧ ¬ (dst = .update ∧ ctx = none) then
    conv P ctx nonce src dst (do_ + o) (f src (so + o))
  else 0xFF#8

/-- Loop state of `copyLoop`. -/
def CopyInv (P : Par) (ctx : Option Mem) (nonce : Mem) (src : Part) (fw : Nat) (dst : Part) (so do_ pos : Nat)
    (f0 f : Flash) : Prop :=
  Same dst do_ (do_ + P.c.ss) f0 f ∧
  (∀ o, o < P.c.ss → f dst (do_ + o) = if o < pos then copied P ctx nonce src dst fw so do_ f0 o else 0xFF#8)

theorem copyLoop_spec {P : Par} (w : P.WF) {T : Mem → Prop} {ctx : Option Mem} {nonce : Mem} {src dst : Part}
    (hsd : src ≠ dst) {fw so do_ : Nat} (f0 : Flash) :
    ∀ fuel pos, P.c.fb ∣ pos → P.c.ss < fuel + pos → 0 < fuel →
    Triple T false (CopyInv P ctx nonce src fw dst so do_ pos f0) (copyLoop P ctx nonce src fw dst so do_ fuel pos)
      false (fun _ => CopyInv P ctx nonce src fw dst so do_ P.c.ss f0)
      (fun f => Same dst do_ (do_ + P.c.ss) f0 f) := by
  have h4 := w.c.fb4
  intro fuel
  induction fuel with
  | zero => intro pos _ _ h; omega
  | succ fuel ih =>
    intro pos hdv hfuel _
    unfold copyLoop
    refine Triple.ite (fun hlt => ?_) (fun hge => ?_)
    · have hdv' : P.c.fb ∣ pos + P.c.fb := (Nat.dvd_add_right hdv).mpr (Nat.dvd_refl _)
      have hle : pos + P.c.fb ≤ P.c.ss := by
        have h1 : P.c.fb ∣ P.c.ss - pos := Nat.dvd_sub w.c.fb_dvd hdv
        have := Nat.le_of_dvd (by omega) h1
        omega
      have hchunk : ∀ o, o < P.c.fb → (pos + o) / P.c.fb * P.c.fb = pos := by
        intro o ho
        obtain ⟨q, rfl⟩ := hdv
        rw [Nat.mul_add_div (by omega), Nat.div_eq_of_lt ho, Nat.add_zero, Nat.mul_comm]
      -- a chunk that is not written
      have hskip : ∀ f, CopyInv P ctx nonce src fw dst so do_ pos f0 f →
          ¬ (so + pos < fw + P.c.h + P.c.fb ∧ ¬ (dst = .update ∧ ctx = none)) →
          CopyInv P ctx nonce src fw dst so do_ (pos + P.c.fb) f0 f := by
        intro g hf hout
        refine ⟨hf.1, fun o ho => ?_⟩
        rw [hf.2 o ho]
        by_cases hr : pos ≤ o ∧ o < pos + P.c.fb
        · rw [if_neg (by omega), if_pos (by omega)]
          unfold copied
          have := hchunk (o - pos) (by omega)
          rw [show pos + (o - pos) = o by omega] at this
          rw [this, if_neg hout]
        · by_cases h2 : o < pos
          · rw [if_pos h2, if_pos (by omega)]
          · rw [if_neg h2, if_neg (by omega)]
      refine Triple.bind (Q := fun _ => CopyInv P ctx nonce src fw dst so do_ (pos + P.c.fb) f0) ?_
        (fun _ => ih (pos + P.c.fb) hdv' (by omega) (by omega))
      unfold copyChunk
      refine Triple.ite (fun hin => ?_) (fun hout => ?_)
      · refine Triple.ite (fun hno => ?_) (fun hyes => ?_)
        · exact (Triple.pure (Q := fun _ => CopyInv P ctx nonce src fw dst so do_ pos f0) ()).conseq
            (fun _ h => h) (fun _ g hf => hskip g hf (fun h => h.2 hno)) (fun g h => h)
        refine Triple.readFlash (fun f hf => ?_)
        refine Triple.program ?_ ?_ ?_
        · rintro g rfl i hi
          have := hf.2 (pos + i) (by omega)
          rw [if_neg (by omega)] at this
          rw [Nat.add_assoc, this]
          exact BitVec.allOnes_and
        · rintro g rfl
          refine ⟨hf.1.trans ((same_program _ _ _ _ _).mono (by omega) (by omega)), ?_⟩
          intro o ho
          unfold Flash.program
          by_cases hr : pos ≤ o ∧ o < pos + P.c.fb
          · rw [if_pos ⟨rfl, by omega, by omega⟩, if_pos (by omega), hf.2 o ho,
              if_neg (by omega), show do_ + o - (do_ + pos) = o - pos by omega,
              hf.1.other hsd]
            unfold copied
            have := hchunk (o - pos) (by omega)
            rw [show pos + (o - pos) = o by omega] at this
            rw [this, if_pos ⟨hin, hyes⟩]
            dsimp only
            rw [show so + pos + (o - pos) = so + o by omega, show do_ + pos + (o - pos) = do_ + o by omega]
            exact BitVec.allOnes_and
          · rw [if_neg (by omega), hf.2 o ho]
            by_cases h2 : o < pos
            · rw [if_pos h2, if_pos (by omega)]
            · rw [if_neg h2, if_neg (by omega)]
        · rintro t g hT rfl
          exact hf.1.trans ((same_tornProgram _ _ _ _ _ _ _).mono (by omega) (by omega))
      · exact (Triple.pure (Q := fun _ => CopyInv P ctx nonce src fw dst so do_ pos f0) ()).conseq
          (fun _ h => h) (fun _ g hf => hskip g hf (fun h => hout h.1)) (fun g h => h)
    · refine (Triple.pure (Q := fun _ => CopyInv P ctx nonce src fw dst so do_ pos f0) ()).conseq
        (fun _ h => h) ?_ (fun _ h => h)
      rintro _ g hf
      refine ⟨hf.1, fun o ho => ?_⟩
      rw [hf.2 o ho, if_pos (by omega), if_pos (by omega)]

theorem copySector_spec {P : Par} (w : P.WF) {T : Mem → Prop} {ctx : Option Mem} {src dst : Part}
    (hsd : src ≠ dst) {fw k : Nat} (f0 : Flash) :
    Triple T false (fun f => f = f0) (copySector P ctx src fw dst k) false
      (fun _ f => Same dst (secOff P.c dst k) (secOff P.c dst k + P.c.ss) f0 f ∧
        ∀ o, o < P.c.ss → f dst (secOff P.c dst k + o) =
          copied P ctx (nonceOf P (secret P f0)) src dst fw (secOff P.c src k) (secOff P.c dst k) f0 o)
      (fun f => Same dst (secOff P.c dst k) (secOff P.c dst k + P.c.ss) f0 f) := by
  have h4 := w.c.fb4
  have hfb := w.c.fb_le
  unfold copySector
  refine Triple.readFlash (fun f hf => ?_)
  subst hf
  change Triple T false _ (erase P.c dst (secOff P.c dst k) P.c.ss >>= fun _ =>
    copyLoop P ctx (nonceOf P (secret P f)) src fw dst (secOff P.c src k) (secOff P.c dst k) (P.c.ss + 1) 0) false _ _
  refine Triple.bind (Q := fun _ => CopyInv P ctx (nonceOf P (secret P f)) src fw dst (secOff P.c src k)
      (secOff P.c dst k) 0 f) ?_
    (fun _ => (copyLoop_spec w hsd f (P.c.ss + 1) 0 (Nat.dvd_zero _) (by omega) (by omega)).conseq
      (fun _ h => h) ?_ (fun _ h => h))
  · refine Triple.erase ?_ ?_
    · rintro g rfl
      refine ⟨same_erase _ _ _ _, fun o ho => ?_⟩
      unfold Flash.erase
      rw [if_pos ⟨rfl, by omega, by omega⟩, if_neg (by omega)]
    · rintro t g hT rfl
      exact same_tornErase _ _ _ _ _ _
  · rintro _ g ⟨h1, h2⟩
    refine ⟨h1, fun o ho => ?_⟩
    rw [h2 o ho, if_pos ho]

/-! ## The decrypted view -/

/-- The flash as it would be without encryption, while sector `j` is in SWAP: BOOT and UPDATE behind `tmp` are
not looked at. -/
def pl (P : Par) (st : Nat → Byte) (j : Nat) (f : Flash) : Flash := fun p o =>
  match p with
  | .boot => if P.c.tmp ≤ o ∧ o < P.c.last then 0xFF#8 else f .boot o
  | .update => if o < P.c.tmp then f .update o ^^^ st o else if o < P.c.last then 0xFF#8 else f .update o
  | .swap => f .swap o ^^^ st (j * P.c.ss + o)

/-- The secret is in its place, and there is no magic word behind the place of its copy. -/
structure Safe (P : Par) (K : Mem) (f : Flash) : Prop where
  key : secret P f = K
  word : le32 (f .boot) (P.c.tmp + P.S) ≠ MAGIC_TRAIL

section
variable {P : Par} (w : P.WF) {K : Mem} {st : Nat → Byte}
include w

theorem xor_self_cancel (a b : Byte) : a ^^^ b ^^^ b = a := by
  rw [BitVec.xor_assoc, BitVec.xor_self, BitVec.xor_zero]

omit w in
theorem pl_same {p : Part} {lo hi j : Nat} {f f' : Flash} (h : Same p lo hi f f') :
    Same p lo hi (pl P st j f) (pl P st j f') := by
  intro q a hn
  have := h q a hn
  unfold pl
  cases q <;> simp only <;> rw [this]

theorem pl_ntB (j : Nat) (f : Flash) : le32 (pl P st j f .boot) P.c.tmp ≠ MAGIC_TRAIL := by
  have := w.c.last_eq
  have := w.c.ss_pos
  have : le32 (pl P st j f .boot) P.c.tmp = 4294967295 := by
    unfold le32 pl
    simp only
    rw [if_pos (by omega), if_pos (by omega), if_pos (by omega), if_pos (by omega)]
    rfl
  rw [this]; decide

theorem pl_ntU (j : Nat) (f : Flash) : le32 (pl P st j f .update) P.c.tmp ≠ MAGIC_TRAIL := by
  have := w.c.last_eq
  have := w.c.ss_pos
  have : le32 (pl P st j f .update) P.c.tmp = 4294967295 := by
    unfold le32 pl
    simp only
    rw [if_neg (by omega), if_pos (by omega), if_neg (by omega), if_pos (by omega), if_neg (by omega),
      if_pos (by omega), if_neg (by omega), if_pos (by omega)]
    rfl
  rw [this]; decide

omit w in
theorem pl_boot_lt {j o : Nat} {f : Flash} (h : o < P.c.tmp) : pl P st j f .boot o = f .boot o := by
  unfold pl; simp only; rw [if_neg (by omega)]

theorem pl_boot_ge {j o : Nat} {f : Flash} (h : P.c.last ≤ o) : pl P st j f .boot o = f .boot o := by
  unfold pl; simp only; rw [if_neg (by omega)]

omit w in
theorem pl_upd_lt {j o : Nat} {f : Flash} (h : o < P.c.tmp) : pl P st j f .update o = f .update o ^^^ st o := by
  unfold pl; simp only; rw [if_pos h]

theorem pl_upd_ge {j o : Nat} {f : Flash} (h : P.c.last ≤ o) : pl P st j f .update o = f .update o := by
  have := w.c.last_eq
  unfold pl; simp only; rw [if_neg (by omega), if_neg (by omega)]

/-- BOOT and UPDATE look the same in all views. -/
theorem pl_boot (i j : Nat) (f : Flash) : pl P st i f .boot = pl P st j f .boot := rfl
theorem pl_upd (i j : Nat) (f : Flash) : pl P st i f .update = pl P st j f .update := rfl

/-- The trailer of UPDATE is not encrypted. -/
theorem pl_trailer (j : Nat) (f : Flash) :
    (∀ i, i < P.c.n → rawFlag P.c (pl P st j f) i = rawFlag P.c f i) ∧
    (hasMagic P.c (pl P st j f) .update ↔ hasMagic P.c f .update) ∧
    (MagicP P.c (pl P st j f) .update → MagicP P.c f .update) ∧
    pl P st j f .update (trailerAt P.c 1) = f .update (trailerAt P.c 1) := by
  obtain ⟨h1, h2, _, h4⟩ := trailer_frame w.c (f := f) (f' := pl P st j f) (fun x hx => pl_upd_ge w hx)
  obtain ⟨_, _, h3, _⟩ := trailer_frame w.c (f := pl P st j f) (f' := f) (fun x hx => (pl_upd_ge w hx).symm)
  exact ⟨h1, h2, h3, h4⟩

theorem pl_getFlag {j i : Nat} {f : Flash} (hi : i < P.c.n) : getFlag P.c (pl P st j f) i = getFlag P.c f i := by
  obtain ⟨h1, h2, h3, h4⟩ := pl_trailer w (st := st) j f
  unfold getFlag
  rw [h1 i hi]
  by_cases h : hasMagic P.c f .update
  · rw [if_pos h, if_pos (h2.mpr h)]
  · rw [if_neg h, if_neg (fun h' => h (h2.mp h'))]

theorem pl_stateU {j : Nat} {f : Flash} : getState P.c (pl P st j f) .update = getState P.c f .update := by
  obtain ⟨h1, h2, h3, h4⟩ := pl_trailer w (st := st) j f
  unfold getState
  rw [h4]
  by_cases h : hasMagic P.c f .update
  · rw [if_pos h, if_pos (h2.mpr h)]
  · rw [if_neg h, if_neg (fun h' => h (h2.mp h'))]

theorem pl_testing {j : Nat} {f : Flash} : Testing P.c (pl P st j f) ↔ Testing P.c f :=
  ⟨testing_frame w.c (fun x hx => (pl_boot_ge w hx).symm), testing_frame w.c (fun x hx => pl_boot_ge w hx)⟩

/-- Operations away from the secret and the sector at `tmp`. -/
theorem Safe.same {p : Part} {lo hi : Nat} {f f' : Flash} (h : Safe P K f) (hs : Same p lo hi f f')
    (hp : p ≠ .boot ∨ hi ≤ P.c.tmp ∨ (P.c.last ≤ lo ∧ hi ≤ P.c.part)) : Safe P K f' := by
  have hle := w.c.last_eq
  have hpe := w.c.part_eq
  have hroom := w.room
  have hb : ∀ o, (P.c.tmp ≤ o ∧ o < P.c.last) ∨ P.c.part ≤ o → f' .boot o = f .boot o := by
    intro o ho
    by_cases hpb : p = .boot
    · subst hpb
      exact hs.out (by rcases hp with h | h | h <;> first | exact absurd rfl h | omega)
    · rw [hs.other (fun e => hpb e.symm)]
  constructor
  · rw [← h.key]
    funext i
    unfold secret secretAt
    rw [hb _ (by omega)]
  · rw [le32_congr (m := f' .boot) (x := f .boot) (fun o h1 h2 => hb o (by omega))]
    exact h.word

/-- What the copies of the swap do in the view. -/
theorem copy_view {src dst : Part} {fw k : Nat} (hk : k < P.c.n - 2) (hst : st = stream P K)
    (hc : (src = .update ∧ dst = .swap) ∨ (src = .boot ∧ dst = .update) ∨ (src = .swap ∧ dst = .boot))
    (f0 : Flash) (hS : Safe P K f0) :
    Triple (TE P) false (fun f => f = f0) (copySector P (some K) src fw dst k) false
      (fun _ f => Safe P K f ∧
        Same dst (secOff P.c dst k) (secOff P.c dst k + P.c.ss) (pl P st k f0) (pl P st k f) ∧
        ∀ o, o < P.c.ss → secOff P.c src k + o < fw + P.c.h →
          pl P st k f dst (secOff P.c dst k + o) = pl P st k f0 src (secOff P.c src k + o))
      (fun f => Safe P K f ∧
        Same dst (secOff P.c dst k) (secOff P.c dst k + P.c.ss) (pl P st k f0) (pl P st k f)) := by
  have hl := Cfg.WF.sec_le_tmp (c := P.c) hk
  have hle := w.c.last_eq
  have h4 := w.c.fb4
  have hsd : src ≠ dst := by rcases hc with ⟨rfl, rfl⟩ | ⟨rfl, rfl⟩ | ⟨rfl, rfl⟩ <;> simp
  have hsafe : ∀ f, Same dst (secOff P.c dst k) (secOff P.c dst k + P.c.ss) f0 f → Safe P K f := by
    intro f hs
    refine hS.same w hs ?_
    by_cases h : dst = .boot
    · right; left
      subst h
      unfold secOff
      rw [if_neg (by simp)]; exact hl
    · exact Or.inl h
  refine (copySector_spec w hsd f0).conseq (fun _ h => h) ?_ (fun f hs => ⟨hsafe f hs, pl_same hs⟩)
  rintro _ f ⟨hs, hcp⟩
  refine ⟨hsafe f hs, pl_same hs, fun o ho hx => ?_⟩
  have h1 := hcp o ho
  unfold copied at h1
  have : o / P.c.fb * P.c.fb ≤ o := Nat.div_mul_le_self _ _
  rw [if_pos ⟨by omega, by simp⟩] at h1
  rcases hc with ⟨rfl, rfl⟩ | ⟨rfl, rfl⟩ | ⟨rfl, rfl⟩
  · unfold secOff at h1 ⊢
    simp only [reduceCtorEq, ↓reduceIte, Nat.zero_add] at h1 ⊢
    rw [pl_upd_lt (by omega)]
    unfold pl
    simp only
    rw [h1]
    rfl
  · unfold secOff at h1 ⊢
    simp only [reduceCtorEq, ↓reduceIte] at h1 ⊢
    rw [pl_upd_lt (by omega), pl_boot_lt (by omega), h1, hst]
    unfold conv
    simp only [Option.getD_some]
    rw [xor_self_cancel w]
  · unfold secOff at h1 ⊢
    simp only [reduceCtorEq, ↓reduceIte, Nat.zero_add] at h1 ⊢
    rw [pl_boot_lt (by omega), h1, hst]
    unfold conv pl
    simp only [Option.map_some]
    rw [hS.key]
    rfl

end

end Verif.EncUp
