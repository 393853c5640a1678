import Verif.InvSwap
import Verif.InvTrailerLemmas

/-!
# Helper lemmas: copying a sector
-/

namespace Verif.Inv

/-- What byte `o` of the destination sector holds after copying from memory `g` at offset `so`. -/
def copied (c : Cfg) (fw so : Nat) (g : Mem) (o : Nat) : Byte :=
  if so + o / c.fb * c.fb < fw + c.h + c.fb then g (so + o) else 0x00#8

theorem copied_lt {c : Cfg} {fw so o : Nat} {g : Mem} (hfb : 0 < c.fb) (h : so + o < fw + c.h) :
    copied c fw so g o = g (so + o) := by
  unfold copied
  have : o / c.fb * c.fb ≤ o := Nat.div_mul_le_self _ _
  rw [if_pos (by omega)]

/-- The first word of a copied sector: the source word or erased. -/
theorem copied_word {c : Cfg} (w : c.WF) {fw so : Nat} {g m : Mem} {a : Nat}
    (h : ∀ o, o < 4 → m (a + o) = copied c fw so g o) :
    le32 m a = le32 g so ∨ le32 m a = 0 := by
  have hz : ∀ o, o < 4 → o / c.fb = 0 := fun o ho => Nat.div_eq_of_lt (by have := w.fb4; omega)
  have h' : ∀ o, o < 4 → m (a + o) = if so < fw + c.h + c.fb then g (so + o) else 0x00#8 := by
    intro o ho
    rw [h o ho]; unfold copied; rw [hz o ho]; simp
  have h0 := h' 0 (by omega)
  simp only [Nat.add_zero] at h0
  unfold le32
  rw [h0, h' 1 (by omega), h' 2 (by omega), h' 3 (by omega)]
  split
  · left; rfl
  · right; rfl

theorem fuel_step {ss fb pos fuel : Nat} (hfb : 0 < fb) (h : ss < fuel + 1 + pos) :
    ss < fuel + (pos + fb) := by omega

/-- Loop state of `copyLoop`. -/
def CopyInv (c : Cfg) (src : Part) (fw : Nat) (dst : Part) (so do_ pos : Nat) (f0 f : Flash) : Prop :=
  Same dst do_ (do_ + c.ss) f0 f ∧
  (∀ o, o < c.ss → f dst (do_ + o) = if o < pos then copied c fw so (f0 src) o else 0x00#8)

/-- What a power failure during a sector copy can leave behind. -/
def CopyCrash (c : Cfg) (T : Mem → Prop) (src : Part) (dst : Part) (so do_ : Nat) (f0 f : Flash) :
    Prop :=
  Same dst do_ (do_ + c.ss) f0 f ∧
  ((∃ t, T t ∧ le32 (f dst) do_ = le32 t do_) ∨ le32 (f dst) do_ = 0 ∨
    le32 (f dst) do_ = le32 (f0 src) so)

/-- The same in more detail: the first flash buffer of the sector is torn, erased, or copied. (Not for the
trailer sectors.) -/
def CopyCrashS (c : Cfg) (T : Mem → Prop) (src : Part) (fw : Nat) (dst : Part) (so do_ : Nat)
    (f0 f : Flash) : Prop :=
  Same dst do_ (do_ + c.ss) f0 f ∧
  (dst = .swap ∨ do_ + c.ss ≤ c.last → (∃ t, T t ∧ le32 (f dst) do_ = le32 t do_) ∨
    le32 (f dst) do_ = 0 ∨
    ∀ o, o < c.fb → f dst (do_ + o) = copied c fw so (f0 src) o)

theorem CopyCrashS.weak {c : Cfg} (w : c.WF) {T : Mem → Prop} {src dst : Part}
    {fw so do_ : Nat} {f0 f : Flash} (h : CopyCrashS c T src fw dst so do_ f0 f)
    (hreg : dst = .swap ∨ do_ + c.ss ≤ c.last) : CopyCrash c T src dst so do_ f0 f := by
  refine ⟨h.1, ?_⟩
  have h4 := w.fb4
  rcases h.2 hreg with h | h | h
  · exact Or.inl h
  · exact Or.inr (Or.inl h)
  · have := copied_word w (fw := fw) (so := so) (g := f0 src) (m := f dst) (a := do_)
      (fun o ho => h o (by omega))
    right; omega

theorem CopyInv.crash {c : Cfg} (w : c.WF) {T : Mem → Prop} {src dst : Part}
    {fw so do_ pos : Nat} {f0 f : Flash} (h : CopyInv c src fw dst so do_ pos f0 f)
    (hpos : c.fb ∣ pos) : CopyCrashS c T src fw dst so do_ f0 f := by
  refine ⟨h.1, fun _ => Or.inr ?_⟩
  have h4 := w.fb4
  have hle := w.fb_le
  by_cases hp : pos = 0
  · left
    unfold le32
    have e := fun o (ho : o < 4) => h.2 o (by omega)
    have e0 := e 0 (by omega)
    simp only [Nat.add_zero] at e0
    rw [e0, e 1 (by omega), e 2 (by omega), e 3 (by omega), hp]
    simp
  · have hge : c.fb ≤ pos := Nat.le_of_dvd (by omega) hpos
    right
    intro o ho
    rw [h.2 o (by omega), if_pos (by omega)]

theorem copyLoop_spec {c : Cfg} (w : c.WF) {T : Mem → Prop} {src dst : Part} (hsd : src ≠ dst)
    {fw so do_ : Nat} (f0 : Flash) :
    ∀ fuel pos, c.fb ∣ pos → c.ss < fuel + pos → 0 < fuel →
    Triple T false (CopyInv c src fw dst so do_ pos f0) (copyLoop c src fw dst so do_ fuel pos) false
      (fun _ => CopyInv c src fw dst so do_ c.ss f0) (CopyCrashS c T src fw dst so do_ f0) := by
  have h4 := w.fb4
  intro fuel
  induction fuel with
  | zero => intro pos _ _ h; omega
  | succ fuel ih =>
    intro pos hdv hfuel _
    unfold copyLoop
    refine Triple.ite (fun hlt => ?_) (fun hge => ?_)
    · have hdv' : c.fb ∣ pos + c.fb := (Nat.dvd_add_right hdv).mpr (Nat.dvd_refl _)
      have hle : pos + c.fb ≤ c.ss := by
        have h1 : c.fb ∣ c.ss - pos := Nat.dvd_sub w.fb_dvd hdv
        have := Nat.le_of_dvd (by omega) h1
        omega
      have hchunk : ∀ o, o < c.fb → (pos + o) / c.fb * c.fb = pos := by
        intro o ho
        obtain ⟨q, rfl⟩ := hdv
        rw [Nat.mul_add_div (by omega), Nat.div_eq_of_lt ho, Nat.add_zero, Nat.mul_comm]
      refine Triple.bind (Q := fun _ => CopyInv c src fw dst so do_ (pos + c.fb) f0) ?_
        (fun _ => ih (pos + c.fb) hdv' (by omega) (by omega))
      unfold copyChunk
      refine Triple.ite (fun hin => ?_) (fun hout => ?_)
      · refine Triple.readFlash (fun f hf => ?_)
        refine Triple.program ?_ ?_ ?_
        · rintro g rfl i hi
          have := hf.2 (pos + i) (by omega)
          rw [if_neg (by omega)] at this
          rw [Nat.add_assoc, this]
          exact BitVec.zero_or
        · rintro g rfl
          refine ⟨hf.1.trans ((same_program _ _ _ _ _).mono (by omega) (by omega)), ?_⟩
          intro o ho
          unfold Flash.program
          by_cases hr : pos ≤ o ∧ o < pos + c.fb
          · rw [if_pos ⟨rfl, by omega, by omega⟩, if_pos (by omega), hf.2 o ho,
              if_neg (by omega), show do_ + o - (do_ + pos) = o - pos by omega,
              hf.1.other hsd]
            unfold copied
            have := hchunk (o - pos) (by omega)
            rw [show pos + (o - pos) = o by omega] at this
            rw [this, if_pos hin]
            dsimp only
            rw [show so + pos + (o - pos) = so + o by omega]
            exact BitVec.zero_or
          · rw [if_neg (by omega), hf.2 o ho]
            by_cases h2 : o < pos
            · rw [if_pos h2, if_pos (by omega)]
            · rw [if_neg h2, if_neg (by omega)]
        · rintro t g hT rfl
          have hs := same_tornProgram c t g dst (do_ + pos) c.fb (fun i => g src (so + pos + i))
          refine ⟨hf.1.trans (hs.mono (by omega) (by omega)), fun hreg => ?_⟩
          by_cases hp : pos = 0
          · left
            refine ⟨t, hT, le32_congr ?_⟩
            intro o h1 h2
            unfold Flash.tornProgram
            rw [if_pos ⟨rfl, by omega, by omega⟩, if_neg]
            rintro ⟨hns, hlast⟩
            rcases hreg with h | h
            · exact hns h
            · omega
          · have hge : c.fb ≤ pos := Nat.le_of_dvd (by omega) hdv
            have := (hf.crash w (T := T) hdv).2 hreg
            have he : le32 (Flash.tornProgram c t g dst (do_ + pos) c.fb
                (fun i => g src (so + pos + i)) dst) do_ = le32 (g dst) do_ :=
              le32_congr (fun o h1 h2 => hs.out (by omega))
            rw [he]
            rcases this with h | h | h
            · exact Or.inl h
            · exact Or.inr (Or.inl h)
            · refine Or.inr (Or.inr (fun o ho => ?_))
              rw [hs.out (by omega)]
              exact h o ho
      · refine (Triple.pure (Q := fun _ => CopyInv c src fw dst so do_ pos f0) ()).conseq
          (fun _ h => h) ?_ (fun _ h => h)
        rintro _ g hf
        refine ⟨hf.1, fun o ho => ?_⟩
        rw [hf.2 o ho]
        by_cases hr : pos ≤ o ∧ o < pos + c.fb
        · rw [if_neg (by omega), if_pos (by omega)]
          unfold copied
          have := hchunk (o - pos) (by omega)
          rw [show pos + (o - pos) = o by omega] at this
          rw [this, if_neg hout]
        · by_cases h2 : o < pos
          · rw [if_pos h2, if_pos (by omega)]
          · rw [if_neg h2, if_neg (by omega)]
    · refine (Triple.pure (Q := fun _ => CopyInv c src fw dst so do_ pos f0) ()).conseq
        (fun _ h => h) ?_ (fun _ h => h)
      rintro _ g hf
      refine ⟨hf.1, fun o ho => ?_⟩
      rw [hf.2 o ho, if_pos (by omega), if_pos (by omega)]

/-- Sector offset in a partition. -/
def secOff (c : Cfg) (p : Part) (k : Nat) : Nat := if p = .swap then 0 else k * c.ss

theorem copySector_specS {c : Cfg} (w : c.WF) {T : Mem → Prop} {src dst : Part} (hsd : src ≠ dst)
    {fw k : Nat} (f0 : Flash) :
    Triple T false (fun f => f = f0) (copySector c src fw dst k) false
      (fun _ f => Same dst (secOff c dst k) (secOff c dst k + c.ss) f0 f ∧
        ∀ o, o < c.ss → f dst (secOff c dst k + o) = copied c fw (secOff c src k) (f0 src) o)
      (fun f => f = f0 ∨
        CopyCrashS c T src fw dst (secOff c src k) (secOff c dst k) f0 f) := by
  have h4 := w.fb4
  have hfb := w.fb_le
  unfold copySector
  change Triple T false _ (erase c dst (secOff c dst k) c.ss >>= fun _ =>
    copyLoop c src fw dst (secOff c src k) (secOff c dst k) (c.ss + 1) 0) false _ _
  refine Triple.bind (Q := fun _ => CopyInv c src fw dst (secOff c src k) (secOff c dst k) 0 f0)
    ?_ (fun _ => (copyLoop_spec w hsd f0 (c.ss + 1) 0 (Nat.dvd_zero _) (by omega) (by omega)).conseq
      (fun _ h => h) ?_ (fun _ h => Or.inr h))
  · refine Triple.erase ?_ ?_
    · rintro g rfl
      refine ⟨same_erase _ _ _ _, fun o ho => ?_⟩
      unfold Flash.erase
      rw [if_pos ⟨rfl, by omega, by omega⟩, if_neg (by omega)]
    · rintro t g hT rfl
      right
      refine ⟨same_tornErase _ _ _ _ _ _, fun hreg => Or.inl ⟨t, hT, le32_congr ?_⟩⟩
      intro o h1 h2
      unfold Flash.tornErase
      rw [if_neg]
      · simp only
        rw [if_pos ⟨trivial, by omega, by omega⟩]
      · rintro ⟨hu, hl⟩
        rcases hreg with h | h
        · rw [hu] at h; simp at h
        · omega
  · rintro _ f ⟨h1, h2⟩
    refine ⟨h1, fun o ho => ?_⟩
    rw [h2 o ho, if_pos ho]

theorem copySector_spec {c : Cfg} (w : c.WF) {T : Mem → Prop} {src dst : Part} (hsd : src ≠ dst)
    {fw k : Nat} (hk : dst = .swap ∨ k < c.n - 1) (f0 : Flash) :
    Triple T false (fun f => f = f0) (copySector c src fw dst k) false
      (fun _ f => Same dst (secOff c dst k) (secOff c dst k + c.ss) f0 f ∧
        ∀ o, o < c.ss → f dst (secOff c dst k + o) = copied c fw (secOff c src k) (f0 src) o)
      (fun f => f = f0 ∨
        CopyCrash c T src dst (secOff c src k) (secOff c dst k) f0 f) := by
  have hreg : dst = .swap ∨ secOff c dst k + c.ss ≤ c.last := by
    by_cases h : dst = .swap
    · exact Or.inl h
    · right
      unfold secOff
      rw [if_neg h]
      exact Cfg.WF.sec_le_last (by simpa [h] using hk)
  refine (copySector_specS w hsd f0).conseq (fun _ h => h) (fun _ _ h => h) ?_
  rintro f (h | h)
  · exact Or.inl h
  · exact Or.inr (h.weak w hreg)

end Verif.Inv
