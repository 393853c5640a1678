import Verif.EncSwap

/-!
# Helper lemmas: the final phase of an update with encrypted external flash
-/

set_option linter.unusedSectionVars false
set_option linter.unusedVariables false

namespace Verif.EncUp

/-- Final phase: everything is swapped, the state of UPDATE is FINAL_FLAGS; the secret is in its place, or saved in the
sector at `tmp` and followed by the magic word. -/
structure FinE (P : Par) (K : Mem) (A : Mem) (a : Nat) (B : Mem) (b : Nat) (f : Flash) : Prop where
  magic : hasMagic P.c f .update
  st : f .update (trailerAt P.c 1) = ST_FINAL
  boot : Agree (f .boot) B 0 b
  upd : Agree (pl P (stream P K) 0 f .update) A 0 a
  saved : le32 (f .boot) (P.c.tmp + P.S) = MAGIC_TRAIL → secretAt P (f .boot) P.c.tmp = K
  inPlace : le32 (f .boot) (P.c.tmp + P.S) ≠ MAGIC_TRAIL → secret P f = K

/-- The swap is complete. -/
structure DoneE (P : Par) (K : Mem) (A : Mem) (a : Nat) (B : Mem) (b : Nat) (f : Flash) : Prop where
  boot : Agree (f .boot) B 0 b
  upd : Agree (pl P (stream P K) 0 f .update) A 0 a
  testing : Testing P.c f
  blank : ∀ x, P.c.last ≤ x → x < P.c.part → f .update x = 0xFF#8
  safe : Safe P K f

/-- States reachable while updating from `A` to `B`. -/
def ProgE (P : Par) (K : Mem) (V : Prop × Prop) (A : Mem) (a : Nat) (B : Mem) (b : Nat) (f : Flash) : Prop :=
  InE P K V A a B b f ∨ FinE P K A a B b f ∨ DoneE P K A a B b f

theorem pl_congr {P : Par} {st : Nat → Byte} {i j : Nat} {f f' : Flash} {p : Part} (hp : p ≠ .swap) (h : f' p = f p) :
    pl P st i f' p = pl P st j f p := by
  cases p with
  | swap => exact absurd rfl hp
  | boot => unfold pl; simp only; rw [h]
  | update => unfold pl; simp only; rw [h]

section
variable {P : Par} (w : P.WF) {K : Mem} {V : Prop × Prop} {A B : Mem} {a b : Nat}
include w

/-- Setting the state of UPDATE, as seen by the invariant of the swap. -/
theorem SwapI.setState {f g : Flash} {k : Nat} (ha : a ≤ P.c.last) (hb : b ≤ P.c.last) (hk : k ≤ P.c.n - 1)
    (hI : SwapI P.c V A a B b f k .new) (h1 : Same .update (trailerAt P.c 1) P.c.part f g) (hm : hasMagic P.c g .update)
    (hgf : g .update (trailerAt P.c 1) ≠ ST_FINAL)
    (hstate : g .update (trailerAt P.c 1) &&& ST_FINAL = ST_FINAL ∧
      (f .update (trailerAt P.c 1) = ST_UPDATING → g .update (trailerAt P.c 1) = ST_UPDATING)) :
    SwapI P.c V A a B b g k .new := by
  have hss := w.c.ss_pos
  have hn2 := w.c.n2
  have hle := w.c.last_eq
  have htb := trailer_bounds w.c (k := 1) (by omega)
  have hgb : g .boot = f .boot := h1.other (by simp)
  have hfl : ∀ j, j < P.c.n → rawFlag P.c g j = rawFlag P.c f j := by
    intro j hj
    refine rawFlag_congr (h1.out ?_)
    left
    have hff := w.c.flags_fit
    have hn := w.c.n512
    have : flagPos j ≤ P.c.n / 2 := by rw [flagPos_lt (by omega)]; omega
    have := trailer_bounds w.c (k := 2 + flagPos j) (by omega)
    omega
  have hat : ∀ q X x i, q ≠ .swap → x ≤ P.c.last → SecAt P.c f q X x i → SecAt P.c g q X x i := by
    intro q X x i hq hx h o ho hox
    have h2 := h o ho hox
    unfold secOff at h2 ⊢
    rw [if_neg hq] at h2 ⊢
    rw [← h2]
    by_cases hqu : q = .update
    · subst hqu; exact h1.out (by omega)
    · rw [h1.other hqu]
  have hcore := hI.core
  refine ⟨⟨?_, ?_, hm.magicP, hstate.1, hgf, ?_, by rw [hgb]; exact hcore.ntB, ?_⟩, ?_,
    fun _ => hm, by simp, hI.kle, by simp⟩
  · intro i hi hin
    obtain ⟨⟨h1, h2⟩, h3⟩ := hcore.done i hi hin
    exact ⟨⟨hat _ _ _ _ (by simp) hb h1, hat _ _ _ _ (by simp) ha h2⟩,
      by rw [hfl i (by omega)]; exact h3⟩
  · intro i hi hin
    obtain ⟨⟨h1, h2⟩, h3⟩ := hcore.fresh i hi hin
    exact ⟨⟨hat _ _ _ _ (by simp) ha h1, hat _ _ _ _ (by simp) hb h2⟩,
      by rw [hfl i (by omega)]; exact h3⟩
  · rcases hcore.go with h | ⟨_, h2, h3⟩ | h
    · exact Or.inl ⟨h.1, testing_frame w.c (fun x _ => by rw [hgb]) h.2⟩
    · exact Or.inr (Or.inl ⟨hm, hstate.2 h2, h3⟩)
    · exact Or.inr (Or.inr h)
  · rw [word_out (x := f .update) (fun y hy => h1.out hy) (by omega)]
    exact hcore.ntU
  · intro hkn
    obtain ⟨⟨h1, h2⟩, h3⟩ := hI.cur hkn
    exact ⟨⟨hat _ _ _ _ (by simp) ha h1, hat _ _ _ _ (by simp) hb h2⟩,
      by rw [hfl k (by omega)]; exact h3⟩

theorem EndSec.le' (ha : a ≤ P.c.tmp) (hb : b ≤ P.c.tmp) {k : Nat} (hK : EndSec P.c (max a b) k) : k ≤ P.c.n - 1 := by
  have hle := w.c.last_eq
  exact EndSec.le w.c (by omega) hK

theorem finalSave_spec (ha : a ≤ P.c.tmp) (hb : b ≤ P.c.tmp) {k : Nat} (hK1 : 1 ≤ k)
    (hK : EndSec P.c (max a b) k) {ctx : Option Mem} {bootFw : Nat} {st : Byte}
    (hst : st ≠ ST_FINAL) (f0 : Flash) (hI : SwE P K V A a B b f0 k .new) :
    Triple (TE P) false (fun f => f = f0) (finalSave P ctx bootFw st) false
      (fun _ f => FinE P K A a B b f ∧ f .boot = f0 .boot) (ProgE P K V A a B b) := by
  have hss := w.c.ss_pos
  have hn2 := w.c.n2
  have hpe := w.c.part_eq
  have hle := w.c.last_eq
  have htb := trailer_bounds w.c (k := 1) (by omega)
  have hKn := EndSec.le' w ha hb hK
  obtain ⟨hB, hA⟩ := holds_of_end w.c (by omega) (by omega) hK hI.view
  unfold finalSave
  rw [if_pos hst]
  have hsw : ∀ f, Same .swap (secOff P.c .swap (P.c.tmp / P.c.ss)) (secOff P.c .swap (P.c.tmp / P.c.ss) + P.c.ss) f0 f →
      SwE P K V A a B b f k .new := by
    intro f hs
    exact ⟨hI.view.swapOnly w.c hKn (pl_congr (by simp) (hs.other (by simp))) (pl_congr (by simp) (hs.other (by simp))),
      hI.safe.same w hs (Or.inl (by simp))⟩
  refine Triple.bind ((copySector_spec w (by simp) f0).conseq (fun _ h => h)
    (fun _ _ h => h) (fun f hs => Or.inl ⟨k, .new, hsw f hs⟩)) (fun _ => ?_)
  refine Triple.ofEq (fun f ⟨hs, _⟩ => ?_)
  have hbt : f .boot = f0 .boot := hs.other (by simp)
  have hup : f .update = f0 .update := hs.other (by simp)
  have hI' := hsw f hs
  obtain ⟨r0, m0, p0, s0⟩ := pl_trailer w (st := stream P K) k f
  have hfin : ∀ g, Same .update (trailerAt P.c 1) P.c.part f g → hasMagic P.c g .update →
      g .update (trailerAt P.c 1) = ST_FINAL → FinE P K A a B b g := by
    intro g hs2 hm hst
    have hgb : g .boot = f .boot := hs2.other (by simp)
    have hsf := hI'.safe.same w hs2 (Or.inl (by simp))
    refine ⟨hm, hst, ?_, ?_, fun h => absurd h hsf.word, fun _ => hsf.key⟩
    · intro o h1 ho
      have hx : o < P.c.tmp := by omega
      rw [hgb, hbt, ← pl_boot_lt (P := P) (st := stream P K) (j := k) (f := f0) hx]; exact hB o (by omega) ho
    · intro o _ ho
      have hx : o < P.c.tmp := by omega
      rw [pl_upd_lt hx, hs2.out (by omega), hup, ← pl_upd_lt (P := P) (j := k) (f := f0) hx]; exact hA o (by omega) ho
  refine (setState_spec w.c (by simp) f ST_FINAL (p0 hI'.view.core.magicP) (by rw [← s0]; exact hI'.view.core.stP)).conseq
    (fun _ h => h) ?_ ?_
  · rintro _ g ⟨h1, h2, h3⟩
    exact ⟨hfin g h3 h1 h2, (h3.other (by simp)).trans hbt⟩
  · rintro g ⟨h1, h2, h3⟩
    obtain ⟨r1, m1, p1, s1⟩ := pl_trailer w (st := stream P K) k g
    have hm := h2 (m0.mp (hI'.view.magic (Or.inl (by omega))))
    by_cases hgf : g .update (trailerAt P.c 1) = ST_FINAL
    · exact Or.inr (Or.inl (hfin g h1 hm hgf))
    · left
      refine ⟨k, .new, SwapI.setState w (by omega) (by omega) hKn hI'.view (pl_same h1) (m1.mpr hm) (by rw [s1]; exact hgf) ?_,
        hI'.safe.same w h1 (Or.inl (by simp))⟩
      rw [s0, s1]
      have hstP := hI'.view.core.stP
      rw [s0] at hstP
      rcases h3 with ⟨_, h3⟩ | ⟨_, t, h3⟩
      · rw [h3]; exact ⟨hstP, id⟩
      · refine ⟨by rw [h3]; exact and_torn _ _ _ hstP, fun hu => ?_⟩
        rw [hu] at h3
        rcases torn_final_updating w.c t with h | h
        · rw [h3]; exact h
        · exact absurd (h3.trans h) hgf

/-- Changes of BOOT behind the images. -/
theorem FinE.bootFrame {f f' : Flash} {lo hi : Nat} (hb : b ≤ P.c.tmp) (h : FinE P K A a B b f) (hlo : P.c.tmp ≤ lo)
    (hs : Same .boot lo hi f f')
    (h1 : le32 (f' .boot) (P.c.tmp + P.S) = MAGIC_TRAIL → secretAt P (f' .boot) P.c.tmp = K)
    (h2 : le32 (f' .boot) (P.c.tmp + P.S) ≠ MAGIC_TRAIL → secret P f' = K) : FinE P K A a B b f' := by
  have hu : f' .update = f .update := hs.other (by simp)
  refine ⟨?_, by rw [hu]; exact h.st, ?_, ?_, h1, h2⟩
  · unfold hasMagic; rw [hu]; exact h.magic
  · intro o h1 h2
    rw [hs.out (by omega)]; exact h.boot o h1 h2
  · rw [pl_congr (j := 0) (by simp) hu]; exact h.upd

/-- Changes of BOOT in the last sector while the secret is saved. -/
theorem FinE.lastFrame {f f' : Flash} {hi : Nat} (hb : b ≤ P.c.tmp) (h : FinE P K A a B b f)
    (hw : le32 (f .boot) (P.c.tmp + P.S) = MAGIC_TRAIL) (hs : Same .boot P.c.last hi f f') :
    FinE P K A a B b f' ∧ le32 (f' .boot) (P.c.tmp + P.S) = MAGIC_TRAIL := by
  have hle := w.c.last_eq
  have hroom := w.room
  have hw' : le32 (f' .boot) (P.c.tmp + P.S) = MAGIC_TRAIL := by
    rw [le32_congr (x := f .boot) (fun o _ _ => hs.out (by omega))]; exact hw
  refine ⟨h.bootFrame w hb (by omega) hs (fun _ => ?_) (fun h => absurd hw' h), hw'⟩
  rw [← h.saved hw]
  funext i
  unfold secretAt
  split
  · exact hs.out (by omega)
  · rfl

/-- Changes of BOOT in the sector at `tmp` while the secret is in its place. -/
theorem FinE.tmpFrame {f f' : Flash} (hb : b ≤ P.c.tmp) (h : FinE P K A a B b f) (hk : secret P f = K)
    (hs : Same .boot P.c.tmp P.c.last f f') (hw : le32 (f' .boot) (P.c.tmp + P.S) ≠ MAGIC_TRAIL) :
    FinE P K A a B b f' ∧ secret P f' = K := by
  have hpe := w.c.part_eq
  have hk' : secret P f' = K := by
    rw [← hk]
    funext i
    unfold secret secretAt
    rw [hs.out (by omega)]
  exact ⟨h.bootFrame w hb (Nat.le_refl _) hs (fun h => absurd h hw) (fun _ => hk'), hk'⟩

omit w in
theorem le32_ff {m : Mem} {o : Nat} (h : ∀ x, o ≤ x → x < o + 4 → m x = 0xFF#8) : le32 m o ≠ MAGIC_TRAIL := by
  have : le32 m o = 4294967295 := by
    unfold le32
    rw [h _ (by omega) (by omega), h _ (by omega) (by omega), h _ (by omega) (by omega), h _ (by omega) (by omega)]
    rfl
  rw [this]; decide

theorem saveKey_spec (hb : b ≤ P.c.tmp) (f0 : Flash) (hF : FinE P K A a B b f0) {sd : Bool} {buf : Mem}
    (hsd : sd = decide (le32 (f0 .boot) (P.c.tmp + P.S) = MAGIC_TRAIL)) (hbuf : buf = secretAt P (f0 .boot) P.c.tmp) :
    Triple (TE P) false (fun f => f = f0) (saveKey P sd buf) false
      (fun r f => r = K ∧ FinE P K A a B b f ∧ le32 (f .boot) (P.c.tmp + P.S) = MAGIC_TRAIL)
      (FinE P K A a B b) := by
  have hle := w.c.last_eq
  have hroom := w.room
  unfold saveKey
  refine Triple.ite (fun h => ?_) (fun h => ?_)
  · rw [hsd] at h
    have h := of_decide_eq_true h
    refine (Triple.pure (Q := fun r g => r = buf ∧ g = f0) buf).conseq (fun _ h => ⟨rfl, h⟩) ?_ (fun _ h => h)
    rintro r g ⟨rfl, rfl⟩
    exact ⟨by rw [hbuf]; exact hF.saved h, hF, h⟩
  · rw [hsd, decide_eq_true_iff] at h
    have hk := hF.inPlace h
    refine Triple.readFlash (fun f hf => ?_)
    subst hf
    rw [hk]
    refine Triple.bind (l' := false) (Q := fun _ g => (FinE P K A a B b g ∧ secret P g = K) ∧
      ∀ o, P.c.tmp ≤ o → o < P.c.last → g .boot o = 0xFF#8) (Triple.erase ?_ ?_) (fun _ => ?_)
    · rintro g rfl
      have hx : ∀ o, P.c.tmp ≤ o → o < P.c.last → g.erase .boot P.c.tmp P.c.ss .boot o = 0xFF#8 := by
        intro o h1 h2
        unfold Flash.erase
        rw [if_pos ⟨rfl, h1, by omega⟩]
      exact ⟨hF.tmpFrame w hb hk ((same_erase _ _ _ _).mono (by omega) (by omega))
        (le32_ff (fun x _ _ => hx x (by omega) (by omega))), hx⟩
    · rintro t g hT rfl
      refine (hF.tmpFrame w hb hk ((same_tornErase _ _ _ _ _ _).mono (by omega) (by omega)) ?_).1
      have : le32 (g.tornErase P.c t .boot P.c.tmp P.c.ss .boot) (P.c.tmp + P.S) = le32 t (P.c.tmp + P.S) := by
        refine le32_congr (fun o h1 h2 => ?_)
        unfold Flash.tornErase
        rw [if_neg (by rintro ⟨h, _⟩; simp at h)]
        simp only
        rw [if_pos ⟨trivial, by omega, by omega⟩]
      rw [this]; exact hT
    · refine Triple.ofEq (fun f ⟨⟨hF, hk⟩, hff⟩ => ?_)
      refine Triple.bind (l' := false) (Q := fun _ g => FinE P K A a B b g ∧
        le32 (g .boot) (P.c.tmp + P.S) = MAGIC_TRAIL) (Triple.program ?_ ?_ ?_) (fun _ => ?_)
      · rintro g rfl i hi
        rw [hff _ (by omega) (by omega)]
        exact BitVec.allOnes_and
      · rintro g rfl
        have hd : ∀ i, i < P.S + 4 → g.program .boot P.c.tmp (P.S + 4) (fun i => if i < P.S then K i
            else magicByte (i - P.S)) .boot (P.c.tmp + i) = if i < P.S then K i else magicByte (i - P.S) := by
          intro i hi
          unfold Flash.program
          rw [if_pos ⟨rfl, by omega, by omega⟩, hff _ (by omega) (by omega), show P.c.tmp + i - P.c.tmp = i by omega]
          exact BitVec.allOnes_and
        have hw : le32 (g.program .boot P.c.tmp (P.S + 4) (fun i => if i < P.S then K i
            else magicByte (i - P.S)) .boot) (P.c.tmp + P.S) = MAGIC_TRAIL := by
          refine le32_magic (fun i hi => ?_)
          rw [Nat.add_assoc, hd _ (by omega), if_neg (by omega), show P.S + i - P.S = i by omega]
        refine ⟨hF.bootFrame w hb (Nat.le_refl _) (same_program _ _ _ _ _) (fun _ => ?_) (fun h => absurd hw h), hw⟩
        funext i
        unfold secretAt
        split
        · next hi => rw [hd _ (by omega), if_pos hi]
        · next hi =>
          rw [← hk]
          unfold secret secretAt
          rw [if_neg hi]
      · rintro t g hT rfl
        refine (hF.tmpFrame w hb hk ((same_tornProgram _ _ _ _ _ _ _).mono (by omega) (by omega)) ?_).1
        have : le32 (g.tornProgram P.c t .boot P.c.tmp (P.S + 4) (fun i => if i < P.S then K i
            else magicByte (i - P.S)) .boot) (P.c.tmp + P.S) = le32 t (P.c.tmp + P.S) := by
          refine le32_congr (fun o h1 h2 => ?_)
          unfold Flash.tornProgram
          rw [if_pos ⟨rfl, by omega, by omega⟩, if_neg (by rintro ⟨_, h⟩; omega)]
        rw [this]; exact hT
      · exact (Triple.pure (Q := fun r g => r = K ∧ FinE P K A a B b g ∧
          le32 (g .boot) (P.c.tmp + P.S) = MAGIC_TRAIL) K).pre (fun g h => ⟨rfl, h⟩)

/-- The last sector of BOOT holds nothing but the magic word and the secret. -/
structure FreshLast (P : Par) (K : Mem) (f : Flash) : Prop where
  ff : ∀ x, P.c.last ≤ x → x < trailerAt P.c 0 → f .boot x = 0xFF#8
  magic : hasMagic P.c f .boot
  key : secret P f = K

theorem setKey_spec (hb : b ≤ P.c.tmp) (hK : ∀ i, P.S ≤ i → K i = 0#8) :
    Triple (TE P) false (fun f => (FinE P K A a B b f ∧ le32 (f .boot) (P.c.tmp + P.S) = MAGIC_TRAIL) ∧
        ∀ x, P.c.last ≤ x → x < P.c.part → f .boot x = 0xFF#8) (setKey P K) true
      (fun _ f => (FinE P K A a B b f ∧ le32 (f .boot) (P.c.tmp + P.S) = MAGIC_TRAIL) ∧ FreshLast P K f)
      (FinE P K A a B b) := by
  have hle := w.c.last_eq
  have hpe := w.c.part_eq
  have hss := w.c.ss_pos
  have hroom := w.room
  have htb0 := trailer_bounds w.c (k := 0) (by omega)
  unfold setKey
  refine Triple.bind (l' := false) Triple.unlock (fun _ => ?_)
  refine Triple.readFlash (fun f ⟨⟨hF, hw⟩, hbl⟩ => ?_)
  refine Triple.bind (l' := false) (Q := fun _ g => (FinE P K A a B b g ∧ le32 (g .boot) (P.c.tmp + P.S) = MAGIC_TRAIL) ∧
      ∀ x, P.c.last ≤ x → x < P.c.part + P.S → g .boot x = 0xFF#8) (Triple.erase ?_ ?_) (fun _ => ?_)
  · rintro g rfl
    refine ⟨hF.lastFrame w hb hw (same_erase _ _ _ _), fun x h1 h2 => ?_⟩
    unfold Flash.erase lastLen
    rw [if_pos ⟨rfl, h1, by omega⟩]
  · rintro t g hT rfl
    exact (hF.lastFrame w hb hw (same_tornErase _ _ _ _ _ _)).1
  · refine Triple.bind (l' := false) (Q := fun _ g => (FinE P K A a B b g ∧
        le32 (g .boot) (P.c.tmp + P.S) = MAGIC_TRAIL) ∧ FreshLast P K g) (Triple.program ?_ ?_ ?_) (fun _ => ?_)
    · rintro g ⟨_, hff⟩ i hi
      unfold lastLen at hi
      rw [hff _ (by omega) (by omega)]
      exact BitVec.allOnes_and
    · rintro g ⟨⟨hF', hw'⟩, hff⟩
      have hd : ∀ x, P.c.last ≤ x → x < P.c.part + P.S → g.program .boot P.c.last (lastLen P)
          (keySector P (f .boot) K) .boot x = keySector P (f .boot) K (x - P.c.last) := by
        intro x h1 h2
        unfold Flash.program lastLen
        rw [if_pos ⟨rfl, h1, by omega⟩, hff _ h1 h2]
        exact BitVec.allOnes_and
      refine ⟨hF'.lastFrame w hb hw' (same_program _ _ _ _ _), ?_, ?_, ?_⟩
      · intro x h1 h2
        rw [hd x h1 (by omega)]
        unfold keySector
        rw [if_neg (by omega), if_neg (by omega), show P.c.last + (x - P.c.last) = x by omega]
        exact hbl x h1 (by omega)
      · refine le32_magic (fun i hi => ?_)
        rw [hd _ (by omega) (by omega)]
        unfold keySector
        rw [if_neg (by omega), if_pos (by omega)]
        congr 1
        omega
      · funext i
        unfold secret secretAt
        split
        · rw [hd _ (by omega) (by omega)]
          unfold keySector
          rw [if_pos (by omega)]
          congr 1
          omega
        · next h => exact (hK i (by omega)).symm
    · rintro t g hT ⟨⟨hF', hw'⟩, _⟩
      exact (hF'.lastFrame w hb hw' (same_tornProgram _ _ _ _ _ _ _)).1
    · exact Triple.lock

/-- `wolfBoot_swap_and_final_erase` from line 295 on. -/
def finalTail (P : Par) (ctx : Option Mem) (bootFw : Nat) (sd : Bool) (buf : Mem) : M (Bool × Option Mem) := do
  let s ← saveKey P sd buf
  erase P.c .boot P.c.last (lastLen P)
  setKey P s
  unlock
  finalRestore P ctx bootFw
  setState P.c .boot ST_TESTING
  erase P.c .update P.c.last (lastLen P)
  lock
  pure (true, ctx)

theorem finalTail_spec (ha : a ≤ P.c.tmp) (hb : b ≤ P.c.tmp) (hK : ∀ i, P.S ≤ i → K i = 0#8) {ctx : Option Mem}
    {bootFw : Nat} (hfw : bootFw + P.c.h ≤ P.c.tmp) (f0 : Flash) (hF : FinE P K A a B b f0) {sd : Bool} {buf : Mem}
    (hsd : sd = decide (le32 (f0 .boot) (P.c.tmp + P.S) = MAGIC_TRAIL)) (hbuf : buf = secretAt P (f0 .boot) P.c.tmp) :
    Triple (TE P) false (fun f => f = f0) (finalTail P ctx bootFw sd buf) true
      (fun r f => r.1 = true ∧ DoneE P K A a B b f) (fun f => FinE P K A a B b f ∨ DoneE P K A a B b f) := by
  have hle := w.c.last_eq
  have hpe := w.c.part_eq
  have hss := w.c.ss_pos
  have hn2 := w.c.n2
  have hroom := w.room
  have htb0 := trailer_bounds w.c (k := 0) (by omega)
  have htb := trailer_bounds w.c (k := 1) (by omega)
  unfold finalTail
  refine Triple.bind ((saveKey_spec w hb f0 hF hsd hbuf).conseq (fun _ h => h) (fun _ _ h => h) (fun _ h => Or.inl h))
    (fun s => ?_)
  refine Triple.ofEq (fun f1 ⟨hs, hF1, hw1⟩ => ?_)
  subst hs
  -- 308
  refine Triple.bind (l' := false) (Q := fun _ f => (FinE P s A a B b f ∧ le32 (f .boot) (P.c.tmp + P.S) = MAGIC_TRAIL) ∧
      ∀ x, P.c.last ≤ x → x < P.c.part → f .boot x = 0xFF#8) (Triple.erase ?_ ?_) (fun _ => ?_)
  · rintro g rfl
    refine ⟨hF1.lastFrame w hb hw1 (same_erase _ _ _ _), fun x h1 h2 => ?_⟩
    unfold Flash.erase lastLen
    rw [if_pos ⟨rfl, h1, by omega⟩]
  · rintro t g hT rfl
    exact Or.inl (hF1.lastFrame w hb hw1 (same_tornErase _ _ _ _ _ _)).1
  -- 311-314
  refine Triple.bind ((setKey_spec w hb hK).conseq (fun _ h => h) (fun _ _ h => h) (fun _ h => Or.inl h)) (fun _ => ?_)
  refine Triple.bind (l' := false) Triple.unlock (fun _ => ?_)
  -- 317-322
  refine Triple.bind (l' := false) (Q := fun _ f => FinE P s A a B b f ∧
      le32 (f .boot) (P.c.tmp + P.S) ≠ MAGIC_TRAIL ∧ FreshLast P s f) ?_ (fun _ => ?_)
  · unfold finalRestore
    rw [if_neg (by omega)]
    refine Triple.erase ?_ ?_
    · rintro g ⟨⟨hF2, hw2⟩, hl⟩
      have hs := same_erase g .boot P.c.tmp P.c.ss
      have hx : ∀ o, P.c.tmp ≤ o → o < P.c.last → g.erase .boot P.c.tmp P.c.ss .boot o = 0xFF#8 := by
        intro o h1 h2
        unfold Flash.erase
        rw [if_pos ⟨rfl, h1, by omega⟩]
      have hw : le32 (g.erase .boot P.c.tmp P.c.ss .boot) (P.c.tmp + P.S) ≠ MAGIC_TRAIL :=
        le32_ff (fun x _ _ => hx x (by omega) (by omega))
      obtain ⟨h1, h2⟩ := hF2.tmpFrame w hb hl.key (hs.mono (by omega) (by omega)) hw
      refine ⟨h1, hw, fun x h3 h4 => ?_, ?_, h2⟩
      · rw [hs.out (by omega)]; exact hl.ff x h3 h4
      · unfold hasMagic
        rw [le32_congr (x := g .boot) (fun o _ _ => hs.out (by omega))]; exact hl.magic
    · rintro t g hT ⟨⟨hF2, hw2⟩, hl⟩
      refine Or.inl (hF2.tmpFrame w hb hl.key ((same_tornErase _ _ _ _ _ _).mono (by omega) (by omega)) ?_).1
      have : le32 (g.tornErase P.c t .boot P.c.tmp P.c.ss .boot) (P.c.tmp + P.S) = le32 t (P.c.tmp + P.S) := by
        refine le32_congr (fun o h1 h2 => ?_)
        unfold Flash.tornErase
        rw [if_neg (by rintro ⟨h, _⟩; simp at h)]
        simp only
        rw [if_pos ⟨trivial, by omega, by omega⟩]
      rw [this]; exact hT
  -- 325
  refine Triple.bind (l' := false) (Q := fun _ f => FinE P s A a B b f ∧ Testing P.c f ∧ Safe P s f) ?_ (fun _ => ?_)
  · refine Triple.ofEq (fun f ⟨hF2, hw2, hl⟩ => ?_)
    have hS : Safe P s f := ⟨hl.key, hw2⟩
    have hfr : ∀ g, Same .boot (trailerAt P.c 1) P.c.part f g → FinE P s A a B b g ∧ Safe P s g := by
      intro g hs
      have hsf := hS.same w hs (Or.inr (Or.inr ⟨by omega, by omega⟩))
      exact ⟨hF2.bootFrame w hb (by omega) hs (fun h => absurd h hsf.word) (fun _ => hsf.key), hsf⟩
    refine (setState_spec w.c (by simp) f ST_TESTING hl.magic.magicP ?_).conseq (fun _ h => h) ?_ ?_
    · rw [hl.ff _ (by omega) (by omega)]; decide
    · rintro _ g ⟨h1, h2, h3⟩
      exact ⟨(hfr g h3).1, ⟨h1, h2⟩, (hfr g h3).2⟩
    · rintro g ⟨h1, _⟩
      exact Or.inl (hfr g h1).1
  -- 328
  refine Triple.bind (l' := false) (Q := fun _ f => DoneE P s A a B b f) ?_ (fun _ => ?_)
  · refine Triple.erase ?_ ?_
    · rintro f ⟨hF2, hT, hS⟩
      have hs := same_erase f .update P.c.last (lastLen P)
      have hbo : (f.erase .update P.c.last (lastLen P)) .boot = f .boot := hs.other (by simp)
      refine ⟨by rw [hbo]; exact hF2.boot, ?_, testing_frame w.c (fun x _ => by rw [hbo]) hT, ?_,
        hS.same w hs (Or.inl (by simp))⟩
      · intro o _ ho
        have hx : o < P.c.tmp := by omega
        rw [pl_upd_lt hx, hs.out (by omega), ← pl_upd_lt (P := P) (j := 0) (f := f) hx]
        exact hF2.upd o (by omega) ho
      · intro x h1 h2
        unfold Flash.erase lastLen
        rw [if_pos ⟨rfl, h1, by omega⟩]
    · rintro t f _ ⟨hF2, _⟩
      left
      unfold Flash.tornErase lastLen
      rw [if_pos ⟨rfl, by omega⟩]
      exact hF2
  refine Triple.bind Triple.lock (fun _ => ?_)
  exact (Triple.pure (Q := fun r f => r.1 = true ∧ DoneE P s A a B b f) (true, ctx)).pre (fun f h => ⟨rfl, h⟩)

theorem fw_eq (hB : ImgOK P.c B) (hb : b = imgLen P.c B) {m : Mem} (h : Agree m B 0 b) :
    fwSize P.c m + P.c.h = b := by
  have h8 := w.c.h8
  rw [fwSize_congr (h.mono (Nat.le_refl _) (by rw [hb]; unfold imgLen; omega)), fwSize_of_open (hB.openOK w.c), hb]
  rfl

/-- Resuming the final phase. -/
theorem swapFinal_resume (e : Env) {ctx : Option Mem} (hB : ImgOK P.c B) (hb : b = imgLen P.c B) (ha : a ≤ P.c.tmp)
    (hbt : b ≤ P.c.tmp) (hK : ∀ i, P.S ≤ i → K i = 0#8) :
    Triple (TE P) true (FinE P K A a B b) (swapFinal P e ctx true) true
      (fun r f => r.1 = true ∧ DoneE P K A a B b f) (ProgE P K V A a B b) := by
  unfold swapFinal
  refine Triple.readFlash (fun f hF => ?_)
  have hst : (getState P.c f .update).getD e.junk = ST_FINAL := by
    unfold getState; rw [if_pos hF.magic]; exact hF.st
  dsimp only
  rw [hst, if_neg (by simp)]
  refine Triple.bind (Triple.unlock) (fun _ => ?_)
  unfold finalSave
  rw [if_neg (by simp)]
  refine Triple.bind (Q := fun _ g => g = f) ((Triple.pure (Q := fun _ g => g = f) ())) (fun _ => ?_)
  refine (finalTail_spec w ha hbt hK (by rw [fw_eq w hB hb hF.boot]; exact hbt) f hF rfl rfl).conseq
    (fun g hg => hg) (fun _ _ h => h) (fun _ h => Or.inr h)

/-- The final phase after the swap loop. -/
theorem swapFinal_first (e : Env) {ctx : Option Mem} (hB : ImgOK P.c B) (hb : b = imgLen P.c B) (ha : a ≤ P.c.tmp)
    (hbt : b ≤ P.c.tmp) (hK : ∀ i, P.S ≤ i → K i = 0#8) {k : Nat} (hK1 : 1 ≤ k) (hKe : EndSec P.c (max a b) k) :
    Triple (TE P) true (fun f => SwE P K V A a B b f k .new) (swapFinal P e ctx false) true
      (fun r f => r.1 = true ∧ DoneE P K A a B b f) (ProgE P K V A a B b) := by
  have hle := w.c.last_eq
  unfold swapFinal
  refine Triple.readFlash (fun f hI => ?_)
  obtain ⟨r0, m0, p0, s0⟩ := pl_trailer w (st := stream P K) k f
  have hst : (getState P.c f .update).getD e.junk ≠ ST_FINAL := by
    unfold getState
    rw [if_pos (m0.mp (hI.view.magic (Or.inl (by omega)))), ← s0]; exact hI.view.core.stNF
  have hBf : Agree (f .boot) B 0 b := by
    intro o h1 h2
    have hx : o < P.c.tmp := by omega
    rw [← pl_boot_lt (P := P) (st := stream P K) (j := k) (f := f) hx]
    exact (holds_of_end w.c (by omega) (by omega) hKe hI.view).1 o h1 h2
  dsimp only
  rw [if_neg (by simp)]
  refine Triple.bind (Triple.unlock) (fun _ => ?_)
  refine Triple.bind (finalSave_spec w ha hbt hK1 hKe hst f hI) (fun _ => ?_)
  refine Triple.ofEq (fun g ⟨hF, hgb⟩ => ?_)
  refine (finalTail_spec w ha hbt hK (by rw [fw_eq w hB hb hBf]; exact hbt) g hF (by rw [hgb]) (by rw [hgb])).conseq
    (fun g hg => hg) (fun _ _ h => h) (fun _ h => Or.inr h)

end

end Verif.EncUp
