import Verif.EncFinal
import Verif.UpdateLemmas

/-!
# Helper lemmas: `wolfBoot_update` and `wolfBoot_start` with encrypted external flash
-/

set_option linter.unusedSectionVars false
set_option linter.unusedVariables false

namespace Verif.EncUp

section
variable {P : Par} (w : P.WF) {K : Mem} {V : Prop × Prop} {A B : Mem} {a b : Nat} {e : Env}
include w

theorem decU_agree {f : Flash} {X : Mem} {x j : Nat} (hx : x ≤ P.c.tmp) :
    Agree (decU P (some K) f) X 0 x ↔ Agree (pl P (stream P K) j f .update) X 0 x := by
  have hle := w.c.last_eq
  have key : ∀ o, o < x → decU P (some K) f o = pl P (stream P K) j f .update o := by
    intro o ho
    have h1 : o < P.c.tmp := by omega
    rw [pl_upd_lt h1]
    unfold decU
    simp only
    rw [if_pos (by omega)]
  constructor
  · intro h o h1 h2; rw [← key o h2]; exact h o h1 h2
  · intro h o h1 h2; rw [key o h2]; exact h o h1 h2

theorem boot_agree {f : Flash} {X : Mem} {x j : Nat} (hx : x ≤ P.c.tmp) :
    Agree (f .boot) X 0 x ↔ Agree (pl P (stream P K) j f .boot) X 0 x := by
  have key : ∀ o, o < x → pl P (stream P K) j f .boot o = f .boot o := by
    intro o ho
    have h1 : o < P.c.tmp := by omega
    exact pl_boot_lt h1
  constructor
  · intro h o h1 h2; rw [key o h2]; exact h o h1 h2
  · intro h o h1 h2; rw [← key o h2]; exact h o h1 h2

omit w in
theorem agree_self (m : Mem) (l h : Nat) : Agree m m l h := fun _ _ _ => rfl

/-- The headers in BOOT and UPDATE. -/
theorem fw_view {f : Flash} {j : Nat} (h8 : 8 ≤ P.c.tmp) :
    fwSize P.c (f .boot) = fwSize P.c (pl P (stream P K) j f .boot) ∧
    fwSize P.c (decU P (some K) f) = fwSize P.c (pl P (stream P K) j f .update) :=
  ⟨fwSize_congr ((boot_agree w h8).mpr (agree_self _ _ _)), fwSize_congr ((decU_agree w h8).mpr (agree_self _ _ _))⟩

theorem load_some {f : Flash} : load P (some K) f = some K := rfl

theorem load_none {f : Flash} (hS : Safe P K f) (hk : keyOK P K) : load P none f = some K := by
  unfold load
  simp only
  rw [hS.key, if_pos hk]

/-- The whole swap loop, including the exchange of the sizes after the first sector. -/
theorem swapLoop0_spec (hA : ImgOK P.c A) (hB : ImgOK P.c B) (ha : a = imgLen P.c A) (hb : b = imgLen P.c B)
    (hat : a ≤ P.c.tmp) (hbt : b ≤ P.c.tmp)
    {k : Nat} {s : Stage} {f0 : Flash} (hI : SwE P K V A a B b f0 k s) {total : Nat} (htot : 0 < total) :
    Triple (TE P) false (fun f => f = f0)
      (swapLoop P (some K) (P.c.n + 2) (fwSize P.c (f0 .boot)) (fwSize P.c (decU P (some K) f0)) total 0) false
      (fun r f => EndSec P.c (max a b) r ∧ SwE P K V A a B b f r .new) (InE P K V A a B b) := by
  have hn2 := w.c.n2
  have hss := w.c.ss_pos
  have h8 := w.c.h8
  have ha8 : 8 ≤ a := by rw [ha]; unfold imgLen; omega
  have hn3 := lt_tmp_sec w (k := 0) hat (by omega)
  obtain ⟨h1, h2, h3, h4⟩ := hdr_boot w.c hA hB ha hb hI.view
  obtain ⟨e1, e2⟩ := fw_view w (K := K) (f := f0) (j := k) (by omega)
  rw [← e1] at h1 h4
  rw [← e2] at h2 h3 h4
  unfold swapLoop
  rw [if_pos (by omega)]
  refine Triple.bind (l' := false) (Q := fun _ f => ∃ k s, 0 < k ∧ SwE P K V A a B b f k s) ?_
    (fun _ => ?_)
  · by_cases hk : k = 0
    · subst hk
      refine (swapSector_cur w (s := s) (by omega) (by omega)).conseq (fun g hg => ?_)
        (fun _ g hg => ⟨1, .new, by omega, hg⟩) (fun _ h => h)
      rw [hg]
      exact ⟨hI, h1 rfl, h2 rfl⟩
    · exact (swapSector_done w (s := s) (by omega) (by omega) _ _).conseq
        (fun g hg => by rw [hg]; exact hI) (fun _ g hg => ⟨k, s, by omega, hg⟩) (fun _ h => h)
  · dsimp only
    rw [if_pos (by rfl)]
    refine Triple.readFlash (fun f ⟨k, s, hk, hI⟩ => ?_)
    obtain ⟨h5, h6⟩ := (hdr_boot w.c hA hB ha hb hI.view).2.2.2 hk
    obtain ⟨e1, e2⟩ := fw_view w (K := K) (f := f) (j := k) (by omega)
    rw [← e1] at h5
    rw [← e2] at h6
    rw [totalSize_eq, h5, h6]
    exact (swapLoop_spec w hat hbt (by omega) h6 h5 (P.c.n + 1) 1 k s (by omega) hk (by omega)).pre
      (fun g hg => by rw [hg]; exact hI)

/-- `wolfBoot_update` when a swap is in progress or accepted. -/
theorem wbUpdate_spec (hA : ImgOK P.c A) (hB : ImgOK P.c B) (ha : a = imgLen P.c A) (hb : b = imgLen P.c B)
    (hat : a ≤ P.c.tmp) (hbt : b ≤ P.c.tmp) (hK : ∀ i, P.S ≤ i → K i = 0#8)
    {fallback : Bool} {f0 : Flash} (hI : InE P K V A a B b f0)
    (hgo : (getFlag P.c f0 0).getD FL_NEW = FL_NEW → acceptable P.c e (decU P (some K) f0) ∧
      (fallback = true ∨ e.ver (f0 .boot) < e.ver (decU P (some K) f0))) :
    Triple (TE P) true (fun f => f = f0) (wbUpdate P e (some K) fallback) true
      (fun r f => r.1 = true ∧ DoneE P K A a B b f) (ProgE P K V A a B b) := by
  obtain ⟨k, s, hI⟩ := hI
  have h8 := w.c.h8
  have hpa : P.c.h < a := by rw [ha]; have := hA.pos; unfold imgLen; omega
  have hpb : P.c.h < b := by rw [hb]; have := hB.pos; unfold imgLen; omega
  have htot : P.c.h < totalSize P.c (fwSize P.c (f0 .boot)) (fwSize P.c (decU P (some K) f0)) := by
    rw [totalSize_eq]
    obtain ⟨h1, h2, h3, h4⟩ := hdr_boot w.c hA hB ha hb hI.view
    obtain ⟨e1, e2⟩ := fw_view w (K := K) (f := f0) (j := k) (by omega)
    rw [e1, e2]
    by_cases hk : k = 0
    · by_cases hs : s = .backup
      · rw [h3 hk hs]; omega
      · rw [h1 hk hs]; omega
    · rw [(h4 (by omega)).1]; omega
  unfold wbUpdate
  refine Triple.readFlash (fun f hf => ?_)
  subst hf
  dsimp only
  rw [load_some w, if_neg (by omega), if_neg (fun h => h.2 (hgo h.1).1), if_neg (fun h => h.2 (hgo h.1).2)]
  refine Triple.bind (l' := false) Triple.unlock (fun _ => ?_)
  refine Triple.bind (l' := false)
    ((swapLoop0_spec w hA hB ha hb hat hbt hI (by omega)).conseq (fun _ h => h) (fun _ _ h => h)
      (fun _ h => Or.inl h)) (fun r => ?_)
  refine Triple.ofEq (fun f1 ⟨hKe, hI1⟩ => ?_)
  have hK1 : 1 ≤ r := by
    have := hKe.1
    rcases Nat.eq_zero_or_pos r with h | h
    · rw [h] at this; omega
    · exact h
  have hKn := EndSec.le' w hat hbt hKe
  refine Triple.bind (l' := false)
    ((eraseRest_spec w (V := V) (A := A) (B := B) hat hbt hKe hK1 (P.c.n + 2) r (Nat.le_refl _) hKn
      (by omega)).conseq (fun g hg => by rw [hg]; exact hI1) (fun _ _ h => h)
      (fun _ h => Or.inl h)) (fun _ => ?_)
  refine Triple.bind (l' := true) Triple.lock (fun _ => ?_)
  refine Triple.bind (Q := fun _ f => DoneE P K A a B b f) ((swapFinal_first w e hB hb hat hbt hK hK1 hKe).conseq
    (fun _ h => h) (fun _ _ h => h.2) (fun _ h => h)) (fun r => ?_)
  exact (Triple.pure (Q := fun (r : Bool × Option Mem) f => r.1 = true ∧ DoneE P K A a B b f) (true, r.2)).pre
    (fun f h => ⟨rfl, h⟩)

omit w in
/-- `wolfBoot_swap_and_final_erase(1)` finds nothing to resume. -/
theorem swapFinal_none {T : Mem → Prop} {l : Bool} {f0 : Flash} {C : Flash → Prop} {ctx : Option Mem}
    (hB : le32 (f0 .boot) (P.c.tmp + P.S) ≠ MAGIC_TRAIL)
    (hst : (getState P.c f0 .update).getD e.junk ≠ ST_FINAL) :
    Triple T l (fun f => f = f0) (swapFinal P e ctx true) l (fun r f => r = (false, load P ctx f0) ∧ f = f0) C := by
  unfold swapFinal
  refine Triple.readFlash (fun f hf => ?_)
  subst hf
  dsimp only
  rw [if_pos ⟨rfl, by simpa using hB, hst⟩]
  exact (Triple.pure (Q := fun r g => r = (false, load P ctx f) ∧ g = f) _).pre (fun g h => ⟨rfl, h⟩)

/-- `startUpdate` in the middle of a swap. -/
theorem startUpdate_inSwap (hj : V.1 → e.junk ≠ ST_FINAL) (hA : ImgOK P.c A) (hB : NewOK P.c e B)
    (ha : a = imgLen P.c A) (hb : b = imgLen P.c B) (hat : a ≤ P.c.tmp) (hbt : b ≤ P.c.tmp)
    (hK : ∀ i, P.S ≤ i → K i = 0#8) (hkk : keyOK P K) {f0 : Flash}
    (hV : ∀ m, V.2 → Agree m A 0 a → e.ver m < e.ver B)
    (hI : InE P K V A a B b f0)
    (hg : V.1 ∨ V.2 := by first | assumption | exact Or.inl trivial | exact Or.inr (by assumption)) :
    Triple (TE P) true (fun f => f = f0) (startUpdate P e) true
      (fun _ f => DoneE P K A a B b f) (ProgE P K V A a B b) := by
  have hn2 := w.c.n2
  have hle := w.c.last_eq
  have hss := w.c.ss_pos
  obtain ⟨k, s, hS⟩ := hI
  obtain ⟨r0, m0, p0, s0⟩ := pl_trailer w (st := stream P K) k f0
  have hj' : hasMagic P.c f0 .update ∨ e.junk ≠ ST_FINAL := by
    rcases hS.view.core.go with h | h | h
    · exact Or.inr (hj h.1)
    · exact Or.inl (m0.mp h.1)
    · exact absurd hg h
  have hstNF := hS.view.core.stNF
  rw [s0] at hstNF
  unfold startUpdate
  refine Triple.readFlash (fun f hf => ?_)
  subst hf
  refine Triple.bind (l' := true) (swapFinal_none hS.safe.word (state_ne_final w.c hj' hstNF))
    (fun r => ?_)
  refine Triple.ofEq (fun g ⟨hr, hg⟩ => ?_)
  subst hr; subst hg
  rw [if_neg (by simp), load_none w hS.safe hkk]
  -- at the beginning of the swap the images are in place
  have h0 : (getFlag P.c g 0).getD FL_NEW = FL_NEW → Agree (g .boot) A 0 a ∧ Agree (decU P (some K) g) B 0 b := by
    intro hfl
    rw [← pl_getFlag w (st := stream P K) (j := k) (by omega)] at hfl
    have hS := hS.view
    rw [boot_agree w (K := K) (j := k) hat, decU_agree w (j := k) hbt]
    generalize pl P (stream P K) k g = g' at hS hfl
    have hk : k = 0 := by
      rcases Nat.eq_zero_or_pos k with h | h
      · exact h
      · exact absurd hfl (flag_done w.c h (by omega) hS).1
    subst hk
    rw [flag_of_swapI w.c (by omega) hS] at hfl
    have hs : s = .new := by
      cases s with
      | new => rfl
      | swapping => exact absurd hfl (by decide)
      | backup => exact absurd hfl (by decide)
      | done => exact absurd rfl hS.ndone
    subst hs
    have key : ∀ X x p, p ≠ Part.swap → x ≤ P.c.last → (∀ j, j < P.c.n - 1 → SecAt P.c g' p X x j) →
        Agree (g' p) X 0 x := by
      intro X x p hp hx h o _ ho
      have e1 := (Nat.div_add_mod' o P.c.ss)
      have := h (o / P.c.ss) (lt_last_sec w.c (T := x) hx (by
        have := Nat.div_mul_le_self o P.c.ss
        omega)) (o % P.c.ss) (Nat.mod_lt _ (by omega)) (by omega)
      unfold secOff at this
      rw [if_neg hp, e1] at this
      exact this
    have hall : ∀ j, j < P.c.n - 1 → CurData P.c A a B b g' j .new := by
      intro j hj
      rcases Nat.eq_zero_or_pos j with h | h
      · subst h; exact (hS.cur hj).1
      · exact (hS.core.fresh j h hj).1
    exact ⟨key _ _ _ (by simp) (by omega) (fun j hj => (hall j hj).1),
      key _ _ _ (by simp) (by omega) (fun j hj => (hall j hj).2)⟩
  have hacc : (getFlag P.c g 0).getD FL_NEW = FL_NEW → acceptable P.c e (decU P (some K) g) := fun h =>
    (acceptable_congr w.c hB.loc (by rw [← hb]; exact (h0 h).2)).mpr hB.acc
  have fin : ∀ (m : M (Bool × Option Mem)), Triple (TE P) true (fun f => f = g) m true
      (fun r f => r.1 = true ∧ DoneE P K A a B b f) (ProgE P K V A a B b) →
      Triple (TE P) true (fun f => f = g) (m >>= fun r => pure r.2) true
      (fun _ f => DoneE P K A a B b f) (ProgE P K V A a B b) := by
    intro m hm
    refine Triple.bind hm (fun r => ?_)
    exact (Triple.pure (Q := fun _ f => DoneE P K A a B b f) r.2).pre (fun f h => h.2)
  refine Triple.ite (fun hT => ?_) (fun hT => ?_)
  · exact fin _ (wbUpdate_spec w hA hB.img ha hb hat hbt hK ⟨k, s, hS⟩ (fun h => ⟨hacc h, Or.inl rfl⟩))
  · rcases hS.view.core.go with ⟨_, h1⟩ | ⟨h1, h2, h3⟩ | h
    · exact absurd (getState_testing.mpr ((pl_testing w).mp h1)) hT
    · rw [if_pos (getState_updating.mpr ⟨m0.mp h1, s0 ▸ h2⟩)]
      refine fin _ (wbUpdate_spec w hA hB.img ha hb hat hbt hK ⟨k, s, hS⟩ (fun h => ⟨hacc h, Or.inr ?_⟩))
      rw [(hB.loc (decU P (some K) g) (by rw [← hb]; exact (h0 h).2)).2.1]
      exact hV _ h3 (h0 h).1
    · exact absurd hg h

theorem DoneE.bootable (hB : NewOK P.c e B) (hb : b = imgLen P.c B) {f : Flash}
    (h : DoneE P K A a B b f) : bootable P.c e (f .boot) :=
  (bootable_congr w.c hB.loc (by rw [← hb]; exact h.boot)).mpr (hB.bootable w.c)

/-- `wolfBoot_start` in the middle of a swap. -/
theorem start_inSwap (hj : V.1 → e.junk ≠ ST_FINAL) (hA : ImgOK P.c A) (hB : NewOK P.c e B)
    (ha : a = imgLen P.c A) (hb : b = imgLen P.c B) (hat : a ≤ P.c.tmp) (hbt : b ≤ P.c.tmp)
    (hK : ∀ i, P.S ≤ i → K i = 0#8) (hkk : keyOK P K) {f0 : Flash}
    (hV : ∀ m, V.2 → Agree m A 0 a → e.ver m < e.ver B)
    (hI : InE P K V A a B b f0)
    (hg : V.1 ∨ V.2 := by first | assumption | exact Or.inl trivial | exact Or.inr (by assumption)) :
    Triple (TE P) true (fun f => f = f0) (start P e) true
      (fun _ f => DoneE P K A a B b f) (ProgE P K V A a B b) := by
  unfold start
  refine Triple.bind (startUpdate_inSwap w hj hA hB ha hb hat hbt hK hkk hV hI) (fun _ => ?_)
  exact boot_tick w.c (fun f h => h.bootable w hB hb) (fun f h => Or.inr (Or.inr h))

/-- `wolfBoot_start` in the final phase. -/
theorem start_fin (hB : NewOK P.c e B) (hb : b = imgLen P.c B) (hat : a ≤ P.c.tmp) (hbt : b ≤ P.c.tmp)
    (hK : ∀ i, P.S ≤ i → K i = 0#8) {f0 : Flash} (hI : FinE P K A a B b f0) :
    Triple (TE P) true (fun f => f = f0) (start P e) true
      (fun _ f => DoneE P K A a B b f) (ProgE P K V A a B b) := by
  unfold start
  refine Triple.bind (l' := true) (Q := fun _ f => DoneE P K A a B b f) ?_ (fun _ => ?_)
  · unfold startUpdate
    refine Triple.readFlash (fun f hf => ?_)
    subst hf
    refine Triple.bind (l' := true) ((swapFinal_resume w e hB.img hb hat hbt hK).pre (fun g hg => by
      rw [hg]; exact hI)) (fun r => ?_)
    refine Triple.ofEq (fun g ⟨hr, hg⟩ => ?_)
    rw [if_pos hr]
    exact (Triple.pure (Q := fun _ f => DoneE P K A a B b f) r.2).pre (fun f h => by rw [h]; exact hg)
  · exact boot_tick w.c (fun f h => h.bootable w hB hb) (fun f h => Or.inr (Or.inr h))

end

/-! ## Linking the invariants to the vocabulary of the statements -/

/-- The bytes of a secret that count. -/
def canon (P : Par) (s : Mem) : Mem := fun i => if i < P.S then s i else 0#8

section
variable {P : Par} (w : P.WF) {A B : Mem} {e : Env} {s : Mem}

theorem canon_zero : ∀ i, P.S ≤ i → canon P s i = 0#8 := fun i h => by unfold canon; rw [if_neg (by omega)]

include w

theorem stream_canon : stream P (canon P s) = stream P s := by
  have hk := w.key
  unfold stream
  congr 1
  · congr 1
    funext i
    unfold keyOf canon
    split
    · rw [if_pos (by omega)]
    · rfl
  · funext i
    unfold nonceOf canon
    split
    · rw [if_pos (by omega)]
    · rfl

theorem keyOK_canon (h : keyOK P s) : keyOK P (canon P s) := by
  have hk := w.key
  refine ⟨fun h' => h.1 (fun i hi => ?_), fun h' => h.2 (fun i hi => ?_)⟩
  · have := h' i hi
    unfold canon at this
    rwa [if_pos (by omega)] at this
  · have := h' i hi
    unfold canon at this
    rwa [if_pos (by omega)] at this

omit w in
theorem keyIn_iff {f : Flash} : KeyIn P s f ↔ Safe P (canon P s) f := by
  constructor
  · rintro ⟨h1, h2⟩
    refine ⟨?_, h2⟩
    funext i
    unfold secret secretAt canon
    split
    · next h => exact h1 i h
    · rfl
  · rintro ⟨h1, h2⟩
    refine ⟨fun i hi => ?_, h2⟩
    have := congrFun h1 i
    unfold secret secretAt canon at this
    rwa [if_pos hi, if_pos hi] at this

theorem holdsEnc_iff {f : Flash} {X : Mem} (hx : imageBytes P.c X ≤ P.c.tmp) :
    HoldsEnc P s f X ↔ Agree (pl P (stream P (canon P s)) 0 f .update) X 0 (imgLen P.c X) := by
  rw [stream_canon w]
  unfold HoldsEnc
  rw [imageBytes_eq] at hx ⊢
  constructor
  · intro h o _ ho
    have h1 : o < P.c.tmp := by omega
    rw [pl_upd_lt h1, h o ho, xor_self_cancel w]
  · intro h o ho
    have h1 : o < P.c.tmp := by omega
    have := h o (by omega) ho
    rw [pl_upd_lt h1] at this
    rw [← this, xor_self_cancel w]

theorem two_last : P.c.part - 2 * P.c.ss = P.c.tmp := by
  have := w.c.part_eq
  have := w.c.last_eq
  omega

theorem updated_iff {f : Flash} (hA : imageBytes P.c A ≤ P.c.tmp) :
    Updated P s B A f ↔ DoneE P (canon P s) A (imgLen P.c A) B (imgLen P.c B) f := by
  constructor
  · intro h
    exact ⟨holds_iff.mp h.new, (holdsEnc_iff w hA).mp h.old, getState_testing.mp h.state,
      by rw [← last_part w.c]; exact h.erased, keyIn_iff.mp h.key⟩
  · intro h
    exact ⟨holds_iff.mpr h.boot, (holdsEnc_iff w hA).mpr h.upd, getState_testing.mpr h.testing,
      by rw [last_part w.c]; exact h.blank, keyIn_iff.mpr h.safe⟩

/-- The phases of an installation. -/
def Mid (P : Par) (s : Mem) (V : Prop × Prop) (A B : Mem) (f : Flash) : Prop :=
  InE P (canon P s) V A (imgLen P.c A) B (imgLen P.c B) f ∨ FinE P (canon P s) A (imgLen P.c A) B (imgLen P.c B) f

theorem start_mid {V : Prop × Prop} (hA : ImgOK P.c A) (hB : NewOK P.c e B) (hat : imageBytes P.c A ≤ P.c.tmp)
    (hbt : imageBytes P.c B ≤ P.c.tmp) (hk : keyOK P s)
    (hj : V.1 → e.junk ≠ ST_FINAL) (hV : ∀ m, V.2 → Agree m A 0 (imgLen P.c A) → e.ver m < e.ver B)
    {f : Flash} (h : Mid P s V A B f)
    (hg : V.1 ∨ V.2 := by first | assumption | exact Or.inl trivial | exact Or.inr (by assumption)) :
    Triple (TE P) true (fun g => g = f) (start P e) true
      (fun _ g => Updated P s B A g) (fun g => Mid P s V A B g ∨ Updated P s B A g) := by
  have hat' := hat
  have hbt' := hbt
  rw [imageBytes_eq] at hat' hbt'
  have : Triple (TE P) true (fun g => g = f) (start P e) true
      (fun _ g => DoneE P (canon P s) A (imgLen P.c A) B (imgLen P.c B) g)
      (ProgE P (canon P s) V A (imgLen P.c A) B (imgLen P.c B)) := by
    rcases h with h | h
    · exact start_inSwap w hj hA hB rfl rfl hat' hbt' canon_zero (keyOK_canon w hk) hV h
    · exact start_fin w hB rfl hat' hbt' canon_zero h
  refine this.conseq (fun _ h => h) (fun _ g hg => (updated_iff w hat).mpr hg) ?_
  rintro g (h | h | h)
  · exact Or.inl (Or.inl h)
  · exact Or.inl (Or.inr h)
  · exact Or.inr ((updated_iff w hat).mpr h)

omit w in
/-- A triple about `start` applied to an interrupted reboot. -/
theorem bootFail_of {Q : Unit → Flash → Prop} {C : Flash → Prop} {f g : Flash} {n : Nat} {t : Mem}
    (h : Triple (TE P) true (fun g => g = f) (start P e) true Q C) (ht : TornOK P t)
    (hr : bootFail P e f n t = .crash g) : C g := by
  have := h ⟨f, true, some n, t⟩ ht rfl rfl
  unfold bootFail at hr
  rw [hr] at this
  exact this.2

omit w in
/-- A triple about `start` applied to an uninterrupted reboot. -/
theorem bootUp_of {Q : Unit → Flash → Prop} {C : Flash → Prop} {f : Flash}
    (h : Triple (TE P) true (fun g => g = f) (start P e) true Q C) :
    ∃ w', bootUp P e f = .ok () w' ∧ w'.locked = true ∧ Q () w'.fl := by
  have := h ⟨f, true, none, fun _ => 0#8⟩ (by change (0 : Nat) ≠ MAGIC_TRAIL; decide) rfl rfl
  unfold bootUp
  cases hr : start P e ⟨f, true, none, fun _ => 0#8⟩ with
  | ok a w' => rw [hr] at this; exact ⟨w', rfl, this.1, this.2.2.2⟩
  | crash g => rw [hr] at this; exact absurd rfl this.1
  | panic g => rw [hr] at this; exact this.elim
  | stuck g => rw [hr] at this; exact this.elim
  | fault g => rw [hr] at this; exact this.elim

/-- The beginning of a swap. -/
theorem mid_begin {V : Prop × Prop} {f : Flash} (hat : imageBytes P.c A ≤ P.c.tmp) (hbt : imageBytes P.c B ≤ P.c.tmp)
    (hA : Holds P.c f .boot A) (hB : HoldsEnc P s f B) (hS : KeyIn P s f)
    (hfl : ∀ j, j < P.c.n - 1 → rawFlag P.c f j = FL_NEW) (hm : MagicP P.c f .update)
    (hst : f .update (trailerAt P.c 1) &&& ST_FINAL = ST_FINAL) (hnf : f .update (trailerAt P.c 1) ≠ ST_FINAL)
    (hgo : (V.1 ∧ Testing P.c f) ∨
      (hasMagic P.c f .update ∧ f .update (trailerAt P.c 1) = ST_UPDATING ∧ V.2) ∨ ¬ (V.1 ∨ V.2)) : Mid P s V A B f := by
  left
  have hn2 := w.c.n2
  have hss := w.c.ss_pos
  obtain ⟨r0, m0, p0, s0⟩ := pl_trailer w (st := stream P (canon P s)) 0 f
  have hat' := hat
  rw [imageBytes_eq] at hat'
  have hold := (boot_agree w (K := canon P s) (j := 0) hat').mp (holds_iff.mp hA)
  have hnew := (holdsEnc_iff w hbt).mp hB
  have hsec : ∀ j, CurData P.c A (imgLen P.c A) B (imgLen P.c B) (pl P (stream P (canon P s)) 0 f) j .new := by
    intro j
    refine ⟨?_, ?_⟩
    · intro o ho hx
      unfold secOff
      simp only [reduceCtorEq, ↓reduceIte]
      exact hold _ (by omega) hx
    · intro o ho hx
      unfold secOff
      simp only [reduceCtorEq, ↓reduceIte]
      exact hnew _ (by omega) hx
  refine ⟨0, .new, ⟨⟨?_, ?_, ?_, by rw [s0]; exact hst, by rw [s0]; exact hnf,
      ?_, pl_ntB w _ _, pl_ntU w _ _⟩, ?_, ?_, by simp, by omega, by simp⟩, keyIn_iff.mp hS⟩
  · intro j hj; omega
  · intro j _ hj; exact ⟨hsec j, by rw [r0 j (by omega)]; exact hfl j hj⟩
  · exact (trailer_frame w.c (f := f) (fun x hx => pl_upd_ge w hx)).2.2.1 hm
  · rcases hgo with ⟨h1, h2⟩ | ⟨h1, h2, h3⟩ | h
    · exact Or.inl ⟨h1, (pl_testing w).mpr h2⟩
    · exact Or.inr (Or.inl ⟨m0.mpr h1, by rw [s0]; exact h2, h3⟩)
    · exact Or.inr (Or.inr h)
  · intro hj; exact ⟨hsec 0, by rw [r0 0 (by omega)]; exact hfl 0 hj⟩
  · rintro (h | h)
    · omega
    · exact absurd rfl h

theorem Pending.mid {f : Flash} (hat : imageBytes P.c A ≤ P.c.tmp) (hbt : imageBytes P.c B ≤ P.c.tmp)
    (hv : e.ver A < e.ver B) (h : Pending P s A B f) : Mid P s (False, e.ver A < e.ver B) A B f := by
  have hst := getState_updating.mp h.state
  refine mid_begin w hat hbt h.old h.new h.key ?_ hst.1.magicP (by rw [hst.2]; decide) (by rw [hst.2]; decide)
    (Or.inr (Or.inl ⟨hst.1, hst.2, hv⟩))
  intro j hj
  have := h.flags j hj
  unfold getFlag at this
  rw [if_pos hst.1] at this
  exact Option.some.inj this

theorem Updated.mid {f : Flash} (hat : imageBytes P.c A ≤ P.c.tmp) (hbt : imageBytes P.c B ≤ P.c.tmp)
    (h : Updated P s A B f) : Mid P s (True, False) A B f := by
  have hss := w.c.ss_pos
  have hn := w.c.n512
  have hff := w.c.flags_fit
  have htb := trailer_bounds w.c (k := 1) (by omega)
  have htb0 := trailer_bounds w.c (k := 0) (by omega)
  have hbl := h.erased
  rw [last_part w.c] at hbl
  refine mid_begin w hat hbt h.new h.old h.key ?_ ?_ ?_ ?_ (Or.inl ⟨trivial, getState_testing.mp h.state⟩)
  · intro j hj
    have : flagPos j ≤ P.c.n / 2 := by rw [flagPos_lt (by omega)]; omega
    have := trailer_bounds w.c (k := 2 + flagPos j) (by omega)
    unfold rawFlag
    rw [hbl _ (by omega) (by omega)]
    unfold nibbleOf
    split <;> decide
  · intro i hi
    rw [hbl _ (by omega) (by omega)]
    exact BitVec.allOnes_and
  · rw [hbl _ (by omega) (by omega)]; decide
  · rw [hbl _ (by omega) (by omega)]; decide

end

end Verif.EncUp
