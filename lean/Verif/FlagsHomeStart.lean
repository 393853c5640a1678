import Verif.FlagsHomeSim

/-!
# Update with the flags of UPDATE in BOOT: `wolfBoot_update` and `wolfBoot_start`

Proof technique for `Verif.FlagsHomeThms`, continued.
-/

set_option linter.unusedVariables false

namespace Verif

namespace Fho

open Verif.Nvu (Exec CrashTo Bad Sim bind_crash)

section
variable {k : Cfg} {A : Flash} {p : Part} {off len : Nat} {d : Nat → Byte}

theorem run_program (hN : ∀ i, i < len → A p (off + i) &&& d i = d i) (l : Option Nat) (t : Mem) :
    program k p off len d ⟨A, false, l, t⟩ = flashOp (fun _ f => f.program p off len d) (fun t f => f.tornProgram k t p off len d) ⟨A, false, l, t⟩ := by
  unfold program
  exact if_neg fun g => g.2.2 hN

theorem exec_program (hN : ∀ i, i < len → A p (off + i) &&& d i = d i) :
    Exec (program k p off len d) false A () (A.program p off len d) false := by
  refine ⟨1, fun t => ⟨run_program hN _ _, fun b => ?_⟩⟩
  rw [run_program hN, Nat.add_comm]
  rfl

theorem exec_erase : Exec (erase k p off len) false A () (A.erase p off len) false := by
  refine ⟨1, fun t => ⟨rfl, fun b => ?_⟩⟩
  rw [Nat.add_comm]
  rfl

theorem tt_ff : TT k (fun _ => 0xFF#8) := by
  show le32 _ _ ≠ MAGIC_TRAIL
  unfold le32
  dsimp only
  decide

theorem torn_ex : ∃ t, TT k t := ⟨_, tt_ff⟩

theorem and_ff (x : Byte) : (0xFF#8 : Byte) &&& x = x := BitVec.allOnes_and

end

section
variable {k : Cfg} (w : k.WF) (fit : Fits k)
include w fit

/-- The flash with the state of BOOT. -/
def marked (k : Cfg) (F : Flash) : Flash := (F.program .boot (trailerAt k 0) 4 magicByte).program .boot (trailerAt k 1) 1 (fun _ => ST_TESTING)

theorem marked_of {F : Flash} {q : Part} {x : Nat} (h : q ≠ .boot ∨ x < k.part - 5) : marked k F q x = F q x := by
  obtain ⟨g1, g2, g3, g4⟩ := geo w
  have fit' := fit
  unfold Fits at fit'
  have e1 : trailerAt k 0 = k.part - 4 := rfl
  have e2 : trailerAt k 1 = k.part - 5 := rfl
  have c1 : ¬ (q = .boot ∧ trailerAt k 0 ≤ x ∧ x < trailerAt k 0 + 4) := by
    rintro ⟨a, b, _⟩
    rcases h with h | h
    · exact h a
    · omega
  have c2 : ¬ (q = .boot ∧ trailerAt k 1 ≤ x ∧ x < trailerAt k 1 + 1) := by
    rintro ⟨a, b, _⟩
    rcases h with h | h
    · exact h a
    · omega
  unfold marked Flash.program
  rw [if_neg c2, if_neg c1]

/-- Marking BOOT when its flags are erased. -/
theorem run_mark {F : Flash} (hF : ∀ x, k.last ≤ x → x < k.part → F .boot x = 0xFF#8) (b : Option Nat) (t : Mem) :
    match Verif.setState k .boot ST_TESTING ⟨F, false, b, t⟩ with
    | .ok _ w' => w'.locked = false ∧ w'.torn = t ∧ (b = none → w'.budget = none) ∧ w'.fl = marked k F
    | .crash F' => b ≠ none ∧ (¬ Recorded k F' ∨ F' = marked k F)
    | _ => False := by
  obtain ⟨g1, g2, g3, g4⟩ := geo w
  have fit' := fit
  unfold Fits at fit'
  have e1 : trailerAt k 0 = k.part - 4 := rfl
  have e2 : trailerAt k 1 = k.part - 5 := rfl
  have eu : cellAt k .update 0 = k.part - 8 - 4 := rfl
  have hm : ¬ Verif.hasMagic k F .boot := le32_ff w fit fun x h1 h2 => hF x (by omega) (by omega)
  have n1 : ∀ i, i < 4 → F .boot (trailerAt k 0 + i) &&& magicByte i = magicByte i := by
    intro i hi
    rw [hF _ (by omega) (by omega)]
    exact and_ff _
  have h5 : (F.program .boot (trailerAt k 0) 4 magicByte) .boot (trailerAt k 1) = 0xFF#8 := by
    unfold Flash.program
    rw [if_neg (by omega)]
    exact hF _ (by omega) (by omega)
  have n2 : ∀ i, i < 1 → (F.program .boot (trailerAt k 0) 4 magicByte) .boot (trailerAt k 1 + i) &&& ST_TESTING = ST_TESTING := by
    intro i hi
    rw [show trailerAt k 1 + i = trailerAt k 1 by omega, h5]
    exact and_ff _
  have lost : ∀ F' : Flash, (∀ x, k.last ≤ x → x < k.part - 5 → F' .boot x = 0xFF#8) → F' .boot (k.part - 5) ≠ ST_TESTING → ¬ Recorded k F' := by
    intro F' h1 h2
    have m1 : ¬ hasMagic k F' .update := le32_ff w fit fun x h3 h4 => h1 x (by omega) (by omega)
    unfold Recorded getState
    rw [if_neg m1]
    rintro (g | g)
    · exact g rfl
    · split at g
      · exact h2 (Option.some.inj g)
      · cases g
  have ens : ∀ b, Verif.ensureMagic k .boot ⟨F, false, b, t⟩ =
      flashOp (fun _ f => f.program .boot (trailerAt k 0) 4 magicByte) (fun t f => f.tornProgram k t .boot (trailerAt k 0) 4 magicByte) ⟨F, false, b, t⟩ := by
    intro b
    unfold Verif.ensureMagic
    rw [Nvu.bind_ok (show readFlash ⟨F, false, b, t⟩ = .ok F ⟨F, false, b, t⟩ from rfl), if_neg hm]
    exact run_program n1 _ _
  have rest : ∀ b, (readFlash >>= fun f => if f .boot (trailerAt k 1) ≠ ST_TESTING then program k .boot (trailerAt k 1) 1 (fun _ => ST_TESTING) else pure ())
      ⟨F.program .boot (trailerAt k 0) 4 magicByte, false, b, t⟩ =
      flashOp (fun _ f => f.program .boot (trailerAt k 1) 1 (fun _ => ST_TESTING)) (fun t f => f.tornProgram k t .boot (trailerAt k 1) 1 (fun _ => ST_TESTING))
        ⟨F.program .boot (trailerAt k 0) 4 magicByte, false, b, t⟩ := by
    intro b
    rw [Nvu.bind_ok (show readFlash ⟨F.program .boot (trailerAt k 0) 4 magicByte, false, b, t⟩ = .ok _ ⟨F.program .boot (trailerAt k 0) 4 magicByte, false, b, t⟩ from rfl)]
    rw [if_pos (show F.program .boot (trailerAt k 0) 4 magicByte .boot (trailerAt k 1) ≠ ST_TESTING by rw [h5]; decide)]
    exact run_program n2 _ _
  unfold Verif.setState
  rcases b with _ | _ | _ | b
  · have en : Verif.ensureMagic k .boot ⟨F, false, none, t⟩ = .ok () ⟨F.program .boot (trailerAt k 0) 4 magicByte, false, none, t⟩ := (ens none).trans rfl
    rw [Nvu.bind_ok en, rest none]
    exact ⟨rfl, rfl, id, rfl⟩
  · rw [bind_crash ((ens (some 0)).trans rfl)]
    refine ⟨by simp, .inl (lost _ ?_ ?_)⟩
    · intro x h1 h2
      refine Eq.trans (if_neg (by omega)) (hF x h1 (by omega))
    · have : F.tornProgram k t .boot (trailerAt k 0) 4 magicByte .boot (k.part - 5) = 0xFF#8 := (if_neg (by omega)).trans (hF _ (by omega) (by omega))
      show F.tornProgram k t .boot (trailerAt k 0) 4 magicByte .boot (k.part - 5) ≠ _
      rw [this]
      decide
  · have en : Verif.ensureMagic k .boot ⟨F, false, some 1, t⟩ = .ok () ⟨F.program .boot (trailerAt k 0) 4 magicByte, false, some 0, t⟩ := (ens (some 1)).trans rfl
    rw [Nvu.bind_ok en, rest (some 0)]
    refine ⟨by simp, ?_⟩
    by_cases hq : (F.program .boot (trailerAt k 0) 4 magicByte).tornProgram k t .boot (trailerAt k 1) 1 (fun _ => ST_TESTING) .boot (k.part - 5) = ST_TESTING
    · right
      show (F.program .boot (trailerAt k 0) 4 magicByte).tornProgram k t .boot (trailerAt k 1) 1 (fun _ => ST_TESTING) = _
      funext q x
      by_cases g : q = .boot ∧ x = k.part - 5
      · rw [g.1, g.2, hq]
        unfold marked
        rw [Flash.program]
        rw [if_pos ⟨rfl, by omega, by omega⟩, ← e2, h5]
        exact (and_ff _).symm
      · unfold marked
        rw [Flash.program, Flash.tornProgram]
        rw [if_neg (fun q => g ⟨q.1, by omega⟩), if_neg (fun q => g ⟨q.1, by omega⟩)]
    · left
      refine lost _ ?_ hq
      intro x h1 h2
      refine Eq.trans (if_neg (by omega)) (Eq.trans (if_neg (by omega)) (hF x h1 (by omega)))
  · have en : Verif.ensureMagic k .boot ⟨F, false, some (b + 2), t⟩ = .ok () ⟨F.program .boot (trailerAt k 0) 4 magicByte, false, some (b + 1), t⟩ := (ens (some (b + 2))).trans rfl
    rw [Nvu.bind_ok en, rest (some (b + 1))]
    exact ⟨rfl, rfl, by simp, rfl⟩

theorem exec_mark {A : Flash} (hF : ∀ x, k.last ≤ x → x < k.part → A .boot x = 0xFF#8) : Exec (Verif.setState k .boot ST_TESTING) false A () (marked k A) false := by
  obtain ⟨g1, g2, g3, g4⟩ := geo w
  have fit' := fit
  unfold Fits at fit'
  have e1 : trailerAt k 0 = k.part - 4 := rfl
  have e2 : trailerAt k 1 = k.part - 5 := rfl
  have hm : ¬ Verif.hasMagic k A .boot := le32_ff w fit fun x h1 h2 => hF x (by omega) (by omega)
  have h5 : (A.program .boot (trailerAt k 0) 4 magicByte) .boot (trailerAt k 1) = 0xFF#8 := by
    unfold Flash.program
    rw [if_neg (by omega)]
    exact hF _ (by omega) (by omega)
  have rd : ∀ A l, Exec readFlash l A A A l := fun A l => ⟨0, fun t => ⟨rfl, fun b => by rw [Nat.zero_add]; rfl⟩⟩
  unfold Verif.setState
  refine Exec.bind (l' := false) (a := ()) (A' := A.program .boot (trailerAt k 0) 4 magicByte) ?_ (Exec.bind (rd _ _) ?_)
  · unfold Verif.ensureMagic
    refine Exec.bind (rd _ _) ?_
    rw [if_neg hm]
    refine exec_program fun i hi => ?_
    rw [hF _ (by omega) (by omega)]
    exact and_ff _
  · rw [if_pos (by rw [h5]; decide)]
    refine exec_program fun i hi => ?_
    rw [show trailerAt k 1 + i = trailerAt k 1 by omega, h5]
    exact and_ff _

/-- BOOT is marked and the last sector of UPDATE erased. -/
theorem simEnd :
    Sim (TT k) (TornOK k) (RL k) true false (fun A F => Data k A F ∧ Blank k A F)
      (do Verif.setState k .boot ST_TESTING; erase k .update k.last k.ss; lock; pure true)
      (do setState k .boot ST_TESTING; erase k .update k.last k.ss; lock; pure true) true (fun _ => Rel k) := by
  obtain ⟨g1, g2, g3, g4⟩ := geo w
  have fit' := fit
  unfold Fits at fit'
  have e1 : trailerAt k 0 = k.part - 4 := rfl
  have e2 : trailerAt k 1 = k.part - 5 := rfl
  rintro A F b t ht ⟨h, hb⟩
  right
  have exEnd : ∀ A : Flash, Exec (do lock; pure true : M Bool) false A true A true := fun A => ⟨0, fun t => ⟨rfl, fun b => by rw [Nat.zero_add]; rfl⟩⟩
  have ex : Exec (do Verif.setState k .boot ST_TESTING; erase k .update k.last k.ss; lock; pure true) false A true ((marked k A).erase .update k.last k.ss) true :=
    Exec.bind (exec_mark w fit fun x h1 h2 => (hb x h1 h2).1) (Exec.bind exec_erase (exEnd _))
  have rel : ∀ F' : Flash, (∀ p x, p ≠ .update ∨ x < k.last → F' p x = marked k F p x) → Rel k ((marked k A).erase .update k.last k.ss) F' := by
    intro F' hF
    have ne : ∀ {q : Part} {x : Nat}, q ≠ .update ∨ x < k.last → (marked k A).erase .update k.last k.ss q x = marked k A q x := by
      intro q x hq
      unfold Flash.erase
      rw [if_neg]
      rintro ⟨a, b, _⟩
      rcases hq with g | g
      · exact g a
      · omega
    refine ⟨⟨?_, ?_⟩, ⟨?_, ?_⟩⟩
    · intro q x hq hx
      rw [hF q x (.inr hx), ne (.inr hx), marked_of w fit (.inr (by omega)), marked_of w fit (.inr (by omega))]
      exact h.data q x hq hx
    · intro x
      rw [hF .swap x (.inl (by simp)), ne (.inl (by simp)), marked_of w fit (.inl (by simp)), marked_of w fit (.inl (by simp))]
      exact h.swap x
    · intro x h1 h2
      rw [hF .boot x (.inl (by simp)), ne (.inl (by simp))]
      unfold marked Flash.program
      rw [(hb x (by omega) h2).1, (hb x (by omega) h2).2]
    · intro x h1 h2
      rw [hF .boot (x - 8) (.inl (by simp)), marked_of w fit (.inr (by omega)), (hb (x - 8) (by omega) (by omega)).2]
      exact if_pos ⟨rfl, by omega, by omega⟩
  have run := run_mark w fit (F := F) (fun x h1 h2 => (hb x h1 h2).2) b t
  have es : setState k .boot ST_TESTING = Verif.setState k .boot ST_TESTING := rfl
  rw [es]
  cases hm : Verif.setState k .boot ST_TESTING ⟨F, false, b, t⟩ with
  | ok a w' =>
    rw [hm] at run
    obtain ⟨r1, r2, r3, r4⟩ := run
    obtain ⟨F1, l1, b1, t1⟩ := w'
    dsimp only at r1 r2 r3 r4
    subst r1 r2 r4
    rw [Nvu.bind_ok hm]
    rcases b1 with _ | _ | b1
    · exact ⟨rfl, rfl, fun _ => rfl, _, ex, rel _ fun p x hq => if_neg (by rintro ⟨a, b, _⟩; exact hq.elim (fun g => g a) (fun g => by omega))⟩
    · refine ⟨fun g => by simpa using r3 g, _, .inl (rel ((marked k F).tornErase k t1 .update k.last k.ss) ?_), .inr ⟨rfl, true, ex⟩⟩
      intro p x hq
      unfold Flash.tornErase
      rw [if_pos ⟨rfl, by omega⟩]
    · exact ⟨rfl, rfl, fun g => by simpa using r3 g, _, ex, rel _ fun p x hq => if_neg (by rintro ⟨a, b, _⟩; exact hq.elim (fun g => g a) (fun g => by omega))⟩
  | crash F' =>
    rw [hm] at run
    rw [bind_crash hm]
    obtain ⟨r1, r2 | r2⟩ := run
    · exact ⟨r1, _, .inr r2, .inr ⟨rfl, true, ex⟩⟩
    · exact ⟨r1, _, .inl (rel F' fun p x _ => by rw [r2]), .inr ⟨rfl, true, ex⟩⟩
  | panic f => rw [hm] at run; exact run.elim
  | stuck f => rw [hm] at run; exact run.elim
  | fault f => rw [hm] at run; exact run.elim

theorem Rel.fw {A F : Flash} (h : Rel k A F) {p : Part} (hp : p ≠ .swap) : fwSize k (A p) = fwSize k (F p) := by
  obtain ⟨g1, g2, g3, g4⟩ := geo w
  have h8 := w.h8
  have hl := w.h_le
  have e0 : le32 (A p) 0 = le32 (F p) 0 := le32_congr fun o h1 h2 => h.1.data p o hp (by omega)
  have e4 : le32 (A p) 4 = le32 (F p) 4 := le32_congr fun o h1 h2 => h.1.data p o hp (by omega)
  unfold fwSize
  rw [e0, e4]

theorem Rel.word {A F : Flash} (h : Rel k A F) {p : Part} (hp : p ≠ .swap) : le32 (A p) k.tmp = le32 (F p) k.tmp := by
  obtain ⟨g1, g2, g3, g4⟩ := geo w
  have fit' := fit
  unfold Fits at fit'
  exact le32_congr fun o h1 h2 => h.1.data p o hp (by omega)

theorem simFinal {e : Env} {resume : Bool} :
    Sim (TT k) (TornOK k) (RL k) true true (Rel k) (Verif.swapFinal k e resume) (swapFinal k e resume) true (fun _ => Rel k) := by
  unfold Verif.swapFinal swapFinal
  refine Sim.readA fun A1 => Sim.readC fun F1 => Sim.ofEq ?_
  rintro A' F' ⟨rfl, rfl, h⟩
  have hp : ∀ A F, A = A' ∧ F = F' → Rel k A F := by
    rintro A F ⟨rfl, rfl⟩
    exact h
  dsimp only
  rw [h.word w fit (by simp), h.state w fit (by simp), h.fw w fit (by simp)]
  refine Sim.ite Iff.rfl (fun _ => (Sim.pure (Q := fun _ => Rel k) false).pre hp) (fun _ => ?_)
  refine Sim.bind (Q := fun _ => Rel k) (Sim.unlock.pre hp) fun _ => ?_
  refine Sim.bind (simSave w fit) fun _ => ?_
  refine Sim.bind (simEraseBoot w fit) fun _ => ?_
  refine Sim.bind (simRestore w fit) fun _ => ?_
  exact simEnd w fit

/-- `swapFinal` finds nothing to resume. -/
theorem simFinal_none {e : Env} {A F : Flash} (h : Rel k A F) (h1 : le32 (A .boot) k.tmp ≠ MAGIC_TRAIL)
    (h2 : (Verif.getState k A .update).getD e.junk ≠ ST_FINAL) {s l : Bool} :
    Sim (TT k) (TornOK k) (RL k) s l (fun A' F' => A' = A ∧ F' = F) (Verif.swapFinal k e true) (swapFinal k e true) l
      (fun r A' F' => r = false ∧ A' = A ∧ F' = F) := by
  unfold Verif.swapFinal swapFinal
  refine Sim.readA fun A1 => Sim.readC fun F1 => Sim.ofEq ?_
  rintro A' F' ⟨rfl, rfl, rfl, rfl⟩
  dsimp only
  rw [if_pos ⟨rfl, h1, h2⟩, if_pos ⟨rfl, by rw [← h.word w fit (by simp)]; exact h1, by rw [← h.state w fit (by simp)]; exact h2⟩]
  exact (Sim.pure (Q := fun r A1 F1 => r = false ∧ A1 = A' ∧ F1 = F') false).pre fun _ _ h => ⟨rfl, h⟩

/-! ### The swap loop -/

theorem simLoop {b u total : Nat} (ht : total ≤ k.last) : ∀ fuel j, 1 ≤ j → ∀ {s : Bool},
    Sim (TT k) (TornOK k) (RL k) s false (Rel k) (Verif.swapLoop k fuel b u total j) (swapLoop k fuel b u total j) false (fun _ => Rel k) := by
  intro fuel
  induction fuel with
  | zero => intro j _ s; exact Sim.stuck
  | succ fuel ih =>
    intro j hj s
    unfold Verif.swapLoop swapLoop
    refine Sim.ite Iff.rfl (fun hlt => ?_) (fun _ => Sim.pure (Q := fun _ => Rel k) j)
    refine Sim.bind (simSector w fit (lt_last_sec w ht hlt)) fun _ => ?_
    dsimp only
    rw [if_neg (by omega), if_neg (by omega)]
    exact ih _ (by omega)

/-- The whole loop, in the middle of a swap. -/
theorem simLoop0 {V : Prop × Prop} {X Y : Mem} {x y : Nat} (hX : ImgOK k X) (hY : ImgOK k Y) (hx : x = imgLen k X) (hy : y = imgLen k Y)
    {A F : Flash} (h : Rel k A F) (hI : InSwap k V X x Y y A) {ta : Nat} (hta : 0 < ta) {s : Bool} :
    Sim (TT k) (TornOK k) (RL k) s false (fun A' F' => A' = A ∧ F' = F)
      (Verif.swapLoop k (k.n + 2) (fwSize k (A .boot)) (fwSize k (A .update)) ta 0)
      (swapLoop k (k.n + 2) (fwSize k (A .boot)) (fwSize k (A .update)) ta 0) false (fun _ => Rel k) := by
  obtain ⟨g1, g2, g3, g4⟩ := geo w
  obtain ⟨i, st, hS⟩ := hI
  obtain ⟨q1, q2, q3, q4⟩ := hdr_boot w hX hY hx hy hS
  have hxa : x ≤ k.last := by rw [hx]; exact hX.fits
  have hya : y ≤ k.last := by rw [hy]; exact hY.fits
  have hx8 : 0 < x := by rw [hx]; have := w.h8; unfold imgLen; omega
  unfold Verif.swapLoop swapLoop
  rw [if_pos (show 0 * k.ss < ta by omega), if_pos (show 0 * k.ss < ta by omega)]
  refine Sim.bind (l' := false) (Q := fun _ A F => Rel k A F ∧ ∃ i st, 0 < i ∧ SwapI k V X x Y y A i st) ?_ fun _ => ?_
  · have key := simSector w fit (s := false) (b := fwSize k (A .boot)) (u := fwSize k (A .update)) (j := 0) (by omega)
    by_cases hi : i = 0
    · subst hi
      refine (key.triple (swapSector_cur w (s := st) (V := V) (A := X) (a := x) (B := Y) (b := y) (by omega) (by omega)) torn_ex ?_).conseq
        (P' := fun A' F' => A' = A ∧ F' = F) (fun _ _ h => h) ?_
      · rintro A' F' ⟨rfl, rfl⟩
        exact ⟨h, hS, q1 rfl, q2 rfl⟩
      · rintro _ A' F' ⟨p1, p2⟩
        exact ⟨p1, 1, .new, by omega, p2⟩
    · refine (key.triple (swapSector_done w (s := st) (V := V) (A := X) (a := x) (B := Y) (b := y) (k := i) (by omega) (by omega) _ _) torn_ex ?_).conseq
        (P' := fun A' F' => A' = A ∧ F' = F) (fun _ _ h => h) ?_
      · rintro A' F' ⟨rfl, rfl⟩
        exact ⟨h, hS⟩
      · rintro _ A' F' ⟨p1, p2⟩
        exact ⟨p1, i, st, by omega, p2⟩
  · dsimp only
    rw [if_pos (by rfl), if_pos (by rfl)]
    refine Sim.readA fun A1 => Sim.readC fun F1 => Sim.ofEq ?_
    rintro A2 F2 ⟨rfl, rfl, h2, j, st', hj, hS'⟩
    obtain ⟨r1, r2⟩ := (hdr_boot w hX hY hx hy hS').2.2.2 hj
    rw [← h2.fw w fit (p := .boot) (by simp), ← h2.fw w fit (p := .update) (by simp)]
    refine (simLoop w fit (total := totalSize k _ _) ?_ _ 1 (by omega)).pre ?_
    · rw [totalSize_eq]; omega
    · rintro A F ⟨rfl, rfl⟩
      exact h2

/-- `wolfBoot_update` in the middle of a swap. -/
theorem simUpdate {e : Env} {fb : Bool} {V : Prop × Prop} {X Y : Mem} {x y : Nat} (hX : ImgOK k X) (hY : ImgOK k Y) (hx : x = imgLen k X)
    (hy : y = imgLen k Y) {A F : Flash} (h : Rel k A F) (hI : InSwap k V X x Y y A)
    (hga : (Verif.getFlag k A 0).getD FL_NEW = FL_NEW → acceptable k e (A .update) ∧ (fb = true ∨ e.ver (A .boot) < e.ver (A .update)))
    (hgc : (Verif.getFlag k A 0).getD FL_NEW = FL_NEW → acceptable k e (F .update) ∧ (fb = true ∨ e.ver (F .boot) < e.ver (F .update))) :
    Sim (TT k) (TornOK k) (RL k) true true (fun A' F' => A' = A ∧ F' = F) (Verif.wbUpdate k e fb) (wbUpdate k e fb) true (fun _ => Rel k) := by
  obtain ⟨g1, g2, g3, g4⟩ := geo w
  have htot : k.h < totalSize k (fwSize k (A .boot)) (fwSize k (A .update)) := by
    rw [totalSize_eq]
    obtain ⟨i, st, hS⟩ := hI
    obtain ⟨q1, q2, q3, q4⟩ := hdr_boot w hX hY hx hy hS
    have hpx : k.h < x := by rw [hx]; have := hX.pos; unfold imgLen; omega
    have hpy : k.h < y := by rw [hy]; have := hY.pos; unfold imgLen; omega
    by_cases hk : i = 0
    · by_cases hs : st = .backup
      · rw [q3 hk hs]; omega
      · rw [q1 hk hs]; omega
    · rw [(q4 (by omega)).1]; omega
  have hfl := h.flag w fit (j := 0) (by omega)
  unfold Verif.wbUpdate wbUpdate
  refine Sim.readA fun A1 => Sim.readC fun F1 => Sim.ofEq ?_
  rintro A2 F2 ⟨rfl, rfl, rfl, rfl⟩
  dsimp only
  rw [← h.fw w fit (p := .boot) (by simp), ← h.fw w fit (p := .update) (by simp), ← hfl]
  refine Sim.ite Iff.rfl (fun g => absurd g (by omega)) fun _ => ?_
  rw [if_neg (fun g => g.2 (hga g.1).1), if_neg (fun g => g.2 (hga g.1).2), if_neg (fun g => g.2 (hgc g.1).1), if_neg (fun g => g.2 (hgc g.1).2)]
  refine Sim.bind (Q := fun _ A F => A = A2 ∧ F = F2) Sim.unlock fun _ => ?_
  refine Sim.bind (simLoop0 w fit hX hY hx hy h hI (by omega)) fun r => ?_
  refine Sim.bind (simRest w fit _ r) fun _ => ?_
  refine Sim.bind (Q := fun _ => Rel k) Sim.lock fun _ => ?_
  refine Sim.bindLate (simFinal w fit) (fun A F a A' _ _ => .inr ⟨rfl, true, Exec.pure true A' true⟩) fun _ => ?_
  exact Sim.pure (Q := fun _ => Rel k) true

/-! ### Images -/

omit fit in
theorem newOK {e : Env} {X : Mem} (h : GoodImage k e X) : NewOK k e X := by
  obtain ⟨g1, g2, g3, g4⟩ := geo w
  have hf : k.h + le32 X 4 ≤ k.last := by
    have := h.fits
    unfold imageBytes at this
    omega
  have hi : ImgOK k X := ⟨h.magic, h.nonempty, by unfold imgLen; omega⟩
  refine ⟨hi, ?_, h.type, ?_, h.digest, h.signature⟩
  · intro m hm
    exact h.loc m (fun o ho => hm o (Nat.zero_le _) (by unfold imgLen; unfold imageBytes at ho; omega))
  · rw [fwSize_of_open (hi.openOK w)]
    unfold maxUpdateSize
    have := w.h8
    omega

omit fit in
/-- While the flag of the first sector is "new" the images are in place. -/
theorem flag_new {V : Prop × Prop} {X Y : Mem} {x y : Nat} (hxa : x ≤ k.last) (hya : y ≤ k.last) {A : Flash} (hI : InSwap k V X x Y y A)
    (hfl : (Verif.getFlag k A 0).getD FL_NEW = FL_NEW) : Agree (A .boot) X 0 x ∧ Agree (A .update) Y 0 y := by
  have hn2 := w.n2
  obtain ⟨i, s, hS⟩ := hI
  have hk : i = 0 := by
    rcases Nat.eq_zero_or_pos i with h | h
    · exact h
    · exact absurd hfl (flag_done w h (by omega) hS).1
  subst hk
  rw [flag_of_swapI w (by omega) hS] at hfl
  have hs : s = .new := by
    cases s with
    | new => rfl
    | swapping => exact absurd hfl (by decide)
    | backup => exact absurd hfl (by decide)
    | done => exact absurd rfl hS.ndone
  subst hs
  have hss := w.ss_pos
  have key : ∀ Z z p, p ≠ Part.swap → z ≤ k.last → (∀ j, j < k.n - 1 → SecAt k A p Z z j) → Agree (A p) Z 0 z := by
    intro Z z p hp hz h o _ ho
    have e1 := (Nat.div_add_mod' o k.ss)
    have := h (o / k.ss) (lt_last_sec w (T := z) hz (by
      have := Nat.div_mul_le_self o k.ss
      omega)) (o % k.ss) (Nat.mod_lt _ (by omega)) (by omega)
    unfold secOff at this
    rw [if_neg hp, e1] at this
    exact this
  have hall : ∀ j, j < k.n - 1 → CurData k X x Y y A j .new := by
    intro j hj
    rcases Nat.eq_zero_or_pos j with h | h
    · subst h; exact (hS.cur hj).1
    · exact (hS.core.fresh j h hj).1
  exact ⟨key _ _ _ (by simp) hxa (fun j hj => (hall j hj).1), key _ _ _ (by simp) hya (fun j hj => (hall j hj).2)⟩

/-! ### `wolfBoot_start` -/

omit fit in
theorem triple_startUpdate {e : Env} {V : Prop × Prop} {X Y : Mem} (hX : GoodImage k e X) (hY : GoodImage k e Y) (hj : V.1 → e.junk ≠ ST_FINAL)
    (hV : V.2 → e.ver X < e.ver Y) {A : Flash} (hM : Mid k V X Y A)
    (hg : V.1 ∨ V.2 := by first | assumption | exact Or.inl trivial | exact Or.inr (by assumption)) :
    Triple (TT k) true (fun f => f = A) (Verif.startUpdate k e) true
      (fun _ f => DoneI k X (imgLen k X) Y (imgLen k Y) f) (ProgI k V X (imgLen k X) Y (imgLen k Y)) := by
  have nX := newOK w hX
  have nY := newOK w hY
  rcases hM with hI | hF
  · refine startUpdate_inSwap w (e := e) hj nX.img nY rfl rfl ?_ hI
    intro m v hm
    rw [(nX.loc m hm).2.1]
    exact hV v
  · unfold Verif.startUpdate
    refine Triple.readFlash (fun f hf => ?_)
    subst hf
    refine Triple.bind (l' := true) ((swapFinal_resume w e nY.img rfl nX.img.fits).pre (fun g hg => by rw [hg]; exact hF)) (fun r => ?_)
    refine Triple.ofEq (fun g ⟨hr, hg⟩ => ?_)
    subst hr
    rw [if_pos rfl]
    exact (Triple.pure (Q := fun _ f => DoneI k X (imgLen k X) Y (imgLen k Y) f) ()).pre (fun f h => by rw [h]; exact hg)

theorem simStartUpdate {e : Env} {V : Prop × Prop} {X Y : Mem} (hX : GoodImage k e X) (hY : GoodImage k e Y) (hj : V.1 → e.junk ≠ ST_FINAL)
    (hV : V.2 → e.ver X < e.ver Y) {A F : Flash} (h : Rel k A F) (hM : Mid k V X Y A)
    (hg : V.1 ∨ V.2 := by first | assumption | exact Or.inl trivial | exact Or.inr (by assumption)) :
    Sim (TT k) (TornOK k) (RL k) true true (fun A' F' => A' = A ∧ F' = F) (Verif.startUpdate k e) (startUpdate k e) true
      (fun _ A' F' => Rel k A' F' ∧ DoneI k X (imgLen k X) Y (imgLen k Y) A') := by
  have nX := newOK w hX
  have nY := newOK w hY
  have fX := nX.img.fits
  have fY := nY.img.fits
  have tri := triple_startUpdate w hX hY hj hV hM
  rcases hM with hI | hF
  · refine (Sim.triple (s := true) (P := fun A' F' => A' = A ∧ F' = F) (Q := fun _ => Rel k) ?_ tri torn_ex ?_).conseq (fun _ _ h => h) (fun _ _ _ h => h)
    · have hS := hI
      obtain ⟨i, st, hS⟩ := hS
      have hj' : Verif.hasMagic k A .update ∨ e.junk ≠ ST_FINAL := by
        rcases hS.core.go with q | q | q
        · exact .inr (hj q.1)
        · exact .inl q.1
        · exact absurd hg q
      have acc : ∀ fb, (fb = true ∨ e.ver X < e.ver Y) → (Verif.getFlag k A 0).getD FL_NEW = FL_NEW →
          (acceptable k e (A .update) ∧ (fb = true ∨ e.ver (A .boot) < e.ver (A .update))) ∧
          (acceptable k e (F .update) ∧ (fb = true ∨ e.ver (F .boot) < e.ver (F .update))) := by
        intro fb hfb hfl
        obtain ⟨q1, q2⟩ := flag_new w fX fY hI hfl
        have q3 : Agree (F .boot) X 0 (imgLen k X) := fun o h1 h2 => by rw [← h.1.data _ _ (by simp) (by omega)]; exact q1 o h1 h2
        have q4 : Agree (F .update) Y 0 (imgLen k Y) := fun o h1 h2 => by rw [← h.1.data _ _ (by simp) (by omega)]; exact q2 o h1 h2
        refine ⟨⟨(acceptable_congr w nY.loc q2).2 nY.acc, ?_⟩, (acceptable_congr w nY.loc q4).2 nY.acc, ?_⟩
        · rw [(nX.loc _ q1).2.1, (nY.loc _ q2).2.1]; exact hfb
        · rw [(nX.loc _ q3).2.1, (nY.loc _ q4).2.1]; exact hfb
      unfold Verif.startUpdate startUpdate
      refine Sim.readA fun A1 => Sim.readC fun F1 => Sim.ofEq ?_
      rintro A' F' ⟨rfl, rfl, rfl, rfl⟩
      refine Sim.bind (simFinal_none w fit h hS.core.ntB (state_ne_final w hj' hS.core.stNF)) fun r => ?_
      refine Sim.ofEq ?_
      rintro A1 F1 ⟨rfl, rfl, rfl⟩
      refine Sim.ite Iff.rfl (fun g => absurd g (by simp)) fun _ => ?_
      rw [h.state w fit (p := .boot) (by simp), h.state w fit (p := .update) (by simp)]
      have fin : ∀ {ma mc : M Bool}, Sim (TT k) (TornOK k) (RL k) true true (fun A' F' => A' = A1 ∧ F' = F1) ma mc true (fun _ => Rel k) →
          Sim (TT k) (TornOK k) (RL k) true true (fun A' F' => A' = A1 ∧ F' = F1) (ma >>= fun _ => pure ()) (mc >>= fun _ => pure ()) true (fun _ => Rel k) := by
        intro ma mc hm
        exact Sim.bindLate hm (fun A F a A' _ _ => .inr ⟨rfl, (), Exec.pure () A' true⟩) fun _ => Sim.pure (Q := fun _ => Rel k) ()
      refine Sim.ite Iff.rfl (fun hT => ?_) (fun hT => ?_)
      · exact fin (simUpdate w fit nX.img nY.img rfl rfl h hI (fun q => (acc true (.inl rfl) q).1) fun q => (acc true (.inl rfl) q).2)
      · refine Sim.ite Iff.rfl (fun hU => ?_) (fun hU => ?_)
        · rcases hS.core.go with ⟨_, h1, h2⟩ | ⟨h1, h2, h3⟩ | q
          · exfalso; apply hT
            rw [← h.state w fit (by simp)]
            unfold Verif.getState; rw [if_pos h1, h2]
          · exact fin (simUpdate w fit nX.img nY.img rfl rfl h hI (fun q => (acc false (.inr (hV h3)) q).1) fun q => (acc false (.inr (hV h3)) q).2)
          · exact absurd hg q
        · refine (Sim.pure (Q := fun _ => Rel k) ()).pre ?_
          rintro A' F' ⟨rfl, rfl⟩
          exact h
    · rintro A' F' ⟨rfl, rfl⟩
      exact ⟨⟨rfl, rfl⟩, rfl⟩
  · have tf := swapFinal_resume (V := V) w e nY.img rfl fX (A := X) (a := imgLen k X) (B := Y) (b := imgLen k Y)
    unfold Verif.startUpdate startUpdate
    refine Sim.readA fun A1 => Sim.readC fun F1 => ?_
    refine Sim.bindLate (((simFinal w fit).triple tf torn_ex (P' := fun A' F' => A' = A ∧ F' = F) ?_).pre ?_) ?_ fun r => ?_
    · rintro A' F' ⟨rfl, rfl⟩
      exact ⟨h, hF⟩
    · rintro A' F' ⟨-, -, h⟩
      exact h
    · rintro A' F' a A'' ⟨-, -, rfl, rfl⟩ he
      obtain ⟨rfl, -⟩ := he.post tf torn_ex hF
      exact .inr ⟨rfl, (), Exec.pure () A'' true⟩
    · refine Sim.ofEq ?_
      rintro A' F' ⟨q1, rfl, q2⟩
      rw [if_pos rfl, if_pos rfl]
      refine (Sim.pure (Q := fun _ A' F' => Rel k A' F' ∧ DoneI k X (imgLen k X) Y (imgLen k Y) A') ()).pre ?_
      rintro A'' F'' ⟨rfl, rfl⟩
      exact ⟨q1, q2⟩

theorem bootable_of {e : Env} {Y : Mem} (nY : NewOK k e Y) {m : Mem} (hm : Agree m Y 0 (imgLen k Y)) : bootable k e m := by
  have h8 := w.h8
  obtain ⟨l1, l2, l3, l4⟩ := nY.loc m hm
  have e0 : le32 m 0 = le32 Y 0 := le32_congr fun o h1 h2 => hm o (Nat.zero_le _) (by unfold imgLen; omega)
  have e4 : le32 m 4 = le32 Y 4 := le32_congr fun o h1 h2 => hm o (Nat.zero_le _) (by unfold imgLen; omega)
  have ho := nY.img.openOK w
  unfold openOK at ho
  exact ⟨by unfold openOK; rw [e0, e4]; exact ho, by rw [l3]; exact nY.acc.2.2.1, by rw [l4]; exact nY.acc.2.2.2⟩

/-- A reboot in the middle of an installation. -/
theorem start_rel {e : Env} {V : Prop × Prop} {X Y : Mem} (hX : GoodImage k e X) (hY : GoodImage k e Y) (hj : V.1 → e.junk ≠ ST_FINAL)
    (hV : V.2 → e.ver X < e.ver Y) {A F : Flash} (h : Rel k A F) (hM : Mid k V X Y A) {b : Option Nat} {t : Mem} (ht : TornOK k t)
    (hg : V.1 ∨ V.2 := by first | assumption | exact Or.inl trivial | exact Or.inr (by assumption)) :
    match start k e ⟨F, true, b, t⟩ with
    | .ok _ w' => w'.locked = true ∧ ∃ A', Rel k A' w'.fl ∧ Verif.Updated k Y X A'
    | .crash F' => b ≠ none ∧ ∃ A', RL k A' F' ∧ (Mid k V X Y A' ∨ Verif.Updated k Y X A')
    | _ => False := by
  have nX := newOK w hX
  have nY := newOK w hY
  have tri := start_mid (e := e) w nX.img nY hj (fun m v hm => by rw [(nX.loc m hm).2.1]; exact hV v) hM
  have triU := triple_startUpdate w hX hY hj hV hM
  have sim : Sim (TT k) (TornOK k) (RL k) false true (fun A' F' => A' = A ∧ F' = F) (Verif.start k e) (start k e) true (fun _ => Rel k) := by
    unfold Verif.start start
    refine Sim.bindLate (simStartUpdate w fit hX hY hj hV h hM) ?_ fun _ => ?_
    · rintro A' F' a A'' ⟨rfl, rfl⟩ he
      have hd := he.post triU torn_ex rfl
      left
      refine ⟨_, tt_ff, ?_⟩
      rw [Nvu.bind_ok (show readFlash ⟨A'', true, some 0, _⟩ = .ok A'' ⟨A'', true, some 0, _⟩ from rfl), if_pos (hd.bootable w nY rfl)]
      rfl
    · refine Sim.readA fun A1 => Sim.readC fun F1 => Sim.ofEq ?_
      rintro A2 F2 ⟨rfl, rfl, h2, hd⟩
      have hb : bootable k e (F2 .boot) := by
        refine bootable_of w fit nY fun o h1 ho => ?_
        have := nY.img.fits
        rw [← h2.1.data .boot o (by simp) (by omega)]
        exact hd.boot o (Nat.zero_le _) ho
      rw [if_pos (hd.bootable w nY rfl), if_pos hb]
      refine (Sim.tick (P := Rel k) (fun _ _ h => .inl h) torn_ex).pre ?_
      rintro A F ⟨rfl, rfl⟩
      exact h2
  rcases sim A F b t ht ⟨rfl, rfl⟩ with s | s
  · exact (s.no tri torn_ex rfl).elim
  · cases hs : start k e ⟨F, true, b, t⟩ with
    | ok a w3 =>
      rw [hs] at s
      obtain ⟨s1, s2, s3, A', s4, s5⟩ := s
      exact ⟨s1, A', s5, s4.post tri torn_ex rfl⟩
    | crash F3 =>
      rw [hs] at s
      obtain ⟨s1, A', s2, s3 | s3⟩ := s
      · obtain ⟨b', t', s4, s5⟩ := s3
        refine ⟨s1, A', s2, ?_⟩
        have := tri ⟨A, true, some b', t'⟩ s4 rfl rfl
        rw [s5] at this
        exact this.2
      · exact absurd s3.1 (by simp)
    | panic f => rw [hs] at s; exact s
    | stuck f => rw [hs] at s; exact s
    | fault f => rw [hs] at s; exact s

/-! ### The specification -/

/-- The flash with the flags of UPDATE in UPDATE. -/
def abs (k : Cfg) (F : Flash) : Flash := fun p x =>
  if p = .update ∧ k.last ≤ x then (if x < k.last + 8 then 0xFF#8 else F .boot (x - 8)) else F p x

theorem rel_abs (F : Flash) : Rel k (abs k F) F := by
  obtain ⟨g1, g2, g3, g4⟩ := geo w
  refine ⟨⟨fun p x hp hx => if_neg (by omega), fun x => if_neg (by simp)⟩, ⟨fun x h1 h2 => if_neg (by simp), fun x h1 h2 => ?_⟩⟩
  unfold abs
  rw [if_pos ⟨rfl, by omega⟩, if_neg (by omega)]

omit fit in
theorem img_last {e : Env} {X : Mem} (h : GoodImage k e X) : imageBytes k X ≤ k.last := by
  obtain ⟨g1, g2, g3, g4⟩ := geo w
  have := h.fits
  omega

theorem Pending.abs {Old New : Mem} {F : Flash} {e : Env} (hO : GoodImage k e Old) (hN : GoodImage k e New) (h : Pending k Old New F) :
    Verif.Pending k Old New (abs k F) := by
  obtain ⟨g1, g2, g3, g4⟩ := geo w
  have hr := rel_abs w fit F
  have hl := img_last w hO
  have hl' := img_last w hN
  refine ⟨?_, ?_, ?_, ?_, ?_⟩
  · intro o ho
    rw [hr.1.data _ _ (by simp) (by omega)]
    exact h.old o ho
  · intro o ho
    rw [hr.1.data _ _ (by simp) (by omega)]
    exact h.new o ho
  · rw [hr.state w fit (by simp)]
    exact h.state
  · intro j hj
    rw [hr.flag w fit (by omega)]
    exact h.flags j (by omega)
  · unfold Quiet
    rw [hr.word w fit (by simp), hr.word w fit (by simp)]
    exact h.quiet

theorem Updated.abs {Old New : Mem} {F : Flash} {e : Env} (hO : GoodImage k e Old) (hN : GoodImage k e New) (h : Updated k New Old F) :
    Verif.Updated k New Old (abs k F) := by
  obtain ⟨g1, g2, g3, g4⟩ := geo w
  have hr := rel_abs w fit F
  have hl := img_last w hO
  have hl' := img_last w hN
  refine ⟨?_, ?_, ?_, ?_, ?_⟩
  · intro o ho
    rw [hr.1.data _ _ (by simp) (by omega)]
    exact h.new o ho
  · intro o ho
    rw [hr.1.data _ _ (by simp) (by omega)]
    exact h.old o ho
  · rw [hr.state w fit (by simp)]
    exact h.state
  · intro x h1 h2
    unfold Fho.abs
    rw [if_pos ⟨rfl, by omega⟩]
    split
    · rfl
    · exact h.erased _ (by omega) (by omega)
  · unfold Quiet
    rw [hr.word w fit (by simp), hr.word w fit (by simp)]
    exact h.quiet

theorem updated_of {Old New : Mem} {A F : Flash} {e : Env} (hO : GoodImage k e Old) (hN : GoodImage k e New) (hr : Rel k A F)
    (h : Verif.Updated k New Old A) : Updated k New Old F := by
  obtain ⟨g1, g2, g3, g4⟩ := geo w
  have hl := img_last w hO
  have hl' := img_last w hN
  refine ⟨?_, ?_, ?_, ?_, ?_⟩
  · intro o ho
    rw [← hr.1.data _ _ (by simp) (by omega)]
    exact h.new o ho
  · intro o ho
    rw [← hr.1.data _ _ (by simp) (by omega)]
    exact h.old o ho
  · rw [← hr.state w fit (by simp)]
    exact h.state
  · intro x h1 h2
    have := hr.2.ut (x + 8) (by omega) (by omega)
    rw [Nat.add_sub_cancel] at this
    rw [← this]
    exact h.erased _ (by omega) (by omega)
  · unfold Quiet
    rw [← hr.word w fit (by simp), ← hr.word w fit (by simp)]
    exact h.quiet

end

end Fho

end Verif
