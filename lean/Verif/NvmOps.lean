import Verif.NvmRel

/-!
# Update on write-once flash: operations

Proof technique for `Verif.NvmUpdateThms`: the operations of `Verif.NvmUpdate` are simulated by those of `Verif.Trailer` and `Verif.Swap`.
-/

set_option linter.unusedVariables false

namespace Verif

namespace Nvu

/-! ### Runs -/

theorem run_ops {k : Cfg} (w : k.WF) (n3 : 3 ≤ k.n) {t : Mem} (hN : TornOK k t) (p : Part) (ops : List NvOp) : ∀ (F : Flash) (b : Option Nat),
    match flagOps k p ops ⟨F, false, b, t⟩ with
    | .ok _ w' => w'.locked = false ∧ w'.torn = t ∧ (b = none → w'.budget = none) ∧ (nv k).exec ops (F p) = some (w'.fl p) ∧ ∀ q, q ≠ p → w'.fl q = F q
    | .crash F' => b ≠ none ∧ (nv k).Crash ops (F p) (F' p) ∧ (p = .update → (nv k).ACrash ops (F p) (F' p)) ∧ ∀ q, q ≠ p → F' q = F q
    | .fault _ => (nv k).exec ops (F p) = none
    | _ => False := by
  obtain ⟨g1, g2, g3, g4, g5, g6, g7, g8, g9⟩ := geo w n3
  have hss := w.ss_pos
  induction ops with
  | nil => intro F b; exact ⟨rfl, rfl, id, rfl, fun _ _ => rfl⟩
  | cons op ops ih =>
    intro F b
    by_cases hd : dirty k p op F
    · have : flagOps k p (op :: ops) ⟨F, false, b, t⟩ = .fault F := by
        unfold flagOps
        refine bind_fault ?_
        unfold flagOp
        exact if_pos ⟨rfl, hd⟩
      rw [this]
      cases op with
      | erase s => exact hd.elim
      | write s j d =>
        show (nv k).exec (.write s j d :: ops) (F p) = none
        unfold NvCfg.exec
        exact if_neg hd
    · have hrun : flagOp k p op ⟨F, false, b, t⟩ = flashOp (fun _ f => opFlags k p op f) (fun t f => tornFlags k p op t f) ⟨F, false, b, t⟩ := by
        unfold flagOp
        exact if_neg (fun g => hd g.2)
      have hgo : ∀ b', (∀ b, b' = some b → b < b + 1) → (match flagOps k p ops ⟨opFlags k p op F, false, b', t⟩ with
          | .ok _ w' => w'.locked = false ∧ w'.torn = t ∧ (b' = none → w'.budget = none) ∧ (nv k).exec (op :: ops) (F p) = some (w'.fl p) ∧
              ∀ q, q ≠ p → w'.fl q = F q
          | .crash F' => b' ≠ none ∧ (nv k).Crash (op :: ops) (F p) (F' p) ∧ (p = .update → (nv k).ACrash (op :: ops) (F p) (F' p)) ∧ ∀ q, q ≠ p → F' q = F q
          | .fault _ => (nv k).exec (op :: ops) (F p) = none
          | _ => False) := by
        intro b' _
        have := ih (opFlags k p op F) b'
        have e1 : opFlags k p op F p = (nv k).apply (F p) op := if_pos rfl
        have e2 : ∀ q, q ≠ p → opFlags k p op F q = F q := fun q hq => if_neg hq
        have e3 : (nv k).exec (op :: ops) (F p) = (nv k).exec ops ((nv k).apply (F p) op) := by
          cases op with
          | erase s => rfl
          | write s j d =>
            show (if _ then _ else _) = _
            exact if_pos (Decidable.not_not.1 hd)
        have e4 : ∀ m', (nv k).Crash ops ((nv k).apply (F p) op) m' → (nv k).Crash (op :: ops) (F p) m' := by
          intro m' h
          cases op with
          | erase s => exact .erase h
          | write s j d => exact .write fun _ => h
        have e5 : ∀ m', (nv k).ACrash ops ((nv k).apply (F p) op) m' → (nv k).ACrash (op :: ops) (F p) m' := by
          intro m' h
          cases op with
          | erase s => exact .erase h
          | write s j d => exact .write h
        rw [e1] at this
        cases hr : flagOps k p ops ⟨opFlags k p op F, false, b', t⟩ with
        | ok a w' =>
          rw [hr] at this
          obtain ⟨h1, h2, h3, h4, h5⟩ := this
          exact ⟨h1, h2, h3, e3.trans h4, fun q hq => (h5 q hq).trans (e2 q hq)⟩
        | crash F' =>
          rw [hr] at this
          obtain ⟨h1, h2, h3, h4⟩ := this
          exact ⟨h1, e4 _ h2, fun hp => e5 _ (h3 hp), fun q hq => (h4 q hq).trans (e2 q hq)⟩
        | fault F' => rw [hr] at this; exact e3.trans this
        | panic F' => rw [hr] at this; exact this
        | stuck F' => rw [hr] at this; exact this
      rcases b with _ | _ | b
      · have : flagOps k p (op :: ops) ⟨F, false, none, t⟩ = flagOps k p ops ⟨opFlags k p op F, false, none, t⟩ := by
          show (flagOp k p op >>= fun _ => flagOps k p ops) _ = _
          exact bind_ok (hrun.trans rfl)
        rw [this]
        exact hgo none (by simp)
      · have : flagOps k p (op :: ops) ⟨F, false, some 0, t⟩ = .crash (tornFlags k p op t F) := by
          show (flagOp k p op >>= fun _ => flagOps k p ops) _ = _
          exact bind_crash (hrun.trans rfl)
        rw [this]
        refine ⟨by simp, ?_⟩
        cases op with
        | erase s =>
          by_cases hp : p = .update
          · have e : tornFlags k p (.erase s) t F = F := if_pos hp
            rw [e]
            exact ⟨.here, fun _ => .here, fun _ _ => rfl⟩
          · have e : tornFlags k p (.erase s) t F = fun q a => if q = p ∧ (nv k).base s ≤ a ∧ a < (nv k).base s + k.ss then t a else F q a := if_neg hp
            rw [e]
            refine ⟨.torn (.erase ?_ ?_), fun h => absurd h hp, ?_⟩
            · intro x hx
              exact if_neg (fun g => hx g.2)
            · unfold NvCfg.magic
              rw [le32_congr (x := t) ?_]
              · obtain ⟨-, t1, t2⟩ := hN
                rw [g9]
                cases s
                · rw [show (nv k).base false + k.ss - 4 = k.part - 4 by omega]; exact t2
                · rw [show (nv k).base true + k.ss - 4 = k.part - k.ss - 4 by omega]; exact t1
              · intro o h1 h2
                exact if_pos ⟨rfl, by omega, by omega⟩
            · intro q hq
              funext a
              exact if_neg (fun g => hq g.1)
        | write s j d =>
          by_cases hm : (j + 1) * k.fb ≤ k.ss - 4
          · have e : tornFlags k p (.write s j d) t F = fun q a => if q = p ∧ (nv k).base s + j * k.fb ≤ a ∧ a < (nv k).base s + j * k.fb + k.fb then
              F q a &&& (d (a - (nv k).base s) ||| t a) else F q a := if_pos hm
            rw [e]
            refine ⟨.torn (.write ?_ (.inl hm)), fun _ => .torn (t := t) hm ?_, ?_⟩
            · intro x hx
              exact if_neg (fun g => hx g.2)
            · intro x
              by_cases hx : (nv k).base s + j * k.fb ≤ x ∧ x < (nv k).base s + j * k.fb + k.fb
              · exact (if_pos ⟨rfl, hx⟩).trans (if_pos hx).symm
              · exact (if_neg (fun g => hx g.2)).trans (if_neg hx).symm
            · intro q hq
              funext a
              exact if_neg (fun g => hq g.1)
          · have e : tornFlags k p (.write s j d) t F = F := if_neg hm
            rw [e]
            exact ⟨.here, fun _ => .here, fun _ _ => rfl⟩
      · have : flagOps k p (op :: ops) ⟨F, false, some (b + 1), t⟩ = flagOps k p ops ⟨opFlags k p op F, false, some b, t⟩ := by
          show (flagOp k p op >>= fun _ => flagOps k p ops) _ = _
          exact bind_ok (hrun.trans rfl)
        rw [this]
        have := hgo (some b) (by simp)
        cases hr : flagOps k p ops ⟨opFlags k p op F, false, some b, t⟩ with
        | ok a w' => rw [hr] at this; exact ⟨this.1, this.2.1, by simp, this.2.2.2⟩
        | crash F' => rw [hr] at this; exact ⟨by simp, this.2⟩
        | fault F' => rw [hr] at this; exact this
        | panic F' => rw [hr] at this; exact this
        | stuck F' => rw [hr] at this; exact this

theorem sim_ops {k : Cfg} (w : k.WF) (n3 : 3 ≤ k.n) {ma : M Unit} {s : Bool} {T : Mem → Prop} (p : Part) (ops : Flash → List NvOp) {P : Flash → Flash → Prop}
    {Q : Unit → Flash → Flash → Prop}
    (h : ∀ A F, P A F → Bad ma false A ∨ ((nv k).exec (ops F) (F p) ≠ none ∧
      (∀ F', (nv k).exec (ops F) (F p) = some (F' p) → (∀ q, q ≠ p → F' q = F q) → ∃ A', Exec ma false A () A' false ∧ Q () A' F') ∧
      (∀ F', (nv k).Crash (ops F) (F p) (F' p) → (p = .update → (nv k).ACrash (ops F) (F p) (F' p)) → (∀ q, q ≠ p → F' q = F q) →
        ∃ A', Rel k A' F' ∧ (CrashTo T ma false A A' ∨ (s = true ∧ ∃ a, Exec ma false A a A' false))))) :
    Sim T (TornOK k) (Rel k) s false P ma (readFlash >>= fun f => flagOps k p (ops f)) false Q := by
  intro A F b t ht hp
  rcases h A F hp with h | ⟨h1, h2, h3⟩
  · exact .inl h
  · right
    rw [bind_ok (show readFlash ⟨F, false, b, t⟩ = .ok F ⟨F, false, b, t⟩ from rfl)]
    have := run_ops w n3 ht p (ops F) F b
    cases hr : flagOps k p (ops F) ⟨F, false, b, t⟩ with
    | ok a w' =>
      rw [hr] at this
      obtain ⟨e1, e2, e3, e4, e5⟩ := this
      exact ⟨e1, e2, e3, h2 _ e4 e5⟩
    | crash F' =>
      rw [hr] at this
      obtain ⟨e1, e2, e3, e4⟩ := this
      exact ⟨e1, h3 _ e2 e3 e4⟩
    | fault F' => rw [hr] at this; exact h1 this
    | panic F' => rw [hr] at this; exact this
    | stuck F' => rw [hr] at this; exact this

/-! ### Runs of operations of `Verif.Flash` -/

section
variable {c : Cfg} {A : Flash} {p : Part} {off len : Nat} {d : Nat → Byte}

theorem exec_program (hN : ∀ i, i < len → A p (off + i) &&& d i = d i) :
    Exec (program c p off len d) false A () (A.program p off len d) false := by
  have : ∀ b t, program c p off len d ⟨A, false, b, t⟩ = flashOp (fun _ f => f.program p off len d) (fun t f => f.tornProgram c t p off len d) ⟨A, false, b, t⟩ := by
    intro b t
    unfold program
    exact if_neg (fun g => g.2.2 hN)
  refine ⟨1, fun t => ⟨this _ _, fun b => ?_⟩⟩
  rw [this, Nat.add_comm]
  rfl

theorem crash_program {T : Mem → Prop} (hN : ∀ i, i < len → A p (off + i) &&& d i = d i) {t : Mem} (ht : T t) :
    CrashTo T (program c p off len d) false A (A.tornProgram c t p off len d) := by
  refine ⟨0, t, ht, ?_⟩
  unfold program
  rw [if_neg (fun g => g.2.2 hN)]
  rfl

theorem bad_program (hs : c.strict = true) (hN : ¬ ∀ i, i < len → A p (off + i) &&& d i = d i) : Bad (program c p off len d) false A := by
  intro t
  refine ⟨A, .inr (.inr ?_)⟩
  unfold program
  exact if_pos ⟨hs, rfl, hN⟩

theorem exec_erase : Exec (erase c p off len) false A () (A.erase p off len) false := by
  refine ⟨1, fun t => ⟨rfl, fun b => ?_⟩⟩
  rw [Nat.add_comm]
  rfl

theorem crash_erase {T : Mem → Prop} {t : Mem} (ht : T t) : CrashTo T (erase c p off len) false A (A.tornErase c t p off len) := ⟨0, t, ht, rfl⟩

/-- Torn programming of the trailer that has not begun. -/
theorem torn_old (hp : p ≠ .swap) (ho : c.last ≤ off) : A.tornProgram c (fun _ => 0xFF#8) p off len d = A := by
  funext q x
  unfold Flash.tornProgram
  split
  · next h =>
    rw [if_pos ⟨hp, by omega⟩]
    rw [show d (x - off) ||| 0xFF#8 = 0xFF#8 from BitVec.or_allOnes]
    exact BitVec.and_allOnes
  · rfl

/-- Torn programming of the trailer that is complete. -/
theorem torn_new (hp : p ≠ .swap) (ho : c.last ≤ off) : A.tornProgram c (fun _ => 0x00#8) p off len d = A.program p off len d := by
  funext q x
  unfold Flash.tornProgram Flash.program
  split
  · next h =>
    rw [if_pos ⟨hp, by omega⟩]
    rw [show d (x - off) ||| 0#8 = d (x - off) from BitVec.or_zero]
  · rfl

theorem tt_ff : TT c (fun _ => 0xFF#8) := by
  show le32 _ _ ≠ MAGIC_TRAIL
  unfold le32
  dsimp only
  decide

theorem tt_0 : TT c (fun _ => 0x00#8) := by
  show le32 _ _ ≠ MAGIC_TRAIL
  unfold le32
  dsimp only
  decide

end

/-! ### Reading the flags -/

section
variable {k : Cfg} (w : k.WF) (n3 : 3 ≤ k.n) {A F : Flash} {l : Bool} {b : Option Nat} {t : Mem}

theorem choose_tidy {p : Part} (h : (nv k).Tidy (F p)) : choose k p ⟨F, l, b, t⟩ = .ok () ⟨F, l, b, t⟩ := by
  unfold choose
  rw [bind_ok (show readFlash ⟨F, l, b, t⟩ = .ok F ⟨F, l, b, t⟩ from rfl), NvCfg.tidy_sel h]
  rfl

theorem getMagic_tidy {p : Part} (h : (nv k).Tidy (F p)) :
    getMagic k p ⟨F, l, b, t⟩ = .ok (decide ((nv k).magic (F p) ((nv k).select (F p)))) ⟨F, l, b, t⟩ := by
  unfold getMagic
  rw [bind_ok (choose_tidy h), bind_ok (show readFlash ⟨F, l, b, t⟩ = .ok F ⟨F, l, b, t⟩ from rfl)]
  rfl

theorem getCell_tidy {p : Part} (h : (nv k).Tidy (F p)) (i : Nat) : getCell k p i ⟨F, l, b, t⟩ = .ok ((nv k).get (F p) i) ⟨F, l, b, t⟩ := by
  unfold getCell
  rw [bind_ok (choose_tidy h), bind_ok (show readFlash ⟨F, l, b, t⟩ = .ok F ⟨F, l, b, t⟩ from rfl)]
  rfl

theorem getState_tidy {p : Part} (h : (nv k).Tidy (F p)) : getState k p ⟨F, l, b, t⟩ = .ok (stateOf k F p) ⟨F, l, b, t⟩ := by
  unfold getState stateOf
  rw [bind_ok (getMagic_tidy h)]
  by_cases hm : (nv k).magic (F p) ((nv k).select (F p))
  · rw [if_pos (decide_eq_true hm), if_pos hm, bind_ok (getCell_tidy h 1)]
    rfl
  · rw [if_neg (by rw [decide_eq_true_eq]; exact hm), if_neg hm]
    rfl

theorem getFlag_tidy (h : (nv k).Tidy (F .update)) (j : Nat) : getFlag k j ⟨F, l, b, t⟩ = .ok (flagOf k F j) ⟨F, l, b, t⟩ := by
  unfold getFlag flagOf
  rw [bind_ok (getMagic_tidy h)]
  by_cases hm : (nv k).magic (F .update) ((nv k).select (F .update))
  · rw [if_pos (decide_eq_true hm), if_pos hm, bind_ok (getCell_tidy h _)]
    rfl
  · rw [if_neg (by rw [decide_eq_true_eq]; exact hm), if_neg hm]
    rfl

end

/-! ### Writing the flags -/

section
variable {k : Cfg} (w : k.WF) (n3 : 3 ≤ k.n)
include w n3

theorem simSetCell {p : Part} (hp : p ≠ .swap) {i : Nat} (h1 : 1 ≤ i) (h2 : 4 + i ≤ k.ss) (v : Byte) {A F : Flash} (h : RelT k A F)
    (hm : hasMagic (pre k) A p) (hf : p = .update → A .update (trailerAt (pre k) 1) ≠ ST_FINAL) {s : Bool} :
    Sim (TT (pre k)) (TornOK k) (Rel k) s false (fun A' F' => A' = A ∧ F' = F) (program (pre k) p (trailerAt (pre k) i) 1 (fun _ => v)) (setCell k p i v) false
      (fun _ A' F' => RelT k A' F' ∧ A' p (trailerAt (pre k) i) = v ∧ ∀ q x, ¬ (q = p ∧ x = trailerAt (pre k) i) → A' q x = A q x) := by
  obtain ⟨g1, g2, g3, g4, g5, g6, g7, g8, g9⟩ := geo w n3
  have wn := nv_wf w n3
  have hss := w.ss_pos
  have htb := trailer_bounds (pre_wf w n3) (k := i) h2
  have hmF := (h.rel.magic w n3 hp).1 hm
  have hr := reads_of w n3 hmF
  have ht := h.tidy hp
  refine sim_ops w n3 p (fun f => (nv k).setOps (f p) i v) ?_
  rintro A' F' ⟨rfl, rfl⟩
  by_cases hN : ∀ j, j < 1 → A' p (trailerAt (pre k) i + j) &&& v = v
  · right
    have hv := hN 0 (by omega)
    rw [Nat.add_zero] at hv
    obtain ⟨m', x1, x2, x3, x4⟩ := NvCfg.exec_set wn ht hr v h1 h2
    -- the new contents
    have hA : ∀ q x, ¬ (q = p ∧ (pre k).last ≤ x) → A'.program p (trailerAt (pre k) i) 1 (fun _ => v) q x = A' q x := by
      intro q x hq
      exact if_neg (fun g => hq ⟨g.1, by omega⟩)
    have hview : ∀ m : Mem, (nv k).Reads m (fun j => if j = i then v else (nv k).get (F' p) j) → ∀ j, j < k.ss →
        A'.program p (trailerAt (pre k) i) 1 (fun _ => v) p ((pre k).last + j) = m ((nv k).base ((nv k).select m) + j) := by
      intro m hm' j hj
      rw [reads_view w n3 hm' hj]
      have e0 := h.rel.view p j hp hj
      rw [reads_view w n3 hr hj] at e0
      unfold Flash.program
      by_cases hji : j = k.ss - (4 + i)
      · rw [if_pos ⟨rfl, by omega, by omega⟩, show (pre k).last + j = trailerAt (pre k) i by omega, hv, if_pos (by omega), if_pos (by omega)]
      · rw [if_neg (by omega), e0]
        by_cases hj4 : j < k.ss - 4
        · rw [if_pos hj4, if_pos hj4, if_neg (by omega)]
        · rw [if_neg hj4, if_neg hj4]
    have hview0 : ∀ m : Mem, (nv k).Reads m (fun j => (nv k).get (F' p) j) → ∀ j, j < k.ss →
        A' p ((pre k).last + j) = m ((nv k).base ((nv k).select m) + j) := by
      intro m hm' j hj
      rw [reads_view w n3 hm' hj, h.rel.view p j hp hj, reads_view w n3 hr hj]
    refine ⟨by rw [x1]; simp, ?_, ?_⟩
    · intro F'' y1 y2
      rw [x1] at y1
      have y1 := Option.some.inj y1
      rw [y1] at x2 x3 x4
      have hrel : Rel k (A'.program p (trailerAt (pre k) i) 1 (fun _ => v)) F'' :=
        h.rel.flags w n3 hp hA y2 x4 (hview _ x2)
          (fun e hb => by subst e; exact absurd x2.1 (hb _)) (fun e _ _ => by subst e; exact .inr x3)
      exact ⟨_, exec_program hN, h.flags w n3 hp hrel y2 (NvCfg.clear_word wn x3), (if_pos ⟨rfl, by omega, by omega⟩).trans hv,
        fun q x hq => if_neg (fun g => hq ⟨g.1, by omega⟩)⟩
    · intro F'' y1 y2 y3
      have hout : ∀ x, (∀ b, ¬ (nv k).inSec b x) → F'' p x = F' p x :=
        NvCfg.crash_out wn (NvCfg.inside_set wn _ _ _) y1 (by rw [x1]; simp)
      have hcase : (nv k).Reads (F'' p) (fun j => (nv k).get (F' p) j) ∨ ((nv k).Reads (F'' p) (fun j => if j = i then v else (nv k).get (F' p) j) ∧
          (p = .update → (nv k).magic (F'' p) (!(nv k).select (F'' p)) ∨ (nv k).Clear (F'' p) (!(nv k).select (F'' p)))) := by
        by_cases e : p = .update
        · rcases NvCfg.acrash_set wn ht hr v h1 h2 (y2 e) with z | ⟨z1, z2⟩
          · exact .inl z
          · exact .inr ⟨z1, fun _ => z2⟩
        · rcases NvCfg.crash_copy wn (NvCfg.data_cache wn hr v h1 h2) hr y1 with z | z
          · exact .inl z
          · exact .inr ⟨z, fun g => absurd g e⟩
      rcases hcase with z | ⟨z1, z2⟩
      · refine ⟨A', ?_, .inl ?_⟩
        · exact h.rel.flags w n3 hp (fun _ _ _ => rfl) y3 hout (hview0 _ z) (fun e hb => by subst e; exact absurd z.1 (hb _))
            (fun e _ hst => absurd hst (hf e))
        · have := crash_program (c := pre k) (T := TT (pre k)) (A := A') (p := p) (off := trailerAt (pre k) i) (len := 1) (d := fun _ => v) hN tt_ff
          rw [torn_old hp htb.1] at this
          exact this
      · refine ⟨A'.program p (trailerAt (pre k) i) 1 (fun _ => v), ?_, .inl ?_⟩
        rotate_left
        · have := crash_program (c := pre k) (T := TT (pre k)) (A := A') (p := p) (off := trailerAt (pre k) i) (len := 1) (d := fun _ => v) hN tt_0
          rw [torn_new hp htb.1] at this
          exact this
        · exact h.rel.flags w n3 hp hA y3 hout (hview _ z1) (fun e hb => by subst e; exact absurd z1.1 (hb _))
            (fun e _ _ => by subst e; exact z2 rfl)
  · exact .inl (bad_program rfl hN)

theorem magicByte_ff (i : Nat) : (0xFF#8 : Byte) &&& magicByte i = magicByte i := BitVec.allOnes_and

theorem simEnsureMagic {p : Part} (hp : p ≠ .swap) {A F : Flash} (h : RelT k A F)
    (hc : ¬ hasMagic (pre k) A p → ∀ b, (nv k).Clear (F p) b) {s : Bool} :
    Sim (TT (pre k)) (TornOK k) (Rel k) s false (fun A' F' => A' = A ∧ F' = F) (Verif.ensureMagic (pre k) p) (ensureMagic k p) false
      (fun _ A' F' => RelT k A' F' ∧ hasMagic (pre k) A' p ∧ ∀ q x, ¬ (q = p ∧ trailerAt (pre k) 0 ≤ x ∧ x < (pre k).part) → A' q x = A q x) := by
  obtain ⟨g1, g2, g3, g4, g5, g6, g7, g8, g9⟩ := geo w n3
  have wn := nv_wf w n3
  have hss := w.ss_pos
  have htb := trailer_bounds (pre_wf w n3) (k := 0) (by show 4 + 0 ≤ k.ss; omega)
  have htb1 := trailer_bounds (pre_wf w n3) (k := 1) (by show 4 + 1 ≤ k.ss; omega)
  have ht := h.tidy hp
  unfold Verif.ensureMagic ensureMagic
  refine Sim.readA fun A1 => ?_
  refine Sim.obs (fun F => decide ((nv k).magic (F p) ((nv k).select (F p)))) ?_ fun F1 => ?_
  · rintro A' F' b t ⟨-, -, rfl⟩
    exact getMagic_tidy ht
  by_cases hm : hasMagic (pre k) A p
  · refine Sim.ofEq ?_
    rintro A' F' ⟨rfl, rfl, rfl, rfl⟩
    rw [if_pos hm, if_pos (decide_eq_true ((h.rel.magic w n3 hp).1 hm))]
    refine (Sim.pure ()).pre ?_
    rintro A'' F'' ⟨rfl, rfl⟩
    exact ⟨h, hm, fun _ _ _ => rfl⟩
  · refine Sim.ofEq ?_
    rintro A' F' ⟨rfl, rfl, rfl, rfl⟩
    rw [if_neg hm, if_neg (by rw [decide_eq_true_eq]; exact fun g => hm ((h.rel.magic w n3 hp).2 g))]
    have hcl := hc hm
    have hsel : (nv k).select (F' p) = false := NvCfg.sel_none wn fun b => NvCfg.clear_magic wn (hcl b)
    have hff : ∀ j, j < k.ss → A' p ((pre k).last + j) = 0xFF#8 := by
      intro j hj
      rw [h.rel.view p j hp hj]
      exact hcl _ j hj
    have hN : ∀ j, j < 4 → A' p (trailerAt (pre k) 0 + j) &&& magicByte j = magicByte j := by
      intro j hj
      rw [show trailerAt (pre k) 0 + j = (pre k).last + (k.ss - 4 + j) by omega, hff _ (by omega)]
      exact magicByte_ff w n3 _
    have hA : ∀ q x, ¬ (q = p ∧ (pre k).last ≤ x) → A'.program p (trailerAt (pre k) 0) 4 magicByte q x = A' q x := by
      intro q x hq
      exact if_neg (fun g => hq ⟨g.1, by omega⟩)
    have hview : ∀ m : Mem, (nv k).Reads m (fun _ => (nv k).er) → ∀ j, j < k.ss →
        A'.program p (trailerAt (pre k) 0) 4 magicByte p ((pre k).last + j) = m ((nv k).base ((nv k).select m) + j) := by
      intro m hm' j hj
      rw [reads_view w n3 hm' hj]
      unfold Flash.program
      by_cases hj4 : j < k.ss - 4
      · rw [if_pos hj4, if_neg (by omega), hff j hj]
        rfl
      · rw [if_neg hj4, if_pos ⟨rfl, by omega, by omega⟩, hff j hj, magicByte_ff w n3]
        congr 1
        omega
    have hst : A'.program p (trailerAt (pre k) 0) 4 magicByte p (trailerAt (pre k) 1) = 0xFF#8 := by
      unfold Flash.program
      rw [if_neg (by omega), show trailerAt (pre k) 1 = (pre k).last + (k.ss - 5) by omega, hff _ (by omega)]
    have hst0 : A' p (trailerAt (pre k) 1) = 0xFF#8 := by
      rw [show trailerAt (pre k) 1 = (pre k).last + (k.ss - 5) by omega, hff _ (by omega)]
    obtain ⟨m', x1, x2, x3, x4⟩ := NvCfg.exec_magic wn rfl hcl
    refine sim_ops w n3 p (fun f => (nv k).magicOps (f p)) ?_
    rintro A'' F'' ⟨rfl, rfl⟩
    right
    refine ⟨by rw [x1]; simp, ?_, ?_⟩
    · intro F1 y1 y2
      rw [x1] at y1
      have y1 := Option.some.inj y1
      rw [y1] at x2 x3 x4
      have hrel : Rel k (A''.program p (trailerAt (pre k) 0) 4 magicByte) F1 :=
        h.rel.flags w n3 hp hA y2 x4 (hview _ x2)
          (fun e hb => by subst e; exact absurd x2.1 (hb _)) (fun e _ _ => by subst e; exact .inr x3)
      refine ⟨_, exec_program hN, h.flags w n3 hp hrel y2 (NvCfg.clear_word wn x3), (hrel.magic w n3 hp).2 x2.1, ?_⟩
      intro q x hq
      exact if_neg (fun g => hq ⟨g.1, by omega, by omega⟩)
    · intro F1 y1 y2 y3
      have hout : ∀ x, (∀ b, ¬ (nv k).inSec b x) → F1 p x = F'' p x :=
        NvCfg.crash_out wn (NvCfg.inside_magic wn _) y1 (by rw [x1]; simp)
      have hcase : ((∀ b, ¬ (nv k).magic (F1 p) b) ∧ (nv k).Clear (F1 p) false ∧ (p = .update → ∀ b, (nv k).Clear (F1 p) b)) ∨
          (nv k).Reads (F1 p) (fun _ => (nv k).er) := by
        by_cases e : p = .update
        · rcases NvCfg.acrash_magic wn w.fb4 rfl rfl hcl (y2 e) with z | z
          · exact .inl ⟨fun b => NvCfg.clear_magic wn (z b), z _, fun _ => z⟩
          · exact .inr z
        · rcases NvCfg.crash_magic wn rfl hcl y1 with ⟨z1, z2⟩ | z
          · exact .inl ⟨z1, z2, fun g => absurd g e⟩
          · exact .inr z
      rcases hcase with ⟨z1, z2, z3⟩ | z
      · refine ⟨A'', ?_, .inl ?_⟩
        · refine h.rel.flags w n3 hp (fun _ _ _ => rfl) y3 hout ?_ (fun e _ => by subst e; exact z3 rfl)
            (fun e hb _ => by subst e; exact absurd hb (z1 _))
          intro j hj
          rw [NvCfg.sel_none wn z1, hff j hj]
          exact (z2 j hj).symm
        · have := crash_program (c := pre k) (T := TT (pre k)) (A := A'') (p := p) (off := trailerAt (pre k) 0) (len := 4) (d := magicByte) hN tt_ff
          rw [torn_old hp htb.1] at this
          exact this
      · refine ⟨A''.program p (trailerAt (pre k) 0) 4 magicByte, ?_, .inl ?_⟩
        rotate_left
        · have := crash_program (c := pre k) (T := TT (pre k)) (A := A'') (p := p) (off := trailerAt (pre k) 0) (len := 4) (d := magicByte) hN tt_0
          rw [torn_new hp htb.1] at this
          exact this
        · refine h.rel.flags w n3 hp hA y3 hout (hview _ z) (fun e hb => by subst e; exact absurd z.1 (hb _)) (fun e _ hs => ?_)
          subst e
          rw [hst] at hs
          exact absurd hs (by decide)

end

end Nvu

end Verif
