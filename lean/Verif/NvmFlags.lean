import Verif.NvmOps

/-!
# Update on write-once flash: state, flags of the sectors, erase of the flags

Proof technique for `Verif.NvmUpdateThms`, continued.
-/

set_option linter.unusedVariables false

namespace Verif

namespace Nvu

section
variable {k : Cfg} (w : k.WF) (n3 : 3 ≤ k.n)
include w n3

/-- No magic in UPDATE: both sectors are erased. -/
theorem RelT.clear {A F : Flash} (h : RelT k A F) (hm : ¬ hasMagic (pre k) A .update) : ∀ b, (nv k).Clear (F .update) b := by
  refine h.rel.blank ?_
  rcases magic_sel w n3 (m := F .update) with g | g
  · exact absurd ((h.rel.magic w n3 (by simp)).2 g) hm
  · exact g.1

theorem RelT.cell_ff {A F : Flash} (h : RelT k A F) {p : Part} (hp : p ≠ .swap) (hc : ∀ b, (nv k).Clear (F p) b) {i : Nat} (hi : 4 + i ≤ k.ss) :
    A p (trailerAt (pre k) i) = 0xFF#8 := by
  obtain ⟨g1, g2, g3, g4, g5, g6, g7, g8, g9⟩ := geo w n3
  unfold trailerAt
  rw [show (pre k).part - (4 + i) = (pre k).last + (k.ss - (4 + i)) by omega, h.rel.view p _ hp (by omega)]
  exact hc _ _ (by show _ < k.ss; omega)

theorem magic_keep {A A' : Flash} {p : Part} (h : hasMagic (pre k) A p) {i : Nat} (hi : 1 ≤ i) (hs : 4 + i ≤ k.ss)
    (hk : ∀ q x, ¬ (q = p ∧ x = trailerAt (pre k) i) → A' q x = A q x) : hasMagic (pre k) A' p := by
  have htb := trailer_bounds (pre_wf w n3) (k := i) hs
  have htb0 := trailer_bounds (pre_wf w n3) (k := 0) (by show 4 + 0 ≤ k.ss; omega)
  unfold hasMagic at *
  rw [← h]
  exact le32_congr fun o h1 h2 => hk p o (by omega)

theorem simSetState {p : Part} (hp : p ≠ .swap) (st : Byte) {A F : Flash} (h : RelT k A F)
    (hc : ¬ hasMagic (pre k) A p → ∀ b, (nv k).Clear (F p) b) (hf : p = .update → A .update (trailerAt (pre k) 1) ≠ ST_FINAL) {s : Bool} :
    Sim (TT (pre k)) (TornOK k) (Rel k) s false (fun A' F' => A' = A ∧ F' = F) (Verif.setState (pre k) p st) (setState k p st) false
      (fun _ A' F' => RelT k A' F' ∧ hasMagic (pre k) A' p ∧ A' p (trailerAt (pre k) 1) = st ∧
        ∀ q x, ¬ (q = p ∧ (pre k).last ≤ x ∧ x < (pre k).part) → A' q x = A q x) := by
  have hss := w.ss_pos
  have htb := trailer_bounds (pre_wf w n3) (k := 0) (by show 4 + 0 ≤ k.ss; omega)
  have htb1 := trailer_bounds (pre_wf w n3) (k := 1) (by show 4 + 1 ≤ k.ss; omega)
  unfold Verif.setState setState
  refine Sim.bind (simEnsureMagic w n3 hp h hc) fun _ => ?_
  refine Sim.ofEq fun A1 F1 ⟨h1, h2, h3⟩ => ?_
  refine Sim.readA fun A2 => ?_
  refine Sim.obs (fun F => (nv k).get (F p) 1) ?_ fun F2 => ?_
  · rintro A' F' b t ⟨-, -, rfl⟩
    exact getCell_tidy (h1.tidy hp) 1
  refine Sim.ofEq ?_
  rintro A' F' ⟨rfl, rfl, rfl, rfl⟩
  rw [← h1.rel.cell w n3 hp (by omega)]
  refine Sim.ite Iff.rfl (fun hst => ?_) (fun hst => ?_)
  · refine (simSetCell w n3 hp (Nat.le_refl 1) (by omega) st h1 h2 (fun e => ?_)).conseq (fun _ _ h => h) ?_
    · rw [h3 _ _ (by omega)]
      exact hf e
    · rintro _ A'' F'' ⟨g1, g2, g3⟩
      refine ⟨g1, magic_keep w n3 h2 (Nat.le_refl 1) (by omega) g3, g2, ?_⟩
      intro q x hq
      rw [g3 q x (fun g => hq ⟨g.1, by omega, by omega⟩)]
      exact h3 q x (fun g => hq ⟨g.1, by omega, by omega⟩)
  · refine (Sim.pure ()).pre ?_
    rintro A'' F'' ⟨rfl, rfl⟩
    exact ⟨h1, h2, Decidable.not_not.1 hst, fun q x hq => h3 q x (fun g => hq ⟨g.1, by omega, by omega⟩)⟩

/-- The state of UPDATE is not FINAL. -/
def NF (k : Cfg) (A : Flash) : Prop := A .update (trailerAt (pre k) 1) ≠ ST_FINAL

theorem simSetFlag {j : Nat} (hj : j < k.n) (fl : Byte) {s : Bool} :
    Sim (TT (pre k)) (TornOK k) (Rel k) s false (fun A F => RelT k A F ∧ NF k A) (Verif.setFlag (pre k) j fl) (setFlag k j fl) false
      (fun _ A F => RelT k A F ∧ NF k A) := by
  have hss := w.ss_pos
  have hfc := flagCell w n3 hj
  have htb := trailer_bounds (pre_wf w n3) (k := 0) (by show 4 + 0 ≤ k.ss; omega)
  have htb1 := trailer_bounds (pre_wf w n3) (k := 1) (by show 4 + 1 ≤ k.ss; omega)
  have htb2 := trailer_bounds (pre_wf w n3) (k := 2 + flagPos j) hfc
  refine Sim.ofEq fun A F ⟨h, hn⟩ => ?_
  unfold Verif.setFlag setFlag
  refine Sim.bind (simEnsureMagic w n3 (by simp) h (h.clear w n3)) fun _ => ?_
  refine Sim.ofEq fun A1 F1 ⟨h1, h2, h3⟩ => ?_
  have hn1 : NF k A1 := by
    unfold NF
    rw [h3 _ _ (by omega)]
    exact hn
  refine Sim.readA fun A2 => ?_
  refine Sim.obs (fun F => (nv k).get (F .update) (2 + flagPos j)) ?_ fun F2 => ?_
  · rintro A' F' b t ⟨-, -, rfl⟩
    exact getCell_tidy h1.update _
  refine Sim.ofEq ?_
  rintro A' F' ⟨rfl, rfl, rfl, rfl⟩
  dsimp only
  rw [← h1.rel.cell w n3 (p := .update) (by simp) hfc]
  refine Sim.ite Iff.rfl (fun hst => ?_) (fun hst => ?_)
  · refine (simSetCell w n3 (by simp) (by omega) hfc _ h1 h2 (fun _ => hn1)).conseq (fun _ _ h => h) ?_
    rintro _ A'' F'' ⟨g1, g2, g3⟩
    refine ⟨g1, ?_⟩
    unfold NF
    rw [g3 _ _ (by omega)]
    exact hn1
  · refine (Sim.pure ()).pre ?_
    rintro A'' F'' ⟨rfl, rfl⟩
    exact ⟨h1, hn1⟩

/-! ### Erase of the flags -/

theorem erase2 (k : Cfg) (p : Part) : eraseFlags k p = (readFlash >>= fun _ => flagOps k p [.erase true, .erase false]) := by
  have bp : ∀ (m : M Unit), (m >>= fun _ => pure ()) = m := by
    intro m
    funext x
    cases h : m x with
    | ok a w => rw [bind_ok h]; rfl
    | crash f => exact bind_crash h
    | panic f => exact bind_panic h
    | stuck f => exact bind_stuck h
    | fault f => exact bind_fault h
  have : (readFlash >>= fun _ => flagOps k p [.erase true, .erase false]) = flagOps k p [.erase true, .erase false] := by
    funext x
    rfl
  rw [this]
  show (flagOp k p (.erase true) >>= fun _ => flagOp k p (.erase false)) = (flagOp k p (.erase true) >>= fun _ => (flagOp k p (.erase false) >>= fun _ => pure ()))
  rw [bp]

theorem exec2 (m : Mem) : ∃ m', (nv k).exec [.erase true, .erase false] m = some m' ∧ (∀ b, (nv k).Clear m' b) ∧ ∀ x, (∀ b, ¬ (nv k).inSec b x) → m' x = m x := by
  refine ⟨_, rfl, ?_, ?_⟩
  · intro b i hi
    cases b with
    | false => exact NvCfg.erase_in ⟨by omega, by omega⟩
    | true =>
      refine (NvCfg.erase_out (b := false) ?_).trans (NvCfg.erase_in ⟨by omega, by omega⟩)
      exact NvCfg.apart (nv_wf w n3) (b := true) ⟨by omega, by omega⟩
  · intro x hx
    refine (NvCfg.erase_out (hx _)).trans (NvCfg.erase_out (hx _))

theorem erase_trailer {A : Flash} {p : Part} {i : Nat} (hi : i < k.ss) : A.erase p (pre k).last (pre k).ss p ((pre k).last + i) = 0xFF#8 :=
  if_pos ⟨rfl, by omega, by show _ < _ + k.ss; omega⟩

theorem clear_view {m : Mem} (h : ∀ b, (nv k).Clear m b) {i : Nat} (hi : i < k.ss) : m ((nv k).base ((nv k).select m) + i) = 0xFF#8 := h _ i hi

theorem simEraseBoot {A F : Flash} (h : RelT k A F) {s : Bool} :
    Sim (TT (pre k)) (TornOK k) (Rel k) s false (fun A' F' => A' = A ∧ F' = F) (erase (pre k) .boot (pre k).last (pre k).ss) (eraseFlags k .boot) false
      (fun _ A' F' => RelT k A' F' ∧ (∀ b, (nv k).Clear (F' .boot) b) ∧ ∀ q x, ¬ (q = .boot ∧ (pre k).last ≤ x ∧ x < (pre k).part) → A' q x = A q x) := by
  obtain ⟨g1, g2, g3, g4, g5, g6, g7, g8, g9⟩ := geo w n3
  have wn := nv_wf w n3
  have hss := w.ss_pos
  rw [erase2 w n3]
  refine sim_ops w n3 .boot (fun _ => [.erase true, .erase false]) ?_
  rintro A' F' ⟨rfl, rfl⟩
  right
  obtain ⟨m', x1, x2, x3⟩ := exec2 w n3 (F' .boot)
  refine ⟨by rw [x1]; simp, ?_, ?_⟩
  · intro F1 y1 y2
    rw [x1] at y1
    have y1 := Option.some.inj y1
    rw [y1] at x2 x3
    have hrel : Rel k (A'.erase .boot (pre k).last (pre k).ss) F1 := by
      refine h.rel.flags w n3 (p := .boot) (by simp) ?_ y2 x3 ?_ (by simp) (by simp)
      · intro q x hq
        exact if_neg (fun g => hq ⟨g.1, g.2.1⟩)
      · intro i hi
        rw [erase_trailer w n3 hi, clear_view w n3 x2 hi]
    refine ⟨_, exec_erase, h.flags w n3 (p := .boot) (by simp) hrel y2 (NvCfg.clear_tidy wn x2), x2, ?_⟩
    intro q x hq
    exact if_neg (fun g => hq ⟨g.1, g.2.1, by omega⟩)
  · intro F1 y1 y2 y3
    have hout := NvCfg.crash_out wn (ops := [.erase true, .erase false]) (by intro op ho; cases ho with
      | head => trivial
      | tail _ ho => cases ho with
        | head => trivial
        | tail _ ho => cases ho) y1 (by rw [x1]; simp)
    let t' : Mem := fun x => if (pre k).last ≤ x ∧ x < (pre k).last + k.ss then F1 .boot ((nv k).base ((nv k).select (F1 .boot)) + (x - (pre k).last)) else 0#8
    have ht' : TT (pre k) t' := by
      have : le32 t' (pre k).tmp = le32 (fun _ => 0#8) (pre k).tmp := by
        refine le32_congr fun o h1 h2 => ?_
        exact if_neg (by omega)
      show le32 t' (pre k).tmp ≠ _
      rw [this]
      exact tt_0
    have e : ∀ q x, A'.tornErase (pre k) t' .boot (pre k).last (pre k).ss q x = if q = .boot ∧ (pre k).last ≤ x ∧ x < (pre k).last + (pre k).ss then t' x else A' q x := by
      intro q x
      unfold Flash.tornErase
      rw [if_neg (by simp)]
    refine ⟨A'.tornErase (pre k) t' .boot (pre k).last (pre k).ss, ?_, .inl (crash_erase ht')⟩
    refine h.rel.flags w n3 (p := .boot) (by simp) ?_ y3 hout ?_ (by simp) (by simp)
    · intro q x hq
      rw [e]
      exact if_neg (fun g => hq ⟨g.1, g.2.1⟩)
    · intro i hi
      rw [e, if_pos ⟨rfl, by omega, by omega⟩]
      show (if _ then _ else _) = _
      rw [if_pos ⟨by omega, by omega⟩, Nat.add_sub_cancel_left]

theorem simEraseUpdate {A F : Flash} (h : RelT k A F) (hst : ¬ hasMagic (pre k) A .update ∨ A .update (trailerAt (pre k) 1) = ST_FINAL) :
    Sim (TT (pre k)) (TornOK k) (Rel k) true false (fun A' F' => A' = A ∧ F' = F) (erase (pre k) .update (pre k).last (pre k).ss) (eraseFlags k .update) false
      (fun _ A' F' => RelT k A' F') := by
  obtain ⟨g1, g2, g3, g4, g5, g6, g7, g8, g9⟩ := geo w n3
  have wn := nv_wf w n3
  have hss := w.ss_pos
  -- the sector that is not selected is erased
  have hcl : (nv k).Clear (F .update) (!(nv k).select (F .update)) := by
    by_cases hm : hasMagic (pre k) A .update
    · rcases h.rel.fin ((h.rel.magic w n3 (by simp)).1 hm) (hst.resolve_left (fun g => g hm)) with g | g
      · exact absurd g (NvCfg.tidy_magic wn rfl h.update)
      · exact g
    · exact h.clear w n3 hm _
  rw [erase2 w n3]
  refine sim_ops w n3 .update (fun _ => [.erase true, .erase false]) ?_
  rintro A' F' ⟨rfl, rfl⟩
  right
  obtain ⟨m', x1, x2, x3⟩ := exec2 w n3 (F' .update)
  -- both sectors erased
  have done : ∀ F1 : Flash, (∀ b, (nv k).Clear (F1 .update) b) → (∀ x, (∀ b, ¬ (nv k).inSec b x) → F1 .update x = F' .update x) →
      (∀ q, q ≠ .update → F1 q = F' q) → Rel k (A'.erase .update (pre k).last (pre k).ss) F1 := by
    intro F1 z1 z2 z3
    refine h.rel.flags w n3 (p := .update) (by simp) ?_ z3 z2 ?_ (fun _ _ => z1) (fun _ _ _ => .inr (z1 _))
    · intro q x hq
      exact if_neg (fun g => hq ⟨g.1, g.2.1⟩)
    · intro i hi
      rw [erase_trailer w n3 hi, clear_view w n3 z1 hi]
  have same : CrashTo (TT (pre k)) (erase (pre k) .update (pre k).last (pre k).ss) false A' A' := by
    have := crash_erase (c := pre k) (T := TT (pre k)) (A := A') (p := .update) (off := (pre k).last) (len := (pre k).ss) (tt_0 (c := pre k))
    have e : A'.tornErase (pre k) (fun _ => 0#8) .update (pre k).last (pre k).ss = A' := by
      unfold Flash.tornErase
      rw [if_pos ⟨rfl, by omega⟩]
    rw [e] at this
    exact this
  refine ⟨by rw [x1]; simp, ?_, ?_⟩
  · intro F1 y1 y2
    rw [x1] at y1
    have y1 := Option.some.inj y1
    rw [y1] at x2 x3
    exact ⟨_, exec_erase, h.flags w n3 (p := .update) (by simp) (done F1 x2 x3 y2) y2 (NvCfg.clear_tidy wn x2)⟩
  · intro F1 y1 y2 y3
    have y2 := y2 rfl
    have hsec : F1 .update = F' .update ∨ (∀ b, (nv k).Clear (F1 .update) b) ∧ ∀ x, (∀ b, ¬ (nv k).inSec b x) → F1 .update x = F' .update x := by
      generalize hm1 : F1 .update = m1 at y2
      cases y2 with
      | here => exact .inl rfl
      | erase y2 =>
        cases y2 with
        | here =>
          cases hsel : (nv k).select (F' .update) with
          | true =>
            rw [hsel] at hcl
            right
            refine ⟨?_, fun x hx => NvCfg.erase_out (hx _)⟩
            intro b i hi
            cases b with
            | true => exact NvCfg.erase_in ⟨by omega, by omega⟩
            | false =>
              refine (NvCfg.erase_out (b := true) ?_).trans (hcl i hi)
              exact NvCfg.apart (nv_wf w n3) (b := false) ⟨by omega, by omega⟩
          | false =>
            rw [hsel] at hcl
            left
            funext x
            by_cases hx : (nv k).inSec true x
            · rw [NvCfg.erase_in hx]
              have := hcl (x - (nv k).base true) (by have := hx.1; have := hx.2; omega)
              rw [Bool.not_false, show (nv k).base true + (x - (nv k).base true) = x by have := hx.1; omega] at this
              exact this.symm
            · exact NvCfg.erase_out hx
        | erase y2 =>
          cases y2 with
          | here =>
            right
            have x1 := Option.some.inj x1
            exact ⟨fun b => by rw [← x1] at x2; exact x2 b, fun x hx => by rw [← x1] at x3; exact x3 x hx⟩
    rcases hsec with z | ⟨z1, z2⟩
    · have : F1 = F' := by
        funext q
        by_cases e : q = .update
        · rw [e, z]
        · exact y3 q e
      rw [this]
      exact ⟨A', h.rel, .inl same⟩
    · exact ⟨_, done F1 z1 z2 y3, .inr ⟨rfl, (), exec_erase⟩⟩

end

end Nvu

end Verif
