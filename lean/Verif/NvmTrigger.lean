import Verif.NvmEmergency

/-!
# The request of an update on write-once flash: C71
-/

set_option linter.unusedSectionVars false

namespace Verif

namespace Nvu

/-- `wolfBoot_update_trigger`, `/repo/src/libwolfboot.c:735-780`, with `NVM_FLASH_WRITEONCE` and internal flags: the copy of the flags into the other
sector (757-768) and the new state (772). -/
def updateTrigger (k : Cfg) : M Unit := do
  unlock
  let f ← readFlash
  flagOps k .update ((nv k).copyOps (f .update))
  setState k .update ST_UPDATING
  lock

/-- A complete run of `wolfBoot_update_trigger` by the application. -/
def triggered (k : Cfg) (f : Flash) : Res Unit := updateTrigger k { fl := f, locked := true, budget := none, torn := fun _ => 0#8 }

section
variable {k : Cfg} (w : k.WF) (n3 : 3 ≤ k.n)
include w n3

/-- Operations on the flags of UPDATE, uninterrupted. -/
theorem ops_ok {F : Flash} {ops : List NvOp} {m : Mem} (h : (nv k).exec ops (F .update) = some m) :
    ∃ F', flagOps k .update ops ⟨F, false, none, fun _ => 0#8⟩ = .ok () ⟨F', false, none, fun _ => 0#8⟩ ∧ F' .update = m ∧ ∀ q, q ≠ .update → F' q = F q := by
  have := run_ops w n3 zero_torn .update ops F none
  cases hr : flagOps k .update ops ⟨F, false, none, fun _ => 0#8⟩ with
  | ok a w' =>
    rw [hr] at this
    obtain ⟨F', l, b, t⟩ := w'
    obtain ⟨q1, q2, q3, q4, q5⟩ := this
    dsimp only at q1 q2 q3 q4 q5
    have q3 := q3 rfl
    subst q1 q2 q3
    rw [h] at q4
    exact ⟨F', rfl, (Option.some.inj q4).symm, q5⟩
  | crash F' => rw [hr] at this; exact absurd rfl this.1
  | fault F' => rw [hr] at this; rw [h] at this; exact absurd this (by simp)
  | panic f => rw [hr] at this; exact this.elim
  | stuck f => rw [hr] at this; exact this.elim

/-- The copy of flags that can be read. -/
theorem exec_copyR {m : Mem} {G : Nat → Byte} (hr : (nv k).Reads m G) :
    ∃ m', (nv k).exec ((nv k).copyOps m) m = some m' ∧ (nv k).Reads m' G ∧ (nv k).Tidy m' ∧ ∀ x, (∀ b, ¬ (nv k).inSec b x) → m' x = m x := by
  have wn := nv_wf w n3
  have key : ∀ m0 : Mem, (∀ x, (∀ b, ¬ (nv k).inSec b x) → m0 x = m x) →
      ∃ m', (nv k).exec (.erase (!(nv k).select m) :: ((nv k).writes (!(nv k).select m) (fun i => m ((nv k).base ((nv k).select m) + i)) ++
        [.erase ((nv k).select m)])) m0 = some m' ∧ (nv k).Reads m' G ∧ (nv k).Tidy m' ∧ ∀ x, (∀ b, ¬ (nv k).inSec b x) → m' x = m x := by
    intro m0 h0
    obtain ⟨m', g1, g2, g3, g4⟩ := NvCfg.exec_move' wn (s := (nv k).select m) (NvCfg.data_same wn hr) (NvCfg.part_erased _ _ m0)
    refine ⟨m', g1, g2, ?_, fun x hx => ?_⟩
    · unfold NvCfg.Tidy
      rw [NvCfg.reads_erased wn g2 g3, Bool.not_not]
      exact NvCfg.clear_word wn g3
    · rw [g4 x (hx _) (hx _), NvCfg.erase_out (hx _), h0 x hx]
  unfold NvCfg.copyOps
  rcases (nv k).selOps_cases false m with h | h <;> rw [h]
  · exact key m fun _ _ => rfl
  · exact key _ fun x hx => NvCfg.erase_out (hx _)

/-- The copy of erased flags. -/
theorem exec_copyC {m : Mem} (h : ∀ b, (nv k).Clear m b) :
    ∃ m', (nv k).exec ((nv k).copyOps m) m = some m' ∧ (∀ b, (nv k).Clear m' b) ∧ ∀ x, (∀ b, ¬ (nv k).inSec b x) → m' x = m x := by
  have wn := nv_wf w n3
  unfold NvCfg.copyOps
  rw [NvCfg.tidy_sel (NvCfg.clear_tidy wn h), List.nil_append]
  obtain ⟨m1, h1, h2, h3⟩ := NvCfg.exec_writes wn (b := !(nv k).select m) (d := fun i => m ((nv k).base ((nv k).select m) + i)) [.erase ((nv k).select m)]
    ((nv k).ss / (nv k).u) 0 _ (by omega) (NvCfg.part_erased _ _ m)
  rw [Nat.zero_add] at h2
  refine ⟨(nv k).apply m1 (.erase ((nv k).select m)), ?_, ?_, ?_⟩
  · unfold NvCfg.writes
    rw [List.range_eq_range']
    exact h1
  · intro b i hi
    rcases NvCfg.bool_cases b ((nv k).select m) with e | e
    · rw [e]; exact NvCfg.erase_in ⟨by omega, by omega⟩
    · have hin : (nv k).inSec b ((nv k).base b + i) := ⟨by omega, by omega⟩
      rw [NvCfg.erase_out (by have := NvCfg.apart wn hin; rw [e, Bool.not_not] at this; rw [e]; exact this), e, h2 i hi]
      split
      · exact h _ i hi
      · rfl
  · intro x hx
    rw [NvCfg.erase_out (hx _), h3 x (hx _), NvCfg.erase_out (hx _)]

/-- `wolfBoot_set_partition_state` on tidy flags. -/
theorem setState_ok {F : Flash} (st : Byte) {G : Nat → Byte} (ht : (nv k).Tidy (F .update))
    (hr : (nv k).Reads (F .update) G ∨ (∀ b, (nv k).Clear (F .update) b) ∧ G = fun _ => 0xFF#8) :
    ∃ F', setState k .update st ⟨F, false, none, fun _ => 0#8⟩ = .ok () ⟨F', false, none, fun _ => 0#8⟩ ∧
      (nv k).Reads (F' .update) (fun j => if j = 1 then st else G j) ∧ (∀ q, q ≠ .update → F' q = F q) ∧
      ∀ x, (∀ b, ¬ (nv k).inSec b x) → F' .update x = F .update x := by
  have wn := nv_wf w n3
  have hss := w.ss_pos
  have hfl := w.flags_fit
  -- the magic
  have hm : ∃ F1, ensureMagic k .update ⟨F, false, none, fun _ => 0#8⟩ = .ok () ⟨F1, false, none, fun _ => 0#8⟩ ∧ (nv k).Tidy (F1 .update) ∧
      (nv k).Reads (F1 .update) G ∧ (∀ q, q ≠ .update → F1 q = F q) ∧ ∀ x, (∀ b, ¬ (nv k).inSec b x) → F1 .update x = F .update x := by
    unfold ensureMagic
    rw [bind_ok (getMagic_tidy ht)]
    rcases hr with hr | ⟨hc, rfl⟩
    · rw [if_pos (decide_eq_true (show (nv k).magic _ _ from hr.1))]
      exact ⟨F, rfl, ht, hr, fun _ _ => rfl, fun _ _ => rfl⟩
    · rw [if_neg (by rw [decide_eq_true_eq]; exact NvCfg.clear_magic wn (hc _)), bind_ok (show readFlash ⟨F, false, none, fun _ => 0#8⟩ = .ok F ⟨F, false, none, fun _ => 0#8⟩ from rfl)]
      obtain ⟨m', x1, x2, x3, x4⟩ := NvCfg.exec_magic wn rfl hc
      obtain ⟨F1, y1, y2, y3⟩ := ops_ok w n3 x1
      exact ⟨F1, y1, by rw [y2]; exact NvCfg.clear_word wn x3, by rw [y2]; exact x2, y3, by rw [y2]; exact x4⟩
  obtain ⟨F1, m1, m2, m3, m4, m5⟩ := hm
  unfold setState
  rw [bind_ok m1, bind_ok (getCell_tidy m2 1)]
  have h5 : 4 + 1 ≤ (nv k).e := by show 4 + 1 ≤ k.ss; omega
  by_cases hs : (nv k).get (F1 .update) 1 ≠ st
  · rw [if_pos hs]
    unfold setCell
    rw [bind_ok (show readFlash ⟨F1, false, none, fun _ => 0#8⟩ = .ok F1 ⟨F1, false, none, fun _ => 0#8⟩ from rfl)]
    obtain ⟨m', x1, x2, x3, x4⟩ := NvCfg.exec_set wn m2 m3 st (Nat.le_refl 1) h5
    obtain ⟨F2, y1, y2, y3⟩ := ops_ok w n3 x1
    exact ⟨F2, y1, by rw [y2]; exact x2, fun q hq => by rw [y3 q hq, m4 q hq], fun x hx => by rw [y2, x4 x hx, m5 x hx]⟩
  · rw [if_neg hs]
    refine ⟨F1, rfl, ⟨m3.1, fun at_ h1 h2 => ?_⟩, m4, m5⟩
    dsimp only
    by_cases ha : at_ = 1
    · rw [if_pos ha, ha]; exact Decidable.not_not.1 hs
    · rw [if_neg ha]; exact m3.2 at_ h1 h2

/-- What the request does to the flash. -/
theorem trigger_ok {f : Flash} {G : Nat → Byte}
    (hr : (nv k).Reads (f .update) G ∨ (∀ b, (nv k).Clear (f .update) b) ∧ G = fun _ => 0xFF#8) :
    ∃ w', triggered k f = .ok () w' ∧ w'.locked = true ∧ (nv k).Reads (w'.fl .update) (fun j => if j = 1 then ST_UPDATING else G j) ∧
      (∀ q, q ≠ .update → w'.fl q = f q) ∧ ∀ x, (∀ b, ¬ (nv k).inSec b x) → w'.fl .update x = f .update x := by
  have wn := nv_wf w n3
  unfold triggered updateTrigger
  rw [bind_ok (show unlock ⟨f, true, none, fun _ => 0#8⟩ = .ok () ⟨f, false, none, fun _ => 0#8⟩ from rfl),
    bind_ok (show readFlash ⟨f, false, none, fun _ => 0#8⟩ = .ok f ⟨f, false, none, fun _ => 0#8⟩ from rfl)]
  have hc : ∃ F1, flagOps k .update ((nv k).copyOps (f .update)) ⟨f, false, none, fun _ => 0#8⟩ = .ok () ⟨F1, false, none, fun _ => 0#8⟩ ∧
      (nv k).Tidy (F1 .update) ∧ ((nv k).Reads (F1 .update) G ∨ (∀ b, (nv k).Clear (F1 .update) b) ∧ G = fun _ => 0xFF#8) ∧
      (∀ q, q ≠ .update → F1 q = f q) ∧ ∀ x, (∀ b, ¬ (nv k).inSec b x) → F1 .update x = f .update x := by
    rcases hr with hr | ⟨hc, hG⟩
    · obtain ⟨m', x1, x2, x3, x4⟩ := exec_copyR w n3 hr
      obtain ⟨F1, y1, y2, y3⟩ := ops_ok w n3 x1
      exact ⟨F1, y1, by rw [y2]; exact x3, .inl (by rw [y2]; exact x2), y3, by rw [y2]; exact x4⟩
    · obtain ⟨m', x1, x2, x3⟩ := exec_copyC w n3 hc
      obtain ⟨F1, y1, y2, y3⟩ := ops_ok w n3 x1
      exact ⟨F1, y1, by rw [y2]; exact NvCfg.clear_tidy wn x2, .inr ⟨by rw [y2]; exact x2, hG⟩, y3, by rw [y2]; exact x3⟩
  obtain ⟨F1, c1, c2, c3, c4, c5⟩ := hc
  rw [bind_ok c1]
  obtain ⟨F2, s1, s2, s3, s4⟩ := setState_ok w n3 ST_UPDATING c2 c3
  rw [bind_ok s1]
  exact ⟨⟨F2, true, none, fun _ => 0#8⟩, rfl, rfl, s2, fun q hq => (s3 q hq).trans (c4 q hq), fun x hx => (s4 x hx).trans (c5 x hx)⟩

/-- State and flags after the request. -/
theorem trigger_cells {f : Flash} {G : Nat → Byte} (hr : (nv k).Reads (f .update) (fun j => if j = 1 then ST_UPDATING else G j)) :
    stateOf k f .update = some ST_UPDATING ∧ ∀ j, j < k.n → flagOf k f j = some (nibbleOf j (G (2 + flagPos j))) := by
  have hfl := w.flags_fit
  have h5 : 4 + 1 ≤ (nv k).e := by show 4 + 1 ≤ k.ss; omega
  constructor
  · unfold stateOf
    rw [if_pos (show (nv k).magic _ _ from hr.1), hr.2 1 (Nat.le_refl 1) h5]
    rfl
  · intro j hj
    unfold flagOf
    rw [if_pos (show (nv k).magic _ _ from hr.1), hr.2 _ (by omega) (flagCell w n3 hj)]
    dsimp only
    rw [if_neg (by omega)]

end

/-! ### Theorems -/

/-- **C71, request.** On erased flags the request leaves a device on which the installation is pending. -/
theorem trigger_pending {k : Cfg} (w : k.WF) (n3 : 3 ≤ k.n) {e : Env} {Old New : Mem} (hO : GoodImage k e Old) (hN : GoodImage k e New) {f : Flash}
    (h1 : Has k f .boot Old) (h2 : Has k f .update New) (hq : Quiet k f) (he : ∀ x, k.part - 2 * k.ss ≤ x → x < k.part → f .update x = 0xFF#8) :
    ∃ w', triggered k f = .ok () w' ∧ w'.locked = true ∧ Pending k Old New w'.fl ∧ w'.fl .boot = f .boot := by
  obtain ⟨g1, g2, g3, g4, g5, g6, g7, g8, g9⟩ := geo w n3
  have hss := w.ss_pos
  have hc : ∀ b, (nv k).Clear (f .update) b := by
    intro b i hi
    have : i < k.ss := hi
    exact he _ (by cases b <;> omega) (by cases b <;> omega)
  obtain ⟨w', q1, q2, q3, q4, q5⟩ := trigger_ok w n3 (.inr ⟨hc, rfl⟩)
  have hout : ∀ x, x < (pre k).last → ∀ b, ¬ (nv k).inSec b x := fun x hx b hi => by
    have := base_le w n3 b
    have := hi.1
    omega
  obtain ⟨c1, c2⟩ := trigger_cells w n3 q3
  refine ⟨w', q1, q2, ⟨?_, ?_, c1, ?_, ?_⟩, q4 _ (by simp)⟩
  · intro o ho; rw [q4 .boot (by simp)]; exact h1 o ho
  · intro o ho
    have := hN.fits
    rw [q5 o (hout o (by omega))]
    exact h2 o ho
  · intro j hj
    rw [c2 j (by omega)]
    unfold nibbleOf
    split <;> decide
  · refine ⟨by rw [q4 .boot (by simp)]; exact hq.1, ?_⟩
    rw [le32_congr fun o _ ho => q5 o (hout o (by omega))]
    exact hq.2

/-- **C71, request, a finding.** If the flags can be read, the request keeps the flags of all sectors: an installation that was interrupted before is
taken up again with the contents that UPDATE has now. On ordinary flash the request erases them (`trigger_spec`). -/
theorem trigger_keeps_flags {k : Cfg} (w : k.WF) (n3 : 3 ≤ k.n) {f : Flash} {s : Byte} (hm : stateOf k f .update = some s) :
    ∃ w', triggered k f = .ok () w' ∧ w'.locked = true ∧ stateOf k w'.fl .update = some ST_UPDATING ∧ ∀ j, j < k.n → flagOf k w'.fl j = flagOf k f j := by
  have hmg : (nv k).magic (f .update) ((nv k).select (f .update)) := by
    unfold stateOf at hm
    split at hm
    · assumption
    · exact absurd hm (by simp)
  obtain ⟨w', q1, q2, q3, q4, q5⟩ := trigger_ok w n3 (.inl (reads_of w n3 hmg))
  obtain ⟨c1, c2⟩ := trigger_cells w n3 q3
  refine ⟨w', q1, q2, c1, fun j hj => ?_⟩
  rw [c2 j hj]
  unfold flagOf
  rw [if_pos hmg]

end Nvu

end Verif
