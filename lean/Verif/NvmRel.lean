import Verif.NvmCells
import Verif.NvmSim
import Verif.NvmUpdate
import Verif.UpdateLemmas

/-!
# Update on write-once flash: relation with the update of `Verif.Swap`

Proof technique for `Verif.NvmUpdateThms`: the flash of a build with `NVM_FLASH_WRITEONCE` is related to a flash with one sector less, whose last sector
is the one with the flags that is selected. Operations on the flags of the first correspond to operations of `Verif.Trailer` on the second.
-/

set_option linter.unusedVariables false

namespace Verif

namespace Nvu

/-- The configuration with a single sector for the flags. -/
def pre (k : Cfg) : Cfg := { k with n := k.n - 1, strict := true }

section
variable {k : Cfg} (w : k.WF) (n3 : 3 ≤ k.n)
include w n3

theorem pre_wf : (pre k).WF := by
  have h1 := w.n2; have h2 := w.n512; have h3 := w.flags_fit; have h4 := w.no_wrap
  refine ⟨w.fb4, w.fb_dvd, w.h8, w.h_le, ?_, ?_, ?_, ?_⟩
  · show 2 ≤ k.n - 1; omega
  · show k.n - 1 ≤ 512; omega
  · show 6 + (k.n - 1) / 2 ≤ k.ss; omega
  · show (k.n - 1) * k.ss + k.ss < _
    unfold Cfg.part at h4
    have : (k.n - 1) * k.ss ≤ k.n * k.ss := Nat.mul_le_mul_right _ (by omega)
    omega

theorem nv_wf : (nv k).WF := by
  have h := w.fb4
  have hs := w.ss_pos
  refine ⟨by show 0 < k.fb; omega, w.fb_dvd, by show 4 ≤ k.ss; omega, Nat.le_refl _, ?_, .inl rfl⟩
  show 2 * k.ss ≤ (k.n - 1) * k.ss
  exact Nat.mul_le_mul_right _ (by omega)

/-- The addresses of the two sectors. -/
theorem geo : (nv k).base true = (pre k).last ∧ (nv k).base false = (pre k).last + k.ss ∧ (pre k).part = (pre k).last + k.ss ∧
    k.part = (pre k).last + 2 * k.ss ∧ (pre k).last = (pre k).tmp + k.ss ∧ k.last = (pre k).last + k.ss ∧ (pre k).ss = k.ss ∧ (nv k).ss = k.ss ∧ (nv k).e = k.ss := by
  have h1 := (pre_wf w n3).part_eq
  have h2 := (pre_wf w n3).last_eq
  have h3 : (pre k).ss = k.ss := rfl
  have h4 := w.part_eq
  have h5 : k.last = (pre k).part := rfl
  refine ⟨?_, ?_, ?_, ?_, ?_, ?_, rfl, rfl, rfl⟩
  · show (k.n - 1) * k.ss - k.ss = (pre k).last
    have : (pre k).part = (k.n - 1) * k.ss := rfl
    omega
  · show (k.n - 1) * k.ss = _
    have : (pre k).part = (k.n - 1) * k.ss := rfl
    omega
  all_goals omega

theorem tmp_eq : tmp k = (pre k).tmp := by
  obtain ⟨g1, g2, g3, g4, g5, g6, g7, g8, g9⟩ := geo w n3
  unfold tmp
  omega

theorem base_le (b : Bool) : (pre k).last ≤ (nv k).base b := by
  obtain ⟨g1, g2, -⟩ := geo w n3
  cases b <;> omega

end

/-- Relation of the flash `F` with the flash `A` of `pre k`. -/
structure Rel (k : Cfg) (A F : Flash) : Prop where
  data : ∀ p x, p ≠ .swap → x < (pre k).last → A p x = F p x
  swap : ∀ x, A .swap x = F .swap x
  view : ∀ p i, p ≠ .swap → i < k.ss → A p ((pre k).last + i) = F p ((nv k).base ((nv k).select (F p)) + i)
  blank : (∀ b, ¬ (nv k).magic (F .update) b) → ∀ b, (nv k).Clear (F .update) b
  fin : (nv k).magic (F .update) ((nv k).select (F .update)) → A .update (trailerAt (pre k) 1) = ST_FINAL →
    (nv k).magic (F .update) (!(nv k).select (F .update)) ∨ (nv k).Clear (F .update) (!(nv k).select (F .update))

/-- While the bootloader runs there is nothing to erase in the sectors that are not selected. -/
structure RelT (k : Cfg) (A F : Flash) : Prop where
  rel : Rel k A F
  boot : (nv k).Tidy (F .boot)
  update : (nv k).Tidy (F .update)

theorem RelT.tidy {k : Cfg} {A F : Flash} (h : RelT k A F) {p : Part} (hp : p ≠ .swap) : (nv k).Tidy (F p) := by
  cases p with
  | boot => exact h.boot
  | update => exact h.update
  | swap => exact absurd rfl hp

section
variable {k : Cfg} (w : k.WF) (n3 : 3 ≤ k.n) {A F : Flash}
include w n3

theorem magic_sel {m : Mem} : (nv k).magic m ((nv k).select m) ∨ (∀ b, ¬ (nv k).magic m b) ∧ (nv k).select m = false := by
  by_cases h1 : (nv k).magic m true <;> by_cases h2 : (nv k).magic m false
  · left
    cases (nv k).select m <;> assumption
  · left
    rw [NvCfg.select_one h1 h2]; exact h1
  · left
    rw [NvCfg.select_one h2 h1]; exact h2
  · right
    have : ∀ b, ¬ (nv k).magic m b := fun b => by cases b <;> assumption
    exact ⟨this, NvCfg.sel_none (nv_wf w n3) this⟩

theorem Rel.cell (h : Rel k A F) {p : Part} (hp : p ≠ .swap) {at_ : Nat} (ha : 4 + at_ ≤ k.ss) :
    A p (trailerAt (pre k) at_) = (nv k).get (F p) at_ := by
  obtain ⟨g1, g2, g3, g4, g5, g6, g7, g8, g9⟩ := geo w n3
  have := h.view p (k.ss - (4 + at_)) hp (by omega)
  unfold trailerAt NvCfg.get
  rw [show (pre k).part - (4 + at_) = (pre k).last + (k.ss - (4 + at_)) by omega, this, g9, Nat.add_sub_assoc ha]

theorem Rel.magic (h : Rel k A F) {p : Part} (hp : p ≠ .swap) :
    hasMagic (pre k) A p ↔ (nv k).magic (F p) ((nv k).select (F p)) := by
  obtain ⟨g1, g2, g3, g4, g5, g6, g7, g8, g9⟩ := geo w n3
  have hs := w.ss_pos
  unfold hasMagic NvCfg.magic le32 trailerAt
  rw [g9, show (pre k).part - (4 + 0) = (pre k).last + (k.ss - 4) by omega, Nat.add_sub_assoc (by omega)]
  simp only [Nat.add_assoc]
  rw [h.view p _ hp (by omega), h.view p _ hp (by omega), h.view p _ hp (by omega), h.view p _ hp (by omega)]

theorem Rel.state (h : Rel k A F) {p : Part} (hp : p ≠ .swap) : Verif.getState (pre k) A p = stateOf k F p := by
  have hs := w.ss_pos
  unfold Verif.getState stateOf
  rw [h.cell w n3 hp (by omega)]
  by_cases hm : hasMagic (pre k) A p
  · rw [if_pos hm, if_pos ((h.magic w n3 hp).1 hm)]
  · rw [if_neg hm, if_neg (fun g => hm ((h.magic w n3 hp).2 g))]

theorem flagCell {j : Nat} (hj : j < k.n) : 4 + (2 + flagPos j) ≤ k.ss := by
  have := w.n512
  have := w.flags_fit
  rw [flagPos_lt (by omega)]
  omega

theorem Rel.flag (h : Rel k A F) {j : Nat} (hj : j < k.n) : Verif.getFlag (pre k) A j = flagOf k F j := by
  unfold Verif.getFlag flagOf rawFlag
  rw [h.cell w n3 (by simp) (flagCell w n3 hj)]
  by_cases hm : hasMagic (pre k) A .update
  · rw [if_pos hm, if_pos ((h.magic w n3 (by simp)).1 hm)]
  · rw [if_neg hm, if_neg (fun g => hm ((h.magic w n3 (by simp)).2 g))]

/-- The selected sector in terms of the flags it holds. -/
theorem reads_of {m : Mem} (hm : (nv k).magic m ((nv k).select m)) : (nv k).Reads m (fun j => (nv k).get m j) := ⟨hm, fun _ _ _ => rfl⟩

theorem reads_view {m : Mem} {G : Nat → Byte} (h : (nv k).Reads m G) {i : Nat} (hi : i < k.ss) :
    m ((nv k).base ((nv k).select m) + i) = if i < k.ss - 4 then G (k.ss - 4 - i) else magicByte (i - (k.ss - 4)) := by
  obtain ⟨g1, g2, g3, g4, g5, g6, g7, g8, g9⟩ := geo w n3
  have hs := w.ss_pos
  split
  · next h1 =>
    have := h.2 (k.ss - 4 - i) (by omega) (by omega)
    unfold NvCfg.get at this
    rw [g9, show (nv k).base ((nv k).select m) + k.ss - (4 + (k.ss - 4 - i)) = (nv k).base ((nv k).select m) + i by omega] at this
    exact this
  · next h1 =>
    have := magic_of_le32 h.1 (i - (k.ss - 4)) (by omega)
    rw [g9, show (nv k).base ((nv k).select m) + k.ss - 4 + (i - (k.ss - 4)) = (nv k).base ((nv k).select m) + i by omega] at this
    exact this

theorem Rel.out (h : Rel k A F) {p : Part} {x : Nat} (hx : x < (pre k).last) (b : Bool) : ¬ (nv k).inSec b x := by
  have := base_le w n3 b
  intro g
  have := g.1
  omega

/-! ### Operations outside of the flags -/

/-- The flags are the same. -/
def Keep (k : Cfg) (A A' : Flash) : Prop := ∀ p x, p ≠ .swap → (pre k).last ≤ x → A' p x = A p x

theorem Keep.sel {F' : Flash} (hF : Keep k F F') {p : Part} (hp : p ≠ .swap) : (nv k).select (F' p) = (nv k).select (F p) :=
  NvCfg.select_congr (nv_wf w n3) rfl fun b x hx => hF p x hp (by have := base_le w n3 b; have := hx.1; omega)

theorem Keep.magic {F' : Flash} (hF : Keep k F F') {p : Part} (hp : p ≠ .swap) (b : Bool) : (nv k).magic (F' p) b ↔ (nv k).magic (F p) b :=
  NvCfg.magic_congr (nv_wf w n3) fun x hx _ => hF p x hp (by have := base_le w n3 b; have := hx.1; omega)

theorem Keep.clear {F' : Flash} (hF : Keep k F F') {p : Part} (hp : p ≠ .swap) (b : Bool) : (nv k).Clear (F' p) b ↔ (nv k).Clear (F p) b := by
  have := base_le w n3 b
  unfold NvCfg.Clear
  constructor
  · intro h i hi
    rw [← h i hi]
    exact (hF p _ hp (by omega)).symm
  · intro h i hi
    rw [← h i hi]
    exact hF p _ hp (by omega)

theorem Keep.tidy {F' : Flash} (hF : Keep k F F') {p : Part} (hp : p ≠ .swap) (h : (nv k).Tidy (F p)) : (nv k).Tidy (F' p) := by
  obtain ⟨g1, g2, g3, g4, g5, g6, g7, g8, g9⟩ := geo w n3
  have hs := w.ss_pos
  have hb := base_le w n3 (!(nv k).select (F p))
  unfold NvCfg.Tidy at *
  rw [hF.sel w n3 hp, ← h]
  exact le32_congr fun o h1 h2 => hF p o hp (by omega)

theorem Rel.keep {A' F' : Flash} (h : Rel k A F) (hA : Keep k A A') (hF : Keep k F F') (hd : ∀ p x, p ≠ .swap → x < (pre k).last → A' p x = F' p x)
    (hs : ∀ x, A' .swap x = F' .swap x) : Rel k A' F' := by
  have hss := w.ss_pos
  have hbn := fun p => base_le w n3 ((nv k).select (F p))
  have htb := (trailer_bounds (pre_wf w n3) (k := 1) (by show 4 + 1 ≤ k.ss; omega)).1
  refine ⟨hd, hs, ?_, ?_, ?_⟩
  · intro p i hp hi
    rw [hF.sel w n3 hp, hA p _ hp (by omega), h.view p i hp hi]
    exact (hF p _ hp (by have := hbn p; omega)).symm
  · intro hm b
    rw [hF.clear w n3 (by simp)]
    exact h.blank (fun b hb => hm b ((hF.magic w n3 (by simp) b).2 hb)) b
  · intro hm hst
    rw [hF.sel w n3 (by simp)] at hm ⊢
    rw [hF.magic w n3 (by simp)] at hm ⊢
    rw [hF.clear w n3 (by simp)]
    refine h.fin hm ?_
    rw [← hst]
    exact (hA _ _ (by simp) htb).symm

theorem RelT.keep {A' F' : Flash} (h : RelT k A F) (hA : Keep k A A') (hF : Keep k F F') (hd : ∀ p x, p ≠ .swap → x < (pre k).last → A' p x = F' p x)
    (hs : ∀ x, A' .swap x = F' .swap x) : RelT k A' F' :=
  ⟨h.rel.keep w n3 hA hF hd hs, hF.tidy w n3 (by simp) h.boot, hF.tidy w n3 (by simp) h.update⟩

/-! ### Operations on the flags -/

/-- What is left by an operation on the flags of `p`. -/
theorem Rel.flags (h : Rel k A F) {p : Part} (hp : p ≠ .swap) {A' F' : Flash} (hA : ∀ q x, ¬ (q = p ∧ (pre k).last ≤ x) → A' q x = A q x)
    (hF : ∀ q, q ≠ p → F' q = F q) (hFp : ∀ x, (∀ b, ¬ (nv k).inSec b x) → F' p x = F p x)
    (hv : ∀ i, i < k.ss → A' p ((pre k).last + i) = F' p ((nv k).base ((nv k).select (F' p)) + i))
    (hb : p = .update → (∀ b, ¬ (nv k).magic (F' .update) b) → ∀ b, (nv k).Clear (F' .update) b)
    (hf : p = .update → (nv k).magic (F' .update) ((nv k).select (F' .update)) → A' .update (trailerAt (pre k) 1) = ST_FINAL →
      (nv k).magic (F' .update) (!(nv k).select (F' .update)) ∨ (nv k).Clear (F' .update) (!(nv k).select (F' .update))) : Rel k A' F' := by
  have hss := w.ss_pos
  refine ⟨?_, ?_, ?_, ?_, ?_⟩
  · intro q x hq hx
    rw [hA q x (by omega), h.data q x hq hx]
    by_cases e : q = p
    · rw [e, hFp x (h.out w n3 (p := p) hx)]
    · rw [hF q e]
  · intro x
    rw [hA .swap x (fun g => hp g.1.symm), h.swap x, hF .swap (fun g => hp g.symm)]
  · intro q i hq hi
    by_cases e : q = p
    · rw [e]; exact hv i hi
    · rw [hA q _ (fun g => e g.1), hF q e]
      exact h.view q i hq hi
  · by_cases e : p = .update
    · exact hb e
    · rw [hF _ (fun g => e g.symm)]
      exact h.blank
  · by_cases e : p = .update
    · exact hf e
    · rw [hF _ (fun g => e g.symm), hA _ _ (fun g => e g.1.symm)]
      exact h.fin

theorem RelT.flags (h : RelT k A F) {p : Part} (hp : p ≠ .swap) {A' F' : Flash} (hr : Rel k A' F') (hF : ∀ q, q ≠ p → F' q = F q)
    (ht : (nv k).Tidy (F' p)) : RelT k A' F' := by
  have key : ∀ q, q ≠ .swap → (nv k).Tidy (F' q) := by
    intro q hq
    by_cases e : q = p
    · rw [e]; exact ht
    · rw [hF q e]; exact h.tidy hq
  exact ⟨hr, key _ (by simp), key _ (by simp)⟩

end

end Nvu

end Verif
