import Verif.NvmThms
import Verif.TrailerLemmas

/-!
# Operations on the flags on write-once flash, in detail

Lemmas for `Verif.NvmUpdateThms`: which bytes the operations of `Verif.Nvm` change and what is left in the sector that is not selected.
-/

namespace Verif

namespace NvCfg

/-- The sector is erased. -/
def Clear (c : NvCfg) (m : Mem) (b : Bool) : Prop := ∀ i, i < c.ss → m (c.base b + i) = c.er

/-- There is nothing to erase when the flags are read. -/
def Tidy (c : NvCfg) (m : Mem) : Prop := le32 m (c.base (!c.select m) + c.ss - 4) = c.erWord

/-- Power loss at any operation of a list. An erase is not torn, nor is the write of a unit with bytes of the magic; any other write clears some of the
bits. -/
inductive ACrash (c : NvCfg) : List NvOp → Mem → Mem → Prop
  | here {ops m} : ACrash c ops m m
  | torn {b : Bool} {k : Nat} {d : Mem} {ops : List NvOp} {m m' t : Mem} : (k + 1) * c.u ≤ c.e - 4 →
      (∀ x, m' x = if c.base b + k * c.u ≤ x ∧ x < c.base b + k * c.u + c.u then m x &&& (d (x - c.base b) ||| t x) else m x) →
      ACrash c (.write b k d :: ops) m m'
  | erase {b ops m m'} : ACrash c ops (c.apply m (.erase b)) m' → ACrash c (.erase b :: ops) m m'
  | write {b k d ops m m'} : ACrash c ops (c.apply m (.write b k d)) m' → ACrash c (.write b k d :: ops) m m'

section
variable {c : NvCfg} (w : c.WF)
include w

theorem unit_le {j : Nat} (hj : j < c.ss / c.u) : j * c.u + c.u ≤ c.ss := by
  have := Nat.mul_le_mul_right c.u (show j + 1 ≤ c.ss / c.u from hj)
  rw [Nat.div_mul_cancel w.dvd, Nat.add_mul, Nat.one_mul] at this
  exact this

theorem acrash_torn {b : Bool} {k : Nat} {d m m' t : Mem} (h1 : (k + 1) * c.u ≤ c.e - 4)
    (h2 : ∀ x, m' x = if c.base b + k * c.u ≤ x ∧ x < c.base b + k * c.u + c.u then m x &&& (d (x - c.base b) ||| t x) else m x) :
    c.Torn (.write b k d) m m' :=
  .write (fun x hx => by rw [h2 x, if_neg hx]) (.inl h1)

theorem acrash_writes {b : Bool} {d : Mem} {F : Nat → Byte} (hd : c.Data d F) (rest : List NvOp) {m' : Mem} (n : Nat) :
    ∀ (j : Nat) (m : Mem), j + n ≤ c.ss / c.u → c.Part b d m j →
      c.ACrash ((List.range' j n).map (fun k => NvOp.write b k d) ++ rest) m m' →
      ((¬ c.magic m' b ∨ c.Has m' b F) ∧ ∀ x, ¬ c.inSec b x → m' x = m x) ∨
      ∃ m1, c.Part b d m1 (j + n) ∧ (∀ x, ¬ c.inSec b x → m1 x = m x) ∧ c.ACrash rest m1 m' := by
  induction n with
  | zero => intro j m _ h hc; exact .inr ⟨m, h, fun _ _ => rfl, hc⟩
  | succ n ih =>
    intro j m hj h hc
    rw [List.range'_succ, List.map_cons, List.cons_append] at hc
    cases hc with
    | here => exact .inl ⟨h.magic w hd, fun _ _ => rfl⟩
    | torn h1 h2 =>
      have t := acrash_torn w h1 h2
      exact .inl ⟨h.torn w hd t, fun x hx => torn_out w (by omega) t hx⟩
    | write hc =>
      rcases ih (j + 1) _ (by omega) h.next hc with ⟨h1, h2⟩ | ⟨m1, h1, h2, h3⟩
      · exact .inl ⟨h1, fun x hx => by rw [h2 x hx, write_out w (by omega) hx]⟩
      · exact .inr ⟨m1, by rw [← show j + 1 + n = j + (n + 1) by omega]; exact h1, fun x hx => by rw [h2 x hx, write_out w (by omega) hx], h3⟩

/-- Writes of nothing but erased bytes in front of the magic. -/
theorem acrash_blank {b : Bool} {d : Mem} (her : c.er = 0xFF#8) (hd : ∀ i, i < c.e - 4 → d i = c.er) (rest : List NvOp) {m' : Mem} (n : Nat) :
    ∀ (j : Nat) (m : Mem), j + n ≤ c.ss / c.u → c.Part b d m j →
      c.ACrash ((List.range' j n).map (fun k => NvOp.write b k d) ++ rest) m m' →
      (∃ i, c.Part b d m' i ∧ ∀ x, ¬ c.inSec b x → m' x = m x) ∨
      ∃ m1, c.Part b d m1 (j + n) ∧ (∀ x, ¬ c.inSec b x → m1 x = m x) ∧ c.ACrash rest m1 m' := by
  induction n with
  | zero => intro j m _ h hc; exact .inr ⟨m, h, fun _ _ => rfl, hc⟩
  | succ n ih =>
    intro j m hj h hc
    rw [List.range'_succ, List.map_cons, List.cons_append] at hc
    cases hc with
    | here => exact .inl ⟨j, h, fun _ _ => rfl⟩
    | torn h1 h2 =>
      have hb := h.blank w (by omega)
      have : m' = m := by
        funext x
        rw [h2 x]
        split
        · next hx =>
          rw [Nat.add_mul, Nat.one_mul] at h1
          have e1 := hb (x - (c.base b + j * c.u)) (by omega)
          rw [Nat.add_sub_cancel' hx.1] at e1
          rw [e1, hd _ (by omega), her]
          exact BitVec.allOnes_and.trans BitVec.allOnes_or
        · rfl
      rw [this]
      exact .inl ⟨j, h, fun _ _ => rfl⟩
    | write hc =>
      rcases ih (j + 1) _ (by omega) h.next hc with ⟨i, h1, h2⟩ | ⟨m1, h1, h2, h3⟩
      · exact .inl ⟨i, h1, fun x hx => by rw [h2 x hx, write_out w (by omega) hx]⟩
      · exact .inr ⟨m1, by rw [← show j + 1 + n = j + (n + 1) by omega]; exact h1, fun x hx => by rw [h2 x hx, write_out w (by omega) hx], h3⟩

theorem select_congr (he : c.e = c.ss) {m m' : Mem} (hs : ∀ b x, c.inSec b x → m' x = m x) : c.select m' = c.select m := by
  have h4 := w.e4
  have key : ∀ b off, 1 ≤ off → off ≤ c.e → c.byteAt m' b off = c.byteAt m b off := by
    intro b off h1 h2
    exact hs b _ ⟨by omega, by omega⟩
  have scan : ∀ n off, 4 ≤ off → off + n ≤ c.ss → c.scan m' n off = c.scan m n off := by
    intro n
    induction n with
    | zero => intro off _ _; rfl
    | succ n ih =>
      intro off h1 h2
      unfold NvCfg.scan
      rw [key false off (by omega) (by omega), key true off (by omega) (by omega), key false (off - 1) (by omega) (by omega),
        key true (off - 1) (by omega) (by omega), ih (off + 1) (by omega) (by omega)]
  have mg : ∀ b, c.magic m' b = c.magic m b := fun b => propext (magic_congr w fun x hx _ => hs b x hx)
  unfold NvCfg.select
  simp only [mg]
  rw [scan _ 4 (by omega) (by omega)]

theorem clear_magic {m : Mem} {b : Bool} (h : c.Clear m b) : ¬ c.magic m b := by
  have := w.e4; have := w.ess
  exact no_magic w (by rw [show c.base b + c.e - 1 = c.base b + (c.e - 1) by omega]; exact h _ (by omega))

theorem clear_word {m : Mem} {b : Bool} (h : c.Clear m b) : le32 m (c.base b + c.ss - 4) = c.erWord := by
  have := w.e4; have := w.ess
  unfold erWord le32
  rw [show c.base b + c.ss - 4 = c.base b + (c.ss - 4) by omega]
  simp only [Nat.add_assoc]
  rw [h _ (by omega), h _ (by omega), h _ (by omega), h _ (by omega)]

omit w in
theorem bool_cases (a b : Bool) : a = b ∨ a = !b := by cases a <;> cases b <;> simp

/-- A sector with nothing to erase has no magic. -/
theorem tidy_magic (he : c.e = c.ss) {m : Mem} (h : c.Tidy m) : ¬ c.magic m (!c.select m) := by
  unfold Tidy at h
  unfold NvCfg.magic
  rw [he, h]
  unfold erWord le32 MAGIC_TRAIL
  rcases w.erased with e | e <;> rw [e] <;> decide

omit w in
theorem tidy_sel {m : Mem} (h : c.Tidy m) : c.selOps false m = [] := by
  unfold selOps
  rw [if_neg (by simp), if_neg (fun hn => hn h)]

theorem Reads.magic {m : Mem} {F : Nat → Byte} (h : c.Reads m F) : c.magic m (c.select m) := h.1

/-- The erased sector is the one that is not selected. -/
theorem reads_erased {m : Mem} {s : Bool} {F : Nat → Byte} (h : c.Reads m F) (hs : c.Clear m s) : c.select m = !s := by
  rcases bool_cases (c.select m) s with e | e
  · exact absurd (e ▸ h.1) (clear_magic w hs)
  · exact e

theorem exec_move' {s : Bool} {d : Mem} {F : Nat → Byte} (hd : c.Data d F) {m : Mem} (h : c.Part (!s) d m 0) :
    ∃ m', c.exec (c.writes (!s) d ++ [.erase s]) m = some m' ∧ c.Reads m' F ∧ c.Clear m' s ∧
      ∀ x, ¬ c.inSec s x → ¬ c.inSec (!s) x → m' x = m x := by
  obtain ⟨m1, h1, h2, h3⟩ := exec_writes w [.erase s] (c.ss / c.u) 0 _ (by omega) h
  rw [Nat.zero_add] at h2
  refine ⟨_, ?_, nil_data w h2 hd, ?_, ?_⟩
  · unfold writes
    rw [List.range_eq_range', h1]
    rfl
  · intro i hi
    exact erase_in ⟨by omega, by omega⟩
  · intro x hx hx'
    rw [erase_out hx, h3 x hx']

/-- Setting a cell, uninterrupted. -/
theorem exec_set {m : Mem} {F : Nat → Byte} (ht : c.Tidy m) (hr : c.Reads m F) {i : Nat} (v : Byte) (h1 : 1 ≤ i) (h2 : 4 + i ≤ c.e) :
    ∃ m', c.exec (c.setOps m i v) m = some m' ∧ c.Reads m' (fun j => if j = i then v else F j) ∧ c.Clear m' (!c.select m') ∧
      ∀ x, (∀ b, ¬ c.inSec b x) → m' x = m x := by
  obtain ⟨m', g1, g2, g3, g4⟩ := exec_move' w (s := c.select m) (data_cache w hr v h1 h2) (part_erased _ _ m)
  refine ⟨m', ?_, g2, ?_, ?_⟩
  · unfold setOps
    rw [tidy_sel ht]
    exact g1
  · rw [reads_erased w g2 g3, Bool.not_not]; exact g3
  · intro x hx
    rw [g4 x (hx _) (hx _)]
    exact erase_out (hx _)

/-- Setting a cell, interrupted, no erase being torn. -/
theorem acrash_set {m m' : Mem} {F : Nat → Byte} (ht : c.Tidy m) (hr : c.Reads m F) {i : Nat} (v : Byte) (h1 : 1 ≤ i) (h2 : 4 + i ≤ c.e)
    (hc : c.ACrash (c.setOps m i v) m m') :
    c.Reads m' F ∨ (c.Reads m' (fun j => if j = i then v else F j) ∧ (c.magic m' (!c.select m') ∨ c.Clear m' (!c.select m'))) := by
  unfold setOps at hc
  rw [tidy_sel ht, List.nil_append] at hc
  have hd := data_cache w hr v h1 h2
  have hs := reads_iff.1 hr
  obtain ⟨s, hse⟩ : ∃ s, s = c.select m := ⟨_, rfl⟩
  rw [← hse] at hc hs
  cases hc with
  | here => exact .inl hr
  | erase hc =>
    have hs1 : c.Has (c.apply m (.erase (!s))) s F := hs.keep w fun x hx => erase_out hx
    unfold writes at hc
    rw [List.range_eq_range'] at hc
    rcases acrash_writes w hd _ _ 0 _ (by omega) (part_erased _ _ m) hc with ⟨g1, g2⟩ | ⟨m1, g1, g2, g3⟩
    · have hs2 : c.Has m' s F := hs1.keep w g2
      rcases g1 with g1 | g1
      · exact .inl (hs2.one g1)
      · rcases hs2.both g1 with g | g
        · exact .inl g
        · right
          refine ⟨g, .inl ?_⟩
          rcases bool_cases (c.select m') s with e | e
          · rw [e]; exact g1.1
          · rw [e, Bool.not_not]; exact hs2.1
    · rw [Nat.zero_add] at g1
      have hf := g1.full w hd
      cases g3 with
      | here =>
        have hs2 : c.Has m' s F := hs1.keep w g2
        rcases hs2.both hf with g | g
        · exact .inl g
        · right
          refine ⟨g, .inl ?_⟩
          rcases bool_cases (c.select m') s with e | e
          · rw [e]; exact hf.1
          · rw [e, Bool.not_not]; exact hs2.1
      | erase g3 =>
        cases g3 with
        | here =>
          right
          have hr' := nil_data w g1 hd
          have hcl : c.Clear (c.apply m1 (.erase s)) s := fun i hi => erase_in ⟨by omega, by omega⟩
          refine ⟨hr', .inr ?_⟩
          rw [reads_erased w hr' hcl, Bool.not_not]
          exact hcl

theorem sel_none {m : Mem} (h : ∀ b, ¬ c.magic m b) : c.select m = false := by
  unfold select
  rw [if_neg (fun g => h _ g.1), if_neg (fun g => h _ g.2), if_pos ⟨h _, h _⟩]

theorem cell_magic {m : Mem} (he : c.e = c.ss) (h : ∀ b, c.Clear m b) : c.Data (c.magicCache m) (fun _ => c.er) := by
  have h4 := w.e4
  refine ⟨?_, ?_⟩
  · refine le32_magic fun i hi => ?_
    unfold magicCache
    rw [if_pos (by omega), Nat.add_sub_cancel_left]
  · intro j h1 h2
    unfold magicCache
    rw [if_neg (by omega)]
    exact h _ _ (by omega)

theorem part_clear {m d : Mem} {b : Bool} (h : c.Clear m b) : c.Part b d m 0 := by
  intro i hi
  rw [Nat.zero_mul, if_neg (by omega)]
  exact h i hi

theorem clear_tidy {m : Mem} (h : ∀ b, c.Clear m b) : c.Tidy m := clear_word w (h _)

/-- Writing the magic, uninterrupted. -/
theorem exec_magic {m : Mem} (he : c.e = c.ss) (h : ∀ b, c.Clear m b) :
    ∃ m', c.exec (c.magicOps m) m = some m' ∧ c.Reads m' (fun _ => c.er) ∧ c.Clear m' (!c.select m') ∧ ∀ x, (∀ b, ¬ c.inSec b x) → m' x = m x := by
  have hs := sel_none w fun b => clear_magic w (h b)
  obtain ⟨m', g1, g2, g3, g4⟩ := exec_move' w (s := c.select m) (cell_magic w he h) (part_clear w (h _))
  refine ⟨m', ?_, g2, ?_, fun x hx => g4 x (hx _) (hx _)⟩
  · unfold magicOps
    rw [tidy_sel (clear_tidy w h)]
    exact g1
  · rw [reads_erased w g2 g3, Bool.not_not]; exact g3

/-- Writing the magic, interrupted. -/
theorem crash_magic {m m' : Mem} (he : c.e = c.ss) (h : ∀ b, c.Clear m b) (hc : c.Crash (c.magicOps m) m m') :
    ((∀ b, ¬ c.magic m' b) ∧ c.Clear m' false) ∨ c.Reads m' (fun _ => c.er) := by
  have hs := sel_none w fun b => clear_magic w (h b)
  unfold magicOps at hc
  rw [tidy_sel (clear_tidy w h), List.nil_append] at hc
  have key : ∀ m' : Mem, (∀ x, ¬ c.inSec (!c.select m) x → m' x = m x) → c.Clear m' false := by
    intro m' hm i hi
    rw [hm _ ?_]
    · exact h false i hi
    · rw [hs]
      exact apart w (b := false) ⟨by omega, by omega⟩
  rcases crash_move w (cell_magic w he h) (part_clear w (h _)) hc with ⟨g1, g2⟩ | ⟨g1, g2⟩ | g
  · left
    refine ⟨?_, key m' g2⟩
    rw [hs] at g1
    intro b
    cases b with
    | false => exact clear_magic w (key m' g2)
    | true => exact g1
  · right
    refine g1.one ?_
    rw [hs]
    exact clear_magic w (key m' g2)
  · exact .inr g

/-- Writing the magic, interrupted, no erase being torn. -/
theorem acrash_magic {m m' : Mem} (h4 : 4 ≤ c.u) (her : c.er = 0xFF#8) (he : c.e = c.ss) (h : ∀ b, c.Clear m b) (hc : c.ACrash (c.magicOps m) m m') :
    (∀ b, c.Clear m' b) ∨ c.Reads m' (fun _ => c.er) := by
  have hs := sel_none w fun b => clear_magic w (h b)
  have hd := cell_magic w he h
  unfold magicOps at hc
  rw [tidy_sel (clear_tidy w h), List.nil_append, hs] at hc
  have hblank : ∀ i, i < c.e - 4 → c.magicCache m i = c.er := by
    intro i hi
    have := hd.2 (c.e - 4 - i) (by omega) (by omega)
    rw [show c.e - (4 + (c.e - 4 - i)) = i by omega] at this
    exact this
  have key : ∀ m' : Mem, (∀ x, ¬ c.inSec true x → m' x = m x) → c.Clear m' false := by
    intro m' hm i hi
    rw [hm _ (apart w (b := false) ⟨by omega, by omega⟩)]
    exact h false i hi
  unfold writes at hc
  rw [List.range_eq_range'] at hc
  rcases acrash_blank w her hblank _ _ 0 _ (by omega) (part_clear w (h true)) hc with ⟨i, g1, g2⟩ | ⟨m1, g1, g2, g3⟩
  · rcases g1.magic w hd with g | g
    · left
      intro b
      cases b with
      | false => exact key m' g2
      | true =>
        intro x hx
        rw [g1 x hx]
        split
        · next hxi =>
          by_cases hle : c.ss ≤ i * c.u
          · exfalso
            apply g
            have hp : c.Part true (c.magicCache m) m' (c.ss / c.u) := by
              intro y hy
              rw [g1 y hy, if_pos (by omega), if_pos (by rw [Nat.div_mul_cancel w.dvd]; exact hy)]
            exact (hp.full w hd).1
          · refine hblank x ?_
            obtain ⟨q, hq⟩ := w.dvd
            have : i < q := by
              refine Nat.lt_of_mul_lt_mul_right (a := c.u) ?_
              rw [Nat.mul_comm q, ← hq]
              omega
            have := Nat.mul_le_mul_right c.u (show i + 1 ≤ q from this)
            rw [Nat.mul_comm q, ← hq, Nat.add_mul, Nat.one_mul] at this
            omega
        · rfl
    · right
      exact g.one (clear_magic w (key m' g2))
  · rw [Nat.zero_add] at g1
    cases g3 with
    | here => exact .inr ((g1.full w hd).one (clear_magic w (key _ g2)))
    | erase g3 =>
      cases g3 with
      | here => exact .inr (nil_data w (s := false) g1 hd)

/-- Operations stay in the sectors of the flags. -/
def Inside (c : NvCfg) (ops : List NvOp) : Prop := ∀ op ∈ ops, match op with | .erase _ => True | .write _ k _ => k < c.ss / c.u

theorem crash_out {ops : List NvOp} {m m' : Mem} (hi : c.Inside ops) (hc : c.Crash ops m m') (hb : c.exec ops m ≠ none) :
    ∀ x, (∀ b, ¬ c.inSec b x) → m' x = m x := by
  induction hc with
  | here => intro x _; rfl
  | @torn op ops m m' t =>
    intro x hx
    cases op with
    | erase b => exact (torn_erase_out t).2 x (hx b)
    | write b k d => exact torn_out w (hi _ List.mem_cons_self) t (hx b)
  | @erase b ops m m' _ ih =>
    intro x hx
    rw [ih (fun op h => hi op (List.mem_cons_of_mem _ h)) hb x hx]
    exact erase_out (hx b)
  | @write b k d ops m m' h ih =>
    intro x hx
    by_cases hbl : c.blank m b k
    · have hb' : c.exec ops (c.apply m (.write b k d)) ≠ none := by
        intro e
        apply hb
        unfold NvCfg.exec
        rw [if_pos hbl]
        exact e
      rw [ih hbl (fun op h => hi op (List.mem_cons_of_mem _ h)) hb' x hx]
      exact write_out w (hi _ List.mem_cons_self) (hx b)
    · exfalso
      apply hb
      unfold NvCfg.exec
      rw [if_neg hbl]

theorem acrash_out {ops : List NvOp} {m m' : Mem} (hi : c.Inside ops) (hc : c.ACrash ops m m') :
    ∀ x, (∀ b, ¬ c.inSec b x) → m' x = m x := by
  induction hc with
  | here => intro x _; rfl
  | torn h1 h2 => intro x hx; exact torn_out w (hi _ List.mem_cons_self) (acrash_torn w h1 h2) (hx _)
  | @erase b ops m m' _ ih =>
    intro x hx
    rw [ih (fun op h => hi op (List.mem_cons_of_mem _ h)) x hx]
    exact erase_out (hx b)
  | @write b k d ops m m' _ ih =>
    intro x hx
    rw [ih (fun op h => hi op (List.mem_cons_of_mem _ h)) x hx]
    exact write_out w (hi _ List.mem_cons_self) (hx b)

theorem inside_writes (b : Bool) (d : Mem) : c.Inside (c.writes b d) := by
  intro op h
  unfold writes at h
  obtain ⟨k, hk, rfl⟩ := List.mem_map.1 h
  exact List.mem_range.1 hk

theorem inside_sel (lk : Bool) (m : Mem) : c.Inside (c.selOps lk m) := by
  intro op h
  rcases c.selOps_cases lk m with e | e <;> rw [e] at h
  · cases h
  · rw [List.mem_singleton] at h; subst h; trivial

theorem inside_set (m : Mem) (i : Nat) (v : Byte) : c.Inside (c.setOps m i v) := by
  intro op h
  unfold setOps at h
  rcases List.mem_append.1 h with h | h
  · exact inside_sel w _ _ op h
  · rcases List.mem_cons.1 h with h | h
    · subst h; trivial
    · rcases List.mem_append.1 h with h | h
      · exact inside_writes w _ _ op h
      · rw [List.mem_singleton] at h; subst h; trivial

theorem inside_magic (m : Mem) : c.Inside (c.magicOps m) := by
  intro op h
  unfold magicOps at h
  rcases List.mem_append.1 h with h | h
  · exact inside_sel w _ _ op h
  · rcases List.mem_append.1 h with h | h
    · exact inside_writes w _ _ op h
    · rw [List.mem_singleton] at h; subst h; trivial

end

end NvCfg

end Verif
