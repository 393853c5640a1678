import Verif.Nvm

/-!
# Flags on write-once flash: theorems (C11)
-/

namespace Verif

namespace NvCfg

/-- The sector holds the flags `F`. -/
def Has (c : NvCfg) (m : Mem) (b : Bool) (F : Nat → Byte) : Prop :=
  c.magic m b ∧ ∀ at_, 1 ≤ at_ → 4 + at_ ≤ c.e → m (c.base b + c.e - (4 + at_)) = F at_

/-- Address within a sector. -/
def inSec (c : NvCfg) (b : Bool) (x : Nat) : Prop := c.base b ≤ x ∧ x < c.base b + c.ss

theorem apart {c : NvCfg} (w : c.WF) {b : Bool} {x : Nat} (h : c.inSec b x) : ¬ c.inSec (!b) x := by
  have := w.low
  unfold inSec base at *
  cases b <;> simp only [Bool.not_false, Bool.not_true, if_true, if_false, Bool.false_eq_true] at * <;> omega

theorem reads_iff {c : NvCfg} {m : Mem} {F : Nat → Byte} : c.Reads m F ↔ c.Has m (c.select m) F := Iff.rfl

theorem select_one {c : NvCfg} {m : Mem} {b : Bool} (h : c.magic m b) (h' : ¬ c.magic m (!b)) : c.select m = b := by
  unfold select
  cases b <;> simp_all

theorem Has.one {c : NvCfg} {m : Mem} {b : Bool} {F : Nat → Byte} (h : c.Has m b F) (h' : ¬ c.magic m (!b)) : c.Reads m F := by
  rw [reads_iff, select_one h.1 h']
  exact h

theorem Has.both {c : NvCfg} {m : Mem} {b : Bool} {F F' : Nat → Byte} (h : c.Has m b F) (h' : c.Has m (!b) F') :
    c.Reads m F ∨ c.Reads m F' := by
  rw [reads_iff, reads_iff]
  cases b <;> cases c.select m <;> simp_all

theorem magic_congr {c : NvCfg} (w : c.WF) {m m' : Mem} {b : Bool} (hs : ∀ x, c.inSec b x → x < c.base b + c.e → m' x = m x) :
    c.magic m' b ↔ c.magic m b := by
  have := w.e4; have := w.ess
  unfold magic
  rw [le32_congr]
  intro o h1 h2
  exact hs o ⟨by omega, by omega⟩ (by omega)

theorem Has.congr {c : NvCfg} (w : c.WF) {m m' : Mem} {b : Bool} {F : Nat → Byte} (h : c.Has m b F)
    (hs : ∀ x, c.inSec b x → x < c.base b + c.e → m' x = m x) : c.Has m' b F := by
  have := w.e4; have := w.ess
  refine ⟨(magic_congr w hs).2 h.1, ?_⟩
  intro at_ h1 h2
  rw [hs _ ⟨by omega, by omega⟩ (by omega)]
  exact h.2 at_ h1 h2

theorem Has.keep {c : NvCfg} (w : c.WF) {m m' : Mem} {b : Bool} {F : Nat → Byte} (h : c.Has m b F)
    (hs : ∀ x, ¬ c.inSec (!b) x → m' x = m x) : c.Has m' b F :=
  h.congr w fun x hx _ => hs x (apart w hx)

/-- No magic while its last byte is erased. -/
theorem no_magic {c : NvCfg} (w : c.WF) {m : Mem} {b : Bool} (h : m (c.base b + c.e - 1) = c.er) : ¬ c.magic m b := by
  unfold magic le32 MAGIC_TRAIL
  have := w.e4
  rw [show c.base b + c.e - 4 + 3 = c.base b + c.e - 1 by omega, h]
  have h1 := (m (c.base b + c.e - 4)).isLt
  have h2 := (m (c.base b + c.e - 4 + 1)).isLt
  have h3 := (m (c.base b + c.e - 4 + 2)).isLt
  rcases w.erased with e | e <;> rw [e]
  · have : (0xFF : Byte).toNat = 255 := rfl
    omega
  · have : (0 : Byte).toNat = 0 := rfl
    omega

theorem erase_out {c : NvCfg} {m : Mem} {b : Bool} {x : Nat} (h : ¬ c.inSec b x) : c.apply m (.erase b) x = m x := if_neg h

theorem erase_in {c : NvCfg} {m : Mem} {b : Bool} {x : Nat} (h : c.inSec b x) : c.apply m (.erase b) x = c.er := if_pos h

theorem erase_magic {c : NvCfg} (w : c.WF) (m : Mem) (b : Bool) : ¬ c.magic (c.apply m (.erase b)) b := by
  have := w.e4; have := w.ess
  exact no_magic w (erase_in ⟨by omega, by omega⟩)

/-- `j` units of the sector are written, the others erased. -/
def Part (c : NvCfg) (b : Bool) (d m : Mem) (j : Nat) : Prop :=
  ∀ i, i < c.ss → m (c.base b + i) = if i < j * c.u then d i else c.er

theorem Part.blank {c : NvCfg} (w : c.WF) {b : Bool} {d m : Mem} {j : Nat} (h : c.Part b d m j) (hj : j < c.ss / c.u) : c.blank m b j := by
  intro i hi
  have : (j + 1) * c.u ≤ c.ss := by
    have := Nat.mul_le_mul_right c.u (show j + 1 ≤ c.ss / c.u from hj)
    rw [Nat.div_mul_cancel w.dvd] at this
    exact this
  rw [Nat.add_mul, Nat.one_mul] at this
  rw [Nat.add_assoc, h _ (by omega), if_neg (by omega)]

theorem Part.next {c : NvCfg} {b : Bool} {d m : Mem} {j : Nat} (h : c.Part b d m j) : c.Part b d (c.apply m (.write b j d)) (j + 1) := by
  intro i hi
  rw [Nat.add_mul, Nat.one_mul]
  show (if c.base b + j * c.u ≤ c.base b + i ∧ c.base b + i < c.base b + j * c.u + c.u then d (c.base b + i - c.base b) else m (c.base b + i)) = _
  by_cases h1 : j * c.u ≤ i ∧ i < j * c.u + c.u
  · rw [if_pos (by omega), if_pos (by omega), Nat.add_sub_cancel_left]
  · rw [if_neg (by omega), h i hi]
    by_cases h2 : i < j * c.u
    · rw [if_pos h2, if_pos (by omega)]
    · rw [if_neg h2, if_neg (by omega)]

theorem write_out {c : NvCfg} (w : c.WF) {m d : Mem} {b : Bool} {j x : Nat} (hj : j < c.ss / c.u) (h : ¬ c.inSec b x) :
    c.apply m (.write b j d) x = m x := by
  have : (j + 1) * c.u ≤ c.ss := by
    have := Nat.mul_le_mul_right c.u (show j + 1 ≤ c.ss / c.u from hj)
    rw [Nat.div_mul_cancel w.dvd] at this
    exact this
  rw [Nat.add_mul, Nat.one_mul] at this
  unfold inSec at h
  exact if_neg (by omega)

/-- The cache holds the flags `F`. -/
def Data (c : NvCfg) (d : Mem) (F : Nat → Byte) : Prop :=
  le32 d (c.e - 4) = MAGIC_TRAIL ∧ ∀ at_, 1 ≤ at_ → 4 + at_ ≤ c.e → d (c.e - (4 + at_)) = F at_

theorem Part.magic {c : NvCfg} (w : c.WF) {b : Bool} {d m : Mem} {j : Nat} {F : Nat → Byte} (h : c.Part b d m j) (hd : c.Data d F) :
    ¬ c.magic m b ∨ c.Has m b F := by
  have := w.e4; have := w.ess
  by_cases hj : j * c.u < c.e
  · left
    refine no_magic w ?_
    rw [show c.base b + c.e - 1 = c.base b + (c.e - 1) by omega, h _ (by omega), if_neg (by omega)]
  · right
    refine ⟨?_, ?_⟩
    · unfold NvCfg.magic
      rw [← hd.1]
      unfold le32
      rw [show c.base b + c.e - 4 = c.base b + (c.e - 4) by omega]
      simp only [Nat.add_assoc]
      rw [h _ (by omega), if_pos (by omega), h _ (by omega), if_pos (by omega), h _ (by omega), if_pos (by omega), h _ (by omega), if_pos (by omega)]
    · intro at_ h1 h2
      rw [show c.base b + c.e - (4 + at_) = c.base b + (c.e - (4 + at_)) by omega, h _ (by omega), if_pos (by omega)]
      exact hd.2 at_ h1 h2

theorem Part.full {c : NvCfg} (w : c.WF) {b : Bool} {d m : Mem} {F : Nat → Byte} (h : c.Part b d m (c.ss / c.u)) (hd : c.Data d F) :
    c.Has m b F := by
  rcases h.magic w hd with hh | hh
  · exfalso
    apply hh
    have := w.e4; have := w.ess
    unfold NvCfg.magic
    rw [← hd.1]
    unfold Part at h
    rw [Nat.div_mul_cancel w.dvd] at h
    unfold le32
    rw [show c.base b + c.e - 4 = c.base b + (c.e - 4) by omega]
    simp only [Nat.add_assoc]
    rw [h _ (by omega), if_pos (by omega), h _ (by omega), if_pos (by omega), h _ (by omega), if_pos (by omega), h _ (by omega), if_pos (by omega)]
  · exact hh

theorem Part.torn {c : NvCfg} (w : c.WF) {b : Bool} {d m m' : Mem} {j : Nat} {F : Nat → Byte} (h : c.Part b d m j) (hd : c.Data d F)
    (t : c.Torn (.write b j d) m m') : ¬ c.magic m' b ∨ c.Has m' b F := by
  have := w.e4; have := w.ess
  cases t with
  | write out mg =>
    rcases mg with hk | hk
    · left
      rw [Nat.add_mul, Nat.one_mul] at hk
      refine no_magic w ?_
      rw [out _ (by omega), show c.base b + c.e - 1 = c.base b + (c.e - 1) by omega, h _ (by omega), if_neg (by omega)]
    · rcases h.magic w hd with hh | hh
      · left
        rw [magic_congr w]
        · exact hh
        · intro x hx hx'
          exact out x (by omega)
      · right
        refine hh.congr w ?_
        intro x hx hx'
        exact out x (by omega)

theorem torn_out {c : NvCfg} (w : c.WF) {m m' d : Mem} {b : Bool} {j x : Nat} (hj : j < c.ss / c.u) (t : c.Torn (.write b j d) m m')
    (h : ¬ c.inSec b x) : m' x = m x := by
  have : (j + 1) * c.u ≤ c.ss := by
    have := Nat.mul_le_mul_right c.u (show j + 1 ≤ c.ss / c.u from hj)
    rw [Nat.div_mul_cancel w.dvd] at this
    exact this
  rw [Nat.add_mul, Nat.one_mul] at this
  unfold inSec at h
  cases t with
  | write out _ => exact out x (by omega)

theorem exec_writes {c : NvCfg} (w : c.WF) {b : Bool} {d : Mem} (rest : List NvOp) (n : Nat) :
    ∀ (j : Nat) (m : Mem), j + n ≤ c.ss / c.u → c.Part b d m j →
      ∃ m', c.exec ((List.range' j n).map (fun k => NvOp.write b k d) ++ rest) m = c.exec rest m' ∧ c.Part b d m' (j + n) ∧
        ∀ x, ¬ c.inSec b x → m' x = m x := by
  induction n with
  | zero => intro j m _ h; exact ⟨m, rfl, h, fun _ _ => rfl⟩
  | succ n ih =>
    intro j m hj h
    obtain ⟨m', h1, h2, h3⟩ := ih (j + 1) _ (by omega) h.next
    refine ⟨m', ?_, by rw [← show j + 1 + n = j + (n + 1) by omega]; exact h2, ?_⟩
    · rw [List.range'_succ, List.map_cons, List.cons_append, ← h1]
      exact if_pos (h.blank w (by omega))
    · intro x hx
      rw [h3 x hx, write_out w (by omega) hx]

theorem crash_writes {c : NvCfg} (w : c.WF) {b : Bool} {d : Mem} {F : Nat → Byte} (hd : c.Data d F) (rest : List NvOp) {m' : Mem} (n : Nat) :
    ∀ (j : Nat) (m : Mem), j + n ≤ c.ss / c.u → c.Part b d m j →
      c.Crash ((List.range' j n).map (fun k => NvOp.write b k d) ++ rest) m m' →
      ((¬ c.magic m' b ∨ c.Has m' b F) ∧ ∀ x, ¬ c.inSec b x → m' x = m x) ∨
      ∃ m1, c.Part b d m1 (j + n) ∧ (∀ x, ¬ c.inSec b x → m1 x = m x) ∧ c.Crash rest m1 m' := by
  induction n with
  | zero => intro j m _ h hc; exact .inr ⟨m, h, fun _ _ => rfl, hc⟩
  | succ n ih =>
    intro j m hj h hc
    rw [List.range'_succ, List.map_cons, List.cons_append] at hc
    cases hc with
    | here => exact .inl ⟨h.magic w hd, fun _ _ => rfl⟩
    | torn t => exact .inl ⟨h.torn w hd t, fun x hx => torn_out w (by omega) t hx⟩
    | write hc =>
      have hc := hc (h.blank w (by omega))
      rcases ih (j + 1) _ (by omega) h.next hc with ⟨h1, h2⟩ | ⟨m1, h1, h2, h3⟩
      · exact .inl ⟨h1, fun x hx => by rw [h2 x hx, write_out w (by omega) hx]⟩
      · exact .inr ⟨m1, by rw [← show j + 1 + n = j + (n + 1) by omega]; exact h1, fun x hx => by rw [h2 x hx, write_out w (by omega) hx], h3⟩

theorem part_erased {c : NvCfg} (b : Bool) (d m : Mem) : c.Part b d (c.apply m (.erase b)) 0 := by
  intro i hi
  rw [Nat.zero_mul, if_neg (by omega)]
  exact erase_in ⟨by omega, by omega⟩

theorem nil_data {c : NvCfg} {s : Bool} {d m : Mem} {F : Nat → Byte} (w : c.WF) (h : c.Part (!s) d m (c.ss / c.u)) (hd : c.Data d F) :
    c.Reads (c.apply m (.erase s)) F := by
  have hh := h.full w hd
  refine Has.one (b := !s) (hh.keep w ?_) ?_
  · intro x hx
    rw [Bool.not_not] at hx
    exact erase_out hx
  · rw [Bool.not_not]
    exact erase_magic w m s

/-- Writes to the other sector and erase of the selected one. -/
theorem exec_move {c : NvCfg} (w : c.WF) {s : Bool} {d : Mem} {F : Nat → Byte} (hd : c.Data d F) {m : Mem} (h : c.Part (!s) d m 0) :
    ∃ m', c.exec (c.writes (!s) d ++ [.erase s]) m = some m' ∧ c.Reads m' F := by
  obtain ⟨m1, h1, h2, _⟩ := exec_writes w [.erase s] (c.ss / c.u) 0 _ (by omega) h
  rw [Nat.zero_add] at h2
  refine ⟨_, ?_, nil_data w h2 hd⟩
  unfold writes
  rw [List.range_eq_range', h1]
  rfl

theorem torn_erase_out {c : NvCfg} {m m' : Mem} {b : Bool} (t : c.Torn (.erase b) m m') :
    ¬ c.magic m' b ∧ ∀ x, ¬ c.inSec b x → m' x = m x := by
  cases t with
  | erase out mg => exact ⟨mg, out⟩

theorem crash_move {c : NvCfg} (w : c.WF) {s : Bool} {d : Mem} {F : Nat → Byte} (hd : c.Data d F) {m m' : Mem} (h : c.Part (!s) d m 0)
    (hc : c.Crash (c.writes (!s) d ++ [.erase s]) m m') :
    (¬ c.magic m' (!s) ∧ ∀ x, ¬ c.inSec (!s) x → m' x = m x) ∨ (c.Has m' (!s) F ∧ ∀ x, ¬ c.inSec (!s) x → m' x = m x) ∨ c.Reads m' F := by
  unfold writes at hc
  rw [List.range_eq_range'] at hc
  rcases crash_writes w hd _ _ 0 m (by omega) h hc with ⟨h1 | h1, h2⟩ | ⟨m1, h1, h2, h3⟩
  · exact .inl ⟨h1, h2⟩
  · exact .inr (.inl ⟨h1, h2⟩)
  · rw [Nat.zero_add] at h1
    cases h3 with
    | here => exact .inr (.inl ⟨h1.full w hd, h2⟩)
    | torn t =>
      obtain ⟨t1, t2⟩ := torn_erase_out t
      refine .inr (.inr (Has.one (b := !s) ((h1.full w hd).keep w ?_) ?_))
      · rw [Bool.not_not]; exact t2
      · rw [Bool.not_not]; exact t1
    | erase hc =>
      cases hc with
      | here => exact .inr (.inr (nil_data w h1 hd))

theorem selOps_cases (c : NvCfg) (lk : Bool) (m : Mem) : c.selOps lk m = [] ∨ c.selOps lk m = [.erase (!c.select m)] := by
  unfold selOps
  split
  · exact .inl rfl
  · split
    · exact .inr rfl
    · exact .inl rfl

/-- Selection, copy to the other sector, erase of the selected one. -/
theorem exec_copy {c : NvCfg} (w : c.WF) {d : Mem} {F : Nat → Byte} (hd : c.Data d F) (m : Mem) :
    ∃ m', c.exec (c.selOps false m ++ .erase (!c.select m) :: (c.writes (!c.select m) d ++ [.erase (c.select m)])) m = some m' ∧ c.Reads m' F := by
  rcases c.selOps_cases false m with h | h <;> rw [h]
  · exact exec_move w hd (part_erased _ d _)
  · exact exec_move w hd (part_erased _ d _)

theorem crash_copy' {c : NvCfg} (w : c.WF) {d : Mem} {F F' : Nat → Byte} (hd : c.Data d F') {m m' : Mem} {s : Bool} (hs : c.Has m s F) (hr : c.Reads m F)
    (hc : c.Crash (.erase (!s) :: (c.writes (!s) d ++ [.erase s])) m m') : c.Reads m' F ∨ c.Reads m' F' := by
  cases hc with
  | here => exact .inl hr
  | torn t =>
    obtain ⟨t1, t2⟩ := torn_erase_out t
    exact .inl ((hs.keep w t2).one t1)
  | erase hc =>
    have hk : c.Has (c.apply m (.erase (!s))) s F := hs.keep w fun x hx => erase_out hx
    rcases crash_move w hd (part_erased _ d _) hc with ⟨h1, h2⟩ | ⟨h1, h2⟩ | h1
    · exact .inl ((hk.keep w h2).one h1)
    · exact (hk.keep w h2).both h1
    · exact .inr h1

theorem crash_copy {c : NvCfg} (w : c.WF) {d : Mem} {F F' : Nat → Byte} (hd : c.Data d F') {m m' : Mem} (hr : c.Reads m F)
    (hc : c.Crash (c.selOps false m ++ .erase (!c.select m) :: (c.writes (!c.select m) d ++ [.erase (c.select m)])) m m') :
    c.Reads m' F ∨ c.Reads m' F' := by
  have hs := reads_iff.1 hr
  rcases c.selOps_cases false m with h | h <;> rw [h] at hc
  · exact crash_copy' w hd hs hr hc
  · rw [List.cons_append, List.nil_append] at hc
    cases hc with
    | here => exact .inl hr
    | torn t =>
      obtain ⟨t1, t2⟩ := torn_erase_out t
      exact .inl ((hs.keep w t2).one t1)
    | erase hc =>
      have hk : c.Has (c.apply m (.erase (!c.select m))) (c.select m) F := hs.keep w fun x hx => erase_out hx
      exact crash_copy' w hd hk (hk.one (erase_magic w _ _)) hc

theorem data_cache {c : NvCfg} (w : c.WF) {m : Mem} {F : Nat → Byte} (hr : c.Reads m F) {i : Nat} (v : Byte) (h1 : 1 ≤ i) (h2 : 4 + i ≤ c.e) :
    c.Data (c.cache m i v) (fun j => if j = i then v else F j) := by
  have := w.e4
  refine ⟨?_, ?_⟩
  · rw [← hr.1]
    unfold le32 cache
    rw [if_neg (by omega), if_neg (by omega), if_neg (by omega), if_neg (by omega), show c.base (c.select m) + c.e - 4 = c.base (c.select m) + (c.e - 4) by omega]
    simp only [Nat.add_assoc]
  · intro j h3 h4
    unfold cache
    dsimp only
    by_cases hj : j = i
    · rw [if_pos (by omega), if_pos hj]
    · rw [if_neg (by omega), if_neg hj, ← hr.2 j h3 h4]
      unfold get
      rw [show c.base (c.select m) + c.e - (4 + j) = c.base (c.select m) + (c.e - (4 + j)) by omega]

theorem data_same {c : NvCfg} (w : c.WF) {m : Mem} {F : Nat → Byte} (hr : c.Reads m F) : c.Data (fun i => m (c.base (c.select m) + i)) F := by
  have := w.e4
  refine ⟨?_, ?_⟩
  · rw [← hr.1]
    unfold le32
    rw [show c.base (c.select m) + c.e - 4 = c.base (c.select m) + (c.e - 4) by omega]
    simp only [Nat.add_assoc]
  · intro j h3 h4
    rw [← hr.2 j h3 h4]
    unfold get
    rw [show c.base (c.select m) + c.e - (4 + j) = c.base (c.select m) + (c.e - (4 + j)) by omega]

end NvCfg

open NvCfg

/-- An operation that runs to its end does what it should and writes no unit twice. -/
theorem nvm_complete {c : NvCfg} (w : c.WF) {m : Mem} {F : Nat → Byte} (hr : c.Reads m F) (ev : NvEv)
    (hev : ∀ i v, ev = .set i v → 1 ≤ i ∧ 4 + i ≤ c.e) : ∃ m' F', c.exec (c.ops m ev) m = some m' ∧ c.Reads m' F' ∧ ev.Spec F false F' := by
  cases ev with
  | read lk =>
    unfold NvCfg.ops
    rcases c.selOps_cases lk m with h | h <;> dsimp only <;> rw [h]
    · exact ⟨m, F, rfl, hr, rfl⟩
    · exact ⟨_, F, rfl, Has.one ((reads_iff.1 hr).keep w fun x hx => erase_out hx) (erase_magic w _ _), rfl⟩
  | set i v =>
    obtain ⟨h1, h2⟩ := hev i v rfl
    obtain ⟨m', g1, g2⟩ := exec_copy w (data_cache w hr v h1 h2) m
    exact ⟨m', _, g1, g2, rfl⟩
  | copy =>
    obtain ⟨m', g1, g2⟩ := exec_copy w (data_same w hr) m
    exact ⟨m', _, g1, g2, rfl⟩

/-- An operation interrupted by a power loss leaves the flags as they were or as they should be. -/
theorem nvm_interrupted {c : NvCfg} (w : c.WF) {m m' : Mem} {F : Nat → Byte} (hr : c.Reads m F) (ev : NvEv)
    (hev : ∀ i v, ev = .set i v → 1 ≤ i ∧ 4 + i ≤ c.e) (hc : c.Crash (c.ops m ev) m m') : ∃ F', c.Reads m' F' ∧ ev.Spec F true F' := by
  cases ev with
  | read lk =>
    unfold NvCfg.ops at hc
    dsimp only at hc
    rcases c.selOps_cases lk m with h | h <;> rw [h] at hc
    · cases hc with
      | here => exact ⟨F, hr, rfl⟩
    · cases hc with
      | here => exact ⟨F, hr, rfl⟩
      | torn t =>
        obtain ⟨t1, t2⟩ := torn_erase_out t
        exact ⟨F, ((reads_iff.1 hr).keep w t2).one t1, rfl⟩
      | erase hc =>
        cases hc with
        | here => exact ⟨F, Has.one ((reads_iff.1 hr).keep w fun x hx => erase_out hx) (erase_magic w _ _), rfl⟩
  | set i v =>
    obtain ⟨h1, h2⟩ := hev i v rfl
    rcases crash_copy w (data_cache w hr v h1 h2) hr hc with h | h
    · exact ⟨_, h, .inl rfl⟩
    · exact ⟨_, h, .inr rfl⟩
  | copy =>
    rcases crash_copy w (data_same w hr) hr hc with h | h
    · exact ⟨_, h, rfl⟩
    · exact ⟨_, h, rfl⟩

/-- **C11.** After any history of reading, setting and copying the flags, with any number of power losses, the flags can be read and are what the
operations that completed made of them, those interrupted having happened or not; no unit is written twice. -/
theorem nvm_history_partial {c : NvCfg} (w : c.WF) {h : List (NvEv × Bool)} {m : Mem} {r : Option Mem} (hrun : c.Run m h r) :
    ∀ {F : Nat → Byte}, c.Reads m F → ∃ m' F', r = some m' ∧ c.Reads m' F' ∧ NvEv.Hist F h F' := by
  induction hrun with
  | nil => intro F hr; exact ⟨_, F, rfl, hr, .nil⟩
  | @done m ev m1 h r hev he _ ih =>
    intro F hr
    obtain ⟨m2, F1, g1, g2, g3⟩ := nvm_complete w hr ev hev
    rw [he] at g1
    cases g1
    obtain ⟨m', F', i1, i2, i3⟩ := ih g2
    exact ⟨m', F', i1, i2, .cons g3 i3⟩
  | @bad m ev h hev he =>
    intro F hr
    obtain ⟨m2, F1, g1, _, _⟩ := nvm_complete w hr ev hev
    rw [he] at g1
    cases g1
  | @cut m ev m1 h r hev hc _ ih =>
    intro F hr
    obtain ⟨F1, g1, g2⟩ := nvm_interrupted w hr ev hev hc
    obtain ⟨m', F', i1, i2, i3⟩ := ih g1
    exact ⟨m', F', i1, i2, .cons g2 i3⟩

end Verif
