import Verif.TpmSpi

/-!
# Access to the TPM over SPI: theorems (C60)
-/

namespace Verif.Spi

open Verif
open Verif.Tpm (Bytes)

variable {D : Type}

/-! ## Specification -/

/-- Exchange of bytes with a selected device. -/
inductive Exch (v : Dev D) : D → Bytes → Bytes → D → Prop
  | nil (d : D) : Exch v d [] [] d
  | cons {d d' : D} {x : Byte} {tx rx : Bytes} (h : Exch v (v.byte d x).1 tx rx d') :
      Exch v d (x :: tx) ((v.byte d x).2 :: rx) d'

/-- A transfer that does what it should: the device is selected if it was not, the bytes are
exchanged, the device is released unless the transfer is to be continued. -/
def Good (v : Dev D) (b : Bus D) (tx : Bytes) (cont : Bool) (x : Int × Bus D × Bytes) : Prop :=
  x.1 = 0 ∧ ∃ d, Exch v (if b.cs then b.dev else v.sel b.dev) tx x.2.2 d ∧
    x.2.1 = if cont then ⟨d, true⟩ else ⟨v.desel d, false⟩

/-- A driver for the TPM: transfers of at least one byte are as they should be. -/
def Driver (v : Dev D) (xfer : Xfer D) : Prop :=
  ∀ b tx cont, tx ≠ [] → Good v b tx cont (xfer b tx cont)

/-- An empty transfer releases the device. -/
def Releases (v : Dev D) (xfer : Xfer D) : Prop :=
  ∀ d, (xfer ⟨d, true⟩ [] false).2.1 = ⟨v.desel d, false⟩

/-- The registers of a TPM as seen at the bus: reading and writing of byte `i` of an access to an
address, and the number of wait states before an access (TCG PC Client Platform TPM Profile, SPI). -/
structure Core (C : Type) where
  rd : C → Nat → Nat → C × Byte
  wr : C → Nat → Nat → Byte → C
  waits : C → Bytes → Nat

/-- Where a TPM is within an access. -/
inductive Phase where
  | idle
  | hdr (b : Bytes)
  | wait (h : Bytes) (n : Nat)
  | data (h : Bytes) (i : Nat)
  deriving DecidableEq

def hdrRead (h : Bytes) : Bool := (h.getD 0 0).toNat / 128 == 1
def hdrSize (h : Bytes) : Nat := (h.getD 0 0).toNat % 64 + 1
def hdrAddr (h : Bytes) : Nat :=
  (h.getD 1 0).toNat * 65536 + (h.getD 2 0).toNat * 256 + (h.getD 3 0).toNat

/-- One byte at the TPM: a header of four bytes; from the last of them on bit 0 of the answer tells
whether the TPM is ready; then the data. -/
def tisByte {C : Type} (k : Core C) (d : Phase × C) (x : Byte) : (Phase × C) × Byte :=
  match d.1 with
  | .idle => (d, 0xFF)
  | .hdr b =>
    if b.length < 3 then ((.hdr (b ++ [x]), d.2), 0)
    else if k.waits d.2 (b ++ [x]) = 0 then ((.data (b ++ [x]) 0, d.2), 1)
    else ((.wait (b ++ [x]) (k.waits d.2 (b ++ [x])), d.2), 0)
  | .wait h n => if n ≤ 1 then ((.data h 0, d.2), 1) else ((.wait h (n - 1), d.2), 0)
  | .data h i =>
    if hdrSize h ≤ i then (d, 0xFF)
    else if hdrRead h then
      ((.data h (i + 1), (k.rd d.2 (hdrAddr h) i).1), (k.rd d.2 (hdrAddr h) i).2)
    else ((.data h (i + 1), k.wr d.2 (hdrAddr h) i x), 0)

/-- A TPM at the bus. -/
def tis {C : Type} (k : Core C) : Dev (Phase × C) where
  sel d := (.hdr [], d.2)
  byte := tisByte k
  desel d := (.idle, d.2)

/-- Reading bytes `i` to `i + n - 1` of an access. -/
def readN {C : Type} (k : Core C) (a : Nat) : Nat → Nat → C → C × Bytes
  | 0, _, c => (c, [])
  | n + 1, i, c =>
    let q := k.rd c a i
    let r := readN k a n (i + 1) q.1
    (r.1, q.2 :: r.2)

/-- Writing bytes from index `i` on. -/
def writeN {C : Type} (k : Core C) (a : Nat) : Bytes → Nat → C → C
  | [], _, c => c
  | x :: r, i, c => writeN k a r (i + 1) (k.wr c a i x)

/-! ## Drivers -/

theorem exch_unique {v : Dev D} {d : D} {tx rx rx' : Bytes} {e e' : D} (h : Exch v d tx rx e)
    (h' : Exch v d tx rx' e') : rx = rx' ∧ e = e' := by
  induction h generalizing rx' e' with
  | nil => cases h'; exact ⟨rfl, rfl⟩
  | cons _ ih =>
    cases h' with
    | cons h2 =>
      obtain ⟨h3, h4⟩ := ih h2
      exact ⟨by rw [h3], h4⟩

theorem exch_length {v : Dev D} {d : D} {tx rx : Bytes} {e : D} (h : Exch v d tx rx e) :
    rx.length = tx.length := by
  induction h with
  | nil => rfl
  | cons _ ih => simp [ih]

theorem exch_append {v : Dev D} {d e f : D} {a b ra rb : Bytes} (h : Exch v d a ra e)
    (h2 : Exch v e b rb f) : Exch v d (a ++ b) (ra ++ rb) f := by
  induction h with
  | nil => exact h2
  | cons _ ih => exact .cons (ih h2)

theorem byteLoop_exch (v : Dev D) (d : D) (tx : Bytes) :
    Exch v d tx (byteLoop v d tx).2 (byteLoop v d tx).1 := by
  induction tx generalizing d with
  | nil => exact .nil d
  | cons x r ih => exact .cons (ih _)

theorem csOn_dev (v : Dev D) (b : Bus D) : (csOn v b).dev = if b.cs then b.dev else v.sel b.dev := by
  unfold csOn; split <;> rfl

theorem csOn_cs (v : Dev D) (b : Bus D) : (csOn v b).cs = true := by
  unfold csOn; split
  · assumption
  · rfl

/-- **The byte loop does what it should**, for every transfer. -/
theorem simpleXfer_good (v : Dev D) (b : Bus D) (tx : Bytes) (cont : Bool) :
    Good v b tx cont (simpleXfer v true b tx cont) := by
  unfold simpleXfer
  rw [if_pos rfl]
  refine ⟨rfl, (byteLoop v (csOn v b).dev tx).1, ?_, ?_⟩
  · rw [← csOn_dev]
    exact byteLoop_exch v _ tx
  · cases cont <;> rfl

theorem simpleXfer_driver (v : Dev D) : Driver v (simpleXfer v true) := fun b tx cont _ =>
  simpleXfer_good v b tx cont

theorem simpleXfer_releases (v : Dev D) : Releases v (simpleXfer v true) := fun _ => rfl

theorem word_byte (a b c d : Byte) :
    wordByte (word a b c d) 0 = a ∧ wordByte (word a b c d) 1 = b ∧
    wordByte (word a b c d) 2 = c ∧ wordByte (word a b c d) 3 = d := by
  have ha := a.isLt
  have hb := b.isLt
  have hc := c.isLt
  have hd := d.isLt
  unfold wordByte word
  refine ⟨?_, ?_, ?_, ?_⟩ <;>
  · apply BitVec.eq_of_toNat_eq
    rw [BitVec.toNat_ofNat]
    simp only [Nat.reducePow, Nat.reduceSub, Nat.div_one]
    omega

theorem espiLoop_exch (v : Dev D) (d : D) (tx : Bytes) :
    Exch v d tx (espiLoop v d tx).2 (espiLoop v d tx).1 := by
  induction d, tx using espiLoop.induct (v := v) with
  | case1 d a b c e r q ih =>
    unfold espiLoop
    dsimp only
    have hq : q = shiftWord v d (word a b c e) := rfl
    unfold shiftWord at hq
    obtain ⟨h0, h1, h2, h3⟩ := word_byte a b c e
    rw [h0, h1, h2, h3] at hq
    dsimp only at hq
    have hq1 : q.1 = (v.byte (v.byte (v.byte (v.byte d a).1 b).1 c).1 e).1 := by rw [hq]
    have hq2 : q.2 = word (v.byte d a).2 (v.byte (v.byte d a).1 b).2
        (v.byte (v.byte (v.byte d a).1 b).1 c).2
        (v.byte (v.byte (v.byte (v.byte d a).1 b).1 c).1 e).2 := by rw [hq]
    rw [show shiftWord v d (word a b c e) = q from rfl]
    obtain ⟨g0, g1, g2, g3⟩ := word_byte (v.byte d a).2 (v.byte (v.byte d a).1 b).2
        (v.byte (v.byte (v.byte d a).1 b).1 c).2
        (v.byte (v.byte (v.byte (v.byte d a).1 b).1 c).1 e).2
    rw [hq2, g0, g1, g2, g3]
    rw [hq1] at ih ⊢
    exact .cons (.cons (.cons (.cons ih)))
  | case2 d x r hne q ih =>
    rw [espiLoop.eq_2 v d x r hne]
    exact .cons ih
  | case3 d => exact .nil d

/-- **The word loop of the eSPI exchanges the same bytes**, for every transfer of at least one byte. -/
theorem espiXfer_driver (v : Dev D) : Driver v (espiXfer v) := by
  intro b tx cont hne
  have hl : tx.length > 0 := List.length_pos_iff.2 hne
  unfold espiXfer
  rw [if_pos hl]
  refine ⟨rfl, (espiLoop v (csOn v b).dev tx).1, ?_, ?_⟩
  · rw [← csOn_dev]
    exact espiLoop_exch v _ tx
  · dsimp only
    rw [csOn_cs]
    cases cont <;> rfl

theorem espiXfer_releases (v : Dev D) : Releases v (espiXfer v) := fun _ => rfl

/-! ### Queues -/

/-- The bus when the bytes `d` of `tx` have been exchanged. -/
def After (v : Dev D) (b : Bus D) (tx : Bytes) (cont : Bool) (d rx : Bytes) (b' : Bus D) : Prop :=
  (d = [] ∧ rx = [] ∧ b' = b) ∨
  (d ≠ [] ∧ ∃ e, Exch v (if b.cs then b.dev else v.sel b.dev) d rx e ∧
    b' = if cont = false ∧ d.length = tx.length then ⟨v.desel e, false⟩ else ⟨e, true⟩)

/-- The invariant of the transfer. -/
structure Inv (v : Dev D) (b : Bus D) (tx : Bytes) (cont : Bool) (s : Sys D) : Prop where
  split : ∃ d, tx = d ++ (s.txq.map (·.1) ++ s.out) ∧ After v b tx cont d (s.inp ++ s.rxq) s.bus
  out : s.out.length = s.txc
  inp : s.inp.length + s.rxc = tx.length
  flight : s.txq.length + s.rxq.length + s.txc = s.rxc
  bound : s.txq.length + s.rxq.length ≤ DEPTH
  marks : ∀ a q r, s.txq = a ++ q :: r → q.2 = (!cont && r.length + s.out.length == 0)
  lost : s.lost = false

theorem after_length {v : Dev D} {b : Bus D} {tx d rx : Bytes} {cont : Bool} {b' : Bus D}
    (h : After v b tx cont d rx b') : rx.length = d.length := by
  rcases h with ⟨rfl, rfl, _⟩ | ⟨_, e, h, _⟩
  · rfl
  · exact exch_length h

theorem inv_init (v : Dev D) (b : Bus D) (tx : Bytes) (cont : Bool) : Inv v b tx cont (dspiInit b tx) :=
  ⟨⟨[], rfl, .inl ⟨rfl, rfl, rfl⟩⟩, rfl, by simp [dspiInit], by simp [dspiInit], by simp [dspiInit],
    by intro a q r h; simp [dspiInit] at h, rfl⟩

theorem inv_push {v : Dev D} {b : Bus D} {tx : Bytes} {cont : Bool} {s : Sys D} (h : Inv v b tx cont s)
    (h1 : 0 < s.txc) (h2 : s.rxc - s.txc < DEPTH) : Inv v b tx cont (push cont s) := by
  obtain ⟨⟨d, hs, ha⟩, ho, hi, hf, hb, hm, hl⟩ := h
  cases hx : s.out with
  | nil => rw [hx] at ho; simp at ho; omega
  | cons x r =>
    rw [hx] at ho hs
    simp only [List.length_cons] at ho
    refine ⟨⟨d, ?_, ha⟩, ?_, hi, ?_, ?_, ?_, hl⟩
    · unfold push
      simp [hx, hs]
    · simp [push, hx]; omega
    · simp [push]; omega
    · simp [push]; omega
    · intro a q t he
      simp only [push, hx, List.headD_cons] at he
      simp only [push, hx, List.drop_succ_cons, List.drop_zero]
      rcases List.eq_nil_or_concat t with rfl | ⟨t', z, rfl⟩
      · have := List.append_inj' he rfl
        have h3 := this.2
        simp only [List.cons.injEq, and_true] at h3
        rw [← h3]
        simp only [List.length_nil, Nat.zero_add]
        rw [show s.txc - 1 = r.length by omega]
      · rw [List.concat_eq_append, ← List.cons_append, ← List.append_assoc] at he
        have := List.append_inj' he rfl
        have h3 := hm a q t' this.1
        rw [h3, hx, List.length_cons, List.concat_eq_append, List.length_append, List.length_singleton,
          show t'.length + (r.length + 1) = t'.length + 1 + r.length by omega]

theorem inv_pop {v : Dev D} {b : Bus D} {tx : Bytes} {cont : Bool} {s : Sys D} (h : Inv v b tx cont s)
    (h1 : 0 < s.rxc) (h2 : s.rxq ≠ []) : Inv v b tx cont (pop s) := by
  obtain ⟨⟨d, hs, ha⟩, ho, hi, hf, hb, hm, hl⟩ := h
  cases hx : s.rxq with
  | nil => exact absurd hx h2
  | cons x r =>
    rw [hx] at ha hf hb
    simp only [List.length_cons] at hf hb
    refine ⟨⟨d, hs, ?_⟩, ho, ?_, ?_, ?_, hm, hl⟩
    · simpa [pop, hx] using ha
    · simp [pop]; omega
    · simp [pop, hx]; omega
    · simp [pop, hx]; omega

theorem inv_shift {v : Dev D} {b : Bus D} {tx : Bytes} {cont : Bool} {s : Sys D} (h : Inv v b tx cont s)
    (h1 : s.txq ≠ []) : Inv v b tx cont (shift v s) := by
  obtain ⟨⟨d, hs, ha⟩, ho, hi, hf, hb, hm, hl⟩ := h
  cases hx : s.txq with
  | nil => exact absurd hx h1
  | cons q r =>
    obtain ⟨x, last⟩ := q
    have hlast : last = (!cont && r.length + s.out.length == 0) := hm [] (x, last) r hx
    rw [hx] at hs hf hb
    simp only [List.length_cons] at hf hb
    have hrx : s.rxq.length < DEPTH := by omega
    have e : shift v s = { s with
        txq := r
        bus := if last then csOff v ⟨(v.byte (csOn v s.bus).dev x).1, true⟩
          else ⟨(v.byte (csOn v s.bus).dev x).1, true⟩
        rxq := s.rxq ++ [(v.byte (csOn v s.bus).dev x).2] } := by
      unfold shift
      rw [hx]
      dsimp only
      rw [if_pos hrx, show decide (DEPTH ≤ s.rxq.length) = false by simp; omega, Bool.or_false]
    rw [e]
    have hlen : tx.length = d.length + 1 + r.length + s.out.length := by
      rw [hs]; simp; omega
    refine ⟨⟨d ++ [x], ?_, ?_⟩, ho, hi, ?_, ?_, ?_, hl⟩
    · simp [hs]
    · refine .inr ⟨by simp, (v.byte (csOn v s.bus).dev x).1, ?_, ?_⟩
      · dsimp only
        rw [← List.append_assoc]
        have one : ∀ z : D, Exch v z [x] [(v.byte z x).2] (v.byte z x).1 := fun z => .cons (.nil _)
        rcases ha with ⟨rfl, hr, hbus⟩ | ⟨hd, z, hz, hbus⟩
        · rw [hr, hbus, csOn_dev]
          exact one _
        · rw [if_neg (by omega)] at hbus
          rw [hbus]
          exact exch_append hz (one z)
      · dsimp only
        rw [List.length_append, List.length_singleton, hlen]
        by_cases hc : cont = false ∧ r.length + s.out.length = 0
        · have : last = true := by rw [hlast, hc.1, hc.2]; rfl
          rw [if_pos this, if_pos ⟨hc.1, by omega⟩]
          rfl
        · have : ¬ last = true := by
            rw [hlast]
            intro h
            simp only [Bool.and_eq_true, Bool.not_eq_true', beq_iff_eq] at h
            exact hc h
          rw [if_neg this, if_neg (by intro h; exact hc ⟨h.1, by omega⟩)]
    · simp only [List.length_append, List.length_singleton]; omega
    · simp only [List.length_append, List.length_singleton]; omega
    · intro a q t he
      exact hm ((x, last) :: a) q t (by rw [hx]; dsimp only at he; rw [he]; rfl)

theorem inv_step {v : Dev D} {b : Bus D} {tx : Bytes} {cont : Bool} {s t : Sys D}
    (h : Inv v b tx cont s) (h2 : Step v cont s t) : Inv v b tx cont t := by
  cases h2 with
  | push h1 h2 _ => exact inv_push h h1 h2
  | pop h1 h2 => exact inv_pop h h1 h2
  | shift h1 => exact inv_shift h h1

theorem inv_steps {v : Dev D} {b : Bus D} {tx : Bytes} {cont : Bool} {s t : Sys D} {n : Nat}
    (h : Inv v b tx cont s) (h2 : Steps v cont s n t) : Inv v b tx cont t := by
  induction h2 with
  | refl => exact h
  | tail _ h3 ih => exact inv_step ih h3

/-- **No byte is ever lost in the queues**, whatever the order of events. -/
theorem dspi_never_lost {v : Dev D} {b : Bus D} {tx : Bytes} {cont : Bool} {s : Sys D} {n : Nat}
    (h : Steps v cont (dspiInit b tx) n s) :
    s.lost = false ∧ s.txq.length ≤ DEPTH ∧ s.rxq.length ≤ DEPTH := by
  have := inv_steps (inv_init v b tx cont) h
  have hb := this.bound
  exact ⟨this.lost, by omega, by omega⟩

/-- What is left to do. -/
def todo (s : Sys D) : Nat := 3 * s.out.length + 2 * s.txq.length + s.rxq.length

theorem step_todo {v : Dev D} {b : Bus D} {tx : Bytes} {cont : Bool} {s t : Sys D}
    (h : Inv v b tx cont s) (h2 : Step v cont s t) : todo t + 1 ≤ todo s := by
  cases h2 with
  | push h1 h2 _ =>
    have := h.out
    simp only [todo, push, List.length_drop, List.length_append, List.length_singleton]
    omega
  | pop h1 h2 =>
    have := List.length_pos_iff.2 h2
    simp only [todo, pop, List.length_drop]
    omega
  | shift h1 =>
    have hb := h.bound
    cases hx : s.txq with
    | nil => exact absurd hx h1
    | cons q r =>
      rw [hx] at hb
      simp only [List.length_cons] at hb
      simp only [todo, shift, hx, List.length_cons]
      rw [if_pos (by omega)]
      simp only [List.length_append, List.length_singleton]
      omega

/-- **The transfer ends**: there are at most three steps per byte, and as long as not everything has
been received, another one is possible. -/
theorem dspi_ends {v : Dev D} {b : Bus D} {tx : Bytes} {cont : Bool} {s : Sys D} {n : Nat}
    (h : Steps v cont (dspiInit b tx) n s) :
    n ≤ 3 * tx.length ∧ (0 < s.rxc → ∃ t, Step v cont s t) := by
  constructor
  · have key : n + todo s ≤ todo (dspiInit b tx) := by
      induction h with
      | refl => simp
      | tail h3 h4 ih =>
        have := step_todo (inv_steps (inv_init v b tx cont) h3) h4
        omega
    have : todo (dspiInit b tx) = 3 * tx.length := by simp [todo, dspiInit]
    omega
  · intro h0
    have hi := inv_steps (inv_init v b tx cont) h
    by_cases h1 : s.rxq = []
    · by_cases h2 : s.txq = []
      · have := hi.flight
        rw [h1, h2] at this
        simp only [List.length_nil] at this
        exact ⟨_, .push s (by omega) (by unfold DEPTH; omega) (by rw [h2]; decide)⟩
      · exact ⟨_, .shift s h2⟩
    · exact ⟨_, .pop s h0 h1⟩

/-- **Whatever the order of events, the queues exchange the same bytes as the byte loop**, for every
transfer of at least one byte. -/
theorem dspi_driver {v : Dev D} {xfer : Xfer D}
    (h : ∀ b tx cont, DspiOutcome v b tx cont (xfer b tx cont)) : Driver v xfer := by
  intro b tx cont hne
  have hx := h b tx cont
  have hl : tx.length ≠ 0 := by simpa using hne
  unfold DspiOutcome at hx
  rw [if_neg hl] at hx
  obtain ⟨n, s, h1, h2, h3⟩ := hx
  obtain ⟨⟨d, hs, ha⟩, ho, hi, hf, _⟩ := inv_steps (inv_init v b tx cont) h1
  rw [h2] at hf
  have e1 : s.txq = [] := List.eq_nil_of_length_eq_zero (by omega)
  have e2 : s.rxq = [] := List.eq_nil_of_length_eq_zero (by omega)
  have e3 : s.out = [] := List.eq_nil_of_length_eq_zero (by omega)
  rw [e1, e3] at hs
  simp only [List.map_nil, List.append_nil] at hs
  subst hs
  rw [e2, List.append_nil] at ha
  rw [h3]
  rcases ha with ⟨h4, _⟩ | ⟨_, e, h5, h6⟩
  · exact absurd h4 hne
  · refine ⟨rfl, e, h5, ?_⟩
    dsimp only
    rw [h6]
    cases cont <;> simp

/-- There is such a transfer, whatever is to be sent. -/
theorem dspi_exists (v : Dev D) (b : Bus D) (tx : Bytes) (cont : Bool) :
    ∃ x, DspiOutcome v b tx cont x := by
  by_cases hl : tx.length = 0
  · exact ⟨_, by unfold DspiOutcome; rw [if_pos hl]⟩
  · have key : ∀ m n s, Steps v cont (dspiInit b tx) n s → todo s ≤ m →
        ∃ n s, Steps v cont (dspiInit b tx) n s ∧ s.rxc = 0 := by
      intro m
      induction m with
      | zero =>
        intro n s h h0
        by_cases h1 : s.rxc = 0
        · exact ⟨n, s, h, h1⟩
        · obtain ⟨t, ht⟩ := (dspi_ends h).2 (by omega)
          have := step_todo (inv_steps (inv_init v b tx cont) h) ht
          omega
      | succ m ih =>
        intro n s h h0
        by_cases h1 : s.rxc = 0
        · exact ⟨n, s, h, h1⟩
        · obtain ⟨t, ht⟩ := (dspi_ends h).2 (by omega)
          have := step_todo (inv_steps (inv_init v b tx cont) h) ht
          exact ih (n + 1) t (.tail h ht) (by omega)
    obtain ⟨n, s, h1, h2⟩ := key _ 0 _ (.refl _) (Nat.le_refl _)
    exact ⟨_, by unfold DspiOutcome; rw [if_neg hl]; exact ⟨n, s, h1, h2, rfl⟩⟩

/-- **On the LS1028A an empty transfer does nothing**: it does not release the device. -/
theorem dspi_keeps {v : Dev D} {xfer : Xfer D}
    (h : ∀ b tx cont, DspiOutcome v b tx cont (xfer b tx cont)) (b : Bus D) (cont : Bool) :
    xfer b [] cont = (0, b, []) := by
  have := h b [] cont
  unfold DspiOutcome at this
  rwa [if_pos (show ([] : Bytes).length = 0 from rfl)] at this

/-! ## Wait states -/

theorem good_eq {v : Dev D} {b : Bus D} {tx rx : Bytes} {cont : Bool} {d : D} {x : Int × Bus D × Bytes}
    (h : Good v b tx cont x) (h2 : Exch v (if b.cs then b.dev else v.sel b.dev) tx rx d) :
    x = (0, if cont then ⟨d, true⟩ else ⟨v.desel d, false⟩, rx) := by
  obtain ⟨h1, e, h3, h4⟩ := h
  obtain ⟨h5, h6⟩ := exch_unique h3 h2
  subst h6
  rw [← h1, ← h4, ← h5]

/-- A TPM that will be ready after `n` more bytes. -/
def pollState (h : Bytes) (n : Nat) : Phase := if n = 0 then .data h 0 else .wait h n

/-- Its last answer. -/
def ready (n : Nat) : Byte := if n = 0 then 1 else 0

variable {C : Type} {k : Core C}

theorem tis_poll (h : Bytes) (n : Nat) (c : C) (x : Byte) :
    tisByte k (pollState h (n + 1), c) x = ((pollState h n, c), ready n) := by
  unfold pollState
  rw [if_neg (by omega)]
  unfold tisByte ready
  dsimp only
  by_cases h0 : n = 0
  · rw [if_pos (by omega), if_pos h0, if_pos h0]
  · rw [if_neg (by omega), if_neg h0, if_neg h0]
    rfl

theorem tis_header (c : C) (h : Bytes) (hl : h.length = 4) :
    Exch (tis k) (.hdr [], c) h [0, 0, 0, ready (k.waits c h)] (pollState h (k.waits c h), c) := by
  match h, hl with
  | [a, b, e, f], _ =>
    have s1 : (tis k).byte (.hdr [], c) a = ((.hdr [a], c), 0) := rfl
    have s2 : (tis k).byte (.hdr [a], c) b = ((.hdr [a, b], c), 0) := rfl
    have s3 : (tis k).byte (.hdr [a, b], c) e = ((.hdr [a, b, e], c), 0) := rfl
    have s4 : (tis k).byte (.hdr [a, b, e], c) f =
        ((pollState [a, b, e, f] (k.waits c [a, b, e, f]), c), ready (k.waits c [a, b, e, f])) := by
      show tisByte k (.hdr [a, b, e], c) f = _
      unfold tisByte pollState ready
      dsimp only [List.length_cons, List.length_nil, List.cons_append, List.nil_append]
      rw [if_neg (by omega)]
      split <;> rfl
    have t4 := Exch.cons (v := tis k) (d := (.hdr [a, b, e], c)) (x := f) (.nil _)
    rw [s4] at t4
    have t3 := Exch.cons (v := tis k) (d := (.hdr [a, b], c)) (x := e) (by rw [s3]; exact t4)
    rw [s3] at t3
    have t2 := Exch.cons (v := tis k) (d := (.hdr [a], c)) (x := b) (by rw [s2]; exact t3)
    rw [s2] at t2
    have t1 := Exch.cons (v := tis k) (d := (.hdr [], c)) (x := a) (by rw [s1]; exact t2)
    rw [s1] at t1
    exact t1

theorem poll_xfer {xfer : Xfer (Phase × C)} (hx : Driver (tis k) xfer) (h : Bytes) (n : Nat) (c : C)
    (x : Byte) : xfer ⟨(pollState h (n + 1), c), true⟩ [x] true =
      (0, ⟨(pollState h n, c), true⟩, [ready n]) := by
  have t := Exch.cons (v := tis k) (d := (pollState h (n + 1), c)) (x := x) (.nil _)
  have e : (tis k).byte (pollState h (n + 1), c) x = ((pollState h n, c), ready n) := tis_poll (k := k) h n c x
  rw [e] at t
  exact good_eq (hx _ [x] true (by simp)) t

theorem ready_and (n : Nat) : (ready n &&& 1 = 0) ↔ n ≠ 0 := by
  unfold ready
  split
  · simp_all
  · simp_all

theorem waitLoop_ready {xfer : Xfer (Phase × C)} (hx : Driver (tis k) xfer) (p : Byte) (h : Bytes) (c : C)
    (n t : Nat) (ht : n + 2 ≤ t) :
    waitLoop xfer p t (ready n) ⟨(pollState h n, c), true⟩ = (t - n - 1, 0, ⟨(.data h 0, c), true⟩) := by
  induction n generalizing t with
  | zero =>
    match t, ht with
    | t + 1, _ =>
      unfold waitLoop
      rw [if_neg (by rw [ready_and]; simp)]
      rfl
  | succ n ih =>
    match t, ht with
    | t + 1, ht =>
      unfold waitLoop
      rw [if_pos ⟨by omega, (ready_and _).2 (by omega)⟩, poll_xfer hx]
      dsimp only
      rw [if_pos rfl]
      show waitLoop xfer p t (ready n) _ = _
      rw [ih t (by omega)]
      rw [show t + 1 - (n + 1) - 1 = t - n - 1 by omega]

theorem waitLoop_late {xfer : Xfer (Phase × C)} (hx : Driver (tis k) xfer) (p : Byte) (h : Bytes) (c : C)
    (n t : Nat) (ht : t ≤ n + 1) :
    waitLoop xfer p t (ready n) ⟨(pollState h n, c), true⟩ =
      (0, 0, ⟨(pollState h (n - (t - 1)), c), true⟩) := by
  induction t generalizing n with
  | zero => rfl
  | succ t ih =>
    unfold waitLoop
    by_cases h0 : t = 0
    · rw [if_neg (by omega), h0]
      rfl
    · obtain ⟨n, rfl⟩ : ∃ n', n = n' + 1 := ⟨n - 1, by omega⟩
      · rw [if_pos ⟨by omega, (ready_and _).2 (by omega)⟩, poll_xfer hx]
        dsimp only
        rw [if_pos rfl]
        show waitLoop xfer p t (ready n) _ = _
        rw [ih n (by omega)]
        rw [show n - (t - 1) = n + 1 - (t + 1 - 1) by omega]

/-! ## Data -/

theorem tis_read (h : Bytes) (hr : hdrRead h = true) (c : C) (tx : Bytes) (i : Nat)
    (hl : i + tx.length ≤ hdrSize h) :
    Exch (tis k) (.data h i, c) tx (readN k (hdrAddr h) tx.length i c).2
      (.data h (i + tx.length), (readN k (hdrAddr h) tx.length i c).1) := by
  induction tx generalizing i c with
  | nil => exact .nil _
  | cons x r ih =>
    rw [List.length_cons] at hl
    have e : (tis k).byte (.data h i, c) x =
        ((.data h (i + 1), (k.rd c (hdrAddr h) i).1), (k.rd c (hdrAddr h) i).2) := by
      show tisByte k (.data h i, c) x = _
      unfold tisByte
      dsimp only
      rw [if_neg (by omega), if_pos hr]
    have := ih (k.rd c (hdrAddr h) i).1 (i + 1) (by omega)
    have t := Exch.cons (v := tis k) (d := (.data h i, c)) (x := x) (by rw [e]; exact this)
    rw [e] at t
    rw [List.length_cons, show i + (r.length + 1) = i + 1 + r.length by omega]
    exact t

theorem tis_write (h : Bytes) (hr : hdrRead h = false) (c : C) (tx : Bytes) (i : Nat)
    (hl : i + tx.length ≤ hdrSize h) :
    Exch (tis k) (.data h i, c) tx (List.replicate tx.length 0)
      (.data h (i + tx.length), writeN k (hdrAddr h) tx i c) := by
  induction tx generalizing i c with
  | nil => exact .nil _
  | cons x r ih =>
    rw [List.length_cons] at hl
    have e : (tis k).byte (.data h i, c) x = ((.data h (i + 1), k.wr c (hdrAddr h) i x), 0) := by
      show tisByte k (.data h i, c) x = _
      unfold tisByte
      dsimp only
      rw [if_neg (by omega), if_neg (by simp [hr])]
    have := ih (k.wr c (hdrAddr h) i x) (i + 1) (by omega)
    have t := Exch.cons (v := tis k) (d := (.data h i, c)) (x := x) (by rw [e]; exact this)
    rw [e] at t
    rw [List.length_cons, show i + (r.length + 1) = i + 1 + r.length by omega]
    exact t

/-- What an access does once the TPM is ready. -/
def access (k : Core C) (h data : Bytes) (c : C) : C × Bytes :=
  if hdrRead h then readN k (hdrAddr h) data.length 0 c
  else (writeN k (hdrAddr h) data 0 c, List.replicate data.length 0)

theorem tis_access (h data : Bytes) (c : C) (hl : data.length ≤ hdrSize h) :
    Exch (tis k) (.data h 0, c) data (access k h data c).2
      (.data h data.length, (access k h data c).1) := by
  unfold access
  by_cases hr : hdrRead h = true
  · rw [if_pos hr]
    have := tis_read (k := k) h hr c data 0 (by omega)
    rwa [Nat.zero_add] at this
  · rw [if_neg hr]
    have := tis_write (k := k) h (by simpa using hr) c data 0 (by omega)
    rwa [Nat.zero_add] at this

theorem tx_split (h data : Bytes) (hl : h.length = 4) :
    (h ++ data).take 4 = h ∧ (h ++ data).drop 4 = data :=
  ⟨List.take_left' hl, List.drop_left' hl⟩

theorem ioWait_header {xfer : Xfer (Phase × C)} (hx : Driver (tis k) xfer) (h : Bytes) (hl : h.length = 4)
    (p : Phase) (c : C) : xfer ⟨(p, c), false⟩ h true =
      (0, ⟨(pollState h (k.waits c h), c), true⟩, [0, 0, 0, ready (k.waits c h)]) :=
  good_eq (hx _ h true (by intro h0; rw [h0] at hl; cases hl)) (tis_header c h hl)

/-- **An access with wait states**: if the TPM is ready within the limit, the access takes place
exactly once and the TPM is released. -/
theorem ioWait_ok {xfer : Xfer (Phase × C)} (hx : Driver (tis k) xfer) (h data : Bytes)
    (hl : h.length = 4) (p : Phase) (c : C) (R : Nat) (hw : k.waits c h + 2 ≤ R)
    (hd : data ≠ []) (hs : data.length ≤ hdrSize h) :
    ioWait xfer R (h ++ data) ⟨(p, c), false⟩ =
      (0, ⟨(.idle, (access k h data c).1), false⟩, some (access k h data c).2) := by
  obtain ⟨e1, e2⟩ := tx_split h data hl
  unfold ioWait
  rw [e1, e2, ioWait_header hx h hl]
  dsimp only
  rw [if_pos rfl]
  rw [show ([0, 0, 0, ready (k.waits c h)] : Bytes).getD 3 0 = ready (k.waits c h) from rfl,
    waitLoop_ready hx _ h c _ R hw]
  dsimp only
  have hne : (if (0 : Int) = 0 ∧ R - k.waits c h - 1 = 0 then FAILURE else 0) = 0 :=
    if_neg (by omega)
  rw [hne, if_pos rfl, good_eq (hx ⟨(.data h 0, c), true⟩ data false hd) (tis_access h data c hs)]
  rfl

/-- **Too many wait states**: the access fails, nothing has been read or written. `m` is the number of
wait states left. The bus is what the empty transfer makes of it. -/
theorem ioWait_late {xfer : Xfer (Phase × C)} (hx : Driver (tis k) xfer) (h data : Bytes)
    (hl : h.length = 4) (p : Phase) (c : C) (R : Nat) (hw : R ≤ k.waits c h + 1) :
    ioWait xfer R (h ++ data) ⟨(p, c), false⟩ =
      (FAILURE, (xfer ⟨(pollState h (k.waits c h - (R - 1)), c), true⟩ [] false).2.1, none) := by
  obtain ⟨e1, e2⟩ := tx_split h data hl
  unfold ioWait
  rw [e1, e2, ioWait_header hx h hl]
  dsimp only
  rw [if_pos rfl]
  rw [show ([0, 0, 0, ready (k.waits c h)] : Bytes).getD 3 0 = ready (k.waits c h) from rfl,
    waitLoop_late hx _ h c _ R hw]
  dsimp only
  have hne : (if (0 : Int) = 0 ∧ (0 : Nat) = 0 then FAILURE else 0) = FAILURE := if_pos ⟨rfl, rfl⟩
  rw [hne, if_neg (by decide)]

/-! ## TPM2_IoCb -/

theorem sizeByte_read (n : Nat) (h1 : 1 ≤ n) (h2 : n ≤ 64) : (sizeByte true n).toNat = 127 + n := by
  have h : ∀ n : Fin 65, 1 ≤ n.val → (sizeByte true n.val).toNat = 127 + n.val := by decide
  exact h ⟨n, by omega⟩ h1

theorem sizeByte_write (n : Nat) (h1 : 1 ≤ n) (h2 : n ≤ 64) : (sizeByte false n).toNat = n - 1 := by
  have h : ∀ n : Fin 65, 1 ≤ n.val → (sizeByte false n.val).toNat = n.val - 1 := by decide
  exact h ⟨n, by omega⟩ h1

/-- **The header is the one of the standard**: direction, size and 24 bits of the address. -/
theorem header_spec (isRead : Bool) (addr n : Nat) (h1 : 1 ≤ n) (h2 : n ≤ 64) :
    (header isRead addr n).length = 4 ∧ hdrRead (header isRead addr n) = isRead ∧
    hdrSize (header isRead addr n) = n ∧ hdrAddr (header isRead addr n) = addr % 16777216 := by
  refine ⟨rfl, ?_, ?_, ?_⟩
  · show ((sizeByte isRead n).toNat / 128 == 1) = isRead
    cases isRead
    · rw [sizeByte_write n h1 h2, Nat.div_eq_of_lt (by omega)]
      rfl
    · rw [sizeByte_read n h1 h2, beq_iff_eq]
      omega
  · show (sizeByte isRead n).toNat % 64 + 1 = n
    cases isRead
    · rw [sizeByte_write n h1 h2]; omega
    · rw [sizeByte_read n h1 h2]; omega
  · show (BitVec.ofNat 8 (addr / 65536)).toNat * 65536 + (BitVec.ofNat 8 (addr / 256)).toNat * 256 +
      (BitVec.ofNat 8 addr).toNat = _
    simp only [BitVec.toNat_ofNat, Nat.reducePow]
    omega

/-- **Reading**: the bytes of the register arrive in the buffer. -/
theorem io_read {xfer : Xfer (Phase × C)} (hx : Driver (tis k) xfer) (R addr : Nat) (buf : Bytes)
    (h1 : buf ≠ []) (h2 : buf.length ≤ FRAME) (p : Phase) (c : C)
    (hw : k.waits c (header true addr buf.length) + 2 ≤ R) :
    ioAdv xfer true R true addr buf ⟨(p, c), false⟩ =
      some (0, ⟨(.idle, (readN k (addr % 16777216) buf.length 0 c).1), false⟩,
        (readN k (addr % 16777216) buf.length 0 c).2) := by
  have h3 : 1 ≤ buf.length := List.length_pos_iff.2 h1
  obtain ⟨s1, s2, s3, s4⟩ := header_spec true addr buf.length h3 h2
  unfold ioAdv
  rw [if_neg (by omega)]
  dsimp only
  rw [if_pos rfl, if_pos rfl, ioWait_ok hx _ _ s1 p c R hw
    (by
      intro h
      have := congrArg List.length h
      rw [List.length_replicate] at this
      simp only [List.length_nil] at this
      omega) (by rw [s3]; simp)]
  unfold access
  rw [if_pos s2, s4, List.length_replicate]
  rfl

/-- **Writing**: the bytes of the buffer arrive in the register, in order. -/
theorem io_write {xfer : Xfer (Phase × C)} (hx : Driver (tis k) xfer) (R addr : Nat) (buf : Bytes)
    (h1 : buf ≠ []) (h2 : buf.length ≤ FRAME) (p : Phase) (c : C)
    (hw : k.waits c (header false addr buf.length) + 2 ≤ R) :
    ioAdv xfer true R false addr buf ⟨(p, c), false⟩ =
      some (0, ⟨(.idle, writeN k (addr % 16777216) buf 0 c), false⟩, buf) := by
  have h3 : 1 ≤ buf.length := List.length_pos_iff.2 h1
  obtain ⟨s1, s2, s3, s4⟩ := header_spec false addr buf.length h3 h2
  unfold ioAdv
  rw [if_neg (by omega)]
  dsimp only
  rw [if_pos rfl, if_neg (by decide), if_neg (by decide),
    ioWait_ok hx _ _ s1 p c R hw h1 (by rw [s3]; exact Nat.le_refl _)]
  unfold access
  rw [if_neg (by rw [s2]; decide), s4]

/-- **Too many wait states**: failure, nothing read or written, buffer unchanged, and the TPM is
released by a driver whose empty transfer does so. The limit includes the case that the TPM gets ready
with the last poll. -/
theorem io_late {xfer : Xfer (Phase × C)} (hx : Driver (tis k) xfer) (hr : Releases (tis k) xfer)
    (R addr : Nat) (isRead : Bool) (buf : Bytes) (h2 : buf.length ≤ FRAME) (p : Phase) (c : C)
    (hw : R ≤ k.waits c (header isRead addr buf.length) + 1) :
    ioAdv xfer true R isRead addr buf ⟨(p, c), false⟩ = some (FAILURE, ⟨(.idle, c), false⟩, buf) := by
  unfold ioAdv
  rw [if_neg (by omega)]
  dsimp only
  rw [if_pos rfl, ioWait_late hx _ _ rfl p c R hw, hr]
  cases isRead <;> rfl

/-- **With a single try no access succeeds**, not even if the TPM is ready at once. -/
theorem io_single_try {xfer : Xfer (Phase × C)} (hx : Driver (tis k) xfer) (hr : Releases (tis k) xfer)
    (addr : Nat) (isRead : Bool) (buf : Bytes) (h2 : buf.length ≤ FRAME) (p : Phase) (c : C) :
    ioAdv xfer true 1 isRead addr buf ⟨(p, c), false⟩ = some (FAILURE, ⟨(.idle, c), false⟩, buf) :=
  io_late hx hr 1 addr isRead buf h2 p c (by omega)

/-- **On the LS1028A the TPM stays selected after a failure**, in the middle of the access. -/
theorem io_late_stuck {xfer : Xfer (Phase × C)}
    (hx : ∀ b tx cont, DspiOutcome (tis k) b tx cont (xfer b tx cont))
    (R addr : Nat) (isRead : Bool) (buf : Bytes) (h2 : buf.length ≤ FRAME) (p : Phase) (c : C)
    (hw : R ≤ k.waits c (header isRead addr buf.length) + 1) :
    ioAdv xfer true R isRead addr buf ⟨(p, c), false⟩ =
      some (FAILURE, ⟨(pollState (header isRead addr buf.length)
        (k.waits c (header isRead addr buf.length) - (R - 1)), c), true⟩, buf) := by
  unfold ioAdv
  rw [if_neg (by omega)]
  dsimp only
  rw [if_pos rfl, ioWait_late (dspi_driver hx) _ _ rfl p c R hw, dspi_keeps hx]
  cases isRead <;> rfl

/-- **The header of the next access is then taken as data**: it is written into the register of the
access that has failed. -/
theorem stuck_header_is_data {xfer : Xfer (Phase × C)} (hx : Driver (tis k) xfer) (h h' : Bytes)
    (hr : hdrRead h = false) (hs : 4 ≤ hdrSize h) (hl : h'.length = 4) (c : C) :
    (xfer ⟨(pollState h 0, c), true⟩ h' true).2.1 =
      ⟨(.data h 4, writeN k (hdrAddr h) h' 0 c), true⟩ := by
  have := tis_write (k := k) h hr c h' 0 (by omega)
  rw [good_eq (hx ⟨(pollState h 0, c), true⟩ h' true (by intro h0; rw [h0] at hl; cases hl)) this]
  rw [hl]
  rfl

/-- **Every access releases the device**, whatever the device does, if the driver can release it. -/
theorem io_released {v : Dev D} {xfer : Xfer D} (hx : Driver v xfer) (hr : Releases v xfer) (wait : Bool)
    (R addr : Nat) (isRead : Bool) (buf : Bytes) (b : Bus D) {x : Int × Bus D × Bytes}
    (h : ioAdv xfer wait R isRead addr buf b = some x) : x.2.1.cs = false := by
  have gf : ∀ b tx, tx ≠ [] → (xfer b tx false).2.1.cs = false := by
    intro b tx ht
    obtain ⟨_, d, _, h2⟩ := hx b tx false ht
    rw [h2]; rfl
  have gt : ∀ b tx, tx ≠ [] → (xfer b tx true).2.1.cs = true := by
    intro b tx ht
    obtain ⟨_, d, _, h2⟩ := hx b tx true ht
    rw [h2]; rfl
  have gr : ∀ b, b.cs = true → (xfer b [] false).2.1.cs = false := by
    rintro ⟨d, cs⟩ rfl
    rw [hr]
  have gw : ∀ p t r3 b, b.cs = true → (waitLoop xfer p t r3 b).2.2.cs = true := by
    intro p t
    induction t with
    | zero => intro r3 b hb; exact hb
    | succ t ih =>
      intro r3 b hb
      unfold waitLoop
      split
      · dsimp only
        split
        · exact ih _ _ (gt _ _ (by simp))
        · exact gt _ _ (by simp)
      · exact hb
  unfold ioAdv at h
  split at h
  · cases h
  · cases h
    dsimp only
    cases wait
    · rw [if_neg (by decide)]
      exact gf _ _ (by simp [header])
    · rw [if_pos rfl]
      unfold ioWait
      dsimp only
      have h4 : ∀ r, (header isRead addr buf.length ++ r).take 4 ≠ [] := by
        intro r; simp [header]
      have e : ∀ (q : Int × Bus D × Bytes) (p : Byte), q.2.1.cs = true →
          (if q.1 = 0 then waitLoop xfer p R (q.2.2.getD 3 0) q.2.1 else (R, q.1, q.2.1)).2.2.cs = true := by
        intro q p hq
        split
        · exact gw _ _ _ _ hq
        · exact hq
      generalize hw : (if (xfer b _ true).1 = 0 then _ else _ : Nat × Int × Bus D) = w
      have hc : w.2.2.cs = true := by
        rw [← hw]
        exact e _ _ (gt _ _ (h4 _))
      generalize (if w.2.1 = 0 ∧ w.1 = 0 then FAILURE else w.2.1) = ret
      split
      · show (xfer _ _ false).2.1.cs = false
        by_cases hn : (header isRead addr buf.length ++
            (if isRead = true then List.replicate buf.length 0 else buf)).drop 4 = []
        · rw [hn]; exact gr _ hc
        · exact gf _ _ hn
      · exact gr _ hc

/-- More than 64 bytes overrun the arrays. -/
theorem io_overrun (xfer : Xfer D) (wait isRead : Bool) (R addr : Nat) (buf : Bytes) (b : Bus D)
    (h : FRAME < buf.length) : ioAdv xfer wait R isRead addr buf b = none := by
  unfold ioAdv
  rw [if_pos h]

/-- An empty write would announce a read of 64 bytes. -/
theorem zero_write_is_read (addr : Nat) :
    hdrRead (header false addr 0) = true ∧ hdrSize (header false addr 0) = 64 := by
  have h : sizeByte false 0 = 0xFF#8 := by decide
  unfold hdrRead hdrSize header
  rw [h]
  simp

/-- A driver that has not been initialised (RX): failure, nothing happens at the bus. -/
theorem io_not_initialised (v : Dev D) (wait isRead : Bool) (R addr : Nat) (buf : Bytes) (b : Bus D)
    (h2 : buf.length ≤ FRAME) : ∃ r, ioAdv (simpleXfer v false) wait R isRead addr buf b = some (-1, b, r) := by
  unfold ioAdv
  rw [if_neg (by omega)]
  cases wait
  · exact ⟨_, rfl⟩
  · exact ⟨_, rfl⟩

/-! ## Without wait states -/

theorem tis_polls (h : Bytes) (c : C) (data : Bytes) (n : Nat) (hn : n ≤ data.length) :
    ∃ rx, Exch (tis k) (pollState h n, c) (data.take n) rx (.data h 0, c) := by
  induction n generalizing data with
  | zero => exact ⟨[], .nil _⟩
  | succ n ih =>
    cases data with
    | nil => simp at hn
    | cons x r =>
      obtain ⟨rx, h1⟩ := ih r (by simpa using hn)
      have e : (tis k).byte (pollState h (n + 1), c) x = ((pollState h n, c), ready n) := tis_poll (k := k) h n c x
      have t := Exch.cons (v := tis k) (d := (pollState h (n + 1), c)) (x := x) (by rw [e]; exact h1)
      exact ⟨_, t⟩

theorem tis_polls_short (h : Bytes) (c : C) (data : Bytes) (n : Nat) (hn : data.length ≤ n) :
    ∃ rx, Exch (tis k) (pollState h n, c) data rx (pollState h (n - data.length), c) := by
  induction data generalizing n with
  | nil => exact ⟨[], .nil _⟩
  | cons x r ih =>
    match n, hn with
    | n + 1, hn =>
      obtain ⟨rx, h1⟩ := ih n (by simpa using hn)
      have e : (tis k).byte (pollState h (n + 1), c) x = ((pollState h n, c), ready n) := tis_poll (k := k) h n c x
      have t := Exch.cons (v := tis k) (d := (pollState h (n + 1), c)) (x := x) (by rw [e]; exact h1)
      rw [List.length_cons, show n + 1 - (r.length + 1) = n - r.length by omega]
      exact ⟨_, t⟩

/-- **Without `WOLFTPM_CHECK_WAIT_STATE` wait states swallow the first bytes of a write**, and success
is reported. Without wait states the write is as it should be. -/
theorem io_nowait_write {xfer : Xfer (Phase × C)} (hx : Driver (tis k) xfer) (R addr : Nat) (buf : Bytes)
    (h1 : buf ≠ []) (h2 : buf.length ≤ FRAME) (p : Phase) (c : C) :
    ioAdv xfer false R false addr buf ⟨(p, c), false⟩ =
      some (0, ⟨(.idle, writeN k (addr % 16777216)
        (buf.drop (k.waits c (header false addr buf.length))) 0 c), false⟩, buf) := by
  have h3 : 1 ≤ buf.length := List.length_pos_iff.2 h1
  obtain ⟨s1, s2, s3, s4⟩ := header_spec false addr buf.length h3 h2
  unfold ioAdv
  rw [if_neg (by omega)]
  dsimp only
  rw [if_neg (by decide), if_neg (by decide), if_neg (by decide)]
  unfold ioPlain
  have hd := tis_header (k := k) c (header false addr buf.length) s1
  have key : ∃ rx ph, Exch (tis k) (.hdr [], c) (header false addr buf.length ++ buf) rx
      (ph, writeN k (addr % 16777216) (buf.drop (k.waits c (header false addr buf.length))) 0 c) := by
    by_cases hw : k.waits c (header false addr buf.length) ≤ buf.length
    · obtain ⟨rx, hp⟩ := tis_polls (k := k) (header false addr buf.length) c buf _ hw
      have ht := tis_write (k := k) (header false addr buf.length) s2 c
        (buf.drop (k.waits c (header false addr buf.length))) 0 (by rw [s3, List.length_drop]; omega)
      rw [s4] at ht
      have := exch_append hd (exch_append hp ht)
      rw [List.take_append_drop] at this
      exact ⟨_, _, this⟩
    · obtain ⟨rx, hp⟩ := tis_polls_short (k := k) (header false addr buf.length) c buf
        (k.waits c (header false addr buf.length)) (by omega)
      have := exch_append hd hp
      rw [List.drop_eq_nil_of_le (by omega)]
      exact ⟨_, _, this⟩
  obtain ⟨rx, ph, hk⟩ := key
  dsimp only
  rw [good_eq (hx ⟨(p, c), false⟩ _ false (by simp [header])) hk]
  rfl

/-- Without `WOLFTPM_CHECK_WAIT_STATE`, a TPM that needs no wait states is read correctly. -/
theorem io_nowait_read {xfer : Xfer (Phase × C)} (hx : Driver (tis k) xfer) (R addr : Nat) (buf : Bytes)
    (h1 : buf ≠ []) (h2 : buf.length ≤ FRAME) (p : Phase) (c : C)
    (hw : k.waits c (header true addr buf.length) = 0) :
    ioAdv xfer false R true addr buf ⟨(p, c), false⟩ =
      some (0, ⟨(.idle, (readN k (addr % 16777216) buf.length 0 c).1), false⟩,
        (readN k (addr % 16777216) buf.length 0 c).2) := by
  have h3 : 1 ≤ buf.length := List.length_pos_iff.2 h1
  obtain ⟨s1, s2, s3, s4⟩ := header_spec true addr buf.length h3 h2
  unfold ioAdv
  rw [if_neg (by omega)]
  dsimp only
  rw [if_neg (by decide), if_pos rfl, if_pos rfl]
  unfold ioPlain
  have hd := tis_header (k := k) c (header true addr buf.length) s1
  rw [hw] at hd
  have ht := tis_read (k := k) (header true addr buf.length) s2 c (List.replicate buf.length 0) 0
    (by rw [s3, List.length_replicate]; omega)
  rw [s4, List.length_replicate] at ht
  dsimp only
  rw [good_eq (hx ⟨(p, c), false⟩ _ false (by simp [header])) (exch_append hd ht)]
  rfl

/-- Without `WOLFTPM_ADV_IO` the same holds for the header and the data of the caller. -/
theorem ioBuf_ok {xfer : Xfer (Phase × C)} (hx : Driver (tis k) xfer) (h data : Bytes)
    (hl : h.length = 4) (p : Phase) (c : C) (R : Nat) (hw : k.waits c h + 2 ≤ R)
    (hd : data ≠ []) (hs : data.length ≤ hdrSize h) :
    ioBuf xfer true R (h ++ data) ⟨(p, c), false⟩ =
      some (0, ⟨(.idle, (access k h data c).1), false⟩, some (access k h data c).2) := by
  unfold ioBuf
  rw [if_neg (by rw [List.length_append]; omega), if_pos rfl, ioWait_ok hx h data hl p c R hw hd hs]

theorem ioBuf_late {xfer : Xfer (Phase × C)} (hx : Driver (tis k) xfer) (hr : Releases (tis k) xfer)
    (h data : Bytes) (hl : h.length = 4) (p : Phase) (c : C) (R : Nat) (hw : R ≤ k.waits c h + 1) :
    ioBuf xfer true R (h ++ data) ⟨(p, c), false⟩ = some (FAILURE, ⟨(.idle, c), false⟩, none) := by
  unfold ioBuf
  rw [if_neg (by rw [List.length_append]; omega), if_pos rfl, ioWait_late hx h data hl p c R hw, hr]
  rfl

/-- Fewer than four bytes make the size of the second transfer negative. -/
theorem ioBuf_short (xfer : Xfer D) (wait : Bool) (R : Nat) (tx : Bytes) (b : Bus D) :
    ioBuf xfer wait R tx b = none ↔ tx.length < 4 := by
  unfold ioBuf
  split <;> simp_all

/-! ## An example -/

namespace Demo

/-- A TPM with three wait states: reading gives the low byte of the address plus index, writing appends
address and byte to a log. -/
def core : Core (List (Nat × Byte)) where
  rd c a i := (c, BitVec.ofNat 8 (a + i))
  wr c a _ x := c ++ [(a, x)]
  waits _ _ := 3

def b0 : Bus (Phase × List (Nat × Byte)) := ⟨(.idle, []), false⟩

example : ioAdv (simpleXfer (tis core) true) true 50 true 0xD40018 [0, 0, 0, 0] b0 =
    some (0, ⟨(.idle, []), false⟩, [0x18, 0x19, 0x1A, 0x1B]) :=
  io_read (simpleXfer_driver _) 50 0xD40018 [0, 0, 0, 0] (by decide) (by decide) .idle [] (by decide)

example : ioAdv (espiXfer (tis core)) true 50 false 0xD40024 [1, 2, 3, 4, 5] b0 =
    some (0, ⟨(.idle, [(0xD40024, 1), (0xD40024, 2), (0xD40024, 3), (0xD40024, 4), (0xD40024, 5)]), false⟩,
      [1, 2, 3, 4, 5]) :=
  io_write (espiXfer_driver _) 50 0xD40024 [1, 2, 3, 4, 5] (by decide) (by decide) .idle [] (by decide)

/-- Three wait states with four tries: ready with the last poll, but a failure. -/
example : ioAdv (simpleXfer (tis core) true) true 4 false 0xD40024 [1, 2] b0 =
    some (FAILURE, ⟨(.idle, []), false⟩, [1, 2]) :=
  io_late (simpleXfer_driver _) (simpleXfer_releases _) 4 0xD40024 false [1, 2] (by decide) .idle []
    (by decide)

example : ioAdv (simpleXfer (tis core) true) false 50 false 0xD40024 [1, 2, 3, 4, 5] b0 =
    some (0, ⟨(.idle, [(0xD40024, 4), (0xD40024, 5)]), false⟩, [1, 2, 3, 4, 5]) :=
  io_nowait_write (simpleXfer_driver _) 50 0xD40024 [1, 2, 3, 4, 5] (by decide) (by decide) .idle []

example : ioBuf (espiXfer (tis core)) true 5 [0x81, 0xD4, 0, 0x18, 0, 0] b0 =
    some (0, ⟨(.idle, []), false⟩, some [0x18, 0x19]) :=
  ioBuf_ok (espiXfer_driver _) [0x81, 0xD4, 0, 0x18] [0, 0] rfl .idle [] 5 (by decide) (by decide) (by decide)

example : ioAdv (simpleXfer (tis { core with waits := fun _ _ => 0 }) true) false 0 true 0xD40018 [0, 0] b0 =
    some (0, ⟨(.idle, []), false⟩, [0x18, 0x19]) :=
  io_nowait_read (simpleXfer_driver _) 0 0xD40018 [0, 0] (by decide) (by decide) .idle [] rfl

/-- A transfer through the queues: after one step the first byte is in the queue. -/
example : Steps (tis core) false (dspiInit b0 [0x80, 0xD4]) 2
    (shift (tis core) (push false (dspiInit b0 [0x80, 0xD4]))) :=
  .tail (.tail (.refl _) (.push _ (by decide) (by decide) (by decide))) (.shift _ (by decide))

/-- On the LS1028A: the write fails, the next access begins with its header written to the FIFO of the
TPM. -/
example {xfer : Xfer (Phase × List (Nat × Byte))}
    (hx : ∀ b tx cont, DspiOutcome (tis core) b tx cont (xfer b tx cont)) :
    ioAdv xfer true 4 false 0xD40024 [1, 2, 3, 4] b0 =
      some (FAILURE, ⟨(pollState (header false 0xD40024 4) 0, []), true⟩, [1, 2, 3, 4]) ∧
    (xfer ⟨(pollState (header false 0xD40024 4) 0, []), true⟩ (header true 0xD40018 1) true).2.1 =
      ⟨(.data (header false 0xD40024 4) 4,
        [(0xD40024, 0x80), (0xD40024, 0xD4), (0xD40024, 0), (0xD40024, 0x18)]), true⟩ := by
  exact ⟨io_late_stuck hx 4 0xD40024 false [1, 2, 3, 4] (by decide) .idle [] (by decide),
    stuck_header_is_data (k := core) (dspi_driver hx) (header false 0xD40024 4) (header true 0xD40018 1)
      (by decide) (by decide) rfl []⟩

/-- There are such transfers. -/
example : ∃ xfer : Xfer (Phase × List (Nat × Byte)),
    ∀ b tx cont, DspiOutcome (tis core) b tx cont (xfer b tx cont) :=
  ⟨fun b tx cont => Classical.choose (dspi_exists (tis core) b tx cont),
    fun b tx cont => Classical.choose_spec (dspi_exists (tis core) b tx cont)⟩

end Demo

end Verif.Spi
