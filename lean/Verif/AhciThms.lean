import Verif.Ahci

/-!
# Commands to a disk: theorems

The bytes prepared for a transfer make controller and drive do what `Verif.Ata` says (`read_refines`, `write_refines`), a command is executed to its
end, and its result is seen (`exec_ends`) but not used. After an error the port is not restarted: the next command never ends
(`hang_after_error`).
-/

namespace Verif

namespace Ahci

/-! ## Bytes -/

theorem wr_out {m : Mem} {a x : Nat} {l : List Byte} (h : x < a ∨ a + l.length ≤ x) : wr m a l x = m x := by
  unfold wr; rw [if_neg (by omega)]

theorem wr1_eq {m : Mem} {a x : Nat} {b : Byte} (h : x = a) : wr m a [b] x = b := by
  subst h; simp [wr]

theorem wr1_out {m : Mem} {a x : Nat} {b : Byte} (h : x < a ∨ a < x) : wr m a [b] x = m x := wr_out (by simp; omega)

theorem wr2_0 {m : Mem} {a x : Nat} {b c : Byte} (h : x = a) : wr m a [b, c] x = b := by
  subst h; simp [wr]

theorem wr2_1 {m : Mem} {a x : Nat} {b c : Byte} (h : x = a + 1) : wr m a [b, c] x = c := by
  subst h; simp [wr]

theorem wr2_out {m : Mem} {a x : Nat} {b c : Byte} (h : x < a ∨ a + 1 < x) : wr m a [b, c] x = m x := wr_out (by simp; omega)

theorem wr4_0 {m : Mem} {a x n : Nat} (h : x = a) : wr m a (bytes4 n) x = byt n := by
  subst h; simp [wr, bytes4]

theorem wr4_1 {m : Mem} {a x n : Nat} (h : x = a + 1) : wr m a (bytes4 n) x = byt (n / 256) := by
  subst h; simp [wr, bytes4]

theorem wr4_2 {m : Mem} {a x n : Nat} (h : x = a + 2) : wr m a (bytes4 n) x = byt (n / 65536) := by
  subst h; simp [wr, bytes4]

theorem wr4_3 {m : Mem} {a x n : Nat} (h : x = a + 3) : wr m a (bytes4 n) x = byt (n / 16777216) := by
  subst h; simp [wr, bytes4]

theorem wr4_out {m : Mem} {a x n : Nat} (h : x < a ∨ a + 3 < x) : wr m a (bytes4 n) x = m x := wr_out (by simp [bytes4]; omega)

theorem wrz_in {m : Mem} {a x n : Nat} (h : a ≤ x ∧ x < a + n) : wr m a (zeros n) x = 0 := by
  unfold wr zeros
  rw [if_pos (by simpa using h), List.getElem?_replicate]
  split <;> rfl

theorem wrz_out {m : Mem} {a x n : Nat} (h : x < a ∨ a + n ≤ x) : wr m a (zeros n) x = m x := wr_out (by simpa [zeros] using h)

theorem byt_toNat (n : Nat) : (byt n).toNat = n % 256 := by simp [byt]

/-- Header and table do not overlap. -/
def Apart (clb ctable slot : Nat) : Prop := clb + 32 * slot + 32 ≤ ctable ∨ ctable + 256 ≤ clb + 32 * slot

/-- The memory prepared for a transfer. -/
def prepared (m : Mem) (clb ctable slot buf sz : Nat) (w : Bool) (cmd start count : Nat) : Mem :=
  putFis (prepare m clb ctable slot buf sz w) clb slot cmd start count

theorem prepare_ctba (m : Mem) {clb ct slot buf sz : Nat} {w : Bool} (hap : Apart clb ct slot) (hct : ct < 4294967296) :
    le32 (prepare m clb ct slot buf sz w) (clb + 32 * slot + 8) = ct := by
  unfold Apart at hap
  unfold le32 prepare
  simp (disch := omega) only [wr1_eq, wr1_out, wr2_0, wr2_1, wr2_out, wr4_0, wr4_1, wr4_2, wr4_3, wr4_out, wrz_in, wrz_out, byt_toNat]
  omega


/-- What controller and drive find in the memory prepared for a transfer. -/
structure Found (M : Mem) (clb ct slot buf sz : Nat) (w : Bool) (cmd start count : Nat) : Prop where
  hdr : (M (clb + 32 * slot)).toNat = 5 + if w then 64 else 0
  prdtl : le16 M (clb + 32 * slot + 2) = 1
  ctba : le32 M (clb + 32 * slot + 8) = ct
  ctbau : le32 M (clb + 32 * slot + 12) = 0
  dba : le32 M (ct + 128) = buf
  dbau : le32 M (ct + 132) = 0
  dbc : le32 M (ct + 140) = (sz + 4194303) % 4194304
  typ : (M (ct + 0)).toNat = 0x27
  c : (M (ct + 1)).toNat = 0x80
  command : (M (ct + 2)).toNat = cmd % 256
  lba0 : (M (ct + 4)).toNat = start % 256
  lba1 : (M (ct + 5)).toNat = start / 256 % 256
  lba2 : (M (ct + 6)).toNat = start / 65536 % 256
  device : (M (ct + 7)).toNat = 0x40
  lba3 : (M (ct + 8)).toNat = start / 16777216 % 256
  lba4 : (M (ct + 9)).toNat = start / 4294967296 % 256
  lba5 : (M (ct + 10)).toNat = start / 1099511627776 % 256
  count0 : (M (ct + 12)).toNat = count % 256
  count1 : (M (ct + 13)).toNat = count / 256 % 256

theorem prepared_found (m : Mem) {clb ct slot buf sz : Nat} (w : Bool) (cmd start count : Nat) (hap : Apart clb ct slot) (hct : ct < 4294967296)
    (hb : buf < 4294967296) : Found (prepared m clb ct slot buf sz w cmd start count) clb ct slot buf sz w cmd start count := by
  have hc := prepare_ctba m (buf := buf) (sz := sz) (w := w) hap hct
  unfold Apart at hap
  have hs := Nat.mod_lt (sz + 4194303) (show 0 < 4194304 by decide)
  constructor <;> (try unfold le16) <;> (try unfold le32) <;> (unfold prepared putFis; rw [hc]; unfold prepare)
  all_goals
    simp (disch := omega) only [wr1_eq, wr1_out, wr2_0, wr2_1, wr2_out, wr4_0, wr4_1, wr4_2, wr4_3, wr4_out, wrz_in, wrz_out, byt_toNat]
  all_goals (try omega)
  all_goals (try rfl)
  cases w <;> rfl

/-- Nothing else changes. -/
theorem prepared_out (m : Mem) {clb ct slot buf sz x : Nat} (w : Bool) (cmd start count : Nat) (hap : Apart clb ct slot) (hct : ct < 4294967296)
    (h1 : x < clb + 32 * slot ∨ clb + 32 * slot + 32 ≤ x) (h2 : x < ct ∨ ct + 256 ≤ x) :
    prepared m clb ct slot buf sz w cmd start count x = m x := by
  have hc := prepare_ctba m (buf := buf) (sz := sz) (w := w) hap hct
  unfold prepared putFis
  rw [hc]
  unfold prepare
  simp (disch := omega) only [wr1_out, wr2_out, wr4_out, wrz_out]

theorem decode_read {M : Mem} {clb ct slot buf sz start count : Nat} {w : Bool} (f : Found M clb ct slot buf sz w READ_DMA_EX start count) :
    decode M ct = .read (start % 281474976710656) (cmdCount count 65536) := by
  have f7 := f.device
  unfold decode
  dsimp only
  simp only [f.typ, f.c, f.command, f.lba0, f.lba1, f.lba2, f.lba3, f.lba4, f.lba5, f7, f.count0, f.count1]
  rw [if_pos (by decide), if_pos (by decide)]
  congr 1
  · omega
  · unfold cmdCount
    rw [show (count % 256 + 256 * (count / 256 % 256)) = count % 65536 by omega, Nat.mod_mod]

theorem decode_write {M : Mem} {clb ct slot buf sz start count : Nat} {w : Bool} (f : Found M clb ct slot buf sz w WRITE_DMA start count) :
    decode M ct = .write (start % 16777216) (cmdCount count 256) := by
  have f7 := f.device
  unfold decode
  dsimp only
  simp only [f.typ, f.c, f.command, f.lba0, f.lba1, f.lba2, f.lba3, f.lba4, f.lba5, f7, f.count0, f.count1]
  rw [if_pos (by decide), if_neg (by decide), if_neg (by decide), if_neg (by decide), if_pos (by decide)]
  congr 1
  · omega
  · unfold cmdCount
    rw [Nat.mod_mod]

theorem dbc_len {count : Nat} (h : 0 < count) : (count * 512 + 4194303) % 4194304 % 4194304 + 1 = (count * 512 - 1) % 4194304 + 1 := by omega

/-- The command prepared for a read is executed as `Verif.Ata` says. -/
theorem read_refines (m : Mem) (a : Ata) {clb ct slot buf start count : Nat} (hap : Apart clb ct slot) (hct : ct < 4294967296) (hal : ct % 128 = 0)
    (hb : buf < 4294967296) (he : buf % 2 = 0) (hc : 0 < count) :
    let M := prepared m clb ct slot buf (count * 512) false READ_DMA_EX start count
    run M a clb slot =
      (readSectors a start count M buf, a, !anyBad a (start % 281474976710656) (cmdCount count 65536)) := by
  intro M
  have f : Found M clb ct slot buf (count * 512) false READ_DMA_EX start count := prepared_found m false _ start count hap hct hb
  clear_value M
  unfold run
  dsimp only
  rw [f.ctba, f.ctbau, show ct / 128 * 128 + 4294967296 * 0 = ct by omega, decode_read f, f.hdr, f.prdtl, f.dba, f.dbau, f.dbc,
    show buf / 2 * 2 + 4294967296 * 0 = buf by omega, dbc_len hc]
  rw [if_pos (by decide)]
  dsimp only
  rw [if_neg (by decide)]
  unfold readSectors
  cases hbad : anyBad a (start % 281474976710656) (cmdCount count 65536) with
  | true => simp
  | false =>
    simp only [dmaLen, Bool.false_eq_true, if_false, Bool.not_false]
    rfl

/-- The command prepared for a write is executed as `Verif.Ata` says: the sector number has 24 bits, the counter 8. -/
theorem write_refines (m : Mem) (a : Ata) {clb ct slot buf start count : Nat} (hap : Apart clb ct slot) (hct : ct < 4294967296) (hal : ct % 128 = 0)
    (hb : buf < 4294967296) (he : buf % 2 = 0) (hc : 0 < count) :
    let M := prepared m clb ct slot buf (count * 512) true WRITE_DMA start count
    run M a clb slot = (M, writeSectors a start count M buf, !anyBad a (start % 16777216) (cmdCount count 256)) := by
  intro M
  have f : Found M clb ct slot buf (count * 512) true WRITE_DMA start count := prepared_found m true _ start count hap hct hb
  clear_value M
  unfold run
  dsimp only
  rw [f.ctba, f.ctbau, show ct / 128 * 128 + 4294967296 * 0 = ct by omega, decode_write f, f.hdr, f.prdtl, f.dba, f.dbau, f.dbc,
    show buf / 2 * 2 + 4294967296 * 0 = buf by omega, dbc_len hc]
  rw [if_pos (by decide)]
  dsimp only
  rw [if_neg (by decide)]
  unfold writeSectors
  cases hbad : anyBad a (start % 16777216) (cmdCount count 256) with
  | true => simp
  | false =>
    simp only [dmaLen, Bool.false_eq_true, if_false, Bool.not_false]
    rfl


/-! ## Slots -/

theorem findFrom_some {used : Nat → Bool} {n i j : Nat} (h : findFrom used n i = some j) :
    used j = false ∧ i ≤ j ∧ j < i + n ∧ ∀ k, i ≤ k → k < j → used k = true := by
  induction n generalizing i with
  | zero => simp [findFrom] at h
  | succ n ih =>
    unfold findFrom at h
    cases hu : used i with
    | false =>
      rw [hu] at h
      simp at h
      subst h
      exact ⟨hu, Nat.le_refl _, by omega, fun k h1 h2 => by omega⟩
    | true =>
      rw [hu] at h
      obtain ⟨h1, h2, h3, h4⟩ := ih h
      refine ⟨h1, by omega, by omega, fun k hk hk2 => ?_⟩
      by_cases hik : k = i
      · rw [hik]; exact hu
      · exact h4 k (by omega) hk2

theorem findFrom_none {used : Nat → Bool} {n i : Nat} (h : findFrom used n i = none) : ∀ k, i ≤ k → k < i + n → used k = true := by
  induction n generalizing i with
  | zero => intro k h1 h2; omega
  | succ n ih =>
    unfold findFrom at h
    cases hu : used i with
    | false => rw [hu] at h; simp at h
    | true =>
      rw [hu] at h
      intro k h1 h2
      by_cases hik : k = i
      · rw [hik]; exact hu
      · exact ih h k (by omega) (by omega)

/-- The slot found is the first that is neither active nor issued. -/
theorem findSlot_first {sact ci : Nat → Bool} {j : Nat} (h : findSlot sact ci = some j) :
    j < 32 ∧ sact j = false ∧ ci j = false ∧ ∀ k, k < j → sact k = true ∨ ci k = true := by
  obtain ⟨h1, _, h3, h4⟩ := findFrom_some h
  simp at h1
  refine ⟨by omega, h1.1, h1.2, fun k hk => ?_⟩
  have := h4 k (by omega) hk
  simpa using this

/-- None is found only if all are in use. -/
theorem findSlot_full {sact ci : Nat → Bool} (h : findSlot sact ci = none) : ∀ k, k < 32 → sact k = true ∨ ci k = true := by
  intro k hk
  have := findFrom_none h k (by omega) (by omega)
  simpa using this

/-! ## Execution -/

/-- The port runs and has nothing to do. -/
structure Idle (s : Sys) : Prop where
  st : s.st = true
  halted : s.halted = false
  ci : s.ci = fun _ => false
  sact : s.sact = fun _ => false
  async : s.async = none

theorem firstSlot_none : firstSlot (fun _ => false) = none := by decide

theorem firstSlot_one {slot : Nat} (h : slot < 32) : firstSlot (setBit (fun _ => false) slot true) = some slot := by
  unfold firstSlot
  cases hf : findFrom (fun i => !setBit (fun _ => false) slot true i) 32 0 with
  | none =>
    have := findFrom_none hf slot (by omega) (by omega)
    simp [setBit] at this
  | some j =>
    have := (findFrom_some hf).1
    simp [setBit] at this
    rw [this]

theorem setBit_clear (slot : Nat) : setBit (setBit (fun _ => false) slot true) slot false = fun _ => false := by
  funext j
  unfold setBit
  split <;> rfl

/-- State after the only command has been executed. -/
def done (s : Sys) (slot : Nat) : Sys :=
  let r := run s.mem s.ata s.clb slot
  if r.2.2 then { s with mem := r.1, ata := r.2.1, ci := fun _ => false }
  else { s with mem := r.1, ata := r.2.1, tfes := true, halted := true }

/-- Exactly one command waits. -/
structure Pending (s : Sys) (slot : Nat) : Prop where
  lt : slot < 32
  st : s.st = true
  halted : s.halted = false
  tfes : s.tfes = false
  ci : s.ci = setBit (fun _ => false) slot true

theorem tick_pending {s : Sys} {slot : Nat} (h : Pending s slot) : tick s = done s slot := by
  unfold tick done
  rw [if_pos ⟨h.st, h.halted⟩, h.ci, firstSlot_one h.lt]
  dsimp only
  generalize run s.mem s.ata s.clb slot = r
  obtain ⟨m, a, ok⟩ := r
  cases ok
  · rfl
  · simp only [if_true, setBit_clear]

theorem tick_none {s : Sys} (h : s.ci = fun _ => false) : tick s = s := by
  unfold tick
  split
  · rw [h, firstSlot_none]
  · rfl

theorem tick_halted {s : Sys} (h : s.halted = true) : tick s = s := by
  unfold tick
  rw [if_neg (by rw [h]; simp)]

theorem step_halted {s : Sys} (sched : Nat → Bool) (k : Nat) (h : s.halted = true) : step sched k s = s := by
  unfold step
  rw [tick_halted h]
  split <;> rfl

theorem step_none {s : Sys} (sched : Nat → Bool) (k : Nat) (h : s.ci = fun _ => false) : step sched k s = s := by
  unfold step
  rw [tick_none h]
  split <;> rfl

/-- Result of a command that has been executed. -/
def result (s : Sys) (slot : Nat) : Int := if (run s.mem s.ata s.clb slot).2.2 then 0 else -1

theorem done_ok {s : Sys} {slot : Nat} (h : (run s.mem s.ata s.clb slot).2.2 = true) : (done s slot).ci = (fun _ => false) ∧ (done s slot).tfes = s.tfes := by
  unfold done
  dsimp only
  rw [if_pos h]
  exact ⟨rfl, rfl⟩

theorem done_bad {s : Sys} {slot : Nat} (h : (run s.mem s.ata s.clb slot).2.2 = false) :
    (done s slot).halted = true ∧ (done s slot).tfes = true ∧ (done s slot).ci = s.ci := by
  unfold done
  dsimp only
  rw [if_neg (by rw [h]; simp)]
  exact ⟨rfl, rfl, rfl⟩

/-- The result is seen in the round after the execution. -/
theorem poll_seen {s : Sys} {slot : Nat} (h : Pending s slot) (sched : Nat → Bool) (fuel k : Nat) :
    poll sched slot (fuel + 1) k (done s slot) = some (result s slot, done s slot) := by
  unfold poll result
  cases hr : (run s.mem s.ata s.clb slot).2.2 with
  | true =>
    rw [(done_ok hr).1]
    rfl
  | false =>
    obtain ⟨h1, h2, h3⟩ := done_bad hr
    rw [h3, h.ci]
    simp only [setBit, if_true]
    rw [step_halted sched k h1, h2]
    simp

theorem poll_ends (sched : Nat → Bool) (slot : Nat) : ∀ n k fuel s, Pending s slot → (∀ j, j < n → sched (k + j) = false) → sched (k + n) = true →
    n + 2 ≤ fuel → poll sched slot fuel k s = some (result s slot, done s slot) := by
  intro n
  induction n using Nat.strongRecOn with
  | _ n ih =>
    intro k fuel s hp hf ht hn
    obtain ⟨fuel, rfl⟩ : ∃ f, fuel = f + 1 := ⟨fuel - 1, by omega⟩
    obtain ⟨f2, rfl⟩ : ∃ f, fuel = f + 1 := ⟨fuel - 1, by omega⟩
    rw [poll]
    rw [if_pos (by rw [hp.ci]; simp [setBit])]
    dsimp only
    by_cases h0 : n = 0
    · subst h0
      have e : step sched k s = done s slot := by
        unfold step
        rw [show sched k = true by simpa using ht, tick_pending hp]
        rfl
      rw [e]
      cases hr : (run s.mem s.ata s.clb slot).2.2 with
      | false =>
        rw [(done_bad hr).2.1]
        simp [result, hr]
      | true =>
        rw [(done_ok hr).2, hp.tfes, step_none sched (k + 1) (done_ok hr).1]
        simp only [Bool.false_eq_true, if_false]
        exact poll_seen hp sched _ _
    · have e : step sched k s = s := by
        unfold step
        rw [show sched k = false by simpa using hf 0 (by omega)]
        rfl
      rw [e, hp.tfes]
      simp only [Bool.false_eq_true, if_false]
      by_cases h1 : n = 1
      · subst h1
        have e2 : step sched (k + 1) s = done s slot := by
          unfold step
          rw [show sched (k + 1) = true by simpa using ht, tick_pending hp]
          rfl
        rw [e2]
        exact poll_seen hp sched _ _
      · have e2 : step sched (k + 1) s = s := by
          unfold step
          rw [show sched (k + 1) = false by simpa using hf 1 (by omega)]
          rfl
        rw [e2]
        refine ih (n - 2) (by omega) (k + 2) (f2 + 1) s hp ?_ ?_ (by omega)
        · intro j hj
          have := hf (j + 2) (by omega)
          rw [show k + 2 + j = k + (j + 2) by omega]; exact this
        · rw [show k + 2 + (n - 2) = k + n by omega]; exact ht

theorem first_true (sched : Nat → Bool) (h : ∃ n, sched n = true) : ∃ n, sched n = true ∧ ∀ j, j < n → sched j = false := by
  obtain ⟨n, hn⟩ := h
  induction n using Nat.strongRecOn with
  | _ n ih =>
    by_cases h : ∃ j, j < n ∧ sched j = true
    · obtain ⟨j, h1, h2⟩ := h
      exact ih j h1 h2
    · refine ⟨n, hn, fun j hj => ?_⟩
      cases hs : sched j with
      | false => rfl
      | true => exact absurd ⟨j, hj, hs⟩ h

/-- A command to an idle port is executed exactly once, whenever the controller makes its step, and its result is seen. -/
theorem exec_ends {s : Sys} (hi : Idle s) {slot : Nat} (hs : slot < 32) (sched : Nat → Bool) (hf : ∃ n, sched n = true) :
    ∃ f, ∀ fuel, f ≤ fuel → exec sched fuel slot false s =
      some (result s slot, done { s with tfes := false, ci := setBit s.ci slot true } slot) := by
  obtain ⟨n, hn, hb⟩ := first_true sched hf
  refine ⟨n + 2, fun fuel hfu => ?_⟩
  unfold exec
  rw [if_neg (show ¬ s.async.isSome = true by rw [hi.async]; simp)]
  simp only [Bool.false_eq_true, if_false]
  obtain ⟨f', rfl⟩ : ∃ f, fuel = f + 1 := ⟨fuel - 1, by omega⟩
  rw [waitIdle]
  have hnb : busy { s with tfes := false } = false := by
    unfold busy
    dsimp only
    rw [hi.ci, firstSlot_none]
    simp
  rw [hnb]
  simp only [Bool.false_eq_true, if_false]
  refine poll_ends sched slot n 0 (f' + 1) _ ⟨hs, hi.st, hi.halted, rfl, ?_⟩ ?_ ?_ hfu
  · dsimp only
    rw [hi.ci]
  · intro j hj; rw [Nat.zero_add]; exact hb j hj
  · rw [Nat.zero_add]; exact hn

/-- **Finding.** After an error the controller waits for a restart of the port, which the driver never does: no later command ends. -/
theorem hang_after_error {s : Sys} (hh : s.halted = true) (ha : s.async = none) (slot : Nat) (sched : Nat → Bool) (fuel : Nat) :
    exec sched fuel slot false s = none := by
  unfold exec
  rw [if_neg (show ¬ s.async.isSome = true by rw [ha]; simp)]
  simp only [Bool.false_eq_true, if_false]
  cases fuel with
  | zero => rfl
  | succ fuel =>
    rw [waitIdle]
    have hnb : busy { s with tfes := false } = false := by
      unfold busy
      dsimp only
      rw [hh]
      simp
    rw [hnb]
    simp only [Bool.false_eq_true, if_false]
    have : ∀ f k (t : Sys), t.halted = true → t.tfes = false → t.ci slot = true → poll sched slot f k t = none := by
      intro f
      induction f with
      | zero => intro k t _ _ _; rfl
      | succ f ih =>
        intro k t h1 h2 h3
        rw [poll, if_pos h3]
        dsimp only
        rw [step_halted sched k h1, h2, step_halted sched (k + 1) h1]
        simp only [Bool.false_eq_true, if_false]
        exact ih _ t h1 h2 h3
    exact this _ _ _ hh rfl (by simp [setBit])


/-! ## Reads and writes -/

/-- Command list and table of the drive, as `sata_enable` allocates them (`Verif.AhciPort`). -/
structure Placed (s : Sys) : Prop where
  low : s.ctable < 4294967296
  align : s.ctable % 128 = 0
  apart : s.clb + 1024 ≤ s.ctable ∨ s.ctable + 256 ≤ s.clb

/-- A buffer that the driver may use: an even address below 4 GiB, apart from the driver's own memory. -/
structure Buffer (s : Sys) (buf len : Nat) : Prop where
  even : buf % 2 = 0
  low : buf < 4294967296
  list : buf + len ≤ s.clb ∨ s.clb + 1024 ≤ buf
  table : buf + len ≤ s.ctable ∨ s.ctable + 256 ≤ buf

theorem Placed.slot {s : Sys} (h : Placed s) {slot : Nat} (hs : slot < 32) : Apart s.clb s.ctable slot := by
  have := h.apart
  unfold Apart
  omega

theorem findSlot_idle {s : Sys} (hi : Idle s) : findSlot s.sact s.ci = some 0 := by
  rw [hi.ci, hi.sact]
  decide

/-- The driver's own memory. -/
def Own (s : Sys) (x : Nat) : Prop := (s.clb ≤ x ∧ x < s.clb + 1024) ∨ (s.ctable ≤ x ∧ x < s.ctable + 256)

/-- A read from an idle port, for all good sectors below 2^48 and up to 4 MiB: the buffer holds the sectors, the disk and all other memory are unchanged,
and the port is idle again. -/
theorem read_ok {s : Sys} (hi : Idle s) (hp : Placed s) {start count buf : Nat} (hb : Buffer s buf (count * 512)) (hc : 0 < count) (hc2 : count ≤ 8192)
    (hs : start < 281474976710656) (hg : anyBad s.ata start count = false) (sched : Nat → Bool) (hf : ∃ n, sched n = true) :
    ∃ s' f, (∀ fuel, f ≤ fuel → readSector sched fuel start count buf s = some (((count * 512 : Nat) : Int), s')) ∧
      (∀ i, i < count * 512 → s'.mem (buf + i) = s.ata.disk (start * 512 + i)) ∧
      (∀ x, ¬ Own s x → (x < buf ∨ buf + count * 512 ≤ x) → s'.mem x = s.mem x) ∧ s'.ata = s.ata ∧ Idle s' ∧ Placed s' := by
  obtain ⟨M, hM⟩ : ∃ M, M = prepared s.mem s.clb s.ctable 0 buf (count * 512) false READ_DMA_EX start count := ⟨_, rfl⟩
  have hi2 : Idle { s with mem := M } := ⟨hi.st, hi.halted, hi.ci, hi.sact, hi.async⟩
  obtain ⟨f, hf⟩ := exec_ends hi2 (slot := 0) (by omega) sched hf
  have hr := read_refines s.mem s.ata (start := start) (hp.slot (slot := 0) (by omega)) hp.low hp.align hb.low hb.even hc
  dsimp only at hr
  rw [Nat.mod_eq_of_lt hs, cmdCount_eq hc (by omega), hg, ← hM] at hr
  refine ⟨done { s with mem := M, tfes := false, ci := setBit s.ci 0 true } 0, f, fun fuel hfu => ?_, ?_⟩
  · unfold readSector
    rw [findSlot_idle hi]
    dsimp only
    rw [show putFis (prepare s.mem s.clb s.ctable 0 buf (count * 512) false) s.clb 0 READ_DMA_EX start count = M from hM.symm, hf fuel hfu]
  · unfold done
    dsimp only
    rw [hr]
    dsimp only
    rw [if_pos (show (!false) = true from rfl)]
    have hget : ∀ x, readSectors s.ata start count M buf x = if buf ≤ x ∧ x < buf + count * 512 then s.ata.disk (start * 512 + (x - buf)) else M x := by
      intro x
      unfold readSectors
      rw [Nat.mod_eq_of_lt hs, cmdCount_eq hc (by omega), hg, dmaLen_eq hc (by omega) hc2]
      rfl
    refine ⟨fun i hi' => ?_, fun x hx hx2 => ?_, rfl, ⟨hi.st, hi.halted, rfl, hi.sact, hi.async⟩, ⟨hp.low, hp.align, hp.apart⟩⟩
    · dsimp only
      rw [hget, if_pos (by omega), show buf + i - buf = i by omega]
    · dsimp only
      unfold Own at hx
      rw [hget, if_neg (by omega), hM]
      exact prepared_out s.mem false _ _ _ (hp.slot (by omega)) hp.low (by omega) (by omega)

/-- A write to an idle port, for all good sectors below 2^24 and up to 128 KiB: the disk holds the buffer there and is unchanged elsewhere, as is all
memory that is not the driver's own. -/
theorem write_ok {s : Sys} (hi : Idle s) (hp : Placed s) {start count buf : Nat} (hb : Buffer s buf (count * 512)) (hc : 0 < count) (hc2 : count < 256)
    (hs : start < 16777216) (hg : anyBad s.ata start count = false) (sched : Nat → Bool) (hf : ∃ n, sched n = true) :
    ∃ s' f, (∀ fuel, f ≤ fuel → writeSector sched fuel start count buf s = some (((count * 512 : Nat) : Int), s')) ∧
      s'.ata.disk = put s.ata.disk (start * 512) (count * 512) (fun i => s.mem (buf + i)) ∧
      (∀ x, ¬ Own s x → s'.mem x = s.mem x) ∧ s'.ata.bad = s.ata.bad ∧ Idle s' ∧ Placed s' := by
  obtain ⟨M, hM⟩ : ∃ M, M = prepared s.mem s.clb s.ctable 0 buf (count * 512) true WRITE_DMA start count := ⟨_, rfl⟩
  have hi2 : Idle { s with mem := M } := ⟨hi.st, hi.halted, hi.ci, hi.sact, hi.async⟩
  obtain ⟨f, hf⟩ := exec_ends hi2 (slot := 0) (by omega) sched hf
  have hr := write_refines s.mem s.ata (start := start) (hp.slot (slot := 0) (by omega)) hp.low hp.align hb.low hb.even hc
  dsimp only at hr
  rw [Nat.mod_eq_of_lt hs, cmdCount_eq hc (by omega), hg, ← hM] at hr
  have hout : ∀ x, ¬ Own s x → M x = s.mem x := by
    intro x hx
    unfold Own at hx
    rw [hM]
    exact prepared_out s.mem true _ _ _ (hp.slot (by omega)) hp.low (by omega) (by omega)
  refine ⟨done { s with mem := M, tfes := false, ci := setBit s.ci 0 true } 0, f, fun fuel hfu => ?_, ?_⟩
  · unfold writeSector
    rw [findSlot_idle hi]
    dsimp only
    rw [show putFis (prepare s.mem s.clb s.ctable 0 buf (count * 512) true) s.clb 0 WRITE_DMA start count = M from hM.symm, hf fuel hfu]
  · unfold done
    dsimp only
    rw [hr]
    dsimp only
    rw [if_pos (show (!false) = true from rfl)]
    refine ⟨?_, hout, ?_, ⟨hi.st, hi.halted, rfl, hi.sact, hi.async⟩, ⟨hp.low, hp.align, hp.apart⟩⟩
    · dsimp only
      unfold writeSectors
      rw [Nat.mod_eq_of_lt hs, cmdCount_eq hc (by omega), hg, dmaLen_eq hc (by omega) (by omega)]
      funext x
      show (if _ then _ else _) = put _ _ _ _ x
      unfold put
      by_cases hx : start * 512 ≤ x ∧ x < start * 512 + count * 512
      · rw [if_pos hx, if_pos hx]
        refine hout _ ?_
        have h1 := hb.list
        have h2 := hb.table
        unfold Own
        omega
      · rw [if_neg hx, if_neg hx]
    · dsimp only
      unfold writeSectors
      split <;> rfl

/-- **Finding.** A sector that cannot be read: the read is reported as successful, the buffer keeps what it held, and no later command ends. -/
theorem read_bad {s : Sys} (hi : Idle s) (hp : Placed s) {start count buf : Nat} (hb : Buffer s buf (count * 512)) (hc : 0 < count) (hc2 : count ≤ 8192)
    (hs : start < 281474976710656) (hg : anyBad s.ata start count = true) (sched : Nat → Bool) (hf : ∃ n, sched n = true) :
    ∃ s' f, (∀ fuel, f ≤ fuel → readSector sched fuel start count buf s = some (((count * 512 : Nat) : Int), s')) ∧
      (∀ x, ¬ Own s x → s'.mem x = s.mem x) ∧
      ∀ sched' fuel' start' count' buf', readSector sched' fuel' start' count' buf' s' = none ∧ writeSector sched' fuel' start' count' buf' s' = none := by
  obtain ⟨M, hM⟩ : ∃ M, M = prepared s.mem s.clb s.ctable 0 buf (count * 512) false READ_DMA_EX start count := ⟨_, rfl⟩
  have hi2 : Idle { s with mem := M } := ⟨hi.st, hi.halted, hi.ci, hi.sact, hi.async⟩
  obtain ⟨f, hf⟩ := exec_ends hi2 (slot := 0) (by omega) sched hf
  have hr := read_refines s.mem s.ata (start := start) (hp.slot (slot := 0) (by omega)) hp.low hp.align hb.low hb.even hc
  dsimp only at hr
  rw [Nat.mod_eq_of_lt hs, cmdCount_eq hc (by omega), hg, ← hM] at hr
  refine ⟨done { s with mem := M, tfes := false, ci := setBit s.ci 0 true } 0, f, fun fuel hfu => ?_, ?_⟩
  · unfold readSector
    rw [findSlot_idle hi]
    dsimp only
    rw [show putFis (prepare s.mem s.clb s.ctable 0 buf (count * 512) false) s.clb 0 READ_DMA_EX start count = M from hM.symm, hf fuel hfu]
  · unfold done
    dsimp only
    rw [hr]
    dsimp only
    rw [if_neg (show ¬ (!true) = true by simp)]
    refine ⟨fun x hx => ?_, ?_⟩
    · dsimp only
      unfold readSectors
      rw [Nat.mod_eq_of_lt hs, cmdCount_eq hc (by omega), hg, if_pos rfl, hM]
      unfold Own at hx
      exact prepared_out s.mem false _ _ _ (hp.slot (by omega)) hp.low (by omega) (by omega)
    · intro sched' fuel' start' count' buf'
      have h1 : findSlot s.sact (setBit s.ci 0 true) = some 1 := by
        rw [hi.ci, hi.sact]
        decide
      constructor
      · unfold readSector
        dsimp only
        rw [h1]
        dsimp only
        rw [hang_after_error (s := { s with mem := _, halted := true, tfes := true, ci := setBit s.ci 0 true }) rfl hi.async]
      · unfold writeSector
        dsimp only
        rw [h1]
        dsimp only
        rw [hang_after_error (s := { s with mem := _, halted := true, tfes := true, ci := setBit s.ci 0 true }) rfl hi.async]

/-- **Finding.** While an asynchronous command (the erasure of the drive) is under way, a read returns success without having read anything, and
has replaced the command in the table which all slots share. -/
theorem read_async {s : Sys} (hp : Placed s) {j slot start count buf : Nat} (ha : s.async = some j) (hsl : findSlot s.sact s.ci = some slot)
    (hb : Buffer s buf (count * 512)) (sched : Nat → Bool) (fuel : Nat) :
    ∃ s', readSector sched fuel start count buf s = some (((count * 512 : Nat) : Int), s') ∧ s'.ata = s.ata ∧ s'.ci = s.ci ∧
      (∀ x, ¬ Own s x → s'.mem x = s.mem x) ∧
      decode s'.mem s.ctable = .read (start % 281474976710656) (cmdCount count 65536) := by
  have hlt := (findSlot_first hsl).1
  refine ⟨{ s with mem := prepared s.mem s.clb s.ctable slot buf (count * 512) false READ_DMA_EX start count }, ?_, rfl, rfl, fun x hx => ?_, ?_⟩
  · unfold readSector
    rw [hsl]
    dsimp only
    unfold exec
    rw [if_pos (by dsimp only; rw [ha]; rfl)]
    rfl
  · unfold Own at hx
    exact prepared_out s.mem false _ _ _ (hp.slot hlt) hp.low (by omega) (by omega)
  · exact decode_read (prepared_found s.mem false _ start count (hp.slot hlt) hp.low hb.low)

/-- **Finding.** A read into an odd address ends up one byte lower. -/
theorem read_odd (m : Mem) (a : Ata) {clb ct slot buf start count : Nat} (hap : Apart clb ct slot) (hct : ct < 4294967296) (hal : ct % 128 = 0)
    (hb : buf < 4294967296) (ho : buf % 2 = 1) (hc : 0 < count) (hc2 : count ≤ 8192) (hs : start < 281474976710656)
    (hg : anyBad a start count = false) :
    ∀ i, i < count * 512 →
      (run (prepared m clb ct slot buf (count * 512) false READ_DMA_EX start count) a clb slot).1 (buf - 1 + i) = a.disk (start * 512 + i) := by
  intro i hi
  have f := prepared_found m (sz := count * 512) false READ_DMA_EX start count hap hct hb
  generalize prepared m clb ct slot buf (count * 512) false READ_DMA_EX start count = M at f
  unfold run
  dsimp only
  rw [f.ctba, f.ctbau, show ct / 128 * 128 + 4294967296 * 0 = ct by omega, decode_read f, f.hdr, f.prdtl, f.dba, f.dbau, f.dbc,
    show buf / 2 * 2 + 4294967296 * 0 = buf - 1 by omega, dbc_len hc]
  rw [if_pos (by decide)]
  dsimp only
  rw [if_neg (by decide), Nat.mod_eq_of_lt hs, cmdCount_eq hc (by omega), hg]
  simp only [Bool.false_eq_true, if_false]
  have : (count * 512 - 1) % 4194304 = count * 512 - 1 := Nat.mod_eq_of_lt (by omega)
  rw [if_pos (by omega), show buf - 1 + i - (buf - 1) = i by omega]

/-- **Finding.** A write to a sector from 2^24 on goes to the sector 2^24 (or a multiple) before. -/
theorem write_far {s : Sys} (hi : Idle s) (hp : Placed s) {start buf : Nat} (hb : Buffer s buf 512)
    (hg : anyBad s.ata (start % 16777216) 1 = false) (sched : Nat → Bool) (hf : ∃ n, sched n = true) :
    ∃ s' f, (∀ fuel, f ≤ fuel → writeSector sched fuel start 1 buf s = some (512, s')) ∧
      s'.ata.disk = put s.ata.disk (start % 16777216 * 512) 512 (fun i => s.mem (buf + i)) := by
  obtain ⟨M, hM⟩ : ∃ M, M = prepared s.mem s.clb s.ctable 0 buf (1 * 512) true WRITE_DMA start 1 := ⟨_, rfl⟩
  have hi2 : Idle { s with mem := M } := ⟨hi.st, hi.halted, hi.ci, hi.sact, hi.async⟩
  obtain ⟨f, hf⟩ := exec_ends hi2 (slot := 0) (by omega) sched hf
  have hr := write_refines s.mem s.ata (start := start) (hp.slot (slot := 0) (by omega)) hp.low hp.align hb.low hb.even (show 0 < 1 by decide)
  dsimp only at hr
  rw [cmdCount_eq (by omega) (by omega), hg, ← hM] at hr
  have hout : ∀ x, ¬ Own s x → M x = s.mem x := by
    intro x hx
    unfold Own at hx
    rw [hM]
    exact prepared_out s.mem true _ _ _ (hp.slot (by omega)) hp.low (by omega) (by omega)
  refine ⟨done { s with mem := M, tfes := false, ci := setBit s.ci 0 true } 0, f, fun fuel hfu => ?_, ?_⟩
  · unfold writeSector
    rw [findSlot_idle hi]
    dsimp only
    rw [show putFis (prepare s.mem s.clb s.ctable 0 buf (1 * 512) true) s.clb 0 WRITE_DMA start 1 = M from hM.symm, hf fuel hfu]
    rfl
  · unfold done
    dsimp only
    rw [hr]
    dsimp only
    rw [if_pos (show (!false) = true from rfl)]
    dsimp only
    unfold writeSectors
    rw [cmdCount_eq (by omega) (by omega), hg, dmaLen_eq (by omega) (by omega) (by omega)]
    funext x
    show (if _ then _ else _) = put _ _ _ _ x
    unfold put
    by_cases hx : start % 16777216 * 512 ≤ x ∧ x < start % 16777216 * 512 + 512
    · rw [if_pos (by omega), if_pos hx]
      refine hout _ ?_
      have h1 := hb.list
      have h2 := hb.table
      unfold Own
      omega
    · rw [if_neg (by omega), if_neg hx]

/-- With all 32 slots in use nothing is done, and both functions fail. -/
theorem full_fails {s : Sys} (h : ∀ k, k < 32 → s.sact k = true ∨ s.ci k = true) (sched : Nat → Bool) (fuel start count buf : Nat) :
    readSector sched fuel start count buf s = some (-1, s) ∧ writeSector sched fuel start count buf s = some (-1, s) := by
  have hn : findSlot s.sact s.ci = none := by
    cases hf : findSlot s.sact s.ci with
    | none => rfl
    | some j =>
      obtain ⟨h1, h2, h3, -⟩ := findSlot_first hf
      rcases h j h1 with hc | hc
      · rw [h2] at hc; exact absurd hc (by decide)
      · rw [h3] at hc; exact absurd hc (by decide)
  unfold readSector writeSector
  rw [hn]
  exact ⟨rfl, rfl⟩

/-- While an asynchronous command is not completed, no other one is started, and the caller can tell (`ATA_ERR_BUSY`). -/
theorem exec_busy {s : Sys} {j : Nat} (h : s.async = some j) (sched : Nat → Bool) (fuel slot : Nat) (async : Bool) : exec sched fuel slot async s = some (-3, s) := by
  unfold exec
  rw [h]
  rfl

/-- An asynchronous command that is started is recorded: until it is completed, others are refused. -/
theorem exec_async {s s' : Sys} {sched : Nat → Bool} {fuel slot : Nat} {r : Int} (h : s.async = none) (he : exec sched fuel slot true s = some (r, s')) :
    r = -2 ∧ s'.async = some slot ∧ s'.ci slot = true := by
  unfold exec at he
  rw [h, if_neg (by decide)] at he
  dsimp only at he
  split at he
  · exact absurd he (by simp)
  · rw [if_pos rfl] at he
    injection he with he
    injection he with h1 h2
    subst h1 h2
    exact ⟨rfl, rfl, by simp [setBit]⟩

/-- `ata_cmd_complete_async`: unless the command is still under way, others are possible again; nothing else changes. -/
theorem completeAsync_frees (s : Sys) : (completeAsync s).2 = { s with async := if (completeAsync s).1 = -2 then s.async else none } := by
  unfold completeAsync
  cases h : s.async with
  | none => simp [h]; rw [← h]
  | some slot =>
    simp only
    split
    · simp
    · split
      · simp; rw [← h]
      · simp

/-- The end of an asynchronous command is reported when its slot is free again and there was no error. -/
theorem completeAsync_zero (s : Sys) : (completeAsync s).1 = 0 ↔ ∃ slot, s.async = some slot ∧ s.tfes = false ∧ s.ci slot = false := by
  unfold completeAsync
  cases ha : s.async with
  | none => simp
  | some slot =>
    dsimp only
    cases s.tfes <;> cases hc : s.ci slot <;> simp [hc]

/-! ## Example -/

/-- A port with the list at 0x1000 and the table at 0x2000. -/
def demo : Sys :=
  { mem := fun _ => 0, ata := { disk := fun x => BitVec.ofNat 8 (x / 512), bad := fun i => i == 7, cached := CACHE_INVALID, cache := fun _ => 0 }, st := true,
    halted := false, tfes := false, sact := fun _ => false, ci := fun _ => false, clb := 0x1000, ctable := 0x2000, async := none }

theorem demo_idle : Idle demo := ⟨rfl, rfl, rfl, rfl, rfl⟩
theorem demo_placed : Placed demo := ⟨by decide, by decide, by decide⟩
theorem demo_buffer : Buffer demo 0x8000 1024 := ⟨by decide, by decide, by decide, by decide⟩

/-- Sectors 5 and 6 are read. -/
example : ∃ s' f, (∀ fuel, f ≤ fuel → readSector (fun k => k == 3) fuel 5 2 0x8000 demo = some (1024, s')) ∧ s'.mem 0x8200 = 6 := by
  obtain ⟨s', f, h1, h2, _⟩ := read_ok demo_idle demo_placed (start := 5) (count := 2) demo_buffer (by decide) (by decide) (by decide) (by decide +kernel)
    (fun k => k == 3) ⟨3, rfl⟩
  refine ⟨s', f, h1, ?_⟩
  rw [h2 512 (by decide)]
  decide +kernel

/-- Sector 7 is bad. -/
example : ∃ s' f, (∀ fuel, f ≤ fuel → readSector (fun _ => true) fuel 6 2 0x8000 demo = some (1024, s')) ∧
    ∀ fuel, readSector (fun _ => true) fuel 0 1 0x8000 s' = none := by
  obtain ⟨s', f, h1, _, h3⟩ := read_bad demo_idle demo_placed (start := 6) (count := 2) demo_buffer (by decide) (by decide) (by decide) (by decide +kernel)
    (fun _ => true) ⟨0, rfl⟩
  exact ⟨s', f, h1, fun fuel => (h3 _ fuel _ _ _).1⟩

end Ahci

end Verif
