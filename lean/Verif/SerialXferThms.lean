import Verif.SerialUpdateThms
import Verif.UpdateThms

/-!
# Update over the serial line: application and tool (C77)
-/

namespace Verif.SerialUpdate

open Verif

/-! ## The application on any input -/

theorem flush_frame {c : Cfg} (w : c.WF) (h256 : 256 ∣ c.ss) (d : Dev) {off : Nat} (ho : off % 256 = 0) (hp : off < c.part) {p : Part} {x : Nat}
    (hx : p ≠ .update ∨ c.part ≤ x) : (flushPage c d off).fl p x = d.fl p x := by
  have hpf := page_fits w h256 ho hp
  have hE : (if off % c.ss = 0 then eraseUpd d off c.ss else d).fl p x = d.fl p x := by
    split
    · next hz =>
      have hsf := sector_fits w hz hp
      unfold eraseUpd
      split
      · rfl
      · show (if _ then _ else _) = _
        rw [if_neg]
        rintro ⟨e, _, e2⟩
        rcases hx with hx | hx
        · exact hx e
        · omega
    · rfl
  unfold flushPage
  show (writeUpd _ off PAGESIZE _).fl p x = _
  rw [← hE]
  generalize (if off % c.ss = 0 then eraseUpd d off c.ss else d) = d2
  unfold writeUpd PAGESIZE
  split
  · rfl
  · show (if _ then _ else _) = _
    rw [if_neg]
    rintro ⟨e, _, e2⟩
    rcases hx with hx | hx
    · exact hx e
    · omega

/-- The application is running inside of its arrays, or it has ended. -/
structure Safe (c : Cfg) (d : Dev) : Prop where
  st : d.st = .run ∨ d.st = .done
  live : d.st = .run → Live d ∧ d.next % 8 = 0 ∧ d.tot ≤ c.part - 8

theorem Safe.of_run {c : Cfg} {d : Dev} (h : d.st = .run) (l : Live d) (h8 : d.next % 8 = 0) (ht : d.tot ≤ c.part - 8) : Safe c d :=
  ⟨.inl h, fun _ => ⟨l, h8, ht⟩⟩

theorem live_nil {d : Dev} (h : d.st = .run) (hm : d.msg = []) (h1 : d.tot ≠ 0 → d.next < d.tot) (h2 : d.tot = 0 → d.next = 0) : Live d := by
  refine ⟨h, ?_, h1, h2⟩
  have := (want_le d).2
  rw [hm]
  simp only [List.length_nil]
  omega

theorem recv_safe {c : Cfg} (w : c.WF) (h256 : 256 ∣ c.ss) {d : Dev} (s : Safe c d) (b : Byte) :
    Safe c (recv c d b).1 ∧ ∀ p x, p ≠ .update ∨ c.part ≤ x → (recv c d b).1.fl p x = d.fl p x := by
  rcases s.st with hst | hst
  case inr =>
    have e : recv c d b = (d, []) := by
      unfold recv
      rw [if_pos (by rw [hst]; simp)]
    rw [e]
    exact ⟨s, fun _ _ _ => rfl⟩
  obtain ⟨l, h8, ht⟩ := s.live hst
  have hle := want_le d
  have hml := l.msg
  unfold recv
  rw [if_neg (by rw [hst]; simp), if_neg (by unfold MSGSIZE; omega)]
  have hlen : (d.msg ++ [b]).length = d.msg.length + 1 := by simp
  dsimp only
  rw [hlen]
  by_cases h2 : d.msg.length + 1 < 2
  · rw [if_pos h2]
    refine ⟨Safe.of_run hst ⟨hst, ?_, l.more, l.zero⟩ h8 ht, fun _ _ _ => rfl⟩
    show (d.msg ++ [b]).length < want d
    omega
  rw [if_neg h2]
  by_cases h3 : d.msg.length + 1 = 2
  · rw [if_pos h3]
    split
    · refine ⟨Safe.of_run hst ⟨hst, ?_, l.more, l.zero⟩ h8 ht, fun _ _ _ => rfl⟩
      show (d.msg ++ [b]).length < want d
      omega
    · exact ⟨Safe.of_run hst (live_nil hst rfl l.more l.zero) h8 ht, fun _ _ _ => rfl⟩
  rw [if_neg h3]
  have hri := ready_iff (d := { d with msg := d.msg ++ [b] }) l.more (by show (d.msg ++ [b]).length ≤ want d; omega)
  by_cases hr : ready { d with msg := d.msg ++ [b] }
  case neg =>
    rw [if_neg hr]
    refine ⟨Safe.of_run hst ⟨hst, ?_, l.more, l.zero⟩ h8 ht, fun _ _ _ => rfl⟩
    have hne : ¬ (d.msg ++ [b]).length = want d := fun e => hr (hri.2 e)
    show (d.msg ++ [b]).length < want d
    omega
  rw [if_pos hr]
  have hw : (d.msg ++ [b]).length = want d := hri.1 hr
  generalize hm : d.msg ++ [b] = m at *
  unfold onMsg
  by_cases h0 : d.tot = 0
  · rw [if_pos (show ({ d with msg := m } : Dev).tot = 0 from h0)]
    unfold onSize
    dsimp only
    split
    · exact ⟨Safe.of_run hst (live_nil hst rfl (fun h => absurd rfl h) (fun _ => l.zero h0)) h8 (by show 0 ≤ _; omega), fun _ _ _ => rfl⟩
    · have hz := l.zero h0
      refine ⟨Safe.of_run hst (live_nil hst rfl (fun h => ?_) (fun _ => hz)) h8 (by dsimp only; omega), fun _ _ _ => rfl⟩
      show d.next < _
      dsimp only at h ⊢
      omega
  rw [if_neg (show ¬ ({ d with msg := m } : Dev).tot = 0 from h0)]
  have hlt := l.more h0
  have hwe : m.length = 8 + min 8 (d.tot - d.next) := by rw [hw]; unfold want; rw [if_neg h0]
  by_cases hc : checked m = false
  · rw [if_pos (show checked ({ d with msg := m } : Dev).msg = false from hc)]
    exact ⟨Safe.of_run hst (live_nil hst rfl l.more l.zero) h8 ht, fun _ _ _ => rfl⟩
  rw [if_neg (show ¬ checked ({ d with msg := m } : Dev).msg = false from hc)]
  -- after the message
  have key : ∀ d1 : Dev, d1.st = .run → d1.tot = d.tot → (d1.next < d1.tot → d1.next % 8 = 0) →
      (∀ p x, p ≠ .update ∨ c.part ≤ x → d1.fl p x = d.fl p x) →
      Safe c (if d1.st = .ub then (d1, []) else (finish c { d1 with msg := [] }, ack d1.next)).1 ∧
      ∀ p x, p ≠ .update ∨ c.part ≤ x → (if d1.st = .ub then (d1, []) else (finish c { d1 with msg := [] }, ack d1.next)).1.fl p x = d.fl p x := by
    intro d1 k1 k2 k3 k4
    rw [if_neg (by rw [k1]; simp)]
    by_cases hn : d1.tot ≤ d1.next
    · have a := finish_done w { d1 with msg := [] } hn
      refine ⟨⟨.inr a.st, fun h => ?_⟩, fun p x hx => ?_⟩
      · have := a.st
        rw [show (finish c { d1 with msg := [] }).st = .run from h] at this
        simp at this
      · exact (a.frame p x (by rcases hx with hx | hx; exact .inl hx; exact .inr (.inr hx))).trans (k4 p x hx)
    · have e : finish c { d1 with msg := [] } = { d1 with msg := [] } := by
        unfold finish
        exact if_neg hn
      rw [e]
      exact ⟨Safe.of_run k1 (live_nil k1 rfl (fun _ => Nat.lt_of_not_le hn) (fun h => absurd (k2.symm.trans h) h0)) (k3 (Nat.lt_of_not_le hn))
        (by show d1.tot ≤ _; omega), k4⟩
  dsimp only
  split
  · obtain ⟨b1, b2, b3, _⟩ := store_book c { d with msg := m } (by
      show d.next % 256 + (m.drop 8).length ≤ 256
      rw [List.length_drop]
      omega)
    have b3' : (store c { d with msg := m }).next = d.next + (m.length - 8) := by rw [b3]; simp
    refine key _ (b1.trans hst) b2 ?_ ?_
    · rw [b3', b2]
      intro h
      have h' : d.next + (m.length - 8) < d.tot := h
      omega
    · intro p x hx
      unfold store
      dsimp only
      rw [if_neg (by unfold PAGESIZE; rw [List.length_drop]; omega)]
      dsimp only
      split
      · rw [flush_frame w h256 _ (by unfold PAGESIZE; omega) (by unfold PAGESIZE; omega) hx]
      · rfl
  · exact key _ hst rfl (fun _ => h8) (fun _ _ _ => rfl)

/-- **C77: whatever bytes arrive, the application stays inside of its arrays, and nothing outside of UPDATE is changed.** -/
theorem any_input_safe {c : Cfg} (w : c.WF) (h256 : 256 ∣ c.ss) (f : Flash) (l : Bool) (bs : Bytes) :
    (recvAll c { fl := f, locked := l } bs).1.st ≠ .ub ∧ (recvAll c { fl := f, locked := l } bs).1.st ≠ .fault ∧
      ∀ p x, p ≠ .update ∨ c.part ≤ x → (recvAll c { fl := f, locked := l } bs).1.fl p x = f p x := by
  have gen : ∀ (bs : Bytes) (d : Dev), Safe c d → Safe c (recvAll c d bs).1 ∧
      ∀ p x, p ≠ .update ∨ c.part ≤ x → (recvAll c d bs).1.fl p x = d.fl p x := by
    intro bs
    induction bs with
    | nil => intro d s; exact ⟨s, fun _ _ _ => rfl⟩
    | cons b r ih =>
      intro d s
      obtain ⟨s1, f1⟩ := recv_safe w h256 s b
      obtain ⟨s2, f2⟩ := ih _ s1
      exact ⟨s2, fun p x hx => (f2 p x hx).trans (f1 p x hx)⟩
  obtain ⟨s, fr⟩ := gen bs { fl := f, locked := l }
    (Safe.of_run rfl (live_nil rfl rfl (fun h => absurd rfl h) (fun _ => rfl)) rfl (Nat.zero_le _))
  refine ⟨?_, ?_, fr⟩ <;> rcases s.st with h | h <;> rw [h] <;> simp

/-! ## Flash that has been locked -/

theorem flush_locked (c : Cfg) {d : Dev} (h : d.locked = true) (off : Nat) : (flushPage c d off).fl = d.fl := by
  unfold flushPage eraseUpd writeUpd
  dsimp only
  split
  · simp [h]
  · simp [h]

theorem store_locked (c : Cfg) {d : Dev} (h : d.locked = true) : (store c d).fl = d.fl ∧ (store c d).locked = true := by
  unfold store
  dsimp only
  split
  · exact ⟨rfl, h⟩
  · dsimp only
    split
    · exact ⟨flush_locked c (by exact h) _, (flush_book c _ _).2.2.trans h⟩
    · exact ⟨rfl, h⟩

theorem recv_locked {c : Cfg} (w : c.WF) {d : Dev} (h : d.locked = true) (b : Byte) :
    (recv c d b).1.locked = true ∧ ∀ p x, p ≠ .update ∨ x < c.last ∨ c.part ≤ x → (recv c d b).1.fl p x = d.fl p x := by
  have fin : ∀ d1 : Dev, d1.locked = true → (finish c d1).locked = true ∧
      ∀ p x, p ≠ .update ∨ x < c.last ∨ c.part ≤ x → (finish c d1).fl p x = d1.fl p x := by
    intro d1 h1
    by_cases hn : d1.tot ≤ d1.next
    · have a := finish_done w d1 hn
      exact ⟨a.locked, a.frame⟩
    · unfold finish
      rw [if_neg hn]
      exact ⟨h1, fun _ _ _ => rfl⟩
  unfold recv
  split
  · exact ⟨h, fun _ _ _ => rfl⟩
  split
  · exact ⟨h, fun _ _ _ => rfl⟩
  dsimp only
  split
  · exact ⟨h, fun _ _ _ => rfl⟩
  split
  · split
    · exact ⟨h, fun _ _ _ => rfl⟩
    · exact ⟨h, fun _ _ _ => rfl⟩
  split
  · unfold onMsg
    split
    · unfold onSize
      dsimp only
      split
      · exact ⟨h, fun _ _ _ => rfl⟩
      · exact ⟨h, fun _ _ _ => rfl⟩
    split
    · exact ⟨h, fun _ _ _ => rfl⟩
    have key : ∀ d1 : Dev, d1.locked = true → d1.fl = d.fl →
        (if d1.st = .ub then (d1, []) else (finish c { d1 with msg := [] }, ack d1.next)).1.locked = true ∧
        ∀ p x, p ≠ .update ∨ x < c.last ∨ c.part ≤ x →
          (if d1.st = .ub then (d1, []) else (finish c { d1 with msg := [] }, ack d1.next)).1.fl p x = d.fl p x := by
      intro d1 k1 k2
      split
      · exact ⟨k1, fun _ _ _ => by rw [k2]⟩
      · obtain ⟨q1, q2⟩ := fin { d1 with msg := [] } k1
        exact ⟨q1, fun p x hx => (q2 p x hx).trans (by show d1.fl p x = _; rw [k2])⟩
    dsimp only
    split
    · obtain ⟨q1, q2⟩ := store_locked c (d := { d with msg := d.msg ++ [b] }) h
      exact key _ q2 q1
    · exact key _ h rfl
  · exact ⟨h, fun _ _ _ => rfl⟩

/-- **C77, finding: an application of an even version receives an update without writing it.** `wolfBoot_success` locks the flash. -/
theorem even_version_not_written {c : Cfg} (w : c.WF) {version : Nat} (hv : version % 2 = 0) {f : Flash} (hm : MagicOrErased c f .boot)
    (bs : Bytes) {x : Nat} (hx : x < c.last) : (recvAll c (devStart c version f).1 bs).1.fl .update x = f .update x := by
  have gen : ∀ (bs : Bytes) (d : Dev), d.locked = true → (recvAll c d bs).1.fl .update x = d.fl .update x := by
    intro bs
    induction bs with
    | nil => intro d _; rfl
    | cons b r ih =>
      intro d h
      obtain ⟨l1, f1⟩ := recv_locked w h b
      exact (ih _ l1).trans (f1 .update x (.inr (.inl hx)))
  obtain ⟨w', h1, h2, _, _, h5⟩ := success_effect_partial w f hm
  have e : confirm c version f = w' := by
    unfold confirm
    rw [if_pos hv]
    show (match success c (run f) with | .ok _ w => w | _ => _) = w'
    rw [h1]
  have hd : (devStart c version f).1 = { fl := w'.fl, locked := w'.locked } := by
    unfold devStart
    rw [e]
  rw [hd, gen bs _ h2]
  exact h5 .update x (.inl (by simp))

/-! ## The tool -/

theorem srv_ack {s : Srv} (hp : s.ph = .send ∨ s.ph = .last) (h0 : s.part = none) {off : Nat} (ho : off < 4294967296) :
    srvAll s (ack off) = gotAck { s with part := none, err := 0 } off := by
  have hr : ∀ (t : Srv) (b : Byte), t.ph = s.ph → srvRecv t b = inAck t b := by
    intro t b h
    unfold srvRecv
    rcases hp with hp | hp <;> rw [h, hp]
  have e : ∀ p : Bytes, ({ s with part := some p, err := 0 } : Srv).ph = s.ph := fun _ => rfl
  show srvAll s [ACK, _, _, _, _] = _
  simp only [srvAll]
  rw [hr s _ rfl]
  have e0 : inAck s ACK = ({ s with part := some [], err := 0 }, []) := by
    unfold inAck
    rw [h0]
    simp
  rw [e0]
  dsimp only
  rw [hr _ _ (e _)]
  simp only [inAck, List.length_nil, Nat.reduceLT, if_true, List.nil_append]
  rw [hr _ _ (e _)]
  simp only [inAck, List.length_cons, List.length_nil, Nat.reduceAdd, Nat.reduceLT, if_true, List.cons_append, List.nil_append]
  rw [hr _ _ (e _)]
  simp only [inAck, List.length_cons, List.length_nil, Nat.reduceAdd, Nat.reduceLT, if_true, List.cons_append, List.nil_append]
  rw [hr _ _ (e _)]
  simp only [inAck, List.length_cons, List.length_nil, Nat.reduceAdd, Nat.reduceLT, if_false, List.cons_append, List.nil_append]
  have hv : val4 (le4 off) = off := by rw [val4_le4, Nat.mod_eq_of_lt ho]
  simp only [le4] at hv
  rw [hv]
  simp

/-- Bytes that are no ack are ignored in the loop. -/
theorem srv_skip : ∀ (bs : Bytes) {s : Srv}, s.ph = .send → s.part = none → (∀ b ∈ bs, b ≠ ACK) →
    ∃ e, srvAll s bs = ({ s with err := e }, []) := by
  intro bs
  induction bs with
  | nil => intro s _ _ _; exact ⟨s.err, rfl⟩
  | cons b r ih =>
    intro s hs hp hb
    have e : ∃ e, srvRecv s b = ({ s with err := e }, []) := by
      have e0 : srvRecv s b = inAck s b := by
        unfold srvRecv
        rw [hs]
      have e1 : inAck s b = if b = ACK then ({ s with part := some [], err := 0 }, [])
          else if b = ERR then ({ s with err := if 3 < s.err + 1 then 0 else s.err + 1 }, []) else (s, []) := by
        unfold inAck
        rw [hp]
      rw [e0, e1]
      rw [if_neg (hb b (List.mem_cons_self ..))]
      split
      · exact ⟨_, rfl⟩
      · exact ⟨s.err, rfl⟩
    obtain ⟨e1, h1⟩ := e
    obtain ⟨e2, h2⟩ := ih (s := { s with err := e1 }) hs hp (fun x hx => hb x (List.mem_cons_of_mem _ hx))
    refine ⟨e2, ?_⟩
    simp only [srvAll]
    rw [h1]
    dsimp only
    rw [h2]
    rfl

/-- The packets from an offset on, in order. -/
def stream (file : Bytes) : Nat → Nat → Bytes
  | 0, _ => []
  | n + 1, s => packet s (chunk file s) ++ stream file n (s + 8)

/-- The bookkeeping of one genuine packet. -/
theorem book_step {c : Cfg} (w : c.WF) {file : Bytes} {d : Dev} {s : Nat} (h : At file.length s d) (ho : s < 4294967296) :
    (s + 8 < file.length → At file.length (s + 8) (recvAll c d (packet s (chunk file s))).1) ∧
    (¬ s + 8 < file.length → Asked c (store c { d with msg := packet s (chunk file s) }).fl (recvAll c d (packet s (chunk file s))).1) ∧
    (recvAll c d (packet s (chunk file s))).2 = ack (min file.length (s + 8)) := by
  have hm := h.more
  have h8 := h.eight
  have hl := chunk_length file s
  rw [packet_step c h hl ho, if_pos rfl]
  obtain ⟨b1, b2, b3, _⟩ := store_book c { d with msg := packet s (chunk file s) } (by
      show d.next % 256 + ((packet s (chunk file s)).drop 8).length ≤ 256
      rw [packet_data, h.next]
      omega)
  simp only [packet_data] at b3
  have b2' : (store c { d with msg := packet s (chunk file s) }).tot = file.length := b2.trans h.tot
  have b3' : (store c { d with msg := packet s (chunk file s) }).next = s + (chunk file s).length := by rw [b3]; show d.next + _ = _; rw [h.next]
  refine ⟨fun hlt => ?_, fun hge => ?_, ?_⟩
  · have e8 : (chunk file s).length = 8 := by omega
    have e : finish c { store c { d with msg := packet s (chunk file s) } with msg := [] } =
        { store c { d with msg := packet s (chunk file s) } with msg := [] } := by
      unfold finish
      dsimp only
      rw [if_neg (by rw [b2', b3']; omega)]
    rw [e]
    rw [e8] at b3'
    exact ⟨b1.trans h.st, rfl, b2', b3', by omega, hlt⟩
  · exact finish_done w { store c { d with msg := packet s (chunk file s) } with msg := [] } (by
      show (store c _).tot ≤ (store c _).next
      rw [b2', b3']
      omega)
  · dsimp only
    congr 1
    omega

/-- The tool has sent the packet at `s`. -/
def sent (t : Srv) (file : Bytes) (s : Nat) : Srv :=
  { t with part := none, err := 0, high := s, pkt := packet s (chunk file s), len := s + (chunk file s).length,
           ph := if s + (chunk file s).length < file.length then .send else .last }

/-- Tool and application proceed in step. -/
theorem exchange_stream {c : Cfg} (w : c.WF) {file : Bytes} (h32 : file.length < 4294967296) :
    ∀ (n : Nat) {d : Dev} {t : Srv} {s : Nat}, At file.length s d → t.ph = .send → t.part = none → t.file = file → t.high ≤ s →
      s + 8 * n < file.length + 8 → file.length ≤ s + 8 * n →
      (∀ k, n < k → (exchange c k t d (ack s)).1.ph = .ended ∧ (exchange c k t d (ack s)).2 = (recvAll c d (stream file n s)).1) ∧
      (recvAll c d (stream file n s)).1.st = .done ∧
      getState c (recvAll c d (stream file n s)).1.fl .update = some ST_UPDATING := by
  intro n
  induction n with
  | zero =>
    intro d t s h
    have := h.more
    intros
    omega
  | succ n ih =>
    intro d t s h hp hpt hf hh h1 h2
    have hm := h.more
    obtain ⟨g1, g2, g3⟩ := book_step w h (by omega)
    have hs : srvAll t (ack s) = ((sent t file s), packet s (chunk file s)) := by
      rw [srv_ack (.inl hp) hpt (by omega)]
      unfold gotAck
      show (match t.ph with | .send => _ | .last => _ | _ => _) = _
      rw [hp]
      show onAck _ s = _
      unfold onAck
      dsimp only
      rw [hf, if_neg (by omega), if_neg (by omega)]
      simp only [sent, hf]
    have hl := chunk_length file s
    rw [stream, recvAll_append]
    dsimp only
    have hack : ∀ k, ack k ≠ [] := fun _ => by simp [ack]
    by_cases hlt : s + 8 < file.length
    · rw [show min file.length (s + 8) = s + 8 by omega] at g3
      obtain ⟨i1, i2, i3⟩ := ih (t := sent t file s) (g1 hlt) (by show (if _ then _ else _) = _; rw [if_pos (by omega)])
        rfl hf (by show s ≤ s + 8; omega) (by omega) (by omega)
      refine ⟨fun k hk => ?_, i2, i3⟩
      obtain ⟨k, rfl⟩ : ∃ j, k = j + 1 := ⟨k - 1, by omega⟩
      unfold exchange
      dsimp only
      rw [hs]
      dsimp only
      rw [g3, if_neg (hack _)]
      exact i1 k (by omega)
    · rw [show min file.length (s + 8) = file.length by omega] at g3
      have a := g2 hlt
      have hn : n = 0 := by omega
      subst hn
      rw [stream]
      simp only [recvAll]
      refine ⟨fun k hk => ?_, a.st, a.state⟩
      obtain ⟨k, rfl⟩ : ∃ j, k = j + 2 := ⟨k - 2, by omega⟩
      unfold exchange
      dsimp only
      rw [hs]
      dsimp only
      rw [g3, if_neg (hack _)]
      unfold exchange
      dsimp only
      rw [srv_ack (.inr (by show (if _ then _ else _) = _; rw [if_neg (by omega)])) rfl h32]
      have e : gotAck (sent t file s) file.length =
          ({ sent t file s with ph := .ended }, []) := by
        have hlast : (sent t file s).ph = .last := by
          show (if _ then _ else _) = _
          rw [if_neg (by omega)]
        unfold gotAck
        rw [hlast]
        show onLast _ _ = _
        unfold onLast
        rw [if_pos (by show file.length = t.file.length; rw [hf])]
      have e' : ({ sent t file s with part := none, err := 0 } : Srv) = sent t file s := rfl
      rw [e', e]
      generalize (recvAll c d (packet s (chunk file s))).1 = d'
      simp [recvAll]

/-- The packets in order leave the file in UPDATE. -/
theorem stream_received {c : Cfg} (w : c.WF) (h256 : 256 ∣ c.ss) {file : Bytes} (h32 : file.length < 4294967296) (hT : file.length ≤ c.part - 8)
    {f0 : Flash} : ∀ (n : Nat) {d : Dev} {s : Nat}, At file.length s d → Got c (memOf file) file.length f0 d s → file.length ≤ s + 8 * n →
      Received c file f0 (recvAll c d (stream file n s)).1 := by
  intro n
  induction n with
  | zero =>
    intro d s h
    have := h.more
    intros
    omega
  | succ n ih =>
    intro d s h g hn
    have hm := h.more
    obtain ⟨g1, g2, _⟩ := good_step w h256 hT h g (by omega)
    rw [stream, recvAll_append]
    dsimp only
    by_cases hlt : s + 8 < file.length
    · obtain ⟨a, b⟩ := g1 hlt
      exact ih a b (by omega)
    · have q := g2 hlt
      generalize (recvAll c d (packet s (chunk file s))).1 = d' at q
      rw [done_stays c _ d' q.st]
      exact q

/-- The first turn: `*`, the version, the length. -/
theorem first_turn {c : Cfg} {file : Bytes} (h0 : 0 < file.length) (hT : file.length ≤ c.part - 8) (h32 : file.length < 4294967296)
    {f : Flash} {l : Bool} {vs : Bytes} (hv : ∀ b ∈ vs, b ≠ ACK) :
    ∃ t : Srv, t.ph = .send ∧ t.part = none ∧ t.file = file ∧ t.high = 0 ∧
      ∀ k, exchange c (k + 1) { file := file } { fl := f, locked := l } (START :: vs) =
        exchange c k t { fl := f, locked := l, tot := file.length } (ack 0) := by
  obtain ⟨e, he⟩ := srv_skip vs (s := { file := file, ph := .send }) rfl rfl hv
  refine ⟨{ file := file, ph := .send, err := e }, rfl, rfl, rfl, rfl, fun k => ?_⟩
  have hs : srvAll { file := file } (START :: vs) = ({ file := file, ph := .send, err := e }, [0xA5#8, 0x5A#8] ++ le4 file.length) := by
    simp only [srvAll]
    have e1 : srvRecv { file := file } START = ({ file := file, ph := .send }, [0xA5#8, 0x5A#8] ++ le4 file.length) := by
      unfold srvRecv
      dsimp only
      rw [if_pos rfl, if_pos h0]
    rw [e1]
    dsimp only
    rw [he]
    simp
  conv => lhs; unfold exchange
  dsimp only
  rw [hs]
  dsimp only
  rw [size_step c rfl rfl rfl rfl hT h32]
  dsimp only
  rw [if_neg (by simp [ack])]

/-- **C77: the tool transfers every file to an application of an odd version without a byte `#`.** -/
theorem transfer_completes_partial {c : Cfg} (w : c.WF) (h256 : 256 ∣ c.ss) {file : Bytes} (h0 : 0 < file.length) (hT : file.length ≤ c.part - 8)
    (h32 : file.length < 4294967296) {version : Nat} (hodd : version % 2 = 1) (hv : ∀ b ∈ le4 version, b ≠ ACK) (f : Flash)
    {k : Nat} (hk : (file.length + 7) / 8 + 2 ≤ k) :
    (exchange c k { file := file } (devStart c version f).1 (devStart c version f).2).1.ph = .ended ∧
      Received c file f (exchange c k { file := file } (devStart c version f).1 (devStart c version f).2).2 := by
  have hd : devStart c version f = ({ fl := f, locked := false }, START :: (le4 version).reverse) := by
    unfold devStart confirm
    rw [if_neg (by omega)]
  obtain ⟨t, t1, t2, t3, t4, t5⟩ := first_turn (c := c) h0 hT h32 (f := f) (l := false) (vs := (le4 version).reverse)
    (fun b hb => hv b (List.mem_reverse.1 hb))
  obtain ⟨k, rfl⟩ : ∃ j, k = j + 1 := ⟨k - 1, by omega⟩
  rw [hd]
  dsimp only
  rw [t5]
  obtain ⟨a, g⟩ := got_start (c := c) h0 f
  obtain ⟨e1, _⟩ := exchange_stream w h32 ((file.length + 7) / 8) a t1 t2 t3 (by omega) (by omega) (by omega)
  obtain ⟨e2, e3⟩ := e1 k (by omega)
  refine ⟨e2, ?_⟩
  rw [e3]
  exact stream_received w h256 h32 hT _ a g (by omega)

/-- **C77, finding: with an even version the tool and the application report success, installation is requested, and UPDATE is what it
was.** -/
theorem even_version_reports_success {c : Cfg} (w : c.WF) {file : Bytes} (h0 : 0 < file.length) (hT : file.length ≤ c.part - 8)
    (h32 : file.length < 4294967296) {version : Nat} (heven : version % 2 = 0) (hv : ∀ b ∈ le4 version, b ≠ ACK) {f : Flash}
    (hm : MagicOrErased c f .boot) {k : Nat} (hk : (file.length + 7) / 8 + 2 ≤ k) :
    (exchange c k { file := file } (devStart c version f).1 (devStart c version f).2).1.ph = .ended ∧
      (exchange c k { file := file } (devStart c version f).1 (devStart c version f).2).2.st = .done ∧
      getState c (exchange c k { file := file } (devStart c version f).1 (devStart c version f).2).2.fl .update = some ST_UPDATING ∧
      ∀ x, x < c.last → (exchange c k { file := file } (devStart c version f).1 (devStart c version f).2).2.fl .update x = f .update x := by
  have hsz := size_step c (d := (devStart c version f).1) rfl rfl rfl rfl hT h32
  have hev := fun bs x (hx : x < c.last) => even_version_not_written w heven hm bs (x := x) hx
  have hd : devStart c version f = ({ fl := (confirm c version f).fl, locked := (confirm c version f).locked }, START :: (le4 version).reverse) := rfl
  rw [hd] at hsz hev ⊢
  generalize (confirm c version f).fl = f' at *
  generalize (confirm c version f).locked = l at *
  obtain ⟨t, t1, t2, t3, t4, t5⟩ := first_turn (c := c) h0 hT h32 (f := f') (l := l) (vs := (le4 version).reverse)
    (fun b hb => hv b (List.mem_reverse.1 hb))
  obtain ⟨k, rfl⟩ : ∃ j, k = j + 1 := ⟨k - 1, by omega⟩
  dsimp only at hsz hev ⊢
  rw [t5]
  have a : At file.length 0 { fl := f', locked := l, tot := file.length } := ⟨rfl, rfl, rfl, rfl, rfl, h0⟩
  obtain ⟨e1, e4, e5⟩ := exchange_stream w h32 ((file.length + 7) / 8) a t1 t2 t3 (by omega) (by omega) (by omega)
  obtain ⟨e2, e3⟩ := e1 k (by omega)
  rw [e3]
  refine ⟨e2, e4, e5, fun x hx => ?_⟩
  rw [← hev ([0xA5#8, 0x5A#8] ++ le4 file.length ++ stream file ((file.length + 7) / 8) 0) x hx, recvAll_append, hsz]

/-! ## Transfer and installation -/

/-- **C77: a good image that is transferred is installed at the next start.** -/
theorem transfer_then_update_partial {c : Cfg} (w : c.WF) (h256 : 256 ∣ c.ss) {e : Env} {Old New : Mem}
    (hO : GoodImage c e Old) (hN : GoodImage c e New) (hver : e.ver Old < e.ver New)
    {file : Bytes} (hfile : imageBytes c New ≤ file.length ∧ ∀ o, o < imageBytes c New → file.getD o 0 = New o)
    (h0 : 0 < file.length) (hT : file.length ≤ c.part - 8)
    (h32 : file.length < 4294967296) {version : Nat} (hodd : version % 2 = 1) (hv : ∀ b ∈ le4 version, b ≠ ACK) {f : Flash}
    (hold : Holds c f .boot Old) (hq : le32 (f .boot) c.tmp ≠ MAGIC_TRAIL) {k : Nat} (hk : (file.length + 7) / 8 + 2 ≤ k) {d : Dev}
    (hd : d = (exchange c k { file := file } (devStart c version f).1 (devStart c version f).2).2)
    (hqu : le32 (d.fl .update) c.tmp ≠ MAGIC_TRAIL) {g : Flash} (hi : Interrupted c e (fun x => ¬ Updated c New Old x) d.fl g) :
    ∃ w', bootUp c e g = .ok () w' ∧ w'.locked = true ∧ Updated c New Old w'.fl ∧ bootable c e (w'.fl .boot) := by
  obtain ⟨_, r⟩ := transfer_completes_partial w h256 h0 hT h32 hodd hv f hk
  rw [← hd] at r
  have hb : d.fl .boot = f .boot := funext fun x => r.frame .boot x (.inl (by simp))
  have hlast : c.last = c.part - c.ss := by have := w.part_eq; omega
  refine update_power_fail_safe_partial w hO hN hver ⟨?_, ?_, r.state, fun j hj => r.flags j (by omega), ?_, hqu⟩ hi
  · intro o ho
    rw [hb]
    exact hold o ho
  · intro o ho
    have hf := hN.fits
    rw [r.data o (by omega) (by omega)]
    exact hfile.2 o ho
  · rw [hb]
    exact hq

end Verif.SerialUpdate
