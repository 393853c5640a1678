import Verif.SerialUpdate
import Verif.TrailerThms

/-!
# Update over the serial line: the application (C77)
-/

namespace Verif.SerialUpdate

open Verif

/-! ## Messages -/

theorem val4_le4 (n : Nat) : val4 (le4 n) = n % 4294967296 := by
  show (BitVec.ofNat 8 n).toNat + 256 * (BitVec.ofNat 8 (n / 256)).toNat + 65536 * (BitVec.ofNat 8 (n / 65536)).toNat +
    16777216 * (BitVec.ofNat 8 (n / 16777216)).toNat = _
  simp only [BitVec.toNat_ofNat]
  omega

theorem packet_length (off : Nat) (data : Bytes) : (packet off data).length = 8 + data.length := by
  simp only [packet, le4, List.length_append, List.length_cons, List.length_nil]
  omega

theorem packet_head (off : Nat) (data : Bytes) : (packet off data).take 2 = [0xA5#8, 0x5A#8] := rfl

theorem packet_body (off : Nat) (data : Bytes) : (packet off data).drop 4 = le4 off ++ data := rfl

theorem packet_data (off : Nat) (data : Bytes) : (packet off data).drop 8 = data := rfl

theorem packet_seq (off : Nat) (data : Bytes) : ((packet off data).drop 4).take 4 = le4 off := rfl

theorem packet_checked (off : Nat) (data : Bytes) : checked (packet off data) = true := by
  unfold checked
  rw [packet_body]
  show (_ == (BitVec.ofNat 8 (wordSum (le4 off ++ data) % 65536)).toNat +
    256 * (BitVec.ofNat 8 (wordSum (le4 off ++ data) % 65536 / 256)).toNat) = true
  simp only [BitVec.toNat_ofNat]
  rw [beq_iff_eq]
  omega

theorem recvAll_append (c : Cfg) (d : Dev) (a b : Bytes) :
    recvAll c d (a ++ b) = ((recvAll c (recvAll c d a).1 b).1, (recvAll c d a).2 ++ (recvAll c (recvAll c d a).1 b).2) := by
  induction a generalizing d with
  | nil => simp [recvAll]
  | cons x r ih =>
    show recvAll c d (x :: (r ++ b)) = _
    simp only [recvAll]
    rw [ih]
    simp

/-- Number of bytes of a message: 6 for the length, 8 and at most 8 of the image for the others. -/
def want (d : Dev) : Nat := if d.tot = 0 then 6 else 8 + min 8 (d.tot - d.next)

/-- A receiving application. -/
structure Live (d : Dev) : Prop where
  st : d.st = .run
  msg : d.msg.length < want d
  more : d.tot ≠ 0 → d.next < d.tot
  zero : d.tot = 0 → d.next = 0

theorem ready_iff {d : Dev} (h : d.tot ≠ 0 → d.next < d.tot) (hl : d.msg.length ≤ want d) :
    ready d ↔ d.msg.length = want d := by
  unfold ready want at *
  unfold MSGSIZE
  split
  · next h0 =>
    rw [if_pos h0] at hl
    omega
  · next h0 =>
    rw [if_neg h0] at hl
    have := h h0
    omega

theorem want_le (d : Dev) : want d ≤ 16 ∧ 6 ≤ want d := by
  unfold want
  split <;> omega

/-- A byte inside of a message. -/
theorem recv_more {c : Cfg} {d : Dev} (h : Live d) (b : Byte) (h2 : 2 ≤ d.msg.length) (hw : d.msg.length + 1 < want d) :
    recv c d b = ({ d with msg := d.msg ++ [b] }, []) := by
  have hle := want_le d
  unfold recv
  have hr : ¬ ready { d with msg := d.msg ++ [b] } := by
    rw [ready_iff (d := { d with msg := d.msg ++ [b] }) h.more (by simp only [List.length_append, List.length_cons, List.length_nil]; exact Nat.le_of_lt hw)]
    simp only [List.length_append, List.length_cons, List.length_nil]
    exact Nat.ne_of_lt hw
  rw [if_neg (by rw [h.st]; simp), if_neg (by unfold MSGSIZE; omega)]
  simp only [List.length_append, List.length_cons, List.length_nil]
  rw [if_neg (by omega), if_neg (by omega), if_neg hr]

/-- The last byte of a message. -/
theorem recv_last {c : Cfg} {d : Dev} (h : Live d) (b : Byte) (hw : d.msg.length + 1 = want d) :
    recv c d b = onMsg c { d with msg := d.msg ++ [b] } := by
  have hle := want_le d
  unfold recv
  have hr : ready { d with msg := d.msg ++ [b] } := by
    rw [ready_iff (d := { d with msg := d.msg ++ [b] }) h.more (by simp only [List.length_append, List.length_cons, List.length_nil]; exact Nat.le_of_eq hw)]
    simp only [List.length_append, List.length_cons, List.length_nil]
    exact hw
  rw [if_neg (by rw [h.st]; simp), if_neg (by unfold MSGSIZE; omega)]
  simp only [List.length_append, List.length_cons, List.length_nil]
  rw [if_neg (by omega), if_neg (by omega), if_pos hr]

/-- The rest of a message. -/
theorem recv_rest {c : Cfg} : ∀ (l : Bytes) {d : Dev}, Live d → 2 ≤ d.msg.length → l ≠ [] → d.msg.length + l.length = want d →
    recvAll c d l = onMsg c { d with msg := d.msg ++ l } := by
  intro l
  induction l with
  | nil => intro d _ _ h; exact absurd rfl h
  | cons b r ih =>
    intro d h h2 _ hw
    simp only [List.length_cons] at hw
    by_cases hr : r = []
    · subst hr
      simp only [List.length_nil] at hw
      simp only [recvAll]
      rw [recv_last h b (by omega)]
      simp
    · have hr0 : 0 < r.length := List.length_pos_iff.2 hr
      simp only [recvAll]
      rw [recv_more h b h2 (by omega)]
      have hl : Live { d with msg := d.msg ++ [b] } := by
        refine ⟨h.st, ?_, h.more, h.zero⟩
        show (d.msg ++ [b]).length < want d
        simp only [List.length_append, List.length_cons, List.length_nil]
        omega
      rw [ih hl (by simp only [List.length_append]; omega) hr
        (by show (d.msg ++ [b]).length + _ = want d; simp only [List.length_append, List.length_cons, List.length_nil]; omega)]
      simp

/-- A whole message. -/
theorem recv_msg {c : Cfg} {d : Dev} (h : Live d) (h0 : d.msg = []) (l : Bytes) (hl : l ≠ []) (hw : 2 + l.length = want d) :
    recvAll c d ([0xA5#8, 0x5A#8] ++ l) = onMsg c { d with msg := [0xA5#8, 0x5A#8] ++ l } := by
  have hle := want_le d
  show recvAll c d (0xA5#8 :: 0x5A#8 :: l) = _
  have e1 : recv c d 0xA5#8 = ({ d with msg := [0xA5#8] }, []) := by
    unfold recv
    rw [if_neg (by rw [h.st]; simp), if_neg (by rw [h0]; decide)]
    simp [h0]
  have e2 : recv c { d with msg := [0xA5#8] } 0x5A#8 = ({ d with msg := [0xA5#8, 0x5A#8] }, []) := by
    unfold recv
    rw [if_neg (by show ¬ d.st ≠ .run; rw [h.st]; simp), if_neg (by show ¬ 16 ≤ 1; decide)]
    simp
  simp only [recvAll]
  rw [e1]
  dsimp only
  rw [e2]
  have hl' : Live { d with msg := [0xA5#8, 0x5A#8] } := by
    refine ⟨h.st, ?_, h.more, h.zero⟩
    show 2 < want d
    omega
  dsimp only
  rw [recv_rest l hl' (by simp) hl (by show 2 + _ = want d; exact hw)]
  simp

/-! ## Storing -/

/-- What has been received: the first `s` of `T` bytes of `G`. -/
structure Got (c : Cfg) (G : Mem) (T : Nat) (f0 : Flash) (d : Dev) (s : Nat) : Prop where
  next : d.next = s
  tot : d.tot = T
  open_ : d.locked = false
  eight : s % 8 = 0
  page : ∀ i, i < 256 → d.page i = if i < s % 256 then G (s - s % 256 + i) else 0xFF#8
  written : ∀ x, x < s - s % 256 → d.fl .update x = G x
  erased : (s - s % 256) % c.ss ≠ 0 → ∀ x, s - s % 256 ≤ x → x / c.ss = (s - s % 256) / c.ss → d.fl .update x = 0xFF#8
  frame : ∀ p x, p ≠ .update ∨ c.part ≤ x → d.fl p x = f0 p x

/-- All bytes are in UPDATE. -/
structure Full (c : Cfg) (G : Mem) (T : Nat) (f0 : Flash) (d : Dev) : Prop where
  next : d.next = T
  tot : d.tot = T
  open_ : d.locked = false
  written : ∀ x, x < T → d.fl .update x = G x
  frame : ∀ p x, p ≠ .update ∨ c.part ≤ x → d.fl p x = f0 p x

/-- `G` with other bytes from `s` on. -/
def splice (G : Mem) (s : Nat) (data : Bytes) : Mem := fun x => if s ≤ x ∧ x < s + data.length then data.getD (x - s) 0 else G x

section
variable {c : Cfg} (w : c.WF) (h256 : 256 ∣ c.ss)
include h256

theorem same_sector {off x : Nat} (ho : off % 256 = 0) (h1 : off ≤ x) (h2 : x < off + 256) : x / c.ss = off / c.ss := by
  obtain ⟨q, hq⟩ := h256
  rw [hq, ← Nat.div_div_eq_div_mul, ← Nat.div_div_eq_div_mul]
  congr 1
  omega

theorem next_page {off : Nat} (ho : off % 256 = 0) (hz : (off + 256) % c.ss ≠ 0) : (off + 256) / c.ss = off / c.ss := by
  obtain ⟨q, hq⟩ := h256
  rw [hq] at hz ⊢
  rw [← Nat.div_div_eq_div_mul, ← Nat.div_div_eq_div_mul]
  have e : (off + 256) / 256 = off / 256 + 1 := by omega
  rw [e, Nat.succ_div, if_neg]
  · rfl
  · intro hd
    apply hz
    have e2 : off + 256 = 256 * (off / 256 + 1) := by omega
    rw [e2, Nat.mul_mod_mul_left, Nat.mod_eq_zero_of_dvd hd]

omit h256 in
theorem in_sector {off x : Nat} (hs : 0 < c.ss) (hz : off % c.ss = 0) (h1 : x / c.ss = off / c.ss) : x < off + c.ss := by
  have e := Nat.div_add_mod off c.ss
  have e' := Nat.div_add_mod x c.ss
  have := Nat.mod_lt x hs
  rw [h1] at e'
  omega

include w

theorem page_fits {off : Nat} (ho : off % 256 = 0) (hp : off < c.part) : off + 256 ≤ c.part := by
  have hpe : c.part = c.n * c.ss := rfl
  obtain ⟨q, hq⟩ := h256
  have : c.part = 256 * (c.n * q) := by rw [hpe, hq, Nat.mul_left_comm]
  omega

omit h256 in
theorem sector_fits {off : Nat} (hz : off % c.ss = 0) (hp : off < c.part) : off + c.ss ≤ c.part := by
  have hpe : c.part = c.n * c.ss := rfl
  have hss := w.ss_pos
  have e := Nat.div_add_mod off c.ss
  rw [hz, Nat.add_zero] at e
  rw [hpe] at hp ⊢
  rw [← e, Nat.mul_comm] at hp ⊢
  have := Nat.lt_of_mul_lt_mul_right hp
  rw [← Nat.succ_mul]
  exact Nat.mul_le_mul_right _ this

/-- The effect of writing a page. -/
theorem flush_spec {d : Dev} {off : Nat} {g : Mem} (hl : d.locked = false) (ho : off % 256 = 0) (hp : off < c.part)
    (he : off % c.ss ≠ 0 → ∀ x, off ≤ x → x / c.ss = off / c.ss → d.fl .update x = 0xFF#8)
    (hg : ∀ i, i < 256 → d.page i = g (off + i)) :
    (flushPage c d off).locked = false ∧ (flushPage c d off).page = (fun _ => 0xFF#8) ∧
    (∀ x, x < off → (flushPage c d off).fl .update x = d.fl .update x) ∧
    (∀ x, off ≤ x → x < off + 256 → (flushPage c d off).fl .update x = g x) ∧
    ((off + 256) % c.ss ≠ 0 → ∀ x, off + 256 ≤ x → x / c.ss = (off + 256) / c.ss → (flushPage c d off).fl .update x = 0xFF#8) ∧
    (∀ p x, p ≠ .update ∨ c.part ≤ x → (flushPage c d off).fl p x = d.fl p x) := by
  have hss : 0 < c.ss := Nat.lt_of_lt_of_le (by decide) w.ss_pos
  have hpf := page_fits w h256 ho hp
  have hge : 256 ≤ c.ss := Nat.le_of_dvd hss h256
  have ff (b : Byte) : (0xFF#8 : Byte) &&& b = b := BitVec.allOnes_and
  -- the flash before the page is programmed
  obtain ⟨f1, h1, hbase, hlow, hrest, hfr⟩ : ∃ f1 : Flash,
      (flushPage c d off) = { d with fl := f1.program .update off 256 d.page, page := fun _ => 0xFF#8 } ∧
      (∀ x, off ≤ x → x < off + 256 → f1 .update x = 0xFF#8) ∧ (∀ x, x < off → f1 .update x = d.fl .update x) ∧
      (∀ x, off + 256 ≤ x → x / c.ss = off / c.ss → f1 .update x = 0xFF#8) ∧
      (∀ p x, p ≠ .update ∨ c.part ≤ x → f1 p x = d.fl p x) := by
    by_cases hz : off % c.ss = 0
    · have hsf := sector_fits w hz hp
      refine ⟨d.fl.erase .update off c.ss, ?_, ?_, ?_, ?_, ?_⟩
      · unfold flushPage
        rw [if_pos hz]
        simp [eraseUpd, writeUpd, hl, PAGESIZE]
      · intro x h1 h2
        unfold Flash.erase
        rw [if_pos ⟨rfl, h1, by omega⟩]
      · intro x hx
        unfold Flash.erase
        rw [if_neg (by omega)]
      · intro x hx1 hx2
        unfold Flash.erase
        rw [if_pos ⟨rfl, by omega, in_sector hss hz hx2⟩]
      · intro p x hx
        unfold Flash.erase
        rw [if_neg]
        rintro ⟨e, e1, e2⟩
        rcases hx with hx | hx
        · exact hx e
        · omega
    · refine ⟨d.fl, ?_, ?_, ?_, ?_, ?_⟩
      · unfold flushPage
        rw [if_neg hz]
        simp [writeUpd, hl, PAGESIZE]
      · intro x h1 h2
        exact he hz x h1 (same_sector h256 ho h1 h2)
      · intro x _; rfl
      · intro x h1 h2
        exact he hz x (by omega) h2
      · intro p x _; rfl
  rw [h1]
  refine ⟨hl, rfl, ?_, ?_, ?_, ?_⟩
  · intro x hx
    show (if _ then _ else _) = _
    rw [if_neg (by omega)]
    exact hlow x hx
  · intro x hx1 hx2
    show (if _ then _ else _) = _
    rw [if_pos ⟨rfl, hx1, hx2⟩, hbase x hx1 hx2, ff, hg _ (by omega)]
    congr 1
    omega
  · intro hz x hx1 hx2
    show (if _ then _ else _) = _
    rw [if_neg (by omega)]
    exact hrest x hx1 (by rw [hx2]; exact next_page h256 ho hz)
  · intro p x hx
    show (if _ then _ else _) = _
    rw [if_neg]
    · exact hfr p x hx
    · rintro ⟨e, e1, e2⟩
      rcases hx with hx | hx
      · exact hx e
      · omega

/-- The data of one message are added. -/
theorem store_spec {G : Mem} {T s : Nat} {f0 : Flash} {d : Dev} (h : Got c G T f0 d s) (hs : s < T) (hT : T ≤ c.part - 8)
    (hk : (d.msg.drop 8).length = min 8 (T - s)) :
    (store c d).st = d.st ∧
    (s + (d.msg.drop 8).length < T → Got c (splice G s (d.msg.drop 8)) T f0 (store c d) (s + (d.msg.drop 8).length)) ∧
    (¬ s + (d.msg.drop 8).length < T → Full c (splice G s (d.msg.drop 8)) T f0 (store c d)) := by
  obtain ⟨hn, ht, hl, h8, hpg, hw, he, hf⟩ := h
  generalize hdd : d.msg.drop 8 = data at *
  have hoff : (s - s % 256) % 256 = 0 := by omega
  have hpage : ∀ i, i < 256 → (if s % 256 ≤ i ∧ i < s % 256 + data.length then data.getD (i - s % 256) 0 else d.page i) =
      (if i < s % 256 + data.length then splice G s data (s - s % 256 + i) else 0xFF#8) := by
    intro i hi
    by_cases h1 : s % 256 ≤ i ∧ i < s % 256 + data.length
    · rw [if_pos h1, if_pos h1.2]
      unfold splice
      rw [if_pos (by omega)]
      congr 1
      omega
    · rw [if_neg h1, hpg i hi]
      by_cases h2 : i < s % 256
      · rw [if_pos h2, if_pos (by omega)]
        unfold splice
        rw [if_neg (by omega)]
      · rw [if_neg h2, if_neg (by omega)]
  have hlow : ∀ x, x < s - s % 256 → splice G s data x = G x := by
    intro x hx
    unfold splice
    rw [if_neg (by omega)]
  let d1 : Dev := { d with page := fun i => if s % 256 ≤ i ∧ i < s % 256 + data.length then data.getD (i - s % 256) 0 else d.page i }
  have hse : store c d = { (if s % 256 + data.length = 256 ∨ T ≤ s + data.length then flushPage c d1 (s - s % 256) else d1) with
      next := s + data.length } := by
    subst hn ht hdd
    have hle : ¬ PAGESIZE < d.next % PAGESIZE + (d.msg.drop 8).length := by unfold PAGESIZE; omega
    unfold store
    exact if_neg hle
  rw [hse]
  by_cases hfl : s % 256 + data.length = 256 ∨ T ≤ s + data.length
  · rw [if_pos hfl]
    obtain ⟨f1, f2, f3, f4, f5, f6⟩ := flush_spec (c := c) w h256 (d := d1) (off := s - s % 256)
      (g := fun x => if x - (s - s % 256) < s % 256 + data.length then splice G s data x else 0xFF#8) hl hoff (by omega) he
      (fun i hi => by
        show (if _ then _ else _) = (if _ then _ else _)
        rw [hpage i hi, Nat.add_sub_cancel_left])
    have hst : (flushPage c d1 (s - s % 256)).st = d.st := by
      unfold flushPage eraseUpd writeUpd
      dsimp only
      split <;> split <;> (try split) <;> rfl
    have htt : (flushPage c d1 (s - s % 256)).tot = d.tot := by
      unfold flushPage eraseUpd writeUpd
      dsimp only
      split <;> split <;> (try split) <;> rfl
    refine ⟨hst, fun hlt => ?_, fun hge => ?_⟩
    · have e256 : s % 256 + data.length = 256 := by omega
      have em : (s + data.length) % 256 = 0 := by omega
      have eo : s + data.length = s - s % 256 + 256 := by omega
      refine ⟨rfl, htt.trans ht, f1, by omega, ?_, ?_, ?_, ?_⟩
      · intro i _
        rw [em, if_neg (by omega)]
        exact congrFun f2 i
      · intro x hx
        rw [em] at hx
        by_cases hxl : x < s - s % 256
        · rw [hlow x hxl, ← hw x hxl]
          exact f3 x hxl
        · show (flushPage c d1 (s - s % 256)).fl .update x = _
          rw [f4 x (by omega) (by omega)]
          rw [if_pos (by omega)]
      · rw [em, Nat.sub_zero, eo]
        exact f5
      · intro p x hx
        rw [← hf p x hx]
        exact f6 p x hx
    · refine ⟨by show s + data.length = T; omega, htt.trans ht, f1, ?_, ?_⟩
      · intro x hx
        by_cases hxl : x < s - s % 256
        · rw [hlow x hxl, ← hw x hxl]
          exact f3 x hxl
        · show (flushPage c d1 (s - s % 256)).fl .update x = _
          rw [f4 x (by omega) (by omega)]
          rw [if_pos (by omega)]
      · intro p x hx
        rw [← hf p x hx]
        exact f6 p x hx
  · rw [if_neg hfl]
    refine ⟨rfl, fun hlt => ?_, fun hge => absurd (by omega : s + data.length < T) hge⟩
    have em : (s + data.length) % 256 = s % 256 + data.length := by omega
    have eo : s + data.length - (s + data.length) % 256 = s - s % 256 := by omega
    refine ⟨rfl, ht, hl, by omega, ?_, ?_, ?_, hf⟩
    · intro i hi
      rw [em, show s + data.length - (s % 256 + data.length) = s - s % 256 by omega]
      exact hpage i hi
    · rw [eo]
      intro x hx
      rw [hlow x hx]
      exact hw x hx
    · rw [eo]
      exact he

end

/-! ## One message -/

/-- The application is between two messages, `s` of `T` bytes are received. -/
structure At (T s : Nat) (d : Dev) : Prop where
  st : d.st = .run
  msg : d.msg = []
  tot : d.tot = T
  next : d.next = s
  eight : s % 8 = 0
  more : s < T

theorem At.live {T s : Nat} {d : Dev} (h : At T s d) : Live d := by
  refine ⟨h.st, ?_, ?_, ?_⟩
  · rw [h.msg]
    have := (want_le d).2
    simp only [List.length_nil]
    omega
  · intro _
    rw [h.next, h.tot]
    exact h.more
  · intro h0
    have := h.more
    rw [h.tot] at h0
    omega

theorem At.want {T s : Nat} {d : Dev} (h : At T s d) : want d = 8 + min 8 (T - s) := by
  have := h.more
  unfold SerialUpdate.want
  rw [h.tot, h.next, if_neg (by omega)]

theorem flush_book (c : Cfg) (d : Dev) (off : Nat) :
    (flushPage c d off).st = d.st ∧ (flushPage c d off).tot = d.tot ∧ (flushPage c d off).locked = d.locked := by
  unfold flushPage eraseUpd writeUpd
  dsimp only
  refine ⟨?_, ?_, ?_⟩ <;> split <;> split <;> (try split) <;> rfl

theorem store_book (c : Cfg) (d : Dev) (h : d.next % 256 + (d.msg.drop 8).length ≤ 256) :
    (store c d).st = d.st ∧ (store c d).tot = d.tot ∧ (store c d).next = d.next + (d.msg.drop 8).length ∧
      (store c d).locked = d.locked := by
  have hle : ¬ PAGESIZE < d.next % PAGESIZE + (d.msg.drop 8).length := by unfold PAGESIZE; omega
  unfold store
  dsimp only
  rw [if_neg hle]
  dsimp only
  split
  · obtain ⟨h1, h2, h3⟩ := flush_book c
      { d with page := fun i => if d.next % PAGESIZE ≤ i ∧ i < d.next % PAGESIZE + (d.msg.drop 8).length then
        (d.msg.drop 8).getD (i - d.next % PAGESIZE) 0 else d.page i } (d.next - d.next % PAGESIZE)
    exact ⟨h1, h2, rfl, h3⟩
  · exact ⟨rfl, rfl, rfl, rfl⟩

theorem trigger_any (c : Cfg) (f : Flash) (l : Bool) :
    updateTrigger c true ⟨f, l, none, fun _ => 0#8⟩ = updateTrigger c true (run f) := rfl

/-- The end: UPDATE is requested to be installed. -/
structure Asked (c : Cfg) (f : Flash) (d : Dev) : Prop where
  st : d.st = .done
  locked : d.locked = true
  state : getState c d.fl .update = some ST_UPDATING
  flags : ∀ k, k < c.n → getFlag c d.fl k = some FL_NEW
  frame : ∀ p x, p ≠ .update ∨ x < c.last ∨ c.part ≤ x → d.fl p x = f p x

theorem finish_done {c : Cfg} (w : c.WF) (d : Dev) (h : d.tot ≤ d.next) : Asked c d.fl (finish c d) := by
  obtain ⟨w', h1, h2, h3, h4, h5⟩ := trigger_effect w d.fl
  have e : finish c d = { d with st := .done, fl := w'.fl, locked := w'.locked } := by
    unfold finish
    rw [if_pos h, trigger_any, h1]
  rw [e]
  refine ⟨rfl, h2, h3, h4, fun p x hx => h5 p x ?_⟩
  have := w.part_eq
  rcases hx with hx | hx | hx
  · exact .inl hx
  · exact .inr (.inl (by omega))
  · exact .inr (.inr hx)

/-- One message of the right length. -/
theorem packet_step (c : Cfg) {T s off : Nat} {d : Dev} (h : At T s d) {data : Bytes} (hd : data.length = min 8 (T - s))
    (ho : off < 4294967296) :
    recvAll c d (packet off data) =
      if off = s then (finish c { store c { d with msg := packet off data } with msg := [] }, ack (s + data.length)) else (d, ack s) := by
  have hm := h.more
  have hL : packet off data = [0xA5#8, 0x5A#8] ++ (packet off data).drop 2 := rfl
  have hlen := packet_length off data
  rw [hL, recv_msg h.live h.msg _ (by
      intro e
      have := congrArg List.length e
      rw [List.length_drop, hlen, List.length_nil] at this
      omega) (by rw [h.want, List.length_drop, hlen]; omega), ← hL]
  unfold onMsg
  have ht : ({ d with msg := packet off data } : Dev).tot ≠ 0 := by show d.tot ≠ 0; rw [h.tot]; omega
  rw [if_neg ht]
  have hc : checked ({ d with msg := packet off data } : Dev).msg = true := packet_checked off data
  rw [hc, if_neg (by simp)]
  have hv : val4 ((({ d with msg := packet off data } : Dev).msg.drop 4).take 4) = off := by
    show val4 (((packet off data).drop 4).take 4) = off
    rw [packet_seq, val4_le4, Nat.mod_eq_of_lt ho]
  rw [hv]
  show (if (if off = d.next then _ else _ : Dev).st = .ub then _ else _) = _
  by_cases he : off = s
  · have he' : off = d.next := by rw [h.next]; exact he
    rw [if_pos he', if_pos he]
    obtain ⟨b1, b2, b3, b4⟩ := store_book c { d with msg := packet off data } (by
      show d.next % 256 + ((packet off data).drop 8).length ≤ 256
      have := h.eight
      rw [packet_data, h.next]
      omega)
    rw [if_neg (by rw [b1]; show ¬ d.st = .ub; rw [h.st]; simp)]
    refine Prod.ext rfl (congrArg ack (b3.trans ?_))
    show d.next + ((packet off data).drop 8).length = _
    rw [packet_data, h.next]
  · have he' : ¬ off = d.next := by rw [h.next]; exact he
    rw [if_neg he', if_neg he, if_neg (by show ¬ d.st = .ub; rw [h.st]; simp)]
    have e2 : ({ d with msg := [] } : Dev) = d := by rw [← h.msg]
    show (finish c { d with msg := [] }, ack d.next) = _
    rw [e2, h.next]
    unfold finish
    rw [if_neg (by rw [h.tot, h.next]; omega)]

/-- A damaged message that is seen to be damaged. -/
theorem bad_step (c : Cfg) {T s : Nat} {d : Dev} (h : At T s d) {m : Bytes} (h2 : m.take 2 = [0xA5#8, 0x5A#8])
    (hd : m.length = 8 + min 8 (T - s)) (hc : checked m = false) : recvAll c d m = (d, ack s) := by
  have hm := h.more
  have hL : m = [0xA5#8, 0x5A#8] ++ m.drop 2 := by rw [← h2, List.take_append_drop]
  rw [hL, recv_msg h.live h.msg _ (by
      intro e
      have := congrArg List.length e
      rw [List.length_drop, hd, List.length_nil] at this
      omega) (by rw [h.want, List.length_drop, hd]; omega), ← hL]
  unfold onMsg
  have ht : ({ d with msg := m } : Dev).tot ≠ 0 := by show d.tot ≠ 0; rw [h.tot]; omega
  rw [if_neg ht, if_pos hc]
  have e2 : ({ d with msg := [] } : Dev) = d := by rw [← h.msg]
  show ({ d with msg := [] }, ack d.next) = _
  rw [e2, h.next]

/-- The application accepts the length. -/
theorem size_step (c : Cfg) {d : Dev} (hst : d.st = .run) (hm : d.msg = []) (ht : d.tot = 0) (hn : d.next = 0) {T : Nat}
    (hT : T ≤ c.part - 8) (h32 : T < 4294967296) :
    recvAll c d ([0xA5#8, 0x5A#8] ++ le4 T) = ({ d with tot := T }, ack 0) := by
  have hl : Live d := by
    refine ⟨hst, ?_, fun h => absurd ht h, fun _ => hn⟩
    have := (want_le d).2
    rw [hm]
    simp only [List.length_nil]
    omega
  rw [recv_msg hl hm (le4 T) (by simp [le4]) (by unfold want; rw [if_pos ht]; rfl)]
  unfold onMsg
  rw [if_pos ht]
  unfold onSize
  have hv : val4 ((({ d with msg := [0xA5#8, 0x5A#8] ++ le4 T } : Dev).msg.drop 2).take 4) = T := by
    show val4 (le4 T) = T
    rw [val4_le4, Nat.mod_eq_of_lt h32]
  dsimp only at hv ⊢
  rw [hv, if_neg (by omega), ← hm]

/-! ## The whole image -/

/-- A file as memory. -/
def memOf (file : Bytes) : Mem := fun x => file.getD x 0

theorem chunk_length (file : Bytes) (s : Nat) : (chunk file s).length = min 8 (file.length - s) := by
  unfold chunk
  rw [List.length_take, List.length_drop]

theorem splice_chunk (file : Bytes) (s : Nat) : splice (memOf file) s (chunk file s) = memOf file := by
  funext x
  unfold splice memOf
  rw [chunk_length]
  split
  · next h =>
    unfold chunk
    rw [List.getD_eq_getElem?_getD, List.getD_eq_getElem?_getD, List.getElem?_take_of_lt (by omega), List.getElem?_drop]
    congr 2
    omega
  · rfl

/-- **The file is received.** -/
structure Received (c : Cfg) (file : Bytes) (f0 : Flash) (d : Dev) : Prop where
  st : d.st = .done
  locked : d.locked = true
  data : ∀ x, x < file.length → x < c.last → d.fl .update x = file.getD x 0
  state : getState c d.fl .update = some ST_UPDATING
  flags : ∀ k, k < c.n → getFlag c d.fl k = some FL_NEW
  frame : ∀ p x, p ≠ .update ∨ c.part ≤ x → d.fl p x = f0 p x

/-- The next genuine packet. -/
theorem good_step {c : Cfg} (w : c.WF) (h256 : 256 ∣ c.ss) {file : Bytes} {f0 : Flash} {d : Dev} {s : Nat} (hT : file.length ≤ c.part - 8)
    (h : At file.length s d) (g : Got c (memOf file) file.length f0 d s) (ho : s < 4294967296) :
    (s + 8 < file.length → At file.length (s + 8) (recvAll c d (packet s (chunk file s))).1 ∧
      Got c (memOf file) file.length f0 (recvAll c d (packet s (chunk file s))).1 (s + 8)) ∧
    (¬ s + 8 < file.length → Received c file f0 (recvAll c d (packet s (chunk file s))).1) ∧
    (recvAll c d (packet s (chunk file s))).2 = ack (min file.length (s + 8)) := by
  have hm := h.more
  have h8 := h.eight
  have hl := chunk_length file s
  rw [packet_step c h hl ho, if_pos rfl]
  have g' : Got c (memOf file) file.length f0 { d with msg := packet s (chunk file s) } s := ⟨g.1, g.2, g.3, g.4, g.5, g.6, g.7, g.8⟩
  obtain ⟨b1, b2, b3, _⟩ := store_book c { d with msg := packet s (chunk file s) } (by
      show d.next % 256 + ((packet s (chunk file s)).drop 8).length ≤ 256
      rw [packet_data, h.next]
      omega)
  obtain ⟨s1, s2, s3⟩ := store_spec w h256 g' hm hT (by show ((packet s (chunk file s)).drop 8).length = _; rw [packet_data, hl])
  simp only [packet_data, splice_chunk] at s2 s3 b3
  have b2' : (store c { d with msg := packet s (chunk file s) }).tot = file.length := b2.trans h.tot
  have b3' : (store c { d with msg := packet s (chunk file s) }).next = s + (chunk file s).length := by rw [b3]; show d.next + _ = _; rw [h.next]
  refine ⟨fun hlt => ?_, fun hge => ?_, ?_⟩
  · have e8 : (chunk file s).length = 8 := by omega
    have e : finish c { store c { d with msg := packet s (chunk file s) } with msg := [] } =
        { store c { d with msg := packet s (chunk file s) } with msg := [] } := by
      unfold finish
      dsimp only
      rw [if_neg (by rw [b2', b3']; omega)]
    rw [e]
    rw [e8] at s2 b3'
    obtain ⟨q1, q2, q3, q4, q5, q6, q7, q8⟩ := s2 hlt
    exact ⟨⟨b1.trans h.st, rfl, b2', b3', by omega, hlt⟩, ⟨q1, q2, q3, q4, q5, q6, q7, q8⟩⟩
  · have q := s3 (by omega)
    have a := finish_done w { store c { d with msg := packet s (chunk file s) } with msg := [] } (by
      show (store c _).tot ≤ (store c _).next
      rw [b2', b3']
      omega)
    have hle : c.last ≤ c.part := by have := w.part_eq; omega
    refine ⟨a.st, a.locked, fun x hx hxl => ?_, a.state, a.flags, fun p x hx => ?_⟩
    · rw [a.frame .update x (.inr (.inl hxl))]
      exact q.written x hx
    · rw [a.frame p x (by rcases hx with hx | hx; exact .inl hx; exact .inr (.inr hx))]
      exact q.frame p x hx
  · dsimp only
    congr 1
    omega

/-- After the size. -/
theorem got_start {c : Cfg} {file : Bytes} (h0 : 0 < file.length) (f0 : Flash) :
    At file.length 0 { fl := f0, locked := false, tot := file.length } ∧
      Got c (memOf file) file.length f0 { fl := f0, locked := false, tot := file.length } 0 := by
  refine ⟨⟨rfl, rfl, rfl, rfl, rfl, h0⟩, ⟨rfl, rfl, rfl, rfl, ?_, ?_, ?_, ?_⟩⟩
  · intro i _
    simp
  · intro x hx
    omega
  · intro h
    simp at h
  · intro p x _
    rfl

theorem done_stays (c : Cfg) : ∀ (bs : Bytes) (d : Dev), d.st = .done → recvAll c d bs = (d, []) := by
  intro bs
  induction bs with
  | nil => intro d _; rfl
  | cons b r ih =>
    intro d h
    have e : recv c d b = (d, []) := by
      unfold recv
      rw [if_pos (by rw [h]; simp)]
    simp only [recvAll]
    rw [e]
    dsimp only
    rw [ih d h]
    rfl

/-- What comes over a line that damages bytes, and repeats and reorders packets: packets of the file, or messages of the same length
that fail the check. -/
inductive Packet (file : Bytes) : Bytes → Prop where
  | good (off : Nat) (h8 : off % 8 = 0) (hlt : off < file.length) : Packet file (packet off (chunk file off))
  | bad (m : Bytes) (h2 : m.take 2 = [0xA5#8, 0x5A#8]) (hl : m.length = 16) (hc : checked m = false) : Packet file m

theorem any_order_from {c : Cfg} (w : c.WF) (h256 : 256 ∣ c.ss) {file : Bytes} (h8 : file.length % 8 = 0) {f0 : Flash}
    (hT : file.length ≤ c.part - 8) (h32 : file.length < 4294967296) :
    ∀ (ps : List Bytes) {d : Dev} {s : Nat}, (∀ p ∈ ps, Packet file p) → At file.length s d → Got c (memOf file) file.length f0 d s →
      ((recvAll c d ps.flatten).1.st = .run ∨ Received c file f0 (recvAll c d ps.flatten).1) ∧
      ∀ m, s + 8 * m = file.length → List.Sublist ((List.range m).map (fun i => packet (s + 8 * i) (chunk file (s + 8 * i)))) ps →
        Received c file f0 (recvAll c d ps.flatten).1 := by
  intro ps
  induction ps with
  | nil =>
    intro d s _ h g
    refine ⟨.inl h.st, fun m hm hs => ?_⟩
    have := h.more
    have hm0 : 0 < m := by omega
    have := hs.length_le
    simp at this
    omega
  | cons p r ih =>
    intro d s hp h g
    have hmore := h.more
    have he := h.eight
    rw [List.flatten_cons, recvAll_append]
    dsimp only
    have hr : ∀ q ∈ r, Packet file q := fun q hq => hp q (List.mem_cons_of_mem _ hq)
    -- a message without effect
    have skip : (recvAll c d p).1 = d → p ≠ packet s (chunk file s) →
        ((recvAll c (recvAll c d p).1 r.flatten).1.st = .run ∨ Received c file f0 (recvAll c (recvAll c d p).1 r.flatten).1) ∧
        ∀ m, s + 8 * m = file.length → List.Sublist ((List.range m).map (fun i => packet (s + 8 * i) (chunk file (s + 8 * i)))) (p :: r) →
          Received c file f0 (recvAll c (recvAll c d p).1 r.flatten).1 := by
      intro e hne
      rw [e]
      refine ⟨(ih hr h g).1, fun m hm hs => (ih hr h g).2 m hm ?_⟩
      obtain ⟨k, rfl⟩ : ∃ k, m = k + 1 := ⟨m - 1, by omega⟩
      rw [List.range_succ_eq_map, List.map_cons] at hs ⊢
      cases hs with
      | cons _ h => exact h
      | cons_cons _ h => exact absurd (by simp) hne
    cases hp p (List.mem_cons_self ..) with
    | bad m h2 hl hc =>
      refine skip (by rw [bad_step c h h2 (by omega) hc]) ?_
      intro e
      rw [e, packet_checked] at hc
      simp at hc
    | good off ho hlt =>
      by_cases hso : off = s
      · subst hso
        obtain ⟨g1, g2, _⟩ := good_step w h256 hT h g (by omega)
        by_cases hl : off + 8 < file.length
        · obtain ⟨a, b⟩ := g1 hl
          refine ⟨(ih hr a b).1, fun m hm hs => (ih hr a b).2 (m - 1) (by omega) ?_⟩
          obtain ⟨k, rfl⟩ : ∃ k, m = k + 1 := ⟨m - 1, by omega⟩
          rw [List.range_succ_eq_map, List.map_cons] at hs
          simp only [Nat.mul_zero, Nat.add_zero, Nat.add_sub_cancel] at hs ⊢
          have := List.cons_sublist_cons.1 hs
          rw [List.map_map] at this
          have e : ((fun i => packet (off + 8 * i) (chunk file (off + 8 * i))) ∘ Nat.succ) =
              (fun i => packet (off + 8 + 8 * i) (chunk file (off + 8 + 8 * i))) := by
            funext i
            show packet (off + 8 * (i + 1)) _ = _
            rw [show off + 8 * (i + 1) = off + 8 + 8 * i by omega]
          rw [e] at this
          exact this
        · have q := g2 hl
          generalize (recvAll c d (packet off (chunk file off))).1 = d' at q
          rw [done_stays c _ d' q.st]
          dsimp only
          exact ⟨Or.inr q, fun _ _ _ => q⟩
      · have hl : (chunk file off).length = min 8 (file.length - s) := by rw [chunk_length]; omega
        have ho32 : off < 4294967296 := Nat.lt_trans hlt h32
        refine skip (by rw [packet_step c h hl ho32, if_neg hso]) ?_
        intro e
        have := congrArg (fun m => val4 ((m.drop 4).take 4)) e
        rw [packet_seq, packet_seq, val4_le4, val4_le4] at this
        omega

/-- **C77: whatever packets arrive, in whatever order, repeated or damaged, only the file is installed; and it is, if every packet arrives
once after the one before it.** -/
theorem device_any_order {c : Cfg} (w : c.WF) (h256 : 256 ∣ c.ss) {file : Bytes} (h0 : 0 < file.length) (h8 : file.length % 8 = 0)
    (hT : file.length ≤ c.part - 8) (h32 : file.length < 4294967296) (f0 : Flash) (ps : List Bytes) (hp : ∀ p ∈ ps, Packet file p) :
    ((recvAll c { fl := f0, locked := false } ([0xA5#8, 0x5A#8] ++ le4 file.length ++ ps.flatten)).1.st = .run ∨
      Received c file f0 (recvAll c { fl := f0, locked := false } ([0xA5#8, 0x5A#8] ++ le4 file.length ++ ps.flatten)).1) ∧
    (List.Sublist ((List.range (file.length / 8)).map (fun i => packet (8 * i) (chunk file (8 * i)))) ps →
      Received c file f0 (recvAll c { fl := f0, locked := false } ([0xA5#8, 0x5A#8] ++ le4 file.length ++ ps.flatten)).1) := by
  rw [recvAll_append, size_step c rfl rfl rfl rfl hT h32]
  obtain ⟨a, g⟩ := got_start (c := c) h0 f0
  obtain ⟨q1, q2⟩ := any_order_from w h256 h8 hT h32 ps hp a g
  refine ⟨q1, fun hs => q2 (file.length / 8) (by omega) ?_⟩
  simpa using hs

end Verif.SerialUpdate
