import Verif.SerialXferThms

/-!
# Update over the serial line: errors on the line (C77)
-/

namespace Verif.SerialUpdate

open Verif

/-! ## The check -/

theorem wordSum_set : ∀ (l : Bytes) (i : Nat) (b : Byte) (hi : i < l.length), l.length % 2 = 0 →
    wordSum (l.set i b) + (if i % 2 = 0 then 1 else 256) * (l[i]).toNat = wordSum l + (if i % 2 = 0 then 1 else 256) * b.toNat
  | [], i, b, hi, _ => by simp at hi
  | [a], i, b, hi, he => by simp at he
  | a :: a' :: r, 0, b, hi, he => by
    simp only [List.set_cons_zero, wordSum, List.getElem_cons_zero, Nat.zero_mod, if_true]
    omega
  | a :: a' :: r, 1, b, hi, he => by
    simp only [List.set_cons_succ, List.set_cons_zero, wordSum, List.getElem_cons_succ, List.getElem_cons_zero]
    rw [if_neg (by decide)]
    omega
  | a :: a' :: r, i + 2, b, hi, he => by
    simp only [List.length_cons] at hi he
    have ih := wordSum_set r i b (by omega) (by omega)
    have e : (i + 2) % 2 = i % 2 := by omega
    simp only [List.set_cons_succ, wordSum, List.getElem_cons_succ, e]
    omega

/-- **C77: a packet with an even number of data bytes and one wrong byte behind the header is refused.** -/
theorem one_byte_error_detected {off : Nat} {data : Bytes} (he : data.length % 2 = 0) {i : Nat} (h2 : 2 ≤ i) (hi : i < (packet off data).length)
    {b : Byte} (hb : b ≠ (packet off data)[i]) : checked ((packet off data).set i b) = false := by
  have hne : ∀ {x y : Byte}, x ≠ y → x.toNat ≠ y.toNat := fun h e => h (BitVec.eq_of_toNat_eq e)
  have hbl := b.isLt
  have hlen := packet_length off data
  by_cases h4 : i < 4
  · have hbody : ((packet off data).set i b).drop 4 = le4 off ++ data := by
      rw [List.drop_set, if_pos h4]
      rfl
    unfold checked
    rw [hbody]
    rw [beq_eq_false_iff_ne]
    have e2 : i = 2 ∨ i = 3 := by omega
    rcases e2 with rfl | rfl
    · have := hne hb
      show _ ≠ b.toNat + 256 * (BitVec.ofNat 8 (wordSum (le4 off ++ data) % 65536 / 256)).toNat
      have this : b.toNat ≠ (BitVec.ofNat 8 (wordSum (le4 off ++ data) % 65536)).toNat := this
      simp only [BitVec.toNat_ofNat] at this ⊢
      omega
    · have := hne hb
      show _ ≠ (BitVec.ofNat 8 (wordSum (le4 off ++ data) % 65536)).toNat + 256 * b.toNat
      have this : b.toNat ≠ (BitVec.ofNat 8 (wordSum (le4 off ++ data) % 65536 / 256)).toNat := this
      simp only [BitVec.toNat_ofNat] at this ⊢
      omega
  · obtain ⟨j, rfl⟩ : ∃ j, i = j + 4 := ⟨i - 4, by omega⟩
    have hj : j < (le4 off ++ data).length := by
      simp only [List.length_append, le4, List.length_cons, List.length_nil]
      omega
    have hset : (packet off data).set (j + 4) b = (packet off data).take 4 ++ (le4 off ++ data).set j b := rfl
    have hbj : b ≠ (le4 off ++ data)[j] := hb
    have hw := wordSum_set (le4 off ++ data) j b hj (by simp only [List.length_append, le4, List.length_cons, List.length_nil]; omega)
    have hn := hne hbj
    have hol := ((le4 off ++ data)[j]).isLt
    rw [hset]
    unfold checked
    rw [beq_eq_false_iff_ne]
    show wordSum ((le4 off ++ data).set j b) % 65536 ≠ (BitVec.ofNat 8 (wordSum (le4 off ++ data) % 65536)).toNat +
      256 * (BitVec.ofNat 8 (wordSum (le4 off ++ data) % 65536 / 256)).toNat
    generalize (le4 off ++ data)[j] = o at *
    generalize wordSum ((le4 off ++ data).set j b) = S' at *
    generalize wordSum (le4 off ++ data) = S at *
    simp only [BitVec.toNat_ofNat]
    split at hw <;> omega

theorem wordSum_tail : ∀ (l : Bytes) (x : Byte), l.length % 2 = 0 → wordSum (l ++ [x]) = wordSum l
  | [], x, _ => rfl
  | [a], x, he => by simp at he
  | a :: a' :: r, x, he => by
    simp only [List.length_cons] at he
    show a.toNat + 256 * a'.toNat + wordSum (r ++ [x]) = a.toNat + 256 * a'.toNat + wordSum r
    rw [wordSum_tail r x (by omega)]

/-- **C77, finding: the last byte of a file of odd length is not covered by the check.** The packet with this byte damaged is a correct packet of
another file. -/
theorem last_byte_not_covered (off : Nat) {data : Bytes} (he : data.length % 2 = 0) (x y : Byte) :
    (packet off (data ++ [x])).dropLast ++ [y] = packet off (data ++ [y]) := by
  have e : wordSum (le4 off ++ (data ++ [x])) = wordSum (le4 off ++ (data ++ [y])) := by
    have hl : (le4 off ++ data).length % 2 = 0 := by
      simp only [List.length_append, le4, List.length_cons, List.length_nil]
      omega
    rw [← List.append_assoc, ← List.append_assoc, wordSum_tail _ x hl, wordSum_tail _ y hl]
  unfold packet
  dsimp only
  rw [e, ← List.append_assoc, ← List.append_assoc, ← List.append_assoc, ← List.append_assoc, List.dropLast_concat]
  simp only [List.append_assoc]

/-! ## Lost and additional bytes -/

/-- A list of pairs of bytes none of which is the header. -/
def NoHeader : Bytes → Prop
  | a :: b :: r => [a, b] ≠ [0xA5#8, 0x5A#8] ∧ NoHeader r
  | [] => True
  | _ => False

theorem skip_pairs (c : Cfg) {d : Dev} (hst : d.st = .run) (hm : d.msg = []) : ∀ (l : Bytes), NoHeader l → recvAll c d l = (d, [])
  | [], _ => rfl
  | [a], h => absurd h (by simp [NoHeader])
  | a :: b :: r, h => by
    have e1 : recv c d a = ({ d with msg := [a] }, []) := by
      unfold recv
      rw [if_neg (by rw [hst]; simp), if_neg (by rw [hm]; decide)]
      simp [hm]
    have e2 : recv c { d with msg := [a] } b = (d, []) := by
      have e0 : ({ d with msg := [] } : Dev) = d := by rw [← hm]
      unfold recv
      rw [if_neg (by show ¬ d.st ≠ .run; rw [hst]; simp), if_neg (by show ¬ 16 ≤ 1; decide)]
      dsimp only
      rw [if_neg (by simp), if_pos (by simp), if_neg (by exact h.1), e0]
    simp only [recvAll]
    rw [e1]
    dsimp only
    rw [e2]
    dsimp only
    rw [skip_pairs c hst hm r h.2]
    rfl

/-- **C77, finding: after one additional byte the application is out of step for ever.** The search for the header drops two bytes at a time, and the
tool repeats the same 16 bytes. -/
theorem desync_forever (c : Cfg) {d : Dev} (hst : d.st = .run) (hm : d.msg = []) {x z : Byte} {m : Bytes}
    (hp : NoHeader (0x5A#8 :: m)) (n : Nat) :
    recvAll c d (x :: (List.replicate n (0xA5#8 :: 0x5A#8 :: m ++ [z])).flatten) = ({ d with msg := [if n = 0 then x else z] }, []) := by
  have hadd : ∀ y : Byte, recvAll c d [y] = ({ d with msg := [y] }, []) := by
    intro y
    simp only [recvAll]
    unfold recv
    rw [if_neg (by rw [hst]; simp), if_neg (by rw [hm]; decide)]
    simp [hm]
  have hstep : ∀ y : Byte, recvAll c { d with msg := [y] } (0xA5#8 :: 0x5A#8 :: m ++ [z]) = ({ d with msg := [z] }, []) := by
    intro y
    have h1 : recvAll c d (y :: (0xA5#8 :: 0x5A#8 :: m ++ [z])) = ({ d with msg := [z] }, []) := by
      have e : y :: (0xA5#8 :: 0x5A#8 :: m ++ [z]) = (y :: 0xA5#8 :: 0x5A#8 :: m) ++ [z] := rfl
      rw [e, recvAll_append, skip_pairs c hst hm (y :: 0xA5#8 :: 0x5A#8 :: m) ⟨by simp, hp⟩]
      dsimp only
      rw [hadd]
      rfl
    have h2 := recvAll_append c d [y] (0xA5#8 :: 0x5A#8 :: m ++ [z])
    rw [hadd] at h2
    dsimp only at h2
    have h3 : recvAll c d ([y] ++ (0xA5#8 :: 0x5A#8 :: m ++ [z])) = ({ d with msg := [z] }, []) := h1
    rw [h3] at h2
    have h4 := congrArg Prod.fst h2
    have h5 := congrArg Prod.snd h2
    dsimp only [List.nil_append] at h4 h5
    exact Prod.ext h4.symm h5.symm
  have gen : ∀ (n : Nat) (y : Byte), recvAll c { d with msg := [y] } (List.replicate n (0xA5#8 :: 0x5A#8 :: m ++ [z])).flatten =
      ({ d with msg := [if n = 0 then y else z] }, []) := by
    intro n
    induction n with
    | zero => intro y; rfl
    | succ n ih =>
      intro y
      rw [List.replicate_succ, List.flatten_cons, recvAll_append, hstep y]
      dsimp only
      rw [ih z]
      simp
  have e : x :: (List.replicate n (0xA5#8 :: 0x5A#8 :: m ++ [z])).flatten = [x] ++ (List.replicate n (0xA5#8 :: 0x5A#8 :: m ++ [z])).flatten := rfl
  rw [e, recvAll_append, hadd x]
  dsimp only
  rw [gen n x]
  rfl

/-- **C77, finding: the length is sent only once.** If a byte of it is lost, the application does not answer, and the tool has nothing to repeat. -/
theorem lost_size_no_answer (c : Cfg) : ∀ (l : Bytes) {d : Dev}, d.st = .run → d.tot = 0 → d.msg.length + l.length < 6 →
    (recvAll c d l).2 = [] ∧ (recvAll c d l).1.tot = 0 := by
  intro l
  induction l with
  | nil => intro d _ h _; exact ⟨rfl, h⟩
  | cons b r ih =>
    intro d hst ht hl
    simp only [List.length_cons] at hl
    have h1 : (recv c d b).2 = [] ∧ (recv c d b).1.st = .run ∧ (recv c d b).1.tot = 0 ∧ (recv c d b).1.msg.length ≤ d.msg.length + 1 := by
      have hlen : (d.msg ++ [b]).length = d.msg.length + 1 := by simp
      unfold recv
      rw [if_neg (by rw [hst]; simp), if_neg (by unfold MSGSIZE; omega)]
      dsimp only
      rw [hlen]
      split
      · exact ⟨rfl, hst, ht, by dsimp only; omega⟩
      split
      · split
        · exact ⟨rfl, hst, ht, by dsimp only; omega⟩
        · exact ⟨rfl, hst, ht, by simp⟩
      rw [if_neg]
      · exact ⟨rfl, hst, ht, by dsimp only; omega⟩
      · unfold ready MSGSIZE
        dsimp only
        omega
    obtain ⟨q1, q2, q3, q4⟩ := h1
    obtain ⟨i1, i2⟩ := ih q2 q3 (by omega)
    simp only [recvAll]
    rw [q1, i1]
    exact ⟨rfl, i2⟩

theorem size_not_repeated {s : Srv} (h : s.ph = .star) (h0 : 0 < s.file.length) (hp : s.part = none) (hk : s.pkt = []) {bs : Bytes}
    (hb : ∀ b ∈ bs, b ≠ ACK) :
    (srvAll s (START :: bs)).2 = [0xA5#8, 0x5A#8] ++ le4 s.file.length ∧ (srvAll s (START :: bs)).1.ph = .send ∧
      alarm (srvAll s (START :: bs)).1 = [] := by
  have e1 : srvRecv s START = ({ s with ph := .send }, [0xA5#8, 0x5A#8] ++ le4 s.file.length) := by
    unfold srvRecv
    rw [h]
    dsimp only
    rw [if_pos rfl, if_pos h0]
  obtain ⟨e, he⟩ := srv_skip bs (s := { s with ph := .send }) rfl hp hb
  simp only [srvAll]
  rw [e1]
  dsimp only
  rw [he]
  exact ⟨by simp, rfl, hk⟩

/-- **C77, finding: a file that is too large makes the tool wait for ever.** -/
theorem too_large_stuck {c : Cfg} {file : Bytes} (h0 : 0 < file.length) (hT : c.part - 8 < file.length) (h32 : file.length < 4294967296)
    {f : Flash} {l : Bool} {vs : Bytes} (hv : ∀ b ∈ vs, b ≠ ACK) {k : Nat} (hk : 2 ≤ k) :
    (exchange c k { file := file } { fl := f, locked := l } (START :: vs)).1.ph = .send ∧
      alarm (exchange c k { file := file } { fl := f, locked := l } (START :: vs)).1 = [] ∧
      (exchange c k { file := file } { fl := f, locked := l } (START :: vs)).2 = { fl := f, locked := l } := by
  obtain ⟨e, he⟩ := srv_skip vs (s := { file := file, ph := .send }) rfl rfl hv
  have hs : srvAll { file := file } (START :: vs) = ({ file := file, ph := .send, err := e }, [0xA5#8, 0x5A#8] ++ le4 file.length) := by
    simp only [srvAll]
    have e1 : srvRecv { file := file } START = ({ file := file, ph := .send }, [0xA5#8, 0x5A#8] ++ le4 file.length) := by
      unfold srvRecv
      dsimp only
      rw [if_pos rfl, if_pos h0]
    rw [e1]
    dsimp only
    rw [he]
    simp
  have hd : recvAll c { fl := f, locked := l } ([0xA5#8, 0x5A#8] ++ le4 file.length) =
      ({ fl := f, locked := l }, [ERR, ERR, ERR, ERR, START]) := by
    rw [recv_msg (live_nil rfl rfl (fun h => absurd rfl h) (fun _ => rfl)) rfl (le4 file.length) (by simp [le4]) rfl]
    unfold onMsg
    rw [if_pos rfl]
    unfold onSize
    have hv : val4 ((([0xA5#8, 0x5A#8] ++ le4 file.length : Bytes).drop 2).take 4) = file.length := by
      show val4 (le4 file.length) = _
      rw [val4_le4, Nat.mod_eq_of_lt h32]
    dsimp only
    rw [hv, if_pos hT]
  obtain ⟨e', he'⟩ := srv_skip [ERR, ERR, ERR, ERR, START] (s := { file := file, ph := .send, err := e }) rfl rfl (by decide)
  obtain ⟨k, rfl⟩ : ∃ j, k = j + 2 := ⟨k - 2, by omega⟩
  unfold exchange
  dsimp only
  rw [hs]
  dsimp only
  rw [hd]
  dsimp only
  rw [if_neg (by simp)]
  unfold exchange
  dsimp only
  rw [he']
  simp [recvAll, alarm]

/-! ## A version with a byte `#` -/

/-- Low acks are ignored. -/
theorem low_ack {s : Srv} (h : s.ph = .send) (hp : s.part = none) {off : Nat} (ho : off < s.high) (h32 : off < 4294967296) :
    srvAll s (ack off) = ({ s with err := 0 }, []) := by
  rw [srv_ack (.inl h) hp h32]
  have e : ({ s with part := none, err := 0 } : Srv) = { s with err := 0 } := by rw [← hp]
  rw [e]
  unfold gotAck
  show (match s.ph with | .send => _ | .last => _ | _ => _) = _
  rw [h]
  show onAck _ off = _
  unfold onAck
  dsimp only
  split
  · rfl
  · rfl

/-- The tool when it has taken the last byte of version 35 for the start of an ack. -/
def misled (file : Bytes) : Srv :=
  { file := file, ph := .send, len := 43, high := 35, pkt := packet 35 (chunk file 35), part := none, err := 0 }

/-- **C77, finding: no file of more than 43 bytes is transferred to an application of version 35.** The tool sends from offset 35 on, the application
asks for offset 0, the tool ignores this; also after any number of alarms. -/
theorem hash_version_stuck {c : Cfg} {file : Bytes} (h43 : 43 < file.length) (hT : file.length ≤ c.part - 8) (h32 : file.length < 4294967296)
    (f : Flash) {k : Nat} (hk : 3 ≤ k) :
    exchange c k { file := file } (devStart c 35 f).1 (devStart c 35 f).2 = (misled file, { fl := f, locked := false, tot := file.length }) ∧
    recvAll c { fl := f, locked := false, tot := file.length } (alarm (misled file)) = ({ fl := f, locked := false, tot := file.length }, ack 0) ∧
    srvAll (misled file) (ack 0) = (misled file, []) := by
  have a : At file.length 0 { fl := f, locked := false, tot := file.length } := ⟨rfl, rfl, rfl, rfl, rfl, by omega⟩
  have hl : (chunk file 35).length = min 8 (file.length - 0) := by rw [chunk_length]; omega
  have hpk : recvAll c { fl := f, locked := false, tot := file.length } (packet 35 (chunk file 35)) =
      ({ fl := f, locked := false, tot := file.length }, ack 0) := by
    rw [packet_step c a hl (by omega), if_neg (by omega)]
  have hlow : srvAll (misled file) (ack 0) = (misled file, []) := low_ack rfl rfl (by show 0 < 35; decide) (by decide)
  refine ⟨?_, hpk, hlow⟩
  have hd : devStart c 35 f = ({ fl := f, locked := false }, [START, 0#8, 0#8, 0#8, ACK]) := by
    unfold devStart confirm
    rw [if_neg (by decide)]
    rfl
  rw [hd]
  have hs1 : srvAll { file := file } [START, 0#8, 0#8, 0#8, ACK] =
      ({ file := file, ph := .send, part := some [] }, [0xA5#8, 0x5A#8] ++ le4 file.length) := by
    have e1 : srvRecv { file := file } START = ({ file := file, ph := .send }, [0xA5#8, 0x5A#8] ++ le4 file.length) := by
      unfold srvRecv
      dsimp only
      rw [if_pos rfl, if_pos (by omega)]
    have ez : srvRecv { file := file, ph := .send } 0#8 = ({ file := file, ph := .send }, []) := rfl
    have ea : srvRecv { file := file, ph := .send } ACK = ({ file := file, ph := .send, part := some [] }, []) := rfl
    simp only [srvAll, e1, ez, ea]
    simp
  have hs2 : srvAll { file := file, ph := .send, part := some [] } (ack 0) = (misled file, packet 35 (chunk file 35)) := by
    have e4 : gotAck { file := file, ph := .send } 35 = (misled file, packet 35 (chunk file 35)) := by
      show onAck _ 35 = _
      unfold onAck misled
      have hc : (chunk file 35).length = 8 := by rw [chunk_length]; omega
      dsimp only
      rw [if_neg (by omega), if_neg (by omega), hc, if_pos (by omega)]
    have b1 : srvRecv { file := file, ph := .send, part := some [] } ACK = ({ file := file, ph := .send, part := some [ACK] }, []) := rfl
    have b2 : srvRecv { file := file, ph := .send, part := some [ACK] } 0#8 = ({ file := file, ph := .send, part := some [ACK, 0#8] }, []) := rfl
    have b3 : srvRecv { file := file, ph := .send, part := some [ACK, 0#8] } 0#8 =
      ({ file := file, ph := .send, part := some [ACK, 0#8, 0#8] }, []) := rfl
    have b4 : srvRecv { file := file, ph := .send, part := some [ACK, 0#8, 0#8] } 0#8 = (misled file, packet 35 (chunk file 35)) := by
      rw [← e4]
      rfl
    have b5 : srvRecv (misled file) 0#8 = (misled file, []) := rfl
    show srvAll _ [ACK, 0#8, 0#8, 0#8, 0#8] = _
    simp only [srvAll, b1, b2, b3, b4, b5]
    simp
  obtain ⟨k, rfl⟩ : ∃ j, k = j + 3 := ⟨k - 3, by omega⟩
  unfold exchange
  dsimp only
  rw [hs1]
  dsimp only
  rw [size_step c rfl rfl rfl rfl hT h32]
  dsimp only
  rw [if_neg (by simp [ack])]
  unfold exchange
  dsimp only
  rw [hs2]
  dsimp only
  rw [hpk]
  dsimp only
  rw [if_neg (by simp [ack])]
  unfold exchange
  dsimp only
  rw [hlow]
  simp [recvAll]

/-- **C77, finding: without the last ack the tool waits for ever:** the application has ended and does not answer the repeated packet. -/
theorem lost_last_ack (c : Cfg) {d : Dev} (h : d.st = .done) (s : Srv) (n : Nat) :
    recvAll c d (List.replicate n (alarm s)).flatten = (d, []) := done_stays c _ d h

end Verif.SerialUpdate
