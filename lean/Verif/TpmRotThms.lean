import Verif.TpmToolsThms

/-!
# The root of trust written by the tool (C76)
-/

namespace Verif.TpmTools

open Verif Verif.Tpm Verif.Measure

/-! ## Vocabulary of the statements -/

/-- The indices `base, base + 1, ...` begin with the digests. -/
def Stored (nv : Nat → Option Bytes) (base : Nat) (ds : List Bytes) : Prop :=
  ∀ k (h : k < ds.length), ∃ b, nv (base + k) = some (ds[k] ++ b)

/-! ## One key -/

theorem createIndex_ok {c : Chip} {i n : Nat} {s s' : S} (h : createIndex c i n s = .ok () s') :
    s'.pcr = s.pcr ∧ (∀ j, j ≠ i → s'.nv j = s.nv j) ∧
      ((∃ b, s.nv i = some b ∧ s'.nv i = some b) ∨
        (s.nv i = none ∧ s'.nv i = some (List.replicate n 0xFF#8)) ∨
        (s.nv i = none ∧ s'.nv i = none)) := by
  have e : ({ s with k := s.k + 1 } : S).nv i = s.nv i := rfl
  unfold createIndex nvCreate call at h
  by_cases hf : c.fault s.k = 0
  · rw [if_pos hf] at h
    dsimp only at h
    cases hb : s.nv i with
    | some b =>
      rw [hb] at h
      dsimp only at h
      rw [if_pos rfl] at h
      cases h
      exact ⟨rfl, fun j _ => rfl, .inl ⟨b, rfl, hb⟩⟩
    | none =>
      rw [hb] at h
      dsimp only at h
      cases h
      refine ⟨rfl, fun j hj => setNv_other _ _ hj, .inr (.inl ⟨rfl, ?_⟩)⟩
      simp [setNv]
  · rw [if_neg hf] at h
    dsimp only at h
    split at h
    · cases h
      refine ⟨rfl, fun j _ => rfl, ?_⟩
      dsimp only
      cases hb : s.nv i with
      | some b => exact .inl ⟨b, rfl, rfl⟩
      | none => exact .inr (.inr ⟨rfl, rfl⟩)
    · cases h

theorem writeIndex_ok {c : Chip} {lk : Nat → Bool} {i : Nat} {d : Bytes} {s s' : S}
    (h : writeIndex c lk i d s = .ok () s') :
    lk i = false ∧ s'.pcr = s.pcr ∧ (∀ j, j ≠ i → s'.nv j = s.nv j) ∧
      ∃ b, s.nv i = some b ∧ d.length ≤ b.length ∧ s'.nv i = some (d ++ b.drop d.length) := by
  unfold writeIndex at h
  rw [call_ok] at h
  obtain ⟨_, h⟩ := h
  cases hb : s.nv i with
  | none => rw [show ({ s with k := s.k + 1 } : S).nv i = none from hb] at h; cases h
  | some b =>
    rw [show ({ s with k := s.k + 1 } : S).nv i = some b from hb] at h
    dsimp only at h
    split at h
    · cases h
    · next hl =>
      split at h
      · next hd =>
        cases h
        refine ⟨by simpa using hl, rfl, fun j hj => setNv_other _ _ hj, b, rfl, hd, ?_⟩
        simp [setNv]
      · cases h

/-- Writing the digest of a key. -/
theorem rotWrite_ok {c : Chip} {lk : Nat → Bool} {i : Nat} {d : Bytes} {s s' : S}
    (h : rotWrite c lk true i d s = .ok () s') :
    lk i = false ∧ s'.pcr = s.pcr ∧ (∀ j, j ≠ i → s'.nv j = s.nv j) ∧
      (∃ b, s'.nv i = some (d ++ b)) ∧ (s.nv i = none → s'.nv i = some d) := by
  unfold rotWrite at h
  rw [if_pos rfl] at h
  simp only [Tpm.bind_ok] at h
  obtain ⟨_, s1, h1, _, s2, h2, h3⟩ := h
  rw [plain_ok] at h1
  obtain ⟨_, rfl⟩ := h1
  obtain ⟨p2, n2, c2⟩ := createIndex_ok h2
  obtain ⟨l3, p3, n3, b, hb, hl, e3⟩ := writeIndex_ok h3
  refine ⟨l3, by rw [p3, p2], fun j hj => by rw [n3 j hj, n2 j hj], ⟨_, e3⟩, ?_⟩
  intro hn
  rcases c2 with ⟨b', q, _⟩ | ⟨_, q⟩ | ⟨_, q⟩
  · rw [show ({ s with k := s.k + 1 } : S).nv i = s.nv i from rfl, hn] at q; cases q
  · rw [hb] at q
    have e : b = List.replicate d.length 0xFF#8 := by injection q
    rw [e3, e]
    simp
  · rw [hb] at q; cases q

theorem rotRead_ok {c : Chip} {i : Nat} {d : Bytes} {s s' : S} (h : rotRead c i s = .ok d s') :
    s.nv i = some d ∧ d.length ≤ 64 ∧ s'.pcr = s.pcr ∧ s'.nv = s.nv := by
  unfold rotRead readPublic at h
  rw [Tpm.bind_ok] at h
  obtain ⟨n, s1, h1, h2⟩ := h
  rw [call_ok] at h1
  obtain ⟨_, h1⟩ := h1
  cases hb : s.nv i with
  | none => rw [show ({ s with k := s.k + 1 } : S).nv i = none from hb] at h1; cases h1
  | some b =>
    rw [show ({ s with k := s.k + 1 } : S).nv i = some b from hb] at h1
    cases h1
    unfold nvRead at h2
    rw [call_ok] at h2
    obtain ⟨_, h2⟩ := h2
    rw [show ({ ({ s with k := s.k + 1 } : S) with k := ({ s with k := s.k + 1 } : S).k + 1 } : S).nv i = some b from hb] at h2
    dsimp only at h2
    rw [if_pos (by omega)] at h2
    split at h2
    · cases h2
    · next hc =>
      cases h2
      refine ⟨by simp, ?_, rfl, rfl⟩
      unfold MAXDIG at hc
      simp
      omega

theorem rotLock_ok {c : Chip} {lk lk' : Nat → Bool} {dl : Bool} {i : Nat} {s s' : S}
    (h : rotLock c lk dl i s = .ok lk' s') :
    s'.pcr = s.pcr ∧ s'.nv = s.nv ∧ (∀ j, j ≠ i → lk' j = lk j) ∧ (lk' i = (dl || lk i)) := by
  unfold rotLock at h
  cases dl with
  | false =>
    rw [if_neg (by simp), pure_ok] at h
    obtain ⟨rfl, rfl⟩ := h
    exact ⟨rfl, rfl, fun _ _ => rfl, by simp⟩
  | true =>
    rw [if_pos rfl, Tpm.bind_ok] at h
    obtain ⟨_, s1, h1, h2⟩ := h
    rw [plain_ok] at h1
    obtain ⟨_, rfl⟩ := h1
    rw [pure_ok] at h2
    obtain ⟨rfl, rfl⟩ := h2
    refine ⟨rfl, rfl, fun j hj => ?_, by simp⟩
    have : (j == i) = false := by simpa using hj
    dsimp only
    rw [this, Bool.false_or]

/-- One key of a successful run. -/
theorem rotKey_ok {c : Chip} {lk lk' : Nat → Bool} {dw dl : Bool} {i : Nat} {d : Bytes} {s s' : S}
    (h : rotKey c lk dw dl i d s = .ok lk' s') :
    s'.pcr = s.pcr ∧ (∀ j, j ≠ i → s'.nv j = s.nv j ∧ lk' j = lk j) ∧ lk' i = (dl || lk i) ∧
      (∃ b, s'.nv i = some b ∧ b.length ≤ 64) ∧
      (dw = true → lk i = false ∧ (∃ b, s'.nv i = some (d ++ b)) ∧ (s.nv i = none → s'.nv i = some d)) ∧
      (dw = false → s'.nv = s.nv) := by
  unfold rotKey at h
  simp only [Tpm.bind_ok] at h
  obtain ⟨_, s1, h1, b, s2, h2, h3⟩ := h
  obtain ⟨r1, r2, r3, r4⟩ := rotRead_ok h2
  obtain ⟨k1, k2, k3, k4⟩ := rotLock_ok h3
  have hb : s'.nv i = some b := by rw [k2, r4]; exact r1
  cases dw with
  | false =>
    unfold rotWrite at h1
    rw [if_neg (by simp), pure_ok] at h1
    obtain ⟨_, rfl⟩ := h1
    exact ⟨by rw [k1, r3], fun j hj => ⟨by rw [k2, r4], k3 j hj⟩, k4, ⟨b, hb, r2⟩, by simp,
      fun _ => by rw [k2, r4]⟩
  | true =>
    obtain ⟨w1, w2, w3, w4, w5⟩ := rotWrite_ok h1
    exact ⟨by rw [k1, r3, w2], fun j hj => ⟨by rw [k2, r4, w3 j hj], k3 j hj⟩, k4, ⟨b, hb, r2⟩,
      fun _ => ⟨w1, by rw [k2, r4]; exact w4, fun hn => by rw [k2, r4]; exact w5 hn⟩, by simp⟩

/-! ## Errors -/

/-- An error has a return value other than 0. -/
def NZ {α : Type} (m : T α) : Prop := ∀ s rc s', m s = .err rc s' → rc ≠ 0

theorem NZ.bind {α β : Type} {m : T α} {f : α → T β} (h : NZ m) (h' : ∀ a, NZ (f a)) : NZ (m >>= f) := by
  intro s rc s' e
  rw [bind_eq] at e
  cases hm : m s with
  | ok a s1 => rw [hm] at e; exact h' a s1 rc s' e
  | err rc1 s1 => rw [hm] at e; cases e; exact h s _ _ hm
  | bad b s1 => rw [hm] at e; cases e

theorem NZ.pure {α : Type} (a : α) : NZ (Pure.pure a : T α) := fun _ _ _ h => by cases h

theorem NZ.call {α : Type} {c : Chip} {f : T α} (h : NZ f) : NZ (Tpm.call c f) := by
  intro s rc s' e
  unfold Tpm.call at e
  split at e
  · exact h _ _ _ e
  · next hf => cases e; exact hf

theorem NZ.plain (c : Chip) : NZ (Tpm.plain c) := NZ.call fun _ _ _ h => by cases h

theorem nz_create (c : Chip) (i n : Nat) : NZ (createIndex c i n) := by
  have hn : NZ (nvCreate c i n) := by
    refine NZ.call fun s rc s' h => ?_
    split at h
    · cases h; decide
    · cases h
  intro s rc s' h
  unfold createIndex at h
  split at h
  · next hc =>
    split at h
    · cases h
    · cases h; exact hn _ _ _ hc
  · next hx => exact absurd h (hx _ _)

theorem nz_write (c : Chip) (lk : Nat → Bool) (i : Nat) (d : Bytes) : NZ (writeIndex c lk i d) := by
  refine NZ.call fun s rc s' h => ?_
  split at h
  · cases h; decide
  · split at h
    · cases h; decide
    · split at h
      · cases h
      · cases h; decide

theorem nz_rotKey (c : Chip) (lk : Nat → Bool) (dw dl : Bool) (i : Nat) (d : Bytes) :
    NZ (rotKey c lk dw dl i d) := by
  unfold rotKey
  refine NZ.bind ?_ fun _ => NZ.bind ?_ fun _ => ?_
  · unfold rotWrite
    split
    · exact NZ.bind (NZ.plain c) fun _ => NZ.bind (nz_create c i _) fun _ => nz_write c lk i d
    · exact NZ.pure _
  · unfold rotRead readPublic
    refine NZ.bind (NZ.call fun s rc s' h => ?_) fun n => NZ.call fun s rc s' h => ?_
    · split at h
      · cases h; decide
      · cases h
    · split at h
      · cases h; decide
      · split at h
        · split at h
          · cases h
          · cases h
        · cases h; decide
  · unfold rotLock
    split
    · exact NZ.bind (NZ.plain c) fun _ => NZ.pure _
    · exact NZ.pure _

/-! ## All keys -/

theorem rotLoop_ok {c : Chip} {dw dl : Bool} (ds : List Bytes) (i : Nat) (lk : Nat → Bool) (s : S)
    {lk' : Nat → Bool} {s' : S} (h : rotLoop c dw dl ds i lk s = .done 0 lk' s') :
    s'.pcr = s.pcr ∧ (∀ j, (j < i ∨ i + ds.length ≤ j) → s'.nv j = s.nv j ∧ lk' j = lk j) ∧
      (∀ k, k < ds.length → lk' (i + k) = (dl || lk (i + k))) ∧
      (dw = true → Stored s'.nv i ds ∧ (∀ k, k < ds.length → lk (i + k) = false) ∧
        ∀ k (hk : k < ds.length), s.nv (i + k) = none → s'.nv (i + k) = some ds[k]) ∧
      (dw = false → s'.nv = s.nv) := by
  induction ds generalizing i lk s with
  | nil =>
    cases h
    exact ⟨rfl, fun _ _ => ⟨rfl, rfl⟩, fun k hk => absurd hk (Nat.not_lt_zero k),
      fun _ => ⟨fun k hk => absurd hk (Nat.not_lt_zero k), fun k hk => absurd hk (Nat.not_lt_zero k),
        fun k hk => absurd hk (Nat.not_lt_zero k)⟩, fun _ => rfl⟩
  | cons d r ih =>
    unfold rotLoop at h
    cases hk : rotKey c lk dw dl i d s with
    | bad b s1 => rw [hk] at h; cases h
    | err rc s1 =>
      rw [hk] at h
      have e : rc = 0 := by injection h
      exact absurd e (nz_rotKey c lk dw dl i d s _ _ hk)
    | ok lk1 s1 =>
      rw [hk] at h
      dsimp only at h
      obtain ⟨a1, a2, a3, a4, a5, a6⟩ := rotKey_ok hk
      obtain ⟨b1, b2, b3, b4, b5⟩ := ih (i + 1) lk1 s1 h
      have bi := b2 i (.inl (by omega))
      refine ⟨by rw [b1, a1], ?_, ?_, ?_, ?_⟩
      · intro j hj
        rw [List.length_cons] at hj
        have q1 := b2 j (by omega)
        have q2 := a2 j (by omega)
        exact ⟨by rw [q1.1, q2.1], by rw [q1.2, q2.2]⟩
      · intro k hkk
        rw [List.length_cons] at hkk
        cases k with
        | zero => rw [Nat.add_zero, bi.2, a3]
        | succ k =>
          have := b3 k (by omega)
          rw [show i + (k + 1) = i + 1 + k by omega, this, (a2 (i + 1 + k) (by omega)).2]
      · intro hw
        obtain ⟨c1, c2, c3⟩ := b4 hw
        obtain ⟨d1, d2, d3⟩ := a5 hw
        refine ⟨?_, ?_, ?_⟩
        · intro k hkk
          rw [List.length_cons] at hkk
          cases k with
          | zero => rw [Nat.add_zero, bi.1]; exact d2
          | succ k =>
            have := c1 k (by omega)
            rw [show i + (k + 1) = i + 1 + k by omega]
            exact this
        · intro k hkk
          rw [List.length_cons] at hkk
          cases k with
          | zero => exact d1
          | succ k =>
            have := c2 k (by omega)
            rw [(a2 (i + 1 + k) (by omega)).2] at this
            rw [show i + (k + 1) = i + 1 + k by omega]
            exact this
        · intro k hkk hn
          have hk' := hkk
          rw [List.length_cons] at hk'
          cases k with
          | zero =>
            rw [Nat.add_zero] at hn ⊢
            rw [bi.1]
            exact d3 hn
          | succ k =>
            rw [show i + (k + 1) = i + 1 + k by omega] at hn ⊢
            exact c3 k (by omega) (by rw [(a2 (i + 1 + k) (by omega)).1]; exact hn)
      · intro hw
        rw [b5 hw, a6 hw]

theorem rotStart_ok {c : Chip} {s s' : S} (h : rotStart c s = .ok () s') : s'.pcr = s.pcr ∧ s'.nv = s.nv := by
  unfold rotStart at h
  simp only [Tpm.bind_ok, plain_ok] at h
  obtain ⟨_, s1, ⟨_, rfl⟩, _, s2, ⟨_, rfl⟩, _, rfl⟩ := h
  exact ⟨rfl, rfl⟩

/-- **What a successful run of `rot` leaves behind.** With `-write`, the index of every key begins with the
hash of the key, and is exactly this hash if it did not exist before; none of these indices had been locked.
With `-lock`, they are locked. No other index and no register changes; without `-write` none changes. -/
theorem rot_ok {c : Chip} {base : Nat} {hash : Bytes → Bytes} {dw dl : Bool} {keys : List Bytes}
    {lk lk' : Nat → Bool} {s s' : S} (h : rot c base hash dw dl keys lk s = .done 0 lk' s') :
    s'.pcr = s.pcr ∧ (∀ j, (j < base ∨ base + keys.length ≤ j) → s'.nv j = s.nv j ∧ lk' j = lk j) ∧
      (∀ k, k < keys.length → lk' (base + k) = (dl || lk (base + k))) ∧
      (dw = true → Stored s'.nv base (keys.map hash) ∧ (∀ k, k < keys.length → lk (base + k) = false) ∧
        ∀ k (hk : k < keys.length), s.nv (base + k) = none → s'.nv (base + k) = some (hash keys[k])) ∧
      (dw = false → s'.nv = s.nv) := by
  unfold rot at h
  cases hs : rotStart c s with
  | bad b s1 => rw [hs] at h; cases h
  | err rc s1 =>
    rw [hs] at h
    have e : rc = 0 := by injection h
    have nz : NZ (rotStart c) := NZ.bind (NZ.plain c) fun _ => NZ.bind (NZ.plain c) fun _ => NZ.plain c
    exact absurd e (nz s _ _ hs)
  | ok u s1 =>
    rw [hs] at h
    obtain ⟨p1, n1⟩ := rotStart_ok hs
    have := rotLoop_ok _ _ _ _ h
    rw [p1, n1] at this
    obtain ⟨a1, a2, a3, a4, a5⟩ := this
    have e : (keys.map hash).length = keys.length := List.length_map ..
    refine ⟨a1, fun j hj => a2 j (by omega), fun k hk => a3 k (by omega),
      fun hw => ⟨(a4 hw).1, fun k hk => (a4 hw).2.1 k (by omega), fun k hk hn => ?_⟩, a5⟩
    have := (a4 hw).2.2 k (by omega) hn
    rw [List.getElem_map] at this
    exact this

/-- **The bootloader accepts the keys of the keystore**: after a successful `rot -write` with the hash of the
bootloader, the root of trust is confirmed for every key. -/
theorem rot_then_boot {B : Build} {hash : Bytes → Bytes} {dl : Bool} {keys : List Bytes} {lk lk' : Nat → Bool}
    {s s' t : S} (h : rot B.chip B.rotBase hash true dl keys lk s = .done 0 lk' s')
    (hlen : ∀ x, (hash x).length = B.dlen) (ht : t.nv = s'.nv) (hq : Tpm.Quiet B.chip t) {k : Nat}
    (hk : k < keys.length) : ∃ t', checkRot B k (hash keys[k]) t = .ok () t' := by
  obtain ⟨_, _, _, hw, _⟩ := rot_ok h
  obtain ⟨b, hb⟩ := (hw rfl).1 k (by rw [List.length_map]; exact hk)
  rw [List.getElem_map] at hb
  refine checkRot_complete hq (by rw [ht]; exact hb) ?_ ?_
  · rw [List.length_append, hlen]; omega
  · exact List.take_left' (hlen _)

/-- **And no other keys**, for any hint that differs from the hash of the key in the slot. -/
theorem rot_no_other {B : Build} {hash : Bytes → Bytes} {dl : Bool} {keys : List Bytes} {lk lk' : Nat → Bool}
    {s s' t : S} (h : rot B.chip B.rotBase hash true dl keys lk s = .done 0 lk' s')
    (hlen : ∀ x, (hash x).length = B.dlen) (ht : t.nv = s'.nv) {k : Nat} (hk : k < keys.length) {hint : Bytes}
    (hh : hint ≠ hash keys[k]) (u : Unit) (t' : S) : checkRot B k hint t ≠ .ok u t' := by
  obtain ⟨_, _, _, hw, _⟩ := rot_ok h
  obtain ⟨b, hb⟩ := (hw rfl).1 k (by rw [List.length_map]; exact hk)
  rw [List.getElem_map] at hb
  refine checkRot_other_key (by rw [ht]; exact hb) ?_ u t'
  rw [List.take_left' (hlen _)]
  exact fun e => hh e.symm

/-- **Finding: the tool does not know the hash of the bootloader.** Run without `-sha384` for a bootloader
with a longer digest on a fresh TPM, it reports success, and the bootloader confirms no key at all. -/
theorem rot_short_hash {B : Build} {hash : Bytes → Bytes} {dl : Bool} {keys : List Bytes} {lk lk' : Nat → Bool}
    {s s' t : S} (h : rot B.chip B.rotBase hash true dl keys lk s = .done 0 lk' s')
    (hlen : ∀ x, (hash x).length < B.dlen) (hf : ∀ k, s.nv (B.rotBase + k) = none) (ht : t.nv = s'.nv) {k : Nat}
    (hk : k < keys.length) (hint : Bytes) (u : Unit) (t' : S) : checkRot B k hint t ≠ .ok u t' := by
  obtain ⟨_, _, _, hw, _⟩ := rot_ok h
  have hb := (hw rfl).2.2 k hk (hf k)
  intro hc
  obtain ⟨⟨b, h1, h2, _⟩, _⟩ := checkRot_sound hc
  rw [ht, hb] at h1
  cases h1
  have := hlen keys[k]
  omega

/-- With a longer hash than that of the bootloader, a key is confirmed only if its hint is the beginning of
the other hash. -/
theorem rot_long_hash {B : Build} {hash : Bytes → Bytes} {dl : Bool} {keys : List Bytes} {lk lk' : Nat → Bool}
    {s s' t : S} (h : rot B.chip B.rotBase hash true dl keys lk s = .done 0 lk' s')
    (hlen : ∀ x, B.dlen ≤ (hash x).length) (ht : t.nv = s'.nv) {k : Nat} (hk : k < keys.length) {hint : Bytes}
    {t' : S} (hc : checkRot B k hint t = .ok () t') : hint = (hash keys[k]).take B.dlen := by
  obtain ⟨_, _, _, hw, _⟩ := rot_ok h
  obtain ⟨b, hb⟩ := (hw rfl).1 k (by rw [List.length_map]; exact hk)
  rw [List.getElem_map] at hb
  obtain ⟨⟨b', h1, _, h3⟩, _⟩ := checkRot_sound hc
  rw [ht, hb] at h1
  cases h1
  rw [← h3, List.take_append_of_le_length (hlen _)]

/-- **A locked root of trust stays.** After a successful `rot -write -lock`, no later run with `-write` for
the same base and any keys (at least one) succeeds, as long as the locks last. -/
theorem rot_locked {c : Chip} {base : Nat} {hash hash' : Bytes → Bytes} {dl : Bool} {keys keys' : List Bytes}
    {lk lk1 lk2 : Nat → Bool} {s s1 t t' : S} (h : rot c base hash true true keys lk s = .done 0 lk1 s1)
    (hn : keys ≠ []) (hn' : keys' ≠ []) : rot c base hash' true dl keys' lk1 t ≠ .done 0 lk2 t' := by
  intro h2
  obtain ⟨_, _, hl, _⟩ := rot_ok h
  obtain ⟨_, _, _, hw, _⟩ := rot_ok h2
  have p1 := hl 0 (List.length_pos_iff.2 hn)
  have p2 := (hw rfl).2.1 0 (List.length_pos_iff.2 hn')
  rw [p2] at p1
  cases p1

/-- **Finding: an index larger than the array of 64 bytes overflows it**, if it exists already: its size, not
that of the digest, is read. -/
theorem rot_overflow {c : Chip} {lk : Nat → Bool} {dl : Bool} {i : Nat} {d b : Bytes} {s : S}
    (hq : Tpm.Quiet c s) (hb : s.nv i = some b) (hl : 64 < b.length) :
    ∃ s', rotKey c lk false dl i d s = .bad .hashBuf s' := by
  unfold rotKey rotWrite
  rw [if_neg (by simp), bind_eq]
  change ∃ s', (rotRead c i >>= fun _ => rotLock c lk dl i) s = .bad .hashBuf s'
  have hr : ∃ s', rotRead c i s = .bad .hashBuf s' := by
    unfold rotRead readPublic
    rw [bind_eq, call_quiet hq]
    dsimp only
    rw [hb]
    dsimp only
    unfold nvRead
    rw [call_quiet (hq.step (by simp))]
    dsimp only
    rw [hb]
    dsimp only
    rw [if_pos (by omega), if_pos (by unfold MAXDIG; omega)]
    exact ⟨_, rfl⟩
  obtain ⟨s', hr⟩ := hr
  rw [bind_eq, hr]
  exact ⟨s', rfl⟩

end Verif.TpmTools
