import Verif.TpmBoot
import Verif.TpmSealThms
import Verif.ImageThms
import Verif.UpdateThms

/-!
# Measured boot and the root of trust in the TPM: theorems (C59)
-/

namespace Verif.Measure

open Verif Verif.Tpm

/-! ## Specification -/

/-- `H` is the hash function that the hash contexts compute: feeding a message in pieces gives the
hash of the message. -/
def Computes (h : Hasher) (H : Bytes → Bytes) : Prop :=
  ∀ pieces : List Bytes, h.final (pieces.foldl h.update h.init) = H pieces.flatten

/-- The registers after the measurements `log` into register `i`. -/
def Log (c : Chip) (i : Nat) (log : List Bytes) (p : Nat → Bytes) : Nat → Bytes :=
  fun j => if j = i then log.foldl c.extend (p i) else p j

/-- A collision of the extension: two different pairs of register value and digest give the same
value. -/
def ExtClash (c : Chip) (p d p' d' : Bytes) : Prop := (p, d) ≠ (p', d') ∧ c.extend p d = c.extend p' d'

/-- Somewhere on the way of the measurements `l` and `l'` the extensions collide. -/
def ReplayClash (c : Chip) (p : Bytes) (l : List Bytes) (p' : Bytes) (l' : List Bytes) : Prop :=
  ∃ a x b a' x' b', l = a ++ x :: b ∧ l' = a' ++ x' :: b' ∧
    ExtClash c (a.foldl c.extend p) x (a'.foldl c.extend p') x'

/-- A collision of the hash function, as far as the digest is measured. -/
def HashClash (H : Bytes → Bytes) (n : Nat) (x y : Bytes) : Prop := x ≠ y ∧ (H x).take n = (H y).take n

/-- What is measured of an area. -/
def measurement (B : Build) (H : Bytes → Bytes) (area : Bytes) : Bytes := (H area).take B.pcrSz

/-- A hash function with digests of the configured size, not smaller than those of the registers. -/
structure Fits (B : Build) (H : Bytes → Bytes) : Prop where
  comp : Computes B.h H
  len : ∀ a, B.pcrSz ≤ (H a).length
  blk : 0 < B.blk
  blk2 : B.blk < 4294967296

/-- A state with a later number of calls. -/
def tick (n : Nat) (s : S) : S := { s with k := s.k + n }

/-! ## The hash over an area -/

theorem hashLoop_eq (B : Build) (m : Mem) (sz : Nat) (hb : 0 < B.blk) (hb2 : B.blk < 4294967296)
    (hsz : sz + B.blk ≤ 4294967296) (fuel pos p : Nat) (x : B.h.Ctx) (hp : pos < sz ∨ pos = 0)
    (hf : sz - pos < fuel) :
    ∃ cs : List Bytes, hashLoop B m sz fuel pos p x = some (cs.foldl B.h.update x) ∧
      cs.flatten = slice m p (sz - pos) := by
  induction fuel generalizing pos p x with
  | zero => omega
  | succ fuel ih =>
    unfold hashLoop
    dsimp only
    rw [Nat.mod_eq_of_lt (a := pos + B.blk) (by omega)]
    by_cases hl : pos + B.blk > sz
    · rw [if_pos hl]
      rw [show (pos + (sz - pos)) % 4294967296 = sz by rw [Nat.mod_eq_of_lt (by omega)]; omega,
        if_neg (by omega)]
      exact ⟨[slice m p (sz - pos)], rfl, by simp⟩
    · rw [if_neg hl, Nat.mod_eq_of_lt (a := pos + B.blk) (by omega)]
      by_cases he : pos + B.blk < sz
      · rw [if_pos he]
        obtain ⟨cs, h1, h2⟩ := ih (pos + B.blk) (p + B.blk) (B.h.update x (slice m p B.blk))
          (.inl he) (by omega)
        refine ⟨slice m p B.blk :: cs, ?_, ?_⟩
        · rw [h1]; rfl
        · rw [List.flatten_cons, h2, show sz - pos = B.blk + (sz - (pos + B.blk)) by omega, slice_append]
      · rw [if_neg he]
        refine ⟨[slice m p B.blk], rfl, ?_⟩
        rw [show sz - pos = B.blk by omega]
        simp

/-- **The digest is the hash of the whole area**, for every size of area and block whose sum does not
exceed 4 GiB. -/
theorem selfHash_eq {B : Build} {H : Bytes → Bytes} (f : Fits B H) (m : Mem) (p sz : Nat)
    (hsz : sz + B.blk ≤ 4294967296) : selfHash B m p sz = some (H (slice m p sz)) := by
  obtain ⟨cs, h1, h2⟩ := hashLoop_eq B m sz f.blk f.blk2 hsz (sz + 1) 0 p B.h.init (.inr rfl) (by omega)
  unfold selfHash
  rw [h1]
  dsimp only [Option.map]
  rw [f.comp cs, h2]
  rfl

/-- **The loop does not end for larger areas**: the sum of position and block size wraps around, and
the position starts again at 0. -/
theorem hashLoop_endless (B : Build) (m : Mem) (sz : Nat) (hb : 0 < B.blk) (hd : B.blk ∣ 4294967296)
    (hsz : 4294967296 - B.blk < sz) (fuel pos p : Nat) (x : B.h.Ctx)
    (hp : B.blk ∣ pos) (hp2 : pos < 4294967296) : hashLoop B m sz fuel pos p x = none := by
  induction fuel generalizing pos p x with
  | zero => rfl
  | succ fuel ih =>
    have hle : pos + B.blk ≤ 4294967296 := by
      obtain ⟨a, ha⟩ := hp
      obtain ⟨n, hn⟩ := hd
      have h1 : a < n := by
        apply Nat.lt_of_mul_lt_mul_left (a := B.blk)
        omega
      have h2 : B.blk * (a + 1) ≤ B.blk * n := Nat.mul_le_mul_left _ h1
      rw [Nat.mul_add] at h2
      omega
    have hmod : (pos + B.blk) % 4294967296 ≤ 4294967296 - B.blk ∧
        B.blk ∣ (pos + B.blk) % 4294967296 := by
      by_cases he : pos + B.blk = 4294967296
      · rw [he]; exact ⟨by omega, by simp⟩
      · rw [Nat.mod_eq_of_lt (by omega)]
        have h3 : B.blk ∣ pos + B.blk := Nat.dvd_add hp (Nat.dvd_refl _)
        refine ⟨?_, h3⟩
        obtain ⟨a, ha⟩ := h3
        obtain ⟨n, hn⟩ := hd
        have h1 : a < n := by
          apply Nat.lt_of_mul_lt_mul_left (a := B.blk)
          omega
        have h2 : B.blk * (a + 1) ≤ B.blk * n := Nat.mul_le_mul_left _ h1
        rw [Nat.mul_add] at h2
        omega
    unfold hashLoop
    dsimp only
    rw [if_neg (show ¬ (pos + B.blk) % 4294967296 > sz by omega),
      if_pos (show (pos + B.blk) % 4294967296 < sz by omega)]
    exact ih _ _ _ hmod.2 (by omega)

theorem selfHash_endless (B : Build) (m : Mem) (p sz : Nat) (hb : 0 < B.blk) (hd : B.blk ∣ 4294967296)
    (hsz : 4294967296 - B.blk < sz) : selfHash B m p sz = none := by
  unfold selfHash
  rw [hashLoop_endless B m sz hb hd hsz _ 0 p _ (Nat.dvd_zero _) (by omega)]
  rfl

/-! ## Extending a register -/

theorem ignore_plain (c : Chip) (s : S) : ignore (plain c) s = .ok () (tick 1 s) := by
  by_cases h : c.fault s.k = 0 <;> simp [ignore, plain, call, tick, h]

theorem log_one (c : Chip) (i : Nat) (d : Bytes) (p : Nat → Bytes) :
    Log c i [d] p = fun j => if j = i then c.extend (p i) d else p j := rfl

theorem log_nil (c : Chip) (i : Nat) (p : Nat → Bytes) : Log c i [] p = p := by
  funext j
  unfold Log
  split
  · next h => rw [h]; rfl
  · rfl

theorem log_append (c : Chip) (i : Nat) (a b : List Bytes) (p : Nat → Bytes) :
    Log c i (a ++ b) p = Log c i b (Log c i a p) := by
  funext j
  unfold Log
  split
  · simp [List.foldl_append]
  · rfl

/-- **What `wolfBoot_tpm2_extend` does**, except in the simulator: the register is extended by the
first bytes of the digest unless the command fails; with debugging, a failure to read the register
afterwards is reported although it has been extended. -/
theorem extend_run (B : Build) (hs : B.sim = false) (i : Nat) (d : Bytes) (s : S) :
    extend B i d s =
      if d.length < B.pcrSz then .bad .hashBuf (tick 1 s)
      else if B.chip.fault (s.k + 1) ≠ 0 then .err (B.chip.fault (s.k + 1)) (tick 2 s)
      else if B.debug = true then
        if B.chip.fault (s.k + 2) ≠ 0 then
          .err (B.chip.fault (s.k + 2)) { tick 3 s with pcr := Log B.chip i [d.take B.pcrSz] s.pcr }
        else .ok () { tick 3 s with pcr := Log B.chip i [d.take B.pcrSz] s.pcr }
      else .ok () { tick 2 s with pcr := Log B.chip i [d.take B.pcrSz] s.pcr } := by
  unfold extend simReset
  rw [bind_eq, ignore_plain]
  dsimp only
  rw [if_neg (by simp [hs])]
  show (extendBy B i d >>= fun _ => debugRead B i) (tick 1 s) = _
  rw [bind_eq]
  unfold extendBy
  by_cases hl : d.length < B.pcrSz
  · rw [if_pos hl, if_pos hl]; rfl
  · rw [if_neg hl, if_neg hl]
    unfold extendPCR call
    by_cases hf : B.chip.fault (s.k + 1) = 0
    · rw [if_pos (show B.chip.fault (tick 1 s).k = 0 from hf),
        if_neg (show ¬ B.chip.fault (s.k + 1) ≠ 0 from fun h => h hf)]
      dsimp only
      unfold debugRead
      by_cases hd : B.debug = true
      · rw [if_pos hd, if_pos hd, bind_eq]
        unfold readPCR call
        by_cases hf2 : B.chip.fault (s.k + 2) = 0
        · rw [if_neg (show ¬ B.chip.fault (s.k + 2) ≠ 0 from fun h => h hf2)]
          dsimp only
          rw [if_pos (show B.chip.fault ((tick 1 s).k + 1) = 0 from hf2)]
          rfl
        · rw [if_pos (show B.chip.fault (s.k + 2) ≠ 0 from hf2)]
          dsimp only
          rw [if_neg (show ¬ B.chip.fault ((tick 1 s).k + 1) = 0 from hf2)]
          rfl
      · rw [if_neg hd, if_neg hd]
        rfl
    · rw [if_neg (show ¬ B.chip.fault (tick 1 s).k = 0 from hf),
        if_pos (show B.chip.fault (s.k + 1) ≠ 0 from hf)]
      rfl

/-- Success means that the register has been extended. -/
theorem extend_ok {B : Build} (hs : B.sim = false) {i : Nat} {d : Bytes} {s s' : S}
    (h : extend B i d s = .ok () s') :
    B.pcrSz ≤ d.length ∧ s'.pcr = Log B.chip i [d.take B.pcrSz] s.pcr ∧ s'.nv = s.nv ∧ s.k ≤ s'.k := by
  rw [extend_run B hs] at h
  repeat' split at h
  all_goals first
    | cases h
      refine ⟨by omega, rfl, rfl, ?_⟩
      show s.k ≤ s.k + _
      omega
    | simp at h

/-- Without failures the register is extended. -/
theorem extend_quiet {B : Build} (hs : B.sim = false) {i : Nat} {d : Bytes} {s : S}
    (hq : Tpm.Quiet B.chip s) (hl : B.pcrSz ≤ d.length) :
    ∃ s', extend B i d s = .ok () s' ∧ s'.pcr = Log B.chip i [d.take B.pcrSz] s.pcr ∧
      Tpm.Quiet B.chip s' := by
  have h1 := hq (s.k + 1) (by omega)
  have h2 := hq (s.k + 2) (by omega)
  rw [extend_run B hs, if_neg (by omega), if_neg (by simpa using h1)]
  have q : ∀ n p, Tpm.Quiet B.chip { tick n s with pcr := p } := by
    intro n p j hj
    exact hq j (Nat.le_trans (Nat.le_add_right _ _) hj)
  split
  · rw [if_neg (by simpa using h2)]
    exact ⟨_, rfl, rfl, q _ _⟩
  · exact ⟨_, rfl, rfl, q _ _⟩

/-- However it ends, the register is extended or nothing happens; without debugging a failure means
that nothing has happened. -/
theorem extend_cases (B : Build) (hs : B.sim = false) (i : Nat) (d : Bytes) (s : S) :
    (extend B i d s).st.nv = s.nv ∧
    ((extend B i d s).st.pcr = s.pcr ∨
      (extend B i d s).st.pcr = Log B.chip i [d.take B.pcrSz] s.pcr) ∧
    (∀ rc s', extend B i d s = .err rc s' → B.debug = false → s'.pcr = s.pcr) := by
  rw [extend_run B hs]
  refine ⟨?_, ?_, ?_⟩
  · repeat' split
    all_goals rfl
  · repeat' split
    all_goals first
      | exact .inl rfl
      | exact .inr rfl
  · intro rc s' h hd
    repeat' split at h
    all_goals first
      | (cases h; rfl)
      | (simp at h; done)
      | simp_all

/-- **A digest shorter than those of the registers is read beyond its end** (SHA-256 images with
registers of SHA-384). -/
theorem extend_overread {B : Build} (hs : B.sim = false) {i : Nat} {d : Bytes} (s : S)
    (h : d.length < B.pcrSz) : extend B i d s = .bad .hashBuf (tick 1 s) := by
  rw [extend_run B hs, if_pos h]

/-- **In the simulator the registers from 16 on keep the last measurement only.** -/
theorem extend_sim {B : Build} (hs : B.sim = true) {i : Nat} (hi : 16 ≤ i) {d : Bytes} {s : S}
    (hq : Tpm.Quiet B.chip s) (hd : B.debug = false) (hl : B.pcrSz ≤ d.length) :
    ∃ s', extend B i d s = .ok () s' ∧
      s'.pcr i = B.chip.extend (List.replicate B.pcrSz 0) (d.take B.pcrSz) := by
  have h1 := hq (s.k + 1) (by omega)
  have h2 := hq (s.k + 2) (by omega)
  unfold extend
  rw [bind_eq, ignore_plain]
  dsimp only
  rw [bind_eq]
  unfold simReset
  rw [if_pos ⟨hs, hi⟩]
  unfold ignore resetPCR call
  rw [if_pos (show B.chip.fault (tick 1 s).k = 0 from h1)]
  dsimp only
  rw [bind_eq]
  unfold extendBy
  rw [if_neg (by omega)]
  unfold extendPCR call debugRead
  rw [if_pos (show B.chip.fault ((tick 1 s).k + 1) = 0 from h2)]
  dsimp only
  rw [if_neg (by simp [hd])]
  refine ⟨_, rfl, ?_⟩
  simp

/-! ## Initialisation -/

/-- The calls of the initialisation change neither registers nor indices. -/
theorem pres_plain (c : Chip) (p : Nat → Bytes) (n : Nat → Option Bytes) :
    Pres (fun s => s.pcr = p ∧ s.nv = n) (plain c) := by
  intro s h
  unfold plain call
  split <;> exact h

theorem pres_initKeys (B : Build) (p : Nat → Bytes) (n : Nat → Option Bytes) :
    Pres (fun s => s.pcr = p ∧ s.nv = n) (initKeys B) := by
  unfold initKeys
  split
  · exact (pres_plain _ p n).bind fun _ => pres_plain _ p n
  · exact Pres.pure _

theorem plain_quiet {c : Chip} {s : S} (hq : Tpm.Quiet c s) :
    plain c s = .ok () (tick 1 s) ∧ Tpm.Quiet c (tick 1 s) := by
  constructor
  · unfold plain
    rw [call_quiet hq]
    rfl
  · intro j hj
    exact hq j (Nat.le_trans (Nat.le_add_right _ _) hj)

theorem initKeys_quiet {B : Build} {s : S} (hq : Tpm.Quiet B.chip s) :
    ∃ s', initKeys B s = .ok () s' ∧ Tpm.Quiet B.chip s' ∧ s'.pcr = s.pcr := by
  unfold initKeys
  split
  · obtain ⟨h1, q1⟩ := plain_quiet hq
    obtain ⟨h2, q2⟩ := plain_quiet q1
    refine ⟨_, ?_, q2, rfl⟩
    rw [bind_eq, h1]
    exact h2
  · exact ⟨s, rfl, hq, rfl⟩

/-- The measurements of the initialisation. -/
def initLog (B : Build) (H : Bytes → Bytes) (m : Mem) (sz : Nat) : List Bytes :=
  if B.measured && B.parts then [measurement B H (slice m 0 sz)] else []

theorem measureSelf_eq {B : Build} {H : Bytes → Bytes} (f : Fits B H) (m : Mem) (sz : Nat)
    (hsz : sz + B.blk ≤ 4294967296) :
    measureSelf B m sz = if B.measured && B.parts then extend B B.pcr (H (slice m 0 sz)) else pure () := by
  unfold measureSelf
  rw [selfHash_eq f m 0 sz hsz]

/-- **If the initialisation succeeds, the register has been extended by the hash of the whole BOOT
partition**, and no other register has changed. -/
theorem tpmInit_ok {B : Build} {H : Bytes → Bytes} (f : Fits B H) (hs : B.sim = false) {m : Mem}
    {sz : Nat} (hsz : sz + B.blk ≤ 4294967296) {s s' : S} (h : tpmInit B m sz s = .ok () s') :
    s'.pcr = Log B.chip B.pcr (initLog B H m sz) s.pcr ∧ s'.nv = s.nv := by
  unfold tpmInit at h
  rw [Tpm.bind_ok] at h
  obtain ⟨_, s1, h1, h⟩ := h
  rw [Tpm.bind_ok] at h
  obtain ⟨_, s2, h2, h⟩ := h
  rw [Tpm.bind_ok] at h
  obtain ⟨_, s3, h3, h⟩ := h
  have e1 := pres_plain B.chip s.pcr s.nv s ⟨rfl, rfl⟩
  rw [h1] at e1
  have e2 := pres_plain B.chip s.pcr s.nv s1 e1
  rw [h2] at e2
  have e3 := pres_initKeys B s.pcr s.nv s2 e2
  rw [h3] at e3
  have e3 : s3.pcr = s.pcr ∧ s3.nv = s.nv := e3
  rw [measureSelf_eq f m sz hsz] at h
  unfold initLog
  by_cases hm : (B.measured && B.parts) = true
  · rw [if_pos hm] at h
    obtain ⟨_, h5, h6, _⟩ := extend_ok hs h
    rw [if_pos hm, h5, h6, e3.1, e3.2]
    exact ⟨rfl, rfl⟩
  · rw [if_neg hm] at h
    have : s' = s3 := by
      have h' : R.ok () s3 = R.ok () s' := h
      cases h'; rfl
    rw [if_neg hm, log_nil, this]
    exact e3

/-- Without failures of the TPM the initialisation succeeds. -/
theorem tpmInit_quiet {B : Build} {H : Bytes → Bytes} (f : Fits B H) (hs : B.sim = false) (m : Mem)
    {sz : Nat} (hsz : sz + B.blk ≤ 4294967296) {s : S} (hq : Tpm.Quiet B.chip s) :
    ∃ s', tpmInit B m sz s = .ok () s' ∧ Tpm.Quiet B.chip s' := by
  unfold tpmInit
  obtain ⟨h1, q1⟩ := plain_quiet hq
  obtain ⟨h2, q2⟩ := plain_quiet q1
  obtain ⟨s3, h3, q3, _⟩ := initKeys_quiet (B := B) q2
  rw [bind_eq, h1]
  dsimp only
  rw [bind_eq, h2]
  dsimp only
  rw [bind_eq, h3]
  dsimp only
  rw [measureSelf_eq f m sz hsz]
  split
  · obtain ⟨s', h4, _, q4⟩ := extend_quiet hs (i := B.pcr) q3 (f.len (slice m 0 sz))
    exact ⟨s', h4, q4⟩
  · exact ⟨s3, rfl, q3⟩

theorem plain_iff (c : Chip) (s : S) (r : S) : plain c s = .ok () r ↔ c.fault s.k = 0 ∧ r = { s with k := s.k + 1 } := by
  unfold plain call
  split
  · constructor
    · intro h
      cases h
      exact ⟨by assumption, rfl⟩
    · rintro ⟨_, h⟩
      rw [h]
  · constructor
    · intro h
      cases h
    · rintro ⟨h, _⟩
      contradiction

/-- **C59.** With either option, a keystore in the TPM or sealing, initialisation succeeds only when the TPM has carried out the two
commands that open it and the two that make the storage root key and the session. -/
theorem tpmInit_keys {B : Build} (ho : B.keystore = true ∨ B.sealing = true) {m : Mem} {sz : Nat} {s s' : S}
    (h : tpmInit B m sz s = .ok () s') : ∀ i < 4, B.chip.fault (s.k + i) = 0 := by
  unfold tpmInit at h
  rw [Tpm.bind_ok] at h
  obtain ⟨_, s1, h1, h⟩ := h
  rw [Tpm.bind_ok] at h
  obtain ⟨_, s2, h2, h⟩ := h
  rw [Tpm.bind_ok] at h
  obtain ⟨_, s3, h3, _⟩ := h
  unfold initKeys at h3
  rw [if_pos (by rcases ho with h | h <;> simp [h]), Tpm.bind_ok] at h3
  obtain ⟨_, s4, h4, h5⟩ := h3
  obtain ⟨f1, rfl⟩ := (plain_iff _ _ _).1 h1
  obtain ⟨f2, rfl⟩ := (plain_iff _ _ _).1 h2
  obtain ⟨f4, rfl⟩ := (plain_iff _ _ _).1 h4
  obtain ⟨f5, _⟩ := (plain_iff _ _ _).1 h5
  intro i hi
  match i, hi with
  | 0, _ => exact f1
  | 1, _ => exact f2
  | 2, _ => exact f4
  | 3, _ => exact f5

/-- However the initialisation ends, the register has been extended by the hash of the partition or
nothing has changed; without debugging a failure means the latter. -/
theorem tpmInit_cases {B : Build} {H : Bytes → Bytes} (f : Fits B H) (hs : B.sim = false) (m : Mem)
    {sz : Nat} (hsz : sz + B.blk ≤ 4294967296) (s : S) :
    (∀ b s', tpmInit B m sz s ≠ .bad b s') ∧
    ((tpmInit B m sz s).st.pcr = s.pcr ∨
      (tpmInit B m sz s).st.pcr = Log B.chip B.pcr (initLog B H m sz) s.pcr) ∧
    (∀ rc s', tpmInit B m sz s = .err rc s' → B.debug = false → s'.pcr = s.pcr) := by
  have nb : ∀ c : Chip, ∀ t b t', plain c t ≠ .bad b t' := by
    intro c t b t'
    unfold plain call
    split <;> simp
  unfold tpmInit
  have e1 := pres_plain B.chip s.pcr s.nv s ⟨rfl, rfl⟩
  rw [bind_eq]
  cases h1 : plain B.chip s with
  | bad b s1 => exact absurd h1 (nb _ _ _ _)
  | err rc s1 =>
    rw [h1] at e1
    refine ⟨by simp, .inl e1.1, ?_⟩
    intro rc' s' h _
    cases h
    exact e1.1
  | ok _ s1 =>
  rw [h1] at e1
  have e2 := pres_plain B.chip s.pcr s.nv s1 e1
  dsimp only
  rw [bind_eq]
  cases h2 : plain B.chip s1 with
  | bad b s2 => exact absurd h2 (nb _ _ _ _)
  | err rc s2 =>
    rw [h2] at e2
    refine ⟨by simp, .inl e2.1, ?_⟩
    intro rc' s' h _
    cases h
    exact e2.1
  | ok _ s2 =>
  rw [h2] at e2
  have e3 := pres_initKeys B s.pcr s.nv s2 e2
  dsimp only
  rw [bind_eq]
  cases h3 : initKeys B s2 with
  | bad b s3 =>
    exfalso
    unfold initKeys at h3
    split at h3
    · rw [bind_eq] at h3
      cases h4 : plain B.chip s2 with
      | bad b s3 => exact absurd h4 (nb _ _ _ _)
      | err rc s3 => rw [h4] at h3; simp at h3
      | ok _ s3 => rw [h4] at h3; exact absurd h3 (nb _ _ _ _)
    · cases h3
  | err rc s3 =>
    rw [h3] at e3
    refine ⟨by simp, .inl e3.1, ?_⟩
    intro rc' s' h _
    cases h
    exact e3.1
  | ok _ s3 =>
  rw [h3] at e3
  have e3 : s3.pcr = s.pcr ∧ s3.nv = s.nv := e3
  dsimp only
  rw [measureSelf_eq f m sz hsz]
  unfold initLog
  by_cases hm : (B.measured && B.parts) = true
  · rw [if_pos hm, if_pos hm]
    obtain ⟨_, c1, c2⟩ := extend_cases B hs B.pcr (H (slice m 0 sz)) s3
    rw [e3.1] at c1
    refine ⟨?_, c1, ?_⟩
    · intro b s' h
      rw [extend_run B hs, if_neg (Nat.not_lt.2 (f.len _))] at h
      repeat' split at h
      all_goals simp at h
    · intro rc s' h hd
      rw [c2 rc s' h hd, e3.1]
  · rw [if_neg hm, if_neg hm]
    refine ⟨?_, .inl e3.1, ?_⟩
    · intro b s' h; cases h
    · intro rc s' h; cases h

/-! ## The boot -/

/-- **Without failures of the TPM every boot measures the BOOT partition as it was at the start**, and
`wolfBoot_start` follows. -/
theorem main_measures {B : Build} {H : Bytes → Bytes} (f : Fits B H) (hs : B.sim = false)
    (hm : B.measured = true) (hp : B.parts = true) (c : Verif.Cfg) (e : Env) (w : World)
    (hsz : c.part + B.blk ≤ 4294967296) {s : S} (hq : Tpm.Quiet B.chip s) :
    ∃ s', main B c e w s = some (start c e w, s') ∧
      s'.pcr = Log B.chip B.pcr [measurement B H (slice (w.fl .boot) 0 c.part)] s.pcr := by
  obtain ⟨s', h1, _⟩ := tpmInit_quiet f hs (w.fl .boot) hsz hq
  refine ⟨s', ?_, ?_⟩
  · unfold main ignore
    rw [h1]
  · rw [(tpmInit_ok f hs hsz h1).1]
    unfold initLog
    rw [if_pos (by simp [hm, hp])]

/-- **A TPM that fails does not stop the boot**: whatever it does, `wolfBoot_start` follows. -/
theorem main_goes_on {B : Build} {H : Bytes → Bytes} (f : Fits B H) (hs : B.sim = false) (c : Verif.Cfg)
    (e : Env) (w : World) (hsz : c.part + B.blk ≤ 4294967296) (s : S) :
    ∃ s', main B c e w s = some (start c e w, s') := by
  unfold main ignore
  have h := (tpmInit_cases f hs (w.fl .boot) hsz s).1
  cases h1 : tpmInit B (w.fl .boot) c.part s with
  | ok _ s1 => exact ⟨s1, rfl⟩
  | err _ s1 => exact ⟨s1, rfl⟩
  | bad b s1 => exact absurd h1 (h b s1)

/-- **A single failing call leaves the boot unmeasured** (without debugging). -/
theorem main_unmeasured {B : Build} {H : Bytes → Bytes} (f : Fits B H) (hs : B.sim = false)
    (hd : B.debug = false) (c : Verif.Cfg) (e : Env) (w : World) (hsz : c.part + B.blk ≤ 4294967296)
    (s : S) (hf : ∃ rc s1, tpmInit B (w.fl .boot) c.part s = .err rc s1) :
    ∃ s', main B c e w s = some (start c e w, s') ∧ s'.pcr = s.pcr := by
  obtain ⟨rc, s1, h⟩ := hf
  refine ⟨s1, ?_, (tpmInit_cases f hs (w.fl .boot) hsz s).2.2 rc s1 h hd⟩
  unfold main ignore
  rw [h]

/-- In particular if the first call fails. -/
theorem main_unmeasured_first {B : Build} (c : Verif.Cfg) (e : Env) (w : World) (s : S)
    (hf : B.chip.fault s.k ≠ 0) : main B c e w s = some (start c e w, tick 1 s) := by
  unfold main ignore tpmInit
  rw [bind_eq]
  unfold plain call
  rw [if_neg hf]
  rfl

/-- **The measurement does not depend on anything but the BOOT partition at the start**: not on the
update that will be installed. -/
theorem main_ignores_update (B : Build) (c : Verif.Cfg) (e : Env) (w w' : World)
    (h : w.fl .boot = w'.fl .boot) (s : S) :
    (main B c e w s).map (·.2) = (main B c e w' s).map (·.2) := by
  unfold main
  rw [h]
  split <;> rfl

/-- **With a pending update, what runs is the new image and what has been measured is the partition
with the old one.** -/
theorem measured_is_old {B : Build} {H : Bytes → Bytes} (f : Fits B H) (hs : B.sim = false)
    (hm : B.measured = true) (hp : B.parts = true) {c : Verif.Cfg} (w : c.WF) {e : Env} {Old New : Mem}
    (hO : GoodImage c e Old) (hN : GoodImage c e New) (hv : e.ver Old < e.ver New) {fl : Flash}
    (hpend : Pending c Old New fl) (hsz : c.part + B.blk ≤ 4294967296) {s : S}
    (hq : Tpm.Quiet B.chip s) :
    ∃ w' s', main B c e ⟨fl, true, none, fun _ => 0#8⟩ s = some (.ok () w', s') ∧
      Updated c New Old w'.fl ∧ bootable c e (w'.fl .boot) ∧
      s'.pcr = Log B.chip B.pcr [measurement B H (slice (fl .boot) 0 c.part)] s.pcr ∧
      Holds c fl .boot Old := by
  obtain ⟨w', h1, _, h2, h3⟩ := update_power_fail_safe_partial w hO hN hv hpend .none
  obtain ⟨s', h4, h5⟩ := main_measures f hs hm hp c e ⟨fl, true, none, fun _ => 0#8⟩ hsz hq
  refine ⟨w', s', ?_, h2, h3, h5, hpend.old⟩
  rw [h4, ← h1]
  rfl

/-- The image that runs has been measured when no update is pending or being finished (the conditions of
`confirmed_stable_partial`).

Partial: not with a pending update or rollback (`measured_is_old`) and not if the TPM fails
(`main_unmeasured`). -/
theorem measured_is_booted_partial {B : Build} {H : Bytes → Bytes} (f : Fits B H) (hs : B.sim = false)
    (hm : B.measured = true) (hp : B.parts = true) (c : Verif.Cfg) (e : Env) (w : World)
    (hboot : bootable c e (w.fl .boot)) (hb : getState c w.fl .boot ≠ some ST_TESTING)
    (hu : getState c w.fl .update ≠ some ST_UPDATING) (hf : getState c w.fl .update ≠ some ST_FINAL)
    (hword : le32 (w.fl .boot) c.tmp ≠ MAGIC_TRAIL) (hj : e.junk ≠ ST_FINAL) (hbud : w.budget = none)
    (hsz : c.part + B.blk ≤ 4294967296) {s : S} (hq : Tpm.Quiet B.chip s) :
    ∃ w' s', main B c e w s = some (.ok () w', s') ∧
      s'.pcr = Log B.chip B.pcr [measurement B H (slice (w'.fl .boot) 0 c.part)] s.pcr := by
  obtain ⟨w', h1, h2⟩ := (confirmed_stable_partial c e w hboot hb hu hf hword hj).2 hbud
  obtain ⟨s', h4, h5⟩ := main_measures f hs hm hp c e w hsz hq
  refine ⟨w', s', by rw [h4, h1], ?_⟩
  rw [h2]
  exact h5

/-! ## What a register tells -/

theorem replay_inj (c : Chip) (l l' : List Bytes) (p p' : Bytes) (hl : l.length = l'.length)
    (h : l.foldl c.extend p = l'.foldl c.extend p') : (p = p' ∧ l = l') ∨ ReplayClash c p l p' l' := by
  induction l generalizing l' p p' with
  | nil =>
    cases l' with
    | nil => exact .inl ⟨h, rfl⟩
    | cons a l' => simp at hl
  | cons a l ih =>
    cases l' with
    | nil => simp at hl
    | cons a' l' =>
      rcases ih l' _ _ (by simpa using hl) h with ⟨h1, h2⟩ | ⟨b, x, r, b', x', r', h1, h2, h3⟩
      · by_cases he : (p, a) = (p', a')
        · injection he with h3 h4
          exact .inl ⟨h3, by rw [h4, h2]⟩
        · exact .inr ⟨[], a, l, [], a', l', rfl, rfl, he, h1⟩
      · exact .inr ⟨a :: b, x, r, a' :: b', x', r', by rw [h1]; rfl, by rw [h2]; rfl, h3⟩

/-- **A register determines the whole list of measurements**, unless an extension gives the initial
value or two extensions collide. -/
theorem replay_determines (c : Chip) (p0 : Bytes) (l l' : List Bytes)
    (h : l.foldl c.extend p0 = l'.foldl c.extend p0) :
    l = l' ∨ ReplayClash c p0 l p0 l' ∨
      ∃ a x b, (l = a ++ x :: b ∨ l' = a ++ x :: b) ∧ c.extend (a.foldl c.extend p0) x = p0 := by
  have key : ∀ (n : Nat) (a b : List Bytes), a.length = n → a.foldl c.extend p0 = b.foldl c.extend p0 →
      a = b ∨ ReplayClash c p0 a p0 b ∨
      ∃ u x v, (a = u ++ x :: v ∨ b = u ++ x :: v) ∧ c.extend (u.foldl c.extend p0) x = p0 := by
    intro n
    induction n with
    | zero =>
      intro a b ha h
      cases a with
      | cons => simp at ha
      | nil =>
        rcases List.eq_nil_or_concat b with rfl | ⟨b', y, rfl⟩
        · exact .inl rfl
        · simp only [List.foldl_nil, List.concat_eq_append, List.foldl_append, List.foldl_cons] at h
          exact .inr (.inr ⟨b', y, [], .inr (by simp), h.symm⟩)
    | succ n ih =>
      intro a b ha h
      rcases List.eq_nil_or_concat a with rfl | ⟨a', x, rfl⟩
      · simp at ha
      · rcases List.eq_nil_or_concat b with rfl | ⟨b', y, rfl⟩
        · simp only [List.foldl_nil, List.concat_eq_append, List.foldl_append, List.foldl_cons] at h
          exact .inr (.inr ⟨a', x, [], .inl (by simp), h⟩)
        · simp only [List.foldl_nil, List.concat_eq_append, List.foldl_append, List.foldl_cons] at h
          by_cases he : (a'.foldl c.extend p0, x) = (b'.foldl c.extend p0, y)
          · injection he with h1 h2
            rcases ih a' b' (by simpa using ha) h1 with h3 | ⟨u, z, v, u', z', v', h3, h4, h5⟩ |
              ⟨u, z, v, h3, h4⟩
            · exact .inl (by rw [h3, h2])
            · exact .inr (.inl ⟨u, z, v ++ [x], u', z', v' ++ [y], by simp [h3], by simp [h4], h5⟩)
            · rcases h3 with h3 | h3
              · exact .inr (.inr ⟨u, z, v ++ [x], .inl (by simp [h3]), h4⟩)
              · exact .inr (.inr ⟨u, z, v ++ [y], .inr (by simp [h3]), h4⟩)
          · exact .inr (.inl ⟨a', x, [], b', y, [], by simp, by simp, he, h⟩)
  exact key _ l l' rfl h

/-- **Equal registers after two successful initialisations mean equal BOOT partitions**, byte by byte -
including the state flags at the end of the partition -, unless the two partitions are a collision of
the hash function or their digests one of the extension. -/
theorem register_determines_partition {B : Build} {H : Bytes → Bytes} (f : Fits B H)
    (hs : B.sim = false) (hm : B.measured = true) (hp : B.parts = true)
    {m m' : Mem} {sz : Nat} (hsz : sz + B.blk ≤ 4294967296) {s s1 t t1 : S}
    (h1 : tpmInit B m sz s = .ok () s1) (h2 : tpmInit B m' sz t = .ok () t1)
    (h0 : s.pcr B.pcr = t.pcr B.pcr) (he : s1.pcr B.pcr = t1.pcr B.pcr) :
    Agree m m' 0 sz ∨ HashClash H B.pcrSz (slice m 0 sz) (slice m' 0 sz) ∨
      ExtClash B.chip (s.pcr B.pcr) (measurement B H (slice m 0 sz)) (t.pcr B.pcr)
        (measurement B H (slice m' 0 sz)) := by
  rw [(tpmInit_ok f hs hsz h1).1, (tpmInit_ok f hs hsz h2).1] at he
  unfold initLog at he
  rw [if_pos (by simp [hm, hp]), if_pos (by simp [hm, hp])] at he
  unfold Log at he
  simp only [if_true, List.foldl_cons, List.foldl_nil] at he
  by_cases hd : measurement B H (slice m 0 sz) = measurement B H (slice m' 0 sz)
  · by_cases hx : slice m 0 sz = slice m' 0 sz
    · have := slice_inj hx
      rw [Nat.zero_add] at this
      exact .inl this
    · exact .inr (.inl ⟨hx, hd⟩)
  · refine .inr (.inr ⟨?_, he⟩)
    intro h
    injection h with _ h
    exact hd h

/-- Equal partitions give equal registers. -/
theorem register_of_partition {B : Build} {H : Bytes → Bytes} (f : Fits B H) (hs : B.sim = false)
    {m m' : Mem} {sz : Nat} (hsz : sz + B.blk ≤ 4294967296) {s s1 t t1 : S}
    (h1 : tpmInit B m sz s = .ok () s1) (h2 : tpmInit B m' sz t = .ok () t1)
    (h0 : s.pcr = t.pcr) (ha : Agree m m' 0 sz) : s1.pcr = t1.pcr := by
  rw [(tpmInit_ok f hs hsz h1).1, (tpmInit_ok f hs hsz h2).1, h0]
  unfold initLog
  rw [slice_congr (m := m) (x := m') (by rwa [Nat.zero_add])]

/-- **The same firmware gives another value once its state has changed**: two partitions that differ in
one byte anywhere, for instance in the state of the partition, are measured differently, collisions
apart. -/
theorem measure_sees_flags {B : Build} {H : Bytes → Bytes} (f : Fits B H)
    (hs : B.sim = false) (hm : B.measured = true) (hp : B.parts = true) {c : Verif.Cfg} (e : Env)
    {w w' : World} (hsz : c.part + B.blk ≤ 4294967296) {s : S} (hq : Tpm.Quiet B.chip s) {o : Nat}
    (ho : o < c.part) (hd : w.fl .boot o ≠ w'.fl .boot o)
    (hH : ¬ HashClash H B.pcrSz (slice (w.fl .boot) 0 c.part) (slice (w'.fl .boot) 0 c.part))
    (hE : ¬ ExtClash B.chip (s.pcr B.pcr) (measurement B H (slice (w.fl .boot) 0 c.part)) (s.pcr B.pcr)
      (measurement B H (slice (w'.fl .boot) 0 c.part))) :
    ∃ r s1 r' s2, main B c e w s = some (r, s1) ∧ main B c e w' s = some (r', s2) ∧
      s1.pcr B.pcr ≠ s2.pcr B.pcr := by
  obtain ⟨a, ha, _⟩ := tpmInit_quiet f hs (w.fl .boot) hsz hq
  obtain ⟨b, hb, _⟩ := tpmInit_quiet f hs (w'.fl .boot) hsz hq
  refine ⟨_, a, _, b, by unfold main ignore; rw [ha], by unfold main ignore; rw [hb], ?_⟩
  intro h
  rcases register_determines_partition f hs hm hp hsz ha hb rfl h with h1 | h1 | h1
  · exact hd (h1 o (by omega) ho)
  · exact hH h1
  · exact hE h1

/-! ## First stage on x86 -/

/-- The digest measured for the second stage: what stands in its header. -/
def stage2Digest (B : Build) (P : Stage1) (im : Mem) : Option Bytes :=
  match findHdr im P.H P.tag with
  | .found off _ => some (slice im off B.pcrSz)
  | _ => none

theorem deinit_state (B : Build) (s : S) : (deinit B s).2.pcr = s.pcr ∧ (deinit B s).2.nv = s.nv := by
  unfold deinit
  split
  · have h := (pres_plain B.chip s.pcr s.nv).bind (fun _ => pres_plain B.chip s.pcr s.nv) s ⟨rfl, rfl⟩
    unfold changePlat
    split <;> simp_all [R.st]
  · exact ⟨rfl, rfl⟩

/-- The measurements of the first stage itself. -/
def selfLog (B : Build) (P : Stage1) (H : Bytes → Bytes) (m : Mem) : List Bytes :=
  if P.qemu then [measurement B H (slice m P.keys (4294967296 - P.keys))] else []

theorem selfExtend_eq {B : Build} {H : Bytes → Bytes} (f : Fits B H) {P : Stage1} (m : Mem)
    (hk : B.blk ≤ P.keys) (hk2 : P.keys ≤ 4294967296) :
    selfExtend B P m = extend B B.pcr (H (slice m P.keys (4294967296 - P.keys))) := by
  have h0 := f.blk
  unfold selfExtend
  rw [Nat.mod_eq_of_lt (by omega), selfHash_eq f m _ _ (by omega)]

theorem measureStage1_cases {B : Build} {H : Bytes → Bytes} (f : Fits B H) (hs : B.sim = false)
    {P : Stage1} {m : Mem} (hk : B.blk ≤ P.keys) (hk2 : P.keys ≤ 4294967296) {s s' : S}
    (h : measureStage1 B P m s = .ok () s') :
    s'.pcr = s.pcr ∨ s'.pcr = Log B.chip B.pcr (selfLog B P H m) s.pcr := by
  unfold measureStage1 at h
  unfold selfLog
  by_cases hq : P.qemu = true
  · rw [if_pos hq, selfExtend_eq f m hk hk2] at h
    rw [if_pos hq]
    have := (extend_cases B hs B.pcr (H (slice m P.keys (4294967296 - P.keys))) s).2.1
    unfold ignore at h
    split at h
    · next h1 => cases h; rw [h1] at this; exact this
    · next h1 => cases h; rw [h1] at this; exact this
    · cases h
  · rw [if_neg hq] at h
    cases h
    exact .inl rfl

/-- **The second stage runs only if the digest in its header has been measured**, after the first stage
- unless that measurement failed - and, with `STAGE1_AUTH`, only if it has been verified. -/
theorem stage1_measured {B : Build} {H : Bytes → Bytes} (f : Fits B H) (hs : B.sim = false) {P : Stage1}
    {m im part : Mem} {sz : Nat} (hk : B.blk ≤ P.keys) (hk2 : P.keys ≤ 4294967296)
    (hsz : sz + B.blk ≤ 4294967296) (hpos : 0 < B.pcrSz) {s s' : S}
    (h : stage1 B P m im part sz s = .ok () s') :
    ∃ d own, stage2Digest B P im = some d ∧ (own = [] ∨ own = selfLog B P H m) ∧
      s'.pcr = Log B.chip B.pcr (initLog B H part sz ++ own ++ [d]) s.pcr ∧
      (P.authOn = true → P.verified im = true) := by
  unfold stage1 at h
  rw [Tpm.bind_ok] at h
  obtain ⟨_, s1, h1, h⟩ := h
  rw [Tpm.bind_ok] at h
  obtain ⟨_, s2, h2, h⟩ := h
  rw [Tpm.bind_ok] at h
  obtain ⟨_, s3, h3, h⟩ := h
  rw [Tpm.bind_ok] at h
  obtain ⟨_, s4, h4, h⟩ := h
  rw [Tpm.bind_ok] at h
  obtain ⟨_, s5, h5, h⟩ := h
  have e1 := (tpmInit_ok f hs hsz h1).1
  have e2 := ((plain_ok _ _ _ _).1 h2).2
  have e2 : s2.pcr = s1.pcr := by rw [e2]
  have e3 := measureStage1_cases f hs hk hk2 h3
  have e4 : s4 = s3 ∧ (P.authOn = true → P.verified im = true) := by
    unfold checkStage2 at h4
    split at h4
    · simp [fail] at h4
    · next hn =>
      rw [pure_ok] at h4
      refine ⟨h4.2, fun ha => ?_⟩
      simpa [ha] using hn
  have e6 : s'.pcr = s5.pcr := by
    have h' : R.ok () (deinit B s5).2 = R.ok () s' := h
    cases h'
    exact (deinit_state B s5).1
  have e5 : ∃ d, stage2Digest B P im = some d ∧ s5.pcr = Log B.chip B.pcr [d] s4.pcr := by
    unfold imageMeasure at h5
    unfold stage2Digest
    cases hf : findHdr im P.H P.tag with
    | found off len =>
      rw [hf] at h5
      obtain ⟨_, h6, _⟩ := extend_ok hs h5
      refine ⟨slice im off B.pcrSz, rfl, ?_⟩
      rw [h6, List.take_of_length_le (by rw [slice_length]; omega)]
    | _ =>
      rw [hf] at h5
      exact absurd (extend_ok hs h5).1 (by simp; omega)
  obtain ⟨d, hd, e5⟩ := e5
  rw [e4.1] at e5
  rcases e3 with e3 | e3
  · refine ⟨d, [], hd, .inl rfl, ?_, e4.2⟩
    rw [List.append_nil, log_append, e6, e5, e3, e2, e1]
  · refine ⟨d, _, hd, .inr rfl, ?_, e4.2⟩
    rw [log_append, log_append, e6, e5, e3, e2, e1]

/-- Without failures of the TPM everything is measured. -/
theorem stage1_all_measured {B : Build} {H : Bytes → Bytes} (f : Fits B H) (hs : B.sim = false)
    {P : Stage1} {m im part : Mem} {sz : Nat} (hk : B.blk ≤ P.keys) (hk2 : P.keys ≤ 4294967296)
    (hsz : sz + B.blk ≤ 4294967296) {s : S} (hq : Tpm.Quiet B.chip s) {d : Bytes}
    (hd : stage2Digest B P im = some d) (ha : P.authOn = true → P.verified im = true) :
    ∃ s', stage1 B P m im part sz s = .ok () s' ∧
      s'.pcr = Log B.chip B.pcr (initLog B H part sz ++ selfLog B P H m ++ [d]) s.pcr := by
  obtain ⟨s1, h1, q1⟩ := tpmInit_quiet f hs part hsz hq
  have e1 := (tpmInit_ok f hs hsz h1).1
  obtain ⟨h2, q2⟩ := plain_quiet q1
  have h3 : ∃ s3, measureStage1 B P m (tick 1 s1) = .ok () s3 ∧ Tpm.Quiet B.chip s3 ∧
      s3.pcr = Log B.chip B.pcr (selfLog B P H m) s1.pcr := by
    unfold measureStage1 selfLog
    by_cases hp : P.qemu = true
    · rw [if_pos hp, if_pos hp, selfExtend_eq f m hk hk2]
      obtain ⟨s3, h3, e3, q3⟩ := extend_quiet hs (i := B.pcr) q2
        (f.len (slice m P.keys (4294967296 - P.keys)))
      refine ⟨s3, ?_, q3, e3⟩
      unfold ignore
      rw [h3]
    · rw [if_neg hp, if_neg hp, log_nil]
      exact ⟨_, rfl, q2, rfl⟩
  obtain ⟨s3, h3, q3, e3⟩ := h3
  have h4 : checkStage2 P im s3 = .ok () s3 := by
    unfold checkStage2
    rw [if_neg]
    · rfl
    · cases hx : P.authOn with
      | false => simp
      | true => simp [ha hx]
  have h5 : ∃ s5, imageMeasure B P im s3 = .ok () s5 ∧ s5.pcr = Log B.chip B.pcr [d] s3.pcr := by
    unfold stage2Digest at hd
    unfold imageMeasure
    split at hd
    · next off len hf =>
      cases hd
      obtain ⟨s5, h5, e5, _⟩ := extend_quiet hs (i := B.pcr) (d := slice im off B.pcrSz) q3
        (by rw [slice_length]; omega)
      rw [List.take_of_length_le (by rw [slice_length]; omega)] at e5
      rw [hf]
      exact ⟨s5, h5, e5⟩
    · cases hd
  obtain ⟨s5, h5, e5⟩ := h5
  refine ⟨(deinit B s5).2, ?_, ?_⟩
  · unfold stage1
    rw [bind_eq, h1]
    dsimp only
    rw [bind_eq, h2]
    dsimp only
    rw [bind_eq, h3]
    dsimp only
    rw [bind_eq, h4]
    dsimp only
    rw [bind_eq, h5]
  · rw [(deinit_state B s5).1, e5, e3, e1, log_append, log_append]

/-- **The first stage is not measured if that one command fails**: the boot goes on. -/
theorem stage1_self_unmeasured {B : Build} (hs : B.sim = false) (hd : B.debug = false)
    {H : Bytes → Bytes} (f : Fits B H) {P : Stage1} (hp : P.qemu = true) {m : Mem}
    (hk : B.blk ≤ P.keys) (hk2 : P.keys ≤ 4294967296) {s : S} (hf : B.chip.fault (s.k + 1) ≠ 0) :
    measureStage1 B P m s = .ok () (tick 2 s) := by
  unfold measureStage1
  rw [if_pos hp, selfExtend_eq f m hk hk2]
  unfold ignore
  rw [extend_run B hs, if_neg (Nat.not_lt.2 (f.len _)), if_pos hf]

/-- **Without `STAGE1_AUTH` the firmware itself is not measured**: the digest is taken from the header,
whatever follows it. -/
theorem stage1_unverified {B : Build} {P : Stage1} (ha : P.authOn = false) {m im im' part : Mem}
    {sz : Nat} (h : Agree im im' 0 (P.H + B.pcrSz)) (s : S) :
    stage1 B P m im part sz s = stage1 B P m im' part sz s := by
  have h1 : imageMeasure B P im = imageMeasure B P im' := by
    unfold imageMeasure
    rw [findHdr_congr (h.mono (Nat.le_refl _) (Nat.le_add_right _ _))]
    split
    · next off len hf =>
      have hb := findHdr_bounds hf
      rw [slice_congr (h.mono (Nat.zero_le _) (by omega))]
    · rfl
  unfold stage1 checkStage2
  simp only [ha, Bool.false_and, h1]

/-- **Without a digest in the header a null pointer is read.** -/
theorem imageMeasure_null {B : Build} (hs : B.sim = false) {P : Stage1} {im : Mem} (hpos : 0 < B.pcrSz)
    (h : ∀ off len, findHdr im P.H P.tag ≠ .found off len) (s : S) :
    imageMeasure B P im s = .bad .hashBuf (tick 1 s) := by
  have e : imageMeasure B P im = extend B B.pcr [] := by
    unfold imageMeasure
    split
    · next off len hf => exact absurd hf (h off len)
    · rfl
  rw [e]
  exact extend_overread hs s (by simpa using hpos)

/-- The signed message of an image whose digest is at `off`. -/
def Message (k : ImgCfg) (im : Mem) (msg : Bytes) : Prop :=
  ∃ off, findHdr im k.H k.shaTag = .found off k.dlen ∧ msg = signedMsg k.H im off (le32 im 4)

/-- **With `STAGE1_AUTH` equal registers mean the same second stage** and the same first stage digest,
for two boots on whose way nothing failed, unless two extensions collide or the two signed messages are
a collision of the hash function. -/
theorem stage1_register_determines {B : Build} {H : Bytes → Bytes} (f : Fits B H) (hs : B.sim = false)
    {k : ImgCfg} {P : Stage1} (hH : P.H = k.H) (ht : P.tag = k.shaTag)
    (hl : k.dlen = B.pcrSz) (hb : 0 < k.blk) (hpos : 0 < B.pcrSz) (ha : P.authOn = true)
    (hv : ∀ im, P.verified im = true → le32 im 4 + k.blk < 4294967296 ∧
      ∃ st, (verifyIntegrity k im (le32 im 4) st).1 = .ok)
    {m m' im im' part part' : Mem} {sz : Nat} (hk : B.blk ≤ P.keys) (hk2 : P.keys ≤ 4294967296)
    (hsz : sz + B.blk ≤ 4294967296) {s s1 t t1 : S} (hqs : Tpm.Quiet B.chip s) (hqt : Tpm.Quiet B.chip t)
    (h1 : stage1 B P m im part sz s = .ok () s1) (h2 : stage1 B P m' im' part' sz t = .ok () t1)
    (he : s1.pcr B.pcr = t1.pcr B.pcr) :
    (s.pcr B.pcr = t.pcr B.pcr ∧ initLog B H part sz = initLog B H part' sz ∧
      selfLog B P H m = selfLog B P H m' ∧ le32 im 4 = le32 im' 4 ∧
      Agree im im' k.H (k.H + le32 im 4)) ∨
    (∃ d d', stage2Digest B P im = some d ∧ stage2Digest B P im' = some d' ∧
      ReplayClash B.chip (s.pcr B.pcr) (initLog B H part sz ++ selfLog B P H m ++ [d]) (t.pcr B.pcr)
        (initLog B H part' sz ++ selfLog B P H m' ++ [d'])) ∨
    (∃ x y, Message k im x ∧ Message k im' y ∧ x ≠ y ∧ k.hash x = k.hash y) := by
  obtain ⟨d, _, hd, _, _, hx⟩ := stage1_measured f hs hk hk2 hsz hpos h1
  obtain ⟨d', _, hd', _, _, hx'⟩ := stage1_measured f hs hk hk2 hsz hpos h2
  obtain ⟨u, g1, e1⟩ := stage1_all_measured (m := m) (part := part) f hs hk hk2 hsz hqs hd hx
  obtain ⟨u', g2, e2⟩ := stage1_all_measured (m := m') (part := part') f hs hk hk2 hsz hqt hd' hx'
  rw [h1] at g1
  rw [h2] at g2
  cases g1
  cases g2
  rw [e1, e2] at he
  unfold Log at he
  rw [if_pos rfl, if_pos rfl] at he
  have hlen : (initLog B H part sz ++ selfLog B P H m ++ [d]).length =
      (initLog B H part' sz ++ selfLog B P H m' ++ [d']).length := by
    unfold initLog selfLog
    simp only [List.length_append, List.length_cons, List.length_nil]
    repeat' split
    all_goals simp
  rcases replay_inj B.chip _ _ _ _ hlen he with ⟨p1, p2⟩ | hc
  · have q1 := List.append_inj' p2 rfl
    have q2 := List.append_inj q1.1 (by unfold initLog; split <;> rfl)
    have hdd : d = d' := by simpa using q1.2
    obtain ⟨w1, st, v1⟩ := hv im (hx ha)
    obtain ⟨w2, st', v2⟩ := hv im' (hx' ha)
    obtain ⟨off, o1, _⟩ := (integrity_iff k im _ st hb w1).1 v1
    obtain ⟨off', o2, _⟩ := (integrity_iff k im' _ st' hb w2).1 v2
    have r1 : d = slice im off k.dlen := by
      unfold stage2Digest at hd
      rw [hH, ht, o1] at hd
      rw [hl]
      exact (Option.some.inj hd).symm
    have r2 : d' = slice im' off' k.dlen := by
      unfold stage2Digest at hd'
      rw [hH, ht, o2] at hd'
      rw [hl]
      exact (Option.some.inj hd').symm
    rcases same_digest_same_image hb w1 w2 o1 o2 v1 v2 (by rw [← r1, ← r2, hdd]) with
      ⟨c1, c2⟩ | ⟨_, c1, c2, _⟩
    · exact .inr (.inr ⟨_, _, ⟨off, o1, rfl⟩, ⟨off', o2, rfl⟩, c1, c2⟩)
    · exact .inl ⟨p1, q2.1, q2.2, c1, c2⟩
  · exact .inr (.inl ⟨_, _, hd, hd', hc⟩)

/-! ## Root of trust -/

theorem readRot_ok {B : Build} {slot : Nat} {hint : Bytes} {s s' : S}
    (h : readRot B slot hint s = .ok () s') :
    ∃ b, s.nv (B.rotBase + slot) = some b ∧ B.dlen ≤ b.length ∧ b.take B.dlen = hint ∧
      s'.pcr = s.pcr ∧ s'.nv = s.nv := by
  unfold readRot at h
  rw [bind_eq, ignore_plain] at h
  dsimp only at h
  rw [Tpm.bind_ok] at h
  obtain ⟨d, s2, h1, h2⟩ := h
  unfold nvReadUpTo at h1
  rw [call_ok] at h1
  obtain ⟨_, h1⟩ := h1
  have hn : ({ tick 1 s with k := (tick 1 s).k + 1 } : S).nv = s.nv := rfl
  rw [hn] at h1
  cases hb : s.nv (B.rotBase + slot) with
  | none => rw [hb] at h1; cases h1
  | some b =>
    rw [hb] at h1
    dsimp only at h1
    split at h1
    · cases h1
      unfold matchHint at h2
      split at h2
      · next hm =>
        rw [pure_ok] at h2
        refine ⟨b, rfl, ?_, hm.2, ?_, ?_⟩
        · have := hm.1
          rw [List.length_take] at this
          omega
        · rw [h2.2]; rfl
        · rw [h2.2]
      · simp [fail] at h2
    · cases h1

/-- **The root of trust is confirmed only if the index of the slot begins with the hash of the key.**
Registers and indices do not change. -/
theorem checkRot_sound {B : Build} {slot : Nat} {hint : Bytes} {s s' : S}
    (h : checkRot B slot hint s = .ok () s') :
    (∃ b, s.nv (B.rotBase + slot) = some b ∧ B.dlen ≤ b.length ∧ b.take B.dlen = hint) ∧
      s'.pcr = s.pcr ∧ s'.nv = s.nv := by
  unfold checkRot at h
  rw [cleanup_ok] at h
  obtain ⟨s1, h, rfl⟩ := h
  rw [bind_eq, ignore_plain] at h
  dsimp only at h
  rw [Tpm.bind_ok] at h
  obtain ⟨_, s2, h1, h2⟩ := h
  have e := ((plain_ok _ _ _ _).1 h1).2
  obtain ⟨b, h3, h4, h5, h6, h7⟩ := readRot_ok h2
  rw [e] at h3 h6 h7
  exact ⟨⟨b, h3, h4, h5⟩, h6, h7⟩

/-- **Without failures it is confirmed whenever this is the case.** -/
theorem checkRot_complete {B : Build} {slot : Nat} {hint b : Bytes} {s : S} (hq : Tpm.Quiet B.chip s)
    (h1 : s.nv (B.rotBase + slot) = some b) (h2 : B.dlen ≤ b.length) (h3 : b.take B.dlen = hint) :
    ∃ s', checkRot B slot hint s = .ok () s' := by
  unfold checkRot
  have q1 : Tpm.Quiet B.chip (tick 1 s) := (plain_quiet hq).2
  obtain ⟨p2, q2⟩ := plain_quiet q1
  have q3 : Tpm.Quiet B.chip (tick 1 (tick 1 (tick 1 s))) := (plain_quiet q2).2
  have h : (do ignore (plain B.chip); plain B.chip; readRot B slot hint : T Unit) s =
      .ok () (tick 1 (tick 1 (tick 1 (tick 1 s)))) := by
    rw [bind_eq, ignore_plain]
    dsimp only
    rw [bind_eq, p2]
    dsimp only
    unfold readRot
    rw [bind_eq, ignore_plain]
    dsimp only
    rw [bind_eq]
    unfold nvReadUpTo
    rw [call_quiet q3]
    have hn : ({ tick 1 (tick 1 (tick 1 s)) with k := (tick 1 (tick 1 (tick 1 s))).k + 1 } : S).nv = s.nv := rfl
    rw [hn, h1]
    dsimp only
    rw [if_pos (.inl h2)]
    dsimp only
    unfold matchHint
    rw [if_pos ⟨by rw [List.length_take]; omega, h3⟩]
    rfl
  unfold cleanup
  rw [h]
  exact ⟨_, rfl⟩

/-- A key that is not the one in the TPM is never confirmed. -/
theorem checkRot_other_key {B : Build} {slot : Nat} {hint b : Bytes} {s : S}
    (h1 : s.nv (B.rotBase + slot) = some b) (h3 : b.take B.dlen ≠ hint) (u : Unit) (s' : S) :
    checkRot B slot hint s ≠ .ok u s' := by
  intro h
  obtain ⟨⟨b', h4, _, h5⟩, _⟩ := checkRot_sound h
  rw [h1] at h4
  cases h4
  exact h3 h5

/-! ## End of the use of the TPM -/

/-- **The platform authorization is changed exactly if the keystore is in the TPM, the build says so and
both commands succeed**; the boot goes on in any case, and registers and indices stay the same. -/
theorem deinit_changes (B : Build) (s : S) :
    (deinit B s).1 = true ↔ B.keystore = true ∧ B.sim = false ∧ B.chgPlat = true ∧
      B.chip.fault s.k = 0 ∧ B.chip.fault (s.k + 1) = 0 := by
  unfold deinit
  by_cases hc : (B.keystore && !B.sim && B.chgPlat) = true
  · rw [if_pos hc]
    simp only [Bool.and_eq_true, Bool.not_eq_true'] at hc
    unfold changePlat
    rw [bind_eq]
    unfold plain call
    by_cases h1 : B.chip.fault s.k = 0
    · by_cases h2 : B.chip.fault (s.k + 1) = 0
      · simp [h1, h2, hc]
      · simp [h1, h2]
    · simp [h1]
  · rw [if_neg hc]
    simp only [Bool.and_eq_true, Bool.not_eq_true'] at hc
    constructor
    · intro h; cases h
    · rintro ⟨a, b, c, _⟩
      exact absurd ⟨⟨a, b⟩, c⟩ hc

/-- **With sealing but without the keystore in the TPM the platform hierarchy stays open.** -/
theorem deinit_sealing_only (B : Build) (h : B.keystore = false) (s : S) : deinit B s = (false, s) := by
  unfold deinit
  rw [if_neg (by simp [h])]

/-! ## An example -/

namespace Demo

/-- A toy chip whose extension loses nothing. -/
def chip : Chip := { Tpm.Demo.chip with extend := fun a b => Tpm.Demo.pack a ++ b }

/-- The same, but every call fails from the second on. -/
def broken : Chip := { chip with fault := fun k => if k = 0 then 0 else 0x101 }

/-- Contexts that keep the message; the "digest" is the message with `n` zeros. -/
def hasher (n : Nat) : Hasher := ⟨Bytes, [], (· ++ ·), fun b => b ++ List.replicate n 0⟩

def H (n : Nat) (b : Bytes) : Bytes := b ++ List.replicate n 0

/-- A build for the partitions of `Verif.Demo` (96 bytes): the digests keep everything. -/
def B : Build where
  chip := chip
  h := hasher 100
  blk := 64
  dlen := 100
  pcr := 16
  pcrSz := 100
  keystore := true
  sealing := false
  measured := true
  parts := true
  debug := false
  sim := false
  chgPlat := true
  rotBase := 0x1400300
  short := true

theorem foldl_append (l : List Bytes) (x : Bytes) : l.foldl (· ++ ·) x = x ++ l.flatten := by
  induction l generalizing x with
  | nil => simp
  | cons a l ih => rw [List.foldl_cons, ih]; simp

theorem fits : Fits B (H 100) :=
  ⟨fun l => by
    show l.foldl (· ++ ·) [] ++ List.replicate 100 0 = l.flatten ++ List.replicate 100 0
    rw [foldl_append]; rfl,
    fun a => by show 100 ≤ (a ++ List.replicate 100 0).length; simp, by decide, by decide⟩

theorem quiet (s : S) : Tpm.Quiet chip s := fun _ _ => rfl

/-- Register 16 is 0, index 3 of the keys holds 100 bytes. -/
def s0 : S := ⟨0, fun _ => [0],
  fun i => if i = 0x1400303 then some (List.replicate 100 5 ++ [1, 2]) else none, none, none, none⟩

theorem no_ext_clash (p d p' d' : Bytes) : ¬ ExtClash chip p d p' d' := by
  rintro ⟨h1, h2⟩
  have h3 : Tpm.Demo.unpack (Tpm.Demo.pack p ++ d) = Tpm.Demo.unpack (Tpm.Demo.pack p' ++ d') := by
    rw [show Tpm.Demo.pack p ++ d = Tpm.Demo.pack p' ++ d' from h2]
  rw [Tpm.Demo.unpack_pack, Tpm.Demo.unpack_pack] at h3
  exact h1 (Option.some.inj h3)

theorem no_replay_clash (p p' : Bytes) (l l' : List Bytes) : ¬ ReplayClash chip p l p' l' := by
  rintro ⟨_, _, _, _, _, _, _, _, h⟩
  exact no_ext_clash _ _ _ _ h

theorem no_hash_clash {x y : Bytes} (h : x.length = y.length) (hx : x.length ≤ 100) :
    ¬ HashClash (H 100) 100 x y := by
  rintro ⟨h1, h2⟩
  apply h1
  have : ((x ++ List.replicate 100 (0 : Byte)).take 100).take x.length =
      ((y ++ List.replicate 100 (0 : Byte)).take 100).take x.length := congrArg _ h2
  rw [List.take_take, List.take_take, Nat.min_eq_left hx, List.take_left' rfl,
    List.take_left' h.symm] at this
  exact this

example (m : Mem) (p : Nat) : selfHash B m p 96 = some (slice m p 96 ++ List.replicate 100 0) :=
  selfHash_eq fits m p 96 (by decide)

example (m : Mem) : selfHash B m 0 0xFFFFFFFF = none :=
  selfHash_endless B m 0 _ (by decide) (by decide) (by decide)

/-- With an update pending: the new image runs, the old one has been measured. -/
example : ∃ w' s', main B Verif.Demo.cfg Verif.Demo.env ⟨Verif.Demo.pending, true, none, fun _ => 0#8⟩ s0 =
      some (.ok () w', s') ∧ Updated Verif.Demo.cfg Verif.Demo.new Verif.Demo.old w'.fl ∧
      s'.pcr 16 = [1, 0, 0] ++ measurement B (H 100) (slice (Verif.Demo.pending .boot) 0 96) := by
  obtain ⟨w', s', h1, h2, _, h3, _⟩ := measured_is_old fits rfl rfl rfl Verif.Demo.wf
    Verif.Demo.good_old Verif.Demo.good_new (by decide) Verif.Demo.pending_ok (by decide) (quiet s0)
  refine ⟨w', s', h1, h2, ?_⟩
  rw [h3]
  rfl

/-- Without an update the booted image has been measured. -/
example : ∃ w' s', main B Verif.Demo.cfg Verif.Demo.env
      ⟨Verif.Demo.flash Verif.Demo.old (some ST_SUCCESS) Verif.Demo.new none, true, none, fun _ => 0#8⟩ s0 =
      some (.ok () w', s') ∧
      s'.pcr = Log chip 16 [measurement B (H 100) (slice (w'.fl .boot) 0 96)] s0.pcr :=
  measured_is_booted_partial fits rfl rfl rfl _ _ _ (by decide) (by decide) (by decide) (by decide)
    (by decide) (by decide) rfl (by decide) (quiet s0)

/-- A TPM that fails: the update takes place without a measurement. -/
example : ∃ s', main { B with chip := broken } Verif.Demo.cfg Verif.Demo.env
      ⟨Verif.Demo.pending, true, none, fun _ => 0#8⟩ s0 =
      some (start Verif.Demo.cfg Verif.Demo.env ⟨Verif.Demo.pending, true, none, fun _ => 0#8⟩, s') ∧
      s'.pcr = s0.pcr :=
  main_unmeasured (B := { B with chip := broken }) (H := H 100) ⟨fits.comp, fits.len, fits.blk, fits.blk2⟩
    rfl rfl _ _ _ (by decide) s0 ⟨0x101, _, rfl⟩

/-- The state of the partition is part of the measurement. -/
example : ∃ r s1 r' s2,
    main B Verif.Demo.cfg Verif.Demo.env ⟨Verif.Demo.flash Verif.Demo.old (some ST_SUCCESS) Verif.Demo.new none,
      true, none, fun _ => 0#8⟩ s0 = some (r, s1) ∧
    main B Verif.Demo.cfg Verif.Demo.env ⟨Verif.Demo.flash Verif.Demo.old (some ST_TESTING) Verif.Demo.new none,
      true, none, fun _ => 0#8⟩ s0 = some (r', s2) ∧ s1.pcr 16 ≠ s2.pcr 16 :=
  measure_sees_flags fits rfl rfl rfl _ (by decide) (quiet s0) (o := 91) (by decide) (by decide)
    (no_hash_clash (by rw [slice_length, slice_length]) (by rw [slice_length]; decide))
    (no_ext_clash _ _ _ _)

example (m m' : Mem) (s1 t1 : S) (h1 : tpmInit B m 96 s0 = .ok () s1) (h2 : tpmInit B m' 96 s0 = .ok () t1)
    (he : s1.pcr 16 = t1.pcr 16) : Agree m m' 0 96 := by
  rcases register_determines_partition fits rfl rfl rfl (by decide) h1 h2 rfl he with h | h | h
  · exact h
  · exact absurd h (no_hash_clash (by rw [slice_length, slice_length]) (by rw [slice_length]; decide))
  · exact absurd h (no_ext_clash _ _ _ _)

example : ∃ s1, tpmInit B Verif.Demo.old 96 s0 = .ok () s1 :=
  let ⟨s1, h, _⟩ := tpmInit_quiet fits rfl Verif.Demo.old (sz := 96) (by decide) (quiet s0)
  ⟨s1, h⟩

/-- With a keystore alone a TPM that fails at the fourth command is not initialised, and one that does not fail is. -/
example (m : Mem) (s' : S) :
    tpmInit { B with keystore := true, sealing := false, chip := { chip with fault := fun k => if k = 3 then 0x101 else 0 } } m 96 s0 ≠ .ok () s' := by
  intro h
  exact absurd (tpmInit_keys (.inl rfl) h 3 (by decide)) (by decide)

example (m : Mem) : ∃ s', tpmInit { B with keystore := true, sealing := false } m 96 s0 = .ok () s' :=
  let ⟨s1, h, _⟩ := tpmInit_quiet (B := { B with keystore := true, sealing := false }) (H := H 100) ⟨fits.comp, fits.len, fits.blk, fits.blk2⟩ rfl m (sz := 96) (by decide) (quiet s0)
  ⟨s1, h⟩

/-- The list of measurements can be read off the register. -/
example (l l' : List Bytes) (h : l.foldl chip.extend [7] = l'.foldl chip.extend [7]) : l = l' := by
  rcases replay_determines chip [7] l l' h with h | h | ⟨a, x, b, _, h⟩
  · exact h
  · exact absurd h (no_replay_clash _ _ _ _)
  · have h2 : Tpm.Demo.unpack (Tpm.Demo.pack (a.foldl chip.extend [7]) ++ x) = Tpm.Demo.unpack [7] := by
      rw [show Tpm.Demo.pack (a.foldl chip.extend [7]) ++ x = [7] from h]
    rw [Tpm.Demo.unpack_pack] at h2
    exact absurd h2 (by simp [Tpm.Demo.unpack])

/-- First stage: the image and the keys of `ImgDemo`, digests of 5 bytes. -/
def B5 : Build := { B with h := hasher 5, dlen := 5, pcrSz := 5, blk := 5, pcr := 0 }

theorem fits5 : Fits B5 (H 5) :=
  ⟨fun l => by
    show l.foldl (· ++ ·) [] ++ List.replicate 5 0 = l.flatten ++ List.replicate 5 0
    rw [foldl_append]; rfl,
    fun a => by show 5 ≤ (a ++ List.replicate 5 0).length; simp, by decide, by decide⟩

def P : Stage1 where
  authOn := true
  qemu := true
  verified m := decide (le32 m 4 ≤ 4294967000) &&
    match (verifyIntegrity ImgDemo.cfgC m (le32 m 4) (freshSt [])).1 with
    | .ok => true
    | _ => false
  H := 56
  tag := 3
  keys := 4294963200

theorem digest_imgC : stage2Digest B5 P ImgDemo.imgC = some [39, 7, 0, 0, 0] := by decide +kernel

theorem verified_imgC : P.verified ImgDemo.imgC = true := by decide +kernel

example (m part : Mem) : ∃ s', stage1 B5 P m ImgDemo.imgC part 96 s0 = .ok () s' ∧
    s'.pcr = Log chip 0 [measurement B5 (H 5) (slice part 0 96),
      measurement B5 (H 5) (slice m 4294963200 4096), [39, 7, 0, 0, 0]] s0.pcr :=
  stage1_all_measured fits5 rfl (by decide) (by decide) (by decide) (quiet s0) digest_imgC
    (fun _ => verified_imgC)

theorem verified_spec (im : Mem) (h : P.verified im = true) : le32 im 4 + ImgDemo.cfgC.blk < 4294967296 ∧
    ∃ st, (verifyIntegrity ImgDemo.cfgC im (le32 im 4) st).1 = .ok := by
  have h' : (decide (le32 im 4 ≤ 4294967000) &&
    match (verifyIntegrity ImgDemo.cfgC im (le32 im 4) (freshSt [])).1 with
    | .ok => true
    | _ => false) = true := h
  rw [Bool.and_eq_true, decide_eq_true_eq] at h'
  obtain ⟨h1, h2⟩ := h'
  refine ⟨?_, freshSt [], ?_⟩
  · have : ImgDemo.cfgC.blk = 5 := rfl
    omega
  · revert h2
    split
    · next h => intro _; exact h
    · intro h; cases h

/-- Another second stage in the place of `imgC` with the same register: its header has the same size
and its firmware is the same, or its signed message collides with that of `imgC`. -/
example (m m' im' part part' : Mem) (s1 t1 : S)
    (h1 : stage1 B5 P m ImgDemo.imgC part 96 s0 = .ok () s1)
    (h2 : stage1 B5 P m' im' part' 96 s0 = .ok () t1) (he : s1.pcr 0 = t1.pcr 0) :
    (7 = le32 im' 4 ∧ Agree ImgDemo.imgC im' 56 63) ∨
    (∃ x y, Message ImgDemo.cfgC ImgDemo.imgC x ∧ Message ImgDemo.cfgC im' y ∧ x ≠ y ∧
      ImgDemo.sizeHash x = ImgDemo.sizeHash y) := by
  rcases stage1_register_determines (k := ImgDemo.cfgC) (P := P) fits5 rfl rfl rfl rfl (by decide)
    (by decide) rfl verified_spec (by decide) (by decide) (by decide) (quiet s0) (quiet s0) h1 h2 he with
    ⟨_, _, _, h3, h4⟩ | ⟨_, _, _, _, h⟩ | h
  · have h7 : le32 ImgDemo.imgC 4 = 7 := by decide +kernel
    rw [h7] at h3 h4
    exact .inl ⟨h3, h4⟩
  · exact absurd h (no_replay_clash _ _ _ _)
  · exact .inr h

/-- Without `STAGE1_AUTH` the firmware behind the header can be anything. -/
example (m part : Mem) (im' : Mem) (h : Agree ImgDemo.imgC im' 0 61) :
    stage1 B5 { P with authOn := false } m ImgDemo.imgC part 96 s0 =
      stage1 B5 { P with authOn := false } m im' part 96 s0 := stage1_unverified rfl h s0

/-- Key 3 is the one in the TPM. -/
example : ∃ s', checkRot B 3 (List.replicate 100 5) s0 = .ok () s' :=
  checkRot_complete (b := List.replicate 100 5 ++ [1, 2]) (quiet s0) rfl (by decide) (by decide)

example (u : Unit) (s' : S) : checkRot B 3 (List.replicate 99 5 ++ [4]) s0 ≠ .ok u s' :=
  checkRot_other_key (b := List.replicate 100 5 ++ [1, 2]) rfl (by decide) u s'

example : (deinit B s0).1 = true := (deinit_changes B s0).2 ⟨rfl, rfl, rfl, rfl, rfl⟩

end Demo

end Verif.Measure
