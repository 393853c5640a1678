import Verif.TpmSeal

/-!
# Sealing of secrets: theorems (C57)
-/

namespace Verif.Tpm

open Verif

/-! ## Specification -/

/-- The PCRs that a policy covers: those of the mask, ascending, as many as there is room for. -/
def Covered (mask cap : Nat) : List Nat := ((List.range 24).filter mask.testBit).take cap

/-- The PCRs that a mask names. -/
def Named (mask : Nat) (i : Nat) : Prop := i < 24 ∧ mask.testBit i = true

/-- The digest that the owner of the key has to sign for the values `pcr` of the registers `sel`. -/
def toSign (h : Chip) (sel : List Nat) (pcr : Nat → Bytes) : Bytes :=
  h.addRef (h.policyPcr h.zero sel (h.pcrHash (sel.map pcr))) []

/-- The first slot with a key of this hash. -/
def FirstSlot (c : Cfg) (hint : Bytes) (s : Slot) : Prop :=
  ∃ a r, c.slots = a ++ s :: r ∧ c.sha (s.arr.take s.size) = hint ∧
    ∀ x ∈ a, c.sha (x.arr.take x.size) ≠ hint

/-- The key that the TPM gets for a slot. -/
def SlotKey (c : Cfg) (s : Slot) (k : PubKey) : Prop :=
  0 < s.size ∧
  ((c.algo = .ecc ∧ ∃ cv, (s.typ = .ecc256 ∧ cv = 3 ∨ s.typ = .ecc384 ∧ cv = 4 ∨
      s.typ = .ecc521 ∧ cv = 5) ∧
      k = .ecc cv (s.arr.take (s.size / 2)) ((s.arr.drop (s.size / 2)).take (s.size / 2))) ∨
   (c.algo = .rsa ∧ (s.typ = .rsa2048 ∨ s.typ = .rsa3072 ∨ s.typ = .rsa4096) ∧
      ∃ n off, c.rsaDecode (s.arr.take s.size) = some (n, off) ∧ off + 4 ≤ s.arr.length ∧
        k = .rsa n (num32 (s.arr.drop off))))

/-- The key belonging to a hint. -/
def HintKey (c : Cfg) (hint : Bytes) (k : PubKey) : Prop :=
  ∃ s, FirstSlot c hint s ∧ SlotKey c s k

/-- The object gives its secret to who has this password, or, without password, to who has satisfied
the policy of the key. -/
def Opens (h : Chip) (k : PubKey) (auth : Bytes) (o : Obj) : Prop :=
  (auth = [] ∧ o.policy = h.policyAuth k []) ∨ (auth ≠ [] ∧ o.withAuth = true ∧ o.auth = auth)

/-- No call of the library fails from now on. -/
def Quiet (h : Chip) (s : S) : Prop := ∀ j, s.k ≤ j → h.fault j = 0

/-- The layout of a blob in a non-volatile index. -/
def Layout (b pubEnc priv : Bytes) : Prop :=
  ∃ rest, b = enc16 pubEnc.length ++ pubEnc ++ enc16 priv.length ++ priv ++ rest

/-! ## Calculus -/

theorem bind_ok {α β : Type} (m : T α) (f : α → T β) (s s' : S) (b : β) :
    (m >>= f) s = .ok b s' ↔ ∃ a s1, m s = .ok a s1 ∧ f a s1 = .ok b s' := by
  show T.bind m f s = _ ↔ _
  unfold T.bind
  cases m s with
  | ok a s1 =>
    constructor
    · exact fun h => ⟨a, s1, rfl, h⟩
    · rintro ⟨_, _, h1, h⟩; cases h1; exact h
  | _ => simp

theorem pure_ok {α : Type} (a b : α) (s s' : S) :
    (pure a : T α) s = .ok b s' ↔ b = a ∧ s' = s := by
  show R.ok a s = _ ↔ _
  simp [eq_comm]

theorem fail_ok {α : Type} (rc : Int) (a : α) (s s' : S) : ¬ (fail rc : T α) s = .ok a s' := by
  simp [fail]

theorem ub_ok {α : Type} (b : Bad) (a : α) (s s' : S) : ¬ (ub b : T α) s = .ok a s' := by
  simp [ub]

theorem cleanup_ok {α : Type} (m : T α) (f : S → S) (s s' : S) (a : α) :
    cleanup m f s = .ok a s' ↔ ∃ s1, m s = .ok a s1 ∧ s' = f s1 := by
  unfold cleanup
  cases m s with
  | ok a s1 =>
    constructor
    · intro h; cases h; exact ⟨s1, rfl, rfl⟩
    · rintro ⟨_, h1, h⟩; cases h1; rw [h]
  | _ => simp

theorem call_ok {α : Type} (c : Chip) (f : T α) (s s' : S) (a : α) :
    call c f s = .ok a s' ↔ c.fault s.k = 0 ∧ f { s with k := s.k + 1 } = .ok a s' := by
  unfold call
  split <;> simp_all

theorem call_quiet {α : Type} {c : Chip} {s : S} (h : Quiet c s) (f : T α) :
    call c f s = f { s with k := s.k + 1 } := by
  simp [call, h s.k (Nat.le_refl _)]

theorem bind_eq {α β : Type} (m : T α) (f : α → T β) (s : S) :
    (m >>= f) s = match m s with
      | .ok a s1 => f a s1
      | .err rc s1 => .err rc s1
      | .bad b s1 => .bad b s1 := rfl

theorem plain_ok (c : Chip) (s s' : S) (u : Unit) :
    plain c s = .ok u s' ↔ c.fault s.k = 0 ∧ s' = { s with k := s.k + 1 } := by
  simp [plain, call_ok, eq_comm]

/-- State in which a function ends. -/
def R.st {α : Type} : R α → S
  | .ok _ s => s
  | .err _ s => s
  | .bad _ s => s

/-- A function keeps `P`, however it ends. -/
def Pres {α : Type} (P : S → Prop) (m : T α) : Prop := ∀ s, P s → P (m s).st

theorem Pres.bind {α β : Type} {P : S → Prop} {m : T α} {f : α → T β} (h : Pres P m)
    (hf : ∀ a, Pres P (f a)) : Pres P (m >>= f) := by
  intro s hs
  have h1 := h s hs
  rw [bind_eq]
  cases hm : m s with
  | ok a s1 => rw [hm] at h1; exact hf a s1 h1
  | err rc s1 => rw [hm] at h1; exact h1
  | bad b s1 => rw [hm] at h1; exact h1

theorem Pres.pure {α : Type} {P : S → Prop} (a : α) : Pres P (Pure.pure a : T α) := fun _ h => h
theorem Pres.fail {α : Type} {P : S → Prop} (rc : Int) : Pres P (Tpm.fail rc : T α) := fun _ h => h
theorem Pres.ub {α : Type} {P : S → Prop} (b : Bad) : Pres P (Tpm.ub b : T α) := fun _ h => h

theorem Pres.cleanup {α : Type} {P : S → Prop} {m : T α} {f : S → S} (h : Pres P m)
    (hf : ∀ s, P s → P (f s)) : Pres P (Tpm.cleanup m f) := by
  intro s hs
  have h1 := h s hs
  unfold Tpm.cleanup
  cases hm : m s with
  | ok a s1 => rw [hm] at h1; exact hf _ h1
  | err rc s1 => rw [hm] at h1; exact hf _ h1
  | bad b s1 => rw [hm] at h1; exact h1

theorem Pres.ignore {α : Type} {P : S → Prop} {m : T α} (h : Pres P m) : Pres P (Tpm.ignore m) := by
  intro s hs
  have h1 := h s hs
  unfold Tpm.ignore
  cases hm : m s with
  | ok a s1 => rw [hm] at h1; exact h1
  | err rc s1 => rw [hm] at h1; exact h1
  | bad b s1 => rw [hm] at h1; exact h1

/-! ## Selection of PCRs -/

theorem pcrSelLoop_eq (mask cap n i : Nat) (acc : List Nat) (h : acc.length ≤ cap) :
    pcrSelLoop mask cap n i acc =
      acc ++ ((List.range' i n).filter mask.testBit).take (cap - acc.length) := by
  induction n generalizing i acc with
  | zero => simp [pcrSelLoop]
  | succ n ih =>
    simp only [pcrSelLoop, List.range'_succ]
    by_cases hb : mask.testBit i = true
    · by_cases hl : acc.length < cap
      · rw [if_pos hb, if_pos hl, ih _ _ (by simp; omega), List.filter_cons_of_pos (by simpa using hb)]
        obtain ⟨m, hm⟩ : ∃ m, cap - acc.length = m + 1 := ⟨cap - acc.length - 1, by omega⟩
        rw [hm, List.take_succ_cons]
        have : cap - (acc ++ [i]).length = m := by simp; omega
        rw [this]
        simp
      · rw [if_pos hb, if_neg hl, ih _ _ h]
        have : cap - acc.length = 0 := by omega
        simp [this]
    · rw [if_neg hb, ih _ _ h, List.filter_cons_of_neg (by simpa using hb)]

/-- The selection array holds the PCRs of the mask, ascending, as many as fit. -/
theorem pcrSel_eq (mask cap : Nat) : pcrSel mask cap = Covered mask cap := by
  rw [pcrSel, pcrSelLoop_eq _ _ _ _ _ (by simp)]
  simp [Covered, List.range_eq_range']

example : pcrSel 0x10016 6 = [1, 2, 4, 16] := by decide

/-- All PCRs of the mask are covered if there is room for them. -/
theorem covered_all {mask cap : Nat} (h : ((List.range 24).filter mask.testBit).length ≤ cap) (i : Nat) :
    i ∈ Covered mask cap ↔ Named mask i := by
  simp [Covered, List.take_of_length_le h, Named]

/-- Otherwise some PCR that the mask names is not covered. -/
theorem covered_misses {mask cap : Nat} (h : cap < ((List.range 24).filter mask.testBit).length) :
    ∃ i, Named mask i ∧ i ∉ Covered mask cap := by
  generalize hl : (List.range 24).filter mask.testBit = l at h
  have hn : l.Nodup := hl ▸ (List.nodup_range.filter _)
  refine ⟨l[cap], ?_, ?_⟩
  · have : l[cap] ∈ (List.range 24).filter mask.testBit := by rw [hl]; exact List.getElem_mem h
    simpa [Named] using this
  · intro hm
    rw [Covered, hl, List.mem_take_iff_getElem] at hm
    obtain ⟨j, hj, he⟩ := hm
    exact List.pairwise_iff_getElem.1 hn j cap (by omega) h (by omega) he

example : 6 < ((List.range 24).filter (Nat.testBit 0xFF)).length := by decide

/-! ## Keys -/

theorem slotOf_iff (c : Cfg) (hint : Bytes) (l : List Slot) (s : Slot) :
    slotOf c hint l = some s ↔ ∃ a r, l = a ++ s :: r ∧ c.sha (s.arr.take s.size) = hint ∧
      ∀ x ∈ a, c.sha (x.arr.take x.size) ≠ hint := by
  induction l with
  | nil => simp [slotOf]
  | cons x l ih =>
    unfold slotOf
    by_cases h : c.sha (x.arr.take x.size) = hint
    · rw [if_pos h]
      constructor
      · intro he; cases he; exact ⟨[], l, rfl, h, by simp⟩
      · rintro ⟨a, r, he, h1, h2⟩
        cases a with
        | nil => simp at he; rw [he.1]
        | cons y a => simp at he; exact absurd (he.1 ▸ h) (h2 y (by simp))
    · rw [if_neg h, ih]
      constructor
      · rintro ⟨a, r, he, h1, h2⟩
        exact ⟨x :: a, r, by simp [he], h1, by simpa [h] using h2⟩
      · rintro ⟨a, r, he, h1, h2⟩
        cases a with
        | nil => simp at he; exact absurd (he.1 ▸ h1) h
        | cons y a =>
          simp at he
          exact ⟨a, r, he.2, h1, fun z hz => h2 z (by simp [hz])⟩

theorem loadPubkey_key {c : Cfg} {hint : Bytes} {k : PubKey} (h : HintKey c hint k) :
    loadPubkey c hint = loadPublic c.chip k := by
  obtain ⟨s, h1, h2, h3⟩ := h
  have h4 := (slotOf_iff c hint c.slots s).2 h1
  have h5 : s.size ≠ 0 := by omega
  unfold loadPubkey
  rw [h4]
  dsimp only
  rw [if_neg h5]
  rcases h3 with ⟨ha, cv, ht, rfl⟩ | ⟨ha, ht, n, off, hd, ho, rfl⟩
  · rw [ha]
    rcases ht with ⟨ht, rfl⟩ | ⟨ht, rfl⟩ | ⟨ht, rfl⟩ <;> simp [curveOf, ht]
  · rw [ha]
    have h6 : isRsa s.typ = true := by rcases ht with ht | ht | ht <;> simp [isRsa, ht]
    simp [h6, hd, Nat.not_lt.2 ho]

theorem loadPubkey_ok {c : Cfg} {hint : Bytes} {k : PubKey} {s s' : S}
    (h : loadPubkey c hint s = .ok k s') :
    HintKey c hint k ∧ loadPublic c.chip k s = .ok k s' := by
  unfold loadPubkey at h
  cases hs : slotOf c hint c.slots with
  | none => rw [hs] at h; simp [fail] at h
  | some sl =>
    rw [hs] at h
    dsimp only at h
    have h1 := (slotOf_iff c hint c.slots sl).1 hs
    by_cases hz : sl.size = 0
    · simp [hz, fail] at h
    · rw [if_neg hz] at h
      cases ha : c.algo with
      | none => rw [ha] at h; simp [fail] at h
      | ecc =>
        rw [ha] at h
        dsimp only at h
        cases hc : curveOf sl.typ with
        | none => rw [hc] at h; simp [fail] at h
        | some cv =>
          rw [hc] at h
          dsimp only at h
          have hk := h
          simp only [loadPublic, call_ok] at hk
          obtain ⟨_, hk⟩ := hk
          cases hk
          refine ⟨⟨sl, h1, by omega, .inl ⟨ha, cv, ?_, rfl⟩⟩, h⟩
          cases ht : sl.typ <;> simp_all [curveOf]
      | rsa =>
        rw [ha] at h
        dsimp only at h
        by_cases hr : isRsa sl.typ = false
        · simp [hr, fail] at h
        · rw [if_neg hr] at h
          cases hd : c.rsaDecode (sl.arr.take sl.size) with
          | none => rw [hd] at h; simp [fail] at h
          | some p =>
            obtain ⟨n, off⟩ := p
            rw [hd] at h
            dsimp only at h
            by_cases ho : sl.arr.length < off + 4
            · simp [ho, ub] at h
            · rw [if_neg ho] at h
              have hk := h
              simp only [loadPublic, call_ok] at hk
              obtain ⟨_, hk⟩ := hk
              cases hk
              refine ⟨⟨sl, h1, by omega, .inr ⟨ha, ?_, n, off, hd, by omega, rfl⟩⟩, h⟩
              cases ht : sl.typ <;> simp_all [isRsa]

/-- At most one key belongs to a hint. -/
theorem hintKey_unique {c : Cfg} {hint : Bytes} {k k' : PubKey} (h : HintKey c hint k)
    (h' : HintKey c hint k') : k = k' := by
  have e := (loadPubkey_key h).symm.trans (loadPubkey_key h')
  have := congrFun e ⟨0, fun _ => [], fun _ => none, none, none, none⟩
  simp only [loadPublic, call] at this
  split at this
  · simpa using this
  · have e2 := loadPubkey_key h
    obtain ⟨s, h1, h2, h3⟩ := h
    obtain ⟨s', h1', h2', h3'⟩ := h'
    have e3 := (slotOf_iff c hint c.slots s).2 h1
    rw [(slotOf_iff c hint c.slots s').2 h1'] at e3
    cases e3
    rcases h3 with ⟨ha, cv, ht, rfl⟩ | ⟨ha, ht, n, off, hd, ho, rfl⟩ <;>
      rcases h3' with ⟨ha', cv', ht', rfl⟩ | ⟨ha', ht', n', off', hd', ho', rfl⟩
    · have : cv = cv' := by
        rcases ht with ⟨ht, rfl⟩ | ⟨ht, rfl⟩ | ⟨ht, rfl⟩ <;>
          rcases ht' with ⟨ht', rfl⟩ | ⟨ht', rfl⟩ | ⟨ht', rfl⟩ <;> simp_all
      rw [this]
    · rw [ha] at ha'; cases ha'
    · rw [ha] at ha'; cases ha'
    · rw [hd] at hd'; cases hd'; rfl


/-! ## Unsealing -/

@[simp] theorem unloadKey_pcr (c : Chip) (s : S) : (unloadKey c s).pcr = s.pcr := by
  unfold unloadKey; split <;> rfl
@[simp] theorem unloadKey_nv (c : Chip) (s : S) : (unloadKey c s).nv = s.nv := by
  unfold unloadKey; split <;> rfl
@[simp] theorem unloadKey_session (c : Chip) (s : S) : (unloadKey c s).session = s.session := by
  unfold unloadKey; split <;> rfl
@[simp] theorem unloadKey_obj (c : Chip) (s : S) : (unloadKey c s).obj = s.obj := by
  unfold unloadKey; split <;> rfl
theorem unloadKey_k (c : Chip) (s : S) : s.k ≤ (unloadKey c s).k := by
  unfold unloadKey; split <;> simp

@[simp] theorem unloadObj_pcr (c : Chip) (s : S) : (unloadObj c s).pcr = s.pcr := by
  unfold unloadObj; split <;> rfl
@[simp] theorem unloadObj_nv (c : Chip) (s : S) : (unloadObj c s).nv = s.nv := by
  unfold unloadObj; split <;> rfl
@[simp] theorem unloadObj_key (c : Chip) (s : S) : (unloadObj c s).key = s.key := by
  unfold unloadObj; split <;> rfl
@[simp] theorem unloadSession_pcr (c : Chip) (s : S) : (unloadSession c s).pcr = s.pcr := by
  unfold unloadSession; split <;> rfl
@[simp] theorem unloadSession_nv (c : Chip) (s : S) : (unloadSession c s).nv = s.nv := by
  unfold unloadSession; split <;> rfl
@[simp] theorem unloadSession_key (c : Chip) (s : S) : (unloadSession c s).key = s.key := by
  unfold unloadSession; split <;> rfl
@[simp] theorem unloadSession_obj (c : Chip) (s : S) : (unloadSession c s).obj = s.obj := by
  unfold unloadSession; split <;> rfl

theorem authorize_ok {c : Cfg} {hint sig d pd : Bytes} {s s' : S} {u : Unit}
    (h : authorize c hint sig d pd s = .ok u s') :
    ∃ k, HintKey c hint k ∧ c.chip.verify k sig pd = true ∧ s.session = some d ∧
      pd = c.chip.addRef d [] ∧ s'.session = some (c.chip.policyAuth k []) ∧ s'.pcr = s.pcr ∧
      s'.nv = s.nv := by
  simp only [authorize, cleanup_ok, bind_ok] at h
  obtain ⟨s1, ⟨k, s2, h2, t, s3, h3, h4⟩, rfl⟩ := h
  obtain ⟨hk, h2⟩ := loadPubkey_ok h2
  simp only [loadPublic, call_ok] at h2
  obtain ⟨_, h2⟩ := h2
  cases h2
  simp only [verifyTicket, call_ok] at h3
  obtain ⟨_, h3⟩ := h3
  split at h3
  · rename_i hv
    cases h3
    simp only [policyAuthorize, call_ok] at h4
    obtain ⟨_, h4⟩ := h4
    cases hs : s.session with
    | none => simp [hs] at h4
    | some e =>
      simp only [hs] at h4
      split at h4
      · rename_i he
        cases h4
        exact ⟨k, hk, hv, by rw [he.1], (by simpa using he.2), by simp, by simp, by simp⟩
      · cases h4
  · cases h3

theorem unsealLoaded_ok {c : Cfg} {pub priv auth sec : Bytes} {cap : Nat} {s s' : S}
    (h : unsealLoaded c pub priv auth cap s = .ok sec s') :
    ∃ o, c.chip.unwrap pub priv = some o ∧ sec = o.secret ∧ sec.length ≤ cap ∧
      ((auth = [] ∧ s.session = some o.policy) ∨
       (auth ≠ [] ∧ o.withAuth = true ∧ o.auth = auth)) := by
  simp only [unsealLoaded, bind_ok] at h
  obtain ⟨_, s1, h1, _, s2, h2, x, s3, h3, h4⟩ := h
  simp only [loadSeal, call_ok] at h1
  obtain ⟨_, h1⟩ := h1
  cases ho : c.chip.unwrap pub priv with
  | none => simp [ho] at h1
  | some o =>
    simp only [ho] at h1
    cases h1
    have hs2 : s2.session = s.session ∧ s2.obj = some o := by
      unfold setAuth at h2
      by_cases ha : auth = []
      · rw [if_pos ha] at h2
        unfold ignore at h2
        simp only [plain, call] at h2
        split at h2 <;> (rename_i hx; split at hx <;> cases hx <;> cases h2 <;> simp)
      · rw [if_neg ha] at h2
        split at h2
        · cases h2
        · cases h2; simp
    have h3' : x = o.secret ∧ ((auth = [] ∧ s.session = some o.policy) ∨
       (auth ≠ [] ∧ o.withAuth = true ∧ o.auth = auth)) := by
      simp only [unsealObj, call_ok, hs2.2, hs2.1] at h3
      obtain ⟨_, h3⟩ := h3
      split at h3
      · rename_i ha
        split at h3
        · rename_i hb; cases h3; exact ⟨rfl, .inr ⟨ha, hb⟩⟩
        · cases h3
      · rename_i ha
        split at h3
        · rename_i hb; cases h3; exact ⟨rfl, .inl ⟨by simpa using ha, hb⟩⟩
        · cases h3
    unfold copyOut at h4
    split at h4
    · cases h4
    · rename_i hl
      cases h4
      exact ⟨o, rfl, h3'.1, by omega, h3'.2⟩

/-- Size of the signature for a policy of at least four bytes. -/
theorem sigSz_eq {p : BitVec 16} (h : 4 ≤ p.toNat) : (p - 4).toNat = p.toNat - 4 := by
  have := p.isLt
  simp [BitVec.toNat_sub]
  omega

/-- A shorter policy makes the size wrap around. -/
theorem sigSz_short {p : BitVec 16} (h : p.toNat < 4) : (p - 4).toNat = p.toNat + 65532 := by
  have := p.isLt
  simp [BitVec.toNat_sub]
  omega

/-- **A secret is released only for a signed state.** If unsealing succeeds, the key that belongs to
the hint verified the signature in the policy for the current values of the covered PCRs, and the
object opens to that policy (or the password). -/
theorem unseal_sound {c : Cfg} {hint mem : Bytes} {p : BitVec 16} {pub priv auth sec : Bytes}
    {cap : Nat} {s s' : S} (hm : mem.length < 65536)
    (h : unsealBlob c hint mem p pub priv auth cap s = .ok sec s') :
    4 ≤ p.toNat ∧ p.toNat ≤ mem.length ∧
    ∃ k o, HintKey c hint k ∧
      c.chip.verify k ((mem.drop 4).take (p.toNat - 4))
        (toSign c.chip (Covered (num32 mem) c.pcrCap) s.pcr) = true ∧
      c.chip.unwrap pub priv = some o ∧ Opens c.chip k auth o ∧ sec = o.secret ∧
      sec.length ≤ cap := by
  unfold unsealBlob at h
  split at h
  · cases h
  · split at h
    · cases h
    · rename_i hz hl
      have h4 : 4 ≤ p.toNat := by
        rcases Nat.lt_or_ge p.toNat 4 with h5 | h5
        · rw [sigSz_short h5] at hl; omega
        · exact h5
      rw [sigSz_eq h4] at hl
      simp only [cleanup_ok, bind_ok] at h
      obtain ⟨_, ⟨_, s1, h1, _, s2, h2, _, s3, h3, d, s5, h5, pd, s6, h6, _, s7, h7, h8⟩, _⟩ := h
      simp only [startSession, call_ok] at h1
      obtain ⟨_, h1⟩ := h1; cases h1
      simp only [plain_ok] at h2
      obtain ⟨_, rfl⟩ := h2
      simp only [policyPCR, call_ok] at h3
      obtain ⟨_, h3⟩ := h3; cases h3
      simp only [getPolicyDigest, call_ok] at h5
      obtain ⟨_, h5⟩ := h5; cases h5
      simp only [policyRefMake, call_ok] at h6
      obtain ⟨_, h6⟩ := h6; cases h6
      obtain ⟨k, hk, hv, _, _, hs, _⟩ := authorize_ok h7
      obtain ⟨o, ho, hsec, hlen, hop⟩ := unsealLoaded_ok h8
      rw [sigSz_eq h4, pcrSel_eq] at hv
      refine ⟨h4, by omega, k, o, hk, hv, ho, ?_, hsec, hlen⟩
      rcases hop with ⟨ha, hp⟩ | hp
      · rw [hs] at hp
        exact .inl ⟨ha, (Option.some.inj hp).symm⟩
      · exact .inr hp


theorem Quiet.step {c : Chip} {s s' : S} (h : Quiet c s) (hk : s.k ≤ s'.k) : Quiet c s' :=
  fun j hj => h j (Nat.le_trans hk hj)

theorem authorize_quiet {c : Cfg} {hint sig d : Bytes} {k : PubKey} {s : S} (hq : Quiet c.chip s)
    (hk : HintKey c hint k) (hv : c.chip.verify k sig (c.chip.addRef d []) = true)
    (hs : s.session = some d) :
    ∃ s', authorize c hint sig d (c.chip.addRef d []) s = .ok () s' ∧
      s'.session = some (c.chip.policyAuth k []) ∧ s.k ≤ s'.k ∧ s'.pcr = s.pcr ∧ s'.nv = s.nv := by
  unfold authorize cleanup
  rw [loadPubkey_key hk, bind_eq, loadPublic, call_quiet hq]
  dsimp only
  rw [bind_eq, verifyTicket, call_quiet (hq.step (by simp))]
  simp only [hv, if_true]
  rw [policyAuthorize, call_quiet (hq.step (by simp; omega))]
  simp only [hs, and_self, if_true]
  refine ⟨_, rfl, by simp, ?_, by simp, by simp⟩
  have := unloadKey_k c.chip ⟨s.k + 1 + 1 + 1, s.pcr, s.nv, some (c.chip.policyAuth k []), some k, s.obj⟩
  simp only at this
  omega

theorem setAuth_quiet {c : Cfg} {auth : Bytes} {s : S} (hq : Quiet c.chip s)
    (ha : auth.length ≤ c.authCap) :
    ∃ s', setAuth c auth s = .ok () s' ∧ s'.session = s.session ∧ s'.obj = s.obj ∧ s.k ≤ s'.k ∧
      s'.pcr = s.pcr ∧ s'.nv = s.nv := by
  unfold setAuth
  by_cases h : auth = []
  · rw [if_pos h]
    unfold ignore plain
    rw [call_quiet hq]
    exact ⟨_, rfl, rfl, rfl, by simp, rfl, rfl⟩
  · rw [if_neg h, if_neg (by omega)]
    exact ⟨_, rfl, rfl, rfl, by simp, rfl, rfl⟩

theorem unsealLoaded_quiet {c : Cfg} {pub priv auth : Bytes} {cap : Nat} {s : S} {o : Obj}
    {k : PubKey} (hq : Quiet c.chip s) (ha : auth.length ≤ c.authCap)
    (ho : c.chip.unwrap pub priv = some o) (hs : s.session = some (c.chip.policyAuth k []))
    (hop : Opens c.chip k auth o) :
    ∃ s', unsealLoaded c pub priv auth cap s =
        (if cap < o.secret.length then .bad .secretBuf s' else .ok o.secret s') ∧
      s'.pcr = s.pcr ∧ s'.nv = s.nv ∧ s.k ≤ s'.k := by
  unfold unsealLoaded
  rw [bind_eq, loadSeal, call_quiet hq]
  simp only [ho]
  obtain ⟨s1, h1, h2, h3, h4, h5, h6⟩ := setAuth_quiet (c := c) (auth := auth)
    (s := ⟨s.k + 1, s.pcr, s.nv, s.session, s.key, some o⟩) (hq.step (by simp)) ha
  rw [bind_eq, h1]
  dsimp only at h2 h3 h4 h5 h6 ⊢
  have hx : unsealObj c.chip auth s1 = .ok o.secret { s1 with k := s1.k + 1 } := by
    rw [unsealObj, call_quiet (hq.step (by omega))]
    simp only [h3]
    rcases hop with ⟨h, hp⟩ | ⟨h, hp⟩
    · simp [h, h2, hs, hp]
    · simp [h, hp.1, hp.2]
  rw [bind_eq, hx]
  refine ⟨{ s1 with k := s1.k + 1 }, ?_, h5, h6, by simp; omega⟩
  unfold copyOut ub
  dsimp only
  split <;> rfl

theorem unsealBlob_quiet {c : Cfg} {hint mem : Bytes} {p : BitVec 16} {pub priv auth : Bytes}
    {cap : Nat} {s : S} {k : PubKey} {o : Obj} (hq : Quiet c.chip s) (h4 : 4 ≤ p.toNat)
    (hl : p.toNat ≤ mem.length) (ha : auth.length ≤ c.authCap) (hk : HintKey c hint k)
    (hv : c.chip.verify k ((mem.drop 4).take (p.toNat - 4))
        (toSign c.chip (Covered (num32 mem) c.pcrCap) s.pcr) = true)
    (ho : c.chip.unwrap pub priv = some o) (hop : Opens c.chip k auth o) :
    ∃ s', unsealBlob c hint mem p pub priv auth cap s =
        (if cap < o.secret.length then .bad .secretBuf s' else .ok o.secret s') ∧
      s'.pcr = s.pcr ∧ s'.nv = s.nv := by
  have hz : p ≠ 0 := by intro h; rw [h] at h4; simp at h4
  unfold unsealBlob
  rw [if_neg hz, sigSz_eq h4, if_neg (by omega)]
  simp only [pcrSel_eq]
  generalize hsel : Covered (num32 mem) c.pcrCap = sel at hv
  generalize hsig : List.take (p.toNat - 4) (List.drop 4 mem) = sig at hv
  unfold cleanup
  rw [bind_eq, startSession, call_quiet hq]
  dsimp only
  rw [bind_eq, plain, call_quiet (hq.step (by simp))]
  dsimp only
  rw [bind_eq, policyPCR, call_quiet (hq.step (by simp; omega))]
  dsimp only
  rw [bind_eq, getPolicyDigest, call_quiet (hq.step (by simp; omega))]
  dsimp only
  rw [bind_eq, policyRefMake, call_quiet (hq.step (by simp; omega))]
  dsimp only
  obtain ⟨s1, h1, h2, h3, h5, h6⟩ := authorize_quiet (c := c) (hint := hint) (sig := sig)
    (d := c.chip.policyPcr c.chip.zero sel (c.chip.pcrHash (sel.map s.pcr))) (k := k)
    (s := ⟨s.k + 1 + 1 + 1 + 1 + 1, s.pcr, s.nv,
      some (c.chip.policyPcr c.chip.zero sel (c.chip.pcrHash (sel.map s.pcr))), s.key, s.obj⟩)
    (hq.step (by simp; omega)) hk hv rfl
  rw [bind_eq, h1]
  dsimp only at h3 h5 h6 ⊢
  obtain ⟨s2, h7, h8, h9, _⟩ := unsealLoaded_quiet (cap := cap) (hq.step (s' := s1) (by omega)) ha ho h2 hop
  rw [h7]
  by_cases hc : cap < o.secret.length
  · rw [if_pos hc]
    exact ⟨s2, by simp [hc], by rw [h8, h5], by rw [h9, h6]⟩
  · rw [if_neg hc]
    exact ⟨_, by simp only [if_neg hc]; rfl, by simp [h8, h5], by simp [h9, h6]⟩

/-- **A secret is released for every signed state.** -/
theorem unseal_complete {c : Cfg} {hint mem : Bytes} {p : BitVec 16} {pub priv auth : Bytes}
    {cap : Nat} {s : S} {k : PubKey} {o : Obj} (hq : Quiet c.chip s) (h4 : 4 ≤ p.toNat)
    (hl : p.toNat ≤ mem.length) (ha : auth.length ≤ c.authCap) (hk : HintKey c hint k)
    (hv : c.chip.verify k ((mem.drop 4).take (p.toNat - 4))
        (toSign c.chip (Covered (num32 mem) c.pcrCap) s.pcr) = true)
    (ho : c.chip.unwrap pub priv = some o) (hop : Opens c.chip k auth o)
    (hc : o.secret.length ≤ cap) :
    ∃ s', unsealBlob c hint mem p pub priv auth cap s = .ok o.secret s' := by
  obtain ⟨s', h, _⟩ := unsealBlob_quiet (cap := cap) hq h4 hl ha hk hv ho hop
  exact ⟨s', by rw [h, if_neg (by omega)]⟩

/-- A sealed secret larger than the array of the caller is written beyond its end. -/
theorem unseal_overflow {c : Cfg} {hint mem : Bytes} {p : BitVec 16} {pub priv auth : Bytes}
    {cap : Nat} {s : S} {k : PubKey} {o : Obj} (hq : Quiet c.chip s) (h4 : 4 ≤ p.toNat)
    (hl : p.toNat ≤ mem.length) (ha : auth.length ≤ c.authCap) (hk : HintKey c hint k)
    (hv : c.chip.verify k ((mem.drop 4).take (p.toNat - 4))
        (toSign c.chip (Covered (num32 mem) c.pcrCap) s.pcr) = true)
    (ho : c.chip.unwrap pub priv = some o) (hop : Opens c.chip k auth o)
    (hc : cap < o.secret.length) :
    ∃ s', unsealBlob c hint mem p pub priv auth cap s = .bad .secretBuf s' := by
  obtain ⟨s', h, _⟩ := unsealBlob_quiet (cap := cap) hq h4 hl ha hk hv ho hop
  exact ⟨s', by rw [h, if_pos hc]⟩

/-- A policy of one to three bytes is read beyond its end: the size given to the verification is
close to 65536. -/
theorem unseal_short_policy {c : Cfg} {hint mem : Bytes} {p : BitVec 16} {pub priv auth : Bytes}
    {cap : Nat} {s : S} (hm : mem.length < 65536) (h0 : p ≠ 0) (h4 : p.toNat < 4) :
    unsealBlob c hint mem p pub priv auth cap s = .bad .policy s := by
  unfold unsealBlob
  have h5 : mem.length < 4 + (p - 4).toNat := by
    rw [sigSz_short h4]
    exact Nat.lt_of_lt_of_le hm (Nat.le_trans (Nat.le_add_left 65536 p.toNat)
      (by rw [show (65536 : Nat) = 65532 + 4 from rfl]; simp only [Nat.add_comm, Nat.add_left_comm, Nat.le_refl]))
  rw [if_neg h0, if_pos h5]
  rfl

/-- **The secret is bound to the covered PCRs**: if it is released twice with the same policy, the
covered PCRs had the same values, provided that a signature is valid for one digest only and the
hash functions do not collide. -/
theorem unseal_bound {c : Cfg} {hint mem : Bytes} {p : BitVec 16} {pub priv pub' priv' auth sec sec' : Bytes}
    {cap cap' : Nat} {s s' t t' : S} (hm : mem.length < 65536)
    (h : unsealBlob c hint mem p pub priv auth cap s = .ok sec s')
    (h' : unsealBlob c hint mem p pub' priv' auth cap' t = .ok sec' t')
    (hsig : ∀ k g d d', c.chip.verify k g d = true → c.chip.verify k g d' = true → d = d')
    (href : ∀ d d', c.chip.addRef d [] = c.chip.addRef d' [] → d = d')
    (hpol : ∀ z l d d', c.chip.policyPcr z l d = c.chip.policyPcr z l d' → d = d')
    (hpcr : ∀ l l', c.chip.pcrHash l = c.chip.pcrHash l' → l = l') :
    ∀ i ∈ Covered (num32 mem) c.pcrCap, s.pcr i = t.pcr i := by
  obtain ⟨_, _, k, _, hk, hv, _⟩ := unseal_sound hm h
  obtain ⟨_, _, k', _, hk', hv', _⟩ := unseal_sound hm h'
  cases hintKey_unique hk hk'
  have h1 := hpcr _ _ (hpol _ _ _ _ (href _ _ (hsig _ _ _ _ hv hv')))
  intro i hi
  exact List.map_inj_left.1 h1 i hi

/-- The PCRs that are not covered do not matter. -/
theorem unseal_uncovered {c : Cfg} {hint mem : Bytes} {p : BitVec 16} {pub priv auth sec : Bytes}
    {cap : Nat} {s s' t : S} (hm : mem.length < 65536) (ha : auth.length ≤ c.authCap)
    (h : unsealBlob c hint mem p pub priv auth cap s = .ok sec s') (hq : Quiet c.chip t)
    (hp : ∀ i ∈ Covered (num32 mem) c.pcrCap, t.pcr i = s.pcr i) :
    ∃ t', unsealBlob c hint mem p pub priv auth cap t = .ok sec t' := by
  obtain ⟨h4, hl, k, o, hk, hv, ho, hop, rfl, hc⟩ := unseal_sound hm h
  refine unseal_complete hq h4 hl ha hk ?_ ho hop hc
  unfold toSign at hv ⊢
  rw [List.map_congr_left hp]
  exact hv

/-- **A mask with more PCRs than there is room for does not bind the secret to all of them**: some
PCR of the mask can have any value. -/
theorem unseal_not_bound {c : Cfg} {hint mem : Bytes} {p : BitVec 16} {pub priv auth sec : Bytes}
    {cap : Nat} {s s' : S} (hm : mem.length < 65536) (ha : auth.length ≤ c.authCap)
    (hq : Quiet c.chip s) (h : unsealBlob c hint mem p pub priv auth cap s = .ok sec s')
    (hn : c.pcrCap < ((List.range 24).filter (num32 mem).testBit).length) :
    ∃ i, Named (num32 mem) i ∧ ∀ v, ∃ t', unsealBlob c hint mem p pub priv auth cap
      { s with pcr := fun j => if j = i then v else s.pcr j } = .ok sec t' := by
  obtain ⟨i, hi, hc⟩ := covered_misses hn
  refine ⟨i, hi, fun v => unseal_uncovered hm ha h hq ?_⟩
  intro j hj
  have : j ≠ i := fun e => hc (e ▸ hj)
  simp [this]


/-! ## Storage -/

theorem num16_enc16 {n : Nat} (h : n < 65536) : num16 (enc16 n) = n := by
  simp [num16, le16, enc16]
  omega

theorem num16_lt (b : Bytes) : num16 b < 65536 := le16_lt _ _

@[simp] theorem enc16_length (n : Nat) : (enc16 n).length = 2 := rfl

theorem splice_append (pre rest d : Bytes) :
    splice (pre ++ rest) pre.length d = pre ++ d ++ rest.drop d.length := by
  simp [splice]

theorem nvWrite_ok {c : Chip} {i off : Nat} {d : Bytes} {s s' : S} {u : Unit}
    (h : nvWrite c i off d s = .ok u s') :
    ∃ b, s.nv i = some b ∧ off + d.length ≤ b.length ∧ s'.nv i = some (splice b off d) ∧
      (∀ j, j ≠ i → s'.nv j = s.nv j) ∧ s'.pcr = s.pcr := by
  simp only [nvWrite, call_ok] at h
  obtain ⟨_, h⟩ := h
  cases hb : s.nv i with
  | none => simp [hb] at h
  | some b =>
    simp only [hb] at h
    split at h
    · rename_i hl; cases h; exact ⟨b, rfl, hl, by simp [setNv], fun j hj => by simp [setNv, hj], rfl⟩
    · cases h

@[simp] theorem setNv_same (s : S) (i : Nat) (v : Option Bytes) : (setNv s i v).nv i = v := by
  simp [setNv]
theorem setNv_other (s : S) {i j : Nat} (v : Option Bytes) (h : j ≠ i) :
    (setNv s i v).nv j = s.nv j := by
  simp [setNv, h]
@[simp] theorem setNv_pcr (s : S) (i : Nat) (v : Option Bytes) : (setNv s i v).pcr = s.pcr := rfl
@[simp] theorem setNv_k (s : S) (i : Nat) (v : Option Bytes) : (setNv s i v).k = s.k := rfl

theorem write_at {pre rest d b : Bytes} {off : Nat} (hb : b = pre ++ rest) (ho : off = pre.length) :
    splice b off d = (pre ++ d) ++ rest.drop d.length := by
  rw [hb, ho, splice_append]

/-- A blob that was stored is in the index, and nothing else changed. -/
theorem storeBlob_ok {c : Cfg} {i : Nat} {pub priv auth : Bytes} {s s' : S} {u : Unit}
    (h : storeBlob c i pub priv auth s = .ok u s') :
    (c.chip.encPub pub).length ≤ c.pubCap ∧
    (∃ b, s'.nv i = some b ∧ Layout b (c.chip.encPub pub) priv) ∧
    (∀ j, j ≠ i → s'.nv j = s.nv j) ∧ s'.pcr = s.pcr := by
  unfold storeBlob at h
  split at h
  · cases h
  simp only [bind_ok] at h
  obtain ⟨e, s1, h1, _, s2, h2, _, s3, h3, _, s4, h4, _, s5, h5, h6⟩ := h
  simp only [call_ok] at h1
  obtain ⟨_, h1⟩ := h1
  split at h1
  · rename_i hl
    cases h1
    have hc : (∃ b, s2.nv i = some b) ∧ (∀ j, j ≠ i → s2.nv j = s.nv j) ∧ s2.pcr = s.pcr := by
      simp only [nvCreate, call] at h2
      by_cases hf : c.chip.fault (s.k + 1) = 0
      · simp only [hf, if_true] at h2
        cases hn : s.nv i with
        | none =>
          simp only [hn] at h2
          cases h2
          exact ⟨⟨_, setNv_same _ _ _⟩, fun j hj => by rw [setNv_other _ _ hj], rfl⟩
        | some b =>
          simp only [hn, if_true] at h2
          cases h2
          exact ⟨⟨b, hn⟩, fun _ _ => rfl, rfl⟩
      · simp only [hf, if_false] at h2
        split at h2
        · cases h2
          obtain ⟨b, hb, _⟩ := nvWrite_ok h3
          exact ⟨⟨b, hb⟩, fun _ _ => rfl, rfl⟩
        · cases h2
    obtain ⟨⟨b0, hb0⟩, ho, hp⟩ := hc
    obtain ⟨b1, hb1, hl1, n1, o1, p1⟩ := nvWrite_ok h3
    obtain ⟨b2, hb2, hl2, n2, o2, p2⟩ := nvWrite_ok h4
    obtain ⟨b3, hb3, hl3, n3, o3, p3⟩ := nvWrite_ok h5
    obtain ⟨b4, hb4, hl4, n4, o4, p4⟩ := nvWrite_ok h6
    rw [n1, Option.some.injEq] at hb2
    rw [n2, Option.some.injEq] at hb3
    rw [n3, Option.some.injEq] at hb4
    generalize c.chip.encPub pub = e at *
    have e2 := write_at (pre := []) (rest := b1) (d := enc16 e.length) (b := b1) (off := 0) rfl rfl
    have e3 := write_at (d := e) (hb2.symm.trans e2) (off := 2) (by simp)
    have e4 := write_at (d := enc16 priv.length) (hb3.symm.trans e3) (off := 2 + e.length) (by simp)
    have e5 := write_at (d := priv) (hb4.symm.trans e4) (off := 2 + e.length + 2) (by simp; omega)
    refine ⟨hl, ⟨_, n4, ?_⟩, ?_, ?_⟩
    · rw [e5]
      exact ⟨_, by simp only [List.nil_append]; rfl⟩
    · intro j hj
      rw [o4 j hj, o3 j hj, o2 j hj, o1 j hj, ho j hj]
    · rw [p4, p3, p2, p1, hp]
  · cases h1

theorem nvRead_ok {c : Chip} {i off n cap : Nat} {e : Bad} {s s' : S} {d : Bytes}
    (h : nvRead c i off n cap e s = .ok d s') :
    ∃ b, s.nv i = some b ∧ off + n ≤ b.length ∧ n ≤ cap ∧ d = (b.drop off).take n ∧
      s' = { s with k := s.k + 1 } := by
  simp only [nvRead, call_ok] at h
  obtain ⟨_, h⟩ := h
  cases hb : s.nv i with
  | none => simp [hb] at h
  | some b =>
    simp only [hb] at h
    split at h
    · rename_i hl
      split at h
      · cases h
      · rename_i hc
        cases h
        exact ⟨b, rfl, hl, by omega, rfl, rfl⟩
    · cases h

theorem nvRead_quiet {c : Chip} {i off n cap : Nat} {e : Bad} {s : S} {b : Bytes}
    (hq : Quiet c s) (hb : s.nv i = some b) (hl : off + n ≤ b.length) :
    nvRead c i off n cap e s = if cap < n then .bad e { s with k := s.k + 1 }
      else .ok ((b.drop off).take n) { s with k := s.k + 1 } := by
  rw [nvRead, call_quiet hq]
  simp only [hb, if_pos hl]

theorem enc16_num16 {b : Bytes} (h : b.length = 2) : enc16 (num16 b) = b := by
  match b, h with
  | [x, y], _ =>
    have h1 := x.isLt
    have h2 := y.isLt
    simp only [num16, enc16, le16, List.getD_cons_zero, List.getD_cons_succ, List.cons.injEq, and_true,
      Nat.zero_add]
    constructor
    · apply BitVec.eq_of_toNat_eq
      simp
      omega
    · apply BitVec.eq_of_toNat_eq
      simp
      omega

/-- What is read is what the layout says. -/
theorem readBlob_ok {c : Cfg} {i : Nat} {auth : Bytes} {r : Bytes × Bytes} {s s' : S}
    (h : readBlob c i auth s = .ok r s') :
    ∃ b e, s.nv i = some b ∧ Layout b e r.2 ∧ e.length < 65536 ∧ r.2.length < 65536 ∧
      e.length ≤ c.pubCap ∧ r.2.length ≤ c.privCap ∧
      c.chip.decPub (e ++ c.junk.drop e.length) = some r.1 ∧ s'.nv = s.nv ∧ s'.pcr = s.pcr := by
  unfold readBlob at h
  split at h
  · cases h
  simp only [bind_ok] at h
  obtain ⟨a, s1, h1, e, s2, h2, pub, s3, h3, b', s4, h4, pr, s5, h5, h6⟩ := h
  obtain ⟨b, hb, hl1, _, ha, rfl⟩ := nvRead_ok h1
  obtain ⟨b2, hb2, hl2, hc2, he, rfl⟩ := nvRead_ok h2
  simp only [call_ok] at h3
  obtain ⟨_, h3⟩ := h3
  cases hd : c.chip.decPub (e ++ c.junk.drop e.length) with
  | none => simp [hd] at h3
  | some q =>
    simp only [hd] at h3
    cases h3
    obtain ⟨b4, hb4, hl4, _, hb', rfl⟩ := nvRead_ok h4
    obtain ⟨b5, hb5, hl5, hc5, hpr, rfl⟩ := nvRead_ok h5
    cases h6
    simp only at hb2 hb4 hb5
    rw [hb] at hb2 hb4 hb5
    cases hb2; cases hb4; cases hb5
    have hel : e.length = num16 a := by rw [he]; simp; omega
    have hpl : pr.length = num16 b' := by rw [hpr]; simp; omega
    refine ⟨b, e, hb, ⟨b.drop (2 + num16 a + 2 + num16 b'), ?_⟩, hel ▸ num16_lt _, hpl ▸ num16_lt _,
      by omega, by show pr.length ≤ _; omega, hd, rfl, rfl⟩
    have ha2 : a.length = 2 := by rw [ha]; simp; omega
    have hb2 : b'.length = 2 := by rw [hb']; simp; omega
    dsimp only
    rw [hel, hpl, enc16_num16 ha2, enc16_num16 hb2]
    have e1 : b = a ++ b.drop 2 := by rw [ha]; simp
    have e2 : b.drop 2 = e ++ b.drop (2 + num16 a) := by
      conv => lhs; rw [← List.take_append_drop (num16 a) (b.drop 2)]
      rw [he, List.drop_drop]
    have e3 : b.drop (2 + num16 a) = b' ++ b.drop (2 + num16 a + 2) := by
      conv => lhs; rw [← List.take_append_drop 2 (b.drop (2 + num16 a))]
      rw [hb', List.drop_drop]
    have e4 : b.drop (2 + num16 a + 2) = pr ++ b.drop (2 + num16 a + 2 + num16 b') := by
      conv => lhs; rw [← List.take_append_drop (num16 b') (b.drop (2 + num16 a + 2))]
      rw [hpr, List.drop_drop]
    conv => lhs; rw [e1, e2, e3, e4]
    simp only [List.append_assoc]

theorem enc16_inj {m n : Nat} (hm : m < 65536) (hn : n < 65536) (h : enc16 m = enc16 n) : m = n := by
  rw [← num16_enc16 hm, ← num16_enc16 hn, h]

/-- The layout determines the blob. -/
theorem layout_unique {b e p e' p' : Bytes} (h : Layout b e p) (h' : Layout b e' p')
    (he : e.length < 65536) (he' : e'.length < 65536) (hp : p.length < 65536)
    (hp' : p'.length < 65536) : e = e' ∧ p = p' := by
  obtain ⟨r, rfl⟩ := h
  obtain ⟨r', h'⟩ := h'
  simp only [List.append_assoc] at h'
  obtain ⟨h1, h2⟩ := List.append_inj h' rfl
  have h3 := enc16_inj he he' h1
  obtain ⟨h4, h5⟩ := List.append_inj h2 h3
  obtain ⟨h6, h7⟩ := List.append_inj h5 rfl
  exact ⟨h4, (List.append_inj h7 (enc16_inj hp hp' h6)).1⟩

theorem readBlob_quiet {c : Cfg} {i : Nat} {b pub priv : Bytes} {s : S} (hq : Quiet c.chip s)
    (hb : s.nv i = some b) (hl : Layout b (c.chip.encPub pub) priv)
    (he : (c.chip.encPub pub).length ≤ c.pubCap) (hc : c.pubCap < 65536)
    (hp : priv.length ≤ c.privCap) (hc' : c.privCap < 65536)
    (hd : ∀ g, c.chip.decPub (c.chip.encPub pub ++ g) = some pub) :
    ∃ s', readBlob c i [] s = .ok (pub, priv) s' ∧ s'.nv = s.nv ∧ s'.pcr = s.pcr ∧ s.k ≤ s'.k := by
  obtain ⟨r, rfl⟩ := hl
  generalize hx : c.chip.encPub pub = e at *
  have hbl : (enc16 e.length ++ e ++ enc16 priv.length ++ priv ++ r).length =
      2 + e.length + 2 + priv.length + r.length := by simp; omega
  unfold readBlob
  rw [if_neg (by simp), bind_eq, nvRead_quiet hq hb (by omega)]
  have e1 : List.take 2 (List.drop 0 (enc16 e.length ++ e ++ enc16 priv.length ++ priv ++ r)) =
      enc16 e.length := by simp [enc16]
  simp only [Nat.lt_irrefl, if_false, e1]
  rw [num16_enc16 (by omega), bind_eq, nvRead_quiet (b := enc16 e.length ++ e ++ enc16 priv.length ++ priv ++ r) (hq.step (by simp)) (by exact hb) (by omega)]
  have e2 : List.take e.length (List.drop 2 (enc16 e.length ++ e ++ enc16 priv.length ++ priv ++ r)) =
      e := by simp [enc16]
  rw [if_neg (by omega)]
  simp only [e2]
  rw [bind_eq, call_quiet (hq.step (by simp; omega))]
  simp only [hd]
  rw [bind_eq, nvRead_quiet (b := enc16 e.length ++ e ++ enc16 priv.length ++ priv ++ r) (hq.step (by simp; omega)) (by exact hb) (by omega)]
  have e3 : List.take 2 (List.drop (2 + e.length)
      (enc16 e.length ++ e ++ enc16 priv.length ++ priv ++ r)) = enc16 priv.length := by
    have : enc16 e.length ++ e ++ enc16 priv.length ++ priv ++ r =
      (enc16 e.length ++ e) ++ (enc16 priv.length ++ (priv ++ r)) := by simp
    rw [this, List.drop_left' (by simp), List.take_left' (by simp)]
  simp only [Nat.lt_irrefl, if_false, e3]
  rw [num16_enc16 (by omega), bind_eq, nvRead_quiet (b := enc16 e.length ++ e ++ enc16 priv.length ++ priv ++ r) (hq.step (by simp; omega)) (by exact hb) (by omega)]
  have e4 : List.take priv.length (List.drop (2 + e.length + 2)
      (enc16 e.length ++ e ++ enc16 priv.length ++ priv ++ r)) = priv := by
    have : enc16 e.length ++ e ++ enc16 priv.length ++ priv ++ r =
      (enc16 e.length ++ e ++ enc16 priv.length) ++ (priv ++ r) := by simp
    rw [this, List.drop_left' (by simp; omega), List.take_left' rfl]
  rw [if_neg (by omega)]
  simp only [e4]
  exact ⟨_, rfl, rfl, rfl, by simp; omega⟩

/-- **The sizes in the index are trusted**: if the first is larger than the array for the public
area, bytes are written beyond its end. -/
theorem readBlob_overflow {c : Cfg} {i : Nat} {b : Bytes} {s : S} (hq : Quiet c.chip s)
    (hb : s.nv i = some b) (h2 : 2 ≤ b.length) (hl : 2 + num16 (b.take 2) ≤ b.length)
    (hc : c.pubCap < num16 (b.take 2)) : ∃ s', readBlob c i [] s = .bad .pubBuf s' := by
  unfold readBlob
  rw [if_neg (by simp), bind_eq, nvRead_quiet hq hb (by omega)]
  simp only [Nat.lt_irrefl, if_false, List.drop_zero]
  rw [bind_eq, nvRead_quiet (b := b) (hq.step (by simp)) (by exact hb) (by omega), if_pos hc]
  exact ⟨_, rfl⟩


/-! ## Sealing -/

/-- The object that sealing makes. -/
def sealedObj (h : Chip) (k : PubKey) (secret auth : Bytes) : Obj :=
  ⟨secret, h.policyAuth k [], !auth.isEmpty, auth⟩

theorem sealedObj_opens (h : Chip) (k : PubKey) (secret auth : Bytes) :
    Opens h k auth (sealedObj h k secret auth) := by
  by_cases ha : auth = []
  · exact .inl ⟨ha, rfl⟩
  · refine .inr ⟨ha, ?_, rfl⟩
    simp [sealedObj, List.isEmpty_iff, ha]

theorem sealBlob_ok {c : Cfg} {hint : Bytes} {psz : Nat} {secret auth : Bytes} {r : Bytes × Bytes}
    {s s' : S} (h : sealBlob c hint psz secret auth s = .ok r s') :
    secret.length ≤ c.maxSeal ∧ psz ≠ 0 ∧ ∃ k n, HintKey c hint k ∧
      r = c.chip.wrap n (sealedObj c.chip k secret auth) ∧ s'.nv = s.nv ∧ s'.pcr = s.pcr := by
  unfold sealBlob at h
  split at h
  · cases h
  rename_i hz
  simp only [bind_ok, cleanup_ok] at h
  obtain ⟨k, s1, ⟨s2, h2, rfl⟩, s3, ⟨_, s4, h4, _, s5, h5, d, s6, h6, h7⟩, rfl⟩ := h
  obtain ⟨hk, h2⟩ := loadPubkey_ok h2
  simp only [loadPublic, call_ok] at h2
  obtain ⟨_, h2⟩ := h2; cases h2
  simp only [startSession, call_ok] at h4
  obtain ⟨_, h4⟩ := h4; cases h4
  simp only [plain_ok] at h5
  obtain ⟨_, rfl⟩ := h5
  simp only [call_ok] at h6
  obtain ⟨_, h6⟩ := h6; cases h6
  simp only [createSeal, call_ok] at h7
  obtain ⟨_, h7⟩ := h7; cases h7
  exact ⟨by omega, by omega, k, _, hk, rfl, by simp, by simp⟩

theorem sealBlob_quiet {c : Cfg} {hint : Bytes} {psz : Nat} {secret auth : Bytes} {k : PubKey}
    {s : S} (hq : Quiet c.chip s) (hz : psz ≠ 0) (hl : secret.length ≤ c.maxSeal)
    (hk : HintKey c hint k) :
    ∃ n s', sealBlob c hint psz secret auth s =
        .ok (c.chip.wrap n (sealedObj c.chip k secret auth)) s' ∧ s.k ≤ s'.k ∧ s'.nv = s.nv ∧
      s'.pcr = s.pcr := by
  unfold sealBlob
  rw [if_neg (by omega), loadPubkey_key hk, bind_eq, cleanup, loadPublic, call_quiet hq]
  dsimp only
  generalize hu : unloadKey c.chip _ = s1
  have hk1 : s.k + 1 ≤ s1.k := by
    rw [← hu]
    exact unloadKey_k c.chip ⟨s.k + 1, s.pcr, s.nv, s.session, some k, s.obj⟩
  have hn1 : s1.nv = s.nv := by rw [← hu]; simp
  have hp1 : s1.pcr = s.pcr := by rw [← hu]; simp
  unfold cleanup
  rw [bind_eq, startSession, call_quiet (hq.step (by omega))]
  dsimp only
  rw [bind_eq, plain, call_quiet (hq.step (by simp; omega))]
  dsimp only
  rw [bind_eq, call_quiet (hq.step (by simp; omega))]
  dsimp only
  rw [createSeal, call_quiet (hq.step (by simp; omega))]
  dsimp only
  refine ⟨_, _, rfl, ?_, by simp [hn1], by simp [hp1]⟩
  unfold unloadSession
  split <;> simp <;> omega

/-- After sealing, the index holds the object with the secret under the policy of the key. -/
theorem sealAuth_ok {c : Cfg} {hint : Bytes} {psz idx : Nat} {secret auth : Bytes} {s s' : S}
    {u : Unit} (h : sealAuth c hint psz idx secret auth s = .ok u s') :
    auth.length ≤ c.authCap ∧ secret.length ≤ c.maxSeal ∧ ∃ k n b, HintKey c hint k ∧
      (c.chip.encPub (c.chip.wrap n (sealedObj c.chip k secret auth)).1).length ≤ c.pubCap ∧
      s'.nv (c.nvBase + idx) = some b ∧
      Layout b (c.chip.encPub (c.chip.wrap n (sealedObj c.chip k secret auth)).1)
        (c.chip.wrap n (sealedObj c.chip k secret auth)).2 := by
  unfold sealAuth at h
  split at h
  · cases h
  rename_i ha
  simp only [bind_ok] at h
  obtain ⟨r, s1, h1, _, s2, h2, h3⟩ := h
  obtain ⟨hs, _, k, n, hk, rfl, _⟩ := sealBlob_ok h1
  obtain ⟨he, ⟨b, hb, hl⟩, _⟩ := storeBlob_ok h3
  exact ⟨by omega, hs, k, n, b, hk, he, hb, hl⟩

/-- The library restores what it made. -/
structure Faithful (c : Cfg) : Prop where
  unwrap : ∀ n o, c.chip.unwrap (c.chip.wrap n o).1 (c.chip.wrap n o).2 = some o
  dec : ∀ p g, c.chip.decPub (c.chip.encPub p ++ g) = some p
  priv : ∀ n o, o.secret.length ≤ c.maxSeal → o.auth.length ≤ c.authCap →
    (c.chip.wrap n o).2.length ≤ c.privCap
  pubCap : c.pubCap < 65536
  privCap : c.privCap < 65536

/-- **What was sealed is unsealed** in every state of the PCRs for which the policy is signed, also
one that did not exist when the secret was sealed. -/
theorem seal_unseal {c : Cfg} {hint mem : Bytes} {p : BitVec 16} {psz idx cap : Nat}
    {secret auth : Bytes} {s s1 t : S} {u : Unit} {k : PubKey} (hf : Faithful c)
    (h : sealAuth c hint psz idx secret auth s = .ok u s1)
    (ht : t.nv (c.nvBase + idx) = s1.nv (c.nvBase + idx)) (hq : Quiet c.chip t)
    (h4 : 4 ≤ p.toNat) (hl : p.toNat ≤ mem.length) (hk : HintKey c hint k)
    (hv : c.chip.verify k ((mem.drop 4).take (p.toNat - 4))
        (toSign c.chip (Covered (num32 mem) c.pcrCap) t.pcr) = true)
    (hc : secret.length ≤ cap) :
    ∃ t', unsealAuth c hint mem p idx auth cap t = .ok secret t' := by
  obtain ⟨ha, hs, k', n, b, hk', he, hb, hL⟩ := sealAuth_ok h
  cases hintKey_unique hk hk'
  obtain ⟨s2, h2, h3, h5, h6⟩ := readBlob_quiet hq (ht.trans hb) hL he hf.pubCap (hf.priv _ _ hs ha)
    hf.privCap (hf.dec _)
  unfold unsealAuth
  rw [bind_eq, h2]
  dsimp only
  exact unseal_complete (hq.step h6) h4 hl ha hk (by rw [h5]; exact hv) (hf.unwrap _ _)
    (sealedObj_opens _ _ _ _) hc

/-- Nothing else is unsealed, and only for a signed state. -/
theorem seal_unseal_only {c : Cfg} {hint mem : Bytes} {p : BitVec 16} {psz idx cap : Nat}
    {secret auth sec hint' auth' : Bytes} {s s1 t t' : S} {u : Unit} (hf : Faithful c)
    (h : sealAuth c hint psz idx secret auth s = .ok u s1)
    (ht : t.nv (c.nvBase + idx) = s1.nv (c.nvBase + idx)) (hm : mem.length < 65536)
    (hu : unsealAuth c hint' mem p idx auth' cap t = .ok sec t') :
    sec = secret ∧ sec.length ≤ cap ∧ ∃ k', HintKey c hint' k' ∧
      c.chip.verify k' ((mem.drop 4).take (p.toNat - 4))
        (toSign c.chip (Covered (num32 mem) c.pcrCap) t.pcr) = true ∧
      ((auth' = [] ∧ ∃ k, HintKey c hint k ∧ c.chip.policyAuth k [] = c.chip.policyAuth k' []) ∨
       (auth' ≠ [] ∧ auth' = auth)) := by
  obtain ⟨ha, hs, k, n, b, hk, he, hb, hL⟩ := sealAuth_ok h
  unfold unsealAuth at hu
  simp only [bind_ok] at hu
  obtain ⟨r, t1, h1, h2⟩ := hu
  obtain ⟨b', e', hb', hL', hel, hpl, _, _, hd, _, hp⟩ := readBlob_ok h1
  rw [ht, hb] at hb'
  cases hb'
  have hpc := hf.pubCap
  have hvc := hf.privCap
  have hw := hf.priv n (sealedObj c.chip k secret auth) hs ha
  obtain ⟨rfl, h3⟩ := layout_unique hL hL' (by omega) hel (by omega) hpl
  rw [hf.dec] at hd
  have h5 := Option.some.inj hd
  obtain ⟨_, _, k', o, hk', hv, ho, hop, rfl, hlen⟩ := unseal_sound hm h2
  rw [← h3, ← h5, hf.unwrap] at ho
  cases ho
  refine ⟨rfl, hlen, k', hk', by rw [← hp]; exact hv, ?_⟩
  rcases hop with ⟨h6, h7⟩ | ⟨h6, h7, h8⟩
  · exact .inl ⟨h6, k, hk, h7⟩
  · exact .inr ⟨h6, h8.symm⟩

/-! ## Frame -/

theorem Pres.call {α : Type} {P : S → Prop} {c : Chip} {f : T α}
    (hk : ∀ s, P s → P { s with k := s.k + 1 }) (hf : Pres P f) : Pres P (Tpm.call c f) := by
  intro s hs
  unfold Tpm.call
  split
  · exact hf _ (hk _ hs)
  · exact hk _ hs

/-- Non-volatile memory and PCRs are as before, and calls are only counted upwards. -/
def Frame (a : S) (s : S) : Prop := s.nv = a.nv ∧ s.pcr = a.pcr ∧ a.k ≤ s.k

theorem frame_call {α : Type} {a : S} {c : Chip} {f : T α} (hf : Pres (Frame a) f) :
    Pres (Frame a) (Tpm.call c f) :=
  Pres.call (fun s h => ⟨h.1, h.2.1, by have := h.2.2; simp only; omega⟩) hf

theorem loadPubkey_pres {P : S → Prop} {c : Cfg} {hint : Bytes}
    (h : ∀ k, Pres P (loadPublic c.chip k)) : Pres P (loadPubkey c hint) := by
  unfold loadPubkey
  repeat' split
  all_goals first | exact h _ | exact Pres.fail _ | exact Pres.ub _

theorem frame_loadPubkey {a : S} {c : Cfg} {hint : Bytes} : Pres (Frame a) (loadPubkey c hint) :=
  loadPubkey_pres fun _ => frame_call fun _ h => h

theorem frame_unloadKey {a s : S} {c : Chip} (h : Frame a s) : Frame a (unloadKey c s) :=
  ⟨by simp [h.1], by simp [h.2.1], Nat.le_trans h.2.2 (unloadKey_k c s)⟩

theorem frame_unloadObj {a s : S} {c : Chip} (h : Frame a s) : Frame a (unloadObj c s) := by
  refine ⟨by simp [h.1], by simp [h.2.1], Nat.le_trans h.2.2 ?_⟩
  unfold unloadObj; split <;> simp

theorem frame_unloadSession {a s : S} {c : Chip} (h : Frame a s) : Frame a (unloadSession c s) := by
  refine ⟨by simp [h.1], by simp [h.2.1], Nat.le_trans h.2.2 ?_⟩
  unfold unloadSession; split <;> simp

theorem frame_nvRead {a : S} {c : Chip} {i off n cap : Nat} {e : Bad} :
    Pres (Frame a) (nvRead c i off n cap e) := by
  unfold nvRead
  refine frame_call fun s h => ?_
  repeat' split
  all_goals exact h

theorem frame_readBlob {a : S} {c : Cfg} {i : Nat} {auth : Bytes} :
    Pres (Frame a) (readBlob c i auth) := by
  unfold readBlob
  split
  · exact Pres.ub _
  · refine frame_nvRead.bind fun _ => frame_nvRead.bind fun _ => Pres.bind ?_ fun _ =>
      frame_nvRead.bind fun _ => frame_nvRead.bind fun _ => Pres.pure _
    refine frame_call fun s h => ?_
    split <;> exact h

theorem frame_unsealBlob {a : S} {c : Cfg} {hint mem : Bytes} {p : BitVec 16}
    {pub priv auth : Bytes} {cap : Nat} :
    Pres (Frame a) (unsealBlob c hint mem p pub priv auth cap) := by
  unfold unsealBlob
  split
  · exact Pres.fail _
  split
  · exact Pres.ub _
  refine Pres.cleanup ?_ fun s h => frame_unloadSession (frame_unloadObj h)
  refine Pres.bind (frame_call fun s h => h) fun _ => ?_
  refine Pres.bind (frame_call fun s h => h) fun _ => ?_
  refine Pres.bind (frame_call fun s h => by split <;> exact h) fun _ => ?_
  refine Pres.bind (frame_call fun s h => by split <;> exact h) fun _ => ?_
  refine Pres.bind (frame_call fun s h => h) fun _ => ?_
  refine Pres.bind ?_ fun _ => ?_
  · unfold authorize
    refine Pres.cleanup ?_ fun s h => frame_unloadKey h
    refine Pres.bind frame_loadPubkey fun _ => ?_
    refine Pres.bind (frame_call fun s h => by split <;> exact h) fun _ => ?_
    exact frame_call fun s h => by repeat' split
                                   all_goals exact h
  · unfold unsealLoaded
    refine Pres.bind (frame_call fun s h => by split <;> exact h) fun _ => ?_
    refine Pres.bind ?_ fun _ => ?_
    · unfold setAuth
      split
      · exact Pres.ignore (frame_call fun s h => h)
      · split
        · exact Pres.ub _
        · exact Pres.pure _
    refine Pres.bind (frame_call fun s h => by repeat' split
                                               all_goals exact h) fun _ => ?_
    unfold copyOut
    split
    · exact Pres.ub _
    · exact Pres.pure _

/-- Unsealing changes neither PCRs nor non-volatile memory. -/
theorem unseal_frame {c : Cfg} {hint mem : Bytes} {p : BitVec 16} {idx : Nat} {auth : Bytes}
    {cap : Nat} (s : S) : Frame s (unsealAuth c hint mem p idx auth cap s).st :=
  (frame_readBlob.bind fun _ => frame_unsealBlob) s ⟨rfl, rfl, Nat.le_refl _⟩


/-! ## Release of handles -/

/-- No key and no object is loaded, no session is open. -/
def Clean (s : S) : Prop := s.session = none ∧ s.key = none ∧ s.obj = none

theorem unloadKey_none {c : Chip} (h : ∀ j, c.unloadFails j = false) (s : S) :
    (unloadKey c s).key = none := by
  unfold unloadKey
  simp only [h, Bool.false_eq_true, or_false]
  split
  · assumption
  · rfl

theorem unloadObj_none {c : Chip} (h : ∀ j, c.unloadFails j = false) (s : S) :
    (unloadObj c s).obj = none := by
  unfold unloadObj
  simp only [h, Bool.false_eq_true, or_false]
  split
  · assumption
  · rfl

theorem unloadSession_none {c : Chip} (h : ∀ j, c.unloadFails j = false) (s : S) :
    (unloadSession c s).session = none := by
  unfold unloadSession
  simp only [h, Bool.false_eq_true, or_false]
  split
  · assumption
  · rfl

/-- The function returned. -/
def R.returns {α : Type} : R α → Bool
  | .bad _ _ => false
  | _ => true

theorem nokey_call {α : Type} {c : Chip} {f : T α} (hf : Pres (fun s => s.key = none) f) :
    Pres (fun s => s.key = none) (Tpm.call c f) := Pres.call (fun _ h => h) hf

theorem noobj_call {α : Type} {c : Chip} {f : T α} (hf : Pres (fun s => s.obj = none) f) :
    Pres (fun s => s.obj = none) (Tpm.call c f) := Pres.call (fun _ h => h) hf

/-- If a function returns, its cleaning up has been done. -/
theorem cleanup_st {α : Type} {m : T α} {f : S → S} {s : S} (h : (cleanup m f s).returns = true) :
    (cleanup m f s).st = f (m s).st := by
  unfold cleanup at h ⊢
  cases hm : m s <;> simp_all [R.returns, R.st]

theorem cleanup_returns {α : Type} {m : T α} {f : S → S} {s : S}
    (h : (cleanup m f s).returns = true) : (m s).returns = true := by
  unfold cleanup at h
  cases hm : m s <;> simp_all [R.returns]

/-- `P` holds whenever the function returns. -/
def PresR {α : Type} (P : S → Prop) (m : T α) : Prop := ∀ s, P s → (m s).returns = true → P (m s).st

theorem PresR.bind {α β : Type} {P : S → Prop} {m : T α} {f : α → T β} (h : PresR P m)
    (hf : ∀ a, PresR P (f a)) : PresR P (m >>= f) := by
  intro s hs hr
  have h1 := h s hs
  rw [bind_eq] at hr ⊢
  cases hm : m s with
  | ok a s1 => rw [hm] at h1 hr; exact hf a s1 (h1 rfl) hr
  | err rc s1 => rw [hm] at h1; exact h1 rfl
  | bad b s1 => rw [hm] at hr; cases hr

theorem Pres.toR {α : Type} {P : S → Prop} {m : T α} (h : Pres P m) : PresR P m :=
  fun s hs _ => h s hs

theorem unsealBlob_clean {c : Cfg} {hint mem : Bytes} {p : BitVec 16} {pub priv auth : Bytes}
    {cap : Nat} (hu : ∀ j, c.chip.unloadFails j = false) :
    PresR Clean (unsealBlob c hint mem p pub priv auth cap) := by
  unfold unsealBlob
  split
  · exact (Pres.fail _).toR
  split
  · exact (Pres.ub _).toR
  intro s hs hr
  rw [cleanup_st hr]
  have hk : PresR (fun s => s.key = none) (do
        startSession c.chip
        plain c.chip
        policyPCR c.chip (pcrSel (num32 mem) c.pcrCap)
        let d ← getPolicyDigest c.chip
        let pd ← policyRefMake c.chip d []
        authorize c hint ((mem.drop 4).take (p - 4).toNat) d pd
        unsealLoaded c pub priv auth cap) := by
    refine PresR.bind (Pres.toR (nokey_call ?_)) fun _ => ?_
    · exact fun s h => h
    refine PresR.bind (Pres.toR (nokey_call ?_)) fun _ => ?_
    · exact fun s h => h
    refine PresR.bind (Pres.toR (nokey_call ?_)) fun _ => ?_
    · exact fun s h => by dsimp only; split <;> exact h
    refine PresR.bind (Pres.toR (nokey_call ?_)) fun _ => ?_
    · exact fun s h => by dsimp only; split <;> exact h
    refine PresR.bind (Pres.toR (nokey_call ?_)) fun _ => ?_
    · exact fun s h => h
    refine PresR.bind ?_ fun _ => Pres.toR ?_
    · intro s _ hr
      unfold authorize at hr ⊢
      rw [cleanup_st hr]
      exact unloadKey_none hu _
    · unfold unsealLoaded
      refine Pres.bind (nokey_call fun s h => by split <;> exact h) fun _ => ?_
      refine Pres.bind ?_ fun _ => ?_
      · unfold setAuth
        split
        · exact Pres.ignore (nokey_call fun s h => h)
        · split
          · exact Pres.ub _
          · exact Pres.pure _
      refine Pres.bind (nokey_call fun s h => by repeat' split
                                                 all_goals exact h) fun _ => ?_
      unfold copyOut
      split
      · exact Pres.ub _
      · exact Pres.pure _
  refine ⟨unloadSession_none hu _, ?_, ?_⟩
  · rw [unloadSession_key, unloadObj_key]
    exact hk s hs.2.1 (cleanup_returns hr)
  · rw [unloadSession_obj]
    exact unloadObj_none hu _

/-- **Everything that unsealing loaded is unloaded**, whether it succeeds or fails. -/
theorem unseal_clean {c : Cfg} {hint mem : Bytes} {p : BitVec 16} {idx : Nat} {auth : Bytes}
    {cap : Nat} {s : S} (hu : ∀ j, c.chip.unloadFails j = false) (hs : Clean s)
    (hr : (unsealAuth c hint mem p idx auth cap s).returns = true) :
    Clean (unsealAuth c hint mem p idx auth cap s).st := by
  refine PresR.bind (P := Clean) (Pres.toR ?_) (fun _ => unsealBlob_clean hu) s hs hr
  have hr : ∀ i off n cap e, Pres Clean (nvRead c.chip i off n cap e) := by
    intro i off n cap e
    unfold nvRead
    refine Pres.call (fun _ h => h) fun s h => ?_
    repeat' split
    all_goals exact h
  unfold readBlob
  split
  · exact Pres.ub _
  · refine (hr _ _ _ _ _).bind fun _ => (hr _ _ _ _ _).bind fun _ => Pres.bind ?_ fun _ =>
      (hr _ _ _ _ _).bind fun _ => (hr _ _ _ _ _).bind fun _ => Pres.pure _
    refine Pres.call (fun _ h => h) fun s h => ?_
    split <;> exact h

/-- The same for sealing. -/
theorem seal_clean {c : Cfg} {hint : Bytes} {psz : Nat} {secret auth : Bytes} {s : S}
    (hu : ∀ j, c.chip.unloadFails j = false) (hs : Clean s)
    (hr : (sealBlob c hint psz secret auth s).returns = true) :
    Clean (sealBlob c hint psz secret auth s).st := by
  unfold sealBlob at hr ⊢
  split at hr
  · rename_i h; rw [if_pos h]; exact hs
  rename_i h
  rw [if_neg h]
  refine PresR.bind (P := Clean) ?_ (fun _ => ?_) s hs hr
  · intro s hs hr
    rw [cleanup_st hr]
    refine ⟨?_, unloadKey_none hu _, ?_⟩
    · rw [unloadKey_session]
      exact loadPubkey_pres (P := fun s => s.session = none)
        (fun _ => Pres.call (fun _ h => h) fun _ h => h) s hs.1
    · rw [unloadKey_obj]
      exact loadPubkey_pres (P := fun s => s.obj = none)
        (fun _ => Pres.call (fun _ h => h) fun _ h => h) s hs.2.2
  · intro s hs hr
    rw [cleanup_st hr]
    refine ⟨unloadSession_none hu _, ?_, ?_⟩
    · rw [unloadSession_key]
      refine (?_ : Pres (fun s => s.key = none) _) s hs.2.1
      refine Pres.bind (nokey_call ?_) fun _ => Pres.bind (nokey_call ?_) fun _ =>
        Pres.bind (nokey_call ?_) fun _ => nokey_call ?_
      all_goals exact fun _ h => h
    · rw [unloadSession_obj]
      refine (?_ : Pres (fun s => s.obj = none) _) s hs.2.2
      refine Pres.bind (noobj_call ?_) fun _ => Pres.bind (noobj_call ?_) fun _ =>
        Pres.bind (noobj_call ?_) fun _ => noobj_call ?_
      all_goals exact fun _ h => h

/-! ## Unlocking -/

theorem delete_quiet {c : Cfg} {i : Nat} {s : S} (hq : Quiet c.chip s) :
    ∃ s', ignore (deleteBlob c i) s = .ok () s' ∧ s'.nv i = none ∧ s.k ≤ s'.k ∧ s'.pcr = s.pcr := by
  unfold ignore deleteBlob
  rw [bind_eq, nvOpen, call_quiet hq]
  cases hb : s.nv i with
  | none => simp only [hb]; exact ⟨_, rfl, hb, by simp, rfl⟩
  | some b =>
    simp only [hb]
    rw [nvDelete, call_quiet (hq.step (by simp))]
    simp only [hb]
    exact ⟨_, rfl, by simp, by simp; omega, rfl⟩

theorem nvWrite_quiet {c : Chip} {i off : Nat} {d b : Bytes} {s : S} (hq : Quiet c s)
    (hb : s.nv i = some b) (hl : off + d.length ≤ b.length) :
    ∃ s', nvWrite c i off d s = .ok () s' ∧ s'.nv i = some (splice b off d) ∧ s.k ≤ s'.k ∧
      (splice b off d).length = b.length := by
  rw [nvWrite, call_quiet hq]
  simp only [hb, if_pos hl]
  refine ⟨_, rfl, by simp, by simp, ?_⟩
  simp [splice]
  omega

theorem storeBlob_quiet {c : Cfg} {i : Nat} {pub priv : Bytes} {s : S} (hq : Quiet c.chip s)
    (hn : s.nv i = none) (he : (c.chip.encPub pub).length ≤ c.pubCap) :
    ∃ s', storeBlob c i pub priv [] s = .ok () s' := by
  unfold storeBlob
  rw [if_neg (by simp), bind_eq, call_quiet hq]
  simp only [if_pos he]
  generalize c.chip.encPub pub = e at *
  rw [bind_eq, nvCreate, call_quiet (hq.step (by simp))]
  simp only [hn]
  obtain ⟨s1, h1, n1, k1, l1⟩ := nvWrite_quiet (c := c.chip) (i := i) (off := 0)
    (d := enc16 e.length) (b := List.replicate (2 + e.length + 2 + priv.length) 0xFF#8)
    (s := setNv ⟨s.k + 1 + 1, s.pcr, s.nv, s.session, s.key, s.obj⟩ i
      (some (List.replicate (2 + e.length + 2 + priv.length) 0xFF#8))) (hq.step (by simp; omega))
    (by simp) (by simp; omega)
  simp only [setNv_k] at k1
  rw [bind_eq, h1]
  dsimp only
  simp only [List.length_replicate] at l1
  obtain ⟨s2, h2, n2, k2, l2⟩ := nvWrite_quiet (c := c.chip) (i := i) (off := 2)
    (d := e) (hq.step (s' := s1) (by omega)) n1 (by rw [l1]; omega)
  rw [bind_eq, h2]
  dsimp only
  obtain ⟨s3, h3, n3, k3, l3⟩ := nvWrite_quiet (c := c.chip) (i := i) (off := 2 + e.length)
    (d := enc16 priv.length) (hq.step (s' := s2) (by omega)) n2 (by rw [l2, l1]; simp)
  rw [bind_eq, h3]
  dsimp only
  obtain ⟨s4, h4, n4, k4, l4⟩ := nvWrite_quiet (c := c.chip) (i := i) (off := 2 + e.length + 2)
    (d := priv) (hq.step (s' := s3) (by omega)) n3 (by rw [l3, l2, l1]; omega)
  exact ⟨s4, h4⟩

theorem bind_st {α β : Type} (m : T α) (f : α → T β) {s s1 : S} {a : α} (h : m s = .ok a s1) :
    ((m >>= f) s).st = (f a s1).st := by
  rw [bind_eq, h]

/-- **Every failure to unseal replaces the sealed secret** by a new one, whatever the index contained:
the old secret is lost. (The chip does not fail; the secret could not be unsealed, for instance since
the policy of the image is not signed for the current state.) -/
theorem unlock_replaces {c : Cfg} {hint mem : Bytes} {p : BitVec 16} {auth : Bytes} {s s1 : S}
    {k : PubKey} {rc : Int} (hq : Quiet c.chip s) (ha : auth.length ≤ c.authCap) (hp : p ≠ 0)
    (hk : HintKey c hint k) (hr : ∀ n, (c.chip.random n 32).length ≤ c.maxSeal)
    (he : ∀ n o, (c.chip.encPub (c.chip.wrap n o).1).length ≤ c.pubCap)
    (hu : unsealAuth c hint mem p 0 auth c.maxSeal s = .err rc s1) :
    ∃ m n b, (unlockDisk c hint mem p auth s).st.nv c.nvBase = some b ∧
      Layout b (c.chip.encPub (c.chip.wrap n (sealedObj c.chip k (c.chip.random m 32) auth)).1)
        (c.chip.wrap n (sealedObj c.chip k (c.chip.random m 32) auth)).2 := by
  have hf := unseal_frame (c := c) (hint := hint) (mem := mem) (p := p) (idx := 0) (auth := auth)
    (cap := c.maxSeal) s
  rw [hu] at hf
  have hk1 : s.k ≤ s1.k := hf.2.2
  unfold unlockDisk
  rw [hu]
  dsimp only
  unfold newSecret
  have hz : p.toNat ≠ 0 := by
    intro h
    exact hp (BitVec.eq_of_toNat_eq (by simpa using h))
  have h1 : getRandom c.chip 32 s1 = .ok (c.chip.random (s1.k + 1) 32)
      { s1 with k := s1.k + 1 } := by
    rw [getRandom, call_quiet (hq.step (by omega))]
  rw [bind_st _ _ h1]
  obtain ⟨n, s2, h2, k2, _, _⟩ := sealBlob_quiet (c := c) (hint := hint) (psz := p.toNat)
    (secret := c.chip.random (s1.k + 1) 32) (auth := auth) (s := { s1 with k := s1.k + 1 })
    (hq.step (by simp; omega)) hz (hr _) hk
  simp only at k2
  obtain ⟨s3, h3, n3, k3, _⟩ := delete_quiet (c := c) (i := c.nvBase + 0) (s := s2)
    (hq.step (by omega))
  obtain ⟨s4, h4⟩ := storeBlob_quiet (c := c) (i := c.nvBase + 0)
    (pub := (c.chip.wrap n (sealedObj c.chip k (c.chip.random (s1.k + 1) 32) auth)).1)
    (priv := (c.chip.wrap n (sealedObj c.chip k (c.chip.random (s1.k + 1) 32) auth)).2) (s := s3)
    (hq.step (by omega)) n3 (he _ _)
  have h5 : sealAuth c hint p.toNat 0 (c.chip.random (s1.k + 1) 32) auth
      { s1 with k := s1.k + 1 } = .ok () s4 := by
    unfold sealAuth
    rw [if_neg (by omega), bind_eq, h2]
    dsimp only
    rw [bind_eq, h3]
    exact h4
  rw [bind_st _ _ h5]
  obtain ⟨_, ⟨b, hb, hL⟩, _⟩ := storeBlob_ok h4
  refine ⟨s1.k + 1, n, b, ?_, hL⟩
  have hg := unseal_frame (c := c) (hint := hint) (mem := mem) (p := p) (idx := 0) (auth := auth)
    (cap := c.maxSeal) s4
  rw [bind_eq]
  cases hx : unsealAuth c hint mem p 0 auth c.maxSeal s4 with
  | ok chk s5 =>
    rw [hx] at hg
    dsimp only
    split <;> exact (congrFun hg.1 _).trans hb
  | err rc s5 => rw [hx] at hg; exact (congrFun hg.1 _).trans hb
  | bad e s5 => rw [hx] at hg; exact (congrFun hg.1 _).trans hb

/-- A signature that does not verify for the current state is refused. -/
theorem unseal_refused {c : Cfg} {hint mem : Bytes} {p : BitVec 16} {pub priv auth : Bytes}
    {cap : Nat} {s : S} {k : PubKey} (hq : Quiet c.chip s) (h4 : 4 ≤ p.toNat)
    (hl : p.toNat ≤ mem.length) (hk : HintKey c hint k)
    (hv : c.chip.verify k ((mem.drop 4).take (p.toNat - 4))
        (toSign c.chip (Covered (num32 mem) c.pcrCap) s.pcr) = false) :
    ∃ s', unsealBlob c hint mem p pub priv auth cap s = .err rcSignature s' := by
  have hz : p ≠ 0 := by intro h; rw [h] at h4; simp at h4
  unfold unsealBlob
  rw [if_neg hz, sigSz_eq h4, if_neg (by omega)]
  simp only [pcrSel_eq]
  generalize hsel : Covered (num32 mem) c.pcrCap = sel at hv
  generalize hsig : List.take (p.toNat - 4) (List.drop 4 mem) = sig at hv
  unfold toSign at hv
  unfold cleanup
  rw [bind_eq, startSession, call_quiet hq]
  dsimp only
  rw [bind_eq, plain, call_quiet (hq.step (by simp))]
  dsimp only
  rw [bind_eq, policyPCR, call_quiet (hq.step (by simp; omega))]
  dsimp only
  rw [bind_eq, getPolicyDigest, call_quiet (hq.step (by simp; omega))]
  dsimp only
  rw [bind_eq, policyRefMake, call_quiet (hq.step (by simp; omega))]
  dsimp only
  rw [bind_eq, authorize, cleanup, loadPubkey_key hk, bind_eq, loadPublic,
    call_quiet (hq.step (by simp; omega))]
  dsimp only
  rw [bind_eq, verifyTicket, call_quiet (hq.step (by simp; omega))]
  simp only [hv, Bool.false_eq_true, if_false]
  exact ⟨_, rfl⟩

/-- What unlocking gives back is a secret unsealed for a signed state: the sealed one, or a new one
that was sealed before. -/
theorem unlock_sound {c : Cfg} {hint mem : Bytes} {p : BitVec 16} {auth sec : Bytes} {s s' : S}
    (h : unlockDisk c hint mem p auth s = .ok sec s') :
    unsealAuth c hint mem p 0 auth c.maxSeal s = .ok sec s' ∨
    ∃ t, unsealAuth c hint mem p 0 auth c.maxSeal t = .ok sec s' := by
  unfold unlockDisk at h
  cases hu : unsealAuth c hint mem p 0 auth c.maxSeal s with
  | ok a s1 => rw [hu] at h; exact .inl h
  | bad b s1 => rw [hu] at h; cases h
  | err rc s1 =>
    rw [hu] at h
    dsimp only at h
    unfold newSecret at h
    simp only [bind_ok] at h
    obtain ⟨x, s2, _, _, s3, _, chk, s4, h4, h5⟩ := h
    split at h5
    · rename_i he
      cases h5
      exact .inr ⟨s3, he ▸ h4⟩
    · cases h5

/-- The secret stays in memory after unlocking, except for its first four bytes. -/
theorem wiped_keeps (arr : Bytes) : (wiped arr).drop 4 = arr.drop 4 := by
  unfold wiped
  by_cases h : 4 ≤ arr.length
  · rw [Nat.min_eq_left h, List.drop_left' (by simp)]
  · rw [List.drop_eq_nil_of_le (as := arr) (by omega), List.append_nil]
    exact List.drop_eq_nil_of_le (by simp; omega)

example : wiped [1, 2, 3, 4, 5, 6] = [0, 0, 0, 0, 5, 6] := by decide

/-! ## Policies -/

theorem zeroDigest_false (d : Bytes) : isZeroDigest d = false ↔ ∃ b ∈ d, b ≠ 0 := by
  induction d with
  | nil => simp [isZeroDigest]
  | cons b r ih =>
    unfold isZeroDigest
    by_cases hb : b = 0 <;> simp_all

theorem pcrActiveLoop_spec (c : Cfg) (n i : Nat) (rc : Int) (m : Nat) (s : S) :
    (∀ j, (pcrActiveLoop c n i rc m s).2.1.testBit j = true ↔ m.testBit j = true ∨
      (i ≤ j ∧ j < i + n ∧ c.chip.fault (s.k + (j - i)) = 0 ∧ ∃ b ∈ s.pcr j, b ≠ 0)) ∧
    (pcrActiveLoop c n i rc m s).1 = if n = 0 then rc else c.chip.fault (s.k + (n - 1)) := by
  induction n generalizing i rc m s with
  | zero =>
    refine ⟨fun j => ?_, rfl⟩
    simp only [pcrActiveLoop]
    constructor
    · exact .inl
    · rintro (h | ⟨h1, h2, _⟩)
      · exact h
      · omega
  | succ n ih =>
    unfold pcrActiveLoop readPCR call
    by_cases hf : c.chip.fault s.k = 0
    · simp only [hf, if_true]
      obtain ⟨h1, h2⟩ := ih (i + 1) 0 (if isZeroDigest (s.pcr i) = true then m else m ||| 1 <<< i)
        { s with k := s.k + 1 }
      refine ⟨fun j => ?_, ?_⟩
      · rw [h1]
        have hm : (if isZeroDigest (s.pcr i) = true then m else m ||| 1 <<< i).testBit j = true ↔
            m.testBit j = true ∨ (j = i ∧ ∃ b ∈ s.pcr i, b ≠ 0) := by
          rw [← zeroDigest_false]
          cases isZeroDigest (s.pcr i) with
          | true => simp
          | false =>
            simp only [Bool.false_eq_true, if_false, Nat.testBit_or, Nat.one_shiftLeft,
              Nat.testBit_two_pow, Bool.or_eq_true, decide_eq_true_eq, and_true, eq_comm (a := i)]
        rw [hm]
        by_cases hj : j = i
        · subst hj
          simp [hf]
          intro h; omega
        · have e : i ≤ j ↔ i + 1 ≤ j := by omega
          have e2 : j < i + (n + 1) ↔ j < i + 1 + n := by omega
          rw [e, e2]
          constructor
          · rintro ((h | h) | ⟨h3, h4, h5, h6⟩)
            · exact .inl h
            · exact absurd h.1 hj
            · refine .inr ⟨h3, h4, ?_, h6⟩
              rwa [show s.k + (j - i) = s.k + 1 + (j - (i + 1)) by omega]
          · rintro (h | ⟨h3, h4, h5, h6⟩)
            · exact .inl (.inl h)
            · refine .inr ⟨h3, h4, ?_, h6⟩
              rwa [show s.k + 1 + (j - (i + 1)) = s.k + (j - i) by omega]
      · rw [h2]
        cases n with
        | zero => simp [hf]
        | succ n => simp only [Nat.add_eq_zero_iff]; simp; congr 1; omega
    · simp only [if_neg hf]
      obtain ⟨h1, h2⟩ := ih (i + 1) (c.chip.fault s.k) m { s with k := s.k + 1 }
      refine ⟨fun j => ?_, ?_⟩
      · rw [h1]
        constructor
        · rintro (h | ⟨h3, h4, h5, h6⟩)
          · exact .inl h
          · refine .inr ⟨by omega, by omega, ?_, h6⟩
            rwa [show s.k + (j - i) = s.k + 1 + (j - (i + 1)) by omega]
        · rintro (h | ⟨h3, h4, h5, h6⟩)
          · exact .inl h
          · have hj : j ≠ i := by
              intro e
              subst e
              rw [Nat.sub_self] at h5
              exact hf h5
            refine .inr ⟨by omega, by omega, ?_, h6⟩
            rwa [show s.k + 1 + (j - (i + 1)) = s.k + (j - i) by omega]
      · rw [h2]
        cases n with
        | zero => simp
        | succ n => simp only [Nat.add_eq_zero_iff]; simp; congr 1; omega

/-- **The mask of active PCRs**: those up to the maximum (15 by default) that could be read and are
not zero. -/
theorem active_iff (c : Cfg) (pcrMax : Nat) (s : S) (j : Nat) :
    (getPcrActive c pcrMax s).2.1.testBit j = true ↔
      j ≤ (if pcrMax = 0 then 15 else pcrMax) ∧ c.chip.fault (s.k + j) = 0 ∧
        ∃ b ∈ s.pcr j, b ≠ 0 := by
  unfold getPcrActive
  generalize (if pcrMax = 0 then 15 else pcrMax) = m
  rw [(pcrActiveLoop_spec c (m + 1) 0 0 0 s).1 j]
  simp only [Nat.zero_testBit, Bool.false_eq_true, false_or, Nat.zero_le, true_and, Nat.zero_add,
    Nat.sub_zero]
  constructor
  · rintro ⟨h1, h2⟩; exact ⟨by omega, h2⟩
  · rintro ⟨h1, h2⟩; exact ⟨by omega, h2⟩

/-- The return value is that of the last read: failures of the others are not reported, the PCRs are
missing from the mask. -/
theorem active_rc (c : Cfg) (pcrMax : Nat) (s : S) :
    (getPcrActive c pcrMax s).1 = c.chip.fault (s.k + (if pcrMax = 0 then 15 else pcrMax)) := by
  unfold getPcrActive
  rw [(pcrActiveLoop_spec c _ 0 0 0 s).2]
  simp

/-- The policy built for signing: the mask, then the digest that unsealing will compute. -/
theorem build_ok {c : Cfg} {mask : Nat} {s s' : S} {pol : Bytes} (hm : mask < 2 ^ 32)
    (h : buildPolicy c mask [] s = .ok pol s') :
    num32 (pol.take 4) = mask ∧ (pol.take 4).length = 4 ∧
      pol.drop 4 = toSign c.chip (Covered mask c.pcrCap) s.pcr := by
  unfold buildPolicy at h
  simp only [bind_ok, call_ok, pure_ok, policyRefMake] at h
  obtain ⟨_, _, ⟨_, h1⟩, _, _, ⟨_, h2⟩, _, _, ⟨_, h3⟩, rfl, _⟩ := h
  cases h1; cases h2; cases h3
  refine ⟨?_, by simp [enc16], by simp [enc16, pcrSel_eq, toSign]⟩
  simp [num32, enc16, le32]
  omega

/-- **A policy built now and signed opens the secret while the covered PCRs keep their values.** -/
theorem build_unseal {c : Cfg} {hint pol sig pub priv auth : Bytes} {mask cap : Nat} {p : BitVec 16}
    {s s' t : S} {k : PubKey} {o : Obj} (hm : mask < 2 ^ 32)
    (h : buildPolicy c mask [] s = .ok pol s') (hk : HintKey c hint k)
    (hv : c.chip.verify k sig (pol.drop 4) = true) (hp : p.toNat = 4 + sig.length)
    (hq : Quiet c.chip t) (hpcr : ∀ i ∈ Covered mask c.pcrCap, t.pcr i = s.pcr i)
    (ha : auth.length ≤ c.authCap) (ho : c.chip.unwrap pub priv = some o)
    (hop : Opens c.chip k auth o) (hc : o.secret.length ≤ cap) :
    ∃ t', unsealBlob c hint (pol.take 4 ++ sig) p pub priv auth cap t = .ok o.secret t' := by
  obtain ⟨h1, h2, h3⟩ := build_ok hm h
  have hn : num32 (pol.take 4 ++ sig) = mask := by
    rw [← h1]
    generalize List.take 4 pol = q at h2
    match q, h2 with
    | [a, b, c, d], _ => simp [num32, le32]
  refine unseal_complete hq (by omega) (by simp [h2]; omega) ha hk ?_ ho hop hc
  rw [hn, hp, List.drop_left' h2, List.take_of_length_le (by omega)]
  rw [h3] at hv
  unfold toSign at hv ⊢
  rw [List.map_congr_left hpcr]
  exact hv

/-! ## RSA exponents -/

/-- Value of a string of bytes, most significant first. -/
def big : Bytes → Nat := List.foldl (fun n b => 256 * n + b.toNat) 0

/-- **The exponent of three bytes, followed by a zero, is given to the TPM with its bytes reversed**:
it is right only if the first and the last byte are the same (as for 65537). -/
theorem exponent_right (e0 e1 e2 : Byte) (rest : Bytes) :
    num32 (e0 :: e1 :: e2 :: 0 :: rest) = big [e0, e1, e2] ↔ e0 = e2 := by
  have h0 := e0.isLt
  have h2 := e2.isLt
  simp only [num32, le32, big, List.foldl, List.getD_cons_zero, List.getD_cons_succ]
  rw [← BitVec.toNat_inj]
  simp
  omega

/-- An exponent of one byte is given to the TPM together with three bytes behind it. -/
theorem exponent_short (e0 a b d : Byte) (rest : Bytes) :
    num32 (e0 :: a :: b :: d :: rest) = big [e0] ↔ a = 0 ∧ b = 0 ∧ d = 0 := by
  have h0 := e0.isLt
  simp only [num32, le32, big, List.foldl, List.getD_cons_zero, List.getD_cons_succ]
  rw [← BitVec.toNat_inj, ← BitVec.toNat_inj, ← BitVec.toNat_inj]
  simp
  omega

example : num32 [1, 0, 1, 0] = 65537 := by decide
example : num32 [0, 1, 3, 0] ≠ big [0, 1, 3] := by decide

/-! ## An example -/

namespace Demo

/-- A string whose end can be seen. -/
def pack (b : Bytes) : Bytes := match b with
  | [] => [0]
  | x :: r => 1 :: x :: pack r

/-- Inverse of `pack`: the string and what follows. -/
def unpack : Bytes → Option (Bytes × Bytes)
  | 0 :: g => some ([], g)
  | 1 :: x :: r => (unpack r).map fun q => (x :: q.1, q.2)
  | _ => none

theorem unpack_pack (b g : Bytes) : unpack (pack b ++ g) = some (b, g) := by
  induction b with
  | nil => rfl
  | cons x r ih => simp [pack, unpack, ih]

theorem pack_length (b : Bytes) : (pack b).length = 2 * b.length + 1 := by
  induction b with
  | nil => rfl
  | cons x r ih => simp [pack, ih]; omega

/-- A toy chip without secrets: hashes concatenate, a signature is the digest itself. -/
def chip : Chip where
  fault _ := 0
  unloadFails _ := false
  random k n := List.replicate n (BitVec.ofNat 8 k)
  zero := [0]
  pcrHash l := l.flatMap pack
  extend a b := a ++ b
  policyPcr d sel h := d ++ sel.map (BitVec.ofNat 8) ++ h
  addRef d r := 0xAA :: d ++ r
  policyAuth k r := match k with
    | .ecc cv x y => BitVec.ofNat 8 cv :: x ++ y ++ r
    | .rsa n e => BitVec.ofNat 8 e :: n ++ r
  verify k sig d := match k with
    | .ecc _ x _ => sig == x ++ d
    | .rsa _ _ => false
  wrap _ o := (o.policy, (if o.withAuth then 1 else 0) :: pack o.auth ++ o.secret)
  unwrap pub priv := match priv with
    | w :: r => (unpack r).map fun q => ⟨q.2, pub, w == 1, q.1⟩
    | _ => none
  encPub := pack
  decPub b := (unpack b).map fun q => q.1

def cfg : Cfg where
  chip := chip
  slots := [⟨.ecc256, [9, 9, 9, 9], 4⟩, ⟨.ecc256, [1, 2, 3, 4, 0, 0], 4⟩]
  sha := id
  algo := .ecc
  rsaDecode _ := none
  pcrCap := 6
  pubCap := 100
  privCap := 100
  authCap := 8
  maxSeal := 64
  junk := List.replicate 100 7
  nvBase := 0x1800200

/-- PCR 1 and PCR 4 have been extended. -/
def s0 : S := ⟨0, fun i => if i = 1 then [5] else if i = 4 then [6, 7] else [0], fun _ => none, none,
  none, none⟩

def key : PubKey := .ecc 3 [1, 2] [3, 4]

/-- mask of PCR 1 and 4, followed by the signature of the second key -/
def policy : Bytes := [0x12, 0, 0, 0] ++ [1, 2] ++ [0xAA, 0, 1, 4, 1, 5, 0, 1, 6, 1, 7, 0]

/-- The value of a result. -/
def val {α : Type} : R α → Option α
  | .ok a _ => some a
  | _ => none

/-- The failure of a result. -/
def code {α : Type} : R α → Option Int
  | .err rc _ => some rc
  | _ => none

theorem hintKey : HintKey cfg [1, 2, 3, 4] key :=
  ⟨⟨.ecc256, [1, 2, 3, 4, 0, 0], 4⟩, ⟨[⟨.ecc256, [9, 9, 9, 9], 4⟩], [], rfl, by decide, by
    simp [cfg]⟩, by decide, .inl ⟨rfl, 3, .inl ⟨rfl, rfl⟩, by decide⟩⟩

theorem quiet (s : S) : Quiet cfg.chip s := fun _ _ => rfl

/-- `unseal_sound` -/
example : val (unsealBlob cfg [1, 2, 3, 4] policy 18 [3, 1, 2, 3, 4] [0, 0, 8, 8, 8] [] 32 s0) =
    some [8, 8, 8] := by decide +kernel

/-- `unseal_complete` -/
example : cfg.chip.verify key ((policy.drop 4).take 14)
    (toSign cfg.chip (Covered (num32 policy) 6) s0.pcr) = true ∧
    cfg.chip.unwrap [3, 1, 2, 3, 4] [0, 0, 8, 8, 8] = some ⟨[8, 8, 8], [3, 1, 2, 3, 4], false, []⟩ ∧
    Opens cfg.chip key [] ⟨[8, 8, 8], [3, 1, 2, 3, 4], false, []⟩ :=
  ⟨by decide +kernel, by decide, .inl ⟨rfl, by decide⟩⟩

/-- `unseal_overflow`: the same secret and an array of two bytes -/
example : ∃ s', unsealBlob cfg [1, 2, 3, 4] policy 18 [3, 1, 2, 3, 4] [0, 0, 8, 8, 8] [] 2 s0 =
    .bad .secretBuf s' :=
  unseal_overflow (quiet _) (by decide) (by decide) (by decide) hintKey (by decide +kernel)
    (o := ⟨[8, 8, 8], [3, 1, 2, 3, 4], false, []⟩) (by decide) (.inl ⟨rfl, by decide⟩) (by decide)

/-- `unseal_short_policy` -/
example : unsealBlob cfg [1, 2, 3, 4] policy 3 [] [] [] 32 s0 = .bad .policy s0 :=
  unseal_short_policy (by decide) (by decide) (by decide)

/-- `unseal_refused`: PCR 4 has another value -/
example : ∃ s', unsealBlob cfg [1, 2, 3, 4] policy 18 [3, 1, 2, 3, 4] [0, 0, 8, 8, 8] [] 32
    { s0 with pcr := fun i => if i = 4 then [6, 8] else s0.pcr i } = .err rcSignature s' :=
  unseal_refused (quiet _) (by decide) (by decide) hintKey (by decide +kernel)

/-- `unseal_uncovered`: PCR 2 does not matter -/
example : val (unsealBlob cfg [1, 2, 3, 4] policy 18 [3, 1, 2, 3, 4] [0, 0, 8, 8, 8] [] 32
    { s0 with pcr := fun i => if i = 2 then [6, 8] else s0.pcr i }) = some [8, 8, 8] := by
  decide +kernel

/-- `unseal_not_bound`: a mask of eight PCRs; PCR 7 can have any value -/
example : val (unsealBlob cfg [1, 2, 3, 4] ([0xFF, 0, 0, 0] ++ [1, 2] ++
      [0xAA, 0, 0, 1, 2, 3, 4, 5, 1, 0, 0, 1, 5, 0, 1, 0, 0, 1, 0, 0, 1, 6, 1, 7, 0, 1, 0, 0]) 34 [3, 1, 2, 3, 4] [0, 0, 8, 8, 8] [] 32
    { s0 with pcr := fun i => if i = 7 then [6, 8] else s0.pcr i }) = some [8, 8, 8] := by
  decide +kernel

theorem pack_inj (l l' : List Bytes) (h : l.flatMap pack = l'.flatMap pack) : l = l' := by
  induction l generalizing l' with
  | nil => cases l' with
    | nil => rfl
    | cons a r => cases a <;> simp [pack] at h
  | cons a r ih => cases l' with
    | nil => cases a <;> simp [pack] at h
    | cons b q =>
      simp only [List.flatMap_cons] at h
      have h1 := congrArg unpack h
      rw [unpack_pack, unpack_pack] at h1
      simp only [Option.some.injEq, Prod.mk.injEq] at h1
      rw [h1.1, ih q h1.2]

/-- `unseal_bound`: the hypotheses hold, both PCRs are bound -/
example {s' t t' : S} {sec sec' : Bytes}
    (h : unsealBlob cfg [1, 2, 3, 4] policy 18 [3, 1, 2, 3, 4] [0, 0, 8, 8, 8] [] 32 s0 = .ok sec s')
    (h' : unsealBlob cfg [1, 2, 3, 4] policy 18 [3, 1, 2, 3, 4] [0, 0, 8, 8, 8] [] 32 t = .ok sec' t') :
    t.pcr 1 = [5] ∧ t.pcr 4 = [6, 7] := by
  have hb := unseal_bound (by decide) h h'
    (by
      intro k g d d' h1 h2
      cases k with
      | ecc cv x y =>
        simp [cfg, chip] at h1 h2
        exact List.append_cancel_left (h1.symm.trans h2)
      | rsa n e => simp [cfg, chip] at h1)
    (by intro d d' h; simpa [cfg, chip] using h)
    (by intro z l d d' h; simpa [cfg, chip] using h)
    (fun l l' h => pack_inj l l' h)
  exact ⟨(hb 1 (by decide +kernel)).symm, (hb 4 (by decide +kernel)).symm⟩

/-- The assumption of `seal_unseal` and `seal_unseal_only`. -/
theorem faithful : Faithful cfg where
  unwrap n o := by
    obtain ⟨a, b, w, d⟩ := o
    cases w <;> simp [cfg, chip, unpack_pack]
  dec p g := by simp [cfg, chip, unpack_pack]
  priv n o hs ha := by
    simp [cfg, chip, pack_length] at hs ha ⊢
    omega
  pubCap := by decide
  privCap := by decide

/-- sealing and unsealing a secret -/
def sealThen (s : S) : S := (sealAuth cfg [1, 2, 3, 4] 18 0 [42, 43] [] s).st

/-- `seal_unseal` -/
example : val (unsealAuth cfg [1, 2, 3, 4] policy 18 0 [] 32 (sealThen s0)) = some [42, 43] := by
  decide +kernel

/-- `unlock_replaces`: the PCRs do not match the policy, the secret is replaced -/
def s1 : S := { sealThen s0 with pcr := fun i => if i = 4 then [6, 8] else s0.pcr i }

example : code (unsealAuth cfg [1, 2, 3, 4] policy 18 0 [] 64 s1) = some rcSignature := by
  decide +kernel

example : val (unsealAuth cfg [1, 2, 3, 4] policy 18 0 [] 32
    { (unlockDisk cfg [1, 2, 3, 4] policy 18 [] s1).st with pcr := s0.pcr }) ≠ some [42, 43] := by
  decide +kernel

/-- `readBlob_overflow` -/
example : ∃ s', readBlob cfg 5 [] { s0 with nv := fun _ => some (101 :: 0 :: List.replicate 101 1) } =
    .bad .pubBuf s' :=
  readBlob_overflow (quiet _) rfl (by simp) (by decide +kernel) (by decide +kernel)

/-- `active_iff` -/
example : (getPcrActive cfg 0 s0).2.1 = 0x12 := by decide +kernel

/-- `active_rc`: reads 1 and 4 fail, nothing is reported and the mask is empty -/
example : (getPcrActive { cfg with chip := { chip with fault := fun k => if k < 15 then 0x100 else 0 } }
    0 s0).1 = 0 ∧ (getPcrActive { cfg with
      chip := { chip with fault := fun k => if k < 15 then 0x100 else 0 } } 0 s0).2.1 = 0 := by
  decide +kernel

/-- `build_ok`, `build_unseal` -/
example : val (buildPolicy cfg 0x12 [] s0) =
    some ([0x12, 0, 0, 0] ++ [0xAA, 0, 1, 4, 1, 5, 0, 1, 6, 1, 7, 0]) := by decide +kernel

/-- `unseal_clean`, `seal_clean` -/
example : Clean s0 ∧ Clean (sealBlob cfg [1, 2, 3, 4] 18 [42, 43] [] s0).st := ⟨⟨rfl, rfl, rfl⟩,
  seal_clean (fun _ => rfl) ⟨rfl, rfl, rfl⟩ (by decide +kernel)⟩

end Demo

end Verif.Tpm
