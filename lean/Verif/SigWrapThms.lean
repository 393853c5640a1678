import Verif.SigWrap
import Verif.ImageThms

/-!
# Signature verification functions: theorems (C56)
-/

namespace Verif.SigWrap

open Verif

/-! ## Specification -/

/-- A plain text recovered by RSA names the digest: it is the digest or a `DigestInfo` of it. -/
def Names (o hash : List Byte) : Prop := o = hash ∨ ∃ algo tail, IsDigestInfo o algo hash tail

/-- The library accepted the signature bytes behind `sig` for the digest of the image, under the key
of the slot (or the key that the HSM or the device holds). -/
def Accepted (f : Fn) (L : Lib) (b : Build) (a : Args) : Prop :=
  match f with
  | .ed g => ∃ p, a.buf = some p ∧
      L.verify (.raw (p.take b.pubSz)) (a.sig.take b.sigSz) a.hash g = (0, 1)
  | .eccSoft => ∃ p, a.buf = some p ∧
      L.verifyRS (.raw (p.take (2 * (a.size.toNat / 2)))) (be (a.sig.take (a.size.toNat / 2)))
        (be ((a.sig.drop (a.size.toNat / 2)).take (a.size.toNat / 2))) a.hash 0 = (0, 1)
  | .eccHsm => ∃ p r s, a.buf = some p ∧
      L.verifyRS (.raw (p.take (2 * (a.size.toNat / 2)))) r s a.hash 0 = (0, 1)
  | .eccHsmId => ∃ r s, L.verifyRS .hsmId r s a.hash 0 = (0, 1)
  | .eccDev => L.verify .device (a.sig.take b.sigSz) a.hash 0 = (0, 1)
  | .rsaSoft => ∃ p r o, a.buf = some p ∧
      L.recover (.raw (p.take a.size.toNat)) (a.sig.take b.sigSz) = (r, o) ∧ 0 ≤ r ∧
      Names (o.take r.toNat) a.hash
  | .rsaHsm => ∃ p r o, a.buf = some p ∧
      L.recover (.cached (p.take a.size.toNat)) (a.sig.take b.sigSz) = (r, o) ∧ 0 ≤ r ∧
      Names (o.take r.toNat) a.hash
  | .rsaHsmId => ∃ r o, L.recover .hsmId (a.sig.take b.sigSz) = (r, o) ∧ 0 ≤ r ∧
      Names (o.take r.toNat) a.hash
  | .rsaDev => L.rsaDev a.hash (a.sig.take b.sigSz) = 0
  | .hbs => ∃ p, a.buf = some p ∧
      (L.verify (.raw (p.take b.pubSz)) (a.sig.take b.sigSz) a.hash 1).1 = 0
  | .mlDsa => ∃ p, a.buf = some p ∧
      L.verify (.raw (p.take L.pubLen.2.toNat)) (a.sig.take b.sigSz) a.hash 0 = (0, 1)
  | .mlDsaHsmId => L.verify .hsmId (a.sig.take b.sigSz) a.hash 0 = (0, 1)
  | .tpm _ => ∃ p, a.buf = some p ∧ (L.verify (.raw p) (a.sig.take b.sigSz) a.hash 1).1 = 0

/-- Every use of a context is preceded by successful calls only: it was created, its parameters (if
any) were set, and it holds the key that it is used with. `made`, `keys`: so far. `ok`: no call failed
so far. -/
def Proper (ok made : Bool) (keys : List Key) : List Ev → Prop
  | [] => True
  | .init rc :: t => Proper (ok && decide (rc = 0)) (made || decide (rc = 0)) keys t
  | .params rc :: t => Proper (ok && decide (rc = 0)) made keys t
  | .cache _ rc :: t => Proper (ok && decide (rc = 0)) made keys t
  | .key k rc :: t => Proper (ok && decide (rc = 0)) made (k :: keys) t
  | .verify k _ _ :: t => ok = true ∧ made = true ∧ k ∈ keys ∧ Proper ok made keys t
  | _ :: t => Proper ok made keys t

/-! ## Soundness and exactness -/

theorem mem_verifyFn (k : Key) (h : List Byte) (r : Int × Int) :
    Ev.confirm ∈ verifyFn k h r ↔ r = (0, 1) := by
  obtain ⟨x, y⟩ := r
  unfold verifyFn
  by_cases h : x = 0 ∧ y = 1 <;> simp [h]

theorem mem_rsaEnd (v : RdOut Bool) : Ev.confirm ∈ rsaEnd v ↔ v = .ok true := by
  unfold rsaEnd
  rcases v with (_ | _) | _ | _ <;> simp

theorem mem_rsaNone (b : Build) (r : Int) : Ev.confirm ∉ rsaNone b r := by
  unfold rsaNone
  split <;> simp

theorem rsaOut_iff (a : Args) (r : Int) (o : List Byte) :
    rsaOut a r o = .ok true ↔ 0 ≤ r ∧ Names (o.take r.toNat) a.hash := by
  unfold rsaOut Names
  split
  · constructor
    · intro h; simp at h
    · intro h; omega
  · rw [rsaCompare_iff]; constructor
    · intro h; exact ⟨by omega, h⟩
    · exact fun h => h.2

/-- Ed25519 and Ed448: exactly when. -/
theorem ed_iff (L : Lib) (b : Build) (a : Args) (g : Int) :
    Ev.confirm ∈ ed L b a g ↔ ∃ p, a.buf = some p ∧ 0 ≤ L.init ∧
      0 ≤ L.key (.raw (p.take b.pubSz)) ∧ b.sigSz ≤ a.sig.length ∧
      L.verify (.raw (p.take b.pubSz)) (a.sig.take b.sigSz) a.hash g = (0, 1) := by
  unfold ed
  split
  · simp; omega
  · cases a.buf with
    | none => simp
    | some p =>
      dsimp only
      split
      · simp; intros; omega
      · split
        · simp; intros; omega
        · have e1 : 0 ≤ L.init := by omega
          have e2 : 0 ≤ L.key (.raw (p.take b.pubSz)) := by omega
          have e3 : b.sigSz ≤ a.sig.length := by omega
          simp [mem_verifyFn, e1, e2, e3]

/-- ECDSA in software: exactly when. -/
theorem eccSoft_iff (L : Lib) (a : Args) :
    Ev.confirm ∈ eccSoft L a ↔ ∃ p pt, a.buf = some p ∧ 0 < a.size ∧ pt = a.size.toNat / 2 ∧
      L.init = 0 ∧ L.key (.raw (p.take (2 * pt))) = 0 ∧ L.isPub (.raw (p.take (2 * pt))) = true ∧
      2 * pt ≤ a.sig.length ∧
      L.verifyRS (.raw (p.take (2 * pt))) (be (a.sig.take pt)) (be ((a.sig.drop pt).take pt)) a.hash 0
        = (0, 1) := by
  unfold eccSoft
  cases a.buf with
  | none => simp
  | some p =>
    dsimp only
    split
    · simp; intros; omega
    · split
      · split
        · next h =>
          split
          · simp; intros; omega
          · have e1 : 0 < a.size := by omega
            have e3 : 2 * (a.size.toNat / 2) ≤ a.sig.length := by omega
            simp_all [mem_verifyFn]
        · next h => simp at h ⊢; intros; simp_all
      · simp; intros; omega

theorem mem_eccHsmTail (L : Lib) (a : Args) (k : Key) (pt : Nat) :
    Ev.confirm ∈ eccHsmTail L a k pt ↔ 2 * pt ≤ a.sig.length ∧
      L.toDer (hsmRS a.sig pt).1 (hsmRS a.sig pt).2 = 0 ∧
      L.verifyRS k (hsmRS a.sig pt).1 (hsmRS a.sig pt).2 a.hash 0 = (0, 1) := by
  unfold eccHsmTail
  split
  · simp; intros; omega
  · dsimp only
    split
    · next h => simp [mem_verifyFn, h]; omega
    · next h => simp [h]

/-- ECDSA on the HSM with the key of the slot: exactly when. -/
theorem eccHsm_iff (L : Lib) (a : Args) :
    Ev.confirm ∈ eccHsm L a ↔ ∃ p pt, a.buf = some p ∧ 0 < a.size ∧ pt = a.size.toNat / 2 ∧
      L.init = 0 ∧ L.key (.raw (p.take (2 * pt))) = 0 ∧ 2 * pt ≤ a.sig.length ∧
      L.toDer (hsmRS a.sig pt).1 (hsmRS a.sig pt).2 = 0 ∧
      L.verifyRS (.raw (p.take (2 * pt))) (hsmRS a.sig pt).1 (hsmRS a.sig pt).2 a.hash 0 = (0, 1) := by
  unfold eccHsm
  cases a.buf with
  | none => simp
  | some p =>
    dsimp only
    split
    · simp; intros; omega
    · split
      · split
        · simp; intros; contradiction
        · have e1 : 0 < a.size := by omega
          simp_all [mem_eccHsmTail]
      · simp; intros; omega

/-- ECDSA with a key id of the HSM: exactly when. -/
theorem eccHsmId_iff (L : Lib) (b : Build) (a : Args) :
    Ev.confirm ∈ eccHsmId L b a ↔ L.init = 0 ∧ L.key .hsmId = 0 ∧ 2 * (b.sigSz / 2) ≤ a.sig.length ∧
      L.toDer (hsmRS a.sig (b.sigSz / 2)).1 (hsmRS a.sig (b.sigSz / 2)).2 = 0 ∧
      L.verifyRS .hsmId (hsmRS a.sig (b.sigSz / 2)).1 (hsmRS a.sig (b.sigSz / 2)).2 a.hash 0
        = (0, 1) := by
  unfold eccHsmId
  split
  · split
    · simp; intros; contradiction
    · next h1 h2 => simp [mem_eccHsmTail] at h2 ⊢; simp [h1, h2]
  · simp; intros; contradiction

/-- ECDSA on Renesas devices: exactly when. -/
theorem eccDev_iff (L : Lib) (b : Build) (a : Args) :
    Ev.confirm ∈ eccDev L b a ↔ a.buf ≠ none ∧ 0 < a.size ∧ L.init = 0 ∧ b.sigSz ≤ a.sig.length ∧
      L.verify .device (a.sig.take b.sigSz) a.hash 0 = (0, 1) := by
  unfold eccDev
  cases a.buf with
  | none => simp
  | some p =>
    dsimp only
    split
    · simp; intros; omega
    · split
      · split
        · simp; intros; omega
        · have e1 : 0 < a.size := by omega
          have e3 : b.sigSz ≤ a.sig.length := by omega
          simp_all [mem_verifyFn]
      · simp; intros; contradiction

/-- RSA in software: exactly when. -/
theorem rsaSoft_iff (L : Lib) (b : Build) (a : Args) :
    Ev.confirm ∈ rsaSoft L b a ↔ ∃ p k r o, a.buf = some p ∧ 0 ≤ a.size ∧
      k = Key.raw (p.take a.size.toNat) ∧ L.init = 0 ∧ 0 ≤ L.key k ∧ b.sigSz ≤ a.sig.length ∧
      L.recover k (a.sig.take b.sigSz) = (r, o) ∧ 0 ≤ rsaFn b r ∧
      Names (o.take (rsaFn b r).toNat) a.hash := by
  unfold rsaSoft
  cases a.buf with
  | none => simp
  | some p =>
    dsimp only
    split
    · simp; intros; omega
    · split
      · split
        · split
          · simp; intros; omega
          · rcases hr : L.recover (.raw (p.take a.size.toNat)) (a.sig.take b.sigSz) with ⟨r, o⟩
            have e1 : 0 ≤ a.size := by omega
            have e2 : b.sigSz ≤ a.sig.length := by omega
            simp_all [mem_rsaEnd, rsaOut_iff]
            exact ⟨fun h => ⟨r, o, ⟨rfl, rfl⟩, h⟩, by rintro ⟨_, _, ⟨rfl, rfl⟩, h⟩; exact h⟩
        · simp [mem_rsaNone]; intros; omega
      · simp [mem_rsaNone]; intros; omega

/-- RSA on the HSM with the key of the slot: exactly when. -/
theorem rsaHsm_iff (L : Lib) (b : Build) (a : Args) :
    Ev.confirm ∈ rsaHsm L b a ↔ ∃ p k r o, a.buf = some p ∧ 0 ≤ a.size ∧
      k = p.take a.size.toNat ∧ L.init = 0 ∧ L.cache k = 0 ∧ L.key (.cached k) = 0 ∧
      b.sigSz ≤ a.sig.length ∧ L.evict = 0 ∧
      L.recover (.cached k) (a.sig.take b.sigSz) = (r, o) ∧ 0 ≤ rsaFn b r ∧
      Names (o.take (rsaFn b r).toNat) a.hash := by
  unfold rsaHsm
  cases a.buf with
  | none => simp
  | some p =>
    dsimp only
    split
    · simp; intros; omega
    · split
      · simp; intros; contradiction
      · split
        · simp; intros; contradiction
        · split
          · simp; intros; contradiction
          · split
            · simp; intros; omega
            · split
              · simp; intros; contradiction
              · rcases hr : L.recover (.cached (p.take a.size.toNat)) (a.sig.take b.sigSz) with ⟨r, o⟩
                have e1 : 0 ≤ a.size := by omega
                have e2 : b.sigSz ≤ a.sig.length := by omega
                simp_all [mem_rsaEnd, rsaOut_iff]
                exact ⟨fun h => ⟨r, o, ⟨rfl, rfl⟩, h⟩, by rintro ⟨_, _, ⟨rfl, rfl⟩, h⟩; exact h⟩

/-- RSA with a key id of the HSM: exactly when. -/
theorem rsaHsmId_iff (L : Lib) (b : Build) (a : Args) :
    Ev.confirm ∈ rsaHsmId L b a ↔ ∃ r o, L.init = 0 ∧ L.key .hsmId = 0 ∧ b.sigSz ≤ a.sig.length ∧
      L.recover .hsmId (a.sig.take b.sigSz) = (r, o) ∧ 0 ≤ rsaFn b r ∧
      Names (o.take (rsaFn b r).toNat) a.hash := by
  unfold rsaHsmId
  split
  · simp; intros; contradiction
  · split
    · simp; intros; contradiction
    · split
      · simp; intros; omega
      · rcases hr : L.recover .hsmId (a.sig.take b.sigSz) with ⟨r, o⟩
        have e2 : b.sigSz ≤ a.sig.length := by omega
        simp_all [mem_rsaEnd, rsaOut_iff]
        exact ⟨fun h => ⟨r, o, ⟨rfl, rfl⟩, h⟩, by rintro ⟨_, _, ⟨rfl, rfl⟩, h⟩; exact h⟩

/-- RSA on Renesas devices: exactly when. -/
theorem rsaDev_iff (L : Lib) (b : Build) (a : Args) :
    Ev.confirm ∈ rsaDev L b a ↔ a.buf ≠ none ∧ 0 ≤ a.size ∧ L.init = 0 ∧ b.sigSz ≤ a.sig.length ∧
      rsaFn b (L.rsaDev a.hash (a.sig.take b.sigSz)) = 0 := by
  unfold rsaDev
  cases a.buf with
  | none => simp
  | some p =>
    dsimp only
    split
    · simp; intros; omega
    · split
      · split
        · simp; intros; omega
        · next h _ => simp [mem_rsaNone, h]; omega
      · simp [mem_rsaNone]; intros; contradiction

/-- LMS and XMSS: exactly when. -/
theorem hbs_iff (L : Lib) (b : Build) (a : Args) :
    Ev.confirm ∈ hbs L b a ↔ ∃ p, a.buf = some p ∧ L.init = 0 ∧ L.params = 0 ∧
      L.key (.raw (p.take b.pubSz)) = 0 ∧ b.sigSz ≤ a.sig.length ∧
      (L.verify (.raw (p.take b.pubSz)) (a.sig.take b.sigSz) a.hash 1).1 = 0 := by
  unfold hbs
  cases a.buf with
  | none => simp
  | some p =>
    dsimp only
    repeat' split
    all_goals simp_all
    all_goals (try intros); (try omega)

theorem mem_mlDsaEnd (L : Lib) (b : Build) (a : Args) (k : Key) (r : Int) :
    Ev.confirm ∈ mlDsaEnd L b a k r ↔ r = 0 ∧ L.sigLen.1 = 0 ∧ 0 < L.sigLen.2 ∧ L.sigLen.2 = b.sigSz ∧
      b.sigSz ≤ a.sig.length ∧ L.verify k (a.sig.take b.sigSz) a.hash 0 = (0, 1) := by
  unfold mlDsaEnd
  split
  · next h =>
    split
    · simp; intros; omega
    · have e3 : b.sigSz ≤ a.sig.length := by omega
      have e4 : 0 < b.sigSz := by omega
      simp_all [mem_verifyFn]
  · next h => simp; intros; exfalso; apply h; exact ⟨by assumption, by assumption, by omega, by assumption⟩

theorem mem_mlDsaInit (L : Lib) : Ev.confirm ∉ (mlDsaInit L).1 ∧
    ((mlDsaInit L).2 = 0 ↔ L.init = 0 ∧ L.params = 0) := by
  unfold mlDsaInit
  split <;> simp_all

/-- ML-DSA: exactly when. -/
theorem mlDsa_iff (L : Lib) (b : Build) (a : Args) :
    Ev.confirm ∈ mlDsa L b a ↔ ∃ p k, a.buf = some p ∧ L.init = 0 ∧ L.params = 0 ∧
      L.pubLen.1 = 0 ∧ 0 < L.pubLen.2 ∧ L.pubLen.2 ≤ b.pubSz ∧ k = Key.raw (p.take L.pubLen.2.toNat) ∧
      L.key k = 0 ∧ L.sigLen.1 = 0 ∧ 0 < L.sigLen.2 ∧ L.sigLen.2 = b.sigSz ∧
      b.sigSz ≤ a.sig.length ∧ L.verify k (a.sig.take b.sigSz) a.hash 0 = (0, 1) := by
  obtain ⟨h1, h2⟩ := mem_mlDsaInit L
  unfold mlDsa
  cases a.buf with
  | none => simp
  | some p =>
    dsimp only
    split
    · next h => rw [h2] at h; simp [mem_mlDsaEnd, h1, h]
    · next h =>
      rw [h2] at h; simp [h1]; intros; exfalso; apply h
      exact ⟨⟨by assumption, by assumption⟩, by assumption, by assumption, by assumption⟩

/-- ML-DSA with a key id of the HSM: exactly when. -/
theorem mlDsaHsmId_iff (L : Lib) (b : Build) (a : Args) :
    Ev.confirm ∈ mlDsaHsmId L b a ↔ L.key .hsmId = 0 ∧ L.sigLen.1 = 0 ∧ 0 < L.sigLen.2 ∧
      L.sigLen.2 = b.sigSz ∧ b.sigSz ≤ a.sig.length ∧
      L.verify .hsmId (a.sig.take b.sigSz) a.hash 0 = (0, 1) := by
  unfold mlDsaHsmId
  simp [mem_mlDsaEnd, (mem_mlDsaInit L).1]

/-- TPM: exactly when. -/
theorem tpm_iff (L : Lib) (b : Build) (a : Args) (n : Nat) :
    Ev.confirm ∈ tpm L b a n ↔ ∃ p, a.buf = some p ∧ n = b.dlen ∧ L.key (.raw p) = 0 ∧
      b.sigSz ≤ a.sig.length ∧ (L.verify (.raw p) (a.sig.take b.sigSz) a.hash 1).1 = 0 := by
  unfold tpm
  cases a.buf with
  | none => simp
  | some p =>
    dsimp only
    repeat' split
    all_goals simp_all
    all_goals (try intros); (try omega)

theorem rsaFn_pos {b : Build} {r : Int} {o hash : List Byte} (h : 0 ≤ rsaFn b r)
    (hn : Names (o.take (rsaFn b r).toNat) hash) : 0 ≤ r ∧ Names (o.take r.toNat) hash := by
  unfold rsaFn at *
  split at h
  · split at h
    · omega
    · next h1 h2 => rw [if_pos h1, if_neg h2] at hn; exact ⟨h, hn⟩
  · next h1 => rw [if_neg h1] at hn; exact ⟨h, hn⟩

/-- **C56 (soundness).** Whatever the library answers to the other calls: the signature is confirmed
only if the library accepted the signature bytes of the image for the digest of the image, under the
key of the slot, of the HSM or of the device. -/
theorem confirm_sound (f : Fn) (L : Lib) (b : Build) (a : Args) (hd : 0 < b.dlen)
    (h : Ev.confirm ∈ run f L b a) : Accepted f L b a := by
  cases f with
  | ed g => obtain ⟨p, h1, _, _, _, h2⟩ := (ed_iff L b a g).mp h; exact ⟨p, h1, h2⟩
  | eccSoft =>
    obtain ⟨p, pt, h1, _, rfl, _, _, _, _, h2⟩ := (eccSoft_iff L a).mp h; exact ⟨p, h1, h2⟩
  | eccHsm =>
    obtain ⟨p, pt, h1, _, rfl, _, _, _, _, h2⟩ := (eccHsm_iff L a).mp h; exact ⟨p, _, _, h1, h2⟩
  | eccHsmId => obtain ⟨_, _, _, _, h2⟩ := (eccHsmId_iff L b a).mp h; exact ⟨_, _, h2⟩
  | eccDev => exact ((eccDev_iff L b a).mp h).2.2.2.2
  | rsaSoft =>
    obtain ⟨p, k, r, o, h1, _, rfl, _, _, _, h2, h3, h4⟩ := (rsaSoft_iff L b a).mp h
    exact ⟨p, r, o, h1, h2, rsaFn_pos h3 h4⟩
  | rsaHsm =>
    obtain ⟨p, k, r, o, h1, _, rfl, _, _, _, _, _, h2, h3, h4⟩ := (rsaHsm_iff L b a).mp h
    exact ⟨p, r, o, h1, h2, rsaFn_pos h3 h4⟩
  | rsaHsmId =>
    obtain ⟨r, o, _, _, _, h2, h3, h4⟩ := (rsaHsmId_iff L b a).mp h
    exact ⟨r, o, h2, rsaFn_pos h3 h4⟩
  | rsaDev =>
    have h1 := ((rsaDev_iff L b a).mp h).2.2.2.2
    unfold rsaFn at h1
    unfold Accepted
    split at h1
    · split at h1 <;> omega
    · exact h1
  | hbs => obtain ⟨p, h1, _, _, _, _, h2⟩ := (hbs_iff L b a).mp h; exact ⟨p, h1, h2⟩
  | mlDsa =>
    obtain ⟨p, k, h1, _, _, _, _, _, rfl, _, _, _, _, _, h2⟩ := (mlDsa_iff L b a).mp h
    exact ⟨p, h1, h2⟩
  | mlDsaHsmId => exact ((mlDsaHsmId_iff L b a).mp h).2.2.2.2.2
  | tpm n => obtain ⟨p, h1, _, _, _, h2⟩ := (tpm_iff L b a n).mp h; exact ⟨p, h1, h2⟩

/-- The value of the uninitialised variable of the Ed25519 and Ed448 functions matters only if the
library returns success without writing the result. -/
theorem ed_uninit (L : Lib) (b : Build) (a : Args) (g g' : Int)
    (hw : ∀ k s h, (L.verify k s h g).1 = 0 ∨ (L.verify k s h g').1 = 0 →
      L.verify k s h g = L.verify k s h g') :
    Ev.confirm ∈ ed L b a g ↔ Ev.confirm ∈ ed L b a g' := by
  rw [ed_iff, ed_iff]
  constructor
  all_goals
    rintro ⟨p, h1, h2, h3, h4, h5⟩
    refine ⟨p, h1, h2, h3, h4, ?_⟩
    have := hw (.raw (p.take b.pubSz)) (a.sig.take b.sigSz) a.hash (by simp [h5])
    simp_all

/-! ## Use of contexts -/

/-- wolfCrypt reports errors as negative numbers; the curve of the device can be selected. -/
structure Sane (L : Lib) : Prop where
  init : L.init ≤ 0
  key : ∀ k, L.key k ≤ 0
  device : L.key .device = 0

theorem proper_verifyFn (k : Key) (h : List Byte) (r : Int × Int) (ks : List Key) (t : List Ev) :
    Proper true true ks (verifyFn k h r ++ t) ↔ k ∈ ks ∧ Proper true true ks t := by
  unfold verifyFn
  split <;> simp [Proper]

theorem proper_verifyFn' (k : Key) (h : List Byte) (r : Int × Int) (ks : List Key) :
    Proper true true ks (verifyFn k h r) ↔ k ∈ ks := by
  unfold verifyFn
  split <;> simp [Proper]

theorem proper_rsaEnd (ok made : Bool) (ks : List Key) (v : RdOut Bool) :
    Proper ok made ks (rsaEnd v) := by
  unfold rsaEnd
  rcases v with (_ | _) | _ | _ <;> simp [Proper]

theorem proper_rsaNone (ok made : Bool) (ks : List Key) (b : Build) (r : Int) :
    Proper ok made ks (rsaNone b r) := by
  unfold rsaNone
  split <;> simp [Proper]

theorem proper_eccHsmTail (L : Lib) (a : Args) (k : Key) (pt : Nat) (ks : List Key) (hk : k ∈ ks) :
    Proper true true ks (eccHsmTail L a k pt) := by
  unfold eccHsmTail
  split
  · simp [Proper]
  · dsimp only
    split
    · simp [proper_verifyFn, hk, Proper]
    · simp [Proper]

theorem proper_mlDsaEnd (L : Lib) (b : Build) (a : Args) (k : Key) (r : Int) (ok made : Bool)
    (ks : List Key) (h : r = 0 → ok = true ∧ made = true ∧ k ∈ ks) :
    Proper ok made ks (mlDsaEnd L b a k r) := by
  unfold mlDsaEnd
  split
  · next h1 =>
    obtain ⟨rfl, rfl, h2⟩ := h h1.1
    split
    · simp [Proper]
    · simp [proper_verifyFn, h2, Proper]
  · simp [Proper]

/-- **C56 (use of contexts).** In every build except ML-DSA with a key id of the HSM, the library is
asked to verify only with a context that was created, whose parameters were set, and which holds the
key; no call made before has failed. -/
theorem proper_run (f : Fn) (hf : f ≠ .mlDsaHsmId) (L : Lib) (b : Build) (a : Args) (hL : Sane L) :
    Proper true false [] (run f L b a) := by
  have h1 := hL.init
  have h2 := hL.key
  have h3 := hL.device
  have h4 : ¬ L.init < 0 → L.init = 0 := by omega
  have h5 : ∀ k, ¬ L.key k < 0 → L.key k = 0 := fun k h => by have := h2 k; omega
  have h6 : ∀ k, L.key k ≥ 0 → L.key k = 0 := fun k h => by have := h2 k; omega
  clear h1 h2 hL
  cases f with
  | mlDsaHsmId => exact absurd rfl hf
  | ed g =>
    unfold run ed
    cases a.buf <;> dsimp only
    all_goals
        repeat' split
    all_goals simp_all [Proper, proper_rsaEnd, proper_rsaNone, proper_eccHsmTail, proper_verifyFn, proper_verifyFn']
  | eccSoft =>
    unfold run eccSoft
    cases a.buf <;> dsimp only
    all_goals
        repeat' split
    all_goals simp_all [Proper, proper_rsaEnd, proper_rsaNone, proper_eccHsmTail, proper_verifyFn, proper_verifyFn']
  | eccHsm =>
    unfold run eccHsm
    cases a.buf <;> dsimp only
    all_goals
        repeat' split
    all_goals simp_all [Proper, proper_rsaEnd, proper_rsaNone, proper_eccHsmTail, proper_verifyFn, proper_verifyFn']
  | eccHsmId =>
    unfold run eccHsmId
    repeat' split
    all_goals simp_all [Proper, proper_rsaEnd, proper_rsaNone, proper_eccHsmTail, proper_verifyFn, proper_verifyFn']
  | eccDev =>
    unfold run eccDev
    cases a.buf <;> dsimp only
    all_goals
        repeat' split
    all_goals simp_all [Proper, proper_rsaEnd, proper_rsaNone, proper_eccHsmTail, proper_verifyFn, proper_verifyFn']
  | rsaSoft =>
    unfold run rsaSoft
    cases a.buf <;> dsimp only
    all_goals
        repeat' split
    all_goals simp_all [Proper, proper_rsaEnd, proper_rsaNone, proper_eccHsmTail, proper_verifyFn, proper_verifyFn']
  | rsaHsm =>
    unfold run rsaHsm
    cases a.buf <;> dsimp only
    all_goals
        repeat' split
    all_goals simp_all [Proper, proper_rsaEnd, proper_rsaNone, proper_eccHsmTail, proper_verifyFn, proper_verifyFn']
  | rsaHsmId =>
    unfold run rsaHsmId
    repeat' split
    all_goals simp_all [Proper, proper_rsaEnd, proper_rsaNone, proper_eccHsmTail, proper_verifyFn, proper_verifyFn']
  | rsaDev =>
    unfold run rsaDev
    cases a.buf <;> dsimp only
    all_goals
        repeat' split
    all_goals simp_all [Proper, proper_rsaEnd, proper_rsaNone, proper_eccHsmTail, proper_verifyFn, proper_verifyFn']
  | hbs =>
    unfold run hbs
    cases a.buf <;> dsimp only
    all_goals
        repeat' split
    all_goals simp_all [Proper, proper_rsaEnd, proper_rsaNone, proper_eccHsmTail, proper_verifyFn, proper_verifyFn']
  | tpm n =>
    unfold run tpm
    cases a.buf <;> dsimp only
    all_goals
        repeat' split
    all_goals simp_all [Proper, proper_rsaEnd, proper_rsaNone, proper_eccHsmTail, proper_verifyFn, proper_verifyFn']
  | mlDsa =>
    unfold run mlDsa
    cases a.buf with
    | none => simp [Proper]
    | some p =>
      dsimp only
      unfold mlDsaInit
      repeat' split
      all_goals simp_all [Proper]
      exact proper_mlDsaEnd _ _ _ _ _ _ _ _ (by simp_all)

/-- With a key id of the HSM, the ML-DSA function forgets a failed creation of the context or choice of
the parameters: the context is used all the same exactly when the key id can be set (and the length
of a signature is as expected). -/
theorem mlDsaHsmId_improper (L : Lib) (b : Build) (a : Args) (hi : L.init ≠ 0 ∨ L.params ≠ 0)
    (hs : b.sigSz ≤ a.sig.length) :
    ¬ Proper true false [] (run .mlDsaHsmId L b a) ↔
      L.key .hsmId = 0 ∧ L.sigLen.1 = 0 ∧ L.sigLen.2 > 0 ∧ L.sigLen.2 = b.sigSz := by
  have hv : ∀ r made ks t, ¬ Proper false made ks (verifyFn .hsmId a.hash r ++ t) := by
    intro r made ks t; unfold verifyFn; split <;> simp [Proper]
  have hs' : ¬ a.sig.length < b.sigSz := by omega
  unfold run mlDsaHsmId mlDsaInit mlDsaEnd
  by_cases h0 : L.init = 0
  · have : L.params ≠ 0 := by simpa [h0] using hi
    by_cases h : L.key .hsmId = 0 ∧ L.sigLen.1 = 0 ∧ L.sigLen.2 > 0 ∧ L.sigLen.2 = b.sigSz
    · rw [if_pos h, if_neg hs']
      simp [Proper, h0, this, h, hv]; omega
    · rw [if_neg h]
      simp only [h, iff_false, Classical.not_not]
      simp [Proper, h0]
  · by_cases h : L.key .hsmId = 0 ∧ L.sigLen.1 = 0 ∧ L.sigLen.2 > 0 ∧ L.sigLen.2 = b.sigSz
    · rw [if_pos h, if_neg hs']
      simp [Proper, h0, h, hv]; omega
    · rw [if_neg h]
      simp only [h, iff_false, Classical.not_not]
      simp [Proper, h0]

/-! ## Reads behind the signature -/

/-- ECDSA with the key of the slot reads as many bytes of the signature as the key in the slot has
(rounded down to an even number), whatever the size of the signature; no other bytes are read, and no
bytes beyond the end exactly if there are that many. -/
theorem ecc_crash_iff (L : Lib) (a : Args) : Ev.crash ∈ eccSoft L a ↔
    ∃ p, a.buf = some p ∧ 0 < a.size ∧ L.init = 0 ∧
      L.key (.raw (p.take (2 * (a.size.toNat / 2)))) = 0 ∧
      L.isPub (.raw (p.take (2 * (a.size.toNat / 2)))) = true ∧
      a.sig.length < 2 * (a.size.toNat / 2) := by
  unfold eccSoft
  cases a.buf with
  | none => simp
  | some p =>
    dsimp only
    split
    · simp; intros; omega
    · have e1 : 0 < a.size := by omega
      split
      · split
        · split
          · simp_all
          · have : ¬ a.sig.length < 2 * (a.size.toNat / 2) := by assumption
            unfold verifyFn; split <;> simp_all
        · simp_all
      · simp_all

/-- The others, RSA aside, read exactly the size of a signature of the algorithm. -/
theorem fixed_no_crash (f : Fn) (L : Lib) (b : Build) (a : Args) (hs : b.sigSz ≤ a.sig.length)
    (hf : f = .eccHsmId ∨ f = .eccDev ∨ f = .hbs ∨ f = .mlDsa ∨ f = .mlDsaHsmId ∨
      (∃ g, f = .ed g) ∨ ∃ n, f = .tpm n) : Ev.crash ∉ run f L b a := by
  have hs' : ¬ a.sig.length < b.sigSz := by omega
  have hs2 : ¬ a.sig.length < 2 * (b.sigSz / 2) := by omega
  have hv : ∀ k h r, Ev.crash ∉ verifyFn k h r := by
    intro k h r; unfold verifyFn; split <;> simp
  have hm : ∀ k r, Ev.crash ∉ mlDsaEnd L b a k r := by
    intro k r; unfold mlDsaEnd; rw [if_neg hs']; split <;> simp [hv]
  have hi : Ev.crash ∉ (mlDsaInit L).1 := by unfold mlDsaInit; split <;> simp
  rcases hf with rfl | rfl | rfl | rfl | rfl | ⟨g, rfl⟩ | ⟨n, rfl⟩
  · unfold run eccHsmId eccHsmTail
    dsimp only
    repeat' split
    all_goals simp_all
  · unfold run eccDev
    cases a.buf <;> dsimp only
    · simp
    · repeat' split
      all_goals simp_all
  · unfold run hbs
    cases a.buf <;> dsimp only
    · simp
    · repeat' split
      all_goals simp_all
  · unfold run mlDsa
    cases a.buf <;> dsimp only
    · simp
    · split <;> simp [hi, hm]
  · unfold run mlDsaHsmId
    simp [hi, hm]
  · unfold run ed
    cases a.buf <;> dsimp only
    all_goals
      repeat' split
    all_goals simp_all
  · unfold run tpm
    cases a.buf <;> dsimp only
    all_goals
      repeat' split
    all_goals simp_all

/-! ## Contexts and cached keys are released -/

/-- The context is freed in every execution that created it, for ECDSA and RSA in software and on
devices, ML-DSA and the TPM (unless the function crashed). -/
theorem freed (f : Fn) (L : Lib) (b : Build) (a : Args)
    (hf : f = .eccSoft ∨ f = .eccDev ∨ f = .rsaSoft ∨ f = .rsaDev ∨ f = .mlDsa ∨ f = .mlDsaHsmId ∨
      ∃ n, f = .tpm n) (hi : Ev.init 0 ∈ run f L b a) (hc : Ev.crash ∉ run f L b a) :
    Ev.free ∈ run f L b a := by
  have he : ∀ v, Ev.free ∈ rsaEnd v := by intro v; unfold rsaEnd; simp
  have hn : ∀ r, Ev.free ∈ rsaNone b r := by intro v; unfold rsaNone; simp
  have hm : ∀ k r, Ev.crash ∉ mlDsaEnd L b a k r → Ev.free ∈ mlDsaEnd L b a k r := by
    intro k r; unfold mlDsaEnd; repeat' split
    all_goals simp
  rcases hf with rfl | rfl | rfl | rfl | rfl | rfl | ⟨n, rfl⟩
  · unfold run eccSoft at *
    cases h : a.buf <;> simp only [h] at * <;> repeat' split at *
    all_goals simp_all
  · unfold run eccDev at *
    cases h : a.buf <;> simp only [h] at * <;> repeat' split at *
    all_goals simp_all
  · unfold run rsaSoft at *
    cases h : a.buf <;> simp only [h] at * <;> repeat' split at *
    all_goals simp_all
  · unfold run rsaDev at *
    cases h : a.buf <;> simp only [h] at * <;> repeat' split at *
    all_goals simp_all
  · unfold run mlDsa at *
    cases h : a.buf <;> simp only [h] at * <;> repeat' split at *
    all_goals simp_all
  · unfold run mlDsaHsmId at *
    simp_all
  · unfold run tpm at *
    cases h : a.buf <;> simp only [h] at * <;> repeat' split at *
    all_goals simp_all

/-- Ed25519 and Ed448: the context is never freed. -/
theorem ed_never_freed (L : Lib) (b : Build) (a : Args) (g : Int) : Ev.free ∉ ed L b a g := by
  have hv : ∀ k h r, Ev.free ∉ verifyFn k h r := by
    intro k h r; unfold verifyFn; split <;> simp
  unfold ed
  cases a.buf <;> dsimp only
  all_goals
    repeat' split
  all_goals simp_all

/-- LMS and XMSS: a created context is not freed exactly if the parameters or the key are refused. -/
theorem hbs_leak_iff (L : Lib) (b : Build) (a : Args) (p : List Byte) (hb : a.buf = some p)
    (hs : b.sigSz ≤ a.sig.length) (hi : L.init = 0) :
    Ev.free ∉ hbs L b a ↔ L.params ≠ 0 ∨ L.key (.raw (p.take b.pubSz)) ≠ 0 := by
  have hs' : ¬ a.sig.length < b.sigSz := by omega
  unfold hbs
  simp only [hb, hi, hs', if_false]
  repeat' split
  all_goals simp_all

/-- RSA on the HSM with the key of the slot: a key that was cached on the HSM stays there exactly if
its id cannot be assigned to the context. -/
theorem rsaHsm_leak_iff (L : Lib) (b : Build) (a : Args) (p : List Byte) (hb : a.buf = some p)
    (hz : 0 ≤ a.size) (hs : b.sigSz ≤ a.sig.length) (hi : L.init = 0)
    (hc : L.cache (p.take a.size.toNat) = 0) :
    (∀ rc, Ev.evict rc ∉ rsaHsm L b a) ↔ L.key (.cached (p.take a.size.toNat)) ≠ 0 := by
  have hs' : ¬ a.sig.length < b.sigSz := by omega
  have hz' : ¬ a.size < 0 := by omega
  unfold rsaHsm
  simp only [hb, hz', hi, hc, hs', if_false, ne_eq, not_true_eq_false]
  repeat' split
  all_goals simp_all
  exact ⟨0, fun h => absurd rfl h⟩

/-! ## Renesas devices in armored builds -/

/-- The armored `RSA_VERIFY_FN` turns the success code 0 of the device into an error: the signature of
an RSA image is never confirmed. -/
theorem rsaDev_armored (L : Lib) (b : Build) (a : Args) (ha : b.armored = true) (hd : 0 < b.dlen) :
    Ev.confirm ∉ rsaDev L b a := by
  rw [rsaDev_iff]
  rintro ⟨_, _, _, _, h⟩
  unfold rsaFn at h
  rw [if_pos ha] at h
  split at h <;> omega

/-! ## Numbers of an ECDSA signature on the HSM -/

theorem be_foldl (l : List Byte) (n : Nat) :
    l.foldl (fun n x => n * 256 + x.toNat) n = n * 256 ^ l.length + be l := by
  induction l generalizing n with
  | nil => simp [be]
  | cons x l ih =>
    simp only [List.foldl_cons, List.length_cons, be]
    rw [ih, ih (0 * 256 + x.toNat), Nat.pow_succ]
    simp [Nat.add_mul, Nat.mul_assoc, Nat.mul_comm 256, Nat.add_assoc]

theorem be_cons (x : Byte) (l : List Byte) : be (x :: l) = x.toNat * 256 ^ l.length + be l := by
  unfold be
  rw [List.foldl_cons, be_foldl]; simp [be]

theorem be_append (l t : List Byte) : be (l ++ t) = be l * 256 ^ t.length + be t := by
  conv => lhs; unfold be
  rw [List.foldl_append, be_foldl]; rfl

theorem be_lt (l : List Byte) : be l < 256 ^ l.length := by
  induction l with
  | nil => simp [be]
  | cons x l ih =>
    rw [be_cons, List.length_cons, Nat.pow_succ]
    have := x.isLt
    have : x.toNat + 1 ≤ 256 := by omega
    calc x.toNat * 256 ^ l.length + be l < (x.toNat + 1) * 256 ^ l.length := by
            rw [Nat.add_mul]; omega
      _ ≤ 256 * 256 ^ l.length := Nat.mul_le_mul_right _ this
      _ = 256 ^ l.length * 256 := Nat.mul_comm ..

theorem be_zeros (z : Nat) (l : List Byte) : be (List.replicate z 0#8 ++ l) = be l := by
  induction z with
  | zero => simp
  | succ z ih => rw [List.replicate_succ, List.cons_append, be_cons, ih]; simp

/-- `binSize` is the number of bytes that a number needs. -/
theorem binSize_spec (n k : Nat) : binSize n ≤ k ↔ n < 256 ^ k := by
  induction k generalizing n with
  | zero =>
    unfold binSize
    split <;> simp <;> omega
  | succ k ih =>
    unfold binSize
    split
    · next h => subst h; simp; exact Nat.pow_pos (by omega)
    · rw [Nat.add_le_add_iff_right, ih, Nat.pow_succ, Nat.div_lt_iff_lt_mul (by omega)]

theorem binSize_be (x : Byte) (l : List Byte) (hx : x ≠ 0#8) : binSize (be (x :: l)) = l.length + 1 := by
  have h1 : binSize (be (x :: l)) ≤ l.length + 1 := (binSize_spec _ _).mpr (be_lt (x :: l))
  have h2 : ¬ binSize (be (x :: l)) ≤ l.length := by
    rw [binSize_spec, be_cons]
    have : 0 < x.toNat := by
      rcases Nat.eq_zero_or_pos x.toNat with h | h
      · exact absurd (BitVec.eq_of_toNat_eq (by simpa using h)) hx
      · exact h
    have : 1 * 256 ^ l.length ≤ x.toNat * 256 ^ l.length := Nat.mul_le_mul_right _ this
    omega
  omega

theorem be_take (l : List Byte) (z : Nat) (hz : z ≤ l.length) :
    be (l.take (l.length - z)) = be l / 256 ^ z := by
  have h := be_append (l.take (l.length - z)) (l.drop (l.length - z))
  rw [List.take_append_drop] at h
  have hl : (l.drop (l.length - z)).length = z := by simp; omega
  have hlt := be_lt (l.drop (l.length - z))
  rw [hl] at h hlt
  rw [h, Nat.mul_comm, Nat.mul_add_div (Nat.pow_pos (by omega)), Nat.div_eq_of_lt hlt]; simp

/-- What the HSM variants make of one half of the signature: with `z` leading zero bytes the number
loses its last `z` bytes. -/
theorem half_div (z : Nat) (l : List Byte) (hl : ∀ x ∈ l.head?, x ≠ 0#8) :
    be ((List.replicate z 0#8 ++ l).take (binSize (be (List.replicate z 0#8 ++ l)))) =
      be (List.replicate z 0#8 ++ l) / 256 ^ z := by
  have hb : binSize (be (List.replicate z 0#8 ++ l)) = l.length := by
    rw [be_zeros]
    cases l with
    | nil => simp [be, binSize]
    | cons x l => exact binSize_be x l (hl x (by simp))
  have := be_take (List.replicate z 0#8 ++ l) z (by simp)
  rw [hb]
  rw [show (List.replicate z 0#8 ++ l).length - z = l.length by simp] at this
  exact this

theorem take_take_of_le {l : List Byte} {n k : Nat} (h : k ≤ n) : l.take k = (l.take n).take k := by
  rw [List.take_take, Nat.min_eq_left h]

/-- **C56 (numbers on the HSM).** Let the halves of the signature have `z1` and `z2` leading zero bytes.
The HSM is asked about the numbers without their last `z1` and `z2` bytes. -/
theorem hsmRS_eq (z1 z2 : Nat) (l1 l2 tail : List Byte) (pt : Nat) (h1 : ∀ x ∈ l1.head?, x ≠ 0#8)
    (h2 : ∀ x ∈ l2.head?, x ≠ 0#8) (hp1 : z1 + l1.length = pt) (hp2 : z2 + l2.length = pt) :
    hsmRS ((List.replicate z1 0#8 ++ l1) ++ (List.replicate z2 0#8 ++ l2) ++ tail) pt =
      (be l1 / 256 ^ z1, be l2 / 256 ^ z2) := by
  have e1 : (((List.replicate z1 0#8 ++ l1) ++ (List.replicate z2 0#8 ++ l2) ++ tail).take pt) =
      List.replicate z1 0#8 ++ l1 := by
    rw [List.append_assoc]; exact List.take_left' (by simp [hp1])
  have e2 : ((((List.replicate z1 0#8 ++ l1) ++ (List.replicate z2 0#8 ++ l2) ++ tail).drop pt).take pt) =
      List.replicate z2 0#8 ++ l2 := by
    rw [List.append_assoc, List.drop_left' (by simp [hp1])]; exact List.take_left' (by simp [hp2])
  have s1 : binSize (be (List.replicate z1 0#8 ++ l1)) ≤ pt := by
    rw [binSize_spec]; have := be_lt (List.replicate z1 0#8 ++ l1); simpa [hp1] using this
  have s2 : binSize (be (List.replicate z2 0#8 ++ l2)) ≤ pt := by
    rw [binSize_spec]; have := be_lt (List.replicate z2 0#8 ++ l2); simpa [hp2] using this
  unfold hsmRS
  rw [e1, e2, take_take_of_le s1, take_take_of_le s2, e1, e2, half_div z1 l1 h1, half_div z2 l2 h2,
    be_zeros, be_zeros]

theorem div_pow_eq_iff (n z : Nat) : n / 256 ^ z = n ↔ z = 0 ∨ n = 0 := by
  constructor
  · intro h
    rcases Nat.eq_zero_or_pos z with hz | hz
    · exact Or.inl hz
    · right
      rcases Nat.eq_zero_or_pos n with hn | hn
      · exact hn
      · have : 256 ^ 1 ≤ 256 ^ z := Nat.pow_le_pow_right (by omega) hz
        have := Nat.div_lt_self hn (show 1 < 256 ^ z by omega)
        omega
  · rintro (h | h) <;> simp [h]

/-- The HSM is asked about the numbers of the signature exactly if neither of them has a leading zero
byte (a number that is zero aside). -/
theorem hsmRS_right_iff (z1 z2 : Nat) (l1 l2 tail : List Byte) (pt : Nat)
    (h1 : ∀ x ∈ l1.head?, x ≠ 0#8) (h2 : ∀ x ∈ l2.head?, x ≠ 0#8) (hp1 : z1 + l1.length = pt)
    (hp2 : z2 + l2.length = pt) :
    hsmRS ((List.replicate z1 0#8 ++ l1) ++ (List.replicate z2 0#8 ++ l2) ++ tail) pt = (be l1, be l2) ↔
      (z1 = 0 ∨ be l1 = 0) ∧ (z2 = 0 ∨ be l2 = 0) := by
  rw [hsmRS_eq z1 z2 l1 l2 tail pt h1 h2 hp1 hp2, Prod.mk.injEq, div_pow_eq_iff, div_pow_eq_iff]

/-- A valid signature is refused by the HSM variants: for every pair of numbers one of which has a
leading zero byte, under a library that accepts just this pair. -/
theorem hsm_refuses_valid (z1 z2 : Nat) (l1 l2 : List Byte) (b : Build) (hash : List Byte)
    (h1 : ∀ x ∈ l1.head?, x ≠ 0#8) (h2 : ∀ x ∈ l2.head?, x ≠ 0#8)
    (hp1 : z1 + l1.length = b.sigSz / 2) (hp2 : z2 + l2.length = b.sigSz / 2)
    (hz : (0 < z1 ∧ l1 ≠ []) ∨ (0 < z2 ∧ l2 ≠ [])) (L : Lib)
    (hL : ∀ r s, L.verifyRS .hsmId r s hash 0 = (0, 1) ↔ r = be l1 ∧ s = be l2) :
    Ev.confirm ∉ eccHsmId L b ⟨none, 0,
      (List.replicate z1 0#8 ++ l1) ++ (List.replicate z2 0#8 ++ l2), hash⟩ := by
  have hpos : ∀ l : List Byte, (∀ x ∈ l.head?, x ≠ 0#8) → l ≠ [] → be l ≠ 0 := by
    intro l hl hne h0
    cases l with
    | nil => exact hne rfl
    | cons x l =>
      have := binSize_be x l (hl x (by simp))
      rw [h0] at this
      simp [binSize] at this
  rw [eccHsmId_iff]
  rintro ⟨_, _, _, _, h⟩
  rw [hL] at h
  have h' : hsmRS ((List.replicate z1 0#8 ++ l1) ++ (List.replicate z2 0#8 ++ l2) ++ []) (b.sigSz / 2)
      = (be l1, be l2) := by rw [List.append_nil]; exact Prod.ext h.1 h.2
  rw [hsmRS_right_iff z1 z2 l1 l2 [] _ h1 h2 hp1 hp2] at h'
  rcases hz with ⟨ha, hb⟩ | ⟨ha, hb⟩
  · rcases h'.1 with h | h
    · omega
    · exact hpos l1 h1 hb h
  · rcases h'.2 with h | h
    · omega
    · exact hpos l2 h2 hb h

/-! ## Composition with the boot process -/

/-- The verification function of a build as the image code sees it: key of the slot, digest,
signature. -/
def vf (f : Fn) (L : Lib) (b : Build) (pub dig sig : List Byte) : Bool :=
  decide (Ev.confirm ∈ run f L b ⟨some pub, pub.length, sig, dig⟩)

/-- **C06 with the verification functions.** In every execution from every flash contents: if the
firmware in BOOT is started, the library accepted the signature stored in the header, under a key of
the keystore that may sign for the partition, for the hash of header and firmware. -/
theorem boot_gate_library {k : ImgCfg} {c : Cfg} (wi : ImgWF k c) (junk : Byte) (w w' : World)
    (f : Fn) (L : Lib) (b : Build) (hd : 0 < b.dlen) (hk : k.verify = vf f L b)
    (h : start c (imgEnv k c junk) w = .ok () w') :
    ∃ off s soff, s ∈ k.keys ∧
      Accepted f L b ⟨some s.pub, s.pub.length, slice (w'.fl .boot) soff k.sigSz,
        k.hash (signedMsg k.H (w'.fl .boot) off (le32 (w'.fl .boot) 4))⟩ := by
  obtain ⟨_, _, off, _, toff, _, _, ⟨s, hs, _, _, soff, _, _, hv⟩, _⟩ := boot_gate_image wi junk w w' h
  refine ⟨off, s, soff, hs, confirm_sound f L b _ hd ?_⟩
  rw [hk] at hv
  simpa [vf] using hv

/-! ## Examples -/

namespace Demo

/-- A library whose calls succeed and that accepts the signature `[1, 2, 3, 4]` (as a pair: `0x102`,
`0x304`) of the digest `[9, 9]` under the key `[5, 6, 7, 8]`, on the HSM and on the device. -/
def lib : Lib where
  init := 0
  params := 0
  key := fun _ => 0
  isPub := fun _ => true
  cache := fun _ => 0
  evict := 0
  pubLen := (0, 4)
  sigLen := (0, 4)
  verify := fun k s h _ => if s = [1, 2, 3, 4] ∧ h = [9, 9] ∧ k ∈ [Key.raw [5, 6, 7, 8], .hsmId, .device]
    then (0, 1) else (-229, 0)
  verifyRS := fun k r s h _ => if r = 0x102 ∧ s = 0x304 ∧ h = [9, 9] ∧
    k ∈ [Key.raw [5, 6, 7, 8], .hsmId] then (0, 1) else (-229, 0)
  toDer := fun _ _ => 0
  recover := fun k s => if s = [1, 2, 3, 4] ∧ k ∈ [Key.raw [5, 6, 7, 8], .cached [5, 6, 7, 8], .hsmId]
    then (2, [9, 9]) else (-201, [])
  rsaDev := fun h s => if s = [1, 2, 3, 4] ∧ h = [9, 9] then 0 else -201

def bld : Build := ⟨4, 4, 2, false⟩

def good : Args := ⟨some [5, 6, 7, 8], 4, [1, 2, 3, 4, 0xFF], [9, 9]⟩

def all : List Fn := [.ed 77, .eccSoft, .eccHsm, .eccHsmId, .eccDev, .rsaSoft, .rsaHsm, .rsaHsmId, .rsaDev,
  .hbs, .mlDsa, .mlDsaHsmId, .tpm 2]

theorem binSize_102 : binSize 0x102 = 2 := by simp [binSize]

theorem binSize_304 : binSize 0x304 = 2 := by simp [binSize]

/-- Every function confirms the good signature (`confirm_sound` is not vacuous) ... -/
example : ∀ f ∈ all, Ev.confirm ∈ run f lib bld good := by
  intro f hf
  simp only [all, List.mem_cons, List.not_mem_nil, or_false] at hf
  rcases hf with rfl | rfl | rfl | rfl | rfl | rfl | rfl | rfl | rfl | rfl | rfl | rfl | rfl
  case inr.inr.inl =>
    rw [run, eccHsm_iff]
    refine ⟨[5, 6, 7, 8], 2, rfl, by decide, by decide, rfl, rfl, by decide, rfl, ?_⟩
    have : hsmRS good.sig 2 = (0x102, 0x304) := by
      have e1 : be (good.sig.take 2) = 0x102 := by decide
      have e2 : be ((good.sig.drop 2).take 2) = 0x304 := by decide
      unfold hsmRS; rw [e1, e2, binSize_102, binSize_304, e1, e2]
    rw [this]; decide
  case inr.inr.inr.inl =>
    rw [run, eccHsmId_iff]
    refine ⟨rfl, rfl, by decide, rfl, ?_⟩
    have : hsmRS good.sig (bld.sigSz / 2) = (0x102, 0x304) := by
      have e1 : be (good.sig.take (bld.sigSz / 2)) = 0x102 := by decide
      have e2 : be ((good.sig.drop (bld.sigSz / 2)).take (bld.sigSz / 2)) = 0x304 := by decide
      unfold hsmRS; rw [e1, e2, binSize_102, binSize_304]; decide
    rw [this]; decide
  all_goals decide

/-- ... and not another one. -/
example : ∀ f ∈ [Fn.ed 1, .eccSoft, .eccDev, .rsaSoft, .rsaHsm, .rsaHsmId, .rsaDev, .hbs, .mlDsa,
    .mlDsaHsmId, .tpm 2], Ev.confirm ∉ run f lib bld { good with sig := [1, 2, 3, 5] } := by decide

/-- The library is as `proper_run` assumes. -/
example : Sane lib := ⟨by decide, fun _ => by simp [lib], rfl⟩

/-- A library that returns success without writing the result, and a stack that happens to hold 1. -/
example : Ev.confirm ∈ ed { lib with verify := fun _ _ _ g => (0, g) } bld good 1 ∧
    Ev.confirm ∉ ed { lib with verify := fun _ _ _ g => (0, g) } bld good 0 := by decide

/-- The context of ML-DSA is used although it could not be created. -/
example : run .mlDsaHsmId { lib with init := -140 } bld good =
    [.init (-140), .key .hsmId 0, .verify .hsmId [9, 9] true, .confirm, .free] := by decide

/-- A key of another algorithm (here of 12 bytes) in the slot: the signature is read beyond its end. -/
example : run .eccSoft lib bld { good with buf := some (List.replicate 12 5), size := 12 } =
    [.init 0, .key (.raw (List.replicate 12 5)) 0, .crash] := by decide

/-- The Renesas device accepts; plain build confirms, armored build does not. -/
example : Ev.confirm ∈ rsaDev lib bld good ∧ Ev.confirm ∉ rsaDev lib { bld with armored := true } good := by
  decide

/-- The signature `(0x02, 0x304)`, stored as `00 02 03 04`: the HSM is asked about `(0x00, 0x304)`. -/
example : hsmRS [0, 2, 3, 4] 2 = (0, 0x304) := by
  have := hsmRS_eq 1 0 [2] [3, 4] [] 2 (by decide) (by decide) rfl rfl
  simpa [be] using this

/-- `hsm_refuses_valid` applies to it. -/
example : Ev.confirm ∉ eccHsmId { lib with verifyRS := fun _ r s _ _ => if r = 2 ∧ s = 0x304 then (0, 1)
    else (0, 0) } bld ⟨none, 0, [0, 2, 3, 4], [9, 9]⟩ :=
  hsm_refuses_valid 1 0 [2] [3, 4] bld [9, 9] (by decide) (by decide) rfl rfl (Or.inl (by decide)) _
    (by intro r s; dsimp only; split <;> simp_all [be])

/-- A key that stays on the HSM. -/
example : run .rsaHsm { lib with key := fun _ => -400 } bld good =
    [.init 0, .cache [5, 6, 7, 8] 0, .key (.cached [5, 6, 7, 8]) (-400)] := by decide

/-- `freed`: a refused key. -/
example : run .eccSoft { lib with key := fun _ => -140 } bld good =
    [.init 0, .key (.raw [5, 6, 7, 8]) (-140), .free] := by decide

end Demo

end Verif.SigWrap
