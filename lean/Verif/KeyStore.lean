import Verif.TrailerLemmas
import Verif.Demo

/-!
# Storage of the encryption key (C27)

`/repo/src/libwolfboot.c:1358-1603`, builds with `EXT_ENCRYPTED` and without `MMU`, `FLAGS_HOME`,
`NVM_FLASH_WRITEONCE`, `TRAILER_SKIP` 0: key (`K` bytes) and nonce (`N` bytes) are at the end of the BOOT
partition, in internal flash; the trailer is right below.
-/

namespace Verif

/-- `ENCRYPT_TMP_SECRET_OFFSET`, `/repo/src/libwolfboot.c:79-80`. -/
def secretOff (c : Cfg) (K N : Nat) : Nat := c.part - (K + N)

/-- `get_trailer_at(PART_BOOT, at)` with `PART_BOOT_ENDFLAGS` = start + `ENCRYPT_TMP_SECRET_OFFSET`,
`/repo/src/libwolfboot.c:399-441`, `/repo/src/libwolfboot.c:160-170`. -/
def encTrailerAt (c : Cfg) (K N at_ : Nat) : Nat := secretOff c K N - (4 + at_)

/-- The sector cache after the key, the nonce and the magic were copied into it,
`/repo/src/libwolfboot.c:1390-1403`; `off` is `addr_off`. The magic is copied last. -/
def keyCache (sector : Nat → Byte) (K N off : Nat) (key nonce : Mem) : Nat → Byte := fun i =>
  if off - 4 ≤ i ∧ i < off then magicByte (i - (off - 4))
  else if off + K ≤ i ∧ i < off + K + N then nonce (i - (off + K))
  else if off ≤ i ∧ i < off + K then key (i - off)
  else sector i

/-- `hal_set_key`, `/repo/src/libwolfboot.c:1358-1431`. The partition is aligned to sectors, so that
`addr_align` is the last sector of BOOT. Flash operations that fail (early return at line 1390 with the flash
unlocked) are not modelled. -/
def setKey (c : Cfg) (K N : Nat) (key nonce : Mem) : M Unit := do
  unlock
  let f ← readFlash
  erase c .boot c.last c.ss
  program c .boot c.last c.ss
    (keyCache (fun i => f .boot (c.last + i)) K N (secretOff c K N - c.last) key nonce)
  lock

/-- `wolfBoot_get_encrypt_key`, `/repo/src/libwolfboot.c:1464-1481`: key and nonce. -/
def getKey (c : Cfg) (K N : Nat) (f : Flash) : Mem × Mem :=
  (fun i => f .boot (secretOff c K N + i), fun i => f .boot (secretOff c K N + K + i))

/-- `wolfBoot_erase_encrypt_key`, `/repo/src/libwolfboot.c:1492-1510`. -/
def eraseKey (c : Cfg) (K N : Nat) : M Unit := do
  let f ← readFlash
  if ∀ i, i < K + N → f .boot (secretOff c K N + i) = 0xFF#8 then pure ()
  else setKey c K N (fun _ => 0xFF#8) (fun _ => 0xFF#8)

/-- `aes_init` and `chacha_init`, `/repo/src/libwolfboot.c:1519-1603`: key and nonce in use, or `none` if -1
is returned. -/
def initKey (c : Cfg) (K N : Nat) (f : Flash) : Option (Mem × Mem) :=
  let key : Mem := fun i => f .boot (secretOff c K N + i)
  if ∀ i, i < K → key i = 0xFF#8 then none
  else if ∀ i, i < K → key i = 0x00#8 then none
  else some (key, fun i => f .boot (secretOff c K N + K + i))

/-- Operations on the stored key. -/
inductive KeyOp where
  | set (key nonce : Mem)
  | clear

/-- Call of `wolfBoot_set_encrypt_key` (1445-1450) or `wolfBoot_erase_encrypt_key`. -/
def KeyOp.run (c : Cfg) (K N : Nat) : KeyOp → M Unit
  | .set key nonce => setKey c K N key nonce
  | .clear => eraseKey c K N

def runKeyOps (c : Cfg) (K N : Nat) : List KeyOp → M Unit
  | [] => pure ()
  | op :: ops => do op.run c K N; runKeyOps c K N ops

/-- Specification: key and nonce that are stored after the operation. -/
def KeyOp.key : KeyOp → Mem × Mem
  | .set key nonce => (key, nonce)
  | .clear => (fun _ => 0xFF#8, fun _ => 0xFF#8)

/-- The flash holds this key and nonce. -/
def StoresKey (c : Cfg) (K N : Nat) (kn : Mem × Mem) (f : Flash) : Prop :=
  (∀ i, i < K → f .boot (c.part - (K + N) + i) = kn.1 i) ∧
  (∀ i, i < N → f .boot (c.part - (K + N) + K + i) = kn.2 i)

section
variable {c : Cfg} {K N : Nat}

/-- Flash `g` agrees with `f` except for the key, the nonce and the magic word before them. -/
def KeepsAll (c : Cfg) (K N : Nat) (f g : Flash) : Prop :=
  ∀ p a, ¬ (p = Part.boot ∧ c.part - (K + N) - 4 ≤ a ∧ a < c.part) → g p a = f p a

theorem KeepsAll.trans {f g h : Flash} (h1 : KeepsAll c K N f g) (h2 : KeepsAll c K N g h) :
    KeepsAll c K N f h := fun p a hp => (h2 p a hp).trans (h1 p a hp)

theorem setKey_spec (w : c.WF) (hkn : K + N + 4 ≤ c.ss) {T : Mem → Prop} {l : Bool} (f0 : Flash) (key nonce : Mem) :
    Triple T l (fun f => f = f0) (setKey c K N key nonce) true
      (fun _ g => StoresKey c K N (key, nonce) g ∧ KeepsAll c K N f0 g ∧
        le32 (g .boot) (encTrailerAt c K N 0) = MAGIC_TRAIL)
      (fun g => Same .boot c.last c.part f0 g) := by
  have hp := w.part_eq
  have es : secretOff c K N - c.last = c.ss - (K + N) := by unfold secretOff; omega
  unfold setKey
  refine Triple.bind Triple.unlock fun _ => Triple.readFlash ?_
  intro f hf
  subst hf
  refine Triple.bind (Q := fun _ g => g = f.erase .boot c.last c.ss) (Triple.erase ?_ ?_) fun _ => ?_
  · rintro g rfl
    rfl
  · rintro t g _ rfl
    rw [hp]
    exact same_tornErase c t _ .boot c.last c.ss
  refine Triple.bind (Triple.program (Q := fun _ g =>
      StoresKey c K N (key, nonce) g ∧ KeepsAll c K N f g ∧
        le32 (g .boot) (encTrailerAt c K N 0) = MAGIC_TRAIL) ?_ ?_ ?_) fun _ => Triple.lock
  · rintro g rfl i hi
    unfold Flash.erase
    rw [if_pos ⟨rfl, by omega, by omega⟩]
    exact BitVec.allOnes_and
  · rintro g rfl
    have hb : ∀ a, c.last ≤ a → a < c.part →
        ((f.erase .boot c.last c.ss).program .boot c.last c.ss
          (keyCache (fun i => f .boot (c.last + i)) K N (secretOff c K N - c.last) key nonce)) .boot a =
        keyCache (fun i => f .boot (c.last + i)) K N (c.ss - (K + N)) key nonce (a - c.last) := by
      intro a h1 h2
      unfold Flash.program
      rw [if_pos ⟨rfl, h1, by omega⟩, es]
      unfold Flash.erase
      rw [if_pos ⟨rfl, h1, by omega⟩]
      exact BitVec.allOnes_and
    refine ⟨⟨?_, ?_⟩, ?_, ?_⟩
    · intro i hi
      rw [hb _ (by omega) (by omega)]
      unfold keyCache
      rw [if_neg (by omega), if_neg (by omega), if_pos (by omega)]
      congr 1
      omega
    · intro i hi
      rw [hb _ (by omega) (by omega)]
      unfold keyCache
      rw [if_neg (by omega), if_pos (by omega)]
      congr 1
      omega
    · intro p a hpa
      by_cases h : p = Part.boot ∧ c.last ≤ a ∧ a < c.part
      · obtain ⟨rfl, h1, h2⟩ := h
        have h3 : ¬ (c.part - (K + N) - 4 ≤ a) := fun h => hpa ⟨rfl, h, h2⟩
        rw [hb a h1 h2]
        unfold keyCache
        rw [if_neg (by omega), if_neg (by omega), if_neg (by omega)]
        dsimp only
        rw [show c.last + (a - c.last) = a by omega]
      · have e1 : ¬ (p = Part.boot ∧ c.last ≤ a ∧ a < c.last + c.ss) := by rw [← hp]; exact h
        unfold Flash.program
        rw [if_neg e1]
        unfold Flash.erase
        rw [if_neg e1]
    · refine le32_magic fun i hi => ?_
      have ea : encTrailerAt c K N 0 = c.part - (K + N) - 4 := rfl
      rw [ea, hb _ (by omega) (by omega)]
      unfold keyCache
      rw [if_pos (by omega)]
      congr 1
      omega
  · rintro t g _ rfl
    have h1 := same_erase f .boot c.last c.ss
    have h2 := same_tornProgram c t (f.erase .boot c.last c.ss) .boot c.last c.ss
      (keyCache (fun i => f .boot (c.last + i)) K N (secretOff c K N - c.last) key nonce)
    rw [hp]
    exact h1.trans h2

theorem KeyOp.run_spec (w : c.WF) (hkn : K + N + 4 ≤ c.ss) {T : Mem → Prop} {l : Bool} (f0 : Flash) (op : KeyOp) :
    ∃ l', Triple T l (fun f => f = f0) (op.run c K N) l'
      (fun _ g => StoresKey c K N op.key g ∧ KeepsAll c K N f0 g)
      (fun g => Same .boot c.last c.part f0 g) := by
  have hp := w.part_eq
  cases op with
  | set key nonce =>
    exact ⟨true, (setKey_spec w hkn f0 key nonce).conseq (fun _ h => h) (fun _ _ h => ⟨h.1, h.2.1⟩) fun _ h => h⟩
  | clear =>
    by_cases hff : ∀ i, i < K + N → f0 .boot (secretOff c K N + i) = 0xFF#8
    · refine ⟨l, ?_⟩
      refine Triple.readFlash ?_
      rintro f rfl
      rw [if_pos hff]
      refine (Triple.pure (Q := fun _ g => g = f) ()).conseq (fun _ h => h) ?_ fun _ h => h
      rintro _ g rfl
      refine ⟨⟨fun i hi => hff i (by omega), fun i hi => ?_⟩, fun _ _ _ => rfl⟩
      have := hff (K + i) (by omega)
      rw [← Nat.add_assoc] at this
      exact this
    · refine ⟨true, ?_⟩
      refine Triple.readFlash ?_
      rintro f rfl
      rw [if_neg hff]
      exact (setKey_spec w hkn f _ _).conseq (fun _ h => h) (fun _ _ h => ⟨h.1, h.2.1⟩) fun _ h => h

theorem runKeyOps_spec (w : c.WF) (hkn : K + N + 4 ≤ c.ss) : ∀ (ops : List KeyOp) (u : World),
    match runKeyOps c K N ops u with
    | .ok _ v => (∀ op, ops.getLast? = some op → StoresKey c K N op.key v.fl) ∧ KeepsAll c K N u.fl v.fl
    | .crash g => Same .boot c.last c.part u.fl g
    | _ => False
  | [], u => ⟨fun op h => by simp at h, fun _ _ _ => rfl⟩
  | op :: ops, u => by
    have hp := w.part_eq
    obtain ⟨l1, h1⟩ := KeyOp.run_spec (T := fun _ => True) (l := u.locked) w hkn u.fl op
    have h1 := h1 u trivial rfl rfl
    change match M.bind (op.run c K N) (fun _ => runKeyOps c K N ops) u with
      | .ok _ v => _ | .crash g => _ | _ => False
    unfold M.bind
    cases e : op.run c K N u with
    | ok a v =>
      rw [e] at h1
      have h2 := runKeyOps_spec w hkn ops v
      dsimp only
      have keep : KeepsAll c K N u.fl v.fl := h1.2.2.2.2
      cases e2 : runKeyOps c K N ops v with
      | ok b v2 =>
        rw [e2] at h2
        refine ⟨?_, keep.trans h2.2⟩
        intro o ho
        cases ops with
        | nil =>
          obtain rfl : op = o := by simpa using ho
          obtain rfl : v = v2 := by
            have : Res.ok () v = Res.ok b v2 := e2
            injection this
          exact h1.2.2.2.1
        | cons o2 os => exact h2.1 o (by simpa using ho)
      | crash g =>
        rw [e2] at h2
        intro p a hpa
        rw [h2 p a hpa]
        exact keep p a (fun hc => hpa ⟨hc.1, by omega, hc.2.2⟩)
      | _ => rw [e2] at h2; exact h2
    | crash g => rw [e] at h1; exact h1.2
    | _ => rw [e] at h1; exact h1

/-- C27: after any sequence of setting and erasing the key, without power failure, the stored key and nonce
are those of the last operation; `wolfBoot_get_encrypt_key` returns them, nothing but the key, the nonce and
the magic word is changed, and a power failure damages nothing outside of the last BOOT sector.
`_partial`: what a power failure does to that sector is not covered; see `setKey_power_loss`. -/
theorem key_storage_partial (w : c.WF) (hkn : K + N + 4 ≤ c.ss) (ops : List KeyOp) (op : KeyOp) (u : World)
    {r : Res Unit} (hr : runKeyOps c K N (ops ++ [op]) u = r) :
    match r with
    | .ok _ v => (∀ i, i < K → (getKey c K N v.fl).1 i = op.key.1 i) ∧
        (∀ i, i < N → (getKey c K N v.fl).2 i = op.key.2 i) ∧
        ∀ p a, ¬ (p = Part.boot ∧ c.part - (K + N) - 4 ≤ a ∧ a < c.part) → v.fl p a = u.fl p a
    | .crash g => ∀ p a, ¬ (p = Part.boot ∧ c.last ≤ a ∧ a < c.part) → g p a = u.fl p a
    | _ => False := by
  have h := runKeyOps_spec w hkn (ops ++ [op]) u
  rw [hr] at h
  cases r with
  | ok b v =>
    have hs := h.1 op (by simp)
    exact ⟨hs.1, hs.2, h.2⟩
  | crash g => exact h
  | _ => exact h

/-- After `wolfBoot_erase_encrypt_key` the cipher cannot be initialised. -/
theorem erased_key_unusable {f : Flash} (h : StoresKey c K N KeyOp.clear.key f) : initKey c K N f = none := by
  unfold initKey
  exact if_pos h.1

/-- A stored key that is neither all `FF` nor all zero is the one used for encryption. -/
theorem stored_key_used {f : Flash} {key nonce : Mem} (h : StoresKey c K N (key, nonce) f) {i j : Nat} (hi : i < K)
    (hj : j < K) (h1 : key i ≠ 0xFF#8) (h2 : key j ≠ 0x00#8) :
    ∃ k n, initKey c K N f = some (k, n) ∧ (∀ i, i < K → k i = key i) ∧ ∀ i, i < N → n i = nonce i := by
  refine ⟨_, _, ?_, h.1, h.2⟩
  have a1 : ¬ ∀ i, i < K → f .boot (secretOff c K N + i) = 0xFF#8 := fun hc => h1 ((h.1 i hi).symm.trans (hc i hi))
  have a2 : ¬ ∀ i, i < K → f .boot (secretOff c K N + i) = 0x00#8 := fun hc => h2 ((h.1 j hj).symm.trans (hc j hj))
  unfold initKey
  dsimp only
  rw [if_neg a1, if_neg a2]
  rfl

end

namespace KDemo

def key (s : Nat) : Mem := fun i => BitVec.ofNat 8 (s + 5 * i)
/-- Flash with an 8-byte key and a 4-byte nonce at the end of BOOT (3 sectors of 32 bytes), and state SUCCESS. -/
def fl : Flash
  | .boot => fun o => if o < 79 then BitVec.ofNat 8 (3 * o) else if o = 79 then ST_SUCCESS
      else if o < 84 then magicByte (o - 80) else if o < 92 then key 7 (o - 84) else if o < 96 then key 100 (o - 92) else 0xFF#8
  | _ => fun _ => 0xFF#8
def world (b : Option Nat) : World := { fl := fl, locked := true, budget := b, torn := fun _ => 0xFF#8 }

end KDemo

open KDemo Demo

/-- `key_storage_partial`: the key is set, erased and set again. -/
example : ∃ v, runKeyOps cfg 8 4 ([.set (key 1) (key 2), .clear] ++ [.set (key 3) (key 4)]) (world none) = .ok () v ∧
    (∀ i, i < 8 → (getKey cfg 8 4 v.fl).1 i = key 3 i) ∧ v.fl .boot (encTrailerAt cfg 8 4 1) = ST_SUCCESS := by
  have h2 : okAnd (runKeyOps cfg 8 4 ([.set (key 1) (key 2), .clear] ++ [.set (key 3) (key 4)]) (world none)) (fun _ => true) = true := by
    decide +kernel
  obtain ⟨_, v, h3, _⟩ := ok_of h2
  have h := key_storage_partial Demo.wf (K := 8) (N := 4) (by decide) _ _ _ h3
  have e1 : v.fl .boot 79 = fl .boot 79 := h.2.2 .boot 79 (by decide +kernel)
  have e2 : fl .boot 79 = ST_SUCCESS := by decide +kernel
  exact ⟨v, h3, h.1, e1.trans e2⟩

/-- `erased_key_unusable` and `stored_key_used`. -/
example : initKey cfg 8 4 (fun _ _ => 0xFF#8) = none ∧ ∃ k n, initKey cfg 8 4 fl = some (k, n) ∧ k 3 = key 7 3 := by
  refine ⟨erased_key_unusable ⟨fun _ _ => rfl, fun _ _ => rfl⟩, ?_⟩
  obtain ⟨k, n, h1, h2, _⟩ := stored_key_used (c := cfg) (K := 8) (N := 4) (f := fl) (key := key 7) (nonce := key 100)
    (by constructor <;> decide +kernel) (i := 0) (j := 0) (by decide) (by decide) (by decide) (by decide)
  exact ⟨k, n, h1, h2 3 (by decide)⟩

/-- Setting the key is not safe against power failure: with the power lost during the write, the stored key is
neither the old nor the new one, no key is usable, and the state of BOOT is lost too, although it had nothing
to do with the operation. -/
theorem setKey_power_loss : ∃ (c : Cfg) (K N : Nat) (key nonce : Mem) (u : World) (g : Flash),
    c.WF ∧ K + N + 4 ≤ c.ss ∧ setKey c K N key nonce u = .crash g ∧
    (∃ kn, initKey c K N u.fl = some kn) ∧ u.fl .boot (encTrailerAt c K N 1) = ST_SUCCESS ∧
    le32 (u.fl .boot) (encTrailerAt c K N 0) = MAGIC_TRAIL ∧
    initKey c K N g = none ∧ le32 (g .boot) (encTrailerAt c K N 0) ≠ MAGIC_TRAIL ∧
    g .boot (encTrailerAt c K N 1) ≠ ST_SUCCESS := by
  have h : isCrash (setKey cfg 8 4 (key 1) (key 2) (world (some 1))) = true := by decide +kernel
  refine ⟨cfg, 8, 4, key 1, key 2, world (some 1), _, Demo.wf, by decide, isCrash_eq h, ?_, by decide +kernel, by decide +kernel,
    ?_, by decide +kernel, by decide +kernel⟩
  · obtain ⟨k, n, h1, _⟩ := stored_key_used (c := cfg) (K := 8) (N := 4) (f := fl) (key := key 7) (nonce := key 100)
      (by constructor <;> decide +kernel) (i := 0) (j := 0) (by decide) (by decide) (by decide) (by decide)
    exact ⟨_, h1⟩
  · have : ∀ i, i < 8 → crashFl (setKey cfg 8 4 (key 1) (key 2) (world (some 1))) .boot (secretOff cfg 8 4 + i) = 0xFF#8 := by
      decide +kernel
    unfold initKey
    exact if_pos this

end Verif
