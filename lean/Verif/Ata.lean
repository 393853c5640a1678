import Verif.Basic

/-!
# ATA disk access

`/repo/src/x86/ata.c:687-881`: reads and writes of byte ranges on top of sector transfers, with a cache of one
sector. The hardware is modelled as the ATA standard defines the commands used: READ DMA EXT (0x25) has a 48-bit
sector number and a 16-bit count, WRITE DMA (0xCA) has a 28-bit sector number whose bits 24-27 are in the `device`
register (here always 0) and an 8-bit count; a count of 0 is the maximum. The AHCI PRDT entry limits the number of
bytes (`dbc`, 22 bits, `/repo/src/x86/ata.c:94-99`). Sectors have 512 bytes (40, 207). The register protocol itself, and waiting, is not modelled.
-/

namespace Verif

/-- `CACHE_INVALID`, `/repo/src/x86/ata.c:42`. -/
def CACHE_INVALID : Nat := 0xBADF00DBADC0FFEE

/-- `struct ata_drive`, `/repo/src/x86/ata.c:71-81`, with the contents of the disk (by byte address). `bad`:
sectors for which the drive reports an error. -/
structure Ata where
  disk : Mem
  bad : Nat → Bool
  cached : Nat
  cache : Mem

/-- `count` of a command with a counter of modulus `k`: 0 is the maximum. -/
def cmdCount (count k : Nat) : Nat := if count % k = 0 then k else count % k

/-- Bytes transferred: limited by the command and by `dbc`, `/repo/src/x86/ata.c:269`. -/
def dmaLen (count k : Nat) : Nat := min (cmdCount count k * 512) ((count * 512 - 1) % 4194304 + 1)

/-- One of the sectors of a transfer is bad. -/
def anyBad (a : Ata) (s : Nat) : Nat → Bool
  | 0 => false
  | n + 1 => a.bad s || anyBad a (s + 1) n

/-- `ata_drive_read_sector` (`count > 0`), `/repo/src/x86/ata.c:687-715`, into `buf` at offset `o`. The result of
the command is ignored (713): in case of an error the buffer is left as it is. -/
def readSectors (a : Ata) (s count : Nat) (buf : Mem) (o : Nat) : Mem :=
  if anyBad a (s % 281474976710656) (cmdCount count 65536) = true then buf
  else fun i => if o ≤ i ∧ i < o + dmaLen count 65536 then a.disk (s % 281474976710656 * 512 + (i - o)) else buf i

/-- `ata_drive_write_sector` (`count > 0`), `/repo/src/x86/ata.c:717-745`: sends WRITE DMA (733). -/
def writeSectors (a : Ata) (s count : Nat) (buf : Mem) (o : Nat) : Ata :=
  if anyBad a (s % 16777216) (cmdCount count 256) = true then a
  else
    let d : Mem := fun x =>
      if s % 16777216 * 512 ≤ x ∧ x < s % 16777216 * 512 + dmaLen count 256
      then buf (o + (x - s % 16777216 * 512)) else a.disk x
    { a with disk := d }

/-- `ata_cache_pull`, `/repo/src/x86/ata.c:753-763`. -/
def cachePull (a : Ata) (s : Nat) : Ata :=
  if a.cached = s then a else { a with cache := readSectors a s 1 a.cache 0, cached := s }

/-- `ata_cache_commit`, `/repo/src/x86/ata.c:765-771`. -/
def cacheCommit (a : Ata) : Ata :=
  if a.cached = CACHE_INVALID then a else writeSectors a a.cached 1 a.cache 0

/-- `ata_drive_read`, `/repo/src/x86/ata.c:785-824`, 797-808: the rest of a first, partial sector.
Returns drive, buffer, and the number of bytes. -/
def readHead (a : Ata) (start size : Nat) (buf : Mem) : Ata × Mem × Nat :=
  if start % 512 > 0 then
    let len := min (512 - start % 512) size
    let a := cachePull a (start / 512)
    (a, fun i => if i < len then a.cache (start % 512 + i) else buf i, len)
  else (a, buf, 0)

/-- `/repo/src/x86/ata.c:809-817`: whole sectors, from `start` (a sector boundary) to `buf + o`. -/
def readBulk (a : Ata) (start size : Nat) (buf : Mem) (o : Nat) : Mem × Nat :=
  if size / 512 > 0 then (readSectors a (start / 512) (size / 512) buf o, size / 512 * 512) else (buf, 0)

/-- `/repo/src/x86/ata.c:818-822`: the last, partial sector. -/
def readTail (a : Ata) (start size : Nat) (buf : Mem) (o : Nat) : Ata × Mem :=
  if size > 0 then
    let a := cachePull a (start / 512)
    (a, fun i => if o ≤ i ∧ i < o + size then a.cache (i - o) else buf i)
  else (a, buf)

/-- First sector boundary not before `start`: `sect_start++` after a partial sector, `/repo/src/x86/ata.c:807,862`. -/
def headEnd (start : Nat) : Nat := (start / 512 + (if start % 512 > 0 then 1 else 0)) * 512

/-- `ata_drive_read`, `/repo/src/x86/ata.c:785-824`, for a drive that exists. It always returns `size`. -/
def ataRead (a : Ata) (start size : Nat) (buf : Mem) : Ata × Mem :=
  let (a, buf, n) := readHead a start size buf
  let s := headEnd start
  let (buf, k) := readBulk a s (size - n) buf n
  readTail a (s + k) (size - n - k) buf (n + k)

/-- `/repo/src/x86/ata.c:851-863`. -/
def writeHead (a : Ata) (start size : Nat) (buf : Mem) : Ata × Nat :=
  if start % 512 > 0 then
    let len := min (512 - start % 512) size
    let a := cachePull a (start / 512)
    (cacheCommit { a with cache := fun i =>
      if start % 512 ≤ i ∧ i < start % 512 + len then buf (i - start % 512) else a.cache i }, len)
  else (a, 0)

/-- `/repo/src/x86/ata.c:864-873`. -/
def writeBulk (a : Ata) (start size : Nat) (buf : Mem) (o : Nat) : Ata × Nat :=
  if size / 512 > 0 then (writeSectors a (start / 512) (size / 512) buf o, size / 512 * 512) else (a, 0)

/-- `/repo/src/x86/ata.c:874-879`. -/
def writeTail (a : Ata) (start size : Nat) (buf : Mem) (o : Nat) : Ata :=
  if size > 0 then
    let a := cachePull a (start / 512)
    cacheCommit { a with cache := fun i => if i < size then buf (o + i) else a.cache i }
  else a

/-- `ata_drive_write`, `/repo/src/x86/ata.c:838-881`. It always returns `size`. -/
def ataWrite (a : Ata) (start size : Nat) (buf : Mem) : Ata :=
  if size = 0 then a
  else
    let (a, n) := writeHead a start size buf
    let s := headEnd start
    let (a, k) := writeBulk a s (size - n) buf n
    writeTail a (s + k) (size - n - k) buf (n + k)

/-! ## Specification -/

/-- The cache holds the contents of the sector it claims to hold. -/
def Coherent (a : Ata) : Prop :=
  a.cached < 281474976710656 → ∀ i, i < 512 → a.cache i = a.disk (a.cached * 512 + i)

/-- No sector of the disk is bad. -/
def NoBad (a : Ata) : Prop := ∀ s, a.bad s = false

/-- `m` with `size` bytes of `buf` written at `start`. -/
def put (m : Mem) (start size : Nat) (buf : Mem) : Mem :=
  fun x => if start ≤ x ∧ x < start + size then buf (x - start) else m x

theorem anyBad_false {a : Ata} (h : NoBad a) (s n : Nat) : anyBad a s n = false := by
  induction n generalizing s with
  | zero => rfl
  | succ n ih => simp [anyBad, h s, ih]

theorem cmdCount_eq {count k : Nat} (h0 : 0 < count) (h : count < k) : cmdCount count k = count := by
  unfold cmdCount
  rw [Nat.mod_eq_of_lt h, if_neg (by omega)]

theorem dmaLen_eq {count k : Nat} (h0 : 0 < count) (h : count < k) (h2 : count ≤ 8192) :
    dmaLen count k = count * 512 := by
  unfold dmaLen
  rw [cmdCount_eq h0 h]
  have : (count * 512 - 1) % 4194304 = count * 512 - 1 := Nat.mod_eq_of_lt (by omega)
  omega

theorem readSectors_eq {a : Ata} (hb : NoBad a) {s count : Nat} (h0 : 0 < count) (hc : count ≤ 8192)
    (hs : s < 281474976710656) (buf : Mem) (o i : Nat) :
    readSectors a s count buf o i =
      if o ≤ i ∧ i < o + count * 512 then a.disk (s * 512 + (i - o)) else buf i := by
  unfold readSectors
  rw [Nat.mod_eq_of_lt hs, anyBad_false hb, dmaLen_eq h0 (by omega) hc]
  rfl

theorem writeSectors_eq {a : Ata} (hb : NoBad a) {s count : Nat} (h0 : 0 < count) (hc : count < 256)
    (hs : s < 16777216) (buf : Mem) (o : Nat) :
    writeSectors a s count buf o =
      { a with disk := put a.disk (s * 512) (count * 512) (fun i => buf (o + i)) } := by
  unfold writeSectors
  rw [Nat.mod_eq_of_lt hs, anyBad_false hb, dmaLen_eq h0 (by omega) (by omega)]
  rfl

/-- The cache is valid for sector `s`, if it claims to hold it. -/
def CoAt (a : Ata) (s : Nat) : Prop := a.cached = s → ∀ i, i < 512 → a.cache i = a.disk (s * 512 + i)

theorem Coherent.at {a : Ata} (h : Coherent a) {s : Nat} (hs : s < 281474976710656) : CoAt a s := by
  intro e i hi
  have := h (by omega) i hi
  rw [this, e]

theorem cachePull_spec {a : Ata} (hb : NoBad a) {s : Nat} (hco : CoAt a s) (hs : s < 281474976710656) :
    (cachePull a s).cached = s ∧ (cachePull a s).disk = a.disk ∧ (cachePull a s).bad = a.bad ∧
    Coherent (cachePull a s) := by
  unfold cachePull
  split
  · next h =>
    refine ⟨h, rfl, rfl, ?_⟩
    intro _ i hi
    rw [hco h i hi, h]
  · refine ⟨rfl, rfl, rfl, ?_⟩
    intro _ i hi
    show readSectors a s 1 a.cache 0 i = a.disk (s * 512 + i)
    rw [readSectors_eq hb (by omega) (by omega) hs, if_pos (by omega), Nat.sub_zero]

theorem cachePull_get {a : Ata} (hb : NoBad a) {s i : Nat} (hco : CoAt a s) (hs : s < 281474976710656)
    (hi : i < 512) : (cachePull a s).cache i = a.disk (s * 512 + i) := by
  obtain ⟨h1, h2, _, h4⟩ := cachePull_spec hb hco hs
  have := h4 (by omega) i hi
  rw [this, h1, h2]

/-- **Reads are exact.** With a coherent cache and no bad sectors, a read of at most 4 MiB returns exactly the
bytes of the disk, writes nothing after the `size` bytes of the buffer, and keeps the cache coherent. -/
theorem ata_read_exact (a : Ata) (hb : NoBad a) (hco : Coherent a) (start size : Nat) (buf : Mem)
    (hr : start + size ≤ 144115188075855872) (hsz : size ≤ 4194304) :
    (∀ i, i < size → (ataRead a start size buf).2 i = a.disk (start + i)) ∧
    (∀ i, size ≤ i → (ataRead a start size buf).2 i = buf i) ∧
    (ataRead a start size buf).1.disk = a.disk ∧ (ataRead a start size buf).1.bad = a.bad ∧
    Coherent (ataRead a start size buf).1 := by
  by_cases hs0 : size = 0
  · subst hs0
    by_cases hu : start % 512 > 0
    · have hlt : start / 512 < 281474976710656 := by omega
      obtain ⟨h1, h2, h3, h4⟩ := cachePull_spec hb (hco.at hlt) hlt
      have e : ataRead a start 0 buf = (cachePull a (start / 512), buf) := by
        unfold ataRead readHead
        rw [if_pos hu]
        dsimp only
        simp [readBulk, readTail]
      rw [e]
      exact ⟨fun i h => by omega, fun i _ => rfl, h2, h3, h4⟩
    · have e : ataRead a start 0 buf = (a, buf) := by
        unfold ataRead readHead
        rw [if_neg hu]
        dsimp only
        simp [readBulk, readTail]
      rw [e]
      exact ⟨fun i h => by omega, fun i _ => rfl, rfl, rfl, hco⟩
  have hlt : start / 512 < 281474976710656 := by omega
  -- head
  obtain ⟨a1, b1, n, hh, hd1, hbad1, hco1, hn, hb1, hal⟩ : ∃ a1 b1 n, readHead a start size buf = (a1, b1, n) ∧
      a1.disk = a.disk ∧ a1.bad = a.bad ∧ Coherent a1 ∧ n ≤ size ∧
      (∀ i, b1 i = if i < n then a.disk (start + i) else buf i) ∧
      (n = size ∨ headEnd start = start + n) := by
    unfold readHead headEnd
    by_cases hu : start % 512 > 0
    · rw [if_pos hu, if_pos hu]
      dsimp only
      obtain ⟨h1, h2, h3, h4⟩ := cachePull_spec hb (hco.at hlt) hlt
      refine ⟨_, _, _, rfl, h2, h3, h4, by omega, ?_, ?_⟩
      · intro i
        by_cases hi : i < min (512 - start % 512) size
        · rw [if_pos hi, if_pos hi, cachePull_get hb (hco.at hlt) hlt (by omega)]
          exact congrArg _ (by omega)
        · rw [if_neg hi, if_neg hi]
      · omega
    · rw [if_neg hu, if_neg hu]
      refine ⟨_, _, _, rfl, rfl, rfl, hco, by omega, ?_, ?_⟩
      · intro i; rw [if_neg (by omega)]
      · right; omega
  have hb1' : NoBad a1 := by intro s; rw [hbad1]; exact hb s
  generalize hsv : headEnd start = s at hal
  have e : ataRead a start size buf =
      readTail a1 (s + (readBulk a1 s (size - n) b1 n).2) (size - n - (readBulk a1 s (size - n) b1 n).2)
        (readBulk a1 s (size - n) b1 n).1 (n + (readBulk a1 s (size - n) b1 n).2) := by
    unfold ataRead
    rw [hh]
    dsimp only
    rw [hsv]
  rw [e]
  clear e
  have hsd : s % 512 = 0 := by rw [← hsv]; unfold headEnd; omega
  -- bulk
  obtain ⟨b2, k, hbk, hk, hk2, hb2⟩ : ∃ b2 k, readBulk a1 s (size - n) b1 n = (b2, k) ∧ k = (size - n) / 512 * 512 ∧
      k ≤ size - n ∧ (∀ i, b2 i = if i < n + k then a.disk (start + i) else buf i) := by
    unfold readBulk
    by_cases hc : (size - n) / 512 > 0
    · rw [if_pos hc]
      have hs' : s = start + n := by
        rcases hal with h | h
        · exfalso; omega
        · exact h
      refine ⟨_, _, rfl, rfl, by omega, ?_⟩
      intro i
      have hs2 : s / 512 < 281474976710656 := by omega
      rw [readSectors_eq hb1' hc (by omega) hs2, hd1]
      by_cases hi : n ≤ i ∧ i < n + (size - n) / 512 * 512
      · rw [if_pos hi, if_pos (by omega)]
        rw [show s / 512 * 512 + (i - n) = start + i by omega]
      · rw [if_neg hi, hb1]
        by_cases hin : i < n
        · rw [if_pos hin, if_pos (by omega)]
        · rw [if_neg hin, if_neg (by omega)]
    · rw [if_neg hc]
      refine ⟨_, _, rfl, by omega, by omega, ?_⟩
      intro i; rw [hb1]; simp
  rw [hbk]
  dsimp only
  unfold readTail
  by_cases ht : size - n - k > 0
  · rw [if_pos ht]
    dsimp only
    have hs' : s = start + n := by
      rcases hal with h | h
      · omega
      · exact h
    have hlt3 : (s + k) / 512 < 281474976710656 := by omega
    have hal3 : (s + k) / 512 * 512 = s + k := by
      rw [hk]; omega
    have hlt4 : size - n - k < 512 := by rw [hk]; omega
    obtain ⟨h1, h2, h3, h4⟩ := cachePull_spec hb1' (hco1.at hlt3) hlt3
    refine ⟨?_, ?_, by rw [h2, hd1], by rw [h3, hbad1], h4⟩
    · intro i hi
      by_cases hx : n + k ≤ i
      · rw [if_pos (by omega), cachePull_get hb1' (hco1.at hlt3) hlt3 (by omega), hd1, hal3]
        exact congrArg _ (by omega)
      · rw [if_neg (by omega), hb2, if_pos (by omega)]
    · intro i hi
      rw [if_neg (by omega), hb2, if_neg (by omega)]
  · rw [if_neg ht]
    have : n + k = size := by omega
    refine ⟨?_, ?_, hd1, hbad1, hco1⟩
    · intro i hi; show b2 i = _; rw [hb2, if_pos (by omega)]
    · intro i hi; show b2 i = _; rw [hb2, if_neg (by omega)]

/-- A sector written from the cache, after a change of the cache. -/
theorem cacheCommit_eq {a : Ata} (hb : NoBad a) (hs : a.cached < 16777216) :
    cacheCommit a = { a with disk := put a.disk (a.cached * 512) 512 a.cache } := by
  have hne : a.cached ≠ CACHE_INVALID := by
    intro h
    have : 16777216 ≤ CACHE_INVALID := by decide +kernel
    omega
  unfold cacheCommit
  rw [if_neg hne, writeSectors_eq hb (by omega) (by omega) hs]
  simp

theorem in_part {t x o len : Nat} (hx : t ≤ x) :
    (o ≤ x - t ∧ x - t < o + len) ↔ (t + o ≤ x ∧ x < t + o + len) := by omega

theorem in_whole {t x o len k : Nat} (hl : o + len ≤ k) (h : t + o ≤ x ∧ x < t + o + len) : t ≤ x ∧ x < t + k := by
  omega

/-- Read, change and write of a part of a sector through the cache. -/
theorem rmw_spec {a : Ata} (hb : NoBad a) {s o len : Nat} (hco : CoAt a s) (hs : s < 16777216)
    (hl : o + len ≤ 512) (d ch : Mem) (a' : Ata)
    (hch : ∀ i, ch i = if o ≤ i ∧ i < o + len then d (i - o) else (cachePull a s).cache i)
    (ha : a' = cacheCommit { cachePull a s with cache := ch }) :
    a'.disk = put a.disk (s * 512 + o) len d ∧ a'.bad = a.bad ∧ a'.cached = s ∧ Coherent a' := by
  obtain ⟨h1, h2, h3, h4⟩ := cachePull_spec hb hco (by omega)
  have hg := fun i hi => cachePull_get hb (s := s) (i := i) hco (by omega) hi
  generalize cachePull a s = p at *
  have hb' : NoBad { p with cache := ch } := by
    intro x; show p.bad x = false; rw [h3]; exact hb x
  rw [cacheCommit_eq hb' (show p.cached < 16777216 by omega)] at ha
  subst ha
  dsimp only
  have hdisk : put p.disk (p.cached * 512) 512 ch = put a.disk (s * 512 + o) len d := by
    funext x
    unfold put
    rw [h1, h2]
    by_cases hx : s * 512 ≤ x ∧ x < s * 512 + 512
    · rw [if_pos hx, hch]
      by_cases hy : o ≤ x - s * 512 ∧ x - s * 512 < o + len
      · rw [if_pos hy, if_pos ((in_part hx.1).1 hy), show x - s * 512 - o = x - (s * 512 + o) by omega]
      · rw [if_neg hy, if_neg (fun h => hy ((in_part hx.1).2 h)), hg _ (by omega), show s * 512 + (x - s * 512) = x by omega]
    · rw [if_neg hx, if_neg (fun h => hx (in_whole hl h))]
  refine ⟨hdisk, h3, h1, ?_⟩
  intro _ i hi
  dsimp only
  unfold put
  rw [if_pos (by omega), show p.cached * 512 + i - p.cached * 512 = i by omega]

theorem put_zero (m : Mem) (s : Nat) (b : Mem) : put m s 0 b = m := by
  funext x; unfold put; rw [if_neg (by omega)]

theorem put_put (m : Mem) (start n k : Nat) (buf : Mem) :
    put (put m start n buf) (start + n) k (fun i => buf (n + i)) = put m start (n + k) buf := by
  funext x
  unfold put
  by_cases h1 : start + n ≤ x ∧ x < start + n + k
  · rw [if_pos h1, if_pos (by omega)]; exact congrArg _ (by omega)
  · rw [if_neg h1]
    by_cases h2 : start ≤ x ∧ x < start + n
    · rw [if_pos h2, if_pos (by omega)]
    · rw [if_neg h2, if_neg (by omega)]

/-- The cached sector is not among those overwritten as a whole by a write at a sector boundary. -/
def CacheApart (a : Ata) (start size : Nat) : Prop :=
  start % 512 > 0 ∨ a.cached * 512 < start ∨ start + size / 512 * 512 ≤ a.cached * 512

theorem writeHead_spec (a : Ata) (hb : NoBad a) (hco : Coherent a) (start size : Nat) (buf : Mem)
    (hlt : start / 512 < 16777216) :
    ∃ a1 n, writeHead a start size buf = (a1, n) ∧
      a1.disk = put a.disk start n buf ∧ a1.bad = a.bad ∧ Coherent a1 ∧ n ≤ size ∧
      (n = size ∨ headEnd start = start + n) ∧
      (CacheApart a start size →
        a1.cached * 512 < start + n ∨ start + n + (size - n) / 512 * 512 ≤ a1.cached * 512) := by
  unfold writeHead headEnd CacheApart
  by_cases hu : start % 512 > 0
  · rw [if_pos hu, if_pos hu]
    dsimp only
    obtain ⟨h1, h2, h3, h4⟩ := rmw_spec hb (hco.at (by omega)) hlt (o := start % 512)
      (len := min (512 - start % 512) size) (by omega) buf _ _ (fun _ => rfl) rfl
    refine ⟨_, _, rfl, ?_, h2, h4, by omega, by omega, ?_⟩
    · rw [h1, show start / 512 * 512 + start % 512 = start by omega]
    · intro _; rw [h3]; omega
  · rw [if_neg hu, if_neg hu]
    refine ⟨_, _, rfl, (put_zero _ _ _).symm, rfl, hco, by omega, by omega, ?_⟩
    intro h
    rcases h with h | h | h
    · exact absurd h hu
    · left; omega
    · right; simpa using h

theorem writeBulk_spec (a : Ata) (hb : NoBad a) (hco : Coherent a) (start size : Nat) (buf : Mem) (o : Nat)
    (hal : size / 512 = 0 ∨ start % 512 = 0 ∧ start / 512 < 16777216) (hsz : size < 131072) :
    ∃ a1 k, writeBulk a start size buf o = (a1, k) ∧ k = size / 512 * 512 ∧
      a1.disk = put a.disk start k (fun i => buf (o + i)) ∧ a1.bad = a.bad ∧
      a1.cached = a.cached ∧
      (a.cached * 512 < start ∨ start + k ≤ a.cached * 512 → Coherent a1) := by
  unfold writeBulk
  by_cases hc : size / 512 > 0
  · rw [if_pos hc]
    obtain ⟨h1, h2⟩ : start % 512 = 0 ∧ start / 512 < 16777216 := by
      rcases hal with h | h
      · omega
      · exact h
    have hm : start / 512 * 512 = start := by omega
    rw [writeSectors_eq hb hc (by omega) h2, hm]
    refine ⟨_, _, rfl, rfl, rfl, rfl, rfl, ?_⟩
    intro hg hcl i hi
    have h6 := hco hcl i hi
    dsimp only at hcl ⊢
    unfold put
    rw [if_neg, h6]
    omega
  · rw [if_neg hc]
    have e : size / 512 = 0 := by omega
    exact ⟨_, _, rfl, by rw [e], (put_zero _ _ _).symm, rfl, rfl, fun _ => hco⟩

/-- **Writes are exact.** Below 8 GiB, with less than 256 whole sectors, with a coherent cache and no bad sectors,
a write changes exactly the given bytes of the disk. The cache stays coherent if the cached sector is not among
the sectors that are overwritten as a whole, or if the end is not a sector boundary. -/
theorem ata_write_exact (a : Ata) (hb : NoBad a) (hco : Coherent a) (start size : Nat) (buf : Mem)
    (hr : start + size ≤ 8589934592) (hsz : size < 131072) :
    (ataWrite a start size buf).disk = put a.disk start size buf ∧
    (CacheApart a start size ∨ (start + size) % 512 > 0 → Coherent (ataWrite a start size buf)) := by
  unfold ataWrite
  by_cases hs0 : size = 0
  · rw [if_pos hs0, hs0]
    exact ⟨(put_zero _ _ _).symm, fun _ => hco⟩
  rw [if_neg hs0]
  obtain ⟨a1, n, hh, hd1, hbad1, hco1, hn, hal, hc1⟩ := writeHead_spec a hb hco start size buf (by omega)
  have hb1 : NoBad a1 := by intro s; rw [hbad1]; exact hb s
  rw [hh]
  dsimp only
  have hsd : headEnd start % 512 = 0 := by unfold headEnd; omega
  generalize headEnd start = s at *
  obtain ⟨a2, k, hbk, hkd, hd2, hbad2, hcd2, hco2⟩ := writeBulk_spec a1 hb1 hco1 s (size - n) buf n (by omega) (by omega)
  have hb2 : NoBad a2 := by intro x; rw [hbad2]; exact hb1 x
  rw [hbk]
  dsimp only
  have hk : k ≤ size - n := by omega
  have hk3 : size - n - k < 512 := by omega
  have hk4 : s % 512 = 0 → (s + k) % 512 = 0 := by omega
  rw [← hkd] at hc1
  have hd2' : a2.disk = put a.disk start (n + k) buf := by
    by_cases hz : n = size
    · have : k = 0 := by omega
      rw [hd2, this, put_zero, hd1, Nat.add_zero]
    · have : s = start + n := by omega
      rw [hd2, hd1, this, put_put]
  unfold writeTail
  by_cases ht : size - n - k > 0
  · rw [if_pos ht]
    dsimp only
    have hs' : s = start + n := by omega
    have hal3 : (s + k) / 512 * 512 = s + k := by have := hk4 hsd; omega
    have hat : CoAt a2 ((s + k) / 512) := by
      intro e i hi
      refine hco2 (Or.inr ?_) (by omega) i hi |>.trans (by rw [e])
      omega
    obtain ⟨h1, h2, h3, h4⟩ := rmw_spec hb2 hat (by omega) (o := 0) (len := size - n - k) (by omega)
      (fun i => buf (n + k + i)) (fun i => if i < size - n - k then buf (n + k + i) else (cachePull a2 ((s + k) / 512)).cache i)
      _ (fun i => by by_cases h : i < size - n - k <;> simp [h]) rfl
    refine ⟨?_, fun _ => h4⟩
    rw [h1, hd2', hal3, hs', Nat.add_zero, Nat.add_assoc, put_put,
      show n + k + (size - n - k) = size by omega]
  · rw [if_neg ht]
    have : n + k = size := by omega
    refine ⟨by rw [hd2', this], ?_⟩
    rintro (h | h)
    · refine hco2 ?_
      by_cases hz : n = size
      · omega
      · have hs' : s = start + n := by omega
        rw [hs']; exact hc1 h
    · by_cases hz : n = size
      · exact hco2 (by omega)
      · exfalso
        have := hk4 hsd
        omega

theorem writeSectors_bad (a : Ata) (s n : Nat) (b : Mem) (o : Nat) : (writeSectors a s n b o).bad = a.bad := by
  unfold writeSectors; split <;> rfl

theorem cachePull_bad (a : Ata) (s : Nat) : (cachePull a s).bad = a.bad := by
  unfold cachePull; split <;> rfl

theorem cacheCommit_bad (a : Ata) : (cacheCommit a).bad = a.bad := by
  unfold cacheCommit; split
  · rfl
  · exact writeSectors_bad _ _ _ _ _

theorem ataWrite_bad (a : Ata) (s n : Nat) (b : Mem) : (ataWrite a s n b).bad = a.bad := by
  have h1 : (writeHead a s n b).1.bad = a.bad := by
    unfold writeHead; split
    · exact (cacheCommit_bad _).trans (cachePull_bad _ _)
    · rfl
  have h2 : ∀ (a : Ata) s n o, (writeBulk a s n b o).1.bad = a.bad := by
    intro a s n o; unfold writeBulk; split
    · exact writeSectors_bad _ _ _ _ _
    · rfl
  have h3 : ∀ (a : Ata) s n o, (writeTail a s n b o).bad = a.bad := by
    intro a s n o; unfold writeTail; split
    · exact (cacheCommit_bad _).trans (cachePull_bad _ _)
    · rfl
  unfold ataWrite
  split
  · rfl
  · generalize writeHead a s n b = r at h1
    obtain ⟨a1, k⟩ := r
    dsimp only at h1 ⊢
    have h4 := h2 a1 (headEnd s) (n - k) k
    generalize writeBulk a1 (headEnd s) (n - k) b k = r at h4
    obtain ⟨a2, j⟩ := r
    dsimp only at h4 ⊢
    rw [h3, h4, h1]

end Verif
