import Verif.Gpt
import Verif.Swap

/-!
# Boot from disk

`/repo/src/update_disk.c`: the image is loaded from one of two disk partitions to RAM, verified and started. Reads of
the disk are the parameter `Reader`; `gptReader` is the one given by `Verif.Gpt`. Not modelled: initialisation of
the SATA controller and unlocking of the disk (95-104, 221), and the header of ELF images.
-/

namespace Verif

/-- `disk_read(BOOT_DISK, part, off, sz, buf)` for the partitions A (`false`) and B (`true`): number of bytes and
contents, or `none` for -1. -/
abbrev Reader := Bool → Nat → Nat → Option (Nat × Mem)

/-- Constants of `wolfBoot_start`, `/repo/src/update_disk.c:80-139`: size of the header, load address (after the
bootloader) and end of the usable memory (`stage2_params->tolum`). -/
structure DiskCfg where
  h : Nat
  load : Nat
  tolum : Nat

/-- Result of loading an image. `over`: bytes were written at or above `tolum`. -/
inductive Load where
  | done (ram : Mem)
  | err (ram : Mem)
  | over
  | stuck

/-- The loop at `/repo/src/update_disk.c:174-180`; RAM is addressed relative to the load address, offsets are
`uint32_t`. -/
def loadLoop (c : DiskCfg) (rd : Reader) (s : Bool) (size : Nat) : Nat → Nat → Mem → Load
  | 0, _, _ => .stuck
  | fuel + 1, off, ram =>
    match rd s off 512 with
    | none => .err ram
    | some (n, d) =>
      if n > 0 ∧ c.load + off + n > c.tolum then .over
      else
        let ram' : Mem := fun i => if off ≤ i ∧ i < off + n then d (i - off) else ram i
        if (off + n) % 4294967296 < (size + c.h) % 4294967296 then
          loadLoop c rd s size fuel ((off + n) % 4294967296) ram'
        else .done ram'

/-- What one attempt of the loop at `/repo/src/update_disk.c:141-215` leads to: next attempt, `break` without
success, boot. -/
inductive Attempt where
  | retry (ram : Mem)
  | giveUp
  | boot (ram : Mem)
  | over
  | stuck

/-- The image at the load address can be opened (`/repo/src/image.c:1144-1184`, without fixed partitions) and
verified. -/
def imageOK (e : Env) (ram : Mem) : Prop := le32 ram 0 = MAGIC ∧ e.integ ram = true ∧ e.auth ram = true

instance (e ram) : Decidable (imageOK e ram) := inferInstanceAs (Decidable (_ ∧ _))

/-- `/repo/src/update_disk.c:189-214`. -/
def checkLoaded (e : Env) : Load → Attempt
  | .err ram => .retry ram
  | .over => .over
  | .stuck => .stuck
  | .done ram => if imageOK e ram then .boot ram else .retry ram

/-- `/repo/src/update_disk.c:142-214`. -/
def attempt (c : DiskCfg) (e : Env) (rd : Reader) (fuel : Nat) (s : Bool) (ram : Mem) : Attempt :=
  match rd s 0 c.h with
  | none => .retry ram
  | some (n, hdr) =>
    if n ≠ c.h then .retry ram
    -- 162-166: unsigned 32-bit difference
    else if le32 hdr 4 > (c.tolum + 4294967296 - c.load) % 4294967296 then .giveUp
    else checkLoaded e (loadLoop c rd s (le32 hdr 4) fuel 0 ram)

/-- Outcome of `wolfBoot_start`. -/
inductive DiskRun where
  | boots (s : Bool) (ram : Mem)
  | panic
  | over
  | stuck

/-- The loop at `/repo/src/update_disk.c:141-219`; the first argument is `MAX_FAILURES - failures`. -/
def diskLoop (c : DiskCfg) (e : Env) (rd : Reader) (fuel : Nat) : Nat → Bool → Mem → DiskRun
  | 0, _, _ => .panic
  | n + 1, s, ram =>
    match attempt c e rd fuel s ram with
    | .retry ram' => diskLoop c e rd fuel n (!s) ram'
    | .giveUp => .panic
    | .boot ram' => .boots s ram'
    | .over => .over
    | .stuck => .stuck

/-- Value of a `uint32_t` assigned to an `int`. -/
def toInt32 (x : Nat) : Int := if x < 2147483648 then x else (x : Int) - 4294967296

/-- `pA_ver`, `pB_ver`, `/repo/src/update_disk.c:113-123`. -/
def diskVer (c : DiskCfg) (e : Env) (rd : Reader) (s : Bool) : Int :=
  match rd s 0 c.h with
  | none => 0
  | some (n, hdr) => if n = c.h then toInt32 (e.ver hdr) else 0

/-- `selected`, `/repo/src/update_disk.c:132-135`. -/
def diskFirst (c : DiskCfg) (e : Env) (rd : Reader) : Bool :=
  decide (diskVer c e rd true > diskVer c e rd false)

/-- `wolfBoot_start`, `/repo/src/update_disk.c:106-229`, after `disk_open`. -/
def diskStart (c : DiskCfg) (e : Env) (rd : Reader) (fuel : Nat) (ram : Mem) : DiskRun :=
  if diskVer c e rd true = 0 ∧ diskVer c e rd false = 0 then .panic
  else diskLoop c e rd fuel 4 (diskFirst c e rd) ram

/-! ## The reader given by the partition table -/

/-- Bytes of the disk. -/
def bytesAt (disk : Mem) : Option (Nat × Nat) → Option (Nat × Mem)
  | none => none
  | some (st, l) => some (l, fun i => disk (st + i))

/-- Reads of the two partitions `p` of a disk. -/
def gptReader (disk : Mem) (p : Bool → GPart) : Reader := fun s off sz => bytesAt disk (access (p s) off sz)

/-- `r` is what is left in `buf` by a read with result `x`. -/
def ReadInto (buf : Mem) : Option (Nat × Mem) → Option (Nat × Mem) → Prop
  | none, none => True
  | some (n, m), some (n', buf') => n' = n ∧ (∀ i, i < n → buf' i = m i) ∧ ∀ i, n ≤ i → buf' i = buf i
  | _, _ => False

/-- **`disk_read` is `gptReader`** for reads of at most 4 MiB inside the disk. -/
theorem diskRead_gptReader (a : Ata) (hb : NoBad a) (hco : Coherent a) (d : Drive) (hd : DriveOK d)
    (ho : d.isOpen = true) (drv part : Int) (hdrv : 0 ≤ drv ∧ drv < 4) (hp : 0 ≤ part ∧ part < d.nParts)
    (off sz : Nat) (buf : Mem) (p : Bool → GPart) (s : Bool) (hps : p s = d.part part.toNat)
    (hin : ∀ st l, access (p s) off sz = some (st, l) → st + l ≤ 144115188075855872 ∧ l ≤ 4194304) :
    ∃ a' r, diskRead a d drv part off sz buf = .ok (a', r) ∧ a'.disk = a.disk ∧ NoBad a' ∧ Coherent a' ∧
      ReadInto buf (gptReader a.disk p s off sz) r := by
  have h1 := openPart_some d hd ho drv part hdrv hp
  unfold gptReader
  rw [hps] at hin ⊢
  generalize hx : access (d.part part.toNat) off sz = x at hin ⊢
  cases x with
  | none =>
    refine ⟨a, none, ?_, rfl, hb, hco, True.intro⟩
    unfold diskRead
    rw [h1]
    dsimp only
    rw [hx]
    rfl
  | some x =>
    obtain ⟨st, l⟩ := x
    obtain ⟨q1, q2⟩ := hin st l rfl
    obtain ⟨h2, h3, h4, h5, h6⟩ := ata_read_exact a hb hco st l buf q1 q2
    exact ⟨_, _, diskRead_eq h1 hx, h4, fun s => by rw [h5]; exact hb s, h6, rfl, h2, h3⟩

/-! ## Properties -/

theorem attempt_boot {c : DiskCfg} {e : Env} {rd : Reader} {fuel : Nat} {s : Bool} {ram ram' : Mem}
    (h : attempt c e rd fuel s ram = .boot ram') : imageOK e ram' := by
  unfold attempt at h
  generalize rd s 0 c.h = r at h
  cases r with
  | none => cases h
  | some x =>
    obtain ⟨n, hdr⟩ := x
    dsimp only at h
    by_cases h1 : n ≠ c.h
    · rw [if_pos h1] at h; cases h
    rw [if_neg h1] at h
    by_cases h2 : le32 hdr 4 > (c.tolum + 4294967296 - c.load) % 4294967296
    · rw [if_pos h2] at h; cases h
    rw [if_neg h2] at h
    generalize loadLoop c rd s (le32 hdr 4) fuel 0 ram = l at h
    cases l with
    | err _ => cases h
    | over => cases h
    | stuck => cases h
    | done r =>
      unfold checkLoaded at h
      dsimp only at h
      by_cases h3 : imageOK e r
      · rw [if_pos h3] at h; injection h with h; subst h; exact h3
      · rw [if_neg h3] at h; cases h

theorem diskLoop_authentic (c : DiskCfg) (e : Env) (rd : Reader) (fuel : Nat) (n : Nat) : ∀ (s : Bool) (ram : Mem) (s' : Bool)
    (ram' : Mem), diskLoop c e rd fuel n s ram = .boots s' ram' → imageOK e ram' := by
  induction n with
  | zero => intro s ram s' ram' h; cases h
  | succ n ih =>
    intro s ram s' ram' h
    unfold diskLoop at h
    generalize ha : attempt c e rd fuel s ram = x at h
    cases x with
    | retry r => exact ih _ _ _ _ h
    | giveUp => cases h
    | boot r => injection h with h1 h2; subst h2; exact attempt_boot ha
    | over => cases h
    | stuck => cases h

/-- **Only authentic code is started**: whatever is on the disk, what is executed passed all the checks, as it is in
RAM. -/
theorem disk_boot_authentic (c : DiskCfg) (e : Env) (rd : Reader) (fuel : Nat) (ram ram' : Mem) (s : Bool)
    (h : diskStart c e rd fuel ram = .boots s ram') :
    le32 ram' 0 = MAGIC ∧ e.integ ram' = true ∧ e.auth ram' = true := by
  unfold diskStart at h
  split at h
  · cases h
  · exact diskLoop_authentic c e rd fuel 4 _ _ _ _ h

/-- Every read makes progress, or fails. -/
def Progress (rd : Reader) : Prop := ∀ s off n d, rd s off 512 = some (n, d) → 0 < n ∧ n ≤ 512

/-- Sizes for which offsets do not wrap. -/
def SizeOK (c : DiskCfg) (size : Nat) : Prop := size + c.h + 512 ≤ 4294967296

theorem loadLoop_ends (c : DiskCfg) (rd : Reader) (hp : Progress rd) (s : Bool) (size : Nat) (hs : SizeOK c size)
    (fuel : Nat) : ∀ (off : Nat) (ram : Mem), off < size + c.h ∨ off = 0 → size + c.h < off + fuel →
    loadLoop c rd s size fuel off ram ≠ .stuck := by
  unfold SizeOK at hs
  induction fuel with
  | zero => intro off ram h1 h2; omega
  | succ fuel ih =>
    intro off ram h1 h2
    unfold loadLoop
    generalize hr : rd s off 512 = r
    cases r with
    | none => intro h; cases h
    | some x =>
      obtain ⟨n, d⟩ := x
      dsimp only
      obtain ⟨hn0, hn⟩ := hp s off n d hr
      split
      · intro h; cases h
      · have e1 : (off + n) % 4294967296 = off + n ∨ off + n = 4294967296 := by omega
        have e2 : (size + c.h) % 4294967296 = size + c.h := Nat.mod_eq_of_lt (by omega)
        rw [e2]
        split
        · next hlt =>
          refine ih _ _ (.inl hlt) ?_
          rcases e1 with e1 | e1
          · rw [e1]; omega
          · omega
        · intro h; cases h

theorem attempt_ends (c : DiskCfg) (e : Env) (rd : Reader) (hp : Progress rd) (hs : c.load ≤ c.tolum)
    (ht : c.tolum + c.h + 512 ≤ 4294967296) (fuel : Nat) (hf : c.tolum + c.h < fuel) (s : Bool) (ram : Mem) :
    attempt c e rd fuel s ram ≠ .stuck := by
  unfold attempt
  generalize rd s 0 c.h = r
  cases r with
  | none => intro h; cases h
  | some x =>
    obtain ⟨n, hdr⟩ := x
    dsimp only
    by_cases h1 : n ≠ c.h
    · rw [if_pos h1]; intro h; cases h
    rw [if_neg h1]
    by_cases h2 : le32 hdr 4 > (c.tolum + 4294967296 - c.load) % 4294967296
    · rw [if_pos h2]; intro h; cases h
    rw [if_neg h2]
    have : le32 hdr 4 ≤ c.tolum := by omega
    have hne := loadLoop_ends c rd hp s (le32 hdr 4) (by unfold SizeOK; omega) fuel 0 ram (.inr rfl) (by omega)
    generalize loadLoop c rd s (le32 hdr 4) fuel 0 ram = l at hne
    cases l with
    | err _ => intro h; cases h
    | over => intro h; cases h
    | stuck => exact absurd rfl hne
    | done r =>
      unfold checkLoaded
      dsimp only
      split <;> (intro h; cases h)

/-- **Disk boot decides**: if every read of the disk makes progress or fails, the loader ends (with at most four
attempts). -/
theorem disk_decides_partial (c : DiskCfg) (e : Env) (rd : Reader) (hp : Progress rd) (hs : c.load ≤ c.tolum)
    (ht : c.tolum + c.h + 512 ≤ 4294967296) (fuel : Nat) (hf : c.tolum + c.h < fuel) (ram : Mem) :
    diskStart c e rd fuel ram ≠ .stuck := by
  have key : ∀ n s ram, diskLoop c e rd fuel n s ram ≠ .stuck := by
    intro n
    induction n with
    | zero => intro s ram h; cases h
    | succ n ih =>
      intro s ram
      unfold diskLoop
      have := attempt_ends c e rd hp hs ht fuel hf s ram
      generalize attempt c e rd fuel s ram = x at this
      cases x with
      | retry r => exact ih _ _
      | giveUp => intro h; cases h
      | boot r => intro h; cases h
      | over => intro h; cases h
      | stuck => exact absurd rfl this
  unfold diskStart
  split
  · intro h; cases h
  · exact key _ _ _

/-- The image announced by partition `s` (or its header cannot be read) leaves room for the header and one read. -/
def Fits (c : DiskCfg) (rd : Reader) (s : Bool) : Prop :=
  ∀ hdr, rd s 0 c.h = some (c.h, hdr) → c.load + le32 hdr 4 + c.h + 511 ≤ c.tolum

theorem loadLoop_window (c : DiskCfg) (rd : Reader) (hp : Progress rd) (ht : c.tolum + 512 ≤ 4294967296) (s : Bool)
    (size : Nat) (hs : c.load + size + c.h + 511 ≤ c.tolum) (fuel : Nat) :
    ∀ (off : Nat) (ram : Mem), off < size + c.h → loadLoop c rd s size fuel off ram ≠ .over := by
  induction fuel with
  | zero => intro off ram _ h; cases h
  | succ fuel ih =>
    intro off ram h1
    unfold loadLoop
    generalize hr : rd s off 512 = r
    cases r with
    | none => intro h; cases h
    | some x =>
      obtain ⟨n, d⟩ := x
      dsimp only
      obtain ⟨hn0, hn⟩ := hp s off n d hr
      rw [if_neg (by omega)]
      have e1 : (off + n) % 4294967296 = off + n := Nat.mod_eq_of_lt (by omega)
      have e2 : (size + c.h) % 4294967296 = size + c.h := Nat.mod_eq_of_lt (by omega)
      rw [e1, e2]
      split
      · next hlt => exact ih _ _ hlt
      · intro h; cases h

/-- **RAM window**: if the images leave room for the header and one more read, nothing is written outside of the
window. -/
theorem disk_window_partial (c : DiskCfg) (e : Env) (rd : Reader) (hp : Progress rd) (ht : c.tolum + 512 ≤ 4294967296)
    (h0 : 0 < c.h) (hfit : ∀ s, Fits c rd s) (fuel : Nat) (ram : Mem) : diskStart c e rd fuel ram ≠ .over := by
  have key : ∀ n s ram, diskLoop c e rd fuel n s ram ≠ .over := by
    intro n
    induction n with
    | zero => intro s ram h; cases h
    | succ n ih =>
      intro s ram
      unfold diskLoop
      have : attempt c e rd fuel s ram ≠ .over := by
        unfold attempt
        have hf := hfit s
        unfold Fits at hf
        generalize rd s 0 c.h = r at hf
        cases r with
        | none => intro h; cases h
        | some x =>
          obtain ⟨n, hdr⟩ := x
          dsimp only
          by_cases h1 : n ≠ c.h
          · rw [if_pos h1]; intro h; cases h
          have h1' : n = c.h := by omega
          rw [if_neg h1]
          by_cases h2 : le32 hdr 4 > (c.tolum + 4294967296 - c.load) % 4294967296
          · rw [if_pos h2]; intro h; cases h
          rw [if_neg h2]
          have hne := loadLoop_window c rd hp ht s (le32 hdr 4) (hf hdr (by rw [h1'])) fuel 0 ram (by omega)
          generalize loadLoop c rd s (le32 hdr 4) fuel 0 ram = l at hne
          cases l with
          | err _ => intro h; cases h
          | over => exact absurd rfl hne
          | stuck => intro h; cases h
          | done r =>
            unfold checkLoaded
            dsimp only
            split <;> (intro h; cases h)
      generalize attempt c e rd fuel s ram = x at this
      cases x with
      | retry r => exact ih _ _
      | giveUp => intro h; cases h
      | boot r => intro h; cases h
      | over => exact absurd rfl this
      | stuck => intro h; cases h
  unfold diskStart
  split
  · intro h; cases h
  · exact key _ _ _

/-! ## Choice of the partition -/

/-- Partition `s` holds the image `img`, that is, reads of the partition return its bytes, and `img` is acceptable
whatever follows it in RAM. -/
structure GoodDisk (c : DiskCfg) (e : Env) (rd : Reader) (s : Bool) (img : Mem) : Prop where
  hdr : ∃ d, rd s 0 c.h = some (c.h, d) ∧ ∀ i, i < c.h → d i = img i
  data : ∀ off, off < le32 img 4 + c.h → ∃ n d, rd s off 512 = some (n, d) ∧ 0 < n ∧ n ≤ 512 ∧ ∀ i, i < n → d i = img (off + i)
  ok : ∀ m, (∀ i, i < le32 img 4 + c.h → m i = img i) → imageOK e m
  fits : c.load + le32 img 4 + c.h + 511 ≤ c.tolum
  h8 : 8 ≤ c.h

theorem loadLoop_good (c : DiskCfg) (e : Env) (rd : Reader) (s : Bool) (img : Mem) (hg : GoodDisk c e rd s img)
    (ht : c.tolum + 512 ≤ 4294967296) (fuel : Nat) : ∀ (off : Nat) (ram : Mem), off < le32 img 4 + c.h →
    (∀ i, i < off → ram i = img i) → le32 img 4 + c.h ≤ off + fuel →
    ∃ ram', loadLoop c rd s (le32 img 4) fuel off ram = .done ram' ∧ ∀ i, i < le32 img 4 + c.h → ram' i = img i := by
  have hfit := hg.fits
  induction fuel with
  | zero => intro off ram h1 h2 h3; omega
  | succ fuel ih =>
    intro off ram h1 h2 h3
    obtain ⟨n, d, hr, hn0, hn, hd⟩ := hg.data off h1
    unfold loadLoop
    rw [hr]
    dsimp only
    rw [if_neg (by omega)]
    have e1 : (off + n) % 4294967296 = off + n := Nat.mod_eq_of_lt (by omega)
    have e2 : (le32 img 4 + c.h) % 4294967296 = le32 img 4 + c.h := Nat.mod_eq_of_lt (by omega)
    rw [e1, e2]
    have hram : ∀ i, i < off + n → (if off ≤ i ∧ i < off + n then d (i - off) else ram i) = img i := by
      intro i hi
      by_cases hoi : off ≤ i
      · rw [if_pos ⟨hoi, hi⟩, hd _ (by omega), show off + (i - off) = i by omega]
      · rw [if_neg (by omega), h2 i (by omega)]
    by_cases hlt : off + n < le32 img 4 + c.h
    · rw [if_pos hlt]
      exact ih _ _ hlt hram (by omega)
    · rw [if_neg hlt]
      exact ⟨_, rfl, fun i hi => hram i (by omega)⟩

theorem attempt_good (c : DiskCfg) (e : Env) (rd : Reader) (s : Bool) (img : Mem) (hg : GoodDisk c e rd s img)
    (ht : c.tolum + 512 ≤ 4294967296) (fuel : Nat) (hf : c.tolum ≤ fuel) (ram : Mem) :
    ∃ ram', attempt c e rd fuel s ram = .boot ram' ∧ ∀ i, i < le32 img 4 + c.h → ram' i = img i := by
  have hfit := hg.fits
  have h8 := hg.h8
  obtain ⟨d, hd, hdi⟩ := hg.hdr
  have hsz : le32 d 4 = le32 img 4 := le32_congr (fun i _ _ => hdi i (by omega))
  obtain ⟨ram', hl, hm⟩ := loadLoop_good c e rd s img hg ht fuel 0 ram (by omega) (fun i hi => by omega) (by omega)
  unfold attempt
  rw [hd]
  dsimp only
  rw [if_neg (by simp), hsz, if_neg (by omega), hl]
  unfold checkLoaded
  dsimp only
  rw [if_pos (hg.ok ram' hm)]
  exact ⟨ram', rfl, hm⟩

/-- **The highest version first**: if both versions are below `2^31`, an acceptable image with the higher version (or
equal, for A) and a version other than 0 is booted, whatever is in the other partition. -/
theorem disk_highest_first (c : DiskCfg) (e : Env) (rd : Reader) (s : Bool) (img : Mem) (hg : GoodDisk c e rd s img)
    (ht : c.tolum + 512 ≤ 4294967296) (fuel : Nat) (hf : c.tolum ≤ fuel) (ram : Mem)
    (v : Bool → Nat) (hv : ∀ s, v s < 2147483648 ∧
      ((∃ d, rd s 0 c.h = some (c.h, d) ∧ e.ver d = v s) ∨ ((∀ d, rd s 0 c.h ≠ some (c.h, d)) ∧ v s = 0)))
    (h0 : 0 < v s) (hhi : if s = true then v (!s) < v s else v (!s) ≤ v s) :
    ∃ ram', diskStart c e rd fuel ram = .boots s ram' ∧ ∀ i, i < le32 img 4 + c.h → ram' i = img i := by
  have hver : ∀ s, diskVer c e rd s = (v s : Int) := by
    intro s
    obtain ⟨h1, h2⟩ := hv s
    unfold diskVer
    rcases h2 with ⟨d, h2, h3⟩ | ⟨h2, h3⟩
    · rw [h2]
      dsimp only
      rw [if_pos rfl, h3]
      unfold toInt32
      rw [if_pos h1]
    · rw [h3]
      generalize rd s 0 c.h = r at h2
      cases r with
      | none => rfl
      | some x =>
        obtain ⟨n, d⟩ := x
        dsimp only
        rw [if_neg]
        · rfl
        · intro hn
          exact h2 d (by rw [hn])
  have hfirst : diskFirst c e rd = s := by
    unfold diskFirst
    rw [hver, hver]
    cases s
    · simp only [Bool.not_false] at hhi
      simp at hhi
      exact decide_eq_false (by omega)
    · simp at hhi
      exact decide_eq_true (by omega)
  obtain ⟨ram', ha, hm⟩ := attempt_good c e rd s img hg ht fuel hf ram
  refine ⟨ram', ?_, hm⟩
  unfold diskStart
  rw [if_neg, hfirst]
  · unfold diskLoop
    rw [ha]
  · rw [hver, hver]
    cases s <;> omega

/-- **The other partition is used** if the first choice fails, provided that the announced size of the first image fits in
memory and reading it ends. -/
theorem disk_fallback_partial (c : DiskCfg) (e : Env) (rd : Reader) (s : Bool) (img : Mem) (hg : GoodDisk c e rd s img)
    (ht : c.tolum + 512 ≤ 4294967296) (fuel : Nat) (hf : c.tolum ≤ fuel) (ram r : Mem)
    (hv : diskVer c e rd true ≠ 0 ∨ diskVer c e rd false ≠ 0)
    (hfst : diskFirst c e rd = !s) (hbad : attempt c e rd fuel (!s) ram = .retry r) :
    ∃ ram', diskStart c e rd fuel ram = .boots s ram' ∧ ∀ i, i < le32 img 4 + c.h → ram' i = img i := by
  obtain ⟨ram', ha, hm⟩ := attempt_good c e rd s img hg ht fuel hf r
  refine ⟨ram', ?_, hm⟩
  unfold diskStart
  rw [if_neg (by omega), hfst]
  unfold diskLoop
  rw [hbad]
  dsimp only
  unfold diskLoop
  rw [Bool.not_not, ha]

/-! ## Findings -/

/-- **No fallback for large images**: if the first choice announces a size above the memory window (the size is not
authenticated at this point), the boot ends in `panic`, although the other image is good. -/
theorem disk_oversize_blocks_fallback (c : DiskCfg) (e : Env) (rd : Reader) (hdr : Mem)
    (hr : rd (diskFirst c e rd) 0 c.h = some (c.h, hdr))
    (hbig : le32 hdr 4 > (c.tolum + 4294967296 - c.load) % 4294967296) (fuel : Nat) (ram : Mem) :
    diskStart c e rd fuel ram = .panic := by
  unfold diskStart
  split
  · rfl
  · unfold diskLoop attempt
    rw [hr]
    dsimp only
    rw [if_neg (by simp), if_pos hbig]

/-- Reads at the end of the partition return 0 bytes. -/
theorem loadLoop_stuck (c : DiskCfg) (rd : Reader) (s : Bool) (size off : Nat) (d : Mem) (hlt : off < 4294967296)
    (h : rd s off 512 = some (0, d)) (hs : off < (size + c.h) % 4294967296) (fuel : Nat) :
    ∀ ram, loadLoop c rd s size fuel off ram = .stuck := by
  induction fuel with
  | zero => intro ram; rfl
  | succ fuel ih =>
    intro ram
    unfold loadLoop
    rw [h]
    dsimp only
    rw [if_neg (by omega), Nat.add_zero, Nat.mod_eq_of_lt hlt, if_pos hs]
    exact ih _

theorem gptReader_eq {disk : Mem} {p : Bool → GPart} {s : Bool} {off sz st l : Nat}
    (h : access (p s) off sz = some (st, l)) : gptReader disk p s off sz = some (l, fun i => disk (st + i)) := by
  unfold gptReader
  rw [h]
  rfl

theorem load_hangs (c : DiskCfg) (rd : Reader) (s : Bool) (size lim : Nat)
    (hrd : ∀ off, off < lim → ∃ n d, rd s off 512 = some (n, d) ∧ off + n < lim) (hsz : size + c.h < 4294967296)
    (hbig : lim ≤ size + c.h) (hwin : c.load + lim ≤ c.tolum) (fuel : Nat) :
    ∀ (off : Nat) (ram : Mem), off < lim → loadLoop c rd s size fuel off ram = .stuck := by
  induction fuel with
  | zero => intro off ram _; rfl
  | succ fuel ih =>
    intro off ram ho
    obtain ⟨n, d, hr, hl⟩ := hrd off ho
    unfold loadLoop
    rw [hr]
    dsimp only
    rw [if_neg (by omega), Nat.mod_eq_of_lt (show off + n < 4294967296 by omega),
      Nat.mod_eq_of_lt hsz, if_pos (by omega)]
    exact ih _ _ hl

theorem start_hangs (c : DiskCfg) (e : Env) (rd : Reader) (lim : Nat) (hdr : Mem)
    (hv : diskVer c e rd true ≠ 0 ∨ diskVer c e rd false ≠ 0)
    (hrd : ∀ off, off < lim → ∃ n d, rd (diskFirst c e rd) off 512 = some (n, d) ∧ off + n < lim) (h0 : 0 < lim)
    (hr : rd (diskFirst c e rd) 0 c.h = some (c.h, hdr))
    (hfit : le32 hdr 4 ≤ c.tolum - c.load) (hl : c.load ≤ c.tolum) (ht : c.tolum + c.h < 4294967296)
    (hsz : lim ≤ le32 hdr 4 + c.h) (hwin : c.load + lim ≤ c.tolum) (fuel : Nat) (ram : Mem) :
    diskStart c e rd fuel ram = .stuck := by
  unfold diskStart
  rw [if_neg (by omega)]
  generalize diskFirst c e rd = s at hrd hr
  unfold diskLoop attempt
  rw [hr]
  dsimp only
  rw [if_neg (by simp), if_neg (by omega),
    load_hangs c rd s (le32 hdr 4) lim hrd (by omega) hsz hwin fuel 0 ram h0]
  rfl

/-- Reads of a partition never reach its last sector. -/
theorem gpt_never_reaches_end (disk : Mem) (p : Bool → GPart) (s : Bool) (first last : Nat)
    (h : IsPart (p s) first last) (g : GeomOK first last) (off : Nat) (ho : off < 512 * (last - first)) :
    ∃ n d, gptReader disk p s off 512 = some (n, d) ∧ off + n < 512 * (last - first) := by
  refine ⟨_, _, gptReader_eq (gpt_access_min (p s) first last off 512 h g ho (by omega)), ?_⟩
  have := g.1
  omega

/-- **Boot hangs for images that reach into the last sector of their partition**: the loader asks for the rest of the
image forever. The size is not authenticated at this point. -/
theorem disk_boot_hangs (c : DiskCfg) (e : Env) (disk : Mem) (p : Bool → GPart) (first last : Nat) (hdr : Mem)
    (rd : Reader) (hrd : rd = gptReader disk p)
    (hv : diskVer c e rd true ≠ 0 ∨ diskVer c e rd false ≠ 0)
    (h : IsPart (p (diskFirst c e rd)) first last) (g : GeomOK first last) (hlt : first < last)
    (hr : rd (diskFirst c e rd) 0 c.h = some (c.h, hdr))
    (hfit : le32 hdr 4 ≤ c.tolum - c.load) (hl : c.load ≤ c.tolum) (ht : c.tolum + c.h < 4294967296)
    (hsz : 512 * (last - first) ≤ le32 hdr 4 + c.h)
    (hwin : c.load + 512 * (last - first) ≤ c.tolum) (fuel : Nat) (ram : Mem) :
    diskStart c e rd fuel ram = .stuck := by
  refine start_hangs c e rd (512 * (last - first)) hdr hv ?_ (by omega) hr hfit hl ht hsz hwin fuel ram
  intro off ho
  generalize diskFirst c e rd = s at h
  rw [hrd]
  exact gpt_never_reaches_end disk p s first last h g off ho

/-- **Overflow of the window**: the check at line 162 ignores the header. If the image announces the whole window (or less
by at most the size of the header), bytes after the end of the window are written before anything is verified. -/
theorem disk_boot_overflow (c : DiskCfg) (e : Env) (rd : Reader) (hdr : Mem)
    (hv : diskVer c e rd true ≠ 0 ∨ diskVer c e rd false ≠ 0)
    (hr : rd (diskFirst c e rd) 0 c.h = some (c.h, hdr)) (hl : c.load ≤ c.tolum) (ht : c.tolum + c.h < 4294967296)
    (hdata : ∀ off, ∃ d, rd (diskFirst c e rd) off 512 = some (512, d))
    (hfit : le32 hdr 4 ≤ c.tolum - c.load) (hbig : c.tolum - c.load < le32 hdr 4 + c.h) (fuel : Nat)
    (hf : c.tolum < fuel) (ram : Mem) : diskStart c e rd fuel ram = .over := by
  have key : ∀ (s : Bool) (size : Nat), (∀ off, ∃ d, rd s off 512 = some (512, d)) → size + c.h < 4294967296 →
      c.tolum - c.load < size + c.h → ∀ (fuel off : Nat) (ram : Mem), off ≤ c.tolum - c.load →
      c.tolum - c.load < off + fuel → loadLoop c rd s size fuel off ram = .over := by
    intro s size hd h1 h2 fuel
    induction fuel with
    | zero => intro off ram h3 h4; omega
    | succ fuel ih =>
      intro off ram h3 h4
      obtain ⟨d, hd'⟩ := hd off
      unfold loadLoop
      rw [hd']
      dsimp only
      by_cases ho : c.load + off + 512 > c.tolum
      · rw [if_pos ⟨by omega, ho⟩]
      · rw [if_neg (by omega), Nat.mod_eq_of_lt (show off + 512 < 4294967296 by omega), Nat.mod_eq_of_lt h1,
          if_pos (by omega)]
        exact ih _ _ (by omega) (by omega)
  unfold diskStart
  rw [if_neg (by omega)]
  generalize diskFirst c e rd = s at hdata hr
  unfold diskLoop attempt
  rw [hr]
  dsimp only
  rw [if_neg (by simp), if_neg (by omega), key s (le32 hdr 4) hdata (by omega) hbig fuel 0 ram (by omega) (by omega)]
  rfl

/-- **Versions from `2^31` on** are taken for negative numbers: the lower version is tried first. -/
theorem disk_version_sign (c : DiskCfg) (e : Env) (rd : Reader) (ha hb : Mem) (h1 : rd false 0 c.h = some (c.h, ha))
    (h2 : rd true 0 c.h = some (c.h, hb)) (hva : e.ver ha < 2147483648) (hvb : 2147483648 ≤ e.ver hb)
    (hvb' : e.ver hb < 4294967296) : diskFirst c e rd = false := by
  have e1 : diskVer c e rd false = (e.ver ha : Int) := by
    unfold diskVer
    rw [h1]
    dsimp only
    rw [if_pos rfl]
    unfold toInt32
    rw [if_pos hva]
  have e2 : diskVer c e rd true = (e.ver hb : Int) - 4294967296 := by
    unfold diskVer
    rw [h2]
    dsimp only
    rw [if_pos rfl]
    unfold toInt32
    rw [if_neg (by omega)]
  unfold diskFirst
  rw [e1, e2]
  exact decide_eq_false (by omega)

end Verif
