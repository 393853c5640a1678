import Verif.DiskBoot

/-!
# Disk boot: histories, examples and findings
-/

namespace Verif

/-! ## Sequences of disk operations -/

/-- A call of `ata_drive_read` or `ata_drive_write`. -/
inductive AtaOp where
  | read (start size : Nat) (buf : Mem)
  | write (start size : Nat) (buf : Mem)

/-- Effect of a call on the drive. -/
def AtaOp.run (a : Ata) : AtaOp → Ata
  | .read s n b => (ataRead a s n b).1
  | .write s n b => ataWrite a s n b

/-- What a call should do to the contents of the disk. -/
def AtaOp.spec (m : Mem) : AtaOp → Mem
  | .read _ _ _ => m
  | .write s n b => put m s n b

/-- Range in which the driver works. Writes must not both start and end at sector boundaries (see
`ata_stale_cache`). -/
def AtaOp.Good : AtaOp → Prop
  | .read s n _ => s + n ≤ 144115188075855872 ∧ n ≤ 4194304
  | .write s n _ => s + n ≤ 8589934592 ∧ n < 131072 ∧ (s % 512 > 0 ∨ (s + n) % 512 > 0)

theorem AtaOp.run_spec (a : Ata) (hb : NoBad a) (hco : Coherent a) (o : AtaOp) (ho : o.Good) :
    (o.run a).disk = o.spec a.disk ∧ NoBad (o.run a) ∧ Coherent (o.run a) := by
  cases o with
  | read s n b =>
    obtain ⟨_, _, h3, h4, h5⟩ := ata_read_exact a hb hco s n b ho.1 ho.2
    exact ⟨h3, fun x => by show (ataRead a s n b).1.bad x = false; rw [h4]; exact hb x, h5⟩
  | write s n b =>
    obtain ⟨h1, h2⟩ := ata_write_exact a hb hco s n b ho.1 ho.2.1
    refine ⟨h1, ?_, h2 ?_⟩
    · intro x
      show (ataWrite a s n b).bad x = false
      rw [ataWrite_bad]
      exact hb x
    · rcases ho.2.2 with h | h
      · exact .inl (.inl h)
      · exact .inr h

/-- **Any sequence of reads and writes**: the disk holds what was written, and every following read returns it. -/
theorem ata_history_partial (ops : List AtaOp) : ∀ (a : Ata), NoBad a → Coherent a → (∀ o ∈ ops, o.Good) →
    (ops.foldl AtaOp.run a).disk = ops.foldl AtaOp.spec a.disk ∧ NoBad (ops.foldl AtaOp.run a) ∧
    Coherent (ops.foldl AtaOp.run a) ∧
    ∀ start size buf, start + size ≤ 144115188075855872 → size ≤ 4194304 → ∀ i, i < size →
      (ataRead (ops.foldl AtaOp.run a) start size buf).2 i = ops.foldl AtaOp.spec a.disk (start + i) := by
  induction ops with
  | nil =>
    intro a hb hco _
    exact ⟨rfl, hb, hco, fun s n b h1 h2 => (ata_read_exact a hb hco s n b h1 h2).1⟩
  | cons o ops ih =>
    intro a hb hco hg
    obtain ⟨h1, h2, h3⟩ := o.run_spec a hb hco (hg o (by simp))
    have := ih (o.run a) h2 h3 (fun x hx => hg x (by simp [hx]))
    rw [h1] at this
    exact this

/-! ## Findings about the ATA driver -/

namespace DiskDemo

/-- A disk of zeros; sector 3 is in the cache. -/
def zero : Ata := ⟨fun _ => 0, fun _ => false, 3, fun _ => 0⟩

theorem zero_ok : NoBad zero ∧ Coherent zero := ⟨fun _ => rfl, fun _ _ _ => rfl⟩

end DiskDemo

open DiskDemo

/-- **Stale cache**: a sector written as a whole is not updated in the cache; a following read of a part of the sector
returns the old contents. -/
theorem ata_stale_cache : ∃ (a : Ata) (d buf : Mem), NoBad a ∧ Coherent a ∧
    (ataWrite a 1536 512 d).disk 1537 = 0xAB#8 ∧ (ataRead (ataWrite a 1536 512 d) 1537 1 buf).2 0 = 0#8 :=
  ⟨zero, fun _ => 0xAB#8, fun _ => 0x55#8, zero_ok.1, zero_ok.2, by decide +kernel, by decide +kernel⟩

/-- **Writes above 8 GiB go to the wrong place**: WRITE DMA transmits 24 bits of the sector number in the registers that
are set. -/
theorem ata_write_wraps : ∃ (a : Ata) (d : Mem), NoBad a ∧ Coherent a ∧
    (ataWrite a 8589934592 512 d).disk 0 = 0xAB#8 ∧ (ataWrite a 8589934592 512 d).disk 8589934592 = 0#8 :=
  ⟨zero, fun _ => 0xAB#8, zero_ok.1, zero_ok.2, by decide +kernel, by decide +kernel⟩

/-- **Errors of the drive are not reported**: the read of a bad sector returns the sector that was in the cache. -/
theorem ata_error_ignored : ∃ (a : Ata) (buf : Mem), a.bad 7 = true ∧ Coherent a ∧ a.disk 3585 = 0xCD#8 ∧
    (ataRead a 3585 1 buf).2 0 = 0#8 :=
  ⟨⟨fun x => if x = 3585 then 0xCD else 0, fun s => s == 7, 3, fun _ => 0⟩, fun _ => 0x55#8, rfl,
    fun _ i hi => by
      have : (3 * 512 + i) ≠ 3585 := by omega
      simp [this],
    by decide +kernel, by decide +kernel⟩

/-- **Long reads are cut**: of a read of 4 MiB and a sector only the first 512 bytes are transferred (`dbc` has 22
bits), but the full size is returned. -/
theorem ata_long_read : ∃ (a : Ata) (buf : Mem), NoBad a ∧ Coherent a ∧ a.disk 512 = 0#8 ∧
    (ataRead a 0 4194816 buf).2 512 = 0x55#8 :=
  ⟨zero, fun _ => 0x55#8, zero_ok.1, zero_ok.2, by decide +kernel, by decide +kernel⟩

/-! ## Examples -/

namespace DiskDemo

/-- A read over three sectors. -/
example : (∀ i, i < 1200 → (ataRead zero 100 1200 (fun _ => 1)).2 i = 0#8) :=
  (ata_read_exact zero zero_ok.1 zero_ok.2 100 1200 _ (by omega) (by omega)).1

/-- An unaligned write, then a write of a sector and a half, then a read. -/
example : Coherent ([AtaOp.write 100 700 (fun _ => 7), .write 1024 768 (fun _ => 9), .read 0 2048 (fun _ => 0)].foldl
    AtaOp.run zero) :=
  (ata_history_partial _ zero zero_ok.1 zero_ok.2 (by
    intro o ho
    simp at ho
    rcases ho with h | h | h <;> subst h <;> unfold AtaOp.Good <;> omega)).2.2.1

/-- A small GPT disk: header at sector 1, entries at sector 2; partitions 40-50 and 51-60. -/
def gpt : Mem := fun a =>
  if a = 0x1BE + 4 then 0xEE else if a = 0x1BE + 8 then 1
  else if a = 0x1FE then 0x55 else if a = 0x1FF then 0xAA
  else if 512 ≤ a ∧ a < 520 then BitVec.ofNat 8 (GPT_SIGNATURE / 256 ^ (a - 512))
  else if a = 512 + 72 then 2 else if a = 512 + 80 then 4 else if a = 512 + 84 then 128
  else if a = 1024 then 1 else if a = 1024 + 32 then 40 else if a = 1024 + 40 then 50
  else if a = 1024 + 56 then 65
  else if a = 1152 then 1 else if a = 1152 + 32 then 51 else if a = 1152 + 40 then 60
  else if a = 1152 + 56 then 66
  else 0

/-- The disk with this content. -/
def gptAta : Ata := ⟨gpt, fun _ => false, CACHE_INVALID, fun _ => 0x77⟩

theorem gptAta_ok : NoBad gptAta ∧ Coherent gptAta := by
  refine ⟨fun _ => rfl, fun h => ?_⟩
  exfalso
  revert h
  show ¬ (CACHE_INVALID < 281474976710656)
  decide +kernel

theorem gpt_disk : GptDisk gpt 0 1 2 4 where
  k4 := by omega
  typ := by decide +kernel
  before := fun j h => by omega
  lba_eq := by decide +kernel
  lba_lt := by omega
  sig := by decide +kernel
  gpt := by decide +kernel
  sa_eq := by decide +kernel
  sa_lt := by omega
  n_eq := by decide +kernel
  sz_eq := by decide +kernel

/-- The two partitions are found. -/
example : ∃ a' d', diskOpen gptAta (fun _ => 0x33) 0 ⟨false, 0, fun _ => ⟨0, 0, fun _ => 0⟩⟩ = .ok (a', d', some d'.nParts) ∧
    d'.nParts = 2 ∧ IsPart (d'.part 0) 40 50 ∧ IsPart (d'.part 1) 51 60 := by
  obtain ⟨a', d', h1, _, _, _, _, _, h7, h8⟩ := gpt_open_exact gptAta gptAta_ok.1 gptAta_ok.2 0 1 2 4 gpt_disk
    (fun _ => 0x33) 0 (by omega) (by omega) ⟨false, 0, fun _ => ⟨0, 0, fun _ => 0⟩⟩
  have hu : ∀ i, Used (entry gpt 2 i) ↔ (le64 (entry gpt 2 i) 0 ≠ 0 ∨ le64 (entry gpt 2 i) 8 ≠ 0) ∧
    le64 (entry gpt 2 i) 32 ≤ le64 (entry gpt 2 i) 40 := fun i => Iff.rfl
  have u0 : Used (entry gpt 2 0) := (hu 0).2 (by decide +kernel)
  have u1 : Used (entry gpt 2 1) := (hu 1).2 (by decide +kernel)
  have u2 : ¬ Used (entry gpt 2 2) := fun h => absurd ((hu 2).1 h) (by decide +kernel)
  have hn : d'.nParts = 2 := by
    obtain ⟨q1, q2, q3⟩ := h7
    rcases Nat.lt_trichotomy d'.nParts 2 with h | h | h
    · rcases q3 with q3 | q3
      · omega
      · exfalso
        have : d'.nParts = 0 ∨ d'.nParts = 1 := by omega
        rcases this with h | h
        · rw [h] at q3; exact q3 u0
        · rw [h] at q3; exact q3 u1
    · exact h
    · exact absurd (q2 2 h) u2
  refine ⟨a', d', h1, hn, ?_, ?_⟩
  · have := (h8 0 (by omega)).1
    rw [show le64 (entry gptAta.disk 2 0) 32 = 40 from by decide +kernel,
      show le64 (entry gptAta.disk 2 0) 40 = 50 from by decide +kernel] at this
    exact this
  · have := (h8 1 (by omega)).1
    rw [show le64 (entry gptAta.disk 2 1) 32 = 51 from by decide +kernel,
      show le64 (entry gptAta.disk 2 1) 40 = 60 from by decide +kernel] at this
    exact this

/-- Partition 40-50. -/
def p4050 : GPart := ⟨20480, 25599, fun _ => 0⟩

theorem p4050_ok : IsPart p4050 40 50 ∧ GeomOK 40 50 := by
  unfold IsPart GeomOK
  decide +kernel

/-- A read that would pass the end of the partition is cut. -/
example (s l : Nat) (h : access p4050 5000 512 = some (s, l)) : s = 25480 ∧ s + l ≤ 25599 := by
  have := gpt_confined_partial p4050 40 50 5000 512 p4050_ok.1 p4050_ok.2 (by omega) s l h
  omega

/-- A read after the end of the partition is not. -/
example : access p4050 5120 512 = some (25600, 512) :=
  gpt_escape p4050 40 50 5120 512 p4050_ok.1 p4050_ok.2 (by omega) (by rw [W64_eq]; omega) (by omega)

/-- An open drive with this partition. -/
def drive : Drive := ⟨true, 1, fun _ => p4050⟩

example : ∃ a' buf', diskRead gptAta drive 0 0 512 1024 (fun _ => 0) = .ok (a', some (1024, buf')) ∧
    ∀ i, i < 1024 → buf' i = gpt (20992 + i) := by
  obtain ⟨a', b', h1, _, _, _, h5, _⟩ := disk_read_exact gptAta gptAta_ok.1 gptAta_ok.2 drive
    (by show (1 : Nat) ≤ 16; omega) rfl 0 0 (by omega) (by show _ ∧ (0 : Int) < (1 : Nat); omega) 40 50 512 1024 p4050_ok.1 p4050_ok.2
    (by omega) (by omega) (by omega) (fun _ => 0)
  exact ⟨a', b', h1, h5⟩

/-- Name "A". -/
example : ∃ r, asciiEq (fun i => if i = 0 then 65 else 0) [65#8] = .ok r ∧ (r = true ↔ NameIs (fun i => if i = 0 then 65 else 0) [65#8]) :=
  ascii_eq_partial _ _ (by decide +kernel)

/-- A name of 36 characters with byte order mark. -/
example : asciiEq (fun i => if i = 0 then 0xFEFF else 65) (List.replicate 36 65#8) = .oob :=
  ascii_eq_oob _ _ (by simp) rfl (fun i hi => by
    have : (1 + i) ≠ 0 := by omega
    simp only [this, if_false, List.getElem_replicate]
    rfl)

/-- Checks of a toy image: header of 16 bytes, byte 8 is the sum of the first four bytes of the firmware, byte 9 is a
"signature", byte 12 the version. -/
def env : Env where
  typ := fun _ => 0
  ver := fun m => (m 12).toNat
  integ := fun m => m 8 == m 16 + m 17 + m 18 + m 19
  auth := fun m => m 9 == 0x5A
  authType := 0
  junk := 0

/-- An image with 20 bytes of firmware; `sig` and `v` are "signature" and version. -/
def img (sig v : Byte) : Mem := fun a =>
  if a = 0 then 0x57 else if a = 1 then 0x4F else if a = 2 then 0x4C else if a = 3 then 0x46
  else if a = 4 then 20 else if a = 8 then 10 else if a = 9 then sig else if a = 12 then v
  else if a = 16 then 1 else if a = 17 then 2 else if a = 18 then 3 else if a = 19 then 4 else 0

/-- Partitions of 64 bytes with these images. -/
def reader (a b : Mem) : Reader := fun s off n =>
  if off < 64 then some (min n (64 - off), fun i => (if s then b else a) (off + i)) else none

def cfg : DiskCfg := ⟨16, 0x1000, 0x3000⟩

theorem img_size (sig v : Byte) : le32 (img sig v) 4 = 20 := by
  unfold le32 img
  simp

theorem good (a b : Mem) (s : Bool) (v : Byte) (h : (if s then b else a) = img 0x5A v) :
    GoodDisk cfg env (reader a b) s (img 0x5A v) where
  hdr := ⟨_, rfl, fun i _ => by rw [h]; show img 0x5A v (0 + i) = _; rw [Nat.zero_add]⟩
  data := by
    intro off ho
    rw [img_size] at ho
    have : off < 36 := ho
    refine ⟨min 512 (64 - off), fun i => img 0x5A v (off + i), ?_, by omega, by omega, fun i _ => rfl⟩
    unfold reader
    rw [if_pos (by omega), h]
  ok := by
    intro m hm
    rw [img_size] at hm
    have hm' : ∀ i, i < 36 → m i = img 0x5A v i := hm
    refine ⟨?_, ?_, ?_⟩
    · rw [le32_congr (x := img 0x5A v) (fun i _ _ => hm' i (by omega))]
      unfold le32 img MAGIC
      simp
    · unfold env
      dsimp only
      rw [hm' 8 (by omega), hm' 16 (by omega), hm' 17 (by omega), hm' 18 (by omega), hm' 19 (by omega)]
      unfold img
      simp
    · unfold env
      dsimp only
      rw [hm' 9 (by omega)]
      unfold img
      simp
  fits := by rw [img_size]; decide +kernel
  h8 := by decide +kernel

/-- Both images are good; B is newer. -/
example : ∃ ram', diskStart cfg env (reader (img 0x5A 1) (img 0x5A 2)) 20000 (fun _ => 0) = .boots true ram' ∧
    ∀ i, i < le32 (img 0x5A 2) 4 + 16 → ram' i = img 0x5A 2 i :=
  disk_highest_first cfg env _ true (img 0x5A 2) (good _ _ true 2 rfl) (by decide +kernel) 20000 (by decide +kernel) _
    (fun s => if s then 2 else 1)
    (fun s => by
      refine ⟨by cases s <;> simp, .inl ⟨fun i => (if s then img 0x5A 2 else img 0x5A 1) (0 + i), ?_, ?_⟩⟩
      · rfl
      · cases s <;> rfl)
    (by simp) (by simp)

/-- B is newer, but has a wrong signature: A is started. -/
example : ∃ ram', diskStart cfg env (reader (img 0x5A 1) (img 0 2)) 20000 (fun _ => 0) = .boots false ram' ∧
    ∀ i, i < le32 (img 0x5A 1) 4 + 16 → ram' i = img 0x5A 1 i := by
  refine disk_fallback_partial cfg env _ false (img 0x5A 1) (good _ _ false 1 rfl) (by decide +kernel) 20000
    (by decide +kernel) _ (fun i => if i < 64 then img 0 2 i else 0) (.inl ?_) ?_ ?_
  · decide +kernel
  · decide +kernel
  · have h1 : reader (img 0x5A 1) (img 0 2) true 0 16 = some (16, fun i => img 0 2 (0 + i)) := rfl
    show attempt cfg env (reader (img 0x5A 1) (img 0 2)) 20000 true _ = _
    unfold attempt
    rw [show cfg.h = 16 from rfl, h1]
    dsimp only
    have h2 : le32 (fun i => img 0 2 (0 + i)) 4 = 20 := by
      rw [show (fun i => img 0 2 (0 + i)) = img 0 2 from funext fun i => by rw [Nat.zero_add], img_size]
    rw [if_neg (by simp), h2, if_neg (by decide +kernel)]
    have h3 : loadLoop cfg (reader (img 0x5A 1) (img 0 2)) true 20 20000 0 (fun _ => 0) =
        .done (fun i => if i < 64 then img 0 2 i else 0) := by
      unfold loadLoop
      rw [show reader (img 0x5A 1) (img 0 2) true 0 512 = some (64, fun i => img 0 2 (0 + i)) from rfl]
      dsimp only
      rw [if_neg (by decide +kernel), if_neg (by decide +kernel)]
      congr 1
      funext i
      by_cases hi : i < 64 <;> simp [hi]
    rw [h3]
    unfold checkLoaded
    dsimp only
    rw [if_neg (fun h => absurd h.2.2 (by decide +kernel))]

/-- The image of B announces a size larger than the memory: nothing is started although A is good. -/
example : diskStart cfg env (reader (img 0x5A 1) (fun a => if a = 6 then 1 else img 0x5A 2 a)) 20000 (fun _ => 0) = .panic :=
  disk_oversize_blocks_fallback cfg env _ (fun i => (fun a => if a = 6 then 1 else img 0x5A 2 a) (0 + i))
    (by
      rw [show diskFirst cfg env (reader (img 0x5A 1) (fun a => if a = 6 then 1 else img 0x5A 2 a)) = true by decide +kernel]
      rfl)
    (by decide +kernel) _ _

end DiskDemo

end Verif
