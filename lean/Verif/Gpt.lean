import Verif.Ata

/-!
# GPT partitions

`/repo/src/x86/gpt.c`: the partition table of a disk, reads and writes relative to a partition. `uint64_t`
arithmetic wraps; offsets and sizes are naturals below `2^64`. The drive exists
(`drv <= ata_drive_count`, `/repo/src/x86/ata.c:794`).
-/

namespace Verif

/-- `2^64`. -/
@[irreducible] def W64 : Nat := 18446744073709551616

theorem W64_eq : W64 = 18446744073709551616 := by unfold W64; rfl

/-- 64-bit little-endian load. -/
def le64 (m : Mem) (a : Nat) : Nat := le32 m a + 4294967296 * le32 m (a + 4)

/-- `a - b` of `uint64_t`. -/
def sub64 (a b : Nat) : Nat := (a + W64 - b % W64) % W64

/-- Result of a function of the driver, or an access outside of an array or a buffer. -/
inductive Disk (α : Type) where
  | ok (a : α)
  | oob

/-- `struct disk_partition`, `/repo/src/x86/gpt.c:104-111` (`end` is `stop`; `part_no` is never set). -/
structure GPart where
  start : Nat
  stop : Nat
  name : Nat → Nat

/-- `struct disk_drive`, `/repo/src/x86/gpt.c:118-123`. -/
structure Drive where
  isOpen : Bool
  nParts : Nat
  part : Nat → GPart

/-- `struct guid_part_array` to `struct disk_partition`, `/repo/src/x86/gpt.c:90-98,248-252`. -/
def mkPart (pa : Mem) : GPart where
  start := 512 * le64 pa 32 % W64
  stop := sub64 (512 * le64 pa 40) 1
  name := fun i => le16 pa (56 + 2 * i)

/-- The loop over the partition entries, `/repo/src/x86/gpt.c:229-260`. `pa` is an uninitialised object of 128
bytes on the stack; its contents are those of the previous iteration. -/
def openParts (a : Ata) (startArray arraySz : Nat) : Nat → Nat → Mem → Drive → Disk (Ata × Drive)
  | 0, _, _, d => .ok (a, d)
  | n + 1, i, pa, d =>
    -- 231-233
    let address := (512 * startArray + arraySz * i % 4294967296) % W64
    if arraySz > 128 then .oob
    else
      let (a', pa) := ataRead a address arraySz pa
      if le64 pa 0 ≠ 0 ∨ le64 pa 8 ≠ 0 then
        if le64 pa 32 > le64 pa 40 then .ok (a', d)
        else if d.nParts ≥ 16 then .oob
        else openParts a' startArray arraySz n (i + 1) pa
          { d with nParts := d.nParts + 1, part := fun k => if k = d.nParts then mkPart pa else d.part k }
      else .ok (a', d)

/-- Search of the MBR for an entry of type `PTYPE_GPT`, `/repo/src/x86/gpt.c:184-193`; result: `lba_first`. -/
def findGpt (a : Ata) (pte : Mem) : Nat → Nat → Ata × Option Nat
  | 0, _ => (a, none)
  | n + 1, i =>
    let (a, pte) := ataRead a (0x1BE + 16 * i) 16 pte
    if pte 4 = 0xEE#8 then (a, some (le32 pte 8)) else findGpt a pte n (i + 1)

/-- `GPT_SIGNATURE`, `/repo/src/x86/gpt.c:45`. -/
def GPT_SIGNATURE : Nat := 0x5452415020494645

/-- `disk_open`, `/repo/src/x86/gpt.c:167-262`; `none` is -1. `drv` is checked against `MAX_DISKS` = 4 with `>`
(178), but the array has 4 elements. `junk`: uninitialised stack. -/
def diskOpen (a : Ata) (junk : Mem) (drv : Int) (d : Drive) : Disk (Ata × Drive × Option Nat) :=
  if drv < 0 ∨ drv > 4 then .ok (a, d, none)
  else if drv = 4 then .oob
  else
    match findGpt a junk 4 0 with
    | (a, none) => .ok (a, d, none)
    | (a, some lba) =>
      let (a, sig) := ataRead a 0x1FE 2 junk
      if le16 sig 0 ≠ 0xAA55 then .ok (a, d, none)
      else
        let d := { d with isOpen := true, nParts := 0 }
        -- 210: `SECTOR_SIZE * pte.lba_first` is computed in 32 bits
        let (a, pt) := ataRead a (512 * lba % 4294967296) 512 junk
        if le64 pt 0 ≠ GPT_SIGNATURE then .ok (a, d, none)
        else
          match openParts a (le64 pt 72) (le32 pt 84) (min (le32 pt 80) 16) 0 junk d with
          | .oob => .oob
          | .ok (a, d) => .ok (a, d, some d.nParts)

/-- `open_part`, `/repo/src/x86/gpt.c:276-295`. -/
def openPart (d : Drive) (drv part : Int) : Disk (Option GPart) :=
  if drv < 0 ∨ drv > 4 then .ok none
  else if part < 0 ∨ part > 16 then .ok none
  else if drv = 4 then .oob
  else if d.isOpen = false then .ok none
  else if part ≥ d.nParts then .ok none
  else if part = 16 then .oob
  else .ok (some (d.part part.toNat))

/-- `disk_read`/`disk_write`, `/repo/src/x86/gpt.c:313-325,345-357`: address and length given to the ATA driver;
`none` is -1. `int len` holds the low 32 bits of a 64-bit value. -/
def access (p : GPart) (off sz : Nat) : Option (Nat × Nat) :=
  let avail := sub64 p.stop ((p.start + off) % W64)
  let len := (if avail < sz then avail else sz) % 4294967296
  if len ≥ 2147483648 then none else some ((p.start + off) % W64, len)

/-- Call of the ATA driver, `/repo/src/x86/gpt.c:322-326`. -/
def readAt (a : Ata) (buf : Mem) : Option (Nat × Nat) → Ata × Option (Nat × Mem)
  | none => (a, none)
  | some (s, l) => ((ataRead a s l buf).1, some (l, (ataRead a s l buf).2))

/-- Call of the ATA driver, `/repo/src/x86/gpt.c:354-358`. -/
def writeAt (a : Ata) (buf : Mem) : Option (Nat × Nat) → Ata × Option Nat
  | none => (a, none)
  | some (s, l) => (ataWrite a s l buf, some l)

/-- `disk_read`, `/repo/src/x86/gpt.c:311-327`. -/
def diskRead (a : Ata) (d : Drive) (drv part : Int) (off sz : Nat) (buf : Mem) : Disk (Ata × Option (Nat × Mem)) :=
  match openPart d drv part with
  | .oob => .oob
  | .ok none => .ok (a, none)
  | .ok (some p) =>
    .ok (readAt a buf (access p off sz))

/-- `disk_write`, `/repo/src/x86/gpt.c:343-359`. -/
def diskWrite (a : Ata) (d : Drive) (drv part : Int) (off sz : Nat) (buf : Mem) : Disk (Ata × Option Nat) :=
  match openPart d drv part with
  | .oob => .oob
  | .ok none => .ok (a, none)
  | .ok (some p) =>
    .ok (writeAt a buf (access p off sz))

/-- `(uint16_t)ascii[i]` for a signed `char`. -/
def charU16 (b : Byte) : Nat := if b.toNat < 128 then b.toNat else 0xFF00 + b.toNat

/-- The loop of `disk_u16_ascii_eq`, `/repo/src/x86/gpt.c:143-147`; the name has 36 elements. Result: index after the
last character, or `none` for a difference. -/
def asciiLoop (name : Nat → Nat) : List Byte → Nat → Disk (Option Nat)
  | [], k => .ok (some k)
  | b :: l, k =>
    if k ≥ 36 then .oob
    else if name k ≠ charU16 b then .ok none
    else asciiLoop name l (k + 1)

/-- `disk_u16_ascii_eq`, `/repo/src/x86/gpt.c:131-153`. -/
def asciiEq (name : Nat → Nat) (l : List Byte) : Disk Bool :=
  if l.length > 36 then .ok false
  else
    match asciiLoop name l (if name 0 = 0xFEFF then 1 else 0) with
    | .oob => .oob
    | .ok none => .ok false
    | .ok (some k) => if k < 36 ∧ name k ≠ 0 then .ok false else .ok true

/-- The loop of `disk_find_partition_by_label`, `/repo/src/x86/gpt.c:372-376`. -/
def findLabel (d : Drive) (drv : Int) (l : List Byte) : Nat → Nat → Disk (Option Nat)
  | 0, _ => .ok none
  | n + 1, i =>
    match openPart d drv i with
    | .oob => .oob
    | .ok none => .oob  -- null pointer dereference
    | .ok (some p) =>
      match asciiEq p.name l with
      | .oob => .oob
      | .ok true => .ok (some i)
      | .ok false => findLabel d drv l n (i + 1)

/-- `disk_find_partition_by_label`, `/repo/src/x86/gpt.c:361-378`. -/
def findPartition (d : Drive) (drv : Int) (l : List Byte) : Disk (Option Nat) :=
  if drv < 0 ∨ drv > 4 then .ok none
  else if drv = 4 then .oob
  else if d.isOpen = false then .ok none
  else findLabel d drv l d.nParts 0

/-! ## Access through a partition -/

/-- The partition of sectors `first` to `last` (both included), as `disk_open` records it. -/
def IsPart (p : GPart) (first last : Nat) : Prop :=
  p.start = 512 * first % W64 ∧ p.stop = sub64 (512 * last) 1

/-- Geometry for which the arithmetic does not wrap. -/
def GeomOK (first last : Nat) : Prop := first ≤ last ∧ 0 < last ∧ last < 36028797018963967

theorem stop_eq {p : GPart} {first last : Nat} (h : IsPart p first last) (g : GeomOK first last) :
    p.start = 512 * first ∧ p.stop = 512 * last - 1 := by
  obtain ⟨h1, h2⟩ := h
  obtain ⟨g1, g2, g3⟩ := g
  rw [h1, h2]
  unfold sub64; rw [W64_eq]
  omega

/-- **Confinement.** If the offset is before the last sector of the partition, whatever the size, the bytes
accessed are those at this offset, they are inside the partition, and at most as many as requested. -/
theorem gpt_confined_partial (p : GPart) (first last off sz : Nat) (h : IsPart p first last)
    (g : GeomOK first last) (ho : off < 512 * (last - first)) (s l : Nat) (ha : access p off sz = some (s, l)) :
    s = 512 * first + off ∧ s + l ≤ 512 * last - 1 ∧ l ≤ sz := by
  obtain ⟨h1, h2⟩ := stop_eq h g
  obtain ⟨g1, g2, g3⟩ := g
  have e1 : (p.start + off) % W64 = 512 * first + off := by
    rw [h1]; rw [W64_eq]; omega
  have e2 : sub64 p.stop ((p.start + off) % W64) = 512 * last - 1 - (512 * first + off) := by
    rw [e1, h2]; unfold sub64; rw [W64_eq]; omega
  unfold access at ha
  rw [e2, e1] at ha
  dsimp only at ha
  have hm : (if 512 * last - 1 - (512 * first + off) < sz then 512 * last - 1 - (512 * first + off) else sz)
      ≤ 512 * last - 1 - (512 * first + off) ∧
      (if 512 * last - 1 - (512 * first + off) < sz then 512 * last - 1 - (512 * first + off) else sz) ≤ sz := by
    split <;> omega
  generalize (if 512 * last - 1 - (512 * first + off) < sz then 512 * last - 1 - (512 * first + off) else sz) = len
    at hm ha
  by_cases hc : len % 4294967296 ≥ 2147483648
  · rw [if_pos hc] at ha; cases ha
  · rw [if_neg hc] at ha
    injection ha with ha
    injection ha with hs hl
    have := Nat.mod_le len 4294967296
    omega

/-- In range, everything requested is accessed, except for the last sector and one byte. -/
theorem gpt_access_full (p : GPart) (first last off sz : Nat) (h : IsPart p first last)
    (g : GeomOK first last) (ho : 512 * first + off + sz < 512 * last) (hsz : sz < 2147483648) :
    access p off sz = some (512 * first + off, sz) := by
  obtain ⟨h1, h2⟩ := stop_eq h g
  obtain ⟨g1, g2, g3⟩ := g
  have e1 : (p.start + off) % W64 = 512 * first + off := by
    rw [h1]; rw [W64_eq]; omega
  have e2 : sub64 p.stop ((p.start + off) % W64) = 512 * last - 1 - (512 * first + off) := by
    rw [e1, h2]; unfold sub64; rw [W64_eq]; omega
  unfold access
  rw [e2, e1]
  dsimp only
  rw [if_neg (show ¬ 512 * last - 1 - (512 * first + off) < sz by omega),
    Nat.mod_eq_of_lt (show sz < 4294967296 by omega), if_neg (by omega)]

/-- Inside of the partition, as much as possible is accessed. -/
theorem gpt_access_min (p : GPart) (first last off sz : Nat) (h : IsPart p first last)
    (g : GeomOK first last) (ho : off < 512 * (last - first)) (hsz : sz < 2147483648) :
    access p off sz = some (512 * first + off, min sz (512 * last - 1 - (512 * first + off))) := by
  obtain ⟨h1, h2⟩ := stop_eq h g
  obtain ⟨g1, g2, g3⟩ := g
  have e1 : (p.start + off) % W64 = 512 * first + off := by
    rw [h1]; rw [W64_eq]; omega
  have e2 : sub64 p.stop ((p.start + off) % W64) = 512 * last - 1 - (512 * first + off) := by
    rw [e1, h2]; unfold sub64; rw [W64_eq]; omega
  unfold access
  rw [e2, e1]
  dsimp only
  have hm : (if 512 * last - 1 - (512 * first + off) < sz then 512 * last - 1 - (512 * first + off) else sz)
      = min sz (512 * last - 1 - (512 * first + off)) := by
    split <;> omega
  rw [hm, Nat.mod_eq_of_lt (by omega), if_neg (by omega)]

/-- **The last sector is lost**: there is no offset in the partition at which a byte of its last sector can be
read or written, and from the last but one sector the last byte is missing too. -/
theorem gpt_last_sector_lost (p : GPart) (first last off sz : Nat) (h : IsPart p first last)
    (g : GeomOK first last) (ho : off < 512 * (last - first)) (s l : Nat) (ha : access p off sz = some (s, l)) :
    ∀ x, s ≤ x → x < s + l → x + 1 < 512 * last := by
  have := gpt_confined_partial p first last off sz h g ho s l ha
  intro x _ _
  omega

theorem escape_core (p : GPart) (F L off sz : Nat) (hF : p.start = F) (hL : p.stop = L - 1) (hL0 : 0 < L)
    (ho : L ≤ F + off) (hs : F + off + sz < W64) (hsz : sz < 2147483648) :
    access p off sz = some (F + off, sz) := by
  have e1 : (p.start + off) % W64 = F + off := by
    rw [hF]; exact Nat.mod_eq_of_lt (by omega)
  have e2 : sz ≤ sub64 p.stop ((p.start + off) % W64) := by
    rw [e1, hL]; unfold sub64
    rw [Nat.mod_eq_of_lt (show F + off < W64 by omega), Nat.mod_eq_of_lt (by omega)]
    omega
  unfold access
  dsimp only
  rw [if_neg (show ¬ sub64 p.stop ((p.start + off) % W64) < sz by omega), e1,
    Nat.mod_eq_of_lt (show sz < 4294967296 by omega), if_neg (by omega)]

/-- **Out of the partition**: at an offset at or after the last sector, the size is not limited by the
end of the partition at all. -/
theorem gpt_escape (p : GPart) (first last off sz : Nat) (h : IsPart p first last)
    (g : GeomOK first last) (ho : 512 * (last - first) ≤ off) (hs : 512 * first + off + sz < W64)
    (hsz : sz < 2147483648) : access p off sz = some (512 * first + off, sz) := by
  obtain ⟨h1, h2⟩ := stop_eq h g
  obtain ⟨g1, g2, g3⟩ := g
  refine escape_core p _ _ off sz h1 h2 ?_ ?_ hs hsz
  · omega
  · omega

/-- An entry with `first = last = 0` gives access to the whole disk. -/
theorem gpt_whole_disk (p : GPart) (off sz : Nat) (h : IsPart p 0 0) (ho : off + sz < W64)
    (hsz : sz < 2147483648) : access p off sz = some (off, sz) := by
  obtain ⟨h1, h2⟩ := h
  have h1' : p.start = 0 := by rw [h1]; simp
  have h2' : p.stop = W64 - 1 := by
    rw [h2, sub64, W64_eq]
  unfold access
  rw [h1', h2', Nat.zero_add, Nat.mod_eq_of_lt (show off < W64 by omega)]
  have e : sub64 (W64 - 1) off = W64 - 1 - off := by
    unfold sub64
    rw [Nat.mod_eq_of_lt (show off < W64 by omega),
      show W64 - 1 + W64 - off = W64 - 1 - off + W64 by omega, Nat.add_mod_right, Nat.mod_eq_of_lt (by omega)]
  rw [e]
  dsimp only
  rw [if_neg (show ¬ W64 - 1 - off < sz by omega), Nat.mod_eq_of_lt (show sz < 4294967296 by omega),
    if_neg (by omega)]

/-! ## Opening a disk -/

/-- `d` has at most 16 partitions; so all array indices below `nParts` are valid. -/
def DriveOK (d : Drive) : Prop := d.nParts ≤ 16

/-- **No partition number is accepted beyond the table**: with at most 16 partitions, and a disk number other than 4,
`open_part` never leaves the arrays, and accepts exactly the partitions present. -/
theorem openPart_spec (d : Drive) (hd : DriveOK d) (drv part : Int) (h4 : drv ≠ 4) :
    openPart d drv part =
      .ok (if 0 ≤ drv ∧ drv < 4 ∧ d.isOpen = true ∧ 0 ≤ part ∧ part < d.nParts then some (d.part part.toNat) else none) := by
  unfold DriveOK at hd
  unfold openPart
  by_cases h1 : drv < 0 ∨ drv > 4
  · rw [if_pos h1, if_neg (by omega)]
  · rw [if_neg h1]
    by_cases h2 : part < 0 ∨ part > 16
    · rw [if_pos h2, if_neg (by omega)]
    · rw [if_neg h2, if_neg h4]
      cases h3 : d.isOpen
      · rw [if_pos rfl, if_neg (by simp)]
      · rw [if_neg (by simp)]
        by_cases h5 : part ≥ d.nParts
        · rw [if_pos h5, if_neg (by omega)]
        · rw [if_neg h5, if_neg (by omega), if_pos (by refine ⟨?_, ?_, rfl, ?_, ?_⟩ <;> omega)]

/-- Disk number 4 is accepted although the array has only 4 elements. -/
theorem disk_number_4 (a : Ata) (junk : Mem) (d : Drive) (part : Int) (hp : 0 ≤ part ∧ part ≤ 16) :
    diskOpen a junk 4 d = .oob ∧ openPart d 4 part = .oob ∧ findPartition d 4 [] = .oob := by
  refine ⟨rfl, ?_, rfl⟩
  unfold openPart
  rw [if_neg (by omega), if_neg (by omega), if_pos rfl]

/-- Entry `i` of the partition array on the disk. -/
def entry (disk : Mem) (startArray i : Nat) : Mem := fun o => disk (512 * startArray + 128 * i + o)

/-- Entry `e` describes a partition: it is used, and the first sector is not after the last one. -/
def Used (e : Mem) : Prop := (le64 e 0 ≠ 0 ∨ le64 e 8 ≠ 0) ∧ le64 e 32 ≤ le64 e 40

theorem le64_congr {m x : Mem} {a : Nat} (h : Agree m x a (a + 8)) : le64 m a = le64 x a := by
  unfold le64
  rw [le32_congr (h.mono (Nat.le_refl _) (by omega)), le32_congr (h.mono (by omega) (by omega))]

theorem le64_lt (m : Mem) (a : Nat) : le64 m a < W64 := by
  unfold le64; rw [W64_eq]
  have := le32_lt m a
  have := le32_lt m (a + 4)
  omega

/-- Partition `p` is the one of entry `e`. -/
def PartOf (p : GPart) (e : Mem) : Prop :=
  IsPart p (le64 e 32) (le64 e 40) ∧ ∀ k, k < 36 → p.name k = le16 e (56 + 2 * k)

theorem mkPart_of {pa e : Mem} (h : ∀ i, i < 128 → pa i = e i) : PartOf (mkPart pa) e := by
  have h1 : le64 pa 32 = le64 e 32 := le64_congr (fun i _ _ => h i (by omega))
  have h2 : le64 pa 40 = le64 e 40 := le64_congr (fun i _ _ => h i (by omega))
  refine ⟨⟨?_, ?_⟩, ?_⟩
  · show 512 * le64 pa 32 % W64 = _; rw [h1]
  · show sub64 (512 * le64 pa 40) 1 = _; rw [h2]
  · intro k hk
    exact le16_congr (fun i _ _ => h i (by omega))

/-- The partitions found: the longest prefix of entries in use, at most `n`. -/
def Found (disk : Mem) (sa n k : Nat) : Prop :=
  k ≤ n ∧ (∀ i, i < k → Used (entry disk sa i)) ∧ (k = n ∨ ¬ Used (entry disk sa k))

theorem openParts_spec (sa : Nat) (n : Nat) : ∀ (a : Ata) (i : Nat) (pa : Mem) (d : Drive), NoBad a → Coherent a →
    512 * sa + 128 * (i + n) ≤ 144115188075855872 → d.nParts = i → i + n ≤ 16 →
    (∀ j, j < i → Used (entry a.disk sa j) ∧ PartOf (d.part j) (entry a.disk sa j)) →
    ∃ a' d', openParts a sa 128 n i pa d = .ok (a', d') ∧ a'.disk = a.disk ∧ a'.bad = a.bad ∧ Coherent a' ∧
      d'.isOpen = d.isOpen ∧ Found a.disk sa (i + n) d'.nParts ∧
      ∀ j, j < d'.nParts → PartOf (d'.part j) (entry a.disk sa j) := by
  induction n with
  | zero =>
    intro a i pa d hb hco hr hn h16 hp
    exact ⟨a, d, rfl, rfl, rfl, hco, rfl, ⟨by omega, fun j hj => (hp j (by omega)).1, .inl (by omega)⟩,
      fun j hj => (hp j (by omega)).2⟩
  | succ n ih =>
    intro a i pa d hb hco hr hn h16 hp
    have e : (512 * sa + 128 * i % 4294967296) % W64 = 512 * sa + 128 * i := by
      have : 128 * i % 4294967296 = 128 * i := Nat.mod_eq_of_lt (by omega)
      rw [this]
      exact Nat.mod_eq_of_lt (by rw [W64_eq]; omega)
    obtain ⟨h1, h2, h3, h4, h5⟩ := ata_read_exact a hb hco (512 * sa + 128 * i) 128 pa (by omega) (by omega)
    generalize hg : ataRead a (512 * sa + 128 * i) 128 pa = r at h1 h2 h3 h4 h5
    obtain ⟨a1, pa1⟩ := r
    dsimp only at h1 h2 h3 h4 h5
    have he : ∀ o, o < 128 → pa1 o = entry a.disk sa i o := fun o ho => h1 o ho
    have l0 : le64 pa1 0 = le64 (entry a.disk sa i) 0 := le64_congr (fun o _ _ => he o (by omega))
    have l8 : le64 pa1 8 = le64 (entry a.disk sa i) 8 := le64_congr (fun o _ _ => he o (by omega))
    have l32 : le64 pa1 32 = le64 (entry a.disk sa i) 32 := le64_congr (fun o _ _ => he o (by omega))
    have l40 : le64 pa1 40 = le64 (entry a.disk sa i) 40 := le64_congr (fun o _ _ => he o (by omega))
    unfold openParts
    dsimp only
    rw [e, hg, if_neg (by omega)]
    dsimp only
    have stop : ¬ Used (entry a.disk sa i) → ∃ a' d', (Disk.ok (a1, d) : Disk (Ata × Drive)) = .ok (a', d') ∧
        a'.disk = a.disk ∧ a'.bad = a.bad ∧ Coherent a' ∧
        d'.isOpen = d.isOpen ∧ Found a.disk sa (i + (n + 1)) d'.nParts ∧
        ∀ j, j < d'.nParts → PartOf (d'.part j) (entry a.disk sa j) := by
      intro hu
      exact ⟨a1, d, rfl, h3, h4, h5, rfl, ⟨by omega, fun j hj => (hp j (by omega)).1, .inr (by rw [hn]; exact hu)⟩,
        fun j hj => (hp j (by omega)).2⟩
    by_cases hu : le64 pa1 0 ≠ 0 ∨ le64 pa1 8 ≠ 0
    · rw [if_pos hu]
      by_cases hf : le64 pa1 32 > le64 pa1 40
      · rw [if_pos hf]
        refine stop (fun h => ?_)
        have := h.2
        rw [← l32, ← l40] at this
        omega
      · rw [if_neg hf, if_neg (by omega)]
        have hus : Used (entry a.disk sa i) := by
          refine ⟨?_, ?_⟩
          · rw [← l0, ← l8]; exact hu
          · rw [← l32, ← l40]; omega
        obtain ⟨a', d', r1, r2, r3, r4, r5, r6, r7⟩ := ih a1 (i + 1) pa1
          { d with nParts := d.nParts + 1, part := fun k => if k = d.nParts then mkPart pa1 else d.part k }
          (fun s => by rw [h4]; exact hb s) h5 (by omega) (by show d.nParts + 1 = i + 1; omega) (by omega) (by
            intro j hj
            rw [h3]
            show _ ∧ PartOf (if j = d.nParts then mkPart pa1 else d.part j) _
            by_cases hji : j = i
            · subst hji
              rw [if_pos (by omega)]
              exact ⟨hus, mkPart_of he⟩
            · rw [if_neg (by omega)]
              exact hp j (by omega))
        rw [h3] at r2 r6 r7
        refine ⟨a', d', r1, r2, by rw [r3, h4], r4, r5, ?_, r7⟩
        rw [show i + (n + 1) = i + 1 + n by omega]
        exact r6
    · rw [if_neg hu]
      refine stop (fun h => hu ?_)
      rw [l0, l8]
      exact h.1

/-- Whatever the table says, at most 16 partitions are recorded, and the only way out of the arrays is an entry size
above 128. -/
theorem openParts_bounds (sa asz : Nat) (n : Nat) : ∀ (a : Ata) (i : Nat) (pa : Mem) (d : Drive),
    d.nParts + n ≤ 16 →
    match openParts a sa asz n i pa d with
    | .oob => asz > 128 ∧ 0 < n
    | .ok (_, d') => d'.nParts ≤ 16 ∧ d'.isOpen = d.isOpen := by
  induction n with
  | zero => intro a i pa d h; exact ⟨by omega, rfl⟩
  | succ n ih =>
    intro a i pa d h
    unfold openParts
    dsimp only
    by_cases hs : asz > 128
    · rw [if_pos hs]; exact ⟨hs, by omega⟩
    · rw [if_neg hs]
      generalize ataRead a ((512 * sa + asz * i % 4294967296) % W64) asz pa = r
      obtain ⟨a1, pa1⟩ := r
      dsimp only
      by_cases hu : le64 pa1 0 ≠ 0 ∨ le64 pa1 8 ≠ 0
      · rw [if_pos hu]
        by_cases hf : le64 pa1 32 > le64 pa1 40
        · rw [if_pos hf]; exact ⟨by omega, rfl⟩
        · rw [if_neg hf, if_neg (by omega)]
          have := ih a1 (i + 1) pa1
            { d with nParts := d.nParts + 1, part := fun k => if k = d.nParts then mkPart pa1 else d.part k }
            (by show d.nParts + 1 + n ≤ 16; omega)
          revert this
          generalize openParts a1 sa asz n (i + 1) pa1
            { d with nParts := d.nParts + 1, part := fun k => if k = d.nParts then mkPart pa1 else d.part k } = r
          rcases r with ⟨a', d'⟩ | _
          · exact fun h => h
          · exact fun h => ⟨h.1, by omega⟩
      · rw [if_neg hu]; exact ⟨by omega, rfl⟩

/-- **Entry size**: a table that announces entries of more than 128 bytes makes `disk_open` write past the end of a
local variable. -/
theorem gpt_stack_overflow (a : Ata) (sa asz n i : Nat) (pa : Mem) (d : Drive) (h : asz > 128) :
    openParts a sa asz (n + 1) i pa d = .oob := by
  unfold openParts
  dsimp only
  rw [if_pos h]

/-- A disk with a protective MBR whose entry `k` is of type GPT, and a GPT header at sector `lba`, with entries of 128
bytes. -/
structure GptDisk (m : Mem) (k lba sa n : Nat) : Prop where
  k4 : k < 4
  typ : m (0x1BE + 16 * k + 4) = 0xEE#8
  before : ∀ j, j < k → m (0x1BE + 16 * j + 4) ≠ 0xEE#8
  lba_eq : le32 m (0x1BE + 16 * k + 8) = lba
  lba_lt : lba < 8388608
  sig : le16 m 0x1FE = 0xAA55
  gpt : le64 m (512 * lba) = GPT_SIGNATURE
  sa_eq : le64 m (512 * lba + 72) = sa
  sa_lt : sa < 281474976710000
  n_eq : min (le32 m (512 * lba + 80)) 16 = n
  sz_eq : le32 m (512 * lba + 84) = 128

theorem le_shift32 {m x : Mem} {s a : Nat} (h : ∀ o, a ≤ o → o < a + 4 → x o = m (s + o)) : le32 x a = le32 m (s + a) := by
  unfold le32
  rw [h a (by omega) (by omega), h (a + 1) (by omega) (by omega), h (a + 2) (by omega) (by omega),
    h (a + 3) (by omega) (by omega)]
  rfl

theorem le_shift64 {m x : Mem} {s a : Nat} (h : ∀ o, a ≤ o → o < a + 8 → x o = m (s + o)) : le64 x a = le64 m (s + a) := by
  unfold le64
  rw [le_shift32 (s := s) (fun o h1 h2 => h o h1 (by omega)), le_shift32 (s := s) (fun o h1 h2 => h o (by omega) (by omega))]
  rfl

theorem findGpt_spec (m : Mem) (k lba : Nat) (n : Nat) : ∀ (a : Ata) (pte : Mem) (i : Nat), NoBad a → Coherent a →
    a.disk = m → i ≤ k → k < i + n → k < 4 → m (0x1BE + 16 * k + 4) = 0xEE#8 →
    (∀ j, j < k → m (0x1BE + 16 * j + 4) ≠ 0xEE#8) → le32 m (0x1BE + 16 * k + 8) = lba →
    ∃ a', findGpt a pte n i = (a', some lba) ∧ a'.disk = m ∧ a'.bad = a.bad ∧ Coherent a' := by
  induction n with
  | zero => intro a pte i _ _ _ h1 h2; omega
  | succ n ih =>
    intro a pte i hb hco hm h1 h2 hk4 ht hbf hl
    obtain ⟨r1, r2, r3, r4, r5⟩ := ata_read_exact a hb hco (0x1BE + 16 * i) 16 pte (by omega) (by omega)
    unfold findGpt
    generalize ataRead a (0x1BE + 16 * i) 16 pte = r at r1 r2 r3 r4 r5 ⊢
    obtain ⟨a1, p1⟩ := r
    dsimp only at r1 r2 r3 r4 r5 ⊢
    rw [hm] at r1 r3
    by_cases hik : i = k
    · subst hik
      rw [if_pos (by rw [r1 4 (by omega)]; exact ht)]
      refine ⟨a1, ?_, r3, r4, r5⟩
      rw [le_shift32 (m := m) (s := 0x1BE + 16 * i) (fun o _ _ => r1 o (by omega)), hl]
    · rw [if_neg (by rw [r1 4 (by omega)]; exact hbf i (by omega))]
      obtain ⟨a', q1, q2, q3, q4⟩ := ih a1 p1 (i + 1) (fun s => by rw [r4]; exact hb s) r5 r3 (by omega) (by omega)
        hk4 ht hbf hl
      exact ⟨a', q1, q2, by rw [q3, r4], q4⟩

/-- **Opening a well-formed disk** records exactly the partitions of the table, in order. -/
theorem gpt_open_exact (a : Ata) (hb : NoBad a) (hco : Coherent a) (k lba sa n : Nat) (hg : GptDisk a.disk k lba sa n)
    (junk : Mem) (drv : Int) (h0 : 0 ≤ drv) (h4 : drv < 4) (d : Drive) :
    ∃ a' d', diskOpen a junk drv d = .ok (a', d', some d'.nParts) ∧ a'.disk = a.disk ∧ Coherent a' ∧ NoBad a' ∧
      d'.isOpen = true ∧ DriveOK d' ∧ Found a.disk sa n d'.nParts ∧
      ∀ j, j < d'.nParts → PartOf (d'.part j) (entry a.disk sa j) := by
  obtain ⟨g1, g2, g3, g4, g5, g6, g7, g8, g9, g10, g11⟩ := hg
  unfold diskOpen
  rw [if_neg (by omega), if_neg (by omega)]
  obtain ⟨a1, q1, q2, q3, q4⟩ := findGpt_spec a.disk k lba 4 a junk 0 hb hco rfl (by omega) (by omega) g1 g2 g3 g4
  rw [q1]
  dsimp only
  have hb1 : NoBad a1 := fun s => by rw [q3]; exact hb s
  obtain ⟨r1, r2, r3, r4, r5⟩ := ata_read_exact a1 hb1 q4 0x1FE 2 junk (by omega) (by omega)
  generalize ataRead a1 0x1FE 2 junk = r at r1 r2 r3 r4 r5 ⊢
  obtain ⟨a2, sig⟩ := r
  dsimp only at r1 r2 r3 r4 r5 ⊢
  have hsig : le16 sig 0 = 0xAA55 := by
    rw [← g6, ← q2]
    unfold le16
    rw [r1 0 (by omega), r1 1 (by omega)]
  rw [if_neg (by rw [hsig]; simp)]
  have hb2 : NoBad a2 := fun s => by rw [r4]; exact hb1 s
  have em : 512 * lba % 4294967296 = 512 * lba := Nat.mod_eq_of_lt (by omega)
  rw [em]
  obtain ⟨s1, s2, s3, s4, s5⟩ := ata_read_exact a2 hb2 r5 (512 * lba) 512 junk (by omega) (by omega)
  generalize ataRead a2 (512 * lba) 512 junk = r at s1 s2 s3 s4 s5 ⊢
  obtain ⟨a3, pt⟩ := r
  dsimp only at s1 s2 s3 s4 s5 ⊢
  have hd3 : a3.disk = a.disk := by rw [s3, r3, q2]
  have hd2 : a2.disk = a.disk := by rw [r3, q2]
  rw [hd2] at s1
  have e0 : le64 pt 0 = GPT_SIGNATURE := by
    rw [le_shift64 (m := a.disk) (s := 512 * lba) (fun o _ _ => s1 o (by omega)), Nat.add_zero, g7]
  have e72 : le64 pt 72 = sa := by
    rw [le_shift64 (m := a.disk) (s := 512 * lba) (fun o _ _ => s1 o (by omega)), g8]
  have e80 : le32 pt 80 = le32 a.disk (512 * lba + 80) := le_shift32 (fun o _ _ => s1 o (by omega))
  have e84 : le32 pt 84 = 128 := by
    rw [le_shift32 (m := a.disk) (s := 512 * lba) (fun o _ _ => s1 o (by omega)), g11]
  rw [if_neg (by rw [e0]; simp), e72, e80, e84, g10]
  have hn : n ≤ 16 := by omega
  obtain ⟨a', d', t1, t2, t3, t4, t5, t6, t7⟩ := openParts_spec sa n a3 0 junk { d with isOpen := true, nParts := 0 }
    (fun s => by rw [s4]; exact hb2 s) s5 (by omega) rfl (by omega) (fun j hj => by omega)
  rw [t1]
  dsimp only
  rw [hd3] at t2 t6 t7
  rw [Nat.zero_add] at t6
  refine ⟨a', d', rfl, t2, t4, ?_, t5, ?_, t6, t7⟩
  · intro s; rw [t3, s4]; exact hb2 s
  · have := t6.1
    unfold DriveOK; omega

/-- **Any disk**: `disk_open` leaves the arrays only for disk number 4, or for entries of more than 128 bytes; on
success the number of partitions is at most 16. -/
theorem gpt_open_bounds_partial (a : Ata) (junk : Mem) (drv : Int) (h4 : drv ≠ 4) (d : Drive) (hd : DriveOK d)
    : match diskOpen a junk drv d with
    | .oob => ∃ a' : Ata, ∃ lba : Nat, le32 (ataRead a' (512 * lba % 4294967296) 512 junk).2 84 > 128
    | .ok (_, d', _) => DriveOK d' := by
  unfold diskOpen
  by_cases h1 : drv < 0 ∨ drv > 4
  · rw [if_pos h1]; exact hd
  rw [if_neg h1, if_neg h4]
  generalize findGpt a junk 4 0 = r
  rcases r with ⟨a1, _ | lba⟩
  · exact hd
  dsimp only
  generalize ataRead a1 0x1FE 2 junk = r
  obtain ⟨a2, sig⟩ := r
  dsimp only
  by_cases h2 : le16 sig 0 ≠ 0xAA55
  · rw [if_pos h2]; exact hd
  rw [if_neg h2]
  generalize hg : ataRead a2 (512 * lba % 4294967296) 512 junk = r
  obtain ⟨a3, pt⟩ := r
  dsimp only
  by_cases h3 : le64 pt 0 ≠ GPT_SIGNATURE
  · rw [if_pos h3]; show (0 : Nat) ≤ 16; omega
  rw [if_neg h3]
  have := openParts_bounds (le64 pt 72) (le32 pt 84) (min (le32 pt 80) 16) a3 0 junk
    { d with isOpen := true, nParts := 0 } (by show 0 + _ ≤ 16; omega)
  revert this
  generalize openParts a3 (le64 pt 72) (le32 pt 84) (min (le32 pt 80) 16) 0 junk
    { d with isOpen := true, nParts := 0 } = r
  rcases r with ⟨a', d'⟩ | _
  · intro h; exact h.1
  · intro h
    exact ⟨a2, lba, by rw [hg]; exact h.1⟩

/-! ## Reads and writes -/

theorem openPart_some (d : Drive) (hd : DriveOK d) (ho : d.isOpen = true)
    (drv part : Int) (hdrv : 0 ≤ drv ∧ drv < 4) (hp : 0 ≤ part ∧ part < d.nParts) :
    openPart d drv part = .ok (some (d.part part.toNat)) := by
  rw [openPart_spec d hd drv part (by omega), if_pos ⟨hdrv.1, hdrv.2, ho, hp.1, hp.2⟩]

theorem diskRead_eq {a : Ata} {d : Drive} {drv part : Int} {off sz s l : Nat} {buf : Mem} {p : GPart}
    (h : openPart d drv part = .ok (some p)) (h2 : access p off sz = some (s, l)) :
    diskRead a d drv part off sz buf = .ok ((ataRead a s l buf).1, some (l, (ataRead a s l buf).2)) := by
  unfold diskRead
  rw [h]
  dsimp only
  rw [h2]
  rfl

theorem diskWrite_eq {a : Ata} {d : Drive} {drv part : Int} {off sz s l : Nat} {buf : Mem} {p : GPart}
    (h : openPart d drv part = .ok (some p)) (h2 : access p off sz = some (s, l)) :
    diskWrite a d drv part off sz buf = .ok (ataWrite a s l buf, some l) := by
  unfold diskWrite
  rw [h]
  dsimp only
  rw [h2]
  rfl

/-- **Read through a partition**: exactly the bytes of the partition at the offset, if they are before its last
sector, and nothing else. -/
theorem disk_read_exact (a : Ata) (hb : NoBad a) (hco : Coherent a) (d : Drive) (hd : DriveOK d) (ho : d.isOpen = true)
    (drv part : Int) (hdrv : 0 ≤ drv ∧ drv < 4) (hp : 0 ≤ part ∧ part < d.nParts) (first last off sz : Nat)
    (h : IsPart (d.part part.toNat) first last) (g : GeomOK first last) (hl : 512 * last ≤ 144115188075855872)
    (hr : 512 * first + off + sz < 512 * last) (hsz : sz ≤ 4194304) (buf : Mem) :
    ∃ a' buf', diskRead a d drv part off sz buf = .ok (a', some (sz, buf')) ∧ a'.disk = a.disk ∧ NoBad a' ∧ Coherent a' ∧
      (∀ i, i < sz → buf' i = a.disk (512 * first + off + i)) ∧ ∀ i, sz ≤ i → buf' i = buf i := by
  obtain ⟨h1, h2, h3, h4, h5⟩ := ata_read_exact a hb hco (512 * first + off) sz buf
    (by omega) hsz
  exact ⟨_, _, diskRead_eq (openPart_some d hd ho drv part hdrv hp) (gpt_access_full _ first last off sz h g hr (by omega)), h3, fun s => by rw [h4]; exact hb s, h5, h1, h2⟩

/-- **Write through a partition** (first 8 GiB of the disk, less than 128 KiB at once): exactly the given bytes of
the disk change. -/
theorem disk_write_exact (a : Ata) (hb : NoBad a) (hco : Coherent a) (d : Drive) (hd : DriveOK d) (ho : d.isOpen = true)
    (drv part : Int) (hdrv : 0 ≤ drv ∧ drv < 4) (hp : 0 ≤ part ∧ part < d.nParts) (first last off sz : Nat)
    (h : IsPart (d.part part.toNat) first last) (g : GeomOK first last) (hl : 512 * last ≤ 8589934592)
    (hr : 512 * first + off + sz < 512 * last) (hsz : sz < 131072) (buf : Mem) :
    ∃ a', diskWrite a d drv part off sz buf = .ok (a', some sz) ∧ a'.disk = put a.disk (512 * first + off) sz buf := by
  obtain ⟨h1, _⟩ := ata_write_exact a hb hco (512 * first + off) sz buf
    (by omega) hsz
  exact ⟨_, diskWrite_eq (openPart_some d hd ho drv part hdrv hp) (gpt_access_full _ first last off sz h g hr (by omega)), h1⟩

/-! ## Names -/

/-- The name, without byte order mark, is `l`, terminated by zero or by the end of the array. -/
def NameIs (name : Nat → Nat) (l : List Byte) : Prop :=
  ∃ b, b = (if name 0 = 0xFEFF then 1 else 0) ∧ b + l.length ≤ 36 ∧
    (∀ i (h : i < l.length), name (b + i) = charU16 l[i]) ∧ (b + l.length < 36 → name (b + l.length) = 0)

theorem asciiLoop_spec (name : Nat → Nat) (l : List Byte) : ∀ k, k + l.length ≤ 36 →
    ∃ r, asciiLoop name l k = .ok r ∧
      ((r = some (k + l.length) ∧ ∀ i (h : i < l.length), name (k + i) = charU16 l[i]) ∨
       (r = none ∧ ∃ i, ∃ h : i < l.length, name (k + i) ≠ charU16 l[i])) := by
  induction l with
  | nil => intro k _; exact ⟨_, rfl, .inl ⟨rfl, fun i h => absurd h (Nat.not_lt_zero _)⟩⟩
  | cons b l ih =>
    intro k hk
    rw [List.length_cons] at hk
    unfold asciiLoop
    rw [if_neg (by omega)]
    by_cases hb : name k ≠ charU16 b
    · rw [if_pos hb]
      exact ⟨_, rfl, .inr ⟨rfl, 0, by simp, hb⟩⟩
    · rw [if_neg hb]
      have hb' : name k = charU16 b := by
        by_cases h : name k = charU16 b
        · exact h
        · exact absurd h hb
      obtain ⟨r, h1, h2⟩ := ih (k + 1) (by omega)
      refine ⟨r, h1, ?_⟩
      rcases h2 with ⟨h2, h3⟩ | ⟨h2, i, hi, h3⟩
      · left
        refine ⟨by rw [h2, List.length_cons, show k + 1 + l.length = k + (l.length + 1) by omega], ?_⟩
        intro i hi
        cases i with
        | zero => exact hb'
        | succ i =>
          rw [List.length_cons] at hi
          have := h3 i (by omega)
          rw [show k + 1 + i = k + (i + 1) by omega] at this
          exact this
      · right
        refine ⟨h2, i + 1, by rw [List.length_cons]; omega, ?_⟩
        rw [show k + 1 + i = k + (i + 1) by omega] at h3
        exact h3

/-- **Comparison of names** is right for labels of less than 36 characters, or names without byte order mark. -/
theorem ascii_eq_partial (name : Nat → Nat) (l : List Byte)
    (h : (if name 0 = 0xFEFF then 1 else 0) + l.length ≤ 36) :
    ∃ r, asciiEq name l = .ok r ∧ (r = true ↔ NameIs name l) := by
  unfold asciiEq
  rw [if_neg (by omega)]
  obtain ⟨r, h1, h2⟩ := asciiLoop_spec name l _ h
  rw [h1]
  rcases h2 with ⟨h2, h3⟩ | ⟨h2, i, hi, h3⟩
  · subst h2
    dsimp only
    generalize hb : (if name 0 = 0xFEFF then 1 else 0) = b at *
    by_cases hz : b + l.length < 36 ∧ name (b + l.length) ≠ 0
    · rw [if_pos hz]
      refine ⟨false, rfl, by simp, ?_⟩
      rintro ⟨b', e, _, _, hh⟩
      rw [hb] at e
      subst e
      exact absurd (hh hz.1) hz.2
    · rw [if_neg hz]
      refine ⟨true, rfl, fun _ => ⟨b, hb.symm, h, h3, ?_⟩, fun _ => rfl⟩
      intro hlt
      by_cases hn : name (b + l.length) = 0
      · exact hn
      · exact absurd ⟨hlt, hn⟩ hz
  · subst h2
    refine ⟨false, rfl, by simp, ?_⟩
    rintro ⟨b', e, _, hh, _⟩
    rw [← e] at h3
    exact absurd (hh i hi) h3

/-- A name with a byte order mark is read past its end when it is compared with a label of 36 characters which starts
with the remaining 35 of the name. -/
theorem ascii_eq_oob (name : Nat → Nat) (l : List Byte) (hl : l.length = 36) (hb : name 0 = 0xFEFF)
    (h : ∀ i (hi : i < 35), name (1 + i) = charU16 (l[i]'(by omega))) : asciiEq name l = .oob := by
  unfold asciiEq
  rw [if_neg (by omega), if_pos hb]
  have key : ∀ (l : List Byte) (k : Nat), k + l.length = 37 → k ≤ 36 →
      (∀ i (hi : i + 1 < l.length), name (k + i) = charU16 (l[i]'(by omega))) → asciiLoop name l k = .oob := by
    intro l
    induction l with
    | nil => intro k h1 h2; simp at h1; omega
    | cons b l ih =>
      intro k h1 h2 h3
      rw [List.length_cons] at h1
      unfold asciiLoop
      by_cases hk : k ≥ 36
      · rw [if_pos hk]
      · rw [if_neg hk, if_neg (by
          have := h3 0 (by rw [List.length_cons]; omega)
          intro hne; exact hne this)]
        refine ih (k + 1) (by omega) (by omega) ?_
        intro i hi
        have := h3 (i + 1) (by rw [List.length_cons]; omega)
        rw [show k + 1 + i = k + (i + 1) by omega]
        exact this
  rw [key l 1 (by omega) (by omega) (fun i hi => h i (by omega))]

theorem findLabel_spec (d : Drive) (hd : DriveOK d) (ho : d.isOpen = true) (drv : Int) (hdrv : 0 ≤ drv ∧ drv < 4)
    (l : List Byte) (hn : ∀ j, j < d.nParts → (if (d.part j).name 0 = 0xFEFF then 1 else 0) + l.length ≤ 36) (n : Nat) :
    ∀ i, i + n = d.nParts →
    ∃ r, findLabel d drv l n i = .ok r ∧
      match r with
      | none => ∀ j, i ≤ j → j < d.nParts → ¬ NameIs (d.part j).name l
      | some j => i ≤ j ∧ j < d.nParts ∧ NameIs (d.part j).name l ∧ ∀ j', i ≤ j' → j' < j → ¬ NameIs (d.part j').name l := by
  induction n with
  | zero => intro i hi; exact ⟨none, rfl, fun j h1 h2 => by omega⟩
  | succ n ih =>
    intro i hi
    unfold findLabel
    rw [openPart_spec d hd drv i (by omega), if_pos ⟨hdrv.1, hdrv.2, ho, by omega, by omega⟩]
    dsimp only
    rw [Int.toNat_natCast]
    obtain ⟨r, h1, h2⟩ := ascii_eq_partial (d.part i).name l (hn i (by omega))
    rw [h1]
    cases r with
    | true => exact ⟨some i, rfl, by omega, by omega, h2.1 rfl, fun j h3 h4 => by omega⟩
    | false =>
      have hne : ¬ NameIs (d.part i).name l := fun h => by have := h2.2 h; simp at this
      obtain ⟨r, q1, q2⟩ := ih (i + 1) (by omega)
      refine ⟨r, q1, ?_⟩
      cases r with
      | none =>
        intro j h3 h4
        by_cases e : j = i
        · subst e; exact hne
        · exact q2 j (by omega) h4
      | some j =>
        obtain ⟨q2, q3, q4, q5⟩ := q2
        refine ⟨by omega, q3, q4, ?_⟩
        intro j' h3 h4
        by_cases e : j' = i
        · subst e; exact hne
        · exact q5 j' (by omega) h4

/-- **Search by label** returns the first partition with this name, or -1 if there is none. -/
theorem find_partition_partial (d : Drive) (hd : DriveOK d) (ho : d.isOpen = true) (drv : Int) (hdrv : 0 ≤ drv ∧ drv < 4)
    (l : List Byte) (hn : ∀ j, j < d.nParts → (if (d.part j).name 0 = 0xFEFF then 1 else 0) + l.length ≤ 36) :
    ∃ r, findPartition d drv l = .ok r ∧
      match r with
      | none => ∀ j, j < d.nParts → ¬ NameIs (d.part j).name l
      | some j => j < d.nParts ∧ NameIs (d.part j).name l ∧ ∀ j', j' < j → ¬ NameIs (d.part j').name l := by
  unfold findPartition
  rw [if_neg (by omega), if_neg (by omega), if_neg (by simp [ho])]
  obtain ⟨r, h1, h2⟩ := findLabel_spec d hd ho drv hdrv l hn d.nParts 0 (by omega)
  refine ⟨r, h1, ?_⟩
  cases r with
  | none => exact fun j hj => h2 j (by omega) hj
  | some j => exact ⟨h2.2.1, h2.2.2.1, fun j' hj => h2.2.2.2 j' (by omega) hj⟩

end Verif
