import Verif.Trailer

/-!
# Flags on write-once flash

Model of the flags kept in two redundant sectors, build with `NVM_FLASH_WRITEONCE`: `nvm_select_fresh_sector`
(`/repo/src/libwolfboot.c:192-278`), `trailer_write` (290-322), `partition_magic_write` (333-349), `get_trailer_at` (399-441), the copy of
`wolfBoot_update_trigger` (735-781) and `hal_set_key` (1358-1431). Flash is a byte memory in which a write to a unit that is not erased is a
violation (`none`, as reported by `/repo/hal/sim.c:172-179`).

Simplifications: `NVM_CACHE_SIZE` is the sector size, the sectors are aligned, internal flash; the flash operations of the HAL do not fail unless said
otherwise.
-/

namespace Verif

/-- Configuration. `ss`: `WOLFBOOT_SECTOR_SIZE`. `u`: size of the writes, `FLASHBUFFER_SIZE` (`/repo/src/libwolfboot.c:307-312`). `a`: address of the
last sector of the partition. `e`: end of the flags in the sector, `PART_BOOT_ENDFLAGS - a` or `PART_UPDATE_ENDFLAGS - a`
(`/repo/src/libwolfboot.c:140,155,159`). `er`: `FLASH_BYTE_ERASED`, `inv`: `WOLFBOOT_FLAGS_INVERT` (`/repo/include/wolfboot/wolfboot.h:317-326`). -/
structure NvCfg where
  ss : Nat
  u : Nat
  a : Nat
  e : Nat
  er : Byte
  inv : Bool

namespace NvCfg

/-- Address of the last sector (`false`, `sel == 0`) or of the one before it (`true`, `sel == 1`), `/repo/src/libwolfboot.c:299,305`. -/
def base (c : NvCfg) (b : Bool) : Nat := if b then c.a - c.ss else c.a

/-- The sector has the magic, `/repo/src/libwolfboot.c:227-231`. -/
def magic (c : NvCfg) (m : Mem) (b : Bool) : Prop := le32 m (c.base b + c.e - 4) = MAGIC_TRAIL

instance (c m b) : Decidable (magic c m b) := inferInstanceAs (Decidable (_ = _))

/-- `get_base_offset(base, off)` for either sector, `/repo/src/libwolfboot.c:182-185`. -/
def byteAt (c : NvCfg) (m : Mem) (b : Bool) (off : Nat) : Byte := m (c.base b + c.e - off)

/-- `FLAG_CMP`, `/repo/src/libwolfboot.c:172-176`. -/
def flagCmp (c : NvCfg) (x y : Byte) : Bool :=
  if c.inv then !decide (x > y) else !decide (x < y)

/-- The loop of `nvm_select_fresh_sector` from `off`, `n` iterations to go, `/repo/src/libwolfboot.c:247-269`. -/
def scan (c : NvCfg) (m : Mem) : Nat → Nat → Bool
  | 0, _ => false
  | n + 1, off =>
    if c.byteAt m false off = c.er ∧ c.byteAt m true off ≠ c.er then true
    else if c.byteAt m false off ≠ c.er ∧ c.byteAt m true off = c.er then false
    else if c.byteAt m false off = c.er ∧ c.byteAt m true off = c.er then
      c.flagCmp (c.byteAt m false (off - 1)) (c.byteAt m true (off - 1))
    else scan c m n (off + 1)

/-- Sector chosen by `nvm_select_fresh_sector`, `/repo/src/libwolfboot.c:226-269`. -/
def select (c : NvCfg) (m : Mem) : Bool :=
  if c.magic m false ∧ ¬ c.magic m true then false
  else if ¬ c.magic m false ∧ c.magic m true then true
  else if ¬ c.magic m false ∧ ¬ c.magic m true then false
  else c.scan m (c.ss - 4) 4

end NvCfg

/-- Flash operations: `hal_flash_erase` of a sector, `hal_flash_write` of the unit `k` of a sector with the bytes of `d` (indexed from the start of the
sector), `/repo/src/libwolfboot.c:274,306-317`. -/
inductive NvOp where
  | erase (b : Bool)
  | write (b : Bool) (k : Nat) (d : Mem)

namespace NvCfg

/-- `FLASH_WORD_ERASED`, `/repo/include/wolfboot/wolfboot.h:317-326`. -/
def erWord (c : NvCfg) : Nat := le32 (fun _ => c.er) 0

/-- Erase of the sector that is not selected, `/repo/src/libwolfboot.c:270-276`. `lk`: the flash is locked, the erase has no effect
(`/repo/hal/sim.c:193-198`). -/
def selOps (c : NvCfg) (lk : Bool) (m : Mem) : List NvOp :=
  if lk then []
  else if le32 m (c.base (!c.select m) + c.ss - 4) ≠ c.erWord then [.erase (!c.select m)] else []

/-- Writes of a whole sector, unit by unit, `/repo/src/libwolfboot.c:307-315`. -/
def writes (c : NvCfg) (b : Bool) (d : Mem) : List NvOp := (List.range (c.ss / c.u)).map fun k => .write b k d

/-- `NVM_CACHE` in `trailer_write`, `/repo/src/libwolfboot.c:300-302`; the cell `at` is at `ENDFLAGS - (4 + at)`. The selected sector is not changed by
the erase before. -/
def cache (c : NvCfg) (m : Mem) (at_ : Nat) (v : Byte) : Mem :=
  fun i => if i = c.e - (4 + at_) then v else m (c.base (c.select m) + i)

/-- `trailer_write`, `/repo/src/libwolfboot.c:290-322`, called by `set_trailer_at` (453-487). -/
def setOps (c : NvCfg) (m : Mem) (at_ : Nat) (v : Byte) : List NvOp :=
  c.selOps false m ++ .erase (!c.select m) :: (c.writes (!c.select m) (c.cache m at_ v) ++ [.erase (c.select m)])

/-- `NVM_CACHE` in `partition_magic_write`, `/repo/src/libwolfboot.c:343-344`. -/
def magicCache (c : NvCfg) (m : Mem) : Mem :=
  fun i => if c.e - 4 ≤ i ∧ i < c.e then magicByte (i - (c.e - 4)) else m (c.base (c.select m) + i)

/-- `partition_magic_write`, `/repo/src/libwolfboot.c:333-349`. The write of the sector is made of units, too. -/
def magicOps (c : NvCfg) (m : Mem) : List NvOp :=
  c.selOps false m ++ (c.writes (!c.select m) (c.magicCache m) ++ [.erase (c.select m)])

/-- The copy in `wolfBoot_update_trigger`, `/repo/src/libwolfboot.c:757-768`. -/
def copyOps (c : NvCfg) (m : Mem) : List NvOp :=
  c.selOps false m ++ .erase (!c.select m) :: (c.writes (!c.select m) (fun i => m (c.base (c.select m) + i)) ++ [.erase (c.select m)])

/-- `ENCRYPT_CACHE` in `hal_set_key`, `/repo/src/libwolfboot.c:1387-1406`: `key` is the key followed by the nonce, placed at the end of the flags. -/
def keyCache (c : NvCfg) (m : Mem) (key : List Byte) : Mem :=
  fun i => if c.e ≤ i ∧ i < c.e + key.length then key.getD (i - c.e) 0
    else if c.e - 4 ≤ i ∧ i < c.e then magicByte (i - (c.e - 4)) else m (c.base (c.select m) + i)

/-- `hal_set_key`, `/repo/src/libwolfboot.c:1358-1431`, without `FLAGS_HOME` and `MMU`. The selection is made before the flash is unlocked. -/
def keyOps (c : NvCfg) (m : Mem) (key : List Byte) : List NvOp :=
  c.selOps true m ++ (c.writes (!c.select m) (c.keyCache m key) ++ [.erase (c.select m)])

/-- `trailer_write` when `hal_flash_write` fails after `j` units: the loop stops, the selected sector is erased all the same,
`/repo/src/libwolfboot.c:309-318`. -/
def failOps (c : NvCfg) (m : Mem) (at_ : Nat) (v : Byte) (j : Nat) : List NvOp :=
  c.selOps false m ++ .erase (!c.select m) :: ((c.writes (!c.select m) (c.cache m at_ v)).take j ++ [.erase (c.select m)])

/-- The unit is erased. -/
def blank (c : NvCfg) (m : Mem) (b : Bool) (k : Nat) : Prop := ∀ i < c.u, m (c.base b + k * c.u + i) = c.er

instance (c m b k) : Decidable (blank c m b k) := inferInstanceAs (Decidable (∀ i < c.u, _))

/-- Effect of an operation. -/
def apply (c : NvCfg) (m : Mem) : NvOp → Mem
  | .erase b => fun x => if c.base b ≤ x ∧ x < c.base b + c.ss then c.er else m x
  | .write b k d => fun x => if c.base b + k * c.u ≤ x ∧ x < c.base b + k * c.u + c.u then d (x - c.base b) else m x

/-- Uninterrupted execution, `none` is a write to a unit that is not erased. -/
def exec (c : NvCfg) : List NvOp → Mem → Option Mem
  | [], m => some m
  | .erase b :: ops, m => exec c ops (c.apply m (.erase b))
  | .write b k d :: ops, m => if c.blank m b k then exec c ops (c.apply m (.write b k d)) else none

/-- Outcome of an operation interrupted by a power loss: an erase leaves anything in its sector but the magic, a write anything in its unit. The write of
a unit with bytes of the magic is not torn. -/
inductive Torn (c : NvCfg) : NvOp → Mem → Mem → Prop
  | erase {b m m'} (out : ∀ x, ¬ (c.base b ≤ x ∧ x < c.base b + c.ss) → m' x = m x) (mg : ¬ c.magic m' b) : Torn c (.erase b) m m'
  | write {b k d m m'} (out : ∀ x, ¬ (c.base b + k * c.u ≤ x ∧ x < c.base b + k * c.u + c.u) → m' x = m x)
      (mg : (k + 1) * c.u ≤ c.e - 4 ∨ c.e ≤ k * c.u) : Torn c (.write b k d) m m'

/-- Power loss at any operation of a list: before it or during it. After a violation anything is possible. -/
inductive Crash (c : NvCfg) : List NvOp → Mem → Mem → Prop
  | here {ops m} : Crash c ops m m
  | torn {op ops m m'} : Torn c op m m' → Crash c (op :: ops) m m'
  | erase {b ops m m'} : Crash c ops (c.apply m (.erase b)) m' → Crash c (.erase b :: ops) m m'
  | write {b k d ops m m'} : (c.blank m b k → Crash c ops (c.apply m (.write b k d)) m') → Crash c (.write b k d :: ops) m m'

/-- Byte read through `get_trailer_at`, `/repo/src/libwolfboot.c:399-441`. -/
def get (c : NvCfg) (m : Mem) (at_ : Nat) : Byte := m (c.base (c.select m) + c.e - (4 + at_))

/-- What the code can read from the flags: the magic is there and the cells are those of `F`. -/
def Reads (c : NvCfg) (m : Mem) (F : Nat → Byte) : Prop :=
  le32 m (c.base (c.select m) + c.e - 4) = MAGIC_TRAIL ∧ ∀ at_, 1 ≤ at_ → 4 + at_ ≤ c.e → c.get m at_ = F at_

/-- Well-formed configuration. -/
structure WF (c : NvCfg) : Prop where
  pos : 0 < c.u
  dvd : c.u ∣ c.ss
  e4 : 4 ≤ c.e
  ess : c.e ≤ c.ss
  low : 2 * c.ss ≤ c.a
  erased : c.er = 0xFF ∨ c.er = 0

end NvCfg

/-! ### Specification -/

/-- Operations on the flags. -/
inductive NvEv where
  | read (locked : Bool)
  | set (at_ : Nat) (v : Byte)
  | copy

/-- Flags after an operation, interrupted or not. -/
def NvEv.Spec (F : Nat → Byte) : NvEv → Bool → (Nat → Byte) → Prop
  | .set i v, false, F' => F' = fun j => if j = i then v else F j
  | .set i v, true, F' => F' = F ∨ F' = fun j => if j = i then v else F j
  | _, _, F' => F' = F

/-- Flags after a history. -/
inductive NvEv.Hist : (Nat → Byte) → List (NvEv × Bool) → (Nat → Byte) → Prop
  | nil {F} : Hist F [] F
  | cons {F F' F'' ev i h} : ev.Spec F i F' → Hist F' h F'' → Hist F ((ev, i) :: h) F''

namespace NvCfg

/-- Flash operations of an operation on the flags. -/
def ops (c : NvCfg) (m : Mem) : NvEv → List NvOp
  | .read lk => c.selOps lk m
  | .set i v => c.setOps m i v
  | .copy => c.copyOps m

/-- Histories of the code: operations that run to their end or are interrupted by a power loss, cells within the sector. -/
inductive Run (c : NvCfg) : Mem → List (NvEv × Bool) → Option Mem → Prop
  | nil {m} : Run c m [] (some m)
  | done {m ev m' h r} : (∀ i v, ev = .set i v → 1 ≤ i ∧ 4 + i ≤ c.e) → c.exec (c.ops m ev) m = some m' → Run c m' h r → Run c m ((ev, false) :: h) r
  | bad {m ev h} : (∀ i v, ev = .set i v → 1 ≤ i ∧ 4 + i ≤ c.e) → c.exec (c.ops m ev) m = none → Run c m ((ev, false) :: h) none
  | cut {m ev m' h r} : (∀ i v, ev = .set i v → 1 ≤ i ∧ 4 + i ≤ c.e) → c.Crash (c.ops m ev) m m' → Run c m' h r → Run c m ((ev, true) :: h) r

end NvCfg

end Verif
