import Verif.Basic
import Verif.Mpu

/-!
# From reset to `main`, and from `do_boot` to the application

`/repo/src/boot_arm.c:193-240,405-486`, `/repo/src/boot_aarch64.c:47-73`, `/repo/src/boot_arm32.c:39-51`, `/repo/src/boot_riscv.c:43-89`,
`/repo/src/boot_ppc.c:113-200`. Memory is a function of the address; pointers do not wrap in the loops over sections (the linker's symbols are inside of
the memory). `unsigned int` has four bytes. The registers of the processors are those that the code writes.
-/

namespace Verif

namespace StartUp

/-- One word copied, `/repo/src/boot_arm.c:224`. -/
def cpy4 (m : Mem) (dst src : Nat) : Mem := fun a => if dst ≤ a ∧ a < dst + 4 then m (src + (a - dst)) else m a

/-- One word cleared, `/repo/src/boot_arm.c:232`. -/
def zero4 (m : Mem) (dst : Nat) : Mem := fun a => if dst ≤ a ∧ a < dst + 4 then 0 else m a

/-- The loop over the data, `/repo/src/boot_arm.c:221-227`, `/repo/src/boot_aarch64.c:63-67`, `/repo/src/boot_riscv.c:57-61`, `/repo/src/boot_ppc.c:123-127`. -/
def copyWords (m : Mem) (src dst stop : Nat) : Mem :=
  if dst < stop then copyWords (cpy4 m dst src) (src + 4) (dst + 4) stop else m
termination_by stop - dst

/-- The loop over the variables without value, `/repo/src/boot_arm.c:230-234`, `/repo/src/boot_aarch64.c:52-56`, `/repo/src/boot_arm32.c:43-47`,
`/repo/src/boot_riscv.c:64-68`, `/repo/src/boot_ppc.c:130-135`. -/
def zeroWords (m : Mem) (dst stop : Nat) : Mem :=
  if dst < stop then zeroWords (zero4 m dst) (dst + 4) stop else m
termination_by stop - dst

/-- The symbols `_stored_data`, `_start_data`, `_end_data`, `_start_bss`, `_end_bss` of the linker, `/repo/src/boot_arm.c:30-34`. -/
structure Sections where
  stored : Nat
  data : Nat
  dataEnd : Nat
  bss : Nat
  bssEnd : Nat

/-- Memory when `main` starts: `isr_reset`, `/repo/src/boot_arm.c:218-235`; `_reset`, `/repo/src/boot_riscv.c:53-69`; `boot_entry_C`,
`/repo/src/boot_ppc.c:119-135`. -/
def startArm (l : Sections) (m : Mem) : Mem := zeroWords (copyWords m l.stored l.data l.dataEnd) l.bss l.bssEnd

/-- The same of `boot_entry_C`, `/repo/src/boot_aarch64.c:47-73`. -/
def startA64 (noXip : Bool) (l : Sections) (m : Mem) : Mem :=
  let m := zeroWords m l.bss l.bssEnd
  if noXip then m
  else if l.stored ≠ l.data then copyWords m l.stored l.data l.dataEnd
  else m

/-- The same of `boot_entry_C`, `/repo/src/boot_arm32.c:39-51`: the data is not copied. -/
def startA32 (l : Sections) (m : Mem) : Mem := zeroWords m l.bss l.bssEnd

/-! ## `do_boot` -/

/-- A word in memory, least significant byte first. -/
def word (m : Mem) (a : Nat) : Nat := (m a).toNat + 256 * (m (a + 1)).toNat + 65536 * (m (a + 2)).toNat + 16777216 * (m (a + 3)).toNat

/-- What `do_boot` sets on a Cortex-M (`/repo/src/boot_arm.c:405-416,425-486`): program counter, main stack pointer and its limit, the same of the
non-secure state, vector tables, `PRIMASK`, whether the code runs in the non-secure state, memory protection. -/
structure Cpu where
  pc : Nat
  msp : Nat
  msplim : Nat
  mspNs : Nat
  vtor : Nat
  vtorNs : Nat
  masked : Bool
  nonSecure : Bool
  mpu : Mpu.St

/-- Value of `VTOR` after a write, `/repo/src/boot_arm.c:447,470`: the seven low bits are not there. -/
def vtorOf (v : Nat) : Nat := v / 128 * 128

/-- `do_boot` of ARMv6-M and ARMv7-M, `/repo/src/boot_arm.c:463-484`. Bit 0 of the entry is not part of the address. -/
def bootV7 (noVtor : Bool) (m : Mem) (app : Nat) (c : Cpu) : Cpu :=
  let c := { c with mpu := Mpu.off c.mpu }
  let c := if noVtor then c else { c with masked := true, vtor := vtorOf app }
  let c := { c with msp := word m app / 4 * 4 }
  let c := if noVtor then c else { c with masked := false }
  { c with pc := word m (app + 4) / 2 * 2 }

/-- `do_boot` of ARMv8-M, `/repo/src/boot_arm.c:436-461`, with TrustZone (`tz`) or not. -/
def bootV8 (tz : Bool) (m : Mem) (app : Nat) (c : Cpu) : Cpu :=
  let sp := word m app
  let entry := word m (app + 4)
  let c := { c with masked := true, vtor := vtorOf app, msplim := 0 }
  if tz then { c with mspNs := sp / 4 * 4, masked := false, pc := entry / 2 * 2, nonSecure := true }
  else { c with msp := sp / 4 * 4, pc := entry / 2 * 2 }

/-- `mtvec` as set by `_reset`, `/repo/src/boot_riscv.c:49`: the address of the vector in bytes and 1. -/
def mtvecReset (vector : Nat) : Nat := vector + 1

/-- `mtvec` as set by `reloc_iv`, `/repo/src/boot_riscv.c:43-46`: `address` is a pointer to words. -/
def mtvecBoot (address : Nat) : Nat := address + 4

/-! ## The caches of PowerPC -/

/-- The condition of the loops of `flush_cache`, `/repo/src/boot_ppc.c:152,159`. -/
def flushing (start stop addr : Nat) : Prop := addr ≤ stop ∧ start ≤ addr

instance (start stop addr : Nat) : Decidable (flushing start stop addr) := by unfold flushing; infer_instance

/-- A loop of `flush_cache`, `/repo/src/boot_ppc.c:152-155,159-162`: the lines, or nothing if it has not ended after `fuel` rounds. -/
def flushLoop (L start stop : Nat) : Nat → Nat → Option (List Nat)
  | 0, _ => none
  | fuel + 1, addr =>
    if flushing start stop addr then (flushLoop L start stop fuel ((addr + L) % 4294967296)).map (addr :: ·) else some []

/-- `flush_cache`, `/repo/src/boot_ppc.c:145-167`: the lines written back and then invalidated. Both loops are the same. -/
def flushCache (L addr size fuel : Nat) : Option (List Nat) :=
  flushLoop L (addr / L * L) ((addr + size + 4294967295) % 4294967296) fuel (addr / L * L)

/-- `L1_CACHE_SZ`, `/repo/hal/nxp_ppc.h:179-181`. -/
def L1_CACHE_SZ : Nat := 32 * 1024

/-- The lines that `do_boot` flushes, `/repo/src/boot_ppc.c:187-188`. -/
def bootFlush (L app fuel : Nat) : Option (List Nat) := flushCache L app L1_CACHE_SZ fuel

end StartUp

end Verif
