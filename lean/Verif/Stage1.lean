import Verif.HandOffThms

/-!
# The first stage on x86: memory layout, loading and verification of the second stage

Model of `start`, `memory_ready_entry`, `load_wolfboot`, `verify_payload`, `jump_into_wolfboot`
(`/repo/src/boot_x86_fsp.c`), of `/repo/src/stage2_params.c`, `panic` (`/repo/src/x86/common.c`) and
of the checksums of `/repo/src/x86/mptable.c`.

Simplifications: one memory with 32-bit addresses holds flash and RAM; the stack in use up to the jump, the
FSP (which initialises the memory and leaves the list of hand-off blocks), the TPM and the
output are left out; `memcpy` is between disjoint areas. The verification of the second stage is given by the
results of its three steps as functions of the memory (their model is `Image`); the construction of the page
tables and the use of the new stack are functions of the memory about which the theorems assume that they
change nothing else (the former is proved in `PagingThms`).
-/

namespace Verif.Stage1

open HandOff (wr)

/-- `memcpy(d, s, n)`, for disjoint areas (`/repo/src/boot_x86_fsp.c:213`). -/
def copy (m : Mem) (d s n : Nat) : Mem := fun x => if d ≤ x ∧ x < d + n then m (s + (x - d)) else m x

/-- `memset(a, 0, n)` (`/repo/src/boot_x86_fsp.c:218`). -/
def zero (m : Mem) (a n : Nat) : Mem := fun x => if a ≤ x ∧ x < a + n then 0 else m x

/-- Symbols of the linker and of the configuration, `/repo/src/boot_x86_fsp.c:107-121`. -/
structure Lk where
  /-- `WOLFBOOT_LOAD_BASE`, `IMAGE_HEADER_SIZE` -/
  load : Nat
  hdr : Nat
  /-- `_wolfboot_flash_start`, `_wolfboot_flash_end` -/
  fs : Nat
  fe : Nat
  /-- `_start_data`, `_end_data`, `_stored_data` -/
  ds : Nat
  de : Nat
  stored : Nat
  /-- `_start_bss`, `_end_bss` of this stage -/
  bs : Nat
  be : Nat
  /-- `wb_start_bss`, `wb_end_bss` of the second stage -/
  ws : Nat
  we : Nat
  /-- `_stage2_params` of the second stage -/
  s2 : Nat
  /-- `sizeof(struct stage2_parameter)`, `/repo/include/stage2_params.h:26-36` -/
  ps : Nat

/-- `range_overlaps`, `/repo/src/boot_x86_fsp.c:163-167`. -/
def overlaps (s1 e1 s2 e2 : Nat) : Bool := !(decide (e1 ≤ s2) || decide (e2 ≤ s1))

/-- `wb_start`, `/repo/src/boot_x86_fsp.c:173,209`. -/
def wbStart (L : Lk) : Nat := (L.load + 4294967296 - L.hdr) % 4294967296

/-- `wb_end`, a 32-bit sum, `/repo/src/boot_x86_fsp.c:174`. -/
def wbEnd (L : Lk) : Nat := (wbStart L + (L.fe - L.fs)) % 4294967296

/-- `check_memory_ranges() == 0`, `/repo/src/boot_x86_fsp.c:169-192`. -/
def checkRanges (L : Lk) : Bool :=
  !overlaps (wbStart L) (wbEnd L) L.ds L.de && !overlaps (wbStart L) (wbEnd L) L.bs L.be &&
    !overlaps L.ws L.we L.ds L.de && !overlaps L.ws L.we L.bs L.be

/-- The loop that copies `.data` word by word, `/repo/src/boot_x86_fsp.c:320-324`; `n` words are left. -/
def copyWords : Nat → Nat → Nat → Mem → Mem
  | 0, _, _, m => m
  | n + 1, d, s, m => copyWords n (d + 4) (s + 4) (wr m d 4 (le32 m s))

/-- `memory_init_data_bss`, `/repo/src/boot_x86_fsp.c:315-328`. -/
def dataBss (L : Lk) (m : Mem) : Mem :=
  zero (copyWords ((L.de - L.ds + 3) / 4) L.ds L.stored m) L.bs (L.be - L.bs)

/-- The copies of `load_wolfboot`, `/repo/src/boot_x86_fsp.c:209-218`. -/
def loadWb (L : Lk) (m : Mem) : Mem :=
  zero (copy m (wbStart L) L.fs (L.fe - L.fs)) L.ws (L.we - L.ws)

/-- The areas below the top of the memory. -/
structure Lay where
  stack : Nat
  params : Nat
  pt : Nat
  holder : Nat

/-- Number of bytes of the tables, `PAGE_TABLE_SIZE`, `/repo/src/x86/paging.c:26-32`. -/
def ptSize : Nat := 28672

/-- Address of the parameters, `/repo/src/boot_x86_fsp.c:618-620`. -/
def layParams (ps top : Nat) : Nat := (top + 8589934592 - 0x10000 - ps) % 4294967296

/-- Address of the page tables, `/repo/src/boot_x86_fsp.c:626-628`. -/
def layPt (p : Nat) : Nat := (p + 4294967296 - ptSize) % 4294967296 / 4096 * 4096

/-- Address of the holder of the pointer, `/repo/src/boot_x86_fsp.c:635-636`. -/
def layHolder (a : Nat) : Nat := (a + 4294967296 - 8) % 4294967296

/-- The layout computed by `start`, `/repo/src/boot_x86_fsp.c:614-638`. (`pt` is 0 without
`WOLFBOOT_64BIT`, from the `memset` of the parameters.) -/
def layout (w64 : Bool) (ps top : Nat) : Lay :=
  { stack := top
    params := layParams ps top
    pt := if w64 then layPt (layParams ps top) else 0
    holder := layHolder (if w64 then layPt (layParams ps top) else layParams ps top) }

/-- Memory and interrupt descriptor table register. -/
structure St where
  m : Mem
  idt : Nat

/-- `stage2_set_parameters(p, holder)`, `/repo/src/stage2_params.c:80-91`. -/
def setParams (p holder : Nat) (s : St) : St :=
  { m := wr (zero s.m (holder + 4) 4) holder 4 p, idt := holder + 4 }

/-- `stage2_get_parameters()`, `/repo/src/stage2_params.c:100-109`. -/
def getParams (s : St) : Nat := le32 s.m (s.idt - 4)

/-- `stage2_copy_parameter(p)`, `/repo/src/stage2_params.c:119-122`. -/
def copyParams (L : Lk) (p : Nat) (s : St) : St := { s with m := copy s.m L.s2 p L.ps }

/-- The parameters and the page tables in memory, `/repo/src/boot_x86_fsp.c:621-638`; `pol`, `polSize` are
the fields of `WOLFBOOT_TPM_SEAL` (`/repo/src/boot_x86_fsp.c:640-649`), which exist when `ps` is 18. -/
def fillParams (w64 : Bool) (ps hob pol polSize : Nat) (y : Lay) (m : Mem) : Mem :=
  let m := wr (zero m y.params ps) y.params 4 hob
  let m := if w64 then zero (wr m (y.params + 4) 4 y.pt) y.pt ptSize else m
  let m := wr m (y.params + 8) 4 y.holder
  if ps = 18 then wr (wr m (y.params + 12) 4 pol) (y.params + 16) 2 polSize else m

/-- The size of the policy, a 16-bit field, and its check, `/repo/src/boot_x86_fsp.c:643-645`. -/
def policySize (word avail : Nat) : Nat := if word % 65536 > avail then 0 else word % 65536

/-- Results of `wolfBoot_open_image_address`, `wolfBoot_verify_integrity`, `wolfBoot_verify_authenticity`
on the memory, `/repo/src/boot_x86_fsp.c:279-303`. -/
structure Checks where
  opn : Mem → Int
  integ : Mem → Int
  auth : Mem → Int

/-- The outside world. -/
structure Env where
  w64 : Bool
  /-- `STAGE1_AUTH` -/
  authOn : Bool
  /-- does the processor go on behind the `hlt` of `panic`, `/repo/src/x86/common.c:55-58,272-275`? -/
  wakes : Bool
  ck : Checks
  /-- construction of the page tables at an address -/
  build : Nat → Mem → Mem
  buildRet : Int
  /-- use of the new stack -/
  stk : Mem → Mem

/-- How the first stage ends: halted, or with a jump into the second stage; `checked` is the memory that has
been verified. -/
inductive Out where
  | halted
  | run (checked now : Mem)

/-- `if (bad) panic();` -/
def guard (E : Env) (ok : Bool) (k : Out) : Out := if ok || E.wakes then k else .halted

/-- `jump_into_wolfboot`, `/repo/src/boot_x86_fsp.c:229-253`. -/
def jump (E : Env) (L : Lk) (chk : Mem) (s : St) : Out :=
  if E.w64 then
    guard E (decide (E.buildRet = 0))
      (.run chk (copyParams L (getParams s) { s with m := E.build (le32 s.m (getParams s + 4)) s.m }).m)
  else .run chk (copyParams L (getParams s) s).m

/-- The change of the stack, `/repo/src/boot_x86_fsp.c:469`. -/
def enter (E : Env) (L : Lk) (s : St) : Out := jump E L s.m { s with m := E.stk s.m }

/-- `verify_payload` and the test of its result, `/repo/src/boot_x86_fsp.c:279-303,444-448`. -/
def verified (E : Env) (L : Lk) (s : St) : Out :=
  if E.authOn then
    guard E (decide (0 ≤ E.ck.opn s.m))
      (guard E (decide (0 ≤ E.ck.integ s.m))
        (guard E (decide (0 ≤ E.ck.auth s.m)) (guard E (decide (E.ck.auth s.m = 0)) (enter E L s))))
  else enter E L s

/-- `memory_ready_entry`, `/repo/src/boot_x86_fsp.c:398-470`. -/
def ready (E : Env) (L : Lk) (s : St) : Out :=
  guard E (checkRanges L) (verified E L { s with m := loadWb L (dataBss L s.m) })

/-- `start` behind the check of the top address, `/repo/src/boot_x86_fsp.c:614-653`. -/
def prepared (E : Env) (L : Lk) (t hob pol polSize : Nat) (m : Mem) : Out :=
  ready E L
    (setParams (layout E.w64 L.ps t).params (layout E.w64 L.ps t).holder
      ⟨fillParams E.w64 L.ps hob pol polSize (layout E.w64 L.ps t) m, 0⟩)

/-- `start` from the point where the FSP has initialised the memory, `/repo/src/boot_x86_fsp.c:601-658`.
`top` is the result of `get_top_address` (`HandOff.topAddress`); the variable has the value 4 GiB if it fails. -/
def start (E : Env) (L : Lk) (top : Option Nat) (hob pol polSize : Nat) (m : Mem) : Out :=
  guard E top.isSome
    (guard E (decide (top.getD 4294967296 < 4294967296))
      (prepared E L (top.getD 4294967296 % 4294967296) hob pol polSize m))

/-! ## MP table -/

/-- The sum in the loops of `calc_checksum`, `/repo/src/x86/mptable.c:471-473`: `n` bytes from `a`. -/
def sumBytes (m : Mem) (a : Nat) : Nat → Byte
  | 0 => 0
  | n + 1 => sumBytes m a n + m (a + n)

/-- `calc_checksum`, `/repo/src/x86/mptable.c:463-491`, of a table of `size` bytes at `b`: the sum of the
configuration table is at 16 + 7, that of the pointer structure at 10 (`/repo/include/x86/mptable.h`). -/
def calcChecksum (b size : Nat) (m : Mem) : Mem :=
  let m := wr m (b + 23) 1 0
  let m := wr m (b + 23) 1 (-(sumBytes m (b + 16) (size - 16))).toNat
  let m := wr m (b + 10) 1 0
  wr m (b + 10) 1 (-(sumBytes m b 16)).toNat

/-- One processor entry filled in by `mptable_setup`, `/repo/src/x86/mptable.c:514-519,526-531`; `a` is the address of the
entry, of 20 bytes (`/repo/include/x86/mptable.h`, `struct mp_conf_entry_processor`). The type is left alone. -/
def cpuEntry (a id ver flags sign : Nat) (m : Mem) : Mem :=
  let m := wr m (a + 1) 1 id
  let m := wr m (a + 2) 1 (ver % 256)
  let m := wr m (a + 3) 1 flags
  let m := wr m (a + 4) 4 sign
  let m := wr m (a + 8) 4 0
  wr (wr m (a + 16) 4 0) (a + 12) 4 0

/-- The loop `for (i = 1; i < 4; ++i)` of `mptable_setup`, `/repo/src/x86/mptable.c:525-532`: `k` entries from the
`i`-th. -/
def cpuLoop (b ver sign : Nat) : Nat → Nat → Mem → Mem
  | 0, _, m => m
  | k + 1, i, m => cpuLoop b ver sign k (i + 1) (cpuEntry (b + 60 + 20 * i) (i * 2) ver 1 sign m)

/-- `mptable_setup`, `/repo/src/x86/mptable.c:493-536`, of a table of `size` bytes with `cpus` processors (1, or 4 for the
Kontron target) at `b`; the initial value `_mptable` is at `tpl`; `id`, `ver` and `sign` are the registers of the local
APIC and the signature of the processor. -/
def mpSetup (b size cpus tpl id ver sign : Nat) (m : Mem) : Mem :=
  calcChecksum b size
    (cpuLoop b ver sign (cpus - 1) 1 (cpuEntry (b + 60) (id / 16777216) ver 3 sign (copy m b tpl size)))

end Verif.Stage1
