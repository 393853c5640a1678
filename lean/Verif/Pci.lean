import Verif.Basic

/-!
# PCI enumeration

`/repo/src/pci.c` assigns addresses to the base address registers (BARs) of all PCI functions, numbers the
buses and programs the forwarding windows of bridges. The model follows the code function by function.

* A function without a bridge is its configuration space: 32-bit registers with a mask of writable bits
  (the BARs show their size this way).
* A bridge is its configuration header (bytes, all writable) and the slots of the bus behind it. The system
  is a tree. That configuration cycles for a bus number reach the bus of the bridge with that number is
  assumed; `pci_bus_numbers_partial` shows that the numbers are unambiguous.
* The loops over devices and functions are one loop over 256 slots.
-/

namespace Verif

abbrev U32 := BitVec 32

/-! ## Address arithmetic -/

/-- `align_up`, `/repo/src/pci.c:95-97`. -/
def pciAlignUp (address alignment : U32) : U32 := (address + alignment - 1) &&& ~~~(alignment - 1)

/-- `pci_align_check_up`, `/repo/src/pci.c:103-112`. -/
def pciAlignCheckUp (address alignment limit : U32) : Option U32 :=
  let a := pciAlignUp address alignment
  if a < address ∨ limit ≤ a then none else some a

/-- `pci_enum_next_aligned32`, `/repo/src/pci.c:379-397`. `addr` is an `uintptr_t`, but the mask `~align`
has 32 bits, so the result has as well. -/
def pciNextAligned (address align limit : U32) : Option U32 :=
  let align := align - 1
  let addr := (address + align) &&& ~~~align
  if addr < address then none else if limit ≤ addr then none else some addr

/-! ## Configuration space accesses -/

/-- `PCI_IO_CONFIG_ADDR`, `/repo/src/pci.c:196-203`: the value for port 0xcf8. -/
def pciCf8 (bus dev fn off : U32) : U32 :=
  (1#32 <<< 31) ||| (bus <<< 16) ||| (dev <<< 11) ||| (fn <<< 8) ||| ((off &&& 0xF00#32) <<< 16) ||| (off &&& 0xFF#32)

/-- The value for port 0xcf8 in `pci_io_config_read16` and `pci_io_config_write16`, `/repo/src/pci.c:226-274`,
for an even offset: the whole address is passed on as the offset. -/
def pciCf8In16 (bus dev fn off : U32) : U32 := pciCf8 bus dev fn (pciCf8 bus dev fn off &&& ~~~3#32)

/-- `pci_config_ecam_make_address`, `/repo/src/pci.c:137-145`; `+` binds tighter than `|`. -/
def pciEcam (base : U32) (bus dev fn off : U32) : U32 :=
  (base + ((bus &&& 0xff#32) <<< 20)) ||| ((dev &&& 0x1f#32) <<< 15) ||| ((fn &&& 7#32) <<< 12) ||| (off &&& 0xfff#32)

/-- The word that `pci_config_write8` writes back, `/repo/src/pci.c:316-330`; `reg` is the word read. -/
def pciPut8 (reg : U32) (off : Nat) (v : BitVec 8) : U32 :=
  (reg &&& ~~~(0xff#32 <<< (off % 4 * 8))) ||| (v.setWidth 32 <<< (off % 4 * 8))

/-- `pci_config_read8`, `/repo/src/pci.c:332-345`, from the word read. -/
def pciGet8 (reg : U32) (off : Nat) : BitVec 8 :=
  ((reg &&& (0xff#32 <<< (off % 4 * 8))) >>> (off % 4 * 8)).setWidth 8

/-- The word that `pci_config_write16` writes back, `/repo/src/pci.c:174-190,252-274`. -/
def pciPut16 (reg : U32) (off : Nat) (v : BitVec 16) : U32 :=
  if off % 4 = 0 then (reg &&& 0xffff0000#32) ||| v.setWidth 32 else (reg &&& 0xffff#32) ||| (v.setWidth 32 <<< 16)

/-- `pci_config_read16`, `/repo/src/pci.c:158-172,226-249`, from the word read. -/
def pciGet16 (reg : U32) (off : Nat) : BitVec 16 :=
  if off % 4 = 0 then (reg &&& 0xffff#32).setWidth 16 else (reg >>> 16).setWidth 16

/-- `pci_get_mmio_addr`, `/repo/src/pci.c:347-372`: the register it reads for BAR `bar`. -/
def pciMmioReg (bar : Nat) : Nat := 0x10 + bar * 8

/-! ## Functions and their BARs -/

/-- Configuration space of a function: registers (by word index) and the bits that can be written. -/
structure PFun where
  reg : Nat → U32
  wm : Nat → U32

/-- `pci_config_read32`, `/repo/src/pci.c:277-284`. -/
def PFun.read (f : PFun) (off : Nat) : U32 := f.reg (off / 4)

/-- `pci_config_write32`, `/repo/src/pci.c:286-294`; the low two bits of the offset do not matter. -/
def PFun.write (f : PFun) (off : Nat) (v : U32) : PFun :=
  { f with reg := fun i => if i = off / 4 then (f.reg i &&& ~~~f.wm i) ||| (v &&& f.wm i) else f.reg i }

/-- `struct pci_enum_info`, `/repo/include/pci.h:95-102`. -/
structure PInfo where
  mem : U32
  memLimit : U32
  io : U32
  pf : U32
  pfLimit : U32
  bus : BitVec 8

/-- The three address ranges that are handed out. -/
inductive PKind where
  | mem | pf | io
deriving DecidableEq

/-- Next free address, `/repo/src/pci.c:484-502`. -/
def PInfo.ptr (i : PInfo) : PKind → U32
  | .mem => i.mem
  | .pf => i.pf
  | .io => i.io

/-- The limit used for a kind, `/repo/src/pci.c:486,489,501`. -/
def PInfo.limit (i : PInfo) : PKind → U32
  | .mem => i.memLimit
  | .pf => i.pfLimit
  | .io => 0xffffffff#32

/-- `*base = v`, `/repo/src/pci.c:528`. -/
def PInfo.set (i : PInfo) (k : PKind) (v : U32) : PInfo :=
  match k with
  | .mem => { i with mem := v }
  | .pf => { i with pf := v }
  | .io => { i with io := v }

/-- An assigned BAR. `size` is the number of bytes the function decodes (2^32 for a mask of 0). -/
structure PAlloc where
  kind : PKind
  base : U32
  size : Nat

/-- Result of `pci_program_bar`. -/
structure PBarRes where
  ret : Bool
  is64 : Bool
  fn : PFun
  info : PInfo
  alloc : Option PAlloc

/-- `pci_enum_is_mmio`, `/repo/src/pci.c:374-377`. -/
def pciIsMmio (v : U32) : Bool := v &&& 1#32 = 0#32

/-- `pci_enum_is_64bit`, `/repo/src/pci.c:363-367`: bits 1 and 2 are 2. -/
def pciIs64 (v : U32) : Bool := (v &&& 6#32) >>> 1 = 2#32

/-- `pci_enum_is_prefetch`, `/repo/src/pci.c:369-372`. -/
def pciIsPf (v : U32) : Bool := v &&& 8#32 ≠ 0#32

/-- `bar_align`, `/repo/src/pci.c:468,496-500`. -/
def pciBarAlign (v : U32) : U32 :=
  if pciIsMmio v then v &&& ~~~0xf#32
  else
    let a := v &&& ~~~0x3#32
    if a &&& 0xffff0000#32 = 0#32 then a ||| 0xffff0000#32 else a

/-- Which range a BAR gets its address from, `/repo/src/pci.c:467,484-502`. -/
def pciKind (v : U32) : PKind :=
  if pciIsMmio v then (if pciIsPf v then .pf else .mem) else .io

/-- `/repo/src/pci.c:508-512`: `align`. -/
def pciAlign (v : U32) : U32 :=
  let length := ~~~(pciBarAlign v) + 1
  if length < 0x1000#32 then 0x1000#32 else length

/-- The second half of `pci_program_bar`, `/repo/src/pci.c:508-540`, for a BAR that read back `v`. The label
`restore_bar` writes to offset `bar_idx`. -/
def pciAssign (f : PFun) (idx : Nat) (orig v : U32) (is64 : Bool) (info : PInfo) : PBarRes :=
  match pciNextAligned (info.ptr (pciKind v)) (pciAlign v) (info.limit (pciKind v)) with
  | none => { ret := false, is64 := is64, fn := f.write idx orig, info := info, alloc := none }
  | some b =>
    let f := f.write (0x10 + idx * 4) b
    let f := if is64 then f.write (0x10 + idx * 4 + 4) 0#32 else f
    { ret := true, is64 := is64, fn := f, info := info.set (pciKind v) (b + (~~~(pciBarAlign v) + 1)),
      alloc := some { kind := pciKind v, base := b, size := 4294967296 - (pciBarAlign v).toNat } }

/-- `pci_program_bar`, `/repo/src/pci.c:430-541`. -/
def pciProgBar (f : PFun) (idx : Nat) (info : PInfo) : PBarRes :=
  if 6 ≤ idx then { ret := false, is64 := false, fn := f, info := info, alloc := none }
  else
    let off := 0x10 + idx * 4
    let orig := f.read off
    let f := f.write off 0xffffffff#32
    let v := f.read off
    if v = 0#32 then { ret := true, is64 := false, fn := f.write idx orig, info := info, alloc := none }
    else if pciIsMmio v ∧ pciIs64 v then
      let orig2 := f.read (off + 4)
      let f := f.write (off + 4) 0xffffffff#32
      if f.read (off + 4) ≠ 0xffffffff#32 then
        { ret := true, is64 := false, fn := (f.write (off + 4) orig2).write idx orig, info := info, alloc := none }
      else pciAssign f idx orig v true info
    else pciAssign f idx orig v false info

/-- The loop of `pci_program_bars`, `/repo/src/pci.c:572-580`, from `idx` on. -/
def pciBarsLoop (f : PFun) (info : PInfo) (idx : Nat) : PFun × PInfo × List PAlloc :=
  if idx < 6 then
    let r := pciProgBar f idx info
    if r.ret = false then (r.fn, r.info, r.alloc.toList)
    else
      let t := pciBarsLoop r.fn r.info (idx + 1 + if r.is64 then 1 else 0)
      (t.1, t.2.1, r.alloc.toList ++ t.2.2)
  else (f, info, [])
termination_by 6 - idx
decreasing_by split <;> omega

/-- `pci_config_write16` to the command register, `/repo/src/pci.c:569-570,582`: the status bits in the
other half of the word are written as read. -/
def PFun.setCmd (f : PFun) (cmd : U32) : PFun :=
  f.write 4 ((f.read 4 &&& 0xffff0000#32) ||| (cmd &&& 0xffff#32))

/-- `pci_program_bars`, `/repo/src/pci.c:561-585`. -/
def pciProgBars (f : PFun) (info : PInfo) : PFun × PInfo × List PAlloc :=
  let cmd := f.read 4 &&& 0xffff#32
  let r := pciBarsLoop (f.setCmd 0#32) info 0
  (r.1.setCmd cmd, r.2)

/-! ## The tree -/

mutual
/-- A function: `multi` is the multi-function bit of the header type. -/
inductive PTree where
  | dev (multi : Bool) (f : PFun)
  | bridge (multi : Bool) (hdr : Nat → Byte) (behind : PSlots)

/-- The slots of a bus: device 0 function 0, device 0 function 1, … -/
inductive PSlots where
  | nil
  | none (rest : PSlots)
  | some (t : PTree) (rest : PSlots)
end

/-- What the enumeration does, in order. `hdr` is the header of the bridge at the end; `ok`: the
windows were programmed. -/
inductive PEv where
  | done
  | alloc (a : PAlloc) (rest : PEv)
  | bridge (hdr : Nat → Byte) (ok : Bool) (behind rest : PEv)

/-- Events of two steps of the enumeration, one after the other (`/repo/src/pci.c:743-791`). -/
def PEv.append : PEv → PEv → PEv
  | .done, e => e
  | .alloc a r, e => .alloc a (r.append e)
  | .bridge h ok b r, e => .bridge h ok b (r.append e)

/-- The BARs of one function, as events. -/
def PEv.ofList : List PAlloc → PEv
  | [] => .done
  | a :: l => .alloc a (PEv.ofList l)

/-- `pci_config_write8` on a bridge, `/repo/src/pci.c:316-330`. -/
def hdrW8 (h : Nat → Byte) (off : Nat) (v : BitVec 8) : Nat → Byte :=
  fun i => if i = off then v else h i

/-- `pci_config_write16` on a bridge, `/repo/src/pci.c:306-314`. -/
def hdrW16 (h : Nat → Byte) (off : Nat) (v : BitVec 16) : Nat → Byte :=
  fun i => if i = off then v.setWidth 8 else if i = off + 1 then (v >>> 8).setWidth 8 else h i

/-- `pci_config_read16` on a bridge, `/repo/src/pci.c:296-304`. -/
def hdrR16 (h : Nat → Byte) (off : Nat) : BitVec 16 := (h (off + 1)) ++ (h off)

/-- `/repo/src/pci.c:634-653`: the three free addresses are aligned one after the other; the arguments
are the results of `align_check_up`, `none` is `goto err`. -/
def pciPre3 (h : Nat → Byte) (info : PInfo) : Option U32 → Option U32 → Option U32 →
    (Nat → Byte) × PInfo × Option PInfo
  | none, _, _ => (h, info, none)
  | some pf, none, _ => (h, { info with pf := pf }, none)
  | some pf, some mem, none => (h, { info with pf := pf, mem := mem }, none)
  | some pf, some mem, some io =>
    (h, { info with pf := pf, mem := mem, io := io }, some { info with pf := pf, mem := mem, io := io })

/-- The bus numbers, `/repo/src/pci.c:623-632`. -/
def pciPreHdr (bus : BitVec 8) (h : Nat → Byte) (n : BitVec 8) : Nat → Byte :=
  hdrW8 (hdrW8 (hdrW8 (hdrW16 h 0x04 0#16) 0x18 bus) 0x19 n) 0x1a 0xff#8

/-- `/repo/src/pci.c:623-653`: the part of `pci_program_bridge` before the bus behind is scanned:
bus numbers and alignment of the free ranges. -/
def pciBridgePre (bus : BitVec 8) (h : Nat → Byte) (info : PInfo) : (Nat → Byte) × PInfo × Option PInfo :=
  pciPre3 (pciPreHdr bus h (info.bus + 1)) { info with bus := info.bus + 1 }
    (pciAlignCheckUp info.pf 0x100000#32 info.pfLimit) (pciAlignCheckUp info.mem 0x100000#32 info.memLimit)
    (pciAlignCheckUp info.io 0x1000#32 0xffffffff#32)

/-- One of the three range updates, `/repo/src/pci.c:663-727`: `start` is the free address before the bus
was scanned. Result: `none` for `goto err`, else the new free address, and whether there is a window. -/
def pciRange (start cur align limit : U32) : Option (U32 × Bool) :=
  if start ≠ cur then (pciAlignCheckUp cur align limit).map (·, true) else some (cur, false)

/-- `/repo/src/pci.c:663-679`. -/
def pciPfWin (h : Nat → Byte) (start e : U32) (win : Bool) : Nat → Byte :=
  if win then hdrW16 (hdrW16 h 0x24 ((start >>> 16).setWidth 16)) 0x26 (((e - 1) >>> 16).setWidth 16)
  else hdrW16 (hdrW16 h 0x24 0xffff#16) 0x26 0#16

/-- `/repo/src/pci.c:682-699`. -/
def pciMemWin (h : Nat → Byte) (start e : U32) (win : Bool) : Nat → Byte :=
  if win then hdrW16 (hdrW16 h 0x20 ((start >>> 16).setWidth 16)) 0x22 (((e - 1) >>> 16).setWidth 16)
  else hdrW16 (hdrW16 h 0x20 0xffff#16) 0x22 0#16

/-- `/repo/src/pci.c:702-722`; `PCI_IO_BASE_OFF` is 0x30 and `PCI_IO_LIMIT_OFF` is 0x32. -/
def pciIoWin (h : Nat → Byte) (start e : U32) (win : Bool) : Nat → Byte :=
  if win then hdrW8 (hdrW8 h 0x30 ((start >>> 8).setWidth 8)) 0x32 (((e - 1) >>> 8).setWidth 8)
  else hdrW8 (hdrW8 h 0x30 0xff#8) 0x32 0#8

/-- `/repo/src/pci.c:663-735`: the three windows are closed one after the other; the arguments are the
results of the range updates. -/
def pciPost3 (h : Nat → Byte) (cmd : BitVec 16) (start info : PInfo) :
    Option (U32 × Bool) → Option (U32 × Bool) → Option (U32 × Bool) → (Nat → Byte) × PInfo × Bool
  | none, _, _ => (hdrW16 h 0x04 cmd, info, false)
  | some (pf, w1), none, _ =>
    (hdrW16 (pciPfWin h start.pf pf w1) 0x04 (if w1 then cmd ||| 2#16 else cmd), { info with pf := pf }, false)
  | some (pf, w1), some (mem, w2), none =>
    (hdrW16 (pciMemWin (pciPfWin h start.pf pf w1) start.mem mem w2) 0x04
      (if w1 || w2 then cmd ||| 2#16 else cmd), { info with pf := pf, mem := mem }, false)
  | some (pf, w1), some (mem, w2), some (io, w3) =>
    (hdrW16 (pciIoWin (pciMemWin (pciPfWin h start.pf pf w1) start.mem mem w2) start.io io w3) 0x04
      ((if w3 then 1#16 else 0#16) ||| (if w1 || w2 then cmd ||| 2#16 else cmd) ||| 4#16),
      { info with pf := pf, mem := mem, io := io }, true)

/-- The part of `pci_program_bridge` after the scan, `/repo/src/pci.c:658-735`. `start`: the ranges before
the scan. Result: header, ranges, success. -/
def pciBridgePost (h : Nat → Byte) (cmd : BitVec 16) (start info : PInfo) : (Nat → Byte) × PInfo × Bool :=
  pciPost3 (hdrW8 h 0x1a info.bus) cmd start info
    (pciRange start.pf info.pf 0x100000#32 info.pfLimit) (pciRange start.mem info.mem 0x100000#32 info.memLimit)
    (pciRange start.io info.io 0x1000#32 0xffffffff#32)

/-- The rest of `pci_program_bridge`, `/repo/src/pci.c:634-741`; the last argument is the result of
`pciBridgePre`, `h` the header at the start. -/
def pciBridgeK (h : Nat → Byte) (scan : PInfo → PInfo × PEv) : (Nat → Byte) × PInfo × Option PInfo → PInfo × PEv
  | (h1, info1, none) => (info1, .bridge (hdrW16 h1 0x04 (hdrR16 h 0x04)) false .done .done)
  | (h1, _, some info1) =>
    let r := scan info1
    let t := pciBridgePost h1 (hdrR16 h 0x04) info1 r.1
    (t.2.1, .bridge t.1 t.2.2 r.2 .done)

/-- `pci_program_bridge`, `/repo/src/pci.c:612-741`; `scan` is `pci_enum_bus` on the bus behind the bridge. -/
def pciBridge (bus : BitVec 8) (h : Nat → Byte) (info : PInfo) (scan : PInfo → PInfo × PEv) : PInfo × PEv :=
  pciBridgeK h scan (pciBridgePre bus h info)

/-- `pci_program_bars` on a device, `/repo/src/pci.c:776`. -/
def pciDev (f : PFun) (info : PInfo) : PInfo × PEv :=
  ((pciProgBars f info).2.1, PEv.ofList (pciProgBars f info).2.2)

/-- The multi-function bit, `/repo/src/pci.c:780-784`. -/
def PTree.multi : PTree → Bool
  | .dev m _ => m
  | .bridge m _ _ => m

/-- What one function and then the rest of the bus do. -/
def pciThen (r : PInfo × PEv) (rest : PInfo → PInfo × PEv) : PInfo × PEv :=
  ((rest r.1).1, r.2.append (rest r.1).2)

mutual
/-- One function: `/repo/src/pci.c:772-777`. -/
def pciTree (pre : BitVec 8 → Nat → Nat → Bool) : PTree → BitVec 8 → PInfo → PInfo × PEv
  | .dev _ f, _, info => pciDev f info
  | .bridge _ h behind, bus, info => pciBridge bus h info (fun i => pciSlots pre behind 0 false i.bus i)

/-- `pci_enum_bus`, `/repo/src/pci.c:743-791`, from slot `i` on. `skip`: the rest of the device is
skipped, because there is no function 0 or it is not a multi-function device. `pre` is
`pci_pre_enum_cb` (399-418). -/
def pciSlots (pre : BitVec 8 → Nat → Nat → Bool) :
    PSlots → (i : Nat) → (skip : Bool) → BitVec 8 → PInfo → PInfo × PEv
  | .nil, _, _, _, info => (info, .done)
  | .none rest, i, skip, bus, info =>
    pciSlots pre rest (i + 1) (if i % 8 = 0 then true else skip) bus info
  | .some t rest, i, skip, bus, info =>
    if i % 8 ≠ 0 ∧ skip = true then pciSlots pre rest (i + 1) true bus info
    else if pre bus (i / 8) (i % 8) then pciSlots pre rest (i + 1) false bus info
    else pciThen (pciTree pre t bus info)
      (fun i' => pciSlots pre rest (i + 1) (decide (i % 8 = 0) && !t.multi) bus i')
end

/-- The initial ranges, `/repo/src/pci.c:56-70,905-910`. -/
def pciInit : PInfo :=
  { mem := 0x80000000#32, memLimit := 0x87ffffff#32, pf := 0x88000000#32, pfLimit := 0xbfffffff#32,
    io := 0x2000#32, bus := 0#8 }

/-- `pci_enum_do`, `/repo/src/pci.c:892-927`, without `pci_pre_enum`. -/
def pciEnumDo (pre : BitVec 8 → Nat → Nat → Bool) (s : PSlots) : PInfo × PEv :=
  pciSlots pre s 0 false 0#8 pciInit

end Verif
