import Verif.FdtFind

/-!
# Images in a flattened tree (FIT)

`/repo/src/fdt.c:580-596,769-852` and the part of `wolfBoot_start` that loads the kernel and the device tree of a FIT,
`/repo/src/update_ram.c:279-307`. The memory of the target is a function of the address; the tree starts at `base` and `cap` bytes from there may be
read, those of the image that was verified. Pointers into the tree are offsets from `base`, as in `Fdt`; the other addresses are numbers below `top`
(2^32 or 2^64), 0 is `NULL`. `memcpy` between overlapping ranges is undefined; an unaligned read of a word is not. Messages printed are left out.
-/

namespace Verif

namespace Fit

/-- `"configurations"`, `/repo/src/fdt.c:777`. -/
def CONFIGURATIONS : List Byte := [0x63, 0x6f, 0x6e, 0x66, 0x69, 0x67, 0x75, 0x72, 0x61, 0x74, 0x69, 0x6f, 0x6e, 0x73]
/-- `"default"`, `/repo/src/fdt.c:779`. -/
def DEFAULT : List Byte := [0x64, 0x65, 0x66, 0x61, 0x75, 0x6c, 0x74]
/-- `"kernel"`, `/repo/src/fdt.c:787,793`. -/
def KERNEL : List Byte := [0x6b, 0x65, 0x72, 0x6e, 0x65, 0x6c]
/-- `"fdt"`, `/repo/src/fdt.c:788`. -/
def FDT : List Byte := [0x66, 0x64, 0x74]
/-- `"type"`, `/repo/src/fdt.c:793,803`. -/
def TYPE : List Byte := [0x74, 0x79, 0x70, 0x65]
/-- `"flat_dt"`, `/repo/src/fdt.c:803`. -/
def FLAT_DT : List Byte := [0x66, 0x6c, 0x61, 0x74, 0x5f, 0x64, 0x74]
/-- `"data"`, `/repo/src/fdt.c:831`. -/
def DATA : List Byte := [0x64, 0x61, 0x74, 0x61]
/-- `"load"`, `/repo/src/fdt.c:832`. -/
def LOAD : List Byte := [0x6c, 0x6f, 0x61, 0x64]
/-- `"entry"`, `/repo/src/fdt.c:833`. -/
def ENTRY : List Byte := [0x65, 0x6e, 0x74, 0x72, 0x79]

/-- The pointer returned by `fdt_getprop`, `none` for `NULL`. -/
def ptrOf : Fdt.GVal → Option Int
  | .found a _ => some a
  | .err _ => none

/-- The default configuration, `/repo/src/fdt.c:776-783`: pointer to its name. -/
def findConf (f : Fdt) : FM (Option Int) := do
  let off ← f.findNodeOffset (-1) CONFIGURATIONS
  if off > 0 then do
    match ← f.getprop off DEFAULT with
    | .found a len => pure (if len > 0 then some a else none)
    | .err _ => pure none
  else pure none

/-- The images of a configuration, `/repo/src/fdt.c:784-790`: pointers to the names of the kernel and the device tree. -/
def confImages (f : Fdt) (conf : Option Int) : FM (Option Int × Option Int) :=
  match conf with
  | none => pure (none, none)
  | some c => do
    let name ← f.str c
    let off ← f.findNodeOffset (-1) name
    if off > 0 then do
      let k ← f.getprop off KERNEL
      let d ← f.getprop off FDT
      pure (ptrOf k, ptrOf d)
    else pure (none, none)

/-- The first image of a type, `/repo/src/fdt.c:793-799,803-809`: pointer to the name of the node. -/
def byType (f : Fdt) (ty : List Byte) : FM (Option Int) := do
  let off ← f.findPropOffset (-1) TYPE ty
  if off > 0 then do
    match ← f.getName off with
    | .ok s => pure (if s.length > 0 then some (f.ptr off + 4) else none)
    | .error _ => pure none
  else pure none

/-- An image of the configuration, or the first of its type, `/repo/src/fdt.c:791-800,801-810`. -/
def orType (f : Fdt) (p : Option Int) (ty : List Byte) : FM (Option Int) :=
  match p with
  | some a => pure (some a)
  | none => byType f ty

/-- `fit_find_images`, `/repo/src/fdt.c:769-818`: pointers to the names of the configuration, the kernel and the device tree. -/
def findImages (f : Fdt) : FM (Option Int × Option Int × Option Int) := do
  let conf ← findConf f
  let (k, d) ← confImages f conf
  let k ← orType f k KERNEL
  let d ← orType f d FLAT_DT
  pure (conf, k, d)

/-- Big-endian value of bytes, `fdt32_to_cpu`, `fdt64_to_cpu`, `/repo/src/fdt.c:50-65`. -/
def beVal (l : List Byte) : Nat := l.foldl (fun v b => 256 * v + b.toNat) 0

/-- `fdt_getprop_address`, `/repo/src/fdt.c:580-596`; addresses have to be below `top`, higher bits are lost. -/
def propAddr (top : Nat) (f : Fdt) (off : Int) (name : List Byte) : FM Nat := do
  match ← f.getprop off name with
  | .err _ => pure 0
  | .found a len =>
    if len > 0 then
      if len = 8 then do
        let l ← f.bytes a 8
        pure (beVal l % top)
      else if len = 4 then do
        let l ← f.bytes a 4
        pure (beVal l % top)
      else pure 0
    else pure 0

/-- The target. -/
structure Cfg where
  /-- number of addresses, 2^32 or 2^64 -/
  top : Nat
  /-- `WOLFBOOT_LOAD_DTS_ADDRESS` -/
  dts : Nat

/-- The tree at `base` in memory. -/
def view (m : Mem) (base cap : Nat) : Fdt := ⟨fun a => m (base + a), cap⟩

/-- `memcpy`, `/repo/src/string.c:261-289`, of `n` bytes: the ranges are inside of the address space and do not overlap. -/
def copy (c : Cfg) (m : Mem) (dst src n : Nat) : FM Mem :=
  if dst + n > c.top ∨ src + n > c.top then throw .oob
  else if dst < src + n ∧ src < dst + n then throw .ub
  else pure (stBytes m dst (slice m src n))

/-- Where the image goes and what is returned, `/repo/src/fdt.c:834-841`: `data` is an offset, `len` the length of the data. A negative length is a
size close to `top`. -/
def place (c : Cfg) (m : Mem) (base cap : Nat) (data : Option Int) (len : Int) (load entry : Nat) : FM (Nat × Mem) :=
  match data with
  | none => pure (0, m)
  | some d =>
    if d < 0 then throw .oob
    else if load ≠ 0 ∧ base + d.toNat ≠ load then
      if len < 0 ∨ d.toNat + len.toNat > cap then throw .oob
      else do
        let m ← copy c m load (base + d.toNat) len.toNat
        pure (if entry ≠ 0 then entry else load, m)
    else pure (base + d.toNat, m)

/-- Length stored by `fdt_getprop`: on failure the error (`/repo/src/fdt.c:228-230,488-490`). -/
def lenOf : Fdt.GVal → Int
  | .found _ len => len
  | .err e => e

/-- `fit_load_image`, `/repo/src/fdt.c:820-852`, for the name at offset `image`: address, `*lenp` and memory. -/
def loadImage (c : Cfg) (m : Mem) (base cap : Nat) (image : Int) : FM (Nat × Int × Mem) := do
  let f := view m base cap
  let name ← f.str image
  let off ← f.findNodeOffset (-1) name
  if off > 0 then do
    let data ← f.getprop off DATA
    let load ← propAddr c.top f off LOAD
    let entry ← propAddr c.top f off ENTRY
    let (p, m) ← place c m base cap (ptrOf data) (lenOf data) load entry
    pure (p, lenOf data, m)
  else pure (0, 0, m)

/-- `wolfBoot_get_dts_size`, `/repo/src/image.c:1197-1204`. -/
def dtsSize (f : Fdt) : Int := if f.checkHeader = 0 then s32 f.total else f.checkHeader

/-- The kernel, `/repo/src/update_ram.c:289-291`: `load_address` and memory. -/
def bootKernel (c : Cfg) (m : Mem) (base cap : Nat) (k : Option Int) : FM (Nat × Mem) :=
  match k with
  | none => pure (base, m)
  | some k => do
    let (p, _, m) ← loadImage c m base cap k
    pure (p, m)

/-- The device tree, `/repo/src/update_ram.c:292-302`: `dts_addr` (0 before) and memory. The size of the copy is the length as `uint32_t`. -/
def bootDts (c : Cfg) (m : Mem) (base cap : Nat) (d : Option Int) : FM (Nat × Mem) :=
  match d with
  | none => pure (0, m)
  | some d => do
    let (p, len, m) ← loadImage c m base cap d
    if p ≠ 0 ∧ dtsSize (view m p 40) ≥ 0 then do
      let m ← copy c m c.dts p (fu32 len)
      pure (c.dts, m)
    else pure (0, m)

/-- What is handed to `do_boot`, `/repo/src/update_ram.c:279-307,348-350`: `load_address`, `dts_addr`, memory; `none` when the image is not a FIT. -/
def bootFit (c : Cfg) (m : Mem) (base cap : Nat) : FM (Option (Nat × Nat × Mem)) :=
  if dtsSize (view m base cap) > 0 then do
    let (_, k, d) ← findImages (view m base cap)
    let (p, m) ← bootKernel c m base cap k
    let (q, m) ← bootDts c m base cap d
    pure (some (p, q, m))
  else pure none

end Fit

end Verif
