import Verif.Basic

/-!
# Flattened device trees

`/repo/src/fdt.c`, `/repo/include/fdt.h`. A blob is a buffer of `cap` bytes. An access outside the buffer and a signed
overflow are outcomes of their own, and so is a loop that does not end. Pointers into the buffer are offsets from its start.
The header (40 bytes) is taken to be inside the buffer. Strings and values given by the caller are byte lists.
`int`, `uint32_t` and `size_t` conversions wrap, as in the C code: `s32`, `fu32`.
-/

namespace Verif

/-- Undefined behaviour. -/
inductive FErr
  /-- access outside of the buffer -/
  | oob
  /-- overflow of a signed `int` -/
  | ub
  deriving DecidableEq, Repr

/-- Result of a function: `none` is an endless loop. -/
abbrev FM := ExceptT FErr Option

/-- Buffer that holds the blob. -/
structure Fdt where
  m : Mem
  cap : Nat

/-- Conversion to `uint32_t`. -/
def fu32 (x : Int) : Nat := (x % 4294967296).toNat

/-- Conversion to `int`. -/
def s32 (x : Int) : Int := (x + 2147483648) % 4294967296 - 2147483648

/-- Result of an `int` operation, undefined on overflow. -/
def chk (x : Int) : FM Int :=
  if -2147483648 ≤ x ∧ x < 2147483648 then pure x else throw .ub

/-- 32-bit load of a big-endian field, `fdt32_to_cpu`, `/repo/src/fdt.c:50-57`. -/
def be32 (m : Mem) (a : Nat) : Nat :=
  16777216 * (m a).toNat + 65536 * (m (a + 1)).toNat + 256 * (m (a + 2)).toNat + (m (a + 3)).toNat

/-- The four bytes of a big-endian field, `cpu_to_fdt32`, `/repo/src/fdt.c:33-40`. -/
def beBytes (v : Nat) : List Byte :=
  [BitVec.ofNat 8 (v / 16777216), BitVec.ofNat 8 (v / 65536), BitVec.ofNat 8 (v / 256), BitVec.ofNat 8 v]

/-- Bytes `l` stored at `a`. -/
def stBytes (m : Mem) (a : Nat) (l : List Byte) : Mem :=
  fun i => if a ≤ i ∧ i < a + l.length then l.getD (i - a) 0 else m i

/-- 32-bit store, `cpu_to_fdt32`, `/repo/src/fdt.c:33-40`. -/
def stBe (m : Mem) (a v : Nat) : Mem := stBytes m a (beBytes v)

namespace Fdt

/-- Load of a byte. -/
def rd (f : Fdt) (a : Nat) : FM Byte := if a < f.cap then pure (f.m a) else throw .oob

/-- Load of a word. -/
def rd32 (f : Fdt) (a : Nat) : FM Nat := if a + 4 ≤ f.cap then pure (be32 f.m a) else throw .oob

/-- Store of bytes. -/
def wr (f : Fdt) (a : Nat) (l : List Byte) : FM Fdt :=
  if a + l.length ≤ f.cap then pure { f with m := stBytes f.m a l } else throw .oob

/-- `memmove`, `/repo/src/string.c:289-304`, see `memmove_exact_partial` for the loops. -/
def move (f : Fdt) (d s n : Nat) : FM Fdt :=
  if d + n ≤ f.cap ∧ s + n ≤ f.cap then
    pure { f with m := fun i => if d ≤ i ∧ i < d + n then f.m (s + (i - d)) else f.m i }
  else throw .oob

/-! ## Header: `/repo/include/fdt.h:37-48,106-128` -/

/-- `fdt_magic`, `/repo/include/fdt.h:107`. -/
def magic (f : Fdt) : Nat := be32 f.m 0
/-- `fdt_totalsize`, `/repo/include/fdt.h:108`. -/
def total (f : Fdt) : Nat := be32 f.m 4
/-- `fdt_off_dt_struct`, `/repo/include/fdt.h:109`. -/
def offStruct (f : Fdt) : Nat := be32 f.m 8
/-- `fdt_off_dt_strings`, `/repo/include/fdt.h:110`. -/
def offStrings (f : Fdt) : Nat := be32 f.m 12
/-- `fdt_version`, `/repo/include/fdt.h:112`. -/
def version (f : Fdt) : Nat := be32 f.m 20
/-- `fdt_last_comp_version`, `/repo/include/fdt.h:113`. -/
def lastComp (f : Fdt) : Nat := be32 f.m 24
/-- `fdt_size_dt_strings`, `/repo/include/fdt.h:115`. -/
def sizeStrings (f : Fdt) : Nat := be32 f.m 32
/-- `fdt_size_dt_struct`, `/repo/include/fdt.h:116`. -/
def sizeStruct (f : Fdt) : Nat := be32 f.m 36

/-- `fdt_set_totalsize`, `/repo/include/fdt.h:120`. -/
def setTotal (f : Fdt) (v : Nat) : Fdt := { f with m := stBe f.m 4 v }
/-- `fdt_set_off_dt_strings`, `/repo/include/fdt.h:122`. -/
def setOffStrings (f : Fdt) (v : Nat) : Fdt := { f with m := stBe f.m 12 v }
/-- `fdt_set_size_dt_strings`, `/repo/include/fdt.h:127`. -/
def setSizeStrings (f : Fdt) (v : Nat) : Fdt := { f with m := stBe f.m 32 v }
/-- `fdt_set_size_dt_struct`, `/repo/include/fdt.h:128`. -/
def setSizeStruct (f : Fdt) (v : Nat) : Fdt := { f with m := stBe f.m 36 v }

/-- `fdt_check_header`, `/repo/src/fdt.c:408-424`. -/
def checkHeader (f : Fdt) : Int :=
  if f.magic = 0xD00DFEED then
    if f.version < 0x10 then -2
    else if f.lastComp > 0x11 then -2
    else 0
  else if f.magic = 0x2FF20112 then
    if f.sizeStruct = 0 then -5 else 0
  else -1

/-! ## Structure block -/

/-- `FDT_TAGALIGN`, `/repo/include/fdt.h:73-74`, stored in an `int`. -/
def tagAlign (x : Int) : Int := s32 ((x + 3) / 4 * 4)

/-- `fdt_offset_ptr_`, `fdt_offset_ptr_w_`, `/repo/src/fdt.c:68-75`. -/
def ptr (f : Fdt) (offset : Int) : Int := f.offStruct + offset

/-- `fdt_data_size_`, `/repo/src/fdt.c:76-81`. -/
def dataSize (f : Fdt) : Int := s32 (f.offStrings + f.sizeStrings : Nat)

/-- `fdt_offset_ptr`, `/repo/src/fdt.c:83-103`. -/
def offsetPtr (f : Fdt) (offset : Int) (len : Nat) : Option Nat :=
  let uoffset := fu32 offset
  let absoffset := fu32 (offset + f.offStruct)
  if offset < 0 then none
  else if absoffset < uoffset ∨ fu32 (absoffset + len : Nat) < absoffset ∨ fu32 (absoffset + len : Nat) > f.total then none
  else if f.version ≥ 0x11 ∧ (fu32 (uoffset + len : Nat) < uoffset ∨ fu32 (uoffset + len : Nat) > f.sizeStruct) then none
  else some (f.offStruct + offset.toNat)

/-- Loop over the name of a node, `/repo/src/fdt.c:124-128`: the offset after the terminator, `none` when the block ends first. -/
def skipName (f : Fdt) (offset : Int) : FM (Option Int) := do
  let offset' ← chk (offset + 1)
  match f.offsetPtr offset 1 with
  | none => pure none
  | some p =>
    let b ← f.rd p
    if b ≠ 0 then skipName f offset' else pure (some offset')
partial_fixpoint

/-- `FDT_BEGIN_NODE` … `FDT_END`, `/repo/include/fdt.h:79-83`. -/
abbrev BEGIN_NODE : Nat := 1
abbrev END_NODE : Nat := 2
abbrev PROP : Nat := 3
abbrev NOP : Nat := 4
abbrev END : Nat := 9

/-- End of the tag at `startoffset`, by its kind, `/repo/src/fdt.c:121-152`: `none` is a return of `FDT_END`. -/
def tagEnd (f : Fdt) (tag : Nat) (offset : Int) : FM (Option Int) :=
  if tag = BEGIN_NODE then f.skipName offset
  else if tag = PROP then
    match f.offsetPtr offset 4 with
    | none => pure none
    | some lenp => do
      let len ← f.rd32 lenp
      let offset := s32 (offset + 12 - 4 + len)
      if f.version < 0x10 ∧ len ≥ 8 ∧ fu32 (offset - len) % 8 ≠ 0 then pure (some (s32 (offset + 4)))
      else pure (some offset)
  else if tag = END ∨ tag = END_NODE ∨ tag = NOP then pure (some offset)
  else pure none

/-- `fdt_next_tag`, `/repo/src/fdt.c:105-159`: the tag and `*nextoffset`. -/
def nextTag (f : Fdt) (startoffset : Int) : FM (Nat × Int) :=
  match f.offsetPtr startoffset 4 with
  | none => pure (END, -8)
  | some tagp => do
    let tag ← f.rd32 tagp
    match ← f.tagEnd tag (s32 (startoffset + 4)) with
    | none => pure (END, -3)
    | some offset => do
      let d ← chk (offset - startoffset)
      match f.offsetPtr startoffset (fu32 d) with
      | none => pure (END, -3)
      | some _ => pure (tag, tagAlign offset)

/-- `fdt_check_node_offset_`, `/repo/src/fdt.c:161-168`, and `fdt_check_prop_offset_`, `/repo/src/fdt.c:170-177`. -/
def checkOffset (f : Fdt) (tag : Nat) (offset : Int) : FM Int :=
  if offset < 0 ∨ fu32 offset % 4 ≠ 0 then pure (-4)
  else do
    let (t, next) ← f.nextTag offset
    if t ≠ tag then pure (-4) else pure next

/-- `fdt_next_property_`, `/repo/src/fdt.c:179-202`. -/
def nextProperty (f : Fdt) (offset : Int) : FM Int := do
  let (tag, next) ← f.nextTag offset
  if tag = END then
    if next ≥ 0 then pure (-3) else pure next
  else if tag = PROP then pure offset
  else if tag = NOP then nextProperty f next
  else pure (-6)
partial_fixpoint

/-- `fdt_first_property_offset`, `/repo/src/fdt.c:466-473`. -/
def firstPropertyOffset (f : Fdt) (nodeoffset : Int) : FM Int := do
  let offset ← f.checkOffset BEGIN_NODE nodeoffset
  if offset < 0 then pure offset else f.nextProperty offset

/-- `fdt_next_property_offset`, `/repo/src/fdt.c:474-480`. -/
def nextPropertyOffset (f : Fdt) (offset : Int) : FM Int := do
  let offset ← f.checkOffset PROP offset
  if offset < 0 then pure offset else f.nextProperty offset

/-- Loop of `strlen`, `/repo/src/string.c:249-257`, with `n` bytes left in the buffer: the string found. -/
def strGo (m : Mem) (a : Nat) : Nat → FM (List Byte)
  | 0 => throw .oob
  | n + 1 => if m a = 0 then pure [] else do
    let s ← strGo m (a + 1) n
    pure (m a :: s)

/-- String at an address. -/
def str (f : Fdt) (a : Int) : FM (List Byte) :=
  if a < 0 then throw .oob else strGo f.m a.toNat (f.cap - a.toNat)

/-- `fdt_get_string`, `/repo/src/fdt.c:523-530`: the string at the returned pointer; the length is its length. -/
def getString (f : Fdt) (stroffset : Int) : FM (List Byte) := f.str (f.offStrings + stroffset)

/-- A property found: address of the `struct fdt_property`, length, offset; or an error. -/
inductive GProp
  | found (prop : Int) (len : Int) (off : Int)
  | err (e : Int)
  deriving DecidableEq, Repr

/-- `fdt_get_property_by_offset`, `/repo/src/fdt.c:482-499`. -/
def getPropertyByOffset (f : Fdt) (offset : Int) : FM GProp := do
  let err ← f.checkOffset PROP offset
  if err < 0 then pure (.err err)
  else do
    let len ← f.rd32 (f.ptr offset + 4).toNat
    pure (.found (f.ptr offset) (s32 len) offset)

/-- Loop of `fdt_get_property`, `/repo/src/fdt.c:207-227`. -/
def getPropertyLoop (f : Fdt) (name : List Byte) (offset : Int) : FM GProp :=
  if offset < 0 then pure (.err offset)
  else do
    match ← f.getPropertyByOffset offset with
    | .err _ => pure (.err (-9))
    | .found prop len off =>
      let nameoff ← f.rd32 (prop + 8).toNat
      let s ← f.getString (s32 nameoff)
      if s = name then pure (.found prop len off)
      else do
        let next ← f.nextPropertyOffset offset
        getPropertyLoop f name next
partial_fixpoint

/-- `fdt_get_property`, `/repo/src/fdt.c:203-232`. -/
def getProperty (f : Fdt) (nodeoffset : Int) (name : List Byte) : FM GProp := do
  let offset ← f.firstPropertyOffset nodeoffset
  f.getPropertyLoop name offset

/-- A value found: its address and length. -/
inductive GVal
  | found (addr : Int) (len : Int)
  | err (e : Int)
  deriving DecidableEq, Repr

/-- `fdt_getprop`, `/repo/src/fdt.c:563-578`. -/
def getprop (f : Fdt) (nodeoffset : Int) (name : List Byte) : FM GVal := do
  match ← f.getProperty nodeoffset name with
  | .err e => pure (.err e)
  | .found prop len off =>
    if f.version < 0x10 ∧ fu32 (off + 12) % 8 ≠ 0 ∧ fu32 len ≥ 8 then pure (.found (prop + 12 + 4) len)
    else pure (.found (prop + 12) len)

/-! ## Changes -/

/-- `fdt_del_last_string_`, `/repo/src/fdt.c:234-238`. -/
def delLastString (f : Fdt) (s : List Byte) : Fdt :=
  f.setSizeStrings (fu32 ((f.sizeStrings : Int) - (s.length + 1)))

/-- `fdt_splice_`, `/repo/src/fdt.c:240-256`. -/
def splice (f : Fdt) (p oldlen newlen : Int) : FM (Int × Fdt) :=
  let fin := f.dataSize
  if p + oldlen < p ∨ p + oldlen > fin then pure (-4, f)
  else if p < 0 ∨ fin - oldlen + newlen < 0 then pure (-4, f)
  else if fin - oldlen + newlen > f.total then pure (-7, f)
  else if p + newlen < 0 then throw .oob
  else do
    let f ← f.move (p + newlen).toNat (p + oldlen).toNat (fin - p - oldlen).toNat
    pure (0, f)

/-- `fdt_splice_struct_`, `/repo/src/fdt.c:258-269`. -/
def spliceStruct (f : Fdt) (p oldlen newlen : Int) : FM (Int × Fdt) := do
  let delta ← chk (newlen - oldlen)
  let (err, f) ← f.splice p oldlen newlen
  if err = 0 then
    let f := f.setSizeStruct (fu32 (f.sizeStruct + delta))
    pure (err, f.setOffStrings (fu32 (f.offStrings + delta)))
  else pure (err, f)

/-- `fdt_resize_property_`, `/repo/src/fdt.c:271-289`: error, address of the property, new blob. -/
def resizeProperty (f : Fdt) (nodeoffset : Int) (name : List Byte) (len : Int) : FM (Int × Int × Fdt) := do
  match ← f.getProperty nodeoffset name with
  | .found prop oldlen _ =>
    let (err, f) ← f.spliceStruct (prop + 12) (tagAlign oldlen) (tagAlign len)
    if err = 0 then
      let f ← f.wr (prop + 4).toNat (beBytes (fu32 len))
      pure (err, prop, f)
    else pure (err, prop, f)
  | .err e => pure (e, 0, f)

/-- `fdt_splice_string_`, `/repo/src/fdt.c:291-301`. -/
def spliceString (f : Fdt) (newlen : Int) : FM (Int × Fdt) := do
  let (err, f) ← f.splice ((f.offStrings : Int) + f.sizeStrings) 0 newlen
  if err ≠ 0 then pure (err, f)
  else pure (0, f.setSizeStrings (fu32 (f.sizeStrings + newlen)))

/-- Loop of `fdt_find_string_`, `/repo/src/fdt.c:309-313`, with `n` rounds to go; `memcmp` is taken to access all bytes. -/
def findStringGo (f : Fdt) (tab : Nat) (s : List Byte) (i : Nat) : Nat → FM (Option Nat)
  | 0 => pure none
  | n + 1 =>
    if tab + i + s.length > f.cap then throw .oob
    else if slice f.m (tab + i) s.length = s then pure (some i)
    else findStringGo f tab s (i + 1) n

/-- `fdt_find_string_`, `/repo/src/fdt.c:303-315`: offset of the string in the table. -/
def findString (f : Fdt) (tab : Nat) (tabsize : Int) (s : List Byte) : FM (Option Nat) :=
  f.findStringGo tab (s ++ [0]) 0 (tabsize - (s.length + 1) + 1).toNat

/-- `fdt_find_add_string_`, `/repo/src/fdt.c:317-339`: offset or error, whether allocated, new blob. -/
def findAddString (f : Fdt) (s : List Byte) : FM (Int × Bool × Fdt) := do
  match ← f.findString f.offStrings (s32 f.sizeStrings) s with
  | some i => pure (i, false, f)
  | none =>
    let new := f.offStrings + f.sizeStrings
    let off := s32 f.sizeStrings
    let (err, f) ← f.spliceString (s.length + 1)
    if err ≠ 0 then pure (err, false, f)
    else do
      let f ← f.wr new (s ++ [0])
      pure (off, true, f)

/-- `fdt_add_property_`, `/repo/src/fdt.c:341-369`. -/
def addProperty (f : Fdt) (nodeoffset : Int) (name : List Byte) (len : Int) : FM (Int × Int × Fdt) := do
  let next ← f.checkOffset BEGIN_NODE nodeoffset
  if next < 0 then pure (next, 0, f)
  else do
    let (namestroff, allocated, f) ← f.findAddString name
    if namestroff < 0 then pure (namestroff, 0, f)
    else do
      let prop := f.ptr next
      let proplen := s32 (12 + tagAlign len)
      let (err, f) ← f.spliceStruct prop 0 proplen
      if err ≠ 0 then
        if allocated then pure (err, prop, f.delLastString name) else pure (err, prop, f)
      else do
        let f ← f.wr prop.toNat (beBytes PROP)
        let f ← f.wr (prop + 8).toNat (beBytes (fu32 namestroff))
        let f ← f.wr (prop + 4).toNat (beBytes (fu32 len))
        pure (0, prop, f)

/-- `fdt_setprop`, `/repo/src/fdt.c:533-561`; `len` is the length of `val`. -/
def setprop (f : Fdt) (nodeoffset : Int) (name val : List Byte) : FM (Int × Fdt) :=
  let len : Int := val.length
  if s32 f.total > 0 then do
    let (err, prop, f) ← f.resizeProperty nodeoffset name len
    let (err, prop, f) ← if err = -6 then f.addProperty nodeoffset name len else pure (err, prop, f)
    if err = 0 then
      if len > 0 then do
        let f ← f.wr (prop + 12).toNat val
        pure (0, f)
      else pure (0, f)
    else pure (err, f)
  else pure (3, f)

/-! ## Nodes -/

/-- Loop of `fdt_next_node`, `/repo/src/fdt.c:435-461`; `depth` is `none` for a null pointer. -/
def nextNodeLoop (f : Fdt) (offset : Int) (depth : Option Int) : FM (Int × Option Int) := do
  let (tag, next) ← f.nextTag offset
  if tag = BEGIN_NODE then
    match depth with
    | none => pure (offset, none)
    | some d => do
      let d ← chk (d + 1)
      pure (offset, some d)
  else if tag = END_NODE then
    match depth with
    | none => nextNodeLoop f next none
    | some d => do
      let d ← chk (d - 1)
      if d < 0 then pure (next, some d) else nextNodeLoop f next (some d)
  else if tag = END then
    if next ≥ 0 ∨ (next = -8 ∧ depth = none) then pure (-6, depth) else pure (next, depth)
  else nextNodeLoop f next depth
partial_fixpoint

/-- `fdt_next_node`, `/repo/src/fdt.c:426-464`: offset and `*depth`. -/
def nextNode (f : Fdt) (offset : Int) (depth : Option Int) : FM (Int × Option Int) :=
  if offset ≥ 0 then do
    let next ← f.checkOffset BEGIN_NODE offset
    if next < 0 then pure (next, depth) else f.nextNodeLoop next depth
  else f.nextNodeLoop 0 depth

/-- `fdt_get_name`, `/repo/src/fdt.c:501-521`: the name, or an error. -/
def getName (f : Fdt) (nodeoffset : Int) : FM (Except Int (List Byte)) := do
  let err := f.checkHeader
  if err = 0 then do
    let err ← f.checkOffset BEGIN_NODE nodeoffset
    if err ≥ 0 then do
      let s ← f.str (f.ptr nodeoffset + 4)
      pure (.ok s)
    else pure (.error err)
  else pure (.error err)

/-- `fdt_nodename_eq_`, `/repo/src/fdt.c:372-385`, for a name `s` of its full length. -/
def nodenameEq (f : Fdt) (offset : Int) (s : List Byte) : FM Bool :=
  match f.offsetPtr (s32 (offset + 4)) (fu32 (s.length + 1)) with
  | none => pure false
  | some p => do
    if p + s.length > f.cap then throw .oob
    else if slice f.m p s.length ≠ s then pure false
    else do
      let b ← f.rd (p + s.length)
      if b = 0 then pure true
      else if 0x40 ∉ s ∧ b = 0x40 then pure true
      else pure false

/-- Loop of `fdt_subnode_offset_namelen`, `/repo/src/fdt.c:391-398`. -/
def subnodeLoop (f : Fdt) (name : List Byte) (offset : Int) (depth : Int) : FM Int := do
  if offset ≥ 0 ∧ depth ≥ 0 then
    let eq ← if depth = 1 then f.nodenameEq offset name else pure false
    if eq then pure offset
    else do
      let (offset, depth) ← f.nextNode offset (some depth)
      match depth with
      | none => pure offset
      | some depth => subnodeLoop f name offset depth
  else if depth < 0 then pure (-6)
  else pure offset
partial_fixpoint

/-- `fdt_subnode_offset_namelen`, `/repo/src/fdt.c:387-403`. -/
def subnodeOffset (f : Fdt) (offset : Int) (name : List Byte) : FM Int := f.subnodeLoop name offset 0

/-- Loop of `fdt_add_subnode` over the properties, `/repo/src/fdt.c:696-699`. -/
def skipProps (f : Fdt) (next : Int) : FM Int := do
  let (tag, next') ← f.nextTag next
  if tag = PROP ∨ tag = NOP then skipProps f next' else pure next
partial_fixpoint

/-- `fdt_add_subnode`, `/repo/src/fdt.c:674-714`. -/
def addSubnode (f : Fdt) (parentoff : Int) (name : List Byte) : FM (Int × Fdt) := do
  let err := f.checkHeader
  if err ≠ 0 then pure (err, f)
  else do
    let offset ← f.subnodeOffset parentoff name
    if offset ≥ 0 then pure (-10, f)
    else if offset ≠ -6 then pure (offset, f)
    else do
      let (_, next) ← f.nextTag parentoff
      let offset ← f.skipProps next
      let nh := f.ptr offset
      let pad := tagAlign (name.length + 1)
      let nodelen := s32 (4 + pad + 4)
      let (err, f) ← f.spliceStruct nh 0 nodelen
      if err = 0 then do
        let f ← f.wr nh.toNat (beBytes BEGIN_NODE)
        let f ← f.wr (nh + 4).toNat (List.replicate pad.toNat 0)
        let f ← f.wr (nh + 4).toNat name
        let f ← f.wr (nh + nodelen - 4).toNat (beBytes END_NODE)
        pure (offset, f)
      else pure (err, f)

/-- Loop of `fdt_del_node`, `/repo/src/fdt.c:728-730`. -/
def delLoop (f : Fdt) (endoffset : Int) (depth : Int) : FM Int := do
  if endoffset ≥ 0 ∧ depth ≥ 0 then
    let (endoffset, depth) ← f.nextNode endoffset (some depth)
    match depth with
    | none => pure endoffset
    | some depth => delLoop f endoffset depth
  else pure endoffset
partial_fixpoint

/-- `fdt_del_node`, `/repo/src/fdt.c:716-736`. -/
def delNode (f : Fdt) (nodeoffset : Int) : FM (Int × Fdt) := do
  let err := f.checkHeader
  if err ≠ 0 then pure (err, f)
  else do
    let endoffset ← f.delLoop nodeoffset 0
    if endoffset < 0 then pure (endoffset, f)
    else do
      let len ← chk (endoffset - nodeoffset)
      f.spliceStruct (f.ptr nodeoffset) len 0

/-- `fdt_shrink`, `/repo/src/fdt.c:740-744`. -/
def shrink (f : Fdt) : Fdt := f.setTotal (fu32 f.dataSize)

/-- Loop of `fdt_find_node_offset`, `/repo/src/fdt.c:607-615`. -/
def findNodeLoop (f : Fdt) (name : List Byte) (off : Int) : FM Int := do
  if off < 0 then pure off
  else do
    match ← f.getName off with
    | .ok s =>
      if s = name then pure off
      else do
        let (off, _) ← f.nextNode off none
        findNodeLoop f name off
    | .error _ => do
      let (off, _) ← f.nextNode off none
      findNodeLoop f name off
partial_fixpoint

/-- `fdt_find_node_offset`, `/repo/src/fdt.c:598-617`. -/
def findNodeOffset (f : Fdt) (startoff : Int) (name : List Byte) : FM Int := do
  let (off, _) ← f.nextNode startoff none
  f.findNodeLoop name off

/-- Bytes of a found value compared by `memcmp`. -/
def bytes (f : Fdt) (a : Int) (n : Nat) : FM (List Byte) :=
  if 0 ≤ a ∧ a.toNat + n ≤ f.cap then pure (slice f.m a.toNat n) else throw .oob

/-- Loop of `fdt_find_prop_offset`, `/repo/src/fdt.c:629-637`. -/
def findPropLoop (f : Fdt) (propname propval : List Byte) (off : Int) : FM Int := do
  if off < 0 then pure off
  else do
    let v ← f.getprop off propname
    let hit ← match v with
      | .err _ => pure false
      | .found a len =>
        if len = (propval.length : Int) + 1 then do
          let l ← f.bytes a (propval.length + 1)
          pure (decide (l = propval ++ [0]))
        else pure false
    if hit then pure off
    else do
      let (off, _) ← f.nextNode off none
      findPropLoop f propname propval off
partial_fixpoint

/-- `fdt_find_prop_offset`, `/repo/src/fdt.c:619-639`. -/
def findPropOffset (f : Fdt) (startoff : Int) (propname propval : List Byte) : FM Int := do
  let (off, _) ← f.nextNode startoff none
  f.findPropLoop propname propval off

/-- Loop over a list of strings, `/repo/src/fdt.c:659-669`. -/
def compatLoop (f : Fdt) (compatible : List Byte) (prop : Int) (len : Int) : FM Bool := do
  if len ≥ compatible.length then
    let l ← f.bytes prop (compatible.length + 1)
    if l = compatible ++ [0] then pure true
    else do
      let l ← f.bytes prop len.toNat
      match l.findIdx? (· = 0) with
      | some i => compatLoop f compatible (prop + i + 1) (len - (i + 1))
      | none => compatLoop f compatible prop len
  else pure false
partial_fixpoint

/-- Loop of `fdt_node_offset_by_compatible`, `/repo/src/fdt.c:651-670`. -/
def byCompatLoop (f : Fdt) (compatible : List Byte) (off : Int) : FM Int := do
  if off < 0 then pure off
  else do
    let hit ← match ← f.getprop off [0x63, 0x6f, 0x6d, 0x70, 0x61, 0x74, 0x69, 0x62, 0x6c, 0x65] with
      | .err _ => pure false
      | .found a len => f.compatLoop compatible a len
    if hit then pure off
    else do
      let (off, _) ← f.nextNode off none
      byCompatLoop f compatible off
partial_fixpoint

/-- `fdt_node_offset_by_compatible`, `/repo/src/fdt.c:646-672`. -/
def nodeByCompatible (f : Fdt) (startoff : Int) (compatible : List Byte) : FM Int := do
  let (off, _) ← f.nextNode startoff none
  f.byCompatLoop compatible off

end Fdt

end Verif
