import Verif.Basic

/-!
# Delta patches: `/repo/src/delta.c`

Decoder `wb_patch` (in the bootloader) and encoder `wb_diff` (in the signing tool). The patch is memory
mapped (no `EXT_FLASH`).
-/

namespace Verif

/-- `ESC`, `/repo/src/delta.c:27`. -/
def ESC : Byte := 0x7F#8

/-! ## Decoder -/

/-- Mutable part of `WB_PATCH_CTX`, `/repo/include/delta.h`. -/
structure PCtx where
  pOff : Nat
  matching : Bool
  blkSz : Nat
  blkOff : Nat
deriving DecidableEq

/-- `wb_patch_init`, `/repo/src/delta.c:55-70`. -/
def patchInit : PCtx := ⟨0, false, 0, 0⟩

/-- Outcome of `wb_patch`: new context and produced bytes; -1; read outside of the base image or of
the patch; write behind the output buffer; no termination. -/
inductive PRes where
  | ok (c : PCtx) (out : List Byte)
  | err
  | oob
  | dst
  | fuel
deriving DecidableEq

/-- `memcpy` source: `n` bytes from offset `off`, `none` if one of them is outside of the region. -/
def rdRange (rd : Nat → Option Byte) (off : Nat) : Nat → Option (List Byte)
  | 0 => some []
  | n + 1 =>
    match rd off, rdRange rd (off + 1) n with
    | some b, some l => some (b :: l)
    | _, _ => none

/-- Loop of `wb_patch`, `/repo/src/delta.c:111-163`. `out` is `dst[0..dst_off)`. -/
def patchGo (src : Nat → Option Byte) (patch : List Byte) (len : Nat) : Nat → PCtx → List Byte → PRes
  | 0, _, _ => .fuel
  | fuel + 1, c, out =>
    if (c.matching = true ∨ c.pOff < patch.length) ∧ out.length < len then
      if c.matching = true then
        -- 115-127; `sz` is a `uint16_t`
        let sz := if c.blkSz % 65536 > len then len else c.blkSz % 65536
        if out.length + sz > len then .dst
        else match rdRange src c.blkOff sz with
          | none => .oob
          | some bs =>
            let c' := if c.blkSz > len then { c with blkSz := c.blkSz - len, blkOff := c.blkOff + len }
              else { c with blkSz := 0, blkOff := 0, matching := false }
            patchGo src patch len fuel c' (out ++ bs)
      else
        match patch[c.pOff]? with
        | none => .oob
        | some b =>
          if b = ESC then
            match patch[c.pOff + 1]? with
            | none => .oob
            | some o0 =>
              if o0 = ESC then
                -- 133-137
                patchGo src patch len fuel { c with pOff := c.pOff + 2 } (out ++ [ESC])
              else
                -- 139-158
                match patch[c.pOff + 2]?, patch[c.pOff + 3]?, patch[c.pOff + 4]?, patch[c.pOff + 5]? with
                | some o1, some o2, some s0, some s1 =>
                  let srcOff := o0.toNat * 65536 + o1.toNat * 256 + o2.toNat
                  let sz := s0.toNat * 256 + s1.toNat
                  let cp := if sz > len - out.length then len - out.length else sz
                  match rdRange src srcOff cp with
                  | none => .oob
                  | some bs =>
                    let c1 := if sz > len - out.length then
                        { c with matching := true, blkOff := srcOff + cp, blkSz := sz - cp }
                      else { c with matching := true }
                    let c2 := if sz = cp then { c1 with matching := false, blkOff := 0 } else c1
                    patchGo src patch len fuel { c2 with pOff := c2.pOff + 6 } (out ++ bs)
                | _, _, _, _ => .oob
          else
            -- 160-162
            patchGo src patch len fuel { c with pOff := c.pOff + 1 } (out ++ [b])
    else .ok c out

/-- `wb_patch`, `/repo/src/delta.c:100-165`. -/
def wbPatch (src : Nat → Option Byte) (patch : List Byte) (c : PCtx) (len : Nat) : PRes :=
  if len < 6 then .err else patchGo src patch len (2 * patch.length + 3) c []

/-! ## Encoder -/

/-- Six bytes of a block header, `/repo/src/delta.c:37-41,275-281` (values are truncated to 24 and 16
bits). -/
def blkHdr (off len : Nat) : List Byte :=
  [ESC, BitVec.ofNat 8 (off / 65536), BitVec.ofNat 8 (off / 256), BitVec.ofNat 8 off,
   BitVec.ofNat 8 (len / 256), BitVec.ofNat 8 len]

/-- One literal byte, `/repo/src/delta.c:344-351`. -/
def litBytes (b : Byte) : List Byte := if b = ESC then [ESC, ESC] else [b]

/-- `memcmp(x + i, y + j, 6) == 0`. -/
def eq6 (x y : Mem) (i j : Nat) : Bool :=
  x i == y j && x (i + 1) == y (j + 1) && x (i + 2) == y (j + 2) && x (i + 3) == y (j + 3) &&
    x (i + 4) == y (j + 4) && x (i + 5) == y (j + 5)

/-- Search in the base image, `/repo/src/delta.c:235-287` (the `while` with its first and third `if`;
the second one is implied by the loop condition in line 214). `pa` is an offset; `n` bounds the
number of iterations. -/
def scanA (a b : Mem) (sizeA off : Nat) : Nat → Nat → Option Nat
  | 0, _ => none
  | n + 1, pa =>
    if pa < sizeA then
      if sizeA - pa < 6 then none
      else if eq6 a b pa off then some pa
      else scanA a b sizeA off n (pa + 1)
    else none

/-- Extension of a match in the base image, `/repo/src/delta.c:256-270`: number of further bytes. `pa`,
`off` are the current positions, `bs` is `b_start`. Neither `pa` nor `off` is checked before the
bytes are compared, so one byte behind the base image and any number of bytes behind the new
image may be read; `a` and `b` contain arbitrary bytes there. -/
def extA (a b : Mem) (sizeA ss bs : Nat) : Nat → Nat → Nat → Nat
  | 0, _, _ => 0
  | n + 1, pa, off =>
    if a pa = b off then
      if pa + 1 ≥ sizeA then 0
      else if bs / ss < (off + 1) / ss then 0
      else extA a b sizeA ss bs n (pa + 1) (off + 1) + 1
    else 0

/-- Search in the part of the new image in front of the current sector, `/repo/src/delta.c:289-341`.
`pe` is `pb_end`. The three `break` conditions: the first is implied by the loop condition in line
214, the other two are here. -/
def scanB (b : Mem) (sizeB ss pe off : Nat) : Nat → Nat → Option Nat
  | 0, _ => none
  | n + 1, pb =>
    if pb < pe then
      if sizeB - pb < 6 then none
      else if ss > pe - pb then none
      else if eq6 b b pb off then some pb
      else scanB b sizeB ss pe off n (pb + 1)
    else none

/-- Extension of a match in the new image, `/repo/src/delta.c:314-327`. -/
def extB (b : Mem) (pe : Nat) : Nat → Nat → Nat → Nat
  | 0, _, _ => 0
  | n + 1, pb, off =>
    if b pb = b off then
      if pb + 1 ≥ pe then 0
      else extB b pe n (pb + 1) (off + 1) + 1
    else 0

/-- One iteration of the main loop of `wb_diff`, `/repo/src/delta.c:215-353`, at position `off` of the
new image: emitted bytes and new position. `match_len` is a `uint16_t`. -/
def diffStep (a b : Mem) (sizeA sizeB ss off : Nat) : List Byte × Nat :=
  let ps := off / ss * ss
  match (if ss - off % ss < 6 then none else scanA a b sizeA off (sizeA + 1) ps) with
  | some pa =>
    let e := extA a b sizeA ss off (sizeA + 1) (pa + 6) (off + 6)
    (blkHdr pa ((6 + e) % 65536), off + 6 + e)
  | none =>
    match scanB b sizeB ss ps off (ps + 1) 0 with
    | some pb =>
      let e := extB b ps (ps + 1) (pb + 6) (off + 6)
      (blkHdr pb ((6 + e) % 65536), off + 6 + e)
    | none => (litBytes (b off), off + 1)

/-- `wb_diff`, `/repo/src/delta.c:201-366`: one call with an output buffer of `len` bytes. First loop. -/
def diffMain (a b : Mem) (sizeA sizeB ss len : Nat) : Nat → Nat → List Byte → Nat × List Byte
  | 0, off, p => (off, p)
  | n + 1, off, p =>
    if off + 6 < sizeB ∧ len > p.length + 6 then
      diffMain a b sizeA sizeB ss len n (diffStep a b sizeA sizeB ss off).2
        (p ++ (diffStep a b sizeA sizeB ss off).1)
    else (off, p)

/-- Second loop of `wb_diff`, `/repo/src/delta.c:355-363`. -/
def diffTail (b : Mem) (sizeB len : Nat) : Nat → Nat → List Byte → Nat × List Byte
  | 0, off, p => (off, p)
  | n + 1, off, p =>
    if p.length < len - 6 ∧ off < sizeB then diffTail b sizeB len n (off + 1) (p ++ litBytes (b off))
    else (off, p)

/-- `wb_diff`: position and output. -/
def wbDiff (a b : Mem) (sizeA sizeB ss len off : Nat) : Nat × List Byte :=
  if off ≥ sizeB then (off, [])
  else
    let r := diffMain a b sizeA sizeB ss len (sizeB + 1) off []
    diffTail b sizeB len (sizeB + 1) r.1 r.2

/-- The loop of the signing tool, `/repo/tools/keytools/sign.c:1901-1915`: `wb_diff` is called with
buffers of `len` bytes until it returns 0. -/
def diffAll (a b : Mem) (sizeA sizeB ss len : Nat) : Nat → Nat → List Byte
  | 0, _ => []
  | n + 1, off =>
    let r := wbDiff a b sizeA sizeB ss len off
    if r.2 = [] then [] else r.2 ++ diffAll a b sizeA sizeB ss len n r.1

/-- The patch made by the signing tool. -/
def makePatch (a b : Mem) (sizeA sizeB ss len : Nat) : List Byte :=
  diffAll a b sizeA sizeB ss len (sizeB + 1) 0

/-! ## Sector-wise patching in place -/

/-- Inner loop of `wolfBoot_delta_update`, `/repo/src/update_flash.c:451-476` and 484-491: decode one
sector (`ss` bytes) in blocks of `blk` (`DELTA_BLOCK_SIZE`). -/
def sectorGo (src : Nat → Option Byte) (patch : List Byte) (blk ss : Nat) : Nat → PCtx → List Byte → PRes
  | 0, _, _ => .fuel
  | fuel + 1, c, out =>
    if out.length < ss then
      match wbPatch src patch c blk with
      | .ok c' o => if o = [] then .ok c' out else sectorGo src patch blk ss fuel c' (out ++ o)
      | r => r
    else .ok c out

/-- Memory with the sector at `off` replaced by the bytes `l`, followed by erased bytes: SWAP is erased
and `l` is written to it, `/repo/src/update_flash.c:450-476`, and it is copied to BOOT as a whole,
494. -/
def patchMem (m : Mem) (off ss : Nat) (l : List Byte) : Mem := fun x =>
  if off ≤ x ∧ x < off + ss then l.getD (x - off) 0xFF#8 else m x

/-- Main loop of `wolfBoot_delta_update` without power loss and without the trailer: each sector is
decoded from the current contents of BOOT and then written to BOOT
(`/repo/src/update_flash.c:446-520`). `size` is the size of the BOOT partition. -/
def patchSectors (patch : List Byte) (blk ss size : Nat) : Nat → Nat → PCtx → Mem → Option (PCtx × Mem)
  | 0, _, c, m => some (c, m)
  | n + 1, s, c, m =>
    match sectorGo (fun x => if x < size then some (m x) else none) patch blk ss (ss + 2) c [] with
    | .ok c' out => patchSectors patch blk ss size n (s + 1) c' (patchMem m (s * ss) ss out)
    | _ => none

end Verif
