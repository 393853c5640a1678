import Verif.Basic

/-!
# PKCS#11 object store: `/repo/src/pkcs11_store.c` (C34)

The vault is a memory whose offset 0 is `vault_base` (a multiple of the sector size): sector 0 holds the magic number, a bitmap of the used positions and
the table of nodes, sector 1 is the backup sector, the objects follow from sector 2 on. Numbers are natural numbers (`uint32_t` does not wrap:
the positions in the table are below `KEYVAULT_MAX_ITEMS`, see `VInv`). A function of the model returns its result and the list of flash
operations that it performs, so that the states in which power can fail are the prefixes of this list. Sizes are in bytes.
-/

namespace Verif

/-- `WOLFBOOT_SECTOR_SIZE`, `KEYVAULT_OBJ_SIZE`, `KEYVAULT_MAX_ITEMS`, `/repo/src/pkcs11_store.c:36-42`. -/
structure VCfg where
  ss : Nat
  obj : Nat
  items : Nat

/-- Type, token identifier and object identifier: the parameters that identify an object. -/
structure VKey where
  typ : Nat
  tok : Nat
  oid : Nat
deriving DecidableEq

/-- `VAULT_HEADER_MAGIC`, `/repo/src/pkcs11_store.c:110`. -/
def VMAGIC : Nat := 0x53434B50

/-- `PKCS11_INVALID_ID`, `/repo/src/pkcs11_store.c:99`. -/
def VNONE : Nat := 0xFFFFFFFF

/-! ## Flash -/

/-- Flash operations. -/
inductive VOp where
  | erase (off len : Nat)
  | write (off len : Nat) (d : Mem)

/-- `hal_flash_erase`, `hal_flash_write`: writing can only clear bits. -/
def VOp.run (v : Mem) : VOp → Mem
  | .erase off len => fun i => if off ≤ i ∧ i < off + len then 0xFF#8 else v i
  | .write off len d => fun i => if off ≤ i ∧ i < off + len then v i &&& d (i - off) else v i

/-- The operations one after the other. -/
def vRun (v : Mem) (l : List VOp) : Mem := l.foldl VOp.run v

/-- `cache_commit`, `/repo/src/pkcs11_store.c:177-191`; `c` is `cached_sector`. -/
def vCommit (g : VCfg) (off : Nat) (c : Mem) : List VOp :=
  [.erase g.ss g.ss, .write g.ss g.ss c, .erase off g.ss, .write off g.ss c]

/-- `restore_backup`, `/repo/src/pkcs11_store.c:193-201`. -/
def vRestore (g : VCfg) (off : Nat) (v : Mem) : List VOp :=
  [.erase off g.ss, .write off g.ss fun i => vRun v [.erase off g.ss] (g.ss + i)]

/-! ## `cached_sector` -/

/-- A 32-bit store into `cached_sector`. -/
def putW (c : Mem) (a x : Nat) : Mem := fun i =>
  if i = a then BitVec.ofNat 8 x
  else if i = a + 1 then BitVec.ofNat 8 (x / 256)
  else if i = a + 2 then BitVec.ofNat 8 (x / 65536)
  else if i = a + 3 then BitVec.ofNat 8 (x / 16777216)
  else c i

/-- `bitmap_put`, `/repo/src/pkcs11_store.c:132-143`. -/
def vBitPut (c : Mem) (pos : Nat) (val : Bool) : Mem := fun i =>
  if i = 4 + pos / 8 then (if val then c i ||| 1#8 <<< (pos % 8) else c i &&& ~~~(1#8 <<< (pos % 8))) else c i

/-- `bitmap_get`, `/repo/src/pkcs11_store.c:145-151`. -/
def vBit (v : Mem) (pos : Nat) : Bool := (v (4 + pos / 8)).getLsbD (pos % 8)

/-- `bitmap_find_free_pos`, `/repo/src/pkcs11_store.c:153-161`: `n` positions left to try, the next one is `i`. -/
def vFreePos (v : Mem) : Nat → Nat → Option Nat
  | 0, _ => none
  | n + 1, i => if vBit v i = false then some i else vFreePos v n (i + 1)

/-! ## Nodes (`struct obj_hdr`, `/repo/src/pkcs11_store.c:88-96`) -/

/-- The comparison of a node with the parameters, e.g. `/repo/src/pkcs11_store.c:257`. -/
def vMatch (v : Mem) (a : Nat) (k : VKey) : Bool := le32 v a = k.tok ∧ le32 v (a + 4) = k.oid ∧ le32 v (a + 8) = k.typ

/-- The loop over nodes, e.g. `/repo/src/pkcs11_store.c:256-279`: the first of `n` nodes from `a` on that matches. -/
def vScan (v : Mem) (k : VKey) : Nat → Nat → Option Nat
  | 0, _ => none
  | n + 1, a => if vMatch v a k then some a else vScan v k n (a + 32)

/-- The loop of `create_object`, `/repo/src/pkcs11_store.c:310-311,347`: the first free node. -/
def vFreeNode (v : Mem) : Nat → Nat → Option Nat
  | 0, _ => none
  | n + 1, a => if le32 v a = VNONE then some a else vFreeNode v n (a + 32)

/-- Number of iterations of the loops in `find_object_buffer` and `find_object_header`, `/repo/src/pkcs11_store.c:256,288`: they end
`WOLFBOOT_SECTOR_SIZE` bytes behind the start of the table, which is in the backup sector. Also the number of iterations in `delete_object` (234), which
starts at the beginning of the sector. -/
def VCfg.scan (g : VCfg) : Nat := (g.ss + 31) / 32

/-- Number of nodes in the header sector, `/repo/src/pkcs11_store.c:309-310`. -/
def VCfg.nodes (g : VCfg) : Nat := (g.ss - 128 + 31) / 32

/-- Offset of the buffer of position `p` (`/repo/src/pkcs11_store.c:259`). -/
def VCfg.data (g : VCfg) (p : Nat) : Nat := 2 * g.ss + p * g.obj

/-- `in_sector_off`, `/repo/src/pkcs11_store.c:262`. -/
def VCfg.io (g : VCfg) (p : Nat) : Nat := p * g.obj % g.ss

/-- `sector_base`, `/repo/src/pkcs11_store.c:264`. -/
def VCfg.base (g : VCfg) (p : Nat) : Nat := p * g.obj + 2 * g.ss - g.io p

/-! ## Functions -/

/-- `total_vault_size`, `/repo/src/pkcs11_store.c:206-209`. -/
def VCfg.total (g : VCfg) : Nat :=
  if g.items * g.obj % g.ss ≠ 0 then g.items * g.obj / g.ss * g.ss + g.ss else g.items * g.obj

/-- `cached_sector` of an empty vault, `/repo/src/pkcs11_store.c:217-220`. -/
def vFresh (g : VCfg) : Mem :=
  fun i => if 4 ≤ i ∧ i < 4 + (g.items / 8 + 1) then 0#8 else putW (fun _ => 0xFF#8) 0 VMAGIC i

/-- `check_vault`, `/repo/src/pkcs11_store.c:203-226`. -/
def vCheck (g : VCfg) (v : Mem) : List VOp :=
  if le32 v 0 = VMAGIC then []
  else if le32 v g.ss = VMAGIC then vRestore g 0 v
  else vCommit g 0 (vFresh g) ++ [.erase (2 * g.ss) g.total]

/-- `delete_object`, `/repo/src/pkcs11_store.c:228-245`. -/
def vDelete (g : VCfg) (k : VKey) (v : Mem) : List VOp :=
  let o := vCheck g v
  let c := vRun v o
  match vScan c k g.scan 0 with
  | none => o
  | some a => o ++ vCommit g 0 (vBitPut (putW (putW c a VNONE) (a + 4) VNONE) (le32 c (a + 12)) false)

/-- `find_object_buffer`, `/repo/src/pkcs11_store.c:252-281`: offset of the buffer. -/
def vFind (g : VCfg) (k : VKey) (v : Mem) : Option Nat × List VOp :=
  match vScan v k g.scan 128 with
  | none => (none, [])
  | some a =>
    let p := le32 v (a + 12)
    if le32 v (g.data p) ≠ k.tok ∨ le32 v (g.data p + 4) ≠ k.oid then
      if le32 v (g.ss + g.io p) = k.tok ∧ le32 v (g.ss + g.io p + 4) = k.oid then
        let o := vRestore g (g.base p) v
        (some (g.data (le32 (vRun v o) (a + 12))), o)
      else (none, vDelete g k v)
    else (some (g.data p), [])

/-- The node that `create_object` writes, `/repo/src/pkcs11_store.c:317-335`. -/
def vNode (c : Mem) (a : Nat) (k : VKey) (p : Nat) : Mem :=
  putW (putW (putW (putW (putW c (a + 12) p) a k.tok) (a + 4) k.oid) (a + 8) k.typ) (a + 16) 8

/-- `create_object`, `/repo/src/pkcs11_store.c:298-350`: offset of the node. -/
def vCreate (g : VCfg) (k : VKey) (v : Mem) : Option Nat × List VOp :=
  match vFind g k v with
  | (some _, o1) => (none, o1)
  | (none, o1) =>
    let v1 := vRun v o1
    match vFreeNode v1 g.nodes 128 with
    | none => (none, o1)
    | some a =>
      match vFreePos v1 g.items 0 with
      | none => (none, o1)
      | some p =>
        let o2 := vCommit g 0 (vBitPut (vNode v1 a k p) p true)
        let v2 := vRun v1 o2
        let c2 := putW (putW (fun i => v2 (g.base p + i)) (g.io p) k.tok) (g.io p + 4) k.oid
        (some a, o1 ++ (o2 ++ vCommit g (g.base p) c2))

/-- `update_store_size`, `/repo/src/pkcs11_store.c:352-365`; `a` is the offset of the node. -/
def vSetSize (g : VCfg) (a size : Nat) (v : Mem) : List VOp :=
  if a > g.ss then []
  else
    let o := vCheck g v
    o ++ vCommit g 0 (putW (vRun v o) (a + 16) size)

/-- `struct store_handle`, `/repo/src/pkcs11_store.c:117-123`, of an open store. -/
structure VHandle where
  ro : Bool
  buffer : Nat
  hdr : Nat
  off : Nat

/-- `openstores_handles`, `/repo/src/pkcs11_store.c:128`. -/
abbrev VHandles := Nat → Option VHandle

/-- `find_free_handle`, `/repo/src/pkcs11_store.c:373-381`. -/
def vFreeHandle (hs : VHandles) : Nat → Nat → Option Nat
  | 0, _ => none
  | n + 1, i => if (hs i).isNone then some i else vFreeHandle hs n (i + 1)

/-- Result of `wolfPKCS11_Store_Open`. -/
inductive VOpen where
  | ok (h : Nat)
  | sessionCount
  | notAvailable
  | full
deriving DecidableEq

/-- The last part of `wolfPKCS11_Store_Open`, `/repo/src/pkcs11_store.c:427-446`. -/
def vOpened (g : VCfg) (rd : Bool) (hs : VHandles) (h buf a : Nat) (v : Mem) : VOpen × VHandles × List VOp :=
  (.ok h, (fun i => if i = h then some ⟨rd, buf, a, 8⟩ else hs i), if rd then [] else vSetSize g a 8 v)

/-- `wolfPKCS11_Store_Open`, `/repo/src/pkcs11_store.c:383-447`. -/
def vOpen (g : VCfg) (k : VKey) (rd : Bool) (hs : VHandles) (v : Mem) : VOpen × VHandles × List VOp :=
  match vFreeHandle hs 16 0 with
  | none => (.sessionCount, hs, [])
  | some h =>
    let o0 := vCheck g v
    let v0 := vRun v o0
    match vFind g k v0 with
    | (none, o1) =>
      if rd then (.notAvailable, hs, o0 ++ o1)
      else
        let v1 := vRun v0 o1
        match vCreate g k v1 with
        | (none, o2) => (.full, hs, o0 ++ (o1 ++ o2))
        | (some a, o2) =>
          let v2 := vRun v1 o2
          match vFind g k v2 with
          | (none, o3) => (.notAvailable, hs, o0 ++ (o1 ++ (o2 ++ o3)))
          | (some buf, o3) =>
            let r := vOpened g rd hs h buf a (vRun v2 o3)
            (r.1, r.2.1, o0 ++ (o1 ++ (o2 ++ (o3 ++ r.2.2))))
    | (some buf, o1) =>
      let v1 := vRun v0 o1
      match vScan v1 k g.scan 128 with
      | none => (.notAvailable, hs, o0 ++ o1)
      | some a =>
        let r := vOpened g rd hs h buf a v1
        (r.1, r.2.1, o0 ++ (o1 ++ r.2.2))

/-- `wolfPKCS11_Store_Read`, `/repo/src/pkcs11_store.c:457-482`: the bytes that were read (`none`: -1), and the handle. -/
def vRead (g : VCfg) (x : VHandle) (len : Nat) (v : Mem) : Option (List Byte) × VHandle :=
  let size := le32 v (x.hdr + 16)
  if size > g.obj then (none, x)
  else if x.off ≥ size then (some [], x)
  else
    let len := if x.off + len > size then size - x.off else len
    (some (slice v (x.buffer + x.off) len), { x with off := x.off + len })

/-- The loop of `wolfPKCS11_Store_Write`, `/repo/src/pkcs11_store.c:510-526`: the new offset, `written`, and the operations. `d` is the memory at `buffer`.
Every iteration writes at least one byte, so that `len` iterations are enough. -/
def vWriteLoop (g : VCfg) (buf : Nat) (d : Mem) (len : Nat) : Nat → Nat → Nat → Mem → Nat × Nat × List VOp
  | 0, off, written, _ => (off, written, [])
  | fuel + 1, off, written, v =>
    if written < len then
      let io := (buf + off) % g.ss
      let base := buf + off - io
      let n := if g.ss - io > len then len else g.ss - io
      let o := vCommit g base fun i => if io ≤ i ∧ i < io + n then d (written + (i - io)) else v (base + i)
      let r := vWriteLoop g buf d len fuel (off + n) (written + n) (vRun v o)
      (r.1, r.2.1, o ++ r.2.2)
    else (off, written, [])

/-- `wolfPKCS11_Store_Write`, `/repo/src/pkcs11_store.c:484-530`: the result (`none`: -1), the handle, the operations. -/
def vWrite (g : VCfg) (x : VHandle) (d : Mem) (len : Nat) (v : Mem) : Option Nat × VHandle × List VOp :=
  if x.ro then (none, x, [])
  else
    let size := le32 v (x.hdr + 16)
    if size > g.obj then (none, x, [])
    else if x.off > g.obj ∧ len + x.off > g.obj then (none, x, [])
    else
      let len := if len + x.off > g.obj then g.obj - x.off else len
      let r := vWriteLoop g x.buffer d len len x.off 0 v
      let v1 := vRun v r.2.2
      (some len, { x with off := r.1 }, r.2.2 ++ vSetSize g x.hdr (size + r.2.1) v1)

/-- What an application reads from an object after a reset: it opens the object for reading and reads all of it. -/
def vGet (g : VCfg) (k : VKey) (v : Mem) : Option (List Byte) :=
  match vOpen g k true (fun _ => none) v with
  | (.ok h, hs, o) =>
    match hs h with
    | some x => (vRead g x g.obj (vRun v o)).1
    | none => none
  | _ => none

end Verif
