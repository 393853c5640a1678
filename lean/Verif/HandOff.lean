import Verif.Gpt

/-!
# What the x86 loader tells the operating system about the memory

Model of `/repo/src/x86/hob.c` (the list of hand-off blocks that the FSP leaves in memory),
`/repo/src/multiboot.c` (search for the Multiboot2 header of the payload, construction of the boot
information) and of the memory map, header and kernel copies of `/repo/src/x86/linux_loader.c`.

Simplifications: pointers are natural numbers, without wrap-around at the end of the address space;
the buffers that are written are disjoint from the lists that are read. Loops take fuel, and running
out of it is the value `none`.
-/

namespace Verif.HandOff

/-- Store of the `n`-byte little-endian number `v` at offset `off` (the assignments to `uint32_t` and
`uint64_t` fields, `/repo/src/multiboot.c:123-126`). -/
def wr (o : Mem) (off n v : Nat) : Mem :=
  fun x => if off ≤ x ∧ x < off + n then BitVec.ofNat 8 (v / 256 ^ (x - off)) else o x

/-! ## Hand-off blocks -/

/-- `hob_iterate_memory_map`, `/repo/src/x86/hob.c:160-178`. `m` is the memory with the list, the
callback gets start, length and type of a resource and returns its result and the new context.
Layout of the structures: `/repo/include/x86/hob.h:65-69,151-158`. -/
def hobIterate {σ : Type} (m : Mem) (cb : Nat → Nat → Nat → σ → Int × σ) : Nat → Nat → σ → Option (Int × σ)
  | 0, _, _ => none
  | fuel + 1, a, s =>
    if le16 m a = 0xFFFF then some (0, s)
    else if le16 m a = 3 then
      if (cb (le64 m (a + 32)) (le64 m (a + 40)) (le32 m (a + 24)) s).1 ≠ 0 then
        some (cb (le64 m (a + 32)) (le64 m (a + 40)) (le32 m (a + 24)) s)
      else hobIterate m cb fuel (a + le16 m (a + 2)) (cb (le64 m (a + 32)) (le64 m (a + 40)) (le32 m (a + 24)) s).2
    else hobIterate m cb fuel (a + le16 m (a + 2)) s

/-- `hob_find_resource_by_guid`, `/repo/src/x86/hob.c:112-129`. `some none` is `NULL`. -/
def hobFind (m : Mem) (guid : List Byte) : Nat → Nat → Option (Option Nat)
  | 0, _ => none
  | fuel + 1, a =>
    if le16 m a = 0xFFFF then some none
    else if le16 m a = 3 ∧ le32 m (a + 24) = 5 ∧ slice m (a + 8) 16 = guid then some (some a)
    else hobFind m guid fuel (a + le16 m (a + 2))

/-- `hob_fsp_reserved_guid`, `/repo/src/x86/hob.c:33-39`. -/
def fspGuid : List Byte :=
  [0x59#8, 0x97#8, 0xa7#8, 0x69#8, 0x73#8, 0x13#8, 0x67#8, 0x43#8,
   0xa6#8, 0xc4#8, 0xc7#8, 0xf5#8, 0x9e#8, 0xfd#8, 0x98#8, 0x6e#8]

/-- `get_top_address`, `/repo/src/boot_x86_fsp.c:129-142`: inner `none` is the return value -1. -/
def topAddress (m : Mem) (fuel a : Nat) : Option (Option Nat) :=
  match hobFind m fspGuid fuel a with
  | none => none
  | some none => some none
  | some (some d) => some (some (le64 m (d + 32)))

/-! ## Multiboot2 -/

/-- State of the construction: the buffer, the offset `idx` in it, and what is left of `max_size`. -/
structure MbSt where
  o : Mem
  idx : Nat
  max : Nat

/-- `mb2_add_mem_entry_cb`, `/repo/src/multiboot.c:137-159`; the header of the map is at offset `h`
of the buffer. -/
def mapEntryCb (h start len typ : Nat) (s : MbSt) : Int × MbSt :=
  if s.max < 24 then (-1, s)
  else
    (0, { s with
      max := s.max - 24
      o :=
        wr
          (wr (wr (wr (wr s.o (h + le32 s.o (h + 4)) 8 start) (h + le32 s.o (h + 4) + 8) 8 len)
            (h + le32 s.o (h + 4) + 16) 4 (if typ = 0 then 1 else 2))
            (h + le32 s.o (h + 4) + 20) 4 0)
          (h + 4) 4 (le32 s.o (h + 4) + 24) })

/-- `mb2_add_mem_basic_info_cb`, `/repo/src/multiboot.c:161-173`; the tag is at offset `h`. -/
def basicCb (h start len : Nat) (_typ : Nat) (s : MbSt) : Int × MbSt :=
  (0, { s with o :=
    if start = 0 then wr s.o (h + 8) 4 (len / 1024)
    else if start = 1048576 then wr s.o (h + 12) 4 (len / 1024)
    else s.o })

/-- Advance `idx` when the list has been walked without error, `/repo/src/multiboot.c:196-201`. -/
def advance (n : MbSt → Nat) : Option (Int × MbSt) → Option (Int × MbSt)
  | none => none
  | some (r, s) => if r ≠ 0 then some (r, s) else some (0, { s with idx := s.idx + n s })

/-- `mb2_add_basic_mem_info`, `/repo/src/multiboot.c:176-207`. `hob` is `p->hobList`. -/
def addBasic (m : Mem) (hob fuel : Nat) (s : MbSt) : Option (Int × MbSt) :=
  if s.max < 16 then some (-1, s)
  else
    advance (fun _ => 16)
      (hobIterate m (basicCb s.idx) fuel hob
        { s with
          max := s.max - 16
          o := wr (wr (wr (wr s.o s.idx 4 4) (s.idx + 4) 4 16) (s.idx + 8) 4 0) (s.idx + 12) 4 0 })

/-- `mb2_add_mem_map` with `mb2_start_mem_map`, `/repo/src/multiboot.c:118-128,209-239`. -/
def addMap (m : Mem) (hob fuel : Nat) (s : MbSt) : Option (Int × MbSt) :=
  if s.max < 16 then some (-1, s)
  else
    advance (fun s' => le32 s'.o (s.idx + 4))
      (hobIterate m (mapEntryCb s.idx) fuel hob
        { s with
          max := s.max - 16
          o := wr (wr (wr (wr s.o s.idx 4 6) (s.idx + 8) 4 24) (s.idx + 12) 4 0) (s.idx + 4) 4 16 })

/-- One requested tag, the `switch` of `/repo/src/multiboot.c:265-279`. -/
def addTag (m : Mem) (hob fuel t : Nat) (s : MbSt) : Option (Int × MbSt) :=
  if t = 4 then addBasic m hob fuel s
  else if t = 6 then addMap m hob fuel s
  else some (-1, s)

/-- The loop over the requested tags, `/repo/src/multiboot.c:264-280`; `a` is the address of the next
request in the payload `k`, `n` the number of requests that are left. -/
def addTags (k m : Mem) (hob fuel : Nat) : Nat → Nat → MbSt → Option (Int × MbSt)
  | 0, _, s => some (0, s)
  | n + 1, a, s =>
    match addTag m hob fuel (le32 k a) s with
    | none => none
    | some (r, s') => if r ≠ 0 then some (r, s') else addTags k m hob fuel n (a + 4) s'

/-- `mb2_align_address_up(addr, 8)`, `/repo/src/multiboot.c:97-103`. -/
def alignUp8 (a : Nat) : Nat := (a + 7) / 8 * 8

/-- `mb2_find_tag_by_type`, `/repo/src/multiboot.c:105-116`. `some none` is `NULL`. -/
def findTag (k : Mem) (t : Nat) : Nat → Nat → Option (Option Nat)
  | 0, _ => none
  | fuel + 1, a =>
    if le16 k a = 0 then some none
    else if le16 k a = t then some (some a)
    else findTag k t fuel (alignUp8 (a + le32 k (a + 4)))

/-- `requested_tags` for a request tag of the given size, `/repo/src/multiboot.c:263`; `size_t` has `w`
bits, the quotient is converted to `int`. (Zero stands for a negative number: no iteration.) -/
def requested (w size : Nat) : Nat :=
  if (size + 2 ^ w - 8) % 2 ^ w / 4 % 2 ^ 32 < 2 ^ 31 then (size + 2 ^ w - 8) % 2 ^ w / 4 % 2 ^ 32 else 0

/-- The end of `mb2_build_boot_info_header`: `total_size`, `/repo/src/multiboot.c:282-284`. -/
def finish : Option (Int × MbSt) → Option (Int × MbSt)
  | none => none
  | some (r, s) => if r ≠ 0 then some (r, s) else some (0, { s with o := wr s.o 0 4 s.idx })

/-- `mb2_build_boot_info_header(buf, header, params, max_size)`, `/repo/src/multiboot.c:241-287`. `o` is
the content of the buffer, `k` the memory with the payload, whose header is at address `hd`. -/
def mbBuild (w : Nat) (k m : Mem) (hob hd fuel max : Nat) (o : Mem) : Option (Int × MbSt) :=
  if max < 8 then some (-1, ⟨o, 0, max⟩)
  else
    match findTag k 1 fuel (hd + 16) with
    | none => none
    | some none => some (-1, ⟨wr o 4 4 0, 8, max - 8⟩)
    | some (some t) =>
      finish (addTags k m hob fuel (requested w (le32 k (t + 4))) (t + 8) ⟨wr o 4 4 0, 8, max - 8⟩)

/-- The loop of `mb2_find_header`, `/repo/src/multiboot.c:344-351`: `n` words left, at word `i`. -/
def findHdrLoop (k : Mem) (img : Nat) : Nat → Nat → Option Nat
  | 0, _ => none
  | n + 1, i => if le32 k (img + 4 * i) = 0xe85250d6 then some (img + 4 * i) else findHdrLoop k img n (i + 1)

/-- Number of words that `mb2_find_header` examines, `/repo/src/multiboot.c:341-343`. -/
def hdrWords (size : Nat) : Nat := (if size > 8191 then 32764 else size) / 4

/-- `mb2_find_header(image, size)`, `/repo/src/multiboot.c:336-353` (for `size` not negative). -/
def mbFind (k : Mem) (img size : Nat) : Option Nat := findHdrLoop k img (hdrWords size) 0

/-! ## Linux -/

/-- Assignments to entry `n` of the table, `/repo/src/x86/linux_loader.c:76-81`. -/
def e820Put (p : Mem) (n start len typ : Nat) : Mem :=
  wr (wr (wr p (0x2d0 + 20 * n) 8 start) (0x2d0 + 20 * n + 8) 8 len) (0x2d0 + 20 * n + 16) 4
    (if typ = 0 then 1 else 2)

/-- `e820_entries++` of a `uint8_t`, `/repo/src/x86/linux_loader.c:82`. -/
def e820Inc (p : Mem) : Mem := wr p 0x1e8 1 ((p 0x1e8).toNat + 1)

/-- `e820_add_entry_cb`, `/repo/src/x86/linux_loader.c:72-84`. The context is the memory from the start of
`struct boot_params` on: the number of entries is the byte at 0x1e8, the table is at 0x2d0
(`/repo/include/x86/linux_loader.h:86-125`). -/
def e820Cb (start len typ : Nat) (p : Mem) : Int × Mem :=
  (0, e820Inc (e820Put p (p 0x1e8).toNat start len typ))

/-- `memory_map_from_hoblist`, `/repo/src/x86/linux_loader.c:86-90`. -/
def e820Fill (m : Mem) (hob fuel : Nat) (p : Mem) : Option (Int × Mem) := hobIterate m e820Cb fuel hob p

/-- The copy of the setup header, `/repo/src/x86/linux_loader.c:121-124`: `sizeof(struct setup_header)` is
123. `end_of_header_off` is computed and not used. `k` is the image. -/
def copyHdr (k p : Mem) : Mem := fun x => if 0x1f1 ≤ x ∧ x < 0x1f1 + 123 then k x else p x

/-- The assignments to the header, `/repo/src/x86/linux_loader.c:140-143`: loader type 0xff, command
line at 0x10000. -/
def setHdr (p : Mem) : Mem := wr (wr p 0x210 1 0xff) 0x228 4 0x10000

/-- `param_size`, `/repo/src/x86/linux_loader.c:134-138`. -/
def paramSize (p : Mem) : Nat := if (p 0x1f1).toNat ≠ 0 then ((p 0x1f1).toNat + 1) * 512 else 2560

/-- `kernel_size`, `/repo/src/x86/linux_loader.c:144`: a 32-bit product. -/
def kernelSize (p : Mem) : Nat := le32 p 0x1f4 * 16 % 4294967296

/-- What `load_linux` passes on: parameters, kernel at 1 MiB, entry address. -/
structure Linux where
  params : Mem
  /-- bytes copied to `KERNEL_LOAD_ADDRESS`, by offset -/
  kernel : Mem
  size : Nat
  entry : Nat

/-- The part of `load_linux` behind the memory map. -/
def linuxTail (k p : Mem) : Linux :=
  { params := setHdr p
    kernel := fun i => k (paramSize p + i)
    size := kernelSize p
    entry := le32 p 0x214 }

/-- `load_linux`, `/repo/src/x86/linux_loader.c:109-150`, up to the jump; inner `none` is a panic. `z` is
the content of the stack around the zeroed parameters: only offsets below 4096 belong to them. -/
def loadLinux (k m : Mem) (hob fuel : Nat) (z : Mem) : Option (Option Linux) :=
  match e820Fill m hob fuel (copyHdr k z) with
  | none => none
  | some (r, p) => if r ≠ 0 then some none else some (some (linuxTail k p))

end Verif.HandOff
