import Verif.Basic

/-!
# Model of the image header field lookup (`wolfBoot_find_header`)

`/repo/src/libwolfboot.c:822-871`.
-/

namespace Verif

/-- `IMAGE_HEADER_OFFSET`, `/repo/include/wolfboot/wolfboot.h` (magic and size words). -/
def hdrOff : Nat := 8

/-- Outcome of the header walk. `oob` is a read outside of the header buffer (undefined
behaviour in C), `fuel` is "the loop did not terminate within the given number of steps".
`found off len` is the pointer stored to `*ptr`, as offset from the start of the header,
together with the returned length. `notFound` is `*ptr = NULL`, return 0. -/
inductive Find where
  | found (off len : Nat)
  | notFound
  | oob
  | fuel
deriving DecidableEq, Repr

/-- One buffer read: `none` when outside of the buffer. -/
abbrev Rd := Nat → Option Byte

/-- The `while` loop of `wolfBoot_find_header`, `/repo/src/libwolfboot.c:833-869`.
`p` is the pointer as offset from the start of the header, `H` is `IMAGE_HEADER_SIZE`,
`base` is the address of the header buffer (only its parity matters, line 840).
The `uint16_t` cast in line 847 is modelled by `% 65536`.
Lines 834/840/845 read `p[0..3]`; `||`/`|` evaluation order does not matter, every read
outside of the buffer is reported. -/
def findLoop (rd : Rd) (base H type : Nat) : Nat → Nat → Find
  | 0, _ => .fuel
  | n + 1, p =>
    if p + 4 < H then
      match rd p, rd (p + 1) with
      | some b0, some b1 =>
        let htype := b0.toNat + 256 * b1.toNat
        if htype = 0 then .notFound
        else if b0 = 0xFF#8 ∨ (base + p) % 2 ≠ 0 then findLoop rd base H type n (p + 1)
        else
          match rd (p + 2), rd (p + 3) with
          | some b2, some b3 =>
            let len := b2.toNat + 256 * b3.toNat
            if 4 + len > (H - hdrOff) % 65536 then .notFound
            else if p + 4 + len > H then .notFound
            else if htype = type then .found (p + 4) len
            else findLoop rd base H type n (p + 4 + len)
          | _, _ => .oob
      | _, _ => .oob
    else .notFound

/-- `wolfBoot_find_header(haystack, type, &ptr)`, `/repo/src/libwolfboot.c:822-871`, called
with `haystack = header + IMAGE_HEADER_OFFSET` on a buffer that can be read by `rd`.
The number of loop iterations is bounded by `H` (theorem `findHeader_total`). -/
def findHeader (rd : Rd) (base H type : Nat) : Find :=
  if hdrOff > H then .notFound else findLoop rd base H type (H + 1) hdrOff

/-- The header buffer of an image in memory: only the `H` header bytes are readable. -/
def hdrBuf (m : Mem) (H : Nat) : Rd := fun a => if a < H then some (m a) else none

/-- Lookup in an image stored in memory region `m` (at an even address). -/
def findHdr (m : Mem) (H type : Nat) : Find := findHeader (hdrBuf m H) 0 H type

/-! ## Independent specification of the header format

`/repo/docs/firmware_image.md`: a sequence of tags `[type:2][size:2][content:size]`, where a
`0xFF` byte at a tag position is a padding byte; a zero type ends the sequence. -/

/-- `Walk rd H p q`: walking whole tags (other than `type`) and padding bytes gets from tag
position `p` to tag position `q`, within a header of size `H`. -/
inductive Walk (m : Mem) (base H type : Nat) : Nat → Nat → Prop
  | here (p) : Walk m base H type p p
  | pad {p q} : p + 4 < H → le16 m p ≠ 0 → (m p = 0xFF#8 ∨ (base + p) % 2 ≠ 0) →
      Walk m base H type (p + 1) q → Walk m base H type p q
  | tag {p q} : p + 4 < H → le16 m p ≠ 0 → m p ≠ 0xFF#8 → (base + p) % 2 = 0 → le16 m p ≠ type →
      4 + le16 m (p + 2) ≤ (H - hdrOff) % 65536 → p + 4 + le16 m (p + 2) ≤ H →
      Walk m base H type (p + 4 + le16 m (p + 2)) q → Walk m base H type p q

end Verif
