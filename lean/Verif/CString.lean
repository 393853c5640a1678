import Verif.Basic

/-!
# C library replacement functions

`/repo/src/string.c:54-307`. One address space; `none` is an address that may not be accessed. The result `none` of a
function is an access to such an address, or an endless loop. Addresses are natural numbers: objects do not wrap around the address
space. The return value of functions that return their first argument is left out.
-/

namespace Verif

/-- Memory in which only some addresses may be accessed. -/
abbrev CMem := Nat → Option Byte

/-- Store of a byte. -/
def CMem.st (m : CMem) (p : Nat) (b : Byte) : Option CMem :=
  if (m p).isSome then some (fun q => if q = p then some b else m q) else none

/-! ## Characters: `/repo/src/string.c:54-77` -/

/-- `islower`, `/repo/src/string.c:54-57`. -/
def cIslower (c : Int) : Bool := decide (c ≥ 97 ∧ c ≤ 122)

/-- `isupper`, `/repo/src/string.c:59-62`. -/
def cIsupper (c : Int) : Bool := decide (c ≥ 65 ∧ c ≤ 90)

/-- `tolower`, `/repo/src/string.c:64-67`. -/
def cTolower (c : Int) : Int := if cIsupper c then c - 65 + 97 else c

/-- `toupper`, `/repo/src/string.c:69-72`. -/
def cToupper (c : Int) : Int := if cIslower c then c - 97 + 65 else c

/-- `isalpha`, `/repo/src/string.c:74-77`. -/
def cIsalpha (c : Int) : Bool := cIsupper c || cIslower c

/-- Conversion of a `char` to `int`; whether `char` is signed (`sg`) depends on the target. -/
def charInt (sg : Bool) (b : Byte) : Int := if sg then b.toInt else b.toNat

/-! ## Memory blocks -/

/-- `memset`, `/repo/src/string.c:81-90`; the conversion of `c` to `unsigned char` is done by the caller of the model. -/
def cMemset (m : CMem) (s : Nat) (c : Byte) : Nat → Option CMem
  | 0 => some m
  | n + 1 => do
    let m ← m.st s c
    cMemset m (s + 1) c n

/-- Forward loop of `memcpy`, `/repo/src/string.c:280-282`. -/
def copyFwd (m : CMem) (d s : Nat) : Nat → Option CMem
  | 0 => some m
  | n + 1 => do
    let b ← m s
    let m ← m.st d b
    copyFwd m (d + 1) (s + 1) n

/-- Load of a machine word of `W` bytes. -/
def CMem.ldN (m : CMem) (p : Nat) : Nat → Option (List Byte)
  | 0 => some []
  | n + 1 => do
    let b ← m p
    let l ← m.ldN (p + 1) n
    some (b :: l)

/-- Store of a machine word. -/
def CMem.stN (m : CMem) (p : Nat) : List Byte → Option CMem
  | [] => some m
  | b :: l => do
    let m ← m.st p b
    m.stN (p + 1) l

/-- Loop over words in builds with `FAST_MEMCPY`, `/repo/src/string.c:272-277`; `W` is `sizeof(unsigned long)`, `k` the number of words. -/
def copyWords (m : CMem) (W d s : Nat) : Nat → Option CMem
  | 0 => some m
  | k + 1 => do
    let w ← m.ldN s W
    let m ← m.stN d w
    copyWords m W (d + W) (s + W) k

/-- `memcpy`, `/repo/src/string.c:261-285`; `fast` is `some (sizeof(unsigned long))` with `FAST_MEMCPY`. -/
def cMemcpy (fast : Option Nat) (m : CMem) (d s n : Nat) : Option CMem :=
  match fast with
  | none => copyFwd m d s n
  | some W =>
    if d % W = 0 ∧ s % W = 0 then do
      let m ← copyWords m W d s (n / W)
      copyFwd m (d + W * (n / W)) (s + W * (n / W)) (n % W)
    else copyFwd m d s n

/-- Backward loop of `memmove`, `/repo/src/string.c:297-299`, with `n` bytes to go. -/
def copyBwd (m : CMem) (d s : Nat) : Nat → Option CMem
  | 0 => some m
  | n + 1 => do
    let b ← m (s + n)
    let m ← m.st (d + n) b
    copyBwd m d s n

/-- Number of rounds of the loop of `memmove`: `int i = n - 1` keeps 32 bits and is signed, `/repo/src/string.c:291,297`. -/
def bwdCount (n : Nat) : Nat :=
  let i := (n + 4294967295) % 4294967296
  if i < 2147483648 then i + 1 else 0

/-- `memmove`, `/repo/src/string.c:289-304`. -/
def cMemmove (fast : Option Nat) (m : CMem) (d s n : Nat) : Option CMem :=
  if d = s then some m
  else if s < d then copyBwd m d s (bwdCount n)
  else cMemcpy fast m d s n

/-- `memcmp`, `/repo/src/string.c:216-230`. -/
def cMemcmp (m : CMem) (diff : Int) (s1 s2 : Nat) : Nat → Option Int
  | 0 => some diff
  | n + 1 =>
    if diff ≠ 0 then some diff
    else do
      let a ← m s1
      let b ← m s2
      cMemcmp m ((a.toNat : Int) - b.toNat) (s1 + 1) (s2 + 1) n

/-- `memchr`, `/repo/src/string.c:232-242`; result `some none` is `NULL`. -/
def cMemchr (m : CMem) (p : Nat) (c : Byte) : Nat → Option (Option Nat)
  | 0 => some none
  | n + 1 => do
    let b ← m p
    if b = c then some (some p) else cMemchr m (p + 1) c n

/-! ## Strings -/

/-- `strlen`, `/repo/src/string.c:249-257`. -/
def cStrlenLoop (m : CMem) (s i : Nat) : Option Nat := do
  let b ← m (s + i)
  if b ≠ 0 then cStrlenLoop m s (i + 1) else some i
partial_fixpoint

def cStrlen (m : CMem) (s : Nat) : Option Nat := cStrlenLoop m s 0

/-- Loop of `strcat`, `/repo/src/string.c:98-101`; `j` is the address written to. -/
def cStrcatLoop (m : CMem) (src i j : Nat) : Option CMem := do
  let l ← cStrlen m src
  if i < l then do
    let b ← m (src + i)
    let m ← m.st j b
    cStrcatLoop m src (i + 1) (j + 1)
  else m.st j 0
partial_fixpoint

/-- `strcat`, `/repo/src/string.c:93-104`. -/
def cStrcat (m : CMem) (dest src : Nat) : Option CMem := do
  let j ← cStrlen m dest
  cStrcatLoop m src 0 (dest + j)

/-- Loop of `strncat`, `/repo/src/string.c:162-168`; `lim` is `n - 1`. -/
def cStrncatLoop (m : CMem) (dest src lim i j : Nat) : Option CMem := do
  let l ← cStrlen m src
  if i < l then
    if j ≥ lim then m.st (dest + j) 0
    else do
      let b ← m (src + i)
      let m ← m.st (dest + j) b
      cStrncatLoop m dest src lim (i + 1) (j + 1)
  else m.st (dest + j) 0
partial_fixpoint

/-- `strncat`, `/repo/src/string.c:157-171`; `S` is the number of values of `size_t`. -/
def cStrncat (S : Nat) (m : CMem) (dest src n : Nat) : Option CMem := do
  let j ← cStrlen m dest
  cStrncatLoop m dest src ((n + S - 1) % S) 0 j

/-- `strcmp`, `/repo/src/string.c:106-117`. -/
def cStrcmpLoop (sg : Bool) (m : CMem) (diff : Int) (s1 s2 : Nat) : Option Int :=
  if diff ≠ 0 then some diff
  else do
    let a ← m s1
    if a = 0 then some diff
    else do
      let b ← m s2
      cStrcmpLoop sg m (charInt sg a - charInt sg b) (s1 + 1) (s2 + 1)
partial_fixpoint

def cStrcmp (sg : Bool) (m : CMem) (s1 s2 : Nat) : Option Int := cStrcmpLoop sg m 0 s1 s2

/-- Difference of two characters as computed in `/repo/src/string.c:125-128,143-146`. -/
def caseDiff (sg : Bool) (a b : Byte) : Int :=
  let d := charInt sg a - charInt sg b
  if d = -32 ∨ d = 32 then 0 else d

/-- `strcasecmp`, `/repo/src/string.c:120-135`. -/
def cStrcasecmpLoop (sg : Bool) (m : CMem) (diff : Int) (s1 s2 : Nat) : Option Int :=
  if diff ≠ 0 then some diff
  else do
    let a ← m s1
    if a = 0 then some diff
    else do
      let b ← m s2
      cStrcasecmpLoop sg m (caseDiff sg a b) (s1 + 1) (s2 + 1)
partial_fixpoint

def cStrcasecmp (sg : Bool) (m : CMem) (s1 s2 : Nat) : Option Int := cStrcasecmpLoop sg m 0 s1 s2

/-- `strncasecmp`, `/repo/src/string.c:137-154`; `i` counts the compared characters. -/
def cStrncasecmpLoop (sg : Bool) (m : CMem) (n : Nat) (diff : Int) (i s1 s2 : Nat) : Option Int :=
  if diff ≠ 0 then some diff
  else do
    let a ← m s1
    if a = 0 then some diff
    else do
      let b ← m s2
      if i + 1 > n then some (caseDiff sg a b)
      else cStrncasecmpLoop sg m n (caseDiff sg a b) (i + 1) (s1 + 1) (s2 + 1)
partial_fixpoint

def cStrncasecmp (sg : Bool) (m : CMem) (s1 s2 n : Nat) : Option Int := cStrncasecmpLoop sg m n 0 0 s1 s2

/-- `strncmp`, `/repo/src/string.c:173-187`. -/
def cStrncmp (m : CMem) (diff : Int) (s1 s2 : Nat) : Nat → Option Int
  | 0 => some diff
  | n + 1 => do
    let a ← m s1
    let b ← m s2
    let diff : Int := (a.toNat : Int) - b.toNat
    if diff ≠ 0 ∨ a = 0 then some diff else cStrncmp m diff (s1 + 1) (s2 + 1) n

/-- `strncpy`, `/repo/src/string.c:189-200`. -/
def cStrncpy (m : CMem) (dst src : Nat) : Nat → Option CMem
  | 0 => some m
  | n + 1 => do
    let b ← m src
    let m' ← m.st dst b
    let b' ← m' src
    if b' = 0 then some m' else cStrncpy m' (dst + 1) (src + 1) n

/-- `strcpy`, `/repo/src/string.c:202-214`. -/
def cStrcpyLoop (m : CMem) (dst src : Nat) : Option CMem := do
  let b ← m src
  let m' ← m.st dst b
  let b' ← m' src
  if b' = 0 then some m' else cStrcpyLoop m' (dst + 1) (src + 1)
partial_fixpoint

/-! ## Specification -/

/-- The bytes from `p` on, `n` of them, may be accessed. -/
def Acc (m : CMem) (p n : Nat) : Prop := ∀ i, i < n → (m (p + i)).isSome

/-- There is a string at `p`: nonzero bytes and a terminator. -/
def CStr (m : CMem) (p : Nat) : List Byte → Prop
  | [] => m p = some 0
  | c :: s => m p = some c ∧ c ≠ 0 ∧ CStr m (p + 1) s

/-- `m'` is `m` with `n` bytes copied from `s` to `d`. -/
def Copied (m m' : CMem) (d s n : Nat) : Prop :=
  ∀ q, m' q = if d ≤ q ∧ q < d + n then m (s + (q - d)) else m q

/-- The two ranges have no byte in common. -/
def Apart (d n s k : Nat) : Prop := d + n ≤ s ∨ s + k ≤ d

/-- Comparison as in the C standard (7.24.4): characters as `unsigned char`, the end of a string is smaller than
any character. -/
def stdCmp : List Byte → List Byte → Int
  | [], [] => 0
  | [], _ :: _ => -1
  | _ :: _, [] => 1
  | a :: as, b :: bs => if a.toNat < b.toNat then -1 else if b.toNat < a.toNat then 1 else stdCmp as bs

/-- Same sign. -/
def SameSign (r s : Int) : Prop := (r < 0 ↔ s < 0) ∧ (r = 0 ↔ s = 0)

/-- Lower case, for ASCII. -/
def lower (b : Byte) : Byte := if 65 ≤ b.toNat ∧ b.toNat ≤ 90 then b + 32 else b

end Verif
