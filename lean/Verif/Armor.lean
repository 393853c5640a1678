/-!
# Armored builds: redundant checks under skipped instructions

Model of the assembly macros of `/repo/include/image.h:249-765` (`WOLFBOOT_ARMORED`, GNU compiler): the checks of the image
flags before an image is started, of the results of signature verification, of the version of an update and of the permission
of a key. They are meant to withstand an attacker who makes the processor skip instructions (voltage or clock glitches).

The model is a small processor: registers, flags, a program counter in bytes, a program with the sizes of its instructions
(the targets of `bne .-4` etc. depend on them). In each step the attacker may let the instruction pass without effect. Two
encodings are covered: Thumb-2 (`t = true`) and ARM (`t = false`, all instructions of 4 bytes).

Simplifications: operands `%0` are constants, i.e. the instructions that the compiler adds to load them are not part of the
program (except for the first argument of a call, which overwrites `r0`) and do not disturb the registers between two
statements; a function call is one instruction; `push` and `pop` have no effect on registers; the carry flag is left out.
-/

namespace Verif.Armor

/-- A register. -/
abbrev W := BitVec 32

/-- The processor: registers, flags Z, N, V, program counter; `mem` is the word that the verification function writes
(`*p_res`), `ok` whether `wolfBoot_image_confirm_signature_ok` has been called (`/repo/include/image.h:221-229`). -/
structure Cpu where
  r : Nat → W
  z : Bool
  n : Bool
  v : Bool
  pc : Nat
  mem : W
  ok : Bool

/-- Conditions of branches. -/
inductive Cond where
  | al | ne | ge | lt

/-- Is the branch taken? -/
def Cond.holds (s : Cpu) : Cond → Bool
  | .al => true
  | .ne => !s.z
  | .ge => s.n == s.v
  | .lt => s.n != s.v

/-- Instructions that occur in the macros (`/repo/include/image.h:249-765`). -/
inductive Ins where
  /-- `mov rd, #k`, or `mov rd, %0` with an operand of value `k` -/
  | movi (d : Nat) (k : W)
  | movr (d m : Nat)
  | movs (d : Nat) (k : W)
  | andi (d : Nat) (k : W)
  | ands (d m : Nat)
  | lsls (d m : Nat)
  | lsrs (d m k : Nat)
  | cmpi (a : Nat) (k : W)
  | cmpr (a b : Nat)
  /-- branch relative to the address of the branch -/
  | br (c : Cond) (off : Int)
  /-- branch to a label -/
  | bl (c : Cond) (label : Nat)
  | lab (label : Nat)
  /-- `ldr rd, [%0]` with the address of the result -/
  | ldr (d : Nat)
  /-- call of a function with this effect, which does not depend on the return address -/
  | call (f : Cpu → Cpu)
  /-- call of `wolfBoot_image_confirm_signature_ok` -/
  | confirm
  | nop

/-- An instruction, its size, and what is executed by a jump into its middle. -/
structure Slot where
  ins : Ins
  size : Nat
  mid : Option Ins := none

/-- A program. -/
abbrev Prog := List Slot

/-- Size of a program in bytes. -/
def Prog.size : Prog → Nat
  | [] => 0
  | x :: p => x.size + Prog.size p

/-- The instruction at an address, with its size. Labels have size 0. -/
def fetch : Prog → Nat → Option (Ins × Nat)
  | [], _ => none
  | x :: p, a =>
    if a < x.size then
      if a = 0 then some (x.ins, x.size)
      else if a = 2 then x.mid.map fun i => (i, 2)
      else none
    else fetch p (a - x.size)

/-- Is this the label? -/
def Ins.isLab : Ins → Nat → Bool
  | .lab k, l => k == l
  | _, _ => false

/-- Address of a label. -/
def labAddr : Prog → Nat → Nat
  | [], _ => 0
  | x :: p, l => if x.ins.isLab l then 0 else x.size + labAddr p l

/-- Write a register. -/
def set (r : Nat → W) (d : Nat) (k : W) : Nat → W := fun i => if i = d then k else r i

/-- Target of a relative branch. -/
def target (pc : Nat) (off : Int) : Option Nat := if 0 ≤ (pc : Int) + off then some ((pc : Int) + off).toNat else none

/-- Result of `cmp`: difference of `a` and `b`. -/
def compare (s : Cpu) (a b : W) (sz : Nat) : Cpu :=
  { s with z := a == b, n := (a - b).msb, v := (a.msb != b.msb) && ((a - b).msb != a.msb), pc := s.pc + sz }

/-- A result that sets Z and N. -/
def flagged (s : Cpu) (d : Nat) (k : W) (sz : Nat) : Cpu :=
  { s with r := set s.r d k, z := k == 0, n := k.msb, pc := s.pc + sz }

/-- A taken or untaken branch. -/
def branch (s : Cpu) (c : Cond) (to : Option Nat) (sz : Nat) : Option Cpu :=
  if c.holds s then to.map fun a => { s with pc := a } else some { s with pc := s.pc + sz }

/-- Shift to the left by the low byte of a register. -/
def shl (x k : W) : W := x <<< (k % 256).toNat

/-- Execution of an instruction. -/
def exec (p : Prog) (s : Cpu) (sz : Nat) : Ins → Option Cpu
  | .movi d k => some { s with r := set s.r d k, pc := s.pc + sz }
  | .movr d m => some { s with r := set s.r d (s.r m), pc := s.pc + sz }
  | .movs d k => some (flagged s d k sz)
  | .andi d k => some { s with r := set s.r d (s.r d &&& k), pc := s.pc + sz }
  | .ands d m => some (flagged s d (s.r d &&& s.r m) sz)
  | .lsls d m => some (flagged s d (shl (s.r d) (s.r m)) sz)
  | .lsrs d m k => some (flagged s d (s.r m >>> k) sz)
  | .cmpi a k => some (compare s (s.r a) k sz)
  | .cmpr a b => some (compare s (s.r a) (s.r b) sz)
  | .br c off => branch s c (target s.pc off) sz
  | .bl c l => branch s c (some (labAddr p l)) sz
  | .lab _ => some { s with pc := s.pc + sz }
  | .ldr d => some { s with r := set s.r d s.mem, pc := s.pc + sz }
  | .call f => some { f { s with pc := 0 } with pc := s.pc + sz, ok := s.ok }
  | .confirm => some { s with ok := true, pc := s.pc + sz }
  | .nop => some { s with pc := s.pc + sz }

/-- One step; with `skip` the instruction is fetched but has no effect. There is no step from an address without
instruction. -/
def step (p : Prog) (skip : Bool) (s : Cpu) : Option Cpu :=
  match fetch p s.pc with
  | none => none
  | some (i, sz) => if skip then some { s with pc := s.pc + sz } else exec p s sz i

/-- An execution: the attacker's decision for each step. -/
def run (p : Prog) : List Bool → Cpu → Option Cpu
  | [], s => some s
  | b :: l, s =>
    match step p b s with
    | none => none
    | some s' => run p l s'

/-- Instruction with a size of `n` bytes in Thumb-2. -/
def ins (t : Bool) (n : Nat) (i : Ins) : Slot := { ins := i, size := if t then n else 4 }

/-! ## The check of the image flags -/

/-- `cmp r2, #0xFFFFFFFE`, `/repo/include/image.h:307`. There is no such immediate operand, the assembler takes `cmn r2, #2`,
in Thumb-2 `f112 0f02`; the second half alone is `lsrs r2, r0, #28`. -/
def cmn (t : Bool) : Slot :=
  { ins := .cmpi 2 0xFFFFFFFE, size := 4, mid := if t then some (.lsrs 2 0 28) else none }

/-- Four times the comparison `c`, with branches to itself or back, `/repo/include/image.h:258-265`. -/
def four (t : Bool) (cond : Cond) (c c' : Slot) : Prog :=
  [c, ins t 2 (.br cond 0), c', ins t 2 (.br cond (-4)), c, ins t 2 (.br cond (-8)), c', ins t 2 (.br cond (-12))]

/-- Five times `mov r2, #0`, then the field, `/repo/include/image.h:250-257`. -/
def load (t : Bool) (k : W) : Prog :=
  [ins t 4 (.movi 2 0), ins t 4 (.movi 2 0), ins t 4 (.movi 2 0), ins t 4 (.movi 2 0), ins t 4 (.movi 2 0), ins t 2 (.movi 2 k)]

/-- Check of a flag that must be 1, `/repo/include/image.h:250-265`. -/
def flagBlock (t : Bool) (k : W) : Prog :=
  load t k ++ four t .ne (ins t 2 (.cmpi 2 1)) (ins t 2 (.cmpi 2 1))

/-- Check of the inverted flag, `/repo/include/image.h:299-314`. -/
def notBlock (t : Bool) (k : W) : Prog := load t k ++ four t .ne (cmn t) (cmn t)

/-- Check of a canary, `/repo/include/image.h:315-331`. -/
def canaryBlock (t : Bool) (k c : W) : Prog :=
  load t k ++ ins t 2 (.movi 0 c) :: four t .ne (ins t 2 (.cmpr 2 0)) (ins t 2 (.cmpr 2 0))

/-- The fields of `struct wolfBoot_image` that are checked, `/repo/include/image.h:193-210`. -/
structure Img where
  hdr : W
  sha : W
  sig : W
  nsig : W
  c6789 : W
  c4567 : W
  c89AB : W

/-- `PART_SANITY_CHECK(p)`, `/repo/include/image.h:249-365`. -/
def sanity (t : Bool) (p : Img) : Prog :=
  flagBlock t p.hdr ++ flagBlock t p.sha ++ flagBlock t p.sig ++ notBlock t p.nsig ++
    canaryBlock t p.c6789 0xFEED6789 ++ canaryBlock t p.c4567 0xFEED4567 ++ canaryBlock t p.c89AB 0xFEED89AB

/-- `wolfBoot_image_confirm_signature_ok`, `/repo/include/image.h:221-229`. -/
def Img.confirm (p : Img) : Img :=
  { p with c4567 := 0xFEED4567, sig := 1, c6789 := 0xFEED6789, nsig := ~~~1, c89AB := 0xFEED89AB }

/-- `wolfBoot_image_clear_signature_ok`, `/repo/include/image.h:231-239`. -/
def Img.clear (p : Img) : Img :=
  { p with c4567 := 0xFEED4567, sig := 0, c6789 := 0xFEED6789, nsig := 1, c89AB := 0xFEED89AB }

/-! ## The result of verification -/

/-- The call of the verification function in `VERIFY_FN`: it returns `ret` in `r0` and stores `res`; `r1`-`r3` and the flags
are arbitrary afterwards (`junk`). -/
def verifyCall (ret res : W) (junk : Cpu → Cpu) (s : Cpu) : Cpu := { junk s with r := set (junk s).r 0 ret, mem := res }

/-- `VERIFY_FN`, `/repo/include/image.h:454-486`. `arg` is the first argument of the function (the signature, or the
number `r`: a pointer), which is in `r0` when it is called. Label 0 is `nope`. -/
def verifyFn (t : Bool) (arg : W) (f : Cpu → Cpu) : Prog :=
  [ins t 4 (.movi 0 50), ins t 4 (.movi 0 50), ins t 4 (.movi 0 50), ins t 2 (.movi 0 arg), ins t 4 (.call f),
   ins t 2 (.cmpi 0 0), ins t 2 (.bl .ne 0), ins t 2 (.cmpi 0 0), ins t 2 (.bl .ne 0),
   ins t 2 (.cmpi 0 0), ins t 2 (.bl .ne 0), ins t 2 (.cmpi 0 0), ins t 2 (.bl .ne 0),
   ins t 2 (.ldr 2), ins t 2 (.cmpi 2 1), ins t 2 (.bl .ne 0), ins t 2 (.ldr 2), ins t 2 (.cmpi 2 1), ins t 2 (.bl .ne 0),
   ins t 2 (.ldr 2), ins t 2 (.cmpi 2 1), ins t 2 (.bl .ne 0), ins t 2 (.ldr 2), ins t 2 (.cmpi 2 1), ins t 2 (.bl .ne 0),
   ins t 4 .confirm, { ins := .lab 0, size := 0 }, ins t 2 .nop]

/-- `RSA_VERIFY_HASH`, `/repo/include/image.h:406-440`: `digest` (not null) is the first argument of both calls of `XMEMCMP`, whose
result is in `r0`. Label 0 is `hnope`. -/
def rsaHash (t : Bool) (digest : W) (f : Cpu → Cpu) : Prog :=
  [ins t 4 (.movi 0 50), ins t 4 (.movi 0 50), ins t 4 (.movi 0 50), ins t 2 (.movi 0 digest), ins t 4 (.call f),
   ins t 2 (.cmpi 0 0), ins t 2 (.bl .ne 0), ins t 2 (.cmpi 0 0), ins t 2 (.bl .ne 0),
   ins t 2 (.cmpi 0 0), ins t 2 (.bl .ne 0), ins t 2 (.cmpi 0 0), ins t 2 (.bl .ne 0),
   ins t 2 (.movi 0 digest), ins t 4 (.call f),
   ins t 2 (.cmpi 0 0), ins t 2 (.bl .ne 0), ins t 2 (.cmpi 0 0), ins t 2 (.bl .ne 0),
   ins t 2 (.cmpi 0 0), ins t 2 (.bl .ne 0), ins t 2 (.cmpi 0 0), ins t 2 (.bl .ne 0),
   ins t 4 .confirm, { ins := .lab 0, size := 0 }, ins t 2 .nop]

/-- `RSA_VERIFY_FN`, `/repo/include/image.h:372-398`, for digests of `size` bytes: `arg` is the first argument of the
function (the buffer with the signature). `ret = tmp_ret` is the instruction `confirm`, `ret = -1` is left out. Label 0 is
`nope`. -/
def rsaFn (t : Bool) (size arg : W) (f : Cpu → Cpu) : Prog :=
  [ins t 4 (.movi 0 0), ins t 4 (.movi 0 0), ins t 4 (.movi 0 0), ins t 2 (.movi 0 arg), ins t 4 (.call f),
   ins t 2 (.movi 2 size), ins t 2 (.movi 2 size), ins t 2 (.movi 2 size),
   ins t 2 (.cmpr 0 2), ins t 2 (.bl .lt 0), ins t 2 (.cmpr 0 2), ins t 2 (.bl .lt 0),
   ins t 2 (.cmpr 0 2), ins t 2 (.bl .lt 0), ins t 2 (.cmpr 0 2), ins t 2 (.bl .lt 0),
   ins t 2 .confirm, { ins := .lab 0, size := 0 }, ins t 2 .nop]

/-! ## The version of an update -/

/-- `wolfBoot_get_image_version`, for the partition in `r0`. -/
def versionCall (ver : W → W) (junk : Cpu → Cpu) (s : Cpu) : Cpu :=
  { junk s with r := fun i => if i = 0 then ver (s.r 0) else if i < 4 then (junk s).r i else s.r i }

/-- Three times `mov r0, #part`, the call, three times `mov rd, r0`, `/repo/include/image.h:591-597`. -/
def readVersion (t : Bool) (d : Nat) (part : W) (f : Cpu → Cpu) : Prog :=
  [ins t 4 (.movi 0 part), ins t 4 (.movi 0 part), ins t 4 (.movi 0 part), ins t 4 (.call f),
   ins t 2 (.movr d 0), ins t 2 (.movr d 0), ins t 2 (.movr d 0)]

/-- The start of the macro: initial values and the test of `fb_ok`, `/repo/include/image.h:562-588`. Label 1 is
`do_check`, 2 is `end_check`. -/
def versionHead (t : Bool) (fb : W) : Prog :=
  [ins t 2 .nop,
   ins t 4 (.movi 0 0), ins t 4 (.movi 4 1), ins t 4 (.movi 5 0), ins t 4 (.movi 6 2), ins t 4 (.movi 7 0),
   ins t 4 (.movi 0 0), ins t 4 (.movi 4 1), ins t 4 (.movi 5 0), ins t 4 (.movi 6 2), ins t 4 (.movi 7 0),
   ins t 2 (.movi 0 fb),
   ins t 2 (.cmpi 0 1), ins t 2 (.bl .ne 1), ins t 2 (.cmpi 0 1), ins t 2 (.bl .ne 1), ins t 2 (.cmpi 0 1), ins t 2 (.bl .ne 1),
   ins t 2 (.bl .al 2), { ins := .lab 1, size := 0 }]

/-- `VERIFY_VERSION_ALLOWED(fb_ok)`, `/repo/include/image.h:561-648`. -/
def version (t : Bool) (fb : W) (f : Cpu → Cpu) : Prog :=
  versionHead t fb ++ readVersion t 5 1 f ++ readVersion t 7 1 f ++
    four t .ne (ins t 2 (.cmpr 5 7)) (ins t 2 (.cmpr 5 7)) ++ readVersion t 4 0 f ++ readVersion t 6 0 f ++
    four t .ne (ins t 2 (.cmpr 4 6)) (ins t 2 (.cmpr 4 6)) ++
    [ins t 4 (.movi 0 0), ins t 4 (.movi 0 0), ins t 4 (.movi 0 0)] ++
    four t .ge (ins t 2 (.cmpr 4 5)) (ins t 2 (.cmpr 6 7)) ++ [{ ins := .lab 2, size := 0 }, ins t 2 .nop]

/-! ## The permission of a key -/

/-- One of the three repetitions in `CONFIRM_MASK_VALID`, `/repo/include/image.h:744-751`. -/
def maskOnce (t : Bool) (mask : W) : Prog :=
  [ins t 2 (.movi 0 mask), ins t 2 (.movs 2 1), ins t 2 (.lsls 2 1), ins t 2 (.ands 2 0), ins t 2 (.movs 0 1),
   ins t 2 (.lsls 0 1), ins t 2 (.cmpr 0 2), ins t 2 (.br .ne 0)]

/-- `CONFIRM_MASK_VALID(id, mask)`, `/repo/include/image.h:740-765`. -/
def maskCheck (t : Bool) (id mask : W) : Prog :=
  [ins t 2 (.movi 1 id), ins t 4 (.andi 1 15)] ++ maskOnce t mask ++ maskOnce t mask ++ maskOnce t mask

end Verif.Armor
