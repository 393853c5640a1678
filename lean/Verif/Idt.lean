import Verif.Basic

/-!
# Segments and interrupts on x86

`/repo/src/x86/gdt.c` and `/repo/src/x86/exceptions.c`: the descriptors of segments, the gates of interrupts, and what a handler does to the interrupted
program. Fields of bits that do not overlap are sums here, shifts and masks are `/` and `%`. Outside: the processor, which is described as in its manual:
it takes the gate of the vector, pushes a frame, and for some exceptions an error code.
-/

namespace Verif.Idt

/-- `struct segment_descriptor`, `/repo/src/x86/gdt.c:25-32`. -/
structure Seg where
  limit0 : Nat
  base0 : Nat
  base16 : Nat
  access : Nat
  flags : Nat
  base24 : Nat
deriving DecidableEq

/-- `SEGMENT_DESCRIPTOR_INIT`, `/repo/src/x86/gdt.c:44-51`. -/
def seg (base limit type s dpl p avl l db g : Nat) : Seg :=
  { limit0 := limit % 2 ^ 16, base0 := base % 2 ^ 16, base16 := base / 2 ^ 16 % 2 ^ 8,
    access := type % 16 + s % 2 * 16 + dpl % 4 * 32 + p % 2 * 128,
    flags := limit / 2 ^ 16 % 16 + avl % 2 * 16 + l % 2 * 32 + db % 2 * 64 + g % 2 * 128,
    base24 := base / 2 ^ 24 % 2 ^ 8 }

/-- `gdt`, `/repo/src/x86/gdt.c:55-66`. -/
def gdt : List Seg :=
  [seg 0 0 0 0 0 0 0 0 0 0, seg 0 0xffffffff 0x3 1 0 1 0 0 1 1, seg 0 0xffffffff 0xb 1 0 1 0 0 1 1, seg 0 0xffffffff 0xb 1 0 1 0 1 0 1,
    seg 0 0xffffffff 0xb 1 0 1 0 0 1 1]

/-- `gdtr.limit`, `/repo/src/x86/gdt.c:71`; a descriptor has 8 bytes. -/
def gdtLimit : Nat := gdt.length * 8 - 1

/-- `struct interrupt_gate`, `/repo/src/x86/exceptions.c:54-61`. -/
structure Gate where
  off0 : Nat
  sel : Nat
  type : Nat
  off16 : Nat
  off32 : Nat
  reserved : Nat
deriving DecidableEq

/-- A gate that nobody has written, `/repo/src/x86/exceptions.c:68`. -/
def empty : Gate := ⟨0, 0, 0, 0, 0, 0⟩

/-- `setup_interrupt_gate`, `/repo/src/x86/exceptions.c:123-134`, with `SEGMENT_SELECTOR` and `TYPE_FLAG`, `/repo/src/x86/exceptions.c:28-30`. -/
def gate (h : Nat) : Gate :=
  { off0 := h % 2 ^ 16, off16 := h / 2 ^ 16 % 2 ^ 16, off32 := h / 2 ^ 32 % 2 ^ 32, type := 0xe * 2 ^ 8 + 2 ^ 15, sel := 0x18, reserved := 0 }

/-- `idt_table`, `/repo/src/x86/exceptions.c:68`, as a function of the vector, changed at one vector, `/repo/src/x86/exceptions.c:127`. -/
def set (t : Nat → Gate) (v h : Nat) : Nat → Gate := fun i => if i = v then gate h else t i

/-- The first `n` calls in `setup_interrupts`, `/repo/src/x86/exceptions.c:160-191`; `tr v`: the address of `exception_trampoline_v`. -/
def setupN (tr : Nat → Nat) : Nat → Nat → (Nat → Gate) → Nat → Gate
  | 0, _, t => t
  | n + 1, v, t => setupN tr n (v + 1) (set t v (tr v))

/-- `setup_interrupts`, `/repo/src/x86/exceptions.c:158-201`: vectors 0 to 31, then `TIMER_VECTOR_NUMBER` in `setup_apic_timer`,
`/repo/src/x86/exceptions.c:150-156`. -/
def setup (tr : Nat → Nat) (timer : Nat) : Nat → Gate := set (setupN tr 32 0 fun _ => empty) 34 timer

/-- `idt_descriptor.limit`, `/repo/src/x86/exceptions.c:195`; `EXCEPTION_NUM` gates of 16 bytes, `/repo/src/x86/exceptions.c:27`. -/
def idtLimit : Nat := 35 * 16 - 1

/-- What `setup_apic_timer` writes to `LAPIC_SVR`, `/repo/src/x86/exceptions.c:152`: `LAPIC_SVR_ENABLE`. -/
def svr : Nat := 2 ^ 8

/-- Registers of a program that matter here. -/
structure Cpu where
  rip : Nat
  cs : Nat
  rflags : Nat
  rsp : Nat
  ss : Nat
  rdi : Nat
  stack : List Nat
deriving DecidableEq

/-- The processor enters a handler: frame and, for some exceptions, an error code. (`rsp` in the frame is that of the interrupted program.) -/
def enter (c : Cpu) (err : Option Nat) : List Nat :=
  match err with
  | none => [c.rip, c.cs, c.rflags, c.rsp, c.ss] ++ c.stack
  | some e => e :: ([c.rip, c.cs, c.rflags, c.rsp, c.ss] ++ c.stack)

/-- `iretq`: five words. `none`: fewer. -/
def iretq (rdi : Nat) : List Nat → Option Cpu
  | rip :: cs :: fl :: rsp :: ss :: r => some { rip := rip, cs := cs, rflags := fl, rsp := rsp, ss := ss, rdi := rdi, stack := r }
  | _ => none

/-- `EXCEPTION_TRAMPOLINE(X)`, `/repo/src/x86/exceptions.c:71-80`: the vector to `rdi`, a call of a function that leaves the stack as it is, `iretq`. Not
modelled: other registers that the function changes. -/
def trampoline (v : Nat) (c : Cpu) (err : Option Nat) : Option Cpu := iretq v (enter c err)

end Verif.Idt
