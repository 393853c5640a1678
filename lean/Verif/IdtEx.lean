import Verif.IdtThms

/-!
# Examples of segments and interrupts
-/

namespace Verif.Idt

example : (seg 0x12345678 0xABCDE 0xb 1 3 1 0 1 0 1).base = 0x12345678 := (seg_spec 0x12345678 0xABCDE 0xb 1 3 1 0 1 0 1 (by decide)).1
example : (seg 0x12345678 0xffffffff 0xb 1 3 1 0 1 0 1).limit = 0xfffff := (seg_spec 0x12345678 0xffffffff 0xb 1 3 1 0 1 0 1 (by decide)).2.1
example : (seg 0x12345678 0xffffffff 0xff 3 7 3 3 3 3 3).access < 2 ^ 8 := (seg_fits 0x12345678 0xffffffff 0xff 3 7 3 3 3 3 3).2.2.2.1
-- The data segment, `GDT_DS` 0x08.
example : ∃ d, gdt[1]? = some d ∧ d.base = 0 ∧ (d.limit + 1) * 4096 = 2 ^ 32 ∧ bit d.flags 7 = 1 ∧ bit d.access 7 = 1 ∧ bit d.access 4 = 1 ∧
    d.access / 2 ^ 5 % 4 = 0 := gdt_flat 1 (by decide) (by decide)

example : (gate 0xFFFF800012345678).handler = 0xFFFF800012345678 := (gate_spec 0xFFFF800012345678 (by decide)).1
example : gate 0xFFFF800012345678 = { off0 := 0x5678, sel := 0x18, type := 0x8e00, off16 := 0x1234, off32 := 0xFFFF8000, reserved := 0 } := by decide
example : gdt[(gate 7).sel / 8]? = some (seg 0 0xffffffff 0xb 1 0 1 0 1 0 1) := by decide
example : ∃ d, gdt[(gate 7).sel / 8]? = some d ∧ bit d.flags 5 = 1 := by
  obtain ⟨d, h1, -, -, -, -, h2, -⟩ := gate_segment 7
  exact ⟨d, h1, h2⟩

/-- Addresses of the handlers. -/
def tr (v : Nat) : Nat := 0x100000 + 32 * v

example : setup tr 0x200000 14 = gate 0x1001C0 := setup_spec tr 0x200000 14
example : setup tr 0x200000 34 = gate 0x200000 := setup_spec tr 0x200000 34
example : (setup tr 0x200000 33).present ≠ true := fun h => ((setup_present tr 0x200000 33 (by decide)).1 h).2 rfl
example : (setup tr 0x200000 31).present = true := (setup_present tr 0x200000 31 (by decide)).2 (by decide)
example : setup tr 0x200000 0 = gate 0x100000 := (spurious_vector tr 0x200000).2.2

/-- A program. -/
def prog : Cpu := { rip := 0x5000, cs := 0x18, rflags := 0x202, rsp := 0x9000, ss := 0x8, rdi := 77, stack := [1, 2] }

-- A breakpoint, and a page fault with the error code 2.
example : trampoline 3 prog none = some { prog with rdi := 3 } := return_spec 3 prog
example : trampoline 3 prog none ≠ some prog := fun h => absurd ((rdi_lost 3 prog).1 h) (by decide)
example : (trampoline 14 prog (some 2)).map Cpu.rip = some 2 := by rw [return_error]; rfl
example (c : Cpu) (h : trampoline 14 prog (some 2) = some c) : c.stack ≠ [1, 2] := return_error_ne 14 prog c 2 h
example : (trampoline 14 prog (some 2)).isSome = true := rfl

end Verif.Idt
