import Verif.Idt

/-!
# What the tables of segments and interrupts guarantee
-/

namespace Verif.Idt

/-- The base in a descriptor, as the processor reads it. -/
def Seg.base (d : Seg) : Nat := d.base0 + d.base16 * 2 ^ 16 + d.base24 * 2 ^ 24
/-- The limit in a descriptor. -/
def Seg.limit (d : Seg) : Nat := d.limit0 + d.flags % 16 * 2 ^ 16
/-- A bit of a field. -/
def bit (x n : Nat) : Nat := x / 2 ^ n % 2

/-- **The processor reads back what a descriptor was made of**; of the limit the lower 20 bits. -/
theorem seg_spec (base limit type s dpl p avl l db g : Nat) (hb : base < 2 ^ 32) :
    (seg base limit type s dpl p avl l db g).base = base ∧ (seg base limit type s dpl p avl l db g).limit = limit % 2 ^ 20 ∧
    (seg base limit type s dpl p avl l db g).access % 16 = type % 16 ∧ bit (seg base limit type s dpl p avl l db g).access 4 = s % 2 ∧
    (seg base limit type s dpl p avl l db g).access / 2 ^ 5 % 4 = dpl % 4 ∧ bit (seg base limit type s dpl p avl l db g).access 7 = p % 2 ∧
    bit (seg base limit type s dpl p avl l db g).flags 4 = avl % 2 ∧ bit (seg base limit type s dpl p avl l db g).flags 5 = l % 2 ∧
    bit (seg base limit type s dpl p avl l db g).flags 6 = db % 2 ∧ bit (seg base limit type s dpl p avl l db g).flags 7 = g % 2 := by
  unfold Seg.base Seg.limit bit seg
  dsimp only
  refine ⟨?_, ?_, ?_, ?_, ?_, ?_, ?_, ?_, ?_, ?_⟩ <;> omega

/-- Every field fits in its bytes, so that nothing is cut off. -/
theorem seg_fits (base limit type s dpl p avl l db g : Nat) : (seg base limit type s dpl p avl l db g).limit0 < 2 ^ 16 ∧
    (seg base limit type s dpl p avl l db g).base0 < 2 ^ 16 ∧ (seg base limit type s dpl p avl l db g).base16 < 2 ^ 8 ∧
    (seg base limit type s dpl p avl l db g).access < 2 ^ 8 ∧ (seg base limit type s dpl p avl l db g).flags < 2 ^ 8 ∧
    (seg base limit type s dpl p avl l db g).base24 < 2 ^ 8 := by
  unfold seg
  dsimp only
  refine ⟨?_, ?_, ?_, ?_, ?_, ?_⟩ <;> omega

/-- **All segments but the first are the whole 4 GB, present, for ring 0**, and within the limit of the table. -/
theorem gdt_flat (k : Nat) (h0 : 0 < k) (h : k * 8 + 7 ≤ gdtLimit) : ∃ d, gdt[k]? = some d ∧ d.base = 0 ∧ (d.limit + 1) * 4096 = 2 ^ 32 ∧
    bit d.flags 7 = 1 ∧ bit d.access 7 = 1 ∧ bit d.access 4 = 1 ∧ d.access / 2 ^ 5 % 4 = 0 := by
  have : gdtLimit = 39 := by decide
  have : k = 1 ∨ k = 2 ∨ k = 3 ∨ k = 4 := by omega
  rcases this with rfl | rfl | rfl | rfl <;> exact ⟨_, rfl, by decide⟩

/-- Where the handler of a gate is, as the processor reads it. -/
def Gate.handler (g : Gate) : Nat := g.off0 + g.off16 * 2 ^ 16 + g.off32 * 2 ^ 32
/-- The gate is present. -/
def Gate.present (g : Gate) : Bool := decide (g.type / 2 ^ 15 % 2 = 1)

/-- **The processor gets the address of the handler from the gate**, in a present interrupt gate for ring 0, with fields that fit. -/
theorem gate_spec (h : Nat) (hh : h < 2 ^ 64) : (gate h).handler = h ∧ (gate h).present = true ∧ (gate h).type / 2 ^ 8 % 32 = 0xe ∧
    (gate h).type / 2 ^ 13 % 4 = 0 ∧ (gate h).type % 2 ^ 8 = 0 ∧ (gate h).off0 < 2 ^ 16 ∧ (gate h).off16 < 2 ^ 16 ∧ (gate h).off32 < 2 ^ 32 := by
  refine ⟨?_, by simp [gate, Gate.present], by simp [gate], by simp [gate], by simp [gate], ?_, ?_, ?_⟩
  · unfold Gate.handler gate
    dsimp only
    omega
  all_goals
    unfold gate
    dsimp only
    omega

/-- **The segment of a gate is code of 64 bits**: present, code, with the bit `L` and without `D`. -/
theorem gate_segment (h : Nat) : ∃ d, gdt[(gate h).sel / 8]? = some d ∧ (gate h).sel % 8 = 0 ∧ bit d.access 7 = 1 ∧ bit d.access 4 = 1 ∧
    bit d.access 3 = 1 ∧ bit d.flags 5 = 1 ∧ bit d.flags 6 = 0 := by
  have e : (gate h).sel = 0x18 := rfl
  rw [e]
  exact ⟨seg 0 0xffffffff 0xb 1 0 1 0 1 0 1, by decide, by decide⟩

theorem setupN_spec (tr : Nat → Nat) : ∀ n v t i, setupN tr n v t i = if v ≤ i ∧ i < v + n then gate (tr i) else t i := by
  intro n
  induction n with
  | zero => intro v t i; rw [setupN, if_neg (by omega)]
  | succ n ih =>
    intro v t i
    rw [setupN, ih]
    by_cases h : v + 1 ≤ i ∧ i < v + 1 + n
    · rw [if_pos h, if_pos (by omega)]
    · rw [if_neg h]
      unfold set
      by_cases h2 : i = v
      · rw [if_pos h2, if_pos (by omega), h2]
      · rw [if_neg h2, if_neg (by omega)]

/-- **Which vectors have a handler after `setup_interrupts`**: 0 to 31 have their own, 34 has the one of the timer, 32 and 33 have none. -/
theorem setup_spec (tr : Nat → Nat) (timer i : Nat) : setup tr timer i = if i < 32 then gate (tr i) else if i = 34 then gate timer else empty := by
  unfold setup set
  by_cases h : i = 34
  · rw [if_pos h, if_neg (by omega), if_pos h]
  · rw [if_neg h, setupN_spec, if_neg h]
    by_cases h2 : i < 32
    · rw [if_pos (by omega), if_pos h2]
    · rw [if_neg (by omega), if_neg h2]

/-- **Every vector within the limit is present, but 32 and 33**; so a spurious interrupt with the vector `TIMER_SPURIOUS_NUMBER` would have no handler. -/
theorem setup_present (tr : Nat → Nat) (timer i : Nat) (h : i * 16 + 15 ≤ idtLimit) : (setup tr timer i).present = true ↔ i ≠ 32 ∧ i ≠ 33 := by
  have h1 : idtLimit = 559 := by decide
  have hp : ∀ x, (gate x).present = true := fun x => by simp [gate, Gate.present]
  have he : empty.present = false := by decide
  rw [setup_spec]
  by_cases h2 : i < 32
  · rw [if_pos h2, hp]
    simp only [true_iff]
    omega
  · rw [if_neg h2]
    by_cases h3 : i = 34
    · rw [if_pos h3, hp]
      simp only [true_iff]
      omega
    · rw [if_neg h3, he]
      constructor
      · intro h; cases h
      · intro h; omega

/-- **The vector of spurious interrupts is 0**, that of a division error: the lower bits of `LAPIC_SVR` are not written. -/
theorem spurious_vector (tr : Nat → Nat) (timer : Nat) : svr % 2 ^ 8 = 0 ∧ svr / 2 ^ 8 % 2 = 1 ∧ setup tr timer (svr % 2 ^ 8) = gate (tr 0) :=
  ⟨by decide, by decide, setup_spec tr timer 0⟩

/-- **An interrupted program goes on where it was** after exceptions without an error code, except for `rdi`. -/
theorem return_spec (v : Nat) (c : Cpu) : trampoline v c none = some { c with rdi := v } := rfl

/-- `rdi` is not restored. -/
theorem rdi_lost (v : Nat) (c : Cpu) : trampoline v c none = some c ↔ c.rdi = v := by
  rw [return_spec, Option.some.injEq]
  constructor
  · intro h; rw [← h]
  · intro h; rw [← h]

/-- **After an exception with an error code the program goes on at the error code**: it is not taken from the stack, and each word of the frame is taken
for the one before it. -/
theorem return_error (v : Nat) (c : Cpu) (e : Nat) : trampoline v c (some e) =
    some { rip := e, cs := c.rip, rflags := c.cs, rsp := c.rflags, ss := c.rsp, rdi := v, stack := c.ss :: c.stack } := rfl

/-- It never goes on as it was. -/
theorem return_error_ne (v : Nat) (c c' : Cpu) (e : Nat) (h : trampoline v c (some e) = some c') : c'.stack ≠ c.stack := by
  rw [return_error, Option.some.injEq] at h
  rw [← h]
  intro h2
  have := congrArg List.length h2
  simp at this

end Verif.Idt
