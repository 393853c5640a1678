import Verif.StartUp
import Verif.MpuThms

/-!
# Start-up code and hand-over: what holds
-/

namespace Verif

namespace StartUp

/-! ## Sections -/

/-- End of the words from `a` to `b`. -/
def up4 (a b : Nat) : Nat := a + (b - a + 3) / 4 * 4

theorem copyWords_spec (m : Mem) (src dst stop : Nat) (h : dst ≤ src ∨ src + (up4 dst stop - dst) ≤ dst) (a : Nat) :
    copyWords m src dst stop a = if dst ≤ a ∧ a < up4 dst stop then m (src + (a - dst)) else m a := by
  rw [copyWords]
  by_cases hd : dst < stop
  · have e : up4 (dst + 4) stop = up4 dst stop := by unfold up4; omega
    have g : dst + 4 ≤ up4 dst stop := by unfold up4; omega
    rw [if_pos hd, copyWords_spec (cpy4 m dst src) (src + 4) (dst + 4) stop (by rw [e]; omega) a, e]
    by_cases h1 : dst + 4 ≤ a ∧ a < up4 dst stop
    · rw [if_pos h1, if_pos (show dst ≤ a ∧ a < up4 dst stop by omega)]
      unfold cpy4
      rw [if_neg (show ¬ (dst ≤ src + 4 + (a - (dst + 4)) ∧ src + 4 + (a - (dst + 4)) < dst + 4) by omega)]
      congr 1
      omega
    · rw [if_neg h1]
      unfold cpy4
      by_cases h2 : dst ≤ a ∧ a < dst + 4
      · rw [if_pos h2, if_pos (show dst ≤ a ∧ a < up4 dst stop by omega)]
      · rw [if_neg h2, if_neg (show ¬ (dst ≤ a ∧ a < up4 dst stop) by omega)]
  · rw [if_neg hd, if_neg (show ¬ (dst ≤ a ∧ a < up4 dst stop) by unfold up4; omega)]
termination_by stop - dst

theorem zeroWords_spec (m : Mem) (dst stop : Nat) (a : Nat) :
    zeroWords m dst stop a = if dst ≤ a ∧ a < up4 dst stop then 0 else m a := by
  rw [zeroWords]
  by_cases hd : dst < stop
  · have e : up4 (dst + 4) stop = up4 dst stop := by unfold up4; omega
    have g : dst + 4 ≤ up4 dst stop := by unfold up4; omega
    rw [if_pos hd, zeroWords_spec (zero4 m dst) (dst + 4) stop a, e]
    by_cases h1 : dst + 4 ≤ a ∧ a < up4 dst stop
    · rw [if_pos h1, if_pos (show dst ≤ a ∧ a < up4 dst stop by omega)]
    · rw [if_neg h1]
      unfold zero4
      by_cases h2 : dst ≤ a ∧ a < dst + 4
      · rw [if_pos h2, if_pos (show dst ≤ a ∧ a < up4 dst stop by omega)]
      · rw [if_neg h2, if_neg (show ¬ (dst ≤ a ∧ a < up4 dst stop) by omega)]
  · rw [if_neg hd, if_neg (show ¬ (dst ≤ a ∧ a < up4 dst stop) by unfold up4; omega)]
termination_by stop - dst

/-- The sections are made of words, and those of the variables are apart. -/
structure Fine (l : Sections) : Prop where
  data : l.data ≤ l.dataEnd ∧ (l.dataEnd - l.data) % 4 = 0
  bss : l.bss ≤ l.bssEnd ∧ (l.bssEnd - l.bss) % 4 = 0
  apart : l.dataEnd ≤ l.bss ∨ l.bssEnd ≤ l.data

/-- The stored values are not overwritten while they are copied. -/
def Kept (l : Sections) : Prop := l.data ≤ l.stored ∨ l.stored + (l.dataEnd - l.data) ≤ l.data

/-- What `main` finds: the variables have their initial values, those without value are 0, the rest of the memory is as it was. -/
structure Started (l : Sections) (m m' : Mem) : Prop where
  data : ∀ a, l.data ≤ a → a < l.dataEnd → m' a = m (l.stored + (a - l.data))
  bss : ∀ a, l.bss ≤ a → a < l.bssEnd → m' a = 0
  rest : ∀ a, ¬ (l.data ≤ a ∧ a < l.dataEnd) → ¬ (l.bss ≤ a ∧ a < l.bssEnd) → m' a = m a

theorem up4_mul {a b : Nat} (h : a ≤ b ∧ (b - a) % 4 = 0) : up4 a b = b := by
  unfold up4
  omega

/-- **C63 (sections).** Cortex-M, RISC-V and PowerPC. -/
theorem startArm_ok {l : Sections} (h : Fine l) (hk : Kept l) (m : Mem) : Started l m (startArm l m) := by
  have hd := h.data
  have hb := h.bss
  have ha := h.apart
  unfold Kept at hk
  have e : ∀ a, startArm l m a = if l.bss ≤ a ∧ a < l.bssEnd then 0 else if l.data ≤ a ∧ a < l.dataEnd then m (l.stored + (a - l.data)) else m a := by
    intro a
    unfold startArm
    rw [zeroWords_spec, copyWords_spec _ _ _ _ (by rw [up4_mul hd]; exact hk), up4_mul hd, up4_mul hb]
  refine ⟨?_, ?_, ?_⟩
  · intro a h1 h2
    rw [e, if_neg (by omega), if_pos ⟨h1, h2⟩]
  · intro a h1 h2
    rw [e, if_pos ⟨h1, h2⟩]
  · intro a h1 h2
    rw [e, if_neg h2, if_neg h1]

/-- **C63 (sections).** AArch64, where the stored values have to be apart from the variables without value as well, because those are cleared first;
with `NO_XIP` the values are in place. -/
theorem startA64_ok {l : Sections} (h : Fine l) (hk : Kept l) (hs : l.stored + (l.dataEnd - l.data) ≤ l.bss ∨ l.bssEnd ≤ l.stored) (noXip : Bool)
    (hx : noXip = true → l.stored = l.data) (m : Mem) : Started l m (startA64 noXip l m) := by
  have hd := h.data
  have hb := h.bss
  have ha := h.apart
  unfold Kept at hk
  by_cases hc : noXip = false ∧ l.stored ≠ l.data
  · have e : ∀ a, startA64 noXip l m a = if l.data ≤ a ∧ a < l.dataEnd then (if l.bss ≤ l.stored + (a - l.data) ∧ l.stored + (a - l.data) < l.bssEnd then 0
        else m (l.stored + (a - l.data))) else if l.bss ≤ a ∧ a < l.bssEnd then 0 else m a := by
      intro a
      unfold startA64
      rw [hc.1, if_neg (by decide), if_pos hc.2, copyWords_spec _ _ _ _ (by rw [up4_mul hd]; exact hk), zeroWords_spec, zeroWords_spec, up4_mul hd, up4_mul hb]
    refine ⟨?_, ?_, ?_⟩
    · intro a h1 h2
      rw [e, if_pos ⟨h1, h2⟩, if_neg (by omega)]
    · intro a h1 h2
      rw [e, if_neg (by omega), if_pos ⟨h1, h2⟩]
    · intro a h1 h2
      rw [e, if_neg h1, if_neg h2]
  · have hsd : l.stored = l.data := by
      cases noXip with
      | true => exact hx rfl
      | false =>
        by_cases q : l.stored = l.data
        · exact q
        · exact absurd ⟨rfl, q⟩ hc
    have e : ∀ a, startA64 noXip l m a = if l.bss ≤ a ∧ a < l.bssEnd then 0 else m a := by
      intro a
      unfold startA64
      rw [if_neg (show ¬ (l.stored ≠ l.data) from fun q => q hsd), ite_self, zeroWords_spec, up4_mul hb]
    refine ⟨?_, ?_, ?_⟩
    · intro a h1 h2
      rw [e, if_neg (by omega)]
      congr 1
      omega
    · intro a h1 h2
      rw [e, if_pos ⟨h1, h2⟩]
    · intro a _ h2
      rw [e, if_neg h2]

/-- **C63 (sections).** 32-bit ARM with the data in place. -/
theorem startA32_ok {l : Sections} (h : Fine l) (hs : l.stored = l.data) (m : Mem) : Started l m (startA32 l m) := by
  have hb := h.bss
  have ha := h.apart
  have e : ∀ a, startA32 l m a = if l.bss ≤ a ∧ a < l.bssEnd then 0 else m a := by
    intro a
    unfold startA32
    rw [zeroWords_spec, up4_mul hb]
  refine ⟨?_, ?_, ?_⟩
  · intro a h1 h2
    rw [e, if_neg (by omega)]
    congr 1
    omega
  · intro a h1 h2
    rw [e, if_pos ⟨h1, h2⟩]
  · intro a _ h2
    rw [e, if_neg h2]

/-- **Finding (C63).** A section that does not end at a word boundary is overrun, by up to three bytes. -/
theorem zeroWords_overrun (m : Mem) {dst stop : Nat} (h : dst < stop) (hr : (stop - dst) % 4 ≠ 0) : zeroWords m dst stop stop = 0 := by
  rw [zeroWords_spec, if_pos (by unfold up4; omega)]

/-- **Finding (C63).** On AArch64 initial values stored where the cleared variables are become 0; on the other processors they would be copied. -/
theorem startA64_lost {l : Sections} (h : Fine l) (hk : Kept l) (hne : l.stored ≠ l.data) (m : Mem) {a : Nat} (h1 : l.data ≤ a) (h2 : a < l.dataEnd)
    (h3 : l.bss ≤ l.stored + (a - l.data)) (h4 : l.stored + (a - l.data) < l.bssEnd) : startA64 false l m a = 0 := by
  have hd := h.data
  have hb := h.bss
  unfold startA64
  rw [if_neg (by decide), if_pos hne, copyWords_spec _ _ _ _ (by rw [up4_mul hd]; exact hk), up4_mul hd, if_pos ⟨h1, h2⟩, zeroWords_spec, up4_mul hb,
    if_pos ⟨h3, h4⟩]

/-! ## Hand-over -/

/-- The state in which a Cortex-M starts the program with the vector table at `app` after reset: stack pointer and entry from the table, the table in
use, interrupts not masked, no memory protection. -/
structure AsReset (m : Mem) (app : Nat) (c : Cpu) : Prop where
  msp : c.msp = word m app / 4 * 4
  pc : c.pc = word m (app + 4) / 2 * 2
  vtor : c.vtor = app
  irq : c.masked = false
  mpu : ∀ a, (Mpu.CanExec c.mpu .priv a ↔ Mpu.DefaultX a) ∧ Mpu.CanRead c.mpu .priv a ∧ Mpu.CanWrite c.mpu .priv a

/-- **C63 (hand-over).** ARMv7-M: the application starts as after reset, whatever wolfBoot did before. -/
theorem bootV7_reset (m : Mem) {app : Nat} (h : app % 128 = 0) (c : Cpu) : AsReset m app (bootV7 false m app c) := by
  refine ⟨rfl, rfl, ?_, rfl, ?_⟩
  · show vtorOf app = app
    unfold vtorOf
    omega
  · intro a
    have := Mpu.off_open c.mpu a .priv
    exact ⟨this.1, this.2.1.2 fun _ => rfl, this.2.2.2 fun _ => rfl⟩

/-- **C63 (hand-over).** Without `VTOR` the same but for the vector table and the mask, which stay as they are. -/
theorem bootV7_novtor (m : Mem) (app : Nat) (c : Cpu) :
    (bootV7 true m app c).msp = word m app / 4 * 4 ∧ (bootV7 true m app c).pc = word m (app + 4) / 2 * 2 ∧
    (bootV7 true m app c).vtor = c.vtor ∧ (bootV7 true m app c).masked = c.masked ∧ (bootV7 true m app c).mpu.ctrl = 0 :=
  ⟨rfl, rfl, rfl, rfl, rfl⟩

/-- **C63 (hand-over).** ARMv8-M: stack, entry and table; with TrustZone the application is entered in the non-secure state. -/
theorem bootV8_entry (m : Mem) {app : Nat} (h : app % 128 = 0) (tz : Bool) (c : Cpu) :
    (bootV8 tz m app c).pc = word m (app + 4) / 2 * 2 ∧ (bootV8 tz m app c).vtor = app ∧ (bootV8 tz m app c).msplim = 0 ∧
    (tz = true → (bootV8 tz m app c).mspNs = word m app / 4 * 4 ∧ (bootV8 tz m app c).nonSecure = true ∧ (bootV8 tz m app c).msp = c.msp) ∧
    (tz = false → (bootV8 tz m app c).msp = word m app / 4 * 4) := by
  have e : vtorOf app = app := by unfold vtorOf; omega
  cases tz
  · exact ⟨rfl, e, rfl, fun q => (by cases q), fun _ => rfl⟩
  · exact ⟨rfl, e, rfl, fun _ => ⟨rfl, rfl, rfl⟩, fun q => (by cases q)⟩

/-- **Finding (C63).** ARMv8-M without TrustZone: the application starts with interrupts masked, and with the memory protection that wolfBoot had set up
(`/repo/src/boot_arm.c:436-461`: neither `cpsie` nor `mpu_off`). -/
theorem bootV8_masked (m : Mem) (app : Nat) (c : Cpu) : (bootV8 false m app c).masked = true ∧ (bootV8 false m app c).mpu = c.mpu ∧
    ¬ AsReset m app (bootV8 false m app c) :=
  ⟨rfl, rfl, fun h => by cases h.irq⟩

/-- **Finding (C63).** With TrustZone it is the secure vector table that is set to that of the application; the non-secure one stays as it was
(`/repo/src/boot_arm.c:405-411,447`). Secure exceptions take their handlers from the image of the application. -/
theorem bootV8_secure_table (m : Mem) {app : Nat} (h : app % 128 = 0) (c : Cpu) :
    (bootV8 true m app c).vtor = app ∧ (bootV8 true m app c).vtorNs = c.vtorNs := by
  refine ⟨?_, rfl⟩
  show vtorOf app = app
  unfold vtorOf
  omega

/-- **Finding (C63).** An application that is not at a multiple of 128 gets another vector table. -/
theorem bootV7_unaligned (m : Mem) {app : Nat} (h : app % 128 ≠ 0) (c : Cpu) : (bootV7 false m app c).vtor ≠ app := by
  show vtorOf app ≠ app
  unfold vtorOf
  omega

/-- Where a RISC-V processor continues on interrupt `n`: with mode 1 in the two low bits of `mtvec` at the entry `n` of the table, else at the base. -/
def trapAt (mtvec n : Nat) : Nat := if mtvec % 4 = 1 then mtvec / 4 * 4 + 4 * n else mtvec / 4 * 4

/-- **C63 (traps).** wolfBoot's own interrupts go to its table. -/
theorem reset_traps {v : Nat} (h : v % 4 = 0) (n : Nat) : trapAt (mtvecReset v) n = v + 4 * n := by
  unfold trapAt mtvecReset
  rw [if_pos (by omega)]
  omega

/-- **Finding (C63).** Those of the application do not go to its table: all go to its second word, because 1 is added to a pointer to words
(`/repo/src/boot_riscv.c:45`). -/
theorem boot_traps {v : Nat} (h : v % 4 = 0) (n : Nat) : trapAt (mtvecBoot v) n = v + 4 := by
  unfold trapAt mtvecBoot
  rw [if_neg (by omega)]
  omega

/-! ## Caches -/

/-- `x` is a line with a byte of the range. -/
def Line (L addr size x : Nat) : Prop := x % L = 0 ∧ x < addr + size ∧ addr < x + L

theorem flushLoop_spec {L start stop : Nat} (hL : 0 < L) (hd : 4294967296 % L = 0) (hs : start % L = 0) (hstop : stop < 4294967296)
    (hend : stop / L * L + L < 4294967296 ∨ 0 < start) :
    ∀ (k addr : Nat), addr % L = 0 → start ≤ addr → addr < 4294967296 → stop / L + 1 - addr / L = k →
      ∃ l, flushLoop L start stop (k + 1) addr = some l ∧ ∀ x, x ∈ l ↔ x % L = 0 ∧ addr ≤ x ∧ x ≤ stop := by
  intro k
  induction k with
  | zero =>
    intro addr ha h1 h2 hk
    have hlt : stop / L < addr / L := by omega
    have : stop < addr := by
      rw [Nat.div_lt_iff_lt_mul hL] at hlt
      have := Nat.div_mul_le_self addr L
      omega
    refine ⟨[], ?_, ?_⟩
    · rw [flushLoop, if_neg (by unfold flushing; omega)]
    · intro x
      constructor
      · intro h; cases h
      · intro h; omega
  | succ k ih =>
    intro addr ha h1 h2 hk
    have e1 : addr / L * L = addr := by
      have := Nat.div_add_mod addr L
      rw [Nat.mul_comm] at this
      omega
    have hle : addr / L ≤ stop / L := by omega
    have hge : addr ≤ stop := by
      have a1 := Nat.mul_le_mul_right L hle
      have a2 := Nat.div_mul_le_self stop L
      omega
    rw [flushLoop, if_pos ⟨hge, h1⟩]
    by_cases hw : addr + L < 4294967296
    · have hq : (addr + L) / L = addr / L + 1 := by rw [Nat.add_div_right _ hL]
      obtain ⟨l, l1, l2⟩ := ih (addr + L) (by rw [Nat.add_mod_right]; exact ha) (by omega) hw (by rw [hq]; omega)
      rw [Nat.mod_eq_of_lt hw, l1]
      refine ⟨addr :: l, rfl, ?_⟩
      intro x
      rw [List.mem_cons, l2]
      constructor
      · rintro (h | h)
        · subst h; exact ⟨ha, Nat.le_refl _, hge⟩
        · exact ⟨h.1, by omega, h.2.2⟩
      · rintro ⟨x1, x2, x3⟩
        by_cases hx : x = addr
        · exact .inl hx
        · refine .inr ⟨x1, ?_, x3⟩
          have hx2 : x / L * L = x := by
            have := Nat.div_add_mod x L
            rw [Nat.mul_comm] at this
            omega
          have : addr / L < x / L := by
            rcases Nat.lt_or_ge (addr / L) (x / L) with q | q
            · exact q
            · have := Nat.mul_le_mul_right L q
              omega
          have := Nat.mul_le_mul_right L (show addr / L + 1 ≤ x / L from this)
          rw [Nat.add_mul] at this
          omega
    · -- the last line of the address space
      have h0 : addr + L = 4294967296 := by
        have q1 : (addr + L) % L = 0 := by rw [Nat.add_mod_right]; exact ha
        have q2 : addr / L < 4294967296 / L := by
          rw [Nat.div_lt_iff_lt_mul hL]
          have := Nat.div_add_mod 4294967296 L
          rw [Nat.mul_comm] at this
          omega
        have q3 := Nat.mul_le_mul_right L (show addr / L + 1 ≤ 4294967296 / L from q2)
        rw [Nat.add_mul] at q3
        have := Nat.div_mul_le_self 4294967296 L
        omega
      have hz : (addr + L) % 4294967296 = 0 := by rw [h0]
      have hst : 0 < start := by
        rcases hend with h | h
        · have a1 := Nat.mul_le_mul_right L hle
          omega
        · exact h
      rw [hz]
      have : flushLoop L start stop (k + 1) 0 = some [] := by
        rw [flushLoop, if_neg (by unfold flushing; omega)]
      rw [this]
      refine ⟨[addr], rfl, ?_⟩
      intro x
      rw [List.mem_singleton]
      constructor
      · intro h; subst h; exact ⟨ha, Nat.le_refl _, hge⟩
      · rintro ⟨x1, x2, x3⟩
        rcases Nat.lt_or_ge x (addr + 1) with q | q
        · omega
        · exfalso
          have e2 : x / L * L = x := by
            have := Nat.div_add_mod x L
            rw [Nat.mul_comm] at this
            omega
          have : addr / L < x / L := by
            rcases Nat.lt_or_ge (addr / L) (x / L) with r | r
            · exact r
            · have := Nat.mul_le_mul_right L r
              omega
          have := Nat.mul_le_mul_right L (show addr / L + 1 ≤ x / L from this)
          rw [Nat.add_mul] at this
          omega

/-- **C63 (caches).** `flush_cache` ends and flushes the lines of the range, and no other, unless the range reaches both ends of the address space. -/
theorem flushCache_exact {L addr size : Nat} (hL : 0 < L) (hd : 4294967296 % L = 0) (h0 : 0 < size) (hs : addr + size ≤ 4294967296)
    (hend : addr + size + L ≤ 4294967296 ∨ L ≤ addr) :
    ∃ fuel l, flushCache L addr size fuel = some l ∧ ∀ x, x ∈ l ↔ Line L addr size x := by
  have e : (addr + size + 4294967295) % 4294967296 = addr + size - 1 := by omega
  have q1 := Nat.div_mul_le_self addr L
  have q2 := Nat.lt_div_mul_add hL (a := addr)
  have q3 := Nat.div_mul_le_self (addr + size - 1) L
  obtain ⟨l, l1, l2⟩ := flushLoop_spec (L := L) (start := addr / L * L) (stop := addr + size - 1) hL hd (Nat.mul_mod_left _ _) (by omega)
    (by
      rcases hend with h | h
      · left; omega
      · right
        exact Nat.mul_pos (Nat.div_pos h hL) hL)
    _ (addr / L * L) (Nat.mul_mod_left _ _) (Nat.le_refl _) (by omega) rfl
  refine ⟨_, l, by unfold flushCache; rw [e]; exact l1, ?_⟩
  intro x
  rw [l2]
  unfold Line
  constructor
  · rintro ⟨h1, h2, h3⟩
    exact ⟨h1, by omega, by omega⟩
  · rintro ⟨h1, h2, h3⟩
    refine ⟨h1, ?_, by omega⟩
    have e2 : x / L * L = x := by
      have := Nat.div_add_mod x L
      rw [Nat.mul_comm] at this
      omega
    rcases Nat.lt_or_ge (x / L) (addr / L) with r | r
    · exfalso
      have := Nat.mul_le_mul_right L (show x / L + 1 ≤ addr / L from r)
      rw [Nat.add_mul] at this
      omega
    · have := Nat.mul_le_mul_right L r
      omega

/-- **Finding (C63).** A range that reaches the last line from the first one is flushed for ever; an empty range at 0 is such a range. -/
theorem flushCache_endless {L : Nat} (hL : 0 < L) (hd : 4294967296 % L = 0) {addr size : Nat} (ha : addr < L)
    (hs : 4294967296 - L ≤ (addr + size + 4294967295) % 4294967296) (fuel : Nat) : flushCache L addr size fuel = none := by
  unfold flushCache
  rw [Nat.div_eq_of_lt ha, Nat.zero_mul]
  generalize (addr + size + 4294967295) % 4294967296 = stop at hs
  have : ∀ fuel x, x % L = 0 → x < 4294967296 → flushLoop L 0 stop fuel x = none := by
    intro fuel
    induction fuel with
    | zero => intro x _ _; rfl
    | succ n ih =>
      intro x hx hlt
      have hxs : x ≤ stop := by
        have e2 : x / L * L = x := by
          have := Nat.div_add_mod x L
          rw [Nat.mul_comm] at this
          omega
        have q2 : x / L < 4294967296 / L := by
          rw [Nat.div_lt_iff_lt_mul hL]
          have := Nat.div_add_mod 4294967296 L
          rw [Nat.mul_comm] at this
          omega
        have q3 := Nat.mul_le_mul_right L (show x / L + 1 ≤ 4294967296 / L from q2)
        rw [Nat.add_mul] at q3
        have := Nat.div_mul_le_self 4294967296 L
        omega
      rw [flushLoop, if_pos ⟨hxs, Nat.zero_le _⟩, ih _ _ (Nat.mod_lt _ (by decide))]
      · rfl
      · rw [Nat.mod_mod_of_dvd _ (Nat.dvd_of_mod_eq_zero hd), Nat.add_mod_right]
        exact hx
  exact this fuel 0 (Nat.zero_mod _) (by decide)

/-- A line of the image that is in the data cache only: instructions are fetched from the memory behind it. -/
def Stale (L app size : Nat) (dirty : Nat → Prop) (flushed : List Nat) (x : Nat) : Prop := Line L app size x ∧ dirty x ∧ x ∉ flushed

/-- **C63 (caches).** An image of at most 32 KiB is complete in memory when it is entered, whatever was in the cache. -/
theorem bootFlush_clean {L app size : Nat} (hL : 0 < L) (hd : 4294967296 % L = 0) (hs : size ≤ 32768) (h1 : app + 32768 + L ≤ 4294967296)
    (dirty : Nat → Prop) : ∃ fuel l, bootFlush L app fuel = some l ∧ ∀ x, ¬ Stale L app size dirty l x := by
  obtain ⟨fuel, l, l1, l2⟩ := flushCache_exact (L := L) (addr := app) (size := 32768) hL hd (by decide) (by omega) (.inl (by omega))
  refine ⟨fuel, l, l1, ?_⟩
  rintro x ⟨q1, _, q3⟩
  refine q3 ((l2 x).2 ?_)
  unfold Line at *
  omega

/-- **Finding (C63).** Of a larger image, lines from 32 KiB on that are still in the data cache stay there (`/repo/src/boot_ppc.c:188`: the size of the
cache, not that of the image): code is executed that is not what was verified. -/
theorem bootFlush_stale {L app size : Nat} (hL : 0 < L) (hd : 4294967296 % L = 0) (h1 : app + 32768 + L ≤ 4294967296) (dirty : Nat → Prop)
    {x : Nat} (hx : Line L app size x) (hlate : app + 32768 ≤ x) (hdirty : dirty x) :
    ∃ fuel l, bootFlush L app fuel = some l ∧ Stale L app size dirty l x := by
  obtain ⟨fuel, l, l1, l2⟩ := flushCache_exact (L := L) (addr := app) (size := 32768) hL hd (by decide) (by omega) (.inl (by omega))
  refine ⟨fuel, l, l1, hx, hdirty, ?_⟩
  rw [l2]
  unfold Line
  omega

/-! ## Examples -/

/-- Data stored at `0x08006000`, at `0x20000000` in RAM, followed by the variables without value. -/
def demo : Sections := ⟨0x08006000, 0x20000000, 0x20000010, 0x20000010, 0x20000020⟩

theorem demo_fine : Fine demo := ⟨⟨by decide, by decide⟩, ⟨by decide, by decide⟩, .inl (by decide)⟩

example (m : Mem) : startArm demo m 0x20000005 = m 0x08006005 ∧ startArm demo m 0x2000001F = 0 ∧ startArm demo m 0x20000020 = m 0x20000020 :=
  have h := startArm_ok demo_fine (.inr (by decide)) m
  ⟨h.data _ (by decide) (by decide), h.bss _ (by decide) (by decide), h.rest _ (by decide) (by decide)⟩

example (m : Mem) : startA64 false demo m 0x20000005 = m 0x08006005 :=
  (startA64_ok demo_fine (.inr (by decide)) (.inl (by decide)) false (by decide) m).data _ (by decide) (by decide)

example (m : Mem) : startA32 { demo with stored := 0x20000000 } m 0x20000005 = m 0x20000005 :=
  (startA32_ok (l := { demo with stored := 0x20000000 }) ⟨demo_fine.data, demo_fine.bss, demo_fine.apart⟩ rfl m).data _ (by decide) (by decide)

/-- A section of five bytes: the sixth is cleared too. -/
example (m : Mem) : zeroWords m 0x20000000 0x20000005 0x20000005 = 0 := zeroWords_overrun m (by decide) (by decide)

/-- Values stored where the variables without value will be: 1 and 2 on a Cortex-M, 0 on AArch64. -/
example : startArm ⟨0x1010, 0x1000, 0x1008, 0x1010, 0x1018⟩ (fun a => if a = 0x1010 then 1 else 2) 0x1000 = 1 ∧
    startA64 false ⟨0x1010, 0x1000, 0x1008, 0x1010, 0x1018⟩ (fun a => if a = 0x1010 then 1 else 2) 0x1000 = 0 := by
  have hf : Fine ⟨0x1010, 0x1000, 0x1008, 0x1010, 0x1018⟩ := ⟨⟨by decide, by decide⟩, ⟨by decide, by decide⟩, .inl (by decide)⟩
  refine ⟨?_, startA64_lost hf (.inl (by decide)) (by decide) _ (by decide) (by decide) (by decide) (by decide)⟩
  rw [(startArm_ok hf (.inl (by decide)) _).data _ (by decide) (by decide)]
  rfl

/-- A vector table at `0x08020100`: stack at `0x20010000`, entry `0x08020201`. -/
def demoTable : Mem := fun a =>
  if a = 0x08020102 then 1 else if a = 0x08020103 then 0x20 else
  if a = 0x08020104 then 1 else if a = 0x08020105 then 2 else if a = 0x08020106 then 2 else if a = 0x08020107 then 8 else 0

/-- wolfBoot before `do_boot`, with memory protection. -/
def demoCpu : Cpu := ⟨0x08001000, 0x2000FF00, 0, 0, 0x08000000, 0, false, false, Mpu.init Mpu.demoLayout Mpu.demoReset⟩

example : (bootV7 false demoTable 0x08020100 demoCpu).msp = 0x20010000 ∧ (bootV7 false demoTable 0x08020100 demoCpu).pc = 0x08020200 ∧
    Mpu.CanExec (bootV7 false demoTable 0x08020100 demoCpu).mpu .priv 0x08020200 := by
  have h := bootV7_reset demoTable (app := 0x08020100) (by decide) demoCpu
  refine ⟨by rw [h.msp]; decide +kernel, by rw [h.pc]; decide +kernel, (h.mpu _).1.2 (.inl (by decide))⟩

/-- On a Cortex-M33 the protection of wolfBoot stays on. -/
example : (bootV8 false demoTable 0x08020100 demoCpu).mpu.ctrl = 1 := by
  obtain ⟨k, _, _, _, hs⟩ := Mpu.init_set Mpu.demo_ready.toBare
  rw [(bootV8_masked demoTable 0x08020100 demoCpu).2.1]
  exact hs.ctrl

example : (bootV8 true demoTable 0x08020100 demoCpu).vtorNs = 0 := (bootV8_secure_table demoTable (app := 0x08020100) (by decide) demoCpu).2

/-- Interrupt 7 of an application at `0x20020100`. -/
example : trapAt (mtvecReset 0x20020100) 7 = 0x2002011C ∧ trapAt (mtvecBoot 0x20020100) 7 = 0x20020104 :=
  ⟨reset_traps (by decide) 7, boot_traps (by decide) 7⟩

/-- 100 bytes from `0x1030`, lines of 64 bytes: the lines `0x1000`, `0x1040`, `0x1080`. -/
example : flushCache 64 0x1030 100 10 = some [0x1000, 0x1040, 0x1080] := by decide +kernel

example : ∃ fuel l, flushCache 64 0xFFFFFFC0 64 fuel = some l ∧ ∀ x, x ∈ l ↔ Line 64 0xFFFFFFC0 64 x :=
  flushCache_exact (by decide) (by decide) (by decide) (by decide) (.inr (by decide))

example (fuel : Nat) : flushCache 32 0 0 fuel = none := flushCache_endless (by decide) (by decide) (by decide) (by decide) fuel

/-- An image of 64 KiB at 1 MiB, its last line still in the cache. -/
example : ∃ fuel l, bootFlush 64 0x100000 fuel = some l ∧ Stale 64 0x100000 0x10000 (fun x => x = 0x10FFC0) l 0x10FFC0 :=
  bootFlush_stale (by decide) (by decide) (by decide) _ ⟨by decide, by decide, by decide⟩ (by decide) rfl

end StartUp

end Verif
