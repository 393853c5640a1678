import Verif.NvmThms
import Verif.PkcsSpec
import Verif.Elf

/-!
# Further theorems found necessary by wrong programs

Each theorem here rejects a change of a definition that the other theorems had let through (see
`/verif/seeded/LOG.jsonl`).
-/

namespace Verif

/-! ## C11: which of two complete flag sectors is used -/

namespace NvCfg

theorem scan_last {c : NvCfg} {m : Mem} : ∀ n s o, s ≤ o → o < s + n →
    (∀ off, s ≤ off → off < o → c.byteAt m false off ≠ c.er ∧ c.byteAt m true off ≠ c.er) →
    c.byteAt m false o = c.er → c.byteAt m true o = c.er →
    c.scan m n s = c.flagCmp (c.byteAt m false (o - 1)) (c.byteAt m true (o - 1)) := by
  intro n
  induction n with
  | zero => intro s o h1 h2; omega
  | succ n ih =>
    intro s o h1 h2 hw e0 e1
    unfold scan
    by_cases hs : s = o
    · subst hs
      rw [if_neg (by simp [e1]), if_neg (by simp [e0]), if_pos ⟨e0, e1⟩]
    · obtain ⟨w0, w1⟩ := hw s (Nat.le_refl _) (by omega)
      rw [if_neg (by simp [w0]), if_neg (by simp [w1]), if_neg (by simp [w0])]
      exact ih (s + 1) o (by omega) (by omega) (fun off a b => hw off (by omega) b) e0 e1

theorem scan_longer {c : NvCfg} {m : Mem} (b : Bool) : ∀ n s o, s ≤ o → o < s + n →
    (∀ off, s ≤ off → off < o → c.byteAt m false off ≠ c.er ∧ c.byteAt m true off ≠ c.er) →
    c.byteAt m b o ≠ c.er → c.byteAt m (!b) o = c.er → c.scan m n s = b := by
  intro n
  induction n with
  | zero => intro s o h1 h2; omega
  | succ n ih =>
    intro s o h1 h2 hw e0 e1
    unfold scan
    by_cases hs : s = o
    · subst hs
      cases b
      · rw [if_neg (by simp [e0]), if_pos ⟨e0, by simpa using e1⟩]
      · rw [if_pos ⟨by simpa using e1, e0⟩]
    · obtain ⟨w0, w1⟩ := hw s (Nat.le_refl _) (by omega)
      rw [if_neg (by simp [w0]), if_neg (by simp [w1]), if_neg (by simp [w0])]
      exact ih (s + 1) o (by omega) (by omega) (fun off a b => hw off (by omega) b) e0 e1

end NvCfg

/-- **C11, both sectors complete, same number of flags.** When a write of a flag was interrupted
after the new sector was complete and before the old one was erased, and the flag had been written
before, the sector in which the last flag has fewer set bits left (the lower value; with inverted
flags the higher one) is used. Flags only ever move in that direction, so that is the new one. -/
theorem nvm_select_newer {c : NvCfg} {m : Mem} (hm0 : c.magic m false) (hm1 : c.magic m true)
    {o : Nat} (ho : 4 ≤ o) (ho2 : o < c.ss)
    (hw : ∀ off, 4 ≤ off → off < o → c.byteAt m false off ≠ c.er ∧ c.byteAt m true off ≠ c.er)
    (e0 : c.byteAt m false o = c.er) (e1 : c.byteAt m true o = c.er) (b : Bool)
    (hlt : if c.inv then c.byteAt m (!b) (o - 1) < c.byteAt m b (o - 1)
      else c.byteAt m b (o - 1) < c.byteAt m (!b) (o - 1)) : c.select m = b := by
  unfold NvCfg.select
  rw [if_neg (by simp [hm1]), if_neg (by simp [hm0]), if_neg (by simp [hm0])]
  rw [NvCfg.scan_last (c.ss - 4) 4 o ho (by omega) hw e0 e1]
  unfold NvCfg.flagCmp
  cases hinv : c.inv <;> rw [hinv] at hlt <;> cases b <;>
    simp only [if_true, if_false, Bool.false_eq_true, Bool.not_true, Bool.not_false] at hlt ⊢
  · simpa using hlt
  · simp only [BitVec.lt_def] at hlt ⊢
    simp; omega
  · simpa using hlt
  · simp only [BitVec.lt_def, gt_iff_lt] at hlt ⊢
    simp; omega

/-- **C11, both sectors complete, different number of flags**: the sector with one more flag is
used. -/
theorem nvm_select_longer {c : NvCfg} {m : Mem} (hm0 : c.magic m false) (hm1 : c.magic m true)
    {o : Nat} (ho : 4 ≤ o) (ho2 : o < c.ss)
    (hw : ∀ off, 4 ≤ off → off < o → c.byteAt m false off ≠ c.er ∧ c.byteAt m true off ≠ c.er)
    (b : Bool) (e0 : c.byteAt m b o ≠ c.er) (e1 : c.byteAt m (!b) o = c.er) : c.select m = b := by
  unfold NvCfg.select
  rw [if_neg (by simp [hm1]), if_neg (by simp [hm0]), if_neg (by simp [hm0])]
  exact NvCfg.scan_longer b (c.ss - 4) 4 o ho (by omega) hw e0 e1

/-! ## C34: a deleted object gives back its node and its buffer -/

theorem bit_clear (c : Mem) (p : Nat) : vBit (vBitPut c p false) p = false := by
  unfold vBit vBitPut
  simp only [if_true, Bool.false_eq_true, if_false]
  have hp : p % 8 < 8 := Nat.mod_lt _ (by omega)
  simp [BitVec.getLsbD_and, hp]

/-- **C34, deletion.** After `delete_object` the node of the object is free and the position of
its buffer is not marked as used. -/
theorem vDelete_frees {g : VCfg} {v : Mem} {k : VKey} {a : Nat} (hm : le32 v 0 = VMAGIC)
    (hs : vScan v k g.scan 0 = some a) (h1 : 128 ≤ a) (h2 : a + 32 ≤ g.ss)
    (hp : 4 + le32 v (a + 12) / 8 < 128) :
    le32 (vRun v (vDelete g k v)) a = VNONE ∧ le32 (vRun v (vDelete g k v)) (a + 4) = VNONE ∧
      vBit (vRun v (vDelete g k v)) (le32 v (a + 12)) = false ∧
      le32 (vRun v (vDelete g k v)) 0 = VMAGIC := by
  have hrun : vRun v (vDelete g k v) = vPut (vPut v g.ss g.ss
      (vBitPut (putW (putW v a VNONE) (a + 4) VNONE) (le32 v (a + 12)) false)) 0 g.ss
      (vBitPut (putW (putW v a VNONE) (a + 4) VNONE) (le32 v (a + 12)) false) := by
    unfold vDelete
    rw [vCheck_ok hm]
    dsimp only
    have : vRun v [] = v := rfl
    rw [this, hs]
    dsimp only
    rw [List.nil_append, run_commit]
  rw [hrun]
  generalize hd : vBitPut (putW (putW v a VNONE) (a + 4) VNONE) (le32 v (a + 12)) false = d
  have hin : ∀ b, b + 4 ≤ g.ss → le32 (vPut (vPut v g.ss g.ss d) 0 g.ss d) b = le32 d b := by
    intro b hb
    apply le32_congr
    intro o o1 o2
    rw [vPut_in (by omega) (by omega)]; congr 1
  have hN : VNONE < 4294967296 := by decide
  refine ⟨?_, ?_, ?_, ?_⟩
  · rw [hin a (by omega), ← hd, le32_bitPut (by omega), le32_putW_out (by omega),
      le32_putW _ _ _ hN]
  · rw [hin (a + 4) (by omega), ← hd, le32_bitPut (by omega), le32_putW _ _ _ hN]
  · have : vBit (vPut (vPut v g.ss g.ss d) 0 g.ss d) (le32 v (a + 12)) = vBit d (le32 v (a + 12)) := by
      unfold vBit
      rw [vPut_in (by omega) (by omega), Nat.sub_zero]
    rw [this, ← hd]
    exact bit_clear _ _
  · rw [hin 0 (by omega), ← hd, le32_bitPut (by omega), le32_putW_out (by omega),
      le32_putW_out (by omega), hm]

/-! ## C38: layout of the program headers -/

/-- `v` is stored in `n` bytes at `a`, least significant byte first. -/
def StoredLE (m : Mem) (a n v : Nat) : Prop :=
  v < 256 ^ n ∧ ∀ k, k < n → (m (a + k)).toNat = v / 256 ^ k % 256

/-- An `Elf64_Phdr` of the ELF specification: type, flags, offset, virtual address, physical
address, size in the file, size in memory, alignment. -/
def Phdr64 (m : Mem) (a : Nat) (h : ElfPh) (flags align : Nat) : Prop :=
  StoredLE m a 4 h.typ ∧ StoredLE m (a + 4) 4 flags ∧ StoredLE m (a + 8) 8 h.offset ∧
  StoredLE m (a + 16) 8 h.vaddr ∧ StoredLE m (a + 24) 8 h.paddr ∧ StoredLE m (a + 32) 8 h.filesz ∧
  StoredLE m (a + 40) 8 h.memsz ∧ StoredLE m (a + 48) 8 align

/-- An `Elf32_Phdr`: type, offset, virtual address, physical address, size in the file, size in
memory, flags, alignment. -/
def Phdr32 (m : Mem) (a : Nat) (h : ElfPh) (flags align : Nat) : Prop :=
  StoredLE m a 4 h.typ ∧ StoredLE m (a + 4) 4 h.offset ∧ StoredLE m (a + 8) 4 h.vaddr ∧
  StoredLE m (a + 12) 4 h.paddr ∧ StoredLE m (a + 16) 4 h.filesz ∧ StoredLE m (a + 20) 4 h.memsz ∧
  StoredLE m (a + 24) 4 flags ∧ StoredLE m (a + 28) 4 align

theorem StoredLE.le32 {m : Mem} {a v : Nat} (h : StoredLE m a 4 v) : le32 m a = v := by
  obtain ⟨hv, hb⟩ := h
  have h0 := hb 0 (by omega)
  have h1 := hb 1 (by omega)
  have h2 := hb 2 (by omega)
  have h3 := hb 3 (by omega)
  rw [Nat.add_zero] at h0
  simp only [Nat.reducePow, Nat.div_one] at hv h0 h1 h2 h3
  unfold Verif.le32
  omega

theorem StoredLE.le64 {m : Mem} {a v : Nat} (h : StoredLE m a 8 v) : le64 m a = v := by
  obtain ⟨hv, hb⟩ := h
  have lo : StoredLE m a 4 (v % 4294967296) := by
    refine ⟨by simp only [Nat.reducePow]; omega, ?_⟩
    intro k hk
    rw [hb k (by omega)]
    obtain rfl | rfl | rfl | rfl : k = 0 ∨ k = 1 ∨ k = 2 ∨ k = 3 := by omega
    all_goals simp only [Nat.reducePow, Nat.reduceAdd, Nat.div_one]
    all_goals omega
  have hi : StoredLE m (a + 4) 4 (v / 4294967296) := by
    refine ⟨by simp only [Nat.reducePow] at hv ⊢; omega, ?_⟩
    intro k hk
    rw [Nat.add_assoc, hb (4 + k) (by omega)]
    obtain rfl | rfl | rfl | rfl : k = 0 ∨ k = 1 ∨ k = 2 ∨ k = 3 := by omega
    all_goals simp only [Nat.reducePow, Nat.reduceAdd, Nat.div_one]
    all_goals omega
  unfold Verif.le64
  rw [lo.le32, hi.le32]
  omega

/-- **C38, header layout.** A program header laid out as the ELF specification says is read with
every field in its place, for both classes. -/
theorem elfPh_fields (m : Mem) (a : Nat) (h : ElfPh) (flags align : Nat) :
    (Phdr64 m a h flags align → elfPh m false a = h) ∧
    (Phdr32 m a h flags align → elfPh m true a = h) := by
  constructor
  · rintro ⟨h1, _, h2, h3, h4, h5, h6, _⟩
    unfold elfPh
    rw [if_neg (by decide), h1.le32, h2.le64, h3.le64, h4.le64, h5.le64, h6.le64]
  · rintro ⟨h1, h2, h3, h4, h5, h6, _, _⟩
    unfold elfPh
    rw [if_pos rfl, h1.le32, h2.le32, h3.le32, h4.le32, h5.le32, h6.le32]

/-! ## Examples -/

/-- Two complete sectors of 32 bytes at 32 and 64; the state is `0x70` in the last one and `0x10`
in the other. -/
example : (⟨32, 8, 64, 32, 0xFF#8, false⟩ : NvCfg).select
    (fun x => if 92 ≤ x ∧ x < 96 then magicByte (x - 92) else if 60 ≤ x ∧ x < 64 then
      magicByte (x - 60) else if x = 91 then 0x70#8 else if x = 59 then 0x10#8 else 0xFF#8) = true := by
  refine nvm_select_newer (o := 6) (by decide +kernel) (by decide +kernel) (by omega) (by decide) ?_
    (by decide +kernel) (by decide +kernel) true (by decide +kernel)
  intro off h1 h2
  obtain rfl | rfl : off = 4 ∨ off = 5 := by omega
  · decide +kernel
  · decide +kernel

/-- Only the sector before the last one has the flag. -/
example : (⟨32, 8, 64, 32, 0xFF#8, false⟩ : NvCfg).select
    (fun x => if 92 ≤ x ∧ x < 96 then magicByte (x - 92) else if 60 ≤ x ∧ x < 64 then
      magicByte (x - 60) else if x = 59 then 0x70#8 else 0xFF#8) = true := by
  refine nvm_select_longer (o := 5) (by decide +kernel) (by decide +kernel) (by omega) (by decide) ?_
    true (by decide +kernel) (by decide +kernel)
  intro off h1 h2
  obtain rfl : off = 4 := by omega
  decide +kernel

/-- A vault with one object in the first node at position 5. -/
def delDemo : Mem :=
  vBitPut (vNode (vFresh ⟨256, 64, 20⟩) 128 ⟨1, 2, 3⟩ 5) 5 true

example : vBit (vRun delDemo (vDelete ⟨256, 64, 20⟩ ⟨1, 2, 3⟩ delDemo)) 5 = false := by
  have hp : le32 delDemo (128 + 12) = 5 := by decide +kernel
  have h := (vDelete_frees (g := ⟨256, 64, 20⟩) (v := delDemo) (k := ⟨1, 2, 3⟩) (a := 128)
    (by decide +kernel) (by decide +kernel) (by omega) (by decide) (by rw [hp]; decide)).2.2.1
  rwa [hp] at h

/-- A loadable segment: offset 0x1000, addresses 0x8000_0000, 0x200 bytes in the file, 0x300 in
memory. -/
def phDemo : List Byte :=
  [1, 0, 0, 0, 5, 0, 0, 0, 0, 0x10, 0, 0, 0, 0, 0, 0, 0, 0, 0, 0x80, 0, 0, 0, 0, 0, 0, 0, 0x80, 0,
   0, 0, 0, 0, 2, 0, 0, 0, 0, 0, 0, 0, 3, 0, 0, 0, 0, 0, 0, 0, 0x10, 0, 0, 0, 0, 0, 0]

example : elfPh (ofList phDemo) false 0 = ⟨1, 0x1000, 0x80000000, 0x80000000, 0x200, 0x300⟩ := by
  refine (elfPh_fields (ofList phDemo) 0 _ 5 0x1000).1 ?_
  unfold Phdr64 StoredLE
  decide +kernel

end Verif
