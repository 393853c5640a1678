import Verif.BinAssemble
import Verif.SignStepsEx

/-!
# C74: the hypotheses can be met
-/

namespace Verif.BinAssemble.Ex

open Verif Verif.ImgDemo

/-- Insertion sort is a function that sorts. -/
def ins (p : Part) : List Part → List Part
  | [] => [p]
  | q :: r => if p.addr ≤ q.addr then p :: q :: r else q :: ins p r

def qs (l : List Part) : List Part := l.foldr ins []

theorem ins_perm (p : Part) (l : List Part) : (ins p l).Perm (p :: l) := by
  induction l with
  | nil => exact List.Perm.refl _
  | cons q r ih =>
    unfold ins
    split
    · exact List.Perm.refl _
    · exact (ih.cons q).trans (List.Perm.swap p q r)

theorem ins_sorted (p : Part) (l : List Part) (h : l.Pairwise fun p q => p.addr ≤ q.addr) : (ins p l).Pairwise fun p q => p.addr ≤ q.addr := by
  induction l with
  | nil => simp [ins]
  | cons q r ih =>
    obtain ⟨h1, h2⟩ := List.pairwise_cons.mp h
    unfold ins
    split
    · refine List.pairwise_cons.mpr ⟨fun x hx => ?_, h⟩
      rw [List.mem_cons] at hx
      rcases hx with rfl | hx
      · assumption
      · have := h1 x hx
        omega
    · refine List.pairwise_cons.mpr ⟨fun x hx => ?_, ih h2⟩
      have := (ins_perm p r).mem_iff.mp hx
      rw [List.mem_cons] at this
      rcases this with rfl | hx
      · omega
      · exact h1 x hx

theorem qs_sorts : Sorts qs := fun l => by
  induction l with
  | nil => exact ⟨List.Perm.refl _, List.Pairwise.nil⟩
  | cons p r ih => exact ⟨(ins_perm p _).trans (ih.1.cons p), ins_sorted p _ ih.2⟩

/-- Three parts, not in order; the gap of the first and the last one has 3 bytes. -/
def args : List (List Char × Option (List Byte)) :=
  [("0x10".toList, some [1#8, 2#8, 3#8]), ("24".toList, some [7#8]), ("0x016".toList, some [4#8, 5#8])]

def parts : List Part := [⟨16, [1#8, 2#8, 3#8]⟩, ⟨24, [7#8]⟩, ⟨22, [4#8, 5#8]⟩]

theorem parts_eq : entries args = some parts := by decide +kernel

theorem parts_W : ∀ p ∈ parts, p.addr + p.data.length + BLOCK_SZ < W := by decide +kernel

theorem parts_dis : parts.Pairwise Disjoint := by
  simp only [parts, List.pairwise_cons, List.mem_cons, List.not_mem_nil, or_false, forall_eq_or_imp, forall_eq]
  refine ⟨⟨?_, ?_⟩, ?_, by simp⟩ <;> intro x hx <;> simp at hx <;> omega

example : ∃ out, main qs args = .file out :=
  (merged_iff qs_sorts (by decide) parts_eq (by decide +kernel) parts_W).1.mpr parts_dis

/-- Sorting as the program does for this input. -/
theorem qs_parts : qs parts = [⟨16, [1#8, 2#8, 3#8]⟩, ⟨22, [4#8, 5#8]⟩, ⟨24, [7#8]⟩] := by decide +kernel

example : ∃ out base, main qs args = .file out ∧ Holds out base parts := by
  obtain ⟨out, h⟩ := (merged_iff qs_sorts (by decide) parts_eq (by decide +kernel) parts_W).1.mpr parts_dis
  obtain ⟨base, -, -, hi⟩ := holds_iff qs_sorts parts_eq parts_W h
  refine ⟨out, base, h, hi.mpr ?_⟩
  rw [qs_parts]
  exact ⟨by decide, by decide, trivial⟩

/-- Two parts that overlap in one byte. -/
example : main qs [("0x10".toList, some [1#8, 2#8, 3#8]), ("18".toList, some [7#8])] = .overlap := by
  refine (merged_iff (l := [⟨16, [1#8, 2#8, 3#8]⟩, ⟨18, [7#8]⟩]) qs_sorts (by decide) (by decide +kernel) (by decide +kernel) (by decide +kernel)).2 ?_
  intro h
  have := (List.pairwise_cons.mp h).1 ⟨18, [7#8]⟩ (by simp) 18
  simp at this

/-- Internal flash at 0x08000000 and external flash at 0x90000000: the second part follows directly. -/
example : merge [⟨0x08000000, [1#8, 2#8]⟩, ⟨0x90000000, [3#8]⟩] = .file [1#8, 2#8, 3#8] := large_gap (by decide +kernel) (by decide +kernel)

example : merge [⟨0x100, []⟩, ⟨0x100, [3#8]⟩] = .file [3#8] ∧ merge [⟨0x100, [3#8]⟩, ⟨0x100, []⟩] = .overlap := empty_order (by decide) (by decide +kernel)

example : address "0x08020000".toList = 0x08020000 := by
  refine (address_hex (s := "08020000".toList) (by decide) (by decide +kernel) (by decide +kernel)).trans (by decide +kernel)

example : address "134348800".toList = 0x08020000 := by
  refine (address_dec (d := '1') (r := "34348800".toList) (by decide) (by decide +kernel) (by decide +kernel)).trans (by decide +kernel)

/-- A decimal address with a leading zero is 0; negative numbers, blanks and octal numbers as in C. -/
example : address "08020000".toList = 0 := address_zero (c := '8') (r := "020000".toList) (by decide) (by decide) (by decide)

example : address "-16".toList = W - 16 ∧ address "\t 017 x".toList = 15 ∧ address "0x".toList = 0 ∧ address "flash".toList = 0 ∧
    address "0xFFFFFFFFFFFFFFFF".toList = 0x7FFFFFFFFFFFFFFF := by decide +kernel

/-- The image of the examples of `SignSteps`, behind a bootloader of 5 bytes at 0x1000: in flash, it is accepted. -/
example : ∃ out, main qs [("0x1000".toList, some [1#8, 2#8, 3#8, 4#8, 5#8]), ("0x1400".toList, some SignStepsEx.outOne)] = .file out ∧
    ∀ m : Mem, HasBytes (fun i => m (0x1000 + i)) out → verifyImage SignStepsEx.dev (fun i => m (0x1400 + i)) fwB.length [] = .ok := by
  have a1 : address "0x1000".toList = 0x1000 := by decide +kernel
  have a2 : address "0x1400".toList = 0x1400 := by decide +kernel
  have hl : SignStepsEx.sigF.length = 64 := by decide +kernel
  have hs : SignStepsEx.outOne.length = 263 := by decide +kernel
  have hne : SignStepsEx.outOne ≠ [] := by intro h; rw [h] at hs; simp at hs
  have hd : ∀ s, Disjoint ⟨0x1000, [1#8, 2#8, 3#8, 4#8, 5#8]⟩ ⟨0x1400, s⟩ := by
    intro s x hx
    simp only [List.length_cons, List.length_nil] at hx
    omega
  have hof : SignSteps.Out.of (signTool (SignStepsEx.job.opts .ecc256 SignStepsEx.p (fun _ => SignStepsEx.sigF) none) 256 fwB) = .image SignStepsEx.outOne := by decide +kernel
  have hsi : signTool (SignStepsEx.job.opts .ecc256 SignStepsEx.p (fun _ => SignStepsEx.sigF) none) 256 fwB = .file SignStepsEx.outOne := by
    revert hof
    generalize signTool _ _ _ = x
    cases x with
    | file l => intro h; simpa [SignSteps.Out.of] using h
    | overflow => intro h; simp [SignSteps.Out.of] at h
  obtain ⟨f1, f2⟩ := factory (qs := qs) qs_sorts (k := SignStepsEx.dev) (o := SignStepsEx.job.opts .ecc256 SignStepsEx.p (fun _ => SignStepsEx.sigF) none) (H := 256) (img := fwB)
    (aw := "0x1000".toList) (ab := "0x1400".toList) (wb := [1#8, 2#8, 3#8, 4#8, 5#8]) (si := SignStepsEx.outOne) (SignStepsEx.wfO _ (by rw [hl]; decide))
    (SignStepsEx.fitsO _ hl) hsi (by decide) (by rw [a1, a2]; decide) (by intro h; rw [h] at hs; simp at hs)
    (by rw [a2, hs]; decide) (by rw [a1, a2]; decide)
  obtain ⟨out, ho⟩ : ∃ out, main qs [("0x1000".toList, some [1#8, 2#8, 3#8, 4#8, 5#8]), ("0x1400".toList, some SignStepsEx.outOne)] = .file out := by
    refine (merged_iff (l := [⟨0x1000, [1#8, 2#8, 3#8, 4#8, 5#8]⟩, ⟨0x1400, SignStepsEx.outOne⟩]) qs_sorts (by decide) ?_ ?_ ?_).1.mpr ?_
    · rw [entries, entries, entries, a1, a2]
      rfl
    · decide +kernel
    · decide +kernel
    · refine List.pairwise_cons.mpr ⟨fun q hq => ?_, List.pairwise_singleton _ _⟩
      rw [List.mem_singleton] at hq
      subst hq
      exact hd _
  refine ⟨out, ho, fun m hm => ?_⟩
  have := (f2 out ho m (by rw [a1]; exact hm)).2 []
  rw [a2] at this
  refine this.mpr ⟨by decide, ⟨SignStepsEx.p, 2#32⟩, by simp [SignStepsEx.dev], by decide, rfl, by decide +kernel⟩

end Verif.BinAssemble.Ex
