import Verif.Gpt
import Verif.DiskBoot
import Verif.ImageThms

/-!
# ELF images: `/repo/src/elf.c`, `elf_check_image_scattered` in `/repo/src/image.c:1341-1602` (C38)

Addresses are natural numbers (pointers do not wrap); the build reads the file in the byte order of the machine (little endian, no
`ELF_PARSER`, no `ELF_ENDIAN_SUPPORT`, `/repo/include/elf.h:156-160`).
-/

namespace Verif

/-! ## File format -/

/-- The fields of a program header that the code uses. -/
structure ElfPh where
  typ : Nat
  offset : Nat
  vaddr : Nat
  paddr : Nat
  filesz : Nat
  memsz : Nat
deriving DecidableEq

/-- `elf32_program_header` and `elf64_program_header`, `/repo/include/elf.h:84-93,132-141`, read with `GET_E32`, `GET_E64` (166-167). -/
def elfPh (f : Mem) (is32 : Bool) (a : Nat) : ElfPh :=
  if is32 then ⟨le32 f a, le32 f (a + 4), le32 f (a + 8), le32 f (a + 12), le32 f (a + 16), le32 f (a + 20)⟩
  else ⟨le32 f a, le64 f (a + 8), le64 f (a + 16), le64 f (a + 24), le64 f (a + 32), le64 f (a + 40)⟩

/-- `memcmp(h32->ident, ELF_IDENT_STR, 4) == 0`, `/repo/src/elf.c:67`, `/repo/include/elf.h:32`. -/
def elfMagic (f : Mem) : Bool := f 0 = 0x7F#8 ∧ f 1 = 0x45#8 ∧ f 2 = 0x4C#8 ∧ f 3 = 0x46#8

/-- `is_elf32`, `/repo/src/elf.c:72`. -/
def elf32 (f : Mem) : Bool := f 4 = 1#8

/-- `GET_H16(type)`, `/repo/src/elf.c:77`. -/
def elfType (f : Mem) : Nat := le16 f 16

/-- `GET_H64(entry)`, `/repo/src/elf.c:140`. -/
def elfEntry (f : Mem) : Nat := if elf32 f then le32 f 24 else le64 f 24

/-- `GET_H32(ph_offset)`, `/repo/src/elf.c:87` (without byte swapping the macro does not truncate). -/
def elfPhOff (f : Mem) : Nat := if elf32 f then le32 f 28 else le64 f 32

/-- `ph_entry_size`, `/repo/src/elf.c:88`. -/
def elfPhSize (f : Mem) : Nat := if elf32 f then le16 f 42 else le16 f 54

/-- `ph_entry_count`, `/repo/src/elf.c:89`. -/
def elfPhNum (f : Mem) : Nat := if elf32 f then le16 f 44 else le16 f 56

/-! ## `elf_load_image_mmu` -/

/-- `memcpy` of `n` bytes; overlapping arguments are undefined behaviour (`none`). -/
def elfCopy (m : Mem) (dst src n : Nat) : Option Mem :=
  if src < dst + n ∧ dst < src + n then none
  else some fun a => if dst ≤ a ∧ a < dst + n then m (src + (a - dst)) else m a

/-- `memset(dst, 0, n)`. -/
def elfZero (m : Mem) (dst n : Nat) : Mem := fun a => if dst ≤ a ∧ a < dst + n then 0#8 else m a

/-- Body of the loop of `elf_load_image_mmu`, `/repo/src/elf.c:94-137`. `cb` says whether the callback maps the segment (always true for a
null callback); its third parameter is a `uint32_t`. -/
def elfSeg (cb : Nat → Nat → Nat → Bool) (img : Nat) (m : Mem) (p : ElfPh) : Option Mem :=
  if p.typ ≠ 1 ∨ p.memsz = 0 then some m
  else if cb p.vaddr p.paddr (p.memsz % 4294967296) = false then some m
  else match elfCopy m p.vaddr (img + p.offset) p.filesz with
    | none => none
    | some m => some (if p.memsz > p.filesz then elfZero m (p.vaddr + p.filesz) (p.memsz - p.filesz) else m)

/-- The loop, `/repo/src/elf.c:93-138`: `n` program headers left, the next one is number `i`. Every program header is read from memory when
its turn comes. -/
def elfLoop (cb : Nat → Nat → Nat → Bool) (img : Nat) (is32 : Bool) (off sz : Nat) : Nat → Nat → Mem → Option Mem
  | 0, _, m => some m
  | n + 1, i, m =>
    match elfSeg cb img m (elfPh m is32 (img + off + i * sz)) with
    | none => none
    | some m => elfLoop cb img is32 off sz n (i + 1) m

/-- Result of loading: entry point and memory; -1; -2; undefined behaviour. -/
inductive ElfRes where
  | ok (entry : Nat) (m : Mem)
  | badMagic
  | notExec
  | ub

/-- The byte at an address after loading. -/
def ElfRes.byte : ElfRes → Nat → Option Byte
  | .ok _ m, a => some (m a)
  | _, _ => none

/-- The image seen as a file: offset 0 is the first byte of the image. -/
def elfFile (m : Mem) (img : Nat) : Mem := fun i => m (img + i)

/-- `elf_load_image_mmu`, `/repo/src/elf.c:55-146`. The entry point is read after the segments have been copied. -/
def elfLoad (cb : Nat → Nat → Nat → Bool) (img : Nat) (m : Mem) : ElfRes :=
  let f := elfFile m img
  if elfMagic f = false then .badMagic
  else if elfType f ≠ 2 then .notExec
  else match elfLoop cb img (elf32 f) (elfPhOff f) (elfPhSize f) (elfPhNum f) 0 m with
    | none => .ub
    | some m' =>
      .ok (if elf32 f then le32 (elfFile m' img) 24 else le64 (elfFile m' img) 24) m'

/-! ### Specification -/

/-- Program header number `i` of a file. -/
def elfHdr (f : Mem) (i : Nat) : ElfPh := elfPh f (elf32 f) (elfPhOff f + i * elfPhSize f)

/-- The segment is to be loaded, and the callback maps it. -/
def ElfPh.Loads (cb : Nat → Nat → Nat → Bool) (p : ElfPh) : Prop :=
  p.typ = 1 ∧ p.memsz ≠ 0 ∧ cb p.vaddr p.paddr (p.memsz % 4294967296) = true

/-- Number of bytes written for a segment. -/
def ElfPh.ext (p : ElfPh) : Nat := max p.filesz p.memsz

/-- The first `n` bytes of the file contain the ELF header, the program headers and the contents of the segments. -/
def ElfIn (cb : Nat → Nat → Nat → Bool) (f : Mem) (n : Nat) : Prop :=
  64 ≤ n ∧ ∀ i, i < elfPhNum f → elfPhOff f + i * elfPhSize f + 56 ≤ n ∧
    ((elfHdr f i).Loads cb → (elfHdr f i).offset + (elfHdr f i).filesz ≤ n)

/-- The segments to be loaded overlap neither the file, which is at `[img, img + n)`, nor each other. -/
def ElfApart (cb : Nat → Nat → Nat → Bool) (f : Mem) (img n : Nat) : Prop :=
  (∀ i, i < elfPhNum f → (elfHdr f i).Loads cb →
    (elfHdr f i).vaddr + (elfHdr f i).ext ≤ img ∨ img + n ≤ (elfHdr f i).vaddr) ∧
  (∀ i j, i < elfPhNum f → j < elfPhNum f → i ≠ j → (elfHdr f i).Loads cb → (elfHdr f j).Loads cb →
    (elfHdr f i).vaddr + (elfHdr f i).ext ≤ (elfHdr f j).vaddr ∨
    (elfHdr f j).vaddr + (elfHdr f j).ext ≤ (elfHdr f i).vaddr)

/-- Memory `m` holds segment `p` of file `f`: the file contents, then zeros. -/
def ElfPh.LoadedIn (p : ElfPh) (f m : Mem) : Prop :=
  (∀ j, j < p.filesz → m (p.vaddr + j) = f (p.offset + j)) ∧
  (∀ j, p.filesz ≤ j → j < p.memsz → m (p.vaddr + j) = 0#8)

/-! ### Proof -/

theorem elfPh_congr {m x : Mem} {b : Bool} {a c : Nat} (h : ∀ o, o < 56 → m (a + o) = x (c + o)) :
    elfPh m b a = elfPh x b c := by
  have h32 : ∀ k, k + 4 ≤ 56 → le32 m (a + k) = le32 x (c + k) := by
    intro k hk
    unfold le32
    rw [h k (by omega), Nat.add_assoc a k 1, h (k + 1) (by omega), Nat.add_assoc a k 2, h (k + 2) (by omega),
      Nat.add_assoc a k 3, h (k + 3) (by omega)]
    simp only [Nat.add_assoc]
  have h64 : ∀ k, k + 8 ≤ 56 → le64 m (a + k) = le64 x (c + k) := by
    intro k hk
    unfold le64
    rw [h32 k (by omega), Nat.add_assoc a k 4, h32 (k + 4) (by omega), Nat.add_assoc]
  have h0 := h32 0 (by omega)
  simp only [Nat.add_zero] at h0
  unfold elfPh
  rw [h0, h32 4 (by omega), h32 8 (by omega), h32 12 (by omega), h32 16 (by omega), h32 20 (by omega),
    h64 8 (by omega), h64 16 (by omega), h64 24 (by omega), h64 32 (by omega), h64 40 (by omega)]

/-- Effect of one segment that does not overlap the file. -/
theorem elfSeg_spec {cb : Nat → Nat → Nat → Bool} {img : Nat} {m : Mem} {p : ElfPh} (hl : p.Loads cb)
    (hd : img + p.offset + p.filesz ≤ p.vaddr ∨ p.vaddr + p.filesz ≤ img + p.offset) :
    ∃ m', elfSeg cb img m p = some m' ∧
      (∀ j, j < p.filesz → m' (p.vaddr + j) = m (img + p.offset + j)) ∧
      (∀ j, p.filesz ≤ j → j < p.memsz → m' (p.vaddr + j) = 0#8) ∧
      ∀ a, a < p.vaddr ∨ p.vaddr + p.ext ≤ a → m' a = m a := by
  obtain ⟨h1, h2, h3⟩ := hl
  unfold elfSeg
  rw [if_neg (by omega), if_neg (by rw [h3]; decide)]
  unfold elfCopy
  rw [if_neg (by omega)]
  refine ⟨_, rfl, ?_, ?_, ?_⟩
  · intro j hj
    by_cases hm : p.memsz > p.filesz
    · rw [if_pos hm]; unfold elfZero
      dsimp only
      rw [if_neg (by omega), if_pos (by omega), Nat.add_sub_cancel_left]
    · rw [if_neg hm]
      rw [if_pos (by omega), Nat.add_sub_cancel_left]
  · intro j hj hj2
    rw [if_pos (by omega)]; unfold elfZero
    rw [if_pos (by omega)]
  · intro a ha
    have hx : p.filesz ≤ p.ext ∧ p.memsz ≤ p.ext := ⟨Nat.le_max_left _ _, Nat.le_max_right _ _⟩
    by_cases hm : p.memsz > p.filesz
    · rw [if_pos hm]; unfold elfZero
      dsimp only
      rw [if_neg (by omega), if_neg (by omega)]
    · rw [if_neg hm]
      rw [if_neg (by omega)]

theorem elfSeg_skip {cb : Nat → Nat → Nat → Bool} {img : Nat} {m : Mem} {p : ElfPh} (hl : ¬ p.Loads cb) :
    elfSeg cb img m p = some m := by
  unfold elfSeg
  by_cases h1 : p.typ ≠ 1 ∨ p.memsz = 0
  · rw [if_pos h1]
  · rw [if_neg h1]
    by_cases h2 : cb p.vaddr p.paddr (p.memsz % 4294967296) = false
    · rw [if_pos h2]
    · exact absurd ⟨by omega, by omega, by simpa using h2⟩ hl

/-- State of the memory after the first `i` program headers. -/
structure ElfInv (cb : Nat → Nat → Nat → Bool) (f m0 : Mem) (img n i : Nat) (m : Mem) : Prop where
  file : ∀ o, o < n → m (img + o) = f o
  done : ∀ j, j < i → (elfHdr f j).Loads cb → (elfHdr f j).LoadedIn f m
  rest : ∀ a, (∀ j, j < i → (elfHdr f j).Loads cb → a < (elfHdr f j).vaddr ∨ (elfHdr f j).vaddr + (elfHdr f j).ext ≤ a) → m a = m0 a

theorem elfLoop_spec {cb : Nat → Nat → Nat → Bool} {f m0 : Mem} {img n : Nat} (hin : ElfIn cb f n)
    (hap : ElfApart cb f img n) : ∀ k i m, i + k = elfPhNum f → ElfInv cb f m0 img n i m →
    ∃ m', elfLoop cb img (elf32 f) (elfPhOff f) (elfPhSize f) k i m = some m' ∧ ElfInv cb f m0 img n (elfPhNum f) m' := by
  intro k
  induction k with
  | zero => intro i m hi h; exact ⟨m, rfl, by rw [← hi]; simpa using h⟩
  | succ k ih =>
    intro i m hi h
    obtain ⟨hh, hc⟩ := hin.2 i (by omega)
    have hp : elfPh m (elf32 f) (img + elfPhOff f + i * elfPhSize f) = elfHdr f i := by
      apply elfPh_congr
      intro o ho
      rw [← h.file _ (by omega), Nat.add_assoc img, Nat.add_assoc img]
    unfold elfLoop
    rw [hp]
    by_cases hl : (elfHdr f i).Loads cb
    · have hco := hc hl
      have hd := hap.1 i (by omega) hl
      have hx : (elfHdr f i).filesz ≤ (elfHdr f i).ext ∧ (elfHdr f i).memsz ≤ (elfHdr f i).ext :=
        ⟨Nat.le_max_left _ _, Nat.le_max_right _ _⟩
      obtain ⟨m', he, h1, h2, h3⟩ := elfSeg_spec (img := img) (m := m) hl (by omega)
      rw [he]
      refine ih (i + 1) m' (by omega) ⟨?_, ?_, ?_⟩
      · intro o ho
        rw [h3 _ (by omega), h.file o ho]
      · intro j hj hlj
        by_cases hji : j = i
        · subst hji
          refine ⟨?_, h2⟩
          intro q hq
          rw [h1 q hq, Nat.add_assoc, h.file _ (by omega)]
        · have hdj := hap.2 i j (by omega) (by omega) (Ne.symm hji) hl hlj
          have hxj : (elfHdr f j).filesz ≤ (elfHdr f j).ext ∧ (elfHdr f j).memsz ≤ (elfHdr f j).ext :=
            ⟨Nat.le_max_left _ _, Nat.le_max_right _ _⟩
          obtain ⟨d1, d2⟩ := h.done j (by omega) hlj
          refine ⟨?_, ?_⟩
          · intro q hq
            rw [h3 _ (by omega), d1 q hq]
          · intro q hq hq2
            rw [h3 _ (by omega), d2 q hq hq2]
      · intro a ha
        rw [h3 a (ha i (by omega) hl)]
        exact h.rest a fun j hj hlj => ha j (by omega) hlj
    · rw [elfSeg_skip hl]
      refine ih (i + 1) m (by omega) ⟨h.file, ?_, ?_⟩
      · intro j hj hlj
        by_cases hji : j = i
        · subst hji; exact absurd hlj hl
        · exact h.done j (by omega) hlj
      · intro a ha
        exact h.rest a fun j hj hlj => ha j (by omega) hlj

/-- **C38 (loading).** An executable whose segments overlap neither the file nor each other is loaded: every segment that the callback maps holds
the contents of the file, then zeros up to its size in memory; nothing else changes; the entry point is that of the file. -/
theorem elf_load {cb : Nat → Nat → Nat → Bool} {m : Mem} {img n : Nat} (hm : elfMagic (elfFile m img) = true)
    (ht : elfType (elfFile m img) = 2) (hin : ElfIn cb (elfFile m img) n) (hap : ElfApart cb (elfFile m img) img n) :
    ∃ m', elfLoad cb img m = .ok (elfEntry (elfFile m img)) m' ∧
      (∀ i, i < elfPhNum (elfFile m img) → (elfHdr (elfFile m img) i).Loads cb →
        (elfHdr (elfFile m img) i).LoadedIn (elfFile m img) m') ∧
      ∀ a, (∀ i, i < elfPhNum (elfFile m img) → (elfHdr (elfFile m img) i).Loads cb →
        a < (elfHdr (elfFile m img) i).vaddr ∨
        (elfHdr (elfFile m img) i).vaddr + (elfHdr (elfFile m img) i).ext ≤ a) → m' a = m a := by
  obtain ⟨m', he, hi⟩ := elfLoop_spec (m0 := m) hin hap (elfPhNum (elfFile m img)) 0 m (by omega)
    ⟨fun o _ => rfl, fun j hj => by omega, fun a _ => rfl⟩
  refine ⟨m', ?_, hi.done, hi.rest⟩
  unfold elfLoad
  simp only [hm, ht, he]
  have hf : Agree (elfFile m' img) (elfFile m img) 0 n := fun o _ ho => hi.file o ho
  have h64 := hin.1
  simp only [elfEntry, le32_congr (hf.mono (Nat.zero_le 24) (by omega)), le64_congr (hf.mono (Nat.zero_le 24) (by omega))]
  simp

/-- Exactly the files with the ELF magic number and type `EXEC` are loaded (or the behaviour is undefined). -/
theorem elf_load_refuses (cb : Nat → Nat → Nat → Bool) (m : Mem) (img : Nat) :
    (elfLoad cb img m = .badMagic ↔ elfMagic (elfFile m img) = false) ∧
    (elfLoad cb img m = .notExec ↔ elfMagic (elfFile m img) = true ∧ elfType (elfFile m img) ≠ 2) := by
  unfold elfLoad
  dsimp only
  by_cases h1 : elfMagic (elfFile m img) = false
  · simp [h1]
  · rw [if_neg h1]
    by_cases h2 : elfType (elfFile m img) ≠ 2
    · simp [h1, h2]
    · rw [if_neg h2]
      split <;> simp_all

/-- **C38, deviation.** A segment of which more bytes are stored than it has in memory is copied whole: the bytes behind the segment are
overwritten. -/
theorem elf_load_overrun {cb : Nat → Nat → Nat → Bool} {m : Mem} {img n i : Nat} (hm : elfMagic (elfFile m img) = true)
    (ht : elfType (elfFile m img) = 2) (hin : ElfIn cb (elfFile m img) n) (hap : ElfApart cb (elfFile m img) img n)
    (hi : i < elfPhNum (elfFile m img)) (hl : (elfHdr (elfFile m img) i).Loads cb) :
    ∃ e m', elfLoad cb img m = .ok e m' ∧
      ∀ j, (elfHdr (elfFile m img) i).memsz ≤ j → j < (elfHdr (elfFile m img) i).filesz →
        m' ((elfHdr (elfFile m img) i).vaddr + j) = elfFile m img ((elfHdr (elfFile m img) i).offset + j) := by
  obtain ⟨m', he, h1, _⟩ := elf_load hm ht hin hap
  exact ⟨_, m', he, fun j _ hj => (h1 i hi hl).1 j hj⟩

/-- **C38, deviation.** If the callback fails for a segment, the segment is left out, and loading still succeeds. -/
theorem elf_load_unmapped {cb : Nat → Nat → Nat → Bool} {m : Mem} {img n : Nat} (hm : elfMagic (elfFile m img) = true)
    (ht : elfType (elfFile m img) = 2) (hin : ElfIn cb (elfFile m img) n) (hap : ElfApart cb (elfFile m img) img n)
    (hcb : ∀ i, i < elfPhNum (elfFile m img) → cb (elfHdr (elfFile m img) i).vaddr (elfHdr (elfFile m img) i).paddr
      ((elfHdr (elfFile m img) i).memsz % 4294967296) = false) :
    elfLoad cb img m = .ok (elfEntry (elfFile m img)) m := by
  obtain ⟨m', he, _, h2⟩ := elf_load hm ht hin hap
  have : m' = m := by
    funext a
    apply h2
    intro i hi hl
    have := hl.2.2
    rw [hcb i hi] at this
    exact absurd this (by decide)
  rw [he, this]

namespace ElfDemo

/-- ELF32 header of an executable with `n` program headers behind it; entry point `0x1000`. -/
def hdr (n : Byte) : List Byte :=
  [0x7F#8, 0x45#8, 0x4C#8, 0x46#8, 1#8, 1#8, 1#8, 0#8, 0#8, 0#8, 0#8, 0#8, 0#8, 0#8, 0#8, 0#8,
   2#8, 0#8, 40#8, 0#8, 1#8, 0#8, 0#8, 0#8, 0#8, 0x10#8, 0#8, 0#8, 52#8, 0#8, 0#8, 0#8,
   0#8, 0#8, 0#8, 0#8, 0#8, 0#8, 0#8, 0#8, 52#8, 0#8, 32#8, 0#8, n, 0#8, 0#8, 0#8, 0#8, 0#8, 0#8, 0#8]

def w32 (x : Nat) : List Byte := [BitVec.ofNat 8 x, BitVec.ofNat 8 (x / 256), BitVec.ofNat 8 (x / 65536), BitVec.ofNat 8 (x / 16777216)]

/-- ELF32 program header. -/
def ph (typ off addr fs ms : Nat) : List Byte :=
  w32 typ ++ w32 off ++ w32 addr ++ w32 addr ++ w32 fs ++ w32 ms ++ w32 5 ++ w32 4

/-- Two segments: 3 bytes and 2 zeros at 4096; 2 bytes at 4112; between them a header that is not to be loaded. -/
def prog : List Byte :=
  hdr 3#8 ++ ph 1 148 4096 3 5 ++ ph 4 0 0 0 0 ++ ph 1 151 4112 2 2 ++ [11#8, 12#8, 13#8, 21#8, 22#8]

def mem : Mem := ofList prog

/-- One segment of 2 bytes at offset 5000 of a file of 84 bytes. -/
def wild : Mem := fun a => if a < 84 then ofList (hdr 1#8 ++ ph 1 5000 9000 2 2) a else BitVec.ofNat 8 a

def all : Nat → Nat → Nat → Bool := fun _ _ _ => true

theorem in_of_fin {cb : Nat → Nat → Nat → Bool} {f : Mem} {n k : Nat} (hk : elfPhNum f = k) (h64 : 64 ≤ n)
    (h : ∀ i : Fin k, elfPhOff f + i * elfPhSize f + 56 ≤ n ∧ (elfHdr f i).offset + (elfHdr f i).filesz ≤ n) :
    ElfIn cb f n :=
  ⟨h64, fun i hi => ⟨(h ⟨i, hk ▸ hi⟩).1, fun _ => (h ⟨i, hk ▸ hi⟩).2⟩⟩

theorem apart_of_fin {cb : Nat → Nat → Nat → Bool} {f : Mem} {img n k : Nat} (hk : elfPhNum f = k)
    (h1 : ∀ i : Fin k, (elfHdr f i).typ = 1 → (elfHdr f i).vaddr + (elfHdr f i).ext ≤ img ∨ img + n ≤ (elfHdr f i).vaddr)
    (h2 : ∀ i j : Fin k, i ≠ j → (elfHdr f i).typ = 1 → (elfHdr f j).typ = 1 →
      (elfHdr f i).vaddr + (elfHdr f i).ext ≤ (elfHdr f j).vaddr ∨ (elfHdr f j).vaddr + (elfHdr f j).ext ≤ (elfHdr f i).vaddr) :
    ElfApart cb f img n :=
  ⟨fun i hi hl => h1 ⟨i, hk ▸ hi⟩ hl.1, fun i j hi hj hne hl hl' =>
    h2 ⟨i, hk ▸ hi⟩ ⟨j, hk ▸ hj⟩ (fun h => hne (Fin.mk.inj h)) hl.1 hl'.1⟩

end ElfDemo

open ElfDemo in
example : ∃ m', elfLoad all 0 mem = .ok 4096 m' ∧ m' 4097 = 12#8 ∧ m' 4099 = 0#8 ∧ m' 4101 = 0xFF#8 ∧ m' 4113 = 22#8 := by
  have hf : elfFile mem 0 = mem := by funext i; unfold elfFile; rw [Nat.zero_add]
  obtain ⟨m', h1, h2, h3⟩ := elf_load (cb := all) (m := mem) (img := 0) (n := 200) (by rw [hf]; decide +kernel) (by rw [hf]; decide +kernel)
    (by rw [hf]; exact in_of_fin (k := 3) (by decide +kernel) (by decide) (by decide +kernel))
    (by rw [hf]; exact apart_of_fin (k := 3) (by decide +kernel) (by decide +kernel) (by decide +kernel))
  rw [hf] at h1 h2 h3
  have hn : elfPhNum mem = 3 := by decide +kernel
  have e0 : elfHdr mem 0 = ⟨1, 148, 4096, 4096, 3, 5⟩ := by decide +kernel
  have e1 : elfHdr mem 1 = ⟨4, 0, 0, 0, 0, 0⟩ := by decide +kernel
  have e2 : elfHdr mem 2 = ⟨1, 151, 4112, 4112, 2, 2⟩ := by decide +kernel
  have a0 := h2 0 (by rw [hn]; decide) (by rw [e0]; exact ⟨rfl, by decide, rfl⟩)
  have a2 := h2 2 (by rw [hn]; decide) (by rw [e2]; exact ⟨rfl, by decide, rfl⟩)
  rw [e0] at a0
  rw [e2] at a2
  refine ⟨m', ?_, ?_, ?_, ?_, ?_⟩
  · rw [h1]; exact congrArg (ElfRes.ok · m') (by decide +kernel)
  · exact (a0.1 1 (by decide)).trans (by decide +kernel)
  · exact a0.2 3 (by decide) (by decide)
  · refine (h3 4101 ?_).trans (by decide +kernel)
    intro i hi hl
    rw [hn] at hi
    obtain rfl | rfl | rfl : i = 0 ∨ i = 1 ∨ i = 2 := by omega
    · rw [e0]; exact Or.inr (by decide)
    · rw [e1] at hl; exact absurd hl.1 (by decide)
    · rw [e2]; exact Or.inl (by decide)
  · exact (a2.1 1 (by decide)).trans (by decide +kernel)

/-- **C38, deviation.** Nothing relates a segment to the size of the image: an image of 84 bytes has the contents of memory at offset 5000
loaded. -/
theorem elf_load_no_bounds :
    (elfLoad ElfDemo.all 0 ElfDemo.wild).byte 9000 = some (BitVec.ofNat 8 5000) ∧
    (elfLoad ElfDemo.all 0 ElfDemo.wild).byte 9001 = some (BitVec.ofNat 8 5001) := by
  decide +kernel

end Verif
