import Verif.Elf

/-!
# Scattered ELF images: `elf_store_image_scattered` and `elf_check_image_scattered` (C38)

The image is in the BOOT partition (`img`, offset 0 is the manifest header), its segments are executed from the addresses in the program headers (`mem`).
Neither function uses the size of a program header that the file states: the program headers are an array of the C structure.
-/

namespace Verif

/-- Constants: `WOLFBOOT_SHA_BLOCK_SIZE`, `PADDING_BLOCK_SIZE` (`/repo/src/image.c:1333`), `BASE_OFF` (1335-1339), and the number of values of
`unsigned long`. -/
structure ScCfg where
  blk : Nat
  pad : Nat
  base : Nat
  ul : Nat

/-- Program header number `i` of the array `ph`, `/repo/src/elf.c:215-224`, `/repo/src/image.c:1404,1424-1426`, with the casts to `unsigned long`. -/
def scPh (s : ScCfg) (f : Mem) (i : Nat) : ElfPh :=
  let p := elfPh f (elf32 f) (elfPhOff f + i * if elf32 f then 32 else 56)
  { p with offset := p.offset % s.ul, paddr := p.paddr % s.ul, filesz := p.filesz % s.ul }

/-- `elf_hdr_size`, `/repo/src/elf.c:163-180`. -/
def scHdrSize (f : Mem) : Nat := if elf32 f then 52 + elfPhNum f * 32 else 64 + elfPhNum f * 56

/-! ## `elf_store_image_scattered` -/

/-- Erase and write of one segment, `/repo/src/elf.c:220-239`. Simplification: erasing and writing affect exactly the given bytes. -/
def scPut (s : ScCfg) (f : Mem) (mem : Mem) (p : ElfPh) : Mem :=
  if p.typ ≠ 1 then mem
  else fun a => if p.paddr + s.base ≤ a ∧ a < p.paddr + s.base + p.filesz then f (p.offset + (a - (p.paddr + s.base))) else mem a

/-- The loop, `/repo/src/elf.c:216-240,254-278`. -/
def scPuts (s : ScCfg) (f : Mem) : Nat → Nat → Mem → Mem
  | 0, _, mem => mem
  | n + 1, i, mem => scPuts s f n (i + 1) (scPut s f mem (scPh s f i))

/-- `elf_store_image_scattered`, `/repo/src/elf.c:192-281`; the image in the partition is not affected. -/
def scStore (s : ScCfg) (H : Nat) (img mem : Mem) : Mem :=
  let f := elfFile img H
  if elfMagic f then scPuts s f (elfPhNum f) 0 mem else mem

/-! ## `elf_check_image_scattered` -/

/-- The loops that feed `len` bytes to the hash in blocks, e.g. `/repo/src/image.c:1382-1391`. -/
def scFeed (m : Mem) (blk p len : Nat) : List Byte :=
  if 0 < blk ∧ len > blk then slice m p blk ++ scFeed m blk (p + blk) (len - blk) else slice m p len
termination_by len

/-- The loops that feed zeros, e.g. `/repo/src/image.c:1408-1416`. -/
def scZeros (blk len : Nat) : List Byte :=
  if 0 < blk ∧ len > blk then List.replicate blk 0#8 ++ scZeros blk (len - blk) else List.replicate len 0#8
termination_by len

/-- `int len = x; while (len > 0)`: the number of bytes that such a loop handles. -/
def scInt (x : Nat) : Nat := (toInt32 (x % 4294967296)).toNat

/-- The loop over the program headers, `/repo/src/image.c:1417-1471,1496-1549`. Result: what was fed to the hash, and `final_offset` if it was set. -/
def scLoop (s : ScCfg) (f mem : Mem) : Nat → Nat → Option Nat → List Byte × Option Nat
  | 0, _, fin => ([], fin)
  | n + 1, i, fin =>
    let p := scPh s f i
    if p.typ ≠ 1 then scLoop s f mem n (i + 1) fin
    else
      let a := scFeed mem s.blk (p.paddr + s.base) (scInt p.filesz)
      let e := (p.offset + p.filesz) % s.ul
      if n ≠ 0 ∧ (scPh s f (i + 1)).offset > e then
        let r := scLoop s f mem n (i + 1) fin
        (a ++ (scZeros s.pad ((scPh s f (i + 1)).offset - e) ++ r.1), r.2)
      else
        let r := scLoop s f mem n (i + 1) (some e)
        (a ++ r.1, r.2)

/-- Result of the check: 0 with the entry point; negative; no termination. -/
inductive ScRes where
  | ok (entry : Nat)
  | err
  | hang
deriving DecidableEq

/-- The part behind the manifest header, `/repo/src/image.c:1377-1584`: the bytes that are fed to the hash, or -1. The difference in line 1407 is
computed modulo `2 ^ 32` or `2 ^ 64`. -/
def scBody (s : ScCfg) (H : Nat) (f mem : Mem) (fw : Nat) : Option (List Byte) :=
  let z := scHdrSize f
  let pad0 := scInt ((scPh s f 0).offset + s.ul - z)
  let r := scLoop s f mem (elfPhNum f) 0 none
  match r.2 with
  | none => none
  | some fin =>
    if fin ≥ s.ul / 2 then none
    else if fw ≥ s.ul / 2 ∨ fin + H > fw then none
    else some (scFeed f s.blk 0 z ++ (scZeros s.pad pad0 ++ (r.1 ++ scFeed f s.blk fin (scInt (fw - fin)))))

/-- `elf_check_image_scattered`, `/repo/src/image.c:1341-1602`, after the image has been opened; `fw` is `boot.fw_size`. -/
def scCheck (k : ImgCfg) (s : ScCfg) (img mem : Mem) (fw : Nat) : ScRes :=
  match findHdr img k.H k.shaTag with
  | .found off len =>
    if len ≠ k.dlen then .err
    else match hashHdr img k.blk (off - 4) (off + 1) 0 [] with
      | .msg a =>
        if elfMagic (elfFile img k.H) = false then .err
        else match scBody s k.H (elfFile img k.H) mem fw with
          | none => .err
          | some b => if k.hash (a ++ b) ≠ slice img off k.dlen then .err else .ok (elfEntry (elfFile img k.H) % s.ul)
      | _ => .hang
  | _ => .err

/-- Result of `scBoot`: jump to an address, or `wolfBoot_panic`. -/
inductive ScBoot where
  | jump (entry : Nat) (mem : Mem)
  | panic

/-- The check before the jump, `/repo/src/update_flash.c:1082-1099`: on failure the segments are written again, and checked again. -/
def scBoot (k : ImgCfg) (s : ScCfg) (img mem : Mem) (fw : Nat) : ScBoot :=
  match scCheck k s img mem fw with
  | .ok e => .jump e mem
  | _ =>
    match scCheck k s img (scStore s k.H img mem) fw with
    | .ok e => .jump e (scStore s k.H img mem)
    | _ => .panic

/-! ## Specification -/

/-- Memory holds the stored contents of segment `p` of file `f`. -/
def ElfPh.StoredIn (s : ScCfg) (p : ElfPh) (f mem : Mem) : Prop :=
  ∀ j, j < p.filesz → mem (p.paddr + s.base + j) = f (p.offset + j)

/-- The program headers `l` describe the file from position `pos` up to position `fin`: every segment to be loaded starts where the previous one, and the
zeros up to the offset of the next program header, end. `closed` says that nothing follows the last segment that was loaded. -/
def ScLaid (ul : Nat) : Bool → Nat → List ElfPh → Nat → Prop
  | closed, pos, [], fin => closed = true ∧ pos = fin
  | closed, pos, p :: l, fin =>
    if p.typ ≠ 1 then ScLaid ul closed pos l fin
    else p.offset = pos ∧ p.filesz < 2147483648 ∧ pos + p.filesz < ul ∧
      match l with
      | [] => fin = pos + p.filesz
      | q :: _ => if q.offset > pos + p.filesz then ScLaid ul false q.offset l fin else ScLaid ul true (pos + p.filesz) l fin

/-- The program headers, from number `i`. -/
def scList (s : ScCfg) (f : Mem) : Nat → Nat → List ElfPh
  | 0, _ => []
  | n + 1, i => scPh s f i :: scList s f n (i + 1)

/-- The image can be checked: the first program header (behind the ELF header and the program headers) and the others describe the file from there up to
`fin`, and at least `H` bytes follow. -/
structure ScFile (s : ScCfg) (H : Nat) (f : Mem) (fw fin : Nat) : Prop where
  laid : ScLaid s.ul false (max (scHdrSize f) (scPh s f 0).offset) (scList s f (elfPhNum f) 0) fin
  first : (scPh s f 0).offset < 2147483648
  ul : 4294967296 ≤ s.ul ∧ s.ul % 4294967296 = 0
  tail : fin + H ≤ fw
  size : fw < 2147483648

/-- Outside the headers, the segments and the tail, the file is zero. -/
def ScGaps (s : ScCfg) (f : Mem) (fin : Nat) : Prop :=
  ∀ a, scHdrSize f ≤ a → a < fin →
    (∀ p ∈ scList s f (elfPhNum f) 0, p.typ = 1 → a < p.offset ∨ p.offset + p.filesz ≤ a) → f a = 0#8

/-- The message that the check hashes differs from the signed one and has the same digest. -/
def ScCollision (k : ImgCfg) (s : ScCfg) (img mem : Mem) (fw off : Nat) : Prop :=
  ∃ b, scBody s k.H (elfFile img k.H) mem fw = some b ∧ slice img 0 (off - 4) ++ b ≠ signedMsg k.H img off fw ∧
    k.hash (slice img 0 (off - 4) ++ b) = k.hash (signedMsg k.H img off fw)

/-! ## Proofs -/

theorem slice_eq_iff {m x : Mem} {a b n : Nat} : slice m a n = slice x b n ↔ ∀ j, j < n → m (a + j) = x (b + j) := by
  constructor
  · intro h j hj
    have h1 := slice_getElem? m a n j hj
    have h2 := slice_getElem? x b n j hj
    rw [h, h2] at h1
    exact (Option.some.inj h1).symm
  · intro h
    apply List.ext_getElem?
    intro j
    by_cases hj : j < n
    · rw [slice_getElem? m a n j hj, slice_getElem? x b n j hj, h j hj]
    · rw [List.getElem?_eq_none (by rw [slice_length]; omega), List.getElem?_eq_none (by rw [slice_length]; omega)]

theorem replicate_eq_slice {f : Mem} {b n : Nat} : List.replicate n 0#8 = slice f b n ↔ ∀ j, j < n → f (b + j) = 0#8 := by
  have : List.replicate n 0#8 = slice (fun _ => 0#8) 0 n := by
    apply List.ext_getElem?
    intro j
    by_cases hj : j < n
    · rw [slice_getElem? _ 0 n j hj, List.getElem?_replicate, if_pos hj]
    · rw [List.getElem?_eq_none (by rw [List.length_replicate]; omega), List.getElem?_eq_none (by rw [slice_length]; omega)]
  rw [this, slice_eq_iff]
  exact ⟨fun h j hj => (h j hj).symm, fun h j hj => (h j hj).symm⟩

theorem scFeed_eq (m : Mem) (blk : Nat) : ∀ len p, scFeed m blk p len = slice m p len := by
  intro len
  induction len using Nat.strongRecOn with
  | ind len ih =>
    intro p
    unfold scFeed
    split
    · next h =>
      rw [ih (len - blk) (by omega), ← slice_append, show blk + (len - blk) = len by omega]
    · rfl

theorem scZeros_eq (blk : Nat) : ∀ len, scZeros blk len = List.replicate len 0#8 := by
  intro len
  induction len using Nat.strongRecOn with
  | ind len ih =>
    unfold scZeros
    split
    · next h =>
      rw [ih (len - blk) (by omega), List.replicate_append_replicate, show blk + (len - blk) = len by omega]
    · rfl

theorem scInt_small {x : Nat} (h : x < 2147483648) : scInt x = x := by
  unfold scInt toInt32
  rw [Nat.mod_eq_of_lt (by omega), if_pos h]
  rfl

theorem ScLaid.bounds {ul : Nat} : ∀ (l : List ElfPh) (closed : Bool) (pos fin : Nat), ScLaid ul closed pos l fin →
    pos ≤ fin ∧ ∀ p ∈ l, p.typ = 1 → pos ≤ p.offset ∧ p.offset + p.filesz ≤ fin := by
  intro l
  induction l with
  | nil =>
    intro closed pos fin h
    unfold ScLaid at h
    exact ⟨by omega, fun p hp => by simp at hp⟩
  | cons p l ih =>
    intro closed pos fin h
    unfold ScLaid at h
    by_cases ht : p.typ ≠ 1
    · rw [if_pos ht] at h
      obtain ⟨h1, h2⟩ := ih _ _ _ h
      refine ⟨h1, ?_⟩
      intro q hq hqt
      rcases List.mem_cons.mp hq with rfl | hq
      · exact absurd hqt ht
      · exact h2 q hq hqt
    · rw [if_neg ht] at h
      obtain ⟨h1, _, _, h4⟩ := h
      have key : ∃ c pos', pos + p.filesz ≤ pos' ∧ (pos' ≤ fin ∧ ∀ q ∈ l, q.typ = 1 → pos' ≤ q.offset ∧ q.offset + q.filesz ≤ fin) ∧ c = true := by
        cases l with
        | nil => exact ⟨true, pos + p.filesz, by omega, ⟨by dsimp only at h4; omega, fun q hq => by simp at hq⟩, rfl⟩
        | cons q l =>
          dsimp only at h4
          split at h4
          · exact ⟨true, q.offset, by omega, ih _ _ _ h4, rfl⟩
          · exact ⟨true, pos + p.filesz, by omega, ih _ _ _ h4, rfl⟩
      obtain ⟨_, pos', hp, ⟨h5, h6⟩, _⟩ := key
      refine ⟨by omega, ?_⟩
      intro q hq hqt
      rcases List.mem_cons.mp hq with rfl | hq
      · exact ⟨by omega, by omega⟩
      · have := h6 q hq hqt
        exact ⟨by omega, this.2⟩

/-- Outside the segments of `l`, the file is zero from `pos` to `fin`. -/
def ZeroGaps (f : Mem) (l : List ElfPh) (pos fin : Nat) : Prop :=
  ∀ a, pos ≤ a → a < fin → (∀ p ∈ l, p.typ = 1 → a < p.offset ∨ p.offset + p.filesz ≤ a) → f a = 0#8

theorem append_eq_append_iff_len {a b c d : List Byte} (h : a.length = c.length) : a ++ b = c ++ d ↔ a = c ∧ b = d :=
  ⟨fun e => List.append_inj e h, fun e => by rw [e.1, e.2]⟩

/-- What the loop feeds to the hash is the part of the file from `pos` to `fin` exactly if memory holds the segments and the gaps are zero. -/
theorem scLoop_laid {s : ScCfg} {f mem : Mem} {fin : Nat} : ∀ n i closed pos fin0,
    ScLaid s.ul closed pos (scList s f n i) fin → (closed = true → fin0 = some pos) →
    ∃ M, scLoop s f mem n i fin0 = (M, some fin) ∧ M.length = fin - pos ∧
      (M = slice f pos (fin - pos) ↔
        (∀ p ∈ scList s f n i, p.typ = 1 → p.StoredIn s f mem) ∧ ZeroGaps f (scList s f n i) pos fin) := by
  intro n
  induction n with
  | zero =>
    intro i closed pos fin0 h hc
    simp only [scList, ScLaid] at h
    refine ⟨[], ?_, by simp; omega, ?_⟩
    · simp only [scLoop]; rw [hc h.1, h.2]
    · rw [h.2, Nat.sub_self]
      exact ⟨fun _ => ⟨fun p hp => by simp [scList] at hp, fun a h1 h2 => by omega⟩, fun _ => rfl⟩
  | succ n ih =>
    intro i closed pos fin0 h hc
    have hb := h.bounds
    simp only [scList] at h hb ⊢
    unfold ScLaid at h
    unfold scLoop
    dsimp only
    by_cases ht : (scPh s f i).typ ≠ 1
    · rw [if_pos ht] at h
      rw [if_pos ht]
      obtain ⟨M, h1, h2, h3⟩ := ih (i + 1) _ _ fin0 h hc
      refine ⟨M, h1, h2, h3.trans ?_⟩
      constructor
      · rintro ⟨a1, a2⟩
        refine ⟨?_, ?_⟩
        · intro p hp hpt
          rcases List.mem_cons.mp hp with rfl | hp
          · exact absurd hpt ht
          · exact a1 p hp hpt
        · intro a b1 b2 b3
          exact a2 a b1 b2 fun p hp => b3 p (List.mem_cons_of_mem _ hp)
      · rintro ⟨a1, a2⟩
        refine ⟨fun p hp => a1 p (List.mem_cons_of_mem _ hp), ?_⟩
        intro a b1 b2 b3
        refine a2 a b1 b2 ?_
        intro p hp hpt
        rcases List.mem_cons.mp hp with rfl | hp
        · exact absurd hpt ht
        · exact b3 p hp hpt
    · rw [if_neg ht] at h
      rw [if_neg ht]
      have ht1 : (scPh s f i).typ = 1 := by omega
      obtain ⟨hoff, hfs, hul, hrest⟩ := h
      rw [scFeed_eq, scInt_small hfs, hoff, Nat.mod_eq_of_lt hul]
      have hseg : slice mem ((scPh s f i).paddr + s.base) (scPh s f i).filesz = slice f pos (scPh s f i).filesz ↔
          (scPh s f i).StoredIn s f mem := by
        unfold ElfPh.StoredIn
        rw [slice_eq_iff, hoff]
      have hbl := fun p hp => hb.2 p (List.mem_cons_of_mem (scPh s f i) hp)
      have hbp := hb.2 (scPh s f i) List.mem_cons_self ht1
      -- the rest of the list
      have key : ∀ (q : Nat) (M' : List Byte), pos + (scPh s f i).filesz ≤ q → q ≤ fin →
          (∀ p ∈ scList s f n (i + 1), p.typ = 1 → q ≤ p.offset) → M'.length = fin - q →
          (M' = slice f q (fin - q) ↔
            (∀ p ∈ scList s f n (i + 1), p.typ = 1 → p.StoredIn s f mem) ∧ ZeroGaps f (scList s f n (i + 1)) q fin) →
          (slice mem ((scPh s f i).paddr + s.base) (scPh s f i).filesz ++
              (List.replicate (q - (pos + (scPh s f i).filesz)) 0#8 ++ M') = slice f pos (fin - pos) ↔
            (∀ p ∈ scPh s f i :: scList s f n (i + 1), p.typ = 1 → p.StoredIn s f mem) ∧
              ZeroGaps f (scPh s f i :: scList s f n (i + 1)) pos fin) := by
        intro q M' hq hqf hge hlen hiff
        rw [show fin - pos = (scPh s f i).filesz + ((q - (pos + (scPh s f i).filesz)) + (fin - q)) by omega,
          slice_append, slice_append, append_eq_append_iff_len (by rw [slice_length, slice_length]),
          append_eq_append_iff_len (by rw [slice_length, List.length_replicate]), hseg, replicate_eq_slice,
          show pos + (scPh s f i).filesz + (q - (pos + (scPh s f i).filesz)) = q by omega, hiff]
        constructor
        · rintro ⟨a1, a2, a3, a4⟩
          refine ⟨?_, ?_⟩
          · intro p hp hpt
            rcases List.mem_cons.mp hp with rfl | hp
            · exact a1
            · exact a3 p hp hpt
          · intro a b1 b2 b3
            have := b3 _ List.mem_cons_self ht1
            by_cases haq : a < q
            · have := a2 (a - (pos + (scPh s f i).filesz)) (by omega)
              rwa [show pos + (scPh s f i).filesz + (a - (pos + (scPh s f i).filesz)) = a by omega] at this
            · exact a4 a (by omega) b2 fun p hp => b3 p (List.mem_cons_of_mem _ hp)
        · rintro ⟨a1, a2⟩
          refine ⟨a1 _ List.mem_cons_self ht1, ?_, fun p hp => a1 p (List.mem_cons_of_mem _ hp), ?_⟩
          · intro j hj
            refine a2 _ (by omega) (by omega) ?_
            intro p hp hpt
            rcases List.mem_cons.mp hp with rfl | hp
            · exact Or.inr (by omega)
            · have := hge p hp hpt
              exact Or.inl (by omega)
          · intro a b1 b2 b3
            refine a2 a (by omega) b2 ?_
            intro p hp hpt
            rcases List.mem_cons.mp hp with rfl | hp
            · exact Or.inr (by omega)
            · exact b3 p hp hpt
      cases n with
      | zero =>
        simp only [scList] at hrest
        rw [if_neg (by simp)]
        refine ⟨slice mem ((scPh s f i).paddr + s.base) (scPh s f i).filesz ++ [], ?_, ?_, ?_⟩
        · simp only [scLoop, hrest]
        · rw [List.append_nil, slice_length]; omega
        · have := key fin [] (by omega) (by omega) (fun p hp => by simp [scList] at hp) (by simp)
            ⟨fun _ => ⟨fun p hp => by simp [scList] at hp, fun a h1 h2 => by omega⟩, fun _ => by simp [slice]⟩
          rw [show fin - (pos + (scPh s f i).filesz) = 0 by omega, List.replicate_zero, List.nil_append] at this
          exact this
      | succ n =>
        simp only [scList] at hrest
        by_cases hg : (scPh s f (i + 1)).offset > pos + (scPh s f i).filesz
        · rw [if_pos hg] at hrest
          rw [if_pos ⟨by omega, hg⟩]
          obtain ⟨M, h1, h2, h3⟩ := ih (i + 1) false _ fin0 hrest (by simp)
          have hb' := ScLaid.bounds _ _ _ _ hrest
          rw [h1]
          refine ⟨_, rfl, ?_, ?_⟩
          · rw [scZeros_eq, List.length_append, List.length_append, slice_length, List.length_replicate, h2]
            omega
          · rw [scZeros_eq]
            exact key _ M (by omega) hb'.1 (fun p hp hpt => (hb'.2 p hp hpt).1) h2 h3
        · rw [if_neg hg] at hrest
          rw [if_neg (by omega)]
          obtain ⟨M, h1, h2, h3⟩ := ih (i + 1) true _ (some (pos + (scPh s f i).filesz)) hrest (fun _ => rfl)
          have hb' := ScLaid.bounds _ _ _ _ hrest
          rw [h1]
          refine ⟨_, rfl, ?_, ?_⟩
          · rw [List.length_append, slice_length, h2]
            omega
          · have := key _ M (Nat.le_refl _) hb'.1 (fun p hp hpt => (hb'.2 p hp hpt).1) h2 h3
            rwa [Nat.sub_self, List.replicate_zero, List.nil_append] at this

theorem scHdrSize_lt (f : Mem) : scHdrSize f < 2147483648 := by
  unfold scHdrSize elfPhNum
  have h1 := le16_lt f 44
  have h2 := le16_lt f 56
  split <;> omega

/-- The message of a file that can be checked, and when it is the file itself. -/
theorem scBody_file {s : ScCfg} {H : Nat} {f mem : Mem} {fw fin : Nat} (hf : ScFile s H f fw fin) (hul : fw < s.ul / 2) :
    ∃ b, scBody s H f mem fw = some b ∧ b.length = fw ∧
      (b = slice f 0 fw ↔
        (∀ p ∈ scList s f (elfPhNum f) 0, p.typ = 1 → p.StoredIn s f mem) ∧ ScGaps s f fin) := by
  obtain ⟨hlaid, hfirst, ⟨hu1, hu2⟩, htail, hsize⟩ := hf
  have hz := scHdrSize_lt f
  have hb := ScLaid.bounds _ _ _ _ hlaid
  obtain ⟨M, h1, h2, h3⟩ := scLoop_laid (mem := mem) _ _ _ _ none hlaid (by simp)
  have hpad : scInt ((scPh s f 0).offset + s.ul - scHdrSize f) = (scPh s f 0).offset - scHdrSize f := by
    unfold scInt toInt32
    by_cases hle : scHdrSize f ≤ (scPh s f 0).offset
    · have : ((scPh s f 0).offset + s.ul - scHdrSize f) % 4294967296 = (scPh s f 0).offset - scHdrSize f := by omega
      rw [this, if_pos (by omega)]; rfl
    · have : ((scPh s f 0).offset + s.ul - scHdrSize f) % 4294967296 = 4294967296 - (scHdrSize f - (scPh s f 0).offset) := by omega
      rw [this, if_neg (by omega)]; omega
  unfold scBody
  dsimp only
  rw [h1]
  dsimp only
  rw [if_neg (by omega), if_neg (by omega), hpad, scFeed_eq, scFeed_eq, scZeros_eq, scInt_small (by omega)]
  refine ⟨_, rfl, ?_, ?_⟩
  · simp only [List.length_append, slice_length, List.length_replicate, h2]
    omega
  · have hmx : max (scHdrSize f) (scPh s f 0).offset = scHdrSize f + ((scPh s f 0).offset - scHdrSize f) := by omega
    rw [hmx] at h2 h3 hb
    have hfw : fw = scHdrSize f + (((scPh s f 0).offset - scHdrSize f) +
        ((fin - (scHdrSize f + ((scPh s f 0).offset - scHdrSize f))) + (fw - fin))) := by omega
    have hsl : slice f 0 fw = slice f 0 (scHdrSize f) ++ (slice f (scHdrSize f) ((scPh s f 0).offset - scHdrSize f) ++
        (slice f (scHdrSize f + ((scPh s f 0).offset - scHdrSize f)) (fin - (scHdrSize f + ((scPh s f 0).offset - scHdrSize f))) ++
          slice f fin (fw - fin))) := by
      conv => lhs; rw [hfw]
      rw [slice_append, slice_append, slice_append, Nat.zero_add,
        show scHdrSize f + ((scPh s f 0).offset - scHdrSize f) + (fin - (scHdrSize f + ((scPh s f 0).offset - scHdrSize f))) = fin by omega]
    rw [hsl, append_eq_append_iff_len rfl, append_eq_append_iff_len (by rw [slice_length, List.length_replicate]),
      append_eq_append_iff_len (by rw [h2, slice_length]), h3, replicate_eq_slice]
    constructor
    · rintro ⟨-, a1, ⟨a2, a3⟩, -⟩
      refine ⟨a2, ?_⟩
      intro a b1 b2 b3
      by_cases ha : a < scHdrSize f + ((scPh s f 0).offset - scHdrSize f)
      · have := a1 (a - scHdrSize f) (by omega)
        rwa [show scHdrSize f + (a - scHdrSize f) = a by omega] at this
      · exact a3 a (by omega) b2 b3
    · rintro ⟨a1, a2⟩
      refine ⟨rfl, ?_, ⟨a1, ?_⟩, rfl⟩
      · intro j hj
        refine a2 _ (by omega) (by omega) ?_
        intro p hp hpt
        have := (hb.2 p hp hpt).1
        exact Or.inl (by omega)
      · intro a b1 b2 b3
        exact a2 a (by omega) b2 b3

/-- **C38 (scattered images).** If the check accepts, the digest of the message that it builds from the manifest header, the ELF headers, the segments in
memory and the rest of the image equals the stored digest. -/
theorem scattered_gate {k : ImgCfg} {s : ScCfg} {img mem : Mem} {fw e : Nat} (hb : 0 < k.blk) (h : scCheck k s img mem fw = .ok e) :
    ∃ off b, findHdr img k.H k.shaTag = .found off k.dlen ∧ scBody s k.H (elfFile img k.H) mem fw = some b ∧
      k.hash (slice img 0 (off - 4) ++ b) = slice img off k.dlen ∧ e = elfEntry (elfFile img k.H) % s.ul := by
  unfold scCheck at h
  split at h
  · next off len hf =>
    by_cases hl : len ≠ k.dlen
    · rw [if_pos hl] at h; exact absurd h (by simp)
    · rw [if_neg hl] at h
      rw [hashHdr_eq hb _ _ _ (by omega) (by omega)] at h
      simp only [List.nil_append, Nat.sub_zero] at h
      split at h
      · exact absurd h (by simp)
      · split at h
        · exact absurd h (by simp)
        · next b hbd =>
          split at h
          · exact absurd h (by simp)
          · next hd =>
            obtain rfl : len = k.dlen := by omega
            refine ⟨off, b, hf, hbd, by simpa using hd, ?_⟩
            exact (ScRes.ok.inj h).symm
  · exact absurd h (by simp)

theorem slice_shift (m : Mem) (H n : Nat) : slice (elfFile m H) 0 n = slice m H n := by
  rw [slice_eq_iff]
  intro j _
  unfold elfFile
  rw [Nat.zero_add]

/-- **C38 (scattered images).** The image in the partition has been verified (its digest is the stored one), and the hash has no collision between the two
messages. Then the check accepts exactly if memory holds the contents of all segments and the image is zero in the gaps between them. -/
theorem scattered_iff {k : ImgCfg} {s : ScCfg} {img mem : Mem} {fw fin off : Nat} (hb : 0 < k.blk) (hd : DigestOK k img fw off)
    (hm : elfMagic (elfFile img k.H) = true) (hf : ScFile s k.H (elfFile img k.H) fw fin)
    (hc : ¬ ScCollision k s img mem fw off) :
    scCheck k s img mem fw = .ok (elfEntry (elfFile img k.H) % s.ul) ↔
      (∀ p ∈ scList s (elfFile img k.H) (elfPhNum (elfFile img k.H)) 0, p.typ = 1 → p.StoredIn s (elfFile img k.H) mem) ∧
        ScGaps s (elfFile img k.H) fin := by
  have hul : fw < s.ul / 2 := by
    have := hf.ul.1
    have := hf.size
    omega
  obtain ⟨b, h1, h2, h3⟩ := scBody_file (mem := mem) hf hul
  have hmsg : slice img 0 (off - 4) ++ b = signedMsg k.H img off fw ↔ b = slice (elfFile img k.H) 0 fw := by
    unfold signedMsg
    rw [append_eq_append_iff_len rfl, slice_shift]
    simp
  rw [← h3]
  constructor
  · intro h
    obtain ⟨off', b', g1, g2, g3, -⟩ := scattered_gate hb h
    rw [hd.1] at g1
    cases g1
    rw [h1] at g2
    cases g2
    refine hmsg.mp (Decidable.byContradiction fun hne => hc ⟨b, h1, hne, g3.trans hd.2.symm⟩)
  · intro h
    unfold scCheck
    rw [hd.1]
    dsimp only
    rw [if_neg (by simp), hashHdr_eq hb _ _ _ (by omega) (by omega)]
    simp only [List.nil_append, Nat.sub_zero]
    rw [if_neg (by rw [hm]; simp), h1]
    dsimp only
    exact if_neg (by rw [hmsg.mpr h, hd.2]; simp)


/-! ### Storing -/

/-- The segments to be loaded do not overlap in memory. -/
def ScApart (l : List ElfPh) : Prop :=
  l.Pairwise fun p q => p.typ = 1 → q.typ = 1 → p.paddr + p.filesz ≤ q.paddr ∨ q.paddr + q.filesz ≤ p.paddr

theorem scPut_other {s : ScCfg} {f mem : Mem} {p : ElfPh} {a : Nat}
    (h : p.typ = 1 → a < p.paddr + s.base ∨ p.paddr + s.base + p.filesz ≤ a) : scPut s f mem p a = mem a := by
  unfold scPut
  split
  · rfl
  · next ht => exact if_neg (by have := h (by omega); omega)

theorem scPuts_other {s : ScCfg} {f : Mem} {a : Nat} : ∀ n i mem,
    (∀ p ∈ scList s f n i, p.typ = 1 → a < p.paddr + s.base ∨ p.paddr + s.base + p.filesz ≤ a) → scPuts s f n i mem a = mem a := by
  intro n
  induction n with
  | zero => intro i mem _; rfl
  | succ n ih =>
    intro i mem h
    unfold scPuts
    rw [ih _ _ fun p hp => h p (by unfold scList; exact List.mem_cons_of_mem _ hp),
      scPut_other (h (scPh s f i) (by unfold scList; exact List.mem_cons_self))]

theorem scPuts_stored {s : ScCfg} {f : Mem} : ∀ n i mem, ScApart (scList s f n i) →
    ∀ p ∈ scList s f n i, p.typ = 1 → p.StoredIn s f (scPuts s f n i mem) := by
  intro n
  induction n with
  | zero => intro i mem _ p hp; simp [scList] at hp
  | succ n ih =>
    intro i mem h p hp hpt
    unfold scList ScApart at h
    rw [List.pairwise_cons] at h
    unfold scList at hp
    unfold scPuts
    rcases List.mem_cons.mp hp with rfl | hp
    · intro j hj
      rw [scPuts_other]
      · unfold scPut
        rw [if_neg (by omega), if_pos (by omega), Nat.add_sub_cancel_left]
      · intro q hq hqt
        have := h.1 q hq hpt hqt
        omega
    · exact ih _ _ h.2 p hp hpt

/-- **C38 (scattered images).** Storing the segments of a verified image and checking them succeeds, whatever was in memory before. -/
theorem scattered_store_check {k : ImgCfg} {s : ScCfg} {img mem : Mem} {fw fin off : Nat} (hb : 0 < k.blk) (hd : DigestOK k img fw off)
    (hm : elfMagic (elfFile img k.H) = true) (hf : ScFile s k.H (elfFile img k.H) fw fin)
    (ha : ScApart (scList s (elfFile img k.H) (elfPhNum (elfFile img k.H)) 0)) (hg : ScGaps s (elfFile img k.H) fin) :
    scCheck k s img (scStore s k.H img mem) fw = .ok (elfEntry (elfFile img k.H) % s.ul) := by
  have hst : scStore s k.H img mem = scPuts s (elfFile img k.H) (elfPhNum (elfFile img k.H)) 0 mem := by
    unfold scStore; simp [hm]
  refine (scattered_iff hb hd hm hf ?_).mpr ⟨?_, hg⟩
  · rintro ⟨b, h1, hne, _⟩
    refine hne ?_
    obtain ⟨b', g1, _, g3⟩ := scBody_file (mem := scStore s k.H img mem) hf
      (by have := hf.ul.1; have := hf.size; omega)
    rw [h1] at g1
    cases g1
    unfold signedMsg
    rw [append_eq_append_iff_len rfl]
    refine ⟨rfl, (g3.mpr ⟨?_, hg⟩).trans (slice_shift _ _ _)⟩
    rw [hst]
    exact scPuts_stored _ _ _ ha
  · rw [hst]
    exact scPuts_stored _ _ _ ha

/-- **C38 (scattered images).** The jump is made only to the entry point of the image, and only if the digest over the segments in memory is the stored one;
without a collision, every segment in memory has the contents of the verified image. -/
theorem scattered_boot_gate {k : ImgCfg} {s : ScCfg} {img mem mem' : Mem} {fw fin off e : Nat} (hb : 0 < k.blk) (hd : DigestOK k img fw off)
    (hf : ScFile s k.H (elfFile img k.H) fw fin) (hc : ¬ ScCollision k s img mem' fw off) (h : scBoot k s img mem fw = .jump e mem') :
    e = elfEntry (elfFile img k.H) % s.ul ∧
      ∀ p ∈ scList s (elfFile img k.H) (elfPhNum (elfFile img k.H)) 0, p.typ = 1 → p.StoredIn s (elfFile img k.H) mem' := by
  have key : scCheck k s img mem' fw = .ok e := by
    unfold scBoot at h
    split at h
    · next e' he => cases h; exact he
    · split at h
      · next e' he => cases h; exact he
      · cases h
  have hmag : elfMagic (elfFile img k.H) = true := by
    unfold scCheck at key
    split at key
    · split at key
      · cases key
      · split at key
        · split at key
          · cases key
          · next hx => simpa using hx
        · cases key
    · cases key
  obtain ⟨_, _, _, _, _, he⟩ := scattered_gate hb key
  rw [he] at key
  exact ⟨he, ((scattered_iff hb hd hmag hf hc).mp key).1⟩

/-- **C38 (scattered images).** A verified image that can be checked always boots. -/
theorem scattered_boots {k : ImgCfg} {s : ScCfg} {img mem : Mem} {fw fin off : Nat} (hb : 0 < k.blk) (hd : DigestOK k img fw off)
    (hm : elfMagic (elfFile img k.H) = true) (hf : ScFile s k.H (elfFile img k.H) fw fin)
    (ha : ScApart (scList s (elfFile img k.H) (elfPhNum (elfFile img k.H)) 0)) (hg : ScGaps s (elfFile img k.H) fin) :
    ∃ mem', scBoot k s img mem fw = .jump (elfEntry (elfFile img k.H) % s.ul) mem' := by
  unfold scBoot
  split
  · next e he =>
    obtain ⟨_, _, _, _, _, h⟩ := scattered_gate hb he
    exact ⟨mem, by rw [h]⟩
  · rw [scattered_store_check (mem := mem) hb hd hm hf ha hg]
    exact ⟨_, rfl⟩

/-! ### Deviations -/

/-- **C38, deviation.** The check compares `final_offset + IMAGE_HEADER_SIZE` with the size of the firmware without the header: an image whose last
segment ends less than `IMAGE_HEADER_SIZE` bytes in front of the end of the file is refused, whatever is in memory. -/
theorem scattered_short_tail {k : ImgCfg} {s : ScCfg} {img mem : Mem} {fw fin : Nat}
    (hl : ScLaid s.ul false (max (scHdrSize (elfFile img k.H)) (scPh s (elfFile img k.H) 0).offset)
      (scList s (elfFile img k.H) (elfPhNum (elfFile img k.H)) 0) fin) (ht : fin + k.H > fw) (e : Nat) :
    scCheck k s img mem fw ≠ .ok e := by
  obtain ⟨M, h1, _, _⟩ := scLoop_laid (mem := mem) _ _ _ _ none hl (by simp)
  have hn : scBody s k.H (elfFile img k.H) mem fw = none := by
    unfold scBody
    dsimp only
    rw [h1]
    dsimp only
    split
    · rfl
    · rw [if_pos (Or.inr ht)]
  intro h
  unfold scCheck at h
  rw [hn] at h
  split at h
  · split at h
    · cases h
    · split at h
      · split at h <;> cases h
      · cases h
  · cases h

/-- **C38, deviation.** If the only segment starts at the beginning of the file (so that it contains the ELF headers), the headers are hashed twice: the
image is refused, whatever is in memory (there is no collision). -/
theorem scattered_headers_twice {k : ImgCfg} {s : ScCfg} {img mem : Mem} {fw off : Nat} (hb : 0 < k.blk) (hd : DigestOK k img fw off)
    (hn : elfPhNum (elfFile img k.H) = 1) (h0 : (scPh s (elfFile img k.H) 0).offset = 0) (ht : (scPh s (elfFile img k.H) 0).typ = 1)
    (hs : (scPh s (elfFile img k.H) 0).filesz ≤ fw) (hfw : fw < 2147483648) (hul : 4294967296 ≤ s.ul)
    (hc : ¬ ScCollision k s img mem fw off) (e : Nat) :
    scCheck k s img mem fw ≠ .ok e := by
  intro h
  obtain ⟨off', b, g1, g2, g3, _⟩ := scattered_gate hb h
  rw [hd.1] at g1
  cases g1
  have hmsg := Decidable.byContradiction fun hne => hc ⟨b, g2, hne, g3.trans hd.2.symm⟩
  unfold signedMsg at hmsg
  have hbl := congrArg List.length hmsg
  simp only [List.length_append, slice_length] at hbl
  unfold scBody at g2
  dsimp only at g2
  rw [hn] at g2
  unfold scLoop at g2
  simp only [ht, ne_eq, not_true_eq_false, false_and, if_false, scLoop] at g2
  rw [h0] at g2
  have hmod : (0 + (scPh s (elfFile img k.H) 0).filesz) % s.ul = (scPh s (elfFile img k.H) 0).filesz :=
    by rw [Nat.zero_add]; exact Nat.mod_eq_of_lt (by omega)
  rw [hmod] at g2
  split at g2
  · cases g2
  · split at g2
    · cases g2
    · have := Option.some.inj g2
      have hl2 := congrArg List.length this
      simp only [List.length_append, scFeed_eq, scZeros_eq, slice_length, List.length_replicate, List.length_nil] at hl2
      rw [scInt_small (show (scPh s (elfFile img k.H) 0).filesz < 2147483648 by omega),
        scInt_small (show fw - (scPh s (elfFile img k.H) 0).filesz < 2147483648 by omega)] at hl2
      have hz : 52 ≤ scHdrSize (elfFile img k.H) := by unfold scHdrSize; split <;> omega
      omega
namespace ElfDemo

/-- Manifest header of 24 bytes; the digest is all of the message's bytes xored, and the length. -/
def cfg : ImgCfg :=
  { H := 24, blk := 5, shaTag := 3, dlen := 2, authType := 0, sigSz := 1, sigSz2 := 1, hybrid := false, keys := [], hash := ImgDemo.toyHash
    verify := fun _ _ _ => true, verify2 := fun _ _ _ => false }

def sc : ScCfg := { blk := 5, pad := 3, base := 0, ul := 4294967296 }

/-- Two segments with 3 zeros in front of the first one and 2 between them, and 26 bytes behind them. -/
def body : List Byte :=
  hdr 3#8 ++ ph 1 151 4096 3 5 ++ ph 1 156 4112 2 2 ++ ph 4 0 0 0 0 ++ [0#8, 0#8, 0#8, 11#8, 12#8, 13#8, 0#8, 0#8, 21#8, 22#8] ++
    (List.range 26).map (BitVec.ofNat 8 ·)

def pre : List Byte := [0x57#8, 0x4F#8, 0x4C#8, 0x46#8, 184#8, 0#8, 0#8, 0#8, 0xFF#8, 0xFF#8]

def simg : Mem :=
  ofList (pre ++ [3#8, 0#8, 2#8, 0#8] ++ ImgDemo.toyHash (pre ++ body) ++ List.replicate 8 0xFF#8 ++ body)

theorem gaps_of_fin {s : ScCfg} {f : Mem} {fin : Nat}
    (h : ∀ a : Fin fin, scHdrSize f ≤ a.1 → (∀ p ∈ scList s f (elfPhNum f) 0, p.typ = 1 → a.1 < p.offset ∨ p.offset + p.filesz ≤ a.1) →
      f a.1 = 0#8) : ScGaps s f fin :=
  fun a h1 h2 h3 => h ⟨a, h2⟩ h1 h3

theorem simg_list : scList sc (elfFile simg 24) (elfPhNum (elfFile simg 24)) 0 =
    [⟨1, 151, 4096, 4096, 3, 5⟩, ⟨1, 156, 4112, 4112, 2, 2⟩, ⟨4, 0, 0, 0, 0, 0⟩] := by decide +kernel

theorem simg_file : ScFile sc 24 (elfFile simg 24) 184 158 := by
  refine ⟨?_, by decide +kernel, by decide, by decide, by decide⟩
  rw [simg_list, show max (scHdrSize (elfFile simg 24)) (scPh sc (elfFile simg 24) 0).offset = 151 by decide +kernel]
  simp [ScLaid, sc]

end ElfDemo

open ElfDemo in
/-- Neither memory nor the first check are of any use; the segments are written, and the image is started at `0x1000`. -/
example : ∃ mem', scBoot cfg sc simg (fun _ => 0xFF#8) 184 = .jump 4096 mem' := by
  have := scattered_boots (k := cfg) (s := sc) (img := simg) (mem := fun _ => 0xFF#8) (fw := 184) (fin := 158) (off := 14) (by decide)
    ⟨by decide +kernel, by decide +kernel⟩ (by decide +kernel) simg_file
    (by show ScApart (scList sc (elfFile simg 24) (elfPhNum (elfFile simg 24)) 0)
        rw [simg_list]; simp [ScApart])
    (gaps_of_fin (by
      show ∀ a : Fin 158, scHdrSize (elfFile simg 24) ≤ a.1 →
        (∀ p ∈ scList sc (elfFile simg 24) (elfPhNum (elfFile simg 24)) 0, p.typ = 1 → a.1 < p.offset ∨ p.offset + p.filesz ≤ a.1) → _
      rw [simg_list]
      decide +kernel))
  have he : elfEntry (elfFile simg cfg.H) % sc.ul = 4096 := by decide +kernel
  rwa [he] at this

open ElfDemo in
example : scCheck cfg sc simg (fun _ => 0xFF#8) 184 = .err ∧ scCheck cfg sc simg (scStore sc 24 simg fun _ => 0xFF#8) 184 = .ok 4096 := by
  decide +kernel

end Verif
