import Verif.SignStepsThms

/-!
# Putting the parts of a flash image together: `/repo/tools/bin-assemble/bin-assemble.c` (C74)

The tool that makes `factory.bin` and `internal_flash.dd` (`/repo/Makefile:263-287`). Modelled: reading of the addresses, the check for overlaps, the loops that fill gaps and copy files, with 64-bit
`long` and `size_t`. `qsort` is any function that sorts. Sums of addresses that do not fit `size_t` are an outcome of their own. Not modelled: errors when reading and writing files; input files are taken as
not changing while the tool runs, in particular none of them is the output file.
-/

namespace Verif.BinAssemble

open Verif

/-! ## Model -/

/-- `size_t` and `unsigned long` have 64 bits, `/repo/tools/bin-assemble/bin-assemble.c:56-60`. -/
abbrev W : Nat := 18446744073709551616

/-- `INT_MAX`, `/repo/tools/bin-assemble/bin-assemble.c:160`. -/
abbrev INT_MAX : Nat := 2147483647

theorem INT_MAX_pos : 0 < INT_MAX := by decide

/-- `binentry_t`, `/repo/tools/bin-assemble/bin-assemble.c:56-60`, with the contents of the file instead of its name; `nbytes` is the length. -/
structure Part where
  addr : Nat
  data : List Byte
deriving DecidableEq

/-- `isspace` in `strtol`, `/repo/tools/bin-assemble/bin-assemble.c:104`. -/
def isSpace (c : Char) : Bool := c.toNat == 32 || (decide (9 ≤ c.toNat) && decide (c.toNat ≤ 13))

/-- Value of a digit in `strtol`, `/repo/tools/bin-assemble/bin-assemble.c:104`; 36 for other characters. -/
def digit (c : Char) : Nat :=
  if 48 ≤ c.toNat ∧ c.toNat ≤ 57 then c.toNat - 48
  else if 65 ≤ c.toNat ∧ c.toNat ≤ 90 then c.toNat - 55
  else if 97 ≤ c.toNat ∧ c.toNat ≤ 122 then c.toNat - 87
  else 36

/-- The digits of base `b` at the start of a text, for `strtol`, `/repo/tools/bin-assemble/bin-assemble.c:104`: value, and the text behind them. -/
def number (b : Nat) : Nat → List Char → Nat × List Char
  | acc, [] => (acc, [])
  | acc, c :: r => if digit c < b then number b (b * acc + digit c) r else (acc, c :: r)

/-- Prefix and digits in `strtol(s, &end, 0)`, `/repo/tools/bin-assemble/bin-assemble.c:104`: `0x` in front of a hexadecimal digit, `0`, or decimal. -/
def magnitude (s : List Char) : Nat × List Char :=
  match s with
  | '0' :: x :: d :: r =>
    if (x = 'x' ∨ x = 'X') ∧ digit d < 16 then number 16 0 (d :: r) else number 8 0 ('0' :: x :: d :: r)
  | '0' :: r => number 8 0 ('0' :: r)
  | s => number 10 0 s

/-- `strtol(s, &end, 0)` converted to `size_t`, `/repo/tools/bin-assemble/bin-assemble.c:104`: white space, sign, digits; clamped to the range of `long`. -/
def address (s : List Char) : Nat :=
  match s.dropWhile isSpace with
  | '-' :: r => (W - min (magnitude r).1 9223372036854775808) % W
  | '+' :: r => min (magnitude r).1 9223372036854775807
  | r => min (magnitude r).1 9223372036854775807

/-- Outcome of the tool: usage message; an input file that cannot be found; overlapping parts; an address that does not fit `size_t`; the output file. -/
inductive Out where
  | usage
  | noFile
  | overlap
  | wrap
  | file (l : List Byte)
deriving DecidableEq

/-- The arguments behind the output file, `/repo/tools/bin-assemble/bin-assemble.c:89-116`. A text behind the digits of an address gives a message only (105-108). -/
def entries : List (List Char × Option (List Byte)) → Option (List Part)
  | [] => some []
  | (a, some d) :: r => (entries r).map (⟨address a, d⟩ :: ·)
  | (_, none) :: _ => none

/-- The check for overlaps, `/repo/tools/bin-assemble/bin-assemble.c:130-143`: neighbours only. -/
def checked : List Part → Option Out
  | p :: q :: r =>
    if W ≤ p.addr + p.data.length then some .wrap
    else if p.addr + p.data.length > q.addr then some .overlap
    else checked (q :: r)
  | _ => none

/-- `BLOCK_SZ`, `/repo/tools/bin-assemble/bin-assemble.c:38-40`. -/
def BLOCK_SZ : Nat := 1024

theorem BLOCK_pos : 0 < BLOCK_SZ := by decide

/-- The loop that fills with blocks of 1024 bytes (`FILL_BYTE` with its default 0xFF, lines 42-44), `/repo/tools/bin-assemble/bin-assemble.c:164-172`: new `cur_add`, new contents of the file. `none`: `cur_add + 1024` does not fit `size_t`. -/
def fillBlocks (a cur : Nat) (out : List Byte) : Option (Nat × List Byte) :=
  if W ≤ cur + BLOCK_SZ then none
  else if _h : cur + BLOCK_SZ < a then fillBlocks a (cur + BLOCK_SZ) (out ++ List.replicate BLOCK_SZ 0xFF#8)
  else some (cur, out)
termination_by a - cur
decreasing_by have := BLOCK_pos; omega

/-- The loop that fills with single bytes, `/repo/tools/bin-assemble/bin-assemble.c:173-181`. -/
def fillBytes (a cur : Nat) (out : List Byte) : Nat × List Byte :=
  if _h : cur < a then fillBytes a (cur + 1) (out ++ [0xFF#8]) else (cur, out)
termination_by a - cur

/-- The loop that copies the rest `d` of a file, `/repo/tools/bin-assemble/bin-assemble.c:186-212`: up to 1024 bytes at a time, until a read finds the end of the file. -/
def copy (d : List Byte) (cur : Nat) (out : List Byte) : Nat × List Byte :=
  if _h : BLOCK_SZ ≤ d.length then copy (d.drop BLOCK_SZ) (cur + BLOCK_SZ) (out ++ d.take BLOCK_SZ) else (cur + d.length, out ++ d)
termination_by d.length
decreasing_by have := BLOCK_pos; rw [List.length_drop]; omega

/-- The loop over the parts, `/repo/tools/bin-assemble/bin-assemble.c:152-218`. `fillSz` is unsigned: with `cur_add` behind the address it is large. -/
def assemble : List Part → Nat → List Byte → Out
  | [], _, out => .file out
  | p :: r, cur, out =>
    let fillSz := (p.addr + W - cur) % W
    if 0 < fillSz ∧ fillSz < INT_MAX then
      match fillBlocks p.addr cur out with
      | none => .wrap
      | some (cur, out) =>
        let f := fillBytes p.addr cur out
        let c := copy p.data f.1 f.2
        if W ≤ c.1 then .wrap else assemble r c.1 c.2
    else
      let c := copy p.data cur out
      if W ≤ c.1 then .wrap else assemble r c.1 c.2

/-- `main` from the check for overlaps on, `/repo/tools/bin-assemble/bin-assemble.c:130-223`, for the sorted parts. -/
def merge (l : List Part) : Out :=
  match checked l with
  | some o => o
  | none =>
    match l with
    | [] => .usage
    | p :: _ => assemble l p.addr []

/-- `main`, `/repo/tools/bin-assemble/bin-assemble.c:76-226`; `qs` is `qsort` with `binentry_address_compare` (62-74). An address without a file is refused (91-93), as is a command line without parts. -/
def main (qs : List Part → List Part) (args : List (List Char × Option (List Byte))) : Out :=
  if args = [] then .usage
  else match entries args with
    | none => .noFile
    | some l => merge (qs l)

/-! ## Specification -/

/-- A function that sorts by address. -/
def Sorts (qs : List Part → List Part) : Prop := ∀ l, (qs l).Perm l ∧ (qs l).Pairwise fun p q => p.addr ≤ q.addr

/-- No address is in both parts. -/
def Disjoint (p q : Part) : Prop := ∀ x, ¬ ((p.addr ≤ x ∧ x < p.addr + p.data.length) ∧ (q.addr ≤ x ∧ x < q.addr + q.data.length))

/-- The file `out`, written to flash from address `base` on, puts every part at its address and leaves what is between them erased. -/
structure Holds (out : List Byte) (base : Nat) (l : List Part) : Prop where
  part : ∀ p ∈ l, base ≤ p.addr ∧ p.addr - base + p.data.length ≤ out.length ∧ (out.drop (p.addr - base)).take p.data.length = p.data
  rest : ∀ i b, out[i]? = some b → (∀ p ∈ l, ¬ (p.addr ≤ base + i ∧ base + i < p.addr + p.data.length)) → b = 0xFF#8
  last : l ≠ [] → ∃ p ∈ l, base + out.length = p.addr + p.data.length

/-- The sizes of the gaps in front of sorted parts are below `INT_MAX`. -/
def GapsFrom (cur : Nat) : List Part → Prop
  | [] => True
  | p :: r => p.addr - cur < INT_MAX ∧ GapsFrom (p.addr + p.data.length) r

/-- The sizes of the gaps between sorted parts are below `INT_MAX`. -/
def SmallGaps : List Part → Prop
  | [] => True
  | p :: r => GapsFrom (p.addr + p.data.length) r

/-- The number with the given digits. -/
def value (b : Nat) (ds : List Nat) : Nat := ds.foldl (fun a d => b * a + d) 0

/-! ## The loops -/

theorem fillBlocks_eq (a : Nat) : ∀ k cur out, k = a - cur → a + BLOCK_SZ < W → cur < a →
    ∃ n, cur + n ≤ a ∧ fillBlocks a cur out = some (cur + n, out ++ List.replicate n 0xFF#8) := by
  intro k
  induction k using Nat.strongRecOn with
  | ind k ih =>
    intro cur out hk hW hc
    have hB := BLOCK_pos
    unfold fillBlocks
    rw [if_neg (by omega)]
    by_cases h : cur + BLOCK_SZ < a
    · rw [dif_pos h]
      obtain ⟨n, hn, he⟩ := ih (a - (cur + BLOCK_SZ)) (by omega) (cur + BLOCK_SZ) (out ++ List.replicate BLOCK_SZ 0xFF#8) rfl hW h
      refine ⟨BLOCK_SZ + n, by omega, ?_⟩
      rw [he, List.append_assoc, List.replicate_append_replicate, Nat.add_assoc]
    · rw [dif_neg h]
      exact ⟨0, by omega, by simp⟩

theorem fillBytes_eq (a : Nat) : ∀ k cur out, k = a - cur → cur ≤ a → fillBytes a cur out = (a, out ++ List.replicate (a - cur) 0xFF#8) := by
  intro k
  induction k with
  | zero =>
    intro cur out hk hc
    have : cur = a := by omega
    subst this
    unfold fillBytes
    simp
  | succ k ih =>
    intro cur out hk hc
    unfold fillBytes
    rw [dif_pos (by omega), ih (cur + 1) _ (by omega) (by omega), show a - cur = 1 + (a - (cur + 1)) by omega, ← List.replicate_append_replicate, List.append_assoc]
    rfl

theorem copy_eq : ∀ k (d : List Byte) cur out, k = d.length → copy d cur out = (cur + d.length, out ++ d) := by
  intro k
  induction k using Nat.strongRecOn with
  | ind k ih =>
    intro d cur out hk
    have hB := BLOCK_pos
    unfold copy
    by_cases h : BLOCK_SZ ≤ d.length
    · rw [dif_pos h, ih (d.drop BLOCK_SZ).length (by rw [List.length_drop]; omega) _ _ _ rfl, List.append_assoc, List.take_append_drop, List.length_drop]
      rw [show cur + BLOCK_SZ + (d.length - BLOCK_SZ) = cur + d.length by omega]
    · rw [dif_neg h]

/-! ## The loop over the parts -/

/-- Neighbours do not overlap. -/
def Chain : List Part → Prop
  | p :: q :: r => p.addr + p.data.length ≤ q.addr ∧ Chain (q :: r)
  | _ => True

theorem checked_none {l : List Part} (hW : ∀ p ∈ l, p.addr + p.data.length < W) : checked l = none ↔ Chain l := by
  match l with
  | [] => simp [checked, Chain]
  | [p] => simp [checked, Chain]
  | p :: q :: r =>
    have h1 := hW p (by simp)
    have ih := checked_none (l := q :: r) (fun x hx => hW x (by simp at hx ⊢; right; exact hx))
    unfold checked Chain
    rw [if_neg (by omega)]
    by_cases h : p.addr + p.data.length > q.addr
    · rw [if_pos h]
      simp
      omega
    · rw [if_neg h, ih]
      constructor
      · intro h2
        exact ⟨by omega, h2⟩
      · intro h2
        exact h2.2

theorem checked_overlap {l : List Part} (hW : ∀ p ∈ l, p.addr + p.data.length < W) (h : ¬ Chain l) : checked l = some .overlap := by
  match l with
  | [] => simp [Chain] at h
  | [p] => simp [Chain] at h
  | p :: q :: r =>
    have h1 := hW p (by simp)
    unfold checked
    rw [if_neg (by omega)]
    by_cases h2 : p.addr + p.data.length > q.addr
    · rw [if_pos h2]
    · rw [if_neg h2]
      refine checked_overlap (fun x hx => hW x (by simp at hx ⊢; right; exact hx)) ?_
      intro h3
      exact h ⟨by omega, h3⟩

/-- What is written for sorted parts that do not overlap: the gap is filled, or not if it is too large; and then `cur_add` stays behind. -/
def Text : List Part → Nat → List Byte
  | [], _ => []
  | p :: r, cur =>
    if p.addr - cur < INT_MAX then List.replicate (p.addr - cur) 0xFF#8 ++ p.data ++ Text r (p.addr + p.data.length)
    else p.data ++ Text r (cur + p.data.length)

theorem chain_tail {p : Part} {r : List Part} (h : Chain (p :: r)) : Chain r := by
  cases r with
  | nil => trivial
  | cons q r => exact h.2

theorem chain_le {p : Part} {r : List Part} (h : Chain (p :: r)) : ∀ q ∈ r, p.addr + p.data.length ≤ q.addr := by
  induction r generalizing p with
  | nil => simp
  | cons q r ih =>
    intro x hx
    rw [List.mem_cons] at hx
    rcases hx with rfl | hx
    · exact h.1
    · have := ih h.2 x hx
      have := h.1
      omega

theorem assemble_eq (l : List Part) : ∀ cur out, Chain l → (∀ p ∈ l, p.addr + p.data.length + BLOCK_SZ < W) → (∀ p ∈ l, cur ≤ p.addr) →
    assemble l cur out = .file (out ++ Text l cur) := by
  induction l with
  | nil => intro cur out _ _ _; simp [assemble, Text]
  | cons p r ih =>
    intro cur out hc hW hcur
    have h1 := hW p (by simp)
    have h2 := hcur p (by simp)
    have hfs : (p.addr + W - cur) % W = p.addr - cur := by
      rw [show p.addr + W - cur = (p.addr - cur) + W by omega, Nat.add_mod_right, Nat.mod_eq_of_lt (by omega)]
    have hr : ∀ q ∈ r, p.addr + p.data.length ≤ q.addr := chain_le hc
    unfold assemble Text
    simp only [hfs, copy_eq _ _ _ _ rfl]
    by_cases h : p.addr - cur < INT_MAX
    · rw [if_pos h]
      by_cases h0 : 0 < p.addr - cur
      · rw [if_pos ⟨h0, h⟩]
        obtain ⟨n, hn, he⟩ := fillBlocks_eq p.addr _ cur out rfl (by omega) (by omega)
        rw [he]
        simp only [fillBytes_eq p.addr _ (cur + n) _ rfl hn]
        rw [if_neg (by omega), ih _ _ (chain_tail hc) (fun q hq => hW q (by simp [hq])) hr]
        simp only [List.append_assoc, ← List.append_assoc (List.replicate n _), List.replicate_append_replicate]
        rw [show n + (p.addr - (cur + n)) = p.addr - cur by omega]
      · rw [if_neg (by omega), if_neg (by omega), ih _ _ (chain_tail hc) (fun q hq => hW q (by simp [hq])) (fun q hq => by have := hr q hq; omega)]
        have : cur = p.addr := by omega
        subst this
        simp
    · rw [if_neg h, if_neg (by omega), if_neg (by omega), ih _ _ (chain_tail hc) (fun q hq => hW q (by simp [hq])) (fun q hq => by have := hr q hq; omega)]
      simp

theorem text_holds (l : List Part) : ∀ cur, Chain l → GapsFrom cur l → (∀ p ∈ l, cur ≤ p.addr) → Holds (Text l cur) cur l := by
  induction l with
  | nil =>
    intro cur _ _ _
    exact ⟨by simp, by simp [Text], by simp⟩
  | cons p r ih =>
    intro cur hc hg hcur
    have h2 := hcur p (by simp)
    have hr : ∀ q ∈ r, p.addr + p.data.length ≤ q.addr := chain_le hc
    have H := ih (p.addr + p.data.length) (chain_tail hc) hg.2 hr
    have ht : Text (p :: r) cur = List.replicate (p.addr - cur) 0xFF#8 ++ p.data ++ Text r (p.addr + p.data.length) := by
      rw [Text, if_pos hg.1]
    rw [ht]
    generalize hT : Text r (p.addr + p.data.length) = T at *
    refine ⟨?_, ?_, ?_⟩
    · intro q hq
      rw [List.mem_cons] at hq
      rcases hq with rfl | hq
      · refine ⟨h2, by simp, ?_⟩
        rw [List.append_assoc, List.drop_append_of_le_length (by simp), List.drop_eq_nil_of_le (by simp), List.nil_append, List.take_left]
      · obtain ⟨a1, a2, a3⟩ := H.part q hq
        refine ⟨by omega, by simp; omega, ?_⟩
        rw [List.drop_append, List.drop_eq_nil_of_le (by simp; omega), List.nil_append, List.length_append, List.length_replicate,
          show q.addr - cur - (p.addr - cur + p.data.length) = q.addr - (p.addr + p.data.length) by omega, a3]
    · intro i b hb hn
      by_cases h3 : i < p.addr - cur
      · rw [List.append_assoc, List.getElem?_append_left (by simpa using h3), List.getElem?_replicate, if_pos h3] at hb
        simpa using hb.symm
      · by_cases h4 : i < p.addr - cur + p.data.length
        · exact absurd ⟨by omega, by omega⟩ (hn p (by simp))
        · rw [List.getElem?_append_right (by simp; omega)] at hb
          refine H.rest _ b hb ?_
          intro q hq h5
          refine hn q (by simp [hq]) ?_
          simp only [List.length_append, List.length_replicate] at h5
          omega
    · intro _
      by_cases hr0 : r = []
      · subst hr0
        have : T = [] := by rw [← hT]; rfl
        subst this
        exact ⟨p, by simp, by simp; omega⟩
      · obtain ⟨q, hq, he⟩ := H.last hr0
        exact ⟨q, by simp [hq], by simp; omega⟩

theorem text_short (l : List Part) : ∀ cur, Chain l → ¬ GapsFrom cur l → (∀ p ∈ l, cur ≤ p.addr) →
    ∃ p ∈ l, cur + (Text l cur).length < p.addr + p.data.length := by
  induction l with
  | nil =>
    intro cur _ hg _
    exact absurd trivial hg
  | cons p r ih =>
    intro cur hc hg hcur
    have h2 := hcur p (by simp)
    have hr : ∀ q ∈ r, p.addr + p.data.length ≤ q.addr := chain_le hc
    by_cases h : p.addr - cur < INT_MAX
    · obtain ⟨q, hq, he⟩ := ih (p.addr + p.data.length) (chain_tail hc) (fun h3 => hg ⟨h, h3⟩) hr
      refine ⟨q, by simp [hq], ?_⟩
      rw [Text, if_pos h]
      simp
      omega
    · rw [Text, if_neg h]
      have hI := INT_MAX_pos
      cases r with
      | nil => exact ⟨p, by simp, by simp [Text]; omega⟩
      | cons x r =>
        have hx := hr x (by simp)
        obtain ⟨q, hq, he⟩ := ih (cur + p.data.length) (chain_tail hc) (fun h3 => by have := h3.1; omega)
          (fun q hq => by have := hr q hq; omega)
        refine ⟨q, List.mem_cons_of_mem _ hq, ?_⟩
        simp
        omega

/-! ## Sorted parts -/

theorem chain_pairwise {l : List Part} (h : Chain l) : l.Pairwise fun p q => p.addr + p.data.length ≤ q.addr := by
  induction l with
  | nil => simp
  | cons p r ih => exact List.pairwise_cons.mpr ⟨chain_le h, ih (chain_tail h)⟩

theorem pairwise_chain {l : List Part} (h : l.Pairwise fun p q => p.addr + p.data.length ≤ q.addr) : Chain l := by
  match l with
  | [] => trivial
  | [p] => trivial
  | p :: q :: r =>
    rw [List.pairwise_cons] at h
    exact ⟨h.1 q (by simp), pairwise_chain h.2⟩

theorem disjoint_symm {p q : Part} (h : Disjoint p q) : Disjoint q p := fun x hx => h x ⟨hx.2, hx.1⟩

theorem disjoint_iff {p q : Part} (hp : p.data ≠ []) (hq : q.data ≠ []) (h : p.addr ≤ q.addr) : Disjoint p q ↔ p.addr + p.data.length ≤ q.addr := by
  have := List.length_pos_iff.mpr hp
  have := List.length_pos_iff.mpr hq
  constructor
  · intro hd
    have := hd q.addr
    omega
  · intro h2 x hx
    omega

theorem chain_iff {l s : List Part} (hs : s.Perm l) (ho : s.Pairwise fun p q => p.addr ≤ q.addr) (hne : ∀ p ∈ l, p.data ≠ []) : Chain s ↔ l.Pairwise Disjoint := by
  have h1 : Chain s ↔ s.Pairwise Disjoint := by
    constructor
    · intro h
      refine (chain_pairwise h).imp ?_
      intro p q h2 x hx
      omega
    · intro h
      apply pairwise_chain
      refine (List.Pairwise.and ho h).imp_of_mem ?_
      intro p q hp hq h2
      exact (disjoint_iff (hne p (hs.mem_iff.mp hp)) (hne q (hs.mem_iff.mp hq)) h2.1).mp h2.2
  rw [h1]
  exact hs.pairwise_iff (fun h => disjoint_symm h)

/-! ## Main theorems -/

/-- **C74 (overlaps).** Parts that are not empty and whose addresses fit are put together exactly if no two of them overlap; otherwise the tool says so and no file is made. -/
theorem merged_iff {qs : List Part → List Part} (hq : Sorts qs) {args : List (List Char × Option (List Byte))} {l : List Part} (ha : args ≠ []) (he : entries args = some l)
    (hne : ∀ p ∈ l, p.data ≠ []) (hW : ∀ p ∈ l, p.addr + p.data.length + BLOCK_SZ < W) :
    ((∃ out, main qs args = .file out) ↔ l.Pairwise Disjoint) ∧ (¬ l.Pairwise Disjoint → main qs args = .overlap) := by
  obtain ⟨hp, ho⟩ := hq l
  have hci := chain_iff hp ho hne
  have hW2 : ∀ p ∈ qs l, p.addr + p.data.length < W := fun p h => by have := hW p (hp.mem_iff.mp h); omega
  have hov : ¬ l.Pairwise Disjoint → main qs args = .overlap := by
    intro h
    rw [main, if_neg ha, he]
    simp only [merge]
    rw [checked_overlap hW2 (fun h2 => h (hci.mp h2))]
  refine ⟨⟨?_, ?_⟩, hov⟩
  · rintro ⟨out, ho⟩
    apply Classical.byContradiction
    intro h
    rw [hov h] at ho
    simp at ho
  · intro h
    have hc := hci.mpr h
    rw [main, if_neg ha, he]
    simp only [merge]
    rw [(checked_none hW2).mpr hc]
    cases hl : qs l with
    | nil =>
      rw [hl] at hp
      have := hp.length_eq
      exfalso
      cases args with
      | nil => exact ha rfl
      | cons a r =>
        obtain ⟨a, _ | d⟩ := a
        · simp [entries] at he
        · have : l = [] := List.length_eq_zero_iff.mp (by simpa using this.symm)
          subst this
          simp [entries] at he
    | cons p r =>
      simp only
      rw [hl] at hc ho hp
      rw [assemble_eq _ _ _ hc (fun q hq => hW q (hp.mem_iff.mp hq)) (fun q hq => ?_)]
      · exact ⟨_, rfl⟩
      · rw [List.mem_cons] at hq
        rcases hq with rfl | hq
        · exact Nat.le_refl _
        · exact (List.pairwise_cons.mp ho).1 q hq

/-- **C74 (placement).** A file that was made has every part at its address, counted from the lowest one, and erased flash between them, exactly if all gaps are smaller than `INT_MAX`. -/
theorem holds_iff {qs : List Part → List Part} (hq : Sorts qs) {args : List (List Char × Option (List Byte))} {l : List Part} {out : List Byte} (he : entries args = some l)
    (hW : ∀ p ∈ l, p.addr + p.data.length + BLOCK_SZ < W) (ho : main qs args = .file out) :
    ∃ base, (∃ p ∈ l, p.addr = base) ∧ (∀ p ∈ l, base ≤ p.addr) ∧ (Holds out base l ↔ SmallGaps (qs l)) := by
  obtain ⟨hp, hs⟩ := hq l
  have hW2 : ∀ p ∈ qs l, p.addr + p.data.length < W := fun p h => by have := hW p (hp.mem_iff.mp h); omega
  have ha : args ≠ [] := by rintro rfl; simp [main] at ho
  rw [main, if_neg ha, he] at ho
  simp only [merge] at ho
  cases hc : checked (qs l) with
  | some o =>
    rw [hc] at ho
    simp only at ho
    by_cases hch : Chain (qs l)
    · rw [(checked_none hW2).mpr hch] at hc
      simp at hc
    · rw [checked_overlap hW2 hch] at hc
      simp only [Option.some.injEq] at hc
      rw [← hc] at ho
      simp at ho
  | none =>
    rw [hc] at ho
    have hch := (checked_none hW2).mp hc
    cases hl : qs l with
    | nil => rw [hl] at ho; simp at ho
    | cons p r =>
      rw [hl] at ho hch hs hp
      simp only at ho
      have hle : ∀ q ∈ p :: r, p.addr ≤ q.addr := by
        intro q hq
        rw [List.mem_cons] at hq
        rcases hq with rfl | hq
        · exact Nat.le_refl _
        · exact (List.pairwise_cons.mp hs).1 q hq
      rw [assemble_eq _ _ _ hch (fun q hq => hW q (hp.mem_iff.mp hq)) hle] at ho
      simp only [List.nil_append, Out.file.injEq] at ho
      subst ho
      have hg : GapsFrom p.addr (p :: r) ↔ SmallGaps (p :: r) := by
        simp [GapsFrom, SmallGaps]
      refine ⟨p.addr, ⟨p, hp.mem_iff.mp (by simp), rfl⟩, fun q hq => hle q (hp.mem_iff.mpr hq), ?_⟩
      rw [← hg]
      constructor
      · intro H
        apply Classical.byContradiction
        intro h
        obtain ⟨q, hq, hlt⟩ := text_short _ _ hch h hle
        obtain ⟨a1, a2, -⟩ := H.part q (hp.mem_iff.mp hq)
        omega
      · intro h
        have H := text_holds _ _ hch h hle
        refine ⟨fun q hq => H.part q (hp.mem_iff.mpr hq), fun i b hb hn => H.rest i b hb fun q hq => hn q (hp.mem_iff.mp hq), fun _ => ?_⟩
        obtain ⟨q, hq, he⟩ := H.last (by simp)
        exact ⟨q, hp.mem_iff.mp hq, he⟩

/-- **Finding.** Two parts with a gap of `INT_MAX` bytes or more are put directly one behind the other; the tool reports success. -/
theorem large_gap {p q : Part} (hW : q.addr + q.data.length + BLOCK_SZ < W) (hg : INT_MAX ≤ q.addr - (p.addr + p.data.length)) :
    merge [p, q] = .file (p.data ++ q.data) := by
  have hI := INT_MAX_pos
  have hc : Chain [p, q] := ⟨by omega, trivial⟩
  have hW2 : ∀ x ∈ [p, q], x.addr + x.data.length + BLOCK_SZ < W := by
    intro x hx
    simp only [List.mem_cons, List.not_mem_nil, or_false] at hx
    rcases hx with rfl | rfl <;> omega
  unfold merge
  rw [(checked_none (fun x hx => by have := hW2 x hx; omega)).mpr hc]
  simp only
  rw [assemble_eq _ _ _ hc hW2 (by simp; omega)]
  simp only [Text, Nat.sub_self, List.nil_append, List.append_nil]
  rw [if_pos (by decide), if_neg (by omega)]
  simp

/-- **Finding.** An empty part at the address of another one is accepted or refused depending on the order in which `qsort` leaves equal addresses. -/
theorem empty_order {a : Nat} {d : List Byte} (hd : d ≠ []) (hW : a + d.length + BLOCK_SZ < W) :
    merge [⟨a, []⟩, ⟨a, d⟩] = .file d ∧ merge [⟨a, d⟩, ⟨a, []⟩] = .overlap := by
  have hl := List.length_pos_iff.mpr hd
  have hI := INT_MAX_pos
  constructor
  · have hc : Chain [⟨a, []⟩, ⟨a, d⟩] := ⟨by simp, trivial⟩
    have hW2 : ∀ x ∈ [(⟨a, []⟩ : Part), ⟨a, d⟩], x.addr + x.data.length + BLOCK_SZ < W := by
      intro x hx
      simp only [List.mem_cons, List.not_mem_nil, or_false] at hx
      rcases hx with rfl | rfl <;> simp only [List.length_nil] <;> omega
    unfold merge
    rw [(checked_none (fun x hx => by have := hW2 x hx; omega)).mpr hc]
    simp only
    rw [assemble_eq _ _ _ hc hW2 (by simp)]
    simp [Text]
  · unfold merge
    rw [checked_overlap (fun x hx => ?_) (fun h => ?_)]
    · simp only [List.mem_cons, List.not_mem_nil, or_false] at hx
      rcases hx with rfl | rfl <;> simp only [List.length_nil] <;> omega
    · have := h.1
      simp only at this
      omega

/-! ## Addresses -/

theorem number_eq (b : Nat) : ∀ (s : List Char) acc, (∀ c ∈ s, digit c < b) → number b acc s = ((s.map digit).foldl (fun a d => b * a + d) acc, []) := by
  intro s
  induction s with
  | nil => intro acc _; rfl
  | cons c r ih =>
    intro acc h
    rw [number, if_pos (h c (by simp)), ih _ (fun x hx => h x (by simp [hx]))]
    rfl

/-- **C74 (hexadecimal addresses).** `0x` and hexadecimal digits, with any number of leading zeros, is that address if it is below 2^63. -/
theorem address_hex {s : List Char} (hs : s ≠ []) (hd : ∀ c ∈ s, digit c < 16) (hv : value 16 (s.map digit) < 9223372036854775808) :
    address ('0' :: 'x' :: s) = value 16 (s.map digit) := by
  obtain ⟨d, r, rfl⟩ := List.exists_cons_of_ne_nil hs
  have h0 : ('0' :: 'x' :: d :: r).dropWhile isSpace = '0' :: 'x' :: d :: r := by
    rw [List.dropWhile_cons, if_neg (by decide)]
  have hm : magnitude ('0' :: 'x' :: d :: r) = (value 16 ((d :: r).map digit), []) := by
    rw [magnitude, if_pos ⟨.inl rfl, hd d (by simp)⟩, number_eq 16 _ _ hd]
    rfl
  unfold address
  rw [h0]
  show min (magnitude ('0' :: 'x' :: d :: r)).1 9223372036854775807 = _
  rw [hm]
  exact Nat.min_eq_left (by omega)

/-- **C74 (decimal addresses).** Decimal digits without a leading zero are that address if it is below 2^63. -/
theorem address_dec {d : Char} {r : List Char} (h1 : digit d ≠ 0) (hd : ∀ c ∈ d :: r, digit c < 10) (hv : value 10 ((d :: r).map digit) < 9223372036854775808) :
    address (d :: r) = value 10 ((d :: r).map digit) := by
  have h10 := hd d (by simp)
  have hn : 48 < d.toNat ∧ d.toNat ≤ 57 := by
    unfold digit at h1 h10
    split at h10
    · rw [if_pos (by assumption)] at h1
      omega
    · split at h10
      · omega
      · split at h10 <;> omega
  have hsp : isSpace d = false := by
    unfold isSpace
    simp
    omega
  have hne : ∀ c : Char, c.toNat ≤ 48 → d ≠ c := by
    rintro c hc rfl
    omega
  have h0 : (d :: r).dropWhile isSpace = d :: r := by
    rw [List.dropWhile_cons, if_neg (by simp [hsp])]
  have hm : magnitude (d :: r) = (value 10 ((d :: r).map digit), []) := by
    unfold magnitude
    split
    · rename_i h
      exact absurd (List.cons.inj h).1 (hne _ (by decide))
    · rename_i h
      exact absurd (List.cons.inj h).1 (hne _ (by decide))
    · rw [number_eq 10 _ _ hd]
      rfl
  unfold address
  rw [h0]
  split
  · rename_i h
    exact absurd (List.cons.inj h).1 (hne _ (by decide))
  · rename_i h
    exact absurd (List.cons.inj h).1 (hne _ (by decide))
  · rw [hm]
    simp only
    omega

/-- **Finding.** A number with a leading zero is octal, and ends at the first digit that is not: a decimal address written with a leading zero, such as `08020000`, is address 0, with a message only. -/
theorem address_zero {c : Char} {r : List Char} (hx : c ≠ 'x') (hX : c ≠ 'X') (h8 : 8 ≤ digit c) : address ('0' :: c :: r) = 0 := by
  have h0 : ('0' :: c :: r).dropWhile isSpace = '0' :: c :: r := by
    rw [List.dropWhile_cons, if_neg (by decide)]
  have hn : number 8 0 ('0' :: c :: r) = (0, c :: r) := by
    rw [number, if_pos (by decide), number, if_neg (by omega)]
    rfl
  have hm : (magnitude ('0' :: c :: r)).1 = 0 := by
    cases r with
    | nil => rw [magnitude, hn]; simp
    | cons d r =>
      rw [magnitude, if_neg (by simp [hx, hX]), hn]
  unfold address
  rw [h0]
  show min (magnitude ('0' :: c :: r)).1 9223372036854775807 = 0
  rw [hm]
  rfl

/-! ## The factory image -/

/-- **C74 (factory image).** `factory.bin` (`/repo/Makefile:275-279`) of a bootloader and a signed image: written to flash from the address of the bootloader on, it gives the bootloader at its address, and in
BOOT the image, which is accepted exactly if it was signed with a key of the device for it; a bootloader that is too large is refused. -/
theorem factory {qs : List Part → List Part} (hq : Sorts qs) {k : ImgCfg} {o : SignOpts} {H : Nat} {img : List Byte} {aw ab : List Char} {wb si : List Byte} (w : o.WF img)
    (hf : SignSteps.Fits k o H img) (hsi : signTool o H img = .file si) (hw : wb ≠ []) (h1 : address aw < address ab) (hs1 : si ≠ [])
    (hW : address ab + si.length + wb.length + BLOCK_SZ < W) (hg : address ab - address aw < INT_MAX) :
    (main qs [(aw, some wb), (ab, some si)] = .overlap ↔ address ab < address aw + wb.length) ∧
    ∀ out, main qs [(aw, some wb), (ab, some si)] = .file out → ∀ m : Mem, HasBytes (fun i => m (address aw + i)) out →
      HasBytes (fun i => m (address aw + i)) wb ∧
      ∀ d, verifyImage k (fun i => m (address ab + i)) img.length d = .ok ↔
        o.typ / 256 = k.authType ∧ ∃ s ∈ k.keys, s.mask.getLsbD (o.typ % 16) = true ∧ k.hash s.pub = k.hash o.pubkey ∧
          k.verify s.pub (o.digest img) (o.sign (o.digest img)) = true := by
  have he : entries [(aw, some wb), (ab, some si)] = some [⟨address aw, wb⟩, ⟨address ab, si⟩] := rfl
  have hne : ∀ p ∈ [(⟨address aw, wb⟩ : Part), ⟨address ab, si⟩], p.data ≠ [] := by simp [hw, hs1]
  have hW2 : ∀ p ∈ [(⟨address aw, wb⟩ : Part), ⟨address ab, si⟩], p.addr + p.data.length + BLOCK_SZ < W := by simp; omega
  obtain ⟨hm1, hm2⟩ := merged_iff hq (by simp) he hne hW2
  have hdj : [(⟨address aw, wb⟩ : Part), ⟨address ab, si⟩].Pairwise Disjoint ↔ address aw + wb.length ≤ address ab := by
    rw [List.pairwise_cons]
    simp [disjoint_iff (p := ⟨address aw, wb⟩) (q := ⟨address ab, si⟩) hw hs1 (Nat.le_of_lt h1)]
  rw [hdj] at hm1 hm2
  refine ⟨⟨fun h => ?_, fun h => hm2 (by omega)⟩, ?_⟩
  · apply Classical.byContradiction
    intro h2
    obtain ⟨out, ho⟩ := hm1.mpr (by omega)
    rw [ho] at h
    simp at h
  · intro out ho m hm
    obtain ⟨base, ⟨p, hp, hpb⟩, hb2, hiff⟩ := holds_iff hq he hW2 ho
    have hbase : base = address aw := by
      have := hb2 ⟨address aw, wb⟩ (by simp)
      simp only [List.mem_cons, List.not_mem_nil, or_false] at hp
      rcases hp with rfl | rfl <;> simp at hpb this <;> omega
    subst hbase
    have hsg : SmallGaps (qs [⟨address aw, wb⟩, ⟨address ab, si⟩]) := by
      obtain ⟨hpm, hso⟩ := hq [⟨address aw, wb⟩, ⟨address ab, si⟩]
      have h3 : ∀ (s : List Part), s.Perm [⟨address aw, wb⟩, ⟨address ab, si⟩] → s.Pairwise (fun p q => p.addr ≤ q.addr) → SmallGaps s := by
        intro s hpm hso
        have hmem : ∀ x ∈ s, x = ⟨address aw, wb⟩ ∨ x = ⟨address ab, si⟩ := fun x hx => by simpa using hpm.mem_iff.mp hx
        have hlen := hpm.length_eq
        match s, hlen with
        | [x, y], _ =>
          have hx := hmem x (by simp)
          have hy := hmem y (by simp)
          simp only [SmallGaps, GapsFrom, and_true]
          rcases hx with rfl | rfl <;> rcases hy with rfl | rfl <;> simp only <;> omega
      exact h3 _ hpm hso
    have Hh := hiff.mpr hsg
    have hpart : ∀ p ∈ [(⟨address aw, wb⟩ : Part), ⟨address ab, si⟩], HasBytes (fun i => m (p.addr + i)) p.data := by
      intro p hp i b hi
      obtain ⟨a1, a2, a3⟩ := Hh.part p hp
      have hil : i < p.data.length := (List.getElem?_eq_some_iff.mp hi).1
      have := hm (p.addr - address aw + i) b (by
        rw [← a3, List.getElem?_take_of_lt hil, List.getElem?_drop] at hi
        exact hi)
      dsimp only at this ⊢
      rw [show address aw + (p.addr - address aw + i) = p.addr + i by omega] at this
      exact this
    refine ⟨hpart ⟨address aw, wb⟩ (by simp), fun d => ?_⟩
    exact SignSteps.accepted_iff w hf ⟨si, hsi, hpart ⟨address ab, si⟩ (by simp)⟩ d

/-- The digits in both cases. -/
theorem digit_spec : ∀ n, n < 16 → digit ("0123456789abcdef".toList.getD n 'x') = n ∧ digit ("0123456789ABCDEF".toList.getD n 'x') = n := by
  decide +kernel

end Verif.BinAssemble
