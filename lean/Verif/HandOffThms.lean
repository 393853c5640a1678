import Verif.HandOff

/-!
# C52: the memory map given to the operating system is the one of the firmware

The specification: `Chain` is a list of hand-off blocks in memory, `resources` what it says; `MapAt`,
`BasicAt` and `Tags` are the Multiboot2 tags, `E820` is the memory map of the Linux boot protocol.
-/

namespace Verif.HandOff

/-! ## Specification -/

/-- A range of addresses of a given type. -/
structure Res where
  start : Nat
  len : Nat
  typ : Nat

/-- The hand-off blocks at the addresses in the list follow each other from `a` on. -/
inductive Chain (m : Mem) : Nat → List Nat → Prop
  | nil {a : Nat} : le16 m a = 0xFFFF → Chain m a []
  | cons {a : Nat} {l : List Nat} : le16 m a ≠ 0xFFFF → Chain m (a + le16 m (a + 2)) l → Chain m a (a :: l)

/-- The resource described by the block at `a`. -/
def resAt (m : Mem) (a : Nat) : Res := ⟨le64 m (a + 32), le64 m (a + 40), le32 m (a + 24)⟩

/-- The resources of a list of blocks. -/
def resources (m : Mem) (l : List Nat) : List Res := (l.filter (fun a => le16 m a = 3)).map (resAt m)

/-- Call for one resource after the other, until one fails. -/
def visit {σ : Type} (cb : Nat → Nat → Nat → σ → Int × σ) : List Res → σ → Int × σ
  | [], s => (0, s)
  | d :: l, s => if (cb d.start d.len d.typ s).1 ≠ 0 then cb d.start d.len d.typ s else visit cb l (cb d.start d.len d.typ s).2

/-- Type of a range for the operating system: 1 is RAM, 2 is reserved. -/
def osType (d : Res) : Nat := if d.typ = 0 then 1 else 2

/-- The ranges `ds` are stored from `b` on, `w` bytes each. -/
def Entries (o : Mem) (w b : Nat) (ds : List Res) : Prop :=
  ∀ i, (h : i < ds.length) →
    le64 o (b + w * i) = ds[i].start ∧ le64 o (b + w * i + 8) = ds[i].len ∧ le32 o (b + w * i + 16) = osType ds[i]

/-- A Multiboot2 memory map tag for `ds` at offset `h`. -/
structure MapAt (o : Mem) (h : Nat) (ds : List Res) : Prop where
  typ : le32 o h = 6
  size : le32 o (h + 4) = 16 + 24 * ds.length
  entrySize : le32 o (h + 8) = 24
  version : le32 o (h + 12) = 0
  entries : Entries o 24 (h + 16) ds

/-- Kilobytes of the (last) range that starts at `b`; 0 if there is none. -/
def kbAt (ds : List Res) (b : Nat) : Nat :=
  ds.foldl (fun v d => if d.start = b then d.len / 1024 % 4294967296 else v) 0

/-- A Multiboot2 basic memory information tag at offset `h`. -/
structure BasicAt (o : Mem) (h : Nat) (ds : List Res) : Prop where
  typ : le32 o h = 4
  size : le32 o (h + 4) = 16
  lower : le32 o (h + 8) = kbAt ds 0
  upper : le32 o (h + 12) = kbAt ds 1048576

/-- Size of the tag of type `t`. -/
def tagBytes (ds : List Res) (t : Nat) : Nat := if t = 4 then 16 else 16 + 24 * ds.length

/-- The tags of types `rs` stand one after the other from offset `a` to `e`. -/
inductive Tags (o : Mem) (ds : List Res) : Nat → List Nat → Nat → Prop
  | nil {a : Nat} : Tags o ds a [] a
  | basic {a e : Nat} {rs : List Nat} : BasicAt o a ds → Tags o ds (a + 16) rs e → Tags o ds a (4 :: rs) e
  | map {a e : Nat} {rs : List Nat} : MapAt o a ds → Tags o ds (a + (16 + 24 * ds.length)) rs e → Tags o ds a (6 :: rs) e

/-- Bytes of all tags. -/
def allBytes (ds : List Res) (rs : List Nat) : Nat := (rs.map (tagBytes ds)).sum

/-- The tags of the header of the payload, from `a` on. -/
inductive TagChain (k : Mem) : Nat → List Nat → Prop
  | nil {a : Nat} : le16 k a = 0 → TagChain k a []
  | cons {a : Nat} {l : List Nat} : le16 k a ≠ 0 → TagChain k ((a + le32 k (a + 4) + 7) / 8 * 8) l → TagChain k a (a :: l)

/-- The Linux memory map in the boot parameters `p`. -/
structure E820 (p : Mem) (ds : List Res) : Prop where
  count : (p 0x1e8).toNat = ds.length
  entries : Entries p 20 0x2d0 ds

/-! ## Loads and stores -/

theorem wr_out {o : Mem} {off n v x : Nat} (h : x < off ∨ off + n ≤ x) : wr o off n v x = o x :=
  if_neg (by omega)

theorem wr_in {o : Mem} {off n v : Nat} (i : Nat) (h : i < n) : wr o off n v (off + i) = BitVec.ofNat 8 (v / 256 ^ i) := by
  unfold wr
  rw [if_pos (by omega), Nat.add_sub_cancel_left]

theorem le32_lt (m : Mem) (a : Nat) : le32 m a < 4294967296 := by
  unfold le32
  have h0 := (m a).isLt
  have h1 := (m (a + 1)).isLt
  have h2 := (m (a + 2)).isLt
  have h3 := (m (a + 3)).isLt
  omega

theorem le64_lt (m : Mem) (a : Nat) : le64 m a < 18446744073709551616 := by
  unfold le64
  have h0 := le32_lt m a
  have h1 := le32_lt m (a + 4)
  omega

theorem le32_eq {o p : Mem} {a : Nat} (h : ∀ i, i < 4 → o (a + i) = p (a + i)) : le32 o a = le32 p a := by
  have h0 := h 0 (by decide)
  have h1 := h 1 (by decide)
  have h2 := h 2 (by decide)
  have h3 := h 3 (by decide)
  rw [Nat.add_zero] at h0
  unfold le32
  rw [h0, h1, h2, h3]

theorem le64_eq {o p : Mem} {a : Nat} (h : ∀ i, i < 8 → o (a + i) = p (a + i)) : le64 o a = le64 p a := by
  unfold le64
  have h1 : le32 o a = le32 p a := le32_eq (fun i hi => h i (by omega))
  have h2 : le32 o (a + 4) = le32 p (a + 4) := le32_eq (fun i hi => by
    rw [Nat.add_assoc]
    exact h (4 + i) (by omega))
  rw [h1, h2]

theorem le32_out {o : Mem} {off n v a : Nat} (h : a + 4 ≤ off ∨ off + n ≤ a) : le32 (wr o off n v) a = le32 o a :=
  le32_eq (fun i hi => wr_out (by omega))

theorem le64_out {o : Mem} {off n v a : Nat} (h : a + 8 ≤ off ∨ off + n ≤ a) : le64 (wr o off n v) a = le64 o a :=
  le64_eq (fun i hi => wr_out (by omega))

theorem le32_byte {m : Mem} {a v : Nat} (h : ∀ i, i < 4 → m (a + i) = BitVec.ofNat 8 (v / 256 ^ i)) :
    le32 m a = v % 4294967296 := by
  have h0 := h 0 (by decide)
  have h1 := h 1 (by decide)
  have h2 := h 2 (by decide)
  have h3 := h 3 (by decide)
  rw [Nat.add_zero] at h0
  unfold le32
  rw [h0, h1, h2, h3]
  simp only [BitVec.toNat_ofNat]
  omega

theorem le32_wr {o : Mem} {a v : Nat} : le32 (wr o a 4 v) a = v % 4294967296 :=
  le32_byte (fun i hi => wr_in i hi)

theorem le64_wr {o : Mem} {a v : Nat} : le64 (wr o a 8 v) a = v % 18446744073709551616 := by
  unfold le64
  rw [le32_byte (v := v) (fun i hi => wr_in i (by omega)), le32_byte (a := a + 4) (v := v / 4294967296) (fun i hi => ?_)]
  · omega
  · rw [Nat.add_assoc, wr_in (4 + i) (by omega), Nat.pow_add, ← Nat.div_div_eq_div_mul]

/-! ## Walking the list -/

theorem hobIterate_eq {σ : Type} {m : Mem} (cb : Nat → Nat → Nat → σ → Int × σ) {a : Nat} {l : List Nat}
    (h : Chain m a l) : ∀ (fuel : Nat) (s : σ), l.length < fuel →
      hobIterate m cb fuel a s = some (visit cb (resources m l) s) := by
  induction h with
  | nil he =>
    intro fuel s hf
    cases fuel with
    | zero => omega
    | succ f => rw [hobIterate, if_pos he]; rfl
  | @cons a l hn _ ih =>
    intro fuel s hf
    cases fuel with
    | zero => omega
    | succ f =>
      rw [List.length_cons] at hf
      rw [hobIterate, if_neg hn]
      by_cases h3 : le16 m a = 3
      · have hr : resources m (a :: l) = resAt m a :: resources m l := by
          unfold resources
          rw [List.filter_cons_of_pos (by simpa using h3), List.map_cons]
        rw [if_pos h3, hr, visit]
        split
        · rename_i hc
          exact (congrArg some (if_pos hc)).symm
        · rename_i hc
          rw [ih f _ (by omega)]
          exact (congrArg some (if_neg hc)).symm
      · have hr : resources m (a :: l) = resources m l := by
          unfold resources
          rw [List.filter_cons_of_neg (by simpa using h3)]
        rw [if_neg h3, ih f _ (by omega), hr]

/-- **C52, blocks.** The callback is called for the resources of the list, in order, and for nothing else. -/
theorem hob_iterate_visits {σ : Type} {m : Mem} (cb : Nat → Nat → Nat → σ → Int × σ) {a : Nat} {l : List Nat}
    (h : Chain m a l) (s : σ) (fuel : Nat) (hf : l.length < fuel) :
    hobIterate m cb fuel a s = some (visit cb (resources m l) s) := hobIterate_eq cb h fuel s hf

/-- **C52, blocks.** The search by owner gives the first reserved memory resource with that owner. -/
theorem hob_find_first {m : Mem} (g : List Byte) {a : Nat} {l : List Nat} (h : Chain m a l) :
    ∀ (fuel : Nat), l.length < fuel →
      hobFind m g fuel a = some (l.find? (fun x => le16 m x = 3 ∧ le32 m (x + 24) = 5 ∧ slice m (x + 8) 16 = g)) := by
  induction h with
  | nil he =>
    intro fuel hf
    cases fuel with
    | zero => omega
    | succ f => rw [hobFind, if_pos he]; rfl
  | @cons a l hn _ ih =>
    intro fuel hf
    cases fuel with
    | zero => omega
    | succ f =>
      rw [List.length_cons] at hf
      rw [hobFind, if_neg hn]
      by_cases hp : le16 m a = 3 ∧ le32 m (a + 24) = 5 ∧ slice m (a + 8) 16 = g
      · rw [if_pos hp, List.find?_cons_of_pos (by simpa using hp)]
      · rw [if_neg hp, List.find?_cons_of_neg (by simpa using hp), ih f (by omega)]

/-- **C52, blocks.** `get_top_address`: the start of the memory that the FSP has reserved. -/
theorem top_address {m : Mem} {a : Nat} {l : List Nat} (h : Chain m a l) (fuel : Nat) (hf : l.length < fuel) :
    topAddress m fuel a =
      some ((l.find? (fun x => le16 m x = 3 ∧ le32 m (x + 24) = 5 ∧ slice m (x + 8) 16 = fspGuid)).map
        (fun x => (resAt m x).start)) := by
  unfold topAddress
  rw [hob_find_first fspGuid h fuel hf]
  cases l.find? (fun x => le16 m x = 3 ∧ le32 m (x + 24) = 5 ∧ slice m (x + 8) 16 = fspGuid) with
  | none => rfl
  | some d => rfl

/-- **Finding.** A block of length 0 (or, likewise, a list without end) keeps the loader in the loop for ever. -/
theorem hob_zero_length_endless {σ : Type} (m : Mem) (cb : Nat → Nat → Nat → σ → Int × σ)
    (hcb : ∀ x y z s, (cb x y z s).1 = 0) (a : Nat) (h0 : le16 m (a + 2) = 0) (hn : le16 m a ≠ 0xFFFF) :
    ∀ (fuel : Nat) (s : σ), hobIterate m cb fuel a s = none := by
  intro fuel
  induction fuel with
  | zero => intro s; rfl
  | succ f ih =>
    intro s
    rw [hobIterate, if_neg hn, h0]
    simp only [Nat.add_zero, ih, hcb]
    simp

theorem hobIterate_inv {σ : Type} {m : Mem} {cb : Nat → Nat → Nat → σ → Int × σ} (I : σ → Prop)
    (hcb : ∀ x y z s, I s → I (cb x y z s).2) : ∀ (fuel a : Nat) (s : σ) (r : Int) (s' : σ), I s →
      hobIterate m cb fuel a s = some (r, s') → I s' := by
  intro fuel
  induction fuel with
  | zero => intro a s r s' _ h; cases h
  | succ f ih =>
    intro a s r s' hs h
    rw [hobIterate] at h
    split at h
    · injection h with h
      injection h with _ h
      exact h ▸ hs
    · split at h
      · split at h
        · injection h with h
          have := hcb (le64 m (a + 32)) (le64 m (a + 40)) (le32 m (a + 24)) s hs
          rw [h] at this
          exact this
        · exact ih _ _ _ _ (hcb _ _ _ _ hs) h
      · exact ih _ _ _ _ hs h

/-! ## Multiboot2: the memory map tag -/

/-- Bytes of the entries. -/
theorem Entries.congr {o p : Mem} {w b : Nat} {ds : List Res} (hw : 20 ≤ w) (h : Entries o w b ds)
    (he : ∀ x, b ≤ x → x < b + w * ds.length → p x = o x) : Entries p w b ds := by
  intro i hi
  have hlt : w * i + w ≤ w * ds.length := by rw [← Nat.mul_succ]; exact Nat.mul_le_mul_left w hi
  obtain ⟨h1, h2, h3⟩ := h i hi
  refine ⟨?_, ?_, ?_⟩
  · rw [← h1]; exact le64_eq (fun j hj => he _ (by omega) (by omega))
  · rw [← h2]; exact le64_eq (fun j hj => he _ (by omega) (by omega))
  · rw [← h3]; exact le32_eq (fun j hj => he _ (by omega) (by omega))

theorem Entries.snoc {o : Mem} {w b : Nat} {ds : List Res} {d : Res} (h : Entries o w b ds)
    (h1 : le64 o (b + w * ds.length) = d.start) (h2 : le64 o (b + w * ds.length + 8) = d.len)
    (h3 : le32 o (b + w * ds.length + 16) = osType d) : Entries o w b (ds ++ [d]) := by
  intro i hi
  rw [List.length_append, List.length_singleton] at hi
  by_cases hlt : i < ds.length
  · rw [List.getElem_append_left hlt]
    exact h i hlt
  · have e : i = ds.length := by omega
    subst e
    rw [List.getElem_append_right (Nat.le_refl _)]
    simp only [Nat.sub_self, List.getElem_singleton]
    exact ⟨h1, h2, h3⟩

/-- All numbers of the ranges fit into 64 bits. -/
def Small (ds : List Res) : Prop := ∀ d ∈ ds, d.start < 18446744073709551616 ∧ d.len < 18446744073709551616

theorem small_resources (m : Mem) (l : List Nat) : Small (resources m l) := by
  intro d hd
  unfold resources at hd
  obtain ⟨a, _, rfl⟩ := List.mem_map.1 hd
  exact ⟨le64_lt _ _, le64_lt _ _⟩

theorem osType_lt (d : Res) : osType d < 4294967296 := by
  unfold osType
  split <;> omega

/-- One entry. -/
theorem mapEntryCb_ok {h : Nat} {s : MbSt} {pre : List Res} {d : Res}
    (hd : d.start < 18446744073709551616 ∧ d.len < 18446744073709551616)
    (hs : le32 s.o (h + 4) = 16 + 24 * pre.length) (he : Entries s.o 24 (h + 16) pre) (hm : 24 ≤ s.max)
    (hb : 16 + 24 * (pre.length + 1) < 4294967296) :
    ∃ s', mapEntryCb h d.start d.len d.typ s = (0, s') ∧ s'.idx = s.idx ∧ s'.max = s.max - 24 ∧
      le32 s'.o (h + 4) = 16 + 24 * (pre ++ [d]).length ∧ Entries s'.o 24 (h + 16) (pre ++ [d]) ∧
      ∀ x, (x < h + 4 ∨ h + 8 ≤ x) → (x < h + 16 + 24 * pre.length ∨ h + 16 + 24 * (pre.length + 1) ≤ x) →
        s'.o x = s.o x := by
  unfold mapEntryCb
  rw [if_neg (by omega), hs]
  refine ⟨_, rfl, rfl, rfl, ?_, ?_, ?_⟩
  · dsimp only
    rw [le32_wr, List.length_append, List.length_singleton]
    omega
  · dsimp only
    have e0 : h + (16 + 24 * pre.length) = h + 16 + 24 * pre.length := by omega
    rw [e0]
    refine Entries.snoc (he.congr (by decide) ?_) ?_ ?_ ?_
    · intro x h1 h2
      rw [wr_out (by omega), wr_out (by omega), wr_out (by omega), wr_out (by omega), wr_out (by omega)]
    · rw [le64_out (by omega), le64_out (by omega), le64_out (by omega), le64_out (by omega), le64_wr]
      exact Nat.mod_eq_of_lt hd.1
    · rw [le64_out (by omega), le64_out (by omega), le64_out (by omega), le64_wr]
      exact Nat.mod_eq_of_lt hd.2
    · rw [le32_out (by omega), le32_out (by omega), le32_wr]
      exact Nat.mod_eq_of_lt (osType_lt d)
  · intro x h1 h2
    dsimp only
    rw [wr_out (by omega), wr_out (by omega), wr_out (by omega), wr_out (by omega), wr_out (by omega)]

theorem mapVisit {h : Nat} : ∀ (ds pre : List Res) (s : MbSt), Small ds →
    le32 s.o (h + 4) = 16 + 24 * pre.length → Entries s.o 24 (h + 16) pre → 24 * ds.length ≤ s.max →
    16 + 24 * (pre.length + ds.length) < 4294967296 →
    ∃ s', visit (mapEntryCb h) ds s = (0, s') ∧ s'.idx = s.idx ∧ s'.max = s.max - 24 * ds.length ∧
      le32 s'.o (h + 4) = 16 + 24 * (pre ++ ds).length ∧ Entries s'.o 24 (h + 16) (pre ++ ds) ∧
      ∀ x, (x < h + 4 ∨ h + 8 ≤ x) → (x < h + 16 ∨ h + 16 + 24 * (pre.length + ds.length) ≤ x) → s'.o x = s.o x := by
  intro ds
  induction ds with
  | nil =>
    intro pre s _ hs he _ _
    exact ⟨s, rfl, rfl, rfl, by rw [List.append_nil]; exact hs, by rw [List.append_nil]; exact he, fun _ _ _ => rfl⟩
  | cons d ds ih =>
    intro pre s hsm hs he hm hb
    rw [List.length_cons] at hm hb
    obtain ⟨s1, e1, i1, m1, z1, n1, f1⟩ := mapEntryCb_ok (hsm d (List.mem_cons_self ..)) hs he (by omega) (by omega)
    obtain ⟨s2, e2, i2, m2, z2, n2, f2⟩ := ih (pre ++ [d]) s1 (fun x hx => hsm x (List.mem_cons_of_mem _ hx)) z1 n1
      (by omega) (by rw [List.length_append, List.length_singleton]; omega)
    rw [List.append_assoc, List.singleton_append] at z2 n2
    rw [List.length_append, List.length_singleton] at f2
    refine ⟨s2, ?_, i2.trans i1, by rw [m2, m1, List.length_cons]; omega, z2, n2, ?_⟩
    · rw [visit, e1, if_neg (by simp)]
      exact e2
    · intro x h1 h2
      rw [List.length_cons] at h2
      rw [f2 x h1 (by omega), f1 x h1 (by omega)]

/-- Not enough space: the list is not finished. -/
theorem mapVisit_fails {h : Nat} : ∀ (ds : List Res) (s : MbSt), s.max < 24 * ds.length →
    (visit (mapEntryCb h) ds s).1 ≠ 0 := by
  intro ds
  induction ds with
  | nil => intro s hm; rw [List.length_nil] at hm; omega
  | cons d ds ih =>
    intro s hm
    rw [List.length_cons] at hm
    rw [visit]
    split
    · rename_i hc; exact hc
    · rename_i hc
      refine ih _ ?_
      have e : (mapEntryCb h d.start d.len d.typ s).2.max = s.max - 24 := by
        unfold mapEntryCb at hc ⊢
        split
        · rename_i hl
          rw [if_pos hl] at hc
          exact absurd (show ((-1 : Int), s).1 ≠ 0 from by simp) hc
        · rfl
      rw [e]
      by_cases hl : s.max < 24
      · exfalso
        unfold mapEntryCb at hc
        rw [if_pos hl] at hc
        exact hc (show ((-1 : Int), s).1 ≠ 0 from by simp)
      · omega

theorem addMap_ok {m : Mem} {hob fuel : Nat} {l : List Nat} (hc : Chain m hob l) (hf : l.length < fuel) (s : MbSt)
    (hm : 16 + 24 * (resources m l).length ≤ s.max) (hb : s.max < 4294967296) :
    ∃ s', addMap m hob fuel s = some (0, s') ∧ s'.idx = s.idx + (16 + 24 * (resources m l).length) ∧
      s'.max = s.max - (16 + 24 * (resources m l).length) ∧ MapAt s'.o s.idx (resources m l) ∧
      ∀ x, (x < s.idx ∨ s'.idx ≤ x) → s'.o x = s.o x := by
  unfold addMap
  rw [if_neg (by omega), hob_iterate_visits _ hc _ _ hf]
  generalize hds : resources m l = ds at hm ⊢
  have hsm : Small ds := hds ▸ small_resources m l
  generalize hs0 : ({ s with
          max := s.max - 16
          o := wr (wr (wr (wr s.o s.idx 4 6) (s.idx + 8) 4 24) (s.idx + 12) 4 0) (s.idx + 4) 4 16 } : MbSt) = s0
  have h0 : s0.o = wr (wr (wr (wr s.o s.idx 4 6) (s.idx + 8) 4 24) (s.idx + 12) 4 0) (s.idx + 4) 4 16 := by rw [← hs0]
  have h1 : s0.max = s.max - 16 := by rw [← hs0]
  have h2 : s0.idx = s.idx := by rw [← hs0]
  obtain ⟨s1, e1, i1, m1, z1, n1, f1⟩ := mapVisit (h := s.idx) ds [] s0 hsm
    (by rw [h0, le32_wr]; rfl) (fun i hi => absurd hi (by simp)) (by omega) (by rw [List.length_nil]; omega)
  rw [e1]
  rw [List.nil_append] at z1 n1
  rw [List.length_nil, Nat.zero_add] at f1
  unfold advance
  dsimp only
  rw [if_neg (by simp)]
  refine ⟨_, rfl, ?_, ?_, ?_, ?_⟩
  · dsimp only; rw [z1, i1, h2]
  · dsimp only; rw [m1, h1]; omega
  · have fr : ∀ a, (a + 4 ≤ s.idx + 4 ∨ s.idx + 8 ≤ a) → a + 4 ≤ s.idx + 16 → le32 s1.o a = le32 s0.o a := by
      intro a ha hb
      exact le32_eq (fun i hi => f1 _ (by omega) (by omega))
    refine ⟨?_, z1, ?_, ?_, n1⟩
    · show le32 s1.o s.idx = 6
      rw [fr _ (by omega) (by omega), h0, le32_out (by omega), le32_out (by omega), le32_out (by omega), le32_wr]
    · show le32 s1.o (s.idx + 8) = 24
      rw [fr _ (by omega) (by omega), h0, le32_out (by omega), le32_out (by omega), le32_wr]
    · show le32 s1.o (s.idx + 12) = 0
      rw [fr _ (by omega) (by omega), h0, le32_out (by omega), le32_wr]
  · intro x hx
    dsimp only at hx ⊢
    rw [z1, i1, h2] at hx
    rw [f1 x (by omega) (by omega), h0, wr_out (by omega), wr_out (by omega), wr_out (by omega), wr_out (by omega)]

/-! ## Multiboot2: basic memory information -/

/-- `kbAt` with a start value. -/
def kbFrom (v : Nat) (ds : List Res) (b : Nat) : Nat :=
  ds.foldl (fun v d => if d.start = b then d.len / 1024 % 4294967296 else v) v

theorem basicVisit {h : Nat} : ∀ (ds : List Res) (s : MbSt),
    ∃ s', visit (basicCb h) ds s = (0, s') ∧ s'.idx = s.idx ∧ s'.max = s.max ∧
      le32 s'.o (h + 8) = kbFrom (le32 s.o (h + 8)) ds 0 ∧ le32 s'.o (h + 12) = kbFrom (le32 s.o (h + 12)) ds 1048576 ∧
      ∀ x, (x < h + 8 ∨ h + 16 ≤ x) → s'.o x = s.o x := by
  intro ds
  induction ds with
  | nil => intro s; exact ⟨s, rfl, rfl, rfl, rfl, rfl, fun _ _ => rfl⟩
  | cons d ds ih =>
    intro s
    obtain ⟨s', e, i, mx, lo, up, fr⟩ := ih (basicCb h d.start d.len d.typ s).2
    refine ⟨s', ?_, i, mx, ?_, ?_, ?_⟩
    · rw [visit, if_neg (by simp [basicCb])]
      exact e
    · rw [lo]
      show kbFrom _ ds 0 = kbFrom (if d.start = 0 then d.len / 1024 % 4294967296 else le32 s.o (h + 8)) ds 0
      congr 1
      unfold basicCb
      dsimp only
      by_cases h0 : d.start = 0
      · rw [if_pos h0, if_pos h0, le32_wr]
      · rw [if_neg h0, if_neg h0]
        split
        · rw [le32_out (by omega)]
        · rfl
    · rw [up]
      show kbFrom _ ds 1048576 = kbFrom (if d.start = 1048576 then d.len / 1024 % 4294967296 else le32 s.o (h + 12)) ds 1048576
      congr 1
      unfold basicCb
      dsimp only
      by_cases h0 : d.start = 0
      · rw [if_pos h0, if_neg (by omega), le32_out (by omega)]
      · rw [if_neg h0]
        split
        · rw [le32_wr]
        · rfl
    · intro x hx
      rw [fr x hx]
      unfold basicCb
      dsimp only
      split
      · rw [wr_out (by omega)]
      · split
        · rw [wr_out (by omega)]
        · rfl

theorem addBasic_ok {m : Mem} {hob fuel : Nat} {l : List Nat} (hc : Chain m hob l) (hf : l.length < fuel) (s : MbSt)
    (hm : 16 ≤ s.max) :
    ∃ s', addBasic m hob fuel s = some (0, s') ∧ s'.idx = s.idx + 16 ∧ s'.max = s.max - 16 ∧
      BasicAt s'.o s.idx (resources m l) ∧ ∀ x, (x < s.idx ∨ s'.idx ≤ x) → s'.o x = s.o x := by
  unfold addBasic
  rw [if_neg (by omega), hob_iterate_visits _ hc _ _ hf]
  generalize resources m l = ds
  generalize hs0 : ({ s with
          max := s.max - 16
          o := wr (wr (wr (wr s.o s.idx 4 4) (s.idx + 4) 4 16) (s.idx + 8) 4 0) (s.idx + 12) 4 0 } : MbSt) = s0
  have h0 : s0.o = wr (wr (wr (wr s.o s.idx 4 4) (s.idx + 4) 4 16) (s.idx + 8) 4 0) (s.idx + 12) 4 0 := by rw [← hs0]
  have h1 : s0.max = s.max - 16 := by rw [← hs0]
  have h2 : s0.idx = s.idx := by rw [← hs0]
  obtain ⟨s1, e1, i1, m1, lo, up, f1⟩ := basicVisit (h := s.idx) ds s0
  rw [e1]
  unfold advance
  dsimp only
  rw [if_neg (by simp)]
  have fr : ∀ a, a + 4 ≤ s.idx + 8 → le32 s1.o a = le32 s0.o a :=
    fun a hb => le32_eq (fun i hi => f1 _ (by omega))
  refine ⟨_, rfl, ?_, ?_, ⟨?_, ?_, ?_, ?_⟩, ?_⟩
  · dsimp only; rw [i1, h2]
  · dsimp only; rw [m1, h1]
  · show le32 s1.o s.idx = 4
    rw [fr _ (by omega), h0, le32_out (by omega), le32_out (by omega), le32_out (by omega), le32_wr]
  · show le32 s1.o (s.idx + 4) = 16
    rw [fr _ (by omega), h0, le32_out (by omega), le32_out (by omega), le32_wr]
  · show le32 s1.o (s.idx + 8) = _
    rw [lo, h0, le32_out (by omega), le32_wr]
    rfl
  · show le32 s1.o (s.idx + 12) = _
    rw [up, h0, le32_wr]
    rfl
  · intro x hx
    dsimp only at hx ⊢
    rw [i1, h2] at hx
    rw [f1 x (by omega), h0, wr_out (by omega), wr_out (by omega), wr_out (by omega), wr_out (by omega)]

/-! ## Multiboot2: all tags -/

theorem BasicAt.congr {o p : Mem} {h : Nat} {ds : List Res} (b : BasicAt o h ds)
    (e : ∀ x, h ≤ x → x < h + 16 → p x = o x) : BasicAt p h ds where
  typ := b.typ ▸ le32_eq (fun i hi => e _ (by omega) (by omega))
  size := b.size ▸ le32_eq (fun i hi => e _ (by omega) (by omega))
  lower := b.lower ▸ le32_eq (fun i hi => e _ (by omega) (by omega))
  upper := b.upper ▸ le32_eq (fun i hi => e _ (by omega) (by omega))

theorem MapAt.congr {o p : Mem} {h : Nat} {ds : List Res} (b : MapAt o h ds)
    (e : ∀ x, h ≤ x → x < h + (16 + 24 * ds.length) → p x = o x) : MapAt p h ds where
  typ := by rw [← b.typ]; exact le32_eq (fun i hi => e _ (by omega) (by omega))
  size := by rw [← b.size]; exact le32_eq (fun i hi => e _ (by omega) (by omega))
  entrySize := by rw [← b.entrySize]; exact le32_eq (fun i hi => e _ (by omega) (by omega))
  version := by rw [← b.version]; exact le32_eq (fun i hi => e _ (by omega) (by omega))
  entries := b.entries.congr (by decide) (fun x h1 h2 => e x (by omega) (by omega))

theorem Tags.congr {o p : Mem} {ds : List Res} {a e : Nat} {rs : List Nat} (h : Tags o ds a rs e)
    (eq : ∀ x, a ≤ x → p x = o x) : Tags p ds a rs e := by
  induction h with
  | nil => exact .nil
  | basic b _ ih => exact .basic (b.congr (fun x h1 _ => eq x h1)) (ih (fun x hx => eq x (by omega)))
  | map b _ ih => exact .map (b.congr (fun x h1 _ => eq x h1)) (ih (fun x hx => eq x (by omega)))

/-- The requests of the payload are `rs`. -/
def Requests (k : Mem) (a : Nat) (rs : List Nat) : Prop := ∀ i, (h : i < rs.length) → le32 k (a + 4 * i) = rs[i]

theorem Requests.head {k : Mem} {a t : Nat} {rs : List Nat} (h : Requests k a (t :: rs)) : le32 k a = t :=
  h 0 (by simp)

theorem Requests.tail {k : Mem} {a t : Nat} {rs : List Nat} (h : Requests k a (t :: rs)) : Requests k (a + 4) rs := by
  intro i hi
  have := h (i + 1) (by simpa using hi)
  rw [show a + 4 + 4 * i = a + 4 * (i + 1) from by omega]
  exact this

theorem addTags_ok {k m : Mem} {hob fuel : Nat} {l : List Nat} (hc : Chain m hob l) (hf : l.length < fuel) :
    ∀ (rs : List Nat) (a : Nat) (s : MbSt), Requests k a rs → (∀ t ∈ rs, t = 4 ∨ t = 6) →
      allBytes (resources m l) rs ≤ s.max → s.max < 4294967296 →
      ∃ s', addTags k m hob fuel rs.length a s = some (0, s') ∧
        s'.idx = s.idx + allBytes (resources m l) rs ∧ s'.max = s.max - allBytes (resources m l) rs ∧
        Tags s'.o (resources m l) s.idx rs s'.idx ∧ ∀ x, (x < s.idx ∨ s'.idx ≤ x) → s'.o x = s.o x := by
  intro rs
  induction rs with
  | nil =>
    intro a s _ _ _ _
    exact ⟨s, rfl, rfl, rfl, .nil, fun _ _ => rfl⟩
  | cons t rs ih =>
    intro a s hr ht hm hb
    have hab : allBytes (resources m l) (t :: rs) = tagBytes (resources m l) t + allBytes (resources m l) rs := by
      unfold allBytes
      rw [List.map_cons, List.sum_cons]
    rw [hab] at hm ⊢
    rw [List.length_cons, addTags, hr.head, addTag]
    rcases ht t (List.mem_cons_self ..) with h4 | h6
    · subst h4
      have e4 : tagBytes (resources m l) 4 = 16 := if_pos rfl
      rw [e4] at hm ⊢
      obtain ⟨s1, e1, i1, m1, b1, f1⟩ := addBasic_ok hc hf s (by omega)
      obtain ⟨s2, e2, i2, m2, b2, f2⟩ := ih (a + 4) s1 hr.tail (fun x hx => ht x (List.mem_cons_of_mem _ hx))
        (by omega) (by omega)
      refine ⟨s2, ?_, by omega, by omega, ?_, ?_⟩
      · rw [if_pos rfl, e1]
        dsimp only
        rw [if_neg (by simp)]
        exact e2
      · refine .basic (b1.congr (fun x h1 h2 => f2 x (by omega))) ?_
        rw [← i1]
        exact b2
      · intro x hx
        rw [f2 x (by omega), f1 x (by omega)]
    · subst h6
      have e6 : tagBytes (resources m l) 6 = 16 + 24 * (resources m l).length := if_neg (by decide)
      rw [e6] at hm ⊢
      obtain ⟨s1, e1, i1, m1, b1, f1⟩ := addMap_ok hc hf s (by omega) hb
      obtain ⟨s2, e2, i2, m2, b2, f2⟩ := ih (a + 4) s1 hr.tail (fun x hx => ht x (List.mem_cons_of_mem _ hx))
        (by omega) (by omega)
      refine ⟨s2, ?_, by omega, by omega, ?_, ?_⟩
      · rw [if_neg (by decide), if_pos rfl, e1]
        dsimp only
        rw [if_neg (by simp)]
        exact e2
      · refine .map (b1.congr (fun x h1 h2 => f2 x (by omega))) ?_
        rw [← i1]
        exact b2
      · intro x hx
        rw [f2 x (by omega), f1 x (by omega)]

/-- The search for a tag of the payload finds the first of its type. -/
theorem mb2_find_tag {k : Mem} (t : Nat) (ht : t ≠ 0) {a : Nat} {l : List Nat} (h : TagChain k a l) :
    ∀ (fuel : Nat), l.length < fuel → findTag k t fuel a = some (l.find? (fun x => le16 k x = t)) := by
  induction h with
  | nil he =>
    intro fuel hf
    cases fuel with
    | zero => omega
    | succ f => rw [findTag, if_pos he]; rfl
  | @cons a l hn _ ih =>
    intro fuel hf
    cases fuel with
    | zero => omega
    | succ f =>
      rw [List.length_cons] at hf
      rw [findTag, if_neg hn]
      by_cases hp : le16 k a = t
      · rw [if_pos hp, List.find?_cons_of_pos (by simpa using hp)]
      · rw [if_neg hp, List.find?_cons_of_neg (by simpa using hp)]
        exact ih f (by omega)

/-- **Finding.** A tag of size 0 in the header of the payload: the loader never returns. -/
theorem mb2_zero_tag_endless (k : Mem) (t a : Nat) (ha : a % 8 = 0) (h0 : le32 k (a + 4) = 0) (h1 : le16 k a ≠ 0)
    (h2 : le16 k a ≠ t) : ∀ fuel, findTag k t fuel a = none := by
  intro fuel
  induction fuel with
  | zero => rfl
  | succ f ih =>
    rw [findTag, if_neg h1, if_neg h2, h0, show alignUp8 (a + 0) = a from by unfold alignUp8; omega]
    exact ih

theorem requested_eq {w n : Nat} (hw : w = 32 ∨ w = 64) (hn : 8 + 4 * n < 4294967296) : requested w (8 + 4 * n) = n := by
  unfold requested
  rcases hw with rfl | rfl
  · have e : (8 + 4 * n + 2 ^ 32 - 8) % 2 ^ 32 / 4 % 2 ^ 32 = n := by omega
    rw [e, if_pos (by omega)]
  · have e : (8 + 4 * n + 2 ^ 64 - 8) % 2 ^ 64 / 4 % 2 ^ 32 = n := by omega
    rw [e, if_pos (by omega)]

/-- **Finding.** A request tag that is too short (its header alone takes 8 bytes) asks for about 2^30 tags
on a 32-bit machine: what follows the tag is taken for requests. -/
theorem mb2_short_request_32 (size : Nat) (h : size < 8) : 1073741822 ≤ requested 32 size := by
  unfold requested
  split <;> omega

/-- **C52, Multiboot2.** A request for memory information that can be met is met: the tags stand in the
order of the requests, say what the hand-off blocks say, and `total_size` is right. Nothing behind it is
changed. -/
theorem mb2_info {w : Nat} {k m : Mem} {hob hd fuel max t : Nat} {o : Mem} {l kl : List Nat} {rs : List Nat}
    (hw : w = 32 ∨ w = 64) (hc : Chain m hob l) (hf : l.length < fuel) (hk : TagChain k (hd + 16) kl)
    (hkf : kl.length < fuel) (hfind : kl.find? (fun x => le16 k x = 1) = some t)
    (hsize : le32 k (t + 4) = 8 + 4 * rs.length) (hreq : Requests k (t + 8) rs) (hrs : ∀ t ∈ rs, t = 4 ∨ t = 6)
    (hmax : 8 + allBytes (resources m l) rs ≤ max) (hmax' : max < 4294967296) :
    ∃ s, mbBuild w k m hob hd fuel max o = some (0, s) ∧ le32 s.o 0 = 8 + allBytes (resources m l) rs ∧
      le32 s.o 4 = 0 ∧ Tags s.o (resources m l) 8 rs (8 + allBytes (resources m l) rs) ∧
      ∀ x, 8 + allBytes (resources m l) rs ≤ x → s.o x = o x := by
  have hlt := le32_lt k (t + 4)
  obtain ⟨s, e, i, mx, tg, fr⟩ := addTags_ok (k := k) hc hf rs (t + 8) ⟨wr o 4 4 0, 8, max - 8⟩ hreq hrs
    (by dsimp only; omega) (by dsimp only; omega)
  dsimp only at i mx tg fr
  unfold mbBuild
  rw [if_neg (by omega), mb2_find_tag 1 (by decide) hk fuel hkf, hfind]
  dsimp only
  rw [hsize, requested_eq hw (by omega), e]
  unfold finish
  dsimp only
  rw [if_neg (by simp)]
  refine ⟨_, rfl, ?_, ?_, ?_, ?_⟩
  · dsimp only
    rw [le32_wr, i]
    omega
  · dsimp only
    rw [le32_out (by omega), le32_eq (p := wr o 4 4 0) (fun j hj => fr _ (by omega)), le32_wr]
  · dsimp only
    rw [← i]
    exact tg.congr (fun x hx => wr_out (by omega))
  · intro x hx
    dsimp only
    rw [wr_out (by omega), fr x (by omega), wr_out (by omega)]

/-- **Finding.** There is no terminating tag (type 0, size 8) in the information: `total_size` ends with the
last requested tag, and the bytes that follow are those that were in the buffer. (`mb2_boot_info` is zero
initially, so a reader that goes on behind `total_size` finds type 0, but size 0.) -/
theorem mb2_no_end_tag {w : Nat} {k m : Mem} {hob hd fuel max t : Nat} {o : Mem} {l kl : List Nat} {rs : List Nat}
    (hw : w = 32 ∨ w = 64) (hc : Chain m hob l) (hf : l.length < fuel) (hk : TagChain k (hd + 16) kl)
    (hkf : kl.length < fuel) (hfind : kl.find? (fun x => le16 k x = 1) = some t)
    (hsize : le32 k (t + 4) = 8 + 4 * rs.length) (hreq : Requests k (t + 8) rs) (hrs : ∀ t ∈ rs, t = 4 ∨ t = 6)
    (hmax : 8 + allBytes (resources m l) rs ≤ max) (hmax' : max < 4294967296) (hz : ∀ x, o x = 0) :
    ∃ s, mbBuild w k m hob hd fuel max o = some (0, s) ∧ le32 s.o (le32 s.o 0 + 4) = 0 := by
  obtain ⟨s, e, z, _, _, fr⟩ := mb2_info (o := o) hw hc hf hk hkf hfind hsize hreq hrs hmax hmax'
  refine ⟨s, e, ?_⟩
  rw [z, le32_eq (p := o) (fun j hj => fr _ (by omega))]
  unfold le32
  simp [hz]

/-! ## Multiboot2: refusal, and no write outside of the buffer -/

theorem addTags_fails {k m : Mem} {hob fuel : Nat} {l : List Nat} (hc : Chain m hob l) (hf : l.length < fuel) :
    ∀ (rs : List Nat) (a : Nat) (s : MbSt), Requests k a rs → s.max < 4294967296 →
      (s.max < allBytes (resources m l) rs ∨ ∃ t ∈ rs, t ≠ 4 ∧ t ≠ 6) →
      ∃ r s', addTags k m hob fuel rs.length a s = some (r, s') ∧ r ≠ 0 := by
  intro rs
  induction rs with
  | nil =>
    intro a s _ _ h
    rcases h with h | ⟨t, ht, _⟩
    · exact absurd h (by unfold allBytes; simp)
    · cases ht
  | cons t rs ih =>
    intro a s hr hb h
    have hab : allBytes (resources m l) (t :: rs) = tagBytes (resources m l) t + allBytes (resources m l) rs := by
      unfold allBytes
      rw [List.map_cons, List.sum_cons]
    rw [hab] at h
    rw [List.length_cons, addTags, hr.head, addTag]
    by_cases h4 : t = 4
    · subst h4
      rw [if_pos rfl]
      have e4 : tagBytes (resources m l) 4 = 16 := if_pos rfl
      rw [e4] at h
      by_cases hs : s.max < 16
      · unfold addBasic
        rw [if_pos hs]
        exact ⟨-1, s, rfl, by decide⟩
      · obtain ⟨s1, e1, i1, m1, _, _⟩ := addBasic_ok hc hf s (by omega)
        rw [e1]
        dsimp only
        rw [if_neg (by simp)]
        refine ih _ s1 hr.tail (by omega) ?_
        rcases h with h | ⟨t', ht', h1, h2⟩
        · left; omega
        · rcases List.mem_cons.1 ht' with rfl | h'
          · exact absurd rfl h1
          · exact Or.inr ⟨t', h', h1, h2⟩
    · rw [if_neg h4]
      by_cases h6 : t = 6
      · subst h6
        rw [if_pos rfl]
        have e6 : tagBytes (resources m l) 6 = 16 + 24 * (resources m l).length := if_neg (by decide)
        rw [e6] at h
        by_cases hs : s.max < 16 + 24 * (resources m l).length
        · unfold addMap
          by_cases hs2 : s.max < 16
          · rw [if_pos hs2]
            exact ⟨-1, s, rfl, by decide⟩
          · rw [if_neg hs2, hob_iterate_visits _ hc _ _ hf]
            generalize hv : visit (mapEntryCb s.idx) (resources m l) _ = v
            have hne : v.1 ≠ 0 := by
              rw [← hv]
              exact mapVisit_fails _ _ (by dsimp only; omega)
            obtain ⟨r, sv⟩ := v
            unfold advance
            dsimp only at hne ⊢
            rw [if_pos hne]
            dsimp only
            rw [if_pos hne]
            exact ⟨r, sv, rfl, hne⟩
        · obtain ⟨s1, e1, i1, m1, _, _⟩ := addMap_ok hc hf s (by omega) hb
          rw [e1]
          dsimp only
          rw [if_neg (by simp)]
          refine ih _ s1 hr.tail (by omega) ?_
          rcases h with h | ⟨t', ht', h1, h2⟩
          · left; omega
          · rcases List.mem_cons.1 ht' with rfl | h'
            · exact absurd rfl h2
            · exact Or.inr ⟨t', h', h1, h2⟩
      · rw [if_neg h6]
        exact ⟨-1, s, rfl, by decide⟩

/-- **C52, Multiboot2.** A request for anything else, or for more than fits, is refused. -/
theorem mb2_refused {w : Nat} {k m : Mem} {hob hd fuel max t : Nat} {o : Mem} {l kl : List Nat} {rs : List Nat}
    (hw : w = 32 ∨ w = 64) (hc : Chain m hob l) (hf : l.length < fuel) (hk : TagChain k (hd + 16) kl)
    (hkf : kl.length < fuel) (hfind : kl.find? (fun x => le16 k x = 1) = some t)
    (hsize : le32 k (t + 4) = 8 + 4 * rs.length) (hreq : Requests k (t + 8) rs) (hmax' : max < 4294967296)
    (hbad : max < 8 + allBytes (resources m l) rs ∨ ∃ t ∈ rs, t ≠ 4 ∧ t ≠ 6) :
    ∃ r s, mbBuild w k m hob hd fuel max o = some (r, s) ∧ r ≠ 0 := by
  have hlt := le32_lt k (t + 4)
  unfold mbBuild
  by_cases h8 : max < 8
  · rw [if_pos h8]
    exact ⟨-1, _, rfl, by decide⟩
  · obtain ⟨r, s, e, hr⟩ := addTags_fails (k := k) hc hf rs (t + 8) ⟨wr o 4 4 0, 8, max - 8⟩ hreq
      (by dsimp only; omega) (hbad.imp (by dsimp only; omega) id)
    rw [if_neg h8, mb2_find_tag 1 (by decide) hk fuel hkf, hfind]
    dsimp only
    rw [hsize, requested_eq hw (by omega), e]
    unfold finish
    dsimp only
    rw [if_pos hr]
    exact ⟨r, s, rfl, hr⟩

/-- Nothing from `M` on has been written, and what is left of the buffer ends there. -/
def Within (o : Mem) (M : Nat) (s : MbSt) : Prop := s.idx + s.max = M ∧ ∀ x, M ≤ x → s.o x = o x

theorem addBasic_within {m : Mem} {hob fuel M : Nat} {o : Mem} {s s' : MbSt} {r : Int} (h : Within o M s)
    (e : addBasic m hob fuel s = some (r, s')) : (∀ x, M ≤ x → s'.o x = o x) ∧ (r = 0 → Within o M s') := by
  obtain ⟨h1, h2⟩ := h
  unfold addBasic at e
  by_cases hs : s.max < 16
  · rw [if_pos hs] at e
    injection e with e
    injection e with e1 e2
    subst e2
    exact ⟨h2, fun h => absurd h (by omega)⟩
  · rw [if_neg hs] at e
    generalize hv : hobIterate m (basicCb s.idx) fuel hob _ = v at e
    cases v with
    | none => cases e
    | some v =>
      obtain ⟨r1, s1⟩ := v
      have step : ∀ x y z t, (t.idx = s.idx ∧ t.max = s.max - 16 ∧ ∀ x, M ≤ x → t.o x = o x) →
          ((basicCb s.idx x y z t).2.idx = s.idx ∧ (basicCb s.idx x y z t).2.max = s.max - 16 ∧
            ∀ q, M ≤ q → (basicCb s.idx x y z t).2.o q = o q) := by
        intro x y z t ⟨i1, i2, i3⟩
        refine ⟨i1, i2, ?_⟩
        intro q hq
        unfold basicCb
        dsimp only
        split
        · rw [wr_out (by omega)]; exact i3 q hq
        · split
          · rw [wr_out (by omega)]; exact i3 q hq
          · exact i3 q hq
      have inv := hobIterate_inv (fun t : MbSt => t.idx = s.idx ∧ t.max = s.max - 16 ∧ ∀ x, M ≤ x → t.o x = o x)
        step _ _ _ _ _ ?_ hv
      rotate_left
      · refine ⟨rfl, rfl, ?_⟩
        intro q hq
        dsimp only
        rw [wr_out (by omega), wr_out (by omega), wr_out (by omega), wr_out (by omega)]
        exact h2 q hq
      obtain ⟨i1, i2, i3⟩ := inv
      unfold advance at e
      dsimp only at e
      split at e
      · injection e with e
        injection e with e1 e2
        subst e1 e2
        rename_i hr
        exact ⟨i3, fun h => absurd h hr⟩
      · injection e with e
        injection e with e1 e2
        subst e2
        refine ⟨i3, fun _ => ⟨?_, i3⟩⟩
        dsimp only
        omega

theorem addMap_within {m : Mem} {hob fuel M : Nat} {o : Mem} {s s' : MbSt} {r : Int} (hM : M < 4294967296)
    (h : Within o M s) (e : addMap m hob fuel s = some (r, s')) :
    (∀ x, M ≤ x → s'.o x = o x) ∧ (r = 0 → Within o M s') := by
  obtain ⟨h1, h2⟩ := h
  unfold addMap at e
  by_cases hs : s.max < 16
  · rw [if_pos hs] at e
    injection e with e
    injection e with e1 e2
    subst e2
    exact ⟨h2, fun h => absurd h (by omega)⟩
  · rw [if_neg hs] at e
    generalize hv : hobIterate m (mapEntryCb s.idx) fuel hob _ = v at e
    cases v with
    | none => cases e
    | some v =>
      obtain ⟨r1, s1⟩ := v
      have step : ∀ x y z t, (t.idx = s.idx ∧ s.idx + le32 t.o (s.idx + 4) + t.max = M ∧ ∀ x, M ≤ x → t.o x = o x) →
          ((mapEntryCb s.idx x y z t).2.idx = s.idx ∧
            s.idx + le32 (mapEntryCb s.idx x y z t).2.o (s.idx + 4) + (mapEntryCb s.idx x y z t).2.max = M ∧
            ∀ q, M ≤ q → (mapEntryCb s.idx x y z t).2.o q = o q) := by
        intro x y z t ⟨i1, i2, i3⟩
        unfold mapEntryCb
        split
        · exact ⟨i1, i2, i3⟩
        · refine ⟨i1, ?_, ?_⟩
          · dsimp only
            rw [le32_wr]
            omega
          · intro q hq
            dsimp only
            rw [wr_out (by omega), wr_out (by omega), wr_out (by omega), wr_out (by omega), wr_out (by omega)]
            exact i3 q hq
      have inv := hobIterate_inv
        (fun t : MbSt => t.idx = s.idx ∧ s.idx + le32 t.o (s.idx + 4) + t.max = M ∧ ∀ x, M ≤ x → t.o x = o x)
        step _ _ _ _ _ ?_ hv
      rotate_left
      · refine ⟨rfl, ?_, ?_⟩
        · dsimp only
          rw [le32_wr]
          omega
        · intro q hq
          dsimp only
          rw [wr_out (by omega), wr_out (by omega), wr_out (by omega), wr_out (by omega)]
          exact h2 q hq
      obtain ⟨i1, i2, i3⟩ := inv
      unfold advance at e
      dsimp only at e
      split at e
      · injection e with e
        injection e with e1 e2
        subst e1 e2
        rename_i hr
        exact ⟨i3, fun h => absurd h hr⟩
      · injection e with e
        injection e with e1 e2
        subst e2
        refine ⟨i3, fun _ => ⟨?_, i3⟩⟩
        dsimp only
        omega

theorem addTags_within {k m : Mem} {hob fuel M : Nat} {o : Mem} (hM : M < 4294967296) :
    ∀ (n a : Nat) (s s' : MbSt) (r : Int), Within o M s → addTags k m hob fuel n a s = some (r, s') →
      ∀ x, M ≤ x → s'.o x = o x := by
  intro n
  induction n with
  | zero =>
    intro a s s' r h e
    rw [addTags] at e
    injection e with e
    injection e with _ e
    exact e ▸ h.2
  | succ n ih =>
    intro a s s' r h e
    rw [addTags] at e
    generalize ht : addTag m hob fuel (le32 k a) s = v at e
    cases v with
    | none => cases e
    | some v =>
      obtain ⟨r1, s1⟩ := v
      have key : (∀ x, M ≤ x → s1.o x = o x) ∧ (r1 = 0 → Within o M s1) := by
        unfold addTag at ht
        split at ht
        · exact addBasic_within h ht
        · split at ht
          · exact addMap_within hM h ht
          · injection ht with ht
            injection ht with e1 e2
            subst e2
            exact ⟨h.2, fun h => absurd h (by omega)⟩
      dsimp only at e
      split at e
      · injection e with e
        injection e with _ e
        exact e ▸ key.1
      · rename_i hr
        exact ih _ _ _ _ (key.2 (Decidable.byContradiction hr)) e

/-- **C52, Multiboot2.** Whatever the payload asks for and whatever the hand-off blocks contain, nothing
outside of the buffer is written. -/
theorem mb2_stays_in_buffer {w : Nat} {k m : Mem} {hob hd fuel max : Nat} {o : Mem} {r : Int} {s : MbSt}
    (hmax : max < 4294967296) (h : mbBuild w k m hob hd fuel max o = some (r, s)) :
    ∀ x, max ≤ x → s.o x = o x := by
  intro x hx
  unfold mbBuild at h
  by_cases h8 : max < 8
  · rw [if_pos h8] at h
    injection h with h
    injection h with _ h
    rw [← h]
  · rw [if_neg h8] at h
    generalize findTag k 1 fuel (hd + 16) = v at h
    rcases v with _ | _ | t
    · cases h
    · dsimp only at h
      injection h with h
      injection h with _ h
      rw [← h]
      exact wr_out (by omega)
    · dsimp only at h
      generalize hv : addTags k m hob fuel _ (t + 8) _ = v at h
      cases v with
      | none => cases h
      | some v =>
        obtain ⟨r1, s1⟩ := v
        have key := addTags_within (o := o) hmax _ _ _ _ _
          ⟨by dsimp only; omega, fun q hq => by dsimp only; exact wr_out (by omega)⟩ hv
        unfold finish at h
        dsimp only at h
        split at h
        · injection h with h
          injection h with _ h
          rw [← h]
          exact key x hx
        · injection h with h
          injection h with _ h
          rw [← h]
          dsimp only
          rw [wr_out (by omega)]
          exact key x hx

/-! ## Multiboot2: the header of the payload -/

theorem findHdrLoop_spec (k : Mem) (img : Nat) : ∀ (n i : Nat),
    match findHdrLoop k img n i with
    | some a => ∃ j, i ≤ j ∧ j < i + n ∧ a = img + 4 * j ∧ le32 k a = 0xe85250d6 ∧
        ∀ q, i ≤ q → q < j → le32 k (img + 4 * q) ≠ 0xe85250d6
    | none => ∀ q, i ≤ q → q < i + n → le32 k (img + 4 * q) ≠ 0xe85250d6 := by
  intro n
  induction n with
  | zero => intro i; rw [findHdrLoop]; intro q h1 h2; omega
  | succ n ih =>
    intro i
    rw [findHdrLoop]
    by_cases h : le32 k (img + 4 * i) = 0xe85250d6
    · rw [if_pos h]
      exact ⟨i, Nat.le_refl _, by omega, rfl, h, fun q h1 h2 => by omega⟩
    · rw [if_neg h]
      have := ih (i + 1)
      revert this
      cases findHdrLoop k img n (i + 1) with
      | none =>
        intro this q h1 h2
        by_cases hq : q = i
        · rw [hq]; exact h
        · exact this q (by omega) (by omega)
      | some a =>
        rintro ⟨j, h1, h2, h3, h4, h5⟩
        refine ⟨j, by omega, by omega, h3, h4, ?_⟩
        intro q hq1 hq2
        by_cases hq : q = i
        · rw [hq]; exact h
        · exact h5 q (by omega) hq2

/-- **C52, Multiboot2.** The header that is found is the first aligned magic word among the words examined. -/
theorem mb2_find_header {k : Mem} {img size a : Nat} (h : mbFind k img size = some a) :
    ∃ j, j < hdrWords size ∧ a = img + 4 * j ∧ le32 k a = 0xe85250d6 ∧
      ∀ q, q < j → le32 k (img + 4 * q) ≠ 0xe85250d6 := by
  have := findHdrLoop_spec k img (hdrWords size) 0
  unfold mbFind at h
  rw [h] at this
  obtain ⟨j, _, h2, h3, h4, h5⟩ := this
  exact ⟨j, by omega, h3, h4, fun q hq => h5 q (Nat.zero_le _) hq⟩

/-- … and if none is found there is none. -/
theorem mb2_find_header_none {k : Mem} {img size : Nat} (h : mbFind k img size = none) :
    ∀ q, q < hdrWords size → le32 k (img + 4 * q) ≠ 0xe85250d6 := by
  have := findHdrLoop_spec k img (hdrWords size) 0
  unfold mbFind at h
  rw [h] at this
  exact fun q hq => this q (Nat.zero_le _) (by omega)

/-- **Finding.** For an image of more than 8191 and less than 32764 bytes the search goes on behind its end:
a magic word there is taken for the header. -/
theorem mb2_find_overreads {k : Mem} {img size j : Nat} (h1 : 8191 < size) (h2 : size ≤ 4 * j) (h3 : j < 8191)
    (hm : le32 k (img + 4 * j) = 0xe85250d6) (hno : ∀ q, 4 * q < size → le32 k (img + 4 * q) ≠ 0xe85250d6) :
    ∃ a, mbFind k img size = some a ∧ img + size ≤ a := by
  have hw : hdrWords size = 8191 := by
    unfold hdrWords
    rw [if_pos h1]
  cases e : mbFind k img size with
  | none => exact absurd hm (mb2_find_header_none e j (by omega))
  | some a =>
    obtain ⟨i, _, ha, hk, _⟩ := mb2_find_header e
    refine ⟨a, rfl, ?_⟩
    by_cases hi : 4 * i < size
    · rw [ha] at hk
      exact absurd hk (hno i hi)
    · omega

/-- **Finding.** A header has to be aligned to 8 bytes and to have a checksum: a word with the value of the magic
number suffices here, whatever follows it. -/
theorem mb2_find_any_word {k : Mem} {img size : Nat} (hs : 8 ≤ size) (h0 : le32 k img ≠ 0xe85250d6)
    (h : le32 k (img + 4) = 0xe85250d6) : mbFind k img size = some (img + 4) := by
  have hw : 2 ≤ hdrWords size := by
    unfold hdrWords
    split <;> omega
  unfold mbFind
  obtain ⟨n, hn⟩ := Nat.exists_eq_add_of_le hw
  rw [hn, show 2 + n = n + 1 + 1 from by omega, findHdrLoop, Nat.mul_zero, Nat.add_zero, if_neg h0, findHdrLoop]
  rw [show img + 4 * (0 + 1) = img + 4 from by omega, if_pos h]

/-! ## Linux -/

theorem e820Cb_ok {p : Mem} {pre : List Res} {d : Res}
    (hd : d.start < 18446744073709551616 ∧ d.len < 18446744073709551616) (hc : (p 0x1e8).toNat = pre.length)
    (he : Entries p 20 0x2d0 pre) :
    Entries (e820Cb d.start d.len d.typ p).2 20 0x2d0 (pre ++ [d]) ∧
      ∀ x, x ≠ 0x1e8 → (x < 0x2d0 ∨ 0x2d0 + 20 * (pre.length + 1) ≤ x) → (e820Cb d.start d.len d.typ p).2 x = p x := by
  unfold e820Cb e820Inc e820Put
  rw [hc]
  dsimp only
  refine ⟨Entries.snoc (he.congr (by decide) ?_) ?_ ?_ ?_, ?_⟩
  · intro x h1 h2
    rw [wr_out (by omega), wr_out (by omega), wr_out (by omega), wr_out (by omega)]
  · rw [le64_out (by omega), le64_out (by omega), le64_out (by omega), le64_wr]
    exact Nat.mod_eq_of_lt hd.1
  · rw [le64_out (by omega), le64_out (by omega), le64_wr]
    exact Nat.mod_eq_of_lt hd.2
  · rw [le32_out (by omega), le32_wr]
    exact Nat.mod_eq_of_lt (osType_lt d)
  · intro x h1 h2
    rw [wr_out (by omega), wr_out (by omega), wr_out (by omega), wr_out (by omega)]

theorem e820Cb_count (p : Mem) (a b c : Nat) : ((e820Cb a b c p).2 0x1e8).toNat = ((p 0x1e8).toNat + 1) % 256 := by
  have hlt := (p 0x1e8).isLt
  unfold e820Cb e820Inc e820Put
  dsimp only
  have e : ∀ (q : Mem) (v : Nat), wr q 0x1e8 1 v 0x1e8 = BitVec.ofNat 8 v := by
    intro q v
    have := wr_in (o := q) (off := 0x1e8) (n := 1) (v := v) 0 (by decide)
    rw [Nat.add_zero, Nat.pow_zero, Nat.div_one] at this
    exact this
  rw [e, wr_out (by omega), wr_out (by omega), wr_out (by omega), BitVec.toNat_ofNat]

theorem e820_count : ∀ (ds : List Res) (p : Mem),
    (visit e820Cb ds p).1 = 0 ∧ ((visit e820Cb ds p).2 0x1e8).toNat = ((p 0x1e8).toNat + ds.length) % 256 := by
  intro ds
  induction ds with
  | nil =>
    intro p
    have := (p 0x1e8).isLt
    exact ⟨rfl, by show (p 0x1e8).toNat = _; rw [List.length_nil]; omega⟩
  | cons d ds ih =>
    intro p
    have e : visit e820Cb (d :: ds) p = visit e820Cb ds (e820Cb d.start d.len d.typ p).2 := by
      rw [visit, if_neg (by unfold e820Cb; simp)]
    rw [e]
    refine ⟨(ih _).1, ?_⟩
    rw [(ih _).2, e820Cb_count, List.length_cons]
    omega

theorem e820Visit : ∀ (ds pre : List Res) (p : Mem), Small ds → (p 0x1e8).toNat = pre.length →
    Entries p 20 0x2d0 pre → pre.length + ds.length ≤ 256 →
    Entries (visit e820Cb ds p).2 20 0x2d0 (pre ++ ds) ∧
      ∀ x, x ≠ 0x1e8 → (x < 0x2d0 ∨ 0x2d0 + 20 * (pre.length + ds.length) ≤ x) → (visit e820Cb ds p).2 x = p x := by
  intro ds
  induction ds with
  | nil =>
    intro pre p _ _ he _
    exact ⟨by rw [List.append_nil]; exact he, fun _ _ _ => rfl⟩
  | cons d ds ih =>
    intro pre p hsm hc he hb
    rw [List.length_cons] at hb
    have e : visit e820Cb (d :: ds) p = visit e820Cb ds (e820Cb d.start d.len d.typ p).2 := by
      rw [visit, if_neg (by unfold e820Cb; simp)]
    rw [e]
    obtain ⟨n1, f1⟩ := e820Cb_ok (hsm d (List.mem_cons_self ..)) hc he
    by_cases hl : ds = []
    · subst hl
      refine ⟨n1, ?_⟩
      intro x h1 h2
      exact f1 x h1 (by simpa using h2)
    · have : 0 < ds.length := List.length_pos_iff.2 hl
      obtain ⟨n2, f2⟩ := ih (pre ++ [d]) _ (fun x hx => hsm x (List.mem_cons_of_mem _ hx))
        (by rw [e820Cb_count, hc, List.length_append, List.length_singleton]; omega) n1
        (by rw [List.length_append, List.length_singleton]; omega)
      rw [List.append_assoc, List.singleton_append] at n2
      rw [List.length_append, List.length_singleton] at f2
      refine ⟨n2, ?_⟩
      intro x h1 h2
      rw [List.length_cons] at h2
      rw [f2 x h1 (by omega), f1 x h1 (by omega)]

/-- What `load_linux` gives for a well-formed list of blocks. -/
theorem loadLinux_eq {k m : Mem} {hob fuel : Nat} {z : Mem} {l : List Nat} (hc : Chain m hob l)
    (hf : l.length < fuel) :
    loadLinux k m hob fuel z = some (some (linuxTail k (visit e820Cb (resources m l) (copyHdr k z)).2)) := by
  unfold loadLinux e820Fill
  rw [hob_iterate_visits _ hc _ _ hf]
  have h := (e820_count (resources m l) (copyHdr k z)).1
  generalize visit e820Cb (resources m l) (copyHdr k z) = v at h
  obtain ⟨r, p⟩ := v
  dsimp only at h ⊢
  rw [h, if_neg (by simp)]

theorem setHdr_out {p : Mem} {x : Nat} (h1 : x ≠ 0x210) (h2 : x < 0x228 ∨ 0x22c ≤ x) : setHdr p x = p x := by
  unfold setHdr
  rw [wr_out (by omega), wr_out (by omega)]

/-- **C52, Linux.** With at most 128 resources: the kernel gets the memory map of the firmware, its own setup
header (with the loader type and the address of the command line filled in), everything else stays zero; the
protected mode part of the image is loaded and entered at the address of the header. -/
theorem linux_params_partial {k m : Mem} {hob fuel : Nat} {z : Mem} {l : List Nat} (hc : Chain m hob l)
    (hf : l.length < fuel) (hn : (resources m l).length ≤ 128) (hz : ∀ x, x < 4096 → z x = 0) :
    ∃ L, loadLinux k m hob fuel z = some (some L) ∧ E820 L.params (resources m l) ∧
      (∀ x, 0x1f1 ≤ x → x < 0x26c → x ≠ 0x210 → (x < 0x228 ∨ 0x22c ≤ x) → L.params x = k x) ∧
      (L.params 0x210).toNat = 0xff ∧ le32 L.params 0x228 = 0x10000 ∧
      (∀ x, x < 0x1f1 ∧ x ≠ 0x1e8 ∨ 0x26c ≤ x ∧ x < 0x2d0 ∨ 0x2d0 + 20 * (resources m l).length ≤ x ∧ x < 4096 → L.params x = 0) ∧
      (∀ x, 4096 ≤ x → L.params x = z x) ∧
      L.size = le32 k 0x1f4 * 16 % 4294967296 ∧ L.entry = le32 k 0x214 ∧
      ∀ i, L.kernel i = k ((if (k 0x1f1).toNat = 0 then 2560 else ((k 0x1f1).toNat + 1) * 512) + i) := by
  refine ⟨_, loadLinux_eq hc hf, ?_⟩
  generalize hds : resources m l = ds at hn ⊢
  have hsm : Small ds := hds ▸ small_resources m l
  have c0 : copyHdr k z 0x1e8 = 0 := by
    unfold copyHdr
    rw [if_neg (by omega)]
    exact hz _ (by omega)
  obtain ⟨n1, f1⟩ := e820Visit ds [] (copyHdr k z) hsm (by rw [c0]; rfl) (fun i hi => absurd hi (by simp))
    (by rw [List.length_nil]; omega)
  have cnt := (e820_count ds (copyHdr k z)).2
  rw [c0] at cnt
  rw [List.nil_append] at n1
  rw [List.length_nil, Nat.zero_add] at f1
  generalize hp : (visit e820Cb ds (copyHdr k z)).2 = p at n1 f1 cnt ⊢
  have hk : ∀ x, 0x1f1 ≤ x → x < 0x26c → p x = k x := by
    intro x h1 h2
    rw [f1 x (by omega) (by omega)]
    exact if_pos (by omega)
  have hk32 : ∀ a, 0x1f1 ≤ a → a + 4 ≤ 0x26c → le32 p a = le32 k a :=
    fun a h1 h2 => le32_eq (fun i hi => hk _ (by omega) (by omega))
  unfold linuxTail
  dsimp only
  refine ⟨⟨?_, ?_⟩, ?_, ?_, ?_, ?_, ?_, ?_, ?_, ?_⟩
  · rw [setHdr_out (by omega) (by omega), cnt]
    show (0 + ds.length) % 256 = _
    omega
  · exact n1.congr (by decide) (fun x h1 _ => setHdr_out (by omega) (by omega))
  · intro x h1 h2 h3 h4
    rw [setHdr_out h3 h4, hk x h1 h2]
  · unfold setHdr
    rw [wr_out (by omega)]
    have := wr_in (o := p) (off := 0x210) (n := 1) (v := 0xff) 0 (by decide)
    rw [Nat.add_zero] at this
    rw [this]
    rfl
  · unfold setHdr
    rw [le32_wr]
  · intro x hx
    rw [setHdr_out (by omega) (by omega), f1 x (by omega) (by omega)]
    unfold copyHdr
    rw [if_neg (by omega)]
    exact hz x (by omega)
  · intro x hx
    rw [setHdr_out (by omega) (by omega), f1 x (by omega) (by omega)]
    exact if_neg (by omega)
  · unfold kernelSize
    rw [hk32 _ (by omega) (by omega)]
  · exact hk32 _ (by omega) (by omega)
  · intro i
    unfold paramSize
    rw [hk 0x1f1 (by omega) (by omega)]
    by_cases h0 : (k 0x1f1).toNat = 0
    · rw [if_neg (by omega), if_pos h0]
    · rw [if_pos (by omega), if_neg h0]

/-- **Finding.** There is no check of the number of entries. With more than 169 resources (and no more than
256) the table runs over the end of the 4096 bytes of the parameters, on the stack. -/
theorem e820_overflow {k m : Mem} {hob fuel : Nat} {z : Mem} {l : List Nat} (hc : Chain m hob l)
    (hf : l.length < fuel) (hn : 169 < (resources m l).length) (hn' : (resources m l).length ≤ 256)
    (hz : ∀ x, x < 4096 → z x = 0) :
    ∃ L, loadLinux k m hob fuel z = some (some L) ∧ le64 L.params 4100 = ((resources m l)[169]).start := by
  refine ⟨_, loadLinux_eq hc hf, ?_⟩
  have hsm : Small (resources m l) := small_resources m l
  have c0 : copyHdr k z 0x1e8 = 0 := by
    unfold copyHdr
    rw [if_neg (by omega)]
    exact hz _ (by omega)
  obtain ⟨n1, f1⟩ := e820Visit (resources m l) [] (copyHdr k z) hsm (by rw [c0]; rfl) (fun i hi => absurd hi (by simp))
    (by rw [List.length_nil]; omega)
  rw [List.nil_append] at n1
  unfold linuxTail
  dsimp only
  rw [← (n1 169 hn).1]
  exact le64_eq (fun i hi => setHdr_out (by omega) (by omega))

/-- **Finding.** The number of entries is a byte: with 256 resources the kernel is told that there is no memory. -/
theorem e820_count_wraps {k m : Mem} {hob fuel : Nat} {z : Mem} {l : List Nat} (hc : Chain m hob l)
    (hf : l.length < fuel) (hn : (resources m l).length = 256) (hz : ∀ x, x < 4096 → z x = 0) :
    ∃ L, loadLinux k m hob fuel z = some (some L) ∧ L.params 0x1e8 = 0 := by
  refine ⟨_, loadLinux_eq hc hf, ?_⟩
  have c0 : copyHdr k z 0x1e8 = 0 := by
    unfold copyHdr
    rw [if_neg (by omega)]
    exact hz _ (by omega)
  have cnt := (e820_count (resources m l) (copyHdr k z)).2
  rw [c0, hn] at cnt
  unfold linuxTail
  dsimp only
  rw [setHdr_out (by omega) (by omega)]
  exact BitVec.eq_of_toNat_eq cnt

/-- **Finding.** The size of the kernel is taken from the header and not compared with the size of the image that
has been verified: byte `n` of the image is loaded for every `n` up to the size in the header, even when the
image has only `n` bytes. -/
theorem linux_loads_unverified {k m : Mem} {hob fuel : Nat} {z : Mem} {l : List Nat} (hc : Chain m hob l)
    (hf : l.length < fuel) (hn : (resources m l).length ≤ 128) (hz : ∀ x, x < 4096 → z x = 0) (n : Nat)
    (h0 : (k 0x1f1).toNat = 0) (h1 : 2560 ≤ n) (h2 : n < 2560 + le32 k 0x1f4 * 16 % 4294967296) :
    ∃ L, loadLinux k m hob fuel z = some (some L) ∧ n - 2560 < L.size ∧ L.kernel (n - 2560) = k n := by
  obtain ⟨L, e, _, _, _, _, _, _, hs, _, hk⟩ := linux_params_partial (k := k) hc hf hn hz
  refine ⟨L, e, by omega, ?_⟩
  rw [hk, if_pos h0, show 2560 + (n - 2560) = n from by omega]

/-! ## Examples -/

/-- Memory from a list of bytes. -/
def ofBytes (l : List Nat) : Mem := fun x => BitVec.ofNat 8 (l.getD x 0)

/-- Two resources (640 KiB of RAM at 0, 2 MiB of reserved memory at 1 MiB) with another block between them. -/
def exHobs : Mem := ofBytes
  ([3, 0, 48, 0, 0, 0, 0, 0] ++ List.replicate 16 7 ++ [0, 0, 0, 0, 0, 0, 0, 0] ++ [0, 0, 0, 0, 0, 0, 0, 0] ++
      [0, 0, 10, 0, 0, 0, 0, 0] ++
    [4, 0, 16, 0, 0, 0, 0, 0, 9, 9, 9, 9, 9, 9, 9, 9] ++
    [3, 0, 48, 0, 0, 0, 0, 0] ++ List.replicate 16 8 ++ [5, 0, 0, 0, 0, 0, 0, 0] ++ [0, 0, 16, 0, 0, 0, 0, 0] ++
      [0, 0, 32, 0, 0, 0, 0, 0] ++
    [255, 255, 8, 0, 0, 0, 0, 0])

theorem exHobs_chain : Chain exHobs 0 [0, 48, 64] := by
  refine .cons (by decide) (.cons (by decide) (.cons (by decide) (.nil (by decide))))

/-- A payload header with a request for both kinds of information. -/
def exHeader : Mem := ofBytes
  ([0xd6, 0x50, 0x52, 0xe8, 0, 0, 0, 0, 40, 0, 0, 0, 0, 0, 0, 0] ++ [3, 0, 0, 0, 12, 0, 0, 0, 0, 0, 0, 0, 0, 0, 0, 0] ++
    [1, 0, 0, 0, 16, 0, 0, 0, 4, 0, 0, 0, 6, 0, 0, 0] ++ [0, 0, 0, 0, 8, 0, 0, 0])

theorem exHeader_chain : TagChain exHeader 16 [16, 32] :=
  .cons (by decide) (.cons (by decide) (.nil (by decide)))

theorem exHeader_requests : Requests exHeader (32 + 8) [4, 6] := by
  intro i hi
  have : i = 0 ∨ i = 1 := by simp only [List.length_cons, List.length_nil] at hi; omega
  rcases this with rfl | rfl
  · show le32 exHeader (32 + 8 + 4 * 0) = 4
    decide
  · show le32 exHeader (32 + 8 + 4 * 1) = 6
    decide

example : (resources exHobs [0, 48, 64]).map (fun d => (d.start, d.len, osType d)) =
    [(0, 655360, 1), (1048576, 2097152, 2)] := by decide

example (o : Mem) : ∃ s, mbBuild 64 exHeader exHobs 0 0 10 8192 o = some (0, s) ∧ le32 s.o 0 = 88 ∧
    le32 s.o 4 = 0 ∧ Tags s.o (resources exHobs [0, 48, 64]) 8 [4, 6] 88 ∧ ∀ x, 88 ≤ x → s.o x = o x :=
  mb2_info (t := 32) (fuel := 10) (max := 8192) (rs := [4, 6]) (.inr rfl) exHobs_chain (by decide) exHeader_chain (by decide) (by decide) (by decide)
    exHeader_requests (by decide) (by decide) (by decide)

example (o : Mem) : ∃ r s, mbBuild 64 exHeader exHobs 0 0 10 87 o = some (r, s) ∧ r ≠ 0 :=
  mb2_refused (t := 32) (rs := [4, 6]) (.inr rfl) exHobs_chain (by decide) exHeader_chain (by decide) (by decide)
    (by decide) exHeader_requests (by decide) (.inl (by decide))

example (o : Mem) (hz : ∀ x, o x = 0) :
    ∃ s, mbBuild 64 exHeader exHobs 0 0 10 8192 o = some (0, s) ∧ le32 s.o (le32 s.o 0 + 4) = 0 :=
  mb2_no_end_tag (t := 32) (rs := [4, 6]) (.inr rfl) exHobs_chain (by decide) exHeader_chain (by decide) (by decide)
    (by decide) exHeader_requests (by decide) (by decide) (by decide) hz

example (x : Nat) (hx : 8192 ≤ x) (o : Mem) (r : Int) (s : MbSt)
    (h : mbBuild 64 exHeader exHobs 0 0 10 8192 o = some (r, s)) : s.o x = o x :=
  mb2_stays_in_buffer (by decide) h x hx

/-- The reserved range counts as upper memory. -/
example : kbAt (resources exHobs [0, 48, 64]) 0 = 640 ∧ kbAt (resources exHobs [0, 48, 64]) 1048576 = 2048 := by decide

example : topAddress exHobs 10 0 = some none := by rw [top_address exHobs_chain 10 (by decide)]; decide

example : hobFind exHobs (List.replicate 16 8) 10 0 = some (some 64) :=
  hob_find_first _ exHobs_chain 10 (by decide)

example : mbFind exHeader 0 64 = some 0 := by decide

example : ∃ j, j < hdrWords 64 ∧ 0 = 0 + 4 * j ∧ le32 exHeader 0 = 0xe85250d6 ∧
    ∀ q, q < j → le32 exHeader (0 + 4 * q) ≠ 0xe85250d6 := mb2_find_header (by decide)

example : ∃ L, loadLinux (ofBytes [1, 2, 3]) exHobs 0 10 (fun _ => 0) = some (some L) ∧
    E820 L.params (resources exHobs [0, 48, 64]) := by
  obtain ⟨L, e, h, _⟩ := linux_params_partial (k := ofBytes [1, 2, 3]) (z := fun _ => 0) exHobs_chain (fuel := 10) (by decide)
    (by decide) (fun _ _ => rfl)
  exact ⟨L, e, h⟩

/-- Blocks of length 48 up to `n * 48`, then the end. -/
def manyHobs (n : Nat) : Mem := fun x =>
  if x / 48 < n then (if x % 48 = 0 then 3 else if x % 48 = 2 then 48 else 0)
  else 0xff

theorem manyHobs_chain (n : Nat) : ∀ j, j ≤ n → Chain (manyHobs n) (48 * (n - j)) ((List.range j).map fun i => 48 * (n - j + i)) := by
  intro j
  induction j with
  | zero =>
    intro _
    refine .nil ?_
    have e : ∀ y, y < 2 → manyHobs n (48 * (n - 0) + y) = 0xff := by
      intro y hy
      unfold manyHobs
      rw [if_neg (by omega)]
    unfold le16
    have e0 := e 0 (by decide)
    rw [Nat.add_zero] at e0
    rw [e0, e 1 (by decide)]
    rfl
  | succ j ih =>
    intro hj
    have e : ∀ y, y < 48 → manyHobs n (48 * (n - (j + 1)) + y) = if y = 0 then 3 else if y = 2 then 48 else 0 := by
      intro y hy
      unfold manyHobs
      rw [if_pos (by omega), show (48 * (n - (j + 1)) + y) % 48 = y from by omega]
    have e0 := e 0 (by decide)
    rw [Nat.add_zero] at e0
    rw [List.range_succ_eq_map, List.map_cons, Nat.add_zero, List.map_map]
    refine .cons ?_ ?_
    · unfold le16
      rw [e0, e 1 (by decide)]
      decide
    · have el : le16 (manyHobs n) (48 * (n - (j + 1)) + 2) = 48 := by
        unfold le16
        rw [e 2 (by decide), Nat.add_assoc, e 3 (by decide)]
        rfl
      rw [el, show 48 * (n - (j + 1)) + 48 = 48 * (n - j) from by omega]
      have := ih (by omega)
      have hm : List.map ((fun i => 48 * (n - (j + 1) + i)) ∘ Nat.succ) (List.range j) =
          List.map (fun i => 48 * (n - j + i)) (List.range j) := by
        apply List.map_congr_left
        intro i _
        simp only [Function.comp]
        omega
      rw [hm]
      exact this

theorem manyHobs_length (n : Nat) : (resources (manyHobs n) ((List.range n).map fun i => 48 * (n - n + i))).length = n := by
  unfold resources
  rw [List.length_map, List.filter_eq_self.2, List.length_map, List.length_range]
  intro a ha
  obtain ⟨i, hi, rfl⟩ := List.mem_map.1 ha
  have hi' := List.mem_range.1 hi
  have e : ∀ y, y < 2 → manyHobs n (48 * (n - n + i) + y) = if y = 0 then 3 else if y = 2 then 48 else 0 := by
    intro y hy
    unfold manyHobs
    rw [if_pos (by omega), show (48 * (n - n + i) + y) % 48 = y from by omega]
  have e0 := e 0 (by decide)
  rw [Nat.add_zero] at e0
  unfold le16
  rw [e0, e 1 (by decide)]
  decide

/-- There is a list of 170 resources, for the finding about the overflow, … -/
example (k z : Mem) (hz : ∀ x, x < 4096 → z x = 0) : ∃ L v, loadLinux k (manyHobs 170) (48 * (170 - 170)) 200 z = some (some L) ∧
    le64 L.params 4100 = v := by
  have h := manyHobs_chain 170 170 (Nat.le_refl _)
  have hl := manyHobs_length 170
  obtain ⟨L, e, v⟩ := e820_overflow (k := k) (fuel := 200) h (by simp) (by omega) (by omega) hz
  exact ⟨L, _, e, v⟩

/-- … and one of 256. -/
example (k z : Mem) (hz : ∀ x, x < 4096 → z x = 0) : ∃ L, loadLinux k (manyHobs 256) (48 * (256 - 256)) 300 z = some (some L) ∧
    L.params 0x1e8 = 0 :=
  e820_count_wraps (manyHobs_chain 256 256 (Nat.le_refl _)) (by simp) (manyHobs_length 256) hz

example : hobIterate (ofBytes [4, 0, 0, 0]) e820Cb 1000 0 (fun _ => 0) = none :=
  hob_zero_length_endless _ _ (fun _ _ _ _ => rfl) 0 (by decide) (by decide) _ _

example : findTag (ofBytes [2, 0, 0, 0, 0, 0, 0, 0]) 1 1000 0 = none :=
  mb2_zero_tag_endless _ 1 0 (by decide) (by decide) (by decide) (by decide) _

example : 1073741822 ≤ requested 32 4 := mb2_short_request_32 4 (by decide)

example : mbFind (ofBytes [0, 0, 0, 0, 0xd6, 0x50, 0x52, 0xe8]) 0 8 = some 4 :=
  mb2_find_any_word (by decide) (by decide) (by decide)

/-- A magic word right behind an image of 8192 bytes. -/
example : ∃ a, mbFind (fun x => if x = 8192 then 0xd6 else if x = 8193 then 0x50 else if x = 8194 then 0x52
    else if x = 8195 then 0xe8 else 0) 0 8192 = some a ∧ 0 + 8192 ≤ a := by
  refine mb2_find_overreads (j := 2048) (by decide) (by decide) (by decide) (by decide) ?_
  intro q hq
  unfold le32
  simp only [Nat.zero_add]
  rw [if_neg (show ¬ 4 * q = 8192 by omega), if_neg (show ¬ 4 * q = 8193 by omega), if_neg (show ¬ 4 * q = 8194 by omega),
    if_neg (show ¬ 4 * q = 8195 by omega), if_neg (show ¬ 4 * q + 1 = 8192 by omega),
    if_neg (show ¬ 4 * q + 1 = 8193 by omega), if_neg (show ¬ 4 * q + 1 = 8194 by omega),
    if_neg (show ¬ 4 * q + 1 = 8195 by omega), if_neg (show ¬ 4 * q + 2 = 8192 by omega),
    if_neg (show ¬ 4 * q + 2 = 8193 by omega), if_neg (show ¬ 4 * q + 2 = 8194 by omega),
    if_neg (show ¬ 4 * q + 2 = 8195 by omega), if_neg (show ¬ 4 * q + 3 = 8192 by omega),
    if_neg (show ¬ 4 * q + 3 = 8193 by omega), if_neg (show ¬ 4 * q + 3 = 8194 by omega),
    if_neg (show ¬ 4 * q + 3 = 8195 by omega)]
  decide

/-- An image header with a size of 256 paragraphs: byte 4096 is loaded even when the image ends there. -/
example (z : Mem) (hz : ∀ x, x < 4096 → z x = 0) :
    ∃ L, loadLinux (fun x => if x = 0x1f5 then 1 else if x = 4096 then 0x90 else 0) exHobs 0 10 z = some (some L) ∧
      4096 - 2560 < L.size ∧ L.kernel (4096 - 2560) = 0x90 :=
  linux_loads_unverified exHobs_chain (by decide) (by decide) hz 4096 (by decide) (by decide) (by decide)

end Verif.HandOff
