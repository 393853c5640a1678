/-!
# Static pool allocator: `/repo/src/xmalloc.c` (C33)
-/

namespace Verif

/-- `struct xmalloc_slot`, `/repo/src/xmalloc.c:45-49`. -/
structure XSlot where
  addr : Nat
  size : Nat
  inUse : Nat

/-- `XMALLOC`, `/repo/src/xmalloc.c:404-435`: the pool afterwards and the returned address (`none` is `NULL`). The list is the pool up to
its terminating entry. -/
def xmalloc (n : Nat) : List XSlot → List XSlot × Option Nat
  | [] => ([], none)
  | s :: pool =>
    if n = s.size ∧ s.inUse = 0 then ({ s with inUse := s.inUse + 1 } :: pool, some s.addr)
    else
      let r := xmalloc n pool
      (s :: r.1, r.2)

/-- `XFREE`, `/repo/src/xmalloc.c:437-452`. -/
def xfree (p : Nat) : List XSlot → List XSlot
  | [] => []
  | s :: pool => if p = s.addr ∧ s.inUse ≠ 0 then { s with inUse := 0 } :: pool else s :: xfree p pool

/-! ## The pools

Each pool is a list of pairs: the size in the table and the size of the array behind it. `D` is `sizeof(mp_digit)`, `I` is
`sizeof(fp_int)` or `sizeof(mp_int)`, `M` the size of the Montgomery buffer of TFM, `G` is `sizeof(ge448_p2)`, `H` is `HASH_BLOCK_SIZE`. -/

/-- ECC with SP math, `/repo/src/xmalloc.c:69-131,197-225`: `asm` is `WOLFSSL_SP_ARM_CORTEX_M_ASM`, `C` the size of the curve
specification, `P` `MP_POINT_SIZE`, `d0, d1, d2` the digit buffers, `mont` `MP_MONTGOMERY_SIZE`; `big` is ECC384 or ECC521, `cr` cache resistant. -/
def eccPool (asm big cr : Bool) (H C P d0 d1 d2 mont : Nat) : List (Nat × Nat) :=
  [(4 * H, 4 * H), (C, C), (P * 2, P * 2)] ++
  (if asm then [(P * 2, P * 2)] ++ (if big then [(mont, mont)] else [])
   else [(P * 3, P * 2), (d2, d2), (mont, mont)]) ++
  [(P * 17, P * 17), (d0, d0), (d1, d1)] ++ (if cr then [(P, P)] else [])

/-- ECC with TFM, `/repo/src/xmalloc.c:132-195,202-207,226-247`: `E` is `ECC_POINT_SIZE`, `b0, b1` the integer buffers. -/
def tfmPool (H I E b0 b1 M : Nat) : List (Nat × Nat) :=
  [(4 * H, 4 * H), (I, I), (380, 380), (I, I), (I, I), (I, I), (I, I), (I, I), (I, I), (I, I), (I * 5, I * 5),
   (E, E), (E, E), (E, E), (E, E), (E, E), (E, E), (b0, b0), (b1, b1), (M, M)]

/-- Ed25519, `/repo/src/xmalloc.c:254-263`; `sha512_block` is an array of 32-bit words and larger than needed. -/
def ed25519Pool (H : Nat) : List (Nat × Nat) := [(4 * H, 4 * H), (8 * 16, 4 * (8 * 16))]

/-- Ed448, `/repo/src/xmalloc.c:273-287`. -/
def ed448Pool (H G : Nat) : List (Nat × Nat) := [(4 * H, 4 * H), (448, 4 * (448 / 4)), (448, 4 * (448 / 4)), (G, G), (G, G)]

/-- RSA with SP math, `/repo/src/xmalloc.c:295-348`: `A` is `ASNCHECK_BUF_SIZE`. -/
def rsaPool (asm : Bool) (H A d0 d1 : Nat) : List (Nat × Nat) :=
  [(4 * H, 4 * H), (A, A), (d0, d0)] ++ if asm then [] else [(d1, d1)]

/-- RSA with TFM, `/repo/src/xmalloc.c:349-371`. -/
def rsaTfmPool (H A I M : Nat) : List (Nat × Nat) :=
  [(4 * H, 4 * H), (A, A), (I, I), (I * 3, I * 3), (I, I), (I, I), (I * 5, I * 5), (M, M)]

/-- The pool when the linker has put array number `i` at `place i`; nothing is in use. -/
def mkPool (place : Nat → Nat) (t : List (Nat × Nat)) : List XSlot :=
  t.zipIdx.map fun (x, i) => ⟨place i, x.1, 0⟩

/-! ## Specification -/

/-- The arrays are at different places. -/
def Placed (place : Nat → Nat) (t : List (Nat × Nat)) : Prop :=
  ∀ i j (hi : i < t.length) (hj : j < t.length), i < j →
    place i ≠ place j ∧ (place i + (t[i]'hi).2 ≤ place j ∨ place j + (t[j]'hj).2 ≤ place i)

/-- Every array is as large as the table says. -/
def Honest (t : List (Nat × Nat)) : Prop := ∀ x ∈ t, x.1 ≤ x.2

/-- Calls to the allocator. -/
inductive HeapOp where
  | alloc (n : Nat)
  | free (p : Nat)

/-- The client's view: buffers (address, requested size) that were handed out and not yet returned. -/
def heapStep (st : List XSlot × List (Nat × Nat)) : HeapOp → List XSlot × List (Nat × Nat)
  | .alloc n =>
    match xmalloc n st.1 with
    | (pool, some p) => (pool, (p, n) :: st.2)
    | (pool, none) => (pool, st.2)
  | .free p => (xfree p st.1, st.2.filter fun b => b.1 ≠ p)

/-- Two buffers have no byte in common. -/
def NoOverlap (a b : Nat × Nat) : Prop := a.1 + a.2 ≤ b.1 ∨ b.1 + b.2 ≤ a.1

/-! ## Single calls -/

/-- **`XMALLOC`** returns the first free slot of exactly the requested size and marks it; `NULL` exactly if there is none. -/
theorem xmalloc_spec (n : Nat) (pool : List XSlot) :
    ((xmalloc n pool).2 = none ∧ (xmalloc n pool).1 = pool ∧ ∀ s ∈ pool, s.size = n → s.inUse ≠ 0) ∨
    ∃ a s b, pool = a ++ s :: b ∧ s.size = n ∧ s.inUse = 0 ∧ (∀ t ∈ a, t.size = n → t.inUse ≠ 0) ∧
      xmalloc n pool = (a ++ { s with inUse := 1 } :: b, some s.addr) := by
  induction pool with
  | nil => left; exact ⟨rfl, rfl, by simp⟩
  | cons s pool ih =>
    unfold xmalloc
    by_cases h : n = s.size ∧ s.inUse = 0
    · rw [if_pos h]
      right
      exact ⟨[], s, pool, rfl, h.1.symm, h.2, by simp, by simp [h.2]⟩
    · rw [if_neg h]
      dsimp only
      have hs : s.size = n → s.inUse ≠ 0 := fun h1 h2 => h ⟨h1.symm, h2⟩
      rcases ih with ⟨h1, h2, h3⟩ | ⟨a, t, b, h1, h2, h3, h4, h5⟩
      · left
        refine ⟨h1, by rw [h2], fun t ht => ?_⟩
        rcases List.mem_cons.1 ht with rfl | ht
        · exact hs
        · exact h3 t ht
      · right
        refine ⟨s :: a, t, b, by rw [h1]; rfl, h2, h3, fun u hu => ?_, by rw [h5]; rfl⟩
        rcases List.mem_cons.1 hu with rfl | hu
        · exact hs
        · exact h4 u hu

/-- **`XFREE`** clears the slot with this address if it is in use, and does nothing otherwise. -/
theorem xfree_spec (p : Nat) (pool : List XSlot) (hd : (pool.map XSlot.addr).Nodup) :
    xfree p pool = pool.map fun s => if s.addr = p then { s with inUse := 0 } else s := by
  induction pool with
  | nil => rfl
  | cons s pool ih =>
    rw [List.map_cons, List.nodup_cons] at hd
    unfold xfree
    rw [List.map_cons]
    by_cases e : s.addr = p
    · have hrest : pool.map (fun s => if s.addr = p then { s with inUse := 0 } else s) = pool := by
        rw [List.map_congr_left (g := id), List.map_id]
        intro t ht
        rw [if_neg]
        · rfl
        · intro h
          exact hd.1 (List.mem_map.2 ⟨t, ht, by rw [h, e]⟩)
      rw [if_pos e, hrest]
      by_cases h0 : s.inUse = 0
      · rw [if_neg (by simp [h0]), ih hd.2, hrest]
        congr 1
        cases s
        simp at h0
        simp [h0]
      · rw [if_pos ⟨e.symm, h0⟩]
    · rw [if_neg (fun h => e h.1.symm), if_neg e, ih hd.2]

/-! ## Histories -/

/-- XSlot table (addresses and sizes) of a pool. -/
def shape (pool : List XSlot) : List (Nat × Nat) := pool.map fun s => (s.addr, s.size)

theorem shape_xmalloc (n : Nat) (pool : List XSlot) : shape (xmalloc n pool).1 = shape pool := by
  rcases xmalloc_spec n pool with ⟨_, h, _⟩ | ⟨a, s, b, h1, _, _, _, h2⟩
  · rw [h]
  · rw [h2, h1]
    unfold shape
    simp

theorem shape_xfree (p : Nat) (pool : List XSlot) : shape (xfree p pool) = shape pool := by
  induction pool with
  | nil => rfl
  | cons s pool ih =>
    unfold xfree
    split
    · rfl
    · unfold shape at *
      rw [List.map_cons, List.map_cons, ih]

/-- Invariant: the buffers of the client are exactly the slots in use, each once. -/
def HeapInv (st : List XSlot × List (Nat × Nat)) : Prop :=
  (∀ b, b ∈ st.2 ↔ ∃ s ∈ st.1, s.inUse ≠ 0 ∧ b = (s.addr, s.size)) ∧ (st.2.map Prod.fst).Nodup

theorem heapStep_shape (st : List XSlot × List (Nat × Nat)) (o : HeapOp) : shape (heapStep st o).1 = shape st.1 := by
  cases o with
  | alloc n =>
    have := shape_xmalloc n st.1
    unfold heapStep
    dsimp only
    split
    · next h => rw [h] at this; exact this
    · next h => rw [h] at this; exact this
  | free p => exact shape_xfree p st.1

theorem shape_addr (pool : List XSlot) : pool.map XSlot.addr = (shape pool).map Prod.fst := by
  unfold shape
  rw [List.map_map]
  rfl

theorem heapStep_inv (st : List XSlot × List (Nat × Nat)) (hd : ((shape st.1).map Prod.fst).Nodup) (h : HeapInv st) (o : HeapOp) :
    HeapInv (heapStep st o) := by
  rw [← shape_addr] at hd
  obtain ⟨h1, h2⟩ := h
  cases o with
  | alloc n =>
    unfold heapStep
    dsimp only
    rcases xmalloc_spec n st.1 with ⟨h3, h4, _⟩ | ⟨a, s, b, h3, h4, h5, _, h6⟩
    · have : xmalloc n st.1 = (st.1, none) := Prod.ext h4 h3
      rw [this]
      exact ⟨h1, h2⟩
    · rw [h6]
      dsimp only
      have hnotin : ∀ x ∈ st.2, x.1 ≠ s.addr := by
        intro x hx hxa
        obtain ⟨t, ht, hu, hxe⟩ := (h1 x).1 hx
        have hta : t.addr = s.addr := by rw [hxe] at hxa; exact hxa
        rw [h3, List.map_append, List.map_cons, List.nodup_append] at hd
        rw [h3, List.mem_append, List.mem_cons] at ht
        rcases ht with ht | ht | ht
        · exact hd.2.2 t.addr (List.mem_map.2 ⟨t, ht, rfl⟩) s.addr (by simp) hta
        · rw [ht] at hu; exact hu h5
        · have := (List.nodup_cons.1 hd.2.1).1
          exact this (List.mem_map.2 ⟨t, ht, hta⟩)
      refine ⟨fun x => ?_, ?_⟩
      · rw [List.mem_cons, h1 x, h3]
        constructor
        · rintro (hx | ⟨t, ht, hu, hx⟩)
          · exact ⟨_, by simp; right; left; rfl, by simp, by rw [hx, h4]⟩
          · rw [List.mem_append, List.mem_cons] at ht
            rcases ht with ht | ht | ht
            · exact ⟨t, by simp [ht], hu, hx⟩
            · rw [ht] at hu; exact absurd h5 hu
            · exact ⟨t, by simp [ht], hu, hx⟩
        · rintro ⟨t, ht, hu, hx⟩
          rw [List.mem_append, List.mem_cons] at ht
          rcases ht with ht | ht | ht
          · exact .inr ⟨t, by simp [ht], hu, hx⟩
          · left; rw [hx, ht, ← h4]
          · exact .inr ⟨t, by simp [ht], hu, hx⟩
      · rw [List.map_cons, List.nodup_cons]
        refine ⟨fun hm => ?_, h2⟩
        obtain ⟨x, hx, hxa⟩ := List.mem_map.1 hm
        exact hnotin x hx hxa
  | free p =>
    unfold heapStep
    dsimp only
    rw [xfree_spec p st.1 hd]
    refine ⟨fun x => ?_, ?_⟩
    · simp only [List.mem_filter, decide_not, Bool.not_eq_true', decide_eq_false_iff_not, h1 x, List.mem_map]
      constructor
      · rintro ⟨⟨s, hs, hu, hx⟩, hp⟩
        have : s.addr ≠ p := by rw [hx] at hp; exact hp
        exact ⟨s, ⟨s, hs, by rw [if_neg this]⟩, hu, hx⟩
      · rintro ⟨t, ⟨s, hs, ht⟩, hu, hx⟩
        by_cases e : s.addr = p
        · rw [if_pos e] at ht
          rw [← ht] at hu
          exact absurd rfl hu
        · rw [if_neg e] at ht
          subst ht
          exact ⟨⟨s, hs, hu, hx⟩, by rw [hx]; exact e⟩
    · exact (List.filter_sublist.map Prod.fst).nodup h2

/-- The invariant over any sequence of calls. -/
theorem heap_history (ops : List HeapOp) : ∀ (st : List XSlot × List (Nat × Nat)), ((shape st.1).map Prod.fst).Nodup → HeapInv st →
    HeapInv (ops.foldl heapStep st) ∧ shape (ops.foldl heapStep st).1 = shape st.1 := by
  induction ops with
  | nil => intro st _ h; exact ⟨h, rfl⟩
  | cons o ops ih =>
    intro st hd h
    have hs := heapStep_shape st o
    have := ih (heapStep st o) (by rw [hs]; exact hd) (heapStep_inv st hd h o)
    exact ⟨this.1, this.2.trans hs⟩

theorem mem_mkPool {place : Nat → Nat} {t : List (Nat × Nat)} {s : XSlot} :
    s ∈ mkPool place t ↔ ∃ i, ∃ hi : i < t.length, s = ⟨place i, (t[i]'hi).1, 0⟩ := by
  unfold mkPool
  rw [List.mem_map]
  constructor
  · rintro ⟨⟨x, i⟩, h1, h2⟩
    rw [List.mem_zipIdx_iff_getElem?] at h1
    obtain ⟨hi, hx⟩ := List.getElem?_eq_some_iff.1 h1
    dsimp only at hi hx h2
    exact ⟨i, hi, by rw [← h2, hx]⟩
  · rintro ⟨i, hi, h⟩
    exact ⟨(t[i], i), List.mem_zipIdx_iff_getElem?.2 (by simp [hi]), h.symm⟩

theorem mkPool_nodup {place : Nat → Nat} {t : List (Nat × Nat)} (h : Placed place t) :
    ((shape (mkPool place t)).map Prod.fst).Nodup := by
  have he : (shape (mkPool place t)).map Prod.fst = (List.range t.length).map place := by
    unfold shape mkPool
    rw [List.map_map, List.map_map]
    apply List.ext_getElem?
    intro i
    simp only [List.getElem?_map, List.getElem?_zipIdx, List.getElem?_range]
    by_cases hi : i < t.length
    · rw [List.getElem?_eq_getElem hi, List.getElem?_eq_getElem (by simpa using hi)]
      simp
    · rw [List.getElem?_eq_none (by omega), List.getElem?_eq_none (by simp; omega)]
      rfl
  rw [he]
  unfold List.Nodup
  rw [List.pairwise_map]
  rw [List.pairwise_iff_getElem]
  intro i j hi hj hij
  rw [List.length_range] at hi hj
  rw [List.getElem_range, List.getElem_range]
  exact (h i j hi hj hij).1

theorem mem_shape {pool : List XSlot} {x : Nat × Nat} : x ∈ shape pool ↔ ∃ s ∈ pool, x = (s.addr, s.size) := by
  unfold shape
  rw [List.mem_map]
  constructor
  · rintro ⟨s, h1, h2⟩; exact ⟨s, h1, h2.symm⟩
  · rintro ⟨s, h1, h2⟩; exact ⟨s, h1, h2.symm⟩

/-- **Buffers in use**: after any sequence of calls, the buffers handed out and not yet freed have different addresses, and each of
them is one of the arrays, requested with exactly the size in the table. -/
theorem heap_distinct {place : Nat → Nat} {t : List (Nat × Nat)} (hp : Placed place t) (ops : List HeapOp) :
    (((ops.foldl heapStep (mkPool place t, [])).2).map Prod.fst).Nodup ∧
    ∀ b ∈ (ops.foldl heapStep (mkPool place t, [])).2, ∃ i, ∃ hi : i < t.length, b = (place i, (t[i]'hi).1) := by
  have h0 : HeapInv (mkPool place t, []) := by
    refine ⟨fun b => ?_, by simp⟩
    constructor
    · intro h; simp at h
    · rintro ⟨s, hs, hu, _⟩
      obtain ⟨i, hi, rfl⟩ := mem_mkPool.1 hs
      exact absurd rfl hu
  obtain ⟨h1, h2⟩ := heap_history ops (mkPool place t, []) (mkPool_nodup hp) h0
  refine ⟨h1.2, fun b hb => ?_⟩
  obtain ⟨s, hs, _, rfl⟩ := (h1.1 b).1 hb
  have : (s.addr, s.size) ∈ shape (mkPool place t) := by
    rw [← h2]
    exact mem_shape.2 ⟨s, hs, rfl⟩
  obtain ⟨s', hs', he⟩ := mem_shape.1 this
  obtain ⟨i, hi, rfl⟩ := mem_mkPool.1 hs'
  exact ⟨i, hi, he⟩

/-- **Buffers do not overlap** and lie inside of the arrays, after any sequence of calls, if the table is honest about the sizes. -/
theorem heap_safe {place : Nat → Nat} {t : List (Nat × Nat)} (hp : Placed place t) (ht : Honest t) (ops : List HeapOp) :
    ((ops.foldl heapStep (mkPool place t, [])).2).Pairwise NoOverlap ∧
    ∀ b ∈ (ops.foldl heapStep (mkPool place t, [])).2, ∃ i, ∃ hi : i < t.length, b.1 = place i ∧ b.2 ≤ (t[i]'hi).2 := by
  obtain ⟨h1, h2⟩ := heap_distinct hp ops
  constructor
  · unfold List.Nodup at h1
    rw [List.pairwise_map] at h1
    refine h1.imp_of_mem ?_
    intro a b ha hb hne
    obtain ⟨i, hi, rfl⟩ := h2 a ha
    obtain ⟨j, hj, rfl⟩ := h2 b hb
    have hi2 := ht t[i] (List.getElem_mem hi)
    have hj2 := ht t[j] (List.getElem_mem hj)
    unfold NoOverlap
    dsimp only at hne ⊢
    rcases Nat.lt_trichotomy i j with h | h | h
    · have := (hp i j hi hj h).2
      omega
    · subst h
      exact absurd rfl hne
    · have := (hp j i hj hi h).2
      omega
  · intro b hb
    obtain ⟨i, hi, rfl⟩ := h2 b hb
    exact ⟨i, hi, rfl, ht _ (List.getElem_mem hi)⟩

/-- **Freed buffers can be allocated again**: in every state, after `XFREE` of a buffer in use, a request of its size succeeds; and a
request succeeds exactly if an array of this size is not in use. -/
theorem heap_reuse {place : Nat → Nat} {t : List (Nat × Nat)} (hp : Placed place t) (ops : List HeapOp) (n : Nat) :
    let st := ops.foldl heapStep (mkPool place t, [])
    (∀ p, (p, n) ∈ st.2 → (xmalloc n (xfree p st.1)).2 ≠ none) ∧
    ((xmalloc n st.1).2 = none ↔ ∀ i, ∀ hi : i < t.length, (t[i]'hi).1 = n → (place i, n) ∈ st.2) := by
  intro st
  have h0 : HeapInv (mkPool place t, []) := by
    refine ⟨fun b => ?_, by simp⟩
    constructor
    · intro h; simp at h
    · rintro ⟨s, hs, hu, _⟩
      obtain ⟨i, hi, rfl⟩ := mem_mkPool.1 hs
      exact absurd rfl hu
  have hnd := mkPool_nodup hp
  obtain ⟨h1, h2⟩ := heap_history ops (mkPool place t, []) hnd h0
  change HeapInv st at h1
  change shape st.1 = _ at h2
  have hnd' : (st.1.map XSlot.addr).Nodup := by rw [shape_addr, h2]; exact hnd
  constructor
  · intro p hpn hnone
    obtain ⟨s, hs, hu, he⟩ := (h1.1 (p, n)).1 hpn
    rcases xmalloc_spec n (xfree p st.1) with ⟨_, _, h3⟩ | ⟨a, s', b, _, _, _, _, h6⟩
    · rw [xfree_spec p st.1 hnd'] at h3
      have := h3 { s with inUse := 0 } (List.mem_map.2 ⟨s, hs, by
        rw [if_pos]
        exact (congrArg Prod.fst he).symm⟩)
      exact this (congrArg Prod.snd he).symm rfl
    · rw [h6] at hnone
      cases hnone
  · constructor
    · intro hnone i hi hn
      rcases xmalloc_spec n st.1 with ⟨_, _, h3⟩ | ⟨a, s', b, _, _, _, _, h6⟩
      · have hm : (place i, n) ∈ shape st.1 := by
          rw [h2]
          exact mem_shape.2 ⟨⟨place i, t[i].1, 0⟩, mem_mkPool.2 ⟨i, hi, rfl⟩, by rw [hn]⟩
        obtain ⟨s, hs, he⟩ := mem_shape.1 hm
        exact (h1.1 _).2 ⟨s, hs, h3 s hs (congrArg Prod.snd he).symm, he⟩
      · rw [h6] at hnone
        cases hnone
    · intro hall
      rcases xmalloc_spec n st.1 with ⟨h3, _, _⟩ | ⟨a, s, b, h4, h5, h6, _, _⟩
      · exact h3
      · exfalso
        have hs : s ∈ st.1 := by rw [h4]; simp
        have hm : (s.addr, s.size) ∈ shape (mkPool place t) := by
          rw [← h2]
          exact mem_shape.2 ⟨s, hs, rfl⟩
        obtain ⟨s', hs', he⟩ := mem_shape.1 hm
        obtain ⟨i, hi, rfl⟩ := mem_mkPool.1 hs'
        have ha : s.addr = place i := congrArg Prod.fst he
        have hz : s.size = t[i].1 := congrArg Prod.snd he
        have := hall i hi (by omega)
        obtain ⟨u, hu, huse, hue⟩ := (h1.1 _).1 this
        have hua : u.addr = s.addr := by rw [ha]; exact (congrArg Prod.fst hue).symm
        -- addresses are distinct, so `u` is `s`
        have : u = s := by
          rw [h4] at hu hnd'
          rw [List.map_append, List.map_cons, List.nodup_append] at hnd'
          rw [List.mem_append, List.mem_cons] at hu
          rcases hu with hu | hu | hu
          · exact absurd hua (hnd'.2.2 u.addr (List.mem_map.2 ⟨u, hu, rfl⟩) s.addr (by simp))
          · exact hu
          · exact absurd (List.mem_map.2 ⟨u, hu, hua⟩) (List.nodup_cons.1 hnd'.2.1).1
        rw [this] at huse
        exact huse h6

/-- `XFREE` of anything that is not a buffer in use (`NULL`, foreign pointers, double free) changes nothing. -/
theorem xfree_foreign (p : Nat) (pool : List XSlot) (h : ∀ s ∈ pool, s.addr = p → s.inUse = 0) : xfree p pool = pool := by
  induction pool with
  | nil => rfl
  | cons s pool ih =>
    unfold xfree
    rw [if_neg (fun hh => hh.2 (h s (by simp) hh.1.symm)), ih (fun t ht => h t (by simp [ht]))]

/-! ## The pools of wolfBoot -/

/-- All pools but that of ECC with SP math in C are honest, for all sizes. -/
theorem pools_honest (H C P d0 d1 d2 mont I E b0 b1 M G A : Nat) (big cr asm : Bool) :
    Honest (eccPool true big cr H C P d0 d1 d2 mont) ∧ Honest (tfmPool H I E b0 b1 M) ∧ Honest (ed25519Pool H) ∧
    Honest (ed448Pool H G) ∧ Honest (rsaPool asm H A d0 d1) ∧ Honest (rsaTfmPool H A I M) := by
  unfold Honest eccPool tfmPool ed25519Pool ed448Pool rsaPool rsaTfmPool
  refine ⟨?_, ?_, ?_, ?_, ?_, ?_⟩
  · cases big <;> cases cr <;> simp
  · simp
  · simp
  · simp
  · cases asm <;> simp
  · simp

/-- The table of any build that leaves out entries (`sha_block` with SHA3, `mp_buffer1`) is honest as well. -/
theorem Honest.sublist {t u : List (Nat × Nat)} (h : Honest t) (hs : u.Sublist t) : Honest u :=
  fun x hx => h x (hs.subset hx)

/-- The pool for ECC256 with SP math in C, SHA256 and 4-byte digits, `/repo/src/xmalloc.c:70-84,203-225`. -/
def ecc256Pool : List (Nat × Nat) := eccPool false false true 64 72 220 (4 * 18 * 9) (4 * (4 * 9 + 3)) (4 * (2 * 9 * 6)) (8 * 2 * 8)

/-- The arrays one after the other. -/
def rowPlace (t : List (Nat × Nat)) (base i : Nat) : Nat := base + ((t.take i).map Prod.snd).sum

theorem placed_of_fin {place : Nat → Nat} {t : List (Nat × Nat)}
    (h : ∀ i j : Fin t.length, i.1 < j.1 → place i.1 ≠ place j.1 ∧
      (place i.1 + (t[i.1]'i.2).2 ≤ place j.1 ∨ place j.1 + (t[j.1]'j.2).2 ≤ place i.1)) : Placed place t :=
  fun i j hi hj hij => h ⟨i, hi⟩ ⟨j, hj⟩ hij

/-- **Finding**: with ECC and SP math in C, the pool entry of `mp_points_1` claims three points while the array has two
(`/repo/src/xmalloc.c:122,216`): a request for three points returns a buffer that reaches past the array, whatever the layout. -/
theorem ecc256_pool_overflow (place : Nat → Nat) :
    (xmalloc (220 * 3) (mkPool place ecc256Pool)).2 = some (place 3) ∧ ecc256Pool[3]? = some (220 * 3, 220 * 2) ∧ ¬ Honest ecc256Pool := by
  refine ⟨?_, rfl, fun h => ?_⟩
  · simp [ecc256Pool, eccPool, mkPool, xmalloc]
  · have := h (220 * 3, 220 * 2) (by simp [ecc256Pool, eccPool])
    simp at this

/-- …and if the linker puts the arrays one after the other, two buffers in use overlap. -/
theorem ecc256_pool_overlap :
    Placed (rowPlace ecc256Pool 4096) ecc256Pool ∧
    ¬ (([HeapOp.alloc (220 * 3), .alloc 432].foldl heapStep (mkPool (rowPlace ecc256Pool 4096) ecc256Pool, [])).2).Pairwise NoOverlap := by
  refine ⟨?_, ?_⟩
  · exact placed_of_fin (by decide +kernel)
  · unfold NoOverlap
    decide +kernel

/-! ## Examples -/

/-- The hypotheses of `heap_safe` are met by the Ed25519 pool; five calls, the third of which fails. -/
example : Placed (rowPlace (ed25519Pool 64) 4096) (ed25519Pool 64) ∧ Honest (ed25519Pool 64) ∧
    ([HeapOp.alloc 256, .alloc 128, .alloc 256, .free 4096, .alloc 256].foldl heapStep
      (mkPool (rowPlace (ed25519Pool 64) 4096) (ed25519Pool 64), [])).2 = [(4096, 256), (4352, 128)] := by
  refine ⟨?_, ?_, ?_⟩
  · exact placed_of_fin (by decide +kernel)
  · exact (pools_honest 64 0 0 0 0 0 0 0 0 0 0 0 0 0 true true true).2.2.1
  · decide +kernel

end Verif
