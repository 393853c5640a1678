import Verif.PkcsThms

/-!
# PKCS#11 object store: refinement of a map from keys to byte strings, and power loss (C34)
-/

namespace Verif

/-! ## Specification -/

/-- An open handle: the object, whether it is for reading, and the number of bytes in front of the position. -/
structure SHandle where
  key : VKey
  ro : Bool
  off : Nat

/-- A store: contents of the objects, and open handles. -/
structure SState where
  obj : VKey → Option (List Byte)
  hs : Nat → Option SHandle

/-- Operations of the application. `d` is the memory at the buffer. -/
inductive SOp where
  | openR (key : VKey)
  | openW (key : VKey)
  | read (h len : Nat)
  | write (h : Nat) (d : Mem) (len : Nat)
  | close (h : Nat)

/-- Results. -/
inductive SRes where
  | opened (h : Nat)
  | noHandle
  | absent
  | full
  | bytes (b : Option (List Byte))
  | wrote (n : Option Nat)
  | closed
deriving DecidableEq

/-- Another value at one argument. -/
def fset {α β : Type} [DecidableEq α] (f : α → β) (a : α) (b : β) : α → β := fun x => if x = a then b else f x

/-- At least `n` objects exist. -/
def SFull (s : SState) (n : Nat) : Prop := ∃ f : Nat → VKey, (∀ i, i < n → s.obj (f i) ≠ none) ∧ ∀ i j, i < n → j < n → f i = f j → i = j

/-- What the operations do: opening for writing empties the object (or creates it), writing appends, reading goes on at the position. `cap` is the greatest size of an
object, `items` the number of objects that have room. -/
inductive SStep (cap items : Nat) : SState → SOp → SRes → SState → Prop where
  | noHandleR {s key} : (∀ n, n < 16 → s.hs n ≠ none) → SStep cap items s (.openR key) .noHandle s
  | noHandleW {s key} : (∀ n, n < 16 → s.hs n ≠ none) → SStep cap items s (.openW key) .noHandle s
  | openR {s key n} : s.obj key ≠ none → n < 16 → s.hs n = none →
      SStep cap items s (.openR key) (.opened n) ⟨s.obj, fset s.hs n (some ⟨key, true, 0⟩)⟩
  | absent {s key} : s.obj key = none → SStep cap items s (.openR key) .absent s
  | openW {s key n} : n < 16 → s.hs n = none →
      SStep cap items s (.openW key) (.opened n) ⟨fset s.obj key (some []), fset s.hs n (some ⟨key, false, 0⟩)⟩
  | full {s key} : s.obj key = none → SFull s items → SStep cap items s (.openW key) .full s
  | read {s h len key ro off c} : s.hs h = some ⟨key, ro, off⟩ → s.obj key = some c →
      SStep cap items s (.read h len) (.bytes (some ((c.drop off).take len)))
        ⟨s.obj, fset s.hs h (some ⟨key, ro, off + ((c.drop off).take len).length⟩)⟩
  | readBad {s h len} : s.hs h = none → SStep cap items s (.read h len) (.bytes none) s
  | write {s h d len key off c} : s.hs h = some ⟨key, false, off⟩ → s.obj key = some c →
      SStep cap items s (.write h d len) (.wrote (some (min len (cap - c.length))))
        ⟨fset s.obj key (some (c ++ slice d 0 (min len (cap - c.length)))), fset s.hs h (some ⟨key, false, off + min len (cap - c.length)⟩)⟩
  | writeBad {s h d len} : (∀ y, s.hs h = some y → y.ro = true) → SStep cap items s (.write h d len) (.wrote none) s
  | close {s h} : SStep cap items s (.close h) .closed ⟨s.obj, fset s.hs h none⟩

/-- What the application has to respect: identifiers are valid, an object is not opened for writing twice at the same time, and, if objects have more than one sector, a
write does not cross a sector (see `store_write_overshoot`). -/
def SValid (g : VCfg) (s : SState) : SOp → Prop
  | .openR key => key.OK
  | .openW key => key.OK ∧ ∀ h y, s.hs h = some y → y.ro = false → y.key ≠ key
  | .write h _ len => g.ss % g.obj = 0 ∨ ∀ y c, s.hs h = some y → s.obj y.key = some c →
      (8 + c.length) % g.ss + min len (g.obj - 8 - c.length) ≤ g.ss
  | _ => True

/-! ## Implementation -/

/-- One operation of the implementation: result, handles, flash operations. -/
def vStep (g : VCfg) (hs : VHandles) (v : Mem) : SOp → SRes × VHandles × List VOp
  | .openR key =>
    match vOpen g key true hs v with
    | (.ok n, hs', o) => (.opened n, hs', o)
    | (.sessionCount, hs', o) => (.noHandle, hs', o)
    | (.notAvailable, hs', o) => (.absent, hs', o)
    | (.full, hs', o) => (.full, hs', o)
  | .openW key =>
    match vOpen g key false hs v with
    | (.ok n, hs', o) => (.opened n, hs', o)
    | (.sessionCount, hs', o) => (.noHandle, hs', o)
    | (.notAvailable, hs', o) => (.absent, hs', o)
    | (.full, hs', o) => (.full, hs', o)
  | .read h len =>
    match hs h with
    | none => (.bytes none, hs, [])
    | some x => (.bytes (vRead g x len v).1, fset hs h (some (vRead g x len v).2), [])
  | .write h d len =>
    match hs h with
    | none => (.wrote none, hs, [])
    | some x => (.wrote (vWrite g x d len v).1, fset hs h (some (vWrite g x d len v).2.1), (vWrite g x d len v).2.2)
  | .close h => (.closed, fset hs h none, [])

/-! ## Abstraction -/

/-- A handle of the implementation and one of the specification. -/
def HRel (g : VCfg) (v : Mem) : Option VHandle → Option SHandle → Prop
  | none, none => True
  | some x, some y => y.key.OK ∧ ∃ k, VNodeOf g v y.key k ∧ x = ⟨y.ro, g.data (vPos v k), vA k, 8 + y.off⟩ ∧ (y.ro = false → 8 + y.off = vSize v k)
  | _, _ => False

/-- The vault and the handles represent a store. -/
structure VAbs (g : VCfg) (v : Mem) (hs : VHandles) (s : SState) : Prop where
  inv : VInv g v
  bak : VBak g v
  obj : ∀ key, key.OK → s.obj key = vGet g key v
  rel : ∀ h, HRel g v (hs h) (s.hs h)
  once : ∀ h h' y y', s.hs h = some y → s.hs h' = some y' → y.ro = false → y'.ro = false → y.key = y'.key → h = h'

/-! ## Lemmas -/

theorem slice_agree {m x : Mem} {a b n : Nat} (h : ∀ j, j < n → m (a + j) = x (b + j)) : slice m a n = slice x b n := by
  apply List.ext_getElem?
  intro j
  by_cases hj : j < n
  · rw [slice_getElem? _ _ _ _ hj, slice_getElem? _ _ _ _ hj, h j hj]
  · rw [List.getElem?_eq_none (by rw [slice_length]; omega), List.getElem?_eq_none (by rw [slice_length]; omega)]

theorem slice_drop_take (m : Mem) (a n off len : Nat) : ((slice m a n).drop off).take len = slice m (a + off) (min len (n - off)) := by
  apply List.ext_getElem?
  intro j
  by_cases hj : j < min len (n - off)
  · rw [slice_getElem? _ _ _ _ hj, List.getElem?_take_of_lt (by omega), List.getElem?_drop, slice_getElem? _ _ _ _ (by omega), Nat.add_assoc]
  · rw [List.getElem?_eq_none (by rw [List.length_take, List.length_drop, slice_length]; omega), List.getElem?_eq_none (by rw [slice_length]; omega)]

theorem freeHandle_spec {hs : VHandles} : ∀ {n i h : Nat}, vFreeHandle hs n i = some h → i ≤ h ∧ h < i + n ∧ hs h = none := by
  intro n
  induction n with
  | zero => intro i h e; simp [vFreeHandle] at e
  | succ n ih =>
    intro i h e
    unfold vFreeHandle at e
    split at e
    · next hb => obtain rfl := Option.some.inj e; exact ⟨Nat.le_refl _, by omega, by simpa using hb⟩
    · have := ih e; exact ⟨by omega, by omega, this.2.2⟩

theorem freeHandle_none {hs : VHandles} : ∀ {n i : Nat}, vFreeHandle hs n i = none → ∀ j, j < n → hs (i + j) ≠ none := by
  intro n
  induction n with
  | zero => intro i e j hj; omega
  | succ n ih =>
    intro i e j hj
    unfold vFreeHandle at e
    split at e
    · simp at e
    · next hb =>
      cases j with
      | zero => intro h0; rw [Nat.add_zero] at h0; rw [h0] at hb; simp at hb
      | succ j => have := ih e j (by omega); rwa [show i + (j + 1) = i + 1 + j by omega]

theorem freePos_none {v : Mem} : ∀ {n i : Nat}, vFreePos v n i = none → ∀ j, j < n → vBit v (i + j) = true := by
  intro n
  induction n with
  | zero => intro i e j hj; omega
  | succ n ih =>
    intro i e j hj
    unfold vFreePos at e
    split at e
    · simp at e
    · next hb =>
      cases j with
      | zero => simpa using hb
      | succ j => have := ih e j (by omega); rwa [show i + (j + 1) = i + 1 + j by omega]

theorem freeNode_none {v : Mem} : ∀ {n a : Nat}, vFreeNode v n a = none → ∀ j, j < n → le32 v (a + 32 * j) ≠ VNONE := by
  intro n
  induction n with
  | zero => intro a e j hj; omega
  | succ n ih =>
    intro a e j hj
    unfold vFreeNode at e
    split at e
    · simp at e
    · next hb =>
      cases j with
      | zero => simpa using hb
      | succ j => have := ih e j (by omega); rwa [show a + 32 * (j + 1) = a + 32 + 32 * j by omega]

theorem HInv.keyOK {g : VCfg} {v : Mem} (h : HInv g v) {k : Nat} (hk : k < g.nodes) (hu : VUsed v k) : (vKey v k).OK :=
  ⟨le32_lt _ _, le32_lt _ _, le32_lt _ _, hu, h.keys k hk⟩

/-- Everything except one node is as before. -/
theorem get_others {g : VCfg} (w : g.OK) {x v : Mem} (hx : VInv g x) (bx : VBak g x) (hv : VInv g v) (bv : VBak g v) {k0 : Nat}
    (h : ∀ k, k < g.nodes → k ≠ k0 → vKey x k = vKey v k ∧ (VUsed v k → vContent g x k = vContent g v k))
    {key : VKey} (hk : key.OK) (h1 : key ≠ vKey x k0) (h2 : key ≠ vKey v k0) : vGet g key x = vGet g key v := by
  rcases node_or_none g v key with ⟨k, k1, k2⟩ | hno
  · have hne : k ≠ k0 := fun e => h2 (by rw [← k2, e])
    obtain ⟨e1, e2⟩ := h k k1 hne
    rw [hv.get w hk.none ⟨k1, k2⟩, hx.get w hk.none ⟨k1, e1.trans k2⟩, e2 (used_of_key hk.none k2)]
  · have hno' : NoNode g x key := by
      intro k k1 e
      by_cases hkk : k = k0
      · exact h1 (by rw [← e, hkk])
      · exact hno k k1 ((h k k1 hkk).1.symm.trans e)
    rw [(hx.absent w bx hk hno').2, (hv.absent w bv hk hno).2]

/-- Handles are not affected by operations on another object. -/
theorem HRel.keep {g : VCfg} {x v : Mem} {a : Option VHandle} {b : Option SHandle} (h : HRel g v a b)
    (hk : ∀ k, k < g.nodes → VUsed v k → vKey x k = vKey v k ∧ vPos x k = vPos v k)
    (hs : ∀ y k, b = some y → y.ro = false → VNodeOf g v y.key k → vSize x k = vSize v k) : HRel g x a b := by
  cases a with
  | none => cases b with
    | none => exact h
    | some y => exact h
  | some a => cases b with
    | none => exact h
    | some y =>
      obtain ⟨h1, k, h2, h3, h4⟩ := h
      obtain ⟨e1, e2⟩ := hk k h2.1 (used_of_key h1.none h2.2)
      refine ⟨h1, k, ⟨h2.1, e1.trans h2.2⟩, by rw [h3, e2], ?_⟩
      intro hr
      rw [hs y k rfl hr h2]
      exact h4 hr

theorem HRel.isNone {g : VCfg} {v : Mem} {a : Option VHandle} {b : Option SHandle} (h : HRel g v a b) : a = none ↔ b = none := by
  cases a <;> cases b <;> simp_all [HRel]

/-- A write at the end of an object that does not leave the sector: nothing else changes. -/
theorem write_done {g : VCfg} (w : g.OK) {v : Mem} (h : VInv g v) {k : Nat} (hk : k < g.nodes) (hu : VUsed v k) (d : Mem) (len n : Nat)
    (hn : n = min len (g.obj - vSize v k)) (hfit : (g.data (vPos v k) + vSize v k) % g.ss + n ≤ g.ss) :
    ∃ ops, vWrite g ⟨false, g.data (vPos v k), vA k, vSize v k⟩ d len v = (some n, ⟨false, g.data (vPos v k), vA k, vSize v k + n⟩, ops) ∧
      VInv g (vRun v ops) ∧ VBak g (vRun v ops) ∧
      (∀ j, j < g.nodes → vKey (vRun v ops) j = vKey v j ∧ vPos (vRun v ops) j = vPos v j ∧
        vSize (vRun v ops) j = (if j = k then vSize v k + n else vSize v j) ∧
        (VUsed v j → vContent g (vRun v ops) j = if j = k then vContent g v k ++ slice d 0 n else vContent g v j)) := by
  have hlow := h.hdr.low k hk hu
  obtain ⟨dops, v1, e1, e2, e3, e4, _⟩ := write_ops w h hk hu hlow.2.2.2.1 hlow.2.2.2.2 d len n hn hfit
  obtain ⟨hv1, hc1⟩ := write_data w h hk hu (by omega) e3 e4
  obtain ⟨hi, hx, hbx, hnx⟩ := size_done w hv1 hk (s := vSize v k + n) (by omega) (by omega)
  have hd := hdrDone_data g v1 (putW v1 (vA k + 16) (vSize v k + n))
  refine ⟨_, e1, ?_⟩
  rw [vRun_append, e2, run_commit]
  refine ⟨hx, hbx, ?_⟩
  intro j hj
  obtain ⟨f1, f2, f3, f4⟩ := e3.node w hj
  obtain ⟨m1, m2, m3⟩ := hnx j hj
  have hs3 : vSize (hdrDone g v1 (putW v1 (vA k + 16) (vSize v k + n))) j = if j = k then vSize v k + n else vSize v j := by
    rw [m3]
    split
    · rfl
    · exact f3
  refine ⟨m1.trans f1, m2.trans f2, hs3, ?_⟩
  intro uj
  have hlj := h.hdr.low j hj uj
  by_cases hjk : j = k
  · subst hjk
    rw [if_pos rfl] at hs3 ⊢
    have hge := data_ge g (vPos v j)
    show slice (hdrDone g v1 (putW v1 (vA j + 16) (vSize v j + n))) (g.data (vPos (hdrDone g v1 (putW v1 (vA j + 16) (vSize v j + n))) j) + 8)
      (vSize (hdrDone g v1 (putW v1 (vA j + 16) (vSize v j + n))) j - 8) = _
    rw [hs3, m2, f2, show vSize v j + n - 8 = (vSize v j - 8) + n by omega, slice_append]
    congr 1
    · apply slice_congr
      intro i a b
      rw [hd i (by omega), e4 i (by omega), if_neg (by omega)]
    · apply slice_agree
      intro i hi
      rw [hd _ (by omega), e4 _ (by omega), if_pos (by omega)]
      congr 1; omega
  · rw [if_neg hjk] at hs3 ⊢
    rw [← hc1 j hj uj]
    have hge := data_ge g (vPos v j)
    refine content_congr m2 (hs3.trans f3.symm) (by rw [f3]; exact hlj.2.2.2.2) ?_
    rw [f2]
    intro i a b
    exact hd i (by omega)

/-- What opening for writing does: the object is empty, nothing else changes. -/
theorem open_write_done {g : VCfg} (w : g.OK) {v : Mem} (h : VInv g v) (hb : VBak g v) {key : VKey} (hk : key.OK) {hs : VHandles} {n : Nat}
    (hf : vFreeHandle hs 16 0 = some n) :
    (NoNode g v key ∧ vOpen g key false hs v = (.full, hs, []) ∧ (vFreeNode v g.nodes 128 = none ∨ vFreePos v g.items 0 = none)) ∨
    ∃ k0 ops, vOpen g key false hs v = (.ok n, fset hs n (some ⟨false, g.data (vPos (vRun v ops) k0), vA k0, 8⟩), ops) ∧
      VInv g (vRun v ops) ∧ VBak g (vRun v ops) ∧ VNodeOf g (vRun v ops) key k0 ∧ vSize (vRun v ops) k0 = 8 ∧
      (∀ k, k < g.nodes → k ≠ k0 → vKey (vRun v ops) k = vKey v k ∧
        (VUsed v k → vPos (vRun v ops) k = vPos v k ∧ vSize (vRun v ops) k = vSize v k ∧ vContent g (vRun v ops) k = vContent g v k)) ∧
      (VUsed v k0 → vKey v k0 = key ∧ vPos (vRun v ops) k0 = vPos v k0) := by
  have ho := w.table2
  rcases node_or_none g v key with ⟨k, k1, k2⟩ | hno
  · right
    obtain ⟨hi, hx, hbx, hnx⟩ := size_done w h k1 (s := 8) (by omega) (by omega)
    have hd := hdrDone_data g v (putW v (vA k + 16) 8)
    have hrun : vRun v (vCommit g 0 (putW v (vA k + 16) 8)) = hdrDone g v (putW v (vA k + 16) 8) := run_commit _ _ _ _
    refine ⟨k, vCommit g 0 (putW v (vA k + 16) 8), ?_, ?_⟩
    · rw [open_existing w h hk ⟨k1, k2⟩ false hf, hrun, (hnx k k1).2.1]
      rfl
    · rw [hrun]
      refine ⟨hx, hbx, ⟨k1, (hnx k k1).1.trans k2⟩, by rw [(hnx k k1).2.2, if_pos rfl], ?_, fun _ => ⟨k2, (hnx k k1).2.1⟩⟩
      intro j hj hne
      obtain ⟨m1, m2, m3⟩ := hnx j hj
      rw [if_neg hne] at m3
      refine ⟨m1, fun uj => ⟨m2, m3, ?_⟩⟩
      exact content_congr m2 m3 (h.hdr.low j hj uj).2.2.2.2 fun i a _ => hd i (by have := data_ge g (vPos v j); omega)
  · rcases open_new w h hb hk hno hf with ⟨e1, e2⟩ | ⟨k0, p, c1, hc, e⟩
    · exact Or.inl ⟨hno, e1, e2⟩
    · right
      obtain ⟨hi1, hv2, hn1, hn2, hrest⟩ := created w h hk hc
      have hrun : vRun v (vCommit g 0 c1 ++ (vCommit g (g.base p) (vMarked g (hdrDone g v c1) key p) ++
          vCommit g 0 (putW (dataDone g (hdrDone g v c1) (g.base p) (vMarked g (hdrDone g v c1) key p)) (vA k0 + 16) 8))) =
          hdrDone g (dataDone g (hdrDone g v c1) (g.base p) (vMarked g (hdrDone g v c1) key p))
            (putW (dataDone g (hdrDone g v c1) (g.base p) (vMarked g (hdrDone g v c1) key p)) (vA k0 + 16) 8) := by
        rw [vRun_append, vRun_append, run_commit, run_commit, run_commit]
        rfl
      generalize hops : vCommit g 0 c1 ++ (vCommit g (g.base p) (vMarked g (hdrDone g v c1) key p) ++
          vCommit g 0 (putW (dataDone g (hdrDone g v c1) (g.base p) (vMarked g (hdrDone g v c1) key p)) (vA k0 + 16) 8)) = ops at e hrun
      clear hops
      refine ⟨k0, ops, e.trans ?_, ?_⟩
      · rw [hrun]
        generalize dataDone g (hdrDone g v c1) (g.base p) (vMarked g (hdrDone g v c1) key p) = v2 at hv2 hn2 hrest ⊢
        obtain ⟨_, _, _, hnx⟩ := size_done w hv2 hc.node (s := 8) (by omega) (by omega)
        rw [(hnx k0 hc.node).2.1, (hn2 k0 hc.node).2.1, hc.pos0]
        rfl
      · rw [hrun]
        generalize dataDone g (hdrDone g v c1) (g.base p) (vMarked g (hdrDone g v c1) key p) = v2 at hv2 hn2 hrest ⊢
        obtain ⟨hi, hx, hbx, hnx⟩ := size_done w hv2 hc.node (s := 8) (by omega) (by omega)
        have hd := hdrDone_data g v2 (putW v2 (vA k0 + 16) 8)
        refine ⟨hx, hbx, ⟨hc.node, ((hnx k0 hc.node).1.trans (hn2 k0 hc.node).1).trans hc.key0⟩, by rw [(hnx k0 hc.node).2.2, if_pos rfl], ?_, fun hu => absurd hu hc.free⟩
        intro j hj hne
        obtain ⟨m1, m2, m3⟩ := hnx j hj
        obtain ⟨f1, f2, f3⟩ := hn2 j hj
        obtain ⟨q1, q2, q3⟩ := hc.keep j hne
        rw [if_neg hne] at m3
        refine ⟨(m1.trans f1).trans q1, fun uj => ⟨(m2.trans f2).trans q2, (m3.trans f3).trans q3, ?_⟩⟩
        rw [← (hrest j hj hne uj).2.2]
        refine content_congr m2 m3 ?_ fun i a _ => hd i (by have := data_ge g (vPos v2 j); omega)
        rw [f3, q3]; exact (h.hdr.low j hj uj).2.2.2.2

end Verif
