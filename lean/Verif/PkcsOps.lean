import Verif.PkcsInv

/-!
# PKCS#11 object store: commits
-/

namespace Verif

/-! ## Views -/

/-- Equal header sectors. -/
def SameHdr (g : VCfg) (x v : Mem) : Prop := ∀ i, i < g.ss → x i = v i

/-- Equal objects. -/
def SameData (g : VCfg) (x v : Mem) : Prop := ∀ i, 2 * g.ss ≤ i → x i = v i

theorem SameHdr.le32 {g : VCfg} {x v : Mem} (h : SameHdr g x v) {a : Nat} (ha : a + 4 ≤ g.ss) : le32 x a = le32 v a :=
  le32_agree fun i hi => h _ (by omega)

theorem SameHdr.node {g : VCfg} (w : g.OK) {x v : Mem} (h : SameHdr g x v) {k : Nat} (hk : k < g.nodes) :
    vKey x k = vKey v k ∧ vPos x k = vPos v k ∧ vSize x k = vSize v k ∧ (VUsed x k ↔ VUsed v k) := by
  have := w.nodes_le hk
  unfold vKey vPos vSize VUsed
  rw [h.le32 (a := vA k) (by omega), h.le32 (a := vA k + 4) (by omega), h.le32 (a := vA k + 8) (by omega), h.le32 (a := vA k + 12) (by omega),
    h.le32 (a := vA k + 16) (by omega)]
  exact ⟨rfl, rfl, rfl, Iff.rfl⟩

theorem SameHdr.bit {g : VCfg} (w : g.OK) {x v : Mem} (h : SameHdr g x v) {p : Nat} (hp : p < g.items) : vBit x p = vBit v p := by
  have := w.items; have := w.table
  unfold vBit
  rw [h _ (by omega)]

theorem SameHdr.inv {g : VCfg} (w : g.OK) {x v : Mem} (h : SameHdr g x v) (hv : HInv g v) : HInv g x := by
  have ht := w.table
  have hi := w.items
  refine ⟨by rw [h.le32 (by omega)]; exact hv.magic, fun j a b => by rw [h.le32 (by omega)]; exact hv.pad j a b, ?_, ?_, ?_, ?_⟩
  · intro k hk hu
    obtain ⟨e1, e2, e3, e4⟩ := h.node w hk
    have := hv.low k hk (e4.mp hu)
    rw [e2, e3]
    refine ⟨this.1, this.2.1, ?_, this.2.2.2⟩
    rw [h.bit w this.2.1]; exact this.2.2.1
  · intro p hp hb
    rw [h.bit w hp] at hb
    obtain ⟨k, k1, k2, k3⟩ := hv.bits p hp hb
    obtain ⟨e1, e2, e3, e4⟩ := h.node w k1
    exact ⟨k, k1, e4.mpr k2, by rw [e2]; exact k3⟩
  · intro k hk
    rw [show Verif.le32 x (vA k) = Verif.le32 v (vA k) from congrArg VKey.tok (h.node w hk).1]
    exact hv.keys k hk
  · intro j k hj hk uj uk hne
    obtain ⟨e1, e2, e3, e4⟩ := h.node w hj
    obtain ⟨f1, f2, f3, f4⟩ := h.node w hk
    rw [e1, e2, f1, f2]
    exact hv.uniq j k hj hk (e4.mp uj) (f4.mp uk) hne

theorem SameHdr.noNode {g : VCfg} (w : g.OK) {x v : Mem} (h : SameHdr g x v) {key : VKey} (hv : NoNode g v key) : NoNode g x key := by
  intro k hk
  rw [(h.node w hk).1]
  exact hv k hk

theorem data_ge (g : VCfg) (p : Nat) : 2 * g.ss ≤ g.data p := by unfold VCfg.data; omega

theorem mark_congr {g : VCfg} (w : g.OK) {x v : Mem} {p : Nat} {key : VKey} (h : ∀ i, g.data p ≤ i → i < g.data p + g.obj → x i = v i) :
    VMark g x p key ↔ VMark g v p key := by
  have := w.table2
  unfold VMark
  rw [le32_congr (x := v) fun i a b => h i (by omega) (by omega), le32_congr (x := v) fun i a b => h i (by omega) (by omega)]

theorem content_congr {g : VCfg} {x v : Mem} {k : Nat} (hp : vPos x k = vPos v k) (hs : vSize x k = vSize v k) (hle : vSize v k ≤ g.obj)
    (h : ∀ i, g.data (vPos v k) ≤ i → i < g.data (vPos v k) + g.obj → x i = v i) : vContent g x k = vContent g v k := by
  unfold vContent
  rw [hp, hs]
  exact slice_congr fun i h1 h2 => h _ (by omega) (by omega)

/-- What is read from a marked object. -/
theorem HInv.get {g : VCfg} (w : g.OK) {v : Mem} (h : HInv g v) {key : VKey} (hk : key.tok ≠ VNONE) {k : Nat} (hn : k < g.nodes) (he : vKey v k = key)
    (hm : VMark g v (vPos v k) key) : vFind g key v = (some (g.data (vPos v k)), []) ∧ vGet g key v = some (vContent g v k) := by
  have hl := h.low k hn (used_of_key hk he)
  rw [vGet_ok h.magic]
  exact getAt_found w (h.node hk hn he) hm hl.2.2.2.1 hl.2.2.2.2

theorem HInv.absent {g : VCfg} (w : g.OK) {v : Mem} (h : HInv g v) (hb : VBak g v) {key : VKey} (hk : key.OK) (hn : NoNode g v key) :
    vFind g key v = (none, []) ∧ vGet g key v = none := by
  rw [vGet_ok h.magic]
  exact getAt_none (scan_absent w hk hb hn)

/-! ## Header updates -/

theorem vA_ne {j k : Nat} (h : j ≠ k) : vA j + 32 ≤ vA k ∨ vA k + 32 ≤ vA j := by unfold vA; omega

/-- `update_store_size` in `cached_sector`. -/
theorem hinv_size {g : VCfg} (w : g.OK) {v : Mem} (h : HInv g v) {k0 s : Nat} (_hk : k0 < g.nodes) (h8 : 8 ≤ s) (hs : s ≤ g.obj) :
    HInv g (putW v (vA k0 + 16) s) ∧
    (∀ k, vKey (putW v (vA k0 + 16) s) k = vKey v k ∧ vPos (putW v (vA k0 + 16) s) k = vPos v k ∧
      vSize (putW v (vA k0 + 16) s) k = if k = k0 then s else vSize v k) := by
  have hobj := w.obj
  have ht := w.table
  have hi := w.items
  have key : ∀ k, vKey (putW v (vA k0 + 16) s) k = vKey v k ∧ vPos (putW v (vA k0 + 16) s) k = vPos v k ∧
      vSize (putW v (vA k0 + 16) s) k = if k = k0 then s else vSize v k := by
    intro k
    have hz : vA k + 32 ≤ vA k0 ∨ vA k0 + 32 ≤ vA k ∨ k = k0 := by unfold vA; omega
    unfold vKey vPos vSize
    rw [le32_putW_out (b := vA k) (by rcases hz with h | h | h <;> [omega; omega; (subst h; omega)]),
      le32_putW_out (b := vA k + 4) (by rcases hz with h | h | h <;> [omega; omega; (subst h; omega)]),
      le32_putW_out (b := vA k + 8) (by rcases hz with h | h | h <;> [omega; omega; (subst h; omega)]),
      le32_putW_out (b := vA k + 12) (by rcases hz with h | h | h <;> [omega; omega; (subst h; omega)])]
    refine ⟨rfl, rfl, ?_⟩
    by_cases hk : k = k0
    · rw [if_pos hk, hk]; exact le32_putW _ _ _ (by omega)
    · rw [if_neg hk]; exact le32_putW_out (by omega)
  have hbit : ∀ p, p < g.items → vBit (putW v (vA k0 + 16) s) p = vBit v p := by
    intro p hp
    unfold vBit
    rw [putW_out (by unfold vA; omega)]
  have hused : ∀ k, VUsed (putW v (vA k0 + 16) s) k ↔ VUsed v k := by
    intro k
    have : le32 (putW v (vA k0 + 16) s) (vA k) = le32 v (vA k) := congrArg VKey.tok (key k).1
    unfold VUsed
    rw [this]
  refine ⟨⟨?_, ?_, ?_, ?_, ?_, ?_⟩, key⟩
  · rw [le32_putW_out (by unfold vA; omega)]; exact h.magic
  · intro j a b
    rw [le32_putW_out (by unfold vA; omega)]; exact h.pad j a b
  · intro k hk hu
    have := h.low k hk ((hused k).mp hu)
    rw [(key k).2.1, (key k).2.2, hbit _ this.2.1]
    refine ⟨this.1, this.2.1, this.2.2.1, ?_⟩
    split
    · exact ⟨h8, hs⟩
    · exact this.2.2.2
  · intro p hp hb
    rw [hbit p hp] at hb
    obtain ⟨k, k1, k2, k3⟩ := h.bits p hp hb
    exact ⟨k, k1, (hused k).mpr k2, by rw [(key k).2.1]; exact k3⟩
  · intro k hk
    rw [show le32 (putW v (vA k0 + 16) s) (vA k) = le32 v (vA k) from congrArg VKey.tok (key k).1]
    exact h.keys k hk
  · intro j k hj hk uj uk hne
    rw [(key j).1, (key j).2.1, (key k).1, (key k).2.1]
    exact h.uniq j k hj hk ((hused j).mp uj) ((hused k).mp uk) hne

theorem bit_put_other (c : Mem) (p q : Nat) (h : q ≠ p) : vBit (vBitPut c p true) q = vBit c q := by
  unfold vBit vBitPut
  by_cases he : 4 + q / 8 = 4 + p / 8
  · rw [if_pos he]
    simp only [if_true, BitVec.getLsbD_or, BitVec.getLsbD_shiftLeft]
    have h8 : q % 8 < 8 := Nat.mod_lt _ (by omega)
    have hne : q % 8 ≠ p % 8 := by omega
    by_cases hlt : q % 8 < p % 8
    · simp [hlt]
    · have : q % 8 - p % 8 ≠ 0 := by omega
      simp [this]
  · rw [if_neg he]

theorem le32_lt' (m : Mem) (a : Nat) : le32 m a < 4294967296 := le32_lt m a

/-- `create_object` in `cached_sector`. -/
theorem hinv_create {g : VCfg} (w : g.OK) {v : Mem} (h : HInv g v) {key : VKey} (hk : key.OK) (hno : NoNode g v key) {a p : Nat}
    (ha : vFreeNode v g.nodes 128 = some a) (hp : vFreePos v g.items 0 = some p) :
    ∃ k0, a = vA k0 ∧ k0 < g.nodes ∧ p < g.items ∧ ¬ VUsed v k0 ∧ HInv g (vBitPut (vNode v a key p) p true) ∧
      (∀ k, k < g.nodes → VUsed v k → vPos v k ≠ p) ∧
      vKey (vBitPut (vNode v a key p) p true) k0 = key ∧ vPos (vBitPut (vNode v a key p) p true) k0 = p ∧
      vSize (vBitPut (vNode v a key p) p true) k0 = 8 ∧
      ∀ k, k ≠ k0 → vKey (vBitPut (vNode v a key p) p true) k = vKey v k ∧ vPos (vBitPut (vNode v a key p) p true) k = vPos v k ∧
        vSize (vBitPut (vNode v a key p) p true) k = vSize v k := by
  have ht := w.table
  have hit := w.items
  have hobj := w.table2
  obtain ⟨k0, a1, a2, a3, a4⟩ := vFreeNode_some ha
  obtain ⟨p1, p2, p3⟩ := vFreePos_spec hp
  obtain rfl : a = vA k0 := a2
  have hfree : ∀ k, k < g.nodes → VUsed v k → vPos v k ≠ p := by
    intro k k1 k2 e
    have := (h.low k k1 k2).2.2.1
    rw [e, p3] at this
    simp at this
  have hk0 : k0 < g.items := by
    apply inj_bound (f := fun i => vPos v i) (p := p)
    · intro i hi
      have hu : VUsed v i := a4 i hi
      exact ⟨(h.low i (by omega) hu).2.1, hfree i (by omega) hu⟩
    · omega
    · intro i j hi hj e
      by_cases hij : i = j
      · exact hij
      · exact absurd e (h.uniq i j (by omega) (by omega) (a4 i hi) (a4 j hj) hij).1
  generalize hc : vBitPut (vNode v (vA k0) key p) p true = c
  have hout : ∀ b, 32 ≤ b → (b + 4 ≤ vA k0 ∨ vA k0 + 20 ≤ b) → le32 c b = le32 v b := by
    intro b b1 b2
    rw [← hc, le32_bitPut (by omega)]
    unfold vNode
    rw [le32_putW_out (by omega), le32_putW_out (by omega), le32_putW_out (by omega), le32_putW_out (by omega), le32_putW_out (by omega)]
  have h128 : 128 ≤ vA k0 := by unfold vA; omega
  have n0 : le32 c (vA k0) = key.tok := by
    rw [← hc, le32_bitPut (by omega)]
    unfold vNode
    rw [le32_putW_out (by omega), le32_putW_out (by omega), le32_putW_out (by omega)]
    exact le32_putW _ _ _ hk.tok
  have n4 : le32 c (vA k0 + 4) = key.oid := by
    rw [← hc, le32_bitPut (by omega)]
    unfold vNode
    rw [le32_putW_out (by omega), le32_putW_out (by omega)]
    exact le32_putW _ _ _ hk.oid
  have n8 : le32 c (vA k0 + 8) = key.typ := by
    rw [← hc, le32_bitPut (by omega)]
    unfold vNode
    rw [le32_putW_out (by omega)]
    exact le32_putW _ _ _ hk.typ
  have n12 : le32 c (vA k0 + 12) = p := by
    rw [← hc, le32_bitPut (by omega)]
    unfold vNode
    rw [le32_putW_out (by omega), le32_putW_out (by omega), le32_putW_out (by omega), le32_putW_out (by omega)]
    exact le32_putW _ _ _ (by omega)
  have n16 : le32 c (vA k0 + 16) = 8 := by
    rw [← hc, le32_bitPut (by omega)]
    unfold vNode
    exact le32_putW _ _ _ (by omega)
  have hkey0 : vKey c k0 = key := by unfold vKey; rw [n0, n4, n8]
  have hother : ∀ k, k ≠ k0 → vKey c k = vKey v k ∧ vPos c k = vPos v k ∧ vSize c k = vSize v k := by
    intro k hk
    have hz := vA_ne hk
    have : 128 ≤ vA k := by unfold vA; omega
    unfold vKey vPos vSize
    rw [hout (vA k) (by omega) (by omega), hout (vA k + 4) (by omega) (by omega), hout (vA k + 8) (by omega) (by omega),
      hout (vA k + 12) (by omega) (by omega), hout (vA k + 16) (by omega) (by omega)]
    exact ⟨rfl, rfl, rfl⟩
  have hused : ∀ k, k ≠ k0 → (VUsed c k ↔ VUsed v k) := by
    intro k hk
    have : le32 c (vA k) = le32 v (vA k) := congrArg VKey.tok (hother k hk).1
    unfold VUsed
    rw [this]
  have hbitp : vBit c p = true := by rw [← hc]; exact bit_set _ _
  have hnode : ∀ i, i < 32 → vNode v (vA k0) key p i = v i := by
    intro i hi
    unfold vNode
    rw [putW_out (by omega), putW_out (by omega), putW_out (by omega), putW_out (by omega), putW_out (by omega)]
  have hbit : ∀ q, q < g.items → q ≠ p → vBit c q = vBit v q := by
    intro q hq hne
    rw [← hc, bit_put_other _ _ _ hne]
    unfold vBit
    rw [hnode _ (by omega)]
  refine ⟨k0, rfl, a1, by omega, fun hu => hu a3, ⟨?_, ?_, ?_, ?_, ?_, ?_⟩, hfree, hkey0, n12, n16, hother⟩
  · rw [← h.magic, ← hc, le32_bitPut (by omega)]
    exact le32_agree fun i hi => hnode _ (by omega)
  · intro j j1 j2
    rw [hout (32 * j) (by omega) (by omega)]
    exact h.pad j j1 j2
  · intro k hkn hu
    by_cases hkk : k = k0
    · subst hkk
      rw [show vPos c k = p from n12, show vSize c k = 8 from n16]
      exact ⟨hk0, by omega, hbitp, by omega, by omega⟩
    · have hl := h.low k hkn ((hused k hkk).mp hu)
      rw [(hother k hkk).2.1, (hother k hkk).2.2]
      refine ⟨hl.1, hl.2.1, ?_, hl.2.2.2⟩
      rw [hbit _ hl.2.1 (hfree k hkn ((hused k hkk).mp hu))]
      exact hl.2.2.1
  · intro q hq hb
    by_cases hqp : q = p
    · exact ⟨k0, a1, by unfold VUsed; rw [n0]; exact hk.none, by rw [hqp]; exact n12⟩
    · rw [hbit q hq hqp] at hb
      obtain ⟨k, k1, k2, k3⟩ := h.bits q hq hb
      have hne : k ≠ k0 := fun e => by subst e; exact k2 a3
      exact ⟨k, k1, (hused k hne).mpr k2, by rw [(hother k hne).2.1]; exact k3⟩
  · intro k hkn
    by_cases hkk : k = k0
    · rw [hkk, n0]; exact hk.magic
    · rw [show le32 c (vA k) = le32 v (vA k) from congrArg VKey.tok (hother k hkk).1]
      exact h.keys k hkn
  · intro j k hj hkn uj uk hne
    by_cases hj0 : j = k0
    · have hk0' : k ≠ k0 := by omega
      rw [hj0, show vPos c k0 = p from n12, hkey0, (hother k hk0').1, (hother k hk0').2.1]
      exact ⟨(hfree k hkn ((hused k hk0').mp uk)).symm, (hno k hkn).symm⟩
    · by_cases hkk0 : k = k0
      · rw [hkk0, show vPos c k0 = p from n12, hkey0, (hother j hj0).1, (hother j hj0).2.1]
        exact ⟨hfree j hj ((hused j hj0).mp uj), hno j hj⟩
      · rw [(hother j hj0).1, (hother j hj0).2.1, (hother k hkk0).1, (hother k hkk0).2.1]
        exact h.uniq j k hj hkn ((hused j hj0).mp uj) ((hused k hkk0).mp uk) hne

/-! ## Header commits -/

/-- The vault after the commit of a header sector. -/
def hdrDone (g : VCfg) (v c : Mem) : Mem := vPut (vPut v g.ss g.ss c) 0 g.ss c

theorem hdrDone_hdr (g : VCfg) (v c : Mem) : SameHdr g (hdrDone g v c) c := by
  intro i hi
  unfold hdrDone
  rw [vPut_in (by omega) (by omega), Nat.sub_zero]

theorem hdrDone_data (g : VCfg) (v c : Mem) : SameData g (hdrDone g v c) v := by
  intro i hi
  unfold hdrDone
  by_cases h0 : g.ss = 0
  · rw [vPut_out (by omega), vPut_out (by omega)]
  · rw [vPut_out (by omega), vPut_out (by omega)]

theorem bak_of_hdr {g : VCfg} (w : g.OK) {x c : Mem} (hc : HInv g c) (h : ∀ i, i < g.ss → x (g.ss + i) = c i) : VBak g x := by
  have ht := w.table
  intro j hj
  have : le32 x (g.ss + 32 * j) = le32 c (32 * j) := le32_agree fun i hi => by rw [Nat.add_assoc]; exact h _ (by omega)
  rw [this]
  by_cases h0 : j = 0
  · right; rw [h0]; exact hc.magic
  · left; exact hc.pad j (by omega) hj

theorem hdrDone_bak {g : VCfg} (w : g.OK) (v : Mem) {c : Mem} (hc : HInv g c) : VBak g (hdrDone g v c) := by
  apply bak_of_hdr w hc
  intro i hi
  unfold hdrDone
  rw [vPut_out (by omega), vPut_in (by omega) (by omega), Nat.add_sub_cancel_left]

theorem bak_ff {g : VCfg} (w : g.OK) (v : Mem) : VBak g (vPut v g.ss g.ss vFF) := by
  have ht := w.table
  intro j hj
  left
  exact le32_ff fun i hi => vPut_in (by omega) (by omega)

/-- Interrupted commits of a header sector: the new header is in force (perhaps after recovery), or the old one is and the backup sector does not
look like a node. -/
theorem header_crash {g : VCfg} (w : g.OK) {v c : Mem} (hc : HInv g c) {l : List VOp} (h : l <+: vCommit g 0 c) :
    (∀ key, vGet g key (vRun v l) = vGet g key (hdrDone g v c)) ∨
    (SameHdr g (vRun v l) v ∧ SameData g (vRun v l) v ∧ (vRun v l = v ∨ VBak g (vRun v l))) := by
  have ht := w.table
  rcases commit_prefix (v := v) h with e | e | e | e | e
  · right; rw [e]; exact ⟨fun _ _ => rfl, fun _ _ => rfl, Or.inl rfl⟩
  · right; rw [e]
    exact ⟨fun i hi => vPut_out (by omega), fun i hi => vPut_out (by omega), Or.inr (bak_ff w v)⟩
  · right; rw [e]
    refine ⟨fun i hi => vPut_out (by omega), fun i hi => vPut_out (by omega), Or.inr (bak_of_hdr w hc ?_)⟩
    intro i hi
    rw [vPut_in (by omega) (by omega), Nat.add_sub_cancel_left]
  · left
    intro key
    rw [e]
    generalize hx : vPut (vPut v g.ss g.ss c) 0 g.ss vFF = x
    have hm0 : le32 x 0 ≠ VMAGIC := by
      rw [← hx, le32_ff fun i hi => vPut_in (by omega) (by omega)]
      decide
    have hb : ∀ i, i < g.ss → x (g.ss + i) = c i := by
      intro i hi
      rw [← hx, vPut_out (by omega), vPut_in (by omega) (by omega), Nat.add_sub_cancel_left]
    have hm1 : le32 x g.ss = VMAGIC := by
      rw [← hc.magic]
      exact le32_agree fun i hi => by rw [hb i (by omega), Nat.zero_add]
    have hr : vRun x (vCheck g x) = hdrDone g v c := by
      unfold vCheck
      rw [if_neg hm0, if_pos hm1, run_restore g x 0 (by omega)]
      funext i
      by_cases hi : i < g.ss
      · rw [vPut_in (by omega) (by omega), Nat.sub_zero, hb i hi]
        exact (hdrDone_hdr g v c i hi).symm
      · rw [vPut_out (by omega), ← hx, vPut_out (by omega)]
        unfold hdrDone
        exact (vPut_out (by omega)).symm
    rw [vGet_eq, hr, vGet_ok]
    rw [(hdrDone_hdr g v c).le32 (by omega)]
    exact hc.magic
  · left
    intro key
    rw [e]; rfl

/-! ## Data commits -/

/-- The vault after the commit of a sector with objects. -/
def dataDone (g : VCfg) (v : Mem) (base : Nat) (c : Mem) : Mem := vPut (vPut v g.ss g.ss c) base g.ss c

theorem dataDone_hdr {g : VCfg} {v c : Mem} {base : Nat} (hb : 2 * g.ss ≤ base) : SameHdr g (dataDone g v base c) v := by
  intro i hi
  unfold dataDone
  rw [vPut_out (by omega), vPut_out (by omega)]

theorem dataDone_at {g : VCfg} {v c : Mem} {base i : Nat} (hi : 2 * g.ss ≤ i) :
    dataDone g v base c i = if base ≤ i ∧ i < base + g.ss then c (i - base) else v i := by
  unfold dataDone
  by_cases h : base ≤ i ∧ i < base + g.ss
  · rw [if_pos h, vPut_in h.1 h.2]
  · rw [if_neg h, vPut_out (by omega), vPut_out (by omega)]

/-- Interrupted commits of a sector with objects, for an object that is marked before and after: the old or the new content is read. -/
theorem data_crash {g : VCfg} (w : g.OK) {v c : Mem} (hv : HInv g v) {p : Nat} {key : VKey} (hk : key.tok ≠ VNONE) {k : Nat} (hn : k < g.nodes)
    (he : vKey v k = key) (hx : VMark g (dataDone g v (g.base p) c) (vPos v k) key) {l : List VOp} (h : l <+: vCommit g (g.base p) c) :
    vGet g key (vRun v l) = some (vContent g (dataDone g v (g.base p) c) k) ∨
      (SameHdr g (vRun v l) v ∧ SameData g (vRun v l) v ∧
        (vRun v l = v ∨ vRun v l = vPut v g.ss g.ss vFF ∨ vRun v l = vPut v g.ss g.ss c)) := by
  have ht := w.table
  obtain ⟨hbio, hbase⟩ := g.base_io w p
  have hl := hv.low k hn (used_of_key hk he)
  have hdx := dataDone_hdr (v := v) (c := c) hbase
  have ex := hdx.node w hn
  rcases commit_prefix (v := v) h with e | e | e | e | e
  · right; rw [e]; exact ⟨fun _ _ => rfl, fun _ _ => rfl, Or.inl rfl⟩
  · right; rw [e]
    exact ⟨fun i hi => vPut_out (by omega), fun i hi => vPut_out (by omega), Or.inr (Or.inl rfl)⟩
  · right; rw [e]
    exact ⟨fun i hi => vPut_out (by omega), fun i hi => vPut_out (by omega), Or.inr (Or.inr rfl)⟩
  · left
    rw [e]
    generalize hy : vPut (vPut v g.ss g.ss c) (g.base p) g.ss vFF = y
    have hyh : SameHdr g y v := by
      intro i hi
      rw [← hy, vPut_out (by omega), vPut_out (by omega)]
    have ey := hyh.node w hn
    have hyi := hyh.inv w hv
    have hkey : vKey y k = key := by rw [ey.1]; exact he
    rcases g.sector_cases w p (vPos v k) with hs | ⟨_, hs⟩
    · obtain ⟨hqio, _⟩ := g.base_io w (vPos v k)
      obtain ⟨hio8, _⟩ := g.io_mark w (vPos v k)
      have hyb : ∀ i, i < g.ss → y (g.ss + i) = c i := by
        intro i hi
        rw [← hy, vPut_out (by omega), vPut_in (by omega) (by omega), Nat.add_sub_cancel_left]
      have hbad : ¬ VMark g y (vPos y k) key := by
        rw [ey.2.1]
        intro hm
        have := hm.1
        rw [le32_ff fun i hi => by rw [← hy]; exact vPut_in (by omega) (by omega)] at this
        exact hk this.symm
      have hxc : ∀ i, i + 4 ≤ g.ss → le32 (dataDone g v (g.base p) c) (g.base p + i) = le32 c i := by
        intro i hi
        refine le32_agree fun j hj => ?_
        rw [dataDone_at (by omega), if_pos (by omega)]
        congr 1; omega
      have hgood : le32 y (g.ss + g.io (vPos y k)) = key.tok ∧ le32 y (g.ss + g.io (vPos y k) + 4) = key.oid := by
        rw [ey.2.1]
        have h1 := hx.1
        have h2 := hx.2
        rw [← hqio, hs, hxc _ (by omega)] at h1
        rw [← hqio, hs, Nat.add_assoc, hxc _ (by omega)] at h2
        rw [← h1, ← h2]
        refine ⟨le32_agree fun i hi => ?_, le32_agree fun i hi => ?_⟩
        · rw [Nat.add_assoc, hyb _ (by omega)]
        · rw [show g.ss + g.io (vPos v k) + 4 + i = g.ss + (g.io (vPos v k) + 4 + i) by omega, hyb _ (by omega)]
      rw [vGet_ok hyi.magic, getAt_restore w (hyi.node hk hn hkey) hbad hgood (by rw [ey.2.2.1]; exact hl.2.2.2.1) (by rw [ey.2.2.1]; exact hl.2.2.2.2)]
      have : (vPut y (g.base (vPos y k)) g.ss fun i => y (g.ss + i)) = dataDone g v (g.base p) c := by
        rw [ey.2.1, hs]
        funext i
        unfold dataDone
        by_cases hi : g.base p ≤ i ∧ i < g.base p + g.ss
        · rw [vPut_in hi.1 hi.2, vPut_in hi.1 hi.2, hyb _ (by omega)]
        · rw [vPut_out (by omega), ← hy, vPut_out (by omega)]
          exact (vPut_out (by omega)).symm
      rw [this]
    · have hsame : ∀ i, g.data (vPos v k) ≤ i → i < g.data (vPos v k) + g.obj → y i = dataDone g v (g.base p) c i := by
        intro i h1 h2
        have := data_ge g (vPos v k)
        rw [dataDone_at (by omega), if_neg (by omega), ← hy, vPut_out (by omega), vPut_out (by omega)]
      have hm : VMark g y (vPos y k) key := by
        rw [ey.2.1]
        exact (mark_congr w hsame).mpr hx
      rw [(hyi.get w hk hn hkey hm).2]
      congr 1
      apply content_congr
      · rw [ey.2.1, ex.2.1]
      · rw [ey.2.2.1, ex.2.2.1]
      · rw [ex.2.2.1]; exact hl.2.2.2.2
      · rw [ex.2.1]; exact hsame
  · left
    rw [e]
    exact (HInv.get w (hdx.inv w hv) hk hn (by rw [← he]; exact ex.1) (by rw [ex.2.1]; exact hx)).2

end Verif
