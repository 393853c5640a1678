import Verif.PkcsLemmas

/-!
# PKCS#11 object store: invariant, and what is read from a vault
-/

namespace Verif

/-- Geometry: the table of nodes has room for all items in the header sector (and ends in front of the second object of a sector), the bitmap ends in front of
byte 32, and sectors consist of whole objects or objects of whole sectors. -/
structure VCfg.OK (g : VCfg) : Prop where
  ss32 : g.ss % 32 = 0
  table : 128 + 32 * g.items ≤ g.ss
  table2 : 128 + 32 * g.items ≤ g.obj
  items : 0 < g.items ∧ g.items < 224
  geom : g.ss % g.obj = 0 ∨ g.obj % g.ss = 0
  obj32 : g.obj % 32 = 0
  obj : g.obj < 4294967296

/-- Identifiers that can be used. -/
structure VKey.OK (k : VKey) : Prop where
  tok : k.tok < 4294967296
  oid : k.oid < 4294967296
  typ : k.typ < 4294967296
  none : k.tok ≠ VNONE
  magic : k.tok ≠ VMAGIC

/-- Offset of node number `k`. -/
def vA (k : Nat) : Nat := 128 + 32 * k

/-- Position of the object of node `k`. -/
def vPos (v : Mem) (k : Nat) : Nat := le32 v (vA k + 12)

/-- Size of the object of node `k`, with the identifiers in front of it. -/
def vSize (v : Mem) (k : Nat) : Nat := le32 v (vA k + 16)

/-- Node `k` is in use. -/
def VUsed (v : Mem) (k : Nat) : Prop := le32 v (vA k) ≠ VNONE

/-- The identifiers in front of the object at position `p` are those of `k`. -/
def VMark (g : VCfg) (v : Mem) (p : Nat) (k : VKey) : Prop := le32 v (g.data p) = k.tok ∧ le32 v (g.data p + 4) = k.oid

/-- Key of node `k`. -/
def vKey (v : Mem) (k : Nat) : VKey := ⟨le32 v (vA k + 8), le32 v (vA k), le32 v (vA k + 4)⟩

/-- Invariant of the header sector. -/
structure HInv (g : VCfg) (v : Mem) : Prop where
  magic : le32 v 0 = VMAGIC
  pad : ∀ j, 1 ≤ j → j < 4 → le32 v (32 * j) = VNONE
  low : ∀ k, k < g.nodes → VUsed v k → k < g.items ∧ vPos v k < g.items ∧ vBit v (vPos v k) = true ∧ 8 ≤ vSize v k ∧ vSize v k ≤ g.obj
  bits : ∀ p, p < g.items → vBit v p = true → ∃ k, k < g.nodes ∧ VUsed v k ∧ vPos v k = p
  keys : ∀ k, k < g.nodes → le32 v (vA k) ≠ VMAGIC
  uniq : ∀ j k, j < g.nodes → k < g.nodes → VUsed v j → VUsed v k → j ≠ k → vPos v j ≠ vPos v k ∧ vKey v j ≠ vKey v k

/-- Invariant of the vault: every object is marked with its identifiers. -/
structure VInv (g : VCfg) (v : Mem) : Prop where
  hdr : HInv g v
  marks : ∀ k, k < g.nodes → VUsed v k → VMark g v (vPos v k) (vKey v k)

/-- The beginning of the backup sector does not look like a node. -/
def VBak (g : VCfg) (v : Mem) : Prop := ∀ j, j < 4 → le32 v (g.ss + 32 * j) = VNONE ∨ le32 v (g.ss + 32 * j) = VMAGIC

/-! ## Geometry -/

theorem VCfg.OK.scan_eq {g : VCfg} (w : g.OK) : g.scan = g.nodes + 4 := by
  have := w.ss32; have := w.table
  unfold VCfg.scan VCfg.nodes
  omega

theorem VCfg.OK.nodes_le {g : VCfg} (w : g.OK) {k : Nat} (h : k < g.nodes) : vA k + 32 ≤ g.ss := by
  have := w.ss32; have := w.table
  unfold VCfg.nodes at h
  unfold vA
  omega

theorem VCfg.OK.nodes_bak {g : VCfg} (w : g.OK) : vA g.nodes = g.ss := by
  have := w.ss32; have := w.table
  unfold VCfg.nodes vA
  omega

theorem VCfg.io_lt {g : VCfg} (w : g.OK) (p : Nat) : g.io p < g.ss := Nat.mod_lt _ (by have := w.table; omega)

theorem VCfg.base_io {g : VCfg} (w : g.OK) (p : Nat) : g.base p + g.io p = g.data p ∧ 2 * g.ss ≤ g.base p := by
  have h := Nat.mod_le (p * g.obj) g.ss
  have := g.io_lt w p
  unfold VCfg.base VCfg.data VCfg.io at *
  omega

/-- With whole objects in a sector, an object does not leave its sector; otherwise it starts one. -/
theorem VCfg.io_fit {g : VCfg} (w : g.OK) (p : Nat) :
    (g.ss % g.obj = 0 ∧ g.io p + g.obj ≤ g.ss ∧ g.io p % g.obj = 0) ∨ (g.obj % g.ss = 0 ∧ g.io p = 0) := by
  have ho : 0 < g.obj := by have := w.table2; omega
  have hs : 0 < g.ss := by have := w.table; omega
  rcases w.geom with h | h
  · left
    obtain ⟨m, hm⟩ := Nat.dvd_of_mod_eq_zero h
    have hio : g.io p = p % m * g.obj := by
      unfold VCfg.io
      rw [hm, Nat.mul_comm p, Nat.mul_mod_mul_left, Nat.mul_comm]
    have hm0 : 0 < m := by
      rcases Nat.eq_zero_or_pos m with h0 | h0
      · rw [h0, Nat.mul_zero] at hm; omega
      · exact h0
    have hlt := Nat.mod_lt p hm0
    refine ⟨h, ?_, ?_⟩
    · rw [hio]
      calc p % m * g.obj + g.obj = (p % m + 1) * g.obj := by rw [Nat.succ_mul]
        _ ≤ m * g.obj := Nat.mul_le_mul_right _ hlt
        _ = g.ss := by rw [hm, Nat.mul_comm]
    · rw [hio]; exact Nat.mul_mod_left _ _
  · right
    refine ⟨h, ?_⟩
    obtain ⟨m, hm⟩ := Nat.dvd_of_mod_eq_zero h
    unfold VCfg.io
    rw [hm, Nat.mul_left_comm]
    exact Nat.mul_mod_right _ _

theorem VCfg.io_mark {g : VCfg} (w : g.OK) (p : Nat) : g.io p + 8 ≤ g.ss ∧ (g.io p = 0 ∨ g.obj ≤ g.io p) := by
  have := w.table2; have := w.table
  rcases g.io_fit w p with ⟨_, h1, h2⟩ | ⟨_, h⟩
  · refine ⟨by omega, ?_⟩
    rcases Nat.eq_zero_or_pos (g.io p) with h0 | h0
    · exact Or.inl h0
    · exact Or.inr (Nat.le_of_dvd h0 (Nat.dvd_of_mod_eq_zero h2))
  · exact ⟨by omega, Or.inl h⟩

theorem mul_apart {p q n : Nat} (h : p ≠ q) : p * n + n ≤ q * n ∨ q * n + n ≤ p * n := by
  rcases Nat.lt_or_gt_of_ne h with h | h
  · left
    calc p * n + n = (p + 1) * n := by rw [Nat.succ_mul]
      _ ≤ q * n := Nat.mul_le_mul_right _ h
  · right
    calc q * n + n = (q + 1) * n := by rw [Nat.succ_mul]
      _ ≤ p * n := Nat.mul_le_mul_right _ h

/-- Objects do not overlap. -/
theorem VCfg.data_apart {g : VCfg} {p q : Nat} (h : p ≠ q) : g.data p + g.obj ≤ g.data q ∨ g.data q + g.obj ≤ g.data p := by
  unfold VCfg.data
  have := mul_apart (n := g.obj) h
  omega

/-- Two objects are in the same sector, or the second one is outside the sector of the first one. -/
theorem VCfg.sector_cases {g : VCfg} (w : g.OK) (p q : Nat) :
    g.base q = g.base p ∨ (p ≠ q ∧ (g.data q + g.obj ≤ g.base p ∨ g.base p + g.ss ≤ g.data q)) := by
  by_cases hpq : p = q
  · left; rw [hpq]
  have hs : 0 < g.ss := by have := w.table; omega
  have hbp := g.base_io w p
  have hbq := g.base_io w q
  rcases g.io_fit w p with ⟨hd, h1, h2⟩ | ⟨hd, h⟩
  · have hq : g.io q + g.obj ≤ g.ss := by
      rcases g.io_fit w q with ⟨_, h, _⟩ | ⟨hd', h⟩
      · exact h
      · rw [h]
        exact Nat.le_trans (Nat.le_of_eq (Nat.zero_add _)) (Nat.le_of_dvd hs (Nat.dvd_of_mod_eq_zero hd))
    have ep : g.base p = 2 * g.ss + p * g.obj / g.ss * g.ss := by
      have := Nat.div_add_mod' (p * g.obj) g.ss
      unfold VCfg.base VCfg.io
      omega
    have eq : g.base q = 2 * g.ss + q * g.obj / g.ss * g.ss := by
      have := Nat.div_add_mod' (q * g.obj) g.ss
      unfold VCfg.base VCfg.io
      omega
    by_cases hne : q * g.obj / g.ss = p * g.obj / g.ss
    · left; rw [ep, eq, hne]
    · right
      refine ⟨hpq, ?_⟩
      have := mul_apart (n := g.ss) hne
      omega
  · right
    refine ⟨hpq, ?_⟩
    have hle : g.ss ≤ g.obj := Nat.le_of_dvd (by have := w.table2; omega) (Nat.dvd_of_mod_eq_zero hd)
    have := g.data_apart hpq
    omega

/-! ## Reading -/

/-- Node `k` is the only one with this key. -/
def NodeOf (g : VCfg) (v : Mem) (key : VKey) (k : Nat) : Prop :=
  k < g.nodes ∧ vMatch v (vA k) key = true ∧ ∀ j, j < g.nodes → vMatch v (vA j) key = true → j = k

theorem scan_node {g : VCfg} (w : g.OK) {v : Mem} {key : VKey} {k : Nat} (h : NodeOf g v key k) :
    vScan v key g.scan 128 = some (vA k) := by
  obtain ⟨h1, h2, h3⟩ := h
  generalize he : vScan v key g.scan 128 = r
  cases r with
  | none =>
    rw [vScan_none] at he
    have := he k (by rw [w.scan_eq]; omega)
    rw [show 128 + 32 * k = vA k from rfl, h2] at this
    simp at this
  | some b =>
    obtain ⟨j, j1, j2, j3, j4⟩ := vScan_some he
    by_cases hj : j < g.nodes
    · have := h3 j hj (by rw [show vA j = b from j2.symm]; exact j3)
      rw [j2, this]; rfl
    · have := j4 k (by omega)
      rw [show 128 + 32 * k = vA k from rfl, h2] at this
      simp at this

/-- `vGet` after `check_vault`. -/
def vGetAt (g : VCfg) (key : VKey) (v : Mem) : Option (List Byte) :=
  match vFind g key v with
  | (none, _) => none
  | (some buf, o) =>
    match vScan (vRun v o) key g.scan 128 with
    | none => none
    | some a => (vRead g ⟨true, buf, a, 8⟩ g.obj (vRun v o)).1

theorem vGet_eq (g : VCfg) (key : VKey) (v : Mem) : vGet g key v = vGetAt g key (vRun v (vCheck g v)) := by
  unfold vGet vGetAt vOpen
  have hf : vFreeHandle (fun _ => none) 16 0 = some 0 := by simp [vFreeHandle]
  rw [hf]
  dsimp only
  generalize vFind g key (vRun v (vCheck g v)) = r
  obtain ⟨r, o⟩ := r
  cases r with
  | none => simp
  | some buf =>
    dsimp only
    generalize hs : vScan (vRun (vRun v (vCheck g v)) o) key g.scan 128 = s
    cases s with
    | none => rfl
    | some a =>
      simp only [vOpened, if_true, List.append_nil, vRun_append]

theorem vCheck_ok {g : VCfg} {v : Mem} (h : le32 v 0 = VMAGIC) : vCheck g v = [] := if_pos h

theorem vGet_ok {g : VCfg} {key : VKey} {v : Mem} (h : le32 v 0 = VMAGIC) : vGet g key v = vGetAt g key v := by
  rw [vGet_eq, vCheck_ok h]; rfl

theorem read_all {g : VCfg} {v : Mem} {buf a : Nat} {ro : Bool} (h1 : 8 ≤ le32 v (a + 16)) (h2 : le32 v (a + 16) ≤ g.obj) :
    (vRead g ⟨ro, buf, a, 8⟩ g.obj v).1 = some (slice v (buf + 8) (le32 v (a + 16) - 8)) := by
  unfold vRead
  dsimp only
  rw [if_neg (by omega)]
  by_cases h : 8 ≥ le32 v (a + 16)
  · rw [if_pos h, show le32 v (a + 16) - 8 = 0 by omega]; rfl
  · rw [if_neg h, if_pos (by omega)]

/-- Contents of the object of node `k`. -/
def vContent (g : VCfg) (v : Mem) (k : Nat) : List Byte := slice v (g.data (vPos v k) + 8) (vSize v k - 8)

theorem getAt_found {g : VCfg} (w : g.OK) {v : Mem} {key : VKey} {k : Nat} (h : NodeOf g v key k) (hm : VMark g v (vPos v k) key)
    (h1 : 8 ≤ vSize v k) (h2 : vSize v k ≤ g.obj) :
    vFind g key v = (some (g.data (vPos v k)), []) ∧ vGetAt g key v = some (vContent g v k) := by
  have hs := scan_node w h
  have hf : vFind g key v = (some (g.data (vPos v k)), []) := by
    unfold vFind
    rw [hs]
    dsimp only
    rw [if_neg (by have := hm.1; have := hm.2; unfold vPos at *; omega)]
    rfl
  refine ⟨hf, ?_⟩
  unfold vGetAt
  rw [hf]
  dsimp only
  rw [show vRun v [] = v from rfl, hs]
  exact read_all h1 h2

theorem getAt_restore {g : VCfg} (w : g.OK) {v : Mem} {key : VKey} {k : Nat} (h : NodeOf g v key k) (hm : ¬ VMark g v (vPos v k) key)
    (hb : le32 v (g.ss + g.io (vPos v k)) = key.tok ∧ le32 v (g.ss + g.io (vPos v k) + 4) = key.oid)
    (h1 : 8 ≤ vSize v k) (h2 : vSize v k ≤ g.obj) :
    vGetAt g key v = some (vContent g (vPut v (g.base (vPos v k)) g.ss fun i => v (g.ss + i)) k) := by
  have hs := scan_node w h
  have hbase := (g.base_io w (vPos v k)).2
  have hk := w.nodes_le h.1
  have hrun := run_restore g v (g.base (vPos v k)) (Or.inr hbase)
  have hsame : ∀ i, i < g.ss → (vPut v (g.base (vPos v k)) g.ss fun i => v (g.ss + i)) i = v i := by
    intro i hi
    exact vPut_out (by omega)
  generalize hw : (vPut v (g.base (vPos v k)) g.ss fun i => v (g.ss + i)) = x at hrun hsame ⊢
  have hpos : le32 x (vA k + 12) = vPos v k := le32_congr fun i a b => hsame i (by omega)
  have hsize : le32 x (vA k + 16) = vSize v k := le32_congr fun i a b => hsame i (by omega)
  have hnode : NodeOf g x key k := by
    have hv : ∀ j, j < g.nodes → vMatch x (vA j) key = vMatch v (vA j) key := by
      intro j hj
      have := w.nodes_le hj
      exact vMatch_congr fun i hi => hsame _ (by omega)
    refine ⟨h.1, by rw [hv k h.1]; exact h.2.1, ?_⟩
    intro j hj hjm
    rw [hv j hj] at hjm
    exact h.2.2 j hj hjm
  unfold vGetAt vFind
  rw [hs]
  dsimp only
  rw [if_pos (by unfold VMark vPos at hm; omega), show le32 v (vA k + 12) = vPos v k from rfl, if_pos hb]
  dsimp only
  rw [hrun, scan_node w hnode]
  dsimp only
  rw [read_all (by rw [hsize]; exact h1) (by rw [hsize]; exact h2), hpos]
  show _ = some (slice x (g.data (le32 x (vA k + 12)) + 8) (le32 x (vA k + 16) - 8))
  rw [hpos]

theorem getAt_delete {g : VCfg} (w : g.OK) {v : Mem} {key : VKey} {k : Nat} (h : NodeOf g v key k) (hm : ¬ VMark g v (vPos v k) key)
    (hb : ¬ (le32 v (g.ss + g.io (vPos v k)) = key.tok ∧ le32 v (g.ss + g.io (vPos v k) + 4) = key.oid)) :
    vGetAt g key v = none := by
  unfold vGetAt vFind
  rw [scan_node w h]
  dsimp only
  rw [if_pos (by unfold VMark vPos at hm; omega), show le32 v (vA k + 12) = vPos v k from rfl, if_neg hb]

theorem getAt_none {g : VCfg} {v : Mem} {key : VKey} (h : vScan v key g.scan 128 = none) :
    vFind g key v = (none, []) ∧ vGetAt g key v = none := by
  unfold vGetAt vFind
  rw [h]
  exact ⟨rfl, rfl⟩

/-! ## Consequences of the invariant -/

theorem vMatch_key {v : Mem} {k : Nat} {key : VKey} : vMatch v (vA k) key = true ↔ vKey v k = key := by
  rw [vMatch_iff]
  unfold vKey
  constructor
  · rintro ⟨h1, h2, h3⟩; rw [h1, h2, h3]
  · intro h; rw [← h]; exact ⟨rfl, rfl, rfl⟩

theorem used_of_key {v : Mem} {k : Nat} {key : VKey} (hk : key.tok ≠ VNONE) (h : vKey v k = key) : VUsed v k := by
  unfold VUsed
  have : le32 v (vA k) = key.tok := by rw [← h]; rfl
  rw [this]; exact hk

theorem HInv.node {g : VCfg} {v : Mem} (h : HInv g v) {key : VKey} (hk : key.tok ≠ VNONE) {k : Nat} (hn : k < g.nodes) (he : vKey v k = key) :
    NodeOf g v key k := by
  refine ⟨hn, vMatch_key.mpr he, ?_⟩
  intro j hj hm
  by_cases hjk : j = k
  · exact hjk
  · have hj' := vMatch_key.mp hm
    exact absurd (hj'.trans he.symm) (h.uniq j k hj hn (used_of_key hk hj') (used_of_key hk he) hjk).2

/-- No node has this key. -/
def NoNode (g : VCfg) (v : Mem) (key : VKey) : Prop := ∀ k, k < g.nodes → vKey v k ≠ key

theorem scan_absent {g : VCfg} (w : g.OK) {v : Mem} {key : VKey} (hk : key.OK) (hb : VBak g v) (h : NoNode g v key) :
    vScan v key g.scan 128 = none := by
  rw [vScan_none]
  intro i hi
  rw [w.scan_eq] at hi
  by_cases hn : i < g.nodes
  · have := h i hn
    rw [Ne, ← vMatch_key] at this
    simpa [vA] using this
  · have hbi := hb (i - g.nodes) (by omega)
    have ha : g.ss + 32 * (i - g.nodes) = 128 + 32 * i := by
      have := w.nodes_bak
      unfold vA at this
      omega
    rw [ha] at hbi
    cases hm : vMatch v (128 + 32 * i) key with
    | false => rfl
    | true =>
      have := (vMatch_iff.mp hm).1
      rw [this] at hbi
      rcases hbi with hbi | hbi
      · exact absurd hbi hk.none
      · exact absurd hbi hk.magic

theorem node_or_none (g : VCfg) (v : Mem) (key : VKey) : (∃ k, k < g.nodes ∧ vKey v k = key) ∨ NoNode g v key := by
  by_cases h : ∃ k, k < g.nodes ∧ vKey v k = key
  · exact Or.inl h
  · exact Or.inr fun k hk he => h ⟨k, hk, he⟩

theorem VInv.found {g : VCfg} (w : g.OK) {v : Mem} (h : VInv g v) {key : VKey} (hk : key.tok ≠ VNONE) {k : Nat} (hn : k < g.nodes) (he : vKey v k = key) :
    vFind g key v = (some (g.data (vPos v k)), []) ∧ vGet g key v = some (vContent g v k) := by
  have hu := used_of_key hk he
  have hl := h.hdr.low k hn hu
  rw [vGet_ok h.hdr.magic]
  exact getAt_found w (h.hdr.node hk hn he) (by rw [← he]; exact h.marks k hn hu) hl.2.2.2.1 hl.2.2.2.2

theorem VInv.absent {g : VCfg} (w : g.OK) {v : Mem} (h : VInv g v) (hb : VBak g v) {key : VKey} (hk : key.OK) (hn : NoNode g v key) :
    vFind g key v = (none, []) ∧ vGet g key v = none := by
  rw [vGet_ok h.hdr.magic]
  exact getAt_none (scan_absent w hk hb hn)

end Verif
