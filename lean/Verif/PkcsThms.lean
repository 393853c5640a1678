import Verif.PkcsOps

/-!
# PKCS#11 object store: opening, writing, reading; power loss (C34)
-/

namespace Verif

/-! ## Effects -/

/-- The node of an object. -/
def VNodeOf (g : VCfg) (v : Mem) (key : VKey) (k : Nat) : Prop := k < g.nodes ∧ vKey v k = key

/-- What is common to all operations: the nodes of `v` stay where they are. -/
def VKept (g : VCfg) (x v : Mem) : Prop := ∀ k, k < g.nodes → VUsed v k → vKey x k = vKey v k ∧ vPos x k = vPos v k

theorem VKept.refl (g : VCfg) (v : Mem) : VKept g v v := fun _ _ _ => ⟨rfl, rfl⟩

theorem key_used {x v : Mem} {k : Nat} (h : vKey x k = vKey v k) : VUsed x k ↔ VUsed v k := by
  have : le32 x (vA k) = le32 v (vA k) := congrArg VKey.tok h
  unfold VUsed
  rw [this]

/-- The commit of a new size. -/
theorem size_done {g : VCfg} (w : g.OK) {v : Mem} (h : VInv g v) {k0 s : Nat} (hk : k0 < g.nodes) (h8 : 8 ≤ s) (hs : s ≤ g.obj) :
    HInv g (putW v (vA k0 + 16) s) ∧
    VInv g (hdrDone g v (putW v (vA k0 + 16) s)) ∧ VBak g (hdrDone g v (putW v (vA k0 + 16) s)) ∧
    ∀ k, k < g.nodes → vKey (hdrDone g v (putW v (vA k0 + 16) s)) k = vKey v k ∧ vPos (hdrDone g v (putW v (vA k0 + 16) s)) k = vPos v k ∧
      vSize (hdrDone g v (putW v (vA k0 + 16) s)) k = if k = k0 then s else vSize v k := by
  obtain ⟨hi, hn⟩ := hinv_size w h.hdr hk h8 hs
  have hx := hdrDone_hdr g v (putW v (vA k0 + 16) s)
  have hd := hdrDone_data g v (putW v (vA k0 + 16) s)
  have hall : ∀ k, k < g.nodes → vKey (hdrDone g v (putW v (vA k0 + 16) s)) k = vKey v k ∧ vPos (hdrDone g v (putW v (vA k0 + 16) s)) k = vPos v k ∧
      vSize (hdrDone g v (putW v (vA k0 + 16) s)) k = if k = k0 then s else vSize v k := by
    intro k hk
    obtain ⟨e1, e2, e3, _⟩ := hx.node w hk
    rw [e1, e2, e3]
    exact hn k
  refine ⟨hi, ⟨hx.inv w hi, ?_⟩, hdrDone_bak w v hi, hall⟩
  intro k hk hu
  obtain ⟨e1, e2, e3⟩ := hall k hk
  have hu' := (key_used e1).mp hu
  rw [e2, e1]
  exact (mark_congr w fun i a _ => hd i (by have := data_ge g (vPos v k); omega)).mpr (h.marks k hk hu')

/-- What is read from an object that exists. -/
theorem VInv.get {g : VCfg} (w : g.OK) {v : Mem} (h : VInv g v) {key : VKey} (hk : key.tok ≠ VNONE) {k : Nat} (hn : VNodeOf g v key k) :
    vGet g key v = some (vContent g v k) := (h.found w hk hn.1 hn.2).2

/-- Same headers and objects: the same is read. -/
theorem same_get {g : VCfg} (w : g.OK) {v y : Mem} (h : VInv g v) (hh : SameHdr g y v) (hd : SameData g y v) {key : VKey} (hk : key.OK)
    (hb : VBak g y ∨ y = v) (hv : VBak g v) : vGet g key y = vGet g key v := by
  rcases hb with hb | rfl
  · rcases node_or_none g v key with ⟨k, k1, k2⟩ | hno
    · have hl := h.hdr.low k k1 (used_of_key hk.none k2)
      obtain ⟨e1, e2, e3, _⟩ := hh.node w k1
      have hm : VMark g y (vPos y k) key := by
        rw [e2, ← k2]
        exact (mark_congr w fun i a _ => hd i (by have := data_ge g (vPos v k); omega)).mpr (h.marks k k1 (used_of_key hk.none k2))
      rw [((hh.inv w h.hdr).get w hk.none k1 (by rw [e1]; exact k2) hm).2, h.get w hk.none ⟨k1, k2⟩]
      congr 1
      exact content_congr e2 e3 hl.2.2.2.2 fun i a _ => hd i (by have := data_ge g (vPos v k); omega)
    · rw [(h.absent w hv hk hno).2, ((hh.inv w h.hdr).absent w hb hk (hh.noNode w hno)).2]
  · rfl

/-- The same for an object that exists, whatever is in the backup sector. -/
theorem same_get_node {g : VCfg} (w : g.OK) {v y : Mem} (h : HInv g v) (hh : SameHdr g y v) (hd : SameData g y v) {key : VKey} (hk : key.tok ≠ VNONE)
    {k : Nat} (hn : VNodeOf g v key k) (hm : VMark g v (vPos v k) key) : vGet g key y = some (vContent g v k) := by
  obtain ⟨k1, k2⟩ := hn
  have hl := h.low k k1 (used_of_key hk k2)
  obtain ⟨e1, e2, e3, _⟩ := hh.node w k1
  have hm' : VMark g y (vPos y k) key := by
    rw [e2]
    exact (mark_congr w fun i a _ => hd i (by have := data_ge g (vPos v k); omega)).mpr hm
  rw [((hh.inv w h).get w hk k1 (by rw [e1]; exact k2) hm').2]
  congr 1
  exact content_congr e2 e3 hl.2.2.2.2 fun i a _ => hd i (by have := data_ge g (vPos v k); omega)

/-- Interrupted commit of a new size. -/
theorem size_crash {g : VCfg} (w : g.OK) {v : Mem} (h : VInv g v) {k0 s : Nat} (hk0 : k0 < g.nodes) (h8 : 8 ≤ s) (hs : s ≤ g.obj)
    {l : List VOp} (hl : l <+: vCommit g 0 (putW v (vA k0 + 16) s)) {key : VKey} (hk : key.OK) (hb : VBak g v ∨ ∃ k, VNodeOf g v key k) :
    vGet g key (vRun v l) = vGet g key v ∨ vGet g key (vRun v l) = vGet g key (hdrDone g v (putW v (vA k0 + 16) s)) := by
  obtain ⟨hi, _⟩ := size_done w h hk0 h8 hs
  rcases header_crash (v := v) w hi hl with e | ⟨e1, e2, e3⟩
  · exact Or.inr (e key)
  · left
    rcases hb with hb | ⟨k, hn⟩
    · exact same_get w h e1 e2 hk (by rcases e3 with e | e <;> [exact Or.inr e; exact Or.inl e]) hb
    · rw [same_get_node w h.hdr e1 e2 hk.none hn (by rw [← hn.2]; exact h.marks k hn.1 (used_of_key hk.none hn.2)), h.get w hk.none hn]

theorem setSize_eq {g : VCfg} {a s : Nat} {v : Mem} (ha : a ≤ g.ss) (h : le32 v 0 = VMAGIC) :
    vSetSize g a s v = vCommit g 0 (putW v (a + 16) s) := by
  unfold vSetSize
  rw [if_neg (by omega), vCheck_ok h]
  rfl

/-! ## Opening an object that exists -/

theorem open_existing {g : VCfg} (w : g.OK) {v : Mem} (h : VInv g v) {key : VKey} (hk : key.OK) {k : Nat} (hn : VNodeOf g v key k) (rd : Bool)
    {hs : VHandles} {n : Nat} (hf : vFreeHandle hs 16 0 = some n) :
    vOpen g key rd hs v = (.ok n, (fun i => if i = n then some ⟨rd, g.data (vPos v k), vA k, 8⟩ else hs i),
      if rd then [] else vCommit g 0 (putW v (vA k + 16) 8)) := by
  have hfind := (h.found w hk.none hn.1 hn.2).1
  have hscan := scan_node w (h.hdr.node hk.none hn.1 hn.2)
  have hle := w.nodes_le hn.1
  have hrun : vRun v [] = v := rfl
  unfold vOpen
  rw [hf]
  dsimp only
  rw [vCheck_ok h.hdr.magic, hrun, hfind]
  dsimp only
  rw [hrun, hscan]
  dsimp only
  unfold vOpened
  cases rd with
  | true => rfl
  | false =>
    rw [setSize_eq (by omega) h.hdr.magic]
    simp

/-! ## Creating an object -/

/-- What `create_object` does in the first place: the header. -/
structure VCreate1 (g : VCfg) (v : Mem) (key : VKey) (k0 p : Nat) (c1 : Mem) : Prop where
  hdr : HInv g c1
  node : k0 < g.nodes
  pos : p < g.items
  free : ¬ VUsed v k0
  other : ∀ k, k < g.nodes → VUsed v k → vPos v k ≠ p
  key0 : vKey c1 k0 = key
  pos0 : vPos c1 k0 = p
  size0 : vSize c1 k0 = 8
  keep : ∀ k, k ≠ k0 → vKey c1 k = vKey v k ∧ vPos c1 k = vPos v k ∧ vSize c1 k = vSize v k

/-- The second commit of `create_object`. -/
def vMarked (g : VCfg) (v : Mem) (key : VKey) (p : Nat) : Mem :=
  putW (putW (fun i => v (g.base p + i)) (g.io p) key.tok) (g.io p + 4) key.oid

theorem marked_at {g : VCfg} (w : g.OK) {v : Mem} {key : VKey} {p i : Nat} (hi : 2 * g.ss ≤ i) (ho : i < g.data p ∨ g.data p + 8 ≤ i) :
    dataDone g v (g.base p) (vMarked g v key p) i = v i := by
  obtain ⟨hb, hb2⟩ := g.base_io w p
  rw [dataDone_at hi]
  by_cases h : g.base p ≤ i ∧ i < g.base p + g.ss
  · rw [if_pos h]
    unfold vMarked
    rw [putW_out (by omega), putW_out (by omega)]
    congr 1; omega
  · rw [if_neg h]

theorem marked_mark {g : VCfg} (w : g.OK) {v : Mem} {key : VKey} (hk : key.OK) {p : Nat} :
    VMark g (dataDone g v (g.base p) (vMarked g v key p)) p key := by
  obtain ⟨hb, hb2⟩ := g.base_io w p
  obtain ⟨h8, _⟩ := g.io_mark w p
  have hx : ∀ i, i < 8 → dataDone g v (g.base p) (vMarked g v key p) (g.data p + i) = vMarked g v key p (g.io p + i) := by
    intro i hi
    rw [dataDone_at (by omega), if_pos (by omega)]
    congr 1; omega
  refine ⟨?_, ?_⟩
  · rw [le32_agree (x := vMarked g v key p) (b := g.io p) fun i hi => hx i (by omega)]
    unfold vMarked
    rw [le32_putW_out (by omega)]
    exact le32_putW _ _ _ hk.tok
  · rw [le32_agree (x := vMarked g v key p) (b := g.io p + 4) fun i hi => by rw [Nat.add_assoc, Nat.add_assoc]; exact hx (4 + i) (by omega)]
    exact le32_putW _ _ _ hk.oid

/-- A created object: all invariants hold after the two commits. -/
theorem created {g : VCfg} (w : g.OK) {v : Mem} (h : VInv g v) {key : VKey} (hk : key.OK) {k0 p : Nat} {c1 : Mem}
    (hc : VCreate1 g v key k0 p c1) :
    HInv g (hdrDone g v c1) ∧ VInv g (dataDone g (hdrDone g v c1) (g.base p) (vMarked g (hdrDone g v c1) key p)) ∧
    (∀ k, k < g.nodes → vKey (hdrDone g v c1) k = vKey c1 k ∧ vPos (hdrDone g v c1) k = vPos c1 k ∧ vSize (hdrDone g v c1) k = vSize c1 k) ∧
    (∀ k, k < g.nodes → vKey (dataDone g (hdrDone g v c1) (g.base p) (vMarked g (hdrDone g v c1) key p)) k = vKey c1 k ∧
      vPos (dataDone g (hdrDone g v c1) (g.base p) (vMarked g (hdrDone g v c1) key p)) k = vPos c1 k ∧
      vSize (dataDone g (hdrDone g v c1) (g.base p) (vMarked g (hdrDone g v c1) key p)) k = vSize c1 k) ∧
    (∀ k, k < g.nodes → k ≠ k0 → VUsed v k → VMark g (hdrDone g v c1) (vPos v k) (vKey v k) ∧
      vContent g (hdrDone g v c1) k = vContent g v k ∧
      vContent g (dataDone g (hdrDone g v c1) (g.base p) (vMarked g (hdrDone g v c1) key p)) k = vContent g v k) := by
  have hx1 := hdrDone_hdr g v c1
  have hd1 := hdrDone_data g v c1
  generalize hdrDone g v c1 = v1 at hx1 hd1 ⊢
  have hi1 : HInv g v1 := hx1.inv w hc.hdr
  obtain ⟨hb, hb2⟩ := g.base_io w p
  have hx2 : SameHdr g (dataDone g v1 (g.base p) (vMarked g v1 key p)) v1 := dataDone_hdr hb2
  have hn1 : ∀ k, k < g.nodes → vKey v1 k = vKey c1 k ∧ vPos v1 k = vPos c1 k ∧ vSize v1 k = vSize c1 k := by
    intro k hk
    obtain ⟨e1, e2, e3, _⟩ := hx1.node w hk
    exact ⟨e1, e2, e3⟩
  have hn2 : ∀ k, k < g.nodes → vKey (dataDone g v1 (g.base p) (vMarked g v1 key p)) k = vKey c1 k ∧
      vPos (dataDone g v1 (g.base p) (vMarked g v1 key p)) k = vPos c1 k ∧ vSize (dataDone g v1 (g.base p) (vMarked g v1 key p)) k = vSize c1 k := by
    intro k hk
    obtain ⟨e1, e2, e3, _⟩ := hx2.node w hk
    obtain ⟨f1, f2, f3⟩ := hn1 k hk
    exact ⟨e1.trans f1, e2.trans f2, e3.trans f3⟩
  have hobj : ∀ q, q ≠ p → ∀ i, g.data q ≤ i → i < g.data q + g.obj → dataDone g v1 (g.base p) (vMarked g v1 key p) i = v i := by
    intro q hq i a b
    have h1 := g.data_apart hq
    have h2 := data_ge g q
    have h3 := w.table2
    rw [marked_at w (by omega) (by omega)]
    exact hd1 i (by omega)
  have hrest : ∀ k, k < g.nodes → k ≠ k0 → VUsed v k → VMark g v1 (vPos v k) (vKey v k) ∧ vContent g v1 k = vContent g v k ∧
      vContent g (dataDone g v1 (g.base p) (vMarked g v1 key p)) k = vContent g v k := by
    intro k hkn hne hu
    have hl := h.hdr.low k hkn hu
    obtain ⟨e1, e2, e3⟩ := hc.keep k hne
    obtain ⟨f1, f2, f3⟩ := hn1 k hkn
    obtain ⟨m1, m2, m3⟩ := hn2 k hkn
    have hge := data_ge g (vPos v k)
    refine ⟨(mark_congr w fun i a _ => hd1 i (by omega)).mpr (h.marks k hkn hu), ?_, ?_⟩
    · exact content_congr (f2.trans e2) (f3.trans e3) hl.2.2.2.2 fun i a _ => hd1 i (by omega)
    · exact content_congr (m2.trans e2) (m3.trans e3) hl.2.2.2.2 (hobj _ (hc.other k hkn hu))
  refine ⟨hi1, ⟨hx2.inv w hi1, ?_⟩, hn1, hn2, hrest⟩
  intro k hkn hu
  obtain ⟨m1, m2, m3⟩ := hn2 k hkn
  rw [m1, m2]
  by_cases hk0 : k = k0
  · rw [hk0, hc.pos0, hc.key0]
    exact marked_mark w hk
  · obtain ⟨e1, e2, _⟩ := hc.keep k hk0
    have hu' : VUsed v k := (key_used (m1.trans e1)).mp hu
    rw [e1, e2]
    exact (mark_congr w (hobj _ (hc.other k hkn hu'))).mpr (h.marks k hkn hu')

/-- Opening an object that does not exist: it is created, or the vault is full. -/
theorem open_new {g : VCfg} (w : g.OK) {v : Mem} (h : VInv g v) (hb : VBak g v) {key : VKey} (hk : key.OK) (hno : NoNode g v key)
    {hs : VHandles} {n : Nat} (hf : vFreeHandle hs 16 0 = some n) :
    (vOpen g key false hs v = (.full, hs, []) ∧ (vFreeNode v g.nodes 128 = none ∨ vFreePos v g.items 0 = none)) ∨
    ∃ k0 p c1, VCreate1 g v key k0 p c1 ∧
      vOpen g key false hs v = (.ok n, (fun i => if i = n then some ⟨false, g.data p, vA k0, 8⟩ else hs i),
        vCommit g 0 c1 ++ (vCommit g (g.base p) (vMarked g (hdrDone g v c1) key p) ++
          vCommit g 0 (putW (dataDone g (hdrDone g v c1) (g.base p) (vMarked g (hdrDone g v c1) key p)) (vA k0 + 16) 8))) := by
  have hfind := (h.absent w hb hk hno).1
  have hrun : ∀ v : Mem, vRun v [] = v := fun _ => rfl
  unfold vOpen
  rw [hf]
  dsimp only
  rw [vCheck_ok h.hdr.magic, hrun, hfind]
  dsimp only
  rw [hrun, if_neg (by simp)]
  unfold vCreate
  rw [hfind]
  dsimp only
  rw [hrun]
  cases ha : vFreeNode v g.nodes 128 with
  | none => left; exact ⟨by simp, Or.inl rfl⟩
  | some a =>
    dsimp only
    cases hp : vFreePos v g.items 0 with
    | none => left; exact ⟨by simp, Or.inr rfl⟩
    | some p =>
      right
      dsimp only
      obtain ⟨k0, rfl, a2, a3, a4, a5, a6, a7, a8, a9, a10⟩ := hinv_create w h.hdr hk hno ha hp
      have hc : VCreate1 g v key k0 p (vBitPut (vNode v (vA k0) key p) p true) := ⟨a5, a2, a3, a4, a6, a7, a8, a9, a10⟩
      refine ⟨k0, p, _, hc, ?_⟩
      obtain ⟨hi1, hv2, hn1, hn2, _⟩ := created w h hk hc
      have hle := w.nodes_le a2
      rw [List.nil_append, vRun_append]
      rw [show vRun v (vCommit g 0 (vBitPut (vNode v (vA k0) key p) p true)) = hdrDone g v (vBitPut (vNode v (vA k0) key p) p true) from run_commit _ _ _ _]
      generalize hdrDone g v (vBitPut (vNode v (vA k0) key p) p true) = v1 at hi1 hv2 hn1 hn2 ⊢
      rw [show putW (putW (fun i => v1 (g.base p + i)) (g.io p) key.tok) (g.io p + 4) key.oid = vMarked g v1 key p from rfl]
      rw [show vRun v1 (vCommit g (g.base p) (vMarked g v1 key p)) = dataDone g v1 (g.base p) (vMarked g v1 key p) from run_commit _ _ _ _]
      generalize dataDone g v1 (g.base p) (vMarked g v1 key p) = v2 at hv2 hn2 ⊢
      have hf2 := (hv2.found w hk.none a2 ((hn2 k0 a2).1.trans a7)).1
      rw [(hn2 k0 a2).2.1, a8] at hf2
      rw [hf2]
      dsimp only
      unfold vOpened
      rw [hrun, setSize_eq (by omega) hv2.hdr.magic]
      simp

/-! ## Writing -/

/-- The operations of a write that does not leave the sector. -/
theorem write_ops {g : VCfg} (w : g.OK) {v : Mem} (h : VInv g v) {k : Nat} (hk : k < g.nodes) (hu : VUsed v k) {off : Nat} (h8 : 8 ≤ off) (ho : off ≤ g.obj)
    (d : Mem) (len n : Nat) (hn : n = min len (g.obj - off))
    (hfit : (g.data (vPos v k) + off) % g.ss + n ≤ g.ss) :
    ∃ dops v1, vWrite g ⟨false, g.data (vPos v k), vA k, off⟩ d len v =
        (some n, ⟨false, g.data (vPos v k), vA k, off + n⟩, dops ++ vCommit g 0 (putW v1 (vA k + 16) (vSize v k + n))) ∧
      vRun v dops = v1 ∧ SameHdr g v1 v ∧
      (∀ i, 2 * g.ss ≤ i → v1 i = if g.data (vPos v k) + off ≤ i ∧ i < g.data (vPos v k) + off + n then d (i - (g.data (vPos v k) + off)) else v i) ∧
      (n = 0 ∧ dops = [] ∨ n ≠ 0 ∧ ∃ c, dops = vCommit g (g.data (vPos v k) + off - (g.data (vPos v k) + off) % g.ss) c ∧
        v1 = dataDone g v (g.data (vPos v k) + off - (g.data (vPos v k) + off) % g.ss) c) := by
  have hlow := h.hdr.low k hk hu
  have hs : 0 < g.ss := by have := w.table; omega
  have hge := data_ge g (vPos v k)
  have hle := w.nodes_le hk
  have hsz : le32 v (vA k + 16) = vSize v k := rfl
  unfold vWrite
  dsimp only
  rw [if_neg (by simp), hsz, if_neg (by omega), if_neg (by omega)]
  have hlen : (if len + off > g.obj then g.obj - off else len) = n := by
    rw [hn]; split <;> omega
  rw [hlen]
  clear hlen
  generalize hB : g.data (vPos v k) + off = A at hfit ⊢
  have hA : 2 * g.ss ≤ A := by omega
  have hmod : A % g.ss < g.ss := Nat.mod_lt _ hs
  have hAb : 2 * g.ss ≤ A - A % g.ss := by
    have h1 := Nat.div_add_mod' A g.ss
    have h2 : 2 ≤ A / g.ss := (Nat.le_div_iff_mul_le hs).mpr hA
    have h3 : 2 * g.ss ≤ A / g.ss * g.ss := Nat.mul_le_mul_right _ h2
    omega
  by_cases h0 : n = 0
  · subst h0
    refine ⟨[], v, ?_, rfl, fun _ _ => rfl, fun i hi => by rw [if_neg (by omega)], Or.inl ⟨rfl, rfl⟩⟩
    unfold vWriteLoop
    dsimp only
    rw [show vRun v [] = v from rfl, setSize_eq (by omega) h.hdr.magic]
    rfl
  · let c : Mem := fun i => if A % g.ss ≤ i ∧ i < A % g.ss + n then d (0 + (i - A % g.ss)) else v (A - A % g.ss + i)
    have hloop : vWriteLoop g (g.data (vPos v k)) d n n off 0 v = (off + n, n, vCommit g (A - A % g.ss) c) := by
      obtain ⟨m, hm⟩ : ∃ m, n = m + 1 := ⟨n - 1, by omega⟩
      have hstop : ∀ f o v', vWriteLoop g (g.data (vPos v k)) d n f o n v' = (o, n, []) := by
        intro f o v'
        cases f with
        | zero => rfl
        | succ f => unfold vWriteLoop; exact if_neg (by omega)
      conv_lhs => rw [show vWriteLoop g (g.data (vPos v k)) d n n off 0 v = vWriteLoop g (g.data (vPos v k)) d n (m + 1) off 0 v by rw [← hm]]
      unfold vWriteLoop
      rw [if_pos (by omega), hB]
      dsimp only
      have hn' : (if g.ss - A % g.ss > n then n else g.ss - A % g.ss) = n := by split <;> omega
      rw [hn', Nat.zero_add, hstop]
      dsimp only
      rw [List.append_nil]
    have hdone : vRun v (vCommit g (A - A % g.ss) c) = dataDone g v (A - A % g.ss) c := run_commit _ _ _ _
    have hhdr : SameHdr g (dataDone g v (A - A % g.ss) c) v := dataDone_hdr hAb
    refine ⟨vCommit g (A - A % g.ss) c, dataDone g v (A - A % g.ss) c, ?_, hdone, hhdr, ?_, Or.inr ⟨h0, c, rfl, rfl⟩⟩
    · rw [hloop]
      dsimp only
      rw [hdone]
      rw [setSize_eq (by omega) (by rw [hhdr.le32 (by have := w.table; omega)]; exact h.hdr.magic)]
    · intro i hi
      rw [dataDone_at hi]
      have hle := Nat.mod_le A g.ss
      by_cases hin : A ≤ i ∧ i < A + n
      · rw [if_pos hin, if_pos (by omega)]
        show (if A % g.ss ≤ i - (A - A % g.ss) ∧ i - (A - A % g.ss) < A % g.ss + n then _ else _) = _
        rw [if_pos (by omega)]
        congr 1; omega
      · rw [if_neg hin]
        split
        · show (if A % g.ss ≤ i - (A - A % g.ss) ∧ i - (A - A % g.ss) < A % g.ss + n then _ else _) = _
          rw [if_neg (by omega)]
          congr 1; omega
        · rfl

/-- The data of a write at the end of the object: the invariant and all contents stay. -/
theorem write_data {g : VCfg} (w : g.OK) {v v1 : Mem} (h : VInv g v) {k : Nat} (hk : k < g.nodes) (hu : VUsed v k) {d : Mem} {n : Nat}
    (hn : vSize v k + n ≤ g.obj) (hh : SameHdr g v1 v)
    (hd : ∀ i, 2 * g.ss ≤ i → v1 i = if g.data (vPos v k) + vSize v k ≤ i ∧ i < g.data (vPos v k) + vSize v k + n then
      d (i - (g.data (vPos v k) + vSize v k)) else v i) :
    VInv g v1 ∧ ∀ j, j < g.nodes → VUsed v j → vContent g v1 j = vContent g v j := by
  have hlow := h.hdr.low k hk hu
  have hoth : ∀ j, j < g.nodes → VUsed v j → j ≠ k → ∀ i, g.data (vPos v j) ≤ i → i < g.data (vPos v j) + g.obj → v1 i = v i := by
    intro j hj uj hne i a b
    have h1 := g.data_apart (h.hdr.uniq j k hj hk uj hu hne).1
    have h2 := data_ge g (vPos v j)
    rw [hd i (by omega), if_neg (by omega)]
  have hself : ∀ i, g.data (vPos v k) ≤ i → i < g.data (vPos v k) + vSize v k → v1 i = v i := by
    intro i a b
    have h2 := data_ge g (vPos v k)
    rw [hd i (by omega), if_neg (by omega)]
  refine ⟨⟨hh.inv w h.hdr, ?_⟩, ?_⟩
  · intro j hj uj
    obtain ⟨e1, e2, e3, e4⟩ := hh.node w hj
    rw [e1, e2]
    by_cases hjk : j = k
    · subst hjk
      have hm := h.marks j hj hu
      refine ⟨?_, ?_⟩
      · rw [← hm.1]; exact le32_congr fun i a b => hself i (by omega) (by omega)
      · rw [← hm.2]; exact le32_congr fun i a b => hself i (by omega) (by omega)
    · exact (mark_congr w (hoth j hj (e4.mp uj) hjk)).mpr (h.marks j hj (e4.mp uj))
  · intro j hj uj
    obtain ⟨e1, e2, e3, e4⟩ := hh.node w hj
    by_cases hjk : j = k
    · subst hjk
      unfold vContent
      rw [e2, e3]
      exact slice_congr fun i a b => hself i (by omega) (by omega)
    · exact content_congr e2 e3 (h.hdr.low j hj uj).2.2.2.2 (hoth j hj uj hjk)

end Verif
