import Verif.PkcsRefine

/-!
# PKCS#11 object store: power loss, sequences of operations, empty flash (C34)
-/

namespace Verif

/-- From an object without content nothing or an empty object is read, whatever is in the sectors of the objects. -/
theorem get_empty {g : VCfg} (w : g.OK) {y : Mem} (h : HInv g y) {key : VKey} (hk : key.OK) {k : Nat} (hn : VNodeOf g y key k) (hs : vSize y k = 8) :
    vGet g key y = none ∨ vGet g key y = some [] := by
  have ho := w.table2
  have hnode := h.node hk.none hn.1 hn.2
  rw [vGet_ok h.magic]
  by_cases hm : VMark g y (vPos y k) key
  · right
    rw [(getAt_found w hnode hm (by omega) (by omega)).2, content_empty hs]
  · by_cases hb : le32 y (g.ss + g.io (vPos y k)) = key.tok ∧ le32 y (g.ss + g.io (vPos y k) + 4) = key.oid
    · right
      rw [getAt_restore w hnode hm hb (by omega) (by omega), content_empty]
      rw [← hs]
      have hle := w.nodes_le hn.1
      have hbase := (g.base_io w (vPos y k)).2
      exact le32_congr fun i a b => vPut_out (by omega)
    · left
      exact getAt_delete w hnode hm hb

/-- Power loss while an object is opened for writing. -/
theorem open_write_crash {g : VCfg} (w : g.OK) {v : Mem} (h : VInv g v) (hb : VBak g v) {key : VKey} (hk : key.OK) {hs : VHandles} {n : Nat}
    (hf : vFreeHandle hs 16 0 = some n) {l : List VOp} (hl : l <+: (vOpen g key false hs v).2.2) {key' : VKey} (hk' : key'.OK)
    (hex : vGet g key' v ≠ none ∨ key' = key) :
    vGet g key' (vRun v l) = vGet g key' v ∨ vGet g key' (vRun v l) = vGet g key' (vRun v (vOpen g key false hs v).2.2) := by
  have ho := w.table2
  rcases node_or_none g v key with ⟨k, k1, k2⟩ | hno
  · rw [open_existing w h hk ⟨k1, k2⟩ false hf] at hl ⊢
    have := size_crash w h k1 (s := 8) (by omega) (by omega) hl hk' (Or.inl hb)
    rcases this with e | e
    · exact Or.inl e
    · right
      rw [e]
      exact congrArg (vGet g key') (run_commit _ _ _ _).symm
  · have hdone := open_write_done w h hb hk hf
    rcases open_new w h hb hk hno hf with ⟨e1, e2⟩ | ⟨k0, p, c1, hc, e⟩
    · rw [e1] at hl
      left
      rw [List.prefix_nil.mp hl]; rfl
    · rcases hdone with ⟨_, e', _⟩ | ⟨k0', ops, e', hx, hbx, hnx, hsx, hoth, _⟩
      · rw [e'] at e; simp at e
      rw [e'] at hl ⊢
      have hops : ops = _ := congrArg (fun r => r.2.2) (e'.symm.trans e)
      clear e e'
      have hfin : key' = key → vGet g key' (vRun v ops) = some [] := by
        intro ek
        rw [ek, hx.get w hk.none hnx, content_empty hsx]
      generalize vRun v ops = x at hfin ⊢
      clear hx hbx hnx hsx hoth
      rw [hops] at hl
      clear hops
      obtain ⟨hi1, hv2, hn1, hn2, hrest⟩ := created w h hk hc
      have hn0 : VNodeOf g (hdrDone g v c1) key k0 := ⟨hc.node, (hn1 k0 hc.node).1.trans hc.key0⟩
      have hs0 : vSize (hdrDone g v c1) k0 = 8 := (hn1 k0 hc.node).2.2.trans hc.size0
      -- it is enough to show that nothing or the empty object is read from the new one, and the same as before from the others
      have hgoal : ∀ y, (key' = key → vGet g key' y = none ∨ vGet g key' y = some []) →
          (∀ k, VNodeOf g v key' k → k ≠ k0 → vGet g key' y = some (vContent g v k)) → vGet g key' y = vGet g key' v ∨ vGet g key' y = vGet g key' x := by
        intro y h1 h2
        by_cases ek : key' = key
        · rcases h1 ek with e | e
          · left; rw [e, ek, (h.absent w hb hk hno).2]
          · right; rw [e, hfin ek]
        · left
          rcases node_or_none g v key' with ⟨k, k1, k2⟩ | hno'
          · have hne : k ≠ k0 := fun ee => hc.free (by rw [← ee]; exact used_of_key hk'.none k2)
            rw [h2 k ⟨k1, k2⟩ hne, h.get w hk'.none ⟨k1, k2⟩]
          · rcases hex with hex | hex
            · exact absurd (h.absent w hb hk' hno').2 hex
            · exact absurd hex ek
      have hold : ∀ k, VNodeOf g v key' k → VUsed v k := fun k hk => used_of_key hk'.none hk.2
      rcases prefix_append hl with hl | ⟨t, rfl, ht⟩
      · -- the header
        rcases header_crash (v := v) w hc.hdr hl with e | ⟨e1, e2, e3⟩
        · apply hgoal
          · intro ek
            rw [e key', ek]
            exact get_empty w hi1 hk hn0 hs0
          · intro k hkn hne
            obtain ⟨q1, q2, q3⟩ := hc.keep k hne
            obtain ⟨f1, f2, f3⟩ := hn1 k hkn.1
            obtain ⟨r1, r2, _⟩ := hrest k hkn.1 hne (hold k hkn)
            rw [hkn.2] at r1
            rw [e key', (hi1.get w hk'.none hkn.1 ((f1.trans q1).trans hkn.2) (by rw [f2, q2]; exact r1)).2, r2]
        · left
          exact same_get w h e1 e2 hk' (by rcases e3 with e | e <;> [exact Or.inr e; exact Or.inl e]) hb
      · rw [vRun_append, show vRun v (vCommit g 0 c1) = hdrDone g v c1 from run_commit _ _ _ _]
        have hbase := (g.base_io w p).2
        rcases prefix_append ht with ht | ⟨u, rfl, hu⟩
        · -- the identifiers
          apply hgoal
          · intro ek
            subst ek
            have hm : VMark g (dataDone g (hdrDone g v c1) (g.base p) (vMarked g (hdrDone g v c1) key' p)) (vPos (hdrDone g v c1) k0) key' := by
              rw [(hn1 k0 hc.node).2.1, hc.pos0]
              exact marked_mark w hk
            rcases data_crash w hi1 hk'.none hn0.1 hn0.2 hm ht with e | ⟨e1, _, _⟩
            · right
              rw [e, content_empty]
              rw [(hn2 k0 hc.node).2.2]; exact hc.size0
            · obtain ⟨m1, m2, m3, _⟩ := e1.node w hc.node
              exact get_empty w (e1.inv w hi1) hk ⟨hc.node, m1.trans hn0.2⟩ (m3.trans hs0)
          · intro k hkn hne
            obtain ⟨q1, q2, q3⟩ := hc.keep k hne
            obtain ⟨f1, f2, f3⟩ := hn1 k hkn.1
            obtain ⟨g1, g2, g3⟩ := hn2 k hkn.1
            obtain ⟨r1, r2, r3⟩ := hrest k hkn.1 hne (hold k hkn)
            have hkey : vKey (hdrDone g v c1) k = key' := (f1.trans q1).trans hkn.2
            have hm := hv2.marks k hkn.1 ((key_used (g1.trans q1)).mpr (hold k hkn))
            rw [g1, g2, q1, hkn.2, ← f2] at hm
            rcases data_crash w hi1 hk'.none hkn.1 hkey hm ht with e | ⟨e1, e2, _⟩
            · rw [e, r3]
            · rw [same_get_node w hi1 e1 e2 hk'.none ⟨hkn.1, hkey⟩ (by rw [f2, q2, ← hkn.2]; exact r1), r2]
        · -- the size
          rw [vRun_append, show vRun (hdrDone g v c1) (vCommit g (g.base p) (vMarked g (hdrDone g v c1) key p)) =
            dataDone g (hdrDone g v c1) (g.base p) (vMarked g (hdrDone g v c1) key p) from run_commit _ _ _ _]
          have hnode2 : key' = key → VNodeOf g (dataDone g (hdrDone g v c1) (g.base p) (vMarked g (hdrDone g v c1) key p)) key' k0 :=
            fun ek => ⟨hc.node, by rw [ek]; exact (hn2 k0 hc.node).1.trans hc.key0⟩
          have hnode2' : ∀ k, VNodeOf g v key' k → k ≠ k0 → VNodeOf g (dataDone g (hdrDone g v c1) (g.base p) (vMarked g (hdrDone g v c1) key p)) key' k :=
            fun k a b => ⟨a.1, ((hn2 k a.1).1.trans (hc.keep k b).1).trans a.2⟩
          have hs2 := (hn2 k0 hc.node).2.2.trans hc.size0
          have hc2 : ∀ k, VNodeOf g v key' k → k ≠ k0 →
              vContent g (dataDone g (hdrDone g v c1) (g.base p) (vMarked g (hdrDone g v c1) key p)) k = vContent g v k :=
            fun k a b => (hrest k a.1 b (hold k a)).2.2
          generalize dataDone g (hdrDone g v c1) (g.base p) (vMarked g (hdrDone g v c1) key p) = v2 at hv2 hn2 hnode2 hnode2' hs2 hc2 hu ⊢
          obtain ⟨hi3, hx3, hbx3, hnx3⟩ := size_done w hv2 hc.node (s := 8) (by omega) (by omega)
          have hd3 := hdrDone_data g v2 (putW v2 (vA k0 + 16) 8)
          apply hgoal
          · intro ek
            right
            have := size_crash w hv2 hc.node (s := 8) (by omega) (by omega) hu hk' (Or.inr ⟨k0, hnode2 ek⟩)
            rcases this with e | e
            · rw [e, hv2.get w hk'.none (hnode2 ek), content_empty hs2]
            · rw [e, hx3.get w hk'.none ⟨hc.node, (hnx3 k0 hc.node).1.trans (hnode2 ek).2⟩, content_empty]
              rw [(hnx3 k0 hc.node).2.2, if_pos rfl]
          · intro k hkn hne
            have := size_crash w hv2 hc.node (s := 8) (by omega) (by omega) hu hk' (Or.inr ⟨k, hnode2' k hkn hne⟩)
            rcases this with e | e
            · rw [e, hv2.get w hk'.none (hnode2' k hkn hne), hc2 k hkn hne]
            · obtain ⟨m1, m2, m3⟩ := hnx3 k hkn.1
              rw [if_neg hne] at m3
              rw [e, hx3.get w hk'.none ⟨hkn.1, m1.trans (hnode2' k hkn hne).2⟩, ← hc2 k hkn hne]
              congr 1
              refine content_congr m2 m3 ?_ fun i a _ => hd3 i (by have := data_ge g (vPos v2 k); omega)
              exact (hv2.hdr.low k hkn.1 (used_of_key hk'.none (hnode2' k hkn hne).2)).2.2.2.2

/-- Power loss during a write at the end of an object, in the sector in which the object starts. -/
theorem write_crash {g : VCfg} (w : g.OK) {v : Mem} (h : VInv g v) {k : Nat} (hk : k < g.nodes) (hu : VUsed v k) (d : Mem) (len n : Nat)
    (hn : n = min len (g.obj - vSize v k)) (hfit : g.io (vPos v k) + vSize v k + n ≤ g.ss)
    {l : List VOp} (hl : l <+: (vWrite g ⟨false, g.data (vPos v k), vA k, vSize v k⟩ d len v).2.2) {key' : VKey} (hk' : key'.OK) {k' : Nat}
    (hn' : VNodeOf g v key' k') :
    vGet g key' (vRun v l) = vGet g key' v ∨
      vGet g key' (vRun v l) = vGet g key' (vRun v (vWrite g ⟨false, g.data (vPos v k), vA k, vSize v k⟩ d len v).2.2) := by
  have hlow := h.hdr.low k hk hu
  have ht := w.table
  have hmod : n ≠ 0 → (g.data (vPos v k) + vSize v k) % g.ss = g.io (vPos v k) + vSize v k := by
    intro h0
    rw [mod_io, Nat.mod_eq_of_lt (by omega)]
  have hfit' : (g.data (vPos v k) + vSize v k) % g.ss + n ≤ g.ss := by
    by_cases h0 : n = 0
    · have := Nat.mod_lt (g.data (vPos v k) + vSize v k) (show 0 < g.ss by omega)
      omega
    · rw [hmod h0]; exact hfit
  obtain ⟨dops, v1, e1, e2, e3, e4, e5⟩ := write_ops w h hk hu hlow.2.2.2.1 hlow.2.2.2.2 d len n hn hfit'
  rw [e1] at hl ⊢
  dsimp only at hl ⊢
  obtain ⟨hv1, hc1⟩ := write_data w h hk hu (by omega) e3 e4
  have hu' := used_of_key hk'.none hn'.2
  obtain ⟨f1, f2, f3, f4⟩ := e3.node w hn'.1
  have hg1 : vGet g key' v1 = vGet g key' v := by
    rw [hv1.get w hk'.none ⟨hn'.1, f1.trans hn'.2⟩, h.get w hk'.none hn', hc1 k' hn'.1 hu']
  have hsize : ∀ u, u <+: vCommit g 0 (putW v1 (vA k + 16) (vSize v k + n)) →
      vGet g key' (vRun v1 u) = vGet g key' v ∨ vGet g key' (vRun v1 u) = vGet g key' (vRun v (dops ++ vCommit g 0 (putW v1 (vA k + 16) (vSize v k + n)))) := by
    intro u hu
    have := size_crash w hv1 hk (s := vSize v k + n) (by omega) (by omega) hu hk' (Or.inr ⟨k', hn'.1, f1.trans hn'.2⟩)
    rcases this with e | e
    · left; rw [e, hg1]
    · right
      rw [e, vRun_append, e2]
      exact congrArg (vGet g key') (run_commit _ _ _ _).symm
  rcases prefix_append hl with hl | ⟨u, rfl, hu⟩
  · left
    rcases e5 with ⟨_, rfl⟩ | ⟨h0, c, rfl, hv1e⟩
    · rw [List.prefix_nil.mp hl]; rfl
    · have hbase : g.data (vPos v k) + vSize v k - (g.data (vPos v k) + vSize v k) % g.ss = g.base (vPos v k) := by
        have := (g.base_io w (vPos v k)).1
        rw [hmod h0]; omega
      rw [hbase] at hl hv1e
      have hm := hv1.marks k' hn'.1 (f4.mpr hu')
      rw [f1, f2, hn'.2, hv1e] at hm
      rcases data_crash w h.hdr hk'.none hn'.1 hn'.2 hm hl with e | ⟨q1, q2, _⟩
      · rw [e, ← hv1e, hc1 k' hn'.1 hu', h.get w hk'.none hn']
      · rw [same_get_node w h.hdr q1 q2 hk'.none hn' (by rw [← hn'.2]; exact h.marks k' hn'.1 hu'), h.get w hk'.none hn']
  · rw [vRun_append, e2]
    exact hsize u hu

/-! ## Power loss, in terms of the specification -/

/-- Writes that are protected against power loss: objects do not leave their sector, or this write is in the first sector of the object. -/
def SAtomic (g : VCfg) (s : SState) : SOp → Prop
  | .write h _ len => g.ss % g.obj = 0 ∨ ∀ y c, s.hs h = some y → s.obj y.key = some c → 8 + c.length + min len (g.obj - 8 - c.length) ≤ g.ss
  | _ => True

/-- Power loss at any flash operation: from every object that exists (or is being created) the old or the new content is read afterwards. -/
theorem store_power_loss_partial {g : VCfg} (w : g.OK) {v : Mem} {hs : VHandles} {s : SState} (h : VAbs g v hs s) {op : SOp} (hv : SValid g s op)
    (ha : SAtomic g s op) {l : List VOp} (hl : l <+: (vStep g hs v op).2.2) :
    ∃ s', SStep (g.obj - 8) g.items s op (vStep g hs v op).1 s' ∧
      ∀ key, key.OK → (s.obj key ≠ none ∨ op = .openW key) → vGet g key (vRun v l) = s.obj key ∨ vGet g key (vRun v l) = s'.obj key := by
  obtain ⟨s', h1, h2⟩ := store_step w h hv
  refine ⟨s', h1, ?_⟩
  intro key hk hex
  rw [h.obj key hk] at hex ⊢
  rw [h2.obj key hk]
  have hnil : ∀ l : List VOp, l <+: [] → vGet g key (vRun v l) = vGet g key v := by
    intro l hl
    rw [List.prefix_nil.mp hl]; rfl
  clear h1 h2
  cases op with
  | openR key0 =>
    left
    have hops : (vStep g hs v (.openR key0)).2.2 = [] := by
      have hk0 : key0.OK := hv
      unfold vStep
      dsimp only
      cases hf : vFreeHandle hs 16 0 with
      | none => unfold vOpen; rw [hf]
      | some n =>
        rcases node_or_none g v key0 with ⟨k, k1, k2⟩ | hnone
        · rw [open_existing w h.inv hk0 ⟨k1, k2⟩ true hf]; rfl
        · rw [open_read_absent w h.inv h.bak hk0 hnone hf]
    rw [hops] at hl
    exact hnil l hl
  | openW key0 =>
    obtain ⟨hk0, hx⟩ : key0.OK ∧ ∀ h y, s.hs h = some y → y.ro = false → y.key ≠ key0 := hv
    have hops : (vStep g hs v (.openW key0)).2.2 = (vOpen g key0 false hs v).2.2 := by
      unfold vStep
      dsimp only
      generalize vOpen g key0 false hs v = r
      obtain ⟨r, hs', o⟩ := r
      cases r <;> rfl
    rw [hops] at hl ⊢
    cases hf : vFreeHandle hs 16 0 with
    | none =>
      left
      have : vOpen g key0 false hs v = (.sessionCount, hs, []) := by unfold vOpen; rw [hf]
      rw [this] at hl
      exact hnil l hl
    | some n =>
      refine open_write_crash w h.inv h.bak hk0 hf hl hk ?_
      rcases hex with e | e
      · exact Or.inl e
      · right
        injection e with e
        exact e.symm
  | read i len =>
    left
    refine hnil l ?_
    unfold vStep at hl
    dsimp only at hl
    cases hz : hs i with
    | none => rw [hz] at hl; exact hl
    | some x => rw [hz] at hl; exact hl
  | write i d len =>
    have hr := h.rel i
    cases hz : hs i with
    | none =>
      left
      refine hnil l ?_
      unfold vStep at hl
      dsimp only at hl
      rw [hz] at hl; exact hl
    | some x =>
      have hops : (vStep g hs v (.write i d len)).2.2 = (vWrite g x d len v).2.2 := by
        unfold vStep
        dsimp only
        rw [hz]
      rw [hops] at hl ⊢
      cases hy : s.hs i with
      | none => rw [hz, hy] at hr; exact hr.elim
      | some y =>
        rw [hz, hy] at hr
        obtain ⟨hk0, k, hn, rfl, ho⟩ := hr
        obtain ⟨key0, ro, off⟩ := y
        dsimp only at hk0 hn ho hl ⊢
        cases ro with
        | true =>
          left
          exact hnil l hl
        | false =>
          have hc := obj_node w h hk0 hn
          have hu := used_of_key hk0.none hn.2
          have hlow := h.inv.hdr.low k hn.1 hu
          have hlen := content_length g v k
          have hoff := ho rfl
          rw [hoff] at hl ⊢
          have hmin : min len (g.obj - 8 - (vContent g v k).length) = min len (g.obj - vSize v k) := by
            rw [hlen]; congr 1; omega
          have hex' : ∃ k', VNodeOf g v key k' := by
            rcases hex with e | e
            · rcases node_or_none g v key with ⟨k', a, b⟩ | hno
              · exact ⟨k', a, b⟩
              · exact absurd (h.inv.absent w h.bak hk hno).2 e
            · simp at e
          obtain ⟨k', hn'⟩ := hex'
          refine write_crash w h.inv hn.1 hu d len _ rfl ?_ hl hk hn'
          have hle : min len (g.obj - vSize v k) ≤ g.obj - vSize v k := Nat.min_le_right _ _
          rcases g.io_fit w (vPos v k) with ⟨_, q1, _⟩ | ⟨_, q1⟩
          · omega
          · rcases ha with ha | ha
            · have := Nat.le_of_dvd (show 0 < g.ss by have := w.table; omega) (Nat.dvd_of_mod_eq_zero ha)
              omega
            · have := ha ⟨key0, false, off⟩ _ hy hc
              rw [hmin, hlen] at this
              omega
  | close i => exact Or.inl (hnil l hl)

/-! ## Sequences -/

/-- A sequence of operations: results, handles and vault at the end. -/
def vExec (g : VCfg) (hs : VHandles) (v : Mem) : List SOp → List SRes × VHandles × Mem
  | [] => ([], hs, v)
  | op :: ops =>
    let r := vStep g hs v op
    let t := vExec g r.2.1 (vRun v r.2.2) ops
    (r.1 :: t.1, t.2)

/-- A sequence of operations of the specification. -/
inductive SRun (cap items : Nat) : SState → List SOp → List SRes → SState → Prop where
  | nil {s} : SRun cap items s [] [] s
  | cons {s op r s' ops rs s''} : SStep cap items s op r s' → SRun cap items s' ops rs s'' → SRun cap items s (op :: ops) (r :: rs) s''

/-- The application respects the rules all the time. -/
def SAdmits (g : VCfg) : SState → List SOp → Prop
  | _, [] => True
  | s, op :: ops => SValid g s op ∧ ∀ r s', SStep (g.obj - 8) g.items s op r s' → SAdmits g s' ops

/-- All sequences of operations give the results of the specification. -/
theorem store_refines_partial {g : VCfg} (w : g.OK) : ∀ (ops : List SOp) {v : Mem} {hs : VHandles} {s : SState}, VAbs g v hs s → SAdmits g s ops →
    ∃ s', SRun (g.obj - 8) g.items s ops (vExec g hs v ops).1 s' ∧ VAbs g (vExec g hs v ops).2.2 (vExec g hs v ops).2.1 s' := by
  intro ops
  induction ops with
  | nil => intro v hs s h _; exact ⟨s, .nil, h⟩
  | cons op ops ih =>
    intro v hs s h ha
    obtain ⟨s1, h1, h2⟩ := store_step w h ha.1
    obtain ⟨s2, h3, h4⟩ := ih h2 (ha.2 _ _ h1)
    exact ⟨s2, .cons h1 h3, h4⟩

/-! ## Empty flash -/

/-- An empty store. -/
def sEmpty : SState := ⟨fun _ => none, fun _ => none⟩

theorem fresh_at {g : VCfg} (w : g.OK) {i : Nat} (h : 32 ≤ i) : vFresh g i = 0xFF#8 := by
  have := w.items
  unfold vFresh
  rw [if_neg (by omega), putW_out (by omega)]

theorem fresh_hinv {g : VCfg} (w : g.OK) : HInv g (vFresh g) ∧ ∀ k, ¬ VUsed (vFresh g) k := by
  have hi := w.items
  have hff : ∀ a, 32 ≤ a → le32 (vFresh g) a = VNONE := fun a ha => le32_ff fun i _ => fresh_at w (by omega)
  have hu : ∀ k, ¬ VUsed (vFresh g) k := fun k hc => hc (hff _ (by unfold vA; omega))
  refine ⟨⟨?_, fun j a _ => hff _ (by omega), fun k _ h => absurd h (hu k), ?_, ?_, fun j k _ _ h => absurd h (hu j)⟩, hu⟩
  · rw [← le32_putW (fun _ => 0xFF#8) 0 VMAGIC (by decide)]
    refine le32_agree fun i hi => ?_
    unfold vFresh
    rw [if_neg (by omega)]
  · intro p hp hb
    have : vBit (vFresh g) p = false := by
      unfold vBit vFresh
      rw [if_pos (by omega)]
      simp
    rw [this] at hb
    simp at hb
  · intro k _
    rw [hff _ (by unfold vA; omega)]
    decide

theorem abs_empty {g : VCfg} (w : g.OK) {x : Mem} (hh : SameHdr g x (vFresh g)) (hb : VBak g x) : VAbs g x (fun _ => none) sEmpty := by
  obtain ⟨h1, h2⟩ := fresh_hinv w
  have hu : ∀ k, k < g.nodes → ¬ VUsed x k := fun k hk hc => h2 k ((hh.node w hk).2.2.2.mp hc)
  have hinv : VInv g x := ⟨hh.inv w h1, fun k hk hc => absurd hc (hu k hk)⟩
  refine ⟨hinv, hb, ?_, fun _ => trivial, fun h _ y _ a => by simp [sEmpty] at a⟩
  intro key hk
  rw [(hinv.absent w hb hk fun k hn e => hu k hn (used_of_key hk.none e)).2]
  rfl

/-- A vault whose header and backup have no magic number becomes an empty store, also if power fails while it is initialised. -/
theorem store_format {g : VCfg} (w : g.OK) {v : Mem} (h0 : le32 v 0 ≠ VMAGIC) (h1 : le32 v g.ss ≠ VMAGIC) {l : List VOp} (hl : l <+: vCheck g v) :
    VAbs g (vRun (vRun v l) (vCheck g (vRun v l))) (fun _ => none) sEmpty := by
  have ht := w.table
  obtain ⟨hf, _⟩ := fresh_hinv w
  have hfull : ∀ y, le32 y 0 ≠ VMAGIC → le32 y g.ss ≠ VMAGIC → VAbs g (vRun y (vCheck g y)) (fun _ => none) sEmpty := by
    intro y a b
    unfold vCheck
    rw [if_neg a, if_neg b, vRun_append, run_commit]
    apply abs_empty w
    · intro i hi
      rw [run_erase, vPut_out (by omega), vPut_in (by omega) (by omega), Nat.sub_zero]
    · apply bak_of_hdr w hf
      intro i hi
      rw [run_erase, vPut_out (by omega), vPut_out (by omega), vPut_in (by omega) (by omega), Nat.add_sub_cancel_left]
  have hdone : ∀ y, SameHdr g y (vFresh g) → (∀ i, i < g.ss → y (g.ss + i) = vFresh g i) → VAbs g (vRun y (vCheck g y)) (fun _ => none) sEmpty := by
    intro y a b
    rw [vCheck_ok (by rw [a.le32 (by omega)]; exact hf.magic)]
    exact abs_empty w a (bak_of_hdr w hf b)
  have hbak : ∀ y, le32 y 0 ≠ VMAGIC → (∀ i, i < g.ss → y (g.ss + i) = vFresh g i) → VAbs g (vRun y (vCheck g y)) (fun _ => none) sEmpty := by
    intro y a b
    have hm : le32 y g.ss = VMAGIC := by
      rw [← hf.magic]
      exact le32_agree fun i hi => by rw [b i (by omega), Nat.zero_add]
    unfold vCheck
    rw [if_neg a, if_pos hm, run_restore g y 0 (by omega)]
    apply abs_empty w
    · intro i hi
      rw [vPut_in (by omega) (by omega), Nat.sub_zero, b i hi]
    · apply bak_of_hdr w hf
      intro i hi
      rw [vPut_out (by omega), b i hi]
  unfold vCheck at hl
  rw [if_neg h0, if_neg h1] at hl
  have hmag : ∀ a, le32 (vPut v g.ss g.ss a) 0 = le32 v 0 := fun a => le32_agree fun i hi => vPut_out (by omega)
  rcases prefix_append hl with hl | ⟨t, rfl, ht'⟩
  · rcases commit_prefix (v := v) hl with e | e | e | e | e
    · rw [e]; exact hfull v h0 h1
    · rw [e]
      refine hfull _ (by rw [hmag]; exact h0) ?_
      rw [le32_ff fun i hi => vPut_in (by omega) (by omega)]
      decide
    · rw [e]
      refine hbak _ (by rw [hmag]; exact h0) fun i hi => ?_
      rw [vPut_in (by omega) (by omega), Nat.add_sub_cancel_left]
    · rw [e]
      refine hbak _ ?_ fun i hi => ?_
      · rw [le32_ff fun i hi => vPut_in (by omega) (by omega)]
        decide
      · rw [vPut_out (by omega), vPut_in (by omega) (by omega), Nat.add_sub_cancel_left]
    · rw [e]
      refine hdone _ (hdrDone_hdr g v _) fun i hi => ?_
      rw [vPut_out (by omega), vPut_in (by omega) (by omega), Nat.add_sub_cancel_left]
  · rw [vRun_append, run_commit]
    have h2 : ∀ i, i < 2 * g.ss → vRun (vPut (vPut v g.ss g.ss (vFresh g)) 0 g.ss (vFresh g)) t i =
        vPut (vPut v g.ss g.ss (vFresh g)) 0 g.ss (vFresh g) i := by
      intro i hi
      have ht2 : t = [] ∨ t = [.erase (2 * g.ss) g.total] := by
        have hlen := ht'.length_le
        cases t with
        | nil => exact Or.inl rfl
        | cons a t =>
          right
          obtain ⟨s, hs⟩ := ht'
          simp only [List.cons_append, List.cons.injEq] at hs
          rw [hs.1, (List.append_eq_nil_iff.mp hs.2).1]
      rcases ht2 with rfl | rfl
      · rfl
      · rw [run_erase, vPut_out (by omega)]
    refine hdone _ ?_ ?_
    · intro i hi
      rw [h2 i (by omega)]
      exact hdrDone_hdr g v _ i hi
    · intro i hi
      rw [h2 _ (by omega), vPut_out (by omega), vPut_in (by omega) (by omega), Nat.add_sub_cancel_left]

/-- Opening an object on flash that is not initialised is opening it after `check_vault`. -/
theorem open_checked (g : VCfg) (key : VKey) (rd : Bool) (hs : VHandles) (v : Mem) (hm : le32 (vRun v (vCheck g v)) 0 = VMAGIC)
    {n : Nat} (hf : vFreeHandle hs 16 0 = some n) :
    vOpen g key rd hs v = ((vOpen g key rd hs (vRun v (vCheck g v))).1, (vOpen g key rd hs (vRun v (vCheck g v))).2.1,
      vCheck g v ++ (vOpen g key rd hs (vRun v (vCheck g v))).2.2) := by
  unfold vOpen
  rw [hf]
  dsimp only
  rw [vCheck_ok hm]
  generalize vRun v (vCheck g v) = x
  rw [show vRun x [] = x from rfl]
  generalize vFind g key x = r
  obtain ⟨r, o⟩ := r
  cases r with
  | some b =>
    dsimp only
    generalize vScan (vRun x o) key g.scan 128 = q
    cases q <;> simp
  | none =>
    dsimp only
    cases rd with
    | true => simp
    | false =>
      rw [if_neg (by simp), if_neg (by simp)]
      generalize vCreate g key (vRun x o) = q
      obtain ⟨q, o2⟩ := q
      cases q with
      | none => simp
      | some a =>
        dsimp only
        generalize vFind g key (vRun (vRun x o) o2) = z
        obtain ⟨z, o3⟩ := z
        cases z <;> simp

end Verif
