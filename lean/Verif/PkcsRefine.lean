import Verif.PkcsSpec

/-!
# PKCS#11 object store: the store is a map from keys to byte strings; power loss (C34)
-/

namespace Verif

theorem fset_same {α β : Type} [DecidableEq α] (f : α → β) (a : α) (b : β) : fset f a b a = b := if_pos rfl

theorem fset_other {α β : Type} [DecidableEq α] (f : α → β) {a x : α} (b : β) (h : x ≠ a) : fset f a b x = f x := if_neg h

theorem fset_self {α β : Type} [DecidableEq α] (f : α → β) (a : α) : fset f a (f a) = f := by
  funext x
  by_cases h : x = a
  · rw [h, fset_same]
  · rw [fset_other _ _ h]

theorem open_read_absent {g : VCfg} (w : g.OK) {v : Mem} (h : VInv g v) (hb : VBak g v) {key : VKey} (hk : key.OK) (hno : NoNode g v key)
    {hs : VHandles} {n : Nat} (hf : vFreeHandle hs 16 0 = some n) : vOpen g key true hs v = (.notAvailable, hs, []) := by
  unfold vOpen
  rw [hf]
  dsimp only
  rw [vCheck_ok h.hdr.magic, show vRun v [] = v from rfl, (h.absent w hb hk hno).1]
  rfl

theorem mod_io (g : VCfg) (p a : Nat) : (g.data p + a) % g.ss = (g.io p + a) % g.ss := by
  unfold VCfg.data VCfg.io
  rw [show 2 * g.ss + p * g.obj + a = p * g.obj + a + g.ss * 2 by omega, Nat.add_mul_mod_self_left, Nat.mod_add_mod]

theorem write_fit {g : VCfg} (w : g.OK) {p size n : Nat} (hs : size ≤ g.obj) (hn : n ≤ g.obj - size) (h : g.ss % g.obj = 0 ∨ size % g.ss + n ≤ g.ss) :
    (g.data p + size) % g.ss + n ≤ g.ss := by
  rw [mod_io]
  have ht := w.table
  have small : g.io p + g.obj ≤ g.ss → (g.io p + size) % g.ss + n ≤ g.ss := by
    intro hle
    by_cases he : g.io p + size < g.ss
    · rw [Nat.mod_eq_of_lt he]; omega
    · have := Nat.mod_lt (g.io p + size) (show 0 < g.ss by omega)
      omega
  rcases g.io_fit w p with ⟨_, h1, _⟩ | ⟨hd, h1⟩
  · exact small h1
  · rcases h with h | h
    · refine small ?_
      rw [h1, Nat.zero_add]
      exact Nat.le_of_dvd (by omega) (Nat.dvd_of_mod_eq_zero h)
    · rw [h1, Nat.zero_add]; exact h

theorem content_length (g : VCfg) (v : Mem) (k : Nat) : (vContent g v k).length = vSize v k - 8 := slice_length _ _ _

theorem content_empty {g : VCfg} {v : Mem} {k : Nat} (h : vSize v k = 8) : vContent g v k = [] := by
  unfold vContent
  rw [h]; rfl

theorem unused_key {v : Mem} {k : Nat} {key : VKey} (hk : key.OK) (h : ¬ VUsed v k) : key ≠ vKey v k := by
  intro e
  exact h (used_of_key hk.none e.symm)

/-- A vault without room for another object has as many objects as it can have. -/
theorem full_of_none {g : VCfg} (w : g.OK) {v : Mem} (h : VInv g v) {s : SState} (ho : ∀ key, key.OK → s.obj key = vGet g key v)
    (hf : vFreeNode v g.nodes 128 = none ∨ vFreePos v g.items 0 = none) : SFull s g.items := by
  have hnode : ∀ k, k < g.nodes → VUsed v k → s.obj (vKey v k) ≠ none := by
    intro k hk hu
    have hok := h.hdr.keyOK hk hu
    rw [ho _ hok, h.get w hok.none ⟨hk, rfl⟩]
    simp
  have hle : g.items ≤ g.nodes := by
    have := w.table; have := w.ss32
    unfold VCfg.nodes
    omega
  rcases hf with hf | hf
  · have hu : ∀ k, k < g.nodes → VUsed v k := fun k hk => freeNode_none hf k hk
    refine ⟨fun k => vKey v k, fun i hi => hnode i (by omega) (hu i (by omega)), ?_⟩
    intro i j hi hj e
    by_cases hij : i = j
    · exact hij
    · exact absurd e (h.hdr.uniq i j (by omega) (by omega) (hu i (by omega)) (hu j (by omega)) hij).2
  · have hb : ∀ p, p < g.items → ∃ k, k < g.nodes ∧ VUsed v k ∧ vPos v k = p := by
      intro p hp
      have := freePos_none hf p hp
      rw [Nat.zero_add] at this
      exact h.hdr.bits p hp this
    classical
    refine ⟨fun p => if hp : p < g.items then vKey v (hb p hp).choose else ⟨0, 0, 0⟩, ?_, ?_⟩
    · intro i hi
      simp only [dif_pos hi]
      have hc := (hb i hi).choose_spec
      exact hnode _ hc.1 hc.2.1
    · intro i j hi hj e
      simp only [dif_pos hi, dif_pos hj] at e
      have ci := (hb i hi).choose_spec
      have cj := (hb j hj).choose_spec
      generalize (hb i hi).choose = a at e ci
      generalize (hb j hj).choose = b at e cj
      by_cases hab : a = b
      · rw [← ci.2.2, ← cj.2.2, hab]
      · exact absurd e (h.hdr.uniq a b ci.1 cj.1 ci.2.1 cj.2.1 hab).2

/-- A new handle. -/
theorem VAbs.handle {g : VCfg} {v : Mem} {hs : VHandles} {s : SState} (h : VAbs g v hs s) (n : Nat) (x : Option VHandle) (y : Option SHandle)
    (hr : HRel g v x y) (ho : ∀ h' y' z, s.hs h' = some y' → y = some z → z.ro = false → y'.ro = false → y'.key = z.key → h' = n) :
    VAbs g v (fset hs n x) ⟨s.obj, fset s.hs n y⟩ := by
  refine ⟨h.inv, h.bak, h.obj, ?_, ?_⟩
  · intro i
    by_cases hi : i = n
    · subst hi
      show HRel g v (fset hs i x i) (fset s.hs i y i)
      rw [fset_same, fset_same]; exact hr
    · show HRel g v (fset hs n x i) (fset s.hs n y i)
      rw [fset_other _ _ hi, fset_other _ _ hi]; exact h.rel i
  · intro i j a b ha hb ra rb hk
    have ha : fset s.hs n y i = some a := ha
    have hb : fset s.hs n y j = some b := hb
    by_cases hi : i = n
    · by_cases hj : j = n
      · omega
      · rw [fset_other _ _ hj] at hb
        rw [hi, fset_same] at ha
        rw [hi]
        exact (ho j b a hb ha ra rb hk.symm).symm
    · rw [fset_other _ _ hi] at ha
      by_cases hj : j = n
      · rw [hj, fset_same] at hb
        rw [hj]
        exact ho i a b ha hb rb ra hk
      · rw [fset_other _ _ hj] at hb
        exact h.once i j a b ha hb ra rb hk

theorem obj_node {g : VCfg} (w : g.OK) {v : Mem} {hs : VHandles} {s : SState} (h : VAbs g v hs s) {key : VKey} (hk : key.OK) {k : Nat}
    (hn : VNodeOf g v key k) : s.obj key = some (vContent g v k) := by
  rw [h.obj key hk, h.inv.get w hk.none hn]

/-- The implementation does what the specification says. -/
theorem store_step {g : VCfg} (w : g.OK) {v : Mem} {hs : VHandles} {s : SState} (h : VAbs g v hs s) {op : SOp} (hv : SValid g s op) :
    ∃ s', SStep (g.obj - 8) g.items s op (vStep g hs v op).1 s' ∧ VAbs g (vRun v (vStep g hs v op).2.2) (vStep g hs v op).2.1 s' := by
  have hfull : ∀ rd key, vFreeHandle hs 16 0 = none → vOpen g key rd hs v = (.sessionCount, hs, []) := by
    intro rd key e
    unfold vOpen
    rw [e]
  have hno : vFreeHandle hs 16 0 = none → ∀ n, n < 16 → s.hs n ≠ none := by
    intro e n hn hc
    have := freeHandle_none e n hn
    rw [Nat.zero_add] at this
    exact this ((h.rel n).isNone.mpr hc)
  have hrun : vRun v [] = v := rfl
  cases op with
  | openR key =>
    have hk : key.OK := hv
    unfold vStep
    cases hf : vFreeHandle hs 16 0 with
    | none =>
      dsimp only
      rw [hfull true key hf]
      exact ⟨s, .noHandleR (hno hf), h⟩
    | some n =>
      obtain ⟨_, n1, n2⟩ := freeHandle_spec hf
      dsimp only
      rcases node_or_none g v key with ⟨k, k1, k2⟩ | hnone
      · rw [open_existing w h.inv hk ⟨k1, k2⟩ true hf]
        refine ⟨⟨s.obj, fset s.hs n (some ⟨key, true, 0⟩)⟩, .openR ?_ (by omega) ((h.rel n).isNone.mp n2), ?_⟩
        · rw [obj_node w h hk ⟨k1, k2⟩]; simp
        · exact h.handle n _ _ ⟨hk, k, ⟨k1, k2⟩, rfl, fun hc => by simp at hc⟩ fun h' y' z a b c => by
            obtain rfl := Option.some.inj b; simp at c
      · rw [open_read_absent w h.inv h.bak hk hnone hf]
        refine ⟨s, .absent ?_, h⟩
        rw [h.obj key hk, (h.inv.absent w h.bak hk hnone).2]
  | openW key =>
    obtain ⟨hk, hx⟩ : key.OK ∧ ∀ h y, s.hs h = some y → y.ro = false → y.key ≠ key := hv
    unfold vStep
    cases hf : vFreeHandle hs 16 0 with
    | none =>
      dsimp only
      rw [hfull false key hf]
      exact ⟨s, .noHandleW (hno hf), h⟩
    | some n =>
      obtain ⟨_, n1, n2⟩ := freeHandle_spec hf
      dsimp only
      rcases open_write_done w h.inv h.bak hk hf with ⟨e1, e2, e3⟩ | ⟨k0, ops, e, hi, hb, hn, hs8, hoth, hk0⟩
      · rw [e2]
        refine ⟨s, .full ?_ (full_of_none w h.inv h.obj e3), h⟩
        rw [h.obj key hk, (h.inv.absent w h.bak hk e1).2]
      · rw [e]
        refine ⟨⟨fset s.obj key (some []), fset s.hs n (some ⟨key, false, 0⟩)⟩, .openW (by omega) ((h.rel n).isNone.mp n2), ?_⟩
        dsimp only
        have habs : VAbs g (vRun v ops) hs ⟨fset s.obj key (some []), s.hs⟩ := by
          refine ⟨hi, hb, ?_, ?_, h.once⟩
          · intro key' hk'
            show fset s.obj key (some []) key' = _
            by_cases he : key' = key
            · rw [he, fset_same, hi.get w hk.none hn, content_empty hs8]
            · rw [fset_other _ _ he, h.obj key' hk']
              symm
              refine get_others w hi hb h.inv h.bak (k0 := k0) (fun k a b => ⟨(hoth k a b).1, fun u => ((hoth k a b).2 u).2.2⟩) hk' ?_ ?_
              · rw [hn.2]; exact he
              · by_cases hu : VUsed v k0
                · rw [(hk0 hu).1]; exact he
                · exact unused_key hk' hu
          · intro i
            refine (h.rel i).keep ?_ ?_
            · intro k a u
              by_cases hkk : k = k0
              · rw [hkk] at u ⊢
                exact ⟨by rw [(hk0 u).1]; exact hn.2, (hk0 u).2⟩
              · exact ⟨(hoth k a hkk).1, ((hoth k a hkk).2 u).1⟩
            · intro y k a b c
              have hyk : y.key.OK := by
                have hr := h.rel i
                cases hz : hs i with
                | none => rw [hz, a] at hr; exact hr.elim
                | some z => rw [hz, a] at hr; exact hr.1
              have hu := used_of_key hyk.none c.2
              have hkk : k ≠ k0 := by
                intro ee
                rw [ee] at hu c
                exact hx i y a b (c.2.symm.trans (hk0 hu).1)
              exact ((hoth k c.1 hkk).2 hu).2.1
        refine habs.handle n _ _ ⟨hk, k0, hn, rfl, fun _ => hs8.symm⟩ ?_
        intro h' y' z a b c d e
        obtain rfl := Option.some.inj b
        exact absurd e (hx h' y' a d)
  | read i len =>
    unfold vStep
    have hr := h.rel i
    cases hz : hs i with
    | none =>
      dsimp only
      rw [hz]
      exact ⟨s, .readBad ((h.rel i).isNone.mp hz), h⟩
    | some x =>
      cases hy : s.hs i with
      | none => rw [hz, hy] at hr; exact hr.elim
      | some y =>
        rw [hz, hy] at hr
        obtain ⟨hk, k, hn, rfl, ho⟩ := hr
        obtain ⟨key, ro, off⟩ := y
        dsimp only at hk hn ho ⊢
        have hc := obj_node w h hk hn
        have hlow := h.inv.hdr.low k hn.1 (used_of_key hk.none hn.2)
        have hlen := content_length g v k
        have hrd : vRead g ⟨ro, g.data (vPos v k), vA k, 8 + off⟩ len v =
            (some (((vContent g v k).drop off).take len), ⟨ro, g.data (vPos v k), vA k, 8 + (off + (((vContent g v k).drop off).take len).length)⟩) := by
          have hsl : ((vContent g v k).drop off).take len = slice v (g.data (vPos v k) + 8 + off) (min len (vSize v k - 8 - off)) := slice_drop_take _ _ _ _ _
          unfold vRead
          dsimp only
          rw [show le32 v (vA k + 16) = vSize v k from rfl, if_neg (by omega), hsl, slice_length]
          by_cases hge : 8 + off ≥ vSize v k
          · rw [if_pos hge, show min len (vSize v k - 8 - off) = 0 by omega]
            rfl
          · rw [if_neg hge]
            have hl : (if 8 + off + len > vSize v k then vSize v k - (8 + off) else len) = min len (vSize v k - 8 - off) := by split <;> omega
            rw [hl, ← Nat.add_assoc, Nat.add_assoc 8 off]
        rw [hz]
        dsimp only
        rw [hrd]
        refine ⟨_, .read hy hc, h.handle i _ _ ⟨hk, k, hn, rfl, ?_⟩ ?_⟩
        · intro hro
          have h0 := ho hro
          have hz0 : (((vContent g v k).drop off).take len).length = 0 := by
            rw [List.length_take, List.length_drop, hlen]; omega
          show 8 + (off + _) = _
          rw [hz0]; exact h0
        · intro h' y' z a b c d e
          obtain rfl := Option.some.inj b
          exact h.once h' i y' ⟨key, ro, off⟩ a hy d c e
  | write i d len =>
    unfold vStep
    have hr := h.rel i
    cases hz : hs i with
    | none =>
      dsimp only
      rw [hz]
      exact ⟨s, .writeBad (fun y hy => by rw [(h.rel i).isNone.mp hz] at hy; simp at hy), h⟩
    | some x =>
      cases hy : s.hs i with
      | none => rw [hz, hy] at hr; exact hr.elim
      | some y =>
        rw [hz, hy] at hr
        obtain ⟨hk, k, hn, rfl, ho⟩ := hr
        obtain ⟨key, ro, off⟩ := y
        dsimp only at hk hn ho ⊢
        have hc := obj_node w h hk hn
        have hu := used_of_key hk.none hn.2
        have hlow := h.inv.hdr.low k hn.1 hu
        have hlen := content_length g v k
        cases ro with
        | true =>
          rw [hz]
          dsimp only
          rw [show vWrite g ⟨true, g.data (vPos v k), vA k, 8 + off⟩ d len v = (none, ⟨true, g.data (vPos v k), vA k, 8 + off⟩, []) from rfl, hrun]
          refine ⟨s, .writeBad (fun y' hy' => by rw [hy] at hy'; obtain rfl := Option.some.inj hy'; rfl), ?_⟩
          dsimp only
          rw [← hz, fset_self]
          exact h
        | false =>
          have hoff := ho rfl
          have hmin : min len (g.obj - 8 - (vContent g v k).length) = min len (g.obj - vSize v k) := by
            rw [hlen]; congr 1; omega
          have hcond : g.ss % g.obj = 0 ∨ vSize v k % g.ss + min len (g.obj - vSize v k) ≤ g.ss := by
            rcases hv with hv | hv
            · exact Or.inl hv
            · right
              have := hv ⟨key, false, off⟩ _ hy hc
              rw [hmin, hlen, show 8 + (vSize v k - 8) = vSize v k by omega] at this
              exact this
          obtain ⟨ops, e1, e2, e3, e4⟩ := write_done w h.inv hn.1 hu d len _ rfl (write_fit w hlow.2.2.2.2 (Nat.min_le_right _ _) hcond)
          rw [hz]
          dsimp only
          rw [hoff, e1]
          have hstep := SStep.write (cap := g.obj - 8) (items := g.items) (d := d) (len := len) hy hc
          rw [hmin] at hstep
          refine ⟨_, hstep, ?_⟩
          · dsimp only
            have habs : VAbs g (vRun v ops) (fset hs i none) ⟨fset s.obj key (some (vContent g v k ++ slice d 0 (min len (g.obj - vSize v k)))), fset s.hs i none⟩ := by
              refine ⟨e2, e3, ?_, ?_, ?_⟩
              · intro key' hk'
                show fset s.obj key _ key' = _
                by_cases he : key' = key
                · rw [he, fset_same, e2.get w hk.none ⟨hn.1, (e4 k hn.1).1.trans hn.2⟩, (e4 k hn.1).2.2.2 hu, if_pos rfl]
                · rw [fset_other _ _ he, h.obj key' hk']
                  symm
                  refine get_others w e2 e3 h.inv h.bak (k0 := k) (fun j a b => ⟨(e4 j a).1, fun u => ?_⟩) hk' ?_ ?_
                  · rw [(e4 j a).2.2.2 u, if_neg b]
                  · rw [(e4 k hn.1).1, hn.2]; exact he
                  · rw [hn.2]; exact he
              · intro j
                show HRel g _ (fset hs i none j) (fset s.hs i none j)
                by_cases hj : j = i
                · rw [hj, fset_same, fset_same]; trivial
                · rw [fset_other _ _ hj, fset_other _ _ hj]
                  refine (h.rel j).keep (fun q a _ => ⟨(e4 q a).1, (e4 q a).2.1⟩) ?_
                  intro y q a b c
                  rw [(e4 q c.1).2.2.1, if_neg]
                  intro hq
                  apply hj
                  refine h.once j i y ⟨key, false, off⟩ a hy b rfl ?_
                  show y.key = key
                  rw [← c.2, hq, hn.2]
              · intro a b ya yb ha hb
                have ha : fset s.hs i none a = some ya := ha
                have hb : fset s.hs i none b = some yb := hb
                have hai : a ≠ i := fun e => by rw [e, fset_same] at ha; simp at ha
                have hbi : b ≠ i := fun e => by rw [e, fset_same] at hb; simp at hb
                rw [fset_other _ _ hai] at ha
                rw [fset_other _ _ hbi] at hb
                exact h.once a b ya yb ha hb
            have := habs.handle i (some ⟨false, g.data (vPos v k), vA k, vSize v k + min len (g.obj - vSize v k)⟩)
              (some ⟨key, false, off + min len (g.obj - vSize v k)⟩) ?_ ?_
            · have ff : ∀ {β : Type} (f : Nat → β) (b b' : β), fset (fset f i b) i b' = fset f i b' := by
                intro β f b b'
                funext q
                by_cases hq : q = i
                · rw [hq, fset_same, fset_same]
                · rw [fset_other _ _ hq, fset_other _ _ hq, fset_other _ _ hq]
              dsimp only at this
              rw [ff, ff] at this
              exact this
            · refine ⟨hk, k, ⟨hn.1, (e4 k hn.1).1.trans hn.2⟩, ?_, ?_⟩
              · rw [(e4 k hn.1).2.1, ← Nat.add_assoc, hoff]
              · intro _
                rw [(e4 k hn.1).2.2.1, if_pos rfl, ← Nat.add_assoc, hoff]
            · intro h' y' z a b c d' e
              have a : fset s.hs i none h' = some y' := a
              have hai : h' ≠ i := fun e => by rw [e, fset_same] at a; simp at a
              rw [fset_other _ _ hai] at a
              obtain rfl := Option.some.inj b
              exact h.once h' i y' ⟨key, false, off⟩ a hy d' rfl e
  | close i =>
    unfold vStep
    exact ⟨_, .close, h.handle i none none trivial fun h' y' z a b => by simp at b⟩

end Verif
