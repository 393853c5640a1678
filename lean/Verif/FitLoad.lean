import Verif.FitThms

/-!
# What is loaded from a FIT: memory
-/

namespace Verif

namespace Fit

variable {ts : List FTok} {strs : List Byte}

theorem propAddr_spec {f : Fdt} (h : FdtOK f ts strs) (top : Nat) {n : Nat × List Byte × List FTok} (hn : n ∈ nodesFrom 0 ts) (name : List Byte) :
    propAddr top f (n.1 : Int) name = pure (addrVal top (propVal strs name n.2.2)) := by
  have hg := h.getpropAt hn name
  unfold propAddr
  cases hv : propVal strs name n.2.2 with
  | none =>
    rw [hv] at hg
    obtain ⟨e, hg, _⟩ := hg
    rw [hg, pure_bind]
    rfl
  | some v =>
    rw [hv] at hg
    obtain ⟨a, hg, hb, hc⟩ := hg
    have hw := h.within.cap
    rw [hg, pure_bind]
    dsimp only [addrVal]
    unfold Fdt.bytes
    by_cases h8 : v.length = 8
    · rw [if_pos (by omega), if_pos (by omega), if_pos (by omega), if_pos (by omega), pure_bind, Int.toNat_natCast, ← h8,
        show slice f.m a v.length = v from hb]
    · by_cases h4 : v.length = 4
      · rw [if_pos (by omega), if_neg (by omega), if_pos (by omega), if_pos (by omega), if_pos (by omega), pure_bind, Int.toNat_natCast, ← h4,
          show slice f.m a v.length = v from hb]
      · rw [if_neg (show ¬ (v.length = 4 ∨ v.length = 8) by omega), if_neg (show ¬ ((v.length : Int) = 8) by omega),
          if_neg (show ¬ ((v.length : Int) = 4) by omega), ite_self]

/-- Ranges of `n` bytes at `a` and of `k` bytes at `b` have no byte in common. -/
def Apart (a n b k : Nat) : Prop := a + n ≤ b ∨ b + k ≤ a ∨ n = 0 ∨ k = 0

theorem copy_ok (c : Cfg) (m : Mem) {dst src n : Nat} (h1 : dst + n ≤ c.top) (h2 : src + n ≤ c.top) (h3 : Apart dst n src n) :
    copy c m dst src n = pure (stBytes m dst (slice m src n)) := by
  unfold copy
  unfold Apart at h3
  rw [if_neg (by omega), if_neg (by omega)]

theorem slice_view (m : Mem) (base cap a n : Nat) : slice (view m base cap).m a n = slice m (base + a) n := by
  induction n generalizing a with
  | zero => rfl
  | succ n ih =>
    rw [slice, slice, ih, ← Nat.add_assoc]
    rfl

theorem bytes_view {m : Mem} {base cap a : Nat} {l : List Byte} : BytesAt (view m base cap).m a l ↔ BytesAt m (base + a) l := by
  unfold BytesAt
  rw [slice_view]

/-- What `fit_load_image` does with an image: `a` is where its data is in the tree. -/
structure Loads (c : Cfg) (m : Mem) (base cap : Nat) (image : Int) (strs : List Byte) (n : Nat × List Byte × List FTok) (v : List Byte) (a : Nat) : Prop where
  /-- where the code finds the data -/
  addr : (view m base cap).getprop (n.1 : Int) DATA = pure (.found (a : Int) v.length)
  /-- the data of the image -/
  bytes : BytesAt m (base + a) v
  inside : a + v.length ≤ (view m base cap).total
  /-- an image without a load address, or already there, stays where it is -/
  stays : addrVal c.top (propVal strs LOAD n.2.2) = 0 ∨ addrVal c.top (propVal strs LOAD n.2.2) = base + a →
    loadImage c m base cap image = pure (base + a, (v.length : Int), m)
  /-- any other is copied -/
  moves : addrVal c.top (propVal strs LOAD n.2.2) ≠ 0 → addrVal c.top (propVal strs LOAD n.2.2) ≠ base + a →
    addrVal c.top (propVal strs LOAD n.2.2) + v.length ≤ c.top →
    Apart (addrVal c.top (propVal strs LOAD n.2.2)) v.length (base + a) v.length →
    loadImage c m base cap image = pure (if addrVal c.top (propVal strs ENTRY n.2.2) ≠ 0 then addrVal c.top (propVal strs ENTRY n.2.2)
      else addrVal c.top (propVal strs LOAD n.2.2), (v.length : Int), stBytes m (addrVal c.top (propVal strs LOAD n.2.2)) v)
  /-- one that overlaps with its destination is undefined -/
  clash : addrVal c.top (propVal strs LOAD n.2.2) ≠ 0 → addrVal c.top (propVal strs LOAD n.2.2) ≠ base + a →
    addrVal c.top (propVal strs LOAD n.2.2) + v.length ≤ c.top →
    ¬ Apart (addrVal c.top (propVal strs LOAD n.2.2)) v.length (base + a) v.length →
    loadImage c m base cap image = throw .ub

section load

variable {c : Cfg} {m : Mem} {base cap : Nat} (h : FdtOK (view m base cap) ts strs) (hh : (view m base cap).checkHeader = 0)
  {p : Int} {s : List Byte} (hp : Names (view m base cap) (some p) (some s))

include h hh hp

/-- An image without a node, or with the name of the root, is `NULL`. -/
theorem loadImage_missing (hn : nodeNamed ts s = none ∨ ∃ n, nodeNamed ts s = some n ∧ n.1 = 0) :
    loadImage c m base cap p = pure (0, 0, m) := by
  obtain ⟨a, h1, h2, h3, h4⟩ := hp
  subst h1
  unfold loadImage
  dsimp only
  rw [names_str h h2 h3 h4, pure_bind, h.findNodeOffset hh, pure_bind]
  rcases hn with hn | ⟨n, hn, h0⟩ <;> rw [hn]
  · dsimp only
    rw [if_neg (by decide)]
  · dsimp only
    rw [if_neg (by omega)]

/-- An image without data is `NULL`. -/
theorem loadImage_nodata {n : Nat × List Byte × List FTok} (hn : nodeNamed ts s = some n) (hv : propVal strs DATA n.2.2 = none) :
    ∃ e : Int, e ≤ 0 ∧ loadImage c m base cap p = pure (0, e, m) := by
  by_cases h0 : n.1 = 0
  · exact ⟨0, by decide, loadImage_missing h hh hp (.inr ⟨n, hn, h0⟩)⟩
  · obtain ⟨a, h1, h2, h3, h4⟩ := hp
    subst h1
    obtain ⟨hm, _⟩ := FdtOK.named_mem hn
    have hg := h.getpropAt hm DATA
    rw [hv] at hg
    obtain ⟨e, hg, he⟩ := hg
    refine ⟨e, by omega, ?_⟩
    unfold loadImage
    dsimp only
    rw [names_str h h2 h3 h4, pure_bind, h.findNodeOffset hh, pure_bind, hn]
    dsimp only
    rw [if_pos (show (n.1 : Int) > 0 by omega), hg, pure_bind, propAddr_spec h _ hm, pure_bind, propAddr_spec h _ hm, pure_bind]
    rfl

/-- **C61 (loading).** What `fit_load_image` does with an image that has data. -/
theorem loadImage_spec (ht : base + cap ≤ c.top) {n : Nat × List Byte × List FTok} (hn : nodeNamed ts s = some n) (h0 : n.1 ≠ 0) {v : List Byte}
    (hv : propVal strs DATA n.2.2 = some v) : ∃ a, Loads c m base cap p strs n v a := by
  obtain ⟨a, h1, h2, h3, h4⟩ := hp
  subst h1
  obtain ⟨hm, _⟩ := FdtOK.named_mem hn
  have hg := h.getpropAt hm DATA
  rw [hv] at hg
  obtain ⟨d, hg, hb, hc⟩ := hg
  have hw := h.within.cap
  have hcap : (view m base cap).cap = cap := rfl
  have run : loadImage c m base cap (a : Int) =
      (do let (p, m) ← place c m base cap (some (d : Int)) v.length (addrVal c.top (propVal strs LOAD n.2.2)) (addrVal c.top (propVal strs ENTRY n.2.2))
          pure (p, (v.length : Int), m)) := by
    unfold loadImage
    dsimp only
    rw [names_str h h2 h3 h4, pure_bind, h.findNodeOffset hh, pure_bind, hn]
    dsimp only
    rw [if_pos (show (n.1 : Int) > 0 by omega), hg, pure_bind, propAddr_spec h _ hm, pure_bind, propAddr_spec h _ hm, pure_bind]
    rfl
  refine ⟨d, hg, bytes_view.1 hb, hc, ?_, ?_, ?_⟩
  · intro hl
    rw [run]
    unfold place
    dsimp only
    rw [if_neg (by omega), Int.toNat_natCast, if_neg (by omega), pure_bind]
  · intro h5 h6 h7 h8
    rw [run]
    unfold place
    dsimp only
    rw [if_neg (by omega), Int.toNat_natCast, if_pos ⟨h5, fun x => h6 x.symm⟩, Int.toNat_natCast, if_neg (by omega),
      copy_ok c m h7 (by omega) h8, pure_bind, pure_bind, show slice m (base + d) v.length = v from bytes_view.1 hb]
  · intro h5 h6 h7 h8
    rw [run]
    unfold place
    dsimp only
    rw [if_neg (by omega), Int.toNat_natCast, if_pos ⟨h5, fun x => h6 x.symm⟩, Int.toNat_natCast, if_neg (by omega)]
    unfold copy
    unfold Apart at h8
    rw [if_neg (by omega), if_pos (by omega)]
    rfl

end load

/-! ## The tree in other memory -/

section same

variable {m m' : Mem} {base cap : Nat}

theorem be32_view (ha : Agree m' m base (base + (view m base cap).total)) {a : Nat} (h : a + 4 ≤ (view m base cap).total) :
    be32 (view m' base cap).m a = be32 (view m base cap).m a := by
  refine be32_congr fun o h1 h2 => ?_
  exact ha (base + o) (by omega) (by omega)

theorem bytes_same (ha : Agree m' m base (base + (view m base cap).total)) {a : Nat} {l : List Byte} (h : a + l.length ≤ (view m base cap).total)
    (hb : BytesAt (view m base cap).m a l) : BytesAt (view m' base cap).m a l :=
  hb.congr fun o h1 h2 => ha (base + o) (by omega) (by omega)

theorem ok_same (h : FdtOK (view m base cap) ts strs) (ha : Agree m' m base (base + (view m base cap).total)) :
    FdtOK (view m' base cap) ts strs ∧ (view m' base cap).total = (view m base cap).total ∧
      (view m' base cap).checkHeader = (view m base cap).checkHeader := by
  have h40 : 40 ≤ (view m base cap).total := by
    have := h.low; have := h.order; have := h.high; omega
  have e0 : (view m' base cap).magic = (view m base cap).magic := be32_view ha (by omega)
  have e4 : (view m' base cap).total = (view m base cap).total := be32_view ha (by omega)
  have e8 : (view m' base cap).offStruct = (view m base cap).offStruct := be32_view ha (by omega)
  have e12 : (view m' base cap).offStrings = (view m base cap).offStrings := be32_view ha (by omega)
  have e20 : (view m' base cap).version = (view m base cap).version := be32_view ha (by omega)
  have e24 : (view m' base cap).lastComp = (view m base cap).lastComp := be32_view ha (by omega)
  have e32 : (view m' base cap).sizeStrings = (view m base cap).sizeStrings := be32_view ha (by omega)
  have e36 : (view m' base cap).sizeStruct = (view m base cap).sizeStruct := be32_view ha (by omega)
  refine ⟨?_, e4, ?_⟩
  · have h1 := h.size
    have h2 := h.order
    have h3 := h.sizeS
    have h4 := h.high
    constructor
    · exact ⟨by rw [e4]; exact h.within.size, by rw [e4]; exact h.within.cap⟩
    · rw [e20]; exact h.version
    · rw [e8]; exact h.low
    · rw [e36]; exact h.size
    · rw [e8, e36, e12]; exact h.order
    · rw [e32]; exact h.sizeS
    · rw [e12, e32, e4]; exact h.high
    · rw [e8]; exact bytes_same ha (by omega) h.struct
    · rw [e12]; exact bytes_same ha (by omega) h.strings
    · exact h.toks
    · exact h.names
  · unfold Fdt.checkHeader
    rw [e0, e20, e24, e36]

theorem names_same {p : Option Int} {s : Option (List Byte)} (h : FdtOK (view m base cap) ts strs)
    (ha : Agree m' m base (base + (view m base cap).total)) (hn : Names (view m base cap) p s) : Names (view m' base cap) p s := by
  match p, s, hn with
  | none, none, _ => exact trivial
  | some p, some s, ⟨a, h1, h2, h3, h4⟩ =>
    refine ⟨a, h1, bytes_same ha (by simp only [List.length_append, List.length_cons, List.length_nil]; omega) h2, h3, ?_⟩
    rw [(ok_same h ha).2.1]
    exact h4

end same

/-! ## What is booted -/

/-- The start of a device tree that is accepted: magic number, versions, size. -/
structure DtbOK (v : List Byte) : Prop where
  len : 40 ≤ v.length
  magic : be32 (ofList v) 0 = 0xD00DFEED
  version : 0x10 ≤ be32 (ofList v) 20
  comp : be32 (ofList v) 24 ≤ 0x11
  size : be32 (ofList v) 4 < 2147483648

theorem ofList_agree {m : Mem} {a : Nat} {v : List Byte} (hb : BytesAt m a v) (j : Nat) (hj : j < v.length) : m (a + j) = ofList v j := by
  unfold ofList
  have h1 : (slice m a v.length)[j]? = some (m (a + j)) := slice_getElem? _ _ _ _ hj
  rw [show slice m a v.length = v from hb] at h1
  rw [h1]
  rfl

theorem dtsSize_ok {m : Mem} {p : Nat} {v : List Byte} (hb : BytesAt m p v) (hv : DtbOK v) : 0 ≤ dtsSize (view m p 40) := by
  have hl := hv.len
  have e : ∀ a, a + 4 ≤ 40 → be32 (view m p 40).m a = be32 (ofList v) a := by
    intro a ha
    refine be32_congr fun o h1 h2 => ?_
    exact ofList_agree hb o (by omega)
  have h0 : (view m p 40).magic = 0xD00DFEED := (e 0 (by omega)).trans hv.magic
  have h4 : (view m p 40).total < 2147483648 := by
    show be32 (view m p 40).m 4 < _
    rw [e 4 (by omega)]; exact hv.size
  have h20 : 0x10 ≤ (view m p 40).version := by
    show _ ≤ be32 (view m p 40).m 20
    rw [e 20 (by omega)]; exact hv.version
  have h24 : (view m p 40).lastComp ≤ 0x11 := by
    show be32 (view m p 40).m 24 ≤ _
    rw [e 24 (by omega)]; exact hv.comp
  unfold dtsSize
  have hc : (view m p 40).checkHeader = 0 := by
    unfold Fdt.checkHeader
    rw [if_pos h0, if_neg (by omega), if_neg (by omega)]
  rw [if_pos hc]
  unfold s32
  omega

/-- An image of the tree: the node that is found for its name, its data, its load address and its entry. -/
structure Image (c : Cfg) (strs : List Byte) (ts : List FTok) (s : List Byte) (v : List Byte) (load entry : Nat) : Prop where
  ex : ∃ n, nodeNamed ts s = some n ∧ n.1 ≠ 0 ∧ propVal strs DATA n.2.2 = some v ∧ addrVal c.top (propVal strs LOAD n.2.2) = load ∧
    addrVal c.top (propVal strs ENTRY n.2.2) = entry

theorem agree_st {m : Mem} {a lo hi : Nat} {l : List Byte} (h : Apart a l.length lo (hi - lo)) : Agree (stBytes m a l) m lo hi := by
  intro o h1 h2
  unfold Apart at h
  exact stBytes_out (by omega)

/-- **C61.** A FIT with a kernel and a device tree: `do_boot` gets the entry of the kernel (or its load address) and the address of the device tree;
in memory the data of the kernel is at its load address and that of the device tree at its own; nothing else has changed. The ranges written
are apart from each other and from the tree; the device tree may have a load address of its own. -/
theorem bootFit_loads_partial {c : Cfg} {m : Mem} {base cap : Nat} (h : FdtOK (view m base cap) ts strs) (hh : (view m base cap).checkHeader = 0)
    (ht : Terminated strs ts) (hb : 0 < base) (htop : base + cap ≤ c.top)
    {ks kv ds dv : List Byte} {kl ke dl : Nat}
    (hk : chosen strs ts KERNEL KERNEL = some ks) (ik : Image c strs ts ks kv kl ke)
    (hkl : kl ≠ 0) (hkt : kl + kv.length ≤ c.top) (hkv : kv ≠ []) (hka : Apart kl kv.length base (view m base cap).total)
    (hd : chosen strs ts FDT FLAT_DT = some ds) (id : Image c strs ts ds dv dl 0) (hdv : DtbOK dv)
    (hdt : c.dts + dv.length ≤ c.top) (hda : Apart c.dts dv.length base (view m base cap).total) (hdk : Apart c.dts dv.length kl kv.length)
    (hdl : dl ≠ 0 → dl + dv.length ≤ c.top ∧ Apart dl dv.length base (view m base cap).total ∧ Apart dl dv.length kl kv.length ∧
      Apart c.dts dv.length dl dv.length) :
    ∃ m', bootFit c m base cap = pure (some (if ke ≠ 0 then ke else kl, c.dts, m')) ∧ BytesAt m' kl kv ∧ BytesAt m' c.dts dv ∧
      ∀ a, ¬ (kl ≤ a ∧ a < kl + kv.length) → ¬ (c.dts ≤ a ∧ a < c.dts + dv.length) → ¬ (dl ≠ 0 ∧ dl ≤ a ∧ a < dl + dv.length) → m' a = m a := by
  have h40 : 40 ≤ (view m base cap).total := by
    have := h.low; have := h.order; have := h.high; omega
  have hw := h.within
  have hsz := hw.size
  have hcap : (view m base cap).total ≤ cap := hw.cap
  have hkp : 0 < kv.length := List.length_pos_iff.2 hkv
  have hdp := hdv.len
  obtain ⟨cp, k, d, f1, _, f3, f4⟩ := findImages_spec h hh ht
  rw [hk] at f3
  rw [hd] at f4
  cases k with
  | none => exact absurd f3 (by simp [Names])
  | some k =>
  cases d with
  | none => exact absurd f4 (by simp [Names])
  | some d =>
  obtain ⟨n, g1, g2, g3, g4, g5⟩ := ik.ex
  obtain ⟨a, L⟩ := loadImage_spec h hh f3 htop g1 g2 g3
  have li := L.inside
  have step1 := L.moves (by rw [g4]; exact hkl) (by rw [g4]; unfold Apart at hka; omega) (by rw [g4]; exact hkt)
    (by rw [g4]; unfold Apart at *; omega)
  rw [g4, g5] at step1
  have ha : Agree (stBytes m kl kv) m base (base + (view m base cap).total) := agree_st (by
    rw [Nat.add_sub_cancel_left]; exact hka)
  obtain ⟨h', ht', hh'⟩ := ok_same h ha
  obtain ⟨n', g1', g2', g3', g4', g5'⟩ := id.ex
  obtain ⟨a', L'⟩ := loadImage_spec h' (hh'.trans hh) (names_same h ha f4) htop g1' g2' g3'
  have li' := L'.inside
  rw [ht'] at li'
  have lb' := L'.bytes
  generalize hm1 : stBytes m kl kv = m1 at *
  have kb : BytesAt m1 kl kv := by rw [← hm1]; exact BytesAt.st _ _ _
  have ko : ∀ x, ¬ (kl ≤ x ∧ x < kl + kv.length) → m1 x = m x := by
    intro x hx
    rw [← hm1]
    exact stBytes_out (by omega)
  -- the device tree, wherever it is after loading
  have step2 : ∃ q m2, loadImage c m1 base cap d = pure (q, (dv.length : Int), m2) ∧ q ≠ 0 ∧ BytesAt m2 q dv ∧ q + dv.length ≤ c.top ∧
      Apart c.dts dv.length q dv.length ∧ BytesAt m2 kl kv ∧
      ∀ x, ¬ (dl ≠ 0 ∧ dl ≤ x ∧ x < dl + dv.length) → m2 x = m1 x := by
    by_cases h0 : dl = 0
    · refine ⟨_, _, L'.stays (by rw [g4']; exact .inl h0), by omega, lb', by omega, by unfold Apart at *; omega, kb, fun _ _ => rfl⟩
    · obtain ⟨i1, i2, i3, i4⟩ := hdl h0
      have hne : dl ≠ base + a' := by unfold Apart at i2; omega
      have := L'.moves (by rw [g4']; exact h0) (by rw [g4']; exact hne) (by rw [g4']; exact i1)
        (by rw [g4']; unfold Apart at *; omega)
      rw [g4', g5', if_neg (by omega)] at this
      refine ⟨_, _, this, h0, BytesAt.st _ _ _, i1, i4, kb.congr (agree_st (by rw [Nat.add_sub_cancel_left]; exact i3)), ?_⟩
      intro x hx
      exact stBytes_out (by omega)
  obtain ⟨q, m2, s1, s2, s3, s4, s5, s6, s7⟩ := step2
  refine ⟨stBytes m2 c.dts dv, ?_, ?_, BytesAt.st _ _ _, ?_⟩
  · unfold bootFit
    have hpos : dtsSize (view m base cap) > 0 := by
      unfold dtsSize
      rw [if_pos hh, s32_id (by omega) (by omega)]
      omega
    rw [if_pos hpos, f1, pure_bind]
    dsimp only [bootKernel, bootDts]
    rw [step1, pure_bind, pure_bind]
    dsimp only
    rw [s1, pure_bind]
    dsimp only
    rw [if_pos ⟨s2, dtsSize_ok s3 hdv⟩]
    have hl : fu32 (dv.length : Int) = dv.length := by unfold fu32; omega
    rw [hl, copy_ok c m2 hdt s4 s5, pure_bind, pure_bind, show slice m2 q dv.length = dv from s3]
  · exact s6.congr (agree_st (by rw [Nat.add_sub_cancel_left]; exact hdk))
  · intro x h1 h2 h3
    rw [stBytes_out (by omega), s7 x h3, ko x h1]

end Fit

end Verif
