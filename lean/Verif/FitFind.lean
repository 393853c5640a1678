import Verif.FitLoad

/-!
# FIT: paths, findings, examples

A FIT names its images by path: the default configuration is a child of `/configurations`, the images are children of `/images`. The code
looks for the first node with the name anywhere in the tree.
-/

namespace Verif

/-- Names of the nodes that are open after some tags, the innermost first. -/
def openAt (pre : List FTok) : List (List Byte) :=
  pre.foldl (fun st t => match t with
    | .node nm _ => nm :: st
    | .endNode => st.tail
    | _ => st) []

/-- The node `n` is in the tree, inside of the nodes `path`. -/
def NodeAt (ts : List FTok) (path : List (List Byte)) (n : Nat × List Byte × List FTok) : Prop :=
  ∃ pre pd, ts = pre ++ .node n.2.1 pd :: n.2.2 ∧ n.1 = offOf pre ∧ openAt pre = path ∧ .fin ∉ pre

/-- At most one node has the name. -/
def Unique (ts : List FTok) (name : List Byte) : Prop :=
  ∀ n ∈ nodesFrom 0 ts, ∀ k ∈ nodesFrom 0 ts, n.2.1 = name → k.2.1 = name → n = k

theorem nodesFrom_mem {pre post : List FTok} {nm pd : List Byte} (hf : FTok.fin ∉ pre) (o : Nat) :
    (o + offOf pre, nm, post) ∈ nodesFrom o (pre ++ .node nm pd :: post) := by
  induction pre generalizing o with
  | nil =>
    rw [List.nil_append, nodesFrom]
    exact List.mem_cons_self
  | cons t pre ih =>
    simp only [List.mem_cons, not_or] at hf
    have e : o + offOf (t :: pre) = o + t.enc.length + offOf pre := by
      unfold offOf
      rw [encs_cons, List.length_append]
      omega
    have := ih hf.2 (o + t.enc.length)
    rw [← e] at this
    cases t with
    | fin => exact absurd rfl hf.1
    | node nm' pd' => rw [List.cons_append, nodesFrom]; exact List.mem_cons_of_mem _ this
    | endNode => rw [List.cons_append, nodesFrom]; exact this
    | nop => rw [List.cons_append, nodesFrom]; exact this
    | prop no v p => rw [List.cons_append, nodesFrom]; exact this

theorem NodeAt.mem {ts : List FTok} {path : List (List Byte)} {n : Nat × List Byte × List FTok} (h : NodeAt ts path n) : n ∈ nodesFrom 0 ts := by
  obtain ⟨pre, pd, h1, h2, _, h4⟩ := h
  have := nodesFrom_mem (pre := pre) (post := n.2.2) (nm := n.2.1) (pd := pd) h4 0
  rw [Nat.zero_add, ← h2, ← h1] at this
  exact this

theorem NodeAt.pos {ts : List FTok} {x : List Byte} {path : List (List Byte)} {n : Nat × List Byte × List FTok} (h : NodeAt ts (x :: path) n) : n.1 ≠ 0 := by
  obtain ⟨pre, pd, h1, h2, h3, h4⟩ := h
  cases pre with
  | nil => cases h3
  | cons t pre =>
    rw [h2]
    unfold offOf
    rw [encs_cons, List.length_append]
    have : 4 ≤ t.enc.length := by
      cases t <;> simp only [FTok.enc, List.length_append, beBytes_length] <;> omega
    omega

/-- A name that only one node has finds that node. -/
theorem Unique.named {ts : List FTok} {name : List Byte} (h : Unique ts name) {n : Nat × List Byte × List FTok} (hn : n ∈ nodesFrom 0 ts)
    (hm : n.2.1 = name) : nodeNamed ts name = some n := by
  cases hf : nodeNamed ts name with
  | none =>
    unfold nodeNamed at hf
    rw [List.find?_eq_none] at hf
    exact absurd (by simpa using hm) (hf n hn)
  | some k =>
    obtain ⟨h1, h2⟩ := FdtOK.named_mem hf
    rw [h k h1 n hn h2 hm]

namespace Fit

/-- `images`, FIT specification: the parent of the images. -/
def IMAGES : List Byte := [0x69, 0x6d, 0x61, 0x67, 0x65, 0x73]

/-- The default configuration `/configurations/<default>` names the image `img` in its property `prop`. `c` is its name. -/
structure Selects (strs : List Byte) (ts : List FTok) (c prop img : List Byte) : Prop where
  dflt : ∃ n, NodeAt ts [[]] n ∧ n.2.1 = CONFIGURATIONS ∧ propVal strs DEFAULT n.2.2 = some (c ++ [0])
  conf : ∃ n, NodeAt ts [CONFIGURATIONS, []] n ∧ n.2.1 = c ∧ propVal strs prop n.2.2 = some (img ++ [0])
  zc : (0 : Byte) ∉ c
  zi : (0 : Byte) ∉ img

/-- **C61 (paths).** When no other node of the tree has the name of the configuration or of the image, the image chosen is the one that the default
configuration names, and the node that is loaded is the one in `/images`. -/
theorem chosen_selected_partial {strs : List Byte} {ts : List FTok} {c prop ty img : List Byte} (h : Selects strs ts c prop img)
    (u0 : Unique ts CONFIGURATIONS) (u1 : Unique ts c) (u2 : Unique ts img) :
    chosen strs ts prop ty = some img ∧
    ∀ n, NodeAt ts [IMAGES, []] n → n.2.1 = img → nodeNamed ts img = some n ∧ n.1 ≠ 0 := by
  refine ⟨?_, fun n h1 h2 => ⟨u2.named h1.mem h2, h1.pos⟩⟩
  obtain ⟨n, h1, h2, h3⟩ := h.dflt
  obtain ⟨k, h4, h5, h6⟩ := h.conf
  unfold chosen confOf
  rw [u0.named h1.mem h2]
  obtain ⟨o, nm, post⟩ := n
  obtain ⟨o', nm', post'⟩ := k
  have p1 := h1.pos
  have p2 := h4.pos
  dsimp only at p1 p2 h3 h6
  dsimp only [valueOf]
  rw [if_neg p1, h3]
  dsimp only
  rw [strOf_zero h.zc [], Option.bind_some, u1.named h4.mem h5]
  dsimp only [valueOf]
  rw [if_neg p2, h6]
  exact strOf_zero h.zi []

/-! ## Findings -/

/-- **Finding (C61).** When the kernel that is chosen has no node, or no data in it, `fit_load_image` returns `NULL` and `NULL` is what is booted
(`/repo/src/update_ram.c:289-291,348`): the result is not checked. -/
theorem bootFit_null {ts : List FTok} {strs : List Byte} {c : Cfg} {m : Mem} {base cap : Nat} (h : FdtOK (view m base cap) ts strs)
    (hh : (view m base cap).checkHeader = 0) (ht : Terminated strs ts) {ks : List Byte} (hk : chosen strs ts KERNEL KERNEL = some ks)
    (hn : nodeNamed ts ks = none ∨ ∃ n, nodeNamed ts ks = some n ∧ propVal strs DATA n.2.2 = none)
    {r : Option (Nat × Nat × Mem)} (hr : bootFit c m base cap = pure r) : ∃ q m', r = some (0, q, m') := by
  have h40 : 40 ≤ (view m base cap).total := by
    have := h.low; have := h.order; have := h.high; omega
  have hsz := h.within.size
  obtain ⟨cp, k, d, f1, _, f3, _⟩ := findImages_spec h hh ht
  rw [hk] at f3
  cases k with
  | none => exact absurd f3 (by simp [Names])
  | some k =>
  have hl : ∃ e : Int, loadImage c m base cap k = pure (0, e, m) := by
    rcases hn with hn | ⟨n, h1, h2⟩
    · exact ⟨0, loadImage_missing h hh f3 (.inl hn)⟩
    · obtain ⟨e, _, he⟩ := loadImage_nodata (c := c) h hh f3 h1 h2
      exact ⟨e, he⟩
  obtain ⟨e, hl⟩ := hl
  unfold bootFit at hr
  have hpos : dtsSize (view m base cap) > 0 := by
    unfold dtsSize
    rw [if_pos hh, s32_id (by omega) (by omega)]
    omega
  rw [if_pos hpos, f1, pure_bind] at hr
  dsimp only [bootKernel] at hr
  rw [hl, pure_bind, pure_bind] at hr
  dsimp only at hr
  generalize bootDts c m base cap d = x at hr
  match x, hr with
  | none, hr => cases hr
  | some (.error _), hr => cases hr
  | some (.ok (q, m')), hr => exact ⟨q, m', (FM.pure_inj hr).symm⟩

/-- **C61.** What has no valid header is not taken for a FIT. -/
theorem bootFit_other {c : Cfg} {m : Mem} {base cap : Nat} (h : (view m base cap).checkHeader ≠ 0) : bootFit c m base cap = pure none := by
  have hn : (view m base cap).checkHeader ≤ 0 := by
    unfold Fdt.checkHeader
    split
    · split
      · decide
      · split <;> decide
    · split
      · split <;> decide
      · decide
  unfold bootFit
  have hp : ¬ dtsSize (view m base cap) > 0 := by
    unfold dtsSize
    rw [if_neg h]
    omega
  rw [if_neg hp]

/-- **Finding (C61).** When no kernel is found, the tree itself is booted: its header is executed (`/repo/src/update_ram.c:289-291`: `load_address` is
left as it is). -/
theorem bootFit_nokernel {ts : List FTok} {strs : List Byte} {c : Cfg} {m : Mem} {base cap : Nat} (h : FdtOK (view m base cap) ts strs)
    (hh : (view m base cap).checkHeader = 0) (ht : Terminated strs ts) (hk : chosen strs ts KERNEL KERNEL = none) (hd : chosen strs ts FDT FLAT_DT = none) :
    bootFit c m base cap = pure (some (base, 0, m)) := by
  have h40 : 40 ≤ (view m base cap).total := by
    have := h.low; have := h.order; have := h.high; omega
  have hsz := h.within.size
  obtain ⟨cp, k, d, f1, _, f3, f4⟩ := findImages_spec h hh ht
  rw [hk] at f3
  rw [hd] at f4
  cases k with
  | some k => exact absurd f3 (by simp [Names])
  | none =>
  cases d with
  | some d => exact absurd f4 (by simp [Names])
  | none =>
  unfold bootFit
  have hpos : dtsSize (view m base cap) > 0 := by
    unfold dtsSize
    rw [if_pos hh, s32_id (by omega) (by omega)]
    omega
  rw [if_pos hpos, f1, pure_bind]
  rfl

/-- **C61.** A device tree whose header is not valid is not handed over. -/
theorem bootDts_bad {c : Cfg} {m m' : Mem} {base cap p : Nat} {d len : Int} (hl : loadImage c m base cap d = pure (p, len, m'))
    (h : (view m' p 40).checkHeader ≠ 0) : bootDts c m base cap (some d) = pure (0, m') := by
  have hn : (view m' p 40).checkHeader < 0 := by
    unfold Fdt.checkHeader at *
    split
    · split
      · decide
      · split
        · decide
        · rename_i q1 q2 q3
          rw [if_pos q1, if_neg q2, if_neg q3] at h
          exact absurd rfl h
    · split
      · split
        · decide
        · rename_i q1 q2 q3
          rw [if_neg q1, if_pos q2, if_neg q3] at h
          exact absurd rfl h
      · decide
  unfold bootDts
  dsimp only
  rw [hl, pure_bind]
  dsimp only
  have hp : ¬ (p ≠ 0 ∧ dtsSize (view m' p 40) ≥ 0) := by
    unfold dtsSize
    rw [if_neg h]
    omega
  rw [if_neg hp]

/-- The same when there is no device tree: nothing is loaded and `NULL` is booted. -/
theorem bootFit_null_alone {ts : List FTok} {strs : List Byte} {c : Cfg} {m : Mem} {base cap : Nat} (h : FdtOK (view m base cap) ts strs)
    (hh : (view m base cap).checkHeader = 0) (ht : Terminated strs ts) {ks : List Byte} (hk : chosen strs ts KERNEL KERNEL = some ks)
    (hn : nodeNamed ts ks = none ∨ ∃ n, nodeNamed ts ks = some n ∧ propVal strs DATA n.2.2 = none) (hd : chosen strs ts FDT FLAT_DT = none) :
    bootFit c m base cap = pure (some (0, 0, m)) := by
  have h40 : 40 ≤ (view m base cap).total := by
    have := h.low; have := h.order; have := h.high; omega
  have hsz := h.within.size
  obtain ⟨cp, k, d, f1, _, f3, f4⟩ := findImages_spec h hh ht
  rw [hk] at f3
  rw [hd] at f4
  cases k with
  | none => exact absurd f3 (by simp [Names])
  | some k =>
  cases d with
  | some d => exact absurd f4 (by simp [Names])
  | none =>
  have hl : ∃ e : Int, loadImage c m base cap k = pure (0, e, m) := by
    rcases hn with hn | ⟨n, h1, h2⟩
    · exact ⟨0, loadImage_missing h hh f3 (.inl hn)⟩
    · obtain ⟨e, _, he⟩ := loadImage_nodata (c := c) h hh f3 h1 h2
      exact ⟨e, he⟩
  obtain ⟨e, hl⟩ := hl
  unfold bootFit
  have hpos : dtsSize (view m base cap) > 0 := by
    unfold dtsSize
    rw [if_pos hh, s32_id (by omega) (by omega)]
    omega
  rw [if_pos hpos, f1, pure_bind]
  dsimp only [bootKernel, bootDts]
  rw [hl, pure_bind, pure_bind]
  rfl

/-- **Finding (C61).** An image that overlaps with its destination, in part, is copied by `memcpy` (`/repo/src/fdt.c:834-837`: only equal
addresses are excluded). -/
theorem loadImage_overlap {ts : List FTok} {strs : List Byte} {c : Cfg} {m : Mem} {base cap : Nat} (h : FdtOK (view m base cap) ts strs)
    (hh : (view m base cap).checkHeader = 0) (ht : base + cap ≤ c.top) {p : Int} {s : List Byte} (hp : Names (view m base cap) (some p) (some s))
    {v : List Byte} {load entry : Nat} (im : Image c strs ts s v load entry) :
    ∃ a, BytesAt m (base + a) v ∧ (load ≠ 0 → load ≠ base + a → load < base + a + v.length → base + a < load + v.length → load + v.length ≤ c.top →
      loadImage c m base cap p = throw .ub) := by
  obtain ⟨n, h1, h2, h3, h4, h5⟩ := im.ex
  obtain ⟨a, L⟩ := loadImage_spec h hh hp ht h1 h2 h3
  refine ⟨a, L.bytes, ?_⟩
  intro g1 g2 g3 g4 g5
  refine L.clash (by rw [h4]; exact g1) (by rw [h4]; exact g2) (by rw [h4]; exact g5) ?_
  rw [h4]
  unfold Apart
  omega

/-- **Finding (C61).** An image that has no load address, or is there already, starts at its first byte whatever its entry is
(`/repo/src/fdt.c:834-841`). -/
theorem loadImage_entry_ignored {ts : List FTok} {strs : List Byte} {c : Cfg} {m : Mem} {base cap : Nat} (h : FdtOK (view m base cap) ts strs)
    (hh : (view m base cap).checkHeader = 0) (ht : base + cap ≤ c.top) {p : Int} {s : List Byte} (hp : Names (view m base cap) (some p) (some s))
    {v : List Byte} {load entry : Nat} (im : Image c strs ts s v load entry) :
    ∃ a, BytesAt m (base + a) v ∧ (load = 0 ∨ load = base + a → loadImage c m base cap p = pure (base + a, (v.length : Int), m)) := by
  obtain ⟨n, h1, h2, h3, h4, h5⟩ := im.ex
  obtain ⟨a, L⟩ := loadImage_spec h hh hp ht h1 h2 h3
  refine ⟨a, L.bytes, ?_⟩
  intro g
  exact L.stays (by rw [h4]; exact g)

end Fit

end Verif
