import Verif.FdtThms

/-!
# Device trees: examples and findings
-/

namespace Verif

namespace FdtDemo

/-- Tags of a small tree: a root with the property `a` and a child `n` with the properties `a` and `b`. -/
def toks : List FTok :=
  [.node [] [0, 0, 0], .prop 0 [1, 2, 3, 4] [], .nop, .node [0x6e] [0, 0], .prop 0 [7] [0, 0, 0], .prop 2 [] [], .endNode, .endNode, .fin]

/-- Strings of the tree: `a`, `b`. -/
def strs : List Byte := [0x61, 0, 0x62, 0]

/-- Header, `/repo/include/fdt.h:37-48`. -/
def header (total offStruct offStrings version sizeStrings sizeStruct : Nat) : List Byte :=
  beBytes 0xD00DFEED ++ beBytes total ++ beBytes offStruct ++ beBytes offStrings ++ beBytes 40 ++ beBytes version ++ beBytes 16 ++ beBytes 0
    ++ beBytes sizeStrings ++ beBytes sizeStruct

/-- The blob, with 100 bytes to spare. -/
def blob : Fdt := ⟨ofList (header 240 56 132 17 4 76 ++ List.replicate 16 0 ++ encs toks ++ strs), 300⟩

theorem blob_ok : FdtOK blob toks strs where
  within := ⟨by decide +kernel, by decide +kernel⟩
  version := by decide +kernel
  low := by decide +kernel
  size := by decide +kernel
  order := by decide +kernel
  sizeS := by decide +kernel
  high := by decide +kernel
  struct := by unfold BytesAt; decide +kernel
  strings := by unfold BytesAt; decide +kernel
  toks := by
    intro t ht
    simp only [toks, List.mem_cons, List.not_mem_nil, or_false] at ht
    rcases ht with h | h | h | h | h | h | h | h | h <;> subst h <;> simp [FTok.OK]
  names := by
    intro no v p hp
    simp only [toks, List.mem_cons, List.not_mem_nil, or_false, FTok.prop.injEq, reduceCtorEq, false_or] at hp
    rcases hp with h | h | h <;> rw [h.1]
    · exact ⟨[0x61], by decide +kernel⟩
    · exact ⟨[0x61], by decide +kernel⟩
    · exact ⟨[0x62], by decide +kernel⟩

example : blob.checkHeader = 0 := by decide +kernel

/-- Tags before and after the child. -/
def pre : List FTok := [.node [] [0, 0, 0], .prop 0 [1, 2, 3, 4] [], .nop]
def post : List FTok := [.prop 0 [7] [0, 0, 0], .prop 2 [] [], .endNode, .endNode, .fin]

/-- Reading. -/
example : ∃ a : Nat, blob.getprop (offOf pre) [0x61] = pure (.found (a : Int) 1) ∧ BytesAt blob.m a [7] ∧ a + 1 ≤ blob.total :=
  fdt_getprop_spec blob_ok (pre := pre) (post := post) rfl [0x61]

/-- Setting the property `c` to six bytes has the room it needs. -/
example : ∃ f', blob.setprop (offOf pre) [0x63] [1, 2, 3, 4, 5, 6] = pure (0, f') ∧ Reads f' (offOf pre) [0x63] (some [1, 2, 3, 4, 5, 6]) ∧
    Reads f' (offOf pre) [0x61] (some [7]) ∧ Reads f' (0 : Nat) [0x61] (some [1, 2, 3, 4]) := by
  have e : toks = pre ++ .node [0x6e] [0, 0] :: post := rfl
  have pe : PropsEnd post := by simp [post, PropsEnd]
  obtain ⟨r, f', h1, h2, h3⟩ := fdt_setprop_spec (name := [0x63]) (val := [1, 2, 3, 4, 5, 6]) blob_ok e pe (by decide) (by decide) (by decide)
  rcases h3 with ⟨_, _, h4⟩ | ⟨h4, post', strs', h5, h6⟩
  · exact absurd h4 (by decide +kernel)
  · subst h4
    obtain ⟨r', f'', g1, g2⟩ := fdt_setprop_reads_partial (name := [0x63]) (val := [1, 2, 3, 4, 5, 6]) blob_ok e pe (by decide) (by decide) (by decide)
    rw [h1] at g1
    have := FM.pure_inj g1
    simp only [Prod.mk.injEq] at this
    obtain ⟨rfl, rfl⟩ := this
    rcases g2 with ⟨g2, _⟩ | ⟨_, δ, a, b, c, _⟩
    · exact absurd g2 (by decide)
    · refine ⟨_, h1, a, b _ _ (by decide) ?_, c [] [] [0, 0, 0] [.prop 0 [1, 2, 3, 4] [], .nop] _ _ rfl ?_⟩
      · exact reads_propVal blob_ok e [0x61]
      · exact reads_propVal blob_ok (pre := []) (post := [.prop 0 [1, 2, 3, 4] [], .nop] ++ .node [0x6e] [0, 0] :: post) rfl [0x61]

/-- A root whose property has length `0xFFFFFFF4`. -/
def stuckBlob : Fdt :=
  ⟨ofList (header 96 40 72 17 2 32 ++ (beBytes 1 ++ beBytes 0 ++ (beBytes 3 ++ beBytes 0xFFFFFFF4 ++ beBytes 0) ++ beBytes 2 ++ beBytes 9 ++ beBytes 0) ++
    [0x61, 0]), 96⟩

end FdtDemo

/-- **Finding (C40).** The traversal of a blob does not end when it comes to a property with length `0xFFFFFFF4`: the end of the property is
computed to be its start (`/repo/src/fdt.c:137-138`), the check of the range passes for zero bytes (`/repo/src/fdt.c:154`). -/
theorem fdt_endless {f : Fdt} (w : f.Within) (hv : f.version ≥ 0x10) (o : Int) (ho : o < 2147483648) (h0 : 0 ≤ o) (h4 : o % 4 = 0)
    (h8 : f.offStruct + o + 8 ≤ f.total) (hs : f.version ≥ 0x11 → o + 8 ≤ f.sizeStruct)
    (ht : be32 f.m (f.offStruct + o.toNat) = 3) (hl : be32 f.m (f.offStruct + o.toNat + 4) = 0xFFFFFFF4) (d : Option Int) :
    f.nextNodeLoop o d = (none : Option _) :=
  Fdt.stuck_nextNodeLoop ((Fdt.stuck_iff w hv o ho).2 ⟨h0, h4, h8, hs, ht, hl⟩) d

/-- A blob that passes `fdt_check_header` and on which `fdt_next_node` does not end. -/
theorem fdt_endless_witness : FdtDemo.stuckBlob.checkHeader = 0 ∧ FdtDemo.stuckBlob.Within ∧
    FdtDemo.stuckBlob.nextNode 0 none = (none : Option _) := by
  have w : FdtDemo.stuckBlob.Within := ⟨by decide +kernel, by decide +kernel⟩
  refine ⟨by decide +kernel, w, ?_⟩
  unfold Fdt.nextNode
  rw [if_pos (by omega)]
  have hc : FdtDemo.stuckBlob.checkOffset Fdt.BEGIN_NODE 0 = pure 8 := by
    unfold Fdt.checkOffset
    rw [if_neg (by decide)]
    unfold Fdt.nextTag
    rw [show FdtDemo.stuckBlob.offsetPtr 0 4 = some 40 by decide +kernel]
    dsimp only
    rw [show FdtDemo.stuckBlob.rd32 40 = pure 1 by
      unfold Fdt.rd32; rw [if_pos (by decide +kernel), show be32 FdtDemo.stuckBlob.m 40 = 1 by decide +kernel], pure_bind]
    rw [show s32 (0 + 4) = 4 by decide]
    unfold Fdt.tagEnd
    rw [if_pos (by decide), Fdt.skipName, chk_ok (by omega) (by omega), pure_bind,
      show FdtDemo.stuckBlob.offsetPtr 4 1 = some 44 by decide +kernel]
    dsimp only
    rw [Fdt.rd_ok (by decide +kernel), pure_bind, if_neg (by decide +kernel), pure_bind]
    dsimp only
    rw [chk_ok (by omega) (by omega), pure_bind, show FdtDemo.stuckBlob.offsetPtr 0 (fu32 (4 + 1 - 0)) = some 40 by decide +kernel]
    dsimp only
    rw [pure_bind]
    dsimp only
    rw [if_neg (by decide)]
    rfl
  rw [hc, pure_bind, if_neg (by omega)]
  exact fdt_endless w (by decide +kernel) 8 (by omega) (by omega) (by omega) (by decide +kernel) (by decide +kernel) (by decide +kernel)
    (by decide +kernel) none

/-- **Finding (C40).** The name of a property is read wherever its offset points to (`/repo/src/fdt.c:219-221,523-530`): past the end of the
buffer the search for a property is an access out of bounds. -/
theorem fdt_name_unchecked {f : Fdt} {o : Int} {next : Int} (name : List Byte) (h0 : 0 ≤ o) (h4 : o % 4 = 0) (ho : o < 2147483648)
    (ht : f.nextTag o = pure (Fdt.PROP, next)) (hn : 0 ≤ next) (hc : f.offStruct + o + 12 ≤ f.cap)
    (hno : f.offStrings + s32 (be32 f.m (f.offStruct + o.toNat + 8)) ≥ f.cap) :
    f.getPropertyLoop name o = throw .oob := by
  rw [Fdt.getPropertyLoop, if_neg (by omega)]
  unfold Fdt.getPropertyByOffset Fdt.checkOffset Fdt.ptr
  rw [if_neg (by unfold fu32; omega), ht]
  simp only [pure_bind, ne_eq, not_true_eq_false, if_false]
  rw [if_neg (by omega), Fdt.rd32_ok (by omega)]
  simp only [pure_bind]
  rw [Fdt.rd32_ok (by omega), pure_bind, show ((f.offStruct : Int) + o + 8).toNat = f.offStruct + o.toNat + 8 by omega]
  unfold Fdt.getString Fdt.str
  rw [if_neg (by omega)]
  have : f.cap - ((f.offStrings : Int) + s32 (be32 f.m (f.offStruct + o.toNat + 8))).toNat = 0 := by omega
  rw [this]
  rfl

/-- **Finding (C40).** `fdt_node_offset_by_compatible` does not end on a `compatible` property that is not terminated, is at least as long as the
string searched for and does not match it (`/repo/src/fdt.c:659-669`). -/
theorem fdt_compatible_endless {f : Fdt} {c : List Byte} {a len : Nat} (hl : c.length ≤ len) (hcap : a + len + 1 ≤ f.cap)
    (hz : (0 : Byte) ∉ slice f.m a len) (hne : slice f.m a (c.length + 1) ≠ c ++ [0]) :
    f.compatLoop c a len = (none : Option _) := by
  refine Fdt.compatLoop.fixpoint_induct f c (fun g => g a len = (none : Option _)) (FM.admissible_none2 _ _) ?_
  intro g hg
  dsimp only
  rw [if_pos (by omega)]
  unfold Fdt.bytes
  rw [if_pos (by omega), pure_bind, Int.toNat_natCast, if_neg hne, Int.toNat_natCast, if_pos (by omega), pure_bind]
  have : (slice f.m a len).findIdx? (fun x => decide (x = 0)) = none := by
    rw [List.findIdx?_eq_none_iff]
    intro x hx
    simp only [decide_eq_false_iff_not]
    intro hh
    exact hz (hh ▸ hx)
  rw [this]
  exact hg

/-- Such a property: `ab`, searched for `a`. -/
example : (⟨ofList [0x61, 0x62, 0x63], 3⟩ : Fdt).compatLoop [0x61] 0 2 = (none : Option _) :=
  fdt_compatible_endless (a := 0) (len := 2) (by decide) (by decide) (by decide) (by decide)

/-- **Finding (C40).** A length near `0x7FFFFFFF` is a signed overflow in `fdt_next_tag` (`/repo/src/fdt.c:154`). -/
theorem fdt_length_overflow : (⟨ofList (FdtDemo.header 96 40 72 17 2 32 ++ (beBytes 4 ++ beBytes 3 ++ beBytes 0x7FFFFFF2 ++ beBytes 0)), 96⟩ : Fdt).nextTag 4
    = throw .ub := by
  generalize hf : (⟨ofList (FdtDemo.header 96 40 72 17 2 32 ++ (beBytes 4 ++ beBytes 3 ++ beBytes 0x7FFFFFF2 ++ beBytes 0)), 96⟩ : Fdt) = f
  have e1 : f.offsetPtr 4 4 = some 44 := by rw [← hf]; decide +kernel
  have e2 : f.offsetPtr 8 4 = some 48 := by rw [← hf]; decide +kernel
  have e3 : f.rd32 44 = pure 3 := by
    unfold Fdt.rd32; rw [if_pos (by rw [← hf]; decide +kernel), show be32 f.m 44 = 3 by rw [← hf]; decide +kernel]
  have e4 : f.rd32 48 = pure 0x7FFFFFF2 := by
    unfold Fdt.rd32; rw [if_pos (by rw [← hf]; decide +kernel), show be32 f.m 48 = 0x7FFFFFF2 by rw [← hf]; decide +kernel]
  have e5 : f.version = 17 := by rw [← hf]; decide +kernel
  unfold Fdt.nextTag
  rw [e1]
  dsimp only
  rw [e3, pure_bind, show s32 (4 + 4) = 8 by decide]
  unfold Fdt.tagEnd
  rw [if_neg (by decide), if_pos rfl, e2]
  dsimp only
  rw [e4, pure_bind, if_neg (by omega), pure_bind]
  dsimp only
  rw [show chk (s32 (8 + 12 - 4 + (0x7FFFFFF2 : Nat)) - 4) = throw .ub from if_neg (by decide)]
  rfl

end Verif
