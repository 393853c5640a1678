import Verif.FdtBounds

/-!
# Device trees as lists of tags

What a blob says, apart from the code: the structure block is the encoding of a list of tags, the strings block a list of bytes.
A property belongs to the node whose tag comes before it, with only properties and no-operations between.
-/

namespace Verif

/-- The bytes `l` are at `a`. -/
def BytesAt (m : Mem) (a : Nat) (l : List Byte) : Prop := slice m a l.length = l

namespace BytesAt

theorem append {m : Mem} {a : Nat} {l k : List Byte} : BytesAt m a (l ++ k) ↔ BytesAt m a l ∧ BytesAt m (a + l.length) k := by
  unfold BytesAt
  rw [List.length_append, slice_append]
  constructor
  · intro h; exact List.append_inj h (by rw [slice_length])
  · intro ⟨h1, h2⟩; rw [h1, h2]

theorem nil {m : Mem} {a : Nat} : BytesAt m a [] := rfl

theorem cons {m : Mem} {a : Nat} {b : Byte} {l : List Byte} : BytesAt m a (b :: l) ↔ m a = b ∧ BytesAt m (a + 1) l := by
  unfold BytesAt
  simp only [List.length_cons, slice, List.cons.injEq]

theorem shift {m m' : Mem} {a a' : Nat} {l : List Byte} (h : BytesAt m a l) (e : ∀ j, j < l.length → m' (a' + j) = m (a + j)) :
    BytesAt m' a' l := by
  induction l generalizing a a' with
  | nil => exact nil
  | cons b l ih =>
    rw [cons] at h ⊢
    have e0 := e 0 (by simp)
    simp only [Nat.add_zero] at e0
    refine ⟨by rw [e0]; exact h.1, ih h.2 fun j hj => ?_⟩
    have := e (j + 1) (by simp only [List.length_cons]; omega)
    rw [show a' + 1 + j = a' + (j + 1) by omega, show a + 1 + j = a + (j + 1) by omega]
    exact this

theorem congr {m m' : Mem} {a : Nat} {l : List Byte} (h : BytesAt m a l) (e : Agree m' m a (a + l.length)) : BytesAt m' a l :=
  h.shift fun j hj => e (a + j) (by omega) (by omega)

theorem st (m : Mem) (a : Nat) (l : List Byte) : BytesAt (stBytes m a l) a l := by
  unfold BytesAt
  apply List.ext_getElem?
  intro j
  by_cases hj : j < l.length
  · rw [slice_getElem? _ _ _ _ hj]
    unfold stBytes
    rw [if_pos (by omega), show a + j - a = j by omega, List.getD_eq_getElem?_getD, List.getElem?_eq_getElem hj]
    rfl
  · rw [List.getElem?_eq_none (by rw [slice_length]; omega), List.getElem?_eq_none (by omega)]

theorem of_slice (m : Mem) (a n : Nat) : BytesAt m a (slice m a n) := by
  unfold BytesAt; rw [slice_length]

end BytesAt

theorem stBytes_out {m : Mem} {a i : Nat} {l : List Byte} (h : i < a ∨ a + l.length ≤ i) : stBytes m a l i = m i := by
  unfold stBytes; rw [if_neg (by omega)]

theorem beBytes_length (v : Nat) : (beBytes v).length = 4 := rfl

theorem be32_at {m : Mem} {a v : Nat} (hv : v < 4294967296) (h : BytesAt m a (beBytes v)) : be32 m a = v := by
  unfold beBytes at h
  simp only [BytesAt.cons] at h
  obtain ⟨h1, h2, h3, h4, _⟩ := h
  unfold be32
  rw [h1, h2, show a + 2 = a + 1 + 1 by omega, h3, show a + 3 = a + 1 + 1 + 1 by omega, h4]
  simp only [BitVec.toNat_ofNat]
  omega

theorem be32_congr {m x : Mem} {a : Nat} (h : Agree m x a (a + 4)) : be32 m a = be32 x a := by
  unfold be32
  rw [h a (by omega) (by omega), h (a+1) (by omega) (by omega), h (a+2) (by omega) (by omega),
    h (a+3) (by omega) (by omega)]

/-- A tag of the structure block. Padding may have any content. -/
inductive FTok
  | node (name pad : List Byte)
  | endNode
  | prop (nameoff : Nat) (val pad : List Byte)
  | nop
  | fin
  deriving DecidableEq

namespace FTok

/-- Value of the tag, Devicetree Specification 5.4.1, `/repo/include/fdt.h:79-83`. -/
def tag : FTok → Nat
  | node _ _ => 1
  | endNode => 2
  | prop _ _ _ => 3
  | nop => 4
  | fin => 9

/-- Encoding, Devicetree Specification 5.4.1, `/repo/include/fdt.h:60-70`. -/
def enc : FTok → List Byte
  | node name pad => beBytes 1 ++ (name ++ [0] ++ pad)
  | endNode => beBytes 2
  | prop nameoff val pad => beBytes 3 ++ (beBytes val.length ++ (beBytes nameoff ++ (val ++ pad)))
  | nop => beBytes 4
  | fin => beBytes 9

/-- What the encoding requires: names without a zero byte, padding to a multiple of four. -/
def OK : FTok → Prop
  | node name pad => (0 : Byte) ∉ name ∧ pad.length < 4 ∧ (name.length + 1 + pad.length) % 4 = 0
  | prop nameoff val pad => nameoff < 4294967296 ∧ pad.length < 4 ∧ (val.length + pad.length) % 4 = 0
  | _ => True

end FTok

/-- Encoding of a list of tags. -/
def encs (ts : List FTok) : List Byte := ts.flatMap FTok.enc

theorem encs_append (a b : List FTok) : encs (a ++ b) = encs a ++ encs b := List.flatMap_append

theorem encs_cons (t : FTok) (b : List FTok) : encs (t :: b) = t.enc ++ encs b := List.flatMap_cons

theorem encs_single (t : FTok) : encs [t] = t.enc := by simp [encs]

theorem FTok.enc_mod {t : FTok} (h : t.OK) : t.enc.length % 4 = 0 := by
  cases t <;> simp only [FTok.enc, FTok.OK, List.length_append, beBytes_length, List.length_cons, List.length_nil] at h ⊢ <;> omega

theorem encs_mod {ts : List FTok} (h : ∀ t ∈ ts, t.OK) : (encs ts).length % 4 = 0 := by
  induction ts with
  | nil => rfl
  | cons t ts ih =>
    rw [encs_cons, List.length_append]
    have := FTok.enc_mod (h t (by simp))
    have := ih fun u hu => h u (by simp [hu])
    omega

/-- The string at the start of a list of bytes. -/
def strOf : List Byte → Option (List Byte)
  | [] => none
  | b :: l => if b = 0 then some [] else (strOf l).map (b :: ·)

/-- The string at an offset of the strings block. -/
def nameAt (strs : List Byte) (off : Nat) : Option (List Byte) := strOf (strs.drop off)

/-- The blob in the buffer consists of the tags `ts` and the strings `strs`: version 17, the blocks in their order, names inside of
the strings block. -/
structure FdtOK (f : Fdt) (ts : List FTok) (strs : List Byte) : Prop where
  within : f.Within
  version : f.version ≥ 0x11
  low : 40 ≤ f.offStruct
  size : f.sizeStruct = (encs ts).length
  order : f.offStruct + f.sizeStruct ≤ f.offStrings
  sizeS : f.sizeStrings = strs.length
  high : f.offStrings + f.sizeStrings ≤ f.total
  struct : BytesAt f.m f.offStruct (encs ts)
  strings : BytesAt f.m f.offStrings strs
  toks : ∀ t ∈ ts, t.OK
  names : ∀ no v p, FTok.prop no v p ∈ ts → ∃ s, nameAt strs no = some s

/-- Offset in the structure block of what follows the tags `pre`. -/
def offOf (pre : List FTok) : Nat := (encs pre).length

/-- What is found for a property name among the tags after that of a node, that start at offset `o`; `so` is where the block starts.
An error is `-FDT_ERR_NOTFOUND` when the properties end, others when the block ends. -/
def look (strs name : List Byte) (so : Nat) : Nat → List FTok → Fdt.GProp
  | _, [] => .err (-8)
  | _, .fin :: _ => .err (-3)
  | _, .node _ _ :: _ => .err (-6)
  | _, .endNode :: _ => .err (-6)
  | o, .nop :: r => look strs name so (o + 4) r
  | o, .prop no v p :: r =>
    if nameAt strs no = some name then .found ((so + o : Nat) : Int) v.length o
    else look strs name so (o + (FTok.prop no v p).enc.length) r

/-- Value of a property among the tags after that of a node. -/
def propVal (strs name : List Byte) : List FTok → Option (List Byte)
  | .nop :: r => propVal strs name r
  | .prop no v _ :: r => if nameAt strs no = some name then some v else propVal strs name r
  | _ => none

/-- The properties of the node end with another node or the end of this node. -/
def PropsEnd : List FTok → Prop
  | .nop :: r => PropsEnd r
  | .prop _ _ _ :: r => PropsEnd r
  | .node _ _ :: _ => True
  | .endNode :: _ => True
  | _ => False

end Verif
