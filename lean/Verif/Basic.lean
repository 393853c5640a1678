/-!
# Bytes and byte-addressed memory

Common vocabulary of all models: a byte is `BitVec 8`, a memory region is a function from
offsets to bytes. Multi-byte fields are little endian, as on the targets without
`BIG_ENDIAN_ORDER` (`/repo/src/image.c:1109-1118`, `im2n`).
-/

namespace Verif

/-- A byte (`uint8_t`). -/
abbrev Byte := BitVec 8

/-- Contents of a memory region, indexed by offset from the start of the region. -/
abbrev Mem := Nat → Byte

/-- 16-bit little-endian load (`p[0] | (p[1] << 8)`, `/repo/src/libwolfboot.c:834`). -/
def le16 (m : Mem) (a : Nat) : Nat := (m a).toNat + 256 * (m (a + 1)).toNat

/-- 32-bit little-endian load (`*(uint32_t*)p`, e.g. `/repo/src/image.c:1130`). -/
def le32 (m : Mem) (a : Nat) : Nat :=
  (m a).toNat + 256 * (m (a + 1)).toNat + 65536 * (m (a + 2)).toNat
    + 16777216 * (m (a + 3)).toNat

/-- `m` and `x` hold the same bytes on offsets `[lo, hi)`. -/
def Agree (m x : Mem) (lo hi : Nat) : Prop := ∀ o, lo ≤ o → o < hi → m o = x o

/-- The bytes `[off, off+len)` of `m` as a list. -/
def slice (m : Mem) (off : Nat) : Nat → List Byte
  | 0 => []
  | n + 1 => m off :: slice m (off + 1) n

/-- Memory region holding the list `l` at offset 0 (and `0xFF`, erased flash, beyond it). -/
def ofList (l : List Byte) : Mem := fun a => (l[a]?).getD 0xFF#8

theorem le16_lt (m : Mem) (a : Nat) : le16 m a < 65536 := by
  unfold le16; have := (m a).isLt; have := (m (a+1)).isLt; omega

theorem le32_lt (m : Mem) (a : Nat) : le32 m a < 4294967296 := by
  unfold le32
  have := (m a).isLt; have := (m (a+1)).isLt; have := (m (a+2)).isLt; have := (m (a+3)).isLt
  omega

theorem le16_congr {m x : Mem} {a : Nat} (h : Agree m x a (a + 2)) : le16 m a = le16 x a := by
  unfold le16; rw [h a (by omega) (by omega), h (a+1) (by omega) (by omega)]

theorem le32_congr {m x : Mem} {a : Nat} (h : Agree m x a (a + 4)) : le32 m a = le32 x a := by
  unfold le32
  rw [h a (by omega) (by omega), h (a+1) (by omega) (by omega), h (a+2) (by omega) (by omega),
    h (a+3) (by omega) (by omega)]

theorem Agree.mono {m x : Mem} {lo hi lo' hi' : Nat} (h : Agree m x lo hi)
    (h1 : lo ≤ lo') (h2 : hi' ≤ hi) : Agree m x lo' hi' :=
  fun o a b => h o (by omega) (by omega)

theorem Agree.symm {m x : Mem} {lo hi : Nat} (h : Agree m x lo hi) : Agree x m lo hi :=
  fun o a b => (h o a b).symm

theorem slice_length (m : Mem) (off n : Nat) : (slice m off n).length = n := by
  induction n generalizing off with
  | zero => rfl
  | succ n ih => simp [slice, ih]

theorem slice_congr {m x : Mem} {off n : Nat} (h : Agree m x off (off + n)) :
    slice m off n = slice x off n := by
  induction n generalizing off with
  | zero => rfl
  | succ n ih =>
    simp only [slice]
    rw [h off (by omega) (by omega), ih (h.mono (by omega) (by omega))]

theorem slice_append (m : Mem) (off a b : Nat) :
    slice m off (a + b) = slice m off a ++ slice m (off + a) b := by
  induction a generalizing off with
  | zero => simp [slice]
  | succ n ih =>
    rw [show n + 1 + b = (n + b) + 1 by omega]
    simp only [slice, List.cons_append]
    rw [ih, show off + 1 + n = off + (n + 1) by omega]

theorem slice_getElem? (m : Mem) (off n i : Nat) (h : i < n) :
    (slice m off n)[i]? = some (m (off + i)) := by
  induction n generalizing off i with
  | zero => omega
  | succ n ih =>
    cases i with
    | zero => simp [slice]
    | succ i =>
      simp only [slice, List.getElem?_cons_succ]
      rw [ih _ _ (by omega), show off + 1 + i = off + (i + 1) by omega]

/-- Equal slices agree pointwise. -/
theorem slice_inj {m x : Mem} {off n : Nat} (h : slice m off n = slice x off n) :
    Agree m x off (off + n) := by
  intro o h1 h2
  have h3 := slice_getElem? m off n (o - off) (by omega)
  have h4 := slice_getElem? x off n (o - off) (by omega)
  rw [h, h4] at h3
  have := Option.some.inj h3
  rw [show off + (o - off) = o by omega] at this
  exact this.symm

end Verif
