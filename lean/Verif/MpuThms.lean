import Verif.Mpu

/-!
# What the memory protection unit allows while wolfBoot runs
-/

namespace Verif

namespace Mpu

/-! ## The unit of ARMv7-M -/

/-- Binary logarithm of the size of a region with the attributes `v`. -/
def bits (v : Nat) : Nat := v / 2 % 32 + 1

/-- A region with base `b` and attributes `v` contains `a`; subregions of an eighth can be disabled. -/
def Hit (b v a : Nat) : Prop :=
  v % 2 = 1 ∧ a / 2 ^ bits v = b / 2 ^ bits v ∧ (8 ≤ bits v → v / 2 ^ (8 + a % 2 ^ bits v / 2 ^ (bits v - 3)) % 2 = 0)

instance (b v a : Nat) : Decidable (Hit b v a) := by unfold Hit; infer_instance

/-- Number of regions. -/
def regions (s : St) : Nat := s.typ / 256 % 256

/-- `i` is the region that decides on `a`: the highest that contains it. -/
def Decides (s : St) (i a : Nat) : Prop :=
  i < regions s ∧ Hit (s.rbar i) (s.rasr i) a ∧ ∀ j, i < j → j < regions s → ¬ Hit (s.rbar j) (s.rasr j) a

/-- Kind of access: by privileged code or not. -/
inductive Who
  | priv | user
  deriving DecidableEq

/-- Reading with the permissions `ap`. -/
def mayRead (ap : Nat) : Who → Prop
  | .priv => ap ≠ 0 ∧ ap ≠ 4
  | .user => ap = 2 ∨ ap = 3 ∨ ap = 6 ∨ ap = 7

/-- Writing with the permissions `ap`. -/
def mayWrite (ap : Nat) : Who → Prop
  | .priv => ap = 1 ∨ ap = 2 ∨ ap = 3
  | .user => ap = 3

/-- Field `AP`. -/
def ap (v : Nat) : Nat := v / 16777216 % 8
/-- Bit `XN`. -/
def xn (v : Nat) : Bool := v / 268435456 % 2 == 1

/-- The private peripherals are accessible to privileged code, whatever the unit says. -/
def Ppb (a : Nat) : Prop := 0xE0000000 ≤ a ∧ a < 0xE0100000

/-- Addresses from which the default memory map permits execution. -/
def DefaultX (a : Nat) : Prop := a < 0x40000000 ∨ (0x60000000 ≤ a ∧ a < 0xA0000000)

/-- `a` may be read. -/
def CanRead (s : St) (w : Who) (a : Nat) : Prop :=
  (s.ctrl % 2 = 0 ∧ (Ppb a → w = .priv)) ∨ (Ppb a ∧ w = .priv) ∨ (¬ Ppb a ∧ s.ctrl % 2 = 1 ∧ ∃ i, Decides s i a ∧ mayRead (ap (s.rasr i)) w) ∨
    (¬ Ppb a ∧ s.ctrl % 2 = 1 ∧ s.ctrl / 4 % 2 = 1 ∧ w = .priv ∧ ∀ i, ¬ Decides s i a)

/-- `a` may be written. -/
def CanWrite (s : St) (w : Who) (a : Nat) : Prop :=
  (s.ctrl % 2 = 0 ∧ (Ppb a → w = .priv)) ∨ (Ppb a ∧ w = .priv) ∨ (¬ Ppb a ∧ s.ctrl % 2 = 1 ∧ ∃ i, Decides s i a ∧ mayWrite (ap (s.rasr i)) w) ∨
    (¬ Ppb a ∧ s.ctrl % 2 = 1 ∧ s.ctrl / 4 % 2 = 1 ∧ w = .priv ∧ ∀ i, ¬ Decides s i a)

/-- An instruction at `a` may be executed: it can be read and is not in a region with `XN`; never in the system space. -/
def CanExec (s : St) (w : Who) (a : Nat) : Prop :=
  a < 0xE0000000 ∧ ((s.ctrl % 2 = 0 ∧ DefaultX a) ∨
    (s.ctrl % 2 = 1 ∧ ∃ i, Decides s i a ∧ mayRead (ap (s.rasr i)) w ∧ xn (s.rasr i) = false) ∨
    (s.ctrl % 2 = 1 ∧ s.ctrl / 4 % 2 = 1 ∧ w = .priv ∧ DefaultX a ∧ ∀ i, ¬ Decides s i a))

/-- `a` is treated as memory that may be cached (bits `TEX` 0 and `C` of its region). -/
def Cached (s : St) (a : Nat) : Prop :=
  ∃ i, Decides s i a ∧ s.rasr i / 131072 % 2 = 1

/-- `a` is treated as a device (`TEX` 0, `C` 0, `B` 1). -/
def Device (s : St) (a : Nat) : Prop :=
  ∃ i, Decides s i a ∧ s.rasr i / 524288 % 8 = 0 ∧ s.rasr i / 131072 % 2 = 0 ∧ s.rasr i / 65536 % 2 = 1

/-! ## The state after `mpu_init` -/

/-- Size of the region of the text: 8 KiB or more, a power of two. -/
def window (size : Nat) : Nat :=
  if size ≤ 8192 then 8192 else if size ≤ 16384 then 16384 else if size ≤ 32768 then 32768 else 65536

/-- What has to hold before: eight regions or more, bases are multiples of 32, at most 64 KiB of text. -/
structure Bare (l : Layout) (s : St) : Prop where
  eight : 8 ≤ regions s
  off : s.on = false
  text : l.startText % 32 = 0
  data : l.startData % 32 = 0
  size : flashSize l ≤ 65536

/-- Also, the regions that `mpu_init` does not set are disabled. -/
structure Ready (l : Layout) (s : St) : Prop extends Bare l s where
  clean : ∀ i, i ≠ 0 → i ≠ 1 → i ≠ 2 → i ≠ 5 → i ≠ 6 → i ≠ 7 → s.rasr i % 2 = 0

theorem setaddr_low (s : St) (r a : Nat) (h : a / 16 % 2 = 0) : setaddr s r a = { s with rnr := r, rbar := upd s.rbar r a } := by
  unfold setaddr wrRbar
  rw [if_neg (by omega)]

/-- A region set. -/
def put (s : St) (r a v : Nat) : St := { s with rnr := r, rbar := upd s.rbar r a, rasr := upd s.rasr r v }

theorem set_put (s : St) (r a v : Nat) (h : a / 16 % 2 = 0) : setattr (setaddr s r a) r v = put s r a v := by
  rw [setaddr_low s r a h]
  rfl

theorem mpusize_window {n : Nat} (h : n ≤ 65536) : ∃ k, 13 ≤ k ∧ k ≤ 16 ∧ mpusize n = 2 * (k - 1) ∧ window n = 2 ^ k := by
  unfold mpusize window
  by_cases h1 : n ≤ 8192
  · rw [if_pos (by omega), if_pos h1]; exact ⟨13, by decide, by decide, rfl, rfl⟩
  by_cases h2 : n ≤ 16384
  · rw [if_neg (by omega), if_pos (by omega), if_neg h1, if_pos h2]; exact ⟨14, by decide, by decide, rfl, rfl⟩
  by_cases h3 : n ≤ 32768
  · rw [if_neg (by omega), if_neg (by omega), if_pos (by omega), if_neg h1, if_neg h2, if_pos h3]; exact ⟨15, by decide, by decide, rfl, rfl⟩
  · rw [if_neg (by omega), if_neg (by omega), if_neg (by omega), if_pos (by omega), if_neg h1, if_neg h2, if_neg h3]
    exact ⟨16, by decide, by decide, rfl, rfl⟩

theorem window_ge {n : Nat} (h : n ≤ 65536) : n ≤ window n := by
  unfold window
  by_cases h1 : n ≤ 8192
  · rw [if_pos h1]; omega
  by_cases h2 : n ≤ 16384
  · rw [if_neg h1, if_pos h2]; omega
  by_cases h3 : n ≤ 32768
  · rw [if_neg h1, if_neg h2, if_pos h3]; omega
  · rw [if_neg h1, if_neg h2, if_neg h3]; omega

theorem hit_iff {b v a : Nat} (h1 : v % 2 = 1) (h2 : v / 256 % 256 = 0) : Hit b v a ↔ a / 2 ^ bits v = b / 2 ^ bits v := by
  unfold Hit
  refine ⟨fun h => h.2.1, fun h => ⟨h1, h, ?_⟩⟩
  intro h8
  have hi : a % 2 ^ bits v / 2 ^ (bits v - 3) < 8 := by
    rw [Nat.div_lt_iff_lt_mul (Nat.two_pow_pos _), show (8 : Nat) = 2 ^ 3 from rfl, ← Nat.pow_add, show 3 + (bits v - 3) = bits v by omega]
    exact Nat.mod_lt _ (Nat.two_pow_pos _)
  generalize a % 2 ^ bits v / 2 ^ (bits v - 3) = i at hi
  have : i = 0 ∨ i = 1 ∨ i = 2 ∨ i = 3 ∨ i = 4 ∨ i = 5 ∨ i = 6 ∨ i = 7 := by omega
  rcases this with e | e | e | e | e | e | e | e <;> subst e <;> simp only [Nat.reduceAdd, Nat.reducePow] <;> omega

theorem hit_off {b v a : Nat} (h : v % 2 = 0) : ¬ Hit b v a := fun k => by have := k.1; omega

/-- Attributes of the region of the text. -/
def textAttr (k : Nat) : Nat := 0x01070001 + 2 * (k - 1)

/-- Attributes of the region of the data. -/
def dataAttr (x : Bool) : Nat := if x then 0x0107001F else 0x1107001F

/-- The registers after `mpu_init`. -/
structure Set (l : Layout) (s t : St) (k : Nat) : Prop where
  typ : t.typ = s.typ
  ctrl : t.ctrl = 1
  on : t.on = true
  b0 : t.rbar 0 = 0
  a0 : t.rasr 0 = 0x1107003F
  b1 : t.rbar 1 = l.startText
  a1 : t.rasr 1 = textAttr k
  b2 : t.rbar 2 = l.startData
  a2 : t.rasr 2 = dataAttr l.ramCode
  b5 : t.rbar 5 = 0x40000000
  a5 : t.rasr 5 = 0x11050039
  b6 : t.rbar 6 = 0xA0000000
  a6 : t.rasr 6 = 0x1105003B
  b7 : t.rbar 7 = 0xE0000000
  a7 : t.rasr 7 = 0x11050037
  others : ∀ i, i ≠ 0 → i ≠ 1 → i ≠ 2 → i ≠ 5 → i ≠ 6 → i ≠ 7 → t.rbar i = s.rbar i ∧ t.rasr i = s.rasr i

theorem init_set {l : Layout} {s : St} (h : Bare l s) :
    ∃ k, 13 ≤ k ∧ k ≤ 16 ∧ window (flashSize l) = 2 ^ k ∧ Set l s (init l s) k := by
  obtain ⟨k, k1, k2, k3, k4⟩ := mpusize_window h.size
  refine ⟨k, k1, k2, k4, ?_⟩
  have ht := h.text
  have hd := h.data
  have h8 : s.typ ≠ 0 := by
    intro e
    have := h.eight
    unfold regions at this
    rw [e] at this
    omega
  have hk : k = 13 ∨ k = 14 ∨ k = 15 ∨ k = 16 := by omega
  have hv : 2 * (k - 1) ||| ENABLE ||| ATTR_SCB ||| AP_PRW_UNO = textAttr k := by
    rcases hk with e | e | e | e <;> subst e <;> decide
  have he : init l s = { put (put (put (put (put (put s 0 0 0x1107003F) 1 l.startText (textAttr k)) 2 l.startData (dataAttr l.ramCode))
      5 0x40000000 0x11050039) 6 0xA0000000 0x1105003B) 7 0xE0000000 0x11050037 with ctrl := 1, on := true } := by
    unfold init
    rw [if_neg h8]
    dsimp only
    rw [if_neg (show ¬ (mpusize (flashSize l) = SIZE_ERR) by rw [k3]; unfold SIZE_ERR; omega), k3]
    unfold region0 region1 region2 region5 region6 region7
    rw [hv, show SIZE_64K ||| ENABLE ||| ATTR_SCB ||| AP_PRW_UNO ||| (if l.ramCode then 0 else XN) = dataAttr l.ramCode by
      cases l.ramCode <;> decide]
    rw [set_put _ 0 0 _ (by decide), set_put _ 1 _ _ (by omega), set_put _ 2 _ _ (by omega), set_put _ 5 _ _ (by decide),
      set_put _ 6 _ _ (by decide), set_put _ 7 _ _ (by decide)]
    rw [show SIZE_4G ||| ENABLE ||| ATTR_SCB ||| AP_PRW_UNO ||| XN = 0x1107003F by decide,
      show SIZE_512M ||| ENABLE ||| ATTR_S ||| ATTR_B ||| AP_PRW_UNO ||| XN = 0x11050039 by decide,
      show SIZE_1G ||| ENABLE ||| ATTR_S ||| ATTR_B ||| AP_PRW_UNO ||| XN = 0x1105003B by decide,
      show SIZE_256M ||| ENABLE ||| ATTR_S ||| ATTR_B ||| AP_PRW_UNO ||| XN = 0x11050037 by decide]
    have turn : ∀ t : St, t.on = s.on → t.typ = s.typ → turnOn t = { t with ctrl := 1, on := true } := by
      intro t t1 t2
      unfold turnOn
      rw [t1, t2, h.off, if_neg (by decide), if_neg h8]
    exact turn _ rfl rfl
  rw [he]
  constructor <;> try rfl
  intro i i0 i1 i2 i5 i6 i7
  dsimp only [put, upd]
  rw [if_neg i7, if_neg i6, if_neg i5, if_neg i2, if_neg i1, if_neg i0, if_neg i7, if_neg i6, if_neg i5, if_neg i2, if_neg i1, if_neg i0]
  exact ⟨rfl, rfl⟩

/-- `a` is in the 64 KiB of the data. -/
def InData (l : Layout) (a : Nat) : Prop := a / 65536 = l.startData / 65536
/-- `a` is in the region of the text. -/
def InText (l : Layout) (a : Nat) : Prop := a / window (flashSize l) = l.startText / window (flashSize l)
/-- `a` is in a region of peripherals as the unit sees it. -/
def InPeri (a : Nat) : Prop := (0x40000000 ≤ a ∧ a < 0x60000000) ∨ (0x80000000 ≤ a ∧ a < 0xC0000000) ∨ (0xE0000000 ≤ a ∧ a < 0xF0000000)

/-- The region that decides, for every address. -/
theorem decides_iff {l : Layout} {s : St} (h : Ready l s) {k : Nat} (hk : 13 ≤ k ∧ k ≤ 16) (hw : window (flashSize l) = 2 ^ k)
    (hs : Set l s (init l s) k) {a : Nat} (ha : a < 4294967296) (i : Nat) :
    Decides (init l s) i a ↔
      (i = 7 ∧ 0xE0000000 ≤ a ∧ a < 0xF0000000) ∨ (i = 6 ∧ 0x80000000 ≤ a ∧ a < 0xC0000000) ∨ (i = 5 ∧ 0x40000000 ≤ a ∧ a < 0x60000000) ∨
      (i = 2 ∧ ¬ InPeri a ∧ InData l a) ∨ (i = 1 ∧ ¬ InPeri a ∧ ¬ InData l a ∧ InText l a) ∨
      (i = 0 ∧ ¬ InPeri a ∧ ¬ InData l a ∧ ¬ InText l a) := by
  have hr : 8 ≤ regions (init l s) := by unfold regions; rw [hs.typ]; exact h.eight
  have e7 : Hit ((init l s).rbar 7) ((init l s).rasr 7) a ↔ 0xE0000000 ≤ a ∧ a < 0xF0000000 := by
    rw [hs.b7, hs.a7, hit_iff (by decide) (by decide), show bits 0x11050037 = 28 from rfl]
    simp only [Nat.reducePow, Nat.reduceDiv]
    omega
  have e6 : Hit ((init l s).rbar 6) ((init l s).rasr 6) a ↔ 0x80000000 ≤ a ∧ a < 0xC0000000 := by
    rw [hs.b6, hs.a6, hit_iff (by decide) (by decide), show bits 0x1105003B = 30 from rfl]
    simp only [Nat.reducePow, Nat.reduceDiv]
    omega
  have e5 : Hit ((init l s).rbar 5) ((init l s).rasr 5) a ↔ 0x40000000 ≤ a ∧ a < 0x60000000 := by
    rw [hs.b5, hs.a5, hit_iff (by decide) (by decide), show bits 0x11050039 = 29 from rfl]
    simp only [Nat.reducePow, Nat.reduceDiv]
    omega
  have e2 : Hit ((init l s).rbar 2) ((init l s).rasr 2) a ↔ InData l a := by
    rw [hs.b2, hs.a2, hit_iff (by cases l.ramCode <;> decide) (by cases l.ramCode <;> decide),
      show bits (dataAttr l.ramCode) = 16 by cases l.ramCode <;> decide]
    rfl
  have e1 : Hit ((init l s).rbar 1) ((init l s).rasr 1) a ↔ InText l a := by
    have hb : bits (textAttr k) = k := by unfold bits textAttr; omega
    rw [hs.b1, hs.a1, hit_iff (by unfold textAttr; omega) (by unfold textAttr; omega), hb]
    unfold InText
    rw [hw]
  have e0 : Hit ((init l s).rbar 0) ((init l s).rasr 0) a := by
    rw [hs.b0, hs.a0, hit_iff (by decide) (by decide), show bits 0x1107003F = 32 from rfl]
    simp only [Nat.reducePow]
    omega
  have eo : ∀ j, j ≠ 0 → j ≠ 1 → j ≠ 2 → j ≠ 5 → j ≠ 6 → j ≠ 7 → ¬ Hit ((init l s).rbar j) ((init l s).rasr j) a := by
    intro j j0 j1 j2 j5 j6 j7
    refine hit_off ?_
    rw [(hs.others j j0 j1 j2 j5 j6 j7).2]
    exact h.clean j j0 j1 j2 j5 j6 j7
  unfold Decides InPeri
  constructor
  · rintro ⟨h1, h2, h3⟩
    by_cases i0 : i = 0
    · subst i0
      have f7 := h3 7 (by omega) (by omega)
      have f6 := h3 6 (by omega) (by omega)
      have f5 := h3 5 (by omega) (by omega)
      have f2 := h3 2 (by omega) (by omega)
      have f1 := h3 1 (by omega) (by omega)
      rw [e7] at f7; rw [e6] at f6; rw [e5] at f5; rw [e2] at f2; rw [e1] at f1
      exact .inr (.inr (.inr (.inr (.inr ⟨rfl, by omega, f2, f1⟩))))
    by_cases i1 : i = 1
    · subst i1
      have f7 := h3 7 (by omega) (by omega)
      have f6 := h3 6 (by omega) (by omega)
      have f5 := h3 5 (by omega) (by omega)
      have f2 := h3 2 (by omega) (by omega)
      rw [e7] at f7; rw [e6] at f6; rw [e5] at f5; rw [e2] at f2; rw [e1] at h2
      exact .inr (.inr (.inr (.inr (.inl ⟨rfl, by omega, f2, h2⟩))))
    by_cases i2 : i = 2
    · subst i2
      have f7 := h3 7 (by omega) (by omega)
      have f6 := h3 6 (by omega) (by omega)
      have f5 := h3 5 (by omega) (by omega)
      rw [e7] at f7; rw [e6] at f6; rw [e5] at f5; rw [e2] at h2
      exact .inr (.inr (.inr (.inl ⟨rfl, by omega, h2⟩)))
    by_cases i5 : i = 5
    · subst i5
      rw [e5] at h2
      exact .inr (.inr (.inl ⟨rfl, h2⟩))
    by_cases i6 : i = 6
    · subst i6
      rw [e6] at h2
      exact .inr (.inl ⟨rfl, h2⟩)
    by_cases i7 : i = 7
    · subst i7
      rw [e7] at h2
      exact .inl ⟨rfl, h2⟩
    · exact absurd h2 (eo i i0 i1 i2 i5 i6 i7)
  · intro hh
    have rest : ∀ j, i < j → (∀ x, x = 1 ∨ x = 2 ∨ x = 5 ∨ x = 6 ∨ x = 7 → i < x → ¬ Hit ((init l s).rbar x) ((init l s).rasr x) a) →
        ¬ Hit ((init l s).rbar j) ((init l s).rasr j) a := by
      intro j hj hx
      by_cases j1 : j = 1
      · exact hx j (by omega) hj
      by_cases j2 : j = 2
      · exact hx j (by omega) hj
      by_cases j5 : j = 5
      · exact hx j (by omega) hj
      by_cases j6 : j = 6
      · exact hx j (by omega) hj
      by_cases j7 : j = 7
      · exact hx j (by omega) hj
      · exact eo j (by omega) j1 j2 j5 j6 j7
    rcases hh with ⟨e, r⟩ | ⟨e, r⟩ | ⟨e, r⟩ | ⟨e, r1, r2⟩ | ⟨e, r1, r2, r3⟩ | ⟨e, r1, r2, r3⟩ <;> subst e
    · refine ⟨by omega, e7.2 r, fun j hj _ => rest j hj ?_⟩
      rintro x (e | e | e | e | e) hx <;> subst e <;> omega
    · refine ⟨by omega, e6.2 r, fun j hj _ => rest j hj ?_⟩
      rintro x (e | e | e | e | e) hx <;> subst e <;> first | omega | (rw [e7]; omega)
    · refine ⟨by omega, e5.2 r, fun j hj _ => rest j hj ?_⟩
      rintro x (e | e | e | e | e) hx <;> subst e <;> first | omega | (rw [e7]; omega) | (rw [e6]; omega)
    · refine ⟨by omega, e2.2 r2, fun j hj _ => rest j hj ?_⟩
      rintro x (e | e | e | e | e) hx <;> subst e <;> first | omega | (rw [e7]; omega) | (rw [e6]; omega) | (rw [e5]; omega)
    · refine ⟨by omega, e1.2 r3, fun j hj _ => rest j hj ?_⟩
      rintro x (e | e | e | e | e) hx <;> subst e <;> first | omega | (rw [e7]; omega) | (rw [e6]; omega) | (rw [e5]; omega) | (rw [e2]; exact r2)
    · refine ⟨by omega, e0, fun j hj _ => rest j hj ?_⟩
      rintro x (e | e | e | e | e) hx <;> subst e <;>
        first | omega | (rw [e7]; omega) | (rw [e6]; omega) | (rw [e5]; omega) | (rw [e2]; exact r2) | (rw [e1]; exact r3)

/-! ## What is allowed -/

section allowed

variable {l : Layout} {s : St} (h : Ready l s) {a : Nat} (ha : a < 4294967296)

include h ha

/-- Every address has a region that decides, and all give the permissions `AP` = 1. -/
theorem decides_some : ∃ i, Decides (init l s) i a ∧ ap ((init l s).rasr i) = 1 := by
  obtain ⟨k, k1, k2, kw, hs⟩ := init_set h.toBare
  have hd := decides_iff h ⟨k1, k2⟩ kw hs ha
  have p1 : ap ((init l s).rasr 1) = 1 := by rw [hs.a1]; unfold ap textAttr; omega
  have p2 : ap ((init l s).rasr 2) = 1 := by rw [hs.a2]; cases l.ramCode <;> decide
  by_cases q7 : 0xE0000000 ≤ a ∧ a < 0xF0000000
  · exact ⟨7, (hd 7).2 (.inl ⟨rfl, q7⟩), by rw [hs.a7]; decide⟩
  by_cases q6 : 0x80000000 ≤ a ∧ a < 0xC0000000
  · exact ⟨6, (hd 6).2 (.inr (.inl ⟨rfl, q6⟩)), by rw [hs.a6]; decide⟩
  by_cases q5 : 0x40000000 ≤ a ∧ a < 0x60000000
  · exact ⟨5, (hd 5).2 (.inr (.inr (.inl ⟨rfl, q5⟩))), by rw [hs.a5]; decide⟩
  have q : ¬ InPeri a := by unfold InPeri; omega
  by_cases q2 : InData l a
  · exact ⟨2, (hd 2).2 (.inr (.inr (.inr (.inl ⟨rfl, q, q2⟩)))), p2⟩
  by_cases q1 : InText l a
  · exact ⟨1, (hd 1).2 (.inr (.inr (.inr (.inr (.inl ⟨rfl, q, q2, q1⟩))))), p1⟩
  · exact ⟨0, (hd 0).2 (.inr (.inr (.inr (.inr (.inr ⟨rfl, q, q2, q1⟩))))), by rw [hs.a0]; decide⟩

omit ha in
theorem ap_one {i : Nat} (hi : Decides (init l s) i a) : ap ((init l s).rasr i) = 1 := by
  obtain ⟨k, k1, k2, kw, hs⟩ := init_set h.toBare
  have := hi.2.1.1
  by_cases i0 : i = 0
  · subst i0; rw [hs.a0]; decide
  by_cases i1 : i = 1
  · subst i1; rw [hs.a1]; unfold ap textAttr; omega
  by_cases i2 : i = 2
  · subst i2; rw [hs.a2]; cases l.ramCode <;> decide
  by_cases i5 : i = 5
  · subst i5; rw [hs.a5]; decide
  by_cases i6 : i = 6
  · subst i6; rw [hs.a6]; decide
  by_cases i7 : i = 7
  · subst i7; rw [hs.a7]; decide
  · rw [(hs.others i i0 i1 i2 i5 i6 i7).2, h.clean i i0 i1 i2 i5 i6 i7] at this
    cases this

/-- **C62 (data).** wolfBoot itself may read and write everywhere; unprivileged code may not read, write or execute anything. -/
theorem data_access : CanRead (init l s) .priv a ∧ CanWrite (init l s) .priv a ∧
    ¬ CanRead (init l s) .user a ∧ ¬ CanWrite (init l s) .user a ∧ ¬ CanExec (init l s) .user a := by
  obtain ⟨i, i1, i2⟩ := decides_some h ha
  obtain ⟨k, _, _, _, hs⟩ := init_set h.toBare
  have hc := hs.ctrl
  refine ⟨?_, ?_, ?_, ?_, ?_⟩
  · by_cases hp : Ppb a
    · exact .inr (.inl ⟨hp, rfl⟩)
    · exact .inr (.inr (.inl ⟨hp, by rw [hc], i, i1, by rw [i2]; exact ⟨by decide, by decide⟩⟩))
  · by_cases hp : Ppb a
    · exact .inr (.inl ⟨hp, rfl⟩)
    · exact .inr (.inr (.inl ⟨hp, by rw [hc], i, i1, by rw [i2]; exact .inl rfl⟩))
  · rintro (⟨q, _⟩ | ⟨_, q⟩ | ⟨_, _, j, j1, j2⟩ | ⟨_, _, q, _⟩)
    · rw [hc] at q; cases q
    · cases q
    · rw [ap_one h j1] at j2; simp only [mayRead] at j2; omega
    · rw [hc] at q; cases q
  · rintro (⟨q, _⟩ | ⟨_, q⟩ | ⟨_, _, j, j1, j2⟩ | ⟨_, _, q, _⟩)
    · rw [hc] at q; cases q
    · cases q
    · rw [ap_one h j1] at j2; simp only [mayWrite] at j2; omega
    · rw [hc] at q; cases q
  · rintro ⟨_, ⟨q, _⟩ | ⟨_, j, j1, j2, _⟩ | ⟨_, q, _⟩⟩
    · rw [hc] at q; cases q
    · rw [ap_one h j1] at j2; simp only [mayRead] at j2; omega
    · rw [hc] at q; cases q

/-- **C62 (execution).** What wolfBoot may execute: the region of its text and, with `RAM_CODE`, that of its data; nothing else. -/
theorem exec_iff : CanExec (init l s) .priv a ↔
    ¬ InPeri a ∧ a < 0xE0000000 ∧ ((InData l a ∧ l.ramCode = true) ∨ (¬ InData l a ∧ InText l a)) := by
  obtain ⟨k, k1, k2, kw, hs⟩ := init_set h.toBare
  have hd := decides_iff h ⟨k1, k2⟩ kw hs ha
  have hc := hs.ctrl
  constructor
  · rintro ⟨hl, ⟨q, _⟩ | ⟨_, j, j1, _, j3⟩ | ⟨_, q, _⟩⟩
    · rw [hc] at q; cases q
    · rcases (hd j).1 j1 with ⟨e, r⟩ | ⟨e, r⟩ | ⟨e, r⟩ | ⟨e, r1, r2⟩ | ⟨e, r1, r2, r3⟩ | ⟨e, r1, r2, r3⟩ <;> subst e
      · rw [hs.a7] at j3; cases j3
      · rw [hs.a6] at j3; cases j3
      · rw [hs.a5] at j3; cases j3
      · refine ⟨r1, hl, .inl ⟨r2, ?_⟩⟩
        rw [hs.a2] at j3
        cases hx : l.ramCode with
        | true => rfl
        | false => rw [hx] at j3; cases j3
      · exact ⟨r1, hl, .inr ⟨r2, r3⟩⟩
      · rw [hs.a0] at j3; cases j3
    · rw [hc] at q; cases q
  · rintro ⟨hp, hl, ⟨q1, q2⟩ | ⟨q1, q2⟩⟩
    · refine ⟨hl, .inr (.inl ⟨by rw [hc], 2, (hd 2).2 (.inr (.inr (.inr (.inl ⟨rfl, hp, q1⟩)))), ?_, ?_⟩)⟩
      · rw [hs.a2, q2]; exact ⟨by decide, by decide⟩
      · rw [hs.a2, q2]; rfl
    · refine ⟨hl, .inr (.inl ⟨by rw [hc], 1, (hd 1).2 (.inr (.inr (.inr (.inr (.inl ⟨rfl, hp, q1, q2⟩))))), ?_, ?_⟩)⟩
      · rw [hs.a1]
        refine ⟨?_, ?_⟩ <;> unfold ap textAttr <;> omega
      · rw [hs.a1]
        unfold xn textAttr
        rw [beq_eq_false_iff_ne]
        omega

end allowed

/-- `a` is in the text of wolfBoot. -/
def Text (l : Layout) (a : Nat) : Prop := l.startText ≤ a ∧ a < l.startText + flashSize l

/-- The text is where code is in the default memory map, apart from the 64 KiB of the data, and starts at a multiple of the size of its region. -/
structure Placed (l : Layout) : Prop where
  low : l.startText + window (flashSize l) ≤ 0x40000000
  aligned : l.startText % window (flashSize l) = 0
  apart : ∀ a, InText l a → ¬ InData l a

theorem window_pos (n : Nat) : 0 < window n := by
  unfold window
  split
  · decide
  · split
    · decide
    · split <;> decide

theorem inText_iff {l : Layout} (hp : Placed l) (a : Nat) : InText l a ↔ l.startText ≤ a ∧ a < l.startText + window (flashSize l) := by
  have hw := window_pos (flashSize l)
  unfold InText
  have := hp.aligned
  generalize window (flashSize l) = w at *
  have e : l.startText = w * (l.startText / w) := by
    have := Nat.div_add_mod l.startText w
    omega
  constructor
  · intro q
    have h1 := Nat.div_add_mod a w
    have h2 := Nat.mod_lt a hw
    rw [q] at h1
    omega
  · intro q
    have h3 : w * (l.startText / w + 1) = w * (l.startText / w) + w := Nat.mul_succ _ _
    refine Nat.div_eq_of_lt_le ?_ ?_
    · rw [Nat.mul_comm]; omega
    · rw [Nat.mul_comm]; omega

/-- **C62.** While the unit is on, wolfBoot can execute all of its text and nothing outside of the region of the text (without `RAM_CODE`); in
particular no byte of RAM and none of a peripheral. -/
theorem exec_text {l : Layout} {s : St} (h : Ready l s) (hp : Placed l) (hx : l.ramCode = false) {a : Nat} (ha : a < 4294967296) :
    (Text l a → CanExec (init l s) .priv a) ∧
    (CanExec (init l s) .priv a → l.startText ≤ a ∧ a < l.startText + window (flashSize l)) ∧
    (InData l a → ¬ CanExec (init l s) .priv a) := by
  have hw := window_ge h.size
  have hl := hp.low
  have ht := inText_iff hp a
  rw [exec_iff h ha]
  refine ⟨?_, ?_, ?_⟩
  · rintro ⟨h1, h2⟩
    have : InText l a := ht.2 (by omega)
    refine ⟨by unfold InPeri; omega, by omega, .inr ⟨hp.apart a this, this⟩⟩
  · rintro ⟨_, _, ⟨_, q⟩ | ⟨_, q⟩⟩
    · rw [hx] at q; cases q
    · exact ht.1 q
  · rintro q ⟨_, _, ⟨_, r⟩ | ⟨r, _⟩⟩
    · rw [hx] at r; cases r
    · exact r q

/-- **C62 (hand-over).** After `mpu_off` the restrictions are gone: the application has the default memory map. -/
theorem off_open (s : St) (a : Nat) (w : Who) : (CanExec (off s) w a ↔ DefaultX a) ∧ (CanRead (off s) w a ↔ (Ppb a → w = .priv)) ∧
    (CanWrite (off s) w a ↔ (Ppb a → w = .priv)) := by
  have hc : (off s).ctrl = 0 := rfl
  refine ⟨?_, ?_, ?_⟩
  · constructor
    · rintro ⟨_, ⟨_, q⟩ | ⟨q, _⟩ | ⟨q, _⟩⟩
      · exact q
      · rw [hc] at q; cases q
      · rw [hc] at q; cases q
    · intro q
      exact ⟨by unfold DefaultX at q; omega, .inl ⟨by rw [hc], q⟩⟩
  · constructor
    · rintro (⟨_, q⟩ | ⟨_, q⟩ | ⟨_, q, _⟩ | ⟨_, q, _⟩)
      · exact q
      · exact fun _ => q
      · rw [hc] at q; cases q
      · rw [hc] at q; cases q
    · exact fun q => .inl ⟨by rw [hc], q⟩
  · constructor
    · rintro (⟨_, q⟩ | ⟨_, q⟩ | ⟨_, q, _⟩ | ⟨_, q, _⟩)
      · exact q
      · exact fun _ => q
      · rw [hc] at q; cases q
      · rw [hc] at q; cases q
    · exact fun q => .inl ⟨by rw [hc], q⟩

/-! ## Findings -/

/-- **Finding (C62).** No address that can be executed is protected against writing, the text included (`/repo/src/boot_arm.c:133-134`: `PRW`). -/
theorem exec_writable {l : Layout} {s : St} (h : Ready l s) {a : Nat} (ha : a < 4294967296) : CanWrite (init l s) .priv a :=
  (data_access h ha).2.1

theorem mpusize_big {n : Nat} (h : 65536 < n) : mpusize n = SIZE_ERR := by
  unfold mpusize
  rw [if_neg (by omega), if_neg (by omega), if_neg (by omega), if_neg (by omega)]

theorem exec_default {s : St} (hs : s.ctrl % 2 = 0) {w : Who} {a : Nat} (ha : DefaultX a) : CanExec s w a :=
  ⟨by unfold DefaultX at ha; omega, .inl ⟨hs, ha⟩⟩

/-- **Finding (C62).** A wolfBoot of more than 64 KiB runs without protection: the unit is not turned on, silently
(`/repo/src/boot_arm.c:127-129`). -/
theorem big_unprotected {l : Layout} {s : St} (hs : s.ctrl % 2 = 0) (hb : 65536 < flashSize l) :
    (init l s).ctrl % 2 = 0 ∧ ∀ a, DefaultX a → CanExec (init l s) .priv a := by
  have hc : (init l s).ctrl = s.ctrl := by
    unfold init
    by_cases h0 : s.typ = 0
    · rw [if_pos h0]
    · rw [if_neg h0, mpusize_big hb]
      dsimp only
      rw [if_pos rfl]
      unfold region0
      rw [set_put _ 0 0 _ (by decide)]
      rfl
  have hc2 : (init l s).ctrl % 2 = 0 := by rw [hc]; exact hs
  exact ⟨hc2, fun a q => exec_default hc2 q⟩

/-- **Finding (C62).** The external peripherals are said to be from `0xA0000000` to `0xCFFFFFFF` (`/repo/src/boot_arm.c:151`); a region of 1 GiB starts
at a multiple of 1 GiB, so that `0xC0000000` to `0xCFFFFFFF` is treated as memory that may be cached, and external memory from `0x80000000` to
`0x9FFFFFFF` as a device. -/
theorem ext_shifted {l : Layout} {s : St} (h : Ready l s) (hp : Placed l) (hd : l.startData < 0x40000000) {a : Nat} :
    (0xC0000000 ≤ a → a < 0xD0000000 → Cached (init l s) a) ∧ (0x80000000 ≤ a → a < 0xA0000000 → Device (init l s) a) := by
  obtain ⟨k, k1, k2, kw, hs⟩ := init_set h.toBare
  constructor
  · intro h1 h2
    have di := decides_iff h ⟨k1, k2⟩ kw hs (a := a) (by omega)
    have hl := hp.low
    refine ⟨0, (di 0).2 (.inr (.inr (.inr (.inr (.inr ⟨rfl, by unfold InPeri; omega, by unfold InData; omega, ?_⟩))))), by rw [hs.a0]⟩
    rw [inText_iff hp]
    omega
  · intro h1 h2
    have di := decides_iff h ⟨k1, k2⟩ kw hs (a := a) (by omega)
    exact ⟨6, (di 6).2 (.inr (.inl ⟨rfl, by omega, by omega⟩)), by rw [hs.a6], by rw [hs.a6], by rw [hs.a6]⟩

/-- **Finding (C62).** When the text does not start at a multiple of the size of its region, the region starts before it and the end of the text cannot
be executed. -/
theorem text_cut {l : Layout} {s : St} (h : Ready l s) (hx : l.ramCode = false) {a : Nat} (ha : a < 4294967296)
    (hc : l.startText - l.startText % window (flashSize l) + window (flashSize l) ≤ a) : ¬ CanExec (init l s) .priv a := by
  rw [exec_iff h ha]
  rintro ⟨_, _, ⟨_, q⟩ | ⟨_, q⟩⟩
  · rw [hx] at q; cases q
  · unfold InText at q
    have hw := window_pos (flashSize l)
    generalize window (flashSize l) = w at *
    have h1 := Nat.div_add_mod a w
    have h2 := Nat.div_add_mod l.startText w
    rw [q] at h1
    have h3 := Nat.mod_lt a hw
    omega

/-- **Finding (C62).** What follows wolfBoot within its region can be executed as well: after 33 KiB of text, up to 31 KiB, for example the start of the
BOOT partition before it has been verified. -/
theorem exec_beyond {l : Layout} {s : St} (h : Ready l s) (hp : Placed l) {a : Nat}
    (h1 : l.startText + flashSize l ≤ a) (h2 : a < l.startText + window (flashSize l)) : CanExec (init l s) .priv a := by
  have hl := hp.low
  rw [exec_iff h (by omega)]
  have : InText l a := (inText_iff hp a).2 (by omega)
  exact ⟨by unfold InPeri; omega, by omega, .inr ⟨hp.apart a this, this⟩⟩

/-- **Finding (C62).** A base with bit 4 set is written to another region: `MPU_RBAR` takes the number of the region from the value
(`/repo/src/boot_arm.c:66-70`). With the data at such an address the region of the data keeps its old base, with new
attributes. -/
theorem base_valid (s : St) (r a v : Nat) (h : a / 16 % 2 = 1) (hr : r ≠ a % 16) :
    (setaddr s r a).rnr = a % 16 ∧ (setattr (setaddr s r a) r v).rbar r = s.rbar r ∧ (setattr (setaddr s r a) r v).rbar (a % 16) = a ∧
      (setattr (setaddr s r a) r v).rasr r = v ∧ (setattr (setaddr s r a) r v).rasr (a % 16) = s.rasr (a % 16) := by
  unfold setattr setaddr wrRbar wrRasr
  rw [if_pos h]
  dsimp only [upd]
  rw [if_neg hr, if_pos rfl, if_pos rfl, if_neg (Ne.symm hr)]
  exact ⟨rfl, rfl, rfl, rfl, rfl⟩

/-- **Finding (C62).** `mpu_init` leaves the regions 3 and 4 and those from 8 as they are: when one of them is enabled, it decides. Here region 3 gives
the right to execute what is in RAM. -/
theorem stale_region {l : Layout} {s : St} (h : Bare l s) (h8 : regions s = 8) (h4 : s.rasr 4 % 2 = 0) (h3 : s.rasr 3 = 0x0107001F) {a : Nat}
    (ha : a < 0x40000000) (hit : a / 65536 = s.rbar 3 / 65536) :
    CanExec (init l s) .priv a ∧ CanWrite (init l s) .priv a := by
  obtain ⟨k, k1, k2, kw, hs⟩ := init_set h
  have r3 : (init l s).rasr 3 = 0x0107001F := by rw [(hs.others 3 (by decide) (by decide) (by decide) (by decide) (by decide) (by decide)).2]; exact h3
  have hd : Decides (init l s) 3 a := by
    have hr : regions (init l s) = 8 := by unfold regions; rw [hs.typ]; exact h8
    refine ⟨by omega, ?_, ?_⟩
    · rw [r3, (hs.others 3 (by decide) (by decide) (by decide) (by decide) (by decide) (by decide)).1, hit_iff (by decide) (by decide)]
      exact hit
    · intro j j1 j2
      have : j = 4 ∨ j = 5 ∨ j = 6 ∨ j = 7 := by omega
      rcases this with e | e | e | e <;> subst e
      · exact hit_off (by rw [(hs.others 4 (by decide) (by decide) (by decide) (by decide) (by decide) (by decide)).2]; exact h4)
      · rw [hs.b5, hs.a5, hit_iff (by decide) (by decide), show bits 0x11050039 = 29 from rfl]
        simp only [Nat.reducePow, Nat.reduceDiv]
        omega
      · rw [hs.b6, hs.a6, hit_iff (by decide) (by decide), show bits 0x1105003B = 30 from rfl]
        simp only [Nat.reducePow, Nat.reduceDiv]
        omega
      · rw [hs.b7, hs.a7, hit_iff (by decide) (by decide), show bits 0x11050037 = 28 from rfl]
        simp only [Nat.reducePow, Nat.reduceDiv]
        omega
  have hc := hs.ctrl
  constructor
  · refine ⟨by omega, .inr (.inl ⟨by rw [hc], 3, hd, ?_, by rw [r3]; rfl⟩)⟩
    rw [r3]; exact ⟨by decide, by decide⟩
  · refine .inr (.inr (.inl ⟨by unfold Ppb; omega, by rw [hc], 3, hd, ?_⟩))
    rw [r3]; exact .inl rfl

/-! ## The unit of ARMv8-M -/

/-- A region of ARMv8-M with the registers `RBAR` and `RLAR` contains `a`: the base is in the bits from 5 of the first, the limit in those of the second. -/
def Hit8 (b v a : Nat) : Prop := v % 2 = 1 ∧ b / 32 * 32 ≤ a ∧ a ≤ v / 32 * 32 + 31

/-- On ARMv8-M an access to an address in two regions faults. -/
def Fault8 (s : St) (a : Nat) : Prop :=
  s.ctrl % 2 = 1 ∧ ¬ Ppb a ∧ ∃ i j, i < j ∧ j < regions s ∧ Hit8 (s.rbar i) (s.rasr i) a ∧ Hit8 (s.rbar j) (s.rasr j) a

/-- **Finding (C62).** On a Cortex-M33, where the code is used as well (`config/examples/mcxa.config` does not set `NO_MPU`), the registers mean something
else: what was to be the first instruction of wolfBoot after turning the unit on is in two regions and faults, wherever below `0x01070000` the text is. -/
theorem v8_faults {l : Layout} {s : St} (h : Ready l s) {a : Nat} (ha : l.startText ≤ a) (hb : a < 0x01070000) : Fault8 (init l s) a := by
  obtain ⟨k, k1, k2, kw, hs⟩ := init_set h.toBare
  have h8 : 8 ≤ regions (init l s) := by unfold regions; rw [hs.typ]; exact h.eight
  refine ⟨by rw [hs.ctrl], by unfold Ppb; omega, 0, 1, by omega, by omega, ?_, ?_⟩
  · rw [hs.b0, hs.a0]
    unfold Hit8
    omega
  · rw [hs.b1, hs.a1]
    unfold Hit8 textAttr
    omega

/-! ## Examples -/

/-- An STM32F4 after reset: 24 KiB of text at `0x08000000`, data at `0x20000000`, eight regions. -/
def demoLayout : Layout := ⟨0x08000000, 0x08006000, 0x20000000, false⟩
/-- Registers after reset. -/
def demoReset : St := ⟨0x800, 0, 0, fun _ => 0, fun _ => 0, false⟩

theorem demo_ready : Ready demoLayout demoReset :=
  ⟨⟨by decide, rfl, by decide, by decide, by decide⟩, fun _ _ _ _ _ _ _ => rfl⟩

theorem demo_placed : Placed demoLayout := by
  refine ⟨by decide, by decide, ?_⟩
  intro a h1 h2
  unfold InText at h1
  unfold InData at h2
  rw [show window (flashSize demoLayout) = 32768 by decide +kernel, show demoLayout.startText = 0x08000000 from rfl] at h1
  rw [show demoLayout.startData = 0x20000000 from rfl] at h2
  omega

/-- The last instruction of the text is executed, the stack is not, nor is the flash from 32 KiB. -/
example : CanExec (init demoLayout demoReset) .priv 0x08005FFE ∧ ¬ CanExec (init demoLayout demoReset) .priv 0x2000FFF0 ∧
    ¬ CanExec (init demoLayout demoReset) .priv 0x08008000 := by
  refine ⟨(exec_text demo_ready demo_placed rfl (by decide)).1 ⟨by decide, by decide⟩,
    (exec_text demo_ready demo_placed rfl (by decide)).2.2 (by unfold InData; decide), ?_⟩
  intro h
  have := ((exec_text demo_ready demo_placed rfl (by decide)).2.1 h).2
  exact absurd this (by decide)

/-- With `RAM_CODE` the data can be executed. -/
example : CanExec (init { demoLayout with ramCode := true } demoReset) .priv 0x20000100 := by
  refine (exec_iff (l := { demoLayout with ramCode := true }) ⟨⟨by decide, rfl, by decide, by decide, by decide⟩, fun _ _ _ _ _ _ _ => rfl⟩
    (by decide)).2 ⟨by unfold InPeri; decide, by decide, .inl ⟨by unfold InData; decide, rfl⟩⟩

/-- Code not yet verified that follows the text. -/
example : CanExec (init demoLayout demoReset) .priv 0x08007000 := exec_beyond demo_ready demo_placed (by decide) (by decide)

/-- 68 KiB of text: no protection. -/
example : CanExec (init ⟨0x08000000, 0x08011000, 0x20000000, false⟩ demoReset) .priv 0x20000000 :=
  (big_unprotected rfl (by decide)).2 _ (.inl (by decide))

/-- 24 KiB of text at `0x08004000`: the second half is not in the region. -/
example : ¬ CanExec (init ⟨0x08004000, 0x0800A000, 0x20000000, false⟩ demoReset) .priv 0x08008000 :=
  text_cut ⟨⟨by decide, rfl, by decide, by decide, by decide⟩, fun _ _ _ _ _ _ _ => rfl⟩ rfl (by decide) (by decide)

/-- SDRAM at `0xC0000000`, or a FIFO there, is cached. -/
example : Cached (init demoLayout demoReset) 0xC0000000 := (ext_shifted demo_ready demo_placed (by decide)).1 (by decide) (by decide)

/-- Data at `0x20000010`: the base of region 0 is set. -/
example : (setaddr demoReset 2 0x20000010).rbar 2 = 0 ∧ (setaddr demoReset 2 0x20000010).rbar 0 = 0x20000010 :=
  let h := base_valid demoReset 2 0x20000010 0 (by decide) (by decide)
  ⟨h.2.1, h.2.2.1⟩

/-- Region 3 is still enabled, for RAM. -/
example : CanExec (init demoLayout { demoReset with rbar := upd (fun _ => 0) 3 0x20000000, rasr := upd (fun _ => 0) 3 0x0107001F }) .priv 0x20001000 :=
  (stale_region (l := demoLayout) (s := { demoReset with rbar := upd (fun _ => 0) 3 0x20000000, rasr := upd (fun _ => 0) 3 0x0107001F })
    ⟨by decide, rfl, by decide, by decide, by decide⟩ (by decide) (by decide) (by decide) (by decide) (by decide)).1

/-- Text at 0 on a Cortex-M33. -/
example : Fault8 (init ⟨0, 0x6000, 0x20000000, false⟩ demoReset) 0x100 :=
  v8_faults ⟨⟨by decide, rfl, by decide, by decide, by decide⟩, fun _ _ _ _ _ _ _ => rfl⟩ (by decide) (by decide)

end Mpu

end Verif
