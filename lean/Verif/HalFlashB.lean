import Verif.HalFlash

/-!
# Internal flash drivers, continued: phrases, pages and rows

Kinetis, MCXA and MCXW (phrases programmed through the vendor's library), STM32L5, U5, H5 and H7,
STM32F1, LPC546xx, HiFive1, PSoC 6, TMS570 and RX.
-/

namespace Verif

/-! ## Kinetis, MCXA, MCXW -/

/-- The vendor's `FLASH_Program(address, src, n * unit)`: one unit after the other, the first
error ends it. -/
def progN (v : HDev) (f : Mem) (a : Nat) (s : Nat → Byte) : Nat → HwRes
  | 0 => .ok f
  | n + 1 =>
    match v.store f a s with
    | .ok m => progN v m (a + v.unit) (fun k => s (v.unit + k)) n
    | r => r

/-- `/repo/hal/kinetis.c:311-345` (`W = 8`), `/repo/hal/mcxa.c:70-108` (`W = 16`): incomplete
phrases are completed from the flash and programmed unless they are blank; afterwards `address`
and `len` are moved by `i`, the end position inside the phrase. Whole phrases are programmed from
`data + w`, and `w` stays as it is. `len` is a signed integer; the loop ends when it is not
positive. -/
def kinLoop (W : Nat) (f : Mem) (addr : Nat) (d : HBuf) (w len : Nat) : HwRes :=
  if W = 0 then .error
  else if len = 0 then .ok f
  else if len < W ∨ addr % W ≠ 0 then
    let so := addr % W
    let p := addr - so
    let i := min W (len + so)
    if w + (i - so) ≤ d.len then
      let v : Nat → Byte := fun k => if so ≤ k ∧ k < i then d.b (w + (k - so)) else f (p + k)
      match (if ∀ k, k < W → v k = 0xFF#8 then .ok f else (⟨W, true⟩ : HDev).store f p v) with
      | .ok m => kinLoop W m (addr + i) d (w + (i - so)) (len - i)
      | r => r
    else .oob
  else
    let la := len - len % W
    if w + la ≤ d.len then
      match progN ⟨W, true⟩ f addr (fun k => d.b (w + k)) (la / W) with
      | .ok m => kinLoop W m (addr + la) d w (len - la)
      | r => r
    else .oob
termination_by len
decreasing_by
  · have := Nat.mod_lt addr (Nat.pos_of_ne_zero ‹W ≠ 0›)
    omega
  · have := Nat.mod_lt len (Nat.pos_of_ne_zero ‹W ≠ 0›)
    omega

/-- The requests the phrase drivers carry out: a request inside one phrase, or a whole number of
aligned phrases. -/
def KinOK (W addr len : Nat) : Prop :=
  addr % W + len ≤ W ∨ (addr % W = 0 ∧ len % W = 0)

theorem progN_ok (W : Nat) (f : Mem) (addr : Nat) (d : HBuf) (hW : 0 < W) (hA : addr % W = 0)
    (hfr : ∀ x, addr ≤ x → x < addr + d.len → f x = 0xFF#8) :
    ∀ n i, (i + n) * W ≤ d.len →
    progN ⟨W, true⟩ (written f addr d (i * W)) (addr + i * W) (fun k => d.b (i * W + k)) n
      = .ok (written f addr d ((i + n) * W)) := by
  intro n
  induction n with
  | zero => intro i _; rfl
  | succ n ih =>
    intro i hi
    have e1 : (i + (n + 1)) * W = i * W + W + n * W := by
      rw [Nat.add_mul, Nat.add_mul]; omega
    have hs : (⟨W, true⟩ : HDev).store (written f addr d (i * W)) (addr + i * W)
        (fun k => d.b (i * W + k)) = .ok (written f addr d (i * W + W)) := by
      apply unit_step
      · show (addr + i * W) % W = 0
        rw [Nat.add_mul_mod_self_right]; exact hA
      · exact Nat.le_refl _
      · show addr + (i * W + W) ≤ addr + i * W + W
        omega
      · omega
      · right; exact Nat.le_refl _
      · intro _ x h1 h2
        exact hfr x (by omega) (by simp only at h2; omega)
      · intro k hk
        simp only at hk
        rw [if_pos (by omega)]
        congr 1; omega
    unfold progN
    rw [hs]
    have e2 : (i + 1) * W = i * W + W := by rw [Nat.add_mul]; omega
    have := ih (i + 1) (by rw [e1] at hi; rw [Nat.add_mul, e2]; omega)
    rw [e2] at this
    rw [show i + (n + 1) = i + 1 + n by omega, ← this]
    dsimp only
    rw [Nat.add_assoc]
    congr 1
    funext k
    congr 1; omega

/-- **Kinetis, MCXA**: the requests in `KinOK` on erased phrases are carried out exactly. -/
theorem kin_write_exact (W : Nat) (f : Mem) (addr : Nat) (d : HBuf) (hW : 0 < W)
    (hfr : Fresh ⟨W, true⟩ f addr d.len) (hok : KinOK W addr d.len) :
    kinLoop W f addr d 0 d.len = .ok (written f addr d d.len) := by
  have hmod := Nat.mod_lt addr hW
  have hle := Nat.mod_le addr W
  have hdm := Nat.div_add_mod addr W
  have hbase : (addr - addr % W) % W = 0 := by
    rw [show addr - addr % W = W * (addr / W) by omega]
    exact Nat.mul_mod_right _ _
  unfold KinOK at hok
  have hfr : ∀ x, addr - addr % W ≤ x → x < addr + d.len + W → f x = 0xFF#8 := hfr rfl
  rw [kinLoop, if_neg (by omega)]
  by_cases h0 : d.len = 0
  · rw [if_pos h0, h0, written_zero]
  rw [if_neg h0]
  by_cases hp : d.len < W ∨ addr % W ≠ 0
  · rw [if_pos hp]
    have hin : addr % W + d.len ≤ W := by
      rcases hok with h | h
      · exact h
      · rcases hp with h2 | h2
        · rw [h.1]; omega
        · exact absurd h.1 h2
    clear hok hp hdm
    dsimp only
    generalize addr % W = A at *
    have hmin : min W (d.len + A) = d.len + A := by omega
    rw [hmin]
    have e0 : d.len + A - A = d.len := by omega
    rw [e0, if_pos (by omega)]
    have hst : (⟨W, true⟩ : HDev).store f (addr - A)
        (fun k => if A ≤ k ∧ k < d.len + A then d.b (0 + (k - A))
          else f (addr - A + k)) = .ok (written f addr d d.len) := by
      have := unit_step (v := ⟨W, true⟩) (f := f) (addr := addr) (d := d) (i := 0) (j := d.len)
        (U := addr - A)
        (w := fun k => if A ≤ k ∧ k < d.len + A then d.b (0 + (k - A))
          else f (addr - A + k)) hbase (by omega) (by show _ ≤ _ + W; omega) (by omega)
          (Or.inl rfl) (fun he x h1 h2 => hfr x h1 (by simp only at h2 ⊢; omega)) (by
            intro k hk
            simp only at hk
            rw [written_zero]
            by_cases hko : A ≤ k ∧ k < d.len + A
            · rw [if_pos hko, if_pos (by omega)]
              congr 1; omega
            · rw [if_neg hko, if_neg (by omega)])
      rwa [written_zero] at this
    by_cases hb : ∀ k, k < W →
        (if A ≤ k ∧ k < d.len + A then d.b (0 + (k - A)) else f (addr - A + k)) = 0xFF#8
    · rw [if_pos hb]
      dsimp only
      rw [kinLoop, if_neg (by omega), if_pos (by omega)]
      congr 1
      funext x
      unfold written
      by_cases hx : addr ≤ x ∧ x < addr + d.len
      · rw [if_pos hx]
        have := hb (x - (addr - A)) (by omega)
        rw [if_pos (by omega)] at this
        rw [show 0 + (x - (addr - A) - A) = x - addr by omega] at this
        rw [this, and_ff8]
      · rw [if_neg hx]
    · rw [if_neg hb, hst]
      dsimp only
      rw [kinLoop, if_neg (by omega), if_pos (by omega)]
  · rw [if_neg hp]
    have hA : addr % W = 0 := Classical.byContradiction fun h => hp (Or.inr h)
    have hnl : ¬ d.len < W := fun h => hp (Or.inl h)
    have hL : d.len % W = 0 := by
      rcases hok with h | h
      · have : d.len = W := by rw [hA] at h; omega
        rw [this]; exact Nat.mod_self W
      · exact h.2
    have hdiv : d.len / W * W = d.len := Nat.div_mul_cancel (Nat.dvd_of_mod_eq_zero hL)
    dsimp only
    rw [hL, Nat.sub_zero, if_pos (by omega)]
    have := progN_ok W f addr d hW hA (fun x h1 h2 => hfr x (by omega) (by omega))
      (d.len / W) 0 (by rw [Nat.zero_add]; omega)
    rw [Nat.zero_mul, written_zero, Nat.zero_add, hdiv] at this
    simp only [Nat.add_zero] at this
    rw [this]
    dsimp only
    rw [kinLoop, if_neg (by omega), if_pos (by omega)]

/-- **Kinetis, MCXA: the tail of a longer request is written with the wrong bytes.** After the
whole phrases the driver writes the first bytes of the buffer again, because `w` was not
advanced. -/
theorem kin_tail_wrong (W : Nat) (f : Mem) (addr : Nat) (d : HBuf) (hW : 0 < W)
    (hfr : Fresh ⟨W, true⟩ f addr d.len) (hA : addr % W = 0) (hl : W < d.len)
    (hr : d.len % W ≠ 0) :
    ∃ m, kinLoop W f addr d 0 d.len = .ok m ∧
      ∀ k, k < d.len % W → m (addr + (d.len - d.len % W) + k) = d.b k := by
  have hmod := Nat.mod_lt d.len hW
  have hdm := Nat.div_add_mod d.len W
  have hla : d.len / W * W = d.len - d.len % W := by rw [Nat.mul_comm]; omega
  have hle := Nat.mod_le d.len W
  have hfr : ∀ x, addr - addr % W ≤ x → x < addr + d.len + W → f x = 0xFF#8 := hfr rfl
  have hA2 : (addr + (d.len - d.len % W)) % W = 0 := by
    rw [← hla, Nat.add_mul_mod_self_right]; exact hA
  rw [kinLoop, if_neg (by omega), if_neg (by omega), if_neg (by rw [hA]; omega)]
  dsimp only
  rw [if_pos (by omega)]
  have hdl : (d.len - d.len % W) / W = d.len / W := by
    rw [← hla, Nat.mul_div_cancel _ hW]
  have := progN_ok W f addr d hW hA (fun x h1 h2 => hfr x (by omega) (by omega)) (d.len / W) 0 (by rw [Nat.zero_add]; omega)
  rw [Nat.zero_mul, written_zero, Nat.zero_add, hla] at this
  simp only [Nat.add_zero] at this
  rw [hdl, this]
  dsimp only
  have hsub : d.len - (d.len - d.len % W) = d.len % W := by omega
  rw [hsub, kinLoop, if_neg (by omega), if_neg hr, if_pos (Or.inl hmod)]
  dsimp only
  rw [hA2]
  clear hdm this hdl hla
  generalize d.len % W = r at *
  have hmin : min W (r + 0) = r := by omega
  rw [if_pos (by omega)]
  generalize hF : written f addr d (d.len - r) = g
  have hg : ∀ k, k < W → g (addr + (d.len - r) + k) = 0xFF#8 := by
    intro k hk
    rw [← hF]; unfold written
    rw [if_neg (by omega)]
    exact hfr _ (by omega) (by omega)
  simp only [Nat.sub_zero, Nat.add_zero]
  by_cases hb : ∀ k, k < W → (if 0 ≤ k ∧ k < min W (r) then d.b (0 + k)
      else g (addr + (d.len - r) + k)) = 0xFF#8
  · rw [if_pos hb]
    dsimp only
    rw [kinLoop, if_neg (by omega), if_pos (by omega)]
    refine ⟨_, rfl, ?_⟩
    intro k hk
    rw [hg k (by omega)]
    have := hb k (by omega)
    rw [if_pos (by omega), Nat.zero_add] at this
    exact this.symm
  · rw [if_neg hb, store_fresh (v := ⟨W, true⟩) hA2 (fun _ k hk => hg k hk)]
    dsimp only
    rw [kinLoop, if_neg (by omega), if_pos (by omega)]
    refine ⟨_, rfl, ?_⟩
    intro k hk
    rw [if_pos (by omega), hg k (by omega)]
    rw [show addr + (d.len - r) + k - (addr + (d.len - r)) = k by omega]
    rw [if_pos (by omega), Nat.zero_add, BitVec.and_comm, and_ff8]

theorem progN_below (v : HDev) (x : Nat) : ∀ n f a s m, progN v f a s n = .ok m → x < a →
    m x = f x := by
  intro n
  induction n with
  | zero => intro f a s m h _; cases h; rfl
  | succ n ih =>
    intro f a s m h hx
    unfold progN at h
    split at h
    · rename_i m1 hm1
      rw [ih _ _ _ _ h (by omega)]
      exact store_out hm1 (Or.inl hx)
    · rename_i r hr
      exact absurd h (hr _)

/-- The phrase drivers never touch bytes below their current address. -/
theorem kinLoop_below (W : Nat) (hW : 0 < W) (d : HBuf) (x : Nat) : ∀ n f addr w len m, len = n →
    kinLoop W f addr d w len = .ok m → x < addr → m x = f x := by
  intro n
  induction n using Nat.strongRecOn with
  | _ n ih =>
    intro f addr w len m hn h hx
    rw [kinLoop, if_neg (by omega)] at h
    by_cases h0 : len = 0
    · rw [if_pos h0] at h; cases h; rfl
    rw [if_neg h0] at h
    have hmod := Nat.mod_lt addr hW
    have hml := Nat.mod_lt len hW
    have hle := Nat.mod_le addr W
    have hle2 := Nat.mod_le len W
    by_cases hp : len < W ∨ addr % W ≠ 0
    · rw [if_pos hp] at h
      clear hp
      dsimp only at h
      split at h
      · split at h
        · rename_i m1 hm1
          rw [ih (len - min W (len + addr % W)) (by omega) _ _ _ _ _ rfl h (by omega)]
          split at hm1
          · cases hm1; rfl
          · by_cases hin : addr - addr % W ≤ x
            · rw [store_in hm1 hin (by show x < _ + W; omega), if_neg (by omega)]
              rw [show addr - addr % W + (x - (addr - addr % W)) = x by omega, and_self8]
            · exact store_out hm1 (Or.inl (by omega))
        · rename_i r hr
          exact absurd h (hr _)
      · cases h
    · rw [if_neg hp] at h
      have hnl : ¬ len < W := fun h => hp (Or.inl h)
      dsimp only at h
      split at h
      · split at h
        · rename_i m1 hm1
          rw [ih (len - (len - len % W)) (by omega) _ _ _ _ _ rfl h (by omega)]
          exact progN_below _ x _ _ _ _ _ hm1 hx
        · rename_i r hr
          exact absurd h (hr _)
      · cases h

/-- **Kinetis, MCXA: a request that starts inside a phrase and leaves it skips bytes.** The first
byte of the second phrase keeps its old contents, because `address` is moved by the end position
inside the phrase instead of the number of bytes written. -/
theorem kin_unaligned_skips (W : Nat) (hW : 0 < W) (f m : Mem) (addr : Nat) (d : HBuf)
    (hA : addr % W ≠ 0) (hl : W < addr % W + d.len)
    (h : kinLoop W f addr d 0 d.len = .ok m) :
    m (addr - addr % W + W) = f (addr - addr % W + W) := by
  have hmod := Nat.mod_lt addr hW
  have hle := Nat.mod_le addr W
  rw [kinLoop, if_neg (by omega), if_neg (by omega), if_pos (Or.inr hA)] at h
  dsimp only at h
  have hmin : min W (d.len + addr % W) = W := by omega
  split at h
  · split at h
    · rename_i m1 hm1
      rw [kinLoop_below W hW d _ _ _ _ _ _ _ rfl h (by omega)]
      split at hm1
      · cases hm1; rfl
      · exact store_out hm1 (Or.inr (Nat.le_refl _))
    · rename_i r hr
      exact absurd h (hr _)
  · cases h

/-- **Kinetis, MCXA**: `KinOK` is exactly the set of requests that are carried out for all contents
of the buffer and all erased flashes. -/
theorem kin_write_iff (W : Nat) (hW : 0 < W) (addr daddr len : Nat) :
    (∀ f b, Fresh ⟨W, true⟩ f addr len →
      kinLoop W f addr ⟨daddr, len, b⟩ 0 len = .ok (written f addr ⟨daddr, len, b⟩ len))
    ↔ KinOK W addr len := by
  constructor
  · intro h
    apply Classical.byContradiction
    intro hn
    unfold KinOK at hn
    have hml := Nat.mod_lt len hW
    have hle := Nat.mod_le addr W
    have hle2 := Nat.mod_le len W
    by_cases hA : addr % W = 0
    · have hlW : W < len := by rw [hA] at hn; omega
      have hr : len % W ≠ 0 := fun h => hn (Or.inr ⟨hA, h⟩)
      have hf : Fresh ⟨W, true⟩ (fun _ => 0xFF#8) addr len := fun _ _ _ _ => rfl
      obtain ⟨m, hm, hk⟩ := kin_tail_wrong W (fun _ => 0xFF#8) addr
        ⟨daddr, len, fun k => if k = 0 then 0#8 else 0xFF#8⟩ hW hf hA hlW hr
      have h1 := h (fun _ => 0xFF#8) (fun k => if k = 0 then 0#8 else 0xFF#8) hf
      rw [h1] at hm
      cases hm
      have h2 := hk 0 (by show 0 < len % W; omega)
      have hmlt : len % W < len := by omega
      unfold written at h2
      simp only at h2
      rw [if_pos (by omega), if_neg (by omega), if_pos trivial] at h2
      revert h2; decide
    · have h1 := h (fun _ => 0xFF#8) (fun _ => 0#8) (fun _ _ _ _ => rfl)
      have h2 := kin_unaligned_skips W hW _ _ addr ⟨daddr, len, fun _ => 0#8⟩ hA
        (by simp only; omega) h1
      unfold written at h2
      have hmod := Nat.mod_lt addr hW
      rw [if_pos (by omega)] at h2
      have h3 : (0xFF#8 &&& 0#8 : Byte) = 0xFF#8 := h2
      revert h3; decide
  · intro h f b hf
    exact kin_write_exact W f addr ⟨daddr, len, b⟩ hW hf h

/-! ## STM32L5, U5, H5: whole units only -/

/-- `/repo/hal/stm32l5.c:66-104` (`W = 8`), `/repo/hal/stm32u5.c:64-116` (`W = 16`),
`/repo/hal/stm32h5.c:91-134` (`W = 8`, with the second word of the last unit replaced by ones if
`len` is `i + 1`): every round loads and stores `W` bytes at `i`. The conversion to the secure
address space is not modelled. -/
def wideLoop (W : Nat) (h5 : Bool) (f : Mem) (addr : Nat) (d : HBuf) (i : Nat) : HwRes :=
  if 0 < W ∧ i < d.len then
    if i + (if h5 = true ∧ ¬ d.len > i + 1 then 4 else W) ≤ d.len then
      match (⟨W, true⟩ : HDev).store f (addr + i) (fun k => d.b (i + k)) with
      | .ok m => wideLoop W h5 m addr d (i + W)
      | r => r
    else .oob
  else .ok f
termination_by d.len - i

theorem wideLoop_ok (W : Nat) (h5 : Bool) (hW : 2 ≤ W) (f : Mem) (addr : Nat) (d : HBuf)
    (hfr : Fresh ⟨W, true⟩ f addr d.len) (hA : addr % W = 0) : ∀ n i, i * W + n * W = d.len →
    wideLoop W h5 (written f addr d (i * W)) addr d (i * W) = .ok (written f addr d d.len) := by
  have hfr : ∀ x, addr - addr % W ≤ x → x < addr + d.len + W → f x = 0xFF#8 := hfr rfl
  intro n
  induction n with
  | zero =>
    intro i hi
    rw [wideLoop, if_neg (by omega)]
    rw [show i * W = d.len by omega]
  | succ n ih =>
    intro i hi
    have e : (n + 1) * W = n * W + W := by rw [Nat.add_mul]; omega
    rw [e] at hi
    rw [wideLoop, if_pos (by omega), if_pos (by rw [if_neg (by omega)]; omega)]
    rw [unit_step (j := i * W + W) (by show (addr + i * W) % W = 0; rw [Nat.add_mul_mod_self_right]; exact hA)
      (Nat.le_refl _) (by show _ ≤ _ + W; omega) (by omega) (Or.inr (Nat.le_refl _))
      (fun _ x h1 h2 => hfr x (by omega) (by simp only at h2; omega)) (by
        intro k hk
        simp only at hk
        rw [if_pos (by omega)]
        congr 1; omega)]
    have := ih (i + 1) (by rw [Nat.add_mul, Nat.one_mul]; omega)
    rw [Nat.add_mul, Nat.one_mul] at this
    exact this

theorem wideLoop_bad (W : Nat) (h5 : Bool) (hW : 4 ≤ W) (addr : Nat) (d : HBuf) :
    ∀ n i f m, d.len - i = n → i < d.len → (d.len - i) % W ≠ 0 ∨ (addr + i) % W ≠ 0 →
    wideLoop W h5 f addr d i ≠ .ok m := by
  intro n
  induction n using Nat.strongRecOn with
  | _ n ih =>
    intro i f m hn hlt hc h
    rw [wideLoop, if_pos (by omega)] at h
    by_cases hrd : i + (if h5 = true ∧ ¬ d.len > i + 1 then 4 else W) ≤ d.len
    · rw [if_pos hrd] at h
      split at h
      · rename_i m1 hm1
        have hal : (addr + i) % W = 0 := Classical.byContradiction fun hne => by
          rw [store_align (v := ⟨W, true⟩) hne] at hm1; cases hm1
        have hr : (d.len - i) % W ≠ 0 := by
          rcases hc with h | h
          · exact h
          · exact absurd hal h
        have hge : i + W ≤ d.len := by
          split at hrd
          · omega
          · exact hrd
        have hne : i + W ≠ d.len := by
          intro he
          apply hr
          rw [show d.len - i = W by omega]; exact Nat.mod_self W
        refine ih (d.len - (i + W)) (by omega) (i + W) m1 m rfl (by omega) (Or.inl ?_) h
        rw [show d.len - (i + W) = d.len - i - W by omega, ← Nat.mod_eq_sub_mod (by omega)]
        exact hr
      · rename_i r hr
        exact absurd h (hr _)
    · rw [if_neg hrd] at h
      cases h

/-- **STM32L5, U5, H5**: a request is carried out if and only if it consists of whole aligned
units; every other request with at least one byte reads behind the buffer or stores at an unaligned
address. -/
theorem wide_write_iff (W : Nat) (h5 : Bool) (hW : 4 ≤ W) (f : Mem) (addr : Nat) (d : HBuf)
    (hfr : Fresh ⟨W, true⟩ f addr d.len) (h0 : 0 < d.len) :
    wideLoop W h5 f addr d 0 = .ok (written f addr d d.len) ↔ addr % W = 0 ∧ d.len % W = 0 := by
  constructor
  · intro h
    apply Classical.byContradiction
    intro hn
    refine wideLoop_bad W h5 hW addr d d.len 0 f _ rfl h0 ?_ h
    rw [Nat.sub_zero, Nat.add_zero]
    by_cases hA : addr % W = 0
    · exact Or.inl fun hl => hn ⟨hA, hl⟩
    · exact Or.inr hA
  · rintro ⟨hA, hl⟩
    have hd : d.len / W * W = d.len := Nat.div_mul_cancel (Nat.dvd_of_mod_eq_zero hl)
    have := wideLoop_ok W h5 (by omega) f addr d hfr hA (d.len / W) 0 (by omega)
    rwa [Nat.zero_mul, written_zero] at this

/-! ## Examples -/

/-- Kinetis: 16 bytes at a phrase are written, 17 bytes are not (for some contents). -/
example : (∃ m, kinLoop 8 (fun _ => 0xFF#8) 0x8000 ⟨0, 16, fun k => BitVec.ofNat 8 k⟩ 0 16 = .ok m ∧
      m 0x800F = 15#8) ∧
    ¬ ∀ f b, Fresh ⟨8, true⟩ f 0x8000 17 →
      kinLoop 8 f 0x8000 ⟨0, 17, b⟩ 0 17 = .ok (written f 0x8000 ⟨0, 17, b⟩ 17) :=
  ⟨⟨_, (kin_write_iff 8 (by omega) 0x8000 0 16).2 (by unfold KinOK; omega) _ _ (fun _ _ _ _ => rfl),
      by decide⟩,
    fun h => absurd ((kin_write_iff 8 (by omega) 0x8000 0 17).1 h) (by unfold KinOK; omega)⟩

/-- STM32U5: 32 bytes at a unit are written, 20 bytes are not. -/
example : wideLoop 16 false (fun _ => 0xFF#8) 0x4000 ⟨0, 32, fun _ => 3#8⟩ 0
      = .ok (written (fun _ => 0xFF#8) 0x4000 ⟨0, 32, fun _ => 3#8⟩ 32) ∧
    wideLoop 16 false (fun _ => 0xFF#8) 0x4000 ⟨0, 20, fun _ => 3#8⟩ 0
      ≠ .ok (written (fun _ => 0xFF#8) 0x4000 ⟨0, 20, fun _ => 3#8⟩ 20) :=
  ⟨(wide_write_iff 16 false (by omega) _ _ ⟨0, 32, _⟩ (fun _ _ _ _ => rfl) (by simp)).2 (by simp),
    fun h => absurd ((wide_write_iff 16 false (by omega) _ _ ⟨0, 20, _⟩ (fun _ _ _ _ => rfl)
      (by simp)).1 h) (by simp)⟩

/-- Kinetis: the last of nine bytes is written as the first one. -/
example : ∃ m, kinLoop 8 (fun _ => 0xFF#8) 0x8000 ⟨0, 9, fun k => BitVec.ofNat 8 (k + 1)⟩ 0 9 = .ok m ∧
    m 0x8008 = 1#8 := by
  obtain ⟨m, h1, h2⟩ := kin_tail_wrong 8 (fun _ => 0xFF#8) 0x8000
    ⟨0, 9, fun k => BitVec.ofNat 8 (k + 1)⟩ (by omega) (fun _ _ _ _ => rfl) (by omega) (by simp) (by simp)
  exact ⟨m, h1, h2 0 (by simp)⟩

end Verif
