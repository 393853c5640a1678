import Verif.FlashRegThms
import Verif.TzThms

/-!
# Claim and release of non-secure flash

`hal_tz_claim_nonsecure_area`, `hal_tz_release_nonsecure_area`. The pages of the range become secure and no others (`claim_bits`). Finding: the pages erased afterwards are not these but those that follow
(`claim_requests`, `claim_misses`), on STM32L5 always in the first bank, where wolfBoot is (`l5_claim_erases_wolfboot`). Release: `release_single`, `release_dual`; without bank swap the pages of
the first bank stay secure (`left_claimed`).
-/

namespace Verif

namespace FlashReg

/-- Page `q` of a bank is secure. -/
def secBit (t : Tzf) (bank : Bool) (q : Nat) : Bool := ((if bank then t.b2 else t.b1) (q / 32)).testBit (q % 32)

/-- Number of pages of `P` bytes that begin in `len` bytes from the start of one. -/
def pages (P len : Nat) : Nat := (len + P - 1) / P

theorem pages_step {P p e : Nat} (hP : 0 < P) (h : p < e) : pages P (e - p) = pages P (e - (p + P)) + 1 := by
  unfold pages
  by_cases k : e - p ≤ P
  · rw [show e - (p + P) = 0 by omega, Nat.zero_add, Nat.div_eq_of_lt (a := P - 1) (by omega)]
    rw [show e - p + P - 1 = (e - p - 1) + P by omega, Nat.add_div_right _ hP, Nat.div_eq_of_lt (by omega)]
  · rw [show e - p + P - 1 = (e - (p + P) + P - 1) + P by omega, Nat.add_div_right _ hP]

theorem pages_zero {P : Nat} (hP : 0 < P) : pages P 0 = 0 := by
  unfold pages
  exact Nat.div_eq_of_lt (by omega)

theorem one_shl (a b : Nat) : (1 <<< a).testBit b = decide (a = b) := by
  rw [Nat.one_shiftLeft, Nat.testBit_two_pow]

theorem word_pos {p q : Nat} : (p / 32 = q / 32 ∧ p % 32 = q % 32) ↔ p = q := by omega

theorem claimPage_bit (t : Tzf) (bank b : Bool) (p q : Nat) : secBit (t.claimPage bank p) b q = (secBit t b q || decide (b = bank ∧ q = p)) := by
  have key : ∀ f : Nat → Nat, (Tz.upd f (p / 32) (f (p / 32) ||| 1 <<< (p % 32)) (q / 32)).testBit (q % 32) = ((f (q / 32)).testBit (q % 32) || decide (q = p)) := by
    intro f
    unfold Tz.upd
    split
    · rename_i h
      rw [Nat.testBit_or, one_shl, ← h]
      congr 1
      apply decide_eq_decide.mpr
      omega
    · rename_i h
      have : ¬ q = p := fun hc => h (by rw [hc])
      simp [this]
  unfold secBit Tzf.claimPage
  cases bank <;> cases b <;> simp [key]

theorem freePage_bit (t : Tzf) (bank b : Bool) (p q : Nat) : secBit (t.freePage bank p) b q = (secBit t b q && !decide (b = bank ∧ q = p)) := by
  have key : ∀ f : Nat → Nat, (Tz.upd f (p / 32) (clr (f (p / 32)) (1 <<< (p % 32))) (q / 32)).testBit (q % 32) = ((f (q / 32)).testBit (q % 32) && !decide (q = p)) := by
    intro f
    unfold Tz.upd
    split
    · rename_i h
      rw [clr_testBit, one_shl, ← h, decide_eq_true (show q % 32 < 32 from Nat.mod_lt _ (by decide)), Bool.true_xor]
      congr 2
      apply decide_eq_decide.mpr
      omega
    · rename_i h
      have : ¬ q = p := fun hc => h (by rw [hc])
      simp [this]
  unfold secBit Tzf.freePage
  cases bank <;> cases b <;> simp [key]

theorem claimLoop_spec {P : Nat} {bank : Bool} (hP : 0 < P) : ∀ p e page t,
    (∀ b q, secBit (claimLoop P bank p e page t).1 b q = (secBit t b q || decide (b = bank ∧ page ≤ q ∧ q < page + pages P (e - p)))) ∧
      (claimLoop P bank p e page t).2 = page + pages P (e - p) ∧ (claimLoop P bank p e page t).1.cr = t.cr := by
  intro p e page t
  induction p, page, t using claimLoop.induct (P := P) (bank := bank) (e := e) with
  | case1 p page t h ih =>
    obtain ⟨i1, i2, i3⟩ := ih
    rw [claimLoop, dif_pos h, pages_step hP h.1]
    refine ⟨?_, by rw [i2]; omega, by rw [i3]; unfold Tzf.claimPage; split <;> rfl⟩
    intro b q
    rw [i1, claimPage_bit, Bool.or_assoc]
    congr 1
    rw [← Bool.decide_or]
    apply decide_eq_decide.mpr
    constructor
    · rintro (⟨h1, h2⟩ | ⟨h1, h2, h3⟩)
      · exact ⟨h1, by omega, by omega⟩
      · exact ⟨h1, by omega, by omega⟩
    · rintro ⟨h1, h2, h3⟩
      by_cases hq : q = page
      · exact Or.inl ⟨h1, hq⟩
      · exact Or.inr ⟨h1, by omega, by omega⟩
  | case2 p page t h =>
    rw [claimLoop, dif_neg h, show e - p = 0 by omega, pages_zero hP]
    refine ⟨?_, rfl, rfl⟩
    intro b q
    have : ¬ (b = bank ∧ page ≤ q ∧ q < page + 0) := by omega
    rw [decide_eq_false this, Bool.or_false]

/-- What the chip understands. -/
def reqOf (h5 : Bool) : Nat → Req := if h5 then reqH5 else reqL5

theorem claimWord_req {h5 bank : Bool} {page cr : Nat} (hp : page < 256) :
    reqOf h5 (claimWord h5 bank page cr ||| strt h5) = .page (h5 && (cr.testBit 31 || bank)) (page % 128) ∧
      (h5 = true → (claimWord h5 bank page cr).testBit 31 = (cr.testBit 31 || bank)) := by
  have p8 : page.testBit 8 = false := Nat.testBit_lt_two_pow (by omega)
  have p9 : page.testBit 9 = false := Nat.testBit_lt_two_pow (by omega)
  have p12 : page.testBit 12 = false := Nat.testBit_lt_two_pow (by omega)
  have p25 : page.testBit 25 = false := Nat.testBit_lt_two_pow (by omega)
  cases h5 with
  | false =>
    refine ⟨?_, fun h => absurd h (by decide)⟩
    unfold reqOf claimWord strt
    simp only [Bool.false_eq_true, if_false, Bool.false_and]
    unfold reqL5
    rw [if_pos]
    · rw [fld_or, fld_or, fld_or, fld_clr (by decide) (by decide), fld_shl (by decide), show fld 2 3 7 = 0 by decide, show fld 0x10000 3 7 = 0 by decide, Nat.or_zero, Nat.or_zero, Nat.zero_or]
      simp only [Nat.testBit_or, clr_testBit, shl_testBit, show (11 : Nat) - 3 = 8 from rfl, p8]
      simp [testBit_div, L5_PNB, L5_BKER]
    · simp only [Nat.testBit_or, clr_testBit, shl_testBit, show (15 : Nat) - 3 = 12 from rfl, p12]
      simp [testBit_div, L5_PNB, L5_BKER]
  | true =>
    have e31 : (claimWord true bank page cr).testBit 31 = (cr.testBit 31 || bank) := by
      unfold claimWord
      simp only [if_true, Nat.testBit_or, clr_testBit, shl_testBit, show (31 : Nat) - 6 = 25 from rfl, p25]
      cases bank <;> simp [testBit_div, H5_SNB]
    refine ⟨?_, fun _ => e31⟩
    unfold reqOf strt
    simp only [if_true, Bool.true_and]
    unfold reqH5
    rw [if_pos]
    · rw [Nat.testBit_or, e31, show (0x20 : Nat).testBit 31 = false by decide, Bool.or_false]
      unfold claimWord
      simp only [if_true]
      have eb : fld (shl bank.toNat 31) 6 7 = 0 := by cases bank <;> decide
      rw [fld_or, fld_or, fld_or, fld_or, fld_clr (by decide) (by decide), fld_shl (by decide), eb, show fld 4 6 7 = 0 by decide, show fld 0x20 6 7 = 0 by decide, Nat.or_zero, Nat.or_zero,
        Nat.or_zero, Nat.zero_or]
    · unfold claimWord
      simp only [if_true, Nat.testBit_or, clr_testBit, shl_testBit, show (15 : Nat) - 6 = 9 from rfl, p9]
      simp [testBit_div, H5_SNB]

theorem claimErase_spec {h5 bank : Bool} {P : Nat} (hP : 0 < P) : ∀ k p e page cr, k = pages P (e - p) → page + k ≤ 256 →
    (claimErase h5 P bank p e page cr).1.map (reqOf h5) = (List.range k).map (fun i => .page (h5 && (cr.testBit 31 || bank)) ((page + i) % 128)) := by
  intro k
  induction k with
  | zero =>
    intro p e page cr hk _
    have : ¬ (p < e ∧ 0 < P) := fun h => by rw [pages_step hP h.1] at hk; omega
    rw [claimErase, dif_neg this]
    rfl
  | succ k ih =>
    intro p e page cr hk hb
    have h : p < e ∧ 0 < P := by
      refine ⟨?_, hP⟩
      apply Decidable.byContradiction
      intro hn
      rw [show e - p = 0 by omega, pages_zero hP] at hk
      omega
    have hk' : k = pages P (e - (p + P)) := by rw [pages_step hP h.1] at hk; omega
    rw [claimErase, dif_pos h]
    dsimp only
    obtain ⟨w1, w2⟩ := claimWord_req (h5 := h5) (bank := bank) (page := page) (cr := cr) (by omega)
    have i := ih (p + P) e (page + 1) (claimWord h5 bank page cr) hk' (by omega)
    rw [List.map_cons, w1, i, List.range_succ_eq_map, List.map_cons, List.map_map, List.cons.injEq]
    refine ⟨rfl, ?_⟩
    apply List.map_congr_left
    intro j _
    have eb : (h5 && ((claimWord h5 bank page cr).testBit 31 || bank)) = (h5 && (cr.testBit 31 || bank)) := by
      cases h5 with
      | false => rfl
      | true => rw [w2 rfl]; cases bank <;> simp
    show Req.page _ _ = Req.page _ ((page + (j + 1)) % 128)
    rw [eb, show page + 1 + j = page + (j + 1) by omega]

/-- The bank whose pages a range starting at `address` is in. -/
def bankOf (c : Chip) (swap : Bool) (address : Nat) : Bool := decide (c.bank2 ≤ address) ^^ (c.h5 && swap)

/-- The number of its first page in the bank. -/
def pageOf (c : Chip) (address : Nat) : Nat := (address - if c.bank2 ≤ address then c.bank2 else 0x08000000) / c.page

theorem claim_eq {c : Chip} {dual swap : Bool} {boot update address len : Nat} {t : Tzf} (hr : rangeNs c dual boot update address (len : Int) = true) (hw : address + len < 4294967296) :
    claim c dual swap boot update address (len : Int) t =
      ((claimErase c.h5 c.page (bankOf c swap address) address (address + len) (claimLoop c.page (bankOf c swap address) address (address + len) (pageOf c address) t).2
          (claimLoop c.page (bankOf c swap address) address (address + len) (pageOf c address) t).1.cr).1,
        { (claimLoop c.page (bankOf c swap address) address (address + len) (pageOf c address) t).1 with
          cr := clr (claimErase c.h5 c.page (bankOf c swap address) address (address + len) (claimLoop c.page (bankOf c swap address) address (address + len) (pageOf c address) t).2
            (claimLoop c.page (bankOf c swap address) address (address + len) (pageOf c address) t).1.cr).2 (if c.h5 then 4 else 2) }) := by
  have e1 : (address + (len : Int).toNat) % 4294967296 = address + len := by
    rw [Int.toNat_natCast]; exact Nat.mod_eq_of_lt hw
  have e2 : (if c.h5 = true ∧ swap = true then !decide (c.bank2 ≤ address) else decide (c.bank2 ≤ address)) = bankOf c swap address := by
    unfold bankOf
    cases c.h5 <;> cases swap <;> simp
  have e3 : (if decide (c.bank2 ≤ address) = true then (address - c.bank2) / c.page else (address - 0x08000000) / c.page) = pageOf c address := by
    unfold pageOf
    by_cases h : c.bank2 ≤ address
    · rw [if_pos (by simp [h]), if_pos h]
    · rw [if_neg (by simp [h]), if_neg h]
  unfold claim
  rw [if_neg (by rw [hr]; decide)]
  simp only [e1, e2, e3]

/-- **Claim**: the pages of the range become secure; no other page changes. -/
theorem claim_bits {c : Chip} {dual swap : Bool} {boot update address len : Nat} {t : Tzf} (hP : 0 < c.page) (hr : rangeNs c dual boot update address (len : Int) = true)
    (hw : address + len < 4294967296) (b : Bool) (q : Nat) :
    secBit (claim c dual swap boot update address (len : Int) t).2 b q =
      (secBit t b q || decide (b = bankOf c swap address ∧ pageOf c address ≤ q ∧ q < pageOf c address + pages c.page len)) := by
  rw [claim_eq hr hw]
  have k := (claimLoop_spec (bank := bankOf c swap address) hP address (address + len) (pageOf c address) t).1 b q
  rw [Nat.add_sub_cancel_left] at k
  exact k

/-- **Finding.** The pages erased by the claim are not those claimed but as many that follow; on STM32L5 in the first bank always. -/
theorem claim_requests {c : Chip} {dual swap : Bool} {boot update address len : Nat} {t : Tzf} (hP : 0 < c.page) (hr : rangeNs c dual boot update address (len : Int) = true)
    (hw : address + len < 4294967296) (hf : pageOf c address + 2 * pages c.page len ≤ 256) :
    (claim c dual swap boot update address (len : Int) t).1.map (reqOf c.h5) = (List.range (pages c.page len)).map
      (fun i => .page (c.h5 && (t.cr.testBit 31 || bankOf c swap address)) ((pageOf c address + pages c.page len + i) % 128)) := by
  rw [claim_eq hr hw]
  obtain ⟨-, k2, k3⟩ := claimLoop_spec (bank := bankOf c swap address) hP address (address + len) (pageOf c address) t
  rw [Nat.add_sub_cancel_left] at k2
  rw [k2, k3]
  exact claimErase_spec hP _ _ _ _ _ (by rw [Nat.add_sub_cancel_left]) (by omega)

/-- **Finding.** Of the pages claimed none is erased, unless they are more than half a bank. -/
theorem claim_misses {c : Chip} {dual swap : Bool} {boot update address len : Nat} {t : Tzf} (hP : 0 < c.page) (hr : rangeNs c dual boot update address (len : Int) = true)
    (hw : address + len < 4294967296) (hf : pageOf c address + pages c.page len ≤ 128) (hh : pages c.page len ≤ 64) {b : Bool} {q : Nat} (h1 : pageOf c address ≤ q)
    (h2 : q < pageOf c address + pages c.page len) : Req.page b q ∉ (claim c dual swap boot update address (len : Int) t).1.map (reqOf c.h5) := by
  rw [claim_requests hP hr hw (by omega)]
  intro hc
  obtain ⟨i, hi, he⟩ := List.mem_map.mp hc
  rw [List.mem_range] at hi
  injection he with _ e
  omega

/-- **Finding.** STM32L5: claiming page `q` of the second bank (the non-secure BOOT partition) erases page `q + 1` of the first one, which holds wolfBoot. -/
theorem l5_claim_erases_wolfboot {dual swap : Bool} {boot update len q : Nat} {t : Tzf} (hr : rangeNs L5 dual boot update (0x08040000 + q * 0x800) (len : Int) = true)
    (hl : 0 < len) (hl2 : len ≤ 0x800) (hq : q < 127) :
    (claim L5 dual swap boot update (0x08040000 + q * 0x800) (len : Int) t).1.map reqL5 = [.page false (q + 1)] := by
  have e1 : pages L5.page len = 1 := by
    show (len + 0x800 - 1) / 0x800 = 1
    omega
  have e2 : pageOf L5 (0x08040000 + q * 0x800) = q := by
    unfold pageOf
    rw [show L5.bank2 = 0x08040000 from rfl, if_pos (Nat.le_add_right _ _), Nat.add_sub_cancel_left, show L5.page = 0x800 from rfl]
    omega
  have k := claim_requests (c := L5) (dual := dual) (swap := swap) (boot := boot) (update := update) (t := t) (by decide) hr (by omega) (by rw [e1, e2]; omega)
  rw [e1, e2] at k
  rw [show reqOf L5.h5 = reqL5 from rfl] at k
  rw [k, show List.range 1 = [0] from rfl, List.map_cons, List.map_nil, List.cons.injEq]
  refine ⟨?_, rfl⟩
  rw [show (L5.h5 && (t.cr.testBit 31 || bankOf L5 swap (0x08040000 + q * 0x800))) = false from rfl, Req.page.injEq]
  exact ⟨rfl, by omega⟩

/-- A range that begins in BOOT and ends in the flash is claimed (single-bank layout). -/
theorem rangeNs_single {c : Chip} {boot update address len : Nat} (h1 : boot ≤ address) (h2 : address + len ≤ c.top + 1) (h3 : c.top + 1 < 4294967296) :
    rangeNs c false boot update address (len : Int) = true := by
  unfold rangeNs
  rw [if_neg (by omega)]
  simp only [Bool.false_eq_true, if_false, Int.toNat_natCast]
  apply decide_eq_true
  exact ⟨h1, by omega⟩

/-- **Release**, single-bank layout: the second bank becomes non-secure, the first one stays as it is. -/
theorem release_single (c : Chip) (swap : Bool) (boot update : Nat) (t : Tzf) (b : Bool) {q : Nat} (hq : q < 128) :
    secBit (release c false swap boot update t) b q = (secBit t b q && !b) := by
  unfold release secBit
  cases b with
  | false => simp
  | true =>
    simp only [Bool.false_eq_true, if_false, if_true, Tz.fill_spec]
    rw [if_pos (by omega)]
    simp

/-- **Finding.** Single-bank layout: pages of BOOT in the first bank, once claimed, are not released. -/
theorem left_claimed {c : Chip} {swap : Bool} {boot update address len q : Nat} {t : Tzf} (hP : 0 < c.page) (hr : rangeNs c false boot update address (len : Int) = true)
    (hw : address + len < 4294967296) (hb : bankOf c swap address = false) (h1 : pageOf c address ≤ q) (h2 : q < pageOf c address + pages c.page len) (hq : q < 128) :
    secBit (release c false swap boot update (claim c false swap boot update address (len : Int) t).2) false q = true := by
  rw [release_single _ _ _ _ _ _ hq, claim_bits hP hr hw, hb]
  simp [h1, h2]

theorem freeLoop_spec {P base : Nat} {bank : Bool} (hP : 0 < P) : ∀ p e t, base ≤ p → ∀ b q,
    secBit (freeLoop P base bank p e t) b q = (secBit t b q && !decide (b = bank ∧ (p - base) / P ≤ q ∧ q < (p - base) / P + pages P (e - p))) := by
  intro p e t
  induction p, t using freeLoop.induct (P := P) (base := base) (bank := bank) (e := e) with
  | case1 p t h ih =>
    intro hp b q
    rw [freeLoop, dif_pos h, pages_step hP h.1, ih (by omega), freePage_bit, show p + P - base = (p - base) + P by omega, Nat.add_div_right _ hP, Bool.and_assoc]
    congr 1
    rw [← Bool.not_or, ← Bool.decide_or]
    congr 1
    apply decide_eq_decide.mpr
    generalize (p - base) / P = k
    constructor
    · rintro (⟨h1, h2⟩ | ⟨h1, h2, h3⟩)
      · exact ⟨h1, by omega, by omega⟩
      · exact ⟨h1, by omega, by omega⟩
    · rintro ⟨h1, h2, h3⟩
      by_cases hq : q = k
      · exact Or.inl ⟨h1, hq⟩
      · exact Or.inr ⟨h1, by omega, by omega⟩
  | case2 p t h =>
    intro hp b q
    rw [freeLoop, dif_neg h, show e - p = 0 by omega, pages_zero hP]
    have : ¬ (b = bank ∧ (p - base) / P ≤ q ∧ q < (p - base) / P + 0) := by omega
    rw [decide_eq_false this, Bool.not_false, Bool.and_true]

/-- **Release**, STM32H5 with bank swap: exactly the pages from BOOT to the end of the bank and from UPDATE to the end of the other one become non-secure. -/
theorem release_dual {swap : Bool} {boot update pb pu : Nat} (t : Tzf) (hb : boot = 0x08000000 + pb * 0x2000) (hpb : pb < 128) (hu : update = 0x08100000 + pu * 0x2000) (hpu : pu < 128) (b : Bool) (q : Nat) :
    secBit (release H5 true swap boot update t) b q = (secBit t b q && !decide (q < 128 ∧ (b = swap ∧ pb ≤ q ∨ b = !swap ∧ pu ≤ q))) := by
  obtain ⟨P, hP⟩ : ∃ P, P = H5.page := ⟨_, rfl⟩
  obtain ⟨B1, hB1⟩ : ∃ B1, B1 = 0x08000000 := ⟨_, rfl⟩
  obtain ⟨B2, hB2⟩ : ∃ B2, B2 = H5.bank2 := ⟨_, rfl⟩
  obtain ⟨T, hT⟩ : ∃ T, T = H5.top := ⟨_, rfl⟩
  have e : release H5 true swap boot update t = freeLoop P B2 (!swap) update T (freeLoop P B1 swap boot B2 t) := by
    unfold release
    rw [if_pos rfl, hP, hB1, hB2, hT]
  replace hP : P = 0x2000 := hP
  replace hB2 : B2 = 0x08100000 := hB2
  replace hT : T = 0x081FFFFF := hT
  have e1 : (update - B2) / P = pu := by rw [hP]; omega
  have e2 : (boot - B1) / P = pb := by rw [hP]; omega
  have e3 : pages P (T - update) = 128 - pu := by rw [hP]; unfold pages; omega
  have e4 : pages P (B2 - boot) = 128 - pb := by rw [hP]; unfold pages; omega
  rw [e, freeLoop_spec (by omega) _ _ _ (by omega), freeLoop_spec (by omega) _ _ _ (by omega), e1, e2, e3, e4, Bool.and_assoc, ← Bool.not_or, ← Bool.decide_or]
  congr 2
  apply decide_eq_decide.mpr
  constructor
  · rintro (⟨h1, h2, h3⟩ | ⟨h1, h2, h3⟩)
    · exact ⟨by omega, Or.inl ⟨h1, h2⟩⟩
    · exact ⟨by omega, Or.inr ⟨h1, h2⟩⟩
  · rintro ⟨h0, ⟨h1, h2⟩ | ⟨h1, h2⟩⟩
    · exact Or.inl ⟨h1, h2, by omega⟩
    · exact Or.inr ⟨h1, h2, by omega⟩

/-! ## Examples -/

/-- Everything secure. -/
def allSecure : Tzf := { b1 := fun _ => 0xFFFFFFFF, b2 := fun _ => 0xFFFFFFFF, cr := 0 }
/-- Nothing secure. -/
def nothingSecure : Tzf := { b1 := fun _ => 0, b2 := fun _ => 0, cr := 0 }

/-- The flags at the end of the BOOT partition of `stm32l5-wolfcrypt-tz.config`: 8 bytes in page 62 of the second bank; page 63 of the first one is erased. -/
example : (claim L5 false false 0x08040000 0x0805F800 (0x08040000 + 62 * 0x800) (8 : Nat) nothingSecure).1.map reqL5 = [.page false (62 + 1)] :=
  l5_claim_erases_wolfboot (rangeNs_single (by decide) (by decide) (by decide)) (by decide) (by decide) (by decide)

example : secBit (claim L5 false false 0x08040000 0x0805F800 (0x08040000 + 62 * 0x800) (8 : Nat) nothingSecure).2 true 62 = true := by
  rw [claim_bits (by decide) (rangeNs_single (by decide) (by decide) (by decide)) (by decide)]
  decide

/-- BOOT of `stm32h5-tz.config`, in the first bank. -/
example : secBit (release H5 false false 0x08040000 0x08140000 (claim H5 false false 0x08040000 0x08140000 0x08042000 (16 : Nat) nothingSecure).2) false 33 = true :=
  left_claimed (by decide) (rangeNs_single (by decide) (by decide) (by decide)) (by decide) (by decide) (by decide) (by decide) (by decide)

example : Req.page false 33 ∉ (claim H5 false false 0x08040000 0x08140000 0x08042000 (16 : Nat) nothingSecure).1.map reqH5 :=
  claim_misses (c := H5) (by decide) (rangeNs_single (by decide) (by decide) (by decide)) (by decide) (by decide) (by decide) (by decide) (by decide)

example : secBit (release H5 true false 0x08040000 0x08140000 allSecure) false 31 = true ∧ secBit (release H5 true false 0x08040000 0x08140000 allSecure) false 32 = false := by
  constructor <;> rw [release_dual (pb := 32) (pu := 32) _ (by decide) (by decide) (by decide) (by decide)] <;> decide

/-! ## What is left in the registers -/

/-- Nothing is selected any more after the erase of a page; on STM32WB no programming is selected with it, whatever was in the register. -/
theorem nothing_left (p sec cr : Nat) :
    (g0Step p cr).2.testBit 1 = false ∧ (wbStep p cr).2.testBit 1 = false ∧ (wbStep p cr).1.testBit 0 = false ∧ (f4Sector sec cr).2.testBit 1 = false ∧
      fld (f4Sector sec cr).2 3 5 = 0 := by
  refine ⟨?_, ?_, ?_, ?_, fld_clr (by decide) (by decide)⟩
  all_goals
    simp only [g0Step, wbStep, f4Sector, Nat.testBit_or, clr_testBit, shl_testBit]
    simp [testBit_div]

/-- The secure build for STM32H5 does not erase anything for a request that begins in the partition, its first byte included. -/
theorem h5_leaves_partition {swap : Bool} {boot address len cr : Nat} (hb : 0x08000000 ≤ boot) (h : boot ≤ address) (hl : 1 < len) :
    h5Erase true false swap boot address len cr = (0, [], cr) := by
  unfold h5Erase
  have hn : h5NonSecure false boot address = true := decide_eq_true h
  rw [if_neg (by omega), if_neg (by omega), if_pos ⟨rfl, hn, by omega⟩]

/-- A negative length claims nothing. -/
theorem claim_negative {c : Chip} {dual swap : Bool} {boot update address : Nat} {len : Int} {t : Tzf} (h : len < 0) :
    claim c dual swap boot update address len t = ([], t) := by
  unfold claim
  rw [if_pos]
  unfold rangeNs
  rw [if_pos h]

example : h5Erase true false false 0x08060000 0x08060000 0x2000 0 = (0, [], 0) := h5_leaves_partition (by decide) (by decide) (by decide)

end FlashReg

end Verif
