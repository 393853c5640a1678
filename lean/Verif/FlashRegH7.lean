import Verif.FlashRegThms

/-!
# Which sectors STM32H7 is asked to erase

The sectors meant, in the first bank (`h7_bank1`) and in the second one (`h7_bank2`). Findings: the first bank is never waited for (`h7_never_waits`, `h7_two_sectors`), and an erase in the second bank enables
error interrupts (`h7_interrupts`).
-/

namespace Verif

namespace FlashReg


/-- No programming and no bank erase is selected. -/
def Idle7 (cr : Nat) : Prop := cr.testBit 1 = false ∧ cr.testBit 3 = false

theorem h7_word {p cr : Nat} {b : Bool} (h : Idle7 cr) : reqH7 b (h7Word p cr ||| 0x80) = .page b (p >>> 17 % 8) ∧ Idle7 (h7Word p cr) := by
  obtain ⟨i1, i3⟩ := h
  unfold h7Word
  constructor
  · unfold reqH7
    rw [if_pos]
    · rw [fld_or, fld_or, fld_or, fld_or, fld_clr (by decide) (by decide), fld_shl (by decide), show fld 4 8 3 = 0 by decide, show fld 0 8 3 = 0 by decide, show fld 0x80 8 3 = 0 by decide,
        Nat.or_zero, Nat.or_zero, Nat.or_zero, Nat.zero_or]
    · simp only [Nat.testBit_or, clr_testBit, shl_testBit, i1, i3]
      simp [testBit_div]
  · unfold Idle7
    simp only [Nat.testBit_or, clr_testBit, shl_testBit, i1, i3]
    simp [testBit_div]

/-- What an event asks for. -/
def evReq : Ev → Option Req
  | .start b w => some (reqH7 (b == 1) w)
  | .wait _ => none

theorem loop_done {p e cr1 cr2 n : Nat} (h : ¬ p < e) : h7Loop p e cr1 cr2 (n + 1) = ([], cr1, cr2) := by
  rw [h7Loop, if_neg h]

/-- The address that the loop computes in the second bank, from that within the bank. -/
theorem wrapped {o q : Nat} (ho : o < 0x100000) (hq : q = (0x100000 + o + 4294967296 - 0x08100000) % 4294967296) : q = 0xF8000000 + o := by
  omega

theorem loop_second {p q e cr1 cr2 n : Nat} (h1 : ¬ p < 0x100000) (h2 : p < e) (h3 : p ≤ 0x081FFFFF - 0x08000000) (hq : q = (p + 4294967296 - 0x08100000) % 4294967296)
    (h4 : ¬ (q + 0x20000) % 4294967296 < e) :
    h7Loop p e cr1 cr2 (n + 2) = ([.start 1 (h7Word q cr2 ||| 0x80), .wait 1], cr1, h7Word q cr2) := by
  rw [h7Loop, if_pos h2, if_neg h1, if_pos h3]
  simp only [← hq, loop_done h4]
  rfl

/-- **STM32H7**, second bank: the sector meant, in spite of the wrong base (and only one, `Verif.h7_erase_bank2`). `o` is the place in the bank. -/
theorem h7_bank2 {o e cr1 cr2 n : Nat} (ho : o < 0x100000) (h2 : 0x100000 + o < e) (h3 : e ≤ 0x200000) (h : Idle7 cr2) :
    (h7Loop (0x100000 + o) e cr1 cr2 (n + 2)).1.filterMap evReq = [.page true (o / 0x20000)] := by
  obtain ⟨q, hq⟩ : ∃ q, q = (0x100000 + o + 4294967296 - 0x08100000) % 4294967296 := ⟨_, rfl⟩
  have eq := wrapped ho hq
  rw [loop_second (by omega) h2 (by omega) hq (by omega)]
  simp only [List.filterMap_cons, List.filterMap_nil, evReq]
  rw [show ((1 : Nat) == 1) = true from rfl, (h7_word h).1, Nat.shiftRight_eq_div_pow]
  simp only [List.cons.injEq, Req.page.injEq, true_and, and_true]
  omega

/-- **Finding.** STM32H7: bits of the wrapped address get into the register and enable interrupts for errors (bits 18 to 22, among them `STRBERRIE` 19 and `OPERRIE` 22). -/
theorem h7_interrupts {o e cr1 cr2 n : Nat} (ho : o < 0x100000) (h2 : 0x100000 + o < e) (h3 : e ≤ 0x200000) :
    (h7Loop (0x100000 + o) e cr1 cr2 (n + 2)).2.2.testBit 19 = true ∧ (h7Loop (0x100000 + o) e cr1 cr2 (n + 2)).2.2.testBit 22 = true := by
  obtain ⟨q, hq⟩ : ∃ q, q = (0x100000 + o + 4294967296 - 0x08100000) % 4294967296 := ⟨_, rfl⟩
  have eq := wrapped ho hq
  rw [loop_second (by omega) h2 (by omega) hq (by omega)]
  obtain ⟨v, hv⟩ : ∃ v, v = q >>> 17 := ⟨_, rfl⟩
  have ev : v = 31744 + o / 131072 := by rw [hv, Nat.shiftRight_eq_div_pow]; omega
  unfold h7Word
  simp only [← hv, Nat.testBit_or, shl_testBit]
  have e11 : v.testBit 11 = true := by rw [testBit_div]; simp; omega
  have e14 : v.testBit 14 = true := by rw [testBit_div]; simp; omega
  constructor
  · rw [show (19 : Nat) - 8 = 11 from rfl, e11]; simp
  · rw [show (22 : Nat) - 8 = 14 from rfl, e14]; simp

/-- **Finding.** STM32H7: `hal_flash_erase` never waits for the first bank; `flash_wait_complete` counts banks from 0, its callers here from 1. -/
theorem h7_never_waits : ∀ n p e cr1 cr2, Ev.wait 0 ∉ (h7Loop p e cr1 cr2 n).1 := by
  intro n
  induction n with
  | zero => intro p e cr1 cr2 h; exact absurd h (by simp [h7Loop])
  | succ n ih =>
    intro p e cr1 cr2
    unfold h7Loop
    split
    · split
      · simp only [List.mem_cons, h7Wait, if_neg (show ¬ (1 : Nat) = 0 by decide)]
        rintro (h | h | h)
        · exact absurd h (by simp)
        · exact absurd h (by simp)
        · exact ih _ _ _ _ h
      · split
        · simp only [List.mem_cons, h7Wait, if_neg (show ¬ (2 : Nat) = 0 by decide)]
          rintro (h | h | h)
          · exact absurd h (by simp)
          · exact absurd h (by simp)
          · exact ih _ _ _ _ h
        · exact ih _ _ _ _
    · simp

theorem loop_first {p q e cr1 cr2 n : Nat} (h1 : p < 0x100000) (h2 : p < e) (hq : q = (p + 0x20000) % 4294967296) :
    h7Loop p e cr1 cr2 (n + 1) = (.start 0 (h7Word p cr1 ||| 0x80) :: .wait 1 :: (h7Loop q e (h7Word p cr1) cr2 n).1, (h7Loop q e (h7Word p cr1) cr2 n).2) := by
  rw [h7Loop, if_pos h2, if_pos h1]
  simp only [← hq]
  rfl

/-- **STM32H7**, first bank: the sectors meant. -/
theorem h7_bank1 : ∀ n p e cr1 cr2, Idle7 cr1 → e ≤ 0x100000 → e ≤ p + n * 0x20000 →
    (h7Loop p e cr1 cr2 n).1.filterMap evReq = (pts 0x20000 p e).map (fun p => .page false (p / 0x20000)) := by
  intro n
  induction n with
  | zero =>
    intro p e cr1 cr2 _ _ h
    rw [pts, dif_neg (by omega)]
    rfl
  | succ n ih =>
    intro p e cr1 cr2 hi he h
    by_cases hp : p < e
    · rw [loop_first (q := p + 0x20000) (by omega) hp (by omega), pts, dif_pos ⟨hp, by decide⟩]
      have k := ih (p + 0x20000) e (h7Word p cr1) cr2 (h7_word (b := false) hi).2 he (by omega)
      simp only [List.filterMap_cons, evReq, List.map_cons, k]
      rw [show ((0 : Nat) == 1) = false from rfl, (h7_word hi).1, Nat.shiftRight_eq_div_pow]
      simp only [List.cons.injEq, Req.page.injEq, true_and, and_true]
      omega
    · rw [loop_done hp, pts, dif_neg (fun hc => hp hc.1)]
      rfl

/-- **Finding.** Two sectors of the first bank: the second erase is started without waiting for the first one. -/
theorem h7_two_sectors {p e : Nat} (cr1 cr2 : Nat) (h1 : p + 0x20000 < e) (h2 : e ≤ 0x100000) (n : Nat) :
    ∃ w1 w2 l, (h7Loop p e cr1 cr2 (n + 2)).1 = .start 0 w1 :: .wait 1 :: .start 0 w2 :: .wait 1 :: l := by
  rw [loop_first (q := p + 0x20000) (by omega) (by omega) (by omega), loop_first (p := p + 0x20000) (q := p + 0x20000 + 0x20000) (by omega) h1 (by omega)]
  exact ⟨_, _, _, rfl⟩

/-! ## Examples -/

example : (h7Loop 0x20000 0x5FFFF 0 0 2).1.filterMap evReq = (pts 0x20000 0x20000 0x5FFFF).map (fun p => .page false (p / 0x20000)) :=
  h7_bank1 2 0x20000 0x5FFFF 0 0 ⟨by decide, by decide⟩ (by decide) (by decide)

example : (h7Loop (0x100000 + 0x40000) 0x15FFFF 0 0 (0 + 2)).1.filterMap evReq = [.page true 2] := h7_bank2 (by decide) (by decide) (by decide) ⟨by decide, by decide⟩

example : (h7Loop (0x100000 + 0x40000) 0x15FFFF 0 0 (0 + 2)).2.2.testBit 19 = true := (h7_interrupts (by decide) (by decide) (by decide)).1

example : ∃ w1 w2 l, (h7Loop 0x20000 0x5FFFF 0 0 (0 + 2)).1 = .start 0 w1 :: .wait 1 :: .start 0 w2 :: .wait 1 :: l := h7_two_sectors 0 0 (by decide) (by decide) 0

end FlashReg

end Verif
