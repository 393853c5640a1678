import Verif.InvUpdateSpec
import Verif.InvTrailerLemmas

/-!
# A small concrete device, flash erased to 0x00 (`WOLFBOOT_FLAGS_INVERT`)

Used for the non-vacuity examples beside the theorems and for the counterexamples. Not a model of
anything in /repo: geometry, images and checks are chosen small enough to be evaluated by the kernel.
-/

namespace Verif.Inv.Demo

/-- 3 sectors of 32 bytes, 16 byte header, 8 byte flash buffer. -/
def cfg : Cfg := { ss := 32, n := 3, h := 16, fb := 8 }

theorem wf : cfg.WF := by constructor <;> decide

/-- Same geometry, flash rejecting 1 → 0 programming. -/
def cfgS : Cfg := { cfg with strict := true }

/-- An image with `size` bytes of firmware, all equal to `fill`. -/
def img (ver fill : Byte) (size : Nat) (sig : Byte := 0x5A#8) : Mem := fun o =>
  match o with
  | 0 => 0x57#8 | 1 => 0x4F#8 | 2 => 0x4C#8 | 3 => 0x46#8
  | 4 => BitVec.ofNat 8 size | 5 => 0#8 | 6 => 0#8 | 7 => 0#8
  | 8 => ver | 9 => fill | 10 => sig | 11 => 0#8
  | 12 => 0x01#8 | 13 => 0x02#8 | 14 => 0xFF#8 | 15 => 0xFF#8
  | _ => if o < 16 + size then fill else 0x00#8

/-- Checks: version at offset 8, type at 12; all firmware bytes equal byte 9; "signature" 0x5A. -/
def env (junk : Byte := 0#8) : Env where
  typ m := le16 m 12
  ver m := (m 8).toNat
  integ m := (List.range (le32 m 4)).all (fun i => m (16 + i) == m 9)
  auth m := m 10 == 0x5A#8
  authType := 2
  junk := junk

/-- Old image: 30 bytes in total; new image: 60 bytes. -/
def old : Mem := img 1#8 0xA1#8 14
def new : Mem := img 2#8 0xB2#8 44

/-- 70 bytes: larger than the space in front of the trailer sector. -/
def big : Mem := img 2#8 0xB2#8 54

/-- `old` followed by leftover bytes "BOOT" at offset 32. -/
def wordImg : Mem := fun o =>
  match o with
  | 32 => 0x42#8 | 33 => 0x4F#8 | 34 => 0x4F#8 | 35 => 0x54#8
  | _ => old o

/-- A partition: an image in front, `last` five bytes and flags given, the rest erased. -/
def withTrailer (m : Mem) (state : Option Byte) : Mem := fun o =>
  match state with
  | none => if o < 64 then m o else 0x00#8
  | some s =>
    if o < 64 then m o
    else match o with
      | 91 => s | 92 => 0x42#8 | 93 => 0x4F#8 | 94 => 0x4F#8 | 95 => 0x54#8
      | _ => 0x00#8

/-- A flash with given images and states. -/
def flash (b : Mem) (bs : Option Byte) (u : Mem) (us : Option Byte) : Flash
  | .boot => withTrailer b bs
  | .update => withTrailer u us
  | .swap => fun _ => 0x00#8

/-- `old` running and confirmed, `new` in UPDATE, requested. -/
def pending : Flash := flash old (some ST_SUCCESS) new (some ST_UPDATING)

/-- Evaluate a predicate on the flash after a completed run. -/
def okAnd {α} (r : Res α) (p : Flash → Bool) : Bool :=
  match r with
  | .ok _ w => p w.fl
  | _ => false

/-- Evaluate a predicate on the flash after a power failure. -/
def crashAnd {α} (r : Res α) (p : Flash → Bool) : Bool :=
  match r with
  | .crash f => p f
  | _ => false

def panics {α} (r : Res α) : Bool :=
  match r with
  | .panic _ => true
  | _ => false

/-- First `n` bytes of partition `p` are those of `X`. -/
def eqUpto (f : Flash) (p : Part) (X : Mem) (n : Nat) : Bool :=
  (List.range n).all (fun o => f p o == X o)

/-- The checks of `env` depend on the bytes of the image only. -/
theorem env_loc (j : Byte) (X m : Mem) (h : ∀ o, o < imageBytes cfg X → m o = X o) :
    (env j).typ m = (env j).typ X ∧ (env j).ver m = (env j).ver X ∧
    (env j).integ m = (env j).integ X ∧ (env j).auth m = (env j).auth X := by
  have hl : 16 ≤ imageBytes cfg X := Nat.le_add_right 16 _
  have h4 : le32 m 4 = le32 X 4 := by
    unfold le32
    rw [h 4 (by omega), h (4 + 1) (by omega), h (4 + 2) (by omega), h (4 + 3) (by omega)]
  refine ⟨?_, ?_, ?_, ?_⟩
  · simp only [env, le16]; rw [h 12 (by omega), h (12 + 1) (by omega)]
  · simp only [env]; rw [h 8 (by omega)]
  · simp only [env, h4]
    rw [Bool.eq_iff_iff]
    simp only [List.all_eq_true, List.mem_range]
    constructor
    · intro hh i hi
      have := hh i hi
      rw [h (16 + i) (by show 16 + i < 16 + le32 X 4; omega), h 9 (by omega)] at this
      exact this
    · intro hh i hi
      rw [h (16 + i) (by show 16 + i < 16 + le32 X 4; omega), h 9 (by omega)]
      exact hh i hi
  · simp only [env]; rw [h 10 (by omega)]

theorem good_old (j : Byte := 0#8) : GoodImage cfg (env j) old :=
  ⟨by decide, by decide, by decide, by show le16 old 12 % 16 = 1 ∧ le16 old 12 / 256 % 256 = 2; decide,
    by show (List.all _ _) = true; decide, by show (_ == _) = true; decide, env_loc j old⟩

theorem good_new (j : Byte := 0#8) : GoodImage cfg (env j) new :=
  ⟨by decide, by decide, by decide, by show le16 new 12 % 16 = 1 ∧ le16 new 12 / 256 % 256 = 2; decide,
    by show (List.all _ _) = true; decide, by show (_ == _) = true; decide, env_loc j new⟩

theorem holds_of {f : Flash} {p : Part} {X : Mem} (h : eqUpto f p X (imageBytes cfg X) = true) :
    Holds cfg f p X := by
  intro o ho
  unfold eqUpto at h
  rw [List.all_eq_true] at h
  simpa using h o (List.mem_range.mpr ho)

theorem pending_ok : Pending cfg old new pending :=
  ⟨holds_of (by decide), holds_of (by decide), by decide, by decide, by unfold Quiet; decide⟩

/-- `new` installed and not yet confirmed, `old` in UPDATE. -/
def updated : Flash := flash new (some ST_TESTING) old none

theorem erased_of {f : Flash} (h : ∀ x, x < 96 → 64 ≤ x → f .update x = 0x00#8) :
    ∀ x, cfg.part - cfg.ss ≤ x → x < cfg.part → f .update x = 0x00#8 :=
  fun x h1 h2 => h x h2 h1

theorem updated_ok : Updated cfg new old updated :=
  ⟨holds_of (by decide), holds_of (by decide), by decide, erased_of (by decide),
    by unfold Quiet; decide⟩

/-- Flash after a power failure. -/
def crashFl {α} (r : Res α) : Flash :=
  match r with
  | .crash f => f
  | .ok _ w => w.fl
  | .panic f => f
  | .stuck f => f
  | .fault f => f

def isCrash {α} (r : Res α) : Bool := crashAnd r (fun _ => true)

theorem isCrash_eq {α} {r : Res α} (h : isCrash r = true) : r = .crash (crashFl r) := by
  cases r with
  | crash g => rfl
  | _ => exact absurd h (by simp [isCrash, crashAnd])

/-- A run that completes, by evaluation. -/
theorem ok_of {α} {r : Res α} {p : Flash → Bool} (h : okAnd r p = true) :
    ∃ a w, r = .ok a w ∧ p w.fl = true := by
  cases r with
  | ok a w => exact ⟨a, w, rfl, h⟩
  | _ => exact absurd h (by simp [okAnd])

/-- Power failure at operation 9 of the installation of `new`, leaving zero bytes. -/
def cut1 : Flash := crashFl (bootFail cfg env pending 9 (fun _ => 0#8))

/-- ... and again at operation 12 of the next reboot, leaving 0x77 bytes. -/
def cut2 : Flash := crashFl (bootFail cfg env cut1 12 (fun _ => 0x77#8))

/-- The same for the rollback. -/
def back1 : Flash := crashFl (bootFail cfg env updated 9 (fun _ => 0#8))

end Verif.Inv.Demo
