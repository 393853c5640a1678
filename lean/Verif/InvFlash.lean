import Verif.Basic

/-!
# Flash memory, power failures, and a crash Hoare logic: build with `WOLFBOOT_FLAGS_INVERT`

The bootloader drives NOR flash through `hal_flash_erase` / `hal_flash_write`
(`/repo/include/image.h:927-935`, `wb_flash_erase`, `wb_flash_write` for internal flash;
behaviour as documented by the simulator HAL, `/repo/hal/sim.c:160-207`):
with `WOLFBOOT_FLAGS_INVERT`, erasing sets every byte to `0x00` (`FLASH_BYTE_ERASED`,
`/repo/include/wolfboot/wolfboot.h:325`, sim.c:205), programming can only set bits (`|=`, sim.c:181-182),
and both are refused while the flash is locked. Otherwise as `Verif.Flash`.

A power failure can hit *during* any flash operation. `World.budget = some n` means that the
power fails during the operation number `n` (counted from 0) of the current boot; `none` means
that it does not fail. What a torn operation leaves behind is described by `tornErase` and
`tornProgram`.
-/

namespace Verif.Inv

/-- Build-time geometry (`/repo/include/target.h.in`, `/repo/include/wolfboot/wolfboot.h:48-54`). -/
structure Cfg where
  /-- `WOLFBOOT_SECTOR_SIZE` -/
  ss : Nat
  /-- number of sectors of the BOOT and of the UPDATE partition -/
  n : Nat
  /-- `IMAGE_HEADER_SIZE` -/
  h : Nat
  /-- `FLASHBUFFER_SIZE` -/
  fb : Nat
  /-- The flash refuses to program a byte if a bit would have to change from 1 to 0 (as flash
  with ECC or a program-verify step does); if `false`, such a write silently yields the bitwise
  OR (`/repo/hal/sim.c:160-189`). Theorems hold for both. -/
  strict : Bool := false

/-- `WOLFBOOT_PARTITION_SIZE`. -/
def Cfg.part (c : Cfg) : Nat := c.n * c.ss

/-- Offset of the last sector, which holds the trailer (flags). -/
def Cfg.last (c : Cfg) : Nat := (c.n - 1) * c.ss

/-- `tmpBootPos`, `/repo/src/update_flash.c:253-254` (without `NVM_FLASH_WRITEONCE`). -/
def Cfg.tmp (c : Cfg) : Nat := (c.n - 2) * c.ss

/-- Partitions (`PART_BOOT`, `PART_UPDATE`, `PART_SWAP`, `/repo/include/image.h`). -/
inductive Part where
  | boot | update | swap
deriving DecidableEq, Repr

/-- Contents of all partitions, addressed by offset from the start of the partition. -/
abbrev Flash := Part → Mem

/-- The bytes `[off, off+len)` of partition `p` set to the erased value. `/repo/hal/sim.c:191-207` -/
def Flash.erase (f : Flash) (p : Part) (off len : Nat) : Flash :=
  fun q a => if q = p ∧ off ≤ a ∧ a < off + len then 0x00#8 else f q a

/-- Programming: bits can only be set. `/repo/hal/sim.c:160-189`. `d i` is the byte
written to offset `off + i`. -/
def Flash.program (f : Flash) (p : Part) (off len : Nat) (d : Nat → Byte) : Flash :=
  fun q a => if q = p ∧ off ≤ a ∧ a < off + len then f q a ||| d (a - off) else f q a

/-- Result of a power failure during an erase: the region holds arbitrary bytes `t`. The erase
of the UPDATE trailer sector is assumed to be atomic (see DESIGN.md, finding on torn trailer
erase); so the failure happens before it. -/
def Flash.tornErase (c : Cfg) (t : Mem) (f : Flash) (p : Part) (off len : Nat) : Flash :=
  if p = .update ∧ c.last < off + len then f
  else fun q a => if q = p ∧ off ≤ a ∧ a < off + len then t a else f q a

/-- Result of a power failure during programming: in the data area the region holds arbitrary
bytes; in the trailer sector every bit that should have been set is or is not set. -/
def Flash.tornProgram (c : Cfg) (t : Mem) (f : Flash) (p : Part) (off len : Nat)
    (d : Nat → Byte) : Flash :=
  fun q a => if q = p ∧ off ≤ a ∧ a < off + len then
      (if p ≠ .swap ∧ c.last ≤ a then f q a ||| (d (a - off) &&& t a) else t a)
    else f q a

/-- State of the machine during one boot. -/
structure World where
  fl : Flash
  /-- flash lock (`hal_flash_unlock` / `hal_flash_lock`), `/repo/hal/sim.c:141-149` -/
  locked : Bool
  /-- number of flash operations until the power fails -/
  budget : Option Nat
  /-- what a torn operation leaves in the flash -/
  torn : Mem

/-- Outcome of running a piece of bootloader code. `panic` is `wolfBoot_panic()`, `stuck` is a
loop that does not terminate, `fault` is an attempt to clear a bit by programming (only reported if
`Cfg.strict`). -/
inductive Res (α : Type) where
  | ok (a : α) (w : World)
  | crash (f : Flash)
  | panic (f : Flash)
  | stuck (f : Flash)
  | fault (f : Flash)

/-- Bootloader code: state, power failure, panic. -/
def M (α : Type) := World → Res α

namespace M

def pure {α} (a : α) : M α := fun w => .ok a w

def bind {α β} (m : M α) (k : α → M β) : M β := fun w =>
  match m w with
  | .ok a w' => k a w'
  | .crash f => .crash f
  | .panic f => .panic f
  | .stuck f => .stuck f
  | .fault f => .fault f

instance : Monad M where
  pure := pure
  bind := bind

end M

/-- Read the whole flash (memory mapped reads). -/
def readFlash : M Flash := fun w => .ok w.fl w

/-- `hal_flash_unlock()` (and `ext_flash_unlock()`). -/
def unlock : M Unit := fun w => .ok () { w with locked := false }

/-- `hal_flash_lock()` (and `ext_flash_lock()`). -/
def lock : M Unit := fun w => .ok () { w with locked := true }

/-- `wolfBoot_panic()`. -/
def panicM {α} : M α := fun w => .panic w.fl

/-- A loop that runs forever. -/
def stuckM {α} : M α := fun w => .stuck w.fl

/-- One flash operation: power failure, refused by the lock, or executed.
`/repo/hal/sim.c:160-207` -/
def flashOp (op tornOp : Mem → Flash → Flash) : M Unit := fun w =>
  match w.budget with
  | some 0 => if w.locked then .crash w.fl else .crash (tornOp w.torn w.fl)
  | some (k + 1) =>
    .ok () { w with fl := if w.locked then w.fl else op w.torn w.fl, budget := some k }
  | none => .ok () { w with fl := if w.locked then w.fl else op w.torn w.fl }

/-- `wb_flash_erase(img, off, len)`, `/repo/include/image.h:881-888,930-931`. -/
def erase (c : Cfg) (p : Part) (off len : Nat) : M Unit :=
  flashOp (fun _ f => f.erase p off len) (fun t f => f.tornErase c t p off len)

/-- `wb_flash_write(img, off, data, len)`, `/repo/include/image.h:890-897,932-933`. -/
def program (c : Cfg) (p : Part) (off len : Nat) (d : Nat → Byte) : M Unit := fun w =>
  if c.strict = true ∧ w.locked = false ∧ ¬ ∀ i, i < len → w.fl p (off + i) ||| d i = d i then
    .fault w.fl
  else flashOp (fun _ f => f.program p off len d) (fun t f => f.tornProgram c t p off len d) w

/-- A point where the power can fail without any flash operation being in progress (used right
before `do_boot`, so that "power lost after the bootloader's last operation, before the
application runs" is among the modelled executions). -/
def tick : M Unit := flashOp (fun _ f => f) (fun _ f => f)

/-! ## Crash Hoare logic -/

/-- The arbitrary bytes left by a torn operation do not happen to be the magic word that the code
looks for at offset `tmp` of BOOT (`/repo/src/update_flash.c:273`); and in the byte of the trailer
that holds the state (`/repo/src/libwolfboot.c:451-487`), the two bits by which the states
`IMG_STATE_UPDATING` (0x8F) and `IMG_STATE_FINAL_FLAGS` (0xBF) differ
(`/repo/include/wolfboot/wolfboot.h:321-323`) are programmed together or not at all. The second part
is needed in this build only: the two states differ in one bit otherwise
(`InvThms.torn_final` shows what happens without it). -/
def TornOK (c : Cfg) (magic : Nat) (t : Mem) : Prop :=
  le32 t c.tmp ≠ magic ∧ (t (c.part - 5) &&& 0x30#8 = 0x00#8 ∨ t (c.part - 5) &&& 0x30#8 = 0x30#8)

/-- `Triple T l P m l' Q C`: started with lock state `l` in flash state `P`, with torn bytes
satisfying `T`: if `m` completes, the lock state is `l'` and `Q` holds; if the power fails, `C`
holds of the flash; it never panics, never loops forever and never tries to clear a bit by
programming. -/
def Triple {α} (T : Mem → Prop) (l : Bool) (P : Flash → Prop) (m : M α) (l' : Bool)
    (Q : α → Flash → Prop) (C : Flash → Prop) : Prop :=
  ∀ w : World, T w.torn → w.locked = l → P w.fl →
    match m w with
    | .ok a w' => w'.locked = l' ∧ w'.torn = w.torn ∧ (w.budget = none → w'.budget = none) ∧
        Q a w'.fl
    | .crash f => w.budget ≠ none ∧ C f
    | .panic _ => False
    | .stuck _ => False
    | .fault _ => False

namespace Triple

variable {α β : Type} {T : Mem → Prop} {l l' l'' : Bool} {P P' : Flash → Prop}
  {Q Q' : α → Flash → Prop} {C C' : Flash → Prop}

theorem pure (a : α) : Triple T l (Q a) (Pure.pure a : M α) l Q C := by
  intro w hT hl hP
  exact ⟨hl, rfl, id, hP⟩

theorem bind {m : M α} {k : α → M β} {R : β → Flash → Prop}
    (h1 : Triple T l P m l' Q C) (h2 : ∀ a, Triple T l' (Q a) (k a) l'' R C) :
    Triple T l P (m >>= k) l'' R C := by
  intro w hT hl hP
  have h := h1 w hT hl hP
  change (match M.bind m k w with
    | .ok a w' => _ | .crash f => _ | .panic _ => _ | .stuck _ => _ | .fault _ => _)
  unfold M.bind
  cases hm : m w with
  | ok a w' =>
    rw [hm] at h
    obtain ⟨ha, hb, hc, hd⟩ := h
    have h' := h2 a w' (by rw [hb]; exact hT) ha hd
    dsimp only
    cases hk : k a w' with
    | ok b w'' =>
      rw [hk] at h'
      obtain ⟨h1, h2, h3, h4⟩ := h'
      exact ⟨h1, by rw [h2, hb], fun h => h3 (hc h), h4⟩
    | crash f =>
      rw [hk] at h'
      exact ⟨fun h => h'.1 (hc h), h'.2⟩
    | panic f => rw [hk] at h'; exact h'
    | stuck f => rw [hk] at h'; exact h'
    | fault f => rw [hk] at h'; exact h'
  | crash f => rw [hm] at h; exact h
  | panic f => rw [hm] at h; exact h
  | stuck f => rw [hm] at h; exact h
  | fault f => rw [hm] at h; exact h

theorem conseq {m : M α} (h : Triple T l P m l' Q C) (hP : ∀ f, P' f → P f)
    (hQ : ∀ a f, Q a f → Q' a f) (hC : ∀ f, C f → C' f) : Triple T l P' m l' Q' C' := by
  intro w hT hl hP'
  have h := h w hT hl (hP _ hP')
  cases hm : m w with
  | ok a w' => rw [hm] at h; exact ⟨h.1, h.2.1, h.2.2.1, hQ _ _ h.2.2.2⟩
  | crash f => rw [hm] at h; exact ⟨h.1, hC _ h.2⟩
  | panic f => rw [hm] at h; exact h
  | stuck f => rw [hm] at h; exact h
  | fault f => rw [hm] at h; exact h

theorem pre {m : M α} (h : Triple T l P m l' Q C) (hP : ∀ f, P' f → P f) :
    Triple T l P' m l' Q C := h.conseq hP (fun _ _ h => h) (fun _ h => h)

/-- Fix the initial flash. -/
theorem ofEq {m : M α} (h : ∀ f, P f → Triple T l (fun g => g = f) m l' Q C) :
    Triple T l P m l' Q C := by
  intro w hT hl hP
  exact h w.fl hP w hT hl rfl

theorem false_pre {m : M α} (h : ∀ f, ¬ P f) : Triple T l P m l' Q C :=
  fun w _ _ hP => absurd hP (h w.fl)

theorem readFlash {k : Flash → M α}
    (h : ∀ f, P f → Triple T l (fun g => g = f) (k f) l' Q C) :
    Triple T l P (Verif.Inv.readFlash >>= k) l' Q C := by
  intro w hT hl hP
  exact h w.fl hP w hT hl rfl

theorem unlock : Triple T l P Verif.Inv.unlock false (fun _ f => P f) C := by
  intro w hT hl hP
  exact ⟨rfl, rfl, id, hP⟩

theorem lock : Triple T l P Verif.Inv.lock true (fun _ f => P f) C := by
  intro w hT hl hP
  exact ⟨rfl, rfl, id, hP⟩

theorem flashOp {op tornOp : Mem → Flash → Flash} {Q : Unit → Flash → Prop}
    (hQ : ∀ t f, T t → P f → Q () (op t f)) (hC : ∀ t f, T t → P f → C (tornOp t f)) :
    Triple T false P (Verif.Inv.flashOp op tornOp) false Q C := by
  rintro ⟨fl, locked, budget, torn⟩ hT hl hP
  dsimp only at hT hl hP
  subst hl
  rcases budget with _ | _ | k
  · exact ⟨rfl, rfl, id, hQ _ _ hT hP⟩
  · exact ⟨by simp, hC _ _ hT hP⟩
  · exact ⟨rfl, rfl, by simp, hQ _ _ hT hP⟩

theorem erase {c : Cfg} {p : Part} {off len : Nat} {Q : Unit → Flash → Prop}
    (hQ : ∀ f, P f → Q () (f.erase p off len))
    (hC : ∀ t f, T t → P f → C (f.tornErase c t p off len)) :
    Triple T false P (Verif.Inv.erase c p off len) false Q C :=
  flashOp (fun _ f _ h => hQ f h) hC

theorem program {c : Cfg} {p : Part} {off len : Nat} {d : Nat → Byte} {Q : Unit → Flash → Prop}
    (hN : ∀ f, P f → ∀ i, i < len → f p (off + i) ||| d i = d i)
    (hQ : ∀ f, P f → Q () (f.program p off len d))
    (hC : ∀ t f, T t → P f → C (f.tornProgram c t p off len d)) :
    Triple T false P (Verif.Inv.program c p off len d) false Q C := by
  intro w hT hl hP
  unfold Verif.Inv.program
  rw [if_neg (fun h => h.2.2 (hN _ hP))]
  exact flashOp (P := P) (fun _ f _ h => hQ f h) hC w hT hl hP

theorem tick (hC : ∀ f, P f → C f) : Triple T l P Verif.Inv.tick l (fun _ f => P f) C := by
  rintro ⟨fl, locked, budget, torn⟩ hT hl hP
  dsimp only at hT hl hP
  subst hl
  rcases budget with _ | _ | k <;> cases locked
  · exact ⟨rfl, rfl, id, hP⟩
  · exact ⟨rfl, rfl, id, hP⟩
  · exact ⟨by simp, hC _ hP⟩
  · exact ⟨by simp, hC _ hP⟩
  · exact ⟨rfl, rfl, by simp, hP⟩
  · exact ⟨rfl, rfl, by simp, hP⟩

theorem ite {b : Prop} [Decidable b] {m1 m2 : M α}
    (h1 : b → Triple T l P m1 l' Q C) (h2 : ¬ b → Triple T l P m2 l' Q C) :
    Triple T l P (if b then m1 else m2) l' Q C := by
  split
  · exact h1 ‹_›
  · exact h2 ‹_›

end Triple

end Verif.Inv
