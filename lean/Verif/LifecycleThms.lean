import Verif.LifecycleLemmas
import Verif.Demo

/-!
# Device life cycle: C07, C10
-/

namespace Verif
open Demo

/-- The device is off (between two boots) or running the application. -/
inductive Sys where
  | off (f : Flash)
  | app (f : Flash)

/-- Steps of the life cycle. The application runs after `wolfBoot_start` has handed over control; it
may write UPDATE (except for the trailer sector, which belongs to the library), and call
`wolfBoot_update_trigger` and `wolfBoot_success`, at any time and in any order. Power can fail at any
flash operation of the bootloader and of the library. -/
inductive Step (c : Cfg) (e : Env) : Sys → Sys → Prop
  /-- the bootloader completes -/
  | boot {f : Flash} {w' : World} (b : Option Nat) (t : Mem) : TornOK c MAGIC_TRAIL t →
      start c e ⟨f, true, b, t⟩ = .ok () w' → Step c e (.off f) (.app w'.fl)
  /-- power failure in the bootloader -/
  | bootCut {f g : Flash} (n : Nat) (t : Mem) : TornOK c MAGIC_TRAIL t →
      start c e ⟨f, true, some n, t⟩ = .crash g → Step c e (.off f) (.off g)
  /-- reset or power failure while the application runs -/
  | reset {f : Flash} : Step c e (.app f) (.off f)
  /-- the application writes any bytes to UPDATE -/
  | write {f g : Flash} : g .boot = f .boot → (∀ x, c.part - c.ss ≤ x → g .update x = f .update x) →
      le32 (g .update) c.tmp ≠ MAGIC_TRAIL → Step c e (.app f) (.app g)
  | trigger {f : Flash} {w' : World} (whole : Bool) (b : Option Nat) (t : Mem) :
      updateTrigger c whole ⟨f, true, b, t⟩ = .ok () w' → Step c e (.app f) (.app w'.fl)
  | triggerCut {f g : Flash} (whole : Bool) (n : Nat) (t : Mem) :
      updateTrigger c whole ⟨f, true, some n, t⟩ = .crash g → Step c e (.app f) (.off g)
  | confirm {f : Flash} {w' : World} (b : Option Nat) (t : Mem) :
      success c ⟨f, true, b, t⟩ = .ok () w' → Step c e (.app f) (.app w'.fl)
  | confirmCut {f g : Flash} (n : Nat) (t : Mem) :
      success c ⟨f, true, some n, t⟩ = .crash g → Step c e (.app f) (.off g)

/-- Any finite history. -/
inductive History (c : Cfg) (e : Env) (s0 : Sys) : Sys → Prop
  | nil : History c e s0 s0
  | snoc {s s' : Sys} : History c e s0 s → Step c e s s' → History c e s0 s'

/-- Delivery state: image `X` in BOOT, trailers erased (or BOOT trailer with its magic). -/
structure Delivered (c : Cfg) (X : Mem) (f : Flash) : Prop where
  holds : Holds c f .boot X
  quiet : Quiet c f
  erasedU : ∀ x, c.part - c.ss ≤ x → x < c.part → f .update x = 0xFF#8
  bootTrailer : getState c f .boot ≠ none ∨
    ∀ x, c.part - 4 ≤ x → x < c.part → f .boot x = 0xFF#8

theorem Delivered.idleL {c : Cfg} {e : Env} (w : c.WF) {X : Mem} {f : Flash} (hX : GoodImage c e X)
    (h : Delivered c X f) : IdleL c e f := by
  have hss := w.ss_pos
  have hn := w.n512
  have hff := w.flags_fit
  have hpe := w.part_eq
  have htb := trailer_bounds w (k := 1) (by omega)
  have htb0 := trailer_bounds w (k := 0) (by omega)
  refine ⟨X, hX, ⟨holds_iff.mp h.holds, h.quiet.1, h.quiet.2, ?_, ?_, ?_⟩, ?_⟩
  · intro j hj
    have : flagPos j ≤ c.n / 2 := by rw [flagPos_lt (by omega)]; omega
    have := trailer_bounds w (k := 2 + flagPos j) (by omega)
    unfold rawFlag
    rw [h.erasedU _ (by omega) (by omega)]
    exact nib_ff j
  · intro i hi
    rw [h.erasedU _ (by omega) (by omega)]
    exact BitVec.allOnes_and
  · rw [h.erasedU _ (by omega) (by omega)]; decide
  · rcases h.bootTrailer with h | h
    · refine hasMagic.magicP ?_
      apply Classical.byContradiction
      intro hn
      exact h (by unfold getState; rw [if_neg hn])
    · intro i hi
      rw [h _ (by omega) (by omega)]
      exact BitVec.allOnes_and

theorem history_inv {c : Cfg} {e : Env} (w : c.WF)
    (hs : ∀ m, acceptable c e m → GoodImage c e m) (hj : e.junk ≠ ST_FINAL) {X : Mem} {f0 : Flash}
    (hX : GoodImage c e X) (h0 : Delivered c X f0) {s : Sys} (h : History c e (.off f0) s) :
    (∀ f, s = .off f → OffL c e f) ∧ (∀ f, s = .app f → IdleL c e f) := by
  induction h with
  | nil =>
    refine ⟨fun f hf => ?_, fun f hf => by simp at hf⟩
    cases hf
    exact Or.inl (h0.idleL w hX)
  | snoc _ hst ih =>
    cases hst with
    | boot b t ht hr =>
      refine ⟨fun f hf => by simp at hf, fun f hf => ?_⟩
      cases hf
      have := startL_spec w hs hj (ih.1 _ rfl) ⟨_, true, b, t⟩ ht rfl rfl
      rw [hr] at this
      exact this.2.2.2
    | bootCut n t ht hr =>
      refine ⟨fun f hf => ?_, fun f hf => by simp at hf⟩
      cases hf
      have := startL_spec w hs hj (ih.1 _ rfl) ⟨_, true, some n, t⟩ ht rfl rfl
      rw [hr] at this
      exact this.2
    | reset =>
      refine ⟨fun f hf => ?_, fun f hf => by simp at hf⟩
      cases hf
      exact Or.inl (ih.2 _ rfl)
    | write hb hu hq =>
      refine ⟨fun f hf => by simp at hf, fun f hf => ?_⟩
      cases hf
      exact writeL w (ih.2 _ rfl) hb (by rw [← last_part w]; exact hu) hq
    | trigger whole b t hr =>
      refine ⟨fun f hf => by simp at hf, fun f hf => ?_⟩
      cases hf
      have := triggerL_spec w (T := fun _ => True) (l := true) whole (ih.2 _ rfl) ⟨_, true, b, t⟩
        trivial rfl rfl
      rw [hr] at this
      exact this.2.2.2
    | triggerCut whole n t hr =>
      refine ⟨fun f hf => ?_, fun f hf => by simp at hf⟩
      cases hf
      have := triggerL_spec w (T := fun _ => True) (l := true) whole (ih.2 _ rfl)
        ⟨_, true, some n, t⟩ trivial rfl rfl
      rw [hr] at this
      exact Or.inl this.2
    | confirm b t hr =>
      refine ⟨fun f hf => by simp at hf, fun f hf => ?_⟩
      cases hf
      have := successL_spec w (T := fun _ => True) (l := true) (ih.2 _ rfl) ⟨_, true, b, t⟩
        trivial rfl rfl
      rw [hr] at this
      exact this.2.2.2
    | confirmCut n t hr =>
      refine ⟨fun f hf => ?_, fun f hf => by simp at hf⟩
      cases hf
      have := successL_spec w (T := fun _ => True) (l := true) (ih.2 _ rfl)
        ⟨_, true, some n, t⟩ trivial rfl rfl
      rw [hr] at this
      exact Or.inl this.2

/-- **C07.** After every history of application actions and interrupted or completed reboots, an
uninterrupted reboot hands over control to an image in BOOT that verifies; it never panics, hangs or
faults. (The application may even write UPDATE while an update is pending or under test.)

Partial: images that verify are assumed to fit in front of the trailer sector (C08 shows that the
bootloader does not check this) and the verdict must depend on the image bytes only (`hs`, proved
for the image format in `Verif.Image`); the word "BOOT" must not occur at offset `c.tmp` (C01); the
uninitialised byte of C12 is not 0x30; torn erases of the UPDATE trailer sector are atomic. -/
theorem lifecycle_never_bricks_partial {c : Cfg} {e : Env} (w : c.WF)
    (hs : ∀ m, acceptable c e m → GoodImage c e m) (hj : e.junk ≠ ST_FINAL) {X : Mem} {f0 : Flash}
    (hX : GoodImage c e X) (h0 : Delivered c X f0) {f : Flash} (h : History c e (.off f0) (.off f)) :
    ∃ w', bootUp c e f = .ok () w' ∧ w'.locked = true ∧ le32 (w'.fl .boot) 0 = MAGIC ∧
      e.integ (w'.fl .boot) = true ∧ e.auth (w'.fl .boot) = true := by
  have hI := (history_inv w hs hj hX h0 h).1 f rfl
  obtain ⟨w', h1, h2, X, hX, hI, _⟩ := bootUp_of (startL_spec w hs hj hI)
  refine ⟨w', h1, h2, ?_⟩
  have := (bootable_congr w (hX.newOK w).loc hI.boot).mpr ((hX.newOK w).bootable w)
  exact ⟨this.1.1, this.2.1, this.2.2⟩

/-- **C10.** In every history, no execution of the bootloader or of the two library functions tries
to change a bit from 0 to 1 by programming: with a flash that rejects such writes
(`c.strict = true`), the rejection never happens, whether or not the power fails.

Partial: guards of C07; the inverted encoding is treated by `inverted_transitions_set_bits`. -/
theorem no_bit_set_by_programming_partial {c : Cfg} {e : Env} (w : c.WF) (_strict : c.strict = true)
    (hs : ∀ m, acceptable c e m → GoodImage c e m) (hj : e.junk ≠ ST_FINAL) {X : Mem} {f0 : Flash}
    (hX : GoodImage c e X) (h0 : Delivered c X f0) (b : Option Nat) (t : Mem)
    (ht : TornOK c MAGIC_TRAIL t) (f g : Flash) :
    (History c e (.off f0) (.off f) → start c e ⟨f, true, b, t⟩ ≠ .fault g) ∧
    (History c e (.off f0) (.app f) → (∀ whole, updateTrigger c whole ⟨f, true, b, t⟩ ≠ .fault g) ∧
      success c ⟨f, true, b, t⟩ ≠ .fault g) := by
  refine ⟨fun h hr => ?_, fun h => ⟨fun whole hr => ?_, fun hr => ?_⟩⟩
  · have := startL_spec w hs hj ((history_inv w hs hj hX h0 h).1 f rfl) ⟨f, true, b, t⟩ ht rfl rfl
    rw [hr] at this; exact this
  · have := triggerL_spec w (T := fun _ => True) (l := true) whole ((history_inv w hs hj hX h0 h).2 f rfl)
      ⟨f, true, b, t⟩ trivial rfl rfl
    rw [hr] at this; exact this
  · have := successL_spec w (T := fun _ => True) (l := true) ((history_inv w hs hj hX h0 h).2 f rfl)
      ⟨f, true, b, t⟩ trivial rfl rfl
    rw [hr] at this; exact this

/-! ### Non-vacuity -/

/-- Device whose checks accept only images that fit. -/
def lifeEnv : Env := { env with auth := fun m => m 10 == 0x5A#8 && decide (le32 m 0 = MAGIC ∧ 0 < le32 m 4 ∧ le32 m 4 ≤ 48) }

theorem lifeEnv_signed : ∀ m, acceptable cfg lifeEnv m → GoodImage cfg lifeEnv m := by
  rintro m ⟨h1, h2, h3, h4⟩
  have h4' : m 10 = 0x5A#8 ∧ le32 m 0 = MAGIC ∧ 0 < le32 m 4 ∧ le32 m 4 ≤ 48 := by
    simpa [lifeEnv] using h4
  refine ⟨h4'.2.1, h4'.2.2.1, ?_, h1, h3, h4, ?_⟩
  · show 16 + le32 m 4 ≤ 64
    omega
  · intro x hx
    obtain ⟨e1, e2, e3, e4⟩ := env_loc 0#8 m x hx
    have hl : 16 ≤ imageBytes cfg m := Nat.le_add_right 16 _
    have l0 : le32 x 0 = le32 m 0 := by
      unfold le32
      rw [hx 0 (by omega), hx (0 + 1) (by omega), hx (0 + 2) (by omega), hx (0 + 3) (by omega)]
    have l4 : le32 x 4 = le32 m 4 := by
      unfold le32
      rw [hx 4 (by omega), hx (4 + 1) (by omega), hx (4 + 2) (by omega), hx (4 + 3) (by omega)]
    refine ⟨e1, e2, e3, ?_⟩
    show (x 10 == 0x5A#8 && decide (le32 x 0 = MAGIC ∧ 0 < le32 x 4 ∧ le32 x 4 ≤ 48)) =
      (m 10 == 0x5A#8 && decide (le32 m 0 = MAGIC ∧ 0 < le32 m 4 ∧ le32 m 4 ≤ 48))
    rw [l0, l4, hx 10 (by omega)]

/-- Device as delivered. -/
def delivered : Flash := flash old none (fun _ => 0xFF#8) none

theorem delivered_ok : Delivered cfg old delivered :=
  ⟨holds_of (by decide), by unfold Quiet; decide, erased_of (by decide),
    Or.inr (fun x h1 h2 => by
      have h1' : 92 ≤ x := h1
      have h2' : x < 96 := h2
      show (if x < 64 then _ else 0xFF#8) = 0xFF#8
      rw [if_neg (by omega)])⟩

/-- The application writes `new`, requests it; the power fails during the installation. -/
example : ∃ g, History cfg lifeEnv (.off delivered) (.off g) ∧ g .update 0 = 0xFF#8 ∧
    ∃ w', bootUp cfg lifeEnv g = .ok () w' ∧ w'.locked = true ∧ le32 (w'.fl .boot) 0 = MAGIC ∧
      lifeEnv.integ (w'.fl .boot) = true ∧ lifeEnv.auth (w'.fl .boot) = true := by
  have hg : GoodImage cfg lifeEnv old := lifeEnv_signed old (by decide)
  have hr : ∃ g, History cfg lifeEnv (.off delivered) (.off g) ∧ g .update 0 = 0xFF#8 := by
    obtain ⟨_, w1, h1, p1⟩ := ok_of (r := start cfg lifeEnv ⟨delivered, true, none, fun _ => 0#8⟩)
      (p := fun f => decide (le32 (f .boot) cfg.tmp ≠ MAGIC_TRAIL)) (by decide +kernel)
    have hk := (Triple.conseq (start_idle (T := TT cfg) (l := true) (X := old) (f0 := delivered)
      (e := lifeEnv) (C := fun _ => True) wf (by decide) (by decide) (by decide) (by decide)
      (by rintro ⟨⟨h, _⟩, _⟩; revert h; decide) trivial) (fun _ h => h) (fun _ _ h => h)
      (fun _ h => h)) ⟨delivered, true, none, fun _ => 0#8⟩ (by unfold TT TornOK; decide) rfl rfl
    rw [h1] at hk
    have hw1 : w1.fl = delivered := hk.2.2.2
    have s1 : History cfg lifeEnv (.off delivered) (.app delivered) := by
      have := History.snoc .nil (Step.boot (c := cfg) (e := lifeEnv) none (fun _ => 0#8)
        (by unfold TornOK; decide) h1)
      rw [hw1] at this; exact this
    have s2 : History cfg lifeEnv (.off delivered) (.app (flash old none new none)) := by
      refine s1.snoc (Step.write rfl ?_ (by decide))
      intro x hx
      have hx' : 64 ≤ x := hx
      show (if x < 64 then _ else _) = (if x < 64 then _ else _)
      rw [if_neg (by omega), if_neg (by omega)]
    let r := updateTrigger cfg false ⟨flash old none new none, true, none, fun _ => 0#8⟩
    obtain ⟨_, w2, h2, _⟩ := ok_of (r := r) (p := fun _ => true) (by decide +kernel)
    have s3 := s2.snoc (Step.trigger false none _ h2)
    have s4 := s3.snoc Step.reset
    have e2 : w2.fl = crashFl r := by rw [h2]; rfl
    rw [e2] at s4
    have h3 : isCrash (start cfg lifeEnv ⟨crashFl r, true, some 7, fun _ => 0xFF#8⟩) = true := by
      decide +kernel
    refine ⟨_, s4.snoc (Step.bootCut 7 (fun _ => 0xFF#8) (by unfold TornOK; decide) (isCrash_eq h3)), ?_⟩
    decide +kernel
  obtain ⟨g, h, hp⟩ := hr
  exact ⟨g, h, hp, lifecycle_never_bricks_partial wf lifeEnv_signed (by decide) hg delivered_ok h⟩

/-- The strict flash of C10 does reject: a second request without an erase in between, on a trailer
whose state byte is 0 (never the case in a history). -/
example : (match setState cfgS .update ST_UPDATING ⟨flash old none new (some ST_SUCCESS), false, none,
    fun _ => 0#8⟩ with | .fault _ => true | _ => false) = true := by decide +kernel

/-! ## C10: encodings -/

/-- Transitions of the state and flag bytes made without an erase in between
(`/repo/src/update_flash.c:293,325,727-746`, `/repo/src/libwolfboot.c:735-806`), as pairs of names. -/
def stateTransitions (new updating final testing success : Byte) : List (Byte × Byte) :=
  [(new, updating), (updating, final), (new, final), (new, testing), (new, success),
   (testing, success), (updating, success), (final, success)]

def flagTransitions (new swapping backup updated : Byte) : List (Byte × Byte) :=
  [(new, swapping), (swapping, backup), (backup, updated)]

/-- Normal encoding (`/repo/include/wolfboot/wolfboot.h:307-321`, `/repo/include/image.h:104-108`):
every transition only clears bits. -/
theorem normal_transitions_clear_bits :
    ∀ p ∈ stateTransitions 0xFF#8 0x70#8 0x30#8 0x10#8 0x00#8 ++ flagTransitions 0x0F#8 7#8 3#8 0#8,
      p.1 &&& p.2 = p.2 := by decide

/-- Inverted encoding (`WOLFBOOT_FLAGS_INVERT`, wolfboot.h:322-330, image.h:109-114; erased bytes are
0): every transition only sets bits. -/
theorem inverted_transitions_set_bits :
    ∀ p ∈ stateTransitions 0x00#8 0x8F#8 0xBF#8 0xEF#8 0xFF#8 ++
        flagTransitions 0x00#8 8#8 0x0C#8 0x0F#8,
      p.1 ||| p.2 = p.2 := by decide

/-- In the normal encoding the transition UPDATING → FINAL_FLAGS, which separates the swap from the
final phase, is a single bit: a torn write is the old or the new value. -/
theorem final_transition_atomic :
    ∀ t : Byte, 0x70#8 &&& (0x30#8 ||| t) = 0x70#8 ∨ 0x70#8 &&& (0x30#8 ||| t) = 0x30#8 := by decide

/-- **Finding.** In the inverted encoding it is not (0xBF is not the complement of 0x30): a torn write
can leave a value that is neither UPDATING nor FINAL_FLAGS, so that neither the swap nor the final
phase is resumed. -/
theorem inverted_final_transition_not_atomic :
    ∃ t : Byte, 0x8F#8 ||| (0xBF#8 &&& t) ≠ 0x8F#8 ∧ 0x8F#8 ||| (0xBF#8 &&& t) ≠ 0xBF#8 :=
  ⟨0x10#8, by decide⟩

end Verif
