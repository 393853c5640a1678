import Verif.Swap

/-!
# Specification vocabulary for updates

Definitions used in the statements of the update properties (C01-C08). They talk about the
contents of the partitions, the results of the public API functions
(`wolfBoot_get_partition_state`, `wolfBoot_get_update_sector_flag`) and about runs of
`wolfBoot_start`; they do not refer to the proof's invariants.
-/

namespace Verif

/-- Number of bytes of an image, header included. The size field is at offset 4
(`/repo/src/image.c:1128-1132`). -/
def imageBytes (c : Cfg) (X : Mem) : Nat := c.h + le32 X 4

/-- Partition `p` holds every byte of image `X`. -/
def Holds (c : Cfg) (f : Flash) (p : Part) (X : Mem) : Prop :=
  ∀ o, o < imageBytes c X → f p o = X o

/-- A correctly signed application image that fits in front of the trailer sector. `loc`: the
verdict of the checks depends on the bytes of the image only. -/
structure GoodImage (c : Cfg) (e : Env) (X : Mem) : Prop where
  magic : le32 X 0 = MAGIC
  nonempty : 0 < le32 X 4
  fits : imageBytes c X ≤ c.part - c.ss
  type : e.typ X % 16 = 1 ∧ e.typ X / 256 % 256 = e.authType
  digest : e.integ X = true
  signature : e.auth X = true
  loc : ∀ m : Mem, (∀ o, o < imageBytes c X → m o = X o) →
    e.typ m = e.typ X ∧ e.ver m = e.ver X ∧ e.integ m = e.integ X ∧ e.auth m = e.auth X

/-- Neither partition contains the word "BOOT" at the offset where
`wolfBoot_swap_and_final_erase` looks for it (`/repo/src/update_flash.c:253-273`). -/
def Quiet (c : Cfg) (f : Flash) : Prop :=
  le32 (f .boot) c.tmp ≠ MAGIC_TRAIL ∧ le32 (f .update) c.tmp ≠ MAGIC_TRAIL

/-- `Old` is installed, `New` is in UPDATE and its installation has been requested. -/
structure Pending (c : Cfg) (Old New : Mem) (f : Flash) : Prop where
  old : Holds c f .boot Old
  new : Holds c f .update New
  state : getState c f .update = some ST_UPDATING
  flags : ∀ j, j < c.n - 1 → getFlag c f j = some FL_NEW
  quiet : Quiet c f

/-- `New` is installed, to be confirmed; `Old` is in UPDATE; no request is pending. -/
structure Updated (c : Cfg) (New Old : Mem) (f : Flash) : Prop where
  new : Holds c f .boot New
  old : Holds c f .update Old
  state : getState c f .boot = some ST_TESTING
  erased : ∀ x, c.part - c.ss ≤ x → x < c.part → f .update x = 0xFF#8
  quiet : Quiet c f

/-- A reboot during which the power does not fail. (The torn bytes are irrelevant.) -/
def bootUp (c : Cfg) (e : Env) (f : Flash) : Res Unit :=
  start c e { fl := f, locked := true, budget := none, torn := fun _ => 0#8 }

/-- A reboot during which the power fails at flash operation number `n`, leaving `t` behind. -/
def bootFail (c : Cfg) (e : Env) (f : Flash) (n : Nat) (t : Mem) : Res Unit :=
  start c e { fl := f, locked := true, budget := some n, torn := t }

/-- `Interrupted c e P f g`: `g` is reached from `f` by any number of reboots, each of them ended
by a power failure; all flash contents in between and `g` satisfy `P`. -/
inductive Interrupted (c : Cfg) (e : Env) (P : Flash → Prop) (f : Flash) : Flash → Prop
  | none : Interrupted c e P f f
  | again {g g' : Flash} {n : Nat} {t : Mem} : Interrupted c e P f g → TornOK c MAGIC_TRAIL t →
      bootFail c e g n t = .crash g' → P g' → Interrupted c e P f g'

end Verif
