import Verif.DeltaStart
import Verif.DeltaDemo

/-!
# Delta updates under power failures (C22)
-/

namespace Verif

/-! ## Specification vocabulary -/

/-- The bytes of `m` in front of `t`, erased flash behind. -/
def cutAt (t : Nat) (m : Mem) : Mem := fun x => if x < t then m x else 0xFF#8

/-- The patch that `U` names for direction `inv` is made of literal bytes and references, decodes to at
least the bytes of `Y`, and each reference points to bytes that are available when the sector containing the
output byte is decoded: bytes of `X` from the beginning of this sector on, or bytes of `Y` in front of it. -/
def PatchFor (c : Cfg) (X Y U : Mem) (inv : Bool) : Prop :=
  ∃ off size P, deltaInfo c.h U inv = some (off, size) ∧ 0 < size ∧ off + size ≤ imageBytes c U ∧
    plan (slice U off size) = some P ∧ imageBytes c Y ≤ P.length ∧
    InPlaceAt X Y (imageBytes c X) (imageBytes c Y) c.ss 0 P ∧
    le32 (cutAt P.length Y) c.tmp ≠ MAGIC_TRAIL

/-- The patch that `U` names for direction `inv` was made by the signing tool (`Verif.makePatch`, the model of
the loop around `wb_diff` in `/repo/tools/keytools/sign.c`). -/
def ToolPatch (c : Cfg) (X Y U : Mem) (inv : Bool) : Prop :=
  ∃ off size len, deltaInfo c.h U inv = some (off, size) ∧ off + size ≤ imageBytes c U ∧
    slice U off size = makePatch X Y (imageBytes c X) (imageBytes c Y) c.ss len ∧ 6 < len ∧
    DiffOK Y (imageBytes c X) (imageBytes c Y) c.ss ∧
    ∀ t, imageBytes c Y ≤ t → le32 (cutAt t Y) c.tmp ≠ MAGIC_TRAIL

/-- `U` is a correctly signed delta image made for base `Old` and result `New`. -/
structure DeltaImage (c : Cfg) (e : Env) (d : DCfg) (Old New U : Mem) : Prop where
  old : GoodImage c e Old
  new : GoodImage c e New
  good : GoodImage c e U
  type : isDelta (e.typ U)
  base : diffBase c.h U = e.ver Old ∧ (findHdr U c.h HDR_IMG_DELTA_BASE).len = 4
  version : e.ver U = e.ver New
  newer : 0 < e.ver Old ∧ e.ver Old < e.ver New
  digest : (findHdr U c.h HDR_IMG_DELTA_BASE_HASH).len = 0 ∨ ∃ x : List Byte, x.length = d.dlen ∧
    HasField c.h Old d.shaTag x ∧ HasField c.h U HDR_IMG_DELTA_BASE_HASH x
  block : 6 ≤ d.bk ∧ d.bk ∣ c.ss
  fwd : PatchFor c Old New U false

/-- Torn operations do not write the trailer magic at `tmp`, nor the image magic at 0. -/
def TornNoMagic (c : Cfg) (t : Mem) : Prop := TornOK c MAGIC_TRAIL t ∧ le32 t 0 ≠ MAGIC

/-! ## Lemmas -/

section
variable {c : Cfg} {e : Env} {d : DCfg} {X Y Old New U : Mem}

theorem ToolPatch.patch (w : c.WF) {inv : Bool} (hX : ImgOK c X) (hY : ImgOK c Y) (h : ToolPatch c X Y U inv) :
    PatchFor c X Y U inv := by
  obtain ⟨off, size, len, h1, h2, h3, h4, h5, h6⟩ := h
  obtain ⟨P, p1, p2, p3⟩ := makePatch_spec (a := X) h5 h4
  refine ⟨off, size, P, h1, ?_, h2, by rw [h3]; exact p1, p2, p3, h6 _ p2⟩
  rcases Nat.eq_zero_or_pos size with h | h
  · subst h
    rw [← h3] at p1
    have : slice U off 0 = [] := rfl
    rw [this] at p1
    have hp : plan [] = some [] := by unfold plan; rfl
    rw [hp] at p1
    injection p1 with p1
    rw [← p1, imageBytes_eq] at p2
    have := hY.pos
    unfold imgLen at p2
    simp at p2
    omega
  · exact h

theorem PatchFor.parm (w : c.WF) {inv : Bool} (hX : ImgOK c X) (hY : ImgOK c Y) (hU : ImgOK c U)
    (h6 : 6 ≤ d.bk) (hd : d.bk ∣ c.ss) (h8 : inv = true → 8 ≤ c.fb) (h : PatchFor c X Y U inv) :
    ∃ off size P, DParm c d X Y U inv off size P := by
  obtain ⟨off, size, P, h1, h2, h3, h4, h5, h7, h9⟩ := h
  rw [imageBytes_eq] at h3 h5
  rw [imageBytes_eq, imageBytes_eq] at h7
  have hpe := w.part_eq
  have hfX := hX.fits
  have hfY := hY.fits
  refine ⟨off, size, P, h6, hd, hX, hY, hU, ⟨h1, h2, h3, h4, ?_⟩, h7, h5, h9, h8⟩
  intro x hx
  obtain ⟨i, hi⟩ := List.getElem?_of_mem hx
  have := h7 i x hi
  refine ⟨by rintro rfl; exact this, ?_⟩
  rintro o rfl
  simp only [InPlace] at this
  omega

theorem DeltaImage.hash (h : DeltaImage c e d Old New U) : HashOK c d U := by
  rcases h.digest with h | ⟨x, h1, _, o, h2, _⟩
  · exact Or.inr h
  · left; rw [h2]; exact h1

theorem DeltaImage.fwdCtx (w : c.WF) (h : DeltaImage c e d Old New U) :
    ∃ off size P, DCtx c e d Old New U false off size P := by
  have hO := h.old.newOK w
  have hN := h.new.newOK w
  have hU := h.good.newOK w
  obtain ⟨off, size, P, hp⟩ := h.fwd.parm w hO.img hN.img hU.img h.block.1 h.block.2 (by simp)
  have hn := h.newer
  have hv := h.version
  exact ⟨off, size, P, hp, hO.loc, hN, hU, h.type, h.hash,
    fun f hu hb => select_fwd w hp.patch h.base.2 h.base.1 hO.loc h.digest hu hb, fun _ => ⟨by omega, by omega⟩,
    by simp, by simp, by simp⟩

theorem DeltaImage.invCtx (w : c.WF) (h : DeltaImage c e d Old New U) (hb : PatchFor c New Old U true)
    (hfb : 8 ≤ c.fb) (hj : e.junk ≠ ST_FINAL) :
    ∃ off size P, DCtx c e d New Old U true off size P := by
  have hO := h.old.newOK w
  have hN := h.new.newOK w
  have hU := h.good.newOK w
  obtain ⟨off, size, P, hp⟩ := hb.parm w hN.img hO.img hU.img h.block.1 h.block.2 (fun _ => hfb)
  obtain ⟨off', size', P', hp'⟩ := h.fwd.parm (d := d) w hO.img hN.img hU.img h.block.1 h.block.2 (by simp)
  have hn := h.newer
  have hv := h.version
  exact ⟨off, size, P, hp, hN.loc, hO, hU, h.type, h.hash,
    fun f hu hb => select_inv w hp.patch h.base.2 hv.symm (by rw [h.base.1]; exact hn.2) hN.loc hU.loc h.hash hu hb,
    by simp, fun _ => ⟨by omega, by omega⟩, fun _ => hj, fun _ => ⟨off', size', P', hp'.patch⟩⟩

theorem Pending.di (w : c.WF) {off size : Nat} {P : List BSrc} (hp : DParm c d Old New U false off size P)
    {f : Flash} (h : Pending c Old U f) : DI c Old New U false P 0 false f := by
  have hst := getState_updating.mp h.state
  have hn2 := w.n2
  have hold := holds_iff.mp h.old
  have hfl : ∀ j, j < c.n - 1 → rawFlag c f j = FL_NEW := by
    intro j hj
    have := h.flags j hj
    unfold getFlag at this
    rw [if_pos hst.1] at this
    exact Option.some.inj this
  refine ⟨holds_iff.mp h.new, by omega, by simp, ?_, fun x _ hx => hold x (by omega) hx, by omega, ?_, ?_, by simp,
    hst.1.magicP, fun _ => hst.1, by rw [hst.2]; simp, by simp, by simp, h.quiet.1, h.quiet.2⟩
  · intro x hx; rw [Nat.zero_mul] at hx; omega
  · intro _; simpa using hfl 0 (by omega)
  · intro j _ hj; exact hfl j hj

/-- A triple about `startD` applied to an interrupted reboot. -/
theorem bootFailD_of {T : Mem → Prop} {Q : Unit → Flash → Prop} {C : Flash → Prop} {f g : Flash} {n : Nat} {t : Mem}
    (h : Triple T true (fun g => g = f) (startD c e d) true Q C) (ht : T t)
    (hr : bootFailD c e d f n t = .crash g) : C g := by
  have := h ⟨f, true, some n, t⟩ ht rfl rfl
  unfold bootFailD at hr
  rw [hr] at this
  exact this.2

theorem bootUpD_of {T : Mem → Prop} {Q : Unit → Flash → Prop} {C : Flash → Prop} {f : Flash}
    (h : Triple T true (fun g => g = f) (startD c e d) true Q C) (ht : T (fun _ => 0#8)) :
    ∃ w', bootUpD c e d f = .ok () w' ∧ w'.locked = true ∧ Q () w'.fl := by
  have := h ⟨f, true, none, fun _ => 0#8⟩ ht rfl rfl
  unfold bootUpD
  cases hr : startD c e d ⟨f, true, none, fun _ => 0#8⟩ with
  | ok a w' => rw [hr] at this; exact ⟨w', rfl, this.1, this.2.2.2⟩
  | crash g => rw [hr] at this; exact absurd rfl this.1
  | panic g => rw [hr] at this; exact this.elim
  | stuck g => rw [hr] at this; exact this.elim
  | fault g => rw [hr] at this; exact this.elim

theorem torn_zero (inv : Bool) : TD c inv (fun _ => 0#8) :=
  ⟨by change (0 : Nat) ≠ MAGIC_TRAIL; decide, fun _ => by change (0 : Nat) ≠ MAGIC; decide⟩

/-- Phases of an update in one direction. -/
def DPhase (c : Cfg) (X Y U : Mem) (inv : Bool) (P : List BSrc) (f : Flash) : Prop :=
  DIx c X Y U inv P f ∨ D2 c Y U inv f ∨ FinI c U (imgLen c U) Y (imgLen c Y) f

theorem DProg.phase {inv : Bool} {P : List BSrc} {f : Flash} (h : DProg c X Y U inv P f) :
    DPhase c X Y U inv P f ∨ DoneI c U (imgLen c U) Y (imgLen c Y) f := by
  rcases h with h | h | h | h
  · exact Or.inl (Or.inl h)
  · exact Or.inl (Or.inr (Or.inl h))
  · exact Or.inl (Or.inr (Or.inr h))
  · exact Or.inr h

end

/-! ## Theorems -/

section
variable {c : Cfg} {e : Env} {d : DCfg} {Old New U : Mem}

/-- **C22, installation.** A requested delta update survives any number of power failures at any flash
operations: unless an interrupted reboot has already completed the installation, the first uninterrupted reboot
reconstructs the new image completely in BOOT, although the base is overwritten during decoding; it keeps the
delta image, marks BOOT as TESTING and boots the new image.

Partial: as for full images, the word "BOOT" must not be at offset `c.tmp` of the partitions or of the new image
(`Pending`, `PatchFor`) or appear there by accident in a torn operation; images fit in front of the trailer
sector; versions are not 0. -/
theorem delta_power_fail_safe_partial (w : c.WF) (hd : DeltaImage c e d Old New U) {f g : Flash}
    (hp : Pending c Old U f)
    (hi : InterruptedD c e d (TornOK c MAGIC_TRAIL) (fun x => ¬ Updated c New U x) f g) :
    ∃ w', bootUpD c e d g = .ok () w' ∧ w'.locked = true ∧ Updated c New U w'.fl ∧
      bootable c e (w'.fl .boot) := by
  obtain ⟨off, size, P, hx⟩ := hd.fwdCtx w
  have hmid : DPhase c Old New U false P g := by
    induction hi with
    | none => exact Or.inl ⟨0, false, hp.di w hx.parm⟩
    | again _ ht hr hP ih =>
      have := bootFailD_of (startD_prog w hx ih) ⟨ht, by simp⟩ hr
      exact (this.phase).resolve_right (fun h => hP ((updated_iff w).mpr h))
  obtain ⟨w', h1, h2, h3⟩ := bootUpD_of (startD_prog w hx hmid) (torn_zero false)
  exact ⟨w', h1, h2, (updated_iff w).mpr h3, h3.bootable w hx.new rfl⟩

/-- **C22, rollback.** If the new image is not confirmed, the next reboot restores the old image with the
inverse patch, with any number of power failures at any flash operations.

Partial: see `delta_power_fail_safe_partial`; moreover a torn operation must not produce the image magic at the
beginning of BOOT, the flash buffer holds at least 8 bytes, and the uninitialised byte read by
`wolfBoot_swap_and_final_erase` is not the FINAL state. -/
theorem delta_rollback_power_fail_safe_partial (w : c.WF) (hd : DeltaImage c e d Old New U)
    (hb : PatchFor c New Old U true) (hfb : 8 ≤ c.fb) (hj : e.junk ≠ ST_FINAL) {f g : Flash}
    (hp : Updated c New U f)
    (hi : InterruptedD c e d (TornNoMagic c) (fun x => ¬ Updated c Old U x) f g) :
    ∃ w', bootUpD c e d g = .ok () w' ∧ w'.locked = true ∧ Updated c Old U w'.fl ∧
      bootable c e (w'.fl .boot) := by
  obtain ⟨off, size, P, hx⟩ := hd.invCtx w hb hfb hj
  have hmid : DPhase c New Old U true P g := by
    induction hi with
    | none => exact Or.inl ⟨0, false, DoneI.invDI w hx.parm ((updated_iff w).mp hp)⟩
    | again _ ht hr hP ih =>
      have := bootFailD_of (startD_prog w hx ih) ⟨ht.1, fun _ => ht.2⟩ hr
      exact (this.phase).resolve_right (fun h => hP ((updated_iff w).mpr h))
  obtain ⟨w', h1, h2, h3⟩ := bootUpD_of (startD_prog w hx hmid) (torn_zero true)
  exact ⟨w', h1, h2, (updated_iff w).mpr h3, h3.bootable w hx.new rfl⟩

/-- **C22, all histories.** After a delta update has been requested, whatever sequence of power failures
follows (including failures right after the installation, which make the bootloader go back and forth between
the images), the next uninterrupted reboot boots either the complete new or the complete old image, and the delta
image is intact.

Partial: see `delta_rollback_power_fail_safe_partial`. -/
theorem delta_never_lost_partial (w : c.WF) (hd : DeltaImage c e d Old New U)
    (hb : PatchFor c New Old U true) (hfb : 8 ≤ c.fb) (hj : e.junk ≠ ST_FINAL) {f g : Flash}
    (hp : Pending c Old U f) (hi : InterruptedD c e d (TornNoMagic c) (fun _ => True) f g) :
    ∃ w', bootUpD c e d g = .ok () w' ∧ w'.locked = true ∧
      (Updated c New U w'.fl ∨ Updated c Old U w'.fl) ∧ bootable c e (w'.fl .boot) := by
  obtain ⟨_, _, P, hx⟩ := hd.fwdCtx w
  obtain ⟨_, _, P', hx'⟩ := hd.invCtx w hb hfb hj
  have tf : ∀ t, TornNoMagic c t → TD c false t := fun t h => ⟨h.1, by simp⟩
  have tt : ∀ t, TornNoMagic c t → TD c true t := fun t h => ⟨h.1, fun _ => h.2⟩
  have hdone : ∀ x, DProg c Old New U false P x → DPhase c Old New U false P x ∨ DPhase c New Old U true P' x ∨
      PreD c Old U x := by
    intro x h
    rcases h.phase with h | h
    · exact Or.inl h
    · exact Or.inr (Or.inl (Or.inl ⟨0, false, DoneI.invDI w hx'.parm h⟩))
  have hdone' : ∀ x, DProg c New Old U true P' x → DPhase c Old New U false P x ∨ DPhase c New Old U true P' x ∨
      PreD c Old U x := by
    intro x h
    rcases h.phase with h | h
    · exact Or.inr (Or.inl h)
    · exact Or.inr (Or.inr (DoneI.pre w h))
  have hmid : DPhase c Old New U false P g ∨ DPhase c New Old U true P' g ∨ PreD c Old U g := by
    induction hi with
    | none => exact Or.inl (Or.inl ⟨0, false, hp.di w hx.parm⟩)
    | again _ ht hr _ ih =>
      rcases ih with ih | ih | ih
      · exact hdone _ (bootFailD_of (startD_prog w hx ih) (tf _ ht) hr)
      · exact hdone' _ (bootFailD_of (startD_prog w hx' ih) (tt _ ht) hr)
      · rcases bootFailD_of (startD_pre w hx hj ih) (tf _ ht) hr with h | h
        · exact Or.inr (Or.inr h)
        · exact hdone _ h
  rcases hmid with hm | hm | hm
  · obtain ⟨w', h1, h2, h3⟩ := bootUpD_of (startD_prog w hx hm) (torn_zero false)
    exact ⟨w', h1, h2, Or.inl ((updated_iff w).mpr h3), h3.bootable w hx.new rfl⟩
  · obtain ⟨w', h1, h2, h3⟩ := bootUpD_of (startD_prog w hx' hm) (torn_zero true)
    exact ⟨w', h1, h2, Or.inr ((updated_iff w).mpr h3), h3.bootable w hx'.new rfl⟩
  · obtain ⟨w', h1, h2, h3⟩ := bootUpD_of (startD_pre w hx hj hm) (torn_zero false)
    exact ⟨w', h1, h2, Or.inl ((updated_iff w).mpr h3), h3.bootable w hx.new rfl⟩

/-- The patches made by the signing tool are of the required form. -/
theorem tool_patch_partial (w : c.WF) {X Y : Mem} {inv : Bool} (hX : GoodImage c e X) (hY : GoodImage c e Y)
    (h : ToolPatch c X Y U inv) : PatchFor c X Y U inv :=
  h.patch w (hX.newOK w).img (hY.newOK w).img

end

end Verif
