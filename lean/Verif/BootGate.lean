import Verif.ImageThms
import Verif.BootThms
import Verif.DeltaUpdate
import Verif.DualEx
import Verif.DiskEx

/-!
# The boot gate for the other build variants: C06

Delta updates, hardware swap, RAM boot and disk boot, with the abstract checks and with the image format of `Verif.Image`.
-/

namespace Verif

/-- Header, digest and signatures of an image in memory, as specified: it carries the magic, the stored digest is the hash of header and firmware, and
an authorised key signed that hash. -/
def GateOK (k : ImgCfg) (m : Mem) : Prop :=
  le32 m 0 = MAGIC ∧ ∃ off, DigestOK k m (le32 m 4) off ∧ AuthenticFor k m (k.hash (signedMsg k.H m off (le32 m 4)))

theorem bootable_gate {k : ImgCfg} {c : Cfg} (wi : ImgWF k c) {junk : Byte} {m : Mem} (h : bootable c (imgEnv k c junk) m) : GateOK k m := by
  obtain ⟨⟨h1, h2⟩, _, h4⟩ := h
  refine ⟨h1, ?_⟩
  have hfw : fwSize c m = le32 m 4 := by
    unfold fwSize
    rw [if_neg (by simpa using h1), if_neg (by omega)]
  have hv : verifyImage k m (fwSize c m) [] = .ok := by
    simpa [imgEnv] using h4
  rw [hfw] at hv
  have := wi.noWrap
  exact verified_sound k _ _ [] wi.blk (by omega) hv

/-! ### Delta updates -/

/-- **C06, builds with delta updates.** In every execution from every flash: what is started in BOOT passed all checks there. -/
theorem delta_boot_gate (c : Cfg) (e : Env) (d : DCfg) (w w' : World) (h : startD c e d w = .ok () w') : bootable c e (w'.fl .boot) := by
  unfold startD at h
  obtain ⟨_, w1, _, h⟩ := bind_ok h
  obtain ⟨f, w2, h2, h⟩ := bind_ok h
  cases h2
  split at h
  · next hb => rw [tick_ok h]; exact hb
  · unfold emergencyD at h
    obtain ⟨r, w3, _, h⟩ := bind_ok h
    split at h
    · exact absurd h (by simp [panicM])
    · obtain ⟨f, w4, h4, h⟩ := bind_ok h
      cases h4
      split at h
      · next hb => rw [tick_ok h]; exact hb
      · exact absurd h (by simp [panicM])

theorem delta_boot_gate_image {k : ImgCfg} {c : Cfg} (wi : ImgWF k c) (junk : Byte) (d : DCfg) (w w' : World)
    (h : startD c (imgEnv k c junk) d w = .ok () w') : GateOK k (w'.fl .boot) :=
  bootable_gate wi (delta_boot_gate _ _ _ _ _ h)

/-! ### Hardware swap -/

theorem program_ok {c : Cfg} {p : Part} {off len : Nat} {d : Nat → Byte} {w w' : World} (h : program c p off len d w = .ok () w') :
    ∀ q o, ¬ (q = p ∧ off ≤ o ∧ o < off + len) → w'.fl q o = w.fl q o := by
  obtain ⟨fl, l, b, t⟩ := w
  have hp : ∀ q o, ¬ (q = p ∧ off ≤ o ∧ o < off + len) → fl.program p off len d q o = fl q o := by
    intro q o ho
    unfold Flash.program
    by_cases hq : q = p
    · subst hq
      simp only [true_and] at ho
      simp [ho]
    · simp [hq]
  unfold program at h
  split at h
  · cases h
  · unfold flashOp at h
    rcases b with _ | _ | k <;> cases l <;> simp at h <;> rw [← h] <;> dsimp only <;> first | exact hp | (intro _ _ _; rfl)

theorem setTesting_ok {c : Cfg} {p : Part} {w w' : World} (h : setTesting c p w = .ok () w') :
    (getState c w.fl p ≠ some ST_UPDATING → w'.fl = w.fl) ∧
    ∀ q o, ¬ (q = p ∧ o = trailerAt c 1) → w'.fl q o = w.fl q o := by
  unfold setTesting at h
  obtain ⟨f, w1, h1, h⟩ := bind_ok h
  cases h1
  split at h
  · next hs =>
    refine ⟨fun hn => absurd hs hn, ?_⟩
    have hm : hasMagic c w.fl p := by
      unfold getState at hs
      split at hs
      · assumption
      · simp at hs
    obtain ⟨_, w2, h2, h⟩ := bind_ok h
    cases h2
    obtain ⟨_, w3, h3, h⟩ := bind_ok h
    cases h
    unfold setState ensureMagic at h3
    obtain ⟨_, w4, h4, h3⟩ := bind_ok h3
    obtain ⟨f, w5, h5, h4⟩ := bind_ok h4
    cases h5
    rw [if_pos hm] at h4
    cases h4
    obtain ⟨f, w6, h6, h3⟩ := bind_ok h3
    cases h6
    intro q o ho
    split at h3
    · exact program_ok h3 q o (fun hh => ho ⟨hh.1, by omega⟩)
    · cases h3
      rfl
  · cases h
    exact ⟨fun _ => rfl, fun _ _ _ => rfl⟩

theorem hwLoop_ok {c : Cfg} {e : Env} {ext : Part → Bool} : ∀ (fuel : Nat) (p p' : Part) (w w' : World),
    hwLoop c e ext fuel p w = .ok p' w' → bootable c e (w'.fl p') ∧ (p ≠ .swap → p' ≠ .swap)
  | 0, _, _, _, _, h => by cases h
  | fuel + 1, p, p', w, w', h => by
    unfold hwLoop at h
    obtain ⟨f, w1, h1, h⟩ := bind_ok h
    cases h1
    split at h
    · next hb => cases h; exact ⟨hb, fun h => h⟩
    · split at h
      · obtain ⟨_, w2, _, h⟩ := bind_ok h
        obtain ⟨g1, g2⟩ := hwLoop_ok fuel _ _ _ _ h
        refine ⟨g1, fun hp => g2 ?_⟩
        cases p <;> simp_all [Part.other]
      · cases h

theorem candidate_ok {c : Cfg} {e : Env} {ext : Part → Bool} {p : Part} {w w' : World} (h : candidate c e ext w = .ok (some p) w') : p ≠ .swap := by
  have hn : ∀ a b, newest a b ≠ .swap ∧ (newest a b).other ≠ .swap := by
    intro a b
    unfold newest
    split
    · exact ⟨by decide, by decide⟩
    · split
      · split <;> exact ⟨by decide, by decide⟩
      · exact ⟨by decide, by decide⟩
  unfold candidate at h
  obtain ⟨f, w1, h1, h⟩ := bind_ok h
  cases h1
  dsimp only at h
  split at h
  · cases h
  · split at h
    · obtain ⟨_, w2, _, h⟩ := bind_ok h
      cases h
      exact (hn _ _).2
    · cases h
      exact (hn _ _).1

/-- **C06, hardware swap.** In every execution from every flash: what is started in BOOT is an image that passed all checks, except for the state byte, which
is written after the checks. -/
theorem hw_boot_gate {c : Cfg} {e : Env} {ext : Part → Bool} (fuel : Nat) (w w' : World) (h : hwStart c e ext fuel w = .ok () w') :
    ∃ m, bootable c e m ∧ ∀ o, o ≠ trailerAt c 1 → w'.fl .boot o = m o := by
  unfold hwStart at h
  obtain ⟨a, w1, h1, h⟩ := bind_ok h
  cases a with
  | none => cases h
  | some p =>
    obtain ⟨p', w2, h2, h⟩ := bind_ok h
    obtain ⟨_, w3, h3, h⟩ := bind_ok h
    obtain ⟨g1, g2⟩ := hwLoop_ok _ _ _ _ _ h2
    have g3 := g2 (candidate_ok h1)
    refine ⟨_, g1, ?_⟩
    intro o ho
    rw [tick_ok h]
    unfold hwFinish at h3
    split at h3
    · next hu =>
      subst hu
      obtain ⟨_, w4, h4, h3⟩ := bind_ok h3
      obtain ⟨_, w5, h5, h3⟩ := bind_ok h3
      obtain ⟨_, w6, h6, h3⟩ := bind_ok h3
      rw [(setTesting_ok h3).2 _ _ (fun hh => ho hh.2), tick_ok h6]
      cases h5
      show w4.fl .update o = _
      rw [tick_ok h4]
    · next hu =>
      have : p' = .boot := by cases p' <;> simp_all
      subst this
      exact (setTesting_ok h3).2 _ _ (fun hh => ho hh.2)

/-- With the image format: the flash at that moment carries an authentic image, if the image ends below the trailer. -/
theorem hw_boot_gate_image_partial {k : ImgCfg} {c : Cfg} (wi : ImgWF k c) (junk : Byte) {ext : Part → Bool} (fuel : Nat) (w w' : World)
    (h : hwStart c (imgEnv k c junk) ext fuel w = .ok () w') (hfit : c.h + le32 (w'.fl .boot) 4 + 5 ≤ c.part) (hs : k.sigSz ≤ le32 (w'.fl .boot) 4)
    (hs2 : k.sigSz2 ≤ le32 (w'.fl .boot) 4) : GateOK k (w'.fl .boot) := by
  have h8 := wi.hdr8
  have hH := wi.hdr
  have hnw := wi.noWrap
  obtain ⟨m, h1, h2⟩ := hw_boot_gate fuel w w' h
  have ht : trailerAt c 1 = c.part - 5 := rfl
  have e0 : le32 (w'.fl .boot) 0 = le32 m 0 := le32_congr fun o _ _ => h2 o (by omega)
  have e4 : le32 (w'.fl .boot) 4 = le32 m 4 := le32_congr fun o _ _ => h2 o (by omega)
  refine ⟨e0.trans h1.1.1, ?_⟩
  have hfw : fwSize c m = le32 m 4 := by
    unfold fwSize
    rw [if_neg (by simpa using h1.1.1), if_neg (by have := h1.1.2; omega)]
  have hv : verifyImage k m (fwSize c m) [] = .ok := by
    simpa [imgEnv] using h1.2.2
  rw [hfw, ← e4] at hv
  rw [← verifyImage_congr [] wi.blk (by omega) (m := w'.fl .boot) (fun o _ ho => h2 o (by omega)) hs hs2] at hv
  exact verified_sound k _ _ [] wi.blk (by omega) hv

/-! ### RAM boot -/

theorem ram_boot_gate_image {k : ImgCfg} {c : Cfg} (wi : ImgWF k c) (junk : Byte) {ext : Part → Bool} {r : RamCfg} (fuel : Nat) (ram : Mem) (w w' : World)
    {p : Part} {ram' : Mem} (h : ramStart c (imgEnv k c junk) ext r fuel ram w = .ok (.boots p ram') w') :
    ∃ m, GateOK k m ∧ ∀ o, c.h ≤ o → o < c.h + le32 m 4 → ram' o = m o := by
  obtain ⟨m, h1, h2⟩ := ram_boot_authentic fuel ram w w' h
  exact ⟨m, bootable_gate wi h1, h2⟩

/-! ### Disk boot -/

/-- Checks of an image at the load address, of any size (`/repo/src/image.c:1144-1184` without fixed partitions; see `imgEnv`). -/
def diskImgEnv (k : ImgCfg) (junk : Byte) : Env where
  typ := blobType k.H
  ver := blobVersion k.H
  integ := fun m => (verifyIntegrity k m (le32 m 4) (freshSt [])).1 == .ok
  auth := fun m => verifyImage k m (le32 m 4) [] == .ok
  authType := k.authType
  junk := junk

/-- **C06, disk boot.** Sizes near 2^32 are excluded, the hash loop does not end there (`hash_loop_hangs`). -/
theorem disk_boot_gate_image_partial {k : ImgCfg} (hb : 0 < k.blk) (junk : Byte) (c : DiskCfg) (rd : Reader) (fuel : Nat) (ram ram' : Mem) (s : Bool)
    (h : diskStart c (diskImgEnv k junk) rd fuel ram = .boots s ram') (hw : le32 ram' 4 + k.blk < 4294967296) : GateOK k ram' := by
  obtain ⟨h1, _, h3⟩ := disk_boot_authentic c _ rd fuel ram ram' s h
  refine ⟨h1, verified_sound k _ _ [] hb hw ?_⟩
  simpa [diskImgEnv] using h3

/-! ### Examples -/

open Demo ImgDemo

/-- Delta build, booting `imgC`. -/
example : ∃ w', startD geo (imgEnv cfgC geo 0) ⟨64, 5, 3⟩ (wld flashC) = .ok () w' ∧ GateOK cfgC (w'.fl .boot) := by
  obtain ⟨_, w', h, _⟩ := ok_of (r := startD geo (imgEnv cfgC geo 0) ⟨64, 5, 3⟩ (wld flashC)) (p := fun _ => true)
    (by decide +kernel)
  exact ⟨w', h, delta_boot_gate_image geo_img 0 _ _ _ h⟩

/-- Hardware swap, booting `imgC` from UPDATE. -/
example : ∃ w', hwStart geo (imgEnv cfgC geo 0) (fun _ => false) 2 (wld (fun p => if p = .update then imgC else fun _ => 0xFF)) = .ok () w' ∧
    GateOK cfgC (w'.fl .boot) := by
  obtain ⟨_, w', h, hp⟩ := ok_of (r := hwStart geo (imgEnv cfgC geo 0) (fun _ => false) 2 (wld (fun p => if p = .update then imgC else fun _ => 0xFF)))
    (p := fun f => le32 (f .boot) 4 == 7) (by decide +kernel)
  rw [beq_iff_eq] at hp
  exact ⟨w', h, hw_boot_gate_image_partial geo_img 0 _ _ _ h (by rw [hp]; decide) (by rw [hp]; decide) (by rw [hp]; decide)⟩

/-- RAM boot. -/
example : ∃ p ram w', ramStart geo (imgEnv cfgC geo 0) (fun _ => false) rb 2 zeros (wld flashC) = .ok (.boots p ram) w' ∧
    ∃ m, GateOK cfgC m ∧ ∀ o, geo.h ≤ o → o < geo.h + le32 m 4 → ram o = m o := by
  obtain ⟨x, w', h, hp⟩ := ok_of (r := ramStart geo (imgEnv cfgC geo 0) (fun _ => false) rb 2 zeros (wld flashC)) (p := fun _ => true) (by decide +kernel)
  cases x with
  | boots p ram => exact ⟨p, ram, w', h, ram_boot_gate_image geo_img 0 _ _ _ _ h⟩
  | over =>
    exfalso
    have : (match ramStart geo (imgEnv cfgC geo 0) (fun _ => false) rb 2 zeros (wld flashC) with | .ok .over _ => true | _ => false) = false := by
      decide +kernel
    rw [h] at this
    cases this

/-- Disk boot: both partitions hold `imgC`. -/
example : ∃ s ram, diskStart ⟨56, 0, 4096⟩ (diskImgEnv cfgC 0) (fun _ off n => some (n, fun i => imgC (off + i))) 4 zeros = .boots s ram ∧
    GateOK cfgC ram := by
  cases h : diskStart ⟨56, 0, 4096⟩ (diskImgEnv cfgC 0) (fun _ off n => some (n, fun i => imgC (off + i))) 4 zeros with
  | boots s ram =>
    refine ⟨s, ram, rfl, disk_boot_gate_image_partial (by decide) 0 _ _ _ _ _ _ h ?_⟩
    have : (match diskStart ⟨56, 0, 4096⟩ (diskImgEnv cfgC 0) (fun _ off n => some (n, fun i => imgC (off + i))) 4 zeros with
      | .boots _ ram => decide (le32 ram 4 + cfgC.blk < 4294967296) | _ => true) = true := by decide +kernel
    rw [h] at this
    exact of_decide_eq_true this
  | _ =>
    exfalso
    have : (match diskStart ⟨56, 0, 4096⟩ (diskImgEnv cfgC 0) (fun _ off n => some (n, fun i => imgC (off + i))) 4 zeros with
      | .boots _ ram => true | _ => false) = true := by decide +kernel
    rw [h] at this
    cases this

namespace Demo

/-- An image that fills the partition; its last bytes are the word `BOOT`, before it the byte of the state UPDATING. -/
def fullImg : Mem := fun o =>
  match o with
  | 92 => 0x42#8 | 93 => 0x4F#8 | 94 => 0x4F#8 | 95 => 0x54#8
  | _ => img 2#8 0x70#8 80 0x5A#8 o

/-- Checks that look at the byte of the state. -/
def envF : Env := { env with integ := fun m => m 91 == m 9 }

end Demo

/-- **Finding (C06).** Hardware swap: the size of an image is not limited to the space below the trailer, and the state is written after the image was verified
(`/repo/src/update_flash_hwswap.c:53-81`): the bytes that are executed are not those that were verified. -/
theorem hw_modified_after_check : ∃ f w', hwStart cfg envF (fun _ => false) 2 (wld f) = .ok () w' ∧ bootable cfg envF (f .boot) ∧
    ¬ bootable cfg envF (w'.fl .boot) := by
  obtain ⟨_, w', h, hp⟩ := ok_of (r := hwStart cfg envF (fun _ => false) 2 (wld (fun p => if p = .boot then fullImg else fun _ => 0xFF)))
    (p := fun f => !decide (bootable cfg envF (f .boot))) (by decide +kernel)
  refine ⟨_, w', h, by decide +kernel, ?_⟩
  simpa using hp

end Verif
