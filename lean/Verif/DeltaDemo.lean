import Verif.DeltaBase
import Verif.Demo

/-!
# A small concrete device with delta updates

As in `Verif.Demo`: geometry, images and checks are chosen small enough to be evaluated by the kernel.
-/

namespace Verif.DDemo

/-- 4 sectors of 80 bytes, 80 byte header, 8 byte flash buffer. -/
def cfg : Cfg := { ss := 80, n := 4, h := 80, fb := 8 }

theorem wf : cfg.WF := by constructor <;> decide

/-- Blocks of 16 bytes, digests of 2 bytes in tag 3. -/
def dcfg : DCfg := { bk := 16, dlen := 2, shaTag := 3 }

/-- Memory with the given bytes, erased behind. -/
def mem (l : List Byte) : Mem := fun x => l.getD x 0xFF#8

/-- Sum of the firmware bytes. -/
def sum (l : List Byte) : Byte := l.foldl (· + ·) 0#8

/-- Magic, size, version, type, digest: 28 bytes; then more fields, padded to 80 bytes; then the
firmware. -/
def mk (ver : Byte) (ty : Byte) (more fw : List Byte) : List Byte :=
  let l := [0x57#8, 0x4F#8, 0x4C#8, 0x46#8, BitVec.ofNat 8 fw.length, 0#8, 0#8, 0#8,
    1#8, 0#8, 4#8, 0#8, ver, 0#8, 0#8, 0#8,
    4#8, 0#8, 2#8, 0#8, ty, 2#8,
    3#8, 0#8, 2#8, 0#8, sum fw, 0x5A#8] ++ more
  l ++ List.replicate (80 - l.length) 0xFF#8 ++ fw

/-- Version at offset 12, type at offset 20; digest: sum of the firmware bytes; "signature" 0x5A. -/
def env (junk : Byte := 0#8) : Env where
  typ m := le16 m 20
  ver m := le32 m 12
  integ m := sum (slice m 80 (le32 m 4)) == m 26
  auth m := m 27 == 0x5A#8
  authType := 2
  junk := junk

def oldFw : List Byte := (List.range 40).map (fun i => BitVec.ofNat 8 (3 * i + 1))
def newFw : List Byte := (List.range 44).map (fun i => if 10 ≤ i ∧ i < 14 then 0x7F#8 else BitVec.ofNat 8 (3 * i + 1))

/-- Version 1 and version 2. -/
def old : Mem := mem (mk 1#8 1#8 [] oldFw)
def new : Mem := mem (mk 2#8 1#8 [] newFw)

/-- The patches that the signing tool makes for these images. -/
def fwd : List Byte :=
  [0x57#8, 0x4F#8, 0x4C#8, 0x46#8, 0x2C#8, 0x7F#8, 0x00#8, 0x00#8, 0x05#8, 0x00#8, 0x07#8,
   0x02#8, 0x7F#8, 0x00#8, 0x00#8, 0x0D#8, 0x00#8, 0x0D#8, 0xB0#8, 0x7F#8, 0x00#8, 0x00#8,
   0x1B#8, 0x00#8, 0x34#8, 0xFF#8, 0x7F#8, 0x00#8, 0x00#8, 0x50#8, 0x00#8, 0x0A#8, 0x7F#8,
   0x7F#8, 0x7F#8, 0x7F#8, 0x7F#8, 0x7F#8, 0x7F#8, 0x7F#8, 0x7F#8, 0x00#8, 0x00#8, 0x5E#8,
   0x00#8, 0x19#8, 0x76#8, 0x79#8, 0x7C#8, 0x7F#8, 0x7F#8, 0x82#8]
def inv : List Byte :=
  [0x57#8, 0x4F#8, 0x4C#8, 0x46#8, 0x28#8, 0x7F#8, 0x00#8, 0x00#8, 0x05#8, 0x00#8, 0x07#8,
   0x01#8, 0x7F#8, 0x00#8, 0x00#8, 0x0D#8, 0x00#8, 0x0D#8, 0x4C#8, 0x7F#8, 0x00#8, 0x00#8,
   0x1B#8, 0x00#8, 0x34#8, 0xFF#8, 0x7F#8, 0x00#8, 0x00#8, 0x50#8, 0x00#8, 0x0A#8, 0x1F#8,
   0x22#8, 0x25#8, 0x28#8, 0x7F#8, 0x00#8, 0x00#8, 0x5E#8, 0x00#8, 0x1A#8]

theorem fwd_eq : fwd = makePatch old new 120 124 80 100 := by decide +kernel
theorem inv_eq : inv = makePatch new old 124 120 80 100 := by decide +kernel

/-- Delta header fields: base version, size of the patch, offset and size of the inverse patch, digest of
the base. -/
def fields (base hash : Byte) : List Byte :=
  [5#8, 0#8, 4#8, 0#8, base, 0#8, 0#8, 0#8, 6#8, 0#8, 4#8, 0#8, 52#8, 0#8, 0#8, 0#8,
   0x15#8, 0#8, 4#8, 0#8, 132#8, 0#8, 0#8, 0#8, 0x16#8, 0#8, 4#8, 0#8, 42#8, 0#8, 0#8, 0#8,
   7#8, 0#8, 2#8, 0#8, hash, 0x5A#8]

/-- Delta image from version 1 to version 2 (in both directions). -/
def delta : Mem := mem (mk 2#8 0xD1#8 (fields 1#8 (sum oldFw)) (fwd ++ inv))

/-- The same for another base version, for another base digest, and without patch size. -/
def deltaV : Mem := mem (mk 2#8 0xD1#8 (fields 7#8 (sum oldFw)) (fwd ++ inv))
def deltaH : Mem := mem (mk 2#8 0xD1#8 (fields 1#8 0x33#8) (fwd ++ inv))
def deltaN : Mem := mem (mk 2#8 0xD1#8 [] (fwd ++ inv))

/-- Version 0. -/
def zero : Mem := mem (mk 0#8 1#8 [] (List.replicate 30 0x11#8))

/-- A partition: an image in front, state given, the rest erased. -/
def withTrailer (m : Mem) (state : Option Byte) : Mem := fun o =>
  match state with
  | none => if o < 240 then m o else 0xFF#8
  | some s =>
    if o < 240 then m o
    else match o with
      | 315 => s | 316 => 0x42#8 | 317 => 0x4F#8 | 318 => 0x4F#8 | 319 => 0x54#8
      | _ => 0xFF#8

def flash (b : Mem) (bs : Option Byte) (u : Mem) (us : Option Byte) : Flash
  | .boot => withTrailer b bs
  | .update => withTrailer u us
  | .swap => fun _ => 0xFF#8

/-- `old` running and confirmed, a delta image in UPDATE, requested. -/
def pending (u : Mem) : Flash := flash old (some ST_SUCCESS) u (some ST_UPDATING)

/-- The checks of `env` depend on the bytes of the image only. -/
theorem env_loc (j : Byte) (X m : Mem) (h : ∀ o, o < imageBytes cfg X → m o = X o) :
    (env j).typ m = (env j).typ X ∧ (env j).ver m = (env j).ver X ∧
    (env j).integ m = (env j).integ X ∧ (env j).auth m = (env j).auth X := by
  have hl : 80 ≤ imageBytes cfg X := Nat.le_add_right 80 _
  have ha : Agree m X 0 80 := fun o _ ho => h o (by omega)
  have h4 : le32 m 4 = le32 X 4 := le32_congr (ha.mono (by omega) (by omega))
  refine ⟨le16_congr (ha.mono (by omega) (by omega)), le32_congr (ha.mono (by omega) (by omega)), ?_, ?_⟩
  · simp only [env, h4]
    rw [slice_congr (m := m) (x := X), h 26 (by omega)]
    intro o h1 h2
    exact h o (by show o < 80 + le32 X 4; omega)
  · simp only [env]; rw [h 27 (by omega)]

end Verif.DDemo
