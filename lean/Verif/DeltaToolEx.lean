import Verif.DeltaTool
import Verif.Demo

/-!
# Examples for the delta images of the signing tool (C70)
-/

namespace Verif.DeltaToolDemo
open Verif DeltaTool

/-- Toy digest of 32 bytes: exclusive or and number of the bytes, then a constant. -/
def hash32 (l : List Byte) : List Byte :=
  l.foldl (· ^^^ ·) 0x55#8 :: BitVec.ofNat 8 l.length :: List.replicate 30 0xA5#8

def key : Slot := ⟨[0x11#8], 2#32⟩

/-- 4 sectors of 192 bytes, 192 byte header, 8 byte flash buffer. -/
def cfg : Cfg := { ss := 192, n := 4, h := 192, fb := 8 }

def dev : ImgCfg :=
  { H := 192, blk := 16, shaTag := 3, dlen := 32, authType := 2, sigSz := 3, sigSz2 := 0, hybrid := false
    keys := [key], hash := hash32, verify := fun p d s => s == p ++ [d.headD 0#8, d.tail.headD 0#8], verify2 := fun _ _ _ => false }

def dcfg : DCfg := { bk := 16, dlen := 32, shaTag := 3 }

def opts (v : Nat) : SignOpts :=
  { version := v, timestamp := none, typ := 0x0201, delta := none, custom := [], algo := .sha256
    pubkey := key.pub, secondary := none, hash := hash32, sign := fun d => key.pub ++ [d.headD 0#8, d.tail.headD 0#8], sign2 := fun _ => []
    policy := none }

def imgB : List Byte := (List.range 20).map (fun i => BitVec.ofNat 8 (3 * i + 1))
def img : List Byte := (List.range 22).map (fun i => if 10 ≤ i ∧ i < 14 then 0x7F#8 else BitVec.ofNat 8 (3 * i + 1))

/-- The two images, the patches between them, and the delta image. -/
def base : List Byte :=
  [0x57#8, 0x4F#8, 0x4C#8, 0x46#8, 0x14#8, 0x00#8, 0x00#8, 0x00#8, 0x01#8, 0x00#8, 0x04#8, 0x00#8, 0x01#8, 0x00#8, 0x00#8, 0x00#8,
   0xFF#8, 0xFF#8, 0xFF#8, 0xFF#8, 0x04#8, 0x00#8, 0x02#8, 0x00#8, 0x01#8, 0x02#8, 0xFF#8, 0xFF#8, 0x10#8, 0x00#8, 0x20#8, 0x00#8,
   0x44#8, 0x01#8, 0xA5#8, 0xA5#8, 0xA5#8, 0xA5#8, 0xA5#8, 0xA5#8, 0xA5#8, 0xA5#8, 0xA5#8, 0xA5#8, 0xA5#8, 0xA5#8, 0xA5#8, 0xA5#8,
   0xA5#8, 0xA5#8, 0xA5#8, 0xA5#8, 0xA5#8, 0xA5#8, 0xA5#8, 0xA5#8, 0xA5#8, 0xA5#8, 0xA5#8, 0xA5#8, 0xA5#8, 0xA5#8, 0xA5#8, 0xA5#8,
   0xFF#8, 0xFF#8, 0xFF#8, 0xFF#8, 0x03#8, 0x00#8, 0x20#8, 0x00#8, 0x0F#8, 0x58#8, 0xA5#8, 0xA5#8, 0xA5#8, 0xA5#8, 0xA5#8, 0xA5#8,
   0xA5#8, 0xA5#8, 0xA5#8, 0xA5#8, 0xA5#8, 0xA5#8, 0xA5#8, 0xA5#8, 0xA5#8, 0xA5#8, 0xA5#8, 0xA5#8, 0xA5#8, 0xA5#8, 0xA5#8, 0xA5#8,
   0xA5#8, 0xA5#8, 0xA5#8, 0xA5#8, 0xA5#8, 0xA5#8, 0xA5#8, 0xA5#8, 0xFF#8, 0xFF#8, 0xFF#8, 0xFF#8, 0x20#8, 0x00#8, 0x03#8, 0x00#8,
   0x11#8, 0x0F#8, 0x58#8, 0xFF#8, 0xFF#8, 0xFF#8, 0xFF#8, 0xFF#8, 0xFF#8, 0xFF#8, 0xFF#8, 0xFF#8, 0xFF#8, 0xFF#8, 0xFF#8, 0xFF#8,
   0xFF#8, 0xFF#8, 0xFF#8, 0xFF#8, 0xFF#8, 0xFF#8, 0xFF#8, 0xFF#8, 0xFF#8, 0xFF#8, 0xFF#8, 0xFF#8, 0xFF#8, 0xFF#8, 0xFF#8, 0xFF#8,
   0xFF#8, 0xFF#8, 0xFF#8, 0xFF#8, 0xFF#8, 0xFF#8, 0xFF#8, 0xFF#8, 0xFF#8, 0xFF#8, 0xFF#8, 0xFF#8, 0xFF#8, 0xFF#8, 0xFF#8, 0xFF#8,
   0xFF#8, 0xFF#8, 0xFF#8, 0xFF#8, 0xFF#8, 0xFF#8, 0xFF#8, 0xFF#8, 0xFF#8, 0xFF#8, 0xFF#8, 0xFF#8, 0xFF#8, 0xFF#8, 0xFF#8, 0xFF#8,
   0xFF#8, 0xFF#8, 0xFF#8, 0xFF#8, 0xFF#8, 0xFF#8, 0xFF#8, 0xFF#8, 0xFF#8, 0xFF#8, 0xFF#8, 0xFF#8, 0xFF#8, 0xFF#8, 0xFF#8, 0xFF#8,
   0x01#8, 0x04#8, 0x07#8, 0x0A#8, 0x0D#8, 0x10#8, 0x13#8, 0x16#8, 0x19#8, 0x1C#8, 0x1F#8, 0x22#8, 0x25#8, 0x28#8, 0x2B#8, 0x2E#8,
   0x31#8, 0x34#8, 0x37#8, 0x3A#8]
def new : List Byte :=
  [0x57#8, 0x4F#8, 0x4C#8, 0x46#8, 0x16#8, 0x00#8, 0x00#8, 0x00#8, 0x01#8, 0x00#8, 0x04#8, 0x00#8, 0x02#8, 0x00#8, 0x00#8, 0x00#8,
   0xFF#8, 0xFF#8, 0xFF#8, 0xFF#8, 0x04#8, 0x00#8, 0x02#8, 0x00#8, 0x01#8, 0x02#8, 0xFF#8, 0xFF#8, 0x10#8, 0x00#8, 0x20#8, 0x00#8,
   0x44#8, 0x01#8, 0xA5#8, 0xA5#8, 0xA5#8, 0xA5#8, 0xA5#8, 0xA5#8, 0xA5#8, 0xA5#8, 0xA5#8, 0xA5#8, 0xA5#8, 0xA5#8, 0xA5#8, 0xA5#8,
   0xA5#8, 0xA5#8, 0xA5#8, 0xA5#8, 0xA5#8, 0xA5#8, 0xA5#8, 0xA5#8, 0xA5#8, 0xA5#8, 0xA5#8, 0xA5#8, 0xA5#8, 0xA5#8, 0xA5#8, 0xA5#8,
   0xFF#8, 0xFF#8, 0xFF#8, 0xFF#8, 0x03#8, 0x00#8, 0x20#8, 0x00#8, 0x43#8, 0x5A#8, 0xA5#8, 0xA5#8, 0xA5#8, 0xA5#8, 0xA5#8, 0xA5#8,
   0xA5#8, 0xA5#8, 0xA5#8, 0xA5#8, 0xA5#8, 0xA5#8, 0xA5#8, 0xA5#8, 0xA5#8, 0xA5#8, 0xA5#8, 0xA5#8, 0xA5#8, 0xA5#8, 0xA5#8, 0xA5#8,
   0xA5#8, 0xA5#8, 0xA5#8, 0xA5#8, 0xA5#8, 0xA5#8, 0xA5#8, 0xA5#8, 0xFF#8, 0xFF#8, 0xFF#8, 0xFF#8, 0x20#8, 0x00#8, 0x03#8, 0x00#8,
   0x11#8, 0x43#8, 0x5A#8, 0xFF#8, 0xFF#8, 0xFF#8, 0xFF#8, 0xFF#8, 0xFF#8, 0xFF#8, 0xFF#8, 0xFF#8, 0xFF#8, 0xFF#8, 0xFF#8, 0xFF#8,
   0xFF#8, 0xFF#8, 0xFF#8, 0xFF#8, 0xFF#8, 0xFF#8, 0xFF#8, 0xFF#8, 0xFF#8, 0xFF#8, 0xFF#8, 0xFF#8, 0xFF#8, 0xFF#8, 0xFF#8, 0xFF#8,
   0xFF#8, 0xFF#8, 0xFF#8, 0xFF#8, 0xFF#8, 0xFF#8, 0xFF#8, 0xFF#8, 0xFF#8, 0xFF#8, 0xFF#8, 0xFF#8, 0xFF#8, 0xFF#8, 0xFF#8, 0xFF#8,
   0xFF#8, 0xFF#8, 0xFF#8, 0xFF#8, 0xFF#8, 0xFF#8, 0xFF#8, 0xFF#8, 0xFF#8, 0xFF#8, 0xFF#8, 0xFF#8, 0xFF#8, 0xFF#8, 0xFF#8, 0xFF#8,
   0xFF#8, 0xFF#8, 0xFF#8, 0xFF#8, 0xFF#8, 0xFF#8, 0xFF#8, 0xFF#8, 0xFF#8, 0xFF#8, 0xFF#8, 0xFF#8, 0xFF#8, 0xFF#8, 0xFF#8, 0xFF#8,
   0x01#8, 0x04#8, 0x07#8, 0x0A#8, 0x0D#8, 0x10#8, 0x13#8, 0x16#8, 0x19#8, 0x1C#8, 0x7F#8, 0x7F#8, 0x7F#8, 0x7F#8, 0x2B#8, 0x2E#8,
   0x31#8, 0x34#8, 0x37#8, 0x3A#8, 0x3D#8, 0x40#8]
def p1 : List Byte :=
  [0x57#8, 0x4F#8, 0x4C#8, 0x46#8, 0x16#8, 0x7F#8, 0x00#8, 0x00#8, 0x05#8, 0x00#8, 0x07#8, 0x02#8, 0x7F#8, 0x00#8, 0x00#8, 0x0D#8,
   0x00#8, 0x3B#8, 0x43#8, 0x5A#8, 0x7F#8, 0x00#8, 0x00#8, 0x22#8, 0x00#8, 0x22#8, 0x20#8, 0x00#8, 0x03#8, 0x00#8, 0x11#8, 0x43#8,
   0x5A#8, 0x7F#8, 0x00#8, 0x00#8, 0x73#8, 0x00#8, 0x4C#8, 0xFF#8, 0x7F#8, 0x00#8, 0x00#8, 0xC0#8, 0x00#8, 0x0A#8, 0x7F#8, 0x7F#8,
   0x7F#8, 0x7F#8, 0x7F#8, 0x7F#8, 0x7F#8, 0x7F#8, 0x7F#8, 0x00#8, 0x00#8, 0xCE#8, 0x00#8, 0x06#8, 0x3D#8, 0x40#8]
def p2 : List Byte :=
  [0x57#8, 0x4F#8, 0x4C#8, 0x46#8, 0x14#8, 0x7F#8, 0x00#8, 0x00#8, 0x05#8, 0x00#8, 0x07#8, 0x01#8, 0x7F#8, 0x00#8, 0x00#8, 0x0D#8,
   0x00#8, 0x3B#8, 0x0F#8, 0x58#8, 0x7F#8, 0x00#8, 0x00#8, 0x22#8, 0x00#8, 0x22#8, 0x20#8, 0x00#8, 0x03#8, 0x00#8, 0x11#8, 0x0F#8,
   0x58#8, 0x7F#8, 0x00#8, 0x00#8, 0x73#8, 0x00#8, 0x4C#8, 0xFF#8, 0x7F#8, 0x00#8, 0x00#8, 0xC0#8, 0x00#8, 0x0A#8, 0x1F#8, 0x22#8,
   0x25#8, 0x28#8, 0x2B#8, 0x2E#8, 0x31#8, 0x34#8, 0x37#8, 0x3A#8]
def del : List Byte :=
  [0x57#8, 0x4F#8, 0x4C#8, 0x46#8, 0x78#8, 0x00#8, 0x00#8, 0x00#8, 0x01#8, 0x00#8, 0x04#8, 0x00#8, 0x02#8, 0x00#8, 0x00#8, 0x00#8,
   0xFF#8, 0xFF#8, 0xFF#8, 0xFF#8, 0x04#8, 0x00#8, 0x02#8, 0x00#8, 0xD1#8, 0x02#8, 0xFF#8, 0xFF#8, 0x05#8, 0x00#8, 0x04#8, 0x00#8,
   0x01#8, 0x00#8, 0x00#8, 0x00#8, 0x06#8, 0x00#8, 0x04#8, 0x00#8, 0x3E#8, 0x00#8, 0x00#8, 0x00#8, 0x15#8, 0x00#8, 0x04#8, 0x00#8,
   0x00#8, 0x01#8, 0x00#8, 0x00#8, 0x16#8, 0x00#8, 0x04#8, 0x00#8, 0x38#8, 0x00#8, 0x00#8, 0x00#8, 0x07#8, 0x00#8, 0x20#8, 0x00#8,
   0x0F#8, 0x58#8, 0xA5#8, 0xA5#8, 0xA5#8, 0xA5#8, 0xA5#8, 0xA5#8, 0xA5#8, 0xA5#8, 0xA5#8, 0xA5#8, 0xA5#8, 0xA5#8, 0xA5#8, 0xA5#8,
   0xA5#8, 0xA5#8, 0xA5#8, 0xA5#8, 0xA5#8, 0xA5#8, 0xA5#8, 0xA5#8, 0xA5#8, 0xA5#8, 0xA5#8, 0xA5#8, 0xA5#8, 0xA5#8, 0xA5#8, 0xA5#8,
   0xFF#8, 0xFF#8, 0xFF#8, 0xFF#8, 0x10#8, 0x00#8, 0x20#8, 0x00#8, 0x44#8, 0x01#8, 0xA5#8, 0xA5#8, 0xA5#8, 0xA5#8, 0xA5#8, 0xA5#8,
   0xA5#8, 0xA5#8, 0xA5#8, 0xA5#8, 0xA5#8, 0xA5#8, 0xA5#8, 0xA5#8, 0xA5#8, 0xA5#8, 0xA5#8, 0xA5#8, 0xA5#8, 0xA5#8, 0xA5#8, 0xA5#8,
   0xA5#8, 0xA5#8, 0xA5#8, 0xA5#8, 0xA5#8, 0xA5#8, 0xA5#8, 0xA5#8, 0xFF#8, 0xFF#8, 0xFF#8, 0xFF#8, 0x03#8, 0x00#8, 0x20#8, 0x00#8,
   0x18#8, 0x04#8, 0xA5#8, 0xA5#8, 0xA5#8, 0xA5#8, 0xA5#8, 0xA5#8, 0xA5#8, 0xA5#8, 0xA5#8, 0xA5#8, 0xA5#8, 0xA5#8, 0xA5#8, 0xA5#8,
   0xA5#8, 0xA5#8, 0xA5#8, 0xA5#8, 0xA5#8, 0xA5#8, 0xA5#8, 0xA5#8, 0xA5#8, 0xA5#8, 0xA5#8, 0xA5#8, 0xA5#8, 0xA5#8, 0xA5#8, 0xA5#8,
   0xFF#8, 0xFF#8, 0xFF#8, 0xFF#8, 0x20#8, 0x00#8, 0x03#8, 0x00#8, 0x11#8, 0x18#8, 0x04#8, 0xFF#8, 0xFF#8, 0xFF#8, 0xFF#8, 0xFF#8,
   0x57#8, 0x4F#8, 0x4C#8, 0x46#8, 0x16#8, 0x7F#8, 0x00#8, 0x00#8, 0x05#8, 0x00#8, 0x07#8, 0x02#8, 0x7F#8, 0x00#8, 0x00#8, 0x0D#8,
   0x00#8, 0x3B#8, 0x43#8, 0x5A#8, 0x7F#8, 0x00#8, 0x00#8, 0x22#8, 0x00#8, 0x22#8, 0x20#8, 0x00#8, 0x03#8, 0x00#8, 0x11#8, 0x43#8,
   0x5A#8, 0x7F#8, 0x00#8, 0x00#8, 0x73#8, 0x00#8, 0x4C#8, 0xFF#8, 0x7F#8, 0x00#8, 0x00#8, 0xC0#8, 0x00#8, 0x0A#8, 0x7F#8, 0x7F#8,
   0x7F#8, 0x7F#8, 0x7F#8, 0x7F#8, 0x7F#8, 0x7F#8, 0x7F#8, 0x00#8, 0x00#8, 0xCE#8, 0x00#8, 0x06#8, 0x3D#8, 0x40#8, 0x00#8, 0x00#8,
   0x57#8, 0x4F#8, 0x4C#8, 0x46#8, 0x14#8, 0x7F#8, 0x00#8, 0x00#8, 0x05#8, 0x00#8, 0x07#8, 0x01#8, 0x7F#8, 0x00#8, 0x00#8, 0x0D#8,
   0x00#8, 0x3B#8, 0x0F#8, 0x58#8, 0x7F#8, 0x00#8, 0x00#8, 0x22#8, 0x00#8, 0x22#8, 0x20#8, 0x00#8, 0x03#8, 0x00#8, 0x11#8, 0x0F#8,
   0x58#8, 0x7F#8, 0x00#8, 0x00#8, 0x73#8, 0x00#8, 0x4C#8, 0xFF#8, 0x7F#8, 0x00#8, 0x00#8, 0xC0#8, 0x00#8, 0x0A#8, 0x1F#8, 0x22#8,
   0x25#8, 0x28#8, 0x2B#8, 0x2E#8, 0x31#8, 0x34#8, 0x37#8, 0x3A#8]

/-- The outcome is this file. -/
def isFile (l : List Byte) : SignOut → Bool
  | .file l' => l == l'
  | .overflow => false

theorem file_eq {l : List Byte} {s : SignOut} (h : isFile l s = true) : s = .file l := by
  cases s with
  | file l' => simp only [isFile, beq_iff_eq] at h; rw [h]
  | overflow => exact absurd h (by simp [isFile])

theorem p1_eq : patch 192 base new = p1 := by decide +kernel
theorem p2_eq : patch 192 new base = p2 := by decide +kernel

theorem del_eq : baseDiff (opts 2) false none 192 192 16 base new = some (.file del) := by
  have h1 : findHdr (ofList base) 192 0x01 = .found 12 4 := by decide +kernel
  have h2 : findHdr (ofList base) 192 (opts 2).algo.tag = .found 72 32 := by decide +kernel
  unfold baseDiff
  rw [if_neg (by decide +kernel), h1]
  dsimp only
  rw [if_neg (by decide +kernel), if_neg (by decide +kernel), if_neg (by decide), h2]
  dsimp only
  rw [if_neg (by decide)]
  unfold patchFile deltaOpts
  rw [p1_eq, p2_eq]
  exact congrArg some (file_eq (by decide +kernel))

theorem signer (v : Nat) : Signer dev (opts v) 192 where
  hdr := rfl
  tag := rfl
  hash := rfl
  dlen := fun _ => rfl
  auth := by show 0x0201 / 256 = 2; decide
  hyb := rfl
  one := rfl
  sig := fun l => by
    show (key.pub ++ [l.headD 0#8, l.tail.headD 0#8]).length = 3
    rfl
  key := ⟨key, by simp [dev], rfl, by show key.mask.getLsbD (0x0201 % 16) = true; decide, fun l => by simp [dev, opts]⟩

theorem opts_wf {v : Nat} {l : List Byte} (hv : v < 4294967296) (hl : l.length < 4294967296) : (opts v).WF l where
  ver := hv
  ts := by rintro t ht; cases ht
  typ := by show 0x0201 < 65536; decide
  cust := by intro c hc; exact absurd hc (by simp [opts])
  hlen := fun l => ⟨by simp [opts, hash32], by simp [opts, hash32]⟩
  cipher := by rintro c p h; cases h
  bhash := by rintro d h hd hh; cases hd
  sig := by
    rw [(signer v).sig]
    decide
  sig2 := by show ([] : List Byte).length < 65536; decide
  pol := by rintro p hp; cases hp
  img := hl

theorem wf : cfg.WF := by constructor <;> decide

theorem dev_ok : Dev dev cfg where
  img := by constructor <;> decide
  keys := by
    refine ⟨by decide, ?_⟩
    intro s hs s' hs' _
    simp only [dev, List.mem_cons, List.not_mem_nil, or_false] at hs hs'
    rw [hs, hs']
  hdr := by decide
  dlen := by decide
  sig := by decide

theorem job : Job dev cfg dcfg (opts 1) (opts 2) false none 16 imgB img base new del where
  dev := dev_ok
  sb := signer 1
  so := signer 2
  wb := opts_wf (by decide) (by decide)
  wn := opts_wf (by decide) (by decide)
  time := by rintro t ht; cases ht
  mkB := file_eq (by decide +kernel)
  mkN := file_eq (by decide +kernel)
  mkD := del_eq
  pos := by decide
  fitB := by decide +kernel
  fitN := by decide +kernel
  fitD := by decide +kernel
  typB := by decide
  typN := by decide
  newer := by decide
  block := by decide
  dlen := rfl
  tag := rfl
  diff := ⟨by decide, by decide, by decide +kernel, by decide +kernel, fun i j h1 h2 => by
    have : new.length = 214 := by decide +kernel
    omega⟩
  diffI := ⟨by decide, by decide, by decide +kernel, by decide +kernel, fun i j h1 h2 => by
    have : base.length = 212 := by decide +kernel
    omega⟩
  word := by decide +kernel
  wordI := by decide +kernel

/-- A partition: an image in front, state given, the rest erased. -/
def withTrailer (m : Mem) (state : Option Byte) : Mem := fun o =>
  match state with
  | none => if o < 576 then m o else 0xFF#8
  | some s =>
    if o < 576 then m o
    else match o with
      | 763 => s | 764 => 0x42#8 | 765 => 0x4F#8 | 766 => 0x4F#8 | 767 => 0x54#8
      | _ => 0xFF#8

def flash (b : Mem) (bs : Option Byte) (u : Mem) (us : Option Byte) : Flash
  | .boot => withTrailer b bs
  | .update => withTrailer u us
  | .swap => fun _ => 0xFF#8

/-- The base running and confirmed, the delta image in UPDATE, requested; the new image installed and not confirmed. -/
def pending : Flash := flash (ofList base) (some ST_SUCCESS) (ofList del) (some ST_UPDATING)
def updated : Flash := flash (ofList new) (some ST_TESTING) (ofList del) none

theorem holds_of {f : Flash} {p : Part} {X : Mem} (h : Demo.eqUpto f p X (imageBytes cfg X) = true) :
    Holds cfg f p X := by
  intro o ho
  unfold Demo.eqUpto at h
  rw [List.all_eq_true] at h
  simpa using h o (List.mem_range.mpr ho)

theorem pending_ok : Pending cfg (ofList base) (ofList del) pending :=
  ⟨holds_of (by decide +kernel), holds_of (by decide +kernel), by decide +kernel, by decide +kernel, by
    unfold Quiet; decide +kernel⟩

theorem updated_ok : Updated cfg (ofList new) (ofList del) updated :=
  ⟨holds_of (by decide +kernel), holds_of (by decide +kernel), by decide +kernel, by
    intro x h1 h2
    have h3 : ∀ x, x < 768 → 576 ≤ x → updated .update x = 0xFF#8 := by decide +kernel
    exact h3 x h2 h1, by unfold Quiet; decide +kernel⟩

/-- Power failures during the installation and during the rollback. -/
def cut : Flash := Demo.crashFl (bootFailD cfg (imgEnv dev cfg 0#8) dcfg pending 15 (fun _ => 0x33#8))
def rcut : Flash := Demo.crashFl (bootFailD cfg (imgEnv dev cfg 0#8) dcfg updated 15 (fun _ => 0x33#8))

theorem torn_ok : TornNoMagic cfg (fun _ => 0x33#8) := by
  unfold TornNoMagic TornOK
  exact ⟨by decide, by decide⟩

/-- `tool_delta_update_partial`. -/
example : ∃ w', bootUpD cfg (imgEnv dev cfg 0#8) dcfg cut = .ok () w' ∧ w'.locked = true ∧
    Updated cfg (ofList new) (ofList del) w'.fl ∧ bootable cfg (imgEnv dev cfg 0#8) (w'.fl .boot) := by
  refine tool_delta_update_partial wf job pending_ok ?_
  have h1 : Demo.isCrash (bootFailD cfg (imgEnv dev cfg 0#8) dcfg pending 15 (fun _ => 0x33#8)) = true := by decide +kernel
  have n1 : ¬ Updated cfg (ofList new) (ofList del) cut := fun h => absurd h.state (by decide +kernel)
  exact .again .none torn_ok.1 (Demo.isCrash_eq h1) n1

/-- `tool_delta_rollback_partial`. -/
example : ∃ w', bootUpD cfg (imgEnv dev cfg 0#8) dcfg rcut = .ok () w' ∧ w'.locked = true ∧
    Updated cfg (ofList base) (ofList del) w'.fl ∧ bootable cfg (imgEnv dev cfg 0#8) (w'.fl .boot) := by
  refine tool_delta_rollback_partial wf job (by decide) (by decide) updated_ok ?_
  have h1 : Demo.isCrash (bootFailD cfg (imgEnv dev cfg 0#8) dcfg updated 15 (fun _ => 0x33#8)) = true := by decide +kernel
  have n1 : ¬ Updated cfg (ofList base) (ofList del) rcut := fun h => absurd (h.new 0 (by decide +kernel)) (by decide +kernel)
  exact .again .none torn_ok (Demo.isCrash_eq h1) n1

/-- `tool_delta_never_lost_partial`. -/
example : ∃ w', bootUpD cfg (imgEnv dev cfg 0#8) dcfg cut = .ok () w' ∧ w'.locked = true ∧
    (Updated cfg (ofList new) (ofList del) w'.fl ∨ Updated cfg (ofList base) (ofList del) w'.fl) ∧
    bootable cfg (imgEnv dev cfg 0#8) (w'.fl .boot) := by
  refine tool_delta_never_lost_partial wf job (by decide) (by decide) pending_ok ?_
  have h1 : Demo.isCrash (bootFailD cfg (imgEnv dev cfg 0#8) dcfg pending 15 (fun _ => 0x33#8)) = true := by decide +kernel
  exact .again .none torn_ok (Demo.isCrash_eq h1) trivial

/-- `tool_delta_layout`. -/
example : deltaInfo 192 (ofList del) false = some (192, 62) ∧ deltaInfo 192 (ofList del) true = some (256, 56) ∧
    del.drop 256 = p2 := by decide +kernel

/-- Non-vacuity of `tool_delta_input`. -/
example : ∃ off, findHdr (ofList base) 192 0x01 = .found off 4 ∧ le32 (ofList base) off ≠ 0 := (tool_delta_input del_eq).2.2.2.1

/-- The options of `SignDemo`, without the secondary key. -/
def optsH : SignOpts := { SignDemo.opts with secondary := none, sign2 := fun _ => [] }

theorem optsH_wf : optsH.WF ImgDemo.fwB :=
  ⟨SignDemo.opts_wf.ver, SignDemo.opts_wf.ts, SignDemo.opts_wf.typ, SignDemo.opts_wf.cust, SignDemo.opts_wf.hlen,
    (by rintro c p h; cases h), SignDemo.opts_wf.bhash, by decide +kernel, by decide, SignDemo.opts_wf.pol, SignDemo.opts_wf.img⟩

/-- `tool_delta_hybrid_refused`: the tool makes the file, with the right signatures of both keys. -/
example : ∃ l, signHybrid optsH SignDemo.opts.sign2 256 ImgDemo.fwB = .file l ∧ ∀ dg,
    verifyImage SignDemo.dev (ofList l) ImgDemo.fwB.length dg ≠ .ok := by
  have h : signHybrid optsH SignDemo.opts.sign2 256 ImgDemo.fwB = .file (hybridHeader optsH SignDemo.opts.sign2 ImgDemo.fwB ++
      List.replicate (256 - (hybridHeader optsH SignDemo.opts.sign2 ImgDemo.fwB).length) 0xFF#8 ++ ImgDemo.fwB) := by
    unfold signHybrid
    rw [if_neg (by decide +kernel)]
  refine ⟨_, h, fun dg => tool_delta_hybrid_refused SignDemo.dev optsH SignDemo.opts.sign2 ImgDemo.fwB _ _ SignDemo.dev_keys rfl
    optsH_wf (by decide +kernel) rfl h (hasBytes_ofList _) (by decide) (by decide) dg⟩

end Verif.DeltaToolDemo
