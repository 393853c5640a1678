import Verif.SignPy

/-!
# C73: the hypotheses can be met
-/

namespace Verif.SignStepsEx

open Verif Verif.SignSteps Verif.SignPy Verif.ImgDemo

/-- Toy signature: all bytes are a checksum of key and digest. -/
def toySig (n : Nat) (p d : List Byte) : List Byte := List.replicate n ((p ++ d).foldl (· ^^^ ·) 0x33#8)

/-- Toy key files: raw ECC and Ed25519 keys, RSA "DER" files that are the public key (private key: behind a byte). -/
def lib : KeyLib where
  decPub := fun _ f => if f.length = 91 then some (f.drop 27) else none
  decPriv := fun a f => if isRsa a = true then some (f.drop 1) else none
  impRaw := fun _ _ => true
  rsaSz := fun _ => 256
  sign := fun a f d => some (toySig a.sigSize (if isRsa a = true then f.drop 1 else f.take 64) d)

def job : Job :=
  { version := 3, timestamp := some (List.replicate 8 1#8), part := 1, custom := [(0x30, [1#8, 2#8, 3#8])], algo := .sha256, hash := toyHash }

def p : List Byte := List.replicate 64 7#8
def priv : List Byte := p ++ List.replicate 32 9#8

theorem privOK : PrivFile lib .ecc256 priv p := .inl ⟨List.replicate 32 9#8, rfl, rfl, rfl, rfl⟩
theorem pubOK : PubFile lib .ecc256 p p := .inl ⟨rfl, rfl⟩

/-- A DER file of the same public key. -/
example : PubFile lib .ecc256 (List.replicate 27 1#8 ++ p) p := .inr ⟨by decide, by decide⟩

def outOne : List Byte := match run lib job (some .ecc256) 0 .oneStep priv fwB with | .image l => l | _ => []

theorem outOne_eq : run lib job (some .ecc256) 0 .oneStep priv fwB = .image outOne := by decide +kernel

example : ∃ d s, run lib job (some .ecc256) 0 .shaOnly p fwB = .digest d ∧ lib.sign .ecc256 priv d = some s ∧ run lib job (some .ecc256) 0 (.manual s) p fwB = .image outOne :=
  three_steps lib job .ecc256 0 priv p p fwB outOne privOK pubOK ((hdr_same_iff _ _ _ _).mpr (by simp [isRsa]))
    (by rintro d s h; cases h; simp [toySig]) outOne_eq

example : outOne.length = 256 + 7 := by decide +kernel

/-- RSA 2048: the same, with the standard header; with `IMAGE_HEADER_SIZE=1024` the sizes differ. -/
example : hdrPub .rsa2048 .sha256 512 p = hdrOne .rsa2048 .sha256 512 ∧ hdrPub .rsa2048 .sha256 1024 p ≠ hdrOne .rsa2048 .sha256 1024 := by decide +kernel

example : ∃ l l', run lib job (some .rsa2048) 1024 .oneStep (0#8 :: p) fwB = .image l ∧ l.length = 1031 ∧
    run lib job (some .rsa2048) 1024 (.manual (List.replicate 256 5#8)) p fwB = .image l' ∧ l'.length = 519 := by
  refine ⟨match run lib job (some .rsa2048) 1024 .oneStep (0#8 :: p) fwB with | .image l => l | _ => [],
    match run lib job (some .rsa2048) 1024 (.manual (List.replicate 256 5#8)) p fwB with | .image l => l | _ => [], ?_, ?_, ?_, ?_⟩ <;> decide +kernel

/-- A device for these images. -/
def dev : ImgCfg :=
  { H := 256, blk := 16, shaTag := 3, dlen := 2, authType := 2, sigSz := 64, sigSz2 := 0, hybrid := false
    keys := [⟨p, 2#32⟩, k2], hash := toyHash, verify := fun p d s => s == toySig 64 p d, verify2 := fun _ _ _ => false }

def sigF : List Byte := toySig 64 p ((job.opts .ecc256 p (fun _ => []) none).digest fwB)

theorem wfO (s : List Byte) (h : s.length < 65536) : (job.opts .ecc256 p (fun _ => s) none).WF fwB where
  ver := show 3 < 4294967296 by decide
  ts := by rintro t ht; cases ht; decide
  typ := show 0x0201 < 65536 by decide
  cust := by
    intro c hc
    simp only [Job.opts, job, List.mem_cons, List.not_mem_nil, or_false] at hc
    subst hc
    unfold CustomOK
    decide
  hlen := fun l => ⟨by simp [Job.opts, job, toyHash], by simp [Job.opts, job, toyHash]⟩
  cipher := by rintro c p h; cases h
  bhash := by rintro d h hd hh; cases hd
  sig := h
  sig2 := show 0 < 65536 by decide
  pol := by rintro p hp; cases hp
  img := by decide

theorem devKeys : DistinctKeys dev := by
  refine ⟨by decide, ?_⟩
  intro s hs s' hs'
  simp only [dev, List.mem_cons, List.not_mem_nil, or_false] at hs hs'
  rcases hs with rfl | rfl <;> rcases hs' with rfl | rfl
  · simp
  · intro h; exact absurd h (by decide +kernel)
  · intro h; exact absurd h (by decide +kernel)
  · simp

theorem fitsO (s : List Byte) (h : s.length = 64) : Fits dev (job.opts .ecc256 p (fun _ => s) none) 256 fwB where
  hdr := rfl
  tag := rfl
  hash := rfl
  dlen := fun _ => rfl
  hyb := rfl
  sig := h
  keys := devKeys
  small := by decide
  d0 := by decide
  s0 := by decide
  blk := by decide
  room := by decide

/-- The image with the right signature is accepted; one with another signature is made as well, and not accepted. -/
example : (∃ l, run lib job (some .ecc256) 0 (.manual sigF) p fwB = .image l ∧ verifyImage dev (ofList l) 7 [] = .ok) ∧
    ∃ l, run lib job (some .ecc256) 0 (.manual (List.replicate 64 0#8)) p fwB = .image l ∧ verifyImage dev (ofList l) 7 [] ≠ .ok := by
  have hm : ∀ l : List Byte, HasBytes (ofList l) l := fun l i b h => by simp [ofList, h]
  constructor
  · refine ⟨match run lib job (some .ecc256) 0 (.manual sigF) p fwB with | .image l => l | _ => [], by decide +kernel, ?_⟩
    obtain ⟨dg, h1, h2⟩ := manual_accepted_iff lib job .ecc256 0 p p fwB sigF _ dev _ [] pubOK
      (show _ = Out.image (match run lib job (some .ecc256) 0 (.manual sigF) p fwB with | .image l => l | _ => []) by decide +kernel) (hm _)
      (wfO _ (by decide +kernel)) (fitsO _ (by decide +kernel))
    have e : run lib job (some .ecc256) 0 .shaOnly p fwB = .digest ((job.opts .ecc256 p (fun _ => []) none).digest fwB) := by decide +kernel
    rw [e] at h1
    cases h1
    exact h2.mpr ⟨by decide, ⟨p, 2#32⟩, by simp [dev], by decide, rfl, by decide +kernel⟩
  · refine ⟨match run lib job (some .ecc256) 0 (.manual (List.replicate 64 0#8)) p fwB with | .image l => l | _ => [], by decide +kernel, ?_⟩
    obtain ⟨dg, h1, h2⟩ := manual_accepted_iff lib job .ecc256 0 p p fwB (List.replicate 64 0#8) _ dev _ [] pubOK
      (show _ = Out.image (match run lib job (some .ecc256) 0 (.manual (List.replicate 64 0#8)) p fwB with | .image l => l | _ => []) by decide +kernel) (hm _)
      (wfO _ (by decide +kernel)) (fitsO _ (by decide +kernel))
    have e : run lib job (some .ecc256) 0 .shaOnly p fwB = .digest ((job.opts .ecc256 p (fun _ => []) none).digest fwB) := by decide +kernel
    rw [e] at h1
    cases h1
    intro hc
    obtain ⟨-, s, hs, -, h3, h4⟩ := h2.mp hc
    simp only [dev, List.mem_cons, List.not_mem_nil, or_false] at hs
    rcases hs with rfl | rfl
    · exact absurd h4 (by decide +kernel)
    · exact absurd h3 (by decide +kernel)

/-! ## The findings -/

def hash48 (l : List Byte) : List Byte := List.replicate 48 (l.foldl (· ^^^ ·) 0x55#8)

def job384 : Job := { version := 3, timestamp := none, part := 1, custom := [], algo := .sha384, hash := hash48 }

theorem wf384 (a : Alg) (s : List Byte) (h : s.length < 65536) : (job384.opts a p (fun _ => s) none).WF fwB where
  ver := show 3 < 4294967296 by decide
  ts := by rintro t ht; cases ht
  typ := by cases a <;> simp [Job.opts, Alg.auth, job384]
  cust := by intro c hc; cases hc
  hlen := fun l => ⟨by simp [Job.opts, job384, hash48], by simp [Job.opts, job384, hash48]⟩
  cipher := by rintro c p h; cases h
  bhash := by rintro d h hd hh; cases hd
  sig := h
  sig2 := show 0 < 65536 by decide
  pol := by rintro p hp; cases hp
  img := by decide

/-- RSA 3072 with SHA-384: `--manual-sign` overflows its buffer, the run with the private key makes an image. -/
example : run lib job384 (some .rsa3072) 0 (.manual (List.replicate 384 5#8)) p fwB = .overflow ∧
    ∃ l, run lib job384 (some .rsa3072) 0 .oneStep (0#8 :: p) fwB = .image l ∧ l.length = 1031 := by
  refine ⟨(rsa3072_manual_overflow lib job384 0 p fwB (List.replicate 384 5#8) (by simp [job384]) (fun x => by simp [job384, hash48]) (by decide)
    (by decide +kernel) (wf384 _ _ (by decide +kernel))).1, match run lib job384 (some .rsa3072) 0 .oneStep (0#8 :: p) fwB with | .image l => l | _ => [], ?_, ?_⟩ <;> decide +kernel

/-- A key of 4096 bits with `--rsa2048`. -/
def lib4096 : KeyLib := { lib with rsaSz := fun _ => 512, sign := fun _ _ d => some (toySig 512 p d) }

def job256 : Job := { job384 with algo := .sha256 }

theorem wf256 (a : Alg) (s : List Byte) (h : s.length < 65536) : (job256.opts a p (fun _ => s) none).WF fwB where
  ver := show 3 < 4294967296 by decide
  ts := by rintro t ht; cases ht
  typ := by cases a <;> simp [Job.opts, Alg.auth, job384, job256]
  cust := by intro c hc; cases hc
  hlen := fun l => ⟨by simp [Job.opts, job256, job384, hash48], by simp [Job.opts, job256, job384, hash48]⟩
  cipher := by rintro c p h; cases h
  bhash := by rintro d h hd hh; cases hd
  sig := h
  sig2 := show 0 < 65536 by decide
  pol := by rintro p hp; cases hp
  img := by decide

example : run lib4096 job256 (some .rsa2048) 0 .oneStep (0#8 :: p) fwB = .overflow :=
  rsa_key_size_overflow lib4096 job256 .rsa2048 (0#8 :: p) p fwB _ (.inl rfl) rfl rfl rfl rfl List.length_replicate
    (wf256 _ _ (by unfold toySig; rw [List.length_replicate]; decide))

example : run lib job (some .ecc256) 0 .oneStep [1#8, 2#8] fwB = .freed :=
  ecc_bad_key_not_refused lib job .ecc256 0 .oneStep [1#8, 2#8] fwB rfl rfl (by decide) (by decide) rfl rfl

example : ∃ l, run lib job (some .ecc256) 0 (.manual [1#8, 2#8]) p fwB = .image l := by
  rw [short_signature_used lib job .ecc256 0 p p fwB [1#8, 2#8] pubOK (by decide) (by decide)]
  exact ⟨match Out.of (signTool (job.opts .ecc256 p (fun _ => [1#8, 2#8]) none) (hdrPub .ecc256 job.algo 0 p) fwB) with | .image l => l | _ => [], by decide +kernel⟩

/-- The mask 0x00000009 of the policy becomes the start of the signature. -/
example : policyManual [0xAA#8, 0xBB#8, 0xCC#8, 0xDD#8] 6 [9#8, 0#8, 0#8, 0#8, 1#8, 2#8, 3#8, 4#8, 5#8, 6#8] =
    some [1#8, 2#8, 3#8, 4#8, 5#8, 6#8, 0xAA#8, 0xBB#8, 0xCC#8, 0xDD#8] := by decide

example : policyOne (fun d => some (toySig 3 p d)) ([9#8, 0#8, 0#8, 0#8] ++ List.replicate 32 1#8) = some ([9#8, 0#8, 0#8, 0#8] ++ toySig 3 p (List.replicate 32 1#8)) :=
  policy_one _ [9#8, 0#8, 0#8, 0#8] (List.replicate 32 1#8) _ [] rfl (by decide) rfl

/-! ## The script -/

def pj : PyJob := { version := 3, mtime := 1700000000, alg := some .ecc256, part := 1, delta := none, algo := .sha256, hash := toyHash }

def pySign (d : List Byte) : List Byte := toySig 64 p d

theorem pyFits : PyFits dev pj (pySign (pj.digest fwB)) fwB where
  tag := rfl
  hash := rfl
  dlen := fun _ => rfl
  even := by decide
  hyb := rfl
  sig := ⟨by simp [pySign, toySig, dev], by decide⟩
  keys := devKeys
  small := by decide
  d0 := by decide
  s0 := by decide
  blk := by decide
  room := by decide

example : ∃ l d, pyRun pj .ecc256 256 .oneStep pySign p fwB = .image l ∧ verifyImage dev (ofList l) 7 [] = .ok ∧
    pyRun pj .ecc256 256 .shaOnly pySign p fwB = .digest d ∧ pyRun pj .ecc256 256 (.manual (pySign d)) pySign p fwB = .image l := by
  have h1 : pyRun pj .ecc256 256 .oneStep pySign p fwB = .image (pyFile 256 (pj.header p 64 (pySign (pj.digest fwB)) fwB) fwB) := by decide +kernel
  obtain ⟨d, h2, h3⟩ := py_three_steps pj .ecc256 256 pySign p fwB _ ((py_sizes_same_iff _ _ _).mpr (by simp)) (fun d => by simp [pySign, toySig, Alg.sigSize]) h1
  refine ⟨_, d, h1, ?_, h2, h3⟩
  have hlen : (pySign (pj.digest fwB)).length = 64 := by simp [pySign, toySig]
  refine (py_accepted_iff (k := dev) (j := pj) (a := .ecc256) (pub := p) (sig := pySign (pj.digest fwB)) rfl (by decide) pyFits (by decide +kernel) ?_ []).mpr ?_
  · rw [hlen]
    exact fun i b h => by simp [ofList, show dev.H = 256 from rfl] at h ⊢; rw [h]; rfl
  · exact ⟨by decide, ⟨p, 2#32⟩, by simp [dev], by decide, rfl, by decide +kernel⟩

def pj384 : PyJob := { pj with algo := .sha384, hash := hash48 }

/-- The program is behind 536 bytes of header, and the device looks for it behind 512 bytes. -/
example : ∃ hdr, pyRun pj384 .rsa3072 256 (.manual (List.replicate 384 5#8)) pySign p fwB = .image (hdr ++ fwB) ∧ hdr.length = 536 ∧ (sizesPub 256 .rsa3072).1 = 512 :=
  py_rsa3072_misplaced pj384 256 pySign p fwB (List.replicate 384 5#8) rfl (by decide) (fun x => by simp [pj384, hash48]) (by decide +kernel) (by decide +kernel)

example : ∀ l, pyRun pj .ecc384 512 (.manual (List.replicate 96 5#8)) pySign p fwB ≠ .image l :=
  fun l => py_manual_refused pj .ecc384 512 pySign p fwB (List.replicate 96 5#8) l (.inr (.inl rfl)) (by decide)

def pjDelta : PyJob := { pj with delta := some ⟨2, 100, 400, 90⟩ }

example (inv : Bool) : deltaInfo 256 (ofList (pyFile 256 (pjDelta.header p 64 (pySign []) fwB) fwB)) inv = none := by
  have hlen : (pySign []).length = 64 := by simp [pySign, toySig]
  refine py_delta_refused (j := pjDelta) (a := .ecc256) (pub := p) (sig := pySign []) (img := fwB) rfl ⟨2, 100, 400, 90⟩ rfl (fun l => ⟨by simp [pjDelta, pj, toyHash], by simp [pjDelta, pj, toyHash]⟩)
    (by rw [hlen]; decide) (by decide) (by decide +kernel) ?_ inv
  rw [hlen]
  exact fun i b h => by simp [ofList, h]

end Verif.SignStepsEx
