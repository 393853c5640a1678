import Verif.CryptThms

/-!
# Sector copies in builds with encrypted external flash

`wolfBoot_copy_sector`, `/repo/src/update_flash.c:136-208`, with `EXT_FLASH`, `EXT_ENCRYPTED`, UPDATE and SWAP in
external flash and BOOT in internal flash.
-/

namespace Verif

/-- Internal BOOT partition and external flash. -/
structure EWorld where
  boot : Mem
  x : XSt

/-- Outcome of a copy: `none` is an error or an access outside a buffer. -/
abbrev ERes := Option EWorld

/-- `hal_flash_erase` / `hal_flash_write` on BOOT. -/
def EWorld.eraseBoot (w : EWorld) (off len : Nat) : EWorld :=
  { w with boot := fun y => if off ≤ y ∧ y < off + len then 0xFF#8 else w.boot y }
def EWorld.writeBoot (w : EWorld) (off len : Nat) (d : Mem) : EWorld :=
  { w with boot := fun y => if off ≤ y ∧ y < off + len then w.boot y &&& d (y - off) else w.boot y }

/-- One chunk from BOOT to an external address: lines 197-206, with `wb_flash_write`
(`/repo/include/image.h:890-897`) and `ext_flash_check_write` = `ext_flash_encrypt_write` (line 874). -/
def chunkOut (k : Cipher) (x : XCfg) (fb : Nat) (src dst : Nat) (w : EWorld) : ERes :=
  match encWrite k x true w.x dst (fun j => w.boot (src + j)) fb with
  | .ok _ s => some { w with x := s }
  | _ => none

/-- One chunk from UPDATE to SWAP: lines 179-181,188-190; read raw, written by `ext_flash_encrypt_write`. -/
def chunkRaw (k : Cipher) (x : XCfg) (fb : Nat) (src dst : Nat) (w : EWorld) : ERes :=
  match encWrite k x true w.x dst (fun j => w.x.fl (src + j)) fb with
  | .ok _ s => some { w with x := s }
  | _ => none

/-- One chunk from an external address to BOOT: lines 183-190, with `ext_flash_check_read` =
`ext_flash_decrypt_read`. -/
def chunkIn (k : Cipher) (x : XCfg) (fb : Nat) (src dst : Nat) (w : EWorld) : ERes :=
  match decRead k x true w.x src fb with
  | .ok out s => some (({ w with x := s } : EWorld).writeBoot dst fb out)
  | _ => none

/-- The loop over the chunks of a sector, lines 174-193 and 197-206: `n` chunks from `pos` on; `lim` is
`fw_size + IMAGE_HEADER_SIZE + FLASHBUFFER_SIZE` of the source and `off` the offset compared with it. -/
def chunkLoop (step : Nat → Nat → EWorld → ERes) (fb lim off src dst : Nat) : Nat → Nat → EWorld → ERes
  | 0, _, w => some w
  | n + 1, pos, w =>
    if off + pos < lim then
      match step (src + pos) (dst + pos) w with
      | some w' => chunkLoop step fb lim off src dst n (pos + fb) w'
      | none => none
    else chunkLoop step fb lim off src dst n (pos + fb) w

/-- `wolfBoot_copy_sector(boot, update, sector)`; `lim` as in `chunkLoop`. `crypto_set_iv` (line 167) is
overridden by every chunk. -/
def copyBU (k : Cipher) (x : XCfg) (fb lim sector : Nat) (w : EWorld) : ERes :=
  let off := sector * x.ss
  chunkLoop (chunkOut k x fb) fb lim off off (x.ua + off) (x.ss / fb) 0
    { w with x := (w.x.setIv (off / k.bs)).erase (x.ua + off) x.ss }

/-- `wolfBoot_copy_sector(update, swap, sector)`. -/
def copyUS (k : Cipher) (x : XCfg) (fb lim sector : Nat) (w : EWorld) : ERes :=
  let off := sector * x.ss
  chunkLoop (chunkRaw k x fb) fb lim off (x.ua + off) x.sa (x.ss / fb) 0
    { w with x := (w.x.setIv (off / k.bs)).erase x.sa x.ss }

/-- `wolfBoot_copy_sector(swap, boot, sector)`: the counter is set once from the destination offset (lines
159-167); `src_sector_offset` is 0. -/
def copySB (k : Cipher) (x : XCfg) (fb lim sector : Nat) (w : EWorld) : ERes :=
  let off := sector * x.ss
  chunkLoop (chunkIn k x fb) fb lim 0 x.sa off (x.ss / fb) 0
    (({ w with x := w.x.setIv (off / k.bs) } : EWorld).eraseBoot off x.ss)

/-- `wolfBoot_copy_sector(boot, swap, sector)`, used by `wolfBoot_swap_and_final_erase` (line 287). -/
def copyBS (k : Cipher) (x : XCfg) (fb lim sector : Nat) (w : EWorld) : ERes :=
  let off := sector * x.ss
  chunkLoop (chunkOut k x fb) fb lim off off x.sa (x.ss / fb) 0
    { w with x := (w.x.setIv (off / k.bs)).erase x.sa x.ss }

/-! ## One chunk -/

/-- Layout for sector copies: chunks are whole blocks and divide a sector, SWAP is apart from UPDATE and
starts at a block boundary. -/
structure SwapWF (k : Cipher) (x : XCfg) (fb : Nat) : Prop extends x.WF k where
  fb_pos : 0 < fb
  fb_blocks : fb % k.bs = 0
  fb_sector : x.ss % fb = 0
  fb_cache : fb ≤ x.cache
  swap_align : x.sa % k.bs = 0
  apart : x.sa + x.ss ≤ x.ua ∨ x.ua + x.ps ≤ x.sa

section
variable {k : Cipher} {x : XCfg} {fb : Nat}

theorem and_ff (b : Byte) : (0xFF#8 : Byte) &&& b = b := BitVec.allOnes_and (x := b)

theorem XCfg.partOf_swap (w : SwapWF k x fb) {a : Nat} (h1 : x.sa ≤ a) (h2 : a < x.sa + x.ss) : x.partOf a = .swap := by
  have := w.apart
  unfold XCfg.partOf
  rw [if_neg (by have := w.sector; omega), if_pos ⟨h1, h2⟩]

theorem encWrite_swap (w : SwapWF k x fb) {s : XSt} {a len : Nat} {d : Mem} (h1 : x.sa ≤ a) (h2 : a < x.sa + x.ss) :
    encWrite k x true s a d len = .ok () (s.write a len d) := by
  unfold encWrite
  dsimp only
  rw [XCfg.partOf_swap w h1 h2]

theorem decRead_swap (w : SwapWF k x fb) {s : XSt} {pos : Nat} (hp : pos % k.bs = 0) (h2 : pos < x.ss) :
    ∃ out s', decRead k x true s (x.sa + pos) fb = .ok out s' ∧ s'.fl = s.fl ∧ s'.ctr = s.ctr + fb / k.bs ∧
      ∀ i, i < fb → out i = s.fl (x.sa + pos + i) ^^^ k.ks (s.ctr + i / k.bs) (i % k.bs) := by
  have ha : (x.sa + pos) % k.bs = 0 := by rw [Nat.add_mod, w.swap_align, hp]; simp
  unfold decRead
  dsimp only
  rw [ha, Nat.sub_zero, XCfg.partOf_swap w (by omega) (by omega)]
  dsimp only
  unfold decHead
  dsimp only
  rw [ha, if_neg (by simp)]
  unfold decMid
  dsimp only
  have hdm : fb / k.bs * k.bs = fb := Nat.div_mul_cancel (Nat.dvd_of_mod_eq_zero w.fb_blocks)
  rw [hdm, Nat.sub_self]
  unfold decLast
  rw [if_pos rfl]
  refine ⟨_, _, rfl, rfl, rfl, ?_⟩
  intro i hi
  unfold blit
  rw [if_pos (by omega), cryptLoop_apply, if_pos (by
    rw [Nat.mul_zero, Nat.zero_add, Nat.mul_comm, hdm]; omega), Nat.sub_zero, Nat.sub_zero]

/-! ## Loops -/

/-- The sector copies write the bytes `src ..` of one place to `dst ..` of another; `V` reads a destination
byte, `S` is what it should become, `Fr` what must not change, `Er` says that a destination byte is still
erased. -/
theorem chunkLoop_spec {step : Nat → Nat → EWorld → ERes} {lim off src dst m : Nat}
    (I : Nat → EWorld → Prop) (hfb : 0 < fb)
    (hstep : ∀ i w, i < m → off + i * fb < lim → I i w →
      ∃ w', step (src + i * fb) (dst + i * fb) w = some w' ∧ I (i + 1) w')
    (hskip : ∀ i w, i < m → ¬ off + i * fb < lim → I i w → I (i + 1) w) :
    ∀ (n i : Nat) (w : EWorld), i + n = m → I i w →
      ∃ w', chunkLoop step fb lim off src dst n (i * fb) w = some w' ∧ I m w'
  | 0, i, w, hm, hi => ⟨w, rfl, by rw [show m = i by omega]; exact hi⟩
  | n + 1, i, w, hm, hi => by
    unfold chunkLoop
    have e : i * fb + fb = (i + 1) * fb := by rw [Nat.add_mul, Nat.one_mul]
    by_cases h : off + i * fb < lim
    · rw [if_pos h]
      obtain ⟨w', h1, h2⟩ := hstep i w (by omega) h hi
      rw [h1]
      dsimp only
      rw [e]
      exact chunkLoop_spec I hfb hstep hskip n (i + 1) w' (by omega) h2
    · rw [if_neg h, e]
      exact chunkLoop_spec I hfb hstep hskip n (i + 1) w (by omega) (hskip i w (by omega) h hi)

theorem mul_fb_le {i m : Nat} (h : i < m) : i * fb + fb ≤ m * fb := by
  have : (i + 1) * fb ≤ m * fb := Nat.mul_le_mul_right _ h
  rw [Nat.add_mul, Nat.one_mul] at this
  exact this

theorem chunks (w : SwapWF k x fb) : x.ss / fb * fb = x.ss :=
  Nat.div_mul_cancel (Nat.dvd_of_mod_eq_zero w.fb_sector)

/-- BOOT to UPDATE: the plaintext of the sector becomes that of BOOT. -/
theorem copyBU_spec (w : SwapWF k x fb) {lim j : Nat} (hj : (j + 1) * x.ss ≤ x.ps - x.ss) (e : EWorld) :
    ∃ e', copyBU k x fb lim j e = some e' ∧ e'.boot = e.boot ∧
      (∀ y, y < x.ss → j * x.ss + y < lim → plainAt k x e'.x.fl (j * x.ss + y) = e.boot (j * x.ss + y)) ∧
      (∀ y, y < x.ua + j * x.ss ∨ x.ua + (j + 1) * x.ss ≤ y → e'.x.fl y = e.x.fl y) := by
  have ess : (j + 1) * x.ss = j * x.ss + x.ss := by rw [Nat.add_mul, Nat.one_mul]
  have hch := chunks w
  unfold copyBU
  dsimp only
  let I : Nat → EWorld → Prop := fun i e' => e'.boot = e.boot ∧
    (∀ y, y < i * fb → j * x.ss + y < lim → plainAt k x e'.x.fl (j * x.ss + y) = e.boot (j * x.ss + y)) ∧
    (∀ y, i * fb ≤ y → y < x.ss → e'.x.fl (x.ua + j * x.ss + y) = 0xFF#8) ∧
    (∀ y, y < x.ua + j * x.ss ∨ x.ua + (j + 1) * x.ss ≤ y → e'.x.fl y = e.x.fl y)
  have hoff : (j * x.ss) % k.bs = 0 := by rw [Nat.mul_mod, w.blocks.1]; simp
  obtain ⟨e', h1, h2⟩ := chunkLoop_spec (fb := fb) (lim := lim) (off := j * x.ss) (src := j * x.ss)
    (dst := x.ua + j * x.ss) (m := x.ss / fb) (step := chunkOut k x fb) I w.fb_pos
    (by
      rintro i e' hi hl ⟨h1, h2, h3, h4⟩
      have hif := mul_fb_le (fb := fb) hi
      rw [hch] at hif
      have hal : (j * x.ss + i * fb) % k.bs = 0 := by
        rw [Nat.add_mod, hoff, Nat.mul_mod, w.fb_blocks]; simp
      have her : Erased e'.x.fl (x.ua + (j * x.ss + i * fb)) fb := by
        intro y ha hb
        have := h3 (y - (x.ua + j * x.ss)) (by omega) (by omega)
        rw [show x.ua + j * x.ss + (y - (x.ua + j * x.ss)) = y by omega] at this
        exact this
      obtain ⟨s', g1, g2, g3⟩ := encWrite_spec w.toWF (s := e'.x) (d := fun q => e'.boot (j * x.ss + i * fb + q)) hal
        w.fb_blocks w.fb_pos (by omega) w.fb_cache her
      refine ⟨{ e' with x := s' }, ?_, h1, ?_, ?_, ?_⟩
      · unfold chunkOut
        rw [show x.ua + j * x.ss + i * fb = x.ua + (j * x.ss + i * fb) by omega, g1]
      · intro y hy hl2
        by_cases hy2 : y < i * fb
        · have := h2 y hy2 hl2
          unfold plainAt at this ⊢
          rw [g3 _ (by omega)]
          exact this
        · have e1 : (i + 1) * fb = i * fb + fb := by rw [Nat.add_mul, Nat.one_mul]
          have := g2 (y - i * fb) (by omega)
          rw [show j * x.ss + i * fb + (y - i * fb) = j * x.ss + y by omega, h1] at this
          exact this
      · intro y hy hy2
        have e1 : (i + 1) * fb = i * fb + fb := by rw [Nat.add_mul, Nat.one_mul]
        change s'.fl _ = _
        rw [g3 _ (by omega)]
        exact h3 y (by omega) hy2
      · intro y hy
        change s'.fl _ = _
        rw [g3 _ (by omega)]
        exact h4 y hy)
    (by
      rintro i e' hi hl ⟨h1, h2, h3, h4⟩
      have e1 : (i + 1) * fb = i * fb + fb := by rw [Nat.add_mul, Nat.one_mul]
      refine ⟨h1, ?_, fun y ha hb => h3 y (by omega) hb, h4⟩
      intro y hy hl2
      exact h2 y (by omega) hl2)
    (x.ss / fb) 0 { e with x := (e.x.setIv (j * x.ss / k.bs)).erase (x.ua + j * x.ss) x.ss } (by omega)
    (by
      refine ⟨rfl, fun y hy => by omega, ?_, ?_⟩
      · intro y _ hy
        unfold XSt.erase XSt.setIv
        dsimp only
        rw [if_pos (by omega)]
      · intro y hy
        unfold XSt.erase XSt.setIv
        dsimp only
        rw [if_neg (by omega)])
  rw [Nat.zero_mul] at h1
  refine ⟨e', h1, h2.1, ?_, h2.2.2.2⟩
  intro y hy hl
  exact h2.2.1 y (by rw [hch]; exact hy) hl

/-- A copy to SWAP is raw. -/
theorem copyTo_swap (w : SwapWF k x fb) {lim j src : Nat} {step : Nat → Nat → EWorld → ERes} (e : EWorld)
    (v : EWorld → Nat → Byte) (hv : ∀ e' : EWorld, e'.boot = e.boot →
      (∀ y, y < x.sa ∨ x.sa + x.ss ≤ y → e'.x.fl y = e.x.fl y) → ∀ y, y < x.ss → v e' (src + y) = v e (src + y))
    (hs : ∀ a b e', x.sa ≤ b → b < x.sa + x.ss → step a b e' = some { e' with x := e'.x.write b fb (fun q => v e' (a + q)) }) :
    ∃ e', chunkLoop step fb lim (j * x.ss) src x.sa (x.ss / fb) 0
        { e with x := (e.x.setIv (j * x.ss / k.bs)).erase x.sa x.ss } = some e' ∧ e'.boot = e.boot ∧
      (∀ y, y < x.ss → j * x.ss + y < lim → e'.x.fl (x.sa + y) = v e (src + y)) ∧
      (∀ y, y < x.sa ∨ x.sa + x.ss ≤ y → e'.x.fl y = e.x.fl y) := by
  have hch := chunks w
  let I : Nat → EWorld → Prop := fun i e' => e'.boot = e.boot ∧
    (∀ y, y < i * fb → j * x.ss + y < lim → e'.x.fl (x.sa + y) = v e (src + y)) ∧
    (∀ y, i * fb ≤ y → y < x.ss → e'.x.fl (x.sa + y) = 0xFF#8) ∧
    (∀ y, y < x.sa ∨ x.sa + x.ss ≤ y → e'.x.fl y = e.x.fl y)
  obtain ⟨e', h1, h2⟩ := chunkLoop_spec (fb := fb) (lim := lim) (off := j * x.ss) (src := src)
    (dst := x.sa) (m := x.ss / fb) (step := step) I w.fb_pos
    (by
      rintro i e' hi hl ⟨h1, h2, h3, h4⟩
      have hif := mul_fb_le (fb := fb) hi
      rw [hch] at hif
      have hfb := w.fb_pos
      refine ⟨_, hs _ _ _ (by omega) (by omega), h1, ?_, ?_, ?_⟩
      · intro y hy hl2
        have e1 : (i + 1) * fb = i * fb + fb := by rw [Nat.add_mul, Nat.one_mul]
        unfold XSt.write
        dsimp only
        by_cases hy2 : y < i * fb
        · rw [if_neg (by omega)]
          exact h2 y hy2 hl2
        · rw [if_pos (by omega), h3 y (by omega) (by omega), and_ff,
            show src + i * fb + (x.sa + y - (x.sa + i * fb)) = src + y by omega]
          exact hv e' h1 h4 y (by omega)
      · intro y hy hy2
        have e1 : (i + 1) * fb = i * fb + fb := by rw [Nat.add_mul, Nat.one_mul]
        unfold XSt.write
        dsimp only
        rw [if_neg (by omega)]
        exact h3 y (by omega) hy2
      · intro y hy
        unfold XSt.write
        dsimp only
        rw [if_neg (by omega)]
        exact h4 y hy)
    (by
      rintro i e' hi hl ⟨h1, h2, h3, h4⟩
      have e1 : (i + 1) * fb = i * fb + fb := by rw [Nat.add_mul, Nat.one_mul]
      refine ⟨h1, ?_, fun y ha hb => h3 y (by omega) hb, h4⟩
      intro y hy hl2
      exact h2 y (by omega) hl2)
    (x.ss / fb) 0 { e with x := (e.x.setIv (j * x.ss / k.bs)).erase x.sa x.ss } (by omega)
    (by
      refine ⟨rfl, fun y hy => by omega, ?_, ?_⟩
      · intro y _ hy
        unfold XSt.erase XSt.setIv
        dsimp only
        rw [if_pos (by omega)]
      · intro y hy
        unfold XSt.erase XSt.setIv
        dsimp only
        rw [if_neg (by omega)])
  rw [Nat.zero_mul] at h1
  exact ⟨e', h1, h2.1, fun y hy hl => h2.2.1 y (by rw [hch]; exact hy) hl, h2.2.2.2⟩

theorem copyUS_spec (w : SwapWF k x fb) {lim j : Nat} (hj : (j + 1) * x.ss ≤ x.ps) (e : EWorld) :
    ∃ e', copyUS k x fb lim j e = some e' ∧ e'.boot = e.boot ∧
      (∀ y, y < x.ss → j * x.ss + y < lim → e'.x.fl (x.sa + y) = e.x.fl (x.ua + j * x.ss + y)) ∧
      (∀ y, y < x.sa ∨ x.sa + x.ss ≤ y → e'.x.fl y = e.x.fl y) := by
  have ess : (j + 1) * x.ss = j * x.ss + x.ss := by rw [Nat.add_mul, Nat.one_mul]
  refine copyTo_swap w e (fun e' y => e'.x.fl y) ?_ ?_
  · intro e' _ h y hy
    have := w.apart
    exact h _ (by omega)
  · intro a b e' h1 h2
    unfold chunkRaw
    rw [encWrite_swap w h1 h2]

theorem copyBS_spec (w : SwapWF k x fb) {lim j : Nat} (e : EWorld) :
    ∃ e', copyBS k x fb lim j e = some e' ∧ e'.boot = e.boot ∧
      (∀ y, y < x.ss → j * x.ss + y < lim → e'.x.fl (x.sa + y) = e.boot (j * x.ss + y)) ∧
      (∀ y, y < x.sa ∨ x.sa + x.ss ≤ y → e'.x.fl y = e.x.fl y) := by
  refine copyTo_swap w e (fun e' y => e'.boot y) ?_ ?_
  · intro e' h _ y hy
    rw [h]
  · intro a b e' h1 h2
    unfold chunkOut
    rw [encWrite_swap w h1 h2]

/-- SWAP to BOOT: SWAP is decrypted with the counters of the destination. -/
theorem copySB_spec (w : SwapWF k x fb) {lim j : Nat} (e : EWorld) :
    ∃ e', copySB k x fb lim j e = some e' ∧ e'.x.fl = e.x.fl ∧
      (∀ y, y < x.ss → y < lim → e'.boot (j * x.ss + y) =
        e.x.fl (x.sa + y) ^^^ k.ks ((j * x.ss + y) / k.bs) ((j * x.ss + y) % k.bs)) ∧
      (∀ y, y < j * x.ss ∨ j * x.ss + x.ss ≤ y → e'.boot y = e.boot y) := by
  have hch := chunks w
  have hb := w.block
  have hoff : (j * x.ss) % k.bs = 0 := by rw [Nat.mul_mod, w.blocks.1]; simp
  have hod : k.bs * (j * x.ss / k.bs) = j * x.ss := Nat.mul_div_cancel' (Nat.dvd_of_mod_eq_zero hoff)
  have hfbd : k.bs * (fb / k.bs) = fb := Nat.mul_div_cancel' (Nat.dvd_of_mod_eq_zero w.fb_blocks)
  unfold copySB
  dsimp only
  let I : Nat → EWorld → Prop := fun i e' => e'.x.fl = e.x.fl ∧
    (i * fb < lim + fb → e'.x.ctr = j * x.ss / k.bs + i * (fb / k.bs)) ∧
    (∀ y, y < i * fb → y < lim → e'.boot (j * x.ss + y) =
        e.x.fl (x.sa + y) ^^^ k.ks ((j * x.ss + y) / k.bs) ((j * x.ss + y) % k.bs)) ∧
    (∀ y, i * fb ≤ y → y < x.ss → e'.boot (j * x.ss + y) = 0xFF#8) ∧
    (∀ y, y < j * x.ss ∨ j * x.ss + x.ss ≤ y → e'.boot y = e.boot y)
  obtain ⟨e', h1, h2⟩ := chunkLoop_spec (fb := fb) (lim := lim) (off := 0) (src := x.sa)
    (dst := j * x.ss) (m := x.ss / fb) (step := chunkIn k x fb) I w.fb_pos
    (by
      rintro i e' hi hl ⟨h1, hc, h2, h3, h4⟩
      have hif := mul_fb_le (fb := fb) hi
      rw [hch] at hif
      have hfb := w.fb_pos
      have hal : (i * fb) % k.bs = 0 := by rw [Nat.mul_mod, w.fb_blocks]; simp
      obtain ⟨out, s', g1, g2, g3, g4⟩ := decRead_swap w (s := e'.x) (pos := i * fb) hal (by omega)
      have e1 : (i + 1) * fb = i * fb + fb := by rw [Nat.add_mul, Nat.one_mul]
      have hctr := hc (by omega)
      refine ⟨({ e' with x := s' } : EWorld).writeBoot (j * x.ss + i * fb) fb out, ?_, ?_, ?_, ?_, ?_, ?_⟩
      · unfold chunkIn
        rw [g1]
      · change s'.fl = _
        rw [g2, h1]
      · intro _
        change s'.ctr = _
        rw [g3, hctr, Nat.add_mul, Nat.one_mul]; omega
      · intro y hy hl2
        unfold EWorld.writeBoot
        dsimp only
        by_cases hy2 : y < i * fb
        · rw [if_neg (by omega)]
          exact h2 y hy2 hl2
        · rw [if_pos (by omega), h3 y (by omega) (by omega), and_ff,
            show j * x.ss + y - (j * x.ss + i * fb) = y - i * fb by omega, g4 _ (by omega), h1,
            show x.sa + i * fb + (y - i * fb) = x.sa + y by omega, hctr]
          have ey : j * x.ss + y = k.bs * (j * x.ss / k.bs + i * (fb / k.bs)) + (y - i * fb) := by
            rw [Nat.mul_add, hod, Nat.mul_comm i, ← Nat.mul_assoc, hfbd, Nat.mul_comm fb]; omega
          rw [ey, Nat.mul_add_div hb, Nat.mul_add_mod]
      · intro y hy hy2
        unfold EWorld.writeBoot
        dsimp only
        rw [if_neg (by omega)]
        exact h3 y (by omega) hy2
      · intro y hy
        unfold EWorld.writeBoot
        dsimp only
        rw [if_neg (by omega)]
        exact h4 y hy)
    (by
      rintro i e' hi hl ⟨h1, hc, h2, h3, h4⟩
      have e1 : (i + 1) * fb = i * fb + fb := by rw [Nat.add_mul, Nat.one_mul]
      refine ⟨h1, fun h => by omega, ?_, fun y ha hb => h3 y (by omega) hb, h4⟩
      intro y hy hl2
      exact h2 y (by omega) hl2)
    (x.ss / fb) 0 (({ e with x := e.x.setIv (j * x.ss / k.bs) } : EWorld).eraseBoot (j * x.ss) x.ss) (by omega)
    (by
      refine ⟨rfl, fun _ => by rw [Nat.zero_mul]; rfl, fun y hy => by omega, ?_, ?_⟩
      · intro y _ hy
        unfold EWorld.eraseBoot
        dsimp only
        rw [if_pos (by omega)]
      · intro y hy
        unfold EWorld.eraseBoot
        dsimp only
        rw [if_neg (by omega)])
  rw [Nat.zero_mul] at h1
  exact ⟨e', h1, h2.1, fun y hy hl => h2.2.2.1 y (by rw [hch]; exact hy) hl, h2.2.2.2.2⟩

/-! ## Swap of one sector and the final copy -/

/-- The three copies of one sector of an encrypted update, `/repo/src/update_flash.c:722-751`. `limU`, `limB`,
`limS`: `fw_size + IMAGE_HEADER_SIZE + FLASHBUFFER_SIZE` of the three sources. -/
def encSwapSector (k : Cipher) (x : XCfg) (fb limU limB limS j : Nat) (e : EWorld) : ERes :=
  match copyUS k x fb limU j e with
  | none => none
  | some e1 =>
    match copyBU k x fb limB j e1 with
    | none => none
    | some e2 => copySB k x fb limS j e2

/-- After the swap of a sector BOOT holds the plaintext of what UPDATE held, the plaintext of UPDATE is what
BOOT held, and the other sectors of both partitions are as before. -/
theorem encrypted_swap_sector (w : SwapWF k x fb) {limU limB limS j : Nat} (hj : (j + 1) * x.ss ≤ x.ps - x.ss)
    (e : EWorld) :
    ∃ e', encSwapSector k x fb limU limB limS j e = some e' ∧
      (∀ y, y < x.ss → y < limS → j * x.ss + y < limU →
        e'.boot (j * x.ss + y) = plainAt k x e.x.fl (j * x.ss + y)) ∧
      (∀ y, y < x.ss → j * x.ss + y < limB →
        plainAt k x e'.x.fl (j * x.ss + y) = e.boot (j * x.ss + y)) ∧
      (∀ o, o < j * x.ss ∨ (j + 1) * x.ss ≤ o → e'.boot o = e.boot o ∧
        (o < x.ps → plainAt k x e'.x.fl o = plainAt k x e.x.fl o)) := by
  have ess : (j + 1) * x.ss = j * x.ss + x.ss := by rw [Nat.add_mul, Nat.one_mul]
  have hap := w.apart
  have hsec := w.sector
  obtain ⟨e1, a1, a2, a3, a4⟩ := copyUS_spec w (lim := limU) (j := j) (by omega) e
  obtain ⟨e2, b1, b2, b3, b4⟩ := copyBU_spec w (lim := limB) hj e1
  obtain ⟨e3, c1, c2, c3, c4⟩ := copySB_spec w (lim := limS) (j := j) e2
  refine ⟨e3, ?_, ?_, ?_, ?_⟩
  · unfold encSwapSector
    rw [a1]
    dsimp only
    rw [b1]
    exact c1
  · intro y hy h1 h2
    rw [c3 y hy h1, b4 _ (by omega), a3 y hy h2]
    unfold plainAt
    rw [Nat.add_assoc]
  · intro y hy h1
    unfold plainAt
    rw [c2]
    have := b3 y hy h1
    rw [a2] at this
    exact this
  · intro o ho
    refine ⟨?_, ?_⟩
    · rw [c4 o (by omega), b2, a2]
    · intro hlt
      unfold plainAt
      rw [c2, b4 _ (by omega), a4 _ (by omega)]

/-- The two copies by which `wolfBoot_swap_and_final_erase` saves and restores the sector `tmpBootPos` of BOOT,
`/repo/src/update_flash.c:287,313`. -/
def finalCopies (k : Cipher) (x : XCfg) (fb limB limS j : Nat) (e : EWorld) : ERes :=
  match copyBS k x fb limB j e with
  | none => none
  | some e1 => copySB k x fb limS j e1

/-- Violation of C01 in builds with encrypted external SWAP: the sector is saved to SWAP in the clear, but
decrypted when it is restored. Every byte of the image in that sector is replaced by its XOR with the
keystream, so an image that reaches into the last but one sector is destroyed by its own update. -/
theorem final_copy_garbles (w : SwapWF k x fb) {limB limS j : Nat} (e : EWorld) :
    ∃ e', finalCopies k x fb limB limS j e = some e' ∧
      ∀ y, y < x.ss → y < limS → j * x.ss + y < limB →
        e'.boot (j * x.ss + y) =
          e.boot (j * x.ss + y) ^^^ k.ks ((j * x.ss + y) / k.bs) ((j * x.ss + y) % k.bs) := by
  obtain ⟨e1, a1, a2, a3, a4⟩ := copyBS_spec w (lim := limB) (j := j) e
  obtain ⟨e2, b1, b2, b3, b4⟩ := copySB_spec w (lim := limS) (j := j) e1
  refine ⟨e2, ?_, ?_⟩
  · unfold finalCopies
    rw [a1]
    exact b1
  · intro y hy h1 h2
    rw [b3 y hy h1, a3 y hy h2]

/-- The swap loop over the sectors `j, j+1, ...` (`n` of them), `/repo/src/update_flash.c:717-773`, without
interruption; the limits are those of the two images and SWAP. -/
def encSwapLoop (k : Cipher) (x : XCfg) (fb limU limB limS : Nat) : Nat → Nat → EWorld → ERes
  | 0, _, e => some e
  | n + 1, j, e =>
    match encSwapSector k x fb limU limB limS j e with
    | none => none
    | some e' => encSwapLoop k x fb limU limB limS n (j + 1) e'

/-- An encrypted update, not interrupted: BOOT gets the plaintext of the image in UPDATE, and the image in
BOOT is stored encrypted in UPDATE. -/
theorem encrypted_swap_partial (w : SwapWF k x fb) {limU limB limS : Nat} (hS : x.ss ≤ limS) :
    ∀ (n j : Nat) (e : EWorld), (j + n) * x.ss ≤ x.ps - x.ss →
    ∃ e', encSwapLoop k x fb limU limB limS n j e = some e' ∧
      (∀ o, j * x.ss ≤ o → o < (j + n) * x.ss → o < limU → e'.boot o = plainAt k x e.x.fl o) ∧
      (∀ o, j * x.ss ≤ o → o < (j + n) * x.ss → o < limB → plainAt k x e'.x.fl o = e.boot o) ∧
      (∀ o, o < j * x.ss → e'.boot o = e.boot o ∧ plainAt k x e'.x.fl o = plainAt k x e.x.fl o)
  | 0, j, e, _ => ⟨e, rfl, fun o h1 h2 => by rw [Nat.add_zero] at h2; omega,
      fun o h1 h2 => by rw [Nat.add_zero] at h2; omega, fun _ _ => ⟨rfl, rfl⟩⟩
  | n + 1, j, e, h => by
    have ess : (j + 1) * x.ss = j * x.ss + x.ss := by rw [Nat.add_mul, Nat.one_mul]
    have en : (j + (n + 1)) * x.ss = (j + 1 + n) * x.ss := by congr 1; omega
    have hle : (j + 1) * x.ss ≤ (j + 1 + n) * x.ss := Nat.mul_le_mul_right _ (by omega)
    have hsec := w.sector
    obtain ⟨e1, a1, a2, a3, a4⟩ := encrypted_swap_sector w (limU := limU) (limB := limB) (limS := limS) (j := j)
      (by omega) e
    obtain ⟨e2, b1, b2, b3, b4⟩ := encrypted_swap_partial w (limU := limU) (limB := limB) hS n (j + 1) e1 (by omega)
    refine ⟨e2, ?_, ?_, ?_, ?_⟩
    · unfold encSwapLoop
      rw [a1]
      exact b1
    · intro o h1 h2 h3
      by_cases ho : o < (j + 1) * x.ss
      · have := a2 (o - j * x.ss) (by omega) (by omega)
        rw [show j * x.ss + (o - j * x.ss) = o by omega] at this
        rw [(b4 o ho).1, this h3]
      · rw [b2 o (by omega) (by omega) h3]
        exact (a4 o (by omega)).2 (by omega)
    · intro o h1 h2 h3
      by_cases ho : o < (j + 1) * x.ss
      · have := a3 (o - j * x.ss) (by omega)
        rw [show j * x.ss + (o - j * x.ss) = o by omega] at this
        rw [(b4 o ho).2, this h3]
      · rw [b3 o (by omega) (by omega) h3]
        exact (a4 o (by omega)).1
    · intro o ho
      have h1 := b4 o (by omega)
      have h2 := a4 o (Or.inl ho)
      exact ⟨h1.1.trans h2.1, h1.2.trans (h2.2 (by omega))⟩

end

end Verif
