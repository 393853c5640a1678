import Verif.CryptSwap

/-!
# Examples and counterexamples for the encrypted external flash (C25, C26)
-/

namespace Verif
namespace EDemo

/-- A keystream with the block size of AES. -/
def k : Cipher := { bs := 16, ks := fun n i => BitVec.ofNat 8 (17 * n + 3 * i + 1) }
/-- UPDATE at 256, four sectors of 128 bytes; SWAP at 1024. -/
def x : XCfg := { ua := 256, ps := 512, sa := 1024, ss := 128, kn := 32, cache := 128 }
def st : XSt := { fl := fun _ => 0xFF#8, ctr := 77, init := false }
def data : Mem := fun i => BitVec.ofNat 8 (7 * i + 5)
def nonce : Mem := fun i => if i < 3 then 0x12#8 else 0xFF#8

theorem wf : x.WF k := by
  refine ⟨by decide, by decide, by decide, by decide, by decide⟩
theorem swf : SwapWF k x 32 :=
  { wf with
    fb_pos := by decide, fb_blocks := by decide, fb_sector := by decide, fb_cache := by decide,
    swap_align := by decide, apart := Or.inr (by decide) }

/-- State after a successful operation. -/
def stOf {α} (r : XRes α) : XSt := match r with | .ok _ s => s | .err s => s | .fault => st
def isOk {α} (r : XRes α) : Bool := match r with | .ok _ _ => true | _ => false
def outOf (r : XRes Mem) : Mem := match r with | .ok o _ => o | _ => fun _ => 0#8

theorem isOk_unit {r : XRes Unit} (h : isOk r = true) : r = .ok () (stOf r) := by
  cases r with
  | ok a s => rfl
  | _ => exact absurd h (by simp [isOk])

theorem isOk_mem {r : XRes Mem} (h : isOk r = true) : r = .ok (outOf r) (stOf r) := by
  cases r with
  | ok a s => rfl
  | _ => exact absurd h (by simp [isOk])

end EDemo

open EDemo

/-- `counter_block`, with a carry into the upper words. -/
example : beVal (aesSetIv nonce 5) 16 = (beVal nonce 16 + 5) % 340282366920938463463374607431768211456 ∧
    aesSetIv nonce 5 15 = 4#8 ∧ aesSetIv nonce 5 2 = 0x13#8 :=
  ⟨counter_block nonce 5 (by decide), by decide +kernel, by decide +kernel⟩

/-- `counter_block_unique`: the hypothesis is met only by equal block numbers. -/
example : ¬ ∀ i, i < 16 → aesSetIv nonce 5 i = aesSetIv nonce 6 i :=
  fun h => absurd (counter_block_unique nonce (by decide) (by decide) h) (by decide)

/-- `encrypted_flash_partial`: two writes, an unaligned read across them, an erase and another write. -/
example : RunOk k x (fun s' => ∀ y, y < 256 ∨ 640 ≤ y → s'.fl y = st.fl y) (fun _ => none) st
    [.write 0 data 32, .write 32 (fun i => data (i + 40)) 16, .read 7 33, .erase 0 128, .write 16 data 16, .read 16 9] := by
  refine encrypted_flash_partial wf ?_ ?_
  · intro o _
    exact ⟨fun _ => rfl, fun b hb => absurd hb (by simp)⟩
  · refine ⟨⟨by decide, by decide, by decide, by decide, by decide, fun _ _ _ => rfl⟩,
      ⟨by decide, by decide, by decide, by decide, by decide, ?_⟩, ⟨by decide, by decide, by decide⟩,
      (by decide : 0 + 128 ≤ 384), ⟨by decide, by decide, by decide, by decide, by decide, ?_⟩,
      ⟨by decide, by decide, by decide⟩, trivial⟩
    · intro y h1 h2
      unfold plainStep
      dsimp only
      rw [if_neg (by omega)]
    · intro y h1 h2
      unfold plainStep
      dsimp only
      rw [if_pos (by omega)]

/-- `tool_encrypt_partial` for a 40-byte image. -/
example : ∃ out s', decRead k x true { st with fl := fun y => if 256 ≤ y ∧ y < 304 then toolAes k data 40 (y - 256) else 0xFF#8 }
    (256 + 16) 24 = .ok out s' ∧ ∀ i, i < 24 → out i = data (16 + i) := by
  refine tool_encrypt_partial wf (x := x) (len := 40) (o := 16) (Or.inl ?_) (by decide) (by decide) (by decide) (by decide)
  intro i hi
  change (if 256 ≤ 256 + i ∧ 256 + i < 304 then toolAes k data 40 (256 + i - 256) else 0xFF#8) = _
  rw [if_pos (by omega), Nat.add_sub_cancel_left]

/-- `encrypted_swap_partial` and `final_copy_garbles` apply to this layout. -/
example : ∃ e', encSwapLoop k x 32 400 300 200 3 0 ⟨data, st⟩ = some e' ∧
    e'.boot 130 = plainAt k x st.fl 130 ∧ plainAt k x e'.x.fl 299 = data 299 := by
  obtain ⟨e', h1, h2, h3, _⟩ := encrypted_swap_partial swf (limU := 400) (limB := 300) (limS := 200) (by decide) 3 0
    ⟨data, st⟩ (by decide)
  exact ⟨e', h1, h2 130 (by decide) (by decide) (by decide), h3 299 (by decide) (by decide) (by decide)⟩

/-- An update of an image of 300 bytes in four sectors of 128 bytes: the byte at 290, in the last but one
sector, is changed by the final copies. -/
theorem encrypted_update_corrupts : ∃ (k : Cipher) (x : XCfg) (fb : Nat) (e e' : EWorld), SwapWF k x fb ∧
    finalCopies k x fb (300 + fb) (x.ss + fb) 2 e = some e' ∧ 290 < 300 ∧ 2 * x.ss = x.ps - 2 * x.ss ∧
    e'.boot 290 ≠ e.boot 290 := by
  obtain ⟨e', h1, h2⟩ := final_copy_garbles swf (limB := 300 + 32) (limS := 128 + 32) (j := 2) ⟨data, st⟩
  refine ⟨k, x, 32, ⟨data, st⟩, e', swf, h1, by decide, by decide, ?_⟩
  have := h2 34 (by decide) (by decide) (by decide)
  change e'.boot 290 = _ at this
  rw [this]
  decide +kernel

/-- C26 is violated outside the supported uses. A write of 20 bytes at a block boundary reports success, but
its last 4 bytes are not stored. -/
theorem encWrite_drops_tail : ∃ (k : Cipher) (x : XCfg) (s s1 s2 : XSt) (d out : Mem), x.WF k ∧
    Erased s.fl x.ua 20 ∧ encWrite k x true s x.ua d 20 = .ok () s1 ∧
    decRead k x true s1 x.ua 20 = .ok out s2 ∧ out 17 ≠ d 17 := by
  have h1 : isOk (encWrite k x true st x.ua data 20) = true := by decide +kernel
  have h2 : isOk (decRead k x true (stOf (encWrite k x true st x.ua data 20)) x.ua 20) = true := by decide +kernel
  exact ⟨k, x, st, _, _, data, _, wf, fun _ _ _ => rfl, isOk_unit h1, isOk_mem h2, by decide +kernel⟩

/-- A write shorter than one block reads after the end of the caller's buffer. -/
theorem encWrite_short {k : Cipher} {x : XCfg} (w : x.WF k) (s : XSt) (d : Mem) {o len : Nat} (ho : o < x.ps - x.ss)
    (hl : len < k.bs - o % k.bs) : encWrite k x true s (x.ua + o) d len = .fault := by
  have hb := w.block
  have hs := w.sector
  have hlt := w.limit_lt ho
  have hmod : (x.ua + o) % k.bs = o % k.bs := by
    have := sub_mod w (a := x.ua + o) (by omega)
    rw [Nat.add_sub_cancel_left] at this
    exact this.symm
  unfold encWrite
  dsimp only
  rw [XCfg.partOf_update (by omega) (by omega), hmod, Nat.add_sub_cancel_left]
  dsimp only
  rw [if_neg (by omega)]
  simp only [Bool.true_eq_false, and_false, if_false]
  rw [if_pos (by split <;> split <;> omega), if_pos hl]

/-- A write that starts inside an erased block and ends at the end of a block: the plaintext at the requested
offsets becomes the data, the bytes of the first block before it become `0xFF`, everything else keeps its raw
contents. -/
theorem encWrite_unaligned {k : Cipher} {x : XCfg} (w : x.WF k) {s : XSt} {o len : Nat} {d : Mem}
    (ho : o % k.bs ≠ 0) (hl : (o + len) % k.bs = 0) (h0 : 0 < len) (hfit : o + len ≤ x.ps - x.ss)
    (hc : len ≤ x.cache) (he : Erased s.fl (x.ua + (o - o % k.bs)) (len + o % k.bs)) :
    ∃ s', encWrite k x true s (x.ua + o) d len = .ok () s' ∧
      (∀ i, i < len → plainAt k x s'.fl (o + i) = d i) ∧
      (∀ i, o - o % k.bs ≤ i → i < o → plainAt k x s'.fl i = 0xFF#8) ∧
      (∀ y, y < x.ua + (o - o % k.bs) ∨ x.ua + o + len ≤ y → s'.fl y = s.fl y) := by
  have hb := w.block
  have hs := w.sector
  have hlt := w.limit_lt (o := o) (by omega)
  have hmod : (x.ua + o) % k.bs = o % k.bs := by
    have := sub_mod w (a := x.ua + o) (by omega)
    rw [Nat.add_sub_cancel_left] at this
    exact this.symm
  have hrl := Nat.mod_le o k.bs
  have hrb := Nat.mod_lt o hb
  have hod : k.bs * (o / k.bs) + o % k.bs = o := Nat.div_add_mod o k.bs
  -- the distance to the end of the first block fits
  have hend : k.bs * ((o + len) / k.bs) = o + len := Nat.mul_div_cancel' (Nat.dvd_of_mod_eq_zero hl)
  have hq : o / k.bs < (o + len) / k.bs := by
    rw [Nat.div_lt_iff_lt_mul hb, Nat.mul_comm, hend]; omega
  have hq1 : k.bs * (o / k.bs) + k.bs ≤ o + len := by
    have := Nat.mul_le_mul_left k.bs hq
    rw [hend, Nat.mul_succ] at this
    exact this
  -- whole blocks after the first one
  obtain ⟨t, ht⟩ : ∃ t, o + len = k.bs * (o / k.bs) + k.bs + k.bs * t := by
    refine ⟨(o + len) / k.bs - (o / k.bs + 1), ?_⟩
    rw [Nat.mul_sub, Nat.mul_succ, hend]
    omega
  unfold encWrite
  dsimp only
  rw [XCfg.partOf_update (by omega) (by omega), hmod, Nat.add_sub_cancel_left]
  dsimp only
  rw [if_neg (by omega)]
  simp only [Bool.true_eq_false, and_false, if_false]
  have hcond : len < (if (if o % k.bs ≠ 0 then len + (k.bs - o % k.bs) else len) < k.bs then k.bs
      else (if o % k.bs ≠ 0 then len + (k.bs - o % k.bs) else len)) := by
    rw [if_pos ho]
    split <;> omega
  rw [if_pos hcond]
  clear hcond
  rw [if_neg (by omega)]
  unfold encTail
  dsimp only
  have e0 : (len - (k.bs - o % k.bs)) = k.bs * t := by omega
  have e1 : k.bs * t / k.bs = t := Nat.mul_div_cancel_left t hb
  rw [e0, e1, Nat.mul_comm t k.bs, if_neg (by omega)]
  refine ⟨_, rfl, ?_, ?_, ?_⟩
  · intro i hi
    unfold plainAt XSt.write XSt.setIv
    dsimp only
    by_cases hi1 : i < k.bs - o % k.bs
    · have d1 : (o + i) / k.bs = o / k.bs := (div_of_block (by omega) (by omega)).1
      have d2 : (o + i) % k.bs = o % k.bs + i := by
        have := Nat.div_add_mod (o + i) k.bs
        rw [d1] at this
        omega
      rw [if_neg (by omega), if_pos (by omega), he _ (by omega) (by omega)]
      unfold cryptBlock
      dsimp only
      rw [show x.ua + (o + i) - (x.ua + o - o % k.bs) = o % k.bs + i by omega, if_neg (by omega), d1, d2,
        Nat.add_sub_cancel_left]
      rw [show (0xFF#8 : Byte) = BitVec.allOnes 8 from rfl, BitVec.allOnes_and, BitVec.xor_assoc,
        BitVec.xor_self, BitVec.xor_zero]
    · rw [if_pos (by omega), if_neg (by omega), he _ (by omega) (by omega), cryptLoop_apply,
        if_pos (by rw [Nat.mul_zero, Nat.zero_add]; omega)]
      have e2 : x.ua + (o + i) - (x.ua + o + (k.bs - o % k.bs)) = i - (k.bs - o % k.bs) := by omega
      rw [e2, Nat.sub_zero]
      have e3 : o + i = k.bs * (o / k.bs + 1) + (i - (k.bs - o % k.bs)) := by
        rw [Nat.mul_succ]; omega
      rw [e3, Nat.mul_add_div hb, Nat.mul_add_mod]
      rw [show k.bs - o % k.bs + (i - (k.bs - o % k.bs)) = i by omega]
      rw [show (0xFF#8 : Byte) = BitVec.allOnes 8 from rfl, BitVec.allOnes_and, BitVec.xor_assoc,
        BitVec.xor_self, BitVec.xor_zero]
  · intro i h1 h2
    unfold plainAt XSt.write XSt.setIv
    dsimp only
    have d1 : i / k.bs = o / k.bs := (div_of_block (by omega) (by omega)).1
    have d2 : i % k.bs = i - (o - o % k.bs) := by
      have := Nat.div_add_mod i k.bs
      rw [d1] at this
      omega
    rw [if_neg (by omega), if_pos (by omega), he _ (by omega) (by omega)]
    unfold cryptBlock
    dsimp only
    rw [show x.ua + i - (x.ua + o - o % k.bs) = i - (o - o % k.bs) by omega, if_pos (by omega), d1, d2,
      he _ (by omega) (by omega)]
    rw [show (0xFF#8 : Byte) = BitVec.allOnes 8 from rfl, BitVec.allOnes_and, BitVec.xor_assoc,
      BitVec.xor_self, BitVec.xor_zero]
  · intro y hy
    unfold XSt.write XSt.setIv
    dsimp only
    rw [if_neg (by omega), if_neg (by omega)]

/-- `encWrite_unaligned`: 24 bytes from offset 40 on. -/
example : ∃ s', encWrite k x true st (x.ua + 40) data 24 = .ok () s' ∧ plainAt k x s'.fl 63 = data 23 := by
  obtain ⟨s', h1, h2, _⟩ := encWrite_unaligned wf (s := st) (d := data) (o := 40) (len := 24) (by decide)
    (by decide) (by decide) (by decide) (by decide) (fun _ _ _ => rfl)
  exact ⟨s', h1, h2 23 (by decide)⟩

/-- A read that starts and ends inside a block writes after the end of the caller's buffer. -/
theorem decRead_short {k : Cipher} {x : XCfg} (w : x.WF k) (s : XSt) {o len : Nat} (ho : o < x.ps - x.ss)
    (h0 : o % k.bs ≠ 0) (hl : len < k.bs - o % k.bs) : decRead k x true s (x.ua + o) len = .fault := by
  have hb := w.block
  have hs := w.sector
  have hlt := w.limit_lt ho
  have hrl := Nat.mod_le o k.bs
  have hmod : (x.ua + o) % k.bs = o % k.bs := by
    have := sub_mod w (a := x.ua + o) (by omega)
    rw [Nat.add_sub_cancel_left] at this
    exact this.symm
  unfold decRead
  dsimp only
  rw [hmod, XCfg.partOf_update (by omega) (by omega), Nat.add_sub_cancel_left]
  dsimp only
  rw [if_neg (by omega)]
  simp only [Bool.true_eq_false, and_false, if_false]
  unfold decHead
  dsimp only
  rw [hmod, if_pos h0, if_pos hl]

example : encWrite k x true st (256 + 32) data 4 = .fault := encWrite_short wf st data (by decide) (by decide)
example : decRead k x true st (256 + 34) 4 = .fault := decRead_short wf st (by decide) (by decide) (by decide)

/-- A chunk written across the end of the encrypted area is encrypted as a whole; its last block is returned
undecrypted when read on its own. -/
theorem enc_boundary : ∃ (k : Cipher) (x : XCfg) (s s1 s2 : XSt) (d out : Mem) (o : Nat), x.WF k ∧
    encWrite k x true s (x.ua + o) d (2 * k.bs) = .ok () s1 ∧
    decRead k x true s1 (x.ua + o + k.bs) k.bs = .ok out s2 ∧ out 0 ≠ d k.bs := by
  have h1 : isOk (encWrite k x true st (x.ua + 432) data (2 * k.bs)) = true := by decide +kernel
  have h2 : isOk (decRead k x true (stOf (encWrite k x true st (x.ua + 432) data (2 * k.bs))) (x.ua + 432 + k.bs) k.bs) = true := by
    decide +kernel
  exact ⟨k, x, st, _, _, data, _, 432, wf, isOk_unit h1, isOk_mem h2, by decide +kernel⟩

/-! Decryption to RAM -/

namespace EDemo

/-- An encrypted image with a header of 32 bytes and the given size field. -/
def encImg (sz : Nat) : Mem := plainImg k (fun o =>
  match o with
  | 0 => 0x57#8 | 1 => 0x4F#8 | 2 => 0x4C#8 | 3 => 0x46#8
  | 4 => BitVec.ofNat 8 sz | 5 => BitVec.ofNat 8 (sz / 256) | 6 => BitVec.ofNat 8 (sz / 65536)
  | 7 => BitVec.ofNat 8 (sz / 16777216) | o => data o)

end EDemo

/-- `ram_decrypt_partial`. -/
example : ∃ fuel dst', ramDecrypt k 32 true fuel (encImg 100) (fun _ => 0#8) = .ok dst' ∧ dst' 131 = data 131 := by
  obtain ⟨fuel, dst', h1, h2, _⟩ := ram_decrypt_partial (k := k) (h := 32) (by decide) (by decide) (by decide)
    (src := encImg 100) (dst := fun _ => 0#8) (by decide +kernel) (by decide +kernel)
  refine ⟨fuel, dst', h1, ?_⟩
  have e : le32 (plainImg k (encImg 100)) 4 = 100 := by decide +kernel
  rw [h2 131 (by rw [e]; decide)]
  decide +kernel

/-- `ram_decrypt_loops`. -/
example (fuel : Nat) : ramDecrypt k 32 true fuel (encImg 4294967260) (fun _ => 0#8) = .stuck :=
  ram_decrypt_loops (by decide) (by decide) (by decide) (by decide) (by decide +kernel) (by decide +kernel)
    (by decide +kernel) fuel

end Verif
