import Verif.Swap

/-!
# Encrypted external flash

`/repo/src/libwolfboot.c:1610-1920` (`EXT_ENCRYPTED`), `/repo/include/encrypt.h`, and the encryption
step of the signing tool, `/repo/tools/keytools/sign.c:1604-1690`.

The block ciphers themselves belong to wolfCrypt and are not in the repository; a cipher in counter
mode is represented by its keystream: block counter and byte index give the byte that is XORed to the
data. Addresses are assumed to fit in 32 bits (`uint32_t row_address` in the code) and lengths in a
non-negative `int`.
-/

namespace Verif

/-! ## AES counter block -/

/-- `wb_reverse_word32`, `/repo/src/libwolfboot.c:126-129` (`ByteReverseWord32` of wolfCrypt). -/
def rev32 (x : Nat) : Nat :=
  x % 256 * 16777216 + x / 256 % 256 * 65536 + x / 65536 % 256 * 256 + x / 16777216 % 256

/-- Byte `j` of the words `w` stored in memory (little endian machine). -/
def stWord (w : Nat → Nat) : Mem := fun j => BitVec.ofNat 8 (w (j / 4) / 256 ^ (j % 4))

/-- The carry loop `for (i = 2; i >= 0; i--) { iv_buf[i]++; if (iv_buf[i] != 0) break; }`,
`/repo/src/libwolfboot.c:1630-1634`, on the words from index `i - 1` downwards. -/
def carryLoop : Nat → (Nat → Nat) → (Nat → Nat)
  | 0, w => w
  | i + 1, w =>
    let v := (w i + 1) % 4294967296
    let w' := fun k => if k = i then v else w k
    if v ≠ 0 then w' else carryLoop i w'

/-- `aes_set_iv(nonce, iv_ctr)`: the counter block handed to `wc_AesSetIV`,
`/repo/src/libwolfboot.c:1616-1642` (little endian machine; with `BIG_ENDIAN_ORDER` the words are
loaded in the right order and not reversed). -/
def aesSetIv (nonce : Mem) (ctr : Nat) : Mem :=
  let w : Nat → Nat := fun i => rev32 (le32 nonce (4 * i))
  let w1 : Nat → Nat := fun i => if i = 3 then (w 3 + ctr) % 4294967296 else w i
  let w2 := if w1 3 < ctr then carryLoop 3 w1 else w1
  stWord (fun i => rev32 (w2 i))

/-- Value of the first `n` bytes of a block, most significant byte first. -/
def beVal (m : Mem) : Nat → Nat
  | 0 => 0
  | n + 1 => beVal m n * 256 + (m n).toNat

/-- Increment of the 16-byte counter block by `wc_AesCtrEncrypt` after each block (wolfCrypt,
`IncrementAesCounter`: from the last byte upwards until no carry). `i`: bytes left. -/
def incCounter : Nat → Mem → Mem
  | 0, m => m
  | i + 1, m =>
    let v := m i + 1#8
    let m' : Mem := fun k => if k = i then v else m k
    if v ≠ 0#8 then m' else incCounter i m'

/-! ## Cipher state -/

/-- A cipher in counter mode with a fixed key and nonce. -/
structure Cipher where
  /-- `ENCRYPT_BLOCK_SIZE`, `/repo/include/wolfboot/wolfboot.h:364-374` -/
  bs : Nat
  /-- keystream byte for a block counter and an index in the block -/
  ks : Nat → Nat → Byte

/-- `crypto_encrypt` / `crypto_decrypt` of one block (`/repo/include/encrypt.h:50-51,60-61`): XOR with
the keystream block of the current counter. -/
def cryptBlock (k : Cipher) (ctr : Nat) (b : Mem) : Mem := fun j => b j ^^^ k.ks ctr j

/-- `m` with the bytes `[off, off+len)` replaced by `d` (`XMEMCPY`). -/
def blit (m : Mem) (off len : Nat) (d : Mem) : Mem :=
  fun x => if off ≤ x ∧ x < off + len then d (x - off) else m x

/-- The block loops `/repo/src/libwolfboot.c:1757-1761` and `1842-1848`: `n` blocks from block `i` on,
`src` to `dst`; the counter moves on by one per block. -/
def cryptLoop (k : Cipher) (src : Mem) : Nat → Nat → Nat → Mem → Mem
  | 0, _, _, dst => dst
  | n + 1, i, ctr, dst =>
    cryptLoop k src n (i + 1) (ctr + 1)
      (blit dst (k.bs * i) k.bs (cryptBlock k ctr (fun j => src (k.bs * i + j))))

/-! ## External flash -/

/-- Layout of the external flash. -/
structure XCfg where
  /-- `WOLFBOOT_PARTITION_UPDATE_ADDRESS` -/
  ua : Nat
  /-- `WOLFBOOT_PARTITION_SIZE` -/
  ps : Nat
  /-- `WOLFBOOT_PARTITION_SWAP_ADDRESS` -/
  sa : Nat
  /-- `WOLFBOOT_SECTOR_SIZE` -/
  ss : Nat
  /-- `ENCRYPT_KEY_SIZE + ENCRYPT_NONCE_SIZE` -/
  kn : Nat
  /-- `NVM_CACHE_SIZE`, size of `ENCRYPT_CACHE` -/
  cache : Nat

/-- `ENCRYPT_TMP_SECRET_OFFSET`, `/repo/src/libwolfboot.c:79-80` (`TRAILER_SKIP` 0). -/
def XCfg.secret (x : XCfg) : Nat := x.ps - x.kn

/-- `START_FLAGS_OFFSET`, `/repo/src/libwolfboot.c:81-84`. -/
def XCfg.flags (x : XCfg) : Nat := x.secret - (4 + 1 + x.ps / (2 * x.ss))

/-- First block index that is not encrypted, `/repo/src/libwolfboot.c:1726-1727`. -/
def XCfg.limit (x : XCfg) (k : Cipher) : Nat := (x.flags - k.bs) / k.bs

/-- Result of `part_address`. -/
inductive XPart where
  | update | swap | none
deriving DecidableEq

/-- `part_address`, `/repo/src/libwolfboot.c:1659-1680`. -/
def XCfg.partOf (x : XCfg) (a : Nat) : XPart :=
  if x.ua ≤ a ∧ a < x.ua + x.ps then .update
  else if x.sa ≤ a ∧ a < x.sa + x.ss then .swap
  else .none

/-- External flash, cipher counter, and whether the key has been loaded. -/
structure XSt where
  fl : Mem
  /-- counter of the next block to be processed (`aes_enc`, `aes_dec`, `chacha`) -/
  ctr : Nat
  /-- `encrypt_initialized` -/
  init : Bool

/-- Outcome: return value and state, `-1`, or an access outside a buffer. -/
inductive XRes (α : Type) where
  | ok (a : α) (s : XSt)
  | err (s : XSt)
  | fault

/-- `ext_flash_write(a, d, len)`: programming clears bits only. -/
def XSt.write (s : XSt) (a len : Nat) (d : Mem) : XSt :=
  { s with fl := fun x => if a ≤ x ∧ x < a + len then s.fl x &&& d (x - a) else s.fl x }

/-- `ext_flash_erase(a, len)`. -/
def XSt.erase (s : XSt) (a len : Nat) : XSt :=
  { s with fl := fun x => if a ≤ x ∧ x < a + len then 0xFF#8 else s.fl x }

/-- `crypto_set_iv(encrypt_iv_nonce, n)`. -/
def XSt.setIv (s : XSt) (n : Nat) : XSt := { s with ctr := n, init := true }

/-- Second half of `ext_flash_encrypt_write`, `/repo/src/libwolfboot.c:1755-1763`: the whole blocks of
the `sz` bytes of `d` are encrypted into `ENCRYPT_CACHE` and written. Bytes after the last whole block
are not written. -/
def encTail (k : Cipher) (x : XCfg) (s : XSt) (a : Nat) (d : Mem) (sz : Nat) : XRes Unit :=
  let step := sz / k.bs * k.bs
  if x.cache < step then .fault
  else
    let cache := cryptLoop k d (sz / k.bs) 0 s.ctr (fun _ => 0#8)
    .ok () { s.write a step cache with ctr := s.ctr + sz / k.bs }

/-- `ext_flash_encrypt_write(a, d, len)`, `/repo/src/libwolfboot.c:1696-1764`. `d` has `len` bytes; a read
after its end is a fault. `keyOk`: `crypto_init` succeeds. -/
def encWrite (k : Cipher) (x : XCfg) (keyOk : Bool) (s : XSt) (a : Nat) (d : Mem) (len : Nat) : XRes Unit :=
  let ro := a % k.bs
  let row := a - ro
  let sz := if ro ≠ 0 then len + (k.bs - ro) else len
  let sz := if sz < k.bs then k.bs else sz
  match x.partOf a with
  | .swap => .ok () (s.write a len d)
  | .none => .err s
  | .update =>
    let n := (a - x.ua) / k.bs
    if x.limit k ≤ n then .ok () (s.write a len d)
    else if s.init = false ∧ keyOk = false then .err s
    else
      let s := s.setIv n
      if len < sz then
        let step := k.bs - ro
        if len < step then .fault
        else
          let block : Mem := fun j => if j < ro then s.fl (row + j) else d (j - ro)
          let s := { s.write row k.bs (cryptBlock k s.ctr block) with ctr := s.ctr + 1 }
          encTail k x s (a + step) (fun j => d (step + j)) (len - step)
      else encTail k x s a d sz

/-- Last part of `ext_flash_decrypt_read`, `/repo/src/libwolfboot.c:1855-1868`: the bytes after the last
whole block. `out` holds the bytes read so far, `o` of them. -/
def decLast (k : Cipher) (s : XSt) (a o rem : Nat) (out : Mem) : XRes Mem :=
  if rem = 0 then .ok out s
  else
    let blk := cryptBlock k s.ctr (fun j => s.fl (a + j))
    .ok (blit out o rem blk) { s with ctr := s.ctr + 1 }

/-- Middle part, `/repo/src/libwolfboot.c:1839-1853`. -/
def decMid (k : Cipher) (s : XSt) (a o rem : Nat) (out : Mem) : XRes Mem :=
  let nb := rem / k.bs
  let raw : Mem := fun j => s.fl (a + j)
  let dec := cryptLoop k raw nb 0 s.ctr raw
  decLast k { s with ctr := s.ctr + nb } (a + nb * k.bs) (o + nb * k.bs) (rem - nb * k.bs)
    (blit out o (nb * k.bs) dec)

/-- First part, `/repo/src/libwolfboot.c:1823-1838`. A head block longer than the destination is
written past its end. -/
def decHead (k : Cipher) (s : XSt) (a len : Nat) : XRes Mem :=
  let ro := a % k.bs
  if ro ≠ 0 then
    let head := k.bs - ro
    if len < head then .fault
    else
      let blk := cryptBlock k s.ctr (fun j => s.fl (a - ro + j))
      decMid k { s with ctr := s.ctr + 1 } (a + head) head (len - head)
        (blit (fun _ => 0#8) 0 head (fun j => blk (ro + j)))
  else decMid k s a 0 len (fun _ => 0#8)

/-- `ext_flash_decrypt_read(a, data, len)`, `/repo/src/libwolfboot.c:1780-1871`: the first `len` bytes of
the result are the bytes stored to `data`. -/
def decRead (k : Cipher) (x : XCfg) (keyOk : Bool) (s : XSt) (a len : Nat) : XRes Mem :=
  match x.partOf (a - a % k.bs) with
  | .none => .err s
  | .swap => decHead k s a len
  | .update =>
    let n := (a - x.ua) / k.bs
    if x.limit k ≤ n then .ok (fun j => s.fl (a + j)) s
    else if s.init = false ∧ keyOk = false then .err s
    else decHead k (s.setIv n) a len

/-! ## Signing tool -/

/-- AES branch of the encryption of a signed image, `/repo/tools/keytools/sign.c:1671-1688`: blocks of 16
bytes, the last one filled up with `0xFF`. `img` has `len` bytes. -/
def toolPad (img : Mem) (len : Nat) : Mem := fun j => if j < len then img j else 0xFF#8

/-- The encrypted file: `n` blocks from block `i` on. -/
def toolAes (k : Cipher) (img : Mem) (len : Nat) : Mem :=
  cryptLoop k (toolPad img len) ((len + k.bs - 1) / k.bs) 0 0 (fun _ => 0xFF#8)

/-- ChaCha branch, `/repo/tools/keytools/sign.c:1653-1670`: the keystream is used as a stream in chunks
of 16 bytes (`wc_Chacha_Process` keeps the unused part of a keystream block); the last chunk may be
shorter. `n` chunks from byte `pos` on. -/
def toolChaCha (k : Cipher) (img : Mem) (len : Nat) : Nat → Nat → Mem → Mem
  | 0, _, out => out
  | n + 1, pos, out =>
    let sz := min 16 (len - pos)
    toolChaCha k img len n (pos + 16)
      (blit out pos sz (fun j => img (pos + j) ^^^ k.ks ((pos + j) / k.bs) ((pos + j) % k.bs)))

/-! ## Decryption to RAM -/

/-- Loop of `decrypt_header`, `/repo/src/libwolfboot.c:1001-1004`: `n` blocks from block `i` on. -/
def decHdrLoop (k : Cipher) (src : Mem) : Nat → Nat → Mem → Mem
  | 0, _, dst => dst
  | n + 1, i, dst => decHdrLoop k src n (i + 1) (blit dst (i * k.bs) k.bs (cryptBlock k i (fun j => src (i * k.bs + j))))

/-- Outcome of `wolfBoot_ram_decrypt`. -/
inductive RamRes where
  | ok (dst : Mem)
  | err
  | stuck

/-- `while (dst_offset < len + IMAGE_HEADER_SIZE)` of `wolfBoot_ram_decrypt`,
`/repo/src/libwolfboot.c:1909-1917`, in 32-bit arithmetic. Every store of a block to RAM is made, whatever the
size of the destination. `fuel`: iterations; running out of it means that the loop does not end. -/
def ramLoop (k : Cipher) (src : Mem) (stop : Nat) : Nat → Nat → Nat → Mem → RamRes
  | 0, _, _, _ => .stuck
  | fuel + 1, off, i, dst =>
    if off < stop then
      ramLoop k src stop fuel ((off + k.bs) % 4294967296) (i + 1)
        (blit dst off k.bs (cryptBlock k i (fun j => src (k.bs * i + j))))
    else .ok dst

/-- `wolfBoot_ram_decrypt(src, dst)`, `/repo/src/libwolfboot.c:1887-1919`, with `decrypt_header` (`996-1012`; the
header size is a multiple of the block size). `dst0`: RAM before. -/
def ramDecrypt (k : Cipher) (h : Nat) (keyOk : Bool) (fuel : Nat) (src dst0 : Mem) : RamRes :=
  if keyOk = false then .err
  else
    let hdr := decHdrLoop k src (h / k.bs) 0 (fun _ => 0#8)
    if le32 hdr 0 ≠ MAGIC then .err
    else ramLoop k src ((le32 hdr 4 + h) % 4294967296) fuel 0 0 dst0

end Verif
