import Verif.Flash

/-!
# Flash drivers of the i.MX RT and of the Renesas RA

`hal_flash_write` of the i.MX RT (`/repo/hal/imx_rt.c:910-954`) with the range that it takes out of the data cache, and `hal_flash_write` and
`hal_flash_erase` of the Renesas RA (`/repo/hal/renesas-ra.c:110-212`). The functions of the ROM and of the library of Renesas are outside: `program` of
the i.MX RT programs a page of 256 bytes and wraps within the page, as NOR flash does; `R_FLASH_HP_Erase` erases the block with the address and
`R_FLASH_HP_Write` clears bits, both without errors. Not modelled: overflow of addresses, `WOLFBOOT_DUALBANK`.
-/

namespace Verif.Imx

open Verif

/-- `program` of a page, `/repo/hal/imx_rt.c:928-931`: 256 bytes, `CONFIG_FLASH_PAGE_SIZE`,
`/repo/hal/imx_rt.c:267,327`, from `a` on, with wrap. Not modelled: the flash with pages of 512 bytes, `/repo/hal/imx_rt.c:402`. -/
def program (m : Mem) (a : Nat) (b : Mem) : Mem := fun i => if i / 256 = a / 256 then m i &&& b ((i % 256 + 256 - a % 256) % 256) else m i

/-- The loop of `hal_flash_write`, `/repo/hal/imx_rt.c:926-937`: `k` pages to go, `q` the next one. `ok`: programming succeeds. -/
def loop (ok : Nat → Bool) (a : Nat) (d : Mem) : Nat → Nat → Mem → Mem × Int
  | 0, _, m => (m, 0)
  | k + 1, q, m => if ok q then loop ok a d k (q + 1) (program m (a + q * 256) fun j => d (q * 256 + j)) else (m, -1)

/-- `hal_flash_write` of the i.MX RT, `/repo/hal/imx_rt.c:910-954`; `d`: memory from `data` on, also after its end. -/
def imxWrite (ok : Nat → Bool) (m : Mem) (a : Nat) (d : Mem) (len : Nat) : Mem × Int := loop ok a d ((len + 255) / 256) 0 m

/-- The range that is taken out of the cache: start and length, `/repo/hal/imx_rt.c:948-950`, `/repo/hal/imx_rt.c:992-994`. -/
def invalidated (a len : Nat) : Nat × Nat := (a - a % 32, len + (32 - len % 32))

/-- The block of an address, as in `/repo/hal/renesas-ra.c:200`: blocks of 8 kB below 64 kB, then of 32 kB. -/
def blk (i : Nat) : Nat := if i < 0x10000 then i / 0x2000 else 8 + (i - 0x10000) / 0x8000

/-- `R_FLASH_HP_Erase` of one block, `/repo/hal/renesas-ra.c:207`. -/
def eraseBlk (m : Mem) (a : Nat) : Mem := fun i => if blk i = blk a then 0xFF#8 else m i

/-- The loop of `hal_flash_erase` of the RA, `/repo/hal/renesas-ra.c:206-210`. -/
def eraseLoop (bs : Nat) : Nat → Nat → Mem → Mem
  | 0, _, m => m
  | n + 1, a, m => eraseLoop bs n (a + bs) (eraseBlk m a)

/-- `block_size`, `/repo/hal/renesas-ra.c:200`. -/
def blockSize (a : Nat) : Nat := if 0x10000 ≤ a then 0x8000 else 0x2000

/-- `hal_flash_erase` of the RA, `/repo/hal/renesas-ra.c:193-212`. -/
def raErase (m : Mem) (a len : Nat) : Mem × Int :=
  if len % blockSize a ≠ 0 then (m, -1) else (eraseLoop (blockSize a) (len / blockSize a) a m, 0)

/-- `R_FLASH_HP_Write`, `/repo/hal/renesas-ra.c:124`. -/
def write (m : Mem) (a : Nat) (b : Mem) (n : Nat) : Mem := fun i => if a ≤ i ∧ i < a + n then m i &&& b (i - a) else m i

/-- `blockWrite`, `/repo/hal/renesas-ra.c:118-130`, `n` times `MINIMUM_BLOCK` 128. -/
def blockWrite (d : Mem) : Nat → Nat → Nat → Mem → Mem
  | 0, _, _, m => m
  | n + 1, p, a, m => blockWrite d n (p + 128) (a + 128) (write m a (fun j => d (p + j)) 128)

/-- The last two parts of `hal_flash_write` of the RA, `/repo/hal/renesas-ra.c:170-186`: whole blocks of 128 bytes from `p` in the data, then the rest with an
erase before it. -/
def raRest (m : Mem) (a : Nat) (d : Mem) (p len : Nat) : Mem :=
  let m1 := blockWrite d (len / 128) p a m
  if len % 128 = 0 then m1
  else
    let a1 := a + len / 128 * 128
    let save : Mem := fun j => if j < len % 128 then d (p + len / 128 * 128 + j) else m1 (a1 + j)
    write (eraseBlk m1 a1) a1 save 128

/-- `hal_flash_write` of the RA, `/repo/hal/renesas-ra.c:133-190`: first, when the address is not a multiple of 128, 512 bytes are erased with their block and
written again with `save_len` bytes of the data. -/
def raWrite (m : Mem) (a : Nat) (d : Mem) (len : Nat) : Mem :=
  let o := a % 128
  if o = 0 then raRest m a d 0 len
  else
    let s := min o len
    let save : Mem := fun j => if o ≤ j ∧ j < o + s then d (j - o) else m (a - o + j)
    raRest (write (eraseBlk m (a - o)) (a - o) save 512) (a - o + 128) d s (len - s)

end Verif.Imx
