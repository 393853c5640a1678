import Verif.Tz

/-!
# Erase commands of STM32 flash controllers

What `hal_flash_erase` of STM32G0, C0, WB, L5, U5, H5, H7, F4 and F7 writes to the control registers, and the claim of non-secure flash of `/repo/hal/stm32_tz.c:61-205`. A
register is a 32-bit word; the log holds the words with which operations are started. The bit of the start is cleared by the chip when the operation has ended, which the code
waits for. Not modelled: errors, the lock, barriers. `Verif.HalErase` has the same loops with the chip erasing the page that contains `p`; here it is shown when that is so.
-/

namespace Verif

namespace FlashReg

/-- `x & ~m` of 32-bit words, `/repo/hal/stm32g0.c:189`. -/
def clr (x m : Nat) : Nat := x &&& (0xFFFFFFFF ^^^ m)

/-- `v << n` of 32-bit words, `/repo/hal/stm32g0.c:190`. -/
def shl (v n : Nat) : Nat := (v <<< n) % 4294967296

/-- `for (p = address; p < end_address; p += FLASH_PAGE_SIZE)` with a body that starts one operation, `/repo/hal/stm32g0.c:188-195`: log, and register afterwards. Addresses do
not reach the end of the address space. -/
def eraseLoop (step : Nat → Nat → Nat × Nat) (P p e cr : Nat) : List Nat × Nat :=
  if h : p < e ∧ 0 < P then
    let r := step p cr
    let t := eraseLoop step P (p + P) e r.2
    (r.1 :: t.1, t.2)
  else ([], cr)
termination_by e - p

/-! ## STM32G0, C0, WB, F4, F7 -/

/-- The body for STM32G0 and C0, `/repo/hal/stm32g0.c:189-194`, `/repo/hal/stm32c0.c:205-210`: `p` is the address, not the offset. -/
def g0Step (p cr : Nat) : Nat × Nat :=
  let reg := clr cr (0x3f <<< 3)
  let cr := reg ||| shl (p >>> 11) 3 ||| 2
  (cr ||| 0x10000, clr cr 2)

/-- `hal_flash_erase` of STM32G0 and C0, `/repo/hal/stm32g0.c:180-197`, `/repo/hal/stm32c0.c:196-213`. -/
def g0Erase (address len cr : Nat) : List Nat × Nat := if len = 0 then ([], cr) else eraseLoop g0Step 0x800 address (address + len - 1) cr

/-- The body for STM32WB, `/repo/hal/stm32wb.c:223-229`. -/
def wbStep (p cr : Nat) : Nat × Nat :=
  let reg := clr cr (0xFF <<< 3 ||| 0x40000 ||| 1)
  let cr := reg ||| shl (p >>> 12) 3 ||| 2
  (cr ||| 0x10000, clr cr 2)

/-- `hal_flash_erase` of STM32WB, `/repo/hal/stm32wb.c:211-232`. -/
def wbErase (address len cr : Nat) : List Nat × Nat :=
  if len = 0 then ([], cr) else
  let address := address - 0x08000000
  eraseLoop wbStep 0x1000 address (address + len - 1) cr

/-- `flash_erase_sector` of STM32F4 and F7, `/repo/hal/stm32f4.c:159-168`, `/repo/hal/stm32f7.c:229-238`. -/
def f4Sector (sec cr : Nat) : Nat × Nat :=
  let reg := clr cr (0x1f <<< 3)
  let cr := reg ||| shl (sec &&& 0x1f) 3
  let cr := cr ||| 2
  (cr ||| 0x10000, clr (clr cr 2) (0x1f <<< 3))

/-! ## STM32L5 and U5 -/

/-- The mask of the page number, `/repo/hal/stm32l5.h:205-206`, `/repo/hal/stm32u5.h:212-213`. -/
def L5_PNB : Nat := 0x7F <<< 3
/-- `FLASH_CR_BKER`, `/repo/hal/stm32l5.h:207`. -/
def L5_BKER : Nat := 0x800

/-- The registers written for the page at `p`, `/repo/hal/stm32l5.c:183-187` (`sh` = 11), `/repo/hal/stm32u5.c:210-214` (`sh` = 13). -/
def l5Write (sh p base bker cr : Nat) : Nat := clr cr (L5_PNB ||| L5_BKER) ||| (shl ((p - base) >>> sh) 3 ||| 2 ||| bker)

/-- The loop of `hal_flash_erase` of STM32L5, `/repo/hal/stm32l5.c:162-194`: `P` is `FLASH_PAGE_SIZE`, `secure` is a build for the secure state, `dbank` the option bit. -/
def l5Loop (P : Nat) (secure dbank : Bool) (p e cr : Nat) : List Nat × Nat :=
  if h : p < e ∧ 0 < P then
    if (dbank = false ∧ p ≤ 0x0807FFFF) ∨ p < 0x08040000 then
      let cr := l5Write 11 p 0x08000000 0 cr
      let t := l5Loop P secure dbank (p + P) e cr
      ((cr ||| 0x10000) :: t.1, t.2)
    else if p ≤ 0x0807FFFF then
      if secure then ([], cr)
      else
        let cr := l5Write 11 p 0x08040000 L5_BKER cr
        let t := l5Loop P secure dbank (p + P) e cr
        ((cr ||| 0x10000) :: t.1, t.2)
    else ([], clr cr 2)
  else ([], clr cr 2)
termination_by e - p

/-- `hal_flash_erase` of STM32L5, `/repo/hal/stm32l5.c:150-195`: value returned, log and register. -/
def l5Erase (secure dbank : Bool) (address len cr : Nat) : Int × List Nat × Nat :=
  if len = 0 then (-1, [], cr)
  else if address < 0x08000000 then (-1, [], cr)
  else (0, l5Loop 0x800 secure dbank address (address + len - 1) cr)

/-- The secure and the non-secure control register of STM32U5, `/repo/hal/stm32u5.h:174,184`. -/
structure U5 where
  s : Nat
  n : Nat

/-- The loop of `hal_flash_erase` of STM32U5, `/repo/hal/stm32u5.c:190-218`: the log also says whether the secure register was used. `P` is `FLASH_PAGE_SIZE`, `cur` is the register to which `cr` points. -/
def u5Loop (P : Nat) (secure dbank cur : Bool) (p e : Nat) (r : U5) : List (Bool × Nat) × U5 :=
  if h : p < e ∧ 0 < P then
    if (dbank = false ∧ p ≤ 0x081FFFFF) ∨ p < 0x08100000 then
      if secure then
        let cr := l5Write 13 p 0x08000000 0 r.s
        let t := u5Loop P secure dbank true (p + P) e { r with s := cr }
        ((true, cr ||| 0x10000) :: t.1, t.2)
      else
        let cr := l5Write 13 p 0x08000000 0 r.n
        let t := u5Loop P secure dbank false (p + P) e { r with n := cr }
        ((false, cr ||| 0x10000) :: t.1, t.2)
    else if p ≤ 0x081FFFFF then
      let cr := l5Write 13 p 0x08100000 L5_BKER r.n
      let t := u5Loop P secure dbank false (p + P) e { r with n := cr }
      ((false, cr ||| 0x10000) :: t.1, t.2)
    else ([], { r with n := clr r.n 2 })
  else ([], if cur then { r with s := clr r.s 2 } else { r with n := clr r.n 2 })
termination_by e - p

/-- `hal_flash_erase` of STM32U5, `/repo/hal/stm32u5.c:176-220`. -/
def u5Erase (secure dbank : Bool) (address len : Nat) (r : U5) : Int × List (Bool × Nat) × U5 :=
  if len = 0 then (-1, [], r)
  else if address < 0x08000000 then (-1, [], r)
  else (0, u5Loop 0x2000 secure dbank false address (address + len - 1) r)

/-! ## STM32H5 -/

/-- The mask of the sector number, `/repo/hal/stm32h5.h:293-294`. -/
def H5_SNB : Nat := 0x7F <<< 6

/-- `is_flash_nonsecure`, `/repo/hal/stm32h5.c:31-46`: `dual` is `DUALBANK_SWAP`, `boot` the address of the partition. -/
def h5NonSecure (dual : Bool) (boot address : Nat) : Bool :=
  if dual then decide (boot - 0x08000000 ≤ address &&& 0x000FFFFF) else decide (boot ≤ address)

/-- The body for STM32H5, `/repo/hal/stm32h5.c:194-217`: `swap` is the option bit of swapped banks. -/
def h5Step (swap : Bool) (p cr : Nat) : Nat × Nat :=
  let reg := clr cr (H5_SNB ||| 8)
  let second := decide (0x08100000 ≤ p ∧ p ≤ 0x081FFFFF)
  let base := if second then 0x08100000 else 0x08000000
  let bnksel := if swap then !second else second
  let cr := reg ||| (shl ((p - base) >>> 13) 6 ||| 4 ||| shl bnksel.toNat 31)
  (cr ||| 0x20, cr)

/-- `hal_flash_erase` of STM32H5, `/repo/hal/stm32h5.c:180-223`: `tz` is a build for the secure state. In such a build a non-secure address makes the first round return. -/
def h5Erase (tz dual swap : Bool) (boot address len cr : Nat) : Int × List Nat × Nat :=
  if len = 0 then (-1, [], cr)
  else if address < 0x08000000 then (-1, [], cr)
  else if tz = true ∧ h5NonSecure dual boot address = true ∧ address < address + len - 1 then (0, [], cr)
  else
    let t := eraseLoop (h5Step swap) 0x2000 address (address + len - 1) cr
    (0, t.1, clr t.2 4)

/-- `hal_flash_write` of STM32H5 on the register, `/repo/hal/stm32h5.c:115-127`: `FLASH_CR_PG` is set and cleared, for each unit. -/
def h5Write (cr : Nat) : Nat := clr (cr ||| 2) 2

/-- The erase of `fork_bootloader`, `/repo/hal/stm32h5.c:511-530`: the second bank, through its secure alias if `tz`. -/
def h5Fork (tz dual swap : Bool) (boot cr : Nat) : Int × List Nat × Nat :=
  let dst := 0x08100000
  let dst := if tz then clr dst 0x08000000 ||| 0x0C000000 else dst
  h5Erase tz dual swap boot dst (boot - 0x08000000) cr

/-! ## STM32H7 -/

/-- What happens at the controller: an operation is started in a bank, or its status is polled until it is idle. -/
inductive Ev where
  | start (bank word : Nat)
  | wait (bank : Nat)

/-- `flash_wait_complete`, `/repo/hal/stm32h7.c:39-47`. -/
def h7Wait (bank : Nat) : Ev := if bank = 0 then .wait 0 else .wait 1

/-- The word for sector `p >> 17`, `/repo/hal/stm32h7.c:208-211,218-222`. -/
def h7Word (p cr : Nat) : Nat := clr cr (0x7 <<< 8 ||| 0x10) ||| (shl (p >>> 17) 8 ||| 4 ||| 0)

/-- The loop of `hal_flash_erase` of STM32H7, `/repo/hal/stm32h7.c:203-227`, at most `n` rounds: events, and both registers. `p` is a 32-bit word. -/
def h7Loop (p e cr1 cr2 : Nat) : Nat → List Ev × Nat × Nat
  | 0 => ([], cr1, cr2)
  | n + 1 =>
    if p < e then
      if p < 0x100000 then
        let w := h7Word p cr1
        let t := h7Loop ((p + 0x20000) % 4294967296) e w cr2 n
        (.start 0 (w ||| 0x80) :: h7Wait 1 :: t.1, t.2)
      else if p ≤ 0x081FFFFF - 0x08000000 then
        let p := (p + 4294967296 - 0x08100000) % 4294967296
        let w := h7Word p cr2
        let t := h7Loop ((p + 0x20000) % 4294967296) e cr1 w n
        (.start 1 (w ||| 0x80) :: h7Wait 2 :: t.1, t.2)
      else h7Loop ((p + 0x20000) % 4294967296) e cr1 cr2 n
    else ([], cr1, cr2)

/-! ## Claim and release of non-secure flash -/

/-- Sizes of a chip: `FLASH_PAGE_SIZE`, `FLASH_BANK2_BASE`, `FLASH_TOP`, `/repo/hal/stm32l5.h:227-230`, `/repo/hal/stm32h5.h:319-322`. -/
structure Chip where
  h5 : Bool
  page : Nat
  bank2 : Nat
  top : Nat

/-- STM32L5, `/repo/hal/stm32l5.h:227-230`. -/
def L5 : Chip := { h5 := false, page := 0x800, bank2 := 0x08040000, top := 0x0807FFFF }
/-- STM32H5, `/repo/hal/stm32h5.h:319-322`. -/
def H5 : Chip := { h5 := true, page := 0x2000, bank2 := 0x08100000, top := 0x081FFFFF }

/-- `is_range_nonsecure`, `/repo/hal/stm32_tz.c:61-90`. -/
def rangeNs (c : Chip) (dual : Bool) (boot update address : Nat) (len : Int) : Bool :=
  if len < 0 then false
  else
    let last := (address + len.toNat) % 4294967296
    if dual then decide ((boot ≤ address ∧ last ≤ c.bank2 + 1) ∨ (update ≤ address ∧ last ≤ c.top + 1))
    else decide (boot ≤ address ∧ last ≤ c.top + 1)

/-- `FLASH_SECBB1`, `FLASH_SECBB2` (one bit per page, set for secure) and `FLASH_CR`, `/repo/hal/stm32h5.h:203-209`. -/
structure Tzf where
  b1 : Nat → Nat
  b2 : Nat → Nat
  cr : Nat

/-- The register of a bank, `/repo/hal/stm32_tz.c:122-125`. -/
def Tzf.bb (t : Tzf) (bank : Bool) : Nat → Nat := if bank then t.b2 else t.b1

/-- `FLASH_SECBBx[reg_idx] |= (1 << pos)`, `/repo/hal/stm32_tz.c:118-125`. -/
def Tzf.claimPage (t : Tzf) (bank : Bool) (page : Nat) : Tzf :=
  if bank then { t with b2 := Tz.upd t.b2 (page / 32) (t.b2 (page / 32) ||| 1 <<< (page % 32)) }
  else { t with b1 := Tz.upd t.b1 (page / 32) (t.b1 (page / 32) ||| 1 <<< (page % 32)) }

/-- The first loop, `/repo/hal/stm32_tz.c:117-130`: registers, and the page number afterwards. -/
def claimLoop (P : Nat) (bank : Bool) (address e page : Nat) (t : Tzf) : Tzf × Nat :=
  if h : address < e ∧ 0 < P then claimLoop P bank (address + P) e (page + 1) (t.claimPage bank page) else (t, page)
termination_by e - address

/-- The word that starts an erase, `/repo/hal/stm32_tz.c:134-140`. -/
def claimWord (h5 : Bool) (bank : Bool) (page cr : Nat) : Nat :=
  if h5 then clr cr (H5_SNB ||| 4 ||| 8 ||| 2 ||| 0x8000) ||| (shl page 6 ||| 4 ||| shl bank.toNat 31)
  else clr cr (L5_PNB ||| 2 ||| L5_BKER ||| 1 ||| 4 ||| 0x8000) ||| (shl page 3 ||| 2)

/-- `FLASH_CR_STRT`, `/repo/hal/stm32l5.h:209`, `/repo/hal/stm32h5.h:292`. -/
def strt (h5 : Bool) : Nat := if h5 then 0x20 else 0x10000

/-- The second loop, `/repo/hal/stm32_tz.c:132-148`: log and register. -/
def claimErase (h5 : Bool) (P : Nat) (bank : Bool) (address e page cr : Nat) : List Nat × Nat :=
  if h : address < e ∧ 0 < P then
    let cr := claimWord h5 bank page cr
    let r := claimErase h5 P bank (address + P) e (page + 1) cr
    ((cr ||| strt h5) :: r.1, r.2)
  else ([], cr)
termination_by e - address

/-- `hal_tz_claim_nonsecure_area`, `/repo/hal/stm32_tz.c:93-155`: log and registers. -/
def claim (c : Chip) (dual swap : Bool) (boot update address : Nat) (len : Int) (t : Tzf) : List Nat × Tzf :=
  if rangeNs c dual boot update address len = false then ([], t)
  else
    let e := (address + len.toNat) % 4294967296
    let bank := decide (c.bank2 ≤ address)
    let page := if bank then (address - c.bank2) / c.page else (address - 0x08000000) / c.page
    let bank := if c.h5 = true ∧ swap = true then !bank else bank
    let r := claimLoop c.page bank address e page t
    let q := claimErase c.h5 c.page bank address e r.2 r.1.cr
    (q.1, { r.1 with cr := clr q.2 (if c.h5 then 4 else 2) })

/-- `FLASH_SECBBx[reg_idx] &= ~(1 << pos)`, `/repo/hal/stm32_tz.c:182-185`. -/
def Tzf.freePage (t : Tzf) (bank : Bool) (page : Nat) : Tzf :=
  if bank then { t with b2 := Tz.upd t.b2 (page / 32) (clr (t.b2 (page / 32)) (1 <<< (page % 32))) }
  else { t with b1 := Tz.upd t.b1 (page / 32) (clr (t.b1 (page / 32)) (1 <<< (page % 32))) }

/-- A loop of the release, `/repo/hal/stm32_tz.c:175-188`: `base` is the start of the bank. -/
def freeLoop (P base : Nat) (bank : Bool) (addr e : Nat) (t : Tzf) : Tzf :=
  if h : addr < e ∧ 0 < P then freeLoop P base bank (addr + P) e (t.freePage bank ((addr - base) / P)) else t
termination_by e - addr

/-- `hal_tz_release_nonsecure_area`, `/repo/hal/stm32_tz.c:161-205`. -/
def release (c : Chip) (dual swap : Bool) (boot update : Nat) (t : Tzf) : Tzf :=
  if dual then
    let t := freeLoop c.page 0x08000000 swap boot c.bank2 t
    freeLoop c.page c.bank2 (!swap) update c.top t
  else { t with b2 := Tz.fill 0 4 0 t.b2 }

end FlashReg

end Verif
