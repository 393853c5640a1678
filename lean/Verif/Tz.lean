import Verif.Basic

/-!
# Security attribution of memory with TrustZone

`/repo/hal/armv8m_tz.h`, `/repo/hal/stm32_tz.c:208-342` (STM32L5, U5 and H5), `/repo/hal/rp2350.c:125-198`, `/repo/src/wc_callable.c:32-41`. Registers are the
words that the code writes; what they mean (ARMv8-M Security Extension; RM0438, RM0456, RM0481; RP2350 data sheet) is in `Verif.TzThms`. Not modelled: security of
single peripherals and pins (`periph_unsecure`), interrupts, option bytes.
-/

namespace Verif

namespace Tz

/-- A register of an array written, `/repo/hal/armv8m_tz.h:52-53`. -/
def upd (f : Nat → Nat) (i v : Nat) : Nat → Nat := fun j => if j = i then v else f j

/-- Security attribution unit: `SAU_CTRL`, `SAU_RNR`, and `SAU_RBAR`, `SAU_RLAR` of each region, `/repo/hal/armv8m_tz.h:27-30`. -/
structure Sau where
  ctrl : Nat
  rnr : Nat
  rbar : Nat → Nat
  rlar : Nat → Nat

/-- `SAU_REGION_MASK`, `/repo/hal/armv8m_tz.h:32`. -/
def REGION_MASK : Nat := 0x000000FF
/-- `SAU_ADDR_MASK`, `/repo/hal/armv8m_tz.h:33`. -/
def ADDR_MASK : Nat := 0xFFFFFFE0
/-- `SAU_REG_ENABLE`, `/repo/hal/armv8m_tz.h:36`. -/
def REG_ENABLE : Nat := 1
/-- `SAU_REG_SECURE`, `/repo/hal/armv8m_tz.h:37`. -/
def REG_SECURE : Nat := 2
/-- `SAU_INIT_CTRL_ENABLE`, `/repo/hal/armv8m_tz.h:39`. -/
def CTRL_ENABLE : Nat := 1

/-- `sau_init_region`, `/repo/hal/armv8m_tz.h:45-55`. -/
def initRegion (s : Sau) (region start last : Nat) (secure : Bool) : Sau :=
  let r := region &&& REGION_MASK
  { s with rnr := r, rbar := upd s.rbar r (start &&& ADDR_MASK),
           rlar := upd s.rlar r ((last &&& ADDR_MASK) ||| (if secure then REG_SECURE else 0) ||| REG_ENABLE) }

/-- `hal_tz_sau_init` of STM32L5 and U5, `/repo/hal/stm32_tz.c:322-342`. -/
def sauL5 (s : Sau) : Sau :=
  let s := initRegion s 0 0x0C038000 0x0C040000 true
  let s := initRegion s 1 0x08040000 0x0807FFFF false
  let s := initRegion s 2 0x20020000 0x2003FFFF false
  let s := initRegion s 3 0x40000000 0x4FFFFFFF false
  { s with ctrl := CTRL_ENABLE }

/-- `hal_tz_sau_init` of STM32H5, `/repo/hal/stm32_tz.c:285-319`: `boot` and `update` are the addresses of the partitions; `FLASH_BANK2_BASE` and
`FLASH_TOP` are at `/repo/hal/stm32h5.h:320-322`. -/
def sauH5 (boot update : Nat) (s : Sau) : Sau :=
  let s := initRegion s 0 0x0C038000 0x0C040000 true
  let s := initRegion s 1 boot (0x08100000 - 1) false
  let s := initRegion s 2 update (0x081FFFFF - 1) false
  let s := initRegion s 3 0x30000000 0x3004FFFF true
  let s := initRegion s 4 0x20050000 0x2008FFFF false
  let s := initRegion s 5 0x40000000 0x4FFFFFFF false
  let s := initRegion s 6 0x50000000 0x5FFFFFFF true
  let s := initRegion s 7 0x08FFF000 0x08FFFFFF false
  { s with ctrl := CTRL_ENABLE }

/-- `rp2350_configure_sau`, `/repo/hal/rp2350.c:125-146`. -/
def sauRp (s : Sau) : Sau :=
  let s := { s with ctrl := 0 }
  let s := initRegion s 0 0x10000000 0x1002FFFF true
  let s := initRegion s 1 0x10030000 0x1003FFFF true
  let s := initRegion s 2 0x10040000 0x101FFFFF false
  let s := initRegion s 3 0x20000000 0x2003FFFF true
  let s := initRegion s 4 0x20040000 0x20081FFF false
  let s := initRegion s 6 0x40000000 0x5FFFFFFF false
  let s := initRegion s 7 0xD0000000 0xDFFFFFFF false
  { s with ctrl := 1 }

/-- The registers of the memory protection controllers of the SRAMs, one bit per block, `/repo/hal/stm32_tz.c:216-221,246-253`. -/
structure Gtzc where
  b1 : Nat → Nat
  b2 : Nat → Nat
  b3 : Nat → Nat

/-- A loop that writes `n` registers from `i` on, `/repo/hal/stm32_tz.c:229-231`. -/
def fill (v : Nat) : Nat → Nat → (Nat → Nat) → Nat → Nat
  | 0, _, f => f
  | n + 1, i, f => fill v n (i + 1) (upd f i v)

/-- `hal_gtzc_init` of STM32L5 and U5, `/repo/hal/stm32_tz.c:255-280`. -/
def gtzcL5 (g : Gtzc) : Gtzc :=
  let g := { g with b1 := fill 0xFFFFFFFF 16 0 g.b1 }
  let g := { g with b1 := fill 0 8 16 g.b1 }
  { g with b2 := fill 0 8 0 g.b2 }

/-- `hal_gtzc_init` of STM32H5, `/repo/hal/stm32_tz.c:223-242`. -/
def gtzcH5 (g : Gtzc) : Gtzc :=
  let g := { g with b1 := fill 0xFFFFFFFF 16 0 g.b1 }
  let g := { g with b2 := fill 0xFFFFFFFF 4 0 g.b2 }
  { g with b3 := fill 0 20 0 g.b3 }

/-- `secure_fl`, `/repo/hal/rp2350.c:161`, with the bits of 51-59. -/
def SECURE_FL : Nat := 4 ||| 8 ||| 64 ||| 128 ||| 16 ||| 0xACCE0000
/-- `non_secure_fl`, `/repo/hal/rp2350.c:162`. -/
def NON_SECURE_FL : Nat := 1 ||| 2 ||| 64 ||| 128 ||| 16 ||| 32 ||| 0xACCE0000

/-- `ACCESS_CONTROL_SRAM` of `rp2350_configure_access_control`, `/repo/hal/rp2350.c:164-170`. -/
def sramRp (f : Nat → Nat) : Nat → Nat := fill (NON_SECURE_FL ||| SECURE_FL) 6 4 (fill SECURE_FL 4 0 f)

/-- `wcs_get_random`, which non-secure code can call, `/repo/src/wc_callable.c:32-41`: `rng` are the bytes of the generator. The pointer is used as it is. -/
def getRandom (rng : Nat → Byte) (m : Mem) (rand size : Nat) : Mem := fun x => if rand ≤ x ∧ x < rand + size then rng (x - rand) else m x

end Tz

end Verif
