/-!
# Memory protection while wolfBoot runs (ARM Cortex-M)

`/repo/src/boot_arm.c:40-171`. The registers of the memory protection unit are those of the ARMv7-M architecture (ARM DDI 0403, B3.5); values are
numbers below 2^32. `Verif.MpuThms` says what an access is allowed to do; the unit of ARMv8-M, which has other registers at the same addresses
(ARM DDI 0553, D1.2), is there too.
-/

namespace Verif

namespace Mpu

/-- `MPU_RASR_ENABLE`, `/repo/src/boot_arm.c:49`. -/
def ENABLE : Nat := 1
/-- `MPU_RASR_ATTR_XN`, `/repo/src/boot_arm.c:50`. -/
def XN : Nat := 0x10000000
/-- `MPU_RASR_ATTR_AP_PRW_UNO`, `/repo/src/boot_arm.c:53`. -/
def AP_PRW_UNO : Nat := 0x01000000
/-- `MPU_RASR_ATTR_S`, `/repo/src/boot_arm.c:59`. -/
def ATTR_S : Nat := 0x40000
/-- `MPU_RASR_ATTR_B`, `/repo/src/boot_arm.c:61`. -/
def ATTR_B : Nat := 0x10000
/-- `MPU_RASR_ATTR_SCB`, `/repo/src/boot_arm.c:62`. -/
def ATTR_SCB : Nat := 0x70000
/-- `MPUSIZE_8K`, `/repo/src/boot_arm.c:88`. -/
def SIZE_8K : Nat := 0x18
/-- `MPUSIZE_16K`, `/repo/src/boot_arm.c:89`. -/
def SIZE_16K : Nat := 0x1a
/-- `MPUSIZE_32K`, `/repo/src/boot_arm.c:90`. -/
def SIZE_32K : Nat := 0x1c
/-- `MPUSIZE_64K`, `/repo/src/boot_arm.c:91`. -/
def SIZE_64K : Nat := 0x1e
/-- `MPUSIZE_256M`, `/repo/src/boot_arm.c:93`. -/
def SIZE_256M : Nat := 0x36
/-- `MPUSIZE_512M`, `/repo/src/boot_arm.c:94`. -/
def SIZE_512M : Nat := 0x38
/-- `MPUSIZE_1G`, `/repo/src/boot_arm.c:95`. -/
def SIZE_1G : Nat := 0x3a
/-- `MPUSIZE_4G`, `/repo/src/boot_arm.c:96`. -/
def SIZE_4G : Nat := 0x3e
/-- `MPUSIZE_ERR`, `/repo/src/boot_arm.c:97`. -/
def SIZE_ERR : Nat := 0x1fe

/-- The registers `MPU_TYPE`, `MPU_CTRL`, `MPU_RNR`, `MPU_RBAR`, `MPU_RASR` (`/repo/src/boot_arm.c:42-47`), the last two for every region, and the
variable `mpu_is_on` (`/repo/src/boot_arm.c:64`). -/
structure St where
  typ : Nat
  ctrl : Nat
  rnr : Nat
  rbar : Nat → Nat
  rasr : Nat → Nat
  on : Bool

/-- A function with one value replaced. -/
def upd (f : Nat → Nat) (i v : Nat) : Nat → Nat := fun j => if j = i then v else f j

/-- Write to `MPU_RBAR` (`/repo/src/boot_arm.c:46`): with the bit `VALID` (4) the region is the one in the low bits of the value. -/
def wrRbar (s : St) (v : Nat) : St :=
  if v / 16 % 2 = 1 then { s with rnr := v % 16, rbar := upd s.rbar (v % 16) v }
  else { s with rbar := upd s.rbar s.rnr v }

/-- Write to `MPU_RASR`, `/repo/src/boot_arm.c:47`. -/
def wrRasr (s : St) (v : Nat) : St := { s with rasr := upd s.rasr s.rnr v }

/-- `mpu_setaddr`, `/repo/src/boot_arm.c:66-70`. -/
def setaddr (s : St) (region addr : Nat) : St := wrRbar { s with rnr := region } addr

/-- `mpu_setattr`, `/repo/src/boot_arm.c:72-76`. -/
def setattr (s : St) (region attr : Nat) : St := wrRasr { s with rnr := region } attr

/-- `mpu_on`, `/repo/src/boot_arm.c:78-86`. -/
def turnOn (s : St) : St :=
  if s.on then s else if s.typ = 0 then s else { s with ctrl := 1, on := true }

/-- `mpusize`, `/repo/src/boot_arm.c:99-110`. -/
def mpusize (size : Nat) : Nat :=
  if size ≤ 8 * 1024 then SIZE_8K
  else if size ≤ 16 * 1024 then SIZE_16K
  else if size ≤ 32 * 1024 then SIZE_32K
  else if size ≤ 64 * 1024 then SIZE_64K
  else SIZE_ERR

/-- Addresses given by the linker, `/repo/src/boot_arm.c:29-31`, and whether `RAM_CODE` is defined. -/
structure Layout where
  startText : Nat
  storedData : Nat
  startData : Nat
  ramCode : Bool

/-- `wolfboot_flash_size`, `/repo/src/boot_arm.c:114-115`. -/
def flashSize (l : Layout) : Nat := (l.storedData + 4294967296 - l.startText) % 4294967296

/-- Region 0, `/repo/src/boot_arm.c:122-125`. -/
def region0 (s : St) : St := setattr (setaddr s 0 0) 0 (SIZE_4G ||| ENABLE ||| ATTR_SCB ||| AP_PRW_UNO ||| XN)

/-- Region 1, `/repo/src/boot_arm.c:131-134`. -/
def region1 (l : Layout) (sz : Nat) (s : St) : St := setattr (setaddr s 1 l.startText) 1 (sz ||| ENABLE ||| ATTR_SCB ||| AP_PRW_UNO)

/-- Region 2, `/repo/src/boot_arm.c:136-144`. -/
def region2 (l : Layout) (s : St) : St :=
  setattr (setaddr s 2 l.startData) 2 (SIZE_64K ||| ENABLE ||| ATTR_SCB ||| AP_PRW_UNO ||| (if l.ramCode then 0 else XN))

/-- Region 5, `/repo/src/boot_arm.c:146-149`. -/
def region5 (s : St) : St := setattr (setaddr s 5 0x40000000) 5 (SIZE_512M ||| ENABLE ||| ATTR_S ||| ATTR_B ||| AP_PRW_UNO ||| XN)

/-- Region 6, `/repo/src/boot_arm.c:151-154`. -/
def region6 (s : St) : St := setattr (setaddr s 6 0xA0000000) 6 (SIZE_1G ||| ENABLE ||| ATTR_S ||| ATTR_B ||| AP_PRW_UNO ||| XN)

/-- Region 7, `/repo/src/boot_arm.c:156-159`. -/
def region7 (s : St) : St := setattr (setaddr s 7 0xE0000000) 7 (SIZE_256M ||| ENABLE ||| ATTR_S ||| ATTR_B ||| AP_PRW_UNO ||| XN)

/-- `mpu_init`, `/repo/src/boot_arm.c:112-161`. -/
def init (l : Layout) (s : St) : St :=
  if s.typ = 0 then s
  else
    let s := region0 s
    let sz := mpusize (flashSize l)
    if sz = SIZE_ERR then s
    else turnOn (region7 (region6 (region5 (region2 l (region1 l sz s)))))

/-- `mpu_off`, `/repo/src/boot_arm.c:163-167`. -/
def off (s : St) : St := { s with on := false, ctrl := 0 }

end Mpu

end Verif
