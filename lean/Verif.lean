import Verif.Basic
import Verif.Header
import Verif.HeaderThms
import Verif.Flash
import Verif.Trailer
import Verif.Swap
import Verif.TrailerLemmas
import Verif.CopyLemmas
import Verif.SwapLemmas
import Verif.FinalLemmas
import Verif.StartLemmas
import Verif.UpdateSpec
import Verif.UpdateLemmas
import Verif.Demo
import Verif.UpdateThms
import Verif.TornTrailer
import Verif.BootLemmas
import Verif.BootThms
import Verif.LifecycleLemmas
import Verif.LifecycleThms
import Verif.TrailerThms
import Verif.Image
import Verif.ImageLemmas
import Verif.ImageThms
import Verif.Rsa
import Verif.SignTool
import Verif.SignThms
import Verif.Delta
import Verif.DeltaThms
import Verif.DiffThms
import Verif.DeltaUpdate
import Verif.DeltaBase
import Verif.DeltaDemo
import Verif.DeltaBaseEx
import Verif.DeltaLoop
import Verif.DeltaRun
import Verif.DeltaStart
import Verif.DeltaPower
import Verif.DeltaPowerEx
import Verif.Crypt
import Verif.CryptThms
import Verif.CryptSwap
import Verif.CryptEx
import Verif.KeyStore
import Verif.DualBoot
import Verif.DualThms
import Verif.DualEx
import Verif.Ata
import Verif.Gpt
import Verif.DiskBoot
import Verif.DiskEx
import Verif.CString
import Verif.CStringThms
import Verif.CStringEx
import Verif.Printf
import Verif.PrintfThms
import Verif.Xmalloc
import Verif.Otp
import Verif.UartFlash
import Verif.SelfUpdate
import Verif.Elf
import Verif.ElfScatter
import Verif.PkcsStore
import Verif.PkcsLemmas
import Verif.PkcsInv
import Verif.PkcsOps
import Verif.PkcsThms
import Verif.PkcsSpec
import Verif.PkcsRefine
import Verif.PkcsCrash
import Verif.PkcsFind
import Verif.Fdt
import Verif.FdtBounds
import Verif.FdtSpec
import Verif.FdtGet
import Verif.FdtSet
import Verif.FdtThms
import Verif.FdtFind
import Verif.Nvm
import Verif.NvmThms
import Verif.NvmFind
import Verif.BootGate
import Verif.DirectUpdate
import Verif.HalFlash
import Verif.HalFlashB
import Verif.HalFlashC
import Verif.HalErase
import Verif.HalEraseB
import Verif.Tighten
import Verif.HalLink
import Verif.ExtFlash
import Verif.SpiNor
import Verif.Pci
import Verif.PciThms
import Verif.Paging
import Verif.PagingThms
import Verif.HandOff
import Verif.HandOffThms
import Verif.Stage1
import Verif.Stage1Thms
import Verif.Armor
import Verif.ArmorThms
import Verif.ArmorVerify
import Verif.ArmorVersion
import Verif.ArmorMask
import Verif.SigWrap
import Verif.SigWrapThms
import Verif.Tpm
import Verif.TpmSeal
import Verif.TpmSealThms
import Verif.DiskLock
import Verif.DiskLockThms
import Verif.TpmBoot
import Verif.TpmBootThms
import Verif.TpmSpi
import Verif.TpmSpiThms
import Verif.Fit
import Verif.FitThms
import Verif.FitLoad
import Verif.FitFind
import Verif.FitEx
import Verif.Mpu
import Verif.MpuThms
import Verif.StartUp
import Verif.StartUpThms
import Verif.Ahci
import Verif.AhciThms
import Verif.AhciPort
import Verif.AhciPortThms
import Verif.Tz
import Verif.TzThms
import Verif.FlashReg
import Verif.FlashRegThms
import Verif.FlashRegH7
import Verif.FlashRegTz
import Verif.NvmSim
import Verif.NvmUpdate
import Verif.NvmCells
import Verif.NvmRel
import Verif.NvmOps
import Verif.NvmFlags
import Verif.NvmSwap
import Verif.NvmStart
import Verif.NvmUpdateThms
import Verif.FlagsHome
import Verif.FlagsHomeSim
import Verif.FlagsHomeStart
import Verif.FlagsHomeThms
import Verif.EncUpdate
import Verif.EncCopy
import Verif.EncSwap
import Verif.EncFinal
import Verif.EncStart
import Verif.EncThms
import Verif.EncKey
import Verif.DeltaTool
import Verif.DeltaToolEx
import Verif.Emergency
import Verif.NvmEmergency
import Verif.NvmTrigger
import Verif.EmergencyEx
import Verif.VariantGate
import Verif.KeyTool
import Verif.KeyToolOtp
import Verif.KeyToolEx
import Verif.SignSteps
import Verif.SignStepsThms
import Verif.SignPy
import Verif.SignStepsEx
import Verif.BinAssemble
import Verif.BinAssembleEx
import Verif.ToolTables
import Verif.InvThms
import Verif.TpmTools
import Verif.TpmToolsThms
import Verif.TpmPolicyThms
import Verif.TpmRotThms
import Verif.TpmToolsEx
import Verif.SerialUpdate
import Verif.SerialUpdateThms
import Verif.SerialXferThms
import Verif.SerialFaultThms
import Verif.SerialEx
import Verif.Nrf
import Verif.NrfThms
import Verif.NrfEx
import Verif.Nand
import Verif.NandThms
import Verif.NandEx
import Verif.Aurix
import Verif.AurixThms
import Verif.AurixEx
import Verif.Zynq
import Verif.ZynqThms
import Verif.ZynqEx
import Verif.Nxp
import Verif.NxpThms
import Verif.NxpEx
import Verif.Imx
import Verif.ImxThms
import Verif.ImxEx
import Verif.Idt
import Verif.IdtThms
import Verif.IdtEx
