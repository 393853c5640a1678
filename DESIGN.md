# Formal model of wolfBoot: design and trusted base

## 1. Approach

The C code in `/repo` is modelled function by function as Lean 4 functions over bytes (`BitVec 8`),
natural numbers and lists; every definition cites the lines it models. C integer types are modelled
where a wrap-around, truncation or sign change can be observed (`uint8_t pos`, `uint16_t` lengths,
`uint32_t` sizes, `uint64_t` disk addresses, `int` versions); elsewhere a hypothesis or comment says
why the natural number is exact. Undefined behaviour (access out of bounds, use of uninitialised
memory, null dereference) and non-termination are *outcomes* of the model, distinct from success, or
explicit parameters of it, so "memory safe" and "terminates" are statements about the model.

Where the code violates a property the violation itself is proved (a general theorem or a concrete
witness checked by the kernel) and the property is proved under the weakest guard found; such theorems end in
`_partial`.

Three kinds of statements occur: laws and round trips for all inputs (parsers, codecs, string
functions, digests), invariants over all histories (updates with power failures, life cycle, allocators, caches),
and decision logic (what boots when).

### Power failures
`Verif.Flash`: programs are `World → Res`, with outcomes `ok`, `crash` (power failed during a flash operation),
`panic` (`wolfBoot_panic`), `stuck` (endless loop) and `fault`. `World.budget = some n` means that power fails
during flash operation number `n`; the operation is torn: the touched range gets bytes from `World.torn`, which is
universally quantified. A crash Hoare logic (`Triple T l P m l' Q C`, `C` is the crash condition) gives
induction over any number of interrupted boots. `Interrupted c e f f'` is the reflexive-transitive closure of
"a boot crashed and left this flash".

Assumptions about torn operations (`tornErase`, `tornProgram` in `Flash.lean`):
* a torn erase or program leaves arbitrary bytes in the range it addressed and nothing else changes;
* program operations of a single trailer byte (state, flags) are atomic or not yet done (they are one
  flash word);
* the erase of the last sector of UPDATE (it carries the trailer) is atomic. Without this
  assumption wolfBoot is not power-fail safe: `TornTrailer.torn_trailer_bricks` is an erase that has set
  some of the bits and not others, after which every boot panics.

## 2. Trusted base

* The Lean 4.33.0 kernel. `decide +kernel` is used for witnesses and examples: it is evaluation by
  the kernel, no compiled code. No `native_decide`, `bv_decide`, `sorry`, no axioms are added.
* Axioms: every theorem in `MANIFEST.json` depends on a subset of `propext`, `Classical.choice`, `Quot.sound`
  (`#print axioms`, checked over the whole list after each milestone).
* The hand-written correspondence of each definition with the C lines cited at it.
* Cryptographic primitives of wolfCrypt are parameters (functions): hash, signature verification, keystream of
  AES-CTR/ChaCha. Nothing is assumed about them unless stated as a hypothesis (e.g. no collision between two given messages).
* Flash behaves as described in `Flash.lean` (the behaviour of `/repo/hal/sim.c`): erase gives `0xFF`, programming
  ANDs bits, operations on locked flash are refused. `Cfg.strict` selects whether a program operation that would need to set a bit is a fault.
* Disk hardware behaves as the ATA standard says (`Ata.lean`).

### Build configuration
The update model (`Swap`) is the default build: internal flash, fixed partitions, three-way swap. Options modelled
separately: `DELTA_UPDATES` (`DeltaUpdate`), `EXT_ENCRYPTED` (`Crypt`, `CryptSwap`, `KeyStore`, `EncUpdate`), RAM boot and
`WOLFBOOT_DUALBOOT` (`DualBoot`), hardware swap (`DualBoot`), disk boot (`Ata`, `Gpt`, `DiskBoot`), `NVM_FLASH_WRITEONCE` (`Nvm` flags, `NvmUpdate` update), `FLAGS_HOME` (`FlagsHome`),
ELF and scattered ELF (`Elf`, `ElfScatter`), `RAM_CODE` self-update (`SelfUpdate`), `WOLFBOOT_SMALL_STACK` (`Xmalloc`), `FLASH_OTP_KEYSTORE` (`Otp`),
`UART_FLASH` (`UartFlash`), `SECURE_PKCS11` (`Pkcs*`), `MMU` with device trees (`Fdt*`).

### Assumptions of single models
* `Nvm`: an interrupted erase leaves anything but the magic word, an interrupted write anything in its unit; the units that hold the magic are
  written atomically. (`nvm_torn_erase` shows that some such assumption is needed.)
* `Pkcs*`: power is lost between whole flash operations (`store_torn_header` treats a torn header write separately). `int len` arguments are not negative.
  The same (token, object) pair with different types shares its marks. Keys that do not exist are outside of the power-loss theorem (`store_phantom`).
* `UartFlash`: lossless line, timeouts expire only if nothing is under way.
* `Fdt*`: `int` is 32 bits; signed overflow is an outcome (`ub`), as are accesses outside of the buffer (`oob`) and endless loops (`none`).
* `Elf`: byte order of the host; addresses do not wrap.


## 3. What is modelled

| Code | Lean | Left out |
|---|---|---|
| `src/libwolfboot.c` trailer, state, flags, trigger, success | `Trailer` | `FLAGS_HOME` (see `FlagsHome`), `FLAGS_INVERT` (see `InvTrailer`) |
| `src/libwolfboot.c` `find_header`, blob version/type | `Header`, `Image` | |
| `src/libwolfboot.c` encryption of external flash, key storage | `Crypt`, `KeyStore` | the ciphers, `MMU` key location |
| `src/libwolfboot.c` dual-boot candidate | `DualBoot` | |
| `src/update_flash.c` copy, swap, final erase, update, start | `Swap` | ELF scattered, multi-sector erase |
| trailers and copies of `src/libwolfboot.c`, `src/update_flash.c` with `EXT_FLASH` | `ExtFlash` | encryption on top of it (see `CryptSwap`) |
| `src/spi_flash.c`, `src/qspi_flash.c`, `ext_flash_erase` of `include/hal.h` | `SpiNor` | status polling, chip identification, quad and 4-byte address modes, `hal/spi/*` |
| `src/update_flash.c` with `DISABLE_BACKUP` | `DirectUpdate` | ELF scattered, encryption |
| `src/update_flash.c` delta update | `DeltaUpdate` | patch in external flash |
| `src/update_ram.c`, `src/update_flash_hwswap.c` | `DualBoot` | U-Boot headers, device tree fix-ups |
| `src/update_disk.c`, `src/x86/gpt.c`, `src/x86/ata.c` | `DiskBoot`, `Gpt`, `Ata` | AHCI registers: see C64; unlocking: see C58 |
| `src/image.c` open, integrity, authenticity, hybrid, RSA decoding | `Image`, `Rsa` | TPM and measured boot: see C57, C59; certificate chains |
| `src/delta.c` | `Delta` | |
| `src/libwolfboot.c` `nvm_select_fresh_sector`, `trailer_write`, `partition_magic_write`, `hal_set_key`, trigger on write-once flash | `Nvm` | external flash, the update procedure on top of it |
| `src/update_flash.c` `wolfBoot_self_update`, `wolfBoot_check_self_update` | `SelfUpdate` | the code that runs from RAM |
| `src/elf.c`, scattered images of `src/image.c`, `src/update_flash.c` | `Elf`, `ElfScatter` | byte-swapped files, MMU, zero-filling of bss in the scattered store |
| `src/fdt.c` | `Fdt` | `fdt_fixup_*` (calls of `setprop`); printing |
| `src/fdt.c` `fdt_getprop_address`, `fit_find_images`, `fit_load_image`; `src/update_ram.c:279-307` | `Fit` | unaligned words may be read; overlapping `memcpy` is undefined; printing; `hash`, `compression` and other properties of FIT, which the code ignores as well |
| `src/pkcs11_store.c` | `PkcsStore` | the TrustZone entry points |
| `src/string.c` | `CString`, `Printf` |   |
| `src/x86/paging.c` | `Paging` | reading CR3, `x86_paging_dump_info`; `buildIdentity` with tables at a page boundary (`src/boot_x86_fsp.c:628`) |
| `src/x86/hob.c`, `src/multiboot.c`, `src/x86/linux_loader.c` | `HandOff` | debug dumps, the jumps themselves, the copy of the command line; pointers do not wrap |
| `src/boot_x86_fsp.c` from the point where memory is initialised, `src/x86/mptable.c` | `Stage1` | the calls of the FSP (which are not verified), the results of verification and of the construction of page tables (parameters of the model; see C01, C51), the initial table |
| `include/image.h` macros of `WOLFBOOT_ARMORED` (GNU compiler) | `Armor` | the instructions the compiler adds around the `asm` statements (except the first argument of a call), the IAR variants, skipped instructions inside called functions, faults other than skipped instructions |
| `src/image.c` `wolfBoot_verify_signature_*` | `SigWrap` | the cryptographic libraries (a parameter: any results), contents of the contexts other than the key, `int` overflow |
| `src/tpm.c` sealing (`WOLFBOOT_TPM_SEAL`), `src/update_flash.c` `wolfBoot_unlock_disk` | `Tpm`, `TpmSeal` | wolfTPM and the chip are idealised (`Tpm`: commands act as specified or fail; hashes, signatures, wrapping are functions without assumption); parameter encryption, authorisation of the index, printing, `NULL` arguments, `wolfBoot_get_policy` |
| `src/tpm.c` `self_sha*`, `wolfBoot_tpm2_extend`, `_init`, `_deinit`, `wolfBoot_check_rot`; `src/loader.c` `main`; `src/boot_x86_fsp.c` measurements | `TpmBoot` | chip of `Tpm`; creation of the storage root key and the session are calls without effect on the modelled state; printing; the `EXT_FLASH && NO_XIP` branch of `self_sha*` (it does not compile: `rc`, `ext_hash_block` are undeclared) |
| `src/tpm.c` `TPM2_IoCb`; `spi_xfer` of `hal/spi/spi_drv_*.c`, `hal_espi_xfer`, `spi_transaction` (LS1028A) | `TpmSpi` | waiting for controller flags always ends; pins, clocks, modes; the eSPI limit of 64 KiB per selection; the TPM is an automaton after the TCG profile, stated in `TpmSpiThms`; constants of wolfTPM (`MAX_SPI_FRAMESIZE` 64, `TPM_SPI_WAIT_RETRY` any number) |
| `src/boot_arm.c` memory protection | `Mpu` | the unit is that of ARMv7-M (region number in `RBAR`, size and alignment, subregions, priority of regions, default map), stated in `MpuThms` from the architecture manual; memory attributes other than cached and device |
| `src/boot_arm.c` `isr_reset`, `do_boot`; `boot_entry_C` of `boot_aarch64.c`, `boot_arm32.c`, `boot_ppc.c`; `boot_riscv.c`; `flush_cache` | `StartUp` | assembly start files, watchdogs, self-test of SRAM, registers passed to a kernel, TLB and LAW set-up; instruction fetch does not see the data cache (PowerPC) |
| `src/x86/ata.c` command slots, `ata_drive_read_sector`, `ata_drive_write_sector`; `src/x86/ahci.c` `sata_enable`, `sata_disable` | `Ahci`, `AhciPort` | controller and drive (decoding of the command header, the region descriptor and the FIS; order of commands; errors) are stated from AHCI 1.3.1 and ATA8-ACS; reset of the controller, interrupts, PCI, identification |
| `hal/armv8m_tz.h`, `hal/stm32_tz.c` attribution and SRAM blocks, `hal/rp2350.c` the same, `src/wc_callable.c` `wcs_get_random` | `Tz` | meaning of the registers (ARMv8-M, reference manuals) and the fixed attribution of the STM32 aliases are stated; security of single peripherals, pins and interrupts, option bytes, other veneers |
| Control register in `hal_flash_erase` of `hal/stm32{g0,c0,wb,f4,f7,l5,u5,h5,h7}.c`, `fork_bootloader`, `hal_tz_claim_nonsecure_area`, `hal_tz_release_nonsecure_area` | `FlashReg` | meaning of the words (reference manuals) is stated; status and error flags, lock, barriers |
| `src/update_flash.c` and flags of `src/libwolfboot.c` with `NVM_FLASH_WRITEONCE` | `NvmUpdate` | as `Swap`; the erase of a sector of the flags of UPDATE and the write of the unit with the magic are not torn; a write to a unit of the flags that is not erased is an error (`fault`) |
| `src/update_flash.c` and flags of `src/libwolfboot.c` with `FLAGS_HOME` | `FlagsHome` | as `Swap`; an interrupted erase of the last sector of UPDATE, in which nothing is kept, is taken as not begun; not together with `NVM_FLASH_WRITEONCE` (`nvm_flags_home`) |
| `src/update_flash.c` and `src/libwolfboot.c` (`hal_set_key`, `wolfBoot_set/get/erase_encrypt_key`, `wolfBoot_success`) with `EXT_ENCRYPTED` | `EncUpdate`, `EncKey` | as `Swap`; the cipher is XOR with a key stream that depends on key, nonce and offset in UPDATE (`Crypt` proves which counter the code selects); the trailer sector of UPDATE is in clear as a whole; the last sector is `S` bytes longer in the model, so that the secret follows the trailer; no `CUSTOM_ENCRYPT_KEY`, `MMU`, `NVM_FLASH_WRITEONCE`, `FLAGS_HOME`, `DELTA_UPDATES` |
| `tools/keytools/sign.c` `base_diff`, `make_header_delta`, `sign_tool_find_header` | `DeltaTool` | files are byte lists, `HAVE_MMAP` build, options already parsed; the header walk is `findHdr` of the bootloader (the two functions agree line by line); the base file is at least as long as a header (bytes behind it read as 0xFF); patches by `Delta.makePatch` with the sector size for sector and buffer; input/output errors and the encrypted copy of the file are left out |
| `src/libwolfboot.c` `wolfBoot_update_trigger` with `NVM_FLASH_WRITEONCE` (735-780) | `NvmTrigger` | flags of UPDATE in internal flash; `nvm_select_fresh_sector`, the copy and the new state on the flash of `NvmUpdate` |
| `tools/keytools/keygen.c` | `KeyTool`, `KeyToolOtp` | command line, id lists, table, `key_import`, `keystore.der`; key generation and decoding by wolfCrypt and `strtol` (as in C11) are parameters or modelled after the standard; prompts, file errors and the linker script option are not modelled |
| `tools/keytools/otp/otp-keystore-primer.c`, `otp-keystore-gen.c`, `hal_flash_otp_write` of `hal/stm32h7.c`, `hal/stm32h5.c` | `KeyToolOtp` | bits of the OTP area are only cleared; unlocking and busy flags, `hal_flash_otp_set_readonly` are not modelled |
| `tools/keytools/sign.c` `load_key*`, `set_signature_sizes`, `--sha-only`, `--manual-sign`, `--policy` | `SignSteps`, `SignStepsThms` | one Ed25519, Ed448, ECC or RSA key, without `--delta` and `--hybrid`; what wolfCrypt makes of key files is a parameter; LMS, XMSS, ML-DSA are not modelled |
| `tools/keytools/sign.py` | `SignPy` | `make_header`, sizes, output files and names, delta fields; loading of keys and choice of the algorithm from the size of the key file, encryption and `bmdiff` are not modelled |
| `tools/bin-assemble/bin-assemble.c` | `BinAssemble` | `qsort` is any function that sorts; 64-bit `size_t` and `long`; errors of file access; files that change while the tool runs |
| Trailer, swap and start with `WOLFBOOT_FLAGS_INVERT` (`include/wolfboot/wolfboot.h:319-327`, `include/image.h:109-114`, `hal/sim.c:181-182`) | `InvFlash`, `InvTrailer`, `InvSwap` | as for `Flash`, `Trailer`, `Swap` |
| `tools/tpm/policy_create.c`, `policy_sign.c`, `rot.c` | `TpmTools` | wolfTPM (`PCRGetDigest`, `PolicyPCRMake`, `PolicyRefMake`, NV commands), ECDSA and hashes are functions of `Lib` and `Chip`; printing only where it reads; argument parsing of `rot`; the password of the NV indices (its length is not checked by the tool); host is little-endian |
| `test-app/app_stm32f4.c` `main`, `check`, `ack`; `tools/test-update-server/server.c` `main`, `check`, `recv_ack`, `alarm_handler` | `SerialUpdate` | peripherals, LEDs, timers and output on the terminal; reading of the file (the tool gets its bytes); `EXT_ENCRYPTED` and `WOLFBOOT_NO_SIGN`; the power does not fail during the transfer; erase and write of locked flash have no effect, and `hal_flash_erase` erases the sector; the line is a list of bytes, alarms are a separate function; both machines are little-endian. `app_hifive1.c`, `app_stm32f7.c` and others have similar receivers and are not modelled |
| `hal/nrf5340.c` `hal_net_check_version`, `hal_net_get_image`, `hal_net_signal_wait_ready`, `hal_shm_init`, `hal_shm_status_set`, `hal_shm_status_wait`, `hal_prepare_boot`, `hal_flash_protect` (both cores) | `Nrf` | sequentially consistent memory, one access per step; time (a wait may end with a timeout at any step, also when an event is pending; the loop of `hal_net_signal_wait_ready` may end at any round); opening and verification of images are Booleans; what the bootloader of the network core does is any write to the shared data; `shm_shadow` (no effect on the other core); the flash driver, clocks, UART, `ext_flash_*` of the network core |
| `hal/sama5d3.c` `division`, `div_u`, `mod`, `ext_flash_read`, `nand_check_bad_block`, `nand_read_page` | `Nand` | the protocol of the chip (`nand_device_read` gives the page); the page size is 2048, as the code requires; no overflow of `address + len`; `1 << 31` as an unsigned number; loops have a bound as a parameter and `none` is "not finished" |
| `hal/aurix_tc3xx.c` `hal_flash_write`, `flashIsErased`, `cacheSector`, `programCachedSector`, `programBytesToErasedFlash`, `hal_flash_erase`, `ext_flash_read` | `Aurix` | registers, watchdog, wolfHSM; sizes are above 0 and addresses do not overflow; the blank check of the hardware is a test of the bytes; a page, a burst and the erase of a sector are each atomic |
| `hal/zynq.c` `qspi_calc_exp`, `qspi_transfer`, `gspi_fifo_tx`, `ext_flash_read`, `ext_flash_write`, `ext_flash_erase` | `Zynq` | QNX, `GQSPI_MODE_IO`, timeouts within a transfer, the data cache, the end of the chip; two chips are one flash with even addresses; the flash erases sectors of `WOLFBOOT_SECTOR_SIZE`, programs with wrap at the end of a page and ignores a command 0; failures of a write are those of `qspi_write_enable` |
| `hal/nxp_p1021.c` `ext_flash_read`, `ext_flash_write`, `ext_flash_erase`; `hal/nxp_ls1028a.c` `xspi_flash_write`, `hal_flash_erase`; `hal/nxp_t1024.c` `hal_flash_write` | `Nxp` | registers and overflow of addresses and counters; a controller that puts a whole page in its buffer, takes the words in order and carries out every command; timeouts only in reads of the P1021; for the T1024 the bus writes of the data, not what the chip makes of them |
| `hal/imx_rt.c` `hal_flash_write` and the range of the cache; `hal/renesas-ra.c` `blockWrite`, `hal_flash_write`, `hal_flash_erase` | `Imx` | the ROM and the library of Renesas: a page of NOR flash wraps, `R_FLASH_HP_Erase` erases one block, `R_FLASH_HP_Write` clears bits, the last two without errors; `WOLFBOOT_DUALBANK`, overflow of addresses, the i.MX RT flash with pages of 512 bytes |
| `src/x86/gdt.c`; `src/x86/exceptions.c` `setup_interrupt_gate`, `setup_interrupts`, `EXCEPTION_TRAMPOLINE` | `Idt` | `/` and `%` for shifts and masks, sums for bits that do not overlap; the processor as in its manual; registers other than `rdi`, `timer_handler`, `deinit_interrupts` |
| `src/x86/ahci.c` `sata_*` (`WOLFBOOT_ATA_DISK_LOCK`), `src/x86/ata.c` security commands, `ata_identify_device` | `DiskLock` | the drive is an automaton after ATA8-ACS; commands may fail before or after taking effect; AHCI registers, timeouts, asynchronous commands, printing (the secret is printed to the console), Base64 (any function) |
| `src/pci.c` | `Pci` | `pci_pre_enum`, link retraining, power states, capabilities, debug output |
| `src/xmalloc.c` | `Xmalloc` | alignment of pools |
| `src/flash_otp_keystore.c` | `Otp` | the HAL's OTP read |
| `src/uart_flash.c`, `tools/uart-flash-server/ufserver.c` | `UartFlash` | line discipline, lost bytes |
| `tools/keytools/sign.c` header layout, encryption step, `src/delta.c` encoder | `SignTool`, `Crypt`, `Delta` | option parsing, file handling |
| `hal_flash_write` of `hal/{stm32f4,f7,l0,l4,l5,u5,h5,h7,f1,g0,c0,wb,nrf52,nrf5340,samr21,same51,kinetis,mcxa,mcxw,lpc,hifive1,psoc6,ti_hercules,renesas-rx}.c` | `HalFlash`, `HalFlashB`, `HalFlashC`, `HalLink` | registers of the flash controllers, busy and error flags, secure aliases, caches |
| `hal_flash_erase` of most of these and `cc26x2.c` | `HalErase`, `HalEraseB`, `HalLink` | same |

Not modelled at all: other `hal/*` code (clocks, UART, boards with external flash only), `src/pkcs11_callable.c`, `src/boot_renesas.c`, `src/boot_x86_64.c`, start-up code in assembly, `src/keystore.c` (generated data),
`src/x86/fsp*`, `tools/` other than those named (see the table above).

## 4. Properties

Specification vocabulary: `UpdateSpec.lean` (flash contents, API results, runs), otherwise next to the theorem.

* **C01 Power-fail safe update** — `Swap`; crash invariant over sectors and flags (`SwapLemmas`, `FinalLemmas`,
  `StartLemmas`), induction over `Interrupted`. Guards: word `BOOT` must not be at the place the final phase probes
  (witness `update_power_fail_unsafe_word`), atomic erase of the UPDATE trailer sector.
* **C02 Rollback** — same invariant, entered from BOOT = TESTING.
* **C03 Confirmed image is stable** — `start` performs no flash operation; any number of boots. Guard on the word `BOOT`, witness.
* **C04 Anti-rollback** — decision theorem; witness that an older image is installed while BOOT is TESTING.
* **C05 Unauthenticated update** — flash unchanged for every flash with first flag NEW and an unverified UPDATE.
* **C06 Boot gate** — inversion of completed runs, all `start` variants: swap, delta, hardware swap, RAM, disk; `GateOK` is the independent statement for the
  image format. Hardware swap writes the state byte after the checks (`hw_modified_after_check`).
* **C07 Life cycle** — transition system of application actions (write UPDATE, trigger, confirm) and interrupted boots; invariant by induction.
* **C08 Accepted update fits** — violated: the size check omits the header (`accepted_image_destroyed`); guarded theorem.
* **C09 Independent cells** — `uint8_t pos` truncation makes sector 512 alias sector 0 (`flag_cells_alias`); exact for at most 512 sectors.
* **C10 No erase needed** — every program operation of a whole life cycle only clears bits (`Cfg.strict` faults otherwise).
* **C11 Write-once flags** — `Nvm`: two sectors, operations as lists, `Run` is the history with torn operations, `NvEv.Hist` the specification of the flags.
  Invariant `Reads`: the selected sector holds the flags; both-sector states resolve to old or new. Setting the magic is separate (`nvm_magic_partial`).
* **C12 Undefined state** — the uninitialised byte is the parameter `junk`; independence under guard, witness of dependence.
* **C13, C14 Header lookup** — total function with explicit bounds; `findHeader_iff` against a separate inductive spec of fields.
* **C15 Signing tool** — `make_header_ex` as operations on a buffer; each emitted field is found by the bootloader's lookup; the signed image passes verification.
* **C16 Digest coverage** — digest = hash of exactly header up to the digest field, and firmware; injectivity of the message.
* **C17, C18 Authenticity, hybrid** — decision logic with stale state of the image structure.
* **C19 RSA decoding** — ASN.1 walk; in bounds if successful; over-read witness.
* **C20–C23 Delta** — decoder refines a separate definition of the patch format; encoder/decoder round trip in place; crash safety of the whole procedure, both directions.
* **C24 Delta base check** — decision logic plus crash induction.
* **C25–C27 Encryption** — counters exact mod 2^128; round trips over histories; key storage.
* **C28–C30, C43 Dual boot** — choice of partition for all flash contents; decision; power failures.
* **C31 Disk boot**, **C32 GPT**, **C44 ATA** — 64-bit arithmetic, cache coherence over all histories.
* **C33 Static allocator** — invariant over all histories: blocks handed out are disjoint, inside of their arrays and large enough, given a table that is honest;
  every pool of `xmalloc.c` is checked for honesty.
* **C34 Object store** — `PkcsSpec` is an abstract store; simulation relation `VAbs`; `SRun` over all call sequences; crash analysis per flash operation. Notes: no
  function removes objects; the linker script of the H5 puts another region at the end of the vault (`store_h5_region`).
* **C35 String functions, C42 printf** — memory is a partial map, reading outside of it is `none`; each function against its ISO C meaning; deviations proved.
* **C36 OTP keystore** — accessors for all contents and slots; `int`/`uint16_t` arithmetic explicit.
* **C37 UART flash** — client and server as processes with two queues; every interleaving; refinement to a memory.
* **C38 ELF** — loader against a specification of segments; scattered images: equivalence up to hash collision.
* **C39 Self-update** — gate, exact effect, confinement.
* **C40 Device tree** — `FdtSpec`: a blob is the encoding of a token list and a string table (`FdtOK`). `fdt_getprop_spec`, `fdt_setprop_spec` give the resulting
  token list; `fdt_setprop_reads_partial` says it in terms of reads only. `fdt_traversal_partial` holds for arbitrary bytes.
* **C41 Trigger/confirm** — effects for every prior trailer.
* **C45 Update without backup** — `DirectUpdate`: the invariant across power failures is only that UPDATE is unchanged; total correctness of a boot from every content of BOOT.
* **C46, C47 Flash drivers** — `HalFlash*`, `HalErase*`: the loops over program units and pages, on a chip that programs aligned units (optionally only erased
  ones). Spec: `written` (bytes of the request AND old contents), `cleared` (pages that meet the request). `HalLink` shows that block writes and sector erases
  implement `Flash.program` and `Flash.erase` of the update model, for partitions laid out in the chip's memory (`PHolds`).
* **C48 SPI/QSPI drivers** — `SpiNor`: loops over bytes and pages on a chip with 24-bit addresses and page wrap-around; specs `Programmed`, `ErasedExactly`; `spi_refines_partial`
  connects them with `Flash.program` and `Flash.erase`.
* **C49 External partitions** — `ExtFlash`: the whole boot procedure with external partitions, trailers as 4-byte words, is equal as a function (flash, power failure, torn bytes) to
  the one for internal flash (`ext_start_eq`), so C01–C08 hold for it; C01 is spelled out.
* **C50 PCI** — `Pci`, `PciThms`: `pci.c` over trees of bridges and functions (registers with masks of writable bits). Induction over the tree gives `pci_enum_partial`
  (disjoint, aligned, each programmed bridge forwards exactly what is behind it) and `pci_bus_numbers_partial`. *Missing*: the code checks only where a BAR starts, so the
  theorem needs that BARs end inside their range, and fewer than 256 buses; both are necessary (findings). Not modelled: `pci_pre_enum` and power/link handling (TGL), ordering of
  configuration cycles, W1C status bits.
* **C51 page tables** — `Paging`, `PagingThms`: physical memory as pages of entries; the specification is the CPU's 4-level walk (`walk`, for writes). An invariant of the tree of
  tables (`PgInv`: no table shared, none in the free part of the pool, entries valid) is established by `x86_paging_build_identity_mapping` (`identity_ok`) and kept by every mapped page
  (`mapPage_ok`); the loop gives the exact translation after `x86_paging_map_memory` for all addresses (`mapMemory_ok`). *Missing*: success is also returned where nothing or something else was
  mapped (findings). Assumed: the seven table pages are zero (`src/boot_x86_fsp.c:630`) and lie outside the pool, physical addresses below 2^52, tables and pool below 4 GiB, so that the code reaches them through the identity mapping.
* **C52 hand-off** — `HandOff`, `HandOffThms`: the specification is a chain of blocks in memory (`Chain`, `resources`), Multiboot2 tags (`MapAt`, `BasicAt`, `Tags`) and the Linux memory map (`E820`).
  Walks visit exactly the resources (`hob_iterate_visits`, induction over the chain); `mb2_info`, `mb2_refused` and `mb2_stays_in_buffer` (for arbitrary memory contents) describe the construction of the
  information completely. *Missing*: the Linux parameters are right only for at most 128 resources, and the size of the kernel is not compared with the verified image (findings).
* **C53 first stage on x86** — `Stage1`, `Stage1Thms`: memory is a function, the addresses of the linker script and the top of memory are arbitrary; `Env` holds the results of the checks (as functions of the
  memory), the effect of building page tables and of the code on the new stack. `stage1_verified` and `stage1_runs` give the decision, `layout_64/32` the division of the area at the top, `load_keeps_stage1` the effect of the
  range check, `stage1_image_partial` what the second stage finds. *Missing*: that theorem needs `Placed`, of which the code checks only a part; `stage1_verified` needs that `panic` does not return (findings).
* **C54 MP table** — `mp_setup`: the sum is stated with natural numbers (`total`); the signed negation of the code is modulo 256 the same as the unsigned one. The number of entries in the header stays 0, as in the initial value.
* **C55 armored checks** — `Armor`: a processor with registers, flags and a program counter in bytes, in which an attacker may turn any instruction into one without effect; the macros as programs, in Thumb-2 and ARM encoding (`bne .-4` leads
  to different instructions, with `cmp r2, #0xFFFFFFFE` of four bytes even into the middle of one). The bounds (`sanity_skips`, `verify_skips`, `verify_skips_both`, `hash_skips`, `version_skips`) are potential arguments: a function of the state that gives the skipped
  instructions still necessary and is lowered by at most one by a step, only by a skipped one (`run_pot`, `Flow.append`). `sanity_pass`, `verify_pass`, `hash_pass`, `version_iff`, `mask_iff`: without skipped instructions the right values pass. *Missing*: one skipped
  instruction is enough for the canaries, for the permission of a key and for the length of an RSA result, two for the version (findings). Not proved, since it depends on the compiler: the operands may be in registers that the macros change, and `push {r4-r7}` moves the stack pointer behind the compiler's back.
* **C56 verification functions** — `SigWrap`: every `wolfBoot_verify_signature_*` of every kind of build as the list of library calls it makes, the library being a record of functions
  with arbitrary results. `confirm_sound` (all 13 functions): confirmed only if the library accepted stored signature and image digest under the selected key; `*_iff`: exactly when. `proper_run`: contexts are
  used only after successful creation, parameters and key; `freed`, `hbs_leak_iff`, `rsaHsm_leak_iff`: release; `ecc_crash_iff`, `fixed_no_crash`: reads; `hsmRS_eq`: the numbers given to the HSM;
  `boot_gate_library`: composition with the boot process of C06. Partial: see the findings. The type of the key in the slot (`keystore_get_key_type`) is not consulted by any of them except the TPM variant.
* **C57 sealed secrets** — `Tpm` (an ideal TPM whose every command may fail), `TpmSeal`. `unseal_sound`/`unseal_complete`: a secret is released exactly for states signed by the key of the hint;
  `unseal_bound`, `unseal_uncovered`: the covered PCRs matter and no others (injectivity of hashes and uniqueness of the signed digest as hypotheses of the former); `seal_unseal`, `seal_unseal_only`: round trip;
  `readBlob_ok`, `storeBlob_ok`, `layout_unique`: the format of the index; `unseal_clean`, `seal_clean`: handles closed on every path; `unseal_frame`: unsealing changes neither PCRs nor indices; `active_iff`, `build_ok`,
  `build_unseal`: policies for signing; `unseal_refused`, `unlock_sound`. Partial: see the findings.
* **C58 locking of the disk** — `DiskLock` on `TpmSeal`. `decode_words`: the identification is decoded as the standard says; `unlockWith_sound`, `lockIt_ok`, `unlockIt_ok`: return value 0 means enabled, unlocked, frozen
  as requested, with the secret as user password; `unlockWith_wrong`; `unlockWith_moves`: passwords in every outcome; `secret_cases`: the sealed secret is replaced only if there is none; `boot_keyed`, `boots_keyed` (induction over
  boots): no lock-out; `boot_first`, `boot_opens`, `boots_recover`: progress; `disable_ok`, `disable_wrong`. Partial: see the findings; a secret already in the TPM is assumed to be terminated (`Owns`), and no failing
  TPM call may report a missing index (`handle_loses` shows what happens otherwise).
* **C59 measured boot** — `TpmBoot` on `Tpm`, `Image`, `Update`. `hashLoop_eq`, `selfHash_eq`: the loop hashes exactly the area (induction over the rounds; any hash computed by contexts, `Computes`); `extend_run`: the extension in every outcome;
  `tpmInit_ok`, `tpmInit_quiet`, `tpmInit_cases`, `main_measures`: what is in the register; `replay_inj`, `replay_determines` (induction over the log): the register determines the log unless two of its own extensions collide;
  `register_determines_partition`, `register_of_partition`, `stage1_register_determines` (with C16): equal registers mean equal contents. Collisions are always those of the messages at hand, never "some collision exists", which would be
  trivially true. `checkRot_sound`, `checkRot_complete`, `checkRot_other_key`; `deinit_changes`. Partial: see the findings; `measured_is_booted_partial` holds without pending update or rollback only.
* **C60 TPM over SPI** — `TpmSpi`. Drivers against one specification (`Driver`): `simpleXfer_good`, `espiXfer_driver`, and for the queues an invariant over all interleavings (`inv_step`): `dspi_never_lost`, `dspi_ends` (at most
  three steps per byte, no deadlock), `dspi_driver`, `dspi_exists`. `header_spec`; `waitLoop_ready`, `waitLoop_late` (induction over the wait states); `io_read`, `io_write`, `io_late`, `io_released` (any device). Partial: on the
  LS1028A the TPM stays selected after a failure (`io_late_stuck`, `stuck_header_is_data`).
* **C61 FIT images** — `Fit`. The tree is a list of tags (`FdtOK`, C40). `FdtOK.nodes`: the walk over the nodes is a search in the list of nodes (induction over the tags); from it `findNodeOffset`, `findPropOffset`,
  `findImages_spec`. `loadImage_spec`: the four cases of loading. `bootFit_loads_partial`: end to end, for ranges apart from the tree. `chosen_selected_partial`: paths, when names are unique. Violated:
  names are looked up anywhere in the tree (`bootFit_shadowed`), loading may overwrite the tree that is still being read (`bootFit_overwritten`), `NULL` is booted (`bootFit_null`).
* **C62 Memory protection** — `Mpu`. `init_set`: the registers after `mpu_init`; `decides_iff`: which region decides on each of the 2^32 addresses; from it `exec_iff`, `exec_text`, `data_access`, `off_open`. Guards: unused regions are
  disabled, bases multiples of the size. Violated: text is writable (`exec_writable`), no protection above 64 KiB (`big_unprotected`), regions are rounded and shifted (`exec_beyond`, `text_cut`, `ext_shifted`), `v8_faults`.
* **C63 Start-up and hand-over** — `StartUp`. Loops over sections by induction over the words (`copyWords_spec`, `zeroWords_spec`), then `startArm_ok`, `startA64_ok`, `startA32_ok`; `bootV7_reset`, `bootV8_entry`; `flushCache_exact`
  (induction over the lines, with wrap-around). Violated: `bootV8_masked`, `bootV8_secure_table`, `boot_traps` (RISC-V), `bootFlush_stale` (PowerPC).
* **C64 Disk commands and ports** — `Ahci`, `AhciPort`. `prepared_found`: all bytes of the command for all memories; `read_refines`, `write_refines`: what the drive does with them is `readSectors`/`writeSectors` of `Ata`; `exec_ends`: for every
  schedule in which the controller ever acts the loop ends, by induction over the polls; from these `read_ok`, `write_ok`. Ports: `enable_events` (all controllers in time), `disable_quiet` (induction over the ports), `areas_apart`, `port_placed`.
  Guards: `count` positive and at most 8192 (write: below 256, sector below 2^24), even buffers, no asynchronous command, `FR` has followed `FRE`. Violated: see section 5.
* **C65 TrustZone** — `Tz`. The meaning of the unit is stated for all states (`Match`, `Sole`: an address in two regions is secure); the code's regions are computed once (`l5_table`, `h5_table`, `rp_table`), then `l5_ns`, `l5_callable`,
  `h5_ns`, `h5_callable`, `rp_ns`, `rp_callable` say for every address what it is; SRAM blocks `l5_sram`, `u5_sram`, `h5_sram`, `rp_sram`; together `l5_isolated`, `h5_isolated`, `rp_isolated`: no address that is non-secure leads, by any alias,
  to wolfBoot. Guards: regions that the code does not write are disabled (reset value); STM32H5 partitions at multiples of 32 in their banks. Violated: section 5. By reading only: `NVIC_ITNS0` of `rp2350.c` has the address of another register.
* **C66 Control register of the flash** — `FlashReg`. Requests are read from the words by the bit positions of the manuals (`reqG0` and others); one round by bits (`Nat.testBit`, fields of disjunctions), any number of rounds by induction
  (`loop_spec`), and the state needed for the next call is kept: `g0_exact`, `wb_exact`, `f4_exact`, `l5_exact`, `u5_exact`, `h7_bank1`, `h7_bank2`; `h5_exact` until the second bank has been used. `claim_bits`, `release_single`,
  `release_dual` for the security bits. This discharges (STM32G0, C0, WB, F4, F7, L5, U5) or refutes (H5) what `HalErase` assumes, that the number written addresses the page of `p`. Violated: section 5.
* **C67 Update on write-once flash** — `NvmUpdate`. Refinement: the flash with two sectors of flags represents (`Rel`) a flash of `Swap` with one sector less, namely the sector that would be selected; every run of the write-once code, complete
  or interrupted, is matched by a run of `Swap` (`Sim`, `NvmSim`; an interrupted move of the flags is matched by the state before or after), function by function (`NvmFlags`, `NvmSwap`, `NvmStart`), and the invariant of C01 is transferred:
  `update_power_fail_safe_partial`, `rollback_power_fail_safe_partial`, `update_any_interruption_partial`. Guards as C01 (witness `Demo.update_power_fail_unsafe_word`); torn bytes do not spell the magic at the end of a sector of the flags.
* **C68 Flags of UPDATE in BOOT** — `FlagsHome`. Refinement as C67: the flash represents (`Rel`) a flash of `Swap` with the flags of UPDATE moved to UPDATE; every complete run is matched by a run of `Swap`, every interrupted one as well, unless it leaves
  no record (`RL`): `update_power_fail_safe_partial`, `rollback_power_fail_safe_partial`, `update_then_rollback` (no power failure), `trigger_pending`. The guard (`Recorded`) is necessary: `Demo.update_record_lost` (installed, but never on trial),
  `Demo.update_new_image_lost` (the new image is in no partition). Hypothesis: the flags fit into the last sector (`14 + n/2 ≤ sector`).
* **C69 Encrypted updates** — `EncUpdate` (model, spec), `EncCopy`, `EncSwap`, `EncFinal`, `EncStart` (invariants), `EncThms`, `EncKey`. Invariant on the decrypted view of the flash (`pl`): before the final phase the device is in a state of the swap of C01 seen through
  the cipher (`SwE`), in the final phase the secret is in its place, in the scratch copy behind the word "BOOT" of the last but one sector, or both (`FinE`), afterwards `DoneE`; every operation of a reboot preserves it, torn or not (`start_mid`), so that any sequence of
  interrupted reboots does (`Mid`). `update_encrypted_power_fail_safe_partial`, `rollback_encrypted_power_fail_safe_partial`, `update_encrypted_any_interruption_partial`. Guards: images end before the last two sectors (necessary: `update_encrypted_bricks`,
  `update_encrypted_lost`); a torn write does not complete a magic word before the bytes it protects (`TornOK`); an erase of the trailer sector of UPDATE is complete or not begun; the uninitialised state byte of C12 is not FINAL. `EncKey`: `set_key_effect`,
  `set_key_power_fail`, `success_erases_secret_partial`, `confirm_encrypted_power_fail_partial`, `wrong_secret_harmless` for every flash content.
* **C70 Delta images of the tool** — `DeltaTool`, examples in `DeltaToolEx`. `Signer` describes a device that trusts the keys of the signer; `good_of`: every file of the tool that fits is a `GoodImage` of the update properties, for the image format and
  verification of `Image` (composition with C15-C18). `Job.deltaImage`: the file made by `baseDiff` satisfies `DeltaImage` and carries both patches (composition with `makePatch_spec`), so that C22 applies: `tool_delta_update_partial`, `tool_delta_rollback_partial`,
  `tool_delta_never_lost_partial`. `tool_delta_layout`: what the header says about the patches is true of the file. Guards (`Job`): those of C22 and of the encoder (`DiffOK`: files up to 0x7F0000 bytes, sectors up to 64 KiB, no repetition of 64 KiB), no `--hybrid`
  (`tool_delta_hybrid_refused` shows that this is necessary).
* **C71 Emergency update** — `Emergency` (ordinary flash), `NvmEmergency` (write-once flash), `NvmTrigger`, `VariantGate`, examples and findings in `EmergencyEx`. `Spare` describes the device (broken image in BOOT, `GoodImage` in UPDATE, trailer of UPDATE erased or installation
  requested). The invariant of an interrupted swap (`SwapI`) is used with neither of the two reasons to continue (`V = (False, False)`), so that both the emergency path and a request or test state found at the reboot are covered: `emergency_installs_partial`,
  `emergency_never_stuck_partial`, `emergency_power_fail_safe_partial`. Write-once flash: `Nvu.emergency_power_fail_safe_partial` by the simulation of C67 with a simulation of the emergency path (`simTailE`); the decision to start BOOT is the same in both models
  if the verdict depends on the image only (`Local`). `boot_gate` of `EncUp`, `Fho`, `Nvu`: from every flash, in every execution. `trigger_pending`, `trigger_keeps_flags` on write-once flash. Guards: readable header in BOOT (`emergency_power_fail_brick` shows that it
  is necessary), those of C01/C67, and for "it is the image of UPDATE that is started": no partly installed image verifies by accident.
* **C72 Key tools** — `KeyTool`: arguments are modelled as character strings and parsed as by `main`; `args_text` (induction over the options) shows that the text of a list of options is understood as meant, `parse_id_list` that decimal lists of ids give their bits.
  `asked` (specification) lists the keys asked for with the algorithm and ids in force; `key_tool_sound`, `key_tool_iff` connect the table to `verifyImage` (C17). `KeyToolOtp`: `import_spec`, `reimport_iff` (keys taken out of `keystore.der` again), the loops of the two OTP
  drivers program what they are given into erased cells (`programs7`, `programs5`), hence `primer_ok`; `file_ok`; `otp_same_keys` with the accessors of C36. Examples in `KeyToolEx`.
* **C73 Signing in steps** — `SignSteps`: the three modes as a function of the files; `PubFile`, `PrivFile` (specification) say which key a file contains. `load_priv`, `load_pub` compute header and signature size for both, hence `three_steps` and `hdr_same_iff`.
  `SignStepsThms`: `accepted_iff` makes C15 exact (whatever is in the signature field), `manual_accepted_iff` states it for the separate steps; `header_ge` (lower bound of the header by the sum of its fields) gives the overflows. `SignPy`: `accepted_items` is exact acceptance for any header made of
  fields, `py_accepted_iff` for the script, `py_three_steps`, `py_sizes_same_iff`. Examples in `SignStepsEx`.
  `ToolTables` compares the numbers and sizes in the tools with those of the bootloader (`key_types`, `key_sizes`, `image_and_key_types`) and has the limits of the OTP drivers and of the headers (`write7_cut`, `write5_short`, `py_header_fits`).
* **C74 Factory image** — `BinAssemble`: the loops that fill and copy are proved to write the gap and the file (`fillBlocks_eq`, `fillBytes_eq`, `copy_eq`); `Holds` and `Disjoint` are the specification. `merged_iff` (overlaps, for every sorting function), `holds_iff` (exact placement),
  `address_hex`, `address_dec`, and `factory`, which joins it with `SignSteps.accepted_iff`. Addresses that wrap around are an outcome of their own. Examples in `BinAssembleEx`.
* **C75 Inverted flags** — `InvFlash`, `InvTrailer`, `InvSwap` are the model of C01 with the constants of the inverted build and flash that is erased to 0x00; the code is the same, so the definitions are the same text in `namespace Verif.Inv`, and so are the invariants
  (`InvTrailerLemmas` … `InvLifecycleLemmas`). `InvThms` has the statements of C01, C02, C07 and C10. `TornOK` has one guard more than in the other build: a torn write of the state does not separate bits 4 and 5; `torn_final` shows what happens if it does.
* **C76 TPM tools** — `TpmTools` models the three programs from `argv` to exit code and file or TPM state. `create_options` gives the variables after any list of valid options, `create_overflow` what happens with more than six `-pcr=`; `create_file`, `create_any_order` give the file. `policy_unseals`
  and `policy_bound` compose it with the signing tool (`SignSteps.policyOne`, C73) and `unsealBlob` (C57) of the bootloader: the file of `policy_create` unseals a secret bound to the key, and only with PCRs of the given digest. `sign_same` shows that `policy_sign` makes the file that the signing tool makes.
  `rot_ok` is by induction over the keys; `rot_then_boot` and `rot_no_other` compose it with `checkRot`. `Agrees` states that library and chip compute the same digests for PCRs in ascending order, `OrderFree` that the library does not depend on the order; examples in `TpmToolsEx`.
* **C77 serial update** — `SerialUpdate` models the application byte by byte and the server as a machine that is fed bytes. `any_input_safe` is an invariant over all byte streams (length of the message, offset a multiple of 8). `store_spec` is the invariant of the flash: the pages below the current one are written, the rest of the current sector
  is erased, the page buffer holds the rest. `device_any_order` is an induction over any list of packets of the file and damaged messages. `exchange_stream` and `transfer_completes_partial` are the lock-step of both programs; `transfer_then_update_partial` composes them with `trigger_effect` (C41) and the update (C01), for any power failures in the update.
  `one_byte_error_detected` is about the checksum. Partial: false for even versions, for versions with a byte `#`, and if bytes are lost or added (findings below); examples in `SerialEx`.
* **C78 two cores** — `Nrf` is a transition system with a program counter per core, shared memory and two events; a run is any list of steps of either core. `update_safe` is an invariant of all runs, with timeouts and with or without `NRF_SYNC_CORES`; its only condition is that the status of the application core is not `UPDATE_START` at reset. `magic_guards_net` and `magic_guards_app`: without the magic no status counts.
  `update_iff` and `app_after_update` need a second invariant in three layers (versions, offer, decision), for runs without timeouts from memory without leftovers and without `NRF_SYNC_CORES`; `sync_cleanup` is the one that only holds with it. `copied_opened`, `load_fits`, `protect_spec` are about single functions. Partial: the second part of the property is false if any of
  the conditions is dropped, see the findings; the runs are in `NrfEx`.
* **C79 NAND** — `division_spec` by induction on the bits of the dividend. `blocks_spec` is an induction over the blocks of a read with any list of good blocks `g`; `read_long`, `read_short`, `read_pages` follow: whole pages from the start of a page are read correctly, with bad blocks skipped. Partial: false for other addresses and lengths,
  each shown in general (`read_overrun`, `read_unaligned`, `read_last_page`, `trailer_lost`, `one_byte_lost`, `read_never_ends`) or with a witness (`split_differs`).
* **C80 AURIX** — a write is a list of controller operations and a power failure a prefix of it. `chunks_prefix` is an induction over the pages of a direct write, `bursts_run` one over the bursts of a sector. `write_spec`, `write_ub_iff` (exactly when the buffer overflows), `direct_power_fail`, `erase_spec`, `erase_aligned`, `read_spec`.
  Partial: false for writes to pages in use (`rmw_power_fail`, `trailer_lost`), ranges over a sector boundary (`write_ub_iff`), unaligned erases (`erase_unaligned`) and the result of a read (`read_result`).
* **C81 ZynqMP** — `calc_spec`, `tx_spec`, `dma_spec` and `rx_run` (inductions over the parts of a transfer), so that `read_spec` holds for all lengths and buffers; `write_spec` from the start of a page, `erase_one` for one sector.
  Partial: false at odd addresses with two chips (`read_odd`, `state_is_flags`), for writes over the end of a page (`write_wraps`), for erases of more than a sector (`erase_overflow_iff`, `erase_overflow`, `erase_second_lost`) and for errors of an erase (`erase_error_lost`).
* **C82 NXP** — `p1021_read` and `p1021_write_pages` by induction over pages (`read_run`, `write_run`): exact for whole pages from the start of a page. `ls1028a_part` gives each byte sent, `ls1028a_erase_waits` the polls for each sector, `t1024_place` and `t1024_first` the place of each word; `ls1028a_all` and `t1024_all` for all lengths, by induction over the parts.
  Partial: false for lengths that are no multiple of a page (`p1021_read_overrun`, `p1021_write_stale`), for flags (`p1021_read_nothing`, `p1021_write_lost`), for a mark on the second page (`p1021_second_bad`), for the end of a read (`p1021_read_hangs`), for erases of more than a block (`p1021_erase`), for the LS1028A beyond 4 bytes (`ls1028a_garbled`) and for the T1024 except at the start of a sector (`t1024_place`, `t1024_byte`).
* **C83 i.MX RT, RA** — `imx_write` and `imx_error` by induction over pages (`imx_run`), `imx_cache` an equivalence, `ra_erase` by induction over blocks (`erase_run`), `ra_write` by induction over parts of 128 bytes (`block_run`).
  Partial: false for lengths that are no multiple of a page (`imx_overread`), within a page (`imx_wraps`), for some ranges of the cache (`imx_cache`), for erases over the limit of small and large blocks (`ra_erase_over`), and for lengths and addresses that are no multiple of 128 (`ra_write_tail`, `ra_write_rest`, `ra_write_loses`, `ra_write_misplaced`).
* **C84 x86 tables** — `seg_spec` and `gate_spec` are round trips, `gdt_flat` and `gate_segment` are about the table, `setup_spec` by induction over the calls (`setupN_spec`), `return_spec` what a handler does.
  Partial: false for vectors 32 and 33 (`setup_present`), for exceptions with an error code (`return_error`, `return_error_ne`) and for `rdi` (`rdi_lost`).

## 5. Findings (violations of properties, each proved)

| Finding | Theorem |
|---|---|
| The word `BOOT` in image data at the probed offset makes the final phase misjudge its progress | `update_power_fail_unsafe_word`, `confirmed_unstable_word` |
| A torn erase of the UPDATE trailer sector is taken for an update in progress; the device is bricked | `TornTrailer.torn_trailer_bricks` |
| First installation into an empty BOOT partition: power loss during sector 0 bricks the device | `TornTrailer.empty_boot_bricks` |
| Power loss before the new firmware ran counts as a failed test; after a rollback the old firmware is on trial again and the failed one comes back | `TornTrailer.untested_rollback`, `TornTrailer.rollback_flips` |
| An older update is installed while the running image is unconfirmed | `downgrade_while_testing` |
| Size check of updates ignores the header; accepted image is destroyed | `accepted_image_destroyed` |
| Sector flag index truncated to 8 bits: sector 512 aliases sector 0 | `flag_cells_alias` |
| Uninitialised `updateState` is consulted | `uninitialised_consulted` |
| Hash loop does not terminate for sizes near 2^32 | `hash_loop_hangs` |
| Missing signature field: null dereference; stale `signature_ok` honoured | `missing_signature_null`, `stale_signature_ok` |
| Authenticity check without prior integrity check in hybrid builds uses a clobbered digest | `hybrid_digest_clobbered` |
| RSA decoder reads behind its buffer; ignores algorithm id and trailing bytes | `rsaDecode_overread`, `rsa_trailing_garbage_accepted` |
| Signing tool: long headers lose the signature; custom fields overflow the header | `large_header_signature_lost`, `custom_tlv_overflow` |
| Delta: 16-bit match length, 0x7F offsets, output longer than image | `delta_large_sector`, `delta_offset_7f`, `delta_output_longer` |
| Delta: unchecked references outside base and patch | `patch_reads_outside_base`, `patch_reads_behind_patch` |
| Delta: version 0 skips the base check; digest not compared; flash left unlocked | `delta_version_zero`, `delta_digest_not_compared`, `delta_unlocked` |
| Delta rollback with torn header | `delta_rollback_torn_header` |
| Keystream reused when data is rewritten | `keystream_reuse` |
| Decryption to RAM loops forever; final copy garbles encrypted data; short and unaligned accesses corrupt | `ram_decrypt_loops`, `encrypted_update_corrupts`, `encWrite_drops_tail`, `encWrite_short`, `decRead_short`, `enc_boundary` |
| Power loss while setting the key loses key and state | `setKey_power_loss` |
| Image on trial is erased before the other one is checked | `testing_erased_before_check` |
| RAM boot: endless loop, no fallback without fixed partitions, unchecked size | `ram_both_bad`, `ram_addr_never_falls_back`, `ram_addr_bricked`, `ramboot_overflow` |
| Hardware swap: endless loop, endless exchange | `hw_loops_forever`, `hw_swap_forever` |
| Disk boot: oversize header blocks fallback, hang, overflow by header, signed versions | `disk_oversize_blocks_fallback`, `disk_boot_hangs`, `disk_boot_overflow`, `disk_version_sign` |
| GPT: last sector unreachable, offsets behind it escape, whole-disk entry, disk number 4, stack overflow, name over-read | `gpt_last_sector_lost`, `gpt_escape`, `gpt_whole_disk`, `disk_number_4`, `gpt_stack_overflow`, `ascii_eq_oob` |
| ATA: stale cache, writes above 8 GiB wrap, errors ignored, long reads cut | `ata_stale_cache`, `ata_write_wraps`, `ata_error_ignored`, `ata_long_read` |
| Hardware swap: the state is written into a verified image that covers the trailer | `hw_modified_after_check` |
| Write-once flags: magic written without erasing | `nvm_magic_rewrite`, `nvm_magic_witness` |
| Write-once flags: key stored without erasing; key lost on power loss | `nvm_key_rewrite`, `nvm_key_lost` |
| Write-once flags with `FLAGS_HOME`: reading UPDATE's flags erases BOOT's | `nvm_flags_home` |
| Write-once flags: failed write still erases the old copy; partially erased flags can be selected | `nvm_write_error`, `nvm_torn_erase` |
| String functions: `memmove` above 2 GiB does nothing; `strcmp` calls prefixes equal; `strcasecmp` over-reads, equates `0` and `P`; `strncasecmp` one character too many; `strncpy` does not pad; `strncat` bound | `memmove_large`, `strcmp_prefix_equal`, `strcmp_signed`, `strcasecmp_overread`, `strcasecmp_equates`, `strcasecmp_order`, `strncasecmp_one_more`, `strncpy_no_padding`, `strncat_zero` |
| printf: buffer overflow for ten digits, unsigned as negative, wide fields, trailing `%`, `INT_MIN`, padding | `writenum_dec_overflow`, `printf_unsigned`, `printf_wide`, `printf_trailing_percent`, `printf_int_min`, `printf_pad_overflow` |
| ECC pool: table entry larger than its array | `ecc256_pool_overflow`, `ecc256_pool_overlap` |
| OTP keystore: odd key sizes overflow the cache, size field unchecked, negative slots overflow | `otp_odd_overflow`, `otp_size_unchecked`, `otp_negative_overflow` |
| UART flash: rejected write data run as commands; range check overflows | `uart_data_as_command`, `uart_range_overflow` |
| ELF: file size above memory size overruns, failed mapping ignored, no bounds; short tails refused, headers hashed twice | `elf_load_overrun`, `elf_load_unmapped`, `elf_load_no_bounds`, `scattered_short_tail`, `scattered_headers_twice` |
| `DISABLE_BACKUP`: a sector flag, meaningless there, makes the bootloader skip all checks of the update and destroy BOOT | `direct_flag_bricks` |
| Self-update: overruns the bootloader area, not power-fail safe, erases for an unverified image | `self_update_overruns`, `self_update_power_loss`, `self_update_erases_unverified` |
| Object store: writes overshoot, overwrite not atomic, torn header, recovery skipped, second sector unprotected, phantom objects, region overlap on H5 | `store_write_overshoot`, `store_overshoot_witness`, `store_overwrite_not_atomic`, `store_torn_header`, `store_lazy_recovery`, `store_second_sector`, `store_phantom`, `store_h5_region` |
| Device tree: endless loop for length 0xFFFFFFF4, signed overflow, names unchecked, endless `compatible` search | `fdt_endless`, `fdt_endless_witness`, `fdt_length_overflow`, `fdt_name_unchecked`, `fdt_compatible_endless` |
| Flash writes: PSoC 6 writes only the first row and reports success; TMS570 and MCXW overflow a stack buffer; HiFive1 and L5/U5/H5 read behind the buffer; Kinetis/MCXA write the tail of a request from the wrong place and skip bytes of unaligned ones; G0/C0 fast path stores elsewhere than the slow path; MCXW does not write the value of a mistyped constant | `psoc_first_row`, `ti_smash`, `mcx_smash`, `hif_write_bad`, `wide_write_iff`, `kin_tail_wrong`, `kin_unaligned_skips`, `g0_fast_path_elsewhere`, `mcx_blank_skipped` |
| Flags: on flash with error correction a second flag byte in the same unit is refused; H7 can only write the last 32 bytes of a flags page | `chip_second_byte_refused`, `h7_flags_refused` |
| Flash erases: only the first page on MCXW and SAM R21 (missing semicolon), last page missed (STM32, len mod page = 1), bank crossing on L4, only one sector of bank 2 on H7, wrong sector table on F7, documented H7 layout shares a sector between BOOT and UPDATE | `mcxw_erase_first`, `sam21_erase_first`, `sam21_erase_stuck`, `stm_erase_short`, `l4_erase_across`, `h7_erase_bank2`, `f7_wrong_sector`, `h7_example_layout` |
| SPI page writes ignore the length: bytes up to the page end are programmed with what follows the buffer; setting the state destroys the magic. QSPI: same for more than one page, failed pages unnoticed. Erase: unaligned start misses the last sector, length 0 at address 0 never ends; addresses above 16 MiB are folded | `spi_page_overrun`, `spi_state_destroys_magic`, `qspi_overrun`, `qspi_page_skipped`, `spi_erase_misses`, `spi_erase_zero_endless`, `spi_address_folded` |
| External partitions on big-endian CPUs: setting the state changes the magic instead | `ext_state_big_endian`, `ext_success_big_endian` |
| PCI: BARs that reach behind their range overlap others (256 MiB), are put into RAM (2 GiB) or have length 0 (4 GiB); skipped BARs are not restored (wrong offset); failed bridges pass on all higher buses; bus number wraps; I/O windows written to the wrong registers; 16-bit accesses through port 0xcf8 set reserved bits; `pci_get_mmio_addr` reads the wrong BAR | `pci_bar_overlap`, `pci_bar_2g`, `pci_bar_4g`, `pci_bar_not_restored`, `pci_failed_bridge`, `pci_bus_wrap`, `pci_io_window_unset`, `pci_cf8_16`, `pci_mmio_reg` |
| Page tables: the identity mapping of 4 GiB also maps the next 2 MiB, to physical 0 (32-bit shift, one entry too many), so an ELF segment at virtual 4 GiB is loaded to physical 0; `x86_paging_map_memory` returns success for regions mapped elsewhere, for regions with another offset in the page than the physical one (shifted) and for regions over the end of the address space (nothing done); a region ending in the last page never ends; entry counts are cut to 12 bits; the last page of the pool is not usable | `identity_alias`, `elf_alias`, `mapMemory_silent`, `mapMemory_misaligned`, `mapMemory_wrap`, `mapMemory_endless`, `identity_cut`, `pool_last` |
| Hand-off: no check of the number of e820 entries (169 fit into the parameters, then the stack is overwritten; 256 count as none); the kernel size in the header is trusted, so bytes behind the verified image are loaded; blocks or tags of length 0 never end; no end tag in the Multiboot2 information; a short request tag asks for 2^30 tags (32 bit); the header search reads behind images of 8–32 KiB and takes any word for a header | `e820_overflow`, `e820_count_wraps`, `linux_loads_unverified`, `hob_zero_length_endless`, `mb2_zero_tag_endless`, `mb2_no_end_tag`, `mb2_short_request_32`, `mb2_find_overreads`, `mb2_find_any_word` |
| x86 first stage: `panic` is a single `hlt`, so if the processor wakes up a second stage with failed verification is started; the area at the top of memory is not compared with the second stage, so page tables are built over the verified image; the range check wraps at 4 GiB; with a top below 64 KiB the addresses wrap; the size of the policy is cut to 16 bits before it is checked | `stage1_panic_returns`, `stage1_tables_over_image`, `check_wraps`, `layout_underflow`, `policy_size_cut` |
| Armored checks: one skipped instruction voids the check of the permission of a key (the partition is loaded once for all three repetitions), of a canary, and of the length of an RSA result (the argument overwrites the zero in `r0`); two skipped calls install an older version; versions are compared as signed numbers, so an update with version 0x80000000 or more that the C code accepts is never installed, the device stays in the check | `mask_one_skip`, `canary_one_skip`, `rsa_one_skip`, `version_two_skips`, `version_signed` |
| Verification functions: ECDSA on the HSM cuts off as many trailing bytes of `r` and `s` as they have leading zero bytes, so one valid signature in 128 is refused; RSA on Renesas devices is never confirmed in armored builds; ML-DSA with a key id of the HSM uses a context whose creation failed; ECDSA reads as many bytes of the signature as the key in the slot has; contexts of Ed25519, Ed448 and, after errors, LMS, XMSS, HSM variants are not freed, a key can stay cached on the HSM | `hsmRS_right_iff`, `hsm_refuses_valid`, `rsaDev_armored`, `mlDsaHsmId_improper`, `ecc_crash_iff`, `ed_never_freed`, `hbs_leak_iff`, `rsaHsm_leak_iff` |
| Sealing: a policy naming more than six PCRs binds the secret to the first six only, without error; a policy of one to three bytes is read beyond its end (size wraps); a sealed secret larger than the array of the caller is written beyond its end (no size is passed); the sizes stored in the non-volatile index and the length of the password are not compared with the arrays; `wolfBoot_unlock_disk` replaces the sealed secret after **any** failure of unsealing, the old secret is lost; it clears 4 bytes of the secret, and its extension of a PCR is never compiled (`!ARCH_SIM` inside `ARCH_SIM`); RSA exponents are passed with reversed bytes (right for 65537); failures of reading PCRs are not reported except for the last | `covered_misses`, `unseal_not_bound`, `unseal_short_policy`, `unseal_overflow`, `readBlob_overflow`, `unlock_replaces`, `wiped_keeps`, `exponent_right`, `exponent_short`, `active_rc` |
| Locking of the disk: a TPM read that fails with a code for a missing index replaces the sealed secret of a protected drive, which stays locked for ever; a sealing interrupted after the creation of the index leaves an index that is never made again, no later boot succeeds; a configured password is not terminated (32 characters: read beyond the array; less: bytes left on the stack become part of the password, so that the next boot cannot unlock); the password is set with level High, the master password opens the drive; a drive already unlocked and frozen is accepted whatever the secret is, one unlocked and not frozen stops the boot (restart without power cycle) | `handle_loses`, `boots_lost`, `ff_yields_nothing`, `boot_blocked`, `pw_32_overread`, `unlockWith_overread`, `pw_junk`, `master_opens`, `sec6_unchecked`, `sec5_panics` |
| Measured boot: the BOOT partition is measured before an update or a rollback, so that the new image runs while the register shows the old one; a failing TPM is ignored by `main`, the boot goes on unmeasured; the whole partition including the state flags is measured, the same firmware gives another value after it has been confirmed; a partition larger than 2^32 minus a block is hashed for ever; a digest shorter than the registers is read beyond its end; with debugging a failure is reported although the register has been extended; the simulator resets the register first. FSP first stage: a failure to measure itself is only printed; without `STAGE1_AUTH` the digest is copied from the header without looking at the firmware; an image without a digest dereferences `NULL`. Without the keystore in the TPM the platform hierarchy stays open | `measured_is_old`, `main_ignores_update`, `main_unmeasured`, `main_unmeasured_first`, `measure_sees_flags`, `selfHash_endless`, `extend_overread`, `extend_run`, `extend_sim`, `stage1_self_unmeasured`, `stage1_unverified`, `imageMeasure_null`, `deinit_sealing_only` |
| TPM over SPI: on the LS1028A an empty transfer does nothing, so that the TPM stays selected after too many wait states and takes the header of the next access as data; a TPM that gets ready with the last poll is reported as failure, with one try every access fails; without `WOLFTPM_CHECK_WAIT_STATE` wait states swallow the first bytes of a write and success is returned; more than 64 bytes overrun the arrays; an empty write announces a read of 64 bytes | `dspi_keeps`, `io_late_stuck`, `stuck_header_is_data`, `io_late`, `io_single_try`, `io_nowait_write`, `io_overrun`, `zero_write_is_read` |
| FIT: configuration and images are found by name anywhere in the tree, an image named like the configuration replaces it and another kernel is booted; a load address inside the tree makes the search for the device tree run over the kernel's bytes; the kernel without node or data is booted at `NULL`, without any kernel the tree itself is executed; partial overlap is a `memcpy` of overlapping ranges; the entry is ignored unless the image is copied | `bootFit_shadowed`, `bootFit_overwritten`, `bootFit_null`, `bootFit_null_alone`, `bootFit_nokernel`, `loadImage_overlap`, `loadImage_entry_ignored` |
| Memory protection (Cortex-M): text stays writable; a wolfBoot of more than 64 KiB runs unprotected; what follows the text up to the next power of two can be executed before verification; text not at a multiple of its region's size is cut; the region of external peripherals covers `0x80000000`-`0xBFFFFFFF` instead of `0xA0000000`-`0xCFFFFFFF`; bases with bit 4 set go to another region; regions 3 and 4 are not cleared; on ARMv8-M (`mcxa.config`) the registers mean something else and the first fetch faults | `exec_writable`, `big_unprotected`, `exec_beyond`, `text_cut`, `ext_shifted`, `base_valid`, `stale_region`, `v8_faults` |
| Start-up and hand-over: sections not made of words are overrun; on ARMv8-M the application starts with interrupts masked and wolfBoot's memory protection; with TrustZone the secure vector table is pointed into the non-secure image; on RISC-V `mtvec` gets the address plus 4 (pointer arithmetic) and all traps go to the second word of the application; PowerPC flushes 32 KiB whatever the size of the image; an empty range at 0 is flushed for ever | `zeroWords_overrun`, `startA64_lost`, `bootV8_masked`, `bootV8_secure_table`, `bootV7_unaligned`, `boot_traps`, `bootFlush_stale`, `flushCache_endless` |
| Disk commands: a failed read is reported as success with the buffer unchanged, and since the port is not restarted every later command waits for ever; a read during an asynchronous command returns success without reading and replaces the shared command table; odd buffers are truncated to even ones; writes use the 28-bit command without the device bits, so that sector numbers are taken modulo 2^24 | `read_bad`, `hang_after_error`, `read_async`, `read_odd`, `write_far` |
| Ports: the capability of staggered spin-up (bit 27) is kept in a `uint8_t` and thus lost, so that drives are never spun up; ports without link are started; `ST` is set before reception is enabled; reception that is just being enabled is not disabled; the fifth disk makes drive 4, beyond the table, acceptable | `cap_lost`, `never_spun`, `start_no_link`, `start_together`, `fre_race`, `drive_four` |
| TrustZone: the callable area of STM32L5, U5 ends 32 bytes too late, in the application's flash; on STM32H5 all secure RAM and on RP2350 all flash and RAM of wolfBoot can be entered by non-secure code wherever there is an `SG` instruction; on STM32U5 no RAM is left to the application; `wcs_get_random` writes to any address, also of wolfBoot | `l5_nsc_beyond`, `h5_ram_callable`, `rp_all_callable`, `u5_no_ram`, `random_overwrites` |
| Erase on STM32: once the second bank of STM32H5 has been erased, erasing the first one erases the second (BOOT is never erased again); `fork_bootloader` in a secure build erases the wolfBoot that runs; STM32L5 does nothing and reports success at the UPDATE address of its examples, and asks for wrong pages with a single bank; with the sector size of the STM32U5 examples three neighbours are erased too; STM32H7 starts the next erase without waiting, and enables error interrupts | `h5_sticky`, `h5_update_then_boot`, `h5_fork_erases_itself`, `l5_out_of_range`, `l5_single_bank`, `u5_sector`, `h7_never_waits`, `h7_two_sectors`, `h7_interrupts` |
| Claim of non-secure flash: not the pages claimed are erased but those that follow, on STM32L5 in the first bank, i.e. wolfBoot; without bank swap, claimed pages of the first bank are not released | `claim_requests`, `claim_misses`, `l5_claim_erases_wolfboot`, `left_claimed` |
| x86 `EXCEPTION_TRAMPOLINE`: the error code is not taken from the stack; after a page fault or general protection fault `iretq` goes to the error code. `rdi` is not restored | `return_error`, `return_error_ne`, `rdi_lost` |
| x86 `setup_interrupts`: the trampolines 32 and 33 are not installed; the vector of spurious interrupts is 0, not `TIMER_SPURIOUS_NUMBER` | `setup_present`, `spurious_vector` |
| i.MX RT `hal_flash_write`: whole pages are copied from the data; memory after the data is read and programmed, also before the address when that is within a page. The examples of configurations avoid this with `NVM_FLASH_WRITEONCE` | `imx_overread`, `imx_wraps` |
| i.MX RT: the length to take out of the cache is rounded without the offset of the address; the end of the range can stay in the cache | `imx_cache` |
| Renesas RA `hal_flash_erase`: the size of blocks is that at the start; an erase from the small blocks into the large ones erases up to 24 kB after its end | `ra_erase_over` |
| Renesas RA `hal_flash_write`: for lengths that are no multiple of 128 the whole block is erased, with the first part of the data when that is in it; for addresses that are none, `save_len` is the offset and not the rest, and data goes to the wrong place | `ra_write_tail`, `ra_write_rest`, `ra_write_loses`, `ra_write_misplaced` |
| P1021 `ext_flash_erase`: `address` does not advance; only the first block is erased, whatever the length | `p1021_erase` |
| P1021 `ext_flash_read`: sizes of copies come from the whole length, not the rest. The last page is copied whole, past the end of the buffer; nothing is copied when the length is at most the offset within the page, as for magic and state of a partition | `p1021_read_overrun`, `p1021_read_nothing` |
| P1021 `ext_flash_read`: a mark on the second page moves on to the next block but leaves `data` where it is; the image is one page late and past the end of the buffer. Marks are looked at for the first two pages of a read only | `p1021_second_bad`, `p1021_read` |
| P1021 `ext_flash_read`: a timeout leaves the inner loop only; without an answer of the chip the read does not end | `p1021_read_hangs` |
| P1021 `ext_flash_write`: bytes after the data are those left in the buffer of the controller; flags are not copied to the buffer | `p1021_write_stale`, `p1021_write_lost` |
| LS1028A `xspi_flash_write`: `data++` after each word of 4 bytes; beyond the first 4, bytes sent are those of an earlier place | `ls1028a_garbled` |
| LS1028A `hal_flash_erase`: `status` is not reset; only the first sector is waited for | `ls1028a_erase_waits` |
| T1024 `hal_flash_write`: words go to the start of the sector, not to the address; a single byte is not written | `t1024_place`, `t1024_byte` |
| ZynqMP `ext_flash_erase`: `idx` is not reset in the loop. With 4-byte addresses the second sector writes past the end of `cmd[8]`, e.g. in `wolfBoot_erase_partition`; with 3-byte addresses the second sector is not erased but success is returned | `erase_overflow_iff`, `erase_overflow`, `erase_second_lost` |
| ZynqMP with two chips: reads and writes at odd addresses go to the even address before. The state of a partition and the first flags of its sectors are the same byte | `read_odd`, `state_is_flags` |
| ZynqMP `ext_flash_write`: pages are counted from the address, not from the page of the flash; a write over the end of a page overwrites its start | `write_wraps` |
| ZynqMP `ext_flash_erase`: an error of a sector before the last is forgotten | `erase_error_lost` |
| AURIX `hal_flash_write`: a write to a page in use erases the sector and programs it again from RAM; a power failure in between loses the whole sector. Setting the state of a partition with a magic does this, so the flags of an update can be lost | `rmw_power_fail`, `trailer_lost` |
| AURIX `hal_flash_write`: such a write over the end of a sector writes past the end of `sectorBuffer` (there is a TODO in the code) | `write_ub_iff` |
| AURIX `hal_flash_erase`: from within a sector, the last sector of the range may not be erased | `erase_unaligned` |
| AURIX `ext_flash_read` returns 0, not the length; callers that compare it with the length always fail | `read_result` |
| SAMA5D3 `ext_flash_read`: a read of at least 2048 bytes writes whole pages, up to 2047 bytes past the end of the buffer | `read_overrun` |
| SAMA5D3 `ext_flash_read`: the place within the page is ignored; in the last page of a block the start of the next block is read. The flags at the end of a partition are never read | `read_unaligned`, `read_last_page`, `trailer_lost` |
| SAMA5D3 `ext_flash_read`: the last `len % 4` bytes of a short read are not copied, but `len` is returned | `one_byte_lost`, `short_tail_lost` |
| SAMA5D3 `ext_flash_read`: bad blocks are skipped within one read only, so that two reads give other bytes than one; without a good block the search never ends | `split_differs`, `read_never_ends` |
| nRF5340 with `NRF_SYNC_CORES` (set in `config/examples/nrf5340.config`): `UPDATE_START` is overwritten with `DO_BOOT` at once; a network core that looks later does not update, and both cores boot | `sync_update_lost` |
| nRF5340: `hal_shm_status_set` raises the event before it writes the status; if the other core wakes up in between it waits for the next event, that is until its timeout, and the update is not made | `wakeup_lost` |
| nRF5340: the status in shared memory is never cleared; after a warm reset the network core can take `DO_BOOT` of the last run for that of this one and miss the update, or `UPDATE_START` of an interrupted update, and update from memory that nobody has verified in this run (its own bootloader verifies the image again) | `stale_boot`, `stale_start` |
| nRF5340 `hal_shm_status_set`: the magic is written before the status; an old `SHARED_STATUS_UPDATE_START` without the magic can start an update when the application core reports that there is none | `magic_before_status` (compare `magic_guards_net`) |
| nRF5340: the version of the network core is used also after a timeout of the wait for it; an older image is then offered (and refused by the bootloader of the network core) | `timeout_offers_older` |
| nRF5340 without `NRF_SYNC_CORES`: the application core closes the shared memory while the network core still has to write to it | `cleanup_early` |
| nRF5340 with `EXT_FLASH`: an image for the network core in the update partition is verified, but the one at `PART_NET_ADDR` is copied | `copied_other` |
| nRF5340: `hal_flash_protect` protects whole blocks of 16 KB only; the last, incomplete one of the bootloader stays writable | `protect_tail` |
| `app_stm32f4.c`: for an even version `wolfBoot_success` locks the flash and nothing unlocks it; the update is received, acknowledged and requested, but not written | `even_version_not_written`, `even_version_reports_success` |
| Serial update: a byte `#` (0x23) in the version, which the application sends after `*`, is taken for an ack by the server; with version 35 no file of more than 43 bytes is transferred, also not after alarms | `hash_version_stuck` |
| Serial update: the search for the header drops two bytes at a time; after one additional byte the repeated 16 byte packets are never found again | `desync_forever` |
| Serial update: the length is sent once and not repeated; a lost byte in it stops both sides | `lost_size_no_answer`, `size_not_repeated` |
| Serial update: the server ignores the error of `recv_ack` and waits for ever if the file is too large, or if the last ack is lost | `too_large_stuck`, `lost_last_ack` |
| Serial update: the last byte of a file of odd length is not covered by the check | `last_byte_not_covered` |
| `policy_create`, `policy_sign`: `pcrArray` has six bytes and is not checked, a seventh `-pcr=` overflows it | `create_overflow` |
| `policy_create`, `policy_sign`: a malformed or too long digest gives size -1 in a `word32`, which passes the test `<= 0`; 4 GiB are read after the array | `digest_malformed`, `create_malformed`, `sign_malformed` |
| `policy_create -pcrmask`: only the first six PCRs of the mask are used, the mask in the file differs from the one asked for; exit code 0 | `mask_option_cut` |
| `policy_create`: failure to write the file is ignored, exit code 0 | `create_unwritten` |
| `policy_sign`: key files are raw only (the usage says PEM and DER); a file shorter than the three parts of the key is read beyond its end | `sign_short_key` |
| `rot`: the hash is SHA-256 unless `-sha384` is given, whatever the bootloader was built with (SHA-384 or SHA3): the tool succeeds and the bootloader confirms no key | `rot_short_hash` |
| `rot`: an existing NV index of more than 64 bytes is read into an array of 64 bytes | `rot_overflow` |
| STM32H5 `hal_flash_otp_write` rounds the length to 2 but programs 4 bytes: reads behind the data, writes behind the area; STM32H7: what does not fit is left out and success is reported | `ToolTables.write5_short`, `ToolTables.write5_last`, `ToolTables.write7_cut` |
| `WOLFBOOT_FLAGS_INVERT`: UPDATING (0x8F) and FINAL_FLAGS (0xBF, not the complement 0xCF) differ in two bits; a power failure between them makes the new image count as confirmed, and there is no rollback | `Inv.torn_final` |
| `bin-assemble`: a gap of 2 GiB or more is not filled, without a message; all parts behind it are misplaced | `BinAssemble.large_gap`, `BinAssemble.holds_iff` |
| `bin-assemble`: an address with a leading zero that is not octal is 0, with a message only; an empty part at the address of another one is accepted or refused depending on `qsort` | `BinAssemble.address_zero`, `BinAssemble.empty_order` |
| `keygen --exportpubkey` as the last argument: null pointer | `KeyTool.args_export` |
| `sign.c` without an algorithm always ends with an error, although `docs/Signing.md` says that the key type is guessed | `SignSteps.auto_never_works` |
| `sign.c --manual-sign --rsa3072` with SHA-384 or SHA3: the header size is set back to 512 when the public key is loaded, and the signature is written behind the heap buffer, for every image | `SignSteps.rsa3072_manual_overflow` |
| `sign.c --manual-sign`/`--sha-only` with RSA ignores `IMAGE_HEADER_SIZE`: the image has a header of another size than the device expects | `SignSteps.rsa_manual_ignores_env` |
| `sign.c` with an ECC key that cannot be decoded goes on with a freed public key (use after free) instead of an error | `SignSteps.ecc_bad_key_not_refused` |
| `sign.c --rsa2048` with a key of 4096 bits: not refused, heap overflow | `SignSteps.rsa_key_size_overflow` |
| `sign.c --manual-sign`: a signature file that is too short is used; with `--policy` the PCR mask is overwritten by the signature and four bytes of the heap are put into the image | `SignSteps.short_signature_used`, `SignSteps.policy_manual_mask_lost` |
| `sign.py --manual-sign` refuses all correct signatures for Ed448, ECC 384 and ECC 521; with RSA 3072 and SHA-384/SHA3 the program is misplaced by 24 bytes | `SignPy.py_manual_refused`, `SignPy.py_rsa3072_misplaced` |
| `sign.py`: delta images are never used by the device (sizes of two instead of four bytes); the digest does not cover the hash of the public key | `SignPy.py_delta_refused`, `SignPy.py_digest_without_key` |
| `sign.py` removes all dots from the path: `./fw.bin` is written to the root directory, different images share an output file | `SignPy.names`, `SignPy.py_name_examples` |
| `keygen --id`: a name or any other text that is not a number is taken as partition 0 (the bootloader itself); numbers are reduced modulo 2³² | `KeyTool.id_name_means_bootloader`, `KeyTool.id_wraps` |
| `keygen -keystoreDir d`: the argument that follows the directory is skipped, whatever it is (e.g. `--nolocalkeys`) | `KeyTool.dir_skips_option` |
| Generated keystore: negative slot numbers are not refused, `keystore_get_key_type` refuses none | `KeyTool.get_outside` |
| `get_pubkey_size` has no case for ECC521: an imported ECC521 key is empty, and `keystore.der` holds no key | `KeyTool.import_ecc521_empty` |
| `keystore.der`: an RSA key is followed by uninitialised bytes up to the nominal size and is another key (other hash) when imported again as the Makefile does; the type written for XMSS and ML-DSA is not that of the bootloader | `KeyTool.reimport_iff`, `KeyTool.der_type_iff` |
| OTP tools do not check that the keys fit; then the bootloader finds none, and the header cannot be corrected | `KeyTool.too_many_keys`, `KeyTool.primer_too_many` |
| `otp-keystore-gen` uses the size of the first key as slot size: with RSA keys in DER form all further slots are read shifted, the mask and the size are bytes of the key | `KeyTool.file_shifted` |
| STM32H5 OTP driver refuses odd addresses, the primer ignores it: every second Ed448 key is missing | `KeyTool.odd_slot_refused` |
| Emergency update with nothing readable in BOOT (e.g. first boot from UPDATE): a power failure while the first sector is exchanged leaves no header in either partition; the bootloader stops at this and every further reboot although all sectors of the image are still there | `Emg.emergency_power_fail_brick`, `Emg.no_header_panics` |
| Write-once flash: `wolfBoot_update_trigger` copies the flags of all sectors instead of erasing them; after an emergency update interrupted near its end the next requested update is lost and mixed with the leftovers | `Nvu.trigger_keeps_flags`, `Nvu.emergency_leftover_flags` |
| `sign --hybrid --delta`: `make_header_delta` does not pass the secondary key, so the delta image lacks the hash of the secondary key and is refused by every hybrid device | `DeltaTool.tool_delta_hybrid_refused` |
| `EXT_ENCRYPTED`: the final phase of an update keeps the secret in the last but one sector of BOOT, over the image if it reaches there; with both images that long an uninterrupted reboot panics with no image left, with only the new one it is lost | `EncUp.update_encrypted_bricks`, `EncUp.update_encrypted_lost` |
| `wolfBoot_set_encrypt_key` erases the state of BOOT with the secret and writes both again; a power failure in between makes an unconfirmed image permanent | `EncUp.set_key_forgets_testing` |
| `FLAGS_HOME`: the end of the installation erases the state of UPDATE together with that of BOOT; a power failure before BOOT is marked TESTING leaves the new image without rollback, or loses it; a request erases the state of BOOT, so that an unconfirmed image is forgotten | `Fho.Demo.update_record_lost`, `Fho.Demo.update_new_image_lost`, `Fho.trigger_pending` |
| Trigger/confirm ineffective for some trailer contents | `trigger_ineffective`, `success_ineffective` |

Observed while reading, not proved: `fdt_setprop` returns a positive error for `totalsize <= 0` and does not zero the padding; version-16 trees have no
`size_dt_struct` field, which is written anyway; `key_sha384` does not clear its buffer; `wolfBoot_get_blob_version` reads four bytes for any field length;
the `ELF_ENDIAN_SUPPORT` macros truncate 64-bit program header offsets; `DISABLE_BACKUP` with scattered ELF checks the old image first, even in an emergency.

## 6. Mutation testing
`seeded/LOG.jsonl`: edits of the model that imitate realistic bugs, with the theorems that fail.
