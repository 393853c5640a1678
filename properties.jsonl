{"id": "C01", "title": "Power-fail safe update", "statement": "After wolfBoot_update_trigger() for a newer valid image, the update survives power loss at any flash operation: once the bootloader is allowed to finish, BOOT contains every byte of the new image, UPDATE contains every byte of the previous image, and BOOT is in state TESTING. No interruption history can leave a mixture of the two images that is then booted or a device with no bootable image.", "quantifier": "all sector sizes, partition sizes, image contents and sizes that fit; all numbers of interruptions; every flash operation as interruption point; arbitrary content left behind in the flash area targeted by the interrupted data operation", "why_tests_cant": "The number of interruption points grows with image size and they compose across reboots; tests sample a few sectors and a single interruption.", "anchors": ["src/update_flash.c:wolfBoot_update", "src/update_flash.c:wolfBoot_copy_sector", "src/update_flash.c:wolfBoot_swap_and_final_erase", "src/update_flash.c:wolfBoot_start"]}
{"id": "C02", "title": "Unconfirmed update is rolled back, interruptibly", "statement": "If the new image is not confirmed with wolfBoot_success() before the next reboot, the bootloader restores the previous image: BOOT again contains every byte of it, and UPDATE every byte of the unconfirmed one; the restore survives power loss at any flash operation.", "quantifier": "all images, sizes, and interruption histories during the rollback", "why_tests_cant": "same combinatorial space of crash points, now entered from the post-update state", "anchors": ["src/update_flash.c:wolfBoot_start", "src/update_flash.c:wolfBoot_update", "src/update_flash.c:wolfBoot_swap_and_final_erase"]}
{"id": "C03", "title": "Confirmed image is stable", "statement": "After wolfBoot_success() and with no update triggered, every further reboot boots the same image and changes no flash byte.", "quantifier": "all flash contents, any number of reboots", "why_tests_cant": "a statement about all subsequent boots and all flash contents", "anchors": ["src/libwolfboot.c:wolfBoot_success", "src/update_flash.c:wolfBoot_start"]}
{"id": "C04", "title": "Anti-rollback", "statement": "A triggered update whose version is not strictly greater than the running version is never installed: the BOOT image bytes are unchanged and the previous image is booted.", "quantifier": "all version numbers, images and flash states with no swap in progress", "why_tests_cant": "needs all pairs of versions and all paths through the update entry point", "anchors": ["src/update_flash.c:wolfBoot_update", "src/libwolfboot.c:wolfBoot_get_blob_version"]}
{"id": "C05", "title": "Unauthenticated update never reaches BOOT", "statement": "If the content of UPDATE does not verify (missing header, wrong type, wrong digest, wrong signature), no triggered update, fallback or emergency path starts copying it: no flash byte is modified by the update entry point.", "quantifier": "all contents of the UPDATE partition, all flag and state bytes with no swap in progress", "why_tests_cant": "universally quantified over adversarial image bytes", "anchors": ["src/update_flash.c:wolfBoot_update", "src/image.c:wolfBoot_verify_integrity", "src/image.c:wolfBoot_verify_authenticity"]}
{"id": "C06", "title": "Boot gate", "statement": "Control is transferred to a firmware image only if, on the flash (or RAM) contents at that moment, the image header is well formed, the digest matches and the signature is accepted; otherwise the bootloader panics (or tries another image).", "quantifier": "all flash contents, states, flags, and all paths (normal, update, fallback, emergency, RAM boot, disk boot, hardware swap)", "why_tests_cant": "every combination of contents and control path; adversarial bytes", "anchors": ["src/update_flash.c:wolfBoot_start", "src/update_ram.c:wolfBoot_start", "src/update_disk.c:wolfBoot_start", "src/update_flash_hwswap.c:wolfBoot_start"]}
{"id": "C07", "title": "Lifecycle never bricks", "statement": "Starting from a device with a valid confirmed image, for every history of application actions (writing arbitrary bytes to UPDATE while no update is pending or under test, triggering, confirming) and reboots interrupted anywhere, an uninterrupted reboot boots a valid image and never panics.", "quantifier": "all finite histories of application actions and interrupted/uninterrupted reboots", "why_tests_cant": "unbounded histories", "anchors": ["src/update_flash.c:wolfBoot_start", "src/libwolfboot.c:wolfBoot_update_trigger", "src/libwolfboot.c:wolfBoot_success"]}
{"id": "C08", "title": "Accepted update fits", "statement": "An update that passes the size check never overlaps the area where the partition state and sector flags are stored, so that the swap and the final flag erase cannot destroy image bytes or flags.", "quantifier": "all image sizes accepted by the size check", "why_tests_cant": "boundary over all sizes; needs the exact boundary of the check compared to the layout", "anchors": ["src/update_flash.c:MAX_UPDATE_SIZE", "src/update_flash.c:wolfBoot_update", "src/update_flash.c:wolfBoot_swap_and_final_erase"]}
{"id": "C09", "title": "Partition state and sector flags are independent cells", "statement": "Reading back a partition state or sector flag gives the value written; writing one never changes any other flag, state, magic or image byte.", "quantifier": "all sector numbers, flag values, prior trailer contents", "why_tests_cant": "all pairs of sectors and values", "anchors": ["src/libwolfboot.c:wolfBoot_set_partition_state", "src/libwolfboot.c:wolfBoot_get_partition_state", "src/libwolfboot.c:wolfBoot_set_update_sector_flag", "src/libwolfboot.c:wolfBoot_get_update_sector_flag"]}
{"id": "C10", "title": "State transitions need no erase", "statement": "Every state and sector-flag transition the bootloader or library makes without an intervening erase only clears bits (so it takes effect on NOR flash), in normal and inverted flag encodings.", "quantifier": "all transitions in every execution of update, final erase, trigger and success", "why_tests_cant": "depends on every history, and on a hardware rule invisible to a RAM-backed test", "anchors": ["include/wolfboot/wolfboot.h:IMG_STATE_UPDATING", "src/update_flash.c:wolfBoot_update"]}
{"id": "C11", "title": "Write-once flag redundancy", "statement": "On write-once flash, power loss at any flash operation while flags are updated leaves the flags readable as either the old or the new value.", "quantifier": "all flag contents, updated cells, interruption points and histories", "why_tests_cant": "crash points times trailer contents", "anchors": ["src/libwolfboot.c:nvm_select_fresh_sector", "src/libwolfboot.c:trailer_write", "src/libwolfboot.c:partition_magic_write"]}
{"id": "C12", "title": "Undefined state is never consulted", "statement": "The decision to resume an interrupted update depends only on flash contents, not on uninitialised memory.", "quantifier": "all flash contents and all values of uninitialised memory", "why_tests_cant": "the value of uninitialised memory cannot be controlled by a test", "anchors": ["src/update_flash.c:wolfBoot_swap_and_final_erase", "src/libwolfboot.c:wolfBoot_get_partition_state"]}
{"id": "C13", "title": "Header field lookup is memory safe and total", "statement": "wolfBoot_find_header terminates on arbitrary header bytes, reads only inside the header, and a returned field lies entirely inside the header with a length equal to the returned size.", "quantifier": "all header bytes, tags and header sizes", "why_tests_cant": "all byte strings", "anchors": ["src/libwolfboot.c:wolfBoot_find_header"]}
{"id": "C14", "title": "Unsigned header bytes cannot override signed fields", "statement": "If a tag occurs in the part of the header covered by the digest, no modification of header bytes outside of that part changes what is found for that tag (version, type, ...).", "quantifier": "all headers, all modifications outside the signed part", "why_tests_cant": "all byte modifications", "anchors": ["src/libwolfboot.c:wolfBoot_find_header", "src/image.c:wolfBoot_verify_integrity"]}
{"id": "C15", "title": "Signing tool and bootloader agree on header layout", "statement": "Every tag emitted by the signing tool is found by the bootloader with exactly the value written (version, timestamp, type, key hint, digest, signatures, custom tags), and the version, type and size are read back unchanged.", "quantifier": "all versions, timestamps, types, digests, signatures, custom tags that fit the header", "why_tests_cant": "all values; alignment padding depends on lengths of all earlier tags", "anchors": ["tools/keytools/sign.c:make_header_ex", "src/libwolfboot.c:wolfBoot_find_header", "src/libwolfboot.c:wolfBoot_get_blob_version", "src/libwolfboot.c:wolfBoot_get_blob_type"]}
{"id": "C16", "title": "Digest coverage", "statement": "Integrity verification succeeds exactly if the stored digest equals the hash of header bytes before the digest tag followed by all firmware bytes: independent of block sizes used for reading, and changing any covered byte changes the hashed message.", "quantifier": "all images, header sizes, block sizes", "why_tests_cant": "all images", "anchors": ["src/image.c:wolfBoot_verify_integrity", "src/image.c:image_sha256", "src/image.c:get_img_hdr", "src/image.c:get_sha_block"]}
{"id": "C17", "title": "Authenticity requires an authorised key", "statement": "Authenticity verification succeeds only if the key hint selects a key in the keystore whose permission mask includes the partition/image id in the type tag, and the signature in the header verifies with this key over the digest of the image.", "quantifier": "all images, keystores, masks", "why_tests_cant": "all keystores and images", "anchors": ["src/image.c:wolfBoot_verify_authenticity", "src/image.c:keyslot_id_by_sha"]}
{"id": "C18", "title": "Hybrid authentication requires both signatures", "statement": "In hybrid builds an image is accepted only if both the primary and the secondary signature verify over the image digest.", "quantifier": "all images and keystores, in every order of verification calls", "why_tests_cant": "state kept between calls", "anchors": ["src/image.c:wolfBoot_verify_authenticity"]}
{"id": "C19", "title": "RSA digest decoding stays in bounds", "statement": "Decoding the decrypted RSA signature block never reads outside of it and returns a digest range inside it.", "quantifier": "all decrypted blocks and lengths", "why_tests_cant": "all byte strings", "anchors": ["src/image.c:RsaDecodeSignature", "src/image.c:DecodeAsn1Tag"]}
{"id": "C20", "title": "Delta round trip", "statement": "Applying the patch produced by the diff tool to the base image reproduces the new image byte for byte.", "quantifier": "all pairs of images and sector sizes", "why_tests_cant": "all image pairs, all match structures", "anchors": ["src/delta.c:wb_diff", "src/delta.c:wb_patch"]}
{"id": "C21", "title": "Delta patch is independent of output block size", "statement": "Producing the patched image in blocks of any size yields the same bytes as producing it at once.", "quantifier": "all patches, base images, block size sequences", "why_tests_cant": "all block splits", "anchors": ["src/delta.c:wb_patch"]}
{"id": "C22", "title": "Delta patching in place", "statement": "The patch applied sector by sector over the base image itself (in place), with power loss at any point and restart, yields the new image.", "quantifier": "all image pairs, sector sizes, interruption points", "why_tests_cant": "base bytes are overwritten during decoding; crash points", "anchors": ["src/delta.c:wb_patch", "src/delta.c:wb_diff", "src/update_flash.c:wolfBoot_delta_update"]}
{"id": "C23", "title": "Patch decoder memory safety", "statement": "Applying any patch never reads outside of the base image or the patch.", "quantifier": "all patch bytes", "why_tests_cant": "all byte strings", "anchors": ["src/delta.c:wb_patch"]}
{"id": "C24", "title": "Delta base check", "statement": "A delta update is applied only to the base version (and base digest if present) it was built for, and its inverse only to the version it produces.", "quantifier": "all versions and hashes", "why_tests_cant": "all combinations", "anchors": ["src/update_flash.c:wolfBoot_delta_update", "src/libwolfboot.c:wolfBoot_get_delta_info", "src/libwolfboot.c:wolfBoot_get_diffbase_version"]}
{"id": "C25", "title": "Encryption counter uniqueness", "statement": "The initial counter block for block index n is nonce + n modulo 2^128, so distinct blocks in a partition never use the same counter block.", "quantifier": "all nonces and block indices", "why_tests_cant": "2^128 nonces", "anchors": ["src/libwolfboot.c:aes_set_iv", "src/libwolfboot.c:crypto_set_iv"]}
{"id": "C26", "title": "Encrypted external flash round trip", "statement": "Data written encrypted to external flash and read back decrypted is unchanged, and neighbouring data is not modified.", "quantifier": "all addresses, lengths, data, keys", "why_tests_cant": "all alignments and lengths", "anchors": ["src/libwolfboot.c:ext_flash_encrypt_write", "src/libwolfboot.c:ext_flash_decrypt_read"]}
{"id": "C27", "title": "Encryption key storage", "statement": "After wolfBoot_set_encrypt_key, wolfBoot_get_encrypt_key returns the same key and nonce; setting it preserves partition state and flags; after wolfBoot_erase_encrypt_key the key cannot be read back.", "quantifier": "all keys, nonces, trailer contents", "why_tests_cant": "all trailer contents", "anchors": ["src/libwolfboot.c:hal_set_key", "src/libwolfboot.c:wolfBoot_get_encrypt_key", "src/libwolfboot.c:wolfBoot_erase_encrypt_key"]}
{"id": "C28", "title": "Dual-boot candidate selection", "statement": "The dual-boot selector picks the partition with the highest version; a partition still TESTING is discarded in favour of the other one if present; no candidate iff both are empty.", "quantifier": "all versions and states", "why_tests_cant": "all combinations of versions and states", "anchors": ["src/libwolfboot.c:wolfBoot_dualboot_candidate", "src/libwolfboot.c:wolfBoot_dualboot_candidate_addr"]}
{"id": "C29", "title": "RAM/dual boot always decides", "statement": "wolfBoot_start in RAM-boot builds always either boots an authentic image or panics, and tries each available image before panicking.", "quantifier": "all partition contents", "why_tests_cant": "termination over all contents", "anchors": ["src/update_ram.c:wolfBoot_start"]}
{"id": "C30", "title": "Hardware-swap boot always decides", "statement": "wolfBoot_start in hardware bank swap builds always either boots an authentic image or panics, and panics only if no authentic image is available.", "quantifier": "all partition contents and states", "why_tests_cant": "termination over all contents", "anchors": ["src/update_flash_hwswap.c:wolfBoot_start"]}
{"id": "C31", "title": "Disk boot always decides", "statement": "Disk boot tries the highest version first, alternates, gives up after a bounded number of failures, and never loads bytes outside the RAM window.", "quantifier": "all versions, image sizes and disk contents", "why_tests_cant": "all 32-bit versions and sizes", "anchors": ["src/update_disk.c:wolfBoot_start"]}
{"id": "C32", "title": "GPT access confinement", "statement": "disk_read/disk_write through a partition handle never access bytes outside of that partition, and open never writes outside of the drive tables.", "quantifier": "all partition tables, offsets and sizes", "why_tests_cant": "64-bit offsets", "anchors": ["src/x86/gpt.c:disk_read", "src/x86/gpt.c:disk_write", "src/x86/gpt.c:disk_open", "src/x86/gpt.c:open_part"]}
{"id": "C33", "title": "Static heap allocator", "statement": "The pool allocator never hands out the same slot twice without an intervening free, returns a buffer of sufficient size, and freed slots are reusable.", "quantifier": "all sequences of allocate/free", "why_tests_cant": "unbounded histories", "anchors": ["src/xmalloc.c:XMALLOC", "src/xmalloc.c:XFREE"]}
{"id": "C34", "title": "Key/object store semantics", "statement": "What is written to a stored object is what is read back; objects do not interfere; power loss during an update leaves the old or the new content.", "quantifier": "all sequences of open/write/read/delete, all crash points", "why_tests_cant": "histories and crash points", "anchors": ["src/pkcs11_store.c:wolfPKCS11_Store_Write", "src/pkcs11_store.c:wolfPKCS11_Store_Open", "src/pkcs11_store.c:check_vault"]}
{"id": "C35", "title": "C library replacement functions", "statement": "memcmp, memcpy, memmove, memset, strlen, strcmp, strncmp, strcasecmp, strncasecmp, strncpy, strcpy, strcat behave as the C standard prescribes.", "quantifier": "all strings and lengths", "why_tests_cant": "all strings", "anchors": ["src/string.c"]}
{"id": "C36", "title": "OTP keystore bounds", "statement": "Key slot accessors never read outside the OTP area, return data of the requested slot only, and reject slots not present.", "quantifier": "all slot numbers and OTP contents", "why_tests_cant": "all OTP contents", "anchors": ["src/flash_otp_keystore.c:keystore_get_buffer", "src/flash_otp_keystore.c:keystore_num_pubkeys"]}
{"id": "C37", "title": "UART flash protocol", "statement": "Remote flash reads and writes over UART transfer exactly the requested address, length and data.", "quantifier": "all addresses, lengths, data", "why_tests_cant": "all values", "anchors": ["src/uart_flash.c", "tools/uart-flash-server/ufserver.c"]}
{"id": "C38", "title": "ELF loading", "statement": "Loading an ELF image copies file content to the segment addresses and zero-fills the remaining part of each segment; scattered images are accepted only if the digest over the loaded segments equals the signed digest.", "quantifier": "all ELF files", "why_tests_cant": "all files", "anchors": ["src/elf.c:elf_load_image_mmu", "src/elf.c:elf_check_image_scattered"]}
{"id": "C39", "title": "Self-update gate", "statement": "The bootloader is overwritten only if an update is triggered, of bootloader type, strictly newer than the running bootloader, and authentic; then exactly the firmware bytes are written at the bootloader start.", "quantifier": "all UPDATE contents", "why_tests_cant": "adversarial bytes", "anchors": ["src/update_flash.c:wolfBoot_check_self_update", "src/update_flash.c:wolfBoot_self_update"]}
{"id": "C40", "title": "Device tree editing", "statement": "Setting a property in a device tree blob and reading it back gives the value, other properties are unchanged and traversal of any blob terminates within bounds.", "quantifier": "all blobs", "why_tests_cant": "all blobs", "anchors": ["src/fdt.c:fdt_setprop", "src/fdt.c:fdt_getprop", "src/fdt.c:fdt_next_tag"]}
{"id": "C41", "title": "Trigger and confirm API effects", "statement": "wolfBoot_update_trigger leaves UPDATE in state UPDATING with all sector flags NEW and wolfBoot_success leaves BOOT in state SUCCESS, for every prior trailer content, and neither changes image bytes.", "quantifier": "all trailer contents and histories", "why_tests_cant": "all prior contents", "anchors": ["src/libwolfboot.c:wolfBoot_update_trigger", "src/libwolfboot.c:wolfBoot_success"]}
{"id": "C42", "title": "Number formatting", "statement": "uart_printf prints integers as their decimal/hex representation and never writes outside its buffer.", "quantifier": "all integers, bases, widths", "why_tests_cant": "all 2^32/2^64 values", "anchors": ["src/string.c:uart_writenum", "src/string.c:uart_vprintf"]}
{"id": "C43", "title": "Dual boot survives power failures", "statement": "In builds that boot from either of two partitions (RAM boot with fixed partitions, hardware bank swap), if one partition holds an authentic image that is not on trial, then after any number of boots interrupted by power failures the next boot starts an authentic image.", "quantifier": "all flash contents of the other partition, all points of power failure, any number of interrupted boots", "why_tests_cant": "The number of interruption points and of contents of the other partition, including torn ones, is unbounded.", "anchors": ["src/update_ram.c:wolfBoot_start", "src/update_flash_hwswap.c:wolfBoot_start", "src/libwolfboot.c:wolfBoot_dualboot_candidate"]}
{"id": "C44", "title": "ATA sector cache coherence", "statement": "After any sequence of ata_drive_read and ata_drive_write calls the disk holds exactly the bytes last written at each address, and every read returns exactly those bytes, whatever the alignment and the state of the one-sector cache.", "quantifier": "all sequences of reads and writes, all start addresses, sizes, disk contents and cache states", "why_tests_cant": "Stale-cache errors need particular sequences of aligned and unaligned accesses; addresses are 64-bit.", "anchors": ["src/x86/ata.c:ata_drive_read", "src/x86/ata.c:ata_drive_write", "src/x86/ata.c:cache_pull", "src/x86/ata.c:cache_commit"]}
{"id": "C45", "title": "Update without backup survives power loss", "statement": "In a build with DISABLE_BACKUP (UPDATE is copied over BOOT, no swap): once a signed update has been requested, after any number of boots cut short by power failures the next complete boot starts an image that passes verification, and it is the update unless something at least as new that verifies is already in BOOT; UPDATE is never modified, an installed update is not reinstalled, and an update that is not newer or fails a check leaves the flash untouched.", "quantifier": "all flash contents of BOOT and SWAP, all signed images, all geometries, all sequences of power failures with arbitrary torn bytes", "why_tests_cant": "The number of interruption points and torn contents is unbounded; the code itself claims to have no power-fail safety in this mode.", "anchors": ["src/update_flash.c:wolfBoot_update", "src/update_flash.c:wolfBoot_start", "src/update_flash.c:wolfBoot_copy_sector"]}
{"id": "C46", "title": "Flash drivers write what they are asked to", "statement": "hal_flash_write(address, data, len) of the internal flash drivers programs exactly the bytes [address, address+len) with the buffer's contents and leaves everything else unchanged; where a driver cannot do it for all requests, the exact set of requests it carries out is determined. The block writes of the update procedure are in this set and have the effect the update model assumes.", "quantifier": "all addresses, lengths, buffer alignments and contents, all flash contents (erased where the chip needs it), drivers of 20 chip families", "why_tests_cant": "The behaviour depends on the residues of three numbers modulo the program unit and on contents; the hardware is not available to tests on the host.", "anchors": ["hal/stm32f4.c:hal_flash_write", "hal/nrf52.c:hal_flash_write", "hal/stm32l4.c:hal_flash_write", "hal/same51.c:hal_flash_write", "hal/kinetis.c:hal_flash_write", "hal/stm32h7.c:hal_flash_write", "hal/hifive1.c:hal_flash_write", "hal/psoc6.c:hal_flash_write", "hal/ti_hercules.c:hal_flash_write", "hal/mcxw.c:hal_flash_write", "hal/renesas-rx.c:hal_flash_write"]}
{"id": "C47", "title": "Flash drivers erase what they are asked to", "statement": "hal_flash_erase(address, len) of the internal flash drivers erases exactly the pages that contain a byte of [address, address+len); where it does not, the exact condition or a counterexample is given. Sector erases of the update procedure have the effect the update model assumes.", "quantifier": "all addresses, lengths, page sizes and flash contents, drivers of 19 chip families", "why_tests_cant": "Off-by-one and bank-crossing errors show for few addresses only, and only on the hardware.", "anchors": ["hal/stm32l0.c:hal_flash_erase", "hal/nrf52.c:hal_flash_erase", "hal/kinetis.c:hal_flash_erase", "hal/mcxw.c:hal_flash_erase", "hal/samr21.c:hal_flash_erase", "hal/psoc6.c:hal_flash_erase", "hal/stm32f4.c:hal_flash_erase", "hal/stm32f7.c:hal_flash_erase", "hal/stm32h7.c:hal_flash_erase", "hal/stm32l4.c:hal_flash_erase"]}
{"id": "C48", "title": "SPI and QSPI flash drivers do what they are asked to", "statement": "spi_flash_write programs exactly the given bytes and spi_flash_sector_erase/ext_flash_erase erase exactly the sectors that contain the given bytes; in single byte mode failures are reported; the exact set of requests for which page writes are exact is determined. On the requests of the update procedure the drivers implement the flash operations of the update model.", "quantifier": "all addresses, lengths, data and chip contents", "why_tests_cant": "Depends on residues of address and length modulo the page size and on RAM contents behind the buffer; needs the chip.", "anchors": ["src/spi_flash.c:spi_flash_write_page", "src/spi_flash.c:spi_flash_write_sb", "src/spi_flash.c:spi_flash_sector_erase", "src/qspi_flash.c:spi_flash_write", "include/hal.h:ext_flash_erase"]}
{"id": "C49", "title": "External partitions are as safe as internal ones", "statement": "In a build with EXT_FLASH, whichever partitions are external, the boot and update procedure computes the same flash contents, boots the same images and survives the same power failures as with internal flash, although trailer bytes are written as words of four bytes through a cache variable; likewise trigger and confirmation.", "quantifier": "all geometries, flash contents, images, subsets of external partitions, power failures and torn bytes", "why_tests_cant": "Equality of two programs on all states and failure points.", "anchors": ["src/libwolfboot.c:set_trailer_at", "src/libwolfboot.c:get_trailer_at", "src/update_flash.c:wolfBoot_copy_sector", "src/update_flash.c:wolfBoot_update", "src/update_flash.c:wolfBoot_start"]}
{"id": "C50", "title": "PCI enumeration assigns disjoint, aligned addresses and correct bridge windows", "statement": "pci_enum_do gives every base address register of every function in a PCI tree an address aligned to its size, no two of them overlap, each bridge forwards exactly the stretch of memory used behind it, and bus numbers are unambiguous, each bridge passing on exactly the numbers of the buses behind it. Configuration space accesses of 8 and 16 bits change the bytes they name and no others.", "quantifier": "all PCI trees, register sizes and kinds, pre-enumeration decisions", "why_tests_cant": "Depends on the whole tree of devices; tests see the few topologies at hand.", "anchors": ["src/pci.c:pci_program_bar", "src/pci.c:pci_program_bars", "src/pci.c:pci_program_bridge", "src/pci.c:pci_enum_bus", "src/pci.c:pci_enum_do", "src/pci.c:pci_config_write8", "src/pci.c:pci_io_config_read16"]}
{"id": "C51", "title": "Page tables translate exactly what was mapped", "statement": "x86_paging_build_identity_mapping makes the CPU translate every address below the top address to itself and no other address. x86_paging_map_memory makes it translate every byte of the region to the corresponding physical byte, keeps all translations that exist, makes nothing else accessible, and never shares or overwrites a table in use.", "quantifier": "all table addresses, regions, physical addresses, states of the tables", "why_tests_cant": "Depends on addresses, alignments and the state of the tree of tables after any number of calls.", "anchors": ["src/x86/paging.c:x86_paging_build_identity_mapping", "src/x86/paging.c:x86_paging_map_page", "src/x86/paging.c:x86_paging_setup_ptp", "src/x86/paging.c:x86_paging_map_memory"]}
{"id": "C52", "title": "The operating system is told the memory map of the firmware", "statement": "For every list of hand-off blocks, the Multiboot2 information holds exactly the requested tags in order, with the memory resources of the list and a correct total size, never leaves the buffer, and requests that cannot be met are refused. The Linux boot parameters hold the same memory map, the setup header of the image and zeros elsewhere, and the kernel loaded is the one in the image.", "quantifier": "all lists of hand-off blocks, payload headers, requests, buffer sizes and contents, kernel images", "why_tests_cant": "Lists of any length and content come from firmware; the effect of the sizes on every byte of the buffers is not observable in a boot test.", "anchors": ["src/x86/hob.c:hob_iterate_memory_map", "src/x86/hob.c:hob_find_resource_by_guid", "src/multiboot.c:mb2_build_boot_info_header", "src/multiboot.c:mb2_find_header", "src/multiboot.c:mb2_find_tag_by_type", "src/x86/linux_loader.c:e820_add_entry_cb", "src/x86/linux_loader.c:load_linux"]}
{"id": "C53", "title": "The first stage on x86 starts only the verified second stage", "statement": "A second stage is started only if opening, integrity and authenticity checks succeeded on the copy in RAM, and a second stage that passes is started. The copy is byte for byte the one in flash and is not changed between verification and start; loading it leaves the data of the first stage alone; the second stage finds its .bss cleared and its parameters (hand-off list, page tables, top of memory, TPM policy) complete.", "quantifier": "all addresses of the linker script and of the top of memory, memory contents, results of the checks, 32 and 64 bit", "why_tests_cant": "Addresses come from firmware and linker scripts; overlaps of ranges depend on all of them together.", "anchors": ["src/boot_x86_fsp.c:start", "src/boot_x86_fsp.c:memory_ready_entry", "src/boot_x86_fsp.c:jump_into_wolfboot", "src/boot_x86_fsp.c:check_memory_ranges", "src/boot_x86_fsp.c:verify_payload", "src/x86/common.c:panic"]}
{"id": "C54", "title": "The multiprocessor table is valid", "statement": "The bytes of the floating pointer structure and those of the configuration table each add up to zero modulo 256; the processor entries describe the running processor and the others, everything else is the initial value, and nothing outside the table is written.", "quantifier": "all table addresses, sizes and contents, APIC registers and processor signatures", "why_tests_cant": "The checksum depends on register values of the machine.", "anchors": ["src/x86/mptable.c:calc_checksum", "src/x86/mptable.c:mptable_setup"]}
{"id": "C55", "title": "Armored builds: wrong values do not pass the redundant checks when instructions are skipped", "statement": "Without skipped instructions each redundant check passes exactly for right values. An image whose flags are wrong, a signature that does not verify, an update that is not newer or a key without permission does not pass when a single instruction is skipped; for flags, results of verification and digests at least four instructions must be skipped per wrong value.", "quantifier": "all values, initial register contents and flags, effects of called functions on scratch registers, all executions with any instructions skipped, Thumb-2 and ARM encoding", "why_tests_cant": "The number of executions with skipped instructions grows exponentially, and a glitch cannot be placed reproducibly.", "anchors": ["include/image.h:PART_SANITY_CHECK", "include/image.h:VERIFY_FN", "include/image.h:RSA_VERIFY_FN", "include/image.h:RSA_VERIFY_HASH", "include/image.h:VERIFY_VERSION_ALLOWED", "include/image.h:CONFIRM_MASK_VALID", "include/image.h:wolfBoot_image_confirm_signature_ok"]}
{"id": "C56", "title": "Signatures are confirmed exactly when the cryptographic library accepts them", "statement": "For every signature algorithm and kind of build (software, HSM with stored or cached key, device, TPM), the signature of an image is confirmed only if the library accepted the stored signature for the digest of the image under the selected key, and it is confirmed if the library accepts it and the preparatory calls succeed. The library is asked only with a context that was created and given its parameters and key without error; the context is released afterwards; no bytes beyond the stored signature are read.", "quantifier": "all results of all library functions, keys, signatures, digests, build variants", "why_tests_cant": "The results depend on hardware and library failures that do not occur in tests, and one signature in 128 has the form that is mishandled.", "anchors": ["src/image.c:wolfBoot_verify_signature_ed25519", "src/image.c:wolfBoot_verify_signature_ed448", "src/image.c:wolfBoot_verify_signature_ecc", "src/image.c:wolfBoot_verify_signature_rsa", "src/image.c:wolfBoot_verify_signature_lms", "src/image.c:wolfBoot_verify_signature_xmss", "src/image.c:wolfBoot_verify_signature_ml_dsa", "src/image.c:wolfBoot_verify_signature_tpm", "include/image.h:VERIFY_FN"]}
{"id": "C57", "title": "A sealed secret is released exactly for the platform states signed by the owner of the key", "statement": "If unsealing returns a secret, the key selected by the hint verified the signature in the policy for the current values of all PCRs named in it, and the secret is the one sealed for this key (or the password was given); it is returned for every such state. Sealing followed by unsealing gives the same secret; a change of a named PCR prevents unsealing. No array is overrun, whatever the policy and the contents of the non-volatile index are; sessions and objects are closed; a sealed secret is not lost when unsealing fails.", "quantifier": "all policies, masks, PCR values, keystores, contents of non-volatile indices, secrets, passwords and failures of TPM commands", "why_tests_cant": "The simulator tests use one PCR, one key and one secret of the right size; other states of the TPM, failing commands and hostile contents of the non-volatile index do not occur.", "anchors": ["src/tpm.c:wolfBoot_load_pubkey", "src/tpm.c:wolfBoot_get_pcr_active", "src/tpm.c:wolfBoot_tpm_pcrmask_sel", "src/tpm.c:wolfBoot_build_policy", "src/tpm.c:wolfBoot_store_blob", "src/tpm.c:wolfBoot_read_blob", "src/tpm.c:wolfBoot_delete_blob", "src/tpm.c:wolfBoot_seal_blob", "src/tpm.c:wolfBoot_seal_auth", "src/tpm.c:wolfBoot_unseal_blob", "src/tpm.c:wolfBoot_unseal_auth", "src/update_flash.c:wolfBoot_unlock_disk"]}
{"id": "C58", "title": "The boot continues only with a protected and unlocked drive, and never locks itself out", "statement": "If sata_unlock_disk returns 0, the security feature of the drive is enabled, the drive is unlocked, and frozen if requested; a drive that was unprotected or locked has the secret as user password. A wrong secret leaves it locked. After any sequence of boots with failures of the drive and of the TPM, a protected drive has a password that the TPM holds, and the next boot without failures opens it.", "quantifier": "all drives and their security states, all secrets, all identification words, all sequences of boots with failures of drive and TPM commands", "why_tests_cant": "Sequences of boots with a failing drive or TPM at each possible place cannot be run; QEMU has no drive with the security feature set.", "anchors": ["src/x86/ahci.c:sata_unlock_disk", "src/x86/ahci.c:sata_get_unlock_secret", "src/x86/ahci.c:sata_create_and_seal_unlock_secret", "src/x86/ahci.c:sata_get_random_base64", "src/x86/ahci.c:sata_disable_password", "src/x86/ata.c:ata_identify_device", "src/x86/ata.c:security_command_passphrase"]}
{"id": "C59", "title": "The measurement register tells what has been booted, and the root of trust in the TPM what keys are trusted", "statement": "After a successful initialisation of the TPM the register of the measured boot has been extended exactly by the hash of the whole BOOT partition; equal registers mean equal partitions, collisions apart; the measured image is the one that is booted. On x86 with FSP the register records the first and the second stage before the second is entered. wolfBoot_check_rot succeeds only for the key hash stored in the TPM.", "quantifier": "all partition contents and sizes, all build options, all behaviours of the TPM (every command may fail), all register values and logs of any length", "why_tests_cant": "Hash inputs of all sizes, failing TPM commands at every place and the comparison of all pairs of boots are out of reach of the simulator tests, which also reset the register before extending it.", "anchors": ["src/tpm.c:wolfBoot_tpm2_init", "src/tpm.c:wolfBoot_tpm2_extend", "src/tpm.c:self_sha256", "src/tpm.c:self_sha384", "src/tpm.c:wolfBoot_check_rot", "src/tpm.c:wolfBoot_tpm2_deinit", "src/loader.c:main", "src/boot_x86_fsp.c:self_extend_pcr", "src/boot_x86_fsp.c:wolfBoot_image_measure", "src/boot_x86_fsp.c:memory_ready_entry"]}
{"id": "C60", "title": "Accesses to the TPM over SPI reach the right register exactly once and release the bus", "statement": "TPM2_IoCb sends the header of the TCG standard and, as soon as the TPM is ready, reads or writes exactly the bytes of the buffer; if the TPM is not ready in time the access fails without having read or written anything; on every path the TPM is released. The spi_xfer of all drivers (byte loop, FIFO words, queues) exchanges the bytes in order and loses none, whatever the order of events in the controller.", "quantifier": "all devices and register contents, addresses, buffers, numbers of wait states and tries, all interleavings of program and controller", "why_tests_cant": "Wait states and the timing of FIFOs depend on the hardware; interleavings cannot be forced in a test.", "anchors": ["src/tpm.c:TPM2_IoCb", "hal/spi/spi_drv_stm32.c:spi_xfer", "hal/spi/spi_drv_nrf52.c:spi_xfer", "hal/spi/spi_drv_renesas_rx.c:spi_xfer", "hal/nxp_p1021.c:hal_espi_xfer", "hal/nxp_t1024.c:hal_espi_xfer", "hal/nxp_ls1028a.c:spi_transaction"]}
{"id": "C61", "title": "From a FIT, exactly the images that the default configuration names are loaded and booted", "statement": "fit_find_images yields the kernel and the device tree that /configurations/<default> names, and without these the first image of the type; fit_load_image copies exactly the data of the image in /images to its load address and returns its entry; wolfBoot_start boots the entry of the kernel with the device tree at WOLFBOOT_LOAD_DTS_ADDRESS, and no other memory changes. An image that cannot be loaded is not booted.", "quantifier": "all trees (any nodes, properties, names, depth), all memories, load addresses and entries", "why_tests_cant": "The trees are unbounded and the failure needs particular names and addresses: an image named like a configuration, a load address inside the tree.", "anchors": ["src/fdt.c:fit_find_images", "src/fdt.c:fit_load_image", "src/fdt.c:fdt_getprop_address", "src/update_ram.c:wolfBoot_start"]}
{"id": "C62", "title": "While wolfBoot runs, only its own text can be executed", "statement": "After mpu_init the memory protection unit lets privileged code execute exactly the text of wolfBoot (and its RAM functions with RAM_CODE), no RAM, no peripheral and no unverified image; what can be executed cannot be written; unprivileged code has no access; peripherals are treated as devices. mpu_off restores the default memory map.", "quantifier": "all addresses, all placements and sizes of text and data, all register contents before", "why_tests_cant": "Whether an address is protected is visible only when code is executed there; 2^32 addresses and all layouts cannot be tried.", "anchors": ["src/boot_arm.c:mpu_init", "src/boot_arm.c:mpusize", "src/boot_arm.c:mpu_setaddr", "src/boot_arm.c:mpu_off"]}
{"id": "C63", "title": "Start-up code initialises memory exactly and the application starts as after reset", "statement": "When main starts, initialised variables have their stored values, the others are 0 and no other memory has changed. do_boot hands over with stack, entry and vector table of the application, interrupts and memory protection as after reset, and every byte of the image visible to instruction fetches.", "quantifier": "all memories, section layouts, application addresses, states of the processor and of the caches", "why_tests_cant": "Stale cache lines, masked interrupts and vectors are visible only on particular hardware and timing.", "anchors": ["src/boot_arm.c:isr_reset", "src/boot_arm.c:do_boot", "src/boot_aarch64.c:boot_entry_C", "src/boot_arm32.c:boot_entry_C", "src/boot_riscv.c:_reset", "src/boot_riscv.c:reloc_iv", "src/boot_ppc.c:boot_entry_C", "src/boot_ppc.c:flush_cache", "src/boot_ppc.c:do_boot"]}
{"id": "C64", "title": "Disk commands reach the drive as asked, and ports touch no memory that is not theirs", "statement": "The command list and the command table written for a transfer are read by controller and drive as exactly that transfer: sector, count, direction and buffer. The driver waits for the end of the command and reports its outcome. The addresses of a port are changed only while it is stopped, ports have memory of their own, and after sata_disable no port accesses memory.", "quantifier": "all memories, sectors, counts, buffers, slots in use, bad sectors, and all behaviours of the controller in time", "why_tests_cant": "The bytes are read by hardware; timing of the controller, errors of the medium and large disks cannot be enumerated.", "anchors": ["src/x86/ata.c:prepare_cmd_h2d_slot", "src/x86/ata.c:find_cmd_slot", "src/x86/ata.c:exec_cmd_slot_ex", "src/x86/ata.c:ata_drive_read_sector", "src/x86/ata.c:ata_drive_write_sector", "src/x86/ata.c:ata_drive_new", "src/x86/ahci.c:sata_enable", "src/x86/ahci.c:sata_disable"]}
{"id": "C65", "title": "The non-secure application reaches no memory of wolfBoot", "statement": "After the security attribution unit and the memory protection controllers are set up, an address is non-secure exactly if it belongs to the application (flash of its partition, its RAM, peripherals), secure code can be entered only through the veneers, and no alias of an address leads to flash or RAM of wolfBoot. Functions callable by the application write only to memory of the application.", "quantifier": "all 32-bit addresses, all aliases, all previous register contents (regions not written disabled), all partition addresses of STM32H5", "why_tests_cant": "A hole in the attribution is visible only to code that looks for it; 2^32 addresses in two aliases cannot be tried.", "anchors": ["hal/armv8m_tz.h:sau_init_region", "hal/stm32_tz.c:hal_tz_sau_init", "hal/stm32_tz.c:hal_gtzc_init", "hal/rp2350.c:rp2350_configure_sau", "hal/rp2350.c:rp2350_configure_access_control", "src/wc_callable.c:wcs_get_random"]}
{"id": "C66", "title": "STM32 flash controllers are asked to erase exactly the pages meant", "statement": "The words written to the control register of the flash controller ask for exactly the pages of the range, in the right bank, one after the other, and for nothing else; over any number of calls. Claiming non-secure flash makes exactly the pages of the range secure, erases these, and release makes them non-secure again.", "quantifier": "all addresses and lengths within the flash, all previous contents of the control register in which no other operation is selected, both states of the bank swap, all sequences of calls", "why_tests_cant": "Bits left over from earlier operations and wrong banks show only on particular hardware after particular sequences.", "anchors": ["hal/stm32g0.c:hal_flash_erase", "hal/stm32c0.c:hal_flash_erase", "hal/stm32wb.c:hal_flash_erase", "hal/stm32f4.c:flash_erase_sector", "hal/stm32f7.c:flash_erase_sector", "hal/stm32l5.c:hal_flash_erase", "hal/stm32u5.c:hal_flash_erase", "hal/stm32h5.c:hal_flash_erase", "hal/stm32h5.c:fork_bootloader", "hal/stm32h7.c:hal_flash_erase", "hal/stm32_tz.c:hal_tz_claim_nonsecure_area", "hal/stm32_tz.c:hal_tz_release_nonsecure_area"]}
{"id": "C67", "title": "Updates on write-once flash survive power failures", "statement": "With NVM_FLASH_WRITEONCE, where every change of a flag moves the flags from one sector to another, a requested update interrupted by any number of power failures at any flash operations is completed by the first uninterrupted reboot: the new image is installed completely, the old one kept completely, BOOT is TESTING, the flags of UPDATE are erased. The same for the rollback. No unit of the flags is written that is not erased.", "quantifier": "all geometries with at least three sectors, all images that fit, all sequences of interrupted reboots, all points of interruption, all bytes left by torn operations that do not spell the magic word", "why_tests_cant": "There are unboundedly many sequences of power failures, each at one of several hundred operations, with the flags in either sector or in both.", "anchors": ["src/libwolfboot.c:nvm_select_fresh_sector", "src/libwolfboot.c:trailer_write", "src/libwolfboot.c:partition_magic_write", "src/libwolfboot.c:wolfBoot_set_partition_state", "src/libwolfboot.c:wolfBoot_set_update_sector_flag", "src/update_flash.c:wolfBoot_swap_and_final_erase", "src/update_flash.c:wolfBoot_update", "src/update_flash.c:wolfBoot_start"]}
{"id": "C68", "title": "Updates with all flags in BOOT survive power failures that leave a record", "statement": "With FLAGS_HOME, where the state and the sector flags of UPDATE are kept at the end of BOOT, a requested update interrupted by any number of power failures, each of which leaves either a state of UPDATE or the mark TESTING of BOOT, is completed by the first uninterrupted reboot: the new image is installed completely, the old one kept completely, BOOT is TESTING. The same for the rollback. A request makes the update pending whatever the flags were. A power failure between the erase of the flags and the mark TESTING may lose the new image or the mark.", "quantifier": "all geometries whose flags fit into the last sector, all images that fit, all sequences of interrupted reboots, all points of interruption, all bytes left by torn operations that do not spell the magic word", "why_tests_cant": "There are unboundedly many sequences of power failures, each at any operation, with any bytes left by the interrupted operation.", "anchors": ["src/libwolfboot.c:get_trailer_at", "src/libwolfboot.c:set_trailer_at", "src/libwolfboot.c:set_partition_magic", "src/libwolfboot.c:wolfBoot_update_trigger", "src/update_flash.c:wolfBoot_swap_and_final_erase", "src/update_flash.c:wolfBoot_update", "src/update_flash.c:wolfBoot_start"]}
{"id": "C69", "title": "Encrypted updates survive power failures with their key", "statement": "With EXT_ENCRYPTED, a requested update whose image is encrypted in external flash, interrupted by any number of power failures at any flash operation, is completed by the first uninterrupted reboot: the new image is in BOOT in clear, the old one in UPDATE encrypted with the same secret, the secret is in its place again, BOOT is TESTING. The same for the rollback. This needs images that end before the last two sectors; an image that reaches the last but one sector loses the update or bricks the device even without power failure. Setting the secret changes nothing else in the flash; confirming the update removes it; a wrong or missing secret never makes the bootloader write to the flash.", "quantifier": "all geometries, all ciphers that XOR a key stream, all secrets the cipher accepts, all images that fit, all sequences of interrupted reboots, all points of interruption, all bytes left by torn operations that do not complete a magic word", "why_tests_cant": "There are unboundedly many sequences of power failures, each at any operation, with any bytes left by the interrupted operation, and any key and image.", "anchors": ["src/update_flash.c:wolfBoot_copy_sector", "src/update_flash.c:wolfBoot_swap_and_final_erase", "src/update_flash.c:wolfBoot_update", "src/update_flash.c:wolfBoot_start", "src/libwolfboot.c:hal_set_key", "src/libwolfboot.c:wolfBoot_erase_encrypt_key", "src/libwolfboot.c:wolfBoot_success", "src/libwolfboot.c:ext_flash_encrypt_write", "src/libwolfboot.c:ext_flash_decrypt_read"]}
{"id": "C70", "title": "A delta image made by the signing tool installs exactly the image it was made from", "statement": "Let the signing tool make a base image, a new image and, with --delta, a delta image from both files. On a device configured for the signer, with the base image running and the delta image requested in UPDATE, the bootloader accepts the delta image and BOOT ends up with exactly the bytes of the new image, whatever power failures interrupt it; unconfirmed, the next reboot restores exactly the base; at no time the device is left without one of the two. The fields of the delta header describe the patches in the file. A delta image made with --hybrid is refused by every device with hybrid signatures.", "quantifier": "all programs, options, custom fields, time stamps, hash algorithms, keys, geometries, with and without base digest, all sequences of power failures", "why_tests_cant": "Two programs (the tool on the host and the bootloader) must agree on header fields, patch format, padding and sector size for every pair of images and every interruption.", "anchors": ["tools/keytools/sign.c:base_diff", "tools/keytools/sign.c:make_header_delta", "tools/keytools/sign.c:make_header_ex", "tools/keytools/sign.c:sign_tool_find_header", "src/delta.c:wb_diff", "src/delta.c:wb_patch", "src/update_flash.c:wolfBoot_delta_update", "src/libwolfboot.c:wolfBoot_get_delta_info", "src/image.c:wolfBoot_verify_authenticity"]}
{"id": "C71", "title": "A device whose image does not verify installs the image in UPDATE, and a power failure does not stop it", "statement": "If BOOT holds an image with a readable header that does not verify and UPDATE holds a correctly signed image, of whatever version and requested or not, a reboot installs the image of UPDATE completely, keeps the other one, locks the flash and starts the installed image; after any number of power failures at any flash operation an uninterrupted reboot still starts it. The same with write-once flash. In all variants of the update (encrypted, write-once, flags of UPDATE in BOOT) only an image that passed all checks in BOOT is started. A request of an update on write-once flash with erased flags leaves the installation pending.", "quantifier": "all geometries, images, versions, contents of the flash in front of the trailers, all sequences of power failures at all flash operations with all torn contents", "why_tests_cant": "The emergency path is entered only with a corrupted image, and its interaction with interrupted swaps covers every sector and phase of two reboots in a row.", "anchors": ["src/update_flash.c:wolfBoot_start", "src/update_flash.c:wolfBoot_update", "src/update_flash.c:wolfBoot_swap_and_final_erase", "src/libwolfboot.c:wolfBoot_update_trigger", "src/libwolfboot.c:nvm_select_fresh_sector"]}
{"id": "C72", "title": "The keystore made by the key tools authorises exactly what was asked for", "statement": "For every command line of keygen made of valid options (algorithms, lists of ids below 32, at most 64 keys of each kind, every key after an algorithm), the bootloader with the generated table accepts exactly the images signed by one of the keys asked for, for a partition among the ids given for this key (any if none were given), provided the hashes of the keys differ. With --nolocalkeys the table holds no key bytes. A table whose keys all have the configured size and fit is brought into the OTP area by the primer (both drivers) or the OTP file, and the bootloader reads the same number, masks, types, sizes and keys from there.", "quantifier": "all command lines, file contents, key materials, images, numbers of keys, OTP geometries", "why_tests_cant": "Command lines, id lists and images are unbounded; tests use one or two keys with the default mask.", "anchors": ["tools/keytools/keygen.c:parse_id", "tools/keytools/keygen.c:main", "tools/keytools/keygen.c:keystore_add", "tools/keytools/keygen.c:key_import", "tools/keytools/keygen.c:get_pubkey_size", "tools/keytools/otp/otp-keystore-primer.c:main", "tools/keytools/otp/otp-keystore-gen.c:main", "hal/stm32h7.c:hal_flash_otp_write", "hal/stm32h5.c:hal_flash_otp_write"]}
{"id": "C73", "title": "Signing in separate steps and with the Python tool gives images that are accepted exactly if the signature is valid", "statement": "If the header sizes chosen in both modes agree, exporting the digest (--sha-only), signing it elsewhere and inserting the signature (--manual-sign) gives, byte for byte, the image made in one run with the private key. The sizes agree for all Ed25519, Ed448 and ECC keys, and for RSA exactly if no larger header is configured and, with RSA 3072, the hash is SHA-256. Every image made by sign.c in either way is accepted by a device with the same sizes and hash exactly if a key of the device with the hash of the public key of the image may sign for the partition and accepts the signature of the exported digest. The same holds for images of sign.py whose header fits; for sign.py the sizes agree exactly for Ed25519, ECC 256, RSA 2048, RSA 4096 and RSA 3072 with SHA-256 or a header of at least 1024 bytes.", "quantifier": "all images, versions, time stamps, custom fields, partitions, hash functions, header sizes, key and signature files, all eight algorithms; sign.c and sign.py", "why_tests_cant": "The combinations of algorithm, hash, configured header size, mode and key file format are many, and a wrong header size shows up as heap corruption or as an image that only the device refuses; tests sign with the private key and default sizes.", "anchors": ["tools/keytools/sign.c:347-888", "tools/keytools/sign.c:1408-1610", "tools/keytools/sign.c:2042-2237", "tools/keytools/sign.py:94-283", "tools/keytools/sign.py:552-731", "src/image.c:1314-1734"]}
{"id": "C74", "title": "The assembled factory image has every part at its address and erased flash between them", "statement": "For any non-empty parts whose addresses fit, bin-assemble makes a file exactly if no two parts overlap, in whatever order they are given, and otherwise says so. In the file, counted from the lowest address, every part is at its address, all other bytes are 0xFF and the file ends with the last part, exactly if every gap is smaller than INT_MAX. Hexadecimal addresses, and decimal ones without a leading zero, below 2^63 are read as written. A factory image of a bootloader and a signed image, written to flash, gives a BOOT partition that is accepted exactly if the image was signed with a key of the device.", "quantifier": "all numbers of parts, contents, addresses and orders; every function that sorts by address", "why_tests_cant": "Gaps and sizes relative to the block size of 1024 bytes, orders of arguments and large distances are unbounded; a misplaced part is silent in the tool and shows up only on the device.", "anchors": ["tools/bin-assemble/bin-assemble.c:62-226", "Makefile:263-287"]}
{"id": "C75", "title": "Updates are power-fail safe on flash that is erased to zero", "statement": "In a build with WOLFBOOT_FLAGS_INVERT, for flash whose erased bytes are 0x00 and in which programming sets bits, a requested update and a rollback survive any number of power failures at any flash operations, after every history of the device an uninterrupted reboot starts a verified image, and no execution tries to clear a bit by programming.", "quantifier": "all geometries, images, histories of the device, points of power failure and contents left by torn operations", "why_tests_cant": "Unbounded histories and power failures at any bit of any operation; the inverted build has other state values and needs flash hardware that the test hosts do not have.", "anchors": ["include/wolfboot/wolfboot.h:319-327", "include/image.h:109-114", "hal/sim.c:160-207", "src/update_flash.c:wolfBoot_update"]}
{"id": "C76", "title": "The TPM tools and the bootloader agree on policies and on the root of trust", "statement": "A policy made by policy_create for PCRs and a digest of their values, signed by policy_sign or by the signing tool, makes the bootloader unseal a secret sealed under the signing key exactly when its PCRs have these values; the command line chooses the PCRs and digests that were asked for; after a successful run of rot the bootloader confirms every key of the keystore and no other.", "quantifier": "all command lines, PCR sets, digests, key files, keystores, TPM contents and boot states", "why_tests_cant": "Relates three separate programs and the bootloader over all option lists, masks, digests and states of the TPM; the unchecked arrays depend on the length of the command line.", "anchors": ["tools/tpm/policy_create.c", "tools/tpm/policy_sign.c", "tools/tpm/rot.c", "src/tpm.c:wolfBoot_unseal_blob", "src/tpm.c:wolfBoot_check_rot"]}
{"id": "C77", "title": "The serial update application writes the file and nothing else, and the update server gets it there", "statement": "Whatever bytes arrive, the update application of the STM32F4 stays inside of its arrays and changes nothing outside of the update partition. Packets that are repeated, out of order or fail the check do no harm: installation is requested only when UPDATE holds the file, and it is as soon as every packet has arrived after the one before it. The server transfers every file that fits, and the image is installed at the next start.", "quantifier": "all byte streams, files, packet sequences, versions, partition and sector sizes (multiples of 256) and flash contents", "why_tests_cant": "Two programs that exchange messages over a line that may lose, damage or repeat bytes: the set of byte streams is unbounded and failures depend on alignment, version number and file length.", "anchors": ["test-app/app_stm32f4.c:main", "tools/test-update-server/server.c:main", "tools/test-update-server/server.c:recv_ack"]}
{"id": "C78", "title": "The two cores of the nRF5340 agree on the update of the network core", "statement": "In every interleaving of the two bootloaders, the network core starts an update only when the shared memory holds a complete image that the application core has verified, and the application core does not change it afterwards. The update is made exactly when the application core has a valid image that is newer than the one of the network core. The image that is copied is the one that was verified and fits in the shared memory; the bootloader is write protected.", "quantifier": "all interleavings of the steps of the two cores, all points at which a wait ends with a timeout, all contents of the shared memory at reset, all versions, sizes and images", "why_tests_cant": "Two processors that share memory and events: failures depend on the order of single memory accesses and on leftovers in memory, which a test cannot choose.", "anchors": ["hal/nrf5340.c:hal_net_check_version", "hal/nrf5340.c:hal_shm_status_set", "hal/nrf5340.c:hal_shm_status_wait", "hal/nrf5340.c:hal_net_signal_wait_ready", "hal/nrf5340.c:hal_net_get_image", "hal/nrf5340.c:hal_prepare_boot", "hal/nrf5340.c:hal_flash_protect"]}
{"id": "C79", "title": "Reads of the SAMA5D3 NAND flash", "statement": "The division in software is right for all operands. A read of the NAND flash ends, writes exactly the bytes asked for to the buffer, and gives the bytes at that address, with bad blocks skipped; reads in parts give the same as one read.", "quantifier": "all addresses, lengths, numbers of pages per block, patterns of bad blocks and contents of the chip", "why_tests_cant": "Errors depend on the combination of address, length, block boundary and bad blocks; a test on a board sees one chip.", "anchors": ["hal/sama5d3.c:division", "hal/sama5d3.c:ext_flash_read", "hal/sama5d3.c:nand_check_bad_block", "hal/sama5d3.c:nand_read_page"]}
{"id": "C80", "title": "Flash driver of the AURIX TC3xx", "statement": "A write stores exactly the bytes given and changes no other byte, never programs a page that is not erased, stays within its buffer, and leaves all other bytes as they are when the power fails. An erase covers the whole range. A read gives the bytes of the flash and the result its callers expect.", "quantifier": "all addresses, lengths, contents of the flash, sizes of sectors and points of power failure", "why_tests_cant": "The driver has two ways to write, chosen by the contents of the flash; power failures between the erase and the last burst are rare, and their effect depends on what else is in the sector.", "anchors": ["hal/aurix_tc3xx.c:hal_flash_write", "hal/aurix_tc3xx.c:programBytesToErasedFlash", "hal/aurix_tc3xx.c:programCachedSector", "hal/aurix_tc3xx.c:hal_flash_erase", "hal/aurix_tc3xx.c:ext_flash_read"]}
{"id": "C81", "title": "QSPI flash driver of the ZynqMP", "statement": "Transfers of any size are split so that exactly the bytes asked for are sent or received, within the buffers. A read gives the bytes at its address, a write programs exactly its range, an erase erases every sector of its range, stays within its command buffer and reports errors.", "quantifier": "all addresses, lengths, places of buffers, contents of the flash, one or two chips, addresses of 3 or 4 bytes, and failures of the flash", "why_tests_cant": "The way a transfer is split depends on its length and on the alignment of the buffer; errors show only at odd addresses, at page ends or from the second sector on.", "anchors": ["hal/zynq.c:qspi_calc_exp", "hal/zynq.c:qspi_transfer", "hal/zynq.c:ext_flash_read", "hal/zynq.c:ext_flash_write", "hal/zynq.c:ext_flash_erase"]}
{"id": "C82", "title": "Flash drivers of the P1021, LS1028A and T1024", "statement": "A read gives exactly the bytes asked for, skipping bad blocks, and ends; an erase erases every block of its range and waits for each; a write programs exactly its bytes at its address.", "quantifier": "all addresses, lengths, contents of flash, buffers and data, places of bad blocks, and timings of the controller", "why_tests_cant": "Tests on a board use aligned images and chips without bad blocks; the errors show at lengths that are no multiple of a page, at flags near the end of a partition, with more than a block, or with marks on the second page.", "anchors": ["hal/nxp_p1021.c:ext_flash_read", "hal/nxp_p1021.c:ext_flash_write", "hal/nxp_p1021.c:ext_flash_erase", "hal/nxp_ls1028a.c:xspi_flash_write", "hal/nxp_ls1028a.c:hal_flash_erase", "hal/nxp_t1024.c:hal_flash_write"]}
{"id": "C83", "title": "Flash drivers of the i.MX RT and Renesas RA", "statement": "A write programs exactly its bytes at its address and reports errors; the range written leaves the data cache; an erase erases exactly its range or is refused.", "quantifier": "all addresses, lengths, contents of flash, memory after the data, and failures of the flash", "why_tests_cant": "Images are written in whole sectors; errors show for odd lengths and addresses, at the limit between small and large blocks, or as a stale line in the cache.", "anchors": ["hal/imx_rt.c:hal_flash_write", "hal/imx_rt.c:hal_flash_erase", "hal/renesas-ra.c:blockWrite", "hal/renesas-ra.c:hal_flash_write", "hal/renesas-ra.c:hal_flash_erase"]}
{"id": "C84", "title": "Segments and interrupts on x86", "statement": "Descriptors and gates hold what they were made of, gates lead to code of 64 bits, every vector that can occur has its handler, and a handler returns to the interrupted program.", "quantifier": "all bases, limits, flags, addresses of handlers, vectors, registers and error codes", "why_tests_cant": "Exceptions do not occur in a normal boot; a wrong bit of an address shows only with certain addresses.", "anchors": ["src/x86/gdt.c:SEGMENT_DESCRIPTOR_INIT", "src/x86/gdt.c:gdt_setup_table", "src/x86/exceptions.c:setup_interrupt_gate", "src/x86/exceptions.c:setup_interrupts", "src/x86/exceptions.c:EXCEPTION_TRAMPOLINE"]}
