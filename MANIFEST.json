{"claims": [
{"property": "C01", "status": "partial", "theorems": ["Verif.update_power_fail_safe_partial", "Verif.update_power_fail_unsafe_word", "Verif.update_any_interruption_partial", "Verif.TornTrailer.torn_trailer_bricks", "Verif.TornTrailer.empty_boot_bricks"], "note": "All interruption sequences, any flash contents. Guard: the word BOOT does not occur at offset tmpBootPos of BOOT/UPDATE (witness shows the code fails otherwise); erase of the UPDATE trailer sector assumed atomic."},
{"property": "C02", "status": "partial", "theorems": ["Verif.rollback_power_fail_safe_partial", "Verif.update_any_interruption_partial", "Verif.TornTrailer.untested_rollback", "Verif.TornTrailer.rollback_flips"], "note": "Same guards as C01."},
{"property": "C03", "status": "partial", "theorems": ["Verif.confirmed_stable_partial", "Verif.confirmed_stable_forever_partial", "Verif.confirmed_unstable_word"], "note": "Same guard on the word BOOT; witness without it."},
{"property": "C04", "status": "partial", "theorems": ["Verif.anti_rollback_partial", "Verif.downgrade_while_testing"], "note": "Witness: while BOOT is TESTING, an older update is installed."},
{"property": "C05", "status": "proved", "theorems": ["Verif.unverified_update_refused", "Verif.unverified_update_boot_unchanged"], "note": ""},
{"property": "C06", "status": "partial", "theorems": ["Verif.boot_gate", "Verif.boot_gate_image", "Verif.delta_boot_gate", "Verif.delta_boot_gate_image", "Verif.hw_boot_gate", "Verif.hw_boot_gate_image_partial", "Verif.ram_boot_authentic", "Verif.ram_boot_gate_image", "Verif.disk_boot_authentic", "Verif.disk_boot_gate_image_partial", "Verif.hw_modified_after_check"], "note": "All contents, states and paths of the swap, delta, hardware-swap, RAM and disk variants, with the real image format (hash and signature primitives as parameters). Hardware swap: the state byte is written after the checks, so an image that covers the trailer is modified after verification (witness); the image-format theorem excludes such images. Disk: sizes near 2^32 excluded (the hash loop does not end there)."},
{"property": "C07", "status": "partial", "theorems": ["Verif.lifecycle_never_bricks_partial", "Verif.lifecycle_image_partial"], "note": "Guards of C01, C08, C12 as explicit hypotheses; lifecycle_image_partial is the instance for the real image format, for a signer who only signs images that fit."},
{"property": "C08", "status": "partial", "theorems": ["Verif.accepted_overlap_partial", "Verif.accepted_image_destroyed"], "note": "The size check omits the header: witness of an accepted image that is destroyed."},
{"property": "C09", "status": "partial", "theorems": ["Verif.state_cell_partial", "Verif.flag_cell_partial", "Verif.flag_cell_erased_partial", "Verif.flag_cells_alias"], "note": "At most 512 sectors: witness of aliasing flags for sector 512."},
{"property": "C10", "status": "partial", "theorems": ["Verif.no_bit_set_by_programming_partial", "Verif.normal_transitions_clear_bits", "Verif.inverted_transitions_set_bits", "Verif.final_transition_atomic", "Verif.inverted_final_transition_not_atomic"], "note": "Guards of C07; inverted encoding: see also C75."},
{"property": "C11", "status": "partial", "theorems": ["Verif.nvm_history_partial", "Verif.nvm_complete", "Verif.nvm_interrupted", "Verif.nvm_magic_partial", "Verif.nvm_magic_rewrite", "Verif.nvm_magic_witness", "Verif.nvm_key_rewrite", "Verif.nvm_key_lost", "Verif.nvm_flags_home", "Verif.nvm_write_error", "Verif.nvm_torn_erase", "Verif.nvm_select_newer", "Verif.nvm_select_longer"], "note": "Any history of reads, updates and copies with any number of power losses, any sector and write unit size, both flag polarities. An interrupted erase leaves anything but the magic, an interrupted write anything in its unit, the units of the magic are written atomically. Outside of these limits the code violates the property, proved in general or with witnesses: magic written without erase, key stored without erase, key lost by a power loss, flags of BOOT erased by reading those of UPDATE with FLAGS_HOME, failing write, partially erased flags."},
{"property": "C12", "status": "partial", "theorems": ["Verif.uninitialised_irrelevant_partial", "Verif.uninitialised_consulted"], "note": "Witness: the uninitialised updateState is consulted."},
{"property": "C13", "status": "proved", "theorems": ["Verif.findHeader_total", "Verif.findHeader_in_bounds", "Verif.findHeader_iff"], "note": ""},
{"property": "C14", "status": "proved", "theorems": ["Verif.findHeader_signed_field_stable", "Verif.findHeader_iff"], "note": ""},
{"property": "C15", "status": "partial", "theorems": ["Verif.sign_lookup", "Verif.sign_digest_agrees", "Verif.signed_image_accepted", "Verif.large_header_signature_lost", "Verif.custom_tlv_overflow"], "note": "All option combinations and custom fields, headers up to 65543 bytes, when the tool does not overflow its header buffer. Witnesses for both guards."},
{"property": "C16", "status": "proved", "theorems": ["Verif.integrity_iff", "Verif.integrity_total", "Verif.signedMsg_injective", "Verif.same_digest_same_image", "Verif.hash_loop_hangs"], "note": "For firmware size + block size < 2^32 (implied by the partition size check); hash_loop_hangs shows the loop does not terminate beyond."},
{"property": "C17", "status": "proved", "theorems": ["Verif.verified_sound", "Verif.verified_iff", "Verif.verified_digest_irrelevant", "Verif.missing_signature_null", "Verif.stale_signature_ok"], "note": "For verification of a freshly opened image (integrity, then authenticity), the sequence used before every update and boot. Findings: missing signature tag is a null dereference; a stale signature_ok is honoured."},
{"property": "C18", "status": "partial", "theorems": ["Verif.verified_sound", "Verif.verified_iff", "Verif.hybrid_digest_clobbered"], "note": "Proved for integrity-then-authenticity. In other call orders it is false: hybrid_digest_clobbered is a witness where authenticity without prior integrity checks the secondary signature against the wrong digest."},
{"property": "C19", "status": "partial", "theorems": ["Verif.rsaDecode_in_bounds", "Verif.rsaDecode_iff", "Verif.rsaCompare_iff", "Verif.rsaCompare_oob_iff", "Verif.rsaDecode_safe_partial", "Verif.rsaDecode_overread", "Verif.rsa_trailing_garbage_accepted", "Verif.rsa_canonical_accepted"], "note": "A successful decode is in bounds. The walk itself reads up to two bytes behind the buffer (witness); guarded theorem otherwise. Algorithm identifier and trailing bytes are not checked (witness)."},
{"property": "C20", "status": "partial", "theorems": ["Verif.makePatch_spec", "Verif.wbDiff_spec", "Verif.delta_roundtrip_partial", "Verif.delta_large_sector", "Verif.delta_offset_7f", "Verif.delta_offset_7f_emitted", "Verif.delta_output_longer"], "note": "The patch made by wb_diff (signing tool) applied in place over the base by wb_patch, sector by sector, yields the new image, for all images and all buffer, block and sector sizes allowed by DiffOK: sectors of at most 64 KiB, images below 0x7F0000 bytes, no two equal stretches of 64 KiB in the new image. Violations proved: with 128 KiB sectors the 16-bit match length wraps and half of the image is lost; block offsets 0x7F0000-0x7FFFFF are decoded as an escaped literal; matches extend behind the end of the new image."},
{"property": "C21", "status": "proved", "theorems": ["Verif.patch_output", "Verif.patch_block_independent"], "note": "For every patch, every base and every sequence of block sizes (at least BLOCK_HDR_SIZE = 6, smaller ones are refused by wb_patch) the produced bytes are those given by a separate definition of the patch format; so any two sequences yield the same bytes. Memory mapped patch (no EXT_FLASH cache)."},
{"property": "C22", "status": "partial", "theorems": ["Verif.delta_power_fail_safe_partial", "Verif.delta_rollback_power_fail_safe_partial", "Verif.delta_never_lost_partial", "Verif.tool_patch_partial", "Verif.delta_rollback_torn_header"], "note": "Installation and rollback of a delta update under any number of power failures at any flash operation end with the right image, bootable, in both directions. Guards: no word BOOT at the place the final erase looks at (partitions, new image, bytes of interrupted operations), images end before the trailer sector, versions nonzero; rollback also needs interrupted operations not to leave the image magic at the start of a partition. delta_rollback_torn_header shows that this last guard is needed. The patches of the tool are shown to meet the patch hypothesis."},
{"property": "C23", "status": "partial", "theorems": ["Verif.wbPatch_bounded", "Verif.wbPatch_oob_iff", "Verif.wbPatch_safe_partial", "Verif.patch_reads_outside_base", "Verif.patch_reads_behind_patch"], "note": "wb_patch terminates and never writes behind its output buffer, for all patches. It reads outside of the base or the patch exactly if the patch refers to the outside or ends inside of an escape sequence; there are no checks, so the property as stated is false (two witnesses)."},
{"property": "C24", "status": "partial", "theorems": ["Verif.delta_select_version", "Verif.delta_select_digest_partial", "Verif.delta_wrong_base_partial", "Verif.delta_version_zero", "Verif.delta_digest_not_compared", "Verif.delta_unlocked"], "note": "Versions are checked in both directions, digests if both images have a digest field of the configured length; a pending delta for the wrong base is refused and the installed image boots, across any number of power failures. Missing, with counterexamples: images of version 0 skip all checks (delta_version_zero), no digest field in BOOT skips the comparison (delta_digest_not_compared). delta_unlocked: malformed delta images leave the flash unlocked."},
{"property": "C25", "status": "proved", "theorems": ["Verif.counter_block", "Verif.counter_block_unique", "Verif.incCounter_val"], "note": "AES counter block: exact value modulo 2^128 and injectivity for block numbers below 2^32. The same keystream is reused when data at an address is rewritten: keystream_reuse."},
{"property": "C26", "status": "partial", "theorems": ["Verif.encrypted_flash_partial", "Verif.tool_encrypt_partial", "Verif.encrypted_swap_partial", "Verif.ram_decrypt_partial", "Verif.keystream_reuse", "Verif.ram_decrypt_loops", "Verif.encrypted_update_corrupts", "Verif.encWrite_drops_tail", "Verif.encWrite_short", "Verif.decRead_short", "Verif.enc_boundary", "Verif.encWrite_unaligned"], "note": "Round trip for any sequence of block-aligned writes to erased UPDATE bytes, erases, and reads that do not start and end inside one block; the other cases are refuted by witnesses."},
{"property": "C27", "status": "partial", "theorems": ["Verif.key_storage_partial", "Verif.erased_key_unusable", "Verif.stored_key_used", "Verif.setKey_power_loss"], "note": "Any sequence of set and erase calls; a power failure during a call loses the key and the BOOT state (witness). Not covered: NVM_FLASH_WRITEONCE, FLAGS_HOME, MMU builds."},
{"property": "C28", "status": "proved", "theorems": ["Verif.dual_candidate", "Verif.dual_candidate_addr", "Verif.testing_erased_before_check"], "note": "Choice of the partition for every flash content, with power failure. Finding: a partition on trial is erased before the other image was verified."},
{"property": "C29", "status": "partial", "theorems": ["Verif.ram_boot_authentic", "Verif.ramStart_spec", "Verif.ram_both_bad", "Verif.ram_addr_never_falls_back", "Verif.ram_addr_bricked", "Verif.ramboot_overflow"], "note": "Only authentic code is started, always; an image is booted if a good image not on trial exists (fixed partitions, RAM large enough). Refuted otherwise: endless loop with two unusable images; without fixed partitions the second image is never tried; RAM boot copies an unchecked size."},
{"property": "C30", "status": "partial", "theorems": ["Verif.hwStart_spec", "Verif.hw_decides", "Verif.hw_loops_forever", "Verif.hw_swap_forever"], "note": "A good image not on trial is enough to boot; the loop decides if the flash is not locked. Refuted with locked flash: endless loop with two unusable images; banks exchanged forever with two images of equal version on trial."},
{"property": "C31", "status": "partial", "theorems": ["Verif.disk_boot_authentic", "Verif.disk_decides_partial", "Verif.disk_window_partial", "Verif.disk_highest_first", "Verif.disk_fallback_partial", "Verif.disk_oversize_blocks_fallback", "Verif.disk_boot_hangs", "Verif.disk_boot_overflow", "Verif.disk_version_sign"], "note": "Proved: only authentic images are started; decision is reached if every read makes progress; the highest version is started; fallback after a failed check; window respected up to the header size. Violated by the code and proved with witnesses: an oversized header prevents the fallback, an image reaching the last sector of its partition makes the loader hang, the last 512-byte block may pass the window by the header size, versions above 2^31 compare as negative."},
{"property": "C32", "status": "partial", "theorems": ["Verif.gpt_confined_partial", "Verif.gpt_access_full", "Verif.gpt_access_min", "Verif.gpt_last_sector_lost", "Verif.gpt_escape", "Verif.gpt_whole_disk", "Verif.openPart_spec", "Verif.disk_number_4", "Verif.openParts_spec", "Verif.openParts_bounds", "Verif.gpt_stack_overflow", "Verif.gpt_open_exact", "Verif.gpt_open_bounds_partial", "Verif.disk_read_exact", "Verif.disk_write_exact", "Verif.ascii_eq_partial", "Verif.ascii_eq_oob", "Verif.find_partition_partial"], "note": "Confinement holds for offsets before the last sector of the partition. The code does not confine offsets at or after the last sector (gpt_escape), never gives access to the last sector, accepts disk number 4, overflows the stack for entries larger than 128 bytes, and reads past a 36-character name with byte order mark; all proved."},
{"property": "C33", "status": "partial", "theorems": ["Verif.xmalloc_spec", "Verif.xfree_spec", "Verif.heap_distinct", "Verif.heap_safe", "Verif.heap_reuse", "Verif.xfree_foreign", "Verif.pools_honest", "Verif.ecc256_pool_overflow", "Verif.ecc256_pool_overlap"], "note": "Proved over all histories of allocations and frees for every pool whose table is honest about array sizes, and all pools of xmalloc.c but one are. Refuted for the pool of ECC with SP math in C: the table entry of mp_points_1 is 1.5 times the array."},
{"property": "C34", "status": "partial", "theorems": ["Verif.store_refines_partial", "Verif.store_power_loss_partial", "Verif.store_format", "Verif.open_checked", "Verif.store_write_overshoot", "Verif.store_overshoot_witness", "Verif.store_overwrite_not_atomic", "Verif.store_torn_header", "Verif.store_lazy_recovery", "Verif.store_second_sector", "Verif.store_phantom", "Verif.store_h5_region", "Verif.vDelete_frees"], "note": "Proved for all geometries of whole objects per sector or whole sectors per object: every sequence of open, read, write and close has the results of a map from identifiers to byte strings, and after power loss at any flash operation of an open or write every existing object has its old or new content. Guards: valid identifiers, one writer per object, writes that do not cross a sector, and for power loss writes in the first sector of an object; always satisfied if objects do not leave a sector, apart from the first two. Refuted otherwise: writes crossing a sector store too many bytes, opening for writing empties the object at once, a torn header write loses all objects, recovery is lost if another object is written first, content of objects is taken for nodes after a crash. There is no remove function in the code."},
{"property": "C35", "status": "partial", "theorems": ["Verif.case_functions", "Verif.cTolower_lower", "Verif.memset_exact", "Verif.memcpy_exact", "Verif.memmove_exact_partial", "Verif.memmove_large", "Verif.memcmp_exact", "Verif.memchr_exact", "Verif.strlen_exact", "Verif.strcpy_exact", "Verif.strncpy_partial", "Verif.strncpy_no_padding", "Verif.strcat_exact", "Verif.strncat_partial", "Verif.strncat_zero", "Verif.strcmp_partial", "Verif.strcmp_prefix_equal", "Verif.strcmp_signed", "Verif.strncmp_exact", "Verif.strcasecmp_partial", "Verif.strcasecmp_overread", "Verif.strcasecmp_equates", "Verif.strcasecmp_order", "Verif.strncasecmp_partial", "Verif.strncasecmp_one_more"], "note": "Exact for memset, memcpy (both builds), memcmp, memchr, strlen, strcpy, strcat, strncmp, and memmove up to 2 GiB. strcmp (prefix reported equal, signed characters), strcasecmp (over-read, wrong equality and order), strncasecmp (one character too many), strncpy (no padding), strncat (meaning of n) deviate from the C standard; what they do and the deviations are proved."},
{"property": "C36", "status": "partial", "theorems": ["Verif.otp_num", "Verif.otp_accessors_partial", "Verif.otp_cache_shared", "Verif.otp_same_slot", "Verif.otp_odd_overflow", "Verif.otp_size_unchecked", "Verif.otp_negative_overflow"], "note": "Proved for all contents and slot numbers if the key size is even and the address computation does not overflow. Refuted for odd key sizes (Ed448: one byte past the cache is written) and for extreme negative slot numbers (signed overflow)."},
{"property": "C37", "status": "partial", "theorems": ["Verif.uart_flash_history", "Verif.uart_version", "Verif.uart_out_of_range", "Verif.uart_data_as_command", "Verif.uart_range_overflow"], "note": "Proved for all sequences of calls within the remote memory and all interleavings of client and server over a lossless line. Refuted for writes out of range: their data are executed as commands, and the range check overflows. Missing: lossy lines (the protocol has no checksum) and timeouts that expire although an answer is under way."},
{"property": "C38", "status": "partial", "theorems": ["Verif.elf_load", "Verif.elf_load_refuses", "Verif.elf_load_overrun", "Verif.elf_load_unmapped", "Verif.elf_load_no_bounds", "Verif.scattered_gate", "Verif.scattered_iff", "Verif.scattered_store_check", "Verif.scattered_boot_gate", "Verif.scattered_boots", "Verif.scattered_short_tail", "Verif.scattered_headers_twice", "Verif.elfPh_fields"], "note": "Loading (elf32 and elf64, any number of segments): each mapped segment holds the file contents and then zeros, nothing else changes, provided segments overlap neither the file nor each other. Scattered images: acceptance iff the segments in memory have the file's contents (up to an explicit hash collision), store followed by check succeeds, the boot gate. Deviations proved: file_size > mem_size overruns the segment, a failed mapping is ignored, no bounds on offsets, short tails and headers inside the first segment are refused. Not modelled: byte-swapped files, pointer wrap-around, erase granularity of the flash."},
{"property": "C39", "status": "partial", "theorems": ["Verif.self_update_gate", "Verif.self_update_gate_image", "Verif.self_update_iff", "Verif.self_update_writes_partial", "Verif.self_update_confined", "Verif.self_update_overruns", "Verif.self_update_power_loss", "Verif.self_update_erases_unverified"], "note": "The gate is proved for all UPDATE contents and interruption points (in the real image format). The written bytes are exactly the firmware, but up to FLASHBUFFER_SIZE - 1 following bytes are copied as well, and only if the image fits in the bootloader area, which the code does not check (witness)."},
{"property": "C40", "status": "partial", "theorems": ["Verif.fdt_getprop_spec", "Verif.fdt_setprop_spec", "Verif.fdt_setprop_reads_partial", "Verif.fdt_traversal_partial", "Verif.fdt_endless", "Verif.fdt_endless_witness", "Verif.fdt_name_unchecked", "Verif.fdt_compatible_endless", "Verif.fdt_length_overflow"], "note": "Setting and reading proved for every well-formed version 17 blob (any tree, any property, any value that fits or not). Traversal proved to end within bounds for every blob, well-formed or not, in which no property has length 0xFFFFFFF4, up to signed overflow. Outside of these limits the code violates the property, proved in general or with witnesses: endless loop, signed overflow, names read out of bounds, endless search for compatible."},
{"property": "C41", "status": "partial", "theorems": ["Verif.trigger_effect", "Verif.trigger_effect_exact_partial", "Verif.trigger_ineffective", "Verif.success_effect_partial", "Verif.success_ineffective"], "note": "Full for page-erasing flash (trigger); confirm needs the magic bytes present or erased."},
{"property": "C42", "status": "partial", "theorems": ["Verif.writenum_hex", "Verif.writenum_dec_partial", "Verif.writenum_dec_64", "Verif.writenum_dec_overflow", "Verif.printf_partial", "Verif.printf_unsigned", "Verif.printf_wide", "Verif.printf_trailing_percent", "Verif.printf_int_min", "Verif.printf_pad_overflow", "Verif.IsNumeral.unique"], "note": "Hexadecimal output is right for all numbers and widths. Decimal output is right unless the text is longer than the buffer: with 32-bit long, numbers of ten digits overflow the buffer (proved for all such numbers). Whole formats: printf_partial. Deviations proved: unsigned numbers from 2^31 printed negative, two-digit widths misread, format ending in % read behind its end, INT_MIN, padding overflow."},
{"property": "C43", "status": "proved", "theorems": ["Verif.ram_power_safe", "Verif.hw_power_safe"], "note": "Any number of interrupted boots, then an uninterrupted one."},
{"property": "C44", "status": "partial", "theorems": ["Verif.ata_read_exact", "Verif.ata_write_exact", "Verif.ata_history_partial", "Verif.ata_stale_cache", "Verif.ata_write_wraps", "Verif.ata_error_ignored", "Verif.ata_long_read"], "note": "Proved for any sequence of calls in which no write both starts and ends on a sector boundary, addresses below 8 GiB for writes, writes below 128 KiB and reads up to 4 MiB, no bad sectors. Outside of these limits the code violates the property, proved with witnesses: stale cache, 28-bit write command, errors not reported, transfer length cut to 22 bits."},
{"property": "C45", "status": "partial", "theorems": ["Verif.direct_update_never_bricks", "Verif.direct_update_installs", "Verif.direct_update_stable", "Verif.direct_update_refuses", "Verif.DirectDemo.direct_flag_bricks"], "note": "Full for requests as made by wolfBoot_update_trigger (first sector flag NEW). A first flag other than NEW, meaningless in this build, skips all checks: direct_flag_bricks is a witness. Image fits in front of the trailer sector. direct_update_installs assumes that no other verifying content of the same or a higher version exists. Not covered: EXT_ENCRYPTED, ELF scattered images."},
{"property": "C46", "status": "partial", "theorems": ["Verif.chip_block_exact", "Verif.chip_byte_exact", "Verif.chip_second_byte_refused", "Verif.chip_write_refines", "Verif.byte_write_exact", "Verif.word_write_iff", "Verif.dw_write_iff", "Verif.g0_fast_path_elsewhere", "Verif.sam_write_iff", "Verif.kin_write_iff", "Verif.kin_tail_wrong", "Verif.kin_unaligned_skips", "Verif.wide_write_iff", "Verif.h7_write_exact", "Verif.h7_flags_write", "Verif.h7_flags_refused", "Verif.f1_write_exact", "Verif.lpc_write_exact", "Verif.hif_write_exact", "Verif.hif_write_bad", "Verif.psoc_first_row", "Verif.psoc_write_iff", "Verif.rx_write_iff", "Verif.ti_write_exact", "Verif.ti_smash", "Verif.ti_long_unaligned", "Verif.mcx_write_exact", "Verif.mcx_smash", "Verif.mcx_blank_skipped"], "note": "Exact for all requests: STM32F4/F7, H7 (outside the flags pages), F1, LPC. For the other drivers the exact set of requests that are carried out is proved, the rest is refused, misplaced, or reads or writes out of bounds (theorems per driver). PSoC 6 writes only the first row; TMS570 and MCXW overflow a stack buffer. Not modelled: controller registers, timeouts, drivers of chips with external flash only."},
{"property": "C47", "status": "partial", "theorems": ["Verif.chip_erase_refines", "Verif.stm_erase_iff", "Verif.stm_erase_aligned", "Verif.stm_erase_short", "Verif.le_erase_iff", "Verif.le_erase_aligned", "Verif.mask_erase_exact", "Verif.count_erase_aligned", "Verif.do_erase_aligned", "Verif.do_erase_zero", "Verif.mcxw_erase_first", "Verif.mcxw_erase_iff", "Verif.sam21_erase_first", "Verif.sam21_erase_stuck", "Verif.row_erase_iff", "Verif.f1_erase", "Verif.lpc_erase_exact", "Verif.l4_erase_bank", "Verif.l4_erase_across", "Verif.tab_erase_exact", "Verif.f4_erase_exact", "Verif.f7_wrong_sector", "Verif.h7_erase_bank1", "Verif.h7_erase_bank2", "Verif.h7_example_layout"], "note": "Exact for whole pages on most drivers, with the exact condition for other requests. Refuted: MCXW and SAM R21 erase only the first page, L4 fails across banks, H7 erases one sector of the second bank only, F7 has a wrong sector table, STM32 drivers miss the last page if len mod page is 1, the example layout of the H7 is not aligned to sectors."},
{"property": "C48", "status": "partial", "theorems": ["Verif.spi_page_effect", "Verif.spi_page_exact_partial", "Verif.spi_page_overrun", "Verif.spi_state_destroys_magic", "Verif.spi_page_refused", "Verif.spi_sb_exact", "Verif.spi_sb_detects", "Verif.spi_erase_exact_partial", "Verif.spi_erase_misses", "Verif.spi_erase_zero_endless", "Verif.spi_address_folded", "Verif.qspi_exact_partial", "Verif.qspi_small_exact", "Verif.qspi_overrun", "Verif.qspi_page_skipped", "Verif.spi_refines_partial", "Verif.qspi_result"], "note": "Page writes of spi_flash.c are exact only up to a page end (otherwise they over-read and over-program, proved for all requests); QSPI exact for whole pages or inside a page; erase exact for aligned starts. Violations are proved."},
{"property": "C49", "status": "partial", "theorems": ["Verif.ext_start_eq", "Verif.ext_trigger_eq", "Verif.ext_update_power_fail_safe_partial", "Verif.ext_state_big_endian", "Verif.ext_success_big_endian"], "note": "Equality of the procedures for little-endian CPUs; on big-endian CPUs the property is violated (proved)."},
{"property": "C50", "status": "partial", "theorems": ["Verif.pci_enum_partial", "Verif.pci_bus_numbers_partial", "Verif.pci_bar_start", "Verif.pci_bar_written", "Verif.pci_bars_frame", "Verif.pciBridge_frame", "Verif.pci_put8_ok", "Verif.pci_get8_ok", "Verif.pci_put16_ok", "Verif.pci_get16_ok", "Verif.pci_cf8_inj", "Verif.pci_cf8_16", "Verif.pci_bar_overlap", "Verif.pci_bar_2g", "Verif.pci_bar_4g", "Verif.pci_bar_not_restored", "Verif.pci_failed_bridge", "Verif.pci_bus_wrap", "Verif.pci_io_window_unset", "Verif.pci_mmio_reg", "Verif.pci_bridge_enabled", "Verif.pci_single_function", "Verif.pci_multi_function"], "note": "Layout, alignment, bridge windows and bus numbers for every tree, given that BARs end inside their range and there are fewer than 256 buses; the code checks neither, counterexamples are proved."},
{"property": "C51", "status": "partial", "theorems": ["Verif.identity_ok", "Verif.identity_4g_partial", "Verif.identity_refuse", "Verif.mapPage_ok", "Verif.mapMemory_ok", "Verif.mapMemory_exact_partial", "Verif.mapMemory_kept", "Verif.mapMemory_outside", "Verif.mapMemory_some", "Verif.stage2_map_partial", "Verif.identity_alias", "Verif.elf_alias", "Verif.mapMemory_silent", "Verif.mapMemory_misaligned", "Verif.mapMemory_wrap", "Verif.mapMemory_endless", "Verif.identity_cut", "Verif.pool_last"], "note": "Exact translation after both functions for every address; the identity mapping also maps 2 MiB above 4 GiB to 0, and mapping succeeds silently for regions already mapped or misaligned: proved as findings."},
{"property": "C52", "status": "partial", "theorems": ["Verif.HandOff.hob_iterate_visits", "Verif.HandOff.hob_find_first", "Verif.HandOff.top_address", "Verif.HandOff.mb2_info", "Verif.HandOff.mb2_refused", "Verif.HandOff.mb2_stays_in_buffer", "Verif.HandOff.mb2_find_tag", "Verif.HandOff.mb2_find_header", "Verif.HandOff.mb2_find_header_none", "Verif.HandOff.linux_params_partial", "Verif.HandOff.e820_overflow", "Verif.HandOff.e820_count_wraps", "Verif.HandOff.linux_loads_unverified", "Verif.HandOff.hob_zero_length_endless", "Verif.HandOff.mb2_zero_tag_endless", "Verif.HandOff.mb2_no_end_tag", "Verif.HandOff.mb2_short_request_32", "Verif.HandOff.mb2_find_overreads", "Verif.HandOff.mb2_find_any_word"], "note": "Complete for Multiboot2; the Linux parameters need at most 128 resources and a header whose size is right, otherwise they are wrong (proved as findings)."},
{"property": "C53", "status": "partial", "theorems": ["Verif.Stage1.stage1_verified", "Verif.Stage1.stage1_runs", "Verif.Stage1.stage1_image_partial", "Verif.Stage1.layout_64", "Verif.Stage1.layout_32", "Verif.Stage1.load_keeps_stage1", "Verif.Stage1.overlaps_iff", "Verif.Stage1.data_initialised", "Verif.Stage1.params_round_trip", "Verif.Stage1.policy_size_le", "Verif.Stage1.stage1_panic_returns", "Verif.Stage1.stage1_tables_over_image", "Verif.Stage1.check_wraps", "Verif.Stage1.layout_underflow", "Verif.Stage1.policy_size_cut"], "note": "The decision is complete provided that panic does not return; that the verified image is the one started needs a placement of which the code checks only a part (both proved necessary as findings)."},
{"property": "C54", "status": "proved", "theorems": ["Verif.Stage1.mp_setup", "Verif.Stage1.mp_checksum"], "note": "For every initial table."},
{"property": "C55", "status": "partial", "theorems": ["Verif.Armor.sanity_skips", "Verif.Armor.unconfirmed_skips", "Verif.Armor.sanity_pass", "Verif.Armor.canary_one_skip", "Verif.Armor.verify_skips", "Verif.Armor.verify_skips_both", "Verif.Armor.verify_pass", "Verif.Armor.hash_skips", "Verif.Armor.hash_pass", "Verif.Armor.version_skips", "Verif.Armor.version_iff", "Verif.Armor.version_signed", "Verif.Armor.version_two_skips", "Verif.Armor.mask_iff", "Verif.Armor.mask_skips_partial", "Verif.Armor.mask_one_skip", "Verif.Armor.rsa_sound_partial", "Verif.Armor.rsa_one_skip"], "note": "Bounds on the number of skipped instructions for all executions; partial: one skipped instruction voids the checks of canaries, key permission and RSA length, and versions are compared as signed numbers (witnesses)."},
{"property": "C56", "status": "partial", "theorems": ["Verif.SigWrap.confirm_sound", "Verif.SigWrap.ed_iff", "Verif.SigWrap.eccSoft_iff", "Verif.SigWrap.eccHsm_iff", "Verif.SigWrap.eccHsmId_iff", "Verif.SigWrap.eccDev_iff", "Verif.SigWrap.rsaSoft_iff", "Verif.SigWrap.rsaHsm_iff", "Verif.SigWrap.rsaHsmId_iff", "Verif.SigWrap.rsaDev_iff", "Verif.SigWrap.hbs_iff", "Verif.SigWrap.mlDsa_iff", "Verif.SigWrap.mlDsaHsmId_iff", "Verif.SigWrap.tpm_iff", "Verif.SigWrap.ed_uninit", "Verif.SigWrap.proper_run", "Verif.SigWrap.mlDsaHsmId_improper", "Verif.SigWrap.ecc_crash_iff", "Verif.SigWrap.fixed_no_crash", "Verif.SigWrap.freed", "Verif.SigWrap.ed_never_freed", "Verif.SigWrap.hbs_leak_iff", "Verif.SigWrap.rsaHsm_leak_iff", "Verif.SigWrap.rsaDev_armored", "Verif.SigWrap.hsmRS_eq", "Verif.SigWrap.hsmRS_right_iff", "Verif.SigWrap.hsm_refuses_valid", "Verif.SigWrap.boot_gate_library"], "note": "Soundness for all builds; partial: valid ECDSA signatures with leading zero bytes are refused on the HSM, RSA on Renesas devices is never confirmed in armored builds, ML-DSA with an HSM key id uses a context whose creation failed, some contexts are not freed, ECDSA reads by the size of the key (theorems)."},
{"property": "C57", "status": "partial", "theorems": ["Verif.Tpm.unseal_sound", "Verif.Tpm.unseal_complete", "Verif.Tpm.unseal_bound", "Verif.Tpm.unseal_uncovered", "Verif.Tpm.unseal_not_bound", "Verif.Tpm.unseal_overflow", "Verif.Tpm.unseal_short_policy", "Verif.Tpm.unseal_refused", "Verif.Tpm.pcrSel_eq", "Verif.Tpm.covered_all", "Verif.Tpm.covered_misses", "Verif.Tpm.slotOf_iff", "Verif.Tpm.loadPubkey_ok", "Verif.Tpm.hintKey_unique", "Verif.Tpm.storeBlob_ok", "Verif.Tpm.readBlob_ok", "Verif.Tpm.layout_unique", "Verif.Tpm.readBlob_overflow", "Verif.Tpm.sealBlob_ok", "Verif.Tpm.sealAuth_ok", "Verif.Tpm.seal_unseal", "Verif.Tpm.seal_unseal_only", "Verif.Tpm.unseal_frame", "Verif.Tpm.unseal_clean", "Verif.Tpm.seal_clean", "Verif.Tpm.unlock_replaces", "Verif.Tpm.unlock_sound", "Verif.Tpm.wiped_keeps", "Verif.Tpm.active_iff", "Verif.Tpm.active_rc", "Verif.Tpm.build_ok", "Verif.Tpm.build_unseal", "Verif.Tpm.exponent_right", "Verif.Tpm.exponent_short"], "note": "Release exactly for signed states, round trip, binding to the covered PCRs, format of the index and closing of handles are proved for all states and failing commands of an ideal TPM. Violated by the code (proved): masks of more than six PCRs, policies below four bytes, secrets larger than the caller's array, sizes in the index, loss of the secret after any failure."},
{"property": "C58", "status": "partial", "theorems": ["Verif.Lock.decode_words", "Verif.Lock.unlockWith_sound", "Verif.Lock.lockIt_ok", "Verif.Lock.unlockIt_ok", "Verif.Lock.unlockWith_wrong", "Verif.Lock.unlockWith_moves", "Verif.Lock.unlockWith_overread", "Verif.Lock.pw_32_overread", "Verif.Lock.sec6_unchecked", "Verif.Lock.sec5_panics", "Verif.Lock.yields_unique", "Verif.Lock.secret_found", "Verif.Lock.secret_cases", "Verif.Lock.boot_keyed", "Verif.Lock.boots_keyed", "Verif.Lock.boot_opens", "Verif.Lock.boot_first", "Verif.Lock.boots_recover", "Verif.Lock.boot_lost", "Verif.Lock.boots_lost", "Verif.Lock.handle_loses", "Verif.Lock.ff_yields_nothing", "Verif.Lock.boot_blocked", "Verif.Lock.pw_junk", "Verif.Lock.master_opens", "Verif.Lock.disable_ok", "Verif.Lock.disable_wrong"], "note": "Proved: return value 0 implies a protected, unlocked drive with the secret as password; no lock-out over any sequence of failing boots, recovery by the next quiet boot. Violated (proved): a failing read with a handle code destroys the secret, an interrupted sealing blocks all later boots, configured passwords are not terminated, level High."},
{"property": "C59", "status": "partial", "theorems": ["Verif.Measure.hashLoop_eq", "Verif.Measure.selfHash_eq", "Verif.Measure.hashLoop_endless", "Verif.Measure.selfHash_endless", "Verif.Measure.extend_run", "Verif.Measure.extend_ok", "Verif.Measure.extend_quiet", "Verif.Measure.extend_cases", "Verif.Measure.extend_overread", "Verif.Measure.extend_sim", "Verif.Measure.tpmInit_ok", "Verif.Measure.tpmInit_quiet", "Verif.Measure.tpmInit_cases", "Verif.Measure.main_measures", "Verif.Measure.main_goes_on", "Verif.Measure.main_unmeasured", "Verif.Measure.main_unmeasured_first", "Verif.Measure.main_ignores_update", "Verif.Measure.measured_is_old", "Verif.Measure.measured_is_booted_partial", "Verif.Measure.replay_inj", "Verif.Measure.replay_determines", "Verif.Measure.register_determines_partition", "Verif.Measure.register_of_partition", "Verif.Measure.measure_sees_flags", "Verif.Measure.deinit_state", "Verif.Measure.stage1_measured", "Verif.Measure.stage1_all_measured", "Verif.Measure.stage1_self_unmeasured", "Verif.Measure.stage1_unverified", "Verif.Measure.imageMeasure_null", "Verif.Measure.stage1_register_determines", "Verif.Measure.checkRot_sound", "Verif.Measure.checkRot_complete", "Verif.Measure.checkRot_other_key", "Verif.Measure.deinit_changes", "Verif.Measure.deinit_sealing_only", "Verif.Measure.tpmInit_keys"], "note": "Proved: what is measured, that registers determine the log, the partition and the second stage, soundness and completeness of the root of trust. Violated (proved): the image measured is not the one booted when an update is installed; a failing TPM is ignored; areas near 4 GiB are hashed for ever; without STAGE1_AUTH the header digest is measured unverified."},
{"property": "C60", "status": "partial", "theorems": ["Verif.Spi.simpleXfer_good", "Verif.Spi.simpleXfer_driver", "Verif.Spi.simpleXfer_releases", "Verif.Spi.word_byte", "Verif.Spi.espiLoop_exch", "Verif.Spi.espiXfer_driver", "Verif.Spi.espiXfer_releases", "Verif.Spi.inv_step", "Verif.Spi.dspi_never_lost", "Verif.Spi.dspi_ends", "Verif.Spi.dspi_driver", "Verif.Spi.dspi_exists", "Verif.Spi.dspi_keeps", "Verif.Spi.waitLoop_ready", "Verif.Spi.waitLoop_late", "Verif.Spi.ioWait_ok", "Verif.Spi.ioWait_late", "Verif.Spi.header_spec", "Verif.Spi.io_read", "Verif.Spi.io_write", "Verif.Spi.io_late", "Verif.Spi.io_single_try", "Verif.Spi.io_late_stuck", "Verif.Spi.stuck_header_is_data", "Verif.Spi.io_released", "Verif.Spi.io_overrun", "Verif.Spi.zero_write_is_read", "Verif.Spi.io_not_initialised", "Verif.Spi.io_nowait_write", "Verif.Spi.io_nowait_read", "Verif.Spi.ioBuf_ok", "Verif.Spi.ioBuf_late", "Verif.Spi.ioBuf_short"], "note": "Proved for all drivers: bytes in order, none lost in any interleaving, termination; header, reading, writing, failure after too many wait states; release of the bus for drivers whose empty transfer releases it. Violated (proved): the driver of the LS1028A does not release the TPM after a failure."},
{"property": "C61", "status": "partial", "theorems": ["Verif.FdtOK.nodes", "Verif.FdtOK.findNodeOffset", "Verif.FdtOK.findPropOffset", "Verif.FdtOK.getpropAt", "Verif.Fit.findConf_spec", "Verif.Fit.confImages_spec", "Verif.Fit.byType_spec", "Verif.Fit.findImages_spec", "Verif.Fit.propAddr_spec", "Verif.Fit.loadImage_missing", "Verif.Fit.loadImage_nodata", "Verif.Fit.loadImage_spec", "Verif.Fit.bootFit_loads_partial", "Verif.Fit.chosen_selected_partial", "Verif.Fit.bootFit_null", "Verif.Fit.bootFit_null_alone", "Verif.Fit.loadImage_overlap", "Verif.Fit.loadImage_entry_ignored", "Verif.Fit.bootFit_shadowed", "Verif.Fit.bootFit_overwritten", "Verif.Fit.bootFit_other", "Verif.Fit.bootFit_nokernel", "Verif.Fit.bootDts_bad"], "note": "Proved for all trees: which images are found, what is loaded, what is booted when the ranges are apart. Guards: names unique in the tree, load addresses apart from the tree. Violated (proved): an image with the name of the configuration, a load address inside the tree, a kernel without data is booted at NULL."},
{"property": "C62", "status": "partial", "theorems": ["Verif.Mpu.init_set", "Verif.Mpu.decides_iff", "Verif.Mpu.data_access", "Verif.Mpu.exec_iff", "Verif.Mpu.exec_text", "Verif.Mpu.off_open", "Verif.Mpu.exec_writable", "Verif.Mpu.big_unprotected", "Verif.Mpu.ext_shifted", "Verif.Mpu.text_cut", "Verif.Mpu.exec_beyond", "Verif.Mpu.base_valid", "Verif.Mpu.stale_region", "Verif.Mpu.v8_faults"], "note": "Proved for all addresses and layouts: what can be read, written and executed after mpu_init and after mpu_off. Guards: at most 64 KiB of text at a multiple of the size of its region, unused regions disabled. Violated (proved): executable text is writable; unprotected above 64 KiB; what follows the text is executable; the region of external peripherals is shifted; ARMv8-M."},
{"property": "C63", "status": "partial", "theorems": ["Verif.StartUp.copyWords_spec", "Verif.StartUp.zeroWords_spec", "Verif.StartUp.startArm_ok", "Verif.StartUp.startA64_ok", "Verif.StartUp.startA32_ok", "Verif.StartUp.zeroWords_overrun", "Verif.StartUp.startA64_lost", "Verif.StartUp.bootV7_reset", "Verif.StartUp.bootV7_novtor", "Verif.StartUp.bootV8_entry", "Verif.StartUp.bootV8_masked", "Verif.StartUp.bootV8_secure_table", "Verif.StartUp.bootV7_unaligned", "Verif.StartUp.reset_traps", "Verif.StartUp.boot_traps", "Verif.StartUp.flushLoop_spec", "Verif.StartUp.flushCache_exact", "Verif.StartUp.flushCache_endless", "Verif.StartUp.bootFlush_clean", "Verif.StartUp.bootFlush_stale"], "note": "Proved: sections are initialised exactly on all processors; ARMv7-M hands over as after reset; flush_cache flushes exactly the lines of its range. Violated (proved): interrupts masked on ARMv8-M, secure vector table, mtvec on RISC-V, images above 32 KiB on PowerPC."},
{"property": "C64", "status": "partial", "theorems": ["Verif.Ahci.prepared_found", "Verif.Ahci.prepared_out", "Verif.Ahci.decode_read", "Verif.Ahci.decode_write", "Verif.Ahci.read_refines", "Verif.Ahci.write_refines", "Verif.Ahci.findSlot_first", "Verif.Ahci.findSlot_full", "Verif.Ahci.exec_ends", "Verif.Ahci.read_ok", "Verif.Ahci.write_ok", "Verif.Ahci.completeAsync_zero", "Verif.Ahci.hang_after_error", "Verif.Ahci.read_bad", "Verif.Ahci.read_async", "Verif.Ahci.read_odd", "Verif.Ahci.write_far", "Verif.AhciPort.stop_spec", "Verif.AhciPort.enable_events", "Verif.AhciPort.enable_addr", "Verif.AhciPort.enable_disk", "Verif.AhciPort.disable_quiet", "Verif.AhciPort.areas_apart", "Verif.AhciPort.areas_aligned", "Verif.AhciPort.port_placed", "Verif.AhciPort.drive_numbers", "Verif.AhciPort.drive_check", "Verif.AhciPort.cap_lost", "Verif.AhciPort.never_spun", "Verif.AhciPort.start_no_link", "Verif.AhciPort.start_together", "Verif.AhciPort.fre_race", "Verif.AhciPort.drive_four", "Verif.Ahci.full_fails", "Verif.Ahci.exec_busy", "Verif.Ahci.exec_async", "Verif.Ahci.completeAsync_frees"], "note": "Proved for all memories, sectors, counts and schedules of the controller: transfers are executed as asked and stay within the buffer; addresses change only while a port is quiet; no port is active after sata_disable. Guards on sector, count and buffer as stated. Violated (proved): errors are reported as success and block the port; reads during an asynchronous command; writes beyond 2^24 sectors; odd buffers; drive 4."},
{"property": "C65", "status": "partial", "theorems": ["Verif.Tz.l5_ns", "Verif.Tz.l5_callable", "Verif.Tz.l5_sram", "Verif.Tz.l5_reach", "Verif.Tz.l5_isolated", "Verif.Tz.u5_sram", "Verif.Tz.h5_ns", "Verif.Tz.h5_callable", "Verif.Tz.h5_sram", "Verif.Tz.h5_isolated", "Verif.Tz.h5_app", "Verif.Tz.rp_ns", "Verif.Tz.rp_callable", "Verif.Tz.rp_sram", "Verif.Tz.rp_isolated", "Verif.Tz.random_exact", "Verif.Tz.l5_nsc_beyond", "Verif.Tz.u5_no_ram", "Verif.Tz.h5_ram_callable", "Verif.Tz.rp_all_callable", "Verif.Tz.random_overwrites"], "note": "Proved for all addresses: what is non-secure and callable, and that no non-secure address leads to memory of wolfBoot on STM32L5, U5, H5 and RP2350. Violated (proved): callable areas are larger than the veneers; no RAM for the application on STM32U5; wcs_get_random writes anywhere. Security of single peripherals is not modelled."},
{"property": "C66", "status": "partial", "theorems": ["Verif.FlashReg.g0_exact", "Verif.FlashReg.wb_exact", "Verif.FlashReg.f4_exact", "Verif.FlashReg.l5_exact", "Verif.FlashReg.u5_exact", "Verif.FlashReg.h5_step_exact", "Verif.FlashReg.h5_erase", "Verif.FlashReg.h5_exact", "Verif.FlashReg.h7_bank1", "Verif.FlashReg.h7_bank2", "Verif.FlashReg.claim_bits", "Verif.FlashReg.release_single", "Verif.FlashReg.release_dual", "Verif.FlashReg.h5_sticky", "Verif.FlashReg.h5_update_then_boot", "Verif.FlashReg.h5_fork_erases_itself", "Verif.FlashReg.l5_out_of_range", "Verif.FlashReg.l5_single_bank", "Verif.FlashReg.u5_sector", "Verif.FlashReg.h7_never_waits", "Verif.FlashReg.h7_two_sectors", "Verif.FlashReg.h7_interrupts", "Verif.FlashReg.claim_requests", "Verif.FlashReg.claim_misses", "Verif.FlashReg.l5_claim_erases_wolfboot", "Verif.FlashReg.left_claimed", "Verif.FlashReg.nothing_left", "Verif.FlashReg.h5_leaves_partition", "Verif.FlashReg.claim_negative"], "note": "Exact requests proved for STM32G0, C0, WB, F4, F7, L5, U5, H7 for all ranges and register contents, for STM32H5 until the second bank was used. Violated (proved): STM32H5 bank selection, fork_bootloader, STM32L5 out of range and single bank, STM32H7 waiting, erase in hal_tz_claim_nonsecure_area, release in a single-bank layout."},
{"property": "C67", "status": "partial", "theorems": ["Verif.Nvu.update_power_fail_safe_partial", "Verif.Nvu.rollback_power_fail_safe_partial", "Verif.Nvu.update_any_interruption_partial", "Verif.Nvu.start_rel", "Verif.Nvu.updated_of", "Verif.Nvu.Demo.update_power_fail_unsafe_word"], "note": "Proved for all geometries, images and sequences of power failures by simulation of the model of C01. Missing: the word BOOT must not be at the place the final phase probes (witness); the erase of a sector of the flags of UPDATE and the write of the unit with the magic are taken as not torn; the flash is internal."},
{"property": "C68", "status": "partial", "theorems": ["Verif.Fho.update_power_fail_safe_partial", "Verif.Fho.rollback_power_fail_safe_partial", "Verif.Fho.update_then_rollback", "Verif.Fho.trigger_pending", "Verif.Fho.start_rel", "Verif.Fho.updated_of", "Verif.Fho.Demo.update_record_lost", "Verif.Fho.Demo.update_new_image_lost"], "note": "Proved for all geometries, images and sequences of power failures that leave a record of the installation, by simulation of the model of C01. Without the guard the code violates it (two witnesses). Missing: the word BOOT must not be at the place the final phase probes."},
{"property": "C69", "status": "partial", "theorems": ["Verif.EncUp.update_encrypted_power_fail_safe_partial", "Verif.EncUp.rollback_encrypted_power_fail_safe_partial", "Verif.EncUp.update_encrypted_any_interruption_partial", "Verif.EncUp.start_mid", "Verif.EncUp.copy_view", "Verif.EncUp.set_key_effect", "Verif.EncUp.set_key_power_fail", "Verif.EncUp.success_erases_secret_partial", "Verif.EncUp.confirm_encrypted_power_fail_partial", "Verif.EncUp.wrong_secret_harmless", "Verif.EncUp.update_encrypted_bricks", "Verif.EncUp.update_encrypted_lost", "Verif.EncUp.set_key_forgets_testing", "Verif.EncUp.load_iff", "Verif.EncUp.brick_sector"], "note": "Proved for all geometries, key streams, secrets, images that end before the last two sectors, and sequences of power failures. For longer images the code violates it (two witnesses). Missing: torn writes that complete a magic word before the bytes it protects; an interrupted erase of the trailer sector of UPDATE is taken as not begun."},
{"property": "C70", "status": "partial", "theorems": ["Verif.DeltaTool.tool_delta_update_partial", "Verif.DeltaTool.tool_delta_rollback_partial", "Verif.DeltaTool.tool_delta_never_lost_partial", "Verif.DeltaTool.tool_delta_layout", "Verif.DeltaTool.Job.deltaImage", "Verif.DeltaTool.good_of", "Verif.DeltaTool.tool_delta_hybrid_refused", "Verif.DeltaTool.tool_delta_input"], "note": "Proved for all images, options and power failures under the guards of C22 and of the encoder; with --hybrid the delta image is always refused (proved). Missing: torn operations that produce a magic word, images that hold the trailer magic at one offset, files the encoder cannot describe."},
{"property": "C71", "status": "partial", "theorems": ["Verif.Emg.emergency_installs_partial", "Verif.Emg.emergency_never_stuck_partial", "Verif.Emg.emergency_power_fail_safe_partial", "Verif.Nvu.emergency_power_fail_safe_partial", "Verif.EncUp.boot_gate", "Verif.Fho.boot_gate", "Verif.Nvu.boot_gate", "Verif.EncUp.boot_gate_image", "Verif.Fho.boot_gate_image", "Verif.Nvu.boot_gate_image", "Verif.Nvu.trigger_pending", "Verif.Nvu.trigger_keeps_flags", "Verif.Emg.no_header_panics", "Verif.Emg.emergency_power_fail_brick", "Verif.Nvu.emergency_leftover_flags"], "note": "Proved for all images, versions and power failures if the header of the broken image is readable; without it a power failure bricks the device (witness). Missing: torn operations that produce a magic word, images holding the trailer magic at one offset, partly installed images that verify by accident, the uninitialised byte of C12."},
{"property": "C72", "status": "proved", "theorems": ["Verif.KeyTool.parse_id_list", "Verif.KeyTool.args_text", "Verif.KeyTool.keygen_writes", "Verif.KeyTool.key_tool_sound", "Verif.KeyTool.key_tool_iff", "Verif.KeyTool.no_local_keys", "Verif.KeyTool.get_spec", "Verif.KeyTool.get_outside", "Verif.KeyTool.id_name_means_bootloader", "Verif.KeyTool.id_wraps", "Verif.KeyTool.dir_skips_option", "Verif.KeyTool.import_spec", "Verif.KeyTool.import_ecc521_empty", "Verif.KeyTool.reimport_iff", "Verif.KeyTool.der_type_iff", "Verif.KeyTool.programs7", "Verif.KeyTool.programs5", "Verif.KeyTool.primer_ok", "Verif.KeyTool.file_ok", "Verif.KeyTool.otp_same_keys", "Verif.KeyTool.too_many_keys", "Verif.KeyTool.primer_too_many", "Verif.KeyTool.odd_slot_refused", "Verif.KeyTool.file_shifted", "Verif.KeyTool.args_export", "Verif.ToolTables.key_types", "Verif.ToolTables.key_sizes", "Verif.ToolTables.der_size", "Verif.ToolTables.write7_cut", "Verif.ToolTables.write7_last", "Verif.ToolTables.write7_odd", "Verif.ToolTables.write5_short", "Verif.ToolTables.write5_last"], "note": "Proved under the conditions in the statement. Findings: see DESIGN.md section 5."},
{"property": "C73", "status": "proved", "theorems": ["Verif.SignSteps.three_steps", "Verif.SignSteps.hdr_same_iff", "Verif.SignSteps.accepted_iff", "Verif.SignSteps.manual_accepted_iff", "Verif.SignSteps.auto_never_works", "Verif.SignSteps.rsa3072_manual_overflow", "Verif.SignSteps.rsa_manual_ignores_env", "Verif.SignSteps.ecc_bad_key_not_refused", "Verif.SignSteps.rsa_key_size_overflow", "Verif.SignSteps.short_signature_used", "Verif.SignSteps.policy_one", "Verif.SignSteps.policy_manual_mask_lost", "Verif.SignPy.py_accepted_iff", "Verif.SignPy.py_three_steps", "Verif.SignPy.py_sizes_same_iff", "Verif.SignPy.py_manual_refused", "Verif.SignPy.py_rsa3072_misplaced", "Verif.SignPy.py_digest_without_key", "Verif.SignPy.py_delta_refused", "Verif.SignPy.names", "Verif.SignPy.py_name_examples", "Verif.ToolTables.image_and_key_types", "Verif.ToolTables.sha_only_iff", "Verif.ToolTables.py_type", "Verif.ToolTables.py_exception_iff", "Verif.ToolTables.py_header_fits", "Verif.ToolTables.py_delta_aligned", "Verif.ToolTables.py_sig_length"], "note": "Proved under the conditions in the statement. Findings: see DESIGN.md section 5."},
{"property": "C74", "status": "proved", "theorems": ["Verif.BinAssemble.merged_iff", "Verif.BinAssemble.holds_iff", "Verif.BinAssemble.large_gap", "Verif.BinAssemble.empty_order", "Verif.BinAssemble.address_hex", "Verif.BinAssemble.address_dec", "Verif.BinAssemble.address_zero", "Verif.BinAssemble.factory", "Verif.BinAssemble.digit_spec"], "note": "Proved under the conditions in the statement. Findings: see DESIGN.md section 5."},
{"property": "C75", "status": "partial", "theorems": ["Verif.Inv.update_power_fail_safe_partial", "Verif.Inv.update_power_fail_unsafe_word", "Verif.Inv.rollback_power_fail_safe_partial", "Verif.Inv.update_any_interruption_partial", "Verif.Inv.lifecycle_never_bricks_partial", "Verif.Inv.no_bit_cleared_by_programming_partial", "Verif.Inv.torn_final", "Verif.Inv.constants"], "note": "Guards of C01, C02, C07 and C10, and a torn write of the state must not separate two bits; false without it (torn_final)."},
{"property": "C76", "status": "partial", "theorems": ["Verif.TpmTools.create_options", "Verif.TpmTools.create_overflow", "Verif.TpmTools.create_accepts", "Verif.TpmTools.hex_roundtrip", "Verif.TpmTools.digest_hex", "Verif.TpmTools.digest_malformed", "Verif.TpmTools.create_malformed", "Verif.TpmTools.sign_malformed", "Verif.TpmTools.create_file", "Verif.TpmTools.create_any_order", "Verif.TpmTools.create_reads", "Verif.TpmTools.create_unwritten", "Verif.TpmTools.policy_unseals", "Verif.TpmTools.policy_bound", "Verif.TpmTools.mask_option", "Verif.TpmTools.mask_option_cut", "Verif.TpmTools.default_pcr", "Verif.TpmTools.pcr_options", "Verif.TpmTools.sign_same", "Verif.TpmTools.sign_format", "Verif.TpmTools.sign_short_key", "Verif.TpmTools.sign_needs_digest", "Verif.TpmTools.sign_given", "Verif.TpmTools.rot_ok", "Verif.TpmTools.rot_then_boot", "Verif.TpmTools.rot_no_other", "Verif.TpmTools.rot_short_hash", "Verif.TpmTools.rot_long_hash", "Verif.TpmTools.rot_locked", "Verif.TpmTools.rot_overflow", "Verif.TpmTools.hexChar_sound", "Verif.TpmTools.digest_empty", "Verif.TpmTools.sign_policy_digest"], "note": "Proved for at most six PCRs, well-formed digests, complete key files and the hash of the bootloader; false without these (create_overflow, mask_option_cut, create_malformed, sign_malformed, sign_short_key, rot_short_hash, rot_overflow)."},
{"property": "C77", "status": "partial", "theorems": ["Verif.SerialUpdate.any_input_safe", "Verif.SerialUpdate.device_any_order", "Verif.SerialUpdate.transfer_completes_partial", "Verif.SerialUpdate.transfer_then_update_partial", "Verif.SerialUpdate.one_byte_error_detected", "Verif.SerialUpdate.even_version_not_written", "Verif.SerialUpdate.even_version_reports_success", "Verif.SerialUpdate.hash_version_stuck", "Verif.SerialUpdate.desync_forever", "Verif.SerialUpdate.lost_size_no_answer", "Verif.SerialUpdate.size_not_repeated", "Verif.SerialUpdate.too_large_stuck", "Verif.SerialUpdate.lost_last_ack", "Verif.SerialUpdate.last_byte_not_covered"], "note": "Safety and any order of packets are proved for all inputs; the transfer is proved for odd versions without a byte 0x23 on a line that loses nothing, and is false otherwise (even_version_reports_success, hash_version_stuck, desync_forever, lost_size_no_answer, too_large_stuck, last_byte_not_covered)."},
{"property": "C78", "status": "partial", "theorems": ["Verif.Nrf.update_safe", "Verif.Nrf.app_writes", "Verif.Nrf.update_iff", "Verif.Nrf.app_after_update", "Verif.Nrf.sync_cleanup", "Verif.Nrf.copied_opened", "Verif.Nrf.opened_none", "Verif.Nrf.load_fits", "Verif.Nrf.protect_spec", "Verif.Nrf.protect_all", "Verif.Nrf.protect_tail", "Verif.Nrf.sync_update_lost", "Verif.Nrf.wakeup_lost", "Verif.Nrf.stuck", "Verif.Nrf.stale_boot", "Verif.Nrf.stale_start", "Verif.Nrf.timeout_offers_older", "Verif.Nrf.cleanup_early", "Verif.Nrf.copied_other", "Verif.Nrf.offer_needs_core", "Verif.Nrf.magic_guards_net", "Verif.Nrf.magic_guards_app", "Verif.Nrf.magic_before_status"], "note": "The first part (update_safe) holds for all runs from memory without a leftover UPDATE_START. The equivalence (update_iff) holds without timeouts, leftovers and NRF_SYNC_CORES and is false otherwise (sync_update_lost, wakeup_lost for progress, stale_boot, stale_start, timeout_offers_older); the copied image is the verified one unless it is in the update partition of external flash (copied_other); incomplete blocks are not protected (protect_tail)."},
{"property": "C79", "status": "partial", "theorems": ["Verif.Nand.division_spec", "Verif.Nand.read_long", "Verif.Nand.read_short", "Verif.Nand.read_pages", "Verif.Nand.read_overrun", "Verif.Nand.read_unaligned", "Verif.Nand.read_last_page", "Verif.Nand.trailer_lost", "Verif.Nand.one_byte_lost", "Verif.Nand.short_tail_lost", "Verif.Nand.split_differs", "Verif.Nand.read_never_ends", "Verif.Nand.skip_marks"], "note": "Proved for the division and for whole pages from the start of a page; false otherwise (read_overrun, read_unaligned, read_last_page, one_byte_lost), for reads in parts with bad blocks (split_differs), and for termination (read_never_ends)."},
{"property": "C80", "status": "partial", "theorems": ["Verif.Aurix.write_spec", "Verif.Aurix.write_ub_iff", "Verif.Aurix.direct_power_fail", "Verif.Aurix.rmw_power_fail", "Verif.Aurix.trailer_lost", "Verif.Aurix.erase_spec", "Verif.Aurix.erase_aligned", "Verif.Aurix.erase_unaligned", "Verif.Aurix.read_spec", "Verif.Aurix.read_result", "Verif.Aurix.erase_zero"], "note": "Proved for completed writes within a sector or to erased pages, power failures in direct writes, aligned erases and the bytes of reads; false for power failures in rewrites of a sector (rmw_power_fail, trailer_lost), writes over a sector boundary (write_ub_iff), unaligned erases (erase_unaligned), the result of a read (read_result)."},
{"property": "C81", "status": "partial", "theorems": ["Verif.Zynq.calc_spec", "Verif.Zynq.tx_spec", "Verif.Zynq.dma_spec", "Verif.Zynq.read_spec", "Verif.Zynq.write_spec", "Verif.Zynq.erase_one", "Verif.Zynq.read_odd", "Verif.Zynq.write_wraps", "Verif.Zynq.state_is_flags", "Verif.Zynq.erase_overflow_iff", "Verif.Zynq.erase_overflow", "Verif.Zynq.erase_second_lost", "Verif.Zynq.erase_error_lost", "Verif.Zynq.write_error", "Verif.Zynq.erase_last_error"], "note": "Proved for transfers, reads at even addresses, writes from the start of a page and erases of one sector; false otherwise (read_odd, state_is_flags, write_wraps, erase_overflow_iff, erase_second_lost, erase_error_lost)."},
{"property": "C82", "status": "partial", "theorems": ["Verif.Nxp.p1021_read", "Verif.Nxp.p1021_read_pages", "Verif.Nxp.p1021_read_overrun", "Verif.Nxp.p1021_second_bad", "Verif.Nxp.p1021_read_nothing", "Verif.Nxp.p1021_read_hangs", "Verif.Nxp.p1021_erase", "Verif.Nxp.p1021_write_pages", "Verif.Nxp.p1021_write_stale", "Verif.Nxp.p1021_write_lost", "Verif.Nxp.ls1028a_part", "Verif.Nxp.ls1028a_short", "Verif.Nxp.ls1028a_garbled", "Verif.Nxp.ls1028a_erase_waits", "Verif.Nxp.t1024_place", "Verif.Nxp.t1024_first", "Verif.Nxp.t1024_byte", "Verif.Nxp.ls1028a_all", "Verif.Nxp.t1024_all"], "note": "Proved for whole pages from the start of a page (P1021), up to 4 bytes (LS1028A) and the start of a sector (T1024); false otherwise, with theorems that say what happens."},
{"property": "C83", "status": "partial", "theorems": ["Verif.Imx.imx_write", "Verif.Imx.imx_write_pages", "Verif.Imx.imx_overread", "Verif.Imx.imx_wraps", "Verif.Imx.imx_error", "Verif.Imx.imx_cache", "Verif.Imx.imx_cache_lines", "Verif.Imx.ra_erase", "Verif.Imx.ra_erase_over", "Verif.Imx.ra_erase_refused", "Verif.Imx.ra_write", "Verif.Imx.ra_write_tail", "Verif.Imx.ra_write_misplaced", "Verif.Imx.ra_write_rest", "Verif.Imx.ra_write_loses"], "note": "Proved for whole pages from the start of a page (i.MX RT), multiples of 128 (RA) and erases within blocks of one size; false otherwise, with theorems that say what happens."},
{"property": "C84", "status": "partial", "theorems": ["Verif.Idt.seg_spec", "Verif.Idt.seg_fits", "Verif.Idt.gdt_flat", "Verif.Idt.gate_spec", "Verif.Idt.gate_segment", "Verif.Idt.setup_spec", "Verif.Idt.setup_present", "Verif.Idt.spurious_vector", "Verif.Idt.return_spec", "Verif.Idt.rdi_lost", "Verif.Idt.return_error", "Verif.Idt.return_error_ne"], "note": "Round trips, tables and returns without an error code are proved; false for vectors 32 and 33, for error codes and for rdi, with theorems that say what happens."}
]}
