# Axioms each manifest theorem depends on

From `#print axioms`, for the commit that contains this file.

## none

* `Sigtool.C115_share`
* `Sigtool.C116_recipes`

## propext

* `Sigtool.C32_match_iff`
* `Sigtool.C33_reads_only_fields`
* `Sigtool.C33_no_crash`
* `Sigtool.C47_no_overwrite`

## propext, Classical.choice, Quot.sound

* `Sigtool.C01_encrypt_decrypt`
* `Sigtool.C01_encrypt_succeeds`
* `Sigtool.C02_stream_decrypt`
* `Sigtool.C02_stream_succeeds`
* `Sigtool.C03_split_independent`
* `Sigtool.C04_reader_matches_decrypt`
* `Sigtool.C05_encrypt_layout`
* `Sigtool.C05_encryptChunks_shape`
* `Sigtool.C05_stream_layout`
* `Sigtool.C05_streamChunks_shape`
* `Sigtool.C06_small_block_partial`
* `Sigtool.C06_large_block_refuted`
* `Sigtool.C07_exact`
* `Sigtool.C07_recipients_partial`
* `Sigtool.C07_recipients_refuted`
* `Sigtool.C08_encrypt`
* `Sigtool.C08_stream`
* `Sigtool.C09_single_use_partial`
* `Sigtool.C09_two_encrypts_refuted`
* `Sigtool.C09_wrap_refuted`
* `Sigtool.C09_wrap_exists_refuted`
* `Sigtool.C09_two_streams_refuted`
* `Sigtool.C10_tampered_body`
* `Sigtool.C11_truncation_partial`
* `Sigtool.C11_truncation_refuted`
* `Sigtool.C12_prefix_partial`
* `Sigtool.C12_prefix_refuted`
* `Sigtool.C13_trailer_verified`
* `Sigtool.C14_replace_partial`
* `Sigtool.C14_replace_refuted`
* `Sigtool.C15_sender_partial`
* `Sigtool.C15_unsigned_refuted`
* `Sigtool.C16_authenticated`
* `Sigtool.C17_recipients`
* `Sigtool.C17_add_after_start`
* `Sigtool.C18_encrypt_after_stream`
* `Sigtool.C18_header_once`
* `Sigtool.C18_header_first`
* `Sigtool.C19_guards`
* `Sigtool.C19_after_success`
* `Sigtool.C20_failed_key_partial`
* `Sigtool.C20_failed_sender_refuted`
* `Sigtool.C20_crash_reachable`
* `Sigtool.C21_sticky`
* `Sigtool.C22_roundtrip`
* `Sigtool.C22_injective`
* `Sigtool.C23_total`
* `Sigtool.C23_no_amplification`
* `Sigtool.C24_accepts_iff`
* `Sigtool.C24_total`
* `Sigtool.C24_errors`
* `Sigtool.C25_checksum`
* `Sigtool.C25_keys`
* `Sigtool.C26_decrypt_total`
* `Sigtool.C26_reader_total`
* `Sigtool.C27_fullwrite`
* `Sigtool.C27_encrypt`
* `Sigtool.C27_stream`
* `Sigtool.C28_read_failure_partial`
* `Sigtool.C28_broken_reader_refuted`
* `Sigtool.C29_close_once`
* `Sigtool.C29_stream_close_once`
* `Sigtool.C30_sign_verify`
* `Sigtool.C30_verify_iff`
* `Sigtool.C30_binding`
* `Sigtool.C31_file_roundtrip`
* `Sigtool.C31_binding`
* `Sigtool.C31_is_message_signature`
* `Sigtool.C32_which_keys`
* `Sigtool.C33_roundtrip`
* `Sigtool.C34_standard`
* `Sigtool.C34_roundtrip`
* `Sigtool.C34_trailing_junk`
* `Sigtool.C34_canonical`
* `Sigtool.C34_exact`
* `Sigtool.C35_roundtrip_partial`
* `Sigtool.C35_roundtrip_refuted`
* `Sigtool.C36_success_is_authentic`
* `Sigtool.C36_wrong_passphrase`
* `Sigtool.C36_error`
* `Sigtool.C37_private`
* `Sigtool.C37_public`
* `Sigtool.C38_roundtrip`
* `Sigtool.C39_from_string_partial`
* `Sigtool.C39_from_string_exact`
* `Sigtool.C39_from_string_refuted`
* `Sigtool.C39_ssh_string`
* `Sigtool.C40_crash_iff`
* `Sigtool.C40_no_crash_refuted`
* `Sigtool.C40_no_crash_partial`
* `Sigtool.C41_read_partial`
* `Sigtool.C41_read_refuted`
* `Sigtool.C42_concat`
* `Sigtool.C42_wellformed`
* `Sigtool.C42_blank_and_comment`
* `Sigtool.C42_carriage_return`
* `Sigtool.C42_plain_line`
* `Sigtool.C42_other_type`
* `Sigtool.C42_options_line`
* `Sigtool.C42_options_partial`
* `Sigtool.C42_options_refuted`
* `Sigtool.C43_plain`
* `Sigtool.C43_encrypted`
* `Sigtool.C43_wrong_passphrase`
* `Sigtool.C43_callback_error`
* `Sigtool.C44_crash_iff`
* `Sigtool.C44_no_crash_partial`
* `Sigtool.C44_nil_callback_refuted`
* `Sigtool.C44_cbc_length_refuted`
* `Sigtool.C44_short_block_refuted`
* `Sigtool.C44_short_salt_refuted`
* `Sigtool.C45_scalar`
* `Sigtool.C45_clamp_idempotent`
* `Sigtool.C46_conversion`
* `Sigtool.C46_sign_bit`
* `Sigtool.C46_on_curve`
* `Sigtool.C46_injective`
* `Sigtool.C47_atomic`
* `Sigtool.C47_atomic_relative`
* `Sigtool.C47_success`
* `Sigtool.C47_failure`
* `Sigtool.C47_succeeds`
* `Sigtool.C48_exit_zero_iff`
* `Sigtool.C48_crash_iff`
* `Sigtool.C48_failure_partial`
* `Sigtool.C48_crash_refuted`
* `Sigtool.C49_no_clobber`
* `Sigtool.C49_success`
* `Sigtool.C49_pair_loads`
* `Sigtool.C49_failure`
* `Sigtool.C49_crash`
* `Sigtool.C50_exit_zero`
* `Sigtool.C50_failure`
* `Sigtool.C50_all_or_none`
* `Sigtool.C50_crash`
* `Sigtool.C51_failure`
* `Sigtool.C51_exit_zero_partial`
* `Sigtool.C51_close_error_refuted`
* `Sigtool.C51_crash`
* `Sigtool.C51_test`
* `Sigtool.C52_own_input_partial`
* `Sigtool.C52_overwrite_refuted`
* `Sigtool.C53_selects_iff`
* `Sigtool.C53_only_commands`
* `Sigtool.C53_order_irrelevant`
* `Sigtool.C53_ascii`
* `Sigtool.C53_table`
* `Sigtool.C54_only_authenticated`
* `Sigtool.C55_consumes_partial`
* `Sigtool.C55_consumes_refuted`
* `Sigtool.C56_only_recipients`
* `Sigtool.C57_no_crash`
* `Sigtool.C58_exit_zero_iff`
* `Sigtool.C58_signature_partial`
* `Sigtool.C58_stdout_partial`
* `Sigtool.C58_failure`
* `Sigtool.C58_write_error_refuted`
* `Sigtool.C58_crash`
* `Sigtool.C58_no_overwrite`
* `Sigtool.C59_gen_sign_verify`
* `Sigtool.C59_changed_file`
* `Sigtool.C60_encrypt_decrypt`
* `Sigtool.C61_two_readers_refuted`
* `Sigtool.C61_decrypt_authentic`
* `Sigtool.C61_reader_authentic_partial`
* `Sigtool.C62_exact`
* `Sigtool.C62_stale_refuted`
* `Sigtool.C62_authenticated_partial`
* `Sigtool.C63_careful_no_crash`
* `Sigtool.C64_order`
* `Sigtool.C65_reader_error_final`
* `Sigtool.C66_dispatch`
* `Sigtool.C66_nothing`
* `Sigtool.C67_only_outputs`
* `Sigtool.C67_failure`
* `Sigtool.C67_no_temporary_files`
* `Sigtool.C68_all_or_nothing`
* `Sigtool.C69_no_prompt`
* `Sigtool.C69_sources_agree`
* `Sigtool.C70_never_warns`
* `Sigtool.C70_signed_needs_signer`
* `Sigtool.C71_generate_encrypt_decrypt`
* `Sigtool.C72_generate_sign_verify`
* `Sigtool.C73_header_refuted`
* `Sigtool.C73_header_replace_refuted`
* `Sigtool.C73_header_partial`
* `Sigtool.C74_files_apart`
* `Sigtool.C75_read_delivery`
* `Sigtool.C75_write_delivery`
* `Sigtool.C76_encrypt_size`
* `Sigtool.C76_stream_size`
* `Sigtool.C76_nothing_else`
* `Sigtool.C77_only_through_seal`
* `Sigtool.C78_test_equals_decrypt`
* `Sigtool.C78_test_necessary`
* `Sigtool.C79_generate_succeeds`
* `Sigtool.C79_sign_iff`
* `Sigtool.C79_encrypt_succeeds`
* `Sigtool.C79_at_sign`
* `Sigtool.C80_signed_pipeline`
* `Sigtool.C81_reload_partial`
* `Sigtool.C81_reload_refuted`
* `Sigtool.C81_reload_private_partial`
* `Sigtool.C81_reload_private_refuted`
* `Sigtool.C82_ordered_partial`
* `Sigtool.C82_any_order_partial`
* `Sigtool.C82_torn_refuted`
* `Sigtool.C82_wait_free`
* `Sigtool.C83_private`
* `Sigtool.C83_pair`
* `Sigtool.C84_fresh`
* `Sigtool.C84_new`
* `Sigtool.C84_generate`
* `Sigtool.C84_encrypt`
* `Sigtool.C84_main`
* `Sigtool.C85_pairs`
* `Sigtool.C85_exact`
* `Sigtool.C86_header`
* `Sigtool.C86_unambiguous`
* `Sigtool.C86_refused`
* `Sigtool.C86_concat`
* `Sigtool.C87_exact`
* `Sigtool.C87_unique`
* `Sigtool.C87_refused`
* `Sigtool.C87_reader`
* `Sigtool.C87_tail`
* `Sigtool.C88_ssh_pipeline`
* `Sigtool.C88_ssh_sign_verify`
* `Sigtool.C89_copy_in`
* `Sigtool.C89_copy_in_outcome`
* `Sigtool.C89_copy_out`
* `Sigtool.C89_read_all`
* `Sigtool.C90_authorized_keys`
* `Sigtool.C90_public_file`
* `Sigtool.C90_public_crash`
* `Sigtool.C90_public_string`
* `Sigtool.C90_signature`
* `Sigtool.C91_private`
* `Sigtool.C92_verify`
* `Sigtool.C92_sign`
* `Sigtool.C92_generate`
* `Sigtool.C92_decrypt`
* `Sigtool.C92_decrypt_output`
* `Sigtool.C92_encrypt`
* `Sigtool.C93_verify`
* `Sigtool.C93_sign`
* `Sigtool.C93_generate`
* `Sigtool.C93_decrypt`
* `Sigtool.C93_encrypt`
* `Sigtool.C93_codes`
* `Sigtool.C94_atomic`
* `Sigtool.C94_done`
* `Sigtool.C94_no_litter`
* `Sigtool.C95_alone_partial`
* `Sigtool.C95_pair_refuted`
* `Sigtool.C96_exit`
* `Sigtool.C96_verify_line`
* `Sigtool.C96_quiet_partial`
* `Sigtool.C96_quiet_refuted`
* `Sigtool.C96_spoof_refuted`
* `Sigtool.C97_warning_refuted`
* `Sigtool.C97_notices_partial`
* `Sigtool.C98_header`
* `Sigtool.C98_memory`
* `Sigtool.C98_input`
* `Sigtool.C99_keypair`
* `Sigtool.C99_agreement`
* `Sigtool.C99_low_order`
* `Sigtool.C100_sign_verify`
* `Sigtool.C100_unique`
* `Sigtool.C100_laws`
* `Sigtool.C101_gcm`
* `Sigtool.C101_laws`
* `Sigtool.C102_top`
* `Sigtool.C102_generate`
* `Sigtool.C102_sign`
* `Sigtool.C102_verify`
* `Sigtool.C102_encrypt`
* `Sigtool.C102_decrypt`
* `Sigtool.C102_readme`
* `Sigtool.C102_readme_refuted`
* `Sigtool.C102_nonvacuous`
* `Sigtool.C103_status_partial`
* `Sigtool.C103_status_refuted`
* `Sigtool.C103_main_refuted`
* `Sigtool.C103_nonvacuous`
* `Sigtool.C104_encrypt_decrypt`
* `Sigtool.C104_sign_verify`
* `Sigtool.C104_signed`
* `Sigtool.C105_laws`
* `Sigtool.C105_encrypt_decrypt`
* `Sigtool.C105_total`
* `Sigtool.C105_sign_verify`
* `Sigtool.C106_missing_p`
* `Sigtool.C106_crash`
* `Sigtool.C106_written_parameters`
* `Sigtool.C107_file`
* `Sigtool.C107_stream`
* `Sigtool.C107_key_file`
* `Sigtool.C107_secrecy`
* `Sigtool.C107_recipient`
* `Sigtool.C108_header`
* `Sigtool.C108_trailer`
* `Sigtool.C109_recipients`
* `Sigtool.C109_sender`
* `Sigtool.C110_loads`
* `Sigtool.C111_passing_on`
* `Sigtool.C111_recipients`
* `Sigtool.C112_secrecy`
* `Sigtool.C112_signatures`
* `Sigtool.C112_asked`
* `Sigtool.C112_decrypt`
* `Sigtool.C113_tests_sh`
* `Sigtool.C113_tests_sh_ssh`
* `Sigtool.C114_names`
* `Sigtool.C114_slash`
* `Sigtool.C114_generate`
* `Sigtool.C114_clean`
* `Sigtool.C115_encrypt`
* `Sigtool.C115_stream`
* `Sigtool.C116_indistinguishable`
* `Sigtool.C116_recipient`
* `Sigtool.C117_last_save`
* `Sigtool.C117_untouched`
* `Sigtool.C117_refuses`
* `Sigtool.C117_saves`
* `Sigtool.C117_crash`
* `Sigtool.C117_sign_flow`
* `Sigtool.C118_keys`
* `Sigtool.C118_signatures_refuted`
* `Sigtool.C118_signatures_partial`
* `Sigtool.C119_retry`
* `Sigtool.C119_decrypts`
* `Sigtool.C119_after_success`
* `Sigtool.C119_reached`
* `Sigtool.C120_one_file_refuted`
* `Sigtool.C120_verify_refuted`
* `Sigtool.C120_one_file_partial`
* `Sigtool.C121_addressee_refuted`
* `Sigtool.C121_addressee_partial`
* `Sigtool.C122_replaced_refuted`
* `Sigtool.C122_tampered_refuted`
* `Sigtool.C122_tampered_partial`
* `Sigtool.C123_one_key`
* `Sigtool.C123_one_key_refuted`
* `Sigtool.C123_one_key_partial`
* `Sigtool.C124_level`
* `Sigtool.C124_failed`
* `Sigtool.C124_encrypt_refuted`
* `Sigtool.C124_stream_refuted`
* `Sigtool.C124_decrypt_refuted`
* `Sigtool.C124_flag`
* `Sigtool.C125_copies_partial`
* `Sigtool.C125_wiped_secret_refuted`
* `Sigtool.C125_wiped_point_refuted`
* `Sigtool.C125_changed_hash_refuted`
* `Sigtool.C126_encrypt`
* `Sigtool.C126_stream`
* `Sigtool.C127_encrypt`
* `Sigtool.C127_stream`
* `Sigtool.C128_encrypt`
* `Sigtool.C128_stream`
* `Sigtool.C129_joint`
* `Sigtool.C130_session`
* `Sigtool.C130_contents_partial`
* `Sigtool.C130_contents_refuted`
* `Sigtool.C131_encrypt`
* `Sigtool.C131_stream`
* `Sigtool.C132_reaction`
* `Sigtool.C132_signed`
* `Sigtool.C133_encrypt`
* `Sigtool.C133_stream`
* `Sigtool.C133_contents_refuted`
* `Sigtool.C134_exit`
* `Sigtool.C134_secrecy`
* `Sigtool.C134_anonymity`
* `Sigtool.C135_commands`
* `Sigtool.C136_commands`
* `Sigtool.C137_joint`
* `Sigtool.C138_decrypt`
* `Sigtool.C138_encrypt`
* `Sigtool.C138_sign`
* `Sigtool.C138_generate`
* `Sigtool.C138_others`
* `Sigtool.C139_rewrite_refuted`
* `Sigtool.C139_sent`
* `Sigtool.C139_command_refuted`

## propext, Quot.sound

* `Sigtool.C13_macInput_injective`
* `Sigtool.C31_encoding_injective`
* `Sigtool.C34_linebreaks`
* `Sigtool.C45_cache`

