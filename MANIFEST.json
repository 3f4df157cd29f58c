{
 "claims": [
  {
   "property": "C01",
   "status": "proved",
   "theorems": [
    "Sigtool.C01_encrypt_decrypt",
    "Sigtool.C01_encrypt_succeeds"
   ],
   "note": ""
  },
  {
   "property": "C02",
   "status": "proved",
   "theorems": [
    "Sigtool.C02_stream_decrypt",
    "Sigtool.C02_stream_succeeds"
   ],
   "note": ""
  },
  {
   "property": "C03",
   "status": "proved",
   "theorems": [
    "Sigtool.C03_split_independent"
   ],
   "note": ""
  },
  {
   "property": "C04",
   "status": "proved",
   "theorems": [
    "Sigtool.C04_reader_matches_decrypt"
   ],
   "note": ""
  },
  {
   "property": "C05",
   "status": "proved",
   "theorems": [
    "Sigtool.C05_encrypt_layout",
    "Sigtool.C05_encryptChunks_shape",
    "Sigtool.C05_stream_layout",
    "Sigtool.C05_streamChunks_shape"
   ],
   "note": ""
  },
  {
   "property": "C06",
   "status": "partial",
   "theorems": [
    "Sigtool.C06_small_block_partial",
    "Sigtool.C06_large_block_refuted"
   ],
   "note": "Holds below 2^30; refuted above: NewEncryptor clamps to 2^30 but NewDecryptor rejects it (C06_large_block_refuted). C07_exact gives the exact condition under which a container written by this library opens."
  },
  {
   "property": "C07",
   "status": "partial",
   "theorems": [
    "Sigtool.C07_exact",
    "Sigtool.C07_recipients_partial",
    "Sigtool.C07_recipients_refuted"
   ],
   "note": "Holds while the header fits in 1 MiB; refuted beyond (C07_recipients_refuted). C07_exact: opened if and only if the block size is below 2^30 and there are 1 to 15885 recipients."
  },
  {
   "property": "C08",
   "status": "proved",
   "theorems": [
    "Sigtool.C08_encrypt",
    "Sigtool.C08_stream"
   ],
   "note": ""
  },
  {
   "property": "C09",
   "status": "partial",
   "theorems": [
    "Sigtool.C09_single_use_partial",
    "Sigtool.C09_two_encrypts_refuted",
    "Sigtool.C09_wrap_refuted",
    "Sigtool.C09_wrap_exists_refuted",
    "Sigtool.C09_two_streams_refuted"
   ],
   "note": "False in general: a second Encrypt call, a second stream writer and more than 2^32 chunks all reuse nonces (refuted theorems); proved for histories with one Encrypt call or one stream writer and at most 2^32 chunks."
  },
  {
   "property": "C10",
   "status": "proved",
   "theorems": [
    "Sigtool.C10_tampered_body"
   ],
   "note": ""
  },
  {
   "property": "C11",
   "status": "partial",
   "theorems": [
    "Sigtool.C11_truncation_partial",
    "Sigtool.C11_truncation_refuted"
   ],
   "note": "False of the code: cutting the container at any chunk boundary and appending the four bytes 80 00 00 00 is accepted as a complete message (C11_truncation_refuted, no key needed). Proved: this is the only way; otherwise a nil error means the complete plaintext was written."
  },
  {
   "property": "C12",
   "status": "partial",
   "theorems": [
    "Sigtool.C12_prefix_partial",
    "Sigtool.C12_prefix_refuted"
   ],
   "note": "False of the code only when the sender's last chunk is empty: then up to 80 bytes cut off the end are not noticed, though the plaintext is complete (C12_prefix_refuted). Proved: every other strict prefix is rejected."
  },
  {
   "property": "C13",
   "status": "proved",
   "theorems": [
    "Sigtool.C13_macInput_injective",
    "Sigtool.C13_trailer_verified"
   ],
   "note": ""
  },
  {
   "property": "C14",
   "status": "partial",
   "theorems": [
    "Sigtool.C14_replace_partial",
    "Sigtool.C14_replace_refuted"
   ],
   "note": "False of the code: any co-recipient can send arbitrary content under the genuine header if the body ends in the unauthenticated end marker 80 00 00 00 (C14_replace_refuted). Proved for every body that does not contain that marker, up to an explicit forgery of signature or HMAC."
  },
  {
   "property": "C15",
   "status": "partial",
   "theorems": [
    "Sigtool.C15_sender_partial",
    "Sigtool.C15_unsigned_refuted"
   ],
   "note": "Refuted for unsigned headers: SetPrivateKey with a sender key accepts an unsigned container."
  },
  {
   "property": "C16",
   "status": "proved",
   "theorems": [
    "Sigtool.C16_authenticated"
   ],
   "note": ""
  },
  {
   "property": "C17",
   "status": "proved",
   "theorems": [
    "Sigtool.C17_recipients",
    "Sigtool.C17_add_after_start"
   ],
   "note": ""
  },
  {
   "property": "C18",
   "status": "proved",
   "theorems": [
    "Sigtool.C18_encrypt_after_stream",
    "Sigtool.C18_header_once",
    "Sigtool.C18_header_first"
   ],
   "note": ""
  },
  {
   "property": "C19",
   "status": "proved",
   "theorems": [
    "Sigtool.C19_guards",
    "Sigtool.C19_after_success"
   ],
   "note": ""
  },
  {
   "property": "C20",
   "status": "partial",
   "theorems": [
    "Sigtool.C20_failed_key_partial",
    "Sigtool.C20_failed_sender_refuted",
    "Sigtool.C20_crash_reachable"
   ],
   "note": "Holds when unwrapping failed; refuted when only the sender check failed (Decrypt then panics)."
  },
  {
   "property": "C21",
   "status": "proved",
   "theorems": [
    "Sigtool.C21_sticky"
   ],
   "note": ""
  },
  {
   "property": "C22",
   "status": "proved",
   "theorems": [
    "Sigtool.C22_roundtrip",
    "Sigtool.C22_injective"
   ],
   "note": ""
  },
  {
   "property": "C23",
   "status": "proved",
   "theorems": [
    "Sigtool.C23_total",
    "Sigtool.C23_no_amplification"
   ],
   "note": ""
  },
  {
   "property": "C24",
   "status": "proved",
   "theorems": [
    "Sigtool.C24_accepts_iff",
    "Sigtool.C24_total",
    "Sigtool.C24_errors"
   ],
   "note": ""
  },
  {
   "property": "C25",
   "status": "proved",
   "theorems": [
    "Sigtool.C25_checksum",
    "Sigtool.C25_keys"
   ],
   "note": ""
  },
  {
   "property": "C26",
   "status": "proved",
   "theorems": [
    "Sigtool.C26_decrypt_total",
    "Sigtool.C26_reader_total"
   ],
   "note": ""
  },
  {
   "property": "C27",
   "status": "proved",
   "theorems": [
    "Sigtool.C27_fullwrite",
    "Sigtool.C27_encrypt",
    "Sigtool.C27_stream"
   ],
   "note": ""
  },
  {
   "property": "C28",
   "status": "partial",
   "theorems": [
    "Sigtool.C28_read_failure_partial",
    "Sigtool.C28_broken_reader_refuted"
   ],
   "note": "False when the reader fails with io.ErrUnexpectedEOF or io.ErrClosedPipe: Encrypt takes it for the end of input (refuted theorem); proved for all other read errors."
  },
  {
   "property": "C29",
   "status": "proved",
   "theorems": [
    "Sigtool.C29_close_once",
    "Sigtool.C29_stream_close_once"
   ],
   "note": ""
  },
  {
   "property": "C30",
   "status": "proved",
   "theorems": [
    "Sigtool.C30_sign_verify",
    "Sigtool.C30_verify_iff",
    "Sigtool.C30_binding"
   ],
   "note": ""
  },
  {
   "property": "C31",
   "status": "proved",
   "theorems": [
    "Sigtool.C31_file_roundtrip",
    "Sigtool.C31_encoding_injective",
    "Sigtool.C31_binding",
    "Sigtool.C31_is_message_signature"
   ],
   "note": "The encoding is injective for every length, so no bound on the file size is needed."
  },
  {
   "property": "C32",
   "status": "proved",
   "theorems": [
    "Sigtool.C32_match_iff",
    "Sigtool.C32_which_keys"
   ],
   "note": ""
  },
  {
   "property": "C33",
   "status": "proved",
   "theorems": [
    "Sigtool.C33_roundtrip",
    "Sigtool.C33_reads_only_fields",
    "Sigtool.C33_no_crash"
   ],
   "note": "Relative to the YAML library reading back what it wrote for the comment in question (Yaml.Reads)."
  },
  {
   "property": "C34",
   "status": "proved",
   "theorems": [
    "Sigtool.C34_standard",
    "Sigtool.C34_roundtrip",
    "Sigtool.C34_linebreaks",
    "Sigtool.C34_trailing_junk",
    "Sigtool.C34_canonical",
    "Sigtool.C34_exact"
   ],
   "note": ""
  },
  {
   "property": "C35",
   "status": "partial",
   "theorems": [
    "Sigtool.C35_roundtrip_partial",
    "Sigtool.C35_roundtrip_refuted"
   ],
   "note": "False for a comment that contains 'OPENSSH PRIVATE KEY-' (refuted theorem); proved for every other comment the YAML library reads back."
  },
  {
   "property": "C36",
   "status": "proved",
   "theorems": [
    "Sigtool.C36_success_is_authentic",
    "Sigtool.C36_wrong_passphrase",
    "Sigtool.C36_error"
   ],
   "note": ""
  },
  {
   "property": "C37",
   "status": "proved",
   "theorems": [
    "Sigtool.C37_private",
    "Sigtool.C37_public"
   ],
   "note": ""
  },
  {
   "property": "C38",
   "status": "proved",
   "theorems": [
    "Sigtool.C38_roundtrip"
   ],
   "note": "Relative to the YAML library reading back what it wrote for the comment in question (Yaml.Reads)."
  },
  {
   "property": "C39",
   "status": "partial",
   "theorems": [
    "Sigtool.C39_from_string_partial",
    "Sigtool.C39_from_string_exact",
    "Sigtool.C39_from_string_refuted",
    "Sigtool.C39_ssh_string"
   ],
   "note": "False for keys whose 32 bytes parse as an SSH wire string of another algorithm: nil key, no error (refuted theorem with the exact condition); proved for all other keys."
  },
  {
   "property": "C40",
   "status": "partial",
   "theorems": [
    "Sigtool.C40_crash_iff",
    "Sigtool.C40_no_crash_refuted",
    "Sigtool.C40_no_crash_partial"
   ],
   "note": "False: an SSH public key line of another type crashes MakePublicKey (refuted theorem and exact crash condition); proved for all other inputs."
  },
  {
   "property": "C41",
   "status": "partial",
   "theorems": [
    "Sigtool.C41_read_partial",
    "Sigtool.C41_read_refuted"
   ],
   "note": "False without a comment or with a comment of several words (refuted theorem); proved for a one-word comment."
  },
  {
   "property": "C42",
   "status": "partial",
   "theorems": [
    "Sigtool.C42_concat",
    "Sigtool.C42_wellformed",
    "Sigtool.C42_blank_and_comment",
    "Sigtool.C42_carriage_return",
    "Sigtool.C42_plain_line",
    "Sigtool.C42_other_type",
    "Sigtool.C42_options_line",
    "Sigtool.C42_options_partial",
    "Sigtool.C42_options_refuted"
   ],
   "note": "Concatenation, well-formedness, blank, comment, other-type, plain and carriage-return lines are proved for all inputs; a line with options is proved unless the text after the first blank is itself read as a key (refuted theorem)."
  },
  {
   "property": "C43",
   "status": "proved",
   "theorems": [
    "Sigtool.C43_plain",
    "Sigtool.C43_encrypted",
    "Sigtool.C43_wrong_passphrase",
    "Sigtool.C43_callback_error"
   ],
   "note": "Files below 4 GiB; encrypted case for section lengths that are whole AES blocks (the other CBC lengths are C44)."
  },
  {
   "property": "C44",
   "status": "partial",
   "theorems": [
    "Sigtool.C44_crash_iff",
    "Sigtool.C44_no_crash_partial",
    "Sigtool.C44_nil_callback_refuted",
    "Sigtool.C44_cbc_length_refuted",
    "Sigtool.C44_short_block_refuted",
    "Sigtool.C44_short_salt_refuted"
   ],
   "note": "False: exact crash condition proved (C44_crash_iff) with refuting families: nil callback with an encrypted OpenSSH key, damaged CBC section, short PEM body, short salt; no crash proved outside them."
  },
  {
   "property": "C45",
   "status": "proved",
   "theorems": [
    "Sigtool.C45_scalar",
    "Sigtool.C45_clamp_idempotent",
    "Sigtool.C45_cache"
   ],
   "note": "Aliasing of the returned cached slice is not modelled."
  },
  {
   "property": "C46",
   "status": "proved",
   "theorems": [
    "Sigtool.C46_conversion",
    "Sigtool.C46_sign_bit",
    "Sigtool.C46_on_curve",
    "Sigtool.C46_injective"
   ],
   "note": ""
  },
  {
   "property": "C47",
   "status": "proved",
   "theorems": [
    "Sigtool.C47_atomic",
    "Sigtool.C47_atomic_relative",
    "Sigtool.C47_success",
    "Sigtool.C47_failure",
    "Sigtool.C47_no_overwrite",
    "Sigtool.C47_succeeds"
   ],
   "note": ""
  },
  {
   "property": "C48",
   "status": "partial",
   "theorems": [
    "Sigtool.C48_exit_zero_iff",
    "Sigtool.C48_crash_iff",
    "Sigtool.C48_failure_partial",
    "Sigtool.C48_crash_refuted"
   ],
   "note": "False: exact crash condition (C48_crash_iff) - verify crashes with exit status 2 on a public key that loads as nil (C48_crash_refuted); proved for all other inputs."
  },
  {
   "property": "C49",
   "status": "proved",
   "theorems": [
    "Sigtool.C49_no_clobber",
    "Sigtool.C49_success",
    "Sigtool.C49_pair_loads",
    "Sigtool.C49_failure",
    "Sigtool.C49_crash"
   ],
   "note": "C49_pair_loads is for comments outside the exception of C35."
  },
  {
   "property": "C50",
   "status": "proved",
   "theorems": [
    "Sigtool.C50_exit_zero",
    "Sigtool.C50_failure",
    "Sigtool.C50_all_or_none",
    "Sigtool.C50_crash"
   ],
   "note": ""
  },
  {
   "property": "C51",
   "status": "partial",
   "theorems": [
    "Sigtool.C51_failure",
    "Sigtool.C51_exit_zero_partial",
    "Sigtool.C51_close_error_refuted",
    "Sigtool.C51_crash",
    "Sigtool.C51_test"
   ],
   "note": "Failure half proved. Exit 0 with a missing output file is possible: decrypt ignores the error of closing the output (C51_close_error_refuted); proved when closing succeeds."
  },
  {
   "property": "C52",
   "status": "partial",
   "theorems": [
    "Sigtool.C52_own_input_partial",
    "Sigtool.C52_overwrite_refuted"
   ],
   "note": "Proved without --overwrite. With --overwrite the input file is replaced: the same-file check is dead code, it looks at an outer variable that is shadowed (C52_overwrite_refuted)."
  },
  {
   "property": "C53",
   "status": "proved",
   "theorems": [
    "Sigtool.C53_selects_iff",
    "Sigtool.C53_only_commands",
    "Sigtool.C53_order_irrelevant",
    "Sigtool.C53_ascii",
    "Sigtool.C53_table"
   ],
   "note": "strings.ToLower is abstract; its ASCII behaviour is a hypothesis of C53_ascii."
  },
  {
   "property": "C54",
   "status": "proved",
   "theorems": [
    "Sigtool.C54_only_authenticated"
   ],
   "note": ""
  },
  {
   "property": "C55",
   "status": "partial",
   "theorems": [
    "Sigtool.C55_consumes_partial",
    "Sigtool.C55_consumes_refuted"
   ],
   "note": "False of the code when the sender's last chunk is empty: the last 80 bytes of the container stay unread (C55_consumes_refuted). Proved otherwise."
  },
  {
   "property": "C56",
   "status": "proved",
   "theorems": [
    "Sigtool.C56_only_recipients"
   ],
   "note": ""
  },
  {
   "property": "C57",
   "status": "proved",
   "theorems": [
    "Sigtool.C57_no_crash"
   ],
   "note": ""
  },
  {
   "property": "C58",
   "status": "partial",
   "theorems": [
    "Sigtool.C58_exit_zero_iff",
    "Sigtool.C58_signature_partial",
    "Sigtool.C58_stdout_partial",
    "Sigtool.C58_failure",
    "Sigtool.C58_write_error_refuted",
    "Sigtool.C58_crash",
    "Sigtool.C58_no_overwrite"
   ],
   "note": "False when writing or closing the signature file fails: sign ignores both errors (C58_write_error_refuted); proved when they succeed. The failure and crash parts are proved."
  },
  {
   "property": "C59",
   "status": "proved",
   "theorems": [
    "Sigtool.C59_gen_sign_verify",
    "Sigtool.C59_changed_file"
   ],
   "note": ""
  },
  {
   "property": "C60",
   "status": "proved",
   "theorems": [
    "Sigtool.C60_encrypt_decrypt"
   ],
   "note": ""
  },
  {
   "property": "C61",
   "status": "partial",
   "theorems": [
    "Sigtool.C61_two_readers_refuted",
    "Sigtool.C61_decrypt_authentic",
    "Sigtool.C61_reader_authentic_partial"
   ],
   "note": "Proved for Decrypt in all histories and for Read as long as at most one stream reader is handed out. False with two readers (C61_two_readers_refuted): they share the chunk buffer, so a failing Read on one replaces bytes the other has yet to deliver."
  },
  {
   "property": "C62",
   "status": "partial",
   "theorems": [
    "Sigtool.C62_exact",
    "Sigtool.C62_stale_refuted",
    "Sigtool.C62_authenticated_partial"
   ],
   "note": "Proved that some SetPrivateKey call up to then named a sender, returned nil and the header carries that sender's signature. False that it was the latest (C62_stale_refuted): a failed call does not clear the flag. C62_exact is the if-and-only-if form of what does hold."
  },
  {
   "property": "C63",
   "status": "proved",
   "theorems": [
    "Sigtool.C63_careful_no_crash"
   ],
   "note": ""
  },
  {
   "property": "C64",
   "status": "proved",
   "theorems": [
    "Sigtool.C64_order"
   ],
   "note": ""
  },
  {
   "property": "C65",
   "status": "proved",
   "theorems": [
    "Sigtool.C65_reader_error_final"
   ],
   "note": ""
  },
  {
   "property": "C66",
   "status": "proved",
   "theorems": [
    "Sigtool.C66_dispatch",
    "Sigtool.C66_nothing"
   ],
   "note": "The flag library is an abstract parser."
  },
  {
   "property": "C67",
   "status": "proved",
   "theorems": [
    "Sigtool.C67_only_outputs",
    "Sigtool.C67_failure",
    "Sigtool.C67_no_temporary_files"
   ],
   "note": ""
  },
  {
   "property": "C68",
   "status": "proved",
   "theorems": [
    "Sigtool.C68_all_or_nothing"
   ],
   "note": ""
  },
  {
   "property": "C69",
   "status": "proved",
   "theorems": [
    "Sigtool.C69_no_prompt",
    "Sigtool.C69_sources_agree"
   ],
   "note": ""
  },
  {
   "property": "C70",
   "status": "proved",
   "theorems": [
    "Sigtool.C70_never_warns",
    "Sigtool.C70_signed_needs_signer"
   ],
   "note": ""
  },
  {
   "property": "C71",
   "status": "proved",
   "theorems": [
    "Sigtool.C71_generate_encrypt_decrypt"
   ],
   "note": "Unless a wrapped key is an AEAD forgery; the key file name must not look like a user name (a@b)."
  },
  {
   "property": "C72",
   "status": "proved",
   "theorems": [
    "Sigtool.C72_generate_sign_verify"
   ],
   "note": ""
  },
  {
   "property": "C73",
   "status": "partial",
   "theorems": [
    "Sigtool.C73_header_refuted",
    "Sigtool.C73_header_replace_refuted",
    "Sigtool.C73_header_partial"
   ],
   "note": "False of the code: neither block size nor recipient list is signed, and the end marker 80 00 00 00 needs no key, so a changed header with an empty body is accepted as an empty, authenticated message (C73_header_refuted), and another listed recipient can replace header and body (C73_header_replace_refuted). Proved: what can be accepted after such a change."
  },
  {
   "property": "C74",
   "status": "proved",
   "theorems": [
    "Sigtool.C74_files_apart"
   ],
   "note": ""
  },
  {
   "property": "C75",
   "status": "proved",
   "theorems": [
    "Sigtool.C75_read_delivery",
    "Sigtool.C75_write_delivery"
   ],
   "note": ""
  },
  {
   "property": "C76",
   "status": "proved",
   "theorems": [
    "Sigtool.C76_encrypt_size",
    "Sigtool.C76_stream_size",
    "Sigtool.C76_nothing_else"
   ],
   "note": ""
  },
  {
   "property": "C77",
   "status": "proved",
   "theorems": [
    "Sigtool.C77_only_through_seal"
   ],
   "note": ""
  },
  {
   "property": "C78",
   "status": "proved",
   "theorems": [
    "Sigtool.C78_test_equals_decrypt",
    "Sigtool.C78_test_necessary"
   ],
   "note": ""
  },
  {
   "property": "C79",
   "status": "proved",
   "theorems": [
    "Sigtool.C79_generate_succeeds",
    "Sigtool.C79_sign_iff",
    "Sigtool.C79_encrypt_succeeds",
    "Sigtool.C79_at_sign"
   ],
   "note": "A recipient name with @ after its first character never names a file, as the usage text says (C79_at_sign)."
  },
  {
   "property": "C80",
   "status": "proved",
   "theorems": [
    "Sigtool.C80_signed_pipeline"
   ],
   "note": "Unless a wrapped key is an AEAD forgery; the key file name must not look like a user name (a@b)."
  },
  {
   "property": "C81",
   "status": "partial",
   "theorems": [
    "Sigtool.C81_reload_partial",
    "Sigtool.C81_reload_refuted",
    "Sigtool.C81_reload_private_partial",
    "Sigtool.C81_reload_private_refuted"
   ],
   "note": "False of the code: a YAML key loaded into an object that was used before does not reset the cached conversion, so the object wraps for and unwraps as the old key (C81_reload_refuted, C81_reload_private_refuted). Proved: every history that does not do this."
  },
  {
   "property": "C82",
   "status": "partial",
   "theorems": [
    "Sigtool.C82_ordered_partial",
    "Sigtool.C82_any_order_partial",
    "Sigtool.C82_torn_refuted",
    "Sigtool.C82_wait_free"
   ],
   "note": "False of the code: the cache is a slice written without a lock; if its pointer is stored before its length, or its length loaded before its pointer, another goroutine can see an empty slice and its AddRecipient fails (C82_torn_refuted). Proved: with the other order of accesses all is well; with any order a call gives the sequential result or fails without effect, and nobody waits."
  },
  {
   "property": "C83",
   "status": "proved",
   "theorems": [
    "Sigtool.C83_private",
    "Sigtool.C83_pair"
   ],
   "note": "SafeFile is modelled to create its temporary file with the mode it is given; the umask, which only takes bits away, is left out."
  },
  {
   "property": "C84",
   "status": "proved",
   "theorems": [
    "Sigtool.C84_fresh",
    "Sigtool.C84_new",
    "Sigtool.C84_generate",
    "Sigtool.C84_encrypt",
    "Sigtool.C84_main"
   ],
   "note": "rand.Reader is modelled as an io.Reader with any contents that may deliver short and fail; the random suffix SafeFile puts in the name of its temporary file is not part of this."
  },
  {
   "property": "C85",
   "status": "proved",
   "theorems": [
    "Sigtool.C85_pairs",
    "Sigtool.C85_exact"
   ],
   "note": "Answers C09 completely: C09 is false of the code, this says when."
  },
  {
   "property": "C86",
   "status": "proved",
   "theorems": [
    "Sigtool.C86_header",
    "Sigtool.C86_unambiguous",
    "Sigtool.C86_refused",
    "Sigtool.C86_concat"
   ],
   "note": "Strings of 2^63 bytes and more, which no Go program can hold, are excluded. protohelpers.Skip, a dependency, is modelled too."
  },
  {
   "property": "C87",
   "status": "proved",
   "theorems": [
    "Sigtool.C87_exact",
    "Sigtool.C87_unique",
    "Sigtool.C87_refused",
    "Sigtool.C87_reader",
    "Sigtool.C87_tail"
   ],
   "note": "For private keys of at least 32 bytes (all the others make SetPrivateKey crash, C44/C81) and a destination that does not fail."
  },
  {
   "property": "C88",
   "status": "proved",
   "theorems": [
    "Sigtool.C88_ssh_pipeline",
    "Sigtool.C88_ssh_sign_verify"
   ],
   "note": "pem.Decode is a parameter: what counts as an OpenSSH private key file is stated on what it returns. Public key files with other comments are refused by the code (C41)."
  },
  {
   "property": "C89",
   "status": "proved",
   "theorems": [
    "Sigtool.C89_copy_in",
    "Sigtool.C89_copy_in_outcome",
    "Sigtool.C89_copy_out",
    "Sigtool.C89_read_all"
   ],
   "note": "io.Copy, io.CopyBuffer and io.ReadAll (Go standard library) are modelled as their loops over Read and Write; a source with WriteTo or a destination with ReadFrom is outside the model."
  },
  {
   "property": "C90",
   "status": "proved",
   "theorems": [
    "Sigtool.C90_authorized_keys",
    "Sigtool.C90_public_file",
    "Sigtool.C90_public_crash",
    "Sigtool.C90_public_string",
    "Sigtool.C90_signature"
   ],
   "note": "Equivalences for every byte string; the YAML library is a parameter (what it reports for the text). The odd cases (crash on a three-field line with a foreign key, nil key without error for a foreign key argument) are stated as the code has them."
  },
  {
   "property": "C91",
   "status": "proved",
   "theorems": [
    "Sigtool.C91_private"
   ],
   "note": "Equivalence for every byte string; pem.Decode and the YAML library are parameters."
  },
  {
   "property": "C92",
   "status": "proved",
   "theorems": [
    "Sigtool.C92_verify",
    "Sigtool.C92_sign",
    "Sigtool.C92_generate",
    "Sigtool.C92_decrypt",
    "Sigtool.C92_decrypt_output",
    "Sigtool.C92_encrypt"
   ],
   "note": "Equivalences about the whole program, with a specification of texts and containers that does not mention the parsers. Failing writes are excluded where the command reports them (generate, encrypt, decrypt); sign ignores them (C58). Flag parser, YAML and pem.Decode are parameters."
  },
  {
   "property": "C93",
   "status": "proved",
   "theorems": [
    "Sigtool.C93_verify",
    "Sigtool.C93_sign",
    "Sigtool.C93_generate",
    "Sigtool.C93_decrypt",
    "Sigtool.C93_encrypt",
    "Sigtool.C93_codes"
   ],
   "note": "Equivalences about the whole program. Out of memory and a random source that fails are not crashes in this model (the latter: C84); scrypt is a parameter that may crash."
  },
  {
   "property": "C94",
   "status": "proved",
   "theorems": [
    "Sigtool.C94_atomic",
    "Sigtool.C94_done",
    "Sigtool.C94_no_litter"
   ],
   "note": "Each run has its own view of the files, so nothing is assumed about what it read and when. Temporary names and inodes are unused and not shared between runs."
  },
  {
   "property": "C95",
   "status": "partial",
   "theorems": [
    "Sigtool.C95_alone_partial",
    "Sigtool.C95_pair_refuted"
   ],
   "note": "False of the code: the existence check and the rename are separate steps, and the two files are renamed one after the other. C95_pair_refuted exhibits two successful runs without --force that leave the private key of one and the public key of the other. C95_alone_partial: it holds if no other run names the file."
  },
  {
   "property": "C96",
   "status": "partial",
   "theorems": [
    "Sigtool.C96_exit",
    "Sigtool.C96_verify_line",
    "Sigtool.C96_quiet_partial",
    "Sigtool.C96_quiet_refuted",
    "Sigtool.C96_spoof_refuted"
   ],
   "note": "Proved: the lines (C96_verify_line) and that --quiet prints nothing if the arguments can be checked. False of the code: with --quiet the messages of Die still appear (C96_quiet_refuted), and file names are printed as they are, so a name with a line break forges a line (C96_spoof_refuted)."
  },
  {
   "property": "C97",
   "status": "partial",
   "theorems": [
    "Sigtool.C97_warning_refuted",
    "Sigtool.C97_notices_partial"
   ],
   "note": "Proved: 'Enc file OK' and the failure messages. False of the code: the message about a missing sender key is unreachable (C97_warning_refuted), because AuthenticatedSender is only true after a sender was named."
  },
  {
   "property": "C98",
   "status": "proved",
   "theorems": [
    "Sigtool.C98_header",
    "Sigtool.C98_memory",
    "Sigtool.C98_input"
   ],
   "note": ""
  },
  {
   "property": "C99",
   "status": "proved",
   "theorems": [
    "Sigtool.C99_keypair",
    "Sigtool.C99_agreement",
    "Sigtool.C99_low_order"
   ],
   "note": "X25519 is the RFC's function for points of the curve (nothing is said about the twist)."
  },
  {
   "property": "C100",
   "status": "proved",
   "theorems": [
    "Sigtool.C100_sign_verify",
    "Sigtool.C100_unique",
    "Sigtool.C100_laws"
   ],
   "note": ""
  },
  {
   "property": "C101",
   "status": "proved",
   "theorems": [
    "Sigtool.C101_gcm",
    "Sigtool.C101_laws"
   ],
   "note": ""
  },
  {
   "property": "C102",
   "status": "proved",
   "theorems": [
    "Sigtool.C102_top",
    "Sigtool.C102_generate",
    "Sigtool.C102_sign",
    "Sigtool.C102_verify",
    "Sigtool.C102_encrypt",
    "Sigtool.C102_decrypt",
    "Sigtool.C102_readme",
    "Sigtool.C102_readme_refuted",
    "Sigtool.C102_nonvacuous"
   ],
   "note": ""
  },
  {
   "property": "C103",
   "status": "partial",
   "theorems": [
    "Sigtool.C103_status_partial",
    "Sigtool.C103_status_refuted",
    "Sigtool.C103_main_refuted",
    "Sigtool.C103_nonvacuous"
   ],
   "note": "holds for the program, generate, sign and verify (C103_status_partial); false for encrypt and decrypt (C103_status_refuted, C103_main_refuted), which exit with status 0"
  },
  {
   "property": "C104",
   "status": "proved",
   "theorems": [
    "Sigtool.C104_encrypt_decrypt",
    "Sigtool.C104_sign_verify",
    "Sigtool.C104_signed"
   ],
   "note": ""
  },
  {
   "property": "C105",
   "status": "proved",
   "theorems": [
    "Sigtool.C105_laws",
    "Sigtool.C105_encrypt_decrypt",
    "Sigtool.C105_total",
    "Sigtool.C105_sign_verify"
   ],
   "note": ""
  },
  {
   "property": "C106",
   "status": "proved",
   "theorems": [
    "Sigtool.C106_missing_p",
    "Sigtool.C106_crash",
    "Sigtool.C106_written_parameters"
   ],
   "note": "exact characterisation; memory exhaustion below 2^48 bytes is not modelled"
  },
  {
   "property": "C107",
   "status": "proved",
   "theorems": [
    "Sigtool.C107_file",
    "Sigtool.C107_stream",
    "Sigtool.C107_key_file",
    "Sigtool.C107_secrecy",
    "Sigtool.C107_recipient"
   ],
   "note": "symbolic attacker: C107_file, C107_stream and C107_key_file tie the terms to the bytes written; no computational hardness"
  },
  {
   "property": "C108",
   "status": "proved",
   "theorems": [
    "Sigtool.C108_header",
    "Sigtool.C108_trailer"
   ],
   "note": "symbolic attacker, see C107"
  },
  {
   "property": "C109",
   "status": "proved",
   "theorems": [
    "Sigtool.C109_recipients",
    "Sigtool.C109_sender"
   ],
   "note": "symbolic attacker, see C107; says that what a test needs cannot be computed, not that two files are observationally equivalent"
  },
  {
   "property": "C110",
   "status": "proved",
   "theorems": [
    "Sigtool.C110_loads"
   ],
   "note": ""
  },
  {
   "property": "C111",
   "status": "proved",
   "theorems": [
    "Sigtool.C111_passing_on",
    "Sigtool.C111_recipients"
   ],
   "note": "symbolic attacker, see C107"
  },
  {
   "property": "C112",
   "status": "proved",
   "theorems": [
    "Sigtool.C112_secrecy",
    "Sigtool.C112_signatures",
    "Sigtool.C112_asked",
    "Sigtool.C112_decrypt"
   ],
   "note": "symbolic attacker, see C107"
  },
  {
   "property": "C113",
   "status": "proved",
   "theorems": [
    "Sigtool.C113_tests_sh",
    "Sigtool.C113_tests_sh_ssh"
   ],
   "note": ""
  },
  {
   "property": "C114",
   "status": "proved",
   "theorems": [
    "Sigtool.C114_names",
    "Sigtool.C114_slash",
    "Sigtool.C114_generate",
    "Sigtool.C114_clean"
   ],
   "note": ""
  },
  {
   "property": "C115",
   "status": "proved",
   "theorems": [
    "Sigtool.C115_encrypt",
    "Sigtool.C115_stream",
    "Sigtool.C115_share"
   ],
   "note": "for the primitives of the standards (Spec.Standard), both ways of encrypting; C115_share counts the values of the last byte"
  },
  {
   "property": "C116",
   "status": "proved",
   "theorems": [
    "Sigtool.C116_recipes",
    "Sigtool.C116_indistinguishable",
    "Sigtool.C116_recipient"
   ],
   "note": "static equivalence of the terms of C107 (symbolic attacker; nonces of the recipients of one file distinct); C116_recipient shows that the tests have power, C116_recipes that the attacker is that of C107"
  },
  {
   "property": "C117",
   "status": "proved",
   "theorems": [
    "Sigtool.C117_last_save",
    "Sigtool.C117_untouched",
    "Sigtool.C117_refuses",
    "Sigtool.C117_saves",
    "Sigtool.C117_crash",
    "Sigtool.C117_sign_flow"
   ],
   "note": "comments that the YAML library reads back; a private key's comment does not contain the OpenSSH marker (C35_roundtrip_refuted)"
  },
  {
   "property": "C118",
   "status": "partial",
   "theorems": [
    "Sigtool.C118_keys",
    "Sigtool.C118_signatures_refuted",
    "Sigtool.C118_signatures_partial"
   ],
   "note": "false for signatures: ReadSignature returns an empty signature for every key file (C118_signatures_refuted); the key readers do refuse (C118_keys), and the empty signature matches no key, so that verify fails (C118_signatures_partial)"
  },
  {
   "property": "C119",
   "status": "proved",
   "theorems": [
    "Sigtool.C119_retry",
    "Sigtool.C119_decrypts",
    "Sigtool.C119_after_success",
    "Sigtool.C119_reached"
   ],
   "note": "after calls that succeeded the stale answer of AuthenticatedSender (C62_stale_refuted) is part of the statement"
  },
  {
   "property": "C120",
   "status": "partial",
   "theorems": [
    "Sigtool.C120_one_file_refuted",
    "Sigtool.C120_verify_refuted",
    "Sigtool.C120_one_file_partial"
   ],
   "note": "false for public keys in general: under the key that encodes the neutral element, which the library accepts, one signature is valid for every file (C120_one_file_refuted; the verify command: C120_verify_refuted). Proved for every generated key, up to a SHA-512 collision or two hashes that agree modulo the group order (C120_one_file_partial). Signatures of other lengths than 64 are refused by Go's library (hypothesis)"
  },
  {
   "property": "C121",
   "status": "partial",
   "theorems": [
    "Sigtool.C121_addressee_refuted",
    "Sigtool.C121_addressee_partial"
   ],
   "note": "false for public keys in general: the library accepts the key of the base point plus the point of order two, which belongs to no seed; AddRecipient returns nil and no private key opens the file (C121_addressee_refuted, up to a forged box). Proved for every key that was generated (C121_addressee_partial)"
  },
  {
   "property": "C122",
   "status": "partial",
   "theorems": [
    "Sigtool.C122_replaced_refuted",
    "Sigtool.C122_tampered_refuted",
    "Sigtool.C122_tampered_partial"
   ],
   "note": "false for OpenSSH files: an unprotected file is loaded whatever the pass phrase (C122_replaced_refuted), and 32 flipped bytes in a file encrypted with aes256-ctr load as a key with the same seed and another public half, under which one signature, next to one under the right key, gives the private key away (C122_tampered_refuted: forged signatures for every file verify). Proved for sigtool's own format up to an AEAD forgery (C122_tampered_partial)"
  },
  {
   "property": "C123",
   "status": "partial",
   "theorems": [
    "Sigtool.C123_one_key",
    "Sigtool.C123_one_key_refuted",
    "Sigtool.C123_one_key_partial"
   ],
   "note": "proved for the verify command (C123_one_key, up to a collision of truncated hashes). False of VerifyFile without IsPKMatch: under the keys that encode (0, 1) and (0, -1) one signature is valid for the empty file (C123_one_key_refuted). For generated keys and VerifyFile alone proved up to a clash of secret numbers modulo the group order (C123_one_key_partial)"
  },
  {
   "property": "C124",
   "status": "partial",
   "theorems": [
    "Sigtool.C124_level",
    "Sigtool.C124_failed",
    "Sigtool.C124_encrypt_refuted",
    "Sigtool.C124_stream_refuted",
    "Sigtool.C124_decrypt_refuted",
    "Sigtool.C124_flag"
   ],
   "note": "false with a positive debug level: what Encrypt, NewStreamWriter or SetPrivateKey print, together with the file, gives the whole plaintext to an explicit procedure without any key (C124_encrypt_refuted, C124_stream_refuted, C124_decrypt_refuted). What holds: the level changes no result and without a positive level nothing is printed (C124_level), a refused SetPrivateKey prints nothing at any level (C124_failed), and the program has a positive level only after --debug (C124_flag)"
  },
  {
   "property": "C125",
   "status": "partial",
   "theorems": [
    "Sigtool.C125_copies_partial",
    "Sigtool.C125_wiped_secret_refuted",
    "Sigtool.C125_wiped_point_refuted",
    "Sigtool.C125_changed_hash_refuted"
   ],
   "note": "false of what the key hands out: ToCurve25519SK, ToCurve25519PK and Hash return the arrays the key works with. Wiping the secret makes SetPrivateKey fail for every file (C125_wiped_secret_refuted), clearing the point makes AddRecipient fail (C125_wiped_point_refuted), changing the hash makes signatures name another key (C125_changed_hash_refuted). Proved for the program's own memory (C125_copies_partial)"
  },
  {
   "property": "C126",
   "status": "proved",
   "theorems": [
    "Sigtool.C126_encrypt",
    "Sigtool.C126_stream"
   ],
   "note": "game-based: the advantage of every spy is at most the sum of the advantages of explicit players against the primitives (defined in Spec/Game.lean, each runs the spy once), for Encrypt (C126_encrypt) and the stream writer (C126_stream); the players against AES-GCM are proved never to repeat a nonce under a key. How small these advantages are is a property of the primitives, outside the repository"
  },
  {
   "property": "C127",
   "status": "proved",
   "theorems": [
    "Sigtool.C127_encrypt",
    "Sigtool.C127_stream"
   ],
   "note": "game-based, with explicit players (Spec/Anon.lean), for Encrypt and the stream writer"
  },
  {
   "property": "C128",
   "status": "proved",
   "theorems": [
    "Sigtool.C128_encrypt",
    "Sigtool.C128_stream"
   ],
   "note": "game-based, by a hybrid argument over the files, reduced to C126 (Spec/ManyFiles.lean), for Encrypt and the stream writer"
  },
  {
   "property": "C129",
   "status": "proved",
   "theorems": [
    "Sigtool.C129_joint"
   ],
   "note": "game-based: existential forgery under adaptively chosen uses of the key (signing files, sending encrypted files), reduced to an explicit Ed25519 forger and two explicit SHA-512 collision searches (Spec/Forge.lean). Uses of the key as a recipient (SetPrivateKey) are not among the uses"
  },
  {
   "property": "C130",
   "status": "partial",
   "theorems": [
    "Sigtool.C130_session",
    "Sigtool.C130_contents_partial",
    "Sigtool.C130_contents_refuted"
   ],
   "note": "game-based (Spec/Author.lean). (a) is proved (C130_session). (b) is false of the code: a recipient can replace the contents of a file by any others and end it with the bare marker 80 00 00 00, since the length of the last chunk then is 0 and the trailer is not read; C130_contents_refuted gives an explicit impostor who always succeeds. Proved is (b) for files that do not end in the bare marker (C130_contents_partial); it does not say that the signature in the trailer itself is unchanged"
  },
  {
   "property": "C131",
   "status": "proved",
   "theorems": [
    "Sigtool.C131_encrypt",
    "Sigtool.C131_stream"
   ],
   "note": "game-based (Spec/Outsider.lean), for Encrypt and the stream writer, reduced by the steps of C126 and then to an explicit AES-GCM forger who names the chunks of the changed file. 'Its first chunks' instead of 'the plaintext' because truncation in front of a bare marker 80 00 00 00 is possible (C11_truncation_refuted). Files with another header than the one sent are not covered: for unsigned files nothing could be claimed, for signed ones see C130_session"
  },
  {
   "property": "C132",
   "status": "proved",
   "theorems": [
    "Sigtool.C132_reaction",
    "Sigtool.C132_signed"
   ],
   "note": "C132_reaction: writes and error of Decrypt equal Spec.reaction, a keyless function of the two files; C132_signed: the one thing it tells. Other headers: C73, C131"
  },
  {
   "property": "C133",
   "status": "proved",
   "theorems": [
    "Sigtool.C133_encrypt",
    "Sigtool.C133_stream",
    "Sigtool.C133_contents_refuted"
   ],
   "note": "C133_encrypt, C133_stream: adaptive reaction attacks (Spec/Asking.lean), on top of C126, C131 and C132. For signed files the bound has a term for a second signature under the sender's key of the message signed in the trailer (strong unforgeability of Ed25519). Files with another header are refused in the game. C133_contents_refuted: with the bytes the recipient gets, one question wins, for all primitives (no chosen-ciphertext secrecy)"
  },
  {
   "property": "C134",
   "status": "proved",
   "theorems": [
    "Sigtool.C134_exit",
    "Sigtool.C134_secrecy",
    "Sigtool.C134_anonymity"
   ],
   "note": "C134_exit, C134_secrecy, C134_anonymity: the games of C126 and C127 with encryptCmd as the program, the file being what lies in the output file (or on standard output) afterwards (Spec/Site.lean). Hypotheses: Site.Ready, met by SiteDemo.site for all key pairs"
  },
  {
   "property": "C135",
   "status": "proved",
   "theorems": [
    "Sigtool.C135_commands"
   ],
   "note": "C135_commands: the game of C131 with encryptCmd and decryptCmd as the programs. Files with another header are not covered, as in C131; 'first chunks' as in C131 (C11_truncation_refuted)"
  },
  {
   "property": "C136",
   "status": "proved",
   "theorems": [
    "Sigtool.C136_commands"
   ],
   "note": "C136_commands: the game of C129 with signCmd and verifyCmd as the programs. The file to be signed is not the key file itself (under no name): signing it would be signing a text that depends on the secret key"
  },
  {
   "property": "C137",
   "status": "proved",
   "theorems": [
    "Sigtool.C137_joint"
   ],
   "note": "C137_joint: the game of C129 with decryption as a third use; the bound is in terms of a forger of Ed25519 signatures who also has an X25519 oracle for the converted key, which is the standard assumption for one key pair with both uses. Decrypting is any sequence of SetPrivateKey, Decrypt, NewStreamReader and Read on one Decryptor (an order of calls that depends on earlier results is covered too: starting again with the same input and one more call gives the same results, as decrypting uses no random bytes)"
  },
  {
   "property": "C138",
   "status": "proved",
   "theorems": [
    "Sigtool.C138_decrypt",
    "Sigtool.C138_encrypt",
    "Sigtool.C138_sign",
    "Sigtool.C138_generate",
    "Sigtool.C138_others"
   ],
   "note": "C138_decrypt, C138_encrypt, C138_sign, C138_generate, C138_others, for every prefix of the system calls of W.main; the buffers of standard output are assumed empty at the start. What \"genuine\" means is Spec.Released (header opened, sender accepted, each chunk opens under the data key with its own position); which file the bytes end up in is C50, C51, C58, C66-C69"
  },
  {
   "property": "C139",
   "status": "partial",
   "theorems": [
    "Sigtool.C139_rewrite_refuted",
    "Sigtool.C139_sent",
    "Sigtool.C139_command_refuted"
   ],
   "note": "False of the code: C139_rewrite_refuted (library) and C139_command_refuted (sigtool decrypt -v exits 0 and writes what the co-recipient wants), for every container in which both get the same root key, which C139_sent shows for every signed sending session. What holds: the same for bodies without the empty end marker (C14_replace_partial), and against everybody who is not a recipient (C131, C135)"
  }
 ]
}