{
 "claims": [
  {
   "property": "C01",
   "status": "proved",
   "theorems": [
    "Verif.Props.c01_plaintext_round_trip"
   ],
   "note": ""
  },
  {
   "property": "C02",
   "status": "proved",
   "theorems": [
    "Verif.Props.c02_plaintext_layout",
    "Verif.Props.c02_encrypted_layout"
   ],
   "note": ""
  },
  {
   "property": "C03",
   "status": "proved",
   "theorems": [
    "Verif.Props.c03_decode_total",
    "Verif.Props.c03_parse_total"
   ],
   "note": ""
  },
  {
   "property": "C04",
   "status": "proved",
   "theorems": [
    "Verif.Props.c04_decode_is_specified",
    "Verif.Props.c04_parse_version"
   ],
   "note": ""
  },
  {
   "property": "C05",
   "status": "proved",
   "theorems": [
    "Verif.Props.c05_canonical",
    "Verif.Props.c05_reencode",
    "Verif.Props.c05_injective"
   ],
   "note": ""
  },
  {
   "property": "C06",
   "status": "proved",
   "theorems": [
    "Verif.Props.c06_case_insensitive",
    "Verif.Props.c06_parse_case_insensitive"
   ],
   "note": ""
  },
  {
   "property": "C07",
   "status": "proved",
   "theorems": [
    "Verif.Props.c07_later_word",
    "Verif.Props.c07_first_word"
   ],
   "note": ""
  },
  {
   "property": "C08",
   "status": "proved",
   "theorems": [
    "Verif.Props.c08_single_bit",
    "Verif.Props.c08_checksum_only",
    "Verif.Props.c08_counts"
   ],
   "note": ""
  },
  {
   "property": "C09",
   "status": "proved",
   "theorems": [
    "Verif.Props.c09_encrypted_round_trip",
    "Verif.Props.c09_short_random"
   ],
   "note": ""
  },
  {
   "property": "C10",
   "status": "proved",
   "theorems": [
    "Verif.Props.c10_password_check",
    "Verif.Props.c10_collision"
   ],
   "note": ""
  },
  {
   "property": "C11",
   "status": "proved",
   "theorems": [
    "Verif.Props.c11_recover_refuses",
    "Verif.Props.c11_same_recovery",
    "Verif.Props.c11_seed_access"
   ],
   "note": ""
  },
  {
   "property": "C12",
   "status": "proved",
   "theorems": [
    "Verif.Props.c12_empty_password"
   ],
   "note": ""
  },
  {
   "property": "C13",
   "status": "proved",
   "theorems": [
    "Verif.Props.c13_same_keys",
    "Verif.Props.c13_conversion_chain"
   ],
   "note": ""
  },
  {
   "property": "C14",
   "status": "proved",
   "theorems": [
    "Verif.Props.c14_generate_seed",
    "Verif.Props.c14_seed_bytes",
    "Verif.Props.c14_bijection"
   ],
   "note": ""
  },
  {
   "property": "C15",
   "status": "proved",
   "theorems": [
    "Verif.Props.c15_salt_uniform",
    "Verif.Props.c15_reads_three"
   ],
   "note": ""
  },
  {
   "property": "C16",
   "status": "proved",
   "theorems": [
    "Verif.Props.c16_new_seed"
   ],
   "note": ""
  },
  {
   "property": "C17",
   "status": "proved",
   "theorems": [
    "Verif.Props.c17_new_abs",
    "Verif.Props.c17_negative_panics"
   ],
   "note": "Proves the defect: NewSeed accepts the integer and the plaintext encoder panics."
  },
  {
   "property": "C18",
   "status": "proved",
   "theorems": [
    "Verif.Props.c18_new_offset",
    "Verif.Props.c18_plaintext_offset",
    "Verif.Props.c18_encrypted_offset"
   ],
   "note": ""
  },
  {
   "property": "C19",
   "status": "proved",
   "theorems": [
    "Verif.Props.c19_unchanged",
    "Verif.Props.c19_globals",
    "Verif.Props.c19_refines",
    "Verif.Props.c19_encodeToIndices",
    "Verif.Props.c19_aliased"
   ],
   "note": ""
  },
  {
   "property": "C20",
   "status": "proved",
   "theorems": [
    "Verif.Props.c20_new"
   ],
   "note": ""
  },
  {
   "property": "C21",
   "status": "proved",
   "theorems": [
    "Verif.Props.c21_recover_plaintext",
    "Verif.Props.c21_recover_encrypted"
   ],
   "note": ""
  },
  {
   "property": "C22",
   "status": "proved",
   "theorems": [
    "Verif.Props.c22_recovery_total",
    "Verif.Props.c22_recovery_encrypted"
   ],
   "note": ""
  },
  {
   "property": "C23",
   "status": "proved",
   "theorems": [
    "Verif.Props.c23_master",
    "Verif.Props.c23_master_same"
   ],
   "note": ""
  },
  {
   "property": "C24",
   "status": "proved",
   "theorems": [
    "Verif.Props.c24_subkeys",
    "Verif.Props.c24_subkey_same"
   ],
   "note": ""
  },
  {
   "property": "C25",
   "status": "proved",
   "theorems": [
    "Verif.Props.c25_info_strings",
    "Verif.Props.c25_info_distinct"
   ],
   "note": ""
  },
  {
   "property": "C26",
   "status": "proved",
   "theorems": [
    "Verif.Props.c26_root_key",
    "Verif.Props.c26_root_input_injective"
   ],
   "note": ""
  },
  {
   "property": "C27",
   "status": "proved",
   "theorems": [
    "Verif.Props.c27_expiry",
    "Verif.Props.c27_exported"
   ],
   "note": ""
  },
  {
   "property": "C28",
   "status": "proved",
   "theorems": [
    "Verif.Props.c28_long_ttl",
    "Verif.Props.c28_long_ttl_wraps",
    "Verif.Props.c28_short_ttl"
   ],
   "note": "Proves the defect; the wrap modulo 2^32 is proved under the explicit hypothesis that the float64-to-uint32 conversion wraps, as on amd64."
  },
  {
   "property": "C29",
   "status": "proved",
   "theorems": [
    "Verif.Props.c29_user_id",
    "Verif.Props.c29_whole_as_name"
   ],
   "note": ""
  },
  {
   "property": "C30",
   "status": "proved",
   "theorems": [
    "Verif.Props.c30_packet",
    "Verif.Props.c30_packets",
    "Verif.Props.c30_too_long"
   ],
   "note": ""
  },
  {
   "property": "C31",
   "status": "proved",
   "theorems": [
    "Verif.Props.c31_mpi",
    "Verif.Props.c31_checksum"
   ],
   "note": ""
  },
  {
   "property": "C32",
   "status": "proved",
   "theorems": [
    "Verif.Props.c32_export"
   ],
   "note": ""
  },
  {
   "property": "C33",
   "status": "proved",
   "theorems": [
    "Verif.Props.c33_subkey_export",
    "Verif.Props.c33_secret_unused"
   ],
   "note": ""
  },
  {
   "property": "C34",
   "status": "proved",
   "theorems": [
    "Verif.Props.c34_shuffle",
    "Verif.Props.c34_seed",
    "Verif.Props.c34_order"
   ],
   "note": ""
  },
  {
   "property": "C35",
   "status": "proved",
   "theorems": [
    "Verif.Props.c35_protected_export"
   ],
   "note": ""
  },
  {
   "property": "C36",
   "status": "proved",
   "theorems": [
    "Verif.Props.c36_octets",
    "Verif.Props.c36_count",
    "Verif.Props.c36_rfc"
   ],
   "note": "Includes the proof of the defect for passwords above 65011704 bytes."
  },
  {
   "property": "C37",
   "status": "proved",
   "theorems": [
    "Verif.Props.c37_deterministic",
    "Verif.Props.c37_same_public",
    "Verif.Props.c37_same_public_subkeys"
   ],
   "note": ""
  },
  {
   "property": "C38",
   "status": "proved",
   "theorems": [
    "Verif.Props.c38_scalar",
    "Verif.Props.c38_exported"
   ],
   "note": ""
  },
  {
   "property": "C39",
   "status": "proved",
   "theorems": [
    "Verif.Props.c39_fingerprint",
    "Verif.Props.c39_v5",
    "Verif.Props.c39_commits",
    "Verif.Props.c39_commits_master"
   ],
   "note": ""
  },
  {
   "property": "C40",
   "status": "proved",
   "theorems": [
    "Verif.Props.c40_buffer_is_deque",
    "Verif.Props.c40_observers"
   ],
   "note": "Values are non-negative integers, as in every use inside the package except the one of C17."
  },
  {
   "property": "C41",
   "status": "proved",
   "theorems": [
    "Verif.Props.c41_encode",
    "Verif.Props.c41_negative",
    "Verif.Props.c41_decode"
   ],
   "note": ""
  },
  {
   "property": "C42",
   "status": "proved",
   "theorems": [
    "Verif.Props.c42_encode",
    "Verif.Props.c42_decode"
   ],
   "note": ""
  },
  {
   "property": "C43",
   "status": "proved",
   "theorems": [
    "Verif.Props.c43_accepts",
    "Verif.Props.c43_value",
    "Verif.Props.c43_unambiguous"
   ],
   "note": ""
  },
  {
   "property": "C44",
   "status": "proved",
   "theorems": [
    "Verif.Props.c44_wraps",
    "Verif.Props.c44_600y"
   ],
   "note": ""
  },
  {
   "property": "C45",
   "status": "proved",
   "theorems": [
    "Verif.Props.c45_only",
    "Verif.Props.c45_every_text"
   ],
   "note": ""
  },
  {
   "property": "C46",
   "status": "proved",
   "theorems": [
    "Verif.Props.c46_refused",
    "Verif.Props.c46_exact"
   ],
   "note": ""
  },
  {
   "property": "C47",
   "status": "proved",
   "theorems": [
    "Verif.Props.c47_existing",
    "Verif.Props.c47_crash",
    "Verif.Props.c47_round_trip",
    "Verif.Props.c47_reader"
   ],
   "note": ""
  },
  {
   "property": "C48",
   "status": "proved",
   "theorems": [
    "Verif.Props.c48_quiet",
    "Verif.Props.c48_overwrites"
   ],
   "note": ""
  },
  {
   "property": "C49",
   "status": "proved",
   "theorems": [
    "Verif.Props.c49_saved_first",
    "Verif.Props.c49_all_or_nothing",
    "Verif.Props.c49_shown_last"
   ],
   "note": ""
  },
  {
   "property": "C50",
   "status": "proved",
   "theorems": [
    "Verif.Props.c50_simple",
    "Verif.Props.c50_complete",
    "Verif.Props.c50_typed",
    "Verif.Props.c50_lines",
    "Verif.Props.c50_by_hand"
   ],
   "note": ""
  },
  {
   "property": "C51",
   "status": "proved",
   "theorems": [
    "Verif.Props.c51_no_left_arrow",
    "Verif.Props.c51_typed"
   ],
   "note": ""
  },
  {
   "property": "C52",
   "status": "proved",
   "theorems": [
    "Verif.Props.c52_extra_words",
    "Verif.Props.c52_rejected",
    "Verif.Props.c52_revise"
   ],
   "note": ""
  },
  {
   "property": "C53",
   "status": "proved",
   "theorems": [
    "Verif.Props.c53_returned",
    "Verif.Props.c53_confirmed",
    "Verif.Props.c53_no_password",
    "Verif.Props.c53_interrupt",
    "Verif.Props.c53_typed"
   ],
   "note": ""
  },
  {
   "property": "C54",
   "status": "proved",
   "theorems": [
    "Verif.Props.c54_race",
    "Verif.Props.c54_waiting",
    "Verif.Props.c54_first"
   ],
   "note": ""
  },
  {
   "property": "C55",
   "status": "proved",
   "theorems": [
    "Verif.Props.c55_first_right",
    "Verif.Props.c55_still_asking",
    "Verif.Props.c55_plaintext",
    "Verif.Props.c55_wrong_no_effect"
   ],
   "note": ""
  },
  {
   "property": "C56",
   "status": "proved",
   "theorems": [
    "Verif.Props.c56_no_file",
    "Verif.Props.c56_in_file",
    "Verif.Props.c56_plaintext"
   ],
   "note": ""
  },
  {
   "property": "C57",
   "status": "proved",
   "theorems": [
    "Verif.Props.c57_layout",
    "Verif.Props.c57_diverges",
    "Verif.Props.c57_terminates_iff",
    "Verif.Props.c57_every_text",
    "Verif.Props.c57_phrase_notice"
   ],
   "note": ""
  },
  {
   "property": "C58",
   "status": "proved",
   "theorems": [
    "Verif.Props.c58_status",
    "Verif.Props.c58_total",
    "Verif.Props.c58_unique",
    "Verif.Props.c58_usage_once",
    "Verif.Props.c58_no_effect",
    "Verif.Props.c58_status_one"
   ],
   "note": ""
  },
  {
   "property": "C59",
   "status": "proved",
   "theorems": [
    "Verif.Props.c59_long_tail",
    "Verif.Props.c59_short_tail"
   ],
   "note": ""
  },
  {
   "property": "C60",
   "status": "proved",
   "theorems": [
    "Verif.Props.c60_same_key"
   ],
   "note": ""
  },
  {
   "property": "C61",
   "status": "proved",
   "theorems": [
    "Verif.Props.c61_echo_left_off",
    "Verif.Props.c61_stray_newline"
   ],
   "note": ""
  },
  {
   "property": "C62",
   "status": "proved",
   "theorems": [
    "Verif.Props.c62_same_seed"
   ],
   "note": ""
  },
  {
   "property": "C63",
   "status": "proved",
   "theorems": [
    "Verif.Props.c63_accepted",
    "Verif.Props.c63_help",
    "Verif.Props.c63_refused",
    "Verif.Props.c63_unambiguous",
    "Verif.Props.c63_generate",
    "Verif.Props.c63_recover",
    "Verif.Props.c63_convert"
   ],
   "note": ""
  },
  {
   "property": "C64",
   "status": "proved",
   "theorems": [
    "Verif.Props.c64_ignored",
    "Verif.Props.c64_request_lost"
   ],
   "note": ""
  },
  {
   "property": "C65",
   "status": "proved",
   "theorems": [
    "Verif.Props.c65_usage"
   ],
   "note": ""
  },
  {
   "property": "C66",
   "status": "proved",
   "theorems": [
    "Verif.Props.c66_shown",
    "Verif.Props.c66_examples",
    "Verif.Props.c66_convert_encrypt"
   ],
   "note": ""
  },
  {
   "property": "C67",
   "status": "proved",
   "theorems": [
    "Verif.Props.c67_failure_silent",
    "Verif.Props.c67_success_prints"
   ],
   "note": ""
  },
  {
   "property": "C68",
   "status": "proved",
   "theorems": [
    "Verif.Props.c68_refines",
    "Verif.Props.c68_results",
    "Verif.Props.c68_failed",
    "Verif.Props.c68_succeeded",
    "Verif.Props.c68_realised"
   ],
   "note": ""
  },
  {
   "property": "C69",
   "status": "proved",
   "theorems": [
    "Verif.Props.c69_generate_key",
    "Verif.Props.c69_generate_phrase",
    "Verif.Props.c69_recover_key",
    "Verif.Props.c69_convert_phrase",
    "Verif.Props.c69_asked_once"
   ],
   "note": ""
  },
  {
   "property": "C70",
   "status": "proved",
   "theorems": [
    "Verif.Props.c70_generate",
    "Verif.Props.c70_process",
    "Verif.Props.c70_refused"
   ],
   "note": ""
  },
  {
   "property": "C71",
   "status": "proved",
   "theorems": [
    "Verif.Props.c71_recover",
    "Verif.Props.c71_process"
   ],
   "note": ""
  },
  {
   "property": "C72",
   "status": "proved",
   "theorems": [
    "Verif.Props.c72_convert",
    "Verif.Props.c72_process"
   ],
   "note": ""
  },
  {
   "property": "C73",
   "status": "proved",
   "theorems": [
    "Verif.Props.c73_by_hand",
    "Verif.Props.c73_converted"
   ],
   "note": ""
  },
  {
   "property": "C74",
   "status": "proved",
   "theorems": [
    "Verif.Props.c74_returns",
    "Verif.Props.c74_aborted",
    "Verif.Props.c74_otherwise"
   ],
   "note": ""
  },
  {
   "property": "C75",
   "status": "proved",
   "theorems": [
    "Verif.Props.c75_shown"
   ],
   "note": ""
  },
  {
   "property": "C76",
   "status": "proved",
   "theorems": [
    "Verif.Props.c76_messages",
    "Verif.Props.c76_remnant"
   ],
   "note": ""
  },
  {
   "property": "C77",
   "status": "proved",
   "theorems": [
    "Verif.Props.c77_erased",
    "Verif.Props.c77_wrapped_stays"
   ],
   "note": ""
  },
  {
   "property": "C78",
   "status": "proved",
   "theorems": [
    "Verif.Props.c78_shown",
    "Verif.Props.c78_erased",
    "Verif.Props.c78_messages",
    "Verif.Props.c78_unended_stays",
    "Verif.Props.c78_ended"
   ],
   "note": ""
  },
  {
   "property": "C79",
   "status": "proved",
   "theorems": [
    "Verif.Props.c79_shown",
    "Verif.Props.c79_generate",
    "Verif.Props.c79_convert"
   ],
   "note": ""
  },
  {
   "property": "C80",
   "status": "proved",
   "theorems": [
    "Verif.Props.c80_same",
    "Verif.Props.c80_only_adds",
    "Verif.Props.c80_option",
    "Verif.Props.c80_generate",
    "Verif.Props.c80_recover",
    "Verif.Props.c80_convert"
   ],
   "note": ""
  },
  {
   "property": "C81",
   "status": "proved",
   "theorems": [
    "Verif.Props.c81_generate",
    "Verif.Props.c81_recover",
    "Verif.Props.c81_convert",
    "Verif.Props.c81_status"
   ],
   "note": ""
  },
  {
   "property": "C82",
   "status": "proved",
   "theorems": [
    "Verif.Props.c82_lost_word",
    "Verif.Props.c82_lost_first",
    "Verif.Props.c82_exchanged",
    "Verif.Props.c82_exchanged_first"
   ],
   "note": ""
  },
  {
   "property": "C83",
   "status": "proved",
   "theorems": [
    "Verif.Props.c83_never_stuck",
    "Verif.Props.c83_bounded",
    "Verif.Props.c83_three_lines",
    "Verif.Props.c83_returns",
    "Verif.Props.c83_left_alone"
   ],
   "note": ""
  },
  {
   "property": "C84",
   "status": "proved",
   "theorems": [
    "Verif.Props.c84_dialogue",
    "Verif.Props.c84_refused",
    "Verif.Props.c84_asked",
    "Verif.Props.c84_returned",
    "Verif.Props.c84_newline",
    "Verif.Props.c84_secret",
    "Verif.Props.c84_screen",
    "Verif.Props.c84_same_row",
    "Verif.Props.c84_aborted"
   ],
   "note": ""
  },
  {
   "property": "C85",
   "status": "proved",
   "theorems": [
    "Verif.Props.c85_actions",
    "Verif.Props.c85_quiet",
    "Verif.Props.c85_exposed",
    "Verif.Props.c85_process"
   ],
   "note": ""
  },
  {
   "property": "C86",
   "status": "proved",
   "theorems": [
    "Verif.Props.c86_same",
    "Verif.Props.c86_generate",
    "Verif.Props.c86_recover",
    "Verif.Props.c86_convert",
    "Verif.Props.c86_stderr",
    "Verif.Props.c86_tells",
    "Verif.Props.c86_misleading"
   ],
   "note": ""
  },
  {
   "property": "C87",
   "status": "proved",
   "theorems": [
    "Verif.Props.c87_whole_or_nothing",
    "Verif.Props.c87_finished",
    "Verif.Props.c87_generate",
    "Verif.Props.c87_recover"
   ],
   "note": ""
  },
  {
   "property": "C88",
   "status": "proved",
   "theorems": [
    "Verif.Props.c88_text",
    "Verif.Props.c88_options",
    "Verif.Props.c88_defaults"
   ],
   "note": ""
  },
  {
   "property": "C89",
   "status": "proved",
   "theorems": [
    "Verif.Props.c89_same",
    "Verif.Props.c89_refused",
    "Verif.Props.c89_message",
    "Verif.Props.c89_stderr"
   ],
   "note": ""
  },
  {
   "property": "C90",
   "status": "proved",
   "theorems": [
    "Verif.Props.c90_public",
    "Verif.Props.c90_subkeys"
   ],
   "note": ""
  },
  {
   "property": "C91",
   "status": "proved",
   "theorems": [
    "Verif.Props.c91_one_key",
    "Verif.Props.c91_process"
   ],
   "note": ""
  },
  {
   "property": "C92",
   "status": "proved",
   "theorems": [
    "Verif.Props.c92_generate",
    "Verif.Props.c92_recover",
    "Verif.Props.c92_convert",
    "Verif.Props.c92_process"
   ],
   "note": ""
  },
  {
   "property": "C93",
   "status": "proved",
   "theorems": [
    "Verif.Props.c93_generate",
    "Verif.Props.c93_recover",
    "Verif.Props.c93_convert",
    "Verif.Props.c93_process"
   ],
   "note": ""
  },
  {
   "property": "C94",
   "status": "proved",
   "theorems": [
    "Verif.Props.c94_file",
    "Verif.Props.c94_keys",
    "Verif.Props.c94_lines",
    "Verif.Props.c94_command"
   ],
   "note": ""
  },
  {
   "property": "C95",
   "status": "proved",
   "theorems": [
    "Verif.Props.c95_date",
    "Verif.Props.c95_unique",
    "Verif.Props.c95_epoch",
    "Verif.Props.c95_generate",
    "Verif.Props.c95_recover"
   ],
   "note": ""
  },
  {
   "property": "C96",
   "status": "proved",
   "theorems": [
    "Verif.Props.c96_quoted",
    "Verif.Props.c96_plain",
    "Verif.Props.c96_refused",
    "Verif.Props.c96_error",
    "Verif.Props.c96_process",
    "Verif.Props.c96_raw"
   ],
   "note": ""
  },
  {
   "property": "C97",
   "status": "proved",
   "theorems": [
    "Verif.Props.c97_generate_saved",
    "Verif.Props.c97_generate_shown",
    "Verif.Props.c97_recover",
    "Verif.Props.c97_recover_alike",
    "Verif.Props.c97_convert"
   ],
   "note": ""
  },
  {
   "property": "C98",
   "status": "proved",
   "theorems": [
    "Verif.Props.c98_lost",
    "Verif.Props.c98_wrong",
    "Verif.Props.c98_total"
   ],
   "note": ""
  },
  {
   "property": "C99",
   "status": "proved",
   "theorems": [
    "Verif.Props.c99_kept",
    "Verif.Props.c99_undisturbed",
    "Verif.Props.c99_saved",
    "Verif.Props.c99_recovers",
    "Verif.Props.c99_lost"
   ],
   "note": ""
  },
  {
   "property": "C100",
   "status": "proved",
   "theorems": [
    "Verif.Props.c100_plaintext_form",
    "Verif.Props.c100_plaintext_begin",
    "Verif.Props.c100_plaintext_rest",
    "Verif.Props.c100_plaintext_time",
    "Verif.Props.c100_encrypted_form",
    "Verif.Props.c100_encrypted_begin"
   ],
   "note": ""
  },
  {
   "property": "C101",
   "status": "proved",
   "theorems": [
    "Verif.Props.c101_spelling",
    "Verif.Props.c101_unique",
    "Verif.Props.c101_lawful",
    "Verif.Props.c101_lookup",
    "Verif.Props.c101_entry",
    "Verif.Props.c101_decode",
    "Verif.Props.c101_file"
   ],
   "note": ""
  },
  {
   "property": "C102",
   "status": "proved",
   "theorems": [
    "Verif.Props.c102_keyring",
    "Verif.Props.c102_order",
    "Verif.Props.c102_cycle",
    "Verif.Props.c102_same_age"
   ],
   "note": ""
  },
  {
   "property": "C103",
   "status": "proved",
   "theorems": [
    "Verif.Props.c103_decrypts",
    "Verif.Props.c103_held"
   ],
   "note": ""
  },
  {
   "property": "C104",
   "status": "proved",
   "theorems": [
    "Verif.Props.c104_verifies",
    "Verif.Props.c104_primary",
    "Verif.Props.c104_authenticates",
    "Verif.Props.c104_held"
   ],
   "note": ""
  },
  {
   "property": "C105",
   "status": "proved",
   "theorems": [
    "Verif.Props.c105_screen",
    "Verif.Props.c105_typing",
    "Verif.Props.c105_words",
    "Verif.Props.c105_entered",
    "Verif.Props.c105_password",
    "Verif.Props.c105_prompt",
    "Verif.Props.c105_eof",
    "Verif.Props.c105_no_way_out"
   ],
   "note": ""
  },
  {
   "property": "C106",
   "status": "proved",
   "theorems": [
    "Verif.Props.c106_run",
    "Verif.Props.c106_idle",
    "Verif.Props.c106_success",
    "Verif.Props.c106_alike"
   ],
   "note": ""
  },
  {
   "property": "C107",
   "status": "proved",
   "theorems": [
    "Verif.Props.c107_words",
    "Verif.Props.c107_lines",
    "Verif.Props.c107_prompt",
    "Verif.Props.c107_password",
    "Verif.Props.c107_entropy",
    "Verif.Props.c107_entropy_overrun"
   ],
   "note": ""
  },
  {
   "property": "C108",
   "status": "proved",
   "theorems": [
    "Verif.Props.c108_prompt",
    "Verif.Props.c108_words",
    "Verif.Props.c108_session",
    "Verif.Props.c108_recover",
    "Verif.Props.c108_convert",
    "Verif.Props.c108_generate"
   ],
   "note": ""
  },
  {
   "property": "C109",
   "status": "proved",
   "theorems": [
    "Verif.Props.c109_made",
    "Verif.Props.c109_reencode",
    "Verif.Props.c109_one_in_32",
    "Verif.Props.c109_phrases",
    "Verif.Props.c109_check",
    "Verif.Props.c109_any_seed",
    "Verif.Props.c109_hashed"
   ],
   "note": ""
  },
  {
   "property": "C110",
   "status": "proved",
   "theorems": [
    "Verif.Props.c110_recover",
    "Verif.Props.c110_convert",
    "Verif.Props.c110_generate",
    "Verif.Props.c110_converted",
    "Verif.Props.c110_history",
    "Verif.Props.c110_typable",
    "Verif.Props.c110_typed_ahead"
   ],
   "note": ""
  },
  {
   "property": "C111",
   "status": "proved",
   "theorems": [
    "Verif.Props.c111_sees",
    "Verif.Props.c111_finishes",
    "Verif.Props.c111_shared",
    "Verif.Props.c111_no_race",
    "Verif.Props.c111_interfere",
    "Verif.Props.c111_assigned"
   ],
   "note": ""
  },
  {
   "property": "C112",
   "status": "proved",
   "theorems": [
    "Verif.Props.c112_same",
    "Verif.Props.c112_not_run",
    "Verif.Props.c112_generate",
    "Verif.Props.c112_others",
    "Verif.Props.c112_saved",
    "Verif.Props.c112_paths",
    "Verif.Props.c112_private",
    "Verif.Props.c112_recovers",
    "Verif.Props.c112_directory",
    "Verif.Props.c112_dangling"
   ],
   "note": ""
  },
  {
   "property": "C113",
   "status": "proved",
   "theorems": [
    "Verif.Props.c113_calls",
    "Verif.Props.c113_alone",
    "Verif.Props.c113_saved",
    "Verif.Props.c113_result",
    "Verif.Props.c113_untouched",
    "Verif.Props.c113_stays",
    "Verif.Props.c113_shared",
    "Verif.Props.c113_ends",
    "Verif.Props.c113_recovers",
    "Verif.Props.c113_stolen"
   ],
   "note": ""
  },
  {
   "property": "C114",
   "status": "proved",
   "theorems": [
    "Verif.Props.c114_each",
    "Verif.Props.c114_ends",
    "Verif.Props.c114_lost"
   ],
   "note": ""
  },
  {
   "property": "C115",
   "status": "proved",
   "theorems": [
    "Verif.Props.c115_cut",
    "Verif.Props.c115_free",
    "Verif.Props.c115_contents",
    "Verif.Props.c115_wrong",
    "Verif.Props.c115_recover",
    "Verif.Props.c115_moment",
    "Verif.Props.c115_unnoticed"
   ],
   "note": ""
  },
  {
   "property": "C116",
   "status": "proved",
   "theorems": [
    "Verif.Props.c116_points",
    "Verif.Props.c116_fingerprints",
    "Verif.Props.c116_printed",
    "Verif.Props.c116_phrases",
    "Verif.Props.c116_keyring"
   ],
   "note": ""
  },
  {
   "property": "C117",
   "status": "proved",
   "theorems": [
    "Verif.Props.c117_run",
    "Verif.Props.c117_convert",
    "Verif.Props.c117_others",
    "Verif.Props.c117_matters"
   ],
   "note": ""
  },
  {
   "property": "C118",
   "status": "proved",
   "theorems": [
    "Verif.Props.Slices.c118_export",
    "Verif.Props.Slices.c118_subkeys",
    "Verif.Props.Slices.c118_public",
    "Verif.Props.Slices.c118_derive",
    "Verif.Props.Slices.c118_keeps",
    "Verif.Props.Slices.c118_twice",
    "Verif.Props.Slices.c118_life",
    "Verif.Props.Slices.c118_salt",
    "Verif.Props.Slices.c118_tail"
   ],
   "note": ""
  },
  {
   "property": "C119",
   "status": "proved",
   "theorems": [
    "Verif.Props.c119_generate_process",
    "Verif.Props.c119_recover_process",
    "Verif.Props.c119_convert_process",
    "Verif.Props.c119_export",
    "Verif.Props.c119_unique",
    "Verif.Props.c119_generate",
    "Verif.Props.c119_recover",
    "Verif.Props.c119_convert"
   ],
   "note": ""
  },
  {
   "property": "C120",
   "status": "proved",
   "theorems": [
    "Verif.Props.c120_run",
    "Verif.Props.c120_keyring",
    "Verif.Props.c120_expired"
   ],
   "note": ""
  },
  {
   "property": "C121",
   "status": "proved",
   "theorems": [
    "Verif.Props.c121_unnoticed",
    "Verif.Props.c121_output",
    "Verif.Props.c121_reader",
    "Verif.Props.c121_taken",
    "Verif.Props.c121_saved",
    "Verif.Props.c121_shown",
    "Verif.Props.c121_lost"
   ],
   "note": ""
  },
  {
   "property": "C122",
   "status": "proved",
   "theorems": [
    "Verif.Props.c122_back",
    "Verif.Props.c122_run",
    "Verif.Props.c122_generate",
    "Verif.Props.c122_convert",
    "Verif.Props.c122_recover",
    "Verif.Props.c122_seeds"
   ],
   "note": ""
  },
  {
   "property": "C123",
   "status": "proved",
   "theorems": [
    "Verif.Props.c123_generate",
    "Verif.Props.c123_convert",
    "Verif.Props.c123_recover",
    "Verif.Props.c123_passwords"
   ],
   "note": ""
  },
  {
   "property": "C124",
   "status": "proved",
   "theorems": [
    "Verif.Props.c124_run",
    "Verif.Props.c124_none",
    "Verif.Props.c124_second",
    "Verif.Props.c124_last_second"
   ],
   "note": ""
  },
  {
   "property": "C125",
   "status": "proved",
   "theorems": [
    "Verif.Props.c125_run",
    "Verif.Props.c125_told_apart",
    "Verif.Props.c125_one_in_256"
   ],
   "note": ""
  },
  {
   "property": "C126",
   "status": "proved",
   "theorems": [
    "Verif.Props.c126_octets",
    "Verif.Props.c126_alike",
    "Verif.Props.c126_salts",
    "Verif.Props.c126_two_salts",
    "Verif.Props.c126_made",
    "Verif.Props.c126_run",
    "Verif.Props.c126_wrong"
   ],
   "note": ""
  },
  {
   "property": "C127",
   "status": "proved",
   "theorems": [
    "Verif.Props.c127_checksum",
    "Verif.Props.c127_four",
    "Verif.Props.c127_text",
    "Verif.Props.c127_run",
    "Verif.Props.c127_loose",
    "Verif.Props.c127_unused"
   ],
   "note": ""
  },
  {
   "property": "C128",
   "status": "proved",
   "theorems": [
    "Verif.Props.c128_missing",
    "Verif.Props.c128_surplus",
    "Verif.Props.c128_run",
    "Verif.Props.c128_broken",
    "Verif.Props.c128_around"
   ],
   "note": ""
  },
  {
   "property": "C129",
   "status": "proved",
   "theorems": [
    "Verif.Props.c129_swapped",
    "Verif.Props.c129_run"
   ],
   "note": ""
  }
 ]
}
