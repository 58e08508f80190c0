Verif.Props.c01_plaintext_round_trip: propext, Classical.choice, Quot.sound
Verif.Props.c02_plaintext_layout: propext, Classical.choice, Quot.sound
Verif.Props.c02_encrypted_layout: propext, Classical.choice, Quot.sound
Verif.Props.c03_decode_total: propext, Classical.choice, Quot.sound
Verif.Props.c03_parse_total: propext, Quot.sound
Verif.Props.c04_decode_is_specified: propext, Classical.choice, Quot.sound
Verif.Props.c04_parse_version: propext, Classical.choice, Quot.sound
Verif.Props.c05_canonical: propext, Classical.choice, Quot.sound
Verif.Props.c05_reencode: propext, Classical.choice, Quot.sound
Verif.Props.c05_injective: propext, Classical.choice, Quot.sound
Verif.Props.c06_case_insensitive: propext, Classical.choice, Quot.sound
Verif.Props.c06_parse_case_insensitive: propext, Quot.sound
Verif.Props.c07_later_word: propext, Classical.choice, Quot.sound
Verif.Props.c07_first_word: propext, Classical.choice, Quot.sound
Verif.Props.c08_single_bit: propext, Classical.choice, Quot.sound
Verif.Props.c08_checksum_only: propext, Classical.choice, Quot.sound
Verif.Props.c08_counts: propext, Quot.sound
Verif.Props.c09_encrypted_round_trip: propext, Classical.choice, Quot.sound
Verif.Props.c09_short_random: propext, Classical.choice, Quot.sound
Verif.Props.c10_password_check: propext, Classical.choice, Quot.sound
Verif.Props.c10_collision: propext, Classical.choice, Quot.sound
Verif.Props.c11_recover_refuses: propext, Quot.sound
Verif.Props.c11_same_recovery: propext, Classical.choice, Quot.sound
Verif.Props.c11_seed_access: propext, Classical.choice, Quot.sound
Verif.Props.c12_empty_password: propext, Quot.sound
Verif.Props.c13_same_keys: propext, Classical.choice, Quot.sound
Verif.Props.c13_conversion_chain: propext, Classical.choice, Quot.sound
Verif.Props.c14_generate_seed: propext, Classical.choice, Quot.sound
Verif.Props.c14_seed_bytes: propext, Classical.choice, Quot.sound
Verif.Props.c14_bijection: propext, Classical.choice, Quot.sound
Verif.Props.c15_salt_uniform: propext, Classical.choice, Quot.sound
Verif.Props.c15_reads_three: propext, Classical.choice, Quot.sound
Verif.Props.c16_new_seed: propext, Classical.choice, Quot.sound
Verif.Props.c17_new_abs: propext, Classical.choice, Quot.sound
Verif.Props.c17_negative_panics: propext, Classical.choice, Quot.sound
Verif.Props.c18_new_offset: propext, Classical.choice, Quot.sound
Verif.Props.c18_plaintext_offset: propext, Classical.choice, Quot.sound
Verif.Props.c18_encrypted_offset: propext, Classical.choice, Quot.sound
Verif.Props.c19_unchanged: propext, Classical.choice, Quot.sound
Verif.Props.c19_globals: propext, Classical.choice, Quot.sound
Verif.Props.c19_refines: propext, Classical.choice, Quot.sound
Verif.Props.c19_encodeToIndices: propext, Classical.choice, Quot.sound
Verif.Props.c19_aliased: propext, Classical.choice, Quot.sound
Verif.Props.c20_new: propext, Classical.choice, Quot.sound
Verif.Props.c21_recover_plaintext: propext, Classical.choice, Quot.sound
Verif.Props.c21_recover_encrypted: propext, Classical.choice, Quot.sound
Verif.Props.c22_recovery_total: propext, Classical.choice, Quot.sound
Verif.Props.c22_recovery_encrypted: propext, Classical.choice, Quot.sound
Verif.Props.c23_master: propext, Classical.choice, Quot.sound
Verif.Props.c23_master_same: propext, Classical.choice, Quot.sound
Verif.Props.c24_subkeys: propext, Classical.choice, Quot.sound
Verif.Props.c24_subkey_same: propext, Classical.choice, Quot.sound
Verif.Props.c25_info_strings: propext, Classical.choice, Quot.sound
Verif.Props.c25_info_distinct: propext, Classical.choice, Quot.sound
Verif.Props.c26_root_key: propext, Classical.choice, Quot.sound
Verif.Props.c26_root_input_injective: propext, Classical.choice, Quot.sound
Verif.Props.c27_expiry: propext, Classical.choice, Quot.sound
Verif.Props.c27_exported: propext, Classical.choice, Quot.sound
Verif.Props.c28_long_ttl: propext, Classical.choice, Quot.sound
Verif.Props.c28_long_ttl_wraps: propext, Classical.choice, Quot.sound
Verif.Props.c28_short_ttl: propext, Classical.choice, Quot.sound
Verif.Props.c29_user_id: propext, Classical.choice, Quot.sound
Verif.Props.c29_whole_as_name: propext, Classical.choice, Quot.sound
Verif.Props.c30_packet: propext, Classical.choice, Quot.sound
Verif.Props.c30_packets: propext, Classical.choice, Quot.sound
Verif.Props.c30_too_long: propext, Classical.choice, Quot.sound
Verif.Props.c31_mpi: propext, Classical.choice, Quot.sound
Verif.Props.c31_checksum: propext, Classical.choice, Quot.sound
Verif.Props.c32_export: propext, Classical.choice, Quot.sound
Verif.Props.c33_subkey_export: propext, Classical.choice, Quot.sound
Verif.Props.c33_secret_unused: propext, Quot.sound
Verif.Props.c34_shuffle: propext, Quot.sound
Verif.Props.c34_seed: propext, Classical.choice, Quot.sound
Verif.Props.c34_order: propext, Classical.choice, Quot.sound
Verif.Props.c35_protected_export: propext, Classical.choice, Quot.sound
Verif.Props.c36_octets: propext, Quot.sound
Verif.Props.c36_count: propext, Quot.sound
Verif.Props.c36_rfc: propext, Classical.choice, Quot.sound
Verif.Props.c37_deterministic: propext, Classical.choice, Quot.sound
Verif.Props.c37_same_public: propext, Classical.choice, Quot.sound
Verif.Props.c37_same_public_subkeys: propext, Classical.choice, Quot.sound
Verif.Props.c38_scalar: propext, Classical.choice, Quot.sound
Verif.Props.c38_exported: propext, Classical.choice, Quot.sound
Verif.Props.c39_fingerprint: propext, Classical.choice, Quot.sound
Verif.Props.c39_v5: propext, Classical.choice, Quot.sound
Verif.Props.c39_commits: propext, Classical.choice, Quot.sound
Verif.Props.c39_commits_master: propext, Classical.choice, Quot.sound
Verif.Props.c40_buffer_is_deque: propext, Classical.choice, Quot.sound
Verif.Props.c40_observers: propext, Classical.choice, Quot.sound
Verif.Props.c41_encode: propext, Classical.choice, Quot.sound
Verif.Props.c41_negative: propext, Classical.choice, Quot.sound
Verif.Props.c41_decode: propext, Classical.choice, Quot.sound
Verif.Props.c42_encode: propext, Classical.choice, Quot.sound
Verif.Props.c42_decode: propext, Classical.choice, Quot.sound
Verif.Props.c43_accepts: propext, Classical.choice, Quot.sound
Verif.Props.c43_value: propext, Classical.choice, Quot.sound
Verif.Props.c43_unambiguous: propext
Verif.Props.c44_wraps: propext, Classical.choice, Quot.sound
Verif.Props.c44_600y: propext
Verif.Props.c45_only: propext, Quot.sound
Verif.Props.c45_every_text: propext
Verif.Props.c46_refused: propext, Classical.choice, Quot.sound
Verif.Props.c46_exact: propext, Classical.choice, Quot.sound
Verif.Props.c47_existing: propext, Quot.sound
Verif.Props.c47_crash: propext, Classical.choice, Quot.sound
Verif.Props.c47_round_trip: propext, Classical.choice, Quot.sound
Verif.Props.c47_reader: propext, Classical.choice, Quot.sound
Verif.Props.c48_quiet: propext, Quot.sound
Verif.Props.c48_overwrites: propext, Classical.choice, Quot.sound
Verif.Props.c49_saved_first: propext, Classical.choice, Quot.sound
Verif.Props.c49_all_or_nothing: propext, Classical.choice, Quot.sound
Verif.Props.c49_shown_last: propext, Classical.choice, Quot.sound
Verif.Props.c50_simple: propext, Classical.choice, Quot.sound
Verif.Props.c50_complete: propext, Classical.choice, Quot.sound
Verif.Props.c50_typed: propext, Classical.choice, Quot.sound
Verif.Props.c50_lines: propext, Classical.choice, Quot.sound
Verif.Props.c50_by_hand: propext, Classical.choice, Quot.sound
Verif.Props.c51_no_left_arrow: propext, Classical.choice, Quot.sound
Verif.Props.c51_typed: propext, Quot.sound
Verif.Props.c52_extra_words: propext, Classical.choice, Quot.sound
Verif.Props.c52_rejected: propext, Classical.choice, Quot.sound
Verif.Props.c52_revise: propext, Classical.choice, Quot.sound
Verif.Props.c53_returned: propext, Quot.sound
Verif.Props.c53_confirmed: propext, Quot.sound
Verif.Props.c53_no_password: propext, Quot.sound
Verif.Props.c53_interrupt: propext, Quot.sound
Verif.Props.c53_typed: propext
Verif.Props.c54_race: propext, Quot.sound
Verif.Props.c54_waiting: propext, Quot.sound
Verif.Props.c54_first: propext, Quot.sound
Verif.Props.c55_first_right: propext, Classical.choice, Quot.sound
Verif.Props.c55_still_asking: propext, Classical.choice, Quot.sound
Verif.Props.c55_plaintext: propext, Classical.choice, Quot.sound
Verif.Props.c55_wrong_no_effect: propext, Classical.choice, Quot.sound
Verif.Props.c56_no_file: propext, Quot.sound
Verif.Props.c56_in_file: propext, Quot.sound
Verif.Props.c56_plaintext: propext, Classical.choice, Quot.sound
Verif.Props.c57_layout: propext, Classical.choice, Quot.sound
Verif.Props.c57_diverges: propext, Classical.choice, Quot.sound
Verif.Props.c57_terminates_iff: propext, Classical.choice, Quot.sound
Verif.Props.c57_every_text: propext
Verif.Props.c57_phrase_notice: propext, Classical.choice, Quot.sound
Verif.Props.c58_status: propext, Classical.choice, Quot.sound
Verif.Props.c58_total: propext, Classical.choice, Quot.sound
Verif.Props.c58_unique: propext, Classical.choice, Quot.sound
Verif.Props.c58_usage_once: propext, Classical.choice, Quot.sound
Verif.Props.c58_no_effect: propext, Classical.choice, Quot.sound
Verif.Props.c58_status_one: propext, Classical.choice, Quot.sound
Verif.Props.c59_long_tail: propext, Classical.choice, Quot.sound
Verif.Props.c59_short_tail: propext, Classical.choice, Quot.sound
Verif.Props.c60_same_key: propext, Classical.choice, Quot.sound
Verif.Props.c61_echo_left_off: propext
Verif.Props.c61_stray_newline: propext
Verif.Props.c62_same_seed: propext, Classical.choice, Quot.sound
Verif.Props.c63_accepted: propext, Classical.choice, Quot.sound
Verif.Props.c63_help: propext, Classical.choice, Quot.sound
Verif.Props.c63_refused: propext, Classical.choice, Quot.sound
Verif.Props.c63_unambiguous: propext, Classical.choice, Quot.sound
Verif.Props.c63_generate: propext, Quot.sound
Verif.Props.c63_recover: propext, Quot.sound
Verif.Props.c63_convert: propext, Quot.sound
Verif.Props.c64_ignored: propext, Classical.choice, Quot.sound
Verif.Props.c64_request_lost: propext, Classical.choice, Quot.sound
Verif.Props.c65_usage: propext, Classical.choice, Quot.sound
Verif.Props.c66_shown: -
Verif.Props.c66_examples: propext, Classical.choice, Quot.sound
Verif.Props.c66_convert_encrypt: propext, Classical.choice, Quot.sound
Verif.Props.c67_failure_silent: propext, Classical.choice, Quot.sound
Verif.Props.c67_success_prints: propext, Classical.choice, Quot.sound
Verif.Props.c68_refines: propext, Classical.choice, Quot.sound
Verif.Props.c68_results: propext, Classical.choice, Quot.sound
Verif.Props.c68_failed: propext, Classical.choice, Quot.sound
Verif.Props.c68_succeeded: propext, Classical.choice, Quot.sound
Verif.Props.c68_realised: propext, Quot.sound
Verif.Props.c69_generate_key: propext, Classical.choice, Quot.sound
Verif.Props.c69_generate_phrase: propext, Classical.choice, Quot.sound
Verif.Props.c69_recover_key: propext, Classical.choice, Quot.sound
Verif.Props.c69_convert_phrase: propext, Classical.choice, Quot.sound
Verif.Props.c69_asked_once: propext, Classical.choice, Quot.sound
Verif.Props.c70_generate: propext, Classical.choice, Quot.sound
Verif.Props.c70_process: propext, Classical.choice, Quot.sound
Verif.Props.c70_refused: propext, Classical.choice, Quot.sound
Verif.Props.c71_recover: propext, Classical.choice, Quot.sound
Verif.Props.c71_process: propext, Classical.choice, Quot.sound
Verif.Props.c72_convert: propext, Classical.choice, Quot.sound
Verif.Props.c72_process: propext, Classical.choice, Quot.sound
Verif.Props.c73_by_hand: propext, Classical.choice, Quot.sound
Verif.Props.c73_converted: propext, Classical.choice, Quot.sound
Verif.Props.c74_returns: propext, Classical.choice, Quot.sound
Verif.Props.c74_aborted: propext, Classical.choice, Quot.sound
Verif.Props.c74_otherwise: propext, Classical.choice, Quot.sound
Verif.Props.c75_shown: propext, Classical.choice, Quot.sound
Verif.Props.c76_messages: propext, Classical.choice, Quot.sound
Verif.Props.c76_remnant: propext
Verif.Props.c77_erased: propext, Classical.choice, Quot.sound
Verif.Props.c77_wrapped_stays: propext
Verif.Props.c78_shown: propext, Classical.choice, Quot.sound
Verif.Props.c78_erased: propext, Classical.choice, Quot.sound
Verif.Props.c78_messages: propext, Classical.choice, Quot.sound
Verif.Props.c78_unended_stays: propext, Classical.choice, Quot.sound
Verif.Props.c78_ended: propext, Classical.choice, Quot.sound
Verif.Props.c79_shown: propext, Classical.choice, Quot.sound
Verif.Props.c79_generate: propext, Classical.choice, Quot.sound
Verif.Props.c79_convert: propext, Classical.choice, Quot.sound
Verif.Props.c80_same: propext, Quot.sound
Verif.Props.c80_only_adds: propext, Quot.sound
Verif.Props.c80_option: propext, Quot.sound
Verif.Props.c80_generate: propext, Classical.choice, Quot.sound
Verif.Props.c80_recover: propext, Classical.choice, Quot.sound
Verif.Props.c80_convert: propext, Classical.choice, Quot.sound
Verif.Props.c81_generate: propext, Classical.choice, Quot.sound
Verif.Props.c81_recover: propext, Classical.choice, Quot.sound
Verif.Props.c81_convert: propext, Classical.choice, Quot.sound
Verif.Props.c81_status: propext, Classical.choice, Quot.sound
Verif.Props.c82_lost_word: propext, Classical.choice, Quot.sound
Verif.Props.c82_lost_first: propext, Classical.choice, Quot.sound
Verif.Props.c82_exchanged: propext, Classical.choice, Quot.sound
Verif.Props.c82_exchanged_first: propext, Classical.choice, Quot.sound
Verif.Props.c83_never_stuck: propext, Classical.choice, Quot.sound
Verif.Props.c83_bounded: propext, Classical.choice, Quot.sound
Verif.Props.c83_three_lines: propext, Classical.choice, Quot.sound
Verif.Props.c83_returns: propext, Classical.choice, Quot.sound
Verif.Props.c83_left_alone: propext, Classical.choice, Quot.sound
Verif.Props.c84_dialogue: propext, Classical.choice, Quot.sound
Verif.Props.c84_refused: propext, Classical.choice, Quot.sound
Verif.Props.c84_asked: propext, Classical.choice, Quot.sound
Verif.Props.c84_returned: propext, Classical.choice, Quot.sound
Verif.Props.c84_newline: propext, Classical.choice, Quot.sound
Verif.Props.c84_secret: propext
Verif.Props.c84_screen: propext, Classical.choice, Quot.sound
Verif.Props.c84_same_row: propext, Classical.choice, Quot.sound
Verif.Props.c84_aborted: propext, Classical.choice, Quot.sound
Verif.Props.c85_actions: propext, Quot.sound
Verif.Props.c85_quiet: propext, Quot.sound
Verif.Props.c85_exposed: propext, Classical.choice, Quot.sound
Verif.Props.c85_process: propext, Classical.choice, Quot.sound
Verif.Props.c86_same: propext, Quot.sound
Verif.Props.c86_generate: propext, Classical.choice, Quot.sound
Verif.Props.c86_recover: propext, Classical.choice, Quot.sound
Verif.Props.c86_convert: propext, Classical.choice, Quot.sound
Verif.Props.c86_stderr: propext, Classical.choice, Quot.sound
Verif.Props.c86_tells: propext, Classical.choice, Quot.sound
Verif.Props.c86_misleading: propext, Classical.choice, Quot.sound
Verif.Props.c87_whole_or_nothing: propext, Classical.choice, Quot.sound
Verif.Props.c87_finished: propext, Classical.choice, Quot.sound
Verif.Props.c87_generate: propext, Classical.choice, Quot.sound
Verif.Props.c87_recover: propext, Classical.choice, Quot.sound
Verif.Props.c88_text: propext, Classical.choice, Quot.sound
Verif.Props.c88_options: propext, Classical.choice, Quot.sound
Verif.Props.c88_defaults: propext, Classical.choice, Quot.sound
Verif.Props.c89_same: propext, Classical.choice, Quot.sound
Verif.Props.c89_refused: propext, Classical.choice, Quot.sound
Verif.Props.c89_message: propext, Classical.choice, Quot.sound
Verif.Props.c89_stderr: propext, Classical.choice, Quot.sound
Verif.Props.c90_public: propext, Classical.choice, Quot.sound
Verif.Props.c90_subkeys: propext, Classical.choice, Quot.sound
Verif.Props.c91_one_key: propext, Classical.choice, Quot.sound
Verif.Props.c91_process: propext, Classical.choice, Quot.sound
Verif.Props.c92_generate: propext, Classical.choice, Quot.sound
Verif.Props.c92_recover: propext, Classical.choice, Quot.sound
Verif.Props.c92_convert: propext, Classical.choice, Quot.sound
Verif.Props.c92_process: propext, Classical.choice, Quot.sound
Verif.Props.c93_generate: propext, Classical.choice, Quot.sound
Verif.Props.c93_recover: propext, Classical.choice, Quot.sound
Verif.Props.c93_convert: propext, Classical.choice, Quot.sound
Verif.Props.c93_process: propext, Classical.choice, Quot.sound
Verif.Props.c94_file: propext, Classical.choice, Quot.sound
Verif.Props.c94_keys: propext, Quot.sound
Verif.Props.c94_lines: propext, Classical.choice, Quot.sound
Verif.Props.c94_command: propext, Classical.choice, Quot.sound
Verif.Props.c95_date: propext, Classical.choice, Quot.sound
Verif.Props.c95_unique: propext, Classical.choice, Quot.sound
Verif.Props.c95_epoch: propext, Classical.choice, Quot.sound
Verif.Props.c95_generate: propext, Classical.choice, Quot.sound
Verif.Props.c95_recover: propext, Classical.choice, Quot.sound
Verif.Props.c96_quoted: propext, Classical.choice, Quot.sound
Verif.Props.c96_plain: propext, Classical.choice, Quot.sound
Verif.Props.c96_refused: propext, Classical.choice, Quot.sound
Verif.Props.c96_error: propext, Classical.choice, Quot.sound
Verif.Props.c96_process: propext, Classical.choice, Quot.sound
Verif.Props.c96_raw: propext, Classical.choice, Quot.sound
Verif.Props.c97_generate_saved: propext, Classical.choice, Quot.sound
Verif.Props.c97_generate_shown: propext, Classical.choice, Quot.sound
Verif.Props.c97_recover: propext, Classical.choice, Quot.sound
Verif.Props.c97_recover_alike: propext, Classical.choice, Quot.sound
Verif.Props.c97_convert: propext, Classical.choice, Quot.sound
Verif.Props.c98_lost: propext, Classical.choice, Quot.sound
Verif.Props.c98_wrong: propext, Classical.choice, Quot.sound
Verif.Props.c98_total: propext, Classical.choice, Quot.sound
Verif.Props.c99_kept: propext, Classical.choice, Quot.sound
Verif.Props.c99_undisturbed: propext, Classical.choice, Quot.sound
Verif.Props.c99_saved: propext, Classical.choice, Quot.sound
Verif.Props.c99_recovers: propext, Classical.choice, Quot.sound
Verif.Props.c99_lost: propext, Classical.choice, Quot.sound
Verif.Props.c100_plaintext_form: propext, Classical.choice, Quot.sound
Verif.Props.c100_plaintext_begin: propext, Classical.choice, Quot.sound
Verif.Props.c100_plaintext_rest: propext, Classical.choice, Quot.sound
Verif.Props.c100_plaintext_time: propext, Classical.choice, Quot.sound
Verif.Props.c100_encrypted_form: propext, Classical.choice, Quot.sound
Verif.Props.c100_encrypted_begin: propext, Classical.choice, Quot.sound
Verif.Props.c101_spelling: propext, Classical.choice, Quot.sound
Verif.Props.c101_unique: propext, Classical.choice, Quot.sound
Verif.Props.c101_lawful: propext, Quot.sound
Verif.Props.c101_lookup: propext, Classical.choice, Quot.sound
Verif.Props.c101_entry: propext, Classical.choice, Quot.sound
Verif.Props.c101_decode: propext, Classical.choice, Quot.sound
Verif.Props.c101_file: propext, Classical.choice, Quot.sound
Verif.Props.c102_keyring: propext, Classical.choice, Quot.sound
Verif.Props.c102_order: propext, Classical.choice, Quot.sound
Verif.Props.c102_cycle: propext, Classical.choice, Quot.sound
Verif.Props.c102_same_age: propext, Classical.choice, Quot.sound
Verif.Props.c103_decrypts: propext, Classical.choice, Quot.sound
Verif.Props.c103_held: propext, Classical.choice, Quot.sound
Verif.Props.c104_verifies: propext, Classical.choice, Quot.sound
Verif.Props.c104_primary: propext, Classical.choice, Quot.sound
Verif.Props.c104_authenticates: propext, Classical.choice, Quot.sound
Verif.Props.c104_held: propext, Classical.choice, Quot.sound
Verif.Props.c105_screen: propext, Classical.choice, Quot.sound
Verif.Props.c105_typing: propext, Classical.choice, Quot.sound
Verif.Props.c105_words: propext, Classical.choice, Quot.sound
Verif.Props.c105_entered: propext, Classical.choice, Quot.sound
Verif.Props.c105_password: propext, Quot.sound
Verif.Props.c105_prompt: propext, Quot.sound
Verif.Props.c105_eof: propext, Quot.sound
Verif.Props.c105_no_way_out: propext, Quot.sound
Verif.Props.c106_run: propext, Classical.choice, Quot.sound
Verif.Props.c106_idle: propext, Classical.choice, Quot.sound
Verif.Props.c106_success: propext, Classical.choice, Quot.sound
Verif.Props.c106_alike: propext, Classical.choice, Quot.sound
Verif.Props.c107_words: propext, Classical.choice, Quot.sound
Verif.Props.c107_lines: propext, Classical.choice, Quot.sound
Verif.Props.c107_prompt: propext, Classical.choice, Quot.sound
Verif.Props.c107_password: propext, Classical.choice, Quot.sound
Verif.Props.c107_entropy: propext, Classical.choice, Quot.sound
Verif.Props.c107_entropy_overrun: propext, Classical.choice, Quot.sound
Verif.Props.c108_prompt: propext, Quot.sound
Verif.Props.c108_words: propext, Classical.choice, Quot.sound
Verif.Props.c108_session: propext, Classical.choice, Quot.sound
Verif.Props.c108_recover: propext, Classical.choice, Quot.sound
Verif.Props.c108_convert: propext, Classical.choice, Quot.sound
Verif.Props.c108_generate: propext, Classical.choice, Quot.sound
Verif.Props.c109_made: propext, Classical.choice, Quot.sound
Verif.Props.c109_reencode: propext, Classical.choice, Quot.sound
Verif.Props.c109_one_in_32: propext, Classical.choice, Quot.sound
Verif.Props.c109_phrases: propext, Classical.choice, Quot.sound
Verif.Props.c109_check: propext, Classical.choice, Quot.sound
Verif.Props.c109_any_seed: propext, Classical.choice, Quot.sound
Verif.Props.c109_hashed: propext, Classical.choice, Quot.sound
Verif.Props.c110_recover: propext, Classical.choice, Quot.sound
Verif.Props.c110_convert: propext, Classical.choice, Quot.sound
Verif.Props.c110_generate: propext, Classical.choice, Quot.sound
Verif.Props.c110_converted: propext, Classical.choice, Quot.sound
Verif.Props.c110_history: propext, Classical.choice, Quot.sound
Verif.Props.c110_typable: propext, Classical.choice, Quot.sound
Verif.Props.c110_typed_ahead: propext, Quot.sound
Verif.Props.c111_sees: propext, Classical.choice, Quot.sound
Verif.Props.c111_finishes: propext, Classical.choice, Quot.sound
Verif.Props.c111_shared: propext, Classical.choice, Quot.sound
Verif.Props.c111_no_race: propext, Classical.choice, Quot.sound
Verif.Props.c111_interfere: propext, Quot.sound
Verif.Props.c111_assigned: propext, Quot.sound
Verif.Props.c112_same: propext, Classical.choice, Quot.sound
Verif.Props.c112_not_run: propext, Classical.choice, Quot.sound
Verif.Props.c112_generate: propext, Classical.choice, Quot.sound
Verif.Props.c112_others: propext, Classical.choice, Quot.sound
Verif.Props.c112_saved: propext, Classical.choice, Quot.sound
Verif.Props.c112_paths: propext, Quot.sound
Verif.Props.c112_private: propext, Classical.choice, Quot.sound
Verif.Props.c112_recovers: propext, Classical.choice, Quot.sound
Verif.Props.c112_directory: propext, Quot.sound
Verif.Props.c112_dangling: propext, Quot.sound
Verif.Props.c113_calls: propext, Quot.sound
Verif.Props.c113_alone: propext, Quot.sound
Verif.Props.c113_saved: propext, Classical.choice, Quot.sound
Verif.Props.c113_result: propext, Classical.choice, Quot.sound
Verif.Props.c113_untouched: propext, Classical.choice, Quot.sound
Verif.Props.c113_stays: propext, Classical.choice, Quot.sound
Verif.Props.c113_shared: propext, Classical.choice, Quot.sound
Verif.Props.c113_ends: propext, Classical.choice, Quot.sound
Verif.Props.c113_recovers: propext, Classical.choice, Quot.sound
Verif.Props.c113_stolen: propext, Classical.choice, Quot.sound
Verif.Props.c114_each: propext, Classical.choice, Quot.sound
Verif.Props.c114_ends: propext, Classical.choice, Quot.sound
Verif.Props.c114_lost: propext, Classical.choice, Quot.sound
Verif.Props.c115_cut: propext, Classical.choice, Quot.sound
Verif.Props.c115_free: propext, Classical.choice, Quot.sound
Verif.Props.c115_contents: propext, Classical.choice, Quot.sound
Verif.Props.c115_wrong: propext, Classical.choice, Quot.sound
Verif.Props.c115_recover: propext, Classical.choice, Quot.sound
Verif.Props.c115_moment: propext, Classical.choice, Quot.sound
Verif.Props.c115_unnoticed: propext, Classical.choice, Quot.sound
Verif.Props.c116_points: propext, Classical.choice, Quot.sound
Verif.Props.c116_fingerprints: propext, Classical.choice, Quot.sound
Verif.Props.c116_printed: propext, Classical.choice, Quot.sound
Verif.Props.c116_phrases: propext, Classical.choice, Quot.sound
Verif.Props.c116_keyring: propext, Classical.choice, Quot.sound
Verif.Props.c117_run: propext, Classical.choice, Quot.sound
Verif.Props.c117_convert: propext, Classical.choice, Quot.sound
Verif.Props.c117_others: propext, Classical.choice, Quot.sound
Verif.Props.c117_matters: propext, Classical.choice, Quot.sound
Verif.Props.Slices.c118_export: propext, Classical.choice, Quot.sound
Verif.Props.Slices.c118_subkeys: propext, Classical.choice, Quot.sound
Verif.Props.Slices.c118_public: propext, Classical.choice, Quot.sound
Verif.Props.Slices.c118_derive: propext, Classical.choice, Quot.sound
Verif.Props.Slices.c118_keeps: propext, Classical.choice, Quot.sound
Verif.Props.Slices.c118_twice: propext, Classical.choice, Quot.sound
Verif.Props.Slices.c118_life: propext, Classical.choice, Quot.sound
Verif.Props.Slices.c118_salt: propext, Classical.choice, Quot.sound
Verif.Props.Slices.c118_tail: propext, Classical.choice, Quot.sound
Verif.Props.c119_generate_process: propext, Classical.choice, Quot.sound
Verif.Props.c119_recover_process: propext, Classical.choice, Quot.sound
Verif.Props.c119_convert_process: propext, Classical.choice, Quot.sound
Verif.Props.c119_export: propext, Classical.choice, Quot.sound
Verif.Props.c119_unique: propext, Classical.choice, Quot.sound
Verif.Props.c119_generate: propext, Classical.choice, Quot.sound
Verif.Props.c119_recover: propext, Classical.choice, Quot.sound
Verif.Props.c119_convert: propext, Classical.choice, Quot.sound
Verif.Props.c120_run: propext, Classical.choice, Quot.sound
Verif.Props.c120_keyring: propext, Classical.choice, Quot.sound
Verif.Props.c120_expired: propext, Classical.choice, Quot.sound
Verif.Props.c121_unnoticed: propext, Quot.sound
Verif.Props.c121_output: propext, Classical.choice, Quot.sound
Verif.Props.c121_reader: propext, Classical.choice, Quot.sound
Verif.Props.c121_taken: propext, Quot.sound
Verif.Props.c121_saved: propext, Classical.choice, Quot.sound
Verif.Props.c121_shown: propext, Classical.choice, Quot.sound
Verif.Props.c121_lost: propext, Classical.choice, Quot.sound
Verif.Props.c122_back: propext, Quot.sound
Verif.Props.c122_run: propext, Classical.choice, Quot.sound
Verif.Props.c122_generate: propext, Classical.choice, Quot.sound
Verif.Props.c122_convert: propext, Classical.choice, Quot.sound
Verif.Props.c122_recover: propext, Classical.choice, Quot.sound
Verif.Props.c122_seeds: propext, Classical.choice, Quot.sound
Verif.Props.c123_generate: propext, Classical.choice, Quot.sound
Verif.Props.c123_convert: propext, Classical.choice, Quot.sound
Verif.Props.c123_recover: propext, Classical.choice, Quot.sound
Verif.Props.c123_passwords: propext, Classical.choice, Quot.sound
Verif.Props.c124_run: propext, Classical.choice, Quot.sound
Verif.Props.c124_none: propext, Classical.choice, Quot.sound
Verif.Props.c124_second: propext, Classical.choice, Quot.sound
Verif.Props.c124_last_second: propext, Classical.choice, Quot.sound
Verif.Props.c125_run: propext, Classical.choice, Quot.sound
Verif.Props.c125_told_apart: propext, Classical.choice, Quot.sound
Verif.Props.c125_one_in_256: propext, Classical.choice, Quot.sound
Verif.Props.c126_octets: propext, Quot.sound
Verif.Props.c126_alike: propext, Quot.sound
Verif.Props.c126_salts: propext, Classical.choice, Quot.sound
Verif.Props.c126_two_salts: propext, Quot.sound
Verif.Props.c126_made: propext, Classical.choice, Quot.sound
Verif.Props.c126_run: propext, Classical.choice, Quot.sound
Verif.Props.c126_wrong: propext, Classical.choice, Quot.sound
Verif.Props.c127_checksum: propext, Quot.sound
Verif.Props.c127_four: propext, Quot.sound
Verif.Props.c127_text: propext, Classical.choice, Quot.sound
Verif.Props.c127_run: propext, Classical.choice, Quot.sound
Verif.Props.c127_loose: propext, Classical.choice, Quot.sound
Verif.Props.c127_unused: propext, Classical.choice, Quot.sound
Verif.Props.c128_missing: propext, Classical.choice, Quot.sound
Verif.Props.c128_surplus: propext, Classical.choice, Quot.sound
Verif.Props.c128_run: propext, Classical.choice, Quot.sound
Verif.Props.c128_broken: propext, Quot.sound
Verif.Props.c128_around: propext, Classical.choice, Quot.sound
Verif.Props.c129_swapped: propext, Classical.choice, Quot.sound
Verif.Props.c129_run: propext, Classical.choice, Quot.sound
