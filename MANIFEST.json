{
 "claims": [
  {
   "property": "C01",
   "status": "proved",
   "theorems": [
    "PJC.C01_p256",
    "PJC.Protocol.C01_intersection_sum"
   ],
   "note": "Over an abstract prime-order group with a lawful point encoding (EcGroup.Lawful); identifiers must hash to distinct points (hypothesis of Setup), as the code itself relies on."
  },
  {
   "property": "C02",
   "status": "proved",
   "theorems": [
    "PJC.Protocol.C02_multiset"
   ],
   "note": ""
  },
  {
   "property": "C03",
   "status": "proved",
   "theorems": [
    "PJC.Protocol.C03_order_hidden"
   ],
   "note": "Equality of the reply for all permutations of the server message; std::sort is the model's sort, any correct sort gives the same list because the keys are the whole strings."
  },
  {
   "property": "C04",
   "status": "proved",
   "theorems": [
    "PJC.Protocol.C04_life_cycle",
    "PJC.Protocol.C04_two_after_one"
   ],
   "note": ""
  },
  {
   "property": "C05",
   "status": "proved",
   "theorems": [
    "PJC.Protocol.C05_finished",
    "PJC.Protocol.C05_refuses_after_finishing",
    "PJC.Protocol.C05_printed",
    "PJC.Protocol.C05_no_early_output"
   ],
   "note": ""
  },
  {
   "property": "C06",
   "status": "partial",
   "theorems": [
    "PJC.Protocol.C06_fails",
    "PJC.Protocol.C06_unexpected_messages_partial"
   ],
   "note": "The statement as documented is false: a replayed server-round-one message is processed again (C06_fails). Proved part: every message that is not from a server round, and every message after the end, is refused without a state change."
  },
  {
   "property": "C07",
   "status": "proved",
   "theorems": [
    "PJC.Protocol.C07_failed_request",
    "PJC.Protocol.C07_history",
    "PJC.Protocol.C07_sink_failure_still_finishes"
   ],
   "note": ""
  },
  {
   "property": "C08",
   "status": "proved",
   "theorems": [
    "PJC.Protocol.C08_server_refuses",
    "PJC.Protocol.C08_client_refuses",
    "PJC.Protocol.C08_malformed_never_counted"
   ],
   "note": ""
  },
  {
   "property": "C09",
   "status": "partial",
   "theorems": [
    "PJC.Protocol.C09_server_fails",
    "PJC.Protocol.C09_client_fails",
    "PJC.Protocol.C09_server_partial",
    "PJC.Protocol.C09_client_partial",
    "PJC.Protocol.C09_server_statement_fails",
    "PJC.Protocol.C09_client_statement_fails"
   ],
   "note": "False: a zero or even Paillier modulus in the client's message, or a non-unit sum in the server's, aborts the process (C09_*_fails). Proved part: a status is returned for every message whose public key / sum is usable."
  },
  {
   "property": "C10",
   "status": "proved",
   "theorems": [
    "PJC.Protocol.C10_first_message_only",
    "PJC.Protocol.C10_codes",
    "PJC.Protocol.C10_one_reply",
    "PJC.Protocol.C10_arbitrary_server_fails"
   ],
   "note": ""
  },
  {
   "property": "C11",
   "status": "proved",
   "theorems": [
    "PJC.Props.C11_keys_exist",
    "PJC.Props.C11_public_round_trip",
    "PJC.Props.C11_private_round_trip"
   ],
   "note": ""
  },
  {
   "property": "C12",
   "status": "proved",
   "theorems": [
    "PJC.Props.C12_homomorphic",
    "PJC.Props.C12_operations_total"
   ],
   "note": ""
  },
  {
   "property": "C13",
   "status": "proved",
   "theorems": [
    "PJC.Props.C13_validation",
    "PJC.Props.C13_decrypt_in_range",
    "PJC.C13_given_rand"
   ],
   "note": "Includes that decrypting a non-unit aborts, which is what the code does."
  },
  {
   "property": "C14",
   "status": "proved",
   "theorems": [
    "PJC.Props.C14_randomness_reproduces"
   ],
   "note": ""
  },
  {
   "property": "C15",
   "status": "proved",
   "theorems": [
    "PJC.Props.C15_crt",
    "PJC.Props.C15_crt_not_coprime"
   ],
   "note": ""
  },
  {
   "property": "C16",
   "status": "proved",
   "theorems": [
    "PJC.Props.C16_fixed_base_exp",
    "PJC.Props.C16_fixed_base_exp_create"
   ],
   "note": ""
  },
  {
   "property": "C17",
   "status": "proved",
   "theorems": [
    "PJC.Props.C17_simultaneous_exp",
    "PJC.Props.C17_simultaneous_exp_mont",
    "PJC.Props.C17_create_refuses",
    "PJC.Props.C17_wide_group_undefined",
    "PJC.Props.C17_negative_exponent_uses_magnitude"
   ],
   "note": ""
  },
  {
   "property": "C18",
   "status": "proved",
   "theorems": [
    "PJC.C18_commutes",
    "PJC.C18_succeeds"
   ],
   "note": ""
  },
  {
   "property": "C19",
   "status": "proved",
   "theorems": [
    "PJC.C19_decrypt_reencrypt",
    "PJC.C19_decrypt_encrypt",
    "PJC.C19_decrypt_one_layer"
   ],
   "note": ""
  },
  {
   "property": "C20",
   "status": "proved",
   "theorems": [
    "PJC.C20_encrypt_injective",
    "PJC.C20_double_encryption",
    "PJC.C20_values"
   ],
   "note": ""
  },
  {
   "property": "C21",
   "status": "partial",
   "theorems": [
    "PJC.C21_new_and_imported_keys",
    "PJC.C21_seed_key_fails",
    "PJC.C21_seed_key_partial"
   ],
   "note": "Keys created fresh or imported are proved to be in [1, order). Keys derived from a seed can be 0 (C21_seed_key_fails, for the hash values that make it so); the partial theorem covers all other outcomes."
  },
  {
   "property": "C22",
   "status": "proved",
   "theorems": [
    "PJC.C22_reencrypt_elgamal"
   ],
   "note": ""
  },
  {
   "property": "C23",
   "status": "proved",
   "theorems": [
    "PJC.C23_round_trip"
   ],
   "note": ""
  },
  {
   "property": "C24",
   "status": "proved",
   "theorems": [
    "PJC.C24_homomorphic",
    "PJC.C24_operations_total"
   ],
   "note": ""
  },
  {
   "property": "C25",
   "status": "proved",
   "theorems": [
    "PJC.C25_joint_decryption",
    "PJC.C25_bad_shares"
   ],
   "note": ""
  },
  {
   "property": "C26",
   "status": "proved",
   "theorems": [
    "PJC.C26_round_trip",
    "PJC.C26_identity",
    "PJC.C26_public_only",
    "PJC.C26_key_export",
    "PJC.C26_layers"
   ],
   "note": ""
  },
  {
   "property": "C27",
   "status": "proved",
   "theorems": [
    "PJC.Curve.C27_hash_valid",
    "PJC.Curve.C27_hash_independent_of_sqrt",
    "PJC.Curve.C27_hash_deterministic",
    "PJC.Curve.C27_hash_never_fails"
   ],
   "note": ""
  },
  {
   "property": "C28",
   "status": "partial",
   "theorems": [
    "PJC.Curve.C28_loop_bound",
    "PJC.Curve.C28_mask",
    "PJC.Curve.C28_boundary_fails",
    "PJC.Curve.C28_padding_round_trip_partial",
    "PJC.Curve.C28_refusals",
    "PJC.Curve.C28_p256_message_lost"
   ],
   "note": "False at one boundary, shown on P-256 itself (C28_p256_message_lost). The partial theorem adds the one missing inequality."
  },
  {
   "property": "C29",
   "status": "proved",
   "theorems": [
    "PJC.Curve.C29_only_curve_points",
    "PJC.Curve.C29_coordinates",
    "PJC.Curve.C29_bytes_total",
    "PJC.Curve.C29_identity_refused",
    "PJC.Curve.C29_encode_decode"
   ],
   "note": ""
  },
  {
   "property": "C30",
   "status": "proved",
   "theorems": [
    "PJC.C30_oracle_range",
    "PJC.C30_oracle_determined",
    "PJC.C30_distinct_blocks",
    "PJC.C30_wide_oracle_collides",
    "PJC.C30_oracle_value",
    "PJC.C30_float_ceiling"
   ],
   "note": "For every hash function, as an uninterpreted parameter."
  },
  {
   "property": "C31",
   "status": "proved",
   "theorems": [
    "PJC.C31_prf_range",
    "PJC.C31_prf_deterministic",
    "PJC.C31_prf_value"
   ],
   "note": ""
  },
  {
   "property": "C32",
   "status": "proved",
   "theorems": [
    "PJC.Props.C32_bytes_round_trip",
    "PJC.Props.C32_bytes_injective",
    "PJC.Props.C32_negative_aborts",
    "PJC.Props.C32_parse_then_serialize"
   ],
   "note": ""
  },
  {
   "property": "C33",
   "status": "partial",
   "theorems": [
    "PJC.Props.C33_modular_operations_partial",
    "PJC.Props.C33_mod_negate_partial",
    "PJC.Props.C33_mod_negate_fails"
   ],
   "note": "ModNegate returns m instead of 0 for nonzero multiples of m (C33_mod_negate_fails). All other operations are proved for all integers; ModNegate for the remaining inputs."
  },
  {
   "property": "C34",
   "status": "partial",
   "theorems": [
    "PJC.C34_wide_search_fails",
    "PJC.C34_discrete_log_partial"
   ],
   "note": "False for message sizes of 31 bits and more in the search width (int shift, undefined behaviour, C34_wide_search_fails). Proved below that."
  },
  {
   "property": "C35",
   "status": "proved",
   "theorems": [
    "PJC.Data.C35_csv_round_trip",
    "PJC.Data.C35_nul_lost",
    "PJC.Data.C35_unquoted",
    "PJC.Data.C35_white_space"
   ],
   "note": ""
  },
  {
   "property": "C36",
   "status": "proved",
   "theorems": [
    "PJC.Data.C36_server_round_trip",
    "PJC.Data.C36_decimal",
    "PJC.Data.C36_client_round_trip",
    "PJC.Data.C36_write_ok",
    "PJC.Data.C36_text",
    "PJC.Data.C36_write_refuses",
    "PJC.Data.C36_newline_fails"
   ],
   "note": "The restriction to identifiers without newline is needed (C36_newline_fails)."
  },
  {
   "property": "C37",
   "status": "proved",
   "theorems": [
    "PJC.Data.C37_server",
    "PJC.Data.C37_client",
    "PJC.Data.C37_refuses"
   ],
   "note": ""
  },
  {
   "property": "C38",
   "status": "partial",
   "theorems": [
    "PJC.Data.C38_refuses",
    "PJC.Data.C38_shape",
    "PJC.Data.C38_fails",
    "PJC.Data.C38_total_partial"
   ],
   "note": "max_associated_value = 0 aborts instead of failing with INVALID_ARGUMENT (C38_fails). Shape and refusal are proved for all other parameters."
  },
  {
   "property": "C39",
   "status": "proved",
   "theorems": [
    "PJC.Rec.C39_round_trip",
    "PJC.Rec.C39_write_ok"
   ],
   "note": ""
  },
  {
   "property": "C40",
   "status": "proved",
   "theorems": [
    "PJC.Rec.C40_truncated",
    "PJC.Rec.C40_any_fault",
    "PJC.Rec.C40_junk_zero"
   ],
   "note": "junk is what protobuf leaves in the length of an incomplete varint; the property needs it to be nonzero (C40_junk_zero shows why), which holds of the protobuf versions known to us but is not checked by the code."
  },
  {
   "property": "C41",
   "status": "partial",
   "theorems": [
    "PJC.Rec.C41_fails",
    "PJC.Rec.C41_round_trip_partial"
   ],
   "note": "False in general: a trailing carriage return, a NUL byte and lines longer than LINE_MAX are changed (C41_fails). Proved for lines without these."
  },
  {
   "property": "C42",
   "status": "proved",
   "theorems": [
    "PJC.Rec.C42_merge"
   ],
   "note": ""
  },
  {
   "property": "C43",
   "status": "partial",
   "theorems": [
    "PJC.Rec.C43_stuck_forever",
    "PJC.Rec.C43_open_twice",
    "PJC.Rec.C43_fails",
    "PJC.Rec.C43_reuse_partial"
   ],
   "note": "False: the reader can never be used again (C43_stuck_forever). The partial theorem is reuse after a successful run."
  },
  {
   "property": "C44",
   "status": "proved",
   "theorems": [
    "PJC.Rec.C44_not_open",
    "PJC.Rec.C44_shards",
    "PJC.Rec.C44_no_faults"
   ],
   "note": "Threads are interleavings of whole Write calls, which hold the writer's mutex from beginning to end."
  },
  {
   "property": "C45",
   "status": "partial",
   "theorems": [
    "PJC.Rec.C45_sticky_partial",
    "PJC.Rec.C45_failed_write_partial",
    "PJC.Rec.C45_fails",
    "PJC.Rec.C45_silent_loss"
   ],
   "note": "False: a failing close of a shard is not remembered, and records can be lost silently (C45_silent_loss). The partial theorems cover all other failures."
  },
  {
   "property": "C46",
   "status": "proved",
   "theorems": [
    "PJC.Rec.C46_merge",
    "PJC.Rec.C46_no_faults"
   ],
   "note": ""
  },
  {
   "property": "C47",
   "status": "proved",
   "theorems": [
    "PJC.Rec.C47_processed",
    "PJC.Rec.C47_no_faults",
    "PJC.Rec.C47_failed_transform"
   ],
   "note": "Threads are arbitrary interleavings of the mutex-protected Write calls; the transformation is a function of the record (and its position)."
  },
  {
   "property": "C48",
   "status": "proved",
   "theorems": [
    "PJC.Rec.C48_join"
   ],
   "note": ""
  },
  {
   "property": "C49",
   "status": "proved",
   "theorems": [
    "PJC.Ped.C49_commit_verify",
    "PJC.Ped.C49_commit_opens",
    "PJC.Ped.C49_zero_table"
   ],
   "note": ""
  },
  {
   "property": "C50",
   "status": "proved",
   "theorems": [
    "PJC.Ped.C50_add",
    "PJC.Ped.C50_multiply"
   ],
   "note": ""
  },
  {
   "property": "C51",
   "status": "proved",
   "theorems": [
    "PJC.Ped.C51_complete",
    "PJC.Ped.C51_prover_succeeds",
    "PJC.Ped.C51_complete_trusted",
    "PJC.Ped.C51_prover_succeeds_trusted"
   ],
   "note": ""
  },
  {
   "property": "C52",
   "status": "proved",
   "theorems": [
    "PJC.Ped.C52_special_soundness",
    "PJC.Ped.C52_special_soundness_trusted",
    "PJC.Ped.C52_safe_modulus"
   ],
   "note": ""
  },
  {
   "property": "C53",
   "status": "proved",
   "theorems": [
    "PJC.Ped.C53_split",
    "PJC.Ped.C53_zero_size",
    "PJC.Ped.C53_long"
   ],
   "note": ""
  },
  {
   "property": "C54",
   "status": "proved",
   "theorems": [
    "PJC.Props.C54_generated_keys",
    "PJC.Props.C54_round_trip",
    "PJC.Props.C54_refused"
   ],
   "note": "For every s and vector length; n must have no prime factor up to s, which the constructor checks by aborting."
  },
  {
   "property": "C55",
   "status": "proved",
   "theorems": [
    "PJC.Props.C55_homomorphic",
    "PJC.Props.C55_operations_total"
   ],
   "note": ""
  },
  {
   "property": "C56",
   "status": "partial",
   "theorems": [
    "PJC.Props.C56_short_ciphertext_fails",
    "PJC.Props.C56_parsed_ciphertexts_partial"
   ],
   "note": "False: a ciphertext with too few components is accepted by the parser (C56_short_ciphertext_fails). Proved for ciphertexts with all components, and Decrypt for all."
  },
  {
   "property": "C57",
   "status": "proved",
   "theorems": [
    "PJC.Vrf.C57_apply",
    "PJC.Vrf.C57_key_proof"
   ],
   "note": ""
  },
  {
   "property": "C58",
   "status": "proved",
   "theorems": [
    "PJC.Vrf.C58_complete",
    "PJC.Vrf.C58_too_many_messages"
   ],
   "note": ""
  },
  {
   "property": "C59",
   "status": "proved",
   "theorems": [
    "PJC.Vrf.C59_special_soundness",
    "PJC.Vrf.C59_extract",
    "PJC.Vrf.C59_bounded"
   ],
   "note": ""
  },
  {
   "property": "C60",
   "status": "proved",
   "theorems": [
    "PJC.Props.C60_signatures"
   ],
   "note": ""
  },
  {
   "property": "C61",
   "status": "proved",
   "theorems": [
    "PJC.Props.C61_request",
    "PJC.Props.C61_honest_request_refused"
   ],
   "note": "The statement includes the exception that the code really has (C61_honest_request_refused)."
  },
  {
   "property": "C62",
   "status": "proved",
   "theorems": [
    "PJC.Props.C62_response"
   ],
   "note": ""
  },
  {
   "property": "C63",
   "status": "partial",
   "theorems": [
    "PJC.Props.C63_verify_request_partial",
    "PJC.Props.C63_missing_openings_fails",
    "PJC.Props.C63_short_ciphertexts_fails"
   ],
   "note": "False: two ways to reach undefined behaviour (C63_*_fails). Proved for messages with the right number of openings and components."
  },
  {
   "property": "C64",
   "status": "proved",
   "theorems": [
    "PJC.KeyUtil.C64_ec_key",
    "PJC.KeyUtil.C64_appended_ec_key",
    "PJC.KeyUtil.C64_elgamal_protos",
    "PJC.KeyUtil.C64_elgamal_key_pair",
    "PJC.KeyUtil.C64_elgamal_no_group",
    "PJC.KeyUtil.C64_same_name_overwrites",
    "PJC.KeyUtil.C64_joint_key",
    "PJC.KeyUtil.C64_joint_empty",
    "PJC.KeyUtil.C64_joint_generator_mismatch_aborts",
    "PJC.KeyUtil.C64_empty_private_key_accepted"
   ],
   "note": ""
  },
  {
   "property": "C65",
   "status": "proved",
   "theorems": [
    "PJC.C65_sampling_ranges",
    "PJC.C65_sampling_onto",
    "PJC.C65_private_key"
   ],
   "note": "OpenSSL's generator is an arbitrary sequence of words."
  },
  {
   "property": "C66",
   "status": "proved",
   "theorems": [
    "PJC.Protocol.C66_exit_zero",
    "PJC.Protocol.C66_exit_one",
    "PJC.Protocol.C66_failed_read_or_start",
    "PJC.Protocol.C66_end_to_end"
   ],
   "note": ""
  },
  {
   "property": "C67",
   "status": "proved",
   "theorems": [
    "PJC.Props.C67_montgomery",
    "PJC.Props.C67_montgomery_refuses",
    "PJC.Props.C67_bytes"
   ],
   "note": ""
  },
  {
   "property": "C68",
   "status": "proved",
   "theorems": [
    "PJC.Bb.C68_separate",
    "PJC.Bb.C68_same_label"
   ],
   "note": ""
  },
  {
   "property": "C69",
   "status": "proved",
   "theorems": [
    "PJC.Ped.C69_generated",
    "PJC.Ped.C69_round_trip",
    "PJC.Ped.C69_from_proto",
    "PJC.Ped.C69_parse_checks"
   ],
   "note": ""
  },
  {
   "property": "C70",
   "status": "proved",
   "theorems": [
    "PJC.Vrf.C70_key_proof_total",
    "PJC.Vrf.C70_apply_proof_total"
   ],
   "note": ""
  },
  {
   "property": "C71",
   "status": "proved",
   "theorems": [
    "PJC.Vrf.C71_key_transcript",
    "PJC.Vrf.C71_apply_transcript",
    "PJC.Vrf.C71_separate"
   ],
   "note": ""
  },
  {
   "property": "C72",
   "status": "partial",
   "theorems": [
    "PJC.Ped.C72_fails",
    "PJC.Ped.C72_same_sizes_partial"
   ],
   "note": "False: the transcript is a plain concatenation (C72_fails). Proved for numbers of the same sizes in bytes."
  },
  {
   "property": "C73",
   "status": "proved",
   "theorems": [
    "PJC.Vrf.C73_key_special_soundness"
   ],
   "note": ""
  },
  {
   "property": "C74",
   "status": "proved",
   "theorems": [
    "PJC.Bb.C74_request_transcript",
    "PJC.Bb.C74_response_transcript"
   ],
   "note": ""
  },
  {
   "property": "C75",
   "status": "proved",
   "theorems": [
    "PJC.Props.C75_verify_response"
   ],
   "note": ""
  },
  {
   "property": "C76",
   "status": "proved",
   "theorems": [
    "PJC.Props.C76_response_after_verification",
    "PJC.Props.C76_unverified_request_undefined"
   ],
   "note": ""
  },
  {
   "property": "C77",
   "status": "proved",
   "theorems": [
    "PJC.KeyUtil.C77_proto_file_round_trip",
    "PJC.KeyUtil.C77_proto_list_round_trip",
    "PJC.KeyUtil.C77_write_ok",
    "PJC.KeyUtil.C77_missing_file",
    "PJC.KeyUtil.C77_malformed_record_accepted"
   ],
   "note": ""
  },
  {
   "property": "C78",
   "status": "proved",
   "theorems": [
    "PJC.KeyUtil.C78_point_util"
   ],
   "note": ""
  },
  {
   "property": "C79",
   "status": "proved",
   "theorems": [
    "PJC.Props.C79_refuses",
    "PJC.Props.C79_generated_keys_work",
    "PJC.Props.C79_terminates",
    "PJC.Props.C79_default_parameter",
    "PJC.Props.C79_negative_parameter_undefined"
   ],
   "note": "The prime generator is a parameter that returns safe primes of the requested bit length (SafePrimes). With a length for which only one such prime exists the loop never ends (C79_terminates)."
  },
  {
   "property": "C80",
   "status": "partial",
   "theorems": [
    "PJC.Props.C80_public_key_round_trip",
    "PJC.Props.C80_hostile_public_key",
    "PJC.Props.C80_private_key_round_trip",
    "PJC.Props.C80_ciphertext_round_trip",
    "PJC.Props.C80_from_proto_fails",
    "PJC.Props.C80_from_proto_partial",
    "PJC.Props.C80_generated_keys_work"
   ],
   "note": "Round trips and key generation are proved in full. Building the cryptosystem from arbitrary protos can abort (C80_from_proto_fails: an even modulus; also a private key with another number of exponents than the public key); the partial theorem covers all other protos."
  },
  {
   "property": "C81",
   "status": "proved",
   "theorems": [
    "PJC.Props.C81_exact_division",
    "PJC.Props.C81_truncating_division",
    "PJC.Props.C81_shifts",
    "PJC.Props.C81_bits",
    "PJC.Props.C81_compare_and_ring",
    "PJC.Props.C81_to_int_value",
    "PJC.Props.C81_to_int_value_negative_fails",
    "PJC.Props.C81_safe_prime"
   ],
   "note": "BigNum is the integers; ToIntValue drops the sign of negative numbers (C81_to_int_value_negative_fails), the positive statement is for nonnegative numbers."
  },
  {
   "property": "C82",
   "status": "proved",
   "theorems": [
    "PJC.C82_export_import",
    "PJC.C82_export_injective"
   ],
   "note": ""
  },
  {
   "property": "C83",
   "status": "partial",
   "theorems": [
    "PJC.Data.C83_exit_zero",
    "PJC.Data.C83_exit_one",
    "PJC.Data.C83_first_line_fails",
    "PJC.Data.C83_first_line_partial",
    "PJC.Data.C83_tool_chain"
   ],
   "note": "The printed size of the server dataset is in fact the client's (C83_first_line_fails); it is right when both sizes are equal (C83_first_line_partial). Everything else is proved."
  },
  {
   "property": "C84",
   "status": "proved",
   "theorems": [
    "PJC.Protocol.C84_client_round_trip",
    "PJC.Protocol.C84_server_round_trip",
    "PJC.Protocol.C84_injective",
    "PJC.Protocol.C84_unknown_fields",
    "PJC.Protocol.C84_malformed",
    "PJC.Protocol.C84_concatenation"
   ],
   "note": ""
  },
  {
   "property": "C85",
   "status": "proved",
   "theorems": [
    "PJC.Protocol.C85_no_wrong_answer",
    "PJC.Protocol.C85_end_to_end",
    "PJC.Protocol.C85_too_many_identifiers",
    "PJC.Protocol.C85_no_wrong_answer_service"
   ],
   "note": ""
  },
  {
   "property": "C86",
   "status": "proved",
   "theorems": [
    "PJC.Props.C86_uniform",
    "PJC.Props.C86_ciphertext_uniform"
   ],
   "note": ""
  },
  {
   "property": "C87",
   "status": "proved",
   "theorems": [
    "PJC.Props.C87_encrypt",
    "PJC.Props.C87_re_encrypt"
   ],
   "note": ""
  },
  {
   "property": "C88",
   "status": "proved",
   "theorems": [
    "PJC.Props.C88_re_randomize",
    "PJC.Props.C88_encrypt",
    "PJC.Props.C88_converse"
   ],
   "note": ""
  },
  {
   "property": "C89",
   "status": "proved",
   "theorems": [
    "PJC.Ped.C89_hiding",
    "PJC.Ped.C89_binding"
   ],
   "note": ""
  },
  {
   "property": "C90",
   "status": "proved",
   "theorems": [
    "PJC.Ped.C90_trusted",
    "PJC.Ped.C90_trusted_accepted",
    "PJC.Ped.C90_parameters",
    "PJC.Ped.C90_parameters_accepted"
   ],
   "note": ""
  },
  {
   "property": "C91",
   "status": "proved",
   "theorems": [
    "PJC.Vrf.C91_key",
    "PJC.Vrf.C91_key_accepted",
    "PJC.Vrf.C91_apply",
    "PJC.Vrf.C91_apply_accepted"
   ],
   "note": ""
  },
  {
   "property": "C92",
   "status": "partial",
   "theorems": [
    "PJC.File.C92_fails",
    "PJC.File.C92_safe_partial",
    "PJC.File.C92_no_leak",
    "PJC.File.C92_wrong_state",
    "PJC.File.C92_open",
    "PJC.File.C92_reads",
    "PJC.File.C92_writes",
    "PJC.File.C92_write_length",
    "PJC.File.C92_codes",
    "PJC.File.C92_destroy",
    "PJC.File.C92_nothing",
    "PJC.File.C92_errors_stick",
    "PJC.File.C92_write_to_reader",
    "PJC.File.C92_end_sticks"
   ],
   "note": "False when fclose fails: the pointer is kept and the destructor closes the stream again (C92_fails). Safety is proved for all call sequences and all other faults; leak freedom, wrong-state refusals and contents for all."
  },
  {
   "property": "C93",
   "status": "proved",
   "theorems": [
    "PJC.Ped.C93_parameters",
    "PJC.Vrf.C93_vrf",
    "PJC.Bb.C93_bb_create",
    "PJC.Bb.C93_bb_request",
    "PJC.Bb.C93_bb_verify_request",
    "PJC.Bb.C93_bb_verify_response"
   ],
   "note": "Exact refusal conditions and status codes of the proof systems' entry points."
  },
  {
   "property": "C94",
   "status": "proved",
   "theorems": [
    "PJC.Props.C94_accepted",
    "PJC.Props.C94_wrong_challenge",
    "PJC.Props.C94_special_soundness",
    "PJC.Props.C94_one_challenge"
   ],
   "note": "Special soundness: two accepted proofs with one first message. Probability of success of a cheating signer against the hash (forking) is not modelled. Needs 3*2^(2(chal+sec))*q^3 <= N^s (Create checks a slightly weaker bound)."
  },
  {
   "property": "C95",
   "status": "proved",
   "theorems": [
    "PJC.Props.C95_accepted",
    "PJC.Props.C95_openings",
    "PJC.Props.C95_decrypts"
   ],
   "note": "What two accepted proofs with one first message determine: openings of the d-th powers of all commitments and the plaintexts of the d-th powers of the ciphertexts. Extracting d-th roots needs the strong RSA assumption and is not modelled."
  },
  {
   "property": "C96",
   "status": "partial",
   "theorems": [
    "PJC.Conc.C96_every_completed_run_races",
    "PJC.Conc.C96_serial_partial",
    "PJC.Conc.C96_fails"
   ],
   "note": "False: every run that completes the protocol has a data race on the finished flag (C96_every_completed_run_races, C96_fails). Proved part: without overlapping calls no other location is raced on."
  },
  {
   "property": "C97",
   "status": "partial",
   "theorems": [
    "PJC.Conc.C97_serial_partial",
    "PJC.Conc.C97_one_start_partial",
    "PJC.Conc.C97_shutdown_after_answer",
    "PJC.Conc.C97_two_starts_fails",
    "PJC.Conc.C97_two_answers_fails",
    "PJC.Conc.C97_fails"
   ],
   "note": "False: overlapping calls can use a deleted cipher (C97_two_starts_fails) or be answered twice (C97_two_answers_fails, C97_fails). Proved: calls that do not overlap are sequential; with at most one start request, memory safety and each reply separately, for every schedule; shutdown only after an answer."
  },
  {
   "property": "C98",
   "status": "partial",
   "theorems": [
    "PJC.File.C98_lines_fail",
    "PJC.File.C98_names_fail",
    "PJC.File.C98_line_iff",
    "PJC.File.C98_line_partial",
    "PJC.File.C98_record",
    "PJC.File.C98_names_exact",
    "PJC.File.C98_names_partial",
    "PJC.File.C98_failed_calls",
    "PJC.File.C98_strings"
   ],
   "note": "False for views that are not followed by a NUL (C98_lines_fail: undefined behaviour; C98_names_fail: another file is deleted). The exact conditions are C98_line_iff and C98_names_exact; under them, and for every std::string without a NUL (C98_strings), the property is proved. Records (C98_record) need no condition."
  },
  {
   "property": "C99",
   "status": "proved",
   "theorems": [
    "PJC.File.C99_create_keeps",
    "PJC.File.C99_create_ok",
    "PJC.File.C99_create_exists",
    "PJC.File.C99_create_outcome",
    "PJC.File.C99_create_again",
    "PJC.File.C99_delete",
    "PJC.File.C99_create_delete"
   ],
   "note": ""
  },
  {
   "property": "C100",
   "status": "proved",
   "theorems": [
    "PJC.Props.C100_request",
    "PJC.Props.C100_request_accepted"
   ],
   "note": "Honest-verifier statistical zero-knowledge with the exact masks of the code; the simulator is given the commitments and ciphertexts of the request, which are themselves hiding under assumptions outside the model."
  },
  {
   "property": "C101",
   "status": "partial",
   "theorems": [
    "PJC.Props.C101_response_partial",
    "PJC.Props.C101_honest",
    "PJC.Props.C101_accepted",
    "PJC.Props.C101_opening_interval",
    "PJC.Props.C101_opening_fails",
    "PJC.Props.C101_opening_leak_toy_fails"
   ],
   "note": "Full zero knowledge is false: the opening of the commitment is masked below N 2^t only while it is drawn below n (C101_opening_fails, with a concrete instance in C101_opening_leak_toy_fails). Proved: distance (2 num + len + kappa)/2^sec + num/q when n <= kappa N."
  },
  {
   "property": "C102",
   "status": "proved",
   "theorems": [
    "PJC.Props.C102_blind",
    "PJC.Props.C102_oblivious"
   ],
   "note": "Statistical, for all draws of the encryption randomness. The claim is about the values the signer decrypts; that the ciphertext randomness and the commitments hide is outside it (commitments: C100)."
  },
  {
   "property": "C103",
   "status": "partial",
   "theorems": [
    "PJC.Protocol.C103_symbol_kept",
    "PJC.Protocol.C103_answer_fails",
    "PJC.Protocol.C103_answer_partial"
   ],
   "note": "The full property is false (C103_answer_fails): the Jacobi symbol of the answer always equals the product of the symbols of the ciphertexts in the intersection (C103_symbol_kept). Proved: with equal size, sum and symbol the answers are within 3(p+q)/((p-1)(q-1)). Client lists without repetitions; primes other than 5."
  },
  {
   "property": "C104",
   "status": "proved",
   "theorems": [
    "PJC.Protocol.C104_first_message",
    "PJC.Protocol.C104_two_servers"
   ],
   "note": "Random-oracle model of the hash to the curve, uniform keys; the bound is in terms of the Diffie-Hellman advantages of explicit algorithms. The server follows the protocol (it is the code)."
  },
  {
   "property": "C105",
   "status": "proved",
   "theorems": [
    "PJC.Protocol.C105_client_message",
    "PJC.Protocol.C105_two_clients",
    "PJC.Protocol.C105_positions_known"
   ],
   "note": "Random-oracle model of the hash to the curve, uniform keys; the server's first message is the honest one; Paillier ciphertexts with fixed draws (their secrecy is a separate matter). That the positions of the common identifiers are revealed is proved (C105_positions_known)."
  },
  {
   "property": "C106",
   "status": "proved",
   "theorems": [
    "PJC.Protocol.C106_client_message",
    "PJC.Protocol.C106_two_clients"
   ],
   "note": "Random-oracle model of the hash to the curve, uniform client key, the draws of the private Paillier encryption uniform over the residues it draws; the server's first message is the honest one. The Diffie-Hellman and composite-residuosity advantages are in the conclusion, nothing is assumed about them."
  },
  {
   "property": "C107",
   "status": "proved",
   "theorems": [
    "PJC.Protocol.C107_client_view",
    "PJC.Protocol.C107_two_servers"
   ],
   "note": "Random-oracle model of the hash to the curve, uniform server key and Paillier draws; honest client with arbitrary key, primes, and draws. That the symbol is really revealed, besides size and sum, is C103."
  },
  {
   "property": "C108",
   "status": "proved",
   "theorems": [
    "PJC.Rec.C108_any_file",
    "PJC.Rec.C108_ends"
   ],
   "note": "junk is what protobuf leaves in the length of an incomplete varint, assumed nonzero as in C40."
  },
  {
   "property": "C109",
   "status": "proved",
   "theorems": [
    "PJC.Interop.C109_one_oracle",
    "PJC.Interop.C109_limits",
    "PJC.Interop.C109_conversions",
    "PJC.Interop.C109_java_integers",
    "PJC.Interop.C109_python_round_trip"
   ],
   "note": ""
  },
  {
   "property": "C110",
   "status": "proved",
   "theorems": [
    "PJC.Interop.C110_java",
    "PJC.Interop.C110_same_point",
    "PJC.Interop.C110_zero",
    "PJC.Interop.C110_same_point_fails",
    "PJC.Interop.C110_p256_p384",
    "PJC.Interop.C110_p224"
   ],
   "note": ""
  },
  {
   "property": "C111",
   "status": "proved",
   "theorems": [
    "PJC.Curve.C111_prime_order",
    "PJC.Curve.C111_lawful",
    "PJC.Curve.C111_two_points",
    "PJC.Curve.C111_create"
   ],
   "note": ""
  },
  {
   "property": "C112",
   "status": "proved",
   "theorems": [
    "PJC.Interop.C112_keys",
    "PJC.Interop.C112_java_new_key",
    "PJC.Interop.C112_key_one_fails",
    "PJC.Interop.C112_empty_key_fails",
    "PJC.Interop.C112_reencrypt_decrypt",
    "PJC.Interop.C112_refusals",
    "PJC.Interop.C112_encrypt",
    "PJC.Interop.C112_defaults",
    "PJC.Interop.C112_validate",
    "PJC.Interop.C112_mixed",
    "PJC.Interop.C112_python_large_key_fails",
    "PJC.Interop.C112_encrypt_point_fails",
    "PJC.Interop.C112_hybrid_fails"
   ],
   "note": ""
  },
  {
   "property": "C113",
   "status": "proved",
   "theorems": [
    "PJC.Cpa.C113_hides",
    "PJC.Cpa.C113_rogue_share_fails",
    "PJC.Cpa.C113_nist"
   ],
   "note": ""
  },
  {
   "property": "C114",
   "status": "proved",
   "theorems": [
    "PJC.Sswu.C114_map",
    "PJC.Sswu.C114_opposite",
    "PJC.Sswu.C114_nu",
    "PJC.Sswu.C114_ro",
    "PJC.Sswu.C114_other_curves",
    "PJC.Sswu.C114_library_failures",
    "PJC.Sswu.C114_cipher",
    "PJC.Sswu.C114_unsupported_curve",
    "PJC.Sswu.C114_always_encrypts_fails"
   ],
   "note": ""
  },
  {
   "property": "C115",
   "status": "proved",
   "theorems": [
    "PJC.Py.Prng.C115_seed",
    "PJC.Py.Prng.C115_seed_number",
    "PJC.Py.Prng.C115_start",
    "PJC.Py.Prng.C115_getRand",
    "PJC.Py.Prng.C115_history",
    "PJC.Py.Prng.C115_draw_unique",
    "PJC.Py.Prng.C115_unbiased",
    "PJC.Py.Prng.C115_acceptance",
    "PJC.Py.Prng.C115_inputs",
    "PJC.Py.Prng.C115_not_positive"
   ],
   "note": ""
  },
  {
   "property": "C116",
   "status": "partial",
   "theorems": [
    "PJC.Py.Bn.C116_frame",
    "PJC.Py.Bn.C116_immutable_partial",
    "PJC.Py.Bn.C116_immutable_fails",
    "PJC.Py.Bn.C116_operator",
    "PJC.Py.Bn.C116_inPlace",
    "PJC.Py.Bn.C116_arithmetic",
    "PJC.Py.Bn.C116_methods",
    "PJC.Py.Bn.C116_roundtrip",
    "PJC.Py.Bn.C116_sign_fails",
    "PJC.Py.Bn.C116_division",
    "PJC.Py.Bn.C116_modInverse",
    "PJC.Py.Bn.C116_modNegate",
    "PJC.Py.Bn.C116_modNegate_zero_fails",
    "PJC.Py.Bn.C116_random",
    "PJC.Py.Bn.C116_shift",
    "PJC.Py.Bn.C116_shift_wraps_fails",
    "PJC.Py.Bn.C116_compare",
    "PJC.Py.Bn.C116_cache",
    "PJC.Py.Bn.C116_cache_shared_fails"
   ],
   "note": "Partial: the full statement is false for the in-place shifts (C116_immutable_fails); C116_immutable_partial proves it for all other programs, the other C116 theorems give the results of the methods."
  },
  {
   "property": "C117",
   "status": "partial",
   "theorems": [
    "PJC.Py.Temp.C117_values",
    "PJC.Py.Temp.C117_released_partial",
    "PJC.Py.Temp.C117_modExp",
    "PJC.Py.Temp.C117_modInverse",
    "PJC.Py.Temp.C117_random",
    "PJC.Py.Temp.C117_uniform",
    "PJC.Py.Temp.C117_leak_fails",
    "PJC.Py.Temp.C117_context_leak_fails",
    "PJC.Py.Temp.C117_bytes_fails",
    "PJC.Py.Temp.C117_str_fails"
   ],
   "note": "Partial: the full statement is false when a temporary is negative (C117_leak_fails), for the library's contexts (C117_context_leak_fails) and for bytes (C117_bytes_fails); C117_released_partial proves the release for every with-block whose temporaries could be made, the other C117 theorems give the results."
  },
  {
   "property": "C118",
   "status": "proved",
   "theorems": [
    "PJC.Py.Pt.C118_frame",
    "PJC.Py.Pt.C118_mul",
    "PJC.Py.Pt.C118_add",
    "PJC.Py.Pt.C118_eq",
    "PJC.Py.Pt.C118_invariant",
    "PJC.Py.Pt.C118_generator",
    "PJC.Py.Pt.C118_roundtrip",
    "PJC.Py.Pt.C118_fromPoint",
    "PJC.Py.Pt.C118_infinity",
    "PJC.Py.Pt.C118_plain_number_fails"
   ],
   "note": ""
  },
  {
   "property": "C119",
   "status": "partial",
   "theorems": [
    "PJC.Py.Bn.C119_rounds",
    "PJC.Py.Bn.C119_isPrime",
    "PJC.Py.Bn.C119_error_fails",
    "PJC.Py.Bn.C119_isSafePrime",
    "PJC.Py.Bn.C119_two_fails",
    "PJC.Py.Bn.C119_bits",
    "PJC.Py.Bn.C119_set_partial",
    "PJC.Py.Bn.C119_set_equal_fails",
    "PJC.Py.Bn.C119_set_mutable_fails"
   ],
   "note": "Partial: the full statement is false for sets of numbers (C119_set_equal_fails, C119_set_mutable_fails), when the library fails (C119_error_fails) and for IsSafePrime of 2 (C119_two_fails); C119_set_partial and the other theorems prove the rest."
  },
  {
   "property": "C120",
   "status": "partial",
   "theorems": [
    "PJC.Ossl.C120_once",
    "PJC.Ossl.C120_exclusive",
    "PJC.Ossl.C120_waits",
    "PJC.Ossl.C120_no_deadlock",
    "PJC.Ossl.C120_context_partial",
    "PJC.Ossl.C120_context_fails",
    "PJC.Ossl.C120_early",
    "PJC.Ossl.C120_range_fails"
   ],
   "note": "Partial: the full statement is false, because the constructor of Context uses the library before OpenSSLInit() (C120_context_fails); C120_context_partial proves it when those uses take no lock, C120_exclusive and C120_no_deadlock for all threads that initialise first, C120_early if one call is made before the threads start."
  },
  {
   "property": "C121",
   "status": "proved",
   "theorems": [
    "PJC.CsCpa.C121_hides",
    "PJC.CsCpa.C121_zero_fails"
   ],
   "note": ""
  },
  {
   "property": "C122",
   "status": "proved",
   "theorems": [
    "PJC.DyPrf.C122_pseudorandom",
    "PJC.DyPrf.C122_nist",
    "PJC.DyPrf.C122_range_fails"
   ],
   "note": ""
  },
  {
   "property": "C123",
   "status": "proved",
   "theorems": [
    "PJC.RomSound.C123_response",
    "PJC.RomSound.C123_reached"
   ],
   "note": ""
  },
  {
   "property": "C124",
   "status": "proved",
   "theorems": [
    "PJC.RomKnow.C124_key",
    "PJC.RomKnow.C124_key_example",
    "PJC.RomKnow.C124_apply",
    "PJC.RomKnow.C124_apply_example",
    "PJC.RomKnow.C124_request",
    "PJC.RomKnow.C124_request_example"
   ],
   "note": ""
  },
  {
   "property": "C125",
   "status": "partial",
   "theorems": [
    "PJC.PedRom.C125_untrusted_fails",
    "PJC.PedRom.C125_one_hash_fails",
    "PJC.PedRom.C125_fixed_lengths_partial",
    "PJC.PedRom.C125_trusted",
    "PJC.PedRom.C125_fixed_lengths_reached",
    "PJC.PedRom.C125_trusted_reached",
    "PJC.PedRom.C125_trusted_fails"
   ],
   "note": "The full statement is false (C125_untrusted_fails, C125_one_hash_fails, C125_trusted_fails). Proved: the bound for first messages of fixed lengths, and the bound for trusted moduli when g is a square or g^2 is not a power of h."
  },
  {
   "property": "C126",
   "status": "proved",
   "theorems": [
    "PJC.Loops.C126_hash",
    "PJC.Loops.C126_hash_named",
    "PJC.Loops.C126_prf",
    "PJC.Loops.C126_prf_half",
    "PJC.Loops.C126_prf_empty_fails",
    "PJC.Loops.C126_rel_prime",
    "PJC.Loops.C126_keygen",
    "PJC.Loops.C126_hash_reached",
    "PJC.Loops.C126_prf_reached"
   ],
   "note": "Hash functions and HMAC are uniformly random tables on the strings the loops can ask; the probabilities are exact counts over all tables or draws. PRF with max <= 0 never returns (C126_prf_empty_fails), a finding."
  },
  {
   "property": "C127",
   "status": "proved",
   "theorems": [
    "PJC.Props.C127_request",
    "PJC.Props.C127_view",
    "PJC.Props.C127_oblivious",
    "PJC.Props.C127_safe",
    "PJC.Props.C127_reached"
   ],
   "note": "Statistical, for a signer who made its key and the parameters as the library does (h generates the commitment bases; g from GetGeneratorForCamenischShoup) and for messages whose signature is defined. The challenge is fixed and the hash function is any that leads to it, as in C100; so the hash is programmable, and the statement is about honest-but-curious signers."
  },
  {
   "property": "C128",
   "status": "proved",
   "theorems": [
    "PJC.Props.C128_key_reveals",
    "PJC.Props.C128_common_sizes",
    "PJC.Props.C128_reached"
   ],
   "note": "Negative result: the property that requests hide messages and nonces needs keys made by GenerateKeys. C128_key_reveals is the attack for all parameters, inputs and draws; C128_common_sizes shows that common sizes leave room for it; C127 is the positive statement for honest keys."
  },
  {
   "property": "C129",
   "status": "proved",
   "theorems": [
    "PJC.BbForge.C129_unforgeable",
    "PJC.BbForge.C129_signature",
    "PJC.BbForge.C129_signOne",
    "PJC.BbForge.C129_draws",
    "PJC.BbForge.C129_reached"
   ],
   "note": "The game is about signatures as such, not about the messages of the oblivious protocol around them (encrypted keys, proofs). C129_signature and C129_signOne tie the signatures of the game to the specification of C60 and to the modelled signing step, C129_draws ties generator and keys to the modelled draws."
  },
  {
   "property": "C130",
   "status": "proved",
   "theorems": [
    "PJC.PedBind.C130_binding",
    "PJC.PedBind.C130_bits",
    "PJC.PedBind.C130_trapdoor",
    "PJC.PedBind.C130_reached"
   ],
   "note": "The reduction replaces C89_binding's exponents by probabilities. The unit drawn for h is taken to be uniform among the units, as the retry loop of RelativelyPrimeRandomLessThan gives it; the exponents are uniform below n/4 as the code draws them."
  },
  {
   "property": "C131",
   "status": "proved",
   "theorems": [
    "PJC.VrfUnique.C131_unique",
    "PJC.VrfUnique.C131_rom",
    "PJC.VrfUnique.C131_reached"
   ],
   "note": "C131_unique starts from two accepted proofs per list of evaluations (what rewinding gives); C131_rom starts from a prover that runs once, with SHA-512 as a random function, and includes the rewinding. The reduction is an explicit function; its running time is three runs of the prover but time is not formalised."
  },
  {
   "property": "C132",
   "status": "proved",
   "theorems": [
    "PJC.VrfPrf.C132_pseudorandom",
    "PJC.VrfPrf.C132_reached"
   ],
   "note": "C132_pseudorandom compares the run of the library with a simulator that has no key; the hash function is a random function on a finite set D of strings that has the strings hashed in a run (covers_exists: there is one) and fixed elsewhere, so that the spy may ask it everywhere. The parameters of the commitment scheme are assumed honest; one list of messages is evaluated and proved. C132_reached and small_run show an instance and an accepted run."
  },
  {
   "property": "C133",
   "status": "proved",
   "theorems": [
    "PJC.Props.C133_answer",
    "PJC.Props.C133_safe",
    "PJC.Props.C133_reached",
    "PJC.RomSound.C133_rom",
    "PJC.RomSound.C133_covers"
   ],
   "note": "Statistical, for requesters that follow the protocol. C133_answer fixes the challenge, as C101 and C127 do; C133_rom takes SHA-512 as a random function on a finite set D that has the strings the signer hashes (C133_covers: there is one) and compares the answer together with the whole function to the simulated pair. The term kappa (n <= kappa N) comes from the short mask of the opening, see C101_opening_fails."
  },
  {
   "property": "C134",
   "status": "proved",
   "theorems": [
    "PJC.BbSession.C134_unforgeable",
    "PJC.BbSession.C134_covers",
    "PJC.BbSession.C134_reached"
   ],
   "note": "One request of L messages, made as GenerateRequestAndProof makes it with randomness of the requester's choice (what an accepted request determines in general is C95); the nonces are uniform, as in C129. SHA-512 is a random function on a finite set D that has the strings the signer hashes (C134_covers: there is one), fixed elsewhere, and the requester is given all of it in the end. The commitment parameters are fixed and honest. The reductions are explicit functions (spy, forger and those of C121 and C129); running time is not formalised."
  },
  {
   "property": "C135",
   "status": "proved",
   "theorems": [
    "PJC.CsvBuffer.C135_columns",
    "PJC.CsvBuffer.C135_split",
    "PJC.CsvBuffer.C135_written",
    "PJC.CsvBuffer.C135_client_line",
    "PJC.CsvBuffer.C135_signed_fails"
   ],
   "note": "SplitCsvLine modelled on memory: equal to the string function of C35, with undefined behaviour exactly where std::isspace gets a negative char (finding C135_signed_fails); rows written by the library are safe (C135_written, C135_client_line)."
  },
  {
   "property": "C136",
   "status": "proved",
   "theorems": [
    "PJC.Py.Prng.C136_uniform",
    "PJC.Py.Prng.C136_near_uniform",
    "PJC.Py.Prng.C136_seeds",
    "PJC.Py.Prng.C136_reached"
   ],
   "note": "SHA-512 is a random function on any finite set of inputs that contains those of the generator; the stream is finite, so uniform up to the chance that it ends first, which C136_near_uniform bounds."
  },
  {
   "property": "C137",
   "status": "proved",
   "theorems": [
    "PJC.Uniform.C137_values",
    "PJC.Uniform.C137_events",
    "PJC.Uniform.C137_sha256",
    "PJC.Uniform.C137_sha384",
    "PJC.Uniform.C137_sha512",
    "PJC.Uniform.C137_prf",
    "PJC.Uniform.C137_reached",
    "PJC.Uniform.C137_prf_reached"
   ],
   "note": "The strings of the calls are different and at most 255 digests are needed per call; with 256 digests block 256 of x is block 1 of 0||x (C30_wide_oracle_collides). The PRF statement is about one call."
  },
  {
   "property": "C138",
   "status": "proved",
   "theorems": [
    "PJC.HashUniform.C138_close",
    "PJC.HashUniform.C138_named",
    "PJC.HashUniform.C138_points",
    "PJC.HashUniform.C138_half",
    "PJC.HashUniform.C138_reached"
   ],
   "note": "The blocks of each string are random (as in C126): other inputs of the hash are any fixed values. Assumes of BN_mod_sqrt only that it finds a reduced root of a square. Not returning within k rounds counts as a result outside every set."
  },
  {
   "property": "C139",
   "status": "proved",
   "theorems": [
    "PJC.RandomSha.C139_two_clients",
    "PJC.RandomSha.C139_two_servers",
    "PJC.RandomSha.C139_reached"
   ],
   "note": "SHA-256 is a random function on a finite set that has all identifiers and the numbers below the field prime; no ideal hash to the curve is assumed. The question sees the hash values of all N identifiers and the messages, not SHA-256 itself. Conditional on the Diffie-Hellman and composite residuosity advantages of explicit algorithms; hashing gives up after 128 rounds, which is in the bound. Assumes of BN_mod_sqrt only that it finds a reduced root of a square."
  },
  {
   "property": "C140",
   "status": "proved",
   "theorems": [
    "PJC.RandomTable.C140_two_clients",
    "PJC.RandomTable.C140_two_servers",
    "PJC.RandomTable.C140_reached"
   ],
   "note": "SHA-256 is a random function on a finite set that has all identifiers and the numbers below the field prime; a question may evaluate it on every string. Conditional on the Diffie-Hellman and composite residuosity advantages of explicit algorithms, which draw the table of SHA-256 themselves and change it where hashing the identifiers ends; their running time is not modelled. Hashing gives up after 128 rounds, which is in the bound. Assumes of BN_mod_sqrt only that it finds a reduced root of a square."
  },
  {
   "property": "C141",
   "status": "partial",
   "theorems": [
    "PJC.Obj.C141_values_partial",
    "PJC.Obj.C141_independent",
    "PJC.Obj.C141_apart",
    "PJC.Obj.C141_freed_partial",
    "PJC.Obj.C141_fails",
    "PJC.Obj.C141_neg_fails",
    "PJC.Obj.C141_leak_fails",
    "PJC.Obj.C141_sample",
    "PJC.Obj.C141_ended"
   ],
   "note": "Partial because the full statement is false: the copy constructor does not check for memory (C141_fails, C141_neg_fails) and the coordinates of the point at infinity leave two numbers behind (C141_leak_fails). C141_values_partial assumes that allocations succeed; C141_independent and C141_apart hold without that. The programs are sequences of BigNum statements; the library writes results only into the number it is given, also when that is an operand."
  },
  {
   "property": "C142",
   "status": "partial",
   "theorems": [
    "PJC.Rec.C142_string",
    "PJC.Rec.C142_int_partial",
    "PJC.Rec.C142_no_key",
    "PJC.Rec.C142_int_fails"
   ],
   "note": "Partial because the full statement is false for readers of integers: their default key is constant (C142_int_fails). C142_string is the full statement for readers of strings."
  },
  {
   "property": "C143",
   "status": "partial",
   "theorems": [
    "PJC.Obj.C143_residues_partial",
    "PJC.Obj.C143_owned_partial",
    "PJC.Obj.C143_fails",
    "PJC.Obj.C143_reload_fails",
    "PJC.Obj.C143_sample",
    "PJC.Obj.C143_contexts",
    "PJC.Obj.C143_ended"
   ],
   "note": "Partial because the full statement is false: neither the copy constructor, the copy assignment nor the constructor from bytes checks for memory (C143_fails, C143_reload_fails); the theorems assume that allocations succeed. Contexts are taken to exist during the whole program, and bytes to be read back only in a context of the same modulus, as mont_mul.h asks for."
  },
  {
   "property": "C144",
   "status": "partial",
   "theorems": [
    "PJC.Pt.C144_values_partial",
    "PJC.Pt.C144_memory_partial",
    "PJC.Pt.C144_owned_partial",
    "PJC.Pt.C144_fails",
    "PJC.Pt.C144_sample",
    "PJC.Pt.C144_ended"
   ],
   "note": "Partial because the full statement is false: the constructor does not check for memory (C144_fails); the theorems assume that allocations succeed. The points of all curves are elements of one abstract commutative group, tagged with their curve; scalars are integers."
  }
 ]
}