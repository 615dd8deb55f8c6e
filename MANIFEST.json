{
 "claims": [
  {
   "property": "C01",
   "status": "proved",
   "theorems": [
    "Raccoon.C01_arith_mod_2_128",
    "Raccoon.C01_mul_full_u64"
   ],
   "note": "128-bit add/sub/neg/mul are arithmetic modulo 2^128"
  },
  {
   "property": "C02",
   "status": "proved",
   "theorems": [
    "Raccoon.C02_zero_divisor",
    "Raccoon.C02_divmod"
   ],
   "note": "128-bit division and remainder are Euclidean division"
  },
  {
   "property": "C03",
   "status": "proved",
   "theorems": [
    "Raccoon.C03_shifts",
    "Raccoon.C03_compare",
    "Raccoon.C03_bitwise",
    "Raccoon.C03_rotl",
    "Raccoon.C03_rotr",
    "Raccoon.C03_rot_inverse"
   ],
   "note": "128-bit shifts, rotations, comparisons and bit operations"
  },
  {
   "property": "C04",
   "status": "proved",
   "theorems": [
    "Raccoon.C04_div_to_agree",
    "Raccoon.C04_field_agree",
    "Raccoon.C04_backends_agree",
    "Raccoon.C04_rot_zero_undefined"
   ],
   "note": "Portable limb back-end and compiler __int128 back-end agree"
  },
  {
   "property": "C05",
   "status": "proved",
   "theorems": [
    "Raccoon.C05_modulus",
    "Raccoon.C05_ring_ops",
    "Raccoon.C05_raw_values",
    "Raccoon.C05_canonical_repr"
   ],
   "note": "Zq addition, subtraction, multiplication are exact modulo q and canonical"
  },
  {
   "property": "C06",
   "status": "proved",
   "theorems": [
    "Raccoon.C06_neg",
    "Raccoon.C06_add_neg"
   ],
   "note": "Zq negation"
  },
  {
   "property": "C07",
   "status": "proved",
   "theorems": [
    "Raccoon.C07_random_poly",
    "Raccoon.C07_barrett",
    "Raccoon.C07_random"
   ],
   "note": "Barrett reduction is correct on its whole 98-bit input range"
  },
  {
   "property": "C08",
   "status": "proved",
   "theorems": [
    "Raccoon.C08_inv",
    "Raccoon.C08_div",
    "Raccoon.C08_xgcd"
   ],
   "note": "Zq inversion and division"
  },
  {
   "property": "C09",
   "status": "proved",
   "theorems": [
    "Raccoon.C09_pow"
   ],
   "note": "Zq exponentiation"
  },
  {
   "property": "C10",
   "status": "proved",
   "theorems": [
    "Raccoon.C10_shl",
    "Raccoon.C10_shl_general",
    "Raccoon.C10_shl_loses_bits"
   ],
   "note": "Zq / polynomial left shift"
  },
  {
   "property": "C11",
   "status": "proved",
   "theorems": [
    "Raccoon.C11_ntt_inverse"
   ],
   "note": "NTT and inverse NTT are mutually inverse"
  },
  {
   "property": "C12",
   "status": "proved",
   "theorems": [
    "Raccoon.C12_ntt_evaluates"
   ],
   "note": "NTT evaluates at the odd powers of \u03b6"
  },
  {
   "property": "C13",
   "status": "proved",
   "theorems": [
    "Raccoon.C13_negacyclic",
    "Raccoon.C13_ntt_linear"
   ],
   "note": "Pointwise product in NTT domain is negacyclic multiplication"
  },
  {
   "property": "C14",
   "status": "proved",
   "theorems": [
    "Raccoon.C14_rounding_shr",
    "Raccoon.C14_limit"
   ],
   "note": "Rounding shift right"
  },
  {
   "property": "C15",
   "status": "proved",
   "theorems": [
    "Raccoon.C15_center",
    "Raccoon.C15_uncenter"
   ],
   "note": "Centering and un-centering are inverse"
  },
  {
   "property": "C16",
   "status": "proved",
   "theorems": [
    "Raccoon.C16_small_mod",
    "Raccoon.C16_hint_recovers"
   ],
   "note": "Small-modulus addition and subtraction"
  },
  {
   "property": "C17",
   "status": "proved",
   "theorems": [
    "Raccoon.C17_sampleQ_exact",
    "Raccoon.C17_sampleQ_canonical",
    "Raccoon.C17_sampleQ_terminates"
   ],
   "note": "Uniform rejection sampling of matrix entries (sampleQ)"
  },
  {
   "property": "C18",
   "status": "proved",
   "theorems": [
    "Raccoon.C18_weight",
    "Raccoon.C18_exact",
    "Raccoon.C18_deterministic"
   ],
   "note": "Challenge polynomial has exactly \u03c9 coefficients \u00b11"
  },
  {
   "property": "C19",
   "status": "proved",
   "theorems": [
    "Raccoon.C19_sampleU_exact",
    "Raccoon.C19_sampleU_range"
   ],
   "note": "Centered uniform noise (sampleU)"
  },
  {
   "property": "C20",
   "status": "proved",
   "theorems": [
    "Raccoon.C20_zero_encoding",
    "Raccoon.C20_zero_encoding_vec",
    "Raccoon.C20_schedule",
    "Raccoon.C20_schedule_bounds"
   ],
   "note": "Zero encoding decodes to zero"
  },
  {
   "property": "C21",
   "status": "proved",
   "theorems": [
    "Raccoon.C21_refresh",
    "Raccoon.C21_refresh_vec"
   ],
   "note": "Refresh preserves the shared value"
  },
  {
   "property": "C22",
   "status": "proved",
   "theorems": [
    "Raccoon.C22_add_rep_noise",
    "Raccoon.C22_add_rep_noise_vec",
    "Raccoon.C22_noise_bound"
   ],
   "note": "Masked noise addition is a sum of uniforms"
  },
  {
   "property": "C23",
   "status": "proved",
   "theorems": [
    "Raccoon.C23_matvec",
    "Raccoon.C23_mul_poly",
    "Raccoon.C23_add_sub",
    "Raccoon.C23_ntt",
    "Raccoon.C23_ring_product"
   ],
   "note": "Masked matrix-vector product commutes with unmasking"
  },
  {
   "property": "C24",
   "status": "proved",
   "theorems": [
    "Raccoon.C24_format",
    "Raccoon.C24_decode_encode",
    "Raccoon.C24_encode_decode",
    "Raccoon.C24_api"
   ],
   "note": "Public key bytes round trip"
  },
  {
   "property": "C25",
   "status": "proved",
   "theorems": [
    "Raccoon.C25_any_bytes",
    "Raccoon.C25_api",
    "Raccoon.C25_unchecked",
    "Raccoon.C25_round_trip",
    "Raccoon.C25_total"
   ],
   "note": "Secret key bytes round trip"
  },
  {
   "property": "C26",
   "status": "proved",
   "theorems": [
    "Raccoon.C26_payload_unmasked",
    "Raccoon.C26_deserialised_unmasked"
   ],
   "note": "Serialised secret keys are masked"
  },
  {
   "property": "C27",
   "status": "proved",
   "theorems": [
    "Raccoon.C27_round_trip",
    "Raccoon.C27_api"
   ],
   "note": "Signature bytes round trip"
  },
  {
   "property": "C28",
   "status": "proved",
   "theorems": [
    "Raccoon.C28_format",
    "Raccoon.C28_decision",
    "Raccoon.C28_in_range",
    "Raccoon.C28_buffer_independent",
    "Raccoon.C28_success_iff",
    "Raccoon.C28_undefined_iff",
    "Raccoon.C28_trap_iff",
    "Raccoon.C28_failure_iff",
    "Raccoon.C28_trap_no_room",
    "Raccoon.C28_no_room"
   ],
   "note": "Signature encoding succeeds exactly when it fits"
  },
  {
   "property": "C29",
   "status": "proved",
   "theorems": [
    "Raccoon.C29_canonical",
    "Raccoon.C29_not_malleable",
    "Raccoon.C29_api",
    "Raccoon.C29_format_injective"
   ],
   "note": "Signature decoding is canonical (no encoding malleability)"
  },
  {
   "property": "C30",
   "status": "proved",
   "theorems": [
    "Raccoon.C30_defined",
    "Raccoon.C30_defined_example",
    "Raccoon.C30_bytes",
    "Raccoon.C30_undefined",
    "Raccoon.C30_verify_undefined",
    "Raccoon.C30_accept_iff",
    "Raccoon.C30_undefined_iff",
    "Raccoon.C30_reject_iff",
    "Raccoon.C30_verify_trap",
    "Raccoon.C30_trap_hint",
    "Raccoon.C30_trap_response",
    "Raccoon.C30_reject_example"
   ],
   "note": "Signature decoding is safe on adversarial input"
  },
  {
   "property": "C31",
   "status": "proved",
   "theorems": [
    "Raccoon.C31_norms_allow",
    "Raccoon.C31_large_never_encoded",
    "Raccoon.C31_large_undefined",
    "Raccoon.C31_decoded_bound",
    "Raccoon.C31_inf_check_vacuous",
    "Raccoon.C31_decoder_wider",
    "Raccoon.C31_encodable_readable"
   ],
   "note": "Large responses pass the norm check but make encoding undefined"
  },
  {
   "property": "C32",
   "status": "proved",
   "theorems": [
    "Raccoon.C32_decides",
    "Raccoon.C32_int64_min",
    "Raccoon.C32_example"
   ],
   "note": "Norm check decides the specified bounds"
  },
  {
   "property": "C33",
   "status": "proved",
   "theorems": [
    "Raccoon.C33_sign_verify",
    "Raccoon.C33_correctness",
    "Raccoon.C33_wire_correct"
   ],
   "note": "Every signature produced verifies"
  },
  {
   "property": "C34",
   "status": "proved",
   "theorems": [
    "Raccoon.C34_accepts_iff",
    "Raccoon.C34_defined",
    "Raccoon.C34_strict",
    "Raccoon.C34_budget",
    "Raccoon.C34_wire_sound",
    "Raccoon.C34_wire_complete",
    "Raccoon.C34_wire_decides",
    "Raccoon.C34_wire_garbage",
    "Raccoon.C34_wire_accepts_iff",
    "Raccoon.C34_wire_answer_iff",
    "Raccoon.C34_wire_undefined_iff",
    "Raccoon.C34_wire_decision"
   ],
   "note": "Verification decision"
  },
  {
   "property": "C35",
   "status": "proved",
   "theorems": [
    "Raccoon.C35_secret_kept",
    "Raccoon.C35_only_acceptable",
    "Raccoon.C35_buffer_independent"
   ],
   "note": "Signing loop returns only acceptable signatures and keeps the secret"
  },
  {
   "property": "C36",
   "status": "proved",
   "theorems": [
    "Raccoon.C36_signature_equations",
    "Raccoon.C36_ephemeral_small",
    "Raccoon.C36_wire"
   ],
   "note": "Signing response and hint equations"
  },
  {
   "property": "C37",
   "status": "proved",
   "theorems": [
    "Raccoon.C37_key_generation",
    "Raccoon.C37_short",
    "Raccoon.C37_wellformed",
    "Raccoon.C37_wire"
   ],
   "note": "Key generation yields an LWE public key with a small secret"
  },
  {
   "property": "C38",
   "status": "proved",
   "theorems": [
    "Raccoon.C38_refresh",
    "Raccoon.C38_history"
   ],
   "note": "Refreshing a secret key keeps its meaning"
  },
  {
   "property": "C39",
   "status": "proved",
   "theorems": [
    "Raccoon.C39_refresh_adds_constant",
    "Raccoon.C39_masks_fixed_sequence",
    "Raccoon.C39_generators_identical",
    "Raccoon.C39_out_of_range",
    "Raccoon.C39_intended_states_distinct",
    "Raccoon.C39_intended_init"
   ],
   "note": "Mask generators are independent"
  },
  {
   "property": "C40",
   "status": "proved",
   "theorems": [
    "Raccoon.C40_hash_input",
    "Raccoon.C40_injective"
   ],
   "note": "Challenge hash input is an injective framing"
  },
  {
   "property": "C41",
   "status": "proved",
   "theorems": [
    "Raccoon.C41_mu",
    "Raccoon.C41_binding",
    "Raccoon.C41_collision_free"
   ],
   "note": "Message and key binding"
  },
  {
   "property": "C42",
   "status": "proved",
   "theorems": [
    "Raccoon.C42_keygen_args",
    "Raccoon.C42_sign_args",
    "Raccoon.C42_verify_args",
    "Raccoon.C42_api_instances",
    "Raccoon.C42_other_d_rejected"
   ],
   "note": "Parameter validation accepts exactly the published tables"
  },
  {
   "property": "C43",
   "status": "proved",
   "theorems": [
    "Raccoon.C43_lengths_general",
    "Raccoon.C43_lengths",
    "Raccoon.C43_published"
   ],
   "note": "Key and signature byte lengths"
  },
  {
   "property": "C44",
   "status": "proved",
   "theorems": [
    "Raccoon.C44_from_le_bytes",
    "Raccoon.C44_to_le_bytes",
    "Raccoon.C44_round_trip"
   ],
   "note": "Little-endian conversion"
  },
  {
   "property": "C45",
   "status": "proved",
   "theorems": [
    "Raccoon.C45_ct_eq"
   ],
   "note": "Byte array comparison"
  },
  {
   "property": "C46",
   "status": "proved",
   "theorems": [
    "Raccoon.C46_is_power_of_2",
    "Raccoon.C46_log2"
   ],
   "note": "Power-of-two helper"
  },
  {
   "property": "C47",
   "status": "proved",
   "theorems": [
    "Raccoon.C47_bit_rev",
    "Raccoon.C47_tables",
    "Raccoon.C47_zeta"
   ],
   "note": "Bit reversal and twiddle tables"
  },
  {
   "property": "C48",
   "status": "proved",
   "theorems": [
    "Raccoon.C48_reads_partition_stream",
    "Raccoon.C48_read_sizes"
   ],
   "note": "PRNG reads are a partition of one stream"
  },
  {
   "property": "C49",
   "status": "proved",
   "theorems": [
    "Raccoon.C49_eq",
    "Raccoon.C49_eq_masked",
    "Raccoon.C49_eq_vec"
   ],
   "note": "Equality tests of polynomials, vectors"
  },
  {
   "property": "C50",
   "status": "proved",
   "theorems": [
    "Raccoon.C50_expandA",
    "Raccoon.C50_headers_distinct",
    "Raccoon.C50_deterministic"
   ],
   "note": "Matrix expansion is domain separated and deterministic"
  },
  {
   "property": "C51",
   "status": "proved",
   "theorems": [
    "Raccoon.C51_mask_sampler",
    "Raccoon.C51_no_generator",
    "Raccoon.C51_canonical"
   ],
   "note": "Mask sampler consumes exactly one generator"
  },
  {
   "property": "C52",
   "status": "proved",
   "theorems": [
    "Raccoon.C52_generate",
    "Raccoon.C52_refresh",
    "Raccoon.C52_reload",
    "Raccoon.C52_verify",
    "Raccoon.C52_first_acceptable",
    "Raccoon.C52_attempt_unique",
    "Raccoon.C52_wire_outcome",
    "Raccoon.C52_wire_unique",
    "Raccoon.C52_wire_returns_iff",
    "Raccoon.C52_wire_undefined_iff",
    "Raccoon.C52_wire_exhausts_iff"
   ],
   "note": "Operations terminate when the samplers do, and signing returns the first acceptable attempt"
  },
  {
   "property": "C53",
   "status": "proved",
   "theorems": [
    "Raccoon.C53_attempts",
    "Raccoon.C53_sign",
    "Raccoon.C53_sign_defined",
    "Raccoon.C53_wire"
   ],
   "note": "Responses and hints of generated keys are small integers"
  },
  {
   "property": "C54",
   "status": "proved",
   "theorems": [
    "Raccoon.C54_masked_sampleQ",
    "Raccoon.C54_masked_sampleQ_wrong"
   ],
   "note": "Sampling into an unmasked masked-polynomial object"
  },
  {
   "property": "C55",
   "status": "proved",
   "theorems": [
    "Raccoon.C55_api",
    "Raccoon.C55_samplers",
    "Raccoon.C55_sign_deterministic"
   ],
   "note": "Iteration budgets do not matter"
  },
  {
   "property": "C56",
   "status": "proved",
   "theorems": [
    "Raccoon.C56_mask",
    "Raccoon.C56_uniform",
    "Raccoon.C56_uniform_reached",
    "Raccoon.C56_challenge",
    "Raccoon.C56_challenge_reached",
    "Raccoon.C56_noise",
    "Raccoon.C56_random",
    "Raccoon.C56_random_biased"
   ],
   "note": "Output distribution of the samplers"
  },
  {
   "property": "C57",
   "status": "proved",
   "theorems": [
    "Raccoon.C57_zero_encoding",
    "Raccoon.C57_refresh",
    "Raccoon.C57_uniform",
    "Raccoon.C57_hides"
   ],
   "note": "Refreshing hides the secret in any d-1 shares"
  },
  {
   "property": "C58",
   "status": "proved",
   "theorems": [
    "Raccoon.C58_binds_key_and_message",
    "Raccoon.C58_strings"
   ],
   "note": "Signatures bind public key and message"
  },
  {
   "property": "C59",
   "status": "proved",
   "theorems": [
    "Raccoon.C59_not_malleable",
    "Raccoon.C59_special_soundness"
   ],
   "note": "Signatures are not malleable without a short kernel vector"
  },
  {
   "property": "C60",
   "status": "proved",
   "theorems": [
    "Raccoon.C60_expandA",
    "Raccoon.C60_chalPoly",
    "Raccoon.C60_chalHash",
    "Raccoon.C60_addRepNoise",
    "Raccoon.C60_key_bytes",
    "Raccoon.C60_refresh",
    "Raccoon.C60_distinct"
   ],
   "note": "Hash uses are domain separated"
  },
  {
   "property": "C61",
   "status": "proved",
   "theorems": [
    "Raccoon.C61_entropy_reuse",
    "Raccoon.C61_secret_determined",
    "Raccoon.C61_signatures_give_secret"
   ],
   "note": "Entropy reuse in signing reveals the secret"
  },
  {
   "property": "C62",
   "status": "proved",
   "theorems": [
    "Raccoon.C62_values",
    "Raccoon.C62_refresh",
    "Raccoon.C62_strong_non_interference"
   ],
   "note": "Observing a refresh: strong non-interference"
  },
  {
   "property": "C63",
   "status": "proved",
   "theorems": [
    "Raccoon.C63_sign",
    "Raccoon.C63_values",
    "Raccoon.C63_response",
    "Raccoon.C63_secret_independent"
   ],
   "note": "Observing the signing response"
  },
  {
   "property": "C64",
   "status": "proved",
   "theorems": [
    "Raccoon.C64_values",
    "Raccoon.C64_noise"
   ],
   "note": "Observing the addition of noise"
  },
  {
   "property": "C65",
   "status": "proved",
   "theorems": [
    "Raccoon.C65_lifetime",
    "Raccoon.C65_computed",
    "Raccoon.C65_history",
    "Raccoon.C65_places",
    "Raccoon.C65_sign_restarts",
    "Raccoon.C65_same_sharing",
    "Raccoon.C65_few",
    "Raccoon.C65_refresh_each"
   ],
   "note": "Observing the whole life of a key"
  },
  {
   "property": "C66",
   "status": "proved",
   "theorems": [
    "Raccoon.C66_same_program",
    "Raccoon.C66_generate",
    "Raccoon.C66_refresh",
    "Raccoon.C66_as_bytes",
    "Raccoon.C66_from_bytes",
    "Raccoon.C66_sign_attempts",
    "Raccoon.C66_sign",
    "Raccoon.C66_sign_released",
    "Raccoon.C66_sign_shares",
    "Raccoon.C66_comparisons",
    "Raccoon.C66_inverse_shows_zero",
    "Raccoon.C66_encoder_shows_signs",
    "Raccoon.C66_sign_shows",
    "Raccoon.C66_observed_arithmetic",
    "Raccoon.C66_observed_refresh",
    "Raccoon.C66_observed_generate",
    "Raccoon.C66_observed_sign",
    "Raccoon.C66_observed_as_bytes",
    "Raccoon.C66_observed_from_bytes"
   ],
   "note": "Control flow and addresses reveal no secrets"
  },
  {
   "property": "C67",
   "status": "proved",
   "theorems": [
    "Raccoon.C67_one_hash_value",
    "Raccoon.C67_simulation",
    "Raccoon.C67_forking"
   ],
   "note": "Acceptance hangs on one hash value"
  },
  {
   "property": "C68",
   "status": "proved",
   "theorems": [
    "Raccoon.C68_counting",
    "Raccoon.C68_zero_encoding",
    "Raccoon.C68_refresh",
    "Raccoon.C68_hides"
   ],
   "note": "Refreshing hides, counted over the generator's words"
  },
  {
   "property": "C69",
   "status": "proved",
   "theorems": [
    "Raccoon.C69_history",
    "Raccoon.C69_sign_same",
    "Raccoon.C69_reduced",
    "Raccoon.C69_sign_verifies",
    "Raccoon.C69_file_layout",
    "Raccoon.C69_corrupt_undefined"
   ],
   "note": "What a key file means"
  },
  {
   "property": "C70",
   "status": "proved",
   "theorems": [
    "Raccoon.C70_flip",
    "Raccoon.C70_flip_changes",
    "Raccoon.C70_reach",
    "Raccoon.C70_coverage"
   ],
   "note": "The test helper flips exactly one bit, but not every bit"
  },
  {
   "property": "C71",
   "status": "proved",
   "theorems": [
    "Raccoon.C71_field",
    "Raccoon.C71_u128",
    "Raccoon.C71_i128_undefined",
    "Raccoon.C71_i128_otherwise",
    "Raccoon.C71_gadgets_blind",
    "Raccoon.C71_gadgets",
    "Raccoon.C71_public_key",
    "Raccoon.C71_unmasked_secret",
    "Raccoon.C71_zero_signature"
   ],
   "note": "The repository's arithmetic, gadget and serialization tests pass on every run"
  },
  {
   "property": "C72",
   "status": "proved",
   "theorems": [
    "Raccoon.C72_signing_test",
    "Raccoon.C72_fails_only_by_break",
    "Raccoon.C72_undefined_only",
    "Raccoon.C72_example",
    "Raccoon.C72_flip_trap"
   ],
   "note": "The signing tests and the example fail only through a cryptographic break"
  },
  {
   "property": "C73",
   "status": "proved",
   "theorems": [
    "Raccoon.C73_words",
    "Raccoon.C73_undefined",
    "Raccoon.C73_rare",
    "Raccoon.C73_few_shares",
    "Raccoon.C73_traps",
    "Raccoon.C73_reached",
    "Raccoon.C73_reached_one_share"
   ],
   "note": "Signing is undefined only for extreme noise, and that is rare"
  },
  {
   "property": "C74",
   "status": "proved",
   "theorems": [
    "Raccoon.C74_attempt",
    "Raccoon.C74_close",
    "Raccoon.C74_numbers"
   ],
   "note": "A response says little about the secret"
  },
  {
   "property": "C75",
   "status": "proved",
   "theorems": [
    "Raccoon.C75_attempts",
    "Raccoon.C75_simulated",
    "Raccoon.C75_oracle"
   ],
   "note": "Signing attempts can be simulated without the secret"
  },
  {
   "property": "C76",
   "status": "proved",
   "theorems": [
    "Raccoon.C76_response_in_bounds",
    "Raccoon.C76_reasons",
    "Raccoon.C76_few_shares",
    "Raccoon.C76_sign_stops"
   ],
   "note": "Why a signing attempt is given up"
  },
  {
   "property": "C77",
   "status": "proved",
   "theorems": [
    "Raccoon.C77_one_table",
    "Raccoon.C77_slow_observer",
    "Raccoon.C77_loaded",
    "Raccoon.C77_sign_uses",
    "Raccoon.C77_share_short"
   ],
   "note": "All masks come from one public table, and refreshing does not stop a slow observer"
  },
  {
   "property": "C78",
   "status": "proved",
   "theorems": [
    "Raccoon.C78_sign",
    "Raccoon.C78_generate",
    "Raccoon.C78_refresh",
    "Raccoon.C78_history",
    "Raccoon.C78_known_answers",
    "Raccoon.C78_repaired",
    "Raccoon.C78_others"
   ],
   "note": "Masking does not show in the outputs"
  },
  {
   "property": "C79",
   "status": "proved",
   "theorems": [
    "Raccoon.C79_device",
    "Raccoon.C79_device_seed_iff",
    "Raccoon.C79_noise_overlap",
    "Raccoon.C79_secret_in_ephemeral",
    "Raccoon.C79_same_entropy"
   ],
   "note": "One seed, one stream: calls are kept apart by their entropy only"
  },
  {
   "property": "C80",
   "status": "proved",
   "theorems": [
    "Raccoon.C80_linear",
    "Raccoon.C80_mul",
    "Raccoon.C80_mul_not_value",
    "Raccoon.C80_shl",
    "Raccoon.C80_shl_not_value",
    "Raccoon.C80_rounding_not_value",
    "Raccoon.C80_add_mod_not_value",
    "Raccoon.C80_eq_not_value"
   ],
   "note": "Which operations on sharings are operations on the shared values"
  },
  {
   "property": "C81",
   "status": "proved",
   "theorems": [
    "Raccoon.C81_keygen",
    "Raccoon.C81_sign",
    "Raccoon.C81_verify"
   ],
   "note": "The benchmarks do the work they name"
  },
  {
   "property": "C82",
   "status": "proved",
   "theorems": [
    "Raccoon.C82_adaptive",
    "Raccoon.C82_forgery",
    "Raccoon.C82_attempts",
    "Raccoon.C82_valid_forges"
   ],
   "note": "Simulation survives adaptively chosen messages and hash queries"
  },
  {
   "property": "C83",
   "status": "proved",
   "theorems": [
    "Raccoon.C83_challenges",
    "Raccoon.C83_levels",
    "Raccoon.C83_guess",
    "Raccoon.C83_relation",
    "Raccoon.C83_fork",
    "Raccoon.C83_forgery",
    "Raccoon.C83_ideal"
   ],
   "note": "Forgeries give short relations"
  },
  {
   "property": "C84",
   "status": "proved",
   "theorems": [
    "Raccoon.C84_commitments",
    "Raccoon.C84_fresh",
    "Raccoon.C84_forgery"
   ],
   "note": "Commitments cannot be predicted"
  },
  {
   "property": "C85",
   "status": "proved",
   "theorems": [
    "Raccoon.C85_uniform",
    "Raccoon.C85_reached",
    "Raccoon.C85_sets",
    "Raccoon.C85_commitments"
   ],
   "note": "Public matrices are uniform"
  },
  {
   "property": "C86",
   "status": "proved",
   "theorems": [
    "Raccoon.C86_keys",
    "Raccoon.C86_pairs",
    "Raccoon.C86_expanded",
    "Raccoon.C86_generated",
    "Raccoon.C86_bytes"
   ],
   "note": "Public keys cannot be predicted"
  },
  {
   "property": "C87",
   "status": "proved",
   "theorems": [
    "Raccoon.C87_anytime",
    "Raccoon.C87_anytime_valid_wins",
    "Raccoon.C87_never",
    "Raccoon.C87_view",
    "Raccoon.C87_wins_forges",
    "Raccoon.C87_unforgeable",
    "Raccoon.C87_valid_wins"
   ],
   "note": "Forging means finding short relations, whatever the attacker asks"
  },
  {
   "property": "C88",
   "status": "proved",
   "theorems": [
    "Raccoon.C88_exchange",
    "Raccoon.C88_forgery",
    "Raccoon.C88_unforgeable"
   ],
   "note": "Breaking the interface is winning the game"
  },
  {
   "property": "C89",
   "status": "proved",
   "theorems": [
    "Raccoon.C89_transfer",
    "Raccoon.C89_short",
    "Raccoon.C89_anytime",
    "Raccoon.C89_forgery",
    "Raccoon.C89_unforgeable"
   ],
   "note": "A second signature of a signed message is a short vector"
  },
  {
   "property": "C90",
   "status": "proved",
   "theorems": [
    "Raccoon.C90_bound",
    "Raccoon.C90_key"
   ],
   "note": "What an attacker of the interface gains"
  },
  {
   "property": "C91",
   "status": "proved",
   "theorems": [
    "Raccoon.C91_odds",
    "Raccoon.C91_numbers",
    "Raccoon.C91_single"
   ],
   "note": "A response changes the odds between two secrets by a factor of two at most"
  },
  {
   "property": "C92",
   "status": "proved",
   "theorems": [
    "Raccoon.C92_transfer",
    "Raccoon.C92_bound"
   ],
   "note": "Few signatures"
  }
 ]
}