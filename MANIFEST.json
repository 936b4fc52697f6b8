{"claims": [
  {"property": "C01", "status": "proved", "theorems": ["Kyber.Props.C01_recover_secret", "Kyber.Props.C01_eval_genuine", "Kyber.Props.C01_shares_recover", "Kyber.Props.C01_new_pri_poly"], "note": "For every field with characteristic q and indices below q, every list of genuine shares, every map iteration order."},
  {"property": "C02", "status": "proved", "theorems": ["Kyber.Props.C02_recover_secret_refuses", "Kyber.Props.C02_recover_commit_refuses", "Kyber.Props.C02_recover_pri_poly_refuses", "Kyber.Props.C02_recover_pub_poly_refuses"], "note": ""},
  {"property": "C03", "status": "proved", "theorems": ["Kyber.Props.C03_recover_secret_order", "Kyber.Props.C03_recover_commit_order", "Kyber.Props.C03_recover_pri_poly_order"], "note": ""},
  {"property": "C04", "status": "proved", "theorems": ["Kyber.Props.C04_recover_pri_poly"], "note": ""},
  {"property": "C05", "status": "proved", "theorems": ["Kyber.Props.C05_no_secret_excluded", "Kyber.Props.C05_unique", "Kyber.Props.C05_equally_likely"], "note": "Existence, uniqueness and equal counts of compatible polynomials: perfect secrecy for uniformly drawn coefficients."},
  {"property": "C06", "status": "proved", "theorems": ["Kyber.Props.C06_commit_eval", "Kyber.Props.C06_pub_eval", "Kyber.Props.C06_pub_eval_sum", "Kyber.Props.C06_pub_commit", "Kyber.Props.C06_pub_shares", "Kyber.Props.C06_check_genuine", "Kyber.Props.C06_check_iff"], "note": ""},
  {"property": "C07", "status": "proved", "theorems": ["Kyber.Props.C07_recover_commit", "Kyber.Props.C07_shares_recover", "Kyber.Props.C07_matches_private"], "note": ""},
  {"property": "C08", "status": "partial", "theorems": ["Kyber.Props.C08_violated", "Kyber.Props.C08_panics", "Kyber.Props.C08_recover_pub_poly_partial"], "note": "The code violates the full statement (C08_violated, C08_panics): it only works when the indices 0..t-1 are all present."},
  {"property": "C09", "status": "proved", "theorems": ["Kyber.Props.C09_add", "Kyber.Props.C09_add_secret", "Kyber.Props.C09_add_refuses", "Kyber.Props.C09_mul", "Kyber.Props.C09_pub_add"], "note": ""},
  {"property": "C10", "status": "partial", "theorems": ["Kyber.Props.C10_pri_equal", "Kyber.Props.C10_violated_longer", "Kyber.Props.C10_violated_panic", "Kyber.Props.C10_pub_equal_partial", "Kyber.Props.C10_pub_equal_prefix"], "note": "PriPoly::equal is exact; PubPoly::equal is not (C10_violated_longer, C10_violated_panic); its exact behaviour is C10_pub_equal_prefix."},
  {"property": "C11", "status": "proved", "theorems": ["Kyber.Props.C11_sign_verify", "Kyber.Props.C11_small_order_refused"], "note": "Completeness under the suite laws; the points must pass the library's own canonicity and small order tests."},
  {"property": "C12", "status": "proved", "theorems": ["Kyber.Props.C12_accepts_iff", "Kyber.Props.C12_never_panics", "Kyber.Props.C12_not_malleable"], "note": "Decision logic without assumptions; uniqueness of s for a base point of full order."},
  {"property": "C13", "status": "proved", "theorems": ["Kyber.Props.C13_special_soundness", "Kyber.Props.C13_nonce_reuse"], "note": ""},
  {"property": "C14", "status": "proved", "theorems": ["Kyber.Props.C14_accepts_iff", "Kyber.Props.C14_never_panics", "Kyber.Props.C14_sign_verify", "Kyber.Props.C14_schnorr_is_eddsa"], "note": ""},
  {"property": "C15", "status": "partial", "theorems": ["Kyber.Ed.C15_edwards25519", "Kyber.Props.C15_violated", "Kyber.Props.C15_simulatable_partial"], "note": "Violated by From<Pair> (C15_violated gives the attack); C15_simulatable_partial shows what holds with uniform nonces."},
  {"property": "C16", "status": "proved", "theorems": ["Kyber.Props.C16_round_trip", "Kyber.Props.C16_unmarshal_iff", "Kyber.Props.C16_from_pair_panics"], "note": ""},
  {"property": "C17", "status": "proved", "theorems": ["Kyber.Props.C17_signature", "Kyber.Props.C17_too_few", "Kyber.Props.C17_verifies", "Kyber.Props.C17_honest_accepted"], "note": ""},
  {"property": "C18", "status": "partial", "theorems": ["Kyber.Props.C18_accepts_iff", "Kyber.Props.C18_parameters_fixed", "Kyber.Props.C18_stored_correct", "Kyber.Props.C18_violated_duplicate", "Kyber.Props.C18_distinct_partial"], "note": "Acceptance condition, stored partials correct for every history. Distinctness of indices is violated when the owner's own partial is delivered before partial_sig (C18_violated_duplicate); C18_distinct_partial covers the other histories."},
  {"property": "C19", "status": "proved", "theorems": ["Kyber.Props.C19_round_trip", "Kyber.Props.C19_encrypt_succeeds"], "note": ""},
  {"property": "C20", "status": "partial", "theorems": ["Kyber.Props.C20_panics_iff", "Kyber.Props.C20_violated", "Kyber.Props.C20_no_panic_partial"], "note": "Violated for ciphertexts shorter than a point (C20_panics_iff is exact)."},
  {"property": "C21", "status": "proved", "theorems": ["Kyber.Props.C21_shared_point", "Kyber.Props.C21_seal_open", "Kyber.Props.C21_encrypt_decrypt", "Kyber.Props.C21_wrong_key_length", "Kyber.Props.C21_dst_panics"], "note": "AES-GCM and HKDF are parameters with the assumption that open inverts seal."},
  {"property": "C22", "status": "proved", "theorems": ["Kyber.Props.C22_honest_approval", "Kyber.Props.C22_encrypted_deal_ok", "Kyber.Props.C22_new_dealer_ok", "Kyber.Props.C22_honest_run", "Kyber.Props.C22_recover"], "note": "Every honest run: setup, encrypted deals, approvals, certification, recovery; the points must pass the library's own canonicity test (see C53)."},
  {"property": "C23", "status": "proved", "theorems": ["Kyber.Props.C23_certified_iff", "Kyber.Props.C23_certified_threshold", "Kyber.Props.C23_missing_responses", "Kyber.Props.C23_timeout_monotone"], "note": "Exact certification rule over arbitrary aggregator states, missing responses, timeout."},
  {"property": "C24", "status": "proved", "theorems": ["Kyber.Props.C24_approved_deal", "Kyber.Props.C24_recover_committed"], "note": "Every deal a verifier approves lies on the committed polynomial, and t such deals recover the committed secret. For shares and partial signatures sent as unreduced bytes on edwards25519 see C151, C152."},
  {"property": "C25", "status": "proved", "theorems": ["Kyber.Props.C25_response_kept", "Kyber.Props.C25_deal_kept", "Kyber.Props.C25_second_deal_refused", "Kyber.Props.C25_second_deal_error", "Kyber.Props.C25_indices", "Kyber.Props.C25_second_response_refused"], "note": "Invariants over every history of calls."},
  {"property": "C26", "status": "proved", "theorems": ["Kyber.Props.C26_authenticated", "Kyber.Props.C26_accepts_iff", "Kyber.Props.C26_effect"], "note": "Exact acceptance condition."},
  {"property": "C27", "status": "partial", "theorems": ["Kyber.Props.C27_responses_unchanged_partial", "Kyber.Props.C27_complaint_is_permanent_partial", "Kyber.Props.C27_violated_pedersen", "Kyber.Props.C27_rabin_complaint_becomes_approval", "Kyber.Props.C27_rabin_accepts_iff"], "note": "Violated by the Pedersen variant (C27_violated_pedersen): a justified complaint stays a complaint. The Rabin variant satisfies it (C27_rabin_complaint_becomes_approval, C27_rabin_accepts_iff)."},
  {"property": "C28", "status": "proved", "theorems": ["Kyber.Props.C28_bad_justification_marks", "Kyber.Props.C28_bad_forever", "Kyber.Props.C28_only_justification_marks", "Kyber.Props.C28_rabin_bad_justification_marks", "Kyber.Props.C28_rabin_bad_forever"], "note": "Over every history of network calls, both variants."},
  {"property": "C29", "status": "partial", "theorems": ["Kyber.Props.C29_accepts_iff_partial", "Kyber.Props.C29_violated_unsigned", "Kyber.Props.C29_violated_index", "Kyber.Props.C29_rabin_violated_unsigned", "Kyber.Props.C29_rabin_violated_index"], "note": "Violated in both variants: justifications are not authenticated and not bound to the complaint's index; C29_accepts_iff_partial is the exact condition."},
  {"property": "C30", "status": "proved", "theorems": ["Kyber.Ed.C30_edwards25519", "Kyber.Props.C30_new_dealer_ok", "Kyber.Props.C30_honest_approval", "Kyber.Props.C30_honest_run", "Kyber.Props.C30_recover", "Kyber.Props.C30_hiding", "Kyber.Props.C30_view_hides_secret"], "note": "Completeness of every honest run, recovery, and perfect hiding of shares plus commitments."},
  {"property": "C31", "status": "proved", "theorems": ["Kyber.Props.C31_two_openings", "Kyber.Props.C31_share_unique", "Kyber.Props.C31_check_deal"], "note": "Two openings of one commitment give the discrete logarithm of H; shares are unique under independence of B and H."},
  {"property": "C32", "status": "proved", "theorems": ["Kyber.Props.C32_certified_iff", "Kyber.Props.C32_deal_iff", "Kyber.Props.C32_timeout", "Kyber.Props.C32_certified_after_timeout", "Kyber.Props.C32_certified_stays"], "note": "Exact certification rule, timeout, and monotonicity."},
  {"property": "C33", "status": "partial", "theorems": ["Kyber.Props.C33_dist_key_share_iff", "Kyber.Props.C33_order_independent", "Kyber.Props.C33_agreement_partial", "Kyber.Props.C33_recover", "Kyber.Props.C33_new_generator_ok", "Kyber.Props.C33_honest_run", "Kyber.Props.C33_honest_recover", "Kyber.Props.C33_violated_equivocation"], "note": "Exact condition for a key (C33_dist_key_share_iff), honest runs of any size in any message order (C33_honest_run, C33_honest_recover). Agreement fails if a dealer equivocates on its commitments (C33_violated_equivocation); C33_agreement_partial assumes the same deals."},
  {"property": "C34", "status": "partial", "theorems": ["Kyber.Props.C34_dist_key_share_iff", "Kyber.Props.C34_share_on_commits", "Kyber.Props.C34_same_key", "Kyber.Props.C34_honest", "Kyber.Props.C34_recover", "Kyber.Props.C34_approval", "Kyber.Props.C34_approved_partial", "Kyber.Props.C34_violated_rejected", "Kyber.Props.C34_same_key_base", "Kyber.Props.C34_approved_base_partial"], "note": "The exact result of dist_key_share at a new participant, key preservation for honest and for approved deals, recovery. Against arbitrary messages the statement is violated: a refused deal can become qualified."},
  {"property": "C35", "status": "partial", "theorems": ["Kyber.Props.C35_renew_iff", "Kyber.Props.C35_renew_fails", "Kyber.Props.C35_renew_valid_iff", "Kyber.Props.C35_renew_valid_partial", "Kyber.Props.C35_renewals", "Kyber.Props.C35_violated_longer", "Kyber.Props.C35_violated_shorter"], "note": "Exact condition and failure cases proved; violated when the number of commitments differs; C35_renew_valid_partial assumes equal lengths."},
  {"property": "C36", "status": "partial", "theorems": ["Kyber.Props.C36_qual", "Kyber.Props.C36_certified", "Kyber.Props.C36_threshold_certified", "Kyber.Props.C36_qual_leaving", "Kyber.Props.C36_violated_unknown_dealer"], "note": "Exact condition proved for participants and for leaving nodes; violated for a leaving node, which counts dealers that do not exist."},
  {"property": "C37", "status": "partial", "theorems": ["Kyber.Props.C37_threshold_partial", "Kyber.Props.C37_violated_panic", "Kyber.Props.C37_violated_single_dealer"], "note": "Violated for threshold 0 (panic, key from one dealer); C37_threshold_partial covers every specified threshold."},
  {"property": "C38", "status": "partial", "theorems": ["Kyber.Props.C38_duplicates_partial", "Kyber.Props.C38_violated", "Kyber.Props.C38_violated_resharing", "Kyber.Props.C38_violated_verifiers"], "note": "Violated: the error of init_verifiers is dropped, and duplicates in the new list are not looked for when resharing; C38_duplicates_partial says what happens."},
  {"property": "C39", "status": "proved", "theorems": ["Kyber.Props.C39_new_generator_ok", "Kyber.Props.C39_finished_iff", "Kyber.Props.C39_dist_key_share_iff", "Kyber.Props.C39_order_independent", "Kyber.Props.C39_succeeds_iff", "Kyber.Props.C39_no_panic", "Kyber.Props.C39_share_on_commits", "Kyber.Props.C39_share_on_commits_reconstructed", "Kyber.Props.C39_reconstruct", "Kyber.Props.C39_key_is_sum", "Kyber.Props.C39_recover", "Kyber.Props.C39_honest_run", "Kyber.Props.C39_honest_recover"], "note": "Exact conditions for finished and for a key, order independence, honest runs of any size in any admissible message order (C39_honest_run, C39_honest_recover), reconstruction of commitments."},
  {"property": "C40", "status": "partial", "theorems": ["Kyber.Props.C40_complaint_iff", "Kyber.Props.C40_complaint_effect", "Kyber.Props.C40_commitments_change", "Kyber.Props.C40_commits_iff", "Kyber.Props.C40_genuine_complaint", "Kyber.Props.C40_violated_forged_complaint", "Kyber.Props.C40_violated_key"], "note": "Exact condition for accepting a complaint, its effect, and everything that can change commitments. Violated: a complaint with an invented deal is accepted, and the key of a participant can be changed after an honest run."},
  {"property": "C41", "status": "proved", "theorems": ["Kyber.Props.C41_add", "Kyber.Props.C41_mul", "Kyber.Props.C41_sub", "Kyber.Props.C41_neg", "Kyber.Props.C41_inv", "Kyber.Props.C41_inv_panics", "Kyber.Props.C41_equal", "Kyber.Props.C41_nonzero", "Kyber.Props.C41_default", "Kyber.Props.C41_setters", "Kyber.Props.C41_uint64_round_trip"], "note": ""},
  {"property": "C42", "status": "partial", "theorems": ["Kyber.Props.C42_violated_div", "Kyber.Props.C42_div_partial", "Kyber.Props.C42_violated_exp", "Kyber.Props.C42_exp_partial", "Kyber.Props.C42_violated_sqrt", "Kyber.Props.C42_sqrt_partial"], "note": "Violated by div, exp and sqrt (C42_violated_*); the partial theorems give what the calls compute."},
  {"property": "C43", "status": "partial", "theorems": ["Kyber.Props.C43_violated_little_endian", "Kyber.Props.C43_big_endian_encoding", "Kyber.Props.C43_round_trip_partial", "Kyber.Props.C43_accepts_iff", "Kyber.Props.C43_unique", "Kyber.Props.C43_big_endian_panics"], "note": "Violated in little-endian order for values with leading zero bytes; everything else is proved; acceptance condition exact."},
  {"property": "C44", "status": "proved", "theorems": ["Kyber.Props.C44_bits", "Kyber.Props.C44_bits_exact", "Kyber.Props.C44_bits_zero_exact", "Kyber.Props.C44_first_accepted", "Kyber.Props.C44_range", "Kyber.Props.C44_no_result", "Kyber.Props.C44_failing_stream", "Kyber.Props.C44_library_streams", "Kyber.Props.C44_from_seed", "Kyber.Props.C44_uniform", "Kyber.Props.C44_reachable"], "note": "Range, first-accepted semantics, exact uniformity over all draw sequences, divergence cases."},
  {"property": "C45", "status": "proved", "theorems": ["Kyber.Props.C45_involution", "Kyber.Props.C45_splitting", "Kyber.Props.C45_destination", "Kyber.Props.C45_write_splitting", "Kyber.Props.C45_write_after_read", "Kyber.Props.C45_write_all_after_read", "Kyber.Props.C45_write_all", "Kyber.Props.C45_reseed", "Kyber.Props.C45_reseed_writes"], "note": "BLAKE3 is an arbitrary function from input and position to bytes."},
  {"property": "C46", "status": "proved", "theorems": ["Kyber.Ed.C46_value", "Kyber.Ed.C46_prime", "Kyber.Ed.C46_add", "Kyber.Ed.C46_sub", "Kyber.Ed.C46_add_add", "Kyber.Ed.C46_sub_sub", "Kyber.Ed.C46_neg", "Kyber.Ed.C46_mul", "Kyber.Ed.C46_square", "Kyber.Ed.C46_square2", "Kyber.Ed.C46_compose", "Kyber.Ed.C46_mul_no_overflow", "Kyber.Ed.C46_c_move", "Kyber.Ed.C46_constants"], "note": "All limb vectors within the documented bounds; the bounds are closed under the operations."},
  {"property": "C47", "status": "proved", "theorems": ["Kyber.Ed.C47_invert", "Kyber.Ed.C47_invert_mul", "Kyber.Ed.C47_pow22523"], "note": ""},
  {"property": "C48", "status": "proved", "theorems": ["Kyber.Ed.C48_to_bytes", "Kyber.Ed.C48_to_bytes_inj", "Kyber.Ed.C48_from_bytes", "Kyber.Ed.C48_round_trip", "Kyber.Ed.C48_canonical", "Kyber.Ed.C48_decode_encode", "Kyber.Ed.C48_is_negative", "Kyber.Ed.C48_is_non_zero"], "note": ""},
  {"property": "C49", "status": "proved", "theorems": ["Kyber.Ed.C49_mul_add", "Kyber.Ed.C49_mul", "Kyber.Ed.C49_add", "Kyber.Ed.C49_sub", "Kyber.Ed.C49_no_overflow"], "note": "All 32-byte operands."},
  {"property": "C50", "status": "proved", "theorems": ["Kyber.Ed.C50_prime", "Kyber.Ed.C50_closed", "Kyber.Ed.C50_ring", "Kyber.Ed.C50_neutral", "Kyber.Ed.C50_inv", "Kyber.Ed.C50_inv_zero", "Kyber.Ed.C50_div", "Kyber.Ed.C50_no_zero_divisors", "Kyber.Ed.C50_eq"], "note": "Ring laws as byte equalities for all 32-byte operands, inversion by Fermat, primality by a Pratt certificate."},
  {"property": "C51", "status": "partial", "theorems": ["Kyber.Ed.C51_violated_set_int64", "Kyber.Ed.C51_violated_set_bytes", "Kyber.Ed.C51_set_int64_partial", "Kyber.Ed.C51_set_bytes_partial", "Kyber.Ed.C51_pick_partial", "Kyber.Ed.C51_exact"], "note": "Violated (C51_violated_set_int64, C51_violated_set_bytes): stale high bytes of the receiver survive; C51_exact is the exact effect."},
  {"property": "C52", "status": "proved", "theorems": ["Kyber.Ed.C52_is_canonical", "Kyber.Ed.C52_outputs_canonical"], "note": "Exact."},
  {"property": "C53", "status": "partial", "theorems": ["Kyber.Ed.C53_violated", "Kyber.Ed.C53_is_canonical_partial"], "note": "Violated: the canonical encodings of p-217..p-1 are refused; accepted strings are canonical."},
  {"property": "C54", "status": "proved", "theorems": ["Kyber.Ed.C54_small_order", "Kyber.Ed.C54_listed", "Kyber.Ed.C54_eight_points", "Kyber.Ed.C54_base_null"], "note": "Exactly the points of order dividing 8."},
  {"property": "C55", "status": "proved", "theorems": ["Kyber.Ed.C55_add", "Kyber.Ed.C55_sub", "Kyber.Ed.C55_neg", "Kyber.Ed.C55_double", "Kyber.Ed.C55_mixed", "Kyber.Ed.C55_group", "Kyber.Ed.C55_reachable", "Kyber.Ed.C55_default_invalid"], "note": "Formulas over well-formed elements (limb bounds, Z nonzero, on the curve, XY=ZT), group laws, closure of well-formedness over all API calls."},
  {"property": "C56", "status": "proved", "theorems": ["Kyber.Ed.C56_mul", "Kyber.Ed.C56_mul_base", "Kyber.Ed.C56_iterate", "Kyber.Ed.C56_table"], "note": "All scalars below 2^255, all points, and the table of precomputed multiples."},
  {"property": "C57", "status": "proved", "theorems": ["Kyber.Ed.C57_round_trip", "Kyber.Ed.C57_eq", "Kyber.Ed.C57_marshal"], "note": "All well-formed elements."},
  {"property": "C58", "status": "proved", "theorems": ["Kyber.Ed.C58_decode", "Kyber.Ed.C58_accept", "Kyber.Ed.C58_length"], "note": "Exact acceptance condition and result."},
  {"property": "C59", "status": "proved", "theorems": ["Kyber.Ed.C59_embed", "Kyber.Ed.C59_embed_subgroup", "Kyber.Ed.C59_pick", "Kyber.Ed.C59_embed_accept", "Kyber.Ed.C59_pick_accept", "Kyber.Ed.C59_pick_retry", "Kyber.Ed.C59_data"], "note": "All streams and data; the loop is a fuel-bounded recursion, results hold for every fuel; completeness of a round."},
  {"property": "C60", "status": "proved", "theorems": ["Kyber.Ed.C60_clamp", "Kyber.Ed.C60_subgroups", "Kyber.Props.C60_eddsa_key"], "note": "All 64-byte digests."},
  {"property": "C61", "status": "partial", "theorems": ["Kyber.Props.C61_recover_partial", "Kyber.Props.C61_violated", "Kyber.Props.C61_violated_recovery"], "note": "Violated (C61_violated, C61_violated_recovery); C61_recover_partial is what holds."},
  {"property": "C62", "status": "partial", "theorems": ["Kyber.Props.C62_no_effect_partial", "Kyber.Props.C62_violated"], "note": "Violated (C62_violated); C62_no_effect_partial shows the call has no effect."},
  {"property": "C63", "status": "partial", "theorems": ["Kyber.Props.C63_session_id_binds", "Kyber.Props.C63_agreement_partial", "Kyber.Props.C63_violated_equivocation"], "note": "Violated (C63_violated_equivocation) because the session id in a deal is never recomputed; C63_agreement_partial holds when it is the right one."},
  {"property": "C64", "status": "partial", "theorems": ["Kyber.Props.C64_no_replay_partial", "Kyber.Props.C64_violated_replay", "Kyber.Props.C64_rabin_own_approval_partial", "Kyber.Props.C64_rabin_violated", "Kyber.Props.C64_rabin_violated_justified"], "note": "Violated in both variants (C64_violated_replay, C64_rabin_violated, C64_rabin_violated_justified); the partial theorems cover the remaining histories."},
  {"property": "C65", "status": "partial", "theorems": ["Kyber.Props.C65_same_commitments_partial", "Kyber.Props.C65_violated", "Kyber.Props.C65_rabin_same_commitments_partial", "Kyber.Props.C65_rabin_violated"], "note": "Violated in both variants: the justification is checked against its own commitments only."},
  {"property": "C66", "status": "partial", "theorems": ["Kyber.Props.C66_violated_set_int64", "Kyber.Props.C66_violated_new_int", "Kyber.Props.C66_violated_unmarshal", "Kyber.Props.C66_violated_jacobi", "Kyber.Props.C66_careful_partial"], "note": "Violated by set_int64/new_int64 with negative multiples, new_int of negatives, and after a refused unmarshal; C66_careful_partial covers all other call sequences."},
  {"property": "C67", "status": "partial", "theorems": ["Kyber.Props.C67_fails_iff", "Kyber.Props.C67_output", "Kyber.Props.C67_contract_violated", "Kyber.Props.C67_key_stream_reuse_partial"], "note": "The contract about consecutive calls is violated (C67_contract_violated); the other parts are proved."},
  {"property": "C68", "status": "partial", "theorems": ["Kyber.Ed.C68_marshal", "Kyber.Ed.C68_round_trip", "Kyber.Ed.C68_unmarshal", "Kyber.Ed.C68_violated", "Kyber.Ed.C68_injective_partial", "Kyber.Ed.C68_constants"], "note": "Violated for scalars decoded from non-canonical encodings; the partial theorem covers reduced ones."},
  {"property": "C69", "status": "partial", "theorems": ["Kyber.Ed.C69_violated", "Kyber.Ed.C69_mul_partial", "Kyber.Ed.C69_mul_base_partial", "Kyber.Ed.C69_exact_partial"], "note": "Violated for scalars with a top signed digit above 8 (C69_violated); C69_mul_partial is the exact result for all 32-byte strings."},
  {"property": "C70", "status": "partial", "theorems": ["Kyber.Ed.C70_violated", "Kyber.Ed.C70_action_partial", "Kyber.Ed.C70_exact_partial"], "note": "Violated outside the prime-order subgroup; C70_action_partial is the law inside it."},
  {"property": "C71", "status": "partial", "theorems": ["Kyber.Ed.C71_violated", "Kyber.Ed.C71_strict_partial", "Kyber.Ed.C71_unique_partial"], "note": "Violated (sign bit on x = 0, unreduced y); C71_strict_partial is the exact condition."},
  {"property": "C72", "status": "partial", "theorems": ["Kyber.Ed.C72_violated", "Kyber.Ed.C72_failed_partial"], "note": "Violated: x, y and z are overwritten before the check; C72_failed_partial says what survives."},
  {"property": "C73", "status": "proved", "theorems": ["Kyber.Ed.C73_order", "Kyber.Ed.C73_base_injective"], "note": "Counting argument: injection of points into y and parity gives at most 2p points; the order is a multiple of 8L."},
  {"property": "C74", "status": "partial", "theorems": ["Kyber.Props.C74_finishes_partial", "Kyber.Props.C74_violated_withheld", "Kyber.Props.C74_violated_degree"], "note": "Violated by a withheld deal and by a polynomial of higher degree; C74_finishes_partial is the exact condition."},
  {"property": "C75", "status": "proved", "theorems": ["Kyber.Props.C75_qualified_shares", "Kyber.Props.C75_approved"], "note": ""},
  {"property": "C76", "status": "partial", "theorems": ["Kyber.Props.C76_after_deal_partial", "Kyber.Props.C76_violated"], "note": "Violated when the response arrives before the deal; C76_after_deal_partial covers responses that arrive later."},
  {"property": "C77", "status": "partial", "theorems": ["Kyber.Props.C77_response", "Kyber.Props.C77_justification", "Kyber.Props.C77_deal_partial", "Kyber.Props.C77_violated_forged", "Kyber.Props.C77_violated_deal"], "note": "Violated by an unsigned justification and by signed deals; C77_response and C77_justification are complete, C77_deal_partial bounds the cases for deals."},
  {"property": "C78", "status": "partial", "theorems": ["Kyber.Props.C78_rejection_not_stored", "Kyber.Props.C78_violated"], "note": "Violated; what is stored after a refusal is proved in general."},
  {"property": "C79", "status": "partial", "theorems": ["Kyber.Props.C79_order_partial", "Kyber.Props.C79_violated"], "note": "Violated when a qualified deal is missing; order independence proved otherwise."},
  {"property": "C80", "status": "partial", "theorems": ["Kyber.Props.C80_finished_partial", "Kyber.Props.C80_violated"], "note": "Violated by commitments of another length; C80_finished_partial assumes equal lengths."},
  {"property": "C81", "status": "partial", "theorems": ["Kyber.Props.C81_stays_finished_partial", "Kyber.Props.C81_stuck", "Kyber.Props.C81_violated"], "note": "Violated by a forged complaint; other messages keep a finished participant finished; C81_stuck: after a second complaint reconstruction never happens again."},
  {"property": "C82", "status": "partial", "theorems": ["Kyber.Props.C82_silent_participant_blocks", "Kyber.Props.C82_secret_commits_partial", "Kyber.Props.C82_violated"], "note": "Violated: the dealer is not told of the timeout; one silent participant blocks the dealer for good (C82_silent_participant_blocks)."},
  {"property": "C83", "status": "partial", "theorems": ["Kyber.Props.C83_complaint_signed", "Kyber.Props.C83_commits_signed", "Kyber.Props.C83_reconstruct_signed", "Kyber.Props.C83_replay_commits", "Kyber.Props.C83_replay_reconstruct", "Kyber.Props.C83_violated"], "note": "Violated: the session id is not hashed in secret commitments and revealed shares. What the three signatures do cover is proved."},
  {"property": "C84", "status": "partial", "theorems": ["Kyber.Props.C84_approvals_partial", "Kyber.Props.C84_violated"], "note": "Violated: the threshold in the dealer's message is used; C84_approvals_partial is the exact condition."},
  {"property": "C85", "status": "partial", "theorems": ["Kyber.Props.C85_response", "Kyber.Props.C85_reconstruct", "Kyber.Props.C85_justification", "Kyber.Props.C85_commits", "Kyber.Props.C85_complaint", "Kyber.Props.C85_deal_partial", "Kyber.Props.C85_violated_unsigned", "Kyber.Props.C85_violated_commits"], "note": "Violated by an unsigned justification, by empty commitments, by a complaint and by a deal with a short nonce. Exact conditions for justifications, commitments and complaints; responses and revealed shares never panic; C85_deal_partial bounds the cases for deals."},
  {"property": "C86", "status": "partial", "theorems": ["Kyber.Ed.C86_verifies_partial", "Kyber.Ed.C86_violated_nonce", "Kyber.Ed.C86_violated_key", "Kyber.Ed.C86_violated", "Kyber.Ed.C86_rare_partial"], "note": "Violated: the nonce (or key) whose point has y = p-9 gives refused signatures for every message and hash function (C86_violated_nonce, C86_violated_key). Exact condition in C86_verifies_partial; C86_rare_partial: at most 435 residues fail."},
  {"property": "C87", "status": "proved", "theorems": ["Kyber.Ed.C87_rfc_key", "Kyber.Ed.C87_rfc_sign"], "note": "Against Spec/Ed/Rfc8032.lean, written from the RFC."},
  {"property": "C88", "status": "partial", "theorems": ["Kyber.Ed.C88_sound", "Kyber.Ed.C88_exact_partial", "Kyber.Ed.C88_rfc_signature_partial", "Kyber.Ed.C88_violated"], "note": "Soundness proved (C88_sound). Completeness violated: a hash function with a nonce whose point has y = p-9. Exact condition for keys in the subgroup in C88_exact_partial; for RFC signatures in C88_rfc_signature_partial."},
  {"property": "C89", "status": "proved", "theorems": ["Kyber.Ed.C89_agree", "Kyber.Ed.C89_same_signature"], "note": "Both acceptance conditions are characterised exactly."},
  {"property": "C90", "status": "proved", "theorems": ["Kyber.Ed.C90_unique", "Kyber.Ed.C90_points", "Kyber.Ed.C90_no_panic"], "note": "From the exact acceptance condition."},
  {"property": "C91", "status": "proved", "theorems": ["Kyber.Ed.C91_contract", "Kyber.Ed.C91_operations", "Kyber.Ed.C91_sign", "Kyber.Ed.C91_verify", "Kyber.Ed.C91_eddsa_verify"], "note": "The suite is built from the functions of Model/Ed (Spec/Ed/Suite.lean); C91_operations ties it to them, C91_sign and C91_verify tie the generic signatures to the byte-level ones."},
  {"property": "C92", "status": "partial", "theorems": ["Kyber.Ed.C92_cofactor_partial", "Kyber.Ed.C92_violated_middle", "Kyber.Ed.C92_violated"], "note": "Violated: the commitments are not checked to lie in the prime order subgroup; with a point of order two added to both commitments every verifier with an even index accepts. Proved: the recovered secret is right up to multiplication by the cofactor 8, and exactly right if the commitments lie in the subgroup."},
  {"property": "C93", "status": "proved", "theorems": ["Kyber.Ed.C93_pedersen_dkg", "Kyber.Ed.C93_pedersen_start", "Kyber.Ed.C93_rabin_dkg", "Kyber.Ed.C93_rabin_start", "Kyber.Ed.C93_dss"], "note": "The protocol theorems instantiated with the edwards25519 suite, whose contract is C91; the premise on keys and nonces is exactly that the library accepts their points (y < p - 217 and not of small order). For the Rabin DKG the second generator is any point that Point::pick can return."},
  {"property": "C94", "status": "partial", "theorems": ["Kyber.Ed.C94_cofactor_partial", "Kyber.Ed.DssTorsion.C94_violated_torsion", "Kyber.Ed.C94_violated"], "note": "Violated: neither the DKGs nor the signer check that commitments lie in the prime order subgroup; with a point of order two in the long-term key (see C92) and honest signers the signature is refused for all messages with an odd challenge (exact condition proved). Proved: the signature always satisfies the equation multiplied by the cofactor, and verifies if the commitments lie in the subgroup. For shares and partial signatures sent as unreduced bytes on edwards25519 see C151, C152."},
  {"property": "C95", "status": "partial", "theorems": ["Kyber.Ed.C95_exact_partial", "Kyber.Ed.C95_small_partial", "Kyber.Ed.C95_violated_ecies", "Kyber.Ed.C95_violated_recipient", "Kyber.Ed.C95_violated"], "note": "Violated: dh_exchange and ecies do not reject points of small order; one ciphertext opens under every private key. Proved: the exact condition, the received point is not of small order."},
  {"property": "C96", "status": "partial", "theorems": ["Kyber.Ed.C96_slide", "Kyber.Ed.C96_no_panic", "Kyber.Ed.C96_agree_partial", "Kyber.Ed.C96_violated_big", "Kyber.Ed.C96_violated"], "note": "Violated: for scalars of 2^255 and more the constant time routine is wrong (C69), the variable time one is not; scalar 2^255+2^254 gives the neutral element with one and 3*2^254*B with the other. Proved for all scalars below 2^255; the recoding is proved for all 32-byte scalars, no panic for any."},
  {"property": "C97", "status": "partial", "theorems": ["Kyber.Ed.C97_cmp_exact", "Kyber.Ed.C97_eq_exact", "Kyber.Ed.C97_hash", "Kyber.Ed.C97_cmp_eq_partial", "Kyber.Ed.C97_violated_null", "Kyber.Ed.C97_violated"], "note": "Violated: the derived order compares limbs of the projective representation, equality compares encodings; the neutral element obtained by two ways is == but not cmp Equal. Proved: cmp Equal implies ==, exact conditions for both, equal points have equal hashes."},
  {"property": "C98", "status": "partial", "theorems": ["Kyber.Ed.C98_reads_exact", "Kyber.Ed.C98_roundtrip", "Kyber.Ed.C98_exact_partial", "Kyber.Ed.C98_congr_partial", "Kyber.Ed.C98_violated_sum", "Kyber.Ed.C98_violated", "Kyber.Ed.C98_violated_congr"], "note": "Violated: serde fills in the coordinates unchecked; the base point with T = 0 compares equal to the base point and marshals to the same bytes but gives other sums. Proved: round trip, exactly which strings are accepted and that nothing is checked; congruence for points that are valid."},
  {"property": "C99", "status": "partial", "theorems": ["Kyber.Ed.C99_failure", "Kyber.Ed.C99_pair", "Kyber.Ed.C99_reload_public", "Kyber.Ed.C99_reload_exact_partial", "Kyber.Ed.C99_violated_always", "Kyber.Ed.C99_violated"], "note": "Violated for every generated key: marshal_binary reduces modulo the group order, after which the key is never a multiple of 8, so it no longer clears points of small order although the generated one does. Proved: the pair is right, the reloaded key has the same public key, and the exact condition on a point for both keys to agree."},
  {"property": "C100", "status": "proved", "theorems": ["Kyber.Props.C100_leaving", "Kyber.Props.C100_honest_run", "Kyber.Props.C100_recover"], "note": "Honest nodes only; deviating dealers are C34/C78. Assumes lawful encryption primitives and a deal codec that round-trips, as in C33. Justifications do not occur in an honest run."},
  {"property": "C101", "status": "proved", "theorems": ["Kyber.Props.C101_deal", "Kyber.Props.C101_deal_rabin", "Kyber.Props.C101_encrypted_deal", "Kyber.Props.C101_response", "Kyber.Props.C101_justification", "Kyber.Props.C101_justification_rabin", "Kyber.Props.C101_dist_key_share", "Kyber.Props.C101_dist_key_share_rabin", "Kyber.Props.C101_dkg_deal", "Kyber.Props.C101_dkg_deal_rabin", "Kyber.Props.C101_dkg_response", "Kyber.Props.C101_dkg_justification", "Kyber.Props.C101_secret_commits", "Kyber.Props.C101_complaint_commits", "Kyber.Props.C101_reconstruct_commits", "Kyber.Props.C101_edwards25519", "Kyber.Props.C101_signature_share"], "note": "bincode itself is not in the repository; its documented format is what is modelled, together with the derived Serialize/Deserialize. Generic in the forms of scalars and points, instantiated with those of edwards25519."},
  {"property": "C102", "status": "partial", "theorems": ["Kyber.Props.C102_violated_trailing", "Kyber.Props.C102_violated", "Kyber.Props.C102_exact_partial"], "note": "Violated: bytes after the message are ignored. The exact characterisation is C102_exact_partial."},
  {"property": "C103", "status": "partial", "theorems": ["Kyber.Props.C103_bytes_partial", "Kyber.Props.C103_violated", "Kyber.Props.C103_violated_hash"], "note": "Violated: points are written with their projective coordinates, and equal points may have different ones; also the hash of a justification differs for equal justifications. What holds: equal bytes mean equal messages."},
  {"property": "C104", "status": "partial", "theorems": ["Kyber.Props.C104_violated_justification", "Kyber.Props.C104_violated", "Kyber.Props.C104_justification_partial", "Kyber.Props.C104_justification_rabin_partial", "Kyber.Props.C104_response", "Kyber.Props.C104_dkg_deal"], "note": "Violated for justifications: the session id is hashed without its length, next to the index. Holds for session ids of equal length, for responses and for DKG deals."},
  {"property": "C105", "status": "partial", "theorems": ["Kyber.Props.C105_violated_boundary", "Kyber.Props.C105_exact_partial", "Kyber.Props.C105_honest_partial", "Kyber.Props.C105_violated"], "note": "Violated: there is no boundary between the list of verifiers and the list of commitments. The exact characterisation is C105_exact_partial; it holds when the number of commitments is the threshold."},
  {"property": "C106", "status": "proved", "theorems": ["Kyber.Ed.C106_pedersen_dkg", "Kyber.Ed.C106_rabin_dkg"], "note": "Assumes lawful encryption primitives and a hash shorter than 2^64 bytes. One choice of coordinates per point stands for all; coordinates that are not on the curve are refused in this instance (see C98 for what the code does)."},
  {"property": "C107", "status": "partial", "theorems": ["Kyber.Ed.C107_round_trip_partial", "Kyber.Ed.C107_edwards25519", "Kyber.Ed.C107_read", "Kyber.Ed.C107_violated_silent", "Kyber.Ed.C107_violated"], "note": "Violated: a little-endian modular integer is written without padding, so 5 and 1 modulo 1000 are read as 261, silently. Holds for every list of points, scalars and big-endian integers (C107_round_trip_partial, C107_edwards25519)."},
  {"property": "C108", "status": "partial", "theorems": ["Kyber.Ed.C108_exact_partial", "Kyber.Ed.C108_violated_point", "Kyber.Ed.C108_violated_scalar", "Kyber.Ed.C108_violated"], "note": "Violated: the code takes the next 32 bytes once; a point may be refused and a scalar is stored unreduced. C108_exact_partial says exactly what is returned."},
  {"property": "C109", "status": "partial", "theorems": ["Kyber.Props.C109_honest_dealer_partial", "Kyber.Props.C109_own_dealer_partial", "Kyber.Props.C109_replayed_answer", "Kyber.Props.C109_violated"], "note": "Violated: one false complaint by anybody keeps an honest dealer out although it justifies itself. Holds whenever there is no authentic complaint about the dealer, for other dealers and the own deal, with arbitrary other messages in any order; assumed are only that nothing else decrypts under the dealer's signature and that the participant's own answers are not fed back. C109_replayed_answer shows what happens otherwise: the participant never answers the deal."},
  {"property": "C110", "status": "partial", "theorems": ["Kyber.Props.C110_pedersen_vss", "Kyber.Props.C110_pedersen_accepted", "Kyber.Props.C110_pedersen_signed", "Kyber.Props.C110_rabin_vss", "Kyber.Props.C110_rabin_accepted", "Kyber.Props.C110_dkg_partial", "Kyber.Props.C110_leaving_partial", "Kyber.Props.C110_violated", "Kyber.Props.C110_rabin_dkg"], "note": "Violated for the old nodes that leave in a resharing: their aggregators never learn a session id, so a complaint about another dealer or session, sent again under the leaving node's number, makes it publish the share of a holder that never complained about it, in an unsigned justification. Proved as an equivalence for the dealers of both VSS variants, and for every participant of a Rabin DKG, of a fresh Pedersen DKG and for nodes that stay in a resharing; C110_leaving_partial says what leaving nodes do check."},
  {"property": "C111", "status": "partial", "theorems": ["Kyber.Props.C111_hex_partial", "Kyber.Props.C111_exact", "Kyber.Props.C111_violated", "Kyber.Props.C111_reduced", "Kyber.Props.C111_same_text", "Kyber.Props.C111_prefix"], "note": "Violated for negative values, which new_int, new_int64 and unreduced subtraction produce: the sign is not printed. C111_exact: the text reads back exactly when the value is not negative; C111_prefix: what to_string prints is refused by set_string in every base up to 33."},
  {"property": "C112", "status": "partial", "theorems": ["Kyber.Props.C112_numeral", "Kyber.Props.C112_digits", "Kyber.Props.C112_base", "Kyber.Props.C112_kept_partial", "Kyber.Props.C112_violated_reduced", "Kyber.Props.C112_fraction_partial", "Kyber.Props.C112_violated_fraction", "Kyber.Props.C112_refused"], "note": "Violated twice: without a denominator the value is not reduced, with one the code multiplies instead of dividing. Proved: every numeral in every base has its value (C112_numeral, C112_digits), bases outside 2..36 panic (C112_base), and what is computed for fractions. C112_refused: texts with a character that is no digit, and the empty text, are refused."},
  {"property": "C113", "status": "partial", "theorems": ["Kyber.Props.C113_point", "Kyber.Props.C113_point_reads_back", "Kyber.Props.C113_scalar", "Kyber.Props.C113_scalar_exact", "Kyber.Props.C113_violated"], "note": "Violated in the last part only: the text of an unreduced scalar shows the bytes held, the encoding the reduced ones (C113_scalar_exact: they agree exactly for reduced scalars). The rest is proved for all points and scalars."},
  {"property": "C114", "status": "partial", "theorems": ["Kyber.Props.C114_eval", "Kyber.Props.C114_distinct", "Kyber.Props.C114_recover_secret", "Kyber.Props.C114_recover_commit", "Kyber.Props.C114_violated_max_share", "Kyber.Props.C114_violated", "Kyber.Props.C114_secrecy_partial", "Kyber.Props.C114_violated_dictated", "Kyber.Props.C114_idealised"], "note": "Violated for the one index usize::MAX: its point is zero, so eval(usize::MAX) is the secret, and a share with that index that takes part in a reconstruction dictates the result. Everything else is proved with the machine's casts and additions, and for indices below 2^63-1 the machine functions are proved equal to those of Model/Poly.lean (C114_idealised), which the other properties use."},
  {"property": "C115", "status": "partial", "theorems": ["Kyber.Props.C115_violated_range", "Kyber.Props.C115_violated_composite", "Kyber.Props.C115_jacobi_panics", "Kyber.Props.C115_jacobi_prime_partial", "Kyber.Props.C115_jacobi_nonsquare", "Kyber.Props.C115_jacobi_mul", "Kyber.Props.C115_jacobi_encoding", "Kyber.Props.C115_uint64", "Kyber.Props.C115_int64", "Kyber.Props.C115_int64_round_trip", "Kyber.Props.C115_order", "Kyber.Props.C115_equal_residues", "Kyber.Props.C115_equal_ignores_modulus"], "note": "Violated for jacobi: -1 is stored outside the documented range 0..m-1 and its encoding is that of 1, and for composite moduli the value 1 does not mean square. For odd primes the three values are proved to tell the cases apart; int64, uint64 and the order hold in full. jacobi of num-bigint-dig is external and taken by its contract."},
  {"property": "C116", "status": "partial", "theorems": ["Kyber.Props.C116_violated", "Kyber.Props.C116_always_signs", "Kyber.Props.C116_same_session", "Kyber.Props.C116_share_leaks", "Kyber.Props.C116_secret_leaks", "Kyber.Props.C116_signatures_leak", "Kyber.Props.C116_not_mixed", "Kyber.Props.C116_one_message_hides_partial"], "note": "Violated: nothing records the use of the random key, the session id does not cover the message, and DSS.msg is a public field. Proved consequences: the share of the participant follows from its two partial signatures, the long-term secret from t such pairs or from the two finished signatures alone. What holds: a partial signature for another message is refused unless the challenges agree or the share is zero (C116_not_mixed, an equivalence), and the partial signatures for one message are compatible with every long-term polynomial."},
  {"property": "C117", "status": "partial", "theorems": ["Kyber.Props.C117_shares", "Kyber.Props.C117_vss_pedersen", "Kyber.Props.C117_vss_rabin", "Kyber.Props.C117_dkg_pedersen", "Kyber.Props.C117_dkg_rabin", "Kyber.Props.C117_dss", "Kyber.Props.C117_eddsa_reveals", "Kyber.Props.C117_violated_eddsa", "Kyber.Props.C117_string_reveals"], "note": "Holds for every object listed except EdDSA keys: their derived Debug prints secret, seed and prefix as decimal bytes, from which they are read back (C117_eddsa_reveals). PriPoly::string() prints all coefficients on purpose (C117_string_reveals). Points and suites print through arbitrary text functions."},
  {"property": "C118", "status": "proved", "theorems": ["Kyber.Props.C118_poly", "Kyber.Props.C118_vss_pedersen", "Kyber.Props.C118_vss_rabin", "Kyber.Props.C118_config", "Kyber.Props.C118_dkg_pedersen", "Kyber.Props.C118_dkg_rabin", "Kyber.Props.C118_dss", "Kyber.Props.C118_new_dealer_fits", "Kyber.Props.C118_edwards"], "note": "Proved for the bincode format; points may be written in any coordinates (on edwards25519 they come back as the same group element). A new dealer always meets the conditions on sizes."},
  {"property": "C119", "status": "proved", "theorems": ["Kyber.Props.C119_deals", "Kyber.Props.C119_opens", "Kyber.Props.C119_expected_deals", "Kyber.Props.C119_rabin_deals"], "note": "Proved for every reachable state of both generators."},
  {"property": "C120", "status": "partial", "theorems": ["Kyber.Props.C120_honest_dealer_partial", "Kyber.Props.C120_own_dealer_partial", "Kyber.Props.C120_forged", "Kyber.Props.C120_violated"], "note": "The intended statement is violated: a justification is processed without looking at its signature or session id, so one unsigned message with an invalid deal disqualifies a correct dealer at every participant that holds a complaint about it, including the complaints that set_timeout fills in for silent participants (C120_violated, and C120_forged for every state). Proved for all histories in which the justifications about the dealer carry deals that it made, for other dealers and for the participant's own deal."},
  {"property": "C121", "status": "proved", "theorems": ["Kyber.Props.C121_renewals_hide", "Kyber.Props.C121_renewals_unique", "Kyber.Props.C121_resharing_hides"], "note": "About the shares only: the public commitments determine the key up to discrete logarithms (for Rabin commitments see C30)."},
  {"property": "C122", "status": "proved", "theorems": ["Kyber.Props.C122_new_verifier", "Kyber.Props.C122_new_dealer", "Kyber.Props.C122_new_generator_rabin", "Kyber.Props.C122_new_dss", "Kyber.Props.C122_new_handler", "Kyber.Props.C122_default_threshold"], "note": "The default threshold (0) stands for half of the participants rounded up and is refused in groups of one or two (C122_default_threshold). new_dss checks nothing but the key, new_dist_key_handler does not check the threshold of nodes that do not deal."},
  {"property": "C123", "status": "partial", "theorems": ["Kyber.Props.C123_violated", "Kyber.Props.C123_rabin_partial", "Kyber.Props.C123_violated_pedersen", "Kyber.Props.C123_pedersen_partial"], "note": "Violated in both: a dealer that keeps its deal from one participant is qualified for the others but not for this one, and no message tells it so (C123_violated, C123_violated_pedersen: three participants, threshold 2, both correct ones finish with different keys). C123_rabin_partial, C123_pedersen_partial: two participants that accepted deals of a dealer with the same threshold and session id, and hear the same about it, agree whether it is qualified, whatever these messages are."},
  {"property": "C124", "status": "partial", "theorems": ["Kyber.Ed.C124_round_trip", "Kyber.Ed.C124_encrypt_returns", "Kyber.ElGamal.C124_partials", "Kyber.ElGamal.C124_reencrypted", "Kyber.Ed.C124_partial_model", "Kyber.Ed.C124_shared_key", "Kyber.Ed.C124_cofactor_partial", "Kyber.Ed.C124_violated_leak", "Kyber.Ed.C124_violated_subsets", "Kyber.Ed.C124_violated", "Kyber.Ed.C124_pedersen_dkg"], "note": "Proved for everything el_gamal_encrypt returns: C124_round_trip, C124_shared_key, C124_pedersen_dkg (after an honest key generation). Violated for pairs of points that nobody encrypted, which unmarshal_binary accepts: with a point of order two the result depends on which holders take part (C124_violated_subsets), and a partial decryption of a point of order eight gives away the three low bits of the share (C124_violated_leak). C124_cofactor_partial: right up to a point of order at most 8, exact in the subgroup."},
  {"property": "C125", "status": "partial", "theorems": ["Kyber.Ed.C125_small_order", "Kyber.Ed.C125_small_order_point", "Kyber.Ed.C125_point_canonical", "Kyber.Ed.C125_scalar_canonical", "Kyber.Ed.C125_scalar_canonical_panics", "Kyber.Ed.C125_verify_refines", "Kyber.Ed.C125_accepts", "Kyber.Ed.C125_rejections", "Kyber.Ed.C125_null_signature", "Kyber.Ed.C125_null_signature_wrapping", "Kyber.Ed.C125_violated", "Kyber.Ed.C125_accepts_partial", "Kyber.Ed.C125_honest_partial", "Kyber.Ed.C125_violated_honest"], "note": "Violated: with overflow checks has_small_order panics exactly on points of small order and never answers true (C125_small_order_point), is_canonical of points panics instead of answering false (C125_point_canonical), is_canonical of scalars panics for every canonical scalar from 2^252 on (C125_scalar_canonical_panics). One fixed signature makes both verifications panic under every key and message (C125_null_signature). C125_verify_refines: otherwise the answers agree. C125_accepts says exactly what is still accepted."},
  {"property": "C126", "status": "proved", "theorems": ["Kyber.Ed.C126_progression", "Kyber.Ed.C126_neighbours", "Kyber.Ed.C126_pair_attack", "Kyber.Ed.C126_pair", "Kyber.Ed.C126_even"], "note": "C126_progression and C126_neighbours: finite differences of the commitments multiplied by the group order vanish along the progression. C126_pair: exact for two holders; C126_pair_attack constructs the commitments where the condition fails. C126_even: commitments outside the subgroup that every holder accepts."},
  {"property": "C127", "status": "partial", "theorems": ["Kyber.Props.C127_cheat", "Kyber.Props.C127_share_checks", "Kyber.Props.C127_recover", "Kyber.Props.C127_padding", "Kyber.Props.C127_violated", "Kyber.Props.C127_fair_run"], "note": "Violated: a dealer who appends a zero commitment satisfies everybody, all participants are certified, and none of them ever gets a key (C127_padding, C127_violated). C127_fair_run says exactly what they get: a key if and only if all dealers sent the same number of commitments, and then the sums. C127_share_checks, C127_recover: then the shares lie on the commitments and recover the key. C127_cheat: other commitments are noticed only by a participant whose share is not on them."},
  {"property": "C128", "status": "partial", "theorems": ["Kyber.Ed.C128_progression_partial", "Kyber.Ed.C128_attack", "Kyber.Ed.C128_violated"], "note": "Violated: a participant with an odd index adds the point of order two to its first two commitments; all participants with even indices, a majority, are certified and finish with a key to which no private key belongs (C128_attack, C128_violated). C128_progression_partial: they agree on the commitments, every selection recovers the key up to a point of small order, and neighbours (or a progression with gcd(d,8) dividing a+1) recover the key itself."},
  {"property": "C129", "status": "proved", "theorems": ["Kyber.Props.C129_qualified", "Kyber.Props.C129_silent", "Kyber.Props.C129_blocked", "Kyber.Props.C129_recover"], "note": "C129_qualified is the exact rule for any schedule of messages, timeouts anywhere, and any convincing dealers. C129_silent: what participants in A get, both ways. C129_blocked: no key without a timeout, and none without a threshold given to the constructor, because the aggregators of silent dealers then have threshold 0 and count as qualified without a deal. C129_recover: the shares recover the key."},
  {"property": "C130", "status": "proved", "theorems": ["Kyber.Ed.C130_only_signer", "Kyber.Ed.C130_only_signer_eddsa", "Kyber.Ed.C130_second_message", "Kyber.Ed.C130_count"], "note": "C130_only_signer, C130_only_signer_eddsa: exact, byte for byte, with a unique nonce. C130_count: a bijection with the usable nonces. C130_second_message: exact. Usable means not a multiple of the order and y coordinate below p - 217 (C86)."},
  {"property": "C131", "status": "partial", "theorems": ["Kyber.Ed.C131_generate", "Kyber.Ed.C131_generated_signs", "Kyber.Ed.C131_read", "Kyber.Ed.C131_store", "Kyber.Ed.C131_read_exact_partial", "Kyber.Ed.C131_mismatch_accepted", "Kyber.Ed.C131_violated", "Kyber.Ed.C131_pair_panics", "Kyber.Ed.C131_eq"], "note": "Violated as intended (C131_violated): any 64 bytes are read. C131_read_exact_partial says exactly for which bytes reading and writing are inverse; C131_store is the round trip of every seed; C131_generate and C131_generated_signs tie the generated key to RFC 8032."},
  {"property": "C132", "status": "proved", "theorems": ["Kyber.Props.C132_answers", "Kyber.Props.C132_hidden", "Kyber.Props.C132_any_key", "Kyber.Ed.C132_edwards25519"], "note": "C132_hidden has the full list of what stays the same; C132_any_key adds the key at the end of complete runs; C132_answers covers every sequence of responses to the dealer in which only members of the coalition complain. Encryption and signatures are functions of the deal and the drawn nonces, so equality is byte for byte."},
  {"property": "C133", "status": "partial", "theorems": ["Kyber.Props.C133_foreseen", "Kyber.Props.C133_open_partial", "Kyber.Props.C133_steered", "Kyber.Props.C133_violated", "Kyber.Ed.C133_edwards25519"], "note": "Violated as intended (C133_violated). C133_foreseen says what the key is in terms of the deals one participant receives, C133_steered that this participant gets every property that one of its candidate secrets gives, C133_open_partial that the secret of a participant nobody has looked at still decides among all keys. Compare C132 for the Rabin variant."},
  {"property": "C134", "status": "proved", "theorems": ["Kyber.Ed.C134_edwards25519", "Kyber.Props.C134_shares", "Kyber.Props.C134_dealer", "Kyber.Props.C134_dealer_count", "Kyber.Props.C134_generation", "Kyber.Props.C134_generation_count"], "note": "C134_shares, C134_dealer_count and C134_generation_count give the counts; C134_dealer and C134_generation the one-to-one correspondence of draws behind them; C134_edwards25519 the curve. The draws are lists of t-1 and t scalars, taken to be uniform and independent; the generator behind pick is not modelled as a distribution."},
  {"property": "C135", "status": "partial", "theorems": ["Kyber.Props.C135_withheld", "Kyber.Props.C135_wrong", "Kyber.Props.C135_wrong_dealt", "Kyber.Props.C135_violated"], "note": "Violated as intended (C135_violated). C135_withheld says that a dealer that reveals nothing is never reconstructed and that nobody finishes, for all executions in which fewer than t participants are faulty, C135_wrong the same for wrong commitments as long as the faulty do not help, C135_wrong_dealt derives its counting condition from the degree of the polynomials."},
  {"property": "C136", "status": "partial", "theorems": ["Kyber.Props.C136_blocked", "Kyber.Props.C136_violated"], "note": "Violated as intended (C136_violated). C136_blocked says, for all executions in which fewer than t participants are faulty, that one participant that answers no deal of a correct dealer stops everybody. The calls are those of DistKeyGenerator; a caller that reaches into its public field dealer and calls set_timeout there is outside of them. Compare C129 for the Pedersen variant, where the others get a key."},
  {"property": "C137", "status": "proved", "theorems": ["Kyber.Props.C137_kept", "Kyber.Props.C137_signature", "Kyber.Props.C137_group", "Kyber.Props.C137_generated", "Kyber.Props.C137_generated_rabin", "Kyber.Ed.C137_edwards25519"], "note": "C137_kept: a partial signature of a correct participant, once delivered, leaves its index covered. C137_signature: with t correct ones signature returns the group signature. C137_generated and C137_edwards25519 start from two key generations."},
  {"property": "C138", "status": "partial", "theorems": ["Kyber.Props.C138_key_pedersen", "Kyber.Props.C138_certified_pedersen", "Kyber.Props.C138_certified_key_pedersen", "Kyber.Props.C138_violated_pedersen", "Kyber.Props.C138_qualified", "Kyber.Props.C138_finished_iff", "Kyber.Props.C138_key", "Kyber.Props.C138_nondealers", "Kyber.Props.C138_recover", "Kyber.Props.C138_violated"], "note": "Violated as intended for both generations (C138_violated, C138_violated_pedersen). C138_key and C138_key_pedersen give the key after any part of an honest run, C138_finished_iff when finished() holds, C138_nondealers that t dealers are enough for all to get one key, C138_certified_pedersen and C138_certified_key_pedersen that waiting for certified() avoids the problem."},
  {"property": "C139", "status": "partial", "theorems": ["Kyber.Ed.C139_scalar", "Kyber.Ed.C139_simple_partial", "Kyber.Ed.C139_simple_sub", "Kyber.Ed.C139_simple_sub_iff", "Kyber.Ed.C139_factored", "Kyber.Ed.C139_factored_iff", "Kyber.Ed.C139_factored_limbs", "Kyber.Ed.C139_factored_unreduced", "Kyber.Ed.C139_test_passes", "Kyber.Ed.C139_violated_factored", "Kyber.Ed.C139_violated_simple", "Kyber.Ed.C139_violated", "Kyber.Ed.C139_rest"], "note": "Violated as intended (C139_violated, C139_violated_simple, C139_violated_factored). C139_scalar, C139_simple_partial, C139_simple_sub, C139_simple_sub_iff, C139_factored and C139_factored_iff say exactly what each type computes and when it is right; C139_factored_limbs that the forgotten limbs have the right residue and are computed without overflow; C139_factored_unreduced that storing them would not repair the type; C139_test_passes that the existing test cannot fail."},
  {"property": "C140", "status": "partial", "theorems": ["Kyber.Ed.C140_scalar", "Kyber.Ed.C140_others_partial", "Kyber.Ed.C140_round_trip", "Kyber.Ed.C140_violated_write", "Kyber.Ed.C140_violated_read"], "note": "Violated as intended for SimpleCTScalar and FactoredScalar (C140_violated_write, C140_violated_read); C140_scalar and C140_others_partial characterise what is written and read, C140_round_trip what is read back."},
  {"property": "C141", "status": "partial", "theorems": ["Kyber.Props.C141_round_trip", "Kyber.Props.C141_inj", "Kyber.Props.C141_reads_iff", "Kyber.Props.C141_violated", "Kyber.Props.C141_range_partial", "Kyber.Props.C141_zero_modulus", "Kyber.Props.C141_add", "Kyber.Props.C141_mul", "Kyber.Props.C141_marshal_panics"], "note": "Violated as intended (C141_violated, C141_zero_modulus). C141_round_trip and C141_inj are the round trip, C141_range_partial what holds of the range, C141_reads_iff exactly which bytes are read, C141_add and C141_mul when a result is in range, C141_marshal_panics when marshal_binary panics on what was read. The format of BigInt is that of the crate num-bigint-dig, modelled from its documentation."},
  {"property": "C142", "status": "proved", "theorems": ["Kyber.Props.C142_qualified", "Kyber.Props.C142_qualified_silent", "Kyber.Props.C142_silent", "Kyber.Props.C142_recover"], "note": "C142_qualified says who is qualified after any part of a run without complaints, C142_qualified_silent with silent nodes; C142_silent is the exact condition for a key and the key, C142_recover the recovery. With threshold zero and a timeout see C37 and C79: silent old nodes then count as qualified."},
  {"property": "C143", "status": "proved", "theorems": ["Kyber.Props.C143_epochs", "Kyber.Props.C143_recover", "Kyber.Props.C143_dkg", "Kyber.Ed.C143_deals", "Kyber.Ed.C143_ed25519"], "note": "C143_epochs is the induction over the resharings, C143_recover the recovery, C143_dkg says that the keys of an honest key generation are a start, C143_ed25519 and C143_deals put both together on edwards25519 with the binary form of the deals."},
  {"property": "C144", "status": "proved", "theorems": ["Kyber.Props.C144_holders", "Kyber.Props.C144_signature", "Kyber.Ed.C144_edwards25519"], "note": "C144_holders is about any holders of one polynomial, C144_signature puts it behind any number of resharings, C144_edwards25519 gives the bytes and RFC 8032."},
  {"property": "C145", "status": "proved", "theorems": ["Kyber.Props.C145_shift", "Kyber.Props.C145_count", "Kyber.Props.C145_reached", "Kyber.Props.C145_model"], "note": "C145_shift is the one-to-one correspondence of the draws, C145_count the equal numbers, C145_reached the sharpness, C145_model says that the resharing of the code deals these shares."},
  {"property": "C146", "status": "proved", "theorems": ["Kyber.Props.C146_commits", "Kyber.Props.C146_dealer", "Kyber.Props.C146_count", "Kyber.Props.C146_correct_dealer", "Kyber.Props.C146_published", "Kyber.Props.C146_moving", "Kyber.Props.C146_generation", "Kyber.Ed.C146_edwards25519"], "note": "C146_commits gives the commitments as a linear function of the public key and the shares, C146_dealer the correspondence of the draws, C146_count the numbers, C146_generation the key generation, C146_published and C146_moving the resharings. Over the resharings the coalitions have exactly one holder less than the threshold. Encryption of the deals is left out."},
  {"property": "C147", "status": "proved", "theorems": ["Kyber.Props.C147_message", "Kyber.Props.C147_view", "Kyber.Props.C147_count", "Kyber.Ed.C147_edwards25519"], "note": "C147_message: each message is a fixed function of the public key, the signature and the coalition's shares; C147_view: so is everything in any number of sessions; C147_count: the numbers of draws. That (R, s) is the signature that the code returns is C17_signature and C137_signature."},
  {"property": "C148", "status": "partial", "theorems": ["Kyber.Props.C148_pri_share_iff", "Kyber.Props.C148_pub_share_iff", "Kyber.Props.C148_partial_sig_iff", "Kyber.Props.C148_accepted", "Kyber.Props.C148_session_iff", "Kyber.Props.C148_session_partial", "Kyber.Props.C148_violated_index", "Kyber.Props.C148_violated_session"], "note": "Violated twice: indices that differ by a multiple of 2^32, and commitments split differently between the two keys. Proved: exactly which shares, partial signatures and sessions agree; of partial signatures that a signer with at most 2^32 participants takes the share is determined. The hash is not assumed injective, only the two inputs named must not collide."},
  {"property": "C149", "status": "partial", "theorems": ["Kyber.Props.C149_opens_iff", "Kyber.Props.C149_made_iff", "Kyber.Props.C149_strict", "Kyber.Props.C149_one_body", "Kyber.Props.C149_reencoded", "Kyber.Ed.C149_edwards25519_partial", "Kyber.Ed.C149_encodings_partial", "Kyber.Ed.C149_any_point_partial", "Kyber.Ed.C149_violated", "Kyber.Ed.C149_violated_altered"], "note": "Violated on edwards25519 (point of order two; second encoding of the ephemeral point). Proved: exactly what opens (C149_opens_iff), that encrypt makes exactly the opening ciphertexts which begin with the encoding of a multiple of the base point (C149_made_iff; on the curve C149_edwards25519_partial), equality in groups of prime order with strict decoding (C149_strict), that the encoding of the point and the message determine the ciphertext (C149_one_body), and which points have a second encoding (C149_encodings_partial). AES-GCM enters as the assumption that opening accepts only what sealing returns."},
  {"property": "C150", "status": "proved", "theorems": ["Kyber.Props.C150_silent", "Kyber.Ed.C150_edwards25519"], "note": "With fewer than t participants in a generation none of them gets a key (C129_silent). The silent participants send nothing; participants that send wrong messages are C109, C127, C138. The library itself also accepts the signature unless it refuses the key or the nonce point (non-canonical or small order test, C88)."},
  {"property": "C151", "status": "partial", "theorems": ["Kyber.Ed.C151_check_iff_partial", "Kyber.Ed.C151_exact_partial", "Kyber.Ed.C151_violated", "Kyber.Ed.C151_forgeable_iff", "Kyber.Ed.C151_verify_deal_partial", "Kyber.Ed.C151_deal_forged", "Kyber.Ed.C151_rabin_partial", "Kyber.Ed.C151_key_partial", "Kyber.Ed.C151_key_bad_partial"], "note": "Violated: Scalar is deserialised without reduction, Point::mul drops a top signed digit above 8 (C69), scalar arithmetic does not. Exact extent proved: the claim holds for bytes below lossFrom (about 8.47 * 2^252), so for all reduced shares, and for no other bytes; against given commitments a wrong share that passes exists for all but a fraction below 2^-126 of the values. A dealer can so give a verifier a share that it approves and that is useless; the key share made from it does not fit the commitments (C151_key_bad_partial)."},
  {"property": "C152", "status": "partial", "theorems": ["Kyber.Props.C152_one_wrong", "Kyber.Ed.C152_check_iff_partial", "Kyber.Ed.C152_exact_partial", "Kyber.Ed.C152_violated", "Kyber.Ed.C152_signature_partial"], "note": "Violated, for the same reason as C151: a participant can send a partial signature that everyone accepts and that makes the signature invalid. Exact extent proved: bytes below lossFrom are safe, all others are not. recover_secret is taken on the values modulo the order, which is what the scalar arithmetic computes with (C49)."},
  {"property": "C153", "status": "partial", "theorems": ["Kyber.Props.C153_replay", "Kyber.Props.C153_split", "Kyber.Props.C153_opens_iff", "Kyber.Props.C153_other_group_partial", "Kyber.Props.C153_violated", "Kyber.Props.C153_replay_rabin", "Kyber.Ed.C153_edwards25519", "Kyber.Props.C153_reshare"], "note": "Violated in both key generations (C153_violated): nothing in a deal belongs to the run, C153_opens_iff is the exact condition. C153_replay and C153_replay_rabin: whoever delivers recorded messages of an earlier run about any set of dealers in place of the new ones makes a participant finish, without an error, with the sum of old and new polynomials; C153_reshare: the same for two attempts at a resharing, where the public key stays right but the share belongs to neither attempt. C153_split, C153_edwards25519: exactly when the keys of two participants still agree. What holds: deals of another list of participants or another dealer are refused (C153_other_group_partial)."},
  {"property": "C154", "status": "partial", "theorems": ["Kyber.Ed.C154_edwards25519_partial", "Kyber.Props.C154_kinds_partial", "Kyber.Props.C154_deal_key_iff", "Kyber.Props.C154_violated", "Kyber.Props.C154_signature_partial", "Kyber.Props.C154_forge", "Kyber.Props.C154_forge_rabin"], "note": "Violated (C154_violated): the signature of an encrypted deal is on the bytes of the Diffie-Hellman key alone, and a hash of another message that encodes a point is such a key; C154_deal_key_iff is the exact condition. C154_forge and C154_forge_rabin: with any signature of the dealer on the encoding of a point, that of another deal for instance, the holder of the key of a verifier makes an encrypted deal that decrypt_deal attributes to the dealer, with any content. What holds: messages of all other kinds are signed as different bytes unless the hash collides on the two inputs (C154_kinds_partial), and a signature accepted for two kinds is such a collision or one of the challenges of the signature scheme (C154_signature_partial, C154_edwards25519_partial for the binary forms on edwards25519)."},
  {"property": "C155", "status": "partial", "theorems": ["Kyber.Props.C155_first_wins", "Kyber.Props.C155_agree_partial", "Kyber.Props.C155_order_partial", "Kyber.Props.C155_first_wins_rabin", "Kyber.Props.C155_agree_rabin_partial", "Kyber.Props.C155_violated", "Kyber.Props.C155_violated_rabin", "Kyber.Props.C155_split_pedersen"], "note": "C155_violated, C155_violated_rabin: a verifier that approves and complains is recorded with the answer heard first, so the order decides whether the deal is certified. C155_split_pedersen: in a Pedersen DKG of three, where everybody receives all deals and responses, such a participant makes the two others end with different public keys. What holds: C155_first_wins and C155_first_wins_rabin say what is stored after any list of responses; if nobody gives two answers, verifiers with the same answers agree (C155_agree_partial, C155_order_partial, C155_agree_rabin_partial)."},
  {"property": "C156", "status": "partial", "theorems": ["Kyber.Props.C156_settled_partial", "Kyber.Props.C156_certified_partial", "Kyber.Props.C156_resharing_partial", "Kyber.Props.C156_violated", "Kyber.Props.C156_violated_late"], "note": "C156_violated: in an honest run a participant obtains a share from two qualified dealers and another one when the third is qualified as well. C156_violated_late: after a timeout a late complaint takes the share back. What holds: C156_settled_partial, if each deal is there with all approvals, or refused for good, all later calls leave the share as it is; C156_certified_partial: so it is once certified() is true; C156_resharing_partial: the first also for a new node of a resharing."},
  {"property": "C157", "status": "partial", "theorems": ["Kyber.Ed.C157_edwards25519", "Kyber.Props.C157_share_partial", "Kyber.Props.C157_same_commitments_partial", "Kyber.Props.C157_after_honest_run", "Kyber.Props.C157_chosen_key", "Kyber.Props.C157_violated"], "note": "C157_violated: after the honest run a dealer sends other commitments that fit the share of the receiver, whose public key changes. C157_chosen_key: for every state with a key and every point there are commitments that the receiver accepts and that make this point its public key, the share staying the same; the index in the deal must not be -1 in the field. C157_after_honest_run and C157_edwards25519: so it is after every complete honest run, on the curve too, for every dealer and every public key of which the dealer knows the private key. What holds: C157_share_partial, no messages of the second phase change the private share; C157_same_commitments_partial, the key stays if the commitments that come are those known already and nobody complains."},
  {"property": "C158", "status": "partial", "theorems": ["Kyber.Props.C158_refused", "Kyber.Props.C158_other_key_refused", "Kyber.Props.C158_alone", "Kyber.Props.C158_shut_out", "Kyber.Props.C158_same_commitments_partial", "Kyber.Props.C158_violated", "Kyber.Ed.C158_edwards25519"], "note": "C158_violated: on concrete values participant 0 refuses the partial signature of participant 1, who obtained its key after other commitments of dealer 2. C158_shut_out: it is so after every complete honest run, for every dealer and receiver, in both directions, and the receiver never has a signature from these sessions; C158_edwards25519: on the curve. C158_refused, C158_other_key_refused: sessions that differ in a commitment of one of the two keys, in particular in the long-term public key, refuse each other's partial signatures with InvalidSessionId, unless the hash collides. C158_alone: a session that is given partial signatures of other sessions only never has a signature if the threshold is 2 or more. What holds: C158_same_commitments_partial, if the commitments that come again are those known already. Missing there: other commitments."}
]}
