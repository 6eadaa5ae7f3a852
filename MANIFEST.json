{
 "claims": [
  {
   "property": "C01",
   "status": "proved",
   "theorems": [
    "Verif.Props.C01_proof_roundtrip",
    "Verif.Props.C01_serialize_total_iff"
   ],
   "note": ""
  },
  {
   "property": "C02",
   "status": "proved",
   "theorems": [
    "Verif.Props.C02_public_inputs_roundtrip"
   ],
   "note": ""
  },
  {
   "property": "C03",
   "status": "proved",
   "theorems": [
    "Verif.Props.C03_frame_roundtrip"
   ],
   "note": ""
  },
  {
   "property": "C04",
   "status": "proved",
   "theorems": [
    "Verif.Props.C04_fri_decommitment_roundtrip",
    "Verif.Props.C04_serialize_panics_iff"
   ],
   "note": ""
  },
  {
   "property": "C05",
   "status": "proved",
   "theorems": [
    "Verif.Props.C05_deep_openings_roundtrip"
   ],
   "note": ""
  },
  {
   "property": "C06",
   "status": "proved",
   "theorems": [
    "Verif.Props.C06_parse_proof_never_panics",
    "Verif.Props.C06_errors_exactly"
   ],
   "note": ""
  },
  {
   "property": "C07",
   "status": "partial",
   "theorems": [
    "Verif.Props.C07_parse_public_inputs_can_panic",
    "Verif.Props.C07_parse_public_inputs_panic_iff_partial",
    "Verif.Props.C07_no_panic_when_long_enough_partial",
    "Verif.Props.C07_panics_exactly_partial",
    "Verif.Props.C07_incomplete_files_partial"
   ],
   "note": "The property is false of the code: C07_parse_public_inputs_can_panic exhibits a byte string that makes the parser panic. The partial theorems characterise exactly when it panics. C07_incomplete_files_partial and C61_incomplete_files_partial say what this means for files that are cut short: four lengths make verify panic, all others are refused."
  },
  {
   "property": "C08",
   "status": "proved",
   "theorems": [
    "Verif.Props.C08_proof_file_roundtrip",
    "Verif.Props.C08_short_file_rejected",
    "Verif.Props.C08_files_exactly"
   ],
   "note": ""
  },
  {
   "property": "C09",
   "status": "partial",
   "theorems": [
    "Verif.Props.C09_encoding_injective_partial",
    "Verif.Props.C09_encoding_malleable",
    "Verif.Props.C09_malleable_witness",
    "Verif.Props.C09_encodings_exactly_partial",
    "Verif.Props.C09_input_encodings_exactly_partial",
    "Verif.Props.C09_another_of_same_length",
    "Verif.Props.C09_another_file"
   ],
   "note": "Injectivity of the writer is proved; uniqueness of the accepted encoding is false (C09_encoding_malleable: bytes before the nonce are not looked at; C09_another_of_same_length, C09_another_file: unreduced field elements are accepted). C09_encodings_exactly_partial and C09_input_encodings_exactly_partial say exactly which strings are accepted."
  },
  {
   "property": "C10",
   "status": "proved",
   "theorems": [
    "Verif.Props.C10_trace_import",
    "Verif.Props.C10_trace_import_rejects",
    "Verif.Props.C10_trace_import_inverts_writer"
   ],
   "note": ""
  },
  {
   "property": "C11",
   "status": "proved",
   "theorems": [
    "Verif.Props.C11_memory_import",
    "Verif.Props.C11_memory_import_rejects",
    "Verif.Props.C11_memory_import_inverts_writer"
   ],
   "note": ""
  },
  {
   "property": "C12",
   "status": "proved",
   "theorems": [
    "Verif.Props.C12_flags_decode"
   ],
   "note": ""
  },
  {
   "property": "C13",
   "status": "proved",
   "theorems": [
    "Verif.Props.C13_offsets_decode"
   ],
   "note": ""
  },
  {
   "property": "C14",
   "status": "proved",
   "theorems": [
    "Verif.Props.C14_flags_and_offsets_pack"
   ],
   "note": ""
  },
  {
   "property": "C15",
   "status": "proved",
   "theorems": [
    "Verif.Props.C15_row_operands",
    "Verif.Props.C15_row_exists"
   ],
   "note": ""
  },
  {
   "property": "C16",
   "status": "proved",
   "theorems": [
    "Verif.Props.C16_honest_step"
   ],
   "note": ""
  },
  {
   "property": "C17",
   "status": "proved",
   "theorems": [
    "Verif.Props.C17_rc_holes",
    "Verif.Props.C17_rc_hole_rows"
   ],
   "note": ""
  },
  {
   "property": "C18",
   "status": "partial",
   "theorems": [
    "Verif.Props.C18_holes_once",
    "Verif.Props.C18_hole_rows",
    "Verif.Props.C18_memory_holes_partial",
    "Verif.Props.C18_output_segment_leaves_gap"
   ],
   "note": "Proved when the output segment is not there or leaves no gap; C18_output_segment_leaves_gap refutes the rest."
  },
  {
   "property": "C19",
   "status": "proved",
   "theorems": [
    "Verif.Props.C19_public_memory_placed"
   ],
   "note": ""
  },
  {
   "property": "C20",
   "status": "proved",
   "theorems": [
    "Verif.Props.C20_main_trace_shape"
   ],
   "note": ""
  },
  {
   "property": "C21",
   "status": "proved",
   "theorems": [
    "Verif.Props.C21_rc_decomposition"
   ],
   "note": ""
  },
  {
   "property": "C22",
   "status": "proved",
   "theorems": [
    "Verif.Props.C22_sorted_columns"
   ],
   "note": ""
  },
  {
   "property": "C23",
   "status": "proved",
   "theorems": [
    "Verif.Props.C23_memory_permutation",
    "Verif.Props.C23_range_check_permutation"
   ],
   "note": ""
  },
  {
   "property": "C24",
   "status": "partial",
   "theorems": [
    "Verif.Props.C24_gap_rejected_random_hash",
    "Verif.Props.C24_exact",
    "Verif.Props.C24_fails_output_gap",
    "Verif.Props.C24_honest_trace_partial",
    "Verif.Props.C24_fails_output_only"
   ],
   "note": "False with an output segment: C24_fails_output_only (no range-check segment: the widths differ and validation panics) and C24_fails_output_gap (both segments: an address is left out, and validation fails for all challenges). C24_exact says exactly which honest runs without segments or with a range-check segment pass, the partial theorem gives a condition on the run alone. C24_gap_rejected_random_hash: proofs of runs with a gap are rejected."
  },
  {
   "property": "C25",
   "status": "proved",
   "theorems": [
    "Verif.Props.C25_step_soundness"
   ],
   "note": ""
  },
  {
   "property": "C26",
   "status": "partial",
   "theorems": [
    "Verif.Props.C26_selected_steps_partial",
    "Verif.Props.C26_selector_not_enforced",
    "Verif.Props.C26_fails",
    "Verif.Props.C26_any_final_ap"
   ],
   "note": "False of the code: the selector column is unconstrained. C26_selector_not_enforced, C26_fails and C26_any_final_ap refute it; the partial theorem covers rows with a non-zero selector."
  },
  {
   "property": "C27",
   "status": "proved",
   "theorems": [
    "Verif.Props.C27_memory_read_only"
   ],
   "note": ""
  },
  {
   "property": "C28",
   "status": "partial",
   "theorems": [
    "Verif.Props.C28_permutation_sound_partial",
    "Verif.Props.C28_fails"
   ],
   "note": "False of the code because the running product has no initial boundary (C28_fails). The partial theorem proves soundness under the missing anchor."
  },
  {
   "property": "C29",
   "status": "partial",
   "theorems": [
    "Verif.Props.C29_product_not_anchored",
    "Verif.Props.C29_rest_compared_partial"
   ],
   "note": "False of the code: C29_product_not_anchored builds an accepted trace for arbitrary accesses. The partial theorem states what is compared."
  },
  {
   "property": "C30",
   "status": "partial",
   "theorems": [
    "Verif.Props.C30_sorted_offsets_bounded_partial",
    "Verif.Props.C30_offsets_range_checked_partial",
    "Verif.Props.C30_fails"
   ],
   "note": "False for a single challenge (C30_fails); the partial theorems bound the sorted columns, and the offsets when the constraints hold for enough challenges."
  },
  {
   "property": "C31",
   "status": "partial",
   "theorems": [
    "Verif.Props.C31_builtin_values_partial",
    "Verif.Props.C31_builtin_values_unbounded",
    "Verif.Props.C31_fails"
   ],
   "note": "False of the code: limbs are not range-checked (C31_builtin_values_unbounded, C31_fails). The partial theorem assumes 16-bit limbs."
  },
  {
   "property": "C32",
   "status": "partial",
   "theorems": [
    "Verif.Props.C32_boundary_partial",
    "Verif.Props.C32_fp_not_pinned"
   ],
   "note": "pc and ap are pinned (partial theorem); fp is not (C32_fp_not_pinned)."
  },
  {
   "property": "C33",
   "status": "proved",
   "theorems": [
    "Verif.Props.C33_table_of_columns",
    "Verif.Props.C33_table_has_columns",
    "Verif.Props.C33_concatenate",
    "Verif.Props.C33_no_columns",
    "Verif.Props.C33_row_view"
   ],
   "note": ""
  },
  {
   "property": "C34",
   "status": "proved",
   "theorems": [
    "Verif.Props.C34_frame_panics",
    "Verif.Props.C34_frame_rows",
    "Verif.Props.C34_frame_extended_domain"
   ],
   "note": ""
  },
  {
   "property": "C35",
   "status": "proved",
   "theorems": [
    "Verif.Props.C35_validate_table",
    "Verif.Props.C35_validate_trace",
    "Verif.Props.C35_validate_answers",
    "Verif.Props.C35_too_many_exemptions"
   ],
   "note": ""
  },
  {
   "property": "C36",
   "status": "proved",
   "theorems": [
    "Verif.Props.C36_zerofier_roots",
    "Verif.Props.C36_points_and_values",
    "Verif.Props.C36_divisible_iff",
    "Verif.Props.C36_listed_once",
    "Verif.Props.C36_repeated_constraint"
   ],
   "note": ""
  },
  {
   "property": "C37",
   "status": "proved",
   "theorems": [
    "Verif.Props.C37_same_exemptions",
    "Verif.Props.C37_wrong_count"
   ],
   "note": ""
  },
  {
   "property": "C38",
   "status": "partial",
   "theorems": [
    "Verif.Props.C38_evaluator",
    "Verif.Props.C38_polynomial_exists",
    "Verif.Props.C38_declared_bound_partial",
    "Verif.Props.C38_declared_bound_exceeded"
   ],
   "note": "The evaluator theorem and the existence of the composition polynomial (degree below twice the trace length) hold in full. The declared degree bound is refuted by C38_declared_bound_exceeded and proved when every constraint is exempted from fewer rows than its degree."
  },
  {
   "property": "C39",
   "status": "proved",
   "theorems": [
    "Verif.Props.C39_check_accepts"
   ],
   "note": ""
  },
  {
   "property": "C40",
   "status": "proved",
   "theorems": [
    "Verif.Props.C40_combination_vanishes",
    "Verif.Props.C40_unsatisfying",
    "Verif.Props.C40_satisfying"
   ],
   "note": ""
  },
  {
   "property": "C41",
   "status": "proved",
   "theorems": [
    "Verif.Props.C41_fold_parts",
    "Verif.Props.C41_fold_degree",
    "Verif.Props.C41_fold_eval"
   ],
   "note": ""
  },
  {
   "property": "C42",
   "status": "proved",
   "theorems": [
    "Verif.Props.C42_queries_accepted"
   ],
   "note": ""
  },
  {
   "property": "C43",
   "status": "proved",
   "theorems": [
    "Verif.Props.C43_reconstructed"
   ],
   "note": ""
  },
  {
   "property": "C44",
   "status": "partial",
   "theorems": [
    "Verif.Props.C44_cairo_honest_proofs_verify",
    "Verif.Props.C44_cairo_prover_succeeds",
    "Verif.Props.C44_honest_proofs_verify_partial",
    "Verif.Props.C44_honest_proofs_verify",
    "Verif.Props.C44_prover_succeeds",
    "Verif.Props.C44_honest_proof_panics"
   ],
   "note": "Proved for every AIR, trace and options when the coset offset is not a square in the field (as with the offset 3 in use) or the square of the out-of-domain point is not queried; otherwise the verifier panics on an honest proof, and C44_honest_proof_panics shows this happens. C81 bounds the probability of a failure for Cairo runs."
  },
  {
   "property": "C45",
   "status": "partial",
   "theorems": [
    "Verif.Props.C45_accepted_checks_partial",
    "Verif.Props.C45_unused_data_accepted"
   ],
   "note": "Every check the code makes is derived from acceptance (C45_accepted_checks_partial). The property as stated is false: more queries than configured are accepted, and so are proofs with no openings and no FRI layers (C45_unused_data_accepted)."
  },
  {
   "property": "C46",
   "status": "partial",
   "theorems": [
    "Verif.Props.C46_forged_probability",
    "Verif.Props.C46_forged_random_hash",
    "Verif.Props.C46_forged_proof_accepted",
    "Verif.Props.C46_cairo_forged_proof_accepted",
    "Verif.Props.C46_false_statement_accepted"
   ],
   "note": "Refuted: C46_forged_proof_accepted accepts a proof without FRI layers and openings for any AIR and any claimed out-of-domain values, C46_cairo_forged_proof_accepted for Cairo with the default options, C46_false_statement_accepted for public inputs that no trace satisfies. C46_forged_probability bounds the probability that the forgery fails when digests are drawn at random, C46_forged_random_hash when hash functions are. The proved part of the English claim is what acceptance does imply (C45_accepted_checks_partial)."
  },
  {
   "property": "C47",
   "status": "partial",
   "theorems": [
    "Verif.Props.C47_cairo_challenges_ignore_inputs",
    "Verif.Props.C47_fibonacci_challenges_ignore_inputs",
    "Verif.Props.C47_proof_transfers",
    "Verif.Props.C47_same_proof_two_statements"
   ],
   "note": "Refuted: the challenges are the same for all public inputs (C47_cairo_challenges_ignore_inputs, C47_fibonacci_challenges_ignore_inputs) and an accepted proof can be reused for other inputs (C47_proof_transfers, C47_same_proof_two_statements). C77_cairo_proof_transfers is the case of Cairo."
  },
  {
   "property": "C48",
   "status": "partial",
   "theorems": [
    "Verif.Props.C48_trace_paths_ignored",
    "Verif.Props.C48_wrong_trace_path_accepted",
    "Verif.Props.C48_composition_openings_partial"
   ],
   "note": "Refuted: the verdict does not depend on the trace authentication paths (C48_trace_paths_ignored, C48_wrong_trace_path_accepted). The partial theorem: composition openings are authenticated and the trace values enter the DEEP value."
  },
  {
   "property": "C49",
   "status": "proved",
   "theorems": [
    "Verif.Props.C49_same_challenges"
   ],
   "note": ""
  },
  {
   "property": "C50",
   "status": "proved",
   "theorems": [
    "Verif.Props.C50_randomness_masked",
    "Verif.Props.C50_no_reduction",
    "Verif.Props.C50_equal_iff",
    "Verif.Props.C50_unbiased"
   ],
   "note": ""
  },
  {
   "property": "C51",
   "status": "proved",
   "theorems": [
    "Verif.Props.C51_outside"
   ],
   "note": ""
  },
  {
   "property": "C52",
   "status": "partial",
   "theorems": [
    "Verif.Props.C52_check_iff",
    "Verif.Props.C52_smallest_nonce_partial",
    "Verif.Props.C52_search_fails_iff",
    "Verif.Props.C52_last_nonce_not_tried",
    "Verif.Props.C52_factor_above_64"
   ],
   "note": "The check counts trailing zero bits of the first 8 digest bytes, not the documented leading zeros, and the search skips u64::MAX (C52_last_nonce_not_tried) and cannot succeed above factor 64. The partial theorem: the found nonce is the smallest accepted one."
  },
  {
   "property": "C53",
   "status": "partial",
   "theorems": [
    "Verif.Props.C53_options_unchanged",
    "Verif.Props.C53_conjectured_partial",
    "Verif.Props.C53_conjectured_rejects",
    "Verif.Props.C53_conjectured_exact",
    "Verif.Props.C53_conjectured_presets",
    "Verif.Props.C53_release_underflow",
    "Verif.Props.C53_debug_underflow",
    "Verif.Props.C53_provable_accepts_insecure",
    "Verif.Props.C53_provable_exact",
    "Verif.Props.C53_provable_overflow",
    "Verif.Props.C53_provable_presets_rejected",
    "Verif.Props.C53_provable_presets_secure"
   ],
   "note": "False of the code: C53_provable_accepts_insecure, C53_provable_presets_rejected (the provable check is inverted) and C53_release_underflow. The partial theorem covers the conjectured-security check when no underflow occurs."
  },
  {
   "property": "C54",
   "status": "proved",
   "theorems": [
    "Verif.Props.C54_fibonacci",
    "Verif.Props.C54_fibonacci_two_columns",
    "Verif.Props.C54_quadratic",
    "Verif.Props.C54_dummy",
    "Verif.Props.C54_fibonacci_trace",
    "Verif.Props.C54_fibonacci_two_columns_trace",
    "Verif.Props.C54_quadratic_trace",
    "Verif.Props.C54_dummy_trace"
   ],
   "note": ""
  },
  {
   "property": "C55",
   "status": "partial",
   "theorems": [
    "Verif.Props.C55_cairo_panics_exactly",
    "Verif.Props.C55_files_panic_exactly",
    "Verif.Props.C55_answers_partial",
    "Verif.Props.C55_cairo_answers_partial",
    "Verif.Props.C55_no_trace_root_panics",
    "Verif.Props.C55_zero_width_frame_panics",
    "Verif.Props.C55_missing_bounds_panic",
    "Verif.Props.C55_decoded_proof_panics",
    "Verif.Props.C55_answers_random_hash",
    "Verif.Props.C55_answers_probability",
    "Verif.Props.C55_relayed_file_panics",
    "Verif.Props.C55_panics_exactly",
    "Verif.Props.C55_short_opening_panics",
    "Verif.Props.C55_empty_answer_panics"
   ],
   "note": "False of the code: the verifier panics on proofs without a trace commitment, with a zero-width frame, and on Cairo public inputs without range check bounds or without steps (C55_no_trace_root_panics, C55_zero_width_frame_panics, C55_missing_bounds_panic, C55_decoded_proof_panics). C55_panics_exactly says, for every AIR whose declarations fit together, on exactly which proofs it panics (C55_cairo_panics_exactly for Cairo); so it panics on every accepted proof after an opening is cut short or an answer emptied (C55_short_opening_panics, C55_empty_answer_panics; C55_relayed_file_panics for the files of the command line). C55_files_panic_exactly says on which files the command verify panics. The partial theorems prove that it answers on every proof of the shape the prover makes. With digests drawn at random, on every proof of that shape it answers except with small probability (C55_answers_probability), and so for hash functions drawn at random (C55_answers_random_hash). Zero steps panic only in debug builds (C74)."
  },
  {
   "property": "C56",
   "status": "partial",
   "theorems": [
    "Verif.Props.C56_satisfies_iff",
    "Verif.Props.C56_auxiliary",
    "Verif.Props.C56_honest",
    "Verif.Props.C56_permutation_not_enforced",
    "Verif.Props.C56_permutation_partial"
   ],
   "note": "The first half holds for every challenge for which the auxiliary column can be built (C56_honest), for the start values 1, 1 that the boundary constraints fix. The second half is false of the code: C56_permutation_not_enforced. C56_permutation_partial adds the missing constraint on the last row as a hypothesis."
  },
  {
   "property": "C57",
   "status": "proved",
   "theorems": [
    "Verif.Props.C57_parallel_map",
    "Verif.Props.C57_no_deadlock",
    "Verif.Props.C57_ends",
    "Verif.Props.C57_extensions",
    "Verif.Props.C57_evaluations",
    "Verif.Props.C57_proof"
   ],
   "note": ""
  },
  {
   "property": "C58",
   "status": "proved",
   "theorems": [
    "Verif.Props.C58_run_program",
    "Verif.Props.C58_run_program_fails",
    "Verif.Props.C58_segments",
    "Verif.Props.C58_one_run"
   ],
   "note": ""
  },
  {
   "property": "C59",
   "status": "proved",
   "theorems": [
    "Verif.Props.C59_prove_then_verify",
    "Verif.Props.C59_prove_writes",
    "Verif.Props.C59_prover_args",
    "Verif.Props.C59_prove_ends"
   ],
   "note": "The virtual machine's run is a hypothesis stated in Spec/Cli.lean. C81_prove_and_verify_commands is the version with random digests."
  },
  {
   "property": "C60",
   "status": "proved",
   "theorems": [
    "Verif.Props.C60_prove_and_verify",
    "Verif.Props.C60_ends"
   ],
   "note": ""
  },
  {
   "property": "C61",
   "status": "partial",
   "theorems": [
    "Verif.Props.C61_accepted_files_partial",
    "Verif.Props.C61_forged_file_accepted",
    "Verif.Props.C61_false_file_accepted",
    "Verif.Props.C61_verify_ends",
    "Verif.Props.C61_other_commands",
    "Verif.Props.C61_accepted_formats_partial",
    "Verif.Props.C61_forged_file_probability",
    "Verif.Props.C61_forged_file_random_hash",
    "Verif.Props.C61_incomplete_files_partial"
   ],
   "note": "False of the code: C61_forged_file_accepted builds an accepted file for every claimed run, and C61_false_file_accepted for public inputs that no trace satisfies. C61_forged_file_probability bounds the probability that this fails when digests are drawn at random, C61_forged_file_random_hash when hash functions are. The partial theorem says exactly which files are accepted."
  },
  {
   "property": "C62",
   "status": "proved",
   "theorems": [
    "Verif.Props.C62_proof_shape",
    "Verif.Props.C62_proof_size",
    "Verif.Props.C62_query_bytes",
    "Verif.Props.C62_cairo_proof_shape",
    "Verif.Props.C62_cairo_proof_size"
   ],
   "note": "C62_cairo_proof_size instantiates the size for Cairo proofs with the command line's options."
  },
  {
   "property": "C63",
   "status": "proved",
   "theorems": [
    "Verif.Props.C63_public_inputs_describe_run",
    "Verif.Props.C63_public_inputs_total",
    "Verif.Props.C63_file_describes_run"
   ],
   "note": ""
  },
  {
   "property": "C64",
   "status": "proved",
   "theorems": [
    "Verif.Props.C64_verify_order",
    "Verif.Props.C64_prove_order",
    "Verif.Props.C64_file_order",
    "Verif.Props.C64_trace_order",
    "Verif.Props.C64_public_inputs_order"
   ],
   "note": ""
  },
  {
   "property": "C65",
   "status": "partial",
   "theorems": [
    "Verif.Props.C65_claims_true_partial",
    "Verif.Props.C65_honest_fixed_trace",
    "Verif.Props.C65_false_claim_accepted",
    "Verif.Props.C65_sorted_after_challenges",
    "Verif.Props.C65_address_zero_two_values"
   ],
   "note": "False of the code (C65_false_claim_accepted, C65_sorted_after_challenges, C65_address_zero_two_values). C65_claims_true_partial lists the conditions under which accepted traces imply a true claim; C65_honest_fixed_trace shows that honest provers meet the family hypothesis."
  },
  {
   "property": "C66",
   "status": "partial",
   "theorems": [
    "Verif.Props.C66_two_openings_agree",
    "Verif.Props.C66_committed",
    "Verif.Props.C66_composition_openings_partial",
    "Verif.Props.C66_fri_openings_partial",
    "Verif.Props.C66_path_length_unchecked"
   ],
   "note": "False of the code without a check of the path length (C66_path_length_unchecked). Proved: two openings with paths of equal length agree or exhibit a collision, and the openings of accepted proofs with paths of the height of the tree are the committed values or exhibit a collision. The trace openings are not authenticated at all (C48)."
  },
  {
   "property": "C67",
   "status": "partial",
   "theorems": [
    "Verif.Props.C67_fri_sound",
    "Verif.Props.C67_fri_error",
    "Verif.Props.C67_accepted_queries_pass_partial"
   ],
   "note": "The soundness of FRI is proved for every adaptive strategy, with an error bound, for R up to a third of the distance and beyond it up to the part 1 - 2^(-b/3) of the points. The link to the code needs the shape of an honest proof, which the verifier does not check: C46_forged_proof_accepted shows that without it proofs without layers are accepted."
  },
  {
   "property": "C68",
   "status": "partial",
   "theorems": [
    "Verif.Props.C68_stark_sound",
    "Verif.Props.C68_stark_error",
    "Verif.Props.C68_accepted_wins_partial"
   ],
   "note": "The game is proved sound for every AIR and every adaptive strategy, with an explicit error bound, for R within unique decoding and either up to a third of the distance or up to the part 1 - 2^(-b/3) of the points, and for committed columns that are opened honestly. The verifier does not check the openings of the trace (C48_trace_paths_ignored) nor the shape of the proof, so the link C68_accepted_wins_partial needs both as hypotheses."
  },
  {
   "property": "C69",
   "status": "proved",
   "theorems": [
    "Verif.Props.C69_same_proof",
    "Verif.Props.C69_debug_succeeds",
    "Verif.Props.C69_divisibility_reports",
    "Verif.Props.C69_divisibility_panics",
    "Verif.Props.C69_columns",
    "Verif.Props.C69_assertion_never_fires"
   ],
   "note": "C69_same_proof holds for all inputs. C69_debug_succeeds is about traces of the declared shape. The debug_assert!s of the prover are the subject of C80."
  },
  {
   "property": "C70",
   "status": "proved",
   "theorems": [
    "Verif.Props.C70_auxiliary",
    "Verif.Props.C70_cairo",
    "Verif.Props.C70_cairo_unplaceable",
    "Verif.Props.C70_cairo_exactly",
    "Verif.Props.C70_prover_total"
   ],
   "note": "Assumes that the field has the roots of order 2^(a+2b-1), that an out-of-domain point and a nonce are found, and that the auxiliary trace can be built."
  },
  {
   "property": "C71",
   "status": "proved",
   "theorems": [
    "Verif.Props.C71_columns_are_rows",
    "Verif.Props.C71_table_rows",
    "Verif.Props.C71_step_cells",
    "Verif.Props.C71_auxiliary"
   ],
   "note": ""
  },
  {
   "property": "C72",
   "status": "proved",
   "theorems": [
    "Verif.Props.C72_layout_table",
    "Verif.Props.C72_registers_from_file",
    "Verif.Props.C72_memory_from_file",
    "Verif.Props.C72_file_roundtrip",
    "Verif.Props.C72_decode_all",
    "Verif.Props.C72_writer",
    "Verif.Props.C72_layout_names"
   ],
   "note": ""
  },
  {
   "property": "C73",
   "status": "partial",
   "theorems": [
    "Verif.Props.C73_rap_error",
    "Verif.Props.C73_main_error",
    "Verif.Props.C73_fibonacci",
    "Verif.Props.C73_fibonacci_two_columns",
    "Verif.Props.C73_quadratic",
    "Verif.Props.C73_dummy",
    "Verif.Props.C73_fibonacci_rap",
    "Verif.Props.C73_cairo"
   ],
   "note": "Proved of the game of C68 for every adaptive strategy. As for C68 the link to accepted proofs needs honest openings of the trace, which the verifier does not check. The Cairo instance is about the main columns alone: the permutation arguments of the auxiliary columns are not used, because the AIR leaves the memory product unanchored and the memory unread (findings in DESIGN.md)."
  },
  {
   "property": "C74",
   "status": "proved",
   "theorems": [
    "Verif.Props.C74_zero_steps_probability",
    "Verif.Props.C74_zero_steps_random_hash",
    "Verif.Props.C74_builds_agree",
    "Verif.Props.C74_model_between",
    "Verif.Props.C74_zero_steps_is_full_trace",
    "Verif.Props.C74_zero_steps_accepted"
   ],
   "note": "Trace lengths of at least 2^63 are excluded: the list of their roots of unity does not fit in memory. C74_zero_steps_probability is the difference between the builds for digests drawn at random, C74_zero_steps_random_hash for random hash functions."
  },
  {
   "property": "C75",
   "status": "proved",
   "theorems": [
    "Verif.Props.C75_verdict",
    "Verif.Props.C75_prover",
    "Verif.Props.C75_cairo_verdict"
   ],
   "note": "The listed checks do not include the openings of the trace, whose result the code does not use (C48). Proofs of other shapes can make the verifier panic (C55)."
  },
  {
   "property": "C76",
   "status": "partial",
   "theorems": [
    "Verif.Props.C76_small_file_probability",
    "Verif.Props.C76_small_file_random_hash",
    "Verif.Props.C76_domain_listed",
    "Verif.Props.C76_small_file",
    "Verif.Props.C76_powers_suffice_partial"
   ],
   "note": "False of the code: the domain of the claimed length is listed (C76_domain_listed) and files of at most 4100 bytes claim any length and are accepted (C76_small_file). C76_powers_suffice_partial shows that the lists are not needed. Time and memory are not modelled otherwise: the theorems bound the length of the lists. C76_small_file_probability is the same for digests drawn at random, C76_small_file_random_hash for random hash functions."
  },
  {
   "property": "C77",
   "status": "partial",
   "theorems": [
    "Verif.Props.C77_other_inputs",
    "Verif.Props.C77_changed_value_partial",
    "Verif.Props.C77_answers",
    "Verif.Props.C77_cairo_changed_input_partial",
    "Verif.Props.C77_cairo_changed_memory_partial",
    "Verif.Props.C77_memories_distinguished_partial",
    "Verif.Props.C77_cairo_memory_answers",
    "Verif.Props.C77_zero_cell",
    "Verif.Props.C77_cairo_proof_transfers",
    "Verif.Props.C77_ignored_inputs",
    "Verif.Props.C77_changed_input_random_hash",
    "Verif.Props.C77_changed_memory_random_hash",
    "Verif.Props.C77_honest_run_random_hash",
    "Verif.Props.C77_honest_memory_random_hash",
    "Verif.Props.C77_changed_input_probability",
    "Verif.Props.C77_changed_memory_probability",
    "Verif.Props.C77_honest_run_bound",
    "Verif.Props.C77_honest_memory_bound",
    "Verif.Props.C77_steps_modulo"
   ],
   "note": "False of the code: C77_ignored_inputs, C77_steps_modulo, C77_zero_cell and C77_cairo_proof_transfers. Proved in part: a single changed register or range bound, or a changed public memory, is accepted exactly when the coefficients drawn for its constraint and the out-of-domain point satisfy one equation, or the products of the memories agree (which few challenges allow). With digests drawn at random an honest proof is accepted for a changed register or bound with probability at most 1/2^251 (C77_changed_input_probability, C77_honest_run_bound), and for another public memory with probability at most (4 N^2 + 2 N + 1)/2^251 for N cells (C77_changed_memory_probability, C77_honest_memory_bound). The same bounds, up to the failures of C81_random_hash, hold for random hash functions (C77_changed_input_random_hash, C77_changed_memory_random_hash, C77_honest_run_random_hash, C77_honest_memory_random_hash)."
  },
  {
   "property": "C78",
   "status": "proved",
   "theorems": [
    "Verif.Props.C78_fewer_queries",
    "Verif.Props.C78_honest_proof",
    "Verif.Props.C78_cairo",
    "Verif.Props.C78_presets"
   ],
   "note": ""
  },
  {
   "property": "C79",
   "status": "proved",
   "theorems": [
    "Verif.Props.C79_random_hash",
    "Verif.Props.C79_rejected_probability",
    "Verif.Props.C79_wellFormed",
    "Verif.Props.C79_unsatisfying_rejected",
    "Verif.Props.C79_answered",
    "Verif.Props.C79_cairo_unsatisfying",
    "Verif.Props.C79_cairo_changed_value"
   ],
   "note": "C79_rejected_probability is the bound for Cairo with digests drawn at random, C79_random_hash that for random hash functions."
  },
  {
   "property": "C80",
   "status": "proved",
   "theorems": [
    "Verif.Props.C80_debug_proof_is_release_proof",
    "Verif.Props.C80_builds_agree",
    "Verif.Props.C80_debug_panics",
    "Verif.Props.C80_main_trace",
    "Verif.Props.C80_release_complete",
    "Verif.Props.C80_release_steps_modulo"
   ],
   "note": "Traces of 2^56 rows or more are excluded: their columns do not fit in memory. The allocation of huge vectors is not modelled."
  },
  {
   "property": "C81",
   "status": "proved",
   "theorems": [
    "Verif.Props.C81_random_hash",
    "Verif.Props.C81_commands_random_hash",
    "Verif.Props.C81_honest_run",
    "Verif.Props.C81_prove_and_verify_commands"
   ],
   "note": "Keccak is idealised: the digests of a run are independent uniform draws (C81_honest_run), or the functions of the transcript and of the proof of work are drawn from all functions (C81_random_hash, C81_commands_random_hash)."
  },
  {
   "property": "C82",
   "status": "proved",
   "theorems": [
    "Verif.Props.C82_documented_sum",
    "Verif.Props.C82_verifier_term",
    "Verif.Props.C82_prover_term"
   ],
   "note": ""
  },
  {
   "property": "C83",
   "status": "partial",
   "theorems": [
    "Verif.Props.C83_output_args",
    "Verif.Props.C83_output_claim",
    "Verif.Props.C83_output_needs_range_check",
    "Verif.Props.C83_output_panics_in_every_build",
    "Verif.Props.C83_output_proved_partial"
   ],
   "note": "False of the code: without the range-check builtin the prover panics for every output range (C83_output_needs_range_check), and with it ranges that leave a gap are rejected (C24). C83_output_args and C83_output_claim hold for all honest runs; C83_output_proved_partial gives acceptance for the ranges without a gap."
  },
  {
   "property": "C84",
   "status": "proved",
   "theorems": [
    "Verif.Props.C84_parameters",
    "Verif.Props.C84_refuses",
    "Verif.Props.C84_cairo"
   ],
   "note": ""
  },
  {
   "property": "C85",
   "status": "proved",
   "theorems": [
    "Verif.Props.C85_derived_draws",
    "Verif.Props.C85_factor",
    "Verif.Props.C85_samplers",
    "Verif.Props.C85_queries_miss",
    "Verif.Props.C85_main_error",
    "Verif.Props.C85_cairo"
   ],
   "note": "The property is about the derivation of the challenges. The bound that is carried over (C85_main_error, C85_cairo) is that of the game of C73, with the same restriction: committed columns are opened honestly, in the unique-decoding regime. The digests of one execution are idealised as independent uniform draws."
  },
  {
   "property": "C86",
   "status": "partial",
   "theorems": [
    "Verif.Props.C86_opening_unique",
    "Verif.Props.C86_claimed_values_partial",
    "Verif.Props.C86_composition_value_partial",
    "Verif.Props.C86_answers_partial",
    "Verif.Props.C86_trace_values_changed"
   ],
   "note": "False of the trace openings: C86_trace_values_changed alters the trace values of any opening of any accepted proof with two columns. Proved: the claimed composition value is determined by what is sent before it (C86_claimed_values_partial, C86_composition_value_partial), and the answers to the queries by all that is sent before the queries, for paths of equal length and up to hash collisions (C86_answers_partial)."
  },
  {
   "property": "C87",
   "status": "proved",
   "theorems": [
    "Verif.Props.C87_search_bound",
    "Verif.Props.C87_accepted_work",
    "Verif.Props.C87_cairo",
    "Verif.Props.C87_misses",
    "Verif.Props.C87_nonce_distribution",
    "Verif.Props.C87_no_nonce",
    "Verif.Props.C87_average_work"
   ],
   "note": ""
  },
  {
   "property": "C88",
   "status": "proved",
   "theorems": [
    "Verif.Props.C88_accepted_attempt",
    "Verif.Props.C88_attempts",
    "Verif.Props.C88_checked_security",
    "Verif.Props.C88_provable_presets",
    "Verif.Props.C88_choose_nonce",
    "Verif.Props.C88_cairo",
    "Verif.Props.C88_cairo_levels",
    "Verif.Props.C88_cairo_levels_long"
   ],
   "note": ""
  },
  {
   "property": "C89",
   "status": "partial",
   "theorems": [
    "Verif.Props.C89_attempts",
    "Verif.Props.C89_cairo",
    "Verif.Props.C89_cairo_levels",
    "Verif.Props.C89_transcript",
    "Verif.Props.C89_accepted_partial"
   ],
   "note": "The game is proved for every adaptive strategy and every number of attempts, with the digests after each sequence of messages as an independent random function and with messages that stand for fixed words. The link C89_accepted_partial to proofs that the verifier accepts needs, as for C68, honest openings of the trace and the shape of the proof, which the verifier does not check (C48_trace_paths_ignored)."
  },
  {
   "property": "C90",
   "status": "proved",
   "theorems": [
    "Verif.Props.C90_collision",
    "Verif.Props.C90_two_openings",
    "Verif.Props.C90_two_answers"
   ],
   "note": ""
  },
  {
   "property": "C91",
   "status": "proved",
   "theorems": [
    "Verif.Props.C91_committed",
    "Verif.Props.C91_answers"
   ],
   "note": ""
  },
  {
   "property": "C92",
   "status": "partial",
   "theorems": [
    "Verif.Props.C92_any_prover_partial",
    "Verif.Props.C92_first_named",
    "Verif.Props.C92_false_claim_partial",
    "Verif.Props.C92_cairo_any_prover_partial",
    "Verif.Props.C92_cairo_any_prover_levels_partial",
    "Verif.Props.C92_cairo_false_claim_levels_partial",
    "Verif.Props.C92_extracted_partial",
    "Verif.Props.C92_code",
    "Verif.Props.C92_attained",
    "Verif.Props.C92_cairo_partial",
    "Verif.Props.C92_cairo_levels_partial"
   ],
   "note": "Proved for every adaptive strategy, without conditions on what the prover asks (C92_any_prover_partial; C92_extracted_partial is the sharper bound for provers that ask for all that the verifier asks for). The rows of the trace must be opened rightly and the proof must have the expected shape, neither of which the verifier checks (C48_trace_paths_ignored; C93 shows that generated proofs meet the first). The hash of the Merkle trees and that of the transcript are independent random functions. C92_code shows that what the verifier of the code accepts is accepted in this sense, C92_attained that accepted proofs are successes in the game."
  },
  {
   "property": "C93",
   "status": "proved",
   "theorems": [
    "Verif.Props.C93_cairo_run",
    "Verif.Props.C93_trace_opened",
    "Verif.Props.C93_cairo",
    "Verif.Props.C93_as_assumed"
   ],
   "note": ""
  },
  {
   "property": "C94",
   "status": "partial",
   "theorems": [
    "Verif.Props.C94_forged_random_hash",
    "Verif.Props.C94_forged_file_random_hash",
    "Verif.Props.C94_complete_proof_forged",
    "Verif.Props.C94_forged_probability",
    "Verif.Props.C94_forged_file_probability",
    "Verif.Props.C94_false_statement_accepted"
   ],
   "note": "Refuted: C94_complete_proof_forged assembles a complete proof for any AIR, any commitments to the trace, any claimed values and any paths, C94_forged_probability bounds the probability that the challenges prevent it for Cairo with the default options, C94_forged_random_hash does so for random hash functions, the file versions for the command verify, and C94_false_statement_accepted gives a claim that no trace satisfies. What remains of the claim, when the paths of the trace are also right, is C92_any_prover_partial."
  },
  {
   "property": "C95",
   "status": "proved",
   "theorems": [
    "Verif.Props.C95_step_exactly",
    "Verif.Props.C95_main_trace_exactly",
    "Verif.Props.C95_auxiliary_exactly",
    "Verif.Props.C95_few_challenges",
    "Verif.Props.C95_honest_runs"
   ],
   "note": ""
  },
  {
   "property": "C96",
   "status": "proved",
   "theorems": [
    "Verif.Props.C96_domain_any",
    "Verif.Props.C96_domain",
    "Verif.Props.C96_extension",
    "Verif.Props.C96_extension_refused",
    "Verif.Props.C96_trace_polys"
   ],
   "note": ""
  },
  {
   "property": "C97",
   "status": "partial",
   "theorems": [
    "Verif.Props.C97_any_odd_factor",
    "Verif.Props.C97_accepted_rows_partial",
    "Verif.Props.C97_cairo",
    "Verif.Props.C97_cairo_three",
    "Verif.Props.C97_cairo_file",
    "Verif.Props.C97_random_hash"
   ],
   "note": "Refuted: C97_any_odd_factor for every AIR, C97_cairo for the Cairo verifier with the default options and every odd factor without common divisor with P - 1, while the prover panics on such traces; C97_cairo_file for the command verify, C97_random_hash for random hash functions; C97_cairo_three is a concrete case. C97_accepted_rows_partial is the part that holds."
  }
 ]
}