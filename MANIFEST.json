{
 "claims": [
  {
   "property": "C01",
   "status": "proved",
   "theorems": [
    "Verif.Kzg.C01_srs_powers"
   ],
   "note": ""
  },
  {
   "property": "C02",
   "status": "proved",
   "theorems": [
    "Verif.Kzg.C02_commit",
    "Verif.Kzg.C02_commit_vector",
    "Verif.Kzg.C02_commit_para"
   ],
   "note": ""
  },
  {
   "property": "C03",
   "status": "proved",
   "theorems": [
    "Verif.Kzg.C03_linear"
   ],
   "note": ""
  },
  {
   "property": "C04",
   "status": "proved",
   "theorems": [
    "Verif.Kzg.C04_open_verifies",
    "Verif.Kzg.C04_open_panics_iff",
    "Verif.Kzg.C04_open_vector"
   ],
   "note": ""
  },
  {
   "property": "C05",
   "status": "proved",
   "theorems": [
    "Verif.Kzg.C05_verify_iff"
   ],
   "note": ""
  },
  {
   "property": "C06",
   "status": "proved",
   "theorems": [
    "Verif.Kzg.C06_honest_witness_binds",
    "Verif.Kzg.C06_binding"
   ],
   "note": ""
  },
  {
   "property": "C07",
   "status": "proved",
   "theorems": [
    "Verif.Kzg.C07_binding",
    "Verif.Kzg.C07_few_bad_secrets"
   ],
   "note": ""
  },
  {
   "property": "C08",
   "status": "proved",
   "theorems": [
    "Verif.Kzg.C08_aggregate",
    "Verif.Kzg.C08_aggregate_commit"
   ],
   "note": ""
  },
  {
   "property": "C09",
   "status": "proved",
   "theorems": [
    "Verif.Kzg.C09_batch_complete",
    "Verif.Kzg.C09_batch_lengths"
   ],
   "note": ""
  },
  {
   "property": "C10",
   "status": "proved",
   "theorems": [
    "Verif.Kzg.C10_batch_sound",
    "Verif.Kzg.C10_batch_sound_bls"
   ],
   "note": ""
  },
  {
   "property": "C11",
   "status": "partial",
   "theorems": [
    "Verif.Kzg.C11_opening_add_fails",
    "Verif.Kzg.C11_opening_add_partial"
   ],
   "note": "The property is false of the code: KzgOpening::add doubles the left witness. C11_opening_add_fails proves a counterexample; C11_opening_add_partial characterises exactly when the sum verifies."
  },
  {
   "property": "C12",
   "status": "proved",
   "theorems": [
    "Verif.Fri.C12_root",
    "Verif.Fri.C12_pow2",
    "Verif.Fri.C12_any"
   ],
   "note": ""
  },
  {
   "property": "C13",
   "status": "proved",
   "theorems": [
    "Verif.Fri.C13_panics_iff",
    "Verif.Fri.C13_padding"
   ],
   "note": ""
  },
  {
   "property": "C14",
   "status": "proved",
   "theorems": [
    "Verif.Fri.C14_binding",
    "Verif.Fri.C14_honest_tree"
   ],
   "note": ""
  },
  {
   "property": "C15",
   "status": "partial",
   "theorems": [
    "Verif.Fri.C15_hash_slice_ambiguous",
    "Verif.Fri.C15_hash_slice_partial",
    "Verif.Fri.C15_leaf_hash"
   ],
   "note": "The property is false of the code: decimal strings are concatenated without separator, so (1,23) and (12,3) hash alike for every hash function (C15_hash_slice_ambiguous). C15_hash_slice_partial: pairs whose first strings have equal length are separated up to an explicit collision; C15_leaf_hash: single values are."
  },
  {
   "property": "C16",
   "status": "proved",
   "theorems": [
    "Verif.Fri.C16_fold_identity",
    "Verif.Fri.C16_fold_coeffs"
   ],
   "note": ""
  },
  {
   "property": "C17",
   "status": "proved",
   "theorems": [
    "Verif.Fri.C17_layer",
    "Verif.Fri.C17_proof"
   ],
   "note": ""
  },
  {
   "property": "C18",
   "status": "proved",
   "theorems": [
    "Verif.Fri.C18_completeness",
    "Verif.Fri.C18_prover_returns"
   ],
   "note": ""
  },
  {
   "property": "C19",
   "status": "proved",
   "theorems": [
    "Verif.Fri.C19_panics_iff"
   ],
   "note": ""
  },
  {
   "property": "C20",
   "status": "proved",
   "theorems": [
    "Verif.Fri.C20_verify_iff"
   ],
   "note": ""
  },
  {
   "property": "C21",
   "status": "partial",
   "theorems": [
    "Verif.Fri.C21_repaired_partial",
    "Verif.Fri.C21_forgery",
    "Verif.Fri.C21_authentication_partial"
   ],
   "note": "False of the code: verify never compares path roots with layers_root; C21_forgery builds an accepted proof for arbitrary roots. C21_authentication_partial adds the missing comparison as a hypothesis and derives authentication up to an explicit collision."
  },
  {
   "property": "C22",
   "status": "partial",
   "theorems": [
    "Verif.Fri.C22_no_queries_accepted",
    "Verif.Fri.C22_all_queries_partial"
   ],
   "note": "False of the code: zip truncates; C22_no_queries_accepted proves that a proof with no decommitment is accepted. C22_all_queries_partial: with at least number_of_queries well-shaped decommitments all positions are checked."
  },
  {
   "property": "C23",
   "status": "proved",
   "theorems": [
    "Verif.Fri.C23_shape"
   ],
   "note": ""
  },
  {
   "property": "C24",
   "status": "proved",
   "theorems": [
    "Verif.Fri.C24_guard",
    "Verif.Fri.C24_default_panics",
    "Verif.Fri.C24_default_digest",
    "Verif.Fri.C24_generators_agree"
   ],
   "note": ""
  },
  {
   "property": "C25",
   "status": "proved",
   "theorems": [
    "Verif.Fri.C25_replay",
    "Verif.Fri.C25_challenge_value",
    "Verif.Fri.C25_binding"
   ],
   "note": ""
  },
  {
   "property": "C26",
   "status": "proved",
   "theorems": [
    "Verif.Nova.C26_matrix_vector",
    "Verif.Nova.C26_hadamard",
    "Verif.Nova.C26_scale",
    "Verif.Nova.C26_add",
    "Verif.Nova.C26_sub",
    "Verif.Nova.C26_equal",
    "Verif.Nova.C26_conversions"
   ],
   "note": ""
  },
  {
   "property": "C27",
   "status": "proved",
   "theorems": [
    "Verif.Nova.C27_satisfied_iff",
    "Verif.Nova.C27_panic_cause",
    "Verif.Nova.C27_results"
   ],
   "note": ""
  },
  {
   "property": "C28",
   "status": "proved",
   "theorems": [
    "Verif.Nova.C28_fresh_iff",
    "Verif.Nova.C28_example_circuit"
   ],
   "note": ""
  },
  {
   "property": "C29",
   "status": "proved",
   "theorems": [
    "Verif.Nova.C29_fold_satisfied",
    "Verif.Nova.C29_prover_satisfied"
   ],
   "note": ""
  },
  {
   "property": "C30",
   "status": "proved",
   "theorems": [
    "Verif.Nova.C30_three_special_sound"
   ],
   "note": ""
  },
  {
   "property": "C31",
   "status": "proved",
   "theorems": [
    "Verif.Nova.C31_fold_commitments_gen",
    "Verif.Nova.C31_fold_commitments"
   ],
   "note": ""
  },
  {
   "property": "C32",
   "status": "proved",
   "theorems": [
    "Verif.Nova.C32_complete",
    "Verif.Nova.C32_returns"
   ],
   "note": ""
  },
  {
   "property": "C33",
   "status": "proved",
   "theorems": [
    "Verif.Nova.C33_verify_iff"
   ],
   "note": ""
  },
  {
   "property": "C34",
   "status": "partial",
   "theorems": [
    "Verif.Nova.C34_accepts_unsatisfied",
    "Verif.Nova.C34_partial"
   ],
   "note": "False of the code: NIFS::verify only checks commitments and openings, so unsatisfied pairs are accepted (C34_accepts_unsatisfied). C34_partial: what an accepted folding does give."
  },
  {
   "property": "C35",
   "status": "partial",
   "theorems": [
    "Verif.Nova.C35_challenge_ignores_instances",
    "Verif.Nova.C35_forgery",
    "Verif.Nova.C35_binding_partial",
    "Verif.Nova.C35_verify_binding_partial"
   ],
   "note": "False of the code: the NIFS challenge depends only on u1.u, u2.u and comT (C35_challenge_ignores_instances); C35_forgery exploits it. C35_binding_partial: the challenge binds what is fed, up to an explicit collision."
  },
  {
   "property": "C36",
   "status": "partial",
   "theorems": [
    "Verif.Nova.C36_trivial_pair_partial",
    "Verif.Nova.C36_trivial_pair_fails"
   ],
   "note": "False of the code: create_trivial_pair's witness does not satisfy the example R1CS-shaped relation in general (C36_trivial_pair_fails). C36_trivial_pair_partial characterises when it does."
  },
  {
   "property": "C37",
   "status": "proved",
   "theorems": [
    "Verif.Nova.C37_tracks_F",
    "Verif.Nova.C37_stored_hash"
   ],
   "note": ""
  },
  {
   "property": "C38",
   "status": "proved",
   "theorems": [
    "Verif.Nova.C38_run_zero",
    "Verif.Nova.C38_run_error_iff",
    "Verif.Nova.C38_error_preserves_state",
    "Verif.Nova.C38_run_succ"
   ],
   "note": ""
  },
  {
   "property": "C39",
   "status": "proved",
   "theorems": [
    "Verif.Nova.C39_encoding_injective",
    "Verif.Nova.C39_binding"
   ],
   "note": ""
  },
  {
   "property": "C40",
   "status": "proved",
   "theorems": [
    "Verif.Nova.C40_never_rejected",
    "Verif.Nova.C40_panic_cause",
    "Verif.Nova.C40_published_proof",
    "Verif.Nova.C40_trivial_proof"
   ],
   "note": ""
  },
  {
   "property": "C41",
   "status": "proved",
   "theorems": [
    "Verif.Nova.C41_verify_zero",
    "Verif.Nova.C41_verify_iff",
    "Verif.Nova.C41_verify_equations"
   ],
   "note": ""
  },
  {
   "property": "C42",
   "status": "proved",
   "theorems": [
    "Verif.Nova.C42_guard",
    "Verif.Nova.C42_constructors",
    "Verif.Nova.C42_replay",
    "Verif.Nova.C42_challenge_value",
    "Verif.Nova.C42_binding"
   ],
   "note": ""
  },
  {
   "property": "C43",
   "status": "proved",
   "theorems": [
    "Verif.Plonk.C43_add_gate",
    "Verif.Plonk.C43_mul_gate",
    "Verif.Plonk.C43_constant_gate",
    "Verif.Plonk.C43_no_public_input",
    "Verif.Plonk.C43_dummy_gate",
    "Verif.Plonk.C43_call_gate"
   ],
   "note": ""
  },
  {
   "property": "C44",
   "status": "proved",
   "theorems": [
    "Verif.Plonk.C44_pad",
    "Verif.Plonk.C44_compile_panics_iff",
    "Verif.Plonk.C44_compile_size"
   ],
   "note": ""
  },
  {
   "property": "C45",
   "status": "proved",
   "theorems": [
    "Verif.Plonk.C45_interpolates",
    "Verif.Plonk.C45_gate_relation"
   ],
   "note": ""
  },
  {
   "property": "C46",
   "status": "proved",
   "theorems": [
    "Verif.Plonk.C46_sigma",
    "Verif.Plonk.C46_labels_distinct"
   ],
   "note": ""
  },
  {
   "property": "C47",
   "status": "proved",
   "theorems": [
    "Verif.Plonk.C47_slices",
    "Verif.Plonk.C47_compact"
   ],
   "note": ""
  },
  {
   "property": "C48",
   "status": "proved",
   "theorems": [
    "Verif.Plonk.C48_panics_iff",
    "Verif.Plonk.C48_accumulator"
   ],
   "note": ""
  },
  {
   "property": "C49",
   "status": "proved",
   "theorems": [
    "Verif.Plonk.C49_compiled",
    "Verif.Plonk.C49_proof_verifies"
   ],
   "note": ""
  },
  {
   "property": "C50",
   "status": "proved",
   "theorems": [
    "Verif.Plonk.C50_compiled",
    "Verif.Plonk.C50_honest_prover"
   ],
   "note": ""
  },
  {
   "property": "C51",
   "status": "proved",
   "theorems": [
    "Verif.Plonk.C51_violated_gate_no_proof",
    "Verif.Plonk.C51_compiled"
   ],
   "note": ""
  },
  {
   "property": "C52",
   "status": "proved",
   "theorems": [
    "Verif.Plonk.C52_alpha_zero",
    "Verif.Plonk.C52_compiled",
    "Verif.Plonk.C52_violated_copy"
   ],
   "note": ""
  },
  {
   "property": "C53",
   "status": "proved",
   "theorems": [
    "Verif.Plonk.C53_verify"
   ],
   "note": ""
  },
  {
   "property": "C54",
   "status": "proved",
   "theorems": [
    "Verif.Plonk.C54_ignores_witness"
   ],
   "note": ""
  },
  {
   "property": "C55",
   "status": "partial",
   "theorems": [
    "Verif.Plonk.C55_other_digest_rejected",
    "Verif.Plonk.C55_digest_partial"
   ],
   "note": "False of the code: the prover hard-wires Sha256 and ignores T; C55_other_digest_rejected is a kernel-computed counterexample over BLS12-381 Fr. C55_digest_partial: accepted if T agrees with Sha256 on the hashed strings, rejected with the challenge error if the recomputed u differs."
  },
  {
   "property": "C56",
   "status": "proved",
   "theorems": [
    "Verif.Plonk.C56_computed_quotient",
    "Verif.Plonk.C56_computed_quotient_copies",
    "Verif.Plonk.C56_quotient_identity",
    "Verif.Plonk.C56_copy_soundness"
   ],
   "note": ""
  },
  {
   "property": "C57",
   "status": "proved",
   "theorems": [
    "Verif.Plonk.C57_guard",
    "Verif.Plonk.C57_fromCommitments",
    "Verif.Plonk.C57_replay",
    "Verif.Plonk.C57_binding"
   ],
   "note": ""
  },
  {
   "property": "C58",
   "status": "proved",
   "theorems": [
    "Verif.Plonk.C58_spaces_and_case",
    "Verif.Plonk.C58_ascii",
    "Verif.Plonk.C58_identity",
    "Verif.Plonk.C58_powers"
   ],
   "note": ""
  },
  {
   "property": "C59",
   "status": "partial",
   "theorems": [
    "Verif.Plonk.C59_numeric_and_long_bases_fail",
    "Verif.Plonk.C59_zero_exponent",
    "Verif.Plonk.C59_powers_partial"
   ],
   "note": "False of the code: C59_numeric_and_long_bases_fail (\"2^3\", \"ab^2\") and C59_zero_exponent. C59_powers_partial: single-character bases, exponents >= 1."
  },
  {
   "property": "C60",
   "status": "proved",
   "theorems": [
    "Verif.Plonk.C60_wiring"
   ],
   "note": ""
  },
  {
   "property": "C61",
   "status": "proved",
   "theorems": [
    "Verif.Plonk.C61_parsed_circuit"
   ],
   "note": ""
  },
  {
   "property": "C62",
   "status": "partial",
   "theorems": [
    "Verif.Plonk.C62_forces_partial",
    "Verif.Plonk.C62_every_assignment_satisfies",
    "Verif.Plonk.C62_forgery",
    "Verif.Plonk.C62_unsatisfiable_equation_satisfied",
    "Verif.Plonk.C62_negated_unrelated",
    "Verif.Plonk.C62_accepted_proof_of_false_equation",
    "Verif.Plonk.C62_leading_zero_unconstrained"
   ],
   "note": "False of the code: the result wire of the last gate is not constrained to zero and wires of -x are unrelated to those of x. C62_every_assignment_satisfies, C62_forgery, C62_unsatisfiable_equation_satisfied, C62_negated_unrelated and the kernel-computed C62_accepted_proof_of_false_equation (an accepted proof of 1=2) show it; C62_forces_partial is what does hold: if the last output wire is zero and negated variables carry negated values, the equation is forced."
  },
  {
   "property": "C63",
   "status": "proved",
   "theorems": [
    "Verif.Plonk.C63_end_to_end",
    "Verif.Plonk.C63_single_variables_panic"
   ],
   "note": ""
  },
  {
   "property": "C64",
   "status": "proved",
   "theorems": [
    "Verif.Plonk.C64_same_compiled",
    "Verif.Plonk.C64_preprocessed_input",
    "Verif.Plonk.C64_same_verdict",
    "Verif.Plonk.C64_noncanonical_differ"
   ],
   "note": ""
  },
  {
   "property": "C65",
   "status": "proved",
   "theorems": [
    "Verif.Plonk.C65_one_equals_sign",
    "Verif.Plonk.C65_unknown_operand",
    "Verif.Plonk.C65_accepts_iff"
   ],
   "note": ""
  },
  {
   "property": "C66",
   "status": "partial",
   "theorems": [
    "Verif.Fri.C66_constant_unchecked",
    "Verif.Fri.C66_empty_decommitment",
    "Verif.Fri.C66_shape_partial"
   ],
   "note": "False of the code: C66_constant_unchecked (over-long evaluations vector skips the constant check) and C66_empty_decommitment. C66_shape_partial: well-shaped decommitments are compared with the constant."
  },
  {
   "property": "C67",
   "status": "proved",
   "theorems": [
    "Verif.Fri.C67_constant_multilinear"
   ],
   "note": ""
  },
  {
   "property": "C68",
   "status": "proved",
   "theorems": [
    "Verif.Fri.C68_verify_special_sound",
    "Verif.Fri.C68_fold_special_sound"
   ],
   "note": ""
  },
  {
   "property": "C69",
   "status": "partial",
   "theorems": [
    "Verif.Nova.C69_tall_rejected",
    "Verif.Nova.C69_partial"
   ],
   "note": "False of the code when rows > variables, because fold_witness zips truncate E to the length of the trivial E (C69_tall_rejected). C69_partial: proved for rows <= variables."
  },
  {
   "property": "C70",
   "status": "partial",
   "theorems": [
    "Verif.Nova.C70_unsatisfied_step_accepted",
    "Verif.Nova.C70_decider_partial"
   ],
   "note": "False of the code: C70_unsatisfied_step_accepted. IVC never checks R1CS satisfaction. C70_decider_partial: a user who in addition checks is_r1cs_satisfied on the folded instance is safe for all but two challenges."
  },
  {
   "property": "C71",
   "status": "proved",
   "theorems": [
    "Verif.Plonk.C71_number_of_gates"
   ],
   "note": ""
  },
  {
   "property": "C72",
   "status": "proved",
   "theorems": [
    "Verif.Plonk.C72_compile_agrees",
    "Verif.Plonk.C72_layer_clamped",
    "Verif.Plonk.C72_layer_three_differs"
   ],
   "note": ""
  },
  {
   "property": "C73",
   "status": "proved",
   "theorems": [
    "Verif.Plonk.C73_algebraic_soundness",
    "Verif.Plonk.C73_acceptance_count",
    "Verif.Plonk.C73_unsatisfiable"
   ],
   "note": ""
  },
  {
   "property": "C74",
   "status": "partial",
   "theorems": [
    "Verif.Plonk.C74_public_input_forgery",
    "Verif.Plonk.C74_forger_algebraic",
    "Verif.Plonk.C74_false_statement_accepted",
    "Verif.Plonk.C74_fixed_public_input_partial"
   ],
   "note": "False of the code: neither the circuit nor its public inputs enter the transcript (C74_public_input_forgery, C74_forger_algebraic, C74_false_statement_accepted: an algebraic prover adapts the public input after the evaluation challenge). C74_fixed_public_input_partial: sound for public inputs fixed before the first challenge."
  },
  {
   "property": "C75",
   "status": "proved",
   "theorems": [
    "Verif.Fri.C75_oracle_soundness",
    "Verif.Fri.C75_query_count",
    "Verif.Fri.C75_verify_rejects",
    "Verif.Fri.C75_close_accepted",
    "Verif.Fri.C75_proximity",
    "Verif.Fri.C75_unique_decoding"
   ],
   "note": ""
  },
  {
   "property": "C76",
   "status": "partial",
   "theorems": [
    "Verif.Fri.C76_every_word_accepted",
    "Verif.Fri.C76_degree_not_bound"
   ],
   "note": "False of the code: the prover folds log2(domain_size) times whatever the blowup factor, and the verifier knows no degree bound; every word is accepted (C76_every_word_accepted) and complete proofs of polynomials of full degree are accepted and look like low-degree proofs (C76_degree_not_bound). What would hold with fewer layers is C75."
  },
  {
   "property": "C77",
   "status": "proved",
   "theorems": [
    "Verif.Kzg.C77_opening",
    "Verif.Kzg.C77_aggregate",
    "Verif.Kzg.C77_batch"
   ],
   "note": ""
  },
  {
   "property": "C78",
   "status": "proved",
   "theorems": [
    "Verif.Plonk.C78_view_of_proof",
    "Verif.Plonk.C78_uniform",
    "Verif.Plonk.C78_indistinguishable",
    "Verif.Plonk.C78_leak_on_domain"
   ],
   "note": ""
  },
  {
   "property": "C79",
   "status": "partial",
   "theorems": [
    "Verif.Plonk.C79_slices_on_a_line",
    "Verif.Plonk.C79_not_zero_knowledge"
   ],
   "note": "False of the code: the slices of the quotient are committed to without blinding. C79_slices_on_a_line: for a fixed witness and fixed remaining proof the three commitments lie on a line; C79_not_zero_knowledge (kernel-computed over BLS12-381 Fr): an accepted proof made with one witness that no blinding values produce with another witness of the same circuit. What does hold is C78."
  },
  {
   "property": "C80",
   "status": "partial",
   "theorems": [
    "Verif.Fri.C80_fri_panic_free_iff",
    "Verif.Fri.C80_fri_honest_header",
    "Verif.Fri.C80_fri_crash",
    "Verif.Nova.C80_ivc_panics_iff"
   ],
   "note": "False of the code: C80_fri_crash (proof headers that crash the FRI verifier), C80_ivc_panics_iff (an instance without public input crashes IVC::verify). C80_fri_panic_free_iff determines exactly the headers no one can crash the FRI verifier with; C80_fri_honest_header: honest headers are such. KZG verification is total by construction, NIFS::verify never panics (C33_verify_iff), PLONK verify panics only at evaluation challenge 1 (C53_verify)."
  },
  {
   "property": "C81",
   "status": "proved",
   "theorems": [
    "Verif.Nova.C81_folding_sound",
    "Verif.Nova.C81_holds_accepted"
   ],
   "note": ""
  },
  {
   "property": "C82",
   "status": "proved",
   "theorems": [
    "Verif.Plonk.C82_honest_proving_succeeds"
   ],
   "note": ""
  },
  {
   "property": "C83",
   "status": "partial",
   "theorems": [
    "Verif.C83_plonk_challenge_space",
    "Verif.C83_nova_challenge_space",
    "Verif.C83_fri_challenge_space",
    "Verif.C83_fri_queries_missing",
    "Verif.C83_plonk_challenges_missing",
    "Verif.C83_nova_challenges_missing",
    "Verif.C83_plonk_exactly",
    "Verif.C83_nova_exactly",
    "Verif.C83_fri_exactly"
   ],
   "note": "False of the code: the generators are seeded with eight bytes of the digest, so that after any history and for any digest at most 2^64 lists of challenges are possible, whatever their length (C83_plonk_challenge_space, C83_nova_challenge_space, C83_fri_challenge_space); over BLS12-381 Fr some field elements are never challenges (C83_plonk_challenges_missing, C83_nova_challenges_missing), and some lists of query positions are never drawn once D^q > 2^64 (C83_fri_queries_missing)."
  },
  {
   "property": "C84",
   "status": "proved",
   "theorems": [
    "Verif.Fri.C84_fri_honest_proving",
    "Verif.Fri.C84_fri_count",
    "Verif.Nova.C84_nova_honest_proving",
    "Verif.Nova.C84_nova_degenerate_panics",
    "Verif.Nova.C84_nova_self_fold_panics"
   ],
   "note": ""
  },
  {
   "property": "C85",
   "status": "proved",
   "theorems": [
    "Verif.Fri.C85_fri_verify64",
    "Verif.Fri.C85_fri_prove_checked",
    "Verif.Fri.C85_fri_prove_wrapping",
    "Verif.Plonk.C85_plonk_verify64",
    "Verif.Plonk.C85_plonk_verify_checked",
    "Verif.Plonk.C85_plonk_soundness64",
    "Verif.Plonk.C85_plonk_complete64",
    "Verif.Plonk.C85_plonk_unsatisfiable64"
   ],
   "note": ""
  },
  {
   "property": "C86",
   "status": "proved",
   "theorems": [
    "Verif.Kzg.C86_kzg_witness_unique",
    "Verif.Kzg.C86_kzg_at_secret",
    "Verif.Kzg.C86_kzg_honest",
    "Verif.Nova.C86_nifs_proof_unique",
    "Verif.Plonk.C86_plonk_u_forced",
    "Verif.Plonk.C86_plonk_degree",
    "Verif.Plonk.C86_plonk_degree_few",
    "Verif.Plonk.C86_plonk_degree_forced"
   ],
   "note": ""
  },
  {
   "property": "C87",
   "status": "partial",
   "theorems": [
    "Verif.Fri.C87_fri_query_count",
    "Verif.Fri.C87_fri_malleable",
    "Verif.Fri.C87_fri_depends_partial",
    "Verif.Fri.C87_fri_not_unique",
    "Verif.Nova.C87_ivc_malleable"
   ],
   "note": "False of the code: C87_fri_malleable (decommitments can be removed from the end or added after number_of_queries ones), C87_fri_not_unique, C87_fri_query_count (number_of_queries can be replaced by any number), C87_ivc_malleable (all public inputs of u_i but the first, and at step zero the whole proof, are ignored). What holds for FRI: C87_fri_depends_partial (nothing beyond the first number_of_queries decommitments influences the result)."
  },
  {
   "property": "C88",
   "status": "proved",
   "theorems": [
    "Verif.Fri.C88_fri_example",
    "Verif.Kzg.C88_kzg_example",
    "Verif.Nova.C88_ivc_step",
    "Verif.Nova.C88_nova_program",
    "Verif.Nova.C88_nova_example",
    "Verif.Plonk.C88_plonk_example"
   ],
   "note": ""
  },
  {
   "property": "C89",
   "status": "proved",
   "theorems": [
    "Verif.Nova.C89_any_history",
    "Verif.Nova.C89_next_panics_iff"
   ],
   "note": ""
  },
  {
   "property": "C90",
   "status": "proved",
   "theorems": [
    "Verif.Nova.C90_run_accepts_any_accumulator",
    "Verif.Nova.C90_accumulators_chain"
   ],
   "note": ""
  },
  {
   "property": "C91",
   "status": "partial",
   "theorems": [
    "Verif.Nova.C91_any_state_accepted",
    "Verif.Nova.C91_driven_state_partial"
   ],
   "note": "False of the code: C91_any_state_accepted (for every object with counter not zero IVC::verify accepts a proof computed from the claimed state alone, without any witness). What holds: C91_driven_state_partial, for objects driven by run and next_step."
  },
  {
   "property": "C92",
   "status": "partial",
   "theorems": [
    "Verif.Nova.C92_shipped_instance_iff"
   ],
   "note": "False of the code: C92_shipped_instance_iff (the program overwrites the public output with the hash of the next state, so that from the second step on an instance is satisfied by its witness exactly if that hash equals input^3+input+5). C36/C34/C70 explain why no check of the program notices."
  },
  {
   "property": "C93",
   "status": "proved",
   "theorems": [
    "Verif.Plonk.C93_public_part",
    "Verif.Plonk.C93_same_verdict",
    "Verif.Plonk.C93_locality"
   ],
   "note": ""
  },
  {
   "property": "C94",
   "status": "proved",
   "theorems": [
    "Verif.Fri.C94_root_binds_leaves",
    "Verif.Fri.C94_same_length",
    "Verif.Fri.C94_depth_not_bound",
    "Verif.Fri.C94_pigeonhole",
    "Verif.Fri.C94_collision_exists"
   ],
   "note": ""
  },
  {
   "property": "C95",
   "status": "proved",
   "theorems": [
    "Verif.Plonk.C95_reading_unique",
    "Verif.Plonk.C95_accepted_texts",
    "Verif.Plonk.C95_sum_on_right_rejected",
    "Verif.Plonk.C95_end_to_end"
   ],
   "note": ""
  },
  {
   "property": "C96",
   "status": "proved",
   "theorems": [
    "Verif.Fri.C96_fri_evaluation",
    "Verif.Fri.C96_fri_path",
    "Verif.Fri.C96_fri_constant",
    "Verif.Fri.C96_fri_coset_iff",
    "Verif.Fri.C96_fri_roots_iff"
   ],
   "note": ""
  },
  {
   "property": "C97",
   "status": "proved",
   "theorems": [
    "Verif.Plonk.C97_two_circuits_iff",
    "Verif.Plonk.C97_constants",
    "Verif.Plonk.C97_public_inputs",
    "Verif.Plonk.C97_wiring",
    "Verif.Plonk.C97_wiring_calls",
    "Verif.Plonk.C97_repository_test"
   ],
   "note": ""
  },
  {
   "property": "C98",
   "status": "proved",
   "theorems": [
    "Verif.Fri.C98_fri_deterministic",
    "Verif.Fri.C98_fri_never_fail",
    "Verif.Fri.C98_fri_pass",
    "Verif.Fri.C98_fri_randomness",
    "Verif.Kzg.C98_kzg",
    "Verif.Nova.C98_nova_always",
    "Verif.Nova.C98_nova_one_fold",
    "Verif.Nova.C98_nova_ivc_never_fail",
    "Verif.Nova.C98_nova_ivc_pass",
    "Verif.Nova.C98_nova_randomness",
    "Verif.Plonk.C98_plonk_pass",
    "Verif.Plonk.C98_plonk_two_circuits",
    "Verif.Plonk.C98_plonk_should_panic",
    "Verif.Plonk.C98_plonk_deterministic",
    "Verif.Plonk.C98_plonk_slices",
    "Verif.Plonk.C98_plonk_randomness"
   ],
   "note": ""
  },
  {
   "property": "C99",
   "status": "proved",
   "theorems": [
    "Verif.Kzg.C99_kzg_one_setup",
    "Verif.Kzg.C99_kzg_honest",
    "Verif.Kzg.C99_kzg_few_secrets",
    "Verif.Kzg.C99_kzg_batch",
    "Verif.Nova.C99_nifs_one_setup",
    "Verif.Nova.C99_ivc_one_setup",
    "Verif.Nova.C99_ivc_zero",
    "Verif.Plonk.C99_plonk_two_setups",
    "Verif.Plonk.C99_plonk_few_setups",
    "Verif.Plonk.C99_plonk_example"
   ],
   "note": ""
  },
  {
   "property": "C100",
   "status": "proved",
   "theorems": [
    "Verif.Kzg.C100_kzg",
    "Verif.Kzg.C100_kzg_same",
    "Verif.Nova.C100_nifs",
    "Verif.Plonk.C100_plonk",
    "Verif.Plonk.C100_plonk_contradiction"
   ],
   "note": ""
  },
  {
   "property": "C101",
   "status": "proved",
   "theorems": [
    "Verif.Plonk.C101_characters",
    "Verif.Plonk.C101_characters_preprocessed",
    "Verif.Plonk.C101_names",
    "Verif.Plonk.C101_names_preprocessed",
    "Verif.Plonk.C101_plain_texts"
   ],
   "note": ""
  },
  {
   "property": "C102",
   "status": "proved",
   "theorems": [
    "Verif.Plonk.C102_exactly",
    "Verif.Plonk.C102_compiled",
    "Verif.Plonk.C102_alpha_zero"
   ],
   "note": ""
  },
  {
   "property": "C103",
   "status": "proved",
   "theorems": [
    "Verif.Plonk.C103_accepts_iff",
    "Verif.Plonk.C103_preprocess_iff",
    "Verif.Plonk.C103_same_compiled",
    "Verif.Plonk.C103_same_verdict",
    "Verif.Plonk.C103_nonsense_accepted"
   ],
   "note": ""
  },
  {
   "property": "C104",
   "status": "partial",
   "theorems": [
    "Verif.Plonk.C104_call_sequences",
    "Verif.Plonk.C104_registered_values_partial",
    "Verif.Plonk.C104_capital_name_ignored",
    "Verif.Plonk.C104_capital_name_fails",
    "Verif.Plonk.C104_number_name_overrides",
    "Verif.Plonk.C104_sum_as_name"
   ],
   "note": "False of the code: names with capital letters are ignored (C104_capital_name_ignored, C104_capital_name_fails), names that are numbers replace the number (C104_number_name_overrides), the right-hand side is one operand (C104_sum_as_name). C104_registered_values_partial: for names that are not numbers and texts in the grammar, the circuit is about the last registered values; C104_call_sequences: only the last call per name matters."
  },
  {
   "property": "C105",
   "status": "partial",
   "theorems": [
    "Verif.Fri.C105_api_forgery",
    "Verif.Fri.C105_api_constant_unchecked",
    "Verif.Fri.C105_api_paths_partial"
   ],
   "note": "False of the code: C105_api_forgery (any roots, any nonzero constant) and C105_api_constant_unchecked (any roots and any constant) use only values constructible through the public interface. C105_api_paths_partial: what the private fields do protect."
  },
  {
   "property": "C106",
   "status": "partial",
   "theorems": [
    "Verif.Plonk.C106_selectors_skip_dummies",
    "Verif.Plonk.C106_wiring_counts_dummies",
    "Verif.Plonk.C106_rows_right_iff",
    "Verif.Plonk.C106_dummies_last_partial"
   ],
   "note": "False of the code: C106_rows_right_iff characterises exactly when it holds (no dummy gate before another gate); C106_selectors_skip_dummies and C106_wiring_counts_dummies say what compile does for every sequence. C106_dummies_last_partial: rows and wiring are right with dummies at the end."
  },
  {
   "property": "C107",
   "status": "proved",
   "theorems": [
    "Verif.Plonk.C107_fiat_shamir",
    "Verif.Plonk.C107_unsatisfiable"
   ],
   "note": ""
  },
  {
   "property": "C108",
   "status": "partial",
   "theorems": [
    "Verif.Nova.C108_unsatisfiable_accepted",
    "Verif.Nova.C108_distinct_seeds_partial",
    "Verif.Nova.C108_cheating_prover"
   ],
   "note": "False of the code as stated: C108_unsatisfiable_accepted and C108_cheating_prover are the counterexamples (weak Fiat-Shamir). Proved: it holds for runs in which different partial transcripts have different seeds (C108_distinct_seeds_partial)."
  },
  {
   "property": "C109",
   "status": "proved",
   "theorems": [
    "Verif.Fri.C109_fiat_shamir",
    "Verif.Fri.C109_proximity",
    "Verif.Fri.C109_unique_decoding",
    "Verif.Fri.C109_goldilocks",
    "Verif.Fri.C109_goldilocks_unique"
   ],
   "note": ""
  },
  {
   "property": "C110",
   "status": "partial",
   "theorems": [
    "Verif.Plonk.C110_renamed_same_circuit",
    "Verif.Plonk.C110_same_circuit_iff_partial",
    "Verif.Plonk.C110_accepted_for_twin",
    "Verif.Plonk.C110_unsatisfiable_twin",
    "Verif.Plonk.C110_one_sign_partial"
   ],
   "note": "False of the code: the signed operands x and -x are unrelated, so x+1=x has the circuit of x+1=y and its honest proofs are accepted (C110_unsatisfiable_twin; C110_accepted_for_twin for every pair with one circuit). C110_renamed_same_circuit and C110_same_circuit_iff_partial: exactly which texts share a circuit; C110_one_sign_partial: satisfiability carries over if no variable occurs with both signs."
  },
  {
   "property": "C111",
   "status": "proved",
   "theorems": [
    "Verif.Kzg.C111_kzg_larger_setup",
    "Verif.Kzg.C111_kzg_any_setup",
    "Verif.Kzg.C111_kzg_fits",
    "Verif.Nova.C111_nova_larger_setup",
    "Verif.Nova.C111_nova_verify_any_setup",
    "Verif.Nova.C111_nova_fits",
    "Verif.Nova.C111_nova_too_small",
    "Verif.Plonk.C111_plonk_larger_setup",
    "Verif.Plonk.C111_plonk_prover_size",
    "Verif.Plonk.C111_plonk_verifier_size",
    "Verif.Plonk.C111_plonk_verifier_too_small"
   ],
   "note": ""
  },
  {
   "property": "C112",
   "status": "proved",
   "theorems": [
    "Verif.Fri.C112_fri_values",
    "Verif.Fri.C112_fri_reveals",
    "Verif.Kzg.C112_kzg_seen_iff",
    "Verif.Kzg.C112_kzg_hidden",
    "Verif.Kzg.C112_kzg_determined",
    "Verif.Kzg.C112_kzg_guess",
    "Verif.Nova.C112_nova_seen_iff",
    "Verif.Nova.C112_nova_guess"
   ],
   "note": ""
  },
  {
   "property": "C113",
   "status": "partial",
   "theorems": [
    "Verif.Plonk.C113_prover_gates",
    "Verif.Plonk.C113_verifier_size",
    "Verif.Plonk.C113_linear_partial",
    "Verif.Plonk.C113_bound_partial",
    "Verif.Plonk.C113_powers",
    "Verif.Plonk.C113_short_texts_large_circuits"
   ],
   "note": "The property is false of the code: powers are written out (C113_short_texts_large_circuits, C113_powers: m powers with exponent k give exactly m*k gates from at most 13m+1 characters). Proved: the exact number of gates (C113_prover_gates, C113_verifier_size, which also say exactly when compiling succeeds), C113_linear_partial (texts without powers) and C113_bound_partial (2^33 gates per character for every text)."
  },
  {
   "property": "C114",
   "status": "proved",
   "theorems": [
    "Verif.Kzg.C114_aggregate_complete",
    "Verif.Kzg.C114_aggregate_extract",
    "Verif.Kzg.C114_aggregate_few_challenges",
    "Verif.Kzg.C114_aggregate_tight",
    "Verif.Kzg.C114_aggregate_tight_accepted"
   ],
   "note": ""
  },
  {
   "property": "C115",
   "status": "partial",
   "theorems": [
    "Verif.Kzg.C115_predictable_coefficients",
    "Verif.Kzg.C115_single_partial",
    "Verif.Kzg.C115_fresh_coefficients_partial"
   ],
   "note": "The property is false of the code: C115_predictable_coefficients. Proved: C115_single_partial (one invalid opening: accepted exactly if its coefficient is zero) and C115_fresh_coefficients_partial (at most one in 2^128 of the coefficient vectors)."
  },
  {
   "property": "C116",
   "status": "partial",
   "theorems": [
    "Verif.Nova.C116_decider_fooled",
    "Verif.Nova.C116_one_state_partial",
    "Verif.Nova.C116_honest_partial"
   ],
   "note": "The property is false of the code: C116_decider_fooled (the R1CS is one without witness for the public input; neither the challenge nor the hash may be zero). Proved: C116_one_state_partial (the fresh instance is bound to the state) and C116_honest_partial (honest satisfied steps pass both checks). For instances whose committed vectors are fixed before the challenge see C70_decider_partial."
  },
  {
   "property": "C117",
   "status": "proved",
   "theorems": [
    "Verif.Fri.C117_fri",
    "Verif.Fri.C117_fri_ok",
    "Verif.Nova.C117_nifs",
    "Verif.Nova.C117_ivc",
    "Verif.Nova.C117_run",
    "Verif.Plonk.C117_plonk"
   ],
   "note": ""
  },
  {
   "property": "C118",
   "status": "partial",
   "theorems": [
    "Verif.Kzg.C118_size_partial",
    "Verif.Kzg.C118_usable_partial",
    "Verif.Kzg.C118_wrong_size",
    "Verif.Kzg.C118_useless_setup"
   ],
   "note": "False of builds without overflow checks for exactly three sizes: C118_wrong_size, C118_useless_setup. Proved: C118_size_partial (all other sizes, and all sizes with checks) and C118_usable_partial (such setups work)."
  },
  {
   "property": "C119",
   "status": "partial",
   "theorems": [
    "Verif.Plonk.C119_compile_partial",
    "Verif.Plonk.C119_cpi_compile_partial",
    "Verif.Plonk.C119_parsed_partial",
    "Verif.Plonk.C119_empty_compiles",
    "Verif.Plonk.C119_cpi_empty_compiles",
    "Verif.Plonk.C119_empty_no_proof"
   ],
   "note": "False of builds without overflow checks for exactly the empty circuit: C119_empty_compiles, C119_cpi_empty_compiles, C119_empty_no_proof. Proved: C119_compile_partial, C119_cpi_compile_partial (at least one gate, or overflow checks) and C119_parsed_partial (whatever the parser returns)."
  },
  {
   "property": "C120",
   "status": "partial",
   "theorems": [
    "Verif.Fri.C120_reads_partial",
    "Verif.Fri.C120_honest_partial",
    "Verif.Fri.C120_memory_partial",
    "Verif.Fri.C120_short_proof_exhausts_memory"
   ],
   "note": "False of the code: C120_short_proof_exhausts_memory. Proved: C120_memory_partial (number_of_queries fits into memory), C120_reads_partial (every proof), C120_honest_partial (exact length and bounds for proofs of generate_proof)."
  },
  {
   "property": "C121",
   "status": "partial",
   "theorems": [
    "Verif.VerifierKey.C121_kzg_partial",
    "Verif.VerifierKey.C121_nova_partial",
    "Verif.VerifierKey.C121_plonk_key_only_panics",
    "Verif.VerifierKey.C121_plonk_needs_setup",
    "Verif.VerifierKey.C121_plonk_key_partial"
   ],
   "note": "False of the PLONK verifier: C121_plonk_key_only_panics, C121_plonk_needs_setup. Proved: C121_kzg_partial, C121_nova_partial, C121_plonk_key_partial."
  },
  {
   "property": "C122",
   "status": "partial",
   "theorems": [
    "Verif.Fri.C122_field_and_hash_too_small",
    "Verif.Fri.C122_half_of_hashes_broken",
    "Verif.Fri.C122_hash_partial",
    "Verif.Fri.C122_no_query_soundness"
   ],
   "note": "False of the code: C122_field_and_hash_too_small, C122_half_of_hashes_broken, C122_no_query_soundness. Proved: C122_hash_partial (the birthday attack cannot be improved for a random leaf hash); the query soundness that does hold, for a fixed number of layers, is C75 and C109."
  },
  {
   "property": "C123",
   "status": "proved",
   "theorems": [
    "Verif.HashCost.C123_plonk",
    "Verif.HashCost.C123_nifs",
    "Verif.HashCost.C123_ivc"
   ],
   "note": ""
  },
  {
   "property": "C124",
   "status": "partial",
   "theorems": [
    "Verif.Fri.C124_positions_partial",
    "Verif.Fri.C124_more_queries_than_points",
    "Verif.Fri.C124_two_queries_repeat",
    "Verif.Fri.C124_uniform_partial"
   ],
   "note": "False of the code: C124_more_queries_than_points, C124_two_queries_repeat. Proved: C124_positions_partial, C124_uniform_partial."
  },
  {
   "property": "C125",
   "status": "proved",
   "theorems": [
    "Verif.Nova.C125_one_witness",
    "Verif.Nova.C125_few_secrets",
    "Verif.Nova.C125_second_iff",
    "Verif.Nova.C125_folded"
   ],
   "note": ""
  }
 ]
}