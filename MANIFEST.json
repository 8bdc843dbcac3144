{
 "claims": [
  {
   "property": "C01",
   "status": "proved",
   "theorems": [
    "Ripp.C01_pairing_inner_product",
    "Ripp.C01_pairing_schedule_independent"
   ],
   "note": ""
  },
  {
   "property": "C02",
   "status": "proved",
   "theorems": [
    "Ripp.C02_multiexponentiation",
    "Ripp.C02_scalar"
   ],
   "note": ""
  },
  {
   "property": "C03",
   "status": "proved",
   "theorems": [
    "Ripp.C03_pairing_error_iff",
    "Ripp.C03_multiexponentiation_error_iff",
    "Ripp.C03_scalar_error_iff"
   ],
   "note": ""
  },
  {
   "property": "C04",
   "status": "proved",
   "theorems": [
    "Ripp.C04_pairing_bilinear",
    "Ripp.C04_multiexponentiation_bilinear",
    "Ripp.C04_scalar_bilinear"
   ],
   "note": ""
  },
  {
   "property": "C05",
   "status": "proved",
   "theorems": [
    "Ripp.C05_pedersen_homomorphic",
    "Ripp.C05_afghoG1_homomorphic",
    "Ripp.C05_afghoG2_homomorphic"
   ],
   "note": ""
  },
  {
   "property": "C06",
   "status": "proved",
   "theorems": [
    "Ripp.C06_verify_iff",
    "Ripp.C06_concrete"
   ],
   "note": ""
  },
  {
   "property": "C07",
   "status": "proved",
   "theorems": [
    "Ripp.C07_gipa_setup",
    "Ripp.C07_gipa_setup_last",
    "Ripp.C07_gipa_setup_instances",
    "Ripp.C07_setup_lengths",
    "Ripp.C07_random_generators_append",
    "Ripp.GipaSsm.C07_setup_last",
    "Ripp.GipaSsm.C07_setup"
   ],
   "note": ""
  },
  {
   "property": "C08",
   "status": "proved",
   "theorems": [
    "Ripp.C08_binding_reduction",
    "Ripp.C08_unique_opening"
   ],
   "note": ""
  },
  {
   "property": "C09",
   "status": "proved",
   "theorems": [
    "Ripp.C09_identity_binding",
    "Ripp.C09_identity_add",
    "Ripp.C09_identity_smul"
   ],
   "note": ""
  },
  {
   "property": "C10",
   "status": "proved",
   "theorems": [
    "Ripp.C10_placeholder"
   ],
   "note": ""
  },
  {
   "property": "C11",
   "status": "proved",
   "theorems": [
    "Ripp.Gipa.C11_complete",
    "Ripp.Gipa.C11_complete_total",
    "Ripp.C11_pairing",
    "Ripp.C11_multiexponentiation",
    "Ripp.C11_scalar"
   ],
   "note": ""
  },
  {
   "property": "C12",
   "status": "proved",
   "theorems": [
    "Ripp.Gipa.C12_prove_only_true"
   ],
   "note": ""
  },
  {
   "property": "C13",
   "status": "proved",
   "theorems": [
    "Ripp.Gipa.C13_wrong_value",
    "Ripp.Gipa.C13_not_power_of_two",
    "Ripp.Gipa.C13_wrong_commitment",
    "Ripp.Gipa.C13_error_passed_on",
    "Ripp.C13_pairing_lengths"
   ],
   "note": ""
  },
  {
   "property": "C14",
   "status": "proved",
   "theorems": [
    "Ripp.Gipa.C14_no_panic",
    "Ripp.Gipa.C14_prove_outcomes"
   ],
   "note": ""
  },
  {
   "property": "C15",
   "status": "proved",
   "theorems": [
    "Ripp.Gipa.C15_rounds"
   ],
   "note": ""
  },
  {
   "property": "C16",
   "status": "proved",
   "theorems": [
    "Ripp.Gipa.C16_same_transcript",
    "Ripp.Gipa.C16_challenges_nonzero"
   ],
   "note": ""
  },
  {
   "property": "C17",
   "status": "proved",
   "theorems": [
    "Ripp.Gipa.C17_final_keys"
   ],
   "note": ""
  },
  {
   "property": "C18",
   "status": "proved",
   "theorems": [
    "Ripp.Gipa.C18_verdict",
    "Ripp.C18_identity_equation"
   ],
   "note": ""
  },
  {
   "property": "C19",
   "status": "proved",
   "theorems": [
    "Ripp.Gipa.C19_key_lengths"
   ],
   "note": ""
  },
  {
   "property": "C20",
   "status": "proved",
   "theorems": [
    "Ripp.Gipa.C20_wrong_rounds_panics"
   ],
   "note": "Documents what the code does: no verdict is ever returned for a wrong round count."
  },
  {
   "property": "C21",
   "status": "proved",
   "theorems": [
    "Ripp.Gipa.C21_statement_free"
   ],
   "note": ""
  },
  {
   "property": "C22",
   "status": "proved",
   "theorems": [
    "Ripp.Gipa.C22_forgery",
    "Ripp.C22_false_statement_accepted"
   ],
   "note": "The expected soundness statement is refuted: C22_false_statement_accepted exhibits an accepted statement that no opening of the (perfectly binding) commitments satisfies."
  },
  {
   "property": "C23",
   "status": "proved",
   "theorems": [
    "Ripp.Gipa.C23_hash_input_injective"
   ],
   "note": ""
  },
  {
   "property": "C24",
   "status": "proved",
   "theorems": [
    "Ripp.C24_setup",
    "Ripp.C24_setup_last",
    "Ripp.C24_setup_zero",
    "Ripp.C24_structured_generators"
   ],
   "note": ""
  },
  {
   "property": "C25",
   "status": "proved",
   "theorems": [
    "Ripp.C25_keys"
   ],
   "note": ""
  },
  {
   "property": "C26",
   "status": "proved",
   "theorems": [
    "Ripp.C26_key_polynomial"
   ],
   "note": ""
  },
  {
   "property": "C27",
   "status": "proved",
   "theorems": [
    "Ripp.C27_opening_complete_G2",
    "Ripp.C27_opening_complete_G1"
   ],
   "note": ""
  },
  {
   "property": "C28",
   "status": "proved",
   "theorems": [
    "Ripp.C28_check_G2",
    "Ripp.C28_check_G1"
   ],
   "note": ""
  },
  {
   "property": "C29",
   "status": "proved",
   "theorems": [
    "Ripp.Tipa.C29_complete_shift",
    "Ripp.Tipa.C29_complete",
    "Ripp.Tipa.C29_complete_total",
    "Ripp.C29_instances"
   ],
   "note": ""
  },
  {
   "property": "C30",
   "status": "proved",
   "theorems": [
    "Ripp.TipaSsm.C30_prove_length_one",
    "Ripp.TipaSsm.C30_verify_zero_rounds",
    "Ripp.Tipa.C30_prove_length_one",
    "Ripp.Tipa.C30_verify_zero_rounds"
   ],
   "note": ""
  },
  {
   "property": "C31",
   "status": "proved",
   "theorems": [
    "Ripp.Tipa.C31_accepts_iff",
    "Ripp.Tipa.C31_same_verdict"
   ],
   "note": ""
  },
  {
   "property": "C32",
   "status": "proved",
   "theorems": [
    "Ripp.C32_powers",
    "Ripp.C32_zero"
   ],
   "note": ""
  },
  {
   "property": "C33",
   "status": "proved",
   "theorems": [
    "Ripp.GipaSsm.C33_complete",
    "Ripp.GipaSsm.C33_complete_total",
    "Ripp.GipaSsm.C33_verdict"
   ],
   "note": ""
  },
  {
   "property": "C34",
   "status": "proved",
   "theorems": [
    "Ripp.TipaSsm.C34_complete",
    "Ripp.TipaSsm.C34_complete_total",
    "Ripp.TipaSsm.C34_verdict"
   ],
   "note": ""
  },
  {
   "property": "C35",
   "status": "proved",
   "theorems": [
    "Ripp.C35_final_scalar",
    "Ripp.C35_zero_challenge"
   ],
   "note": ""
  },
  {
   "property": "C36",
   "status": "proved",
   "theorems": [
    "Ripp.GipaSsm.C36_challenges_independent",
    "Ripp.TipaSsm.C36_base_not_bound",
    "Ripp.TipaSsm.C36_malleable"
   ],
   "note": ""
  },
  {
   "property": "C37",
   "status": "proved",
   "theorems": [
    "Ripp.Kzg.C37_setup",
    "Ripp.Kzg.C37_complete"
   ],
   "note": ""
  },
  {
   "property": "C38",
   "status": "proved",
   "theorems": [
    "Ripp.Kzg.C38_double_opening",
    "Ripp.Kzg.C38_verdict"
   ],
   "note": ""
  },
  {
   "property": "C39",
   "status": "proved",
   "theorems": [
    "Ripp.Kzg.C39_commit",
    "Ripp.Kzg.C39_open",
    "Ripp.Kzg.C39_not_normalised"
   ],
   "note": ""
  },
  {
   "property": "C40",
   "status": "proved",
   "theorems": [
    "Ripp.C40_evaluate",
    "Ripp.C40_evaluate_sum"
   ],
   "note": ""
  },
  {
   "property": "C41",
   "status": "proved",
   "theorems": [
    "Ripp.Bivariate.C41_setup",
    "Ripp.Bivariate.C41_complete",
    "Ripp.Bivariate.C41_complete_total",
    "Ripp.Bivariate.C41_end_to_end"
   ],
   "note": ""
  },
  {
   "property": "C42",
   "status": "proved",
   "theorems": [
    "Ripp.Bivariate.C42_commit_ok",
    "Ripp.Bivariate.C42_open_not_pow2",
    "Ripp.Bivariate.C42_open_zero"
   ],
   "note": ""
  },
  {
   "property": "C43",
   "status": "proved",
   "theorems": [
    "Ripp.C43_degrees",
    "Ripp.C43_degrees_transparent",
    "Ripp.C43_zero",
    "Ripp.C43_precision_limit"
   ],
   "note": ""
  },
  {
   "property": "C44",
   "status": "proved",
   "theorems": [
    "Ripp.C44_form"
   ],
   "note": ""
  },
  {
   "property": "C45",
   "status": "proved",
   "theorems": [
    "Ripp.Univariate.C45_complete",
    "Ripp.Univariate.C45_complete_total",
    "Ripp.Univariate.C45_setup_zero"
   ],
   "note": ""
  },
  {
   "property": "C46",
   "status": "proved",
   "theorems": [
    "Ripp.TUnivariate.C46_truncates",
    "Ripp.C46_form_truncates",
    "Ripp.Univariate.C46_truncates",
    "Ripp.Univariate.C46_oversized_accepted",
    "Ripp.Univariate.C46_collision"
   ],
   "note": "The expected rejection is refuted: commit and open truncate silently."
  },
  {
   "property": "C47",
   "status": "proved",
   "theorems": [
    "Ripp.TBivariate.C47_setup",
    "Ripp.TBivariate.C47_complete",
    "Ripp.TBivariate.C47_complete_total",
    "Ripp.TBivariate.C47_open_not_pow2",
    "Ripp.TUnivariate.C47_complete",
    "Ripp.TUnivariate.C47_complete_total",
    "Ripp.TUnivariate.C47_setup_zero"
   ],
   "note": ""
  },
  {
   "property": "C48",
   "status": "proved",
   "theorems": [
    "Ripp.TBivariate.C48_forgery",
    "Ripp.TUnivariate.C48_forgery",
    "Ripp.Bivariate.C48_forgery",
    "Ripp.Bivariate.C48_binding_false",
    "Ripp.Bivariate.C48_kzg_part_partial",
    "Ripp.Univariate.C48_forgery"
   ],
   "note": "The expected binding is refuted: C48_forgery builds an accepted opening for a wrong value. C48_kzg_part_partial is the part that does hold; C79 completes it for challenges that are not derived by the code's hashing."
  },
  {
   "property": "C49",
   "status": "proved",
   "theorems": [
    "Ripp.Groth16.C49_complete",
    "Ripp.Groth16.C49_complete_total",
    "Ripp.Groth16.C49_values"
   ],
   "note": ""
  },
  {
   "property": "C50",
   "status": "proved",
   "theorems": [
    "Ripp.Groth16.C50_few_bad_challenges",
    "Ripp.Groth16.C50_valid_passes"
   ],
   "note": ""
  },
  {
   "property": "C51",
   "status": "proved",
   "theorems": [
    "Ripp.Groth16.C51_aggregate_zero",
    "Ripp.Groth16.C51_verify_one",
    "Ripp.Groth16.C51_verify_no_inputs",
    "Ripp.Groth16.C51_verify_key_size"
   ],
   "note": ""
  },
  {
   "property": "C52",
   "status": "proved",
   "theorems": [
    "Ripp.Groth16.C52_depends_on_column_sums",
    "Ripp.Groth16.C52_rebind",
    "Ripp.Groth16.C52_not_bound"
   ],
   "note": "The expected binding is refuted for every accepted aggregate proof."
  },
  {
   "property": "C53",
   "status": "proved",
   "theorems": [
    "Ripp.Groth16.C53_short_row",
    "Ripp.Groth16.C53_extra_ignored"
   ],
   "note": "Documents what the code does: extra values in later rows are ignored."
  },
  {
   "property": "C54",
   "status": "proved",
   "theorems": [
    "Ripp.Sipp.C54_with_coeffs",
    "Ripp.Sipp.C54_plain",
    "Ripp.Sipp.C54_coeffs_scale"
   ],
   "note": ""
  },
  {
   "property": "C55",
   "status": "proved",
   "theorems": [
    "Ripp.Sipp.C55_honest",
    "Ripp.Sipp.C55_complete",
    "Ripp.Sipp.C55_complete_total",
    "Ripp.Sipp.C55_wrong_value"
   ],
   "note": ""
  },
  {
   "property": "C56",
   "status": "proved",
   "theorems": [
    "Ripp.Sipp.C56_length_one"
   ],
   "note": "Documents a defect: verify panics for length 1 although prove succeeds."
  },
  {
   "property": "C57",
   "status": "proved",
   "theorems": [
    "Ripp.Sipp.C57_verify",
    "Ripp.Sipp.C57_challenges"
   ],
   "note": ""
  },
  {
   "property": "C58",
   "status": "proved",
   "theorems": [
    "Ripp.Sipp.C58_soundness",
    "Ripp.Sipp.C58_fraction"
   ],
   "note": ""
  },
  {
   "property": "C59",
   "status": "proved",
   "theorems": [
    "Ripp.Sipp.C59_seed",
    "Ripp.Sipp.C59_absorb",
    "Ripp.Sipp.C59_transcript"
   ],
   "note": ""
  },
  {
   "property": "C60",
   "status": "proved",
   "theorems": [
    "Ripp.Sipp.C60_state",
    "Ripp.Sipp.C60_history",
    "Ripp.Sipp.C60_draw_keeps_seed"
   ],
   "note": ""
  },
  {
   "property": "C61",
   "status": "proved",
   "theorems": [
    "Ripp.Sipp.C61_not_power_of_two",
    "Ripp.Sipp.C61_too_short",
    "Ripp.Sipp.C61_vector_lengths",
    "Ripp.Sipp.C61_proof_length",
    "Ripp.Sipp.C61_short_coeffs",
    "Ripp.Sipp.C61_surplus_coeffs",
    "Ripp.Sipp.C61_prover_lengths"
   ],
   "note": ""
  },
  {
   "property": "C62",
   "status": "proved",
   "theorems": [
    "Ripp.C62_trailing_junk"
   ],
   "note": "The expected rejection is refuted: trailing entries are accepted."
  },
  {
   "property": "C63",
   "status": "proved",
   "theorems": [
    "Ripp.GipaSsm.C63_forgery",
    "Ripp.TipaSsm.C63_forgery",
    "Ripp.Tipa.C63_forgery"
   ],
   "note": "The expected soundness is refuted for TIPA and the structured-message arguments."
  },
  {
   "property": "C64",
   "status": "proved",
   "theorems": [
    "Ripp.Groth16.C64_wrong_size",
    "Ripp.Groth16.C64_single",
    "Ripp.Groth16.C64_not_power_of_two"
   ],
   "note": ""
  },
  {
   "property": "C65",
   "status": "proved",
   "theorems": [
    "Ripp.Groth16.C65_padding"
   ],
   "note": "The expected agreement of counts is refuted."
  },
  {
   "property": "C66",
   "status": "proved",
   "theorems": [
    "Ripp.Sipp.C66_mismatched",
    "Ripp.Sipp.C66_cfg_multi_pairing",
    "Ripp.Sipp.C66_depends_on_threads"
   ],
   "note": "Documents a defect: the outcome for vectors of different lengths depends on the number of threads."
  },
  {
   "property": "C67",
   "status": "proved",
   "theorems": [
    "Ripp.Extract.C67_extract",
    "Ripp.Extract.C67_verify_iff",
    "Ripp.Extract.C67_pairing"
   ],
   "note": ""
  },
  {
   "property": "C68",
   "status": "proved",
   "theorems": [
    "Ripp.Extract.C68_knowledge",
    "Ripp.Extract.C68_soundness"
   ],
   "note": ""
  },
  {
   "property": "C69",
   "status": "proved",
   "theorems": [
    "Ripp.Gipa.C69_gipa",
    "Ripp.Gipa.C69_gipa_diverges",
    "Ripp.Gipa.C69_gipa_short_digest",
    "Ripp.Gipa.C69_transcript",
    "Ripp.C69_kzg",
    "Ripp.C69_kzg_ssm",
    "Ripp.C69_kzg_no_rounds",
    "Ripp.C69_groth16"
   ],
   "note": ""
  },
  {
   "property": "C70",
   "status": "proved",
   "theorems": [
    "Ripp.C70_true_key",
    "Ripp.C70_check_G2",
    "Ripp.C70_check_G1",
    "Ripp.C70_zero_polynomial",
    "Ripp.C70_trapdoors",
    "Ripp.C70_points",
    "Ripp.Tipa.C70_tipa"
   ],
   "note": ""
  },
  {
   "property": "C71",
   "status": "proved",
   "theorems": [
    "Ripp.SsmExtract.C71_extract",
    "Ripp.SsmExtract.C71_knowledge",
    "Ripp.SsmExtract.C71_soundness",
    "Ripp.SsmExtract.C71_gipa_run",
    "Ripp.SsmExtract.C71_tipa_run"
   ],
   "note": ""
  },
  {
   "property": "C72",
   "status": "proved",
   "theorems": [
    "Ripp.Sipp.C72_sipp_random_oracle"
   ],
   "note": "Uniformly random digest function; queries restricted to a finite set of inputs."
  },
  {
   "property": "C73",
   "status": "proved",
   "theorems": [
    "Ripp.Gipa.C73_not_power_of_two",
    "Ripp.Gipa.C73_too_short",
    "Ripp.Gipa.C73_length_one",
    "Ripp.Gipa.C73_unequal",
    "Ripp.C73_pairing",
    "Ripp.C73_multiexponentiation",
    "Ripp.C73_scalar",
    "Ripp.Sipp.C73_sipp_short_coefficients",
    "Ripp.Sipp.C73_sipp_missing_coefficient"
   ],
   "note": "Documents what the code does for mismatched lengths; the SIPP prover can produce a rejected proof without an error."
  },
  {
   "property": "C74",
   "status": "proved",
   "theorems": [
    "Ripp.Groth16.C74_setup",
    "Ripp.Groth16.C74_setup_zero",
    "Ripp.Groth16.C74_end_to_end",
    "Ripp.Groth16.C74_wrong_batch"
   ],
   "note": ""
  },
  {
   "property": "C75",
   "status": "proved",
   "theorems": [
    "Ripp.Groth16.C75_extract",
    "Ripp.Groth16.C75_knowledge",
    "Ripp.Groth16.C75_soundness",
    "Ripp.Groth16.C75_verify_run"
   ],
   "note": ""
  },
  {
   "property": "C76",
   "status": "proved",
   "theorems": [
    "Ripp.C76_degrees",
    "Ripp.C76_degrees_transparent",
    "Ripp.C76_overflow",
    "Ripp.Univariate.C76_complete",
    "Ripp.Univariate.C76_collision",
    "Ripp.TUnivariate.C76_complete",
    "Ripp.TUnivariate.C76_collision"
   ],
   "note": "Includes a finding: degrees from 2^52 on for which the capacity is too small."
  },
  {
   "property": "C77",
   "status": "proved",
   "theorems": [
    "Ripp.Bivariate.C77_commit",
    "Ripp.Bivariate.C77_open_rows",
    "Ripp.Bivariate.C77_open_truncates",
    "Ripp.TBivariate.C77_commit",
    "Ripp.TBivariate.C77_open_rows",
    "Ripp.TBivariate.C77_open_truncates"
   ],
   "note": "Includes a finding: open ignores coefficients beyond the key."
  },
  {
   "property": "C78",
   "status": "proved",
   "theorems": [
    "Ripp.TBivariate.C78_both",
    "Ripp.TBivariate.C78_verdict",
    "Ripp.TBivariate.C78_run",
    "Ripp.Bivariate.C78_both",
    "Ripp.TUnivariate.C78_point"
   ],
   "note": ""
  },
  {
   "property": "C79",
   "status": "proved",
   "theorems": [
    "Ripp.TBivariate.C79_binding",
    "Ripp.TBivariate.C79_committed",
    "Ripp.TBivariate.C79_runs",
    "Ripp.TBivariate.C79_soundness",
    "Ripp.Bivariate.C79_binding",
    "Ripp.Bivariate.C79_committed"
   ],
   "note": "About the interactive schemes; for the hash-derived challenges of the code C48 shows the opposite."
  },
  {
   "property": "C80",
   "status": "proved",
   "theorems": [
    "Ripp.TBivariate.C80_extract",
    "Ripp.TBivariate.C80_value",
    "Ripp.TUnivariate.C80_flatten"
   ],
   "note": "About the interactive scheme, as C79."
  },
  {
   "property": "C81",
   "status": "proved",
   "theorems": [
    "Ripp.Kzg.C81_algebraic"
   ],
   "note": "Algebraic provers whose coefficients do not depend on the trapdoor."
  },
  {
   "property": "C82",
   "status": "proved",
   "theorems": [
    "Ripp.C82_same_degrees",
    "Ripp.Univariate.C82_same_scheme",
    "Ripp.Univariate.C82_not_enforced",
    "Ripp.TUnivariate.C82_same_scheme",
    "Ripp.TUnivariate.C82_not_enforced"
   ],
   "note": "Finding: the degree bound is rounded up to a power of four and not enforced."
  },
  {
   "property": "C83",
   "status": "proved",
   "theorems": [
    "Ripp.Bivariate.C83_extract",
    "Ripp.Bivariate.C83_commit",
    "Ripp.Bivariate.C83_trapdoors"
   ],
   "note": "Algebraic provers; explicit exceptional polynomials, counted."
  },
  {
   "property": "C84",
   "status": "proved",
   "theorems": [
    "Ripp.GipaStatic.C84_static",
    "Ripp.GipaStatic.C84_binding"
   ],
   "note": ""
  },
  {
   "property": "C85",
   "status": "proved",
   "theorems": [
    "Ripp.Codec.C85_gipa",
    "Ripp.Codec.C85_tipa",
    "Ripp.Codec.C85_ssm",
    "Ripp.Codec.C85_gipa_size",
    "Ripp.Codec.C85_tipa_size",
    "Ripp.Codec.C85_ssm_size",
    "Ripp.C85_tipp"
   ],
   "note": ""
  },
  {
   "property": "C86",
   "status": "proved",
   "theorems": [
    "Ripp.Tipa.C86_keys",
    "Ripp.Tipa.C86_length_not_bound"
   ],
   "note": "Documents what the code does: the number of entries is not part of the statement."
  },
  {
   "property": "C87",
   "status": "proved",
   "theorems": [
    "Ripp.SsmStatic.C87_static",
    "Ripp.SsmStatic.C87_binding"
   ],
   "note": ""
  },
  {
   "property": "C88",
   "status": "proved",
   "theorems": [
    "Ripp.Batch.C88_verdict",
    "Ripp.Batch.C88_combination",
    "Ripp.Batch.C88_complete"
   ],
   "note": ""
  },
  {
   "property": "C89",
   "status": "proved",
   "theorems": [
    "Ripp.Batch.C89_forgery"
   ],
   "note": ""
  },
  {
   "property": "C90",
   "status": "proved",
   "theorems": [
    "Ripp.Batch.C90_random"
   ],
   "note": ""
  },
  {
   "property": "C91",
   "status": "proved",
   "theorems": [
    "Ripp.Batch.C91_extra_rows",
    "Ripp.Batch.C91_missing_row",
    "Ripp.Batch.C91_rows",
    "Ripp.Batch.C91_empty",
    "Ripp.Batch.C91_empty_key"
   ],
   "note": ""
  },
  {
   "property": "C92",
   "status": "proved",
   "theorems": [
    "Ripp.TipaStatic.C92_static"
   ],
   "note": ""
  },
  {
   "property": "C93",
   "status": "proved",
   "theorems": [
    "Ripp.TipaSsmStatic.C93_static"
   ],
   "note": ""
  },
  {
   "property": "C94",
   "status": "proved",
   "theorems": [
    "Ripp.Bench.C94_all",
    "Ripp.Bench.C94_monolithic",
    "Ripp.Bench.C94_violated",
    "Ripp.Bench.C94_defaults",
    "Ripp.Bench.C94_help",
    "Ripp.Bench.C94_one_argument",
    "Ripp.Bench.C94_scaling_help",
    "Ripp.Bench.C94_scaling"
   ],
   "note": "The expected effect of the fifth argument is refuted by C94_monolithic and C94_violated; C94_one_argument and C94_scaling_help show the panics."
  },
  {
   "property": "C95",
   "status": "proved",
   "theorems": [
    "Ripp.Bench.C95_step",
    "Ripp.Bench.C95_loop",
    "Ripp.Bench.C95_run",
    "Ripp.Bench.C95_zero",
    "Ripp.Bench.C95_iterations",
    "Ripp.Bench.C95_table"
   ],
   "note": ""
  },
  {
   "property": "C96",
   "status": "proved",
   "theorems": [
    "Ripp.Bench.C96_recursion",
    "Ripp.Bench.C96_hash_elements",
    "Ripp.Bench.C96_hash_injective",
    "Ripp.Bench.C96_input_size",
    "Ripp.Bench.C96_input_injective",
    "Ripp.Bench.C96_relation",
    "Ripp.Bench.C96_wrong_number",
    "Ripp.Bench.C96_many",
    "Ripp.Bench.C96_test_circuit"
   ],
   "note": ""
  },
  {
   "property": "C97",
   "status": "proved",
   "theorems": [
    "Ripp.Bench.C97_degree",
    "Ripp.Bench.C97_exact",
    "Ripp.Bench.C97_kzg",
    "Ripp.Bench.C97_ipa",
    "Ripp.Bench.C97_transparent"
   ],
   "note": ""
  },
  {
   "property": "C98",
   "status": "proved",
   "theorems": [
    "Ripp.Bench.C98_part",
    "Ripp.Bench.C98_run",
    "Ripp.Bench.C98_sizes"
   ],
   "note": ""
  },
  {
   "property": "C99",
   "status": "proved",
   "theorems": [
    "Ripp.Sipp.C99_sipp_complete_oracle"
   ],
   "note": ""
  },
  {
   "property": "C100",
   "status": "proved",
   "theorems": [
    "Ripp.TUnivariate.C100_empty_key",
    "Ripp.TUnivariate.C100_empty_key_verify",
    "Ripp.Univariate.C100_empty_key"
   ],
   "note": ""
  },
  {
   "property": "C101",
   "status": "proved",
   "theorems": [
    "Ripp.C101_gipa",
    "Ripp.C101_tipa",
    "Ripp.C101_tipa_ssm",
    "Ripp.C101_poly_commit",
    "Ripp.C101_transparent",
    "Ripp.C101_groth16"
   ],
   "note": ""
  },
  {
   "property": "C102",
   "status": "proved",
   "theorems": [
    "Ripp.Univariate.C102_commit_value",
    "Ripp.TUnivariate.C102_commit_value"
   ],
   "note": ""
  },
  {
   "property": "C103",
   "status": "proved",
   "theorems": [
    "Ripp.PolyStatic.C103_static",
    "Ripp.PolyStatic.C103_binding",
    "Ripp.PolyStatic.C103_univariate"
   ],
   "note": "Complements C48: the forgery there chooses the value after the challenges."
  },
  {
   "property": "C104",
   "status": "proved",
   "theorems": [
    "Ripp.C104_random_generators",
    "Ripp.C104_commitments",
    "Ripp.C104_gipa",
    "Ripp.C104_kzg",
    "Ripp.C104_tipa",
    "Ripp.C104_bivariate",
    "Ripp.C104_transparent",
    "Ripp.C104_tape"
   ],
   "note": ""
  },
  {
   "property": "C105",
   "status": "proved",
   "theorems": [
    "Ripp.C105_commitments",
    "Ripp.C105_gipa",
    "Ripp.C105_tipa",
    "Ripp.C105_shift",
    "Ripp.C105_ssm",
    "Ripp.C105_polynomials",
    "Ripp.C105_sipp"
   ],
   "note": ""
  },
  {
   "property": "C106",
   "status": "proved",
   "theorems": [
    "Ripp.C106_verdict_ignored",
    "Ripp.C106_inner_products",
    "Ripp.C106_gipa",
    "Ripp.C106_tipa",
    "Ripp.C106_shift",
    "Ripp.C106_ssm",
    "Ripp.C106_tipa_main"
   ],
   "note": "C106_verdict_ignored is the violation: the benches discard the verifier's answer."
  },
  {
   "property": "C107",
   "status": "proved",
   "theorems": [
    "Ripp.PcStatic.C107_static",
    "Ripp.PcStatic.C107_univariate"
   ],
   "note": ""
  },
  {
   "property": "C108",
   "status": "proved",
   "theorems": [
    "Ripp.AggStatic.C108_static"
   ],
   "note": ""
  },
  {
   "property": "C109",
   "status": "proved",
   "theorems": [
    "Ripp.GipaStatic.C109_knowledge",
    "Ripp.GipaStatic.C109_soundness"
   ],
   "note": ""
  },
  {
   "property": "C110",
   "status": "proved",
   "theorems": [
    "Ripp.SsmStatic.C110_knowledge",
    "Ripp.SsmStatic.C110_soundness"
   ],
   "note": ""
  },
  {
   "property": "C111",
   "status": "proved",
   "theorems": [
    "Ripp.PolyStatic.C111_knowledge",
    "Ripp.PolyStatic.C111_soundness",
    "Ripp.PolyStatic.C111_binding",
    "Ripp.PolyStatic.C111_committed",
    "Ripp.PolyStatic.C111_univariate",
    "Ripp.PolyStatic.C111_polynomial"
   ],
   "note": ""
  },
  {
   "property": "C112",
   "status": "proved",
   "theorems": [
    "Ripp.Kzg.C112_kzg",
    "Ripp.Kzg.C112_kzg_trapdoor",
    "Ripp.Bivariate.C112_bivariate",
    "Ripp.Tipa.C112_key_G2",
    "Ripp.Tipa.C112_key_G1",
    "Ripp.Tipa.C112_tipa"
   ],
   "note": ""
  },
  {
   "property": "C113",
   "status": "proved",
   "theorems": [
    "Ripp.Gipa.C113_gipa_value",
    "Ripp.Gipa.C113_gipa",
    "Ripp.Gipa.C113_gipa_early",
    "Ripp.Gipa.C113_gipa_attack",
    "Ripp.Tipa.C113_tipa_value",
    "Ripp.Tipa.C113_tipa",
    "Ripp.GipaSsm.C113_gipa_ssm_value",
    "Ripp.GipaSsm.C113_gipa_ssm",
    "Ripp.TipaSsm.C113_tipa_ssm_value",
    "Ripp.TipaSsm.C113_tipa_ssm",
    "Ripp.C113_bivariate_value",
    "Ripp.C113_bivariate",
    "Ripp.C113_transparent_value",
    "Ripp.C113_transparent",
    "Ripp.C113_aggregate_value",
    "Ripp.C113_aggregate",
    "Ripp.Sipp.C113_sipp_value",
    "Ripp.Sipp.C113_sipp"
   ],
   "note": ""
  },
  {
   "property": "C114",
   "status": "proved",
   "theorems": [
    "Ripp.TipaStatic.C114_knowledge"
   ],
   "note": ""
  },
  {
   "property": "C115",
   "status": "proved",
   "theorems": [
    "Ripp.TipaSsmStatic.C115_knowledge",
    "Ripp.TipaSsmStatic.C115_soundness"
   ],
   "note": ""
  },
  {
   "property": "C116",
   "status": "proved",
   "theorems": [
    "Ripp.PcStatic.C116_knowledge",
    "Ripp.PcStatic.C116_binding",
    "Ripp.PcStatic.C116_committed",
    "Ripp.PcStatic.C116_univariate"
   ],
   "note": ""
  },
  {
   "property": "C117",
   "status": "proved",
   "theorems": [
    "Ripp.AggStatic.C117_knowledge"
   ],
   "note": ""
  },
  {
   "property": "C118",
   "status": "proved",
   "theorems": [
    "Ripp.KeyBinding.C118_left",
    "Ripp.KeyBinding.C118_right",
    "Ripp.KeyBinding.C118_trapdoors",
    "Ripp.KeyBinding.C118_scalars",
    "Ripp.KeyBinding.C118_consecutive_powers"
   ],
   "note": ""
  },
  {
   "property": "C119",
   "status": "proved",
   "theorems": [
    "Ripp.Sipp.C119_unique",
    "Ripp.Sipp.C119_two_proofs"
   ],
   "note": ""
  },
  {
   "property": "C120",
   "status": "proved",
   "theorems": [
    "Ripp.Gipa.C120_gipa_value",
    "Ripp.Gipa.C120_gipa",
    "Ripp.Tipa.C120_tipa_value",
    "Ripp.Tipa.C120_tipa",
    "Ripp.GipaSsm.C120_gipa_ssm_value",
    "Ripp.GipaSsm.C120_gipa_ssm",
    "Ripp.TipaSsm.C120_tipa_ssm_value",
    "Ripp.TipaSsm.C120_tipa_ssm",
    "Ripp.C120_bivariate_value",
    "Ripp.C120_bivariate_commit",
    "Ripp.C120_bivariate_open",
    "Ripp.C120_transparent_commit",
    "Ripp.C120_transparent_open",
    "Ripp.C120_aggregate_value",
    "Ripp.C120_aggregate",
    "Ripp.Sipp.C120_sipp_value",
    "Ripp.Sipp.C120_sipp",
    "Ripp.Sipp.C120_sipp_ones"
   ],
   "note": "SIPP's prover multiplies every point by one before each cross product (`product_of_pairings`, `sipp/src/lib.rs:221-224`): `2n-2` of its `5n-4` scalar multiplications (`C120_sipp_ones`). `polynomial_coefficients_from_transcript` recomputes the product of the challenge and the power of `r` for every coefficient (`ip_proofs/src/tipa/mod.rs:411-413`)."
  },
  {
   "property": "C121",
   "status": "proved",
   "theorems": [
    "Ripp.Gipa.C121_gipa",
    "Ripp.Tipa.C121_tipa",
    "Ripp.GipaSsm.C121_gipa_ssm",
    "Ripp.TipaSsm.C121_tipa_ssm",
    "Ripp.Kzg.C121_kzg",
    "Ripp.Bivariate.C121_bivariate",
    "Ripp.Univariate.C121_univariate",
    "Ripp.TBivariate.C121_transparent",
    "Ripp.TUnivariate.C121_transparent",
    "Ripp.Groth16.C121_aggregate",
    "Ripp.Batch.C121_batch",
    "Ripp.Sipp.C121_sipp"
   ],
   "note": ""
  },
  {
   "property": "C122",
   "status": "proved",
   "theorems": [
    "Ripp.Kzg.C122_kzg_commit",
    "Ripp.Kzg.C122_kzg_open",
    "Ripp.Kzg.C122_kzg_verify",
    "Ripp.Kzg.C122_kzg_unique",
    "Ripp.Univariate.C122_commit",
    "Ripp.TUnivariate.C122_commit",
    "Ripp.Bivariate.C122_commit",
    "Ripp.TBivariate.C122_commit"
   ],
   "note": ""
  },
  {
   "property": "C123",
   "status": "proved",
   "theorems": [
    "Ripp.Tipa.C123_tipa",
    "Ripp.TipaSsm.C123_tipa_ssm",
    "Ripp.Bivariate.C123_bivariate",
    "Ripp.Bivariate.C123_bivariate_free",
    "Ripp.Groth16.C123_aggregate",
    "Ripp.Groth16.C123_aggregate_free",
    "Ripp.Gipa.C123_gipa",
    "Ripp.GipaSsm.C123_gipa_ssm",
    "Ripp.TBivariate.C123_transparent"
   ],
   "note": "Finding: aggregate proofs and openings of the polynomial commitments with reference string are malleable by anybody, because `r_base.1` of the structured-message argument is serialized but never read by its verifier."
  },
  {
   "property": "C124",
   "status": "proved",
   "theorems": [
    "Ripp.C124_final_scalar",
    "Ripp.C124_scalar",
    "Ripp.C124_pairing",
    "Ripp.C124_instances",
    "Ripp.C124_gipa_ssm",
    "Ripp.C124_tipa_ssm",
    "Ripp.C124_polynomials",
    "Ripp.C124_transparent",
    "Ripp.C124_groth16",
    "Ripp.Sipp.C124_prove",
    "Ripp.Sipp.C124_verify",
    "Ripp.Sipp.C124_one_thread",
    "Ripp.Sipp.C124_two_threads"
   ],
   "note": "Finding: with a missing coefficient the outcome of SIPP's prover depends on the machine (C124, extends C66 and C73)."
  },
  {
   "property": "C125",
   "status": "proved",
   "theorems": [
    "Ripp.GipaStatic.C125_unique",
    "Ripp.GipaStatic.C125_binding",
    "Ripp.GipaStatic.C125_two_provers",
    "Ripp.GipaStatic.C125_example"
   ],
   "note": ""
  },
  {
   "property": "C126",
   "status": "proved",
   "theorems": [
    "Ripp.TipaStatic.C126_unique",
    "Ripp.TipaStatic.C126_example"
   ],
   "note": ""
  },
  {
   "property": "C127",
   "status": "proved",
   "theorems": [
    "Ripp.Gipa.C127_gipa",
    "Ripp.Gipa.C127_prove",
    "Ripp.Tipa.C127_tipa",
    "Ripp.GipaSsm.C127_gipa_ssm",
    "Ripp.TipaSsm.C127_tipa_ssm",
    "Ripp.Bivariate.C127_bivariate",
    "Ripp.Univariate.C127_univariate",
    "Ripp.TBivariate.C127_transparent",
    "Ripp.TUnivariate.C127_transparent_univariate",
    "Ripp.Groth16.C127_aggregate",
    "Ripp.C127_example"
   ],
   "note": "The aggregator panics for a single proof (`unwrap` of an empty transcript), for a number of proofs that is not a power of two and for a reference string with one power of β too many, although its signature returns a `Result`; without proofs it returns the error `MessageLengthInvalid(0, 1)`. `GIPA::prove` and `prove_with_aux` differ here: the former reports the length as an error value, the latter panics."
  },
  {
   "property": "C128",
   "status": "proved",
   "theorems": [
    "Ripp.Gipa.C128_zero",
    "Ripp.TipaSsm.C128_tagged",
    "Ripp.TipaSsm.C128_accepted",
    "Ripp.TipaSsm.C128_free",
    "Ripp.TipaSsm.C128_family",
    "Ripp.Bivariate.C128_bivariate",
    "Ripp.Groth16.C128_aggregate"
   ],
   "note": "Proofs of TIPAWithSSM, bivariate polynomial openings and aggregate proofs are malleable by anyone who knows the witness, and a prover can choose among |F|^(2k+3) transcripts for the same statement without spending any effort on the messages. This costs soundness only what grinding costs (the random-oracle bounds hold for all provers), but a proof must not be used as an identifier. GIPAWithSSM is not affected in the same way, as its verifier recomputes the last commitment."
  },
  {
   "property": "C129",
   "status": "proved",
   "theorems": [
    "Ripp.SsmStatic.C129_unique",
    "Ripp.SsmStatic.C129_binding",
    "Ripp.SsmStatic.C129_example"
   ],
   "note": "In contrast to TIPAWithSSM (C128) the placeholders are checked here, by the comparison of the folded placeholder with the commitment 0. The right base element is only fixed as far as the inner product with the left one fixes it: if the folded left message is zero, any right base element is accepted."
  },
  {
   "property": "C130",
   "status": "proved",
   "theorems": [
    "Ripp.TipaSsmStatic.C130_unique",
    "Ripp.TipaSsmStatic.C130_honest",
    "Ripp.TipaSsmStatic.C130_example"
   ],
   "note": "Together with C128 this describes all accepted proofs of an algebraic prover: the 2k+1 elements for the right message are free, everything else is a function of them and the opening."
  },
  {
   "property": "C131",
   "status": "proved",
   "theorems": [
    "Ripp.Bivariate.C131_opening",
    "Ripp.Bivariate.C131_two_openings",
    "Ripp.TBivariate.C131_opening",
    "Ripp.C131_example"
   ],
   "note": "`poly_commit/mod.rs` and `transparent.rs`: `y_eval_comm` is not hashed by the argument about the rows, so that an opening of a true value can be changed into others. For the arguments themselves accepted proofs are determined (C119, C125, C126) or determined by their free elements (C129, C130) if the statement is fixed first."
  },
  {
   "property": "C132",
   "status": "proved",
   "theorems": [
    "Ripp.AggStatic.C132_unique",
    "Ripp.AggStatic.C132_honest"
   ],
   "note": "`groth16_aggregation.rs`: `ip_ab` and `agg_c` are in no hash input. C132 shows that they are determined all the same if `δ` is not degenerate; for a verifying key with `δ = 0` an aggregate with another `agg_c` is accepted (example after C132)."
  },
  {
   "property": "C133",
   "status": "proved",
   "theorems": [
    "Ripp.TipaSsm.C133_tipa_ssm",
    "Ripp.Groth16.C133_forge",
    "Ripp.Groth16.C133_replace"
   ],
   "note": ""
  },
  {
   "property": "C134",
   "status": "proved",
   "theorems": [
    "Ripp.Domain.C134_bls",
    "Ripp.Domain.C134_bw6",
    "Ripp.Domain.C134_injective",
    "Ripp.Domain.C134_disjoint",
    "Ripp.Domain.C134_hypotheses",
    "Ripp.Domain.C134_transparent",
    "Ripp.Domain.C134_reuse"
   ],
   "note": "No hash input of `gipa.rs`, `tipa/` and `groth16_aggregation.rs` contains a label or a number of bytes. They are told apart only by their lengths (C134), which is a property of the curves; the argument for the C of an aggregate can be used in a polynomial opening as it stands (`C134_reuse`)."
  },
  {
   "property": "C135",
   "status": "proved",
   "theorems": [
    "Ripp.Entries.C135_gipa",
    "Ripp.Entries.C135_gipa_first",
    "Ripp.Entries.C135_gipa_ssm",
    "Ripp.Entries.C135_gipa_ssm_first",
    "Ripp.Entries.C135_tipa",
    "Ripp.Entries.C135_tipa_first",
    "Ripp.Entries.C135_tipa_ssm",
    "Ripp.Entries.C135_tipa_ssm_first",
    "Ripp.Entries.C135_aggregate",
    "Ripp.Entries.C135_aggregate_first",
    "Ripp.Entries.C135_bivariate",
    "Ripp.Entries.C135_transparent",
    "Ripp.Entries.C135_bivariate_first",
    "Ripp.Entries.C135_transparent_first",
    "Ripp.Entries.C135_univariate",
    "Ripp.Entries.C135_transparent_univariate",
    "Ripp.Entries.C135_shape"
   ],
   "note": "Proofs with further entries in the commitments to inner products are accepted (C135). A prover can use them to get other challenges for the same values, a verifier that checked the lengths would exclude this; the bounds of C108, C111, C116 and C117 hold with them."
  },
  {
   "property": "C136",
   "status": "proved",
   "theorems": [
    "Ripp.Level.C136_round",
    "Ripp.Level.C136_round_le",
    "Ripp.Level.C136_point",
    "Ripp.Level.C136_point_le",
    "Ripp.Level.C136_retry",
    "Ripp.Level.C136_gipa",
    "Ripp.Level.C136_aggregate",
    "Ripp.Level.C136_numbers"
   ],
   "note": ""
  },
  {
   "property": "C137",
   "status": "proved",
   "theorems": [
    "Ripp.Grind.C137_hit",
    "Ripp.Grind.C137_refused",
    "Ripp.Grind.C137_accepted",
    "Ripp.Grind.C137_false"
   ],
   "note": ""
  },
  {
   "property": "C138",
   "status": "proved",
   "theorems": [
    "Ripp.Choice.C138_gipa",
    "Ripp.Choice.C138_aggregate"
   ],
   "note": ""
  },
  {
   "property": "C139",
   "status": "proved",
   "theorems": [
    "Ripp.Bench.C139_example",
    "Ripp.Bench.C139_groth16",
    "Ripp.Bench.C139_poly",
    "Ripp.Bench.C139_scaling",
    "Ripp.Bench.C139_scaling_zero",
    "Ripp.Bench.C139_scaling_limit"
   ],
   "note": ""
  },
  {
   "property": "C140",
   "status": "proved",
   "theorems": [
    "Ripp.Release.C140_words",
    "Ripp.Release.C140_degrees",
    "Ripp.Release.C140_degree_max",
    "Ripp.Release.C140_tipa_setup",
    "Ripp.Release.C140_tipa_setup_zero",
    "Ripp.Release.Univariate.C140_setup",
    "Ripp.Release.Univariate.C140_verify",
    "Ripp.Release.Univariate.C140_commit",
    "Ripp.Release.Univariate.C140_empty_key",
    "Ripp.Release.Univariate.C140_empty_key_open",
    "Ripp.Release.TUnivariate.C140_setup",
    "Ripp.Release.TUnivariate.C140_commit",
    "Ripp.Release.TUnivariate.C140_empty_key",
    "Ripp.Release.TUnivariate.C140_empty_key_open",
    "Ripp.Release.TUnivariate.C140_verify",
    "Ripp.Release.TUnivariate.C140_empty_key_verify",
    "Ripp.Release.Bench.C140_bench_degree",
    "Ripp.Release.Bench.C140_scaling",
    "Ripp.Release.Bench.C140_scaling_limit",
    "Ripp.Release.Kzg.C140_setup",
    "Ripp.Release.Bivariate.C140_setup",
    "Ripp.Release.TBivariate.C140_setup"
   ],
   "note": "Release builds of the transparent scheme accept a key with an empty half and return the commitment zero for every polynomial (C140_empty_key), where debug builds panic."
  },
  {
   "property": "C141",
   "status": "proved",
   "theorems": [
    "Ripp.C141_commitments",
    "Ripp.C141_gipa",
    "Ripp.C141_tipa",
    "Ripp.C141_shift",
    "Ripp.C141_ssm",
    "Ripp.C141_gipa_ssm",
    "Ripp.C141_bivariate",
    "Ripp.C141_transparent_bivariate",
    "Ripp.C141_univariate",
    "Ripp.C141_transparent_univariate",
    "Ripp.C141_sipp",
    "Ripp.Bench.C141_scaling",
    "Ripp.Bench.C141_scaling_loop",
    "Ripp.Bench.C141_scaling_program",
    "Ripp.Bench.C141_kzg",
    "Ripp.Bench.C141_ipa",
    "Ripp.Bench.C141_transparent",
    "Ripp.Bench.C141_poly",
    "Ripp.Bench.C141_aggregation",
    "Ripp.Bench.C141_snark",
    "Ripp.Bench.C141_example",
    "Ripp.Bench.C141_groth16"
   ],
   "note": ""
  },
  {
   "property": "C142",
   "status": "proved",
   "theorems": [
    "Ripp.Kzg.C142_kzg",
    "Ripp.Kzg.C142_kzg_value",
    "Ripp.Kzg.C142_kzg_iff",
    "Ripp.C142_key",
    "Ripp.Tipa.C142_tipa",
    "Ripp.TipaSsm.C142_ssm",
    "Ripp.Bivariate.C142_bivariate",
    "Ripp.Univariate.C142_univariate",
    "Ripp.Groth16.C142_groth16",
    "Ripp.Groth16.C142_gamma"
   ],
   "note": ""
  },
  {
   "property": "C143",
   "status": "proved",
   "theorems": [
    "Ripp.Level.C143_transparent",
    "Ripp.Level.C143_transparent_univariate",
    "Ripp.Level.C143_tipa",
    "Ripp.Level.C143_bivariate",
    "Ripp.Level.C143_univariate",
    "Ripp.Level.C143_numbers",
    "Ripp.Level.C143_sipp",
    "Ripp.Level.C143_sipp_numbers",
    "Ripp.Level.C143_sipp_sizes"
   ],
   "note": ""
  },
  {
   "property": "C144",
   "status": "proved",
   "theorems": [
    "Ripp.Gipa.C144_gipa",
    "Ripp.Gipa.C144_recover",
    "Ripp.Gipa.C144_two",
    "Ripp.GipaSsm.C144_ssm",
    "Ripp.TBivariate.C144_transparent",
    "Ripp.TBivariate.C144_second_value",
    "Ripp.TBivariate.C144_determined",
    "Ripp.Tipa.C144_tipa",
    "Ripp.TipaSsm.C144_tipa",
    "Ripp.Groth16.C144_aggregate"
   ],
   "note": "The repository does not claim that its proofs hide the messages; C144 says how far they are from it."
  },
  {
   "property": "C145",
   "status": "proved",
   "theorems": [
    "Ripp.C145_text",
    "Ripp.C145_lengths",
    "Ripp.C145_same_text",
    "Ripp.C145_commit",
    "Ripp.Gipa.C145_prove"
   ],
   "note": ""
  },
  {
   "property": "C146",
   "status": "proved",
   "theorems": [
    "Ripp.C146_setup_value",
    "Ripp.C146_univariate_value",
    "Ripp.C146_verify_value",
    "Ripp.C146_tipa_setup",
    "Ripp.C146_kzg_setup",
    "Ripp.C146_bivariate_setup",
    "Ripp.C146_univariate_setup",
    "Ripp.Univariate.C146_commit",
    "Ripp.Univariate.C146_open",
    "Ripp.Univariate.C146_verify",
    "Ripp.TUnivariate.C146_commit",
    "Ripp.TUnivariate.C146_open",
    "Ripp.TUnivariate.C146_verify"
   ],
   "note": ""
  },
  {
   "property": "C147",
   "status": "proved",
   "theorems": [
    "Ripp.C147_cut",
    "Ripp.C147_update",
    "Ripp.Tipa.C147_tipa",
    "Ripp.Groth16.C147_aggregate",
    "Ripp.Bivariate.C147_cut",
    "Ripp.Bivariate.C147_commit",
    "Ripp.Bivariate.C147_open"
   ],
   "note": ""
  },
  {
   "property": "C148",
   "status": "proved",
   "theorems": [
    "Ripp.Platform.C148_gipa",
    "Ripp.Platform.C148_complete",
    "Ripp.Platform.C148_rejected",
    "Ripp.Platform.C148_tipa",
    "Ripp.Platform.C148_ssm",
    "Ripp.Platform.C148_tipa_ssm",
    "Ripp.Platform.C148_aggregate",
    "Ripp.Platform.C148_polynomial",
    "Ripp.Platform.C148_transparent",
    "Ripp.Platform.C148_aggregate_complete",
    "Ripp.Platform.C148_out",
    "Ripp.Platform.C148_wide",
    "Ripp.Platform.C148_witness"
   ],
   "note": "The code violates portability between platforms: `C148_rejected` and `C148_witness` give proofs that are accepted where they were made (w = 4) and rejected on a 64-bit platform. A fixed-width nonce (u64) would repair it."
  },
  {
   "property": "C149",
   "status": "proved",
   "theorems": [
    "Ripp.C149_accept_iff",
    "Ripp.C149_outcome",
    "Ripp.C149_trailing",
    "Ripp.C149_unique",
    "Ripp.C149_rounds",
    "Ripp.Gipa.C149_gipa_attack",
    "Ripp.Tipa.C149_tipa_work",
    "Ripp.C149_tipp"
   ],
   "note": "The violation of C113 in terms of the message: the work of GIPA's verifier is exponential in the number of bytes received (`C149_gipa_attack`; 670 bytes for 2^31 - 2 products in the example). Callers who need unique messages must check that nothing follows the proof (`C149_trailing`)."
  },
  {
   "property": "C150",
   "status": "proved",
   "theorems": [
    "Ripp.Gipa.C150_statement",
    "Ripp.Gipa.C150_gipa",
    "Ripp.Gipa.C150_only_true",
    "Ripp.Tipa.C150_tipa",
    "Ripp.GipaSsm.C150_ssm_statement",
    "Ripp.GipaSsm.C150_ssm",
    "Ripp.TipaSsm.C150_tipa_ssm",
    "Ripp.Sipp.C150_product",
    "Ripp.Sipp.C150_sipp",
    "Ripp.Sipp.C150_sipp_sound",
    "Ripp.Groth16.C150_groth16"
   ],
   "note": ""
  },
  {
   "property": "C151",
   "status": "proved",
   "theorems": [
    "Ripp.C151_gipa",
    "Ripp.C151_tipa",
    "Ripp.C151_tipa_ssm",
    "Ripp.C151_injective",
    "Ripp.C151_source"
   ],
   "note": ""
  },
  {
   "property": "C152",
   "status": "proved",
   "theorems": [
    "Ripp.Table.C152_writes",
    "Ripp.Table.C152_unequal",
    "Ripp.Table.C152_count",
    "Ripp.Table.C152_plain",
    "Ripp.Table.C152_text",
    "Ripp.Table.C152_poly_rows",
    "Ripp.Table.C152_agg_rows",
    "Ripp.Table.C152_poly_complete",
    "Ripp.Table.C152_single",
    "Ripp.Table.C152_agg_complete",
    "Ripp.Table.C152_monolithic"
   ],
   "note": ""
  },
  {
   "property": "C153",
   "status": "proved",
   "theorems": [
    "Ripp.C153_challenge",
    "Ripp.C153_rounds",
    "Ripp.C153_gipa_verify",
    "Ripp.C153_gipa_prove",
    "Ripp.C153_tipa_prove",
    "Ripp.C153_ssm_prove",
    "Ripp.C153_tipa_verify",
    "Ripp.C153_ssm_verify",
    "Ripp.C153_polynomial",
    "Ripp.C153_groth16",
    "Ripp.C153_transparent",
    "Ripp.C153_prefix_verify",
    "Ripp.C153_prefix_prove"
   ],
   "note": "The requirement of 16 bytes is not in the types of `ip_proofs` (SIPP asks for 32 bytes in its types), so a digest of 8 bytes compiles and panics at run time."
  },
  {
   "property": "C154",
   "status": "proved",
   "theorems": [
    "Ripp.C154_value",
    "Ripp.C154_same",
    "Ripp.C154_beyond",
    "Ripp.C154_transparent_same",
    "Ripp.C154_transparent_beyond"
   ],
   "note": "A polynomial that fits is refused when it is written with too many zero rows: `C154_beyond`."
  },
  {
   "property": "C155",
   "status": "proved",
   "theorems": [
    "Ripp.Bench.C155_once",
    "Ripp.Bench.C155_shuffle",
    "Ripp.Bench.C155_value",
    "Ripp.Table.C155_writes",
    "Ripp.Table.C155_sizes",
    "Ripp.Table.C155_row",
    "Ripp.Table.C155_distinct"
   ],
   "note": "The example means to measure random orders, but `a_s.shuffle` and `b_s.shuffle` act on vectors with equal entries: `C155_shuffle`."
  },
  {
   "property": "C156",
   "status": "proved",
   "theorems": [
    "Ripp.C156_telescope",
    "Ripp.Sipp.C156_sipp",
    "Ripp.Gipa.C156_gipa",
    "Ripp.Gipa.C156_base",
    "Ripp.C156_same",
    "Ripp.C156_verify"
   ],
   "note": ""
  }
 ]
}