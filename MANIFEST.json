{
 "claims": [
  {
   "property": "C01",
   "status": "proved",
   "theorems": [
    "Libra.Props.C01_add",
    "Libra.Props.C01_sub",
    "Libra.Props.C01_mul",
    "Libra.Props.C01_field"
   ],
   "note": "operators on canonical elements, for every pair"
  },
  {
   "property": "C02",
   "status": "proved",
   "theorems": [
    "Libra.Props.C02_u256_add",
    "Libra.Props.C02_u256_mul",
    "Libra.Props.C02_u512_add",
    "Libra.Props.C02_u512_sub",
    "Libra.Props.C02_u512_mul",
    "Libra.Props.C02_conversions",
    "Libra.Props.C02_non_mod",
    "Libra.Props.C02_left_128",
    "Libra.Props.C02_u256_and",
    "Libra.Props.C02_u512_mul_high_dropped"
   ],
   "note": ""
  },
  {
   "property": "C03",
   "status": "partial",
   "theorems": [
    "Libra.Props.C03_sub_off_by_one",
    "Libra.Props.C03_sub_false"
   ],
   "note": "the code violates the property; proved false for every pair of operands, with the exact (off by one) result"
  },
  {
   "property": "C04",
   "status": "proved",
   "theorems": [
    "Libra.Props.C04_mod",
    "Libra.Props.C04_range",
    "Libra.Props.C04_mod_fails_above",
    "Libra.RawStmt.all_canonical",
    "Libra.RawStmt.s01_stores",
    "Libra.RawStmt.s02_stores",
    "Libra.RawStmt.s03_stores",
    "Libra.RawStmt.s04_stores",
    "Libra.RawStmt.s05_stores",
    "Libra.RawStmt.s06_stores",
    "Libra.RawStmt.s07_stores",
    "Libra.RawStmt.s08_stores",
    "Libra.RawStmt.s09_stores",
    "Libra.RawStmt.s10_stores",
    "Libra.RawStmt.s11_stores",
    "Libra.RawStmt.s12_stores",
    "Libra.RawStmt.s13_stores",
    "Libra.RawStmt.s14_stores",
    "Libra.RawStmt.s15_stores",
    "Libra.RawStmt.s16_stores",
    "Libra.RawStmt.s17_stores",
    "Libra.RawStmt.s18_stores",
    "Libra.RawStmt.s19_stores",
    "Libra.RawStmt.s20_stores",
    "Libra.RawStmt.s21_stores",
    "Libra.RawStmt.s22_stores",
    "Libra.RawStmt.s23_stores",
    "Libra.RawStmt.s24_stores",
    "Libra.RawStmt.s25_stores",
    "Libra.RawStmt.s26_stores",
    "Libra.RawStmt.s27_stores",
    "Libra.RawStmt.s28_stores",
    "Libra.RawStmt.s29_stores",
    "Libra.RawStmt.s30_stores",
    "Libra.RawStmt.s31_stores",
    "Libra.RawStmt.s32_stores",
    "Libra.RawStmt.s33_stores",
    "Libra.RawStmt.s34_stores",
    "Libra.RawStmt.s35_stores",
    "Libra.RawStmt.s36_stores",
    "Libra.RawStmt.s37_stores",
    "Libra.RawStmt.s38_stores"
   ],
   "note": "the bound 2^508 and every raw statement pattern of the provers and verifiers"
  },
  {
   "property": "C05",
   "status": "proved",
   "theorems": [
    "Libra.Props.C05_u256",
    "Libra.Props.C05_u512"
   ],
   "note": ""
  },
  {
   "property": "C06",
   "status": "partial",
   "theorems": [
    "Libra.Props.C06_u256",
    "Libra.Props.C06_u512_partial",
    "Libra.Props.C06_u512_false",
    "Libra.Props.C06_init_constants"
   ],
   "note": "true for the 256-bit constructor at every length; for the 512-bit constructor up to 78 digits, and proved false at 79"
  },
  {
   "property": "C07",
   "status": "partial",
   "theorems": [
    "Libra.Props.C07_bit_stream",
    "Libra.Props.C07_bit_stream_injective",
    "Libra.Props.C07_to_gmp_class",
    "Libra.Props.C07_bit_at",
    "Libra.Props.C07_to_string",
    "Libra.Props.C07_test_bit_partial",
    "Libra.Props.C07_test_bit_false",
    "Libra.Props.C07_bitLen",
    "Libra.Props.C07_bitLen_zero",
    "Libra.Props.C07_u256_bitLen",
    "Libra.Props.C07_bitLen_wide",
    "Libra.Props.C07_u256_bitLen_zero"
   ],
   "note": "testBit is undefined at 64 and 128, bitLen at 0"
  },
  {
   "property": "C08",
   "status": "proved",
   "theorems": [
    "Libra.Props.C08_eq",
    "Libra.Props.C08_eq_needs_canonical",
    "Libra.Props.C08_prime",
    "Libra.Props.C08_inverse",
    "Libra.Props.C08_roots"
   ],
   "note": ""
  },
  {
   "property": "C09",
   "status": "proved",
   "theorems": [
    "Libra.Props.C09_linear",
    "Libra.Props.C09_quadratic",
    "Libra.Props.C09_cubic",
    "Libra.Props.C09_quadruple",
    "Libra.Props.C09_quintuple",
    "Libra.Props.C09_add_linear",
    "Libra.Props.C09_add_quadratic",
    "Libra.Props.C09_add_cubic",
    "Libra.Props.C09_add_quadruple",
    "Libra.Props.C09_add_quintuple",
    "Libra.Props.C09_mul_linear",
    "Libra.Props.C09_mul_quadratic",
    "Libra.Props.C09_const"
   ],
   "note": ""
  },
  {
   "property": "C10",
   "status": "proved",
   "theorems": [
    "Libra.Props.C10_plain",
    "Libra.Props.C10_zk"
   ],
   "note": "both readers, every readable file; the meta file of the zk reader included"
  },
  {
   "property": "C11",
   "status": "proved",
   "theorems": [
    "Libra.Props.C11_accepted",
    "Libra.Props.C11_rejected",
    "Libra.Props.C11_empty_layer",
    "Libra.Props.C11_plain_unchecked"
   ],
   "note": "zk reader: every accepted token stream, every readable ill-formed file; an empty layer makes it loop for ever; the plain reader does not check"
  },
  {
   "property": "C12",
   "status": "proved",
   "theorems": [
    "Libra.Props.C12_evaluate",
    "Libra.Props.C12_gate_meaning",
    "Libra.Props.C12_boolean"
   ],
   "note": "both evaluation functions"
  },
  {
   "property": "C13",
   "status": "proved",
   "theorems": [
    "Libra.Props.C13_defined",
    "Libra.Props.C13_exact",
    "Libra.Props.C13_plain_undefined"
   ],
   "note": "the condition on gate counts is exact; the plain reader lets undefined evaluations through"
  },
  {
   "property": "C14",
   "status": "proved",
   "theorems": [
    "Libra.Props.C14_fold_is_extension",
    "Libra.Props.C14_multilinear",
    "Libra.Props.C14_corner",
    "Libra.Props.C14_unique"
   ],
   "note": ""
  },
  {
   "property": "C15",
   "status": "proved",
   "theorems": [
    "Libra.Props.C15_half_tables",
    "Libra.Props.C15_prover_tables",
    "Libra.Props.C15_verifier_tables",
    "Libra.Props.C15_zk_tables",
    "Libra.Props.C15_zk_block_tables"
   ],
   "note": "plain prover and verifier, zk prover and verifier, whole-layer and block tables"
  },
  {
   "property": "C16",
   "status": "proved",
   "theorems": [
    "Libra.Props.C16_direct_relay",
    "Libra.Props.C16_other_layers"
   ],
   "note": ""
  },
  {
   "property": "C17",
   "status": "proved",
   "theorems": [
    "Libra.Props.C17_two_input",
    "Libra.Props.C17_one_input",
    "Libra.Props.C17_sum_gate",
    "Libra.Props.C17_zk",
    "Libra.Props.C17_one_input_aborts",
    "Libra.Props.C17_zk_relay",
    "Libra.Props.C17_zk_relay_block"
   ],
   "note": "plain verifier and zk verifier (gate by gate branch); the block branch is C18"
  },
  {
   "property": "C18",
   "status": "proved",
   "theorems": [
    "Libra.Props.C18_parallel",
    "Libra.Props.C18_range_to_block_end"
   ],
   "note": "every block-repeated layer meeting the stated condition on range-sum gates, and a layer violating it"
  },
  {
   "property": "C19",
   "status": "proved",
   "theorems": [
    "Libra.Props.C19_complete",
    "Libra.Props.C19_from_file"
   ],
   "note": "all well-formed circuits, and from the tokens of every good file"
  },
  {
   "property": "C20",
   "status": "proved",
   "theorems": [
    "Libra.Props.C20_phase1",
    "Libra.Props.C20_phase2",
    "Libra.Props.C20_claims",
    "Libra.Props.C20_zk_phase1",
    "Libra.Props.C20_zk_claim",
    "Libra.Props.C20_zk_phase2"
   ],
   "note": "both provers, every well-formed circuit, layer and challenge"
  },
  {
   "property": "C21",
   "status": "proved",
   "theorems": [
    "Libra.Props.C21_final_claims",
    "Libra.Props.C21_zk_final_claims"
   ],
   "note": "both provers"
  },
  {
   "property": "C22",
   "status": "partial",
   "theorems": [
    "Libra.Props.C22_inputs_not_bound",
    "Libra.Props.C22_output_not_bound",
    "Libra.Props.C22_unsound",
    "Libra.Props.C22_soundness_partial",
    "Libra.Props.C22_above_layer1_partial",
    "Libra.Props.C22_field_size"
   ],
   "note": "the property is false of the code: a prover can claim the output for any other input and is always accepted (phase 2 of layer 1 uses the challenge 0), and V_res is computed by the prover. Proved: the soundness bound for the verifier with the one missing check, and for the code down to layer 1"
  },
  {
   "property": "C23",
   "status": "proved",
   "theorems": [
    "Libra.Props.C23_zk_complete",
    "Libra.Props.C23_single_gate",
    "Libra.Props.C23_fiat_shamir"
   ],
   "note": "every well-formed circuit whose layers below the output have at least two gate slots; the code reads out of bounds otherwise, which is proved on a one-gate layer; also with the challenges taken from the transcript"
  },
  {
   "property": "C24",
   "status": "proved",
   "theorems": [
    "Libra.Props.C24_mask_sum",
    "Libra.Props.C20_zk_phase1",
    "Libra.Props.C20_zk_phase2",
    "Libra.Props.C24_query",
    "Libra.Props.C24_queryRg"
   ],
   "note": "the announced sum, and the mask part of every round message"
  },
  {
   "property": "C25",
   "status": "proved",
   "theorems": [
    "Libra.Props.C25_consistent",
    "Libra.Props.C25_unique_mask",
    "Libra.Props.C25_count",
    "Libra.Props.C25_hiding"
   ],
   "note": "the round messages of one layer: for each consistent list of messages exactly one mask; equal counts for any two provers with the same claim"
  },
  {
   "property": "C26",
   "status": "partial",
   "theorems": [
    "Libra.Props.C26_random_range_false",
    "Libra.Props.C26_random_canonical_partial"
   ],
   "note": "the property is false: at most 2^93 values are reached"
  },
  {
   "property": "C27",
   "status": "proved",
   "theorems": [
    "Libra.Props.C27_maskR",
    "Libra.Props.C27_sumMask",
    "Libra.Props.C27_sumMask_two_variables"
   ],
   "note": "all pairings, secrets, coefficients, blindings and points; vpd_test in at least three variables as used by the protocol, with a counterexample in two variables"
  },
  {
   "property": "C28",
   "status": "proved",
   "theorems": [
    "Libra.Props.C28_input"
   ],
   "note": "all table sizes, pairings, secrets, masks, blindings and points"
  },
  {
   "property": "C29",
   "status": "proved",
   "theorems": [
    "Libra.Props.C29_honest",
    "Libra.Props.C29_accepted"
   ],
   "note": "the three schemes; the second half assumes that pairing with g2 is injective"
  },
  {
   "property": "C30",
   "status": "proved",
   "theorems": [
    "Libra.Props.C30_maskR",
    "Libra.Props.C30_sumMask",
    "Libra.Props.C30_input",
    "Libra.Props.C30_nontrivial"
   ],
   "note": "the three schemes, non-degenerate pairing"
  },
  {
   "property": "C31",
   "status": "proved",
   "theorems": [
    "Libra.Props.C31_exp",
    "Libra.Props.C31_multiScalar"
   ],
   "note": "exact range of pre_exp"
  },
  {
   "property": "C32",
   "status": "proved",
   "theorems": [
    "Libra.Props.C32_preInput"
   ],
   "note": ""
  },
  {
   "property": "C33",
   "status": "proved",
   "theorems": [
    "Libra.Props.C33_size"
   ],
   "note": "every sequence of messages"
  },
  {
   "property": "C34",
   "status": "proved",
   "theorems": [
    "Libra.Props.C34_read_back",
    "Libra.Props.C34_injective",
    "Libra.Props.C34_kinds_needed"
   ],
   "note": "reading back needs the kinds of the messages, which are proved not to be determined by the file"
  },
  {
   "property": "C35",
   "status": "partial",
   "theorems": [
    "Libra.Props.C35_false",
    "Libra.Props.C35_some_challenges"
   ],
   "note": "false of the code: for every mixing function and every circuit a prover that changes only the first polynomial of the last layer is accepted with every claimed output"
  },
  {
   "property": "C36",
   "status": "partial",
   "theorems": [
    "Libra.Props.C36_same_form_partial",
    "Libra.Props.C36_false",
    "Libra.Props.C36_empty"
   ],
   "note": "false of the code (zero padding; the empty transcript reads out of bounds); proved for transcripts with the same kinds of messages"
  },
  {
   "property": "C37",
   "status": "proved",
   "theorems": [
    "Libra.Props.C37_random",
    "Libra.Props.C37_random1"
   ],
   "note": ""
  },
  {
   "property": "C38",
   "status": "proved",
   "theorems": [
    "Libra.Props.C38_inv2",
    "Libra.Props.C38_complete",
    "Libra.Props.C38_complete_ring",
    "Libra.Props.C38_evaluate",
    "Libra.Props.C38_phase1",
    "Libra.Props.C38_phase2"
   ],
   "note": "Whole protocol run (verifier_traditional.cpp with prover_clogc.cpp) over the code field; the messages of both phases are the sums of the layer polynomial. A layer below another one must have at least two gates (with one gate the prover shifts by -1, undefined; the reader of the traditional verifier pads such layers) and the depth is at most 1000 (size of circuit_value)."
  },
  {
   "property": "C39",
   "status": "partial",
   "theorems": [
    "Libra.Props.C39_ofInt_partial",
    "Libra.Props.C39_ofInt_negative_false",
    "Libra.Props.C39_input_value",
    "Libra.Props.C39_exact"
   ],
   "note": "false of the code outside 0 <= x < 2^31; the value of every input line is proved, with the exact range in which it is x mod p"
  },
  {
   "property": "C40",
   "status": "partial",
   "theorems": [
    "Libra.Props.C40_plain_exact",
    "Libra.Props.C40_plain_false",
    "Libra.Props.C40_zk"
   ],
   "note": "false of the plain version (proved, with the exact condition for acceptance); true of the zk version, whose reader forces operand 0"
  },
  {
   "property": "C41",
   "status": "partial",
   "theorems": [
    "Libra.Props.C41_constants_rejected",
    "Libra.Props.C41_false",
    "Libra.Props.C41_exact",
    "Libra.Props.C41_almost_never",
    "Libra.Props.C41_zk_exact",
    "Libra.Props.C41_zk_almost_never",
    "Libra.Props.C41_zk_false"
   ],
   "note": "false of the code, in both protocols; proved: the exact condition for acceptance with constants in any layer and a bound on its probability (layers declared parallel must be repetitions and then hold no constants)"
  },
  {
   "property": "C42",
   "status": "partial",
   "theorems": [
    "Libra.Props.C42_claim_any_output",
    "Libra.Props.C42_unsound",
    "Libra.Props.C42_soundness_partial",
    "Libra.Props.C42_repair_complete",
    "Libra.Props.C42_repair_stricter"
   ],
   "note": "the property is false of the code: proved that every output is accepted for every circuit and all challenges, because the announced sum of the mask is added to the claim without a check. Proved for the verifier with the missing checks (ideal commitments made before the run): soundness for every prover, completeness, and that it only adds checks"
  },
  {
   "property": "C43",
   "status": "partial",
   "theorems": [
    "Libra.Props.C43_trapdoor"
   ],
   "note": "false of the code: proved that the key generator opens every commitment of the three schemes to every answer"
  },
  {
   "property": "C44",
   "status": "partial",
   "theorems": [
    "Libra.Props.C44_knowledge_partial",
    "Libra.Props.C44_last_unchecked"
   ],
   "note": "true for vpd_test; for vpdR and input_vpd all but the last witness are covered, and the last companion is proved to be ignored"
  },
  {
   "property": "C45",
   "status": "partial",
   "theorems": [
    "Libra.Props.C45_half_constant",
    "Libra.Props.C45_constant",
    "Libra.Props.C45_few_values",
    "Libra.Props.C45_first_challenge"
   ],
   "note": "false of the code: proved for every mixing function that all challenges of a call after the first have the same upper half"
  },
  {
   "property": "C46",
   "status": "proved",
   "theorems": [
    "Libra.Props.C46_soundness",
    "Libra.Props.C46_vRes_needed"
   ],
   "note": "arbitrary prover (any state type, any messages); V_res, which the code runs in the prover, must be the computation of the code, and C46_vRes_needed shows what happens otherwise"
  },
  {
   "property": "C47",
   "status": "proved",
   "theorems": [
    "Libra.Props.C47_complete",
    "Libra.Props.C47_complete_ring",
    "Libra.Props.C47_evaluate",
    "Libra.Props.C47_one_block",
    "Libra.Props.C47_few_blocks"
   ],
   "note": "whole protocol run over the code field (prover_bc_clogc.cpp, verifier_bc_clogc.cpp); log >= 1, 2^log <= number of blocks and wire operands of dummies are needed: the first two are proved necessary"
  },
  {
   "property": "C48",
   "status": "partial",
   "theorems": [
    "Libra.Props.C48_unsound",
    "Libra.Props.C48_unsound_run",
    "Libra.Props.C48_soundness_partial",
    "Libra.Props.C48_repair_complete"
   ],
   "note": "false of the code: for every circuit and every output a prover is accepted for all challenges at which no layer polynomial vanishes, because beta_blk_val comes from the prover; with the right beta_blk_val the soundness bound is proved for all provers, and the honest prover is accepted as before"
  },
  {
   "property": "C49",
   "status": "partial",
   "theorems": [
    "Libra.Props.C49_output_partial",
    "Libra.Props.C49_ignores_second",
    "Libra.Props.C49_false"
   ],
   "note": "The claim is false for every size (C49_false): the generator wires the products to entries i*k and k*j of the first matrix and never uses the second (C49_ignores_second). C49_output_partial proves that every generated file is accepted and evaluates, and gives the exact value of each output."
  },
  {
   "property": "C50",
   "status": "proved",
   "theorems": [
    "Libra.Props.C50_compile"
   ],
   "note": "programs without SS (C51); the hypotheses ask that the files fit the reader (fewer than 999999 layers, of at most 2^30 gates; see C69), that the outputs of the wiring file start at most at 0x3f3f3f3f, and that PASS copies a constant or input to an output. Success of the compiler is a hypothesis here"
  },
  {
   "property": "C51",
   "status": "partial",
   "theorems": [
    "Libra.Props.C51_sum_partial",
    "Libra.Props.C51_false"
   ],
   "note": "false of the code: the last summand is missing; C51_sum_partial gives the exact value for all programs"
  },
  {
   "property": "C52",
   "status": "partial",
   "theorems": [
    "Libra.Props.C52_outputs_ignored",
    "Libra.Props.C52_false"
   ],
   "note": "false of the code: output lines have no effect on the files"
  },
  {
   "property": "C53",
   "status": "proved",
   "theorems": [
    "Libra.Props.C53_phase1_update",
    "Libra.Props.C53_phase2_update",
    "Libra.Props.C53_output",
    "Libra.Props.C53_join_terminates"
   ],
   "note": "every interleaving of single loads and stores; over any commutative ring (the 512-bit arithmetic is C55)"
  },
  {
   "property": "C54",
   "status": "partial",
   "theorems": [
    "Libra.Props.C54_race1",
    "Libra.Props.C54_race2",
    "Libra.Props.C54_race_free",
    "Libra.Props.C54_complete_partial",
    "Libra.Props.C54_false"
   ],
   "note": "false of the code: every gate that crosses the parts of two threads is a data race (C54_race1, C54_race2), and a circuit is given that is accepted under one schedule and rejected under another. C54_complete_partial proves acceptance under every schedule for circuits without such gates"
  },
  {
   "property": "C55",
   "status": "partial",
   "theorems": [
    "Libra.Props.C55_slope_partial",
    "Libra.Props.C55_underflow",
    "Libra.Props.C55_slope1",
    "Libra.Props.C55_accumulate_partial",
    "Libra.Props.C55_accumulate_false",
    "Libra.Props.C55_gather_partial",
    "Libra.Props.C55_gather_false"
   ],
   "note": "false of the code: the slope is right iff the subtraction does not underflow; sums of more products than the reduction allows can be non-canonical"
  },
  {
   "property": "C56",
   "status": "proved",
   "theorems": [
    "Libra.Props.C56_shape",
    "Libra.Props.C56_size",
    "Libra.Props.C56_layer"
   ],
   "note": "every prover, hash function and encoding of points; C56_layer is stated for one layer from its start to its end"
  },
  {
   "property": "C57",
   "status": "partial",
   "theorems": [
    "Libra.Props.C57_any_claim",
    "Libra.Props.C57_false"
   ],
   "note": "false of the code: the honest proof file of every circuit is also the file of an accepted prover that claims any other output"
  },
  {
   "property": "C58",
   "status": "proved",
   "theorems": [
    "Libra.Props.C58_generates",
    "Libra.Props.C58_sound"
   ],
   "note": "the program of the 64-round block as used by build.sh (-R -P -m i); any round constants and old hash value; word 0 of the message is assumed to be a word (C60)"
  },
  {
   "property": "C59",
   "status": "proved",
   "theorems": [
    "Libra.Props.C59_complete"
   ],
   "note": "every message, old hash value and round constants"
  },
  {
   "property": "C60",
   "status": "partial",
   "theorems": [
    "Libra.Props.C60_checked_partial",
    "Libra.Props.C60_second_preimage",
    "Libra.Props.C60_false"
   ],
   "note": "false of the code: word 0 of the message has no bit decomposition, and 2^32 can be added to it; the other fifteen words are checked (C60_checked_partial)"
  },
  {
   "property": "C61",
   "status": "proved",
   "theorems": [
    "Libra.Props.C61_program",
    "Libra.Props.C61_accepts",
    "Libra.Props.C61_circuit",
    "Libra.Props.C61_accepted"
   ],
   "note": "for every complete wiring file the compiler succeeds (C61_accepted); the meaning of the circuit is for files that fit the reader (up to 2^11 blocks by C69_sha256)"
  },
  {
   "property": "C62",
   "status": "proved",
   "theorems": [
    "Libra.Props.C62_accepts",
    "Libra.Props.C62_compiles",
    "Libra.Props.C62_order",
    "Libra.Props.C62_depth",
    "Libra.Props.C62_gap"
   ],
   "note": "sufficient conditions, with counterexamples for programs and wiring files that do not meet them"
  },
  {
   "property": "C63",
   "status": "proved",
   "theorems": [
    "Libra.Props.C63_parallel",
    "Libra.Props.C63_complete",
    "Libra.Props.C63_sha256",
    "Libra.Props.C63_power_of_two"
   ],
   "note": "within the sizes of C69"
  },
  {
   "property": "C64",
   "status": "partial",
   "theorems": [
    "Libra.Props.C64_exact",
    "Libra.Props.C64_partial",
    "Libra.Props.C64_false"
   ],
   "note": "false of the code for numbers outside 0 <= c < 2^31 (C64_exact, C64_false); C50, C51, C61-C63 hold for all 64-bit numbers, for the values as read"
  },
  {
   "property": "C65",
   "status": "proved",
   "theorems": [
    "Libra.Props.C65_wiring",
    "Libra.Props.C65_single",
    "Libra.Props.C65_padding",
    "Libra.Props.C65_complete"
   ],
   "note": "compilation and proof for n <= 10: larger trees are not shown to fit the reader, and above n = 15 the first output exceeds a sentinel of the compiler"
  },
  {
   "property": "C66",
   "status": "proved",
   "theorems": [
    "Libra.Props.C66_root",
    "Libra.Props.C66_circuit"
   ],
   "note": "numbers as the circuit has them; C66_circuit for n <= 10"
  },
  {
   "property": "C67",
   "status": "partial",
   "theorems": [
    "Libra.Props.C67_tree",
    "Libra.Props.C67_read_partial"
   ],
   "note": "proved for the numbers of the wiring file (C67_tree); for the numbers as the circuit has them only for trees of words below 2^31, and false otherwise, see C64 and C68"
  },
  {
   "property": "C68",
   "status": "partial",
   "theorems": [
    "Libra.Props.C68_blocks",
    "Libra.Props.C68_false"
   ],
   "note": "false of the code; the exact range of numbers is C64_exact"
  },
  {
   "property": "C69",
   "status": "proved",
   "theorems": [
    "Libra.Props.C69_size",
    "Libra.Props.C69_fits",
    "Libra.Props.C69_compiles",
    "Libra.Props.C69_sha256"
   ],
   "note": "programs that meet the conditions of C62"
  },
  {
   "property": "C70",
   "status": "proved",
   "theorems": [
    "Libra.Props.C70_outputs"
   ],
   "note": "programs without SS that meet the conditions of C62, circuits within the sizes of the reader (C69)"
  },
  {
   "property": "C71",
   "status": "proved",
   "theorems": [
    "Libra.Props.C71_program"
   ],
   "note": ""
  },
  {
   "property": "C72",
   "status": "proved",
   "theorems": [
    "Libra.Props.C72_generates",
    "Libra.Props.C72_scales",
    "Libra.Props.C72_complete"
   ],
   "note": "numbers as the circuit has them (C64); 64-bit numbers"
  },
  {
   "property": "C73",
   "status": "partial",
   "theorems": [
    "Libra.Props.C73_partial",
    "Libra.Props.C73_false"
   ],
   "note": "false of the code: C73_false is a counterexample with the coefficients of ratio 1; it holds if all numbers are between 0 and 2^31"
  },
  {
   "property": "C74",
   "status": "partial",
   "theorems": [
    "Libra.Props.C74_partial",
    "Libra.Props.C74_unchecked",
    "Libra.Props.C74_forged",
    "Libra.Props.C74_false"
   ],
   "note": "false of the code: exactly 64 of the tests are in the output layer; the claimed hash is not checked by it (C74_unchecked) and every claimed Merkle root is accepted (C74_forged, C74_false)"
  },
  {
   "property": "C75",
   "status": "proved",
   "theorems": [
    "Libra.Props.C75_read",
    "Libra.Props.C75_circuit",
    "Libra.Props.C75_value",
    "Libra.Props.C75_order_unchecked"
   ],
   "note": "C75_value for at most 1000 layers (the size of an array of the prover). The reader does not reject lines that are out of order (C75_order_unchecked)"
  },
  {
   "property": "C76",
   "status": "proved",
   "theorems": [
    "Libra.Props.C76_pass",
    "Libra.Props.C76_few_copies",
    "Libra.Props.C76_one_copy",
    "Libra.Props.C76_same_inputs"
   ],
   "note": "sizes: 2^log times the number of gates of a layer fits an int"
  },
  {
   "property": "C77",
   "status": "proved",
   "theorems": [
    "Libra.Props.C77_pass",
    "Libra.Props.C77_exact",
    "Libra.Props.C77_no_copy"
   ],
   "note": ""
  },
  {
   "property": "C78",
   "status": "proved",
   "theorems": [
    "Libra.Props.C78_same_values",
    "Libra.Props.C78_same_values_zk"
   ],
   "note": ""
  },
  {
   "property": "C79",
   "status": "proved",
   "theorems": [
    "Libra.Props.C79_matrix_product",
    "Libra.Props.C79_accepted",
    "Libra.Props.C79_limit",
    "Libra.Props.C79_not_power"
   ],
   "note": ""
  },
  {
   "property": "C80",
   "status": "proved",
   "theorems": [
    "Libra.Props.C80_doubling",
    "Libra.Props.C80_narrow",
    "Libra.Props.C80_xor",
    "Libra.Props.C80_width"
   ],
   "note": ""
  },
  {
   "property": "C81",
   "status": "partial",
   "theorems": [
    "Libra.Props.C81_matrix_partial",
    "Libra.Props.C81_matrix_false",
    "Libra.Props.C81_doubling_false",
    "Libra.Props.C81_sum_false"
   ],
   "note": "false of the code: the meta files of modes 1 and 2 are accepted with no circuit file, mode 5 outputs 0; the circuit of mode 2 is accepted with another meta file (C81_matrix_partial). The pair written by mode 4 is accepted (C49)"
  },
  {
   "property": "C82",
   "status": "proved",
   "theorems": [
    "Libra.Props.C82_aes128",
    "Libra.Props.C82_hash",
    "Libra.Props.C82_unique",
    "Libra.Props.C82_inverse"
   ],
   "note": "The AES instructions are modelled after the Intel manual."
  },
  {
   "property": "C83",
   "status": "proved",
   "theorems": [
    "Libra.Props.C83_program",
    "Libra.Props.C83_accepted",
    "Libra.Props.C83_unambiguous",
    "Libra.Props.C83_text",
    "Libra.Props.C83_large"
   ],
   "note": "regex_match, sscanf and getline are modelled for the patterns and formats that occur. C83_large shows why numbers of 2^31 and more are left out."
  },
  {
   "property": "C84",
   "status": "partial",
   "theorems": [
    "Libra.Props.C84_wiring_partial",
    "Libra.Props.C84_signs",
    "Libra.Props.C84_false"
   ],
   "note": "Texts of wirings are read as written; the converse is false of the code: a constant with two minus signs is accepted and gets the number of an earlier line."
  },
  {
   "property": "C85",
   "status": "proved",
   "theorems": [
    "Libra.Props.C85_compile",
    "Libra.Props.C85_circuit",
    "Libra.Props.C85_scan",
    "Libra.Props.C85_print"
   ],
   "note": "The list-of-numbers abstraction of the readers is justified by C85_scan."
  },
  {
   "property": "C86",
   "status": "proved",
   "theorems": [
    "Libra.Props.C86_stricter",
    "Libra.Props.C86_soundness",
    "Libra.Props.C86_program"
   ],
   "note": "V_res must be computed as in the code (it is called on the prover object, see C46)."
  },
  {
   "property": "C87",
   "status": "proved",
   "theorems": [
    "Libra.Props.C87_read",
    "Libra.Props.C87_maps",
    "Libra.Props.C87_twice",
    "Libra.Props.C87_header"
   ],
   "note": "C87_twice is the counterexample for files with two lines for one gate."
  },
  {
   "property": "C88",
   "status": "partial",
   "theorems": [
    "Libra.Props.C88_program_partial",
    "Libra.Props.C88_inputs"
   ],
   "note": "Passes under every scheduler on local circuits with constant inputs; aborts when an input is not a constant. False in general: C54_false (races), C55_underflow (512-bit arithmetic of phase 2)."
  },
  {
   "property": "C89",
   "status": "proved",
   "theorems": [
    "Libra.Props.C89_product",
    "Libra.Props.C89_digits",
    "Libra.Props.C89_large"
   ],
   "note": ""
  },
  {
   "property": "C90",
   "status": "proved",
   "theorems": [
    "Libra.Props.C90_extrap",
    "Libra.Props.C90_direct",
    "Libra.Props.C90_layer",
    "Libra.Props.C90_layers"
   ],
   "note": ""
  },
  {
   "property": "C91",
   "status": "partial",
   "theorems": [
    "Libra.Props.C91_first_partial",
    "Libra.Props.C91_undefined",
    "Libra.Props.C91_rejects",
    "Libra.Props.C91_final",
    "Libra.Props.C91_messages_partial",
    "Libra.Props.C91_checks_partial",
    "Libra.Props.C91_columns"
   ],
   "note": "False of the code: C91_undefined (every run reads out of range or overflows), C91_rejects (an honest second message fails its check), C91_columns (one check reads four values of a message that has three). C91_final, C91_messages_partial and C91_checks_partial say under which conditions the messages and checks are right."
  },
  {
   "property": "C92",
   "status": "proved",
   "theorems": [
    "Libra.Props.C92_complete",
    "Libra.Props.C92_program",
    "Libra.Props.C92_sizes"
   ],
   "note": ""
  },
  {
   "property": "C93",
   "status": "partial",
   "theorems": [
    "Libra.Props.C93_odd_partial",
    "Libra.Props.C93_rejects"
   ],
   "note": "False of the code; the exact condition under which an odd-length opening is accepted is proved."
  },
  {
   "property": "C94",
   "status": "partial",
   "theorems": [
    "Libra.Props.C94_relation_partial",
    "Libra.Props.C94_first_unchecked",
    "Libra.Props.C94_negative",
    "Libra.Props.C94_oversized"
   ],
   "note": "Proved for answers from 0 to 2^254 and all companions but the first; false otherwise (C94_negative: the answer minus 2^254 is accepted too)."
  },
  {
   "property": "C95",
   "status": "partial",
   "theorems": [
    "Libra.Props.C95_exact",
    "Libra.Props.C95_field",
    "Libra.Props.C95_negative",
    "Libra.Props.C95_relation_partial",
    "Libra.Props.C95_goes_on",
    "Libra.Props.C95_other_value"
   ],
   "note": "The claim in the title is false of the code for negative answers (C95_negative); exactly which integers pass, and what they bind to, is proved for all of them."
  },
  {
   "property": "C96",
   "status": "partial",
   "theorems": [
    "Libra.Props.C96_late_masks",
    "Libra.Props.C96_accepted"
   ],
   "note": "the property is false of the code: for every circuit of at least three layers and any other input there is a prover whose output is the one for the other input and that passes all checks of the repaired verifier of C42 except that masks are committed when their layer begins, with probability at least 1-(2l+1)/|F|"
  },
  {
   "property": "C97",
   "status": "partial",
   "theorems": [
    "Libra.Props.C97_accepted_partial",
    "Libra.Props.C97_false",
    "Libra.Props.C97_usage"
   ],
   "note": "Proved for images with a power of two of windows in a row; false for all others (C97_false: evaluation reads gates that do not exist)."
  },
  {
   "property": "C98",
   "status": "partial",
   "theorems": [
    "Libra.Props.C98_output_partial",
    "Libra.Props.C98_not_linear",
    "Libra.Props.C98_false"
   ],
   "note": "What every output is, is proved for all images; the claim is false for every size and all coefficients: the output is not even a linear function of the pixels."
  },
  {
   "property": "C99",
   "status": "partial",
   "theorems": [
    "Libra.Props.C99_zero_knowledge_partial",
    "Libra.Props.C99_same_distribution_partial",
    "Libra.Props.C99_distinguisher_partial",
    "Libra.Props.C99_generic",
    "Libra.Props.C99_first_input",
    "Libra.Props.C99_corner",
    "Libra.Props.C99_view_verify",
    "Libra.Props.C99_recorded"
   ],
   "note": "False of the code: the second claim of layer 1 is the first input in the clear (C99_first_input). Proved for the record without this claim, and for the whole record if the first inputs agree; C99_corner shows that challenges have to be excluded."
  },
  {
   "property": "C100",
   "status": "partial",
   "theorems": [
    "Libra.Props.C100_generates",
    "Libra.Props.C100_small",
    "Libra.Props.C100_rejects",
    "Libra.Props.C100_false"
   ],
   "note": "False of the code: in accepted blocks words and hash values are at most 32, so none is accepted with the initial hash value of SHA-256."
  },
  {
   "property": "C101",
   "status": "proved",
   "theorems": [
    "Libra.Props.C101_compile",
    "Libra.Props.C101_rejects"
   ],
   "note": ""
  },
  {
   "property": "C102",
   "status": "partial",
   "theorems": [
    "Libra.Props.C102_constants_partial",
    "Libra.Props.C102_constant_false",
    "Libra.Props.C102_order_false",
    "Libra.Props.C102_cycle"
   ],
   "note": "False of the code: a constant c is read as input c, the inputs of copy r are the ones with numbers r, k + r, 2k + r, …, and V1 = V1 + V0 is accepted. What is computed with constants is stated in C102_constants_partial."
  },
  {
   "property": "C103",
   "status": "partial",
   "theorems": [
    "Libra.Props.C103_counts",
    "Libra.Props.C103_depth_partial",
    "Libra.Props.C103_layered_partial",
    "Libra.Props.C103_false",
    "Libra.Props.C103_scan",
    "Libra.Props.C103_const_false",
    "Libra.Props.C103_pass_false",
    "Libra.Props.C103_sum_false",
    "Libra.Props.C103_large_false"
   ],
   "note": "The two counts are proved. The depth is false of the code: every place is visited once, at the depth at which it is first met, so for V(k+1) = Vk + V0, k < n, the depth 3 is printed where the longest path has n + 2 places. It is the length of some path and so never too large (for inputs, gates, constants and outputs with small numbers), and right if all paths to a place are equally long. Lines c * Va, PASS, SS and variables from 500000 on give further wrong depths."
  },
  {
   "property": "C104",
   "status": "proved",
   "theorems": [
    "Libra.Props.C104_generates",
    "Libra.Props.C104_sound",
    "Libra.Props.C104_complete",
    "Libra.Props.C104_second_preimage",
    "Libra.Props.C104_program"
   ],
   "note": "This is the version without randzero (option -R). As in the program for 64 rounds (C60) word 0 of the message is not checked; C104_second_preimage gives accepted inputs with word 0 larger by 2^32."
  },
  {
   "property": "C105",
   "status": "proved",
   "theorems": [
    "Libra.Props.C105_generates",
    "Libra.Props.C105_accepts",
    "Libra.Props.C105_rejects",
    "Libra.Props.C105_sound",
    "Libra.Props.C105_complete"
   ],
   "note": "The coefficients are ordinary inputs of the wiring file. The bound needs coefficients that do not depend on the other inputs; nothing in the repository chooses them."
  },
  {
   "property": "C106",
   "status": "proved",
   "theorems": [
    "Libra.Props.C106_program",
    "Libra.Props.C106_complete",
    "Libra.Props.C106_accepts",
    "Libra.Props.C106_circuit",
    "Libra.Props.C106_constants",
    "Libra.Props.C106_read"
   ],
   "note": "Without the random combination (-R); for the default program the conditions of the compiler are not checked. That the program meets the conditions of the compiler is computed by the kernel with a check that is proved correct. C106_read gives inputs with all these gates zero for messages whose numbers stay below 2^31; the message of zeros is the example."
  }
 ]
}