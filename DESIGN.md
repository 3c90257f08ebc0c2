# Design: a Lean 4 model of Libra

The subject is sunblaze-ucb/Libra as found in `/repo` (C++). This document says what is
modelled, how each property of `properties.jsonl` is stated and proved, where the code
disagrees with a property, and what is trusted.

## Architecture

`lean/Verif/` has four kinds of modules.

* `Spec/*`: small mathematical specifications (prime field, multilinear extension, meaning of a
  gate and of a circuit, circuit files, bilinear groups, masks, transcripts, challenge spaces).
  They do not mention the functions of the model.
* `Model/*`: the code, function by function; every definition cites file and lines. Mutable C arrays
  are lists or total functions `ℕ → α` updated pointwise, `for` loops are the combinators of
  `Model/Loop` (`loop`, `loopM`, `loopDownM`). A function that can fail returns an `Outcome`:
  `ok`, `reject` (the verifier returns false), `assertFail`, `exit`, `undefined` (undefined behaviour of
  C++: an index out of bounds, a shift by a negative amount, division by zero, ...) or `diverges`.
* `Proofs/*`: helper lemmas.
* `Props/*`: the property theorems, named `Cxx_...`, each next to an `example` or a theorem showing that
  a concrete case meets its hypotheses.

### Two levels of arithmetic

`Model/U256`, `Model/U512` and `Model/Fp` are bit exact: limbs are `BitVec 64` / `BitVec 128` and every
carry is the one of the code. `Props/Field` shows that the canonical elements (`Fp`, the 512-bit
values below `p`) form a field isomorphic to `ZMod p` under the operators of the code.

The protocol code is modelled generically over a commutative ring `F` and the property theorems are
stated for `Fp`, i.e. for the limbs, or for every commutative ring or field including `Fp`. The C++
often computes with the raw 512-bit value (`x.value = (a.value + b.value * ...) % mod`) instead of the
operators of `field_element`. `Model/RawExpr` and `Model/RawStmts` list each shape of raw statement
that occurs, and `Props/RawStmts` proves for every shape that on canonical operands the stored value
is canonical and is the one computed with field operations. This is what justifies writing field
operations in the protocol models.

### Protocol runs and randomness

Challenges are parameters of a run (`Challenges`), so a theorem about all challenges is a theorem
about every random tape. Soundness statements count challenge sequences: `Spec/Coins` defines the finite
space of challenges of a circuit and a bound is an inequality between cardinalities. Adversarial
provers are records of arbitrary functions with an arbitrary state type; they see everything the
verifier sends. The honest prover is one instance, so completeness and soundness speak about the
same verifier function.

### Groups

The pairing library is replaced by `Spec/Vpd`: additive groups `G1`, `G2`, `GT` that are `ZMod p`-modules
(written additively) with a bilinear map. Non-degeneracy is a hypothesis where it is needed. The secret
exponents of key generation are arbitrary field elements.

## Properties

### C01 Field operations compute in Z/p (proved)

Bit-exact limb model (BitVec 64/128) of u256b/u512b/field_element; refinement to ZMod p by carry-chain lemmas and a Barrett error bound.

Theorems: `C01_add`, `C01_sub`, `C01_mul`, `C01_field`.

Operators on canonical elements, for every pair.

### C02 Wide integer arithmetic is exact modulo the word size (proved)

Same limb model; each operator proved equal to the Nat operation modulo the word size.

Theorems: `C02_u256_add`, `C02_u256_mul`, `C02_u512_add`, `C02_u512_sub`, `C02_u512_mul`, `C02_conversions`, `C02_non_mod`, `C02_left_128`, `C02_u256_and`, `C02_u512_mul_high_dropped`.

### C03 256-bit subtraction (partial)

Same limb model; the property is false: prove the exact result (a-b-1 mod 2^256) and a concrete counterexample.

Theorems: `C03_sub_off_by_one`, `C03_sub_false`.

The code violates the property; proved false for every pair of operands, with the exact (off by one) result.

### C04 Modular reduction range (proved)

Barrett model: exact below 2^508, a counterexample above. `Model/RawStmts` lists every raw statement shape of provers and verifiers; each is proved to stay below the bound and to store the canonical residue.

Theorems: `C04_mod`, `C04_range`, `C04_mod_fails_above`, `RawStmt.all_canonical`, `RawStmt.s01_stores`, `RawStmt.s02_stores`, `RawStmt.s03_stores`, `RawStmt.s04_stores`, ... (34 more, see MANIFEST.json).

The bound 2^508 and every raw statement pattern of the provers and verifiers.

### C05 Integer comparisons are the numeric order (proved)

Limb comparisons proved equivalent to Nat order.

Theorems: `C05_u256`, `C05_u512`.

### C06 Decimal parsing of constants (partial)

Model of the two string constructors; induction on the digit list.

Theorems: `C06_u256`, `C06_u512_partial`, `C06_u512_false`, `C06_init_constants`.

True for the 256-bit constructor at every length; for the 512-bit constructor up to 78 digits, and proved false at 79.

### C07 Bit access and serialisation of field elements (partial)

Model of bit_stream/to_gmp_class/bit_at/testBit/bitLen with shift-out-of-range and clz(0) as explicit undefined behaviour.

Theorems: `C07_bit_stream`, `C07_bit_stream_injective`, `C07_to_gmp_class`, `C07_bit_at`, `C07_to_string`, `C07_test_bit_partial`, `C07_test_bit_false`, `C07_bitLen`, `C07_bitLen_zero`, `C07_u256_bitLen`, `C07_bitLen_wide`, `C07_u256_bitLen_zero`.

TestBit is undefined at 64 and 128, bitLen at 0.

### C08 Equality of field elements is equality in the field (proved)

Pocklington-style certificate (factored part > cube root) checked by the kernel; equality by injectivity of the limb encoding.

Theorems: `C08_eq`, `C08_eq_needs_canonical`, `C08_prime`, `C08_inverse`, `C08_roots`.

### C09 Polynomial objects evaluate as polynomials (proved)

Ring identities over any commutative ring, hence over the limbs.

Theorems: `C09_linear`, `C09_quadratic`, `C09_cubic`, `C09_quadruple`, `C09_quintuple`, `C09_add_linear`, `C09_add_quadratic`, `C09_add_cubic`, `C09_add_quadruple`, `C09_add_quintuple`, `C09_mul_linear`, `C09_mul_quadratic`, `C09_const`.

### C10 Circuit reader produces padded layers (proved)

Model of read_circuit as a total function from a token list to an Outcome (ok / assert / exit / undefined); induction on gates and layers.

Theorems: `C10_plain`, `C10_zk`.

Both readers, every readable file; the meta file of the zk reader included.

### C11 Circuit reader rejects ill-formed files (proved)

Same model; inversion lemma for the ok outcome.

Theorems: `C11_accepted`, `C11_rejected`, `C11_empty_layer`, `C11_plain_unchecked`.

Zk reader: every accepted token stream, every readable ill-formed file; an empty layer makes it loop for ever; the plain reader does not check.

### C12 Circuit evaluation follows the gate types (proved)

Model of evaluate with Outcome; compare to a separate denotational gate semantics.

Theorems: `C12_evaluate`, `C12_gate_meaning`, `C12_boolean`.

Both evaluation functions.

### C13 Evaluation never touches memory outside a layer (proved)

Same model; undefined behaviour (out-of-range index) is an explicit outcome; prove its absence and exhibit it for a 3-gate layer.

Theorems: `C13_defined`, `C13_exact`, `C13_plain_undefined`.

The condition on gate counts is exact; the plain reader lets undefined evaluations through.

### C14 V_res and V_in are the multilinear extension (proved)

In-place folding loop modelled with function update; compare to the sum-over-hypercube specification.

Theorems: `C14_fold_is_extension`, `C14_multilinear`, `C14_corner`, `C14_unique`.

### C15 beta tables hold the equality polynomial (proved)

In-place doubling loop; closed form by induction.

Theorems: `C15_half_tables`, `C15_prover_tables`, `C15_verifier_tables`, `C15_zk_tables`, `C15_zk_block_tables`.

Plain prover and verifier, zk prover and verifier, whole-layer and block tables.

### C16 direct_relay is the equality polynomial between two points (proved)

Product formula against the specification sum.

Theorems: `C16_direct_relay`, `C16_other_layers`.

### C17 Gate predicates are the wiring extensions (proved)

Accumulating loops over gates; equal to the specification sum over gates.

Theorems: `C17_two_input`, `C17_one_input`, `C17_sum_gate`, `C17_zk`, `C17_one_input_aborts`, `C17_zk_relay`, `C17_zk_relay_block`.

Plain verifier and zk verifier (gate by gate branch); the block branch is C18. The last two theorems say what one relay gate adds to
the predicates when its second operand is not 0: the gate by gate branch ignores the operand, the block branch uses it.

### C18 Data-parallel predicates agree with the general ones (proved)

Block loops; re-indexing of the gate sum; counterexample for range sums ending at a block boundary.

Theorems: `C18_parallel`, `C18_range_to_block_end`.

Every block-repeated layer meeting the stated condition on range-sum gates, and a layer violating it.

### C19 Plain GKR completeness (proved)

Whole verify() as a function of circuit, prover and challenges; completeness by composing the round invariants over rounds and layers; from the tokens of a file by composition with C10.

Theorems: `C19_complete`, `C19_from_file`.

All well-formed circuits, and from the tokens of every good file.

### C20 Honest round polynomials (proved)

Invariant on the bookkeeping tables, induction on rounds.

Theorems: `C20_phase1`, `C20_phase2`, `C20_claims`, `C20_zk_phase1`, `C20_zk_claim`, `C20_zk_phase2`.

Both provers, every well-formed circuit, layer and challenge.

### C21 Final claims are evaluations of the previous layer (proved)

Same invariant at the last round.

Theorems: `C21_final_claims`, `C21_zk_final_claims`.

Both provers.

### C22 Plain GKR soundness (partial)

Verifier against an arbitrary strategy. The bound counts bad challenges round by round (degree 2 polynomials agree on at most two points). The code violates the property: explicit cheating prover.

Theorems: `C22_inputs_not_bound`, `C22_output_not_bound`, `C22_unsound`, `C22_soundness_partial`, `C22_above_layer1_partial`, `C22_field_size`.

The property is false of the code: a prover can claim the output for any other input and is always accepted (phase 2 of layer 1 uses the challenge 0), and V_res is computed by the prover. Proved: the soundness bound for the verifier with the one missing check, and for the code down to layer 1.

### C23 Zero-knowledge protocol completeness (proved)

Whole zk verify() with masks and commitments in abstract bilinear groups, all masks, secrets and challenges; the Fiat-Shamir run is an instance.

Theorems: `C23_zk_complete`, `C23_single_gate`, `C23_fiat_shamir`.

Every well-formed circuit whose layers below the output have at least two gate slots; the code reads out of bounds otherwise, which is proved on a one-gate layer; also with the challenges taken from the transcript.

### C24 Mask sum announced by the prover is the true mask sum (proved)

Invariant on maskpoly_sumc / maskpoly_sumr through all rounds.

Theorems: `C24_mask_sum`, `C20_zk_phase1`, `C20_zk_phase2`, `C24_query`, `C24_queryRg`.

The announced sum, and the mask part of every round message.

### C25 Masking hides the round messages (proved)

Linear algebra over the mask coefficients: explicit bijection between masks producing the transcripts of two witnesses.

Theorems: `C25_consistent`, `C25_unique_mask`, `C25_count`, `C25_hiding`.

The round messages of one layer: for each consistent list of messages exactly one mask; equal counts for any two provers with the same claim.

### C26 Masks are uniform field elements (partial)

Range of the sampler is bounded by 2^93 < p: negation.

Theorems: `C26_random_range_false`, `C26_random_canonical_partial`.

The property is false: at most 2^93 values are reached.

### C27 VPD completeness for the layer masks (proved)

Abstract cyclic groups with a bilinear map; exponents arithmetic.

Theorems: `C27_maskR`, `C27_sumMask`, `C27_sumMask_two_variables`.

All pairings, secrets, coefficients, blindings and points; vpd_test in at least three variables as used by the protocol, with a counterexample in two variables.

### C28 VPD completeness for the input (proved)

Same, multilinear quotients by induction on the number of variables.

Theorems: `C28_input`.

All table sizes, pairings, secrets, masks, blindings and points.

### C29 VPD check_commit (proved)

Bilinearity; non-degeneracy of the pairing on generators as stated hypothesis.

Theorems: `C29_honest`, `C29_accepted`.

The three schemes; the second half assumes that pairing with g2 is injective.

### C30 Two different accepted answers break the trapdoor equation (proved)

Subtract the two accepted pairing equations.

Theorems: `C30_maskR`, `C30_sumMask`, `C30_input`, `C30_nontrivial`.

The three schemes, non-degenerate pairing.

### C31 Fast exponentiation equals scalar multiplication (proved)

Double-and-add / windowed loops; induction on bits; subset tables.

Theorems: `C31_exp`, `C31_multiScalar`.

Exact range of pre_exp.

### C32 pre_input converts evaluations to coefficients (proved)

Butterfly loop against the specification of monomial coefficients.

Theorems: `C32_preInput`.

### C33 Announced proof size is the file size (proved)

List model of the message containers; induction on messages.

Theorems: `C33_size`.

Every sequence of messages.

### C34 Proof file can be read back (proved)

Bit packing model; left inverse.

Theorems: `C34_read_back`, `C34_injective`, `C34_kinds_needed`.

Reading back needs the kinds of the messages, which are proved not to be determined by the file.

### C35 Challenges bind the messages they answer (partial)

Model of the order in which messages are pushed and challenges drawn, for an arbitrary mixing function; explicit prover that fixes its messages after seeing the challenges.

Theorems: `C35_false`, `C35_some_challenges`.

False of the code: for every mixing function and every circuit a prover that changes only the first polynomial of the last layer is accepted with every claimed output.

### C36 Challenge derivation is collision-free on distinct transcripts before hashing (partial)

Model of padding; negation by witness; empty transcript is an explicit undefined outcome.

Theorems: `C36_same_form_partial`, `C36_false`, `C36_empty`.

False of the code (zero padding; the empty transcript reads out of bounds); proved for transcripts with the same kinds of messages.

### C37 Challenges are field elements (proved)

Model of random(size) with the AES-based hash as an arbitrary function parameter.

Theorems: `C37_random`, `C37_random1`.

### C38 CMT-style prover completeness (proved)

Model of the O(S log S) prover and the traditional verifier; the messages are proved to be the partial sums of the layer polynomial.

Theorems: `C38_inv2`, `C38_complete`, `C38_complete_ring`, `C38_evaluate`, `C38_phase1`, `C38_phase2`.

Whole protocol run (verifier_traditional.cpp with prover_clogc.cpp) over the code field; the messages of both phases are the sums of the layer polynomial. A layer below another one must have at least two gates (with one gate the prover shifts by -1, undefined; the reader of the traditional verifier pads such layers) and the depth is at most 1000 (size of circuit_value).

### C39 Negative and large inputs (partial)

Model of the int / unsigned long long constructors; partial range and counterexamples.

Theorems: `C39_ofInt_partial`, `C39_ofInt_negative_false`, `C39_input_value`, `C39_exact`.

False of the code outside 0 <= x < 2^31; the value of every input line is proved, with the exact range in which it is x mod p.

### C40 Dummy inputs do not influence acceptance (partial)

Evaluate versus verifier input table; counterexample and the guarded statement.

Theorems: `C40_plain_exact`, `C40_plain_false`, `C40_zk`.

False of the plain version (proved, with the exact condition for acceptance); true of the zk version, whose reader forces operand 0.

### C41 Constants above the input layer (partial)

Both protocols, with constants in any layer above the relays of the inputs: the honest prover is accepted exactly when the multilinear
extension of the constants of each layer, combined at the points of the claim about that layer, is 0, and is rejected otherwise. For
random challenges this has probability at most `(n + 1) / |F|`, where a layer with a constant other than zero has `2^n` gates. Layers
have at least two gates (with one gate there is no round that could reject); layers declared parallel are repetitions in the sense of
`Repeated`, which excludes constants in them.

Proof: prover and verifier act as if the constants were padding (`noConst`), so a layer is accepted for the claim without the constants;
a claim that differs from it is noticed by the check of the first round. The bound is the count of roots of a multilinear polynomial.

Theorems: `C41_constants_rejected`, `C41_false`, `C41_exact`, `C41_almost_never`, `C41_zk_exact`, `C41_zk_almost_never`, `C41_zk_false`.

False of the code.

### C42 Soundness of the zero-knowledge verifier (partial)

The zk verifier against an arbitrary prover; an explicit prover that shifts the announced mask sum is accepted for every circuit, output and challenge.

Theorems: `C42_claim_any_output`, `C42_unsound`.

What would make it sound: `Spec/ZkRepair` is the verifier with the missing checks, each marked `-- new`: the announced sum of the
sum-check mask is compared with the committed mask, `v_u` is fixed before phase 2, the openings are values of the committed
polynomials, the factors `Iuv`, `Zu`, `Zv` and the points are computed by the verifier, `rv` and `rc` are drawn in layer 1 too, and the masks of
all layers are committed before the run (`Committed.Early`). Commitments are ideal here: a `Committed` record says to which polynomials the prover is
committed. `C42_soundness_partial`: every prover with a wrong output is accepted with probability at most `zkSoundnessError C / |F|`.
The proof follows the claims through the layers (`ZkTruth`: the true round polynomials of the masked sum-check, degree 2 and 5 in the last rounds;
`ZkSound`: a false claim stays false unless a challenge is a root of a nonzero difference; `ZkSoundBound`: the counting). The values of the masked layers
are not determined by the circuit alone but by the masks; this is why `Early` is needed (C96). `C42_repair_complete`: the honest prover passes all added checks.
`C42_repair_stricter`: what the repaired verifier accepts the code accepts (same challenges, zero in layer 1 as in the code).

The property is false of the code: proved that every output is accepted for every circuit and all challenges, because the announced sum of the mask is added to the claim without a check.

### C43 Openings bind whoever made the keys (partial)

Algebra in the abstract groups: with the secrets, witnesses for any answer are computed.

Theorems: `C43_trapdoor`.

False of the code: proved that the key generator opens every commitment of the three schemes to every answer.

### C44 Every witness of an accepted opening passes the knowledge check (partial)

Inversion of the accepting run of each verify(): which equations were checked.

Theorems: `C44_knowledge_partial`, `C44_last_unchecked`.

True for vpd_test; for vpdR and input_vpd all but the last witness are covered, and the last companion is proved to be ignored.

### C45 Challenges range over the whole field (partial)

Model of random(size): the upper half of the state is never advanced.

Theorems: `C45_half_constant`, `C45_constant`, `C45_few_values`, `C45_first_challenge`.

False of the code: proved for every mixing function that all challenges of a call after the first have the same upper half.

### C46 Soundness of the traditional verifier (proved)

The counting argument of C22 for the traditional verifier, against an arbitrary prover.

Theorems: `C46_soundness`, `C46_vRes_needed`.

Arbitrary prover (any state type, any messages); V_res, which the code runs in the prover, must be the computation of the code, and C46_vRes_needed shows what happens otherwise.

### C47 Completeness of the block-repeated protocol (proved)

Model of the block prover and verifier; phase 0 (cubic, block index) and phases 1, 2; invariants by induction on rounds and layers.

Theorems: `C47_complete`, `C47_complete_ring`, `C47_evaluate`, `C47_one_block`, `C47_few_blocks`.

Whole protocol run over the code field (prover_bc_clogc.cpp, verifier_bc_clogc.cpp); log >= 1, 2^log <= number of blocks and wire operands of dummies are needed: the first two are proved necessary.

### C48 Soundness of the block-repeated verifier (partial)

Explicit prover for the block verifier: the factor it announces absorbs any difference. With that factor recomputed from the challenges: union bound over all coins (cubic rounds of phase 0, scaled quadratic rounds), for arbitrary provers.

Theorems: `C48_unsound`, `C48_unsound_run`, `C48_soundness_partial`, `C48_repair_complete`.

False of the code: for every circuit and every output a prover is accepted for all challenges at which no layer polynomial vanishes, because beta_blk_val comes from the prover; with the right beta_blk_val the soundness bound is proved for all provers, and the honest prover is accepted as before.

### C49 The matrix benchmark computes the matrix product (partial)

Model of the generator; its output is a file in the sense of `Spec/File`, so C10 and C12 give the value of each output for all sizes and matrices; compared with the matrix product.

Theorems: `C49_output_partial`, `C49_ignores_second`, `C49_false`.

The claim is false for every size (C49_false): the generator wires the products to entries i*k and k*j of the first matrix and never uses the second (C49_ignores_second). C49_output_partial proves that every generated file is accepted and evaluates, and gives the exact value of each output.

### C50 Compiled circuits compute what the program says (proved)

Model of the compiler on parsed lines. Invariants for the graph (every gate carries a variable), the levels, the relays and the numbering give the two files in closed form (`Spec/File`); C10 and C12 then give acceptance, and induction on the levels gives the values. The meaning of a program is the set of its equations (`Spec/Program`), which are proved to have exactly one solution.

Theorems: `C50_compile`.

Programs without SS (C51); the hypotheses ask that the files fit the reader (fewer than 999999 layers, of at most 2^30 gates; see C69), that the outputs of the wiring file start at most at 0x3f3f3f3f, and that PASS copies a constant or input to an output. Success of the compiler is a hypothesis here.

### C51 SS is the sum of the variables from the first to the last operand (partial)

The same theorem with the meaning of the compiled SS; a program and inputs on which the sum does not occur anywhere in the circuit.

Theorems: `C51_sum_partial`, `C51_false`.

False of the code: the last summand is missing; C51_sum_partial gives the exact value for all programs.

### C52 Declared outputs are the outputs of the circuit (partial)

The files do not depend on output lines; a program whose output is not in the last layer.

Theorems: `C52_outputs_ignored`, `C52_false`.

False of the code: output lines have no effect on the files.

### C53 The threaded rounds do not depend on the schedule (proved)

Threads as programs of single loads and stores, interleaved arbitrarily (`Model/Threads`); threads with disjoint footprints are race free and leave what they leave when run alone; the loops are then those of the prover without threads.

Theorems: `C53_phase1_update`, `C53_phase2_update`, `C53_output`, `C53_join_terminates`.

Every interleaving of single loads and stores; over any commutative ring (the 512-bit arithmetic is C55).

### C54 The threaded prover is accepted under every schedule (partial)

Threads of the initialisation: a reachable state with two conflicting accesses for every gate that crosses parts; a scheduler that makes the verifier reject, by computation; completeness for the other circuits under every scheduler, by the invariants of C38.

Theorems: `C54_race1`, `C54_race2`, `C54_race_free`, `C54_complete_partial`, `C54_false`.

False of the code: every gate that crosses the parts of two threads is a data race (C54_race1, C54_race2), and a circuit is given that is accepted under one schedule and rejected under another. C54_complete_partial proves acceptance under every schedule for circuits without such gates.

### C55 The threaded prover stores canonical values of the right residue class (partial)

Raw statements executed with the limb operations; exact characterisation of the slope statement, counterexamples for the sums.

Theorems: `C55_slope_partial`, `C55_underflow`, `C55_slope1`, `C55_accumulate_partial`, `C55_accumulate_false`, `C55_gather_partial`, `C55_gather_false`.

False of the code: the slope is right iff the subtraction does not underflow; sums of more products than the reduction allows can be non-canonical.

### C56 The proof file has a fixed layout (proved)

Kinds of the messages recorded by each part of verify() composed along the layer loop; the rounds record a chain of checked polynomials.

Theorems: `C56_shape`, `C56_size`, `C56_layer`.

Every prover, hash function and encoding of points; C56_layer is stated for one layer from its start to its end.

### C57 The proof file determines the claim it proves (partial)

Simulation: the verifier with a prover that claims another output and shifts one unrecorded number runs in lock step with the original and leaves the same transcript.

Theorems: `C57_any_claim`, `C57_false`.

False of the code: the honest proof file of every circuit is also the file of an accepted prover that claims any other output.

### C58 An accepted SHA-256 block is an evaluation of the compression function (proved)

A program logic for the generator: what a generated piece of code says about any values of the variables; bit vectors of field elements as words; the equations of the program are shown to be those of the compression function, using that numbers below 2^40 are distinct in the field.

Theorems: `C58_generates`, `C58_sound`.

The program of the 64-round block as used by build.sh (-R -P -m i); any round constants and old hash value; word 0 of the message is assumed to be a word (C60).

### C59 Every message has an accepted SHA-256 block (proved)

An explicit assignment to all inputs, computed from the message, satisfies the equations.

Theorems: `C59_complete`.

Every message, old hash value and round constants.

### C60 The message of an accepted SHA-256 block consists of 32-bit words (partial)

Witness: the assignment of C59 for a message whose first word is increased by 2^32.

Theorems: `C60_checked_partial`, `C60_second_preimage`, `C60_false`.

False of the code: word 0 of the message has no bit decomposition, and 2^32 can be added to it; the other fifteen words are checked (C60_checked_partial).

### C61 The SHA-256 circuit proves the compression function (proved)

The generated program satisfies the hypotheses of C50 (variables defined once, in order); composition with C50 and C58. That the compiler accepts it is C62 and an analysis of the depths of the generated lines: all bits of one sum have the same depth.

Theorems: `C61_program`, `C61_accepts`, `C61_circuit`, `C61_accepted`.

For every complete wiring file the compiler succeeds (C61_accepted); the meaning of the circuit is for files that fit the reader (up to 2^11 blocks by C69_sha256).

### C62 The circuit compiler accepts every ordered program (proved)

Success of every phase of the compiler under explicit conditions on the program (`Acceptable`) and the wiring file (`WiringComplete`): reading, levels, relays, layers, wiring, merging. Concrete programs show that the conditions cannot be dropped.

Theorems: `C62_accepts`, `C62_compiles`, `C62_order`, `C62_depth`, `C62_gap`.

Sufficient conditions, with counterexamples for programs and wiring files that do not meet them.

### C63 A program can be compiled and proved (proved)

Layers of the merged file are copies of the first block (position arithmetic over the output of the compiler, no level is empty), which is the hypothesis `ParallelOk` of C23; composition of C62, C10 and C23. The converse from the assertion of the reader.

Theorems: `C63_parallel`, `C63_complete`, `C63_sha256`, `C63_power_of_two`.

Within the sizes of C69.

### C64 Numbers of a wiring file enter the circuit unchanged (partial)

The number as read is a function on the integers (truncation to `int`, then modulo 2^64); its fixed points by arithmetic, the rest from C51; a compiled witness for the negation.

Theorems: `C64_exact`, `C64_partial`, `C64_false`.

False of the code for numbers outside 0 <= c < 2^31 (C64_exact, C64_false); C50, C51, C61-C63 hold for all 64-bit numbers, for the values as read.

### C65 The Merkle tree benchmark can be generated and proved (proved)

The generator is a fold over the blocks with the state of the Python loop; a closed form of the state after every block by induction (startOf, blockVars), from which the conditions of the compiler (C62, C63) follow.

Theorems: `C65_wiring`, `C65_single`, `C65_padding`, `C65_complete`.

Compilation and proof for n <= 10: larger trees are not shown to fit the reader, and above n = 15 the first output exceeds a sentinel of the compiler.

### C66 An accepted Merkle tree has the root given in the public inputs (proved)

Induction over the levels of the tree: the hash inputs of a block are, by the closed form of the wiring, the message inputs of the block above; each block by C58.

Theorems: `C66_root`, `C66_circuit`.

Numbers as the circuit has them; C66_circuit for n <= 10.

### C67 Every Merkle tree has accepted inputs (partial)

An assignment to all variables of the wiring is defined block by block (the inputs of C59); the positions shared between blocks are shown to need the same values; bits of a message are the low bits of the hash value below.

Theorems: `C67_tree`, `C67_read_partial`.

Proved for the numbers of the wiring file (C67_tree); for the numbers as the circuit has them only for trees of words below 2^31, and false otherwise, see C64 and C68.

### C68 The SHA-256 benchmarks can be run on SHA-256 (partial)

The range of the number as read does not contain 0xb5c0fbcf; every input of a block is a copy of a number of the wiring file.

Theorems: `C68_blocks`, `C68_false`.

False of the code; the exact range of numbers is C64_exact.

### C69 The size of compiled circuits is bounded by the size of their sources (proved)

Levels are attained by chains of operands, so there are no more of them than variables; every operand adds at most one relay to each level (count over the loop of addRelay), then padding at most doubles a level. The number of lines of the SHA-256 program by a cost predicate over the generator.

Theorems: `C69_size`, `C69_fits`, `C69_compiles`, `C69_sha256`.

Programs that meet the conditions of C62.

### C70 The outputs of a compiled circuit are the deepest variables of the program (proved)

The levels computed by the compiler are the depths; the vectors of a level hold its variables in order and then relays for deeper operands, of which the last level has none (invariant over the loop of DAG_to_layered); padding appends dummy gates.

Theorems: `C70_outputs`.

Programs without SS that meet the conditions of C62, circuits within the sizes of the reader (C69).

### C71 The Lanczos generator writes a program that computes one pixel of the scaled image (proved)

The loops of print_pws as recursive functions with the counter as state; specification: a double sum with mirrored weights. Invariant: the set of variables written so far with their values and depths.

Theorems: `C71_program`.

### C72 The Lanczos benchmark scales the image (proved)

print_rdl as a function to wiring lines; the lines satisfy the conditions of C62, so the compiled circuit has the meaning of the program in every block; the output position by C70 (a single deepest variable), acceptance by C63, sizes by C69.

Theorems: `C72_generates`, `C72_scales`, `C72_complete`.

Numbers as the circuit has them (C64); 64-bit numbers.

### C73 The Lanczos benchmark uses the coefficients of the filter (partial)

Counterexample for ratio 1; with numbers in the range of C64 it follows from C72.

Theorems: `C73_partial`, `C73_false`.

False of the code: C73_false is a counterexample with the coefficients of ratio 1; it holds if all numbers are between 0 and 2^31.

### C74 A zero output layer of the SHA-256 benchmark certifies the hash value (partial)

Induction over the generator with the depth of every variable: only the tests of `a` reach depth 9. With C70 this gives the output layer; its gates do not read the claimed hash, so a tree of C67 with another root keeps a zero output layer.

Theorems: `C74_partial`, `C74_unchecked`, `C74_forged`, `C74_false`.

False of the code: exactly 64 of the tests are in the output layer; the claimed hash is not checked by it (C74_unchecked) and every claimed Merkle root is accepted (C74_forged, C74_false).

### C75 The reader of the traditional programs builds the circuit of the file (proved)

The reader (Model/TradReader) is unfolded line by line as for C10 (Spec/TradFile says which circuit a file describes); evaluation by C38.

Theorems: `C75_read`, `C75_circuit`, `C75_value`, `C75_order_unchecked`.

C75_value for at most 1000 layers (the size of an array of the prover). The reader does not reject lines that are out of order (C75_order_unchecked).

### C76 The program for repeated circuits passes on every well-formed file (proved)

The program is modelled from the numbers in the file and on the command line to the message; the file gives a repeated circuit, then C47.

Theorems: `C76_pass`, `C76_few_copies`, `C76_one_copy`, `C76_same_inputs`.

Sizes: 2^log times the number of gates of a layer fits an int.

### C77 The program with independent runs passes exactly when all runs do (proved)

Induction on the number of runs, with C38 for each.

Theorems: `C77_pass`, `C77_exact`, `C77_no_copy`.

### C78 A circuit file means the same to the linear-time and the traditional programs (proved)

Lines of additions, multiplications and dummies are not changed by either reader, so the circuits have the same layers but for the relay layer; induction on the layer.

Theorems: `C78_same_values`, `C78_same_values_zk`.

### C79 The generator of matrix circuits writes circuits that multiply matrices (proved)

Printing loops composed with a count of the printed characters; the three nested loops print the lines 0, 1, 2, ...; induction on the addition tree.

Theorems: `C79_matrix_product`, `C79_accepted`, `C79_limit`, `C79_not_power`.

### C80 The circuits of modes 0 and 1 of the generator (proved)

Induction on the layer; closed form of the iterated exclusive or in terms of signs.

Theorems: `C80_doubling`, `C80_narrow`, `C80_xor`, `C80_width`.

### C81 The files written by the generator can be used together (partial)

The fifth number of the first line of the meta file is a count of characters and at least 31, the first is not 0.

Theorems: `C81_matrix_partial`, `C81_matrix_false`, `C81_doubling_false`, `C81_sum_false`.

False of the code: the meta files of modes 1 and 2 are accepted with no circuit file, mode 5 outputs 0; the circuit of mode 2 is accepted with another meta file (C81_matrix_partial). The pair written by mode 4 is accepted (C49).

### C82 The hash of the transcript is built from AES-128 (proved)

Intrinsics as functions on 128-bit values; lemmas on their bytes; induction on the round for the key schedule and the state; the substitution table is compared with the inverse in the field of 256 elements for all bytes.

Theorems: `C82_aes128`, `C82_hash`, `C82_unique`, `C82_inverse`.

The AES instructions are modelled after the Intel manual.

### C83 The compiler reads the text of a program as the program (proved)

Patterns as sequences of characters and repetitions, sscanf as a function on texts; each pattern is characterised by the lines it matches, the patterns are exclusive, and the formats read the numbers; induction on the lines, in both directions.

Theorems: `C83_program`, `C83_accepted`, `C83_unambiguous`, `C83_text`, `C83_large`.

Regex_match, sscanf and getline are modelled for the patterns and formats that occur. C83_large shows why numbers of 2^31 and more are left out.

### C84 The compiler reads the text of a wiring as the wiring (partial)

As C83; for the negative part, the run on a text with a constant that has two minus signs.

Theorems: `C84_wiring_partial`, `C84_signs`, `C84_false`.

Texts of wirings are read as written; the converse is false of the code: a constant with two minus signs is accepted and gets the number of an earlier line.

### C85 Numbers written to the circuit and meta files are the numbers read from them (proved)

A printed number followed by white space contributes exactly itself to what is read, whatever follows; simulation of the writer of texts by the writer of numbers through all loops.

Theorems: `C85_compile`, `C85_circuit`, `C85_scan`, `C85_print`.

The list-of-numbers abstraction of the readers is justified by C85_scan.

### C86 Soundness of the verifier of the threaded protocol (proved)

The verifier is the traditional one with a stricter input table; acceptance implies acceptance by the latter, whose bound is C46. For the program: the reader is evaluated on the file (C87).

Theorems: `C86_stricter`, `C86_soundness`, `C86_program`.

V_res must be computed as in the code (it is called on the prover object, see C46).

### C87 The circuit file of the threaded protocol is read as the circuit it describes, with the right gate lists (proved)

Model of the reader with both maps; induction over the lines and layers; the maps are compared with the lists derived from the gates.

Theorems: `C87_read`, `C87_maps`, `C87_twice`, `C87_header`.

C87_twice is the counterexample for files with two lines for one gate.

### C88 The threaded program prints Pass for every circuit file (partial)

Reader (C87) followed by completeness under every scheduler for local circuits (C54); an input that is not a constant fails the assertion in evaluate().

Theorems: `C88_program_partial`, `C88_inputs`.

Passes under every scheduler on local circuits with constant inputs; aborts when an input is not a constant. False in general: C54_false (races), C55_underflow (512-bit arithmetic of phase 2).

### C89 The matrix multiplication program multiplies matrices (proved)

The wiring functions by shifts and masks equal division and remainder; induction on the levels of additions (each sums a block of products).

Theorems: `C89_product`, `C89_digits`, `C89_large`.

### C90 The addition layers of the matrix multiplication program are checked exactly (proved)

`extrap` is Lagrange interpolation at 0..n-1; the table is the product of the coordinates (induction on its doublings); one layer, then induction on the layers.

Theorems: `C90_extrap`, `C90_direct`, `C90_layer`, `C90_layers`.

### C91 The matrix multiplication program ends without a message on honest runs (partial)

The first message by exchanging the loops; the loops of checks reach the index -1 whatever the values are; a concrete run of two by two matrices evaluated in the kernel.

Theorems: `C91_first_partial`, `C91_undefined`, `C91_rejects`, `C91_final`, `C91_messages_partial`, `C91_checks_partial`, `C91_columns`.

False of the code: C91_undefined (every run reads out of range or overflows), C91_rejects (an honest second message fails its check).

What the rounds compute is stated against the sum-check polynomial of `Spec/MatrixProduct.lean`. The tables of the
two matrices are folded correctly for every point (C91_final). The messages are those of the sum-check if the
point reads the same from both ends (C91_messages_partial), and then the checks pass if the challenge two places
further is the same (C91_checks_partial). One check fails even then: it reads a fourth value of a message that has
three, and finds the 0 of the initialisation (C91_columns).

### C92 The stand-alone polynomial commitment is complete (proved)

Public elements are the equality polynomial at the secrets (induction on the levels); the multi-exponentiation by Horner's rule over the bits; the division by a telescoping sum of partial evaluations.

Theorems: `C92_complete`, `C92_program`, `C92_sizes`.

### C93 Vectors of every length can be committed to and opened (partial)

The same computation without the last entry: the difference is its coefficient times its public element.

Theorems: `C93_odd_partial`, `C93_rejects`.

False of the code; the exact condition under which an odd-length opening is accepted is proved.

### C94 The stand-alone polynomial commitment binds (partial)

verify as an equation in the target group; pairing with the generator is injective. Negative answers by the bits of two's complement.

Theorems: `C94_relation_partial`, `C94_first_unchecked`, `C94_negative`, `C94_oversized`.

Proved for answers from 0 to 2^254 and all companions but the first; false otherwise (C94_negative: the answer minus 2^254 is accepted too).

### C95 Only the value itself passes as the answer of an opening (partial)

verify on integers is verify on natural numbers at the number spelled by the low bits of two's complement, by induction on the bits; then C30. The value read back is the parsing theorem of C06 with one more digit.

Theorems: `C95_exact`, `C95_field`, `C95_negative`, `C95_relation_partial`, `C95_goes_on`, `C95_other_value`.

The claim in the title is false of the code for negative answers (C95_negative); exactly which integers pass, and what they bind to, is proved for all of them.


### C96 The masks of the values are committed in time (partial)

The repaired verifier of C42 with commitments to the masks as the code makes them: `Committed.R i` is read off the prover's state when `sumcheck_init`
of layer `i` has returned. The prover (`Proofs/ZkLate.late`) is honest about another input down to layer 2; in layer 1 it goes on with the values of the committed input and
shifts the constant coefficient of the mask so that the combined claim is true. `switch_layer` shows that the switching prover's run is the run of the two
honest provers; `other_layer` that the verifier does not see the input layer; `late_count` counts the challenges for which no shift exists.

Theorems: `C96_late_masks`, `C96_accepted`.

False of the code; together with `C42_soundness_partial` it shows that `Early` is what is missing.

### C97 The circuits written by bin/gen_lanczos.py can be read and proved (partial)

`Model/LanczosDirect` follows `print_circuit` token by token; `Proofs/LanczosDirect.generate_eq` shows by induction over the loops that the tokens are those
of a file of four layers whose lines are given in closed form; `file_good` that this file satisfies the conditions of C10, C19 and C23. The other sizes are
C13's.

Theorems: `C97_accepted_partial`, `C97_false`, `C97_usage`.

False when the number of windows in a row is no power of two.

### C98 The circuits written by bin/gen_lanczos.py scale the image (partial)

The value of an output by the closed form of the lines (`direct_output`). That no weights exist follows from two constant images: the output is quadratic.

Theorems: `C98_output_partial`, `C98_not_linear`, `C98_false`.

False of the code for every size.

### C99 A run of the zero-knowledge protocol reveals only the outputs (partial)

Modelled: `Spec/ZkView` wraps a prover so that it records everything that it returns and every public member that `verify` reads; `view` is `verify`
with this wrapper and returns the record (`C99_view_verify`: the same verdict; `C99_recorded`: every accepted run can be recorded). `Rand` is the finite set of
all choices of masks and blindings of one run; the secrets of the keys and the challenges are fixed, so that the statement also covers a verifier who
knows the secrets. Challenges have to avoid the values of `Generic`: `rho = 0`, coordinates 0 and 1, equal last coordinates, `r_c = 1/2`.

Proof: a bijection between the choices for the two inputs under which the records are equal. Per layer: `R` is shifted such that the two masked claims
stay the same (`ZkViewShift`), then the sum-check mask such that the round messages stay the same (C25, `ZkViewBij`), then the blindings such that commitments
and witnesses stay the same (`VpdForm`: a commitment and its opening are an affine bijective function of the blindings). `ZkViewRun` and `ZkViewEnd` show
by induction over the layers that the two runs produce the same record. `C99_generic` counts the bad challenges with a union bound, so that for uniform
challenges no function of the record tells two inputs apart with more than this probability (`C99_distinguisher_partial`).

Partial because the full statement is false: in layer 1 all challenges of phase 2 are 0, and the second claim is the masked input at this point, where the mask
vanishes: the first input in the clear (`C99_first_input`; the verifier does not use the claim). Without this entry of the record, or if the first inputs
agree, the statement is proved. `C99_corner`: for the excluded challenges it fails. The masks of the code are not uniform (C26) and challenges come from a
hash of the transcript or from `rand`; both are outside this statement. The simulator is not efficient: the theorem compares two inputs.

Theorems: `C99_zero_knowledge_partial`, `C99_same_distribution_partial`, `C99_distinguisher_partial`, `C99_generic`, `C99_first_input`, `C99_corner`, `C99_view_verify`, `C99_recorded`.

### C100 The SHA-256 program of bin/sha256gen_merkle.py accepts hashes (partial)

The generator in `bin` is the one of C58 except for two functions: `do_addition` writes `SS` (the sum of the variables) where a word has to be put together
from its bits, and `verify_bits` writes `NOT` and a product. `Model/Sha256Bin` has these functions and those that call them. A logic for the lines of a run
(`Tells` in `Proofs/Sha256Bin`) collects what accepted blocks satisfy: the tested vectors are bits, and the words that are compared with their sums are at most
32. So no block that starts from the initial hash value of SHA-256 is accepted, whatever the message, the other inputs and the reading of `SS` (as it is meant,
or without the last summand as the compiler has it). Not modelled: `-4`, which calls a function that is missing from the file.

Theorems: `C100_generates`, `C100_small`, `C100_rejects`, `C100_false`.

### C101 The older compilers compute the programs without constants (proved)

`Model/OldCompiler` has `parser_sha.cpp` and `parser_lanczos.cpp`, which differ in the lines they accept: reading of the wiring file and of the program
(`k` copies), topological sort, relays by adding zero, zero gates on all layers, padding, renumbering. The proof follows the phases: `PInv` says which gate stands
for which variable after reading (`Proofs/OldCompilerRead`), `Proofs/OldCompilerSort` that the sort reaches all gates and gives each a layer above its operands,
`LInv` (`Proofs/OldCompilerRelay`) that after the relays all operands are on the layer below and that every solution of the new graph is one of the old graph,
`Named` that gates are renumbered by their positions in the layers, `Proofs/OldCompilerFile` that the file is good for the reader and that the values of
the circuit solve the graph. `Spec/OldProgram` states the programs and the order of the inputs. `OldCompilesTo` holds for every commutative ring.

Theorems: `C101_compile`, `C101_rejects`.

### C102 The older compilers agree with the newer one (partial)

What is computed with constants is stated with `HoldsOld`, where the constant `c` is input `c`. Three runs of the model show the disagreements.

Theorems: `C102_constants_partial`, `C102_constant_false`, `C102_order_false`, `C102_cycle`.

### C103 The statistics program prints the size and the depth of a program (partial)

`Model/Stats` has `parser.cpp`: the edges, the counters and the recursive search with its marks; indices out of range are undefined. `Spec/Stats` says what a line reads and
writes and what a path is. The search is followed with two invariants (`Proofs/Stats`): a mark is the length of a path and the maximum is the greatest mark; the successors
of marked vertices are marked. So every place that can be reached is marked with the length of some path. The search ends because every inner call marks a vertex.

Theorems: `C103_counts`, `C103_depth_partial`, `C103_layered_partial`, `C103_false`, `C103_scan`, `C103_const_false`, `C103_pass_false`, `C103_sum_false`, `C103_large_false`.

### C104 The SHA-256 program in blocks of four rounds is the compression function (proved)

`Model/Sha256Four` has `write_4_rounds` and `write_4_rounds_rdl`: a program for four rounds whose tests of the hash values, of word 0 and of the message schedule are
multiplied by conditions, and a wiring file that uses it sixteen times with the conditions as constants 0 and 1. The assertions and the numbering of the lines are checked by
evaluating the generator in the kernel (`check4_true`). `Proofs/Sha256Four` turns the tests into equations, as for 64 rounds; `Proofs/Sha256WireFacts` gives the wiring in
pieces; `Proofs/Sha256Wires` proves that the equations of all blocks together are those of the program for 64 rounds, and that the working variables passed between blocks
are right. So `C104_sound` and `C104_complete` follow from the arithmetic of C58 and C59.

Theorems: `C104_generates`, `C104_sound`, `C104_complete`, `C104_second_preimage`, `C104_program`.

### C105 One random combination can replace the tests that bits are bits (proved)

This is what `build.sh` generates (`-4` without `-R`). `Model/Sha256Four` has `rand_muls` and `print_add_tree`. The new inputs are numbered between the lines, so the lines are
not straight-line code over the inputs; `accepts_true` (`Proofs/Sha256Rand`) says what acceptance means: the other tests are zero, and so is the sum of coefficient times
test. A linear form that is not zero has at most `|S|^1063` zeros in `S^1064` (`card_zeros_le`), and the values of the tests do not depend on the coefficients (`sat_unique`).
All sixteen blocks get the same coefficients; one block that is not accepted without the combination is enough for the bound.

The coefficients are inputs like all others. If they are known before the other inputs are chosen, the bound says nothing (with coefficients 0 the bits are not checked).

Theorems: `C105_generates`, `C105_accepts`, `C105_rejects`, `C105_sound`, `C105_complete`.

### C106 The four-round SHA-256 circuit can be compiled and proved, and its zero gates mean the hash is right (proved)

`Proofs/ProgramCheck` has a check for the conditions of the compiler (`ProgramOk`, `Acceptable`), with bit sets and a table of depths encoded as numbers, and the proof that
a program that passes the check meets them (`of_check`). The kernel runs the check on the generated program. `Proofs/Sha256FourCompiled` shows the conditions on the wiring
for all inputs. The theorems then follow from those on the compiler (C50, C62, C69), the protocol (C23) and the generator (C104).

Only for `-R`: running the generator with the random combination in the kernel takes too much memory, so the default program is not covered. As in C68, the circuit cannot
get the round constants of SHA-256, since the reader keeps 32 bits with a sign (`C106_constants`).
If all numbers stay below `2^31`, the blocks of the circuit are accepted (`C106_read`); the message of zeros, with zeros for the constants, is the example.

Theorems: `C106_program`, `C106_complete`, `C106_accepts`, `C106_circuit`, `C106_constants`, `C106_read`.

## How to read the mutation log

* One line of `seeded/LOG.jsonl` is one edit of a model definition in a scratch copy, followed by a build of that copy.
* `first_failures` are the declarations whose proofs were seen to fail. For most edits the build was stopped about 25 seconds after the
  first error.
* `theorems_failed` are the theorems that rest, directly or not, on one of the `first_failures`. The list was computed from the
  dependencies of the unedited development. The theorems in it were not each tried again.
* A failure says that the proof as written no longer checks. It does not by itself say that the statement is false for the edited
  definition: an edit without effect can break a proof too (lines 817-819 are such edits of a bound on a recursion).
* For most edits made by the script `claim` was filled in from the titles of the first properties in `theorems_failed`, after the run.
* An edit with empty `theorems_failed` broke no property theorem. Its `claim` gives the reason why it has no effect, as judged by reading,
  or `tightened` names the theorems that were added or strengthened because of it. Two lines (83, 100) have neither: these edits
  are not detected by any property theorem.

## Trusted base

* The Lean 4.33.0 kernel. Mathlib is used as a library and checked by the same kernel.
* Axioms: every property theorem depends on a subset of `propext`, `Classical.choice` and `Quot.sound`. No
  axiom is added, there is no `sorry`, and neither `native_decide` nor `bv_decide` is used. `decide +kernel` is
  used for closed computations; it is evaluated by the kernel.
* That the model says what the C++ says. Nothing was executed; the correspondence rests on reading,
  on the citations in the comments, and on the mutation log `seeded/LOG.jsonl`.
* Conventions of the model: `int` and `long long` values of loops, sizes and indices are natural
  numbers unless a property is about their range (the reader's truncation to `int` is modelled,
  see `Spec.int32`); allocation never fails; text files are lists of integers (what `fscanf` reads; C85 proves that this is
  the same as reading the characters), lines of the circuit compiler are their parsed form (C83 and C84 prove what the
  characters are read as). The other text readers (traditional programs, Python generators) are modelled on numbers and statements only.

## What is modelled

| code | model |
| --- | --- |
| `linear_gkr/prime_field.{h,cpp}`: `u256b`, `u512b`, `field_element`, `init`, `random` | `Model/U256`, `U512`, `Fp` |
| `linear_gkr/polynomial.{h,cpp}` | `Model/Poly` |
| `linear_gkr/verifier_fast_track.cpp`, `prover_fast_track.cpp` (reader, evaluation, prover, verifier) | `Model/Reader`, `Circuit`, `Tables`, `FastTrack` |
| `linear_gkr/zk_verifier.cpp`, `zk_prover.cpp` (reader with meta file, block-parallel predicates, masks, input commitment) | `Model/Reader`, `ZkProver`, `ZkVerifier` |
| `VPD/vpdR.cpp`, `vpd_test.cpp`, `inputvpd.cpp`: key generation, commit, open, verify, fast exponentiation | `Model/Vpd`, `InputVpd` |
| `include/linear_gkr/transcript.h` transcript and challenges (`random(size)`, message containers, `output_to_file`) | `Model/Transcript`, `FiatShamir` |
| `traditional_gkr/prover_clogc.cpp`, `verifier_traditional.cpp` | `Model/Cmt` |
| `traditional_gkr/prover_bc_clogc.cpp`, `verifier_bc_clogc.cpp` | `Model/Blocked` |
| `tests/matmul/gen.cpp` | `Model/Matmul` |
| `parser_sha_data_parallel.cpp` and its copies in `tests/SHA256`, `tests/lanczos` (from parsed lines to the two files) | `Model/ProgramTypes`, `Compiler` |
| `src/linear_gkr/prover_fast_para_track.cpp` (all functions; without the counters that delay reductions, which are C55) and `verifier_fast_para_track.cpp` (verify, from the parsed circuit) | `Model/Threads`, `ParaTrack`, `ParaRaw` |
| `tests/SHA256/sha256gen.py`: `write_64_rounds` with the options of `build.sh` (`-R -P`), and the functions it calls | `Model/Sha256Gen` |
| `parser_sha.cpp`, `parser_lanczos.cpp` | `Model/OldCompiler` |
| `parser.cpp` | `Model/Stats` |
| `tests/SHA256/sha256gen.py` (`-4`, with and without `-R`) | `Model/Sha256Four` |
| `bin/sha256gen_merkle.py`: `write_64_rounds` with the default options (`write_merkle_rdl` is the text of `sha256gen.py`) | `Model/Sha256Bin` |
| `tests/SHA256/sha256gen.py`: `write_merkle_rdl` with `randzero = False`, with and without padding | `Model/MerkleGen` |
| `tests/lanczos/lanczos2.py`: `print_pws`, `print_rdl`, the checks of the main program (`filter_coeffs`, which uses floating point, is a parameter: any list of integers) | `Model/LanczosGen` |
| `bin/gen_lanczos.py`: `print_circuit`, the checks of the main program (`filter_coeffs` and `random` are parameters; `print_pws`, `print_rdl` are not called) | `Model/LanczosDirect` |
| `src/traditional_gkr/verifier_traditional.cpp`: `read_circuit_from_FILE`; `verifier_bc_clogc.cpp`: `set_blocks`, `read_circuit`; `bclogc.cpp`, `bc_clogc.cpp` | `Model/TradReader` |
| `bin/gen.cpp`: modes 0, 1, 2, 5 (mode 4 is `Model/Matmul`, mode 3 is empty) | `Model/Gen` |
| `include/infrastructure/my_hhash.h`: `my_hhash`, `aes128_enc`, `aes128_sec_extend`, with the AES intrinsics after the Intel manual | `Model/Aes` |
| `parser_sha_data_parallel.cpp` and its copies: recognition of the lines and the text of the files | `Model/Text`, `Model/CompilerText` |
| `src/linear_gkr/verifier_fast_para_track.cpp`: `read_circuit`; `main_fast_para_track.cpp` | `Model/ParaReader` |
| `tests/mm.cpp`: all of it | `Model/Mm` |
| `src/VPD/multivariate_test.cpp`: all of it | `Model/Multivariate` |
| `src/VPD/{vpdR,vpd_test,inputvpd}.cpp`: `pre_exp`, `verify` on all integers; the value parsed back in `zk_verifier.cpp` | `Model/SignedVpd` |

## What is not modelled

* The ate-pairing library (curve arithmetic, pairing): abstract groups with a bilinear map. GMP: exact
  integers. The block function of the transcript hash is a parameter in the theorems about
  challenges, so they hold for every hash; that the code uses AES-128 is C82.
* Timing, logging, freeing of memory, and how `rand()` / `mpz_urandomm` produce their results (the results
  are universally quantified; only the range of `prime_field::random()` is a property).
* The slow track `prover.cpp` / `verifier.cpp` (it does not compile).
* Weak memory: the threads of C53 and C54 interleave single accesses. By the C++ standard that is enough for
  programs without data races; with a data race every behaviour is allowed, and C54 only uses that
  the interleavings are among them.
* The floating-point computation of the Lanczos coefficients, and the rest of `sha256gen.py` (the padded layout of `write_64_rounds`, and `randzero` there).

## Where the code disagrees with a property

A property the code violates is kept in its full form; its negation is proved with a witness (or for all
inputs), and what remains true is proved under a name ending in `_partial` or with the exact condition.

* C03: `u256b` subtraction is off by one for every pair of operands.
* C06, C07, C39: constructors and bit access are wrong or undefined outside a range, which is proved exact.
* C11: an empty layer makes the reader loop for ever; the plain reader checks nothing.
* C13: a layer whose number of gates is not a power of two makes `evaluate` read out of bounds.
* C18: the block-parallel predicate is wrong for a range sum that ends at a block boundary.
* C22, C42, C48: the plain, the zero-knowledge and the block verifier accept false outputs; for each an explicit
  cheating prover is given that is accepted for all (C48: almost all) challenges. The soundness bound is proved
  for the plain verifier with the missing check, for the block verifier with the factor recomputed and, unchanged,
  for the traditional verifier (C46).
* C96: the mask of a layer is committed after the point of the claim is known; it can then hide any difference.
* C99: the second claim of layer 1 is the first input, without a mask.
* C26, C45: masks and challenges do not range over the field.
* C35, C36: challenges do not bind the messages they answer; padding is not injective.
* C40, C41: dummy inputs with operands and constants above layer 0 are treated differently by prover and verifier.
* C43, C44: the key generator opens commitments to anything; the last witness is not checked.
* C23, C27, C38, C47: completeness fails at small sizes (one gate, two variables, one block); the exact side
  conditions are in the theorems and the failures are theorems.
* C49: the matrix benchmark does not multiply its two matrices.
* C51, C52: a compiled `SS` leaves out its last summand; output lines of a program have no effect.
* C54, C55: the threaded prover sets up its tables with data races (a gate is enough whose operands belong to
  another thread), subtracts without keeping the difference positive, and reduces sums that are too large.
* C57: `proof.bin` leaves out the claimed output and other values the verdict depends on; the same file goes with every
  claim.
* C60: the SHA-256 program does not check that word 0 of the message is a word.
* C102: the older compilers read the constant `c` as input `c`, take the inputs of the copies in another order than the newer one, and accept a line that refers
  to itself.
* C103: the depth `parser.cpp` prints is not that of the longest path; its format for `c * Va` has a `+`.
* C100: the generator in `bin` adds up bits without weights; its program accepts nothing that starts from the initial hash value of SHA-256.
* C64: constants of a wiring file from 2^31 on become other numbers in the circuit.
* C67, C68: so a compiled circuit cannot be given the round constants of SHA-256, and only Merkle trees of small words.
* C70: the declared outputs of a program do not decide what the output layer holds.
* C73: the coefficients of the Lanczos filter are beyond the range of C64; the circuit uses other ones.
* C97, C98: `bin/gen_lanczos.py` does not fill up the output layer; its circuit uses the coefficients outside in, none for the rows, and `coef_id` runs down
  to -1, so that the last pixel of the image is used as a coefficient.
* C74: the output layer of the SHA-256 circuits holds only the 64 tests of the working variable `a`; a proof that it is zero is
  also accepted for a wrong hash value or a wrong Merkle root.
* C75, C77: the readers of the traditional programs only print a message when gates are out of order; the bit length of a layer then is that
  of its last line. `bclogc` with zero copies prints "Verification Pass" for every file. `ClogC.cpp` calls a function that is not defined.
* C81: modes 1 and 2 of `bin/gen.cpp` write meta files in a format that no program in the repository reads: block size, number of blocks, their
  logarithms and the number of characters of the line. `zk_verifier` takes the last number for a logarithm and shifts by it. Mode 5 writes
  sums over empty ranges.
* The compiler accepts a constant with several minus signs, such as `--5`, because its regular expression is `[\-]*[0-9]+`; `sscanf` then
  fails at the constant and the value is the first operand of whatever line was read before (C84). Operands of `2^31` and more are reduced modulo
  `2^32` without a message (C83).
* `read_circuit()` of the threaded protocol appends every line to the lists by operand but keeps only the last line of a gate in the circuit;
  it prints a message for lines out of order and goes on (C87). A dummy or a single gate in the input layer fails an assertion (C88).
* `tests/mm.cpp` reads `r[-1]` in the last of its checks (the index is `3*d-1-j-1`, should be `3*d-j`), so that no run is defined; `rounds` on the rows of
  the first matrix use the coordinate of the column (`z[3*d-1-round]`, while the table has `z[0]` at the highest bit), so that an honest second message
  does not fit the first (C91). The circuit and the layers of additions are right (C89, C90).
* `multivariate_test.cpp`: `multi_scalar` drops the last entry of a vector of odd length (C93); `pre_exp` reads a negative number in two's complement
  with the length of its absolute value, so `verify` accepts `ans - 2^254` wherever it accepts `ans` (C94); the companion of the first witness is neither
  computed nor checked; an answer of more than 254 bits is read out of bounds.
- The three `pre_exp` of the protocol's commitments have the same flaw as C94's: an answer sent as a negative number is read in two's complement, so
  `v - 2^253` passes wherever `v` does (C95). `vpd_test::verify` reduces with `%`, which keeps the sign; the others do not reduce. The verifier then parses the
  text of the number, where the minus sign counts as the digit `2^64 - 3`. The model of the whole zk run (`Model/ZkVerifier`) lets the prover
  send natural numbers only.
