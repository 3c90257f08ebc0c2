{"id": "C01", "title": "Field operations compute in Z/p", "statement": "For any two field elements holding values below the modulus p, operator+, operator- and operator* return a field element whose value is below p and equals the sum, difference or product of the two inputs modulo p.", "quantifier": "all pairs of canonical field elements (p^2 pairs, p about 2^253.2)", "why_tests_cant": "The carry chains of the 64/128-bit limbs and the Barrett quotient only misbehave on very sparse inputs; sampling cannot visit them.", "anchors": ["src/linear_gkr/prime_field.cpp:field_element::operator+,operator-,operator*", "src/linear_gkr/prime_field.cpp:u512b::operator%"]}
{"id": "C02", "title": "Wide integer arithmetic is exact modulo the word size", "statement": "Addition of two 256-bit integers equals the mathematical sum modulo 2^256, addition and subtraction of two 512-bit integers equal the mathematical result modulo 2^512, 256-bit multiplication equals the product modulo 2^256, and the product of two 512-bit integers whose values are below 2^256 is exact; shifting a 256-bit integer left by 128 places and the bitwise conjunction act on the numbers as on bit strings.", "quantifier": "all 256-bit / 512-bit operands", "why_tests_cant": "Carries propagate through four unequal limbs; 2^1024 operand pairs.", "anchors": ["src/linear_gkr/prime_field.cpp:u256b::operator+,operator*", "src/linear_gkr/prime_field.cpp:u512b::operator+,operator-,operator*"]}
{"id": "C03", "title": "256-bit subtraction", "statement": "u256b::operator- returns the difference of its operands modulo 2^256. (The code adds the complement without the +1, so the property is expected to fail by one.)", "quantifier": "all pairs of 256-bit operands", "why_tests_cant": "Must hold for every pair; the code is never exercised by the shipped mains.", "anchors": ["src/linear_gkr/prime_field.cpp:u256b::operator-"]}
{"id": "C04", "title": "Modular reduction range", "statement": "u512b % modulus returns the exact residue below p for every 512-bit value that the library ever reduces (all values below 2^508); the largest raw expression built by the provers and verifiers stays below 2^508.", "quantifier": "all 512-bit dividends below 2^508", "why_tests_cant": "Wrong quotient estimates occur only for rare dividends; exhaustive testing over 2^508 values is impossible.", "anchors": ["src/linear_gkr/prime_field.cpp:u512b::operator%"]}
{"id": "C05", "title": "Integer comparisons are the numeric order", "statement": "<, <=, >, >=, == and != on 256-bit and 512-bit integers agree with the numeric order of the values they represent.", "quantifier": "all pairs of 256-bit / 512-bit integers", "why_tests_cant": "Lexicographic limb comparison can be wrong only on specific limb patterns.", "anchors": ["src/linear_gkr/prime_field.cpp:u256b::operator<,operator>,operator<=,operator==", "src/linear_gkr/prime_field.cpp:u512b::operator>=,operator<,operator=="]}
{"id": "C06", "title": "Decimal parsing of constants", "statement": "Constructing a 256-bit or 512-bit integer from a string of decimal digits yields the number the digits denote, modulo 2^256 respectively 2^512.", "quantifier": "all digit strings of any length", "why_tests_cant": "Unbounded length strings.", "anchors": ["src/linear_gkr/prime_field.cpp:u256b::u256b(const char*,int,int)", "src/linear_gkr/prime_field.cpp:u512b::u512b(const char*,int,int)"]}
{"id": "C07", "title": "Bit access and serialisation of field elements", "statement": "For every canonical field element bit_stream emits exactly 256 bits from which the element can be recovered, to_gmp_class yields the integer value of the element, bit_at/testBit return the binary digits of the value.", "quantifier": "all canonical field elements and all bit positions", "why_tests_cant": "Position dependent code paths (limb boundaries 63/64/127/128) times 2^253 values.", "anchors": ["src/linear_gkr/prime_field.cpp:field_element::bit_stream,to_gmp_class,bitLen", "src/linear_gkr/prime_field.cpp:u256b::bit_at,testBit,bitLen"]}
{"id": "C08", "title": "Equality of field elements is equality in the field", "statement": "operator== / operator!= on canonical elements decide equality in Z/p, and the modulus is prime, so every non-zero element is invertible and a non-zero polynomial of degree d has at most d roots.", "quantifier": "all canonical elements; the primality of a 254-bit modulus", "why_tests_cant": "Primality is a statement about all divisors; equality about all pairs.", "anchors": ["src/linear_gkr/prime_field.cpp:field_element::operator==,operator!=", "src/linear_gkr/prime_field.cpp:prime_field::init"]}
{"id": "C09", "title": "Polynomial objects evaluate as polynomials", "statement": "For linear, quadratic, cubic, quadruple and quintuple polynomials, eval(x) is the value of the polynomial at x, operator+ and operator* are pointwise sum and product under eval.", "quantifier": "all coefficient tuples and evaluation points", "why_tests_cant": "Identity over the whole field.", "anchors": ["src/linear_gkr/polynomial.cpp:linear_poly,quadratic_poly,cubic_poly,quadruple_poly,quintuple_poly"]}
{"id": "C10", "title": "Circuit reader produces padded layers", "statement": "Reading a circuit file whose layers list n>=1 gates numbered 0..n-1 yields total_depth = d+1 layers, layer 0 holding the inputs, layer 1 relaying them unchanged, and every layer's bit_length is the least k>=1 with n <= 2^k.", "quantifier": "all well-formed circuit files", "why_tests_cant": "Unbounded number of layers and gates.", "anchors": ["src/linear_gkr/zk_verifier.cpp:zk_verifier::read_circuit", "src/linear_gkr/verifier_fast_track.cpp:verifier::read_circuit"]}
{"id": "C11", "title": "Circuit reader rejects ill-formed files", "statement": "If read_circuit of the zk verifier returns, the gates of every layer were numbered consecutively from 0 and every wire index of a two-input gate addressed an existing gate position of the previous layer; otherwise it does not return (it exits, fails an assertion or, for an empty layer, loops for ever).", "quantifier": "all token streams", "why_tests_cant": "Must hold for every malformed file.", "anchors": ["src/linear_gkr/zk_verifier.cpp:zk_verifier::read_circuit"]}
{"id": "C12", "title": "Circuit evaluation follows the gate types", "statement": "prover.evaluate() returns, for every gate, the value its gate type denotes: add, multiply, dummy 0, input, relay, sum over a range, NOT 1-x, minus, XOR x+y-2xy, NAAB y-xy, relay, weighted bit sum and bit test, in the field.", "quantifier": "all well-formed circuits of any depth and width and all inputs", "why_tests_cant": "Unbounded circuits, every input.", "anchors": ["src/linear_gkr/zk_prover.cpp:zk_prover::evaluate", "src/linear_gkr/prover_fast_track.cpp:prover::evaluate"]}
{"id": "C13", "title": "Evaluation never touches memory outside a layer", "statement": "On every circuit accepted by the zk reader whose layers have a power-of-two number of gates (or one gate), evaluate only reads existing gates and existing values of the previous layer; a layer whose gate count is not a power of two makes it read past the gate array.", "quantifier": "all circuits accepted by the reader", "why_tests_cant": "Memory errors depend on the file; tests use a handful of files.", "anchors": ["src/linear_gkr/zk_prover.cpp:zk_prover::evaluate", "src/linear_gkr/zk_verifier.cpp:zk_verifier::read_circuit"]}
{"id": "C14", "title": "V_res and V_in are the multilinear extension", "statement": "V_res / V_in applied to a table of 2^n values and a point r of n coordinates return the value at r of the unique multilinear polynomial agreeing with the table on the hypercube; on boolean r they return the table entry.", "quantifier": "all n, all tables, all points", "why_tests_cant": "Any size, any point of a 2^253 element field.", "anchors": ["src/linear_gkr/zk_prover.cpp:zk_prover::V_res", "src/linear_gkr/zk_verifier.cpp:zk_verifier::V_in", "src/linear_gkr/prover_fast_track.cpp:prover::V_res", "src/linear_gkr/verifier_fast_track.cpp:verifier::V_in"]}
{"id": "C15", "title": "beta tables hold the equality polynomial", "statement": "After beta_init, the product of the half tables (or the full tables of the plain verifier) at index i equals prod_j (r_j if bit j of i else 1-r_j), scaled by alpha / beta for the g tables.", "quantifier": "all points, all table sizes, all indices", "why_tests_cant": "Loop with in-place doubling; all sizes.", "anchors": ["src/linear_gkr/zk_verifier.cpp:zk_verifier::beta_init", "src/linear_gkr/verifier_fast_track.cpp:verifier::beta_init"]}
{"id": "C16", "title": "direct_relay is the equality polynomial between two points", "statement": "direct_relay(1, r_g, r_u) equals sum over i of eq(r_g,i)*eq(r_u,i); for other layers it is 0.", "quantifier": "all points and lengths", "why_tests_cant": "Identity of multilinear polynomials over the whole field.", "anchors": ["src/linear_gkr/zk_verifier.cpp:zk_verifier::direct_relay", "src/linear_gkr/verifier_fast_track.cpp:verifier::direct_relay"]}
{"id": "C17", "title": "Gate predicates are the wiring extensions", "statement": "For each gate type the predicate value computed by the verifier equals the sum over the gates of that type of (alpha eq(r_0,g)+beta eq(r_1,g)) eq(r_u,u) eq(r_v,v) (sum / exp-sum gates with their range of u and v=0).", "quantifier": "all layers, all gate lists, all challenge points", "why_tests_cant": "All circuits and all points.", "anchors": ["src/linear_gkr/verifier_fast_track.cpp:verifier::add,mult,not_gate,xor_gate,minus_gate,NAAB_gate,sum_gate,relay_gate", "src/linear_gkr/zk_verifier.cpp:zk_verifier::predicates"]}
{"id": "C18", "title": "Data-parallel predicates agree with the general ones", "statement": "For a layer that really is a block repetition (as declared by the meta file) the block-wise predicate computation returns the same values as the gate-by-gate one; the condition needed on range-sum gates is stated, and violated by a concrete layer.", "quantifier": "all block-repeated layers, block counts and points", "why_tests_cant": "Any block size and count.", "anchors": ["src/linear_gkr/zk_verifier.cpp:zk_verifier::predicates"]}
{"id": "C19", "title": "Plain GKR completeness", "statement": "With the honest prover, verifier::verify() returns true for every well-formed circuit, every input assignment and every sequence of verifier challenges.", "quantifier": "all well-formed circuits, inputs and challenge sequences", "why_tests_cant": "Completeness must hold for all circuits and randomness; a test covers one draw.", "anchors": ["src/linear_gkr/verifier_fast_track.cpp:verifier::verify", "src/linear_gkr/prover_fast_track.cpp:prover::*"]}
{"id": "C20", "title": "Honest round polynomials", "statement": "In every round of either phase the polynomial sent by the honest prover takes, at every point x, the value of the sum over the remaining boolean variables of the layer's gate polynomial with the current variable set to x; in particular p(0)+p(1) equals the current claim.", "quantifier": "all layers, rounds, challenges and points", "why_tests_cant": "All rounds of all circuits.", "anchors": ["src/linear_gkr/prover_fast_track.cpp:prover::sumcheck_phase1_init,sumcheck_phase1_update,sumcheck_phase2_init,sumcheck_phase2_update", "src/linear_gkr/zk_prover.cpp:zk_prover::sumcheck_phase1_update"]}
{"id": "C21", "title": "Final claims are evaluations of the previous layer", "statement": "After phase 1 and phase 2 the values returned by sumcheck_finalize are the multilinear extension of the previous layer at r_u and r_v (plus the low-degree mask in the zk protocol).", "quantifier": "all circuits and challenges", "why_tests_cant": "All circuits and randomness.", "anchors": ["src/linear_gkr/prover_fast_track.cpp:prover::sumcheck_finalize", "src/linear_gkr/zk_prover.cpp:zk_prover::sumcheck_finalize"]}
{"id": "C22", "title": "Plain GKR soundness", "statement": "If the claimed output vector differs from the circuit's output, then for any prover strategy whatsoever (each message may depend on all challenges already revealed) the fraction of challenge sequences on which verify() accepts is at most (sum of the per-round degrees)/p.", "quantifier": "all circuits, inputs, false outputs and adaptive prover strategies", "why_tests_cant": "Quantifies over all adversaries.", "anchors": ["src/linear_gkr/verifier_fast_track.cpp:verifier::verify"]}
{"id": "C23", "title": "Zero-knowledge protocol completeness", "statement": "With the honest prover, zk_verifier::verify() accepts every well-formed circuit for every input, every challenge sequence, every choice of the masking randomness and every key-generation secret.", "quantifier": "all circuits, inputs, challenges, masks, secrets", "why_tests_cant": "Completeness over all randomness.", "anchors": ["src/linear_gkr/zk_verifier.cpp:zk_verifier::verify", "src/linear_gkr/zk_prover.cpp:zk_prover::*"]}
{"id": "C24", "title": "Mask sum announced by the prover is the true mask sum", "statement": "maskpoly_sumc equals the sum of the masking polynomial over the boolean hypercube of 2*bit_length+1 variables, and every masked round polynomial is the plain one plus rho times the partial sum of the mask.", "quantifier": "all mask coefficients, lengths and challenges", "why_tests_cant": "All mask values.", "anchors": ["src/linear_gkr/zk_prover.cpp:zk_prover::generate_maskpoly_pre_rho,generate_maskpoly_after_rho,sumcheck_phase1_update,sumcheck_phase1_updatelastbit,sumcheck_phase2_update,sumcheck_phase2_updatelastbit,sumcheck_finalround"]}
{"id": "C25", "title": "Masking hides the round messages", "statement": "For fixed challenges with rho != 0 and any two honest layer polynomials with the same claim, the mapping from mask coefficients to round messages has equally many preimages for every consistent transcript, so round messages drawn with uniform masks are independent of the witness.", "quantifier": "all witnesses, challenges, transcripts", "why_tests_cant": "Distribution statement over the whole mask space.", "anchors": ["src/linear_gkr/zk_prover.cpp:zk_prover::generate_maskpoly_pre_rho,sumcheck_phase1_update"]}
{"id": "C26", "title": "Masks are uniform field elements", "statement": "prime_field::random() can return every field element. (The code assembles three 31-bit rand() values, so it is expected to fail.)", "quantifier": "all field elements", "why_tests_cant": "A statement on the full range of a sampler.", "anchors": ["src/linear_gkr/prime_field.cpp:prime_field::random,u512b::random"]}
{"id": "C27", "title": "VPD completeness for the layer masks", "statement": "For the R-mask (vpdR) and the sum-check mask (vpd_test) commitments, verify() accepts every honestly generated commitment/opening at every point and the answer returned by prove() is the value of the committed polynomial at the point.", "quantifier": "all secrets, coefficients, blindings and points", "why_tests_cant": "All key material and all points.", "anchors": ["src/VPD/vpdR.cpp:KeyGen,commit,prove,verify", "src/VPD/vpd_test.cpp:KeyGen,commit,prove,verify"]}
{"id": "C28", "title": "VPD completeness for the input", "statement": "input_vpd: for every input table, mask, blinding and point, the honest opening verifies and the answer is the multilinear extension of the inputs at the point plus Z times the mask polynomial.", "quantifier": "all tables of size 2^n, points, secrets", "why_tests_cant": "All sizes and points.", "anchors": ["src/VPD/inputvpd.cpp:KeyGen,commit,pre_input,prove,verify"]}
{"id": "C29", "title": "VPD check_commit", "statement": "Every honest commitment passes check_commit, and any pair accepted by check_commit consists of an element and its multiple by the secret exponent a.", "quantifier": "all commitments and keys", "why_tests_cant": "All group elements.", "anchors": ["src/VPD/vpdR.cpp:check_commit", "src/VPD/vpd_test.cpp:check_commit", "src/VPD/inputvpd.cpp:check_commit"]}
{"id": "C30", "title": "Two different accepted answers break the trapdoor equation", "statement": "If verify() accepts two different answers between 0 and p - 1 for the same commitment and point, the difference of the two proofs is an explicit solution of a non-trivial linear relation between the secret-shifted witnesses (the relation whose hardness the scheme assumes).", "quantifier": "all pairs of accepted proofs", "why_tests_cant": "All adversarial proofs.", "anchors": ["src/VPD/vpdR.cpp:verify", "src/VPD/vpd_test.cpp:verify", "src/VPD/inputvpd.cpp:verify"]}
{"id": "C31", "title": "Fast exponentiation equals scalar multiplication", "statement": "pre_exp with a table of doublings, g1_exp with 15-bit windows and multi_scalar_calc with subset tables return the scalar multiple / the sum of scalar multiples they stand for.", "quantifier": "all scalars in range, all base points, all vectors", "why_tests_cant": "All scalars.", "anchors": ["src/VPD/inputvpd.cpp:pre_exp,g1_exp,multi_scalar_calc", "src/VPD/vpdR.cpp:pre_exp", "src/VPD/vpd_test.cpp:pre_exp,g1_exp"]}
{"id": "C32", "title": "pre_input converts evaluations to coefficients", "statement": "pre_input turns a table of 2^n evaluations on the hypercube into the coefficients of the unique multilinear polynomial with these evaluations.", "quantifier": "all n and tables", "why_tests_cant": "All sizes.", "anchors": ["src/VPD/inputvpd.cpp:pre_input"]}
{"id": "C33", "title": "Announced proof size is the file size", "statement": "get_proof_size() equals the number of bytes output_to_file writes, for every sequence of messages.", "quantifier": "all message sequences", "why_tests_cant": "Unbounded histories.", "anchors": ["include/linear_gkr/transcript.h:get_proof_size,output_to_file,output_bit_stream"]}
{"id": "C34", "title": "Proof file can be read back", "statement": "The bytes written by output_to_file determine the bit stream of the messages: unpacking returns exactly the emitted bits, and field-element messages can be recovered.", "quantifier": "all message sequences", "why_tests_cant": "Unbounded histories.", "anchors": ["include/linear_gkr/transcript.h:output_bit_stream,output_to_file"]}
{"id": "C35", "title": "Challenges bind the messages they answer", "statement": "Each Fiat-Shamir challenge is a function of every prover message that it is meant to randomise. (In the code the sum-check challenges of a layer are drawn before that layer's messages are appended, so a prover can pick messages after knowing all challenges: expected to fail.)", "quantifier": "all transcripts and provers", "why_tests_cant": "Adversarial statement over all provers.", "anchors": ["src/linear_gkr/zk_verifier.cpp:zk_verifier::verify", "include/linear_gkr/transcript.h:random"]}
{"id": "C36", "title": "Challenge derivation is collision-free on distinct transcripts before hashing", "statement": "Two different transcripts present different bit strings to the hash. (Zero padding to 512 bits makes it fail for trailing zero messages; an empty transcript reads out of bounds.)", "quantifier": "all pairs of transcripts", "why_tests_cant": "All pairs.", "anchors": ["include/linear_gkr/transcript.h:random"]}
{"id": "C37", "title": "Challenges are field elements", "statement": "random(size) returns size canonical field elements and records exactly them in the transcript in order.", "quantifier": "all transcripts and sizes", "why_tests_cant": "All transcripts.", "anchors": ["include/linear_gkr/transcript.h:random"]}
{"id": "C38", "title": "CMT-style prover completeness", "statement": "The O(S log S) prover in traditional_gkr makes the same verifier accept for every well-formed add/mult circuit, input and challenge sequence.", "quantifier": "all circuits, inputs, challenges", "why_tests_cant": "All circuits and randomness.", "anchors": ["src/traditional_gkr/prover_clogc.cpp:prover::*", "src/traditional_gkr/verifier_traditional.cpp:verifier::verify"]}
{"id": "C39", "title": "Negative and large inputs", "statement": "An input line with integer value x in the reader's range denotes the field element x mod p. (Negative values are encoded as 2^64-|x| and values beyond int are truncated, so it holds only for 0 <= x < 2^31.)", "quantifier": "all 64-bit input values", "why_tests_cant": "2^64 values.", "anchors": ["src/linear_gkr/prime_field.cpp:field_element::field_element(int)", "src/linear_gkr/zk_verifier.cpp:read_circuit"]}
{"id": "C40", "title": "Dummy inputs do not influence acceptance", "statement": "A dummy input gate (type 2) is the constant 0 regardless of its operand fields. (The prover evaluates it to its first operand while the verifier uses 0: expected to fail for non-zero operands.)", "quantifier": "all circuits with dummy inputs", "why_tests_cant": "All circuits.", "anchors": ["src/linear_gkr/zk_prover.cpp:evaluate", "src/linear_gkr/zk_verifier.cpp:verify", "src/linear_gkr/prover_fast_track.cpp:evaluate", "src/linear_gkr/verifier_fast_track.cpp:verify"]}
{"id": "C41", "title": "Constants above the input layer", "statement": "A circuit that evaluate() accepts and whose layers contain constant gates (type 3) above the input layer is proved like any other. (The provers' tables and the verifiers' predicates skip type 3, so it is expected to fail.)", "quantifier": "all circuits with constants above the inputs", "why_tests_cant": "All circuits and challenges.", "anchors": ["src/linear_gkr/prover_fast_track.cpp:prover::evaluate,sumcheck_phase1_init", "src/linear_gkr/verifier_fast_track.cpp:verifier::verify", "src/linear_gkr/zk_prover.cpp:zk_prover::sumcheck_phase1_init", "src/linear_gkr/zk_verifier.cpp:zk_verifier::predicates,verify"]}
{"id": "C42", "title": "Soundness of the zero-knowledge verifier", "statement": "The zk verifier accepts an output that is not the circuit's output on the committed input only with small probability over the challenges, whatever the prover sends. (The sum of the mask announced by the prover is read after the claim is fixed and is not checked against the commitment before it is used, and the verifier takes prover-side values on trust, so it is expected to fail.)", "quantifier": "all circuits, false claims, prover strategies and challenges", "why_tests_cant": "Adversarial statement over all provers.", "anchors": ["src/linear_gkr/zk_verifier.cpp:zk_verifier::verify", "src/linear_gkr/zk_prover.cpp:zk_prover::generate_maskpoly_after_rho"]}
{"id": "C43", "title": "Openings bind whoever made the keys", "statement": "No party, including the one that ran KeyGen, can open a commitment to an answer different from the committed value. (KeyGen is called by the prover, which keeps the secrets, so it is expected to fail.)", "quantifier": "all commitments, points, answers and secrets", "why_tests_cant": "Adversarial statement over all openings.", "anchors": ["src/VPD/vpdR.cpp:KeyGen,verify", "src/VPD/vpd_test.cpp:KeyGen,verify", "src/VPD/inputvpd.cpp:KeyGen,verify", "src/linear_gkr/zk_prover.cpp:generate_maskR,generate_maskpoly_pre_rho,keygen_and_commit"]}
{"id": "C44", "title": "Every witness of an accepted opening passes the knowledge check", "statement": "If verify() accepts an opening then every witness element w_i is accompanied by its multiple a*w_i. (The loops of vpdR and input_vpd stop one element early, so it is expected to hold for all but the last.)", "quantifier": "all keys, commitments, points and openings", "why_tests_cant": "All group elements.", "anchors": ["src/VPD/vpdR.cpp:verify", "src/VPD/vpd_test.cpp:verify", "src/VPD/inputvpd.cpp:verify"]}
{"id": "C45", "title": "Challenges range over the whole field", "statement": "Every field element is a possible value of a challenge returned by random(size), whatever its position. (Only the lower 128 bits of the state are advanced between the challenges of one call, so all challenges after the first share their upper half: expected to fail.)", "quantifier": "all transcripts, sizes and positions", "why_tests_cant": "A statement about the set of all values over all transcripts.", "anchors": ["include/linear_gkr/transcript.h:random", "include/linear_gkr/my_hhash.h:my_hhash"]}
{"id": "C46", "title": "Soundness of the traditional verifier", "statement": "If the claimed output differs from the circuit's output and its value at the first random point is computed as in V_res, then whatever messages a prover sends (each may depend on everything it has seen) the fraction of challenge sequences on which the traditional verifier's verify() accepts is at most (sum of the per-round degrees)/p; without the condition on V_res every output is accepted.", "quantifier": "all add/mult circuits, inputs, false outputs and adaptive prover strategies", "why_tests_cant": "Quantifies over all adversaries.", "anchors": ["src/traditional_gkr/verifier_traditional.cpp:verifier::verify", "src/linear_gkr/verifier_fast_para_track.cpp:verifier::verify"]}
{"id": "C47", "title": "Completeness of the block-repeated protocol", "statement": "With the honest prover of the block version, verify() returns true for every add/mult circuit repeated in at least 2^log >= 2 blocks, every input of each block and every sequence of challenges, and evaluate() returns the outputs of all blocks one after the other.", "quantifier": "all circuits, numbers of blocks, inputs and challenges", "why_tests_cant": "All circuits and randomness.", "anchors": ["src/traditional_gkr/prover_bc_clogc.cpp:prover::*", "src/traditional_gkr/verifier_bc_clogc.cpp:verifier::verify"]}
{"id": "C48", "title": "Soundness of the block-repeated verifier", "statement": "If the claimed output differs from the outputs of the blocks, then whatever a prover sends the fraction of challenge sequences on which the verifier of the block version accepts is at most (sum of the per-round degrees)/p. (The verifier takes the factor of the block index from the prover, so it is expected to fail.)", "quantifier": "all circuits, numbers of blocks, inputs, false outputs and adaptive prover strategies", "why_tests_cant": "Quantifies over all adversaries.", "anchors": ["src/traditional_gkr/verifier_bc_clogc.cpp:verifier::verify", "src/traditional_gkr/prover_bc_clogc.cpp:prover::sumcheck_phase1_init"]}
{"id": "C49", "title": "The matrix benchmark computes the matrix product", "statement": "For every matrix size the generator accepts and every pair of matrices it draws, the circuit file it writes is accepted by the reader, the circuit evaluates, and its outputs are the entries of the product of the two matrices.", "quantifier": "all sizes that are powers of two and all pairs of matrices with entries in 0..9", "why_tests_cant": "The generator draws random matrices and prints no expected result; a wrong wire changes only values nobody compares.", "anchors": ["tests/matmul/gen.cpp:main"]}
{"id": "C50", "title": "Compiled circuits compute what the program says", "statement": "Whenever the circuit compiler succeeds on a program in which every variable is defined once and the inputs are numbered in the order of their variables, and on a wiring file that supplies the inputs of 2^k blocks, the two files it writes are accepted by the reader, the circuit is well formed and evaluates, and every variable of the program has a place (the same for all wiring files) at which, in each block, the circuit has the value the program gives to that variable on the inputs of that block.", "quantifier": "all programs (add, multiply, NOT, minus, XOR, NAAB, EXPSUM, BIT), all wiring files, all numbers of blocks, all three versions of the compiler", "why_tests_cant": "The compiler inserts relays, pads and renumbers; a wrong operand shows only on particular graphs, and all programs must be covered.", "anchors": ["parser_sha_data_parallel.cpp:read_circuit,add_relay,DAG_to_layered,read_rdl,merge_and_output", "tests/SHA256/parser_sha_data_parallel.cpp", "tests/lanczos/parser_sha_data_parallel.cpp"]}
{"id": "C51", "title": "SS is the sum of the variables from the first to the last operand", "statement": "In a compiled circuit the gate of a variable defined by \"Va SS Vb\" has the value of the sum of the variables from a to b, both included. (The compiler checks and links all of them, but writes the number of the last one as the end of a half-open range, so the last one is expected to be missing.)", "quantifier": "all programs with SS lines, all wiring files", "why_tests_cant": "All programs and inputs.", "anchors": ["parser_sha_data_parallel.cpp:read_circuit,merge_and_output"]}
{"id": "C52", "title": "Declared outputs are the outputs of the circuit", "statement": "The variables named in the output lines of the program are found in the last layer of the compiled circuit, which is what the protocol proves. (is_output is never used, so it is expected to fail.)", "quantifier": "all programs with output lines, all wiring files", "why_tests_cant": "All programs.", "anchors": ["parser_sha_data_parallel.cpp:read_circuit,DAG_to_layered"]}
{"id": "C53", "title": "The threaded rounds do not depend on the schedule", "statement": "In every round of the threaded prover, for every interleaving of its threads, the message and the tables left behind are those of the prover without threads, and the value of the output at the verifier's point is the multilinear extension; the threads have no data race, and joining them terminates.", "quantifier": "all table sizes that are powers of two, all contents, all interleavings of the threads' memory accesses", "why_tests_cant": "There are exponentially many schedules; a test sees a few of them.", "anchors": ["src/linear_gkr/prover_fast_para_track.cpp:phase1_update_func,phase2_update_func,sumcheck_phase1_update,sumcheck_phase2_update,V_res_func,prover::V_res"]}
{"id": "C54", "title": "The threaded prover is accepted under every schedule", "statement": "verify() returns true with the threaded prover for every add/mult circuit whose inputs are constants, every challenge sequence and every schedule of the threads. (The threads that set up the tables of a phase read entries other threads are still writing, without a barrier, so it is expected to hold only for circuits in which no gate crosses the boundary between the parts of two threads.)", "quantifier": "all add/mult circuits with constant inputs, all challenges, all interleavings", "why_tests_cant": "Races show up only under particular schedules.", "anchors": ["src/linear_gkr/prover_fast_para_track.cpp:phase1_init_func,phase2_init_func,sumcheck_phase1_init,sumcheck_phase2_init", "src/linear_gkr/verifier_fast_para_track.cpp:verifier::verify"]}
{"id": "C55", "title": "The threaded prover stores canonical values of the right residue class", "statement": "Every statement of the threaded prover on 512-bit values leaves the canonical representative of the field expression it stands for. (A subtraction in phase 2 lacks the \"+ mod\" of phase 1, and sums of up to 8 or 31 products are reduced in one step, beyond the range of the reduction, so it is expected to fail.)", "quantifier": "all canonical operands", "why_tests_cant": "Triples of 254-bit operands; the failure needs particular relations between them.", "anchors": ["src/linear_gkr/prover_fast_para_track.cpp:phase2_update_func,phase1_update_func,phase2_init_func"]}
{"id": "C56", "title": "The proof file has a fixed layout", "statement": "The sequence of messages in the proof file of an accepted run (which are points, which are field elements) and its size in bytes depend only on the circuit; the size is (6+2 b0) B plus, for each layer of gates reading a layer with b address bits, (20+4b) B + 64 (3b+3), for points of B bytes. The field elements are the coefficients of the round polynomials the verifier checked, in order.", "quantifier": "all provers, circuits, hash functions and encodings of points", "why_tests_cant": "A coefficient that is not recorded changes no verdict; the layout must hold for every circuit and prover.", "anchors": ["src/linear_gkr/zk_verifier.cpp:zk_verifier::verify", "include/linear_gkr/transcript.h:proof_transcript"]}
{"id": "C57", "title": "The proof file determines the claim it proves", "statement": "If two accepted runs on the same circuit leave the same proof file, they claim the same output. (The output, the announced mask sums, the values at the end of each layer and the answers of the openings are not recorded, so it is expected to fail.)", "quantifier": "all circuits, provers, claimed outputs, hash functions", "why_tests_cant": "Quantifies over all provers and claims.", "anchors": ["src/linear_gkr/zk_verifier.cpp:zk_verifier::verify", "include/linear_gkr/transcript.h:proof_transcript::output_to_file"]}
{"id": "C58", "title": "An accepted SHA-256 block is an evaluation of the compression function", "statement": "The generator of the SHA-256 benchmark succeeds, and whenever the inputs of a block make all tests of the generated program zero, where the public inputs are the constant 0, round constants and an old hash value and the first message word is a 32-bit word, all message words are 32-bit words and the new hash value among the inputs is the SHA-256 compression function (FIPS 180-4) of the message and the old hash value.", "quantifier": "all assignments to the 7226 inputs of a block, honest or not", "why_tests_cant": "An adversary chooses 7192 field elements; a missing or wrong constraint accepts inputs no test tries.", "anchors": ["tests/SHA256/sha256gen.py:write_64_rounds,write_rounds,check_Wbits,write_bitvec_check,do_addition,verify_bits"]}
{"id": "C59", "title": "Every message has an accepted SHA-256 block", "statement": "For every message block, old hash value and round constants there are inputs that the generated program accepts, with the SHA-256 compression function as the new hash value.", "quantifier": "all 2^512 messages, all hash values and round constants", "why_tests_cant": "A carry that does not fit the bits provided for it shows up for few messages only.", "anchors": ["tests/SHA256/sha256gen.py:write_64_rounds,write_rounds,do_addition"]}
{"id": "C60", "title": "The message of an accepted SHA-256 block consists of 32-bit words", "statement": "Whenever the generated program accepts the inputs of a block, the sixteen message inputs are 32-bit words, so the message is determined by the hash value up to collisions of SHA-256. (Word 0 is not decomposed into bits, so it is expected to fail for it.)", "quantifier": "all assignments to the inputs of a block", "why_tests_cant": "The failing inputs are out of the range of every honest test.", "anchors": ["tests/SHA256/sha256gen.py:write_64_rounds,check_Wbits"]}
{"id": "C61", "title": "The SHA-256 circuit proves the compression function", "statement": "In every circuit that the compiler makes of the generated program and a wiring file, if the gates of the tests of a block are zero, and its inputs contain the constant 0, the round constants, an old hash value and a first word, then they contain a message and its compression function.", "quantifier": "all wiring files, all blocks, all inputs", "why_tests_cant": "All inputs, and a circuit with more than a hundred thousand gates per block.", "anchors": ["tests/SHA256/sha256gen.py:write_64_rounds", "tests/SHA256/parser_sha_data_parallel.cpp:main"]}
{"id": "C62", "title": "The circuit compiler accepts every ordered program", "statement": "The compiler writes its two files, without a failed assertion, missing table entry or endless loop, for every program that uses and numbers variables in the order of their definitions and adds up variables of the same depth, with every wiring file that provides the inputs of a positive number of blocks. Programs numbered in another order, sums of variables of different depth, and gaps in the outputs of the wiring file are rejected or read memory that was never written.", "quantifier": "all programs, all wiring files, all numbers of blocks", "why_tests_cant": "The failures depend on the shape of the whole program; tests compile a few generated ones.", "anchors": ["parser_sha_data_parallel.cpp:main,read_circuit,DAG_to_layered,rdl,merge_and_output"]}
{"id": "C63", "title": "A program can be compiled and proved", "statement": "For every ordered program and every wiring file with the inputs of a power of two of blocks, the compiler writes files (unless they exceed the limits of the reader) from which the verifier reads a circuit for which it accepts the honest prover. The meta file declares every layer above the wiring to be copies of one block, and it is. For a number of blocks that is not a power of two, the verifier does not read the files.", "quantifier": "all programs, wiring files, numbers of blocks, secrets of the prover and challenges", "why_tests_cant": "The blocks are merged by position arithmetic, and the verifier evaluates only the first block of a layer; a gate out of place is found for some programs and challenges only.", "anchors": ["parser_sha_data_parallel.cpp:main,merge_and_output", "src/linear_gkr/zk_verifier.cpp:zk_verifier::read_circuit,zk_verifier::verify"]}
{"id": "C64", "title": "Numbers of a wiring file enter the circuit unchanged", "statement": "The constants and inputs that a wiring file gives to the blocks of a program are the values that the inputs of these blocks have in the circuit read from the compiled files. (They are kept as long long by the compiler but as int by the circuit, so it is expected to hold for 0 <= c < 2^31 only; the generated Merkle trees begin with constants up to 2^34.)", "quantifier": "all programs, wiring files, blocks, and all 64-bit numbers", "why_tests_cant": "2^64 numbers, in circuits of any size.", "anchors": ["parser_sha_data_parallel.cpp:read_rdl,merge_and_output", "include/linear_gkr/circuit.h:gate", "src/linear_gkr/zk_verifier.cpp:read_circuit", "src/linear_gkr/prime_field.cpp:field_element::field_element(int)"]}
{"id": "C65", "title": "The Merkle tree benchmark can be generated and proved", "statement": "For every number of leaves 2^n with n >= 1, with and without padding and for all numbers the inputs get, the generator of the wiring file of a Merkle tree succeeds, its file gives the inputs of 2^(n+1) blocks, and (for n <= 10) the compiler accepts it together with the SHA-256 program, and the verifier accepts the honest prover for the compiled circuit. With padding, the private inputs are the inputs from the next power of two on.", "quantifier": "all numbers of leaves, both settings of padding, all inputs, secrets and challenges", "why_tests_cant": "The wiring is computed by bookkeeping of lists over all layers of the tree; tests run one or two sizes.", "anchors": ["tests/SHA256/sha256gen.py:write_merkle_rdl", "tests/SHA256/build.sh"]}
{"id": "C66", "title": "An accepted Merkle tree has the root given in the public inputs", "statement": "If all blocks of the benchmark are accepted, the public inputs contain the round constants and the hash value every block starts from, and the first word of every leaf is a 32-bit word, then the inputs of the leaves are messages, and the public inputs contain the root of the Merkle tree of these messages. The same holds of the compiled circuit, if the gates of all tests are zero.", "quantifier": "all numbers of leaves, all inputs, all circuits compiled from the wiring", "why_tests_cant": "All inputs of all blocks of trees of any size; a swapped or misplaced child shows for inputs no test has.", "anchors": ["tests/SHA256/sha256gen.py:write_merkle_rdl", "tests/SHA256/parser_sha_data_parallel.cpp:main"]}
{"id": "C67", "title": "Every Merkle tree has accepted inputs", "statement": "For all messages in the leaves, round constants and first hash values, there are 32-bit numbers for the inputs of the benchmark, with the constants, the first hash value and the root in the public inputs and the messages in the leaves, such that all blocks are accepted. (The numbers enter the circuit unchanged only below 2^31, so for compiled circuits it is expected to hold for trees of such words only.)", "quantifier": "all messages of all leaves, all numbers of leaves", "why_tests_cant": "Inputs are shared between blocks: the values one block needs must be those the others need.", "anchors": ["tests/SHA256/sha256gen.py:write_merkle_rdl"]}
{"id": "C68", "title": "The SHA-256 benchmarks can be run on SHA-256", "statement": "There are wiring files that give a block of the compiled SHA-256 program the round constants of SHA-256. (Expected to fail: numbers from 2^31 to 2^64 - 2^31 do not enter a circuit.)", "quantifier": "all wiring files, all blocks", "why_tests_cant": "It is a statement about all wiring files; the benchmarks use random inputs and do not check the result.", "anchors": ["parser_sha_data_parallel.cpp:read_rdl", "include/linear_gkr/circuit.h:gate", "src/linear_gkr/zk_verifier.cpp:read_circuit"]}
{"id": "C69", "title": "The size of compiled circuits is bounded by the size of their sources", "statement": "A circuit compiled from a program of n lines, whose variables are defined before they are used and numbered in this order, and a wiring file of m lines for b blocks has at most n + 2 layers; the input layer has at most 2 m gates, the others have at most 6 n b gates. So the sizes of the sources tell which circuits the verifier can read; the SHA-256 program can be used for 2^11 blocks.", "quantifier": "all programs, wiring files and numbers of blocks", "why_tests_cant": "Relays are added for every operand and every level in between; tests measure a few programs.", "anchors": ["parser_sha_data_parallel.cpp:DAG_to_layered,add_relay,merge_and_output", "tests/SHA256/sha256gen.py:write_64_rounds"]}
{"id": "C70", "title": "The outputs of a compiled circuit are the deepest variables of the program", "statement": "The output layer of a compiled circuit, on which the verifier checks its claim, holds for every block exactly the variables of the program whose depth (the longest chain of operands below them) is greatest, in the order of their numbers, followed by zeros up to the next greater power of two. Which variables the program declares as outputs does not matter.", "quantifier": "all programs, wiring files, blocks and inputs", "why_tests_cant": "It says where every variable of every program ends up; tests look at single programs.", "anchors": ["parser_sha_data_parallel.cpp:DAG_to_layered,merge_and_output,main"]}
{"id": "C71", "title": "The Lanczos generator writes a program that computes one pixel of the scaled image", "statement": "For every ratio r >= 1 the program written by print_pws is well-formed and accepted by the compiler; it has 16 r^2 + 2 r inputs and 48 r^2 + 6 r lines; for all inputs its only output is the sum over the 4r x 4r window of pixels, each times the weights of its row and of its column, where the weights are the 2r coefficients mirrored.", "quantifier": "all ratios, all coefficients and pixels, over every commutative ring", "why_tests_cant": "The program grows with the square of the ratio; a wrong index in one of the products shows only for inputs that distinguish it.", "anchors": ["tests/lanczos/lanczos2.py:print_pws"]}
{"id": "C72", "title": "The Lanczos benchmark scales the image", "statement": "The generator succeeds exactly on images of r (n + 3) pixels side length with n >= 1. For n a power of two, the files it writes compile to a circuit whose output layer holds, at twice the index of each of the n x n pixels, the filtered and sampled image computed from the coefficients and pixels as read from the wiring file, and zero elsewhere; and the zero-knowledge verifier accepts the honest proof for this circuit. This covers the five benchmark sizes.", "quantifier": "all ratios up to 144, image sizes up to the number of gates that fits the reader, all 64-bit coefficients and pixels, all challenges and masks", "why_tests_cant": "All pixels of images of all sizes, with windows that overlap; the benchmark runs on random pixels and checks nothing.", "anchors": ["tests/lanczos/lanczos2.py:print_pws,print_rdl", "tests/lanczos/parser_sha_data_parallel.cpp:main", "src/linear_gkr/zk_verifier.cpp:read_circuit,verify"]}
{"id": "C73", "title": "The Lanczos benchmark uses the coefficients of the filter", "statement": "The pixels in the output layer are those of the filter with the coefficients that the generator computed and wrote into the wiring file. (Expected to fail: the coefficients are shifted by 16 bits and exceed 2^31 or are negative, and such numbers do not enter a circuit unchanged.)", "quantifier": "all ratios, coefficients and images", "why_tests_cant": "The benchmark never compares its result with the filter.", "anchors": ["tests/lanczos/lanczos2.py:filter_coeffs,print_rdl", "include/linear_gkr/circuit.h:gate", "src/linear_gkr/zk_verifier.cpp:read_circuit"]}
{"id": "C74", "title": "A zero output layer of the SHA-256 benchmark certifies the hash value", "statement": "If every gate in the output layer of a circuit compiled from the SHA-256 program is zero (the value that an accepted proof establishes), then every block is accepted: the bits are bits, the schedule and all rounds are right and the claimed hash value, or the claimed Merkle root, is that of the message. (Expected to fail: of all tests only the 64 tests of one working variable are in the output layer.)", "quantifier": "all wiring files, blocks, messages, claimed hash values and Merkle roots", "why_tests_cant": "The benchmarks only prove right hashes. What a zero output layer allows is a statement about all inputs, also dishonest ones.", "anchors": ["tests/SHA256/sha256gen.py:write_64_rounds,write_round", "parser_sha_data_parallel.cpp:DAG_to_layered,merge_and_output", "src/linear_gkr/zk_verifier.cpp:verify"]}
{"id": "C75", "title": "The reader of the traditional programs builds the circuit of the file", "statement": "A circuit file of at least one layer, without empty layers, with gates numbered in order and numbers in the range of an int is read as the circuit it describes, whatever follows it: one layer per layer of the file, gate g being line g, and a second, zero, gate in a layer with one line. On a file of additions, multiplications and dummies with existing wires and a power of two of gates in every layer, evaluation gives every line the value it denotes.", "quantifier": "all circuit files, all sizes and depths", "why_tests_cant": "The number of files is unbounded; off-by-one errors in the computed bit length concern special sizes only.", "anchors": ["src/traditional_gkr/verifier_traditional.cpp:read_circuit_from_FILE", "src/traditional_gkr/verifier_bc_clogc.cpp:read_circuit", "src/traditional_gkr/prover_clogc.cpp:evaluate"]}
{"id": "C76", "title": "The program for repeated circuits passes on every well-formed file", "statement": "bc_clogc prints \"Verification Pass\" for every file of the previous property (dummies having existing wires too), every number of copies and every log >= 1 with 2^log <= copies, for all random values and every content of uninitialised memory. With fewer copies than 2^log, or with log = 0, no run is a defined execution that prints it. All copies have the same inputs.", "quantifier": "all files, numbers of copies, challenges and contents of uninitialised memory", "why_tests_cant": "Tests run one file with one random choice; reads beyond arrays may go unnoticed.", "anchors": ["src/traditional_gkr/bc_clogc.cpp:main,run_verifications", "src/traditional_gkr/verifier_bc_clogc.cpp:set_blocks,read_circuit,verify", "src/traditional_gkr/prover_bc_clogc.cpp:init_array,evaluate"]}
{"id": "C77", "title": "The program with independent runs passes exactly when all runs do", "statement": "bclogc prints \"Verification Pass\" for every well-formed file of at most 1000 layers and every number of copies; for every file that can be read, if all runs end, it prints \"Verification Pass\" exactly when every run accepts. With zero copies it prints \"Verification Pass\" for every file without reading it.", "quantifier": "all files, numbers of copies, challenges and contents of uninitialised memory", "why_tests_cant": "The result combines any number of runs; tests use a few.", "anchors": ["src/traditional_gkr/bclogc.cpp:main,run_verifications", "src/traditional_gkr/verifier_traditional.cpp:read_circuit_from_FILE,verify"]}
{"id": "C78", "title": "A circuit file means the same to the linear-time and the traditional programs", "statement": "For every circuit file that the traditional programs can prove, the readers of the linear-time and of the zero-knowledge version (with any well-formed meta file) succeed too, and every line of the file has the same value in the circuits of all three; the circuit of the linear-time version has one layer more.", "quantifier": "all files of additions, multiplications and dummies with existing wires, all sizes and depths, all trailing contents", "why_tests_cant": "The readers are separate pieces of code that treat the first layer differently; tests compare neither readers nor values.", "anchors": ["src/linear_gkr/verifier_fast_track.cpp:read_circuit", "src/linear_gkr/zk_verifier.cpp:read_circuit", "src/traditional_gkr/verifier_traditional.cpp:read_circuit_from_FILE"]}
{"id": "C79", "title": "The generator of matrix circuits writes circuits that multiply matrices", "statement": "For every size that is a power of two up to 256 and all matrices it draws, mode 2 of the generator writes a file that both readers read, whose outputs are the entries of the product of the matrices, and whose honest proofs are accepted by the linear-time program, by bclogc and by bc_clogc. Beyond 256 an int overflows; sizes that are no powers of two stop the program.", "quantifier": "all sizes, matrices, numbers of copies, challenges and contents of uninitialised memory", "why_tests_cant": "The index arithmetic of the tree has to be right for every entry and size; the benchmark draws random matrices and checks nothing.", "anchors": ["bin/gen.cpp:main", "src/linear_gkr/verifier_fast_track.cpp:read_circuit,verify", "src/traditional_gkr/bclogc.cpp:main", "src/traditional_gkr/bc_clogc.cpp:main"]}
{"id": "C80", "title": "The circuits of modes 0 and 1 of the generator", "statement": "With d >= 2 layers and 2^w inputs x, the output j of the circuit of mode 1 is 2^(d-2) x(2j) * 2^(d-2) x(2j+1), and for the output v of mode 0, 1-2v = (1-2x(2j)) (1-2x(0))^(2^(d-2)-1); honest proofs of the circuits of mode 0 are accepted. Mode 1 with less than 64 inputs stops.", "quantifier": "all depths below a million, widths (6 to 26 for mode 1, 1 to 30 for mode 0), and values of rand()", "why_tests_cant": "Depths, widths and inputs are arbitrary.", "anchors": ["bin/gen.cpp:main", "src/linear_gkr/verifier_fast_track.cpp:read_circuit,verify"]}
{"id": "C81", "title": "The files written by the generator can be used together", "statement": "The circuit file and the meta file that a mode of the generator writes are accepted together by the zero-knowledge program, and the sum test of mode 5 computes the sum of its inputs. (Expected to fail: the meta files have another format, and the sums of mode 5 have empty ranges.)", "quantifier": "all sizes, depths and values of rand()", "why_tests_cant": "The failure concerns every size; but that no choice of parameters gives a readable pair is a statement about all of them.", "anchors": ["bin/gen.cpp:main", "src/linear_gkr/zk_verifier.cpp:read_circuit"]}
{"id": "C82", "title": "The hash of the transcript is built from AES-128", "statement": "my_hhash() returns, for each half of its 64 input bytes, the AES-128 encryption (FIPS 197) of the last 16 bytes under the first 16, added to the last 16; the round keys are those of the standard, and no assertion fails. In particular the properties proved of challenges for an arbitrary block function hold of the hash in use.", "quantifier": "all 64-byte inputs; all keys and all blocks", "why_tests_cant": "2^256 pairs of key and block; a key schedule that is wrong for some keys only would pass the published examples.", "anchors": ["include/infrastructure/my_hhash.h:my_hhash,aes128_enc,aes128_sec_extend", "include/linear_gkr/transcript.h:proof_transcript::random"]}
{"id": "C83", "title": "The compiler reads the text of a program as the program", "statement": "For every program whose numbers are below 2^31, and every way to write it (numerals may have leading zeros), the compiler goes on with exactly the statements that the lines say, and stops on a text exactly where it stops on the statements. A line says at most one statement. Conversely every text that the compiler reads to its end consists of lines that say statements, and these are the ones it goes on with, up to reduction of the operands modulo 2^32.", "quantifier": "all texts, all programs, all three versions of the compiler", "why_tests_cant": "The recognition is by a chain of regular expressions followed by sscanf with other patterns; whether they agree on every line is a statement about all strings.", "anchors": ["parser_sha_data_parallel.cpp:read_circuit,main", "tests/SHA256/parser_sha_data_parallel.cpp:read_circuit", "tests/lanczos/parser_sha_data_parallel.cpp:read_circuit"]}
{"id": "C84", "title": "The compiler reads the text of a wiring as the wiring", "statement": "For every wiring with numbers below 2^31 and constants of 64 bits, the compiler goes on with exactly the statements that the lines say, the values of the inputs being the results of rand() in order; and it accepts only texts of wirings. (Expected to fail in the second part: a constant with several minus signs matches the regular expression but not the format of sscanf, so that a number of an earlier line is used.)", "quantifier": "all texts, all wirings, all values of rand()", "why_tests_cant": "The regular expressions and the formats accept different sets of strings; tests use generated files only.", "anchors": ["parser_sha_data_parallel.cpp:read_rdl,constant_assign_gate"]}
{"id": "C85", "title": "Numbers written to the circuit and meta files are the numbers read from them", "statement": "The texts of the two files the compiler writes contain, for what fscanf reads one after the other, exactly the numbers of the layers (with zeros in front, signs, spaces and newlines); it fails on the texts of a program and a wiring exactly as on their statements. The circuit that the verifier reads from the texts has in every block the values the program describes. Each fscanf conversion on a text is a conversion on the list of the numbers in it.", "quantifier": "all programs and wirings, all texts of them, all block counts, all values of rand()", "why_tests_cant": "Round trip through printf and scanf for all numbers, including negative ones in fields padded with zeros.", "anchors": ["parser_sha_data_parallel.cpp:merge_and_output,main", "src/linear_gkr/zk_verifier.cpp:read_circuit", "src/linear_gkr/verifier_fast_track.cpp:read_circuit"]}
{"id": "C86", "title": "Soundness of the verifier of the threaded protocol", "statement": "Whatever the prover does, if the output it claims differs in some place from the output of the circuit, verify() of the threaded protocol accepts with probability at most the sum over the layers of 3 per round (plus 1 per folding) over the size of the field, over its random challenges; and so for the program on every circuit file with gates numbered in order. It accepts only runs that the traditional verifier accepts.", "quantifier": "all add/mult circuits and files of any depth and width, all provers (deterministic strategies that see each challenge when it is sent), all wrong outputs", "why_tests_cant": "A statement about all strategies of a prover and about a probability over the challenges.", "anchors": ["src/linear_gkr/verifier_fast_para_track.cpp:verify,read_circuit", "src/linear_gkr/main_fast_para_track.cpp:main"]}
{"id": "C87", "title": "The circuit file of the threaded protocol is read as the circuit it describes, with the right gate lists", "statement": "read_circuit() makes of every file with gates numbered in order the circuit that the file describes; the lists by first and second operand that the threads work on contain for every layer and wire exactly the gates with this operand, in order, including the dummy next to a single gate. (A second line for the same gate is only reported: the lists then contain a gate that the circuit does not have.)", "quantifier": "all files of any size with gates in order, all layers, all wires", "why_tests_cant": "The gate list and the two maps are three separate representations of the same layer that must agree for all files.", "anchors": ["src/linear_gkr/verifier_fast_para_track.cpp:read_circuit", "include/linear_gkr/circuit_fast_track.h:layer"]}
{"id": "C88", "title": "The threaded program prints Pass for every circuit file", "statement": "main_fast_para_track prints Pass for every circuit file with gates numbered in order, additions, multiplications, dummies and constants, under every scheduling of the threads. (Expected to fail: the threads write to shared tables unless the circuit is local, a dummy or a single gate in the input layer fails an assertion, and the arithmetic of phase 2 wraps.)", "quantifier": "all files, all schedules, all challenges, all initial memory", "why_tests_cant": "Schedules and files cannot be enumerated.", "anchors": ["src/linear_gkr/main_fast_para_track.cpp:main", "src/linear_gkr/verifier_fast_para_track.cpp:verify", "src/linear_gkr/prover_fast_para_track.cpp:evaluate"]}
{"id": "C89", "title": "The matrix multiplication program multiplies matrices", "statement": "For two square matrices of 2^d rows, the circuit that tests/mm.cpp builds evaluates at output i*2^d+j to the scalar product of row i of the first and row j of the second matrix modulo the prime, and to the scalar product itself if the entries are the digits the program draws. It does so up to d = 10; from d = 11 on the number of gates overflows an int.", "quantifier": "all d, all matrices", "why_tests_cant": "The wiring is computed with shifts and masks from the gate number; a mistake in one bit position shows only for some sizes.", "anchors": ["tests/mm.cpp:construct_circ_mm", "tests/mm.cpp:evaluate_circuit", "tests/mm.cpp:mm_in1", "tests/mm.cpp:mm_in2"]}
{"id": "C90", "title": "The addition layers of the matrix multiplication program are checked exactly", "statement": "In every layer of additions the check passes if and only if the claim is the multilinear extension of the layer at the current point, and the new claim is that of the next level at the point with the new challenge appended; interpolation and direct evaluation agree with the polynomial for all points. Hence an honest run reaches the layer of products with no message and a true claim.", "quantifier": "all sizes, all values, all claims, all challenges", "why_tests_cant": "Equality of polynomials at all points of a field of 2^254 elements, for any number of layers.", "anchors": ["tests/mm.cpp:sum_check_addtree", "tests/mm.cpp:extrap", "tests/mm.cpp:random_V_L", "tests/mm.cpp:main"]}
{"id": "C91", "title": "The matrix multiplication program ends without a message on honest runs", "statement": "For all matrices and all random values the program tests/mm.cpp runs to its end and no check prints a message. (Expected to fail: the last check reads the challenges at index -1, so that no run is defined; and the messages are computed with the coordinates of the point in the wrong order, so that honest messages do not fit together.)", "quantifier": "all d, all matrices, all random values", "why_tests_cant": "A read in front of an array usually goes unnoticed in a test, and the program exits normally after printing messages.", "anchors": ["tests/mm.cpp:sum_check_mm", "tests/mm.cpp:main"]}
{"id": "C92", "title": "The stand-alone polynomial commitment is complete", "statement": "In multivariate_test.cpp, for keys of any size up to thirty variables and every vector of even length that fits (entries in the field, possibly negative), the commitment passes check_commit, the opening at every point passes verify, and the answer is the value at this point of the multilinear extension of the vector filled up with zeros; the program prints 1 for both checks for one to thirty variables. With no variables or more than thirty its behaviour is undefined.", "quantifier": "all bilinear groups, all secrets, all vectors, all points", "why_tests_cant": "An identity of polynomials in thirty variables over a field of 2^254 elements, through bitwise exponentiation and index arithmetic.", "anchors": ["src/VPD/multivariate_test.cpp:keygen", "src/VPD/multivariate_test.cpp:commit", "src/VPD/multivariate_test.cpp:prove", "src/VPD/multivariate_test.cpp:verify", "src/VPD/multivariate_test.cpp:multi_scalar", "src/VPD/multivariate_test.cpp:main"]}
{"id": "C93", "title": "Vectors of every length can be committed to and opened", "statement": "The commitment, opening and verification of multivariate_test.cpp work together for vectors of every length from two up. (Expected to fail: multi_scalar goes over pairs and drops the last entry of a vector of odd length.)", "quantifier": "all vectors of odd length, all secrets, all points", "why_tests_cant": "Tests use powers of two.", "anchors": ["src/VPD/multivariate_test.cpp:commit", "src/VPD/multivariate_test.cpp:multi_scalar", "src/VPD/multivariate_test.cpp:prove"]}
{"id": "C94", "title": "The stand-alone polynomial commitment binds", "statement": "If verify of multivariate_test.cpp accepts two answers for the same commitment and point, the answers are equal modulo p or the witnesses give a relation between the secrets, and every witness has a correct companion. (Expected to fail: negative answers are read in two's complement, so that a wrong answer passes; the first companion is not checked; large answers read beyond a table.)", "quantifier": "all openings whatsoever, all answers", "why_tests_cant": "A statement about all adversarial inputs.", "anchors": ["src/VPD/multivariate_test.cpp:verify", "src/VPD/multivariate_test.cpp:pre_exp"]}
{"id": "C95", "title": "Only the value itself passes as the answer of an opening", "statement": "The answers of the openings of the layer masks and of the input are integers chosen by the prover. An integer is accepted exactly if it is, or as a negative number is misread as, a number that is accepted: with every accepted answer v between 1 and 2^252 the negative number v - 2^253 is accepted by all three verifiers, for every key and every witness, although it is another number modulo p. Answers between 0 and p - 1 are read as they are. Two accepted answers for one commitment and point yield the relation of C30 between the numbers they are read as. After a negative answer the verifier goes on with a value above p in which the sign counts as a digit 2^64 - 3.", "quantifier": "all integers, keys, points, commitments and witnesses", "why_tests_cant": "A statement about all adversarial inputs.", "anchors": ["src/VPD/vpdR.cpp:verify", "src/VPD/vpd_test.cpp:verify", "src/VPD/inputvpd.cpp:verify", "src/VPD/vpdR.cpp:pre_exp", "src/linear_gkr/zk_verifier.cpp:zk_verifier::verify", "src/linear_gkr/prime_field.cpp:u512b::u512b"]}
{"id": "C96", "title": "The masks of the values are committed in time", "statement": "In the zero-knowledge protocol sumcheck_init of a layer commits to the mask of the values of that layer, after the verifier has sent the point at which the values are claimed. With every other check of the verifier in place (announced sums, openings, v_u, factors and points), an output that is not the circuit's output on the committed input is still accepted only with small probability. (The mask is chosen after the point, so it can make up for any difference of the claims; it is expected to fail.)", "quantifier": "all circuits, committed inputs, false outputs, prover strategies and challenges", "why_tests_cant": "An adversarial prover that no test implements; the acceptance probability is over all challenges.", "anchors": ["src/linear_gkr/zk_prover.cpp:zk_prover::generate_maskR", "src/linear_gkr/zk_prover.cpp:zk_prover::sumcheck_init", "src/linear_gkr/zk_verifier.cpp:zk_verifier::verify"]}
{"id": "C97", "title": "The circuits written by bin/gen_lanczos.py can be read and proved", "statement": "For every ratio r and image dimension that is r times a number of at least 4, bin/gen_lanczos.py writes a circuit file that read_circuit of the plain and (with a meta file declaring no repeated blocks) of the zero-knowledge verifier accept, evaluate() succeeds on the circuit, and the verifiers accept the honest provers. For all other arguments the program stops. (The output layer is not filled up to a power of two, so it is expected to hold only if the number of windows in a row is one.)", "quantifier": "all ratios and image sizes for which the layers have fewer than 2^30 gates, all images and coefficients that fit a long long, all challenges and coins", "why_tests_cant": "Infinitely many sizes; reading outside an array does not show in a test.", "anchors": ["bin/gen_lanczos.py:print_circuit", "src/linear_gkr/verifier_fast_track.cpp:verifier::read_circuit", "src/linear_gkr/zk_verifier.cpp:zk_verifier::read_circuit"]}
{"id": "C98", "title": "The circuits written by bin/gen_lanczos.py scale the image", "statement": "Output column*n+row of a circuit written by bin/gen_lanczos.py is pixel (row, column) of the image scaled with the symmetric Lanczos filter: the sum over a window of 4r by 4r pixels of pixel times weight of its row times weight of its column. (The circuit has no weights for the rows, takes the coefficients in the wrong order, and multiplies the last pixel of each row of the window with the last pixel of the image; it is expected to fail.)", "quantifier": "all ratios, image sizes, images, coefficients", "why_tests_cant": "No test compares the output with the filter; a comparison on some images does not show what the circuit computes on the others.", "anchors": ["bin/gen_lanczos.py:print_circuit", "bin/gen_lanczos.py:filter_coeffs"]}
{"id": "C99", "title": "A run of the zero-knowledge protocol reveals only the outputs", "statement": "Take two inputs for which a circuit has the same outputs. For fixed keys and challenges (outside an explicit set of bad values), everything the honest prover hands out in a run of zk_verifier::verify - outputs, keys, commitments, announced mask sums, round messages, claims, public members the verifier reads, openings with witnesses - has the same distribution for both inputs, over the uniform choice of all masks and blindings. (The second claim of layer 1 is the first input in the clear, so the statement is expected to hold only without this claim, which the verifier does not use, or for equal first inputs.)", "quantifier": "all circuits that can be proved, all pairs of inputs with the same outputs, all challenges outside the bad values, all secrets of the keys, all records", "why_tests_cant": "A statement about the distribution of whole transcripts over all masks and blindings; tests see single runs.", "anchors": ["src/linear_gkr/zk_verifier.cpp:zk_verifier::verify", "src/linear_gkr/zk_prover.cpp:zk_prover::sumcheck_init,generate_maskpoly_pre_rho,sumcheck_phase1_update,sumcheck_phase1_updatelast,sumcheck_phase2_update,sumcheck_finalround,sumcheck_finalize,prove_R,prove_mask,prove_input"]}
{"id": "C100", "title": "The SHA-256 program of bin/sha256gen_merkle.py accepts hashes", "statement": "For every message, round constants and old hash value the program written by bin/sha256gen_merkle.py accepts the block with the new hash value of the SHA-256 compression function, as the one written by tests/SHA256/sha256gen.py does. (It adds up the bits of words with SS instead of EXPSUM, so it is expected to accept only words that are sums of bits.)", "quantifier": "all inputs of a block", "why_tests_cant": "That no input at all is accepted with the initial hash value of SHA-256 is a statement about all choices of the 7226 inputs.", "anchors": ["bin/sha256gen_merkle.py:do_addition,verify_bits,write_64_rounds"]}
{"id": "C101", "title": "The older compilers compute the programs without constants", "statement": "Let P be a straight-line program without constants, with distinct targets, whose gates refer to earlier lines, and let the wiring file pass k times as many inputs as the program refers to. Then parser_sha.cpp (and parser_lanczos.cpp, if there are only sums and products) writes a file; if it is not too large, the reader accepts it, evaluate() succeeds, and every variable of each of the k copies has a place in the circuit with exactly the value that the lines of the program give it. Programs with SS, EXPSUM or BIT are not accepted.", "quantifier": "all programs, wiring files, numbers of copies and values of inputs in a ring", "why_tests_cant": "Programs are unbounded, and the compilers insert relay gates for every operand that is not on the layer below and renumber all gates; a wrong relay shows only for particular shapes of the graph.", "anchors": ["parser_sha.cpp:main,top_sort", "parser_lanczos.cpp:main,top_sort"]}
{"id": "C102", "title": "The older compilers agree with the newer one", "statement": "The older compilers accept the same programs as the newer one and compute the same values: a constant is the constant that is written, the inputs of a copy are consecutive in the wiring file, and programs that refer to lines that are not earlier are not accepted.", "quantifier": "all programs and wiring files", "why_tests_cant": "The wrong values are values of other inputs, which look like any others; a program whose lines contradict each other is never tried.", "anchors": ["parser_sha.cpp:main,top_sort", "parser_lanczos.cpp:main,top_sort"]}
{"id": "C103", "title": "The statistics program prints the size and the depth of a program", "statement": "For every straight-line program, parser.cpp prints as \"Total gates\" the number of its lines, as \"Deg2 gates\" the number of its products, XOR and NAAB lines, and as \"max depth\" the number of places on the longest path from an input.", "quantifier": "all programs of the lines that parser.cpp accepts", "why_tests_cant": "The depth is right whenever all paths to a place have the same length, and for other programs it depends on the order of the lines; nobody knows the right depth of a program with a hundred thousand lines.", "anchors": ["parser.cpp:main", "parser.cpp:dfs", "parser.cpp:Graph"]}
{"id": "C104", "title": "The SHA-256 program in blocks of four rounds is the compression function", "statement": "For the program and the wiring file that sha256gen.py writes with options -4 -R: if all sixteen blocks are accepted, the inputs for the round constants and the old hash value are words and word 0 of the message is a word, then the other inputs of the message are words and the inputs for the new hash value are the SHA-256 compression function of the message and the old hash value. For all messages, round constants and hash values there are inputs for which all sixteen blocks are accepted.", "quantifier": "all inputs of the wiring file, all field elements the prover may choose in it; all messages, round constants and hash values", "why_tests_cant": "A test runs the honest assignment; a condition that is switched off in one block too many, or a bit vector that is wired to the wrong block, still accepts it. Only a proof over all assignments shows that the sixteen blocks leave no freedom.", "anchors": ["tests/SHA256/sha256gen.py:write_4_rounds", "tests/SHA256/sha256gen.py:write_4_rounds_rdl", "tests/SHA256/sha256gen.py:test_field_field", "tests/SHA256/sha256gen.py:test_bitvec_field"]}
{"id": "C105", "title": "One random combination can replace the tests that bits are bits", "statement": "For the program and the wiring file that sha256gen.py writes with option -4 and the default randzero, in which 1064 tests per block are replaced by their sum with coefficients that are inputs: every message is accepted with its hash value, for all coefficients. If the other inputs are fixed, the round constants, the old hash value and word 0 are words, and the new hash value is not the compression function of a message with these words, then the blocks are accepted for at most a fraction 1/|S| of the choices of the 1064 coefficients from a set S.", "quantifier": "all inputs of the wiring file except the coefficients, and all finite sets S of numbers that are different as field elements; all messages, round constants, hash values and coefficients", "why_tests_cant": "The bound is about the fraction of 1064-tuples of coefficients; tests see a few tuples, and would not notice a coefficient that is shared by two tests, or a test that is left out of the sum.", "anchors": ["tests/SHA256/sha256gen.py:write_4_rounds", "tests/SHA256/sha256gen.py:rand_muls", "tests/SHA256/sha256gen.py:print_add_tree", "tests/SHA256/sha256gen.py:write_4_rounds_rdl", "tests/SHA256/build.sh"]}
{"id": "C106", "title": "The four-round SHA-256 circuit can be compiled and proved, and its zero gates mean the hash is right", "statement": "For the program and the wiring file that sha256gen.py writes with the options -4 -R: the compiler accepts them, read_circuit of the verifier reads the result, and the verifier accepts the honest prover on the circuit. Every output of the program has a place in the circuit, the same for all inputs, such that a block is accepted exactly if its gates in these places are zero. If they are zero in all sixteen blocks, and the round constants, the old hash value and word 0 of the message are words, then the message consists of words and the new hash value is its compression function. If all numbers of a message and its hash computation stay below 2^31, there are inputs for it with all these gates zero. The round constants of SHA-256 itself cannot be given as inputs of the circuit.", "quantifier": "all inputs of the wiring file that fit a long long; all secrets and challenges of the protocol", "why_tests_cant": "The statement is about the circuits for all inputs; building one takes the generator, the compiler and the reader, and a run shows one message and one set of challenges.", "anchors": ["tests/SHA256/sha256gen.py:write_4_rounds", "tests/SHA256/sha256gen.py:write_4_rounds_rdl", "parser_sha_data_parallel.cpp:main,merge_and_output", "src/linear_gkr/zk_verifier.cpp:zk_verifier::read_circuit,zk_verifier::verify"]}
