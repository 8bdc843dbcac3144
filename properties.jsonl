{"id": "C01", "title": "Pairing inner product value, for every thread count and reduction schedule", "statement": "PairingInnerProduct::inner_product on two vectors of equal length returns Ok with the sum of e(left[i], right[i]); the value does not depend on how many rayon threads exist (hence on the chunk size) nor on the order in which rayon combines partial products.", "quantifier": "all pairs of equal-length vectors (any length, including 0), all thread counts >= 1, all rayon split/reduction trees", "why_tests_cant": "A test machine has one thread count and sees one schedule; lengths not divisible by the thread count and every reduction tree cannot be enumerated.", "anchors": ["inner_products/src/lib.rs:PairingInnerProduct::inner_product", "inner_products/src/lib.rs:cfg_multi_pairing"]}
{"id": "C02", "title": "Multiexponentiation and scalar inner product values", "statement": "MultiexponentiationInnerProduct returns Ok(sum right[i]*left[i]) and ScalarInnerProduct returns Ok(sum left[i]*right[i]) on equal-length vectors, the latter for every parallel reduction schedule.", "quantifier": "all equal-length vectors, all reduction schedules", "why_tests_cant": "Unbounded lengths and schedules.", "anchors": ["inner_products/src/lib.rs:MultiexponentiationInnerProduct", "inner_products/src/lib.rs:ScalarInnerProduct"]}
{"id": "C03", "title": "Inner products fail exactly on a length mismatch", "statement": "Each of the three inner products returns Err(MessageLengthInvalid(left.len(), right.len())) if and only if the two lengths differ, and it never panics.", "quantifier": "all pairs of vectors, all thread counts and schedules", "why_tests_cant": "Totality over all inputs.", "anchors": ["inner_products/src/lib.rs:InnerProductError", "inner_products/src/lib.rs:PairingInnerProduct", "inner_products/src/lib.rs:MultiexponentiationInnerProduct", "inner_products/src/lib.rs:ScalarInnerProduct"]}
{"id": "C04", "title": "Inner products are bilinear and split over concatenation", "statement": "On vectors of matching lengths the inner products are additive and homogeneous in each argument, and the inner product of concatenated vectors is the sum of the inner products of the parts.", "quantifier": "all vectors and scalars", "why_tests_cant": "Algebraic law over all inputs; GIPA folding relies on it at every size.", "anchors": ["inner_products/src/lib.rs:InnerProduct::inner_product"]}
{"id": "C05", "title": "Pedersen and AFGHO commitments are doubly homomorphic", "statement": "For PedersenCommitment, AFGHOCommitmentG1 and AFGHOCommitmentG2: commit(k, m+m') = commit(k,m)+commit(k,m'), commit(k+k', m) = commit(k,m)+commit(k',m), commit(k, c*m) = commit(c*k, m) = c*commit(k,m), whenever the lengths agree.", "quantifier": "all keys, messages, scalars, lengths", "why_tests_cant": "Homomorphism is a universally quantified law.", "anchors": ["dh_commitments/src/pedersen/mod.rs:PedersenCommitment", "dh_commitments/src/afgho16/mod.rs:AFGHOCommitmentG1", "dh_commitments/src/afgho16/mod.rs:AFGHOCommitmentG2"]}
{"id": "C06", "title": "Commitment verification accepts exactly the committed value", "statement": "verify(k, m, com) is Ok(true) iff com equals commit(k, m), is Ok(false) for every other com of that type, and returns the same Err as commit when key and message lengths differ.", "quantifier": "all keys, messages, commitments, all four commitment schemes", "why_tests_cant": "Quantifies over all commitments and all lengths.", "anchors": ["dh_commitments/src/lib.rs:DoublyHomomorphicCommitment::verify"]}
{"id": "C07", "title": "Setup returns exactly the requested number of keys", "statement": "setup(rng, size) of every commitment returns exactly size keys; GIPA::setup returns size left keys, size right keys and one inner-product key and never panics.", "quantifier": "all sizes, all rng states", "why_tests_cant": "Unbounded size.", "anchors": ["dh_commitments/src/lib.rs:random_generators", "ip_proofs/src/gipa.rs:GIPA::setup", "ip_proofs/src/tipa/structured_scalar_message.rs:GIPAWithSSM::setup"]}
{"id": "C08", "title": "Binding reduction for Pedersen and AFGHO", "statement": "Two different messages opening the same commitment under the same key give a non-trivial linear relation on the key: the difference vector is non-zero and commits to zero. With a key on which no such relation exists, a commitment has at most one opening.", "quantifier": "all keys, commitments, pairs of openings", "why_tests_cant": "Adversarial openings cannot be enumerated.", "anchors": ["dh_commitments/src/pedersen/mod.rs:commit", "dh_commitments/src/afgho16/mod.rs:commit"]}
{"id": "C09", "title": "Identity commitment: perfectly binding, key-independent, truncating addition", "statement": "IdentityCommitment::commit returns the message itself whatever the key (no length check), so two openings of one commitment are equal; it is homomorphic on equal-length messages; adding outputs of different lengths silently truncates to the shorter.", "quantifier": "all messages, keys, scalars", "why_tests_cant": "Universal law plus a silent-truncation boundary.", "anchors": ["dh_commitments/src/identity/mod.rs:IdentityCommitment", "dh_commitments/src/identity/mod.rs:IdentityOutput"]}
{"id": "C10", "title": "Structured-message placeholder commitment carries no information", "statement": "SSMPlaceholderCommitment::commit returns zero for every key and message, so it verifies any message against zero and only against zero.", "quantifier": "all keys and messages", "why_tests_cant": "Universal.", "anchors": ["ip_proofs/src/tipa/structured_scalar_message.rs:SSMPlaceholderCommitment"]}
{"id": "C11", "title": "GIPA completeness", "statement": "If m_a, m_b and both key vectors have the same power-of-two length and the three commitments are honest, then GIPA::prove returns a proof and GIPA::verify on that proof returns Ok(true). Holds for the pairing, multiexponentiation and scalar instantiations.", "quantifier": "all lengths 2^k (k >= 0), all messages, keys, digests with at least 16 bytes of output whose challenge search ends, all serializers", "why_tests_cant": "Tests use one length (8), one curve and one hash; the claim is for every size and every challenge sequence.", "anchors": ["ip_proofs/src/gipa.rs:GIPA::prove", "ip_proofs/src/gipa.rs:GIPA::verify", "ip_proofs/src/gipa.rs:GIPA::_prove"]}
{"id": "C12", "title": "GIPA::prove only proves true statements", "statement": "If GIPA::prove returns Ok then the claimed value is the inner product of the messages, the three commitments open to the messages and to the value, and the length is a power of two.", "quantifier": "all inputs", "why_tests_cant": "Quantifies over all false statements.", "anchors": ["ip_proofs/src/gipa.rs:GIPA::prove"]}
{"id": "C13", "title": "GIPA::prove rejects bad input with the documented error", "statement": "prove returns Err(InnerProductInvalid) when the value is wrong or a commitment does not open, and Err(MessageLengthInvalid) when the lengths differ or are not a power of two.", "quantifier": "all inputs with a defect", "why_tests_cant": "All defects at all sizes.", "anchors": ["ip_proofs/src/gipa.rs:GIPA::prove"]}
{"id": "C14", "title": "GIPA prover never panics on well-formed input", "statement": "With equal power-of-two lengths the recursive prover terminates without panicking or returning Err, unless a challenge search runs through all 2^64 nonces.", "quantifier": "all well-formed inputs", "why_tests_cant": "Termination and absence of panics for every size.", "anchors": ["ip_proofs/src/gipa.rs:GIPA::_prove", "ip_proofs/src/gipa.rs:GIPA::prove_with_aux"]}
{"id": "C15", "title": "GIPA proofs have exactly log2(n) rounds", "statement": "A proof returned for vectors of length 2^k contains exactly k pairs of step commitments and the auxiliary transcript has exactly k challenges.", "quantifier": "all k", "why_tests_cant": "Unbounded k.", "anchors": ["ip_proofs/src/gipa.rs:GIPAProof", "ip_proofs/src/gipa.rs:GIPAAux"]}
{"id": "C16", "title": "Prover and verifier derive the same challenges, all invertible", "statement": "The transcript recomputed by verify_recursive_challenge_transcript from an honest proof equals the prover's transcript, and every challenge returned by it for any proof is non-zero, so later inversions never panic.", "quantifier": "all proofs, all digests", "why_tests_cant": "All challenge sequences, including zero hash outputs that trigger the nonce loop.", "anchors": ["ip_proofs/src/gipa.rs:GIPA::verify_recursive_challenge_transcript", "ip_proofs/src/gipa.rs:GIPA::_prove"]}
{"id": "C17", "title": "Verifier's one-shot final keys equal the prover's folded keys", "statement": "For every transcript of k non-zero challenges and keys of length 2^k, the verifier's final keys equal the result of folding the keys round by round, and are the sum over i of ck[i] scaled by the product of the (inverse) challenges at the set bits of i.", "quantifier": "all k, keys, challenge vectors", "why_tests_cant": "Index/bit-order errors only show at some sizes and values.", "anchors": ["ip_proofs/src/gipa.rs:GIPA::_compute_final_commitment_keys"]}
{"id": "C18", "title": "GIPA::verify accepts exactly when three explicit equations hold", "statement": "For keys of equal power-of-two length and a proof with the right number of rounds, verify returns Ok(true) iff com_a + sum(c_i L_i + c_i^-1 R_i) = commit(final key, base message) for each of the left, right and inner-product commitments, where c_i are the derived challenges; otherwise Ok(false).", "quantifier": "all commitments, all proofs (also adversarial)", "why_tests_cant": "Adversarial proofs.", "anchors": ["ip_proofs/src/gipa.rs:GIPA::verify", "ip_proofs/src/gipa.rs:GIPA::_verify_base_commitment"]}
{"id": "C19", "title": "GIPA::verify rejects malformed key lengths with Err", "statement": "verify returns Err(MessageLengthInvalid(len_a, len_b)) whenever the left key length is not a power of two or the two key lengths differ, for every commitment and proof.", "quantifier": "all keys, commitments, proofs", "why_tests_cant": "Universal.", "anchors": ["ip_proofs/src/gipa.rs:GIPA::verify"]}
{"id": "C20", "title": "A proof with a wrong number of rounds makes GIPA::verify panic", "statement": "A caller expects a malformed proof to be rejected by an error value. In the code, for well-formed keys of length n, every proof whose number of rounds is not log2(n) makes verify panic (assert_eq) or not terminate; it never returns a verdict.", "quantifier": "all proofs with a wrong number of rounds", "why_tests_cant": "Attacker-controlled proof shape.", "anchors": ["ip_proofs/src/gipa.rs:GIPA::_compute_final_commitment_keys"]}
{"id": "C21", "title": "GIPA challenges do not depend on the statement", "statement": "The challenge transcript computed for a proof is the same for every triple of statement commitments and every key: the Fiat-Shamir hash covers only the step commitments.", "quantifier": "all statements and proofs", "why_tests_cant": "Universal non-interference.", "anchors": ["ip_proofs/src/gipa.rs:GIPA::_compute_recursive_challenges"]}
{"id": "C22", "title": "GIPA non-interactive soundness (violated)", "statement": "Expected: if verify returns Ok(true) then the committed value is the inner product of the committed messages. The code violates it: from honest commitments to any a, b of length 2^k, k >= 1, and any non-zero shift one obtains an accepted proof for the same com_a, com_b and a different inner-product commitment.", "quantifier": "all a, b, keys, digests with ending challenge search; all k >= 1", "why_tests_cant": "A forged proof is not found by honest-path tests.", "anchors": ["ip_proofs/src/gipa.rs:GIPA::verify", "ip_proofs/src/gipa.rs:GIPA::_compute_recursive_challenges"]}
{"id": "C23", "title": "Round hash input determines nonce, previous challenge and step commitments", "statement": "If the element encodings are injective and of fixed length per type, two challenge hash inputs are equal only if nonce, previous challenge and all six step commitments are equal.", "quantifier": "all nonces below 2^64, challenges, step commitments", "why_tests_cant": "Injectivity over an infinite domain.", "anchors": ["ip_proofs/src/gipa.rs:GIPA::_compute_recursive_challenges"]}
{"id": "C24", "title": "TIPA setup produces the structured reference string", "statement": "setup(size) for size >= 1 returns g_alpha_powers[i] = alpha^i g and h_beta_powers[i] = beta^i h for 0 <= i < 2*size-1, g_beta = beta g, h_alpha = alpha h for the sampled alpha, beta; size 0 panics.", "quantifier": "all sizes, all rng outputs", "why_tests_cant": "Unbounded size.", "anchors": ["ip_proofs/src/tipa/mod.rs:TIPA::setup", "ip_proofs/src/tipa/mod.rs:structured_generators_scalar_power"]}
{"id": "C25", "title": "Commitment keys and verifier key extracted from the SRS", "statement": "get_commitment_keys returns exactly size keys each, ck_1[i] = beta^(2i) h, ck_2[i] = alpha^(2i) g; get_verifier_key returns (g, h, beta g, alpha h).", "quantifier": "all sizes", "why_tests_cant": "Every-other-element indexing at all sizes.", "anchors": ["ip_proofs/src/tipa/mod.rs:SRS::get_commitment_keys", "ip_proofs/src/tipa/mod.rs:SRS::get_verifier_key"]}
{"id": "C26", "title": "Key polynomial: coefficient form and product form agree", "statement": "For every transcript x_0..x_{k-1}, shift r and point z the product prod(1 + x_j (r z^2)^(2^j)) equals the evaluation at z of the interleaved coefficient vector, which has length 2^(k+1)-1.", "quantifier": "all k, transcripts, r, z", "why_tests_cant": "Polynomial identity for all k.", "anchors": ["ip_proofs/src/tipa/mod.rs:polynomial_evaluation_product_form_from_transcript", "ip_proofs/src/tipa/mod.rs:polynomial_coefficients_from_transcript"]}
{"id": "C27", "title": "Opening proofs of final commitment keys are complete", "statement": "For non-zero challenges and shift and an SRS of length 2^(k+1)-1, prove_commitment_key_kzg_opening does not panic and its output is accepted by the matching verify_commitment_key_g1/g2_kzg_opening against the true final key, for every challenge point.", "quantifier": "all k, transcripts, trapdoors, points", "why_tests_cant": "All points including roots and the trapdoor itself.", "anchors": ["ip_proofs/src/tipa/mod.rs:prove_commitment_key_kzg_opening", "ip_proofs/src/tipa/mod.rs:verify_commitment_key_g2_kzg_opening", "ip_proofs/src/tipa/mod.rs:verify_commitment_key_g1_kzg_opening"]}
{"id": "C28", "title": "Key opening check decides one group equation", "statement": "With a non-degenerate pairing, the G2 check accepts iff ck_final - p(z) h = (beta - z) opening, and the G1 check iff ck_final - p(z) g = (alpha - z) opening.", "quantifier": "all claimed keys and openings", "why_tests_cant": "Adversarial openings.", "anchors": ["ip_proofs/src/tipa/mod.rs:verify_commitment_key_g2_kzg_opening", "ip_proofs/src/tipa/mod.rs:verify_commitment_key_g1_kzg_opening"]}
{"id": "C29", "title": "TIPA completeness, also with SRS shift", "statement": "For an SRS of size n = 2^k, k >= 1, messages of length n and honest commitments, TIPA::prove succeeds and verify accepts; with shift r != 0 and left keys scaled by r^-i, prove_with_srs_shift succeeds and verify_with_srs_shift accepts.", "quantifier": "all k >= 1, messages, trapdoors, shifts, digests", "why_tests_cant": "One test size only.", "anchors": ["ip_proofs/src/tipa/mod.rs:TIPA::prove_with_srs_shift", "ip_proofs/src/tipa/mod.rs:TIPA::verify_with_srs_shift"]}
{"id": "C30", "title": "TIPA panics on vectors of length one", "statement": "prove and verify index the first challenge of an empty transcript: for length-1 vectors TIPA::prove and TIPAWithSSM::prove panic, and verifying any zero-round proof panics.", "quantifier": "all length-1 inputs, all zero-round proofs", "why_tests_cant": "A boundary no test visits.", "anchors": ["ip_proofs/src/tipa/mod.rs:TIPA::prove_with_srs_shift", "ip_proofs/src/tipa/structured_scalar_message.rs:TIPAWithSSM::prove_with_structured_scalar_message"]}
{"id": "C31", "title": "TIPA verdict equals GIPA verdict once the final keys are right", "statement": "If the proof's final keys are the folded commitment keys and their openings are accepted, TIPA::verify returns the same verdict as GIPA::verify with the full key vectors on the embedded GIPA proof.", "quantifier": "all proofs, commitments, keys", "why_tests_cant": "Relates two verifiers on adversarial inputs.", "anchors": ["ip_proofs/src/tipa/mod.rs:TIPA::verify_with_srs_shift", "ip_proofs/src/gipa.rs:GIPA::verify"]}
{"id": "C32", "title": "structured_scalar_power returns the powers 1, s, ..., s^(num-1)", "statement": "For num >= 1 the result has length num and entry i is s^i; for num = 0 it still returns the one-element vector [1].", "quantifier": "all num, s", "why_tests_cant": "Boundary and all sizes.", "anchors": ["ip_proofs/src/tipa/structured_scalar_message.rs:structured_scalar_power"]}
{"id": "C33", "title": "GIPA with structured scalar message is complete", "statement": "For m_b = (1, b, b^2, ...), honest com_a and com_t, and power-of-two length, prove succeeds and verify_with_structured_scalar_message accepts given only the scalar b.", "quantifier": "all k >= 0, messages, b, digests", "why_tests_cant": "All sizes and challenges.", "anchors": ["ip_proofs/src/tipa/structured_scalar_message.rs:GIPAWithSSM"]}
{"id": "C34", "title": "TIPA with structured scalar message is complete", "statement": "Same as C33 with an SRS and k >= 1: prove_with_structured_scalar_message succeeds and the verifier, holding only the verifier SRS and b, accepts.", "quantifier": "all k >= 1, messages, b, trapdoors, digests", "why_tests_cant": "All sizes and challenges.", "anchors": ["ip_proofs/src/tipa/structured_scalar_message.rs:TIPAWithSSM"]}
{"id": "C35", "title": "Final structured scalar", "statement": "The verifier's product prod(1 + c_j^-1 b^(2^j)) equals the right message (1, b, ..., b^(2^k-1)) folded with the same challenges.", "quantifier": "all k, b, challenges", "why_tests_cant": "Identity for all k.", "anchors": ["ip_proofs/src/tipa/structured_scalar_message.rs:verify_with_structured_scalar_message"]}
{"id": "C36", "title": "Structured-message verifiers: parts of the input are not bound", "statement": "The challenges do not depend on the public scalar b, and TIPAWithSSM's verdict does not depend on the right base message stored in the proof, so proofs are malleable.", "quantifier": "all proofs, scalars", "why_tests_cant": "Universal non-interference.", "anchors": ["ip_proofs/src/tipa/structured_scalar_message.rs:TIPAWithSSM::verify_with_structured_scalar_message"]}
{"id": "C37", "title": "KZG commitment scheme is complete", "statement": "For every polynomial of degree at most d, every trapdoor and every point z, open(commit(p), z) is accepted by verify with value p(z).", "quantifier": "all polynomials, points, trapdoors, degrees", "why_tests_cant": "All polynomials and points, including roots and the trapdoor.", "anchors": ["ip_proofs/src/applications/poly_commit/mod.rs:KZG::commit", "ip_proofs/src/applications/poly_commit/mod.rs:KZG::open", "ip_proofs/src/applications/poly_commit/mod.rs:KZG::verify"]}
{"id": "C38", "title": "KZG: two accepted values at one point reveal the trapdoor inverse", "statement": "If verify accepts (v1, pi1) and (v2, pi2) for one commitment and point z with v1 != v2, then (v2-v1)^-1 (pi1-pi2) equals (alpha-z)^-1 g, in particular z is not alpha.", "quantifier": "all commitments, points, proofs", "why_tests_cant": "Adversarial proofs.", "anchors": ["ip_proofs/src/applications/poly_commit/mod.rs:KZG::verify"]}
{"id": "C39", "title": "KZG rejects polynomials that do not fit the SRS", "statement": "commit and open panic exactly when the number of powers is smaller than degree + 1, and otherwise return Ok.", "quantifier": "all SRS sizes and polynomials", "why_tests_cant": "Boundary for all sizes.", "anchors": ["ip_proofs/src/applications/poly_commit/mod.rs:KZG::commit", "ip_proofs/src/applications/poly_commit/mod.rs:KZG::open"]}
{"id": "C40", "title": "Bivariate evaluation", "statement": "BivariatePolynomial::evaluate(x, y) equals sum_i x^i p_i(y).", "quantifier": "all polynomials and points", "why_tests_cant": "Universal.", "anchors": ["ip_proofs/src/applications/poly_commit/mod.rs:BivariatePolynomial::evaluate", "ip_proofs/src/applications/poly_commit/transparent.rs:BivariatePolynomial::evaluate"]}
{"id": "C41", "title": "Bivariate polynomial commitment is complete", "statement": "For x_degree+1 = 2^k, k >= 1, every polynomial with at most x_degree+1 rows of degree <= y_degree: commit, open and verify at any point (x,y) accept the value evaluate(x,y).", "quantifier": "all degrees, polynomials, points, trapdoors, digests", "why_tests_cant": "All sizes and points.", "anchors": ["ip_proofs/src/applications/poly_commit/mod.rs:BivariatePolynomialCommitment"]}
{"id": "C42", "title": "Bivariate open panics unless x_degree+1 is a power of two and at least 2", "statement": "setup and commit accept any x_degree, but open panics whenever x_degree+1 is not a power of two or is 1.", "quantifier": "all such degrees", "why_tests_cant": "Unvisited boundary.", "anchors": ["ip_proofs/src/applications/poly_commit/mod.rs:BivariatePolynomialCommitment::open"]}
{"id": "C43", "title": "Univariate degree split has enough room and a usable shape", "statement": "For every degree d with 1 <= d < 2^52 (the floating-point precision limit) bivariate_degrees returns (x,y) with x+1 >= 2 a power of two, y+1 a power of two and (x+1)(y+1) >= d+1; for d = 0 it panics (division by zero).", "quantifier": "all degrees", "why_tests_cant": "All degrees; floating-point square root boundary.", "anchors": ["ip_proofs/src/applications/poly_commit/mod.rs:UnivariatePolynomialCommitment::bivariate_degrees", "ip_proofs/src/applications/poly_commit/transparent.rs:UnivariatePolynomialCommitment::bivariate_degrees"]}
{"id": "C44", "title": "Bivariate form preserves evaluation", "statement": "If the polynomial has at most (x_degree+1)(y_degree+1) coefficients then evaluating the bivariate form at (z^(y_degree+1), z) gives p(z).", "quantifier": "all polynomials, degrees, points", "why_tests_cant": "Index arithmetic at all sizes.", "anchors": ["ip_proofs/src/applications/poly_commit/mod.rs:UnivariatePolynomialCommitment::bivariate_form", "ip_proofs/src/applications/poly_commit/transparent.rs:UnivariatePolynomialCommitment::bivariate_form"]}
{"id": "C45", "title": "Univariate polynomial commitment is complete", "statement": "After setup(d) with 1 <= d < 2^52, every polynomial of degree <= d: commit, open and verify(max_degree = d) at any point accept p(point).", "quantifier": "all d with 1 <= d < 2^52, polynomials, points, trapdoors, digests", "why_tests_cant": "The only test is ignored and has one size.", "anchors": ["ip_proofs/src/applications/poly_commit/mod.rs:UnivariatePolynomialCommitment"]}
{"id": "C46", "title": "Oversized univariate polynomials are silently truncated", "statement": "Expected: committing to a polynomial larger than the SRS fails. In the code commit and open of a polynomial p behave exactly as for p truncated to (x_degree+1)(y_degree+1) coefficients, without any error.", "quantifier": "all oversized polynomials", "why_tests_cant": "Silent behaviour out of the tested range.", "anchors": ["ip_proofs/src/applications/poly_commit/mod.rs:UnivariatePolynomialCommitment::bivariate_form", "ip_proofs/src/applications/poly_commit/transparent.rs:UnivariatePolynomialCommitment::bivariate_form"]}
{"id": "C47", "title": "Transparent bivariate and univariate polynomial commitments are complete", "statement": "For power-of-two key sizes, commit, open, verify accept the true evaluation at every point, for the bivariate scheme and for the univariate scheme after setup(d), 1 <= d < 2^52.", "quantifier": "all sizes, polynomials, points, keys, digests", "why_tests_cant": "All sizes.", "anchors": ["ip_proofs/src/applications/poly_commit/transparent.rs:BivariatePolynomialCommitment", "ip_proofs/src/applications/poly_commit/transparent.rs:UnivariatePolynomialCommitment"]}
{"id": "C48", "title": "Polynomial commitment evaluation binding (violated)", "statement": "Expected: verify accepts only p(x,y). The code violates it: for every committed polynomial and point there is an accepted opening proof for a value different from the true evaluation, built without any trapdoor.", "quantifier": "all polynomials, points, SRS with x_degree+1 = 2^k, k >= 1", "why_tests_cant": "Forgery is not on the honest path.", "anchors": ["ip_proofs/src/applications/poly_commit/mod.rs:BivariatePolynomialCommitment::verify", "ip_proofs/src/applications/poly_commit/transparent.rs:BivariatePolynomialCommitment::verify"]}
{"id": "C49", "title": "Aggregation of valid Groth16 proofs is complete", "statement": "For n = 2^k, k >= 1, proofs satisfying the Groth16 equation for their inputs, an SRS of size n and a challenge r other than 0 and 1, aggregate_proofs succeeds and verify_aggregate_proof accepts.", "quantifier": "all n = 2^k, proofs, inputs, verifying keys, trapdoors, digests", "why_tests_cant": "One size in examples.", "anchors": ["ip_proofs/src/applications/groth16_aggregation.rs:aggregate_proofs", "ip_proofs/src/applications/groth16_aggregation.rs:verify_aggregate_proof"]}
{"id": "C50", "title": "Batch equation soundness: few bad challenges", "statement": "If at least one of n proofs violates the Groth16 equation, the aggregate pairing equation for the honest ip_ab and agg_c holds for at most n-1 values of r.", "quantifier": "all batches with a defect", "why_tests_cant": "Counting over all challenges.", "anchors": ["ip_proofs/src/applications/groth16_aggregation.rs:verify_aggregate_proof"]}
{"id": "C51", "title": "Aggregation panics on degenerate challenges and empty input", "statement": "With r = 0 the aggregator panics; with r = 1 the verifier panics (division by zero); with no public inputs or a verifying key of the wrong size the verifier panics after the TIPA checks.", "quantifier": "all inputs meeting the condition", "why_tests_cant": "Cannot be reached by sampling hashes.", "anchors": ["ip_proofs/src/applications/groth16_aggregation.rs:aggregate_proofs", "ip_proofs/src/applications/groth16_aggregation.rs:verify_aggregate_proof"]}
{"id": "C52", "title": "Aggregate proofs are not bound to their public inputs (violated expectation)", "statement": "The verdict depends on the public inputs only through their number and the r-weighted column sums, and r does not depend on them. Expected: an accepted aggregate proof is bound to its public inputs. In the code: for every accepted aggregate proof and every choice of all rows but one, there is a remaining row making the same proof accepted.", "quantifier": "all accepted proofs, n >= 2", "why_tests_cant": "Adversarial inputs.", "anchors": ["ip_proofs/src/applications/groth16_aggregation.rs:verify_aggregate_proof"]}
{"id": "C53", "title": "Extra public inputs in later rows are ignored", "statement": "Only the first row's length is checked: appending values to any other row does not change the verdict, while a shorter row makes the verifier panic.", "quantifier": "all inputs", "why_tests_cant": "Unchecked shape.", "anchors": ["ip_proofs/src/applications/groth16_aggregation.rs:verify_aggregate_proof"]}
{"id": "C54", "title": "SIPP pairing products for every thread count and schedule", "statement": "product_of_pairings_with_coeffs on equal-length a, b, r returns sum e(r_i a_i, b_i), product_of_pairings returns sum e(a_i,b_i), for every thread count and schedule.", "quantifier": "all vectors, thread counts, schedules", "why_tests_cant": "One machine, one schedule.", "anchors": ["sipp/src/lib.rs:product_of_pairings_with_coeffs", "sipp/src/lib.rs:product_of_pairings"]}
{"id": "C55", "title": "SIPP completeness", "statement": "For a, b, r of length 2^k, k >= 1, and the true product as value, prove returns a proof that verify accepts, unless a challenge is zero (then prove panics).", "quantifier": "all k >= 1, inputs, digests, generators", "why_tests_cant": "One size in tests.", "anchors": ["sipp/src/lib.rs:SIPP::prove", "sipp/src/lib.rs:SIPP::verify"]}
{"id": "C56", "title": "SIPP length-one boundary", "statement": "prove succeeds with an empty proof for vectors of length 1, but verify panics for every input of length 1.", "quantifier": "all length-1 inputs", "why_tests_cant": "Boundary.", "anchors": ["sipp/src/lib.rs:SIPP::prove", "sipp/src/lib.rs:SIPP::verify"]}
{"id": "C57", "title": "SIPP verify decides one explicit equation", "statement": "For well-formed input verify returns Ok(true) iff e(sum s_i r_i a_i, sum s_i^-1 b_i) = value + sum(x_j z_l,j + x_j^-1 z_r,j) where s_i is the product of the challenges x_j at the set bits of i (round 0 = top bit).", "quantifier": "all values, all proofs", "why_tests_cant": "Adversarial proofs.", "anchors": ["sipp/src/lib.rs:SIPP::verify"]}
{"id": "C58", "title": "SIPP soundness against any prover strategy", "statement": "If the claimed value is not the true product then for every prover strategy (messages may depend on earlier challenges) and every finite set S of non-zero challenges, the verifier's equation holds for at most 2k |S|^(k-1) of the |S|^k challenge sequences.", "quantifier": "all false statements, all strategies, all k, all S", "why_tests_cant": "Adversary strategies are infinite.", "anchors": ["sipp/src/lib.rs:SIPP::verify"]}
{"id": "C59", "title": "SIPP transcript binds the statement", "statement": "With injective fixed-length element encodings the seed hash input determines a, b, r and the value; each absorbed message determines (z_l, z_r). Two transcripts with equally many rounds that arrive at the same seed agree on the statement and all messages, or two different strings that they hash in the same place have the same digest.", "quantifier": "all statements", "why_tests_cant": "Injectivity over infinite domain.", "anchors": ["sipp/src/lib.rs:SIPP::prove", "sipp/src/rng.rs:FiatShamirRng::from_seed"]}
{"id": "C60", "title": "FiatShamirRng: outputs after absorb depend only on seed history", "statement": "The generator state after absorb is a function of the bytes absorbed so far (and initial seed), independent of how many values were drawn in between; equal histories give equal outputs.", "quantifier": "all interleavings of draws and absorbs", "why_tests_cant": "All operation sequences.", "anchors": ["sipp/src/rng.rs:FiatShamirRng::absorb", "sipp/src/rng.rs:FiatShamirRng::from_seed"]}
{"id": "C61", "title": "SIPP verify: wrong proof length or mismatched vectors panic", "statement": "verify panics when the number of proof elements is not log2(n), when n is not a power of two or below 2, when |a| differs from |b|, or when r is shorter than a; surplus entries of r do not affect the equation except through the challenges.", "quantifier": "all malformed inputs", "why_tests_cant": "Attacker-controlled shapes.", "anchors": ["sipp/src/lib.rs:SIPP::verify"]}
{"id": "C62", "title": "Inner-product commitments with trailing entries are accepted", "statement": "Expected: an identity commitment with more than one entry is not a commitment to an inner product and is rejected. In the code, every proof with at least one honest round that is accepted for com_t = [t] is also accepted for com_t = [t, junk...] because adding identity outputs truncates to the shorter one.", "quantifier": "all lawful inner-product/commitment tuples using the identity inner-product commitment, keys, proofs and junk vectors", "why_tests_cant": "The test suite only builds one-element identity outputs; the claim ranges over all longer ones and all proofs.", "anchors": ["dh_commitments/src/identity/mod.rs:IdentityOutput::add", "ip_proofs/src/gipa.rs:GIPA::verify"]}
{"id": "C63", "title": "TIPA and the structured-message arguments inherit the GIPA soundness violation", "statement": "Expected: an accepted TIPA, TIPA-with-shift, GIPAWithSSM or TIPAWithSSM proof means that the committed value is the inner product of the committed messages. The code violates it: for every honest statement of length 2^k, k >= 1, there is an accepted proof for the same message commitments (and the same public scalar) and a commitment to a different value.", "quantifier": "all lawful instantiations, all honest statements of length at least 2, all reference strings, all non-zero shifts", "why_tests_cant": "Tests only replace the value by a random one while keeping the proof; the forged proof has to be computed together with the value.", "anchors": ["ip_proofs/src/tipa/mod.rs:TIPA::verify_with_srs_shift", "ip_proofs/src/tipa/structured_scalar_message.rs:verify_with_structured_scalar_message", "ip_proofs/src/gipa.rs:_compute_recursive_challenges"]}
{"id": "C64", "title": "Inputs on which aggregation fails", "statement": "aggregate_proofs returns the length error if the commitment keys do not have as many entries as there are proofs; a single proof panics inside TIPA; a number of proofs that is not a power of two panics.", "quantifier": "all numbers of proofs, reference strings, challenges other than 0", "why_tests_cant": "All sizes at once.", "anchors": ["ip_proofs/src/applications/groth16_aggregation.rs:aggregate_proofs"]}
{"id": "C65", "title": "The number of aggregated proofs is not bound to the number of input rows", "statement": "An aggregate of valid proofs followed by proofs with e(A,B) = e(C,delta) (for instance all zero) is accepted for the input rows of the valid proofs alone, i.e. for fewer rows than aggregated proofs.", "quantifier": "all batches, all padding lengths", "why_tests_cant": "The test uses equally many rows and proofs.", "anchors": ["ip_proofs/src/applications/groth16_aggregation.rs:verify_aggregate_proof"]}
{"id": "C66", "title": "Pairing products of vectors of different lengths", "statement": "product_of_pairings on vectors of different lengths either returns the product of the common prefix or panics, and which of the two happens depends on the number of threads: it returns exactly if the chunk size (|a|/threads, or 1 if there are more threads than elements) divides the length of the shorter vector. The same holds for the public cfg_multi_pairing of the inner products, whose callers check the lengths.", "quantifier": "all vectors of different lengths, all thread counts and schedules", "why_tests_cant": "A test runs on one machine with one thread count.", "anchors": ["sipp/src/lib.rs:product_of_pairings", "sipp/src/lib.rs:product_of_pairings_with_coeffs", "inner_products/src/lib.rs:cfg_multi_pairing"]}
{"id": "C67", "title": "GIPA extractor: accepting transcripts yield an opening or a collision", "statement": "From a tree of accepting runs of the GIPA verifier (same prover messages, four distinct non-zero challenges at every round) an explicit algorithm computes vectors a, b of the key lengths that open both commitments and whose inner product is the committed value, or two different vectors with the same commitment under one of the given keys. An accepted proof is such a run with the hashed challenges.", "quantifier": "all lawful instantiations, all numbers of rounds, all keys, commitments and trees", "why_tests_cant": "It speaks about all provers; a test can only run the honest one.", "anchors": ["ip_proofs/src/gipa.rs:verify", "ip_proofs/src/gipa.rs:_compute_recursive_challenges", "ip_proofs/src/gipa.rs:_verify_base_commitment"]}
{"id": "C68", "title": "Knowledge error of the interactive GIPA verifier", "statement": "For keys of length 2^k, any prover strategy and any set S of non-zero challenges: if more than 3k|S|^(k-1) of the |S|^k challenge sequences are accepted, running the prover on a tree of accepted sequences and extracting gives an opening with the committed inner product, or a collision. Where no collision exists a statement without an opening is accepted for at most 3k|S|^(k-1) sequences.", "quantifier": "all prover strategies, all k, all finite sets of non-zero challenges", "why_tests_cant": "Quantifies over all adversarial strategies and counts challenge sequences.", "anchors": ["ip_proofs/src/gipa.rs:verify"]}
{"id": "C69", "title": "Exact derivation of the challenges", "statement": "The GIPA challenge of a round is the inverse of the first non-zero value, over the nonces 0, 1, 2, ... below 2^64, of the first 16 digest bytes read as a big-endian number, where the hashed bytes are the big-endian nonce, the previous challenge (zero in the first round) and the six commitments of the round in order. The KZG points and the Groth16 challenge are the first success of from_random_bytes on the hash of nonce and the listed values. A shorter digest, or an empty transcript for the KZG point, panics.", "quantifier": "all hash functions, serializers and inputs", "why_tests_cant": "Tests see the prover and the verifier use the same function and cannot tell a wrong but consistent derivation; zero hash values never occur in tests.", "anchors": ["ip_proofs/src/gipa.rs:_prove", "ip_proofs/src/gipa.rs:_compute_recursive_challenges", "ip_proofs/src/tipa/mod.rs:prove_with_srs_shift", "ip_proofs/src/tipa/structured_scalar_message.rs:prove_with_structured_scalar_message", "ip_proofs/src/applications/groth16_aggregation.rs:aggregate_proofs"]}
{"id": "C70", "title": "Final-key opening is sound for algebraic provers", "statement": "Against a prover whose final key and opening are linear combinations of SRS elements with known coefficients, the pairing check on the final commitment key accepts a key that is not the fold of the SRS key only if the trapdoor is a root of a fixed non-zero polynomial of bounded degree or the evaluation point is one of the boundedly many agreement points; hence the accepted TIPA proof is an accepted GIPA proof for the expanded keys apart from a counted set of trapdoors and points.", "quantifier": "all coefficient vectors, all challenge lists, all evaluation points and trapdoors", "why_tests_cant": "Quantifies over adversarial algebraic provers and counts trapdoors and evaluation points.", "anchors": ["ip_proofs/src/tipa/mod.rs:verify_commitment_key_g2_kzg_opening", "ip_proofs/src/tipa/mod.rs:verify_commitment_key_g1_kzg_opening", "ip_proofs/src/tipa/mod.rs:verify_with_srs_shift"]}
{"id": "C71", "title": "Extraction from the structured-scalar-message argument", "statement": "From a tree of accepting runs of the structured-scalar argument with three distinct non-zero challenges per node an opening a of the left commitment with the claimed inner product of a with the powers of the scalar is computed, with no collision case. For any prover strategy and any set S of non-zero challenges, more than 2k|S|^(k-1) accepted sequences of |S|^k give such an opening; without one at most that many are accepted.", "quantifier": "all prover strategies, all k, all finite sets of non-zero challenges", "why_tests_cant": "Quantifies over all adversarial strategies and counts challenge sequences.", "anchors": ["ip_proofs/src/tipa/structured_scalar_message.rs:verify_with_structured_scalar_message", "ip_proofs/src/gipa.rs:verify_recursive_challenge_transcript"]}
{"id": "C72", "title": "Fiat-Shamir SIPP is sound in the random oracle model", "statement": "With the digest replaced by a uniformly random function from a finite set of inputs to a finite set of digests, an adversary that makes Q adaptive queries and outputs a statement and a proof of at most K rounds makes verify accept a false value for at most a fraction ((Q+K+1)·3m + (Q+K+1)²)/|digests| of all functions, where m is the largest number of digests that give the same challenge.", "quantifier": "all adaptive adversaries, all Q and K, all statements chosen by the adversary", "why_tests_cant": "Quantifies over adversaries and over all hash functions; requires that both kinds of hash inputs are separated and bind statement, history and pairs.", "anchors": ["sipp/src/lib.rs:verify", "sipp/src/rng.rs:from_seed", "sipp/src/rng.rs:absorb"]}
{"id": "C73", "title": "Provers on vectors of different lengths", "statement": "prove_with_aux panics if the left message is not of power-of-two length or another vector is shorter than half of it, returns an error or panics for the three instances whenever the four vectors do not have the same length and the left message has more than one entry, and for one entry uses the first entries of the others and panics if one is empty. The SIPP prover panics with fewer coefficients than half the length; with one coefficient missing it can return a proof on which the verifier panics.", "quantifier": "all vectors, keys and lengths", "why_tests_cant": "Tests call the provers with vectors of equal length only.", "anchors": ["ip_proofs/src/gipa.rs:prove_with_aux", "ip_proofs/src/gipa.rs:_prove", "sipp/src/lib.rs:prove"]}
{"id": "C74", "title": "Groth16 aggregation over the reference string of setup_inner_product", "statement": "setup_inner_product succeeds for every size at least 1, drawing exactly two scalars, and panics for size 0. Over its reference string for 2^(k+1) proofs, 2^(k+1) valid Groth16 proofs aggregate into a proof that verify_aggregate_proof accepts, unless a nonce search is exhausted, if the batch challenge is neither 0 nor 1. A batch of a different size is refused with the length error of the first commitment.", "quantifier": "all sizes, generator states, verifying keys and valid batches", "why_tests_cant": "Tests aggregate one batch of one size over one sampled reference string.", "anchors": ["ip_proofs/src/applications/groth16_aggregation.rs:setup_inner_product", "ip_proofs/src/applications/groth16_aggregation.rs:aggregate_proofs", "ip_proofs/src/applications/groth16_aggregation.rs:verify_aggregate_proof"]}
{"id": "C75", "title": "Knowledge soundness of Groth16 proof aggregation", "statement": "From accepted runs of one prover with the same three commitments for as many different batch challenges as there are proofs, an extractor returns valid Groth16 proofs whose commitments these are, or two messages with the same commitment. A prover accepted for more than (2^k - 1 + 3k)|S|^(2k) of the |S|^(2k+1) challenge choices has such runs. An aggregate accepted by verify_aggregate_proof from an algebraic prover is such a run.", "quantifier": "all verifying keys, public inputs, keys, sizes, finite challenge sets and prover strategies", "why_tests_cant": "Soundness speaks about all dishonest provers; a test can only try a few.", "anchors": ["ip_proofs/src/applications/groth16_aggregation.rs:verify_aggregate_proof", "ip_proofs/src/tipa/mod.rs:verify_with_srs_shift", "ip_proofs/src/tipa/structured_scalar_message.rs:verify_with_structured_scalar_message"]}
{"id": "C76", "title": "Exactly which degrees get too small a capacity", "statement": "For every degree d with 1 <= d and d + 1 < 2^64, bivariate_degrees succeeds in both schemes, both sizes are powers of two, and their product is a power of four no smaller power of which suffices. The product is at least d + 1 unless 4^i < d + 1 < 4^i + 1.5 * 4^(i-26) for some 26 <= i <= 31, where the rounded square root is too small. For such degrees two different polynomials of degree at most d have the same commitment in both schemes; for all others both univariate schemes are complete. The greatest usize overflows.", "quantifier": "all 64-bit degrees, all polynomials within the bound", "why_tests_cant": "The exceptional degrees start at 2^52; no test can run there.", "anchors": ["ip_proofs/src/applications/poly_commit/mod.rs:bivariate_degrees", "ip_proofs/src/applications/poly_commit/transparent.rs:bivariate_degrees"]}
{"id": "C77", "title": "Polynomials too large for the reference string", "statement": "The bivariate commit of both schemes panics if there are more rows than keys or a row has more coefficients than the key, and succeeds otherwise. open panics if there are too many rows, but ignores coefficients of a row beyond the key.", "quantifier": "all polynomials, keys, sizes and points", "why_tests_cant": "Tests use polynomials that fit.", "anchors": ["ip_proofs/src/applications/poly_commit/mod.rs:commit", "ip_proofs/src/applications/poly_commit/mod.rs:open", "ip_proofs/src/applications/poly_commit/transparent.rs:commit", "ip_proofs/src/applications/poly_commit/transparent.rs:open"]}
{"id": "C78", "title": "What the polynomial commitment verifiers check", "statement": "The transparent bivariate verifier accepts exactly if the inner argument for the row commitments accepts (com, the claimed combined-row commitment, x) and the inner argument for the combined row accepts (that commitment, the claimed value, y); both as explicit equations over the derived challenges. The verifier with a reference string accepts exactly if its inner argument accepts and U - v g = (alpha - y) pi. The univariate transparent verifier is the bivariate one at (z^m, z) for m coefficient keys.", "quantifier": "all keys, commitments, points, values, proofs, challenges", "why_tests_cant": "A verifier that drops one of the two checks accepts all honest proofs; tests with one wrong value see only one of the parts fail.", "anchors": ["ip_proofs/src/applications/poly_commit/mod.rs:verify", "ip_proofs/src/applications/poly_commit/transparent.rs:verify"]}
{"id": "C79", "title": "Evaluation binding of the interactive schemes", "statement": "With challenges chosen independently of the statement (three distinct non-zero ones per round), two accepted openings of one commitment at one point with different values give an explicit collision of the row key or of the coefficient key (transparent scheme), or a collision of the row key or (alpha - y)^-1 g (scheme with a reference string). The same holds for one accepted opening of the commitment to a known polynomial with a wrong value. A prover of the transparent scheme that claims a wrong value is accepted for at most max(2k/|S|, 2l/|S|) of the challenges from S, unless such a collision is extracted from its runs.", "quantifier": "all keys, polynomials, points, values, prover strategies, challenge sets", "why_tests_cant": "A statement about all provers and about the number of challenges for which a cheating prover succeeds.", "anchors": ["ip_proofs/src/applications/poly_commit/mod.rs:verify", "ip_proofs/src/applications/poly_commit/transparent.rs:verify", "ip_proofs/src/gipa.rs:verify"]}
{"id": "C80", "title": "Knowledge soundness of the transparent polynomial commitment", "statement": "From accepted interactive openings of one commitment at as many distinct x as there are row keys, the extractor computes a polynomial of full size whose commitment is the given one, or a collision of the row key. Every further accepted opening has that polynomial's value or gives a collision. In the univariate scheme the rows read one after the other are a polynomial with the same commitment and p(z) equal to the bivariate value at (z^m, z).", "quantifier": "all keys, commitments, openings, sizes", "why_tests_cant": "Quantifies over all accepted openings of arbitrary provers.", "anchors": ["ip_proofs/src/applications/poly_commit/transparent.rs:verify", "ip_proofs/src/applications/poly_commit/transparent.rs:commit", "ip_proofs/src/applications/poly_commit/transparent.rs:bivariate_form"]}
{"id": "C81", "title": "KZG against algebraic provers", "statement": "If commitment and proof are combinations of the powers alpha^i g with coefficients p and w chosen before alpha, and the claimed value differs from p(z), then KZG verify accepts for at most max(len p - 1, len w) trapdoors alpha.", "quantifier": "all coefficient lists, points, values, trapdoor sets, lawful pairings", "why_tests_cant": "A bound on the number of trapdoors for which some forgery works.", "anchors": ["ip_proofs/src/applications/poly_commit/mod.rs:verify"]}
{"id": "C82", "title": "The univariate degree bound is not enforced", "statement": "The degree bound given to the univariate schemes only matters up to the next power of four: bounds below the same powers of four give the same setup and verify functions. So for 4^i < d+1 <= 4^(i+1) <= 2^52 every polynomial with at most 4^(i+1) coefficients, also one of degree greater than d, is committed to, opened and accepted under the bound d.", "quantifier": "all bounds d, levels i, polynomials, points, seeds, lawful pairings", "why_tests_cant": "Tests commit to polynomials within the bound; the statement covers every bound and every polynomial above it.", "anchors": ["ip_proofs/src/applications/poly_commit/mod.rs:bivariate_degrees", "ip_proofs/src/applications/poly_commit/mod.rs:setup", "ip_proofs/src/applications/poly_commit/mod.rs:verify", "ip_proofs/src/applications/poly_commit/transparent.rs:bivariate_degrees", "ip_proofs/src/applications/poly_commit/transparent.rs:setup"]}
{"id": "C83", "title": "Algebraic knowledge soundness of the polynomial commitment with a reference string", "statement": "From accepted openings (a tree of challenges) by a prover whose G1 elements are combinations of alpha^i g and beta g, the extractor reads off rows of coefficients that open the commitment, and the claimed value is the value of the extracted polynomial, unless the trapdoors are a zero of one of two explicit polynomials in (alpha, beta). Whenever such a polynomial is not zero it has at most (d+1)|S| zeros in S x S. If the rows use powers of alpha up to the degree of the reference string only, committing to the extracted polynomial gives exactly the commitment.", "quantifier": "all commitments, points, values, algebraic provers, trapdoors, trapdoor sets, lawful pairings", "why_tests_cant": "It quantifies over all algebraic provers and counts trapdoors.", "anchors": ["ip_proofs/src/applications/poly_commit/mod.rs:verify", "ip_proofs/src/applications/poly_commit/mod.rs:commit", "ip_proofs/src/tipa/structured_scalar_message.rs:verify_with_structured_scalar_message"]}
{"id": "C84", "title": "GIPA is sound in the random oracle model for statements fixed in advance", "statement": "Fix keys of length 2^k, commitments, and an opening of them whose inner product is not the committed one. With the digest replaced by a uniformly random function, a prover that makes Q adaptive queries and knows openings of the step commitments it hashes makes verify return Ok(true), without also producing two messages with the same commitment under the left or the right key, for at most a fraction N(N+5)m/|digests| of all functions, where N = Q+k and m is the largest number of digests that give the same challenge. For perfectly binding keys the second condition is not needed.", "quantifier": "all keys, commitments, false statements, adaptive algebraic provers, all Q and k", "why_tests_cant": "Quantifies over provers and over all hash functions. It complements C22, where the statement is chosen after the challenges: the hash inputs do not contain the statement.", "anchors": ["ip_proofs/src/gipa.rs:GIPA::verify", "ip_proofs/src/gipa.rs:GIPA::_compute_recursive_challenges"]}
{"id": "C85", "title": "Proof serialization: round trip, unique encoding, exact size", "statement": "For GIPAProof, TIPAProof, TIPAWithSSMProof and IdentityOutput the derived deserializer returns exactly what was serialized and leaves the following bytes unread, and every byte string it accepts is the serialization of the value it returns (no second encoding). If the components have fixed sizes, a GIPA proof with k rounds takes 8 + 2k(|LMC|+|RMC|+|IPC|) + |a| + |b| bytes; a proof for the product of 2^k pairings takes 8 + k(6|GT|+16) + 3(|G1|+|G2|) bytes.", "quantifier": "all proofs with fewer than 2^64 rounds, all trailing bytes, all byte strings, all faithful codecs of the components", "why_tests_cant": "Uniqueness of the encoding is a statement about all byte strings.", "anchors": ["ip_proofs/src/gipa.rs:GIPAProof", "ip_proofs/src/tipa/mod.rs:TIPAProof", "ip_proofs/src/tipa/structured_scalar_message.rs:TIPAWithSSMProof", "dh_commitments/src/identity/mod.rs:IdentityOutput"]}
{"id": "C86", "title": "The TIPA verifier does not bind the length of the vectors", "statement": "Reference strings of different sizes with the same trapdoors have the same verifier key. Commitments to vectors of length 2^(k+1) are at the same time commitments to the vectors padded with zeros to 2^(k+1+j), and for the same verifier key, commitments and value there are accepted proofs with k+1 and with k+1+j rounds.", "quantifier": "all k, j, vectors, trapdoors, lawful instances whose challenge searches end", "why_tests_cant": "It relates runs with two different reference strings.", "anchors": ["ip_proofs/src/tipa/mod.rs:verify_with_srs_shift", "ip_proofs/src/tipa/mod.rs:get_verifier_key"]}
{"id": "C87", "title": "GIPA with structured messages is sound in the random oracle model for statements fixed in advance", "statement": "Fix a key of length 2^k, a scalar b, commitments, and an opening of the left commitment whose inner product with 1, b, b^2, … is not the committed one. With the digest replaced by a uniformly random function, a prover that makes Q adaptive queries and knows openings of the left step commitments it hashes makes verify_with_structured_scalar_message return Ok(true), without also producing two messages with the same commitment, for at most a fraction N(N+4)m/|digests| of all functions, where N = Q+k and m is the largest number of digests that give the same challenge.", "quantifier": "all keys, scalars, commitments, false statements, adaptive algebraic provers, thread schedules, all Q and k", "why_tests_cant": "Quantifies over provers and over all hash functions. The scalar b and the statement are not hashed, so that soundness depends on their being fixed beforehand.", "anchors": ["ip_proofs/src/tipa/structured_scalar_message.rs:GIPAWithSSM::verify_with_structured_scalar_message", "ip_proofs/src/gipa.rs:GIPA::_compute_recursive_challenges"]}
{"id": "C88", "title": "Batch verifier: verdict and completeness", "statement": "batch_verify_proof with coefficients r_i returns Ok(true) exactly when the sum of r_i times the defect of proof i (left minus right side of the Groth16 equation) is zero, and Ok(false) otherwise. A batch of valid proofs is accepted whatever the generator returns.", "quantifier": "all verifying keys, batches, coefficient lists, generators", "why_tests_cant": "The benchmark only runs it on valid proofs with one fixed generator.", "anchors": ["benches/benches/groth16_aggregation/bench.rs:batch_verify_proof"]}
{"id": "C89", "title": "Batch verifier accepts invalid proofs (violated)", "statement": "Expected: a batch that contains an invalid proof is rejected except with negligible probability. The coefficients come from StdRng::seed_from_u64(0) in every call, so they are public constants: for every generator, two valid proofs can be changed in their C components so that at least one is invalid and the batch is still accepted.", "quantifier": "all generators and seeds, all keys, all pairs of valid proofs", "why_tests_cant": "A test would have to contain proofs made for the fixed coefficients.", "anchors": ["benches/benches/groth16_aggregation/bench.rs:batch_verify_proof"]}
{"id": "C90", "title": "Batch verifier with random coefficients is sound", "statement": "If some proof of a batch is invalid for its row of inputs, at most |S|^(n-1) of the |S|^n coefficient vectors with entries in S make the batch equation hold.", "quantifier": "all keys, batches with an invalid proof, finite coefficient sets S", "why_tests_cant": "A statement about all coefficient vectors.", "anchors": ["benches/benches/groth16_aggregation/bench.rs:batch_verify_proof"]}
{"id": "C91", "title": "Batch verifier on lists of different lengths", "statement": "Rows of inputs beyond the number of proofs are ignored. A proof without a row is checked without an input term, so that (alpha, beta, 0) is accepted at the end of any batch that is accepted without it. Surplus entries of a row are ignored, missing ones count as zero. An empty batch is accepted. A key without input elements makes a non-empty batch panic.", "quantifier": "all keys, rows, proofs, generators", "why_tests_cant": "The lists have equal lengths in the benchmark.", "anchors": ["benches/benches/groth16_aggregation/bench.rs:batch_verify_proof"]}
{"id": "C92", "title": "TIPA is sound in the random oracle model for fixed statements and algebraic provers", "statement": "Fix a reference string for vectors of length n = 2^k, a shift r, commitments under its keys, and an opening of them whose inner product is not the committed one. With the digest replaced by a uniformly random function, consider a prover that makes Q adaptive queries, knows openings of the step commitments it hashes, and knows the final keys it hashes and the key openings it outputs as combinations of the reference string. TIPA's verify_with_srs_shift returns Ok(true), with the KZG challenge found within N attempts, without the prover having two messages with the same commitment or a non-zero polynomial that vanishes at the trapdoors, for at most a fraction (M(M+5)m + N((M+1)(4n-4)m' + (M+1)(M+2)m))/|digests| of all functions, where M = Q+k, m is the largest number of digests with the same round challenge and m' with the same KZG challenge.", "quantifier": "all reference strings, shifts, commitments, false statements, adaptive algebraic provers, all Q, N and k", "why_tests_cant": "Quantifies over provers and over all hash functions. The final keys come from the prover and are only checked at one point that is hashed from them; no test can try all ways to choose the keys after seeing the point.", "anchors": ["ip_proofs/src/tipa/mod.rs:TIPA::verify_with_srs_shift", "ip_proofs/src/tipa/mod.rs:verify_commitment_key_g2_kzg_opening", "ip_proofs/src/gipa.rs:GIPA::_compute_recursive_challenges"]}
{"id": "C93", "title": "TIPA with structured scalar message is sound in the random oracle model for fixed statements and algebraic provers", "statement": "Fix a reference string for vectors of length n = 2^k, a scalar b, commitments, and an opening of the left one whose inner product with the powers of b is not the committed one. With the digest replaced by a uniformly random function, consider a prover that makes Q adaptive queries, knows openings of the step commitments it hashes, and knows the final keys it hashes and the key opening it outputs as combinations of the reference string. TIPAWithSSM's verify_with_structured_scalar_message returns Ok(true), with the KZG challenge found within N attempts, without the prover having two messages with the same commitment or a non-zero polynomial that vanishes at the trapdoors, for at most a fraction (M(M+4)m + N((M+1)(2n-2)m' + (M+1)(M+2)m))/|digests| of all functions, where M = Q+k, m is the largest number of digests with the same round challenge and m' with the same KZG challenge.", "quantifier": "all reference strings, scalars, commitments, false statements, adaptive algebraic provers, all Q, N and k", "why_tests_cant": "Quantifies over provers and over all hash functions. The final key comes from the prover and is only checked at one point that is hashed from it; no test can try all ways to choose the key after seeing the point.", "anchors": ["ip_proofs/src/tipa/structured_scalar_message.rs:TIPAWithSSM::verify_with_structured_scalar_message", "ip_proofs/src/tipa/mod.rs:verify_commitment_key_g2_kzg_opening", "ip_proofs/src/gipa.rs:GIPA::_compute_recursive_challenges"]}
{"id": "C94", "title": "Command lines of the benches and the SIPP example (violated)", "statement": "Expected: every argument of the usage text has the effect it names, and a wrong number of arguments gives the usage text. The number of trials, number of proofs, recursion and all-proofs arguments of the aggregation bench are read as documented, with or without cargo's trailing --bench, and missing flags count as true. The last argument is never read: on every command line the monolithic circuit is benchmarked exactly if all proofs are generated. Without arguments and with -h or --help both benches print the usage text. With one argument they panic on an index out of bounds. The SIPP example panics whenever it has printed its usage text.", "quantifier": "all argument lists, all number parsers", "why_tests_cant": "No test runs the argument handling.", "anchors": ["benches/benches/groth16_aggregation/bench.rs:main", "benches/benches/poly_commit.rs:main", "sipp/examples/scaling-ipp.rs:main"]}
{"id": "C95", "title": "The SIPP example runs through", "statement": "On 2^i pairs with i >= 1, and a coefficient vector at least as long, product, proof and verification of one iteration succeed and the assertion holds, unless a challenge is zero. If the generator never draws zero, the whole program runs through for all sizes 2 .. 2^max, for any length-preserving shuffles. With 0 as the smallest logarithm it panics in the verifier. The number of iterations is 20 for 1..5, 10 for 7..10, 5 for 11..13 and 1 otherwise, so it drops to 1 at 2^6 and is 10 at 2^7; from there on it falls with the size.", "quantifier": "all sizes, vectors, coefficients, shuffles", "why_tests_cant": "The program is an example that no test runs; it takes the shuffles from a random generator.", "anchors": ["sipp/examples/scaling-ipp.rs:main", "sipp/src/lib.rs:prove", "sipp/src/lib.rs:verify"]}
{"id": "C96", "title": "Public inputs of the bench circuits", "statement": "For any hash lengths, the scalars that the recursion circuit extracts from the public input of AggregateBlake2SCircuitVerificationCircuitInput are the public inputs of the inner proofs for these hashes, independently of the hashes the circuit was set up with. Each 32-byte hash gives two elements below 2^248 for an inner proof and two below 2^376 for the recursion, and different lists of hashes have different public inputs. The circuit is satisfied exactly if each inner proof verifies for its hash; another number of proofs panics. ManyBlake2SCircuit is satisfied exactly if each output is the hash of its input. TestCircuit of the example has exactly one witness for every public input.", "quantifier": "all hashes, proofs, inner verifiers", "why_tests_cant": "Byte packing between two fields is right for all values only by a proof; the bench runs on random hashes.", "anchors": ["benches/benches/groth16_aggregation/bench.rs:AggregateBlake2SCircuitVerificationCircuit", "benches/benches/groth16_aggregation/bench.rs:AggregateBlake2SCircuitVerificationCircuitInput", "benches/benches/groth16_aggregation/bench.rs:ManyBlake2SCircuit", "benches/examples/groth16_aggregation.rs:TestCircuit"]}
{"id": "C97", "title": "The polynomial commitment bench", "statement": "The degrees 4^(i+1) - 1 are computed without overflow exactly for i <= 30. For them both schemes split into sizes whose product is exactly the number of coefficients. With every set-up, polynomial within the degree and point, the assertions of the KZG, structured and transparent trials hold, unless a challenge search ends without result.", "quantifier": "all data points, set-ups, polynomials, points", "why_tests_cant": "Degrees up to 4^31 cannot be run.", "anchors": ["benches/benches/poly_commit.rs:main", "ip_proofs/src/applications/poly_commit/mod.rs:bivariate_degrees", "ip_proofs/src/applications/poly_commit/transparent.rs:bivariate_degrees"]}
{"id": "C98", "title": "The aggregation bench", "statement": "For 2^(k+1) valid proofs, with all proofs generated or with one copied, the assertions of the batch verification and of every aggregation trial hold, unless a challenge search ends without result. With no proof, one proof, or a number that is not a power of two, and at least one trial, the bench panics or a search ends without result.", "quantifier": "all numbers of proofs and trials, keys, inputs, set-ups", "why_tests_cant": "The bench is run by hand with a few sizes.", "anchors": ["benches/benches/groth16_aggregation/bench.rs:main", "ip_proofs/src/applications/groth16_aggregation.rs:aggregate_proofs"]}
{"id": "C99", "title": "SIPP completeness in the random oracle model", "statement": "For every true statement with 2^k pairs (k >= 1), for all but a share (k+1)*m/|D| of the functions H from inputs to digests, the honest SIPP prover ends without a panic and verify accepts its proof; m is the number of digests that draw a challenge equal to zero in the field.", "quantifier": "all statements, sizes, encodings; counted over all oracles", "why_tests_cant": "The prover's unwrap of the inverse of a challenge panics only for oracles that tests never meet; the share of these is a statement about all of them.", "anchors": ["sipp/src/lib.rs:SIPP::prove", "sipp/src/lib.rs:SIPP::verify", "sipp/src/rng.rs:FiatShamirRng"]}
{"id": "C100", "title": "Empty keys of the univariate commitments panic", "statement": "With overflow checks, UnivariatePolynomialCommitment::commit and open (structured and transparent) panic whenever one half of the key is empty, for every polynomial, point and list of row commitments; so does the transparent verifier, for every proof.", "quantifier": "all keys with an empty half, polynomials, points, proofs", "why_tests_cant": "Tests only use keys made by setup.", "anchors": ["ip_proofs/src/applications/poly_commit/mod.rs:parse_bivariate_degrees_from_srs", "ip_proofs/src/applications/poly_commit/transparent.rs:parse_bivariate_degrees_from_ck"]}
{"id": "C101", "title": "Completeness of GIPA, TIPA, the polynomial commitments and the aggregation in the random oracle model", "statement": "Let the hash function answer the queries 'nonce below N, then a string of the finite set Ps' with a function H chosen at random (N <= 2^64; Ps contains what the code hashes after the nonce). The share of the H for which some honest statement fails (a proof is not returned or not accepted) is at most |Ps| z^N for GIPA and the transparent commitment, |Ps| z^N + |Ps| u^N for TIPA, TIPA with structured messages and the structured commitment, where z is the share of the digests whose first 16 bytes are zero in the field and u the share of those from which from_random_bytes makes no element. For the aggregation of 2^(k+1) valid proofs it is at most |Ps| z^N + |Ps| u^N + b/(1-u), where b is the share of the digests decoding to 0 or 1.", "quantifier": "all statements, sizes, encodings, instantiations; counted over all oracles", "why_tests_cant": "The nonce loops practically always end at the first nonce in a test; the share of oracles for which they fail cannot be sampled.", "anchors": ["ip_proofs/src/gipa.rs:GIPA::_prove", "ip_proofs/src/tipa/mod.rs:TIPA::prove_with_srs_shift", "ip_proofs/src/tipa/structured_scalar_message.rs:TIPAWithSSM::prove_with_structured_scalar_message", "ip_proofs/src/applications/groth16_aggregation.rs:aggregate_proofs", "ip_proofs/src/applications/poly_commit/mod.rs:UnivariatePolynomialCommitment::open", "ip_proofs/src/applications/poly_commit/transparent.rs:UnivariatePolynomialCommitment::open"]}
{"id": "C102", "title": "Value of a univariate commitment for every key", "statement": "Whenever both halves of the key are non-empty, whether or not they come from setup, committing to a polynomial of any length succeeds. The i-th row commitment is sum_j p_(i m + j) key_j over the m column keys (coefficients beyond the length of p are zero, those beyond n m are dropped), for i below the number n of row keys, and the commitment is sum_i e(row_i, rowkey_i). In the structured scheme the row keys are the powers of beta at even positions, n = ceil(l / 2) for l powers, also for even l.", "quantifier": "all keys with non-empty halves, all polynomials", "why_tests_cant": "Tests only use keys made by setup, whose number of powers is odd, and never look at the value of a commitment.", "anchors": ["ip_proofs/src/applications/poly_commit/mod.rs:UnivariatePolynomialCommitment::commit", "ip_proofs/src/applications/poly_commit/mod.rs:parse_bivariate_degrees_from_srs", "ip_proofs/src/applications/poly_commit/mod.rs:bivariate_form", "ip_proofs/src/applications/poly_commit/transparent.rs:UnivariatePolynomialCommitment::commit"]}
{"id": "C103", "title": "Soundness of the transparent polynomial commitments for fixed statements in the random oracle model", "statement": "Fix keys of lengths 2^k (rows) and 2^k' (columns), a commitment to rows of coefficients, a point and a value other than that of the polynomial there (univariate: commit(p) = com and value != p(z)). Let the digest be a random function between finite sets. For a prover making Q adaptive queries that knows openings of the commitments it hashes and outputs, the share of the oracles for which the transparent verifier accepts without two different rows or vectors of rows with equal commitments having been found is at most 6 N (N+1) m / |Ds|, N = Q + k + k', where m is the largest number of digests with the same challenge. The prover may choose the unhashed commitment to the combined row last and may mix the queries of both arguments.", "quantifier": "all keys of power-of-two lengths, polynomials, points, false values, adaptive provers, encodings; counted over all oracles", "why_tests_cant": "No test runs an adversarial prover, and a share of all oracles cannot be sampled.", "anchors": ["ip_proofs/src/applications/poly_commit/transparent.rs:BivariatePolynomialCommitment::verify", "ip_proofs/src/applications/poly_commit/transparent.rs:UnivariatePolynomialCommitment::verify", "ip_proofs/src/gipa.rs:GIPA::_compute_recursive_challenges"]}
{"id": "C104", "title": "Set-ups use fresh randomness", "statement": "Every set-up of the crates takes its random values from successive draws of the generator, with no draw used twice and no constant in place of a draw: the commitment keys of Pedersen and AFGHO are the first n draws in order, GIPA's left and right keys are disjoint consecutive blocks of draws, the trapdoors α, β of TIPA, of KZG and of the bivariate polynomial commitment are the first two scalar draws in this order, and the two keys of the transparent bivariate commitment are disjoint consecutive blocks. The state returned is the one after these draws.", "quantifier": "for all generators, generator states, and sizes; the corollary on a tape holds for every tape of group elements", "why_tests_cant": "The tests use one seed and would pass with a constant trapdoor, with α = β, or with a generator state that is used twice.", "anchors": ["dh_commitments/src/lib.rs:59-61", "dh_commitments/src/pedersen/mod.rs:20-22", "dh_commitments/src/afgho16/mod.rs:26-43", "ip_proofs/src/gipa.rs:97-106", "ip_proofs/src/tipa/mod.rs:150-164", "ip_proofs/src/applications/poly_commit/mod.rs:56-73", "ip_proofs/src/applications/poly_commit/mod.rs:153-175", "ip_proofs/src/applications/poly_commit/transparent.rs:91-101"]}
{"id": "C105", "title": "The unit tests pass for every seed and size", "statement": "The unit tests of the crates, run with any generator state in place of seed 0 and any admissible size in place of 8 (degree in place of 7 or 65535), pass: the three GIPA tests, the three TIPA tests, the two structured scalar message tests, the four polynomial commitment tests. The only exceptions are exactly characterised: the commitment tests fail iff the two random messages have equal commitments, the test with a shifted reference string panics iff the random shift is zero, the SIPP test can only panic at the inverse of a zero challenge, and a challenge search can fail to end.", "quantifier": "for all seeds (generator states), all powers of two (all degrees up to 2^52 - 1 for the univariate schemes), all lawful pairings, digests of at least 16 bytes", "why_tests_cant": "Each test runs one seed and one size; that they do not depend on the seed, and the seeds for which they fail, cannot be seen from one run.", "anchors": ["dh_commitments/src/pedersen/mod.rs:40-54", "dh_commitments/src/afgho16/mod.rs:62-93", "ip_proofs/src/gipa.rs:471-561", "ip_proofs/src/tipa/mod.rs:451-579", "ip_proofs/src/tipa/structured_scalar_message.rs:361-423", "ip_proofs/src/applications/poly_commit/mod.rs:395-471", "ip_proofs/src/applications/poly_commit/transparent.rs:324-392", "sipp/src/lib.rs:232-254"]}
{"id": "C106", "title": "The benches run through, and do not look at the verdict", "statement": "The three bench programs for inner products, GIPA and TIPA run through for every seed and size, up to a challenge search that does not end and, for the bench with a shifted reference string, exactly if the random shift is zero, a panic. Expected but violated: a bench that runs the verifier reports when the verifier rejects. The benches call `verify(..).unwrap()` and discard the boolean, so an argument whose verifier rejects the honest proof runs through, while the unit test with the same argument stops at its assertion.", "quantifier": "for all seeds, all powers of two, all lawful pairings, digests of at least 16 bytes; the violation by a concrete instance", "why_tests_cant": "A bench is one run that is never compared with an expected answer; the missing check shows only for an argument with a wrong verifier.", "anchors": ["benches/benches/inner_products.rs:10-44", "benches/benches/gipa.rs:19-95", "benches/benches/tipa.rs:25-249"]}
{"id": "C107", "title": "Soundness of the polynomial commitments with a reference string for fixed statements in the random oracle model", "statement": "Fix a reference string for n = 2^k rows with l coefficients each, a commitment to rows, a point (x, y) and a value other than that of the committed polynomial there (univariate: commit(p) = com and value != p(z)). Let the digest be a random function between finite sets. For a prover making Q adaptive queries that knows openings of the commitments it hashes, and that knows the final keys it hashes, the key opening, the combined row and the KZG quotient as combinations of the reference string, the share of the oracles for which verify returns Ok(true), with the KZG challenge found within N attempts, without two different rows or vectors of rows with equal commitments and without a non-zero polynomial that vanishes at the trapdoors, is at most (M(M+4)m + N((M+1)(2n-2)m' + (M+1)(M+2)m))/|Ds|, where M = Q+k, m is the largest number of digests with the same round challenge and m' with the same KZG challenge. The prover may choose the unhashed combined row and its quotient last.", "quantifier": "all reference strings, polynomials, points, false values, adaptive algebraic provers, encodings, all Q, N and k; counted over all oracles", "why_tests_cant": "No test runs an adversarial prover, and a share of all oracles cannot be sampled. The combined row, the final key and the KZG quotient are all chosen by the prover after seeing every challenge.", "anchors": ["ip_proofs/src/applications/poly_commit/mod.rs:BivariatePolynomialCommitment::verify", "ip_proofs/src/applications/poly_commit/mod.rs:UnivariatePolynomialCommitment::verify", "ip_proofs/src/applications/poly_commit/mod.rs:KZG::verify", "ip_proofs/src/tipa/structured_scalar_message.rs:TIPAWithSSM::verify_with_structured_scalar_message"]}
{"id": "C108", "title": "Soundness of the aggregation of Groth16 proofs for fixed commitments and inputs in the random oracle model", "statement": "Fix a reference string for n = 2^k proofs, a verifying key, n rows of inputs, and commitments com_a, com_b, com_c to proofs that are not all valid for the rows. Let the digest be a random function between finite sets. A prover is given the answers to the first N hash inputs for r and then makes Q adaptive queries; it knows openings of the commitments it hashes, and the final keys it hashes and their openings as combinations of the reference string. Then the share of the oracles for which verify_aggregate_proof returns Ok(true), with each of its three searches over in N attempts, without two different vectors with equal commitments and without a non-zero polynomial that vanishes at the trapdoors, is at most (N(n-1)m' + 8(Q+2k)(Q+2k+1)m + N(M+1)(3(2n-2)m' + 2(M+2)m))/|Ds|, where M = Q+k, m is the largest number of digests with the same round challenge and m' with the same r or KZG challenge. The prover may choose ip_ab and agg_c, which are never hashed, last. The commitments to inner products in the rounds may have any bounded number of entries.", "quantifier": "all reference strings, keys, inputs, invalid proofs, adaptive algebraic provers, encodings, all Q, N and k; counted over all oracles", "why_tests_cant": "No test runs an adversarial prover, and a share of all oracles cannot be sampled. The tests aggregate valid proofs only. The two aggregated values are outside every hash, and only the pairing product equation ties the two arguments together.", "anchors": ["ip_proofs/src/applications/groth16_aggregation.rs:verify_aggregate_proof", "ip_proofs/src/tipa/mod.rs:TIPA::verify_with_srs_shift", "ip_proofs/src/tipa/structured_scalar_message.rs:TIPAWithSSM::verify_with_structured_scalar_message"]}
{"id": "C109", "title": "Knowledge soundness of GIPA in the random oracle model for fixed statements", "statement": "Fix keys of length 2^k and commitments. Let the digest be a random function between finite sets. Let a prover make Q adaptive queries and then output a proof; nothing is assumed about how it finds the commitments in it. If GIPA::verify accepts for more than N(N+5)m/|Ds| of all oracles, with N = Q+k and m the largest number of digests with the same challenge, then the proofs that this prover outputs for these oracles contain a tree of accepting runs with four challenges per round, and the extractor of C67 computes from this tree either an opening of the commitments with the committed inner product or two different vectors with equal commitments. Hence, with keys that commit to every vector uniquely, a statement without an opening is accepted for at most this share of all oracles.", "quantifier": "all keys, commitments, adaptive provers, encodings, all Q and k; counted over all oracles", "why_tests_cant": "No test runs an adversarial prover, and a share of all oracles cannot be sampled. The tests verify honest proofs only.", "anchors": ["ip_proofs/src/gipa.rs:GIPA::verify", "ip_proofs/src/gipa.rs:GIPA::verify_recursive_challenge_transcript"]}
{"id": "C110", "title": "Knowledge soundness of the structured-message argument in the random oracle model for fixed statements", "statement": "Fix a key of length 2^k, a commitment, a committed inner product and the public scalar b. Let the digest be a random function between finite sets. Let a prover make Q adaptive queries and then output a proof; nothing is assumed about how it finds the commitments in it. If GIPAWithSSM's verifier accepts for more than N(N+4)m/|Ds| of all oracles, with N = Q+k and m the largest number of digests with the same challenge, then the proofs that this prover outputs for these oracles contain a tree of accepting runs with three challenges per round, and the extractor of C71 computes from this tree an opening of the commitment whose inner product with 1, b, b^2, ... is the committed one. No assumption on the keys is needed. Hence a statement without an opening is accepted for at most this share of all oracles.", "quantifier": "all keys, commitments, scalars, adaptive provers, encodings, all Q and k; counted over all oracles", "why_tests_cant": "No test runs an adversarial prover, and a share of all oracles cannot be sampled. The tests verify honest proofs only.", "anchors": ["ip_proofs/src/tipa/structured_scalar_message.rs:GIPAWithSSM::verify_with_structured_scalar_message", "ip_proofs/src/gipa.rs:GIPA::verify_recursive_challenge_transcript"]}
{"id": "C111", "title": "Knowledge soundness of the transparent polynomial commitments in the random oracle model for fixed statements", "statement": "Fix keys of lengths 2^k' (coefficients) and 2^k (rows), a commitment, a point (x, y) and a value. Let the digest be a random function between finite sets. Let a prover make Q adaptive queries and then output an opening proof; nothing is assumed about how it finds the commitments in it, and the commitment to the combined row, which is not hashed, may be a different one for every oracle. If the transparent bivariate verifier accepts for more than 6N(N+1)m/|Ds| of all oracles, with N = Q+k+k' and m the largest number of digests with the same challenge, then the proofs that this prover outputs for these oracles contain a tree of pairs of runs, and an extractor computes from this tree rows R that open the commitment and coefficients r that open the rows combined at x, with r(y) = value. No assumption on the keys is needed. Hence two such provers with different values at one point give a collision of one of the keys; a prover that opens the commitment to a known polynomial to another value gives a collision with the honest messages (also for the univariate scheme); and provers at as many different x as there are rows determine a polynomial with this commitment, or a collision of the row keys. The commitments to inner products in the rounds may have any bounded number of entries.", "quantifier": "all keys, commitments, points, values, adaptive provers, encodings, all Q, k, k'; counted over all oracles", "why_tests_cant": "No test runs an adversarial prover, and a share of all oracles cannot be sampled. The tests verify honest proofs only.", "anchors": ["ip_proofs/src/applications/poly_commit/transparent.rs:BivariatePolynomialCommitment::verify", "ip_proofs/src/applications/poly_commit/transparent.rs:UnivariatePolynomialCommitment::verify", "ip_proofs/src/tipa/structured_scalar_message.rs:GIPAWithSSM::verify_with_structured_scalar_message"]}
{"id": "C112", "title": "Who knows the trapdoor of a reference string can prove everything", "statement": "Let alpha and beta be the values a set-up draws. KZG: for every commitment, every point other than alpha and every value there is an opening that verify accepts, computed from alpha; at alpha only the committed value is accepted. Polynomial commitments with a reference string: an accepted opening becomes an accepted opening to any other value. TIPA: every final commitment key has an accepted opening unless the challenge is the trapdoor; hence, for every fixed commitments, every claimed inner product and any number of rounds, a proof is accepted as soon as two single messages have this inner product and single keys commit to them. The soundness results C81, C83, C92, C93, C107, C108 for provers without the trapdoor therefore do not extend to those with it, even for statements fixed before the oracle.", "quantifier": "all commitments, points, values, statements, numbers of rounds, shifts, trapdoors and digests", "why_tests_cant": "The tests draw the trapdoor inside the set-up and never use it to forge.", "anchors": ["ip_proofs/src/applications/poly_commit/mod.rs:KZG::verify", "ip_proofs/src/applications/poly_commit/mod.rs:BivariatePolynomialCommitment::verify", "ip_proofs/src/tipa/mod.rs:TIPA::verify_with_srs_shift", "ip_proofs/src/tipa/mod.rs:verify_commitment_key_g2_kzg_opening", "ip_proofs/src/tipa/mod.rs:verify_commitment_key_g1_kzg_opening"]}
{"id": "C113", "title": "The verifiers do the claimed amount of work; GIPA's verifier does exponential work on short malicious proofs", "statement": "Counted are scalar products, inversions, powers, scalar multiplications, Miller loops, final exponentiations and digests. SIPP's verifier computes a single pairing, as its documentation says, and 2k + 2n scalar multiplications for n = 2^k pairs. TIPA's verifier computes 4 pairings besides the final check and a number of the other operations that is linear in the number of rounds; the structured-message variant 2, the verifier of the polynomial commitment 5 and that of the transparent one 2 in all. The verifier of aggregated Groth16 proofs computes 13 pairings whatever the number of proofs. These numbers are exact for accepted proofs and upper bounds for all inputs, also for runs that end with an error or a panic. GIPA's verifier (and the structured-message and transparent verifiers built on it) computes 2^(k+1) - 2 products for a proof with k rounds before it compares k with the length of the keys: for keys of length one and every k there is a proof with k + 1 rounds that costs it exponential work and then makes it panic.", "quantifier": "all keys, commitments, proofs (honest or not), numbers of rounds and digests", "why_tests_cant": "The tests neither count operations nor give a verifier a proof with a wrong number of rounds.", "anchors": ["sipp/src/lib.rs:SIPP::verify", "ip_proofs/src/gipa.rs:verify_recursive_challenge_transcript", "ip_proofs/src/gipa.rs:_compute_final_commitment_keys", "ip_proofs/src/tipa/mod.rs:verify_with_srs_shift", "ip_proofs/src/tipa/structured_scalar_message.rs:TIPAWithSSM::verify_with_structured_scalar_message", "ip_proofs/src/applications/groth16_aggregation.rs:verify_aggregate_proof", "ip_proofs/src/applications/poly_commit/mod.rs:BivariatePolynomialCommitment::verify"]}
{"id": "C114", "title": "Knowledge soundness of TIPA in the random oracle model for fixed statements", "statement": "Fix a reference string for vectors of length n = 2^k, a shift and commitments. Let the digest be a random function between finite sets. Let a prover make Q adaptive queries and then output a proof; it knows the final keys it hashes and their openings as combinations of the reference string, and nothing is assumed about how it finds the commitments. Let TIPA's verify_with_srs_shift accept for more than (M(M+5)m + N((M+1)(4n-4)m' + (M+1)(M+2)m))/|Ds| of all oracles, with an opening point found within N attempts and without the prover having a non-zero polynomial that vanishes at the trapdoors; M = Q+k, m is the largest number of digests with the same challenge and m' with the same opening point. Then the proofs for these oracles contain a tree of runs with four challenges per round, and the extractor of C67 computes from this tree either an opening of the commitments under the (shifted) keys of the reference string with the committed inner product, or two different vectors with equal commitments.", "quantifier": "all reference strings, shifts, commitments, adaptive provers that are algebraic in the final keys, encodings, all Q, N and k; counted over all oracles", "why_tests_cant": "No test runs an adversarial prover, and a share of all oracles cannot be sampled. The tests verify honest proofs only.", "anchors": ["ip_proofs/src/tipa/mod.rs:TIPA::verify_with_srs_shift", "ip_proofs/src/tipa/mod.rs:verify_commitment_key_g2_kzg_opening", "ip_proofs/src/gipa.rs:GIPA::_compute_recursive_challenges"]}
{"id": "C115", "title": "Knowledge soundness of TIPA with structured messages in the random oracle model for fixed statements", "statement": "Fix a reference string for vectors of length n = 2^k, a scalar b, a commitment and a value. Let the digest be a random function between finite sets. Let a prover make Q adaptive queries and then output a proof; it knows the final key it hashes and its opening as combinations of the reference string, and nothing is assumed about how it finds the commitments. Let TIPAWithSSM's verify_with_structured_scalar_message accept for more than (M(M+4)m + N((M+1)(2n-2)m' + (M+1)(M+2)m))/|Ds| of all oracles, with an opening point found within N attempts and without the prover having a non-zero polynomial that vanishes at the trapdoors; M = Q+k, m is the largest number of digests with the same challenge and m' with the same opening point. Then the proofs for these oracles contain a tree of runs with three challenges per round, and the extractor of C71 computes from it an opening of the commitment whose inner product with 1, b, b^2, ... is the committed one. Hence a statement without an opening is accepted for at most this share of all oracles; no assumption on collisions is needed.", "quantifier": "all reference strings, scalars, commitments, adaptive provers that are algebraic in the final key, encodings, all Q, N and k; counted over all oracles", "why_tests_cant": "No test runs an adversarial prover, and a share of all oracles cannot be sampled. The tests verify honest proofs only.", "anchors": ["ip_proofs/src/tipa/structured_scalar_message.rs:TIPAWithSSM::verify_with_structured_scalar_message", "ip_proofs/src/tipa/mod.rs:verify_commitment_key_g2_kzg_opening", "ip_proofs/src/gipa.rs:GIPA::_compute_recursive_challenges"]}
{"id": "C116", "title": "Knowledge soundness of the polynomial commitments with a reference string in the random oracle model", "statement": "Fix a reference string for n = 2^k rows of l coefficients, a commitment, a point and a value. Let the digest be a random function between finite sets. Let a prover make Q adaptive queries and then output an opening proof; it knows the final key it hashes, its opening, the last message, the combined row and the quotient as combinations of the reference string, and nothing is assumed about how it finds the commitments of the rounds. Let the bivariate verify accept for more than (M(M+4)m + N((M+1)(2n-2)m' + (M+1)(M+2)m))/|Ds| of all oracles, with an opening point found within N attempts and without the prover having a non-zero polynomial that vanishes at the trapdoors; M, m and m' are as in C115. Then the proofs for these oracles contain a tree of runs with three challenges per round, and an extractor computes from it rows that open the commitment and whose polynomial has the claimed value at the point, or two different combinations of the reference string with the same element of G1. Hence from two provers that open one commitment to different values, or from one that opens the commitment to a polynomial to another value (also in the univariate scheme), one gets a collision. The commitments to inner products in the rounds may have any bounded number of entries.", "quantifier": "all reference strings, commitments, points, values, adaptive provers that are algebraic in the final key and the output elements of G1, encodings, all Q, N, k and l; counted over all oracles", "why_tests_cant": "No test runs an adversarial prover, and a share of all oracles cannot be sampled. The tests verify honest proofs only.", "anchors": ["ip_proofs/src/applications/poly_commit/mod.rs:BivariatePolynomialCommitment::verify", "ip_proofs/src/applications/poly_commit/mod.rs:UnivariatePolynomialCommitment::verify", "ip_proofs/src/tipa/structured_scalar_message.rs:TIPAWithSSM::verify_with_structured_scalar_message"]}
{"id": "C117", "title": "Knowledge soundness of the aggregation of Groth16 proofs in the random oracle model", "statement": "Fix a reference string for n = 2^k proofs, a verifying key, inputs and three commitments. Let the digest be a random function: first the N digests that give the challenge of the aggregation, then a random function between finite sets for all other hash inputs. Let a prover that is given the first digests make Q adaptive queries and then output an aggregate proof; it knows the final keys it hashes and their openings as combinations of the reference string, and nothing is assumed about how it finds the commitments of the rounds. Let the aggregate verifier accept for more than (N(n-1)m' + E)/|Ds| of all oracles, E as in C108, with opening points found within N attempts and without the prover having a non-zero polynomial that vanishes at the trapdoors. Then the proofs for these oracles contain, for each of at least n different challenges, a tree of pairs of runs with four challenges per round, and an extractor computes from these trees n Groth16 proofs that are all valid for their inputs and have the given commitments, or two different messages with the same commitment under one of the keys. The commitments to inner products in the rounds may have any bounded number of entries.", "quantifier": "all reference strings, verifying keys, inputs, commitments, adaptive provers that are algebraic in the final keys and their openings, encodings, all Q, N and k; counted over all oracles", "why_tests_cant": "No test runs an adversarial prover, and a share of all oracles cannot be sampled. The test aggregates and verifies honest proofs only.", "anchors": ["ip_proofs/src/applications/groth16_aggregation.rs:verify_aggregate_proof", "ip_proofs/src/tipa/mod.rs:TIPA::verify_with_srs_shift", "ip_proofs/src/tipa/structured_scalar_message.rs:TIPAWithSSM::verify_with_structured_scalar_message"]}
{"id": "C118", "title": "The structured commitment keys are binding for algebraic adversaries", "statement": "The keys of TIPA are the even powers of one trapdoor in G1 and of the other in G2, next to a public reference string with the odd powers and one element for the other trapdoor. Let q and q' be two families of n messages in G1, given as combinations of the reference string. Their AFGHO commitments under the left key agree exactly if the trapdoors are a zero of relation q - relation q', an explicit polynomial in two variables that is zero only if q = q'. The same holds for messages in G2 under the right key. Fixed different coefficients collide for at most (4n-3)|S| of the |S|^2 pairs of trapdoors from any set S. Two different vectors of scalars have the same Pedersen commitment under the right key for at most 2n-2 trapdoors. With h and βh both in a key, as for consecutive powers, (βg, -g, 0, ...) from the public reference string collides with zero.", "quantifier": "all reference strings, sizes n >= 1, coefficient families, scalar messages, finite sets of trapdoors, bilinear groups with a non-degenerate generator", "why_tests_cant": "A collision search over the combinations of a reference string is not something a test can exhaust, and commitments to honest messages agree with the specification also under a key with consecutive powers.", "anchors": ["ip_proofs/src/tipa/mod.rs:SRS::get_commitment_keys", "ip_proofs/src/tipa/mod.rs:TIPA::setup", "dh_commitments/src/afgho16/mod.rs:AFGHOCommitmentG1::commit", "dh_commitments/src/afgho16/mod.rs:AFGHOCommitmentG2::commit", "dh_commitments/src/pedersen/mod.rs:PedersenCommitment::commit"]}
{"id": "C119", "title": "Accepted SIPP proofs are exactly the proofs of the honest prover in the random oracle model", "statement": "Let the digest be a random function between finite sets and let an adversary make Q adaptive queries and then output a statement and a proof of at most K pairs, as in C72. For all but ((Q+K+1)·3m + (Q+K+1)^2)/|Ds| of all oracles, if SIPP::verify accepts then the statement is true and the proof is, pair by pair, the one that SIPP::prove returns for this statement. Hence two different accepted proofs of one statement are output for at most twice as many oracles: proofs are not malleable. For some oracles two accepted proofs of one statement do exist.", "quantifier": "all adaptive adversaries, statements chosen by the adversary after its queries, all Q and K, all encodings of fixed length; counted over all oracles", "why_tests_cant": "The tests verify honest proofs only, and a share of all oracles cannot be sampled. Uniqueness quantifies over all other proofs of a statement.", "anchors": ["sipp/src/lib.rs:SIPP::verify", "sipp/src/lib.rs:SIPP::prove", "sipp/src/rng.rs:FiatShamirRng::absorb"]}
{"id": "C120", "title": "The provers do a linear amount of work", "statement": "SIPP::prove for n = 2^k pairs computes 2n-2 Miller loops, 5n-4 scalar multiplications (of which 2n-2 are multiplications by one), 2k final exponentiations and k+1 digests. GIPA::prove computes the inner product and the commitments of all n messages once and of n-1 messages twice, and 4(n-1) multiplications for folding. TIPA::prove adds two key openings with 2n-1 scalar multiplications and 4n+4k-1 products of scalars each. aggregate_proofs for n proofs computes 13n-8 Miller loops, 19n-13 scalar multiplications, 13n+12k-4 products and n+4k+1 inversions. The two-tier polynomial commitments commit with one scalar multiplication for every coefficient and n Miller loops and open with O(n+m) group operations and at most n·m + m + 5n + 4k - 1 products. The numbers are exact for every run that returns a result and upper bounds for all other runs.", "quantifier": "all inputs of matching power-of-two length, all digests (for digests and inversions: those that never force a nonce to be skipped), all inner products and commitments with a linear number of operations", "why_tests_cant": "Tests and benchmarks measure the running time for a few sizes; they neither count operations nor cover all sizes and all inputs.", "anchors": ["sipp/src/lib.rs:SIPP::prove", "sipp/src/lib.rs:product_of_pairings_with_coeffs", "ip_proofs/src/gipa.rs:GIPA::prove", "ip_proofs/src/tipa/mod.rs:TIPA::prove_with_srs_shift", "ip_proofs/src/tipa/mod.rs:prove_commitment_key_kzg_opening", "ip_proofs/src/tipa/structured_scalar_message.rs:TIPAWithSSM::prove_with_structured_scalar_message", "ip_proofs/src/applications/groth16_aggregation.rs:aggregate_proofs", "ip_proofs/src/applications/poly_commit/mod.rs:BivariatePolynomialCommitment::open", "ip_proofs/src/applications/poly_commit/transparent.rs:BivariatePolynomialCommitment::open"]}
{"id": "C121", "title": "Every outcome of the verifiers", "statement": "For every input, also proofs made by an adversary and arbitrary keys, each verifier ends in exactly one of the stated ways. GIPA: the length error if the keys are not powers of two or of different lengths, otherwise a verdict if n = 2^rounds and a panic if not. GIPA with structured message: a verdict if n = 2^rounds, otherwise a panic. TIPA: a verdict unless the proof has no rounds or the shift is zero, then a panic; with structured message: a panic exactly without rounds. KZG: always a verdict. Polynomial commitments with reference string: a panic exactly if the inner proof has no rounds, in the univariate case also for maximal degree 0 or 2^64 - 1. Transparent ones: a verdict exactly if both inner proofs fit the two keys, otherwise a panic. Aggregated Groth16 proofs: a verdict exactly if both inner proofs have rounds, the challenge is not 0 or 1, there is a first row of inputs that fits the key and no row is shorter; otherwise a panic. Batch verifier: a panic exactly if the key has no input elements and there is a row and a proof. SIPP: a verdict exactly if |a| = |b| = 2^k for k >= 1 proof elements and there are at least |a| coefficients, otherwise a panic. The only other way to end is a search that tries all 2^64 nonces.", "quantifier": "all environments with lawful pairing and digests of at least 16 bytes, all keys, commitments, values, points, proofs and public inputs", "why_tests_cant": "a test sees one malformed input at a time; that there is no further input on which a verifier crashes, and that on these it always does, is about all inputs", "anchors": ["ip_proofs/src/gipa.rs:135-160", "ip_proofs/src/tipa/mod.rs:242-301", "ip_proofs/src/tipa/structured_scalar_message.rs:86-127", "ip_proofs/src/tipa/structured_scalar_message.rs:270-331", "ip_proofs/src/applications/poly_commit/mod.rs:264-283", "ip_proofs/src/applications/poly_commit/mod.rs:364-376", "ip_proofs/src/applications/poly_commit/transparent.rs:188-212", "ip_proofs/src/applications/groth16_aggregation.rs:162-231", "sipp/src/lib.rs:109-180"]}
{"id": "C122", "title": "Polynomial commitments and KZG openings are linear, KZG openings unique", "statement": "For every key, if s = a p + b q coefficient by coefficient then commit(s) = a commit(p) + b commit(q), for KZG, for the bivariate and the univariate scheme, with reference string and transparent; the row commitments kept for the opening combine in the same way. KZG openings at one point combine likewise, the verifier accepts linear combinations of accepted openings for every verifier key, and for a point other than the trapdoor a commitment and a value admit at most one accepted opening. Success of the combined commitment is part of the claim; it needs s in normal form where the code asserts it, and s short enough in the transparent bivariate scheme.", "quantifier": "all keys (not only those of setup), all coefficients a and b, all polynomials of any lengths for which the two commitments exist, all points", "why_tests_cant": "The unit tests commit to one polynomial per run and never combine two; linearity speaks about all pairs of polynomials, also of different degrees and with cancelling leading terms.", "anchors": ["ip_proofs/src/applications/poly_commit/mod.rs:76", "ip_proofs/src/applications/poly_commit/mod.rs:88", "ip_proofs/src/applications/poly_commit/mod.rs:108", "ip_proofs/src/applications/poly_commit/mod.rs:176", "ip_proofs/src/applications/poly_commit/mod.rs:336", "ip_proofs/src/applications/poly_commit/transparent.rs:101", "ip_proofs/src/applications/poly_commit/transparent.rs:265"]}
{"id": "C123", "title": "Which parts of an accepted proof are determined by the rest (malleability)", "statement": "The commitments exchanged in the rounds and the final commitment keys determine an accepted proof: base messages, key openings, row commitment, KZG opening, claimed inner product and aggregated C are then unique, for GIPA, TIPA, the transparent polynomial commitments, the polynomial commitments with reference string and aggregated Groth16 proofs. The one exception: in the structured-message argument with reference string the right base message is free, so anyone can turn an accepted polynomial opening or aggregate proof into a different accepted one for the same statement.", "quantifier": "all accepted proofs, also adversarial ones and for different claimed inner products or public inputs; pairing nondegenerate, final keys and (transparent scheme) left base messages not degenerate, opening points different from the trapdoors", "why_tests_cant": "Uniqueness quantifies over all proofs an adversary could submit; the tests only verify proofs of the honest prover and never change a field.", "anchors": ["ip_proofs/src/gipa.rs:401", "ip_proofs/src/tipa/mod.rs:242", "ip_proofs/src/tipa/structured_scalar_message.rs:270", "ip_proofs/src/applications/poly_commit/mod.rs:264", "ip_proofs/src/applications/poly_commit/transparent.rs:188", "ip_proofs/src/applications/groth16_aggregation.rs:162"]}
{"id": "C124", "title": "No result depends on the number of threads or the schedule, except of SIPP's prover with too few coefficients", "statement": "All provers, verifiers, set-ups and commitments of the crates give the same outcome (value, error or panic) for every number of rayon threads and every reduction schedule, and without rayon. Exception: SIPP::prove with one coefficient too few returns a proof with one thread and panics with two, for every length from 16 on.", "quantifier": "all inputs (also malformed ones), all thread counts, all schedules, also a different one for each parallel call; for SIPP::prove all inputs with at least as many coefficients as points", "why_tests_cant": "Tests run on one machine with one thread count, and work stealing decides the schedule.", "anchors": ["inner_products/src/lib.rs:77", "inner_products/src/lib.rs:154", "ip_proofs/src/tipa/structured_scalar_message.rs:110", "sipp/src/lib.rs:184", "sipp/src/lib.rs:148"]}
{"id": "C125", "title": "Accepted GIPA proofs are those of the honest prover, in the random oracle model", "statement": "Fix keys of length 2^k, commitments and an opening of the two vector commitments. For a prover with Q queries that knows openings of the commitments it hashes, the verifier accepts, no collision of the keys is found, and yet the committed inner product is wrong or the proof is not the one GIPA::prove_with_aux returns for the opening, for at most (Q+k)(Q+k+5)m/|Ds| of all oracles (m: digests with the same challenge). So a true statement has one accepted proof: two such provers have different accepted proofs for at most twice this share.", "quantifier": "all lawful inner products and commitments whose inner product commitment can be read, all key lengths 2^k, all commitments with a known opening, all provers that know what they hash, all numbers of queries, all finite sets of hash inputs and digests", "why_tests_cant": "It is a bound over all oracles and all adaptive provers; tests only run the honest prover with one hash function.", "anchors": ["ip_proofs/src/gipa.rs:135", "ip_proofs/src/gipa.rs:162", "ip_proofs/src/gipa.rs:235", "ip_proofs/src/gipa.rs:315"]}
{"id": "C126", "title": "Accepted TIPA proofs are those of the honest prover, in the random oracle model", "statement": "Fix a reference string for vectors of length n = 2^k, commitments with its keys and an opening of the two vector commitments. For an algebraic prover with Q queries (it knows openings of the commitments it hashes and representations of the keys it hashes in the reference string) the following happens for at most the share ((Q+k)(Q+k+5)m + N((Q+k+1)·2(2n-2)m' + (Q+k+1)(Q+k+2)m))/|Ds| of all oracles: the verifier accepts with an opening point among the first N attempts that is no trapdoor, no collision of the keys and no polynomial with the trapdoors as a zero is found, and yet the committed inner product is wrong or the proof differs anywhere from the one TIPA::prove_with_srs_shift returns for the opening.", "quantifier": "all lawful inner products and commitments, all reference strings and key shifts, all n = 2^k, all commitments with a known opening, all algebraic provers, all numbers of queries and attempts, all finite sets of hash inputs and digests", "why_tests_cant": "It is a bound over all oracles and all adaptive provers; tests only run the honest prover with one hash function.", "anchors": ["ip_proofs/src/tipa/mod.rs:176", "ip_proofs/src/tipa/mod.rs:242", "ip_proofs/src/gipa.rs:235"]}
{"id": "C127", "title": "Every outcome of the provers", "statement": "For every input of GIPA::prove_with_aux, GIPA::prove, TIPA::prove_with_srs_shift, both structured-message provers, open of the four polynomial commitments and aggregate_proofs, whether a proof is returned, and otherwise the error value or the kind of panic, is the stated function of the lengths of the arguments (for GIPA::prove also of its equality checks, for the aggregation also of the challenge), unless a search tries all 2^64 nonces. In particular GIPA::prove never panics; the others panic for wrong lengths. TIPA needs at least two messages, a power of two, and exactly 2n-1 powers; a univariate opening does not depend on the polynomial; the aggregation returns a proof exactly for n >= 2 proofs, n a power of two, keys of length n, 2n-1 powers and a non-zero challenge.", "quantifier": "all lawful inner products and commitments, all messages, keys, reference strings, polynomials, points and proofs of any lengths", "why_tests_cant": "The tests only use matching power-of-two lengths; no test calls a prover with lists of different lengths or with a single message.", "anchors": ["ip_proofs/src/gipa.rs:108", "ip_proofs/src/gipa.rs:162", "ip_proofs/src/tipa/mod.rs:176", "ip_proofs/src/tipa/structured_scalar_message.rs:211", "ip_proofs/src/applications/poly_commit/mod.rs:200", "ip_proofs/src/applications/poly_commit/transparent.rs:129", "ip_proofs/src/applications/groth16_aggregation.rs:77"]}
{"id": "C128", "title": "The field elements for the uncommitted message of a TIPAWithSSM proof are free", "statement": "The structured message of TIPAWithSSM is not committed to; every step of a proof carries two field elements in the place of such commitments, and the base carries one. For every true statement about 2^(k+1) messages and every choice of these 2k+3 field elements there is an accepted proof of that statement containing exactly these elements; so a true statement has an injective family of accepted proofs indexed by F^(2k+3). The same holds for accepted openings of the bivariate polynomial commitment and for accepted Groth16 aggregate proofs: the inner proof can be exchanged for one with any such elements, with the rest of the proof unchanged. The honest prover's elements (zeros and the folded power) are never checked, although they are hashed into the challenges.", "quantifier": "all lawful inner products and commitments, all correctly generated reference strings, all k, all messages, all choices of the field elements, all true statements, all accepted honest openings and aggregates", "why_tests_cant": "The tests only verify the proofs of the honest prover, whose elements are zero; they never change a component of a proof.", "anchors": ["ip_proofs/src/tipa/structured_scalar_message.rs:211", "ip_proofs/src/tipa/structured_scalar_message.rs:270", "ip_proofs/src/gipa.rs:315", "ip_proofs/src/applications/poly_commit/mod.rs:264", "ip_proofs/src/applications/groth16_aggregation.rs:162"]}
{"id": "C129", "title": "Accepted GIPAWithSSM proofs are those of the honest prover, in the random oracle model", "statement": "Fix a key of length n = 2^k, a commitment to a left message with an opening, and a point b. For an algebraic prover with Q queries (it knows openings of the commitments it hashes) the following happens for at most the share (Q+k)(Q+k+7)m/|Ds| of all oracles: GIPAWithSSM's verifier accepts and the key's openings do not collide, and yet the committed inner product is not that of the opening with the powers of b, or a placeholder in a step is not zero, or the steps or the left base element differ from those of the proof that prove_with_structured_scalar_message returns for the opening, or the right base element gives another committed inner product with the left one than the honest one does. m is the largest number of digests with the same challenge.", "quantifier": "all lawful inner products and commitments, all keys, all n = 2^k, all points, all commitments with a known opening, all algebraic provers, all numbers of queries, all finite sets of hash inputs and digests", "why_tests_cant": "It is a bound over all oracles and all adaptive provers; tests only run the honest prover with one hash function.", "anchors": ["ip_proofs/src/tipa/structured_scalar_message.rs:70", "ip_proofs/src/tipa/structured_scalar_message.rs:86", "ip_proofs/src/gipa.rs:235", "ip_proofs/src/gipa.rs:315"]}
{"id": "C130", "title": "Accepted TIPAWithSSM proofs are determined by their free elements, in the random oracle model", "statement": "Fix a reference string for vectors of length n = 2^k, a point b, a commitment to a left message and an opening of it. For an algebraic prover with Q queries (it knows openings of the commitments it hashes and representations of the keys it hashes in the reference string) the following happens for at most the share ((Q+k)(Q+k+5)m + N((Q+k+1)(2n-2)m' + (Q+k+1)(Q+k+2)m))/|Ds| of all oracles: TIPAWithSSM's verifier accepts with an opening point among the first N attempts that is not the trapdoor, no collision of the key and no polynomial with the trapdoors as a zero is found, and yet the committed inner product is wrong or the proof differs anywhere from the one obtained by running the prover on the opening with the 2k+1 field elements that stand for the right message taken from the proof. With the honest elements this is the proof of prove_with_structured_scalar_message.", "quantifier": "all lawful inner products and commitments, all reference strings, all n = 2^k, all points, all commitments with a known opening, all algebraic provers, all numbers of queries and attempts, all finite sets of hash inputs and digests", "why_tests_cant": "It is a bound over all oracles and all adaptive provers; tests only run the honest prover with one hash function.", "anchors": ["ip_proofs/src/tipa/structured_scalar_message.rs:211", "ip_proofs/src/tipa/structured_scalar_message.rs:270", "ip_proofs/src/gipa.rs:235"]}
{"id": "C131", "title": "The combined row commitment in a polynomial opening is malleable", "statement": "An opening of a bivariate commitment contains a commitment to the rows combined with the powers of the first coordinate. For every committed polynomial, every point and every row q whose value at the second coordinate of the point is zero there is an accepted opening of the true value whose combined row commitment is that of the honest opening minus a non-zero multiple of the commitment to q, in the scheme with a reference string and in the transparent one. So openings are not determined by the statement: if rows have two coefficients, the generator is not zero and the second coordinate is not the trapdoor, then there is an accepted opening of the true value with another combined row commitment.", "quantifier": "all fields, groups, pairings and oracles with a digest of at least 16 bytes whose challenge search ends, all degrees with a power of two (at least 2) of rows, all polynomials, points and rows vanishing at the point", "why_tests_cant": "The other openings are not produced by the prover, and tests only verify the openings of the prover.", "anchors": ["ip_proofs/src/applications/poly_commit/mod.rs:200", "ip_proofs/src/applications/poly_commit/mod.rs:264", "ip_proofs/src/applications/poly_commit/transparent.rs:188", "ip_proofs/src/gipa.rs:235"]}
{"id": "C132", "title": "Accepted aggregate proofs are determined by the committed proofs and the free elements", "statement": "Fix a reference string for n = 2^k proofs, a verifying key whose delta pairs to zero with nothing but zero, inputs, and commitments to n proofs. The prover is given the digests from which the challenge r is drawn, queries the hash function as a random oracle, and knows openings of the commitments it hashes. Except for a share of at most errorTerm / |digests| of all oracles it holds: if the verifier accepts, and the prover has found no collision of the keys, no non-zero polynomial that is zero at a trapdoor and no opening point that is a trapdoor, then ip_ab is the sum of r^i e(a_i, b_i), agg_c is the sum of r^i c_i, the first argument is the output of prove_with_srs_shift for the committed proofs, and the second is the output of the prover with the free elements in it. If aggregate_proofs returns for the committed proofs, the whole proof equals its output once the free elements do.", "quantifier": "all fields, groups and pairings, all k, all provers with any number of queries, all finite sets of digests, all committed proofs (valid or not)", "why_tests_cant": "The statement is about all provers and almost all hash functions; neither can be enumerated by running the prover in the repository.", "anchors": ["ip_proofs/src/applications/groth16_aggregation.rs:77", "ip_proofs/src/applications/groth16_aggregation.rs:162", "ip_proofs/src/tipa/mod.rs:176", "ip_proofs/src/tipa/structured_scalar_message.rs:211"]}
{"id": "C133", "title": "Who knows the trapdoor of a reference string can aggregate proofs for any inputs", "statement": "Let alpha and beta be the non-zero trapdoors of a reference string for n = 2^(k+2) proofs. For all verifying keys, all inputs and all commitments e(P, h), e(g, Q), e(S, h), n made-up proofs, computed from alpha, beta, the verifying key, the inputs and the challenge r of these commitments, are aggregated by aggregate_proofs to a proof with these commitments that verify_aggregate_proof accepts, provided r is not 0, 1 or beta^2. In particular the commitments of any aggregated proofs can be reused for other inputs. In the same way a commitment to structured messages is opened by prove_with_structured_scalar_message to every inner product.", "quantifier": "all fields, groups and pairings, all k, all verifying keys, inputs and commitments, all hash functions for which the challenge searches end", "why_tests_cant": "Tests run the aggregator on valid proofs and never use the trapdoor; that acceptance implies nothing for its holder is a statement about all inputs and keys.", "anchors": ["ip_proofs/src/applications/groth16_aggregation.rs:77", "ip_proofs/src/applications/groth16_aggregation.rs:162", "ip_proofs/src/tipa/structured_scalar_message.rs:211"]}
{"id": "C134", "title": "The hash inputs of the aggregation are told apart by their lengths only", "statement": "With encodings of 32, 96, 192, 576 bytes for scalars, G1, G2, GT (BLS12-377, BLS12-381) or 48, 192, 192, 576 bytes (BW6-761), a byte string is the input of at most one of the queries of an aggregation: rounds of the two inner product arguments, the two KZG points and the challenge of the linear combination, with all their values. This holds whatever the numbers of entries in the commitments to inner products are. The two arguments of a transparent opening hash different inputs if these have one entry. There is no separation between applications: the second argument of an accepted aggregate is the first part of an accepted opening of com_c as a commitment to a bivariate polynomial.", "quantifier": "all values, nonces and vector lengths below 2^64; all injective encodings of the given lengths", "why_tests_cant": "A coincidence of two hash inputs is a statement about all pairs of values and vector lengths; no test computes two inputs for different purposes.", "anchors": ["ip_proofs/src/gipa.rs:236", "ip_proofs/src/tipa/mod.rs:194", "ip_proofs/src/tipa/structured_scalar_message.rs:238", "ip_proofs/src/applications/groth16_aggregation.rs:105"]}
{"id": "C135", "title": "Entries of the commitments to inner products in accepted proofs", "statement": "The commitments to inner products in a proof are vectors whose length no verifier checks. In every proof that the verifiers of GIPA, GIPA with structured messages, TIPA, TIPA with structured messages, the aggregation, and the four polynomial commitments accept, each of these vectors has at least one entry. All entries but the first have no effect except through the hash: if the round challenges are the same, the result of the verifier (verdict, error or panic) is the same as for the proof with the further entries removed. So the proofs with at most B + 1 entries per vector that can be accepted are those of the shapes for which C108, C111, C116 and C117 are stated.", "quantifier": "all proofs, statements, keys, encodings and digests", "why_tests_cant": "The tests only verify proofs made by the provers, which have one entry per vector. That no vector of another length is harmful is a statement about all lengths.", "anchors": ["dh_commitments/src/identity/mod.rs:IdentityOutput", "ip_proofs/src/gipa.rs:_compute_recursive_challenges", "ip_proofs/src/tipa/mod.rs:TIPA::verify_with_srs_shift", "ip_proofs/src/tipa/structured_scalar_message.rs:TIPAWithSSM::verify_with_structured_scalar_message", "ip_proofs/src/applications/groth16_aggregation.rs:verify_aggregate_proof"]}
{"id": "C136", "title": "How likely each challenge is, and the soundness bounds in numbers", "statement": "For digests drawn uniformly from all strings of L bytes: if the characteristic of the scalar field is at least 2^128 (or zero), each number below 2^128 gives its round challenge for exactly one in 2^128 digests; with ark-ff's from_random_bytes for a prime field of b bits each field element is the opening point or the coefficient of the linear combination for exactly one in 2^b digests, and (2^b - p) in 2^b digests have to be tried again. Hence GIPA accepts a false statement fixed in advance without a collision for at most (Q+k)(Q+k+5) in 2^128 oracles; and for the sizes of encodings of the curves in the repository, all proofs with at most B+1 entries per commitment and a prover that may hash every string of at most M bytes, valid Groth16 proofs or a collision can be extracted from an aggregation prover that succeeds for more than N(n-1) + E(Q,k,n,N,1,1) in 2^128 oracles, E as in C108. For n at most 2^20, Q at most 2^40 and N at most 2^7 this is less than one in 2^39.", "quantifier": "all L at least the size of a field element, all primes of at least 128 bits, encodings, keys, reference strings, provers", "why_tests_cant": "Counting digests of 64 bytes is out of reach of tests, and no test looks at the distribution of challenges.", "anchors": ["ip_proofs/src/gipa.rs:248", "ip_proofs/src/tipa/mod.rs:205", "ip_proofs/src/tipa/structured_scalar_message.rs:247", "ip_proofs/src/applications/groth16_aggregation.rs:112"]}
{"id": "C137", "title": "Trying hash inputs until the challenge fits: a lower bound for soundness", "statement": "GIPA's challenges have 128 bits whatever the curve, and the statement is not hashed. For vectors of length two, any direction s and numbers Q, S with QS < 2^128 there is a prover with Q oracle queries such that for one of the S false statements with inner product <a,b> - (1/j) s, j = 1..S, its proof is accepted for a share of at least QS/(2^128 + QS) of all oracles (more precisely: all are refused for a share of at most (1 - S/2^128)^Q). So the bound of C136 is not improved below Q in 2^128 by a larger field or digest, and it grows linearly with the number of statements among which the prover can choose. For every length 2^(k+1): if the digest of the first round fits, honest further rounds complete the accepted proof.", "quantifier": "all keys, vectors of length two (first-round statement: all powers of two), directions, Q and S with QS < 2^128, digest lengths of at least 16 bytes, characteristics of at least 2^128 or zero", "why_tests_cant": "The success of the attack is about one in 2^128 per attempt.", "anchors": ["ip_proofs/src/gipa.rs:248", "ip_proofs/src/gipa.rs:315", "ip_proofs/src/gipa.rs:135"]}
{"id": "C138", "title": "Choosing among finitely many statements after the hash answers", "statement": "Neither GIPA nor the Groth16 aggregation hashes the whole statement (the claimed inner product; the verifying key and the public inputs), so soundness fails when these are chosen after the challenges (C22, C52). If the prover may choose them afterwards but only from a finite set J fixed beforehand, the soundness and extraction bounds of C136 hold with the factor |J|: GIPA accepts one of the false statements without a collision for at most |J|(Q+k)(Q+k+5) in 2^128 oracles; and an aggregating prover that succeeds, for some key and inputs in J, for more than |J|(N(n-1) + errorTerm) in 2^128 oracles yields proofs in the commitments valid for one of these inputs or a collision. C137 shows that the factor |J| is necessary.", "quantifier": "all finite families of false statements or of verifying keys and inputs, all provers with Q queries, all lengths 2^k", "why_tests_cant": "It counts all functions from hash inputs to digests.", "anchors": ["ip_proofs/src/gipa.rs:315", "ip_proofs/src/applications/groth16_aggregation.rs:174", "ip_proofs/src/applications/groth16_aggregation.rs:162"]}
{"id": "C139", "title": "The example and bench programs as a whole", "statement": "With Groth16 complete for the relations of the circuits, no program panics on sensible arguments: the aggregation example (any number of public inputs) and the aggregation bench (any trials and flags: one proof copied or all made, recursion, monolithic proof) run through for every power of two of at least two proofs; the polynomial commitment bench runs through for up to 31 data points and panics with overflow for more; all unless a challenge search tries all 2^64 nonces in vain, and for the aggregation if the challenge of the linear combination is never 0 or 1. The SIPP example runs through for sizes from 2 to 2^30, panics at the first size when that is 1, and panics before the first proof when the largest size is 2^31 or more: the number of elements is computed with a shift of type i32.", "quantifier": "all proof systems complete for the circuits, all generators, shuffles, seeds, numbers of proofs, trials and data points, all argument vectors", "why_tests_cant": "The programs are not tests and are run by hand with a few arguments; sizes near the limits take too long to run.", "anchors": ["benches/examples/groth16_aggregation.rs:43", "benches/benches/groth16_aggregation/bench.rs:203", "benches/benches/poly_commit.rs:21", "sipp/examples/scaling-ipp.rs:45"]}
{"id": "C140", "title": "Release builds, where arithmetic wraps around", "statement": "Release builds wrap around where debug builds panic on overflow. Set-up, commit, open and verify of both univariate commitments, the set-up of the inner product arguments, the degrees of the bench and the SIPP example give the same result in both, unless the debug build stops with an overflow (sizes below 2^63, keys whose lengths multiply to less than 2^64). Where it does, the release build behaves as follows. The largest degree stops at a division by zero. Commit with an empty half of the reference string panics later, and no opening is produced. Set-up of size 0 asks for 2^64 - 1 powers. From the 32nd data point on the bench asks for degree 2^64 - 1, and the first set-up panics. The SIPP example for 2^32 elements or more prepares fewer and panics at the first missing slice. With an empty half of the transparent key, commit returns the commitment zero for every polynomial; no opening is produced from such a key, and the verifier gives no verdict. The set-ups called with degrees (KZG, bivariate with and without a reference string) agree whenever the sizes are machine words; for the largest degree KZG set-up fails its assertion, a bound x >= 2^63 on the degree in X silently gives the reference string for x - 2^63, and without a reference string the largest degrees give empty keys.", "quantifier": "all lawful pairing engines, keys, polynomials, points, proofs, degrees below 2^64, sizes and generators", "why_tests_cant": "Tests are run as debug builds, so they do not run the wrapping arithmetic, and the benches, which do, use sizes far from the limits.", "anchors": ["ip_proofs/src/applications/poly_commit/mod.rs:292", "ip_proofs/src/applications/poly_commit/mod.rs:300", "ip_proofs/src/applications/poly_commit/transparent.rs:229", "ip_proofs/src/tipa/mod.rs:150", "benches/benches/poly_commit.rs:51", "sipp/examples/scaling-ipp.rs:45"]}
{"id": "C141", "title": "What a test or program that ends has checked", "statement": "Whatever the curve, hash function and argument, correct or not: a test of the library, the SIPP example, the aggregation example, the polynomial commitment bench or the aggregation bench that runs through has seen a verifier return Ok(true) for the commitments and the proof it computed. The commitment tests have also seen the second message rejected and the longer message give an error, the shift test has seen the shifted key open the commitment, the polynomial tests and bench use the value of the drawn polynomial at the drawn point, the polynomial commitment bench checks all three schemes for every degree when there is at least one trial, and the aggregation bench checks the batch and, as requested, the aggregate, the recursive and the monolithic proof. A trial with a SNARK and a step of the SIPP example end exactly when the proof is made and accepted. Because all entries of the example's vectors are equal, its shuffles change nothing, and for each size 2^i it checks one statement only: 2^i copies of (2g, 2h) with coefficient x have product 4 x 2^i e(g, h).", "quantifier": "all implementations of the engine, the commitments, the arguments and the SNARKs, sizes, generators and arguments; no lawfulness is assumed, except for the product that the SIPP example checks", "why_tests_cant": "A test that always passes looks the same as one that checks something; that a missing check would let a wrong verifier through cannot be seen by running the tests on the correct one.", "anchors": ["dh_commitments/src/afgho16/mod.rs:72", "ip_proofs/src/gipa.rs:493", "ip_proofs/src/tipa/mod.rs:470", "ip_proofs/src/tipa/mod.rs:561", "ip_proofs/src/tipa/structured_scalar_message.rs:382", "sipp/src/lib.rs:253", "sipp/examples/scaling-ipp.rs:81", "benches/benches/poly_commit.rs:102", "benches/benches/groth16_aggregation/bench.rs:446", "benches/examples/groth16_aggregation.rs:104"]}
{"id": "C142", "title": "No verifier checks its reference string", "statement": "The fields of VerifierSRS are public and no verifier checks them. With the string of four zeros: KZG accepts every value, at every point, for every commitment and proof (and a KZG verifier accepts everything exactly if h and h_alpha pair to zero with every element of G1); every final commitment key passes both key checks with every opening; TIPA, with any shift and number of rounds, accepts commitments and inner product as soon as one message pair and one key pair satisfy them; TIPAWithSSM does so for the message times one scalar that depends only on the structure and the number of rounds; one and the same opening of a bivariate or univariate commitment e(x, y) is accepted for all values at a point; and for every Groth16 verifying key and all inputs of the right size an aggregate that commits to zeros is accepted, if the challenge of the zero commitments is not 0 or 1. If only g is zero, the KZG verdict does not depend on the value; with gamma = 0 in the Groth16 verifying key the verdict does not depend on the inputs.", "quantifier": "all lawful engines, messages, keys, points, values, verifying keys, inputs, numbers of rounds; for the aggregate, pairings onto the target group", "why_tests_cant": "The tests take the verifier string from the set-up; what a verifier does with a string from elsewhere is a statement about all inputs.", "anchors": ["ip_proofs/src/tipa/mod.rs:104-110", "ip_proofs/src/tipa/mod.rs:verify_with_srs_shift", "ip_proofs/src/tipa/mod.rs:340-370", "ip_proofs/src/tipa/structured_scalar_message.rs:270-331", "ip_proofs/src/applications/poly_commit/mod.rs:108-117", "ip_proofs/src/applications/poly_commit/mod.rs:264-283", "ip_proofs/src/applications/groth16_aggregation.rs:162-231"]}
{"id": "C143", "title": "The bounds in numbers for TIPA, the polynomial commitments and SIPP", "statement": "Let digests be all strings of L bytes and let the prover ask for the digest of any string of at most M bytes, with Q queries. Transparent polynomial commitments: from a prover whose opening is accepted for more than 6 N (N + 1) in 2^128 oracles, N = Q + rounds, rows and coefficients with the claimed value (for a univariate commitment with a wrong value: a collision with the honest messages) can be extracted. TIPA with pairings, and the bivariate and univariate commitments with a reference string: the same for more than tipaBound or ssmBound in 2^128, of order Q^2 + N (Q n + Q^2) with N the attempts per search for a point, for provers with algebraic keys (C114, C116). For 2^20 messages, 2^40 queries and 128 attempts the bounds are below one in 2^40, for the transparent commitments below one in 2^45. SIPP: if each u128 is drawn for at most c in 2^128 seeds, an adversary that chooses statement and proof gets a false statement, or a proof other than the honest one, accepted for at most (3 c + 1)(Q + K + 1) in 2^128 oracles; with 2^40 queries, 30 rounds and c up to 2^19 this is below one in 2^66.", "quantifier": "all fields with characteristic 0 or at least 2^128, lawful engines, encodings of fixed lengths that are separated (C134), strategies, numbers of queries and rounds", "why_tests_cant": "The statements count oracles on which an arbitrary prover succeeds; a test runs one prover with one hash function.", "anchors": ["ip_proofs/src/gipa.rs:230-262", "ip_proofs/src/tipa/mod.rs:195-211", "ip_proofs/src/tipa/structured_scalar_message.rs:238-253", "ip_proofs/src/applications/poly_commit/mod.rs:108-117", "ip_proofs/src/applications/poly_commit/transparent.rs:188-212", "sipp/src/lib.rs:50-166", "sipp/src/rng.rs:54-72"]}
{"id": "C144", "title": "What the proofs reveal about the messages", "statement": "The base of an honest GIPA proof (also within TIPA, with and without a structured scalar message) consists of the linear combinations of the two messages whose coefficients are the products of the challenges, and of their inverses, selected by the bits of the position; anyone computes these coefficients from the proof. So proofs with the same left message reveal its entries: a combination of coefficient vectors that is a unit vector gives the entry as the same combination of the bases, and two proofs with different challenges give both entries of a message of length two. An opening of a polynomial without a reference string contains such a combination of the coefficients themselves; with two columns the opening at (x, y) also reveals the value at (x, c), c the challenge, and openings at as many points with different x as there are rows determine the polynomial, unless a challenge is the coordinate y. The aggregate of two Groth16 proofs reveals their elements C: agg_c and the base of the proof for agg_c are two combinations of them, independent unless the challenges coincide.", "quantifier": "all fields, lawful inner products and commitments, digests of at least 16 bytes, messages of length 2^k, keys, numbers of proofs, polynomials that fit and points", "why_tests_cant": "The tests check that honest proofs are accepted; nothing in them looks at what a proof says about the witness.", "anchors": ["ip_proofs/src/gipa.rs:162-300", "ip_proofs/src/gipa.rs:315-363", "ip_proofs/src/tipa/structured_scalar_message.rs:70-84", "ip_proofs/src/applications/poly_commit/transparent.rs:129-186", "ip_proofs/src/tipa/mod.rs:176-231", "ip_proofs/src/tipa/structured_scalar_message.rs:211-268", "ip_proofs/src/applications/groth16_aggregation.rs:77-160"]}
{"id": "C145", "title": "What the texts of the errors say", "statement": "The text of a length error determines the two lengths, in order. Two error values have the same text exactly if they are equal or are the length errors of the two crates with the same lengths, so the text does not say which crate rejected the input. For a rejected commitment the text gives the number of keys first with Pedersen commitments and AFGHO commitments to elements of G2, and the number of messages first with AFGHO commitments to elements of G1. GIPA's prover gives the same text for a wrong inner product and for commitments that do not open; a length that is not a power of two is reported by the lengths alone.", "quantifier": "all lengths, error values, keys and messages", "why_tests_cant": "No test looks at an error; that texts differ for all pairs of lengths is a statement about infinitely many values.", "anchors": ["inner_products/src/lib.rs:29-38", "ip_proofs/src/lib.rs:33-43", "dh_commitments/src/afgho16/mod.rs:20-48", "dh_commitments/src/pedersen/mod.rs", "ip_proofs/src/gipa.rs:108-134"]}
{"id": "C146", "title": "Work of the set-ups and of the univariate commitments in terms of the degree", "statement": "For every degree d with 1 <= d and d + 1 <= 2^52: the set-up with structured keys takes at most 18 sqrt(4d) + 1 scalar multiplications; committing takes between d + 1 and 4d scalar multiplications and at most sqrt(4d) Miller loops; opening takes at most 40 sqrt(4d) scalar multiplications (34 sqrt(4d) in the transparent scheme) and 2 sqrt(4d) Miller loops; verifying a proof with the honest number of rounds takes five pairings and at most 3 log2(4d) + 5 scalar multiplications with structured keys, and two pairings but at most 10 sqrt(4d) + 6 log2(4d) + 4 scalar multiplications in the transparent scheme, where every accepted proof takes at least 2 sqrt(4(d+1)). TIPA's set-up for n messages takes 4n scalar multiplications and KZG's for degree d takes d + 3.", "quantifier": "all degrees in range, generators, keys from the set-up, polynomials, points, proofs", "why_tests_cant": "Benchmarks time a few sizes; the bounds hold for every degree up to 2^52 - 1, including those just above a power of four where the padding is largest.", "anchors": ["ip_proofs/src/applications/poly_commit/mod.rs:56-74", "ip_proofs/src/applications/poly_commit/mod.rs:153-174", "ip_proofs/src/applications/poly_commit/mod.rs:292-376", "ip_proofs/src/applications/poly_commit/transparent.rs:221-304", "ip_proofs/src/tipa/mod.rs:150-164", "ip_proofs/src/tipa/mod.rs:372-391"]}
{"id": "C147", "title": "Cutting and re-randomising a reference string", "statement": "The first 2m - 1 powers of a reference string for n >= m messages are a reference string for m messages with the same secrets, the same verifier key and the first m commitment keys. TIPA with the cut string is complete for commitments under the first keys and the verifier key of the whole string; so is the aggregation of fewer Groth16 proofs. A bivariate polynomial has the same commitment under a string and under any cut string it fits into, and a commitment made with the whole string opens with the cut one. Multiplying powers of new secrets into a string, without knowing the old ones, gives a string for the products of the secrets.", "quantifier": "all strings of the right form, sizes, secrets, messages, polynomials, points, proofs", "why_tests_cant": "The tests make a new string for every size; the statement is for all pairs of sizes and all secrets.", "anchors": ["ip_proofs/src/tipa/mod.rs:85-164", "ip_proofs/src/applications/groth16_aggregation.rs:77-160", "ip_proofs/src/applications/poly_commit/mod.rs:153-262"]}
{"id": "C148", "title": "Platforms with another width of usize", "statement": "The nonces are hashed as usize::to_be_bytes, so their encoding has 4 bytes on 32-bit platforms and 8 on 64-bit ones. With w <= 8 bytes, every prover and verifier (GIPA, TIPA, the structured-scalar variants, Groth16 aggregation, both bivariate commitments) does what the 64-bit program does with the digest that skips the first 8 - w bytes, unless the nonces run out; so each protocol stays complete among programs of one platform. It is false that proofs carry over: a proof of length two from a platform with another width is rejected by the 64-bit verifier whenever the two challenges differ and the second entry of the left message does not vanish under the folded key.", "quantifier": "all widths up to 8 bytes, digests, inputs, commitments and proofs; violation: all messages and keys of length two, and a concrete run", "why_tests_cant": "Every test makes and checks its proofs in one process on one platform; the difference shows only if a proof travels between platforms.", "anchors": ["ip_proofs/src/gipa.rs:235-258", "ip_proofs/src/tipa/mod.rs:192-215", "ip_proofs/src/tipa/structured_scalar_message.rs:236-255", "ip_proofs/src/applications/groth16_aggregation.rs:103-118"]}
{"id": "C149", "title": "Proofs that arrive as bytes", "statement": "A caller that reads a proof from the front of a message and verifies it accepts exactly the messages that begin with the encoding of an accepted proof, refuses exactly those that begin with no encoding, and otherwise does what the verifier does. Messages that carry the same proof differ only in the bytes after it, and these do not matter: an accepted message stays accepted with anything appended. Honest TIPA proofs for pairing products pass all the way from the reference string to the verdict. The number of rounds is bounded by the number of bytes, so TIPA's verifier does at most linear work in the message; GIPA's does not: 8 + 2(k+1)s + m bytes make it compute 2^(k+2) - 2 products with keys of length one, and panic.", "quantifier": "all byte strings, codecs that read back what they write, verifiers, numbers of rounds, messages and reference strings", "why_tests_cant": "The tests never serialize a proof; the statement is about every byte string an adversary may send.", "anchors": ["ip_proofs/src/gipa.rs:24-51", "ip_proofs/src/gipa.rs:135-160", "ip_proofs/src/gipa.rs:365-400", "ip_proofs/src/tipa/mod.rs:41-65", "ip_proofs/src/tipa/mod.rs:233-301"]}
{"id": "C150", "title": "Vectors of other lengths, padded to a power of two", "statement": "The arguments insist on vectors of power-of-two length. A statement about n entries (inner product, commitments with the first n keys) holds exactly if the same statement holds for the entries padded with zeros and all N keys, so GIPA, TIPA and their versions with structured scalar messages are complete for every n up to N = 2^k by padding, with commitments and inner product those of the n entries; and what GIPA's prover proves for padded vectors is true of the entries. SIPP's product of pairings does not change under padding of one side with zeros, whatever is put opposite; its completeness and its soundness bound hold for the n pairs. Groth16 proofs are padded by repeating a proof with its inputs.", "quantifier": "all lengths n <= N, entries, keys, reference strings, values, coefficients and provers", "why_tests_cant": "The tests use one length, a power of two; the statement covers all of them.", "anchors": ["ip_proofs/src/gipa.rs:108-160", "ip_proofs/src/gipa.rs:162-200", "ip_proofs/src/tipa/mod.rs:166-231", "ip_proofs/src/tipa/structured_scalar_message.rs:70-135", "sipp/src/lib.rs:42-182", "ip_proofs/src/applications/groth16_aggregation.rs:77-160"]}
{"id": "C151", "title": "Clones of proofs, sources of errors", "statement": "If the clones of messages, outputs, scalars and group elements are equal to the originals, the clone of a GIPAProof, TIPAProof or TIPAWithSSMProof is equal to the original; no field of a GIPAProof is lost or mixed up whatever the clones of the fields are, as long as they tell fields apart. Exactly the errors of the crates that have a text report that they have no source.", "quantifier": "all proofs, any number of rounds, any clone functions of the fields, all errors", "why_tests_cant": "No test clones a proof or asks an error for its source.", "anchors": ["ip_proofs/src/gipa.rs:418-443", "ip_proofs/src/tipa/mod.rs:67-94", "ip_proofs/src/tipa/structured_scalar_message.rs:158-179", "inner_products/src/lib.rs:23-27", "ip_proofs/src/lib.rs:27-31"]}
{"id": "C152", "title": "The tables of the benches", "statement": "Every record that the two benches with CSV output write has as many fields as their header, so no write panics; the tables have the expected number of rows; no two rows agree in all columns but the time; every scheme, degree, trial and function has its row, with the time of a verification divided by fifty in the polynomial commitment bench; no field needs quotation marks, and the printed text determines the table; without generating all proofs there are no rows on setting up and proving the single circuit.", "quantifier": "all measured times, numbers of trials, data points and proofs, all choices of the three switches", "why_tests_cant": "Benches are not tests, and nothing reads their output.", "anchors": ["benches/benches/poly_commit.rs:43-279", "benches/benches/groth16_aggregation/bench.rs:241-526"]}
{"id": "C153", "title": "Digests shorter than 16 bytes, and how much of a digest GIPA uses", "statement": "ip_proofs takes any digest and slices 16 bytes out of its output. If all outputs are shorter, GIPA's prover returns a proof only for vectors of length one and its verifier gives a verdict only on proofs without rounds; TIPA with and without structured messages, the polynomial commitments with a reference string and the Groth16 aggregation never return a proof or a verdict, on any input: they panic, return an error or run on. If the outputs have at least 16 bytes, GIPA's prover and verifier depend on the first 16 only.", "quantifier": "all digests whose outputs are all shorter than 16 bytes, resp. any two with the same first 16 bytes; all keys, messages, commitments and proofs", "why_tests_cant": "The tests use one digest with 64 bytes.", "anchors": ["ip_proofs/src/gipa.rs:239-256", "ip_proofs/src/gipa.rs:330-353", "ip_proofs/src/tipa/mod.rs:176-301", "ip_proofs/src/tipa/structured_scalar_message.rs:211-331", "ip_proofs/src/applications/groth16_aggregation.rs:77-231", "sipp/src/lib.rs:36-40"]}
{"id": "C154", "title": "The same polynomial with more or fewer zero rows", "statement": "A bivariate polynomial is a vector of rows, so zero rows at its end give another vector for the same polynomial. The value at a point is the same; within the number of rows of the key, commitment and opening are the same too, in the scheme with a reference string and in the transparent one; with more zero rows than that both panic although the polynomial fits.", "quantifier": "all keys, polynomials, numbers of zero rows, row commitments and points", "why_tests_cant": "The tests draw random rows, which are never zero, and exactly as many as the key has.", "anchors": ["ip_proofs/src/applications/poly_commit/mod.rs:119-138", "ip_proofs/src/applications/poly_commit/mod.rs:176-262", "ip_proofs/src/applications/poly_commit/transparent.rs:101-186"]}
{"id": "C155", "title": "What the SIPP example measures", "statement": "The pairs of the SIPP example are all equal, so shuffling them changes nothing, whatever the permutations are, and the iterations for one size repeat one computation, of a multiple of a single pairing. The file has a header and one row for every size from 2^lo to 2^hi in this order, no size twice, and is written without an error; if the bounds are in the wrong order it is empty.", "quantifier": "all generators, coefficients, permutations, arguments and measured times", "why_tests_cant": "The example is not a test, and the program cannot see that its shuffles have no effect.", "anchors": ["sipp/examples/scaling-ipp.rs:13-19", "sipp/examples/scaling-ipp.rs:41-101"]}
{"id": "C156", "title": "SIPP is the inner-product part of GIPA", "statement": "A SIPP proof consists of the crossed inner products of its rounds, upper half with lower half and lower half with upper half, each round folding the scaled first vector with the challenge and the second with its inverse; the inner-product commitments in a GIPA proof are those to the same crossed terms for its own challenges. Hence, whenever both provers draw the same challenges, the elements of the SIPP proof are, round by round, the inner products in the GIPA proof for pairing products, and the SIPP verifier pairs the two elements of the base of the GIPA proof.", "quantifier": "all pairing engines, vectors of length a power of two, coefficients, keys, hash functions and executions", "why_tests_cant": "The two provers are in different crates, use different generators of challenges, and no test compares them.", "anchors": ["sipp/src/lib.rs:42-106", "ip_proofs/src/gipa.rs:181-312"]}
