# Formal model of arkworks-rs/ripp in Lean 4

## 1. Shape of the model

The Rust code is generic over curves, pairings, hash functions and commitment schemes.
The model keeps that genericity: every theorem is about an arbitrary scalar field `F`,
arbitrary `F`-modules for the groups, an arbitrary digest function, arbitrary serializers,
an arbitrary thread count and an arbitrary rayon reduction tree.

* `Result` plus panics become `Res α = Except Fault α` (`Verif/Model/Basic.lean`). `Fault` has one
  constructor per Rust error value, one family for panics, and `diverge` for a challenge loop that
  has tried all 2^64 nonces (Rust: overflow panic in debug builds, endless loop in release builds).
* `&mut` loops become recursive functions/folds. The GIPA prover loop takes fuel (initially the
  vector length); exhausting the fuel is `diverge` and is proved unreachable.
* Affine and projective representations of one group element are identified
  (`normalize_batch` is the identity).
* Field inversion is `Option`-valued (`Field::inverse`), `unwrap` of `None` is a panic.
* Completeness theorems read "`open`/`prove` diverges, or returns a proof the verifier accepts". Each has
  a `_total` version without the first case, under the hypothesis that every challenge search ends; C99
  and C101 bound the share of oracles for which they do not.

### Files

| file | content |
|---|---|
| `Verif/Model/Basic.lean` | faults, slices, indexing, nonce search, byte encodings |
| `Verif/Model/Par.lean` | rayon reductions as arbitrary split trees, `par_chunks` |
| `Verif/Model/InnerProducts.lean` | `inner_products/src/lib.rs` |
| `Verif/Model/Commitments.lean` | `dh_commitments/src/**`, `SSMPlaceholderCommitment` |
| `Verif/Model/Gipa.lean`, `GipaInstances.lean` | `ip_proofs/src/gipa.rs` and its three instantiations |
| `Verif/Model/Poly.lean` | the part of ark-poly's `DensePolynomial` that is used |
| `Verif/Model/Tipa.lean` | `ip_proofs/src/tipa/mod.rs` |
| `Verif/Model/Ssm.lean` | `ip_proofs/src/tipa/structured_scalar_message.rs` |
| `Verif/Model/PolyCommit.lean`, `Transparent.lean` | `ip_proofs/src/applications/poly_commit/*` |
| `Verif/Model/Groth16.lean` | `ip_proofs/src/applications/groth16_aggregation.rs` |
| `Verif/Model/Serialize.lean` | the derived `CanonicalSerialize`/`CanonicalDeserialize` of the proof types |
| `Verif/Model/Batch.lean` | `batch_verify_proof` in `benches/benches/groth16_aggregation/bench.rs` |
| `Verif/Model/Bench.lean` | the programs in `benches/` and `sipp/examples/` |
| `Verif/Model/Tests.lean` | the unit tests of the crates and the benches of the inner product arguments |
| `Verif/Model/Sipp.lean` | `sipp/src/lib.rs`, `sipp/src/rng.rs` |
| `Verif/Model/Cost.lean` | the verifiers once more, counting scalar products, inversions, scalar multiplications, pairings and digests |
| `Verif/Spec.lean` | the small specification vocabulary used in theorem statements |
| `Verif/Toy.lean` | a concrete instance (`ZMod 101`, pairing = product) for the examples |
| `Verif/Lemmas/*.lean` | helper lemmas; `Extract`, `Fork`, `Oracle`, `Chain`, `Chain2`, `Rewind`, `Rewind2`, `Share`, `Tail`, `KeyPoly` carry the soundness proofs |
| `Verif/Props/*.lean` | the property theorems and their non-vacuity examples |

## 2. Properties

One line per property: how it is proved, and the finding if the code does not do what a caller expects.
"Violation" marks an expectation that the code does not meet; the theorem proves the negation for all
honest statements and the example gives a concrete witness. The exact theorem names are in
`MANIFEST.json`.

* **C01** Pairing inner product value, for every thread count and reduction schedule (proved). The chunked, tree-reduced `cfg_multi_pairing` equals the plain sum: induction over chunks and over the reduction tree, final exponentiation pushed through `Engine.Lawful`.
* **C02** Multiexponentiation and scalar inner product values (proved). Unfolding; the scalar case by induction over the reduction tree.
* **C03** Inner products fail exactly on a length mismatch (proved). Case split on the length test; the equal-length case cannot fail by C01/C02.
* **C04** Inner products are bilinear and split over concatenation (proved). Induction on the lists from the sum form.
* **C05** Pedersen and AFGHO commitments are doubly homomorphic (proved). Corollaries of C01-C04.
* **C06** Commitment verification accepts exactly the committed value (proved). `verify` recomputes and compares; decidable equality.
* **C07** Setup returns exactly the requested number of keys (proved). Induction on the size, threading the generator state.
* **C08** Binding reduction for Pedersen and AFGHO (proved). Linearity: the difference of two openings is a relation between the keys.
* **C09** Identity commitment: perfectly binding, key-independent, truncating addition (proved). Direct computation. The `zip` in `add` truncates: recorded as what the code does.
* **C10** Structured-message placeholder commitment carries no information (proved). Direct computation.
* **C11** GIPA completeness (proved). Abstract lawful tuple `Gipa.Lawful`; one folding round preserves `com + c L + c^-1 R`; induction over k for n = 2^k; three concrete instances.
* **C12** GIPA::prove only proves true statements (proved). Inversion of the guards in `prove`.
* **C13** GIPA::prove rejects bad input with the documented error (proved). Inversion of the guards in `prove`.
* **C14** GIPA prover never panics on well-formed input (proved). Same induction as C11, tracking faults; only `diverge` remains.
* **C15** GIPA proofs have exactly log2(n) rounds (proved). Induction over k.
* **C16** Prover and verifier derive the same challenges, all invertible (proved). Prover and verifier transcripts are two traversals of the same list; reversal lemma. Non-zero because the search rejects non-invertible values.
* **C17** Verifier's one-shot final keys equal the prover's folded keys (proved). `exps` (bit products) against repeated folding: induction over the transcript.
* **C18** GIPA::verify accepts exactly when three explicit equations hold (proved). Unfolding `verify` to three equations for arbitrary input.
* **C19** GIPA::verify rejects malformed key lengths with Err (proved). Inversion of the guards.
* **C20** A proof with a wrong number of rounds makes GIPA::verify panic (proved). Length of the exponent vector. Finding: `verify` panics instead of returning a verdict.
* **C21** GIPA challenges do not depend on the statement (proved). The transcript function has no statement argument; stated as equality of challenges.
* **C22** GIPA non-interactive soundness (violated) (proved). **Violation.** The forger runs the honest prover with one step commitment shifted. The statement is not hashed, so the matching false statement is computed after the challenges. The positive interactive statements are C67, C68.
* **C23** Round hash input determines nonce, previous challenge and step commitments (proved). Injectivity of the byte layout for injective, self-delimiting serializers.
* **C24** TIPA setup produces the structured reference string (proved). Induction on the number of powers, all three branches of `structured_generators_scalar_power`.
* **C25** Commitment keys and verifier key extracted from the SRS (proved). `step_by(2)` of the powers; computation.
* **C26** Key polynomial: coefficient form and product form agree (proved). Induction over the transcript, product form against coefficient form.
* **C27** Opening proofs of final commitment keys are complete (proved). Synthetic division; even-degree interleaving of the key polynomial.
* **C28** Key opening check decides one group equation (proved). Bilinearity of the two pairings.
* **C29** TIPA completeness, also with SRS shift (proved). C11 + C17 + C26 + C27; the shift enters through `r_shift`.
* **C30** TIPA panics on vectors of length one (proved). Computation. Finding: vectors of length one panic in TIPA.
* **C31** TIPA verdict equals GIPA verdict once the final keys are right (proved). Both verifiers unfolded; final keys equal by C17.
* **C32** structured_scalar_power returns the powers 1, s, ..., s^(num-1) (proved). Induction.
* **C33** GIPA with structured scalar message is complete (proved). C11 with the placeholder right commitment.
* **C34** TIPA with structured scalar message is complete (proved). C33 + C27.
* **C35** Final structured scalar (proved). Induction; product form of the folded powers.
* **C36** Structured-message verifiers: parts of the input are not bound (proved). The public scalar is absent from the transcript. Finding: the stored right base message is never checked, so proofs are malleable.
* **C37** KZG commitment scheme is complete (proved). Synthetic division.
* **C38** KZG: two accepted values at one point reveal the trapdoor inverse (proved). Two accepting equations subtracted.
* **C39** KZG rejects polynomials that do not fit the SRS (proved). Inversion of the degree assertion.
* **C40** Bivariate evaluation (proved). Induction on rows.
* **C41** Bivariate polynomial commitment is complete (proved). C34 + C37; the row combination commutes with commitment.
* **C42** Bivariate open panics unless x_degree+1 is a power of two and at least 2 (proved). Inversion of the prover's assertion / C30.
* **C43** Univariate degree split has enough room and a usable shape (proved). Integer model of `f64` rounding and `sqrt`; capacity is the least power of four; 2^52 is the first failure.
* **C44** Bivariate form preserves evaluation (proved). Induction on rows.
* **C45** Univariate polynomial commitment is complete (proved). C41 + C43 + C44.
* **C46** Oversized univariate polynomials are silently truncated (proved). **Violation** of the expectation that oversized polynomials are refused: `resize` truncates.
* **C47** Transparent bivariate and univariate polynomial commitments are complete (proved). Two stacked GIPA-SSM completeness arguments (C33).
* **C48** Polynomial commitment evaluation binding (violated) (proved). **Violation.** The forgery of C22 inside the second-tier argument. `C48_kzg_part_partial` is the part that holds: if the inner product argument is honest, a second value costs the trapdoor.
* **C49** Aggregation of valid Groth16 proofs is complete (proved). C29 + C34 and bilinearity of the batch equation.
* **C50** Batch equation soundness: few bad challenges (proved). Root counting for polynomials with module-valued coefficients.
* **C51** Aggregation panics on degenerate challenges and empty input (proved). Computation of each degenerate case.
* **C52** Aggregate proofs are not bound to their public inputs (violated expectation) (proved). **Violation.** The verdict factors through the column sums; solve for the remaining row.
* **C53** Extra public inputs in later rows are ignored (proved). Only the first row's length is checked. Finding: surplus inputs in later rows are ignored.
* **C54** SIPP pairing products for every thread count and schedule (proved). As C01, with coefficients.
* **C55** SIPP completeness (proved). Induction over k with SIPP's own folding convention.
* **C56** SIPP length-one boundary (proved). Computation. Finding: `prove` succeeds for length one and `verify` panics.
* **C57** SIPP verify decides one explicit equation (proved). Unfolding `verify` for arbitrary input of consistent shape.
* **C58** SIPP soundness against any prover strategy (proved). Counting challenge sequences round by round: at most two bad challenges per round.
* **C59** SIPP transcript binds the statement (proved). Injectivity of the absorbed bytes; the collision in `C59_transcript` is between strings that the two transcripts hash at the same position.
* **C60** FiatShamirRng: outputs after absorb depend only on seed history (proved). State machine of `FiatShamirRng`.
* **C61** SIPP verify: wrong proof length or mismatched vectors panic (proved). Computation of each mismatch.
* **C62** Inner-product commitments with trailing entries are accepted (proved). **Violation** of the expectation that the commitment has one entry: `zip` ignores the rest.
* **C63** TIPA and the structured-message arguments inherit the GIPA soundness violation (proved). **Violation** inherited from C22.
* **C64** Inputs on which aggregation fails (proved). Inversion of the guards / C30.
* **C65** The number of aggregated proofs is not bound to the number of input rows (proved). **Violation** of the expectation that rows and proofs correspond one to one.
* **C66** Pairing products of vectors of different lengths (proved). Finding: with vectors of different lengths the result depends on the number of threads.
* **C67** GIPA extractor: accepting transcripts yield an opening or a collision (proved). Trees of accepted transcripts, 3 challenges per node with distinct squares; the extractor is an explicit function; induction on the depth.
* **C68** Knowledge error of the interactive GIPA verifier (proved). Counting: a strategy accepted too often has a full tree in every node (heavy-row argument, exact).
* **C69** Exact derivation of the challenges (proved). The challenges as an explicit function of the transcript bytes: first nonce whose digest gives an invertible value.
* **C70** Final-key opening is sound for algebraic provers (proved). Algebraic provers: key polynomial minus claimed polynomial has few roots; counting over trapdoors and points.
* **C71** Extraction from the structured-scalar-message argument (proved). As C67/C68 for the structured-scalar argument.
* **C72** Fiat-Shamir SIPP is sound in the random oracle model (proved). Random-oracle counting layer (`Lemmas/Oracle.lean`): all oracles over a finite challenge set, a prover with q queries.
* **C73** Provers on vectors of different lengths (proved). Case analysis of every slice and `zip` in the prover loop. Finding: `C73_sipp_missing_coefficient`.
* **C74** Groth16 aggregation over the reference string of setup_inner_product (proved). C24, C49, C64 composed.
* **C75** Knowledge soundness of Groth16 proof aggregation (proved). C67 + C71 + C50, counting over the batch challenge as first round.
* **C76** Exactly which degrees get too small a capacity (proved). Exact analysis of the rounding (`sqrt_le_iff`): finitely many binades by `interval_cases`, each by linear arithmetic. Finding: the exceptional degrees.
* **C77** Polynomials too large for the reference string (proved). Inversion of the assertions; `mapM` fails with the first failing row. Finding: `open` truncates rows silently.
* **C78** What the polynomial commitment verifiers check (proved). Case analysis of the two results combined with the verdict theorems C33 and C38.
* **C79** Evaluation binding of the interactive schemes (proved). C71 extraction for both arguments; the messages are compared. Counting: a product set with too many accepted pairs has too many accepted first components and a first component with too many accepted second ones, so the forking lemma gives a tree for each. The challenges are not the hash values of the code; for those C48 shows the opposite.
* **C80** Knowledge soundness of the transparent polynomial commitment (proved). Lagrange interpolation of the extracted combined rows; the weights are coefficients of the Lagrange basis (Mathlib), so the interpolated rows commit to the extracted row commitments.
* **C81** KZG against algebraic provers (proved). The verification equation makes the trapdoor a root of the non-zero polynomial `p - v - (X - z) w`.
* **C82** The univariate degree bound is not enforced (proved). `bivariate_degrees` depends on the bound only through the exponent of the next power of four (`sqrtPow2_eq`); the completeness theorems C45, C47 for the bound `4^(i+1) - 1` then apply. Violates what the parameter's name `degree` promises: a finding.
* **C83** Algebraic knowledge soundness of the polynomial commitment with a reference string (proved). The extractor of C71 forms linear combinations, so it commutes with the map from coefficients to group elements. The KZG equation and the equation for the combined row become polynomial identities in `(alpha, beta)` as in C70. Simplification: the challenges are those of a tree of accepted runs as in C79; the final keys of the inner product argument are taken as computed (C68, C70 treat them).
* **C84** GIPA is sound in the random oracle model for statements fixed in advance (proved). Counting layer for hash chains with a fixed start (`Lemmas/Chain.lean`): each challenge enters the next hash input, so a chain is a path of queries, and the steps of a round are known at the first query for it. One round turns a false statement into a true one for at most three non-zero challenges (four would give an opening by interpolation). The invariant is stated for the coefficient vectors the prover knows, where the commitments are trivially binding; a base message that does not agree with them is a collision for the real keys. An oracle where some first attempt of the chain gives the non-invertible value 0 is counted as a success of the prover, so retries need no separate treatment. Simplification: the prover is algebraic, i.e. it must know openings of what it hashes; oracle inputs range over a finite set that contains all first attempts. The inner-product commitments of the steps range over the image of a map τ given as a parameter (for the identity commitment of the code: lists of one element), so that the set of oracle inputs can be finite; in an earlier version it had to contain the inputs of all commitments, which is impossible for the identity commitment, whose values include lists of every length. The example is the code's instance with the identity commitment.
* **C85** Proof serialization: round trip, unique encoding, exact size (proved). `Model/Serialize.lean` models the derived code of ark-serialize 0.4 as combinators over codecs of the components (fields in order, tuples flattened, `Vec` with a 64-bit length). Induction over the vectors. Simplification: a reader error and a validation error are not distinguished; the codecs of field and group elements are parameters that are assumed faithful (ark-ff/ark-ec reject non-canonical encodings).
* **C86** The TIPA verifier does not bind the length of the vectors (proved). C25 gives the keys of both reference strings; zero entries contribute nothing to the three sums; C29 applied twice.
* **C87** GIPA with structured messages is sound in the random oracle model for statements fixed in advance (proved). As C84, with the counting layer of `Lemmas/Chain.lean`. The right message is public and folds along with the key, so a round turns a false statement into a true one for at most two non-zero challenges: three would give an opening (`SsmExtract.dot_merge`). That the scalar the verifier computes is the folded message comes from C71. Same simplifications as C84. The inner-product commitments of the steps range over the image of a map τ, as in C84.
* **C88** Batch verifier: verdict and completeness (proved). `Model/Batch.lean`. The two Miller loops are multiplied before the final exponentiation, so `Engine.Lawful` turns the result into one sum in the target group. `prepare_verifying_key` (ark-groth16) is modelled as negating gamma and delta.
* **C89** Batch verifier accepts invalid proofs (violated) (proved). VIOLATION, proved as negation with witness: add r1 D to the first C and subtract r0 D from the second. The concrete example has two invalid proofs.
* **C90** Batch verifier with random coefficients is sound (proved). The coefficient of the invalid proof is determined by the others. Contrast to C89: the equation is fine, the fixed seed is not.
* **C91** Batch verifier on lists of different lengths (proved). zip stops at the shorter list; the list of coefficients has the length of the list of proofs. Unlike ark-groth16's own verifier there is no check of the number of inputs.
* **C92** TIPA is sound in the random oracle model for fixed statements and algebraic provers (proved). Union of C84 for GIPA with the whole keys, and of a second count with `Lemmas/Chain.lean` for a chain with one more link: after the k rounds the final keys are hashed with the last challenge, and the label of that query is what the prover knows about the keys. The state records the challenges, so at that query the true key polynomial is determined, and at most 2(2n-2) points agree with a wrong one (C70). Outside both events `C70_tipa` applies. Simplifications as for C84; in addition it is a hypothesis that the hash inputs of rounds and of the KZG challenge differ (in the code they have different lengths), and attempts with a non-zero nonce are covered only for the KZG challenge. The number N of attempts enters by a union bound. The inner-product commitments of the steps range over the image of a map τ, as in C84.
* **C93** TIPA with structured scalar message is sound in the random oracle model for fixed statements and algebraic provers (proved). As C92: `SsmStatic.count_runs` (the count behind C87, for any set of oracles for which the proof is an accepting run with the whole key) together with a second count for the query of the final key, joined by `C71_tipa_run`. Only one key is opened, hence 2n-2 points instead of 2(2n-2). The reference string only has to be right in the part that is used (`IsLeftSrs`), so the one of the polynomial commitments is covered. Simplifications as for C92. The inner-product commitments of the steps range over the image of a map τ, as in C84.
* **C94** Command lines of the benches and the SIPP example (violated) (proved). VIOLATION, proved with witness `10 8 true true false` (line 222 reads index 4 instead of 5): `C94_monolithic` for all command lines, `C94_violated` for this one. Case analysis of the argument list; `usize::from_str` is a parameter.
* **C95** The SIPP example runs through (proved). Induction over iterations and sizes on top of C54, C55 and C56, which now allow surplus coefficients. `numIters` leaves out 6 (`5..` / `7..` in the match).
* **C96** Public inputs of the bench circuits (proved). Round trip of little-endian chunks (`unpack`, `readBytes_pack`, `chunks_flatMap`) for all lengths; the bit sizes 253 and 377 only enter in the sizes. The inner verifier gadget and Blake2s are parameters.
* **C97** The polynomial commitment bench (proved). Powers of four are never short degrees, then C37 and C76 (both schemes).
* **C98** The aggregation bench (proved). C88, C74 and C64, with the challenge of the batch assumed to be neither 0 nor 1 (C51 covers these).
* **C99** SIPP completeness in the random oracle model (proved). `Verif/Props/SippComplete.lean`. The number of oracles is counted exactly (`Oracle.count_hit` in `Lemmas/Honest.lean`: among N adaptive queries one hits a set B of digests for at most N |B| / |D| of the oracles). The honest prover's queries are computed from the answers so far (`honestQuery`), and `proveLoop` is shown to end whenever none of the answers draws zero. Nothing is asked of the encodings, repeated queries are allowed. Example: four pairs in the toy field, bound 3/101; and an oracle with which the prover does panic.
* **C100** Empty keys of the univariate commitments panic (proved). `Univariate.C100_empty_key`, `TUnivariate.C100_empty_key`, `TUnivariate.C100_empty_key_verify`: the degrees are read from the key as `len - 1`. Added after an automatic mutant (`∨` to `∧` in the transparent `parseDegrees`) survived.
* **C101** Completeness of GIPA, TIPA, the polynomial commitments and the aggregation in the random oracle model (proved). `Verif/Props/OracleComplete.lean`, shares counted in `Verif/Lemmas/Share.lean` as rational numbers. `searchOracle` is the hash function made from H. If before no string all N answers are bad, the searches end (`searchEnds_of_oracle`, `kzgEnds_of_oracle`, `challenge_of_oracle`), and the totality theorems C11, C29, C34, C45, C47, C49 apply to every statement. The union bound over the strings gives |Ps|; N is free, so the bound is small although Ps is large. The challenge r of the aggregation is the first answer that decodes (`challenge_first`), and `share_first` bounds the share of the sequences whose first decoding answer is bad. Example: the aggregation of four toy proofs with ten nonces fails for less than 3/100 of the functions.
* **C102** Value of a univariate commitment for every key (proved). `Verif/Props/CommitValue.lean`: `bivariateForm_rows` gives the rows explicitly, `kzgCommit_row` the commitment to a trimmed row. Added after an automatic mutant (`(len - 1) / 2` to `(len - 0) / 2` in `parseDegrees`) survived, because all other claims used keys of odd length. Examples: a key of even length, with one coefficient dropped.
* **C103** Soundness of the transparent polynomial commitments for fixed statements in the random oracle model (proved). An opening consists of two GIPA arguments with structured messages, linked by a commitment to the combined row that is part of the proof and is not hashed, so neither argument has a fixed statement and C87 does not apply. Both chains of challenges are followed at once: a pair of statements is doomed if no combined row makes both true, and at most 3m digests per pending pair repair it (`opens_of_three`: three challenges and three combined rows give one combined row for the statement before). A query may extend either chain, also both; `Lemmas/Chain2.lean` counts the pairs (`count_static2`). The bound is therefore quadratic in N. `C103_binding`: with injective keys no collision exists; `C103_univariate`: for the commitment computed by `TUnivariate.commit` (through C102) and p(z). Simplifications: as for C87 (queries with nonce 0 only, Xs and Ds finite). The commitments to inner products of the rounds have one entry here; C111 and C116, which assume less about the prover, also cover further entries.
* **C104** Set-ups use fresh randomness (proved). Verif/Props/SetupDraws.lean. The state after n draws (`after`), the n-th draw (`nth`) and the list of the first n draws are defined there by recursion; the theorems give the exact result of each set-up in these terms, and the final state. `C104_tape` specialises to a generator that reads a tape: all key elements are different tape entries. Examples in the toy instance.
* **C105** The unit tests pass for every seed and size (proved). Verif/Model/Tests.lean transcribes the test functions: order of the draws, `unwrap`, `is_err`, assertions. Verif/Props/Tests.lean runs the set-up (exact draws from C104), then the completeness theorems C11, C29, C33, C34, C41, C45, C47, C55 on the drawn messages. `C105_commitments` and `C105_shift` are exact in both directions. Toy examples: the Pedersen test, and the GIPA test for every size and seed.
* **C106** The benches run through, and do not look at the verdict (proved). Verif/Model/Tests.lean transcribes the bench functions and the three `main`s (timing and printing left out; the generator is passed from one bench to the next). Verif/Props/TestBenches.lean: `C106_inner_products`, `C106_gipa`, `C106_tipa`, `C106_shift`, `C106_ssm`, `C106_tipa_main`. `C106_verdict_ignored` uses an instance with a constant, hence not bilinear, inner product: the test panics, the bench ends normally. Toy example: seed 95 and size 2 draw the shift 101 = 0 and panic.
* **C107** Soundness of the polynomial commitments with a reference string for fixed statements in the random oracle model (proved). The verifier runs TIPA with the powers of x on the row commitments, with the combined row (`y_eval_comm`) as committed inner product, and the KZG check for the combined row. The combined row is part of the proof, so C93 does not apply: its statement is not fixed. But with the row known as a polynomial, the KZG equation forces its value at y to be the claimed one unless the trapdoors are a zero of an explicit polynomial (`kzg_equation`, `C70_zero_polynomial`); hence every statement of the chain has a fixed value at y, and the chain is followed with values at y in the place of the inner-product commitments (`count_value`; the linear map `valueAt y` is applied to what the prover knows). The opening point is counted by C93's second count (`TipaSsmStatic.count_split`, `accepted_run`, which C93 now uses too); for this the verifier is rewritten with rows in the place of row commitments (`verify_rowSsm`). Elements of G1 are known as combinations of the powers of α and of β g, so the prover may use all of the reference string. `C107_univariate` is for the commitment computed by `Univariate.commit` (through C102) and p(z). Unlike C103 the bound has no second chain. Simplifications: as for C93. The commitments to inner products of the rounds have one entry here; C111 and C116, which assume less about the prover, also cover further entries.
* **C108** Soundness of the aggregation of Groth16 proofs for fixed commitments and inputs in the random oracle model (proved). With r fixed, the verifier runs two arguments whose committed values `ip_ab` and `agg_c` are chosen by the prover and not hashed, so neither C92 nor C93 applies. The pairing product equation says `ip_ab = T + e(agg_c, delta)` with T fixed by the inputs. Both chains are followed together (`Oracle.count_static2`), with the pair of statements "there is a y such that the first holds with T + e(y, delta) and the second with y" as the state; one round of either keeps a false pair false but for four challenges (`opens_of_four`, `escape_le`). `count_runs` is the count for two accepting runs; `count_fixed` adds the final keys of both arguments (`TipaStatic.count_split`, `accepted_gipa`, and those of `TipaSsmStatic`), `count_draws` and `count_pairs` the at most n - 1 values of r for which the equation holds for the true sums (C50). C52 shows that the inputs have to be fixed before the oracle. The hash inputs for r are answered by `u`, all others by `H`; the digest is any function that agrees with both. If a hash input for r were also one of the arguments, the theorem would only speak about pairs (u, H) that agree on it; in the example the lengths differ. Simplifications: as for C92 and C93; the prover is given the answers for r first, and the commitments are those that are hashed for it. The vectors that commit to the inner products of the rounds range over a `Shape` (Lemmas/Shape): one entry as made by the prover, or up to any bound (`Shape.upTo`); C135 shows that this covers all accepted proofs up to the bound.
* **C109** Knowledge soundness of GIPA in the random oracle model for fixed statements (proved). `Oracle.full_of_many` (Lemmas/Rewind): if the chains that an adversary outputs contain no full 4-ary tree, then neither does the subtree below what it has hashed so far, unless an answer is one of four (`escape_full`); the count of C84 (`Oracle.count_static`) bounds the share of the oracles where this happens. `tree_of_full` turns the full tree into a tree of accepting runs (`C67_verify_iff`), to which C67 applies. Compared with C84 the prover need not know openings of what it hashes. The tree consists of outputs of the prover for different oracles; how to find these oracles in little time (rewinding) is not modelled. Simplifications: the hash inputs of first attempts are members of a finite set; oracles for which the first attempt of a round gives the challenge zero are counted as if the proof were accepted. The example shows an honest prover above the bound, and a false statement below it.
* **C110** Knowledge soundness of the structured-message argument in the random oracle model for fixed statements (proved). As C109: `Oracle.full_of_many` with three keys per node, `tree_of_full`, and `C71_gipa_run`, `C71_extract`. Compared with C87 the prover need not know openings and collisions play no role. The second component of the round commitments (a placeholder in the code) is part of what is hashed and dropped from the tree. Simplifications: as for C109. The example shows an honest prover above the bound, and a false statement below it.
* **C111** Knowledge soundness of the transparent polynomial commitments in the random oracle model for fixed statements (proved). `Oracle.tree2_of_many` (Lemmas/Rewind2) counts the oracles for which the two hash chains of the prover's output can be rewound together: a node of the tree belongs to one hash input and three of its answers, and the input may be a round of the first argument, of the second, or of neither. `extract2` goes from the leaves to the root. At a node it merges the openings of the argument the round belongs to; for the other argument it takes the linear combination of the three openings with the same weights, and the same for the unhashed commitment to the combined row, so that both statements hold for one and the same combination (`mergeIf_opens`, `extract2_opens`). The corollaries combine this with what C79 and C80 prove about such openings. Compared with C103 the prover need not know openings, and the collision is computed from its proofs. Simplifications: as for C109. The examples show an honest prover above the bound, from which the coefficients are extracted, and a false value below it. The vectors that commit to the inner products of the rounds range over a `Shape` (Lemmas/Shape): one entry as made by the prover, or up to any bound (`Shape.upTo`); C135 shows that this covers all accepted proofs up to the bound.
* **C112** Who knows the trapdoor of a reference string can prove everything (proved). The opening is (alpha - z)^-1 times the commitment less value times g (`C112_kzg`), in the same way for final keys (`C112_key_G1`, `C112_key_G2`). For TIPA the prover sends zeros in every round, so the folded commitments are the given ones whatever the challenges are (`foldMany_idle`), and chooses final keys that fit. Uses the exact verdicts C31 and C38. This is expected of such schemes; the property records that the exclusion of the trapdoor in the other theorems is necessary, and that the set-up functions must not be run by a prover.
* **C113** The verifiers do the claimed amount of work; GIPA's verifier does exponential work on short malicious proofs (proved). The verifiers are written a second time in a monad that counts operations (`Verif/Model/Cost.lean`); the `_value` theorems show that forgetting the counts gives the verifiers of the other properties, so the counted and the uncounted model cannot differ in outcome. The counts are bounded part by part (`Counted.Costs`). Digests and inversions depend on the number of nonces tried and are stated for the case that the first one succeeds. Violation: the work of GIPA's verifier is not bounded by the size of its input (`C113_gipa_early`, `C113_gipa_attack`; 30 rounds, a few kilobytes, cost 2^31 - 2 products and 2^31 stored field elements).
* **C114** Knowledge soundness of TIPA in the random oracle model for fixed statements (proved). `Oracle.count_tail` (Lemmas/Tail) bounds the share of the oracles for which the opening point is bad for what was known about the final keys when they were first hashed. For the other oracles the final keys are the folded ones (C70), so GIPA with the whole keys accepts (`AnyProver.accepted_gipa`), and C109 gives the tree. Compared with C92 the prover need not know openings of the commitments it hashes. Since keys of a reference string never bind for every vector, the alternative of a collision remains. Simplifications as in C92 and C109. The example shows an honest prover with two queries, accepted for 100 in 101 oracles, above the bound of 60 in 101.
* **C115** Knowledge soundness of TIPA with structured messages in the random oracle model for fixed statements (proved). As C114: `Oracle.count_tail` for the opening point, `AnyProver.accepted_run` (C71), and `SsmStatic.tree_of_runs`, from which C110 follows as well. Simplifications as in C93 and C110. The examples show an honest prover above the bound, and a statement without an opening (51 committed under the key (1, 25), value 52 at 25).
* **C116** Knowledge soundness of the polynomial commitments with a reference string in the random oracle model (proved). The combined row is not hashed, so it may differ between the proofs of one tree. `extractBy` combines it with weights of sum 1 while the rows are merged (`extractBy_opens`, from `PolyStatic.mergeIf_opens`), so its value at y is kept. `TipaSsmStatic.count_not_fine` and `AnyProver.accepted_run` turn accepted proofs into runs; the KZG equation gives the value of the combined row (C70, C78). Simplifications as in C107 and C115. The example shows an honest prover above the bound. The vectors that commit to the inner products of the rounds range over a `Shape` (Lemmas/Shape): one entry as made by the prover, or up to any bound (`Shape.upTo`); C135 shows that this covers all accepted proofs up to the bound.
* **C117** Knowledge soundness of the aggregation of Groth16 proofs in the random oracle model (proved). The aggregated value of the C is not hashed before the rounds, so it may differ between the branches of one tree, and with it the claimed inner product of the A and B. `extract4` runs both extractors over one tree of pairs of runs (`Oracle.tree2_of_many`) and keeps the weighted combination of these values with weights of sum 1 (`constant_term`, `extract4_opens`). `TipaStatic.count_not_fine` and `TipaSsmStatic.count_not_fine` turn accepted proofs into runs (`run_opens`, `tree_fixed`); counting over the first digests (`count_pairs`, `count_draws`) gives n challenges with a tree each. `settle` of C75 compares the outcomes. Simplifications as in C108. The example is an honest prover for two proofs over the field with 997 elements, accepted for at least 993 of 997 oracles; the bound is 457. The vectors that commit to the inner products of the rounds range over a `Shape` (Lemmas/Shape): one entry as made by the prover, or up to any bound (`Shape.upTo`); C135 shows that this covers all accepted proofs up to the bound.
* **C118** The structured commitment keys are binding for algebraic adversaries (proved). Commitments are rewritten with C25 (the keys) and bilinearity as the value of `relation` times e(g, h). The even powers of the key and the factor Y of the other trapdoor's element separate the coefficients (`coeff_even`, `coeff_odd`, `relation_injective`). `card_zeros_le` counts zeros of polynomials in two variables. The theorem is about algebraic adversaries in one source group only; it does not model adversaries that find group elements without knowing coefficients.
* **C119** Accepted SIPP proofs are exactly the proofs of the honest prover in the random oracle model (proved). The chain of C72 gets a flag: the prover has left the honest run if the folded statement was false, the pair was not the pair of cross products, or the challenge was zero. The invariant is that a flagged statement is false (`caught`). A wrong pair leaves it for at most two non-zero challenges (`card_swap`), zero is the third, so the bound is that of C72 (`caught_le`). An unflagged chain is the loop of `SIPP::prove` (`run_flagged`). Simplifications as in C72.
* **C120** The provers do a linear amount of work (proved). Every prover is written a second time in the counting monad of C113 (`Verif/Model/ProverCost.lean`); the `_value` theorems show that without the counts it is the prover of the model. The lengths of the vectors are followed through the rounds (`sized_proveRoundC`), and the sums over the rounds are geometric (`proverWork_succ`). The quotient of a key opening has the full length because subtracting a constant keeps the leading coefficient (`length_polySub_const`). Simplifications: a division by a linear polynomial with `n` coefficients is counted as `n` products, inversions inside `normalize_batch` are not counted, and the number of products for opening a bivariate polynomial is an upper bound only, because the last division depends on the degree.
* **C121** Every outcome of the verifiers (proved). `Outcome m c x` says that a call returns a value if c and panics if not. `Outcome.bind` composes such statements along the code, so the conditions are read off the definitions; the exact verdicts C18, C57, C88 and the panics C19, C20, C43, C51, C53, C61, C76, C91 supply the parts. Finding: apart from the length check of GIPA no verifier answers a malformed proof with an error value or `false`; whoever can send a proof can make the verifier panic.
* **C122** Polynomial commitments and KZG openings are linear, KZG openings unique (proved). `Props/Linear.lean`. The successful runs of `commit` and `open` are characterised for arbitrary keys (`Kzg.commit_ok_iff`, `open_ok_iff`, `Bivariate.commit_ok_iff`, `TBivariate.commit_ok_iff`); the value is a sum over the coefficients with default 0, so `Combines` is all that matters. Division by `X - z` is linear because its coefficient `i` is the value at `z` of the polynomial shifted by `i + 1`. The univariate schemes use C102.
* **C123** Which parts of an accepted proof are determined by the rest (malleability) (proved). `Props/Malleable.lean`. Acceptance is unfolded into its equations (`Tipa.accepted_equations`, `TipaSsm.accepted_equations`, C18, C33, C78). Each remaining component occurs in one equation multiplied by something injective: a base message paired with a final key, an opening multiplied by `β - c`, the claimed inner product added to terms of the rounds (`foldMany_target`, which also handles the truncating addition of the identity commitment). The free field is shown by `C123_bivariate_free` and `C123_aggregate_free`.
* **C124** No result depends on the number of threads or the schedule, except of SIPP's prover with too few coefficients (proved). `Props/Schedule.lean`. Reductions of monoids do not depend on the splitting tree (`parReduce_eq`), so the inner products, hence the six GIPA instances, are equal as functions (`C124_instances`); the users are then equal by congruence. SIPP's prover checks no lengths inside its pairing product, so there an induction keeps the vectors equally long. `C124_one_thread` and `C124_two_threads` are the exception, from C66.
* **C125** Accepted GIPA proofs are those of the honest prover, in the random oracle model (proved). `Props/GipaUnique.lean`, on the counting argument of C84 with a flag in the state that is set when a round differs from the honest one. If four challenges lead from a true statement to a true one, the step commitments are the honest cross terms (`cross_of_four`), so a set flag means a false statement for all but four challenges. At the end an accepted run is unflagged; `proveLoop_honest` runs the prover's loop along it. Examples: a bound of 14/101 for a prover with one query, and the honest proof next to a rejected change of it.
* **C126** Accepted TIPA proofs are those of the honest prover, in the random oracle model (proved). `Props/TipaUnique.lean`. The GIPA part is the honest one by C125 and the final keys are the folded ones by the count of C92 (`accepted_keys`). `honest_of_gipa`: then `TIPA::prove_with_srs_shift` returns, and both its proof and the accepted one satisfy the two opening equations, which determine the openings unless the opening point is a trapdoor. Examples: a bound of 38/101 for a prover with one query; a hash function whose opening point is a trapdoor, with a second accepted proof.
* **C127** Every outcome of the provers (proved). `Props/ProverOutcome.lean`. `Ends m o x`: the call returns for `o = none`, ends with the fault `f` for `o = some f`, and may run out of nonces if `m`; it composes over `bind`. `Checks` says how the commitments and the inner product react to different lengths. `C127_gipa`: the first round fails at the first unequal pair in program order, and equal lengths stay equal. `proveKeyOpening_ends`: the key polynomial has exactly `2n-1` coefficients. The outcome functions (`proveFault`, `openFault`, `aggregateFault`) are closed formulas in the lengths, not the program. The SIPP prover is not included: with too few coefficients its outcome depends on the number of threads (C73, C124). Examples: six aggregations with different outcomes; a univariate opening succeeds exactly for four row commitments.
* **C128** The field elements for the uncommitted message of a TIPAWithSSM proof are free (proved). `Props/SsmFree.lean`. `taggedRun` is a prover that puts chosen elements into the steps and takes its challenges from the resulting hashes; `taggedRun_ok`: it ends for all elements, and its steps fold the commitment to the message and the inner product to those of the folded single elements (induction over the rounds with `dot_fold`). `proveTagged` is the prover on top of it; `C128_accepted`: its proof is accepted (formula for the verifier's verdict), and `C128_free` follows. `C128_tagged`: with the honest elements it returns the honest proof. `C128_zero`: with zeros `taggedRun` is the run of `GIPA::prove_with_aux`. `C128_family`, `C128_bivariate`, `C128_aggregate` follow. Examples: 101^3 accepted openings of one statement with the constant digest; with a digest that depends on its input, two accepted openings with different elements, challenges, final keys and openings.
* **C129** Accepted GIPAWithSSM proofs are those of the honest prover, in the random oracle model (proved). `Props/SsmUnique.lean`. Each round folds a formal state: an opening, the public powers and a value. `cross_of_four`: if a folded state is consistent for four challenges, the step consists of the cross terms; so a wrong step is caught by all but three, and a wrong value by all but two (`caught_le`). `count_unique`: except for the stated share, an accepted run is a run of `taggedRun` (C128) on the opening, for any invariant of the placeholders that a round violates for few challenges. The verifier folds the placeholders to the sum x·z1 + x⁻¹·z2 and compares it with 0; `nextTag_le`: if a placeholder is not zero this sum is zero for at most two challenges of a round. With zeros `taggedRun` is the honest run (C128_zero). `C129_binding` is the form for a binding key. Example: a bound of 18/101 for a prover with one query; the honest proof is accepted, the same with another step value or with a placeholder 1 is not.
* **C130** Accepted TIPAWithSSM proofs are determined by their free elements, in the random oracle model (proved). `Props/TipaSsmUnique.lean`. The rounds are those of `taggedRun` by `count_unique` of C129 (without an invariant of the placeholders), and the final key is the folded one by the count of C93 (`accepted_data`). `tagged_of_run`: then `proveTagged` (C128) returns, and its opening and the accepted one satisfy the same equation, which determines the opening unless the opening point is the trapdoor. `C130_honest`: with zeros and the honest base element it is the proof of `prove_with_structured_scalar_message`. Example: a bound of 32/101 for a prover with one query.
* **C131** The combined row commitment in a polynomial opening is malleable (proved). `Props/OpenMalleable.lean`. `GipaSsm.forgery_shift` (the attack behind C48) yields an accepted argument for the commitment with the combined row shifted by a multiple of any element, and the second part of the opening (KZG, or the second GIPA) is produced honestly for the shifted row, whose value at the point is the same because `q` vanishes there. Example: two accepted openings of one value of a polynomial with four rows.
* **C132** Accepted aggregate proofs are determined by the committed proofs and the free elements (proved). `Props/AggUnique.lean`. Neither aggregated value is hashed, so the two arguments are followed together as in C108, but with a flag in the state of each that a round was not honest (`nextAB`, `nextC`). A flagged pair that opens to the values left by the pairing product equation survives a new challenge for one of the arguments in at most four cases: from four challenges with openings the unknown value is eliminated because the other argument stays fixed, `e(·, δ)` is injective, and the cross terms follow by interpolation (`caught_le`). `Oracle.count_static2` turns this into the count; at the end the honest rounds give `proveLoop` and `taggedRun`, and C126 / C130's `honest_of_gipa` and `tagged_of_run` the whole proofs. The arguments must not share hash inputs (their lengths differ in the code). Examples: two proofs over the field with 101 elements; with `δ = 0` a second accepted aggregate with another `agg_c`, so the condition on `δ` is needed. The commitments to inner products of the rounds have one entry; with further entries accepted proofs are not unique (C135).
* **C133** Who knows the trapdoor of a reference string can aggregate proofs for any inputs (proved). `Props/TrapdoorAgg.lean`. `fakeProofs`: the first two proofs carry the right-hand side of the pairing product equation, the next two correct the commitments, the C sum to zero. The commitments do not depend on the challenge (`fakeProofs_comA/B/C`), the batch equation holds for it (`fakeProofs_batch`), so C49's `complete_of_batch_total` applies. The forger knows nothing about the verifying key. `C133_tipa_ssm`: the same for structured messages, with C34. Like C112 this is expected of a scheme with a trusted set-up; it shows that the exclusion of the trapdoor in C75, C108 and C117 is necessary, and that the aggregator must not run `setup_inner_product`. Example: four invalid proofs with the commitments of four valid ones.
* **C134** The hash inputs of the aggregation are told apart by their lengths only (proved). `Props/Domain.lean`. `Query` lists everything that is hashed, `length_bytes` gives the length of each input; the lengths are different for all numbers of entries (`C134_bls`, `C134_bw6`, by arithmetic modulo the size of an element). Equal kinds are decoded from the front (C23, `Decodable`). `C134_hypotheses` are the separation hypotheses of C92, C93, C107, C108, C114 to C117, C126, C130 and C132, so they hold for the curves in the repository. Examples: an instance with the sizes of BLS12-381; one with one byte for everything, where the input for a KZG point is an input for the challenge of the linear combination; lengths that coincide in the transparent scheme for 36 entries; an opening made from an aggregate.
* **C135** Entries of the commitments to inner products in accepted proofs (proved). `Props/Entries.lean`. The sum of two vectors is cut to the shorter one, so the folded vector is empty if one of the vectors is (`Shape.accum_vals_ne_nil`), while the base case compares with a vector of one entry; and it does not change if all vectors are cut to one entry (`accum_first`). `C135_shape` writes a proof without empty vectors with `Shape.upTo`. Examples: an aggregate accepted with further entries under a constant digest, rejected with an empty vector.
* **C136** How likely each challenge is, and the soundness bounds in numbers (proved). `Props/Level.lean`. The digests with a given prefix or given low bits are counted with the bijection between strings of L bytes and numbers below 256^L. This gives the constants m = 2^(8L-128) and m' = 2^(8L-b) of the random oracle theorems. `C136_aggregate` is C117 with these constants, the separation of hash inputs from C134, the shapes of C135, and the finite set of all short strings as the domain of the oracle, without the inputs that the first oracle answers. `arkRandom` is ark-ff's `from_random_bytes` (assumption in section 4). Examples: a field with 2^521 - 1 elements (a Mersenne prime), for which everything but the assumptions on the prover is shown.
* **C137** Trying hash inputs until the challenge fits: a lower bound for soundness (proved). `Props/Grind.lean`. Attempt i hashes the honest step commitments with the inner product of the first shifted by (i+1)s; the proof passes for statement j exactly if the first 16 bytes of the digest are (i+1)j (`shift_fold`, also used for C22). The attempts are different hash inputs, so the functions that avoid all fitting digests are counted by a product (`card_avoid`); Bernoulli's inequality gives the linear form. `grinder` is a prover in the sense of C84, `C137_false` says that the statements are false in the sense of C84. Example: 2^40 queries make the verifier accept 10 instead of 11 for at least one in 2^89 oracles.
* **C138** Choosing among finitely many statements after the hash answers (proved). `Props/Choice.lean`: union bound over C136. The extraction tree is rewound only for oracles with which the prover succeeds for the chosen index. Examples over the field with 2^521 - 1 elements: 2^20 false values of an inner product, and up to 2^20 values of the first input of two proofs.
* **C139** The example and bench programs as a whole (proved). `Props/Programs.lean` over the programs in `Model/Bench.lean`. Completeness of Groth16 is a hypothesis: keys of a circuit of the same shape prove every satisfied circuit, with a proof that satisfies the Groth16 equation for the circuit's public input. That the public inputs the verifier computes are those of the circuits is C96; aggregation is C74 and C98; the schemes are C97. Examples: a simulator as the prover on the toy curve, with each program run in the kernel.
* **C140** Release builds, where arithmetic wraps around (proved). `Model/Release.lean` repeats every function of the model that can report an overflow, with wrapping operations (shown equal to those of 64-bit words); `Props/Release.lean` compares. That the words are wide enough for the split of every degree below 2^64 - 1 follows from bounds on the rounded square root. Examples: an empty half of the key on the toy curve, and the numbers in the kernel.
* **C141** What a test or program that ends has checked (proved). `Props/Success.lean` follows the binds of the models of the tests and programs (`Model/Tests.lean`, `Model/Bench.lean`) backwards from a result `ok`. This is the converse of C105 and C139, and separates these programs from the benches of C106, which discard the verdict. Examples: a commitment scheme that accepts everything fails the test, a trial with a rejecting verifier panics, and the aggregation example on the toy curve. The one-statement-per-size claim (`C141_scaling_program`) is the only one that uses a lawful engine.
* **C142** No verifier checks its reference string (proved). `Props/Degenerate.lean`. With zeros both sides of every key check and of the KZG check vanish, so only the base equations are left (C31, C34); rounds in which zeros are sent leave the statement as it is (`Gipa.idle_rounds`), as in C112, but no trapdoor and no condition on the challenge is needed. In the polynomial opening the row commitment is the prover's choice, which absorbs the scalar; in the aggregate the final keys are zero, so the base messages are free after the challenge. Examples on the toy curve.
* **C143** The bounds in numbers for TIPA, the polynomial commitments and SIPP (proved). `Props/LevelRest.lean`. C111, C114, C116 and C119 bound the oracles by the number of digests per challenge; C136 counts these digests (256^(L-16) for a round challenge, 2^(8L-bits) for a point), and the encodings of C134 give that every hash input is askable and that rounds and points do not overlap. For SIPP the generator is a parameter: how often it draws a number is the assumption `hrng`, satisfied with c = 1 by a generator that outputs its seed (example over the prime 2^521 - 1).
* **C144** What the proofs reveal about the messages (proved). `Props/Reveal.lean`. The messages folded to one element are the combinations of C17 for the keys; the challenges are those the verifier recomputes (`challengesOf`, shown equal to the transcript of `recursiveChallenges`). With two columns the coefficients are 1 and c, and a polynomial with n coefficients is determined by its values at n points.
* **C145** What the texts of the errors say (proved). `Model/Display.lean`, `Props/Display.lean`. Decimal numbers contain no comma and are determined by their digits (Lean's `Nat.ofDigitChars_toDigits`); the rest is C03 and C13 composed with the text.
* **C146** Work of the set-ups and of the univariate commitments in terms of the degree (proved). `Model/UnivariateCost.lean`, `Props/UnivariateCost.lean`. The functions count their operations as in C113 and C120 and are, without the counts, the functions of the other model files (`C146_setup_value`, `C146_univariate_value`, `C146_verify_value`). The sizes for a degree come from the floating-point square root (`sqrtPow2_eq`) and the skew of at most 16 (4 in the transparent scheme): `sizesFor`. Table precomputation of the fixed-base multiplications and random draws are not counted.
* **C147** Cutting and re-randomising a reference string (proved). `Props/SrsReuse.lean`. Prefixes of the lists of powers; the rest is C29, C41 and C49 with the cut string, and `dot_pad` for the equality of the commitments. Cutting and re-randomising are not functions of the crate; they are defined next to the theorems.
* **C148** Platforms with another width of usize (proved). `Model/Platform.lean` repeats the programs with the width as a parameter; `Props/Platform.lean` compares them call by call with the 64-bit programs (`C148_gipa`, `C148_tipa`, `C148_ssm`, `C148_tipa_ssm`, `C148_aggregate`, `C148_polynomial`, `C148_transparent`; when a search runs out: `C148_out`; width 8: `C148_wide`). Completeness per platform: `C148_complete`, `C148_aggregate_complete`. Violation: `C148_rejected` and, on a concrete instance, `C148_witness`. SIPP hashes no nonce and does not depend on the width. Overflow of lengths above 2^32 on a small platform is not modelled.
* **C149** Proofs that arrive as bytes (proved). `Model/Wire.lean` defines the caller (`receive`), which is not part of the crate; `Props/Wire.lean` combines it with C85 (codecs), C113 (work) and C29 (completeness): `C149_accept_iff`, `C149_outcome`, `C149_trailing`, `C149_unique`, `C149_rounds`, `C149_tipa_work`, `C149_tipp`, `C149_gipa_attack`.
* **C150** Vectors of other lengths, padded to a power of two (proved). `Props/Padding.lean`: `Gipa.C150_statement`, `C150_gipa`, `C150_only_true`, `C150_tipa`, `C150_ssm_statement`, `C150_ssm`, `C150_tipa_ssm`, `C150_product`, `C150_sipp`, `C150_sipp_sound`, `C150_groth16`, from C11, C29, C33, C34, C55, C58 and C49.
* **C151** Clones of proofs, sources of errors (proved). `Model/Clone.lean` transcribes the three written-out `Clone` implementations and `source`; `Props/Clone.lean`: `C151_gipa`, `C151_tipa`, `C151_tipa_ssm`, `C151_injective`, `C151_source`.
* **C152** The tables of the benches (proved). `Model/Table.lean` transcribes the records in the order of writing, with the measured times as a parameter, and the check of `csv::Writer` on the number of fields; `Props/Table.lean`: `C152_writes`, `C152_unequal`, `C152_count`, `C152_poly_rows`, `C152_agg_rows`, `C152_poly_complete`, `C152_agg_complete`, `C152_plain`, `C152_text`, `C152_single`, `C152_monolithic`.
* **C153** Digests shorter than 16 bytes, and how much of a digest GIPA uses (proved). `Props/ShortDigest.lean`: `C153_challenge`, `C153_rounds`, `C153_gipa_verify`, `C153_gipa_prove`, `C153_tipa_prove`, `C153_ssm_prove`, `C153_tipa_verify`, `C153_ssm_verify`, `C153_polynomial`, `C153_groth16`, `C153_transparent`, `C153_prefix_verify`, `C153_prefix_prove`. With the challenge out of reach the transcript stays empty, and the search for the KZG challenge unwraps its first element.
* **C154** The same polynomial with more or fewer zero rows (proved). `Props/ZeroRows.lean`: `C154_value`, `C154_same`, `C154_beyond`, `C154_transparent_same`, `C154_transparent_beyond`; `SameRows` compares the rows at every index, with the zero polynomial beyond the end.
* **C155** What the SIPP example measures (proved). `Model/Bench.lean` (`scalingMain`, `scalingLoop`), `Model/Table.lean` (`scalingTable`); `Props/Scaling.lean`: `C155_shuffle`, `C155_once`, `C155_value`, `C155_writes`, `C155_sizes`, `C155_row`, `C155_distinct`.
* **C156** SIPP is the inner-product part of GIPA (proved). `Model/Sipp.lean` (`prove`), `Model/Gipa.lean` (`proveWithAux`); `Props/SippGipa.lean`: `crossTerms` (written without the models), `C156_sipp`, `C156_gipa`, `C156_telescope`, `C156_base`, `C156_same`, `C156_verify`.

### Findings

* Soundness of the non-interactive arguments fails because the statement is not hashed: C22 (GIPA), C63
  (TIPA, both structured-message arguments), C48 (evaluation binding of all four polynomial commitment
  schemes). The interactive arguments are sound: C67, C68, C70, C71, C75. SIPP hashes its statement and
  is sound in the random oracle model: C58, C72. For statements fixed before the oracle, and provers that know
  openings of what they hash, the other arguments are sound too: C84, C87, C92, C93,
  and so are the polynomial commitments (C103 without and C107 with a reference string) and the aggregation of Groth16
  proofs (C108). For GIPA, with and without structured
  messages, for both forms of TIPA, for both kinds of polynomial commitments and for the aggregation the openings need not
  be known (C109, C110, C111, C114, C115, C116, C117).
* Aggregated Groth16 proofs are not bound to the public inputs (C52) nor to the number of rows (C65), and
  surplus inputs in rows after the first are ignored (C53).
* Truncating `zip`s: identity commitments with trailing entries (C62), oversized polynomials (C46), rows
  of the bivariate `open` (C77).
* Panics on input an attacker or caller controls: proofs with a wrong number of rounds (C20), length one
  in TIPA (C30) and in SIPP's verifier (C56), degenerate aggregation challenges (C51), SIPP proofs of wrong length (C61),
  an empty half of a polynomial commitment key (C100).
* The SIPP prover can return a proof on which the verifier panics if one coefficient is missing (C73).
* `product_of_pairings` on vectors of different lengths depends on the number of threads (C66).
* The square root of the degree is computed in `f64`. From 2^52 on there are degrees for which the
  capacity is too small (C43, C76).
* The degree bound of the univariate schemes is rounded up to a power of four less one and not enforced
  beyond that (C82).
* The length of the vectors is not part of a TIPA statement (C86).
* GIPA's verifier does work exponential in the number of rounds of a proof before it compares this number
  with the length of its keys, so a short proof can exhaust a verifier (C113).
* Proofs are malleable: `r_base.1` of the structured-message argument is never read (C123), the field elements in the
  place of commitments to the structured message are free (C128), the combined row commitment of an opening is not
  hashed (C131), and trailing entries of identity commitments are kept (C62, C135).
* The challenges of GIPA have 128 bits whatever the field and the hash function (C136); trying hash inputs succeeds with
  the corresponding probability, times the number of statements among which the prover can choose (C137, C138).
* Whoever knows the trapdoor of a reference string can prove everything (C112), also aggregate made-up proofs for
  commitments and inputs of their choice (C133).
* No verifier checks the reference string it is given; with the string of zeros every opening is accepted (C142).
* `scaling-ipp.rs` computes the number of elements with a shift of type `i32`, so it panics from 2^31 elements on
  (C139).
* In release builds the transparent scheme takes a key with an empty half and returns the commitment zero for every
  polynomial, where debug builds panic (C140).
* The batch verifier of the bench draws its coefficients from a constant seed and accepts invalid batches (C89), and
  ignores surplus rows and missing inputs (C91). The benches discard verdicts (C106), and one of their command line
  arguments is never read (C94).
* With one coefficient too few the outcome of SIPP's prover depends on the number of threads (C124).

### Partial results

`C48_kzg_part_partial` is the only theorem with the suffix. Full statement: an accepted opening
determines the value. It is false for the code (`C48_binding_false`); the partial theorem is what remains
under the extra hypothesis that the inner product argument returned the true combined commitment.
For interactive challenges binding does hold up to collisions of the keys: C79, and knowledge soundness
C80, C81, C83. C84 shows what remains of C22's expected statement: it holds for statements
fixed before the oracle and provers that know openings of what they hash, and C109 for all provers.

### Not expressible

Running time in seconds, memory exhaustion, side channels and randomness quality of `rand` are outside
the model; the number of expensive operations of the verifiers is modelled (C113).
Cryptographic hardness is not assumed anywhere: binding and knowledge soundness are stated as explicit
reductions (the extractor returns an opening or a collision; a double opening reveals a trapdoor
relation) or as counting statements over challenges.

## 3. Trusted base

* Lean 4.33.0's kernel and Mathlib's definitions of fields, modules, lists, finite sets. No axioms of our
  own, no `sorry`, `native_decide` or `bv_decide`.
* Axioms per theorem (from `Lean.collectAxioms`). Every theorem in `MANIFEST.json` depends on `propext`,
  `Classical.choice` and `Quot.sound`, except the following, which depend on fewer:
  * [propext, Quot.sound]: `C02_multiexponentiation`, `C02_scalar`, `C03_multiexponentiation_error_iff`, `C03_scalar_error_iff`, `C06_verify_iff`, `C07_gipa_setup_instances`, `C07_random_generators_append`, `C07_setup_lengths`, `C10_placeholder`, `C24_setup`, `C24_setup_last`, `C24_setup_zero`, `C24_structured_generators`, `C32_zero`, `Kzg.C39_commit`, `Kzg.C39_open`, `C46_form_truncates`, `TBivariate.C47_setup`, `Sipp.C54_coeffs_scale`, `Sipp.C59_absorb`, `Sipp.C60_draw_keeps_seed`, `Sipp.C60_history`, `Sipp.C60_state`, `C69_groth16`, `C69_kzg`, `C69_kzg_no_rounds`, `C69_kzg_ssm`, `Groth16.C74_setup`, `Groth16.C74_setup_zero`, `Batch.C91_empty_key`, `Bench.C94_monolithic`, `Bench.C96_many`, `Bench.C96_test_circuit`, `Bench.C96_wrong_number`, `C104_commitments`, `C104_gipa`, `C104_random_generators`, `C104_tape`, `C104_tipa`, `C104_transparent`, `C120_transparent_commit`, `Sipp.C120_sipp_ones`, `C124_scalar`, `Domain.C134_bls`, `Domain.C134_bw6`, `Domain.C134_disjoint`, `Domain.C134_hypotheses`, `Domain.C134_transparent`, `Release.Bivariate.C140_setup`, `Release.C140_tipa_setup`, `Release.Kzg.C140_setup`, `Release.TBivariate.C140_setup`, `Bench.C141_kzg`, `Bench.C141_snark`, `C141_commitments`, `C145_commit`, `C146_bivariate_setup`, `C146_kzg_setup`, `C146_setup_value`, `C146_tipa_setup`, `C149_accept_iff`, `C151_gipa`, `C151_tipa`, `C151_tipa_ssm`, `Table.C152_count`, `Bench.C155_value`, `Table.C155_row`, `Table.C155_sizes`
  * [propext]: `C07_gipa_setup`, `C07_gipa_setup_last`, `GipaSsm.C07_setup`, `GipaSsm.C07_setup_last`, `C09_identity_add`, `C09_identity_binding`, `Codec.C85_gipa_size`, `Codec.C85_ssm_size`, `Codec.C85_tipa_size`, `Release.C140_degree_max`, `Release.C140_words`, `C145_text`, `C149_trailing`, `C149_unique`, `C151_injective`, `C151_source`, `Table.C152_unequal`
  * no axioms: `C09_identity_smul`, `C149_outcome`
* The tie between model and Rust text is by reading only: every model definition cites the file and lines
  it models.

### Code that is modelled

* `inner_products/src/lib.rs`: all three inner products, `cfg_multi_pairing`, the error values.
* `dh_commitments/src`: the trait's `verify`, `random_generators`, Pedersen, AFGHO (both groups), identity
  commitment with its `Add` and `MulAssign`.
* `ip_proofs/src/gipa.rs`: `setup`, `prove`, `prove_with_aux`, `_prove`, `verify`,
  `verify_recursive_challenge_transcript`, the three private verifier functions.
* `ip_proofs/src/tipa/mod.rs` and `structured_scalar_message.rs`: everything.
* `ip_proofs/src/applications`: Groth16 aggregation, KZG, both bivariate and both univariate schemes.
* `benches/benches/groth16_aggregation/bench.rs`, `benches/benches/poly_commit.rs`,
  `benches/examples/groth16_aggregation.rs`, `sipp/examples/scaling-ipp.rs`: the programs as a whole, with argument
  handling, draws, calls and assertions, the relations and public inputs of the circuits, and `batch_verify_proof`.
  Groth16 set-up and proving are arbitrary functions there.
* The unit tests of all crates and `benches/benches/{inner_products,gipa,tipa}.rs`: draws, calls and assertions.
* `sipp/src/lib.rs`, `sipp/src/rng.rs`: prover, verifier, both pairing products, `FiatShamirRng`.

### Code that is not modelled

* Timing in the benches (the times in their tables are parameters of C152), Groth16 set-up and proving, R1CS gadgets (a circuit is modelled by the relation
  it enforces).
* Derived `Clone` implementations and timers (`start_timer!`).
* Serialization of field and group elements (parameters; C85 assumes faithful codecs). The derived code for
  proofs is in `Model/Serialize.lean`.
* `mul_helper` is modelled as the scalar action it computes.
* Curve arithmetic, pairings, Groth16 proving itself, hash functions, ChaCha: parameters.

## 4. Assumptions on dependencies

* ark-ec 0.4 pairing: `multi_miller_loop` of equally long lists is the product of the single Miller
  values (it panics on different lengths, `zip_eq`), `final_exponentiation` is multiplicative and
  composes with the Miller loop to a bilinear map (`Engine.Lawful`).
* ark-ec: `msm` returns `Err` on a length mismatch, otherwise the sum; `FixedBase::msm` and scalar
  multiplication are the module action; `normalize_batch` keeps the group elements.
* ark-ff: `inverse` is `None` exactly on zero; `batch_inversion` leaves zeros; `From<u128>` is the
  canonical ring map; division by zero panics (`inverse().unwrap()`).
* ark-ff: `from_random_bytes` of a prime field reads the first bytes as a little-endian number, clears the bits above the
  size of the modulus and returns `None` if the result is not below the modulus (used in C136 only).
* ark-poly: `DensePolynomial` keeps coefficient lists without trailing zeros; division by `X - z`
  returns the Euclidean quotient; `degree` of zero is 0.
* rayon: `product/sum/reduce` combine contiguous parts by an arbitrary binary tree; `zip`, `map`,
  `collect` preserve order.
* ark-serialize: writing into a `Vec` never fails; slices are a little-endian u64 length followed by
  the elements; tuples are concatenated.
* `f64`: conversion from `usize` and `sqrt` are rounded to nearest, ties to even (IEEE 754). `f32`:
  `(n as f32).log2()` is exact on powers of two (used by SIPP's verifier).
* usize is 64 bits; sizes are otherwise unbounded naturals (no allocation failure, no overflow of
  `2_usize.pow(i)`, of `2 * size - 1` except at 0, or of `(x + 1) * (y + 1)`). Overflow panics, as in debug builds;
  `Model/Release.lean` has the wrapping arithmetic of release builds (C140).
* ark-groth16: `prepare_verifying_key` negates gamma and delta.
* ark-ff: `to_field_elements` of bytes packs `(MODULUS_BIT_SIZE - 1) / 8` bytes per element, little endian.
  ark-r1cs-std: `UInt8::new_input_vec` takes the same number of bytes from each public input (C96). `into_bigint` of a
  BLS12-377 scalar has four 64-bit limbs.
* Random oracle (C72, C84, C87, C92, C93, C99, C101, C103, C107, C108, C109, C110, C111, C114, C115, C116, C117): the digest is drawn uniformly from all functions from a
  finite set of inputs to a finite set of digests.
* Knowledge error (C68, C71, C75): challenges drawn uniformly from a finite set of non-zero elements; the
  interactive verifier is the code's verifier with the challenges as input (`C67_verify_iff`,
  `C71_gipa_run`, `C71_tipa_run`, `C75_verify_run` tie the two).

## 5. Mutation testing

`seeded/LOG.jsonl` has one line per attempt: the definition, the edit, the claim it breaks, the theorems
that no longer check and the theorems that were tightened because of it. Most edits first break a
characterization lemma; the log then also lists the property theorems that depend on that lemma.
Automatic mutants (single-token edits of a model line) stop at the first theorem that fails, so their entries list only
that one. `claims_depending` are the claims whose proofs use the failed theorems, not theorems seen to fail.
