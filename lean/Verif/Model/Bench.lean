import Verif.Model.Batch
import Verif.Model.Par
import Verif.Model.Sipp
import Verif.Model.Transparent

/-!
# Model of the programs in `benches/` and `sipp/examples/`

Not modelled: timing and CSV output. Set-up and proving of Groth16 are arbitrary functions.
-/

namespace Ripp

/-- `Result::unwrap`: an `Err` becomes a panic. -/
def unwrapRes {α : Type} : Res α → Res α
  | .ok x => .ok x
  | .error (.panic k) => .error (.panic k)
  | .error .diverge => .error .diverge
  | .error _ => panic' .unwrap

namespace Bench

/-! ## Command lines -/

/-- The result of the argument handling of the aggregation bench. -/
structure Args where
  numTrials : ℕ
  numProofs : ℕ
  benchRecursion : Bool
  generateAllProofs : Bool
  monolithicProof : Bool
  deriving DecidableEq, Repr

/-- `match args.get(i).unwrap_or(&"true".to_string()).as_ref() { "true" => true, "false" => false, _ => panic!(..) }`,
`bench.rs:212-226`. -/
def flag (args : List String) (i : ℕ) : Res Bool :=
  if args.getD i "true" = "true" then .ok true
  else if args.getD i "true" = "false" then .ok false
  else panic' .assertion

/-- `args[i].parse::<usize>().expect(..)`; `parse` is `usize::from_str`. -/
def number (parse : String → Option ℕ) (args : List String) (i : ℕ) : Res ℕ := do
  unwrap (parse (← idx args i))

/-- `if args.last().unwrap() == "--bench" { args.pop(); }`, `bench.rs:205-207` and `poly_commit.rs:23-25`. -/
def popBench (args : List String) : Res (List String) := do
  let last ← unwrap args.getLast?
  return if last = "--bench" then args.dropLast else args

/-- `args.len() < 2 || args[1] == "-h" || args[1] == "--help"`, `bench.rs:208`, `poly_commit.rs:26-28` and
`scaling-ipp.rs:23`. -/
def wantsHelp (args : List String) : Bool :=
  args.length < 2 || args[1]? == some "-h" || args[1]? == some "--help"

/-- The arguments of the aggregation bench, `benches/benches/groth16_aggregation/bench.rs:204-240`; `none`: the
usage is printed. -/
def groth16Args (parse : String → Option ℕ) (args : List String) : Res (Option Args) := do
  let args ← popBench args
  if wantsHelp args then return none
  let benchRecursion ← flag args 3
  let generateAllProofs ← flag args 4
  let monolithicProof ← flag args 4
  let numTrials ← number parse args 1
  let numProofs ← number parse args 2
  return some ⟨numTrials, numProofs, benchRecursion, generateAllProofs, monolithicProof⟩

/-- The arguments of the polynomial commitment bench, `benches/benches/poly_commit.rs:22-41`. -/
def polyArgs (parse : String → Option ℕ) (args : List String) : Res (Option (ℕ × ℕ)) := do
  let args ← popBench args
  if wantsHelp args then return none
  let numTrials ← number parse args 1
  let numDataPoints ← number parse args 2
  return some (numTrials, numDataPoints)

/-- The arguments of the SIPP example, `sipp/examples/scaling-ipp.rs:22-32`. After the help text (line 24) the
program goes on. -/
def scalingArgs (parse : String → Option ℕ) (args : List String) : Res (ℕ × ℕ × String) := do
  let lo ← number parse args 1
  let hi ← number parse args 2
  let dir ← idx args 3
  return (lo, hi, dir)

/-! ## The SIPP example -/

/-- `num_iters`, `scaling-ipp.rs:57-62`. -/
def numIters (i : ℕ) : ℕ :=
  if 1 ≤ i ∧ i ≤ 5 then 20
  else if 7 ≤ i ∧ i ≤ 10 then 10
  else if 11 ≤ i ∧ i ≤ 13 then 5
  else 1

section
variable {σ F G1 G2 GT TF : Type} [Field F] [DecidableEq F] [AddCommGroup G1] [Module F G1]
  [AddCommGroup G2] [Module F G2] [AddCommGroup GT] [Module F GT] [Monoid TF] [DecidableEq GT]

/-- The body of the inner loop after the shuffle, `scaling-ipp.rs:73-81`. -/
def scalingStep (V : Sipp.Env σ F G1 G2 GT TF) (a : List G1) (b : List G2) (r : List F) : Res Unit := do
  let z ← Sipp.productOfPairingsWithCoeffs V a b r
  let proof ← unwrapRes (Sipp.prove V a b r z)
  let ok ← unwrapRes (Sipp.verify V a b r z proof)
  assert ok

/-- The inner loop, `scaling-ipp.rs:69-83`: `n` iterations, each shuffling `a` and `b` (`SliceRandom::shuffle`;
which permutations are applied is left open). -/
def scalingLoop (V : Sipp.Env σ F G1 G2 GT TF) (shuffleA : ℕ → List G1 → List G1)
    (shuffleB : ℕ → List G2 → List G2) (r : List F) : ℕ → List G1 → List G2 → Res (List G1 × List G2)
  | 0, a, b => .ok (a, b)
  | n + 1, a, b => do
    let a := shuffleA n a
    let b := shuffleB n b
    scalingStep V a b r
    scalingLoop V shuffleA shuffleB r n a b

/-- The outer loop, `scaling-ipp.rs:55-101`, for the listed `i`: the first `2^i` entries are shuffled in place. -/
def scalingRun (V : Sipp.Env σ F G1 G2 GT TF) (shuffleA : ℕ → List G1 → List G1)
    (shuffleB : ℕ → List G2 → List G2) (r : List F) : List ℕ → List G1 → List G2 → Res Unit
  | [], _, _ => .ok ()
  | i :: is, a, b => do
    let m := 2 ^ i
    let aS ← sliceTo a m
    let bS ← sliceTo b m
    let (a', b') ← scalingLoop V shuffleA shuffleB r (numIters i) aS bS
    scalingRun V shuffleA shuffleB r is (a' ++ a.drop m) (b' ++ b.drop m)

end

/-! ## The polynomial commitment bench -/

/-- `4_usize.pow((i + 1) as u32) - 1`, `poly_commit.rs:51`; overflow panics (debug builds). -/
def benchDegree (i : ℕ) : Res ℕ :=
  if 4 ^ (i + 1) < 2 ^ 64 then .ok (4 ^ (i + 1) - 1) else panic' .overflow

section
variable {ρ F G1 G2 GT TF : Type} [Field F] [DecidableEq F] [AddCommGroup G1] [Module F G1]
  [AddCommGroup G2] [Module F G2] [AddCommGroup GT] [Module F GT] [Monoid TF] [DecidableEq G1]
  [DecidableEq GT]

/-- `for _ in 0..50 { let is_valid = verify(..).unwrap(); assert!(is_valid) }`, `poly_commit.rs:102-106`, `174-181`
and `253-260`. -/
def verifyMany (verify : Res Bool) : Res Unit :=
  (List.replicate 50 ()).forM fun _ => do assert (← unwrapRes verify)

/-- One trial with KZG after `setup`, `poly_commit.rs:70-107`. -/
def kzgTrial (V : Env ρ F G1 G2 GT TF) (srs : List G1 × VerifierSRS G1 G2) (p : List F) (z : F) :
    Res Unit := do
  let eval := polyEval p z
  let com ← unwrapRes (Kzg.commit srs.1 p)
  let proof ← unwrapRes (Kzg.open_ srs.1 p z)
  verifyMany (Kzg.verify V.E srs.2 com z eval proof)

/-- One trial with the structured reference string, `poly_commit.rs:141-183`. -/
def ipaTrial (V : Env ρ F G1 G2 GT TF) (srs : SRS G1 G2 × List G1) (v : VerifierSRS G1 G2) (degree : ℕ) (p : List F)
    (z : F) : Res Unit := do
  let eval := polyEval p z
  let (com, aux) ← unwrapRes (Univariate.commit V srs p)
  let proof ← unwrapRes (Univariate.open_ V srs p aux z)
  verifyMany (Univariate.verify V v degree com z eval proof)

/-- One trial with the transparent scheme, `poly_commit.rs:215-262`. -/
def transparentTrial (V : Env ρ F G1 G2 GT TF) (ck : List G1 × List G2) (p : List F) (z : F) : Res Unit := do
  let eval := polyEval p z
  let (com, aux) ← unwrapRes (TUnivariate.commit V ck p)
  let proof ← unwrapRes (TUnivariate.open_ V ck p aux z)
  verifyMany (TUnivariate.verify V ck com z eval proof)

/-- `for i in 1..num_trials + 1`, `poly_commit.rs:70-117`, `141-193` and `215-271`: the polynomial and the point are
drawn; `randPoly` is ark-poly's `DensePolynomial::rand`. -/
def polyTrials (V : Env ρ F G1 G2 GT TF) (randPoly : ℕ → ρ → List F × ρ) (degree : ℕ) (trial : List F → F → Res Unit) :
    ℕ → ρ → Res Unit
  | 0, _ => .ok ()
  | n + 1, s => do
    let (p, s) := randPoly degree s
    let (z, s) := V.randF s
    trial p z
    polyTrials V randPoly degree trial n s

/-- The body of the loop over the degrees, `poly_commit.rs:52-274`: each scheme starts with the same generator. -/
def polyPoint (V : Env ρ F G1 G2 GT TF) (randPoly : ℕ → ρ → List F × ρ) (seed : ρ) (numTrials degree : ℕ) :
    Res Unit := do
  let (kzg, s) ← unwrapRes (Kzg.setup V seed degree)
  polyTrials V randPoly degree (kzgTrial V kzg) numTrials s
  let (srs, s) ← unwrapRes (Univariate.setup V seed degree)
  let v ← srs.1.verifierKey
  polyTrials V randPoly degree (ipaTrial V srs v degree) numTrials s
  let (ck, s) ← unwrapRes (TUnivariate.setup V seed degree)
  polyTrials V randPoly degree (transparentTrial V ck) numTrials s

/-- The loop, `poly_commit.rs:51-275`. `map` is lazy: a degree is computed when the loop reaches it. -/
def polyRun (V : Env ρ F G1 G2 GT TF) (randPoly : ℕ → ρ → List F × ρ) (seed : ρ) (numTrials numDataPoints : ℕ) :
    Res Unit :=
  (List.range numDataPoints).forM fun i => do
    let degree ← benchDegree i
    polyPoint V randPoly seed numTrials degree

/-- The program, `benches/benches/poly_commit.rs:21-276`. -/
def polyMain (V : Env ρ F G1 G2 GT TF) (randPoly : ℕ → ρ → List F × ρ) (seed : ρ) (parse : String → Option ℕ)
    (args : List String) : Res Unit := do
  match ← polyArgs parse args with
  | none => return ()
  | some (numTrials, numDataPoints) => polyRun V randPoly seed numTrials numDataPoints

end

/-! ## The aggregation bench -/

/-- `bench.rs:280-307`: without `generate_all_proofs` only the first proof is made, and copied. `made` are the
proofs that would be made, with their public inputs. -/
def benchProofs {α β : Type} (all : Bool) (n : ℕ) (made : List α) (inputs : List β) :
    Res (List α × List β) := do
  if all then return (made, inputs)
  let p ← idx made 0
  let x ← idx inputs 0
  return (List.replicate n p, List.replicate n x)

section
variable {ρ ρ' F G1 G2 GT TF : Type} [Field F] [DecidableEq F] [AddCommGroup G1] [Module F G1]
  [AddCommGroup G2] [Module F G2] [AddCommGroup GT] [Module F GT] [Monoid TF] [DecidableEq G1]
  [DecidableEq GT]

/-- One trial, `bench.rs:355-392`. -/
def aggregationTrial (V : Env ρ F G1 G2 GT TF) (srs : SRS G1 G2) (v : VerifierSRS G1 G2) (vk : G16VK G1 G2)
    (inputs : List (List F)) (proofs : List (G16Proof G1 G2)) : Res Unit := do
  let proof ← unwrapRes (Groth16.aggregate V srs proofs)
  assert (← unwrapRes (Groth16.verify V v vk inputs proof))

/-- Batch verification and aggregation, `bench.rs:315-393`. Returns the state of the generator. -/
def aggregationPart (V : Env ρ F G1 G2 GT TF) (rand : ρ' → ℕ × ρ') (seed : ρ') (s : ρ) (vk : G16VK G1 G2)
    (numTrials numProofs : ℕ) (inputs : List (List F)) (proofs : List (G16Proof G1 G2)) : Res ρ := do
  assert (← unwrapRes (Batch.verify V.E rand seed (prepareVK vk) inputs proofs))
  let (srs, s) ← unwrapRes (Groth16.setup V s numProofs)
  let v ← srs.verifierKey
  (List.replicate numTrials ()).forM fun _ => aggregationTrial V srs v vk inputs proofs
  return s

/-- The same from the proofs that are made, `bench.rs:303-393`. -/
def aggregationRun (V : Env ρ F G1 G2 GT TF) (rand : ρ' → ℕ × ρ') (seed : ρ') (s : ρ) (vk : G16VK G1 G2)
    (all : Bool) (numTrials numProofs : ℕ) (inputs : List (List F)) (made : List (G16Proof G1 G2)) :
    Res ρ := do
  let (proofs, inputs) ← benchProofs all numProofs made inputs
  aggregationPart V rand seed s vk numTrials numProofs inputs proofs

end

/-! ## The circuits of the aggregation bench and example -/

/-- The number with the given little-endian bytes. -/
def leNat : Bytes → ℕ
  | [] => 0
  | b :: bs => b.toNat + 256 * leNat bs

/-- ark-ff's `ToConstraintField` for bytes: `(MODULUS_BIT_SIZE - 1) / 8` bytes per field element. -/
def packBytes (modulusBits : ℕ) (bs : Bytes) : List ℕ := (chunks ((modulusBits - 1) / 8) bs).map leNat

/-- Bit sizes of the scalar fields of BLS12-377 and BW6-761. -/
def blsBits : ℕ := 253

@[inherit_doc blsBits] def bw6Bits : ℕ := 377

/-- The public inputs of a proof for one hash: `h.to_field_elements()` over the scalar field of BLS12-377,
`bench.rs:90` and `172`. -/
def hashElements (h : Bytes) : List ℕ := packBytes blsBits h

/-- The bytes of these elements, `bench.rs:93-110` and `175-193`: four 64-bit limbs each. -/
def hashBytes (h : Bytes) : Bytes := (hashElements h).flatMap (leBytes 32)

/-- `AggregateBlake2SCircuitVerificationCircuitInput::to_field_elements`, `bench.rs:167-200`. -/
def recursionInput (hs : List Bytes) : List ℕ := hs.flatMap fun h => packBytes bw6Bits (hashBytes h)

/-- ark-r1cs-std's `UInt8::new_input_vec`, seen from the public input: takes the field elements that `n` bytes
need, and the first `n` of the bytes in their low bits. Returns the remaining public input too. -/
def readBytes (modulusBits n : ℕ) (xs : List ℕ) : Bytes × List ℕ :=
  let size := (modulusBits - 1) / 8
  let count := (n + size - 1) / size
  (((xs.take count).flatMap (leBytes size)).take n, xs.drop count)

/-- The inputs of the inner verifiers, as the circuit computes them from its public input, `bench.rs:86-125` and
`141-151`: 64 bytes per hash (`h_as_bls_fr_bytes` of the hash outputs the circuit was made with gives the number
of bytes), split into chunks of `(MODULUS_BIT_SIZE + 7) / 8` bytes whose bits are the scalars. -/
def circuitElements : List Bytes → List ℕ → List (List ℕ)
  | [], _ => []
  | h :: hs, xs =>
    let (bs, rest) := readBytes bw6Bits (hashBytes h).length xs
    (chunks ((blsBits + 7) / 8) bs).map leNat :: circuitElements hs rest

/-- The relation enforced by `AggregateBlake2SCircuitVerificationCircuit`, `bench.rs:84-160`. `hs` are the hash
outputs the circuit is made with, `xs` is the public input; `verifies` is the inner Groth16 verifier for the fixed
verifying key. -/
def recursionCircuit {Proof : Type} (verifies : List ℕ → Proof → Prop) (hs : List Bytes) (xs : List ℕ)
    (proofs : List Proof) : Res Prop := do
  let inputs := circuitElements hs xs
  assert (inputs.length == proofs.length)
  return ∀ p ∈ inputs.zip proofs, verifies p.1 p.2

/-- The relation enforced by `ManyBlake2SCircuit`, `bench.rs:58-76`; `hash` is Blake2s. -/
def manyCircuit (hash : Bytes → Bytes) (input output : List Bytes) : Prop :=
  ∀ p ∈ input.zip output, hash p.1 = p.2

/-- The public input of `ManyBlake2SCircuit`, `bench.rs:62-68`. -/
def manyInput (input output : List Bytes) : List ℕ := (input.zip output).flatMap fun p => hashElements p.2

/-- The relation enforced by `TestCircuit`, `benches/examples/groth16_aggregation.rs:24-41`. -/
def testCircuit {F : Type} [Field F] (publicInputs : List F) (publicSum witness : F) : Prop :=
  publicSum = publicInputs.foldl (· + ·) witness

/-! ## The programs around Groth16 -/

/-- ark-groth16 for one circuit type `C`: `setup`, `prove`, `verify`. `X` is the public input. The proving key
contains the verifying key; both are returned. -/
structure Snark (ρ C X π PK VK : Type) where
  setup : C → ρ → Res ((PK × VK) × ρ)
  prove : PK → C → ρ → Res (π × ρ)
  verify : VK → X → π → Res Bool

/-- `for c in cs { proofs.push(prove(pk, c, rng).unwrap()) }`, `bench.rs:283-299` and
`benches/examples/groth16_aggregation.rs:61-85`. -/
def proveAll {ρ C X π PK VK : Type} (S : Snark ρ C X π PK VK) (pk : PK) : List C → ρ → Res (List π × ρ)
  | [], s => .ok ([], s)
  | c :: cs, s => do
    let (p, s) ← unwrapRes (S.prove pk c s)
    let (ps, s) ← proveAll S pk cs s
    return (p :: ps, s)

/-- `TestCircuit`, `benches/examples/groth16_aggregation.rs:17-22`. -/
structure TestCircuit (F : Type) where
  publicInputs : List F
  witness : F
  sum : F

/-- `SingleBlake2SCircuit`, `bench.rs:30-34`. -/
structure HashCircuit where
  input : Bytes
  output : Bytes

/-- `ManyBlake2SCircuit`, `bench.rs:52-56`. -/
structure ManyCircuit where
  input : List Bytes
  output : List Bytes

/-- `AggregateBlake2SCircuitVerificationCircuit`, `bench.rs:78-83`. -/
structure RecursionCircuit (Proof VK : Type) where
  hashOutputs : List Bytes
  proofs : List Proof
  vk : VK

section
variable {ρ ρ' F F2 G1 G2 GT TF PK PK2 PK3 VK2 VK3 π2 π3 : Type} [Field F] [DecidableEq F] [AddCommGroup G1]
  [Module F G1] [AddCommGroup G2] [Module F G2] [AddCommGroup GT] [Module F GT] [Monoid TF] [DecidableEq G1]
  [DecidableEq GT]

/-- The loop of the example, `benches/examples/groth16_aggregation.rs:61-85`: `m` public inputs and the witness are
drawn; the statement is the inputs and the sum. -/
def exampleLoop (V : Env ρ F G1 G2 GT TF) (S : Snark ρ (TestCircuit F) (List F) (G16Proof G1 G2) PK (G16VK G1 G2))
    (pk : PK) (m : ℕ) : ℕ → ρ → Res ((List (G16Proof G1 G2) × List (List F)) × ρ)
  | 0, s => .ok (([], []), s)
  | n + 1, s => do
    let (inputs, s) := randomGenerators V.randF s m
    let (w, s) := V.randF s
    let sum := w + inputs.sum
    let (p, s) ← unwrapRes (S.prove pk ⟨inputs, w, sum⟩ s)
    let ((ps, xs), s) ← exampleLoop V S pk m n s
    return ((p :: ps, (inputs ++ [sum]) :: xs), s)

/-- The example, `benches/examples/groth16_aggregation.rs:43-110`; `m` is 4 and `n` is 1024. -/
def exampleMain (V : Env ρ F G1 G2 GT TF) (S : Snark ρ (TestCircuit F) (List F) (G16Proof G1 G2) PK (G16VK G1 G2))
    (m n : ℕ) (seed : ρ) : Res Unit := do
  let ((pk, vk), s) ← unwrapRes (S.setup ⟨List.replicate m 0, 0, 0⟩ seed)
  let (srs, s) ← unwrapRes (Groth16.setup V s n)
  let ((proofs, statements), _) ← exampleLoop V S pk m n s
  let proof ← unwrapRes (Groth16.aggregate V srs proofs)
  let v ← srs.verifierKey
  assert (← unwrapRes (Groth16.verify V v vk statements proof))

/-- One of the trials of the recursion, `bench.rs:419-459`, and the proof of the monolithic circuit,
`bench.rs:489-524`. -/
def snarkTrial {C X π PK VK : Type} (S : Snark ρ C X π PK VK) (pk : PK) (vk : VK) (c : C) (x : X) (s : ρ) :
    Res ρ := do
  let (p, s) ← unwrapRes (S.prove pk c s)
  assert (← unwrapRes (S.verify vk x p))
  return s

/-- `for i in 1..=num_trials`. -/
def snarkTrials {C X π PK VK : Type} (S : Snark ρ C X π PK VK) (pk : PK) (vk : VK) (c : C) (x : X) : ℕ → ρ → Res ρ
  | 0, s => .ok s
  | n + 1, s => do
    let s ← snarkTrial S pk vk c x s
    snarkTrials S pk vk c x n s

/-- The aggregation bench after the arguments, `bench.rs:249-526`. `hash` is Blake2s with key zero, `rand32` draws 32
bytes; `S1`, `S2`, `S3` are Groth16 for the single hash (over BLS12-377), the recursion (over BW6-761) and the monolithic
circuit (over BLS12-377). `F2` is the scalar field of BW6-761. -/
def groth16Run [Field F2] (V : Env ρ F G1 G2 GT TF) (rand : ρ' → ℕ × ρ') (seed : ρ') (hash : Bytes → Bytes)
    (rand32 : ρ → Bytes × ρ) (S1 : Snark ρ HashCircuit (List F) (G16Proof G1 G2) PK (G16VK G1 G2))
    (S2 : Snark ρ (RecursionCircuit (G16Proof G1 G2) (G16VK G1 G2)) (List F2) π2 PK2 VK2)
    (S3 : Snark ρ ManyCircuit (List F) π3 PK3 VK3) (args : Args) (s : ρ) : Res Unit := do
  let elements : Bytes → List F := fun h => (hashElements h).map (↑)
  let (inputs, s) := randomGenerators rand32 s args.numProofs
  let hashes := inputs.map fun x => (x, hash x)
  let ((pk, vk), s) ← unwrapRes (S1.setup ⟨List.replicate 32 0, List.replicate 32 0⟩ s)
  let toProve := if args.generateAllProofs then hashes else hashes.take 1
  let (made, s) ← proveAll S1 pk (toProve.map fun h => ⟨h.1, h.2⟩) s
  let (proofs, hashes) ← benchProofs args.generateAllProofs args.numProofs made hashes
  let outputs := hashes.map (·.2)
  let s ← aggregationPart V rand seed s vk args.numTrials args.numProofs (outputs.map elements) proofs
  let s ← if args.benchRecursion then do
    let circuit : RecursionCircuit (G16Proof G1 G2) (G16VK G1 G2) := ⟨outputs, proofs, vk⟩
    let ((pk2, vk2), s) ← unwrapRes (S2.setup circuit s)
    snarkTrials S2 pk2 vk2 circuit ((recursionInput outputs).map (↑)) args.numTrials s
  else pure s
  if args.monolithicProof then
    let circuit : ManyCircuit := ⟨hashes.map (·.1), outputs⟩
    let ((pk3, vk3), s) ← unwrapRes (S3.setup circuit s)
    let _ ← snarkTrial S3 pk3 vk3 circuit (outputs.flatMap elements) s
    return ()
  else return ()

/-- The program, `benches/benches/groth16_aggregation/bench.rs:203-526`. -/
def groth16Main [Field F2] (V : Env ρ F G1 G2 GT TF) (rand : ρ' → ℕ × ρ') (seed : ρ') (hash : Bytes → Bytes)
    (rand32 : ρ → Bytes × ρ) (S1 : Snark ρ HashCircuit (List F) (G16Proof G1 G2) PK (G16VK G1 G2))
    (S2 : Snark ρ (RecursionCircuit (G16Proof G1 G2) (G16VK G1 G2)) (List F2) π2 PK2 VK2)
    (S3 : Snark ρ ManyCircuit (List F) π3 PK3 VK3) (parse : String → Option ℕ) (argv : List String) (s : ρ) :
    Res Unit := do
  match ← groth16Args parse argv with
  | none => return ()
  | some args => groth16Run V rand seed hash rand32 S1 S2 S3 args s

end

/-! ## The SIPP example as a whole -/

/-- The number of repetitions of `for _ in 0..(1 << max_num_inputs)`, `scaling-ipp.rs:45`. Nothing fixes the type of the
bounds, so it is `i32`: the shift overflows from 32 on (a panic in debug builds), and `1 << 31` is negative. -/
def shiftCount (hi : ℕ) : Res ℕ :=
  if hi < 31 then .ok (2 ^ hi) else if hi = 31 then .ok 0 else panic' .overflow

section
variable {σ F G1 G2 GT TF : Type} [Field F] [DecidableEq F] [AddCommGroup G1] [Module F G1]
  [AddCommGroup G2] [Module F G2] [AddCommGroup GT] [Module F GT] [Monoid TF] [DecidableEq GT]

/-- The program after the arguments, `scaling-ipp.rs:40-101`: `g`, `h` and the one coefficient are drawn from the generator
with the seed `falafel`. -/
def scalingMain (V : Sipp.Env σ F G1 G2 GT TF) (shuffleA : ℕ → List G1 → List G1)
    (shuffleB : ℕ → List G2 → List G2) (g : G1) (h : G2) (x : F) (parse : String → Option ℕ) (args : List String) :
    Res Unit := do
  let (lo, hi, _) ← scalingArgs parse args
  let n ← shiftCount hi
  let a := List.replicate n (g + g)
  let b := List.replicate n (h + h)
  let r := List.replicate a.length x
  scalingRun V shuffleA shuffleB r ((List.range (hi + 1)).drop lo) a b

end

end Bench

end Ripp
