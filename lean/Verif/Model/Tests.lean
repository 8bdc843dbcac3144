import Verif.Model.GipaInstances
import Verif.Model.Transparent
import Verif.Model.Bench

/-!
# Model of the unit tests and of the benches of the inner product arguments

The seeded generator `StdRng::seed_from_u64(0)` is any generator state; sizes are parameters (8 in the tests, 16 in
the benches, degrees 7 and 65535). Timing and printing are left out.
-/

namespace Ripp

/-- `Result::is_err`: panics go on. -/
def isErr {α : Type} : Res α → Res Bool
  | .ok _ => .ok false
  | .error (.panic k) => .error (.panic k)
  | .error .diverge => .error .diverge
  | .error _ => .ok true

/-- `for _ in 0..n { a.push(A::rand(rng)); b.push(B::rand(rng)) }`, e.g. `benches/benches/gipa.rs:39-44`. -/
def drawPairs {ρ A B : Type} (randA : ρ → A × ρ) (randB : ρ → B × ρ) : ℕ → ρ → (List A × List B) × ρ
  | 0, s => (([], []), s)
  | n + 1, s =>
    let (a, s) := randA s
    let (b, s) := randB s
    let (ab, s) := drawPairs randA randB n s
    ((a :: ab.1, b :: ab.2), s)

/-- Two vectors drawn one after the other, e.g. `ip_proofs/src/gipa.rs:480-481` and `507-511`. -/
def drawBoth {ρ A B : Type} (randA : ρ → A × ρ) (randB : ρ → B × ρ) (n : ℕ) (s : ρ) : (List A × List B) × ρ :=
  let (a, s) := randomGenerators randA s n
  let (b, s) := randomGenerators randB s n
  ((a, b), s)

section
variable {ρ K M O : Type} [DecidableEq O]

/-- `pedersen_test`, `dh_commitments/src/pedersen/mod.rs:40-54`, and `afgho_g1_test`, `afgho_g2_test`,
`dh_commitments/src/afgho16/mod.rs:62-93`. -/
def commitmentTest (C : Commitment ρ K M O) (rand : ρ → M × ρ) (n : ℕ) (s : ρ) : Res Unit := do
  let (keys, s) ← unwrapRes (C.setup s n)
  let ((message, wrong), s) := drawPairs rand rand n s
  let com ← unwrapRes (C.commit keys message)
  assert (← unwrapRes (C.verify keys message com))
  assert (!(← unwrapRes (C.verify keys wrong com)))
  let (m, _) := rand s
  assert (← isErr (C.verify keys (message ++ [m]) com))

end

/-- `bench_inner_product`, `benches/benches/inner_products.rs:10-25`. -/
def ipBench {ρ A B T : Type} (ip : List A → List B → Res T) (randA : ρ → A × ρ) (randB : ρ → B × ρ) (n : ℕ)
    (s : ρ) : Res ρ := do
  let ((l, r), s) := drawPairs randA randB n s
  let _ ← unwrapRes (ip l r)
  return s

section
variable {ρ F MA MB T KA KB KT OA OB OT : Type} [Field F] [DecidableEq F]
  [AddCommGroup MA] [Module F MA] [AddCommGroup MB] [Module F MB]
  [AddCommGroup KA] [Module F KA] [AddCommGroup KB] [Module F KB]
  [DecidableEq T] [DecidableEq OA] [DecidableEq OB] [DecidableEq OT]
  [Add OA] [SMul F OA] [Add OB] [SMul F OB] [Add OT] [SMul F OT]

/-- The part after set-up and message generation, `ip_proofs/src/gipa.rs:482-495` and
`benches/benches/gipa.rs:47-62`. -/
def gipaRun (P : Gipa ρ F MA MB T KA KB KT OA OB OT) (keys : List KA × List KB × KT) (m : List MA × List MB) :
    Res Bool := do
  let comA ← unwrapRes (P.lmc.commit keys.1 m.1)
  let comB ← unwrapRes (P.rmc.commit keys.2.1 m.2)
  let t ← unwrapRes (P.ip m.1 m.2)
  let comT ← unwrapRes (P.ipc.commit [keys.2.2] [t])
  let proof ← unwrapRes (P.prove m.1 m.2 t keys.1 keys.2.1 keys.2.2 (comA, comB, comT))
  unwrapRes (P.verify keys.1 keys.2.1 keys.2.2 (comA, comB, comT) proof)

/-- The three tests of `ip_proofs/src/gipa.rs:471-561`; `msgs` draws the messages. -/
def gipaTest (P : Gipa ρ F MA MB T KA KB KT OA OB OT) (msgs : ℕ → ρ → (List MA × List MB) × ρ) (n : ℕ) (s : ρ) :
    Res Unit := do
  let (keys, s) ← unwrapRes (P.setup s n)
  assert (← gipaRun P keys (msgs n s).1)

/-- `bench_gipa`, `benches/benches/gipa.rs:19-65`: the verdict is not used. -/
def gipaBench (P : Gipa ρ F MA MB T KA KB KT OA OB OT) (randA : ρ → MA × ρ) (randB : ρ → MB × ρ) (n : ℕ) (s : ρ) :
    Res ρ := do
  let (m, s) := drawPairs randA randB n s
  let (keys, s) ← unwrapRes (P.setup s n)
  let _ ← gipaRun P keys m
  return s

end

section
variable {ρ F MA MB T OA OB OT KT G1 G2 GT TF : Type} [Field F] [DecidableEq F]
  [AddCommGroup MA] [Module F MA] [AddCommGroup MB] [Module F MB]
  [AddCommGroup G1] [Module F G1] [AddCommGroup G2] [Module F G2] [Monoid TF]
  [DecidableEq GT] [DecidableEq OA] [DecidableEq OB] [DecidableEq OT]
  [Add OA] [SMul F OA] [Add OB] [SMul F OB] [Add OT] [SMul F OT]

/-- The part after set-up and message generation, `ip_proofs/src/tipa/mod.rs:458-468` and
`benches/benches/tipa.rs:56-69`. -/
def tipaRun (V : Env ρ F G1 G2 GT TF) (P : Gipa ρ F MA MB T G2 G1 KT OA OB OT) (srs : SRS G1 G2) (kt : KT)
    (m : List MA × List MB) : Res Bool := do
  let (ckA, ckB) := srs.commitmentKeys
  let v ← srs.verifierKey
  let comA ← unwrapRes (P.lmc.commit ckA m.1)
  let comB ← unwrapRes (P.rmc.commit ckB m.2)
  let t ← unwrapRes (P.ip m.1 m.2)
  let comT ← unwrapRes (P.ipc.commit [kt] [t])
  let proof ← unwrapRes (Tipa.prove V.tipa P srs m.1 m.2 ckA ckB kt)
  unwrapRes (Tipa.verify V.tipa P v kt (comA, comB, comT) proof)

/-- The first three tests of `ip_proofs/src/tipa/mod.rs:448-526`. -/
def tipaTest (V : Env ρ F G1 G2 GT TF) (P : Gipa ρ F MA MB T G2 G1 KT OA OB OT)
    (msgs : ℕ → ρ → (List MA × List MB) × ρ) (n : ℕ) (s : ρ) : Res Unit := do
  let ((srs, kt), s) ← unwrapRes (tipaSetup V.randF V.g V.h P.ipc s n)
  assert (← tipaRun V P srs kt (msgs n s).1)

/-- `bench_tipa`, `benches/benches/tipa.rs:25-72`: the verdict is not used. -/
def tipaBench (V : Env ρ F G1 G2 GT TF) (P : Gipa ρ F MA MB T G2 G1 KT OA OB OT) (randA : ρ → MA × ρ)
    (randB : ρ → MB × ρ) (n : ℕ) (s : ρ) : Res ρ := do
  let (m, s) := drawPairs randA randB n s
  let ((srs, kt), s) ← unwrapRes (tipaSetup V.randF V.g V.h P.ipc s n)
  let _ ← tipaRun V P srs kt m
  return s

/-- `m_a_r` and `ck_a_r`, `ip_proofs/src/tipa/mod.rs:546-555` and `benches/benches/tipa.rs:111-120`. -/
def shiftBoth {M K : Type} [AddCommGroup M] [Module F M] [AddCommGroup K] [Module F K] (r : List F)
    (ma : List M) (ck : List K) : Res (List M × List K) := do
  let ck' ← (List.zip ck r).mapM fun x => do return (← unwrap (inverse x.2)) • x.1
  return (List.zipWith (fun a r => r • a) ma r, ck')

/-- The run with a shifted reference string, `ip_proofs/src/tipa/mod.rs:537-578` and
`benches/benches/tipa.rs:105-142`. `check` is true in the test, which has the extra assertion of line 561 (there `ip`
is also the left commitment). -/
def tipaShiftRun (V : Env ρ F G1 G2 GT TF) (P : Gipa ρ F MA MB T G2 G1 KT OA OB OT) (check : Bool) (srs : SRS G1 G2)
    (kt : KT) (m : List MA × List MB) (n : ℕ) (s : ρ) : Res (Bool × ρ) := do
  let (ckA, ckB) := srs.commitmentKeys
  let v ← srs.verifierKey
  let comA ← unwrapRes (P.lmc.commit ckA m.1)
  let comB ← unwrapRes (P.rmc.commit ckB m.2)
  let (r, s) := V.randF s
  let rVec ← structuredScalarPower n r
  let (ma', ckA') ← shiftBoth rVec m.1 ckA
  let t ← unwrapRes (P.ip ma' m.2)
  let comT ← unwrapRes (P.ipc.commit [kt] [t])
  if check then assert (← unwrapRes (P.lmc.verify ckA' ma' comA))
  let proof ← unwrapRes (Tipa.proveWithShift V.tipa P srs ma' m.2 ckA' ckB kt r)
  let ok ← unwrapRes (Tipa.verifyWithShift V.tipa P v kt (comA, comB, comT) proof r)
  return (ok, s)

/-- `pairing_inner_product_with_srs_shift_test`, `ip_proofs/src/tipa/mod.rs:529-579`. -/
def tipaShiftTest (V : Env ρ F G1 G2 GT TF) (P : Gipa ρ F MA MB T G2 G1 KT OA OB OT)
    (msgs : ℕ → ρ → (List MA × List MB) × ρ) (n : ℕ) (s : ρ) : Res Unit := do
  let ((srs, kt), s) ← unwrapRes (tipaSetup V.randF V.g V.h P.ipc s n)
  let (m, s) := msgs n s
  let (ok, _) ← tipaShiftRun V P true srs kt m n s
  assert ok

/-- `bench_tipa_srs_shift`, `benches/benches/tipa.rs:74-145`: the verdict is not used. -/
def tipaShiftBench (V : Env ρ F G1 G2 GT TF) (P : Gipa ρ F MA MB T G2 G1 KT OA OB OT) (randA : ρ → MA × ρ)
    (randB : ρ → MB × ρ) (n : ℕ) (s : ρ) : Res ρ := do
  let (m, s) := drawPairs randA randB n s
  let ((srs, kt), s) ← unwrapRes (tipaSetup V.randF V.g V.h P.ipc s n)
  let (_, s) ← tipaShiftRun V P false srs kt m n s
  return s

end

section
variable {ρ F MA T OA OT K KT G1 G2 GT TF : Type} [Field F] [DecidableEq F]
  [AddCommGroup MA] [Module F MA] [AddCommGroup K] [Module F K]
  [AddCommGroup G1] [Module F G1] [AddCommGroup G2] [Module F G2] [Monoid TF]
  [DecidableEq GT] [DecidableEq OA] [DecidableEq OT]
  [Add OA] [SMul F OA] [Add OT] [SMul F OT]

/-- `structured_scalar_message.rs:372-389` and `benches/benches/tipa.rs:171-193`. -/
def tipaSsmRun (V : Env ρ F G1 G2 GT TF) (P : Gipa ρ F MA F T G2 Placeholder KT OA F OT) (srs : SRS G1 G2) (kt : KT)
    (ma : List MA) (b : F) (mb : List F) : Res Bool := do
  let (ckA, _) := srs.commitmentKeys
  let v ← srs.verifierKey
  let comA ← unwrapRes (P.lmc.commit ckA ma)
  let t ← unwrapRes (P.ip ma mb)
  let comT ← unwrapRes (P.ipc.commit [kt] [t])
  let proof ← unwrapRes (TipaSsm.prove V.tipa P srs ma mb ckA kt)
  unwrapRes (TipaSsm.verify V.X V.tipa P v kt comA comT b proof)

/-- `tipa_ssm_multiexponentiation_inner_product_test`, `structured_scalar_message.rs:361-390`. -/
def tipaSsmTest (V : Env ρ F G1 G2 GT TF) (P : Gipa ρ F MA F T G2 Placeholder KT OA F OT) (randA : ρ → MA × ρ)
    (n : ℕ) (s : ρ) : Res Unit := do
  let ((srs, kt), s) ← unwrapRes (tipaSetup V.randF V.g V.h P.ipc s n)
  let (ma, s) := randomGenerators randA s n
  let (b, _) := V.randF s
  let mb ← structuredScalarPower n b
  assert (← tipaSsmRun V P srs kt ma b mb)

/-- `bench_tipa_ssm`, `benches/benches/tipa.rs:147-196`: the verdict is not used. -/
def tipaSsmBench (V : Env ρ F G1 G2 GT TF) (P : Gipa ρ F MA F T G2 Placeholder KT OA F OT) (randA : ρ → MA × ρ)
    (n : ℕ) (s : ρ) : Res ρ := do
  let (ma, s) := randomGenerators randA s n
  let (b, s) := V.randF s
  let mb ← structuredScalarPower n b
  let ((srs, kt), s) ← unwrapRes (tipaSetup V.randF V.g V.h P.ipc s n)
  let _ ← tipaSsmRun V P srs kt ma b mb
  return s

/-- `gipa_ssm_scalar_inner_product_test`, `structured_scalar_message.rs:392-424`. -/
def gipaSsmTest (X : Exec) (P : Gipa ρ F MA F T K Placeholder KT OA F OT) (randA : ρ → MA × ρ) (randF : ρ → F × ρ)
    (n : ℕ) (s : ρ) : Res Unit := do
  let ((ck, kt), s) ← unwrapRes (GipaSsm.setup P.lmc P.ipc s n)
  let (ma, s) := randomGenerators randA s n
  let (b, _) := randF s
  let mb ← structuredScalarPower n b
  let comA ← unwrapRes (P.lmc.commit ck ma)
  let t ← unwrapRes (P.ip ma mb)
  let comT ← unwrapRes (P.ipc.commit [kt] [t])
  let proof ← unwrapRes (GipaSsm.prove P ma mb ck kt)
  assert (← unwrapRes (GipaSsm.verify X P ck kt comA comT b proof))

end

section
variable {ρ F G1 G2 GT TF : Type} [Field F] [DecidableEq F] [AddCommGroup G1] [Module F G1]
  [AddCommGroup G2] [Module F G2] [AddCommGroup GT] [Module F GT] [Monoid TF] [DecidableEq G1] [DecidableEq G2]
  [DecidableEq GT]

/-- `y_polynomials`, `poly_commit/mod.rs:403-412` and `transparent.rs:331-340`. -/
def drawRows (randF : ρ → F × ρ) (m : ℕ) : ℕ → ρ → List (List F) × ρ
  | 0, s => ([], s)
  | n + 1, s =>
    let (row, s) := randomGenerators randF s m
    let (rows, s) := drawRows randF m n s
    (polyOf row :: rows, s)

/-- `bivariate_poly_commit_test`, `poly_commit/mod.rs:395-434`. -/
def bivariateTest (V : Env ρ F G1 G2 GT TF) (x y : ℕ) (s : ρ) : Res Unit := do
  let (srs, s) ← unwrapRes (Bivariate.setup V s x y)
  let v ← srs.1.verifierKey
  let (ps, s) := drawRows V.randF (y + 1) (x + 1) s
  let (com, coms) ← unwrapRes (Bivariate.commit V srs ps)
  let (px, s) := V.randF s
  let (py, _) := V.randF s
  let proof ← unwrapRes (Bivariate.open_ V srs ps coms (px, py))
  let eval := bivariateEval ps px py
  assert (← unwrapRes (Bivariate.verify V v com (px, py) eval proof))

/-- `univariate_poly_commit_test`, `poly_commit/mod.rs:439-471`. -/
def univariateTest (V : Env ρ F G1 G2 GT TF) (d : ℕ) (s : ρ) : Res Unit := do
  let (srs, s) ← unwrapRes (Univariate.setup V s d)
  let v ← srs.1.verifierKey
  let (cs, s) := randomGenerators V.randF s (d + 1)
  let p := polyOf cs
  let (com, coms) ← unwrapRes (Univariate.commit V srs p)
  let (z, _) := V.randF s
  let proof ← unwrapRes (Univariate.open_ V srs p coms z)
  assert (← unwrapRes (Univariate.verify V v d com z (polyEval p z) proof))

/-- `transparent_bivariate_poly_commit_test`, `transparent.rs:324-362`. -/
def tBivariateTest (V : Env ρ F G1 G2 GT TF) (x y : ℕ) (s : ρ) : Res Unit := do
  let (ck, s) ← unwrapRes (TBivariate.setup V s x y)
  let (ps, s) := drawRows V.randF (y + 1) (x + 1) s
  let (com, coms) ← unwrapRes (TBivariate.commit V ck ps)
  let (px, s) := V.randF s
  let (py, _) := V.randF s
  let proof ← unwrapRes (TBivariate.open_ V ck ps coms (px, py))
  let eval := bivariateEval ps px py
  assert (← unwrapRes (TBivariate.verify V ck com (px, py) eval proof))

/-- `transparent_univariate_poly_commit_test`, `transparent.rs:367-392`. -/
def tUnivariateTest (V : Env ρ F G1 G2 GT TF) (d : ℕ) (s : ρ) : Res Unit := do
  let (ck, s) ← unwrapRes (TUnivariate.setup V s d)
  let (cs, s) := randomGenerators V.randF s (d + 1)
  let p := polyOf cs
  let (com, coms) ← unwrapRes (TUnivariate.commit V ck p)
  let (z, _) := V.randF s
  let proof ← unwrapRes (TUnivariate.open_ V ck p coms z)
  assert (← unwrapRes (TUnivariate.verify V ck com z (polyEval p z) proof))

end

section
variable {σ τ F G1 G2 GT TF : Type} [Field F] [DecidableEq F] [AddCommGroup G1] [Module F G1]
  [AddCommGroup G2] [Module F G2] [AddCommGroup GT] [Module F GT] [Monoid TF] [DecidableEq GT]

/-- The messages of the next test, `sipp/src/lib.rs:235-242`. -/
def drawTriples (rand1 : τ → G1 × τ) (rand2 : τ → G2 × τ) (randF : τ → F × τ) :
    ℕ → τ → List G1 × List G2 × List F
  | 0, _ => ([], [], [])
  | n + 1, s =>
    let (a, s) := rand1 s
    let (b, s) := rand2 s
    let (r, s) := randF s
    let abr := drawTriples rand1 rand2 randF n s
    (a :: abr.1, b :: abr.2.1, r :: abr.2.2)

/-- `prove_and_verify_base_case`, `sipp/src/lib.rs:232-254`. -/
def sippTest (V : Sipp.Env σ F G1 G2 GT TF) (rand1 : τ → G1 × τ) (rand2 : τ → G2 × τ) (randF : τ → F × τ) (n : ℕ)
    (s : τ) : Res Unit := do
  let (a, b, r) := drawTriples rand1 rand2 randF n s
  let z ← Sipp.productOfPairingsWithCoeffs V a b r
  let isE ← isErr (Sipp.prove V a b r z)
  assert (!isE)
  let proof ← unwrapRes (Sipp.prove V a b r z)
  let isE ← isErr (Sipp.verify V a b r z proof)
  assert (!isE)
  assert (← unwrapRes (Sipp.verify V a b r z proof))

end

section
variable {ρ F G1 G2 GT TF : Type} [Field F] [DecidableEq F] [AddCommGroup G1] [Module F G1]
  [AddCommGroup G2] [Module F G2] [AddCommGroup GT] [Module F GT] [Monoid TF] [DecidableEq G1] [DecidableEq G2]
  [DecidableEq GT]

/-- `main` of `benches/benches/inner_products.rs:27-44`; `n` is `LEN`. -/
def ipBenchMain (V : Env ρ F G1 G2 GT TF) (n : ℕ) (s : ρ) : Res ρ := do
  let s ← ipBench (pairingIP V.E V.X) V.randG1 V.randG2 n s
  let s ← ipBench multiexpIP V.randG1 V.randF n s
  ipBench multiexpIP V.randG2 V.randF n s

/-- `main` of `benches/benches/gipa.rs:67-95`. -/
def gipaBenchMain (V : Env ρ F G1 G2 GT TF) (n : ℕ) (s : ρ) : Res ρ := do
  let s ← gipaBench V.pairingAB V.randG1 V.randG2 n s
  gipaBench V.multiexpGipa V.randG1 V.randF n s

/-- `main` of `benches/benches/tipa.rs:198-249`. -/
def tipaBenchMain (V : Env ρ F G1 G2 GT TF) (n : ℕ) (s : ρ) : Res ρ := do
  let s ← tipaBench V V.pairingAB V.randG1 V.randG2 n s
  let s ← tipaBench V V.multiexpGipa V.randG1 V.randF n s
  let s ← tipaShiftBench V V.pairingAB V.randG1 V.randG2 n s
  tipaSsmBench V V.multiexpSsm V.randG1 n s

end

end Ripp
