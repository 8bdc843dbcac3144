import Verif.Model.PolyCommit

/-!
# Model of `ip_proofs/src/applications/poly_commit/transparent.rs`

`BivariatePolynomial::evaluate` and `bivariate_form` are textually the same as in `mod.rs` and are
modelled by `bivariateEval` and `bivariateForm`.
-/

namespace Ripp

/-- `OpeningProof`, `poly_commit/transparent.rs:79-83`. -/
structure TpcProof (F G1 GT : Type) where
  second : GipaProof G1 F GT F (IdentityOutput G1)
  yEvalComm : G1
  first : GipaProof F F G1 F (IdentityOutput F)

/-- `UnivariatePolynomialCommitment::bivariate_degrees`, `poly_commit/transparent.rs:221-227`. -/
def bivariateDegreesT (degree : ℕ) : Res (ℕ × ℕ) := do
  let sqrt ← sqrtPow2 degree
  splitDegrees sqrt (if 8 ≤ sqrt then 4 else sqrt / 2)

variable {ρ F G1 G2 GT TF : Type} [Field F] [DecidableEq F]
  [AddCommGroup G1] [Module F G1] [AddCommGroup G2] [Module F G2] [Monoid TF]

/-- `PolynomialEvaluationFirstTierIPA`, `poly_commit/transparent.rs:43-48`. -/
def Env.scalarSsm (V : Env ρ F G1 G2 GT TF) :
    Gipa ρ F F F F G1 Placeholder Placeholder G1 F (IdentityOutput F) :=
  ssmGipa (scalarIP V.X) (pedersen V.randG1) identityCommitment V.digest V.serF V.serG1
    (serIdentity V.serF)

namespace TBivariate

/-- `BivariatePolynomialCommitment::setup`, `poly_commit/transparent.rs:91-99`. -/
def setup (V : Env ρ F G1 G2 GT TF) (s : ρ) (xDegree yDegree : ℕ) :
    Res ((List G1 × List G2) × ρ) := do
  let ((ck1, _), s) ← GipaSsm.setup (pedersen (F := F) V.randG1)
    (identityCommitment (T := F)) s (yDegree + 1)
  let ((ck2, _), s) ← GipaSsm.setup (afghoG1 V.E V.X V.randG2)
    (identityCommitment (T := G1)) s (xDegree + 1)
  return ((ck1, ck2), s)

/-- `BivariatePolynomialCommitment::commit`, `poly_commit/transparent.rs:101-127`. -/
def commit (V : Env ρ F G1 G2 GT TF) (ck : List G1 × List G2) (ps : List (List F)) :
    Res (GT × List G1) := do
  assert (decide (ps.length ≤ ck.2.length))
  let coms ← (resize ps ck.2.length []).mapM fun p => do
    assert (decide (p.length ≤ ck.1.length))
    (pedersen V.randG1).commit ck.1 (resize p ck.1.length 0)
  let com ← (afghoG1 V.E V.X V.randG2).commit ck.2 coms
  return (com, coms)

/-- `BivariatePolynomialCommitment::open`, `poly_commit/transparent.rs:129-186`. -/
def open_ (V : Env ρ F G1 G2 GT TF) (ck : List G1 × List G2) (ps : List (List F)) (coms : List G1)
    (point : F × F) : Res (TpcProof F G1 GT) := do
  assert (decide (ps.length ≤ ck.2.length))
  let powersOfX ← structuredScalarPower ck.2.length point.1
  let yEval ← yEvalCoeffs ps powersOfX ck.2.length ck.1.length
  let yEvalComm ← (pedersen V.randG1).commit ck.1 yEval
  let second ← GipaSsm.prove V.multiexpSsm coms powersOfX ck.2 PUnit.unit
  let powersOfY ← structuredScalarPower ck.1.length point.2
  let first ← GipaSsm.prove V.scalarSsm yEval powersOfY ck.1 PUnit.unit
  return { second := second, yEvalComm := yEvalComm, first := first }

variable [DecidableEq G1] [AddCommGroup GT] [Module F GT] [DecidableEq GT]

/-- `BivariatePolynomialCommitment::verify`, `poly_commit/transparent.rs:188-212`. -/
def verify (V : Env ρ F G1 G2 GT TF) (ck : List G1 × List G2) (com : GT) (point : F × F) (eval : F)
    (proof : TpcProof F G1 GT) : Res Bool := do
  let secondValid ← GipaSsm.verify V.X V.multiexpSsm ck.2 PUnit.unit com ⟨[proof.yEvalComm]⟩
    point.1 proof.second
  let firstValid ← GipaSsm.verify V.X V.scalarSsm ck.1 PUnit.unit proof.yEvalComm ⟨[eval]⟩
    point.2 proof.first
  return (secondValid && firstValid)

end TBivariate

namespace TUnivariate

/-- `parse_bivariate_degrees_from_ck`, `poly_commit/transparent.rs:229-233`. -/
def parseDegrees (ck : List G1 × List G2) : Res (ℕ × ℕ) :=
  if ck.2.length = 0 ∨ ck.1.length = 0 then panic' .overflow
  else .ok (ck.2.length - 1, ck.1.length - 1)

/-- `UnivariatePolynomialCommitment::setup`, `poly_commit/transparent.rs:260-263`. -/
def setup (V : Env ρ F G1 G2 GT TF) (s : ρ) (degree : ℕ) :
    Res ((List G1 × List G2) × ρ) := do
  let (x, y) ← bivariateDegreesT degree
  TBivariate.setup V s x y

/-- `UnivariatePolynomialCommitment::commit`, `poly_commit/transparent.rs:265-274`. -/
def commit (V : Env ρ F G1 G2 GT TF) (ck : List G1 × List G2) (p : List F) :
    Res (GT × List G1) := do
  let degrees ← parseDegrees ck
  TBivariate.commit V ck (← bivariateForm degrees p)

/-- `UnivariatePolynomialCommitment::open`, `poly_commit/transparent.rs:276-291`. -/
def open_ (V : Env ρ F G1 G2 GT TF) (ck : List G1 × List G2) (p : List F) (coms : List G1)
    (z : F) : Res (TpcProof F G1 GT) := do
  let degrees ← parseDegrees ck
  let x := z ^ (degrees.2 + 1)
  TBivariate.open_ V ck (← bivariateForm degrees p) coms (x, z)

variable [DecidableEq G1] [AddCommGroup GT] [Module F GT] [DecidableEq GT]

/-- `UnivariatePolynomialCommitment::verify`, `poly_commit/transparent.rs:293-304`. -/
def verify (V : Env ρ F G1 G2 GT TF) (ck : List G1 × List G2) (com : GT) (z eval : F)
    (proof : TpcProof F G1 GT) : Res Bool := do
  let degrees ← parseDegrees ck
  let x := z ^ (degrees.2 + 1)
  TBivariate.verify V ck com (x, z) eval proof

end TUnivariate

end Ripp
