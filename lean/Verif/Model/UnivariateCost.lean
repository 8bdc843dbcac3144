import Verif.Model.ProverCost
import Verif.Model.Transparent

/-!
# The set-ups and the univariate polynomial commitments, with their expensive operations counted

The functions follow `Verif/Model/Tipa.lean`, `PolyCommit.lean` and `Transparent.lean` line by line. The
windowed fixed-base multiplication of ark-ec counts as one multiplication for every scalar; its table is
not counted. Random draws are not counted here (see C104 for their number). `point.pow(…)` counts as
one operation of kind `pow`.
-/

namespace Ripp

open Counted

variable {ρ F G1 G2 GT TF T KT OT : Type} [Field F] [DecidableEq F]
  [AddCommGroup G1] [Module F G1] [AddCommGroup G2] [Module F G2] [Monoid TF]

/-- `structured_generators_scalar_power`, `ip_proofs/src/tipa/mod.rs:372-391`. -/
def structuredGeneratorsC {G : Type} [AddCommGroup G] [Module F G] (num : ℕ) (g : G) (s : F) :
    Counted (List G) := do
  free (assert (decide (0 < num)))
  let powers ← powersLoopC s num 1 []
  powers.mapM fun p => smulC p g

/-- `Field::pow`. -/
def powC (z : F) (n : ℕ) : Counted F := do tick .pow 1; return z ^ n

/-- `TIPA::setup`, `ip_proofs/src/tipa/mod.rs:150-164`, and `TIPAWithSSM::setup`,
`structured_scalar_message.rs:195-209`. -/
def tipaSetupC (randF : ρ → F × ρ) (g : G1) (h : G2) (ipc : Commitment ρ KT T OT) (s : ρ)
    (size : ℕ) : Counted ((SRS G1 G2 × KT) × ρ) := do
  let (alpha, s) := randF s
  let (beta, s) := randF s
  free (if size = 0 then panic' .overflow else .ok ())
  let gAlphaPowers ← structuredGeneratorsC (2 * size - 1) g alpha
  let hBetaPowers ← structuredGeneratorsC (2 * size - 1) h beta
  let (kt, s) ← free (ipc.setup s 1)
  let kt ← free (unwrap kt.getLast?)
  let gBeta ← smulC beta g
  let hAlpha ← smulC alpha h
  return (({ gAlphaPowers := gAlphaPowers, hBetaPowers := hBetaPowers, gBeta := gBeta,
             hAlpha := hAlpha }, kt), s)

/-- `KZG::setup`, `poly_commit/mod.rs:56-74`. -/
def Kzg.setupC (V : Env ρ F G1 G2 GT TF) (s : ρ) (degree : ℕ) :
    Counted ((List G1 × VerifierSRS G1 G2) × ρ) := do
  let (alpha, s) := V.randF s
  let (beta, s) := V.randF s
  let powers ← structuredGeneratorsC (degree + 1) V.g alpha
  let gBeta ← smulC beta V.g
  let hAlpha ← smulC alpha V.h
  return ((powers, { g := V.g, h := V.h, gBeta := gBeta, hAlpha := hAlpha }), s)

/-- `BivariatePolynomialCommitment::setup`, `poly_commit/mod.rs:153-174`. -/
def Bivariate.setupC (V : Env ρ F G1 G2 GT TF) (s : ρ) (xDegree yDegree : ℕ) :
    Counted ((SRS G1 G2 × List G1) × ρ) := do
  let (alpha, s) := V.randF s
  let (beta, s) := V.randF s
  let kzg ← structuredGeneratorsC (yDegree + 1) V.g alpha
  let hb ← structuredGeneratorsC (2 * xDegree + 1) V.h beta
  let gBeta ← smulC beta V.g
  let hAlpha ← smulC alpha V.h
  return (({ gAlphaPowers := [V.g], hBetaPowers := hb, gBeta := gBeta, hAlpha := hAlpha }, kzg), s)

namespace Univariate

/-- `UnivariatePolynomialCommitment::setup`, `poly_commit/mod.rs:331-334`. -/
def setupC (V : Env ρ F G1 G2 GT TF) (s : ρ) (degree : ℕ) :
    Counted ((SRS G1 G2 × List G1) × ρ) := do
  let (x, y) ← free (bivariateDegrees degree)
  Bivariate.setupC V s x y

/-- `UnivariatePolynomialCommitment::commit`, `poly_commit/mod.rs:336-345`. -/
def commitC (V : Env ρ F G1 G2 GT TF) (srs : SRS G1 G2 × List G1) (p : List F) :
    Counted (GT × List G1) := do
  let degrees ← free (parseDegrees srs)
  Bivariate.commitC V srs (← free (bivariateForm degrees p))

/-- `UnivariatePolynomialCommitment::open`, `poly_commit/mod.rs:347-362`. -/
def openC (V : Env ρ F G1 G2 GT TF) (srs : SRS G1 G2 × List G1) (p : List F) (coms : List G1)
    (z : F) : Counted (PcProof F G1 G2 GT) := do
  let degrees ← free (parseDegrees srs)
  let x ← powC z (degrees.2 + 1)
  Bivariate.openC V srs (← free (bivariateForm degrees p)) coms (x, z)

/-- `UnivariatePolynomialCommitment::verify`, `poly_commit/mod.rs:364-376`. -/
def verifyC [DecidableEq G1] [AddCommGroup GT] [Module F GT] [DecidableEq GT]
    (V : Env ρ F G1 G2 GT TF) (v : VerifierSRS G1 G2) (maxDegree : ℕ) (com : GT) (z eval : F)
    (proof : PcProof F G1 G2 GT) : Counted Bool := do
  let (_, y) ← free (bivariateDegrees maxDegree)
  let x ← powC z (y + 1)
  Bivariate.verifyC V v com (x, z) eval proof

end Univariate

namespace TUnivariate

/-- `UnivariatePolynomialCommitment::commit`, `poly_commit/transparent.rs:265-274`. -/
def commitC (V : Env ρ F G1 G2 GT TF) (ck : List G1 × List G2) (p : List F) :
    Counted (GT × List G1) := do
  let degrees ← free (parseDegrees ck)
  TBivariate.commitC V ck (← free (bivariateForm degrees p))

/-- `UnivariatePolynomialCommitment::open`, `poly_commit/transparent.rs:276-291`. -/
def openC (V : Env ρ F G1 G2 GT TF) (ck : List G1 × List G2) (p : List F) (coms : List G1)
    (z : F) : Counted (TpcProof F G1 GT) := do
  let degrees ← free (parseDegrees ck)
  let x ← powC z (degrees.2 + 1)
  TBivariate.openC V ck (← free (bivariateForm degrees p)) coms (x, z)

/-- `UnivariatePolynomialCommitment::verify`, `poly_commit/transparent.rs:293-304`. -/
def verifyC [DecidableEq G1] [AddCommGroup GT] [Module F GT] [DecidableEq GT]
    (V : Env ρ F G1 G2 GT TF) (ck : List G1 × List G2) (com : GT) (z eval : F)
    (proof : TpcProof F G1 GT) : Counted Bool := do
  let degrees ← free (parseDegrees ck)
  let x ← powC z (degrees.2 + 1)
  TBivariate.verifyC V ck com (x, z) eval proof

end TUnivariate

end Ripp
