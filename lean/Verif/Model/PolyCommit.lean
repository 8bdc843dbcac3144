import Verif.Model.Ssm
import Mathlib.Data.Nat.Log
import Mathlib.Data.Nat.Sqrt

/-!
# Model of `ip_proofs/src/applications/poly_commit/mod.rs`
-/

namespace Ripp

/-- Parameters of the polynomial commitment schemes and of the Groth16 aggregation: the pairing, the
execution environment, the digest, `from_random_bytes`, the serializers and the sampling functions.
One execution environment is used for all parallel calls of a run; results do not depend on it. -/
structure Env (ρ F G1 G2 GT TF : Type) where
  E : Engine G1 G2 GT TF
  X : Exec
  digest : Bytes → Bytes
  fromRandomBytes : Bytes → Option F
  serF : F → Bytes
  serG1 : G1 → Bytes
  serG2 : G2 → Bytes
  serGT : GT → Bytes
  randF : ρ → F × ρ
  randG1 : ρ → G1 × ρ
  randG2 : ρ → G2 × ρ
  /-- `P::G1::generator()` -/
  g : G1
  /-- `P::G2::generator()` -/
  h : G2

/-- Serialization of `IdentityOutput<T>(Vec<T>)` (derived), `dh_commitments/src/identity/mod.rs:32`. -/
def serIdentity {T : Type} (ser : T → Bytes) (o : IdentityOutput T) : Bytes := serSeq ser o.vals

section
variable {ρ F G1 G2 GT TF : Type} [Field F] [DecidableEq F]
  [AddCommGroup G1] [Module F G1] [AddCommGroup G2] [Module F G2] [Monoid TF]

/-- The pairing environment of the TIPA code. -/
def Env.tipa (V : Env ρ F G1 G2 GT TF) : TipaEnv F G1 G2 GT TF :=
  { E := V.E, fromRandomBytes := V.fromRandomBytes, serG1 := V.serG1, serG2 := V.serG2 }

/-- `PolynomialEvaluationSecondTierIPA`, `poly_commit/mod.rs:34-40` (also
`poly_commit/transparent.rs:28-33` and `MultiExpInnerProductC`, `groth16_aggregation.rs:42-48`). -/
def Env.multiexpSsm (V : Env ρ F G1 G2 GT TF) :
    Gipa ρ F G1 F G1 G2 Placeholder Placeholder GT F (IdentityOutput G1) :=
  ssmGipa multiexpIP (afghoG1 V.E V.X V.randG2) identityCommitment V.digest V.serF V.serGT
    (serIdentity V.serG1)

namespace Kzg

/-- `KZG::setup`, `poly_commit/mod.rs:56-74`. -/
def setup (V : Env ρ F G1 G2 GT TF) (s : ρ) (degree : ℕ) :
    Res ((List G1 × VerifierSRS G1 G2) × ρ) := do
  let (alpha, s) := V.randF s
  let (beta, s) := V.randF s
  let powers ← structuredGenerators (degree + 1) V.g alpha
  return ((powers, { g := V.g, h := V.h, gBeta := beta • V.g, hAlpha := alpha • V.h }), s)

/-- `KZG::commit`, `poly_commit/mod.rs:76-86`. -/
def commit (powers : List G1) (p : List F) : Res G1 := do
  let d ← polyDegree p
  assert (decide (d + 1 ≤ powers.length))
  unwrap (msm powers (resize p powers.length 0))

/-- `KZG::open`, `poly_commit/mod.rs:88-106`. -/
def open_ (powers : List G1) (p : List F) (z : F) : Res G1 := do
  let d ← polyDegree p
  assert (decide (d + 1 ≤ powers.length))
  let quotient := polyDivLinear p z
  unwrap (msm powers (resize quotient powers.length 0))

variable [DecidableEq GT]

/-- `KZG::verify`, `poly_commit/mod.rs:108-117`. -/
def verify (E : Engine G1 G2 GT TF) (v : VerifierSRS G1 G2) (com : G1) (z eval : F) (proof : G1) :
    Res Bool := do
  let lhs ← E.pairing (com - eval • v.g) v.h
  let rhs ← E.pairing proof (v.hAlpha - z • v.h)
  return decide (lhs = rhs)

end Kzg

/-- `BivariatePolynomial::evaluate`, `poly_commit/mod.rs:125-138` and `transparent.rs:63-76`. The
polynomial is the list of its `y_polynomials`. -/
def bivariateEval (ps : List (List F)) (x y : F) : F :=
  (List.zipWith (fun xp p => xp * polyEval p y) (powersLoop x ps.length 1 []) ps).sum

/-- `y_eval_coeffs`, `poly_commit/mod.rs:219-236` and `transparent.rs:142-159`: `m` columns, `powers`
the powers of `x`. -/
def yEvalCoeffs (ps : List (List F)) (powers : List F) (n m : ℕ) : Res (List F) :=
  let coeffs := (resize ps n []).map fun p => resize p m 0
  (List.range m).mapM fun j => do
    let terms ← (List.range n).mapM fun i => do
      let xp ← idx powers i
      let row ← idx coeffs i
      let c ← idx row j
      return xp * c
    return terms.sum

/-- `OpeningProof`, `poly_commit/mod.rs:141-145`. -/
structure PcProof (F G1 G2 GT : Type) where
  ip : TipaSsmProof F G2 G1 GT (IdentityOutput G1)
  yEvalComm : G1
  kzg : G1

namespace Bivariate

/-- `BivariatePolynomialCommitment::setup`, `poly_commit/mod.rs:153-174`. -/
def setup (V : Env ρ F G1 G2 GT TF) (s : ρ) (xDegree yDegree : ℕ) :
    Res ((SRS G1 G2 × List G1) × ρ) := do
  let (alpha, s) := V.randF s
  let (beta, s) := V.randF s
  let kzg ← structuredGenerators (yDegree + 1) V.g alpha
  let hb ← structuredGenerators (2 * xDegree + 1) V.h beta
  return (({ gAlphaPowers := [V.g], hBetaPowers := hb, gBeta := beta • V.g,
             hAlpha := alpha • V.h }, kzg), s)

/-- `BivariatePolynomialCommitment::commit`, `poly_commit/mod.rs:176-198`. -/
def commit (V : Env ρ F G1 G2 GT TF) (srs : SRS G1 G2 × List G1) (ps : List (List F)) :
    Res (GT × List G1) := do
  let ck := srs.1.commitmentKeys.1
  assert (decide (ps.length ≤ ck.length))
  let coms ← (resize ps ck.length []).mapM fun p => Kzg.commit srs.2 p
  let com ← (afghoG1 V.E V.X V.randG2).commit ck coms
  return (com, coms)

/-- `BivariatePolynomialCommitment::open`, `poly_commit/mod.rs:200-262`. -/
def open_ (V : Env ρ F G1 G2 GT TF) (srs : SRS G1 G2 × List G1) (ps : List (List F))
    (coms : List G1) (point : F × F) : Res (PcProof F G1 G2 GT) := do
  let ck := srs.1.commitmentKeys.1
  assert (decide (ps.length ≤ ck.length))
  let powersOfX := powersLoop point.1 ck.length 1 []
  let yEval ← yEvalCoeffs ps powersOfX ck.length srs.2.length
  let yEvalComm ← unwrap (msm srs.2 yEval)
  let ip ← TipaSsm.prove V.tipa V.multiexpSsm srs.1 coms powersOfX ck PUnit.unit
  let kzg ← Kzg.open_ srs.2 (polyOf yEval) point.2
  return { ip := ip, yEvalComm := yEvalComm, kzg := kzg }

variable [DecidableEq G1] [AddCommGroup GT] [Module F GT] [DecidableEq GT]

/-- `BivariatePolynomialCommitment::verify`, `poly_commit/mod.rs:264-283`. -/
def verify (V : Env ρ F G1 G2 GT TF) (v : VerifierSRS G1 G2) (com : GT) (point : F × F) (eval : F)
    (proof : PcProof F G1 G2 GT) : Res Bool := do
  let ipValid ← TipaSsm.verify V.X V.tipa V.multiexpSsm v PUnit.unit com ⟨[proof.yEvalComm]⟩
    point.1 proof.ip
  let kzgValid ← Kzg.verify V.E v proof.yEvalComm point.2 eval proof.kzg
  return (ipValid && kzgValid)

end Bivariate

end

/-! ## The degree split, with IEEE-754 arithmetic -/

/-- `n as f64` for a natural number `n` (round to nearest, ties to even; the result is an integer). -/
def f64OfNat (n : ℕ) : ℕ :=
  if n < 2 ^ 53 then n
  else
    let k := Nat.log2 n - 52
    let q := n / 2 ^ k
    let r := n % 2 ^ k
    if 2 * r < 2 ^ k then q * 2 ^ k
    else if 2 ^ k < 2 * r then (q + 1) * 2 ^ k
    else if q % 2 = 0 then q * 2 ^ k else (q + 1) * 2 ^ k

/-- `(m as f64).sqrt().ceil() as usize` for an integer-valued `f64` `m` with `1 ≤ m ≤ 2^64`. The
square root is correctly rounded to 53 significant bits: with `e = ⌊log₂ √m⌋` it is `r / 2^(52-e)`
where `r` is `√m * 2^(52-e)` rounded to the nearest integer (a tie is impossible). -/
def f64CeilSqrt (m : ℕ) : ℕ :=
  let k := 52 - Nat.log2 m / 2
  let s := m * 4 ^ k
  let r := if s - s.sqrt * s.sqrt ≤ s.sqrt then s.sqrt else s.sqrt + 1
  (r + 2 ^ k - 1) / 2 ^ k

/-- `usize::next_power_of_two`. -/
def nextPow2 (n : ℕ) : ℕ := 2 ^ Nat.clog 2 n

/-- `let sqrt = (((univariate_degree + 1) as f64).sqrt().ceil() as usize).next_power_of_two();`,
`poly_commit/mod.rs:294` and `transparent.rs:223`. `univariate_degree + 1` may overflow. -/
def sqrtPow2 (degree : ℕ) : Res ℕ :=
  if 2 ^ 64 ≤ degree + 1 then panic' .overflow
  else .ok (nextPow2 (f64CeilSqrt (f64OfNat (degree + 1))))

/-- `(sqrt / skew_factor - 1, sqrt * skew_factor - 1)`, `poly_commit/mod.rs:297` and
`transparent.rs:226`. -/
def splitDegrees (sqrt skew : ℕ) : Res (ℕ × ℕ) :=
  if skew = 0 then panic' .divZero
  else if sqrt / skew = 0 ∨ sqrt * skew = 0 then panic' .overflow
  else .ok (sqrt / skew - 1, sqrt * skew - 1)

/-- `UnivariatePolynomialCommitment::bivariate_degrees`, `poly_commit/mod.rs:292-298`. -/
def bivariateDegrees (degree : ℕ) : Res (ℕ × ℕ) := do
  let sqrt ← sqrtPow2 degree
  splitDegrees sqrt (if 32 ≤ sqrt then 16 else sqrt / 2)

section
variable {F : Type} [Field F] [DecidableEq F]

/-- The inner loop building one `y_polynomial`, `poly_commit/mod.rs:320-323`: take `n` coefficients
from the iterator. -/
def takeCoeffs : ℕ → List F → Res (List F × List F)
  | 0, it => .ok ([], it)
  | n + 1, it => do
    let c ← unwrap it.head?
    let (cs, it) ← takeCoeffs n it.tail
    return (c :: cs, it)

/-- The outer loop, `poly_commit/mod.rs:319-327`. -/
def takeRows (w : ℕ) : ℕ → List F → Res (List (List F))
  | 0, _ => .ok []
  | n + 1, it => do
    let (cs, it) ← takeCoeffs w it
    let rows ← takeRows w n it
    return (polyOf cs :: rows)

/-- `UnivariatePolynomialCommitment::bivariate_form`, `poly_commit/mod.rs:306-329` and
`transparent.rs:235-258`. -/
def bivariateForm (degrees : ℕ × ℕ) (p : List F) : Res (List (List F)) :=
  takeRows (degrees.2 + 1) (degrees.1 + 1) (resize p ((degrees.1 + 1) * (degrees.2 + 1)) 0)

end

namespace Univariate

variable {ρ F G1 G2 GT TF : Type} [Field F] [DecidableEq F]
  [AddCommGroup G1] [Module F G1] [AddCommGroup G2] [Module F G2] [Monoid TF]

/-- `parse_bivariate_degrees_from_srs`, `poly_commit/mod.rs:300-304`. -/
def parseDegrees (srs : SRS G1 G2 × List G1) : Res (ℕ × ℕ) :=
  if srs.1.hBetaPowers.length = 0 ∨ srs.2.length = 0 then panic' .overflow
  else .ok ((srs.1.hBetaPowers.length - 1) / 2, srs.2.length - 1)

/-- `UnivariatePolynomialCommitment::setup`, `poly_commit/mod.rs:331-334`. -/
def setup (V : Env ρ F G1 G2 GT TF) (s : ρ) (degree : ℕ) :
    Res ((SRS G1 G2 × List G1) × ρ) := do
  let (x, y) ← bivariateDegrees degree
  Bivariate.setup V s x y

/-- `UnivariatePolynomialCommitment::commit`, `poly_commit/mod.rs:336-345`. -/
def commit (V : Env ρ F G1 G2 GT TF) (srs : SRS G1 G2 × List G1) (p : List F) :
    Res (GT × List G1) := do
  let degrees ← parseDegrees srs
  Bivariate.commit V srs (← bivariateForm degrees p)

/-- `UnivariatePolynomialCommitment::open`, `poly_commit/mod.rs:347-362`. -/
def open_ (V : Env ρ F G1 G2 GT TF) (srs : SRS G1 G2 × List G1) (p : List F) (coms : List G1)
    (z : F) : Res (PcProof F G1 G2 GT) := do
  let degrees ← parseDegrees srs
  let x := z ^ (degrees.2 + 1)
  Bivariate.open_ V srs (← bivariateForm degrees p) coms (x, z)

variable [DecidableEq G1] [AddCommGroup GT] [Module F GT] [DecidableEq GT]

/-- `UnivariatePolynomialCommitment::verify`, `poly_commit/mod.rs:364-376`. -/
def verify (V : Env ρ F G1 G2 GT TF) (v : VerifierSRS G1 G2) (maxDegree : ℕ) (com : GT) (z eval : F)
    (proof : PcProof F G1 G2 GT) : Res Bool := do
  let (_, y) ← bivariateDegrees maxDegree
  let x := z ^ (y + 1)
  Bivariate.verify V v com (x, z) eval proof

end Univariate

end Ripp
