import Verif.Model.Bench
import Verif.Model.Groth16

/-!
# Release builds

The other model files follow debug builds, where `usize` arithmetic panics on overflow. No profile in
`Cargo.toml` switches the checks on, so in release builds (`cargo bench`, `cargo run --release`) the same
expressions wrap around modulo `2^64`. This file repeats every function of the model that reports `.overflow`,
with wrapping arithmetic. The functions called by them do no arithmetic that can overflow and are shared.
Division by zero, `unwrap` and `assert!` panic in release builds too.
-/

namespace Ripp

namespace Release

/-- `a + b` on `usize` in a release build. -/
def wadd (a b : ℕ) : ℕ := (a + b) % 2 ^ 64

/-- `a - b` on `usize` in a release build, for `b ≤ 2^64`. -/
def wsub (a b : ℕ) : ℕ := (a + (2 ^ 64 - b)) % 2 ^ 64

/-- `a * b` on `usize` in a release build. -/
def wmul (a b : ℕ) : ℕ := a * b % 2 ^ 64

/-- `poly_commit/mod.rs:294` and `transparent.rs:223`. For degree `2^64 - 1` the argument of the square root is `0`, and
`0.next_power_of_two()` is `1`. -/
def sqrtPow2 (degree : ℕ) : ℕ := nextPow2 (f64CeilSqrt (f64OfNat (wadd degree 1)))

/-- `poly_commit/mod.rs:297` and `transparent.rs:226`. -/
def splitDegrees (sqrt skew : ℕ) : Res (ℕ × ℕ) :=
  if skew = 0 then panic' .divZero else .ok (wsub (sqrt / skew) 1, wsub (wmul sqrt skew) 1)

/-- `bivariate_degrees`, `poly_commit/mod.rs:292-298`. -/
def bivariateDegrees (degree : ℕ) : Res (ℕ × ℕ) :=
  splitDegrees (sqrtPow2 degree) (if 32 ≤ sqrtPow2 degree then 16 else sqrtPow2 degree / 2)

/-- `bivariate_degrees`, `poly_commit/transparent.rs:221-227`. -/
def bivariateDegreesT (degree : ℕ) : Res (ℕ × ℕ) :=
  splitDegrees (sqrtPow2 degree) (if 8 ≤ sqrtPow2 degree then 4 else sqrtPow2 degree / 2)

/-- `bivariate_form`, `poly_commit/mod.rs:306-329` and `transparent.rs:235-258`. -/
def bivariateForm {F : Type} [Field F] [DecidableEq F] (degrees : ℕ × ℕ) (p : List F) : Res (List (List F)) :=
  takeRows (wadd degrees.2 1) (wadd degrees.1 1) (resize p (wmul (wadd degrees.1 1) (wadd degrees.2 1)) 0)

section Setup
variable {ρ F G1 G2 KT T OT : Type} [Field F] [AddCommGroup G1] [Module F G1]
  [AddCommGroup G2] [Module F G2]

/-- `TIPA::setup`, `ip_proofs/src/tipa/mod.rs:150-164`, and `structured_scalar_message.rs:195-209`. -/
def tipaSetup (randF : ρ → F × ρ) (g : G1) (h : G2) (ipc : Commitment ρ KT T OT) (s : ρ)
    (size : ℕ) : Res ((SRS G1 G2 × KT) × ρ) := do
  let (alpha, s) := randF s
  let (beta, s) := randF s
  let gAlphaPowers ← structuredGenerators (wsub (wmul 2 size) 1) g alpha
  let hBetaPowers ← structuredGenerators (wsub (wmul 2 size) 1) h beta
  let (kt, s) ← ipc.setup s 1
  let kt ← unwrap kt.getLast?
  return (({ gAlphaPowers := gAlphaPowers, hBetaPowers := hBetaPowers, gBeta := beta • g,
             hAlpha := alpha • h }, kt), s)

end Setup

section
variable {ρ F G1 G2 GT TF : Type} [Field F] [DecidableEq F] [AddCommGroup G1] [Module F G1]
  [AddCommGroup G2] [Module F G2] [AddCommGroup GT] [Module F GT] [Monoid TF] [DecidableEq G1]
  [DecidableEq GT]

namespace Kzg

/-- `KZG::setup`, `poly_commit/mod.rs:56-74`. -/
def setup (V : Env ρ F G1 G2 GT TF) (s : ρ) (degree : ℕ) : Res ((List G1 × VerifierSRS G1 G2) × ρ) := do
  let (alpha, s) := V.randF s
  let (beta, s) := V.randF s
  let powers ← structuredGenerators (wadd degree 1) V.g alpha
  return ((powers, { g := V.g, h := V.h, gBeta := beta • V.g, hAlpha := alpha • V.h }), s)

end Kzg

namespace Bivariate

/-- `BivariatePolynomialCommitment::setup`, `poly_commit/mod.rs:153-174`. -/
def setup (V : Env ρ F G1 G2 GT TF) (s : ρ) (xDegree yDegree : ℕ) :
    Res ((SRS G1 G2 × List G1) × ρ) := do
  let (alpha, s) := V.randF s
  let (beta, s) := V.randF s
  let kzg ← structuredGenerators (wadd yDegree 1) V.g alpha
  let hb ← structuredGenerators (wadd (wmul 2 xDegree) 1) V.h beta
  return (({ gAlphaPowers := [V.g], hBetaPowers := hb, gBeta := beta • V.g,
             hAlpha := alpha • V.h }, kzg), s)

end Bivariate

namespace Univariate

/-- `parse_bivariate_degrees_from_srs`, `poly_commit/mod.rs:300-304`. -/
def parseDegrees (srs : SRS G1 G2 × List G1) : ℕ × ℕ :=
  (wsub srs.1.hBetaPowers.length 1 / 2, wsub srs.2.length 1)

/-- `UnivariatePolynomialCommitment::setup`, `poly_commit/mod.rs:331-334`. -/
def setup (V : Env ρ F G1 G2 GT TF) (s : ρ) (degree : ℕ) : Res ((SRS G1 G2 × List G1) × ρ) := do
  let (x, y) ← bivariateDegrees degree
  Bivariate.setup V s x y

/-- `UnivariatePolynomialCommitment::commit`, `poly_commit/mod.rs:336-345`. -/
def commit (V : Env ρ F G1 G2 GT TF) (srs : SRS G1 G2 × List G1) (p : List F) : Res (GT × List G1) := do
  Ripp.Bivariate.commit V srs (← bivariateForm (parseDegrees srs) p)

/-- `UnivariatePolynomialCommitment::open`, `poly_commit/mod.rs:347-362`. -/
def open_ (V : Env ρ F G1 G2 GT TF) (srs : SRS G1 G2 × List G1) (p : List F) (coms : List G1)
    (z : F) : Res (PcProof F G1 G2 GT) := do
  Ripp.Bivariate.open_ V srs (← bivariateForm (parseDegrees srs) p) coms (z ^ wadd (parseDegrees srs).2 1, z)

/-- `UnivariatePolynomialCommitment::verify`, `poly_commit/mod.rs:364-376`. -/
def verify (V : Env ρ F G1 G2 GT TF) (v : VerifierSRS G1 G2) (maxDegree : ℕ) (com : GT) (z eval : F)
    (proof : PcProof F G1 G2 GT) : Res Bool := do
  let (_, y) ← bivariateDegrees maxDegree
  Ripp.Bivariate.verify V v com (z ^ wadd y 1, z) eval proof

end Univariate

namespace TBivariate

/-- `BivariatePolynomialCommitment::setup`, `poly_commit/transparent.rs:91-99`. -/
def setup (V : Env ρ F G1 G2 GT TF) (s : ρ) (xDegree yDegree : ℕ) : Res ((List G1 × List G2) × ρ) := do
  let ((ck1, _), s) ← GipaSsm.setup (pedersen (F := F) V.randG1)
    (identityCommitment (T := F)) s (wadd yDegree 1)
  let ((ck2, _), s) ← GipaSsm.setup (afghoG1 V.E V.X V.randG2)
    (identityCommitment (T := G1)) s (wadd xDegree 1)
  return ((ck1, ck2), s)

end TBivariate

namespace TUnivariate

/-- `parse_bivariate_degrees_from_ck`, `poly_commit/transparent.rs:229-233`. -/
def parseDegrees (ck : List G1 × List G2) : ℕ × ℕ := (wsub ck.2.length 1, wsub ck.1.length 1)

/-- `UnivariatePolynomialCommitment::setup`, `poly_commit/transparent.rs:260-263`. -/
def setup (V : Env ρ F G1 G2 GT TF) (s : ρ) (degree : ℕ) : Res ((List G1 × List G2) × ρ) := do
  let (x, y) ← bivariateDegreesT degree
  TBivariate.setup V s x y

/-- `UnivariatePolynomialCommitment::commit`, `poly_commit/transparent.rs:265-274`. -/
def commit (V : Env ρ F G1 G2 GT TF) (ck : List G1 × List G2) (p : List F) : Res (GT × List G1) := do
  Ripp.TBivariate.commit V ck (← bivariateForm (parseDegrees ck) p)

/-- `UnivariatePolynomialCommitment::open`, `poly_commit/transparent.rs:276-291`. -/
def open_ (V : Env ρ F G1 G2 GT TF) (ck : List G1 × List G2) (p : List F) (coms : List G1)
    (z : F) : Res (TpcProof F G1 GT) := do
  Ripp.TBivariate.open_ V ck (← bivariateForm (parseDegrees ck) p) coms (z ^ wadd (parseDegrees ck).2 1, z)

/-- `UnivariatePolynomialCommitment::verify`, `poly_commit/transparent.rs:293-304`. -/
def verify (V : Env ρ F G1 G2 GT TF) (ck : List G1 × List G2) (com : GT) (z eval : F)
    (proof : TpcProof F G1 GT) : Res Bool :=
  Ripp.TBivariate.verify V ck com (z ^ wadd (parseDegrees ck).2 1, z) eval proof

end TUnivariate

end

namespace Bench

/-- `4_usize.pow((i + 1) as u32) - 1`, `poly_commit.rs:51`, for `i + 1 < 2^32`. -/
def benchDegree (i : ℕ) : ℕ := wsub (4 ^ (i + 1) % 2 ^ 64) 1

/-- The number of repetitions of `for _ in 0..(1 << max_num_inputs)`, `scaling-ipp.rs:45`: the shift amount of an `i32` is
taken modulo 32, and `1 << 31` is negative. -/
def shiftCount (hi : ℕ) : ℕ := if hi % 32 < 31 then 2 ^ (hi % 32) else 0

/-- The program after the arguments, `scaling-ipp.rs:40-101`, for `hi < 64`, where `1 << i` in line 56 (a `usize`) is
exact. -/
def scalingMain {σ F G1 G2 GT TF : Type} [Field F] [DecidableEq F] [AddCommGroup G1] [Module F G1]
    [AddCommGroup G2] [Module F G2] [AddCommGroup GT] [Module F GT] [Monoid TF] [DecidableEq GT]
    (V : Sipp.Env σ F G1 G2 GT TF) (shuffleA : ℕ → List G1 → List G1)
    (shuffleB : ℕ → List G2 → List G2) (g : G1) (h : G2) (x : F) (parse : String → Option ℕ) (args : List String) :
    Res Unit := do
  let (lo, hi, _) ← Ripp.Bench.scalingArgs parse args
  let a := List.replicate (shiftCount hi) (g + g)
  let b := List.replicate (shiftCount hi) (h + h)
  let r := List.replicate a.length x
  Ripp.Bench.scalingRun V shuffleA shuffleB r ((List.range (hi + 1)).drop lo) a b

end Bench

end Release

end Ripp
