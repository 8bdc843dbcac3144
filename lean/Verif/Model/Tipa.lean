import Verif.Model.Gipa
import Verif.Model.Poly

/-!
# Model of `ip_proofs/src/tipa/mod.rs`

`LMC::Key = P::G2` and `RMC::Key = P::G1` as required by the `impl` at lines 130-149.
-/

namespace Ripp

/-- `SRS`, `ip_proofs/src/tipa/mod.rs:97-102`. -/
structure SRS (G1 G2 : Type) where
  gAlphaPowers : List G1
  hBetaPowers : List G2
  gBeta : G1
  hAlpha : G2

/-- `VerifierSRS`, `ip_proofs/src/tipa/mod.rs:105-110`. -/
structure VerifierSRS (G1 G2 : Type) where
  g : G1
  h : G2
  gBeta : G1
  hAlpha : G2

/-- `iter().step_by(2)`. -/
def stepBy2 {α : Type} : List α → List α
  | [] => []
  | [x] => [x]
  | x :: _ :: xs => x :: stepBy2 xs

/-- `SRS::get_commitment_keys`, `ip_proofs/src/tipa/mod.rs:114-118`. -/
def SRS.commitmentKeys {G1 G2 : Type} (srs : SRS G1 G2) : List G2 × List G1 :=
  (stepBy2 srs.hBetaPowers, stepBy2 srs.gAlphaPowers)

/-- `SRS::get_verifier_key`, `ip_proofs/src/tipa/mod.rs:120-127`. -/
def SRS.verifierKey {G1 G2 : Type} (srs : SRS G1 G2) : Res (VerifierSRS G1 G2) := do
  let g ← idx srs.gAlphaPowers 0
  let h ← idx srs.hBetaPowers 0
  return { g := g, h := h, gBeta := srs.gBeta, hAlpha := srs.hAlpha }

section Keys
variable {F : Type} [Field F]

/-- The loop computing `powers_of_scalar`, `ip_proofs/src/tipa/mod.rs:378-383` (also
`poly_commit/mod.rs:127-132` and `212-217`): pushes `pow_s` and multiplies, `num` times. -/
def powersLoop (s : F) : ℕ → F → List F → List F
  | 0, _, acc => acc
  | n + 1, pow, acc => powersLoop s n (pow * s) (acc ++ [pow])

/-- `structured_generators_scalar_power`, `ip_proofs/src/tipa/mod.rs:372-391`. The windowed fixed-base
multiplication of ark-ec is scalar multiplication. -/
def structuredGenerators {G : Type} [AddCommGroup G] [Module F G] (num : ℕ) (g : G) (s : F) :
    Res (List G) := do
  assert (decide (0 < num))
  return (powersLoop s num 1 []).map (· • g)

/-- The loop of `polynomial_evaluation_product_form_from_transcript`,
`ip_proofs/src/tipa/mod.rs:398-404`; `p` is `power_2_zr`. -/
def productFormLoop : List F → F → List F → List F
  | [], _, acc => acc
  | x :: xs, p, acc => productFormLoop xs (p * p) (acc ++ [1 + x * p])

/-- `polynomial_evaluation_product_form_from_transcript`, `ip_proofs/src/tipa/mod.rs:393-405`. -/
def productForm (transcript : List F) (z rShift : F) : F :=
  (productFormLoop transcript (z * z * rShift) []).prod

/-- itertools' `interleave`. -/
def interleave {α : Type} : List α → List α → List α
  | [], ys => ys
  | x :: xs, ys => x :: interleave ys xs
termination_by xs ys => xs.length + ys.length

variable [DecidableEq F]

/-- The loop of `polynomial_coefficients_from_transcript`, `ip_proofs/src/tipa/mod.rs:410-415`; `p` is
`power_2_r`. -/
def coefficientLoop : List F → ℕ → F → List F → Res (List F)
  | [], _, _, acc => .ok acc
  | x :: xs, i, p, acc => do
    let acc ← pushScaled acc (x * p) (2 ^ i)
    coefficientLoop xs (i + 1) (p * p) acc

/-- `polynomial_coefficients_from_transcript`, `ip_proofs/src/tipa/mod.rs:407-422`. -/
def keyCoefficients (transcript : List F) (rShift : F) : Res (List F) := do
  let coeffs ← coefficientLoop transcript 0 rShift [1]
  return interleave coeffs (List.replicate (coeffs.length - 1) 0)

/-- `prove_commitment_key_kzg_opening`, `ip_proofs/src/tipa/mod.rs:304-337`. -/
def proveKeyOpening {G : Type} [AddCommGroup G] [Module F G] (srsPowers : List G)
    (transcript : List F) (rShift z : F) : Res G := do
  let ckPoly := polyOf (← keyCoefficients transcript rShift)
  assert (srsPowers.length == ckPoly.length)
  let cEval := productForm transcript z rShift
  let quotient := polyDivLinear (polySub ckPoly (polyOf [cEval])) z
  multiexpIP srsPowers (resize quotient srsPowers.length 0)

variable {G1 G2 GT TF : Type} [AddCommGroup G1] [Module F G1] [AddCommGroup G2] [Module F G2]
  [DecidableEq GT]

/-- `verify_commitment_key_g2_kzg_opening`, `ip_proofs/src/tipa/mod.rs:340-354`. -/
def verifyKeyOpeningG2 (E : Engine G1 G2 GT TF) (v : VerifierSRS G1 G2) (ckFinal opening : G2)
    (transcript : List F) (rShift z : F) : Res Bool := do
  let cEval := productForm transcript z rShift
  let lhs ← E.pairing v.g (ckFinal - cEval • v.h)
  let rhs ← E.pairing (v.gBeta - z • v.g) opening
  return decide (lhs = rhs)

/-- `verify_commitment_key_g1_kzg_opening`, `ip_proofs/src/tipa/mod.rs:356-370`. -/
def verifyKeyOpeningG1 (E : Engine G1 G2 GT TF) (v : VerifierSRS G1 G2) (ckFinal opening : G1)
    (transcript : List F) (rShift z : F) : Res Bool := do
  let cEval := productForm transcript z rShift
  let lhs ← E.pairing (ckFinal - cEval • v.g) v.h
  let rhs ← E.pairing opening (v.hAlpha - z • v.h)
  return decide (lhs = rhs)

end Keys

/-- What the TIPA code needs besides a GIPA instance: the pairing, `F::from_random_bytes`, and the
serializers of the two source groups. -/
structure TipaEnv (F G1 G2 GT TF : Type) where
  E : Engine G1 G2 GT TF
  fromRandomBytes : Bytes → Option F
  serG1 : G1 → Bytes
  serG2 : G2 → Bytes

/-- `TIPAProof`, `ip_proofs/src/tipa/mod.rs:42-65`. -/
structure TipaProof (G1 G2 MA MB OA OB OT : Type) where
  gipa : GipaProof MA MB OA OB OT
  finalCk : G2 × G1
  finalCkProof : G2 × G1

/-- `transcript.iter().map(|x| x.inverse().unwrap()).collect()`, e.g.
`ip_proofs/src/tipa/mod.rs:191` and `251`. -/
def invertAll {F : Type} [Field F] [DecidableEq F] (xs : List F) : Res (List F) :=
  xs.mapM fun x => unwrap (inverse x)

section Setup
variable {ρ F G1 G2 KT T OT : Type} [Field F] [AddCommGroup G1] [Module F G1]
  [AddCommGroup G2] [Module F G2]

/-- `TIPA::setup`, `ip_proofs/src/tipa/mod.rs:150-164`, and the identical `TIPAWithSSM::setup`,
`structured_scalar_message.rs:195-209`. `randF` is `F::rand`, `g`, `h` the fixed generators.
`2 * size - 1` underflows for `size = 0`. -/
def tipaSetup (randF : ρ → F × ρ) (g : G1) (h : G2) (ipc : Commitment ρ KT T OT) (s : ρ)
    (size : ℕ) : Res ((SRS G1 G2 × KT) × ρ) := do
  let (alpha, s) := randF s
  let (beta, s) := randF s
  if size = 0 then panic' .overflow
  let gAlphaPowers ← structuredGenerators (2 * size - 1) g alpha
  let hBetaPowers ← structuredGenerators (2 * size - 1) h beta
  let (kt, s) ← ipc.setup s 1
  let kt ← unwrap kt.getLast?
  return (({ gAlphaPowers := gAlphaPowers, hBetaPowers := hBetaPowers, gBeta := beta • g,
             hAlpha := alpha • h }, kt), s)

end Setup

namespace Tipa

variable {ρ F MA MB T KT OA OB OT G1 G2 GT TF : Type} [Field F] [DecidableEq F]
  [AddCommGroup MA] [Module F MA] [AddCommGroup MB] [Module F MB]
  [AddCommGroup G1] [Module F G1] [AddCommGroup G2] [Module F G2]

/-- The KZG challenge point, `ip_proofs/src/tipa/mod.rs:194-209` and `257-272`.
`transcript.first().unwrap()` panics on an empty transcript. -/
def kzgChallenge (V : TipaEnv F G1 G2 GT TF) (digest : Bytes → Bytes) (serF : F → Bytes)
    (transcript : List F) (cka : G2) (ckb : G1) : Res F :=
  searchNonce (fun nonce => do
    let t0 ← unwrap transcript.head?
    return V.fromRandomBytes
      (digest (nonceBytes nonce ++ serF t0 ++ V.serG2 cka ++ V.serG1 ckb))) nonceLimit 0

/-- `TIPA::prove_with_srs_shift`, `ip_proofs/src/tipa/mod.rs:176-231`. -/
def proveWithShift (V : TipaEnv F G1 G2 GT TF) (P : Gipa ρ F MA MB T G2 G1 KT OA OB OT)
    (srs : SRS G1 G2) (ma : List MA) (mb : List MB) (cka : List G2) (ckb : List G1) (ckt : KT)
    (rShift : F) : Res (TipaProof G1 G2 MA MB OA OB OT) := do
  let (proof, aux) ← P.proveWithAux ma mb cka ckb [ckt]
  let (ckaFinal, ckbFinal) := aux.ckBase
  let transcript := aux.transcript
  let transcriptInverse ← invertAll transcript
  let rInverse ← unwrap (inverse rShift)
  let c ← kzgChallenge V P.digest P.serF transcript ckaFinal ckbFinal
  let openA ← proveKeyOpening srs.hBetaPowers transcriptInverse rInverse c
  let openB ← proveKeyOpening srs.gAlphaPowers transcript 1 c
  return { gipa := proof, finalCk := (ckaFinal, ckbFinal), finalCkProof := (openA, openB) }

/-- `TIPA::prove`, `ip_proofs/src/tipa/mod.rs:166-172`. -/
def prove (V : TipaEnv F G1 G2 GT TF) (P : Gipa ρ F MA MB T G2 G1 KT OA OB OT)
    (srs : SRS G1 G2) (ma : List MA) (mb : List MB) (cka : List G2) (ckb : List G1) (ckt : KT) :
    Res (TipaProof G1 G2 MA MB OA OB OT) :=
  proveWithShift V P srs ma mb cka ckb ckt 1

variable [DecidableEq GT] [DecidableEq OA] [DecidableEq OB] [DecidableEq OT]
  [Add OA] [SMul F OA] [Add OB] [SMul F OB] [Add OT] [SMul F OT]

/-- `TIPA::verify_with_srs_shift`, `ip_proofs/src/tipa/mod.rs:242-301`. The base check at lines
291-298 is the same code as `_verify_base_commitment`. -/
def verifyWithShift (V : TipaEnv F G1 G2 GT TF) (P : Gipa ρ F MA MB T G2 G1 KT OA OB OT)
    (v : VerifierSRS G1 G2) (ckt : KT) (com : Coms OA OB OT)
    (proof : TipaProof G1 G2 MA MB OA OB OT) (rShift : F) : Res Bool := do
  let (baseCom, transcript) ← P.recursiveChallenges com proof.gipa
  let transcriptInverse ← invertAll transcript
  let (ckaFinal, ckbFinal) := proof.finalCk
  let (ckaProof, ckbProof) := proof.finalCkProof
  let c ← kzgChallenge V P.digest P.serF transcript ckaFinal ckbFinal
  let rInverse ← unwrap (inverse rShift)
  let ckaValid ← verifyKeyOpeningG2 V.E v ckaFinal ckaProof transcriptInverse rInverse c
  let ckbValid ← verifyKeyOpeningG1 V.E v ckbFinal ckbProof transcript 1 c
  let baseValid ← P.verifyBase ckaFinal ckbFinal [ckt] baseCom proof.gipa
  return (ckaValid && ckbValid && baseValid)

/-- `TIPA::verify`, `ip_proofs/src/tipa/mod.rs:233-240`. -/
def verify (V : TipaEnv F G1 G2 GT TF) (P : Gipa ρ F MA MB T G2 G1 KT OA OB OT)
    (v : VerifierSRS G1 G2) (ckt : KT) (com : Coms OA OB OT)
    (proof : TipaProof G1 G2 MA MB OA OB OT) : Res Bool :=
  verifyWithShift V P v ckt com proof 1

end Tipa

end Ripp
