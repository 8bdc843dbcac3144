import Verif.Model.Cost

/-!
# Operation counts of the provers

The provers in the counting monad of `Verif/Model/Cost.lean`, with the same conventions.
`Verif/Lemmas/ProverCost.lean` proves that forgetting the counts gives back the functions of the other
model files.

Further simplifications: dividing a polynomial with `n` coefficients by a linear one is counted as `n`
multiplications of scalars (ark-poly computes three for each coefficient of the quotient), and the
inversions inside `normalize_batch` are not counted. Multiplications of placeholder keys and of scalar
messages through `mul_helper` are counted like those of group elements.
-/

namespace Ripp

open Counted

section Polynomials
variable {F : Type} [Field F] [DecidableEq F]

/-- `p / (X - z)` of ark-poly. -/
def polyDivLinearC (p : List F) (z : F) : Counted (List F) := do
  tick .mul p.length
  return polyDivLinear p z

/-- One pass of the coefficient loop, `ip_proofs/src/tipa/mod.rs:411-413`: the product `x * power_2_r` is
computed anew for every coefficient. -/
def pushProductC (v : List F) (x p : F) (count : ℕ) : Counted (List F) :=
  (List.range count).foldlM
    (fun v j => do return v ++ [← mulC (← free (idx v j)) (← mulC x p)]) v

/-- `coefficientLoop`, `ip_proofs/src/tipa/mod.rs:410-415`. -/
def coefficientLoopC : List F → ℕ → F → List F → Counted (List F)
  | [], _, _, acc => free (.ok acc)
  | x :: xs, i, p, acc => do
    let acc ← pushProductC acc x p (2 ^ i)
    let p ← mulC p p
    coefficientLoopC xs (i + 1) p acc

/-- `polynomial_coefficients_from_transcript`, `ip_proofs/src/tipa/mod.rs:407-422`. -/
def keyCoefficientsC (transcript : List F) (rShift : F) : Counted (List F) := do
  let coeffs ← coefficientLoopC transcript 0 rShift [1]
  return interleave coeffs (List.replicate (coeffs.length - 1) 0)

/-- `prove_commitment_key_kzg_opening`, `ip_proofs/src/tipa/mod.rs:304-337`. -/
def proveKeyOpeningC {G : Type} [AddCommGroup G] [Module F G] (srsPowers : List G)
    (transcript : List F) (rShift z : F) : Counted G := do
  let ckPoly := polyOf (← keyCoefficientsC transcript rShift)
  free (assert (srsPowers.length == ckPoly.length))
  let cEval ← productFormC transcript z rShift
  let quotient ← polyDivLinearC (polySub ckPoly (polyOf [cEval])) z
  multiexpIPC srsPowers (resize quotient srsPowers.length 0)

/-- `x * a + b` for every pair, as in `ip_proofs/src/gipa.rs:260-292`, `sipp/src/lib.rs:87-100`. -/
def foldC {M : Type} [AddCommGroup M] [Module F M] (x : F) (as bs : List M) : Counted (List M) :=
  (as.zip bs).mapM fun (a, b) => do return (← smulC x a) + b

end Polynomials

namespace Gipa

variable {ρ F MA MB T KA KB KT OA OB OT : Type} [Field F] [DecidableEq F]
  [AddCommGroup MA] [Module F MA] [AddCommGroup MB] [Module F MB]
  [AddCommGroup KA] [Module F KA] [AddCommGroup KB] [Module F KB]

/-- One recursive step of `_prove`, `ip_proofs/src/gipa.rs:205-295`. -/
def proveRoundC (P : Gipa ρ F MA MB T KA KB KT OA OB OT) (C : GipaCount MA MB T KA KB KT OA OB OT)
    (ckt : List KT) (st : ProveState F MA MB KA KB OA OB OT) :
    Counted (ProveState F MA MB KA KB OA OB OT) := do
  let split := st.ma.length / 2
  let ma1 ← free (sliceFrom st.ma split)
  let ma2 ← free (sliceTo st.ma split)
  let cka1 ← free (sliceTo st.cka split)
  let cka2 ← free (sliceFrom st.cka split)
  let mb1 ← free (sliceTo st.mb split)
  let mb2 ← free (sliceFrom st.mb split)
  let ckb1 ← free (sliceFrom st.ckb split)
  let ckb2 ← free (sliceTo st.ckb split)
  let l1 ← C.lmc cka1 ma1
  let r1 ← C.rmc ckb1 mb1
  let i1 ← C.ip ma1 mb1
  let t1 ← C.ipc ckt [i1]
  let l2 ← C.lmc cka2 ma2
  let r2 ← C.rmc ckb2 mb2
  let i2 ← C.ip ma2 mb2
  let t2 ← C.ipc ckt [i2]
  let com1 : Coms OA OB OT := (l1, r1, t1)
  let com2 : Coms OA OB OT := (l2, r2, t2)
  let (c, cInv) ← searchNonceC (P.challengeAttemptC (st.transcript.getLast?.getD 0) com1 com2)
    nonceLimit 0
  let ma ← foldC c ma1 ma2
  let mb ← foldC cInv mb2 mb1
  let cka ← foldC cInv cka2 cka1
  let ckb ← foldC c ckb1 ckb2
  return { ma := ma, mb := mb, cka := cka, ckb := ckb, steps := st.steps ++ [(com1, com2)],
           transcript := st.transcript ++ [c] }

/-- The loop `'recurse`, `ip_proofs/src/gipa.rs:196-311`. -/
def proveLoopC (P : Gipa ρ F MA MB T KA KB KT OA OB OT) (C : GipaCount MA MB T KA KB KT OA OB OT)
    (ckt : List KT) : ℕ → ProveState F MA MB KA KB OA OB OT →
    Counted (GipaProof MA MB OA OB OT × GipaAux F KA KB)
  | fuel, st =>
    if st.ma.length = 1 then do
      let a ← free (idx st.ma 0)
      let b ← free (idx st.mb 0)
      let ka ← free (idx st.cka 0)
      let kb ← free (idx st.ckb 0)
      return ({ steps := st.steps.reverse, base := (a, b) },
        { transcript := st.transcript.reverse, ckBase := (ka, kb) })
    else
      match fuel with
      | 0 => free (.error .diverge)
      | fuel + 1 => do
        let st ← proveRoundC P C ckt st
        proveLoopC P C ckt fuel st

/-- `GIPA::_prove` and `GIPA::prove_with_aux`, `ip_proofs/src/gipa.rs:162-312`. -/
def proveWithAuxC (P : Gipa ρ F MA MB T KA KB KT OA OB OT) (C : GipaCount MA MB T KA KB KT OA OB OT)
    (ma : List MA) (mb : List MB) (cka : List KA) (ckb : List KB) (ckt : List KT) :
    Counted (GipaProof MA MB OA OB OT × GipaAux F KA KB) := do
  free (assert (isPow2 ma.length))
  proveLoopC P C ckt ma.length
    { ma := ma, mb := mb, cka := cka, ckb := ckb, steps := [], transcript := [] }

variable [DecidableEq T] [DecidableEq OA] [DecidableEq OB] [DecidableEq OT]

/-- `GIPA::prove`, `ip_proofs/src/gipa.rs:108-133`. -/
def proveC (P : Gipa ρ F MA MB T KA KB KT OA OB OT) (C : GipaCount MA MB T KA KB KT OA OB OT)
    (ma : List MA) (mb : List MB) (t : T) (cka : List KA) (ckb : List KB) (ckt : KT)
    (com : Coms OA OB OT) : Counted (GipaProof MA MB OA OB OT) := do
  let i ← C.ip ma mb
  if i ≠ t then free (.error .ipInvalid)
  else if isPow2 ma.length = false then free (.error (.argLength ma.length mb.length))
  else
    let okL ← verifyCommitmentC C.lmc cka ma com.1
    if okL = false then free (.error .ipInvalid)
    else
      let okR ← verifyCommitmentC C.rmc ckb mb com.2.1
      if okR = false then free (.error .ipInvalid)
      else
        let okT ← verifyCommitmentC C.ipc [ckt] [t] com.2.2
        if okT = false then free (.error .ipInvalid)
        else
          let (proof, _) ← P.proveWithAuxC C ma mb cka ckb [ckt]
          return proof

end Gipa

namespace Tipa

variable {ρ F MA MB T KT OA OB OT G1 G2 GT TF : Type} [Field F] [DecidableEq F]
  [AddCommGroup MA] [Module F MA] [AddCommGroup MB] [Module F MB]
  [AddCommGroup G1] [Module F G1] [AddCommGroup G2] [Module F G2]

/-- `TIPA::prove_with_srs_shift`, `ip_proofs/src/tipa/mod.rs:176-231`. -/
def proveWithShiftC (V : TipaEnv F G1 G2 GT TF) (P : Gipa ρ F MA MB T G2 G1 KT OA OB OT)
    (C : GipaCount MA MB T G2 G1 KT OA OB OT) (srs : SRS G1 G2) (ma : List MA) (mb : List MB)
    (cka : List G2) (ckb : List G1) (ckt : KT) (rShift : F) :
    Counted (TipaProof G1 G2 MA MB OA OB OT) := do
  let (proof, aux) ← P.proveWithAuxC C ma mb cka ckb [ckt]
  let (ckaFinal, ckbFinal) := aux.ckBase
  let transcript := aux.transcript
  let transcriptInverse ← invertAllC transcript
  let rInverse ← free (unwrap (← inverseC rShift))
  let c ← kzgChallengeC V P.digest P.serF transcript ckaFinal ckbFinal
  let openA ← proveKeyOpeningC srs.hBetaPowers transcriptInverse rInverse c
  let openB ← proveKeyOpeningC srs.gAlphaPowers transcript 1 c
  return { gipa := proof, finalCk := (ckaFinal, ckbFinal), finalCkProof := (openA, openB) }

end Tipa

namespace GipaSsm

variable {ρ F MA T KA KT OA OT : Type} [Field F] [DecidableEq F]
  [AddCommGroup MA] [Module F MA] [AddCommGroup KA] [Module F KA]

/-- `GIPAWithSSM::prove_with_structured_scalar_message`, `structured_scalar_message.rs:70-84`. -/
def proveC (P : Gipa ρ F MA F T KA Placeholder KT OA F OT)
    (C : GipaCount MA F T KA Placeholder KT OA F OT) (ma : List MA) (mb : List F)
    (cka : List KA) (ckt : KT) : Counted (GipaProof MA F OA F OT) := do
  let (proof, _) ← P.proveWithAuxC C ma mb cka (List.replicate mb.length PUnit.unit) [ckt]
  return proof

end GipaSsm

namespace TipaSsm

variable {ρ F MA T KT OA OT G1 G2 GT TF : Type} [Field F] [DecidableEq F]
  [AddCommGroup MA] [Module F MA]
  [AddCommGroup G1] [Module F G1] [AddCommGroup G2] [Module F G2]

/-- `TIPAWithSSM::prove_with_structured_scalar_message`, `structured_scalar_message.rs:211-268`. -/
def proveC (V : TipaEnv F G1 G2 GT TF) (P : Gipa ρ F MA F T G2 Placeholder KT OA F OT)
    (C : GipaCount MA F T G2 Placeholder KT OA F OT) (srs : SRS G1 G2) (ma : List MA) (mb : List F)
    (cka : List G2) (ckt : KT) : Counted (TipaSsmProof F G2 MA OA OT) := do
  let (proof, aux) ← P.proveWithAuxC C ma mb cka (List.replicate mb.length PUnit.unit) [ckt]
  let ckaFinal := aux.ckBase.1
  let transcript := aux.transcript
  let transcriptInverse ← invertAllC transcript
  let c ← kzgChallengeC V P.digest P.serF transcript ckaFinal
  let openA ← proveKeyOpeningC srs.hBetaPowers transcriptInverse 1 c
  return { gipa := proof, finalCk := ckaFinal, finalCkProof := openA }

end TipaSsm

section Applications
variable {ρ F G1 G2 GT TF : Type} [Field F] [DecidableEq F]
  [AddCommGroup G1] [Module F G1] [AddCommGroup G2] [Module F G2] [Monoid TF]

/-- `KZG::commit`, `poly_commit/mod.rs:76-86`. -/
def Kzg.commitC (powers : List G1) (p : List F) : Counted G1 := do
  let d ← free (polyDegree p)
  free (assert (decide (d + 1 ≤ powers.length)))
  msmC powers (resize p powers.length 0)

/-- `KZG::open`, `poly_commit/mod.rs:88-106`. -/
def Kzg.openC (powers : List G1) (p : List F) (z : F) : Counted G1 := do
  let d ← free (polyDegree p)
  free (assert (decide (d + 1 ≤ powers.length)))
  let quotient ← polyDivLinearC p z
  msmC powers (resize quotient powers.length 0)

/-- The powers of `x`, `poly_commit/mod.rs:213-218`: one multiplication for every power. -/
def powersLoopC (x : F) : ℕ → F → List F → Counted (List F)
  | 0, _, acc => return acc
  | n + 1, p, acc => do
    let next ← mulC p x
    powersLoopC x n next (acc ++ [p])

/-- `y_eval_coeffs`, `poly_commit/mod.rs:219-236` and `transparent.rs:142-159`. -/
def yEvalCoeffsC (ps : List (List F)) (powers : List F) (n m : ℕ) : Counted (List F) :=
  let coeffs := (resize ps n []).map fun p => resize p m 0
  (List.range m).mapM fun j => do
    let terms ← (List.range n).mapM fun i => do
      let xp ← free (idx powers i)
      let row ← free (idx coeffs i)
      let c ← free (idx row j)
      mulC xp c
    return terms.sum

/-- `BivariatePolynomialCommitment::commit`, `poly_commit/mod.rs:176-198`. -/
def Bivariate.commitC (V : Env ρ F G1 G2 GT TF) (srs : SRS G1 G2 × List G1) (ps : List (List F)) :
    Counted (GT × List G1) := do
  let ck := srs.1.commitmentKeys.1
  free (assert (decide (ps.length ≤ ck.length)))
  let coms ← (resize ps ck.length []).mapM fun p => Kzg.commitC srs.2 p
  let com ← pairingIPC V.E V.X coms ck
  return (com, coms)

/-- `BivariatePolynomialCommitment::open`, `poly_commit/mod.rs:200-262`. -/
def Bivariate.openC (V : Env ρ F G1 G2 GT TF) (srs : SRS G1 G2 × List G1) (ps : List (List F))
    (coms : List G1) (point : F × F) : Counted (PcProof F G1 G2 GT) := do
  let ck := srs.1.commitmentKeys.1
  free (assert (decide (ps.length ≤ ck.length)))
  let powersOfX ← powersLoopC point.1 ck.length 1 []
  let yEval ← yEvalCoeffsC ps powersOfX ck.length srs.2.length
  let yEvalComm ← msmC srs.2 yEval
  let ip ← TipaSsm.proveC V.tipa V.multiexpSsm V.multiexpSsmC srs.1 coms powersOfX ck PUnit.unit
  let kzg ← Kzg.openC srs.2 (polyOf yEval) point.2
  return { ip := ip, yEvalComm := yEvalComm, kzg := kzg }

/-- `BivariatePolynomialCommitment::commit`, `poly_commit/transparent.rs:101-127`. -/
def TBivariate.commitC (V : Env ρ F G1 G2 GT TF) (ck : List G1 × List G2) (ps : List (List F)) :
    Counted (GT × List G1) := do
  free (assert (decide (ps.length ≤ ck.2.length)))
  let coms ← (resize ps ck.2.length []).mapM fun p => do
    free (assert (decide (p.length ≤ ck.1.length)))
    multiexpIPC ck.1 (resize p ck.1.length 0)
  let com ← pairingIPC V.E V.X coms ck.2
  return (com, coms)

/-- `BivariatePolynomialCommitment::open`, `poly_commit/transparent.rs:129-186`. -/
def TBivariate.openC (V : Env ρ F G1 G2 GT TF) (ck : List G1 × List G2) (ps : List (List F))
    (coms : List G1) (point : F × F) : Counted (TpcProof F G1 GT) := do
  free (assert (decide (ps.length ≤ ck.2.length)))
  let powersOfX ← structuredScalarPowerC ck.2.length point.1
  let yEval ← yEvalCoeffsC ps powersOfX ck.2.length ck.1.length
  let yEvalComm ← multiexpIPC ck.1 yEval
  let second ← GipaSsm.proveC V.multiexpSsm V.multiexpSsmC coms powersOfX ck.2 PUnit.unit
  let powersOfY ← structuredScalarPowerC ck.1.length point.2
  let first ← GipaSsm.proveC V.scalarSsm V.scalarSsmC yEval powersOfY ck.1 PUnit.unit
  return { second := second, yEvalComm := yEvalComm, first := first }

variable [DecidableEq GT]

/-- `aggregate_proofs`, `groth16_aggregation.rs:77-160`. -/
def Groth16.aggregateC (V : Env ρ F G1 G2 GT TF) (srs : SRS G1 G2) (proofs : List (G16Proof G1 G2)) :
    Counted (AggProof F G1 G2 GT) := do
  let a := proofs.map (·.a)
  let b := proofs.map (·.b)
  let c := proofs.map (·.c)
  let (ck1, ck2) := srs.commitmentKeys
  let comA ← pairingIPC V.E V.X a ck1
  let comB ← pairingIPC V.E V.X ck2 b
  let comC ← pairingIPC V.E V.X c ck1
  let r ← challengeC V comA comB comC
  let rVec ← structuredScalarPowerC proofs.length r
  let aR ← (a.zip rVec).mapM fun (a, r) => smulC r a
  let ipAB ← pairingIPC V.E V.X aR b
  let aggC ← multiexpIPC c rVec
  let ck1R ← (ck1.zip rVec).mapM fun (k, r) => do smulC (← free (unwrap (← inverseC r))) k
  let check ← pairingIPC V.E V.X aR ck1R
  free (assert (decide (comA = check)))
  let proofAB ← Tipa.proveWithShiftC V.tipa V.pairingAB V.pairingABC srs aR b ck1R ck2 PUnit.unit r
  let proofC ← TipaSsm.proveC V.tipa V.multiexpSsm V.multiexpSsmC srs c rVec ck1 PUnit.unit
  return { comA := comA, comB := comB, comC := comC, ipAB := ipAB, aggC := aggC,
           proofAB := proofAB, proofC := proofC }

end Applications

namespace Sipp
variable {σ F G1 G2 GT TF : Type} [Field F] [DecidableEq F] [AddCommGroup G1] [Module F G1]
  [AddCommGroup G2] [Module F G2] [Monoid TF]

omit [DecidableEq F] [AddCommGroup G2] [Module F G2] in
/-- `product_of_pairings_with_coeffs`, `sipp/src/lib.rs:184-217`, for vectors of equal length: every
point is multiplied by its coefficient, then come the Miller loops. -/
def productOfPairingsWithCoeffsC (V : Env σ F G1 G2 GT TF) (a : List G1) (b : List G2) (r : List F) :
    Counted GT := do
  tick .scale (min a.length r.length)
  tick .miller (min (min a.length r.length) b.length)
  tick .finalExp 1
  free (productOfPairingsWithCoeffs V a b r)

omit [DecidableEq F] [AddCommGroup G2] [Module F G2] in
/-- `product_of_pairings`, `sipp/src/lib.rs:221-224`: the coefficients are ones. -/
def productOfPairingsC (V : Env σ F G1 G2 GT TF) (a : List G1) (b : List G2) : Counted GT :=
  productOfPairingsWithCoeffsC V a b (List.replicate a.length (1 : F))

/-- The loop `while length != 1`, `sipp/src/lib.rs:69-101`. -/
def proveLoopC (V : Env σ F G1 G2 GT TF) :
    ℕ → ℕ → List G1 → List G2 → Rng σ → List (GT × GT) → Counted (List (GT × GT))
  | fuel, length, a, b, rng, acc =>
    if length = 1 then free (.ok acc)
    else
      match fuel with
      | 0 => free (.error .diverge)
      | fuel + 1 => do
        let length := length / 2
        let aL ← free (sliceTo a length)
        let aR ← free (sliceFrom a length)
        let bL ← free (sliceTo b length)
        let bR ← free (sliceFrom b length)
        let zL ← productOfPairingsC (F := F) V aR bL
        let zR ← productOfPairingsC (F := F) V aL bR
        tick .hash 1
        let (x, rng) := roundChallenge V rng (zL, zR)
        let a ← foldC x aR aL
        let xInv ← free (unwrap (← inverseC x))
        let b ← foldC xInv bR bL
        proveLoopC V fuel length a b rng (acc ++ [(zL, zR)])

/-- `SIPP::prove`, `sipp/src/lib.rs:42-106`. -/
def proveC (V : Env σ F G1 G2 GT TF) (a : List G1) (b : List G2) (r : List F) (value : GT) :
    Counted (List (GT × GT)) := do
  free (assert (a.length == b.length))
  free (assert (isPow2 a.length))
  tick .hash 1
  let rng := Rng.fromSeed V (seedBytes V a b r value)
  let ar ← (a.zip r).mapM fun (a, r) => smulC r a
  proveLoopC V a.length a.length ar b rng []

end Sipp

end Ripp
