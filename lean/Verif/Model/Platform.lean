import Verif.Model.Groth16
import Verif.Model.Transparent

/-!
# Platforms with another width of `usize`

The hash inputs of all challenge loops begin with `counter_nonce.to_be_bytes()`, where `counter_nonce: usize`. The other
model files follow 64-bit targets, where these are 8 bytes and the counter overflows after `2^64` attempts. This file
repeats the functions that hash, with `w` the number of bytes of a `usize` (8, or 4 on 32-bit targets such as
wasm32). Nothing else in them depends on `w`: ark-serialize writes lengths as `u64`. The overflow of sizes above `2^32` is not
modelled.
-/

namespace Ripp

namespace Platform

/-- `usize::to_be_bytes` where a `usize` has `w` bytes. -/
def nonceBytes (w n : ℕ) : Bytes := (leBytes w n).reverse

/-- Number of nonces that can be tried before `counter_nonce += 1` overflows. -/
def nonceLimit (w : ℕ) : ℕ := 2 ^ (8 * w)

namespace Gipa

variable {ρ F MA MB T KA KB KT OA OB OT : Type}

/-- The bytes hashed in one round, `ip_proofs/src/gipa.rs:239-247` and `334-342`. -/
def hashInput (w : ℕ) (P : Ripp.Gipa ρ F MA MB T KA KB KT OA OB OT) (nonce : ℕ) (prev : F)
    (com1 com2 : Coms OA OB OT) : Bytes :=
  nonceBytes w nonce ++ P.serF prev
    ++ P.serA com1.1 ++ P.serB com1.2.1 ++ P.serT com1.2.2
    ++ P.serA com2.1 ++ P.serB com2.2.1 ++ P.serT com2.2.2

variable [Field F] [DecidableEq F]

/-- One attempt of the challenge loop, `ip_proofs/src/gipa.rs:239-256`. Slicing the digest to 16 bytes
panics if it is shorter. The pair returned is `(c_inv, c)` of the hash value `c`. -/
def challengeAttempt (w : ℕ) (P : Ripp.Gipa ρ F MA MB T KA KB KT OA OB OT) (prev : F)
    (com1 com2 : Coms OA OB OT) (nonce : ℕ) : Res (Option (F × F)) :=
  let h := P.digest (hashInput w P nonce prev com1 com2)
  if h.length < 16 then panic' .bounds
  else
    let c : F := (beNat (h.take 16) : F)
    match inverse c with
    | some cInv => .ok (some (cInv, c))
    | none => .ok none

/-- The Fiat-Shamir challenge of one round, `ip_proofs/src/gipa.rs:235-258` and `330-353`; returns
`(c, c_inv)` after the swap. -/
def challenge (w : ℕ) (P : Ripp.Gipa ρ F MA MB T KA KB KT OA OB OT) (prev : F)
    (com1 com2 : Coms OA OB OT) : Res (F × F) :=
  searchNonce (challengeAttempt w P prev com1 com2) (nonceLimit w) 0

variable [AddCommGroup MA] [Module F MA] [AddCommGroup MB] [Module F MB]
  [AddCommGroup KA] [Module F KA] [AddCommGroup KB] [Module F KB]

/-- One recursive step of `_prove`, `ip_proofs/src/gipa.rs:205-295`. -/
def proveRound (w : ℕ) (P : Ripp.Gipa ρ F MA MB T KA KB KT OA OB OT) (ckt : List KT)
    (st : ProveState F MA MB KA KB OA OB OT) : Res (ProveState F MA MB KA KB OA OB OT) := do
  let split := st.ma.length / 2
  let ma1 ← sliceFrom st.ma split
  let ma2 ← sliceTo st.ma split
  let cka1 ← sliceTo st.cka split
  let cka2 ← sliceFrom st.cka split
  let mb1 ← sliceTo st.mb split
  let mb2 ← sliceFrom st.mb split
  let ckb1 ← sliceFrom st.ckb split
  let ckb2 ← sliceTo st.ckb split
  let l1 ← P.lmc.commit cka1 ma1
  let r1 ← P.rmc.commit ckb1 mb1
  let t1 ← P.ipc.commit ckt [← P.ip ma1 mb1]
  let l2 ← P.lmc.commit cka2 ma2
  let r2 ← P.rmc.commit ckb2 mb2
  let t2 ← P.ipc.commit ckt [← P.ip ma2 mb2]
  let com1 : Coms OA OB OT := (l1, r1, t1)
  let com2 : Coms OA OB OT := (l2, r2, t2)
  let (c, cInv) ← challenge w P (st.transcript.getLast?.getD 0) com1 com2
  return {
    ma := List.zipWith (fun a1 a2 => c • a1 + a2) ma1 ma2
    mb := List.zipWith (fun b2 b1 => cInv • b2 + b1) mb2 mb1
    cka := List.zipWith (fun k2 k1 => cInv • k2 + k1) cka2 cka1
    ckb := List.zipWith (fun k1 k2 => c • k1 + k2) ckb1 ckb2
    steps := st.steps ++ [(com1, com2)]
    transcript := st.transcript ++ [c] }

/-- The loop `'recurse`, `ip_proofs/src/gipa.rs:196-297`, followed by the two reversals and the
construction of the result, lines 298-311. -/
def proveLoop (w : ℕ) (P : Ripp.Gipa ρ F MA MB T KA KB KT OA OB OT) (ckt : List KT) :
    ℕ → ProveState F MA MB KA KB OA OB OT →
    Res (GipaProof MA MB OA OB OT × GipaAux F KA KB)
  | fuel, st =>
    if st.ma.length = 1 then do
      let a ← idx st.ma 0
      let b ← idx st.mb 0
      let ka ← idx st.cka 0
      let kb ← idx st.ckb 0
      return ({ steps := st.steps.reverse, base := (a, b) },
        { transcript := st.transcript.reverse, ckBase := (ka, kb) })
    else
      match fuel with
      | 0 => .error .diverge
      | fuel + 1 => do proveLoop w P ckt fuel (← proveRound w P ckt st)

/-- `GIPA::_prove` and `GIPA::prove_with_aux`, `ip_proofs/src/gipa.rs:162-312`. -/
def proveWithAux (w : ℕ) (P : Ripp.Gipa ρ F MA MB T KA KB KT OA OB OT)
    (ma : List MA) (mb : List MB) (cka : List KA) (ckb : List KB) (ckt : List KT) :
    Res (GipaProof MA MB OA OB OT × GipaAux F KA KB) := do
  assert (isPow2 ma.length)
  proveLoop w P ckt ma.length
    { ma := ma, mb := mb, cka := cka, ckb := ckb, steps := [], transcript := [] }

variable [DecidableEq T] [DecidableEq OA] [DecidableEq OB] [DecidableEq OT]

/-- `GIPA::prove`, `ip_proofs/src/gipa.rs:108-133`. -/
def prove (w : ℕ) (P : Ripp.Gipa ρ F MA MB T KA KB KT OA OB OT)
    (ma : List MA) (mb : List MB) (t : T) (cka : List KA) (ckb : List KB) (ckt : KT)
    (com : Coms OA OB OT) : Res (GipaProof MA MB OA OB OT) := do
  if (← P.ip ma mb) ≠ t then throw .ipInvalid
  if isPow2 ma.length = false then throw (.argLength ma.length mb.length)
  let okL ← P.lmc.verify cka ma com.1
  let okAll ←
    if okL then do
      let okR ← P.rmc.verify ckb mb com.2.1
      if okR then P.ipc.verify [ckt] [t] com.2.2 else pure false
    else pure false
  if okAll = false then throw .ipInvalid
  let (proof, _) ← proveWithAux w P ma mb cka ckb [ckt]
  return proof

variable [Add OA] [SMul F OA] [Add OB] [SMul F OB] [Add OT] [SMul F OT]

/-- The loop of `_compute_recursive_challenges` over the steps in round order,
`ip_proofs/src/gipa.rs:328-360`; `tr` is `r_transcript` so far. -/
def recLoop (w : ℕ) (P : Ripp.Gipa ρ F MA MB T KA KB KT OA OB OT) :
    List (Coms OA OB OT × Coms OA OB OT) → Coms OA OB OT → List F → Res (Coms OA OB OT × List F)
  | [], com, tr => .ok (com, tr)
  | (com1, com2) :: rest, com, tr => do
    let (c, cInv) ← challenge w P (tr.getLast?.getD 0) com1 com2
    recLoop w P rest (Ripp.Gipa.foldComs c cInv com com1 com2) (tr ++ [c])

/-- `_compute_recursive_challenges` and `verify_recursive_challenge_transcript`,
`ip_proofs/src/gipa.rs:315-363`. -/
def recursiveChallenges (w : ℕ) (P : Ripp.Gipa ρ F MA MB T KA KB KT OA OB OT) (com : Coms OA OB OT)
    (proof : GipaProof MA MB OA OB OT) : Res (Coms OA OB OT × List F) := do
  let (com, tr) ← recLoop w P proof.steps.reverse com []
  return (com, tr.reverse)

/-- `GIPA::verify`, `ip_proofs/src/gipa.rs:135-160`. -/
def verify (w : ℕ) (P : Ripp.Gipa ρ F MA MB T KA KB KT OA OB OT) (cka : List KA) (ckb : List KB) (ckt : KT)
    (com : Coms OA OB OT) (proof : GipaProof MA MB OA OB OT) : Res Bool := do
  if isPow2 cka.length = false ∨ cka.length ≠ ckb.length then
    throw (.argLength cka.length ckb.length)
  let (baseCom, transcript) ← recursiveChallenges w P com proof
  let (ka, kb) ← finalKeys cka ckb transcript
  P.verifyBase ka kb [ckt] baseCom proof

end Gipa

namespace Tipa

variable {ρ F MA MB T KT OA OB OT G1 G2 GT TF : Type} [Field F] [DecidableEq F]
  [AddCommGroup MA] [Module F MA] [AddCommGroup MB] [Module F MB]
  [AddCommGroup G1] [Module F G1] [AddCommGroup G2] [Module F G2]

/-- The KZG challenge point, `ip_proofs/src/tipa/mod.rs:194-209` and `257-272`.
`transcript.first().unwrap()` panics on an empty transcript. -/
def kzgChallenge (w : ℕ) (V : TipaEnv F G1 G2 GT TF) (digest : Bytes → Bytes) (serF : F → Bytes)
    (transcript : List F) (cka : G2) (ckb : G1) : Res F :=
  searchNonce (fun nonce => do
    let t0 ← unwrap transcript.head?
    return V.fromRandomBytes
      (digest (nonceBytes w nonce ++ serF t0 ++ V.serG2 cka ++ V.serG1 ckb))) (nonceLimit w) 0

/-- `TIPA::prove_with_srs_shift`, `ip_proofs/src/tipa/mod.rs:176-231`. -/
def proveWithShift (w : ℕ) (V : TipaEnv F G1 G2 GT TF) (P : Ripp.Gipa ρ F MA MB T G2 G1 KT OA OB OT)
    (srs : SRS G1 G2) (ma : List MA) (mb : List MB) (cka : List G2) (ckb : List G1) (ckt : KT)
    (rShift : F) : Res (TipaProof G1 G2 MA MB OA OB OT) := do
  let (proof, aux) ← Gipa.proveWithAux w P ma mb cka ckb [ckt]
  let (ckaFinal, ckbFinal) := aux.ckBase
  let transcript := aux.transcript
  let transcriptInverse ← invertAll transcript
  let rInverse ← unwrap (inverse rShift)
  let c ← kzgChallenge w V P.digest P.serF transcript ckaFinal ckbFinal
  let openA ← proveKeyOpening srs.hBetaPowers transcriptInverse rInverse c
  let openB ← proveKeyOpening srs.gAlphaPowers transcript 1 c
  return { gipa := proof, finalCk := (ckaFinal, ckbFinal), finalCkProof := (openA, openB) }

variable [DecidableEq GT] [DecidableEq OA] [DecidableEq OB] [DecidableEq OT]
  [Add OA] [SMul F OA] [Add OB] [SMul F OB] [Add OT] [SMul F OT]

/-- `TIPA::verify_with_srs_shift`, `ip_proofs/src/tipa/mod.rs:242-301`. The base check at lines
291-298 is the same code as `_verify_base_commitment`. -/
def verifyWithShift (w : ℕ) (V : TipaEnv F G1 G2 GT TF) (P : Ripp.Gipa ρ F MA MB T G2 G1 KT OA OB OT)
    (v : VerifierSRS G1 G2) (ckt : KT) (com : Coms OA OB OT)
    (proof : TipaProof G1 G2 MA MB OA OB OT) (rShift : F) : Res Bool := do
  let (baseCom, transcript) ← Gipa.recursiveChallenges w P com proof.gipa
  let transcriptInverse ← invertAll transcript
  let (ckaFinal, ckbFinal) := proof.finalCk
  let (ckaProof, ckbProof) := proof.finalCkProof
  let c ← kzgChallenge w V P.digest P.serF transcript ckaFinal ckbFinal
  let rInverse ← unwrap (inverse rShift)
  let ckaValid ← verifyKeyOpeningG2 V.E v ckaFinal ckaProof transcriptInverse rInverse c
  let ckbValid ← verifyKeyOpeningG1 V.E v ckbFinal ckbProof transcript 1 c
  let baseValid ← P.verifyBase ckaFinal ckbFinal [ckt] baseCom proof.gipa
  return (ckaValid && ckbValid && baseValid)

end Tipa

namespace GipaSsm

variable {ρ F MA T KA KT OA OT : Type} [Field F] [DecidableEq F]
  [AddCommGroup MA] [Module F MA] [AddCommGroup KA] [Module F KA]

/-- `GIPAWithSSM::prove_with_structured_scalar_message`, `structured_scalar_message.rs:70-84`. -/
def prove (w : ℕ) (P : Ripp.Gipa ρ F MA F T KA Placeholder KT OA F OT) (ma : List MA) (mb : List F)
    (cka : List KA) (ckt : KT) : Res (GipaProof MA F OA F OT) := do
  let (proof, _) ← Gipa.proveWithAux w P ma mb cka (List.replicate mb.length PUnit.unit) [ckt]
  return proof

variable [DecidableEq OA] [DecidableEq OT] [Add OA] [SMul F OA] [Add OT] [SMul F OT]

/-- `GIPAWithSSM::verify_with_structured_scalar_message`, `structured_scalar_message.rs:86-127`. -/
def verify (w : ℕ) (X : Exec) (P : Ripp.Gipa ρ F MA F T KA Placeholder KT OA F OT) (cka : List KA) (ckt : KT)
    (comA : OA) (comT : OT) (b : F) (proof : GipaProof MA F OA F OT) : Res Bool := do
  let (baseCom, transcript) ← Gipa.recursiveChallenges w P (comA, 0, comT) proof
  let (ka, kb) ← finalKeys cka (List.replicate cka.length PUnit.unit) transcript
  let gipaValid ← P.verifyBase ka kb [ckt] baseCom proof
  let bBase ← finalScalar X transcript b
  let t ← P.ip [proof.base.1] [bBase]
  let baseValid ←
    if ← P.lmc.verify [ka] [proof.base.1] baseCom.1 then
      P.ipc.verify [ckt] [t] baseCom.2.2
    else pure false
  return (gipaValid && baseValid)

end GipaSsm

namespace TipaSsm

variable {ρ F MA T KT OA OT G1 G2 GT TF : Type} [Field F] [DecidableEq F]
  [AddCommGroup MA] [Module F MA]
  [AddCommGroup G1] [Module F G1] [AddCommGroup G2] [Module F G2]

/-- The KZG challenge point, `structured_scalar_message.rs:237-251` and `288-302`. -/
def kzgChallenge (w : ℕ) (V : TipaEnv F G1 G2 GT TF) (digest : Bytes → Bytes) (serF : F → Bytes)
    (transcript : List F) (cka : G2) : Res F :=
  searchNonce (fun nonce => do
    let t0 ← unwrap transcript.head?
    return V.fromRandomBytes (digest (nonceBytes w nonce ++ serF t0 ++ V.serG2 cka))) (nonceLimit w) 0

/-- `TIPAWithSSM::prove_with_structured_scalar_message`, `structured_scalar_message.rs:211-268`. -/
def prove (w : ℕ) (V : TipaEnv F G1 G2 GT TF) (P : Ripp.Gipa ρ F MA F T G2 Placeholder KT OA F OT)
    (srs : SRS G1 G2) (ma : List MA) (mb : List F) (cka : List G2) (ckt : KT) :
    Res (TipaSsmProof F G2 MA OA OT) := do
  let (proof, aux) ← Gipa.proveWithAux w P ma mb cka (List.replicate mb.length PUnit.unit) [ckt]
  let ckaFinal := aux.ckBase.1
  let transcript := aux.transcript
  let transcriptInverse ← invertAll transcript
  let c ← kzgChallenge w V P.digest P.serF transcript ckaFinal
  let openA ← proveKeyOpening srs.hBetaPowers transcriptInverse 1 c
  return { gipa := proof, finalCk := ckaFinal, finalCkProof := openA }

variable [DecidableEq GT] [DecidableEq OA] [DecidableEq OT] [Add OA] [SMul F OA] [Add OT] [SMul F OT]

/-- `TIPAWithSSM::verify_with_structured_scalar_message`, `structured_scalar_message.rs:270-331`. -/
def verify (w : ℕ) (X : Exec) (V : TipaEnv F G1 G2 GT TF)
    (P : Ripp.Gipa ρ F MA F T G2 Placeholder KT OA F OT) (v : VerifierSRS G1 G2) (ckt : KT)
    (comA : OA) (comT : OT) (b : F) (proof : TipaSsmProof F G2 MA OA OT) : Res Bool := do
  let (baseCom, transcript) ← Gipa.recursiveChallenges w P (comA, b, comT) proof.gipa
  let transcriptInverse ← invertAll transcript
  let c ← kzgChallenge w V P.digest P.serF transcript proof.finalCk
  let ckaValid ← verifyKeyOpeningG2 V.E v proof.finalCk proof.finalCkProof transcriptInverse 1 c
  let bBase ← finalScalar X transcript b
  let t ← P.ip [proof.gipa.base.1] [bBase]
  let baseValid ←
    if ← P.lmc.verify [proof.finalCk] [proof.gipa.base.1] baseCom.1 then
      P.ipc.verify [ckt] [t] baseCom.2.2
    else pure false
  return (ckaValid && baseValid)

end TipaSsm

section
variable {ρ F G1 G2 GT TF : Type} [Field F] [DecidableEq F]
  [AddCommGroup G1] [Module F G1] [AddCommGroup G2] [Module F G2] [Monoid TF]

namespace Groth16

/-- The random linear combination challenge, `groth16_aggregation.rs:105-116` and `173-184`. -/
def challenge (w : ℕ) (V : Env ρ F G1 G2 GT TF) (comA comB comC : GT) : Res F :=
  searchNonce (fun nonce => .ok (V.fromRandomBytes
    (V.digest (nonceBytes w nonce ++ V.serGT comA ++ V.serGT comB ++ V.serGT comC)))) (nonceLimit w) 0

variable [DecidableEq GT]

/-- `aggregate_proofs`, `groth16_aggregation.rs:77-160`. -/
def aggregate (w : ℕ) (V : Env ρ F G1 G2 GT TF) (srs : SRS G1 G2) (proofs : List (G16Proof G1 G2)) :
    Res (AggProof F G1 G2 GT) := do
  let a := proofs.map (·.a)
  let b := proofs.map (·.b)
  let c := proofs.map (·.c)
  let (ck1, ck2) := srs.commitmentKeys
  let comA ← pairingIP V.E V.X a ck1
  let comB ← pairingIP V.E V.X ck2 b
  let comC ← pairingIP V.E V.X c ck1
  let r ← challenge w V comA comB comC
  let rVec ← structuredScalarPower proofs.length r
  let aR := List.zipWith (fun a r => r • a) a rVec
  let ipAB ← pairingIP V.E V.X aR b
  let aggC ← multiexpIP c rVec
  let ck1R ← (ck1.zip rVec).mapM fun (k, r) => do return (← unwrap (inverse r)) • k
  assert (decide (comA = (← pairingIP V.E V.X aR ck1R)))
  let proofAB ← Tipa.proveWithShift w V.tipa V.pairingAB srs aR b ck1R ck2 PUnit.unit r
  let proofC ← TipaSsm.prove w V.tipa V.multiexpSsm srs c rVec ck1 PUnit.unit
  return { comA := comA, comB := comB, comC := comC, ipAB := ipAB, aggC := aggC,
           proofAB := proofAB, proofC := proofC }

variable [DecidableEq G1] [AddCommGroup GT] [Module F GT]

/-- `verify_aggregate_proof`, `groth16_aggregation.rs:162-231`. -/
def verify (w : ℕ) (V : Env ρ F G1 G2 GT TF) (v : VerifierSRS G1 G2) (vk : G16VK G1 G2)
    (inputs : List (List F)) (proof : AggProof F G1 G2 GT) : Res Bool := do
  let r ← challenge w V proof.comA proof.comB proof.comC
  let abValid ← Tipa.verifyWithShift w V.tipa V.pairingAB v PUnit.unit
    (proof.comA, proof.comB, ⟨[proof.ipAB]⟩) proof.proofAB r
  let cValid ← TipaSsm.verify w V.X V.tipa V.multiexpSsm v PUnit.unit proof.comC ⟨[proof.aggC]⟩ r
    proof.proofC
  let ppeValid ← Ripp.Groth16.verifyPpe V vk inputs r proof.ipAB proof.aggC
  return (abValid && cValid && ppeValid)

end Groth16

namespace Bivariate

/-- `BivariatePolynomialCommitment::open`, `poly_commit/mod.rs:200-262`. -/
def open_ (w : ℕ) (V : Env ρ F G1 G2 GT TF) (srs : SRS G1 G2 × List G1) (ps : List (List F))
    (coms : List G1) (point : F × F) : Res (PcProof F G1 G2 GT) := do
  let ck := srs.1.commitmentKeys.1
  assert (decide (ps.length ≤ ck.length))
  let powersOfX := powersLoop point.1 ck.length 1 []
  let yEval ← yEvalCoeffs ps powersOfX ck.length srs.2.length
  let yEvalComm ← unwrap (msm srs.2 yEval)
  let ip ← TipaSsm.prove w V.tipa V.multiexpSsm srs.1 coms powersOfX ck PUnit.unit
  let kzg ← Ripp.Kzg.open_ srs.2 (polyOf yEval) point.2
  return { ip := ip, yEvalComm := yEvalComm, kzg := kzg }

variable [DecidableEq G1] [AddCommGroup GT] [Module F GT] [DecidableEq GT]

/-- `BivariatePolynomialCommitment::verify`, `poly_commit/mod.rs:264-283`. -/
def verify (w : ℕ) (V : Env ρ F G1 G2 GT TF) (v : VerifierSRS G1 G2) (com : GT) (point : F × F) (eval : F)
    (proof : PcProof F G1 G2 GT) : Res Bool := do
  let ipValid ← TipaSsm.verify w V.X V.tipa V.multiexpSsm v PUnit.unit com ⟨[proof.yEvalComm]⟩
    point.1 proof.ip
  let kzgValid ← Ripp.Kzg.verify V.E v proof.yEvalComm point.2 eval proof.kzg
  return (ipValid && kzgValid)

end Bivariate

namespace TBivariate

/-- `BivariatePolynomialCommitment::open`, `poly_commit/transparent.rs:129-186`. -/
def open_ (w : ℕ) (V : Env ρ F G1 G2 GT TF) (ck : List G1 × List G2) (ps : List (List F)) (coms : List G1)
    (point : F × F) : Res (TpcProof F G1 GT) := do
  assert (decide (ps.length ≤ ck.2.length))
  let powersOfX ← structuredScalarPower ck.2.length point.1
  let yEval ← yEvalCoeffs ps powersOfX ck.2.length ck.1.length
  let yEvalComm ← (pedersen V.randG1).commit ck.1 yEval
  let second ← GipaSsm.prove w V.multiexpSsm coms powersOfX ck.2 PUnit.unit
  let powersOfY ← structuredScalarPower ck.1.length point.2
  let first ← GipaSsm.prove w V.scalarSsm yEval powersOfY ck.1 PUnit.unit
  return { second := second, yEvalComm := yEvalComm, first := first }

variable [DecidableEq G1] [AddCommGroup GT] [Module F GT] [DecidableEq GT]

/-- `BivariatePolynomialCommitment::verify`, `poly_commit/transparent.rs:188-212`. -/
def verify (w : ℕ) (V : Env ρ F G1 G2 GT TF) (ck : List G1 × List G2) (com : GT) (point : F × F) (eval : F)
    (proof : TpcProof F G1 GT) : Res Bool := do
  let secondValid ← GipaSsm.verify w V.X V.multiexpSsm ck.2 PUnit.unit com ⟨[proof.yEvalComm]⟩
    point.1 proof.second
  let firstValid ← GipaSsm.verify w V.X V.scalarSsm ck.1 PUnit.unit proof.yEvalComm ⟨[eval]⟩
    point.2 proof.first
  return (secondValid && firstValid)

end TBivariate

end

end Platform

end Ripp
