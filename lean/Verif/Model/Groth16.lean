import Verif.Model.PolyCommit

/-!
# Model of `ip_proofs/src/applications/groth16_aggregation.rs`
-/

namespace Ripp

/-- ark-groth16's `Proof`. -/
structure G16Proof (G1 G2 : Type) where
  a : G1
  b : G2
  c : G1

/-- ark-groth16's `VerifyingKey`. -/
structure G16VK (G1 G2 : Type) where
  alpha : G1
  beta : G2
  gamma : G2
  delta : G2
  gammaAbc : List G1

/-- `AggregateProof`, `groth16_aggregation.rs:58-66`. -/
structure AggProof (F G1 G2 GT : Type) where
  comA : GT
  comB : GT
  comC : GT
  ipAB : GT
  aggC : G1
  proofAB : TipaProof G1 G2 G1 G2 GT GT (IdentityOutput GT)
  proofC : TipaSsmProof F G2 G1 GT (IdentityOutput G1)

variable {ρ F G1 G2 GT TF : Type} [Field F] [DecidableEq F]
  [AddCommGroup G1] [Module F G1] [AddCommGroup G2] [Module F G2] [Monoid TF]

/-- `PairingInnerProductAB`, `groth16_aggregation.rs:24-31`. -/
def Env.pairingAB (V : Env ρ F G1 G2 GT TF) :
    Gipa ρ F G1 G2 GT G2 G1 Placeholder GT GT (IdentityOutput GT) where
  ip := pairingIP V.E V.X
  lmc := afghoG1 V.E V.X V.randG2
  rmc := afghoG2 V.E V.X V.randG1
  ipc := identityCommitment
  digest := V.digest
  serF := V.serF
  serA := V.serGT
  serB := V.serGT
  serT := serIdentity V.serGT

namespace Groth16

/-- `setup_inner_product`, `groth16_aggregation.rs:68-75`. -/
def setup (V : Env ρ F G1 G2 GT TF) (s : ρ) (size : ℕ) : Res (SRS G1 G2 × ρ) := do
  let ((srs, _), s) ← tipaSetup V.randF V.g V.h (identityCommitment (T := GT)) s size
  return (srs, s)

/-- The random linear combination challenge, `groth16_aggregation.rs:105-116` and `173-184`. -/
def challenge (V : Env ρ F G1 G2 GT TF) (comA comB comC : GT) : Res F :=
  searchNonce (fun nonce => .ok (V.fromRandomBytes
    (V.digest (nonceBytes nonce ++ V.serGT comA ++ V.serGT comB ++ V.serGT comC)))) nonceLimit 0

variable [DecidableEq GT]

/-- `aggregate_proofs`, `groth16_aggregation.rs:77-160`. -/
def aggregate (V : Env ρ F G1 G2 GT TF) (srs : SRS G1 G2) (proofs : List (G16Proof G1 G2)) :
    Res (AggProof F G1 G2 GT) := do
  let a := proofs.map (·.a)
  let b := proofs.map (·.b)
  let c := proofs.map (·.c)
  let (ck1, ck2) := srs.commitmentKeys
  let comA ← pairingIP V.E V.X a ck1
  let comB ← pairingIP V.E V.X ck2 b
  let comC ← pairingIP V.E V.X c ck1
  let r ← challenge V comA comB comC
  let rVec ← structuredScalarPower proofs.length r
  let aR := List.zipWith (fun a r => r • a) a rVec
  let ipAB ← pairingIP V.E V.X aR b
  let aggC ← multiexpIP c rVec
  let ck1R ← (ck1.zip rVec).mapM fun (k, r) => do return (← unwrap (inverse r)) • k
  assert (decide (comA = (← pairingIP V.E V.X aR ck1R)))
  let proofAB ← Tipa.proveWithShift V.tipa V.pairingAB srs aR b ck1R ck2 PUnit.unit r
  let proofC ← TipaSsm.prove V.tipa V.multiexpSsm srs c rVec ck1 PUnit.unit
  return { comA := comA, comB := comB, comC := comC, ipAB := ipAB, aggC := aggC,
           proofAB := proofAB, proofC := proofC }

/-- `g_ic`, `groth16_aggregation.rs:214-224`: the loop over `gamma_abc_g1.iter().skip(1).enumerate()`. -/
def inputLoop (X : Exec) (inputs : List (List F)) (rVec : List F) : List G1 → ℕ → G1 → Res G1
  | [], _, acc => .ok acc
  | b :: bs, i, acc => do
    let column ← inputs.mapM fun row => idx row i
    let s ← scalarIP X column rVec
    inputLoop X inputs rVec bs (i + 1) (acc + s • b)

variable [DecidableEq G1] [AddCommGroup GT] [Module F GT]

/-- The aggregate pairing product equation, `groth16_aggregation.rs:208-228`. Field division is
multiplication by the unwrapped inverse. -/
def verifyPpe (V : Env ρ F G1 G2 GT TF) (vk : G16VK G1 G2) (inputs : List (List F)) (r : F)
    (ipAB : GT) (aggC : G1) : Res Bool := do
  let rSum := (r ^ inputs.length - 1) * (← unwrap (inverse (r - 1)))
  let p1 ← V.E.pairing (rSum • vk.alpha) vk.beta
  let row0 ← idx inputs 0
  assert (vk.gammaAbc.length == row0.length + 1)
  let rVec ← structuredScalarPower inputs.length r
  let abc0 ← idx vk.gammaAbc 0
  let gIc ← inputLoop V.X inputs rVec (vk.gammaAbc.drop 1) 0 (rSum • abc0)
  let p2 ← V.E.pairing gIc vk.gamma
  let p3 ← V.E.pairing aggC vk.delta
  return decide (ipAB = p1 + p2 + p3)

/-- `verify_aggregate_proof`, `groth16_aggregation.rs:162-231`. -/
def verify (V : Env ρ F G1 G2 GT TF) (v : VerifierSRS G1 G2) (vk : G16VK G1 G2)
    (inputs : List (List F)) (proof : AggProof F G1 G2 GT) : Res Bool := do
  let r ← challenge V proof.comA proof.comB proof.comC
  let abValid ← Tipa.verifyWithShift V.tipa V.pairingAB v PUnit.unit
    (proof.comA, proof.comB, ⟨[proof.ipAB]⟩) proof.proofAB r
  let cValid ← TipaSsm.verify V.X V.tipa V.multiexpSsm v PUnit.unit proof.comC ⟨[proof.aggC]⟩ r
    proof.proofC
  let ppeValid ← verifyPpe V vk inputs r proof.ipAB proof.aggC
  return (abValid && cValid && ppeValid)

end Groth16

end Ripp
