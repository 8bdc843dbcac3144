import Verif.Model.Tipa

/-!
# Model of `ip_proofs/src/tipa/structured_scalar_message.rs`

The right message is a vector of powers of a public scalar and is committed with the placeholder
commitment (`KB = Placeholder`, `MB = OB = F`).
-/

namespace Ripp

/-- The GIPA instance used by both structured-message arguments,
`structured_scalar_message.rs:75` and `219`: `GIPA<IP, LMC, SSMPlaceholderCommitment, IPC, D>`. -/
def ssmGipa {ρ F MA T KA KT OA OT : Type} [Field F] (ip : List MA → List F → Res T)
    (lmc : Commitment ρ KA MA OA) (ipc : Commitment ρ KT T OT) (digest : Bytes → Bytes)
    (serF : F → Bytes) (serA : OA → Bytes) (serT : OT → Bytes) :
    Gipa ρ F MA F T KA Placeholder KT OA F OT where
  ip := ip
  lmc := lmc
  rmc := ssmPlaceholder
  ipc := ipc
  digest := digest
  serF := serF
  serA := serA
  serB := serF
  serT := serT

section
variable {F : Type} [Field F] [DecidableEq F]

/-- `structured_scalar_power`, `structured_scalar_message.rs:334-340`. -/
def structuredScalarPower (num : ℕ) (s : F) : Res (List F) :=
  (List.range' 1 (num - 1)).foldlM (fun powers i => do return powers ++ [(← idx powers (i - 1)) * s])
    [1]

/-- The loop computing `product_form`, `structured_scalar_message.rs:110-116` and `314-320`; `p` is
`power_2_b`. -/
def finalScalarLoop : List F → F → List F → Res (List F)
  | [], _, acc => .ok acc
  | x :: xs, p, acc => do
    let xInv ← unwrap (inverse x)
    finalScalarLoop xs (p * p) (acc ++ [1 + xInv * p])

/-- `b_base`, `structured_scalar_message.rs:110-117` and `314-321`; the product is a rayon reduction. -/
def finalScalar (X : Exec) (transcript : List F) (b : F) : Res F := do
  let pf ← finalScalarLoop transcript b []
  return parReduce (· * ·) 1 X.sched pf

end

namespace GipaSsm

variable {ρ F MA T KA KT OA OT : Type} [Field F] [DecidableEq F]
  [AddCommGroup MA] [Module F MA] [AddCommGroup KA] [Module F KA]

/-- `GIPAWithSSM::setup`, `structured_scalar_message.rs:66-68`. -/
def setup (lmc : Commitment ρ KA MA OA) (ipc : Commitment ρ KT T OT) (s : ρ) (size : ℕ) :
    Res ((List KA × KT) × ρ) := do
  let (ka, s) ← lmc.setup s size
  let (kt, s) ← ipc.setup s 1
  let kt ← unwrap kt.getLast?
  return ((ka, kt), s)

/-- `GIPAWithSSM::prove_with_structured_scalar_message`, `structured_scalar_message.rs:70-84`. -/
def prove (P : Gipa ρ F MA F T KA Placeholder KT OA F OT) (ma : List MA) (mb : List F)
    (cka : List KA) (ckt : KT) : Res (GipaProof MA F OA F OT) := do
  let (proof, _) ← P.proveWithAux ma mb cka (List.replicate mb.length PUnit.unit) [ckt]
  return proof

variable [DecidableEq OA] [DecidableEq OT] [Add OA] [SMul F OA] [Add OT] [SMul F OT]

/-- `GIPAWithSSM::verify_with_structured_scalar_message`, `structured_scalar_message.rs:86-127`. -/
def verify (X : Exec) (P : Gipa ρ F MA F T KA Placeholder KT OA F OT) (cka : List KA) (ckt : KT)
    (comA : OA) (comT : OT) (b : F) (proof : GipaProof MA F OA F OT) : Res Bool := do
  let (baseCom, transcript) ← P.recursiveChallenges (comA, 0, comT) proof
  let (ka, kb) ← finalKeys cka (List.replicate cka.length PUnit.unit) transcript
  let gipaValid ← P.verifyBase ka kb [ckt] baseCom proof
  let bBase ← finalScalar X transcript b
  let t ← P.ip [proof.base.1] [bBase]
  let baseValid ←
    if ← P.lmc.verify [ka] [proof.base.1] baseCom.1 then
      P.ipc.verify [ckt] [t] baseCom.2.2
    else pure false
  return (gipaValid && baseValid)

end GipaSsm

/-- `TIPAWithSSMProof`, `structured_scalar_message.rs:139-156`. -/
structure TipaSsmProof (F G2 MA OA OT : Type) where
  gipa : GipaProof MA F OA F OT
  finalCk : G2
  finalCkProof : G2

namespace TipaSsm

variable {ρ F MA T KT OA OT G1 G2 GT TF : Type} [Field F] [DecidableEq F]
  [AddCommGroup MA] [Module F MA]
  [AddCommGroup G1] [Module F G1] [AddCommGroup G2] [Module F G2]

/-- The KZG challenge point, `structured_scalar_message.rs:237-251` and `288-302`. -/
def kzgChallenge (V : TipaEnv F G1 G2 GT TF) (digest : Bytes → Bytes) (serF : F → Bytes)
    (transcript : List F) (cka : G2) : Res F :=
  searchNonce (fun nonce => do
    let t0 ← unwrap transcript.head?
    return V.fromRandomBytes (digest (nonceBytes nonce ++ serF t0 ++ V.serG2 cka))) nonceLimit 0

/-- `TIPAWithSSM::prove_with_structured_scalar_message`, `structured_scalar_message.rs:211-268`. -/
def prove (V : TipaEnv F G1 G2 GT TF) (P : Gipa ρ F MA F T G2 Placeholder KT OA F OT)
    (srs : SRS G1 G2) (ma : List MA) (mb : List F) (cka : List G2) (ckt : KT) :
    Res (TipaSsmProof F G2 MA OA OT) := do
  let (proof, aux) ← P.proveWithAux ma mb cka (List.replicate mb.length PUnit.unit) [ckt]
  let ckaFinal := aux.ckBase.1
  let transcript := aux.transcript
  let transcriptInverse ← invertAll transcript
  let c ← kzgChallenge V P.digest P.serF transcript ckaFinal
  let openA ← proveKeyOpening srs.hBetaPowers transcriptInverse 1 c
  return { gipa := proof, finalCk := ckaFinal, finalCkProof := openA }

variable [DecidableEq GT] [DecidableEq OA] [DecidableEq OT] [Add OA] [SMul F OA] [Add OT] [SMul F OT]

/-- `TIPAWithSSM::verify_with_structured_scalar_message`, `structured_scalar_message.rs:270-331`. -/
def verify (X : Exec) (V : TipaEnv F G1 G2 GT TF)
    (P : Gipa ρ F MA F T G2 Placeholder KT OA F OT) (v : VerifierSRS G1 G2) (ckt : KT)
    (comA : OA) (comT : OT) (b : F) (proof : TipaSsmProof F G2 MA OA OT) : Res Bool := do
  let (baseCom, transcript) ← P.recursiveChallenges (comA, b, comT) proof.gipa
  let transcriptInverse ← invertAll transcript
  let c ← kzgChallenge V P.digest P.serF transcript proof.finalCk
  let ckaValid ← verifyKeyOpeningG2 V.E v proof.finalCk proof.finalCkProof transcriptInverse 1 c
  let bBase ← finalScalar X transcript b
  let t ← P.ip [proof.gipa.base.1] [bBase]
  let baseValid ←
    if ← P.lmc.verify [proof.finalCk] [proof.gipa.base.1] baseCom.1 then
      P.ipc.verify [ckt] [t] baseCom.2.2
    else pure false
  return (ckaValid && baseValid)

end TipaSsm

end Ripp
