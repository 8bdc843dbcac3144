import Verif.Model.Sipp
import Verif.Model.Transparent
import Verif.Model.Groth16
import Mathlib.Algebra.BigOperators.Pi

/-!
# Operation counts of the verifiers

Every verifier is written a second time in a monad that counts the expensive operations of the Rust
code. The primitives below perform one operation and count it; nothing else in this file computes
with group elements, so that the count is that of the lines cited. `Verif/Lemmas/Cost.lean` proves
that forgetting the counts gives back the functions of the other model files.

Simplifications: the operations of a call into ark-ec or ark-ff are counted by their mathematical
meaning (a multi-scalar multiplication of `n` terms is `n` scalar multiplications, a batch inversion
of `k` elements is `k` inversions, a multi-pairing of `n` pairs is `n` Miller loops and one final
exponentiation). The identity elements from which `sum` and `product` start are not counted, additions
are not counted, and copying and serializing are not counted. The work done before a panic or an
error is kept.
-/

namespace Ripp

/-- The operations that are counted. -/
inductive Op
  /-- multiplication of two scalars -/
  | mul
  /-- inversion of a scalar -/
  | inv
  /-- raising a scalar to a `u64` power -/
  | pow
  /-- multiplication of a group element, key or commitment by a scalar (`*`, `mul_helper`, or one
  term of a multi-scalar multiplication) -/
  | scale
  /-- one Miller loop -/
  | miller
  /-- one final exponentiation -/
  | finalExp
  /-- one evaluation of the digest -/
  | hash
  deriving DecidableEq

/-- Number of operations of each kind. -/
abbrev Work := Op → ℕ

/-- An outcome together with the work done to reach it. -/
def Counted (α : Type) : Type := Work × Res α

namespace Counted
variable {α β : Type}

/-- The work done, also when the outcome is a panic or an error. -/
def work (x : Counted α) : Work := x.1

/-- The outcome. -/
def value (x : Counted α) : Res α := x.2

instance : Monad Counted where
  pure a := ((fun _ => 0), .ok a)
  bind x f := match x.2 with
    | .ok a => (x.1 + (f a).1, (f a).2)
    | .error e => (x.1, .error e)

/-- A step without counted operations. -/
def free (r : Res α) : Counted α := ((fun _ => 0), r)

/-- `n` operations of kind `o`. -/
def tick (o : Op) (n : ℕ) : Counted Unit := (Pi.single o n, .ok ())

end Counted

open Counted

section Primitives
variable {F G G1 G2 GT TF : Type} [Field F] [DecidableEq F] [AddCommGroup G1] [Module F G1]
  [AddCommGroup G2] [Module F G2]

/-- One multiplication of scalars. -/
def mulC (x y : F) : Counted F := do tick .mul 1; return x * y

/-- One inversion. -/
def inverseC (x : F) : Counted (Option F) := do tick .inv 1; return inverse x

/-- One multiplication of a group element by a scalar. -/
def smulC [SMul F G] (x : F) (g : G) : Counted G := do tick .scale 1; return x • g

/-- One pairing: a Miller loop and a final exponentiation. -/
def pairingC (E : Engine G1 G2 GT TF) (p : G1) (q : G2) : Counted GT := do
  tick .miller 1
  tick .finalExp 1
  free (E.pairing p q)

/-- The product of a list of scalars. -/
def prodC (X : Sched) (xs : List F) : Counted F := do
  tick .mul xs.length
  return parReduce (· * ·) 1 X xs

/-- `PairingInnerProduct::inner_product`, `inner_products/src/lib.rs:61-73`. -/
def pairingIPC [Monoid TF] (E : Engine G1 G2 GT TF) (X : Exec) (left : List G1) (right : List G2) :
    Counted GT := do
  if left.length ≠ right.length then
    free (.error (.ipLength left.length right.length))
  else
    tick .miller left.length
    tick .finalExp 1
    free (pairingIP E X left right)

/-- `MultiexponentiationInnerProduct::inner_product`, `inner_products/src/lib.rs:128-141`. -/
def multiexpIPC [AddCommGroup G] [Module F G] (left : List G) (right : List F) : Counted G := do
  if left.length ≠ right.length then
    free (.error (.ipLength left.length right.length))
  else
    tick .scale left.length
    free (multiexpIP left right)

/-- `ScalarInnerProduct::inner_product`, `inner_products/src/lib.rs:154-165`. -/
def scalarIPC (X : Exec) (left right : List F) : Counted F := do
  if left.length ≠ right.length then
    free (.error (.ipLength left.length right.length))
  else
    tick .mul left.length
    free (scalarIP X left right)

/-- ark-ec's `msm`, unwrapped, as in `sipp/src/lib.rs:174-175`. -/
def msmC [AddCommGroup G] [Module F G] (bases : List G) (scalars : List F) : Counted G := do
  if bases.length ≠ scalars.length then
    free (panic' .unwrap)
  else
    tick .scale bases.length
    free (unwrap (msm bases scalars))

/-- The challenge loops (`searchNonce`): one digest for every nonce tried. -/
def searchNonceC {α : Type} (f : ℕ → Counted (Option α)) : ℕ → ℕ → Counted α
  | 0, _ => free (.error .diverge)
  | fuel + 1, nonce => do
    tick .hash 1
    match ← f nonce with
    | some x => return x
    | none => searchNonceC f fuel (nonce + 1)

end Primitives

/-- The inner product and the commitments of a `Gipa` instance with their counts. -/
structure GipaCount (MA MB T KA KB KT OA OB OT : Type) where
  ip : List MA → List MB → Counted T
  lmc : List KA → List MA → Counted OA
  rmc : List KB → List MB → Counted OB
  ipc : List KT → List T → Counted OT

/-- Without the counts, `C` are the inner product and the commitments of `P`. -/
structure GipaCount.Of {ρ F MA MB T KA KB KT OA OB OT : Type}
    (C : GipaCount MA MB T KA KB KT OA OB OT) (P : Gipa ρ F MA MB T KA KB KT OA OB OT) : Prop where
  ip : ∀ a b, (C.ip a b).value = P.ip a b
  lmc : ∀ k m, (C.lmc k m).value = P.lmc.commit k m
  rmc : ∀ k m, (C.rmc k m).value = P.rmc.commit k m
  ipc : ∀ k m, (C.ipc k m).value = P.ipc.commit k m

/-- `DoublyHomomorphicCommitment::verify`, `dh_commitments/src/lib.rs:51-56`. -/
def verifyCommitmentC {K M O : Type} [DecidableEq O] (commit : List K → List M → Counted O)
    (k : List K) (m : List M) (com : O) : Counted Bool := do
  let o ← commit k m
  return decide (o = com)

section FinalKeys
variable {F : Type} [Field F] [DecidableEq F]

/-- `pushScaled`, `ip_proofs/src/gipa.rs:377-380` for one of the two vectors. -/
def pushScaledC (v : List F) (x : F) (count : ℕ) : Counted (List F) :=
  (List.range count).foldlM (fun v j => do return v ++ [← mulC (← free (idx v j)) x]) v

/-- `exponentLoop`, `ip_proofs/src/gipa.rs:373-381`. -/
def exponentLoopC : List F → ℕ → List F × List F → Counted (List F × List F)
  | [], _, acc => free (.ok acc)
  | c :: cs, i, (va, vb) => do
    let cInv ← free (unwrap (← inverseC c))
    let va ← pushScaledC va cInv (2 ^ i)
    let vb ← pushScaledC vb c (2 ^ i)
    exponentLoopC cs (i + 1) (va, vb)

/-- `foldKeys`, `ip_proofs/src/gipa.rs:384-389` and `391-396`. -/
def foldKeysC {K : Type} [AddCommGroup K] [Module F K] (ck : List K) (xs : List F) : Counted K := do
  let g0 ← free (idx ck 0)
  let x0 ← free (idx xs 0)
  let first ← smulC x0 g0
  let ckRest ← free (sliceFrom ck 1)
  let xsRest ← free (sliceFrom xs 1)
  let terms ← (ckRest.zip xsRest).mapM fun (g, x) => smulC x g
  return terms.foldl (· + ·) first

/-- `_compute_final_commitment_keys`, `ip_proofs/src/gipa.rs:365-399`. -/
def finalKeysC {KA KB : Type} [AddCommGroup KA] [Module F KA] [AddCommGroup KB] [Module F KB]
    (cka : List KA) (ckb : List KB) (transcript : List F) : Counted (KA × KB) := do
  free (assert (isPow2 cka.length))
  let (va, vb) ← exponentLoopC transcript 0 ([1], [1])
  free (assert (va.length == cka.length))
  let ka ← foldKeysC cka va
  let kb ← foldKeysC ckb vb
  return (ka, kb)

end FinalKeys

namespace Gipa

variable {ρ F MA MB T KA KB KT OA OB OT : Type} [Field F] [DecidableEq F]
  [AddCommGroup KA] [Module F KA] [AddCommGroup KB] [Module F KB]
  [DecidableEq OA] [DecidableEq OB] [DecidableEq OT]
  [Add OA] [SMul F OA] [Add OB] [SMul F OB] [Add OT] [SMul F OT]

/-- One attempt at a challenge, `ip_proofs/src/gipa.rs:239-256`; the digest is counted by the loop. -/
def challengeAttemptC (P : Gipa ρ F MA MB T KA KB KT OA OB OT) (prev : F)
    (com1 com2 : Coms OA OB OT) (nonce : ℕ) : Counted (Option (F × F)) := do
  let h := P.digest (P.hashInput nonce prev com1 com2)
  if h.length < 16 then free (panic' .bounds)
  else
    let c : F := (beNat (h.take 16) : F)
    match ← inverseC c with
    | some cInv => return some (cInv, c)
    | none => return none

/-- `foldComs`, `ip_proofs/src/gipa.rs:355-357`. -/
def foldComsC (c cInv : F) (com com1 com2 : Coms OA OB OT) : Counted (Coms OA OB OT) := do
  let a ← smulC c com1.1
  let a' ← smulC cInv com2.1
  let b ← smulC c com1.2.1
  let b' ← smulC cInv com2.2.1
  let t ← smulC c com1.2.2
  let t' ← smulC cInv com2.2.2
  return (a + com.1 + a', b + com.2.1 + b', t + com.2.2 + t')

/-- The loop of `_compute_recursive_challenges`, `ip_proofs/src/gipa.rs:328-360`. -/
def recLoopC (P : Gipa ρ F MA MB T KA KB KT OA OB OT) :
    List (Coms OA OB OT × Coms OA OB OT) → Coms OA OB OT → List F →
      Counted (Coms OA OB OT × List F)
  | [], com, tr => free (.ok (com, tr))
  | (com1, com2) :: rest, com, tr => do
    let (c, cInv) ← searchNonceC (P.challengeAttemptC (tr.getLast?.getD 0) com1 com2) nonceLimit 0
    let com ← foldComsC c cInv com com1 com2
    recLoopC P rest com (tr ++ [c])

/-- `_compute_recursive_challenges`, `ip_proofs/src/gipa.rs:315-363`. -/
def recursiveChallengesC (P : Gipa ρ F MA MB T KA KB KT OA OB OT) (com : Coms OA OB OT)
    (proof : GipaProof MA MB OA OB OT) : Counted (Coms OA OB OT × List F) := do
  let (com, tr) ← P.recLoopC proof.steps.reverse com []
  return (com, tr.reverse)

omit [Field F] [DecidableEq F] [AddCommGroup KA] [Module F KA] [AddCommGroup KB] [Module F KB]
  [Add OA] [SMul F OA] [Add OB] [SMul F OB] [Add OT] [SMul F OT] in
/-- `_verify_base_commitment`, `ip_proofs/src/gipa.rs:401-415`. -/
def verifyBaseC (C : GipaCount MA MB T KA KB KT OA OB OT) (ka : KA) (kb : KB)
    (ckt : List KT) (com : Coms OA OB OT) (proof : GipaProof MA MB OA OB OT) : Counted Bool := do
  let t ← C.ip [proof.base.1] [proof.base.2]
  if ← verifyCommitmentC C.lmc [ka] [proof.base.1] com.1 then
    if ← verifyCommitmentC C.rmc [kb] [proof.base.2] com.2.1 then
      verifyCommitmentC C.ipc ckt [t] com.2.2
    else return false
  else return false

/-- `GIPA::verify`, `ip_proofs/src/gipa.rs:135-160`. -/
def verifyC (P : Gipa ρ F MA MB T KA KB KT OA OB OT) (C : GipaCount MA MB T KA KB KT OA OB OT)
    (cka : List KA) (ckb : List KB) (ckt : KT) (com : Coms OA OB OT) (proof : GipaProof MA MB OA OB OT) : Counted Bool := do
  if isPow2 cka.length = false ∨ cka.length ≠ ckb.length then
    free (.error (.argLength cka.length ckb.length))
  else
    let (baseCom, transcript) ← P.recursiveChallengesC com proof
    let (ka, kb) ← finalKeysC cka ckb transcript
    verifyBaseC C ka kb [ckt] baseCom proof

end Gipa

section KeyOpenings
variable {F G1 G2 GT TF : Type} [Field F] [DecidableEq F] [AddCommGroup G1] [Module F G1]
  [AddCommGroup G2] [Module F G2] [DecidableEq GT]

/-- `invertAll`, `ip_proofs/src/tipa/mod.rs:251`, `structured_scalar_message.rs:285`. -/
def invertAllC (xs : List F) : Counted (List F) :=
  xs.mapM fun x => do free (unwrap (← inverseC x))

/-- `productFormLoop`, `ip_proofs/src/tipa/mod.rs:398-404`. -/
def productFormLoopC : List F → F → List F → Counted (List F)
  | [], _, acc => return acc
  | x :: xs, p, acc => do
    let xp ← mulC x p
    let p ← mulC p p
    productFormLoopC xs p (acc ++ [1 + xp])

/-- `productForm`, `ip_proofs/src/tipa/mod.rs:393-405`. -/
def productFormC (transcript : List F) (z rShift : F) : Counted F := do
  let zz ← mulC z z
  let p ← mulC zz rShift
  let pf ← productFormLoopC transcript p []
  prodC .leaf pf

/-- `verify_commitment_key_g2_kzg_opening`, `ip_proofs/src/tipa/mod.rs:340-354`. -/
def verifyKeyOpeningG2C (E : Engine G1 G2 GT TF) (v : VerifierSRS G1 G2) (ckFinal opening : G2)
    (transcript : List F) (rShift z : F) : Counted Bool := do
  let cEval ← productFormC transcript z rShift
  let ch ← smulC cEval v.h
  let lhs ← pairingC E v.g (ckFinal - ch)
  let zg ← smulC z v.g
  let rhs ← pairingC E (v.gBeta - zg) opening
  return decide (lhs = rhs)

/-- `verify_commitment_key_g1_kzg_opening`, `ip_proofs/src/tipa/mod.rs:356-370`. -/
def verifyKeyOpeningG1C (E : Engine G1 G2 GT TF) (v : VerifierSRS G1 G2) (ckFinal opening : G1)
    (transcript : List F) (rShift z : F) : Counted Bool := do
  let cEval ← productFormC transcript z rShift
  let cg ← smulC cEval v.g
  let lhs ← pairingC E (ckFinal - cg) v.h
  let zh ← smulC z v.h
  let rhs ← pairingC E opening (v.hAlpha - zh)
  return decide (lhs = rhs)

/-- `finalScalarLoop`, `structured_scalar_message.rs:110-116` and `314-320`. -/
def finalScalarLoopC : List F → F → List F → Counted (List F)
  | [], _, acc => return acc
  | x :: xs, p, acc => do
    let xInv ← free (unwrap (← inverseC x))
    let xp ← mulC xInv p
    let p ← mulC p p
    finalScalarLoopC xs p (acc ++ [1 + xp])

/-- `finalScalar`, `structured_scalar_message.rs:110-117` and `314-321`. -/
def finalScalarC (X : Exec) (transcript : List F) (b : F) : Counted F := do
  let pf ← finalScalarLoopC transcript b []
  prodC X.sched pf

end KeyOpenings

namespace Tipa

variable {ρ F MA MB T KT OA OB OT G1 G2 GT TF : Type} [Field F] [DecidableEq F]
  [AddCommGroup G1] [Module F G1] [AddCommGroup G2] [Module F G2]
  [DecidableEq GT] [DecidableEq OA] [DecidableEq OB] [DecidableEq OT]
  [Add OA] [SMul F OA] [Add OB] [SMul F OB] [Add OT] [SMul F OT]

omit [DecidableEq F] [Field F] [AddCommGroup G1] [AddCommGroup G2] [Module F G1] [Module F G2]
  [DecidableEq GT] in
/-- The KZG challenge point, `ip_proofs/src/tipa/mod.rs:257-272`. -/
def kzgChallengeC (V : TipaEnv F G1 G2 GT TF) (digest : Bytes → Bytes) (serF : F → Bytes)
    (transcript : List F) (cka : G2) (ckb : G1) : Counted F :=
  searchNonceC (fun nonce => do
    let t0 ← free (unwrap transcript.head?)
    return V.fromRandomBytes
      (digest (nonceBytes nonce ++ serF t0 ++ V.serG2 cka ++ V.serG1 ckb))) nonceLimit 0

/-- `TIPA::verify_with_srs_shift`, `ip_proofs/src/tipa/mod.rs:242-301`. -/
def verifyWithShiftC (V : TipaEnv F G1 G2 GT TF) (P : Gipa ρ F MA MB T G2 G1 KT OA OB OT)
    (C : GipaCount MA MB T G2 G1 KT OA OB OT) (v : VerifierSRS G1 G2) (ckt : KT) (com : Coms OA OB OT)
    (proof : TipaProof G1 G2 MA MB OA OB OT) (rShift : F) : Counted Bool := do
  let (baseCom, transcript) ← P.recursiveChallengesC com proof.gipa
  let transcriptInverse ← invertAllC transcript
  let (ckaFinal, ckbFinal) := proof.finalCk
  let (ckaProof, ckbProof) := proof.finalCkProof
  let c ← kzgChallengeC V P.digest P.serF transcript ckaFinal ckbFinal
  let rInverse ← free (unwrap (← inverseC rShift))
  let ckaValid ← verifyKeyOpeningG2C V.E v ckaFinal ckaProof transcriptInverse rInverse c
  let ckbValid ← verifyKeyOpeningG1C V.E v ckbFinal ckbProof transcript 1 c
  let baseValid ← Gipa.verifyBaseC C ckaFinal ckbFinal [ckt] baseCom proof.gipa
  return (ckaValid && ckbValid && baseValid)

end Tipa

namespace GipaSsm

variable {ρ F MA T KA KT OA OT : Type} [Field F] [DecidableEq F]
  [AddCommGroup KA] [Module F KA]
  [DecidableEq OA] [DecidableEq OT] [Add OA] [SMul F OA] [Add OT] [SMul F OT]

/-- `GIPAWithSSM::verify_with_structured_scalar_message`, `structured_scalar_message.rs:86-127`. -/
def verifyC (X : Exec) (P : Gipa ρ F MA F T KA Placeholder KT OA F OT)
    (C : GipaCount MA F T KA Placeholder KT OA F OT) (cka : List KA) (ckt : KT) (comA : OA) (comT : OT) (b : F) (proof : GipaProof MA F OA F OT) :
    Counted Bool := do
  let (baseCom, transcript) ← P.recursiveChallengesC (comA, 0, comT) proof
  let (ka, kb) ← finalKeysC cka (List.replicate cka.length PUnit.unit) transcript
  let gipaValid ← Gipa.verifyBaseC C ka kb [ckt] baseCom proof
  let bBase ← finalScalarC X transcript b
  let t ← C.ip [proof.base.1] [bBase]
  let baseValid ←
    if ← verifyCommitmentC C.lmc [ka] [proof.base.1] baseCom.1 then
      verifyCommitmentC C.ipc [ckt] [t] baseCom.2.2
    else pure false
  return (gipaValid && baseValid)

end GipaSsm

namespace TipaSsm

variable {ρ F MA T KT OA OT G1 G2 GT TF : Type} [Field F] [DecidableEq F]
  [AddCommGroup G1] [Module F G1] [AddCommGroup G2] [Module F G2]
  [DecidableEq GT] [DecidableEq OA] [DecidableEq OT] [Add OA] [SMul F OA] [Add OT] [SMul F OT]

omit [DecidableEq F] [Field F] [AddCommGroup G1] [AddCommGroup G2] [Module F G1] [Module F G2]
  [DecidableEq GT] in
/-- The KZG challenge point, `structured_scalar_message.rs:288-302`. -/
def kzgChallengeC (V : TipaEnv F G1 G2 GT TF) (digest : Bytes → Bytes) (serF : F → Bytes)
    (transcript : List F) (cka : G2) : Counted F :=
  searchNonceC (fun nonce => do
    let t0 ← free (unwrap transcript.head?)
    return V.fromRandomBytes (digest (nonceBytes nonce ++ serF t0 ++ V.serG2 cka))) nonceLimit 0

/-- `TIPAWithSSM::verify_with_structured_scalar_message`, `structured_scalar_message.rs:270-331`. -/
def verifyC (X : Exec) (V : TipaEnv F G1 G2 GT TF)
    (P : Gipa ρ F MA F T G2 Placeholder KT OA F OT)
    (C : GipaCount MA F T G2 Placeholder KT OA F OT) (v : VerifierSRS G1 G2) (ckt : KT) (comA : OA) (comT : OT) (b : F) (proof : TipaSsmProof F G2 MA OA OT) : Counted Bool := do
  let (baseCom, transcript) ← P.recursiveChallengesC (comA, b, comT) proof.gipa
  let transcriptInverse ← invertAllC transcript
  let c ← kzgChallengeC V P.digest P.serF transcript proof.finalCk
  let ckaValid ← verifyKeyOpeningG2C V.E v proof.finalCk proof.finalCkProof transcriptInverse 1 c
  let bBase ← finalScalarC X transcript b
  let t ← C.ip [proof.gipa.base.1] [bBase]
  let baseValid ←
    if ← verifyCommitmentC C.lmc [proof.finalCk] [proof.gipa.base.1] baseCom.1 then
      verifyCommitmentC C.ipc [ckt] [t] baseCom.2.2
    else pure false
  return (ckaValid && baseValid)

end TipaSsm

section Applications
variable {ρ F G1 G2 GT TF : Type} [Field F] [DecidableEq F]
  [AddCommGroup G1] [Module F G1] [AddCommGroup G2] [Module F G2] [Monoid TF]

/-- `structuredScalarPower`, `structured_scalar_message.rs:334-340`. -/
def structuredScalarPowerC (num : ℕ) (s : F) : Counted (List F) :=
  (List.range' 1 (num - 1)).foldlM
    (fun powers i => do return powers ++ [← mulC (← free (idx powers (i - 1))) s]) [1]

/-- `KZG::verify`, `poly_commit/mod.rs:108-117`. -/
def Kzg.verifyC [DecidableEq GT] (E : Engine G1 G2 GT TF) (v : VerifierSRS G1 G2) (com : G1)
    (z eval : F) (proof : G1) : Counted Bool := do
  let eg ← smulC eval v.g
  let lhs ← pairingC E (com - eg) v.h
  let zh ← smulC z v.h
  let rhs ← pairingC E proof (v.hAlpha - zh)
  return decide (lhs = rhs)

/-- `g_ic`, `groth16_aggregation.rs:214-224`. -/
def Groth16.inputLoopC (X : Exec) (inputs : List (List F)) (rVec : List F) :
    List G1 → ℕ → G1 → Counted G1
  | [], _, acc => free (.ok acc)
  | b :: bs, i, acc => do
    let column ← free (inputs.mapM fun row => idx row i)
    let s ← scalarIPC X column rVec
    let sb ← smulC s b
    inputLoopC X inputs rVec bs (i + 1) (acc + sb)

variable [AddCommGroup GT] [Module F GT] [DecidableEq GT] [DecidableEq G1]

omit [DecidableEq G1] in
/-- The aggregate pairing product equation, `groth16_aggregation.rs:208-228`; the division is an
inversion and a multiplication. -/
def Groth16.verifyPpeC (V : Env ρ F G1 G2 GT TF) (vk : G16VK G1 G2) (inputs : List (List F)) (r : F)
    (ipAB : GT) (aggC : G1) : Counted Bool := do
  tick .pow 1
  let d ← free (unwrap (← inverseC (r - 1)))
  let rSum ← mulC (r ^ inputs.length - 1) d
  let ra ← smulC rSum vk.alpha
  let p1 ← pairingC V.E ra vk.beta
  let row0 ← free (idx inputs 0)
  free (assert (vk.gammaAbc.length == row0.length + 1))
  let rVec ← structuredScalarPowerC inputs.length r
  let abc0 ← free (idx vk.gammaAbc 0)
  let r0 ← smulC rSum abc0
  let gIc ← inputLoopC V.X inputs rVec (vk.gammaAbc.drop 1) 0 r0
  let p2 ← pairingC V.E gIc vk.gamma
  let p3 ← pairingC V.E aggC vk.delta
  return decide (ipAB = p1 + p2 + p3)

omit [Field F] [DecidableEq F] [AddCommGroup G1] [Module F G1] [AddCommGroup G2] [Module F G2]
  [Monoid TF] [AddCommGroup GT] [Module F GT] [DecidableEq GT] [DecidableEq G1] in
/-- The random linear combination challenge, `groth16_aggregation.rs:173-184`. -/
def Groth16.challengeC (V : Env ρ F G1 G2 GT TF) (comA comB comC : GT) : Counted F :=
  searchNonceC (fun nonce => free (.ok (V.fromRandomBytes
    (V.digest (nonceBytes nonce ++ V.serGT comA ++ V.serGT comB ++ V.serGT comC))))) nonceLimit 0

/-- Counts for `Env.pairingAB`, `groth16_aggregation.rs:24-31`. -/
def Env.pairingABC (V : Env ρ F G1 G2 GT TF) :
    GipaCount G1 G2 GT G2 G1 Placeholder GT GT (IdentityOutput GT) where
  ip := pairingIPC V.E V.X
  lmc k m := pairingIPC V.E V.X m k
  rmc k m := pairingIPC V.E V.X k m
  ipc _ m := return ⟨m⟩

/-- Counts for `Env.multiexpSsm`, `poly_commit/mod.rs:34-40`, `groth16_aggregation.rs:42-48`. -/
def Env.multiexpSsmC (V : Env ρ F G1 G2 GT TF) :
    GipaCount G1 F G1 G2 Placeholder Placeholder GT F (IdentityOutput G1) where
  ip := multiexpIPC
  lmc k m := pairingIPC V.E V.X m k
  rmc _ _ := return 0
  ipc _ m := return ⟨m⟩

/-- Counts for `Env.scalarSsm`, `poly_commit/transparent.rs:43-48`. -/
def Env.scalarSsmC (V : Env ρ F G1 G2 GT TF) :
    GipaCount F F F G1 Placeholder Placeholder G1 F (IdentityOutput F) where
  ip := scalarIPC V.X
  lmc k m := multiexpIPC k m
  rmc _ _ := return 0
  ipc _ m := return ⟨m⟩

/-- `BivariatePolynomialCommitment::verify`, `poly_commit/mod.rs:264-283`. -/
def Bivariate.verifyC (V : Env ρ F G1 G2 GT TF) (v : VerifierSRS G1 G2) (com : GT) (point : F × F)
    (eval : F) (proof : PcProof F G1 G2 GT) : Counted Bool := do
  let ipValid ← TipaSsm.verifyC V.X V.tipa V.multiexpSsm V.multiexpSsmC v PUnit.unit com
    ⟨[proof.yEvalComm]⟩ point.1 proof.ip
  let kzgValid ← Kzg.verifyC V.E v proof.yEvalComm point.2 eval proof.kzg
  return (ipValid && kzgValid)

/-- `BivariatePolynomialCommitment::verify`, `poly_commit/transparent.rs:188-212`. -/
def TBivariate.verifyC (V : Env ρ F G1 G2 GT TF) (ck : List G1 × List G2) (com : GT)
    (point : F × F) (eval : F) (proof : TpcProof F G1 GT) : Counted Bool := do
  let secondValid ← GipaSsm.verifyC V.X V.multiexpSsm V.multiexpSsmC ck.2 PUnit.unit com
    ⟨[proof.yEvalComm]⟩ point.1 proof.second
  let firstValid ← GipaSsm.verifyC V.X V.scalarSsm V.scalarSsmC ck.1 PUnit.unit proof.yEvalComm
    ⟨[eval]⟩ point.2 proof.first
  return (secondValid && firstValid)

/-- `verify_aggregate_proof`, `groth16_aggregation.rs:162-231`. -/
def Groth16.verifyC (V : Env ρ F G1 G2 GT TF) (v : VerifierSRS G1 G2) (vk : G16VK G1 G2)
    (inputs : List (List F)) (proof : AggProof F G1 G2 GT) : Counted Bool := do
  let r ← challengeC V proof.comA proof.comB proof.comC
  let abValid ← Tipa.verifyWithShiftC V.tipa V.pairingAB V.pairingABC v PUnit.unit
    (proof.comA, proof.comB, ⟨[proof.ipAB]⟩) proof.proofAB r
  let cValid ← TipaSsm.verifyC V.X V.tipa V.multiexpSsm V.multiexpSsmC v PUnit.unit proof.comC
    ⟨[proof.aggC]⟩ r proof.proofC
  let ppeValid ← verifyPpeC V vk inputs r proof.ipAB proof.aggC
  return (abValid && cValid && ppeValid)

end Applications

namespace Sipp
variable {σ F G1 G2 GT TF : Type} [Field F] [DecidableEq F] [AddCommGroup G1] [Module F G1]
  [AddCommGroup G2] [Module F G2] [AddCommGroup GT] [Module F GT] [DecidableEq GT]

omit [DecidableEq F] [AddCommGroup G1] [Module F G1] [AddCommGroup G2] [Module F G2]
  [AddCommGroup GT] [Module F GT] [DecidableEq GT] in
/-- The challenges, `sipp/src/lib.rs:134-146`: one digest for every round. -/
def challengesC (V : Env σ F G1 G2 GT TF) : Rng σ → List (GT × GT) → Counted (List F)
  | _, [] => return []
  | rng, z :: zs => do
    tick .hash 1
    let (x, rng) := roundChallenge V rng z
    return x :: (← challengesC V rng zs)

/-- One pass of the loop building `s`, `sipp/src/lib.rs:161-169`, from index `i` on. -/
def scalePassC (bit : ℕ) (x : F) : ℕ → List F → Counted (List F)
  | _, [] => return []
  | i, v :: vs => do
    let v ← if i.testBit bit then mulC v x else pure v
    return v :: (← scalePassC bit x (i + 1) vs)

/-- The loop building `s` (and `s_invs`), `sipp/src/lib.rs:160-170`. -/
def scalarLoopC (proofLen : ℕ) : List F → ℕ → List F → Counted (List F)
  | [], _, s => return s
  | x :: xs, j, s => do
    let s ← scalePassC (proofLen - j - 1) x 0 s
    scalarLoopC proofLen xs (j + 1) s

/-- `SIPP::verify`, `sipp/src/lib.rs:109-180`. -/
def verifyC (V : Env σ F G1 G2 GT TF) (a : List G1) (b : List G2) (r : List F) (value : GT)
    (proof : List (GT × GT)) : Counted Bool := do
  let length := a.length
  free (assert (isPow2 length))
  free (assert (decide (2 ≤ length)))
  free (assert (length == b.length))
  let proofLen := proof.length
  free (assert (2 ^ proofLen == length))
  tick .hash 1
  let xs : List F ← challengesC V (Rng.fromSeed V (seedBytes V a b r value)) proof
  tick .inv xs.length
  let xInvs := xs.map (·⁻¹)
  let terms ← (proof.zip (xs.zip xInvs)).mapM fun (z, x) => do
    let l ← smulC x.1 z.1
    let r ← smulC x.2 z.2
    return l + r
  let zPrime := value + parReduce (· + ·) 0 V.X.sched terms
  let s ← scalarLoopC proofLen xs 0 (List.replicate length (1 : F))
  let sInvs ← scalarLoopC proofLen xInvs 0 (List.replicate length (1 : F))
  let s ← (s.zip r).mapM fun (x, r) => mulC x r
  let a' ← msmC a s
  let b' ← msmC b sInvs
  let lhs ← pairingC V.E a' b'
  return decide (lhs = zPrime)

end Sipp

end Ripp
