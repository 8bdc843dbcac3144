import Verif.Model.ProverCost
import Verif.Lemmas.CostBounds

/-!
# Forgetting the counts of the provers
-/

set_option linter.unusedSectionVars false

namespace Ripp

open Counted

section Polynomials
variable {F : Type} [Field F] [DecidableEq F]

@[simp] theorem value_polyDivLinearC (p : List F) (z : F) :
    (polyDivLinearC p z).value = .ok (polyDivLinear p z) := rfl

@[simp] theorem value_pushProductC (v : List F) (x p : F) (n : ℕ) :
    (pushProductC v x p n).value = pushScaled v (x * p) n := by
  simp only [pushProductC, pushScaled, value_foldlM, value_bind, value_free, value_mulC, ok_bind',
    value_pure]
  rfl

theorem value_coefficientLoopC (xs : List F) (i : ℕ) (p : F) (acc : List F) :
    (coefficientLoopC xs i p acc).value = coefficientLoop xs i p acc := by
  induction xs generalizing i p acc with
  | nil => rfl
  | cons x xs ih =>
    simp only [coefficientLoopC, coefficientLoop, value_bind, value_pushProductC, value_mulC, ok_bind',
      ih]

@[simp] theorem value_keyCoefficientsC (tr : List F) (r : F) :
    (keyCoefficientsC tr r).value = keyCoefficients tr r := by
  simp only [keyCoefficientsC, keyCoefficients, value_bind, value_coefficientLoopC, value_pure]
  rfl

@[simp] theorem value_proveKeyOpeningC {G : Type} [AddCommGroup G] [Module F G] (srs : List G)
    (tr : List F) (r z : F) :
    (proveKeyOpeningC srs tr r z).value = proveKeyOpening srs tr r z := by
  simp only [proveKeyOpeningC, proveKeyOpening, value_bind, value_keyCoefficientsC, value_free,
    value_productFormC, value_polyDivLinearC, ok_bind', value_multiexpIPC]

@[simp] theorem value_foldC {M : Type} [AddCommGroup M] [Module F M] (x : F) (as bs : List M) :
    (foldC x as bs).value = .ok (List.zipWith (fun a b => x • a + b) as bs) := by
  unfold foldC
  induction as generalizing bs with
  | nil => rfl
  | cons a as ih =>
    cases bs with
    | nil => rfl
    | cons b bs =>
      simp only [List.zip_cons_cons, List.mapM_cons, value_bind, value_smulC, ok_bind', ih,
        value_pure, List.zipWith_cons_cons]

end Polynomials

namespace Gipa
variable {ρ F MA MB T KA KB KT OA OB OT : Type} [Field F] [DecidableEq F]
  [AddCommGroup MA] [Module F MA] [AddCommGroup MB] [Module F MB]
  [AddCommGroup KA] [Module F KA] [AddCommGroup KB] [Module F KB]
  {P : Gipa ρ F MA MB T KA KB KT OA OB OT} {C : GipaCount MA MB T KA KB KT OA OB OT}

/-- `value_challengeAttemptC` without the structure of the commitments. -/
theorem value_attemptC (P : Gipa ρ F MA MB T KA KB KT OA OB OT) (prev : F)
    (com1 com2 : Coms OA OB OT) (nonce : ℕ) :
    (P.challengeAttemptC prev com1 com2 nonce).value = P.challengeAttempt prev com1 com2 nonce := by
  simp only [challengeAttemptC, challengeAttempt]
  split
  · rfl
  · simp only [value_bind, value_inverseC, ok_bind']
    cases inverse (beNat ((P.digest (P.hashInput nonce prev com1 com2)).take 16) : F) <;> rfl

theorem value_proveRoundC (h : C.Of P) (ckt : List KT) (st : ProveState F MA MB KA KB OA OB OT) :
    (proveRoundC P C ckt st).value = P.proveRound ckt st := by
  simp only [proveRoundC, proveRound, value_bind, value_free, h.lmc, h.rmc, h.ip, h.ipc,
    value_searchNonceC, value_attemptC, challenge, value_foldC, ok_bind', value_pure]
  rfl

theorem value_proveLoopC (h : C.Of P) (ckt : List KT) (fuel : ℕ)
    (st : ProveState F MA MB KA KB OA OB OT) :
    (proveLoopC P C ckt fuel st).value = P.proveLoop ckt fuel st := by
  induction fuel generalizing st with
  | zero =>
    unfold proveLoopC proveLoop
    split
    · simp only [value_bind, value_free, value_pure]
      rfl
    · rfl
  | succ fuel ih =>
    unfold proveLoopC proveLoop
    split
    · simp only [value_bind, value_free, value_pure]
      rfl
    · simp only [value_bind, value_proveRoundC h, ih]

theorem value_proveWithAuxC (h : C.Of P) (ma : List MA) (mb : List MB) (cka : List KA)
    (ckb : List KB) (ckt : List KT) :
    (proveWithAuxC P C ma mb cka ckb ckt).value = P.proveWithAux ma mb cka ckb ckt := by
  simp only [proveWithAuxC, proveWithAux, value_bind, value_free, value_proveLoopC h]

variable [DecidableEq T] [DecidableEq OA] [DecidableEq OB] [DecidableEq OT]

/-- Without the counts, `proveC` is `prove`. -/
theorem value_proveC (h : C.Of P) (ma : List MA) (mb : List MB) (t : T) (cka : List KA)
    (ckb : List KB) (ckt : KT) (com : Coms OA OB OT) :
    (proveC P C ma mb t cka ckb ckt com).value = P.prove ma mb t cka ckb ckt com := by
  simp only [proveC, prove, value_bind, h.ip, value_ite, value_free,
    value_verifyCommitmentC P.lmc C.lmc h.lmc, value_verifyCommitmentC P.rmc C.rmc h.rmc,
    value_verifyCommitmentC P.ipc C.ipc h.ipc, value_proveWithAuxC h, value_pure]
  cases P.ip ma mb with
  | error e => rfl
  | ok i =>
    simp only [ok_bind']
    split
    · rfl
    · split
      · rfl
      · cases P.lmc.verify cka ma com.1 with
        | error e => rfl
        | ok b =>
          cases b with
          | false => rfl
          | true =>
            cases P.rmc.verify ckb mb com.2.1 with
            | error e => rfl
            | ok b =>
              cases b with
              | false => rfl
              | true =>
                cases P.ipc.verify [ckt] [t] com.2.2 with
                | error e => rfl
                | ok b => cases b <;> rfl

end Gipa

namespace Tipa
variable {ρ F MA MB T KT OA OB OT G1 G2 GT TF : Type} [Field F] [DecidableEq F]
  [AddCommGroup MA] [Module F MA] [AddCommGroup MB] [Module F MB]
  [AddCommGroup G1] [Module F G1] [AddCommGroup G2] [Module F G2]

/-- Without the counts, `proveWithShiftC` is `proveWithShift`. -/
theorem value_proveWithShiftC (V : TipaEnv F G1 G2 GT TF) {P : Gipa ρ F MA MB T G2 G1 KT OA OB OT}
    {C : GipaCount MA MB T G2 G1 KT OA OB OT} (h : C.Of P) (srs : SRS G1 G2) (ma : List MA)
    (mb : List MB) (cka : List G2) (ckb : List G1) (ckt : KT) (r : F) :
    (proveWithShiftC V P C srs ma mb cka ckb ckt r).value
      = proveWithShift V P srs ma mb cka ckb ckt r := by
  simp only [proveWithShiftC, proveWithShift, value_bind, Gipa.value_proveWithAuxC h,
    value_invertAllC, value_inverseC, value_free, ok_bind', kzgChallengeC, kzgChallenge,
    value_searchNonceC, value_proveKeyOpeningC, value_pure]
  rfl

end Tipa

namespace GipaSsm
variable {ρ F MA T KA KT OA OT : Type} [Field F] [DecidableEq F]
  [AddCommGroup MA] [Module F MA] [AddCommGroup KA] [Module F KA]

/-- Without the counts, `proveC` is `prove`. -/
theorem value_proveC {P : Gipa ρ F MA F T KA Placeholder KT OA F OT}
    {C : GipaCount MA F T KA Placeholder KT OA F OT} (h : C.Of P) (ma : List MA) (mb : List F)
    (cka : List KA) (ckt : KT) : (proveC P C ma mb cka ckt).value = prove P ma mb cka ckt := by
  simp only [proveC, prove, value_bind, Gipa.value_proveWithAuxC h, value_pure]
  rfl

end GipaSsm

namespace TipaSsm
variable {ρ F MA T KT OA OT G1 G2 GT TF : Type} [Field F] [DecidableEq F]
  [AddCommGroup MA] [Module F MA]
  [AddCommGroup G1] [Module F G1] [AddCommGroup G2] [Module F G2]

/-- Without the counts, `proveC` is `prove`. -/
theorem value_proveC (V : TipaEnv F G1 G2 GT TF) {P : Gipa ρ F MA F T G2 Placeholder KT OA F OT}
    {C : GipaCount MA F T G2 Placeholder KT OA F OT} (h : C.Of P) (srs : SRS G1 G2) (ma : List MA)
    (mb : List F) (cka : List G2) (ckt : KT) :
    (proveC V P C srs ma mb cka ckt).value = prove V P srs ma mb cka ckt := by
  simp only [proveC, prove, value_bind, Gipa.value_proveWithAuxC h, value_invertAllC, kzgChallengeC,
    kzgChallenge, value_searchNonceC, value_free, value_proveKeyOpeningC, value_pure]
  rfl

end TipaSsm

section Applications
variable {ρ F G1 G2 GT TF : Type} [Field F] [DecidableEq F]
  [AddCommGroup G1] [Module F G1] [AddCommGroup G2] [Module F G2] [Monoid TF]

@[simp] theorem Kzg.value_commitC (powers : List G1) (p : List F) :
    (Kzg.commitC powers p).value = Kzg.commit powers p := by
  simp only [Kzg.commitC, Kzg.commit, value_bind, value_free, value_msmC]

@[simp] theorem Kzg.value_openC (powers : List G1) (p : List F) (z : F) :
    (Kzg.openC powers p z).value = Kzg.open_ powers p z := by
  simp only [Kzg.openC, Kzg.open_, value_bind, value_free, value_polyDivLinearC, ok_bind', value_msmC]

theorem value_powersLoopC (x : F) (n : ℕ) (p : F) (acc : List F) :
    (powersLoopC x n p acc).value = .ok (powersLoop x n p acc) := by
  induction n generalizing p acc with
  | zero => rfl
  | succ n ih => simp only [powersLoopC, powersLoop, value_bind, value_mulC, ok_bind', ih]

@[simp] theorem value_yEvalCoeffsC (ps : List (List F)) (powers : List F) (n m : ℕ) :
    (yEvalCoeffsC ps powers n m).value = yEvalCoeffs ps powers n m := by
  simp only [yEvalCoeffsC, yEvalCoeffs, value_mapM, value_bind, value_free, value_mulC, value_pure]
  rfl

/-- Without the counts, `commitC` is `commit`. -/
theorem Bivariate.value_commitC (V : Env ρ F G1 G2 GT TF) (srs : SRS G1 G2 × List G1)
    (ps : List (List F)) : (Bivariate.commitC V srs ps).value = Bivariate.commit V srs ps := by
  simp only [Bivariate.commitC, Bivariate.commit, value_bind, value_free, value_mapM,
    Kzg.value_commitC, value_pairingIPC, value_pure]
  rfl

/-- Without the counts, `openC` is `open_`. -/
theorem Bivariate.value_openC (V : Env ρ F G1 G2 GT TF) (srs : SRS G1 G2 × List G1)
    (ps : List (List F)) (coms : List G1) (point : F × F) :
    (Bivariate.openC V srs ps coms point).value = Bivariate.open_ V srs ps coms point := by
  simp only [Bivariate.openC, Bivariate.open_, value_bind, value_free, value_powersLoopC, ok_bind',
    value_yEvalCoeffsC, value_msmC, TipaSsm.value_proveC V.tipa V.multiexpSsmC_of, Kzg.value_openC,
    value_pure]
  rfl

/-- Without the counts, `commitC` is `commit`. -/
theorem TBivariate.value_commitC (V : Env ρ F G1 G2 GT TF) (ck : List G1 × List G2)
    (ps : List (List F)) : (TBivariate.commitC V ck ps).value = TBivariate.commit V ck ps := by
  simp only [TBivariate.commitC, TBivariate.commit, value_bind, value_free, value_mapM,
    value_multiexpIPC, value_pairingIPC, value_pure]
  rfl

/-- Without the counts, `openC` is `open_`. -/
theorem TBivariate.value_openC (V : Env ρ F G1 G2 GT TF) (ck : List G1 × List G2)
    (ps : List (List F)) (coms : List G1) (point : F × F) :
    (TBivariate.openC V ck ps coms point).value = TBivariate.open_ V ck ps coms point := by
  simp only [TBivariate.openC, TBivariate.open_, value_bind, value_free,
    value_structuredScalarPowerC, value_yEvalCoeffsC, value_multiexpIPC,
    GipaSsm.value_proveC V.multiexpSsmC_of, GipaSsm.value_proveC V.scalarSsmC_of, value_pure]
  rfl

variable [DecidableEq GT]

/-- Without the counts, `aggregateC` is `aggregate`. -/
theorem Groth16.value_aggregateC (V : Env ρ F G1 G2 GT TF) (srs : SRS G1 G2)
    (proofs : List (G16Proof G1 G2)) :
    (Groth16.aggregateC V srs proofs).value = Groth16.aggregate V srs proofs := by
  simp only [Groth16.aggregateC, Groth16.aggregate, value_bind, value_pairingIPC,
    Groth16.value_challengeC, value_structuredScalarPowerC, value_smul_mapM, ok_bind',
    value_multiexpIPC, value_free,
    Tipa.value_proveWithShiftC V.tipa V.pairingABC_of, TipaSsm.value_proveC V.tipa V.multiexpSsmC_of,
    value_pure]
  simp only [value_mapM, value_bind, value_inverseC, value_free, value_smulC, ok_bind']
  rfl

end Applications

namespace Sipp
variable {σ F G1 G2 GT TF : Type} [Field F] [DecidableEq F] [AddCommGroup G1] [Module F G1]
  [AddCommGroup G2] [Module F G2] [Monoid TF]

@[simp] theorem value_productOfPairingsC (V : Env σ F G1 G2 GT TF) (a : List G1) (b : List G2) :
    (productOfPairingsC (F := F) V a b).value = productOfPairings (F := F) V a b := rfl

theorem zipWith_swap (x : F) {M : Type} [AddCommGroup M] [Module F M] (as bs : List M) :
    List.zipWith (fun l r => x • r + l) as bs = List.zipWith (fun a b => x • a + b) bs as :=
  List.zipWith_comm

theorem value_proveLoopC (V : Env σ F G1 G2 GT TF) (fuel length : ℕ) (a : List G1) (b : List G2)
    (rng : Rng σ) (acc : List (GT × GT)) :
    (proveLoopC (F := F) V fuel length a b rng acc).value
      = proveLoop (F := F) V fuel length a b rng acc := by
  induction fuel generalizing length a b rng acc with
  | zero => unfold proveLoopC proveLoop; split <;> rfl
  | succ fuel ih =>
    unfold proveLoopC proveLoop
    split
    · rfl
    · simp only [value_bind, value_free, value_productOfPairingsC, value_tick, ok_bind', value_foldC,
        value_inverseC, ih, zipWith_swap]

/-- Without the counts, `proveC` is `prove`. -/
theorem value_proveC (V : Env σ F G1 G2 GT TF) (a : List G1) (b : List G2) (r : List F) (value : GT) :
    (proveC V a b r value).value = prove V a b r value := by
  simp only [proveC, prove, value_bind, value_free, value_tick, ok_bind', value_smul_mapM,
    value_proveLoopC]

end Sipp

end Ripp
