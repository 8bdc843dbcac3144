import Verif.Props.ProveLengths
import Verif.Model.Batch
import Verif.Model.GipaInstances

/-!
# C124: no result depends on the number of threads or on the schedule

C01 and C02 say this for single inner products. Here it is proved for every prover and verifier of the crates: two
environments that differ only in the execution environment give the same outcome (value, error or panic) on every
input. Since the instances themselves are equal functions (`C124_instances`), this also holds if the schedule is
different for each parallel call of a run. The exception is SIPP's prover with too few coefficients.
-/

set_option linter.unusedSectionVars false

namespace Ripp

section Reductions

/-- C124: the product of the final scalar, `structured_scalar_message.rs:114-117`. -/
theorem C124_final_scalar {F : Type} [Field F] [DecidableEq F] (X Y : Exec) (cs : List F) (b : F) :
    finalScalar X cs b = finalScalar Y cs b := by
  simp only [finalScalar, parReduce_mul]

/-- C124: scalar inner products, for all lengths. -/
theorem C124_scalar {F : Type} [Field F] (X Y : Exec) : (scalarIP X : List F → List F → Res F) = scalarIP Y := by
  funext a b
  simp only [scalarIP, parReduce_add]

end Reductions

section
variable {ρ F G1 G2 GT TF : Type} [Field F] [DecidableEq F] [AddCommGroup G1] [Module F G1]
  [AddCommGroup G2] [Module F G2] [AddCommGroup GT] [Module F GT] [Monoid TF]
  {e : G1 →ₗ[F] G2 →ₗ[F] GT}

/-- C124: pairing inner products, for all lengths. -/
theorem C124_pairing {E : Engine G1 G2 GT TF} (hE : E.Lawful e) (X Y : Exec) : pairingIP E X = pairingIP E Y := by
  funext a b
  exact C01_pairing_schedule_independent hE X Y a b

/-- C124: the six instances of GIPA in the crates are the same for all execution environments. -/
theorem C124_instances (V : Env ρ F G1 G2 GT TF) (hE : V.E.Lawful e) (Y : Exec) :
    V.pairingAB = ({ V with X := Y } : Env ρ F G1 G2 GT TF).pairingAB ∧
    V.multiexpSsm = ({ V with X := Y } : Env ρ F G1 G2 GT TF).multiexpSsm ∧
    V.scalarSsm = ({ V with X := Y } : Env ρ F G1 G2 GT TF).scalarSsm ∧
    V.multiexpGipa = ({ V with X := Y } : Env ρ F G1 G2 GT TF).multiexpGipa ∧
    V.scalarGipa = ({ V with X := Y } : Env ρ F G1 G2 GT TF).scalarGipa ∧
    V.scalarTipa = ({ V with X := Y } : Env ρ F G1 G2 GT TF).scalarTipa := by
  simp only [Env.pairingAB, Env.multiexpSsm, Env.scalarSsm, Env.multiexpGipa, Env.scalarGipa, Env.scalarTipa,
    afghoG1, afghoG2, C124_pairing hE V.X Y, C124_scalar V.X Y, and_self]

end

section
variable {ρ F MA T KA KT OA OT G1 G2 GT TF : Type} [Field F] [DecidableEq F]
  [AddCommGroup MA] [Module F MA] [AddCommGroup KA] [Module F KA] [AddCommGroup G1] [Module F G1]
  [AddCommGroup G2] [Module F G2] [DecidableEq GT] [DecidableEq OA] [DecidableEq OT] [Add OA] [SMul F OA]
  [Add OT] [SMul F OT]

/-- C124: the verifier of GIPA with structured messages, for every instance. -/
theorem C124_gipa_ssm (X Y : Exec) (P : Gipa ρ F MA F T KA Placeholder KT OA F OT) :
    GipaSsm.verify X P = GipaSsm.verify Y P := by
  funext cka ckt comA comT b proof
  simp only [GipaSsm.verify, C124_final_scalar X Y]

/-- C124: the same for TIPA with structured messages. -/
theorem C124_tipa_ssm (X Y : Exec) (V : TipaEnv F G1 G2 GT TF)
    (P : Gipa ρ F MA F T G2 Placeholder KT OA F OT) : TipaSsm.verify X V P = TipaSsm.verify Y V P := by
  funext v ckt comA comT b proof
  simp only [TipaSsm.verify, C124_final_scalar X Y]

end

section
variable {ρ F G1 G2 GT TF : Type} [Field F] [DecidableEq F] [AddCommGroup G1] [Module F G1]
  [AddCommGroup G2] [Module F G2] [AddCommGroup GT] [Module F GT] [Monoid TF]
  [DecidableEq G1] [DecidableEq GT] {e : G1 →ₗ[F] G2 →ₗ[F] GT}

/-- C124: the polynomial commitments with reference string. -/
theorem C124_polynomials (V W : Env ρ F G1 G2 GT TF) (hE : V.E.Lawful e) (hW : W = { V with X := W.X }) :
    Bivariate.setup V = Bivariate.setup W ∧ Bivariate.commit V = Bivariate.commit W ∧
    Bivariate.open_ V = Bivariate.open_ W ∧ Bivariate.verify V = Bivariate.verify W ∧
    Univariate.setup V = Univariate.setup W ∧ Univariate.commit V = Univariate.commit W ∧
    Univariate.open_ V = Univariate.open_ W ∧ Univariate.verify V = Univariate.verify W := by
  obtain ⟨-, hm, -⟩ := C124_instances V hE W.X
  have hc : Bivariate.commit V = Bivariate.commit W := by
    rw [hW]; funext srs ps
    simp only [Bivariate.commit, afghoG1, C124_pairing hE V.X W.X]
  have ho : Bivariate.open_ V = Bivariate.open_ W := by
    rw [hW]; funext srs ps coms point
    simp only [Bivariate.open_, ← hm]
    rfl
  have hv : Bivariate.verify V = Bivariate.verify W := by
    rw [hW]; funext v com point eval proof
    simp only [Bivariate.verify, ← hm]
    rw [C124_tipa_ssm V.X W.X]; rfl
  have hs : Bivariate.setup V = Bivariate.setup W := by rw [hW]; rfl
  refine ⟨hs, hc, ho, hv, ?_, ?_, ?_, ?_⟩
  · funext s d; simp only [Univariate.setup, hs]
  · funext srs p; simp only [Univariate.commit, hc]
  · funext srs p coms z; simp only [Univariate.open_, ho]
  · funext v d com z eval proof; simp only [Univariate.verify, hv]

/-- C124: the transparent polynomial commitments. -/
theorem C124_transparent (V W : Env ρ F G1 G2 GT TF) (hE : V.E.Lawful e) (hW : W = { V with X := W.X }) :
    TBivariate.setup V = TBivariate.setup W ∧ TBivariate.commit V = TBivariate.commit W ∧
    TBivariate.open_ V = TBivariate.open_ W ∧ TBivariate.verify V = TBivariate.verify W ∧
    TUnivariate.setup V = TUnivariate.setup W ∧ TUnivariate.commit V = TUnivariate.commit W ∧
    TUnivariate.open_ V = TUnivariate.open_ W ∧ TUnivariate.verify V = TUnivariate.verify W := by
  obtain ⟨-, hm, hf, -⟩ := C124_instances V hE W.X
  have hc : TBivariate.commit V = TBivariate.commit W := by
    rw [hW]; funext ck ps
    simp only [TBivariate.commit, afghoG1, C124_pairing hE V.X W.X]
  have ho : TBivariate.open_ V = TBivariate.open_ W := by
    rw [hW]; funext ck ps coms point
    simp only [TBivariate.open_, ← hm, ← hf]
  have hv : TBivariate.verify V = TBivariate.verify W := by
    rw [hW]; funext ck com point eval proof
    simp only [TBivariate.verify, ← hm, ← hf]
    rw [C124_gipa_ssm V.X W.X, C124_gipa_ssm V.X W.X]
  have hs : TBivariate.setup V = TBivariate.setup W := by
    rw [hW]; funext s x y
    simp only [TBivariate.setup, afghoG1, C124_pairing hE V.X W.X]
  refine ⟨hs, hc, ho, hv, ?_, ?_, ?_, ?_⟩
  · funext s d; simp only [TUnivariate.setup, hs]
  · funext ck p; simp only [TUnivariate.commit, hc]
  · funext ck p coms z; simp only [TUnivariate.open_, ho]
  · funext ck com z eval proof; simp only [TUnivariate.verify, hv]

/-- C124: the aggregation of Groth16 proofs. -/
theorem C124_groth16 (V W : Env ρ F G1 G2 GT TF) (hE : V.E.Lawful e) (hW : W = { V with X := W.X }) :
    Groth16.setup V = Groth16.setup W ∧ Groth16.aggregate V = Groth16.aggregate W ∧
    Groth16.verify V = Groth16.verify W := by
  obtain ⟨hp, hm, -⟩ := C124_instances V hE W.X
  refine ⟨by rw [hW]; rfl, ?_, ?_⟩
  · rw [hW]; funext srs proofs
    simp only [Groth16.aggregate, ← hm, ← hp, C124_pairing hE V.X W.X]
    rfl
  · rw [hW]; funext v vk inputs proof
    have hl : ∀ rVec : List F, ∀ bs i acc, Groth16.inputLoop V.X inputs rVec bs i acc =
        Groth16.inputLoop (G1 := G1) W.X inputs rVec bs i acc := by
      intro rVec bs
      induction bs with
      | nil => intro i acc; rfl
      | cons b bs ih =>
        intro i acc
        simp only [Groth16.inputLoop, C124_scalar V.X W.X, ih]
    have hq : ∀ r, Groth16.verifyPpe V vk inputs r proof.ipAB proof.aggC =
        Groth16.verifyPpe { V with X := W.X } vk inputs r proof.ipAB proof.aggC := by
      intro r
      simp only [Groth16.verifyPpe, hl]
    simp only [Groth16.verify, ← hm, ← hp, ← hq]
    rw [C124_tipa_ssm V.X W.X]; rfl

end

namespace Sipp

section
variable {σ F G1 G2 GT TF : Type} [Field F] [DecidableEq F] [AddCommGroup G1] [Module F G1]
  [AddCommGroup G2] [Module F G2] [AddCommGroup GT] [Module F GT] [Monoid TF] [DecidableEq GT]
  {e : G1 →ₗ[F] G2 →ₗ[F] GT}

theorem proveLoop_exec (V W : Env σ F G1 G2 GT TF) (hE : V.E.Lawful e) (hW : W = { V with X := W.X }) :
    ∀ (k fuel : ℕ) (a : List G1) (b : List G2) (rng : Rng σ) (acc : List (GT × GT)), a.length = 2 ^ k →
      b.length = 2 ^ k →
      proveLoop (F := F) V fuel (2 ^ k) a b rng acc = proveLoop (F := F) W fuel (2 ^ k) a b rng acc := by
  intro k
  induction k with
  | zero => intro fuel a b rng acc ha hb; simp [proveLoop.eq_def]
  | succ k ih =>
    intro fuel a b rng acc ha hb
    have h2 : (2 : ℕ) ^ (k + 1) = 2 * 2 ^ k := by rw [pow_succ]; ring
    have hp := Nat.two_pow_pos k
    cases fuel with
    | zero => rw [proveLoop, proveLoop]
    | succ fuel =>
      rw [proveLoop, proveLoop, if_neg (by omega), if_neg (by omega)]
      have hd : (2 : ℕ) ^ (k + 1) / 2 = 2 ^ k := by omega
      have hE' : W.E.Lawful e := by rw [hW]; exact hE
      simp only [hd, sliceTo, sliceFrom, ha, hb, if_pos (show 2 ^ k ≤ 2 ^ (k + 1) by omega), ok_bind]
      have l1 : (a.drop (2 ^ k)).length = (b.take (2 ^ k)).length := by simp; omega
      have l2 : (a.take (2 ^ k)).length = (b.drop (2 ^ k)).length := by simp; omega
      rw [C54_plain (F := F) hE _ _ l1, C54_plain (F := F) hE _ _ l2, C54_plain (F := F) hE' _ _ l1,
        C54_plain (F := F) hE' _ _ l2]
      simp only [ok_bind]
      have hr : ∀ z : GT × GT, (roundChallenge W rng z : F × Rng σ) = roundChallenge V rng z := by
        intro z; rw [hW]; rfl
      rw [hr]
      refine bind_congr fun x => ?_
      exact ih _ _ _ _ _ (by simp; omega) (by simp; omega)

/-- C124: SIPP's prover with at least as many coefficients as points. -/
theorem C124_prove (V W : Env σ F G1 G2 GT TF) (hE : V.E.Lawful e) (hW : W = { V with X := W.X })
    (a : List G1) (b : List G2) (r : List F) (value : GT) (hr : a.length ≤ r.length) :
    prove V a b r value = prove W a b r value := by
  rw [prove, prove]
  by_cases h1 : a.length = b.length
  · by_cases h2 : isPow2 a.length = true
    · obtain ⟨k, hk⟩ := (isPow2_iff _).mp h2
      have hs : Rng.fromSeed W (seedBytes W a b r value) = Rng.fromSeed V (seedBytes V a b r value) := by
        rw [hW]; rfl
      rw [hs, hk, proveLoop_exec V W hE hW k _ _ _ _ _ (by simp; omega) (by omega)]
    · simp only [Bool.not_eq_true] at h2
      rw [h2]
      have : (a.length == b.length) = true := by simpa using h1
      rw [this]; rfl
  · have : (a.length == b.length) = false := by simpa using h1
    rw [this]; rfl

/-- C124: SIPP's verifier, on every input. -/
theorem C124_verify (V W : Env σ F G1 G2 GT TF) (hW : W = { V with X := W.X }) :
    (verify V : List G1 → List G2 → List F → GT → List (GT × GT) → Res Bool) = verify W := by
  rw [hW]
  funext a b r value proof
  simp only [verify, parReduce_add]
  have : ∀ (rng : Rng σ), challenges (F := F) V rng proof = challenges (F := F) { V with X := W.X } rng proof := by
    induction proof with
    | nil => intro rng; rfl
    | cons z zs ih =>
      intro rng
      rw [challenges, challenges]
      have hx : (roundChallenge { V with X := W.X } rng z : F × Rng σ) = roundChallenge V rng z := rfl
      rw [hx]
      simp only [ih]
  rw [this]; rfl

/-- C124: with one coefficient too few and one thread, SIPP's prover returns a proof of the usual length. -/
theorem C124_one_thread (V : Env σ F G1 G2 GT TF) (hE : V.E.Lawful e) (ht : V.X.threads = 1)
    (hne : ∀ rng : Rng σ, (((rng.nextU128 V).1 : ℕ) : F) ≠ 0) (k : ℕ) (a : List G1) (b : List G2) (r : List F)
    (value : GT) (ha : a.length = 2 ^ k) (hb : b.length = 2 ^ k) (hr : r.length + 1 = 2 ^ k) :
    ∃ proof, prove V a b r value = .ok proof ∧ proof.length = k := by
  have key : ∀ (k fuel : ℕ) (a : List G1) (b : List G2) (rng : Rng σ) (acc : List (GT × GT)),
      a.length + 1 = 2 ^ k → b.length = 2 ^ k → k ≤ fuel →
      ∃ proof, proveLoop (F := F) V fuel (2 ^ k) a b rng acc = .ok proof ∧ proof.length = acc.length + k := by
    intro k
    induction k with
    | zero => intro fuel a b rng acc _ _ _; exact ⟨acc, by simp [proveLoop.eq_def], rfl⟩
    | succ k ih =>
      intro fuel a b rng acc ha hb hf
      have h2 : (2 : ℕ) ^ (k + 1) = 2 * 2 ^ k := by rw [pow_succ]; ring
      have hp := Nat.two_pow_pos k
      obtain ⟨fuel, rfl⟩ : ∃ n, fuel = n + 1 := ⟨fuel - 1, by omega⟩
      rw [proveLoop, if_neg (by omega)]
      have hd : (2 : ℕ) ^ (k + 1) / 2 = 2 ^ k := by omega
      simp only [hd, sliceTo, sliceFrom, if_pos (show 2 ^ k ≤ a.length by omega), hb,
        if_pos (show 2 ^ k ≤ 2 ^ (k + 1) by omega), ok_bind]
      have z1 : ∃ z, productOfPairings (F := F) V (a.drop (2 ^ k)) (b.take (2 ^ k)) = .ok z := by
        rw [C66_mismatched (F := F) hE _ _ (by simp; omega)]
        rw [if_pos]
        · exact ⟨_, rfl⟩
        · rw [ht, Nat.div_one]
          simp only [List.length_drop, List.length_take, hb]
          rw [show min (a.length - 2 ^ k) (min (2 ^ k) (2 ^ (k + 1))) = a.length - 2 ^ k by omega]
          split
          · exact dvd_rfl
          · exact one_dvd _
      obtain ⟨z1, h1⟩ := z1
      obtain ⟨z2, h2⟩ : ∃ z, productOfPairings (F := F) V (a.take (2 ^ k)) (b.drop (2 ^ k)) = .ok z :=
        ⟨_, C54_plain (F := F) hE _ _ (by simp; omega)⟩
      rw [h1, h2]
      simp only [ok_bind]
      rw [inverse_of_ne (show (roundChallenge V rng (z1, z2) : F × Rng σ).1 ≠ 0 from hne _)]
      simp only [unwrap, ok_bind]
      have hl : ∀ x y : F, (List.zipWith (fun l r => x • r + l) (a.take (2 ^ k)) (a.drop (2 ^ k))).length + 1 = 2 ^ k ∧
          (List.zipWith (fun l r => y • r + l) (b.take (2 ^ k)) (b.drop (2 ^ k))).length = 2 ^ k := by
        intro x y
        simp only [List.length_zipWith, List.length_take, List.length_drop]
        omega
      obtain ⟨proof, h3, h4⟩ := ih fuel _ _ (roundChallenge (F := F) V rng (z1, z2)).2 (acc ++ [(z1, z2)])
        (hl _ 0).1 (hl 0 (roundChallenge (F := F) V rng (z1, z2)).1⁻¹).2 (by omega)
      exact ⟨proof, h3, by rw [h4]; simp; omega⟩
  rw [prove, ha, hb, isPow2_two_pow]
  simp only [beq_self_eq_true, assert_true, ok_bind]
  have := key k (2 ^ k) (List.zipWith (fun a r => r • a) a r) b (Rng.fromSeed V (seedBytes V a b r value)) []
    (by simp; omega) hb (Nat.lt_two_pow_self).le
  simpa using this

/-- C124: on the same input of at least 16 points the prover panics if there are two threads. So the outcome depends
on the machine. -/
theorem C124_two_threads (V : Env σ F G1 G2 GT TF) (hE : V.E.Lawful e) (ht : V.X.threads = 2) (k : ℕ) (a : List G1)
    (b : List G2) (r : List F) (value : GT) (ha : a.length = 2 ^ k) (hb : b.length = 2 ^ k)
    (hr : r.length + 1 = 2 ^ k) (hk : 4 ≤ k) : prove V a b r value = panic' .zipLength := by
  obtain ⟨j, rfl⟩ : ∃ j, k = j + 4 := ⟨k - 4, by omega⟩
  have h2 : (2 : ℕ) ^ (j + 4) = 16 * 2 ^ j := by rw [pow_add]; ring
  have hp := Nat.two_pow_pos j
  rw [prove, ha, hb, isPow2_two_pow]
  simp only [beq_self_eq_true, assert_true, ok_bind]
  obtain ⟨fuel, hf⟩ : ∃ n, 2 ^ (j + 4) = n + 1 := ⟨2 ^ (j + 4) - 1, by omega⟩
  have : ∀ rng : Rng σ, proveLoop (F := F) V (fuel + 1) (2 ^ (j + 4)) (List.zipWith (fun a r => r • a) a r) b rng []
      = panic' .zipLength := by
    intro rng
    rw [proveLoop, if_neg (by omega)]
    have hd : (2 : ℕ) ^ (j + 4) / 2 = 8 * 2 ^ j := by omega
    have hl : (List.zipWith (fun a r => r • a) a r).length = 16 * 2 ^ j - 1 := by simp; omega
    simp only [hd, sliceTo, sliceFrom, hl, hb, if_pos (show 8 * 2 ^ j ≤ 16 * 2 ^ j - 1 by omega),
      if_pos (show 8 * 2 ^ j ≤ 2 ^ (j + 4) by omega), ok_bind]
    rw [C66_mismatched (F := F) hE _ _ (by simp [hl, hb]; omega), if_neg]
    · rfl
    · simp only [List.length_drop, List.length_take, hl, hb, ht]
      rw [show min (16 * 2 ^ j - 1 - 8 * 2 ^ j) (min (8 * 2 ^ j) (2 ^ (j + 4))) = 8 * 2 ^ j - 1 by omega,
        show 16 * 2 ^ j - 1 - 8 * 2 ^ j = 8 * 2 ^ j - 1 by omega, if_pos (by omega),
        show (8 * 2 ^ j - 1) / 2 = 4 * 2 ^ j - 1 by omega]
      intro hdvd
      have h1 : 4 * 2 ^ j - 1 ∣ 1 := by
        have := Nat.dvd_sub hdvd (dvd_mul_left (4 * 2 ^ j - 1) 2)
        rwa [show 8 * 2 ^ j - 1 - 2 * (4 * 2 ^ j - 1) = 1 by omega] at this
      have := Nat.le_of_dvd one_pos h1
      omega
  conv_lhs => arg 2; rw [hf]
  exact this _

end

example : ∃ proof, prove { Toy.sippEnv with X := ⟨1, by norm_num, .leaf⟩ } (List.replicate 16 3)
      (List.replicate 16 5) (List.replicate 15 1) (7 : Toy.F) = .ok proof ∧ proof.length = 4 :=
  C124_one_thread (e := Toy.e) _ Toy.lawful rfl
    (fun rng => by simp only [Rng.nextU128, Toy.sippEnv]; decide) 4 _ _ _ _
    (by simp) (by simp) (by simp)

example : prove { Toy.sippEnv with X := ⟨2, by norm_num, .leaf⟩ } (List.replicate 16 3)
      (List.replicate 16 5) (List.replicate 15 1) (7 : Toy.F) = panic' .zipLength :=
  C124_two_threads (e := Toy.e) _ Toy.lawful rfl 4 _ _ _ _ (by simp) (by simp) (by simp) (by norm_num)

example : prove { Toy.sippEnv with X := ⟨3, by norm_num, .split 1 .leaf .leaf⟩ } [2, 3, 4, 9] [5, 7, 1, 1] [1, 4, 2, 8]
    (7 : Toy.F) = prove Toy.sippEnv [2, 3, 4, 9] [5, 7, 1, 1] [1, 4, 2, 8] (7 : Toy.F) :=
  C124_prove _ _ Toy.lawful rfl _ _ _ _ (by simp)

example : verify { Toy.sippEnv with X := ⟨3, by norm_num, .split 1 .leaf .leaf⟩ } [2, 3] [5, 7] [1, 4]
    (7 : Toy.F) = verify Toy.sippEnv [2, 3] [5, 7] [1, 4] (7 : Toy.F) :=
  congrFun (congrFun (congrFun (congrFun (C124_verify _ _ rfl) _) _) _) _

end Sipp

/-! Examples: three threads and a reduction split in two, against `Toy.X`. -/

example : Groth16.aggregate { Toy.env with X := ⟨3, by norm_num, .split 1 .leaf .leaf⟩ } = Groth16.aggregate Toy.env :=
  (C124_groth16 _ _ Toy.lawful rfl).2.1

example : Bivariate.open_ { Toy.env with X := ⟨3, by norm_num, .split 1 .leaf .leaf⟩ } = Bivariate.open_ Toy.env :=
  (C124_polynomials _ _ Toy.lawful rfl).2.2.1

example : TBivariate.verify { Toy.env with X := ⟨3, by norm_num, .split 1 .leaf .leaf⟩ } = TBivariate.verify Toy.env :=
  (C124_transparent _ _ Toy.lawful rfl).2.2.2.1

example : finalScalar ⟨3, by norm_num, .split 1 .leaf .leaf⟩ [2, 3, 4] 5 = finalScalar Toy.X [2, 3, 4] (5 : Toy.F) :=
  C124_final_scalar _ _ _ _

end Ripp
