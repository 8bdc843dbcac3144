import Verif.Props.Univariate
import Verif.Props.Transparent

/-!
# C131: the commitment to the combined row in an accepted opening is not determined

An opening of a bivariate commitment contains a commitment to the combined row. It is not hashed, so that a prover can
choose it after the challenges of the argument about the rows. For every row `q` with value zero at the second coordinate
of the point there is an accepted opening of the true value in which the combined row is changed by a multiple of `q`.
-/

set_option linter.unusedSectionVars false

namespace Ripp

open Spec

namespace Bivariate

variable {ρ F G1 G2 GT TF : Type} [Field F] [DecidableEq F] [AddCommGroup G1] [Module F G1]
  [AddCommGroup G2] [Module F G2] [AddCommGroup GT] [Module F GT] [Monoid TF]
  {e : G1 →ₗ[F] G2 →ₗ[F] GT} [DecidableEq G1] [DecidableEq GT]

/-- C131: for every polynomial that fits, every point and every row `q` with value zero at `point.2`, there is an accepted
opening of the true value whose combined row commitment is that of the honest opening minus a non-zero multiple of the
commitment to `q`. -/
theorem C131_opening (V : Env ρ F G1 G2 GT TF) (hE : V.E.Lawful e)
    (hd : ∀ b, 16 ≤ (V.digest b).length) (hse : V.multiexpSsm.SearchEnds)
    (hrb : TipaSsm.KzgEnds V.tipa V.digest V.serF)
    (k : ℕ) (srs : SRS G1 G2 × List G1) (g : G1) (h : G2)
    (α β : F) (x y : ℕ) (hs : IsSrs srs g h α β x y) (hx : x + 1 = 2 ^ (k + 1)) (ps : List (List F))
    (hps : ps.length ≤ x + 1) (hrow : ∀ p ∈ ps, p.getLast? ≠ some 0 ∧ p.length ≤ y + 1) (point : F × F)
    (q : List F) (hq : q.getLast? ≠ some 0 ∧ q.length ≤ y + 1) (hq0 : evalAt q point.2 = 0)
    (com : GT) (coms : List G1) (hcom : commit V srs ps = .ok (com, coms)) (honest : PcProof F G1 G2 GT)
    (hopen : open_ V srs ps coms point = .ok honest) :
    ∃ v qc c proof, srs.1.verifierKey = .ok v ∧ Kzg.commit srs.2 q = .ok qc ∧ c ≠ (0 : F) ∧
      proof.yEvalComm = honest.yEvalComm - c • qc ∧
      verify V v com point (evalAt (ps.map fun p => evalAt p point.2) point.1) proof = .ok true := by
  obtain ⟨px, py⟩ := point
  have hrow' : ∀ p ∈ ps, p.length ≤ y + 1 := fun p hp => (hrow p hp).2
  rw [commit_eq V hE srs g h α β x y hs ps hps hrow] at hcom
  obtain ⟨rfl, rfl⟩ := Prod.mk.inj (Except.ok.inj hcom)
  rw [open_eq V srs g h α β x y hs ps hps] at hopen
  obtain ⟨ip, -, hopen⟩ := bind_eq_ok.mp hopen
  obtain rfl := Except.ok.inj hopen
  have hv := (hs.left.keys (by omega)).2
  obtain ⟨v, c, comT', proof, hv', hc, hT, hver⟩ := TipaSsm.forgery_shift (V := V.tipa)
    (multiexpSsm_lawful V hE) hE hd hse hrb V.X k srs.1 g h α β
    (hx ▸ hs.left) ((resize ps (x + 1) []).map fun p => polyEval p α • g) px
    _ PUnit.unit _ _ (by rw [List.length_map, resize_length, hx])
    (Bivariate.honest V hE srs g h α β x y hs ps hps hrow' px) (polyEval q α • g)
  rw [hv] at hv'
  obtain rfl := Except.ok.inj hv'
  obtain rfl : comT' = ⟨[polyEval (combined ps px x y) α • g - c • (polyEval q α • g)]⟩ := (Except.ok.inj hT).symm
  refine ⟨_, _, c,
    { ip := proof, yEvalComm := polyEval (combined ps px x y) α • g - c • (polyEval q α • g),
      kzg := polyEval (polyDivLinear (combined ps px x y) py) α • g - c • (polyEval (polyDivLinear q py) α • g) },
    hv, ?_, hc, rfl, ?_⟩
  · rw [kzg_powers hs]
    exact Kzg.commit_eq g α _ _ hq.1 (by omega) hq.2
  · rw [verify]
    simp only
    rw [hver]
    simp only [ok_bind]
    have hk := Kzg.complete hE g h (β • g) α py (combined ps px x y)
    have hk' := Kzg.complete hE g h (β • g) α py q
    rw [evalAt_eq] at hq0
    rw [hq0] at hk'
    rw [Kzg.verify_eq hE, Except.ok.injEq, decide_eq_true_eq] at hk hk'
    rw [Kzg.verify_eq hE, eval_combined ps px py x y hps hrow']
    rw [zero_smul, sub_zero] at hk'
    have key : ∀ (a a' b b' : G1) (x y : G2), e a x = e b y → e a' x = e b' y →
        e (a - c • a') x = e (b - c • b') y := fun a a' b b' x y h1 h2 => by simp [h1, h2]
    simp only at hk hk' ⊢
    rw [sub_right_comm, decide_eq_true (key _ _ _ _ _ _ hk hk')]
    rfl

/-- So it is not determined by the statement, if rows have two coefficients and the second coordinate of the point is no
trapdoor. -/
theorem C131_two_openings (V : Env ρ F G1 G2 GT TF) (hE : V.E.Lawful e)
    (hd : ∀ b, 16 ≤ (V.digest b).length) (hse : V.multiexpSsm.SearchEnds)
    (hrb : TipaSsm.KzgEnds V.tipa V.digest V.serF)
    (k : ℕ) (srs : SRS G1 G2 × List G1) (g : G1) (h : G2) (hg : g ≠ 0)
    (α β : F) (x y : ℕ) (hs : IsSrs srs g h α β x (y + 1)) (hx : x + 1 = 2 ^ (k + 1)) (ps : List (List F))
    (hps : ps.length ≤ x + 1) (hrow : ∀ p ∈ ps, p.getLast? ≠ some 0 ∧ p.length ≤ y + 2) (point : F × F)
    (hα : α ≠ point.2) (com : GT) (coms : List G1) (hcom : commit V srs ps = .ok (com, coms)) (honest : PcProof F G1 G2 GT)
    (hopen : open_ V srs ps coms point = .ok honest) :
    ∃ v proof, srs.1.verifierKey = .ok v ∧ proof.yEvalComm ≠ honest.yEvalComm ∧
      verify V v com point (evalAt (ps.map fun p => evalAt p point.2) point.1) proof = .ok true := by
  obtain ⟨v, qc, c, proof, hv, hqc, hc, he, hver⟩ := C131_opening V hE hd hse hrb k srs g h α β x (y + 1) hs hx ps hps hrow
    point [-point.2, 1] ⟨by simp, by simp⟩ (by simp [evalAt_eq, polyEval]) com coms hcom honest hopen
  refine ⟨v, proof, hv, fun h0 => ?_, hver⟩
  rw [kzg_powers hs, Kzg.commit_eq g α _ _ (by simp) (by omega) (by simp)] at hqc
  obtain rfl := Except.ok.inj hqc
  rw [h0, eq_comm, sub_eq_self, smul_smul, smul_eq_zero, mul_eq_zero] at he
  rcases he with (he | he) | he
  · exact hc he
  · simp only [polyEval] at he
    simp only [List.foldr_cons, List.foldr_nil, mul_zero, add_zero, mul_one] at he
    exact hα (neg_add_eq_zero.mp he).symm
  · exact hg he

end Bivariate

namespace TBivariate

variable {ρ F G1 G2 GT TF : Type} [Field F] [DecidableEq F] [AddCommGroup G1] [Module F G1]
  [AddCommGroup G2] [Module F G2] [AddCommGroup GT] [Module F GT] [Monoid TF]
  {e : G1 →ₗ[F] G2 →ₗ[F] GT} [DecidableEq G1] [DecidableEq GT]

/-- C131: the same for the transparent scheme. -/
theorem C131_opening (V : Env ρ F G1 G2 GT TF) (hE : V.E.Lawful e)
    (hd : ∀ b, 16 ≤ (V.digest b).length) (hse : V.multiexpSsm.SearchEnds)
    (hse' : V.scalarSsm.SearchEnds) (k l : ℕ) (ck : List G1 × List G2)
    (h1 : ck.1.length = 2 ^ l) (h2 : ck.2.length = 2 ^ (k + 1)) (ps : List (List F))
    (hps : ps.length ≤ ck.2.length) (hrow : ∀ p ∈ ps, p.length ≤ ck.1.length) (point : F × F)
    (q : List F) (hq : q.length = ck.1.length) (hq0 : evalAt q point.2 = 0)
    (com : GT) (coms : List G1) (hcom : commit V ck ps = .ok (com, coms)) (honest : TpcProof F G1 GT)
    (hopen : open_ V ck ps coms point = .ok honest) :
    ∃ qc c proof, (pedersen V.randG1).commit ck.1 q = .ok qc ∧ c ≠ (0 : F) ∧
      proof.yEvalComm = honest.yEvalComm - c • qc ∧
      verify V ck com point (evalAt (ps.map fun p => evalAt p point.2) point.1) proof = .ok true := by
  obtain ⟨px, py⟩ := point
  rw [commit_eq V hE ck ps hps hrow] at hcom
  obtain ⟨rfl, rfl⟩ := Prod.mk.inj (Except.ok.inj hcom)
  rw [open_eq V ck ps hps (by rw [h1]; exact Nat.one_le_two_pow) (by rw [h2]; exact Nat.one_le_two_pow)] at hopen
  obtain ⟨_, -, hopen⟩ := bind_eq_ok.mp hopen
  obtain ⟨_, -, hopen⟩ := bind_eq_ok.mp hopen
  obtain rfl := Except.ok.inj hopen
  set qc := dot (LinearMap.lsmul F G1 · ·) q ck.1 with hqc
  obtain ⟨c, comT', pf2, hc, hT, hA2⟩ := GipaSsm.forgery_shift (multiexpSsm_lawful V hE) hd hse V.X k _ px _
    ck.2 PUnit.unit _ _ (by rw [List.length_map, resize_length, h2]) h2 (honest_second V hE ck ps px) qc
  obtain rfl : comT' = ⟨[dot (LinearMap.lsmul F G1 · ·) (combined ps px ck.2.length ck.1.length) ck.1 - c • qc]⟩ :=
    (Except.ok.inj hT).symm
  set w := addV (combined ps px ck.2.length ck.1.length) (smulV (-c) q) with hw
  have hlw : (combined ps px ck.2.length ck.1.length).length = (smulV (-c) q).length := by
    rw [length_combined, smulV, List.length_map, hq]
  have hwl : w.length = ck.1.length := by
    rw [hw, addV, List.length_zipWith, ← hlw, min_self, length_combined]
  have hwc : dot (LinearMap.lsmul F G1 · ·) w ck.1 =
      dot (LinearMap.lsmul F G1 · ·) (combined ps px ck.2.length ck.1.length) ck.1 - c • qc := by
    rw [hw, dot_addV_left _ _ _ _ hlw, dot_smulV_left, neg_smul, ← sub_eq_add_neg]
  have hwv : polyEval w py = evalAt (ps.map fun p => evalAt p py) px := by
    rw [evalAt_eq] at hq0
    rw [← dot_powers_eq w py ck.1.length hwl.le, hw, dot_addV_left _ _ _ _ hlw, dot_smulV_left,
      dot_powers_eq _ _ _ (length_combined _ _ _ _).le, dot_powers_eq _ _ _ hq.le, hq0,
      eval_combined ps px py _ _ hps hrow]
    simp
  obtain ⟨pf1, -, hB2⟩ := GipaSsm.C33_complete_total (scalarSsm_lawful V) hd hse' V.X l w _ py _ ck.1 PUnit.unit _ _
    (hwl.trans h1) h1 (structuredScalarPower_eq _ _) (honest_first V ck.1 w hwl py)
  refine ⟨qc, c, ⟨pf2, _, pf1⟩, (scalarSsm_lawful V).lmc_ok _ _ hq.symm, hc, rfl, ?_⟩
  rw [verify]
  simp only
  rw [hA2]
  simp only [ok_bind]
  rw [hwc, hwv] at hB2
  rw [hB2]
  rfl

end TBivariate

/-- C131 applied to the polynomial `(1 + 2Y) + X(3) + X³(4Y)` at the point `(6, 7)`: two accepted openings of the value 21
with different combined row commitments. -/
theorem C131_example : ∃ srs com coms v proof proof',
    Bivariate.commit Toy.env srs ([[1, 2], [3], [], [0, 4]] : List (List Toy.F)) = .ok (com, coms) ∧
    srs.1.verifierKey = .ok v ∧ proof.yEvalComm ≠ proof'.yEvalComm ∧
    Bivariate.verify Toy.env v com ((6, 7) : Toy.F × Toy.F) 21 proof = .ok true ∧
    Bivariate.verify Toy.env v com ((6, 7) : Toy.F × Toy.F) 21 proof' = .ok true := by
  let srs : SRS Toy.F Toy.F × List Toy.F := (⟨[1], (List.range 7).map fun i => (12 : Toy.F) ^ i • 1,
    (12 : Toy.F) • 1, (11 : Toy.F) • 1⟩, (List.range 2).map fun i => (11 : Toy.F) ^ i • 1)
  have hs : Bivariate.IsSrs srs 1 1 (11 : Toy.F) 12 3 1 := ⟨⟨rfl, rfl, rfl, rfl⟩, rfl⟩
  have hse := searchEnds_of_digest Toy.env.multiexpSsm Toy.digest_length Toy.digest_ne_zero
  have hval : evalAt (([[1, 2], [3], [], [0, 4]] : List (List Toy.F)).map fun p => evalAt p 7) 6 = 21 := by
    decide +kernel
  obtain ⟨com, coms, v, proof, h3, h4, h5, h6⟩ := Bivariate.C41_complete_total Toy.env Toy.lawful
    Toy.digest_length hse Toy.ssmKzgEnds 1 srs 1 1 11 12 3 1 hs rfl [[1, 2], [3], [], [0, 4]] (by decide) (by decide)
    ((6, 7) : Toy.F × Toy.F)
  obtain ⟨v', proof', g1, g2, g3⟩ := Bivariate.C131_two_openings Toy.env Toy.lawful Toy.digest_length hse Toy.ssmKzgEnds
    1 srs 1 1 (by decide) 11 12 3 0 hs rfl [[1, 2], [3], [], [0, 4]] (by decide) (by decide)
    ((6, 7) : Toy.F × Toy.F) (by decide) com coms h3 proof h5
  obtain rfl := Except.ok.inj (h4.symm.trans g1)
  rw [hval] at h6 g3
  exact ⟨srs, com, coms, v, proof, proof', h3, h4, g2.symm, h6, g3⟩

end Ripp
