import Verif.Props.Transparent

/-!
# C82: the degree bound of the univariate schemes is not enforced

Only the next power of four matters.
-/

set_option linter.unusedSectionVars false

namespace Ripp

open Spec

variable {ρ F G1 G2 GT TF : Type} [Field F] [DecidableEq F] [AddCommGroup G1] [Module F G1]
  [AddCommGroup G2] [Module F G2] [AddCommGroup GT] [Module F GT] [Monoid TF]
  [DecidableEq G1] [DecidableEq GT] {e : G1 →ₗ[F] G2 →ₗ[F] GT}

theorem sqrtPow2_congr {d d' : ℕ} (h : d + 1 ≤ 2 ^ 52) (h' : d' + 1 ≤ 2 ^ 52)
    (hi : ∀ i, d + 1 ≤ 4 ^ i ↔ d' + 1 ≤ 4 ^ i) : sqrtPow2 d = sqrtPow2 d' := by
  obtain ⟨j, h1, h2⟩ := sqrtPow2_eq d h
  obtain ⟨j', h3, h4⟩ := sqrtPow2_eq d' h'
  have : j = j' := le_antisymm ((h2 j').mpr ((hi j').mpr ((h4 j').mp le_rfl)))
    ((h4 j).mpr ((hi j).mp ((h2 j).mp le_rfl)))
  rw [h1, h3, this]

/-- C82: two degree bounds below the same powers of four give the same split, in both schemes. -/
theorem C82_same_degrees {d d' : ℕ} (h : d + 1 ≤ 2 ^ 52) (h' : d' + 1 ≤ 2 ^ 52)
    (hi : ∀ i, d + 1 ≤ 4 ^ i ↔ d' + 1 ≤ 4 ^ i) :
    bivariateDegrees d = bivariateDegrees d' ∧ bivariateDegreesT d = bivariateDegreesT d' := by
  rw [bivariateDegrees, bivariateDegrees, bivariateDegreesT, bivariateDegreesT, sqrtPow2_congr h h' hi]
  exact ⟨rfl, rfl⟩

theorem same_powers {d n : ℕ} (i : ℕ) (hd : 4 ^ i < d + 1) (hn : 4 ^ i < n + 1)
    (hd' : d + 1 ≤ 4 ^ (i + 1)) (hn' : n + 1 ≤ 4 ^ (i + 1)) (j : ℕ) : d + 1 ≤ 4 ^ j ↔ n + 1 ≤ 4 ^ j := by
  rcases le_or_gt j i with hj | hj
  · have : 4 ^ j ≤ 4 ^ i := Nat.pow_le_pow_right (by norm_num) hj
    omega
  · have : 4 ^ (i + 1) ≤ 4 ^ j := Nat.pow_le_pow_right (by norm_num) hj
    omega

namespace Univariate

/-- C82: for such bounds `setup` and `verify` are the same functions. -/
theorem C82_same_scheme (V : Env ρ F G1 G2 GT TF) {d d' : ℕ} (h : d + 1 ≤ 2 ^ 52) (h' : d' + 1 ≤ 2 ^ 52)
    (hi : ∀ i, d + 1 ≤ 4 ^ i ↔ d' + 1 ≤ 4 ^ i) :
    (∀ s, setup V s d = setup V s d') ∧
      ∀ v com z value proof, verify V v d com z value proof = verify V v d' com z value proof := by
  refine ⟨fun s => ?_, fun v com z value proof => ?_⟩
  · rw [setup, setup, (C82_same_degrees h h' hi).1]
  · rw [verify, verify, (C82_same_degrees h h' hi).1]

/-- C82: every polynomial below the next power of four is committed to and opened under the bound `d`,
and its true value is accepted, although its degree may exceed `d`. -/
theorem C82_not_enforced (V : Env ρ F G1 G2 GT TF) (hE : V.E.Lawful e)
    (hd : ∀ b, 16 ≤ (V.digest b).length) (hse : V.multiexpSsm.SearchEnds)
    (hrb : TipaSsm.KzgEnds V.tipa V.digest V.serF)
    (s s' : ρ) (d i : ℕ) (srs : SRS G1 G2 × List G1) (h1 : 4 ^ i < d + 1) (h2 : d + 1 ≤ 4 ^ (i + 1))
    (h3 : 4 ^ (i + 1) ≤ 2 ^ 52) (hset : setup V s d = .ok (srs, s')) (p : List F)
    (hp : p.length ≤ 4 ^ (i + 1)) (z : F) :
    ∃ com coms v proof, commit V srs p = .ok (com, coms) ∧ srs.1.verifierKey = .ok v ∧
      open_ V srs p coms z = .ok proof ∧ verify V v d com z (evalAt p z) proof = .ok true := by
  have hpos : 1 ≤ 4 ^ i := Nat.one_le_pow _ _ (by norm_num)
  have e4 : 4 ^ (i + 1) - 1 + 1 = 4 ^ (i + 1) := Nat.sub_add_cancel (Nat.one_le_pow _ _ (by norm_num))
  have h5 : 4 ^ i < 4 ^ (i + 1) := Nat.pow_lt_pow_right (by norm_num) (by omega)
  obtain ⟨g1, g2⟩ := C82_same_scheme V (d := d) (d' := 4 ^ (i + 1) - 1) (by omega) (by omega)
    (same_powers i h1 (by omega) h2 (by omega))
  rw [g1] at hset
  simp only [g2]
  exact C45_complete_total V hE hd hse hrb s s' _ srs (by omega) (by omega) hset p (by omega) z

end Univariate

namespace TUnivariate

/-- C82: the same for the transparent scheme. -/
theorem C82_same_scheme (V : Env ρ F G1 G2 GT TF) {d d' : ℕ} (h : d + 1 ≤ 2 ^ 52) (h' : d' + 1 ≤ 2 ^ 52)
    (hi : ∀ i, d + 1 ≤ 4 ^ i ↔ d' + 1 ≤ 4 ^ i) (s : ρ) : setup V s d = setup V s d' := by
  rw [setup, setup, (C82_same_degrees h h' hi).2]

/-- C82: the same for the transparent scheme. -/
theorem C82_not_enforced (V : Env ρ F G1 G2 GT TF) (hE : V.E.Lawful e)
    (hd : ∀ b, 16 ≤ (V.digest b).length) (hse : V.multiexpSsm.SearchEnds)
    (hse' : V.scalarSsm.SearchEnds) (s s' : ρ) (d i : ℕ) (ck : List G1 × List G2) (h1 : 4 ^ i < d + 1)
    (h2 : d + 1 ≤ 4 ^ (i + 1)) (h3 : 4 ^ (i + 1) ≤ 2 ^ 52) (hset : setup V s d = .ok (ck, s'))
    (p : List F) (hp : p.length ≤ 4 ^ (i + 1)) (z : F) :
    ∃ com coms proof, commit V ck p = .ok (com, coms) ∧ open_ V ck p coms z = .ok proof ∧
        verify V ck com z (evalAt p z) proof = .ok true := by
  have hpos : 1 ≤ 4 ^ i := Nat.one_le_pow _ _ (by norm_num)
  have e4 : 4 ^ (i + 1) - 1 + 1 = 4 ^ (i + 1) := Nat.sub_add_cancel (Nat.one_le_pow _ _ (by norm_num))
  have h5 : 4 ^ i < 4 ^ (i + 1) := Nat.pow_lt_pow_right (by norm_num) (by omega)
  rw [C82_same_scheme V (d := d) (d' := 4 ^ (i + 1) - 1) (by omega) (by omega)
    (same_powers i h1 (by omega) h2 (by omega))] at hset
  exact C47_complete_total V hE hd hse hse' s s' _ ck (by omega) (by omega) hset p (by omega) z

end TUnivariate

/-- A commitment under the degree bound 1 to `1 + 2 X + 3 X² + 4 X³` is opened at 5 to the true value,
586 = 81 mod 101. -/
example : ∃ srs s' com coms v proof, Univariate.setup Toy.env 11 1 = .ok (srs, s') ∧
    Univariate.commit Toy.env srs ([1, 2, 3, 4] : List Toy.F) = .ok (com, coms) ∧
    srs.1.verifierKey = .ok v ∧
    Univariate.verify Toy.env v 1 com (5 : Toy.F) 81 proof = .ok true := by
  have hval : evalAt ([1, 2, 3, 4] : List Toy.F) 5 = 81 := by decide +kernel
  obtain ⟨x, y, k, l, j, h1, h2, -⟩ := C43_degrees 1 (by norm_num) (by norm_num)
  obtain ⟨srs, α, β, s', h4, h5⟩ := Bivariate.C41_setup Toy.env 11 x y
  have hset : Univariate.setup Toy.env 11 1 = .ok (srs, s') := by
    rw [Univariate.setup, h1]; exact h4
  obtain ⟨com, coms, v, proof, a1, a2, a3, a4⟩ := Univariate.C82_not_enforced Toy.env Toy.lawful
    Toy.digest_length (searchEnds_of_digest Toy.env.multiexpSsm Toy.digest_length Toy.digest_ne_zero)
    Toy.ssmKzgEnds 11 s' 1 0 srs (by norm_num) (by norm_num) (by norm_num) hset
    [1, 2, 3, 4] (by decide) 5
  rw [hval] at a4
  exact ⟨srs, s', com, coms, v, proof, hset, a1, a2, a4⟩

end Ripp
