import Verif.Props.Linear
import Verif.Props.Transparent

/-!
# C154: the same polynomial written with more or fewer zero rows

A `BivariatePolynomial` is a vector of polynomials in `Y`; zero polynomials at its end do not change the polynomial.
-/

namespace Ripp

open Spec

section

variable {ρ F G1 G2 GT TF : Type} [Field F] [DecidableEq F]
  [AddCommGroup G1] [Module F G1] [AddCommGroup G2] [Module F G2] [Monoid TF]

/-- Two lists with the same rows, apart from zero rows at the end. -/
def SameRows (ps qs : List (List F)) : Prop := ∀ i, ps.getD i [] = qs.getD i []

omit [Field F] [DecidableEq F] in
theorem sameRows_append (ps : List (List F)) (k : ℕ) : SameRows (ps ++ List.replicate k []) ps := by
  intro i
  simp only [List.getD_eq_getElem?_getD, List.getElem?_append]
  split
  · rfl
  · rename_i h
    rw [List.getElem?_eq_none (by omega : ps.length ≤ i), List.getElem?_replicate]
    split <;> rfl

omit [Field F] [DecidableEq F] in
theorem SameRows.resize {ps qs : List (List F)} (h : SameRows ps qs) (n : ℕ) : resize ps n [] = resize qs n [] := by
  rw [resize_eq_map_getD, resize_eq_map_getD]
  exact List.map_congr_left fun i _ => h i

/-- C154: the value at a point is the same. -/
theorem C154_value (ps : List (List F)) (k : ℕ) (x y : F) :
    bivariateEval (ps ++ List.replicate k []) x y = bivariateEval ps x y := by
  rw [bivariateEval_eq, bivariateEval_eq, List.map_append, evalAt_eq, evalAt_eq, polyEval_append]
  have h : ∀ k, polyEval (List.map (evalAt · y) (List.replicate k ([] : List F))) x = 0 := by
    intro k
    induction k with
    | zero => rfl
    | succ k ih =>
      rw [List.replicate_succ, List.map_cons, ← List.singleton_append, polyEval_append, ih]
      simp [evalAt_eq, polyEval]
  rw [h, mul_zero, add_zero]

/-- C154: within the capacity, zero rows change neither the commitment nor the opening. -/
theorem C154_same (V : Env ρ F G1 G2 GT TF) (srs : SRS G1 G2 × List G1) (ps qs : List (List F)) (h : SameRows ps qs)
    (hp : ps.length ≤ srs.1.commitmentKeys.1.length) (hq : qs.length ≤ srs.1.commitmentKeys.1.length) (coms : List G1)
    (point : F × F) :
    Bivariate.commit V srs ps = Bivariate.commit V srs qs ∧
    Bivariate.open_ V srs ps coms point = Bivariate.open_ V srs qs coms point := by
  constructor
  · rw [Bivariate.commit, Bivariate.commit]
    simp only [hp, hq, h.resize]
  · rw [Bivariate.open_, Bivariate.open_]
    simp only [hp, hq, yEvalCoeffs, h.resize]

/-- C154: zero rows beyond the capacity make both panic, although the polynomial fits. -/
theorem C154_beyond (V : Env ρ F G1 G2 GT TF) (srs : SRS G1 G2 × List G1) (ps : List (List F)) (k : ℕ)
    (hk : srs.1.commitmentKeys.1.length < ps.length + k) (coms : List G1) (point : F × F) :
    Bivariate.commit V srs (ps ++ List.replicate k []) = panic' .assertion ∧
    Bivariate.open_ V srs (ps ++ List.replicate k []) coms point = panic' .assertion := by
  have h : ¬ (ps ++ List.replicate k []).length ≤ srs.1.commitmentKeys.1.length := by
    rw [List.length_append, List.length_replicate]
    omega
  constructor
  · rw [Bivariate.commit]
    simp only [h, decide_false]
    rfl
  · rw [Bivariate.open_]
    simp only [h, decide_false]
    rfl

/-- C154: the same for the transparent scheme. -/
theorem C154_transparent_same (V : Env ρ F G1 G2 GT TF) (ck : List G1 × List G2) (ps qs : List (List F))
    (h : SameRows ps qs) (hp : ps.length ≤ ck.2.length) (hq : qs.length ≤ ck.2.length) (coms : List G1) (point : F × F) :
    TBivariate.commit V ck ps = TBivariate.commit V ck qs ∧
    TBivariate.open_ V ck ps coms point = TBivariate.open_ V ck qs coms point := by
  constructor
  · rw [TBivariate.commit, TBivariate.commit]
    simp only [hp, hq, h.resize]
  · rw [TBivariate.open_, TBivariate.open_]
    simp only [hp, hq, yEvalCoeffs, h.resize]

/-- C154: the same for the transparent scheme. -/
theorem C154_transparent_beyond (V : Env ρ F G1 G2 GT TF) (ck : List G1 × List G2) (ps : List (List F)) (k : ℕ)
    (hk : ck.2.length < ps.length + k) (coms : List G1) (point : F × F) :
    TBivariate.commit V ck (ps ++ List.replicate k []) = panic' .assertion ∧
    TBivariate.open_ V ck (ps ++ List.replicate k []) coms point = panic' .assertion := by
  have h : ¬ (ps ++ List.replicate k []).length ≤ ck.2.length := by
    rw [List.length_append, List.length_replicate]
    omega
  constructor
  · rw [TBivariate.commit]
    simp only [h, decide_false]
    rfl
  · rw [TBivariate.open_]
    simp only [h, decide_false]
    rfl

end

/-! ## Examples -/

/-- `1 + 2 Y + 3 X` with a zero row, in keys for four rows. -/
example (coms : List Toy.F) : TBivariate.commit Toy.env ([3, 5], [7, 11, 13, 17]) ([[1, 2], [3], []] : List (List Toy.F)) =
      TBivariate.commit Toy.env ([3, 5], [7, 11, 13, 17]) [[1, 2], [3]] ∧
    TBivariate.open_ Toy.env ([3, 5], [7, 11, 13, 17]) ([[1, 2], [3], []] : List (List Toy.F)) coms (4, 6) =
      TBivariate.open_ Toy.env ([3, 5], [7, 11, 13, 17]) [[1, 2], [3]] coms (4, 6) :=
  C154_transparent_same Toy.env _ _ _ (sameRows_append [[1, 2], [3]] 1) (by simp) (by simp) _ _

/-- The same polynomial with three zero rows panics. -/
example : TBivariate.commit Toy.env ([3, 5], [7, 11, 13, 17]) ([[1, 2], [3], [], [], []] : List (List Toy.F)) =
    panic' .assertion :=
  (C154_transparent_beyond Toy.env ([3, 5], [7, 11, 13, 17]) [[1, 2], [3]] 3 (by decide) [] (0, 0)).1

/-- Zero rows that are not at the end do matter. -/
example : ¬ SameRows ([[], [1]] : List (List Toy.F)) [[1]] := by
  intro h
  exact absurd (h 0) (by decide)

example : bivariateEval ([[1, 2], [3], []] : List (List Toy.F)) 4 6 = 25 := by decide +kernel

end Ripp
