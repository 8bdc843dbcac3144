import Verif.Model.Groth16
import Verif.Lemmas.Ssm
import Verif.Lemmas.GipaInstances
import Mathlib.LinearAlgebra.Dual.Lemmas
import Mathlib.Algebra.Polynomial.Roots

/-! # Lemmas about the aggregation of Groth16 proofs -/

set_option linter.unusedSectionVars false

namespace Ripp

open Spec

section Powers
variable {F M A : Type} [Field F] [AddCommGroup M] [Module F M]

theorem powers_snoc (r : F) (n : ℕ) : powers r (n + 1) = powers r n ++ [r ^ n] := by
  simp [powers, List.range_succ]

theorem powers_sum_mul (r : F) (n : ℕ) : (powers r n).sum * (r - 1) = r ^ n - 1 := by
  induction n with
  | zero => simp [powers]
  | succ n ih => rw [powers_snoc, List.sum_append, add_mul, ih]; simp; ring

theorem powers_sum (r : F) (hr : r ≠ 1) (n : ℕ) :
    (r ^ n - 1) * (r - 1)⁻¹ = (powers r n).sum := by
  rw [← powers_sum_mul, mul_assoc, mul_inv_cancel₀ (sub_ne_zero.mpr hr), mul_one]

/-- A sum of constants. -/
theorem dot_smul_const (m : M) : ∀ (rs : List F) (xs : List A), rs.length = xs.length →
    dot (fun r _ => r • m) rs xs = rs.sum • m
  | [], [], _ => by simp
  | [], _ :: _, h => by simp at h
  | _ :: _, [], h => by simp at h
  | r :: rs, x :: xs, h => by
    simp [dot_smul_const m rs xs (by simpa using h), add_smul]

theorem dot_smul_add (f g : A → M) : ∀ (rs : List F) (xs : List A),
    dot (fun r x => r • (f x + g x)) rs xs =
      dot (fun r x => r • f x) rs xs + dot (fun r x => r • g x) rs xs
  | [], xs => by simp
  | _ :: _, [] => by simp
  | r :: rs, x :: xs => by
    simp only [dot_cons, dot_smul_add f g rs xs]; module

theorem dot_smul_sub (f g : A → M) : ∀ (rs : List F) (xs : List A),
    dot (fun r x => r • (f x - g x)) rs xs =
      dot (fun r x => r • f x) rs xs - dot (fun r x => r • g x) rs xs
  | [], xs => by simp
  | _ :: _, [] => by simp
  | r :: rs, x :: xs => by
    simp only [dot_cons, dot_smul_sub f g rs xs]; module

theorem dot_smul_map {M' : Type} [AddCommGroup M'] [Module F M'] (φ : M →ₗ[F] M') (f : A → M) :
    ∀ (rs : List F) (xs : List A),
    φ (dot (fun r x => r • f x) rs xs) = dot (fun r x => r • φ (f x)) rs xs
  | [], xs => by simp
  | _ :: _, [] => by simp
  | r :: rs, x :: xs => by simp [dot_smul_map φ f rs xs]

theorem dot_congr {B C : Type} [AddMonoid C] {f g : A → B → C} : ∀ (xs : List A) (ys : List B),
    (∀ x ∈ xs, ∀ y ∈ ys, f x y = g x y) → dot f xs ys = dot g xs ys
  | [], _, _ => by simp
  | _ :: _, [], _ => by simp
  | x :: xs, y :: ys, h => by
    rw [dot_cons, dot_cons, h x (by simp) y (by simp),
      dot_congr xs ys fun x' hx y' hy => h x' (by simp [hx]) y' (by simp [hy])]

/-- A polynomial with coefficients in a vector space that is not zero has fewer roots than
coefficients. -/
theorem card_roots_dot (ds : List M) (hd : ∃ d ∈ ds, d ≠ 0) (S : Finset F)
    (hS : ∀ r ∈ S, dot (fun (r : F) (d : M) => r • d) (powers r ds.length) ds = 0) :
    S.card < ds.length := by
  classical
  obtain ⟨d, hmem, hd0⟩ := hd
  obtain ⟨i, hi, rfl⟩ := List.getElem_of_mem hmem
  obtain ⟨φ, hφ⟩ : ∃ φ : Module.Dual F M, φ ds[i] ≠ 0 := by
    by_contra hcon
    push Not at hcon
    exact hd0 ((Module.forall_dual_apply_eq_zero_iff F _).mp hcon)
  let p : Polynomial F := ∑ j ∈ Finset.range ds.length, Polynomial.monomial j (φ (ds.getD j 0))
  have hcoef : p.coeff i = φ ds[i] := by
    simp only [p, Polynomial.finsetSum_coeff, Polynomial.coeff_monomial]
    rw [Finset.sum_eq_single i]
    · simp [List.getD_eq_getElem?_getD, hi]
    · intro b _ hb
      rw [if_neg hb]
    · simp [hi]
  have hp0 : p ≠ 0 := by
    intro h
    apply hφ
    rw [← hcoef, h, Polynomial.coeff_zero]
  have hdeg : p.natDegree < ds.length := by
    rw [Polynomial.natDegree_lt_iff_degree_lt hp0]
    refine lt_of_le_of_lt (Polynomial.degree_sum_le _ _) ?_
    rw [Finset.sup_lt_iff (by exact WithBot.bot_lt_coe _)]
    intro j hj
    exact lt_of_le_of_lt (Polynomial.degree_monomial_le _ _)
      (by exact_mod_cast Finset.mem_range.mp hj)
  have heval : ∀ r : F, p.eval r = φ (dot (fun (r : F) (d : M) => r • d) (powers r ds.length) ds) := by
    intro r
    have key : ∀ l : List M, ∑ j ∈ Finset.range l.length, φ (l.getD j 0) * r ^ j =
        φ (dot (fun (r : F) (d : M) => r • d) (powers r l.length) l) := by
      intro l
      induction l using List.reverseRecOn with
      | nil => simp
      | append_singleton l x ih =>
        rw [List.length_append, List.length_singleton, powers_snoc,
          dot_append _ _ _ _ _ (by simp [powers]), map_add, ← ih, Finset.sum_range_succ]
        congr 1
        · apply Finset.sum_congr rfl
          intro j hj
          rw [List.getD_eq_getElem?_getD, List.getD_eq_getElem?_getD,
            List.getElem?_append_left (Finset.mem_range.mp hj)]
        · simp [List.getD_eq_getElem?_getD, mul_comm]
    rw [← key]
    simp [p, Polynomial.eval_finsetSum]
  have hroots : S ⊆ p.roots.toFinset := by
    intro r hr
    rw [Multiset.mem_toFinset, Polynomial.mem_roots hp0, Polynomial.IsRoot, heval, hS r hr, map_zero]
  calc S.card ≤ p.roots.toFinset.card := Finset.card_le_card hroots
    _ ≤ Multiset.card p.roots := Multiset.toFinset_card_le _
    _ ≤ p.natDegree := Polynomial.card_roots' p
    _ < ds.length := hdeg

end Powers

namespace Groth16

variable {ρ F G1 G2 GT TF : Type} [Field F] [DecidableEq F]
  [AddCommGroup G1] [Module F G1] [AddCommGroup G2] [Module F G2] [Monoid TF]
  [AddCommGroup GT] [Module F GT] [DecidableEq G1] [DecidableEq GT]
  {V : Env ρ F G1 G2 GT TF} {e : G1 →ₗ[F] G2 →ₗ[F] GT}

theorem column_ok (inputs : List (List F)) (i : ℕ) (h : ∀ row ∈ inputs, i < row.length) :
    (inputs.mapM fun row => idx row i) = .ok (inputs.map fun row => row.getD i 0) := by
  apply mapM_ok
  intro row hr
  rw [idx_of_lt row i (h row hr)]
  simp [List.getD_eq_getElem?_getD, h row hr]

theorem column_err (inputs : List (List F)) (i : ℕ) (h : ∃ row ∈ inputs, row.length ≤ i) :
    (inputs.mapM fun row => idx row i) = .error (.panic .bounds) := by
  induction inputs with
  | nil => simp at h
  | cons row rows ih =>
    rw [List.mapM_cons]
    by_cases h1 : row.length ≤ i
    · rw [idx_of_ge _ _ h1]; rfl
    · rw [idx_of_lt _ _ (not_le.mp h1), ih]
      · rfl
      · obtain ⟨x, hx, hx'⟩ := h
        rcases List.mem_cons.mp hx with rfl | hx
        · exact absurd hx' h1
        · exact ⟨x, hx, hx'⟩

theorem column_step (i : ℕ) (b : G1) (bs : List G1) : ∀ (inputs : List (List F)) (rs : List F),
    (∀ row ∈ inputs, i < row.length) →
    dot (· * ·) (inputs.map fun row => row.getD i 0) rs • b +
      dot (fun (row : List F) (r : F) => r • dot (fun s g => s • g) (row.drop (i + 1)) bs) inputs rs =
    dot (fun (row : List F) (r : F) => r • dot (fun s g => s • g) (row.drop i) (b :: bs)) inputs rs
  | [], rs, _ => by simp
  | _ :: _, [], _ => by simp
  | row :: rows, r :: rs, h => by
    have hi : i < row.length := h row (by simp)
    have ih := column_step i b bs rows rs fun row hr => h row (by simp [hr])
    have e1 : dot (fun (s : F) (g : G1) => s • g) (row.drop i) (b :: bs) =
        row[i] • b + dot (fun s g => s • g) (row.drop (i + 1)) bs := by
      rw [List.drop_eq_getElem_cons hi, dot_cons]
    have e2 : row.getD i 0 = row[i] := by simp [List.getD_eq_getElem?_getD, hi]
    rw [List.map_cons, dot_cons, dot_cons, dot_cons, ← ih, e1, e2]
    module

theorem inputLoop_eq (X : Exec) (inputs : List (List F)) (rVec : List F)
    (hl : rVec.length = inputs.length) : ∀ (bs : List G1) (i : ℕ) (acc : G1),
    (∀ row ∈ inputs, i + bs.length ≤ row.length) →
    inputLoop X inputs rVec bs i acc = .ok (acc +
      dot (fun (row : List F) (r : F) => r • dot (fun s g => s • g) (row.drop i) bs) inputs rVec)
  | [], i, acc, _ => by
    simp only [inputLoop, dot_nil_right, smul_zero, dot_const_zero, add_zero]
  | b :: bs, i, acc, h => by
    have hi : ∀ row ∈ inputs, i < row.length := fun row hr => by
      have := h row hr; simp at this; omega
    rw [inputLoop, column_ok _ _ hi]
    simp only [ok_bind]
    rw [scalarIP_eq _ _ _ (by simp [hl])]
    simp only [ok_bind]
    rw [inputLoop_eq X inputs rVec hl bs (i + 1) _ fun row hr => by
      have := h row hr; simp at this; omega]
    rw [add_assoc, column_step i b bs inputs rVec hi]

/-- A row that ends before the verifying key does makes the loop panic. -/
theorem inputLoop_err (X : Exec) (inputs : List (List F)) (rVec : List F)
    (hl : rVec.length = inputs.length) : ∀ (bs : List G1) (i : ℕ) (acc : G1),
    (∃ row ∈ inputs, row.length < i + bs.length) → (∀ row ∈ inputs, i ≤ row.length) →
    inputLoop X inputs rVec bs i acc = .error (.panic .bounds)
  | [], i, acc, h, h' => by
    obtain ⟨row, hr, hlt⟩ := h
    have := h' row hr
    simp at hlt; omega
  | b :: bs, i, acc, h, h' => by
    rw [inputLoop]
    by_cases hi : ∃ row ∈ inputs, row.length ≤ i
    · rw [column_err _ _ hi]; rfl
    · push Not at hi
      rw [column_ok _ _ hi]
      simp only [ok_bind]
      rw [scalarIP_eq _ _ _ (by simp [hl])]
      simp only [ok_bind]
      obtain ⟨row, hr, hlt⟩ := h
      exact inputLoop_err X inputs rVec hl bs (i + 1) _ ⟨row, hr, by simp at hlt; omega⟩ hi

/-- The aggregate equation in closed form. Entries of a row beyond the length of the key are ignored
by `dot`. -/
theorem verifyPpe_eq (hE : V.E.Lawful e) (alpha : G1) (beta gamma delta : G2) (abc0 : G1)
    (abc : List G1) (row0 : List F) (rows : List (List F)) (h0 : row0.length = abc.length)
    (hrows : ∀ row ∈ rows, abc.length ≤ row.length) (r : F) (hr : r ≠ 1) (ipAB : GT) (aggC : G1) :
    verifyPpe V ⟨alpha, beta, gamma, delta, abc0 :: abc⟩ (row0 :: rows) r ipAB aggC =
      .ok (decide (ipAB = (powers r (row0 :: rows).length).sum • e alpha beta
        + e (dot (fun (x : F) (row : List F) => x • (abc0 + dot (fun s g => s • g) row abc))
            (powers r (row0 :: rows).length) (row0 :: rows)) gamma + e aggC delta)) := by
  have hlen : 1 ≤ (row0 :: rows).length := by simp
  have hall : ∀ row ∈ row0 :: rows, 0 + abc.length ≤ row.length := by
    intro row hrow
    rcases List.mem_cons.mp hrow with rfl | hrow
    · omega
    · have := hrows row hrow; omega
  rw [verifyPpe, inverse_of_ne (sub_ne_zero.mpr hr)]
  simp only [unwrap_some, ok_bind]
  rw [powers_sum r hr, hE.pairing_eq]
  simp only [idx_cons_zero, ok_bind]
  have ha : ((abc0 :: abc).length == row0.length + 1) = true := by simp [h0]
  rw [ha]
  simp only [assert_true, ok_bind]
  rw [structuredScalarPower_eq, max_eq_right hlen]
  simp only [ok_bind, List.drop_one, List.tail_cons]
  rw [inputLoop_eq _ _ _ (by simp [powers]) _ _ _ hall]
  simp only [ok_bind]
  rw [hE.pairing_eq, hE.pairing_eq]
  simp only [ok_bind, pure_eq_ok, List.drop_zero]
  congr 3
  rw [dot_smul_add (fun _ => abc0), dot_smul_const _ _ _ (by simp [powers])]
  rw [dot_swap (fun (row : List F) (r : F) => r • dot (fun s g => s • g) row abc)]
  rw [map_smul, LinearMap.smul_apply]

end Groth16

end Ripp
