import Verif.Lemmas.GipaInstances
import Verif.Lemmas.Ssm

/-! # KZG, bivariate polynomials -/

set_option linter.unusedSectionVars false
set_option linter.unusedVariables false

namespace Ripp

open Spec

section Degree
variable {F : Type} [Field F] [DecidableEq F]

theorem polyDegree_of_norm {p : List F} (h : p.getLast? ≠ some 0) :
    polyDegree p = .ok (p.length - 1) := by
  rw [polyDegree]
  split
  · rename_i hz
    cases hp : p.getLast? with
    | none => rw [List.getLast?_eq_none_iff] at hp; simp [hp]
    | some a =>
      have := List.mem_of_getLast? hp
      simp only [List.all_eq_true, decide_eq_true_eq] at hz
      rw [hz a this] at hp
      exact absurd hp h
  · rfl

theorem polyDegree_of_zero {p : List F} (h : ∀ a ∈ p, a = 0) : polyDegree p = .ok 0 := by
  rw [polyDegree, if_pos]
  simpa using h

theorem polyDegree_of_trailing {p : List F} (h : p.getLast? = some 0) (h' : ∃ a ∈ p, a ≠ 0) :
    polyDegree p = .error (.panic .assertion) := by
  rw [polyDegree, if_neg, if_pos h]; · rfl
  · simpa using h'

theorem getLast?_trim : ∀ p : List F, (trim p).getLast? ≠ some 0
  | [] => by simp [trim]
  | a :: p => by
    have ih := getLast?_trim p
    rw [trim]
    cases h : trim p with
    | nil => by_cases ha : a = 0 <;> simp [ha]
    | cons b bs => rw [h] at ih; simpa using ih

theorem polyEval_zero {p : List F} (h : ∀ a ∈ p, a = 0) (z : F) : polyEval p z = 0 := by
  induction p with
  | nil => rfl
  | cons a p ih =>
    rw [polyEval_cons, ih fun b hb => h b (by simp [hb]), h a (by simp)]; simp

theorem resize_zero {p : List F} (h : ∀ a ∈ p, a = 0) (n : ℕ) :
    resize p n 0 = List.replicate n 0 := by
  rw [List.eq_replicate_iff]
  refine ⟨resize_length _ _ _, ?_⟩
  intro a ha
  rw [resize] at ha
  rcases List.mem_append.mp ha with ha | ha
  · exact h a (List.mem_of_mem_take ha)
  · exact (List.mem_replicate.mp ha).2

end Degree

section Lin
variable {F A B C : Type} [Field F] [AddCommGroup A] [Module F A] [AddCommGroup B] [Module F B]
  [AddCommGroup C] [Module F C]

/-- `Σ x_i row_i`. -/
def lin (m : ℕ) : List F → List (List F) → List F
  | x :: xs, r :: rs => addV (smulV x r) (lin m xs rs)
  | _, _ => List.replicate m 0

theorem length_lin (m : ℕ) : ∀ (xs : List F) (rows : List (List F)), (∀ r ∈ rows, r.length = m) →
    (lin m xs rows).length = m
  | [], _, _ => by simp [lin]
  | _ :: _, [], _ => by simp [lin]
  | x :: xs, r :: rs, h => by
    simp [lin, length_lin m xs rs fun r hr => h r (by simp [hr]), h r (by simp)]

theorem dot_replicate_zero (φ : F →ₗ[F] B →ₗ[F] C) : ∀ (m : ℕ) (ks : List B),
    dot (φ · ·) (List.replicate m 0) ks = 0
  | 0, _ => by simp
  | m + 1, [] => by simp
  | m + 1, k :: ks => by simp [List.replicate_succ, dot_replicate_zero φ m ks]

theorem dot_lin (φ : F →ₗ[F] B →ₗ[F] C) (m : ℕ) (ks : List B) :
    ∀ (xs : List F) (rows : List (List F)), (∀ r ∈ rows, r.length = m) →
    dot (φ · ·) (lin m xs rows) ks = dot (fun x r => x • dot (φ · ·) r ks) xs rows
  | [], _, _ => by simp [lin, dot_replicate_zero]
  | _ :: _, [], _ => by simp [lin, dot_replicate_zero]
  | x :: xs, r :: rs, h => by
    have h' : ∀ r ∈ rs, r.length = m := fun r hr => h r (by simp [hr])
    rw [lin, dot_addV_left _ _ _ _ (by simp [length_lin m xs rs h', h r (by simp)]),
      dot_smulV_left, dot_lin φ m ks xs rs h', dot_cons]

theorem lin_getD (m : ℕ) : ∀ (xs : List F) (rows : List (List F)), xs.length = rows.length →
    (∀ r ∈ rows, r.length = m) →
    (List.range m).map (fun j => ((List.range xs.length).map fun i =>
      xs.getD i 0 * (rows.getD i []).getD j 0).sum) = lin m xs rows
  | [], [], _, _ => by
    simp [lin]
  | [], _ :: _, h, _ => by simp at h
  | _ :: _, [], h, _ => by simp at h
  | x :: xs, r :: rs, h, hr => by
    have ih := lin_getD m xs rs (by simpa using h) fun r h => hr r (by simp [h])
    rw [lin, ← ih]
    have hl : r.length = m := hr r (by simp)
    apply List.ext_getElem?
    intro j
    by_cases hj : j < m
    · simp [addV, smulV, List.range_succ_eq_map, hj, hl, Function.comp_def]
    · have h1 : m ≤ j := by omega
      rw [List.getElem?_eq_none (by simpa using h1), List.getElem?_eq_none]
      simp [addV, smulV, hl, h1]

end Lin

section YEval
variable {F : Type} [Field F] [DecidableEq F]

theorem yEvalCoeffs_eq (ps : List (List F)) (xs : List F) (n m : ℕ) (hx : xs.length = n) :
    yEvalCoeffs ps xs n m = .ok (lin m xs ((resize ps n []).map fun p => resize p m 0)) := by
  have hr : ∀ r ∈ (resize ps n []).map fun p => resize p m 0, r.length = m := by
    intro r hr
    obtain ⟨p, -, rfl⟩ := List.mem_map.mp hr
    exact resize_length _ _ _
  have hl : ((resize ps n []).map fun p => resize p m (0 : F)).length = n := by
    rw [List.length_map, resize_length]
  rw [← lin_getD m _ _ (by rw [hx, hl]) hr, yEvalCoeffs]
  generalize ((resize ps n []).map fun p => resize p m (0 : F)) = rows at *
  apply mapM_ok
  intro j hj
  have hj : j < m := by simpa using hj
  rw [mapM_ok _ (fun i => xs.getD i 0 * (rows.getD i []).getD j 0), hx]
  · simp
  · intro i hi
    have hi : i < n := by simpa using hi
    have hri : (rows[i]'(by omega)).length = m := hr _ (List.getElem_mem _)
    rw [idx_of_lt _ _ (by omega), idx_of_lt _ _ (by omega)]
    simp only [ok_bind]
    rw [idx_of_lt _ _ (by omega)]
    simp [List.getD_eq_getElem?_getD, hx, hl, hi, hri, hj]

/-- `resize` does not change the value if nothing is cut off. -/
theorem dot_resize {B C : Type} [AddCommGroup B] [Module F B] [AddCommGroup C] [Module F C]
    (φ : F →ₗ[F] B →ₗ[F] C) (p : List F) (n : ℕ) (ks : List B) (h : p.length ≤ n) :
    dot (φ · ·) (resize p n 0) ks = dot (φ · ·) p ks := by
  rw [resize_of_length_le _ _ _ h]
  induction p generalizing n ks with
  | nil => simp [dot_replicate_zero]
  | cons a p ih =>
    cases ks with
    | nil => simp
    | cons k ks =>
      have := ih (n - 1) ks (by simp at h; omega)
      simp only [List.cons_append, dot_cons, List.length_cons]
      rw [← this]
      congr 4; omega

theorem dot_powers_eq (p : List F) (s : F) (n : ℕ) (h : p.length ≤ n) :
    dot (mulMap F · ·) p (powers s n) = polyEval p s := by
  have := dot_powers s 1 n p h
  simpa using this

theorem polyEval_lin (ps : List (List F)) (x s : F) (n m : ℕ) (hn : ps.length ≤ n)
    (hm : ∀ p ∈ ps, p.length ≤ m) :
    polyEval (lin m (powers x n) ((resize ps n []).map fun p => resize p m 0)) s =
      polyEval (ps.map (polyEval · s)) x := by
  have hr : ∀ r ∈ (resize ps n []).map fun p => resize p m 0, r.length = m := by
    intro r hr
    obtain ⟨p, -, rfl⟩ := List.mem_map.mp hr
    exact resize_length _ _ _
  rw [← dot_powers_eq _ s m (length_lin _ _ _ hr).le, dot_lin _ _ _ _ _ hr, dot_map_right]
  have : dot (fun x (p : List F) => x • dot (mulMap F · ·) (resize p m 0) (powers s m)) (powers x n)
      (resize ps n []) = dot (fun x (p : List F) => x * polyEval p s) (powers x n) (resize ps n []) := by
    have hmem : ∀ p ∈ resize ps n [], p.length ≤ m := by
      intro p hp
      rw [resize_of_length_le _ _ _ hn] at hp
      rcases List.mem_append.mp hp with hp | hp
      · exact hm p hp
      · rw [(List.mem_replicate.mp hp).2]; simp
    generalize resize ps n [] = qs at hmem
    generalize powers x n = xs
    induction qs generalizing xs with
    | nil => simp
    | cons q qs ih =>
      cases xs with
      | nil => simp
      | cons y ys =>
        simp only [dot_cons]
        rw [ih (fun p hp => hmem p (by simp [hp])), dot_powers_eq _ _ _ (by rw [resize_length]),
          polyEval_resize _ _ _ (hmem q (by simp))]
        rfl
  rw [this, ← dot_map_right (β := fun x y => x * y) (fun p : List F => polyEval p s), dot_swap]
  have e : (resize ps n []).map (polyEval · s) = resize (ps.map (polyEval · s)) n 0 := by
    rw [resize_of_length_le _ _ _ hn, resize_of_length_le _ _ _ (by simpa using hn)]
    simp
  rw [e]
  have := dot_powers_eq (resize (ps.map (polyEval · s)) n 0) x n (by rw [resize_length])
  rw [polyEval_resize _ _ _ (by simpa using hn)] at this
  rw [← this]
  congr 1
  funext a b
  simp [mul_comm]

theorem bivariateEval_eq (ps : List (List F)) (x y : F) :
    bivariateEval ps x y = evalAt (ps.map (evalAt · y)) x := by
  have e : (fun p : List F => evalAt p y) = fun p => polyEval p y := by
    funext p; exact evalAt_eq p y
  rw [evalAt_eq, e, bivariateEval, zipWith_sum, powersLoop_eq]
  have := dot_powers_eq (ps.map (polyEval · y)) x ps.length (by simp)
  rw [← this, dot_map_left, dot_swap]
  simp
  congr 1
  funext a b
  exact mul_comm _ _

end YEval

namespace Kzg
variable {F G1 G2 GT TF : Type} [Field F] [DecidableEq F] [AddCommGroup G1] [Module F G1]
  [AddCommGroup G2] [Module F G2] [AddCommGroup GT] [Module F GT] [Monoid TF]
  {E : Engine G1 G2 GT TF} {e : G1 →ₗ[F] G2 →ₗ[F] GT}

theorem commit_eq (g : G1) (α : F) (n : ℕ) (p : List F) (hp : p.getLast? ≠ some 0) (hn : 1 ≤ n)
    (h : p.length ≤ n) : commit ((powers α n).map (· • g)) p = .ok (polyEval p α • g) := by
  rw [commit, polyDegree_of_norm hp]
  have : p.length - 1 + 1 ≤ n := by omega
  simp only [ok_bind, List.length_map, length_powers, decide_eq_true this, assert_true]
  rw [msm_eq _ _ (by rw [resize_length]; simp), dot_srs _ _ _ _ (by rw [resize_length]),
    polyEval_resize _ _ _ h]
  rfl

theorem open_eq (g : G1) (α : F) (n : ℕ) (p : List F) (z : F) (hp : p.getLast? ≠ some 0) (hn : 1 ≤ n)
    (h : p.length ≤ n) :
    open_ ((powers α n).map (· • g)) p z = .ok (polyEval (polyDivLinear p z) α • g) := by
  rw [open_, polyDegree_of_norm hp]
  have : p.length - 1 + 1 ≤ n := by omega
  simp only [ok_bind, List.length_map, length_powers, decide_eq_true this, assert_true]
  rw [msm_eq _ _ (by rw [resize_length]; simp), dot_srs _ _ _ _ (by rw [resize_length]),
    polyEval_resize _ _ _ ((length_polyDivLinear_le _ _).trans h)]
  rfl

variable [DecidableEq GT]

theorem verify_eq (hE : E.Lawful e) (v : VerifierSRS G1 G2) (com : G1) (z y : F) (π : G1) :
    verify E v com z y π =
      .ok (decide (e (com - y • v.g) v.h = e π (v.hAlpha - z • v.h))) := by
  simp [verify, hE.pairing_eq]

theorem complete (hE : E.Lawful e) (g : G1) (h : G2) (gb : G1) (α z : F) (p : List F) :
    verify E ⟨g, h, gb, α • h⟩ (polyEval p α • g) z (polyEval p z)
      (polyEval (polyDivLinear p z) α • g) = .ok true := by
  rw [verify_eq hE]
  have := polyDivLinear_spec p z α
  simp only [Except.ok.injEq, decide_eq_true_eq, ← sub_smul, map_smul, LinearMap.smul_apply, smul_smul]
  rw [← this, mul_comm]

end Kzg

end Ripp
