import Verif.Model.Transparent
import Verif.Lemmas.PolyCommit
import Mathlib.Tactic.Linarith
import Mathlib.Tactic.Positivity

/-! # The degree split and the bivariate form -/

set_option linter.unusedSectionVars false
set_option linter.unusedVariables false

namespace Ripp

open Spec

theorem f64OfNat_of_lt {n : ℕ} (h : n < 2 ^ 53) : f64OfNat n = n := by rw [f64OfNat, if_pos h]

/-- Up to `2^52` the floating-point computation is exact. -/
theorem f64CeilSqrt_le_iff (n : ℕ) (h1 : 1 ≤ n) (h2 : n ≤ 2 ^ 52) (c : ℕ) :
    f64CeilSqrt n ≤ c ↔ n ≤ c * c := by
  set k := 52 - Nat.log2 n / 2 with hk
  set s := n * 4 ^ k with hs
  set rt := s.sqrt with hrt
  have hr1 : rt * rt ≤ s := Nat.sqrt_le s
  have hr2 : s < (rt + 1) * (rt + 1) := Nat.lt_succ_sqrt s
  have hpos : 0 < 2 ^ k := by positivity
  have h4 : 4 ^ k = 2 ^ k * 2 ^ k := by rw [← mul_pow]; norm_num
  have hdef : f64CeilSqrt n =
      ((if s - rt * rt ≤ rt then rt else rt + 1) + 2 ^ k - 1) / 2 ^ k := rfl
  rw [hdef]
  set r := (if s - rt * rt ≤ rt then rt else rt + 1) with hr
  have hdiv : (r + 2 ^ k - 1) / 2 ^ k ≤ c ↔ r ≤ c * 2 ^ k := by
    rw [Nat.div_le_iff_le_mul_add_pred hpos]
    rw [mul_comm]
    omega
  rw [hdiv]
  constructor
  · intro hle
    by_contra hn
    push Not at hn
    have hn' : c * c + 1 ≤ n := hn
    have e1 : (c * c + 1) * (2 ^ k * 2 ^ k) ≤ s := by
      rw [hs, h4]; exact Nat.mul_le_mul_right _ hn'
    by_cases hcase : s - rt * rt ≤ rt
    · rw [hr, if_pos hcase] at hle
      have e2 : s ≤ rt * rt + rt := by omega
      have e3 : rt * rt + rt ≤ (c * 2 ^ k) * (c * 2 ^ k) + c * 2 ^ k := by
        have := Nat.mul_le_mul hle hle
        omega
      have e4 : 2 ^ k * 2 ^ k ≤ c * 2 ^ k := by nlinarith
      have e5 : 2 ^ k ≤ c := Nat.le_of_mul_le_mul_right e4 hpos
      have e6 : 2 ^ k * 2 ^ k < n := by
        have := Nat.mul_le_mul e5 e5
        omega
      rw [← pow_add] at e6
      by_cases hn52 : n = 2 ^ 52
      · have hL : Nat.log2 n = 52 := by rw [hn52]; exact Nat.log2_two_pow
        rw [hk, hL, hn52] at e6
        norm_num at e6
      · have hlt : n < 2 ^ 52 := by omega
        have hL : Nat.log2 n < 52 := (Nat.log2_lt (by omega)).mpr hlt
        have hn2 : n < 2 ^ (Nat.log2 n + 1) := Nat.lt_log2_self
        have := (Nat.pow_lt_pow_iff_right (a := 2) (by norm_num)).mp (e6.trans hn2)
        omega
    · rw [hr, if_neg hcase] at hle
      have := Nat.mul_le_mul hle hle
      nlinarith
  · intro hle
    have e1 : s ≤ (c * 2 ^ k) * (c * 2 ^ k) := by
      rw [hs, h4]
      calc n * (2 ^ k * 2 ^ k) ≤ (c * c) * (2 ^ k * 2 ^ k) := Nat.mul_le_mul_right _ hle
        _ = _ := by ring
    have e2 : rt ≤ c * 2 ^ k := by
      by_contra hlt
      push Not at hlt
      have := Nat.mul_lt_mul'' hlt hlt
      omega
    rw [hr]
    split
    · exact e2
    · rename_i hc
      rcases Nat.lt_or_ge rt (c * 2 ^ k) with h | h
      · omega
      · have : rt = c * 2 ^ k := le_antisymm e2 h
        rw [← this] at e1
        omega

/-- The least power of two at least `√(d+1)`. -/
theorem sqrtPow2_eq (d : ℕ) (h : d + 1 ≤ 2 ^ 52) :
    ∃ j, sqrtPow2 d = .ok (2 ^ j) ∧ ∀ i, j ≤ i ↔ d + 1 ≤ 4 ^ i := by
  refine ⟨Nat.clog 2 (f64CeilSqrt (d + 1)), ?_, fun i => ?_⟩
  · rw [sqrtPow2, if_neg (by omega), f64OfNat_of_lt (by omega), nextPow2]
  · rw [Nat.clog_le_iff_le_pow (by norm_num), f64CeilSqrt_le_iff _ (by omega) h, ← mul_pow]; norm_num

theorem splitDegrees_pow (a b : ℕ) : splitDegrees (2 ^ (a + b)) (2 ^ b) =
    .ok (2 ^ a - 1, 2 ^ (a + 2 * b) - 1) := by
  have h1 : 2 ^ (a + b) / 2 ^ b = 2 ^ a := by
    rw [pow_add, Nat.mul_div_cancel _ (by positivity)]
  have h2 : 2 ^ (a + b) * 2 ^ b = 2 ^ (a + 2 * b) := by rw [← pow_add]; congr 1; omega
  rw [splitDegrees, if_neg (by positivity), h1, h2, if_neg]
  have : 2 ^ a ≠ 0 := by positivity
  have : 2 ^ (a + 2 * b) ≠ 0 := by positivity
  tauto

/-- Both degree splits for `sqrt = 2^j`, `j ≥ 1`. -/
theorem split_skew (t j : ℕ) (hj : 1 ≤ j) (ht : 1 ≤ t) :
    ∃ a b, j = a + 1 + b ∧
      splitDegrees (2 ^ j) (if 2 ^ (t + 1) ≤ 2 ^ j then 2 ^ t else 2 ^ j / 2) =
        .ok (2 ^ (a + 1) - 1, 2 ^ (a + 1 + 2 * b) - 1) := by
  by_cases h : t + 1 ≤ j
  · refine ⟨j - t - 1, t, by omega, ?_⟩
    rw [if_pos (Nat.pow_le_pow_right (by norm_num) h)]
    have := splitDegrees_pow (j - t - 1 + 1) t
    rwa [show j - t - 1 + 1 + t = j by omega] at this
  · refine ⟨0, j - 1, by omega, ?_⟩
    rw [if_neg]
    · have := splitDegrees_pow (0 + 1) (j - 1)
      rw [show 0 + 1 + (j - 1) = j by omega] at this
      have e : 2 ^ j / 2 = 2 ^ (j - 1) := by
        obtain ⟨i, rfl⟩ : ∃ i, j = i + 1 := ⟨j - 1, by omega⟩
        rw [pow_succ, Nat.mul_div_cancel _ (by norm_num)]; simp
      rw [e]; exact this
    · rw [not_le]; exact Nat.pow_lt_pow_right (by norm_num) (by omega)

theorem bivariateDegrees_eq (d : ℕ) (hd : 1 ≤ d) (h : d + 1 ≤ 2 ^ 52) :
    ∃ a b, bivariateDegrees d = .ok (2 ^ (a + 1) - 1, 2 ^ (a + 1 + 2 * b) - 1) ∧
      ∀ i, a + 1 + b ≤ i ↔ d + 1 ≤ 4 ^ i := by
  obtain ⟨j, h1, h2⟩ := sqrtPow2_eq d h
  have hj : 1 ≤ j := by
    by_contra h0
    have : j ≤ 0 := by omega
    have := (h2 0).mp this
    simp at this; omega
  obtain ⟨a, b, rfl, h3⟩ := split_skew 4 j hj (by norm_num)
  refine ⟨a, b, ?_, h2⟩
  rw [bivariateDegrees, h1]
  exact h3

theorem bivariateDegreesT_eq (d : ℕ) (hd : 1 ≤ d) (h : d + 1 ≤ 2 ^ 52) :
    ∃ a b, bivariateDegreesT d = .ok (2 ^ (a + 1) - 1, 2 ^ (a + 1 + 2 * b) - 1) ∧
      ∀ i, a + 1 + b ≤ i ↔ d + 1 ≤ 4 ^ i := by
  obtain ⟨j, h1, h2⟩ := sqrtPow2_eq d h
  have hj : 1 ≤ j := by
    by_contra h0
    have : j ≤ 0 := by omega
    have := (h2 0).mp this
    simp at this; omega
  obtain ⟨a, b, rfl, h3⟩ := split_skew 2 j hj (by norm_num)
  refine ⟨a, b, ?_, h2⟩
  rw [bivariateDegreesT, h1]
  exact h3

section Form
variable {F : Type} [Field F] [DecidableEq F]

theorem takeCoeffs_eq : ∀ (n : ℕ) (it : List F), n ≤ it.length →
    takeCoeffs n it = .ok (it.take n, it.drop n)
  | 0, it, _ => by simp [takeCoeffs]
  | n + 1, [], h => by simp at h
  | n + 1, a :: it, h => by
    simp [takeCoeffs, takeCoeffs_eq n it (by simpa using h)]

theorem takeRows_eq (w : ℕ) : ∀ (n : ℕ) (it : List F), it.length = n * w →
    ∃ rows, takeRows w n it = .ok rows ∧ rows.length = n ∧
      (∀ r ∈ rows, r.getLast? ≠ some 0 ∧ r.length ≤ w) ∧
      ∀ z, polyEval (rows.map (polyEval · z)) (z ^ w) = polyEval it z
  | 0, it, h => by
    have : it = [] := List.length_eq_zero_iff.mp (by simpa using h)
    exact ⟨[], by simp [takeRows, this]⟩
  | n + 1, it, h => by
    have hw : w ≤ it.length := by rw [h, add_mul]; omega
    obtain ⟨rows, h1, h2, h3, h4⟩ := takeRows_eq w n (it.drop w) (by rw [List.length_drop, h, add_mul]; omega)
    refine ⟨polyOf (it.take w) :: rows, ?_, by simp [h2], ?_, ?_⟩
    · rw [takeRows, takeCoeffs_eq w it hw]
      simp only [ok_bind]
      rw [h1]; rfl
    · intro r hr
      rcases List.mem_cons.mp hr with rfl | hr
      · exact ⟨getLast?_trim _, (length_trim_le _).trans (by simp)⟩
      · exact h3 r hr
    · intro z
      rw [List.map_cons, polyEval_cons, h4 z, polyEval_polyOf]
      conv_rhs => rw [← List.take_append_drop w it, polyEval_append]
      rw [List.length_take, min_eq_left hw]

theorem bivariateForm_eq (x y : ℕ) (p : List F) :
    ∃ rows, bivariateForm (x, y) p = .ok rows ∧ rows.length = x + 1 ∧
      (∀ r ∈ rows, r.getLast? ≠ some 0 ∧ r.length ≤ y + 1) ∧
      ∀ z, polyEval (rows.map (polyEval · z)) (z ^ (y + 1)) =
        polyEval (p.take ((x + 1) * (y + 1))) z := by
  obtain ⟨rows, h1, h2, h3, h4⟩ := takeRows_eq (y + 1) (x + 1) (resize p ((x + 1) * (y + 1)) 0)
    (resize_length _ _ _)
  refine ⟨rows, h1, h2, h3, fun z => ?_⟩
  rw [h4 z, resize, polyEval_append, polyEval_replicate_zero]
  simp

theorem resize_take (p : List F) (n : ℕ) : resize (p.take n) n 0 = resize p n 0 := by
  rw [resize, resize, List.take_take, min_self, List.length_take]
  congr 2; omega

end Form

end Ripp
