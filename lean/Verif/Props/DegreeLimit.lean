import Mathlib.Tactic.IntervalCases
import Verif.Props.Transparent

/-!
# C76: the degree split for every `usize` degree

Property statements are in `properties.jsonl`.
-/

set_option linter.unusedSectionVars false

namespace Ripp

open Spec

/-- The rounded square root is at most `c` exactly up to half a unit in the last place above `c`. -/
theorem f64CeilSqrt_le (m c : ℕ) : f64CeilSqrt m ≤ c ↔
    m * 4 ^ (52 - Nat.log2 m / 2) ≤ (c * 2 ^ (52 - Nat.log2 m / 2)) * (c * 2 ^ (52 - Nat.log2 m / 2))
      + c * 2 ^ (52 - Nat.log2 m / 2) := by
  set k := 52 - Nat.log2 m / 2 with hk
  set s := m * 4 ^ k with hs
  set rt := s.sqrt with hrt
  have hr1 : rt * rt ≤ s := Nat.sqrt_le s
  have hr2 : s < (rt + 1) * (rt + 1) := Nat.lt_succ_sqrt s
  have hpos : 0 < 2 ^ k := by positivity
  have hdef : f64CeilSqrt m =
      ((if s - rt * rt ≤ rt then rt else rt + 1) + 2 ^ k - 1) / 2 ^ k := rfl
  rw [hdef]
  set r := (if s - rt * rt ≤ rt then rt else rt + 1) with hr
  have hdiv : (r + 2 ^ k - 1) / 2 ^ k ≤ c ↔ r ≤ c * 2 ^ k := by
    rw [Nat.div_le_iff_le_mul_add_pred hpos]
    rw [mul_comm]
    omega
  rw [hdiv]
  generalize c * 2 ^ k = t
  by_cases hcase : s - rt * rt ≤ rt
  · rw [hr, if_pos hcase]
    constructor
    · intro h
      have := Nat.mul_le_mul h h
      omega
    · intro h
      by_contra hn
      have hn : t + 1 ≤ rt := by omega
      have := Nat.mul_le_mul hn hn
      have e : (t + 1) * (t + 1) = t * t + t + t + 1 := by ring
      omega
  · rw [hr, if_neg hcase]
    constructor
    · intro h
      have := Nat.mul_le_mul h h
      omega
    · intro h
      by_contra hn
      have hn : t ≤ rt := by omega
      have := Nat.mul_le_mul hn hn
      omega

theorem log2_eq {n k : ℕ} (h1 : 2 ^ k ≤ n) (h2 : n < 2 ^ (k + 1)) : Nat.log2 n = k := by
  rw [Nat.log2_eq_iff (by have := Nat.one_le_two_pow (n := k); omega)]
  exact ⟨h1, h2⟩

/-- Rounding to 53 bits, below a power of two. -/
theorem f64OfNat_eq {n k : ℕ} (hk : 53 ≤ k) (h1 : 2 ^ k ≤ n) (h2 : n < 2 ^ (k + 1)) :
    f64OfNat n =
      if 2 * (n % 2 ^ (k - 52)) < 2 ^ (k - 52) then n / 2 ^ (k - 52) * 2 ^ (k - 52)
      else if 2 ^ (k - 52) < 2 * (n % 2 ^ (k - 52)) then (n / 2 ^ (k - 52) + 1) * 2 ^ (k - 52)
      else if n / 2 ^ (k - 52) % 2 = 0 then n / 2 ^ (k - 52) * 2 ^ (k - 52)
      else (n / 2 ^ (k - 52) + 1) * 2 ^ (k - 52) := by
  have : 2 ^ 53 ≤ n := (Nat.pow_le_pow_right (by norm_num) hk).trans h1
  rw [f64OfNat, if_neg (by omega), log2_eq h1 h2]

/-- `f64OfNat` keeps powers of two as bounds. -/
theorem f64OfNat_bounds {n k : ℕ} (h1 : 2 ^ k ≤ n) (h2 : n < 2 ^ (k + 1)) :
    2 ^ k ≤ f64OfNat n ∧ f64OfNat n ≤ 2 ^ (k + 1) := by
  by_cases hk : 53 ≤ k
  · obtain ⟨j, rfl⟩ : ∃ j, k = j + 52 := ⟨k - 52, by omega⟩
    rw [f64OfNat_eq hk h1 h2, Nat.add_sub_cancel]
    have hp : 0 < 2 ^ j := by positivity
    have e1 : 2 ^ (j + 52) = 2 ^ 52 * 2 ^ j := by rw [pow_add, mul_comm]
    have e2 : 2 ^ (j + 52 + 1) = 2 ^ 53 * 2 ^ j := by rw [add_assoc, pow_add, mul_comm]
    have q1 : 2 ^ 52 ≤ n / 2 ^ j := (Nat.le_div_iff_mul_le hp).mpr (e1 ▸ h1)
    have q2 : n / 2 ^ j < 2 ^ 53 := (Nat.div_lt_iff_lt_mul hp).mpr (e2 ▸ h2)
    have q3 : 2 ^ 52 * 2 ^ j ≤ n / 2 ^ j * 2 ^ j := Nat.mul_le_mul_right _ q1
    have q4 : 2 ^ 52 * 2 ^ j ≤ (n / 2 ^ j + 1) * 2 ^ j := Nat.mul_le_mul_right _ (by omega)
    have q5 : n / 2 ^ j * 2 ^ j ≤ 2 ^ 53 * 2 ^ j := Nat.mul_le_mul_right _ (by omega)
    have q6 : (n / 2 ^ j + 1) * 2 ^ j ≤ 2 ^ 53 * 2 ^ j := Nat.mul_le_mul_right _ (by omega)
    rw [e1, e2]
    split_ifs <;> omega
  · rw [f64OfNat_of_lt (h2.trans_le (Nat.pow_le_pow_right (by norm_num) (by omega)))]
    exact ⟨h1, h2.le⟩

theorem f64OfNat_two_pow (k : ℕ) : f64OfNat (2 ^ k) = 2 ^ k := by
  by_cases hk : 53 ≤ k
  · obtain ⟨j, rfl⟩ : ∃ j, k = j + 52 := ⟨k - 52, by omega⟩
    rw [f64OfNat_eq hk le_rfl (Nat.pow_lt_pow_right (by norm_num) (by omega)), Nat.add_sub_cancel,
      show 2 ^ (j + 52) = 2 ^ 52 * 2 ^ j by rw [pow_add, mul_comm], Nat.mul_mod_left,
      if_pos (by positivity), Nat.mul_div_cancel _ (by positivity)]
  · exact f64OfNat_of_lt (Nat.pow_lt_pow_right (by norm_num) (by omega))

/-- The rounded square root does not exceed that of a power of four above. -/
theorem f64CeilSqrt_le_of_le {m i : ℕ} (h : m ≤ 4 ^ i) : f64CeilSqrt m ≤ 2 ^ i := by
  rw [f64CeilSqrt_le]
  generalize 52 - Nat.log2 m / 2 = K
  have : (2 ^ i * 2 ^ K) * (2 ^ i * 2 ^ K) = 4 ^ i * 4 ^ K := by
    rw [show (4 : ℕ) = 2 * 2 by norm_num, mul_pow, mul_pow]; ring
  rw [this]
  exact (Nat.mul_le_mul_right _ h).trans (Nat.le_add_right _ _)

/-- It exceeds that of a much smaller power of four. -/
theorem lt_f64CeilSqrt {m i : ℕ} (h : 4 ^ (i + 1) ≤ m) : 2 ^ i < f64CeilSqrt m := by
  rw [← not_le, f64CeilSqrt_le, not_le]
  generalize 52 - Nat.log2 m / 2 = K
  have : (2 ^ i * 2 ^ K) * (2 ^ i * 2 ^ K) = 4 ^ i * 4 ^ K := by
    rw [show (4 : ℕ) = 2 * 2 by norm_num, mul_pow, mul_pow]; ring
  have hx : 0 < 2 ^ i * 2 ^ K := by positivity
  have hy := Nat.le_mul_self (2 ^ i * 2 ^ K)
  have hz : 4 ^ (i + 1) * 4 ^ K ≤ m * 4 ^ K := Nat.mul_le_mul_right _ h
  rw [show 4 ^ (i + 1) * 4 ^ K = 4 * (4 ^ i * 4 ^ K) by ring, ← this] at hz
  omega

theorem f64CeilSqrt_le_near {m i : ℕ} (hi : i ≤ 52) (h1 : 4 ^ i ≤ m) (h2 : m < 4 ^ (i + 1)) :
    f64CeilSqrt m ≤ 2 ^ i ↔ m * 4 ^ (52 - i) ≤ 4 ^ 52 + 2 ^ 52 := by
  have h4 : ∀ j : ℕ, 4 ^ j = 2 ^ (2 * j) := fun j => by rw [pow_mul]; norm_num
  have hl : Nat.log2 m / 2 = i := by
    have hm : m ≠ 0 := by have := Nat.one_le_pow i 4 (by norm_num); omega
    have a : 2 * i ≤ Nat.log2 m := (Nat.le_log2 hm).mpr (by rw [← h4]; exact h1)
    have b : Nat.log2 m < 2 * (i + 1) := (Nat.log2_lt hm).mpr (by rw [← h4]; exact h2)
    omega
  rw [f64CeilSqrt_le, hl, ← pow_add, show i + (52 - i) = 52 by omega]
  norm_num

/-- When the rounded square root of `n` is at most `2^i`. -/
theorem sqrt_le_iff (n i : ℕ) (h1 : 1 ≤ n) (h2 : n < 2 ^ 64) (hi : i ≤ 32) :
    f64CeilSqrt (f64OfNat n) ≤ 2 ^ i ↔
      n ≤ 4 ^ i ∨ (26 ≤ i ∧ i ≤ 31 ∧ 2 * n < 2 * 4 ^ i + 3 * 4 ^ (i - 26)) := by
  have h4 : ∀ j : ℕ, 4 ^ j = 2 ^ (2 * j) := fun j => by rw [pow_mul]; norm_num
  obtain ⟨k, k1, k2⟩ : ∃ k, 2 ^ k ≤ n ∧ n < 2 ^ (k + 1) :=
    ⟨Nat.log2 n, (Nat.log2_eq_iff (by omega)).mp rfl⟩
  obtain ⟨m1, m2⟩ := f64OfNat_bounds k1 k2
  by_cases hA : n ≤ 4 ^ i
  · refine iff_of_true (f64CeilSqrt_le_of_le ?_) (Or.inl hA)
    rcases hA.eq_or_lt with h | h
    · rw [h, h4, f64OfNat_two_pow]
    · refine m2.trans ?_
      rw [h4] at h ⊢
      have : k < 2 * i := (Nat.pow_lt_pow_iff_right (by norm_num : 1 < 2)).mp (k1.trans_lt h)
      exact Nat.pow_le_pow_right (by norm_num) this
  · rw [or_iff_right hA]
    push Not at hA
    have hki : 2 * i ≤ k := by
      rw [h4] at hA
      have := (Nat.pow_lt_pow_iff_right (by norm_num : 1 < 2)).mp (hA.trans k2)
      omega
    have hpos : 4 ^ (i - 26) ≤ 4 ^ i := Nat.pow_le_pow_right (by norm_num) (by omega)
    have hp0 : 0 < 4 ^ i := by positivity
    by_cases hfar : 4 ^ (i + 1) ≤ f64OfNat n
    · refine iff_of_false (by have := lt_f64CeilSqrt hfar; omega) ?_
      rintro ⟨_, _, h⟩
      have h5 : 4 * 4 ^ (i - 26) ≤ 4 ^ i := by
        rw [← pow_succ']; exact Nat.pow_le_pow_right (by norm_num) (by omega)
      have h6 : 2 ^ k < 2 ^ (2 * i + 1) := by rw [pow_succ, ← h4]; omega
      have h7 := (Nat.pow_lt_pow_iff_right (by norm_num : 1 < 2)).mp h6
      have h8 : f64OfNat n ≤ 2 ^ (2 * i + 1) := m2.trans (Nat.pow_le_pow_right (by norm_num) (by omega))
      rw [pow_succ, ← h4] at h8
      rw [pow_succ] at hfar
      omega
    · push Not at hfar
      have hkk : k < 2 * (i + 1) :=
        (Nat.pow_lt_pow_iff_right (by norm_num : 1 < 2)).mp (by rw [← h4]; exact m1.trans_lt hfar)
      have hm4 : 4 ^ i ≤ f64OfNat n :=
        le_trans (by rw [h4]; exact Nat.pow_le_pow_right (by norm_num) hki) m1
      have hi31 : i ≤ 31 := by
        have : 2 ^ k < 2 ^ 64 := k1.trans_lt h2
        have := (Nat.pow_lt_pow_iff_right (by norm_num : 1 < 2)).mp this
        omega
      rw [f64CeilSqrt_le_near (by omega) hm4 hfar]
      by_cases h26 : 26 ≤ i
      · have hk' : k = 2 * i ∨ k = 2 * i + 1 := by omega
        rcases hk' with rfl | rfl
        · rcases h26.eq_or_lt with h27 | h27
          · subst h27
            rw [f64OfNat_of_lt (by norm_num at k2 ⊢; omega)]
            norm_num at *
            omega
          · rw [f64OfNat_eq (by omega) k1 k2]
            clear hm4 hfar m1 m2
            interval_cases i <;> norm_num at * <;> split_ifs <;> omega
        · refine iff_of_false ?_ ?_
          · clear hfar
            interval_cases i <;> norm_num at * <;> omega
          · interval_cases i <;> norm_num at * <;> omega
      · refine iff_of_false ?_ (by omega)
        have hn : n < 2 ^ 53 := k2.trans_le (Nat.pow_le_pow_right (by norm_num) (by omega))
        rw [f64OfNat_of_lt hn]
        have : (4 ^ i + 1) * 4 ^ (52 - i) ≤ n * 4 ^ (52 - i) := Nat.mul_le_mul_right _ hA
        rw [add_mul, ← pow_add, show i + (52 - i) = 52 by omega, one_mul] at this
        have h27 : 4 ^ 27 ≤ 4 ^ (52 - i) := Nat.pow_le_pow_right (by norm_num) (by omega)
        norm_num at this h27 ⊢
        omega

/-- The degrees for which the capacity is too small: `d + 1` exceeds `4^i` by less than one and a half
units in the last place of a double of that size, for some `26 ≤ i ≤ 31`. -/
def ShortDegree (d : ℕ) : Prop :=
  ∃ i, 26 ≤ i ∧ i ≤ 31 ∧ 4 ^ i < d + 1 ∧ 2 * (d + 1) < 2 * 4 ^ i + 3 * 4 ^ (i - 26)

/-- The rounded-up square root for every degree that fits in 64 bits. -/
theorem sqrtPow2_all (d : ℕ) (hd : 1 ≤ d) (h : d + 1 < 2 ^ 64) :
    ∃ j, 1 ≤ j ∧ j ≤ 32 ∧ sqrtPow2 d = .ok (2 ^ j) ∧ (∀ i, i < j → 4 ^ i < d + 1) ∧
      (d + 1 ≤ 4 ^ j ↔ ¬ ShortDegree d) := by
  set c := f64CeilSqrt (f64OfNat (d + 1)) with hc
  have key : ∀ i, i ≤ 32 → (Nat.clog 2 c ≤ i ↔
      d + 1 ≤ 4 ^ i ∨ (26 ≤ i ∧ i ≤ 31 ∧ 2 * (d + 1) < 2 * 4 ^ i + 3 * 4 ^ (i - 26))) := fun i hi => by
    rw [Nat.clog_le_iff_le_pow (by norm_num), hc, sqrt_le_iff _ _ (by omega) h hi]
  have h32 : Nat.clog 2 c ≤ 32 := (key 32 le_rfl).mpr (Or.inl (by norm_num; omega))
  refine ⟨Nat.clog 2 c, ?_, h32, ?_, fun i hi => ?_, ?_⟩
  · by_contra h0
    rcases (key 0 (by norm_num)).mp (by omega) with h1 | h1
    · simp at h1; omega
    · omega
  · rw [sqrtPow2, if_neg (by omega), nextPow2]
  · by_contra hn
    have := (key i (by omega)).mpr (Or.inl (by omega))
    omega
  · constructor
    · rintro h1 ⟨i, a, b, h2, h3⟩
      have hi : i < Nat.clog 2 c := by
        have : (4 : ℕ) ^ i < 4 ^ Nat.clog 2 c := h2.trans_le h1
        exact (Nat.pow_lt_pow_iff_right (by norm_num)).mp this
      have := (key i (by omega)).mpr (Or.inr ⟨a, b, h3⟩)
      omega
    · intro hs
      by_contra hn
      rcases (key _ h32).mp le_rfl with h1 | ⟨a, b, h1⟩
      · exact hn h1
      · exact hs ⟨_, a, b, by omega, h1⟩

/-- C76: for every degree below `2^64 - 1` the split succeeds and both sizes are powers of two whose
product is a power of four with no smaller power of four sufficient.  The product reaches `d + 1`
except for the degrees in `ShortDegree`. -/
theorem C76_degrees (d : ℕ) (hd : 1 ≤ d) (h : d + 1 < 2 ^ 64) :
    ∃ x y k l j, bivariateDegrees d = .ok (x, y) ∧ x + 1 = 2 ^ (k + 1) ∧ y + 1 = 2 ^ l ∧
      (x + 1) * (y + 1) = 4 ^ j ∧ j ≤ 32 ∧ (∀ i, i < j → 4 ^ i < d + 1) ∧
      (d + 1 ≤ (x + 1) * (y + 1) ↔ ¬ ShortDegree d) := by
  obtain ⟨j, h1, h2, h3, h4, h5⟩ := sqrtPow2_all d hd h
  obtain ⟨a, b, rfl, h6⟩ := split_skew 4 j h1 (by norm_num)
  have e1 : 2 ^ (a + 1) - 1 + 1 = 2 ^ (a + 1) := Nat.sub_add_cancel Nat.one_le_two_pow
  have e2 : 2 ^ (a + 1 + 2 * b) - 1 + 1 = 2 ^ (a + 1 + 2 * b) := Nat.sub_add_cancel Nat.one_le_two_pow
  have e3 : 2 ^ (a + 1) * 2 ^ (a + 1 + 2 * b) = 4 ^ (a + 1 + b) := by
    rw [← pow_add, show (4 : ℕ) = 2 ^ 2 by norm_num, ← pow_mul]; congr 1; ring
  refine ⟨_, _, a, a + 1 + 2 * b, a + 1 + b, ?_, e1, e2, ?_, h2, h4, ?_⟩
  · rw [bivariateDegrees, h3]; exact h6
  · rw [e1, e2, e3]
  · rw [e1, e2, e3]; exact h5

/-- C76: the same for the transparent scheme. -/
theorem C76_degrees_transparent (d : ℕ) (hd : 1 ≤ d) (h : d + 1 < 2 ^ 64) :
    ∃ x y k l j, bivariateDegreesT d = .ok (x, y) ∧ x + 1 = 2 ^ (k + 1) ∧ y + 1 = 2 ^ (l + 1) ∧
      (x + 1) * (y + 1) = 4 ^ j ∧ j ≤ 32 ∧ (∀ i, i < j → 4 ^ i < d + 1) ∧
      (d + 1 ≤ (x + 1) * (y + 1) ↔ ¬ ShortDegree d) := by
  obtain ⟨j, h1, h2, h3, h4, h5⟩ := sqrtPow2_all d hd h
  obtain ⟨a, b, rfl, h6⟩ := split_skew 2 j h1 (by norm_num)
  have e1 : 2 ^ (a + 1) - 1 + 1 = 2 ^ (a + 1) := Nat.sub_add_cancel Nat.one_le_two_pow
  have e2 : 2 ^ (a + 1 + 2 * b) - 1 + 1 = 2 ^ (a + 1 + 2 * b) := Nat.sub_add_cancel Nat.one_le_two_pow
  have e3 : 2 ^ (a + 1) * 2 ^ (a + 1 + 2 * b) = 4 ^ (a + 1 + b) := by
    rw [← pow_add, show (4 : ℕ) = 2 ^ 2 by norm_num, ← pow_mul]; congr 1; ring
  refine ⟨2 ^ (a + 1) - 1, 2 ^ (a + 1 + 2 * b) - 1, a, a + 2 * b, a + 1 + b, ?_, e1, ?_, ?_, h2, h4, ?_⟩
  · rw [bivariateDegreesT, h3]; exact h6
  · rw [e2]; congr 1; omega
  · rw [e1, e2, e3]
  · rw [e1, e2, e3]; exact h5

/-- C76: `degree + 1` overflows for the greatest `usize`. -/
theorem C76_overflow : bivariateDegrees (2 ^ 64 - 1) = .error (.panic .overflow) ∧
    bivariateDegreesT (2 ^ 64 - 1) = .error (.panic .overflow) := by
  have : sqrtPow2 (2 ^ 64 - 1) = .error (.panic .overflow) := by
    rw [sqrtPow2, if_pos (by norm_num)]; rfl
  rw [bivariateDegrees, bivariateDegreesT, this]
  exact ⟨rfl, rfl⟩

namespace Univariate

variable {ρ F G1 G2 GT TF : Type} [Field F] [DecidableEq F] [AddCommGroup G1] [Module F G1]
  [AddCommGroup G2] [Module F G2] [AddCommGroup GT] [Module F GT] [Monoid TF]
  [DecidableEq G1] [DecidableEq GT] {e : G1 →ₗ[F] G2 →ₗ[F] GT}

theorem setup_srs_all (V : Env ρ F G1 G2 GT TF) (s s' : ρ) (d : ℕ) (srs : SRS G1 G2 × List G1)
    (hd1 : 1 ≤ d) (hd2 : d + 1 < 2 ^ 64) (hset : setup V s d = .ok (srs, s')) :
    ∃ (k x y : ℕ) (α β : F), bivariateDegrees d = .ok (x, y) ∧ x + 1 = 2 ^ (k + 1) ∧
      (d + 1 ≤ (x + 1) * (y + 1) ↔ ¬ ShortDegree d) ∧ Bivariate.IsSrs srs V.g V.h α β x y := by
  obtain ⟨x, y, k, l, j, h1, h2, -, -, -, -, h3⟩ := C76_degrees d hd1 hd2
  obtain ⟨srs', α, β, s'', h4, h5⟩ := Bivariate.C41_setup V s x y
  rw [setup, h1] at hset
  simp only [ok_bind] at hset
  rw [h4] at hset
  simp only [Except.ok.injEq, Prod.mk.injEq] at hset
  obtain ⟨rfl, rfl⟩ := hset
  exact ⟨k, x, y, α, β, h1, h2, h3, h5⟩

/-- C76: completeness of the univariate scheme for every degree bound that is not short. -/
theorem C76_complete (V : Env ρ F G1 G2 GT TF) (hE : V.E.Lawful e)
    (hd : ∀ b, 16 ≤ (V.digest b).length) (s s' : ρ) (d : ℕ) (srs : SRS G1 G2 × List G1)
    (hd1 : 1 ≤ d) (hd2 : d + 1 < 2 ^ 64) (hd3 : ¬ ShortDegree d)
    (hset : setup V s d = .ok (srs, s')) (p : List F) (hp : p.length ≤ d + 1) (z : F) :
    ∃ com coms v, commit V srs p = .ok (com, coms) ∧ srs.1.verifierKey = .ok v ∧
      (open_ V srs p coms z = .error .diverge ∨
      ∃ proof, open_ V srs p coms z = .ok proof ∧
        verify V v d com z (evalAt p z) proof = .ok true) := by
  obtain ⟨k, x, y, α, β, h1, h2, h3, h4⟩ := setup_srs_all V s s' d srs hd1 hd2 hset
  have := complete_truncated V hE hd k srs V.g V.h α β x y d h4 h2 h1 p z
  have hcap := h3.mpr hd3
  rwa [List.take_of_length_le (by omega)] at this

/-- C76: for a short degree two different polynomials within the degree bound have the same
commitment. -/
theorem C76_collision (V : Env ρ F G1 G2 GT TF) (s s' : ρ) (d : ℕ) (srs : SRS G1 G2 × List G1)
    (hd1 : 1 ≤ d) (hd2 : d + 1 < 2 ^ 64) (hd3 : ShortDegree d)
    (hset : setup V s d = .ok (srs, s')) :
    ∃ p q : List F, p ≠ q ∧ p.length ≤ d + 1 ∧ q.length ≤ d + 1 ∧ p.getLast? ≠ some 0 ∧
      q.getLast? ≠ some 0 ∧ commit V srs p = commit V srs q := by
  obtain ⟨k, x, y, α, β, h1, h2, h3, h4⟩ := setup_srs_all V s s' d srs hd1 hd2 hset
  set n := (x + 1) * (y + 1) with hn
  have hcap : ¬ d + 1 ≤ n := fun h => h3.mp h hd3
  have hlast : ∀ m, (List.replicate m (1 : F)).getLast? ≠ some 0 := fun m h => by
    have := List.mem_of_getLast? h
    rw [List.mem_replicate] at this
    exact one_ne_zero this.2.symm
  refine ⟨List.replicate n 1, List.replicate (n + 1) 1, ?_, by simp; omega, by simp; omega, hlast _,
    hlast _, ?_⟩
  · intro h
    have := congrArg List.length h
    simp at this
  · rw [(C46_truncates V srs V.g V.h α β x y h4 (List.replicate (n + 1) 1) [] 0).1, ← hn]
    congr 1
    simp

end Univariate

namespace TUnivariate

variable {ρ F G1 G2 GT TF : Type} [Field F] [DecidableEq F] [AddCommGroup G1] [Module F G1]
  [AddCommGroup G2] [Module F G2] [AddCommGroup GT] [Module F GT] [Monoid TF]
  [DecidableEq G1] [DecidableEq GT] {e : G1 →ₗ[F] G2 →ₗ[F] GT}

theorem setup_sizes_all (V : Env ρ F G1 G2 GT TF) (s s' : ρ) (d : ℕ) (ck : List G1 × List G2)
    (hd1 : 1 ≤ d) (hd2 : d + 1 < 2 ^ 64) (hset : setup V s d = .ok (ck, s')) :
    ∃ k l x y : ℕ, x + 1 = 2 ^ (k + 1) ∧ y + 1 = 2 ^ (l + 1) ∧
      (d + 1 ≤ (x + 1) * (y + 1) ↔ ¬ ShortDegree d) ∧ ck.1.length = y + 1 ∧ ck.2.length = x + 1 := by
  obtain ⟨x, y, k, l, j, h1, h2, h3, -, -, -, h4⟩ := C76_degrees_transparent d hd1 hd2
  obtain ⟨ck', s'', h5, h6, h7⟩ := TBivariate.C47_setup V s x y
  rw [setup, h1] at hset
  simp only [ok_bind] at hset
  rw [h5] at hset
  simp only [Except.ok.injEq, Prod.mk.injEq] at hset
  obtain ⟨rfl, rfl⟩ := hset
  exact ⟨k, l, x, y, h2, h3, h4, h6, h7⟩

/-- C76: completeness of the transparent univariate scheme for every degree bound that is not short. -/
theorem C76_complete (V : Env ρ F G1 G2 GT TF) (hE : V.E.Lawful e)
    (hd : ∀ b, 16 ≤ (V.digest b).length) (s s' : ρ) (d : ℕ) (ck : List G1 × List G2)
    (hd1 : 1 ≤ d) (hd2 : d + 1 < 2 ^ 64) (hd3 : ¬ ShortDegree d)
    (hset : setup V s d = .ok (ck, s')) (p : List F) (hp : p.length ≤ d + 1) (z : F) :
    ∃ com coms, commit V ck p = .ok (com, coms) ∧
      (open_ V ck p coms z = .error .diverge ∨
      ∃ proof, open_ V ck p coms z = .ok proof ∧
        verify V ck com z (evalAt p z) proof = .ok true) := by
  obtain ⟨k, l, x, y, hx, hy, hcap, l1, l2⟩ := setup_sizes_all V s s' d ck hd1 hd2 hset
  exact complete_sizes V hE hd k l x y d ck hx hy (hcap.mpr hd3) l1 l2 p hp z

/-- C76: for a short degree two different polynomials within the degree bound have the same
commitment. -/
theorem C76_collision (V : Env ρ F G1 G2 GT TF) (s s' : ρ) (d : ℕ) (ck : List G1 × List G2)
    (hd1 : 1 ≤ d) (hd2 : d + 1 < 2 ^ 64) (hd3 : ShortDegree d)
    (hset : setup V s d = .ok (ck, s')) :
    ∃ p q : List F, p ≠ q ∧ p.length ≤ d + 1 ∧ q.length ≤ d + 1 ∧ p.getLast? ≠ some 0 ∧
      q.getLast? ≠ some 0 ∧ commit V ck p = commit V ck q := by
  obtain ⟨k, l, x, y, hx, hy, h3, l1, l2⟩ := setup_sizes_all V s s' d ck hd1 hd2 hset
  set n := (x + 1) * (y + 1) with hn
  have hcap : ¬ d + 1 ≤ n := fun h => h3.mp h hd3
  have hlast : ∀ m, (List.replicate m (1 : F)).getLast? ≠ some 0 := fun m h => by
    have := List.mem_of_getLast? h
    rw [List.mem_replicate] at this
    exact one_ne_zero this.2.symm
  refine ⟨List.replicate n 1, List.replicate (n + 1) 1, ?_, by simp; omega, by simp; omega, hlast _,
    hlast _, ?_⟩
  · intro h
    have := congrArg List.length h
    simp at this
  · rw [(C46_truncates V ck x y l1 l2 (List.replicate (n + 1) 1) [] 0).1, ← hn]
    congr 1
    simp

end TUnivariate

/-! ## Examples -/

/-- The least short degree is `2^52`, and `2^54 + 4` is another one; `2^54 + 5` is not. -/
example : ShortDegree (2 ^ 52) ∧ ¬ ShortDegree (2 ^ 52 - 1) ∧ ShortDegree (2 ^ 54 + 4) ∧
    ¬ ShortDegree (2 ^ 54 + 5) := by
  refine ⟨⟨26, by norm_num⟩, ?_, ⟨27, by norm_num⟩, ?_⟩ <;>
  · rintro ⟨i, a, b, h1, h2⟩
    interval_cases i <;> omega

/-- For `d = 2^60` the capacity is short. -/
example : ∃ x y, bivariateDegrees (2 ^ 60) = .ok (x, y) ∧ (x + 1) * (y + 1) < 2 ^ 60 + 1 := by
  obtain ⟨x, y, k, l, j, h1, -, -, -, -, -, h2⟩ := C76_degrees (2 ^ 60) (by norm_num) (by norm_num)
  refine ⟨x, y, h1, ?_⟩
  rw [← not_le, h2, not_not]
  exact ⟨30, by norm_num⟩

end Ripp
