import Verif.Lemmas.GipaInstances
import Verif.Lemmas.Groth16
import Mathlib.Tactic.FieldSimp
import Mathlib.Tactic.LinearCombination
import Mathlib.Tactic.Module
import Mathlib.Logic.Equiv.Fin.Basic

/-! # Recombining the openings of four runs of one folding round -/

set_option linter.unusedSectionVars false

namespace Ripp.Extract

open Spec

section
variable {F M K O : Type} [Field F] [AddCommGroup M] [Module F M] [AddCommGroup K] [Module F K]
  [AddCommGroup O] [Module F O]

/-- `m` followed by `x m`: a message for a key folded with `x` as a message for the whole key. -/
def unfold (x : F) (m : List M) : List M := m ++ smulV x m

@[simp] theorem length_unfold (x : F) (m : List M) : (unfold x m).length = 2 * m.length := by
  simp [unfold]; omega

theorem dot_unfold (φ : M →ₗ[F] K →ₗ[F] O) (x : F) (m : List M) (k : List K)
    (h : k.length = 2 * m.length) :
    dot (φ · ·) (unfold x m) k = dot (φ · ·) m (foldHalf x k) := by
  have e : k.length / 2 = m.length := by omega
  rw [foldHalf, e, dot_addV_right _ _ _ _ (by simp; omega), dot_smulV_right, unfold]
  conv_lhs => rw [← List.take_append_drop m.length k]
  rw [dot_append _ _ _ _ _ (by simp; omega), dot_smulV_left]

/-- Weight of the run with challenge `x` (others `y`, `z`) in the recombination of `l`, where every
run yields `x l + c + x⁻¹ r`. -/
def wL (x y z : F) : F := x / ((x - y) * (x - z))
/-- Weight in the recombination of `c`. -/
def wM (x y z : F) : F := -x * (y + z) / ((x - y) * (x - z))
/-- Weight in the recombination of `r`. -/
def wR (x y z : F) : F := x * y * z / ((x - y) * (x - z))

/-- Linear combination of the first three unfolded messages with the weights `w`. -/
def side (w : F → F → F → F) (c : Fin 4 → F) (a : Fin 4 → List M) : List M :=
  addV (addV (smulV (w (c 0) (c 1) (c 2)) (unfold (c 0)⁻¹ (a 0)))
    (smulV (w (c 1) (c 0) (c 2)) (unfold (c 1)⁻¹ (a 1))))
    (smulV (w (c 2) (c 0) (c 1)) (unfold (c 2)⁻¹ (a 2)))

/-- `x l + c + x⁻¹ r` for the recombined `l`, `c`, `r` and the challenge of run `i`. -/
def expected (c : Fin 4 → F) (a : Fin 4 → List M) (i : Fin 4) : List M :=
  addV (addV (smulV (c i) (side wL c a)) (side wM c a)) (smulV (c i)⁻¹ (side wR c a))

theorem length_side (w : F → F → F → F) (c : Fin 4 → F) (a : Fin 4 → List M) (n : ℕ)
    (h : ∀ i, (a i).length = n) : (side w c a).length = 2 * n := by
  simp [side, addV, smulV, h]

theorem length_expected (c : Fin 4 → F) (a : Fin 4 → List M) (n : ℕ)
    (h : ∀ i, (a i).length = n) (i : Fin 4) : (expected c a i).length = 2 * n := by
  simp [expected, addV, smulV, length_side _ c a n h]

theorem dot_side (φ : M →ₗ[F] K →ₗ[F] O) (w : F → F → F → F) (c : Fin 4 → F) (a : Fin 4 → List M)
    (n : ℕ) (h : ∀ i, (a i).length = n) (k : List K) (hk : k.length = 2 * n) :
    dot (φ · ·) (side w c a) k =
      w (c 0) (c 1) (c 2) • dot (φ · ·) (a 0) (foldHalf (c 0)⁻¹ k)
      + w (c 1) (c 0) (c 2) • dot (φ · ·) (a 1) (foldHalf (c 1)⁻¹ k)
      + w (c 2) (c 0) (c 1) • dot (φ · ·) (a 2) (foldHalf (c 2)⁻¹ k) := by
  rw [side, dot_addV_left _ _ _ _ (by simp [addV, smulV, h]),
    dot_addV_left _ _ _ _ (by simp [smulV, h]), dot_smulV_left, dot_smulV_left, dot_smulV_left,
    dot_unfold _ _ _ _ (by rw [h, hk]), dot_unfold _ _ _ _ (by rw [h, hk]),
    dot_unfold _ _ _ _ (by rw [h, hk])]

section weights
variable {x y z : F} (hx : x ≠ 0) (hy : y ≠ 0) (hz : z ≠ 0) (hxy : x ≠ y) (hxz : x ≠ z) (hyz : y ≠ z)
include hx hy hz hxy hxz hyz

theorem weights_L : wL x y z * x + wL y x z * y + wL z x y * z = 1 ∧
    wL x y z + wL y x z + wL z x y = 0 ∧
    wL x y z * x⁻¹ + wL y x z * y⁻¹ + wL z x y * z⁻¹ = 0 := by
  have := sub_ne_zero.mpr hxy; have := sub_ne_zero.mpr hxz; have := sub_ne_zero.mpr hyz
  have := sub_ne_zero.mpr hxy.symm; have := sub_ne_zero.mpr hxz.symm
  have := sub_ne_zero.mpr hyz.symm
  unfold wL
  refine ⟨?_, ?_, ?_⟩ <;> field_simp <;> ring

theorem weights_M : wM x y z * x + wM y x z * y + wM z x y * z = 0 ∧
    wM x y z + wM y x z + wM z x y = 1 ∧
    wM x y z * x⁻¹ + wM y x z * y⁻¹ + wM z x y * z⁻¹ = 0 := by
  have := sub_ne_zero.mpr hxy; have := sub_ne_zero.mpr hxz; have := sub_ne_zero.mpr hyz
  have := sub_ne_zero.mpr hxy.symm; have := sub_ne_zero.mpr hxz.symm
  have := sub_ne_zero.mpr hyz.symm
  unfold wM
  refine ⟨?_, ?_, ?_⟩ <;> field_simp <;> ring

theorem weights_R : wR x y z * x + wR y x z * y + wR z x y * z = 0 ∧
    wR x y z + wR y x z + wR z x y = 0 ∧
    wR x y z * x⁻¹ + wR y x z * y⁻¹ + wR z x y * z⁻¹ = 1 := by
  have := sub_ne_zero.mpr hxy; have := sub_ne_zero.mpr hxz; have := sub_ne_zero.mpr hyz
  have := sub_ne_zero.mpr hxy.symm; have := sub_ne_zero.mpr hxz.symm
  have := sub_ne_zero.mpr hyz.symm
  unfold wR
  refine ⟨?_, ?_, ?_⟩ <;> field_simp <;> ring

end weights

theorem combine (w : F → F → F → F) (x y z : F) (l m r : O) :
    w x y z • (x • l + m + x⁻¹ • r) + w y x z • (y • l + m + y⁻¹ • r)
      + w z x y • (z • l + m + z⁻¹ • r) =
    (w x y z * x + w y x z * y + w z x y * z) • l + (w x y z + w y x z + w z x y) • m
      + (w x y z * x⁻¹ + w y x z * y⁻¹ + w z x y * z⁻¹) • r := by
  module

/-- The recombined messages open the commitments of the round. -/
theorem side_opens (φ : M →ₗ[F] K →ₗ[F] O) (c : Fin 4 → F) (h0 : ∀ i, c i ≠ 0)
    (hc : Function.Injective c) (a : Fin 4 → List M) (n : ℕ) (h : ∀ i, (a i).length = n)
    (k : List K) (hk : k.length = 2 * n) (l m r : O)
    (hop : ∀ i, dot (φ · ·) (a i) (foldHalf (c i)⁻¹ k) = c i • l + m + (c i)⁻¹ • r) :
    dot (φ · ·) (side wL c a) k = l ∧ dot (φ · ·) (side wM c a) k = m ∧
      dot (φ · ·) (side wR c a) k = r := by
  have h01 : c 0 ≠ c 1 := fun e => absurd (hc e) (by decide)
  have h02 : c 0 ≠ c 2 := fun e => absurd (hc e) (by decide)
  have h12 : c 1 ≠ c 2 := fun e => absurd (hc e) (by decide)
  have a1 := weights_L (h0 0) (h0 1) (h0 2) h01 h02 h12
  have a2 := weights_M (h0 0) (h0 1) (h0 2) h01 h02 h12
  have a3 := weights_R (h0 0) (h0 1) (h0 2) h01 h02 h12
  refine ⟨?_, ?_, ?_⟩
  · rw [dot_side φ _ c a n h k hk, hop, hop, hop, combine, a1.1, a1.2.1, a1.2.2]; simp
  · rw [dot_side φ _ c a n h k hk, hop, hop, hop, combine, a2.1, a2.2.1, a2.2.2]; simp
  · rw [dot_side φ _ c a n h k hk, hop, hop, hop, combine, a3.1, a3.2.1, a3.2.2]; simp

/-- The recombined message for run `i` and the message of run `i` have the same commitment. -/
theorem expected_opens (φ : M →ₗ[F] K →ₗ[F] O) (c : Fin 4 → F) (h0 : ∀ i, c i ≠ 0)
    (hc : Function.Injective c) (a : Fin 4 → List M) (n : ℕ) (h : ∀ i, (a i).length = n)
    (k : List K) (hk : k.length = 2 * n) (l m r : O)
    (hop : ∀ i, dot (φ · ·) (a i) (foldHalf (c i)⁻¹ k) = c i • l + m + (c i)⁻¹ • r) (i : Fin 4) :
    dot (φ · ·) (expected c a i) k = dot (φ · ·) (unfold (c i)⁻¹ (a i)) k := by
  obtain ⟨e1, e2, e3⟩ := side_opens φ c h0 hc a n h k hk l m r hop
  have ll := length_side wL c a n h
  have lm := length_side wM c a n h
  have lr := length_side wR c a n h
  rw [expected, dot_addV_left _ _ _ _ (by simp [addV, smulV, ll, lm, lr]),
    dot_addV_left _ _ _ _ (by simp [smulV, ll, lm]), dot_smulV_left, dot_smulV_left, e1, e2, e3,
    dot_unfold _ _ _ _ (by rw [h, hk]), hop]

/-- Four runs that agree with the recombination force the round to be a fold. -/
theorem entry_eq (c : Fin 4 → F) (h0 : ∀ i, c i ≠ 0) (hc : Function.Injective c) (a : Fin 4 → M)
    (ll ml rl lh mh rh : M) (hlo : ∀ i, c i • ll + ml + (c i)⁻¹ • rl = a i)
    (hhi : ∀ i, c i • lh + mh + (c i)⁻¹ • rh = (c i)⁻¹ • a i) (i : Fin 4) :
    a i = ml + c i • mh := by
  classical
  have key : ¬ ∃ d ∈ [-rl, rh - ml, mh - ll, lh], d ≠ 0 := by
    intro hd
    have := card_roots_dot (F := F) [-rl, rh - ml, mh - ll, lh] hd (Finset.univ.image c) (by
      intro r hr
      obtain ⟨j, -, rfl⟩ := Finset.mem_image.mp hr
      have e := hhi j
      rw [← hlo j] at e
      have e2 : (c j * c j) • (c j • lh + mh + (c j)⁻¹ • rh) =
          (c j * c j) • ((c j)⁻¹ • (c j • ll + ml + (c j)⁻¹ • rl)) := by rw [e]
      have hj := h0 j
      have i1 : c j * c j * (c j)⁻¹ = c j := by field_simp
      simp only [smul_add, smul_smul] at e2
      have i2 : c j * c j * ((c j)⁻¹ * c j) = c j ^ 2 := by field_simp
      have i3 : c j * c j * ((c j)⁻¹ * (c j)⁻¹) = 1 := by field_simp
      rw [i1, i2, i3] at e2
      rw [← sub_eq_zero] at e2
      refine Eq.trans ?_ e2
      simp [powers, List.range_succ]
      module)
    rw [Finset.card_image_of_injective _ hc] at this
    simp at this
  push Not at key
  have r0 : rl = 0 := by simpa using key (-rl) (by simp)
  have r2 : ll = mh := by
    have := key (mh - ll) (by simp)
    exact (sub_eq_zero.mp this).symm
  rw [← hlo i, r0, r2]
  simp [add_comm]

theorem fold_of_expected (c : Fin 4 → F) (h0 : ∀ i, c i ≠ 0) (hc : Function.Injective c)
    (a : Fin 4 → List M) (n : ℕ) (h : ∀ i, (a i).length = n)
    (he : ∀ i, expected c a i = unfold (c i)⁻¹ (a i)) (i : Fin 4) :
    a i = foldHalf (c i) (side wM c a) := by
  have ll := length_side wL c a n h
  have lm := length_side wM c a n h
  have lr := length_side wR c a n h
  have hget : ∀ i j (hj : j < 2 * n), c i • (side wL c a)[j]'(by omega)
      + (side wM c a)[j]'(by omega) + (c i)⁻¹ • (side wR c a)[j]'(by omega) =
      (unfold (c i)⁻¹ (a i))[j]'(by rw [length_unfold, h]; omega) := by
    intro i j hj
    have e := he i
    have : (expected c a i)[j]? = (unfold (c i)⁻¹ (a i))[j]? := by rw [e]
    rw [List.getElem?_eq_getElem (by rw [length_expected c a n h]; omega),
      List.getElem?_eq_getElem (by rw [length_unfold, h]; omega)] at this
    have := Option.some.inj this
    rw [← this]
    simp [expected, addV, smulV]
  apply List.ext_getElem
  · rw [length_foldHalf _ _ _ lm, h]
  · intro j hj hj'
    have hjn : j < n := by rw [h] at hj; exact hj
    have hd : (side wM c a).length / 2 = n := by omega
    have := entry_eq c h0 hc (fun i => (a i)[j]'(by rw [h]; omega))
      ((side wL c a)[j]'(by omega)) ((side wM c a)[j]'(by omega)) ((side wR c a)[j]'(by omega))
      ((side wL c a)[n + j]'(by omega)) ((side wM c a)[n + j]'(by omega))
      ((side wR c a)[n + j]'(by omega)) (fun i => by
        rw [hget i j (by omega)]
        simp only [unfold]
        rw [List.getElem_append_left (by rw [h]; omega)])
      (fun i => by
        rw [hget i (n + j) (by omega)]
        simp only [unfold]
        rw [List.getElem_append_right (by rw [h]; omega)]
        simp [smulV, h]) i
    rw [this]
    simp [foldHalf, addV, smulV, hd]

end

end Ripp.Extract
