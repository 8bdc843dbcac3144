import Verif.Props.PolyBinding
import Verif.Props.Univariate
import Verif.Props.Transparent

/-!
# C102: the value of a univariate commitment, for every key

The key need not come from `setup`: as soon as both halves are non-empty, committing succeeds.
-/

set_option linter.unusedSectionVars false

namespace Ripp

open Spec

variable {ρ F G1 G2 GT TF : Type} [Field F] [DecidableEq F] [AddCommGroup G1] [Module F G1]
  [AddCommGroup G2] [Module F G2] [AddCommGroup GT] [Module F GT] [Monoid TF]
  {e : G1 →ₗ[F] G2 →ₗ[F] GT}

/-- The coefficients of `X ^ (i m), …, X ^ (i m + m - 1)`. -/
def coeffRow (p : List F) (m i : ℕ) : List F := (List.range m).map fun j => p.getD (i * m + j) 0

/-- `Σ_j p_(i m + j) key_j` for every `i < n`, where `m` is the number of keys. -/
def rowSums (key : List G1) (n : ℕ) (p : List F) : List G1 :=
  (List.range n).map fun i => dot (fun c g => c • g) (coeffRow p key.length i) key

theorem resize_eq_map (p : List F) (n : ℕ) : resize p n 0 = (List.range n).map (p.getD · 0) := by
  refine List.ext_getElem (by simp [resize_length]) fun i h1 h2 => ?_
  have hi : i < n := by simpa [resize_length] using h1
  simp only [resize, List.getElem_map, List.getElem_range, List.getElem_append, List.getElem_replicate]
  split
  · rename_i h
    have : i < p.length := by simp at h; omega
    simp [List.getD_eq_getElem?_getD, this]
  · rename_i h
    have : p.length ≤ i := by simp at h; omega
    simp [List.getD_eq_getElem?_getD, List.getElem?_eq_none this]

theorem flatten_rows (f : ℕ → F) (m : ℕ) : ∀ n, ((List.range n).map fun i =>
    (List.range m).map fun j => f (i * m + j)).flatten = (List.range (n * m)).map f
  | 0 => by simp
  | n + 1 => by
    rw [List.range_succ, List.map_append, List.flatten_append, flatten_rows f m n, add_mul, one_mul,
      List.range_add, List.map_append, List.map_map]
    simp [Function.comp_def]

theorem bivariateForm_rows (x y : ℕ) (p : List F) :
    bivariateForm (x, y) p = .ok ((List.range (x + 1)).map fun i => polyOf (coeffRow p (y + 1) i)) := by
  rw [bivariateForm, resize_eq_map, ← flatten_rows (p.getD · 0) (y + 1) (x + 1)]
  have := TUnivariate.takeRows_flatten (y + 1) ((List.range (x + 1)).map fun i => coeffRow p (y + 1) i)
    (by simp [coeffRow])
  rw [List.length_map, List.length_range, List.map_map] at this
  exact this

theorem kzgCommit_row (key : List G1) (hk : key ≠ []) (r : List F) (hr : r.length = key.length) :
    Kzg.commit key (polyOf r) = .ok (dot (fun c g => c • g) r key) := by
  have hl := length_trim_le r
  have hpos : 1 ≤ key.length := List.length_pos_iff.mpr hk
  rw [Kzg.commit, polyOf, polyDegree_of_norm (getLast?_trim r)]
  have : (trim r).length - 1 + 1 ≤ key.length := by omega
  simp only [ok_bind, decide_eq_true this, assert_true]
  rw [← hr, TUnivariate.resize_trim, msm_eq _ _ hr.symm, unwrap_some, dot_swap]

namespace Univariate

/-- C102: the structured scheme. There are `⌈l / 2⌉` rows for `l` powers of `β`, also if `l` is even. -/
theorem C102_commit_value (V : Env ρ F G1 G2 GT TF) (hE : V.E.Lawful e)
    (srs : SRS G1 G2 × List G1) (h1 : srs.1.hBetaPowers ≠ []) (h2 : srs.2 ≠ []) (p : List F) (n : ℕ)
    (hn : n = (srs.1.hBetaPowers.length + 1) / 2) :
    commit V srs p = .ok (dot (e · ·) (rowSums srs.2 n p)
      ((List.range n).map fun i => srs.1.hBetaPowers.getD (2 * i) 0), rowSums srs.2 n p) := by
  have l1 : 1 ≤ srs.1.hBetaPowers.length := List.length_pos_iff.mpr h1
  have l2 : 1 ≤ srs.2.length := List.length_pos_iff.mpr h2
  have hkeys : srs.1.commitmentKeys.1 = (List.range n).map fun i => srs.1.hBetaPowers.getD (2 * i) 0 := by
    refine List.ext_getElem? fun i => ?_
    rw [SRS.commitmentKeys, getElem?_stepBy2, List.getElem?_map]
    by_cases hi : i < n
    · have : 2 * i < srs.1.hBetaPowers.length := by omega
      simp [hi, this, List.getD_eq_getElem?_getD]
    · have : srs.1.hBetaPowers.length ≤ 2 * i := by omega
      simp [hi, this]
  have hx : (srs.1.hBetaPowers.length - 1) / 2 + 1 = n := by omega
  rw [commit, parseDegrees, if_neg (by omega)]
  simp only [ok_bind]
  rw [bivariateForm_rows, hx, Nat.sub_add_cancel l2]
  simp only [ok_bind]
  rw [Bivariate.commit, hkeys]
  simp only [List.length_map, List.length_range, le_refl, decide_true, assert_true, ok_bind]
  rw [resize_of_length_le _ _ _ (by simp), List.length_map, List.length_range, Nat.sub_self,
    List.replicate_zero, List.append_nil]
  have hmap : ((List.range n).map fun i => polyOf (coeffRow p srs.2.length i)).mapM
      (Kzg.commit srs.2) = .ok (rowSums srs.2 n p) := by
    rw [List.mapM_map, mapM_ok _ (fun i => dot (fun c g => c • g) (coeffRow p srs.2.length i) srs.2)]
    · rfl
    · intro i _
      exact kzgCommit_row _ h2 _ (by simp [coeffRow])
  rw [hmap]
  simp only [ok_bind]
  have : (afghoG1 V.E V.X V.randG2).commit ((List.range n).map fun i => srs.1.hBetaPowers.getD (2 * i) 0)
      (rowSums srs.2 n p) = .ok (dot (e · ·) (rowSums srs.2 n p)
        ((List.range n).map fun i => srs.1.hBetaPowers.getD (2 * i) 0)) :=
    pairingIP_eq hE V.X _ _ (by simp [rowSums])
  rw [this]
  rfl

end Univariate

namespace TUnivariate

/-- C102: the transparent scheme. -/
theorem C102_commit_value (V : Env ρ F G1 G2 GT TF) (hE : V.E.Lawful e)
    (ck : List G1 × List G2) (h1 : ck.1 ≠ []) (h2 : ck.2 ≠ []) (p : List F) :
    commit V ck p = .ok (dot (e · ·) (rowSums ck.1 ck.2.length p) ck.2,
      rowSums ck.1 ck.2.length p) := by
  have l1 : 1 ≤ ck.1.length := List.length_pos_iff.mpr h1
  have l2 : 1 ≤ ck.2.length := List.length_pos_iff.mpr h2
  rw [commit, parseDegrees_eq (x := ck.2.length - 1) (y := ck.1.length - 1) (by omega) (by omega)]
  simp only [ok_bind]
  rw [bivariateForm_rows, Nat.sub_add_cancel l2, Nat.sub_add_cancel l1]
  simp only [ok_bind]
  rw [TBivariate.commit_eq V hE ck _ (by simp) fun q hq => by
    obtain ⟨i, -, rfl⟩ := List.mem_map.mp hq
    exact (length_trim_le _).trans (by simp [coeffRow])]
  have : (resize ((List.range ck.2.length).map fun i => polyOf (coeffRow p ck.1.length i))
      ck.2.length []).map (TBivariate.rowCom ck.1) = rowSums ck.1 ck.2.length p := by
    rw [resize_of_length_le _ _ _ (by simp), List.length_map, List.length_range, Nat.sub_self,
      List.replicate_zero, List.append_nil, List.map_map]
    refine List.map_congr_left fun i _ => ?_
    have hr : (coeffRow p ck.1.length i).length = ck.1.length := by simp [coeffRow]
    simp only [Function.comp_apply, TBivariate.rowCom, TBivariate.pad, polyOf]
    have e1 := resize_trim (coeffRow p ck.1.length i)
    rw [hr] at e1
    rw [e1]
    rfl
  rw [this]

end TUnivariate

/-- Five coefficients, two keys for the rows (from a string of even length) and two for the columns: the
coefficient of `X^4` is dropped, and the commitment is `(1 · 3 + 2 · 5) · 7 + (3 · 3 + 4 · 5) · 2`. -/
example : Univariate.commit Toy.env (⟨[], [7, 0, 2, 9], 0, 0⟩, [3, 5]) ([1, 2, 3, 4, 6] : List Toy.F) =
    .ok (149, [13, 29]) := by
  rw [Univariate.C102_commit_value (e := Toy.e) Toy.env Toy.lawful _ (by simp) (by simp) _ 2 rfl]
  decide +kernel

/-- The same keys in the transparent scheme. -/
example : TUnivariate.commit Toy.env ([3, 5], [7, 2]) ([1, 2, 3, 4, 6] : List Toy.F) =
    .ok (149, [13, 29]) := by
  rw [TUnivariate.C102_commit_value (e := Toy.e) Toy.env Toy.lawful _ (by simp) (by simp) _]
  decide +kernel

end Ripp
