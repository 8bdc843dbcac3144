import Mathlib.Algebra.Polynomial.Roots
import Mathlib.Tactic.LinearCombination
import Verif.Lemmas.Tipa

/-! # The key polynomial as a polynomial, its degree, and zeros of bivariate equations -/

set_option linter.unusedSectionVars false

namespace Ripp

open Polynomial

section
variable {F : Type} [Field F]

/-- `∏ (1 + x_j (r X²)^(2^j))`, where `tr` lists the `x_j` starting with the last round. -/
noncomputable def keyPoly (tr : List F) (r : F) : F[X] :=
  (tr.mapIdx fun j x => 1 + C x * (C r * X ^ 2) ^ 2 ^ j).prod

theorem eval_keyPoly (tr : List F) (r z : F) :
    (keyPoly tr r).eval z = (tr.mapIdx fun j x => 1 + x * (r * z ^ 2) ^ 2 ^ j).prod := by
  rw [keyPoly, Polynomial.eval_list_prod]
  congr 1
  apply List.ext_getElem?
  intro i
  simp only [List.getElem?_map, List.getElem?_mapIdx]
  cases tr[i]? <;> simp

theorem natDegree_factors : ∀ (tr : List F) (Y : F[X]) (d : ℕ), Y.natDegree ≤ d →
    (tr.mapIdx fun j x => 1 + C x * Y ^ 2 ^ j).prod.natDegree ≤ d * (2 ^ tr.length - 1)
  | [], Y, d, h => by simp
  | x :: xs, Y, d, h => by
    have ih := natDegree_factors xs (Y ^ 2) (2 * d) (natDegree_pow_le_of_le 2 h)
    have e : (fun (j : ℕ) (x : F) => 1 + C x * Y ^ 2 ^ (j + 1)) = fun j x => 1 + C x * (Y ^ 2) ^ 2 ^ j := by
      funext j x
      rw [← pow_mul, pow_succ, mul_comm (2 ^ j)]
    rw [List.mapIdx_cons, List.prod_cons, e]
    refine natDegree_mul_le.trans ((Nat.add_le_add (b := d) ?_ ih).trans ?_)
    · refine (natDegree_add_le _ _).trans (max_le (by simp) ?_)
      rw [pow_zero, pow_one]
      exact (natDegree_C_mul_le _ _).trans h
    · have h1 : 1 ≤ 2 ^ xs.length := Nat.one_le_two_pow
      obtain ⟨n, hn⟩ := Nat.exists_eq_add_of_le h1
      rw [List.length_cons, pow_succ, hn]
      have e1 : 1 + n - 1 = n := by omega
      have e2 : (1 + n) * 2 - 1 = 2 * n + 1 := by omega
      rw [e1, e2]
      exact le_of_eq (by ring)

theorem natDegree_keyPoly (tr : List F) (r : F) :
    (keyPoly tr r).natDegree ≤ 2 ^ (tr.length + 1) - 2 := by
  refine (natDegree_factors tr (C r * X ^ 2) 2 ?_).trans ?_
  · exact (natDegree_C_mul_le _ _).trans (by simp)
  · rw [pow_succ]; omega

theorem card_agree_le [DecidableEq F] (p q : F[X]) (h : p ≠ q) (d : ℕ) (hp : p.natDegree ≤ d)
    (hq : q.natDegree ≤ d) (S : Finset F) :
    (S.filter fun z => p.eval z = q.eval z).card ≤ d := by
  have h0 : p - q ≠ 0 := sub_ne_zero.mpr h
  have : (S.filter fun z => p.eval z = q.eval z) ⊆ (p - q).roots.toFinset := by
    intro z hz
    rw [Multiset.mem_toFinset, mem_roots h0, IsRoot.def, eval_sub, sub_eq_zero]
    exact (Finset.mem_filter.mp hz).2
  refine (Finset.card_le_card this).trans ((Multiset.toFinset_card_le _).trans ((card_roots' _).trans ?_))
  exact (natDegree_sub_le _ _).trans (max_le hp hq)

/-- Zeros of `p(y) + x q(y)`. -/
theorem card_pairs_le [DecidableEq F] (p q : F[X]) (h : ¬ (p = 0 ∧ q = 0)) (d : ℕ)
    (hp : p.natDegree ≤ d) (hq : q.natDegree ≤ d) (S : Finset F) :
    ((S ×ˢ S).filter fun s => p.eval s.2 + s.1 * q.eval s.2 = 0).card ≤ (d + 1) * S.card := by
  by_cases h0 : q = 0
  · subst h0
    have hp0 : p ≠ 0 := fun e => h ⟨e, rfl⟩
    have : ((S ×ˢ S).filter fun s => p.eval s.2 + s.1 * (0 : F[X]).eval s.2 = 0) ⊆
        S ×ˢ (S.filter fun z => p.eval z = (0 : F[X]).eval z) := by
      intro s hs
      obtain ⟨h1, h2⟩ := Finset.mem_filter.mp hs
      obtain ⟨h3, h4⟩ := Finset.mem_product.mp h1
      refine Finset.mem_product.mpr ⟨h3, Finset.mem_filter.mpr ⟨h4, ?_⟩⟩
      simpa using h2
    refine (Finset.card_le_card this).trans ?_
    rw [Finset.card_product, mul_comm]
    exact Nat.mul_le_mul_right _ ((card_agree_le p 0 hp0 d hp (by simp) S).trans (Nat.le_succ d))
  · have : ((S ×ˢ S).filter fun s => p.eval s.2 + s.1 * q.eval s.2 = 0) ⊆
        (S ×ˢ (S.filter fun z => q.eval z = (0 : F[X]).eval z)) ∪
        S.image fun y => (-(p.eval y) / q.eval y, y) := by
      intro s hs
      obtain ⟨h1, h2⟩ := Finset.mem_filter.mp hs
      obtain ⟨h3, h4⟩ := Finset.mem_product.mp h1
      by_cases hz : q.eval s.2 = 0
      · exact Finset.mem_union_left _ (Finset.mem_product.mpr ⟨h3, Finset.mem_filter.mpr ⟨h4, by simpa using hz⟩⟩)
      · refine Finset.mem_union_right _ (Finset.mem_image.mpr ⟨s.2, h4, Prod.ext ?_ rfl⟩)
        simp only
        rw [div_eq_iff hz]
        linear_combination -h2
    refine (Finset.card_le_card this).trans ((Finset.card_union_le _ _).trans ?_)
    rw [Finset.card_product, add_mul, one_mul, mul_comm]
    exact Nat.add_le_add (Nat.mul_le_mul_right _ (card_agree_le q 0 h0 d hq (by simp) S))
      Finset.card_image_le

end

end Ripp
