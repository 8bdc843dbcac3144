import Mathlib.Data.Fintype.Pi
import Mathlib.Data.Fintype.BigOperators
import Mathlib.Algebra.BigOperators.Fin
import Mathlib.Algebra.Order.BigOperators.Group.Finset
import Mathlib.Logic.Equiv.Fin.Basic
import Mathlib.Tactic.Ring
import Mathlib.Tactic.GCongr

/-! # Many accepted challenge sequences contain a full tree -/

namespace Ripp.Extract

/-- Challenges of `m ^ k` runs arranged as a tree of depth `k` in which every node has `m` children. -/
inductive Chals (F : Type) (m : ℕ) : ℕ → Type
  | leaf : Chals F m 0
  | node {k : ℕ} (c : Fin m → F) (t : Fin m → Chals F m k) : Chals F m (k + 1)

/-- All branches of the tree are sequences in `A`; challenges at a node are distinct members of `S`. -/
def Chals.Within {F : Type} {m : ℕ} (S : Finset F) : {k : ℕ} → Chals F m k → (List F → Prop) → Prop
  | _, leaf, A => A []
  | _, node c t, A => Function.Injective c ∧ (∀ i, c i ∈ S) ∧
      ∀ i, (t i).Within S fun cs => A (c i :: cs)

theorem exists_tree {F : Type} (m : ℕ) (S : Finset F) : ∀ (k : ℕ) (A : List F → Prop)
    [DecidablePred A], m * k * S.card ^ (k - 1) <
      ((Fintype.piFinset fun _ : Fin k => S).filter fun xs => A (List.ofFn xs)).card →
    ∃ t : Chals F (m + 1) k, t.Within S A
  | 0, A, _, h => by
    obtain ⟨xs, hxs⟩ := Finset.card_pos.mp (lt_of_le_of_lt (Nat.zero_le _) h)
    refine ⟨.leaf, ?_⟩
    have := (Finset.mem_filter.mp hxs).2
    rwa [List.ofFn_zero] at this
  | k + 1, A, _, h => by
    classical
    let N : F → ℕ := fun x =>
      ((Fintype.piFinset fun _ : Fin k => S).filter fun xs => A (x :: List.ofFn xs)).card
    let B := S.filter fun x => m * k * S.card ^ (k - 1) < N x
    by_cases hB : m + 1 ≤ B.card
    · obtain ⟨B', hB', hc⟩ := Finset.exists_subset_card_eq hB
      let f := B'.equivFinOfCardEq hc
      have hf : ∀ i, (f.symm i : F) ∈ B := fun i => hB' (f.symm i).2
      have ih := fun i => exists_tree m S k (fun cs => A ((f.symm i : F) :: cs))
        (Finset.mem_filter.mp (hf i)).2
      choose t ht using ih
      refine ⟨.node (fun i => (f.symm i : F)) t, ?_, ?_, ht⟩
      · exact Subtype.val_injective.comp f.symm.injective
      · exact fun i => (Finset.mem_filter.mp (hf i)).1
    · exfalso
      rw [Finset.card_eq_sum_card_fiberwise (f := fun xs : Fin (k + 1) → F => xs 0) (t := S)
        (fun xs hxs => by
          simp only [Finset.coe_filter, Fintype.mem_piFinset, Set.mem_ofPred_eq] at hxs
          exact hxs.1 0)] at h
      have key : ∀ x ∈ S, (((Fintype.piFinset fun _ : Fin (k + 1) => S).filter fun xs =>
          A (List.ofFn xs)).filter fun xs => xs 0 = x).card ≤
          (if x ∈ B then S.card ^ k else 0) + m * k * S.card ^ (k - 1) := by
        intro x hx
        have hle : (((Fintype.piFinset fun _ : Fin (k + 1) => S).filter fun xs =>
            A (List.ofFn xs)).filter fun xs => xs 0 = x).card ≤ N x := by
          apply Finset.card_le_card_of_injOn (fun xs => fun i : Fin k => xs i.succ)
          · intro xs hxs
            simp only [Finset.coe_filter, Finset.mem_filter, Fintype.mem_piFinset,
              Set.mem_ofPred_eq] at hxs ⊢
            obtain ⟨⟨hm, hA⟩, h0⟩ := hxs
            refine ⟨fun i => hm i.succ, ?_⟩
            rw [List.ofFn_succ, h0] at hA
            exact hA
          · intro xs hxs ys hys hxy
            simp only [Finset.coe_filter, Finset.mem_filter, Set.mem_ofPred_eq] at hxs hys
            funext i
            refine Fin.cases ?_ (fun j => ?_) i
            · rw [hxs.2, hys.2]
            · exact congrFun hxy j
        refine hle.trans ?_
        split
        · refine (Finset.card_filter_le _ _).trans ?_
          rw [Fintype.card_piFinset_const]
          exact Nat.le_add_right _ _
        · rename_i hx'
          rw [zero_add]
          by_contra hcon
          exact hx' (Finset.mem_filter.mpr ⟨hx, not_le.mp hcon⟩)
      have h := lt_of_lt_of_le h (Finset.sum_le_sum key)
      rw [Finset.sum_add_distrib, ← Finset.sum_filter, Finset.sum_const,
        Finset.sum_const, smul_eq_mul, smul_eq_mul, Nat.add_sub_cancel] at h
      have e1 : S.card * (m * k * S.card ^ (k - 1)) = m * k * S.card ^ k := by
        cases k with
        | zero => simp
        | succ n => rw [Nat.add_sub_cancel, pow_succ]; ring
      have e2 : (S.filter fun x => x ∈ B) = B := by
        ext x
        simp only [Finset.mem_filter, B]
        tauto
      rw [e1, e2] at h
      have : B.card * S.card ^ k ≤ m * S.card ^ k := Nat.mul_le_mul_right _ (by omega)
      have e3 : m * (k + 1) * S.card ^ k = m * S.card ^ k + m * k * S.card ^ k := by ring
      omega

end Ripp.Extract
