import Mathlib.Data.Fintype.BigOperators
import Mathlib.Data.Fintype.Pi
import Mathlib.Algebra.BigOperators.Fin
import Mathlib.Algebra.BigOperators.Ring.Finset
import Mathlib.Algebra.Order.BigOperators.Group.Finset
import Mathlib.Algebra.Order.Field.Basic
import Mathlib.Algebra.BigOperators.Field
import Mathlib.Data.Rat.Cast.Order
import Mathlib.Logic.Equiv.Fin.Basic
import Mathlib.Tactic.Ring
import Mathlib.Tactic.Linarith
import Mathlib.Tactic.FieldSimp
import Mathlib.Tactic.Positivity

/-!
# Shares of finite types

The share of the elements of a finite type that satisfy a predicate, that is its probability under the
uniform distribution.
-/

namespace Ripp

open Classical in
/-- The number of elements with `p` divided by the number of elements. -/
noncomputable def share {α : Type} [Fintype α] (p : α → Prop) : ℚ :=
  (Finset.univ.filter p).card / Fintype.card α

variable {α : Type} [Fintype α]

theorem share_eq (p : α → Prop) [DecidablePred p] :
    share p = ((Finset.univ.filter p).card : ℚ) / Fintype.card α := by
  unfold share; congr!

theorem share_nonneg (p : α → Prop) : 0 ≤ share p := by
  unfold share; positivity

theorem share_mono {p q : α → Prop} (h : ∀ x, p x → q x) : share p ≤ share q := by
  classical
  unfold share
  apply div_le_div_of_nonneg_right _ (by positivity)
  exact_mod_cast Finset.card_le_card (Finset.monotone_filter_right _ fun x _ => h x)

theorem share_or (p q : α → Prop) : share (fun x => p x ∨ q x) ≤ share p + share q := by
  classical
  rw [share_eq, share_eq, share_eq, ← add_div]
  apply div_le_div_of_nonneg_right _ (by positivity)
  rw [Finset.filter_or]
  exact_mod_cast Finset.card_union_le _ _

theorem share_exists {ι : Type} [Fintype ι] (p : ι → α → Prop) :
    share (fun x => ∃ i, p i x) ≤ ∑ i, share (p i) := by
  classical
  simp only [share_eq]
  rw [← Finset.sum_div]
  apply div_le_div_of_nonneg_right _ (by positivity)
  have : (Finset.univ.filter fun x => ∃ i, p i x) ⊆
      Finset.univ.biUnion fun i => Finset.univ.filter (p i) := by
    intro x hx
    obtain ⟨i, hi⟩ := (Finset.mem_filter.mp hx).2
    exact Finset.mem_biUnion.mpr ⟨i, Finset.mem_univ _, Finset.mem_filter.mpr ⟨Finset.mem_univ _, hi⟩⟩
  exact_mod_cast (Finset.card_le_card this).trans Finset.card_biUnion_le

/-- A predicate on one value of a function. -/
theorem share_apply {X D : Type} [Fintype X] [DecidableEq X] [Fintype D] (x : X) (p : D → Prop) :
    share (fun H : X → D => p (H x)) = share p := by
  classical
  have h1 : (Finset.univ.filter fun H : X → D => p (H x)) =
      Fintype.piFinset (Function.update (fun _ => (Finset.univ : Finset D)) x (Finset.univ.filter p)) := by
    ext H
    simp only [Finset.mem_filter, Finset.mem_univ, true_and, Fintype.mem_piFinset]
    constructor
    · intro h y
      by_cases hy : y = x
      · subst hy; simpa using h
      · simp [Function.update_of_ne hy]
    · intro h
      simpa using h x
  have h2 : (Finset.univ.filter fun H : X → D => p (H x)).card =
      (Finset.univ.filter p).card * Fintype.card D ^ (Fintype.card X - 1) := by
    rw [h1, Fintype.card_piFinset, ← Finset.mul_prod_erase _ _ (Finset.mem_univ x)]
    congr 1
    · simp
    · rw [Finset.prod_congr rfl (g := fun _ => Fintype.card D)]
      · rw [Finset.prod_const, Finset.card_erase_of_mem (Finset.mem_univ x), Finset.card_univ]
      · intro y hy
        rw [Function.update_of_ne (Finset.ne_of_mem_erase hy), Finset.card_univ]
  obtain ⟨m, hm⟩ : ∃ m, Fintype.card X = m + 1 :=
    ⟨Fintype.card X - 1, by have := Fintype.card_pos_iff.mpr ⟨x⟩; omega⟩
  rw [share_eq, share_eq, h2, Fintype.card_fun, hm, pow_succ, Nat.add_sub_cancel]
  rcases Nat.eq_zero_or_pos (Fintype.card D) with h0 | h0
  · simp [h0]
  · have : (Fintype.card D : ℚ) ≠ 0 := by exact_mod_cast h0.ne'
    push_cast
    field_simp

/-- All values lie in a given set. -/
theorem share_all {D : Type} [Fintype D] (N : ℕ) (p : D → Prop) :
    share (fun f : Fin N → D => ∀ i, p (f i)) = share p ^ N := by
  classical
  have : (Finset.univ.filter fun f : Fin N → D => ∀ i, p (f i)) =
      Fintype.piFinset fun _ => Finset.univ.filter p := by
    ext f; simp [Fintype.mem_piFinset]
  rw [share_eq, share_eq, this, Fintype.card_piFinset, Fintype.card_fun, div_pow]
  simp

/-- The first value outside of `u` has property `p`. -/
theorem share_first {D : Type} [Fintype D] (u p : D → Prop) (hu : share u < 1) : ∀ N : ℕ,
    share (fun f : Fin N → D => ∃ i, p (f i) ∧ ∀ j < i, u (f j)) ≤ share p / (1 - share u)
  | 0 => by
    have : share (fun f : Fin 0 → D => ∃ i, p (f i) ∧ ∀ j < i, u (f j)) = 0 := by
      unfold share; simp
    rw [this]
    exact div_nonneg (share_nonneg _) (by linarith)
  | N + 1 => by
    classical
    have ih := share_first u p hu N
    have hpos : 0 < 1 - share u := by linarith
    set e := Fin.consEquiv (fun _ : Fin (N + 1) => D) with he
    have hc : ((Finset.univ.filter fun f : Fin (N + 1) → D =>
        ∃ i, p (f i) ∧ ∀ j < i, u (f j)).card : ℚ) ≤
        (Finset.univ.filter p).card * Fintype.card (Fin N → D) +
        (Finset.univ.filter u).card * (Finset.univ.filter fun f : Fin N → D =>
          ∃ i, p (f i) ∧ ∀ j < i, u (f j)).card := by
      have hsub : (Finset.univ.filter fun f : Fin (N + 1) → D =>
          ∃ i, p (f i) ∧ ∀ j < i, u (f j)) ⊆
          (((Finset.univ.filter p) ×ˢ (Finset.univ : Finset (Fin N → D))).map e.toEmbedding) ∪
          (((Finset.univ.filter u) ×ˢ (Finset.univ.filter fun f : Fin N → D =>
            ∃ i, p (f i) ∧ ∀ j < i, u (f j))).map e.toEmbedding) := by
        intro f hf
        obtain ⟨i, hi, hj⟩ := (Finset.mem_filter.mp hf).2
        have hef : e (f 0, fun i => f i.succ) = f := by
          simp only [he, Fin.consEquiv, Equiv.coe_fn_mk]
          exact Fin.cons_self_tail f
        rw [Finset.mem_union]
        rcases Fin.eq_zero_or_eq_succ i with rfl | ⟨i, rfl⟩
        · left
          exact Finset.mem_map.mpr ⟨(f 0, fun i => f i.succ), by simpa using hi, hef⟩
        · right
          refine Finset.mem_map.mpr ⟨(f 0, fun i => f i.succ), ?_, hef⟩
          simp only [Finset.mem_product, Finset.mem_filter, Finset.mem_univ, true_and]
          exact ⟨hj 0 (Fin.succ_pos i), i, hi, fun j h => hj j.succ (Fin.succ_lt_succ_iff.mpr h)⟩
      have := (Finset.card_le_card hsub).trans (Finset.card_union_le _ _)
      rw [Finset.card_map, Finset.card_map, Finset.card_product, Finset.card_product,
        Finset.card_univ] at this
      exact_mod_cast this
    rcases Nat.eq_zero_or_pos (Fintype.card D) with h0 | h0
    · have : share (fun f : Fin (N + 1) → D => ∃ i, p (f i) ∧ ∀ j < i, u (f j)) = 0 := by
        unfold share; simp [h0]
      rw [this]
      exact div_nonneg (share_nonneg _) hpos.le
    have hD : (0 : ℚ) < Fintype.card D := by exact_mod_cast h0
    have hDN : (0 : ℚ) < Fintype.card D ^ N := by positivity
    have hstep : share (fun f : Fin (N + 1) → D => ∃ i, p (f i) ∧ ∀ j < i, u (f j)) ≤
        share p + share u * share (fun f : Fin N → D => ∃ i, p (f i) ∧ ∀ j < i, u (f j)) := by
      rw [Fintype.card_fun, Fintype.card_fin] at hc
      rw [share_eq, share_eq, share_eq, share_eq, Fintype.card_fun, Fintype.card_fun, Fintype.card_fin,
        Fintype.card_fin]
      rw [div_le_iff₀ (by positivity)]
      refine hc.trans (le_of_eq ?_)
      push_cast
      field_simp
      ring
    rw [le_div_iff₀ hpos] at ih ⊢
    have hu0 := share_nonneg u
    calc _ ≤ (share p + share u * share (fun f : Fin N → D =>
          ∃ i, p (f i) ∧ ∀ j < i, u (f j))) * (1 - share u) := by
          exact mul_le_mul_of_nonneg_right hstep hpos.le
      _ = share p * (1 - share u) + share u * (share (fun f : Fin N → D =>
          ∃ i, p (f i) ∧ ∀ j < i, u (f j)) * (1 - share u)) := by ring
      _ ≤ share p * (1 - share u) + share u * share p := by
          have := mul_le_mul_of_nonneg_left ih hu0
          linarith
      _ = share p := by ring

end Ripp
