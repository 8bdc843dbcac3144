import Mathlib.Algebra.Polynomial.Bivariate
import Verif.Props.PolyBinding
import Verif.Props.TipaStatic

/-!
# C118: the structured commitment keys are binding for algebraic adversaries

The keys of TIPA are not independent random elements: the left key consists of the even powers of `β` in `G2`, the right
key of the even powers of `α` in `G1`, and the reference string also contains the odd powers and one element for the
other trapdoor. Messages are combinations of the reference string with known coefficients. Two different families of
coefficients that give the same commitment give a non-zero polynomial in two variables, of degree less than `2n - 1` and
`2n`, with the trapdoors as a zero. With consecutive powers in the place of the even ones this fails.
-/

set_option linter.unusedSectionVars false
set_option linter.unusedVariables false

namespace Ripp.KeyBinding

open Spec Polynomial
open TipaStatic (Comb poly left right left_eq right_eq natDegree_poly)

/-! ## Zeros of polynomials in two variables -/

section Zeros
variable {F : Type} [Field F] [DecidableEq F]

/-- A non-zero polynomial of degree at most `a` in the first and `b` in the second variable has few zeros. -/
theorem card_zeros_le (p : F[X][X]) (hp : p ≠ 0) (a b : ℕ) (ha : ∀ i, (p.coeff i).natDegree ≤ a)
    (hb : p.natDegree ≤ b) (S : Finset F) :
    ((S ×ˢ S).filter fun s => p.evalEval s.1 s.2 = 0).card ≤ (a + b) * S.card := by
  obtain ⟨i, hi⟩ : ∃ i, p.coeff i ≠ 0 := by
    by_contra h
    push Not at h
    exact hp (Polynomial.ext fun i => by rw [h i, coeff_zero])
  have hsub : ((S ×ˢ S).filter fun s => p.evalEval s.1 s.2 = 0) ⊆
      ((S.filter fun x => (p.coeff i).eval x = (0 : F[X]).eval x) ×ˢ S) ∪
      (S.filter fun x => (p.coeff i).eval x ≠ 0).biUnion fun x =>
        (S.filter fun y => (p.map (evalRingHom x)).eval y = (0 : F[X]).eval y).image fun y => (x, y) := by
    rintro ⟨x, y⟩ hs
    obtain ⟨h1, h2⟩ := Finset.mem_filter.mp hs
    obtain ⟨hx, hy⟩ := Finset.mem_product.mp h1
    by_cases h0 : (p.coeff i).eval x = 0
    · exact Finset.mem_union_left _ (Finset.mem_product.mpr ⟨Finset.mem_filter.mpr ⟨hx, by simpa using h0⟩, hy⟩)
    · refine Finset.mem_union_right _ (Finset.mem_biUnion.mpr ⟨x, Finset.mem_filter.mpr ⟨hx, h0⟩,
        Finset.mem_image.mpr ⟨y, Finset.mem_filter.mpr ⟨hy, ?_⟩, rfl⟩⟩)
      have h2 : eval x (eval (C y) p) = 0 := h2
      rw [eval_zero, ← h2, eval_map, eval₂_eq_sum_range, eval_eq_sum_range (p := p), eval_finsetSum]
      simp
  refine (Finset.card_le_card hsub).trans ((Finset.card_union_le _ _).trans ?_)
  rw [Finset.card_product, add_mul]
  refine Nat.add_le_add (Nat.mul_le_mul_right _ (card_agree_le _ 0 hi a (ha i) (by simp) S)) ?_
  refine (Finset.card_biUnion_le_card_mul _ _ b fun x hx => ?_).trans ?_
  · refine Finset.card_image_le.trans (card_agree_le _ 0 ?_ b (natDegree_map_le.trans hb) (by simp) S)
    intro h
    have := congrArg (coeff · i) h
    simp only [coeff_map, coe_evalRingHom, coeff_zero] at this
    exact (Finset.mem_filter.mp hx).2 this
  · rw [mul_comm]
    exact Nat.mul_le_mul_left _ (Finset.card_filter_le _ _)

end Zeros

variable {ρ F G G1 G2 GT TF : Type} [Field F] [DecidableEq F]
  [AddCommGroup G1] [Module F G1] [AddCommGroup G2] [Module F G2] [AddCommGroup GT] [Module F GT] [Monoid TF]
  {E : Engine G1 G2 GT TF} {e : G1 →ₗ[F] G2 →ₗ[F] GT} {n : ℕ}

/-- The polynomial of a message with coefficients `q`: the powers of the first trapdoor in the message become powers of
the first variable, the other trapdoor and the key become powers of the second. -/
noncomputable def relation (q : Fin n → Comb n F) : F[X][X] :=
  ∑ i : Fin n, (C (poly (q i)) * X ^ (2 * (i : ℕ)) + C (C (q i).2) * X ^ (2 * (i : ℕ) + 1))

theorem coeff_even (q : Fin n → Comb n F) (i : Fin n) : (relation q).coeff (2 * i) = poly (q i) := by
  rw [relation, finsetSum_coeff, Finset.sum_eq_single i]
  · simp [coeff_X_pow]
  · intro j _ hj
    have h1 : ¬ 2 * (i : ℕ) = 2 * j := fun h => hj (Fin.ext (by omega))
    have h2 : ¬ 2 * (i : ℕ) = 2 * j + 1 := by omega
    simp [coeff_X_pow, h1, h2]
  · simp

theorem coeff_odd (q : Fin n → Comb n F) (i : Fin n) : (relation q).coeff (2 * i + 1) = C (q i).2 := by
  rw [relation, finsetSum_coeff, Finset.sum_eq_single i]
  · simp [coeff_X_pow]
  · intro j _ hj
    have h1 : ¬ 2 * (i : ℕ) + 1 = 2 * j := by omega
    have h2 : ¬ (i : ℕ) = j := fun h => hj (Fin.ext h.symm)
    simp [coeff_X_pow, h1, h2]
  · simp

theorem natDegree_relation (q : Fin n → Comb n F) : (relation q).natDegree ≤ 2 * n - 1 := by
  refine natDegree_sum_le_of_forall_le _ _ fun i _ => ?_
  have := i.2
  refine (natDegree_add_le _ _).trans (max_le ?_ ?_)
  · exact (natDegree_C_mul_X_pow_le _ _).trans (by omega)
  · exact (natDegree_C_mul_X_pow_le _ _).trans (by omega)

theorem coeff_natDegree (hn : 1 ≤ n) (q : Fin n → Comb n F) (j : ℕ) :
    ((relation q).coeff j).natDegree ≤ 2 * n - 2 := by
  by_cases hj : j < 2 * n
  · obtain ⟨i, rfl | rfl⟩ : ∃ i : Fin n, j = 2 * i ∨ j = 2 * i + 1 :=
      ⟨⟨j / 2, by omega⟩, by have := Nat.div_add_mod j 2; have := Nat.mod_lt j (show 2 > 0 by norm_num); simp only; omega⟩
    · rw [coeff_even]; exact natDegree_poly hn _
    · rw [coeff_odd, natDegree_C]; exact Nat.zero_le _
  · rw [coeff_eq_zero_of_natDegree_lt ((natDegree_relation q).trans_lt (by omega)), natDegree_zero]
    exact Nat.zero_le _

theorem poly_injective (a b : Comb n F) (h : poly a = poly b) : a.1 = b.1 := injective_ofFn _ h

theorem relation_injective (q q' : Fin n → Comb n F) (h : relation q = relation q') : q = q' := by
  funext i
  refine Prod.ext (poly_injective _ _ ?_) ?_
  · rw [← coeff_even, h, coeff_even]
  · have := congrArg (coeff · (2 * (i : ℕ) + 1)) h
    simp only [coeff_odd] at this
    exact C_injective this

theorem eval_relation (q : Fin n → Comb n F) (x y : F) :
    (relation q).evalEval x y = ∑ i : Fin n, ((poly (q i)).eval x + (q i).2 * y) * y ^ (2 * (i : ℕ)) := by
  rw [relation, evalEval_finsetSum]
  refine Finset.sum_congr rfl fun i _ => ?_
  simp only [evalEval, eval_add, eval_mul, eval_C, eval_pow, eval_X]
  ring

/-- The commitment to a message in `G1` under the left key. -/
theorem commit_left (hE : E.Lawful e) (X : Exec) (rand : ρ → G2 × ρ) (hn : 1 ≤ n) {srs : SRS G1 G2} {g : G1} {h : G2}
    {α β : F} (hsrs : IsSrs srs g h α β n) (q : Fin n → Comb n F) :
    (afghoG1 E X rand).commit srs.commitmentKeys.1 (List.ofFn fun i => right srs (q i)) =
      .ok ((relation q).evalEval α β • e g h) := by
  obtain ⟨e1, -, -⟩ := C25_keys srs g h α β _ hn hsrs
  have e1' : srs.commitmentKeys.1 = List.ofFn fun i : Fin n => β ^ (2 * (i : ℕ)) • h := by
    rw [e1]
    exact List.ext_getElem (by simp) (by intros; simp)
  change pairingIP E X _ _ = _
  rw [pairingIP_eq hE _ _ _ (by rw [e1']; simp), e1', GipaStatic.dot_ofFn e, eval_relation, Finset.sum_smul]
  congr 1
  refine Finset.sum_congr rfl fun i _ => ?_
  rw [right_eq hsrs]
  simp only [map_add, map_smul, LinearMap.add_apply, LinearMap.smul_apply]
  module

/-- The commitment to a message in `G2` under the right key. -/
theorem commit_right (hE : E.Lawful e) (X : Exec) (rand : ρ → G1 × ρ) (hn : 1 ≤ n) {srs : SRS G1 G2} {g : G1} {h : G2}
    {α β : F} (hsrs : IsSrs srs g h α β n) (q : Fin n → Comb n F) :
    (afghoG2 E X rand).commit srs.commitmentKeys.2 (List.ofFn fun i => left srs (q i)) =
      .ok ((relation q).evalEval β α • e g h) := by
  obtain ⟨-, e1, -⟩ := C25_keys srs g h α β _ hn hsrs
  have e1' : srs.commitmentKeys.2 = List.ofFn fun i : Fin n => α ^ (2 * (i : ℕ)) • g := by
    rw [e1]
    exact List.ext_getElem (by simp) (by intros; simp)
  change pairingIP E X _ _ = _
  rw [pairingIP_eq hE _ _ _ (by rw [e1']; simp), e1', GipaStatic.dot_ofFn e, eval_relation, Finset.sum_smul]
  congr 1
  refine Finset.sum_congr rfl fun i _ => ?_
  rw [left_eq hsrs]
  simp only [map_add, map_smul, LinearMap.smul_apply]
  module

/-- C118: messages in `G1` with coefficients `q`, `q'` have the same commitment under the left key exactly if the
trapdoors are a zero of `relation q - relation q'`, and that polynomial is zero only if `q = q'`. -/
theorem C118_left (hE : E.Lawful e) (X : Exec) (rand : ρ → G2 × ρ) (hn : 1 ≤ n) (srs : SRS G1 G2) (g : G1) (h : G2)
    (α β : F) (hsrs : IsSrs srs g h α β n) (hh : h ≠ 0) (hg : ∀ y, e g y = 0 → y = 0) (q q' : Fin n → Comb n F) :
    ((afghoG1 E X rand).commit srs.commitmentKeys.1 (List.ofFn fun i => right srs (q i)) =
        (afghoG1 E X rand).commit srs.commitmentKeys.1 (List.ofFn fun i => right srs (q' i)) ↔
      (relation q - relation q').evalEval α β = 0) ∧ (relation q - relation q' = 0 → q = q') := by
  refine ⟨?_, fun h => relation_injective _ _ (sub_eq_zero.mp h)⟩
  rw [commit_left hE X rand hn hsrs, commit_left hE X rand hn hsrs, Except.ok.injEq, evalEval_sub, ← sub_eq_zero,
    ← sub_smul, smul_eq_zero, or_iff_left fun h0 => hh (hg _ h0)]

/-- C118: messages in `G2` under the right key. -/
theorem C118_right (hE : E.Lawful e) (X : Exec) (rand : ρ → G1 × ρ) (hn : 1 ≤ n) (srs : SRS G1 G2) (g : G1) (h : G2)
    (α β : F) (hsrs : IsSrs srs g h α β n) (hh : h ≠ 0) (hg : ∀ y, e g y = 0 → y = 0) (q q' : Fin n → Comb n F) :
    ((afghoG2 E X rand).commit srs.commitmentKeys.2 (List.ofFn fun i => left srs (q i)) =
        (afghoG2 E X rand).commit srs.commitmentKeys.2 (List.ofFn fun i => left srs (q' i)) ↔
      (relation q - relation q').evalEval β α = 0) ∧ (relation q - relation q' = 0 → q = q') := by
  refine ⟨?_, fun h => relation_injective _ _ (sub_eq_zero.mp h)⟩
  rw [commit_right hE X rand hn hsrs, commit_right hE X rand hn hsrs, Except.ok.injEq, evalEval_sub, ← sub_eq_zero,
    ← sub_smul, smul_eq_zero, or_iff_left fun h0 => hh (hg _ h0)]

theorem card_relation (hn : 1 ≤ n) (q q' : Fin n → Comb n F) (hq : q ≠ q') (S : Finset F) :
    ((S ×ˢ S).filter fun s => (relation q - relation q').evalEval s.1 s.2 = 0).card ≤ (4 * n - 3) * S.card := by
  refine (card_zeros_le _ (fun h0 => hq (relation_injective _ _ (sub_eq_zero.mp h0))) (2 * n - 2) (2 * n - 1)
    (fun i => ?_) ?_ S).trans_eq ?_
  · rw [coeff_sub]
    exact (natDegree_sub_le _ _).trans (max_le (coeff_natDegree hn _ _) (coeff_natDegree hn _ _))
  · exact (natDegree_sub_le _ _).trans (max_le (natDegree_relation _) (natDegree_relation _))
  · congr 1
    omega

/-- C118: fixed different coefficients give the same commitment for at most `(4n - 3) |S|` of the `|S|²` pairs of
trapdoors from `S`, under either key. -/
theorem C118_trapdoors (hE : E.Lawful e) (X : Exec) (rand : ρ → G2 × ρ) (rand' : ρ → G1 × ρ) (hn : 1 ≤ n)
    (g : G1) (h : G2) (srs : F → F → SRS G1 G2) (hsrs : ∀ α β, IsSrs (srs α β) g h α β n)
    (hh : h ≠ 0) (hg : ∀ y, e g y = 0 → y = 0) (q q' : Fin n → Comb n F) (hq : q ≠ q') (S : Finset F)
    (W : Finset (F × F)) (hWS : W ⊆ S ×ˢ S) :
    ((∀ s ∈ W,
      (afghoG1 E X rand).commit (srs s.1 s.2).commitmentKeys.1 (List.ofFn fun i => right (srs s.1 s.2) (q i)) =
        (afghoG1 E X rand).commit (srs s.1 s.2).commitmentKeys.1 (List.ofFn fun i => right (srs s.1 s.2) (q' i))) →
      W.card ≤ (4 * n - 3) * S.card) ∧
    ((∀ s ∈ W,
      (afghoG2 E X rand').commit (srs s.1 s.2).commitmentKeys.2 (List.ofFn fun i => left (srs s.1 s.2) (q i)) =
        (afghoG2 E X rand').commit (srs s.1 s.2).commitmentKeys.2 (List.ofFn fun i => left (srs s.1 s.2) (q' i))) →
      W.card ≤ (4 * n - 3) * S.card) := by
  constructor
  · intro hW
    exact le_trans (Finset.card_le_card fun s hs => Finset.mem_filter.mpr ⟨hWS hs,
      (C118_left hE X rand hn _ g h _ _ (hsrs _ _) hh hg q q').1.mp (hW s hs)⟩) (card_relation hn q q' hq S)
  · intro hW
    refine le_trans ?_ (card_relation hn q q' hq S)
    refine Finset.card_le_card_of_injOn (fun s => (s.2, s.1)) (fun s hs => ?_) fun s _ s' _ h => ?_
    · obtain ⟨h3, h4⟩ := Finset.mem_product.mp (hWS hs)
      exact Finset.mem_filter.mpr ⟨Finset.mem_product.mpr ⟨h4, h3⟩,
        (C118_right hE X rand' hn _ g h _ _ (hsrs _ _) hh hg q q').1.mp (hW s hs)⟩
    · simp only [Prod.mk.injEq] at h
      exact Prod.ext h.2 h.1

/-- The polynomial of a message of scalars under the right key. -/
noncomputable def evenPoly (m : Fin n → F) : F[X] := ∑ i : Fin n, C (m i) * X ^ (2 * (i : ℕ))

theorem coeff_evenPoly (m : Fin n → F) (i : Fin n) : (evenPoly m).coeff (2 * i) = m i := by
  rw [evenPoly, finsetSum_coeff, Finset.sum_eq_single i]
  · simp [coeff_X_pow]
  · intro j _ hj
    have h1 : ¬ (i : ℕ) = j := fun h => hj (Fin.ext h.symm)
    simp [coeff_X_pow, h1]
  · simp

/-- C118: scalars under the right key (Pedersen commitments): the same with a polynomial in one variable, and at most
`2n - 2` trapdoors. -/
theorem C118_scalars (rand : ρ → G1 × ρ) (hn : 1 ≤ n) (g : G1) (h : G2) (srs : F → F → SRS G1 G2)
    (hsrs : ∀ α β, IsSrs (srs α β) g h α β n) (hg : g ≠ 0) (m m' : Fin n → F) (hm : m ≠ m') (β : F)
    (W : Finset F) :
    (∀ α, (pedersen (F := F) rand).commit (srs α β).commitmentKeys.2 (List.ofFn m) =
        (pedersen rand).commit (srs α β).commitmentKeys.2 (List.ofFn m') ↔
      (evenPoly m - evenPoly m').eval α = 0) ∧ evenPoly m - evenPoly m' ≠ 0 ∧
    ((∀ α ∈ W, (pedersen (F := F) rand).commit (srs α β).commitmentKeys.2 (List.ofFn m) =
        (pedersen rand).commit (srs α β).commitmentKeys.2 (List.ofFn m')) → W.card ≤ 2 * n - 2) := by
  have key : ∀ α (m : Fin n → F), (pedersen rand).commit (srs α β).commitmentKeys.2 (List.ofFn m) =
      .ok ((evenPoly m).eval α • g) := by
    intro α m
    obtain ⟨-, e1, -⟩ := C25_keys (srs α β) g h α β _ hn (hsrs α β)
    have e1' : (srs α β).commitmentKeys.2 = List.ofFn fun i : Fin n => α ^ (2 * (i : ℕ)) • g := by
      rw [e1]
      exact List.ext_getElem (by simp) (by intros; simp)
    change multiexpIP _ _ = _
    rw [multiexpIP_eq _ _ (by rw [e1']; simp), e1', TBivariate.dot_ofFn, evenPoly, eval_finsetSum, Finset.sum_smul]
    congr 1
    refine Finset.sum_congr rfl fun i _ => ?_
    simp only [eval_mul, eval_C, eval_pow, eval_X]
    module
  have hne : evenPoly m ≠ evenPoly m' := fun h0 => hm (funext fun i => by
    rw [← coeff_evenPoly m, h0, coeff_evenPoly])
  have hiff : ∀ α, (pedersen (F := F) rand).commit (srs α β).commitmentKeys.2 (List.ofFn m) =
      (pedersen rand).commit (srs α β).commitmentKeys.2 (List.ofFn m') ↔
      (evenPoly m - evenPoly m').eval α = 0 := by
    intro α
    rw [key, key, Except.ok.injEq, eval_sub, ← sub_eq_zero, ← sub_smul, smul_eq_zero, or_iff_left hg]
  have hdeg : ∀ m : Fin n → F, (evenPoly m).natDegree ≤ 2 * n - 2 := fun m =>
    natDegree_sum_le_of_forall_le _ _ fun i _ => (natDegree_C_mul_X_pow_le _ _).trans (by have := i.2; omega)
  refine ⟨hiff, sub_ne_zero.mpr hne, fun hW => le_trans (Finset.card_le_card fun α hα => ?_)
    (card_agree_le _ _ hne _ (hdeg m) (hdeg m') W)⟩
  have := (hiff α).mp (hW α hα)
  rw [eval_sub, sub_eq_zero] at this
  exact Finset.mem_filter.mpr ⟨hα, this⟩

/-- C118: the even powers are needed. If a key contains `h` and `β h`, the message `(β g, -g, 0, …)`, made from the
public elements of the reference string, has the same commitment as zero. -/
theorem C118_consecutive_powers (hE : E.Lawful e) (X : Exec) (rand : ρ → G2 × ρ) (g : G1) (h : G2) (β : F)
    (ks : List G2) :
    (afghoG1 E X rand).commit (h :: β • h :: ks) (β • g :: -g :: ks.map fun _ => 0) =
      (afghoG1 E X rand).commit (h :: β • h :: ks) (0 :: 0 :: ks.map fun _ => 0) := by
  change pairingIP E X _ _ = pairingIP E X _ _
  rw [pairingIP_eq hE _ _ _ (by simp), pairingIP_eq hE _ _ _ (by simp)]
  simp

section Example
open Toy hiding X

/-- The reference string for two elements with the trapdoors `α`, `β`. -/
def toySrs (α β : Toy.F) : SRS Toy.F Toy.F := ⟨[1, α, α ^ 2], [1, β, β ^ 2], β, α⟩

theorem toySrs_isSrs (α β : Toy.F) : IsSrs (toySrs α β) (1 : Toy.F) (1 : Toy.F) α β 2 :=
  ⟨by simp [toySrs, List.range_succ], by simp [toySrs, List.range_succ], by simp [toySrs], by simp [toySrs]⟩

/-- The coefficients of the messages `(25, 0)` and `(0, 1)`. -/
def first : Fin 2 → Comb 2 Toy.F := ![(![25, 0, 0], 0), 0]
def second : Fin 2 → Comb 2 Toy.F := ![0, (![1, 0, 0], 0)]

theorem first_ne : first ≠ second := fun h => by
  have := congrFun (congrArg Prod.fst (congrFun h 0)) 0
  revert this
  decide

/-- For `β = 5` the two messages have the same commitment: the polynomial is `25 - Y²`. -/
example : (afghoG1 Toy.E Toy.X Toy.rand).commit (toySrs 3 5).commitmentKeys.1
      (List.ofFn fun i => right (toySrs 3 5) (first i)) =
    (afghoG1 Toy.E Toy.X Toy.rand).commit (toySrs 3 5).commitmentKeys.1
      (List.ofFn fun i => right (toySrs 3 5) (second i)) ∧
    (relation first - relation second).evalEval (3 : Toy.F) 5 = 0 ∧
    (relation first - relation second).evalEval (3 : Toy.F) 7 ≠ 0 := by
  have h : ∀ x y, (relation first - relation second).evalEval x y = 25 - y ^ 2 := by
    intro x y
    rw [evalEval_sub, eval_relation, eval_relation]
    simp [first, second, TipaStatic.eval_poly, Fin.sum_univ_three]
  have h1 : (relation first - relation second).evalEval (3 : Toy.F) 5 = 0 := by rw [h]; decide
  exact ⟨((C118_left Toy.lawful Toy.X Toy.rand (by norm_num) _ 1 1 3 5 (toySrs_isSrs 3 5) (by decide)
    (fun y h => by simpa using h) _ _).1).mpr h1, h1, by rw [h]; decide⟩

/-- They have the same commitment for at most 505 of the 10201 pairs of trapdoors. -/
example (W : Finset (Toy.F × Toy.F)) (hW : ∀ s ∈ W,
      (afghoG1 Toy.E Toy.X Toy.rand).commit (toySrs s.1 s.2).commitmentKeys.1
          (List.ofFn fun i => right (toySrs s.1 s.2) (first i)) =
        (afghoG1 Toy.E Toy.X Toy.rand).commit (toySrs s.1 s.2).commitmentKeys.1
          (List.ofFn fun i => right (toySrs s.1 s.2) (second i))) : W.card ≤ 505 := by
  have h := (C118_trapdoors Toy.lawful Toy.X Toy.rand Toy.rand (by norm_num) 1 1 toySrs toySrs_isSrs
    (one_ne_zero : (1 : Toy.F) ≠ 0) (fun y h => by simpa using h) first second first_ne Finset.univ W
      (by rw [Finset.univ_product_univ]; exact Finset.subset_univ W)).1 hW
  rw [Finset.card_univ, ZMod.card] at h
  omega

/-- With `h` and `5 h` in the key, the message `(5, -1)` is a collision with zero. -/
example : (afghoG1 Toy.E Toy.X Toy.rand).commit [(1 : Toy.F), 5] [(5 : Toy.F), -1] =
    (afghoG1 Toy.E Toy.X Toy.rand).commit [(1 : Toy.F), 5] [(0 : Toy.F), 0] :=
  C118_consecutive_powers Toy.lawful Toy.X Toy.rand (1 : Toy.F) (1 : Toy.F) (5 : Toy.F) []

/-- Scalars: `(1, 0)` and `(0, 1)` have the same commitment under `(1, α²)` for at most two `α`. -/
example : (evenPoly ![1, 0] - evenPoly ![0, 1] : Toy.F[X]).eval 3 ≠ 0 ∧
    ((pedersen (F := Toy.F) Toy.rand).commit (toySrs (-1) 5).commitmentKeys.2 (List.ofFn ![1, 0]) =
      (pedersen (F := Toy.F) Toy.rand).commit (toySrs (-1) 5).commitmentKeys.2 (List.ofFn ![0, 1])) := by
  have h : ∀ x : Toy.F, (evenPoly ![1, 0] - evenPoly ![0, 1] : Toy.F[X]).eval x = 1 - x ^ 2 := by
    intro x
    simp [evenPoly, Fin.sum_univ_two]
  refine ⟨by rw [h]; decide, ((C118_scalars Toy.rand (by norm_num) (1 : Toy.F) (1 : Toy.F) toySrs toySrs_isSrs
    (by decide) ![1, 0] ![0, 1] (by decide) 5 ∅).1 (-1)).mpr ?_⟩
  rw [h]
  decide

end Example

end Ripp.KeyBinding
