import Verif.Model.Tipa
import Verif.Model.Ssm
import Verif.Lemmas.FinalKeys

/-! # Powers, polynomials as coefficient lists, key polynomials -/

set_option linter.unusedSectionVars false
set_option linter.unusedVariables false

namespace Ripp

open Spec

section Powers
variable {F : Type} [Field F]

theorem powers_zero (s : F) : powers s 0 = [] := rfl

theorem powers_succ (s : F) (n : ℕ) : powers s (n + 1) = 1 :: (powers s n).map (s * ·) := by
  simp only [powers, List.range_succ_eq_map, List.map_cons, pow_zero, List.map_map]
  congr 1
  apply List.map_congr_left
  intro i _
  simp [pow_succ, mul_comm]

theorem powers_succ' (s : F) (n : ℕ) : powers s (n + 1) = powers s n ++ [s ^ n] := by
  simp [powers, List.range_succ]

@[simp] theorem length_powers (s : F) (n : ℕ) : (powers s n).length = n := by simp [powers]

theorem powersLoop_eq (s : F) : ∀ (n : ℕ) (p : F) (acc : List F),
    powersLoop s n p acc = acc ++ (powers s n).map (p * ·)
  | 0, p, acc => by simp [powersLoop, powers]
  | n + 1, p, acc => by
    rw [powersLoop, powersLoop_eq s n, powers_succ]
    simp [mul_assoc]

theorem structuredGenerators_eq {G : Type} [AddCommGroup G] [Module F G] (num : ℕ) (g : G) (s : F)
    (h : 0 < num) : structuredGenerators num g s = .ok ((powers s num).map (· • g)) := by
  simp [structuredGenerators, h, powersLoop_eq]

end Powers

section Poly
variable {F : Type} [Field F]

@[simp] theorem polyEval_nil (z : F) : polyEval ([] : List F) z = 0 := rfl
@[simp] theorem polyEval_cons (a : F) (p : List F) (z : F) :
    polyEval (a :: p) z = a + z * polyEval p z := rfl

theorem polyEval_append (p q : List F) (z : F) :
    polyEval (p ++ q) z = polyEval p z + z ^ p.length * polyEval q z := by
  induction p with
  | nil => simp
  | cons a p ih => simp [ih, pow_succ]; ring

theorem polyEval_map_mul (c : F) (p : List F) (z : F) :
    polyEval (p.map (· * c)) z = polyEval p z * c := by
  induction p with
  | nil => simp
  | cons a p ih => simp [ih]; ring

theorem polyEval_replicate_zero (n : ℕ) (z : F) : polyEval (List.replicate n 0) z = 0 := by
  induction n with
  | zero => rfl
  | succ n ih => simp [List.replicate_succ, ih]

theorem dot_powers (s t : F) : ∀ (n : ℕ) (p : List F), p.length ≤ n →
    dot (· * ·) p ((powers s n).map (t * ·)) = t * polyEval p s
  | n, [], _ => by simp
  | 0, a :: p, h => by simp at h
  | n + 1, a :: p, h => by
    rw [powers_succ]
    simp only [List.map_cons, List.map_map, dot_cons, mul_one, polyEval_cons]
    have := dot_powers s (t * s) n p (by simpa using h)
    have e : ((fun x => t * x) ∘ fun x => s * x) = (fun x => t * s * x) := by
      funext x; simp [mul_assoc]
    rw [e, this]; ring

theorem evalAt_eq (p : List F) (z : F) : evalAt p z = polyEval p z := by
  have := dot_powers z 1 p.length p le_rfl
  simpa [evalAt] using this

theorem dot_powers_module {G : Type} [AddCommGroup G] [Module F G] (g : G) (s t : F) :
    ∀ (n : ℕ) (p : List F), p.length ≤ n →
    dot (fun g c => c • g) ((powers s n).map fun x => (t * x) • g) p = (t * polyEval p s) • g
  | n, [], _ => by simp
  | 0, a :: p, h => by simp at h
  | n + 1, a :: p, h => by
    rw [powers_succ]
    simp only [List.map_cons, List.map_map, dot_cons, polyEval_cons]
    have := dot_powers_module g s (t * s) n p (by simpa using h)
    have e : ((fun x => (t * x) • g) ∘ fun x => s * x) = (fun x => (t * s * x) • g) := by
      funext x; simp [mul_assoc]
    rw [e, this, smul_smul, ← add_smul]
    congr 1; ring

/-- The inner product of powers of `s` times `g` with a coefficient list is the evaluation at `s`. -/
theorem dot_srs {G : Type} [AddCommGroup G] [Module F G] (g : G) (s : F) (n : ℕ) (p : List F)
    (h : p.length ≤ n) :
    dot (fun g c => c • g) ((powers s n).map (· • g)) p = polyEval p s • g := by
  have := dot_powers_module g s 1 n p h
  simpa using this

theorem synthDiv_spec (z s : F) : ∀ p : List F,
    (synthDiv z p).1 = polyEval p z ∧
    polyEval p s = polyEval p z + (s - z) * polyEval (synthDiv z p).2 s
  | [] => by simp [synthDiv]
  | a :: p => by
    obtain ⟨h1, h2⟩ := synthDiv_spec z s p
    simp only [synthDiv, polyEval_cons, h1, true_and]
    rw [h2]; ring

theorem length_synthDiv (z : F) : ∀ p : List F, (synthDiv z p).2.length = p.length
  | [] => rfl
  | a :: p => by simp [synthDiv, length_synthDiv z p]

variable [DecidableEq F]

@[simp] theorem polyEval_trim (p : List F) (z : F) : polyEval (trim p) z = polyEval p z := by
  induction p with
  | nil => rfl
  | cons a p ih =>
    rw [trim, polyEval_cons, ← ih]
    cases h : trim p with
    | nil =>
      by_cases ha : a = 0 <;> simp [ha]
    | cons b bs => simp

theorem length_trim_le : ∀ p : List F, (trim p).length ≤ p.length
  | [] => le_rfl
  | a :: p => by
    have ih := length_trim_le p
    rw [trim]
    cases h : trim p with
    | nil => by_cases ha : a = 0 <;> simp [ha]
    | cons b bs => simp only [h, List.length_cons] at ih ⊢; omega

theorem trim_of_last : ∀ (p : List F) (x : F), p.getLast? = some x → x ≠ 0 → trim p = p
  | [], x, h, _ => by simp at h
  | [a], x, h, hx => by
    simp only [List.getLast?_singleton, Option.some.injEq] at h
    subst h; simp [trim, hx]
  | a :: b :: p, x, h, hx => by
    rw [trim, trim_of_last (b :: p) x (by simpa using h) hx]

@[simp] theorem polyEval_polyOf (p : List F) (z : F) : polyEval (polyOf p) z = polyEval p z :=
  polyEval_trim p z

theorem polyEval_sub_aux (z : F) : ∀ (n : ℕ) (p q : List F), p.length ≤ n → q.length ≤ n →
    polyEval ((List.range n).map fun i => p.getD i 0 - q.getD i 0) z = polyEval p z - polyEval q z
  | 0, p, q, hp, hq => by
    have hp : p = [] := List.length_eq_zero_iff.mp (by omega)
    have hq : q = [] := List.length_eq_zero_iff.mp (by omega)
    simp [hp, hq]
  | n + 1, p, q, hp, hq => by
    rw [List.range_succ_eq_map, List.map_cons, List.map_map, polyEval_cons]
    have := polyEval_sub_aux z n p.tail q.tail (by simp; omega) (by simp; omega)
    have e : ((fun i => p.getD i 0 - q.getD i 0) ∘ Nat.succ) =
        fun i => p.tail.getD i 0 - q.tail.getD i 0 := by
      funext i
      cases p <;> cases q <;> simp
    rw [e, this]
    cases p <;> cases q <;> simp <;> ring

@[simp] theorem polyEval_polySub (p q : List F) (z : F) :
    polyEval (polySub p q) z = polyEval p z - polyEval q z := by
  rw [polySub, polyEval_trim, polyEval_sub_aux z _ _ _ (le_max_left _ _) (le_max_right _ _)]

theorem length_polySub_le (p q : List F) : (polySub p q).length ≤ max p.length q.length := by
  refine (length_trim_le _).trans ?_
  simp

theorem polyDivLinear_spec (p : List F) (z s : F) :
    (s - z) * polyEval (polyDivLinear p z) s = polyEval p s - polyEval p z := by
  rw [polyDivLinear, polyEval_trim, (synthDiv_spec z s p).2]; ring

theorem length_polyDivLinear_le (p : List F) (z : F) : (polyDivLinear p z).length ≤ p.length :=
  (length_trim_le _).trans (length_synthDiv z p).le

theorem polyEval_resize (p : List F) (n : ℕ) (z : F) (h : p.length ≤ n) :
    polyEval (resize p n 0) z = polyEval p z := by
  rw [resize_of_length_le _ _ _ h, polyEval_append, polyEval_replicate_zero]; simp

end Poly

section KeyPoly
variable {F : Type} [Field F]

/-- `x_i p^(2^i)`. -/
def scaled : List F → F → List F
  | [], _ => []
  | x :: xs, p => (x * p) :: scaled xs (p * p)

@[simp] theorem length_scaled : ∀ (xs : List F) (p : F), (scaled xs p).length = xs.length
  | [], _ => rfl
  | x :: xs, p => by simp [scaled, length_scaled xs]

theorem scaled_one : ∀ (xs : List F), scaled xs 1 = xs
  | [] => rfl
  | x :: xs => by simp [scaled, scaled_one xs]

theorem scaled_scaled : ∀ (xs : List F) (p q : F), scaled (scaled xs p) q = scaled xs (q * p)
  | [], _, _ => rfl
  | x :: xs, p, q => by
    rw [scaled, scaled, scaled_scaled xs, scaled]
    congr 1
    · ring
    · congr 1; ring

theorem scaled_ne_zero : ∀ (xs : List F) (p : F), p ≠ 0 → (∀ x ∈ xs, x ≠ 0) →
    ∀ y ∈ scaled xs p, y ≠ 0
  | [], _, _, _ => by simp [scaled]
  | x :: xs, p, hp, h => by
    intro y hy
    rcases List.mem_cons.mp hy with rfl | hy
    · exact mul_ne_zero (h x (by simp)) hp
    · exact scaled_ne_zero xs _ (mul_ne_zero hp hp) (fun z hz => h z (by simp [hz])) y hy

theorem bitProd_scaled : ∀ (xs : List F) (p : F) (i : ℕ), i < 2 ^ xs.length →
    bitProd (scaled xs p) i = bitProd xs i * p ^ i
  | [], p, i, h => by
    have : i = 0 := by simpa using h
    simp [scaled, bitProd, this]
  | x :: xs, p, i, h => by
    rw [scaled, bitProd, bitProd_scaled xs _ (i / 2) (by rw [List.length_cons, pow_succ] at h; omega),
      bitProd]
    have hi : i = i % 2 + 2 * (i / 2) := by omega
    have : p ^ i = p ^ (i % 2) * (p * p) ^ (i / 2) := by
      conv_lhs => rw [hi]
      rw [pow_add, pow_mul, pow_two]
    rw [this]
    rcases Nat.mod_two_eq_zero_or_one i with h2 | h2
    · simp [h2]
    · simp [h2]; ring

theorem productFormLoop_eq : ∀ (xs : List F) (p : F) (acc : List F),
    productFormLoop xs p acc = acc ++ (scaled xs p).map (1 + ·)
  | [], _, acc => by simp [productFormLoop, scaled]
  | x :: xs, p, acc => by rw [productFormLoop, productFormLoop_eq xs]; simp [scaled]

theorem productForm_eq (xs : List F) (z r : F) :
    productForm xs z r = ((scaled xs (z * z * r)).map (1 + ·)).prod := by
  simp [productForm, productFormLoop_eq]

theorem scaled_eq_mapIdx : ∀ (xs : List F) (p : F),
    scaled xs p = xs.mapIdx fun j x => x * p ^ 2 ^ j
  | [], p => rfl
  | x :: xs, p => by
    rw [scaled, scaled_eq_mapIdx xs, List.mapIdx_cons]
    congr 1
    · simp
    · congr 1
      funext j x
      rw [← pow_two, ← pow_mul, pow_succ, mul_comm 2]

variable [DecidableEq F]

/-- The product form of the evaluation of an exponent vector. -/
theorem polyEval_exps (xs : List F) (w : F) :
    polyEval (exps xs) w = ((scaled xs w).map (1 + ·)).prod := by
  rw [scaled_eq_mapIdx]
  induction xs using List.reverseRecOn with
  | nil => simp [exps]
  | append_singleton xs x ih =>
    rw [exps_append, doubleUp, polyEval_append, polyEval_map_mul, length_exps, ih, List.mapIdx_append]
    simp
    ring

theorem coefficientLoop_eq : ∀ (xs : List F) (i : ℕ) (p : F) (v : List F), v.length = 2 ^ i →
    coefficientLoop xs i p v = .ok ((scaled xs p).foldl doubleUp v)
  | [], _, _, _, _ => rfl
  | x :: xs, i, p, v, h => by
    rw [coefficientLoop, pushScaled_eq _ _ _ h.symm]
    simp only [ok_bind, scaled, List.foldl_cons]
    exact coefficientLoop_eq xs (i + 1) _ _ (by rw [length_doubleUp, h, pow_succ]; ring)

theorem interleave_cons {α : Type} (x : α) (xs ys : List α) :
    interleave (x :: xs) ys = x :: interleave ys xs := by
  rw [interleave]

theorem interleave_nil {α : Type} (ys : List α) : interleave [] ys = ys := by
  rw [interleave]

/-- Spread coefficients over the even positions. -/
def spread : List F → List F
  | [] => []
  | [a] => [a]
  | a :: b :: as => a :: 0 :: spread (b :: as)

theorem interleave_zeros : ∀ (v : List F), interleave v (List.replicate (v.length - 1) 0) = spread v
  | [] => by simp [interleave_nil, spread]
  | [a] => by simp [interleave_cons, interleave_nil, spread]
  | a :: b :: as => by
    have ih := interleave_zeros (b :: as)
    simp only [List.length_cons, Nat.add_sub_cancel] at ih ⊢
    rw [interleave_cons, List.replicate_succ, interleave_cons, ih, spread]

theorem keyCoefficients_eq (xs : List F) (r : F) :
    keyCoefficients xs r = .ok (spread (exps (scaled xs r))) := by
  rw [keyCoefficients, coefficientLoop_eq xs 0 r [1] rfl]
  simp only [ok_bind, pure_eq_ok]
  rw [interleave_zeros]; rfl

theorem length_spread : ∀ (v : List F), (spread v).length = 2 * v.length - 1
  | [] => rfl
  | [a] => rfl
  | a :: b :: as => by
    have := length_spread (b :: as)
    simp only [spread, List.length_cons] at this ⊢; omega

theorem polyEval_spread : ∀ (v : List F) (z : F), polyEval (spread v) z = polyEval v (z * z)
  | [], _ => rfl
  | [a], z => by simp [spread]
  | a :: b :: as, z => by
    rw [spread, polyEval_cons, polyEval_cons, polyEval_spread (b :: as), polyEval_cons a]; ring

theorem getLast?_spread : ∀ (v : List F), (spread v).getLast? = v.getLast?
  | [] => rfl
  | [a] => rfl
  | a :: b :: as => by
    have h := getLast?_spread (b :: as)
    rw [spread, List.getLast?_cons_cons (l := as)]
    rw [← h]
    cases hs : spread (b :: as) with
    | nil => have := length_spread (b :: as); simp [hs] at this; omega
    | cons c cs => simp

theorem getElem?_spread : ∀ (v : List F) (i : ℕ), i < 2 * v.length - 1 →
    (spread v)[i]? = some (if i % 2 = 0 then v.getD (i / 2) 0 else 0)
  | [], i, h => by simp at h
  | [a], i, h => by
    have : i = 0 := by simp at h; omega
    simp [spread, this]
  | a :: b :: as, 0, _ => by simp [spread]
  | a :: b :: as, 1, _ => by simp [spread]
  | a :: b :: as, i + 2, h => by
    rw [spread, List.getElem?_cons_succ, List.getElem?_cons_succ,
      getElem?_spread (b :: as) i (by simp at h ⊢; omega)]
    simp [Nat.add_mod_right]

theorem exps_ne_zero (xs : List F) (h : ∀ x ∈ xs, x ≠ 0) : ∀ y ∈ exps xs, y ≠ 0 := by
  induction xs using List.reverseRecOn with
  | nil => simp [exps]
  | append_singleton xs x ih =>
    rw [exps_append, doubleUp]
    have ih := ih fun y hy => h y (by simp [hy])
    have hx := h x (by simp)
    intro y hy
    rcases List.mem_append.mp hy with hy | hy
    · exact ih y hy
    · obtain ⟨w, hw, rfl⟩ := List.mem_map.mp hy
      exact mul_ne_zero (ih w hw) hx

theorem polyOf_spread_exps (xs : List F) (h : ∀ x ∈ xs, x ≠ 0) :
    polyOf (spread (exps xs)) = spread (exps xs) := by
  have hl := length_exps xs
  cases hg : (exps xs).getLast? with
  | none => rw [List.getLast?_eq_none_iff] at hg; rw [hg] at hl; exact absurd hl (by have := Nat.two_pow_pos xs.length; simp only [List.length_nil]; omega)
  | some y =>
    refine trim_of_last _ y (by rw [getLast?_spread, hg]) ?_
    exact exps_ne_zero xs h y (List.mem_of_getLast? hg)

variable {G : Type} [AddCommGroup G] [Module F G]

/-- The folded key of a geometric key vector is the key polynomial at the trapdoor. -/
theorem dot_key (xs : List F) (g : G) (s r : F) :
    dot (fun g x => x • g) ((powers (r * (s * s)) (2 ^ xs.length)).map (· • g)) (exps xs) =
      productForm xs s r • g := by
  rw [dot_srs _ _ _ _ (length_exps xs).le, polyEval_exps, productForm_eq, mul_comm r]

theorem proveKeyOpening_eq (xs : List F) (h : ∀ x ∈ xs, x ≠ 0) (r z s : F) (hr : r ≠ 0) (g : G)
    (srs : List G) (hs : srs = (powers s (2 ^ (xs.length + 1) - 1)).map (· • g)) :
    ∃ q : F, proveKeyOpening srs xs r z = .ok (q • g) ∧
      (s - z) * q = productForm xs s r - productForm xs z r := by
  have hy := scaled_ne_zero xs r hr h
  have hlen : (spread (exps (scaled xs r))).length = 2 ^ (xs.length + 1) - 1 := by
    rw [length_spread, length_exps, length_scaled, pow_succ]; congr 1; ring
  set p := spread (exps (scaled xs r)) with hp
  have hev : ∀ w, polyEval p w = productForm xs w r := by
    intro w
    rw [hp, polyEval_spread, polyEval_exps, scaled_scaled, productForm_eq]
  set q := polyDivLinear (polySub p (polyOf [productForm xs z r])) z with hq
  have hql : q.length ≤ srs.length := by
    rw [hs, List.length_map, length_powers, ← hlen]
    refine (length_polyDivLinear_le _ _).trans ((length_polySub_le _ _).trans ?_)
    refine max_le le_rfl ((length_trim_le _).trans ?_)
    rw [hlen, List.length_singleton]
    have : 2 ^ 1 ≤ 2 ^ (xs.length + 1) := Nat.pow_le_pow_right (by norm_num) (by omega)
    omega
  refine ⟨polyEval q s, ?_, ?_⟩
  · rw [proveKeyOpening, keyCoefficients_eq]
    simp only [ok_bind]
    rw [← hp, hp, polyOf_spread_exps _ hy, ← hp, hlen]
    have : (srs.length == 2 ^ (xs.length + 1) - 1) = true := by rw [hs]; simp
    rw [this]
    simp only [assert_true, ok_bind]
    rw [multiexpIP_eq _ _ (by rw [resize_length])]
    congr 1
    rw [← hq]
    have hl2 : (resize q srs.length 0).length ≤ 2 ^ (xs.length + 1) - 1 := by
      rw [resize_length, hs]; simp
    rw [← polyEval_resize _ _ s hql, ← dot_srs g s _ _ hl2, ← hs]
  · rw [hq, polyDivLinear_spec, polyEval_polySub, polyEval_polySub]
    simp [hev]

end KeyPoly

end Ripp
