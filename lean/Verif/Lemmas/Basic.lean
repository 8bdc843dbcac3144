import Verif.Model.Par
import Mathlib.Tactic.Ring
import Mathlib.Tactic.Linarith
import Mathlib.Algebra.Order.Ring.Nat

/-! # Lemmas about `Res`, slices, powers of two, challenge loops and reductions -/

namespace Ripp

/-! ## The `Res` monad -/
section
variable {α β : Type}

@[simp] theorem ok_bind (a : α) (f : α → Res β) : (Except.ok a >>= f) = f a := rfl
@[simp] theorem error_bind (e : Fault) (f : α → Res β) :
    ((Except.error e : Res α) >>= f) = .error e := rfl
@[simp] theorem pure_eq_ok (a : α) : (pure a : Res α) = .ok a := rfl
@[simp] theorem throw_eq_error (e : Fault) : (throw e : Res α) = .error e := rfl
@[simp] theorem ok_map (f : α → β) (a : α) : (f <$> (Except.ok a : Res α)) = .ok (f a) := rfl
@[simp] theorem error_map (f : α → β) (e : Fault) :
    (f <$> (Except.error e : Res α)) = .error e := rfl

theorem bind_eq_ok {x : Res α} {f : α → Res β} {b : β} :
    (x >>= f) = .ok b ↔ ∃ a, x = .ok a ∧ f a = .ok b := by
  cases x <;> simp

@[simp] theorem panic'_bind (k : PanicKind) (f : α → Res β) :
    ((panic' k : Res α) >>= f) = panic' k := rfl

@[simp] theorem panic'_ne_ok (k : PanicKind) (a : α) : (panic' k : Res α) ≠ .ok a := by
  simp [panic']

@[simp] theorem assert_true : assert true = .ok () := rfl
@[simp] theorem assert_false : assert false = panic' .assertion := rfl

theorem assert_eq_ok {b : Bool} {u : Unit} : assert b = .ok u ↔ b = true := by
  cases b <;> simp

@[simp] theorem unwrap_some (a : α) : unwrap (some a) = .ok a := rfl
@[simp] theorem unwrap_none : unwrap (none : Option α) = panic' .unwrap := rfl

theorem unwrap_eq_ok {o : Option α} {a : α} : unwrap o = .ok a ↔ o = some a := by
  cases o <;> simp

theorem idx_of_lt (xs : List α) (i : ℕ) (h : i < xs.length) : idx xs i = .ok xs[i] := by
  simp [idx, h]

theorem idx_of_ge (xs : List α) (i : ℕ) (h : xs.length ≤ i) : idx xs i = panic' .bounds := by
  simp [idx, h]

@[simp] theorem idx_cons_zero (x : α) (xs : List α) : idx (x :: xs) 0 = .ok x := rfl

theorem sliceTo_of_le (xs : List α) (n : ℕ) (h : n ≤ xs.length) :
    sliceTo xs n = .ok (xs.take n) := by simp [sliceTo, h]

theorem sliceFrom_of_le (xs : List α) (n : ℕ) (h : n ≤ xs.length) :
    sliceFrom xs n = .ok (xs.drop n) := by simp [sliceFrom, h]

theorem mapM_ok (f : α → Res β) (g : α → β) :
    ∀ xs : List α, (∀ x ∈ xs, f x = .ok (g x)) → xs.mapM f = .ok (xs.map g)
  | [], _ => rfl
  | x :: xs, h => by
    rw [List.mapM_cons, h x (by simp), mapM_ok f g xs fun y hy => h y (by simp [hy])]
    simp

end

theorem resize_length {α : Type} (xs : List α) (n : ℕ) (d : α) : (resize xs n d).length = n := by
  simp [resize]; omega

theorem resize_of_length_le {α : Type} (xs : List α) (n : ℕ) (d : α) (h : xs.length ≤ n) :
    resize xs n d = xs ++ List.replicate (n - xs.length) d := by
  simp [resize, List.take_of_length_le h]

/-! ## Inverses -/

theorem inverse_of_ne {F : Type} [Field F] [DecidableEq F] {x : F} (h : x ≠ 0) :
    inverse x = some x⁻¹ := by simp [inverse, h]

@[simp] theorem inverse_zero {F : Type} [Field F] [DecidableEq F] : inverse (0 : F) = none := by
  simp [inverse]

/-! ## Powers of two -/

theorem countOnes_zero : countOnes 0 = 0 := by rw [countOnes]; simp

theorem countOnes_two_mul (n : ℕ) : countOnes (2 * n) = countOnes n := by
  by_cases h : n = 0
  · simp [h]
  · rw [countOnes]; simp [h]

theorem countOnes_two_mul_add_one (n : ℕ) : countOnes (2 * n + 1) = countOnes n + 1 := by
  rw [countOnes]; simp; rw [show (2 * n + 1) / 2 = n by omega]; omega

theorem countOnes_eq_zero (n : ℕ) : countOnes n = 0 ↔ n = 0 := by
  induction n using Nat.strong_induction_on with
  | _ n ih =>
    rcases Nat.even_or_odd' n with ⟨m, rfl | rfl⟩
    · rw [countOnes_two_mul]
      by_cases hm : m = 0
      · simp [hm, countOnes_zero]
      · rw [ih m (by omega)]; omega
    · rw [countOnes_two_mul_add_one]; omega

theorem isPow2_iff (n : ℕ) : isPow2 n = true ↔ ∃ k, n = 2 ^ k := by
  simp only [isPow2, beq_iff_eq]
  induction n using Nat.strong_induction_on with
  | _ n ih =>
    rcases Nat.even_or_odd' n with ⟨m, rfl | rfl⟩
    · rw [countOnes_two_mul]
      by_cases hm : m = 0
      · subst hm
        simp only [countOnes_zero, Nat.mul_zero]
        constructor
        · intro h; omega
        · rintro ⟨k, hk⟩; exact absurd hk.symm (by positivity)
      · rw [ih m (by omega)]
        constructor
        · rintro ⟨k, rfl⟩; exact ⟨k + 1, by rw [pow_succ]; ring⟩
        · rintro ⟨k, hk⟩
          cases k with
          | zero => simp at hk; omega
          | succ k => exact ⟨k, by rw [pow_succ] at hk; omega⟩
    · rw [countOnes_two_mul_add_one]
      constructor
      · intro h
        have : countOnes m = 0 := by omega
        rw [countOnes_eq_zero] at this
        exact ⟨0, by simp [this]⟩
      · rintro ⟨k, hk⟩
        cases k with
        | zero =>
          have : m = 0 := by simp at hk; omega
          simp [this, countOnes_zero]
        | succ k => rw [pow_succ] at hk; omega

@[simp] theorem isPow2_two_pow (k : ℕ) : isPow2 (2 ^ k) = true := (isPow2_iff _).mpr ⟨k, rfl⟩

theorem isPow2_eq_false {n : ℕ} : isPow2 n = false ↔ ∀ k, n ≠ 2 ^ k := by
  rw [← Bool.not_eq_true, isPow2_iff]; simp

/-! ## Challenge loops -/

theorem searchNonce_ok {α : Type} {f : ℕ → Res (Option α)} {P : α → Prop}
    (h : ∀ n x, f n = .ok (some x) → P x) :
    ∀ fuel n x, searchNonce f fuel n = .ok x → P x
  | 0, _, _, h' => by simp [searchNonce] at h'
  | fuel + 1, n, x, h' => by
    rw [searchNonce] at h'
    split at h'
    · cases h'
    · rename_i y hy
      cases h'
      exact h n _ hy
    · exact searchNonce_ok h fuel (n + 1) x h'

/-- A search over attempts that never fault either finds something or exhausts the nonces. -/
theorem searchNonce_total {α : Type} (g : ℕ → Option α) :
    ∀ fuel n, (∃ m x, n ≤ m ∧ m < n + fuel ∧ g m = some x ∧ (∀ m', n ≤ m' → m' < m → g m' = none) ∧
        searchNonce (fun i => .ok (g i)) fuel n = .ok x) ∨
      ((∀ m, n ≤ m → m < n + fuel → g m = none) ∧
        searchNonce (fun i => .ok (g i)) fuel n = .error .diverge)
  | 0, n => by
    right
    exact ⟨fun m h h' => by omega, rfl⟩
  | fuel + 1, n => by
    rw [searchNonce]
    cases hg : g n with
    | some x =>
      left
      exact ⟨n, x, le_refl _, by omega, hg, fun m' h h' => by omega, rfl⟩
    | none =>
      rcases searchNonce_total g fuel (n + 1) with ⟨m, x, h1, h2, h3, h4, h5⟩ | ⟨h1, h2⟩
      · left
        refine ⟨m, x, by omega, by omega, h3, fun m' hm hm' => ?_, h5⟩
        by_cases hmn : m' = n
        · rw [hmn, hg]
        · exact h4 m' (by omega) hm'
      · right
        refine ⟨fun m hm hm' => ?_, h2⟩
        by_cases hmn : m = n
        · rw [hmn, hg]
        · exact h1 m (by omega) (by omega)

/-! ## Reductions and chunks -/

theorem parReduce_eq {α : Type} (op : α → α → α) (id : α)
    (assoc : ∀ a b c, op (op a b) c = op a (op b c)) (idl : ∀ a, op id a = a)
    (idr : ∀ a, op a id = a) (s : Sched) :
    ∀ xs : List α, parReduce op id s xs = xs.foldr op id := by
  have happ : ∀ xs ys : List α, (xs ++ ys).foldr op id = op (xs.foldr op id) (ys.foldr op id) := by
    intro xs ys
    induction xs with
    | nil => simp [idl]
    | cons x xs ih => simp [ih, assoc]
  induction s with
  | leaf =>
    intro xs
    have : ∀ (xs : List α) (a : α), xs.foldl op a = op a (xs.foldr op id) := by
      intro xs
      induction xs with
      | nil => simp [idr]
      | cons x xs ih => intro a; simp [ih, assoc]
    simp [parReduce, this, idl]
  | split n l r ihl ihr =>
    intro xs
    rw [parReduce, ihl, ihr, ← happ, List.take_append_drop]

theorem parReduce_mul {α : Type} [Monoid α] (s : Sched) (xs : List α) :
    parReduce (· * ·) 1 s xs = xs.prod := by
  rw [parReduce_eq _ _ mul_assoc one_mul mul_one]; rfl

theorem parReduce_add {α : Type} [AddMonoid α] (s : Sched) (xs : List α) :
    parReduce (· + ·) 0 s xs = xs.sum := by
  rw [parReduce_eq _ _ add_assoc zero_add add_zero]; rfl

theorem chunkSize_pos {t : ℕ} (ht : 0 < t) (len : ℕ) : 0 < chunkSize t len := by
  unfold chunkSize
  split
  · exact Nat.div_pos (by assumption) ht
  · exact Nat.one_pos

end Ripp
