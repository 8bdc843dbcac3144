import Verif.Spec
import Mathlib.LinearAlgebra.BilinearMap
import Mathlib.Tactic.Abel
import Mathlib.Tactic.Module
import Mathlib.Tactic.Ring

/-! # Algebra of `Spec.dot` and of folding -/

namespace Ripp.Spec

section Basic
variable {A B C : Type} [AddMonoid C] (β : A → B → C)

@[simp] theorem dot_nil_left (b : List B) : dot β [] b = 0 := by cases b <;> rfl
@[simp] theorem dot_nil_right (a : List A) : dot β a [] = 0 := by cases a <;> rfl
@[simp] theorem dot_cons (a : A) (as : List A) (b : B) (bs : List B) :
    dot β (a :: as) (b :: bs) = β a b + dot β as bs := rfl

theorem dot_singleton (a : A) (b : B) : dot β [a] [b] = β a b := by simp

theorem zipWith_sum : ∀ (a : List A) (b : List B), (List.zipWith β a b).sum = dot β a b
  | [], b => by simp
  | a :: as, [] => by simp
  | a :: as, b :: bs => by simp [zipWith_sum as bs]

theorem dot_append : ∀ (a a' : List A) (b b' : List B), a.length = b.length →
    dot β (a ++ a') (b ++ b') = dot β a b + dot β a' b'
  | [], a', [], b', _ => by simp
  | [], _, _ :: _, _, h => by simp at h
  | _ :: _, _, [], _, h => by simp at h
  | a :: as, a', b :: bs, b', h => by
    simp [dot_append as a' bs b' (by simpa using h), add_assoc]

theorem dot_swap : ∀ (a : List A) (b : List B), dot β a b = dot (fun b a => β a b) b a
  | [], b => by simp
  | a :: as, [] => by simp
  | a :: as, b :: bs => by simp [dot_swap as bs]

theorem dot_map_left {A' : Type} (f : A' → A) : ∀ (a : List A') (b : List B),
    dot β (a.map f) b = dot (fun x y => β (f x) y) a b
  | [], b => by simp
  | a :: as, [] => by simp
  | a :: as, b :: bs => by simp [dot_map_left f as bs]

theorem dot_map_right {B' : Type} (f : B' → B) : ∀ (a : List A) (b : List B'),
    dot β a (b.map f) = dot (fun x y => β x (f y)) a b
  | [], b => by simp
  | a :: as, [] => by simp
  | a :: as, b :: bs => by simp [dot_map_right f as bs]

end Basic

section Vec
variable {F M : Type}

@[simp] theorem addV_nil_left [Add M] (v : List M) : addV [] v = [] := rfl
@[simp] theorem addV_cons [Add M] (a : M) (u : List M) (b : M) (v : List M) :
    addV (a :: u) (b :: v) = (a + b) :: addV u v := rfl
@[simp] theorem smulV_nil [SMul F M] (c : F) : smulV c ([] : List M) = [] := rfl
@[simp] theorem smulV_cons [SMul F M] (c : F) (a : M) (v : List M) :
    smulV c (a :: v) = c • a :: smulV c v := rfl
@[simp] theorem length_addV [Add M] (u v : List M) : (addV u v).length = min u.length v.length := by
  simp [addV]
@[simp] theorem length_smulV [SMul F M] (c : F) (v : List M) : (smulV c v).length = v.length := by
  simp [smulV]

theorem length_foldHalf [Add M] [SMul F M] (x : F) (v : List M) (n : ℕ) (h : v.length = 2 * n) :
    (foldHalf x v).length = n := by
  simp [foldHalf, h]; omega

theorem length_foldAll [Add M] [SMul F M] : ∀ (xs : List F) (v : List M),
    v.length = 2 ^ xs.length → (foldAll xs v).length = 1
  | [], v, h => by simpa [foldAll] using h
  | x :: xs, v, h => by
    rw [foldAll]
    apply length_foldAll xs
    exact length_foldHalf x v _ (by rw [h, List.length_cons, pow_succ]; ring)

end Vec

section Bilinear
variable {F A B C : Type} [Field F] [AddCommGroup A] [Module F A] [AddCommGroup B] [Module F B]
  [AddCommGroup C] [Module F C] (β : A →ₗ[F] B →ₗ[F] C)

theorem dot_addV_left : ∀ (a a' : List A) (b : List B), a.length = a'.length →
    dot (β · ·) (addV a a') b = dot (β · ·) a b + dot (β · ·) a' b
  | [], [], b, _ => by simp
  | [], _ :: _, _, h => by simp at h
  | _ :: _, [], _, h => by simp at h
  | a :: as, a' :: as', [], _ => by simp
  | a :: as, a' :: as', b :: bs, h => by
    simp [dot_addV_left as as' bs (by simpa using h)]; abel

theorem dot_addV_right : ∀ (a : List A) (b b' : List B), b.length = b'.length →
    dot (β · ·) a (addV b b') = dot (β · ·) a b + dot (β · ·) a b'
  | a, [], [], _ => by simp
  | _, [], _ :: _, h => by simp at h
  | _, _ :: _, [], h => by simp at h
  | [], b :: bs, b' :: bs', _ => by simp
  | a :: as, b :: bs, b' :: bs', h => by
    simp [dot_addV_right as bs bs' (by simpa using h)]; abel

theorem dot_smulV_left (c : F) : ∀ (a : List A) (b : List B),
    dot (β · ·) (smulV c a) b = c • dot (β · ·) a b
  | [], b => by simp
  | a :: as, [] => by simp
  | a :: as, b :: bs => by simp [dot_smulV_left c as bs]

theorem dot_smulV_right (c : F) : ∀ (a : List A) (b : List B),
    dot (β · ·) a (smulV c b) = c • dot (β · ·) a b
  | [], b => by simp
  | a :: as, [] => by simp
  | a :: as, b :: bs => by simp [dot_smulV_right c as bs]

/-- One folding round: messages fold with `c`, keys with `c⁻¹`. -/
theorem dot_fold (c : F) (hc : c ≠ 0) (m : List A) (k : List B) (n : ℕ) (hm : m.length = 2 * n)
    (hk : k.length = 2 * n) :
    dot (β · ·) (foldHalf c m) (foldHalf c⁻¹ k) =
      c • dot (β · ·) (m.drop n) (k.take n) + dot (β · ·) m k
        + c⁻¹ • dot (β · ·) (m.take n) (k.drop n) := by
  have e1 : m.length / 2 = n := by omega
  have e2 : k.length / 2 = n := by omega
  have hsplit : dot (β · ·) m k
      = dot (β · ·) (m.take n) (k.take n) + dot (β · ·) (m.drop n) (k.drop n) := by
    conv_lhs => rw [← List.take_append_drop n m, ← List.take_append_drop n k]
    rw [dot_append _ _ _ _ _ (by simp [hm, hk])]
  rw [foldHalf, foldHalf, e1, e2, dot_addV_left _ _ _ _ (by simp [hm]; omega),
    dot_addV_right _ _ _ _ (by simp [hk]; omega), dot_addV_right _ _ _ _ (by simp [hk]; omega),
    dot_smulV_left, dot_smulV_left, dot_smulV_right, dot_smulV_right, hsplit, smul_smul,
    mul_inv_cancel₀ hc]
  module

/-- The same with the roles of `c` and `c⁻¹` exchanged. -/
theorem dot_fold' (c : F) (hc : c ≠ 0) (m : List A) (k : List B) (n : ℕ) (hm : m.length = 2 * n)
    (hk : k.length = 2 * n) :
    dot (β · ·) (foldHalf c⁻¹ m) (foldHalf c k) =
      c • dot (β · ·) (m.take n) (k.drop n) + dot (β · ·) m k
        + c⁻¹ • dot (β · ·) (m.drop n) (k.take n) := by
  have := dot_fold β c⁻¹ (inv_ne_zero hc) m k n hm hk
  rw [inv_inv] at this
  rw [this]; abel

end Bilinear

end Ripp.Spec
