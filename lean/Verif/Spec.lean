import Mathlib.Algebra.Module.LinearMap.Basic
import Mathlib.Algebra.BigOperators.Group.List.Basic
import Mathlib.Algebra.Field.Basic

/-!
# Specification vocabulary

Theorem statements use only these definitions and Mathlib. Nothing here refers to the model.
-/

namespace Ripp.Spec

variable {F A B C M : Type}

/-- `β a₀ b₀ + β a₁ b₁ + …` (stops at the end of the shorter list). -/
def dot [AddMonoid C] (β : A → B → C) : List A → List B → C
  | a :: as, b :: bs => β a b + dot β as bs
  | _, _ => 0

/-- Entrywise sum. -/
def addV [Add M] (u v : List M) : List M := List.zipWith (· + ·) u v

/-- Scaling of every entry. -/
def smulV [SMul F M] (c : F) (v : List M) : List M := v.map (c • ·)

/-- Lower half plus `x` times upper half. -/
def foldHalf [Add M] [SMul F M] (x : F) (v : List M) : List M :=
  addV (v.take (v.length / 2)) (smulV x (v.drop (v.length / 2)))

/-- Fold once per challenge, first challenge first. -/
def foldAll [Add M] [SMul F M] : List F → List M → List M
  | [], v => v
  | x :: xs, v => foldAll xs (foldHalf x v)

/-- Product of the `xs[j]` over the bits `j` set in `i` (bit 0 belongs to the head). -/
def bitProd [MulOneClass F] : List F → ℕ → F
  | [], _ => 1
  | x :: xs, i => (if i % 2 = 1 then x else 1) * bitProd xs (i / 2)

/-- Running commitment after all rounds: every round with challenge `c` and step pair `(l, r)` replaces
`com` by `c l + com + c⁻¹ r`. -/
def accum [Add M] [SMul F M] [Inv F] : List F → List (M × M) → M → M
  | c :: cs, s :: ss, com => accum cs ss (c • s.1 + com + c⁻¹ • s.2)
  | _, _, com => com

/-- `1, s, s², …, s^(n-1)`. -/
def powers [Monoid F] (s : F) (n : ℕ) : List F := (List.range n).map (s ^ ·)

/-- Value at `z` of the polynomial with coefficients `p`, lowest first: `Σ p[i] zⁱ`. -/
def evalAt [Semiring F] (p : List F) (z : F) : F := dot (· * ·) p (powers z p.length)

end Ripp.Spec
