import Verif.Model.Basic

/-!
# The part of ark-poly's `DensePolynomial` used by the code

A polynomial is its coefficient list, lowest degree first. ark-poly is a dependency; these functions
model its documented behaviour.
-/

namespace Ripp

variable {F : Type} [Field F] [DecidableEq F]

/-- Remove trailing zeros (`truncate_leading_zeros`). -/
def trim : List F → List F
  | [] => []
  | a :: as =>
    match trim as with
    | [] => if a = 0 then [] else [a]
    | b :: bs => a :: b :: bs

/-- `DensePolynomial::from_coefficients_vec` / `from_coefficients_slice`. -/
def polyOf (coeffs : List F) : List F := trim coeffs

/-- `Polynomial::evaluate` (Horner). -/
def polyEval (p : List F) (z : F) : F := p.foldr (fun a acc => a + z * acc) 0

/-- `Polynomial::degree`: 0 for the zero polynomial; otherwise asserts that the leading coefficient is
not zero. -/
def polyDegree (p : List F) : Res ℕ :=
  if p.all (fun a => decide (a = 0)) then .ok 0
  else if p.getLast? = some 0 then panic' .assertion
  else .ok (p.length - 1)

/-- `&p - &q`. -/
def polySub (p q : List F) : List F :=
  trim ((List.range (max p.length q.length)).map fun i => p.getD i 0 - q.getD i 0)

/-- Synthetic division of `p` by `X - z`: remainder and quotient. -/
def synthDiv (z : F) : List F → F × List F
  | [] => (0, [])
  | a :: as =>
    let (r, q) := synthDiv z as
    (a + z * r, r :: q)

/-- `p / (X - z)`: quotient of the Euclidean division, in normal form. -/
def polyDivLinear (p : List F) (z : F) : List F := trim (synthDiv z p).2

end Ripp
