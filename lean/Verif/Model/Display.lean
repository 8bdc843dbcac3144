import Verif.Model.Basic

/-!
# The texts of the errors

`impl Display for InnerProductError`, `inner_products/src/lib.rs:29-38`, and
`impl Display for InnerProductArgumentError`, `ip_proofs/src/lib.rs:33-43`.
-/

namespace Ripp

/-- `format!("left length, right length: {}, {}", left, right)`, `inner_products/src/lib.rs:33` and
`ip_proofs/src/lib.rs:37`. `{}` writes a `usize` in decimal, without leading zeros. -/
def lengthText (left right : ℕ) : String := s!"left length, right length: {left}, {right}"

/-- The text of an error value: `inner_products/src/lib.rs:29-38` and `ip_proofs/src/lib.rs:33-43`. The text of
`unexpectedIdentity` is written by ark-relations and not modelled; panics and divergence are not error values. -/
def Fault.text : Fault → Option String
  | .ipLength l r => some (lengthText l r)
  | .argLength l r => some (lengthText l r)
  | .ipInvalid => some "inner product not sound"
  | _ => none

end Ripp
