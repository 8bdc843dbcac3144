import Verif.Model.Par
import Mathlib.LinearAlgebra.BilinearMap

/-!
# Model of `inner_products/src/lib.rs`
-/

namespace Ripp

/-- The parts of ark-ec's `Pairing` trait used by the code. `TF` is the target field of the Miller
loop (only its multiplication is used). Group elements in affine, projective and prepared form are
identified. -/
structure Engine (G1 G2 GT TF : Type) where
  /-- Miller loop of a single pair. -/
  miller : G1 → G2 → TF
  /-- `final_exponentiation` (returns `None` on zero). -/
  finalExp : TF → Option GT

namespace Engine
variable {G1 G2 GT TF : Type}

/-- ark-ec's `multi_miller_loop`: product of the single Miller loops; the argument iterators are
combined with `zip_eq`, which panics if the lengths differ. -/
def multiMillerLoop [Monoid TF] (E : Engine G1 G2 GT TF) (a : List G1) (b : List G2) : Res TF :=
  if a.length = b.length then .ok (List.zipWith E.miller a b).prod else panic' .zipLength

/-- `P::pairing(p, q)`: final exponentiation of a single Miller loop, unwrapped. -/
def pairing (E : Engine G1 G2 GT TF) (p : G1) (q : G2) : Res GT :=
  unwrap (E.finalExp (E.miller p q))

/-- What ark-ec guarantees about a pairing: final exponentiation is multiplicative and the composed
map is the bilinear map `e`. Used only as a hypothesis of theorems. -/
structure Lawful {F : Type} [Field F] [AddCommGroup G1] [Module F G1] [AddCommGroup G2] [Module F G2]
    [AddCommGroup GT] [Module F GT] [Monoid TF]
    (E : Engine G1 G2 GT TF) (e : G1 →ₗ[F] G2 →ₗ[F] GT) : Prop where
  finalExp_one : E.finalExp 1 = some 0
  finalExp_miller : ∀ p q, E.finalExp (E.miller p q) = some (e p q)
  finalExp_mul : ∀ x y u v, E.finalExp x = some u → E.finalExp y = some v →
    E.finalExp (x * y) = some (u + v)

end Engine

section
variable {F G G1 G2 GT TF : Type}

/-- `cfg_multi_pairing`, `inner_products/src/lib.rs:77-116`. `normalize_batch` and the conversion to
prepared points (lines 80-88) are the identity on group elements. `par_chunks(0)` would panic. -/
def cfgMultiPairing [Monoid TF] (E : Engine G1 G2 GT TF) (X : Exec)
    (left : List G1) (right : List G2) : Res (Option GT) := do
  let cs := chunkSize X.threads left.length
  if cs = 0 then panic' .assertion
  let ml ← ((chunks cs left).zip (chunks cs right)).mapM
    fun (aa, bb) => E.multiMillerLoop aa bb
  return E.finalExp (parReduce (· * ·) 1 X.sched ml)

/-- `PairingInnerProduct::inner_product`, `inner_products/src/lib.rs:61-73`. -/
def pairingIP [Monoid TF] (E : Engine G1 G2 GT TF) (X : Exec)
    (left : List G1) (right : List G2) : Res GT := do
  if left.length ≠ right.length then
    throw (.ipLength left.length right.length)
  unwrap (← cfgMultiPairing E X left right)

/-- ark-ec's `VariableBaseMSM::msm`: an error if the lengths differ, otherwise the sum. -/
def msm [Field F] [AddCommGroup G] [Module F G] (bases : List G) (scalars : List F) : Option G :=
  if bases.length = scalars.length then
    some (List.zipWith (fun g s => s • g) bases scalars).sum
  else none

/-- `MultiexponentiationInnerProduct::inner_product`, `inner_products/src/lib.rs:128-141`. -/
def multiexpIP [Field F] [AddCommGroup G] [Module F G]
    (left : List G) (right : List F) : Res G := do
  if left.length ≠ right.length then
    throw (.ipLength left.length right.length)
  unwrap (msm left right)

/-- `ScalarInnerProduct::inner_product`, `inner_products/src/lib.rs:154-165`. -/
def scalarIP [Field F] (X : Exec) (left right : List F) : Res F := do
  if left.length ≠ right.length then
    throw (.ipLength left.length right.length)
  return parReduce (· + ·) 0 X.sched (List.zipWith (· * ·) left right)

end

end Ripp
