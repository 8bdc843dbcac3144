import Verif.Model.Sipp
import Verif.Model.Groth16
import Verif.Model.Transparent
import Mathlib.Algebra.Field.ZMod
import Mathlib.Tactic.NormNum.Prime
import Mathlib.Algebra.Group.TypeTags.Basic

/-!
# A small concrete instance

Used only to show that the hypotheses of the theorems can be met: the field with 101 elements, all
groups equal to it, and multiplication as the pairing.
-/

namespace Ripp.Toy

instance : Fact (Nat.Prime 101) := ⟨by norm_num⟩

/-- The field with 101 elements. -/
abbrev F := ZMod 101

/-- Miller loop values are written multiplicatively. -/
abbrev TF := Multiplicative F

/-- `e(x, y) = x y`. -/
def E : Engine F F F TF where
  miller x y := .ofAdd (x * y)
  finalExp t := some t.toAdd

/-- The bilinear map computed by `E`. -/
def e : F →ₗ[F] F →ₗ[F] F := LinearMap.lsmul F F

@[simp] theorem e_apply (x y : F) : e x y = x * y := rfl

theorem lawful : E.Lawful (F := F) e where
  finalExp_one := rfl
  finalExp_miller _ _ := rfl
  finalExp_mul x y u v hx hy := by
    simp only [E, Option.some.injEq] at hx hy ⊢
    rw [← hx, ← hy]; rfl

/-- Four threads, one stolen half. -/
def X : Exec := ⟨4, by norm_num, .split 2 .leaf (.split 1 .leaf .leaf)⟩

/-- A digest with 16 bytes of output whose value as a number is 3. -/
def digest (_ : Bytes) : Bytes := List.replicate 15 0 ++ [3]

/-- One byte per field element. -/
def ser (x : F) : Bytes := [UInt8.ofNat x.val]

/-- A deterministic generator: counts up. -/
def rand (s : ℕ) : F × ℕ := (s, s + 1)

/-- Parameters of the polynomial commitments and of the aggregation. -/
def env : Env ℕ F F F F TF where
  E := E
  X := X
  digest := digest
  fromRandomBytes bs := bs.getLast?.map fun b => (b.toNat : F)
  serF := ser
  serG1 := ser
  serG2 := ser
  serGT := ser
  randF := rand
  randG1 := rand
  randG2 := rand
  g := 1
  h := 1

/-- Parameters of SIPP; the generator always draws `lo = 5`, `hi = 0`. -/
def sippEnv : Sipp.Env Unit F F F F TF where
  E := E
  X := X
  digest := digest
  chachaSeed _ := ()
  nextU64 := fun s => (5, s)
  serF := ser
  serG1 := ser
  serG2 := ser
  serGT := ser

end Ripp.Toy
