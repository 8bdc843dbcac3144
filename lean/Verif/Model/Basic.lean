import Mathlib.Algebra.Field.Basic
import Mathlib.Algebra.Module.LinearMap.Basic
import Mathlib.Algebra.BigOperators.Group.List.Basic

/-!
# Faults, slices, loops and byte encodings shared by all model files

Rust's `Result<T, Error>` together with the possibility of a panic becomes `Res T`.
-/

namespace Ripp

/-- Byte strings (`Vec<u8>`, `&[u8]`). -/
abbrev Bytes := List UInt8

/-- The different ways in which the Rust code can panic. -/
inductive PanicKind
  /-- `assert!` / `assert_eq!` -/
  | assertion
  /-- `unwrap()` of `None` or `Err` -/
  | unwrap
  /-- slice or vector index out of range -/
  | bounds
  /-- division by zero -/
  | divZero
  /-- arithmetic under/overflow (debug builds) -/
  | overflow
  /-- `zip_eq` of iterators of different lengths inside ark-ec's `multi_miller_loop` -/
  | zipLength
  deriving DecidableEq, Repr

/-- Everything other than a normal return.
* `ipLength l r`: `InnerProductError::MessageLengthInvalid`, `inner_products/src/lib.rs:18-21`.
* `argLength l r`, `ipInvalid`: `InnerProductArgumentError`, `ip_proofs/src/lib.rs:21-25`.
* `unexpectedIdentity`: ark-relations' `SynthesisError::UnexpectedIdentity`, `bench.rs:591-592`.
* `panic`: a Rust panic.
* `diverge`: a challenge loop that tried every `usize` nonce (overflow panic in debug builds, endless
  loop in release builds), or a fuelled loop of the model that ran out of fuel. -/
inductive Fault
  | ipLength (l r : ℕ)
  | argLength (l r : ℕ)
  | ipInvalid
  | unexpectedIdentity
  | panic (k : PanicKind)
  | diverge
  deriving DecidableEq, Repr

/-- A Rust computation returning `Result<α, Error>`, with panics and divergence explicit. -/
abbrev Res (α : Type) := Except Fault α

/-- Abort with a panic. -/
def panic' {α : Type} (k : PanicKind) : Res α := .error (.panic k)

/-- `assert!(b)`. -/
def assert (b : Bool) : Res Unit := if b then .ok () else panic' .assertion

/-- `Option::unwrap`. -/
def unwrap {α : Type} : Option α → Res α
  | some x => .ok x
  | none => panic' .unwrap

/-- `xs[i]` on a slice. -/
def idx {α : Type} (xs : List α) (i : ℕ) : Res α :=
  match xs[i]? with
  | some x => .ok x
  | none => panic' .bounds

/-- `&xs[..n]`. -/
def sliceTo {α : Type} (xs : List α) (n : ℕ) : Res (List α) :=
  if n ≤ xs.length then .ok (xs.take n) else panic' .bounds

/-- `&xs[n..]`. -/
def sliceFrom {α : Type} (xs : List α) (n : ℕ) : Res (List α) :=
  if n ≤ xs.length then .ok (xs.drop n) else panic' .bounds

/-- `Vec::resize(n, d)`: pads with `d` or truncates to length `n`. -/
def resize {α : Type} (xs : List α) (n : ℕ) (d : α) : List α :=
  xs.take n ++ List.replicate (n - xs.length) d

/-- ark-ff `Field::inverse`: `None` exactly on zero. -/
def inverse {F : Type} [Field F] [DecidableEq F] (x : F) : Option F :=
  if x = 0 then none else some x⁻¹

/-- `usize::count_ones`. `is_power_of_two()` is `count_ones() == 1`. -/
def countOnes (n : ℕ) : ℕ :=
  if h : n = 0 then 0 else n % 2 + countOnes (n / 2)
termination_by n
decreasing_by omega

/-- `usize::is_power_of_two`, and the test `len.count_ones() == 1` used by the code. -/
def isPow2 (n : ℕ) : Bool := countOnes n == 1

/-- little-endian bytes of `n`, `k` bytes long (`to_le_bytes`). -/
def leBytes : ℕ → ℕ → Bytes
  | 0, _ => []
  | k + 1, n => UInt8.ofNat (n % 256) :: leBytes k (n / 256)

/-- `usize::to_be_bytes` on a 64-bit target. -/
def nonceBytes (n : ℕ) : Bytes := (leBytes 8 n).reverse

/-- `u128::from_be_bytes` (as an unbounded natural number). -/
def beNat (bs : Bytes) : ℕ := bs.foldl (fun acc b => acc * 256 + b.toNat) 0

/-- Number of `usize` nonces that can be tried before `counter_nonce += 1` overflows. -/
def nonceLimit : ℕ := 2 ^ 64

/-- The shape of all challenge loops: `let mut counter_nonce = 0; loop { if let Some(x) = f(nonce) {
break x }; counter_nonce += 1 }` (for instance `ip_proofs/src/gipa.rs:235-258`). `fuel` nonces are
left. Running out of nonces is `diverge`. -/
def searchNonce {α : Type} (f : ℕ → Res (Option α)) : ℕ → ℕ → Res α
  | 0, _ => .error .diverge
  | fuel + 1, nonce =>
    match f nonce with
    | .error e => .error e
    | .ok (some x) => .ok x
    | .ok none => searchNonce f fuel (nonce + 1)

/-- ark-serialize's encoding of a slice or `Vec`: 64-bit little-endian length, then the elements. -/
def serSeq {α : Type} (ser : α → Bytes) (xs : List α) : Bytes :=
  leBytes 8 xs.length ++ xs.flatMap ser

end Ripp
