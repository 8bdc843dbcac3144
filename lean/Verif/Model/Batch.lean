import Verif.Model.Groth16

/-!
# Model of `batch_verify_proof`, `benches/benches/groth16_aggregation/bench.rs:528-595`

The verifier of a batch of Groth16 proofs that the aggregation is compared with.
-/

namespace Ripp

/-- ark-groth16's `PreparedVerifyingKey` (the fields that are used). -/
structure G16PVK (G1 G2 : Type) where
  vk : G16VK G1 G2
  gammaNeg : G2
  deltaNeg : G2

/-- ark-groth16's `prepare_verifying_key` (called at `bench.rs:318`). -/
def prepareVK {G1 G2 : Type} [AddCommGroup G2] (vk : G16VK G1 G2) : G16PVK G1 G2 :=
  ⟨vk, -vk.gamma, -vk.delta⟩

namespace Batch

variable {ρ F G1 G2 GT TF : Type} [Field F] [AddCommGroup G1] [Module F G1] [AddCommGroup G2] [Module F G2]

/-- `r_powers`, `bench.rs:533-538`: `n` draws of `u128` from `StdRng::seed_from_u64(0)`, converted to field
elements. `seed` is that generator, `rand` draws a `u128`. -/
def coefficients (rand : ρ → ℕ × ρ) (seed : ρ) (n : ℕ) : List F :=
  (randomGenerators rand seed n).1.map (fun x : ℕ => (x : F))

/-- `g_ic` for one row of public inputs, `bench.rs:544-547`: `zip` stops at the shorter list. -/
def inputTerm (abc : List G1) (row : List F) : Res G1 := do
  let abc0 ← idx abc 0
  return (row.zip (abc.drop 1)).foldl (fun g p => g + p.1 • p.2) abc0

variable [Monoid TF] [DecidableEq GT] [AddCommGroup GT]

/-- `batch_verify_proof` from line 540 on, with the coefficients as argument, `bench.rs:540-595`. `test.0`
is compared with the one of the target field, which is the neutral element of the target group. -/
def verifyWith (E : Engine G1 G2 GT TF) (pvk : G16PVK G1 G2) (inputs : List (List F))
    (proofs : List (G16Proof G1 G2)) (rs : List F) : Res Bool := do
  let ics ← (inputs.zip rs).mapM fun (row, r) => do return r • (← inputTerm pvk.vk.gammaAbc row)
  let as := (proofs.zip rs).map fun (p, r) => r • p.a
  let ab ← E.multiMillerLoop as (proofs.map (·.b))
  let c := ((proofs.zip rs).map fun (p, r) => r • p.c).sum
  let alpha := -(rs.sum • pvk.vk.alpha)
  let qap ← E.multiMillerLoop [alpha, ics.sum, c] [pvk.vk.beta, pvk.gammaNeg, pvk.deltaNeg]
  match E.finalExp (qap * ab) with
  | none => .error .unexpectedIdentity
  | some t => return decide (t = 0)

/-- `batch_verify_proof`, `bench.rs:528-595`. -/
def verify (E : Engine G1 G2 GT TF) (rand : ρ → ℕ × ρ) (seed : ρ) (pvk : G16PVK G1 G2)
    (inputs : List (List F)) (proofs : List (G16Proof G1 G2)) : Res Bool :=
  verifyWith E pvk inputs proofs (coefficients rand seed proofs.length)

end Batch

end Ripp
