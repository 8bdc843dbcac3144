import Verif.Props.Groth16Verify

/-!
# C74: aggregation over the reference string made by `setup_inner_product`

Property statements are in `properties.jsonl`.
-/

set_option linter.unusedSectionVars false
set_option linter.unusedVariables false

namespace Ripp.Groth16

open Spec

variable {ρ F G1 G2 GT TF : Type} [Field F] [DecidableEq F]
  [AddCommGroup G1] [Module F G1] [AddCommGroup G2] [Module F G2] [Monoid TF]
  [AddCommGroup GT] [Module F GT] [DecidableEq G1] [DecidableEq GT]
  {e : G1 →ₗ[F] G2 →ₗ[F] GT}

/-- C74: for every size at least 1 the set-up succeeds.  It samples two scalars, `α` before `β`, and
returns the `2·size - 1` powers of each, `β·g` and `α·h`.  It leaves the generator in the state after
those two draws: the identity commitment keys draw nothing. -/
theorem C74_setup (V : Env ρ F G1 G2 GT TF) (s : ρ) (size : ℕ) (hs : 1 ≤ size) :
    setup V s size = .ok
      (⟨(List.range (2 * size - 1)).map fun i => (V.randF s).1 ^ i • V.g,
        (List.range (2 * size - 1)).map fun i => (V.randF (V.randF s).2).1 ^ i • V.h,
        (V.randF (V.randF s).2).1 • V.g, (V.randF s).1 • V.h⟩, (V.randF (V.randF s).2).2) := by
  have h0 : size ≠ 0 := by omega
  simp only [setup, tipaSetup, if_neg h0,
    structuredGenerators_eq _ _ _ (show 0 < 2 * size - 1 by omega)]
  simp [identityCommitment, powers, Function.comp_def, unwrap]

/-- C74: size 0 panics: `2 * size - 1` underflows. -/
theorem C74_setup_zero (V : Env ρ F G1 G2 GT TF) (s : ρ) :
    setup V s 0 = .error (.panic .overflow) := rfl

/-- C74: end to end.  Over the reference string of the set-up for `2^(k+1)` proofs, `2^(k+1)` valid
Groth16 proofs are aggregated into an accepted proof, unless a challenge search runs through all
nonces, provided the challenge of the batch is neither 0 nor 1. -/
theorem C74_end_to_end (V : Env ρ F G1 G2 GT TF) (hE : V.E.Lawful e)
    (hd : ∀ x, 16 ≤ (V.digest x).length) (k : ℕ) (s s' : ρ) (srs : SRS G1 G2)
    (hset : setup V s (2 ^ (k + 1)) = .ok (srs, s'))
    (vk : G16VK G1 G2) (proofs : List (G16Proof G1 G2)) (inputs : List (List F))
    (hp : proofs.length = 2 ^ (k + 1)) (hv : List.Forall₂ (Valid e vk) proofs inputs)
    (hr : ∀ r, challenge V (dot (e · ·) (proofs.map (·.a)) srs.commitmentKeys.1)
      (dot (e · ·) srs.commitmentKeys.2 (proofs.map (·.b)))
      (dot (e · ·) (proofs.map (·.c)) srs.commitmentKeys.1) = .ok r → r ≠ 0 ∧ r ≠ 1) :
    aggregate V srs proofs = .error .diverge ∨
    ∃ v proof, srs.verifierKey = .ok v ∧ aggregate V srs proofs = .ok proof ∧
      verify V v vk inputs proof = .ok true := by
  rw [C74_setup V s _ Nat.one_le_two_pow] at hset
  simp only [Except.ok.injEq, Prod.mk.injEq] at hset
  obtain ⟨rfl, rfl⟩ := hset
  exact C49_complete hE hd k _ V.g V.h (V.randF s).1 (V.randF (V.randF s).2).1 ⟨rfl, rfl, rfl, rfl⟩
    vk proofs inputs hp hv hr

/-- C74: a batch whose size is not that of the reference string is refused with the length error of
the first commitment. -/
theorem C74_wrong_batch (V : Env ρ F G1 G2 GT TF) (s s' : ρ) (size : ℕ)
    (hs : 1 ≤ size) (srs : SRS G1 G2) (hset : setup V s size = .ok (srs, s'))
    (proofs : List (G16Proof G1 G2)) (hp : proofs.length ≠ size) :
    aggregate V srs proofs = .error (.ipLength proofs.length size) := by
  rw [C74_setup V s _ hs] at hset
  simp only [Except.ok.injEq, Prod.mk.injEq] at hset
  obtain ⟨rfl, rfl⟩ := hset
  have h1 := C64_wrong_size V
    (⟨(List.range (2 * size - 1)).map fun i => (V.randF s).1 ^ i • V.g,
      (List.range (2 * size - 1)).map fun i => (V.randF (V.randF s).2).1 ^ i • V.h,
      (V.randF (V.randF s).2).1 • V.g, (V.randF s).1 • V.h⟩ : SRS G1 G2) proofs
  simp only [SRS.commitmentKeys, stepBy2_map_range, List.length_map, List.length_range] at h1
  exact h1 hp.symm

/-- The toy set-up of size 4. -/
example : setup Toy.env (0 : ℕ) 4 = .ok (⟨(List.range 7).map fun i => (Toy.env.randF 0).1 ^ i • 1,
    (List.range 7).map fun i => (Toy.env.randF (Toy.env.randF 0).2).1 ^ i • 1,
    (Toy.env.randF (Toy.env.randF 0).2).1 • 1, (Toy.env.randF 0).1 • 1⟩,
    (Toy.env.randF (Toy.env.randF 0).2).2) :=
  C74_setup Toy.env 0 4 (by norm_num)

/-- C74 applied: four valid proofs are aggregated over it; three are refused. -/
example : ∃ srs s', setup Toy.env (0 : ℕ) 4 = .ok (srs, s') ∧
    (aggregate Toy.env srs toyProofs = .error .diverge ∨
      ∃ v proof, srs.verifierKey = .ok v ∧ aggregate Toy.env srs toyProofs = .ok proof ∧
        verify Toy.env v toyVK [[1], [2], [3], [4]] proof = .ok true) ∧
    aggregate Toy.env srs (toyProofs.take 3) = .error (.ipLength 3 4) := by
  refine ⟨_, _, C74_setup Toy.env 0 4 (by norm_num), ?_, ?_⟩
  · exact C74_end_to_end (e := Toy.e) Toy.env Toy.lawful Toy.digest_length 1 0 _ _
      (C74_setup Toy.env 0 4 (by norm_num)) toyVK toyProofs _ rfl toy_valid
      (fun r hc => by rw [challenge_toy] at hc; cases hc; exact ⟨by decide, by decide⟩)
  · exact C74_wrong_batch Toy.env 0 _ 4 (by norm_num) _
      (C74_setup Toy.env 0 4 (by norm_num)) _ (by simp [toyProofs])

end Ripp.Groth16
