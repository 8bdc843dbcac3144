import Verif.Props.GipaInstances
import Verif.Props.Sipp

/-! # C73: provers on vectors of different lengths -/

set_option linter.unusedSectionVars false

namespace Ripp

open Spec

section Slices
variable {α : Type}

theorem sliceTo_of_gt (xs : List α) (n : ℕ) (h : xs.length < n) : sliceTo xs n = panic' .bounds := by
  rw [sliceTo, if_neg (by omega)]

theorem sliceFrom_of_gt (xs : List α) (n : ℕ) (h : xs.length < n) :
    sliceFrom xs n = panic' .bounds := by
  rw [sliceFrom, if_neg (by omega)]

end Slices

namespace Gipa

variable {ρ F MA MB T KA KB KT OA OB OT : Type} [Field F] [DecidableEq F]
  [AddCommGroup MA] [Module F MA] [AddCommGroup MB] [Module F MB]
  [AddCommGroup KA] [Module F KA] [AddCommGroup KB] [Module F KB]
  (P : Gipa ρ F MA MB T KA KB KT OA OB OT)

/-- C73: the recursive prover asserts that the left message has power-of-two length. -/
theorem C73_not_power_of_two (ma : List MA) (mb : List MB) (cka : List KA) (ckb : List KB)
    (kt : List KT) (h : ∀ k, ma.length ≠ 2 ^ k) :
    P.proveWithAux ma mb cka ckb kt = panic' .assertion := by
  rw [proveWithAux, isPow2_eq_false.mpr h]; rfl

/-- C73: if one of the other vectors is shorter than half of the left message the prover panics. -/
theorem C73_too_short (k : ℕ) (ma : List MA) (mb : List MB) (cka : List KA) (ckb : List KB)
    (kt : List KT) (hk : ma.length = 2 ^ (k + 1))
    (h : mb.length < 2 ^ k ∨ cka.length < 2 ^ k ∨ ckb.length < 2 ^ k) :
    P.proveWithAux ma mb cka ckb kt = panic' .bounds := by
  have h2 : (2 : ℕ) ^ (k + 1) = 2 * 2 ^ k := by rw [pow_succ]; ring
  have hp := Nat.two_pow_pos k
  rw [proveWithAux, hk, isPow2_two_pow, h2, proveLoop.eq_def]
  obtain ⟨f, hf⟩ : ∃ f, 2 * 2 ^ k = f + 1 := ⟨2 * 2 ^ k - 1, by omega⟩
  have hdiv : (2 : ℕ) ^ (k + 1) / 2 = 2 ^ k := by omega
  simp only [assert_true, ok_bind, hk, show ¬ (2 : ℕ) ^ (k + 1) = 1 by omega, if_false]
  rw [hf]
  simp only [proveRound, hk, hdiv]
  rw [sliceFrom_of_le ma _ (by omega), sliceTo_of_le ma _ (by omega)]
  simp only [ok_bind]
  by_cases h3 : cka.length < 2 ^ k
  · rw [sliceTo_of_gt cka _ h3]; rfl
  rw [sliceTo_of_le cka _ (by omega), sliceFrom_of_le cka _ (by omega)]
  simp only [ok_bind]
  by_cases h4 : mb.length < 2 ^ k
  · rw [sliceTo_of_gt mb _ h4]; rfl
  rw [sliceTo_of_le mb _ (by omega), sliceFrom_of_le mb _ (by omega)]
  simp only [ok_bind]
  rw [sliceFrom_of_gt ckb _ (by omega)]; rfl

/-- C73: for a left message of length one the first entries of the others are returned; it panics if one
is empty, and ignores further entries. -/
theorem C73_length_one (a : MA) (mb : List MB) (cka : List KA) (ckb : List KB) (kt : List KT) :
    P.proveWithAux [a] mb cka ckb kt =
      match mb, cka, ckb with
      | b :: _, ka :: _, kb :: _ =>
        .ok ({ steps := [], base := (a, b) }, { transcript := [], ckBase := (ka, kb) })
      | _, _, _ => panic' .bounds := by
  rw [proveWithAux]
  have : isPow2 ([a] : List MA).length = true := (isPow2_iff _).mpr ⟨0, rfl⟩
  rw [this, proveLoop.eq_def]
  cases mb <;> cases cka <;> cases ckb <;> rfl

/-- C73: with inner products and commitments that reject different lengths, the prover returns an error
or panics unless the four vectors have the same length (or the left message has length one). -/
theorem C73_unequal (hip : ∀ a b, a.length ≠ b.length → ∃ f, P.ip a b = .error f)
    (hl : ∀ k m, k.length ≠ m.length → ∃ f, P.lmc.commit k m = .error f)
    (hr : ∀ k m, k.length ≠ m.length → ∃ f, P.rmc.commit k m = .error f)
    (ma : List MA) (mb : List MB) (cka : List KA) (ckb : List KB) (kt : List KT)
    (h1 : ma.length ≠ 1)
    (h : ¬ (mb.length = ma.length ∧ cka.length = ma.length ∧ ckb.length = ma.length)) :
    ∃ f, P.proveWithAux ma mb cka ckb kt = .error f := by
  by_cases hp : ∃ k, ma.length = 2 ^ k
  swap
  · exact ⟨_, C73_not_power_of_two P ma mb cka ckb kt (by simpa using hp)⟩
  obtain ⟨k, hk⟩ := hp
  cases k with
  | zero => exact absurd hk h1
  | succ k =>
  by_cases hs : mb.length < 2 ^ k ∨ cka.length < 2 ^ k ∨ ckb.length < 2 ^ k
  · exact ⟨_, C73_too_short P k ma mb cka ckb kt hk hs⟩
  have h2 : (2 : ℕ) ^ (k + 1) = 2 * 2 ^ k := by rw [pow_succ]; ring
  have hpos := Nat.two_pow_pos k
  push Not at hs
  obtain ⟨s1, s2, s3⟩ := hs
  have hround : ∃ f, P.proveRound kt
      { ma := ma, mb := mb, cka := cka, ckb := ckb, steps := [], transcript := [] } = .error f := by
    have hdiv : (2 : ℕ) ^ (k + 1) / 2 = 2 ^ k := by omega
    simp only [proveRound, hk, hdiv]
    rw [sliceFrom_of_le ma _ (by omega), sliceTo_of_le ma _ (by omega),
      sliceTo_of_le cka _ (by omega), sliceFrom_of_le cka _ (by omega),
      sliceTo_of_le mb _ (by omega), sliceFrom_of_le mb _ (by omega),
      sliceFrom_of_le ckb _ (by omega), sliceTo_of_le ckb _ (by omega)]
    simp only [ok_bind]
    cases P.lmc.commit (cka.take (2 ^ k)) (ma.drop (2 ^ k)) with
    | error f => exact ⟨f, rfl⟩
    | ok l1 =>
    by_cases hb : ckb.length = ma.length
    swap
    · obtain ⟨f, hf⟩ := hr (ckb.drop (2 ^ k)) (mb.take (2 ^ k)) (by simp; omega)
      exact ⟨f, by rw [hf]; rfl⟩
    cases P.rmc.commit (ckb.drop (2 ^ k)) (mb.take (2 ^ k)) with
    | error f => exact ⟨f, rfl⟩
    | ok r1 =>
    cases P.ip (ma.drop (2 ^ k)) (mb.take (2 ^ k)) with
    | error f => exact ⟨f, rfl⟩
    | ok t1 =>
    simp only [ok_bind]
    cases P.ipc.commit kt [t1] with
    | error f => exact ⟨f, rfl⟩
    | ok t1' =>
    by_cases ha : cka.length = ma.length
    swap
    · obtain ⟨f, hf⟩ := hl (cka.drop (2 ^ k)) (ma.take (2 ^ k)) (by simp; omega)
      exact ⟨f, by simp only [ok_bind, hf]; rfl⟩
    simp only [ok_bind]
    cases P.lmc.commit (cka.drop (2 ^ k)) (ma.take (2 ^ k)) with
    | error f => exact ⟨f, rfl⟩
    | ok l2 =>
    obtain ⟨f, hf⟩ := hr (ckb.take (2 ^ k)) (mb.drop (2 ^ k)) (by simp; omega)
    exact ⟨f, by simp only [ok_bind, hf]; rfl⟩
  obtain ⟨f, hf⟩ := hround
  refine ⟨f, ?_⟩
  rw [proveWithAux, hk, isPow2_two_pow, proveLoop.eq_def]
  obtain ⟨n, hn⟩ : ∃ n, (2 : ℕ) ^ (k + 1) = n + 1 := ⟨2 ^ (k + 1) - 1, by omega⟩
  simp only [assert_true, ok_bind, hk, show ¬ (2 : ℕ) ^ (k + 1) = 1 by omega, if_false]
  rw [hn]
  simp only [hf]
  rfl

end Gipa

section
variable {ρ F G1 G2 GT TF : Type} [Field F] [DecidableEq F]
  [AddCommGroup G1] [Module F G1] [AddCommGroup G2] [Module F G2]
  [AddCommGroup GT] [Module F GT] [Monoid TF] (V : Env ρ F G1 G2 GT TF)

/-- C73 for the pairing inner product with AFGHO commitments. -/
theorem C73_pairing (ma : List G1) (mb : List G2) (cka : List G2) (ckb : List G1)
    (kt : List Placeholder) (h1 : ma.length ≠ 1)
    (h : ¬ (mb.length = ma.length ∧ cka.length = ma.length ∧ ckb.length = ma.length)) :
    ∃ f, V.pairingAB.proveWithAux ma mb cka ckb kt = .error f :=
  Gipa.C73_unequal V.pairingAB (fun a b h => ⟨_, pairingIP_err V.E V.X a b h⟩)
    (fun k m h => ⟨_, pairingIP_err V.E V.X m k (Ne.symm h)⟩)
    (fun k m h => ⟨_, pairingIP_err V.E V.X k m h⟩) ma mb cka ckb kt h1 h

/-- C73 for the multiexponentiation inner product. -/
theorem C73_multiexponentiation (ma : List G1) (mb : List F) (cka : List G2) (ckb : List G1)
    (kt : List Placeholder) (h1 : ma.length ≠ 1)
    (h : ¬ (mb.length = ma.length ∧ cka.length = ma.length ∧ ckb.length = ma.length)) :
    ∃ f, V.multiexpGipa.proveWithAux ma mb cka ckb kt = .error f :=
  Gipa.C73_unequal V.multiexpGipa (fun a b h => ⟨_, multiexpIP_err a b h⟩)
    (fun k m h => ⟨_, pairingIP_err V.E V.X m k (Ne.symm h)⟩)
    (fun k m h => ⟨_, multiexpIP_err k m h⟩) ma mb cka ckb kt h1 h

/-- C73 for the scalar inner product. -/
theorem C73_scalar (ma : List F) (mb : List F) (cka : List G2) (ckb : List G2)
    (kt : List Placeholder) (h1 : ma.length ≠ 1)
    (h : ¬ (mb.length = ma.length ∧ cka.length = ma.length ∧ ckb.length = ma.length)) :
    ∃ f, V.scalarGipa.proveWithAux ma mb cka ckb kt = .error f :=
  Gipa.C73_unequal V.scalarGipa (fun a b h => ⟨_, scalarIP_err V.X a b h⟩)
    (fun k m h => ⟨_, multiexpIP_err k m h⟩)
    (fun k m h => ⟨_, multiexpIP_err k m h⟩) ma mb cka ckb kt h1 h

end

example : Toy.env.pairingAB.proveWithAux [1, 2, 3, 4] [5] [1, 1, 1, 1] [1, 1, 1, 1] [PUnit.unit] =
    panic' .bounds := Gipa.C73_too_short _ 1 _ _ _ _ _ rfl (.inl (by simp))

example : ∃ f, Toy.env.pairingAB.proveWithAux [1, 2, 3, 4] [5, 6, 7] [1, 1, 1, 1] [1, 1, 1, 1]
    [PUnit.unit] = .error f := C73_pairing _ _ _ _ _ _ (by simp) (by simp)

namespace Sipp

section
variable {σ F G1 G2 GT TF : Type} [Field F] [DecidableEq F] [AddCommGroup G1] [Module F G1]
  [AddCommGroup G2] [Module F G2] [AddCommGroup GT] [Module F GT] [Monoid TF]

/-- C73: the SIPP prover panics if there are fewer coefficients than half the length. -/
theorem C73_sipp_short_coefficients (V : Env σ F G1 G2 GT TF) (k : ℕ) (a : List G1) (b : List G2)
    (r : List F) (value : GT) (ha : a.length = 2 ^ (k + 1)) (hb : b.length = 2 ^ (k + 1))
    (hr : r.length < 2 ^ k) : prove V a b r value = panic' .bounds := by
  have h2 : (2 : ℕ) ^ (k + 1) = 2 * 2 ^ k := by rw [pow_succ]; ring
  have hpos := Nat.two_pow_pos k
  have hdiv : (2 : ℕ) ^ (k + 1) / 2 = 2 ^ k := by omega
  have key : ∀ (fuel : ℕ) (rng : Rng σ), 0 < fuel → proveLoop V fuel (2 ^ (k + 1))
      (List.zipWith (fun a r => r • a) a r) b rng [] = panic' .bounds := by
    intro fuel rng hf
    obtain ⟨n, rfl⟩ : ∃ n, fuel = n + 1 := ⟨fuel - 1, by omega⟩
    rw [proveLoop, if_neg (by omega)]
    simp only [hdiv]
    rw [sliceTo_of_gt _ _ (by simp; omega)]
    rfl
  rw [prove, ha, hb, isPow2_two_pow]
  simp only [beq_self_eq_true, assert_true, ok_bind]
  exact key _ _ (by omega)

end

/-- C73: with one coefficient missing the SIPP prover can return a proof: there is no length check, and
the verifier panics on the result. -/
theorem C73_sipp_missing_coefficient : ∃ (V : Env Unit Toy.F Toy.F Toy.F Toy.F Toy.TF)
    (a b r : List Toy.F) (value : Toy.F) (proof : List (Toy.F × Toy.F)),
    V.E.Lawful Toy.e ∧ a.length = b.length ∧ r.length + 1 = a.length ∧
    prove V a b r value = .ok proof ∧ verify V a b r value proof = panic' .unwrap := by
  refine ⟨Toy.sippEnv, [2, 3], [5, 7], [1], 14, [(0, 14)], Toy.lawful, rfl, rfl, ?_,
    C61_short_coeffs _ _ _ _ _ _ (by simp) rfl rfl (by simp)⟩
  have p1 : productOfPairings (F := Toy.F) Toy.sippEnv ([] : List Toy.F) [5] = .ok 0 := by
    rw [C66_mismatched (e := Toy.e) Toy.lawful _ _ (by simp)]
    simp
  have p2 : productOfPairings (F := Toy.F) Toy.sippEnv [2] [7] = .ok 14 := by
    refine (C54_plain (V := Toy.sippEnv) (e := Toy.e) Toy.lawful [2] [7] rfl).trans ?_
    simp
    decide
  rw [prove]
  simp only [List.length_cons, List.length_nil, beq_self_eq_true, assert_true, ok_bind,
    show isPow2 (0 + 1 + 1) = true from (isPow2_iff _).mpr ⟨1, rfl⟩]
  rw [proveLoop]
  simp [sliceTo, sliceFrom, p1, p2]
  have hx : ∀ rng : Rng Unit, (roundChallenge Toy.sippEnv rng (0, 14) : Toy.F × Rng Unit).1 ≠ 0 :=
    fun rng => toy_draw_ne_zero (rng.absorb Toy.sippEnv (Toy.ser 0 ++ Toy.ser 14))
  rw [inverse_of_ne (hx _)]
  simp [proveLoop]

end Sipp

end Ripp
