import Verif.Lemmas.KeyPoly
import Verif.Props.Extract
import Verif.Props.Tipa

/-!
# C70: final keys that pass the opening check, for algebraic provers

The group elements of an algebraic prover are combinations of the reference string: in `G2` of
`β^i h` and `α h`, in `G1` of `α^i g` and `β g`. The coefficients of the powers are given as a
polynomial.
-/

set_option linter.unusedSectionVars false

namespace Ripp

open Spec Polynomial

section
variable {F G1 G2 GT TF : Type} [Field F] [DecidableEq F]
  [AddCommGroup G1] [Module F G1] [AddCommGroup G2] [Module F G2]
  [AddCommGroup GT] [Module F GT] [Monoid TF] [DecidableEq GT]
  {E : Engine G1 G2 GT TF} {e : G1 →ₗ[F] G2 →ₗ[F] GT}

/-- The polynomial of the trapdoors that an accepted opening `op + b Y` of `k + a Y` to the value `v` at
`z` makes zero: `powerPart + Y · otherPart`. -/
noncomputable def powerPart (k op : F[X]) (v z : F) : F[X] := k - C v - (X - C z) * op
/-- The coefficient of `Y`. -/
noncomputable def otherPart (a b z : F) : F[X] := C a - (X - C z) * C b

/-- C70: the folded key is the key polynomial at the trapdoor. `tr` lists the challenges last round
first. -/
theorem C70_true_key {G : Type} [AddCommGroup G] [Module F G] (tr : List F) (h : G) (s r : F) :
    foldAll tr.reverse ((List.range (2 ^ tr.length)).map fun i => r ^ i • (s ^ (2 * i) • h)) =
      [(keyPoly tr r).eval s • h] := by
  rw [fold_key tr h s r _ rfl, eval_keyPoly, ((C26_key_polynomial tr r).choose_spec.2.2.2.2 s).2]

/-- C70: the left check holds exactly if the trapdoors are a zero of an explicit polynomial. -/
theorem C70_check_G2 (hE : E.Lawful e) (g : G1) (h : G2) (hh : h ≠ 0) (α β : F)
    (hg : ∀ y, e g y = 0 → y = 0) (k op : F[X]) (a b : F) (tr : List F) (r z : F) :
    verifyKeyOpeningG2 E ⟨g, h, β • g, α • h⟩ (k.eval β • h + a • α • h) (op.eval β • h + b • α • h)
      tr r z = .ok true ↔
    (powerPart k op ((keyPoly tr r).eval z) z).eval β + α * (otherPart a b z).eval β = 0 := by
  rw [C28_check_G2 hE g h α β hg, ← eval_keyPoly, ← sub_eq_zero]
  have : k.eval β • h + a • α • h - (keyPoly tr r).eval z • h -
      (β - z) • (op.eval β • h + b • α • h) =
      ((powerPart k op ((keyPoly tr r).eval z) z).eval β + α * (otherPart a b z).eval β) • h := by
    simp only [powerPart, otherPart, eval_sub, eval_mul, eval_X, eval_C]
    module
  rw [this, smul_eq_zero, or_iff_left hh]

/-- C70: the right check, with the trapdoors exchanged. -/
theorem C70_check_G1 (hE : E.Lawful e) (g : G1) (h : G2) (hg : g ≠ 0) (α β : F)
    (hh : ∀ x, e x h = 0 → x = 0) (k op : F[X]) (a b : F) (tr : List F) (r z : F) :
    verifyKeyOpeningG1 E ⟨g, h, β • g, α • h⟩ (k.eval α • g + a • β • g) (op.eval α • g + b • β • g)
      tr r z = .ok true ↔
    (powerPart k op ((keyPoly tr r).eval z) z).eval α + β * (otherPart a b z).eval α = 0 := by
  rw [C28_check_G1 hE g h α β hh, ← eval_keyPoly, ← sub_eq_zero]
  have : k.eval α • g + a • β • g - (keyPoly tr r).eval z • g -
      (α - z) • (op.eval α • g + b • β • g) =
      ((powerPart k op ((keyPoly tr r).eval z) z).eval α + β * (otherPart a b z).eval α) • g := by
    simp only [powerPart, otherPart, eval_sub, eval_mul, eval_X, eval_C]
    module
  rw [this, smul_eq_zero, or_iff_left hg]

omit [DecidableEq F] in
/-- C70: if that polynomial is zero, the key is a polynomial in the powers alone and takes the value of
the key polynomial at the opened point. -/
theorem C70_zero_polynomial (k op : F[X]) (a b v z : F) (h1 : powerPart k op v z = 0)
    (h2 : otherPart a b z = 0) : a = 0 ∧ k.eval z = v := by
  constructor
  · have := congrArg (Polynomial.eval z) h2
    simpa [otherPart] using this
  · have := congrArg (Polynomial.eval z) h1
    simpa [powerPart, sub_eq_zero] using this

/-- C70: if it is not zero, at most `(d + 1) |S|` of the `|S|²` trapdoor pairs from `S` are zeros. -/
theorem C70_trapdoors (k op : F[X]) (a b v z : F)
    (h : ¬ (powerPart k op v z = 0 ∧ otherPart a b z = 0)) (d : ℕ) (hk : k.natDegree ≤ d)
    (ho : op.natDegree + 1 ≤ d) (S : Finset F) :
    ((S ×ˢ S).filter fun s => (powerPart k op v z).eval s.2 + s.1 * (otherPart a b z).eval s.2 = 0).card
      ≤ (d + 1) * S.card := by
  have hX : (X - C z : F[X]).natDegree ≤ 1 := natDegree_X_sub_C_le z
  refine card_pairs_le _ _ h d ?_ ?_ S
  · refine (natDegree_sub_le _ _).trans (max_le ((natDegree_sub_le _ _).trans (max_le hk (by simp))) ?_)
    refine natDegree_mul_le.trans ?_
    omega
  · refine (natDegree_sub_le _ _).trans (max_le (by simp) (natDegree_mul_le.trans ?_))
    rw [natDegree_C]
    omega

/-- C70: a wrong key polynomial agrees with the true one at no more than `d` points, where `d` bounds
its degree and is at least `2^(k+1) - 2`. -/
theorem C70_points (k : F[X]) (tr : List F) (r : F) (h : k ≠ keyPoly tr r) (d : ℕ)
    (hk : k.natDegree ≤ d) (hd : 2 ^ (tr.length + 1) - 2 ≤ d) (S : Finset F) :
    (S.filter fun z => k.eval z = (keyPoly tr r).eval z).card ≤ d :=
  card_agree_le _ _ h d hk ((natDegree_keyPoly tr r).trans hd) S

/-- An honest key: the quotient polynomial makes the trapdoor polynomial zero, for every point. -/
theorem honest_opening (tr : List F) (r z : F) : ∃ op : F[X],
    powerPart (keyPoly tr r) op ((keyPoly tr r).eval z) z = 0 ∧ otherPart 0 0 z = 0 := by
  refine ⟨(keyPoly tr r - C ((keyPoly tr r).eval z)) /ₘ (X - C z), ?_, by simp [otherPart]⟩
  rw [powerPart, sub_eq_zero]
  exact (mul_divByMonic_eq_iff_isRoot.mpr (by simp [IsRoot.def])).symm

example : ∃ op : Toy.F[X],
    verifyKeyOpeningG2 Toy.E ⟨(1 : Toy.F), (1 : Toy.F), (5 : Toy.F) • (1 : Toy.F), (3 : Toy.F) • (1 : Toy.F)⟩
      ((keyPoly [2, 7] (3 : Toy.F)).eval 5 • (1 : Toy.F) + (0 : Toy.F) • (3 : Toy.F) • (1 : Toy.F))
      (op.eval 5 • (1 : Toy.F) + (0 : Toy.F) • (3 : Toy.F) • (1 : Toy.F)) ([2, 7] : List Toy.F) 3 11 =
      .ok true := by
  obtain ⟨op, h1, h2⟩ := honest_opening ([2, 7] : List Toy.F) 3 11
  refine ⟨op, (C70_check_G2 Toy.lawful (1 : Toy.F) (1 : Toy.F) (by decide) (3 : Toy.F) 5
    (fun y h => by simpa using h) (keyPoly [2, 7] 3) op 0 0 [2, 7] 3 11).mpr ?_⟩
  rw [h1, h2]; simp

/-- The bad point is really needed: a prover that knows the point in advance passes with the constant
key `f(z)`, which is not the folded key. Here `f = 1 + 2 X²`, `z = 11`, `f(11) = 41` and `β = 5`,
`f(5) = 51`. -/
example : verifyKeyOpeningG2 Toy.E ⟨(1 : Toy.F), (1 : Toy.F), (5 : Toy.F) • (1 : Toy.F), (3 : Toy.F) • (1 : Toy.F)⟩
      (41 : Toy.F) (0 : Toy.F) ([2] : List Toy.F) 1 11 = .ok true ∧
    foldAll ([2] : List Toy.F)
      ((List.range (2 ^ 1)).map fun i => (1 : Toy.F) ^ i • ((5 : Toy.F) ^ (2 * i) • (1 : Toy.F))) =
      [51] := by
  refine ⟨?_, by decide +kernel⟩
  refine (C28_check_G2 Toy.lawful (1 : Toy.F) (1 : Toy.F) (3 : Toy.F) 5 (fun y h => by simpa using h)
    _ _ _ _ _).mpr ?_
  decide +kernel

end

namespace Tipa

variable {ρ F MA MB T KT OA OB OT G1 G2 GT TF : Type} [Field F] [DecidableEq F]
  [AddCommGroup MA] [Module F MA] [AddCommGroup MB] [Module F MB] [AddCommGroup T] [Module F T]
  [AddCommGroup G1] [Module F G1] [AddCommGroup G2] [Module F G2]
  [AddCommGroup GT] [Module F GT] [Monoid TF] [DecidableEq GT]
  [AddCommGroup OA] [Module F OA] [AddCommGroup OB] [Module F OB] [Add OT] [SMul F OT]
  [DecidableEq T] [DecidableEq OA] [DecidableEq OB] [DecidableEq OT]
  {P : Gipa ρ F MA MB T G2 G1 KT OA OB OT} {V : TipaEnv F G1 G2 GT TF}
  {bil : MA →ₗ[F] MB →ₗ[F] T} {φa : MA →ₗ[F] G2 →ₗ[F] OA} {φb : MB →ₗ[F] G1 →ₗ[F] OB}
  {ψ : KT → T → OT} {e : G1 →ₗ[F] G2 →ₗ[F] GT}

/-- Under the same hypotheses the final keys are the folded ones. -/
theorem folded_keys (L : P.Lawful bil φa φb ψ) (hE : V.E.Lawful e) (k : ℕ) (srs : SRS G1 G2) (g : G1)
    (h : G2) (α β : F) (hsrs : IsSrs srs g h α β (2 ^ k)) (hg0 : g ≠ 0) (hh0 : h ≠ 0)
    (hg : ∀ y, e g y = 0 → y = 0) (hh : ∀ x, e x h = 0 → x = 0)
    (v : VerifierSRS G1 G2) (hv : srs.verifierKey = .ok v) (kt : KT) (com com' : Coms OA OB OT)
    (proof : TipaProof G1 G2 MA MB OA OB OT) (r : F) (hr : r ≠ 0) (tr : List F) (c : F)
    (hk : proof.gipa.steps.length = k)
    (hrec : P.recursiveChallenges com proof.gipa = .ok (com', tr))
    (hc : kzgChallenge V P.digest P.serF tr proof.finalCk.1 proof.finalCk.2 = .ok c)
    (kA oA kB oB : F[X]) (a a' b b' : F)
    (hkA : proof.finalCk.1 = kA.eval β • h + a • α • h)
    (hoA : proof.finalCkProof.1 = oA.eval β • h + a' • α • h)
    (hkB : proof.finalCk.2 = kB.eval α • g + b • β • g)
    (hoB : proof.finalCkProof.2 = oB.eval α • g + b' • β • g)
    (tA : (powerPart kA oA ((keyPoly (tr.map (·⁻¹)) r⁻¹).eval c) c).eval β
        + α * (otherPart a a' c).eval β = 0 →
      powerPart kA oA ((keyPoly (tr.map (·⁻¹)) r⁻¹).eval c) c = 0 ∧ otherPart a a' c = 0)
    (tB : (powerPart kB oB ((keyPoly tr 1).eval c) c).eval α + β * (otherPart b b' c).eval α = 0 →
      powerPart kB oB ((keyPoly tr 1).eval c) c = 0 ∧ otherPart b b' c = 0)
    (cA : kA.eval c = (keyPoly (tr.map (·⁻¹)) r⁻¹).eval c → kA = keyPoly (tr.map (·⁻¹)) r⁻¹)
    (cB : kB.eval c = (keyPoly tr 1).eval c → kB = keyPoly tr 1)
    (hacc : verifyWithShift V P v kt com proof r = .ok true) :
    foldAll (tr.reverse.map (·⁻¹)) (srs.commitmentKeys.1.mapIdx fun i ck => (r⁻¹) ^ i • ck) = [proof.finalCk.1] ∧
      foldAll tr.reverse srs.commitmentKeys.2 = [proof.finalCk.2] := by
  obtain ⟨e1, e2, e3⟩ := C25_keys srs g h α β _ Nat.one_le_two_pow hsrs
  rw [e3] at hv
  have hv := (Except.ok.inj hv).symm
  subst hv
  obtain ⟨o1, o2, -⟩ := (C31_accepts_iff _ kt com com' proof r hr tr c hrec hc hE L).mp hacc
  rw [hkA, hoA, C70_check_G2 hE g h hh0 α β hg] at o1
  rw [hkB, hoB, C70_check_G1 hE g h hg0 α β hh] at o2
  obtain ⟨a0, za⟩ := C70_zero_polynomial _ _ _ _ _ _ (tA o1).1 (tA o1).2
  obtain ⟨b0, zb⟩ := C70_zero_polynomial _ _ _ _ _ _ (tB o2).1 (tB o2).2
  have hlen : tr.length = k := by
    have := (Gipa.C16_challenges_nonzero _ _ _ _ hrec).1
    rw [this, hk]
  have fA := C70_true_key (tr.map (·⁻¹)) h β r⁻¹
  have fB := C70_true_key tr g α 1
  rw [List.length_map, hlen, ← cA za, ← List.map_reverse] at fA
  rw [hlen, ← cB zb] at fB
  have e1' : (srs.commitmentKeys.1.mapIdx fun i ck => (r⁻¹) ^ i • ck) =
      (List.range (2 ^ k)).map fun i => r⁻¹ ^ i • (β ^ (2 * i) • h) := by
    rw [e1]
    apply List.ext_getElem?
    intro i
    simp only [List.getElem?_mapIdx, List.getElem?_map, Option.map_map, Function.comp_def]
    by_cases hi : i < 2 ^ k
    · simp [hi]
    · simp [hi]
  refine ⟨?_, ?_⟩
  · rw [e1', fA, hkA, a0]; simp
  · rw [e2, hkB, b0]; simpa using fB

/-- C70: a TIPA proof of an algebraic prover that is accepted with the verifier key is accepted by GIPA
with the whole key vectors, unless the trapdoors are a zero of one of two explicit non-zero polynomials,
or the KZG challenge `c` is one of the few points where a wrong key polynomial agrees with the true
one. -/
theorem C70_tipa (L : P.Lawful bil φa φb ψ) (hE : V.E.Lawful e) (k : ℕ) (srs : SRS G1 G2) (g : G1)
    (h : G2) (α β : F) (hsrs : IsSrs srs g h α β (2 ^ k)) (hg0 : g ≠ 0) (hh0 : h ≠ 0)
    (hg : ∀ y, e g y = 0 → y = 0) (hh : ∀ x, e x h = 0 → x = 0)
    (v : VerifierSRS G1 G2) (hv : srs.verifierKey = .ok v) (kt : KT) (com com' : Coms OA OB OT)
    (proof : TipaProof G1 G2 MA MB OA OB OT) (r : F) (hr : r ≠ 0) (tr : List F) (c : F)
    (hk : proof.gipa.steps.length = k)
    (hrec : P.recursiveChallenges com proof.gipa = .ok (com', tr))
    (hc : kzgChallenge V P.digest P.serF tr proof.finalCk.1 proof.finalCk.2 = .ok c)
    (kA oA kB oB : F[X]) (a a' b b' : F)
    (hkA : proof.finalCk.1 = kA.eval β • h + a • α • h)
    (hoA : proof.finalCkProof.1 = oA.eval β • h + a' • α • h)
    (hkB : proof.finalCk.2 = kB.eval α • g + b • β • g)
    (hoB : proof.finalCkProof.2 = oB.eval α • g + b' • β • g)
    (tA : (powerPart kA oA ((keyPoly (tr.map (·⁻¹)) r⁻¹).eval c) c).eval β
        + α * (otherPart a a' c).eval β = 0 →
      powerPart kA oA ((keyPoly (tr.map (·⁻¹)) r⁻¹).eval c) c = 0 ∧ otherPart a a' c = 0)
    (tB : (powerPart kB oB ((keyPoly tr 1).eval c) c).eval α + β * (otherPart b b' c).eval α = 0 →
      powerPart kB oB ((keyPoly tr 1).eval c) c = 0 ∧ otherPart b b' c = 0)
    (cA : kA.eval c = (keyPoly (tr.map (·⁻¹)) r⁻¹).eval c → kA = keyPoly (tr.map (·⁻¹)) r⁻¹)
    (cB : kB.eval c = (keyPoly tr 1).eval c → kB = keyPoly tr 1)
    (hacc : verifyWithShift V P v kt com proof r = .ok true) :
    P.verify (srs.commitmentKeys.1.mapIdx fun i ck => (r⁻¹) ^ i • ck) srs.commitmentKeys.2 kt com
      proof.gipa = .ok true := by
  obtain ⟨e1, e2, -⟩ := C25_keys srs g h α β _ Nat.one_le_two_pow hsrs
  obtain ⟨f1, f2⟩ := folded_keys L hE k srs g h α β hsrs hg0 hh0 hg hh v hv kt com com' proof r hr tr c hk hrec hc kA oA
    kB oB a a' b b' hkA hoA hkB hoB tA tB cA cB hacc
  exact (C31_same_verdict _ kt com com' proof r hr tr c hrec hc hE L _ _ (by simp [e1, hk]) (by simp [e2, hk]) f1 f2).1 hacc

end Tipa
end Ripp
