import Verif.Lemmas.Tipa
import Verif.Props.Gipa

/-! # Structured scalar messages -/

set_option linter.unusedSectionVars false
set_option linter.unusedVariables false

namespace Ripp

open Spec

section Scalars
variable {F : Type} [Field F] [DecidableEq F]

theorem structuredScalarPower_aux (s : F) : ∀ n : ℕ,
    (List.range' 1 n).foldlM (m := Except Fault)
      (fun powers i => do return powers ++ [(← idx powers (i - 1)) * s]) [1] = .ok (powers s (n + 1))
  | 0 => by simp [powers]
  | n + 1 => by
    rw [List.range'_concat, List.foldlM_append, structuredScalarPower_aux s n]
    simp only [ok_bind, List.foldlM_cons, List.foldlM_nil, one_mul,
      show 1 + n - 1 = n by omega]
    rw [idx_of_lt _ _ (by simp)]
    rw [powers_succ' s (n + 1)]
    simp [powers, pow_succ]

theorem structuredScalarPower_eq (num : ℕ) (s : F) :
    structuredScalarPower num s = .ok (powers s (max 1 num)) := by
  rw [structuredScalarPower, structuredScalarPower_aux, show num - 1 + 1 = max 1 num by omega]

theorem finalScalarLoop_eq : ∀ (xs : List F) (p : F) (acc : List F), (∀ x ∈ xs, x ≠ 0) →
    finalScalarLoop xs p acc = .ok (acc ++ (scaled (xs.map (·⁻¹)) p).map (1 + ·))
  | [], _, acc, _ => by simp [finalScalarLoop, scaled]
  | x :: xs, p, acc, h => by
    rw [finalScalarLoop, inverse_of_ne (h x (by simp))]
    simp only [unwrap_some, ok_bind]
    rw [finalScalarLoop_eq xs _ _ fun y hy => h y (by simp [hy])]
    simp [scaled]

/-- The product over the transcript, `∏ (1 + x_j⁻¹ b^(2^j))`. -/
theorem finalScalar_eq (X : Exec) (tr : List F) (b : F) (h : ∀ x ∈ tr, x ≠ 0) :
    finalScalar X tr b = .ok ((scaled (tr.map (·⁻¹)) b).map (1 + ·)).prod := by
  simp [finalScalar, finalScalarLoop_eq _ _ _ h, parReduce_mul]

/-- Powers folded with the challenges `xs` (last first). -/
theorem fold_powers (xs : List F) (b : F) :
    foldAll xs.reverse (powers b (2 ^ xs.length)) = [((scaled xs b).map (1 + ·)).prod] := by
  rw [dot_exps xs _ (by simp)]
  have := dot_srs (1 : F) b (2 ^ xs.length) (exps xs) (length_exps xs).le
  rw [polyEval_exps] at this
  simpa using this

theorem finalScalar_fold (X : Exec) (cs : List F) (b : F) (h : ∀ x ∈ cs, x ≠ 0) (v : F)
    (hv : foldAll (cs.map (·⁻¹)) (powers b (2 ^ cs.length)) = [v]) :
    finalScalar X cs.reverse b = .ok v := by
  rw [finalScalar_eq _ _ _ (by simpa using h)]
  have := fold_powers (cs.reverse.map (·⁻¹)) b
  rw [← List.map_reverse, List.reverse_reverse, List.length_map, List.length_reverse, hv] at this
  simp only [List.cons.injEq, and_true] at this
  rw [← this]

end Scalars

section
variable {ρ F MA T KA KT OA OT : Type} [Field F] [DecidableEq F]
  [AddCommGroup MA] [Module F MA] [AddCommGroup T] [Module F T] [AddCommGroup KA] [Module F KA]
  [AddCommGroup OA] [Module F OA] [Add OT] [SMul F OT] [DecidableEq OA] [DecidableEq OT]
  {P : Gipa ρ F MA F T KA Placeholder KT OA F OT}
  {bil : MA →ₗ[F] F →ₗ[F] T} {φa : MA →ₗ[F] KA →ₗ[F] OA} {ψ : KT → T → OT}

namespace GipaSsm

theorem verify_eq (L : P.Lawful bil φa 0 ψ) (X : Exec) (cka : List KA) (kt : KT) (comA : OA)
    (comT : OT) (b : F) (proof : GipaProof MA F OA F OT)
    (ha : cka.length = 2 ^ proof.steps.length) :
    verify X P cka kt comA comT b proof =
      (P.chals proof.steps.reverse [] >>= fun cs =>
        let com' := Gipa.foldMany proof.steps.reverse cs (comA, 0, comT)
        let ka := dot (fun g x => x • g) cka (exps (cs.reverse.map (·⁻¹)))
        let v := ((scaled (cs.reverse.map (·⁻¹)) b).map (1 + ·)).prod
        .ok (decide (com' = (φa proof.base.1 ka, 0, ψ kt (bil proof.base.1 proof.base.2))) &&
          decide (com'.1 = φa proof.base.1 ka ∧ com'.2.2 = ψ kt (bil proof.base.1 v)))) := by
  unfold verify
  rw [Gipa.recursiveChallenges_eq]
  cases h : P.chals proof.steps.reverse [] with
  | error e => rfl
  | ok cs =>
    obtain ⟨new, hnew, hl, hn⟩ := P.chals_prefix _ _ _ h
    simp only [List.nil_append] at hnew
    subst hnew
    have hne : ∀ x ∈ cs.reverse, x ≠ 0 := fun x hx => hn x (by simpa using hx)
    simp only [ok_bind]
    rw [finalKeys_eq cka _ cs.reverse (by simp [ha, hl])
      (by rw [List.length_replicate, ha]; exact Nat.two_pow_pos _) hne]
    simp only [ok_bind]
    rw [Gipa.verifyBase_eq L, finalScalar_eq X _ _ hne]
    simp only [ok_bind, L.ip_ok [proof.base.1] [_] rfl, Commitment.verify, L.lmc_ok [_] [_] rfl,
      L.ipc_ok, pure_eq_ok, Gipa.honestComs, dot_singleton, LinearMap.zero_apply]
    set w := Gipa.foldMany proof.steps.reverse cs (comA, 0, comT)
    generalize φa proof.base.1 (dot (fun g x => x • g) cka (exps (cs.reverse.map (·⁻¹)))) = q
    generalize ((scaled (cs.reverse.map (·⁻¹)) b).map (1 + ·)).prod = v
    by_cases h1 : w.1 = q
    · simp [h1, eq_comm]
    · have h1' : ¬ q = w.1 := fun h => h1 h.symm
      simp [h1, h1']

end GipaSsm
end

namespace Gipa

variable {ρ F MA T KA KT OA OT : Type} [Field F] [DecidableEq F]
  [AddCommGroup MA] [Module F MA] [AddCommGroup T] [Module F T] [AddCommGroup KA] [Module F KA]
  [AddCommGroup OA] [Module F OA] [Add OT] [SMul F OT]
  {P : Gipa ρ F MA F T KA Placeholder KT OA F OT}
  {bil : MA →ₗ[F] F →ₗ[F] T} {φa : MA →ₗ[F] KA →ₗ[F] OA} {ψ : KT → T → OT}

/-- A folding of `(comA, 0, comT)` for the message `1, b, b², …` makes the structured-message verifier
accept. -/
theorem FoldOutcome.verify_ssm [DecidableEq OA] [DecidableEq OT] (L : P.Lawful bil φa 0 ψ) (X : Exec)
    {kt : KT} {k : ℕ} {ma : List MA} {cka : List KA} {ckb : List Placeholder} {comA : OA} {comT : OT}
    {steps : List (Coms OA F OT × Coms OA F OT)} {cs : List F} {a : MA} {b' : F} {ka : KA}
    {kb : Placeholder} {b : F} (h3 : cka.length = 2 ^ k)
    (O : FoldOutcome P bil φa 0 ψ kt k ma (powers b (2 ^ k)) cka ckb (comA, 0, comT) steps cs a b'
      ka kb) :
    GipaSsm.verify X P cka kt comA comT b { steps := steps.reverse, base := (a, b') } = .ok true := by
  rw [GipaSsm.verify_eq L X _ _ _ _ _ _ (by simp [O.length_steps, h3])]
  simp only [List.reverse_reverse, O.chals, ok_bind, O.coms]
  have hka : dot (fun g x => x • g) cka (exps (cs.reverse.map (·⁻¹))) = ka := by
    have := dot_exps (cs.reverse.map (·⁻¹)) cka (by simp [O.length_cs, h3])
    rw [← List.map_reverse, List.reverse_reverse, O.fold_cka] at this
    simpa using this.symm
  have hv : ((scaled (cs.reverse.map (·⁻¹)) b).map (1 + ·)).prod = b' := by
    have := fold_powers (cs.reverse.map (·⁻¹)) b
    rw [← List.map_reverse, List.reverse_reverse, List.length_map, List.length_reverse, O.length_cs,
      O.fold_mb] at this
    simpa using this.symm
  rw [hka, hv]
  simp [honestComs]

end Gipa

namespace TipaSsm

variable {ρ F MA T KT OA OT G1 G2 GT TF : Type} [Field F] [DecidableEq F]
  [AddCommGroup MA] [Module F MA] [AddCommGroup T] [Module F T]
  [AddCommGroup G1] [Module F G1] [AddCommGroup G2] [Module F G2]
  [AddCommGroup GT] [Module F GT] [Monoid TF] [DecidableEq GT]
  [AddCommGroup OA] [Module F OA] [Add OT] [SMul F OT] [DecidableEq OA] [DecidableEq OT]
  {P : Gipa ρ F MA F T G2 Placeholder KT OA F OT} {V : TipaEnv F G1 G2 GT TF}
  {bil : MA →ₗ[F] F →ₗ[F] T} {φa : MA →ₗ[F] G2 →ₗ[F] OA} {ψ : KT → T → OT}
  {e : G1 →ₗ[F] G2 →ₗ[F] GT}

theorem verify_eq (L : P.Lawful bil φa 0 ψ) (hE : V.E.Lawful e) (X : Exec) (v : VerifierSRS G1 G2)
    (kt : KT) (comA : OA) (comT : OT) (b : F) (proof : TipaSsmProof F G2 MA OA OT) (cs : List F)
    (hcs : P.chals proof.gipa.steps.reverse [] = .ok cs) (c : F)
    (hc : kzgChallenge V P.digest P.serF cs.reverse proof.finalCk = .ok c) :
    verify X V P v kt comA comT b proof =
      let com' := Gipa.foldMany proof.gipa.steps.reverse cs (comA, b, comT)
      let v' := ((scaled (cs.reverse.map (·⁻¹)) b).map (1 + ·)).prod
      .ok (decide (e v.g (proof.finalCk - productForm (cs.reverse.map (·⁻¹)) c 1 • v.h) =
          e (v.gBeta - c • v.g) proof.finalCkProof) &&
        decide (com'.1 = φa proof.gipa.base.1 proof.finalCk ∧
          com'.2.2 = ψ kt (bil proof.gipa.base.1 v'))) := by
  obtain ⟨new, hnew, hl, hn⟩ := P.chals_prefix _ _ _ hcs
  simp only [List.nil_append] at hnew
  subst hnew
  have hne : ∀ x ∈ cs.reverse, x ≠ 0 := fun x hx => hn x (by simpa using hx)
  unfold verify
  rw [Gipa.recursiveChallenges_eq, hcs]
  simp only [ok_bind]
  rw [invertAll_eq _ hne]
  simp only [ok_bind]
  rw [hc]
  simp only [ok_bind]
  rw [verifyKeyOpeningG2_eq hE, finalScalar_eq X _ _ hne]
  simp only [ok_bind, L.ip_ok [proof.gipa.base.1] [_] rfl, Commitment.verify, L.lmc_ok [_] [_] rfl,
    L.ipc_ok, pure_eq_ok, dot_singleton]
  set w := Gipa.foldMany proof.gipa.steps.reverse cs (comA, b, comT)
  by_cases h1 : φa proof.gipa.base.1 proof.finalCk = w.1
  · simp [h1, eq_comm]
  · have h1' : ¬ w.1 = φa proof.gipa.base.1 proof.finalCk := fun h => h1 h.symm
    simp [h1, h1']

open Gipa in
/-- From a folding of `(comA, 0, comT)` and the KZG challenge: the opening of the final key that the
prover computes and with which the verifier accepts. -/
theorem opening_of_fold (L : P.Lawful bil φa 0 ψ) (hE : V.E.Lawful e) (X : Exec) (k : ℕ)
    (srs : SRS G1 G2) (g : G1) (h : G2) (α β : F)
    (hsrs : IsLeftSrs srs g h α β (2 ^ k)) (ma : List MA) (ckb : List Placeholder) (kt : KT)
    (comA : OA) (comT : OT) (b : F)
    (steps : List (Coms OA F OT × Coms OA F OT)) (cs : List F) (a : MA) (b' : F) (ka : G2)
    (kb : Placeholder)
    (O : FoldOutcome P bil φa 0 ψ kt k ma (powers b (2 ^ k))
      ((List.range (2 ^ k)).map fun i => β ^ (2 * i) • h) ckb (comA, 0, comT) steps cs a b' ka kb)
    (c : F) (hc : kzgChallenge V P.digest P.serF cs.reverse ka = .ok c) :
    ∃ op, proveKeyOpening srs.hBetaPowers (cs.reverse.map (·⁻¹)) 1 c = .ok op ∧
      verify X V P ⟨g, h, β • g, α • h⟩ kt comA comT b
        ⟨{ steps := steps.reverse, base := (a, b') }, ka, op⟩ = .ok true := by
  set tr := cs.reverse with htr
  have hlen : tr.length = k := by simp [htr, O.length_cs]
  have hne : ∀ x ∈ tr, x ≠ 0 := fun x hx => O.ne_zero x (by simpa [htr] using hx)
  have hnei : ∀ x ∈ tr.map (·⁻¹), x ≠ 0 := by
    intro x hx
    obtain ⟨y, hy, rfl⟩ := List.mem_map.mp hx
    exact inv_ne_zero (hne y hy)
  have hka : ka = productForm (tr.map (·⁻¹)) β 1 • h := by
    have := fold_key (tr.map (·⁻¹)) h β 1
      ((List.range (2 ^ k)).map fun i => β ^ (2 * i) • h)
      (by rw [List.length_map, hlen]; simp)
    rw [← List.map_reverse, htr, List.reverse_reverse, O.fold_cka] at this
    simpa [htr] using this
  have hsz : 2 * 2 ^ k - 1 = 2 ^ (k + 1) - 1 := by rw [pow_succ 2 k, mul_comm]
  obtain ⟨op, hA1, hA2⟩ := opening_G2 hE (tr.map (·⁻¹)) hnei 1 c one_ne_zero g h α β
    srs.hBetaPowers (by rw [hsrs.hBeta, List.length_map, hlen, hsz])
  refine ⟨op, hA1, ?_⟩
  rw [verify_eq L hE X _ _ _ _ _ _ cs (by simpa using O.chals) c hc]
  have hv : ((scaled (cs.reverse.map (·⁻¹)) b).map (1 + ·)).prod = b' := by
    have := fold_powers (cs.reverse.map (·⁻¹)) b
    rw [← List.map_reverse, List.reverse_reverse, List.length_map, List.length_reverse, O.length_cs,
      O.fold_mb] at this
    simpa using this.symm
  rw [verifyKeyOpeningG2_eq hE, ← hka] at hA2
  have hcoms := O.coms
  simp only [List.reverse_reverse, foldMany_eq, honestComs, Prod.mk.injEq, dot_singleton] at hcoms ⊢
  obtain ⟨c1, -, c3⟩ := hcoms
  rw [hv, c1, c3]
  simpa [htr] using hA2

end TipaSsm

end Ripp
