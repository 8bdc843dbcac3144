import Verif.Lemmas.Ssm
import Verif.Props.Tipa

/-!
# Structured scalar messages: C30 (second half), C32–C36, C63

Property statements are in `properties.jsonl`.
-/

set_option linter.unusedSectionVars false
set_option linter.unusedVariables false

namespace Ripp

open Spec

section Scalars
variable {F : Type} [Field F] [DecidableEq F]

/-- C32: the result has `num` entries, entry `i` is `s^i`. -/
theorem C32_powers (num : ℕ) (s : F) (h : 1 ≤ num) : ∃ l, structuredScalarPower num s = .ok l ∧
    l.length = num ∧ ∀ i, i < num → l[i]? = some (s ^ i) := by
  refine ⟨_, structuredScalarPower_eq num s, by simp [h], ?_⟩
  intro i hi
  simp [powers, hi]

/-- C32: for `num = 0` the result still has one entry. -/
theorem C32_zero (s : F) : structuredScalarPower 0 s = .ok [1] := rfl

example : structuredScalarPower 5 (3 : ℚ) = .ok [1, 3, 9, 27, 81] := by
  rw [structuredScalarPower_eq]; norm_num [powers, List.range_succ]

/-- C35: for every schedule of the parallel product, the verifier's final scalar is
`∏ (1 + x_j⁻¹ b^(2^j))` and equals the folded message. `tr` lists the challenges last round first. -/
theorem C35_final_scalar (X : Exec) (tr : List F) (b : F) (h : ∀ x ∈ tr, x ≠ 0) :
    ∃ v, finalScalar X tr b = .ok v ∧ v = (tr.mapIdx fun j x => 1 + x⁻¹ * b ^ 2 ^ j).prod ∧
      foldAll (tr.reverse.map (·⁻¹)) ((List.range (2 ^ tr.length)).map (b ^ ·)) = [v] := by
  refine ⟨_, finalScalar_eq X tr b h, ?_, ?_⟩
  · rw [scaled_eq_mapIdx]
    congr 1
    apply List.ext_getElem?
    intro i
    simp
    cases tr[i]? <;> simp
  · have := fold_powers (tr.map (·⁻¹)) b
    rwa [← List.map_reverse, List.length_map] at this

/-- C35: a zero challenge makes the computation panic. -/
theorem C35_zero_challenge (X : Exec) (tr : List F) (b : F) (h : 0 ∈ tr) :
    finalScalar X tr b = .error (.panic .unwrap) := by
  have key : ∀ (tr : List F) (p : F) (acc : List F), 0 ∈ tr →
      finalScalarLoop tr p acc = .error (.panic .unwrap) := by
    intro tr
    induction tr with
    | nil => simp
    | cons x xs ih =>
      intro p acc hm
      rw [finalScalarLoop]
      by_cases hx : x = 0
      · subst hx; simp [panic']
      · have : 0 ∈ xs := by
          rcases List.mem_cons.mp hm with h | h
          · exact absurd h.symm hx
          · exact h
        rw [inverse_of_ne hx]
        simp [ih _ _ this]
  simp [finalScalar, key tr b [] h]

example : finalScalar Toy.X [2, 4] (3 : Toy.F) = .ok ((1 + 2⁻¹ * 3) * (1 + 4⁻¹ * 9)) := by
  obtain ⟨v, h1, h2, -⟩ := C35_final_scalar Toy.X [2, 4] (3 : Toy.F) (by decide)
  rw [h1, h2]
  decide +kernel

end Scalars

namespace GipaSsm

variable {ρ F MA T KA KT OA OT : Type} [Field F] [DecidableEq F]
  [AddCommGroup MA] [Module F MA] [AddCommGroup T] [Module F T] [AddCommGroup KA] [Module F KA]
  [AddCommGroup OA] [Module F OA] [Add OT] [SMul F OT] [DecidableEq OA] [DecidableEq OT]
  {P : Gipa ρ F MA F T KA Placeholder KT OA F OT}
  {bil : MA →ₗ[F] F →ₗ[F] T} {φa : MA →ₗ[F] KA →ₗ[F] OA} {ψ : KT → T → OT}

omit [DecidableEq OA] [DecidableEq OT] [AddCommGroup OA] [Module F OA] [Add OT] [SMul F OT] in
/-- C07: setup returns `size` keys if the commitment setups return as many keys as requested. -/
theorem C07_setup (lmc : Commitment ρ KA MA OA) (ipc : Commitment ρ KT T OT)
    (h1 : ∀ s n, ∃ ks s', lmc.setup s n = .ok (ks, s') ∧ ks.length = n)
    (h2 : ∀ s n, ∃ ks s', ipc.setup s n = .ok (ks, s') ∧ ks.length = n) (s : ρ) (size : ℕ) :
    ∃ ka kt s', setup lmc ipc s size = .ok ((ka, kt), s') ∧ ka.length = size := by
  obtain ⟨ka, s1, e1, l1⟩ := h1 s size
  obtain ⟨kt, s2, e2, l2⟩ := h2 s1 1
  obtain ⟨k, rfl⟩ := List.length_eq_one_iff.mp l2
  exact ⟨ka, k, s2, by simp [setup, e1, e2], l1⟩

/-- The statement of the structured-message arguments: `comA` commits to `ma`, `comT` to the inner
product of `ma` and `1, b, b², …`. -/
structure Honest (P : Gipa ρ F MA F T KA Placeholder KT OA F OT) (ma : List MA) (b : F)
    (cka : List KA) (kt : KT) (comA : OA) (comT : OT) (t : T) : Prop where
  ip : P.ip ma ((List.range ma.length).map (b ^ ·)) = .ok t
  lmc : P.lmc.commit cka ma = .ok comA
  ipc : P.ipc.commit [kt] [t] = .ok comT

theorem Honest.eq (L : P.Lawful bil φa 0 ψ) {ma : List MA} {b : F} {cka : List KA} {kt : KT}
    {comA : OA} {comT : OT} {t : T} (h3 : cka.length = ma.length)
    (H : Honest P ma b cka kt comA comT t) (ckb : List Placeholder) :
    t = dot (bil · ·) ma (powers b ma.length) ∧ comT = ψ kt t ∧ (comA, (0 : F), comT) =
      Gipa.honestComs bil φa 0 ψ kt ma (powers b ma.length) cka ckb := by
  have e1 := H.ip; have e2 := H.lmc; have e4 := H.ipc
  rw [L.ip_ok _ _ (by simp)] at e1
  rw [L.lmc_ok _ _ h3] at e2
  rw [L.ipc_ok] at e4
  have e1 := Except.ok.inj e1
  subst e1
  refine ⟨rfl, (Except.ok.inj e4).symm, Prod.ext (Except.ok.inj e2).symm (Prod.ext ?_ (Except.ok.inj e4).symm)⟩
  simp [Gipa.honestComs, dot_const_zero]

/-- C33: completeness. The prover gets the output of `structured_scalar_power`, the verifier only
`b`. -/
theorem C33_complete (L : P.Lawful bil φa 0 ψ) (hd : ∀ x, 16 ≤ (P.digest x).length) (X : Exec)
    (k : ℕ) (ma : List MA) (mb : List F) (b : F) (t : T) (cka : List KA) (kt : KT) (comA : OA)
    (comT : OT) (h1 : ma.length = 2 ^ k) (h3 : cka.length = 2 ^ k)
    (hmb : structuredScalarPower (2 ^ k) b = .ok mb) (H : Honest P ma b cka kt comA comT t) :
    prove P ma mb cka kt = .error .diverge ∨
    ∃ proof, prove P ma mb cka kt = .ok proof ∧ verify X P cka kt comA comT b proof = .ok true := by
  rw [structuredScalarPower_eq, max_eq_right Nat.one_le_two_pow] at hmb
  have hmb := Except.ok.inj hmb
  subst hmb
  obtain ⟨-, -, hc⟩ := H.eq L (h3.trans h1.symm) (List.replicate (powers b (2 ^ k)).length PUnit.unit)
  rw [h1] at hc
  rcases Gipa.proveWithAux_outcome L hd kt k ma (powers b (2 ^ k)) cka
    (List.replicate (powers b (2 ^ k)).length PUnit.unit) h1 (by simp) h3 (by simp) with
    hdiv | ⟨steps, cs, a, b', ka, kb, O⟩
  · left; rw [prove, hdiv]; rfl
  · right
    refine ⟨_, by rw [prove, O.run]; rfl, ?_⟩
    exact Gipa.FoldOutcome.verify_ssm L X h3 (hc ▸ O.fold)

/-- C33: unconditional if the challenge searches end. -/
theorem C33_complete_total (L : P.Lawful bil φa 0 ψ) (hd : ∀ x, 16 ≤ (P.digest x).length)
    (hs : P.SearchEnds) (X : Exec)
    (k : ℕ) (ma : List MA) (mb : List F) (b : F) (t : T) (cka : List KA) (kt : KT) (comA : OA)
    (comT : OT) (h1 : ma.length = 2 ^ k) (h3 : cka.length = 2 ^ k)
    (hmb : structuredScalarPower (2 ^ k) b = .ok mb) (H : Honest P ma b cka kt comA comT t) :
    ∃ proof, prove P ma mb cka kt = .ok proof ∧ verify X P cka kt comA comT b proof = .ok true := by
  refine (C33_complete L hd X k ma mb b t cka kt comA comT h1 h3 hmb H).resolve_left ?_
  rw [structuredScalarPower_eq, max_eq_right Nat.one_le_two_pow] at hmb
  have hmb := Except.ok.inj hmb
  subst hmb
  obtain ⟨steps, cs, a, b', ka, kb, O⟩ := Gipa.proveWithAux_total L hd hs kt k ma (powers b (2 ^ k))
    cka (List.replicate (powers b (2 ^ k)).length PUnit.unit) h1 (by simp) h3 (by simp)
  rw [prove, O.run]; simp

/-- C33: the verdict as equations. `cs` are the derived challenges in round order, `ka` and `b'` the
folded key and structured message. -/
theorem C33_verdict (L : P.Lawful bil φa 0 ψ) (X : Exec) (cka : List KA) (kt : KT) (comA : OA)
    (comT : OT) (b : F) (proof : GipaProof MA F OA F OT) (cs : List F) (com' : Coms OA F OT)
    (ha : cka.length = 2 ^ proof.steps.length)
    (hrec : P.recursiveChallenges (comA, 0, comT) proof = .ok (com', cs.reverse)) :
    ∃ ka b', foldAll (cs.map (·⁻¹)) cka = [ka] ∧
      foldAll (cs.map (·⁻¹)) ((List.range (2 ^ cs.length)).map (b ^ ·)) = [b'] ∧
      com'.1 = comA + dot (· • ·) cs (proof.steps.reverse.map (·.1.1))
        + dot (· • ·) (cs.map (·⁻¹)) (proof.steps.reverse.map (·.2.1)) ∧
      (verify X P cka kt comA comT b proof = .ok true ↔
        com'.1 = φa proof.base.1 ka ∧ com'.2.1 = 0 ∧
        com'.2.2 = ψ kt (bil proof.base.1 proof.base.2) ∧ com'.2.2 = ψ kt (bil proof.base.1 b')) ∧
      (verify X P cka kt comA comT b proof = .ok true ∨
        verify X P cka kt comA comT b proof = .ok false) := by
  rw [Gipa.recursiveChallenges_eq] at hrec
  cases h : P.chals proof.steps.reverse [] with
  | error e => simp [h] at hrec
  | ok cs' =>
    simp only [h, ok_bind, Except.ok.injEq, Prod.mk.injEq] at hrec
    obtain ⟨hcom, hcs⟩ := hrec
    have hcs : cs' = cs := List.reverse_injective hcs
    subst hcs
    obtain ⟨new, hnew, hl, hn⟩ := P.chals_prefix _ _ _ h
    simp only [List.nil_append] at hnew
    subst hnew
    have hlen : cka.length = 2 ^ (cs'.reverse.map (·⁻¹)).length := by simp [ha, hl]
    have e1 := dot_exps (cs'.reverse.map (·⁻¹)) cka hlen
    have e2 := fold_powers (cs'.reverse.map (·⁻¹)) b
    rw [← List.map_reverse, List.reverse_reverse] at e1 e2
    rw [List.length_map, List.length_reverse] at e2
    refine ⟨_, _, e1, e2, ?_, ?_⟩
    · rw [← hcom, Gipa.foldMany_eq, Gipa.accum_eq]
      simp [List.map_map, Function.comp_def]
    · rw [verify_eq L X _ _ _ _ _ _ ha, h]
      simp only [ok_bind]
      rw [hcom]
      generalize ((scaled (cs'.reverse.map (·⁻¹)) b).map (1 + ·)).prod = v
      generalize φa proof.base.1 (dot (fun g x => x • g) cka (exps (cs'.reverse.map (·⁻¹)))) = q
      refine ⟨?_, ?_⟩
      · simp only [Except.ok.injEq, Bool.and_eq_true, decide_eq_true_eq, Prod.ext_iff]
        tauto
      · generalize (decide (com' = _) && _) = bb
        cases bb <;> simp

/-- C36: the challenges do not depend on the public scalar nor on the statement (GIPA with SSM calls
the transcript function on `(comA, 0, comT)`, TIPA with SSM on `(comA, b, comT)`). -/
theorem C36_challenges_independent (P : Gipa ρ F MA F T KA Placeholder KT OA F OT) (comA comA' : OA)
    (b b' : F) (comT comT' : OT) (proof : GipaProof MA F OA F OT) (w : Coms OA F OT) (tr : List F)
    (h : P.recursiveChallenges (comA, b, comT) proof = .ok (w, tr)) :
    ∃ w', P.recursiveChallenges (comA', b', comT') proof = .ok (w', tr) := by
  rw [Gipa.recursiveChallenges_eq] at h ⊢
  cases hc : P.chals proof.steps.reverse [] with
  | error e => simp [hc] at h
  | ok cs =>
    simp only [hc, ok_bind, Except.ok.injEq, Prod.mk.injEq] at h ⊢
    exact ⟨_, rfl, h.2⟩

/-- The forgery behind C63: the claimed inner product is off by `c • s` for some `c ≠ 0`. -/
theorem forgery_shift (L : P.Lawful bil φa 0 ψ) (hd : ∀ x, 16 ≤ (P.digest x).length)
    (hs : P.SearchEnds) (X : Exec) (k : ℕ) (ma : List MA) (b : F) (t : T) (cka : List KA) (kt : KT)
    (comA : OA) (comT : OT) (h1 : ma.length = 2 ^ (k + 1)) (h3 : cka.length = 2 ^ (k + 1))
    (H : Honest P ma b cka kt comA comT t) (s : T) :
    ∃ c comT' proof, c ≠ (0 : F) ∧ P.ipc.commit [kt] [t - c • s] = .ok comT' ∧
      verify X P cka kt comA comT' b proof = .ok true := by
  obtain ⟨rfl, -, hc⟩ := H.eq L (h3.trans h1.symm) (List.replicate (2 ^ (k + 1)) PUnit.unit)
  rw [h1] at hc ⊢
  obtain ⟨c, steps, cs, a, b', ka, kb, hc0, O⟩ := Gipa.forge_fold L hd hs kt k ma
    (powers b (2 ^ (k + 1))) cka (List.replicate (2 ^ (k + 1)) PUnit.unit) h1 (by simp) h3 (by simp) s
  have hcA : comA = dot (φa · ·) ma cka := congrArg (·.1) hc
  have e0 : dot ((0 : F →ₗ[F] Placeholder →ₗ[F] F) · ·) (powers b (2 ^ (k + 1)))
      (List.replicate (2 ^ (k + 1)) PUnit.unit) = 0 := by simp [dot_const_zero]
  rw [e0, ← hcA] at O
  exact ⟨c, _, _, hc0, L.ipc_ok kt (dot (bil · ·) ma (powers b (2 ^ (k + 1))) - c • s),
    O.verify_ssm L X h3⟩

/-- C63: the structured-message argument inherits the violation of C22. For every honest statement
there is an accepted proof of the same `comA`, the same `b` and a different inner product. -/
theorem C63_forgery (L : P.Lawful bil φa 0 ψ) (hd : ∀ x, 16 ≤ (P.digest x).length)
    (hs : P.SearchEnds) (X : Exec) (k : ℕ) (ma : List MA) (b : F) (t : T) (cka : List KA) (kt : KT)
    (comA : OA) (comT : OT) (h1 : ma.length = 2 ^ (k + 1)) (h3 : cka.length = 2 ^ (k + 1))
    (H : Honest P ma b cka kt comA comT t) (s : T) (hs0 : s ≠ 0) :
    ∃ t' comT' proof, t' ≠ t ∧ P.ipc.commit [kt] [t'] = .ok comT' ∧
      verify X P cka kt comA comT' b proof = .ok true := by
  obtain ⟨c, comT', proof, hc, h⟩ := forgery_shift L hd hs X k ma b t cka kt comA comT h1 h3 H s
  refine ⟨_, _, _, fun h => ?_, h⟩
  rcases smul_eq_zero.mp (sub_eq_self.mp h) with h | h
  exacts [hc h, hs0 h]

end GipaSsm

namespace TipaSsm

variable {ρ F MA T KT OA OT G1 G2 GT TF : Type} [Field F] [DecidableEq F]
  [AddCommGroup MA] [Module F MA] [AddCommGroup T] [Module F T]
  [AddCommGroup G1] [Module F G1] [AddCommGroup G2] [Module F G2]
  [AddCommGroup GT] [Module F GT] [Monoid TF] [DecidableEq GT]
  [AddCommGroup OA] [Module F OA] [Add OT] [SMul F OT] [DecidableEq OA] [DecidableEq OT]
  {P : Gipa ρ F MA F T G2 Placeholder KT OA F OT} {V : TipaEnv F G1 G2 GT TF}
  {bil : MA →ₗ[F] F →ₗ[F] T} {φa : MA →ₗ[F] G2 →ₗ[F] OA} {ψ : KT → T → OT}
  {e : G1 →ₗ[F] G2 →ₗ[F] GT}

/-- C34: completeness with a reference string; the verifier holds only the verifier key and `b`. -/
theorem C34_complete (L : P.Lawful bil φa 0 ψ) (hE : V.E.Lawful e)
    (hd : ∀ x, 16 ≤ (P.digest x).length) (X : Exec)
    (k : ℕ) (srs : SRS G1 G2) (g : G1) (h : G2) (α β : F)
    (hsrs : IsLeftSrs srs g h α β (2 ^ (k + 1))) (ma : List MA) (mb : List F) (b : F) (t : T) (kt : KT)
    (comA : OA) (comT : OT) (h1 : ma.length = 2 ^ (k + 1))
    (hmb : structuredScalarPower (2 ^ (k + 1)) b = .ok mb)
    (H : GipaSsm.Honest P ma b srs.commitmentKeys.1 kt comA comT t) :
    prove V P srs ma mb srs.commitmentKeys.1 kt = .error .diverge ∨
    ∃ v proof, srs.verifierKey = .ok v ∧ prove V P srs ma mb srs.commitmentKeys.1 kt = .ok proof ∧
      verify X V P v kt comA comT b proof = .ok true := by
  obtain ⟨e1, e3⟩ := hsrs.keys Nat.one_le_two_pow
  rw [e1] at H ⊢
  rw [e3]
  rw [structuredScalarPower_eq, max_eq_right Nat.one_le_two_pow] at hmb
  have hmb := Except.ok.inj hmb
  subst hmb
  have hl : ((List.range (2 ^ (k + 1))).map fun i => β ^ (2 * i) • h).length = 2 ^ (k + 1) := by simp
  obtain ⟨-, -, hcom⟩ := H.eq L (hl.trans h1.symm)
    (List.replicate (powers b (2 ^ (k + 1))).length PUnit.unit)
  rw [h1] at hcom
  rcases Gipa.proveWithAux_outcome L hd kt (k + 1) ma (powers b (2 ^ (k + 1))) _
    (List.replicate (powers b (2 ^ (k + 1))).length PUnit.unit) h1 (by simp) hl (by simp) with
    hdiv | ⟨steps, cs, a, b', ka, kb, O⟩
  · left; rw [prove, hdiv]; rfl
  · have hcs : cs.reverse ≠ [] := by
      intro h0
      have := O.length_cs
      rw [List.reverse_eq_nil_iff.mp h0] at this
      simp at this
    have hne : ∀ x ∈ cs.reverse, x ≠ 0 := fun x hx => O.ne_zero x (by simpa using hx)
    rcases kzgChallenge_total V P.digest P.serF cs.reverse ka hcs with ⟨c, hc⟩ | hdiv
    · right
      obtain ⟨op, p1, p2⟩ := opening_of_fold L hE X (k + 1) srs g h α β hsrs ma _ kt comA comT b steps
        cs a b' ka kb (hcom ▸ O.fold) c hc
      refine ⟨_, _, rfl, ?_, p2⟩
      rw [prove, O.run]
      simp only [ok_bind]
      rw [invertAll_eq _ hne]
      simp only [ok_bind]
      rw [hc]
      simp only [ok_bind]
      rw [p1]; rfl
    · left
      rw [prove, O.run]
      simp only [ok_bind]
      rw [invertAll_eq _ hne]
      simp only [ok_bind]
      rw [hdiv]; rfl

/-- C34: unconditional if the challenge searches end. -/
theorem C34_complete_total (L : P.Lawful bil φa 0 ψ) (hE : V.E.Lawful e)
    (hd : ∀ x, 16 ≤ (P.digest x).length) (hs : P.SearchEnds)
    (hrb : KzgEnds V P.digest P.serF) (X : Exec)
    (k : ℕ) (srs : SRS G1 G2) (g : G1) (h : G2) (α β : F)
    (hsrs : IsLeftSrs srs g h α β (2 ^ (k + 1))) (ma : List MA) (mb : List F) (b : F) (t : T) (kt : KT)
    (comA : OA) (comT : OT) (h1 : ma.length = 2 ^ (k + 1))
    (hmb : structuredScalarPower (2 ^ (k + 1)) b = .ok mb)
    (H : GipaSsm.Honest P ma b srs.commitmentKeys.1 kt comA comT t) :
    ∃ v proof, srs.verifierKey = .ok v ∧ prove V P srs ma mb srs.commitmentKeys.1 kt = .ok proof ∧
      verify X V P v kt comA comT b proof = .ok true := by
  refine (C34_complete L hE hd X k srs g h α β hsrs ma mb b t kt comA comT h1 hmb H).resolve_left ?_
  obtain ⟨e1, e3⟩ := hsrs.keys Nat.one_le_two_pow
  rw [structuredScalarPower_eq, max_eq_right Nat.one_le_two_pow] at hmb
  have hmb := Except.ok.inj hmb
  subst hmb
  have hl : srs.commitmentKeys.1.length = 2 ^ (k + 1) := by simp [e1]
  obtain ⟨steps, cs, a, b', ka, kb, O⟩ := Gipa.proveWithAux_total L hd hs kt (k + 1) ma
    (powers b (2 ^ (k + 1))) _
    (List.replicate (powers b (2 ^ (k + 1))).length PUnit.unit) h1 (by simp) hl (by simp)
  have hcs : cs.reverse ≠ [] := by
    intro h0
    have := O.length_cs
    rw [List.reverse_eq_nil_iff.mp h0] at this
    simp at this
  have hne : ∀ x ∈ cs.reverse, x ≠ 0 := fun x hx => O.ne_zero x (by simpa using hx)
  have hnei : ∀ x ∈ cs.reverse.map (·⁻¹), x ≠ 0 := by
    intro x hx
    obtain ⟨y, hy, rfl⟩ := List.mem_map.mp hx
    exact inv_ne_zero (hne y hy)
  obtain ⟨c, hc⟩ := kzgChallenge_ends V P.digest P.serF hrb cs.reverse ka hcs
  have hsz : 2 * 2 ^ (k + 1) - 1 = 2 ^ (k + 1 + 1) - 1 := by rw [pow_succ 2 (k + 1), mul_comm]
  obtain ⟨op, hA1, -⟩ := opening_G2 hE (cs.reverse.map (·⁻¹)) hnei 1 c one_ne_zero g h α β
    srs.hBetaPowers (by rw [hsrs.hBeta, List.length_map, List.length_reverse, O.length_cs, hsz])
  rw [prove, O.run]
  simp only [ok_bind]
  rw [invertAll_eq _ hne]
  simp only [ok_bind]
  rw [hc]
  simp only [ok_bind]
  rw [hA1]
  simp

/-- C34: the verdict as equations. `cs` are the derived challenges in round order, `c` the KZG
challenge. -/
theorem C34_verdict (L : P.Lawful bil φa 0 ψ) (hE : V.E.Lawful e) (X : Exec) (v : VerifierSRS G1 G2)
    (kt : KT) (comA : OA) (comT : OT) (b : F) (proof : TipaSsmProof F G2 MA OA OT) (cs : List F)
    (com' : Coms OA F OT) (c : F)
    (hrec : P.recursiveChallenges (comA, b, comT) proof.gipa = .ok (com', cs.reverse))
    (hc : kzgChallenge V P.digest P.serF cs.reverse proof.finalCk = .ok c) :
    ∃ b', foldAll (cs.map (·⁻¹)) ((List.range (2 ^ cs.length)).map (b ^ ·)) = [b'] ∧
      (verify X V P v kt comA comT b proof = .ok true ↔
        verifyKeyOpeningG2 V.E v proof.finalCk proof.finalCkProof (cs.reverse.map (·⁻¹)) 1 c =
            .ok true ∧
          com'.1 = φa proof.gipa.base.1 proof.finalCk ∧
          com'.2.2 = ψ kt (bil proof.gipa.base.1 b')) ∧
      (verify X V P v kt comA comT b proof = .ok true ∨
        verify X V P v kt comA comT b proof = .ok false) := by
  rw [Gipa.recursiveChallenges_eq] at hrec
  cases h : P.chals proof.gipa.steps.reverse [] with
  | error e => simp [h] at hrec
  | ok cs' =>
    simp only [h, ok_bind, Except.ok.injEq, Prod.mk.injEq] at hrec
    obtain ⟨hcom, hcs⟩ := hrec
    have hcs : cs' = cs := List.reverse_injective hcs
    subst hcs
    have e2 := fold_powers (cs'.reverse.map (·⁻¹)) b
    rw [← List.map_reverse, List.reverse_reverse, List.length_map, List.length_reverse] at e2
    refine ⟨_, e2, ?_⟩
    rw [verify_eq L hE X v kt comA comT b proof cs' h c hc, verifyKeyOpeningG2_eq hE]
    simp only [hcom]
    have hb : ∀ bb : Bool, (Except.ok bb : Res Bool) = .ok true ∨ (Except.ok bb : Res Bool) = .ok false := by
      intro bb; cases bb <;> simp
    exact ⟨by simp, hb _⟩

/-- C30: vectors of length one make the prover panic. -/
theorem C30_prove_length_one (V : TipaEnv F G1 G2 GT TF)
    (P : Gipa ρ F MA F T G2 Placeholder KT OA F OT) (srs : SRS G1 G2) (a : MA) (b : F) (ka : G2)
    (kt : KT) : prove V P srs [a] [b] [ka] kt = .error (.panic .unwrap) := by
  have hp : P.proveWithAux [a] [b] [ka] [PUnit.unit] [kt] =
      .ok ({ steps := [], base := (a, b) }, { transcript := [], ckBase := (ka, PUnit.unit) }) := by
    have h1 : isPow2 1 = true := isPow2_two_pow 0
    unfold Gipa.proveWithAux Gipa.proveLoop
    simp [h1]
  rw [prove]
  simp only [List.length_singleton, List.replicate_one]
  rw [hp]
  simp [invertAll, kzgChallenge_nil, panic']

/-- C30: verifying a proof without rounds panics. -/
theorem C30_verify_zero_rounds (X : Exec) (V : TipaEnv F G1 G2 GT TF)
    (P : Gipa ρ F MA F T G2 Placeholder KT OA F OT) (v : VerifierSRS G1 G2) (kt : KT) (comA : OA)
    (comT : OT) (b : F) (proof : TipaSsmProof F G2 MA OA OT) (h : proof.gipa.steps = []) :
    verify X V P v kt comA comT b proof = .error (.panic .unwrap) := by
  rw [verify]
  simp [Gipa.recursiveChallenges, h, Gipa.recLoop, invertAll, kzgChallenge_nil, panic']

/-- C36: the verdict does not depend on the right base message in the proof. -/
theorem C36_base_not_bound (X : Exec) (V : TipaEnv F G1 G2 GT TF)
    (P : Gipa ρ F MA F T G2 Placeholder KT OA F OT) (v : VerifierSRS G1 G2) (kt : KT) (comA : OA)
    (comT : OT) (b : F) (proof : TipaSsmProof F G2 MA OA OT) (y : F) :
    verify X V P v kt comA comT b proof =
      verify X V P v kt comA comT b
        { proof with gipa := { proof.gipa with base := (proof.gipa.base.1, y) } } := rfl

/-- C36: hence every accepted proof is malleable. -/
theorem C36_malleable (X : Exec) (V : TipaEnv F G1 G2 GT TF)
    (P : Gipa ρ F MA F T G2 Placeholder KT OA F OT) (v : VerifierSRS G1 G2) (kt : KT) (comA : OA)
    (comT : OT) (b : F) (proof : TipaSsmProof F G2 MA OA OT)
    (h : verify X V P v kt comA comT b proof = .ok true) :
    ∃ proof', proof' ≠ proof ∧ verify X V P v kt comA comT b proof' = .ok true := by
  refine ⟨{ proof with gipa := { proof.gipa with base := (proof.gipa.base.1, proof.gipa.base.2 + 1) } },
    ?_, h⟩
  intro h'
  have : proof.gipa.base.2 + 1 = proof.gipa.base.2 :=
    congrArg (fun p : TipaSsmProof F G2 MA OA OT => p.gipa.base.2) h'
  simp at this

/-- The forgery behind C63: the claimed inner product is off by `c • s` for some `c ≠ 0`. -/
theorem forgery_shift (L : P.Lawful bil φa 0 ψ) (hE : V.E.Lawful e)
    (hd : ∀ x, 16 ≤ (P.digest x).length) (hs : P.SearchEnds)
    (hrb : KzgEnds V P.digest P.serF) (X : Exec)
    (k : ℕ) (srs : SRS G1 G2) (g : G1) (h : G2) (α β : F)
    (hsrs : IsLeftSrs srs g h α β (2 ^ (k + 1))) (ma : List MA) (b : F) (t : T) (kt : KT)
    (comA : OA) (comT : OT) (h1 : ma.length = 2 ^ (k + 1))
    (H : GipaSsm.Honest P ma b srs.commitmentKeys.1 kt comA comT t) (s : T) :
    ∃ v c comT' proof, srs.verifierKey = .ok v ∧ c ≠ (0 : F) ∧
      P.ipc.commit [kt] [t - c • s] = .ok comT' ∧
      verify X V P v kt comA comT' b proof = .ok true := by
  obtain ⟨e1, e3⟩ := hsrs.keys Nat.one_le_two_pow
  rw [e1] at H
  rw [e3]
  have hl : ((List.range (2 ^ (k + 1))).map fun i => β ^ (2 * i) • h).length = 2 ^ (k + 1) := by simp
  obtain ⟨rfl, -, hc⟩ := H.eq L (hl.trans h1.symm) (List.replicate (2 ^ (k + 1)) PUnit.unit)
  rw [h1] at hc ⊢
  obtain ⟨c, steps, cs, a, b', ka, kb, hc0, O⟩ := Gipa.forge_fold L hd hs kt k ma
    (powers b (2 ^ (k + 1))) _ (List.replicate (2 ^ (k + 1)) PUnit.unit) h1 (by simp) hl (by simp) s
  have hcA : comA = dot (φa · ·) ma _ := congrArg (·.1) hc
  have e0 : dot ((0 : F →ₗ[F] Placeholder →ₗ[F] F) · ·) (powers b (2 ^ (k + 1)))
      (List.replicate (2 ^ (k + 1)) PUnit.unit) = 0 := by simp [dot_const_zero]
  rw [e0, ← hcA] at O
  have hcs : cs.reverse ≠ [] := by
    intro h0
    have := O.length_cs
    rw [List.reverse_eq_nil_iff.mp h0] at this
    simp at this
  obtain ⟨z, hz⟩ := kzgChallenge_ends V P.digest P.serF hrb cs.reverse ka hcs
  obtain ⟨op, -, p2⟩ := opening_of_fold L hE X (k + 1) srs g h α β hsrs ma _ kt comA _ b steps
    cs a b' ka kb O z hz
  exact ⟨_, c, _, _, rfl, hc0, L.ipc_ok kt (dot (bil · ·) ma (powers b (2 ^ (k + 1))) - c • s), p2⟩

/-- C63: TIPA with structured messages inherits the violation of C22. -/
theorem C63_forgery (L : P.Lawful bil φa 0 ψ) (hE : V.E.Lawful e)
    (hd : ∀ x, 16 ≤ (P.digest x).length) (hs : P.SearchEnds)
    (hrb : KzgEnds V P.digest P.serF) (X : Exec)
    (k : ℕ) (srs : SRS G1 G2) (g : G1) (h : G2) (α β : F)
    (hsrs : IsLeftSrs srs g h α β (2 ^ (k + 1))) (ma : List MA) (b : F) (t : T) (kt : KT)
    (comA : OA) (comT : OT) (h1 : ma.length = 2 ^ (k + 1))
    (H : GipaSsm.Honest P ma b srs.commitmentKeys.1 kt comA comT t) (s : T) (hs0 : s ≠ 0) :
    ∃ v t' comT' proof, srs.verifierKey = .ok v ∧ t' ≠ t ∧ P.ipc.commit [kt] [t'] = .ok comT' ∧
      verify X V P v kt comA comT' b proof = .ok true := by
  obtain ⟨v, c, comT', proof, hv, hc, h⟩ := forgery_shift L hE hd hs hrb X k srs g h α β hsrs ma b t kt
    comA comT h1 H s
  refine ⟨_, _, _, _, hv, fun h => ?_, h⟩
  rcases smul_eq_zero.mp (sub_eq_self.mp h) with h | h
  exacts [hc h, hs0 h]

end TipaSsm

namespace Tipa

variable {ρ F MA MB T KT OA OB OT G1 G2 GT TF : Type} [Field F] [DecidableEq F]
  [AddCommGroup MA] [Module F MA] [AddCommGroup MB] [Module F MB] [AddCommGroup T] [Module F T]
  [AddCommGroup G1] [Module F G1] [AddCommGroup G2] [Module F G2]
  [AddCommGroup GT] [Module F GT] [Monoid TF] [DecidableEq GT]
  [AddCommGroup OA] [Module F OA] [AddCommGroup OB] [Module F OB] [Add OT] [SMul F OT]
  [DecidableEq T] [DecidableEq OA] [DecidableEq OB] [DecidableEq OT]
  {P : Gipa ρ F MA MB T G2 G1 KT OA OB OT} {V : TipaEnv F G1 G2 GT TF}
  {bil : MA →ₗ[F] MB →ₗ[F] T} {φa : MA →ₗ[F] G2 →ₗ[F] OA} {φb : MB →ₗ[F] G1 →ₗ[F] OB}
  {ψ : KT → T → OT} {e : G1 →ₗ[F] G2 →ₗ[F] GT}

/-- C63: TIPA (also with shift) inherits the violation of C22. -/
theorem C63_forgery (L : P.Lawful bil φa φb ψ) (hE : V.E.Lawful e)
    (hd : ∀ x, 16 ≤ (P.digest x).length) (hs : P.SearchEnds)
    (hrb : KzgEnds V P.digest P.serF)
    (k : ℕ) (srs : SRS G1 G2) (g : G1) (h : G2) (α β r : F)
    (hr : r ≠ 0) (hsrs : IsSrs srs g h α β (2 ^ (k + 1))) (ma : List MA) (mb : List MB) (t : T)
    (kt : KT) (com : Coms OA OB OT) (h1 : ma.length = 2 ^ (k + 1)) (h2 : mb.length = 2 ^ (k + 1))
    (H : Gipa.Honest P ma mb t (srs.commitmentKeys.1.mapIdx fun i ck => (r⁻¹) ^ i • ck)
      srs.commitmentKeys.2 kt com) (s : T) (hs0 : s ≠ 0) :
    ∃ v t' ot proof, srs.verifierKey = .ok v ∧ t' ≠ t ∧ P.ipc.commit [kt] [t'] = .ok ot ∧
      verifyWithShift V P v kt (com.1, com.2.1, ot) proof r = .ok true := by
  obtain ⟨e1, e2, e3⟩ := C25_keys srs g h α β _ (Nat.one_le_two_pow) hsrs
  have e1' : (srs.commitmentKeys.1.mapIdx fun i ck => (r⁻¹) ^ i • ck) =
      (List.range (2 ^ (k + 1))).map fun i => r⁻¹ ^ i • (β ^ (2 * i) • h) := by
    rw [e1]
    apply List.ext_getElem?
    intro i
    by_cases hi : i < 2 ^ (k + 1)
    · simp [hi]
    · simp [hi]
  rw [e1', e2] at H
  rw [e3]
  have hl : ((List.range (2 ^ (k + 1))).map fun i => r⁻¹ ^ i • (β ^ (2 * i) • h)).length =
    2 ^ (k + 1) := by simp
  have hl2 : ((List.range (2 ^ (k + 1))).map fun i => α ^ (2 * i) • g).length =
    2 ^ (k + 1) := by simp
  obtain ⟨rfl, rfl⟩ := H.eq L h1 h2 hl hl2
  obtain ⟨c, steps, cs, a, b, ka, kb, hc0, O⟩ := Gipa.forge_fold L hd hs kt k ma mb _ _ h1 h2 hl hl2 s
  have hcs : cs.reverse ≠ [] := by
    intro h0
    have := O.length_cs
    rw [List.reverse_eq_nil_iff.mp h0] at this
    simp at this
  obtain ⟨z, hz⟩ := kzgChallenge_ends V P.digest P.serF hrb cs.reverse ka kb hcs
  obtain ⟨opA, opB, -, -, hv⟩ := openings_of_fold L hE (k + 1) srs g h α β r hr hsrs ma mb kt _ steps
    cs a b ka kb O z hz
  refine ⟨_, _, _, _, rfl, ?_, L.ipc_ok kt (dot (bil · ·) ma mb - c • s), hv⟩
  intro h
  have : c • s = 0 := sub_eq_self.mp h
  rcases smul_eq_zero.mp this with h | h
  exacts [hc0 h, hs0 h]

end Tipa

/-! ## Examples -/

/-- The hypotheses of C33 are met by a concrete statement of length 4 with `b = 2`. -/
example : ∃ proof comA comT,
    GipaSsm.prove Toy.env.multiexpSsm [1, 2, 3, 4] [1, 2, 4, 8] [5, 6, 7, 8] PUnit.unit = .ok proof ∧
    GipaSsm.verify Toy.X Toy.env.multiexpSsm [5, 6, 7, 8] PUnit.unit comA comT 2 proof = .ok true := by
  obtain ⟨proof, h⟩ := GipaSsm.C33_complete_total (multiexpSsm_lawful Toy.env Toy.lawful)
    Toy.digest_length (searchEnds_of_digest _ Toy.digest_length Toy.digest_ne_zero) Toy.X 2
    ([1, 2, 3, 4] : List Toy.F) [1, 2, 4, 8] 2 _ ([5, 6, 7, 8] : List Toy.F) PUnit.unit _ _ rfl rfl
    (by rw [structuredScalarPower_eq]; decide +kernel)
    ⟨multiexpIP_eq ([1, 2, 3, 4] : List Toy.F) [1, 2, 4, 8] rfl,
      pairingIP_eq Toy.lawful Toy.X [1, 2, 3, 4] [5, 6, 7, 8] rfl, rfl⟩
  exact ⟨proof, _, _, h⟩

/-- The hypotheses of C34 and C63 are met by a concrete statement with the reference string of size 4. -/
example : GipaSsm.Honest Toy.env.multiexpSsm ([1, 2, 3, 4] : List Toy.F) 2
    Toy.srs.commitmentKeys.1 PUnit.unit (dot (Toy.e · ·) [1, 2, 3, 4] Toy.srs.commitmentKeys.1)
    ⟨[49]⟩ 49 where
  ip := by
    refine (multiexpIP_eq ([1, 2, 3, 4] : List Toy.F) [1, 2, 4, 8] rfl).trans ?_
    decide +kernel
  lmc := pairingIP_eq Toy.lawful Toy.X [1, 2, 3, 4] Toy.srs.commitmentKeys.1 rfl
  ipc := rfl

end Ripp
