import Verif.Props.Linear
import Verif.Props.Groth16Verify
import Verif.Props.Trapdoor

/-!
# C123: which parts of an accepted proof are determined by the others

Given the commitments exchanged in the rounds and the final keys, an accepted proof is determined, except that the
structured-message arguments with a reference string leave the right base message free. So nobody can turn an accepted
proof into another one by changing the opening proofs or the base messages, but everybody can change that one field.
-/

set_option linter.unusedSectionVars false

namespace Ripp

open Spec

namespace Gipa

variable {F OA OB OT : Type} [Field F] [Add OA] [SMul F OA] [Add OB] [SMul F OB] [Add OT] [SMul F OT]

theorem foldMany_left : ∀ (ss : List (Coms OA OB OT × Coms OA OB OT)) (cs : List F) (com com' : Coms OA OB OT),
    com.1 = com'.1 → (foldMany ss cs com).1 = (foldMany ss cs com').1
  | [], cs, com, com', h => by cases cs <;> simpa [foldMany] using h
  | s :: ss, [], com, com', h => by simpa [foldMany] using h
  | s :: ss, c :: cs, com, com', h => by
    rw [foldMany, foldMany]
    exact foldMany_left ss cs _ _ (by simp [foldComs, h])

theorem foldMany_mid : ∀ (ss : List (Coms OA OB OT × Coms OA OB OT)) (cs : List F) (com com' : Coms OA OB OT),
    com.2.1 = com'.2.1 → (foldMany ss cs com).2.1 = (foldMany ss cs com').2.1
  | [], cs, com, com', h => by cases cs <;> simpa [foldMany] using h
  | s :: ss, [], com, com', h => by simpa [foldMany] using h
  | s :: ss, c :: cs, com, com', h => by
    rw [foldMany, foldMany]
    exact foldMany_mid ss cs _ _ (by simp [foldComs, h])

theorem foldMany_nil {T : Type} [AddCommGroup T] [Module F T] :
    ∀ (ss : List (Coms OA OB (IdentityOutput T) × Coms OA OB (IdentityOutput T))) (cs : List F)
      (com : Coms OA OB (IdentityOutput T)), com.2.2 = ⟨[]⟩ → (foldMany ss cs com).2.2 = ⟨[]⟩
  | [], cs, com, h => by cases cs <;> simpa [foldMany] using h
  | s :: ss, [], com, h => by simpa [foldMany] using h
  | s :: ss, c :: cs, com, h => by
    rw [foldMany]
    refine foldMany_nil ss cs _ ?_
    simp only [foldComs, h]
    change (⟨List.zipWith _ (List.zipWith _ _ []) _⟩ : IdentityOutput T) = _
    simp

/-- Over the identity commitment the claimed inner product is determined by the rounds and the result. -/
theorem foldMany_target {T : Type} [AddCommGroup T] [Module F T] :
    ∀ (ss : List (Coms OA OB (IdentityOutput T) × Coms OA OB (IdentityOutput T))) (cs : List F)
      (com com' : Coms OA OB (IdentityOutput T)) (t t' x : T), com.2.2 = ⟨[t]⟩ → com'.2.2 = ⟨[t']⟩ →
      (foldMany ss cs com).2.2 = ⟨[x]⟩ → (foldMany ss cs com').2.2 = ⟨[x]⟩ → t = t'
  | [], cs, com, com', t, t', x, h, h', e, e' => by
    have : (foldMany ([] : List (Coms OA OB (IdentityOutput T) × Coms OA OB (IdentityOutput T))) cs com) = com := by
      cases cs <;> rfl
    rw [this, h] at e
    have : (foldMany ([] : List (Coms OA OB (IdentityOutput T) × Coms OA OB (IdentityOutput T))) cs com') = com' := by
      cases cs <;> rfl
    rw [this, h'] at e'
    have := e.trans e'.symm
    simpa using this
  | s :: ss, [], com, com', t, t', x, h, h', e, e' => by
    rw [foldMany, h] at e
    rw [foldMany, h'] at e'
    have := e.trans e'.symm
    simpa using this
    all_goals simp
  | s :: ss, c :: cs, com, com', t, t', x, h, h', e, e' => by
    rw [foldMany] at e e'
    have hval : ∀ (k : Coms OA OB (IdentityOutput T)) (u : T), k.2.2 = ⟨[u]⟩ →
        (foldComs c c⁻¹ k s.1 s.2).2.2 =
          ⟨List.zipWith (· + ·) (List.zipWith (· + ·) (s.1.2.2.vals.map (c • ·)) [u]) (s.2.2.2.vals.map (c⁻¹ • ·))⟩ := by
      intro k u hk
      simp only [foldComs, hk]
      rfl
    rcases h1 : s.1.2.2.vals with _ | ⟨l, ls⟩
    · rw [foldMany_nil ss cs _ (by rw [hval com t h, h1]; simp)] at e
      cases e
    · rcases h2 : s.2.2.2.vals with _ | ⟨r, rs⟩
      · rw [foldMany_nil ss cs _ (by rw [hval com t h, h2]; simp)] at e
        cases e
      · have := foldMany_target ss cs _ _ (c • l + t + c⁻¹ • r) (c • l + t' + c⁻¹ • r) x
          (by rw [hval com t h, h1, h2]; simp) (by rw [hval com' t' h', h1, h2]; simp) e e'
        simpa using this

end Gipa

namespace Tipa

variable {ρ F MA MB T KT OA OB OT G1 G2 GT TF : Type} [Field F] [DecidableEq F]
  [AddCommGroup MA] [Module F MA] [AddCommGroup MB] [Module F MB] [AddCommGroup T] [Module F T]
  [AddCommGroup G1] [Module F G1] [AddCommGroup G2] [Module F G2]
  [AddCommGroup GT] [Module F GT] [Monoid TF] [DecidableEq GT]
  [AddCommGroup OA] [Module F OA] [AddCommGroup OB] [Module F OB] [Add OT] [SMul F OT]
  [DecidableEq T] [DecidableEq OA] [DecidableEq OB] [DecidableEq OT]
  {P : Gipa ρ F MA MB T G2 G1 KT OA OB OT} {V : TipaEnv F G1 G2 GT TF}
  {bil : MA →ₗ[F] MB →ₗ[F] T} {φa : MA →ₗ[F] G2 →ₗ[F] OA} {φb : MB →ₗ[F] G1 →ₗ[F] OB}
  {ψ : KT → T → OT} {e : G1 →ₗ[F] G2 →ₗ[F] GT}

/-- What an accepted proof satisfies. -/
theorem accepted_equations (L : P.Lawful bil φa φb ψ) (hE : V.E.Lawful e) (v : VerifierSRS G1 G2) (kt : KT)
    (com : Coms OA OB OT) (proof : TipaProof G1 G2 MA MB OA OB OT) (r : F)
    (hacc : verifyWithShift V P v kt com proof r = .ok true) :
    ∃ cs c, P.chals proof.gipa.steps.reverse [] = .ok cs ∧
      kzgChallenge V P.digest P.serF cs.reverse proof.finalCk.1 proof.finalCk.2 = .ok c ∧
      e v.g (proof.finalCk.1 - productForm (cs.reverse.map (·⁻¹)) c r⁻¹ • v.h) =
        e (v.gBeta - c • v.g) proof.finalCkProof.1 ∧
      e (proof.finalCk.2 - productForm cs.reverse c 1 • v.g) v.h = e proof.finalCkProof.2 (v.hAlpha - c • v.h) ∧
      (Gipa.foldMany proof.gipa.steps.reverse cs com).1 = φa proof.gipa.base.1 proof.finalCk.1 ∧
      (Gipa.foldMany proof.gipa.steps.reverse cs com).2.1 = φb proof.gipa.base.2 proof.finalCk.2 ∧
      (Gipa.foldMany proof.gipa.steps.reverse cs com).2.2 = ψ kt (bil proof.gipa.base.1 proof.gipa.base.2) := by
  cases hch : P.chals proof.gipa.steps.reverse [] with
  | error x =>
    rw [verifyWithShift, Gipa.recursiveChallenges_eq] at hacc
    simp only [hch] at hacc
    cases hacc
  | ok cs =>
    have hrec : P.recursiveChallenges com proof.gipa =
        .ok (Gipa.foldMany proof.gipa.steps.reverse cs com, cs.reverse) := by
      rw [Gipa.recursiveChallenges_eq, hch]
      rfl
    have hne := (Gipa.C16_challenges_nonzero _ _ _ _ hrec).2
    cases hk : kzgChallenge V P.digest P.serF cs.reverse proof.finalCk.1 proof.finalCk.2 with
    | error x =>
      rw [verifyWithShift, hrec] at hacc
      simp only [ok_bind] at hacc
      rw [invertAll_eq _ hne] at hacc
      simp only [ok_bind] at hacc
      rw [hk] at hacc
      cases hacc
    | ok c =>
      have hr : r ≠ 0 := by
        rintro rfl
        rw [verifyWithShift, hrec] at hacc
        simp only [ok_bind] at hacc
        rw [invertAll_eq _ hne] at hacc
        simp only [ok_bind] at hacc
        rw [hk] at hacc
        simp [inverse, panic'] at hacc
      have := (C31_accepts_iff v kt com _ proof r hr cs.reverse c hrec hk hE L).mp hacc
      rw [verifyKeyOpeningG2_eq hE, verifyKeyOpeningG1_eq hE] at this
      simp only [Except.ok.injEq, decide_eq_true_eq] at this
      exact ⟨cs, c, rfl, hk, this⟩

/-- C123: two accepted TIPA proofs with the same rounds and the same final keys are equal, even if they are accepted for
different claimed inner products. The key must come from a set-up, the pairings must be nondegenerate, the final keys not
zero, and the opening point not a trapdoor. -/
theorem C123_tipa (L : P.Lawful bil φa φb ψ) (hE : V.E.Lawful e) (g : G1) (h : G2) (α β : F)
    (hg : ∀ y, e g y = 0 → y = 0) (hh : ∀ x, e x h = 0 → x = 0) (kt : KT) (com com' : Coms OA OB OT)
    (proof proof' : TipaProof G1 G2 MA MB OA OB OT) (r : F)
    (hacc : verifyWithShift V P ⟨g, h, β • g, α • h⟩ kt com proof r = .ok true)
    (hacc' : verifyWithShift V P ⟨g, h, β • g, α • h⟩ kt com' proof' r = .ok true)
    (h1 : com.1 = com'.1) (h2 : com.2.1 = com'.2.1)
    (hs : proof.gipa.steps = proof'.gipa.steps) (hf : proof.finalCk = proof'.finalCk)
    (ha : ∀ x, φa x proof.finalCk.1 = 0 → x = 0) (hb : ∀ x, φb x proof.finalCk.2 = 0 → x = 0)
    (hpt : ∀ cs c, P.chals proof.gipa.steps.reverse [] = .ok cs →
      kzgChallenge V P.digest P.serF cs.reverse proof.finalCk.1 proof.finalCk.2 = .ok c → c ≠ α ∧ c ≠ β) :
    proof = proof' := by
  obtain ⟨cs, c, hc, hk, o1, o2, b1, b2, -⟩ := accepted_equations L hE _ kt com proof r hacc
  obtain ⟨cs', c', hc', hk', o1', o2', b1', b2', -⟩ := accepted_equations L hE _ kt com' proof' r hacc'
  obtain ⟨hα, hβ⟩ := hpt cs c hc hk
  rw [← hs, hc] at hc'
  cases hc'
  rw [← hf, hk] at hk'
  cases hk'
  rw [← hf] at o1' o2' b1' b2'
  rw [← hs, ← Gipa.foldMany_left _ _ com com' h1, b1] at b1'
  rw [← hs, ← Gipa.foldMany_mid _ _ com com' h2, b2] at b2'
  have ea : proof.gipa.base.1 = proof'.gipa.base.1 := by
    refine sub_eq_zero.mp (ha _ ?_)
    rw [map_sub, LinearMap.sub_apply, b1', sub_self]
  have eb : proof.gipa.base.2 = proof'.gipa.base.2 := by
    refine sub_eq_zero.mp (hb _ ?_)
    rw [map_sub, LinearMap.sub_apply, b2', sub_self]
  have eo : proof.finalCkProof.1 = proof'.finalCkProof.1 := by
    have := o1.symm.trans o1'
    simp only [← sub_smul, map_smul, LinearMap.smul_apply] at this
    have := smul_right_injective _ (sub_ne_zero.mpr hβ.symm) this
    exact sub_eq_zero.mp (hg _ (by rw [map_sub, this, sub_self]))
  have eo' : proof.finalCkProof.2 = proof'.finalCkProof.2 := by
    have := o2.symm.trans o2'
    simp only [← sub_smul, map_smul] at this
    have := smul_right_injective _ (sub_ne_zero.mpr hα.symm) this
    exact sub_eq_zero.mp (hh _ (by rw [map_sub, LinearMap.sub_apply, this, sub_self]))
  obtain ⟨⟨s, a, b⟩, f, o, o'⟩ := proof
  obtain ⟨⟨s', a', b'⟩, f', p, p'⟩ := proof'
  simp only at hs hf ea eb eo eo'
  subst hs hf ea eb eo eo'
  rfl

end Tipa

namespace TipaSsm

variable {ρ F MA T KT OA OT G1 G2 GT TF : Type} [Field F] [DecidableEq F]
  [AddCommGroup MA] [Module F MA] [AddCommGroup T] [Module F T]
  [AddCommGroup G1] [Module F G1] [AddCommGroup G2] [Module F G2]
  [AddCommGroup GT] [Module F GT] [Monoid TF] [DecidableEq GT]
  [AddCommGroup OA] [Module F OA] [Add OT] [SMul F OT] [DecidableEq OA] [DecidableEq OT]
  {P : Gipa ρ F MA F T G2 Placeholder KT OA F OT} {V : TipaEnv F G1 G2 GT TF}
  {bil : MA →ₗ[F] F →ₗ[F] T} {φa : MA →ₗ[F] G2 →ₗ[F] OA} {ψ : KT → T → OT} {e : G1 →ₗ[F] G2 →ₗ[F] GT}

/-- What an accepted proof satisfies. -/
theorem accepted_equations (L : P.Lawful bil φa 0 ψ) (hE : V.E.Lawful e) (X : Exec) (v : VerifierSRS G1 G2) (kt : KT)
    (comA : OA) (comT : OT) (b : F) (proof : TipaSsmProof F G2 MA OA OT)
    (hacc : verify X V P v kt comA comT b proof = .ok true) :
    ∃ cs c, P.chals proof.gipa.steps.reverse [] = .ok cs ∧
      kzgChallenge V P.digest P.serF cs.reverse proof.finalCk = .ok c ∧
      e v.g (proof.finalCk - productForm (cs.reverse.map (·⁻¹)) c 1 • v.h) =
        e (v.gBeta - c • v.g) proof.finalCkProof ∧
      (Gipa.foldMany proof.gipa.steps.reverse cs (comA, b, comT)).1 = φa proof.gipa.base.1 proof.finalCk ∧
      (Gipa.foldMany proof.gipa.steps.reverse cs (comA, b, comT)).2.2 =
        ψ kt (bil proof.gipa.base.1 ((scaled (cs.reverse.map (·⁻¹)) b).map (1 + ·)).prod) := by
  classical
  cases hch : P.chals proof.gipa.steps.reverse [] with
  | error x =>
    rw [verify, Gipa.recursiveChallenges_eq] at hacc
    simp only [hch] at hacc
    cases hacc
  | ok cs =>
    have hrec : P.recursiveChallenges (comA, b, comT) proof.gipa =
        .ok (Gipa.foldMany proof.gipa.steps.reverse cs (comA, b, comT), cs.reverse) := by
      rw [Gipa.recursiveChallenges_eq, hch]
      rfl
    have hne := (Gipa.C16_challenges_nonzero _ _ _ _ hrec).2
    cases hk : kzgChallenge V P.digest P.serF cs.reverse proof.finalCk with
    | error x =>
      rw [verify, hrec] at hacc
      simp only [ok_bind] at hacc
      rw [invertAll_eq _ hne] at hacc
      simp only [ok_bind] at hacc
      rw [hk] at hacc
      cases hacc
    | ok c =>
      rw [verify_eq L hE X v kt comA comT b proof cs hch c hk] at hacc
      simp only [Except.ok.injEq, Bool.and_eq_true, decide_eq_true_eq] at hacc
      exact ⟨cs, c, rfl, hk, hacc⟩

/-- C123: two accepted proofs with the same rounds and the same final key differ at most in the right base message. -/
theorem C123_tipa_ssm (L : P.Lawful bil φa 0 ψ) (hE : V.E.Lawful e) (X : Exec) (g : G1) (h : G2) (α β : F)
    (hg : ∀ y, e g y = 0 → y = 0) (kt : KT) (comA : OA) (comT comT' : OT) (b : F)
    (proof proof' : TipaSsmProof F G2 MA OA OT)
    (hacc : verify X V P ⟨g, h, β • g, α • h⟩ kt comA comT b proof = .ok true)
    (hacc' : verify X V P ⟨g, h, β • g, α • h⟩ kt comA comT' b proof' = .ok true)
    (hs : proof.gipa.steps = proof'.gipa.steps) (hf : proof.finalCk = proof'.finalCk)
    (ha : ∀ x, φa x proof.finalCk = 0 → x = 0)
    (hpt : ∀ cs c, P.chals proof.gipa.steps.reverse [] = .ok cs →
      kzgChallenge V P.digest P.serF cs.reverse proof.finalCk = .ok c → c ≠ β) :
    ∃ y, proof' = { proof with gipa := { proof.gipa with base := (proof.gipa.base.1, y) } } := by
  obtain ⟨cs, c, hc, hk, o1, b1, -⟩ := accepted_equations L hE X _ kt comA comT b proof hacc
  obtain ⟨cs', c', hc', hk', o1', b1', -⟩ := accepted_equations L hE X _ kt comA comT' b proof' hacc'
  have hβ := hpt cs c hc hk
  rw [← hs, hc] at hc'
  cases hc'
  rw [← hf, hk] at hk'
  cases hk'
  rw [← hf] at o1' b1'
  rw [← hs, ← Gipa.foldMany_left _ _ (comA, b, comT) (comA, b, comT') rfl, b1] at b1'
  have ea : proof.gipa.base.1 = proof'.gipa.base.1 := by
    refine sub_eq_zero.mp (ha _ ?_)
    rw [map_sub, LinearMap.sub_apply, b1', sub_self]
  have eo : proof.finalCkProof = proof'.finalCkProof := by
    have := o1.symm.trans o1'
    simp only [← sub_smul, map_smul, LinearMap.smul_apply] at this
    have := smul_right_injective _ (sub_ne_zero.mpr hβ.symm) this
    exact sub_eq_zero.mp (hg _ (by rw [map_sub, this, sub_self]))
  obtain ⟨⟨s, a, b⟩, f, o⟩ := proof
  obtain ⟨⟨s', a', b'⟩, f', o'⟩ := proof'
  simp only at hs hf ea eo
  subst hs hf ea eo
  exact ⟨b', rfl⟩

end TipaSsm

namespace Bivariate

variable {ρ F G1 G2 GT TF : Type} [Field F] [DecidableEq F] [AddCommGroup G1] [Module F G1] [AddCommGroup G2]
  [Module F G2] [AddCommGroup GT] [Module F GT] [Monoid TF] [DecidableEq G1] [DecidableEq GT]
  {V : Env ρ F G1 G2 GT TF} {e : G1 →ₗ[F] G2 →ₗ[F] GT}

/-- The proof with another right base message. -/
def withBase (proof : PcProof F G1 G2 GT) (y : F) : PcProof F G1 G2 GT :=
  { proof with ip := { proof.ip with gipa := { proof.ip.gipa with base := (proof.ip.gipa.base.1, y) } } }

/-- C123: two accepted openings of one commitment to one value at one point that agree in the rounds and in the final key
of the inner argument differ at most in its right base message. -/
theorem C123_bivariate (hE : V.E.Lawful e) (g : G1) (h : G2) (α β : F) (hg : ∀ y, e g y = 0 → y = 0)
    (hh : ∀ x, e x h = 0 → x = 0) (com : GT) (point : F × F) (hz : point.2 ≠ α) (value : F)
    (proof proof' : PcProof F G1 G2 GT)
    (hacc : verify V ⟨g, h, β • g, α • h⟩ com point value proof = .ok true)
    (hacc' : verify V ⟨g, h, β • g, α • h⟩ com point value proof' = .ok true)
    (hs : proof.ip.gipa.steps = proof'.ip.gipa.steps) (hf : proof.ip.finalCk = proof'.ip.finalCk)
    (ha : ∀ x, e x proof.ip.finalCk = 0 → x = 0)
    (hpt : ∀ cs c, V.multiexpSsm.chals proof.ip.gipa.steps.reverse [] = .ok cs →
      TipaSsm.kzgChallenge V.tipa V.digest V.serF cs.reverse proof.ip.finalCk = .ok c → c ≠ β) :
    ∃ y, proof' = withBase proof y := by
  rw [C78_both hE g h _ α hh] at hacc hacc'
  obtain ⟨i1, k1⟩ := hacc
  obtain ⟨i2, k2⟩ := hacc'
  have L := multiexpSsm_lawful V hE
  obtain ⟨y, hy⟩ := TipaSsm.C123_tipa_ssm L hE V.X g h α β hg PUnit.unit com _ _ point.1 proof.ip proof'.ip i1 i2 hs hf
    ha hpt
  obtain ⟨cs, c, hc, hk, -, -, t1⟩ := TipaSsm.accepted_equations L hE V.X _ PUnit.unit _ _ _ _ i1
  obtain ⟨cs', c', hc', hk', -, -, t2⟩ := TipaSsm.accepted_equations L hE V.X _ PUnit.unit _ _ _ _ i2
  rw [← hs, hc] at hc'
  cases hc'
  have hb : proof'.ip.gipa.base.1 = proof.ip.gipa.base.1 := by rw [hy]
  rw [hb, ← hs] at t2
  have hrow : proof.yEvalComm = proof'.yEvalComm :=
    Gipa.foldMany_target _ _ _ _ proof.yEvalComm proof'.yEvalComm _ rfl rfl t1 t2
  have hkzg : proof.kzg = proof'.kzg := by
    rw [hrow] at k1
    exact smul_right_injective _ (sub_ne_zero.mpr hz.symm) (k1.symm.trans k2)
  refine ⟨y, ?_⟩
  obtain ⟨ip, row, kz⟩ := proof
  obtain ⟨ip', row', kz'⟩ := proof'
  simp only at hy hrow hkzg
  subst hrow hkzg hy
  rfl

/-- C123: and every right base message is accepted, so everybody can change an accepted opening. -/
theorem C123_bivariate_free (v : VerifierSRS G1 G2) (com : GT) (point : F × F) (value : F)
    (proof : PcProof F G1 G2 GT) (y : F) :
    verify V v com point value (withBase proof y) = verify V v com point value proof := rfl

end Bivariate

namespace Groth16

variable {ρ F G1 G2 GT TF : Type} [Field F] [DecidableEq F] [AddCommGroup G1] [Module F G1] [AddCommGroup G2]
  [Module F G2] [AddCommGroup GT] [Module F GT] [Monoid TF] [DecidableEq G1] [DecidableEq GT]
  {V : Env ρ F G1 G2 GT TF} {e : G1 →ₗ[F] G2 →ₗ[F] GT}

/-- The proof with another right base message in the argument about `C`. -/
def withBase (proof : AggProof F G1 G2 GT) (y : F) : AggProof F G1 G2 GT :=
  { proof with proofC := { proof.proofC with
      gipa := { proof.proofC.gipa with base := (proof.proofC.gipa.base.1, y) } } }

theorem accepted_parts (v : VerifierSRS G1 G2) (vk : G16VK G1 G2) (inputs : List (List F)) (proof : AggProof F G1 G2 GT)
    (hacc : verify V v vk inputs proof = .ok true) :
    ∃ r, challenge V proof.comA proof.comB proof.comC = .ok r ∧
      Tipa.verifyWithShift V.tipa V.pairingAB v PUnit.unit (proof.comA, proof.comB, ⟨[proof.ipAB]⟩) proof.proofAB r =
        .ok true ∧
      TipaSsm.verify V.X V.tipa V.multiexpSsm v PUnit.unit proof.comC ⟨[proof.aggC]⟩ r proof.proofC = .ok true := by
  rw [verify] at hacc
  cases hr : challenge V proof.comA proof.comB proof.comC with
  | error x => rw [hr] at hacc; cases hacc
  | ok r =>
    rw [hr] at hacc
    simp only [ok_bind] at hacc
    cases h1 : Tipa.verifyWithShift V.tipa V.pairingAB v PUnit.unit (proof.comA, proof.comB, ⟨[proof.ipAB]⟩)
      proof.proofAB r with
    | error x => rw [h1] at hacc; cases hacc
    | ok b1 =>
      rw [h1] at hacc
      simp only [ok_bind] at hacc
      cases h2 : TipaSsm.verify V.X V.tipa V.multiexpSsm v PUnit.unit proof.comC ⟨[proof.aggC]⟩ r proof.proofC with
      | error x => rw [h2] at hacc; cases hacc
      | ok b2 =>
        rw [h2] at hacc
        simp only [ok_bind] at hacc
        cases h3 : verifyPpe V vk inputs r proof.ipAB proof.aggC with
        | error x => rw [h3] at hacc; cases hacc
        | ok b3 =>
          rw [h3] at hacc
          simp only [ok_bind, pure, Except.pure, Except.ok.injEq, Bool.and_eq_true] at hacc
          obtain ⟨⟨rfl, rfl⟩, -⟩ := hacc
          exact ⟨r, rfl, h1, h2⟩

/-- C123: two accepted aggregate proofs that agree in the three commitments and in the rounds and final keys of both
inner arguments differ at most in the right base message of the argument about `C`. They may belong to different inputs
and Groth16 keys. -/
theorem C123_aggregate (hE : V.E.Lawful e) (g : G1) (h : G2) (α β : F) (hg : ∀ y, e g y = 0 → y = 0)
    (hh : ∀ x, e x h = 0 → x = 0) (vk vk' : G16VK G1 G2) (inputs inputs' : List (List F))
    (proof proof' : AggProof F G1 G2 GT)
    (hacc : verify V ⟨g, h, β • g, α • h⟩ vk inputs proof = .ok true)
    (hacc' : verify V ⟨g, h, β • g, α • h⟩ vk' inputs' proof' = .ok true)
    (hA : proof.comA = proof'.comA) (hB : proof.comB = proof'.comB) (hC : proof.comC = proof'.comC)
    (hs1 : proof.proofAB.gipa.steps = proof'.proofAB.gipa.steps) (hf1 : proof.proofAB.finalCk = proof'.proofAB.finalCk)
    (hs2 : proof.proofC.gipa.steps = proof'.proofC.gipa.steps) (hf2 : proof.proofC.finalCk = proof'.proofC.finalCk)
    (na : ∀ x, e x proof.proofAB.finalCk.1 = 0 → x = 0) (nb : ∀ y, e proof.proofAB.finalCk.2 y = 0 → y = 0)
    (nc : ∀ x, e x proof.proofC.finalCk = 0 → x = 0)
    (hp1 : ∀ cs c, V.pairingAB.chals proof.proofAB.gipa.steps.reverse [] = .ok cs →
      Tipa.kzgChallenge V.tipa V.digest V.serF cs.reverse proof.proofAB.finalCk.1 proof.proofAB.finalCk.2 = .ok c →
        c ≠ α ∧ c ≠ β)
    (hp2 : ∀ cs c, V.multiexpSsm.chals proof.proofC.gipa.steps.reverse [] = .ok cs →
      TipaSsm.kzgChallenge V.tipa V.digest V.serF cs.reverse proof.proofC.finalCk = .ok c → c ≠ β) :
    ∃ y, proof' = withBase proof y := by
  obtain ⟨r, hr, i1, j1⟩ := accepted_parts _ vk inputs proof hacc
  obtain ⟨r', hr', i2, j2⟩ := accepted_parts _ vk' inputs' proof' hacc'
  rw [← hA, ← hB, ← hC, hr] at hr'
  cases hr'
  have L1 := pairingAB_lawful V hE
  have L2 := multiexpSsm_lawful V hE
  rw [← hA, ← hB] at i2
  rw [← hC] at j2
  have e1 : proof.proofAB = proof'.proofAB := Tipa.C123_tipa L1 hE g h α β hg hh PUnit.unit _ _ _ _ r i1 i2 rfl rfl hs1
    hf1 na nb hp1
  obtain ⟨y, e2⟩ := TipaSsm.C123_tipa_ssm L2 hE V.X g h α β hg PUnit.unit _ _ _ r _ _ j1 j2 hs2 hf2 nc hp2
  have e3 : proof.ipAB = proof'.ipAB := by
    obtain ⟨cs, c, hc, -, -, -, -, -, t1⟩ := Tipa.accepted_equations L1 hE _ PUnit.unit _ _ r i1
    obtain ⟨cs', c', hc', -, -, -, -, -, t2⟩ := Tipa.accepted_equations L1 hE _ PUnit.unit _ _ r i2
    rw [← e1, hc] at hc'
    cases hc'
    rw [← e1] at t2
    exact Gipa.foldMany_target _ _ _ _ proof.ipAB proof'.ipAB _ rfl rfl t1 t2
  have e4 : proof.aggC = proof'.aggC := by
    obtain ⟨cs, c, hc, -, -, -, t1⟩ := TipaSsm.accepted_equations L2 hE V.X _ PUnit.unit _ _ _ _ j1
    obtain ⟨cs', c', hc', -, -, -, t2⟩ := TipaSsm.accepted_equations L2 hE V.X _ PUnit.unit _ _ _ _ j2
    rw [← hs2, hc] at hc'
    cases hc'
    have hb : proof'.proofC.gipa.base.1 = proof.proofC.gipa.base.1 := by rw [e2]
    rw [hb, ← hs2] at t2
    exact Gipa.foldMany_target _ _ _ _ proof.aggC proof'.aggC _ rfl rfl t1 t2
  refine ⟨y, ?_⟩
  obtain ⟨a, b, c, i, ag, p, q⟩ := proof
  obtain ⟨a', b', c', i', ag', p', q'⟩ := proof'
  simp only at hA hB hC e1 e2 e3 e4
  subst hA hB hC e1 e2 e3 e4
  rfl

/-- C123: and every right base message is accepted, so everybody can change an accepted aggregate proof. -/
theorem C123_aggregate_free (v : VerifierSRS G1 G2) (vk : G16VK G1 G2) (inputs : List (List F))
    (proof : AggProof F G1 G2 GT) (y : F) : verify V v vk inputs (withBase proof y) = verify V v vk inputs proof := rfl

end Groth16

namespace Gipa

variable {ρ F MA MB T KA KB KT OA OB OT : Type} [Field F] [DecidableEq F]
  [AddCommGroup MA] [Module F MA] [AddCommGroup MB] [Module F MB] [AddCommGroup T] [Module F T]
  [AddCommGroup KA] [Module F KA] [AddCommGroup KB] [Module F KB]
  [AddCommGroup OA] [Module F OA] [AddCommGroup OB] [Module F OB] [Add OT] [SMul F OT]
  [DecidableEq T] [DecidableEq OA] [DecidableEq OB] [DecidableEq OT]
  {P : Gipa ρ F MA MB T KA KB KT OA OB OT}
  {bil : MA →ₗ[F] MB →ₗ[F] T} {φa : MA →ₗ[F] KA →ₗ[F] OA} {φb : MB →ₗ[F] KB →ₗ[F] OB} {ψ : KT → T → OT}

/-- C123: two accepted GIPA proofs with the same rounds are equal, unless the folded keys are degenerate. -/
theorem C123_gipa (L : P.Lawful bil φa φb ψ) (cka : List KA) (ckb : List KB) (kt : KT) (com com' : Coms OA OB OT)
    (proof proof' : GipaProof MA MB OA OB OT) (la : cka.length = 2 ^ proof.steps.length)
    (lb : ckb.length = 2 ^ proof.steps.length) (hacc : P.verify cka ckb kt com proof = .ok true)
    (hacc' : P.verify cka ckb kt com' proof' = .ok true) (h1 : com.1 = com'.1) (h2 : com.2.1 = com'.2.1)
    (hs : proof.steps = proof'.steps)
    (hn : ∀ cs ka kb, P.chals proof.steps.reverse [] = .ok cs → foldAll (cs.map (·⁻¹)) cka = [ka] →
      foldAll cs ckb = [kb] → (∀ x, φa x ka = 0 → x = 0) ∧ ∀ x, φb x kb = 0 → x = 0) :
    proof = proof' := by
  cases hch : P.chals proof.steps.reverse [] with
  | error x =>
    rw [verify_eq L _ _ _ _ _ la lb, hch] at hacc
    cases hacc
  | ok cs =>
    have hrec : P.recursiveChallenges com proof = .ok (foldMany proof.steps.reverse cs com, cs.reverse) := by
      rw [recursiveChallenges_eq, hch]
      rfl
    have hrec' : P.recursiveChallenges com' proof' = .ok (foldMany proof'.steps.reverse cs com', cs.reverse) := by
      rw [recursiveChallenges_eq, ← hs, hch]
      rfl
    obtain ⟨ka, kb, b, f1, f2, hv, hb⟩ := C18_verdict L cka ckb kt com proof cs _ la lb hrec
    obtain ⟨ka', kb', b', f1', f2', hv', hb'⟩ := C18_verdict L cka ckb kt com' proof' cs _ (by rw [← hs, la])
      (by rw [← hs, lb]) hrec'
    rw [hacc] at hv
    rw [hacc'] at hv'
    obtain ⟨a1, a2, -⟩ := hb.mp (by simpa using hv.symm)
    obtain ⟨a1', a2', -⟩ := hb'.mp (by simpa using hv'.symm)
    rw [f1] at f1'
    rw [f2] at f2'
    cases f1'
    cases f2'
    obtain ⟨n1, n2⟩ := hn cs ka kb hch f1 f2
    rw [← hs, ← h1, a1] at a1'
    rw [← hs, ← h2, a2] at a2'
    have ea : proof.base.1 = proof'.base.1 := sub_eq_zero.mp (n1 _ (by rw [map_sub, LinearMap.sub_apply, a1', sub_self]))
    have eb : proof.base.2 = proof'.base.2 := sub_eq_zero.mp (n2 _ (by rw [map_sub, LinearMap.sub_apply, a2', sub_self]))
    obtain ⟨s, a, b⟩ := proof
    obtain ⟨s', a', b'⟩ := proof'
    simp only at hs ea eb
    subst hs ea eb
    rfl

end Gipa

namespace GipaSsm

variable {ρ F MA T KA KT OA OT : Type} [Field F] [DecidableEq F]
  [AddCommGroup MA] [Module F MA] [AddCommGroup T] [Module F T] [AddCommGroup KA] [Module F KA]
  [AddCommGroup OA] [Module F OA] [Add OT] [SMul F OT] [DecidableEq OA] [DecidableEq OT]
  {P : Gipa ρ F MA F T KA Placeholder KT OA F OT}
  {bil : MA →ₗ[F] F →ₗ[F] T} {φa : MA →ₗ[F] KA →ₗ[F] OA} {ψ : KT → T → OT}

/-- C123: without a reference string both base messages are checked, so two accepted proofs with the same rounds are
equal, unless the folded key or the left base message is degenerate. -/
theorem C123_gipa_ssm (L : P.Lawful bil φa 0 ψ) (X : Exec) (cka : List KA) (kt : KT) (comA : OA) (comT comT' : OT) (b : F)
    (proof proof' : GipaProof MA F OA F OT) (la : cka.length = 2 ^ proof.steps.length)
    (hacc : verify X P cka kt comA comT b proof = .ok true)
    (hacc' : verify X P cka kt comA comT' b proof' = .ok true) (hs : proof.steps = proof'.steps)
    (hψ : ∀ t t', ψ kt t = ψ kt t' → t = t') (hbase : ∀ s, bil proof.base.1 s = 0 → s = 0)
    (hn : ∀ cs ka, P.chals proof.steps.reverse [] = .ok cs → foldAll (cs.map (·⁻¹)) cka = [ka] →
      ∀ x, φa x ka = 0 → x = 0) :
    proof = proof' ∧ ∃ cs x, P.chals proof.steps.reverse [] = .ok cs ∧
      (Gipa.foldMany proof.steps.reverse cs (comA, 0, comT)).2.2 = ψ kt x ∧
      (Gipa.foldMany proof.steps.reverse cs (comA, 0, comT')).2.2 = ψ kt x := by
  cases hch : P.chals proof.steps.reverse [] with
  | error x =>
    rw [verify_eq L _ _ _ _ _ _ _ la, hch] at hacc
    cases hacc
  | ok cs =>
    have hrec : P.recursiveChallenges (comA, 0, comT) proof =
        .ok (Gipa.foldMany proof.steps.reverse cs (comA, 0, comT), cs.reverse) := by
      rw [Gipa.recursiveChallenges_eq, hch]
      rfl
    have hrec' : P.recursiveChallenges (comA, 0, comT') proof' =
        .ok (Gipa.foldMany proof'.steps.reverse cs (comA, 0, comT'), cs.reverse) := by
      rw [Gipa.recursiveChallenges_eq, ← hs, hch]
      rfl
    obtain ⟨ka, s, f1, f2, -, hv, -⟩ := C33_verdict L X cka kt comA comT b proof cs _ la hrec
    obtain ⟨ka', s', f1', f2', -, hv', -⟩ := C33_verdict L X cka kt comA comT' b proof' cs _ (by rw [← hs, la]) hrec'
    rw [f1] at f1'
    rw [f2] at f2'
    cases f1'
    cases f2'
    obtain ⟨a1, -, a3, a4⟩ := hv.mp hacc
    obtain ⟨a1', -, a3', a4'⟩ := hv'.mp hacc'
    rw [← hs, ← Gipa.foldMany_left _ _ (comA, 0, comT) (comA, 0, comT') rfl, a1] at a1'
    have ea : proof.base.1 = proof'.base.1 :=
      sub_eq_zero.mp (hn cs ka hch f1 _ (by rw [map_sub, LinearMap.sub_apply, a1', sub_self]))
    have key : ∀ s t : F, bil proof.base.1 s = bil proof.base.1 t → s = t := fun s t h =>
      sub_eq_zero.mp (hbase _ (by rw [map_sub, h, sub_self]))
    have eb : proof.base.2 = proof'.base.2 := by
      rw [key _ _ (hψ _ _ (a3.symm.trans a4))]
      have := hψ _ _ (a3'.symm.trans a4')
      rw [← ea] at this
      exact (key _ _ this).symm
    refine ⟨?_, cs, _, rfl, a4, ?_⟩
    · obtain ⟨s, a, b⟩ := proof
      obtain ⟨s', a', b'⟩ := proof'
      simp only at hs ea eb
      subst hs ea eb
      rfl
    · rw [← hs, ← ea] at a4'
      exact a4'

end GipaSsm

namespace TBivariate

variable {ρ F G1 G2 GT TF : Type} [Field F] [DecidableEq F] [AddCommGroup G1] [Module F G1] [AddCommGroup G2]
  [Module F G2] [AddCommGroup GT] [Module F GT] [Monoid TF] [DecidableEq G1] [DecidableEq GT]
  {V : Env ρ F G1 G2 GT TF} {e : G1 →ₗ[F] G2 →ₗ[F] GT}

/-- C123: two accepted openings of the transparent scheme for one statement that agree in the rounds of both arguments
are equal, unless a folded key or a left base message is zero. -/
theorem C123_transparent (hE : V.E.Lawful e) (he : ∀ x y, e x y = 0 → x = 0 ∨ y = 0) (ck : List G1 × List G2) (com : GT)
    (point : F × F) (value : F) (proof proof' : TpcProof F G1 GT) (l2 : ck.2.length = 2 ^ proof.second.steps.length)
    (l1 : ck.1.length = 2 ^ proof.first.steps.length) (hacc : verify V ck com point value proof = .ok true)
    (hacc' : verify V ck com point value proof' = .ok true) (hs2 : proof.second.steps = proof'.second.steps)
    (hs1 : proof.first.steps = proof'.first.steps) (b2 : proof.second.base.1 ≠ 0) (b1 : proof.first.base.1 ≠ 0)
    (n2 : ∀ cs k, V.multiexpSsm.chals proof.second.steps.reverse [] = .ok cs → foldAll (cs.map (·⁻¹)) ck.2 = [k] → k ≠ 0)
    (n1 : ∀ cs k, V.scalarSsm.chals proof.first.steps.reverse [] = .ok cs → foldAll (cs.map (·⁻¹)) ck.1 = [k] → k ≠ 0) :
    proof = proof' := by
  obtain ⟨i2, i1⟩ := (C78_both ck com point value proof).mp hacc
  obtain ⟨j2, j1⟩ := (C78_both ck com point value proof').mp hacc'
  have hψ : ∀ {T : Type} (t t' : T), (⟨[t]⟩ : IdentityOutput T) = ⟨[t']⟩ → t = t' := by
    intro T t t' h
    simpa using h
  obtain ⟨e2, cs, x, -, t, t'⟩ := GipaSsm.C123_gipa_ssm (multiexpSsm_lawful V hE) V.X ck.2 PUnit.unit com _ _ point.1
    proof.second proof'.second l2 i2 j2 hs2 hψ (fun s hs => (smul_eq_zero.mp hs).resolve_right b2)
    fun cs k hc hk x hx => (he x k hx).resolve_right (n2 cs k hc hk)
  have erow : proof.yEvalComm = proof'.yEvalComm :=
    Gipa.foldMany_target _ _ _ _ proof.yEvalComm proof'.yEvalComm _ rfl rfl t t'
  rw [← erow] at j1
  obtain ⟨e1, -⟩ := GipaSsm.C123_gipa_ssm (scalarSsm_lawful V) V.X ck.1 PUnit.unit _ _ _ point.2
    proof.first proof'.first l1 i1 j1 hs1 hψ (fun s hs => (mul_eq_zero.mp hs).resolve_left b1)
    fun cs k hc hk x hx => (smul_eq_zero.mp hx).resolve_right (n1 cs k hc hk)
  obtain ⟨p, r, q⟩ := proof
  obtain ⟨p', r', q'⟩ := proof'
  simp only at e1 e2 erow
  subst e1 e2 erow
  rfl

end TBivariate

/-! ## Examples with `α = 7`, `β = 5` -/

/-- The honest proof for `(1, 2)` and `(3, 4)`, see the example for C112. -/
def Toy.proof1 : TipaProof Toy.F Toy.F Toy.F Toy.F Toy.F Toy.F (IdentityOutput Toy.F) :=
  ⟨⟨[((2, 46, ⟨[6]⟩), (25, 4, ⟨[4]⟩))], (69, 15)⟩, (76, 51), (24, 37)⟩

/-- No other proof with the same rounds and final keys is accepted, for whatever inner product. -/
example (t : Toy.F) (proof : TipaProof Toy.F Toy.F Toy.F Toy.F Toy.F Toy.F (IdentityOutput Toy.F))
    (hs : proof.gipa.steps = [((2, 46, ⟨[6]⟩), (25, 4, ⟨[4]⟩))]) (hf : proof.finalCk = (76, 51))
    (hacc : Tipa.verifyWithShift Toy.env.tipa Toy.env.pairingAB ⟨1, 1, (5 : Toy.F) • (1 : Toy.F), (7 : Toy.F) • (1 : Toy.F)⟩
      PUnit.unit (51, 199, ⟨[t]⟩) proof 1 = .ok true) : proof = Toy.proof1 :=
  (Tipa.C123_tipa (pairingAB_lawful Toy.env Toy.lawful) Toy.lawful 1 1 7 5 (by decide) (by decide) PUnit.unit
    (51, 199, ⟨[11]⟩) (51, 199, ⟨[t]⟩) Toy.proof1 proof 1 (by decide +kernel) hacc rfl rfl hs.symm hf.symm (by decide)
    (by decide) fun cs c _ hc => by rw [Toy.kzgChallenge_val _ _ _ c hc]; decide).symm

theorem Toy.ssmKzgChallenge_val (tr : List Toy.F) (cka c : Toy.F)
    (h : TipaSsm.kzgChallenge Toy.env.tipa Toy.digest Toy.ser tr cka = .ok c) : c = 3 := by
  cases tr with
  | nil => simp [TipaSsm.kzgChallenge_nil, panic'] at h
  | cons t ts =>
    refine searchNonce_ok (P := fun x : Toy.F => x = 3) ?_ _ _ _ h
    intro n x hx
    have hx : some (3 : Toy.F) = some x := Except.ok.inj hx
    exact (Option.some.inj hx).symm

/-- The honest opening of `1 + 2 Y + X (3 + 4 Y)` at `(2, 4)`, where the value is 47; the commitment is 83. -/
def Toy.opening1 : PcProof Toy.F Toy.F Toy.F Toy.F :=
  ⟨⟨⟨[((31, 0, ⟨[31]⟩), (72, 0, ⟨[30]⟩))], (59, 7)⟩, 76, 24⟩, 77, 10⟩

/-- The openings with the same rounds and final key that are accepted are those with another right base message. -/
example (proof : PcProof Toy.F Toy.F Toy.F Toy.F)
    (hs : proof.ip.gipa.steps = [((31, 0, ⟨[31]⟩), (72, 0, ⟨[30]⟩))]) (hf : proof.ip.finalCk = 76) :
    Bivariate.verify Toy.env ⟨1, 1, (5 : Toy.F) • (1 : Toy.F), (7 : Toy.F) • (1 : Toy.F)⟩ 83 (2, 4) 47 proof = .ok true ↔
      ∃ y, proof = ⟨⟨⟨[((31, 0, ⟨[31]⟩), (72, 0, ⟨[30]⟩))], (59, y)⟩, 76, 24⟩, 77, 10⟩ := by
  have h0 : Bivariate.verify Toy.env ⟨1, 1, (5 : Toy.F) • (1 : Toy.F), (7 : Toy.F) • (1 : Toy.F)⟩ 83 (2, 4) 47
    Toy.opening1 = .ok true := by decide +kernel
  refine ⟨fun hacc => ?_, ?_⟩
  · exact Bivariate.C123_bivariate Toy.lawful 1 1 7 5 (by decide) (by decide) 83 (2, 4) (by decide) 47 Toy.opening1 proof
      h0 hacc hs.symm hf.symm (by decide) fun cs c _ hc => by rw [Toy.ssmKzgChallenge_val _ _ c hc]; decide
  · rintro ⟨y, rfl⟩
    exact h0

/-- The honest opening of the same polynomial in the transparent scheme with the keys `(3, 5)` and `(7, 2)`. -/
def Toy.opening2 : TpcProof Toy.F Toy.F Toy.F :=
  ⟨⟨[((1, 0, ⟨[29]⟩), (26, 0, ⟨[26]⟩))], (90, 7)⟩, 71, ⟨[((30, 0, ⟨[10]⟩), (35, 0, ⟨[28]⟩))], (44, 13)⟩⟩

/-- No other opening with the same rounds is accepted. -/
example (proof : TpcProof Toy.F Toy.F Toy.F)
    (hs2 : proof.second.steps = [((1, 0, ⟨[29]⟩), (26, 0, ⟨[26]⟩))])
    (hs1 : proof.first.steps = [((30, 0, ⟨[10]⟩), (35, 0, ⟨[28]⟩))])
    (hacc : TBivariate.verify Toy.env ([3, 5], [7, 2]) 48 (2, 4) 47 proof = .ok true) : proof = Toy.opening2 := by
  have c2 : Toy.env.multiexpSsm.chals (Toy.opening2.second.steps.reverse) [] = .ok [34] := by decide +kernel
  have c1 : Toy.env.scalarSsm.chals (Toy.opening2.first.steps.reverse) [] = .ok [34] := by decide +kernel
  refine (TBivariate.C123_transparent Toy.lawful (by decide +kernel) ([3, 5], [7, 2]) 48 (2, 4) 47 Toy.opening2 proof rfl
    rfl (by decide +kernel) hacc hs2.symm hs1.symm (by decide) (by decide) ?_ ?_).symm
  · intro cs k hc hk
    rw [c2] at hc
    cases hc
    revert hk k
    decide +kernel
  · intro cs k hc hk
    rw [c1] at hc
    cases hc
    revert hk k
    decide +kernel

/-- GIPA with the keys `(5, 6)` and `(7, 8)`: commitments 17 and 53, inner product 11. -/
example (t : Toy.F) (proof : GipaProof Toy.F Toy.F Toy.F Toy.F (IdentityOutput Toy.F))
    (hs : proof.steps = [((10, 24, ⟨[6]⟩), (6, 28, ⟨[4]⟩))])
    (hacc : Toy.env.pairingAB.verify [5, 6] [7, 8] PUnit.unit (17, 53, ⟨[t]⟩) proof = .ok true) :
    proof = ⟨[((10, 24, ⟨[6]⟩), (6, 28, ⟨[4]⟩))], (69, 15)⟩ := by
  have hc : Toy.env.pairingAB.chals [((10, 24, ⟨[6]⟩), (6, 28, ⟨[4]⟩))] [] = .ok [34] := by decide +kernel
  refine (Gipa.C123_gipa (pairingAB_lawful Toy.env Toy.lawful) [5, 6] [7, 8] PUnit.unit (17, 53, ⟨[11]⟩) (17, 53, ⟨[t]⟩)
    ⟨[((10, 24, ⟨[6]⟩), (6, 28, ⟨[4]⟩))], (69, 15)⟩ proof rfl rfl (by decide +kernel) hacc rfl rfl hs.symm ?_).symm
  intro cs ka kb h
  have h := hc.symm.trans h
  cases h
  revert ka kb
  decide +kernel

/-- An aggregate of two proofs `(2, 3, 3)` and `(4, 5, 16)` for the inputs 1 and 2. -/
def Toy.agg1 : AggProof Toy.F Toy.F Toy.F Toy.F :=
  ⟨1, 46, 100, 66, 51, ⟨⟨[((12, 46, ⟨[36]⟩), (84, 5, ⟨[10]⟩))], (6, 18)⟩, (26, 51), (8, 37)⟩,
    ⟨⟨[((16, 0, ⟨[16]⟩), (75, 0, ⟨[9]⟩))], (42, 10)⟩, 76, 24⟩⟩

/-- Aggregates for whatever key and inputs with the same commitments, rounds and final keys are this one, up to the field
that is free. -/
example (vk : G16VK Toy.F Toy.F) (inputs : List (List Toy.F)) (proof : AggProof Toy.F Toy.F Toy.F Toy.F)
    (hacc : Groth16.verify Toy.env ⟨1, 1, (5 : Toy.F) • (1 : Toy.F), (7 : Toy.F) • (1 : Toy.F)⟩ vk inputs proof = .ok true)
    (hA : proof.comA = 1) (hB : proof.comB = 46) (hC : proof.comC = 100)
    (hs1 : proof.proofAB.gipa.steps = [((12, 46, ⟨[36]⟩), (84, 5, ⟨[10]⟩))]) (hf1 : proof.proofAB.finalCk = (26, 51))
    (hs2 : proof.proofC.gipa.steps = [((16, 0, ⟨[16]⟩), (75, 0, ⟨[9]⟩))]) (hf2 : proof.proofC.finalCk = 76) :
    ∃ y, proof = Groth16.withBase Toy.agg1 y :=
  Groth16.C123_aggregate Toy.lawful 1 1 7 5 (by decide) (by decide) ⟨1, 1, 1, 1, [1, 1]⟩ vk [[1], [2]] inputs Toy.agg1
    proof (by decide +kernel) hacc hA.symm hB.symm hC.symm hs1.symm hf1.symm hs2.symm hf2.symm (by decide) (by decide)
    (by decide) (fun cs c _ hc => by rw [Toy.kzgChallenge_val _ _ _ c hc]; decide)
    fun cs c _ hc => by rw [Toy.ssmKzgChallenge_val _ _ c hc]; decide

end Ripp
