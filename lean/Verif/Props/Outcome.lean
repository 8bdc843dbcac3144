import Verif.Props.Groth16Verify
import Verif.Props.DegreeLimit
import Verif.Props.Batch
import Verif.Props.Sipp
import Verif.Props.Transparent

/-!
# C121: every outcome of the verifiers

For every input of every verifier, also proofs made by an adversary, it is stated which of the three ways to
end the call takes: a verdict, an error value, or a panic.
-/

set_option linter.unusedSectionVars false

namespace Ripp

open Spec

/-- If `c` holds the call returns a value, if not it panics; if `m`, it may also have tried all `2^64` nonces
without success. There is no other way to end, in particular no error value. -/
structure Outcome {α : Type} (m c : Prop) (x : Res α) : Prop where
  value : c → (m ∧ x = .error .diverge) ∨ ∃ a, x = .ok a
  panics : ¬ c → (m ∧ x = .error .diverge) ∨ ∃ p, x = .error (.panic p)

namespace Outcome

variable {α β : Type} {m : Prop}

theorem congr {c d : Prop} {x : Res α} (h : Outcome m c x) (hcd : c ↔ d) : Outcome m d x :=
  ⟨fun hd => h.value (hcd.mpr hd), fun hd => h.panics fun hc => hd (hcd.mp hc)⟩

theorem bind {c d : Prop} {x : Res α} {f : α → Res β} (hx : Outcome m c x)
    (hf : ∀ a, x = .ok a → Outcome m d (f a)) : Outcome m (c ∧ d) (x >>= f) := by
  constructor
  · rintro ⟨hc, hd⟩
    rcases hx.value hc with ⟨hm, h⟩ | ⟨a, h⟩
    · left; rw [h]; exact ⟨hm, rfl⟩
    · rw [h]; exact (hf a h).value hd
  · intro hcd
    by_cases hc : c
    · rcases hx.value hc with ⟨hm, h⟩ | ⟨a, h⟩
      · left; rw [h]; exact ⟨hm, rfl⟩
      · rw [h]; exact (hf a h).panics fun hd => hcd ⟨hc, hd⟩
    · rcases hx.panics hc with ⟨hm, h⟩ | ⟨p, h⟩
      · left; rw [h]; exact ⟨hm, rfl⟩
      · right; rw [h]; exact ⟨p, rfl⟩

theorem ok (a : α) : Outcome m True (.ok a : Res α) :=
  ⟨fun _ => .inr ⟨a, rfl⟩, fun h => absurd trivial h⟩

theorem diverge (c : Prop) (hm : m) : Outcome m c (.error .diverge : Res α) :=
  ⟨fun _ => .inl ⟨hm, rfl⟩, fun _ => .inl ⟨hm, rfl⟩⟩

theorem of_ok {x : Res α} {a : α} (h : x = .ok a) : Outcome m True x := h ▸ ok a

/-- A call that always returns does not change the condition. -/
theorem bind_ok {c : Prop} {x : Res α} {f : α → Res β} {a : α} (hx : x = .ok a)
    (hf : Outcome m c (f a)) : Outcome m c (x >>= f) := by rw [hx]; exact hf

theorem bind_true {c : Prop} {x : Res α} {f : α → Res β} (hx : Outcome m True x)
    (hf : ∀ a, x = .ok a → Outcome m c (f a)) : Outcome m c (x >>= f) :=
  (hx.bind hf).congr (by simp)

theorem inverse {F : Type} [Field F] [DecidableEq F] (x : F) :
    Outcome m (x ≠ 0) (unwrap (Ripp.inverse x)) := by
  constructor
  · intro h; rw [inverse_of_ne h]; exact .inr ⟨_, rfl⟩
  · intro h; rw [not_not] at h; subst h; exact .inr ⟨.unwrap, by simp [Ripp.inverse, unwrap, panic']⟩

/-- If the search cannot run out of nonces: a verdict exactly under the condition. -/
theorem iff {c : Prop} {x : Res α} (h : Outcome False c x) :
    ((∃ a, x = .ok a) ↔ c) ∧ ((∃ p, x = .error (.panic p)) ↔ ¬ c) := by
  by_cases hc : c
  · obtain ⟨a, ha⟩ := (h.value hc).resolve_left fun h => h.1
    subst ha; simp [hc]
  · obtain ⟨p, hp⟩ := (h.panics hc).resolve_left fun h => h.1
    subst hp; simp [hc]

end Outcome

namespace Gipa

variable {ρ F MA MB T KA KB KT OA OB OT : Type} [Field F] [DecidableEq F]
  [AddCommGroup MA] [Module F MA] [AddCommGroup MB] [Module F MB]
  [AddCommGroup T] [Module F T] [AddCommGroup KA] [Module F KA] [AddCommGroup KB] [Module F KB]
  [AddCommGroup OA] [Module F OA] [AddCommGroup OB] [Module F OB] [Add OT] [SMul F OT]
  {P : Gipa ρ F MA MB T KA KB KT OA OB OT}
  {β : MA →ₗ[F] MB →ₗ[F] T} {φa : MA →ₗ[F] KA →ₗ[F] OA} {φb : MB →ₗ[F] KB →ₗ[F] OB}
  {ψ : KT → T → OT} {m : Prop}

/-- `m` holds if some search for a challenge tries all nonces without success. -/
def Searches (P : Gipa ρ F MA MB T KA KB KT OA OB OT) (m : Prop) : Prop :=
  ∀ prev com1 com2, P.challenge prev com1 com2 = .error .diverge → m

theorem outcome_chals (hd : ∀ x, 16 ≤ (P.digest x).length) (hm : P.Searches m) :
    ∀ (ss : List (Coms OA OB OT × Coms OA OB OT)) (tr : List F), Outcome m True (P.chals ss tr)
  | [], tr => .ok tr
  | (s1, s2) :: ss, tr => by
    rw [Gipa.chals]
    rcases P.challenge_total hd (tr.getLast?.getD 0) s1 s2 with ⟨c, -, h⟩ | h
    · exact .bind_ok h (outcome_chals hd hm ss _)
    · rw [h]; exact .diverge _ (hm _ _ _ h)

theorem outcome_recursive (hd : ∀ x, 16 ≤ (P.digest x).length) (hm : P.Searches m) (com : Coms OA OB OT)
    (proof : GipaProof MA MB OA OB OT) : Outcome m True (P.recursiveChallenges com proof) := by
  rw [recursiveChallenges_eq]
  exact (outcome_chals hd hm _ _).bind_true fun cs _ => .ok _

/-- C121: `GIPA::verify` returns the length error for keys that are not powers of two or of different
lengths; otherwise a verdict if the proof has as many rounds as fit the keys, and a panic if not. -/
theorem C121_gipa [DecidableEq OA] [DecidableEq OB] [DecidableEq OT] (L : P.Lawful β φa φb ψ)
    (hd : ∀ x, 16 ≤ (P.digest x).length) (hm : P.Searches m) (cka : List KA) (ckb : List KB) (kt : KT)
    (com : Coms OA OB OT) (proof : GipaProof MA MB OA OB OT) :
    ((∀ k, cka.length ≠ 2 ^ k) ∨ cka.length ≠ ckb.length →
      P.verify cka ckb kt com proof = .error (.argLength cka.length ckb.length)) ∧
    ((∃ k, cka.length = 2 ^ k) → cka.length = ckb.length →
      Outcome m (cka.length = 2 ^ proof.steps.length) (P.verify cka ckb kt com proof)) := by
  classical
  refine ⟨C19_key_lengths cka ckb kt com proof, ?_⟩
  rintro ⟨k, hk⟩ hab
  by_cases h : cka.length = 2 ^ proof.steps.length
  · rw [verify_eq L _ _ _ _ _ h (hab ▸ h)]
    exact ((outcome_chals hd hm _ _).bind_true fun cs _ => .ok _).congr (by simp [h])
  · rw [verify_wrong_rounds P _ _ _ _ _ (by rw [hk]; simp) hab h]
    refine ((outcome_chals hd hm _ _).bind_true (c := False) fun cs _ => ?_).congr (by simp [h])
    exact ⟨fun h => h.elim, fun _ => .inr ⟨.assertion, rfl⟩⟩

end Gipa

namespace Tipa

variable {ρ F MA MB T KT OA OB OT G1 G2 GT TF : Type} [Field F] [DecidableEq F]
  [AddCommGroup MA] [Module F MA] [AddCommGroup MB] [Module F MB] [AddCommGroup T] [Module F T]
  [AddCommGroup G1] [Module F G1] [AddCommGroup G2] [Module F G2]
  [AddCommGroup GT] [Module F GT] [Monoid TF] [DecidableEq GT]
  [AddCommGroup OA] [Module F OA] [AddCommGroup OB] [Module F OB] [Add OT] [SMul F OT]
  [DecidableEq OA] [DecidableEq OB] [DecidableEq OT]
  {P : Gipa ρ F MA MB T G2 G1 KT OA OB OT} {V : TipaEnv F G1 G2 GT TF}
  {bil : MA →ₗ[F] MB →ₗ[F] T} {φa : MA →ₗ[F] G2 →ₗ[F] OA} {φb : MB →ₗ[F] G1 →ₗ[F] OB}
  {ψ : KT → T → OT} {e : G1 →ₗ[F] G2 →ₗ[F] GT} {m : Prop}

/-- `m` holds if some search for the opening point tries all nonces without success. -/
def Searches (V : TipaEnv F G1 G2 GT TF) (digest : Bytes → Bytes) (serF : F → Bytes) (m : Prop) : Prop :=
  ∀ tr cka ckb, kzgChallenge V digest serF tr cka ckb = .error .diverge → m

theorem outcome_kzgChallenge (V : TipaEnv F G1 G2 GT TF) (digest : Bytes → Bytes) (serF : F → Bytes)
    (hk : Searches V digest serF m) (tr : List F) (cka : G2) (ckb : G1) :
    Outcome m (tr ≠ []) (kzgChallenge V digest serF tr cka ckb) := by
  by_cases h : tr = []
  · subst h
    rw [kzgChallenge_nil]
    exact ⟨fun h => absurd rfl h, fun _ => .inr ⟨_, rfl⟩⟩
  · refine ⟨fun _ => ?_, fun h' => absurd h h'⟩
    rcases kzgChallenge_total V digest serF tr cka ckb h with h' | h'
    · exact .inr h'
    · exact .inl ⟨hk _ _ _ h', h'⟩

/-- C121: TIPA's verifier returns a verdict unless the proof has no rounds or the shift is zero; then it
panics. The verifier key is arbitrary. -/
theorem C121_tipa (L : P.Lawful bil φa φb ψ) (hE : V.E.Lawful e) (hd : ∀ x, 16 ≤ (P.digest x).length)
    (hm : P.Searches m) (hk : Searches V P.digest P.serF m) (v : VerifierSRS G1 G2) (kt : KT) (com : Coms OA OB OT) (proof : TipaProof G1 G2 MA MB OA OB OT)
    (r : F) :
    Outcome m (proof.gipa.steps ≠ [] ∧ r ≠ 0) (verifyWithShift V P v kt com proof r) := by
  classical
  rw [verifyWithShift]
  refine (Gipa.outcome_recursive hd hm com proof.gipa).bind_true fun ⟨com', tr⟩ htr => ?_
  obtain ⟨hl, hne⟩ := Gipa.C16_challenges_nonzero _ _ _ _ htr
  refine .bind_ok (invertAll_eq _ hne) ?_
  refine ((outcome_kzgChallenge V _ _ hk tr _ _).bind (d := r ≠ 0) fun c _ => ?_).congr ?_
  · refine ((Outcome.inverse r).bind (d := True) fun ri _ => ?_).congr (by simp)
    rw [verifyKeyOpeningG2_eq hE, verifyKeyOpeningG1_eq hE, Gipa.verifyBase_eq L]
    exact .ok _
  · rw [← List.length_eq_zero_iff.ne, hl, List.length_eq_zero_iff.ne]

end Tipa

namespace GipaSsm

variable {ρ F MA T KA KT OA OT : Type} [Field F] [DecidableEq F]
  [AddCommGroup MA] [Module F MA] [AddCommGroup T] [Module F T] [AddCommGroup KA] [Module F KA]
  [AddCommGroup OA] [Module F OA] [Add OT] [SMul F OT] [DecidableEq OA] [DecidableEq OT]
  {P : Gipa ρ F MA F T KA Placeholder KT OA F OT}
  {bil : MA →ₗ[F] F →ₗ[F] T} {φa : MA →ₗ[F] KA →ₗ[F] OA} {ψ : KT → T → OT} {m : Prop}

/-- C121: the verifier of GIPA with structured message returns a verdict if the proof has as many rounds as
fit the key, and panics if not; there is no length error here. -/
theorem C121_gipa_ssm (L : P.Lawful bil φa 0 ψ) (hd : ∀ x, 16 ≤ (P.digest x).length)
    (hm : P.Searches m) (X : Exec) (cka : List KA) (kt : KT) (comA : OA) (comT : OT) (b : F) (proof : GipaProof MA F OA F OT) :
    Outcome m (cka.length = 2 ^ proof.steps.length) (verify X P cka kt comA comT b proof) := by
  classical
  by_cases h : cka.length = 2 ^ proof.steps.length
  · rw [verify_eq L X _ _ _ _ _ _ h]
    exact ((Gipa.outcome_chals hd hm _ _).bind_true fun cs _ => .ok _).congr (by simp [h])
  · rw [verify]
    refine ((Gipa.outcome_recursive hd hm _ proof).bind_true (c := False) fun ⟨com', tr⟩ htr => ?_).congr
      (by simp [h])
    obtain ⟨hl, hne⟩ := Gipa.C16_challenges_nonzero _ _ _ _ htr
    simp only []
    rw [finalKeys_wrong _ _ _ (by rw [hl]; exact h) hne]
    exact ⟨fun h => h.elim, fun _ => .inr ⟨.assertion, rfl⟩⟩

end GipaSsm

namespace TipaSsm

variable {ρ F MA T KT OA OT G1 G2 GT TF : Type} [Field F] [DecidableEq F]
  [AddCommGroup MA] [Module F MA] [AddCommGroup T] [Module F T]
  [AddCommGroup G1] [Module F G1] [AddCommGroup G2] [Module F G2]
  [AddCommGroup GT] [Module F GT] [Monoid TF] [DecidableEq GT]
  [AddCommGroup OA] [Module F OA] [Add OT] [SMul F OT] [DecidableEq OA] [DecidableEq OT]
  {P : Gipa ρ F MA F T G2 Placeholder KT OA F OT} {V : TipaEnv F G1 G2 GT TF}
  {bil : MA →ₗ[F] F →ₗ[F] T} {φa : MA →ₗ[F] G2 →ₗ[F] OA} {ψ : KT → T → OT}
  {e : G1 →ₗ[F] G2 →ₗ[F] GT} {m : Prop}

@[inherit_doc Tipa.Searches]
def Searches (V : TipaEnv F G1 G2 GT TF) (digest : Bytes → Bytes) (serF : F → Bytes) (m : Prop) : Prop :=
  ∀ tr cka, kzgChallenge V digest serF tr cka = .error .diverge → m

/-- C121: the verifier of TIPA with structured message returns a verdict unless the proof has no rounds;
then it panics. -/
theorem C121_tipa_ssm (L : P.Lawful bil φa 0 ψ) (hE : V.E.Lawful e)
    (hd : ∀ x, 16 ≤ (P.digest x).length) (hm : P.Searches m) (hk : Searches V P.digest P.serF m)
    (X : Exec) (v : VerifierSRS G1 G2) (kt : KT) (comA : OA)
    (comT : OT) (b : F) (proof : TipaSsmProof F G2 MA OA OT) :
    Outcome m (proof.gipa.steps ≠ []) (verify X V P v kt comA comT b proof) := by
  rcases (Gipa.outcome_chals hd hm proof.gipa.steps.reverse []).value trivial with ⟨hm, h⟩ | ⟨cs, hcs⟩
  · have : verify X V P v kt comA comT b proof = .error .diverge := by
      rw [verify, Gipa.recursiveChallenges_eq, h]; rfl
    rw [this]; exact .diverge _ hm
  · obtain ⟨new, hnew, hl, hn⟩ := P.chals_prefix _ _ _ hcs
    simp only [List.nil_append] at hnew
    subst hnew
    by_cases hs : proof.gipa.steps = []
    · have hcs0 : cs = [] := List.length_eq_zero_iff.mp (by rw [hl, hs]; rfl)
      subst hcs0
      have : verify X V P v kt comA comT b proof = .error (.panic .unwrap) := by
        rw [verify, Gipa.recursiveChallenges_eq, hcs]
        simp only [ok_bind, List.reverse_nil]
        rw [invertAll_eq _ (by simp)]
        simp only [ok_bind]
        rw [kzgChallenge_nil]
        rfl
      rw [this]; exact ⟨fun h => absurd hs h, fun _ => .inr ⟨_, rfl⟩⟩
    · refine ⟨fun _ => ?_, fun h => absurd hs h⟩
      have hne : cs.reverse ≠ [] := by
        rw [← List.length_eq_zero_iff.ne]
        simpa [hl] using hs
      rcases kzgChallenge_total V P.digest P.serF cs.reverse proof.finalCk hne with ⟨c, hc⟩ | hc
      · exact .inr ⟨_, verify_eq L hE X v kt comA comT b proof cs hcs c hc⟩
      · refine .inl ⟨hk _ _ hc, ?_⟩
        rw [verify, Gipa.recursiveChallenges_eq, hcs]
        simp only [ok_bind]
        rw [invertAll_eq _ fun x hx => hn x (by simpa using hx)]
        simp only [ok_bind]
        rw [hc]; rfl

end TipaSsm

section Applications

variable {ρ F G1 G2 GT TF : Type} [Field F] [DecidableEq F]
  [AddCommGroup G1] [Module F G1] [AddCommGroup G2] [Module F G2] [Monoid TF]
  [AddCommGroup GT] [Module F GT] [DecidableEq G1] [DecidableEq GT]
  {V : Env ρ F G1 G2 GT TF} {e : G1 →ₗ[F] G2 →ₗ[F] GT} {m : Prop}

/-- `m` holds if some search for a nonce in the polynomial commitments or the aggregation fails. -/
structure Env.Searches (V : Env ρ F G1 G2 GT TF) (m : Prop) : Prop where
  ab : V.pairingAB.Searches m
  c : V.multiexpSsm.Searches m
  s : V.scalarSsm.Searches m
  kzg : Tipa.Searches V.tipa V.digest V.serF m
  kzgSsm : TipaSsm.Searches V.tipa V.digest V.serF m
  r : ∀ comA comB comC, Groth16.challenge V comA comB comC = .error .diverge → m

namespace Kzg

/-- C121: `KZG::verify` always returns a verdict. -/
theorem C121_kzg {E : Engine G1 G2 GT TF} (hE : E.Lawful e) (v : VerifierSRS G1 G2) (com : G1)
    (z y : F) (π : G1) : ∃ b, Kzg.verify E v com z y π = .ok b := ⟨_, verify_eq hE v com z y π⟩

end Kzg

namespace Bivariate

/-- C121: the verifier of the bivariate commitment with reference string panics exactly if the inner proof
has no rounds. -/
theorem C121_bivariate (hE : V.E.Lawful e) (hd : ∀ x, 16 ≤ (V.digest x).length)
    (hm : V.Searches m) (v : VerifierSRS G1 G2) (com : GT) (point : F × F) (eval : F) (proof : PcProof F G1 G2 GT) :
    Outcome m (proof.ip.gipa.steps ≠ []) (Bivariate.verify V v com point eval proof) := by
  rw [Bivariate.verify]
  refine ((TipaSsm.C121_tipa_ssm (multiexpSsm_lawful V hE) hE hd hm.c hm.kzgSsm V.X v PUnit.unit com _ _ _).bind
    (d := True) fun b _ => ?_).congr (by simp)
  obtain ⟨b', hb'⟩ := Kzg.C121_kzg hE v proof.yEvalComm point.2 eval proof.kzg
  exact .bind_ok hb' (.ok _)

end Bivariate

namespace Univariate

/-- C121: the univariate verifier panics in addition for the maximal degrees `0` and `2^64 - 1`. -/
theorem C121_univariate (hE : V.E.Lawful e) (hd : ∀ x, 16 ≤ (V.digest x).length)
    (hm : V.Searches m) (v : VerifierSRS G1 G2) (maxDegree : ℕ) (com : GT) (z eval : F)
    (proof : PcProof F G1 G2 GT) :
    Outcome m ((1 ≤ maxDegree ∧ maxDegree + 1 < 2 ^ 64) ∧ proof.ip.gipa.steps ≠ [])
      (Univariate.verify V v maxDegree com z eval proof) := by
  rw [Univariate.verify]
  refine Outcome.bind ?_ fun ⟨x, y⟩ _ => Bivariate.C121_bivariate hE hd hm v com _ eval proof
  by_cases h0 : 1 ≤ maxDegree
  · by_cases h1 : maxDegree + 1 < 2 ^ 64
    · obtain ⟨x, y, -, -, -, h, -⟩ := C76_degrees maxDegree h0 h1
      exact (Outcome.of_ok h).congr (iff_of_true trivial ⟨h0, h1⟩)
    · refine ⟨fun h => absurd h.2 h1, fun _ => .inr ⟨.overflow, ?_⟩⟩
      rw [bivariateDegrees, sqrtPow2, if_pos (not_lt.mp h1)]; rfl
  · have : maxDegree = 0 := by omega
    subst this
    exact ⟨fun h => absurd h.1 h0, fun _ => .inr ⟨_, C43_zero.1⟩⟩

end Univariate

namespace TBivariate

/-- C121: the verifier of the transparent bivariate commitment returns a verdict if both inner proofs have as
many rounds as fit the keys, and panics if not. -/
theorem C121_transparent (hE : V.E.Lawful e) (hd : ∀ x, 16 ≤ (V.digest x).length)
    (hm : V.Searches m) (ck : List G1 × List G2) (com : GT) (point : F × F) (eval : F) (proof : TpcProof F G1 GT) :
    Outcome m (ck.2.length = 2 ^ proof.second.steps.length ∧ ck.1.length = 2 ^ proof.first.steps.length)
      (TBivariate.verify V ck com point eval proof) := by
  rw [TBivariate.verify]
  refine (GipaSsm.C121_gipa_ssm (multiexpSsm_lawful V hE) hd hm.c V.X ck.2 PUnit.unit com _ _ _).bind
    fun b _ => ?_
  exact ((GipaSsm.C121_gipa_ssm (scalarSsm_lawful V) hd hm.s V.X ck.1 PUnit.unit _ _ _ _).bind (d := True)
    fun b' _ => .ok _).congr (by simp)

end TBivariate

namespace TUnivariate

/-- C121: the same for the univariate one; empty keys are among those that make it panic. -/
theorem C121_transparent (hE : V.E.Lawful e) (hd : ∀ x, 16 ≤ (V.digest x).length)
    (hm : V.Searches m) (ck : List G1 × List G2) (com : GT) (z eval : F) (proof : TpcProof F G1 GT) :
    Outcome m (ck.2.length = 2 ^ proof.second.steps.length ∧ ck.1.length = 2 ^ proof.first.steps.length)
      (TUnivariate.verify V ck com z eval proof) := by
  rw [TUnivariate.verify, TUnivariate.parseDegrees]
  by_cases h : ck.2.length = 0 ∨ ck.1.length = 0
  · rw [if_pos h]
    refine ⟨fun ⟨h2, h1⟩ => ?_, fun _ => .inr ⟨.overflow, rfl⟩⟩
    have p2 := Nat.two_pow_pos proof.second.steps.length
    have p1 := Nat.two_pow_pos proof.first.steps.length
    omega
  · rw [if_neg h]
    exact TBivariate.C121_transparent hE hd hm ck com _ eval proof

end TUnivariate

/-- Public inputs that the aggregate verifier can evaluate: there is a first row, it fits the key, and no other
row is shorter. -/
def InputsFit (vk : G16VK G1 G2) (inputs : List (List F)) : Prop :=
  ∃ row0 rows, inputs = row0 :: rows ∧ vk.gammaAbc.length = row0.length + 1 ∧
    ∀ row ∈ rows, row0.length ≤ row.length

theorem Groth16.outcome_verifyPpe (hE : V.E.Lawful e) (vk : G16VK G1 G2) (inputs : List (List F)) (r : F)
    (ipAB : GT) (aggC : G1) :
    Outcome m (r ≠ 1 ∧ InputsFit vk inputs) (Groth16.verifyPpe V vk inputs r ipAB aggC) := by
  by_cases hr : r = 1
  · subst hr
    exact ⟨fun h => absurd rfl h.1, fun _ => .inr ⟨_, verifyPpe_one V vk inputs ipAB aggC⟩⟩
  cases inputs with
  | nil =>
    exact ⟨(fun ⟨_, _, _, h, _⟩ => by cases h), fun _ => .inr ⟨_, verifyPpe_nil hE vk r hr ipAB aggC⟩⟩
  | cons row0 rows =>
    by_cases hl : vk.gammaAbc.length = row0.length + 1
    · by_cases hs : ∃ row ∈ rows, row.length < row0.length
      · refine ⟨fun ⟨_, _, _, h, _, h'⟩ => ?_,
          fun _ => .inr ⟨_, verifyPpe_short hE vk row0 rows hl hs r hr ipAB aggC⟩⟩
        obtain ⟨row, hrow, hlt⟩ := hs
        cases h
        exact absurd (h' row hrow) (by omega)
      · push Not at hs
        refine ⟨fun _ => .inr ?_, fun h => absurd ⟨hr, row0, rows, rfl, hl, hs⟩ h⟩
        obtain ⟨alpha, beta, gamma, delta, abcs⟩ := vk
        cases abcs with
        | nil => simp at hl
        | cons abc0 abc =>
          have hl' : row0.length = abc.length := by simpa using hl.symm
          exact ⟨_, verifyPpe_eq hE alpha beta gamma delta abc0 abc row0 rows hl'
            (fun row h => hl' ▸ hs row h) r hr ipAB aggC⟩
    · refine ⟨fun ⟨_, _, _, h, h', _⟩ => ?_,
        fun _ => .inr ⟨_, verifyPpe_size hE vk row0 rows hl r hr ipAB aggC⟩⟩
      cases h
      exact absurd h' hl

namespace Groth16

/-- C121: the verifier of aggregated proofs returns a verdict if both inner proofs have rounds, the challenge
is neither 0 nor 1, and the public inputs fit the key. In all other cases it panics. -/
theorem C121_aggregate (hE : V.E.Lawful e) (hd : ∀ x, 16 ≤ (V.digest x).length)
    (hm : V.Searches m) (v : VerifierSRS G1 G2) (vk : G16VK G1 G2) (inputs : List (List F)) (proof : AggProof F G1 G2 GT) :
    m ∧ Groth16.verify V v vk inputs proof = .error .diverge ∨
    ∃ r, Groth16.challenge V proof.comA proof.comB proof.comC = .ok r ∧
      Outcome m ((proof.proofAB.gipa.steps ≠ [] ∧ proof.proofC.gipa.steps ≠ []) ∧ (r ≠ 0 ∧ r ≠ 1) ∧
        InputsFit vk inputs) (Groth16.verify V v vk inputs proof) := by
  rcases challenge_total V proof.comA proof.comB proof.comC with ⟨r, hr⟩ | hr
  · refine .inr ⟨r, hr, ?_⟩
    rw [Groth16.verify]
    refine (Outcome.bind_ok (c := (proof.proofAB.gipa.steps ≠ [] ∧ r ≠ 0) ∧
      proof.proofC.gipa.steps ≠ [] ∧ r ≠ 1 ∧ InputsFit vk inputs) hr ?_).congr ?_
    · refine (Tipa.C121_tipa (pairingAB_lawful V hE) hE hd hm.ab hm.kzg v PUnit.unit _ _ r).bind fun b1 _ => ?_
      refine (TipaSsm.C121_tipa_ssm (multiexpSsm_lawful V hE) hE hd hm.c hm.kzgSsm V.X v PUnit.unit _ _ r _).bind
        fun b2 _ => ?_
      exact ((outcome_verifyPpe hE vk inputs r proof.ipAB proof.aggC).bind (d := True)
        fun b3 _ => .ok _).congr (by simp)
    · tauto
  · refine .inl ⟨hm.r _ _ _ hr, ?_⟩
    rw [Groth16.verify, hr]; rfl

end Groth16

end Applications

namespace Batch

variable {ρ F G1 G2 GT TF : Type} [Field F] [AddCommGroup G1] [Module F G1] [AddCommGroup G2] [Module F G2]
  [AddCommGroup GT] [Module F GT] [Monoid TF] [DecidableEq GT] {E : Engine G1 G2 GT TF}
  {e : G1 →ₗ[F] G2 →ₗ[F] GT}

/-- C121: the batch verifier of the bench panics exactly if the key has no input elements and there is
something to check. -/
theorem C121_batch (hE : E.Lawful e) (rand : ρ → ℕ × ρ) (seed : ρ) (vk : G16VK G1 G2)
    (inputs : List (List F)) (proofs : List (G16Proof G1 G2)) :
    ((vk.gammaAbc ≠ [] ∨ inputs = [] ∨ proofs = []) →
      ∃ b, verify E rand seed (prepareVK vk) inputs proofs = .ok b) ∧
    (¬ (vk.gammaAbc ≠ [] ∨ inputs = [] ∨ proofs = []) →
      verify E rand seed (prepareVK vk) inputs proofs = .error (.panic .bounds)) := by
  have key : ∀ vk : G16VK G1 G2, vk.gammaAbc ≠ [] →
      ∃ b, verify E rand seed (prepareVK vk) inputs proofs = .ok b := fun vk h =>
    ⟨_, C88_verdict hE vk h inputs proofs _ (length_coefficients (F := F) rand seed proofs.length).ge⟩
  constructor
  · rintro (h | rfl | rfl)
    · exact key vk h
    · obtain ⟨b, hb⟩ := key { vk with gammaAbc := [0] } (by simp)
      exact ⟨b, hb⟩
    · exact ⟨_, C91_empty hE rand seed vk inputs⟩
  · intro h
    push Not at h
    obtain ⟨h1, h2, h3⟩ := h
    obtain ⟨row, rows, rfl⟩ := List.exists_cons_of_ne_nil h2
    obtain ⟨p, ps, rfl⟩ := List.exists_cons_of_ne_nil h3
    exact C91_empty_key rand seed _ h1 row rows p ps

end Batch

namespace Sipp

variable {σ F G1 G2 GT TF : Type} [Field F] [DecidableEq F] [AddCommGroup G1] [Module F G1]
  [AddCommGroup G2] [Module F G2] [AddCommGroup GT] [Module F GT] [Monoid TF] [DecidableEq GT]
  {V : Env σ F G1 G2 GT TF} {e : G1 →ₗ[F] G2 →ₗ[F] GT}

/-- C121: SIPP's verifier returns a verdict if the vectors have length `2^k`, the proof `k ≥ 1` pairs, and
there are at least as many coefficients; otherwise it panics. -/
theorem C121_sipp (hE : V.E.Lawful e) (a : List G1) (b : List G2) (r : List F) (value : GT)
    (proof : List (GT × GT)) :
    ((1 ≤ proof.length ∧ a.length = 2 ^ proof.length ∧ b.length = a.length ∧ a.length ≤ r.length) →
      ∃ v, verify V a b r value proof = .ok v) ∧
    (¬ (1 ≤ proof.length ∧ a.length = 2 ^ proof.length ∧ b.length = a.length ∧ a.length ≤ r.length) →
      ∃ p, verify V a b r value proof = .error (.panic p)) := by
  constructor
  · rintro ⟨h1, h2, h3, h4⟩
    exact ⟨_, C57_verify hE a b r value proof h1 h2 (h3.trans h2) (h2 ▸ h4)⟩
  · intro h
    by_cases h2 : a.length = 2 ^ proof.length
    · by_cases h1 : 1 ≤ proof.length
      · by_cases h3 : b.length = a.length
        · have h4 : r.length < 2 ^ proof.length := by rw [← h2]; omega
          exact ⟨_, C61_short_coeffs V a b r value proof h1 h2 (h3.trans h2) h4⟩
        · exact ⟨_, C61_vector_lengths V a b r value proof (Ne.symm h3)⟩
      · have : proof.length = 0 := by omega
        rw [this] at h2
        exact ⟨_, C61_too_short V a b r value proof (by rw [h2]; norm_num)⟩
    · exact ⟨_, C61_proof_length V a b r value proof h2⟩

end Sipp

/-! ## Examples -/

/-- A digest that is never zero as a challenge: no search fails. -/
theorem Gipa.searches_of_nonzero {ρ F MA MB T KA KB KT OA OB OT : Type} [Field F] [DecidableEq F]
    (P : Gipa ρ F MA MB T KA KB KT OA OB OT) (hd : ∀ x, 16 ≤ (P.digest x).length)
    (h : ∀ x, ((beNat ((P.digest x).take 16) : ℕ) : F) ≠ 0) : P.Searches False := by
  intro prev com1 com2 hdiv
  have hlt : ¬ (P.digest (P.hashInput 0 prev com1 com2)).length < 16 := by
    have := hd (P.hashInput 0 prev com1 com2); omega
  have : P.challengeAttempt prev com1 com2 0 =
      .ok (some ((((beNat ((P.digest (P.hashInput 0 prev com1 com2)).take 16) : ℕ) : F))⁻¹,
        ((beNat ((P.digest (P.hashInput 0 prev com1 com2)).take 16) : ℕ) : F))) := by
    simp only [Gipa.challengeAttempt, if_neg hlt, inverse_of_ne (h _)]
  rw [Gipa.challenge, show nonceLimit = (nonceLimit - 1) + 1 by decide, searchNonce, this] at hdiv
  simp at hdiv

theorem Toy.searches : Toy.env.Searches False := by
  have hr : ∀ x, ∃ c, Toy.env.fromRandomBytes (Toy.env.digest x) = some c := fun x => ⟨3, rfl⟩
  have H := Groth16.decodesEnd_of_decodes Toy.env hr
  have hd : ∀ x, 16 ≤ (Toy.env.digest x).length := fun x => le_refl 16
  have hn : ∀ x, ((beNat ((Toy.env.digest x).take 16) : ℕ) : Toy.F) ≠ 0 := fun x => by
    simp only [Toy.env, Toy.digest]; decide
  exact ⟨Gipa.searches_of_nonzero _ hd hn, Gipa.searches_of_nonzero _ hd hn,
    Gipa.searches_of_nonzero _ hd hn, fun _ _ _ => H.ab _ _ _, fun _ _ => H.c _ _, fun _ _ _ => H.r _ _ _⟩

open Toy in
/-- One round of anything is enough for a verdict; without rounds the verifier panics. -/
example (v : VerifierSRS F F) (com : F) (point : F × F) (eval u π ck op b : F) (c : F)
    (s : Coms F F (IdentityOutput F) × Coms F F (IdentityOutput F)) :
    (∃ w, Bivariate.verify env v com point eval ⟨⟨⟨[s], (c, b)⟩, ck, op⟩, u, π⟩ = .ok w) ∧
    ∃ p, Bivariate.verify env v com point eval ⟨⟨⟨[], (c, b)⟩, ck, op⟩, u, π⟩ = .error (.panic p) :=
  ⟨((Bivariate.C121_bivariate lawful (fun _ => le_refl 16) searches v com point eval _).iff.1).mpr
      (by simp),
    ((Bivariate.C121_bivariate lawful (fun _ => le_refl 16) searches v com point eval _).iff.2).mpr
      (by simp)⟩

open Toy in
/-- The aggregate verifier on a proof with one round each: a verdict for two rows that fit the key, also if
the second is too long, and a panic if it is too short. -/
example (v : VerifierSRS F F) (al be ga de k0 k1 k2 : F) (proof : AggProof F F F F)
    (h1 : proof.proofAB.gipa.steps.length = 1) (h2 : proof.proofC.gipa.steps.length = 1) :
    (∃ w, Groth16.verify env v ⟨al, be, ga, de, [k0, k1, k2]⟩ [[1, 2], [3, 4, 5]] proof = .ok w) ∧
    ∃ p, Groth16.verify env v ⟨al, be, ga, de, [k0, k1, k2]⟩ [[1, 2], [3]] proof =
      .error (.panic p) := by
  have s1 : proof.proofAB.gipa.steps ≠ [] := by rintro h; simp [h] at h1
  have s2 : proof.proofC.gipa.steps ≠ [] := by rintro h; simp [h] at h2
  have hc : ∀ r, Groth16.challenge env proof.comA proof.comB proof.comC = .ok r → r = 3 := by
    intro r h
    rw [Groth16.challenge, show nonceLimit = (nonceLimit - 1) + 1 by decide, searchNonce] at h
    exact (Except.ok.inj h).symm
  constructor
  · rcases Groth16.C121_aggregate lawful (fun _ => le_refl 16) searches v
      ⟨al, be, ga, de, [k0, k1, k2]⟩ [[1, 2], [3, 4, 5]] proof with ⟨h, -⟩ | ⟨r, hr, h⟩
    · exact h.elim
    · rw [hc r hr] at h
      exact h.iff.1.mpr ⟨⟨s1, s2⟩, by decide, _, _, rfl, rfl, by simp⟩
  · rcases Groth16.C121_aggregate lawful (fun _ => le_refl 16) searches v
      ⟨al, be, ga, de, [k0, k1, k2]⟩ [[1, 2], [3]] proof with ⟨h, -⟩ | ⟨r, hr, h⟩
    · exact h.elim
    · refine h.iff.2.mpr ?_
      rintro ⟨-, -, row0, rows, h, -, h'⟩
      cases h
      simpa using h' _ (List.mem_singleton.mpr rfl)

end Ripp
