import Verif.Props.PolyBinding

/-!
# C112: who knows the trapdoor of a reference string can prove everything

The set-up functions draw `alpha` and `beta` and forget them. The theorems show that this is necessary: the soundness
results C81, C83, C92, C93, C107, C108 for provers that do not use the trapdoor do not extend to those that do, even if
the statement is fixed before anything is hashed.
-/

set_option linter.unusedSectionVars false

namespace Ripp

open Spec

namespace Kzg

variable {F G1 G2 GT TF : Type} [Field F] [DecidableEq F] [AddCommGroup G1] [Module F G1] [AddCommGroup G2]
  [Module F G2] [AddCommGroup GT] [Module F GT] [Monoid TF] [DecidableEq GT] {E : Engine G1 G2 GT TF}
  {e : G1 →ₗ[F] G2 →ₗ[F] GT}

/-- C112: every commitment opens to every value at every point but `α`. -/
theorem C112_kzg (hE : E.Lawful e) (g : G1) (h : G2) (gb : G1) (α z value : F) (hz : z ≠ α) (com : G1) :
    verify E ⟨g, h, gb, α • h⟩ com z value ((α - z)⁻¹ • (com - value • g)) = .ok true := by
  rw [verify_eq hE]
  have hne : α - z ≠ 0 := sub_ne_zero.mpr hz.symm
  simp only [Except.ok.injEq, decide_eq_true_eq]
  rw [← sub_smul, map_smul, map_smul, LinearMap.smul_apply, smul_smul, mul_inv_cancel₀ hne, one_smul]

/-- C112: at `α` itself only the value that the commitment hides is accepted. -/
theorem C112_kzg_trapdoor (hE : E.Lawful e) (g : G1) (h : G2) (gb : G1) (α value : F) (com π : G1)
    (hnd : ∀ x, e x h = 0 → x = 0) :
    verify E ⟨g, h, gb, α • h⟩ com α value π = .ok true ↔ com = value • g := by
  rw [C38_verdict hE g h gb α α value com π hnd, sub_self, zero_smul, sub_eq_zero]

end Kzg

namespace Bivariate

variable {ρ F G1 G2 GT TF : Type} [Field F] [DecidableEq F] [AddCommGroup G1] [Module F G1] [AddCommGroup G2]
  [Module F G2] [AddCommGroup GT] [Module F GT] [Monoid TF] [DecidableEq G1] [DecidableEq GT]
  {V : Env ρ F G1 G2 GT TF} {e : G1 →ₗ[F] G2 →ₗ[F] GT}

/-- C112: with the trapdoor an accepted opening becomes an accepted opening to any other value. -/
theorem C112_bivariate (hE : V.E.Lawful e) (g : G1) (h : G2) (gb : G1) (α : F) (com : GT) (point : F × F)
    (hz : point.2 ≠ α) (value value' : F) (proof : PcProof F G1 G2 GT)
    (hacc : verify V ⟨g, h, gb, α • h⟩ com point value proof = .ok true) :
    verify V ⟨g, h, gb, α • h⟩ com point value'
      { proof with kzg := (α - point.2)⁻¹ • (proof.yEvalComm - value' • g) } = .ok true := by
  rw [verify] at hacc ⊢
  cases hv : TipaSsm.verify V.X V.tipa V.multiexpSsm ⟨g, h, gb, α • h⟩ PUnit.unit com ⟨[proof.yEvalComm]⟩
    point.1 proof.ip with
  | error x => simp [hv] at hacc
  | ok b =>
    simp only [ok_bind, Kzg.C112_kzg hE g h gb α point.2 value' hz]
    cases b with
    | true => rfl
    | false =>
      cases hk : Kzg.verify V.E ⟨g, h, gb, α • h⟩ proof.yEvalComm point.2 value proof.kzg <;>
        simp [hv, hk, pure, Except.pure] at hacc

end Bivariate

namespace Tipa

variable {ρ F MA MB T KT OA OB OT G1 G2 GT TF : Type} [Field F] [DecidableEq F]
  [AddCommGroup MA] [Module F MA] [AddCommGroup MB] [Module F MB] [AddCommGroup T] [Module F T]
  [AddCommGroup G1] [Module F G1] [AddCommGroup G2] [Module F G2]
  [AddCommGroup GT] [Module F GT] [Monoid TF] [DecidableEq GT]
  [AddCommGroup OA] [Module F OA] [AddCommGroup OB] [Module F OB] [Add OT] [SMul F OT]
  [DecidableEq T] [DecidableEq OA] [DecidableEq OB] [DecidableEq OT]
  {P : Gipa ρ F MA MB T G2 G1 KT OA OB OT} {V : TipaEnv F G1 G2 GT TF}
  {bil : MA →ₗ[F] MB →ₗ[F] T} {φa : MA →ₗ[F] G2 →ₗ[F] OA} {φb : MB →ₗ[F] G1 →ₗ[F] OB}
  {ψ : KT → T → OT} {e : G1 →ₗ[F] G2 →ₗ[F] GT}

/-- Rounds in which nothing but zeros is sent. -/
def idleSteps (ψ : KT → T → OT) (kt : KT) (n : ℕ) : List (Coms OA OB OT × Coms OA OB OT) :=
  List.replicate n ((0, 0, ψ kt 0), (0, 0, ψ kt 0))

theorem foldMany_idle (L : P.Lawful bil φa φb ψ) (kt : KT) (t : T) : ∀ (n : ℕ) (cs : List F) (a : OA) (b : OB),
    Gipa.foldMany (idleSteps ψ kt n) cs (a, b, ψ kt t) = (a, b, ψ kt t)
  | 0, cs, a, b => by cases cs <;> rfl
  | n + 1, [], a, b => rfl
  | n + 1, c :: cs, a, b => by
    have : Gipa.foldComs c c⁻¹ (a, b, ψ kt t) (0, 0, ψ kt 0) (0, 0, ψ kt 0) = (a, b, ψ kt t) := by
      simp only [Gipa.foldComs, smul_zero, add_zero, zero_add, ← L.ψ_smul, ← L.ψ_add]
    rw [idleSteps, List.replicate_succ, Gipa.foldMany]
    simp only [this]
    exact foldMany_idle L kt t n cs a b

theorem chals_idle (L : P.Lawful bil φa φb ψ) (hd : ∀ x, 16 ≤ (P.digest x).length) (hs : P.SearchEnds) (kt : KT) :
    ∀ (n : ℕ) (tr : List F), ∃ cs, P.chals (idleSteps ψ kt n) tr = .ok cs
  | 0, tr => ⟨tr, rfl⟩
  | n + 1, tr => by
    obtain ⟨c, -, hc⟩ := Gipa.challenge_of_ends L hd hs (tr.getLast?.getD 0) (0, 0, ψ kt 0) (0, 0, ψ kt 0)
      ⟨_, _, rfl⟩ ⟨_, _, rfl⟩
    obtain ⟨cs, h⟩ := chals_idle L hd hs kt n (tr ++ [c])
    refine ⟨cs, ?_⟩
    rw [idleSteps, List.replicate_succ, Gipa.chals]
    simp only [hc, ok_bind]
    exact h

/-- C112: every final key has an accepted opening, unless the challenge is the trapdoor. -/
theorem C112_key_G2 (hE : V.E.Lawful e) (g : G1) (h : G2) (α β r c : F) (hc : c ≠ β) (ck : G2) (tr : List F) :
    ∃ op, verifyKeyOpeningG2 V.E ⟨g, h, β • g, α • h⟩ ck op tr r c = .ok true := by
  refine ⟨(β - c)⁻¹ • (ck - productForm tr c r • h), ?_⟩
  rw [verifyKeyOpeningG2_eq hE]
  simp only [Except.ok.injEq, decide_eq_true_eq]
  rw [← sub_smul, map_smul, map_smul, LinearMap.smul_apply, smul_smul, inv_mul_cancel₀ (sub_ne_zero.mpr hc.symm),
    one_smul]

@[inherit_doc C112_key_G2]
theorem C112_key_G1 (hE : V.E.Lawful e) (g : G1) (h : G2) (α β r c : F) (hc : c ≠ α) (ck : G1) (tr : List F) :
    ∃ op, verifyKeyOpeningG1 V.E ⟨g, h, β • g, α • h⟩ ck op tr r c = .ok true := by
  refine ⟨(α - c)⁻¹ • (ck - productForm tr c r • g), ?_⟩
  rw [verifyKeyOpeningG1_eq hE]
  simp only [Except.ok.injEq, decide_eq_true_eq]
  rw [← sub_smul, map_smul, map_smul, LinearMap.smul_apply, smul_smul, mul_inv_cancel₀ (sub_ne_zero.mpr hc.symm),
    one_smul]

/-- C112: fix any commitments. If single messages and single keys satisfy the equations of a statement of length one,
then a proof with any number of rounds is accepted for it, unless the last challenge is `α` or `β`. The key openings are
computed with the trapdoor. -/
theorem C112_tipa (L : P.Lawful bil φa φb ψ) (hE : V.E.Lawful e) (hd : ∀ x, 16 ≤ (P.digest x).length)
    (hs : P.SearchEnds) (hrb : KzgEnds V P.digest P.serF) (g : G1) (h : G2) (α β r : F) (hr : r ≠ 0) (k : ℕ) (kt : KT)
    (com : Coms OA OB OT) (a : MA) (b : MB) (cka : G2) (ckb : G1) (h1 : com.1 = φa a cka) (h2 : com.2.1 = φb b ckb)
    (h3 : com.2.2 = ψ kt (bil a b))
    (hc : ∀ tr c, kzgChallenge V P.digest P.serF tr cka ckb = .ok c → c ≠ α ∧ c ≠ β) :
    ∃ proof : TipaProof G1 G2 MA MB OA OB OT, proof.gipa.steps.length = k + 1 ∧ proof.gipa.base = (a, b) ∧
      proof.finalCk = (cka, ckb) ∧ verifyWithShift V P ⟨g, h, β • g, α • h⟩ kt com proof r = .ok true := by
  obtain ⟨ca, cb, ct⟩ := com
  simp only at h1 h2 h3
  subst h1 h2 h3
  obtain ⟨cs, hcs⟩ := chals_idle L hd hs kt (k + 1) []
  have hrec : P.recursiveChallenges (φa a cka, φb b ckb, ψ kt (bil a b)) ⟨idleSteps ψ kt (k + 1), (a, b)⟩ =
      .ok ((φa a cka, φb b ckb, ψ kt (bil a b)), cs.reverse) := by
    rw [Gipa.recursiveChallenges_eq]
    have : (idleSteps (OA := OA) (OB := OB) ψ kt (k + 1)).reverse = idleSteps ψ kt (k + 1) := by
      rw [idleSteps, List.reverse_replicate]
    simp only [this, hcs, ok_bind, foldMany_idle L]
  have hlen : cs.length = k + 1 := by
    obtain ⟨new, e1, e2, -⟩ := Gipa.chals_prefix _ _ _ _ hcs
    rw [e1, List.nil_append, e2, idleSteps, List.length_replicate]
  have hne : cs.reverse ≠ [] := by
    intro h
    have := congrArg List.length h
    simp [hlen] at this
  obtain ⟨c, hkz⟩ := kzgChallenge_ends V P.digest P.serF hrb cs.reverse cka ckb hne
  obtain ⟨ha, hb⟩ := hc _ _ hkz
  obtain ⟨o2, h2⟩ := C112_key_G2 (V := V) hE g h α β r⁻¹ c hb cka (cs.reverse.map (·⁻¹))
  obtain ⟨o1, h1⟩ := C112_key_G1 (V := V) hE g h α β 1 c ha ckb cs.reverse
  exact ⟨⟨⟨idleSteps ψ kt (k + 1), (a, b)⟩, (cka, ckb), (o2, o1)⟩, List.length_replicate, rfl, rfl,
    (C31_accepts_iff _ kt _ _ _ r hr _ c hrec hkz hE L).mpr ⟨h2, h1, rfl, rfl, rfl⟩⟩

end Tipa

/-! ## Examples with `α = 7`, `β = 5` -/

/-- The commitment to the polynomial `X`, whose value at 4 is 4, opened to 9. -/
example : Kzg.verify Toy.E ⟨1, 1, (5 : Toy.F) • 1, (7 : Toy.F) • 1⟩ (7 : Toy.F) (4 : Toy.F) (9 : Toy.F)
      ((7 - 4 : Toy.F)⁻¹ • (7 - (9 : Toy.F) • 1)) =
    .ok true :=
  Kzg.C112_kzg Toy.lawful 1 1 _ 7 4 9 (by decide) 7

/-- The challenge of the example instance is always 3. -/
theorem Toy.kzgChallenge_val (tr : List Toy.F) (cka ckb c : Toy.F)
    (h : Tipa.kzgChallenge Toy.env.tipa Toy.digest Toy.ser tr cka ckb = .ok c) : c = 3 := by
  cases tr with
  | nil => simp [Tipa.kzgChallenge_nil, panic'] at h
  | cons t ts =>
    refine searchNonce_ok (P := fun x : Toy.F => x = 3) ?_ _ _ _ h
    intro n x hx
    have hx : some (3 : Toy.F) = some x := Except.ok.inj hx
    exact (Option.some.inj hx).symm

/-- Keys `(1, 25)` and `(1, 49)`: the commitments to `(1, 2)` and `(3, 4)` are 51 and `3 + 4 * 49 = 199`. The inner
product is 11, but a proof for 12 is accepted. -/
example : ∃ proof : TipaProof Toy.F Toy.F Toy.F Toy.F Toy.F Toy.F (IdentityOutput Toy.F),
    proof.gipa.steps.length = 1 ∧ Tipa.verifyWithShift Toy.env.tipa Toy.env.pairingAB
      ⟨1, 1, (5 : Toy.F) • 1, (7 : Toy.F) • 1⟩ PUnit.unit (51, 199, ⟨[12]⟩) proof 1 = .ok true := by
  obtain ⟨proof, h1, -, -, h2⟩ := Tipa.C112_tipa (V := Toy.env.tipa) (pairingAB_lawful Toy.env Toy.lawful) Toy.lawful
    Toy.digest_length (searchEnds_of_digest _ Toy.digest_length Toy.digest_ne_zero) Toy.kzgEnds 1 1 7 5 1 (by decide) 0
    PUnit.unit (51, 199, ⟨[12]⟩) 3 4 17 (199 / 4) (by decide +kernel) (by decide +kernel) (by decide +kernel)
    (fun tr c hc => by rw [Toy.kzgChallenge_val tr _ _ c hc]; decide)
  exact ⟨proof, h1, h2⟩

end Ripp
