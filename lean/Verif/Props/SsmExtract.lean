import Verif.Props.Extract
import Verif.Props.KeySoundness
import Verif.Props.Ssm

/-!
# C71: knowledge soundness of the structured-message arguments

The right message `1, b, b², …` is public, so both commitments are linear in the left message, with
keys that are folded alike. Three runs per round suffice and no collision can occur.
-/

set_option linter.unusedSectionVars false

namespace Ripp.SsmExtract

open Spec Extract

variable {F MA T KA OA OT O : Type} [Field F]
  [AddCommGroup MA] [Module F MA] [AddCommGroup T] [Module F T] [AddCommGroup KA] [Module F KA]
  [AddCommGroup OA] [Module F OA] [Add OT] [SMul F OT] [AddCommGroup O] [Module F O]

/-- The verifier's final equations for the challenges `cs` (round order) instead of hash values, for the
public right message `mb`. -/
def Run (bil : MA →ₗ[F] F →ₗ[F] T) (φa : MA →ₗ[F] KA →ₗ[F] OA) (ψ : T → OT) (cka : List KA)
    (mb : List F) (com : OA × OT) (cs : List F) (steps : List ((OA × OT) × (OA × OT))) (a : MA) : Prop :=
  ∃ ka b', foldAll (cs.map (·⁻¹)) cka = [ka] ∧ foldAll (cs.map (·⁻¹)) mb = [b'] ∧
    accum cs (steps.map fun s => (s.1.1, s.2.1)) com.1 = φa a ka ∧
    accum cs (steps.map fun s => (s.1.2, s.2.2)) com.2 = ψ (bil a b')

/-- Runs of one prover that share their first messages, three challenges per round. -/
inductive Tree (F MA C : Type) : Type
  | leaf (a : MA)
  | node (l r : C) (c : Fin 3 → F) (t : Fin 3 → Tree F MA C)

/-- Every branch of the tree is an accepting run. The challenges at a node are distinct and not zero. -/
def Tree.Accepts (bil : MA →ₗ[F] F →ₗ[F] T) (φa : MA →ₗ[F] KA →ₗ[F] OA) (ψ : T → OT) :
    Tree F MA (OA × OT) → List KA → List F → OA × OT → Prop
  | leaf a, cka, mb, com => ∃ ka b', cka = [ka] ∧ mb = [b'] ∧ com.1 = φa a ka ∧ com.2 = ψ (bil a b')
  | node l r c t, cka, mb, com => Function.Injective c ∧ (∀ i, c i ≠ 0) ∧
      Even cka.length ∧ Even mb.length ∧
      ∀ i, (t i).Accepts bil φa ψ (foldHalf (c i)⁻¹ cka) (foldHalf (c i)⁻¹ mb)
        (c i • l.1 + com.1 + (c i)⁻¹ • r.1, c i • l.2 + com.2 + (c i)⁻¹ • r.2)

/-- Three openings of a round recombined. -/
def merge (c : Fin 3 → F) (a : Fin 3 → List MA) : List MA :=
  addV (addV (smulV (wM (c 0) (c 1) (c 2)) (unfold (c 0)⁻¹ (a 0)))
    (smulV (wM (c 1) (c 0) (c 2)) (unfold (c 1)⁻¹ (a 1))))
    (smulV (wM (c 2) (c 0) (c 1)) (unfold (c 2)⁻¹ (a 2)))

/-- The extractor. -/
def extract {C : Type} : Tree F MA C → List MA
  | .leaf a => [a]
  | .node _ _ c t => merge c fun i => extract (t i)

section
variable {bil : MA →ₗ[F] F →ₗ[F] T} {φa : MA →ₗ[F] KA →ₗ[F] OA} {ψ : T → OT} {η : OT → Option O}
  {ψ' : T →ₗ[F] O}

theorem length_merge (c : Fin 3 → F) (a : Fin 3 → List MA) (n : ℕ) (h : ∀ i, (a i).length = n) :
    (merge c a).length = 2 * n := by
  simp [merge, addV, smulV, h]

theorem dot_merge {K : Type} [AddCommGroup K] [Module F K] (φ : MA →ₗ[F] K →ₗ[F] O) (c : Fin 3 → F)
    (h0 : ∀ i, c i ≠ 0) (hc : Function.Injective c) (a : Fin 3 → List MA)
    (n : ℕ) (h : ∀ i, (a i).length = n) (k : List K) (hk : k.length = 2 * n) (l m r : O)
    (hop : ∀ i, dot (φ · ·) (a i) (foldHalf (c i)⁻¹ k) = c i • l + m + (c i)⁻¹ • r) :
    dot (φ · ·) (merge c a) k = m := by
  have h01 : c 0 ≠ c 1 := fun e => absurd (hc e) (by decide)
  have h02 : c 0 ≠ c 2 := fun e => absurd (hc e) (by decide)
  have h12 : c 1 ≠ c 2 := fun e => absurd (hc e) (by decide)
  have a2 := weights_M (h0 0) (h0 1) (h0 2) h01 h02 h12
  rw [merge, dot_addV_left _ _ _ _ (by simp [addV, smulV, h]),
    dot_addV_left _ _ _ _ (by simp [smulV, h]), dot_smulV_left, dot_smulV_left, dot_smulV_left,
    dot_unfold _ _ _ _ (by rw [h, hk]), dot_unfold _ _ _ _ (by rw [h, hk]),
    dot_unfold _ _ _ _ (by rw [h, hk]), hop, hop, hop, combine, a2.1, a2.2.1, a2.2.2]
  simp

theorem Tree.Accepts.length : ∀ (t : Tree F MA (OA × OT)) (cka : List KA) (mb : List F)
    (com : OA × OT), t.Accepts bil φa ψ cka mb com → cka.length = mb.length
  | .leaf a, cka, mb, com, h => by
    obtain ⟨ka, b', rfl, rfl, -⟩ := h
    rfl
  | .node l r c t, cka, mb, com, h => by
    obtain ⟨-, -, ⟨n, hn⟩, ⟨m, hm⟩, h⟩ := h
    have := Tree.Accepts.length _ _ _ _ (h 0)
    rw [length_foldHalf _ _ n (by omega), length_foldHalf _ _ m (by omega)] at this
    omega

/-- C71: the extractor turns every accepting tree into an opening of the left commitment whose inner
product with the public message is the committed one. No assumption on the commitment is needed. -/
theorem C71_extract (R : Reads F η ψ ψ') : ∀ (t : Tree F MA (OA × OT)) (cka : List KA)
    (mb : List F) (com : OA × OT), t.Accepts bil φa ψ cka mb com →
    (extract t).length = cka.length ∧ com.1 = dot (φa · ·) (extract t) cka ∧
      η com.2 = some (ψ' (dot (bil · ·) (extract t) mb))
  | .leaf a, cka, mb, com, h => by
    obtain ⟨ka, b', rfl, rfl, h1, h2⟩ := h
    exact ⟨rfl, by rw [h1, extract, dot_singleton], by rw [h2, R.value, extract, dot_singleton]⟩
  | .node l r c t, cka, mb, com, h => by
    have hlen := Tree.Accepts.length _ _ _ _ h
    obtain ⟨hc, h0, ⟨n, hn⟩, -, h⟩ := h
    have ha : cka.length = 2 * n := by omega
    have hb : mb.length = 2 * n := by omega
    have ih := fun i => C71_extract R (t i) _ _ _ (h i)
    have fa : ∀ x : F, (foldHalf x cka).length = n := fun x => length_foldHalf _ _ n ha
    rw [extract]
    have la : ∀ i, (extract (t i)).length = n := fun i => by rw [(ih i).1, fa]
    refine ⟨by rw [length_merge c _ n la, ha], ?_, ?_⟩
    · exact (dot_merge φa c h0 hc _ n la cka ha _ _ _ fun i => (ih i).2.1.symm).symm
    · have key := fun i => (ih i).2.2
      simp only [R.add, R.smul] at key
      cases h1 : η l.2 with
      | none => simpa [h1] using key 0
      | some x =>
        cases h2 : η com.2 with
        | none => simpa [h1, h2] using key 0
        | some y =>
          cases h3 : η r.2 with
          | none => simpa [h1, h2, h3] using key 0
          | some z =>
            simp only [h1, h2, h3, Option.map_some, Option.bind_some, Option.some.injEq] at key
            have lin : ∀ (xs : List MA) (ys : List F), ψ' (dot (bil · ·) xs ys) =
                dot (bil.compr₂ ψ' · ·) xs ys := by
              intro xs
              induction xs with
              | nil => intro ys; simp
              | cons x xs ih => intro ys; cases ys <;> simp [ih]
            rw [lin]
            congr 1
            refine (dot_merge (bil.compr₂ ψ') c h0 hc _ n la mb hb x y z fun i => ?_).symm
            rw [← lin]
            exact (key i).symm

end

/-- The runs of the prover `st`, `fin` on the challenges of a tree. -/
def build {C : Type} : {k : ℕ} → (List F → C × C) → (List F → MA) → Chals F 3 k → Tree F MA C
  | _, _, fin, .leaf => .leaf (fin [])
  | _, st, fin, .node c t => .node (st []).1 (st []).2 c fun i =>
      build (fun cs => st (c i :: cs)) (fun cs => fin (c i :: cs)) (t i)

section
variable {bil : MA →ₗ[F] F →ₗ[F] T} {φa : MA →ₗ[F] KA →ₗ[F] OA} {ψ : T → OT} {η : OT → Option O}
  {ψ' : T →ₗ[F] O}

theorem build_accepts (S : Finset F) (hS : ∀ x ∈ S, x ≠ 0) : ∀ {k : ℕ} (t : Chals F 3 k)
    (st : List F → (OA × OT) × (OA × OT)) (fin : List F → MA) (cka : List KA)
    (mb : List F) (com : OA × OT), cka.length = 2 ^ k → mb.length = 2 ^ k →
    t.Within S (fun cs => Run bil φa ψ cka mb com cs (sent st cs) (fin cs)) →
    (build st fin t).Accepts bil φa ψ cka mb com
  | _, .leaf, st, fin, cka, mb, com, _, _, h => h
  | _, .node (k := k) c t, st, fin, cka, mb, com, ha, hb, h => by
    obtain ⟨hi, hm, h⟩ := h
    have h2 : 2 ^ (k + 1) = 2 * 2 ^ k := by rw [pow_succ]; ring
    rw [h2] at ha hb
    refine ⟨hi, fun i => hS _ (hm i), ⟨2 ^ k, by omega⟩, ⟨2 ^ k, by omega⟩, fun i => ?_⟩
    refine build_accepts S hS (t i) _ _ _ _ _ (length_foldHalf _ _ _ ha) (length_foldHalf _ _ _ hb) ?_
    have hi := h i
    simp only [sent_cons] at hi
    exact hi

/-- C71: a prover strategy that is accepted for more than `2 k |S|^(k-1)` of the `|S|^k` challenge
sequences over a set `S` of non-zero challenges knows an opening: the extractor finds it from accepted
runs. -/
theorem C71_knowledge (R : Reads F η ψ ψ') (k : ℕ) (cka : List KA) (b : F) (com : OA × OT)
    (ha : cka.length = 2 ^ k) (st : List F → (OA × OT) × (OA × OT)) (fin : List F → MA)
    (S : Finset F) (hS : ∀ x ∈ S, x ≠ 0)
    [DecidablePred fun cs => Run bil φa ψ cka ((List.range (2 ^ k)).map (b ^ ·)) com cs (sent st cs)
      (fin cs)]
    (hmany : 2 * k * S.card ^ (k - 1) < ((Fintype.piFinset fun _ : Fin k => S).filter fun xs =>
      Run bil φa ψ cka ((List.range (2 ^ k)).map (b ^ ·)) com (List.ofFn xs) (sent st (List.ofFn xs))
        (fin (List.ofFn xs))).card) :
    ∃ t : Chals F 3 k,
      t.Within S (fun cs => Run bil φa ψ cka ((List.range (2 ^ k)).map (b ^ ·)) com cs (sent st cs)
        (fin cs)) ∧
      (extract (build st fin t)).length = 2 ^ k ∧
      com.1 = dot (φa · ·) (extract (build st fin t)) cka ∧
      η com.2 = some (ψ' (dot (bil · ·) (extract (build st fin t)) ((List.range (2 ^ k)).map (b ^ ·)))) := by
  obtain ⟨t, ht⟩ := exists_tree 2 S k
    (fun cs => Run bil φa ψ cka ((List.range (2 ^ k)).map (b ^ ·)) com cs (sent st cs) (fin cs)) hmany
  have := C71_extract R _ _ _ _ (build_accepts S hS t st fin cka _ com ha (by simp) ht)
  rw [ha] at this
  exact ⟨t, ht, this⟩

/-- C71: a statement without an opening is accepted for at most `2 k |S|^(k-1)` challenge sequences,
whatever the prover does. -/
theorem C71_soundness (R : Reads F η ψ ψ') (k : ℕ) (cka : List KA) (b : F) (com : OA × OT)
    (ha : cka.length = 2 ^ k)
    (hfalse : ¬ ∃ a : List MA, a.length = 2 ^ k ∧ com.1 = dot (φa · ·) a cka ∧
      η com.2 = some (ψ' (dot (bil · ·) a ((List.range (2 ^ k)).map (b ^ ·)))))
    (st : List F → (OA × OT) × (OA × OT)) (fin : List F → MA) (S : Finset F) (hS : ∀ x ∈ S, x ≠ 0)
    [DecidablePred fun cs => Run bil φa ψ cka ((List.range (2 ^ k)).map (b ^ ·)) com cs (sent st cs)
      (fin cs)] :
    ((Fintype.piFinset fun _ : Fin k => S).filter fun xs =>
      Run bil φa ψ cka ((List.range (2 ^ k)).map (b ^ ·)) com (List.ofFn xs) (sent st (List.ofFn xs))
        (fin (List.ofFn xs))).card ≤ 2 * k * S.card ^ (k - 1) := by
  by_contra hcon
  obtain ⟨t, -, h1, h2, h3⟩ := C71_knowledge R k cka b com ha st fin S hS (not_le.mp hcon)
  exact hfalse ⟨_, h1, h2, h3⟩

end

/-! ## The runs are those of the verifiers -/

/-- The commitments of a proof without the placeholder component. -/
def outer {OA OT : Type} (proof : List ((OA × F × OT) × (OA × F × OT))) :
    List ((OA × OT) × (OA × OT)) :=
  proof.map fun s => ((s.1.1, s.1.2.2), (s.2.1, s.2.2.2))

section
variable {ρ KT : Type} [DecidableEq F] [DecidableEq OA] [DecidableEq OT]
  {P : Gipa ρ F MA F T KA Placeholder KT OA F OT}
  {bil : MA →ₗ[F] F →ₗ[F] T} {φa : MA →ₗ[F] KA →ₗ[F] OA} {ψ : KT → T → OT}

/-- C71: a proof accepted by `GIPAWithSSM::verify` is an accepting run for the challenges derived by
hashing. -/
theorem C71_gipa_run (L : P.Lawful bil φa 0 ψ) (X : Exec) (cka : List KA) (kt : KT) (comA : OA)
    (comT : OT) (b : F) (proof : GipaProof MA F OA F OT)
    (ha : cka.length = 2 ^ proof.steps.length)
    (h : GipaSsm.verify X P cka kt comA comT b proof = .ok true) :
    ∃ cs com', P.recursiveChallenges (comA, 0, comT) proof = .ok (com', cs.reverse) ∧
      Run bil φa (ψ kt) cka ((List.range (2 ^ proof.steps.length)).map (b ^ ·)) (comA, comT) cs
        (outer proof.steps.reverse) proof.base.1 := by
  have : DecidableEq T := Classical.decEq T
  have : ∃ x, P.recursiveChallenges (comA, 0, comT) proof = .ok x := by
    unfold GipaSsm.verify at h
    cases hc : P.recursiveChallenges (comA, 0, comT) proof with
    | error e => simp [hc] at h
    | ok x => exact ⟨x, rfl⟩
  obtain ⟨⟨com', tr⟩, hc⟩ := this
  have hc' : P.recursiveChallenges (comA, 0, comT) proof = .ok (com', tr.reverse.reverse) := by
    rw [List.reverse_reverse]; exact hc
  have hl : tr.reverse.length = proof.steps.length := by
    rw [List.length_reverse]; exact (Gipa.C16_challenges_nonzero _ _ _ _ hc).1
  obtain ⟨ka, b', h1, h2, -, h3, -⟩ :=
    GipaSsm.C33_verdict L X cka kt comA comT b proof tr.reverse com' ha hc'
  obtain ⟨e1, -, -, e2⟩ := h3.mp h
  rw [hl] at h2
  have hcom : com' = Gipa.foldMany proof.steps.reverse tr.reverse (comA, 0, comT) := by
    rw [Gipa.recursiveChallenges_eq] at hc
    cases hcs : P.chals proof.steps.reverse [] with
    | error e => simp [hcs] at hc
    | ok cs =>
      simp only [hcs, ok_bind, Except.ok.injEq, Prod.mk.injEq] at hc
      rw [← hc.1, ← hc.2, List.reverse_reverse]
  rw [Gipa.foldMany_eq] at hcom
  refine ⟨_, _, hc', ka, b', h1, h2, ?_, ?_⟩
  · rw [← e1, hcom, outer, List.map_map]; rfl
  · rw [← e2, hcom, outer, List.map_map]; rfl

end

section
open Polynomial
variable {ρ KT G1 G2 GT TF : Type} [DecidableEq F] [DecidableEq OA] [DecidableEq OT]
  [AddCommGroup G1] [Module F G1] [AddCommGroup G2] [Module F G2]
  [AddCommGroup GT] [Module F GT] [Monoid TF] [DecidableEq GT]
  {P : Gipa ρ F MA F T G2 Placeholder KT OA F OT} {V : TipaEnv F G1 G2 GT TF}
  {bil : MA →ₗ[F] F →ₗ[F] T} {φa : MA →ₗ[F] G2 →ₗ[F] OA} {ψ : KT → T → OT}
  {e : G1 →ₗ[F] G2 →ₗ[F] GT}

/-- An accepted proof of an algebraic prover contains the folded key and is an accepting run. -/
theorem tipa_run_key (L : P.Lawful bil φa 0 ψ) (hE : V.E.Lawful e) (X : Exec) (k : ℕ)
    (srs : SRS G1 G2) (g : G1) (h : G2) (α β : F) (hsrs : IsLeftSrs srs g h α β (2 ^ k)) (hh0 : h ≠ 0)
    (hg : ∀ y, e g y = 0 → y = 0) (v : VerifierSRS G1 G2) (hv : srs.verifierKey = .ok v) (kt : KT)
    (comA : OA) (comT : OT) (b : F) (com' : Coms OA F OT) (proof : TipaSsmProof F G2 MA OA OT)
    (tr : List F) (c : F) (hk : proof.gipa.steps.length = k)
    (hrec : P.recursiveChallenges (comA, b, comT) proof.gipa = .ok (com', tr))
    (hc : TipaSsm.kzgChallenge V P.digest P.serF tr proof.finalCk = .ok c)
    (kA oA : F[X]) (a a' : F)
    (hkA : proof.finalCk = kA.eval β • h + a • α • h)
    (hoA : proof.finalCkProof = oA.eval β • h + a' • α • h)
    (tA : (powerPart kA oA ((keyPoly (tr.map (·⁻¹)) 1).eval c) c).eval β
        + α * (otherPart a a' c).eval β = 0 →
      powerPart kA oA ((keyPoly (tr.map (·⁻¹)) 1).eval c) c = 0 ∧ otherPart a a' c = 0)
    (cA : kA.eval c = (keyPoly (tr.map (·⁻¹)) 1).eval c → kA = keyPoly (tr.map (·⁻¹)) 1)
    (hacc : TipaSsm.verify X V P v kt comA comT b proof = .ok true) :
    foldAll (tr.reverse.map (·⁻¹)) srs.commitmentKeys.1 = [proof.finalCk] ∧
      Run bil φa (ψ kt) srs.commitmentKeys.1 ((List.range (2 ^ k)).map (b ^ ·)) (comA, comT)
        tr.reverse (outer proof.gipa.steps.reverse) proof.gipa.base.1 := by
  have : DecidableEq T := Classical.decEq T
  obtain ⟨e1, e3⟩ := hsrs.keys Nat.one_le_two_pow
  rw [e3] at hv
  have hv := (Except.ok.inj hv).symm
  subst hv
  have hlen : tr.length = k := by
    rw [(Gipa.C16_challenges_nonzero _ _ _ _ hrec).1, hk]
  have hrec' : P.recursiveChallenges (comA, b, comT) proof.gipa = .ok (com', tr.reverse.reverse) := by
    rw [List.reverse_reverse]; exact hrec
  obtain ⟨b', h2, h3, -⟩ := TipaSsm.C34_verdict L hE X ⟨g, h, β • g, α • h⟩ kt comA comT b proof
    tr.reverse com' c hrec' (by rw [List.reverse_reverse]; exact hc)
  obtain ⟨o1, q1, q2⟩ := h3.mp hacc
  rw [List.reverse_reverse, hkA, hoA, C70_check_G2 hE g h hh0 α β hg] at o1
  obtain ⟨a0, za⟩ := C70_zero_polynomial _ _ _ _ _ _ (tA o1).1 (tA o1).2
  have fA := C70_true_key (tr.map (·⁻¹)) h β 1
  rw [List.length_map, hlen, ← cA za, ← List.map_reverse] at fA
  rw [List.length_reverse, hlen] at h2
  have hcom : com' = Gipa.foldMany proof.gipa.steps.reverse tr.reverse (comA, b, comT) := by
    rw [Gipa.recursiveChallenges_eq] at hrec
    cases hcs : P.chals proof.gipa.steps.reverse [] with
    | error e => simp [hcs] at hrec
    | ok cs =>
      simp only [hcs, ok_bind, Except.ok.injEq, Prod.mk.injEq] at hrec
      rw [← hrec.1, ← hrec.2, List.reverse_reverse]
  rw [Gipa.foldMany_eq] at hcom
  have f1 : foldAll (tr.reverse.map (·⁻¹)) srs.commitmentKeys.1 = [proof.finalCk] := by
    rw [e1, hkA, a0]; simpa using fA
  refine ⟨f1, proof.finalCk, b', f1, h2, ?_, ?_⟩
  · rw [← q1, hcom, outer, List.map_map]; rfl
  · rw [← q2, hcom, outer, List.map_map]; rfl

/-- C71: a proof of an algebraic prover accepted by `TIPAWithSSM::verify` is an accepting run for the
whole key vector, unless the trapdoors are a zero of an explicit non-zero polynomial or the KZG
challenge `c` is one of the few points where a wrong key polynomial agrees with the true one (see
`C70_trapdoors`, `C70_points`). -/
theorem C71_tipa_run (L : P.Lawful bil φa 0 ψ) (hE : V.E.Lawful e) (X : Exec) (k : ℕ)
    (srs : SRS G1 G2) (g : G1) (h : G2) (α β : F) (hsrs : IsLeftSrs srs g h α β (2 ^ k)) (hh0 : h ≠ 0)
    (hg : ∀ y, e g y = 0 → y = 0) (v : VerifierSRS G1 G2) (hv : srs.verifierKey = .ok v) (kt : KT)
    (comA : OA) (comT : OT) (b : F) (com' : Coms OA F OT) (proof : TipaSsmProof F G2 MA OA OT)
    (tr : List F) (c : F) (hk : proof.gipa.steps.length = k)
    (hrec : P.recursiveChallenges (comA, b, comT) proof.gipa = .ok (com', tr))
    (hc : TipaSsm.kzgChallenge V P.digest P.serF tr proof.finalCk = .ok c)
    (kA oA : F[X]) (a a' : F)
    (hkA : proof.finalCk = kA.eval β • h + a • α • h)
    (hoA : proof.finalCkProof = oA.eval β • h + a' • α • h)
    (tA : (powerPart kA oA ((keyPoly (tr.map (·⁻¹)) 1).eval c) c).eval β
        + α * (otherPart a a' c).eval β = 0 →
      powerPart kA oA ((keyPoly (tr.map (·⁻¹)) 1).eval c) c = 0 ∧ otherPart a a' c = 0)
    (cA : kA.eval c = (keyPoly (tr.map (·⁻¹)) 1).eval c → kA = keyPoly (tr.map (·⁻¹)) 1)
    (hacc : TipaSsm.verify X V P v kt comA comT b proof = .ok true) :
    Run bil φa (ψ kt) srs.commitmentKeys.1 ((List.range (2 ^ k)).map (b ^ ·)) (comA, comT)
      tr.reverse (outer proof.gipa.steps.reverse) proof.gipa.base.1 :=
  (tipa_run_key L hE X k srs g h α β hsrs hh0 hg v hv kt comA comT b com' proof tr c hk hrec hc kA oA a a' hkA hoA tA cA
    hacc).2

end

/-! ## Concrete instances -/

/-- An honest prover for `a = [1, 2]`, `b = 3` (so the inner product is 7) and the key `[5, 6]`, run with
the challenges 1, 2, 3. -/
def honestTree : Tree Toy.F Toy.F (Toy.F × Toy.F) :=
  .node (10, 2) (6, 3) ![1, 2, 3] ![.leaf 3, .leaf 5, .leaf 7]

theorem honestTree_accepts : honestTree.Accepts Toy.e Toy.e id [5, 6] [1, 3] (17, 7) := by
  refine ⟨by decide, by decide, by decide, by decide, fun i => ?_⟩
  fin_cases i <;> exact ⟨_, _, rfl, rfl, by decide +kernel, by decide +kernel⟩

example : extract honestTree = [1, 2] := by decide +kernel

example : (17 : Toy.F) = dot (Toy.e · ·) (extract honestTree) [5, 6] ∧
    some (7 : Toy.F) = some (LinearMap.id (R := Toy.F) (dot (Toy.e · ·) (extract honestTree) [1, 3])) :=
  (C71_extract (reads_linear (LinearMap.id (R := Toy.F))) _ _ _ _ honestTree_accepts).2

/-- The same prover as a strategy is accepted for all of the challenges 1, 2, 3, more than the bound of
`C71_knowledge`. -/
example : ∃ st : List Toy.F → (Toy.F × Toy.F) × (Toy.F × Toy.F), ∃ fin : List Toy.F → Toy.F,
    ∃ S : Finset Toy.F, (∀ x ∈ S, x ≠ 0) ∧
    ∀ _ : DecidablePred fun cs => Run Toy.e Toy.e id [5, 6] ((List.range (2 ^ 1)).map ((3 : Toy.F) ^ ·))
      (17, 7) cs (sent st cs) (fin cs),
    2 * 1 * S.card ^ (1 - 1) < ((Fintype.piFinset fun _ : Fin 1 => S).filter fun xs =>
      Run Toy.e Toy.e id [5, 6] ((List.range (2 ^ 1)).map ((3 : Toy.F) ^ ·)) (17, 7) (List.ofFn xs)
        (sent st (List.ofFn xs)) (fin (List.ofFn xs))).card := by
  refine ⟨fun _ => ((10, 2), (6, 3)), fun cs => 1 + 2 * cs.headD 0, {1, 2, 3}, by decide, fun _ => ?_⟩
  rw [Finset.filter_true_of_mem, Fintype.card_piFinset_const]
  · decide
  · intro xs hxs
    have h := Fintype.mem_piFinset.mp hxs 0
    have e : List.ofFn xs = [xs 0] := by simp
    rw [e]
    generalize xs 0 = x at h
    simp only [Finset.mem_insert, Finset.mem_singleton] at h
    rcases h with rfl | rfl | rfl <;>
    exact ⟨_, _, rfl, rfl, by decide +kernel, by decide +kernel⟩

/-- A false statement: the key `[0, 0]` commits every message to 0. -/
example : ¬ ∃ a : List Toy.F, a.length = 2 ^ 1 ∧ (5 : Toy.F) = dot (Toy.e · ·) a [0, 0] ∧
    some (7 : Toy.F) = some (LinearMap.id (R := Toy.F)
      (dot (Toy.e · ·) a ((List.range (2 ^ 1)).map ((3 : Toy.F) ^ ·)))) := by
  rintro ⟨a, h, h1, -⟩
  obtain ⟨x, y, rfl⟩ := List.length_eq_two.mp h
  simp at h1
  exact absurd h1 (by decide)

end Ripp.SsmExtract
