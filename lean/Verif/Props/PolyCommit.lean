import Verif.Lemmas.PolyCommit
import Verif.Props.Ssm

/-!
# Polynomial commitments with a reference string: C37–C42

Property statements are in `properties.jsonl`. A polynomial is a coefficient list; `p.getLast? ≠ some 0`
says that the leading coefficient is not zero, which ark-poly's constructors guarantee.
-/

set_option linter.unusedSectionVars false
set_option linter.unusedVariables false

namespace Ripp

open Spec

namespace Kzg

section
variable {ρ F G1 G2 GT TF : Type} [Field F] [DecidableEq F] [AddCommGroup G1] [Module F G1]
  [AddCommGroup G2] [Module F G2] [AddCommGroup GT] [Module F GT] [Monoid TF]
  {E : Engine G1 G2 GT TF} {e : G1 →ₗ[F] G2 →ₗ[F] GT}

/-- C37: `setup` returns `g, α g, …, α^d g` and a verifier key for the same `α`. -/
theorem C37_setup (V : Env ρ F G1 G2 GT TF) (s : ρ) (d : ℕ) :
    ∃ (α β : F) (s' : ρ), setup V s d = .ok (((List.range (d + 1)).map fun i => α ^ i • V.g,
      ⟨V.g, V.h, β • V.g, α • V.h⟩), s') := by
  refine ⟨(V.randF s).1, (V.randF (V.randF s).2).1, (V.randF (V.randF s).2).2, ?_⟩
  simp [setup, structuredGenerators_eq, powers, Function.comp_def]

variable [DecidableEq GT]

/-- C37: completeness after `setup`. -/
theorem C37_complete (V : Env ρ F G1 G2 GT TF) (hE : V.E.Lawful e) (s s' : ρ) (d : ℕ)
    (pws : List G1) (v : VerifierSRS G1 G2) (hset : setup V s d = .ok ((pws, v), s')) (p : List F)
    (hp : p.getLast? ≠ some 0) (hd : p.length ≤ d + 1) (z : F) :
    ∃ com π, commit pws p = .ok com ∧ open_ pws p z = .ok π ∧
      verify V.E v com z (evalAt p z) π = .ok true := by
  obtain ⟨α, β, s2, h⟩ := C37_setup V s d
  rw [hset] at h
  simp only [Except.ok.injEq, Prod.mk.injEq] at h
  obtain ⟨⟨rfl, rfl⟩, rfl⟩ := h
  have e1 : ((List.range (d + 1)).map fun i => α ^ i • V.g) = (powers α (d + 1)).map (· • V.g) := by
    simp [powers, Function.comp_def]
  rw [e1, evalAt_eq]
  exact ⟨_, _, commit_eq V.g α _ p hp (by omega) hd, open_eq V.g α _ p z hp (by omega) hd,
    complete hE V.g V.h _ α z p⟩

/-- C38: two different accepted values at one point give `(α - z)⁻¹ g`, where `α` is the trapdoor of
the verifier key. `e` must be nondegenerate at `h` for the last step; the first part holds without. -/
theorem C38_double_opening (hE : E.Lawful e) (g : G1) (h : G2) (gb : G1) (α z y₁ y₂ : F)
    (com π₁ π₂ : G1) (hy : y₁ ≠ y₂)
    (h1 : verify E ⟨g, h, gb, α • h⟩ com z y₁ π₁ = .ok true)
    (h2 : verify E ⟨g, h, gb, α • h⟩ com z y₂ π₂ = .ok true) :
    e ((α - z) • ((y₂ - y₁)⁻¹ • (π₁ - π₂))) h = e g h ∧
    ((∀ x, e x h = 0 → x = 0) → g ≠ 0 →
      α ≠ z ∧ (y₂ - y₁)⁻¹ • (π₁ - π₂) = (α - z)⁻¹ • g) := by
  rw [verify_eq hE] at h1 h2
  simp only [Except.ok.injEq, decide_eq_true_eq, ← sub_smul, map_sub, map_smul,
    LinearMap.sub_apply, LinearMap.smul_apply] at h1 h2
  have hy' : y₂ - y₁ ≠ 0 := sub_ne_zero.mpr hy.symm
  have key : e ((α - z) • ((y₂ - y₁)⁻¹ • (π₁ - π₂))) h = e g h := by
    simp only [map_sub, map_smul, LinearMap.sub_apply, LinearMap.smul_apply]
    rw [smul_comm, smul_sub, ← h1, ← h2, sub_sub_sub_cancel_left, ← sub_smul, smul_smul,
      inv_mul_cancel₀ hy', one_smul]
  refine ⟨key, fun hnd hg => ?_⟩
  have k2 : (α - z) • ((y₂ - y₁)⁻¹ • (π₁ - π₂)) = g := by
    rw [← sub_eq_zero]
    apply hnd
    rw [map_sub, LinearMap.sub_apply, key, sub_self]
  have hz : α - z ≠ 0 := by
    intro h0
    rw [h0, zero_smul] at k2
    exact hg k2.symm
  refine ⟨sub_ne_zero.mp hz, ?_⟩
  rw [← k2, smul_smul, inv_mul_cancel₀ hz, one_smul]

/-- C38: what `verify` checks. -/
theorem C38_verdict (hE : E.Lawful e) (g : G1) (h : G2) (gb : G1) (α z y : F) (com π : G1)
    (hnd : ∀ x, e x h = 0 → x = 0) :
    verify E ⟨g, h, gb, α • h⟩ com z y π = .ok true ↔ com - y • g = (α - z) • π := by
  rw [verify_eq hE]
  simp only [Except.ok.injEq, decide_eq_true_eq]
  rw [← sub_smul, map_smul, ← LinearMap.smul_apply, ← map_smul, ← sub_eq_zero,
    ← LinearMap.sub_apply, ← map_sub]
  exact ⟨fun h => sub_eq_zero.mp (hnd _ h), fun h => by rw [h]; simp⟩

end

section
variable {F G1 : Type} [Field F] [DecidableEq F] [AddCommGroup G1] [Module F G1]

/-- C39: `commit` succeeds exactly if the polynomial fits (the zero polynomial needs one power), and
panics otherwise. -/
theorem C39_commit (pws : List G1) (p : List F) (hp : p.getLast? ≠ some 0) :
    (max 1 p.length ≤ pws.length → ∃ com, commit pws p = .ok com) ∧
    (pws.length < max 1 p.length → commit pws p = .error (.panic .assertion)) := by
  refine ⟨fun h => ?_, fun h => ?_⟩
  · rw [commit, polyDegree_of_norm hp]
    have : p.length - 1 + 1 ≤ pws.length := by omega
    simp only [ok_bind, decide_eq_true this, assert_true]
    rw [msm_eq _ _ (by rw [resize_length])]
    exact ⟨_, rfl⟩
  · rw [commit, polyDegree_of_norm hp]
    have : ¬ p.length - 1 + 1 ≤ pws.length := by omega
    simp only [ok_bind, decide_eq_false this, assert_false]
    rfl

/-- C39: the same for `open`. -/
theorem C39_open (pws : List G1) (p : List F) (z : F) (hp : p.getLast? ≠ some 0) :
    (max 1 p.length ≤ pws.length → ∃ π, open_ pws p z = .ok π) ∧
    (pws.length < max 1 p.length → open_ pws p z = .error (.panic .assertion)) := by
  refine ⟨fun h => ?_, fun h => ?_⟩
  · rw [open_, polyDegree_of_norm hp]
    have : p.length - 1 + 1 ≤ pws.length := by omega
    simp only [ok_bind, decide_eq_true this, assert_true]
    rw [msm_eq _ _ (by rw [resize_length])]
    exact ⟨_, rfl⟩
  · rw [open_, polyDegree_of_norm hp]
    have : ¬ p.length - 1 + 1 ≤ pws.length := by omega
    simp only [ok_bind, decide_eq_false this, assert_false]
    rfl

/-- C39: a nonzero polynomial with a zero leading coefficient makes both functions panic, even if it
fits. -/
theorem C39_not_normalised (pws : List G1) (p : List F) (z : F) (hp : p.getLast? = some 0)
    (h : ∃ a ∈ p, a ≠ 0) :
    commit pws p = .error (.panic .assertion) ∧ open_ pws p z = .error (.panic .assertion) := by
  rw [commit, open_, polyDegree_of_trailing hp h]
  exact ⟨rfl, rfl⟩

end

/-- C37 applies to `3 + 2 X² + X³` at the point 7 after a setup for degree 4. -/
example : ∃ pws v com π, setup Toy.env 6 4 = .ok ((pws, v), 8) ∧
    commit pws ([3, 0, 2, 1] : List Toy.F) = .ok com ∧ open_ pws [3, 0, 2, 1] (7 : Toy.F) = .ok π ∧
    verify Toy.env.E v com (7 : Toy.F) 40 π = .ok true := by
  obtain ⟨α, β, s', h⟩ := C37_setup Toy.env 6 4
  have hs : s' = 8 := by
    have h2 : (setup Toy.env 6 4).map (·.2) = .ok 8 := by
      simp only [setup, structuredGenerators_eq 5 Toy.env.g _ (by norm_num)]; rfl
    rw [h] at h2
    exact Except.ok.inj h2
  subst hs
  obtain ⟨com, π, h1, h2, h3⟩ := C37_complete Toy.env Toy.lawful 6 8 4 _ _ h
    ([3, 0, 2, 1] : List Toy.F) (by decide) (by decide) 7
  refine ⟨_, _, com, π, h, h1, h2, ?_⟩
  have : evalAt ([3, 0, 2, 1] : List Toy.F) 7 = 40 := by decide +kernel
  rwa [this] at h3

/-- C38's hypotheses can be met only by someone knowing the trapdoor; here it is 3. -/
example : verify Toy.E ⟨1, 1, 5, (3 : Toy.F) • 1⟩ (10 : Toy.F) (2 : Toy.F) 4 6 = .ok true ∧
    verify Toy.E ⟨1, 1, 5, (3 : Toy.F) • 1⟩ (10 : Toy.F) (2 : Toy.F) 7 3 = .ok true := by
  constructor <;> decide +kernel

end Kzg

section
variable {F : Type} [Field F] [DecidableEq F]

/-- C40: `evaluate` is `Σ_i x^i p_i(y)`. -/
theorem C40_evaluate (ps : List (List F)) (x y : F) :
    bivariateEval ps x y = evalAt (ps.map fun p => evalAt p y) x := bivariateEval_eq ps x y

/-- C40 with explicit sums. -/
theorem C40_evaluate_sum (ps : List (List F)) (x y : F) :
    bivariateEval ps x y = (ps.mapIdx fun i p => x ^ i * (p.mapIdx fun j c => c * y ^ j).sum).sum := by
  have key : ∀ (p : List F) (z : F), polyEval p z = (p.mapIdx fun j c => c * z ^ j).sum := by
    intro p z
    induction p using List.reverseRecOn with
    | nil => rfl
    | append_singleton p a ih =>
      rw [polyEval_append, ih, List.mapIdx_append]; simp; ring
  rw [C40_evaluate, evalAt_eq, key]
  congr 1
  apply List.ext_getElem?
  intro i
  simp only [List.getElem?_mapIdx, List.getElem?_map, Option.map_map, evalAt_eq, key]
  congr 1
  funext p
  exact mul_comm _ _

example : bivariateEval [[1, 2], [], [0, 3]] (5 : ℚ) 7 = (1 + 2 * 7) + 25 * (3 * 7) := by
  rw [C40_evaluate_sum]; norm_num

end

namespace Bivariate

variable {ρ F G1 G2 GT TF : Type} [Field F] [DecidableEq F] [AddCommGroup G1] [Module F G1]
  [AddCommGroup G2] [Module F G2] [AddCommGroup GT] [Module F GT] [Monoid TF]
  {e : G1 →ₗ[F] G2 →ₗ[F] GT}

/-- The reference string of the bivariate scheme: `x + 1` keys, `y + 1` KZG powers. -/
structure IsSrs (srs : SRS G1 G2 × List G1) (g : G1) (h : G2) (α β : F) (x y : ℕ) : Prop where
  left : IsLeftSrs srs.1 g h α β (x + 1)
  kzg : srs.2 = (List.range (y + 1)).map fun i => α ^ i • g

/-- C41: what `setup` returns. -/
theorem C41_setup (V : Env ρ F G1 G2 GT TF) (s : ρ) (x y : ℕ) :
    ∃ (srs : SRS G1 G2 × List G1) (α β : F) (s' : ρ), setup V s x y = .ok (srs, s') ∧ IsSrs srs V.g V.h α β x y := by
  have e1 : 2 * (x + 1) - 1 = 2 * x + 1 := by omega
  refine ⟨(⟨[V.g], (powers (V.randF (V.randF s).2).1 (2 * x + 1)).map (· • V.h),
    (V.randF (V.randF s).2).1 • V.g, (V.randF s).1 • V.h⟩,
    (powers (V.randF s).1 (y + 1)).map (· • V.g)), (V.randF s).1, (V.randF (V.randF s).2).1,
    (V.randF (V.randF s).2).2, ?_, ⟨⟨rfl, ?_, rfl, rfl⟩, ?_⟩⟩
  · simp [setup, structuredGenerators_eq]
  · simp [powers, Function.comp_def, e1]
  · simp [powers, Function.comp_def]

theorem length_keys {srs : SRS G1 G2 × List G1} {g : G1} {h : G2} {α β : F} {x y : ℕ}
    (hs : IsSrs srs g h α β x y) : srs.1.commitmentKeys.1.length = x + 1 := by
  rw [(hs.left.keys (by omega)).1]; simp

theorem kzg_powers {srs : SRS G1 G2 × List G1} {g : G1} {h : G2} {α β : F} {x y : ℕ}
    (hs : IsSrs srs g h α β x y) : srs.2 = (powers α (y + 1)).map (· • g) := by
  rw [hs.kzg]; simp [powers, Function.comp_def]

/-- `commit` returns the inner product of the row commitments with the keys. -/
theorem commit_eq (V : Env ρ F G1 G2 GT TF) (hE : V.E.Lawful e) (srs : SRS G1 G2 × List G1) (g : G1)
    (h : G2) (α β : F) (x y : ℕ) (hs : IsSrs srs g h α β x y) (ps : List (List F))
    (hps : ps.length ≤ x + 1) (hrow : ∀ p ∈ ps, p.getLast? ≠ some 0 ∧ p.length ≤ y + 1) :
    commit V srs ps = .ok (dot (e · ·) ((resize ps (x + 1) []).map fun p => polyEval p α • g)
      srs.1.commitmentKeys.1, (resize ps (x + 1) []).map fun p => polyEval p α • g) := by
  have hk := length_keys hs
  rw [commit]
  simp only [hk, decide_eq_true hps, assert_true, ok_bind]
  rw [mapM_ok _ (fun p => polyEval p α • g)]
  · simp only [ok_bind]
    have : (afghoG1 V.E V.X V.randG2).commit srs.1.commitmentKeys.1
        ((resize ps (x + 1) []).map fun p => polyEval p α • g) =
        .ok (dot (e · ·) ((resize ps (x + 1) []).map fun p => polyEval p α • g)
          srs.1.commitmentKeys.1) :=
      pairingIP_eq hE V.X _ _ (by rw [List.length_map, resize_length, hk])
    rw [this]; rfl
  · intro p hp
    rw [kzg_powers hs]
    rw [resize_of_length_le _ _ _ hps] at hp
    rcases List.mem_append.mp hp with hp | hp
    · exact Kzg.commit_eq g α _ p (hrow p hp).1 (by omega) (hrow p hp).2
    · rw [(List.mem_replicate.mp hp).2]
      exact Kzg.commit_eq g α _ [] (by simp) (by omega) (by simp)

/-- The combined row polynomial. -/
def combined (ps : List (List F)) (px : F) (x y : ℕ) : List F :=
  lin (y + 1) (powers px (x + 1)) ((resize ps (x + 1) []).map fun p => resize p (y + 1) 0)

theorem length_combined (ps : List (List F)) (px : F) (x y : ℕ) :
    (combined ps px x y).length = y + 1 := by
  refine length_lin _ _ _ ?_
  intro r hr
  obtain ⟨p, -, rfl⟩ := List.mem_map.mp hr
  exact resize_length _ _ _

/-- The inner product of the row commitments with the powers of the point. -/
theorem dot_rows (g : G1) (α px : F) (ps : List (List F)) (x y : ℕ) (hps : ps.length ≤ x + 1)
    (hrow : ∀ p ∈ ps, p.length ≤ y + 1) :
    dot (smulMap F G1 · ·) ((resize ps (x + 1) []).map fun p => polyEval p α • g)
      (powers px (x + 1)) = polyEval (combined ps px x y) α • g := by
  rw [combined, polyEval_lin _ _ _ _ _ hps hrow]
  have e1 : ((resize ps (x + 1) []).map fun p => polyEval p α • g) =
      (resize (ps.map (polyEval · α)) (x + 1) 0).map (· • g) := by
    rw [resize_of_length_le _ _ _ hps, resize_of_length_le _ _ _ (by simpa using hps)]
    simp [Function.comp_def]
  rw [e1, dot_map_left]
  rw [← polyEval_resize (ps.map (polyEval · α)) (x + 1) px (by simpa using hps),
    ← dot_powers_eq _ px (x + 1) (by rw [resize_length])]
  generalize resize (ps.map (polyEval · α)) (x + 1) 0 = a
  generalize powers px (x + 1) = b
  induction a generalizing b with
  | nil => simp
  | cons a as ih =>
    cases b with
    | nil => simp
    | cons b bs =>
      simp only [dot_cons, add_smul]
      rw [ih]
      simp only [smulMap_apply, mulMap_apply, smul_smul]
      rw [mul_comm]

variable [DecidableEq G1] [DecidableEq GT]

/-- The statement proved by the inner argument. -/
theorem honest (V : Env ρ F G1 G2 GT TF) (hE : V.E.Lawful e) (srs : SRS G1 G2 × List G1) (g : G1)
    (h : G2) (α β : F) (x y : ℕ) (hs : IsSrs srs g h α β x y) (ps : List (List F))
    (hps : ps.length ≤ x + 1) (hrow : ∀ p ∈ ps, p.length ≤ y + 1) (px : F) :
    GipaSsm.Honest V.multiexpSsm ((resize ps (x + 1) []).map fun p => polyEval p α • g) px
      srs.1.commitmentKeys.1 PUnit.unit
      (dot (e · ·) ((resize ps (x + 1) []).map fun p => polyEval p α • g) srs.1.commitmentKeys.1)
      ⟨[polyEval (combined ps px x y) α • g]⟩ (polyEval (combined ps px x y) α • g) where
  ip := by
    have := (multiexpSsm_lawful V hE).ip_ok ((resize ps (x + 1) []).map fun p => polyEval p α • g)
      (powers px (x + 1)) (by rw [List.length_map, resize_length, length_powers])
    rw [List.length_map, resize_length]
    rw [dot_rows _ _ _ _ _ _ hps hrow] at this
    exact this
  lmc := pairingIP_eq hE V.X _ _ (by rw [List.length_map, resize_length, length_keys hs])
  ipc := rfl

/-- `open` succeeds up to the inner argument. -/
theorem open_eq (V : Env ρ F G1 G2 GT TF) (srs : SRS G1 G2 × List G1) (g : G1)
    (h : G2) (α β : F) (x y : ℕ) (hs : IsSrs srs g h α β x y) (ps : List (List F))
    (hps : ps.length ≤ x + 1) (coms : List G1) (px py : F) :
    open_ V srs ps coms (px, py) =
      (TipaSsm.prove V.tipa V.multiexpSsm srs.1 coms (powers px (x + 1)) srs.1.commitmentKeys.1
        PUnit.unit >>= fun ip => .ok
          { ip := ip, yEvalComm := polyEval (combined ps px x y) α • g,
            kzg := polyEval (polyDivLinear (polyOf (combined ps px x y)) py) α • g }) := by
  have hk := length_keys hs
  have hkzgl : srs.2.length = y + 1 := by rw [kzg_powers hs]; simp
  have hopen : Kzg.open_ srs.2 (polyOf (combined ps px x y)) py = .ok
      (polyEval (polyDivLinear (polyOf (combined ps px x y)) py) α • g) := by
    rw [kzg_powers hs]
    exact Kzg.open_eq g α _ _ py (getLast?_trim _) (by omega)
      ((length_trim_le _).trans (length_combined _ _ _ _).le)
  have hmsm : msm srs.2 (combined ps px x y) = some (polyEval (combined ps px x y) α • g) := by
    rw [msm_eq _ _ (by rw [hkzgl, length_combined]), kzg_powers hs,
      dot_srs _ _ _ _ (length_combined _ _ _ _).le]
  rw [open_]
  simp only [hk, decide_eq_true hps, assert_true, ok_bind]
  have hpl : powersLoop px (x + 1) 1 [] = powers px (x + 1) := by simp [powersLoop_eq]
  rw [hpl, yEvalCoeffs_eq _ _ _ _ (length_powers _ _), hkzgl]
  simp only [ok_bind]
  rw [show lin (y + 1) (powers px (x + 1)) ((resize ps (x + 1) []).map fun p => resize p (y + 1) 0)
    = combined ps px x y from rfl, hmsm]
  simp only [ok_bind, unwrap_some]
  rw [hopen]
  rfl

theorem eval_combined (ps : List (List F)) (px py : F) (x y : ℕ) (hps : ps.length ≤ x + 1)
    (hrow : ∀ p ∈ ps, p.length ≤ y + 1) :
    evalAt (ps.map fun p => evalAt p py) px = polyEval (combined ps px x y) py := by
  rw [evalAt_eq, combined, polyEval_lin _ _ _ _ _ hps hrow]
  simp only [evalAt_eq]

/-- C41: completeness. The verifier key is the one of the reference string. -/
theorem C41_complete (V : Env ρ F G1 G2 GT TF) (hE : V.E.Lawful e)
    (hd : ∀ b, 16 ≤ (V.digest b).length) (k : ℕ) (srs : SRS G1 G2 × List G1) (g : G1) (h : G2)
    (α β : F) (x y : ℕ) (hs : IsSrs srs g h α β x y) (hx : x + 1 = 2 ^ (k + 1)) (ps : List (List F))
    (hps : ps.length ≤ x + 1) (hrow : ∀ p ∈ ps, p.getLast? ≠ some 0 ∧ p.length ≤ y + 1)
    (point : F × F) :
    ∃ com coms v, commit V srs ps = .ok (com, coms) ∧ srs.1.verifierKey = .ok v ∧
      (open_ V srs ps coms point = .error .diverge ∨
      ∃ proof, open_ V srs ps coms point = .ok proof ∧
        verify V v com point (evalAt (ps.map fun p => evalAt p point.2) point.1) proof = .ok true) := by
  obtain ⟨px, py⟩ := point
  have hrow' : ∀ p ∈ ps, p.length ≤ y + 1 := fun p hp => (hrow p hp).2
  have hv := (hs.left.keys (by omega)).2
  refine ⟨_, _, _, commit_eq V hE srs g h α β x y hs ps hps hrow, hv, ?_⟩
  have hmb : structuredScalarPower (2 ^ (k + 1)) px = .ok (powers px (x + 1)) := by
    rw [structuredScalarPower_eq, max_eq_right Nat.one_le_two_pow, hx]
  have hC := TipaSsm.C34_complete (V := V.tipa) (multiexpSsm_lawful V hE) hE hd V.X k srs.1 g h α β
    (hx ▸ hs.left) ((resize ps (x + 1) []).map fun p => polyEval p α • g) (powers px (x + 1)) px
    _ PUnit.unit _ _ (by rw [List.length_map, resize_length, hx]) hmb
    (honest V hE srs g h α β x y hs ps hps hrow' px)
  rw [open_eq V srs g h α β x y hs ps hps]
  rcases hC with hC | ⟨v, proof, hv', hC, hver⟩
  · left
    rw [hC]; rfl
  · right
    rw [hC]
    rw [hv] at hv'
    have hv' := Except.ok.inj hv'
    refine ⟨_, rfl, ?_⟩
    rw [verify]
    simp only
    rw [hv', hver]
    simp only [ok_bind]
    rw [← hv', eval_combined ps px py x y hps hrow', ← polyEval_polyOf _ py,
      ← polyEval_polyOf (combined ps px x y) α, Kzg.complete hE]
    rfl

/-- C41: unconditional if the challenge searches end. -/
theorem C41_complete_total (V : Env ρ F G1 G2 GT TF) (hE : V.E.Lawful e)
    (hd : ∀ b, 16 ≤ (V.digest b).length) (hse : V.multiexpSsm.SearchEnds)
    (hrb : TipaSsm.KzgEnds V.tipa V.digest V.serF)
    (k : ℕ) (srs : SRS G1 G2 × List G1) (g : G1) (h : G2)
    (α β : F) (x y : ℕ) (hs : IsSrs srs g h α β x y) (hx : x + 1 = 2 ^ (k + 1)) (ps : List (List F))
    (hps : ps.length ≤ x + 1) (hrow : ∀ p ∈ ps, p.getLast? ≠ some 0 ∧ p.length ≤ y + 1)
    (point : F × F) :
    ∃ com coms v proof, commit V srs ps = .ok (com, coms) ∧ srs.1.verifierKey = .ok v ∧
      open_ V srs ps coms point = .ok proof ∧
      verify V v com point (evalAt (ps.map fun p => evalAt p point.2) point.1) proof = .ok true := by
  obtain ⟨com, coms, v, h1, h2, h3⟩ := C41_complete V hE hd k srs g h α β x y hs hx ps hps hrow point
  rcases h3 with h3 | ⟨proof, h3, h4⟩
  · exfalso
    obtain ⟨px, py⟩ := point
    have hrow' : ∀ p ∈ ps, p.length ≤ y + 1 := fun p hp => (hrow p hp).2
    have hmb : structuredScalarPower (2 ^ (k + 1)) px = .ok (powers px (x + 1)) := by
      rw [structuredScalarPower_eq, max_eq_right Nat.one_le_two_pow, hx]
    rw [commit_eq V hE srs g h α β x y hs ps hps hrow] at h1
    simp only [Except.ok.injEq, Prod.mk.injEq] at h1
    obtain ⟨-, rfl⟩ := h1
    obtain ⟨-, proof, -, hC, -⟩ := TipaSsm.C34_complete_total (V := V.tipa) (multiexpSsm_lawful V hE)
      hE hd hse hrb V.X k srs.1 g h α β
      (hx ▸ hs.left) ((resize ps (x + 1) []).map fun p => polyEval p α • g) (powers px (x + 1)) px
      _ PUnit.unit _ _ (by rw [List.length_map, resize_length, hx]) hmb
      (honest V hE srs g h α β x y hs ps hps hrow' px)
    rw [open_eq V srs g h α β x y hs ps hps, hC] at h3
    simp at h3
  · exact ⟨com, coms, v, proof, h1, h2, h3, h4⟩

/-- C41: the two previous theorems from `setup` on, with the value computed by `evaluate`. -/
theorem C41_end_to_end (V : Env ρ F G1 G2 GT TF) (hE : V.E.Lawful e)
    (hd : ∀ b, 16 ≤ (V.digest b).length) (k : ℕ) (s s' : ρ) (srs : SRS G1 G2 × List G1)
    (x y : ℕ) (hset : setup V s x y = .ok (srs, s')) (hx : x + 1 = 2 ^ (k + 1)) (ps : List (List F))
    (hps : ps.length ≤ x + 1) (hrow : ∀ p ∈ ps, p.getLast? ≠ some 0 ∧ p.length ≤ y + 1)
    (point : F × F) :
    ∃ com coms v, commit V srs ps = .ok (com, coms) ∧ srs.1.verifierKey = .ok v ∧
      (open_ V srs ps coms point = .error .diverge ∨
      ∃ proof, open_ V srs ps coms point = .ok proof ∧
        verify V v com point (bivariateEval ps point.1 point.2) proof = .ok true) := by
  obtain ⟨srs', α, β, s'', h1, h2⟩ := C41_setup V s x y
  rw [hset] at h1
  simp only [Except.ok.injEq, Prod.mk.injEq] at h1
  obtain ⟨rfl, rfl⟩ := h1
  rw [C40_evaluate]
  exact C41_complete V hE hd k srs V.g V.h α β x y h2 hx ps hps hrow point

/-- C42: `commit` works for every `x`. -/
theorem C42_commit_ok (V : Env ρ F G1 G2 GT TF) (hE : V.E.Lawful e) (srs : SRS G1 G2 × List G1)
    (g : G1) (h : G2) (α β : F) (x y : ℕ) (hs : IsSrs srs g h α β x y) (ps : List (List F))
    (hps : ps.length ≤ x + 1) (hrow : ∀ p ∈ ps, p.getLast? ≠ some 0 ∧ p.length ≤ y + 1) :
    ∃ com coms, commit V srs ps = .ok (com, coms) ∧ coms.length = x + 1 :=
  ⟨_, _, commit_eq V hE srs g h α β x y hs ps hps hrow, by rw [List.length_map, resize_length]⟩

/-- C42: `open` panics if `x + 1` is not a power of two. -/
theorem C42_open_not_pow2 (V : Env ρ F G1 G2 GT TF) (srs : SRS G1 G2 × List G1)
    (g : G1) (h : G2) (α β : F) (x y : ℕ) (hs : IsSrs srs g h α β x y) (hx : ∀ k, x + 1 ≠ 2 ^ k)
    (ps : List (List F)) (hps : ps.length ≤ x + 1) (coms : List G1) (hc : coms.length = x + 1)
    (point : F × F) : open_ V srs ps coms point = .error (.panic .assertion) := by
  obtain ⟨px, py⟩ := point
  rw [open_eq V srs g h α β x y hs ps hps, TipaSsm.prove, Gipa.proveWithAux, hc,
    isPow2_eq_false.mpr hx]
  rfl

/-- C42: `open` panics if `x = 0`. -/
theorem C42_open_zero (V : Env ρ F G1 G2 GT TF) (srs : SRS G1 G2 × List G1)
    (g : G1) (h : G2) (α β : F) (y : ℕ) (hs : IsSrs srs g h α β 0 y)
    (ps : List (List F)) (hps : ps.length ≤ 1) (coms : List G1) (hc : coms.length = 1)
    (point : F × F) : open_ V srs ps coms point = .error (.panic .unwrap) := by
  obtain ⟨px, py⟩ := point
  have hk := length_keys hs
  obtain ⟨c, rfl⟩ := List.length_eq_one_iff.mp hc
  obtain ⟨ck, hck⟩ := List.length_eq_one_iff.mp hk
  have hp : powers px (0 + 1) = [1] := by simp [powers]
  rw [open_eq V srs g h α β 0 y hs ps hps, hck, hp, TipaSsm.C30_prove_length_one]
  rfl

end Bivariate

/-- C41 applies to the polynomial `(1 + 2Y) + X(3) + X³(4Y)`, four rows, at the point `(6, 7)`. -/
example : ∃ srs s' com coms v proof, Bivariate.setup Toy.env 11 3 1 = .ok (srs, s') ∧
    Bivariate.commit Toy.env srs ([[1, 2], [3], [], [0, 4]] : List (List Toy.F)) = .ok (com, coms) ∧
    srs.1.verifierKey = .ok v ∧
    Bivariate.open_ Toy.env srs [[1, 2], [3], [], [0, 4]] coms ((6, 7) : Toy.F × Toy.F) = .ok proof ∧
    Bivariate.verify Toy.env v com ((6, 7) : Toy.F × Toy.F) 21 proof = .ok true := by
  obtain ⟨srs, α, β, s', h1, h2⟩ := Bivariate.C41_setup Toy.env 11 3 1
  obtain ⟨com, coms, v, proof, h3, h4, h5, h6⟩ := Bivariate.C41_complete_total Toy.env Toy.lawful
    Toy.digest_length (searchEnds_of_digest _ Toy.digest_length Toy.digest_ne_zero)
    Toy.ssmKzgEnds 1 srs _ _ α β 3 1 h2 rfl [[1, 2], [3], [], [0, 4]] (by decide) (by decide)
    ((6, 7) : Toy.F × Toy.F)
  refine ⟨srs, s', com, coms, v, proof, h1, h3, h4, h5, ?_⟩
  have : evalAt (([[1, 2], [3], [], [0, 4]] : List (List Toy.F)).map fun p => evalAt p 7) 6 = 21 := by
    decide +kernel
  rwa [this] at h6

end Ripp
