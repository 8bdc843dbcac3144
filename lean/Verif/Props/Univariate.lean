import Verif.Lemmas.Degrees
import Verif.Props.PolyCommit

/-!
# Degree split, univariate polynomial commitment, missing evaluation binding: C43–C46, C48

Property statements are in `properties.jsonl`.
-/

set_option linter.unusedSectionVars false
set_option linter.unusedVariables false

namespace Ripp

open Spec

/-- C43: for degrees `1 … 2^52 - 1` both sizes are powers of two, there are at least two rows, and the
capacity is the least power of four that is at least `d + 1`. -/
theorem C43_degrees (d : ℕ) (hd : 1 ≤ d) (h : d + 1 ≤ 2 ^ 52) :
    ∃ x y k l j, bivariateDegrees d = .ok (x, y) ∧ x + 1 = 2 ^ (k + 1) ∧ y + 1 = 2 ^ l ∧
      (x + 1) * (y + 1) = 4 ^ j ∧ d + 1 ≤ (x + 1) * (y + 1) ∧ ∀ i, i < j → 4 ^ i < d + 1 := by
  obtain ⟨a, b, h1, h2⟩ := bivariateDegrees_eq d hd h
  have e1 : 2 ^ (a + 1) - 1 + 1 = 2 ^ (a + 1) := Nat.sub_add_cancel Nat.one_le_two_pow
  have e2 : 2 ^ (a + 1 + 2 * b) - 1 + 1 = 2 ^ (a + 1 + 2 * b) := Nat.sub_add_cancel Nat.one_le_two_pow
  have e3 : 2 ^ (a + 1) * 2 ^ (a + 1 + 2 * b) = 4 ^ (a + 1 + b) := by
    rw [← pow_add, show (4 : ℕ) = 2 ^ 2 by norm_num, ← pow_mul]; congr 1; ring
  refine ⟨_, _, a, a + 1 + 2 * b, a + 1 + b, h1, e1, e2, ?_, ?_, ?_⟩
  · rw [e1, e2, e3]
  · rw [e1, e2, e3]; exact (h2 _).mp le_rfl
  · intro i hi
    by_contra hn
    have := (h2 i).mpr (by omega)
    omega

/-- C43: the same for the transparent scheme. -/
theorem C43_degrees_transparent (d : ℕ) (hd : 1 ≤ d) (h : d + 1 ≤ 2 ^ 52) :
    ∃ x y k l j, bivariateDegreesT d = .ok (x, y) ∧ x + 1 = 2 ^ (k + 1) ∧ y + 1 = 2 ^ (l + 1) ∧
      (x + 1) * (y + 1) = 4 ^ j ∧ d + 1 ≤ (x + 1) * (y + 1) ∧ ∀ i, i < j → 4 ^ i < d + 1 := by
  obtain ⟨a, b, h1, h2⟩ := bivariateDegreesT_eq d hd h
  have e1 : 2 ^ (a + 1) - 1 + 1 = 2 ^ (a + 1) := Nat.sub_add_cancel Nat.one_le_two_pow
  have e2 : 2 ^ (a + 1 + 2 * b) - 1 + 1 = 2 ^ (a + 1 + 2 * b) := Nat.sub_add_cancel Nat.one_le_two_pow
  have e3 : 2 ^ (a + 1) * 2 ^ (a + 1 + 2 * b) = 4 ^ (a + 1 + b) := by
    rw [← pow_add, show (4 : ℕ) = 2 ^ 2 by norm_num, ← pow_mul]; congr 1; ring
  refine ⟨_, _, a, a + 2 * b, a + 1 + b, h1, e1, ?_, ?_, ?_, ?_⟩
  · rw [e2]; congr 1; omega
  · rw [e1, e2, e3]
  · rw [e1, e2, e3]; exact (h2 _).mp le_rfl
  · intro i hi
    by_contra hn
    have := (h2 i).mpr (by omega)
    omega

/-- C43: degree 0 divides by zero in both schemes. -/
theorem C43_zero : bivariateDegrees 0 = .error (.panic .divZero) ∧
    bivariateDegreesT 0 = .error (.panic .divZero) := by
  obtain ⟨j, h1, h2⟩ := sqrtPow2_eq 0 (by norm_num)
  have : j = 0 := by
    have := (h2 0).mpr (by simp)
    omega
  subst this
  rw [bivariateDegrees, bivariateDegreesT, h1]
  exact ⟨rfl, rfl⟩

/-- C43: the bound on the degree is needed: at `2^52` the rounded square root is too small and the
capacity is `2^52`, one coefficient short. -/
theorem C43_precision_limit : bivariateDegrees (2 ^ 52) = .ok (2 ^ 22 - 1, 2 ^ 30 - 1) ∧
    (2 ^ 22 - 1 + 1) * (2 ^ 30 - 1 + 1) < 2 ^ 52 + 1 := by
  refine ⟨?_, by norm_num⟩
  have hl : Nat.log2 (2 ^ 52 + 1) = 52 := by
    rw [Nat.log2_eq_iff (by norm_num)]; norm_num
  have hs : Nat.sqrt ((2 ^ 52 + 1) * 4 ^ 26) = 2 ^ 52 := by
    rw [eq_comm, Nat.eq_sqrt]; norm_num
  have hc : f64CeilSqrt (2 ^ 52 + 1) = 2 ^ 26 := by
    rw [f64CeilSqrt, hl, show 52 - 52 / 2 = 26 by norm_num]
    simp only [hs]
    norm_num
  have hq : sqrtPow2 (2 ^ 52) = .ok (2 ^ 26) := by
    rw [sqrtPow2, if_neg (by norm_num), f64OfNat_of_lt (by norm_num), hc, nextPow2,
      Nat.clog_pow 2 26 (by norm_num)]
  rw [bivariateDegrees, hq]
  simp [splitDegrees]

section
variable {F : Type} [Field F] [DecidableEq F]

/-- C44: the bivariate form has `x + 1` normalised rows of at most `y + 1` coefficients, and
evaluating it (with the code's `evaluate`) at `(z^(y+1), z)` gives `p(z)`. -/
theorem C44_form (x y : ℕ) (p : List F) (h : p.length ≤ (x + 1) * (y + 1)) :
    ∃ rows, bivariateForm (x, y) p = .ok rows ∧ rows.length = x + 1 ∧
      (∀ r ∈ rows, r.getLast? ≠ some 0 ∧ r.length ≤ y + 1) ∧
      ∀ z, bivariateEval rows (z ^ (y + 1)) z = evalAt p z := by
  obtain ⟨rows, h1, h2, h3, h4⟩ := bivariateForm_eq x y p
  refine ⟨rows, h1, h2, h3, fun z => ?_⟩
  rw [C40_evaluate, evalAt_eq, evalAt_eq]
  simp only [evalAt_eq]
  rw [h4, List.take_of_length_le h]

/-- C46: coefficients beyond the capacity are dropped without an error. -/
theorem C46_form_truncates (x y : ℕ) (p : List F) :
    bivariateForm (x, y) p = bivariateForm (x, y) (p.take ((x + 1) * (y + 1))) := by
  rw [bivariateForm, bivariateForm, resize_take]

example : bivariateForm (1, 2) [1, 2, 0, 4, 5, 6, 7, 8] = bivariateForm (1, 2) [1, 2, 0, 4, (5 : ℚ), 6] :=
  C46_form_truncates 1 2 _

end

namespace Bivariate

variable {ρ F G1 G2 GT TF : Type} [Field F] [DecidableEq F] [AddCommGroup G1] [Module F G1]
  [AddCommGroup G2] [Module F G2] [AddCommGroup GT] [Module F GT] [Monoid TF]
  {e : G1 →ₗ[F] G2 →ₗ[F] GT} [DecidableEq G1] [DecidableEq GT]

/-- C48: evaluation binding fails. For every polynomial that fits and every point, some proof for a
value different from the evaluation is accepted. -/
theorem C48_forgery (V : Env ρ F G1 G2 GT TF) (hE : V.E.Lawful e)
    (hd : ∀ b, 16 ≤ (V.digest b).length) (hse : V.multiexpSsm.SearchEnds)
    (hrb : TipaSsm.KzgEnds V.tipa V.digest V.serF)
    (k : ℕ) (srs : SRS G1 G2 × List G1) (g : G1) (h : G2)
    (α β : F) (x y : ℕ) (hs : IsSrs srs g h α β x y) (hx : x + 1 = 2 ^ (k + 1)) (ps : List (List F))
    (hps : ps.length ≤ x + 1) (hrow : ∀ p ∈ ps, p.getLast? ≠ some 0 ∧ p.length ≤ y + 1)
    (point : F × F) :
    ∃ com coms v value proof, commit V srs ps = .ok (com, coms) ∧ srs.1.verifierKey = .ok v ∧
      value ≠ evalAt (ps.map fun p => evalAt p point.2) point.1 ∧
      verify V v com point value proof = .ok true := by
  obtain ⟨px, py⟩ := point
  have hrow' : ∀ p ∈ ps, p.length ≤ y + 1 := fun p hp => (hrow p hp).2
  have hv := (hs.left.keys (by omega)).2
  obtain ⟨v, c, comT', proof, hv', hc, hT, hver⟩ := TipaSsm.forgery_shift (V := V.tipa)
    (multiexpSsm_lawful V hE) hE hd hse hrb V.X k srs.1 g h α β
    (hx ▸ hs.left) ((resize ps (x + 1) []).map fun p => polyEval p α • g) px
    _ PUnit.unit _ _ (by rw [List.length_map, resize_length, hx])
    (honest V hE srs g h α β x y hs ps hps hrow' px) g
  rw [hv] at hv'
  have hv' := Except.ok.inj hv'
  subst hv'
  have hT : comT' = ⟨[polyEval (combined ps px x y) α • g - c • g]⟩ := (Except.ok.inj hT).symm
  subst hT
  refine ⟨_, _, _, evalAt (ps.map fun p => evalAt p py) px - c,
    { ip := proof, yEvalComm := polyEval (combined ps px x y) α • g - c • g,
      kzg := polyEval (polyDivLinear (combined ps px x y) py) α • g },
    commit_eq V hE srs g h α β x y hs ps hps hrow, hv, ?_, ?_⟩
  · intro h0
    exact hc (sub_eq_self.mp h0)
  · rw [verify]
    simp only
    rw [hver]
    simp only [ok_bind]
    have hk := Kzg.complete hE g h (β • g) α py (combined ps px x y)
    rw [Kzg.verify_eq hE] at hk ⊢
    have : polyEval (combined ps px x y) α • g - c • g - (evalAt (ps.map fun p => evalAt p py) px - c) • g
        = polyEval (combined ps px x y) α • g - polyEval (combined ps px x y) py • g := by
      rw [eval_combined ps px py x y hps hrow', ← sub_smul, ← sub_smul, ← sub_smul]
      congr 1; ring
    simp only [this]
    rw [hk]; rfl

/-- C48: hence the full binding statement "every accepted value is the evaluation" is false for every
polynomial that fits. -/
theorem C48_binding_false (V : Env ρ F G1 G2 GT TF) (hE : V.E.Lawful e)
    (hd : ∀ b, 16 ≤ (V.digest b).length) (hse : V.multiexpSsm.SearchEnds)
    (hrb : TipaSsm.KzgEnds V.tipa V.digest V.serF)
    (k : ℕ) (srs : SRS G1 G2 × List G1) (g : G1) (h : G2)
    (α β : F) (x y : ℕ) (hs : IsSrs srs g h α β x y) (hx : x + 1 = 2 ^ (k + 1)) (ps : List (List F))
    (hps : ps.length ≤ x + 1) (hrow : ∀ p ∈ ps, p.getLast? ≠ some 0 ∧ p.length ≤ y + 1)
    (point : F × F) :
    ¬ ∀ com coms v value proof, commit V srs ps = .ok (com, coms) → srs.1.verifierKey = .ok v →
      verify V v com point value proof = .ok true →
      value = evalAt (ps.map fun p => evalAt p point.2) point.1 := by
  obtain ⟨com, coms, v, value, proof, h1, h2, h3, h4⟩ := C48_forgery V hE hd hse hrb k srs g h α β x y
    hs hx ps hps hrow point
  exact fun H => h3 (H com coms v value proof h1 h2 h4)

/-- C48, what remains: if the inner argument were sound, i.e. `yEvalComm` were the same as in the honest
opening proof, an accepted wrong value would give `(α - y)⁻¹ g`, computed from the two proofs. Full
statement: `verify = .ok true → value = evaluation` (false by `C48_forgery`). Missing: soundness of the
inner argument, which fails (C63). -/
theorem C48_kzg_part_partial (V : Env ρ F G1 G2 GT TF) (hE : V.E.Lawful e)
    (srs : SRS G1 G2 × List G1) (g : G1) (h : G2) (hg : g ≠ 0)
    (α β : F) (x y : ℕ) (hs : IsSrs srs g h α β x y) (ps : List (List F))
    (hps : ps.length ≤ x + 1) (hrow : ∀ p ∈ ps, p.length ≤ y + 1) (coms : List G1) (point : F × F)
    (com : GT) (value : F) (v : VerifierSRS G1 G2) (proof honest : PcProof F G1 G2 GT)
    (hnd : ∀ x, e x h = 0 → x = 0) (hv : srs.1.verifierKey = .ok v)
    (hopen : open_ V srs ps coms point = .ok honest) (hip : proof.yEvalComm = honest.yEvalComm)
    (hver : verify V v com point value proof = .ok true)
    (hne : value ≠ evalAt (ps.map fun p => evalAt p point.2) point.1) :
    α ≠ point.2 ∧ (evalAt (ps.map fun p => evalAt p point.2) point.1 - value)⁻¹ •
      (proof.kzg - honest.kzg) = (α - point.2)⁻¹ • g := by
  obtain ⟨px, py⟩ := point
  rw [(hs.left.keys (by omega)).2] at hv
  have hv := Except.ok.inj hv
  subst hv
  rw [open_eq V srs g h α β x y hs ps hps] at hopen
  obtain ⟨ip, -, hopen⟩ := bind_eq_ok.mp hopen
  have hopen := Except.ok.inj hopen
  subst hopen
  simp only at *
  rw [verify] at hver
  obtain ⟨b1, -, hver⟩ := bind_eq_ok.mp hver
  obtain ⟨b2, h2, hver⟩ := bind_eq_ok.mp hver
  have hb : b2 = true := by
    cases b1 <;> cases b2 <;> simp_all
  subst hb
  have hgood := Kzg.complete hE g h (β • g) α py (polyOf (combined ps px x y))
  rw [polyEval_polyOf, polyEval_polyOf, ← eval_combined ps px py x y hps hrow, ← hip] at hgood
  exact (Kzg.C38_double_opening hE g h (β • g) α py _ _ proof.yEvalComm _ _ hne h2 hgood).2 hnd hg

end Bivariate

namespace Univariate

variable {ρ F G1 G2 GT TF : Type} [Field F] [DecidableEq F] [AddCommGroup G1] [Module F G1]
  [AddCommGroup G2] [Module F G2] [AddCommGroup GT] [Module F GT] [Monoid TF]
  {e : G1 →ₗ[F] G2 →ₗ[F] GT}

theorem parseDegrees_eq {srs : SRS G1 G2 × List G1} {g : G1} {h : G2} {α β : F} {x y : ℕ}
    (hs : Bivariate.IsSrs srs g h α β x y) : parseDegrees srs = .ok (x, y) := by
  have h1 : srs.1.hBetaPowers.length = 2 * x + 1 := by
    rw [hs.left.hBeta]; simp; omega
  have h2 : srs.2.length = y + 1 := by rw [hs.kzg]; simp
  rw [parseDegrees, if_neg (by omega), h1, h2]
  congr 2
  omega

/-- C100: with an empty half of the key, committing and opening panic (subtraction overflow). -/
theorem C100_empty_key (V : Env ρ F G1 G2 GT TF) (srs : SRS G1 G2 × List G1)
    (h : srs.1.hBetaPowers = [] ∨ srs.2 = []) (p : List F) (coms : List G1) (z : F) :
    commit V srs p = panic' .overflow ∧ open_ V srs p coms z = panic' .overflow := by
  have : parseDegrees srs = panic' .overflow := by
    rw [parseDegrees, if_pos (by simpa using h)]
  rw [commit, open_, this]
  exact ⟨rfl, rfl⟩

/-- C46: `commit` and `open` ignore the coefficients beyond the capacity. -/
theorem C46_truncates (V : Env ρ F G1 G2 GT TF) (srs : SRS G1 G2 × List G1) (g : G1) (h : G2)
    (α β : F) (x y : ℕ) (hs : Bivariate.IsSrs srs g h α β x y) (p : List F) (coms : List G1) (z : F) :
    commit V srs p = commit V srs (p.take ((x + 1) * (y + 1))) ∧
    open_ V srs p coms z = open_ V srs (p.take ((x + 1) * (y + 1))) coms z := by
  rw [commit, commit, open_, open_, parseDegrees_eq hs]
  simp only [ok_bind]
  rw [C46_form_truncates x y p]
  exact ⟨rfl, rfl⟩

variable [DecidableEq G1] [DecidableEq GT]

/-- What the univariate calls do, for any polynomial. -/
theorem complete_truncated (V : Env ρ F G1 G2 GT TF) (hE : V.E.Lawful e)
    (hd : ∀ b, 16 ≤ (V.digest b).length) (k : ℕ) (srs : SRS G1 G2 × List G1) (g : G1) (h : G2)
    (α β : F) (x y d : ℕ) (hs : Bivariate.IsSrs srs g h α β x y) (hx : x + 1 = 2 ^ (k + 1))
    (hdeg : bivariateDegrees d = .ok (x, y)) (p : List F) (z : F) :
    ∃ com coms v, commit V srs p = .ok (com, coms) ∧ srs.1.verifierKey = .ok v ∧
      (open_ V srs p coms z = .error .diverge ∨
      ∃ proof, open_ V srs p coms z = .ok proof ∧
        verify V v d com z (evalAt (p.take ((x + 1) * (y + 1))) z) proof = .ok true) := by
  obtain ⟨rows, h1, h2, h3, h4⟩ := bivariateForm_eq x y p
  obtain ⟨com, coms, v, e1, e2, e3⟩ := Bivariate.C41_complete V hE hd k srs g h α β x y hs hx rows h2.le
    h3 (z ^ (y + 1), z)
  have hval : evalAt (rows.map fun p => evalAt p z) (z ^ (y + 1)) =
      evalAt (p.take ((x + 1) * (y + 1))) z := by
    rw [evalAt_eq, evalAt_eq]
    simp only [evalAt_eq]
    exact h4 z
  simp only [hval] at e3
  refine ⟨com, coms, v, ?_, e2, ?_⟩
  · rw [commit, parseDegrees_eq hs]
    simp only [ok_bind]
    rw [h1]; exact e1
  · rw [open_, parseDegrees_eq hs]
    simp only [ok_bind]
    rw [h1]
    simp only [ok_bind]
    simp only [verify, hdeg, ok_bind]
    exact e3

theorem setup_srs (V : Env ρ F G1 G2 GT TF) (s s' : ρ) (d : ℕ) (srs : SRS G1 G2 × List G1)
    (hd1 : 1 ≤ d) (hd2 : d + 1 ≤ 2 ^ 52) (hset : setup V s d = .ok (srs, s')) :
    ∃ (k x y : ℕ) (α β : F), bivariateDegrees d = .ok (x, y) ∧ x + 1 = 2 ^ (k + 1) ∧
      d + 1 ≤ (x + 1) * (y + 1) ∧ Bivariate.IsSrs srs V.g V.h α β x y := by
  obtain ⟨x, y, k, l, j, h1, h2, -, -, h3, -⟩ := C43_degrees d hd1 hd2
  obtain ⟨srs', α, β, s'', h4, h5⟩ := Bivariate.C41_setup V s x y
  rw [setup, h1] at hset
  simp only [ok_bind] at hset
  rw [h4] at hset
  simp only [Except.ok.injEq, Prod.mk.injEq] at hset
  obtain ⟨rfl, rfl⟩ := hset
  exact ⟨k, x, y, α, β, h1, h2, h3, h5⟩

/-- C45: completeness for degrees `1 … 2^52 - 1`, from `setup` on. -/
theorem C45_complete (V : Env ρ F G1 G2 GT TF) (hE : V.E.Lawful e)
    (hd : ∀ b, 16 ≤ (V.digest b).length) (s s' : ρ) (d : ℕ) (srs : SRS G1 G2 × List G1)
    (hd1 : 1 ≤ d) (hd2 : d + 1 ≤ 2 ^ 52) (hset : setup V s d = .ok (srs, s')) (p : List F)
    (hp : p.length ≤ d + 1) (z : F) :
    ∃ com coms v, commit V srs p = .ok (com, coms) ∧ srs.1.verifierKey = .ok v ∧
      (open_ V srs p coms z = .error .diverge ∨
      ∃ proof, open_ V srs p coms z = .ok proof ∧
        verify V v d com z (evalAt p z) proof = .ok true) := by
  obtain ⟨k, x, y, α, β, h1, h2, h3, h4⟩ := setup_srs V s s' d srs hd1 hd2 hset
  have := complete_truncated V hE hd k srs V.g V.h α β x y d h4 h2 h1 p z
  rwa [List.take_of_length_le (by omega)] at this

/-- C45: unconditional if the challenge searches end. -/
theorem C45_complete_total (V : Env ρ F G1 G2 GT TF) (hE : V.E.Lawful e)
    (hd : ∀ b, 16 ≤ (V.digest b).length) (hse : V.multiexpSsm.SearchEnds)
    (hrb : TipaSsm.KzgEnds V.tipa V.digest V.serF)
    (s s' : ρ) (d : ℕ) (srs : SRS G1 G2 × List G1)
    (hd1 : 1 ≤ d) (hd2 : d + 1 ≤ 2 ^ 52) (hset : setup V s d = .ok (srs, s')) (p : List F)
    (hp : p.length ≤ d + 1) (z : F) :
    ∃ com coms v proof, commit V srs p = .ok (com, coms) ∧ srs.1.verifierKey = .ok v ∧
      open_ V srs p coms z = .ok proof ∧ verify V v d com z (evalAt p z) proof = .ok true := by
  obtain ⟨com, coms, v, e1, e2, e3⟩ := C45_complete V hE hd s s' d srs hd1 hd2 hset p hp z
  rcases e3 with e3 | ⟨proof, e3⟩
  · exfalso
    obtain ⟨k, x, y, α, β, h1, h2, h3, h4⟩ := setup_srs V s s' d srs hd1 hd2 hset
    obtain ⟨rows, f1, f2, f3, f4⟩ := bivariateForm_eq x y p
    obtain ⟨com', coms', v', proof, g1, g2, g3, -⟩ := Bivariate.C41_complete_total V hE hd hse hrb k srs
      V.g V.h α β x y h4 h2 rows f2.le f3 (z ^ (y + 1), z)
    rw [commit, parseDegrees_eq h4] at e1
    simp only [ok_bind] at e1
    rw [f1] at e1
    simp only [ok_bind] at e1
    rw [g1] at e1
    simp only [Except.ok.injEq, Prod.mk.injEq] at e1
    obtain ⟨rfl, rfl⟩ := e1
    rw [open_, parseDegrees_eq h4] at e3
    simp only [ok_bind] at e3
    rw [f1] at e3
    simp only [ok_bind] at e3
    rw [g3] at e3
    simp at e3
  · exact ⟨com, coms, v, proof, e1, e2, e3⟩

/-- C45: for degree 0, `setup` panics. -/
theorem C45_setup_zero (V : Env ρ F G1 G2 GT TF) (s : ρ) :
    setup V s 0 = .error (.panic .divZero) := by
  rw [setup, C43_zero.1]; rfl

/-- C46: committing to a polynomial with too many coefficients succeeds, and the opening proof is
accepted for the value of the truncated polynomial. -/
theorem C46_oversized_accepted (V : Env ρ F G1 G2 GT TF) (hE : V.E.Lawful e)
    (hd : ∀ b, 16 ≤ (V.digest b).length) (s s' : ρ) (d : ℕ) (srs : SRS G1 G2 × List G1)
    (hd1 : 1 ≤ d) (hd2 : d + 1 ≤ 2 ^ 52) (hset : setup V s d = .ok (srs, s')) (p : List F) (z : F) :
    ∃ com coms v n, commit V srs p = .ok (com, coms) ∧ srs.1.verifierKey = .ok v ∧ d + 1 ≤ n ∧
      (open_ V srs p coms z = .error .diverge ∨
      ∃ proof, open_ V srs p coms z = .ok proof ∧
        verify V v d com z (evalAt (p.take n) z) proof = .ok true) := by
  obtain ⟨k, x, y, α, β, h1, h2, h3, h4⟩ := setup_srs V s s' d srs hd1 hd2 hset
  obtain ⟨com, coms, v, a, b, c⟩ := complete_truncated V hE hd k srs V.g V.h α β x y d h4 h2 h1 p z
  exact ⟨com, coms, v, _, a, b, h3, c⟩

/-- C46: hence two different polynomials have the same commitment. -/
theorem C46_collision (V : Env ρ F G1 G2 GT TF) (s s' : ρ) (d : ℕ) (srs : SRS G1 G2 × List G1)
    (hd1 : 1 ≤ d) (hd2 : d + 1 ≤ 2 ^ 52) (hset : setup V s d = .ok (srs, s')) :
    ∃ p q : List F, p ≠ q ∧ p.getLast? ≠ some 0 ∧ q.getLast? ≠ some 0 ∧
      commit V srs p = commit V srs q := by
  obtain ⟨k, x, y, α, β, h1, h2, h3, h4⟩ := setup_srs V s s' d srs hd1 hd2 hset
  set n := (x + 1) * (y + 1) with hn
  refine ⟨List.replicate n 1, List.replicate (n + 1) 1, ?_, ?_, ?_, ?_⟩
  · intro h
    have := congrArg List.length h
    simp at this
  · intro h
    have := List.mem_of_getLast? h
    rw [List.mem_replicate] at this
    exact one_ne_zero this.2.symm
  · intro h
    have := List.mem_of_getLast? h
    rw [List.mem_replicate] at this
    exact one_ne_zero this.2.symm
  · rw [(C46_truncates V srs V.g V.h α β x y h4 (List.replicate (n + 1) 1) [] 0).1, ← hn]
    congr 1
    simp

/-- C48: evaluation binding fails for the univariate scheme too. -/
theorem C48_forgery (V : Env ρ F G1 G2 GT TF) (hE : V.E.Lawful e)
    (hd : ∀ b, 16 ≤ (V.digest b).length) (hse : V.multiexpSsm.SearchEnds)
    (hrb : TipaSsm.KzgEnds V.tipa V.digest V.serF)
    (s s' : ρ) (d : ℕ) (srs : SRS G1 G2 × List G1)
    (hd1 : 1 ≤ d) (hd2 : d + 1 ≤ 2 ^ 52) (hset : setup V s d = .ok (srs, s')) (p : List F)
    (hp : p.length ≤ d + 1) (z : F) :
    ∃ com coms v value proof, commit V srs p = .ok (com, coms) ∧ srs.1.verifierKey = .ok v ∧
      value ≠ evalAt p z ∧ verify V v d com z value proof = .ok true := by
  obtain ⟨k, x, y, α, β, h1, h2, h3, h4⟩ := setup_srs V s s' d srs hd1 hd2 hset
  obtain ⟨rows, f1, f2, f3, f4⟩ := bivariateForm_eq x y p
  obtain ⟨com, coms, v, value, proof, g1, g2, g3, g4⟩ := Bivariate.C48_forgery V hE hd hse hrb k srs
    V.g V.h α β x y h4 h2 rows f2.le f3 (z ^ (y + 1), z)
  refine ⟨com, coms, v, value, proof, ?_, g2, ?_, ?_⟩
  · rw [commit, parseDegrees_eq h4]
    simp only [ok_bind]
    rw [f1]; exact g1
  · simp only [evalAt_eq] at g3 ⊢
    rwa [f4, List.take_of_length_le (by omega)] at g3
  · rw [verify, h1]; exact g4

end Univariate

/-! ## Examples -/

/-- C100 applied: a commitment key without powers of `g` for KZG. -/
example : Univariate.commit Toy.env (Toy.srs, []) ([1, 2, 3] : List Toy.F) = panic' .overflow ∧
    Univariate.open_ Toy.env (Toy.srs, []) ([1, 2, 3] : List Toy.F) [] 5 = panic' .overflow :=
  Univariate.C100_empty_key Toy.env (Toy.srs, []) (.inr rfl) _ _ _

/-- The degree split used by the crate's example size `d = 65535`. -/
example : ∃ x y, bivariateDegrees 65535 = .ok (x, y) ∧ 65536 ≤ (x + 1) * (y + 1) := by
  obtain ⟨x, y, k, l, j, h1, h2, h3, h4, h5, h6⟩ := C43_degrees 65535 (by norm_num) (by norm_num)
  exact ⟨x, y, h1, h5⟩

/-- C45 and C48 apply to `1 + 2 X + 3 X²` (degree bound 3) at the point 5, whose value is 86. -/
example : ∃ srs s' com coms v proof value proof', Univariate.setup Toy.env 11 3 = .ok (srs, s') ∧
    Univariate.commit Toy.env srs ([1, 2, 3] : List Toy.F) = .ok (com, coms) ∧
    srs.1.verifierKey = .ok v ∧
    Univariate.verify Toy.env v 3 com (5 : Toy.F) 86 proof = .ok true ∧
    value ≠ 86 ∧ Univariate.verify Toy.env v 3 com (5 : Toy.F) value proof' = .ok true := by
  have hval : evalAt ([1, 2, 3] : List Toy.F) 5 = 86 := by decide +kernel
  obtain ⟨x, y, k, l, j, h1, h2, -⟩ := C43_degrees 3 (by norm_num) (by norm_num)
  obtain ⟨srs, α, β, s', h4, h5⟩ := Bivariate.C41_setup Toy.env 11 x y
  have hset : Univariate.setup Toy.env 11 3 = .ok (srs, s') := by
    rw [Univariate.setup, h1]; exact h4
  have hse := searchEnds_of_digest Toy.env.multiexpSsm Toy.digest_length Toy.digest_ne_zero
  obtain ⟨com, coms, v, proof, a1, a2, a3, a4⟩ := Univariate.C45_complete_total Toy.env Toy.lawful
    Toy.digest_length hse Toy.ssmKzgEnds 11 s' 3 srs (by norm_num) (by norm_num) hset
    [1, 2, 3] (by decide) 5
  obtain ⟨com', coms', v', value, proof', b1, b2, b3, b4⟩ := Univariate.C48_forgery Toy.env Toy.lawful
    Toy.digest_length hse Toy.ssmKzgEnds 11 s' 3 srs (by norm_num) (by norm_num) hset
    [1, 2, 3] (by decide) 5
  rw [a1] at b1
  rw [a2] at b2
  obtain ⟨rfl, rfl⟩ := Prod.mk.inj (Except.ok.inj b1)
  have hvv := Except.ok.inj b2
  subst hvv
  rw [hval] at a4 b3
  exact ⟨srs, s', com, coms, v, proof, value, proof', hset, a1, a2, a4, b3, b4⟩

end Ripp
