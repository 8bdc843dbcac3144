import Verif.Model.Tests
import Verif.Props.Programs
import Verif.Props.Tests

/-!
# What a test or program that ends has checked: C141

Property statements are in `properties.jsonl`. Nothing is assumed about the pairing engine, the hash function or the
argument: the conclusions hold for any implementation on which the test passes.
-/

set_option linter.unusedSectionVars false
set_option linter.unusedVariables false

namespace Ripp

theorem unwrapRes_eq_ok {α : Type} {x : Res α} {a : α} : unwrapRes x = .ok a ↔ x = .ok a := by
  rcases x with f | x
  · cases f <;> simp [unwrapRes]
  · simp [unwrapRes]

theorem of_unwrapRes_bind {α β : Type} {x : Res α} {f : α → Res β} {b : β} (h : (unwrapRes x >>= f) = .ok b) :
    ∃ a, x = .ok a ∧ f a = .ok b := by
  obtain ⟨a, h1, h2⟩ := bind_eq_ok.mp h
  exact ⟨a, unwrapRes_eq_ok.mp h1, h2⟩

theorem sliceTo_eq_ok {α : Type} {l l' : List α} {n : ℕ} (h : sliceTo l n = .ok l') : n ≤ l.length ∧ l' = l.take n := by
  by_cases hn : n ≤ l.length
  · rw [sliceTo_of_le l n hn] at h
    cases h
    exact ⟨hn, rfl⟩
  · rw [sliceTo, if_neg hn] at h
    cases h

theorem of_assert_unwrapRes {x : Res Bool} {u : Unit} (h : (unwrapRes x >>= fun b => assert b) = .ok u) : x = .ok true := by
  obtain ⟨b, h1, h2⟩ := of_unwrapRes_bind h
  rw [assert_eq_ok] at h2
  rw [h1, h2]

section Commitments
variable {ρ K M O : Type} [DecidableEq O]

/-- The commitment test: the message is accepted, the other message is rejected, and the message with one more entry
gives an error. -/
theorem C141_commitments (C : Commitment ρ K M O) (rand : ρ → M × ρ) (n : ℕ) (s : ρ)
    (h : commitmentTest C rand n s = .ok ()) :
    ∃ keys s₁ com m, C.setup s n = .ok (keys, s₁) ∧
      C.commit keys (drawPairs rand rand n s₁).1.1 = .ok com ∧
      C.verify keys (drawPairs rand rand n s₁).1.1 com = .ok true ∧
      C.verify keys (drawPairs rand rand n s₁).1.2 com = .ok false ∧
      isErr (C.verify keys ((drawPairs rand rand n s₁).1.1 ++ [m]) com) = .ok true := by
  rw [commitmentTest] at h
  obtain ⟨⟨keys, s₁⟩, h1, h⟩ := of_unwrapRes_bind h
  obtain ⟨com, h2, h⟩ := of_unwrapRes_bind h
  obtain ⟨b, h3, h⟩ := of_unwrapRes_bind h
  obtain ⟨_, hb, h⟩ := bind_eq_ok.mp h
  obtain ⟨b', h4, h⟩ := of_unwrapRes_bind h
  obtain ⟨_, hb', h⟩ := bind_eq_ok.mp h
  obtain ⟨b'', h5, h⟩ := bind_eq_ok.mp h
  rw [assert_eq_ok] at hb hb' h
  rw [hb] at h3
  rw [h] at h5
  have hb'' : b' = false := by simpa using hb'
  rw [hb''] at h4
  exact ⟨keys, s₁, com, _, h1, h2, h3, h4, h5⟩

/-- A scheme whose verifier accepts everything does not pass. -/
example (C : Commitment ρ K M O) (hC : ∀ k m o, C.verify k m o = .ok true) (rand : ρ → M × ρ) (n : ℕ) (s : ρ) :
    commitmentTest C rand n s ≠ .ok () := by
  intro h
  obtain ⟨keys, s₁, com, m, -, -, -, h, -⟩ := C141_commitments C rand n s h
  rw [hC] at h
  simp at h

end Commitments

section
variable {ρ F MA MB T KA KB KT OA OB OT : Type} [Field F] [DecidableEq F]
  [AddCommGroup MA] [Module F MA] [AddCommGroup MB] [Module F MB]
  [AddCommGroup KA] [Module F KA] [AddCommGroup KB] [Module F KB]
  [DecidableEq T] [DecidableEq OA] [DecidableEq OB] [DecidableEq OT]
  [Add OA] [SMul F OA] [Add OB] [SMul F OB] [Add OT] [SMul F OT]

/-- The GIPA tests: the proof for the drawn messages is accepted for their commitments. -/
theorem C141_gipa (P : Gipa ρ F MA MB T KA KB KT OA OB OT) (msgs : ℕ → ρ → (List MA × List MB) × ρ) (n : ℕ) (s : ρ)
    (h : gipaTest P msgs n s = .ok ()) :
    ∃ keys s₁ comA comB t comT proof, P.setup s n = .ok (keys, s₁) ∧
      P.lmc.commit keys.1 (msgs n s₁).1.1 = .ok comA ∧ P.rmc.commit keys.2.1 (msgs n s₁).1.2 = .ok comB ∧
      P.ip (msgs n s₁).1.1 (msgs n s₁).1.2 = .ok t ∧ P.ipc.commit [keys.2.2] [t] = .ok comT ∧
      P.prove (msgs n s₁).1.1 (msgs n s₁).1.2 t keys.1 keys.2.1 keys.2.2 (comA, comB, comT) = .ok proof ∧
      P.verify keys.1 keys.2.1 keys.2.2 (comA, comB, comT) proof = .ok true := by
  rw [gipaTest] at h
  obtain ⟨⟨keys, s₁⟩, h1, h⟩ := of_unwrapRes_bind h
  obtain ⟨b, h2, h⟩ := bind_eq_ok.mp h
  rw [assert_eq_ok] at h
  rw [gipaRun] at h2
  obtain ⟨comA, h3, h2⟩ := of_unwrapRes_bind h2
  obtain ⟨comB, h4, h2⟩ := of_unwrapRes_bind h2
  obtain ⟨t, h5, h2⟩ := of_unwrapRes_bind h2
  obtain ⟨comT, h6, h2⟩ := of_unwrapRes_bind h2
  obtain ⟨proof, h7, h2⟩ := of_unwrapRes_bind h2
  rw [unwrapRes_eq_ok, h] at h2
  exact ⟨keys, s₁, comA, comB, t, comT, proof, h1, h3, h4, h5, h6, h7, h2⟩

end

section
variable {ρ F MA MB T OA OB OT KT G1 G2 GT TF : Type} [Field F] [DecidableEq F]
  [AddCommGroup MA] [Module F MA] [AddCommGroup MB] [Module F MB]
  [AddCommGroup G1] [Module F G1] [AddCommGroup G2] [Module F G2] [Monoid TF]
  [DecidableEq GT] [DecidableEq OA] [DecidableEq OB] [DecidableEq OT]
  [Add OA] [SMul F OA] [Add OB] [SMul F OB] [Add OT] [SMul F OT]

/-- The TIPA tests. -/
theorem C141_tipa (V : Env ρ F G1 G2 GT TF) (P : Gipa ρ F MA MB T G2 G1 KT OA OB OT)
    (msgs : ℕ → ρ → (List MA × List MB) × ρ) (n : ℕ) (s : ρ) (h : tipaTest V P msgs n s = .ok ()) :
    ∃ srs kt s₁ v comA comB t comT proof, tipaSetup V.randF V.g V.h P.ipc s n = .ok ((srs, kt), s₁) ∧
      srs.verifierKey = .ok v ∧
      P.lmc.commit srs.commitmentKeys.1 (msgs n s₁).1.1 = .ok comA ∧
      P.rmc.commit srs.commitmentKeys.2 (msgs n s₁).1.2 = .ok comB ∧
      P.ip (msgs n s₁).1.1 (msgs n s₁).1.2 = .ok t ∧ P.ipc.commit [kt] [t] = .ok comT ∧
      Tipa.prove V.tipa P srs (msgs n s₁).1.1 (msgs n s₁).1.2 srs.commitmentKeys.1 srs.commitmentKeys.2 kt = .ok proof ∧
      Tipa.verify V.tipa P v kt (comA, comB, comT) proof = .ok true := by
  rw [tipaTest] at h
  obtain ⟨⟨⟨srs, kt⟩, s₁⟩, h1, h⟩ := of_unwrapRes_bind h
  obtain ⟨b, h2, h⟩ := bind_eq_ok.mp h
  rw [assert_eq_ok] at h
  rw [tipaRun] at h2
  obtain ⟨v, hv, h2⟩ := bind_eq_ok.mp h2
  obtain ⟨comA, h3, h2⟩ := of_unwrapRes_bind h2
  obtain ⟨comB, h4, h2⟩ := of_unwrapRes_bind h2
  obtain ⟨t, h5, h2⟩ := of_unwrapRes_bind h2
  obtain ⟨comT, h6, h2⟩ := of_unwrapRes_bind h2
  obtain ⟨proof, h7, h2⟩ := of_unwrapRes_bind h2
  rw [unwrapRes_eq_ok, h] at h2
  exact ⟨srs, kt, s₁, v, comA, comB, t, comT, proof, h1, hv, h3, h4, h5, h6, h7, h2⟩

/-- The test with a shifted reference string: also the shifted key opens the commitment. -/
theorem C141_shift (V : Env ρ F G1 G2 GT TF) (P : Gipa ρ F MA MB T G2 G1 KT OA OB OT)
    (msgs : ℕ → ρ → (List MA × List MB) × ρ) (n : ℕ) (s : ρ) (h : tipaShiftTest V P msgs n s = .ok ()) :
    ∃ srs kt s₁ v comA comB r rVec ma' ckA' t comT proof,
      tipaSetup V.randF V.g V.h P.ipc s n = .ok ((srs, kt), s₁) ∧ srs.verifierKey = .ok v ∧
      P.lmc.commit srs.commitmentKeys.1 (msgs n s₁).1.1 = .ok comA ∧
      P.rmc.commit srs.commitmentKeys.2 (msgs n s₁).1.2 = .ok comB ∧
      r = (V.randF (msgs n s₁).2).1 ∧ structuredScalarPower n r = .ok rVec ∧
      shiftBoth rVec (msgs n s₁).1.1 srs.commitmentKeys.1 = .ok (ma', ckA') ∧
      P.ip ma' (msgs n s₁).1.2 = .ok t ∧ P.ipc.commit [kt] [t] = .ok comT ∧
      P.lmc.verify ckA' ma' comA = .ok true ∧
      Tipa.proveWithShift V.tipa P srs ma' (msgs n s₁).1.2 ckA' srs.commitmentKeys.2 kt r = .ok proof ∧
      Tipa.verifyWithShift V.tipa P v kt (comA, comB, comT) proof r = .ok true := by
  rw [tipaShiftTest] at h
  obtain ⟨⟨⟨srs, kt⟩, s₁⟩, h1, h⟩ := of_unwrapRes_bind h
  obtain ⟨⟨b, s'⟩, h2, h⟩ := bind_eq_ok.mp h
  have h : b = true := assert_eq_ok.mp h
  rw [tipaShiftRun] at h2
  obtain ⟨v, hv, h2⟩ := bind_eq_ok.mp h2
  obtain ⟨comA, h3, h2⟩ := of_unwrapRes_bind h2
  obtain ⟨comB, h4, h2⟩ := of_unwrapRes_bind h2
  obtain ⟨rVec, h5, h2⟩ := bind_eq_ok.mp h2
  obtain ⟨⟨ma', ckA'⟩, h6, h2⟩ := bind_eq_ok.mp h2
  obtain ⟨t, h7, h2⟩ := of_unwrapRes_bind h2
  obtain ⟨comT, h8, h2⟩ := of_unwrapRes_bind h2
  rw [if_pos rfl] at h2
  obtain ⟨b', h9, h2⟩ := of_unwrapRes_bind h2
  obtain ⟨_, hb', h2⟩ := bind_eq_ok.mp h2
  rw [assert_eq_ok] at hb'
  rw [hb'] at h9
  obtain ⟨proof, h10, h2⟩ := of_unwrapRes_bind h2
  obtain ⟨b'', h11, h2⟩ := of_unwrapRes_bind h2
  simp only [pure_eq_ok, Except.ok.injEq, Prod.mk.injEq] at h2
  rw [h2.1, h] at h11
  exact ⟨srs, kt, s₁, v, comA, comB, _, rVec, ma', ckA', t, comT, proof, h1, hv, h3, h4, rfl, h5, h6, h7, h8, h9, h10,
    h11⟩

end

section
variable {ρ F MA T OA OT K KT G1 G2 GT TF : Type} [Field F] [DecidableEq F]
  [AddCommGroup MA] [Module F MA] [AddCommGroup K] [Module F K]
  [AddCommGroup G1] [Module F G1] [AddCommGroup G2] [Module F G2] [Monoid TF]
  [DecidableEq GT] [DecidableEq OA] [DecidableEq OT]
  [Add OA] [SMul F OA] [Add OT] [SMul F OT]

/-- The tests of the structured-message arguments. -/
theorem C141_ssm (V : Env ρ F G1 G2 GT TF) (P : Gipa ρ F MA F T G2 Placeholder KT OA F OT) (randA : ρ → MA × ρ)
    (n : ℕ) (s : ρ) (h : tipaSsmTest V P randA n s = .ok ()) :
    ∃ srs kt s₁ v ma s₂ b mb comA t comT proof, tipaSetup V.randF V.g V.h P.ipc s n = .ok ((srs, kt), s₁) ∧
      srs.verifierKey = .ok v ∧ randomGenerators randA s₁ n = (ma, s₂) ∧ b = (V.randF s₂).1 ∧
      structuredScalarPower n b = .ok mb ∧ P.lmc.commit srs.commitmentKeys.1 ma = .ok comA ∧ P.ip ma mb = .ok t ∧
      P.ipc.commit [kt] [t] = .ok comT ∧ TipaSsm.prove V.tipa P srs ma mb srs.commitmentKeys.1 kt = .ok proof ∧
      TipaSsm.verify V.X V.tipa P v kt comA comT b proof = .ok true := by
  rw [tipaSsmTest] at h
  obtain ⟨⟨⟨srs, kt⟩, s₁⟩, h1, h⟩ := of_unwrapRes_bind h
  obtain ⟨mb, h2, h⟩ := bind_eq_ok.mp h
  obtain ⟨b, h3, h⟩ := bind_eq_ok.mp h
  rw [assert_eq_ok] at h
  rw [tipaSsmRun] at h3
  obtain ⟨v, hv, h3⟩ := bind_eq_ok.mp h3
  obtain ⟨comA, h4, h3⟩ := of_unwrapRes_bind h3
  obtain ⟨t, h5, h3⟩ := of_unwrapRes_bind h3
  obtain ⟨comT, h6, h3⟩ := of_unwrapRes_bind h3
  obtain ⟨proof, h7, h3⟩ := of_unwrapRes_bind h3
  rw [unwrapRes_eq_ok, h] at h3
  exact ⟨srs, kt, s₁, v, _, _, _, mb, comA, t, comT, proof, h1, hv, rfl, rfl, h2, h4, h5, h6, h7, h3⟩

@[inherit_doc C141_ssm]
theorem C141_gipa_ssm (X : Exec) (P : Gipa ρ F MA F T K Placeholder KT OA F OT) (randA : ρ → MA × ρ)
    (randF : ρ → F × ρ) (n : ℕ) (s : ρ) (h : gipaSsmTest X P randA randF n s = .ok ()) :
    ∃ ck kt s₁ ma s₂ b mb comA t comT proof, GipaSsm.setup P.lmc P.ipc s n = .ok ((ck, kt), s₁) ∧
      randomGenerators randA s₁ n = (ma, s₂) ∧ b = (randF s₂).1 ∧ structuredScalarPower n b = .ok mb ∧
      P.lmc.commit ck ma = .ok comA ∧ P.ip ma mb = .ok t ∧ P.ipc.commit [kt] [t] = .ok comT ∧
      GipaSsm.prove P ma mb ck kt = .ok proof ∧ GipaSsm.verify X P ck kt comA comT b proof = .ok true := by
  rw [gipaSsmTest] at h
  obtain ⟨⟨⟨ck, kt⟩, s₁⟩, h1, h⟩ := of_unwrapRes_bind h
  obtain ⟨mb, h2, h⟩ := bind_eq_ok.mp h
  obtain ⟨comA, h4, h⟩ := of_unwrapRes_bind h
  obtain ⟨t, h5, h⟩ := of_unwrapRes_bind h
  obtain ⟨comT, h6, h⟩ := of_unwrapRes_bind h
  obtain ⟨proof, h7, h⟩ := of_unwrapRes_bind h
  exact ⟨ck, kt, s₁, _, _, _, mb, comA, t, comT, proof, h1, rfl, rfl, h2, h4, h5, h6, h7, of_assert_unwrapRes h⟩

end

section
variable {ρ F G1 G2 GT TF : Type} [Field F] [DecidableEq F] [AddCommGroup G1] [Module F G1]
  [AddCommGroup G2] [Module F G2] [AddCommGroup GT] [Module F GT] [Monoid TF] [DecidableEq G1] [DecidableEq G2]
  [DecidableEq GT]

/-- The tests of the bivariate commitments: the opening is accepted for the value of the drawn polynomial at the drawn
point. -/
theorem C141_bivariate (V : Env ρ F G1 G2 GT TF) (x y : ℕ) (s : ρ) (h : bivariateTest V x y s = .ok ()) :
    ∃ srs s₁ v ps s₂ com coms px py proof, Bivariate.setup V s x y = .ok (srs, s₁) ∧ srs.1.verifierKey = .ok v ∧
      drawRows V.randF (y + 1) (x + 1) s₁ = (ps, s₂) ∧ Bivariate.commit V srs ps = .ok (com, coms) ∧
      px = (V.randF s₂).1 ∧ py = (V.randF (V.randF s₂).2).1 ∧
      Bivariate.open_ V srs ps coms (px, py) = .ok proof ∧
      Bivariate.verify V v com (px, py) (bivariateEval ps px py) proof = .ok true := by
  rw [bivariateTest] at h
  obtain ⟨⟨srs, s₁⟩, h1, h⟩ := of_unwrapRes_bind h
  obtain ⟨v, hv, h⟩ := bind_eq_ok.mp h
  obtain ⟨⟨com, coms⟩, h2, h⟩ := of_unwrapRes_bind h
  obtain ⟨proof, h3, h⟩ := of_unwrapRes_bind h
  exact ⟨srs, s₁, v, _, _, com, coms, _, _, proof, h1, hv, rfl, h2, rfl, rfl, h3, of_assert_unwrapRes h⟩

@[inherit_doc C141_bivariate]
theorem C141_transparent_bivariate (V : Env ρ F G1 G2 GT TF) (x y : ℕ) (s : ρ) (h : tBivariateTest V x y s = .ok ()) :
    ∃ ck s₁ ps s₂ com coms px py proof, TBivariate.setup V s x y = .ok (ck, s₁) ∧
      drawRows V.randF (y + 1) (x + 1) s₁ = (ps, s₂) ∧ TBivariate.commit V ck ps = .ok (com, coms) ∧
      px = (V.randF s₂).1 ∧ py = (V.randF (V.randF s₂).2).1 ∧
      TBivariate.open_ V ck ps coms (px, py) = .ok proof ∧
      TBivariate.verify V ck com (px, py) (bivariateEval ps px py) proof = .ok true := by
  rw [tBivariateTest] at h
  obtain ⟨⟨ck, s₁⟩, h1, h⟩ := of_unwrapRes_bind h
  obtain ⟨⟨com, coms⟩, h2, h⟩ := of_unwrapRes_bind h
  obtain ⟨proof, h3, h⟩ := of_unwrapRes_bind h
  exact ⟨ck, s₁, _, _, com, coms, _, _, proof, h1, rfl, h2, rfl, rfl, h3, of_assert_unwrapRes h⟩

/-- The tests of the univariate commitments. -/
theorem C141_univariate (V : Env ρ F G1 G2 GT TF) (d : ℕ) (s : ρ) (h : univariateTest V d s = .ok ()) :
    ∃ srs s₁ v cs s₂ com coms z proof, Univariate.setup V s d = .ok (srs, s₁) ∧ srs.1.verifierKey = .ok v ∧
      randomGenerators V.randF s₁ (d + 1) = (cs, s₂) ∧ Univariate.commit V srs (polyOf cs) = .ok (com, coms) ∧
      z = (V.randF s₂).1 ∧ Univariate.open_ V srs (polyOf cs) coms z = .ok proof ∧
      Univariate.verify V v d com z (polyEval (polyOf cs) z) proof = .ok true := by
  rw [univariateTest] at h
  obtain ⟨⟨srs, s₁⟩, h1, h⟩ := of_unwrapRes_bind h
  obtain ⟨v, hv, h⟩ := bind_eq_ok.mp h
  obtain ⟨⟨com, coms⟩, h2, h⟩ := of_unwrapRes_bind h
  obtain ⟨proof, h3, h⟩ := of_unwrapRes_bind h
  exact ⟨srs, s₁, v, _, _, com, coms, _, proof, h1, hv, rfl, h2, rfl, h3, of_assert_unwrapRes h⟩

@[inherit_doc C141_univariate]
theorem C141_transparent_univariate (V : Env ρ F G1 G2 GT TF) (d : ℕ) (s : ρ) (h : tUnivariateTest V d s = .ok ()) :
    ∃ ck s₁ cs s₂ com coms z proof, TUnivariate.setup V s d = .ok (ck, s₁) ∧
      randomGenerators V.randF s₁ (d + 1) = (cs, s₂) ∧ TUnivariate.commit V ck (polyOf cs) = .ok (com, coms) ∧
      z = (V.randF s₂).1 ∧ TUnivariate.open_ V ck (polyOf cs) coms z = .ok proof ∧
      TUnivariate.verify V ck com z (polyEval (polyOf cs) z) proof = .ok true := by
  rw [tUnivariateTest] at h
  obtain ⟨⟨ck, s₁⟩, h1, h⟩ := of_unwrapRes_bind h
  obtain ⟨⟨com, coms⟩, h2, h⟩ := of_unwrapRes_bind h
  obtain ⟨proof, h3, h⟩ := of_unwrapRes_bind h
  exact ⟨ck, s₁, _, _, com, coms, _, proof, h1, rfl, h2, rfl, h3, of_assert_unwrapRes h⟩

end

section
variable {σ τ F G1 G2 GT TF : Type} [Field F] [DecidableEq F] [AddCommGroup G1] [Module F G1]
  [AddCommGroup G2] [Module F G2] [AddCommGroup GT] [Module F GT] [Monoid TF] [DecidableEq GT]

/-- The SIPP test. -/
theorem C141_sipp (V : Sipp.Env σ F G1 G2 GT TF) (rand1 : τ → G1 × τ) (rand2 : τ → G2 × τ) (randF : τ → F × τ) (n : ℕ)
    (s : τ) (h : sippTest V rand1 rand2 randF n s = .ok ()) :
    ∃ a b r z proof, drawTriples rand1 rand2 randF n s = (a, b, r) ∧
      Sipp.productOfPairingsWithCoeffs V a b r = .ok z ∧ Sipp.prove V a b r z = .ok proof ∧
      Sipp.verify V a b r z proof = .ok true := by
  rw [sippTest] at h
  obtain ⟨z, h1, h⟩ := bind_eq_ok.mp h
  obtain ⟨_, -, h⟩ := bind_eq_ok.mp h
  obtain ⟨_, -, h⟩ := bind_eq_ok.mp h
  obtain ⟨proof, h2, h⟩ := of_unwrapRes_bind h
  obtain ⟨_, -, h⟩ := bind_eq_ok.mp h
  obtain ⟨_, -, h⟩ := bind_eq_ok.mp h
  exact ⟨_, _, _, z, proof, rfl, h1, h2, of_assert_unwrapRes h⟩

end

namespace Bench

theorem verifyMany_eq_ok {v : Res Bool} {u : Unit} : verifyMany v = .ok u ↔ v = .ok true := by
  constructor
  · intro h
    rw [verifyMany, List.replicate_succ] at h
    obtain ⟨_, h1, _⟩ := bind_eq_ok.mp h
    exact of_assert_unwrapRes h1
  · rintro rfl
    rfl

theorem forM_eq_ok {α : Type} {f : α → Res PUnit} {l : List α} (h : l.forM f = .ok ()) : ∀ x ∈ l, f x = .ok () := by
  induction l with
  | nil => simp
  | cons x l ih =>
    obtain ⟨⟨⟩, h1, h2⟩ := bind_eq_ok.mp h
    intro y hy
    rcases List.mem_cons.mp hy with rfl | hy
    · exact h1
    · exact ih h2 y hy

section
variable {σ F G1 G2 GT TF : Type} [Field F] [DecidableEq F] [AddCommGroup G1] [Module F G1]
  [AddCommGroup G2] [Module F G2] [AddCommGroup GT] [Module F GT] [Monoid TF] [DecidableEq GT]

/-- One step of the SIPP example ends exactly when the proof for the product is accepted. -/
theorem C141_scaling (V : Sipp.Env σ F G1 G2 GT TF) (a : List G1) (b : List G2) (r : List F) :
    scalingStep V a b r = .ok () ↔ ∃ z proof, Sipp.productOfPairingsWithCoeffs V a b r = .ok z ∧
      Sipp.prove V a b r z = .ok proof ∧ Sipp.verify V a b r z proof = .ok true := by
  constructor
  · intro h
    rw [scalingStep] at h
    obtain ⟨z, h1, h⟩ := bind_eq_ok.mp h
    obtain ⟨proof, h2, h⟩ := of_unwrapRes_bind h
    exact ⟨z, proof, h1, h2, of_assert_unwrapRes h⟩
  · rintro ⟨z, proof, h1, h2, h3⟩
    rw [scalingStep, h1]
    show (unwrapRes (Sipp.prove V a b r z) >>= fun p => _) = _
    rw [h2]
    show (unwrapRes (Sipp.verify V a b r z proof) >>= fun p => _) = _
    rw [h3]
    rfl

/-- In every round of the loops the step has been done for `2^i` entries of each vector, if the shuffles permute. -/
theorem C141_scaling_loop (V : Sipp.Env σ F G1 G2 GT TF) (shuffleA : ℕ → List G1 → List G1)
    (shuffleB : ℕ → List G2 → List G2) (hA : ∀ n l, (shuffleA n l).Perm l) (hB : ∀ n l, (shuffleB n l).Perm l)
    (r : List F) (is : List ℕ) (a : List G1) (b : List G2)
    (h : scalingRun V shuffleA shuffleB r is a b = .ok ()) :
    ∀ i ∈ is, ∃ a' b', a'.Subperm a ∧ a'.length = 2 ^ i ∧ b'.Subperm b ∧ b'.length = 2 ^ i ∧
      scalingStep V a' b' r = .ok () := by
  have hloop : ∀ n (x : List G1) (y : List G2) p, scalingLoop V shuffleA shuffleB r n x y = .ok p →
      p.1.Perm x ∧ p.2.Perm y := by
    intro n
    induction n with
    | zero =>
      rintro x y p h
      rw [scalingLoop] at h
      cases h
      exact ⟨.refl _, .refl _⟩
    | succ n ih =>
      rintro x y p h
      rw [scalingLoop] at h
      obtain ⟨⟨⟩, -, h⟩ := bind_eq_ok.mp h
      obtain ⟨h1, h2⟩ := ih _ _ _ h
      exact ⟨h1.trans (hA n x), h2.trans (hB n y)⟩
  induction is generalizing a b with
  | nil => simp
  | cons i is ih =>
    rw [scalingRun] at h
    obtain ⟨aS, h1, h⟩ := bind_eq_ok.mp h
    obtain ⟨bS, h2, h⟩ := bind_eq_ok.mp h
    obtain ⟨la, rfl⟩ := sliceTo_eq_ok h1
    obtain ⟨lb, rfl⟩ := sliceTo_eq_ok h2
    obtain ⟨⟨a', b'⟩, h3, h4⟩ := bind_eq_ok.mp h
    intro j hj
    rcases List.mem_cons.mp hj with rfl | hj
    · obtain ⟨m, hm⟩ : ∃ m, numIters j = m + 1 := by
        refine ⟨numIters j - 1, ?_⟩
        unfold numIters
        split_ifs <;> rfl
      rw [hm, scalingLoop] at h3
      obtain ⟨⟨⟩, h4, -⟩ := bind_eq_ok.mp h3
      refine ⟨_, _, (hA _ _).subperm.trans (List.take_sublist _ _).subperm, ?_,
        (hB _ _).subperm.trans (List.take_sublist _ _).subperm, ?_, h4⟩
      · rw [(hA _ _).length_eq, List.length_take, Nat.min_eq_left la]
      · rw [(hB _ _).length_eq, List.length_take, Nat.min_eq_left lb]
    · obtain ⟨p1, p2⟩ := hloop _ _ _ _ h3
      have q1 : (a' ++ a.drop (2 ^ i)).Perm a := by
        have := p1.append_right (a.drop (2 ^ i))
        rwa [List.take_append_drop] at this
      have q2 : (b' ++ b.drop (2 ^ i)).Perm b := by
        have := p2.append_right (b.drop (2 ^ i))
        rwa [List.take_append_drop] at this
      obtain ⟨x, y, s1, s2, s3, s4, s5⟩ := ih _ _ h4 j hj
      exact ⟨x, y, s1.trans q1.subperm, s2, s3.trans q2.subperm, s4, s5⟩

/-- All entries of the vectors of the example are the same, so the shuffles change nothing: for each size `2^i` the program
checks one statement only, the one that `2^i` copies of `2g` and `2h` with the coefficient `x` give `4x·2^i · e(g, h)`. -/
theorem C141_scaling_program {V : Sipp.Env σ F G1 G2 GT TF} {e : G1 →ₗ[F] G2 →ₗ[F] GT} (hE : V.E.Lawful e)
    (shuffleA : ℕ → List G1 → List G1) (shuffleB : ℕ → List G2 → List G2) (hA : ∀ n l, (shuffleA n l).Perm l)
    (hB : ∀ n l, (shuffleB n l).Perm l) (g : G1) (h : G2) (x : F) (parse : String → Option ℕ) (prog lo' hi' dir : String)
    (rest : List String) (lo hi : ℕ) (hlo : parse lo' = some lo) (hhi : parse hi' = some hi)
    (hok : scalingMain V shuffleA shuffleB g h x parse (prog :: lo' :: hi' :: dir :: rest) = .ok ()) :
    ∀ i, lo ≤ i → i ≤ hi → ∃ proof,
      Sipp.prove V (List.replicate (2 ^ i) (g + g)) (List.replicate (2 ^ i) (h + h)) (List.replicate (2 ^ hi) x)
        ((4 * x * 2 ^ i) • e g h) = .ok proof ∧
      Sipp.verify V (List.replicate (2 ^ i) (g + g)) (List.replicate (2 ^ i) (h + h)) (List.replicate (2 ^ hi) x)
        ((4 * x * 2 ^ i) • e g h) proof = .ok true := by
  intro i h1 h2
  rw [scalingMain, C94_scaling parse prog lo' hi' dir rest lo hi hlo hhi] at hok
  rw [ok_bind] at hok
  obtain ⟨n, hn, hok⟩ := bind_eq_ok.mp hok
  have hmem : i ∈ (List.range (hi + 1)).drop lo := by
    rw [List.mem_iff_getElem]
    refine ⟨i - lo, by simp; omega, ?_⟩
    simp only [List.getElem_drop, List.getElem_range]
    omega
  obtain ⟨a, b, sa, la, sb, lb, hstep⟩ := C141_scaling_loop V shuffleA shuffleB hA hB _ _ _ _ hok i hmem
  have hle : 2 ^ i ≤ n := by
    have := sa.length_le
    rwa [la, List.length_replicate] at this
  have hn' : n = 2 ^ hi := by
    unfold shiftCount at hn
    split_ifs at hn
    · cases hn; rfl
    case neg => cases hn
    · cases hn
      have : 0 < 2 ^ i := by positivity
      omega
  subst hn'
  have ea : a = List.replicate (2 ^ i) (g + g) := by
    rw [List.eq_replicate_iff]
    exact ⟨la, fun y hy => List.eq_of_mem_replicate (sa.subset hy)⟩
  have eb : b = List.replicate (2 ^ i) (h + h) := by
    rw [List.eq_replicate_iff]
    exact ⟨lb, fun y hy => List.eq_of_mem_replicate (sb.subset hy)⟩
  subst ea eb
  rw [List.length_replicate] at hstep
  obtain ⟨z, proof, hz, hp, hv⟩ := (C141_scaling V _ _ _).mp hstep
  rw [Sipp.C54_with_coeffs hE _ _ _ (by simp) (by simpa using hle)] at hz
  have hval : Sipp.product e (List.replicate (2 ^ i) (g + g)) (List.replicate (2 ^ i) (h + h))
      (List.replicate (2 ^ hi) x) = (4 * x * 2 ^ i) • e g h := by
    have key : ∀ m k : ℕ, m ≤ k → Spec.dot (fun (p : G1 × G2) r => r • e p.1 p.2)
        ((List.replicate m (g + g)).zip (List.replicate m (h + h))) (List.replicate k x) =
          (4 * x * (m : F)) • e g h := by
      intro m
      induction m with
      | zero => intro k _; simp
      | succ m ih =>
        intro k hk
        obtain ⟨k, rfl⟩ : ∃ k', k = k' + 1 := ⟨k - 1, by omega⟩
        rw [List.replicate_succ, List.replicate_succ, List.replicate_succ, List.zip_cons_cons, Spec.dot_cons,
          ih k (by omega)]
        simp only [map_add, LinearMap.add_apply, Nat.cast_add, Nat.cast_one]
        module
    rw [Sipp.C54_coeffs_scale, key _ _ hle]
    push_cast
    rfl
  rw [hval] at hz
  cases hz
  exact ⟨proof, hp, hv⟩

end

section
variable {ρ ρ' F F2 G1 G2 GT TF PK PK2 PK3 VK2 VK3 π2 π3 : Type} [Field F] [DecidableEq F] [AddCommGroup G1]
  [Module F G1] [AddCommGroup G2] [Module F G2] [AddCommGroup GT] [Module F GT] [Monoid TF] [DecidableEq G1]
  [DecidableEq GT]

/-- One trial of the polynomial commitment bench ends only when the opening is accepted for the value at the point. -/
theorem C141_kzg (V : Env ρ F G1 G2 GT TF) (srs : List G1 × VerifierSRS G1 G2) (p : List F) (z : F)
    (h : kzgTrial V srs p z = .ok ()) :
    ∃ com proof, Kzg.commit srs.1 p = .ok com ∧ Kzg.open_ srs.1 p z = .ok proof ∧
      Kzg.verify V.E srs.2 com z (polyEval p z) proof = .ok true := by
  rw [kzgTrial] at h
  obtain ⟨com, h1, h⟩ := of_unwrapRes_bind h
  obtain ⟨proof, h2, h⟩ := of_unwrapRes_bind h
  exact ⟨com, proof, h1, h2, verifyMany_eq_ok.mp h⟩

@[inherit_doc C141_kzg]
theorem C141_ipa (V : Env ρ F G1 G2 GT TF) (srs : SRS G1 G2 × List G1) (v : VerifierSRS G1 G2) (d : ℕ) (p : List F) (z : F)
    (h : ipaTrial V srs v d p z = .ok ()) :
    ∃ com aux proof, Univariate.commit V srs p = .ok (com, aux) ∧ Univariate.open_ V srs p aux z = .ok proof ∧
      Univariate.verify V v d com z (polyEval p z) proof = .ok true := by
  rw [ipaTrial] at h
  obtain ⟨⟨com, aux⟩, h1, h⟩ := of_unwrapRes_bind h
  obtain ⟨proof, h2, h⟩ := of_unwrapRes_bind h
  exact ⟨com, aux, proof, h1, h2, verifyMany_eq_ok.mp h⟩

@[inherit_doc C141_kzg]
theorem C141_transparent (V : Env ρ F G1 G2 GT TF) (ck : List G1 × List G2) (p : List F) (z : F)
    (h : transparentTrial V ck p z = .ok ()) :
    ∃ com aux proof, TUnivariate.commit V ck p = .ok (com, aux) ∧ TUnivariate.open_ V ck p aux z = .ok proof ∧
      TUnivariate.verify V ck com z (polyEval p z) proof = .ok true := by
  rw [transparentTrial] at h
  obtain ⟨⟨com, aux⟩, h1, h⟩ := of_unwrapRes_bind h
  obtain ⟨proof, h2, h⟩ := of_unwrapRes_bind h
  exact ⟨com, aux, proof, h1, h2, verifyMany_eq_ok.mp h⟩

theorem of_polyTrials (V : Env ρ F G1 G2 GT TF) (randPoly : ℕ → ρ → List F × ρ) (d : ℕ) (trial : List F → F → Res Unit)
    {n : ℕ} (hn : n ≠ 0) (s : ρ) (h : polyTrials V randPoly d trial n s = .ok ()) :
    trial (randPoly d s).1 (V.randF (randPoly d s).2).1 = .ok () := by
  obtain ⟨n, rfl⟩ := Nat.exists_eq_succ_of_ne_zero hn
  rw [polyTrials] at h
  obtain ⟨⟨⟩, h1, -⟩ := bind_eq_ok.mp h
  exact h1

/-- The whole bench, with at least one trial: for every degree each of the three schemes has run a trial. -/
theorem C141_poly (V : Env ρ F G1 G2 GT TF) (randPoly : ℕ → ρ → List F × ρ) (seed : ρ) (trials points : ℕ)
    (ht : trials ≠ 0) (h : polyRun V randPoly seed trials points = .ok ()) (i : ℕ) (hi : i < points) :
    ∃ d kzg s₁ srs s₂ v ck s₃, benchDegree i = .ok d ∧ Kzg.setup V seed d = .ok (kzg, s₁) ∧
      kzgTrial V kzg (randPoly d s₁).1 (V.randF (randPoly d s₁).2).1 = .ok () ∧
      Univariate.setup V seed d = .ok (srs, s₂) ∧ srs.1.verifierKey = .ok v ∧
      ipaTrial V srs v d (randPoly d s₂).1 (V.randF (randPoly d s₂).2).1 = .ok () ∧
      TUnivariate.setup V seed d = .ok (ck, s₃) ∧
      transparentTrial V ck (randPoly d s₃).1 (V.randF (randPoly d s₃).2).1 = .ok () := by
  have h0 := forM_eq_ok h i (List.mem_range.mpr hi)
  obtain ⟨d, hd, h0⟩ := bind_eq_ok.mp h0
  rw [polyPoint] at h0
  obtain ⟨⟨kzg, s₁⟩, h1, h0⟩ := of_unwrapRes_bind h0
  obtain ⟨⟨⟩, h2, h0⟩ := bind_eq_ok.mp h0
  obtain ⟨⟨srs, s₂⟩, h3, h0⟩ := of_unwrapRes_bind h0
  obtain ⟨v, hv, h0⟩ := bind_eq_ok.mp h0
  obtain ⟨⟨⟩, h4, h0⟩ := bind_eq_ok.mp h0
  obtain ⟨⟨ck, s₃⟩, h5, h0⟩ := of_unwrapRes_bind h0
  exact ⟨d, kzg, s₁, srs, s₂, v, ck, s₃, hd, h1, of_polyTrials V randPoly d _ ht s₁ h2, h3, hv,
    of_polyTrials V randPoly d _ ht s₂ h4, h5, of_polyTrials V randPoly d _ ht s₃ h0⟩

/-- The aggregation part of the bench: the batch is accepted, and with at least one trial the aggregate too. -/
theorem C141_aggregation (V : Env ρ F G1 G2 GT TF) (rand : ρ' → ℕ × ρ') (seed : ρ') (s s' : ρ) (vk : G16VK G1 G2)
    (trials n : ℕ) (inputs : List (List F)) (proofs : List (G16Proof G1 G2))
    (h : aggregationPart V rand seed s vk trials n inputs proofs = .ok s') :
    Batch.verify V.E rand seed (prepareVK vk) inputs proofs = .ok true ∧
      ∃ srs v, Groth16.setup V s n = .ok (srs, s') ∧ srs.verifierKey = .ok v ∧
        (trials ≠ 0 → ∃ proof, Groth16.aggregate V srs proofs = .ok proof ∧
          Groth16.verify V v vk inputs proof = .ok true) := by
  rw [aggregationPart] at h
  obtain ⟨b, h1, h⟩ := of_unwrapRes_bind h
  obtain ⟨⟨⟩, hb, h⟩ := bind_eq_ok.mp h
  rw [assert_eq_ok] at hb
  rw [hb] at h1
  obtain ⟨⟨srs, s₁⟩, h2, h⟩ := of_unwrapRes_bind h
  obtain ⟨v, hv, h⟩ := bind_eq_ok.mp h
  obtain ⟨⟨⟩, h3, h⟩ := bind_eq_ok.mp h
  simp only [pure_eq_ok, Except.ok.injEq] at h
  subst h
  refine ⟨h1, srs, v, h2, hv, fun ht => ?_⟩
  have h4 := forM_eq_ok h3 () (List.mem_replicate.mpr ⟨ht, rfl⟩)
  rw [aggregationTrial] at h4
  obtain ⟨proof, h5, h4⟩ := of_unwrapRes_bind h4
  exact ⟨proof, h5, of_assert_unwrapRes h4⟩

/-- A trial with another SNARK ends exactly when its verifier accepts the proof. -/
theorem C141_snark {C X π PK VK : Type} (S : Snark ρ C X π PK VK) (pk : PK) (vk : VK) (c : C) (x : X) (s s' : ρ) :
    snarkTrial S pk vk c x s = .ok s' ↔ ∃ p, S.prove pk c s = .ok (p, s') ∧ S.verify vk x p = .ok true := by
  constructor
  · intro h
    rw [snarkTrial] at h
    obtain ⟨⟨p, s₁⟩, h1, h⟩ := of_unwrapRes_bind h
    obtain ⟨b, h2, h⟩ := of_unwrapRes_bind h
    obtain ⟨⟨⟩, hb, h⟩ := bind_eq_ok.mp h
    rw [assert_eq_ok] at hb
    rw [hb] at h2
    simp only [pure_eq_ok, Except.ok.injEq] at h
    subst h
    exact ⟨p, h1, h2⟩
  · rintro ⟨p, h1, h2⟩
    rw [snarkTrial, h1]
    show (unwrapRes (S.verify vk x p) >>= fun p => _) = _
    rw [h2]
    rfl

theorem of_snarkTrials {C X π PK VK : Type} (S : Snark ρ C X π PK VK) (pk : PK) (vk : VK) (c : C) (x : X) {n : ℕ}
    (hn : n ≠ 0) (s s' : ρ) (h : snarkTrials S pk vk c x n s = .ok s') :
    ∃ p s₁, S.prove pk c s = .ok (p, s₁) ∧ S.verify vk x p = .ok true := by
  obtain ⟨n, rfl⟩ := Nat.exists_eq_succ_of_ne_zero hn
  rw [snarkTrials] at h
  obtain ⟨s₁, h1, -⟩ := bind_eq_ok.mp h
  obtain ⟨p, h2, h3⟩ := (C141_snark S pk vk c x s s₁).mp h1
  exact ⟨p, s₁, h2, h3⟩

/-- The example: the aggregate of the proofs made in the loop is accepted for the statements of the loop. -/
theorem C141_example (V : Env ρ F G1 G2 GT TF)
    (S : Snark ρ (TestCircuit F) (List F) (G16Proof G1 G2) PK (G16VK G1 G2)) (m n : ℕ) (seed : ρ)
    (h : exampleMain V S m n seed = .ok ()) :
    ∃ pk vk s₁ srs s₂ proofs statements s₃ v proof,
      S.setup ⟨List.replicate m 0, 0, 0⟩ seed = .ok ((pk, vk), s₁) ∧ Groth16.setup V s₁ n = .ok (srs, s₂) ∧
      exampleLoop V S pk m n s₂ = .ok ((proofs, statements), s₃) ∧ srs.verifierKey = .ok v ∧
      Groth16.aggregate V srs proofs = .ok proof ∧ Groth16.verify V v vk statements proof = .ok true := by
  rw [exampleMain] at h
  obtain ⟨⟨⟨pk, vk⟩, s₁⟩, h1, h⟩ := of_unwrapRes_bind h
  obtain ⟨⟨srs, s₂⟩, h2, h⟩ := of_unwrapRes_bind h
  obtain ⟨⟨⟨proofs, statements⟩, s₃⟩, h3, h⟩ := bind_eq_ok.mp h
  obtain ⟨proof, h4, h⟩ := of_unwrapRes_bind h
  obtain ⟨v, hv, h⟩ := bind_eq_ok.mp h
  exact ⟨pk, vk, s₁, srs, s₂, proofs, statements, s₃, v, proof, h1, h2, h3, hv, h4, of_assert_unwrapRes h⟩

theorem mem_of_idx {α : Type} {xs : List α} {i : ℕ} {x : α} (h : idx xs i = .ok x) : x ∈ xs := by
  rw [idx] at h
  cases hx : xs[i]? with
  | none => rw [hx] at h; simp [panic'] at h
  | some y =>
    rw [hx] at h
    simp only [Except.ok.injEq] at h
    exact List.mem_of_getElem? (h ▸ hx)

theorem of_proveAll {C X π PK VK : Type} (S : Snark ρ C X π PK VK) (pk : PK) (cs : List C) (s : ρ) (r : List π × ρ)
    (h : proveAll S pk cs s = .ok r) : ∀ p ∈ r.1, ∃ c ∈ cs, ∃ t t', S.prove pk c t = .ok (p, t') := by
  induction cs generalizing s r with
  | nil =>
    rw [proveAll] at h
    simp only [Except.ok.injEq] at h
    simp [← h]
  | cons c cs ih =>
    rw [proveAll] at h
    obtain ⟨⟨p, s₁⟩, h1, h⟩ := of_unwrapRes_bind h
    obtain ⟨⟨ps, s₂⟩, h2, h⟩ := bind_eq_ok.mp h
    simp only [pure_eq_ok, Except.ok.injEq] at h
    subst h
    intro q hq
    rcases List.mem_cons.mp hq with rfl | hq
    · exact ⟨c, by simp, s, s₁, h1⟩
    · obtain ⟨c', hc, r⟩ := ih s₁ (ps, s₂) h2 q hq
      exact ⟨c', List.mem_cons_of_mem _ hc, r⟩

/-- The aggregation bench: for the proofs it made or copied the batch is accepted, with at least one trial the aggregate
and, when asked for, the recursive proof are accepted, and, when asked for, the monolithic proof. -/
theorem C141_groth16 [Field F2] (V : Env ρ F G1 G2 GT TF) (rand : ρ' → ℕ × ρ') (seed : ρ') (hash : Bytes → Bytes)
    (rand32 : ρ → Bytes × ρ) (S1 : Snark ρ HashCircuit (List F) (G16Proof G1 G2) PK (G16VK G1 G2))
    (S2 : Snark ρ (RecursionCircuit (G16Proof G1 G2) (G16VK G1 G2)) (List F2) π2 PK2 VK2)
    (S3 : Snark ρ ManyCircuit (List F) π3 PK3 VK3) (args : Args) (s : ρ)
    (h : groth16Run V rand seed hash rand32 S1 S2 S3 args s = .ok ()) :
    ∃ (pk : PK) (vk : G16VK G1 G2) (proofs : List (G16Proof G1 G2)) (hashes : List (Bytes × Bytes)),
      (∃ t t', S1.setup ⟨List.replicate 32 0, List.replicate 32 0⟩ t = .ok ((pk, vk), t')) ∧
      (∀ p ∈ proofs, ∃ x t t', S1.prove pk ⟨x, hash x⟩ t = .ok (p, t')) ∧
      (∀ p ∈ hashes, p.2 = hash p.1) ∧
      Batch.verify V.E rand seed (prepareVK vk) (hashes.map fun p => (hashElements p.2).map (Nat.cast : ℕ → F)) proofs = .ok true ∧
      (args.numTrials ≠ 0 → ∃ srs v proof, srs.verifierKey = .ok v ∧ Groth16.aggregate V srs proofs = .ok proof ∧
        Groth16.verify V v vk (hashes.map fun p => (hashElements p.2).map (Nat.cast : ℕ → F)) proof = .ok true) ∧
      (args.benchRecursion = true → args.numTrials ≠ 0 → ∃ pk₂ vk₂ t₀ t t' p,
        S2.setup ⟨hashes.map (·.2), proofs, vk⟩ t₀ = .ok ((pk₂, vk₂), t) ∧
        S2.prove pk₂ ⟨hashes.map (·.2), proofs, vk⟩ t = .ok (p, t') ∧
        S2.verify vk₂ ((recursionInput (hashes.map (·.2))).map Nat.cast) p = .ok true) ∧
      (args.monolithicProof = true → ∃ pk₃ vk₃ t₀ t t' p,
        S3.setup ⟨hashes.map (·.1), hashes.map (·.2)⟩ t₀ = .ok ((pk₃, vk₃), t) ∧
        S3.prove pk₃ ⟨hashes.map (·.1), hashes.map (·.2)⟩ t = .ok (p, t') ∧
        S3.verify vk₃ ((hashes.map (·.2)).flatMap fun h => (hashElements h).map Nat.cast) p = .ok true) := by
  rw [groth16Run] at h
  obtain ⟨⟨⟨pk, vk⟩, s₁⟩, h1, h⟩ := of_unwrapRes_bind h
  obtain ⟨⟨made, s₂⟩, h2, h⟩ := bind_eq_ok.mp h
  obtain ⟨⟨proofs, hashes⟩, h3, h⟩ := bind_eq_ok.mp h
  obtain ⟨s₃, h4, h⟩ := bind_eq_ok.mp h
  dsimp only at h
  obtain ⟨s₄, h5, h⟩ : ∃ s₄, (args.benchRecursion = true → ∃ pk₂ vk₂ t,
      S2.setup ⟨hashes.map (·.2), proofs, vk⟩ s₃ = .ok ((pk₂, vk₂), t) ∧
      snarkTrials S2 pk₂ vk₂ ⟨hashes.map (·.2), proofs, vk⟩ ((recursionInput (hashes.map (·.2))).map Nat.cast)
        args.numTrials t = .ok s₄) ∧
      (if args.monolithicProof = true then
        (unwrapRes (S3.setup ⟨hashes.map (·.1), hashes.map (·.2)⟩ s₄) >>= fun r =>
          snarkTrial S3 r.1.1 r.1.2 ⟨hashes.map (·.1), hashes.map (·.2)⟩
            ((hashes.map (·.2)).flatMap fun h => (hashElements h).map Nat.cast) r.2 >>= fun _ => pure ())
      else pure ()) = Except.ok () := by
    cases hr : args.benchRecursion
    · rw [hr, if_neg (by decide)] at h
      exact ⟨s₃, fun h => by simp at h, h⟩
    · rw [hr, if_pos rfl] at h
      obtain ⟨⟨⟨pk₂, vk₂⟩, t⟩, hs, h⟩ := of_unwrapRes_bind h
      obtain ⟨s₄, h5, h⟩ := bind_eq_ok.mp h
      exact ⟨s₄, fun _ => ⟨pk₂, vk₂, t, hs, h5⟩, h⟩
  obtain ⟨hbatch, srs, v, -, hv, hagg⟩ := C141_aggregation V rand seed s₂ s₃ vk _ _ _ _ h4
  rw [List.map_map] at hbatch hagg
  refine ⟨pk, vk, proofs, hashes, ⟨_, _, h1⟩, ?_, ?_, hbatch, fun ht => ?_, fun hr ht => ?_, fun hm => ?_⟩
  · have hmade : ∀ p ∈ made, ∃ x t t', S1.prove pk ⟨x, hash x⟩ t = .ok (p, t') := by
      intro p hp
      obtain ⟨c, hc, t, t', hp⟩ := of_proveAll S1 pk _ _ _ h2 p hp
      obtain ⟨q, hq, rfl⟩ := List.mem_map.mp hc
      have hq : q ∈ (randomGenerators rand32 s args.numProofs).1.map fun x => (x, hash x) := by
        split_ifs at hq
        · exact hq
        · exact List.mem_of_mem_take hq
      obtain ⟨y, -, rfl⟩ := List.mem_map.mp hq
      exact ⟨y, t, t', hp⟩
    rw [benchProofs] at h3
    cases hg : args.generateAllProofs
    · rw [hg, if_neg (by decide)] at h3
      obtain ⟨p, hp, h3⟩ := bind_eq_ok.mp h3
      obtain ⟨x, -, h3⟩ := bind_eq_ok.mp h3
      simp only [pure_eq_ok, Except.ok.injEq, Prod.mk.injEq] at h3
      intro q hq
      rw [← h3.1, List.mem_replicate] at hq
      rw [hq.2]
      exact hmade p (mem_of_idx hp)
    · rw [hg, if_pos rfl] at h3
      simp only [pure_eq_ok, Except.ok.injEq, Prod.mk.injEq] at h3
      rw [← h3.1]
      exact hmade
  · rw [benchProofs] at h3
    cases hg : args.generateAllProofs
    · rw [hg, if_neg (by decide)] at h3
      obtain ⟨p, -, h3⟩ := bind_eq_ok.mp h3
      obtain ⟨x, hx, h3⟩ := bind_eq_ok.mp h3
      simp only [pure_eq_ok, Except.ok.injEq, Prod.mk.injEq] at h3
      intro q hq
      rw [← h3.2, List.mem_replicate] at hq
      have hx' : x ∈ (randomGenerators rand32 s args.numProofs).1.map fun x => (x, hash x) := mem_of_idx hx
      rw [hq.2]
      obtain ⟨y, -, rfl⟩ := List.mem_map.mp hx'
      rfl
    · rw [hg, if_pos rfl] at h3
      simp only [pure_eq_ok, Except.ok.injEq, Prod.mk.injEq] at h3
      intro q hq
      rw [← h3.2] at hq
      obtain ⟨y, -, rfl⟩ := List.mem_map.mp hq
      rfl
  · obtain ⟨proof, h6, h7⟩ := hagg ht
    exact ⟨srs, v, proof, hv, h6, h7⟩
  · obtain ⟨pk₂, vk₂, t, hs, h5⟩ := h5 hr
    obtain ⟨p, t', h6, h7⟩ := of_snarkTrials S2 pk₂ vk₂ _ _ ht t s₄ h5
    exact ⟨pk₂, vk₂, s₃, t, t', p, hs, h6, h7⟩
  · rw [hm, if_pos rfl] at h
    obtain ⟨⟨⟨pk₃, vk₃⟩, t⟩, hs, h⟩ := of_unwrapRes_bind h
    obtain ⟨t', h6, -⟩ := bind_eq_ok.mp h
    obtain ⟨p, h7, h8⟩ := (C141_snark S3 pk₃ vk₃ _ _ t t').mp h6
    exact ⟨pk₃, vk₃, s₄, t, t', p, hs, h7, h8⟩

end

/-- With a verifier that rejects, the trial panics; with one that accepts, it ends. -/
example : snarkTrial ⟨fun _ s => .ok (((), ()), s), fun _ c s => .ok (c + s, s + 1), fun _ x p => .ok (x == p)⟩ () () 3 8
      5 = .ok 6 ∧
    snarkTrial ⟨fun _ s => .ok (((), ()), s), fun _ c s => .ok (c + s, s + 1), fun _ x p => .ok (x == p)⟩ () () 3 9 5 =
      panic' .assertion := ⟨rfl, rfl⟩

/-- The example with the small pairing: it ends, so an aggregate of four proofs was accepted. -/
example : ∃ v vk statements proof, Groth16.verify Toy.env v vk statements proof = .ok true ∧ statements.length = 4 := by
  have h : exampleMain Toy.env toyTest 2 4 0 = .ok () := by decide +kernel
  obtain ⟨pk, vk, s₁, srs, s₂, proofs, statements, s₃, v, proof, -, -, h3, -, -, h6⟩ := C141_example _ _ _ _ _ h
  refine ⟨v, vk, statements, proof, h6, ?_⟩
  have hl : ∀ (n : ℕ) (s : ℕ) r, exampleLoop Toy.env toyTest pk 2 n s = .ok r → r.1.2.length = n := by
    intro n
    induction n with
    | zero =>
      intro s r h
      rw [exampleLoop, Except.ok.injEq] at h
      rw [← h]
      rfl
    | succ n ih =>
      intro s r h
      rw [exampleLoop] at h
      obtain ⟨⟨p, t⟩, -, h⟩ := of_unwrapRes_bind h
      obtain ⟨⟨⟨ps, xs⟩, t'⟩, h2, h⟩ := bind_eq_ok.mp h
      simp only [pure_eq_ok, Except.ok.injEq] at h
      rw [← h]
      simp [ih _ _ h2]
  exact hl 4 s₂ _ h3

/-- Size 4 on the toy curve: the one statement checked is that four copies of `e(10, 14)` with the coefficient 3 give
`48 · 5 · 7`. -/
example (parse : String → Option ℕ) (h2 : parse "2" = some 2) :
    ∃ proof, Sipp.verify Toy.sippEnv (List.replicate 4 (5 + 5)) (List.replicate 4 (7 + 7)) (List.replicate 4 3)
      ((4 * 3 * 2 ^ 2 : Toy.F) • Toy.e 5 7) proof = .ok true := by
  have hok : scalingMain Toy.sippEnv (fun _ => List.reverse) (fun _ l => l) 5 7 3 parse ["p", "2", "2", "."] = .ok () := by
    rw [scalingMain, C94_scaling parse "p" "2" "2" "." [] 2 2 h2 h2]
    decide +kernel
  obtain ⟨proof, -, h⟩ := C141_scaling_program Toy.lawful (fun _ => List.reverse) (fun _ l => l)
    (fun _ l => List.reverse_perm l) (fun _ l => .refl l) 5 7 3 parse "p" "2" "2" "." [] 2 2 h2 h2 hok 2 (by omega) (by omega)
  exact ⟨proof, h⟩

end Bench

end Ripp
