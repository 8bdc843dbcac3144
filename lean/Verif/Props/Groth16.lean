import Verif.Lemmas.Groth16
import Verif.Props.Ssm

/-!
# C49-C53: aggregation of Groth16 proofs (`ip_proofs/src/applications/groth16_aggregation.rs`)

Property statements are in `properties.jsonl`.
-/

set_option linter.unusedSectionVars false
set_option linter.unusedVariables false

namespace Ripp.Groth16

open Spec

variable {ρ F G1 G2 GT TF : Type} [Field F] [DecidableEq F]
  [AddCommGroup G1] [Module F G1] [AddCommGroup G2] [Module F G2] [Monoid TF]
  [AddCommGroup GT] [Module F GT] [DecidableEq G1] [DecidableEq GT]
  {V : Env ρ F G1 G2 GT TF} {e : G1 →ₗ[F] G2 →ₗ[F] GT}

/-- The Groth16 verification equation for one proof and one row of public inputs:
`e(A, B) = e(α, β) + e(abc₀ + Σ x_j abc_{j+1}, γ) + e(C, δ)`. -/
def Valid (e : G1 →ₗ[F] G2 →ₗ[F] GT) (vk : G16VK G1 G2) (p : G16Proof G1 G2) (row : List F) : Prop :=
  row.length + 1 = vk.gammaAbc.length ∧
  e p.a p.b = e vk.alpha vk.beta + e (dot (fun s g => s • g) (1 :: row) vk.gammaAbc) vk.gamma
    + e p.c vk.delta

theorem dot_scaled_keys (f : G1 →ₗ[F] G2 →ₗ[F] GT) (r : F) (hr : r ≠ 0) (a : List G1) (ck : List G2)
    (h : a.length = ck.length) :
    dot (f · ·) (List.zipWith (fun a r => r • a) a (powers r a.length))
      (ck.mapIdx fun i k => r⁻¹ ^ i • k) = dot (f · ·) a ck := by
  have key : ∀ (a : List G1) (ck : List G2) (s : F), s ≠ 0 → a.length = ck.length →
      dot (f · ·) (List.zipWith (fun a r => r • a) a ((List.range a.length).map fun i => s * r ^ i))
        (ck.mapIdx fun i k => (s⁻¹ * r⁻¹ ^ i) • k) = dot (f · ·) a ck := by
    intro a
    induction a with
    | nil => intro ck s _ h; simp
    | cons x xs ih =>
      intro ck s hs h
      cases ck with
      | nil => simp at h
      | cons y ys =>
        have := ih ys (s * r) (mul_ne_zero hs hr) (by simpa using h)
        simp only [List.length_cons, List.range_succ_eq_map, List.map_cons, List.map_map,
          List.zipWith_cons_cons, List.mapIdx_cons, dot_cons, pow_zero, mul_one]
        rw [← this]
        congr 1
        · simp [smul_smul, hs]
        · congr 2
          · congr 1
            funext i
            simp [pow_succ]; ring
          · funext i k
            congr 1
            rw [pow_succ, mul_inv]; ring
  have := key a ck 1 one_ne_zero h
  simpa [powers] using this

theorem powers_zip_inv (r : F) (ck : List G2) :
    (ck.zip (powers r ck.length)).map (fun p => p.2⁻¹ • p.1) = ck.mapIdx fun i k => r⁻¹ ^ i • k := by
  apply List.ext_getElem?
  intro i
  by_cases hi : i < ck.length
  · simp [powers, hi, inv_pow]
  · simp [powers, hi]

theorem dot_zip_ab (f : G1 →ₗ[F] G2 →ₗ[F] GT) : ∀ (rs : List F) (proofs : List (G16Proof G1 G2)),
    dot (f · ·) (List.zipWith (fun a r => r • a) (proofs.map (·.a)) rs) (proofs.map (·.b)) =
      dot (fun (x : F) (p : G16Proof G1 G2) => x • f p.a p.b) rs proofs
  | [], ps => by simp
  | _ :: _, [] => by simp
  | r :: rs, p :: ps => by simp [dot_zip_ab f rs ps]

/-- What `aggregate_proofs` does once the challenge `r ≠ 0` is known. -/
theorem aggregate_eq (hE : V.E.Lawful e) (srs : SRS G1 G2) (proofs : List (G16Proof G1 G2)) (n : ℕ)
    (hn : 1 ≤ n) (hp : proofs.length = n) (h1 : srs.commitmentKeys.1.length = n)
    (h2 : srs.commitmentKeys.2.length = n) (r : F) (hr : r ≠ 0)
    (hc : challenge V (dot (e · ·) (proofs.map (·.a)) srs.commitmentKeys.1)
      (dot (e · ·) srs.commitmentKeys.2 (proofs.map (·.b)))
      (dot (e · ·) (proofs.map (·.c)) srs.commitmentKeys.1) = .ok r) :
    aggregate V srs proofs = (do
      let proofAB ← Tipa.proveWithShift V.tipa V.pairingAB srs
        (List.zipWith (fun a r => r • a) (proofs.map (·.a)) (powers r n)) (proofs.map (·.b))
        (srs.commitmentKeys.1.mapIdx fun i k => r⁻¹ ^ i • k) srs.commitmentKeys.2 PUnit.unit r
      let proofC ← TipaSsm.prove V.tipa V.multiexpSsm srs (proofs.map (·.c)) (powers r n)
        srs.commitmentKeys.1 PUnit.unit
      return { comA := dot (e · ·) (proofs.map (·.a)) srs.commitmentKeys.1
               comB := dot (e · ·) srs.commitmentKeys.2 (proofs.map (·.b))
               comC := dot (e · ·) (proofs.map (·.c)) srs.commitmentKeys.1
               ipAB := dot (fun (x : F) (p : G16Proof G1 G2) => x • e p.a p.b) (powers r n) proofs
               aggC := dot (fun (x : F) (p : G16Proof G1 G2) => x • p.c) (powers r n) proofs
               proofAB := proofAB, proofC := proofC }) := by
  have hck : ((srs.commitmentKeys.1.zip (powers r n)).mapM fun (p : G2 × F) => do
      return (← unwrap (inverse p.2)) • p.1 : Res (List G2)) =
      .ok (srs.commitmentKeys.1.mapIdx fun i k => r⁻¹ ^ i • k) := by
    rw [mapM_ok _ (fun p : G2 × F => p.2⁻¹ • p.1)]
    · rw [← powers_zip_inv, h1]
    · intro p hp
      have := (List.of_mem_zip hp).2
      simp only [powers, List.mem_map] at this
      obtain ⟨i, -, hi⟩ := this
      have h0 : p.2 ≠ 0 := by rw [← hi]; exact pow_ne_zero _ hr
      simp [inverse_of_ne h0]
  have hagg : dot (fun (g : G1) (s : F) => s • g) (proofs.map (·.c)) (powers r n) =
      dot (fun (x : F) (p : G16Proof G1 G2) => x • p.c) (powers r n) proofs := by
    rw [dot_swap, dot_map_right]
  have hcheck := dot_scaled_keys e r hr (proofs.map (·.a)) srs.commitmentKeys.1 (by simp [hp, h1])
  rw [List.length_map, hp] at hcheck
  rw [aggregate]
  simp only []
  rw [pairingIP_eq hE _ _ _ (by simp [hp, h1])]
  simp only [ok_bind]
  rw [pairingIP_eq hE _ _ _ (by simp [hp, h2])]
  simp only [ok_bind]
  rw [pairingIP_eq hE _ _ _ (by simp [hp, h1])]
  simp only [ok_bind]
  rw [hc]
  simp only [ok_bind]
  rw [structuredScalarPower_eq, hp, max_eq_right hn]
  simp only [ok_bind]
  rw [pairingIP_eq hE _ _ _ (by simp [hp, powers])]
  simp only [ok_bind]
  rw [multiexpIP_eq _ _ (by simp [hp, powers])]
  simp only [ok_bind]
  erw [hck]
  simp only [ok_bind]
  rw [pairingIP_eq hE _ _ _ (by simp [hp, powers, h1])]
  simp only [ok_bind]
  rw [hcheck, dot_zip_ab, hagg]
  simp

/-- The honest aggregate equation: a batch of valid proofs satisfies it for every `r`. -/
theorem batch_valid (vk : G16VK G1 G2) (abc0 : G1) (abc : List G1) (habc : vk.gammaAbc = abc0 :: abc)
    (rs : List F) (proofs : List (G16Proof G1 G2)) (inputs : List (List F))
    (hv : List.Forall₂ (Valid e vk) proofs inputs) (hl : rs.length = inputs.length) :
    dot (fun (x : F) (p : G16Proof G1 G2) => x • e p.a p.b) rs proofs =
      rs.sum • e vk.alpha vk.beta
        + e (dot (fun (x : F) (row : List F) => x • (abc0 + dot (fun s g => s • g) row abc)) rs inputs)
            vk.gamma
        + e (dot (fun (x : F) (p : G16Proof G1 G2) => x • p.c) rs proofs) vk.delta := by
  induction hv generalizing rs with
  | nil => simp_all
  | @cons p row ps rows h _ ih =>
    cases rs with
    | nil => simp at hl
    | cons x xs =>
      have h2 := h.2
      rw [habc, dot_cons, one_smul] at h2
      simp only [dot_cons, List.sum_cons, ih xs (by simpa using hl), h2, map_add, map_smul,
        LinearMap.add_apply, LinearMap.smul_apply]
      module

/-- The statement proved by the pairing argument inside an aggregate proof. -/
theorem honest_ab (hE : V.E.Lawful e) (srs : SRS G1 G2) (proofs : List (G16Proof G1 G2)) (n : ℕ)
    (hp : proofs.length = n) (l1 : srs.commitmentKeys.1.length = n)
    (l2 : srs.commitmentKeys.2.length = n) (r : F) (hr0 : r ≠ 0) :
    Gipa.Honest V.pairingAB
      (List.zipWith (fun a r => r • a) (proofs.map (·.a)) (powers r n)) (proofs.map (·.b))
      (dot (fun (x : F) (p : G16Proof G1 G2) => x • e p.a p.b) (powers r n) proofs)
      (srs.commitmentKeys.1.mapIdx fun i k => r⁻¹ ^ i • k) srs.commitmentKeys.2 PUnit.unit
      (dot (e · ·) (proofs.map (·.a)) srs.commitmentKeys.1,
        dot (e · ·) srs.commitmentKeys.2 (proofs.map (·.b)),
        ⟨[dot (fun (x : F) (p : G16Proof G1 G2) => x • e p.a p.b) (powers r n) proofs]⟩) := by
  have hcheck := dot_scaled_keys e r hr0 (proofs.map (·.a)) srs.commitmentKeys.1 (by simp [hp, l1])
  rw [List.length_map, hp] at hcheck
  refine ⟨?_, ?_, ?_, rfl⟩
  · change pairingIP V.E V.X _ _ = _
    rw [pairingIP_eq hE _ _ _ (by simp [hp, powers]), dot_zip_ab]
  · change pairingIP V.E V.X _ _ = _
    rw [pairingIP_eq hE _ _ _ (by simp [hp, powers, l1]), hcheck]
  · change pairingIP V.E V.X _ _ = _
    rw [pairingIP_eq hE _ _ _ (by simp [hp, l2])]

/-- The statement proved by the multiexponentiation argument inside an aggregate proof. -/
theorem honest_c (hE : V.E.Lawful e) (srs : SRS G1 G2) (proofs : List (G16Proof G1 G2)) (n : ℕ)
    (hp : proofs.length = n) (l1 : srs.commitmentKeys.1.length = n) (r : F) :
    GipaSsm.Honest V.multiexpSsm (proofs.map (·.c)) r srs.commitmentKeys.1 PUnit.unit
      (dot (e · ·) (proofs.map (·.c)) srs.commitmentKeys.1)
      ⟨[dot (fun (x : F) (p : G16Proof G1 G2) => x • p.c) (powers r n) proofs]⟩
      (dot (fun (x : F) (p : G16Proof G1 G2) => x • p.c) (powers r n) proofs) := by
  refine ⟨?_, ?_, rfl⟩
  · change multiexpIP _ _ = _
    rw [multiexpIP_eq _ _ (by simp), dot_swap, dot_map_right]
    simp [powers, hp]
  · change pairingIP V.E V.X _ _ = _
    rw [pairingIP_eq hE _ _ _ (by simp [hp, l1])]

theorem challenge_total (V : Env ρ F G1 G2 GT TF) (cA cB cC : GT) :
    (∃ r, challenge V cA cB cC = .ok r) ∨ challenge V cA cB cC = .error .diverge := by
  rcases searchNonce_total (fun nonce => V.fromRandomBytes (V.digest (nonceBytes nonce
    ++ V.serGT cA ++ V.serGT cB ++ V.serGT cC))) nonceLimit 0 with ⟨m, x, -, -, -, -, hx⟩ | ⟨-, hx⟩
  · exact .inl ⟨x, hx⟩
  · exact .inr hx

/-- The searches that decode digests with `from_random_bytes` end. -/
structure DecodesEnd (V : Env ρ F G1 G2 GT TF) : Prop where
  ab : Tipa.KzgEnds V.tipa V.digest V.serF
  c : TipaSsm.KzgEnds V.tipa V.digest V.serF
  r : ∀ cA cB cC, challenge V cA cB cC ≠ .error .diverge

theorem challenge_ends (V : Env ρ F G1 G2 GT TF) (hrb : DecodesEnd V) (cA cB cC : GT) :
    ∃ r, challenge V cA cB cC = .ok r :=
  (challenge_total V cA cB cC).resolve_right (hrb.r cA cB cC)

theorem decodesEnd_of_decodes (V : Env ρ F G1 G2 GT TF)
    (hr : ∀ x, ∃ c, V.fromRandomBytes (V.digest x) = some c) : DecodesEnd V := by
  refine ⟨Tipa.kzgEnds_of_decodes _ _ _ hr, TipaSsm.kzgEnds_of_decodes _ _ _ hr, fun cA cB cC => ?_⟩
  obtain ⟨c, hc⟩ := hr (nonceBytes 0 ++ V.serGT cA ++ V.serGT cB ++ V.serGT cC)
  exact searchNonce_ends (fun nonce => V.fromRandomBytes
    (V.digest (nonceBytes nonce ++ V.serGT cA ++ V.serGT cB ++ V.serGT cC))) 0 (by norm_num)
    (hc ▸ Option.some_ne_none c)

/-- The challenge aborts the aggregation if its search fails. -/
theorem aggregate_diverge (hE : V.E.Lawful e) (srs : SRS G1 G2) (proofs : List (G16Proof G1 G2))
    (h1 : srs.commitmentKeys.1.length = proofs.length)
    (h2 : srs.commitmentKeys.2.length = proofs.length) (err : Fault)
    (hc : challenge V (dot (e · ·) (proofs.map (·.a)) srs.commitmentKeys.1)
      (dot (e · ·) srs.commitmentKeys.2 (proofs.map (·.b)))
      (dot (e · ·) (proofs.map (·.c)) srs.commitmentKeys.1) = .error err) :
    aggregate V srs proofs = .error err := by
  rw [aggregate]
  simp only []
  rw [pairingIP_eq hE _ _ _ (by simp [h1])]
  simp only [ok_bind]
  rw [pairingIP_eq hE _ _ _ (by simp [h2])]
  simp only [ok_bind]
  rw [pairingIP_eq hE _ _ _ (by simp [h1])]
  simp only [ok_bind]
  rw [hc]; rfl

/-- With challenge 0 and at least two proofs, inverting the powers of the challenge panics. -/
theorem aggregate_zero (hE : V.E.Lawful e) (srs : SRS G1 G2) (proofs : List (G16Proof G1 G2)) (n : ℕ)
    (hn : 2 ≤ n) (hp : proofs.length = n) (h1 : srs.commitmentKeys.1.length = n)
    (h2 : srs.commitmentKeys.2.length = n)
    (hc : challenge V (dot (e · ·) (proofs.map (·.a)) srs.commitmentKeys.1)
      (dot (e · ·) srs.commitmentKeys.2 (proofs.map (·.b)))
      (dot (e · ·) (proofs.map (·.c)) srs.commitmentKeys.1) = .ok 0) :
    aggregate V srs proofs = .error (.panic .unwrap) := by
  have hck : ((srs.commitmentKeys.1.zip (powers (0 : F) n)).mapM fun (p : G2 × F) => do
      return (← unwrap (inverse p.2)) • p.1 : Res (List G2)) = .error (.panic .unwrap) := by
    obtain ⟨m, rfl⟩ : ∃ m, n = m + 2 := ⟨n - 2, by omega⟩
    obtain ⟨x, y, l, hl⟩ : ∃ x y l, srs.commitmentKeys.1 = x :: y :: l := by
      match h : srs.commitmentKeys.1 with
      | [] => rw [h] at h1; simp at h1
      | [_] => rw [h] at h1; simp at h1
      | x :: y :: l => exact ⟨x, y, l, rfl⟩
    have e1 : powers (0 : F) (m + 2) = 1 :: 0 :: (List.range m).map fun i => 0 ^ (i + 2) := by
      simp [powers, List.range_succ_eq_map, Function.comp_def]
    rw [hl, e1, List.zip_cons_cons, List.zip_cons_cons, List.mapM_cons, List.mapM_cons]
    simp [inverse_of_ne (one_ne_zero (α := F)), panic']
  rw [aggregate]
  simp only []
  rw [pairingIP_eq hE _ _ _ (by simp [hp, h1])]
  simp only [ok_bind]
  rw [pairingIP_eq hE _ _ _ (by simp [hp, h2])]
  simp only [ok_bind]
  rw [pairingIP_eq hE _ _ _ (by simp [hp, h1])]
  simp only [ok_bind]
  rw [hc]
  simp only [ok_bind]
  rw [structuredScalarPower_eq, hp, max_eq_right (by omega)]
  simp only [ok_bind]
  rw [pairingIP_eq hE _ _ _ (by simp [hp, powers])]
  simp only [ok_bind]
  rw [multiexpIP_eq _ _ (by simp [hp, powers])]
  simp only [ok_bind]
  erw [hck]
  rfl

/-- The verifier after the two TIPA checks. -/
theorem verify_of_checks (v : VerifierSRS G1 G2) (vk : G16VK G1 G2) (inputs : List (List F))
    (proof : AggProof F G1 G2 GT) (r : F) (b1 b2 : Bool)
    (hc : challenge V proof.comA proof.comB proof.comC = .ok r)
    (hab : Tipa.verifyWithShift V.tipa V.pairingAB v PUnit.unit
      (proof.comA, proof.comB, ⟨[proof.ipAB]⟩) proof.proofAB r = .ok b1)
    (hC : TipaSsm.verify V.X V.tipa V.multiexpSsm v PUnit.unit proof.comC ⟨[proof.aggC]⟩ r
      proof.proofC = .ok b2) :
    verify V v vk inputs proof =
      (verifyPpe V vk inputs r proof.ipAB proof.aggC).map (fun b => b1 && b2 && b) := by
  rw [verify, hc]
  simp only [ok_bind]
  rw [hab]
  simp only [ok_bind]
  rw [hC]
  simp only [ok_bind]
  cases verifyPpe V vk inputs r proof.ipAB proof.aggC <;> rfl

/-- The aggregate equation for the honest sums, computed by the verifier from any non-empty list of
input rows. -/
def BatchEq (e : G1 →ₗ[F] G2 →ₗ[F] GT) (vk : G16VK G1 G2) (proofs : List (G16Proof G1 G2))
    (inputs : List (List F)) (r : F) : Prop :=
  dot (fun (x : F) (p : G16Proof G1 G2) => x • e p.a p.b) (powers r proofs.length) proofs =
    (powers r inputs.length).sum • e vk.alpha vk.beta
      + e (dot (fun (x : F) (row : List F) => x • dot (fun s g => s • g) (1 :: row) vk.gammaAbc)
          (powers r inputs.length) inputs) vk.gamma
      + e (dot (fun (x : F) (p : G16Proof G1 G2) => x • p.c) (powers r proofs.length) proofs) vk.delta

theorem verifyPpe_iff (hE : V.E.Lawful e) (vk : G16VK G1 G2) (inputs : List (List F))
    (hne : inputs ≠ []) (hrow : ∀ row ∈ inputs, row.length + 1 = vk.gammaAbc.length) (r : F)
    (hr : r ≠ 1) (ipAB : GT) (aggC : G1) :
    verifyPpe V vk inputs r ipAB aggC = .ok (decide (ipAB =
      (powers r inputs.length).sum • e vk.alpha vk.beta
      + e (dot (fun (x : F) (row : List F) => x • dot (fun s g => s • g) (1 :: row) vk.gammaAbc)
          (powers r inputs.length) inputs) vk.gamma + e aggC vk.delta)) := by
  obtain ⟨alpha, beta, gamma, delta, abcs⟩ := vk
  cases inputs with
  | nil => exact absurd rfl hne
  | cons row0 rows =>
    cases abcs with
    | nil => have := hrow row0 (by simp); simp at this
    | cons abc0 abc =>
      have hlen : ∀ row ∈ row0 :: rows, row.length = abc.length := by
        intro row hr
        have := hrow row hr
        simpa using this
      rw [verifyPpe_eq hE _ _ _ _ _ _ _ _ (hlen row0 (by simp))
        (fun row hrow => (hlen row (by simp [hrow])).ge) r hr]
      simp only [dot_cons, one_smul]

/-- Aggregation and verification succeed as soon as the batch equation holds for the challenge. -/
theorem complete_core (hE : V.E.Lawful e) (srs : SRS G1 G2) (v : VerifierSRS G1 G2)
    (vk : G16VK G1 G2) (proofs : List (G16Proof G1 G2)) (inputs : List (List F)) (n : ℕ) (hn : 1 ≤ n)
    (hp : proofs.length = n) (l1 : srs.commitmentKeys.1.length = n)
    (l2 : srs.commitmentKeys.2.length = n) (hne : inputs ≠ [])
    (hrow : ∀ row ∈ inputs, row.length + 1 = vk.gammaAbc.length) (r : F) (hr0 : r ≠ 0) (hr1 : r ≠ 1)
    (hc : challenge V (dot (e · ·) (proofs.map (·.a)) srs.commitmentKeys.1)
      (dot (e · ·) srs.commitmentKeys.2 (proofs.map (·.b)))
      (dot (e · ·) (proofs.map (·.c)) srs.commitmentKeys.1) = .ok r)
    (hb : BatchEq e vk proofs inputs r) (pAB : TipaProof G1 G2 G1 G2 GT GT (IdentityOutput GT))
    (hv2 : Tipa.proveWithShift V.tipa V.pairingAB srs
      (List.zipWith (fun a r => r • a) (proofs.map (·.a)) (powers r n)) (proofs.map (·.b))
      (srs.commitmentKeys.1.mapIdx fun i ck => r⁻¹ ^ i • ck) srs.commitmentKeys.2 PUnit.unit r = .ok pAB)
    (hv3 : Tipa.verifyWithShift V.tipa V.pairingAB v PUnit.unit
      (dot (e · ·) (proofs.map (·.a)) srs.commitmentKeys.1,
        dot (e · ·) srs.commitmentKeys.2 (proofs.map (·.b)),
        ⟨[dot (fun (x : F) (p : G16Proof G1 G2) => x • e p.a p.b) (powers r n) proofs]⟩) pAB r = .ok true)
    (pC : TipaSsmProof F G2 G1 GT (IdentityOutput G1))
    (hw2 : TipaSsm.prove V.tipa V.multiexpSsm srs (proofs.map (·.c)) (powers r n)
      srs.commitmentKeys.1 PUnit.unit = .ok pC)
    (hw3 : TipaSsm.verify V.X V.tipa V.multiexpSsm v PUnit.unit
      (dot (e · ·) (proofs.map (·.c)) srs.commitmentKeys.1)
      ⟨[dot (fun (x : F) (p : G16Proof G1 G2) => x • p.c) (powers r n) proofs]⟩ r pC = .ok true) :
    ∃ proof, aggregate V srs proofs = .ok proof ∧ verify V v vk inputs proof = .ok true := by
  refine ⟨_, by rw [aggregate_eq hE srs proofs n hn hp l1 l2 r hr0 hc, hv2]
                simp only [ok_bind]
                rw [hw2]; rfl, ?_⟩
  rw [verify_of_checks v vk inputs _ r true true hc hv3 hw3, verifyPpe_iff hE vk inputs hne hrow r hr1]
  rw [BatchEq, hp] at hb
  simp [Except.map, hb]

/-- Completeness of the two arguments for a batch whose challenge makes the batch equation hold. -/
theorem complete_of_batch (hE : V.E.Lawful e) (hd : ∀ x, 16 ≤ (V.digest x).length) (k : ℕ)
    (srs : SRS G1 G2) (g : G1) (h : G2) (α β : F) (hsrs : IsSrs srs g h α β (2 ^ (k + 1)))
    (vk : G16VK G1 G2) (proofs : List (G16Proof G1 G2)) (inputs : List (List F))
    (hp : proofs.length = 2 ^ (k + 1)) (hne : inputs ≠ [])
    (hrow : ∀ row ∈ inputs, row.length + 1 = vk.gammaAbc.length)
    (hb : ∀ r, challenge V (dot (e · ·) (proofs.map (·.a)) srs.commitmentKeys.1)
      (dot (e · ·) srs.commitmentKeys.2 (proofs.map (·.b)))
      (dot (e · ·) (proofs.map (·.c)) srs.commitmentKeys.1) = .ok r →
      r ≠ 0 ∧ r ≠ 1 ∧ BatchEq e vk proofs inputs r) :
    aggregate V srs proofs = .error .diverge ∨
    ∃ v proof, srs.verifierKey = .ok v ∧ aggregate V srs proofs = .ok proof ∧
      verify V v vk inputs proof = .ok true := by
  have hn : 1 ≤ 2 ^ (k + 1) := Nat.one_le_two_pow
  obtain ⟨e1, e2, e3⟩ := C25_keys srs g h α β _ hn hsrs
  have l1 : srs.commitmentKeys.1.length = 2 ^ (k + 1) := by simp [e1]
  have l2 : srs.commitmentKeys.2.length = 2 ^ (k + 1) := by simp [e2]
  rcases challenge_total V (dot (e · ·) (proofs.map (·.a)) srs.commitmentKeys.1)
      (dot (e · ·) srs.commitmentKeys.2 (proofs.map (·.b)))
      (dot (e · ·) (proofs.map (·.c)) srs.commitmentKeys.1) with ⟨r, hc⟩ | hc
  · obtain ⟨hr0, hr1, hb⟩ := hb r hc
    have H1 := honest_ab hE srs proofs _ hp l1 l2 r hr0
    have H2 := honest_c hE srs proofs _ hp l1 r
    rcases Tipa.C29_complete_shift (V := V.tipa) (pairingAB_lawful V hE) hE hd k srs g h α β r hr0 hsrs
        _ _ _ PUnit.unit _ (by simp [hp, powers]) (by simp [hp]) H1 with hdiv | ⟨v, pAB, hv1, hv2, hv3⟩
    · left
      rw [aggregate_eq hE srs proofs _ hn hp l1 l2 r hr0 hc, hdiv]; rfl
    rcases TipaSsm.C34_complete (V := V.tipa) (multiexpSsm_lawful V hE) hE hd V.X k srs g h α β
        (hsrs.left hn) _ (powers r (2 ^ (k + 1))) r _ PUnit.unit _ _ (by simp [hp])
        (by rw [structuredScalarPower_eq, max_eq_right hn]) H2 with hdiv | ⟨v', pC, hw1, hw2, hw3⟩
    · left
      rw [aggregate_eq hE srs proofs _ hn hp l1 l2 r hr0 hc, hv2]
      simp only [ok_bind]
      rw [hdiv]; rfl
    right
    have hvv := Except.ok.inj (hv1.symm.trans hw1)
    subst hvv
    obtain ⟨proof, q1, q2⟩ := complete_core hE srs v vk proofs inputs _ hn hp l1 l2 hne hrow r hr0 hr1
      hc hb pAB hv2 hv3 pC hw2 hw3
    exact ⟨v, proof, hv1, q1, q2⟩
  · exact .inl (aggregate_diverge hE srs proofs (l1.trans hp.symm) (l2.trans hp.symm) _ hc)

/-- The same if all challenge searches end. -/
theorem complete_of_batch_total (hE : V.E.Lawful e) (hd : ∀ x, 16 ≤ (V.digest x).length)
    (hs1 : V.pairingAB.SearchEnds) (hs2 : V.multiexpSsm.SearchEnds)
    (hrb : DecodesEnd V) (k : ℕ)
    (srs : SRS G1 G2) (g : G1) (h : G2) (α β : F) (hsrs : IsSrs srs g h α β (2 ^ (k + 1)))
    (vk : G16VK G1 G2) (proofs : List (G16Proof G1 G2)) (inputs : List (List F))
    (hp : proofs.length = 2 ^ (k + 1)) (hne : inputs ≠ [])
    (hrow : ∀ row ∈ inputs, row.length + 1 = vk.gammaAbc.length)
    (hb : ∀ r, challenge V (dot (e · ·) (proofs.map (·.a)) srs.commitmentKeys.1)
      (dot (e · ·) srs.commitmentKeys.2 (proofs.map (·.b)))
      (dot (e · ·) (proofs.map (·.c)) srs.commitmentKeys.1) = .ok r →
      r ≠ 0 ∧ r ≠ 1 ∧ BatchEq e vk proofs inputs r) :
    ∃ v proof, srs.verifierKey = .ok v ∧ aggregate V srs proofs = .ok proof ∧
      verify V v vk inputs proof = .ok true := by
  have hn : 1 ≤ 2 ^ (k + 1) := Nat.one_le_two_pow
  obtain ⟨e1, e2, e3⟩ := C25_keys srs g h α β _ hn hsrs
  have l1 : srs.commitmentKeys.1.length = 2 ^ (k + 1) := by simp [e1]
  have l2 : srs.commitmentKeys.2.length = 2 ^ (k + 1) := by simp [e2]
  obtain ⟨r, hc⟩ := challenge_ends V hrb (dot (e · ·) (proofs.map (·.a)) srs.commitmentKeys.1)
      (dot (e · ·) srs.commitmentKeys.2 (proofs.map (·.b)))
      (dot (e · ·) (proofs.map (·.c)) srs.commitmentKeys.1)
  obtain ⟨hr0, hr1, hb⟩ := hb r hc
  obtain ⟨v, pAB, hv1, hv2, hv3⟩ := Tipa.C29_complete_total (V := V.tipa) (pairingAB_lawful V hE) hE hd
    hs1 hrb.ab k srs g h α β r hr0 hsrs _ _ _ PUnit.unit _ (by simp [hp, powers]) (by simp [hp])
    (honest_ab hE srs proofs _ hp l1 l2 r hr0)
  obtain ⟨v', pC, hw1, hw2, hw3⟩ := TipaSsm.C34_complete_total (V := V.tipa) (multiexpSsm_lawful V hE)
    hE hd hs2 hrb.c V.X k srs g h α β (hsrs.left hn) _ (powers r (2 ^ (k + 1))) r _ PUnit.unit _ _
    (by simp [hp]) (by rw [structuredScalarPower_eq, max_eq_right hn]) (honest_c hE srs proofs _ hp l1 r)
  have hvv := Except.ok.inj (hv1.symm.trans hw1)
  subst hvv
  obtain ⟨proof, q1, q2⟩ := complete_core hE srs v vk proofs inputs _ hn hp l1 l2 hne hrow r hr0 hr1
    hc hb pAB hv2 hv3 pC hw2 hw3
  exact ⟨v, proof, hv1, q1, q2⟩

theorem valid_rows {vk : G16VK G1 G2} {proofs : List (G16Proof G1 G2)} {inputs : List (List F)}
    (hv : List.Forall₂ (Valid e vk) proofs inputs) :
    ∀ row ∈ inputs, row.length + 1 = vk.gammaAbc.length := by
  induction hv with
  | nil => simp
  | cons h _ ih =>
    intro row hr
    rcases List.mem_cons.mp hr with rfl | hr
    · exact h.1
    · exact ih row hr

theorem valid_batchEq {vk : G16VK G1 G2} {proofs : List (G16Proof G1 G2)} {inputs : List (List F)}
    (hv : List.Forall₂ (Valid e vk) proofs inputs) (r : F) : BatchEq e vk proofs inputs r := by
  cases hv with
  | nil => simp [BatchEq, powers]
  | @cons p row ps rows h hv =>
    obtain ⟨alpha, beta, gamma, delta, abcs⟩ := vk
    cases abcs with
    | nil => have := h.1; simp at this
    | cons abc0 abc =>
      have := batch_valid ⟨alpha, beta, gamma, delta, abc0 :: abc⟩ abc0 abc rfl
        (powers r (row :: rows).length) (p :: ps) (row :: rows) (.cons h hv) (by simp [powers])
      rw [BatchEq, List.length_cons, hv.length_eq, ← List.length_cons (a := row)]
      rw [this]
      simp only [dot_cons, one_smul]

/-- C49: `2^(k+1)` valid proofs are aggregated into a proof that is accepted, unless a challenge search
runs through all nonces, provided the challenge of this batch is neither 0 nor 1. -/
theorem C49_complete (hE : V.E.Lawful e) (hd : ∀ x, 16 ≤ (V.digest x).length) (k : ℕ)
    (srs : SRS G1 G2) (g : G1) (h : G2) (α β : F) (hsrs : IsSrs srs g h α β (2 ^ (k + 1)))
    (vk : G16VK G1 G2) (proofs : List (G16Proof G1 G2)) (inputs : List (List F))
    (hp : proofs.length = 2 ^ (k + 1)) (hv : List.Forall₂ (Valid e vk) proofs inputs)
    (hr : ∀ r, challenge V (dot (e · ·) (proofs.map (·.a)) srs.commitmentKeys.1)
      (dot (e · ·) srs.commitmentKeys.2 (proofs.map (·.b)))
      (dot (e · ·) (proofs.map (·.c)) srs.commitmentKeys.1) = .ok r → r ≠ 0 ∧ r ≠ 1) :
    aggregate V srs proofs = .error .diverge ∨
    ∃ v proof, srs.verifierKey = .ok v ∧ aggregate V srs proofs = .ok proof ∧
      verify V v vk inputs proof = .ok true := by
  refine complete_of_batch hE hd k srs g h α β hsrs vk proofs inputs hp ?_ (valid_rows hv)
    fun r hc => ⟨(hr r hc).1, (hr r hc).2, valid_batchEq hv r⟩
  rintro rfl
  cases hv
  have := Nat.one_le_two_pow (n := k + 1)
  simp only [List.length_nil] at hp; omega

/-- C49: unconditional if the challenge searches end. -/
theorem C49_complete_total (hE : V.E.Lawful e) (hd : ∀ x, 16 ≤ (V.digest x).length)
    (hs1 : V.pairingAB.SearchEnds) (hs2 : V.multiexpSsm.SearchEnds)
    (hrb : DecodesEnd V) (k : ℕ)
    (srs : SRS G1 G2) (g : G1) (h : G2) (α β : F) (hsrs : IsSrs srs g h α β (2 ^ (k + 1)))
    (vk : G16VK G1 G2) (proofs : List (G16Proof G1 G2)) (inputs : List (List F))
    (hp : proofs.length = 2 ^ (k + 1)) (hv : List.Forall₂ (Valid e vk) proofs inputs)
    (hr : ∀ r, challenge V (dot (e · ·) (proofs.map (·.a)) srs.commitmentKeys.1)
      (dot (e · ·) srs.commitmentKeys.2 (proofs.map (·.b)))
      (dot (e · ·) (proofs.map (·.c)) srs.commitmentKeys.1) = .ok r → r ≠ 0 ∧ r ≠ 1) :
    ∃ v proof, srs.verifierKey = .ok v ∧ aggregate V srs proofs = .ok proof ∧
      verify V v vk inputs proof = .ok true := by
  refine complete_of_batch_total hE hd hs1 hs2 hrb k srs g h α β hsrs vk proofs inputs hp ?_
    (valid_rows hv) fun r hc => ⟨(hr r hc).1, (hr r hc).2, valid_batchEq hv r⟩
  rintro rfl
  cases hv
  have := Nat.one_le_two_pow (n := k + 1)
  simp only [List.length_nil] at hp; omega

/-- C49: what a returned aggregate proof contains. -/
theorem C49_values (hE : V.E.Lawful e) (srs : SRS G1 G2) (proofs : List (G16Proof G1 G2)) (n : ℕ)
    (hn : 2 ≤ n) (hp : proofs.length = n) (l1 : srs.commitmentKeys.1.length = n)
    (l2 : srs.commitmentKeys.2.length = n) (proof : AggProof F G1 G2 GT)
    (h : aggregate V srs proofs = .ok proof) :
    proof.comA = dot (e · ·) (proofs.map (·.a)) srs.commitmentKeys.1 ∧
    proof.comB = dot (e · ·) srs.commitmentKeys.2 (proofs.map (·.b)) ∧
    proof.comC = dot (e · ·) (proofs.map (·.c)) srs.commitmentKeys.1 ∧
    ∃ r, challenge V proof.comA proof.comB proof.comC = .ok r ∧ r ≠ 0 ∧
      proof.ipAB = dot (fun (x : F) (p : G16Proof G1 G2) => x • e p.a p.b) (powers r n) proofs ∧
      proof.aggC = dot (fun (x : F) (p : G16Proof G1 G2) => x • p.c) (powers r n) proofs := by
  cases hc : challenge V (dot (e · ·) (proofs.map (·.a)) srs.commitmentKeys.1)
      (dot (e · ·) srs.commitmentKeys.2 (proofs.map (·.b)))
      (dot (e · ·) (proofs.map (·.c)) srs.commitmentKeys.1) with
  | error err =>
    rw [aggregate_diverge hE srs proofs (l1.trans hp.symm) (l2.trans hp.symm) err hc] at h
    cases h
  | ok r =>
    by_cases hr0 : r = 0
    · subst hr0
      rw [aggregate_zero hE srs proofs n hn hp l1 l2 hc] at h
      cases h
    · rw [aggregate_eq hE srs proofs n (by omega) hp l1 l2 r hr0 hc] at h
      obtain ⟨pAB, h1, h⟩ := bind_eq_ok.mp h
      obtain ⟨pC, h2, h⟩ := bind_eq_ok.mp h
      have h := Except.ok.inj h
      subst h
      exact ⟨rfl, rfl, rfl, r, hc, hr0, rfl, rfl⟩

end Ripp.Groth16
