import Verif.Lemmas.Poly
import Verif.Lemmas.GipaInstances

/-! # TIPA: reference string, key openings, prover and verifier -/

set_option linter.unusedSectionVars false
set_option linter.unusedVariables false

namespace Ripp

open Spec

section Srs
variable {F G1 G2 : Type} [Field F] [AddCommGroup G1] [Module F G1] [AddCommGroup G2] [Module F G2]

/-- `srs` is the reference string of the given size for generators `g`, `h` and trapdoors `α`, `β`. -/
structure IsSrs (srs : SRS G1 G2) (g : G1) (h : G2) (α β : F) (size : ℕ) : Prop where
  gAlpha : srs.gAlphaPowers = (List.range (2 * size - 1)).map fun i => α ^ i • g
  hBeta : srs.hBetaPowers = (List.range (2 * size - 1)).map fun i => β ^ i • h
  gBeta : srs.gBeta = β • g
  hAlpha : srs.hAlpha = α • h

/-- The part of a reference string used by the structured-message argument: all powers of `β`, but only
the generator in `G1` (the polynomial commitments build such strings). -/
structure IsLeftSrs (srs : SRS G1 G2) (g : G1) (h : G2) (α β : F) (size : ℕ) : Prop where
  gHead : srs.gAlphaPowers.head? = some g
  hBeta : srs.hBetaPowers = (List.range (2 * size - 1)).map fun i => β ^ i • h
  gBeta : srs.gBeta = β • g
  hAlpha : srs.hAlpha = α • h

theorem IsSrs.left {srs : SRS G1 G2} {g : G1} {h : G2} {α β : F} {size : ℕ} (hs : 1 ≤ size)
    (hsrs : IsSrs srs g h α β size) : IsLeftSrs srs g h α β size := by
  refine ⟨?_, hsrs.hBeta, hsrs.gBeta, hsrs.hAlpha⟩
  obtain ⟨n, hn⟩ : ∃ n, 2 * size - 1 = n + 1 := ⟨2 * size - 2, by omega⟩
  simp [hsrs.gAlpha, hn, List.range_succ_eq_map]

theorem getElem?_stepBy2 {α : Type} : ∀ (l : List α) (i : ℕ), (stepBy2 l)[i]? = l[2 * i]?
  | [], i => by simp [stepBy2]
  | [x], 0 => rfl
  | [x], i + 1 => by simp [stepBy2, Nat.mul_add]
  | x :: y :: l, 0 => rfl
  | x :: y :: l, i + 1 => by
    rw [stepBy2, List.getElem?_cons_succ, getElem?_stepBy2 l i, Nat.mul_add]
    rfl

theorem stepBy2_map_range {α : Type} (f : ℕ → α) (n : ℕ) :
    stepBy2 ((List.range (2 * n - 1)).map f) = (List.range n).map fun i => f (2 * i) := by
  apply List.ext_getElem?
  intro i
  rw [getElem?_stepBy2]
  by_cases h : i < n
  · simp [h, show 2 * i < 2 * n - 1 by omega]
  · simp [h, show ¬ 2 * i < 2 * n - 1 by omega]

theorem IsLeftSrs.keys {srs : SRS G1 G2} {g : G1} {h : G2} {α β : F} {size : ℕ} (hs : 1 ≤ size)
    (hsrs : IsLeftSrs srs g h α β size) :
    srs.commitmentKeys.1 = (List.range size).map (fun i => β ^ (2 * i) • h) ∧
    srs.verifierKey = .ok ⟨g, h, β • g, α • h⟩ := by
  refine ⟨?_, ?_⟩
  · simp only [SRS.commitmentKeys, hsrs.hBeta, stepBy2_map_range]
  · obtain ⟨n, hn⟩ : ∃ n, 2 * size - 1 = n + 1 := ⟨2 * size - 2, by omega⟩
    have hg := hsrs.gHead
    cases hga : srs.gAlphaPowers with
    | nil => simp [hga] at hg
    | cons g' gs =>
      simp only [hga, List.head?_cons, Option.some.injEq] at hg
      subst hg
      simp [SRS.verifierKey, hsrs.hBeta, hga, hsrs.gBeta, hsrs.hAlpha, hn,
        List.range_succ_eq_map]

/-- Keys with a shift: `r^i s^(2i) g`. -/
theorem shifted_keys {G : Type} [AddCommGroup G] [Module F G] (g : G) (s r : F) (n : ℕ) :
    ((List.range n).map fun i => r ^ i • (s ^ (2 * i) • g)) =
      (powers (r * (s * s)) n).map (· • g) := by
  simp only [powers, List.map_map]
  apply List.map_congr_left
  intro i _
  simp only [Function.comp, smul_smul]
  congr 1
  rw [mul_pow, pow_mul, pow_two]

end Srs

section Opening
variable {F G1 G2 GT TF : Type} [Field F] [DecidableEq F]
  [AddCommGroup G1] [Module F G1] [AddCommGroup G2] [Module F G2]
  [AddCommGroup GT] [Module F GT] [Monoid TF] [DecidableEq GT]
  {E : Engine G1 G2 GT TF} {e : G1 →ₗ[F] G2 →ₗ[F] GT}

theorem verifyKeyOpeningG2_eq (hE : E.Lawful e) (v : VerifierSRS G1 G2) (ck op : G2)
    (tr : List F) (r z : F) : verifyKeyOpeningG2 E v ck op tr r z =
      .ok (decide (e v.g (ck - productForm tr z r • v.h) = e (v.gBeta - z • v.g) op)) := by
  simp [verifyKeyOpeningG2, hE.pairing_eq]

theorem verifyKeyOpeningG1_eq (hE : E.Lawful e) (v : VerifierSRS G1 G2) (ck op : G1)
    (tr : List F) (r z : F) : verifyKeyOpeningG1 E v ck op tr r z =
      .ok (decide (e (ck - productForm tr z r • v.g) v.h = e op (v.hAlpha - z • v.h))) := by
  simp [verifyKeyOpeningG1, hE.pairing_eq]

/-- The final key of a structured key vector, rounds folded one by one. -/
theorem fold_key {G : Type} [AddCommGroup G] [Module F G] (tr : List F) (g : G) (s r : F)
    (keys : List G)
    (hk : keys = (List.range (2 ^ tr.length)).map fun i => r ^ i • (s ^ (2 * i) • g)) :
    foldAll tr.reverse keys = [productForm tr s r • g] := by
  rw [dot_exps tr keys (by rw [hk]; simp), hk, shifted_keys, dot_key]

theorem opening_G2 (hE : E.Lawful e) (tr : List F) (htr : ∀ x ∈ tr, x ≠ 0) (r z : F) (hr : r ≠ 0)
    (g : G1) (h : G2) (α β : F) (srs : List G2)
    (hs : srs = (List.range (2 ^ (tr.length + 1) - 1)).map fun i => β ^ i • h) :
    ∃ op, proveKeyOpening srs tr r z = .ok op ∧
      verifyKeyOpeningG2 E ⟨g, h, β • g, α • h⟩ (productForm tr β r • h) op tr r z = .ok true := by
  obtain ⟨q, h1, h2⟩ := proveKeyOpening_eq tr htr r z β hr h srs
    (by rw [hs]; simp [powers])
  refine ⟨_, h1, ?_⟩
  rw [verifyKeyOpeningG2_eq hE]
  simp only [← sub_smul, map_smul, LinearMap.smul_apply, smul_smul, ← h2]
  rw [mul_comm (β - z) q]
  simp

theorem opening_G1 (hE : E.Lawful e) (tr : List F) (htr : ∀ x ∈ tr, x ≠ 0) (r z : F) (hr : r ≠ 0)
    (g : G1) (h : G2) (α β : F) (srs : List G1)
    (hs : srs = (List.range (2 ^ (tr.length + 1) - 1)).map fun i => α ^ i • g) :
    ∃ op, proveKeyOpening srs tr r z = .ok op ∧
      verifyKeyOpeningG1 E ⟨g, h, β • g, α • h⟩ (productForm tr α r • g) op tr r z = .ok true := by
  obtain ⟨q, h1, h2⟩ := proveKeyOpening_eq tr htr r z α hr g srs
    (by rw [hs]; simp [powers])
  refine ⟨_, h1, ?_⟩
  rw [verifyKeyOpeningG1_eq hE]
  simp only [← sub_smul, map_smul, LinearMap.smul_apply, smul_smul, ← h2]
  simp

theorem invertAll_eq (xs : List F) (h : ∀ x ∈ xs, x ≠ 0) : invertAll xs = .ok (xs.map (·⁻¹)) :=
  mapM_ok _ _ xs fun x hx => by rw [inverse_of_ne (h x hx)]; rfl

end Opening

section Kzg
variable {F G1 G2 GT TF : Type}

theorem searchNonce_found {α : Type} (g : ℕ → Option α) (fuel n : ℕ) :
    (∃ x, searchNonce (fun i => .ok (g i)) fuel n = .ok x) ∨
      searchNonce (fun i => .ok (g i)) fuel n = .error .diverge := by
  rcases searchNonce_total g fuel n with ⟨m, x, -, -, -, -, h⟩ | ⟨-, h⟩
  · exact Or.inl ⟨x, h⟩
  · exact Or.inr h

theorem Tipa.kzgChallenge_total (V : TipaEnv F G1 G2 GT TF) (digest : Bytes → Bytes)
    (serF : F → Bytes) (tr : List F) (cka : G2) (ckb : G1) (h : tr ≠ []) :
    (∃ c, Tipa.kzgChallenge V digest serF tr cka ckb = .ok c) ∨
      Tipa.kzgChallenge V digest serF tr cka ckb = .error .diverge := by
  obtain ⟨t, ts, rfl⟩ := List.exists_cons_of_ne_nil h
  exact searchNonce_found (fun nonce => V.fromRandomBytes
    (digest (nonceBytes nonce ++ serF t ++ V.serG2 cka ++ V.serG1 ckb))) _ _

theorem Tipa.kzgChallenge_nil (V : TipaEnv F G1 G2 GT TF) (digest : Bytes → Bytes)
    (serF : F → Bytes) (cka : G2) (ckb : G1) :
    Tipa.kzgChallenge V digest serF [] cka ckb = panic' .unwrap := rfl

theorem TipaSsm.kzgChallenge_total (V : TipaEnv F G1 G2 GT TF) (digest : Bytes → Bytes)
    (serF : F → Bytes) (tr : List F) (cka : G2) (h : tr ≠ []) :
    (∃ c, TipaSsm.kzgChallenge V digest serF tr cka = .ok c) ∨
      TipaSsm.kzgChallenge V digest serF tr cka = .error .diverge := by
  obtain ⟨t, ts, rfl⟩ := List.exists_cons_of_ne_nil h
  exact searchNonce_found (fun nonce => V.fromRandomBytes
    (digest (nonceBytes nonce ++ serF t ++ V.serG2 cka))) _ _

theorem TipaSsm.kzgChallenge_nil (V : TipaEnv F G1 G2 GT TF) (digest : Bytes → Bytes)
    (serF : F → Bytes) (cka : G2) :
    TipaSsm.kzgChallenge V digest serF [] cka = panic' .unwrap := rfl

/-- A search ends if one of the nonces is good. -/
theorem searchNonce_ends {α : Type} (g : ℕ → Option α) (n : ℕ) (hn : n < 2 ^ 64) (h : g n ≠ none) :
    searchNonce (fun i => .ok (g i)) nonceLimit 0 ≠ .error .diverge := by
  rcases searchNonce_total g nonceLimit 0 with ⟨m, x, -, -, -, -, h'⟩ | ⟨h', -⟩
  · rw [h']; simp
  · exact absurd (h' n (Nat.zero_le _) (by rw [nonceLimit]; omega)) h

/-- Every search for a KZG challenge ends. -/
def Tipa.KzgEnds (V : TipaEnv F G1 G2 GT TF) (digest : Bytes → Bytes) (serF : F → Bytes) : Prop :=
  ∀ tr cka ckb, Tipa.kzgChallenge V digest serF tr cka ckb ≠ .error .diverge

@[inherit_doc Tipa.KzgEnds]
def TipaSsm.KzgEnds (V : TipaEnv F G1 G2 GT TF) (digest : Bytes → Bytes) (serF : F → Bytes) : Prop :=
  ∀ tr cka, TipaSsm.kzgChallenge V digest serF tr cka ≠ .error .diverge

theorem Tipa.kzgChallenge_ends (V : TipaEnv F G1 G2 GT TF) (digest : Bytes → Bytes)
    (serF : F → Bytes) (hr : Tipa.KzgEnds V digest serF) (tr : List F)
    (cka : G2) (ckb : G1) (h : tr ≠ []) : ∃ c, Tipa.kzgChallenge V digest serF tr cka ckb = .ok c :=
  (Tipa.kzgChallenge_total V digest serF tr cka ckb h).resolve_right (hr tr cka ckb)

theorem TipaSsm.kzgChallenge_ends (V : TipaEnv F G1 G2 GT TF) (digest : Bytes → Bytes)
    (serF : F → Bytes) (hr : TipaSsm.KzgEnds V digest serF) (tr : List F)
    (cka : G2) (h : tr ≠ []) : ∃ c, TipaSsm.kzgChallenge V digest serF tr cka = .ok c :=
  (TipaSsm.kzgChallenge_total V digest serF tr cka h).resolve_right (hr tr cka)

/-- If every digest decodes to a field element, the search ends at the first nonce. -/
theorem Tipa.kzgEnds_of_decodes (V : TipaEnv F G1 G2 GT TF) (digest : Bytes → Bytes)
    (serF : F → Bytes) (hr : ∀ x, ∃ c, V.fromRandomBytes (digest x) = some c) :
    Tipa.KzgEnds V digest serF := by
  intro tr cka ckb
  cases tr with
  | nil => simp [Tipa.kzgChallenge_nil, panic']
  | cons t ts =>
    obtain ⟨c, hc⟩ := hr (nonceBytes 0 ++ serF t ++ V.serG2 cka ++ V.serG1 ckb)
    exact searchNonce_ends (fun nonce => V.fromRandomBytes
      (digest (nonceBytes nonce ++ serF t ++ V.serG2 cka ++ V.serG1 ckb))) 0 (by norm_num)
      (hc ▸ Option.some_ne_none c)

@[inherit_doc Tipa.kzgEnds_of_decodes]
theorem TipaSsm.kzgEnds_of_decodes (V : TipaEnv F G1 G2 GT TF) (digest : Bytes → Bytes)
    (serF : F → Bytes) (hr : ∀ x, ∃ c, V.fromRandomBytes (digest x) = some c) :
    TipaSsm.KzgEnds V digest serF := by
  intro tr cka
  cases tr with
  | nil => simp [TipaSsm.kzgChallenge_nil, panic']
  | cons t ts =>
    obtain ⟨c, hc⟩ := hr (nonceBytes 0 ++ serF t ++ V.serG2 cka)
    exact searchNonce_ends (fun nonce => V.fromRandomBytes
      (digest (nonceBytes nonce ++ serF t ++ V.serG2 cka))) 0 (by norm_num)
      (hc ▸ Option.some_ne_none c)

end Kzg

namespace Gipa

variable {ρ F MA MB T KA KB KT OA OB OT : Type} [Field F] [DecidableEq F]
  [AddCommGroup MA] [Module F MA] [AddCommGroup MB] [Module F MB]
  [AddCommGroup T] [Module F T] [AddCommGroup KA] [Module F KA] [AddCommGroup KB] [Module F KB]
  [AddCommGroup OA] [Module F OA] [AddCommGroup OB] [Module F OB] [Add OT] [SMul F OT]
  {P : Gipa ρ F MA MB T KA KB KT OA OB OT}
  {β : MA →ₗ[F] MB →ₗ[F] T} {φa : MA →ₗ[F] KA →ₗ[F] OA} {φb : MB →ₗ[F] KB →ₗ[F] OB}
  {ψ : KT → T → OT}

theorem FoldOutcome.recursive {kt : KT} {k : ℕ} {ma : List MA} {mb : List MB} {cka : List KA}
    {ckb : List KB} {com : Coms OA OB OT} {steps : List (Coms OA OB OT × Coms OA OB OT)} {cs : List F}
    {a : MA} {b : MB} {ka : KA} {kb : KB}
    (O : FoldOutcome P β φa φb ψ kt k ma mb cka ckb com steps cs a b ka kb) (com' : Coms OA OB OT) :
    P.recursiveChallenges com' { steps := steps.reverse, base := (a, b) } =
      .ok (foldMany steps cs com', cs.reverse) := by
  simp [recursiveChallenges, recLoop_eq, O.chals]

theorem recursiveChallenges_eq (com : Coms OA OB OT) (proof : GipaProof MA MB OA OB OT) :
    P.recursiveChallenges com proof = (P.chals proof.steps.reverse [] >>= fun cs =>
      .ok (foldMany proof.steps.reverse cs com, cs.reverse)) := by
  simp only [recursiveChallenges, recLoop_eq]
  cases P.chals proof.steps.reverse [] <;> rfl

end Gipa

namespace Tipa

variable {ρ F MA MB T KT OA OB OT G1 G2 GT TF : Type} [Field F] [DecidableEq F]
  [AddCommGroup MA] [Module F MA] [AddCommGroup MB] [Module F MB] [AddCommGroup T] [Module F T]
  [AddCommGroup G1] [Module F G1] [AddCommGroup G2] [Module F G2]
  [AddCommGroup GT] [Module F GT] [Monoid TF] [DecidableEq GT]
  [AddCommGroup OA] [Module F OA] [AddCommGroup OB] [Module F OB] [Add OT] [SMul F OT]
  [DecidableEq OA] [DecidableEq OB] [DecidableEq OT]
  {P : Gipa ρ F MA MB T G2 G1 KT OA OB OT} {V : TipaEnv F G1 G2 GT TF}
  {bil : MA →ₗ[F] MB →ₗ[F] T} {φa : MA →ₗ[F] G2 →ₗ[F] OA} {φb : MB →ₗ[F] G1 →ₗ[F] OB}
  {ψ : KT → T → OT} {e : G1 →ₗ[F] G2 →ₗ[F] GT}

open Gipa in
/-- From a folding of `com` to honest commitments and the KZG challenge: openings of the final keys
that the prover computes and with which the verifier accepts `com`. -/
theorem openings_of_fold (L : P.Lawful bil φa φb ψ) (hE : V.E.Lawful e) (k : ℕ)
    (srs : SRS G1 G2) (g : G1) (h : G2) (α β r : F) (hr : r ≠ 0)
    (hsrs : IsSrs srs g h α β (2 ^ k)) (ma : List MA) (mb : List MB) (kt : KT)
    (com : Coms OA OB OT)
    (steps : List (Coms OA OB OT × Coms OA OB OT)) (cs : List F) (a : MA) (b : MB) (ka : G2) (kb : G1)
    (O : FoldOutcome P bil φa φb ψ kt k ma mb
      ((List.range (2 ^ k)).map fun i => r⁻¹ ^ i • (β ^ (2 * i) • h))
      ((List.range (2 ^ k)).map fun i => α ^ (2 * i) • g) com steps cs a b ka kb)
    (c : F) (hc : kzgChallenge V P.digest P.serF cs.reverse ka kb = .ok c) :
    ∃ opA opB, proveKeyOpening srs.hBetaPowers (cs.reverse.map (·⁻¹)) r⁻¹ c = .ok opA ∧
      proveKeyOpening srs.gAlphaPowers cs.reverse 1 c = .ok opB ∧
      verifyWithShift V P ⟨g, h, β • g, α • h⟩ kt com
        ⟨{ steps := steps.reverse, base := (a, b) }, (ka, kb), (opA, opB)⟩ r = .ok true := by
  set tr := cs.reverse with htr
  have hlen : tr.length = k := by simp [htr, O.length_cs]
  have hne : ∀ x ∈ tr, x ≠ 0 := fun x hx => O.ne_zero x (by simpa [htr] using hx)
  have hnei : ∀ x ∈ tr.map (·⁻¹), x ≠ 0 := by
    intro x hx
    obtain ⟨y, hy, rfl⟩ := List.mem_map.mp hx
    exact inv_ne_zero (hne y hy)
  have hka : ka = productForm (tr.map (·⁻¹)) β r⁻¹ • h := by
    have := fold_key (tr.map (·⁻¹)) h β r⁻¹
      ((List.range (2 ^ k)).map fun i => r⁻¹ ^ i • (β ^ (2 * i) • h))
      (by rw [List.length_map, hlen])
    rw [← List.map_reverse, htr, List.reverse_reverse, O.fold_cka] at this
    simpa [htr] using this
  have hkb : kb = productForm tr α 1 • g := by
    have := fold_key tr g α 1
      ((List.range (2 ^ k)).map fun i => α ^ (2 * i) • g) (by rw [hlen]; simp)
    rw [htr, List.reverse_reverse, O.fold_ckb] at this
    simpa using this
  have hsz : 2 * 2 ^ k - 1 = 2 ^ (k + 1) - 1 := by rw [pow_succ 2 k, mul_comm]
  obtain ⟨opA, hA1, hA2⟩ := opening_G2 hE (tr.map (·⁻¹)) hnei r⁻¹ c (inv_ne_zero hr) g h α β
    srs.hBetaPowers (by rw [hsrs.hBeta, List.length_map, hlen, hsz])
  obtain ⟨opB, hB1, hB2⟩ := opening_G1 hE tr hne 1 c one_ne_zero g h α β
    srs.gAlphaPowers (by rw [hsrs.gAlpha, hlen, hsz])
  refine ⟨opA, opB, hA1, hB1, ?_⟩
  rw [verifyWithShift, O.recursive, O.coms]
  simp only [ok_bind]
  rw [invertAll_eq _ hne, inverse_of_ne hr]
  simp only [ok_bind, unwrap_some]
  rw [hc]
  simp only [ok_bind]
  rw [← hka] at hA2
  rw [← hkb] at hB2
  rw [hA2, hB2, verifyBase_eq L]
  simp

open Gipa in
/-- What happens after a successful GIPA run, given the KZG challenge. -/
theorem complete_of_outcome (L : P.Lawful bil φa φb ψ) (hE : V.E.Lawful e) (k : ℕ)
    (srs : SRS G1 G2) (g : G1) (h : G2) (α β r : F) (hr : r ≠ 0)
    (hsrs : IsSrs srs g h α β (2 ^ k)) (ma : List MA) (mb : List MB) (kt : KT)
    (steps : List (Coms OA OB OT × Coms OA OB OT)) (cs : List F) (a : MA) (b : MB) (ka : G2) (kb : G1)
    (O : ProveOutcome P bil φa φb ψ kt k ma mb
      ((List.range (2 ^ k)).map fun i => r⁻¹ ^ i • (β ^ (2 * i) • h))
      ((List.range (2 ^ k)).map fun i => α ^ (2 * i) • g) steps cs a b ka kb)
    (c : F) (hc : kzgChallenge V P.digest P.serF cs.reverse ka kb = .ok c) :
    ∃ proof, proveWithShift V P srs ma mb
        ((List.range (2 ^ k)).map fun i => r⁻¹ ^ i • (β ^ (2 * i) • h))
        ((List.range (2 ^ k)).map fun i => α ^ (2 * i) • g) kt r = .ok proof ∧
      proof.gipa = { steps := steps.reverse, base := (a, b) } ∧
      proof.finalCk = (ka, kb) ∧
      verifyWithShift V P ⟨g, h, β • g, α • h⟩ kt (honestComs bil φa φb ψ kt ma mb
        ((List.range (2 ^ k)).map fun i => r⁻¹ ^ i • (β ^ (2 * i) • h))
        ((List.range (2 ^ k)).map fun i => α ^ (2 * i) • g)) proof r = .ok true := by
  obtain ⟨opA, opB, hA, hB, hv⟩ := openings_of_fold L hE k srs g h α β r hr hsrs ma mb kt _ steps cs a b
    ka kb O.fold c hc
  have hne : ∀ x ∈ cs.reverse, x ≠ 0 := fun x hx => O.ne_zero x (by simpa using hx)
  refine ⟨⟨_, (ka, kb), (opA, opB)⟩, ?_, rfl, rfl, hv⟩
  rw [proveWithShift, O.run]
  simp only [ok_bind]
  rw [invertAll_eq _ hne, inverse_of_ne hr]
  simp only [ok_bind, unwrap_some]
  rw [hc]
  simp only [ok_bind]
  rw [hA, hB]
  rfl

end Tipa

end Ripp
