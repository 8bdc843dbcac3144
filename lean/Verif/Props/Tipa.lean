import Verif.Lemmas.Tipa
import Verif.Props.GipaInstances

/-!
# C24-C31: TIPA (`ip_proofs/src/tipa/mod.rs`)
-/

set_option linter.unusedSectionVars false
set_option linter.unusedVariables false

namespace Ripp

open Spec

section Srs
variable {ρ F G1 G2 KT T OT : Type} [Field F] [AddCommGroup G1] [Module F G1]
  [AddCommGroup G2] [Module F G2]

/-- C24: setup samples `α` then `β` and returns their powers; size 0 panics. -/
theorem C24_setup (randF : ρ → F × ρ) (g : G1) (h : G2) (ipc : Commitment ρ KT T OT)
    (hipc : SetupExact ipc) (s : ρ) (size : ℕ) (hs : 1 ≤ size) :
    ∃ srs kt s', tipaSetup randF g h ipc s size = .ok ((srs, kt), s') ∧
      IsSrs srs g h (randF s).1 (randF (randF s).2).1 size := by
  obtain ⟨kt, s3, e3, l3⟩ := hipc (randF (randF s).2).2 1
  obtain ⟨k, rfl⟩ := List.length_eq_one_iff.mp l3
  refine ⟨⟨(List.range (2 * size - 1)).map fun i => (randF s).1 ^ i • g,
    (List.range (2 * size - 1)).map fun i => (randF (randF s).2).1 ^ i • h,
    (randF (randF s).2).1 • g, (randF s).1 • h⟩, k, s3, ?_, ⟨rfl, rfl, rfl, rfl⟩⟩
  have h0 : size ≠ 0 := by omega
  simp only [tipaSetup, if_neg h0, structuredGenerators_eq _ _ _ (show 0 < 2 * size - 1 by omega), e3]
  simp [powers, Function.comp_def]

/-- C24 for any commitment scheme: the key of the inner product commitment is the last one its set-up
returns (`pop().unwrap()`), an empty list of keys is a panic, and the state of the generator is the one
the set-up of the commitment leaves. -/
theorem C24_setup_last (randF : ρ → F × ρ) (g : G1) (h : G2) (ipc : Commitment ρ KT T OT) (s s' : ρ)
    (size : ℕ) (hs : 1 ≤ size) :
    (∀ kts kt, ipc.setup (randF (randF s).2).2 1 = .ok (kts ++ [kt], s') →
      ∃ srs, tipaSetup randF g h ipc s size = .ok ((srs, kt), s') ∧
        IsSrs srs g h (randF s).1 (randF (randF s).2).1 size) ∧
    (ipc.setup (randF (randF s).2).2 1 = .ok ([], s') →
      tipaSetup randF g h ipc s size = panic' .unwrap) := by
  have h0 : size ≠ 0 := by omega
  constructor
  · intro kts kt e3
    refine ⟨⟨(List.range (2 * size - 1)).map fun i => (randF s).1 ^ i • g,
      (List.range (2 * size - 1)).map fun i => (randF (randF s).2).1 ^ i • h,
      (randF (randF s).2).1 • g, (randF s).1 • h⟩, ?_, ⟨rfl, rfl, rfl, rfl⟩⟩
    simp only [tipaSetup, if_neg h0, structuredGenerators_eq _ _ _ (show 0 < 2 * size - 1 by omega), e3]
    simp [powers, Function.comp_def]
  · intro e3
    simp only [tipaSetup, if_neg h0, structuredGenerators_eq _ _ _ (show 0 < 2 * size - 1 by omega), e3]
    simp [unwrap]

theorem C24_setup_zero (randF : ρ → F × ρ) (g : G1) (h : G2) (ipc : Commitment ρ KT T OT) (s : ρ) :
    tipaSetup randF g h ipc s 0 = .error (.panic .overflow) := rfl

/-- The generators function itself: `num` powers, panic for `num = 0`. -/
theorem C24_structured_generators {G : Type} [AddCommGroup G] [Module F G] (num : ℕ) (g : G) (s : F) :
    structuredGenerators num g s =
      if num = 0 then .error (.panic .assertion)
      else .ok ((List.range num).map fun i => s ^ i • g) := by
  split
  · rename_i h; subst h; rfl
  · rename_i h
    rw [structuredGenerators_eq _ _ _ (by omega)]
    simp [powers, Function.comp_def]

/-- The toy reference string of size 4. -/
def Toy.srs : SRS Toy.F Toy.F := ⟨[1, 3, 9, 27, 81, 41, 22], [1, 5, 25, 24, 19, 95, 71], 5, 3⟩

theorem Toy.srs_isSrs : IsSrs Toy.srs (1 : Toy.F) (1 : Toy.F) (3 : Toy.F) 5 (2 ^ (1 + 1)) :=
  ⟨by decide +kernel, by decide +kernel, by decide, by decide⟩

/-- C25: keys and verifier key of a reference string. -/
theorem C25_keys (srs : SRS G1 G2) (g : G1) (h : G2) (α β : F) (size : ℕ) (hs : 1 ≤ size)
    (hsrs : IsSrs srs g h α β size) :
    srs.commitmentKeys.1 = (List.range size).map (fun i => β ^ (2 * i) • h) ∧
    srs.commitmentKeys.2 = (List.range size).map (fun i => α ^ (2 * i) • g) ∧
    srs.verifierKey = .ok ⟨g, h, β • g, α • h⟩ := by
  refine ⟨?_, ?_, ?_⟩
  · simp only [SRS.commitmentKeys, hsrs.hBeta, stepBy2_map_range]
  · simp only [SRS.commitmentKeys, hsrs.gAlpha, stepBy2_map_range]
  · obtain ⟨n, hn⟩ : ∃ n, 2 * size - 1 = n + 1 := ⟨2 * size - 2, by omega⟩
    simp [SRS.verifierKey, hsrs.hBeta, hsrs.gAlpha, hsrs.gBeta, hsrs.hAlpha, hn,
      List.range_succ_eq_map]

end Srs

section KeyPolynomial
variable {F : Type} [Field F] [DecidableEq F]

/-- C26: `xs` is the transcript, `r` the shift. The coefficient vector has the bit products times
powers of the shift at even positions and zero at odd ones, and its value at `z` is the product form
used by the verifier. -/
theorem C26_key_polynomial (xs : List F) (r : F) :
    ∃ coeffs, keyCoefficients xs r = .ok coeffs ∧ coeffs.length = 2 ^ (xs.length + 1) - 1 ∧
      (∀ i < 2 ^ xs.length, coeffs[2 * i]? = some (bitProd xs i * r ^ i)) ∧
      (∀ i < 2 ^ xs.length - 1, coeffs[2 * i + 1]? = some 0) ∧
      ∀ z, evalAt coeffs z = productForm xs z r ∧
        productForm xs z r = (xs.mapIdx fun j x => 1 + x * (r * z ^ 2) ^ 2 ^ j).prod := by
  have hl : (exps (scaled xs r)).length = 2 ^ xs.length := by rw [length_exps, length_scaled]
  have hp : 0 < 2 ^ xs.length := by positivity
  refine ⟨_, keyCoefficients_eq xs r, ?_, ?_, ?_, ?_⟩
  · rw [length_spread, hl, pow_succ, mul_comm]
  · intro i hi
    rw [getElem?_spread _ _ (by rw [hl]; omega)]
    have := exps_getElem? (scaled xs r) i (by rw [length_scaled]; exact hi)
    simp [List.getD_eq_getElem?_getD, this, bitProd_scaled xs r i hi]
  · intro i hi
    rw [getElem?_spread _ _ (by rw [hl]; omega)]
    simp [Nat.add_mod]
  · intro z
    rw [evalAt_eq, polyEval_spread, polyEval_exps, scaled_scaled, productForm_eq]
    refine ⟨rfl, ?_⟩
    rw [scaled_eq_mapIdx]
    congr 1
    apply List.ext_getElem?
    intro i
    simp only [List.getElem?_map, List.getElem?_mapIdx, Option.map_map, Function.comp_def]
    congr 1
    funext x
    rw [pow_two, mul_comm r]

example : keyCoefficients ([2, 3] : List Toy.F) 5 = .ok [1, 0, 10, 0, 75, 0, 43] := by
  obtain ⟨c, h, -⟩ := C26_key_polynomial ([2, 3] : List Toy.F) 5
  decide +kernel

end KeyPolynomial

section Openings
variable {F G1 G2 GT TF : Type} [Field F] [DecidableEq F]
  [AddCommGroup G1] [Module F G1] [AddCommGroup G2] [Module F G2]
  [AddCommGroup GT] [Module F GT] [Monoid TF] [DecidableEq GT]
  {E : Engine G1 G2 GT TF} {e : G1 →ₗ[F] G2 →ₗ[F] GT}

/-- C27 (G2): `tr` is the stored transcript (last round first), the keys are the commitment keys
shifted by `r`. The true final key, obtained by folding the keys round by round, has an opening that is
accepted at every point `z`. -/
theorem C27_opening_complete_G2 (hE : E.Lawful e) (k : ℕ) (srs : SRS G1 G2) (g : G1) (h : G2)
    (α β : F) (hsrs : IsSrs srs g h α β (2 ^ k)) (tr : List F) (hl : tr.length = k)
    (htr : ∀ x ∈ tr, x ≠ 0) (r z : F) (hr : r ≠ 0) :
    ∃ ck op, foldAll tr.reverse ((List.range (2 ^ k)).map fun i => r ^ i • (β ^ (2 * i) • h)) = [ck] ∧
      proveKeyOpening srs.hBetaPowers tr r z = .ok op ∧
      verifyKeyOpeningG2 E ⟨g, h, β • g, α • h⟩ ck op tr r z = .ok true := by
  obtain ⟨op, h1, h2⟩ := opening_G2 hE tr htr r z hr g h α β srs.hBetaPowers
    (by rw [hsrs.hBeta, hl, pow_succ, mul_comm])
  exact ⟨_, op, fold_key tr h β r _ (by rw [hl]), h1, h2⟩

/-- C27 (G1). -/
theorem C27_opening_complete_G1 (hE : E.Lawful e) (k : ℕ) (srs : SRS G1 G2) (g : G1) (h : G2)
    (α β : F) (hsrs : IsSrs srs g h α β (2 ^ k)) (tr : List F) (hl : tr.length = k)
    (htr : ∀ x ∈ tr, x ≠ 0) (r z : F) (hr : r ≠ 0) :
    ∃ ck op, foldAll tr.reverse ((List.range (2 ^ k)).map fun i => r ^ i • (α ^ (2 * i) • g)) = [ck] ∧
      proveKeyOpening srs.gAlphaPowers tr r z = .ok op ∧
      verifyKeyOpeningG1 E ⟨g, h, β • g, α • h⟩ ck op tr r z = .ok true := by
  obtain ⟨op, h1, h2⟩ := opening_G1 hE tr htr r z hr g h α β srs.gAlphaPowers
    (by rw [hsrs.gAlpha, hl, pow_succ, mul_comm])
  exact ⟨_, op, fold_key tr g α r _ (by rw [hl]), h1, h2⟩

example : ∃ ck op, foldAll ([2, 7] : List Toy.F).reverse
      ((List.range (2 ^ 2)).map fun i => (3 : Toy.F) ^ i • ((5 : Toy.F) ^ (2 * i) • (1 : Toy.F))) = [ck] ∧
    proveKeyOpening Toy.srs.hBetaPowers ([2, 7] : List Toy.F) 3 11 = .ok op ∧
    verifyKeyOpeningG2 Toy.E ⟨1, 1, (5 : Toy.F) • 1, (3 : Toy.F) • 1⟩ ck op ([2, 7] : List Toy.F) 3 11 =
      .ok true :=
  C27_opening_complete_G2 Toy.lawful 2 Toy.srs (1 : Toy.F) (1 : Toy.F) 3 5 Toy.srs_isSrs [2, 7] rfl
    (by decide) 3 11 (by decide)

/-- C28: with a pairing that is non-degenerate at `g` and `h`, the check is one group equation. The
product is the key polynomial of C26 at `z`. -/
theorem C28_check_G2 (hE : E.Lawful e) (g : G1) (h : G2) (α β : F)
    (hg : ∀ y, e g y = 0 → y = 0) (ck op : G2) (tr : List F) (r z : F) :
    verifyKeyOpeningG2 E ⟨g, h, β • g, α • h⟩ ck op tr r z = .ok true ↔
      ck - (tr.mapIdx fun j x => 1 + x * (r * z ^ 2) ^ 2 ^ j).prod • h = (β - z) • op := by
  rw [verifyKeyOpeningG2_eq hE, ((C26_key_polynomial tr r).choose_spec.2.2.2.2 z).2]
  simp only [Except.ok.injEq, decide_eq_true_eq, ← sub_smul, map_smul, LinearMap.smul_apply]
  constructor
  · intro h'
    rw [← map_smul, ← sub_eq_zero, ← map_sub] at h'
    exact sub_eq_zero.mp (hg _ h')
  · intro h'
    rw [h', map_smul]

theorem C28_check_G1 (hE : E.Lawful e) (g : G1) (h : G2) (α β : F)
    (hh : ∀ x, e x h = 0 → x = 0) (ck op : G1) (tr : List F) (r z : F) :
    verifyKeyOpeningG1 E ⟨g, h, β • g, α • h⟩ ck op tr r z = .ok true ↔
      ck - (tr.mapIdx fun j x => 1 + x * (r * z ^ 2) ^ 2 ^ j).prod • g = (α - z) • op := by
  rw [verifyKeyOpeningG1_eq hE, ((C26_key_polynomial tr r).choose_spec.2.2.2.2 z).2]
  simp only [Except.ok.injEq, decide_eq_true_eq, ← sub_smul, map_smul]
  constructor
  · intro h'
    have : e (ck - (tr.mapIdx fun j x => 1 + x * (r * z ^ 2) ^ 2 ^ j).prod • g - (α - z) • op) h = 0 := by
      rw [map_sub, LinearMap.sub_apply, h']; simp
    exact sub_eq_zero.mp (hh _ this)
  · intro h'
    rw [h']; simp

example : (∀ y, Toy.e 1 y = 0 → y = 0) ∧ ∀ x, Toy.e x 1 = 0 → x = 0 :=
  ⟨fun y h => by simpa using h, fun x h => by simpa using h⟩

end Openings

namespace Tipa

variable {ρ F MA MB T KT OA OB OT G1 G2 GT TF : Type} [Field F] [DecidableEq F]
  [AddCommGroup MA] [Module F MA] [AddCommGroup MB] [Module F MB] [AddCommGroup T] [Module F T]
  [AddCommGroup G1] [Module F G1] [AddCommGroup G2] [Module F G2]
  [AddCommGroup GT] [Module F GT] [Monoid TF] [DecidableEq GT]
  [AddCommGroup OA] [Module F OA] [AddCommGroup OB] [Module F OB] [Add OT] [SMul F OT]
  [DecidableEq T] [DecidableEq OA] [DecidableEq OB] [DecidableEq OT]
  {P : Gipa ρ F MA MB T G2 G1 KT OA OB OT} {V : TipaEnv F G1 G2 GT TF}
  {bil : MA →ₗ[F] MB →ₗ[F] T} {φa : MA →ₗ[F] G2 →ₗ[F] OA} {φb : MB →ₗ[F] G1 →ₗ[F] OB}
  {ψ : KT → T → OT} {e : G1 →ₗ[F] G2 →ₗ[F] GT}

/-- C29 with shift `r`: left keys `r^-i β^(2i) h`, right keys as given by the reference string.
Unless a challenge search runs through all nonces, a proof is returned and accepted. -/
theorem C29_complete_shift (L : P.Lawful bil φa φb ψ) (hE : V.E.Lawful e)
    (hd : ∀ x, 16 ≤ (P.digest x).length) (k : ℕ) (srs : SRS G1 G2) (g : G1) (h : G2) (α β r : F)
    (hr : r ≠ 0) (hsrs : IsSrs srs g h α β (2 ^ (k + 1))) (ma : List MA) (mb : List MB) (t : T)
    (kt : KT) (com : Coms OA OB OT) (h1 : ma.length = 2 ^ (k + 1)) (h2 : mb.length = 2 ^ (k + 1))
    (H : Gipa.Honest P ma mb t (srs.commitmentKeys.1.mapIdx fun i ck => (r⁻¹) ^ i • ck)
      srs.commitmentKeys.2 kt com) :
    proveWithShift V P srs ma mb (srs.commitmentKeys.1.mapIdx fun i ck => (r⁻¹) ^ i • ck)
        srs.commitmentKeys.2 kt r = .error .diverge ∨
    ∃ v proof, srs.verifierKey = .ok v ∧
      proveWithShift V P srs ma mb (srs.commitmentKeys.1.mapIdx fun i ck => (r⁻¹) ^ i • ck)
        srs.commitmentKeys.2 kt r = .ok proof ∧
      verifyWithShift V P v kt com proof r = .ok true := by
  obtain ⟨e1, e2, e3⟩ := C25_keys srs g h α β _ (Nat.one_le_two_pow) hsrs
  have e1' : (srs.commitmentKeys.1.mapIdx fun i ck => (r⁻¹) ^ i • ck) =
      (List.range (2 ^ (k + 1))).map fun i => r⁻¹ ^ i • (β ^ (2 * i) • h) := by
    rw [e1]
    apply List.ext_getElem?
    intro i
    by_cases hi : i < 2 ^ (k + 1)
    · simp [hi]
    · simp [hi]
  rw [e1', e2] at H ⊢
  rw [e3]
  have hl : ((List.range (2 ^ (k + 1))).map fun i => r⁻¹ ^ i • (β ^ (2 * i) • h)).length =
    2 ^ (k + 1) := by simp
  have hl2 : ((List.range (2 ^ (k + 1))).map fun i => α ^ (2 * i) • g).length =
    2 ^ (k + 1) := by simp
  obtain ⟨ht, hcom⟩ := H.eq L h1 h2 hl hl2
  rcases Gipa.proveWithAux_outcome L hd kt (k + 1) ma mb _ _ h1 h2 hl hl2 with
    hdiv | ⟨steps, cs, a, b, ka, kb, O⟩
  · left; rw [proveWithShift, hdiv]; rfl
  · have hcs : cs.reverse ≠ [] := by
      intro h0
      have := O.length_cs
      rw [List.reverse_eq_nil_iff.mp h0] at this
      simp at this
    have hne : ∀ x ∈ cs.reverse, x ≠ 0 := fun x hx => O.ne_zero x (by simpa using hx)
    rcases kzgChallenge_total V P.digest P.serF cs.reverse ka kb hcs with ⟨c, hc⟩ | hdiv
    · right
      obtain ⟨proof, p1, -, -, p2⟩ := complete_of_outcome L hE (k + 1) srs g h α β r hr hsrs ma mb kt steps cs
        a b ka kb O c hc
      exact ⟨_, proof, rfl, p1, by rw [hcom]; exact p2⟩
    · left
      rw [proveWithShift, O.run]
      simp only [ok_bind]
      rw [invertAll_eq _ hne, inverse_of_ne hr]
      simp only [ok_bind, unwrap_some]
      rw [hdiv]; rfl

theorem mapIdx_one (l : List G2) : (l.mapIdx fun i ck => ((1 : F)⁻¹) ^ i • ck) = l := by
  simp [List.mapIdx_eq_zipIdx_map]

/-- C29: without shift. -/
theorem C29_complete (L : P.Lawful bil φa φb ψ) (hE : V.E.Lawful e)
    (hd : ∀ x, 16 ≤ (P.digest x).length) (k : ℕ) (srs : SRS G1 G2) (g : G1) (h : G2) (α β : F)
    (hsrs : IsSrs srs g h α β (2 ^ (k + 1))) (ma : List MA) (mb : List MB) (t : T)
    (kt : KT) (com : Coms OA OB OT) (h1 : ma.length = 2 ^ (k + 1)) (h2 : mb.length = 2 ^ (k + 1))
    (H : Gipa.Honest P ma mb t srs.commitmentKeys.1 srs.commitmentKeys.2 kt com) :
    prove V P srs ma mb srs.commitmentKeys.1 srs.commitmentKeys.2 kt = .error .diverge ∨
    ∃ v proof, srs.verifierKey = .ok v ∧
      prove V P srs ma mb srs.commitmentKeys.1 srs.commitmentKeys.2 kt = .ok proof ∧
      verify V P v kt com proof = .ok true := by
  have := C29_complete_shift L hE hd k srs g h α β 1 one_ne_zero hsrs ma mb t kt com h1 h2
    (by rw [mapIdx_one]; exact H)
  rw [mapIdx_one] at this
  exact this

/-- C29, unconditional form: if the challenge searches end (which C29 shows to be the only obstacle),
a proof is returned and accepted. -/
theorem C29_complete_total (L : P.Lawful bil φa φb ψ) (hE : V.E.Lawful e)
    (hd : ∀ x, 16 ≤ (P.digest x).length) (hs : P.SearchEnds)
    (hrb : KzgEnds V P.digest P.serF)
    (k : ℕ) (srs : SRS G1 G2) (g : G1) (h : G2) (α β r : F)
    (hr : r ≠ 0) (hsrs : IsSrs srs g h α β (2 ^ (k + 1))) (ma : List MA) (mb : List MB) (t : T)
    (kt : KT) (com : Coms OA OB OT) (h1 : ma.length = 2 ^ (k + 1)) (h2 : mb.length = 2 ^ (k + 1))
    (H : Gipa.Honest P ma mb t (srs.commitmentKeys.1.mapIdx fun i ck => (r⁻¹) ^ i • ck)
      srs.commitmentKeys.2 kt com) :
    ∃ v proof, srs.verifierKey = .ok v ∧
      proveWithShift V P srs ma mb (srs.commitmentKeys.1.mapIdx fun i ck => (r⁻¹) ^ i • ck)
        srs.commitmentKeys.2 kt r = .ok proof ∧
      verifyWithShift V P v kt com proof r = .ok true := by
  refine (C29_complete_shift L hE hd k srs g h α β r hr hsrs ma mb t kt com h1 h2 H).resolve_left ?_
  obtain ⟨e1, e2, e3⟩ := C25_keys srs g h α β _ (Nat.one_le_two_pow) hsrs
  have hl : (srs.commitmentKeys.1.mapIdx fun i ck => (r⁻¹) ^ i • ck).length = 2 ^ (k + 1) := by
    simp [e1]
  have hl2 : srs.commitmentKeys.2.length = 2 ^ (k + 1) := by simp [e2]
  obtain ⟨steps, cs, a, b, ka, kb, O⟩ :=
    Gipa.proveWithAux_total L hd hs kt (k + 1) ma mb _ _ h1 h2 hl hl2
  have hcs : cs.reverse ≠ [] := by
    intro h0
    have := O.length_cs
    rw [List.reverse_eq_nil_iff.mp h0] at this
    simp at this
  obtain ⟨c, hc⟩ := kzgChallenge_ends V P.digest P.serF hrb cs.reverse ka kb hcs
  have hne : ∀ x ∈ cs.reverse, x ≠ 0 := fun x hx => O.ne_zero x (by simpa using hx)
  have hnei : ∀ x ∈ cs.reverse.map (·⁻¹), x ≠ 0 := by
    intro x hx
    obtain ⟨y, hy, rfl⟩ := List.mem_map.mp hx
    exact inv_ne_zero (hne y hy)
  have hsz : 2 * 2 ^ (k + 1) - 1 = 2 ^ (k + 1 + 1) - 1 := by rw [pow_succ 2 (k + 1), mul_comm]
  obtain ⟨opA, hA1, -⟩ := opening_G2 hE (cs.reverse.map (·⁻¹)) hnei r⁻¹ c (inv_ne_zero hr) g h α β
    srs.hBetaPowers (by rw [hsrs.hBeta, List.length_map, List.length_reverse, O.length_cs, hsz])
  obtain ⟨opB, hB1, -⟩ := opening_G1 hE cs.reverse hne 1 c one_ne_zero g h α β
    srs.gAlphaPowers (by rw [hsrs.gAlpha, List.length_reverse, O.length_cs, hsz])
  rw [proveWithShift, O.run]
  simp only [ok_bind]
  rw [invertAll_eq _ hne, inverse_of_ne hr]
  simp only [ok_bind, unwrap_some]
  rw [hc]
  simp only [ok_bind]
  rw [hA1, hB1]
  simp

/-- C30: vectors of length one make the TIPA prover panic. -/
theorem C30_prove_length_one (V : TipaEnv F G1 G2 GT TF) (P : Gipa ρ F MA MB T G2 G1 KT OA OB OT)
    (srs : SRS G1 G2) (a : MA) (b : MB) (ka : G2) (kb : G1) (kt : KT) (r : F) :
    proveWithShift V P srs [a] [b] [ka] [kb] kt r = .error (.panic .unwrap) ∧
    prove V P srs [a] [b] [ka] [kb] kt = .error (.panic .unwrap) := by
  have hp : P.proveWithAux [a] [b] [ka] [kb] [kt] =
      .ok ({ steps := [], base := (a, b) }, { transcript := [], ckBase := (ka, kb) }) := by
    have h1 : isPow2 1 = true := isPow2_two_pow 0
    unfold Gipa.proveWithAux Gipa.proveLoop
    simp [h1]
  have key : ∀ r : F, proveWithShift V P srs [a] [b] [ka] [kb] kt r = .error (.panic .unwrap) := by
    intro r
    rw [proveWithShift, hp]
    by_cases hr : r = 0
    · subst hr
      simp [invertAll, panic']
    · simp [invertAll, inverse_of_ne hr, kzgChallenge_nil, panic']
  exact ⟨key r, key 1⟩

/-- C30: verifying a proof without rounds panics. -/
theorem C30_verify_zero_rounds (V : TipaEnv F G1 G2 GT TF) (P : Gipa ρ F MA MB T G2 G1 KT OA OB OT)
    (v : VerifierSRS G1 G2) (kt : KT) (com : Coms OA OB OT)
    (proof : TipaProof G1 G2 MA MB OA OB OT) (r : F) (h : proof.gipa.steps = []) :
    verifyWithShift V P v kt com proof r = .error (.panic .unwrap) := by
  rw [verifyWithShift]
  simp [Gipa.recursiveChallenges, h, Gipa.recLoop, invertAll, kzgChallenge_nil, panic']

/-- C31: when TIPA accepts, exactly. `tr` is the derived transcript, `c` the KZG challenge. -/
theorem C31_accepts_iff (v : VerifierSRS G1 G2) (kt : KT) (com com' : Coms OA OB OT)
    (proof : TipaProof G1 G2 MA MB OA OB OT) (r : F) (hr : r ≠ 0) (tr : List F) (c : F)
    (hrec : P.recursiveChallenges com proof.gipa = .ok (com', tr))
    (hc : kzgChallenge V P.digest P.serF tr proof.finalCk.1 proof.finalCk.2 = .ok c)
    (hE : V.E.Lawful e) (L : P.Lawful bil φa φb ψ) :
    verifyWithShift V P v kt com proof r = .ok true ↔
      verifyKeyOpeningG2 V.E v proof.finalCk.1 proof.finalCkProof.1 (tr.map (·⁻¹)) r⁻¹ c = .ok true ∧
      verifyKeyOpeningG1 V.E v proof.finalCk.2 proof.finalCkProof.2 tr 1 c = .ok true ∧
      com'.1 = φa proof.gipa.base.1 proof.finalCk.1 ∧
      com'.2.1 = φb proof.gipa.base.2 proof.finalCk.2 ∧
      com'.2.2 = ψ kt (bil proof.gipa.base.1 proof.gipa.base.2) := by
  have hne := (Gipa.C16_challenges_nonzero _ _ _ _ hrec).2
  rw [verifyWithShift, hrec]
  simp only [ok_bind]
  rw [invertAll_eq _ hne, inverse_of_ne hr]
  simp only [ok_bind, unwrap_some]
  rw [hc]
  simp only [ok_bind]
  rw [verifyKeyOpeningG2_eq hE, verifyKeyOpeningG1_eq hE, Gipa.verifyBase_eq L]
  simp [Gipa.honestComs, Prod.ext_iff, and_assoc]

/-- C31: if the final keys in the proof are the keys folded with the derived challenges, TIPA accepts
only if GIPA with the full key vectors accepts, and gives the same verdict if the openings of the final
keys are accepted. -/
theorem C31_same_verdict (v : VerifierSRS G1 G2) (kt : KT) (com com' : Coms OA OB OT)
    (proof : TipaProof G1 G2 MA MB OA OB OT) (r : F) (hr : r ≠ 0) (tr : List F) (c : F)
    (hrec : P.recursiveChallenges com proof.gipa = .ok (com', tr))
    (hc : kzgChallenge V P.digest P.serF tr proof.finalCk.1 proof.finalCk.2 = .ok c)
    (hE : V.E.Lawful e) (L : P.Lawful bil φa φb ψ) (cka : List G2) (ckb : List G1)
    (ha : cka.length = 2 ^ proof.gipa.steps.length) (hb : ckb.length = 2 ^ proof.gipa.steps.length)
    (hka : foldAll (tr.reverse.map (·⁻¹)) cka = [proof.finalCk.1])
    (hkb : foldAll tr.reverse ckb = [proof.finalCk.2]) :
    (verifyWithShift V P v kt com proof r = .ok true → P.verify cka ckb kt com proof.gipa = .ok true) ∧
    (verifyKeyOpeningG2 V.E v proof.finalCk.1 proof.finalCkProof.1 (tr.map (·⁻¹)) r⁻¹ c = .ok true →
      verifyKeyOpeningG1 V.E v proof.finalCk.2 proof.finalCkProof.2 tr 1 c = .ok true →
      verifyWithShift V P v kt com proof r = P.verify cka ckb kt com proof.gipa) := by
  have hne := (Gipa.C16_challenges_nonzero _ _ _ _ hrec).2
  have hrec' := hrec
  rw [Gipa.recursiveChallenges_eq] at hrec'
  have hv : P.verify cka ckb kt com proof.gipa = .ok (decide
      (com' = Gipa.honestComs bil φa φb ψ kt [proof.gipa.base.1] [proof.gipa.base.2]
        [proof.finalCk.1] [proof.finalCk.2])) := by
    rw [Gipa.verify_eq L _ _ _ _ _ ha hb]
    cases hch : P.chals proof.gipa.steps.reverse [] with
    | error e => simp [hch] at hrec'
    | ok cs =>
      simp only [hch, ok_bind, Except.ok.injEq, Prod.mk.injEq] at hrec' ⊢
      obtain ⟨h1, h2⟩ := hrec'
      have h2' : tr.reverse = cs := by rw [← h2, List.reverse_reverse]
      rw [h2'] at hka hkb
      rw [h1, hka, hkb]
  have ht : verifyWithShift V P v kt com proof r = (do
      let a ← verifyKeyOpeningG2 V.E v proof.finalCk.1 proof.finalCkProof.1 (tr.map (·⁻¹)) r⁻¹ c
      let b ← verifyKeyOpeningG1 V.E v proof.finalCk.2 proof.finalCkProof.2 tr 1 c
      return (a && b && decide
      (com' = Gipa.honestComs bil φa φb ψ kt [proof.gipa.base.1] [proof.gipa.base.2]
        [proof.finalCk.1] [proof.finalCk.2]))) := by
    rw [verifyWithShift, hrec]
    simp only [ok_bind]
    rw [invertAll_eq _ hne, inverse_of_ne hr]
    simp only [ok_bind, unwrap_some]
    rw [hc]
    simp only [ok_bind]
    rw [Gipa.verifyBase_eq L]
    rfl
  rw [ht, hv, verifyKeyOpeningG2_eq hE, verifyKeyOpeningG1_eq hE]
  constructor
  · intro h
    simp only [ok_bind, pure_eq_ok, Except.ok.injEq, Bool.and_eq_true] at h ⊢
    exact h.2
  · intro h1 h2
    simp only [Except.ok.injEq] at h1 h2
    rw [h1, h2]; rfl

end Tipa

/-- C29 for the three TIPA instances of the crate. -/
theorem C29_instances {ρ F G1 G2 GT TF : Type} [Field F] [DecidableEq F]
    [AddCommGroup G1] [Module F G1] [AddCommGroup G2] [Module F G2]
    [AddCommGroup GT] [Module F GT] [Monoid TF] [DecidableEq G1] [DecidableEq G2] [DecidableEq GT]
    (V : Env ρ F G1 G2 GT TF) {e : G1 →ₗ[F] G2 →ₗ[F] GT} (hE : V.E.Lawful e)
    (hd : ∀ x, 16 ≤ (V.digest x).length) (k : ℕ) (srs : SRS G1 G2) (g : G1) (h : G2) (α β : F)
    (hsrs : IsSrs srs g h α β (2 ^ (k + 1))) :
    let ck1 := srs.commitmentKeys.1
    let ck2 := srs.commitmentKeys.2
    (∀ (ma : List G1) (mb : List G2), ma.length = 2 ^ (k + 1) → mb.length = 2 ^ (k + 1) →
      Tipa.prove V.tipa V.pairingAB srs ma mb ck1 ck2 PUnit.unit = .error .diverge ∨
      ∃ v proof, srs.verifierKey = .ok v ∧
        Tipa.prove V.tipa V.pairingAB srs ma mb ck1 ck2 PUnit.unit = .ok proof ∧
        Tipa.verify V.tipa V.pairingAB v PUnit.unit
          (dot (e · ·) ma ck1, dot (e · ·) ck2 mb, ⟨[dot (e · ·) ma mb]⟩) proof = .ok true) ∧
    (∀ (ma : List G1) (mb : List F), ma.length = 2 ^ (k + 1) → mb.length = 2 ^ (k + 1) →
      Tipa.prove V.tipa V.multiexpGipa srs ma mb ck1 ck2 PUnit.unit = .error .diverge ∨
      ∃ v proof, srs.verifierKey = .ok v ∧
        Tipa.prove V.tipa V.multiexpGipa srs ma mb ck1 ck2 PUnit.unit = .ok proof ∧
        Tipa.verify V.tipa V.multiexpGipa v PUnit.unit
          (dot (e · ·) ma ck1, dot (fun g s => s • g) ck2 mb,
            ⟨[dot (fun g s => s • g) ma mb]⟩) proof = .ok true) ∧
    (∀ (ma mb : List F), ma.length = 2 ^ (k + 1) → mb.length = 2 ^ (k + 1) →
      Tipa.prove V.tipa V.scalarTipa srs ma mb ck1 ck2 PUnit.unit = .error .diverge ∨
      ∃ v proof, srs.verifierKey = .ok v ∧
        Tipa.prove V.tipa V.scalarTipa srs ma mb ck1 ck2 PUnit.unit = .ok proof ∧
        Tipa.verify V.tipa V.scalarTipa v PUnit.unit
          (dot (fun g s => s • g) ck1 ma, dot (fun g s => s • g) ck2 mb,
            ⟨[dot (· * ·) ma mb]⟩) proof = .ok true) := by
  intro ck1 ck2
  obtain ⟨e1, e2, -⟩ := C25_keys srs g h α β _ (Nat.one_le_two_pow) hsrs
  have l1 : ck1.length = 2 ^ (k + 1) := by simp [ck1, e1]
  have l2 : ck2.length = 2 ^ (k + 1) := by simp [ck2, e2]
  refine ⟨fun ma mb h1 h2 => ?_, fun ma mb h1 h2 => ?_, fun ma mb h1 h2 => ?_⟩
  · exact Tipa.C29_complete (V := V.tipa) (pairingAB_lawful V hE) hE hd k srs g h α β hsrs ma mb
      (dot (e · ·) ma mb) PUnit.unit _ h1 h2
      ⟨pairingIP_eq hE V.X _ _ (h1.trans h2.symm), pairingIP_eq hE V.X _ _ (h1.trans l1.symm),
        pairingIP_eq hE V.X _ _ (l2.trans h2.symm), rfl⟩
  · exact Tipa.C29_complete (V := V.tipa) (multiexpGipa_lawful V hE) hE hd k srs g h α β hsrs ma mb
      (dot (fun g s => s • g) ma mb) PUnit.unit _ h1 h2
      ⟨multiexpIP_eq _ _ (h1.trans h2.symm), pairingIP_eq hE V.X _ _ (h1.trans l1.symm),
        multiexpIP_eq _ _ (l2.trans h2.symm), rfl⟩
  · exact Tipa.C29_complete (V := V.tipa) (scalarTipa_lawful V) hE hd k srs g h α β hsrs ma mb
      (dot (· * ·) ma mb) PUnit.unit _ h1 h2
      ⟨scalarIP_eq V.X _ _ (h1.trans h2.symm), multiexpIP_eq _ _ (l1.trans h1.symm),
        multiexpIP_eq _ _ (l2.trans h2.symm), rfl⟩


theorem Toy.fromRandomBytes_digest (x : Bytes) :
    ∃ c, Toy.env.tipa.fromRandomBytes (Toy.env.digest x) = some c := ⟨3, by simp only [Toy.env, Toy.digest, Env.tipa]; decide⟩

theorem Toy.kzgEnds : Tipa.KzgEnds Toy.env.tipa Toy.env.digest Toy.env.serF :=
  Tipa.kzgEnds_of_decodes _ _ _ Toy.fromRandomBytes_digest

theorem Toy.ssmKzgEnds : TipaSsm.KzgEnds Toy.env.tipa Toy.env.digest Toy.env.serF :=
  TipaSsm.kzgEnds_of_decodes _ _ _ Toy.fromRandomBytes_digest

example : ∃ v proof com, Toy.srs.verifierKey = .ok v ∧
    Tipa.proveWithShift Toy.env.tipa Toy.env.pairingAB Toy.srs [1, 2, 3, 4] [5, 6, 7, 8]
      (Toy.srs.commitmentKeys.1.mapIdx fun i ck => ((2 : Toy.F)⁻¹) ^ i • ck)
      Toy.srs.commitmentKeys.2 PUnit.unit 2 = .ok proof ∧
    Tipa.verifyWithShift Toy.env.tipa Toy.env.pairingAB v PUnit.unit com proof 2 = .ok true := by
  obtain ⟨v, proof, h⟩ := Tipa.C29_complete_total (V := Toy.env.tipa)
    (pairingAB_lawful Toy.env Toy.lawful) Toy.lawful Toy.digest_length
    (searchEnds_of_digest _ Toy.digest_length Toy.digest_ne_zero) Toy.kzgEnds 1 Toy.srs
    (1 : Toy.F) (1 : Toy.F) 3 5 2 (by decide) Toy.srs_isSrs [1, 2, 3, 4] [5, 6, 7, 8] _ PUnit.unit
    (_, _, _) rfl rfl
    ⟨pairingIP_eq Toy.lawful Toy.X [1, 2, 3, 4] [5, 6, 7, 8] rfl,
      pairingIP_eq Toy.lawful Toy.X [1, 2, 3, 4]
        (Toy.srs.commitmentKeys.1.mapIdx fun i ck => ((2 : Toy.F)⁻¹) ^ i • ck) rfl,
      pairingIP_eq Toy.lawful Toy.X Toy.srs.commitmentKeys.2 [5, 6, 7, 8] rfl, rfl⟩
  exact ⟨v, proof, _, h⟩

end Ripp
