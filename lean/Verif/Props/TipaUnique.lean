import Verif.Props.GipaUnique
import Verif.Props.Malleable
import Verif.Props.TipaStatic

/-!
# C126: accepted TIPA proofs are those of the honest prover, in the random oracle model

C125 with a reference string: also the final keys and their openings are those of the honest prover.
-/

set_option linter.unusedSectionVars false
set_option linter.unusedVariables false

namespace Ripp.Gipa

open Spec

variable {ρ F MA MB T KA KB KT OA OB OT : Type} [Field F] [DecidableEq F]
  [AddCommGroup MA] [Module F MA] [AddCommGroup MB] [Module F MB]
  [AddCommGroup T] [Module F T] [AddCommGroup KA] [Module F KA] [AddCommGroup KB] [Module F KB]
  [AddCommGroup OA] [Module F OA] [AddCommGroup OB] [Module F OB] [Add OT] [SMul F OT]
  {P : Gipa ρ F MA MB T KA KB KT OA OB OT}
  {β : MA →ₗ[F] MB →ₗ[F] T} {φa : MA →ₗ[F] KA →ₗ[F] OA} {φb : MB →ₗ[F] KB →ₗ[F] OB}
  {ψ : KT → T → OT}

/-- A run of the loop that returns has the expected outcome; nothing is assumed about the hash function. -/
theorem proveLoop_ok (L : P.Lawful β φa φb ψ) (kt : KT) : ∀ (k fuel : ℕ) (st : ProveState F MA MB KA KB OA OB OT),
    st.ma.length = 2 ^ k → st.mb.length = 2 ^ k → st.cka.length = 2 ^ k → st.ckb.length = 2 ^ k →
    ∀ res, P.proveLoop [kt] fuel st = .ok res →
      ∃ steps cs a b ka kb, LoopOutcome P β φa φb ψ kt fuel k st steps cs a b ka kb := by
  intro k
  induction k with
  | zero =>
    intro fuel st h1 h2 h3 h4 res _
    obtain ⟨a, ha⟩ := List.length_eq_one_iff.mp (by simpa using h1)
    obtain ⟨b, hb⟩ := List.length_eq_one_iff.mp (by simpa using h2)
    obtain ⟨ka, hka⟩ := List.length_eq_one_iff.mp (by simpa using h3)
    obtain ⟨kb, hkb⟩ := List.length_eq_one_iff.mp (by simpa using h4)
    refine ⟨[], [], a, b, ka, kb, ?_, rfl, rfl, by simp, by simp [Gipa.chals], by simp [foldAll, ha],
      by simp [foldAll, hb], by simp [foldAll, hka], by simp [foldAll, hkb],
      by simp [foldMany, ha, hb, hka, hkb]⟩
    unfold proveLoop
    simp [ha, hb, hka, hkb]
  | succ k ih =>
    intro fuel st h1 h2 h3 h4 res hres
    have e : (2 : ℕ) ^ (k + 1) = 2 * 2 ^ k := by rw [pow_succ]; ring
    rw [e] at h1 h2 h3 h4
    have hne : ¬ st.ma.length = 1 := by omega
    obtain _ | fuel := fuel
    · rw [proveLoop, if_neg hne] at hres
      cases hres
    rw [proveLoop, if_neg hne, proveRound_eq L kt (2 ^ k) st h1 h2 h3 h4] at hres
    set com1 := cross1 β φa φb ψ kt (2 ^ k) st.ma st.mb st.cka st.ckb with hcom1
    set com2 := cross2 β φa φb ψ kt (2 ^ k) st.ma st.mb st.cka st.ckb with hcom2
    cases hch : P.challenge (st.transcript.getLast?.getD 0) com1 com2 with
    | error x =>
      rw [hch] at hres
      cases hres
    | ok p =>
      obtain ⟨c, ci⟩ := p
      obtain ⟨hc, rfl⟩ := P.challenge_ok hch
      rw [hch] at hres
      simp only [ok_bind] at hres
      obtain ⟨steps, cs, a, b, ka, kb, O⟩ := ih fuel (nextState c com1 com2 st) (length_foldHalf _ _ _ h1)
        (length_foldHalf _ _ _ h2) (length_foldHalf _ _ _ h3) (length_foldHalf _ _ _ h4) res hres
      refine ⟨(com1, com2) :: steps, c :: cs, a, b, ka, kb, ?_, by simp [O.length_steps],
        by simp [O.length_cs], ?_, ?_, O.fold_ma, O.fold_mb, O.fold_cka, O.fold_ckb, ?_⟩
      · rw [proveLoop, if_neg hne]
        rw [proveRound_eq L kt (2 ^ k) st h1 h2 h3 h4, ← hcom1, ← hcom2, hch]
        simp only [ok_bind]
        rw [O.run]
        simp [nextState]
      · intro d hd
        rcases List.mem_cons.mp hd with rfl | hd
        · exact hc
        · exact O.ne_zero d hd
      · rw [Gipa.chals, hch]
        simp only [ok_bind]
        have := O.chals
        simpa [nextState] using this
      · rw [foldMany]
        have := O.coms
        rw [hcom1, hcom2, foldComs_honest L kt (2 ^ k) c hc _ _ _ _ h1 h2 h3 h4]
        exact this

theorem proveWithAux_ok (L : P.Lawful β φa φb ψ) (kt : KT) (k : ℕ) (ma : List MA) (mb : List MB) (cka : List KA)
    (ckb : List KB) (h1 : ma.length = 2 ^ k) (h2 : mb.length = 2 ^ k) (h3 : cka.length = 2 ^ k)
    (h4 : ckb.length = 2 ^ k) (π : GipaProof MA MB OA OB OT) (aux : GipaAux F KA KB)
    (hok : P.proveWithAux ma mb cka ckb [kt] = .ok (π, aux)) :
    ∃ steps cs a b ka kb, ProveOutcome P β φa φb ψ kt k ma mb cka ckb steps cs a b ka kb ∧
      π = { steps := steps.reverse, base := (a, b) } := by
  have hp : P.proveWithAux ma mb cka ckb [kt] = P.proveLoop [kt] ma.length
      { ma := ma, mb := mb, cka := cka, ckb := ckb, steps := [], transcript := [] } := by
    unfold proveWithAux
    rw [h1]; simp
  obtain ⟨steps, cs, a, b, ka, kb, O⟩ := proveLoop_ok L kt k ma.length
      { ma := ma, mb := mb, cka := cka, ckb := ckb, steps := [], transcript := [] } h1 h2 h3 h4 _ (hp ▸ hok)
  have hrun := O.run
  rw [← hp, hok] at hrun
  refine ⟨steps, cs, a, b, ka, kb, ⟨?_, O.length_steps, O.length_cs, O.ne_zero, by simpa using O.chals, O.fold_ma,
    O.fold_mb, O.fold_cka, O.fold_ckb, O.coms⟩, ?_⟩
  · rw [hp, O.run]; simp
  · have := (Prod.ext_iff.mp (Except.ok.inj hrun)).1
    simpa using this

end Ripp.Gipa

namespace Ripp.TipaStatic

open Spec Extract GipaStatic Polynomial

variable {ρ F MA MB T KT OA OB OT RT O G1 G2 GT TF : Type} [Field F] [DecidableEq F]
  [AddCommGroup MA] [Module F MA] [AddCommGroup MB] [Module F MB] [AddCommGroup T] [Module F T]
  [AddCommGroup G1] [Module F G1] [AddCommGroup G2] [Module F G2]
  [AddCommGroup GT] [Module F GT] [Monoid TF] [DecidableEq GT]
  [AddCommGroup OA] [Module F OA] [AddCommGroup OB] [Module F OB] [Add OT] [SMul F OT]
  [AddCommGroup O] [Module F O]
  [DecidableEq T] [DecidableEq OA] [DecidableEq OB] [DecidableEq OT] {n : ℕ}
  {V : TipaEnv F G1 G2 GT TF} {P : Gipa ρ F MA MB T G2 G1 KT OA OB OT}
  {φa : MA →ₗ[F] G2 →ₗ[F] OA} {φb : MB →ₗ[F] G1 →ₗ[F] OB} {τ : RT → OT} {srs : SRS G1 G2}
  {r : F} {Xs Ds : Finset Bytes} {bil : MA →ₗ[F] MB →ₗ[F] T} {ψ : KT → T → OT} {η : OT → Option O}
  {ψ' : T →ₗ[F] O} {e : G1 →ₗ[F] G2 →ₗ[F] GT}

/-- An accepted TIPA proof is the honest one if its GIPA part is, the final keys are the folded ones, and the point of
the openings is no trapdoor. -/
theorem honest_of_gipa (L : P.Lawful bil φa φb ψ) (hE : V.E.Lawful e) (kt : KT) (k : ℕ) (g : G1) (h : G2) (α β : F)
    (hsrs : IsSrs srs g h α β (2 ^ k)) (hg : ∀ y, e g y = 0 → y = 0) (hh : ∀ x, e x h = 0 → x = 0) (hr : r ≠ 0)
    (com com1 : Coms OA OB OT) (ma : List MA) (mb : List MB) (h1 : ma.length = 2 ^ k) (h2 : mb.length = 2 ^ k)
    (π : TipaProof G1 G2 MA MB OA OB OT) (aux : GipaAux F G2 G1) (tr : List F) (c : F)
    (hacc : Tipa.verifyWithShift V P ⟨g, h, β • g, α • h⟩ kt com π r = .ok true)
    (hgipa : P.proveWithAux ma mb (srs.commitmentKeys.1.mapIdx fun i ck => r⁻¹ ^ i • ck) srs.commitmentKeys.2 [kt] =
      .ok (π.gipa, aux))
    (hrec : P.recursiveChallenges com π.gipa = .ok (com1, tr))
    (hkzg : Tipa.kzgChallenge V P.digest P.serF tr π.finalCk.1 π.finalCk.2 = .ok c)
    (f1 : foldAll (tr.reverse.map (·⁻¹)) (srs.commitmentKeys.1.mapIdx fun i ck => r⁻¹ ^ i • ck) = [π.finalCk.1])
    (f2 : foldAll tr.reverse srs.commitmentKeys.2 = [π.finalCk.2]) (hα : c ≠ α) (hβ : c ≠ β) :
    Tipa.proveWithShift V P srs ma mb (srs.commitmentKeys.1.mapIdx fun i ck => r⁻¹ ^ i • ck) srs.commitmentKeys.2 kt r =
      .ok π := by
  obtain ⟨e1, e2, e3⟩ := C25_keys srs g h α β _ (Nat.one_le_two_pow) hsrs
  have e1' : (srs.commitmentKeys.1.mapIdx fun i ck => (r⁻¹) ^ i • ck) =
      (List.range (2 ^ k)).map fun i => r⁻¹ ^ i • (β ^ (2 * i) • h) := by
    rw [e1]
    apply List.ext_getElem?
    intro i
    by_cases hi : i < 2 ^ k
    · simp [hi]
    · simp [hi]
  rw [e1', e2] at hgipa ⊢
  rw [e1'] at f1
  rw [e2] at f2
  obtain ⟨steps, cs, a, b, ka, kb, O, hπ⟩ := Gipa.proveWithAux_ok L kt k ma mb _ _ h1 h2 (by simp) (by simp) _ _ hgipa
  have hcs : tr = cs.reverse := by
    rw [Gipa.recursiveChallenges_eq, hπ] at hrec
    simp only [List.reverse_reverse, O.chals, ok_bind, Except.ok.injEq, Prod.mk.injEq] at hrec
    exact hrec.2.symm
  subst hcs
  rw [List.reverse_reverse] at f1 f2
  have ka' : ka = π.finalCk.1 := List.singleton_injective (O.fold_cka.symm.trans f1)
  have kb' : kb = π.finalCk.2 := List.singleton_injective (O.fold_ckb.symm.trans f2)
  subst ka' kb'
  obtain ⟨π', p1, p2, p3, p4⟩ := Tipa.complete_of_outcome L hE k srs g h α β r hr hsrs ma mb kt steps cs a b _ _ O c hkzg
  rw [p1]
  congr 1
  obtain ⟨cs1, c1, hc1, hk1, o1, o2, -⟩ := Tipa.accepted_equations L hE _ kt _ π r hacc
  obtain ⟨cs2, c2, hc2, hk2, o1', o2', -⟩ := Tipa.accepted_equations L hE _ kt _ π' r p4
  rw [hπ, List.reverse_reverse, O.chals] at hc1
  rw [p2, List.reverse_reverse, O.chals] at hc2
  cases hc1
  cases hc2
  rw [hkzg] at hk1
  cases hk1
  rw [p3, hkzg] at hk2
  cases hk2
  rw [p3] at o1' o2'
  have eo : π'.finalCkProof.1 = π.finalCkProof.1 := by
    have := o1'.symm.trans o1
    simp only [← sub_smul, map_smul, LinearMap.smul_apply] at this
    have := smul_right_injective _ (sub_ne_zero.mpr hβ.symm) this
    exact sub_eq_zero.mp (hg _ (by rw [map_sub, this, sub_self]))
  have eo' : π'.finalCkProof.2 = π.finalCkProof.2 := by
    have := o2'.symm.trans o2
    simp only [← sub_smul, map_smul] at this
    have := smul_right_injective _ (sub_ne_zero.mpr hα.symm) this
    exact sub_eq_zero.mp (hh _ (by rw [map_sub, LinearMap.sub_apply, this, sub_self]))
  obtain ⟨π1, f, o, o'⟩ := π
  obtain ⟨π2, f', p, p'⟩ := π'
  simp only at hπ p2 p3 eo eo'
  subst hπ p2 p3 eo eo'
  rfl

variable (hmem : ∀ k z1 z2, P.hashInput 0 k (coms φa φb τ (leftKey srs r n) (rightKey srs n) z1)
    (coms φa φb τ (leftKey srs r n) (rightKey srs n) z2) ∈ Xs)
  (hpt : ∀ t x ka kb, t < 2 ^ 64 → pointInput V P t x ka kb ∈ Xs)

open Classical in
/-- C126: fix a reference string for vectors of length `2^k`, commitments with the keys in it and an opening of the two
vector commitments. For an algebraic prover as in C92 it holds, except for the same share of all oracles: if the verifier
accepts, finds the opening point among the first `N` attempts, and the prover has found no collision of the keys, no
non-zero polynomial of which the trapdoors are a zero, and no opening point that is a trapdoor, then the committed inner
product is the right one and the whole proof is the one `TIPA::prove_with_srs_shift` returns for the opening. -/
theorem C126_unique (L : P.Lawful bil φa φb ψ) (hE : V.E.Lawful e) (kt : KT) (R : Reads F η (ψ kt) ψ')
    (hτ : ∀ r t, η (τ r) = some (ψ' t) → τ r = ψ kt t)
    (hF : Decodable (fun _ => True) P.serF) (hA : Decodable (fun _ => True) P.serA)
    (hB : Decodable (fun _ => True) P.serB) (hT : Decodable (· ∈ Set.range τ) P.serT)
    (hG2 : Decodable (fun _ => True) V.serG2) (hG1 : Decodable (fun _ => True) V.serG1)
    (hd : ∀ d ∈ Ds, 16 ≤ d.length) (m m' : ℕ)
    (hm : ∀ x : F, (Finset.univ.filter fun d : Ds => challengeOf F d = x).card ≤ m)
    (hm' : ∀ c, (Finset.univ.filter fun d : Ds => V.fromRandomBytes d = some c).card ≤ m') (k : ℕ)
    (hn : n = 2 ^ k) (g : G1) (h : G2) (α β : F) (hsrs : IsSrs srs g h α β n) (hg0 : g ≠ 0) (hh0 : h ≠ 0)
    (hg : ∀ y, e g y = 0 → y = 0) (hh : ∀ x, e x h = 0 → x = 0) (v : VerifierSRS G1 G2)
    (hv : srs.verifierKey = .ok v) (hr : r ≠ 0) (com : Coms OA OB OT) (ra : Fin n → MA) (rb : Fin n → MB)
    (hra : com.1 = commitTo φa (leftKey srs r n) ra) (hrb : com.2.1 = commitTo φb (rightKey srs n) rb)
    (A : Prover n F MA MB RT Xs Ds) (Q N : ℕ) (hN : N ≤ 2 ^ 64)
    (hlab : ∀ ds z x, A.query ds = link P φa φb τ (leftKey srs r n) (rightKey srs n) hmem z x →
      coms φa φb τ (leftKey srs r n) (rightKey srs n) (A.label ds).1 =
        coms φa φb τ (leftKey srs r n) (rightKey srs n) z.1 ∧
      coms φa φb τ (leftKey srs r n) (rightKey srs n) (A.label ds).2 =
        coms φa φb τ (leftKey srs r n) (rightKey srs n) z.2)
    (hkeys : ∀ ds, ∀ t < 2 ^ 64, ∀ x ka kb, (A.query ds : Bytes) = pointInput V P t x ka kb →
      left srs (A.keys ds).1 = ka ∧ right srs (A.keys ds).2 = kb)
    (hsep : ∀ t < 2 ^ 64, ∀ z x x' ka kb,
      (link P φa φb τ (leftKey srs r n) (rightKey srs n) hmem z x : Bytes) ≠ pointInput V P t x' ka kb)
    (hsteps : ∀ ds, (A.steps ds).length = k) :
    (Finset.univ.filter fun H : Xs → Ds =>
      Tipa.verifyWithShift V (withDigest P (Sipp.oracle H)) v kt com (A.tipaProof φa φb τ srs r Q H) r =
        .ok true ∧
      ¬ Clash φa (leftKey srs r n) (A.toProver.pairA P φa φb τ (leftKey srs r n) (rightKey srs n) hmem ra Q k H) ∧
      ¬ Clash φb (rightKey srs n) (A.toProver.pairB P φa φb τ (leftKey srs r n) (rightKey srs n) hmem rb Q k H) ∧
      (∃ t, ∃ ht : t < N, ∃ c,
        V.fromRandomBytes (H (A.point V P φa φb τ srs r hmem hpt Q t (ht.trans_le hN) H)) = some c ∧
        (∀ t', ∀ ht' : t' < t, V.fromRandomBytes
          (H (A.point V P φa φb τ srs r hmem hpt Q t' ((ht'.trans ht).trans_le hN) H)) = none) ∧
        ¬ Leak (A.knownKeys V P φa φb τ srs r hmem hpt Q k t (ht.trans_le hN) H).1
          (A.opening (Oracle.trace A.query H Q)).1
          ((keyPoly ((A.transcript P φa φb τ srs r hmem Q H).map (·⁻¹)) r⁻¹).eval c) c β α ∧
        ¬ Leak (A.knownKeys V P φa φb τ srs r hmem hpt Q k t (ht.trans_le hN) H).2
          (A.opening (Oracle.trace A.query H Q)).2
          ((keyPoly (A.transcript P φa φb τ srs r hmem Q H) 1).eval c) c α β ∧ c ≠ α ∧ c ≠ β) ∧
      ¬ (η com.2.2 = some (ψ' (∑ i, bil (ra i) (rb i))) ∧
        Tipa.proveWithShift V (withDigest P (Sipp.oracle H)) srs (List.ofFn ra) (List.ofFn rb)
          (List.ofFn (leftKey srs r n)) (List.ofFn (rightKey srs n)) kt r =
          .ok (A.tipaProof φa φb τ srs r Q H))).card * Ds.card ≤
    ((Q + k) * (Q + k + 5) * m +
      N * ((Q + k + 1) * (2 * (2 * n - 2) * m') + (Q + k + 1) * (Q + k + 2) * m)) * Ds.card ^ Xs.card := by
  refine count_split hmem hpt hF hG2 hG1 m m' hm hm' k hn A Q N hN hkeys hsep hsteps _ _ fun W1 hW1 hgood => ?_
  refine le_trans (Nat.mul_le_mul_right _ (Finset.card_le_card fun H hH => ?_))
    (C125_unique hmem L kt R hτ hF hA hB hT hd m hm k hn com ra rb hra hrb A.toProver Q hlab hsteps)
  obtain ⟨-, hacc, hcA, hcB, ⟨t, ht, c, hc, hfirst, lA, lB, hα, hβ⟩, hnot⟩ := Finset.mem_filter.mp (hW1 hH)
  refine Finset.mem_filter.mpr ⟨Finset.mem_univ _, accepted_gipa hmem hpt L hE kt hd k hn g h α β hsrs hg0 hh0 hg hh v
    hv hr com A Q hsteps H _ (oracle_apply H) hacc t (ht.trans_le hN) c hc hfirst lA lB (hgood H hH t ht), hcA, hcB, ?_⟩
  rintro ⟨hsum, aux, hgipa⟩
  refine hnot ⟨hsum, ?_⟩
  obtain ⟨com1, tr, hrec, hkzg, f1, f2⟩ := accepted_keys hmem hpt L hE kt hd k hn g h α β hsrs hg0 hh0 hg hh v
    hv hr com A Q hsteps H _ (oracle_apply H) hacc t (ht.trans_le hN) c hc hfirst lA lB (hgood H hH t ht)
  have hn1 : 1 ≤ n := by rw [hn]; exact Nat.one_le_two_pow
  have L' : (withDigest P (Sipp.oracle H)).Lawful bil φa φb ψ :=
    ⟨L.ip_ok, L.lmc_ok, L.rmc_ok, L.ipc_ok, L.ψ_add, L.ψ_smul⟩
  rw [ofFn_leftKey hn1 hsrs, ofFn_rightKey hn1 hsrs] at hgipa ⊢
  rw [ofFn_leftKey hn1 hsrs] at f1
  rw [ofFn_rightKey hn1 hsrs] at f2
  rw [(C25_keys srs g h α β _ hn1 hsrs).2.2] at hv
  cases hv
  exact honest_of_gipa L' hE kt k g h α β (hn ▸ hsrs) hg hh hr com com1 _ _ (by simp [hn]) (by simp [hn]) _ aux tr c hacc
    hgipa hrec hkzg f1 f2 hα hβ

section Example

theorem mem_filter_univ {ι : Type} [Fintype ι] {p : ι → Prop} {d : DecidablePred p} {x : ι} (h : p x) :
    x ∈ @Finset.filter ι p d Finset.univ :=
  Finset.mem_filter.mpr ⟨Finset.mem_univ _, h⟩

open Classical in
/-- The vectors `(1, 2)` and `(3, 4)` with inner product 11; commitments `1 + 2 * 25 = 51` and `3 + 4 * 9 = 39`. One
query and one attempt for the opening point: a proof other than that of `TIPA::prove` in at most 38 in 101 of all
oracles. -/
theorem C126_example (A : Prover 2 Toy.F Toy.F Toy.F Toy.F exampleInputs exampleDigests)
    (hlab : ∀ ds z x, A.query ds = link exampleGipa Toy.e Toy.e single (leftKey exampleSrs (1 : Toy.F) 2)
        (rightKey exampleSrs 2) exampleInputs_mem z x →
      exampleComs (A.label ds).1 = exampleComs z.1 ∧ exampleComs (A.label ds).2 = exampleComs z.2)
    (hkeys : ∀ ds, ∀ t < 2 ^ 64, ∀ x ka kb,
      (A.query ds : Bytes) = pointInput exampleEnv exampleGipa t x ka kb →
      left exampleSrs (A.keys ds).1 = ka ∧ right exampleSrs (A.keys ds).2 = kb)
    (hsteps : ∀ ds, (A.steps ds).length = 1) (W : Finset (exampleInputs → exampleDigests))
    (hW : ∀ H ∈ W,
      Tipa.verify exampleEnv (withDigest exampleGipa (Sipp.oracle H)) ⟨1, 1, 5, 3⟩ PUnit.unit (51, 39, ⟨[11]⟩)
        (A.tipaProof Toy.e Toy.e single exampleSrs 1 1 H) = .ok true ∧
      ¬ Clash Toy.e (leftKey exampleSrs (1 : Toy.F) 2) (A.toProver.pairA exampleGipa Toy.e Toy.e single
        (leftKey exampleSrs (1 : Toy.F) 2) (rightKey exampleSrs 2) exampleInputs_mem ![1, 2] 1 1 H) ∧
      ¬ Clash Toy.e (rightKey exampleSrs 2) (A.toProver.pairB exampleGipa Toy.e Toy.e single
        (leftKey exampleSrs (1 : Toy.F) 2) (rightKey exampleSrs 2) exampleInputs_mem ![3, 4] 1 1 H) ∧
      Tipa.prove exampleEnv (withDigest exampleGipa (Sipp.oracle H)) exampleSrs [1, 2] [3, 4] [1, 25] [1, 9] PUnit.unit ≠
        .ok (A.tipaProof Toy.e Toy.e single exampleSrs 1 1 H) ∧
      ∀ c : Toy.F,
        ¬ Leak (A.knownKeys exampleEnv exampleGipa Toy.e Toy.e single exampleSrs 1 exampleInputs_mem
            exampleInputs_pt 1 1 0 (by norm_num) H).1 (A.opening (Oracle.trace A.query H 1)).1
          ((keyPoly ((A.transcript exampleGipa Toy.e Toy.e single exampleSrs 1 exampleInputs_mem 1 H).map (·⁻¹))
            1⁻¹).eval c) c 5 3 ∧
        ¬ Leak (A.knownKeys exampleEnv exampleGipa Toy.e Toy.e single exampleSrs 1 exampleInputs_mem
            exampleInputs_pt 1 1 0 (by norm_num) H).2 (A.opening (Oracle.trace A.query H 1)).2
          ((keyPoly (A.transcript exampleGipa Toy.e Toy.e single exampleSrs 1 exampleInputs_mem 1 H) 1).eval c) c
            3 5 ∧
        (exampleEnv.fromRandomBytes (H (A.point exampleEnv exampleGipa Toy.e Toy.e single exampleSrs 1 exampleInputs_mem
          exampleInputs_pt 1 0 (by norm_num) H)) = some c → c ≠ 3 ∧ c ≠ 5)) :
    W.card * 101 ≤ 38 * 101 ^ exampleInputs.card := by
  have := C126_unique (n := 2) (P := exampleGipa) (V := exampleEnv) (Xs := exampleInputs) (Ds := exampleDigests)
    (srs := exampleSrs) (r := 1) (τ := single) exampleInputs_mem
    exampleInputs_pt exampleGipa_lawful Toy.lawful PUnit.unit (reads_identity PUnit.unit)
    (by
      intro r t h
      simp only [single, List.head?_cons, Option.some.injEq] at h
      subst h
      rfl)
    decodable_ser decodable_ser decodable_ser (decodable_single decodable_ser) decodable_ser decodable_ser
    (by
      intro d hd
      obtain ⟨x, -, rfl⟩ := Finset.mem_image.mp hd
      simp [Toy.ser]) 1 1
    (fun x => Finset.card_le_one.mpr fun d hd d' hd' => exampleDigests_key d d'
      ((Finset.mem_filter.mp hd).2.trans (Finset.mem_filter.mp hd').2.symm))
    (fun x => Finset.card_le_one.mpr fun d hd d' hd' => exampleDigests_point d d' x
      (Finset.mem_filter.mp hd).2 (Finset.mem_filter.mp hd').2) 1 rfl 1 1 3 5 exampleSrs_isSrs (by decide)
    (by decide) (fun y h => by simpa using h) (fun y h => by simpa using h) ⟨1, 1, 5, 3⟩ rfl (by decide)
    (51, 39, ⟨[11]⟩) ![1, 2] ![3, 4] (by decide +kernel) (by decide +kernel) A 1 1
    (by norm_num) hlab hkeys (fun t _ => example_sep t) hsteps
  rw [card_exampleDigests, show (1 + 1) * (1 + 1 + 5) * 1 +
    1 * ((1 + 1 + 1) * (2 * (2 * 2 - 2) * 1) + (1 + 1 + 1) * (1 + 1 + 2) * 1) = 38 from rfl] at this
  have e1 : List.ofFn (leftKey exampleSrs (1 : Toy.F) 2) = [1, 25] := by decide +kernel
  have e2 : List.ofFn (rightKey exampleSrs 2) = [1, 9] := by decide +kernel
  have e3 : List.ofFn (![1, 2] : Fin 2 → Toy.F) = [1, 2] := rfl
  have e4 : List.ofFn (![3, 4] : Fin 2 → Toy.F) = [3, 4] := rfl
  refine le_trans (Nat.mul_le_mul_right _ (Finset.card_le_card fun H hH => ?_)) this
  obtain ⟨h1, h2, h3, h5, h4⟩ := hW H hH
  refine mem_filter_univ ⟨h1, h2, h3, ⟨0, by norm_num, ?_⟩, fun h => h5 ?_⟩
  swap
  · have h := h.2
    rw [e1, e2, e3, e4] at h
    exact h
  have hsome : ∀ d : exampleDigests, ∃ c, exampleEnv.fromRandomBytes d = some c := by
    rintro ⟨d, hd⟩
    obtain ⟨x, -, rfl⟩ := Finset.mem_image.mp hd
    exact ⟨((UInt8.ofNat x.val).toNat : Toy.F), by simp [exampleEnv, Toy.ser]⟩
  obtain ⟨c, hc⟩ := hsome (H (A.point exampleEnv exampleGipa Toy.e Toy.e single exampleSrs 1 exampleInputs_mem
    exampleInputs_pt 1 0 (by norm_num) H))
  exact ⟨c, hc, fun t' ht' => absurd ht' (Nat.not_lt_zero _), (h4 c).1, (h4 c).2.1, (h4 c).2.2 hc⟩

/-- The condition that the opening point is no trapdoor is needed: with this hash function it is 3, and besides the honest
proof the verifier accepts one with another opening of the right key. -/
example : [(24, 2), (24, 3), (25, 2)].map (fun o => Tipa.verify exampleEnv exampleGipa ⟨1, 1, 5, 3⟩ PUnit.unit
      (51, 39, ⟨[11]⟩) ⟨⟨[((2, 27, ⟨[6]⟩), (25, 4, ⟨[4]⟩))], (69, 15)⟩, (76, 4), o⟩) =
    [Except.ok true, .ok true, .ok false] := by
  decide +kernel

end Example

end Ripp.TipaStatic
