import Verif.Props.SsmUnique
import Verif.Props.TipaSsmStatic

/-!
# C130: accepted structured-message proofs with reference string, in the random oracle model

As C129 for `TIPAWithSSM`. The elements that stand for the right message are free here (C128). Nothing else is: an
accepted proof is the one that the prover of C128 returns for the elements in it.
-/

set_option linter.unusedSectionVars false
set_option linter.unusedVariables false

namespace Ripp

open Spec

namespace Gipa

variable {ρ F MA T KA KT OA OT : Type} [Field F] [DecidableEq F]
  [AddCommGroup MA] [Module F MA] [AddCommGroup T] [Module F T] [AddCommGroup KA] [Module F KA]
  [AddCommGroup OA] [Module F OA] [Add OT] [SMul F OT]
  {P : Gipa ρ F MA F T KA Placeholder KT OA F OT}
  {bil : MA →ₗ[F] F →ₗ[F] T} {φa : MA →ₗ[F] KA →ₗ[F] OA} {ψ : KT → T → OT}

/-- A run that returns has folded the key with its challenges, and these are not zero. -/
theorem taggedRun_key (kt : KT) : ∀ (zs : List (F × F)) (prev : F) (ma : List MA) (mb : List F) (cka : List KA)
    (steps : List (Coms OA F OT × Coms OA F OT)) (cs : List F) (as : List MA) (ks : List KA),
    taggedRun P bil φa ψ kt zs prev ma mb cka = .ok (steps, cs, as, ks) →
      ks = foldAll (cs.map (·⁻¹)) cka ∧ cs.length = zs.length ∧ ∀ c ∈ cs, c ≠ 0
  | [], prev, ma, mb, cka, steps, cs, as, ks, h => by
    cases h
    exact ⟨rfl, rfl, by simp⟩
  | z :: zs, prev, ma, mb, cka, steps, cs, as, ks, h => by
    rw [taggedRun] at h
    simp only [bind_eq_ok] at h
    obtain ⟨⟨c, ci⟩, hc, ⟨s', cs', a', k'⟩, h', h⟩ := h
    obtain ⟨e1, e2, e3⟩ := taggedRun_key kt zs _ _ _ _ _ _ _ _ h'
    cases h
    refine ⟨e1, by simp [e2], fun d hd => ?_⟩
    rcases List.mem_cons.mp hd with rfl | hd
    · exact (P.challenge_ok hc).1
    · exact e3 d hd

end Gipa

namespace TipaSsmStatic

open Extract SsmExtract Polynomial
open SsmStatic (Known coms coms2 link)
open GipaStatic (challengeOf withDigest Clash commitTo oracle_apply decodable_ser exampleDigests card_exampleDigests
  exampleDigests_key single decodable_single)
open TipaStatic (Comb left leftKey Leak)

variable {ρ F MA T KT OA OT RT O G1 G2 GT TF : Type} [Field F] [DecidableEq F]
  [AddCommGroup MA] [Module F MA] [AddCommGroup T] [Module F T]
  [AddCommGroup G1] [Module F G1] [AddCommGroup G2] [Module F G2]
  [AddCommGroup GT] [Module F GT] [Monoid TF] [DecidableEq GT]
  [AddCommGroup OA] [Module F OA] [Add OT] [SMul F OT]
  [AddCommGroup O] [Module F O]
  [DecidableEq T] [DecidableEq OA] [DecidableEq OT] {n : ℕ}
  {V : TipaEnv F G1 G2 GT TF} {P : Gipa ρ F MA F T G2 Placeholder KT OA F OT}
  {φa : MA →ₗ[F] G2 →ₗ[F] OA} {τ : RT → OT} {srs : SRS G1 G2}
  {Xs Ds : Finset Bytes} {bil : MA →ₗ[F] F →ₗ[F] T} {ψ : KT → T → OT} {η : OT → Option O}
  {ψ' : T →ₗ[F] O} {e : G1 →ₗ[F] G2 →ₗ[F] GT}

/-- An accepted proof is the one of the prover with its free elements, if its rounds are, the final key is the folded one,
and the point of the opening is no trapdoor. -/
theorem tagged_of_run (L : P.Lawful bil φa 0 ψ) (hE : V.E.Lawful e) (X : Exec) (kt : KT) (k : ℕ) (g : G1) (h : G2)
    (α β : F) (hsrs : IsLeftSrs srs g h α β (2 ^ k)) (hg : ∀ y, e g y = 0 → y = 0)
    (comA : OA) (comT : OT) (b : F) (com1 : Coms OA F OT) (ma : List MA) (mb : List F)
    (π : TipaSsmProof F G2 MA OA OT) (cs : List F) (ka : G2) (c : F) (hk : π.gipa.steps.length = k)
    (hacc : TipaSsm.verify X V P ⟨g, h, β • g, α • h⟩ kt comA comT b π = .ok true)
    (htag : Gipa.taggedRun P bil φa ψ kt (Gipa.tags π.gipa.steps.reverse) 0 ma mb srs.commitmentKeys.1 =
      .ok (π.gipa.steps.reverse, cs, [π.gipa.base.1], [ka]))
    (hrec : P.recursiveChallenges (comA, b, comT) π.gipa = .ok (com1, cs.reverse))
    (hkzg : TipaSsm.kzgChallenge V P.digest P.serF cs.reverse π.finalCk = .ok c)
    (f1 : foldAll (cs.map (·⁻¹)) srs.commitmentKeys.1 = [π.finalCk]) (hβ : c ≠ β) :
    TipaSsm.proveTagged V P bil φa ψ srs ma mb srs.commitmentKeys.1 kt (TipaSsm.free π).1 (TipaSsm.free π).2 = .ok π := by
  obtain ⟨g1, g2, g3⟩ := Gipa.taggedRun_key kt _ _ _ _ _ _ _ _ _ htag
  have hka : ka = π.finalCk := List.singleton_injective (g1.trans f1)
  subst hka
  have hlen : cs.length = k := by rw [g2, Gipa.tags, List.length_map, List.length_reverse, hk]
  have hne : ∀ x ∈ cs.reverse, x ≠ 0 := fun x hx => g3 x (by simpa using hx)
  have hnei : ∀ x ∈ cs.reverse.map (·⁻¹), x ≠ 0 := by
    intro x hx
    obtain ⟨y, hy, rfl⟩ := List.mem_map.mp hx
    exact inv_ne_zero (hne y hy)
  obtain ⟨b', -, hver, -⟩ := TipaSsm.C34_verdict L hE X ⟨g, h, β • g, α • h⟩ kt comA comT b π cs com1 c hrec hkzg
  obtain ⟨o1, -, -⟩ := hver.mp hacc
  obtain ⟨e1, -⟩ := hsrs.keys Nat.one_le_two_pow
  have hfin : π.finalCk = productForm (cs.reverse.map (·⁻¹)) β 1 • h := by
    have := fold_key (cs.reverse.map (·⁻¹)) h β 1 ((List.range (2 ^ k)).map fun i => β ^ (2 * i) • h)
      (by rw [List.length_map, List.length_reverse, hlen]; simp)
    rw [← List.map_reverse, List.reverse_reverse, ← e1, f1] at this
    simpa using this
  have hsz : 2 * 2 ^ k - 1 = 2 ^ (k + 1) - 1 := by rw [pow_succ 2 k, mul_comm]
  obtain ⟨op, hA1, hA2⟩ := opening_G2 hE (cs.reverse.map (·⁻¹)) hnei 1 c one_ne_zero g h α β
    srs.hBetaPowers (by rw [hsrs.hBeta, List.length_map, List.length_reverse, hlen, hsz])
  rw [← hfin] at hA2
  rw [verifyKeyOpeningG2_eq hE, Except.ok.injEq, decide_eq_true_eq] at o1 hA2
  have eo : op = π.finalCkProof := by
    have := hA2.symm.trans o1
    simp only [← sub_smul, map_smul, LinearMap.smul_apply] at this
    have := smul_right_injective _ (sub_ne_zero.mpr hβ.symm) this
    exact sub_eq_zero.mp (hg _ (by rw [map_sub, this, sub_self]))
  subst eo
  have hz : (TipaSsm.free π).1.reverse = Gipa.tags π.gipa.steps.reverse := by
    rw [TipaSsm.free, Gipa.tags, Gipa.tags, List.map_reverse]
  rw [TipaSsm.proveTagged, hz, htag]
  simp only [ok_bind, idx, List.getElem?_cons_zero]
  rw [invertAll_eq _ hne]
  simp only [ok_bind]
  rw [hkzg]
  simp only [ok_bind]
  rw [hA1]
  simp only [ok_bind, List.reverse_reverse, TipaSsm.free]
  rfl

variable (hmem : ∀ k z, P.hashInput 0 k (coms2 φa τ (leftKey srs (1 : F) n) z).1
    (coms2 φa τ (leftKey srs (1 : F) n) z).2 ∈ Xs)
  (hpt : ∀ t x ka, t < 2 ^ 64 → pointInput V P t x ka ∈ Xs)

open Classical in
/-- C130: fix a reference string for vectors of length `2^k`, a scalar `b`, a commitment to a left message and an opening
of it. For an algebraic prover as in C93 it holds, except for a small share of all oracles: if the verifier accepts, finds
the opening point among the first `N` attempts, and the prover has found no collision of the key, no non-zero polynomial
of which the trapdoors are a zero, and no opening point that is a trapdoor, then the committed inner product is the right
one, and the whole proof is the one that the prover of C128 returns for the opening and the free elements in it. -/
theorem C130_unique (L : P.Lawful bil φa 0 ψ) (hE : V.E.Lawful e) (X : Exec) (kt : KT)
    (R : Reads F η (ψ kt) ψ') (hτ : ∀ r t, η (τ r) = some (ψ' t) → τ r = ψ kt t)
    (hF : Decodable (fun _ => True) P.serF) (hA : Decodable (fun _ => True) P.serA)
    (hB : Decodable (fun _ => True) P.serB) (hT : Decodable (· ∈ Set.range τ) P.serT)
    (hG2 : Decodable (fun _ => True) V.serG2)
    (hd : ∀ d ∈ Ds, 16 ≤ d.length) (m m' : ℕ)
    (hm : ∀ x : F, (Finset.univ.filter fun d : Ds => challengeOf F d = x).card ≤ m)
    (hm' : ∀ c, (Finset.univ.filter fun d : Ds => V.fromRandomBytes d = some c).card ≤ m') (k : ℕ)
    (hn : n = 2 ^ k) (g : G1) (h : G2) (α β : F) (hsrs : IsLeftSrs srs g h α β n) (hh0 : h ≠ 0)
    (hg : ∀ y, e g y = 0 → y = 0) (v : VerifierSRS G1 G2)
    (hv : srs.verifierKey = .ok v) (comA : OA) (comT : OT) (b : F) (ra : Fin n → MA)
    (hra : comA = commitTo φa (leftKey srs (1 : F) n) ra)
    (A : Prover n F MA RT Xs Ds)
    (Q N : ℕ) (hN : N ≤ 2 ^ 64)
    (hlab : ∀ ds z x, A.query ds = link P φa τ (leftKey srs (1 : F) n) hmem z x →
      coms2 φa τ (leftKey srs (1 : F) n) (A.label ds) = coms2 φa τ (leftKey srs (1 : F) n) z)
    (hkeys : ∀ ds, ∀ t < 2 ^ 64, ∀ x ka, (A.query ds : Bytes) = pointInput V P t x ka →
      left srs (A.keys ds) = ka)
    (hsep : ∀ t < 2 ^ 64, ∀ z x x' ka,
      (link P φa τ (leftKey srs (1 : F) n) hmem z x : Bytes) ≠ pointInput V P t x' ka)
    (hsteps : ∀ ds, (A.steps ds).length = k) :
    (Finset.univ.filter fun H : Xs → Ds =>
      TipaSsm.verify X V (withDigest P (Sipp.oracle H)) v kt comA comT b (A.tipaProof φa τ srs Q H) =
        .ok true ∧
      ¬ Clash φa (leftKey srs (1 : F) n) (A.toProver.pair P φa τ (leftKey srs (1 : F) n) hmem ra Q k H) ∧
      (∃ t, ∃ ht : t < N, ∃ c,
        V.fromRandomBytes (H (A.point V P φa τ srs hmem hpt Q t (ht.trans_le hN) H)) = some c ∧
        (∀ t', ∀ ht' : t' < t, V.fromRandomBytes
          (H (A.point V P φa τ srs hmem hpt Q t' ((ht'.trans ht).trans_le hN) H)) = none) ∧
        ¬ Leak (A.knownKey V P φa τ srs hmem hpt Q k t (ht.trans_le hN) H)
          (A.opening (Oracle.trace A.query H Q))
          ((keyPoly ((A.transcript P φa τ srs hmem Q H).map (·⁻¹)) 1).eval c) c β α ∧ c ≠ β) ∧
      ¬ (η comT = some (ψ' (∑ i : Fin n, bil (ra i) (b ^ (i : ℕ)))) ∧
        TipaSsm.proveTagged V (withDigest P (Sipp.oracle H)) bil φa ψ srs (List.ofFn ra) (powers b n)
          (List.ofFn (leftKey srs (1 : F) n)) kt (TipaSsm.free (A.tipaProof φa τ srs Q H)).1
          (TipaSsm.free (A.tipaProof φa τ srs Q H)).2 = .ok (A.tipaProof φa τ srs Q H))).card * Ds.card ≤
    ((Q + k) * (Q + k + 5) * m +
      N * ((Q + k + 1) * ((2 * n - 2) * m') + (Q + k + 1) * (Q + k + 2) * m)) * Ds.card ^ Xs.card := by
  refine count_split hmem hpt hF hG2 m m' hm hm' k hn A Q N hN hkeys hsep hsteps _ _ fun W1 hW1 hgood => ?_
  refine SsmStatic.count_unique (va := leftKey srs (1 : F) n) (bil := bil) hmem (fun (_ : Unit) _ _ => ()) (fun _ => True)
    () trivial 0 (fun s z S _ hS => ?_) kt R hτ hF hA hB hT hd m hm k hn comA comT b ra hra A.toProver Q hlab hsteps W1
    fun H hH _ => ?_
  · rw [Nat.le_zero, Finset.card_eq_zero, Finset.eq_empty_iff_forall_notMem]
    exact fun x hx => hS x hx trivial
  obtain ⟨-, hacc, hcA, ⟨t, ht, c, hc, hfirst, lA, hβ⟩, hnot⟩ := Finset.mem_filter.mp (hW1 hH)
  obtain ⟨com1, hrec, hkzg, f1, hrun⟩ := accepted_data hmem hpt L hE X kt hd k hn g h α β hsrs hh0 hg v hv comA comT b A Q
    hsteps H _ (oracle_apply H) hacc t (ht.trans_le hN) c hc hfirst lA (hgood H hH t ht)
  refine ⟨hrun, hcA, ?_⟩
  rintro ⟨hsum, -, ka, htag⟩
  refine hnot ⟨hsum, ?_⟩
  have hn1 : 1 ≤ n := by rw [hn]; exact Nat.one_le_two_pow
  have L' : (withDigest P (Sipp.oracle H)).Lawful bil φa 0 ψ :=
    ⟨L.ip_ok, L.lmc_ok, L.rmc_ok, L.ipc_ok, L.ψ_add, L.ψ_smul⟩
  rw [(hsrs.keys hn1).2] at hv
  cases hv
  rw [ofFn_leftKey hn1 hsrs] at htag f1 ⊢
  exact tagged_of_run L' hE X kt k g h α β (hn ▸ hsrs) hg comA comT b com1 _ _ (A.tipaProof φa τ srs Q H) _ ka c
    (by simp [Prover.tipaProof, SsmStatic.Prover.proof, hsteps]) hacc htag hrec hkzg f1 hβ

/-- With the elements of the honest prover it is the honest proof. -/
theorem C130_honest (L : P.Lawful bil φa 0 ψ) (k : ℕ) (ma : List MA) (mb : List F) (cka : List G2)
    (kt : KT) (h1 : ma.length = 2 ^ k) (h2 : mb.length = 2 ^ k) (h3 : cka.length = 2 ^ k)
    (π π' : TipaSsmProof F G2 MA OA OT) (h : TipaSsm.prove V P srs ma mb cka kt = .ok π')
    (hπ : TipaSsm.proveTagged V P bil φa ψ srs ma mb cka kt (TipaSsm.free π).1 (TipaSsm.free π).2 = .ok π)
    (hk : π.gipa.steps.length = k) (hz : ∀ s ∈ π.gipa.steps, s.1.2.1 = 0 ∧ s.2.2.1 = 0)
    (hb : π.gipa.base.2 = π'.gipa.base.2) : π = π' := by
  have := TipaSsm.C128_tagged L srs k ma mb cka kt h1 h2 h3 π' h
  have e1 : (TipaSsm.free π).1 = List.replicate k (0, 0) := by
    refine List.eq_replicate_iff.mpr ⟨by rw [TipaSsm.free, Gipa.tags, List.length_map, hk], fun z hz' => ?_⟩
    obtain ⟨s, hs, rfl⟩ := List.mem_map.mp hz'
    exact Prod.ext (hz s hs).1 (hz s hs).2
  rw [e1, show (TipaSsm.free π).2 = π'.gipa.base.2 from hb, this] at hπ
  exact (Except.ok.inj hπ).symm

/-! ## An instance: vectors of length 2 over the field with 101 elements -/

section Example
open Toy
open TipaStatic (exampleEnv exampleDigests_point)

open Classical in
/-- The vector `(1, 2)`, whose value at 7 is 15; commitment `1 + 2 * 25 = 51`. One query and one attempt for the opening
point: the accepted proof is another than the one for its free elements for at most 32 in 101 of all oracles. -/
theorem C130_example (A : Prover 2 Toy.F Toy.F Toy.F exampleInputs exampleDigests)
    (hlab : ∀ ds z x, A.query ds =
        link exampleSsm Toy.e single (leftKey exampleSrs (1 : Toy.F) 2) exampleInputs_mem z x →
      exampleComs (A.label ds) = exampleComs z)
    (hkeys : ∀ ds, ∀ t < 2 ^ 64, ∀ x ka,
      (A.query ds : Bytes) = pointInput exampleEnv exampleSsm t x ka →
      left exampleSrs (A.keys ds) = ka)
    (hsteps : ∀ ds, (A.steps ds).length = 1) (W : Finset (exampleInputs → exampleDigests))
    (hW : ∀ H ∈ W,
      TipaSsm.verify Toy.X exampleEnv (withDigest exampleSsm (Sipp.oracle H)) ⟨1, 1, 5, 3⟩ PUnit.unit 51 ⟨[15]⟩ 7
        (A.tipaProof Toy.e single exampleSrs 1 H) = .ok true ∧
      ¬ Clash Toy.e (leftKey exampleSrs (1 : Toy.F) 2) (A.toProver.pair exampleSsm Toy.e single
        (leftKey exampleSrs (1 : Toy.F) 2) exampleInputs_mem ![1, 2] 1 1 H) ∧
      (∀ c : Toy.F,
        ¬ Leak (A.knownKey exampleEnv exampleSsm Toy.e single exampleSrs exampleInputs_mem
            exampleInputs_pt 1 1 0 (by norm_num) H) (A.opening (Oracle.trace A.query H 1))
          ((keyPoly ((A.transcript exampleSsm Toy.e single exampleSrs exampleInputs_mem 1 H).map (·⁻¹))
            1).eval c) c 5 3 ∧ c ≠ 5) ∧
      TipaSsm.proveTagged exampleEnv (withDigest exampleSsm (Sipp.oracle H)) (LinearMap.lsmul Toy.F Toy.F) Toy.e idψ
        exampleSrs [1, 2] [1, 7] [1, 25] PUnit.unit (TipaSsm.free (A.tipaProof Toy.e single exampleSrs 1 H)).1
        (TipaSsm.free (A.tipaProof Toy.e single exampleSrs 1 H)).2 ≠ .ok (A.tipaProof Toy.e single exampleSrs 1 H)) :
    W.card * 101 ≤ 32 * 101 ^ exampleInputs.card := by
  have := C130_unique (n := 2) (P := exampleSsm) (V := exampleEnv) (Xs := exampleInputs) (Ds := exampleDigests)
    (srs := exampleSrs) (τ := single) exampleInputs_mem
    exampleInputs_pt exampleSsm_lawful Toy.lawful Toy.X PUnit.unit (reads_identity PUnit.unit)
    (by
      intro r t h
      simp only [single, List.head?_cons, Option.some.injEq] at h
      subst h
      rfl)
    decodable_ser decodable_ser decodable_ser (decodable_single decodable_ser) decodable_ser
    (by
      intro d hd
      obtain ⟨x, -, rfl⟩ := Finset.mem_image.mp hd
      simp [Toy.ser]) 1 1
    (fun x => Finset.card_le_one.mpr fun d hd d' hd' => exampleDigests_key d d'
      ((Finset.mem_filter.mp hd).2.trans (Finset.mem_filter.mp hd').2.symm))
    (fun x => Finset.card_le_one.mpr fun d hd d' hd' => exampleDigests_point d d' x
      (Finset.mem_filter.mp hd).2 (Finset.mem_filter.mp hd').2) 1 rfl 1 1 3 5 exampleSrs_isSrs (by decide)
    (fun y h => by simpa using h) ⟨1, 1, 5, 3⟩ rfl
    51 ⟨[15]⟩ 7 ![1, 2] (by decide +kernel) A 1 1
    (by norm_num) hlab hkeys (fun t _ => example_sep t) hsteps
  rw [card_exampleDigests, show (1 + 1) * (1 + 1 + 5) * 1 +
    1 * ((1 + 1 + 1) * ((2 * 2 - 2) * 1) + (1 + 1 + 1) * (1 + 1 + 2) * 1) = 32 from rfl] at this
  refine le_trans (Nat.mul_le_mul_right _ (Finset.card_le_card fun H hH => ?_)) this
  obtain ⟨h1, h2, h4, h5⟩ := hW H hH
  refine @Finset.mem_filter _ _ (_) _ _ |>.mpr ⟨Finset.mem_univ _, h1, h2, ⟨0, by norm_num, ?_⟩, fun h => h5 ?_⟩
  swap
  · have h := h.2
    rw [show List.ofFn (![1, 2] : Fin 2 → Toy.F) = [1, 2] from rfl,
      show powers (7 : Toy.F) 2 = [1, 7] from by decide +kernel,
      show List.ofFn (leftKey exampleSrs (1 : Toy.F) 2) = [1, 25] from by decide +kernel] at h
    exact h
  have hsome : ∀ d : exampleDigests, ∃ c, exampleEnv.fromRandomBytes d = some c := by
    rintro ⟨d, hd⟩
    obtain ⟨x, -, rfl⟩ := Finset.mem_image.mp hd
    exact ⟨((UInt8.ofNat x.val).toNat : Toy.F), by simp [exampleEnv, Toy.ser]⟩
  obtain ⟨c, hc⟩ := hsome (H (A.point exampleEnv exampleSsm Toy.e single exampleSrs exampleInputs_mem
    exampleInputs_pt 1 0 (by norm_num) H))
  exact ⟨c, hc, fun t' ht' => absurd ht' (Nat.not_lt_zero _), (h4 c).1, (h4 c).2⟩

end Example

end TipaSsmStatic

end Ripp
