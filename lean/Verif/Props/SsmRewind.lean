import Verif.Props.SsmStatic
import Verif.Props.GipaRewind

/-!
# C110: knowledge soundness of the structured-message argument in the random oracle model, for a statement fixed before
the oracle

As C109 for `GIPAWithSSM`, with the extractor of C71. The prover need not know anything about the commitments it
hashes, and no assumption on the keys is needed.
-/

set_option linter.unusedSectionVars false

namespace Ripp.SsmStatic

open Spec Extract GipaStatic SsmExtract

variable {ρ F MA T KA KT OA OT RT O : Type} [Field F]
  [AddCommGroup MA] [Module F MA] [AddCommGroup T] [Module F T] [AddCommGroup KA] [Module F KA]
  [AddCommGroup OA] [Module F OA] [Add OT] [SMul F OT] [AddCommGroup O] [Module F O]

/-! ## Trees -/

/-- All branches of the tree (commitments and challenges in round order, then the base) are in `p`; the challenges at
a node are distinct and not zero. -/
def _root_.Ripp.SsmExtract.Tree.Branches {C : Type} :
    SsmExtract.Tree F MA C → (List ((C × C) × F) → MA → Prop) → Prop
  | .leaf a, p => p [] a
  | .node l r c t, p => Function.Injective c ∧ (∀ i, c i ≠ 0) ∧
      ∀ i, (t i).Branches fun ps => p (((l, r), c i) :: ps)

theorem _root_.Ripp.SsmExtract.Tree.Branches.mono {C : Type} : ∀ (t : SsmExtract.Tree F MA C)
    {p q : List ((C × C) × F) → MA → Prop}, (∀ ps a, p ps a → q ps a) → t.Branches p → t.Branches q
  | .leaf _, _, _, h, hp => h _ _ hp
  | .node _ _ _ t, _, _, h, ⟨h1, h2, h3⟩ =>
    ⟨h1, h2, fun i => Ripp.SsmExtract.Tree.Branches.mono (t i) (fun _ _ => h _ _) (h3 i)⟩

/-- A step without the placeholder component. -/
def strip (z : Coms OA F OT × Coms OA F OT) : (OA × OT) × (OA × OT) := ((z.1.1, z.1.2.2), (z.2.1, z.2.2.2))

section
variable {bil : MA →ₗ[F] F →ₗ[F] T} {φa : MA →ₗ[F] KA →ₗ[F] OA} {ψ : T → OT}

/-- A full tree of accepting runs. -/
theorem tree_of_full : ∀ (j : ℕ) (cka : List KA) (mb : List F) (com : OA × OT)
    (p : List ((Coms OA F OT × Coms OA F OT) × F) → Prop)
    (q : List (((OA × OT) × (OA × OT)) × F) → MA → Prop),
    cka.length = 2 ^ j → mb.length = 2 ^ j → Oracle.Full 3 0 j p →
    (∀ ps, p ps → ∃ a, q (ps.map fun s => (strip s.1, s.2)) a ∧
      Run bil φa ψ cka mb com (ps.map (·.2)) (ps.map fun s => strip s.1) a) →
    ∃ t : SsmExtract.Tree F MA (OA × OT), t.Branches q ∧ t.Accepts bil φa ψ cka mb com
  | 0, cka, mb, com, p, q, _, _, hf, h => by
    obtain ⟨a, hq, hr⟩ := h [] hf
    exact ⟨.leaf a, hq, hr⟩
  | j + 1, cka, mb, com, p, q, ha, hb, ⟨z, c, hc, h0, hf⟩, h => by
    have h2 : 2 ^ (j + 1) = 2 * 2 ^ j := by rw [pow_succ]; ring
    rw [h2] at ha hb
    have ih := fun i => tree_of_full j (foldHalf (c i)⁻¹ cka) (foldHalf (c i)⁻¹ mb)
      (c i • z.1.1 + com.1 + (c i)⁻¹ • z.2.1, c i • z.1.2.2 + com.2 + (c i)⁻¹ • z.2.2.2) _
      (fun ps => q ((strip z, c i) :: ps))
      (length_foldHalf _ _ _ ha) (length_foldHalf _ _ _ hb) (hf i) (fun ps hp => h _ hp)
    choose t ht1 ht2 using ih
    exact ⟨.node (strip z).1 (strip z).2 c t, ⟨hc, h0, ht1⟩, hc, h0, ⟨2 ^ j, by omega⟩, ⟨2 ^ j, by omega⟩, ht2⟩

end

/-! ## The theorem -/

section
variable [DecidableEq F] [DecidableEq OA] [DecidableEq OT]

variable {P : Gipa ρ F MA F T KA Placeholder KT OA F OT} {τ : RT → OT} {Xs Ds : Finset Bytes}
  (hmem : ∀ k (z : Sent OA F RT), P.hashInput 0 k (sentComs τ z).1 (sentComs τ z).2 ∈ Xs)
  {bil : MA →ₗ[F] F →ₗ[F] T} {φa : MA →ₗ[F] KA →ₗ[F] OA}
  {ψ : KT → T → OT} {η : OT → Option O} {ψ' : T →ₗ[F] O}

/-- The hash inputs of the rounds. -/
def rounds (A : AnyProver MA F OA F RT Xs Ds) (Q : ℕ) (H : Xs → Ds) : List Xs :=
  Oracle.queries (fun (z : Sent OA F RT) k => ⟨_, hmem k z⟩) (challengeOf F) H 0 (A.steps (Oracle.trace A.query H Q))

include hmem in
/-- If the proofs of a prover are accepting runs for many oracles, they contain a tree of runs. -/
theorem tree_of_runs (kt : KT) (hF : Decodable (fun _ => True) P.serF) (hA : Decodable (fun _ => True) P.serA)
    (hB : Decodable (fun _ => True) P.serB) (hT : Decodable (· ∈ Set.range τ) P.serT) (m : ℕ)
    (hm : ∀ x : F, (Finset.univ.filter fun d : Ds => challengeOf F d = x).card ≤ m) (k : ℕ)
    (cka : List KA) (ha : cka.length = 2 ^ k) (comA : OA) (comT : OT) (b : F)
    (A : AnyProver MA F OA F RT Xs Ds) (Q : ℕ) (hsteps : ∀ ds, (A.steps ds).length = k) (W : Finset (Xs → Ds))
    (hW : ∀ H ∈ W, (∀ x ∈ rounds hmem A Q H, challengeOf F (H x) ≠ 0) →
      Run bil φa (ψ kt) cka ((List.range (2 ^ k)).map (b ^ ·)) (comA, comT)
        ((rounds hmem A Q H).map fun x => challengeOf F (H x)) (outer (A.proof τ Q H).steps.reverse)
        (A.proof τ Q H).base.1)
    (hmany : (Q + k) * (Q + k + 4) * m * Ds.card ^ Xs.card < W.card * Ds.card) :
    ∃ t : SsmExtract.Tree F MA (OA × OT),
      (t.Branches fun ps a => ∃ H ∈ W, (∀ x ∈ rounds hmem A Q H, challengeOf F (H x) ≠ 0) ∧
        ps.map (·.2) = (rounds hmem A Q H).map (fun x => challengeOf F (H x)) ∧
        (A.proof τ Q H).steps.map (fun s => ((s.1.1, s.1.2.2), (s.2.1, s.2.2.2))) = (ps.map (·.1)).reverse ∧
        (A.proof τ Q H).base.1 = a) ∧
      t.Accepts bil φa (ψ kt) cka ((List.range (2 ^ k)).map (b ^ ·)) (comA, comT) := by
  classical
  let enc : Sent OA F RT → F → Xs := fun z k => ⟨_, hmem k z⟩
  have hinj : ∀ (z : Sent OA F RT) (x : F) z' x', enc z x = enc z' x' → sentComs τ z = sentComs τ z' ∧ x = x' := by
    intro z x z' x' h
    obtain ⟨-, g0, g1, g2⟩ := Gipa.C23_hash_input_injective (P := P) hF hA hB hT 0 0 (by norm_num)
      (by norm_num) _ _ trivial trivial _ _ _ _ (by simp [sentComs]) (congrArg Subtype.val h)
    exact ⟨Prod.ext g1 g2, g0⟩
  have hm' : ∀ (x : F) (S : Finset Ds), (∀ d ∈ S, challengeOf F d = x) → S.card ≤ m := fun x S hS =>
    (Finset.card_le_card fun d hd => Finset.mem_filter.mpr ⟨Finset.mem_univ _, hS d hd⟩).trans (hm x)
  have c1 : Fintype.card Ds = Ds.card := Fintype.card_coe Ds
  have c2 : Fintype.card (Xs → Ds) = Ds.card ^ Xs.card := by
    rw [Fintype.card_fun, Fintype.card_coe, Fintype.card_coe]
  have c3 : (Q + k) * (3 * m) + (Q + k) * (Q + k + 1) * m = (Q + k) * (Q + k + 4) * m := by ring
  rw [← c2, ← c1, ← c3] at hmany
  have hfull := Oracle.full_of_many A.query Q A.steps (sentComs τ) enc (challengeOf F) 0 3 hinj m hm' k hsteps W
    hmany
  refine tree_of_full (bil := bil) (φa := φa) (ψ := ψ kt) k cka ((List.range (2 ^ k)).map (b ^ ·))
    (comA, comT) _ _ ha (by simp) hfull ?_
  rintro ps ⟨H, hH, hps, hne⟩
  have hsnd : ps.map (·.2) = (rounds hmem A Q H).map fun x => challengeOf F (H x) := by
    rw [← hps, Oracle.path_snd]
    rfl
  have hfst : ps.map (·.1) = (A.steps (Oracle.trace A.query H Q)).map (sentComs τ) := by
    rw [← hps, Oracle.path_fst]
  have hnz : ∀ x ∈ rounds hmem A Q H, challengeOf F (H x) ≠ 0 := by
    intro x hx
    have : challengeOf F (H x) ∈ ps.map (·.2) := by
      rw [hsnd]
      exact List.mem_map_of_mem hx
    obtain ⟨q, hq, he⟩ := List.mem_map.mp this
    rw [← he]
    exact hne q hq
  have hrun := hW H hH hnz
  refine ⟨(A.proof τ Q H).base.1, ⟨H, hH, hnz, ?_, ?_, rfl⟩, ?_⟩
  · rw [List.map_map, ← hsnd]; rfl
  · rw [AnyProver.proof, ← hfst, List.map_reverse, List.map_map, List.map_map]; rfl
  · rw [AnyProver.proof, List.reverse_reverse, ← hfst, outer, List.map_map, ← hsnd] at hrun
    exact hrun

include hmem in
/-- C110: fix a key of length `2^k`, commitments and the scalar `b`. If `GIPAWithSSM::verify` accepts the proofs of a
prover with `Q` queries for more than `(N (N + 4) m) / |Ds|` of all oracles, where `N = Q + k` and `m` is the number of
digests with the same challenge, then the proofs for these oracles contain a tree of runs, and the extractor of C71
turns this tree into an opening of the commitment whose inner product with the powers of `b` is the committed one. -/
theorem C110_knowledge (L : P.Lawful bil φa 0 ψ) (X : Exec) (kt : KT) (R : Reads F η (ψ kt) ψ')
    (hF : Decodable (fun _ => True) P.serF) (hA : Decodable (fun _ => True) P.serA)
    (hB : Decodable (fun _ => True) P.serB) (hT : Decodable (· ∈ Set.range τ) P.serT)
    (hd : ∀ d ∈ Ds, 16 ≤ d.length) (m : ℕ)
    (hm : ∀ x : F, (Finset.univ.filter fun d : Ds => challengeOf F d = x).card ≤ m) (k : ℕ)
    (cka : List KA) (ha : cka.length = 2 ^ k) (comA : OA) (comT : OT) (b : F)
    (A : AnyProver MA F OA F RT Xs Ds) (Q : ℕ) (hsteps : ∀ ds, (A.steps ds).length = k) (W : Finset (Xs → Ds))
    (hW : ∀ H ∈ W, GipaSsm.verify X (withDigest P (Sipp.oracle H)) cka kt comA comT b (A.proof τ Q H) = .ok true)
    (hmany : (Q + k) * (Q + k + 4) * m * Ds.card ^ Xs.card < W.card * Ds.card) :
    ∃ t : SsmExtract.Tree F MA (OA × OT),
      (t.Branches fun ps a => ∃ H ∈ W, ∃ com',
        (withDigest P (Sipp.oracle H)).recursiveChallenges (comA, 0, comT) (A.proof τ Q H) =
          .ok (com', (ps.map (·.2)).reverse) ∧
        (A.proof τ Q H).steps.map (fun s => ((s.1.1, s.1.2.2), (s.2.1, s.2.2.2))) = (ps.map (·.1)).reverse ∧
        (A.proof τ Q H).base.1 = a) ∧
      (SsmExtract.extract t).length = 2 ^ k ∧ comA = dot (φa · ·) (SsmExtract.extract t) cka ∧
      η comT = some (ψ' (dot (bil · ·) (SsmExtract.extract t) ((List.range (2 ^ k)).map (b ^ ·)))) := by
  classical
  have hrec := fun H hnz => recLoop_chain' (P := P) (sentComs τ) (fun (z : Sent OA F RT) k => (⟨_, hmem k z⟩ : Xs))
    (fun _ _ => rfl) hd H (A.steps (Oracle.trace A.query H Q)) 0 [] (comA, 0, comT) rfl hnz
  obtain ⟨t, h1, h2⟩ := tree_of_runs (bil := bil) (φa := φa) (ψ := ψ) hmem kt hF hA hB hT m hm k cka ha comA comT b A Q
    hsteps W (fun H hH hnz => by
      obtain ⟨com1, hrec⟩ := hrec H hnz
      have L' : (withDigest P (Sipp.oracle H)).Lawful bil φa 0 ψ :=
        ⟨L.ip_ok, L.lmc_ok, L.rmc_ok, L.ipc_ok, L.ψ_add, L.ψ_smul⟩
      have hlen : (A.proof τ Q H).steps.length = k := by simp [AnyProver.proof, hsteps]
      obtain ⟨cs, com2, hrc, hrun⟩ := C71_gipa_run L' X _ kt comA comT b _ (by rw [hlen, ha]) (hW H hH)
      rw [Gipa.recursiveChallenges, AnyProver.proof, List.reverse_reverse, hrec] at hrc
      rw [hlen, ← List.reverse_injective (congrArg Prod.snd (Except.ok.inj hrc))] at hrun
      exact hrun) hmany
  have := C71_extract R _ _ _ _ h2
  rw [ha] at this
  refine ⟨t, SsmExtract.Tree.Branches.mono t ?_ h1, this⟩
  rintro ps a ⟨H, hH, hnz, e1, e2, e3⟩
  obtain ⟨com1, hrec⟩ := hrec H hnz
  refine ⟨H, hH, com1, ?_, e2, e3⟩
  rw [Gipa.recursiveChallenges, AnyProver.proof, List.reverse_reverse, hrec, e1]
  rfl

open Classical in
include hmem in
/-- C110: a statement without an opening is accepted for at most this share of all oracles, whatever the prover
does. -/
theorem C110_soundness (L : P.Lawful bil φa 0 ψ) (X : Exec) (kt : KT) (R : Reads F η (ψ kt) ψ')
    (hF : Decodable (fun _ => True) P.serF) (hA : Decodable (fun _ => True) P.serA)
    (hB : Decodable (fun _ => True) P.serB) (hT : Decodable (· ∈ Set.range τ) P.serT)
    (hd : ∀ d ∈ Ds, 16 ≤ d.length) (m : ℕ)
    (hm : ∀ x : F, (Finset.univ.filter fun d : Ds => challengeOf F d = x).card ≤ m) (k : ℕ)
    (cka : List KA) (ha : cka.length = 2 ^ k) (comA : OA) (comT : OT) (b : F)
    (hfalse : ¬ ∃ a : List MA, a.length = 2 ^ k ∧ comA = dot (φa · ·) a cka ∧
      η comT = some (ψ' (dot (bil · ·) a ((List.range (2 ^ k)).map (b ^ ·)))))
    (A : AnyProver MA F OA F RT Xs Ds) (Q : ℕ) (hsteps : ∀ ds, (A.steps ds).length = k) :
    (Finset.univ.filter fun H : Xs → Ds => GipaSsm.verify X (withDigest P (Sipp.oracle H)) cka kt comA comT b
      (A.proof τ Q H) = .ok true).card * Ds.card ≤ (Q + k) * (Q + k + 4) * m * Ds.card ^ Xs.card := by
  by_contra hcon
  obtain ⟨t, -, hv⟩ := C110_knowledge hmem L X kt R hF hA hB hT hd m hm k cka ha comA comT b A Q hsteps _
    (fun H hH => (Finset.mem_filter.mp hH).2) (not_le.mp hcon)
  exact hfalse ⟨_, hv⟩

end

/-! ## An instance: vectors of length 2 over the field with 101 elements -/

section Example
open Toy

theorem exampleInputs_any (k : Toy.F) (z : Sent (Fin 2 → Toy.F) Toy.F Toy.F) :
    exampleSsm.hashInput 0 k (sentComs single z).1 (sentComs single z).2 ∈ SsmStatic.exampleInputs :=
  (Set.Finite.mem_toFinset _).mpr ⟨(k, z.1, z.2), by
    simp only [coms2, coms, commitTo_exampleKey]; rfl⟩

/-- An honest prover for the vector `(1, 2)` and `b = 5`. It asks for its only challenge. -/
noncomputable def honestAny : AnyProver Toy.F Toy.F (Fin 2 → Toy.F) Toy.F Toy.F SsmStatic.exampleInputs
    exampleDigests where
  query _ := ⟨_, exampleInputs_any 0 ((![2, 0], 0, 2), (![0, 1], 0, 5))⟩
  steps _ := [((![2, 0], 0, 2), (![0, 1], 0, 5))]
  base ds := ((ds.head?.map fun d => 1 + challengeOf Toy.F d * 2).getD 0,
    (ds.head?.map fun d => 1 + (challengeOf Toy.F d)⁻¹ * 5).getD 0)

/-- The verifier accepts whenever the challenge is not zero. -/
theorem honestAny_accepted (H : SsmStatic.exampleInputs → exampleDigests)
    (h0 : challengeOf Toy.F (H (honestAny.query [])) ≠ 0) :
    GipaSsm.verify Toy.X (withDigest exampleSsm (Sipp.oracle H)) (List.ofFn exampleKey) PUnit.unit exampleA ⟨[11]⟩ 5
      (honestAny.proof single 1 H) = .ok true := by
  obtain ⟨com', hrec⟩ := recLoop_chain' (P := exampleSsm) (sentComs single) (fun z k => ⟨_, exampleInputs_any k z⟩)
    (fun _ _ => rfl) exampleDigests_length H (honestAny.steps (Oracle.trace honestAny.query H 1)) 0 []
    (exampleA, 0, ⟨[11]⟩) rfl (by
      intro x hx
      rw [honestAny] at hx
      simp only [Oracle.queries, List.mem_singleton] at hx
      subst hx
      exact h0)
  have L' : (withDigest exampleSsm (Sipp.oracle H)).Lawful (LinearMap.lsmul Toy.F Toy.F) (formal 2) 0 idψ :=
    ⟨exampleSsm_lawful.ip_ok, exampleSsm_lawful.lmc_ok, exampleSsm_lawful.rmc_ok, exampleSsm_lawful.ipc_ok,
      exampleSsm_lawful.ψ_add, exampleSsm_lawful.ψ_smul⟩
  have hrec' : (withDigest exampleSsm (Sipp.oracle H)).recursiveChallenges (exampleA, 0, ⟨[11]⟩)
      (honestAny.proof single 1 H) = .ok (com', [challengeOf Toy.F (H (honestAny.query []))].reverse) := by
    rw [Gipa.recursiveChallenges, AnyProver.proof, List.reverse_reverse, hrec]
    rfl
  have hcom : com' = Gipa.foldMany (honestAny.proof single 1 H).steps.reverse
      [challengeOf Toy.F (H (honestAny.query []))] (exampleA, 0, ⟨[11]⟩) := by
    have h := hrec'
    rw [Gipa.recursiveChallenges_eq] at h
    cases hcs : (withDigest exampleSsm (Sipp.oracle H)).chals (honestAny.proof single 1 H).steps.reverse [] with
    | error e => simp [hcs] at h
    | ok cs =>
      simp only [hcs, ok_bind, Except.ok.injEq, Prod.mk.injEq] at h
      rw [← h.1, ← List.reverse_injective h.2]
  obtain ⟨ka, b', e1, e2, -, e3, -⟩ := GipaSsm.C33_verdict L' Toy.X (List.ofFn exampleKey) PUnit.unit exampleA ⟨[11]⟩ 5
    _ _ _ rfl hrec'
  rw [e3, hcom]
  have hb : (honestAny.proof single 1 H).base = (1 + challengeOf Toy.F (H (honestAny.query [])) * 2,
      1 + (challengeOf Toy.F (H (honestAny.query [])))⁻¹ * 5) := rfl
  have hs : (honestAny.proof single 1 H).steps.reverse =
    [sentComs single ((![2, 0], 0, 2), (![0, 1], 0, 5))] := rfl
  rw [hb, hs]
  generalize challengeOf Toy.F (H (honestAny.query [])) = c at h0 e1 e2
  have g1 : ka = ![1, c⁻¹] := by
    have : foldAll ([c].map (·⁻¹)) (List.ofFn exampleKey) = [![1, c⁻¹]] := by
      clear e1 e2 h0; revert c; decide +kernel
    rw [this] at e1
    exact (List.singleton_injective e1).symm
  have g2 : b' = 1 + c⁻¹ * 5 := by
    have : foldAll ([c].map (·⁻¹)) ((List.range (2 ^ [c].length)).map ((5 : Toy.F) ^ ·)) = [1 + c⁻¹ * 5] := by
      clear e1 e2 h0 g1; revert c; decide +kernel
    rw [this] at e2
    exact (List.singleton_injective e2).symm
  subst g1 g2
  clear e1 e2 e3 hcom hrec' hrec hb hs
  revert c
  decide +kernel

/-- The share of these oracles is above the bound, so the hypotheses of `C110_knowledge` are met and its tree exists. -/
example : ∃ t : SsmExtract.Tree Toy.F Toy.F ((Fin 2 → Toy.F) × IdentityOutput Toy.F),
    exampleA = dot (formal (F := Toy.F) 2 · ·) (SsmExtract.extract t) (List.ofFn exampleKey) ∧
    some (11 : Toy.F) = some (LinearMap.id (R := Toy.F) (dot (LinearMap.lsmul Toy.F Toy.F · ·)
      (SsmExtract.extract t) [1, 5])) := by
  classical
  obtain ⟨t, -, -, h⟩ := C110_knowledge (P := exampleSsm) (τ := single) exampleInputs_any exampleSsm_lawful Toy.X
    PUnit.unit (reads_identity PUnit.unit) decodable_ser decodable_pair decodable_ser (decodable_single decodable_ser)
    exampleDigests_length 1 exampleDigests_card 1 (List.ofFn exampleKey) rfl exampleA ⟨[11]⟩ 5
    honestAny 1 (fun _ => rfl)
    (Finset.univ.filter fun H => challengeOf Toy.F (H (honestAny.query [])) ≠ 0)
    (fun H hH => honestAny_accepted H (Finset.mem_filter.mp hH).2) (by
      have h2 := Finset.card_filter_add_card_filter_not (s := (Finset.univ : Finset exampleDigests))
        (fun d => challengeOf Toy.F d = 0)
      rw [Finset.card_univ, Fintype.card_coe, card_exampleDigests] at h2
      have h3 := exampleDigests_card 0
      have h1 := card_apply (honestAny.query []) fun d : exampleDigests => challengeOf Toy.F d ≠ 0
      rw [Fintype.card_fun, Fintype.card_coe, Fintype.card_coe] at h1
      rw [h1, card_exampleDigests]
      have h6 : 0 < 101 ^ SsmStatic.exampleInputs.card := by positivity
      exact Nat.mul_lt_mul_of_pos_right (show _ < _ by simp only [ne_eq]; omega) h6)
  exact ⟨t, h⟩

open Classical in
/-- `1 * 1 + 2 * 5 = 11`. No prover with one query makes the verifier accept 12 for more than 12 in 101 of all
oracles. -/
example (A : AnyProver Toy.F Toy.F (Fin 2 → Toy.F) Toy.F Toy.F SsmStatic.exampleInputs exampleDigests)
    (hsteps : ∀ ds, (A.steps ds).length = 1) :
    (Finset.univ.filter fun H : SsmStatic.exampleInputs → exampleDigests =>
      GipaSsm.verify Toy.X (withDigest exampleSsm (Sipp.oracle H)) (List.ofFn exampleKey) PUnit.unit
        exampleA ⟨[12]⟩ 5 (A.proof single 1 H) = .ok true).card * 101 ≤ 12 * 101 ^ SsmStatic.exampleInputs.card := by
  have := C110_soundness (P := exampleSsm) (τ := single) exampleInputs_any exampleSsm_lawful Toy.X PUnit.unit
    (reads_identity PUnit.unit) decodable_ser decodable_pair decodable_ser (decodable_single decodable_ser)
    exampleDigests_length 1 exampleDigests_card 1 (List.ofFn exampleKey) rfl exampleA ⟨[12]⟩ 5
    (by
      rintro ⟨a, h1, h3, h5⟩
      obtain ⟨x, y, rfl⟩ := List.length_eq_two.mp h1
      have e1 := commitTo_exampleKey ![x, y]
      simp only [commitTo, Fin.sum_univ_two, exampleKey] at e1 h3
      have x1 := congrFun h3 0
      have y1 := congrFun h3 1
      simp [exampleA, exampleKey, formal, dot] at x1 y1
      subst x1 y1
      revert h5
      decide +kernel) A 1 hsteps
  rw [card_exampleDigests, show (1 + 1) * (1 + 1 + 4) * 1 = 12 from rfl] at this
  exact this

end Example

end Ripp.SsmStatic
