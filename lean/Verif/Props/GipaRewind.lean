import Verif.Props.GipaStatic
import Verif.Lemmas.Rewind
import Verif.Lemmas.Share

/-!
# C109: knowledge soundness of GIPA in the random oracle model, for a statement fixed before the oracle

Unlike in C84 the prover need not know anything about the commitments it hashes. If the verifier accepts for a large
share of all oracles, the proofs output for these oracles contain a tree from which the extractor of C67 computes an
opening or a collision.
-/

set_option linter.unusedSectionVars false

namespace Ripp.GipaStatic

open Spec Extract

variable {ρ F MA MB T KA KB KT OA OB OT RT O : Type} [Field F]
  [AddCommGroup MA] [Module F MA] [AddCommGroup MB] [Module F MB]
  [AddCommGroup T] [Module F T] [AddCommGroup KA] [Module F KA] [AddCommGroup KB] [Module F KB]
  [AddCommGroup OA] [Module F OA] [AddCommGroup OB] [Module F OB] [Add OT] [SMul F OT]
  [AddCommGroup O] [Module F O]

/-! ## Trees -/

/-- All branches of the tree (commitments and challenges in round order, then the base) are in `p`; the challenges at
a node are distinct and not zero. -/
def _root_.Ripp.Extract.Tree.Branches {C : Type} :
    Tree F MA MB C → (List ((C × C) × F) → MA × MB → Prop) → Prop
  | .leaf a b, p => p [] (a, b)
  | .node l r c t, p => Function.Injective c ∧ (∀ i, c i ≠ 0) ∧
      ∀ i, (t i).Branches fun ps => p (((l, r), c i) :: ps)

section
variable {β : MA →ₗ[F] MB →ₗ[F] T} {φa : MA →ₗ[F] KA →ₗ[F] OA} {φb : MB →ₗ[F] KB →ₗ[F] OB} {ψ : T → OT}

/-- A full tree of accepting runs. -/
theorem tree_of_full : ∀ (j : ℕ) (cka : List KA) (ckb : List KB) (com : OA × OB × OT)
    (p : List (((OA × OB × OT) × (OA × OB × OT)) × F) → Prop)
    (q : List (((OA × OB × OT) × (OA × OB × OT)) × F) → MA × MB → Prop),
    cka.length = 2 ^ j → ckb.length = 2 ^ j → Oracle.Full 4 0 j p →
    (∀ ps, p ps → ∃ base, q ps base ∧ Run β φa φb ψ cka ckb com (ps.map (·.2)) (ps.map (·.1)) base.1 base.2) →
    ∃ t : Tree F MA MB (OA × OB × OT), t.Branches q ∧ t.Accepts β φa φb ψ cka ckb com
  | 0, cka, ckb, com, p, q, _, _, hf, h => by
    obtain ⟨base, hq, hr⟩ := h [] hf
    exact ⟨.leaf base.1 base.2, hq, hr⟩
  | j + 1, cka, ckb, com, p, q, ha, hb, ⟨z, c, hc, h0, hf⟩, h => by
    have h2 : 2 ^ (j + 1) = 2 * 2 ^ j := by rw [pow_succ]; ring
    rw [h2] at ha hb
    have ih := fun i => tree_of_full j (foldHalf (c i)⁻¹ cka) (foldHalf (c i) ckb)
      (c i • z.1.1 + com.1 + (c i)⁻¹ • z.2.1, c i • z.1.2.1 + com.2.1 + (c i)⁻¹ • z.2.2.1,
        c i • z.1.2.2 + com.2.2 + (c i)⁻¹ • z.2.2.2) _ (fun ps => q ((z, c i) :: ps))
      (length_foldHalf _ _ _ ha) (length_foldHalf _ _ _ hb) (hf i) (fun ps hp => h _ hp)
    choose t ht1 ht2 using ih
    exact ⟨.node z.1 z.2 c t, ⟨hc, h0, ht1⟩, hc, h0, ⟨2 ^ j, by omega⟩, ⟨2 ^ j, by omega⟩, ht2⟩

end

/-! ## The theorem -/

section
variable [DecidableEq F] [DecidableEq T] [DecidableEq OA] [DecidableEq OB] [DecidableEq OT]

/-- What the prover sends in a round; the commitments to inner products are given by `RT`. -/
abbrev Sent (OA OB RT : Type) := (OA × OB × RT) × (OA × OB × RT)

/-- The commitments of a round. -/
def sentComs (τ : RT → OT) (z : Sent OA OB RT) : Coms OA OB OT × Coms OA OB OT :=
  ((z.1.1, z.1.2.1, τ z.1.2.2), (z.2.1, z.2.2.1, τ z.2.2.2))

/-- A prover with oracle access: its queries are computed from the answers so far; at the end it outputs the steps (in
round order) and the base of a proof. -/
structure AnyProver (MA MB OA OB RT : Type) (Xs Ds : Finset Bytes) where
  query : List Ds → Xs
  steps : List Ds → List (Sent OA OB RT)
  base : List Ds → MA × MB

variable (P : Gipa ρ F MA MB T KA KB KT OA OB OT) (τ : RT → OT) {Xs Ds : Finset Bytes}
  (hmem : ∀ k (z : Sent OA OB RT), P.hashInput 0 k (sentComs τ z).1 (sentComs τ z).2 ∈ Xs)

/-- The proof output after `Q` queries to the oracle `H`. -/
def AnyProver.proof (A : AnyProver MA MB OA OB RT Xs Ds) (Q : ℕ) (H : Xs → Ds) : GipaProof MA MB OA OB OT where
  steps := ((A.steps (Oracle.trace A.query H Q)).map (sentComs τ)).reverse
  base := A.base (Oracle.trace A.query H Q)

variable {P τ} {β : MA →ₗ[F] MB →ₗ[F] T} {φa : MA →ₗ[F] KA →ₗ[F] OA} {φb : MB →ₗ[F] KB →ₗ[F] OB}
  {ψ : KT → T → OT} {η : OT → Option O} {ψ' : T →ₗ[F] O}

include hmem in
/-- A tree of accepting runs. -/
theorem exists_tree_static (L : P.Lawful β φa φb ψ) (kt : KT)
    (hF : Decodable (fun _ => True) P.serF) (hA : Decodable (fun _ => True) P.serA)
    (hB : Decodable (fun _ => True) P.serB) (hT : Decodable (· ∈ Set.range τ) P.serT)
    (hd : ∀ d ∈ Ds, 16 ≤ d.length) (m : ℕ)
    (hm : ∀ x : F, (Finset.univ.filter fun d : Ds => challengeOf F d = x).card ≤ m) (k : ℕ)
    (cka : List KA) (ckb : List KB) (ha : cka.length = 2 ^ k) (hb : ckb.length = 2 ^ k) (com : Coms OA OB OT)
    (A : AnyProver MA MB OA OB RT Xs Ds) (Q : ℕ) (hsteps : ∀ ds, (A.steps ds).length = k) (W : Finset (Xs → Ds))
    (hW : ∀ H ∈ W, (withDigest P (Sipp.oracle H)).verify cka ckb kt com (A.proof τ Q H) = .ok true)
    (hmany : (Q + k) * (Q + k + 5) * m * Ds.card ^ Xs.card < W.card * Ds.card) :
    ∃ t : Tree F MA MB (OA × OB × OT), t.Accepts β φa φb (ψ kt) cka ckb com ∧
      t.Branches fun ps base => ∃ H ∈ W, ∃ com',
        (withDigest P (Sipp.oracle H)).recursiveChallenges com (A.proof τ Q H) =
          .ok (com', (ps.map (·.2)).reverse) ∧
        (A.proof τ Q H).steps = (ps.map (·.1)).reverse ∧ (A.proof τ Q H).base = base := by
  classical
  let enc : Sent OA OB RT → F → Xs := fun z k => ⟨_, hmem k z⟩
  have hinj : ∀ (z : Sent OA OB RT) (x : F) z' x', enc z x = enc z' x' → sentComs τ z = sentComs τ z' ∧ x = x' := by
    intro z x z' x' h
    obtain ⟨-, g0, g1, g2⟩ := Gipa.C23_hash_input_injective (P := P) hF hA hB hT 0 0 (by norm_num)
      (by norm_num) _ _ trivial trivial _ _ _ _ (by simp [sentComs]) (congrArg Subtype.val h)
    exact ⟨Prod.ext g1 g2, g0⟩
  have hm' : ∀ (x : F) (S : Finset Ds), (∀ d ∈ S, challengeOf F d = x) → S.card ≤ m := fun x S hS =>
    (Finset.card_le_card fun d hd => Finset.mem_filter.mpr ⟨Finset.mem_univ _, hS d hd⟩).trans (hm x)
  have c1 : Fintype.card Ds = Ds.card := Fintype.card_coe Ds
  have c2 : Fintype.card (Xs → Ds) = Ds.card ^ Xs.card := by
    rw [Fintype.card_fun, Fintype.card_coe, Fintype.card_coe]
  have c3 : (Q + k) * (4 * m) + (Q + k) * (Q + k + 1) * m = (Q + k) * (Q + k + 5) * m := by ring
  rw [← c2, ← c1, ← c3] at hmany
  have hfull := Oracle.full_of_many A.query Q A.steps (sentComs τ) enc (challengeOf F) 0 4 hinj m hm' k hsteps W
    hmany
  obtain ⟨t, h1, h2⟩ := tree_of_full (β := β) (φa := φa) (φb := φb) (ψ := ψ kt) k cka ckb com _
    (fun ps base => ∃ H ∈ W, ∃ com',
        (withDigest P (Sipp.oracle H)).recursiveChallenges com (A.proof τ Q H) =
          .ok (com', (ps.map (·.2)).reverse) ∧
        (A.proof τ Q H).steps = (ps.map (·.1)).reverse ∧ (A.proof τ Q H).base = base) ha hb hfull (by
    rintro ps ⟨H, hH, hps, hne⟩
    have hsnd : ps.map (·.2) = (Oracle.queries enc (challengeOf F) H 0
        (A.steps (Oracle.trace A.query H Q))).map fun x => challengeOf F (H x) := by
      rw [← hps, Oracle.path_snd]
    have hfst : ps.map (·.1) = (A.steps (Oracle.trace A.query H Q)).map (sentComs τ) := by
      rw [← hps, Oracle.path_fst]
    have hnz : ∀ x ∈ Oracle.queries enc (challengeOf F) H 0 (A.steps (Oracle.trace A.query H Q)),
        challengeOf F (H x) ≠ 0 := by
      intro x hx
      have : challengeOf F (H x) ∈ ps.map (·.2) := by
        rw [hsnd]
        exact List.mem_map_of_mem hx
      obtain ⟨q, hq, he⟩ := List.mem_map.mp this
      rw [← he]
      exact hne q hq
    obtain ⟨com1, hrec⟩ := recLoop_chain' (P := P) (sentComs τ) enc (fun _ _ => rfl) hd H
      (A.steps (Oracle.trace A.query H Q)) 0 [] com rfl hnz
    have L' : (withDigest P (Sipp.oracle H)).Lawful β φa φb ψ :=
      ⟨L.ip_ok, L.lmc_ok, L.rmc_ok, L.ipc_ok, L.ψ_add, L.ψ_smul⟩
    have hlen : (A.proof τ Q H).steps.length = k := by simp [AnyProver.proof, hsteps]
    obtain ⟨cs, com2, hrc, hrun⟩ := (C67_verify_iff L' _ _ kt com _ (by rw [hlen, ha]) (by rw [hlen, hb])).mp
      (hW H hH)
    have hcs : cs = ps.map (·.2) := by
      have hrc' := hrc
      rw [Gipa.recursiveChallenges, AnyProver.proof, List.reverse_reverse, hrec] at hrc'
      have := congrArg Prod.snd (Except.ok.inj hrc')
      rw [hsnd]
      exact (List.reverse_injective this).symm
    rw [hcs] at hrc hrun
    refine ⟨(A.proof τ Q H).base, ⟨H, hH, com2, hrc, ?_, rfl⟩, ?_⟩
    · rw [AnyProver.proof, hfst]
    · rw [AnyProver.proof, List.reverse_reverse, ← hfst] at hrun
      exact hrun)
  exact ⟨t, h2, h1⟩

variable [DecidableEq MA] [DecidableEq MB]

include hmem in
/-- C109: fix keys of length `2^k` and commitments. If the verifier accepts the proofs of a prover with `Q` queries for
more than `(N (N + 5) m) / |Ds|` of all oracles, where `N = Q + k` and `m` is the number of digests with the same
challenge, then the proofs for these oracles contain a tree of runs, and the extractor of C67 turns this tree into an
opening of the commitments with the committed inner product, or into a collision. -/
theorem C109_knowledge (L : P.Lawful β φa φb ψ) (kt : KT) (R : Reads F η (ψ kt) ψ')
    (hF : Decodable (fun _ => True) P.serF) (hA : Decodable (fun _ => True) P.serA)
    (hB : Decodable (fun _ => True) P.serB) (hT : Decodable (· ∈ Set.range τ) P.serT)
    (hd : ∀ d ∈ Ds, 16 ≤ d.length) (m : ℕ)
    (hm : ∀ x : F, (Finset.univ.filter fun d : Ds => challengeOf F d = x).card ≤ m) (k : ℕ)
    (cka : List KA) (ckb : List KB) (ha : cka.length = 2 ^ k) (hb : ckb.length = 2 ^ k) (com : Coms OA OB OT)
    (A : AnyProver MA MB OA OB RT Xs Ds) (Q : ℕ) (hsteps : ∀ ds, (A.steps ds).length = k) (W : Finset (Xs → Ds))
    (hW : ∀ H ∈ W, (withDigest P (Sipp.oracle H)).verify cka ckb kt com (A.proof τ Q H) = .ok true)
    (hmany : (Q + k) * (Q + k + 5) * m * Ds.card ^ Xs.card < W.card * Ds.card) :
    ∃ t : Tree F MA MB (OA × OB × OT),
      (t.Branches fun ps base => ∃ H ∈ W, ∃ com',
        (withDigest P (Sipp.oracle H)).recursiveChallenges com (A.proof τ Q H) =
          .ok (com', (ps.map (·.2)).reverse) ∧
        (A.proof τ Q H).steps = (ps.map (·.1)).reverse ∧ (A.proof τ Q H).base = base) ∧
      (extract t).Valid β φa φb η ψ' cka ckb com := by
  obtain ⟨t, h1, h2⟩ := exists_tree_static hmem L kt hF hA hB hT hd m hm k cka ckb ha hb com A Q hsteps W hW hmany
  exact ⟨t, h2, C67_extract R t _ _ _ h1⟩

open Classical in
include hmem in
/-- C109: with keys for which different messages have different commitments, and a statement without an opening, the
verifier accepts for at most this share of all oracles, whatever the prover does. -/
theorem C109_soundness (L : P.Lawful β φa φb ψ) (kt : KT) (R : Reads F η (ψ kt) ψ')
    (hF : Decodable (fun _ => True) P.serF) (hA : Decodable (fun _ => True) P.serA)
    (hB : Decodable (fun _ => True) P.serB) (hT : Decodable (· ∈ Set.range τ) P.serT)
    (hd : ∀ d ∈ Ds, 16 ≤ d.length) (m : ℕ)
    (hm : ∀ x : F, (Finset.univ.filter fun d : Ds => challengeOf F d = x).card ≤ m) (k : ℕ)
    (cka : List KA) (ckb : List KB) (ha : cka.length = 2 ^ k) (hb : ckb.length = 2 ^ k) (com : Coms OA OB OT)
    (bindA : ∀ m m' : List MA, m.length = cka.length → m'.length = cka.length →
      dot (φa · ·) m cka = dot (φa · ·) m' cka → m = m')
    (bindB : ∀ m m' : List MB, m.length = ckb.length → m'.length = ckb.length →
      dot (φb · ·) m ckb = dot (φb · ·) m' ckb → m = m')
    (hfalse : ¬ ∃ (a : List MA) (b : List MB), a.length = 2 ^ k ∧ b.length = 2 ^ k ∧
      com.1 = dot (φa · ·) a cka ∧ com.2.1 = dot (φb · ·) b ckb ∧
      η com.2.2 = some (ψ' (dot (β · ·) a b)))
    (A : AnyProver MA MB OA OB RT Xs Ds) (Q : ℕ) (hsteps : ∀ ds, (A.steps ds).length = k) :
    (Finset.univ.filter fun H : Xs → Ds => (withDigest P (Sipp.oracle H)).verify cka ckb kt com
      (A.proof τ Q H) = .ok true).card * Ds.card ≤ (Q + k) * (Q + k + 5) * m * Ds.card ^ Xs.card := by
  by_contra hcon
  obtain ⟨t, -, hv⟩ := C109_knowledge hmem L kt R hF hA hB hT hd m hm k cka ckb ha hb com A Q hsteps _
    (fun H hH => (Finset.mem_filter.mp hH).2) (not_le.mp hcon)
  cases ho : extract t with
  | opening a b =>
    rw [ho] at hv
    obtain ⟨h1, h2, h3, h4, h5⟩ := hv
    exact hfalse ⟨a, b, by rw [h1, ha], by rw [h2, hb], h3, h4, h5⟩
  | collisionA m m' =>
    rw [ho] at hv
    exact hv.2.2.1 (bindA m m' hv.1 hv.2.1 hv.2.2.2)
  | collisionB m m' =>
    rw [ho] at hv
    exact hv.2.2.1 (bindB m m' hv.1 hv.2.1 hv.2.2.2)

end

/-- The number of functions with a predicate on one value. -/
theorem card_apply {X D : Type} [Fintype X] [DecidableEq X] [Fintype D] (x : X) (p : D → Prop) [DecidablePred p] :
    (Finset.univ.filter fun H : X → D => p (H x)).card * Fintype.card D =
      (Finset.univ.filter p).card * Fintype.card (X → D) := by
  have h := share_apply x p
  rw [share_eq, share_eq] at h
  rcases Nat.eq_zero_or_pos (Fintype.card D) with h0 | h0
  · have : IsEmpty D := Fintype.card_eq_zero_iff.mp h0
    simp
  · have h1 : 0 < Fintype.card (X → D) := by rw [Fintype.card_fun]; positivity
    rw [div_eq_div_iff (by exact_mod_cast h1.ne') (by exact_mod_cast h0.ne')] at h
    exact_mod_cast h

/-! ## An instance: vectors of length 2 over the field with 101 elements -/

section Example
open Toy

theorem exampleInputs_any (k : Toy.F) (z : Sent (Fin 2 → Toy.F) (Fin 2 → Toy.F) Toy.F) :
    exampleGipa.hashInput 0 k (sentComs single z).1 (sentComs single z).2 ∈ exampleInputs :=
  (Set.Finite.mem_toFinset _).mpr ⟨(k, z.1, z.2), rfl⟩

theorem exampleDigests_length (d : Bytes) (hd : d ∈ exampleDigests) : 16 ≤ d.length := by
  obtain ⟨x, -, rfl⟩ := Finset.mem_image.mp hd
  simp [Toy.ser]

theorem exampleDigests_card (x : Toy.F) :
    (Finset.univ.filter fun d : exampleDigests => challengeOf Toy.F d = x).card ≤ 1 :=
  Finset.card_le_one.mpr fun d hd d' hd' => exampleDigests_key d d'
    ((Finset.mem_filter.mp hd).2.trans (Finset.mem_filter.mp hd').2.symm)

/-- An honest prover for the vectors `(1, 2)` and `(3, 4)`. It asks for its only challenge. -/
noncomputable def honestAny : AnyProver Toy.F Toy.F (Fin 2 → Toy.F) (Fin 2 → Toy.F) Toy.F exampleInputs
    exampleDigests where
  query _ := ⟨_, exampleInputs_any 0 ((![2, 0], ![0, 3], 6), (![0, 1], ![4, 0], 4))⟩
  steps _ := [((![2, 0], ![0, 3], 6), (![0, 1], ![4, 0], 4))]
  base ds := ((ds.head?.map fun d => 1 + challengeOf Toy.F d * 2).getD 0,
    (ds.head?.map fun d => 3 + (challengeOf Toy.F d)⁻¹ * 4).getD 0)

/-- The verifier accepts whenever the challenge is not zero. -/
theorem honestAny_accepted (H : exampleInputs → exampleDigests)
    (h0 : challengeOf Toy.F (H (honestAny.query [])) ≠ 0) :
    (withDigest exampleGipa (Sipp.oracle H)).verify (formalKey 2) (formalKey 2) PUnit.unit
      (exampleA, exampleB, ⟨[11]⟩) (honestAny.proof single 1 H) = .ok true := by
  obtain ⟨com', hrec⟩ := recLoop_chain' (P := exampleGipa) (sentComs single) (fun z k => ⟨_, exampleInputs_any k z⟩)
    (fun _ _ => rfl) exampleDigests_length H (honestAny.steps (Oracle.trace honestAny.query H 1)) 0 []
    (exampleA, exampleB, ⟨[11]⟩) rfl (by
      intro x hx
      rw [honestAny] at hx
      simp only [Oracle.queries, List.mem_singleton] at hx
      subst hx
      exact h0)
  have L' : (withDigest exampleGipa (Sipp.oracle H)).Lawful (LinearMap.lsmul Toy.F Toy.F) (formal 2) (formal 2) idψ :=
    ⟨exampleGipa_lawful.ip_ok, exampleGipa_lawful.lmc_ok, exampleGipa_lawful.rmc_ok, exampleGipa_lawful.ipc_ok,
      exampleGipa_lawful.ψ_add, exampleGipa_lawful.ψ_smul⟩
  refine (C67_verify_iff L' _ _ PUnit.unit _ _ rfl rfl).mpr ⟨[challengeOf Toy.F (H (honestAny.query []))], com', ?_, ?_⟩
  · rw [Gipa.recursiveChallenges, AnyProver.proof, List.reverse_reverse, hrec]
    rfl
  · have hb : (honestAny.proof single 1 H).base = (1 + challengeOf Toy.F (H (honestAny.query [])) * 2,
        3 + (challengeOf Toy.F (H (honestAny.query [])))⁻¹ * 4) := rfl
    have hs : (honestAny.proof single 1 H).steps.reverse =
      [sentComs single ((![2, 0], ![0, 3], 6), (![0, 1], ![4, 0], 4))] := rfl
    rw [hb, hs]
    generalize challengeOf Toy.F (H (honestAny.query [])) = c at h0
    refine ⟨_, _, foldAll_formalKey _ rfl, foldAll_formalKey _ rfl, ?_, ?_, ?_⟩
    all_goals revert c; decide +kernel

/-- The share of these oracles is above the bound, so the hypotheses of `C109_knowledge` are met and its tree
exists. -/
example : ∃ t : Tree Toy.F Toy.F Toy.F ((Fin 2 → Toy.F) × (Fin 2 → Toy.F) × IdentityOutput Toy.F), (extract t).Valid (LinearMap.lsmul Toy.F Toy.F) (formal (F := Toy.F) 2)
    (formal (F := Toy.F) 2) (fun o : IdentityOutput Toy.F => o.vals.head?) LinearMap.id (formalKey 2) (formalKey 2)
    (exampleA, exampleB, ⟨[11]⟩) := by
  classical
  obtain ⟨t, -, h⟩ := C109_knowledge (P := exampleGipa) (τ := single) exampleInputs_any exampleGipa_lawful PUnit.unit
    (reads_identity PUnit.unit) decodable_ser decodable_pair decodable_pair (decodable_single decodable_ser)
    exampleDigests_length 1 exampleDigests_card 1 (formalKey 2) (formalKey 2) rfl rfl (exampleA, exampleB, ⟨[11]⟩)
    honestAny 1 (fun _ => rfl)
    (Finset.univ.filter fun H => challengeOf Toy.F (H (honestAny.query [])) ≠ 0)
    (fun H hH => honestAny_accepted H (Finset.mem_filter.mp hH).2) (by
      have h2 := Finset.card_filter_add_card_filter_not (s := (Finset.univ : Finset exampleDigests))
        (fun d => challengeOf Toy.F d = 0)
      rw [Finset.card_univ, Fintype.card_coe, card_exampleDigests] at h2
      have h3 := exampleDigests_card 0
      have h1 := card_apply (honestAny.query []) fun d : exampleDigests => challengeOf Toy.F d ≠ 0
      rw [Fintype.card_fun, Fintype.card_coe, Fintype.card_coe] at h1
      rw [h1, card_exampleDigests]
      have h6 : 0 < 101 ^ exampleInputs.card := by positivity
      exact Nat.mul_lt_mul_of_pos_right (show _ < _ by simp only [ne_eq]; omega) h6)
  exact ⟨t, h⟩

open Classical in
/-- No prover with one query makes the verifier accept 12 for more than 14 in 101 of all oracles. -/
example (A : AnyProver Toy.F Toy.F (Fin 2 → Toy.F) (Fin 2 → Toy.F) Toy.F exampleInputs exampleDigests)
    (hsteps : ∀ ds, (A.steps ds).length = 1) :
    (Finset.univ.filter fun H : exampleInputs → exampleDigests =>
      (withDigest exampleGipa (Sipp.oracle H)).verify (formalKey 2) (formalKey 2) PUnit.unit
        (exampleA, exampleB, ⟨[12]⟩) (A.proof single 1 H) = .ok true).card * 101 ≤
    14 * 101 ^ exampleInputs.card := by
  have hbind := fun (m m' : List Toy.F) h h' => binding_formal (F := Toy.F) (M := Toy.F) (n := 2) m m' h h'
  have := C109_soundness (P := exampleGipa) (τ := single) exampleInputs_any exampleGipa_lawful PUnit.unit
    (reads_identity PUnit.unit) decodable_ser decodable_pair decodable_pair (decodable_single decodable_ser)
    exampleDigests_length 1 exampleDigests_card 1 (formalKey 2) (formalKey 2) rfl rfl (exampleA, exampleB, ⟨[12]⟩)
    hbind hbind (by
      rintro ⟨a, b, h1, h2, h3, h4, h5⟩
      obtain ⟨x, y, rfl⟩ := List.length_eq_two.mp h1
      obtain ⟨u, v, rfl⟩ := List.length_eq_two.mp h2
      have e1 := dot_formalKey (F := Toy.F) ![x, y]
      have e2 := dot_formalKey (F := Toy.F) ![u, v]
      simp only [List.ofFn_succ, List.ofFn_zero, Matrix.cons_val_zero, Matrix.cons_val_succ] at e1 e2
      erw [e1] at h3
      erw [e2] at h4
      have x1 := congrFun h3 0
      have y1 := congrFun h3 1
      have u1 := congrFun h4 0
      have v1 := congrFun h4 1
      simp [exampleA, exampleB] at x1 y1 u1 v1
      subst x1 y1 u1 v1
      revert h5
      decide +kernel) A 1 hsteps
  rw [card_exampleDigests, show (1 + 1) * (1 + 1 + 5) * 1 = 14 from rfl] at this
  exact this

end Example

end Ripp.GipaStatic
