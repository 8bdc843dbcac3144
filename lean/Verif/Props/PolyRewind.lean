import Verif.Props.PolyStatic
import Verif.Props.GipaRewind
import Verif.Lemmas.Rewind2
import Verif.Lemmas.Shape

/-!
# C111: knowledge soundness of the transparent polynomial commitments in the random oracle model

Unlike in C103 the prover need not know anything about the commitments it hashes. The commitment to the combined row is
not hashed, so the proofs output for different oracles may contain different ones. The extractor works on trees of
pairs of runs and combines them too.
-/

set_option linter.unusedSectionVars false
set_option linter.unusedVariables false

namespace Ripp.PolyStatic

open Spec Extract SsmExtract
open GipaStatic (Sent sentComs withDigest challengeOf recLoop_chain' single decodable_single dot_ofFn)
open SsmStatic (St foldSt foldl_foldSt)
open Oracle (Tree2 front)

variable {F : Type} [Field F]

/-! ## The extractor -/

section Extractor
variable {M K C O Y : Type} [AddCommGroup M] [Module F M] [AddCommGroup K] [Module F K]
  [AddCommGroup C] [Module F C] [AddCommGroup O] [Module F O] [AddCommGroup Y] [Module F Y]

/-- `a` opens the statement with the contribution of `y`. -/
def OpensBy (bil : M →ₗ[F] F →ₗ[F] O) (φ : M →ₗ[F] K →ₗ[F] C) (uA : Y →ₗ[F] C) (uT : Y →ₗ[F] O) (a : List M) (y : Y)
    (st : St F K C O) : Prop :=
  a.length = st.1.length ∧ st.2.2.1 + uA y = dot (φ · ·) a st.1 ∧ st.2.2.2 + uT y = dot (bil · ·) a st.2.1

/-- Three openings of one statement combined. -/
def mix (c : Fin 3 → F) (a : Fin 3 → List M) : List M :=
  addV (addV (smulV (wM (c 0) (c 1) (c 2)) (a 0)) (smulV (wM (c 1) (c 0) (c 2)) (a 1)))
    (smulV (wM (c 2) (c 0) (c 1)) (a 2))

/-- Three openings combined: of statements after a round with the challenges `c`, or of one statement. -/
def mergeIf (b : Bool) (c : Fin 3 → F) (a : Fin 3 → List M) : List M := if b then merge c a else mix c a

variable {bil : M →ₗ[F] F →ₗ[F] O} {φ : M →ₗ[F] K →ₗ[F] C} {uA : Y →ₗ[F] C} {uT : Y →ₗ[F] O}

theorem mergeIf_opens (st : St F K C O) (hst : st.1.length = st.2.1.length) (z : (C × O) × (C × O))
    (c : Fin 3 → F) (h0 : ∀ i, c i ≠ 0) (hc : Function.Injective c) (b : Bool)
    (hb : b = true → ∃ n, st.1.length = 2 * n) (y : Fin 3 → Y) (a : Fin 3 → List M)
    (h : ∀ i, OpensBy bil φ uA uT (a i) (y i) (if b then foldSt st z (c i) else st)) :
    OpensBy bil φ uA uT (mergeIf b c a) (combo c y) st := by
  cases b with
  | false =>
    have la := fun i => (h i).1
    have e1 := fun i => (h i).2.1
    have e2 := fun i => (h i).2.2
    simp only [Bool.false_eq_true, if_false] at la e1 e2
    simp only [mergeIf, mix, Bool.false_eq_true, if_false]
    refine ⟨by simp [addV, smulV, la], ?_, ?_⟩
    · rw [dot_addV_left _ _ _ _ (by simp [addV, smulV, la]), dot_addV_left _ _ _ _ (by simp [smulV, la]),
        dot_smulV_left, dot_smulV_left, dot_smulV_left, ← e1, ← e1, ← e1, map_combo, ← combo_add c h0 hc]
      rfl
    · rw [dot_addV_left _ _ _ _ (by simp [addV, smulV, la]), dot_addV_left _ _ _ _ (by simp [smulV, la]),
        dot_smulV_left, dot_smulV_left, dot_smulV_left, ← e2, ← e2, ← e2, map_combo, ← combo_add c h0 hc]
      rfl
  | true =>
    obtain ⟨n, ha⟩ := hb rfl
    have hb : st.2.1.length = 2 * n := by rw [← hst, ha]
    have h' : ∀ i, (a i).length = n ∧
        c i • z.1.1 + (st.2.2.1 + uA (y i)) + (c i)⁻¹ • z.2.1 = dot (φ · ·) (a i) (foldHalf (c i)⁻¹ st.1) ∧
        c i • z.1.2 + (st.2.2.2 + uT (y i)) + (c i)⁻¹ • z.2.2 = dot (bil · ·) (a i) (foldHalf (c i)⁻¹ st.2.1) := by
      intro i
      have := h i
      simp only [if_true] at this
      rw [foldSt, if_pos ⟨n, ha⟩] at this
      obtain ⟨e1, e2, e3⟩ := this
      refine ⟨by rw [e1]; exact length_foldHalf _ _ n ha, ?_, ?_⟩
      · rw [← e2]; module
      · rw [← e3]; module
    have la := fun i => (h' i).1
    simp only [mergeIf, if_true]
    refine ⟨by rw [length_merge c a n la, ha], ?_, ?_⟩
    · rw [map_combo, ← combo_add c h0 hc]
      exact dot_merge' φ c h0 hc a n la _ ha _ _ _ fun i => (h' i).2.1
    · rw [map_combo, ← combo_add c h0 hc]
      exact dot_merge' bil c h0 hc a n la _ hb _ _ _ fun i => (h' i).2.2

end Extractor

section Pair
variable {M1 K1 C1 O1 M2 K2 C2 O2 Y Z1 Z2 : Type} [AddCommGroup M1] [Module F M1] [AddCommGroup K1] [Module F K1]
  [AddCommGroup C1] [Module F C1] [AddCommGroup O1] [Module F O1] [AddCommGroup M2] [Module F M2]
  [AddCommGroup K2] [Module F K2] [AddCommGroup C2] [Module F C2] [AddCommGroup O2] [Module F O2]
  [AddCommGroup Y] [Module F Y]

/-- The extractor: the leaves hold the shared value and the last messages of the two arguments. -/
def extract2 : Tree2 3 F Z1 Z2 (Y × M1 × M2) → Y × List M1 × List M2
  | .leaf x => (x.1, [x.2.1], [x.2.2])
  | .node b1 b2 _ _ c t => (combo c fun i => (extract2 (t i)).1, mergeIf b1 c fun i => (extract2 (t i)).2.1,
      mergeIf b2 c fun i => (extract2 (t i)).2.2)

variable {bil1 : M1 →ₗ[F] F →ₗ[F] O1} {φ1 : M1 →ₗ[F] K1 →ₗ[F] C1} {uA1 : Y →ₗ[F] C1} {uT1 : Y →ₗ[F] O1}
  {bil2 : M2 →ₗ[F] F →ₗ[F] O2} {φ2 : M2 →ₗ[F] K2 →ₗ[F] C2} {uA2 : Y →ₗ[F] C2} {uT2 : Y →ₗ[F] O2}
  (g1 : Z1 → (C1 × O1) × (C1 × O1)) (g2 : Z2 → (C2 × O2) × (C2 × O2))

/-- If all leaves of a tree open what is left of two statements, the extracted lists open the statements. -/
theorem extract2_opens : ∀ (t : Tree2 3 F Z1 Z2 (Y × M1 × M2)) (j1 j2 : ℕ) (st1 : St F K1 C1 O1) (st2 : St F K2 C2 O2)
    (p : List (Z1 × F) → List (Z2 × F) → Y × M1 × M2 → Prop), st1.1.length = 2 ^ j1 → st1.2.1.length = 2 ^ j1 →
    st2.1.length = 2 ^ j2 → st2.2.1.length = 2 ^ j2 → t.Branches 0 p →
    (∀ s1 s2 x, p s1 s2 x → s1.length = j1 ∧ s2.length = j2 ∧
      OpensBy bil1 φ1 uA1 uT1 [x.2.1] x.1 (s1.foldl (fun st q => foldSt st (g1 q.1) q.2) st1) ∧
      OpensBy bil2 φ2 uA2 uT2 [x.2.2] x.1 (s2.foldl (fun st q => foldSt st (g2 q.1) q.2) st2)) →
    OpensBy bil1 φ1 uA1 uT1 (extract2 t).2.1 (extract2 t).1 st1 ∧
      OpensBy bil2 φ2 uA2 uT2 (extract2 t).2.2 (extract2 t).1 st2
  | .leaf x, j1, j2, st1, st2, p, _, _, _, _, hb, h => (h _ _ _ hb).2.2
  | .node b1 b2 z1 z2 c t, j1, j2, st1, st2, p, a1, a2, d1, d2, ⟨hc, h0, hb⟩, h => by
    obtain ⟨s1, s2, x, hx⟩ := (hb 0).exists_leaf
    obtain ⟨l1, l2, -⟩ := h _ _ _ hx
    have step : ∀ {K C O : Type} [AddCommGroup K] [Module F K] [AddCommGroup C] [Module F C] [AddCommGroup O]
        [Module F O] (b : Bool) (j : ℕ) (st : St F K C O) (z : (C × O) × (C × O)) (x : F)
        (hj : b = true → 1 ≤ j) (e1 : st.1.length = 2 ^ j) (e2 : st.2.1.length = 2 ^ j),
        (if b then foldSt st z x else st).1.length = 2 ^ (if b then j - 1 else j) ∧
        (if b then foldSt st z x else st).2.1.length = 2 ^ (if b then j - 1 else j) := by
      intro K C O _ _ _ _ _ _ b j st z x hj e1 e2
      cases b with
      | false => exact ⟨e1, e2⟩
      | true =>
        obtain ⟨j, rfl⟩ : ∃ i, j = i + 1 := ⟨j - 1, by have := hj rfl; omega⟩
        have h2 : 2 ^ (j + 1) = 2 * 2 ^ j := by rw [pow_succ]; ring
        simp only [if_true, Nat.add_sub_cancel]
        rw [foldSt, if_pos ⟨_, e1.trans h2⟩]
        exact ⟨length_foldHalf _ _ _ (e1.trans h2), length_foldHalf _ _ _ (e2.trans h2)⟩
    have f1 : b1 = true → 1 ≤ j1 := by
      rintro rfl
      simp only [front, if_true, List.length_cons] at l1
      omega
    have f2 : b2 = true → 1 ≤ j2 := by
      rintro rfl
      simp only [front, if_true, List.length_cons] at l2
      omega
    have even : ∀ {j n : ℕ}, 1 ≤ j → n = 2 ^ j → ∃ i, n = 2 * i := by
      rintro (_ | j) n hj rfl
      · omega
      · exact ⟨2 ^ j, by rw [pow_succ]; ring⟩
    have ih := fun i => extract2_opens (t i) (if b1 then j1 - 1 else j1) (if b2 then j2 - 1 else j2)
      (if b1 then foldSt st1 (g1 z1) (c i) else st1) (if b2 then foldSt st2 (g2 z2) (c i) else st2) _
      (step b1 j1 st1 _ _ f1 a1 a2).1 (step b1 j1 st1 _ _ f1 a1 a2).2
      (step b2 j2 st2 _ _ f2 d1 d2).1 (step b2 j2 st2 _ _ f2 d1 d2).2 (hb i) (by
        intro s1 s2 x hx
        obtain ⟨l1, l2, o1, o2⟩ := h _ _ _ hx
        refine ⟨?_, ?_, ?_, ?_⟩
        · cases b1 <;> simp [front] at l1 ⊢ <;> omega
        · cases b2 <;> simp [front] at l2 ⊢ <;> omega
        · cases b1 <;> simpa [front] using o1
        · cases b2 <;> simpa [front] using o2)
    exact ⟨mergeIf_opens st1 (a1.trans a2.symm) (g1 z1) c h0 hc b1 (fun hb => even (f1 hb) a1) _ _ fun i => (ih i).1,
      mergeIf_opens st2 (d1.trans d2.symm) (g2 z2) c h0 hc b2 (fun hb => even (f2 hb) d1) _ _ fun i => (ih i).2⟩

end Pair

/-- A step is determined by the commitments the verifier gets. -/
theorem _root_.Ripp.Shape.sent_inj {T R OA OB : Type} (S : Shape T R) {z z' : Sent OA OB R} (h : sentComs S.out z = sentComs S.out z') :
    z = z' := by
  simp only [sentComs, Prod.mk.injEq] at h
  exact Prod.ext (Prod.ext h.1.1 (Prod.ext h.1.2.1 (S.inj h.1.2.2)))
    (Prod.ext h.2.1 (Prod.ext h.2.2.1 (S.inj h.2.2.2)))

/-- A step without the placeholder component and without further entries. -/
def bare {OA OT RT : Type} (S : Shape OT RT) (z : Sent OA F RT) : (OA × OT) × (OA × OT) :=
  ((z.1.1, S.head z.1.2.2), (z.2.1, S.head z.2.2.2))

/-- An accepting run opens what is left of the statement. -/
theorem run_opens {M K C O Y RT : Type} [AddCommGroup M] [Module F M] [AddCommGroup K] [Module F K]
    [AddCommGroup C] [Module F C] [AddCommGroup O] [Module F O] [AddCommGroup Y] [Module F Y]
    {bil : M →ₗ[F] F →ₗ[F] O} {φ : M →ₗ[F] K →ₗ[F] C} {uA : Y →ₗ[F] C} {uT : Y →ₗ[F] O} (ck : List K) (mb : List F)
    (ca : C) (ct : O) (y : Y) (a : M) (S : Shape O RT) (s : List (Sent C F RT × F)) (hs : ck.length = 2 ^ s.length)
    (h : Run bil φ (fun t => (⟨[t]⟩ : IdentityOutput O)) ck mb (ca + uA y, ⟨[ct + uT y]⟩) (s.map (·.2))
      (outer ((s.map (·.1)).map (sentComs S.out))) a) :
    OpensBy bil φ uA uT [a] y (s.foldl (fun st q => foldSt st (bare S q.1) q.2) (ck, mb, ca, ct)) := by
  obtain ⟨ka, b', e1, e2, e3, e4⟩ := h
  have hf : s.foldl (fun st q => foldSt st (bare S q.1) q.2) (ck, mb, ca, ct) =
      (s.map fun q => (bare S q.1, q.2)).foldl (fun st q => foldSt st q.1 q.2) (ck, mb, ca, ct) := by
    rw [List.foldl_map]
  rw [hf, foldl_foldSt _ _ _ _ _ (by rw [List.length_map]; exact hs)]
  simp only [outer, List.map_map, Function.comp_def] at e1 e2 e3 e4 ⊢
  rw [e1, e2]
  refine ⟨rfl, ?_, ?_⟩
  · change accum _ _ ca + uA y = _
    rw [accum_add, dot_singleton]
    exact e3
  · change accum _ _ ct + uT y = _
    rw [accum_add, dot_singleton]
    have : accum (s.map (·.2)) ((s.map fun q => (q.1.1.2.2, q.1.2.2.2)).map fun s => (S.out s.1, S.out s.2))
        (single (ct + uT y)) = single (bil a b') := by
      rw [List.map_map]; exact e4
    rw [S.accum_head, List.map_map] at this
    have := congrArg IdentityOutput.vals this
    simp only [single, List.cons.injEq, and_true] at this
    exact this

/-! ## The theorem -/

section Static
variable {ρ G1 G2 GT TF R1 R2 : Type} [DecidableEq F] [AddCommGroup G1] [Module F G1]
  [AddCommGroup G2] [Module F G2] [AddCommGroup GT] [Module F GT] [Monoid TF]
  [DecidableEq G1] [DecidableEq GT] [Nonempty R1] [Nonempty R2]

/-- A prover with oracle access: its queries are computed from the answers so far; at the end it outputs a proof (steps
in round order). -/
structure AnyProver (F G1 GT R1 R2 : Type) (Xs Ds : Finset Bytes) where
  query : List Ds → Xs
  outerSteps : List Ds → List (Sent GT F R1)
  innerSteps : List Ds → List (Sent G1 F R2)
  outerBase : List Ds → G1 × F
  innerBase : List Ds → F × F
  combined : List Ds → G1

/-- The proof output after `Q` queries to the oracle `H`. -/
def AnyProver.proof {Xs Ds : Finset Bytes} (S1 : Shape G1 R1) (S2 : Shape F R2) (A : AnyProver F G1 GT R1 R2 Xs Ds) (Q : ℕ) (H : Xs → Ds) : TpcProof F G1 GT where
  second := {
    steps := ((A.outerSteps (Oracle.trace A.query H Q)).map (sentComs S1.out)).reverse
    base := A.outerBase (Oracle.trace A.query H Q) }
  yEvalComm := A.combined (Oracle.trace A.query H Q)
  first := {
    steps := ((A.innerSteps (Oracle.trace A.query H Q)).map (sentComs S2.out)).reverse
    base := A.innerBase (Oracle.trace A.query H Q) }

/-- Every branch of the tree is a proof the prover outputs for an oracle in `W`: its steps with the challenges the
verifier derives from them, and its last messages. -/
def AnyProver.Rewound {Xs Ds : Finset Bytes} (S1 : Shape G1 R1) (S2 : Shape F R2) (A : AnyProver F G1 GT R1 R2 Xs Ds) (V : Env ρ F G1 G2 GT TF) (Q : ℕ) (com : GT)
    (value : F) (W : Finset (Xs → Ds)) (t : Tree2 3 F (Sent GT F R1) (Sent G1 F R2) (G1 × G1 × F)) : Prop :=
  t.Branches 0 fun s1 s2 b => ∃ H ∈ W,
    (∃ com', Gipa.recursiveChallenges { V with digest := Sipp.oracle H : Env ρ F G1 G2 GT TF }.multiexpSsm
      (com, 0, ⟨[(A.proof S1 S2 Q H).yEvalComm]⟩) (A.proof S1 S2 Q H).second = .ok (com', (s1.map (·.2)).reverse)) ∧
    (∃ com', Gipa.recursiveChallenges { V with digest := Sipp.oracle H : Env ρ F G1 G2 GT TF }.scalarSsm
      ((A.proof S1 S2 Q H).yEvalComm, 0, ⟨[value]⟩) (A.proof S1 S2 Q H).first = .ok (com', (s2.map (·.2)).reverse)) ∧
    (A.proof S1 S2 Q H).second.steps = ((s1.map (·.1)).map (sentComs S1.out)).reverse ∧
    (A.proof S1 S2 Q H).first.steps = ((s2.map (·.1)).map (sentComs S2.out)).reverse ∧
    b = ((A.proof S1 S2 Q H).yEvalComm, (A.proof S1 S2 Q H).second.base.1, (A.proof S1 S2 Q H).first.base.1)

variable {V : Env ρ F G1 G2 GT TF} {e : G1 →ₗ[F] G2 →ₗ[F] GT} {Xs Ds : Finset Bytes}
  {S1 : Shape G1 R1} {S2 : Shape F R2}
  (hm1 : ∀ (k : F) (z : Sent GT F R1), V.multiexpSsm.hashInput 0 k (sentComs S1.out z).1 (sentComs S1.out z).2 ∈ Xs)
  (hm2 : ∀ (k : F) (z : Sent G1 F R2), V.scalarSsm.hashInput 0 k (sentComs S2.out z).1 (sentComs S2.out z).2 ∈ Xs)

include hm1 hm2 in
/-- C111: fix keys of lengths `2^k'` and `2^k`, a commitment, a point and a value. If the transparent bivariate verifier
accepts the proofs of a prover with `Q` queries for more than `6 N (N + 1) m / |Ds|` of all oracles, where
`N = Q + k + k'` and `m` is the number of digests with the same challenge, then the proofs for these oracles contain a
tree of pairs of runs, and the extractor turns this tree into rows that open the commitment and coefficients that open
the combined rows and have the value at the point. -/
theorem C111_knowledge (hE : V.E.Lawful e)
    (hF : Decodable (fun _ => True) V.serF) (hG : Decodable (fun _ => True) V.serG1)
    (hT : Decodable (fun _ => True) V.serGT) (hd : ∀ d ∈ Ds, 16 ≤ d.length) (m : ℕ)
    (hm : ∀ x : F, (Finset.univ.filter fun d : Ds => challengeOf F d = x).card ≤ m) (k k' : ℕ)
    (ck : List G1 × List G2) (h2 : ck.2.length = 2 ^ k) (h1 : ck.1.length = 2 ^ k') (com : GT) (x y value : F)
    (A : AnyProver F G1 GT R1 R2 Xs Ds) (Q : ℕ) (hs1 : ∀ ds, (A.outerSteps ds).length = k)
    (hs2 : ∀ ds, (A.innerSteps ds).length = k') (W : Finset (Xs → Ds))
    (hW : ∀ H ∈ W, TBivariate.verify { V with digest := Sipp.oracle H } ck com (x, y) value (A.proof S1 S2 Q H) = .ok true)
    (hmany : 6 * (Q + k + k') * (Q + k + k' + 1) * m * Ds.card ^ Xs.card < W.card * Ds.card) :
    ∃ t : Tree2 3 F (Sent GT F R1) (Sent G1 F R2) (G1 × G1 × F),
      A.Rewound S1 S2 V Q com value W t ∧
      TBivariate.Knows e ck com x y value (extract2 t).2.1 (extract2 t).2.2 := by
  classical
  let enc1 : Sent GT F R1 → F → Xs := fun z k => ⟨_, hm1 k z⟩
  let enc2 : Sent G1 F R2 → F → Xs := fun z k => ⟨_, hm2 k z⟩
  have hTg : Decodable (· ∈ Set.range S1.out) V.multiexpSsm.serT := S1.decodable hG
  have hTf : Decodable (· ∈ Set.range S2.out) V.scalarSsm.serT := S2.decodable hF
  have hinj1 : ∀ (z : Sent GT F R1) (c : F) z' c', enc1 z c = enc1 z' c' → id z = id z' ∧ c = c' := by
    intro z c z' c' h
    obtain ⟨-, g0, g1, g2⟩ := Gipa.C23_hash_input_injective (P := V.multiexpSsm) hF hT hF hTg 0 0 (by norm_num)
      (by norm_num) _ _ trivial trivial _ _ _ _ (by simp [sentComs]) (congrArg Subtype.val h)
    exact ⟨S1.sent_inj (Prod.ext g1 g2), g0⟩
  have hinj2 : ∀ (z : Sent G1 F R2) (c : F) z' c', enc2 z c = enc2 z' c' → id z = id z' ∧ c = c' := by
    intro z c z' c' h
    obtain ⟨-, g0, g1, g2⟩ := Gipa.C23_hash_input_injective (P := V.scalarSsm) hF hG hF hTf 0 0 (by norm_num)
      (by norm_num) _ _ trivial trivial _ _ _ _ (by simp [sentComs]) (congrArg Subtype.val h)
    exact ⟨S2.sent_inj (Prod.ext g1 g2), g0⟩
  have hm' : ∀ (x : F) (S : Finset Ds), (∀ d ∈ S, challengeOf F d = x) → S.card ≤ m := fun x S hS =>
    (Finset.card_le_card fun d hd => Finset.mem_filter.mpr ⟨Finset.mem_univ _, hS d hd⟩).trans (hm x)
  have c1 : Fintype.card Ds = Ds.card := Fintype.card_coe Ds
  have c2 : Fintype.card (Xs → Ds) = Ds.card ^ Xs.card := by
    rw [Fintype.card_fun, Fintype.card_coe, Fintype.card_coe]
  rw [← c2, ← c1] at hmany
  obtain ⟨t, ht⟩ := Oracle.tree2_of_many A.query Q A.outerSteps A.innerSteps
    (fun ds => (A.combined ds, (A.outerBase ds).1, (A.innerBase ds).1)) id id enc1 enc2 (challengeOf F) 0 3 hinj1 hinj2
    m hm' k k' (fun ds => (hs1 ds).le) (fun ds => (hs2 ds).le) W (by
      refine lt_of_eq_of_lt ?_ (Nat.mul_lt_mul_of_pos_left hmany (show 0 < 2 by norm_num))
      ring)
  -- what a branch is
  have key : ∀ s1 s2 b, (∃ H ∈ W,
      Oracle.path id enc1 (challengeOf F) H 0 (A.outerSteps (Oracle.trace A.query H Q)) = s1 ∧
      Oracle.path id enc2 (challengeOf F) H 0 (A.innerSteps (Oracle.trace A.query H Q)) = s2 ∧
      (A.combined (Oracle.trace A.query H Q), (A.outerBase (Oracle.trace A.query H Q)).1,
        (A.innerBase (Oracle.trace A.query H Q)).1) = b ∧ (∀ q ∈ s1, q.2 ≠ 0) ∧ ∀ q ∈ s2, q.2 ≠ 0) →
      s1.length = k ∧ s2.length = k' ∧
      (∃ H ∈ W,
        (∃ com', Gipa.recursiveChallenges { V with digest := Sipp.oracle H : Env ρ F G1 G2 GT TF }.multiexpSsm
          (com, 0, ⟨[(A.proof S1 S2 Q H).yEvalComm]⟩) (A.proof S1 S2 Q H).second = .ok (com', (s1.map (·.2)).reverse)) ∧
        (∃ com', Gipa.recursiveChallenges { V with digest := Sipp.oracle H : Env ρ F G1 G2 GT TF }.scalarSsm
          ((A.proof S1 S2 Q H).yEvalComm, 0, ⟨[value]⟩) (A.proof S1 S2 Q H).first = .ok (com', (s2.map (·.2)).reverse)) ∧
        (A.proof S1 S2 Q H).second.steps = ((s1.map (·.1)).map (sentComs S1.out)).reverse ∧
        (A.proof S1 S2 Q H).first.steps = ((s2.map (·.1)).map (sentComs S2.out)).reverse ∧
        b = ((A.proof S1 S2 Q H).yEvalComm, (A.proof S1 S2 Q H).second.base.1, (A.proof S1 S2 Q H).first.base.1)) ∧
      OpensBy (smulMap F G1) e (0 : G1 →ₗ[F] GT) LinearMap.id [b.2.1] b.1
        (s1.foldl (fun st q => foldSt st (bare S1 q.1) q.2) (ck.2, powers x ck.2.length, com, 0)) ∧
      OpensBy (mulMap F) (LinearMap.lsmul F G1) (LinearMap.id : G1 →ₗ[F] G1) (0 : G1 →ₗ[F] F) [b.2.2] b.1
        (s2.foldl (fun st q => foldSt st (bare S2 q.1) q.2) (ck.1, powers y ck.1.length, 0, value)) := by
    rintro s1 s2 b ⟨H, hH, hp1, hp2, rfl, hz1, hz2⟩
    have l1 : s1.length = k := by rw [← hp1, Oracle.length_path, hs1]
    have l2 : s2.length = k' := by rw [← hp2, Oracle.length_path, hs2]
    have fst1 : s1.map (·.1) = A.outerSteps (Oracle.trace A.query H Q) := by
      rw [← hp1, Oracle.path_fst, List.map_id]
    have fst2 : s2.map (·.1) = A.innerSteps (Oracle.trace A.query H Q) := by
      rw [← hp2, Oracle.path_fst, List.map_id]
    have snd1 : s1.map (·.2) = (Oracle.queries enc1 (challengeOf F) H 0
        (A.outerSteps (Oracle.trace A.query H Q))).map fun x => challengeOf F (H x) := by
      rw [← hp1, Oracle.path_snd]
    have snd2 : s2.map (·.2) = (Oracle.queries enc2 (challengeOf F) H 0
        (A.innerSteps (Oracle.trace A.query H Q))).map fun x => challengeOf F (H x) := by
      rw [← hp2, Oracle.path_snd]
    have nz : ∀ {Z : Type} (s : List (Z × F)) (qs : List Xs), (∀ q ∈ s, q.2 ≠ 0) →
        (s.map (·.2) = qs.map fun x => challengeOf F (H x)) → ∀ x ∈ qs, challengeOf F (H x) ≠ 0 := by
      intro Z s qs hs he x hx
      have : challengeOf F (H x) ∈ s.map (·.2) := by
        rw [he]
        exact List.mem_map_of_mem hx
      obtain ⟨q, hq, he⟩ := List.mem_map.mp this
      rw [← he]
      exact hs q hq
    set V' : Env ρ F G1 G2 GT TF := { V with digest := Sipp.oracle H } with hV'
    obtain ⟨acc1, acc2⟩ := (TBivariate.C78_both (V := V') _ _ _ _ _).mp (hW H hH)
    have e1 : (A.proof S1 S2 Q H).second.steps = ((s1.map (·.1)).map (sentComs S1.out)).reverse := by
      rw [fst1]; rfl
    have e2 : (A.proof S1 S2 Q H).first.steps = ((s2.map (·.1)).map (sentComs S2.out)).reverse := by
      rw [fst2]; rfl
    have run1 : (∃ com', V'.multiexpSsm.recursiveChallenges (com, 0, ⟨[(A.proof S1 S2 Q H).yEvalComm]⟩)
          (A.proof S1 S2 Q H).second = .ok (com', (s1.map (·.2)).reverse)) ∧
        Run (smulMap F G1) e (fun t => (⟨[t]⟩ : IdentityOutput G1)) ck.2 (powers x ck.2.length)
          (com, ⟨[(A.proof S1 S2 Q H).yEvalComm]⟩) (s1.map (·.2)) (outer ((s1.map (·.1)).map (sentComs S1.out)))
          (A.proof S1 S2 Q H).second.base.1 := by
      obtain ⟨com1, hrec⟩ := recLoop_chain' (P := V.multiexpSsm) (sentComs S1.out) enc1 (fun _ _ => rfl) hd H
        (A.outerSteps (Oracle.trace A.query H Q)) 0 [] (com, 0, ⟨[(A.proof S1 S2 Q H).yEvalComm]⟩) rfl (nz s1 _ hz1 snd1)
      have hlen : (A.proof S1 S2 Q H).second.steps.length = k := by simp [AnyProver.proof, hs1]
      obtain ⟨cs, com2, hrc, hrun⟩ := C71_gipa_run (multiexpSsm_lawful V' hE) V'.X _ PUnit.unit com _ x _
        (by rw [hlen, h2]) acc1
      have hcs : cs = s1.map (·.2) := by
        have hrc' := hrc
        rw [Gipa.recursiveChallenges, AnyProver.proof, List.reverse_reverse] at hrc'
        erw [hrec] at hrc'
        have := congrArg Prod.snd (Except.ok.inj hrc')
        rw [snd1]
        exact (List.reverse_injective this).symm
      rw [hcs] at hrc hrun
      rw [hlen, ← h2, e1, List.reverse_reverse] at hrun
      exact ⟨⟨com2, hrc⟩, hrun⟩
    have run2 : (∃ com', V'.scalarSsm.recursiveChallenges ((A.proof S1 S2 Q H).yEvalComm, 0, ⟨[value]⟩)
          (A.proof S1 S2 Q H).first = .ok (com', (s2.map (·.2)).reverse)) ∧
        Run (mulMap F) (LinearMap.lsmul F G1) (fun t => (⟨[t]⟩ : IdentityOutput F)) ck.1 (powers y ck.1.length)
          ((A.proof S1 S2 Q H).yEvalComm, ⟨[value]⟩) (s2.map (·.2)) (outer ((s2.map (·.1)).map (sentComs S2.out)))
          (A.proof S1 S2 Q H).first.base.1 := by
      obtain ⟨com1, hrec⟩ := recLoop_chain' (P := V.scalarSsm) (sentComs S2.out) enc2 (fun _ _ => rfl) hd H
        (A.innerSteps (Oracle.trace A.query H Q)) 0 [] ((A.proof S1 S2 Q H).yEvalComm, 0, ⟨[value]⟩) rfl (nz s2 _ hz2 snd2)
      have hlen : (A.proof S1 S2 Q H).first.steps.length = k' := by simp [AnyProver.proof, hs2]
      obtain ⟨cs, com2, hrc, hrun⟩ := C71_gipa_run (scalarSsm_lawful V') V'.X _ PUnit.unit _ _ y _
        (by rw [hlen, h1]) acc2
      have hcs : cs = s2.map (·.2) := by
        have hrc' := hrc
        rw [Gipa.recursiveChallenges, AnyProver.proof, List.reverse_reverse] at hrc'
        erw [hrec] at hrc'
        have := congrArg Prod.snd (Except.ok.inj hrc')
        rw [snd2]
        exact (List.reverse_injective this).symm
      rw [hcs] at hrc hrun
      rw [hlen, ← h1, e2, List.reverse_reverse] at hrun
      exact ⟨⟨com2, hrc⟩, hrun⟩
    refine ⟨l1, l2, ⟨H, hH, run1.1, run2.1, e1, e2, rfl⟩, ?_, ?_⟩
    · refine run_opens ck.2 _ com 0 _ _ S1 s1 (by rw [l1, h2]) ?_
      rw [LinearMap.zero_apply, add_zero, zero_add]
      exact run1.2
    · refine run_opens ck.1 _ 0 value _ _ S2 s2 (by rw [l2, h1]) ?_
      rw [LinearMap.zero_apply, add_zero, zero_add]
      exact run2.2
  refine ⟨t, ht.mono fun s1 s2 b hb => (key s1 s2 b hb).2.2.1, ?_⟩
  obtain ⟨⟨a1, a2, a3⟩, b1, b2, b3⟩ := extract2_opens (bare (OA := GT) S1) (bare (OA := G1) S2) t k k'
    (ck.2, powers x ck.2.length, com, 0) (ck.1, powers y ck.1.length, 0, value) _ h2 (by simp [h2]) h1 (by simp [h1]) ht
    (fun s1 s2 b hb => ⟨(key s1 s2 b hb).1, (key s1 s2 b hb).2.1, (key s1 s2 b hb).2.2.2⟩)
  simp only [LinearMap.zero_apply, LinearMap.id_apply, add_zero, zero_add] at a2 a3 b2 b3
  refine ⟨a1, a2, a3.symm.trans b2, b1, ?_⟩
  rw [evalAt, b1]
  exact b3

include hm1 hm2 in
/-- C111: without such rows and coefficients the verifier accepts for at most this share of all oracles, whatever the
prover does. -/
theorem C111_soundness (hE : V.E.Lawful e)
    (hF : Decodable (fun _ => True) V.serF) (hG : Decodable (fun _ => True) V.serG1)
    (hT : Decodable (fun _ => True) V.serGT) (hd : ∀ d ∈ Ds, 16 ≤ d.length) (m : ℕ)
    (hm : ∀ x : F, (Finset.univ.filter fun d : Ds => challengeOf F d = x).card ≤ m) (k k' : ℕ)
    (ck : List G1 × List G2) (h2 : ck.2.length = 2 ^ k) (h1 : ck.1.length = 2 ^ k') (com : GT) (x y value : F)
    (hfalse : ¬ ∃ R r, TBivariate.Knows e ck com x y value R r)
    (A : AnyProver F G1 GT R1 R2 Xs Ds) (Q : ℕ) (hs1 : ∀ ds, (A.outerSteps ds).length = k)
    (hs2 : ∀ ds, (A.innerSteps ds).length = k') (W : Finset (Xs → Ds))
    (hW : ∀ H ∈ W, TBivariate.verify { V with digest := Sipp.oracle H } ck com (x, y) value (A.proof S1 S2 Q H) = .ok true) :
    W.card * Ds.card ≤ 6 * (Q + k + k') * (Q + k + k' + 1) * m * Ds.card ^ Xs.card := by
  by_contra hcon
  obtain ⟨t, -, hk⟩ := C111_knowledge hm1 hm2 hE hF hG hT hd m hm k k' ck h2 h1 com x y value A Q hs1 hs2 W hW
    (not_le.mp hcon)
  exact hfalse ⟨_, _, hk⟩

include hm1 hm2 in
/-- C111, binding: from two provers that open one commitment at one point to different values, each for more than this
share of all oracles, the extractor gets a collision of the row keys or of the coefficient keys. -/
theorem C111_binding (hE : V.E.Lawful e)
    (hF : Decodable (fun _ => True) V.serF) (hG : Decodable (fun _ => True) V.serG1)
    (hT : Decodable (fun _ => True) V.serGT) (hd : ∀ d ∈ Ds, 16 ≤ d.length) (m : ℕ)
    (hm : ∀ x : F, (Finset.univ.filter fun d : Ds => challengeOf F d = x).card ≤ m) (k k' : ℕ)
    (ck : List G1 × List G2) (h2 : ck.2.length = 2 ^ k) (h1 : ck.1.length = 2 ^ k') (com : GT) (x y : F) (value : Fin 2 → F)
    (hv : value 0 ≠ value 1) (A : Fin 2 → AnyProver F G1 GT R1 R2 Xs Ds) (Q : ℕ)
    (hs1 : ∀ i ds, ((A i).outerSteps ds).length = k) (hs2 : ∀ i ds, ((A i).innerSteps ds).length = k')
    (W : Fin 2 → Finset (Xs → Ds))
    (hW : ∀ i, ∀ H ∈ W i, TBivariate.verify { V with digest := Sipp.oracle H } ck com (x, y) (value i)
      ((A i).proof S1 S2 Q H) = .ok true)
    (hmany : ∀ i, 6 * (Q + k + k') * (Q + k + k' + 1) * m * Ds.card ^ Xs.card < (W i).card * Ds.card) :
    ∃ t : Fin 2 → Tree2 3 F (Sent GT F R1) (Sent G1 F R2) (G1 × G1 × F),
      (∀ i, (A i).Rewound S1 S2 V Q com (value i) (W i) (t i)) ∧
      (Collides (e · ·) ck.2 (extract2 (t 0)).2.1 (extract2 (t 1)).2.1 ∨
        Collides (LinearMap.lsmul F G1 · ·) ck.1 (extract2 (t 0)).2.2 (extract2 (t 1)).2.2) := by
  choose t ht hk using fun i => C111_knowledge hm1 hm2 hE hF hG hT hd m hm k k' ck h2 h1 com x y (value i) (A i) Q
    (hs1 i) (hs2 i) (W i) (hW i) (hmany i)
  exact ⟨t, ht, TBivariate.binding_of_knows (hk 0) (hk 1) hv⟩

include hm1 hm2 in
/-- C111: from a prover that opens the commitment to a polynomial to another value than the polynomial's for more than
this share of all oracles, the extractor gets a collision with the honest messages. -/
theorem C111_committed (hE : V.E.Lawful e)
    (hF : Decodable (fun _ => True) V.serF) (hG : Decodable (fun _ => True) V.serG1)
    (hT : Decodable (fun _ => True) V.serGT) (hd : ∀ d ∈ Ds, 16 ≤ d.length) (m : ℕ)
    (hm : ∀ x : F, (Finset.univ.filter fun d : Ds => challengeOf F d = x).card ≤ m) (k k' : ℕ)
    (ck : List G1 × List G2) (h2 : ck.2.length = 2 ^ k) (h1 : ck.1.length = 2 ^ k') (com : GT) (coms : List G1)
    (ps : List (List F)) (hps : ps.length ≤ ck.2.length) (hrow : ∀ p ∈ ps, p.length ≤ ck.1.length)
    (hcom : TBivariate.commit V ck ps = .ok (com, coms)) (x y value : F)
    (hv : value ≠ evalAt (ps.map fun p => evalAt p y) x)
    (A : AnyProver F G1 GT R1 R2 Xs Ds) (Q : ℕ) (hs1 : ∀ ds, (A.outerSteps ds).length = k)
    (hs2 : ∀ ds, (A.innerSteps ds).length = k') (W : Finset (Xs → Ds))
    (hW : ∀ H ∈ W, TBivariate.verify { V with digest := Sipp.oracle H } ck com (x, y) value (A.proof S1 S2 Q H) = .ok true)
    (hmany : 6 * (Q + k + k') * (Q + k + k' + 1) * m * Ds.card ^ Xs.card < W.card * Ds.card) :
    ∃ t : Tree2 3 F (Sent GT F R1) (Sent G1 F R2) (G1 × G1 × F), A.Rewound S1 S2 V Q com value W t ∧
      (Collides (e · ·) ck.2 (extract2 t).2.1 coms ∨
        ∃ q : List F, (∀ z, evalAt q z = evalAt (ps.map fun p => evalAt p z) x) ∧
          Collides (LinearMap.lsmul F G1 · ·) ck.1 (extract2 t).2.2 q) := by
  obtain ⟨t, ht, hk⟩ := C111_knowledge hm1 hm2 hE hF hG hT hd m hm k k' ck h2 h1 com x y value A Q hs1 hs2 W hW hmany
  exact ⟨t, ht, TBivariate.committed_of_knows hE hps hrow hcom hk hv⟩

include hm1 hm2 in
/-- C111 for the transparent univariate scheme: the same for the commitment to `p` and a value other than `p(z)`. -/
theorem C111_univariate (hE : V.E.Lawful e)
    (hF : Decodable (fun _ => True) V.serF) (hG : Decodable (fun _ => True) V.serG1)
    (hT : Decodable (fun _ => True) V.serGT) (hd : ∀ d ∈ Ds, 16 ≤ d.length) (m : ℕ)
    (hm : ∀ x : F, (Finset.univ.filter fun d : Ds => challengeOf F d = x).card ≤ m) (k k' : ℕ)
    (ck : List G1 × List G2) (h2 : ck.2.length = 2 ^ k) (h1 : ck.1.length = 2 ^ k') (com : GT) (coms : List G1)
    (p : List F) (hp : p.length ≤ ck.2.length * ck.1.length) (hcom : TUnivariate.commit V ck p = .ok (com, coms))
    (z value : F) (hv : value ≠ evalAt p z)
    (A : AnyProver F G1 GT R1 R2 Xs Ds) (Q : ℕ) (hs1 : ∀ ds, (A.outerSteps ds).length = k)
    (hs2 : ∀ ds, (A.innerSteps ds).length = k') (W : Finset (Xs → Ds))
    (hW : ∀ H ∈ W, TUnivariate.verify { V with digest := Sipp.oracle H } ck com z value (A.proof S1 S2 Q H) = .ok true)
    (hmany : 6 * (Q + k + k') * (Q + k + k' + 1) * m * Ds.card ^ Xs.card < W.card * Ds.card) :
    ∃ t : Tree2 3 F (Sent GT F R1) (Sent G1 F R2) (G1 × G1 × F), A.Rewound S1 S2 V Q com value W t ∧
      (Collides (e · ·) ck.2 (extract2 t).2.1 coms ∨
        ∃ q : List F, evalAt q z = evalAt p z ∧ Collides (LinearMap.lsmul F G1 · ·) ck.1 (extract2 t).2.2 q) := by
  have g1 : ck.1 ≠ [] := by
    intro h; rw [h, List.length_nil] at h1; exact absurd h1.symm (pow_ne_zero _ (by norm_num))
  have g2 : ck.2 ≠ [] := by
    intro h; rw [h, List.length_nil] at h2; exact absurd h2.symm (pow_ne_zero _ (by norm_num))
  have l1 : 1 ≤ ck.1.length := List.length_pos_iff.mpr g1
  have l2 : 1 ≤ ck.2.length := List.length_pos_iff.mpr g2
  have hdeg : TUnivariate.parseDegrees ck = .ok (ck.2.length - 1, ck.1.length - 1) := by
    rw [TUnivariate.parseDegrees, if_neg (by omega)]
  obtain ⟨rows, f1, f2, f3, f4⟩ := bivariateForm_eq (ck.2.length - 1) (ck.1.length - 1) p
  rw [TUnivariate.commit, hdeg] at hcom
  simp only [ok_bind] at hcom
  rw [f1] at hcom
  rw [Nat.sub_add_cancel l2] at f2
  rw [Nat.sub_add_cancel l1] at f3
  have hval : evalAt (rows.map fun q => evalAt q z) (z ^ ck.1.length) = evalAt p z := by
    have := f4 z
    rw [Nat.sub_add_cancel l1, Nat.sub_add_cancel l2, List.take_of_length_le hp] at this
    simp only [evalAt_eq]
    exact this
  obtain ⟨t, ht, h⟩ := C111_committed hm1 hm2 hE hF hG hT hd m hm k k' ck h2 h1 com coms rows f2.le
    (fun q hq => (f3 q hq).2) hcom (z ^ ck.1.length) z value (by rw [hval]; exact hv) A Q hs1 hs2 W
    (fun H hH => by rw [← TUnivariate.C78_point _ g1 g2]; exact hW H hH) hmany
  exact ⟨t, ht, h.imp id fun ⟨q, hq, hc⟩ => ⟨q, (hq z).trans hval, hc⟩⟩

include hm1 hm2 in
/-- C111: provers that open one commitment at as many different `x` as there are rows, each for more than this share of
all oracles, determine a polynomial that commits to `com`, or a collision of the row keys. -/
theorem C111_polynomial (hE : V.E.Lawful e)
    (hF : Decodable (fun _ => True) V.serF) (hG : Decodable (fun _ => True) V.serG1)
    (hT : Decodable (fun _ => True) V.serGT) (hd : ∀ d ∈ Ds, 16 ≤ d.length) (m : ℕ)
    (hm : ∀ x : F, (Finset.univ.filter fun d : Ds => challengeOf F d = x).card ≤ m) (k k' : ℕ)
    (ck : List G1 × List G2) (h2 : ck.2.length = 2 ^ k) (h1 : ck.1.length = 2 ^ k') (com : GT)
    (x : Fin ck.2.length → F) (hx : Function.Injective x) (y value : Fin ck.2.length → F)
    (A : Fin ck.2.length → AnyProver F G1 GT R1 R2 Xs Ds) (Q : ℕ)
    (hs1 : ∀ i ds, ((A i).outerSteps ds).length = k) (hs2 : ∀ i ds, ((A i).innerSteps ds).length = k')
    (W : Fin ck.2.length → Finset (Xs → Ds))
    (hW : ∀ i, ∀ H ∈ W i, TBivariate.verify { V with digest := Sipp.oracle H } ck com (x i, y i) (value i)
      ((A i).proof S1 S2 Q H) = .ok true)
    (hmany : ∀ i, 6 * (Q + k + k') * (Q + k + k' + 1) * m * Ds.card ^ Xs.card < (W i).card * Ds.card) :
    ∃ t : Fin ck.2.length → Tree2 3 F (Sent GT F R1) (Sent G1 F R2) (G1 × G1 × F),
      (∀ i, (A i).Rewound S1 S2 V Q com (value i) (W i) (t i)) ∧
      (TBivariate.interpolate ck.1.length x (fun i => (extract2 (t i)).2.1) fun i => (extract2 (t i)).2.2).Good
        V e ck com := by
  choose t ht hk using fun i => C111_knowledge hm1 hm2 hE hF hG hT hd m hm k k' ck h2 h1 com (x i) (y i) (value i)
    (A i) Q (hs1 i) (hs2 i) (W i) (hW i) (hmany i)
  exact ⟨t, ht, TBivariate.interpolate_good hE ck com rfl (by rw [h2]; exact Nat.one_le_two_pow) x hx _ _
    (fun i => (hk i).1) (fun i => (hk i).2.1) (fun i => (hk i).2.2.2.1) fun i => (hk i).2.2.1⟩

end Static

/-! ## An instance: two or four coefficients over the field with 101 elements -/

section Example
open Toy
open GipaStatic (exampleDigests card_exampleDigests exampleDigests_length exampleDigests_card exampleKey decodable_ser
  decodable_pair card_apply commitTo)
open SsmStatic (coms coms2)

theorem exampleOuter_any (k : Toy.F) (z : Sent Mat Toy.F (Fin 2 → Toy.F)) :
    exampleEnv.multiexpSsm.hashInput 0 k (sentComs single z).1 (sentComs single z).2 ∈ exampleInputs := by
  have c1 : ∀ r : Mat, commitTo (rowPairing exampleE exampleKey) exampleKey r = r := example_rows
  have c2 : ∀ r : Fin 2 → Toy.F, commitTo (LinearMap.lsmul Toy.F (Fin 2 → Toy.F)) exampleKey r = r := example_row
  have := exampleOuter_mem k z
  simp only [coms2, coms, c1, rowOutput, row, c2] at this
  exact this

theorem exampleInner_any (k : Toy.F) (z : Sent (Fin 2 → Toy.F) Toy.F Toy.F) :
    exampleEnv.scalarSsm.hashInput 0 k (sentComs single z).1 (sentComs single z).2 ∈ exampleInputs := by
  have c2 : ∀ r : Fin 2 → Toy.F, commitTo (LinearMap.lsmul Toy.F (Fin 2 → Toy.F)) exampleKey r = r := example_row
  have := exampleInner_mem k z
  simp only [coms2, coms, c2] at this
  exact this

/-- An honest prover for the polynomial `1 + 2 x` (rows of one coefficient) and `x = 5`. It asks for its only
challenge. -/
noncomputable def honestAny : AnyProver Toy.F (Fin 2 → Toy.F) Mat (Fin 2 → Toy.F) Toy.F exampleInputs exampleDigests where
  query _ := ⟨_, exampleOuter_any 0 ((![![2, 0], ![0, 0]], 0, ![2, 0]), (![![0, 0], ![1, 0]], 0, ![5, 0]))⟩
  outerSteps _ := [((![![2, 0], ![0, 0]], 0, ![2, 0]), (![![0, 0], ![1, 0]], 0, ![5, 0]))]
  innerSteps _ := []
  outerBase ds := ((ds.head?.map fun d => ![1 + challengeOf Toy.F d * 2, 0]).getD 0,
    (ds.head?.map fun d => 1 + (challengeOf Toy.F d)⁻¹ * 5).getD 0)
  innerBase _ := (11, 1)
  combined _ := ![11, 0]

/-- The verifier accepts whenever the challenge is not zero. -/
theorem honestAny_accepted (H : exampleInputs → exampleDigests)
    (h0 : challengeOf Toy.F (H (honestAny.query [])) ≠ 0) :
    TBivariate.verify { exampleEnv with digest := Sipp.oracle H } ([exampleKey 0], List.ofFn exampleKey)
      ![![1, 0], ![2, 0]] (5, 3) 11 (honestAny.proof (.one _) (.one _) 1 H) = .ok true := by
  set V' : Env ℕ Toy.F (Fin 2 → Toy.F) (Fin 2 → Toy.F) Mat (Multiplicative Mat) :=
    { exampleEnv with digest := Sipp.oracle H } with hV'
  obtain ⟨com', hrec⟩ := recLoop_chain' (P := exampleEnv.multiexpSsm) (sentComs single)
    (fun z k => ⟨_, exampleOuter_any k z⟩)
    (fun _ _ => rfl) exampleDigests_length H (honestAny.outerSteps (Oracle.trace honestAny.query H 1)) 0 []
    (![![1, 0], ![2, 0]], 0, ⟨[![11, 0]]⟩) rfl (by
      intro x hx
      rw [honestAny] at hx
      simp only [Oracle.queries, List.mem_singleton] at hx
      subst hx
      exact h0)
  have hrec' : V'.multiexpSsm.recursiveChallenges (![![1, 0], ![2, 0]], 0, ⟨[(honestAny.proof (.one _) (.one _) 1 H).yEvalComm]⟩)
      (honestAny.proof (.one _) (.one _) 1 H).second = .ok (com', [challengeOf Toy.F (H (honestAny.query []))].reverse) := by
    rw [Gipa.recursiveChallenges, AnyProver.proof, List.reverse_reverse]
    erw [hrec]
    rfl
  have hin : V'.scalarSsm.recursiveChallenges ((honestAny.proof (.one _) (.one _) 1 H).yEvalComm, 0, ⟨[11]⟩)
      (honestAny.proof (.one _) (.one _) 1 H).first = .ok ((![11, 0], 0, ⟨[11]⟩), [].reverse) := rfl
  have hcom : com' = Gipa.foldMany (honestAny.proof (.one _) (.one _) 1 H).second.steps.reverse
      [challengeOf Toy.F (H (honestAny.query []))] (![![1, 0], ![2, 0]], 0, ⟨[![11, 0]]⟩) := by
    have h := hrec'
    rw [Gipa.recursiveChallenges_eq] at h
    cases hcs : V'.multiexpSsm.chals (honestAny.proof (.one _) (.one _) 1 H).second.steps.reverse [] with
    | error e => simp [hcs] at h
    | ok cs =>
      simp only [hcs, ok_bind, Except.ok.injEq, Prod.mk.injEq] at h
      rw [← h.1, ← List.reverse_injective h.2]
      rfl
  obtain ⟨ka, b', k', y', e1, e2, e3, e4, e5⟩ := TBivariate.C78_verdict (V := V') exampleEnv_lawful
    ([exampleKey 0], List.ofFn exampleKey) ![![1, 0], ![2, 0]] (5, 3) 11 (honestAny.proof (.one _) (.one _) 1 H) rfl rfl _ _ _ _ hrec' hin
  rw [e5, hcom]
  have hb : (honestAny.proof (.one _) (.one _) 1 H).second.base = (![1 + challengeOf Toy.F (H (honestAny.query [])) * 2, 0],
      1 + (challengeOf Toy.F (H (honestAny.query [])))⁻¹ * 5) := rfl
  have hb' : (honestAny.proof (.one _) (.one _) 1 H).first.base = (11, 1) := rfl
  have hs : (honestAny.proof (.one _) (.one _) 1 H).second.steps.reverse =
    [sentComs single ((![![2, 0], ![0, 0]], 0, ![2, 0]), (![![0, 0], ![1, 0]], 0, ![5, 0]))] := rfl
  rw [hb, hb', hs]
  generalize challengeOf Toy.F (H (honestAny.query [])) = c at h0 e1 e2
  have g1 : ka = ![1, c⁻¹] := by
    have : foldAll ([c].map (·⁻¹)) (List.ofFn exampleKey) = [![1, c⁻¹]] := by
      clear e1 e2 h0; revert c; decide +kernel
    rw [this] at e1
    exact (List.singleton_injective e1).symm
  have g2 : b' = 1 + c⁻¹ * 5 := by
    have : foldAll ([c].map (·⁻¹)) ((List.range (2 ^ [c].length)).map ((5 : Toy.F) ^ ·)) = [1 + c⁻¹ * 5] := by
      clear e1 e2 h0 g1; revert c; decide +kernel
    rw [this] at e2
    exact (List.singleton_injective e2).symm
  have g3 : k' = exampleKey 0 := (List.singleton_injective e3).symm
  have g4 : y' = 1 := (List.singleton_injective e4).symm
  subst g1 g2 g3 g4
  clear e1 e2 e3 e4 e5 hcom hrec' hrec hb hb' hs hin
  have hv : ∀ c : Toy.F, c ≠ 0 → (Gipa.foldMany [sentComs (single (T := Fin 2 → Toy.F))
        (((![![2, 0], ![0, 0]], 0, ![2, 0]), ![![0, 0], ![1, 0]], 0, ![5, 0]) : Sent Mat Toy.F (Fin 2 → Toy.F))] [c]
        (![![1, 0], ![2, 0]], 0, ⟨[![11, 0]]⟩)).2.2.vals = [(1 + c⁻¹ * 5) • ![1 + c * 2, 0]] := by
    decide +kernel
  refine ⟨⟨?_, ?_, congrArg IdentityOutput.mk (hv c h0), congrArg IdentityOutput.mk (hv c h0)⟩, ?_⟩
  · clear hv; revert c; decide +kernel
  · clear hv; revert c; decide +kernel
  · decide +kernel

theorem honestAny_many : 6 * (1 + 1 + 0) * (1 + 1 + 0 + 1) * 1 * exampleDigests.card ^ exampleInputs.card <
    (Finset.univ.filter fun H : exampleInputs → exampleDigests =>
      challengeOf Toy.F (H (honestAny.query [])) ≠ 0).card * exampleDigests.card := by
  classical
  have h2 := Finset.card_filter_add_card_filter_not (s := (Finset.univ : Finset exampleDigests))
    (fun d => challengeOf Toy.F d = 0)
  rw [Finset.card_univ, Fintype.card_coe, card_exampleDigests] at h2
  have h3 := exampleDigests_card 0
  have h1 := card_apply (honestAny.query []) fun d : exampleDigests => challengeOf Toy.F d ≠ 0
  rw [Fintype.card_fun, Fintype.card_coe, Fintype.card_coe] at h1
  rw [h1, card_exampleDigests]
  have h6 : 0 < 101 ^ exampleInputs.card := by positivity
  exact Nat.mul_lt_mul_of_pos_right (show _ < _ by simp only [ne_eq]; omega) h6

/-- The share of these oracles is above the bound, so the hypotheses of `C111_knowledge` are met and its tree exists. The
keys have no collisions, so the extracted values are the coefficients. -/
example : ∃ t : Tree2 3 Toy.F (Sent Mat Toy.F (Fin 2 → Toy.F)) (Sent (Fin 2 → Toy.F) Toy.F Toy.F)
      ((Fin 2 → Toy.F) × (Fin 2 → Toy.F) × Toy.F),
    (extract2 t).2.1 = [![1, 0], ![2, 0]] ∧ (extract2 t).2.2 = [11] := by
  classical
  obtain ⟨t, -, h1, h2, h3, h4, h5⟩ := C111_knowledge (S1 := .one _) (S2 := .one _) exampleOuter_any exampleInner_any exampleEnv_lawful decodable_ser
    decodable_pair decodable_mat exampleDigests_length 1 exampleDigests_card 1 0 ([exampleKey 0], List.ofFn exampleKey)
    rfl rfl ![![1, 0], ![2, 0]] 5 3 11 honestAny 1 (fun _ => rfl) (fun _ => rfl) _
    (fun H hH => honestAny_accepted H (Finset.mem_filter.mp hH).2) honestAny_many
  refine ⟨t, ?_, ?_⟩
  · obtain ⟨x, y, hxy⟩ := List.length_eq_two.mp h1
    rw [hxy] at h2 ⊢
    have a := fun i j => congrFun (congrFun h2 i) j
    have a0 : x = ![1, 0] := by
      funext j
      have := a 0 j
      fin_cases j <;> simp [dot, exampleE, exampleKey] at this ⊢ <;> exact this.symm
    have a1 : y = ![2, 0] := by
      funext j
      have := a 1 j
      fin_cases j <;> simp [dot, exampleE, exampleKey] at this ⊢ <;> exact this.symm
    rw [a0, a1]
  · obtain ⟨r, hr⟩ := List.length_eq_one_iff.mp h4
    rw [hr] at h5 ⊢
    rw [h5]
    simp [evalAt, dot, powers]

/-- `1 + 2 y + 3 x + 4 x y` is 82 at `(5, 3)`. No prover with one query makes the verifier accept 83 for more than 72
in 101 of all oracles. -/
example (A : AnyProver Toy.F (Fin 2 → Toy.F) Mat (Fin 2 → Toy.F) Toy.F exampleInputs exampleDigests)
    (hs1 : ∀ ds, (A.outerSteps ds).length = 1) (hs2 : ∀ ds, (A.innerSteps ds).length = 1)
    (W : Finset (exampleInputs → exampleDigests))
    (hW : ∀ H ∈ W, TBivariate.verify { exampleEnv with digest := Sipp.oracle H }
      (List.ofFn exampleKey, List.ofFn exampleKey) ![![1, 2], ![3, 4]] (5, 3) 83 (A.proof (.one _) (.one _) 1 H) = .ok true) :
    W.card * 101 ≤ 72 * 101 ^ exampleInputs.card := by
  classical
  have := C111_soundness (S1 := .one _) (S2 := .one _) exampleOuter_any exampleInner_any exampleEnv_lawful decodable_ser
    decodable_pair decodable_mat exampleDigests_length 1 exampleDigests_card 1 1
    (List.ofFn exampleKey, List.ofFn exampleKey) rfl rfl ![![1, 2], ![3, 4]] 5 3 83 (by
      rintro ⟨R, r, h1, h2, h3, h4, h5⟩
      obtain ⟨x, y, rfl⟩ := List.length_eq_two.mp h1
      obtain ⟨u, v, rfl⟩ := List.length_eq_two.mp h4
      have a := fun i j => congrFun (congrFun h2 i) j
      have a0 : x = ![1, 2] := by
        funext j
        have := a 0 j
        fin_cases j <;> simp [dot, exampleE, exampleKey] at this ⊢ <;> exact this.symm
      have a1 : y = ![3, 4] := by
        funext j
        have := a 1 j
        fin_cases j <;> simp [dot, exampleE, exampleKey] at this ⊢ <;> exact this.symm
      subst a0 a1
      have u0 := congrFun h3 0
      have v0 := congrFun h3 1
      simp [dot, exampleKey, powers, smulMap, List.range_succ] at u0 v0
      subst u0 v0
      revert h5
      decide +kernel) A 1 hs1 hs2 W hW
  rw [card_exampleDigests, show 6 * (1 + 1 + 1) * (1 + 1 + 1 + 1) * 1 = 72 from rfl] at this
  exact this

end Example

end Ripp.PolyStatic
