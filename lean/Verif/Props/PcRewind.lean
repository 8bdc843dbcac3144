import Verif.Props.PcStatic
import Verif.Props.PolyRewind
import Verif.Props.TipaSsmRewind

/-!
# C116: knowledge soundness of the polynomial commitments with a reference string in the random oracle model

As C107, but nothing need be known about the commitments the prover hashes: combinations of the reference string are
known only for the final keys and for the elements of `G1` in the output. As in C111, the combined row is not hashed, so
the proofs output for different oracles may contain different ones.
-/

set_option linter.unusedSectionVars false
set_option linter.unusedVariables false

namespace Ripp.PcStatic

open Spec Extract SsmExtract Polynomial
open GipaStatic (Sent sentComs challengeOf withDigest single decodable_single recLoop_digest oracle_apply)
open TipaStatic (Comb poly left leftKey Leak)
open TipaSsmStatic (pointInput sentInput)
open SsmStatic (St foldSt foldl_foldSt rounds strip)
open PolyStatic (OpensBy mergeIf mergeIf_opens combo combo_add map_combo run_opens bare evalAt_rows)

/-! ## The extractor -/

section Extractor
variable {F M K C O Y : Type} [Field F] [AddCommGroup M] [Module F M] [AddCommGroup K] [Module F K]
  [AddCommGroup C] [Module F C] [AddCommGroup O] [Module F O] [AddCommGroup Y] [Module F Y]

/-- The extractor: the leaves hold the last message and a contribution to the statement. -/
def extractBy {S : Type} : SsmExtract.Tree F (M × Y) S → Y × List M
  | .leaf x => (x.2, [x.1])
  | .node _ _ c t => (combo c fun i => (extractBy (t i)).1, SsmExtract.merge c fun i => (extractBy (t i)).2)

theorem exists_leaf {M S : Type} : ∀ (t : SsmExtract.Tree F M S) (q : List ((S × S) × F) → M → Prop), t.Branches q →
    ∃ ps x, q ps x
  | .leaf x, _, h => ⟨[], x, h⟩
  | .node _ _ _ t, _, h => by
    obtain ⟨ps, x, hx⟩ := exists_leaf (t 0) _ (h.2.2 0)
    exact ⟨_, _, hx⟩

variable {bil : M →ₗ[F] F →ₗ[F] O} {φ : M →ₗ[F] K →ₗ[F] C} {uA : Y →ₗ[F] C} {uT : Y →ₗ[F] O}

/-- If all leaves of a tree open what is left of the statement, and have the value `v`, the extracted list opens the
statement, and the extracted contribution has the value `v`. -/
theorem extractBy_opens (f : Y →ₗ[F] F) (v : F) : ∀ (t : SsmExtract.Tree F (M × Y) (C × O)) (j : ℕ) (st : St F K C O)
    (q : List (((C × O) × (C × O)) × F) → M × Y → Prop), st.1.length = 2 ^ j → st.2.1.length = 2 ^ j → t.Branches q →
    (∀ ps x, q ps x → ps.length = j ∧ f x.2 = v ∧
      OpensBy bil φ uA uT [x.1] x.2 (ps.foldl (fun st p => foldSt st p.1 p.2) st)) →
    f (extractBy t).1 = v ∧ OpensBy bil φ uA uT (extractBy t).2 (extractBy t).1 st
  | .leaf x, j, st, q, _, _, hb, h => (h _ _ hb).2
  | .node l r c t, j, st, q, ha, hm, ⟨hc, h0, hb⟩, h => by
    obtain ⟨j, rfl⟩ : ∃ i, j = i + 1 := by
      obtain ⟨ps, x, hx⟩ := exists_leaf _ _ (hb 0)
      have := (h _ _ hx).1
      rw [List.length_cons] at this
      exact ⟨ps.length, this.symm⟩
    have h2 : 2 ^ (j + 1) = 2 * 2 ^ j := by rw [pow_succ]; ring
    have hst : ∀ i, (foldSt st (l, r) (c i)).1.length = 2 ^ j ∧ (foldSt st (l, r) (c i)).2.1.length = 2 ^ j := by
      intro i
      rw [foldSt, if_pos ⟨_, ha.trans h2⟩]
      exact ⟨length_foldHalf _ _ _ (ha.trans h2), length_foldHalf _ _ _ (hm.trans h2)⟩
    have ih := fun i => extractBy_opens f v (t i) j (foldSt st (l, r) (c i)) _ (hst i).1 (hst i).2 (hb i) (by
      intro ps x hx
      obtain ⟨l1, l2, l3⟩ := h _ _ hx
      exact ⟨by simpa using l1, l2, l3⟩)
    refine ⟨?_, mergeIf_opens st (ha.trans hm.symm) (l, r) c h0 hc true (fun _ => ⟨_, ha.trans h2⟩) _ _
      fun i => (ih i).2⟩
    rw [extractBy, map_combo]
    simp only [(ih _).1]
    have := combo_add c h0 hc v fun _ => (0 : F)
    simpa [combo] using this

/-- A tree with labels at the leaves. -/
theorem tree_of_full {S Z : Type} (g : Z → S × S) : ∀ (j : ℕ) (p : List (Z × F) → Prop)
    (q : List ((S × S) × F) → M → Prop), Oracle.Full 3 0 j p →
    (∀ ps, p ps → ∃ a, q (ps.map fun s => (g s.1, s.2)) a) → ∃ t : SsmExtract.Tree F M S, t.Branches q
  | 0, p, q, hf, h => by
    obtain ⟨a, hq⟩ := h [] hf
    exact ⟨.leaf a, hq⟩
  | j + 1, p, q, ⟨z, c, hc, h0, hf⟩, h => by
    have ih := fun i => tree_of_full g j _ (fun ps => q ((g z, c i) :: ps)) (hf i) (fun ps hp => h _ hp)
    choose t ht using ih
    exact ⟨.node (g z).1 (g z).2 c t, hc, h0, ht⟩

end Extractor

/-! ## The theorem -/

section Static
variable {ρ F G1 G2 GT TF R1 : Type} [Field F] [DecidableEq F]
  [AddCommGroup G1] [Module F G1] [AddCommGroup G2] [Module F G2]
  [AddCommGroup GT] [Module F GT] [Monoid TF] [DecidableEq G1] [DecidableEq GT] {n l : ℕ}

/-- A prover with oracle access as in C115. At the end it also outputs the combined row and the quotient; the last
message, these two and the final key with its opening are combinations of the reference string. -/
structure AnyProver (n l : ℕ) (F GT R1 : Type) (Xs Ds : Finset Bytes) extends
    toTipa : TipaSsmStatic.AnyProver n F (Row l F) GT R1 Xs Ds where
  combined : List Ds → Row l F
  quotient : List Ds → Row l F

/-- The whole proof. -/
def AnyProver.pcProof {Xs Ds : Finset Bytes} (Sh : Shape G1 R1) (srs : SRS G1 G2) (ι : Row l F →ₗ[F] G1) (A : AnyProver n l F GT R1 Xs Ds)
    (Q : ℕ) (H : Xs → Ds) : PcProof F G1 G2 GT where
  ip := mapProof ι (A.toTipa.tipaProof Sh.out srs Q H)
  yEvalComm := ι (A.combined (Oracle.trace A.query H Q))
  kzg := ι (A.quotient (Oracle.trace A.query H Q))

/-- The combination `u` and the rows `a` combined with the powers of `x` are different and have the same element of
`G1`. -/
def TwoForms (ι : Row l F →ₗ[F] G1) (x : F) (u : Row l F) (a : List (Row l F)) : Prop :=
  u ≠ dot (fun (r : Row l F) (s : F) => s • r) a (powers x a.length) ∧
    ι u = ι (dot (fun (r : Row l F) (s : F) => s • r) a (powers x a.length))

/-- The rows `a` open the commitment, and their polynomial has the value at the point unless `u` is in conflict with
them. -/
def Knows (e : G1 →ₗ[F] G2 →ₗ[F] GT) (ι : Row l F →ₗ[F] G1) (keys : List G2) (com : GT) (x y value : F) (u : Row l F)
    (a : List (Row l F)) : Prop :=
  a.length = keys.length ∧ com = dot (fun r k => e (ι r) k) a keys ∧
    (evalAt (a.map fun r => evalAt (List.ofFn r.1) y) x = value ∨ TwoForms ι x u a)

/-- Every branch of the tree is a proof the prover outputs for an oracle in `W`: its steps with the challenges the
verifier derives from them, its last message and its combined row. -/
def AnyProver.Rewound {Xs Ds : Finset Bytes} (Sh : Shape G1 R1) (A : AnyProver n l F GT R1 Xs Ds) (V : Env ρ F G1 G2 GT TF)
    (srs : SRS G1 G2) (ι : Row l F →ₗ[F] G1) (Q : ℕ) (com : GT) (x : F) (W : Finset (Xs → Ds))
    (t : SsmExtract.Tree F (Row l F × Row l F) (GT × G1)) : Prop :=
  t.Branches fun ps r => ∃ H ∈ W,
    (∃ com', ({ V with digest := Sipp.oracle H } : Env ρ F G1 G2 GT TF).multiexpSsm.recursiveChallenges
      (com, x, ⟨[(A.pcProof Sh srs ι Q H).yEvalComm]⟩) (A.pcProof Sh srs ι Q H).ip.gipa =
        .ok (com', (ps.map (·.2)).reverse)) ∧
    (A.pcProof Sh srs ι Q H).ip.gipa.steps.map (fun s => ((s.1.1, s.1.2.2.vals.head?), (s.2.1, s.2.2.2.vals.head?))) =
      (ps.map fun p => ((p.1.1.1, some p.1.1.2), (p.1.2.1, some p.1.2.2))).reverse ∧
    (A.pcProof Sh srs ι Q H).ip.gipa.base.1 = ι r.1 ∧ (A.pcProof Sh srs ι Q H).yEvalComm = ι r.2 ∧
    r = ((A.base (Oracle.trace A.query H Q)).1, A.combined (Oracle.trace A.query H Q))

variable {V : Env ρ F G1 G2 GT TF} {e : G1 →ₗ[F] G2 →ₗ[F] GT} {srs : SRS G1 G2} {Xs Ds : Finset Bytes}
  {w : Fin l → G1} {gb : G1} {Sh : Shape G1 R1}
  (hmem : ∀ (k : F) (z : Sent GT F R1), (rowSsm V (element w gb)).hashInput 0 k (sentComs Sh.out z).1
    (sentComs Sh.out z).2 ∈ Xs)
  (hpt : ∀ t x ka, t < 2 ^ 64 → pointInput V.tipa (rowSsm V (element w gb)) t x ka ∈ Xs)

theorem map_dot {M N : Type} [AddCommGroup M] [Module F M] [AddCommGroup N] [Module F N] (f : M →ₗ[F] N) :
    ∀ (a : List M) (b : List F), f (dot (fun (r : M) (s : F) => s • r) a b) = dot (fun r s => s • f r) a b
  | [], _ => by simp
  | _ :: _, [] => by simp
  | r :: a, s :: b => by simp [map_dot f a b]

theorem combined_value (y x : F) (a : List (Row l F)) :
    valueAt y (dot (fun (r : Row l F) (s : F) => s • r) a (powers x a.length)) = evalAt (a.map fun r => evalAt (List.ofFn r.1) y) x := by
  rw [map_dot, evalAt, List.length_map, dot_map]
  congr 1
  funext r s
  rw [valueAt_apply, evalAt, List.length_ofFn, show powers y l = List.ofFn fun j : Fin l => y ^ (j : ℕ) by
    apply List.ext_getElem <;> simp [powers], smul_eq_mul, mul_comm s]
  exact congrArg (· * s) (GipaStatic.dot_ofFn (mulMap F) r.1 fun j : Fin l => y ^ (j : ℕ)).symm

/-- The opening point is found within `N` attempts, and the prover has not found a non-zero polynomial of which the
trapdoors are a zero. -/
def AnyProver.Clean (A : AnyProver n l F GT R1 Xs Ds) (Q N : ℕ) (hN : N ≤ 2 ^ 64) (α β y value : F) (H : Xs → Ds) :
    Prop :=
  ¬ RowLeak (A.combined (Oracle.trace A.query H Q)) (A.quotient (Oracle.trace A.query H Q)) value y α β ∧
  ∃ t, ∃ ht : t < N, ∃ c,
    V.fromRandomBytes (H (A.point V.tipa (rowSsm V (element w gb)) Sh.out srs hmem hpt Q t (ht.trans_le hN) H)) =
      some c ∧
    (∀ t', ∀ ht' : t' < t, V.fromRandomBytes (H (A.point V.tipa (rowSsm V (element w gb)) Sh.out srs hmem hpt Q t'
      ((ht'.trans ht).trans_le hN) H)) = none) ∧
    ¬ Leak (A.knownKey V.tipa (rowSsm V (element w gb)) Sh.out srs hmem hpt Q t (ht.trans_le hN) H)
      (A.opening (Oracle.trace A.query H Q))
      ((keyPoly ((A.transcript (rowSsm V (element w gb)) Sh.out hmem Q H).map (·⁻¹)) 1).eval c) c β α

/-- C116: fix a reference string for `2^k` rows with `l` coefficients, a commitment, a point and a value. Let the
verifier accept the proofs of a prover with `Q` queries for more than
`(M (M + 4) m + N ((M + 1) (2 n - 2) m' + (M + 1) (M + 2) m)) / |Ds|` of all oracles, with an opening point found within
`N` attempts and without a non-zero polynomial of which the trapdoors are a zero. `M`, `m` and `m'` are as in C114. Then
the proofs for these oracles contain a tree of runs, and the extractor turns this tree into rows that open the
commitment and whose polynomial has the value at the point, or into two different combinations of the reference
string with the same element of `G1`. -/
theorem C116_knowledge (hE : V.E.Lawful e)
    (hF : Decodable (fun _ => True) V.serF) (hG : Decodable (fun _ => True) V.serG1)
    (hT : Decodable (fun _ => True) V.serGT) (hG2 : Decodable (fun _ => True) V.serG2)
    (hd : ∀ d ∈ Ds, 16 ≤ d.length) (m m' : ℕ)
    (hm : ∀ x : F, (Finset.univ.filter fun d : Ds => challengeOf F d = x).card ≤ m)
    (hm' : ∀ c, (Finset.univ.filter fun d : Ds => V.fromRandomBytes d = some c).card ≤ m') (k : ℕ)
    (hn : n = 2 ^ k) (g : G1) (h : G2) (α β : F) (hsrs : IsLeftSrs srs g h α β n)
    (hw : ∀ j, w j = α ^ (j : ℕ) • g) (hgb : gb = β • g) (hg0 : g ≠ 0) (hh0 : h ≠ 0)
    (hg : ∀ y, e g y = 0 → y = 0) (hh : ∀ x, e x h = 0 → x = 0) (v : VerifierSRS G1 G2)
    (hv : srs.verifierKey = .ok v) (com : GT) (x y value : F) (A : AnyProver n l F GT R1 Xs Ds)
    (Q N : ℕ) (hN : N ≤ 2 ^ 64)
    (hkeys : ∀ ds, ∀ t < 2 ^ 64, ∀ x ka,
      (A.query ds : Bytes) = pointInput V.tipa (rowSsm V (element w gb)) t x ka → left srs (A.keys ds) = ka)
    (hsep : ∀ t < 2 ^ 64, ∀ z x x' ka, (sentInput (rowSsm V (element w gb)) Sh.out hmem z x : Bytes) ≠
      pointInput V.tipa (rowSsm V (element w gb)) t x' ka)
    (hsteps : ∀ ds, (A.steps ds).length = k) (W : Finset (Xs → Ds))
    (hW : ∀ H ∈ W, Bivariate.verify { V with digest := Sipp.oracle H } v com (x, y) value
        (A.pcProof Sh srs (element w gb) Q H) = .ok true ∧
      A.Clean (V := V) (srs := srs) hmem hpt Q N hN α β y value H)
    (hmany : ((Q + k) * (Q + k + 4) * m +
      N * ((Q + k + 1) * ((2 * n - 2) * m') + (Q + k + 1) * (Q + k + 2) * m)) * Ds.card ^ Xs.card <
        W.card * Ds.card) :
    ∃ t : SsmExtract.Tree F (Row l F × Row l F) (GT × G1),
      A.Rewound Sh V srs (element w gb) Q com x W t ∧
      Knows e (element w gb) srs.commitmentKeys.1 com x y value (extractBy t).1 (extractBy t).2 := by
  classical
  have hn1 : 1 ≤ n := by rw [hn]; exact Nat.one_le_two_pow
  have hlen : srs.commitmentKeys.1.length = 2 ^ k := by
    obtain ⟨e1, -⟩ := hsrs.keys hn1
    rw [e1]; simp [hn]
  obtain ⟨S, hSW, hfine, hmany'⟩ := Oracle.exists_fine W N
    (fun t H => ¬ A.Fine V.tipa (rowSsm V (element w gb)) Sh.out srs hmem hpt Q k t (t.2.trans_le hN) H) _ _ _ _
    (fun t S hS => TipaSsmStatic.count_not_fine V.tipa (rowSsm V (element w gb)) Sh.out srs hmem hpt hF hG2 m m' hm hm'
      k hn A.toTipa Q hkeys hsep hsteps t (t.2.trans_le hN) S hS) hmany
  let enc : Sent GT F R1 → F → Xs := fun z k => ⟨_, hmem k z⟩
  have hinj : ∀ (z : Sent GT F R1) (c : F) z' c', enc z c = enc z' c' → id z = id z' ∧ c = c' := by
    intro z c z' c' h
    obtain ⟨-, g0, g1, g2⟩ := Gipa.C23_hash_input_injective (P := rowSsm V (element w gb)) hF hT hF
      (Sh.decodable hG) 0 0 (by norm_num) (by norm_num) _ _ trivial trivial _ _ _ _ (by simp [sentComs])
      (congrArg Subtype.val h)
    exact ⟨Sh.sent_inj (Prod.ext g1 g2), g0⟩
  have hm'' : ∀ (x : F) (S : Finset Ds), (∀ d ∈ S, challengeOf F d = x) → S.card ≤ m := fun x S hS =>
    (Finset.card_le_card fun d hd => Finset.mem_filter.mpr ⟨Finset.mem_univ _, hS d hd⟩).trans (hm x)
  have c1 : Fintype.card Ds = Ds.card := Fintype.card_coe Ds
  have c2 : Fintype.card (Xs → Ds) = Ds.card ^ Xs.card := by
    rw [Fintype.card_fun, Fintype.card_coe, Fintype.card_coe]
  have c3 : (Q + k) * (3 * m) + (Q + k) * (Q + k + 1) * m = (Q + k) * (Q + k + 4) * m := by ring
  rw [← c2, ← c1, ← c3] at hmany'
  have hfull := Oracle.full_of_many A.query Q A.steps id enc (challengeOf F) 0 3 hinj m hm'' k hsteps S hmany'
  -- what a branch is
  have key : ∀ ps, (∃ H ∈ S, Oracle.path id enc (challengeOf F) H 0 (A.steps (Oracle.trace A.query H Q)) = ps ∧
      ∀ q ∈ ps, q.2 ≠ 0) → ∃ r : Row l F × Row l F,
      (ps.length = k ∧ valueAt y r.2 = value ∧
        OpensBy (rowSmul (element w gb)) (rowPair e (element w gb)) (0 : Row l F →ₗ[F] GT) (element w gb) [r.1] r.2
          ((ps.map fun q => (bare Sh q.1, q.2)).foldl (fun st p => foldSt st p.1 p.2)
            (srs.commitmentKeys.1, powers x (2 ^ k), com, 0))) ∧
      ∃ H ∈ W,
        (∃ com', ({ V with digest := Sipp.oracle H } : Env ρ F G1 G2 GT TF).multiexpSsm.recursiveChallenges
          (com, x, ⟨[(A.pcProof Sh srs (element w gb) Q H).yEvalComm]⟩) (A.pcProof Sh srs (element w gb) Q H).ip.gipa =
            .ok (com', ((ps.map fun q => (bare Sh q.1, q.2)).map (·.2)).reverse)) ∧
        (A.pcProof Sh srs (element w gb) Q H).ip.gipa.steps.map (fun s => ((s.1.1, s.1.2.2.vals.head?), (s.2.1, s.2.2.2.vals.head?))) =
          ((ps.map fun q => (bare Sh q.1, q.2)).map
            fun p => ((p.1.1.1, some p.1.1.2), (p.1.2.1, some p.1.2.2))).reverse ∧
        (A.pcProof Sh srs (element w gb) Q H).ip.gipa.base.1 = element w gb r.1 ∧
        (A.pcProof Sh srs (element w gb) Q H).yEvalComm = element w gb r.2 ∧
        r = ((A.base (Oracle.trace A.query H Q)).1, A.combined (Oracle.trace A.query H Q)) := by
    rintro ps ⟨H, hH, hps, hne⟩
    have hlen' : ps.length = k := by rw [← hps, Oracle.length_path, hsteps]
    have hsnd : ps.map (·.2) = (rounds hmem A.toTipa.toAnyProver Q H).map fun x => challengeOf F (H x) := by
      rw [← hps, Oracle.path_snd]
      rfl
    have hfst : ps.map (·.1) = A.steps (Oracle.trace A.query H Q) := by
      rw [← hps, Oracle.path_fst, List.map_id]
    have hnz : ∀ x ∈ rounds hmem A.toTipa.toAnyProver Q H, challengeOf F (H x) ≠ 0 := by
      intro x hx
      have : challengeOf F (H x) ∈ ps.map (·.2) := by
        rw [hsnd]
        exact List.mem_map_of_mem hx
      obtain ⟨q, hq, he⟩ := List.mem_map.mp this
      rw [← he]
      exact hne q hq
    obtain ⟨hacc, hleak, t, ht, c, hc, hfirst, lA⟩ := hW H (hSW hH)
    obtain ⟨-, hv'⟩ := hsrs.keys hn1
    obtain rfl : v = ⟨g, h, β • g, α • h⟩ := Except.ok.inj (hv.symm.trans hv')
    obtain ⟨acc1, acc2⟩ := (Bivariate.C78_both (V := { V with digest := Sipp.oracle H }) (e := e) hE g h (β • g) α hh
      com (x, y) value _).mp hacc
    refine ⟨((A.base (Oracle.trace A.query H Q)).1, A.combined (Oracle.trace A.query H Q)), ⟨hlen', ?_, ?_⟩,
      H, hSW hH, ?_, ?_, rfl, rfl, rfl⟩
    · subst hgb
      have hz := (kzg_equation hg0 w hw _ _ value y).mp acc2
      have := not_not.mp fun h => hleak ⟨hz, h⟩
      rw [← eval_rowPoly]
      exact (C70_zero_polynomial _ _ _ _ _ _ this.1 this.2).2
    · have hrun := A.toTipa.accepted_run hmem hpt (rowSsm_lawful V hE (element w gb)) hE V.X PUnit.unit hd k hn g h α β
        hsrs hh0 hg _ hv com (output (element w gb) (A.combined (Oracle.trace A.query H Q))) x Q hsteps H _
        (oracle_apply H) (by rw [verify_rowSsm]; exact acc1) t (ht.trans_le hN) c hc hfirst lA
        (not_not.mp (hfine H hH ⟨t, ht⟩))
      rw [List.foldl_map]
      refine run_opens srs.commitmentKeys.1 (powers x (2 ^ k)) com 0 _ _ Sh ps (by rw [hlen, hlen']) ?_
      rw [LinearMap.zero_apply, add_zero, zero_add, hsnd, hfst]
      have := hrun
      rw [GipaStatic.AnyProver.proof, List.reverse_reverse] at this
      exact this
    · obtain ⟨com1, hrec⟩ := recLoop_digest (P := rowSsm V (element w gb)) (sentComs Sh.out)
        (sentInput (rowSsm V (element w gb)) Sh.out hmem) (fun _ _ => rfl) hd H _ (oracle_apply H)
        (A.steps (Oracle.trace A.query H Q)) 0 []
        (com, x, output (element w gb) (A.combined (Oracle.trace A.query H Q))) rfl hnz
      refine ⟨com1, ?_⟩
      rw [recLoop_rowSsm] at hrec
      rw [List.map_map, show ((·.2) ∘ fun q : Sent GT F R1 × F => (bare Sh q.1, q.2)) = (·.2) from rfl, hsnd]
      rw [Gipa.recursiveChallenges, show (A.pcProof Sh srs (element w gb) Q H).ip.gipa.steps.reverse =
        (A.steps (Oracle.trace A.query H Q)).map (sentComs Sh.out) from List.reverse_reverse _]
      erw [hrec]
      rfl
    · change List.map _ (List.reverse (List.map (sentComs Sh.out) (A.steps (Oracle.trace A.query H Q)))) = _
      rw [← hfst, List.map_reverse, List.map_map, List.map_map, List.map_map]
      congr 2
      funext q
      simp only [Function.comp_apply, sentComs, bare, Sh.out_head]
  obtain ⟨t, ht⟩ := tree_of_full (M := Row l F × Row l F) (bare Sh) k _ (fun ps r => (ps.length = k ∧ valueAt y r.2 = value ∧
        OpensBy (rowSmul (element w gb)) (rowPair e (element w gb)) (0 : Row l F →ₗ[F] GT) (element w gb) [r.1] r.2
          (ps.foldl (fun st p => foldSt st p.1 p.2) (srs.commitmentKeys.1, powers x (2 ^ k), com, 0))) ∧
      ∃ H ∈ W,
        (∃ com', ({ V with digest := Sipp.oracle H } : Env ρ F G1 G2 GT TF).multiexpSsm.recursiveChallenges
          (com, x, ⟨[(A.pcProof Sh srs (element w gb) Q H).yEvalComm]⟩) (A.pcProof Sh srs (element w gb) Q H).ip.gipa =
            .ok (com', (ps.map (·.2)).reverse)) ∧
        (A.pcProof Sh srs (element w gb) Q H).ip.gipa.steps.map (fun s => ((s.1.1, s.1.2.2.vals.head?), (s.2.1, s.2.2.2.vals.head?))) =
          (ps.map fun p => ((p.1.1.1, some p.1.1.2), (p.1.2.1, some p.1.2.2))).reverse ∧
        (A.pcProof Sh srs (element w gb) Q H).ip.gipa.base.1 = element w gb r.1 ∧
        (A.pcProof Sh srs (element w gb) Q H).yEvalComm = element w gb r.2 ∧
        r = ((A.base (Oracle.trace A.query H Q)).1, A.combined (Oracle.trace A.query H Q))) hfull
    (fun ps hp => by
      obtain ⟨r, ⟨h1, h2, h3⟩, h4⟩ := key ps hp
      exact ⟨r, ⟨by rw [List.length_map]; exact h1, h2, h3⟩, h4⟩)
  refine ⟨t, SsmExtract.Tree.Branches.mono t (fun _ _ h => h.2) ht, ?_⟩
  obtain ⟨hval, o1, o2, o3⟩ := extractBy_opens (valueAt y) value t k
    (srs.commitmentKeys.1, powers x (2 ^ k), com, 0) _ hlen (by simp) ht (fun ps r h => h.1)
  simp only [LinearMap.zero_apply, add_zero, zero_add] at o1 o2 o3
  refine ⟨o1, o2, ?_⟩
  have o3' : element w gb (extractBy t).1 = element w gb (dot (fun (r : Row l F) (s : F) => s • r) (extractBy t).2
      (powers x (extractBy t).2.length)) := by
    rw [map_dot, o3, o1, hlen]
    rfl
  by_cases hu : (extractBy t).1 = dot (fun (r : Row l F) (s : F) => s • r) (extractBy t).2
      (powers x (extractBy t).2.length)
  · refine Or.inl ?_
    rw [← combined_value, ← hu]
    exact hval
  · exact Or.inr ⟨hu, o3'⟩

/-- C116: from two provers that open one commitment at one point to different values, each for more than this share of
all oracles, the extractor gets two different lists of rows with this commitment, or two different combinations of the
reference string with the same element of `G1`. -/
theorem C116_binding (hE : V.E.Lawful e)
    (hF : Decodable (fun _ => True) V.serF) (hG : Decodable (fun _ => True) V.serG1)
    (hT : Decodable (fun _ => True) V.serGT) (hG2 : Decodable (fun _ => True) V.serG2)
    (hd : ∀ d ∈ Ds, 16 ≤ d.length) (m m' : ℕ)
    (hm : ∀ x : F, (Finset.univ.filter fun d : Ds => challengeOf F d = x).card ≤ m)
    (hm' : ∀ c, (Finset.univ.filter fun d : Ds => V.fromRandomBytes d = some c).card ≤ m') (k : ℕ)
    (hn : n = 2 ^ k) (g : G1) (h : G2) (α β : F) (hsrs : IsLeftSrs srs g h α β n)
    (hw : ∀ j, w j = α ^ (j : ℕ) • g) (hgb : gb = β • g) (hg0 : g ≠ 0) (hh0 : h ≠ 0)
    (hg : ∀ y, e g y = 0 → y = 0) (hh : ∀ x, e x h = 0 → x = 0) (v : VerifierSRS G1 G2)
    (hv : srs.verifierKey = .ok v) (com : GT) (x y : F) (value : Fin 2 → F) (hne : value 0 ≠ value 1)
    (A : Fin 2 → AnyProver n l F GT R1 Xs Ds) (Q N : ℕ) (hN : N ≤ 2 ^ 64)
    (hkeys : ∀ i ds, ∀ t < 2 ^ 64, ∀ x ka,
      ((A i).query ds : Bytes) = pointInput V.tipa (rowSsm V (element w gb)) t x ka → left srs ((A i).keys ds) = ka)
    (hsep : ∀ t < 2 ^ 64, ∀ z x x' ka, (sentInput (rowSsm V (element w gb)) Sh.out hmem z x : Bytes) ≠
      pointInput V.tipa (rowSsm V (element w gb)) t x' ka)
    (hsteps : ∀ i ds, ((A i).steps ds).length = k) (W : Fin 2 → Finset (Xs → Ds))
    (hW : ∀ i, ∀ H ∈ W i, Bivariate.verify { V with digest := Sipp.oracle H } v com (x, y) (value i)
        ((A i).pcProof Sh srs (element w gb) Q H) = .ok true ∧
      (A i).Clean (V := V) (srs := srs) hmem hpt Q N hN α β y (value i) H)
    (hmany : ∀ i, ((Q + k) * (Q + k + 4) * m +
      N * ((Q + k + 1) * ((2 * n - 2) * m') + (Q + k + 1) * (Q + k + 2) * m)) * Ds.card ^ Xs.card <
        (W i).card * Ds.card) :
    ∃ t : Fin 2 → SsmExtract.Tree F (Row l F × Row l F) (GT × G1),
      (∀ i, (A i).Rewound Sh V srs (element w gb) Q com x (W i) (t i)) ∧
      (Ripp.Collides (fun r k => e (element w gb r) k) srs.commitmentKeys.1 (extractBy (t 0)).2 (extractBy (t 1)).2 ∨
        ∃ i, TwoForms (element w gb) x (extractBy (t i)).1 (extractBy (t i)).2) := by
  choose t ht hk using fun i => C116_knowledge hmem hpt hE hF hG hT hG2 hd m m' hm hm' k hn g h α β hsrs hw hgb hg0 hh0 hg hh v hv com
    x y (value i) (A i) Q N hN (hkeys i) hsep (hsteps i) (W i) (hW i) (hmany i)
  refine ⟨t, ht, ?_⟩
  by_cases hf : ∃ i, TwoForms (element w gb) x (extractBy (t i)).1 (extractBy (t i)).2
  · exact Or.inr hf
  · refine Or.inl ⟨(hk 0).1, (hk 1).1, fun heq => hne ?_, (hk 0).2.1.symm.trans (hk 1).2.1⟩
    have h0 := (hk 0).2.2.resolve_right fun h => hf ⟨_, h⟩
    have h1 := (hk 1).2.2.resolve_right fun h => hf ⟨_, h⟩
    rw [← h0, ← h1, heq]

/-- C116: from a prover that opens the commitment to the rows `ra` to another value than that of their polynomial, for
more than this share of all oracles, the extractor gets other rows with this commitment, or two different combinations
of the reference string with the same element of `G1`. -/
theorem C116_committed (hE : V.E.Lawful e)
    (hF : Decodable (fun _ => True) V.serF) (hG : Decodable (fun _ => True) V.serG1)
    (hT : Decodable (fun _ => True) V.serGT) (hG2 : Decodable (fun _ => True) V.serG2)
    (hd : ∀ d ∈ Ds, 16 ≤ d.length) (m m' : ℕ)
    (hm : ∀ x : F, (Finset.univ.filter fun d : Ds => challengeOf F d = x).card ≤ m)
    (hm' : ∀ c, (Finset.univ.filter fun d : Ds => V.fromRandomBytes d = some c).card ≤ m') (k : ℕ)
    (hn : n = 2 ^ k) (g : G1) (h : G2) (α β : F) (hsrs : IsLeftSrs srs g h α β n)
    (hw : ∀ j, w j = α ^ (j : ℕ) • g) (hgb : gb = β • g) (hg0 : g ≠ 0) (hh0 : h ≠ 0)
    (hg : ∀ y, e g y = 0 → y = 0) (hh : ∀ x, e x h = 0 → x = 0) (v : VerifierSRS G1 G2)
    (hv : srs.verifierKey = .ok v) (com : GT) (ra : List (Row l F)) (hra : ra.length = srs.commitmentKeys.1.length)
    (hcom : com = dot (fun r k => e (element w gb r) k) ra srs.commitmentKeys.1) (x y value : F)
    (hfalse : value ≠ evalAt (ra.map fun r => evalAt (List.ofFn r.1) y) x)
    (A : AnyProver n l F GT R1 Xs Ds) (Q N : ℕ) (hN : N ≤ 2 ^ 64)
    (hkeys : ∀ ds, ∀ t < 2 ^ 64, ∀ x ka,
      (A.query ds : Bytes) = pointInput V.tipa (rowSsm V (element w gb)) t x ka → left srs (A.keys ds) = ka)
    (hsep : ∀ t < 2 ^ 64, ∀ z x x' ka, (sentInput (rowSsm V (element w gb)) Sh.out hmem z x : Bytes) ≠
      pointInput V.tipa (rowSsm V (element w gb)) t x' ka)
    (hsteps : ∀ ds, (A.steps ds).length = k) (W : Finset (Xs → Ds))
    (hW : ∀ H ∈ W, Bivariate.verify { V with digest := Sipp.oracle H } v com (x, y) value
        (A.pcProof Sh srs (element w gb) Q H) = .ok true ∧
      A.Clean (V := V) (srs := srs) hmem hpt Q N hN α β y value H)
    (hmany : ((Q + k) * (Q + k + 4) * m +
      N * ((Q + k + 1) * ((2 * n - 2) * m') + (Q + k + 1) * (Q + k + 2) * m)) * Ds.card ^ Xs.card <
        W.card * Ds.card) :
    ∃ t : SsmExtract.Tree F (Row l F × Row l F) (GT × G1), A.Rewound Sh V srs (element w gb) Q com x W t ∧
      (Ripp.Collides (fun r k => e (element w gb r) k) srs.commitmentKeys.1 (extractBy t).2 ra ∨
        TwoForms (element w gb) x (extractBy t).1 (extractBy t).2) := by
  obtain ⟨t, ht, hk⟩ := C116_knowledge hmem hpt hE hF hG hT hG2 hd m m' hm hm' k hn g h α β hsrs hw hgb hg0 hh0 hg hh v hv com
    x y value A Q N hN hkeys hsep hsteps W hW hmany
  refine ⟨t, ht, hk.2.2.symm.elim Or.inr fun h => Or.inl ⟨hk.1, hra, fun heq => hfalse ?_, hk.2.1.symm.trans hcom⟩⟩
  rw [← h, heq]

/-- C116 for the univariate scheme: the same for the commitment to `p` and a value other than `p(z)`. -/
theorem C116_univariate {srs : SRS G1 G2 × List G1} (hE : V.E.Lawful e)
    (hF : Decodable (fun _ => True) V.serF) (hG : Decodable (fun _ => True) V.serG1)
    (hT : Decodable (fun _ => True) V.serGT) (hG2 : Decodable (fun _ => True) V.serG2)
    (hd : ∀ d ∈ Ds, 16 ≤ d.length) (m m' : ℕ)
    (hm : ∀ x : F, (Finset.univ.filter fun d : Ds => challengeOf F d = x).card ≤ m)
    (hm' : ∀ c, (Finset.univ.filter fun d : Ds => V.fromRandomBytes d = some c).card ≤ m') (k : ℕ)
    (hn : n = 2 ^ k) (g : G1) (h : G2) (α β : F) (degree dx dy : ℕ)
    (hdeg : bivariateDegrees degree = .ok (dx, dy)) (hx : n = dx + 1) (hy : l = dy + 1)
    (hsrs : Bivariate.IsSrs srs g h α β dx dy) (hw : ∀ j, w j = α ^ (j : ℕ) • g) (hgb : gb = β • g) (hg0 : g ≠ 0) (hh0 : h ≠ 0)
    (hg : ∀ y, e g y = 0 → y = 0) (hh : ∀ x, e x h = 0 → x = 0) (v : VerifierSRS G1 G2)
    (hv : srs.1.verifierKey = .ok v) (p : List F) (hp : p.length ≤ n * l) (com : GT) (coms : List G1)
    (hcom : Univariate.commit V srs p = .ok (com, coms)) (z value : F) (hfalse : value ≠ evalAt p z)
    (A : AnyProver n l F GT R1 Xs Ds) (Q N : ℕ) (hN : N ≤ 2 ^ 64)
    (hkeys : ∀ ds, ∀ t < 2 ^ 64, ∀ x ka,
      (A.query ds : Bytes) = pointInput V.tipa (rowSsm V (element w gb)) t x ka → left srs.1 (A.keys ds) = ka)
    (hsep : ∀ t < 2 ^ 64, ∀ z x x' ka, (sentInput (rowSsm V (element w gb)) Sh.out hmem z x : Bytes) ≠
      pointInput V.tipa (rowSsm V (element w gb)) t x' ka)
    (hsteps : ∀ ds, (A.steps ds).length = k) (W : Finset (Xs → Ds))
    (hW : ∀ H ∈ W, Univariate.verify { V with digest := Sipp.oracle H } v degree com z value
        (A.pcProof Sh srs.1 (element w gb) Q H) = .ok true ∧
      A.Clean (V := V) (srs := srs.1) hmem hpt Q N hN α β z value H)
    (hmany : ((Q + k) * (Q + k + 4) * m +
      N * ((Q + k + 1) * ((2 * n - 2) * m') + (Q + k + 1) * (Q + k + 2) * m)) * Ds.card ^ Xs.card <
        W.card * Ds.card) :
    ∃ t : SsmExtract.Tree F (Row l F × Row l F) (GT × G1), A.Rewound Sh V srs.1 (element w gb) Q com (z ^ l) W t ∧
      (Ripp.Collides (fun r k => e (element w gb r) k) srs.1.commitmentKeys.1 (extractBy t).2
          (List.ofFn fun i : Fin n => ((fun j => p.getD (i * l + j) 0, 0) : Row l F)) ∨
        TwoForms (element w gb) (z ^ l) (extractBy t).1 (extractBy t).2) := by
  have hleft : IsLeftSrs srs.1 g h α β n := by rw [hx]; exact hsrs.left
  have hkey : srs.1.commitmentKeys.1 = List.ofFn (leftKey srs.1 (1 : F) n) := by
    obtain ⟨e1, -⟩ := hleft.keys (by omega)
    rw [e1]
    apply List.ext_getElem
    · simp
    · intro i h1 h2
      have h1' : i < n := by simpa using h1
      simp [leftKey, hleft.hBeta, show 2 * i < 2 * n - 1 by omega, pow_mul]
  have hc := univariate_commit (gb := gb) hE g h α β dx dy hx hy hsrs hw p com coms hcom
  refine C116_committed hmem hpt hE hF hG hT hG2 hd m m' hm hm' k hn g h α β hleft hw hgb hg0 hh0 hg hh v hv com
    (List.ofFn fun i : Fin n => ((fun j => p.getD (i * l + j) 0, 0) : Row l F)) (by rw [hkey]; simp) ?_ (z ^ l) z value
    ?_ A Q N hN hkeys hsep hsteps W (fun H hH => ⟨?_, (hW H hH).2⟩) hmany
  · rw [hkey, hc]
    exact (GipaStatic.dot_ofFn (rowPair e (element w gb))
      (fun i : Fin n => ((fun j => p.getD (i * l + j) 0, 0) : Row l F)) (leftKey srs.1 (1 : F) n)).symm
  · rw [evalAt_rows p hp] at hfalse
    refine fun heq => hfalse (heq.trans ?_)
    rw [← combined_value, List.length_ofFn, show powers (z ^ l) n = List.ofFn fun i : Fin n => (z ^ l) ^ (i : ℕ) by
      apply List.ext_getElem <;> simp [powers], map_dot]
    rw [show (fun (r : Row l F) (s : F) => s • valueAt z r) = fun r s => (mulMap F ∘ₗ valueAt z) r s from
      funext₂ fun r s => mul_comm _ _, GipaStatic.dot_ofFn]
    refine Finset.sum_congr rfl fun i _ => ?_
    change valueAt z _ * _ = _
    rw [valueAt_apply, Finset.sum_mul]
    exact Finset.sum_congr rfl fun j _ => by ring
  · have h := (hW H hH).1
    rw [Univariate.verify, hdeg] at h
    have h : Bivariate.verify _ v com (z ^ (dy + 1), z) value _ = _ := h
    rw [← hy] at h
    exact h

end Static

/-! ## An instance: two rows of two coefficients over the field with 101 elements -/

section Example
open Toy hiding X
open GipaStatic (decodable_ser ser_inj exampleDigests card_exampleDigests exampleDigests_length exampleDigests_card
  card_apply)
open TipaSsmStatic (exampleSrs exampleSrs_isSrs keyInput honestKey)
open TipaStatic (seen no_leak keyPoly_single exampleEnv exampleDigests_point)

/-- The argument. -/
abbrev exampleArg := rowSsm Toy.env exampleElement

/-- The hash inputs. -/
noncomputable def anyInputs : Finset Bytes :=
  (Set.finite_range fun p : Toy.F × Sent Toy.F Toy.F Toy.F =>
    exampleArg.hashInput 0 p.1 (sentComs single p.2).1 (sentComs single p.2).2).toFinset ∪
  (Set.finite_range fun p : Fin (2 ^ 64) × Toy.F × Toy.F =>
    pointInput Toy.env.tipa exampleArg p.1 p.2.1 p.2.2).toFinset

theorem anyInputs_mem (k : Toy.F) (z : Sent Toy.F Toy.F Toy.F) :
    exampleArg.hashInput 0 k (sentComs single z).1 (sentComs single z).2 ∈ anyInputs :=
  Finset.mem_union_left _ ((Set.Finite.mem_toFinset _).mpr ⟨(k, z), rfl⟩)

theorem anyInputs_pt (t : ℕ) (x ka : Toy.F) (ht : t < 2 ^ 64) :
    pointInput Toy.env.tipa exampleArg t x ka ∈ anyInputs :=
  Finset.mem_union_right _ ((Set.Finite.mem_toFinset _).mpr ⟨(⟨t, ht⟩, x, ka), rfl⟩)

theorem any_sep (t : ℕ) (z : Sent Toy.F Toy.F Toy.F) (x x' ka : Toy.F) :
    (sentInput exampleArg single anyInputs_mem z x : Bytes) ≠ pointInput Toy.env.tipa exampleArg t x' ka := by
  intro h
  have := congrArg List.length h
  simp [sentInput, sentComs, single, serIdentity, serSeq, Gipa.hashInput, pointInput, rowSsm, ssmGipa,
    Env.tipa, Toy.env, Toy.ser, nonceBytes, leBytes] at this

/-- An honest prover for `1 + 2 y + 3 x + 4 x y` at `(5, 2)`, where the value is 60. It asks for its only challenge,
then for the opening point. -/
noncomputable def honestAny : AnyProver 2 2 Toy.F Toy.F Toy.F anyInputs exampleDigests where
  query
    | [] => sentInput exampleArg single anyInputs_mem ((15, 0, 15), (74, 0, 35)) 0
    | d :: ds => keyInput Toy.env.tipa exampleArg exampleSrs anyInputs_pt 0 (by norm_num)
      (honestKey (seen (d :: ds)).1) (seen (d :: ds)).1
  steps _ := [((15, 0, 15), (74, 0, 35))]
  base ds := ((![1 + (seen ds).1 * 3, 2 + (seen ds).1 * 4], 0), 0)
  keys ds := honestKey (seen ds).1
  final ds := honestKey (seen ds).1
  opening ds := (![(seen ds).1⁻¹ * (seen ds).2, (seen ds).1⁻¹, 0], 0)
  combined _ := (![16, 22], 0)
  quotient _ := (![22, 0], 0)

/-- Its first query. -/
noncomputable abbrev firstInput : anyInputs := sentInput exampleArg single anyInputs_mem ((15, 0, 15), (74, 0, 35)) 0

theorem honest_keys (ds : List exampleDigests) (t : ℕ) (ht : t < 2 ^ 64) (x ka : Toy.F)
    (h : (honestAny.query ds : Bytes) = pointInput Toy.env.tipa exampleArg t x ka) :
    left exampleSrs (honestAny.keys ds) = ka := by
  rcases ds with - | ⟨d, ds⟩
  · exact absurd h (any_sep _ _ _ _ _)
  · simp only [honestAny, keyInput, pointInput, List.append_assoc] at h
    obtain ⟨-, h⟩ := decodable_nonce _ _ _ _ (by norm_num) ht h
    obtain ⟨-, h⟩ := decodable_ser _ _ _ _ trivial trivial h
    exact ser_inj _ _ h

variable (H : anyInputs → exampleDigests)

/-- The challenge. -/
noncomputable abbrev ch : Toy.F := challengeOf Toy.F (H firstInput)

/-- The second query. -/
noncomputable abbrev secondInput : anyInputs :=
  keyInput Toy.env.tipa exampleArg exampleSrs anyInputs_pt 0 (by norm_num) (honestKey (ch H)) (ch H)

theorem honest_trace : Oracle.trace honestAny.query H 2 = [H firstInput, H (secondInput H)] := rfl

theorem honest_point (ht : 0 < 2 ^ 64) :
    honestAny.point Toy.env.tipa exampleArg single exampleSrs anyInputs_mem anyInputs_pt 2 0 ht H = secondInput H :=
  rfl

theorem honest_transcript : honestAny.transcript exampleArg single anyInputs_mem 2 H = [ch H] := rfl

theorem honest_known (ht : 0 < 2 ^ 64) :
    honestAny.knownKey Toy.env.tipa exampleArg single exampleSrs anyInputs_mem anyInputs_pt 2 0 ht H =
      honestKey (ch H) := by
  rw [TipaSsmStatic.AnyProver.knownKey, honest_point]
  refine Oracle.firstKnown_of_asked honestAny.query 2 honestAny.keys honestAny.final H 1 (by norm_num) ?_
  intro i hi h
  obtain rfl : i = 0 := by omega
  exact any_sep _ _ _ _ _ (congrArg Subtype.val h)

/-- The argument is accepted whenever the challenge is not zero. -/
theorem honest_argument (h0 : ch H ≠ 0) (z : Toy.F) (hz : exampleEnv.fromRandomBytes (H (secondInput H)) = some z) :
    TipaSsm.verify Toy.X Toy.env.tipa (withDigest exampleArg (Sipp.oracle H)) ⟨1, 1, 5, 3⟩ PUnit.unit
      79 ⟨[82]⟩ 5 (honestAny.toTipa.tipaProof single exampleSrs 2 H) = .ok true := by
  obtain ⟨com', hrec⟩ := recLoop_digest (P := exampleArg) (sentComs single)
    (sentInput exampleArg single anyInputs_mem) (fun _ _ => rfl) exampleDigests_length H _ (oracle_apply H)
    (honestAny.steps (Oracle.trace honestAny.query H 2)) 0 [] (79, 5, ⟨[82]⟩) rfl (by
      intro x hx
      rw [honestAny] at hx
      simp only [Oracle.queries, List.mem_singleton] at hx
      subst hx
      exact h0)
  have L := rowSsm_lawful Toy.env Toy.lawful exampleElement
  have L' : (withDigest exampleArg (Sipp.oracle H)).Lawful (rowSmul exampleElement) (rowPair Toy.e exampleElement) 0
      idψ := ⟨L.ip_ok, L.lmc_ok, L.rmc_ok, L.ipc_ok, L.ψ_add, L.ψ_smul⟩
  have hrc : (withDigest exampleArg (Sipp.oracle H)).recursiveChallenges (79, 5, ⟨[82]⟩)
      (honestAny.toTipa.tipaProof single exampleSrs 2 H).gipa = .ok (com', [ch H].reverse) := by
    rw [Gipa.recursiveChallenges, TipaSsmStatic.AnyProver.tipaProof]
    simp only [GipaStatic.AnyProver.proof, List.reverse_reverse]
    rw [hrec]
    rfl
  have hcom : com' = Gipa.foldMany (honestAny.toTipa.tipaProof single exampleSrs 2 H).gipa.steps.reverse [ch H]
      (79, 5, ⟨[82]⟩) := by
    have h := hrc
    rw [Gipa.recursiveChallenges_eq] at h
    cases hcs : (withDigest exampleArg (Sipp.oracle H)).chals
      (honestAny.toTipa.tipaProof single exampleSrs 2 H).gipa.steps.reverse [] with
    | error e => simp [hcs] at h
    | ok cs =>
      simp only [hcs, ok_bind, Except.ok.injEq, Prod.mk.injEq] at h
      rw [← h.1, ← List.reverse_injective h.2]
  have hs : seen (Oracle.trace honestAny.query H 2) = (ch H, z) := by
    rw [honest_trace]
    exact Prod.ext rfl (by simp [seen, hz])
  have hck : (honestAny.toTipa.tipaProof single exampleSrs 2 H).finalCk = left exampleSrs (honestKey (ch H)) := rfl
  have hop : (honestAny.toTipa.tipaProof single exampleSrs 2 H).finalCkProof =
      left exampleSrs (n := 2) (![(ch H)⁻¹ * z, (ch H)⁻¹, 0], 0) := by
    rw [TipaSsmStatic.AnyProver.tipaProof]
    simp only [honestAny] at hs ⊢
    rw [hs]
  have hkzg : TipaSsm.kzgChallenge Toy.env.tipa (withDigest exampleArg (Sipp.oracle H)).digest
      (withDigest exampleArg (Sipp.oracle H)).serF [ch H].reverse
      (honestAny.toTipa.tipaProof single exampleSrs 2 H).finalCk = .ok z := by
    rw [List.reverse_singleton, C69_kzg_ssm]
    refine ⟨0, by norm_num, ?_, fun t' ht' => absurd ht' (Nat.not_lt_zero _)⟩
    rw [← hz, ← oracle_apply H (secondInput H), hck]
    rfl
  have hl : (left exampleSrs (honestKey (ch H)) : Toy.F) = 1 + (ch H)⁻¹ * 25 := by
    simp [left, honestKey, exampleSrs, Fin.sum_univ_three]
  have hl' : (left exampleSrs (n := 2) (![(ch H)⁻¹ * z, (ch H)⁻¹, 0], (0 : Toy.F)) : Toy.F) =
      (ch H)⁻¹ * z + (ch H)⁻¹ * 5 := by
    simp [left, exampleSrs, Fin.sum_univ_three]
  obtain ⟨b', e2, e3, -⟩ := TipaSsm.C34_verdict (V := Toy.env.tipa) L' Toy.lawful Toy.X ⟨1, 1, 5, 3⟩ PUnit.unit 79
    ⟨[82]⟩ 5 (honestAny.toTipa.tipaProof single exampleSrs 2 H) [ch H] com' z hrc hkzg
  rw [e3, hcom, hck, hop, hl, hl']
  have hb : (honestAny.toTipa.tipaProof single exampleSrs 2 H).gipa.base =
      ((![1 + ch H * 3, 2 + ch H * 4], 0), 0) := rfl
  have hst : (honestAny.toTipa.tipaProof single exampleSrs 2 H).gipa.steps.reverse =
      [sentComs single ((15, 0, 15), (74, 0, 35))] := rfl
  refine ⟨?_, ?_⟩
  · refine (C28_check_G2 Toy.lawful (1 : Toy.F) (1 : Toy.F) 3 5 (fun y h => by simpa using h) _ _ _ _ _).mpr ?_
    simp
    ring
  rw [hb, hst]
  have g2 : b' = 1 + (ch H)⁻¹ * 5 := by
    have : foldAll ([ch H].map (·⁻¹)) ((List.range (2 ^ [ch H].length)).map ((5 : Toy.F) ^ ·)) =
        [1 + (ch H)⁻¹ * 5] := by
      generalize ch H = c
      clear * -
      revert c; decide +kernel
    rw [this] at e2
    exact (List.singleton_injective e2).symm
  rw [g2]
  generalize ch H = c at h0
  clear * - h0
  revert c
  decide +kernel

/-- The verifier accepts whenever the challenge is not zero. -/
theorem honest_accepted (h0 : ch H ≠ 0) (z : Toy.F) (hz : exampleEnv.fromRandomBytes (H (secondInput H)) = some z) :
    Bivariate.verify { Toy.env with digest := Sipp.oracle H } ⟨1, 1, 5, 3⟩ 79 (5, 2) 60
      (honestAny.pcProof (.one _) exampleSrs exampleElement 2 H) = .ok true := by
  refine (Bivariate.C78_both (V := { Toy.env with digest := Sipp.oracle H }) (e := Toy.e) Toy.lawful 1 1 5 3
    (fun x h => by simpa using h) 79 (5, 2) 60 _).mpr ⟨?_, ?_⟩
  · have := honest_argument H h0 z hz
    rw [show Toy.X = Toy.env.X from rfl, verify_rowSsm] at this
    exact this
  · change exampleElement (![16, 22], 0) - _ = (3 - 2) • exampleElement (![22, 0], 0)
    decide +kernel

/-- Almost all oracles: the bound is 49 in 101. So the hypotheses of `C116_knowledge` are met and its tree exists. -/
example : ∃ t : SsmExtract.Tree Toy.F (Row 2 Toy.F × Row 2 Toy.F) (Toy.F × Toy.F),
    Knows Toy.e exampleElement exampleSrs.commitmentKeys.1 79 5 2 60 (extractBy t).1 (extractBy t).2 := by
  classical
  obtain ⟨t, -, h⟩ := C116_knowledge (V := Toy.env) (e := Toy.e) (n := 2) (Xs := anyInputs) (Ds := exampleDigests)
    (srs := exampleSrs) (w := ![1, 3]) (gb := 5) (Sh := .one _) anyInputs_mem anyInputs_pt Toy.lawful
    decodable_ser decodable_ser decodable_ser decodable_ser exampleDigests_length 1 1 exampleDigests_card
    (fun x => Finset.card_le_one.mpr fun d hd d' hd' => exampleDigests_point d d' x
      (Finset.mem_filter.mp hd).2 (Finset.mem_filter.mp hd').2) 1 rfl 1 1 3 5 exampleSrs_isSrs
    (by decide +kernel) (by decide) (by decide) (by decide)
    (fun y h => by simpa using h) (fun y h => by simpa using h) ⟨1, 1, 5, 3⟩ rfl
    79 5 2 60 honestAny 2 1 (by norm_num) honest_keys (fun t _ => any_sep t) (fun _ => rfl)
    (Finset.univ.filter fun H => ch H ≠ 0)
    (fun H hH => by
      have hsome : ∀ d : exampleDigests, ∃ c, exampleEnv.fromRandomBytes d = some c := by
        rintro ⟨d, hd⟩
        obtain ⟨x, -, rfl⟩ := Finset.mem_image.mp hd
        exact ⟨((UInt8.ofNat x.val).toNat : Toy.F), by simp [exampleEnv, Toy.ser]⟩
      obtain ⟨z, hz⟩ := hsome (H (secondInput H))
      refine ⟨honest_accepted H (Finset.mem_filter.mp hH).2 z hz, ?_, 0, by norm_num, z, hz,
        fun t' ht' => absurd ht' (Nat.not_lt_zero _), ?_⟩
      · rintro ⟨-, h⟩
        refine h ⟨?_, by simp [otherPart, honestAny]⟩
        have : (60 : Toy.F) = 16 + 22 * 2 := by decide
        rw [this]
        simp only [honestAny, powerPart, rowPoly, Fin.sum_univ_two, Matrix.cons_val_zero, Matrix.cons_val_one,
          Fin.val_zero, Fin.val_one, map_add, map_mul, map_zero]
        ring
      · erw [honest_known, honest_transcript, honest_trace]
        simp only [honestAny, honestKey, seen, List.getElem?_cons_zero, List.getElem?_cons_succ, Option.map_some,
          Option.bind_some, hz, Option.getD_some]
        refine no_leak _ _ _ _ _ ?_
        simp [keyPoly_single]) (by
      have h2 := Finset.card_filter_add_card_filter_not (s := (Finset.univ : Finset exampleDigests))
        (fun d => challengeOf Toy.F d = 0)
      rw [Finset.card_univ, Fintype.card_coe, card_exampleDigests] at h2
      have h3 := exampleDigests_card 0
      have h1 := card_apply firstInput fun d : exampleDigests => challengeOf Toy.F d ≠ 0
      rw [Fintype.card_fun, Fintype.card_coe, Fintype.card_coe] at h1
      rw [h1, card_exampleDigests]
      have h6 : 0 < 101 ^ anyInputs.card := by positivity
      exact Nat.mul_lt_mul_of_pos_right (show _ < _ by simp only [ne_eq]; omega) h6)
  exact ⟨t, h⟩

end Example

end Ripp.PcStatic
