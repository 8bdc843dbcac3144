import Verif.Props.AggStatic
import Verif.Props.TipaRewind
import Verif.Props.TipaSsmRewind
import Verif.Props.PolyRewind

/-!
# C117: knowledge soundness of the aggregation of Groth16 proofs in the random oracle model

Unlike in C108 the prover need not know openings of the commitments it hashes; only of the final keys it has to say which
combinations of the reference string they are. If it is accepted for a large share of all oracles, its proofs contain
trees of pairs of runs for as many challenges as there are proofs, and an extractor computes from them valid Groth16
proofs with the given commitments, or a collision of the commitment keys.
-/

set_option linter.unusedSectionVars false
set_option linter.unusedVariables false

namespace Ripp.AggStatic

open Spec Extract
open GipaStatic (Sent sentComs withDigest challengeOf recLoop_digest single decodable_single)
open PolyStatic (combo map_combo combo_add mergeIf mergeIf_opens bare)
open Oracle (Tree2 front)

variable {F : Type} [Field F]

/-! ## The extractor -/

section Extractor
variable {MA MB T KA KB OA OB Y : Type} [AddCommGroup MA] [Module F MA] [AddCommGroup MB] [Module F MB]
  [AddCommGroup T] [Module F T] [AddCommGroup KA] [Module F KA] [AddCommGroup KB] [Module F KB]
  [AddCommGroup OA] [Module F OA] [AddCommGroup OB] [Module F OB] [AddCommGroup Y] [Module F Y]

/-- The outcome of the first argument opens the statement with the contribution of `y`, or is a collision. -/
def OpensBy (bil : MA →ₗ[F] MB →ₗ[F] T) (φa : MA →ₗ[F] KA →ₗ[F] OA) (φb : MB →ₗ[F] KB →ₗ[F] OB) (uT : Y →ₗ[F] T)
    (o : Out MA MB) (y : Y) (st : GipaStatic.St KA KB OA OB T) : Prop :=
  o.Opens φa φb st.1 st.2.1 st.2.2.1 st.2.2.2.1 ∧
    ∀ a b, o = .opening a b → st.2.2.2.2 + uT y = dot (bil · ·) a b

/-- A collision. -/
def clash : Out MA MB → Option (Out MA MB)
  | .opening _ _ => none
  | x => some x

variable [DecidableEq MA] [DecidableEq MB]

/-- Four outcomes for one statement: a collision among them, two different openings, or their common opening. -/
def same (o : Fin 4 → Out MA MB) : Out MA MB :=
  match (List.finRange 4).findSome? fun i => clash (o i) with
  | some x => x
  | none =>
    match (List.finRange 4).find? fun i => decide ((o i).left ≠ (o 0).left) with
    | some i => .collisionA (o i).left (o 0).left
    | none =>
      match (List.finRange 4).find? fun i => decide ((o i).right ≠ (o 0).right) with
      | some i => .collisionB (o i).right (o 0).right
      | none => o 0

/-- Four outcomes combined: of statements after a round with the challenges `c`, or of one statement. -/
def stepIf (b : Bool) (c : Fin 4 → F) (o : Fin 4 → Out MA MB) : Out MA MB := if b then Extract.step c o else same o

variable {bil : MA →ₗ[F] MB →ₗ[F] T} {φa : MA →ₗ[F] KA →ₗ[F] OA} {φb : MB →ₗ[F] KB →ₗ[F] OB} {uT : Y →ₗ[F] T}

theorem same_opens (o : Fin 4 → Out MA MB) (cka : List KA) (ckb : List KB) (ca : OA) (cb : OB)
    (h : ∀ i, (o i).Opens φa φb cka ckb ca cb) :
    (same o).Opens φa φb cka ckb ca cb ∧ ∀ a b, same o = .opening a b → ∀ i, o i = .opening a b := by
  rw [same]
  cases hs : (List.finRange 4).findSome? fun i => clash (o i) with
  | some x =>
    obtain ⟨i, -, hi⟩ := List.exists_of_findSome?_eq_some hs
    have hv := h i
    cases ho : o i with
    | opening a b => simp [ho, clash] at hi
    | collisionA m m' =>
      rw [ho] at hi hv
      obtain rfl := Option.some.inj hi
      exact ⟨hv, by simp⟩
    | collisionB m m' =>
      rw [ho] at hi hv
      obtain rfl := Option.some.inj hi
      exact ⟨hv, by simp⟩
  | none =>
    have hop : ∀ i, ∃ a b, o i = .opening a b := by
      intro i
      have := (List.findSome?_eq_none_iff.mp hs) i (List.mem_finRange i)
      cases ho : o i with
      | opening a b => exact ⟨a, b, rfl⟩
      | collisionA m m' => simp [ho, clash] at this
      | collisionB m m' => simp [ho, clash] at this
    choose a b hab using hop
    have ea : ∀ i, (o i).left = a i := fun i => by rw [hab]; rfl
    have eb : ∀ i, (o i).right = b i := fun i => by rw [hab]; rfl
    have h' : ∀ i, (a i).length = cka.length ∧ (b i).length = ckb.length ∧ ca = dot (φa · ·) (a i) cka ∧
        cb = dot (φb · ·) (b i) ckb := fun i => by
      have := h i
      rw [hab] at this
      exact this
    simp only [ea, eb]
    cases hA : (List.finRange 4).find? fun i => decide (a i ≠ a 0) with
    | some i =>
      have hne : a i ≠ a 0 := by simpa using List.find?_some hA
      exact ⟨⟨(h' i).1, (h' 0).1, hne, (h' i).2.2.1.symm.trans (h' 0).2.2.1⟩, by simp⟩
    | none =>
      dsimp only
      cases hB : (List.finRange 4).find? fun i => decide (b i ≠ b 0) with
      | some i =>
        have hne : b i ≠ b 0 := by simpa using List.find?_some hB
        exact ⟨⟨(h' i).2.1, (h' 0).2.1, hne, (h' i).2.2.2.symm.trans (h' 0).2.2.2⟩, by simp⟩
      | none =>
        dsimp only
        refine ⟨h 0, fun x y hxy i => ?_⟩
        rw [List.find?_eq_none] at hA hB
        have ha : a i = a 0 := by simpa using hA i (List.mem_finRange i)
        have hb : b i = b 0 := by simpa using hB i (List.mem_finRange i)
        rw [hab i, ha, hb, ← hab 0, hxy]

/-- Four challenges determine the constant term, with a contribution that depends on the challenge. -/
theorem constant_term (c : Fin 4 → F) (hc : Function.Injective c) (h0 : ∀ i, c i ≠ 0) (l r x z w : T) (u : Fin 4 → T)
    (h : ∀ i, c i • l + u i + (c i)⁻¹ • r = c i • x + w + (c i)⁻¹ • z) : combo (three c) (three u) = w := by
  have hc3 : Function.Injective (three c) := hc.comp (Fin.castSucc_injective 3)
  have h03 : ∀ i, three c i ≠ 0 := fun i => h0 _
  have w' := weights_M (h03 0) (h03 1) (h03 2) (fun e => absurd (hc3 e) (by decide))
    (fun e => absurd (hc3 e) (by decide)) (fun e => absurd (hc3 e) (by decide))
  have k0 := h 0
  have k1 := h 1
  have k2 := h 2
  change wM (three c 0) (three c 1) (three c 2) • u 0 + wM (three c 1) (three c 0) (three c 2) • u 1 +
    wM (three c 2) (three c 0) (three c 1) • u 2 = w
  change three c 0 • _ + _ + (three c 0)⁻¹ • _ = three c 0 • _ + _ + (three c 0)⁻¹ • _ at k0
  change three c 1 • _ + _ + (three c 1)⁻¹ • _ = three c 1 • _ + _ + (three c 1)⁻¹ • _ at k1
  change three c 2 • _ + _ + (three c 2)⁻¹ • _ = three c 2 • _ + _ + (three c 2)⁻¹ • _ at k2
  linear_combination (norm := module) wM (three c 0) (three c 1) (three c 2) • k0 +
    wM (three c 1) (three c 0) (three c 2) • k1 + wM (three c 2) (three c 0) (three c 1) • k2 +
    w'.1 • (x - l) + w'.2.1 • w + w'.2.2 • (z - r)

theorem stepIf_opens (st : GipaStatic.St KA KB OA OB T) (hst : st.1.length = st.2.1.length)
    (z : (OA × OB × T) × (OA × OB × T)) (c : Fin 4 → F) (hc : Function.Injective c) (h0 : ∀ i, c i ≠ 0) (b : Bool)
    (hb : b = true → ∃ n, st.1.length = 2 * n) (y : Fin 4 → Y) (o : Fin 4 → Out MA MB)
    (h : ∀ i, OpensBy bil φa φb uT (o i) (y i) (if b then GipaStatic.foldSt st z (c i) else st)) :
    OpensBy bil φa φb uT (stepIf b c o) (combo (three c) (three y)) st := by
  have hc3 : Function.Injective (three c) := hc.comp (Fin.castSucc_injective 3)
  have h03 : ∀ i, three c i ≠ 0 := fun i => h0 _
  have hcom : st.2.2.2.2 + uT (combo (three c) (three y)) = combo (three c) (three fun i => st.2.2.2.2 + uT (y i)) := by
    rw [map_combo, ← combo_add _ h03 hc3]
    rfl
  cases b with
  | false =>
    simp only [Bool.false_eq_true, if_false] at h
    obtain ⟨h1, h2⟩ := same_opens o _ _ _ _ fun i => (h i).1
    refine ⟨h1, fun a b hab => ?_⟩
    rw [hcom]
    refine constant_term c hc h0 0 0 0 0 _ _ fun i => ?_
    rw [(h i).2 a b (h2 a b hab i)]
  | true =>
    obtain ⟨n, ha⟩ := hb rfl
    simp only [if_true] at h
    have hfold : ∀ i, GipaStatic.foldSt st z (c i) = _ := fun i => by rw [GipaStatic.foldSt, if_pos ⟨n, ha⟩]
    simp only [hfold] at h
    obtain ⟨h1, h2⟩ := step_opens bil c hc h0 st.1 st.2.1 n ha (by rw [← hst, ha]) (z.1.1, z.1.2.1) (z.2.1, z.2.2.1)
      (st.2.2.1, st.2.2.2.1) o fun i => (h i).1
    refine ⟨h1, fun a b hab => ?_⟩
    obtain ⟨x, w, hxw⟩ := h2 a b hab
    rw [hcom]
    refine constant_term c hc h0 z.1.2.2 z.2.2.2 x w _ _ fun i => ?_
    obtain ⟨a', b', e1, e2⟩ := hxw i
    rw [← e2, ← (h i).2 a' b' e1]
    module

end Extractor

section Pair
variable {MA MB T KA KB OA OB M2 K2 C2 O2 Y Z1 Z2 RT : Type} [AddCommGroup MA] [Module F MA] [AddCommGroup MB] [Module F MB]
  [AddCommGroup T] [Module F T] [AddCommGroup KA] [Module F KA] [AddCommGroup KB] [Module F KB]
  [AddCommGroup OA] [Module F OA] [AddCommGroup OB] [Module F OB] [AddCommGroup M2] [Module F M2]
  [AddCommGroup K2] [Module F K2] [AddCommGroup C2] [Module F C2] [AddCommGroup O2] [Module F O2]
  [AddCommGroup Y] [Module F Y] [DecidableEq MA] [DecidableEq MB]

/-- The extractor: the leaves hold the shared value and the last messages of the two arguments. -/
def extract4 {Z1 Z2 : Type} : Tree2 4 F Z1 Z2 (Y × (MA × MB) × M2) → Y × Out MA MB × List M2
  | .leaf x => (x.1, .opening [x.2.1.1] [x.2.1.2], [x.2.2])
  | .node b1 b2 _ _ c t => (combo (three c) (three fun i => (extract4 (t i)).1),
      stepIf b1 c fun i => (extract4 (t i)).2.1, mergeIf b2 (three c) (three fun i => (extract4 (t i)).2.2))

variable {bil : MA →ₗ[F] MB →ₗ[F] T} {φa : MA →ₗ[F] KA →ₗ[F] OA} {φb : MB →ₗ[F] KB →ₗ[F] OB} {uT : Y →ₗ[F] T}
  {bil2 : M2 →ₗ[F] F →ₗ[F] O2} {φ2 : M2 →ₗ[F] K2 →ₗ[F] C2} {uA2 : Y →ₗ[F] C2} {uT2 : Y →ₗ[F] O2}
  (g1 : Z1 → (OA × OB × T) × (OA × OB × T)) (g2 : Z2 → (C2 × O2) × (C2 × O2))

/-- If all leaves of a tree open what is left of two statements, the extracted lists open the statements, or are a
collision. -/
theorem extract4_opens : ∀ (t : Tree2 4 F Z1 Z2 (Y × (MA × MB) × M2)) (j1 j2 : ℕ)
    (st1 : GipaStatic.St KA KB OA OB T) (st2 : SsmStatic.St F K2 C2 O2)
    (p : List (Z1 × F) → List (Z2 × F) → Y × (MA × MB) × M2 → Prop),
    st1.1.length = 2 ^ j1 → st1.2.1.length = 2 ^ j1 →
    st2.1.length = 2 ^ j2 → st2.2.1.length = 2 ^ j2 → t.Branches 0 p →
    (∀ s1 s2 x, p s1 s2 x → s1.length = j1 ∧ s2.length = j2 ∧
      OpensBy bil φa φb uT (.opening [x.2.1.1] [x.2.1.2]) x.1
        (s1.foldl (fun st q => GipaStatic.foldSt st (g1 q.1) q.2) st1) ∧
      PolyStatic.OpensBy bil2 φ2 uA2 uT2 [x.2.2] x.1
        (s2.foldl (fun st q => SsmStatic.foldSt st (g2 q.1) q.2) st2)) →
    OpensBy bil φa φb uT (extract4 t).2.1 (extract4 t).1 st1 ∧
      PolyStatic.OpensBy bil2 φ2 uA2 uT2 (extract4 t).2.2 (extract4 t).1 st2
  | .leaf x, j1, j2, st1, st2, p, _, _, _, _, hb, h => (h _ _ _ hb).2.2
  | .node b1 b2 z1 z2 c t, j1, j2, st1, st2, p, a1, a2, d1, d2, ⟨hc, h0, hb⟩, h => by
    obtain ⟨s1, s2, x, hx⟩ := (hb 0).exists_leaf
    obtain ⟨l1, l2, -⟩ := h _ _ _ hx
    have pow : ∀ j, 1 ≤ j → 2 ^ j = 2 * 2 ^ (j - 1) := by
      intro j hj
      obtain ⟨j, rfl⟩ : ∃ i, j = i + 1 := ⟨j - 1, by omega⟩
      rw [Nat.add_sub_cancel, pow_succ]; ring
    have f1 : b1 = true → 1 ≤ j1 := by
      rintro rfl
      simp only [front, if_true, List.length_cons] at l1
      omega
    have f2 : b2 = true → 1 ≤ j2 := by
      rintro rfl
      simp only [front, if_true, List.length_cons] at l2
      omega
    have step1 : ∀ x : F, (if b1 then GipaStatic.foldSt st1 (g1 z1) x else st1).1.length = 2 ^ (if b1 then j1 - 1 else j1) ∧
        (if b1 then GipaStatic.foldSt st1 (g1 z1) x else st1).2.1.length = 2 ^ (if b1 then j1 - 1 else j1) := by
      intro x
      cases b1 with
      | false => exact ⟨a1, a2⟩
      | true =>
        have h2 := pow j1 (f1 rfl)
        simp only [if_true]
        rw [GipaStatic.foldSt, if_pos ⟨_, a1.trans h2⟩]
        exact ⟨length_foldHalf _ _ _ (a1.trans h2), length_foldHalf _ _ _ (a2.trans h2)⟩
    have step2 : ∀ x : F, (if b2 then SsmStatic.foldSt st2 (g2 z2) x else st2).1.length =
          2 ^ (if b2 then j2 - 1 else j2) ∧
        (if b2 then SsmStatic.foldSt st2 (g2 z2) x else st2).2.1.length = 2 ^ (if b2 then j2 - 1 else j2) := by
      intro x
      cases b2 with
      | false => exact ⟨d1, d2⟩
      | true =>
        have h2 := pow j2 (f2 rfl)
        simp only [if_true]
        rw [SsmStatic.foldSt, if_pos ⟨_, d1.trans h2⟩]
        exact ⟨length_foldHalf _ _ _ (d1.trans h2), length_foldHalf _ _ _ (d2.trans h2)⟩
    have ih := fun i => extract4_opens (t i) (if b1 then j1 - 1 else j1) (if b2 then j2 - 1 else j2)
      (if b1 then GipaStatic.foldSt st1 (g1 z1) (c i) else st1) (if b2 then SsmStatic.foldSt st2 (g2 z2) (c i) else st2) _
      (step1 _).1 (step1 _).2 (step2 _).1 (step2 _).2 (hb i) (by
        intro s1 s2 x hx
        obtain ⟨l1, l2, o1, o2⟩ := h _ _ _ hx
        refine ⟨?_, ?_, ?_, ?_⟩
        · cases b1 <;> simp [front] at l1 ⊢ <;> omega
        · cases b2 <;> simp [front] at l2 ⊢ <;> omega
        · cases b1 <;> simpa [front] using o1
        · cases b2 <;> simpa [front] using o2)
    exact ⟨stepIf_opens st1 (a1.trans a2.symm) (g1 z1) c hc h0 b1 (fun hb => ⟨_, a1.trans (pow _ (f1 hb))⟩) _ _
        fun i => (ih i).1,
      mergeIf_opens st2 (d1.trans d2.symm) (g2 z2) (three c) (fun i => h0 _) (hc.comp (Fin.castSucc_injective 3)) b2
        (fun hb => ⟨_, d1.trans (pow _ (f2 hb))⟩) _ _ fun i => (ih i.castSucc).2⟩

/-- An accepting run of the first argument opens what is left of the statement. -/
theorem run_opens (cka : List KA) (ckb : List KB) (ca : OA) (cb : OB) (ct : T) (y : Y) (a : MA) (b : MB)
    (S : Shape T RT) (s : List (Sent OA OB RT × F)) (hs : cka.length = 2 ^ s.length)
    (h : Run bil φa φb (single (T := T)) cka ckb (ca, cb, single (ct + uT y)) (s.map (·.2))
      ((s.map (·.1)).map (sentComs S.out)) a b) :
    OpensBy bil φa φb uT (.opening [a] [b]) y
      (s.foldl (fun st q => GipaStatic.foldSt st (sentComs S.head q.1) q.2) (cka, ckb, ca, cb, ct)) := by
  obtain ⟨ka, kb, e1, e2, e3, e4, e5⟩ := h
  have hf : s.foldl (fun st q => GipaStatic.foldSt st (sentComs S.head q.1) q.2) (cka, ckb, ca, cb, ct) =
      (s.map fun q => (sentComs S.head q.1, q.2)).foldl (fun st q => GipaStatic.foldSt st q.1 q.2)
        (cka, ckb, ca, cb, ct) := by
    rw [List.foldl_map]
  rw [hf, GipaStatic.foldl_foldSt _ _ _ _ (by rw [List.length_map]; exact hs)]
  simp only [List.map_map, Function.comp_def] at e1 e2 e3 e4 e5 ⊢
  rw [e1, e2]
  refine ⟨⟨rfl, rfl, ?_, ?_⟩, ?_⟩
  · rw [dot_singleton]; exact e3
  · rw [dot_singleton]; exact e4
  · rintro _ _ ⟨⟩
    change accum _ _ ct + uT y = _
    rw [PolyStatic.accum_add, dot_singleton]
    have : accum (s.map (·.2)) ((s.map fun q => (q.1.1.2.2, q.1.2.2.2)).map fun s => (S.out s.1, S.out s.2))
        (single (ct + uT y)) = single (bil a b) := by
      rw [List.map_map]; exact e5
    rw [S.accum_head, List.map_map] at this
    have := congrArg IdentityOutput.vals this
    simp only [single, List.cons.injEq, and_true] at this
    exact this

end Pair

/-! ## The prover -/

section Static
open TipaStatic (Comb)
open Groth16 (Found found settle)

variable {ρ G1 G2 GT TF R1 R2 : Type} [DecidableEq F] [AddCommGroup G1] [Module F G1]
  [AddCommGroup G2] [Module F G2] [AddCommGroup GT] [Module F GT] [Monoid TF]
  [DecidableEq G1] [DecidableEq G2] [DecidableEq GT] [Nonempty R1] [Nonempty R2] {n : ℕ}

/-- A prover with oracle access. Its queries, and the combinations of the reference string for the final keys it
hashes, are computed from the answers so far. At the end it outputs both aggregated values and both proofs (steps in
round order), with the final keys and their openings as combinations. -/
structure AnyProver (n : ℕ) (F G1 G2 GT R1 R2 : Type) (Xs Ds : Finset Bytes) where
  query : List Ds → Xs
  keysAB : List Ds → Comb n F × Comb n F
  keysC : List Ds → Comb n F
  ipAB : List Ds → GT
  aggC : List Ds → G1
  stepsAB : List Ds → List (Sent GT GT R1)
  stepsC : List Ds → List (Sent GT F R2)
  baseAB : List Ds → G1 × G2
  baseC : List Ds → G1 × F
  finalAB : List Ds → Comb n F × Comb n F
  finalC : List Ds → Comb n F
  openingAB : List Ds → Comb n F × Comb n F
  openingC : List Ds → Comb n F

variable {Xs Ds : Finset Bytes}

/-- The part for the `A` and `B`. -/
def AnyProver.ab (A : AnyProver n F G1 G2 GT R1 R2 Xs Ds) : TipaStatic.AnyProver n F G1 G2 GT GT R1 Xs Ds where
  query := A.query
  steps := A.stepsAB
  base := A.baseAB
  keys := A.keysAB
  final := A.finalAB
  opening := A.openingAB

/-- The part for the `C`. -/
def AnyProver.c (A : AnyProver n F G1 G2 GT R1 R2 Xs Ds) : TipaSsmStatic.AnyProver n F G1 GT R2 Xs Ds where
  query := A.query
  steps := A.stepsC
  base := A.baseC
  keys := A.keysC
  final := A.finalC
  opening := A.openingC

/-- The aggregate proof. -/
def AnyProver.aggProof (S1 : Shape GT R1) (S2 : Shape G1 R2) (A : AnyProver n F G1 G2 GT R1 R2 Xs Ds) (srs : SRS G1 G2) (comA comB comC : GT) (Q : ℕ)
    (H : Xs → Ds) : AggProof F G1 G2 GT where
  comA := comA
  comB := comB
  comC := comC
  ipAB := A.ipAB (Oracle.trace A.query H Q)
  aggC := A.aggC (Oracle.trace A.query H Q)
  proofAB := A.ab.tipaProof S1.out srs Q H
  proofC := A.c.tipaProof S2.out srs Q H

variable (V : Env ρ F G1 G2 GT TF) (e : G1 →ₗ[F] G2 →ₗ[F] GT) (srs : SRS G1 G2) (r : F)
  {S1 : Shape GT R1} {S2 : Shape G1 R2}
  (hm1 : ∀ k (z : Sent GT GT R1), V.pairingAB.hashInput 0 k (sentComs S1.out z).1 (sentComs S1.out z).2 ∈ Xs)
  (hm2 : ∀ k (z : Sent GT F R2), V.multiexpSsm.hashInput 0 k (sentComs S2.out z).1 (sentComs S2.out z).2 ∈ Xs)
  (hp1 : ∀ t x ka kb, t < 2 ^ 64 → TipaStatic.pointInput V.tipa V.pairingAB t x ka kb ∈ Xs)
  (hp2 : ∀ t x ka, t < 2 ^ 64 → TipaSsmStatic.pointInput V.tipa V.multiexpSsm t x ka ∈ Xs)

/-- The opening point of the first argument is found in `N` attempts, and the trapdoors `α`, `β` are not a zero of
the polynomials that belong to the final keys and their openings. -/
def AnyProver.OpenedAB (A : AnyProver n F G1 G2 GT R1 R2 Xs Ds) (α β : F) (Q N : ℕ) (hN : N ≤ 2 ^ 64) (H : Xs → Ds) : Prop :=
  ∃ t, ∃ ht : t < N, ∃ c,
    V.fromRandomBytes (H (A.ab.point V.tipa V.pairingAB S1.out srs hm1 hp1 Q t (ht.trans_le hN) H)) = some c ∧
    (∀ t', ∀ ht' : t' < t, V.fromRandomBytes
      (H (A.ab.point V.tipa V.pairingAB S1.out srs hm1 hp1 Q t' ((ht'.trans ht).trans_le hN) H)) = none) ∧
    ¬ TipaStatic.Leak
      (A.ab.knownKeys V.tipa V.pairingAB S1.out srs hm1 hp1 Q t (ht.trans_le hN) H).1
      (A.openingAB (Oracle.trace A.query H Q)).1
      ((keyPoly ((A.ab.transcript V.pairingAB S1.out hm1 Q H).map (·⁻¹)) r⁻¹).eval c) c β α ∧
    ¬ TipaStatic.Leak
      (A.ab.knownKeys V.tipa V.pairingAB S1.out srs hm1 hp1 Q t (ht.trans_le hN) H).2
      (A.openingAB (Oracle.trace A.query H Q)).2
      ((keyPoly (A.ab.transcript V.pairingAB S1.out hm1 Q H) 1).eval c) c α β

/-- The same for the second argument. -/
def AnyProver.OpenedC (A : AnyProver n F G1 G2 GT R1 R2 Xs Ds) (α β : F) (Q N : ℕ) (hN : N ≤ 2 ^ 64) (H : Xs → Ds) : Prop :=
  ∃ t, ∃ ht : t < N, ∃ c,
    V.fromRandomBytes (H (A.c.point V.tipa V.multiexpSsm S2.out srs hm2 hp2 Q t (ht.trans_le hN) H)) = some c ∧
    (∀ t', ∀ ht' : t' < t, V.fromRandomBytes
      (H (A.c.point V.tipa V.multiexpSsm S2.out srs hm2 hp2 Q t' ((ht'.trans ht).trans_le hN) H)) = none) ∧
    ¬ TipaStatic.Leak (A.c.knownKey V.tipa V.multiexpSsm S2.out srs hm2 hp2 Q t (ht.trans_le hN) H)
      (A.openingC (Oracle.trace A.query H Q))
      ((keyPoly ((A.c.transcript V.multiexpSsm S2.out hm2 Q H).map (·⁻¹)) 1).eval c) c β α

/-- Trees of pairs of runs: with the steps of both arguments, the value of the second, and the last messages. -/
abbrev PairTree (F G1 G2 GT R1 R2 : Type) := Tree2 4 F (Sent GT GT R1) (Sent GT F R2) (G1 × (G1 × G2) × G1)

/-- Every branch of the tree is a proof the prover outputs for an oracle in `W`: its steps with the challenges the
verifier derives from them for the challenge `r`, its aggregated value and its last messages. -/
def AnyProver.Rewound (S1 : Shape GT R1) (S2 : Shape G1 R2) (A : AnyProver n F G1 G2 GT R1 R2 Xs Ds) (Q : ℕ) (comA comB comC : GT) (W : (Xs → Ds) → Prop)
    (t : PairTree F G1 G2 GT R1 R2) : Prop :=
  t.Branches 0 fun s1 s2 b => ∃ H, W H ∧
    (∀ dg : Bytes → Bytes, (∀ x : Xs, dg x = H x) →
      (∃ com', Gipa.recursiveChallenges { V with digest := dg : Env ρ F G1 G2 GT TF }.pairingAB
        (comA, comB, ⟨[(A.aggProof S1 S2 srs comA comB comC Q H).ipAB]⟩) (A.aggProof S1 S2 srs comA comB comC Q H).proofAB.gipa =
          .ok (com', (s1.map (·.2)).reverse)) ∧
      ∃ com', Gipa.recursiveChallenges { V with digest := dg : Env ρ F G1 G2 GT TF }.multiexpSsm
        (comC, r, ⟨[(A.aggProof S1 S2 srs comA comB comC Q H).aggC]⟩) (A.aggProof S1 S2 srs comA comB comC Q H).proofC.gipa =
          .ok (com', (s2.map (·.2)).reverse)) ∧
    (A.aggProof S1 S2 srs comA comB comC Q H).proofAB.gipa.steps = ((s1.map (·.1)).map (sentComs S1.out)).reverse ∧
    (A.aggProof S1 S2 srs comA comB comC Q H).proofC.gipa.steps = ((s2.map (·.1)).map (sentComs S2.out)).reverse ∧
    b = ((A.aggProof S1 S2 srs comA comB comC Q H).aggC, (A.aggProof S1 S2 srs comA comB comC Q H).proofAB.gipa.base,
      (A.aggProof S1 S2 srs comA comB comC Q H).proofC.gipa.base.1)

variable {V e srs r}

/-- The tree for a fixed challenge. -/
theorem tree_fixed (hE : V.E.Lawful e) (hF : Decodable (fun _ => True) V.serF)
    (hG1 : Decodable (fun _ => True) V.serG1) (hG2 : Decodable (fun _ => True) V.serG2)
    (hT : Decodable (fun _ => True) V.serGT) (hd : ∀ d ∈ Ds, 16 ≤ d.length) (m m' : ℕ)
    (hm : ∀ x : F, (Finset.univ.filter fun d : Ds => challengeOf F d = x).card ≤ m)
    (hm' : ∀ c, (Finset.univ.filter fun d : Ds => V.fromRandomBytes d = some c).card ≤ m') (k : ℕ)
    (hn : n = 2 ^ k) (g : G1) (h : G2) (α β : F) (hsrs : IsSrs srs g h α β n) (hg0 : g ≠ 0) (hh0 : h ≠ 0)
    (hg : ∀ y, e g y = 0 → y = 0) (hh : ∀ x, e x h = 0 → x = 0) (v : VerifierSRS G1 G2)
    (hv : srs.verifierKey = .ok v) (hr : r ≠ 0) (comA comB comC t : GT) (δ : G2) (A : AnyProver n F G1 G2 GT R1 R2 Xs Ds)
    (Q N : ℕ) (hN : N ≤ 2 ^ 64)
    (hkeys1 : ∀ ds, ∀ t < 2 ^ 64, ∀ x ka kb,
      (A.query ds : Bytes) = TipaStatic.pointInput V.tipa V.pairingAB t x ka kb →
      TipaStatic.left srs (A.keysAB ds).1 = ka ∧ TipaStatic.right srs (A.keysAB ds).2 = kb)
    (hkeys2 : ∀ ds, ∀ t < 2 ^ 64, ∀ x ka,
      (A.query ds : Bytes) = TipaSsmStatic.pointInput V.tipa V.multiexpSsm t x ka →
      TipaStatic.left srs (A.keysC ds) = ka)
    (hsep1 : ∀ t < 2 ^ 64, ∀ (z : Sent GT GT R1) x x' ka kb,
      V.pairingAB.hashInput 0 x (sentComs S1.out z).1 (sentComs S1.out z).2 ≠
        TipaStatic.pointInput V.tipa V.pairingAB t x' ka kb)
    (hsep2 : ∀ t < 2 ^ 64, ∀ (z : Sent GT F R2) x x' ka,
      V.multiexpSsm.hashInput 0 x (sentComs S2.out z).1 (sentComs S2.out z).2 ≠
        TipaSsmStatic.pointInput V.tipa V.multiexpSsm t x' ka)
    (hs1 : ∀ ds, (A.stepsAB ds).length = k) (hs2 : ∀ ds, (A.stepsC ds).length = k) (W : Finset (Xs → Ds))
    (hW : ∀ H ∈ W, A.ipAB (Oracle.trace A.query H Q) = t + e (A.aggC (Oracle.trace A.query H Q)) δ ∧
      (∃ dg : Bytes → Bytes, (∀ x : Xs, dg x = H x) ∧
        Tipa.verifyWithShift V.tipa (withDigest V.pairingAB dg) v PUnit.unit
          (comA, comB, single (A.ipAB (Oracle.trace A.query H Q))) (A.ab.tipaProof S1.out srs Q H) r = .ok true ∧
        TipaSsm.verify V.X V.tipa (withDigest V.multiexpSsm dg) v PUnit.unit comC
          (single (A.aggC (Oracle.trace A.query H Q))) r (A.c.tipaProof S2.out srs Q H) = .ok true) ∧
      A.OpenedAB V srs r hm1 hp1 α β Q N hN H ∧ A.OpenedC V srs hm2 hp2 α β Q N hN H)
    (hmany : errorTerm Q k n N m m' * Ds.card ^ Xs.card < W.card * Ds.card) :
    ∃ tree : PairTree F G1 G2 GT R1 R2, A.Rewound V srs r S1 S2 Q comA comB comC (· ∈ W) tree ∧
      OpensBy e e e.flip (e.flip δ) (extract4 tree).2.1 (extract4 tree).1
        (srs.commitmentKeys.1.mapIdx fun i ck => r⁻¹ ^ i • ck, srs.commitmentKeys.2, comA, comB, t) ∧
      PolyStatic.OpensBy (smulMap F G1) e 0 LinearMap.id (extract4 tree).2.2 (extract4 tree).1
        (srs.commitmentKeys.1, (List.range n).map (r ^ ·), comC, 0) := by
  classical
  have hn1 : 1 ≤ n := by rw [hn]; exact Nat.one_le_two_pow
  obtain ⟨k1, k2, -⟩ := C25_keys srs g h α β _ hn1 hsrs
  have l1 : (srs.commitmentKeys.1.mapIdx fun i ck => r⁻¹ ^ i • ck).length = 2 ^ k := by
    rw [List.length_mapIdx, k1]; simp [hn]
  have l1' : srs.commitmentKeys.1.length = 2 ^ k := by rw [k1]; simp [hn]
  have l2 : srs.commitmentKeys.2.length = 2 ^ k := by rw [k2]; simp [hn]
  have c1 : Fintype.card Ds = Ds.card := Fintype.card_coe Ds
  have c2 : Fintype.card (Xs → Ds) = Ds.card ^ Xs.card := by
    rw [Fintype.card_fun, Fintype.card_coe, Fintype.card_coe]
  obtain ⟨W1, hW1, fine1, many1⟩ := Oracle.exists_fine W N
    (fun t H => ¬ A.ab.Fine V.tipa V.pairingAB S1.out srs r hm1 hp1 Q k t (t.2.trans_le hN) H) _ _ _ _
    (fun t S hS => TipaStatic.count_not_fine V.tipa V.pairingAB S1.out srs r hm1 hp1 hF hG2 hG1 m m' hm hm' k hn A.ab Q
      hkeys1 (fun t ht z x x' ka kb => hsep1 t ht z x x' ka kb) hs1 t (t.2.trans_le hN) S hS) hmany
  obtain ⟨W2, hW2, fine2, many2⟩ := Oracle.exists_fine W1 N
    (fun t H => ¬ A.c.Fine V.tipa V.multiexpSsm S2.out srs hm2 hp2 Q k t (t.2.trans_le hN) H) _ _ _ _
    (fun t S hS => TipaSsmStatic.count_not_fine V.tipa V.multiexpSsm S2.out srs hm2 hp2 hF hG2 m m' hm hm' k hn A.c Q
      hkeys2 (fun t ht z x x' ka => hsep2 t ht z x x' ka) hs2 t (t.2.trans_le hN) S hS) many1
  let enc1 : Sent GT GT R1 → F → Xs := TipaStatic.sentInput V.pairingAB S1.out hm1
  let enc2 : Sent GT F R2 → F → Xs := TipaSsmStatic.sentInput V.multiexpSsm S2.out hm2
  have hT1 : Decodable (· ∈ Set.range S1.out) V.pairingAB.serT := S1.decodable hT
  have hT2 : Decodable (· ∈ Set.range S2.out) V.multiexpSsm.serT := S2.decodable hG1
  have hinj1 : ∀ (z : Sent GT GT R1) (c : F) z' c', enc1 z c = enc1 z' c' → id z = id z' ∧ c = c' := by
    intro z c z' c' h
    obtain ⟨-, g0, g1, g2⟩ := Gipa.C23_hash_input_injective (P := V.pairingAB) hF hT hT hT1 0 0 (by norm_num)
      (by norm_num) _ _ trivial trivial _ _ _ _ (by simp [sentComs]) (congrArg Subtype.val h)
    exact ⟨S1.sent_inj (Prod.ext g1 g2), g0⟩
  have hinj2 : ∀ (z : Sent GT F R2) (c : F) z' c', enc2 z c = enc2 z' c' → id z = id z' ∧ c = c' := by
    intro z c z' c' h
    obtain ⟨-, g0, g1, g2⟩ := Gipa.C23_hash_input_injective (P := V.multiexpSsm) hF hT hF hT2 0 0 (by norm_num)
      (by norm_num) _ _ trivial trivial _ _ _ _ (by simp [sentComs]) (congrArg Subtype.val h)
    exact ⟨S2.sent_inj (Prod.ext g1 g2), g0⟩
  have hmS : ∀ (x : F) (S : Finset Ds), (∀ d ∈ S, challengeOf F d = x) → S.card ≤ m := fun x S hS =>
    (Finset.card_le_card fun d hd => Finset.mem_filter.mpr ⟨Finset.mem_univ _, hS d hd⟩).trans (hm x)
  obtain ⟨tree, ht⟩ := Oracle.tree2_of_many A.query Q A.stepsAB A.stepsC
    (fun ds => (A.aggC ds, A.baseAB ds, (A.baseC ds).1)) id id enc1 enc2 (challengeOf F) 0 4 hinj1 hinj2
    m hmS k k (fun ds => (hs1 ds).le) (fun ds => (hs2 ds).le) W2 (by
      rw [c1, c2]
      refine lt_of_le_of_lt ?_ (Nat.mul_lt_mul_of_pos_left many2 (show 0 < 2 by norm_num))
      rw [← mul_assoc 2]
      refine Nat.mul_le_mul_right _ ?_
      have e1 : (Q + k + k) * (Q + k + k + 1) * (3 * (m + 4 * m)) = (Q + k + k) * (Q + k + k + 1) * m * 15 := by ring
      have e2 : 2 * (8 * (Q + k + k) * (Q + k + k + 1) * m) = (Q + k + k) * (Q + k + k + 1) * m * 16 := by ring
      rw [e1, e2]
      exact Nat.mul_le_mul_left _ (by norm_num))
  -- what a branch is
  have key : ∀ s1 s2 b, (∃ H ∈ W2,
      Oracle.path id enc1 (challengeOf F) H 0 (A.stepsAB (Oracle.trace A.query H Q)) = s1 ∧
      Oracle.path id enc2 (challengeOf F) H 0 (A.stepsC (Oracle.trace A.query H Q)) = s2 ∧
      (A.aggC (Oracle.trace A.query H Q), A.baseAB (Oracle.trace A.query H Q),
        (A.baseC (Oracle.trace A.query H Q)).1) = b ∧ (∀ q ∈ s1, q.2 ≠ 0) ∧ ∀ q ∈ s2, q.2 ≠ 0) →
      (∃ H, H ∈ W ∧
        (∀ dg : Bytes → Bytes, (∀ x : Xs, dg x = H x) →
          (∃ com', Gipa.recursiveChallenges { V with digest := dg : Env ρ F G1 G2 GT TF }.pairingAB
            (comA, comB, ⟨[(A.aggProof S1 S2 srs comA comB comC Q H).ipAB]⟩)
              (A.aggProof S1 S2 srs comA comB comC Q H).proofAB.gipa = .ok (com', (s1.map (·.2)).reverse)) ∧
          ∃ com', Gipa.recursiveChallenges { V with digest := dg : Env ρ F G1 G2 GT TF }.multiexpSsm
            (comC, r, ⟨[(A.aggProof S1 S2 srs comA comB comC Q H).aggC]⟩)
              (A.aggProof S1 S2 srs comA comB comC Q H).proofC.gipa = .ok (com', (s2.map (·.2)).reverse)) ∧
        (A.aggProof S1 S2 srs comA comB comC Q H).proofAB.gipa.steps = ((s1.map (·.1)).map (sentComs S1.out)).reverse ∧
        (A.aggProof S1 S2 srs comA comB comC Q H).proofC.gipa.steps = ((s2.map (·.1)).map (sentComs S2.out)).reverse ∧
        b = ((A.aggProof S1 S2 srs comA comB comC Q H).aggC, (A.aggProof S1 S2 srs comA comB comC Q H).proofAB.gipa.base,
          (A.aggProof S1 S2 srs comA comB comC Q H).proofC.gipa.base.1)) ∧
      s1.length = k ∧ s2.length = k ∧
      OpensBy e e e.flip (e.flip δ) (.opening [b.2.1.1] [b.2.1.2]) b.1
        (s1.foldl (fun st q => GipaStatic.foldSt st (sentComs S1.head q.1) q.2)
          (srs.commitmentKeys.1.mapIdx fun i ck => r⁻¹ ^ i • ck, srs.commitmentKeys.2, comA, comB, t)) ∧
      PolyStatic.OpensBy (smulMap F G1) e 0 LinearMap.id [b.2.2] b.1
        (s2.foldl (fun st q => SsmStatic.foldSt st (bare S2 q.1) q.2)
          (srs.commitmentKeys.1, (List.range n).map (r ^ ·), comC, 0)) := by
    rintro s1 s2 b ⟨H, hH, p1, p2, rfl, hz1, hz2⟩
    have len1 : s1.length = k := by rw [← p1, Oracle.length_path, hs1]
    have len2 : s2.length = k := by rw [← p2, Oracle.length_path, hs2]
    have fst1 : s1.map (·.1) = A.stepsAB (Oracle.trace A.query H Q) := by
      rw [← p1, Oracle.path_fst, List.map_id]
    have fst2 : s2.map (·.1) = A.stepsC (Oracle.trace A.query H Q) := by
      rw [← p2, Oracle.path_fst, List.map_id]
    have snd1 : s1.map (·.2) = (Oracle.queries enc1 (challengeOf F) H 0
        (A.stepsAB (Oracle.trace A.query H Q))).map fun x => challengeOf F (H x) := by
      rw [← p1, Oracle.path_snd]
    have snd2 : s2.map (·.2) = (Oracle.queries enc2 (challengeOf F) H 0
        (A.stepsC (Oracle.trace A.query H Q))).map fun x => challengeOf F (H x) := by
      rw [← p2, Oracle.path_snd]
    have e1 : (A.aggProof S1 S2 srs comA comB comC Q H).proofAB.gipa.steps =
        ((s1.map (·.1)).map (sentComs S1.out)).reverse := by
      rw [fst1]; rfl
    have e2 : (A.aggProof S1 S2 srs comA comB comC Q H).proofC.gipa.steps =
        ((s2.map (·.1)).map (sentComs S2.out)).reverse := by
      rw [fst2]; rfl
    have hHW := hW1 (hW2 hH)
    obtain ⟨hppe, ⟨dg, hdg, hab, hc⟩, ⟨t1, ht1, c1, hc1, hf1, lA, lB⟩, ⟨t2, ht2, c2, hc2, hf2, lC⟩⟩ := hW H hHW
    have f1 := not_not.mp (fine1 H (hW2 hH) ⟨t1, ht1⟩)
    have f2 := not_not.mp (fine2 H hH ⟨t2, ht2⟩)
    have rec1 : ∀ dg : Bytes → Bytes, (∀ x : Xs, dg x = H x) → ∃ com',
        (withDigest V.pairingAB dg).recursiveChallenges
          (comA, comB, single (A.ipAB (Oracle.trace A.query H Q))) (A.ab.toAnyProver.proof S1.out Q H) =
          .ok (com', (s1.map (·.2)).reverse) := by
      intro dg hdg
      obtain ⟨com1, hrec⟩ := recLoop_digest (P := V.pairingAB) (sentComs S1.out) enc1 (fun _ _ => rfl) hd H dg hdg
        (A.stepsAB (Oracle.trace A.query H Q)) 0 [] (comA, comB, single (A.ipAB (Oracle.trace A.query H Q))) rfl f1.1
      refine ⟨com1, ?_⟩
      rw [Gipa.recursiveChallenges, GipaStatic.AnyProver.proof, List.reverse_reverse, snd1]
      erw [hrec]
      rfl
    have rec2 : ∀ dg : Bytes → Bytes, (∀ x : Xs, dg x = H x) → ∃ com',
        (withDigest V.multiexpSsm dg).recursiveChallenges
          (comC, r, single (A.aggC (Oracle.trace A.query H Q))) (A.c.toAnyProver.proof S2.out Q H) =
          .ok (com', (s2.map (·.2)).reverse) := by
      intro dg hdg
      obtain ⟨com1, hrec⟩ := recLoop_digest (P := V.multiexpSsm) (sentComs S2.out) enc2 (fun _ _ => rfl) hd H dg hdg
        (A.stepsC (Oracle.trace A.query H Q)) 0 [] (comC, r, single (A.aggC (Oracle.trace A.query H Q))) rfl f2.1
      refine ⟨com1, ?_⟩
      rw [Gipa.recursiveChallenges, GipaStatic.AnyProver.proof, List.reverse_reverse, snd2]
      erw [hrec]
      rfl
    have L := pairingAB_lawful V hE
    have L' : (withDigest V.pairingAB dg).Lawful e e e.flip idψ :=
      ⟨L.ip_ok, L.lmc_ok, L.rmc_ok, L.ipc_ok, L.ψ_add, L.ψ_smul⟩
    have acc1 := A.ab.accepted_gipa hm1 hp1 L hE PUnit.unit hd k hn g h α β hsrs hg0 hh0 hg hh v hv hr
      (comA, comB, single (A.ipAB (Oracle.trace A.query H Q))) Q hs1 H dg hdg hab t1 (ht1.trans_le hN) c1 hc1 hf1 lA lB
      f1
    have run2 := A.c.accepted_run hm2 hp2 (multiexpSsm_lawful V hE) hE V.X PUnit.unit hd k hn g h α β
      (hsrs.left hn1) hh0 hg v hv comC (single (A.aggC (Oracle.trace A.query H Q))) r Q hs2 H dg hdg hc t2
      (ht2.trans_le hN) c2 hc2 hf2 lC f2
    have hlen : (A.ab.toAnyProver.proof S1.out Q H).steps.length = k := by
      rw [GipaStatic.AnyProver.proof, List.length_reverse, List.length_map]
      exact hs1 _
    obtain ⟨cs, com2, hrc, run1⟩ := (C67_verify_iff L' _ _ PUnit.unit _ _ (by rw [hlen, l1]) (by rw [hlen, l2])).mp acc1
    have hcs : cs = s1.map (·.2) := by
      obtain ⟨com', h'⟩ := rec1 dg hdg
      rw [h'] at hrc
      exact (List.reverse_injective (congrArg Prod.snd (Except.ok.inj hrc))).symm
    refine ⟨⟨H, hHW, fun dg hdg => ⟨rec1 dg hdg, rec2 dg hdg⟩, e1, e2, rfl⟩, len1, len2, ?_, ?_⟩
    · refine run_opens _ _ _ _ _ _ _ _ S1 s1 (by rw [l1, len1]) ?_
      rw [hcs] at run1
      have e1' : (A.ab.toAnyProver.proof S1.out Q H).steps.reverse =
          (s1.map (·.1)).map (sentComs S1.out) := by
        rw [show (A.ab.toAnyProver.proof S1.out Q H).steps = _ from e1, List.reverse_reverse]
      rw [e1', hppe] at run1
      exact run1
    · refine PolyStatic.run_opens _ _ _ _ _ _ S2 s2 (by rw [l1', len2]) ?_
      rw [LinearMap.zero_apply, add_zero, zero_add]
      have e2' : (A.c.toAnyProver.proof S2.out Q H).steps.reverse =
          (s2.map (·.1)).map (sentComs S2.out) := by
        rw [show (A.c.toAnyProver.proof S2.out Q H).steps = _ from e2, List.reverse_reverse]
      rw [e2', ← hn] at run2
      rw [snd2]
      exact run2
  refine ⟨tree, ht.mono fun s1 s2 b hb => (key s1 s2 b hb).1, ?_⟩
  exact extract4_opens (sentComs S1.head) (bare (OA := GT) S2) tree k k _ _ _ l1 l2 l1' (by simp [hn]) ht
    fun s1 s2 b hb => (key s1 s2 b hb).2

/-- What the tree for the challenge `r` stands for. -/
def outcome (r : F) (t : PairTree F G1 G2 GT R1 R2) : Found G1 G2 := found r (extract4 t).2.2 (extract4 t).2.1

/-- The extractor: what was found for one challenge, compared with what was found for the others. -/
def extractProofs (x : F × PairTree F G1 G2 GT R1 R2) (xs : List (F × PairTree F G1 G2 GT R1 R2)) : Found G1 G2 :=
  settle (outcome x.1 x.2) (xs.map fun y => outcome y.1 y.2)

include hm1 hm2 in
/-- C117: fix a reference string for `n = 2^k` proofs, a verifying key, inputs and commitments. The prover is given the
answers `u` to the `N` first hash inputs for the challenge, and then queries the oracle `H`. It knows combinations of
the reference string for the final keys it hashes, but nothing about the commitments. If for more than the share of C108
of all `(u, H)` the verifier accepts, its searches take at most `N` attempts, and the prover has not found a non-zero
polynomial of which the trapdoors are a zero, then the proofs for these `(u, H)` contain a tree of pairs of runs for each
of at least `n` different challenges, and the extractor turns these trees into valid proofs for the inputs with these
commitments, or into a collision of the commitment keys. -/
theorem C117_knowledge (hE : V.E.Lawful e) (hF : Decodable (fun _ => True) V.serF)
    (hG1 : Decodable (fun _ => True) V.serG1) (hG2 : Decodable (fun _ => True) V.serG2)
    (hT : Decodable (fun _ => True) V.serGT) (hd : ∀ d ∈ Ds, 16 ≤ d.length) (m m' : ℕ)
    (hm : ∀ x : F, (Finset.univ.filter fun d : Ds => challengeOf F d = x).card ≤ m)
    (hm' : ∀ c, (Finset.univ.filter fun d : Ds => V.fromRandomBytes d = some c).card ≤ m') (k : ℕ)
    (hn : n = 2 ^ k) (g : G1) (h : G2) (α β : F) (hsrs : IsSrs srs g h α β n) (hg0 : g ≠ 0) (hh0 : h ≠ 0)
    (hg : ∀ y, e g y = 0 → y = 0) (hh : ∀ x, e x h = 0 → x = 0) (v : VerifierSRS G1 G2)
    (hv : srs.verifierKey = .ok v) (vk : G16VK G1 G2) (inputs : List (List F)) (hin : inputs.length = n)
    (hrow : ∀ row ∈ inputs, row.length + 1 = vk.gammaAbc.length) (comA comB comC : GT)
    (Q N : ℕ) (hN : N ≤ 2 ^ 64) (A : (Fin N → Ds) → AnyProver n F G1 G2 GT R1 R2 Xs Ds)
    (hkeys1 : ∀ u ds, ∀ t < 2 ^ 64, ∀ x ka kb,
      ((A u).query ds : Bytes) = TipaStatic.pointInput V.tipa V.pairingAB t x ka kb →
      TipaStatic.left srs ((A u).keysAB ds).1 = ka ∧ TipaStatic.right srs ((A u).keysAB ds).2 = kb)
    (hkeys2 : ∀ u ds, ∀ t < 2 ^ 64, ∀ x ka,
      ((A u).query ds : Bytes) = TipaSsmStatic.pointInput V.tipa V.multiexpSsm t x ka →
      TipaStatic.left srs ((A u).keysC ds) = ka)
    (hsep1 : ∀ t < 2 ^ 64, ∀ (z : Sent GT GT R1) x x' ka kb,
      V.pairingAB.hashInput 0 x (sentComs S1.out z).1 (sentComs S1.out z).2 ≠
        TipaStatic.pointInput V.tipa V.pairingAB t x' ka kb)
    (hsep2 : ∀ t < 2 ^ 64, ∀ (z : Sent GT F R2) x x' ka,
      V.multiexpSsm.hashInput 0 x (sentComs S2.out z).1 (sentComs S2.out z).2 ≠
        TipaSsmStatic.pointInput V.tipa V.multiexpSsm t x' ka)
    (hs1 : ∀ u ds, ((A u).stepsAB ds).length = k) (hs2 : ∀ u ds, ((A u).stepsC ds).length = k)
    (W : Finset ((Fin N → Ds) × (Xs → Ds)))
    (hW : ∀ uH ∈ W, ∃ r, Draws V uH.1 r ∧
      (∃ dg : Bytes → Bytes, (∀ t : Fin N, dg (challengeInput V comA comB comC t) = uH.1 t) ∧
        (∀ x : Xs, dg x = uH.2 x) ∧
        Groth16.verify { V with digest := dg } v vk inputs
          ((A uH.1).aggProof S1 S2 srs comA comB comC Q uH.2) = .ok true) ∧
      (A uH.1).OpenedAB V srs r hm1 hp1 α β Q N hN uH.2 ∧ (A uH.1).OpenedC V srs hm2 hp2 α β Q N hN uH.2)
    (hmany : (N * ((n - 1) * m') + errorTerm Q k n N m m') * (Ds.card ^ N * Ds.card ^ Xs.card) <
      W.card * Ds.card) :
    ∃ (x : F × PairTree F G1 G2 GT R1 R2) (xs : List (F × PairTree F G1 G2 GT R1 R2)),
      (∀ y ∈ x :: xs, ∃ u, Draws V u y.1 ∧
        (A u).Rewound V srs y.1 S1 S2 Q comA comB comC (fun H => (u, H) ∈ W) y.2) ∧
      ((x :: xs).map (·.1)).Nodup ∧ n ≤ (x :: xs).length ∧
      (extractProofs x xs).Good e vk inputs srs.commitmentKeys.1 srs.commitmentKeys.2 comA comB comC := by
  classical
  have c1 : Fintype.card (Fin N → Ds) = Ds.card ^ N := by
    rw [Fintype.card_fun, Fintype.card_fin, Fintype.card_coe]
  have c2 : Fintype.card (Xs → Ds) = Ds.card ^ Xs.card := by
    rw [Fintype.card_fun, Fintype.card_coe, Fintype.card_coe]
  have hn1 : 1 ≤ n := by rw [hn]; exact Nat.one_le_two_pow
  obtain ⟨k1, k2, -⟩ := C25_keys srs g h α β _ hn1 hsrs
  have l1 : srs.commitmentKeys.1.length = n := by rw [k1]; simp
  have l2 : srs.commitmentKeys.2.length = n := by rw [k2]; simp
  have hne : inputs ≠ [] := by
    rintro rfl
    rw [← hin] at hn1
    simp at hn1
  let slice : (Fin N → Ds) → Finset (Xs → Ds) := fun u => Finset.univ.filter fun H => (u, H) ∈ W
  let big : F → Prop := fun r => ∃ u, Draws V u r ∧
    errorTerm Q k n N m m' * Ds.card ^ Xs.card < (slice u).card * Ds.card
  -- many challenges
  obtain ⟨S, hS, hSn⟩ : ∃ S : Finset F, (∀ r ∈ S, big r) ∧ n ≤ S.card := by
    by_contra hcon
    have hb : ∀ S : Finset F, (∀ r ∈ S, big r) → S.card ≤ n - 1 := by
      intro S hS
      by_contra h
      exact hcon ⟨S, hS, by omega⟩
    refine absurd hmany (not_lt.mpr ?_)
    rw [← c1]
    refine count_pairs _ (Finset.univ.filter fun u : Fin N → Ds => ∃ r, Draws V u r ∧ big r) Ds.card _ _ _
      (count_draws V N m' (n - 1) hm' big hb) c2 fun u hu => ?_
    by_contra hcon
    have hpos : (Finset.univ.filter fun H => (u, H) ∈ W).card ≠ 0 := by
      intro h0
      rw [h0, zero_mul] at hcon
      exact hcon (Nat.zero_le _)
    obtain ⟨H, hH⟩ := Finset.card_pos.mp (Nat.pos_of_ne_zero hpos)
    obtain ⟨r, hr, -⟩ := hW _ (Finset.mem_filter.mp hH).2
    exact hu (Finset.mem_filter.mpr ⟨Finset.mem_univ _, r, hr, u, hr, not_le.mp hcon⟩)
  -- the tree of each
  have htree : ∀ r, big r → ∃ tree : PairTree F G1 G2 GT R1 R2,
      (∃ u, Draws V u r ∧ (A u).Rewound V srs r S1 S2 Q comA comB comC (fun H => (u, H) ∈ W) tree) ∧
      (outcome r tree).Opens V e vk inputs srs.commitmentKeys.1 srs.commitmentKeys.2 comA comB comC r := by
    rintro r ⟨u, hr, hlarge⟩
    have hacc : ∀ H ∈ slice u, r ≠ 0 ∧ r ≠ 1 ∧
        (∃ dg : Bytes → Bytes, (∀ x : Xs, dg x = H x) ∧
          Tipa.verifyWithShift V.tipa (withDigest V.pairingAB dg) v PUnit.unit
            (comA, comB, single ((A u).ipAB (Oracle.trace (A u).query H Q))) ((A u).ab.tipaProof S1.out srs Q H) r =
              .ok true ∧
          TipaSsm.verify V.X V.tipa (withDigest V.multiexpSsm dg) v PUnit.unit comC
            (single ((A u).aggC (Oracle.trace (A u).query H Q))) r ((A u).c.tipaProof S2.out srs Q H) = .ok true ∧
          Groth16.verifyPpe { V with digest := dg } vk inputs r ((A u).ipAB (Oracle.trace (A u).query H Q))
            ((A u).aggC (Oracle.trace (A u).query H Q)) = .ok true) ∧
        (A u).OpenedAB V srs r hm1 hp1 α β Q N hN H ∧ (A u).OpenedC V srs hm2 hp2 α β Q N hN H := by
      intro H hH
      obtain ⟨r', hr', ⟨dg, hdg1, hdg2, hacc⟩, o1, o2⟩ := hW _ (Finset.mem_filter.mp hH).2
      obtain rfl := hr'.unique hr
      obtain ⟨r2, b1, b2, b3, hch, hppe, hb⟩ := Groth16.verify_ok v vk inputs _ { V with digest := dg } true hacc
      have hr2 := hr.eq_challenge hN _ _ _ dg hdg1 hch.hc
      subst hr2
      obtain ⟨rfl, rfl, rfl⟩ : b1 = true ∧ b2 = true ∧ b3 = true := by
        revert hb; cases b1 <;> cases b2 <;> cases b3 <;> simp
      exact ⟨hch.ne_zero, (Groth16.verifyPpe_shape (V := { V with digest := dg }) hE vk inputs r2 _ _ _ hppe).1,
        ⟨dg, hdg2, hch.2, hch.3, hppe⟩, o1, o2⟩
    have hpos : (slice u).card ≠ 0 := by
      intro h0
      rw [h0, zero_mul] at hlarge
      exact Nat.not_lt_zero _ hlarge
    obtain ⟨H0, hH0⟩ := Finset.card_pos.mp (Nat.pos_of_ne_zero hpos)
    obtain ⟨hr0, hr1, -⟩ := hacc H0 hH0
    obtain ⟨tree, h1, h2, h3⟩ := tree_fixed (r := r) hm1 hm2 hp1 hp2 hE hF hG1 hG2 hT hd m m' hm hm' k hn g h α β hsrs
      hg0 hh0 hg hh v hv hr0 comA comB comC
      ((powers r inputs.length).sum • e vk.alpha vk.beta
        + e (dot (fun (x : F) (row : List F) => x • dot (fun s g => s • g) (1 :: row) vk.gammaAbc)
            (powers r inputs.length) inputs) vk.gamma) vk.delta (A u) Q N hN (hkeys1 u) (hkeys2 u) hsep1 hsep2
      (hs1 u) (hs2 u) (slice u) (fun H hH => by
        obtain ⟨-, -, ⟨dg, hdg, hab, hc, hppe⟩, o1, o2⟩ := hacc H hH
        refine ⟨?_, ⟨dg, hdg, hab, hc⟩, o1, o2⟩
        rw [Groth16.verifyPpe_iff (V := { V with digest := dg }) hE vk inputs hne hrow r hr1] at hppe
        exact of_decide_eq_true (Except.ok.inj hppe)) hlarge
    refine ⟨tree, ⟨u, hr, h1.mono ?_⟩, ?_⟩
    · rintro s1 s2 b ⟨H, hH, rest⟩
      exact ⟨H, (Finset.mem_filter.mp hH).2, rest⟩
    · obtain ⟨q1, q2, q3⟩ := h3
      simp only [LinearMap.zero_apply, LinearMap.id_apply, add_zero, zero_add] at q2 q3
      refine Groth16.found_opens vk inputs _ _ (by rw [l1, l2]) comA comB comC r hr0 _ _ h2.1 q1 q2 fun a b hab => ?_
      rw [Groth16.verifyPpe_iff hE vk inputs hne hrow r hr1]
      refine congrArg Except.ok (decide_eq_true ?_)
      rw [← h2.2 a b hab, q3]
      simp only [LinearMap.flip_apply]
      rw [l1]
      rfl
  have : Nonempty (PairTree F G1 G2 GT R1 R2) := ⟨.leaf (0, (0, 0), 0)⟩
  choose! tree hrew hop using htree
  obtain ⟨r0, rs, hrs⟩ : ∃ r0 rs, S.toList = r0 :: rs := by
    cases hl : S.toList with
    | nil =>
      have := S.length_toList
      rw [hl] at this
      simp only [List.length_nil] at this
      omega
    | cons a l => exact ⟨a, l, rfl⟩
  have hmem : ∀ r ∈ r0 :: rs, big r := fun r hr => hS r (by rw [← Finset.mem_toList, hrs]; exact hr)
  have hlen : n ≤ (r0 :: rs).length := by rw [← hrs, S.length_toList]; exact hSn
  have hnd : (r0 :: rs).Nodup := by rw [← hrs]; exact S.nodup_toList
  have hmap : ((r0 :: rs).map fun r => (r, tree r)).map (·.1) = r0 :: rs := by
    rw [List.map_map]
    exact List.map_id _
  refine ⟨(r0, tree r0), rs.map fun r => (r, tree r), ?_, ?_, ?_, ?_⟩
  · intro y hy
    rw [← List.map_cons (f := fun r => (r, tree r))] at hy
    obtain ⟨r, hr, rfl⟩ := List.mem_map.mp hy
    exact hrew r (hmem r hr)
  · rw [← List.map_cons (f := fun r => (r, tree r)), hmap]; exact hnd
  · rw [← List.map_cons (f := fun r => (r, tree r)), List.length_map]; exact hlen
  · have := Groth16.settle_good hE vk inputs srs.commitmentKeys.1 srs.commitmentKeys.2 (by rw [l1, hin]) hrow comA comB
      comC (r0, outcome r0 (tree r0)) (rs.map fun r => (r, outcome r (tree r))) (by
        intro y hy
        rw [← List.map_cons (f := fun r => (r, outcome r (tree r)))] at hy
        obtain ⟨r, hr, rfl⟩ := List.mem_map.mp hy
        exact hop r (hmem r hr)) (by
        rw [← List.map_cons (f := fun r => (r, outcome r (tree r))), List.map_map]
        exact (List.map_id _).symm ▸ hnd) (by
        rw [← List.map_cons (f := fun r => (r, outcome r (tree r))), List.length_map, hin]; exact hlen)
    rw [List.map_map] at this
    rw [extractProofs, List.map_map]
    exact this

end Static

/-! ## An instance: two proofs over the field with 997 elements

The bound of C117 for a prover that asks for both challenges and both opening points is above one for a field with 101
elements. -/

namespace Honest
open TipaStatic (Comb toy_poly keyPoly_single no_leak)
open GipaStatic (card_apply)

instance : Fact (Nat.Prime 997) := ⟨by norm_num⟩

/-- The field with 997 elements. -/
abbrev K := ZMod 997

/-- `e(x, y) = x y`. -/
def E : Engine K K K (Multiplicative K) where
  miller x y := .ofAdd (x * y)
  finalExp t := some t.toAdd

/-- The bilinear map computed by `E`. -/
def e : K →ₗ[K] K →ₗ[K] K := LinearMap.lsmul K K

@[simp] theorem e_apply (x y : K) : e x y = x * y := rfl

theorem lawful : E.Lawful (F := K) e where
  finalExp_one := rfl
  finalExp_miller _ _ := rfl
  finalExp_mul x y u v hx hy := by
    simp only [E, Option.some.injEq] at hx hy ⊢
    rw [← hx, ← hy]; rfl

/-- Two bytes per field element. -/
def ser (x : K) : Bytes := [UInt8.ofNat (x.val / 256), UInt8.ofNat (x.val % 256)]

/-- One more byte for target group elements, so that the hash inputs have different lengths. -/
def env : Env ℕ K K K K (Multiplicative K) where
  E := E
  X := Toy.X
  digest _ := []
  fromRandomBytes bs := some (beNat bs)
  serF := ser
  serG1 := ser
  serG2 := ser
  serGT x := 0 :: ser x
  randF s := (s, s + 1)
  randG1 s := (s, s + 1)
  randG2 s := (s, s + 1)
  g := 1
  h := 1

theorem read_ser : ∀ x : K, ((beNat (List.replicate 14 0 ++ ser x) : ℕ) : K) = x := by decide +kernel

theorem ser_inj (x y : K) (h : ser x = ser y) : x = y := by
  rw [← read_ser x, ← read_ser y, h]

theorem decodable_ser : Decodable (fun _ => True) ser := .of_fixed 2 (fun _ _ => rfl) fun x y _ _ => ser_inj x y

theorem decodable_serGT : Decodable (fun _ => True) env.serGT :=
  .of_fixed 3 (fun _ _ => rfl) fun x y _ _ h => ser_inj x y (List.cons.inj h).2

/-- 997 digests of 16 bytes. -/
def digests : Finset Bytes := (Finset.univ : Finset K).image fun x => List.replicate 14 0 ++ ser x

theorem card_digests : digests.card = 997 := by
  rw [digests, Finset.card_image_of_injective, Finset.card_univ, ZMod.card]
  intro x y h
  exact ser_inj _ _ (List.append_cancel_left h)

/-- The field element a digest stands for. -/
def value (d : digests) : K := (beNat (d : Bytes) : ℕ)

theorem value_inj (d d' : digests) (h : value d = value d') : d = d' := by
  obtain ⟨d, hd⟩ := d
  obtain ⟨d', hd'⟩ := d'
  obtain ⟨x, -, rfl⟩ := Finset.mem_image.mp hd
  obtain ⟨y, -, rfl⟩ := Finset.mem_image.mp hd'
  have h : ((beNat (List.replicate 14 0 ++ ser x) : ℕ) : K) = (beNat (List.replicate 14 0 ++ ser y) : ℕ) := h
  rw [read_ser, read_ser] at h
  simp [h]

theorem length_digest (d : Bytes) (hd : d ∈ digests) : d.length = 16 := by
  obtain ⟨x, -, rfl⟩ := Finset.mem_image.mp hd
  simp [ser]

theorem challengeOf_eq (d : digests) : challengeOf K d = (value d)⁻¹ := by
  rw [challengeOf, List.take_of_length_le (length_digest d d.2).le, value]

theorem card_challenge (x : K) : (Finset.univ.filter fun d : digests => challengeOf K d = x).card ≤ 1 :=
  Finset.card_le_one.mpr fun d hd d' hd' => value_inj d d' (inv_injective (by
    rw [← challengeOf_eq, ← challengeOf_eq, (Finset.mem_filter.mp hd).2, (Finset.mem_filter.mp hd').2]))

theorem card_point (x : K) : (Finset.univ.filter fun d : digests => env.fromRandomBytes d = some x).card ≤ 1 :=
  Finset.card_le_one.mpr fun d hd d' hd' => value_inj d d'
    ((Option.some.inj (Finset.mem_filter.mp hd).2).trans (Option.some.inj (Finset.mem_filter.mp hd').2).symm)

/-- The reference string for two proofs with trapdoors 3 and 5. -/
def srs : SRS K K := ⟨[1, 3, 9], [1, 5, 25], 5, 3⟩

theorem srs_isSrs : IsSrs srs (1 : K) (1 : K) (3 : K) 5 2 :=
  ⟨by decide +kernel, by decide +kernel, by decide, by decide⟩

/-- A proof `(a, b, c)` for the input `x` is valid if `a b = 7 + x + c`. -/
def vk : G16VK K K := ⟨2, 3, 1, 1, [1, 1]⟩

/-- The hash inputs of both arguments. -/
noncomputable def inputs : Finset Bytes :=
  ((Set.finite_range fun p : K × Sent K K K =>
    env.pairingAB.hashInput 0 p.1 (sentComs single p.2).1 (sentComs single p.2).2).toFinset ∪
  (Set.finite_range fun p : K × Sent K K K =>
    env.multiexpSsm.hashInput 0 p.1 (sentComs single p.2).1 (sentComs single p.2).2).toFinset) ∪
  ((Set.finite_range fun p : Fin (2 ^ 64) × K × K × K =>
    TipaStatic.pointInput env.tipa env.pairingAB p.1 p.2.1 p.2.2.1 p.2.2.2).toFinset ∪
  (Set.finite_range fun p : Fin (2 ^ 64) × K × K =>
    TipaSsmStatic.pointInput env.tipa env.multiexpSsm p.1 p.2.1 p.2.2).toFinset)

theorem hm1 (k : K) (z : Sent K K K) :
    env.pairingAB.hashInput 0 k (sentComs single z).1 (sentComs single z).2 ∈ inputs :=
  Finset.mem_union_left _ (Finset.mem_union_left _ ((Set.Finite.mem_toFinset _).mpr ⟨(k, z), rfl⟩))

theorem hm2 (k : K) (z : Sent K K K) :
    env.multiexpSsm.hashInput 0 k (sentComs single z).1 (sentComs single z).2 ∈ inputs :=
  Finset.mem_union_left _ (Finset.mem_union_right _ ((Set.Finite.mem_toFinset _).mpr ⟨(k, z), rfl⟩))

theorem hp1 (t : ℕ) (x ka kb : K) (ht : t < 2 ^ 64) :
    TipaStatic.pointInput env.tipa env.pairingAB t x ka kb ∈ inputs :=
  Finset.mem_union_right _ (Finset.mem_union_left _ ((Set.Finite.mem_toFinset _).mpr ⟨(⟨t, ht⟩, x, ka, kb), rfl⟩))

theorem hp2 (t : ℕ) (x ka : K) (ht : t < 2 ^ 64) :
    TipaSsmStatic.pointInput env.tipa env.multiexpSsm t x ka ∈ inputs :=
  Finset.mem_union_right _ (Finset.mem_union_right _ ((Set.Finite.mem_toFinset _).mpr ⟨(⟨t, ht⟩, x, ka), rfl⟩))

/-- The lengths of the hash inputs. -/
theorem length_AB (z : Sent K K K) (x : K) :
    (env.pairingAB.hashInput 0 x (sentComs single z).1 (sentComs single z).2).length = 44 := by
  simp [sentComs, single, serIdentity, serSeq, Gipa.hashInput, env, Env.pairingAB, ser, nonceBytes, leBytes]

theorem length_C (z : Sent K K K) (x : K) :
    (env.multiexpSsm.hashInput 0 x (sentComs single z).1 (sentComs single z).2).length = 40 := by
  simp [sentComs, single, serIdentity, serSeq, Gipa.hashInput, env, Env.multiexpSsm, ssmGipa, ser, nonceBytes, leBytes]

theorem length_pointAB (t : ℕ) (x ka kb : K) :
    (TipaStatic.pointInput env.tipa env.pairingAB t x ka kb).length = 14 := by
  simp [TipaStatic.pointInput, env, Env.tipa, Env.pairingAB, ser, nonceBytes, leBytes]

theorem length_pointC (t : ℕ) (x ka : K) :
    (TipaSsmStatic.pointInput env.tipa env.multiexpSsm t x ka).length = 12 := by
  simp [TipaSsmStatic.pointInput, env, Env.tipa, Env.multiexpSsm, ssmGipa, ser, nonceBytes, leBytes]

theorem ne_of_length {a b : Bytes} {i j : ℕ} (ha : a.length = i) (hb : b.length = j) (h : i ≠ j) : a ≠ b :=
  fun hab => h (by rw [← ha, ← hb, hab])

theorem challenge_notMem (comA comB comC : K) (t : ℕ) : challengeInput env comA comB comC t ∉ inputs := by
  intro h
  have hl : (challengeInput env comA comB comC t).length = 17 := by
    simp [challengeInput, env, ser, nonceBytes, leBytes]
  simp only [inputs, Finset.mem_union, Set.Finite.mem_toFinset, Set.mem_range] at h
  rcases h with (⟨p, h⟩ | ⟨p, h⟩) | (⟨p, h⟩ | ⟨p, h⟩)
  · exact ne_of_length (length_AB p.2 p.1) hl (by norm_num) h
  · exact ne_of_length (length_C p.2 p.1) hl (by norm_num) h
  · exact ne_of_length (length_pointAB _ _ _ _) hl (by norm_num) h
  · exact ne_of_length (length_pointC _ _ _) hl (by norm_num) h

/-- The answers to the four queries: two challenges and two opening points. -/
def seen (ds : List digests) (i : ℕ) : K := (ds[i]?.map value).getD 0

/-- The step of the first argument, for the challenge `r`; the vectors are `(5, 5 r)` and `(7, 7)`. -/
def stepAB (r : K) : Sent K K K := ((5 * r, 63, 35 * r), (5 * (r⁻¹ * 25), 7, 35))

/-- The step of the second argument; the vectors are `(27, 26)` and `(1, r)`. -/
def stepC (r : K) : Sent K K K := ((26, 0, 26), (675, 0, 27 * r))

/-- The final keys. -/
def finalAB (r c : K) : Comb 2 K × Comb 2 K := ((![1, 0, c⁻¹ * r⁻¹], 0), (![1, 0, c], 0))

def finalC (c : K) : Comb 2 K := (![1, 0, c⁻¹], 0)

/-- The challenge of the aggregation. -/
def drawn (u : Fin 1 → digests) : K := value (u 0)

/-- An honest prover for the valid proofs `(5, 7, 27)` and `(5, 7, 26)` for the inputs 1 and 2. -/
noncomputable def prover (u : Fin 1 → digests) : AnyProver 2 K K K K K K inputs digests where
  query
    | [] => TipaStatic.sentInput env.pairingAB single hm1 (stepAB (drawn u)) 0
    | [_] => TipaSsmStatic.sentInput env.multiexpSsm single hm2 (stepC (drawn u)) 0
    | [d, _] => TipaStatic.keyInput env.tipa env.pairingAB srs hp1 0 (by norm_num)
      (finalAB (drawn u) (challengeOf K d)) (challengeOf K d)
    | _ :: d :: _ :: _ => TipaSsmStatic.keyInput env.tipa env.multiexpSsm srs hp2 0 (by norm_num)
      (finalC (challengeOf K d)) (challengeOf K d)
  keysAB ds := finalAB (drawn u) (seen ds 0)⁻¹
  keysC ds := finalC (seen ds 1)⁻¹
  ipAB _ := 35 + 35 * drawn u
  aggC _ := 27 + 26 * drawn u
  stepsAB _ := [stepAB (drawn u)]
  stepsC _ := [stepC (drawn u)]
  baseAB ds := (5 + (seen ds 0)⁻¹ * (5 * drawn u), 7 + seen ds 0 * 7)
  baseC ds := (27 + (seen ds 1)⁻¹ * 26, 0)
  finalAB ds := finalAB (drawn u) (seen ds 0)⁻¹
  finalC ds := finalC (seen ds 1)⁻¹
  openingAB ds := ((![seen ds 0 * (drawn u)⁻¹ * seen ds 2, seen ds 0 * (drawn u)⁻¹, 0], 0),
    (![(seen ds 0)⁻¹ * seen ds 2, (seen ds 0)⁻¹, 0], 0))
  openingC ds := (![seen ds 1 * seen ds 3, seen ds 1, 0], 0)

theorem prover_keys1 (u : Fin 1 → digests) (ds : List digests) (t : ℕ) (ht : t < 2 ^ 64) (x ka kb : K)
    (h : ((prover u).query ds : Bytes) = TipaStatic.pointInput env.tipa env.pairingAB t x ka kb) :
    TipaStatic.left srs ((prover u).keysAB ds).1 = ka ∧ TipaStatic.right srs ((prover u).keysAB ds).2 = kb := by
  rcases ds with - | ⟨d, - | ⟨d', - | ⟨d'', ds⟩⟩⟩
  · exact absurd h (ne_of_length (length_AB _ _) (length_pointAB _ _ _ _) (by norm_num))
  · exact absurd h (ne_of_length (length_C _ _) (length_pointAB _ _ _ _) (by norm_num))
  · simp only [prover, TipaStatic.keyInput, TipaStatic.pointInput, List.append_assoc] at h
    obtain ⟨-, h⟩ := decodable_nonce _ _ _ _ (by norm_num) ht h
    obtain ⟨-, h⟩ := decodable_ser _ _ _ _ trivial trivial h
    obtain ⟨g1, h⟩ := decodable_ser _ _ _ _ trivial trivial h
    rw [challengeOf_eq] at g1 h
    exact ⟨g1, ser_inj _ _ h⟩
  · exact absurd h (ne_of_length (length_pointC _ _ _) (length_pointAB _ _ _ _) (by norm_num))

theorem prover_keys2 (u : Fin 1 → digests) (ds : List digests) (t : ℕ) (ht : t < 2 ^ 64) (x ka : K)
    (h : ((prover u).query ds : Bytes) = TipaSsmStatic.pointInput env.tipa env.multiexpSsm t x ka) :
    TipaStatic.left srs ((prover u).keysC ds) = ka := by
  rcases ds with - | ⟨d, - | ⟨d', - | ⟨d'', ds⟩⟩⟩
  · exact absurd h (ne_of_length (length_AB _ _) (length_pointC _ _ _) (by norm_num))
  · exact absurd h (ne_of_length (length_C _ _) (length_pointC _ _ _) (by norm_num))
  · exact absurd h (ne_of_length (length_pointAB _ _ _ _) (length_pointC _ _ _) (by norm_num))
  · simp only [prover, TipaSsmStatic.keyInput, TipaSsmStatic.pointInput, List.append_assoc] at h
    obtain ⟨-, h⟩ := decodable_nonce _ _ _ _ (by norm_num) ht h
    obtain ⟨-, h⟩ := decodable_ser _ _ _ _ trivial trivial h
    rw [challengeOf_eq] at h
    exact ser_inj _ _ h

/-- The parts of the verification. -/
theorem verify_of_parts {ρ F G1 G2 GT TF : Type} [Field F] [DecidableEq F] [AddCommGroup G1] [Module F G1]
    [DecidableEq G1] [AddCommGroup G2] [Module F G2] [DecidableEq G2] [AddCommGroup GT] [Module F GT] [DecidableEq GT]
    [CommGroup TF] (V : Env ρ F G1 G2 GT TF) (dg : Bytes → Bytes) (v : VerifierSRS G1 G2) (vk : G16VK G1 G2)
    (rows : List (List F)) (comA comB comC ipAB : GT) (aggC : G1)
    (proofAB : TipaProof G1 G2 G1 G2 GT GT (IdentityOutput GT))
    (proofC : TipaSsmProof F G2 G1 GT (IdentityOutput G1)) (r : F)
    (hc : Groth16.challenge { V with digest := dg } comA comB comC = .ok r)
    (hab : Tipa.verifyWithShift V.tipa (withDigest V.pairingAB dg) v PUnit.unit (comA, comB, ⟨[ipAB]⟩) proofAB r =
      .ok true)
    (hC : TipaSsm.verify V.X V.tipa (withDigest V.multiexpSsm dg) v PUnit.unit comC ⟨[aggC]⟩ r proofC = .ok true)
    (hppe : Groth16.verifyPpe { V with digest := dg } vk rows r ipAB aggC = .ok true) :
    Groth16.verify { V with digest := dg } v vk rows ⟨comA, comB, comC, ipAB, aggC, proofAB, proofC⟩ = .ok true := by
  rw [Groth16.verify_of_checks v vk rows _ r true true hc hab hC, hppe]
  rfl

open Classical in
/-- Two values are excluded for the first digest and one each for two answers of the oracle. -/
theorem count_honest {X D K : Type} [Fintype X] [DecidableEq X] [Fintype D] [DecidableEq D] (v ch : D → K) (x y z : K)
    (hv : ∀ d d', v d = v d' → d = d') (hch : ∀ d d', ch d = ch d' → d = d')
    (q q' : (Fin 1 → D) → X) (b : ℕ) (hb : b + 4 < Fintype.card D) (W : Finset ((Fin 1 → D) × (X → D)))
    (hW : ∀ u H, v (u 0) ≠ x → v (u 0) ≠ y → ch (H (q u)) ≠ z → ch (H (q' u)) ≠ z → (u, H) ∈ W) :
    b * (Fintype.card (Fin 1 → D) * Fintype.card (X → D)) < W.card * Fintype.card D := by
  have one : ∀ (f : D → K), (∀ d d', f d = f d' → d = d') → ∀ x, (Finset.univ.filter fun d => f d = x).card ≤ 1 :=
    fun f hf x => Finset.card_le_one.mpr fun d hd d' hd' =>
      hf d d' ((Finset.mem_filter.mp hd).2.trans (Finset.mem_filter.mp hd').2.symm)
  have hdraw : ∀ x : K, (Finset.univ.filter fun u : Fin 1 → D => v (u 0) = x).card * Fintype.card D ≤
      Fintype.card (Fin 1 → D) := fun x =>
    (card_apply (0 : Fin 1) fun d => v d = x).le.trans
      ((Nat.mul_le_mul_right _ (one v hv x)).trans_eq (one_mul _))
  have hans : ∀ i : X, (Finset.univ.filter fun H : X → D => ch (H i) = z).card * Fintype.card D ≤
      Fintype.card (X → D) := fun i =>
    (card_apply i fun d => ch d = z).le.trans ((Nat.mul_le_mul_right _ (one ch hch z)).trans_eq (one_mul _))
  have hbad := count_pairs (Finset.univ.filter fun uH => uH ∉ W)
    ((Finset.univ.filter fun u => v (u 0) = x) ∪ Finset.univ.filter fun u => v (u 0) = y) (Fintype.card D) 2 2 _ (by
      refine (Nat.mul_le_mul_right _ (Finset.card_union_le _ _)).trans ?_
      rw [add_mul, two_mul]
      exact Nat.add_le_add (hdraw x) (hdraw y)) rfl (by
      intro u hu
      simp only [Finset.mem_union, Finset.mem_filter, Finset.mem_univ, true_and, not_or] at hu
      refine (Nat.mul_le_mul_right _ ((Finset.card_le_card (t :=
        (Finset.univ.filter fun H : X → D => ch (H (q u)) = z) ∪
          Finset.univ.filter fun H : X → D => ch (H (q' u)) = z) fun H hH => ?_).trans
        (Finset.card_union_le _ _))).trans ?_
      · simp only [Finset.mem_union, Finset.mem_filter, Finset.mem_univ, true_and] at hH ⊢
        by_contra hcon
        rw [not_or] at hcon
        exact hH (hW u H hu.1 hu.2 hcon.1 hcon.2)
      · rw [add_mul, two_mul]
        exact Nat.add_le_add (hans _) (hans _))
  have hall := Finset.card_filter_add_card_filter_not
    (s := (Finset.univ : Finset ((Fin 1 → D) × (X → D)))) (· ∈ W)
  rw [Finset.card_univ, Fintype.card_prod, Finset.filter_univ_mem] at hall
  have hpos : 0 < Fintype.card (Fin 1 → D) * Fintype.card (X → D) := by
    have : 0 < Fintype.card D := by omega
    rw [Fintype.card_fun, Fintype.card_fun]; positivity
  nlinarith

section Runs
variable (u : Fin 1 → digests) (H : inputs → digests)

/-- The four queries. -/
noncomputable abbrev q1 : inputs := TipaStatic.sentInput env.pairingAB single hm1 (stepAB (drawn u)) 0

noncomputable abbrev q2 : inputs := TipaSsmStatic.sentInput env.multiexpSsm single hm2 (stepC (drawn u)) 0

/-- The challenges. -/
noncomputable abbrev c1 : K := challengeOf K (H (q1 u))

noncomputable abbrev c2 : K := challengeOf K (H (q2 u))

noncomputable abbrev q3 : inputs := TipaStatic.keyInput env.tipa env.pairingAB srs hp1 0 (by norm_num)
  (finalAB (drawn u) (c1 u H)) (c1 u H)

noncomputable abbrev q4 : inputs := TipaSsmStatic.keyInput env.tipa env.multiexpSsm srs hp2 0 (by norm_num)
  (finalC (c2 u H)) (c2 u H)

/-- The opening points. -/
noncomputable abbrev z1 : K := value (H (q3 u H))

noncomputable abbrev z2 : K := value (H (q4 u H))

theorem trace_eq : Oracle.trace (prover u).query H 4 = [H (q1 u), H (q2 u), H (q3 u H), H (q4 u H)] := rfl

theorem seen_eq : seen (Oracle.trace (prover u).query H 4) 0 = (c1 u H)⁻¹ ∧
    seen (Oracle.trace (prover u).query H 4) 1 = (c2 u H)⁻¹ ∧
    seen (Oracle.trace (prover u).query H 4) 2 = z1 u H ∧ seen (Oracle.trace (prover u).query H 4) 3 = z2 u H := by
  rw [trace_eq]
  refine ⟨?_, ?_, rfl, rfl⟩
  · rw [show c1 u H = (value (H (q1 u)))⁻¹ from challengeOf_eq _, inv_inv]; rfl
  · rw [show c2 u H = (value (H (q2 u)))⁻¹ from challengeOf_eq _, inv_inv]; rfl

theorem final_eq : (prover u).finalAB (Oracle.trace (prover u).query H 4) = finalAB (drawn u) (c1 u H) ∧
    (prover u).finalC (Oracle.trace (prover u).query H 4) = finalC (c2 u H) := by
  obtain ⟨s0, s1, -, -⟩ := seen_eq u H
  exact ⟨by simp only [prover] at s0 ⊢; rw [s0, inv_inv], by simp only [prover] at s1 ⊢; rw [s1, inv_inv]⟩

theorem point_eq (ht : 0 < 2 ^ 64) :
    (prover u).ab.point env.tipa env.pairingAB (Shape.one K).out srs hm1 hp1 4 0 ht H = q3 u H ∧
    (prover u).c.point env.tipa env.multiexpSsm (Shape.one K).out srs hm2 hp2 4 0 ht H = q4 u H := by
  obtain ⟨f1, f2⟩ := final_eq u H
  constructor
  · change TipaStatic.keyInput env.tipa env.pairingAB srs hp1 0 ht
      ((prover u).finalAB (Oracle.trace (prover u).query H 4)) (c1 u H) = _
    rw [f1]
  · change TipaSsmStatic.keyInput env.tipa env.multiexpSsm srs hp2 0 ht
      ((prover u).finalC (Oracle.trace (prover u).query H 4)) (c2 u H) = _
    rw [f2]

theorem transcript_eq : (prover u).ab.transcript env.pairingAB (Shape.one K).out hm1 4 H = [c1 u H] ∧
    (prover u).c.transcript env.multiexpSsm (Shape.one K).out hm2 4 H = [c2 u H] := ⟨rfl, rfl⟩

theorem known_eq (ht : 0 < 2 ^ 64) :
    (prover u).ab.knownKeys env.tipa env.pairingAB (Shape.one K).out srs hm1 hp1 4 0 ht H = finalAB (drawn u) (c1 u H) ∧
    (prover u).c.knownKey env.tipa env.multiexpSsm (Shape.one K).out srs hm2 hp2 4 0 ht H = finalC (c2 u H) := by
  constructor
  · unfold TipaStatic.AnyProver.knownKeys
    rw [(point_eq u H ht).1]
    refine (Oracle.firstKnown_of_asked (prover u).query 4 (prover u).keysAB (prover u).finalAB H 2 (by norm_num)
      ?_).trans ?_
    · intro i hi h
      have h' := congrArg Subtype.val h
      rcases (by omega : i = 0 ∨ i = 1) with rfl | rfl
      · exact ne_of_length (length_AB _ _) (length_pointAB _ _ _ _) (by norm_num) h'
      · exact ne_of_length (length_C _ _) (length_pointAB _ _ _ _) (by norm_num) h'
    · change finalAB _ (value (H (q1 u)))⁻¹ = _
      rw [← challengeOf_eq]
  · unfold TipaSsmStatic.AnyProver.knownKey
    rw [(point_eq u H ht).2]
    refine (Oracle.firstKnown_of_asked (prover u).query 4 (prover u).keysC (prover u).finalC H 3 (by norm_num)
      ?_).trans ?_
    · intro i hi h
      have h' := congrArg Subtype.val h
      rcases (by omega : i = 0 ∨ i = 1 ∨ i = 2) with rfl | rfl | rfl
      · exact ne_of_length (length_AB _ _) (length_pointC _ _ _) (by norm_num) h'
      · exact ne_of_length (length_C _ _) (length_pointC _ _ _) (by norm_num) h'
      · exact ne_of_length (length_pointAB _ _ _ _) (length_pointC _ _ _) (by norm_num) h'
    · change finalC (value (H (q2 u)))⁻¹ = _
      rw [← challengeOf_eq]

/-- The openings are honest. -/
theorem opened : (prover u).OpenedAB (S1 := .one _) env srs (drawn u) hm1 hp1 3 5 4 1 (by norm_num) H ∧
    (prover u).OpenedC (S2 := .one _) env srs hm2 hp2 3 5 4 1 (by norm_num) H := by
  obtain ⟨s0, s1, s2, s3⟩ := seen_eq u H
  constructor
  · refine ⟨0, by norm_num, z1 u H, ?_, fun t' ht' => absurd ht' (Nat.not_lt_zero _), ?_, ?_⟩
    · rw [(point_eq u H _).1]; rfl
    · rw [(known_eq u H _).1, (transcript_eq u H).1]
      simp only [prover] at s0 s2 ⊢
      rw [s0, s2]
      refine no_leak _ _ _ _ _ ?_
      simp [keyPoly_single]
    · rw [(known_eq u H _).1, (transcript_eq u H).1]
      simp only [prover] at s0 s2 ⊢
      rw [s0, s2, inv_inv]
      refine no_leak _ _ _ _ _ ?_
      simp [keyPoly_single]
  · refine ⟨0, by norm_num, z2 u H, ?_, fun t' ht' => absurd ht' (Nat.not_lt_zero _), ?_⟩
    · rw [(point_eq u H _).2]; rfl
    · rw [(known_eq u H _).2, (transcript_eq u H).2]
      simp only [prover] at s1 s3 ⊢
      rw [s1, s3]
      refine no_leak _ _ _ _ _ ?_
      simp [keyPoly_single]

open Classical in
/-- The hash function that agrees with the oracle and with the digests that give the challenge of the aggregation. -/
noncomputable def dg (bs : Bytes) : Bytes := if h : bs ∈ inputs then H ⟨bs, h⟩ else u 0

theorem dg_input (x : inputs) : dg u H x = H x := by
  rw [dg, dif_pos x.2]

theorem dg_challenge (comA comB comC : K) (t : ℕ) : dg u H (challengeInput env comA comB comC t) = u 0 := by
  rw [dg, dif_neg (challenge_notMem _ _ _ _)]

theorem accepted_AB (hr : drawn u ≠ 0) (h0 : c1 u H ≠ 0) :
    Tipa.verifyWithShift env.tipa (withDigest env.pairingAB (dg u H)) ⟨1, 1, 5, 3⟩ PUnit.unit
      (130, 70, ⟨[35 + 35 * drawn u]⟩) ((prover u).ab.tipaProof single srs 4 H) (drawn u) = .ok true := by
  set com : K × K × IdentityOutput K := (130, 70, ⟨[35 + 35 * drawn u]⟩) with hcomdef
  obtain ⟨com', hrec⟩ := recLoop_digest (P := env.pairingAB) (sentComs single)
    (TipaStatic.sentInput env.pairingAB single hm1) (fun _ _ => rfl) (fun d hd => (length_digest d hd).ge) H _
    (dg_input u H) ((prover u).stepsAB (Oracle.trace (prover u).query H 4)) 0 [] com rfl (by
      intro x hx
      simp only [prover, Oracle.queries, List.mem_singleton] at hx
      subst hx
      exact h0)
  have L' : (withDigest env.pairingAB (dg u H)).Lawful e e e.flip idψ := by
    have L := pairingAB_lawful env lawful
    exact ⟨L.ip_ok, L.lmc_ok, L.rmc_ok, L.ipc_ok, L.ψ_add, L.ψ_smul⟩
  set proof := (prover u).ab.tipaProof single srs 4 H with hproof
  have hrc : (withDigest env.pairingAB (dg u H)).recursiveChallenges com proof.gipa = .ok (com', [c1 u H]) := by
    rw [Gipa.recursiveChallenges, hproof, TipaStatic.AnyProver.tipaProof]
    simp only [GipaStatic.AnyProver.proof, List.reverse_reverse]
    erw [hrec]
    rfl
  obtain ⟨s0, s1, s2, s3⟩ := seen_eq u H
  have hck : proof.finalCk = (1 + (c1 u H)⁻¹ * (drawn u)⁻¹ * 25, 1 + c1 u H * 9) := by
    have : proof.finalCk = (TipaStatic.left srs ((prover u).finalAB (Oracle.trace (prover u).query H 4)).1,
        TipaStatic.right srs ((prover u).finalAB (Oracle.trace (prover u).query H 4)).2) := rfl
    rw [this, (final_eq u H).1]
    simp [TipaStatic.left, TipaStatic.right, finalAB, srs, Fin.sum_univ_three]
  have hop : proof.finalCkProof = ((c1 u H)⁻¹ * (drawn u)⁻¹ * z1 u H + (c1 u H)⁻¹ * (drawn u)⁻¹ * 5,
      c1 u H * z1 u H + c1 u H * 3) := by
    have : proof.finalCkProof = (TipaStatic.left srs ((prover u).openingAB (Oracle.trace (prover u).query H 4)).1,
        TipaStatic.right srs ((prover u).openingAB (Oracle.trace (prover u).query H 4)).2) := rfl
    rw [this]
    simp only [prover] at s0 s2 ⊢
    rw [s0, s2, inv_inv]
    simp [TipaStatic.left, TipaStatic.right, srs, Fin.sum_univ_three]
  have hkzg : Tipa.kzgChallenge env.tipa (withDigest env.pairingAB (dg u H)).digest
      (withDigest env.pairingAB (dg u H)).serF [c1 u H] proof.finalCk.1 proof.finalCk.2 = .ok (z1 u H) := by
    rw [C69_kzg]
    refine ⟨0, by norm_num, ?_, fun t' ht' => absurd ht' (Nat.not_lt_zero _)⟩
    have h3 : ((q3 u H : inputs) : Bytes) = be8 0 ++ ser (c1 u H) ++ ser proof.finalCk.1 ++ ser proof.finalCk.2 := by
      rw [hck]
      simp only [q3, TipaStatic.keyInput, TipaStatic.pointInput]
      have e1 : (TipaStatic.left srs (finalAB (drawn u) (c1 u H)).1 : K) = 1 + (c1 u H)⁻¹ * (drawn u)⁻¹ * 25 := by
        simp [TipaStatic.left, finalAB, srs, Fin.sum_univ_three]
      have e2 : (TipaStatic.right srs (finalAB (drawn u) (c1 u H)).2 : K) = 1 + c1 u H * 9 := by
        simp [TipaStatic.right, finalAB, srs, Fin.sum_univ_three]
      rw [e1, e2]
      rfl
    have h4 := dg_input u H (q3 u H)
    rw [h3] at h4
    exact congrArg env.fromRandomBytes h4
  have hv := (Tipa.C31_same_verdict (P := withDigest env.pairingAB (dg u H)) (V := env.tipa) ⟨1, 1, 5, 3⟩
    PUnit.unit com com' proof (drawn u) hr [c1 u H] (z1 u H) hrc hkzg
    lawful L' [1, (drawn u)⁻¹ * 25] [1, 9] rfl rfl (by rw [hck]; simp [foldAll, foldHalf, mul_assoc])
    (by rw [hck]; simp [foldAll, foldHalf])).2
    (by
      rw [hck, hop]
      refine (C28_check_G2 lawful (1 : K) (1 : K) 3 5 (fun y h => by simpa using h) _ _ _ _ _).mpr ?_
      simp
      ring)
    (by
      rw [hck, hop]
      refine (C28_check_G1 lawful (1 : K) (1 : K) 3 5 (fun y h => by simpa using h) _ _ _ _ _).mpr ?_
      simp
      ring)
  rw [hv]
  refine (C67_verify_iff L' _ _ PUnit.unit _ _ rfl rfl).mpr ⟨[c1 u H], com', hrc, ?_⟩
  have hb : proof.gipa.base = (5 + c1 u H * (5 * drawn u), 7 + (c1 u H)⁻¹ * 7) := by
    have : proof.gipa.base = (prover u).baseAB (Oracle.trace (prover u).query H 4) := rfl
    rw [this]
    simp only [prover] at s0 ⊢
    rw [s0, inv_inv]
  have hst : proof.gipa.steps.reverse = [sentComs single (stepAB (drawn u))] := rfl
  rw [hb, hst, hcomdef]
  generalize c1 u H = c at h0
  generalize drawn u = r at hr
  refine ⟨1 + c⁻¹ * (r⁻¹ * 25), 1 + c * 9, by simp [foldAll, foldHalf], by simp [foldAll, foldHalf], ?_, ?_, ?_⟩
  · simp only [sentComs, stepAB, List.map_cons, List.map_nil, accum, e_apply, smul_eq_mul]
    field_simp
    ring
  · simp only [sentComs, stepAB, List.map_cons, List.map_nil, accum, LinearMap.flip_apply, e_apply, smul_eq_mul]
    field_simp
    ring
  · change accum [c] ([(35 * r, 35)].map fun s => (single s.1, single s.2)) (single (35 + 35 * r)) = _
    rw [PolyStatic.accum_single]
    refine congrArg single ?_
    simp only [accum, e_apply, smul_eq_mul]
    field_simp
    ring

theorem accepted_C (h0 : c2 u H ≠ 0) :
    TipaSsm.verify Toy.X env.tipa (withDigest env.multiexpSsm (dg u H)) ⟨1, 1, 5, 3⟩ PUnit.unit
      677 ⟨[27 + 26 * drawn u]⟩ (drawn u) ((prover u).c.tipaProof single srs 4 H) = .ok true := by
  set com : K × K × IdentityOutput K := (677, drawn u, ⟨[27 + 26 * drawn u]⟩) with hcomdef
  obtain ⟨com', hrec⟩ := recLoop_digest (P := env.multiexpSsm) (sentComs single)
    (TipaSsmStatic.sentInput env.multiexpSsm single hm2) (fun _ _ => rfl) (fun d hd => (length_digest d hd).ge) H _
    (dg_input u H) ((prover u).stepsC (Oracle.trace (prover u).query H 4)) 0 [] com rfl (by
      intro x hx
      simp only [prover, Oracle.queries, List.mem_singleton] at hx
      subst hx
      exact h0)
  have L' : (withDigest env.multiexpSsm (dg u H)).Lawful (smulMap K K) e 0 idψ := by
    have L := multiexpSsm_lawful env lawful
    exact ⟨L.ip_ok, L.lmc_ok, L.rmc_ok, L.ipc_ok, L.ψ_add, L.ψ_smul⟩
  set proof := (prover u).c.tipaProof single srs 4 H with hproof
  have hrc : (withDigest env.multiexpSsm (dg u H)).recursiveChallenges com proof.gipa =
      .ok (com', [c2 u H].reverse) := by
    rw [Gipa.recursiveChallenges, hproof, TipaSsmStatic.AnyProver.tipaProof]
    simp only [GipaStatic.AnyProver.proof, List.reverse_reverse]
    erw [hrec]
    rfl
  have hcom : com' = Gipa.foldMany proof.gipa.steps.reverse [c2 u H] com := by
    have h := hrc
    rw [Gipa.recursiveChallenges_eq] at h
    cases hcs : (withDigest env.multiexpSsm (dg u H)).chals proof.gipa.steps.reverse [] with
    | error e => simp [hcs] at h
    | ok cs =>
      simp only [hcs, ok_bind, Except.ok.injEq, Prod.mk.injEq] at h
      rw [← h.1, ← List.reverse_injective h.2]
  obtain ⟨s0, s1, s2, s3⟩ := seen_eq u H
  have hck : proof.finalCk = 1 + (c2 u H)⁻¹ * 25 := by
    have : proof.finalCk = TipaStatic.left srs ((prover u).finalC (Oracle.trace (prover u).query H 4)) := rfl
    rw [this, (final_eq u H).2]
    simp [TipaStatic.left, finalC, srs, Fin.sum_univ_three]
  have hop : proof.finalCkProof = (c2 u H)⁻¹ * z2 u H + (c2 u H)⁻¹ * 5 := by
    have : proof.finalCkProof = TipaStatic.left srs ((prover u).openingC (Oracle.trace (prover u).query H 4)) := rfl
    rw [this]
    simp only [prover] at s1 s3 ⊢
    rw [s1, s3]
    simp [TipaStatic.left, srs, Fin.sum_univ_three]
  have hkzg : TipaSsm.kzgChallenge env.tipa (withDigest env.multiexpSsm (dg u H)).digest
      (withDigest env.multiexpSsm (dg u H)).serF [c2 u H].reverse proof.finalCk = .ok (z2 u H) := by
    rw [List.reverse_singleton, C69_kzg_ssm]
    refine ⟨0, by norm_num, ?_, fun t' ht' => absurd ht' (Nat.not_lt_zero _)⟩
    have h3 : ((q4 u H : inputs) : Bytes) = be8 0 ++ ser (c2 u H) ++ ser proof.finalCk := by
      rw [hck]
      simp only [q4, TipaSsmStatic.keyInput, TipaSsmStatic.pointInput]
      have e1 : (TipaStatic.left srs (finalC (c2 u H)) : K) = 1 + (c2 u H)⁻¹ * 25 := by
        simp [TipaStatic.left, finalC, srs, Fin.sum_univ_three]
      rw [e1]
      rfl
    have h4 := dg_input u H (q4 u H)
    rw [h3] at h4
    exact congrArg env.fromRandomBytes h4
  obtain ⟨b', e2, e3, -⟩ := TipaSsm.C34_verdict (V := env.tipa) L' lawful Toy.X ⟨1, 1, 5, 3⟩ PUnit.unit 677
    ⟨[27 + 26 * drawn u]⟩ (drawn u) proof [c2 u H] com' (z2 u H) hrc hkzg
  rw [e3, hcom, hck, hop]
  have hb : proof.gipa.base = (27 + c2 u H * 26, 0) := by
    have : proof.gipa.base = (prover u).baseC (Oracle.trace (prover u).query H 4) := rfl
    rw [this]
    simp only [prover] at s1 ⊢
    rw [s1, inv_inv]
  have hst : proof.gipa.steps.reverse = [sentComs single (stepC (drawn u))] := rfl
  have g2 : b' = 1 + (c2 u H)⁻¹ * drawn u := by
    have : foldAll ([c2 u H].map (·⁻¹)) ((List.range (2 ^ [c2 u H].length)).map (drawn u ^ ·)) =
        [1 + (c2 u H)⁻¹ * drawn u] := by
      simp [foldAll, foldHalf, List.range_succ]
    rw [this] at e2
    exact (List.singleton_injective e2).symm
  rw [hb, hst, g2, hcomdef]
  generalize c2 u H = c at h0
  generalize drawn u = r
  refine ⟨?_, ?_, ?_⟩
  · refine (C28_check_G2 lawful (1 : K) (1 : K) 3 5 (fun y h => by simpa using h) _ _ _ _ _).mpr ?_
    simp
    ring
  · simp only [sentComs, stepC, Gipa.foldMany, Gipa.foldComs, e_apply, smul_eq_mul]
    field_simp
    ring
  · change (⟨[c * 26 + (27 + 26 * r) + c⁻¹ * (27 * r)]⟩ : IdentityOutput K) = ⟨[(1 + c⁻¹ * r) * (27 + c * 26)]⟩
    congr 2
    field_simp
    ring

theorem accepted (hr : drawn u ≠ 0) (hr1 : drawn u ≠ 1) (h1 : c1 u H ≠ 0) (h2 : c2 u H ≠ 0) :
    Groth16.verify { env with digest := dg u H } ⟨1, 1, 5, 3⟩ vk [[1], [2]]
      ((prover u).aggProof (.one _) (.one _) srs 130 70 677 4 H) = .ok true := by
  refine verify_of_parts env _ _ _ _ _ _ _ _ _ _ _ (drawn u) ?_ (accepted_AB u H hr h1) (accepted_C u H h2) ?_
  · rw [C69_groth16]
    refine ⟨0, by norm_num, ?_, fun t' ht' => absurd ht' (Nat.not_lt_zero _)⟩
    exact congrArg env.fromRandomBytes (dg_challenge u H 130 70 677 0)
  · rw [Groth16.verifyPpe_iff (e := e) lawful _ _ (by simp) (by decide) _ hr1]
    simp only [Except.ok.injEq, decide_eq_true_eq]
    simp [vk, powers, dot, List.range_succ, prover]
    ring

end Runs

open Classical in
/-- The prover convinces the verifier for at least 993 of 997 oracles, and the bound of C117 is 457. So the hypotheses
of `C117_knowledge` are met, and two trees give two proofs. -/
example : ∃ (x : K × PairTree K K K K K K) (xs : List (K × PairTree K K K K K K)),
    (extractProofs x xs).Good e vk [[1], [2]] [1, 25] [1, 9] 130 70 677 := by
  obtain ⟨W, hW⟩ : ∃ W : Finset ((Fin 1 → digests) × (inputs → digests)), ∀ u H,
      (u, H) ∈ W ↔ drawn u ≠ 0 ∧ drawn u ≠ 1 ∧ c1 u H ≠ 0 ∧ c2 u H ≠ 0 :=
    ⟨Finset.univ.filter fun uH => drawn uH.1 ≠ 0 ∧ drawn uH.1 ≠ 1 ∧ c1 uH.1 uH.2 ≠ 0 ∧ c2 uH.1 uH.2 ≠ 0,
      fun u H => by rw [Finset.mem_filter, and_iff_right (Finset.mem_univ _)]⟩
  have hmany := count_honest value (fun d : digests => challengeOf K d) 0 1 0 value_inj (fun d d' h => value_inj d d' (by
    rw [challengeOf_eq, challengeOf_eq] at h
    exact inv_injective h)) q1 q2 457 (by rw [Fintype.card_coe, card_digests]; norm_num) W
    fun u H h1 h2 h3 h4 => (hW u H).mpr ⟨h1, h2, h3, h4⟩
  rw [Fintype.card_fun, Fintype.card_fun, Fintype.card_coe, Fintype.card_coe, Fintype.card_fin] at hmany
  obtain ⟨x, xs, -, -, -, h⟩ := C117_knowledge (n := 2) (V := env) (e := e) (srs := srs) (Xs := inputs) (Ds := digests)
    (S1 := .one _) (S2 := .one _) hm1 hm2 hp1 hp2 lawful decodable_ser decodable_ser decodable_ser decodable_serGT
    (fun d hd => (length_digest d hd).ge) 1 1 card_challenge card_point 1 rfl (1 : K) (1 : K) (3 : K) 5 srs_isSrs
    one_ne_zero one_ne_zero (fun y h => by simpa using h) (fun y h => by simpa using h) ⟨1, 1, 5, 3⟩ rfl vk [[1], [2]]
    rfl (by decide) 130 70 677 4 1 (by norm_num) prover prover_keys1 prover_keys2
    (fun t _ z x x' ka kb => ne_of_length (length_AB z x) (length_pointAB t x' ka kb) (by norm_num))
    (fun t _ z x x' ka => ne_of_length (length_C z x) (length_pointC t x' ka) (by norm_num))
    (fun _ _ => rfl) (fun _ _ => rfl) W (by
      rintro ⟨u, H⟩ hu
      obtain ⟨hr, hr1, h1, h2⟩ := (hW u H).mp hu
      refine ⟨drawn u, ⟨0, rfl, fun t' ht' => absurd ht' (Fin.not_lt_zero _)⟩,
        ⟨dg u H, fun t => ?_, dg_input u H, accepted u H hr hr1 h1 h2⟩, opened u H⟩
      rw [Subsingleton.elim t 0]
      exact dg_challenge u H _ _ _ _) (by
      rw [show 1 * ((2 - 1) * 1) + errorTerm 4 1 2 1 1 1 = 457 from rfl]
      exact hmany)
  exact ⟨x, xs, h⟩

end Honest

end Ripp.AggStatic
