import Verif.Props.SsmStatic
import Verif.Props.PolyBinding
import Verif.Props.CommitValue
import Verif.Lemmas.Chain2

/-!
# C103: the transparent polynomial commitments in the random oracle model

`C48` breaks evaluation binding by choosing the value after the challenges. Here commitment, point and value are
fixed before the oracle. The commitment to the combined row, which links the two arguments of an opening, is part
of the proof and is not hashed, so that both arguments have to be followed together.
-/

set_option linter.unusedSectionVars false
set_option linter.unusedVariables false

namespace Ripp.PolyStatic

open Spec Extract SsmExtract
open GipaStatic (commitTo formal formalKey dot_ofFn dot_formalKey keyOf commitTo_formal map_formalKey map_foldAll
  map_accum weights foldAll_formalKey withDigest challengeOf Clash recLoop_chain' single decodable_single)
open SsmStatic (St foldSt foldl_foldSt Known coms coms2 link)

variable {F : Type} [Field F]

/-! ## One round of one argument, with an unknown contribution to the statement -/

section Round
variable {M K C O Y : Type} [AddCommGroup M] [Module F M] [AddCommGroup K] [Module F K]
  [AddCommGroup C] [Module F C] [AddCommGroup O] [Module F O] [AddCommGroup Y] [Module F Y]
  (bil : M →ₗ[F] F →ₗ[F] O) (φ : M →ₗ[F] K →ₗ[F] C) (uA : Y →ₗ[F] C) (uT : Y →ₗ[F] O)

/-- The statement, with the contribution of `y`, is true. -/
def Opens (y : Y) (st : St F K C O) : Prop :=
  ∃ a : List M, a.length = st.1.length ∧ st.2.2.1 + uA y = dot (φ · ·) a st.1 ∧
    st.2.2.2 + uT y = dot (bil · ·) a st.2.1

/-- The combination of three values that belongs to three challenges. -/
def combo (c : Fin 3 → F) (y : Fin 3 → Y) : Y :=
  wM (c 0) (c 1) (c 2) • y 0 + wM (c 1) (c 0) (c 2) • y 1 + wM (c 2) (c 0) (c 1) • y 2

theorem map_combo (f : Y →ₗ[F] C) (c : Fin 3 → F) (y : Fin 3 → Y) :
    f (combo c y) = combo c fun i => f (y i) := by
  simp [combo]

theorem combo_add (c : Fin 3 → F) (h0 : ∀ i, c i ≠ 0) (hc : Function.Injective c) (m : C) (y : Fin 3 → C) :
    combo c (fun i => m + y i) = m + combo c y := by
  have h := (weights_M (h0 0) (h0 1) (h0 2) (fun e => absurd (hc e) (by decide))
    (fun e => absurd (hc e) (by decide)) (fun e => absurd (hc e) (by decide))).2.1
  simp only [combo]
  linear_combination (norm := module) h • m

theorem dot_merge' (φ : M →ₗ[F] K →ₗ[F] O) (c : Fin 3 → F)
    (h0 : ∀ i, c i ≠ 0) (hc : Function.Injective c) (a : Fin 3 → List M)
    (n : ℕ) (h : ∀ i, (a i).length = n) (k : List K) (hk : k.length = 2 * n) (l r : O) (m : Fin 3 → O)
    (hop : ∀ i, c i • l + m i + (c i)⁻¹ • r = dot (φ · ·) (a i) (foldHalf (c i)⁻¹ k)) :
    combo c m = dot (φ · ·) (merge c a) k := by
  have a2 := weights_M (h0 0) (h0 1) (h0 2) (fun e => absurd (hc e) (by decide))
    (fun e => absurd (hc e) (by decide)) (fun e => absurd (hc e) (by decide))
  rw [merge, dot_addV_left _ _ _ _ (by simp [addV, smulV, h]),
    dot_addV_left _ _ _ _ (by simp [smulV, h]), dot_smulV_left, dot_smulV_left, dot_smulV_left,
    dot_unfold _ _ _ _ (by rw [h, hk]), dot_unfold _ _ _ _ (by rw [h, hk]),
    dot_unfold _ _ _ _ (by rw [h, hk]), ← hop, ← hop, ← hop, combo]
  linear_combination (norm := module) (-a2.1) • l + (-a2.2.2) • r

variable {bil φ uA uT}

/-- Three openings of one statement combined. -/
theorem opens_same (st : St F K C O) (c : Fin 3 → F) (h0 : ∀ i, c i ≠ 0) (hc : Function.Injective c)
    (y : Fin 3 → Y) (h : ∀ i, Opens bil φ uA uT (y i) st) : Opens bil φ uA uT (combo c y) st := by
  choose a la e1 e2 using h
  refine ⟨addV (addV (smulV (wM (c 0) (c 1) (c 2)) (a 0)) (smulV (wM (c 1) (c 0) (c 2)) (a 1)))
    (smulV (wM (c 2) (c 0) (c 1)) (a 2)), by simp [addV, smulV, la], ?_, ?_⟩
  · rw [dot_addV_left _ _ _ _ (by simp [addV, smulV, la]), dot_addV_left _ _ _ _ (by simp [smulV, la]),
      dot_smulV_left, dot_smulV_left, dot_smulV_left, ← e1, ← e1, ← e1, map_combo, ← combo_add c h0 hc]
    rfl
  · rw [dot_addV_left _ _ _ _ (by simp [addV, smulV, la]), dot_addV_left _ _ _ _ (by simp [smulV, la]),
      dot_smulV_left, dot_smulV_left, dot_smulV_left, ← e2, ← e2, ← e2, map_combo, ← combo_add c h0 hc]
    rfl

/-- Openings after a round for three challenges combined to one before the round. -/
theorem opens_of_three (st : St F K C O) (hst : st.1.length = st.2.1.length) (z : (C × O) × (C × O))
    (c : Fin 3 → F) (h0 : ∀ i, c i ≠ 0) (hc : Function.Injective c) (b : Bool)
    (y : Fin 3 → Y) (h : ∀ i, Opens bil φ uA uT (y i) (if b then foldSt st z (c i) else st)) :
    Opens bil φ uA uT (combo c y) st := by
  cases b with
  | false => exact opens_same st c h0 hc y h
  | true =>
    by_cases hn : ∃ n, st.1.length = 2 * n
    · obtain ⟨n, ha⟩ := hn
      have hb : st.2.1.length = 2 * n := by rw [← hst, ha]
      have h' : ∀ i, ∃ a : List M, a.length = n ∧
          c i • z.1.1 + (st.2.2.1 + uA (y i)) + (c i)⁻¹ • z.2.1 = dot (φ · ·) a (foldHalf (c i)⁻¹ st.1) ∧
          c i • z.1.2 + (st.2.2.2 + uT (y i)) + (c i)⁻¹ • z.2.2 = dot (bil · ·) a (foldHalf (c i)⁻¹ st.2.1) := by
        intro i
        have := h i
        simp only [if_true] at this
        rw [foldSt, if_pos ⟨n, ha⟩] at this
        obtain ⟨a, e1, e2, e3⟩ := this
        refine ⟨a, by rw [e1]; exact length_foldHalf _ _ n ha, ?_, ?_⟩
        · rw [← e2]; module
        · rw [← e3]; module
      choose a la e2 e3 using h'
      refine ⟨merge c a, by rw [length_merge c a n la, ha], ?_, ?_⟩
      · rw [map_combo, ← combo_add c h0 hc]
        exact dot_merge' φ c h0 hc a n la _ ha _ _ _ e2
      · rw [map_combo, ← combo_add c h0 hc]
        exact dot_merge' bil c h0 hc a n la _ hb _ _ _ e3
    · refine opens_same st c h0 hc y fun i => ?_
      have := h i
      simp only [if_true] at this
      rwa [foldSt, if_neg hn] at this

theorem foldSt_length (st : St F K C O) (hst : st.1.length = st.2.1.length) (z : (C × O) × (C × O)) (x : F) :
    (foldSt st z x).1.length = (foldSt st z x).2.1.length := by
  by_cases hn : ∃ n, st.1.length = 2 * n
  · rw [foldSt, if_pos hn]
    obtain ⟨n, ha⟩ := hn
    change (foldHalf _ st.1).length = (foldHalf _ st.2.1).length
    rw [length_foldHalf _ _ n ha, length_foldHalf _ _ n (by rw [← hst, ha])]
  · rw [foldSt, if_neg hn]; exact hst

end Round

/-! ## Two arguments that share a value -/

section Pair
variable {M1 K1 C1 O1 M2 K2 C2 O2 Y : Type} [AddCommGroup M1] [Module F M1] [AddCommGroup K1] [Module F K1]
  [AddCommGroup C1] [Module F C1] [AddCommGroup O1] [Module F O1] [AddCommGroup M2] [Module F M2]
  [AddCommGroup K2] [Module F K2] [AddCommGroup C2] [Module F C2] [AddCommGroup O2] [Module F O2]
  [AddCommGroup Y] [Module F Y]
  (bil1 : M1 →ₗ[F] F →ₗ[F] O1) (φ1 : M1 →ₗ[F] K1 →ₗ[F] C1) (uA1 : Y →ₗ[F] C1) (uT1 : Y →ₗ[F] O1)
  (bil2 : M2 →ₗ[F] F →ₗ[F] O2) (φ2 : M2 →ₗ[F] K2 →ₗ[F] C2) (uA2 : Y →ₗ[F] C2) (uT2 : Y →ₗ[F] O2)

/-- No value makes both statements true. -/
def Doomed (s1 : St F K1 C1 O1) (s2 : St F K2 C2 O2) : Prop :=
  s1.1.length = s1.2.1.length ∧ s2.1.length = s2.2.1.length ∧
    ¬ ∃ y, Opens bil1 φ1 uA1 uT1 y s1 ∧ Opens bil2 φ2 uA2 uT2 y s2

variable {bil1 φ1 uA1 uT1 bil2 φ2 uA2 uT2}

/-- At most two non-zero challenges make a doomed pair, of which one or both statements are extended with the
same challenge, one that is not doomed. -/
theorem escape_le {D : Type} (key : D → F) (m : ℕ)
    (hm : ∀ (x : F) (S : Finset D), (∀ d ∈ S, key d = x) → S.card ≤ m)
    (s1 : St F K1 C1 O1) (s2 : St F K2 C2 O2) (z1 : (C1 × O1) × (C1 × O1)) (z2 : (C2 × O2) × (C2 × O2))
    (b1 b2 : Bool) (hst : Doomed bil1 φ1 uA1 uT1 bil2 φ2 uA2 uT2 s1 s2) (S : Finset D)
    (hS : ∀ d ∈ S, ¬ Doomed bil1 φ1 uA1 uT1 bil2 φ2 uA2 uT2 (if b1 then foldSt s1 z1 (key d) else s1)
      (if b2 then foldSt s2 z2 (key d) else s2)) : S.card ≤ 3 * m := by
  classical
  obtain ⟨l1, l2, hno⟩ := hst
  have hop : ∀ d ∈ S, ∃ y, Opens bil1 φ1 uA1 uT1 y (if b1 then foldSt s1 z1 (key d) else s1) ∧
      Opens bil2 φ2 uA2 uT2 y (if b2 then foldSt s2 z2 (key d) else s2) := by
    intro d hd
    by_contra hcon
    refine hS d hd ⟨?_, ?_, hcon⟩
    · split
      · exact foldSt_length _ l1 _ _
      · exact l1
    · split
      · exact foldSt_length _ l2 _ _
      · exact l2
  have hT3 : (S.image key).card ≤ 3 := by
    by_contra hcon
    have h3 : 3 ≤ ((S.image key).erase 0).card := by
      have := Finset.pred_card_le_card_erase (s := S.image key) (a := 0)
      omega
    obtain ⟨U, hU, hU3⟩ := Finset.exists_subset_card_eq h3
    let c : Fin 3 → F := fun i => (U.equivFin.symm (Fin.cast hU3.symm i) : U)
    have hcU : ∀ i, c i ∈ U := fun i => (U.equivFin.symm (Fin.cast hU3.symm i)).2
    have hc : Function.Injective c := fun i j h => by
      have := U.equivFin.symm.injective (Subtype.ext h)
      exact Fin.cast_injective _ this
    have h0 : ∀ i, c i ≠ 0 := fun i => (Finset.mem_erase.mp (hU (hcU i))).1
    have hy : ∀ i, ∃ y, Opens bil1 φ1 uA1 uT1 y (if b1 then foldSt s1 z1 (c i) else s1) ∧
        Opens bil2 φ2 uA2 uT2 y (if b2 then foldSt s2 z2 (c i) else s2) := by
      intro i
      obtain ⟨d, hd, he⟩ := Finset.mem_image.mp (Finset.mem_erase.mp (hU (hcU i))).2
      rw [← he]
      exact hop d hd
    choose y y1 y2 using hy
    exact hno ⟨combo c y, opens_of_three s1 l1 z1 c h0 hc b1 y y1, opens_of_three s2 l2 z2 c h0 hc b2 y y2⟩
  rw [Finset.card_eq_sum_card_image key S]
  refine (Finset.sum_le_card_nsmul _ _ m fun x _ => ?_).trans ?_
  · exact hm x _ fun d hd => (Finset.mem_filter.mp hd).2
  · rw [smul_eq_mul]
    exact Nat.mul_le_mul_right m hT3

end Pair

/-! ## The end of a chain -/

section End
variable {MW MA KA OA OT RT T O : Type} [AddCommGroup MW] [Module F MW] [AddCommGroup MA] [Module F MA]
  [AddCommGroup KA] [Module F KA] [AddCommGroup OA] [Module F OA] [Add OT] [SMul F OT]
  [AddCommGroup T] [Module F T] [AddCommGroup O] [Module F O] {n : ℕ}

theorem accum_add : ∀ (cs : List F) (ss : List (O × O)) (c y : O), accum cs ss c + y = accum cs ss (c + y)
  | [], _, _, _ => by simp [accum]
  | _ :: _, [], _, _ => by simp [accum]
  | x :: cs, s :: ss, c, y => by
    rw [accum, accum, accum_add cs ss]
    congr 1
    module

theorem accum_single : ∀ (cs : List F) (ss : List (O × O)) (c : O),
    accum cs (ss.map fun s => (single s.1, single s.2)) (single c) = single (accum cs ss c)
  | [], _, _ => by simp [accum]
  | _ :: _, [], _ => by simp [accum]
  | x :: cs, s :: ss, c => by
    rw [List.map_cons, accum, accum, ← accum_single cs ss]
    rfl

/-- An accepting run, with the known openings `os` in the place of the commitments. -/
theorem run_eqs {bil : MA →ₗ[F] F →ₗ[F] T} {φa : MA →ₗ[F] KA →ₗ[F] OA} {ψ : T → OT}
    (φ' : MW →ₗ[F] KA →ₗ[F] OA) (τ : RT → OT) (va : Fin n → KA) (mb : List F) (ra : Fin n → MW) (comT : OT)
    (cs : List F) (hn : n = 2 ^ cs.length) (zs os : List (Known n F MW RT × Known n F MW RT))
    (hos : os.map (coms2 φ' τ va) = zs.map (coms2 φ' τ va)) (base : MA)
    (h : Run bil φa ψ (List.ofFn va) mb (commitTo φ' va ra, comT) cs (outer (zs.map (coms2 φ' τ va))) base) :
    ∃ b', foldAll (cs.map (·⁻¹)) mb = [b'] ∧
      commitTo φ' va (accum cs (os.map fun z => (z.1.1, z.2.1)) ra) =
        φa base (keyOf va (weights (cs.map (·⁻¹)) n)) ∧
      accum cs (os.map fun z => (τ z.1.2.2, τ z.2.2.2)) comT = ψ (bil base b') := by
  obtain ⟨ka, b', e1, e2, e3, e5⟩ := h
  rw [← hos, outer, List.map_map, List.map_map] at e3 e5
  refine ⟨b', e2, ?_, e5⟩
  have hk : keyOf va (weights (cs.map (·⁻¹)) n) = ka := by
    have := map_foldAll (keyOf (F := F) va) (cs.map (·⁻¹)) (formalKey n)
    rw [foldAll_formalKey _ (by rw [List.length_map, hn]), map_formalKey, e1] at this
    exact List.singleton_injective this
  rw [hk, map_accum, List.map_map]
  exact e3

/-- The formal state at the end of a chain. -/
theorem follow_end {X D : Type} (enc : Known n F MW RT × Known n F MW RT → F → X) (key : D → F) (H : X → D)
    (f : RT → O) (mb : List F) (ra : Fin n → MW) (t0 : O)
    (L : X → Known n F MW RT × Known n F MW RT) (zs : List (Known n F MW RT × Known n F MW RT))
    (hn : n = 2 ^ zs.length) :
    Oracle.follow enc key (fun st z d => foldSt st ((z.1.1, f z.1.2.2), (z.2.1, f z.2.2.2)) (key d)) L H
        ((formalKey n, mb, ra, t0) : St F (Fin n → F) (Fin n → MW) O) 0 zs =
      ([weights (((Oracle.queries enc key H 0 zs).map fun x => key (H x)).map (·⁻¹)) n],
        foldAll (((Oracle.queries enc key H 0 zs).map fun x => key (H x)).map (·⁻¹)) mb,
        accum ((Oracle.queries enc key H 0 zs).map fun x => key (H x))
          (((Oracle.queries enc key H 0 zs).map L).map fun z => (z.1.1, z.2.1)) ra,
        accum ((Oracle.queries enc key H 0 zs).map fun x => key (H x))
          (((Oracle.queries enc key H 0 zs).map L).map fun z => (f z.1.2.2, f z.2.2.2)) t0) := by
  rw [Oracle.follow_eq]
  set qs := Oracle.queries enc key H 0 zs with hqs
  have hlen : qs.length = zs.length := Oracle.length_queries enc key H zs 0
  have hfold : qs.foldl (fun st x => foldSt st (((L x).1.1, f (L x).1.2.2), ((L x).2.1, f (L x).2.2.2)) (key (H x)))
        ((formalKey n, mb, ra, t0) : St F (Fin n → F) (Fin n → MW) O) =
      (qs.map fun x => ((((L x).1.1, f (L x).1.2.2), ((L x).2.1, f (L x).2.2.2)), key (H x))).foldl
        (fun st p => foldSt st p.1 p.2) (formalKey n, mb, ra, t0) := by
    rw [List.foldl_map]
  rw [hfold, foldl_foldSt _ _ _ _ _ (by simp [formalKey, hlen, hn])]
  simp only [List.map_map, Function.comp_def]
  rw [← foldAll_formalKey _ (by rw [List.length_map, hlen]; exact hn)]

end End

/-! ## The theorem -/

section Static
variable {ρ G1 G2 GT TF : Type} [DecidableEq F] [AddCommGroup G1] [Module F G1]
  [AddCommGroup G2] [Module F G2] [AddCommGroup GT] [Module F GT] [Monoid TF]
  [DecidableEq G1] [DecidableEq GT] {n l : ℕ}

/-- The commitment to a row. -/
abbrev row (w : Fin l → G1) : (Fin l → F) →ₗ[F] G1 := commitTo (LinearMap.lsmul F G1) w

/-- The pairing of the commitment to a row with an element of the outer key. -/
def rowPairing (e : G1 →ₗ[F] G2 →ₗ[F] GT) (w : Fin l → G1) : (Fin l → F) →ₗ[F] G2 →ₗ[F] GT := e ∘ₗ row w

/-- The commitments to inner products of the outer argument are commitments to rows. -/
def rowOutput (w : Fin l → G1) (r : Fin l → F) : IdentityOutput G1 := single (row w r)

/-- What the prover knows about a step of the outer argument: vectors of rows. -/
abbrev Outer (n l : ℕ) (F : Type) := Known n F (Fin l → F) (Fin l → F) × Known n F (Fin l → F) (Fin l → F)

/-- What it knows about a step of the inner argument. -/
abbrev Inner (l : ℕ) (F : Type) := Known l F F F × Known l F F F

/-- A prover with oracle access. Its queries, and what it knows about the commitments it hashes, are computed from
the answers so far; a query may belong to the outer or the inner argument. At the end it outputs a proof (steps in
round order), again with the openings. -/
structure Prover (n l : ℕ) (F : Type) (Xs Ds : Finset Bytes) where
  query : List Ds → Xs
  outerLabel : List Ds → Outer n l F
  innerLabel : List Ds → Inner l F
  outerSteps : List Ds → List (Outer n l F)
  innerSteps : List Ds → List (Inner l F)
  outerBase : List Ds → (Fin l → F) × F
  innerBase : List Ds → F × F
  combined : List Ds → Fin l → F

variable (V : Env ρ F G1 G2 GT TF) (e : G1 →ₗ[F] G2 →ₗ[F] GT) (v : Fin n → G2) (w : Fin l → G1)
  {Xs Ds : Finset Bytes}
  (hm1 : ∀ (k : F) (z : Outer n l F), V.multiexpSsm.hashInput 0 k (coms2 (rowPairing e w) (rowOutput w) v z).1
    (coms2 (F := F) (rowPairing e w) (rowOutput w) v z).2 ∈ Xs)
  (hm2 : ∀ (k : F) (z : Inner l F), V.scalarSsm.hashInput 0 k (coms2 (LinearMap.lsmul F G1) single w z).1
    (coms2 (F := F) (LinearMap.lsmul F G1) single w z).2 ∈ Xs)

/-- The hash input of a round of the outer argument. -/
def outerLink (z : Outer n l F) (k : F) : Xs :=
  ⟨V.multiexpSsm.hashInput 0 k (coms2 (rowPairing e w) (rowOutput w) v z).1
    (coms2 (rowPairing e w) (rowOutput w) v z).2, hm1 k z⟩

/-- The hash input of a round of the inner argument. -/
def innerLink (z : Inner l F) (k : F) : Xs := link V.scalarSsm (LinearMap.lsmul F G1) single w hm2 z k

/-- The queries of prover and verifier. -/
def Prover.all (A : Prover n l F Xs Ds) (Q k : ℕ) : List Ds → Xs :=
  Oracle.withCheck2 A.query Q k A.outerSteps A.innerSteps (outerLink V e v w hm1) (innerLink V w hm2)
    (challengeOf F) 0

/-- The hash inputs of all rounds. -/
def Prover.outerInputs (A : Prover n l F Xs Ds) (Q : ℕ) (H : Xs → Ds) : List Xs :=
  Oracle.queries (outerLink V e v w hm1) (challengeOf F) H 0 (A.outerSteps (Oracle.trace A.query H Q))

def Prover.innerInputs (A : Prover n l F Xs Ds) (Q : ℕ) (H : Xs → Ds) : List Xs :=
  Oracle.queries (innerLink V w hm2) (challengeOf F) H 0 (A.innerSteps (Oracle.trace A.query H Q))

/-- The challenges of all rounds. -/
def Prover.outerChallenges (A : Prover n l F Xs Ds) (Q : ℕ) (H : Xs → Ds) : List F :=
  (A.outerInputs V e v w hm1 Q H).map fun x => challengeOf F (H x)

def Prover.innerChallenges (A : Prover n l F Xs Ds) (Q : ℕ) (H : Xs → Ds) : List F :=
  (A.innerInputs V w hm2 Q H).map fun x => challengeOf F (H x)

/-- What was known about the step commitments when they were first hashed. -/
noncomputable def Prover.outerOpenings (A : Prover n l F Xs Ds) (Q k k' : ℕ) (H : Xs → Ds) : List (Outer n l F) :=
  (A.outerInputs V e v w hm1 Q H).map (Oracle.firstLabel (A.all V e v w hm1 hm2 Q k)
    (Oracle.labels (A.all V e v w hm1 hm2 Q k) Q A.outerSteps (outerLink V e v w hm1) A.outerLabel) H (Q + k + k'))

noncomputable def Prover.innerOpenings (A : Prover n l F Xs Ds) (Q k k' : ℕ) (H : Xs → Ds) : List (Inner l F) :=
  (A.innerInputs V w hm2 Q H).map (Oracle.firstLabel (A.all V e v w hm1 hm2 Q k)
    (Oracle.labels (A.all V e v w hm1 hm2 Q k) Q A.innerSteps (innerLink V w hm2) A.innerLabel) H (Q + k + k'))

/-- The proof. -/
def Prover.proof (A : Prover n l F Xs Ds) (Q : ℕ) (H : Xs → Ds) : TpcProof F G1 GT where
  second := {
    steps := ((A.outerSteps (Oracle.trace A.query H Q)).map (coms2 (rowPairing e w) (rowOutput w) v)).reverse
    base := (row w (A.outerBase (Oracle.trace A.query H Q)).1, (A.outerBase (Oracle.trace A.query H Q)).2) }
  yEvalComm := row w (A.combined (Oracle.trace A.query H Q))
  first := {
    steps := ((A.innerSteps (Oracle.trace A.query H Q)).map (coms2 (LinearMap.lsmul F G1) single w)).reverse
    base := A.innerBase (Oracle.trace A.query H Q) }

/-- Two vectors of rows: the combination of the known openings, and the one the base stands for. -/
noncomputable def Prover.rowsPair (A : Prover n l F Xs Ds) (ra : Fin n → Fin l → F) (Q k k' : ℕ) (H : Xs → Ds) :
    (Fin n → Fin l → F) × (Fin n → Fin l → F) :=
  (accum (A.outerChallenges V e v w hm1 Q H)
      ((A.outerOpenings V e v w hm1 hm2 Q k k' H).map fun z => (z.1.1, z.2.1)) ra,
    fun i => weights ((A.outerChallenges V e v w hm1 Q H).map (·⁻¹)) n i •
      (A.outerBase (Oracle.trace A.query H Q)).1)

/-- Two rows: the claimed combined row with the known openings, and the base times the folded powers of `x`. -/
noncomputable def Prover.combinedPair (A : Prover n l F Xs Ds) (x : F) (Q k k' : ℕ) (H : Xs → Ds) :
    (Fin l → F) × (Fin l → F) :=
  (accum (A.outerChallenges V e v w hm1 Q H)
      ((A.outerOpenings V e v w hm1 hm2 Q k k' H).map fun z => (z.1.2.2, z.2.2.2))
      (A.combined (Oracle.trace A.query H Q)),
    (foldAll ((A.outerChallenges V e v w hm1 Q H).map (·⁻¹)) ((List.range n).map (x ^ ·))).headD 0 •
      (A.outerBase (Oracle.trace A.query H Q)).1)

/-- Two rows: the claimed combined row with the known openings of the inner argument, and the one the base of the
inner argument stands for. -/
noncomputable def Prover.rowPair (A : Prover n l F Xs Ds) (Q k k' : ℕ) (H : Xs → Ds) :
    (Fin l → F) × (Fin l → F) :=
  (accum (A.innerChallenges V w hm2 Q H)
      ((A.innerOpenings V e v w hm1 hm2 Q k k' H).map fun z => (z.1.1, z.2.1))
      (A.combined (Oracle.trace A.query H Q)),
    fun i => weights ((A.innerChallenges V w hm2 Q H).map (·⁻¹)) l i •
      (A.innerBase (Oracle.trace A.query H Q)).1)

/-- The prover found two different vectors of rows, or two different rows, with the same commitment. -/
def Prover.Collides (A : Prover n l F Xs Ds) (ra : Fin n → Fin l → F) (x : F) (Q k k' : ℕ) (H : Xs → Ds) : Prop :=
  Clash (rowPairing e w) v (A.rowsPair V e v w hm1 hm2 ra Q k k' H) ∨
    Clash (LinearMap.lsmul F G1) w (A.combinedPair V e v w hm1 hm2 x Q k k' H) ∨
    Clash (LinearMap.lsmul F G1) w (A.rowPair V e v w hm1 hm2 Q k k' H)

variable {V e v w}

open Classical in
/-- C103: fix keys of lengths `2^k` and `2^k'`, a commitment to rows `ra`, a point and a value that is not the
value of the committed polynomial there. For a prover that knows openings of the commitments it hashes the verifier
accepts, and no collision of the keys is found, for at most `6 N (N + 1) m / |Ds|` of all oracles, where
`N = Q + k + k'` and `m` is the largest number of digests that give the same challenge. -/
theorem C103_static (hE : V.E.Lawful e)
    (hF : Decodable (fun _ => True) V.serF) (hG : Decodable (fun _ => True) V.serG1)
    (hT : Decodable (fun _ => True) V.serGT) (hd : ∀ d ∈ Ds, 16 ≤ d.length) (m : ℕ)
    (hm : ∀ x : F, (Finset.univ.filter fun d : Ds => challengeOf F d = x).card ≤ m) (k k' : ℕ)
    (hn : n = 2 ^ k) (hl : l = 2 ^ k') (com : GT) (ra : Fin n → Fin l → F)
    (hcom : com = ∑ i, e (∑ j, ra i j • w j) (v i)) (x y value : F)
    (hfalse : value ≠ ∑ i, ∑ j, ra i j * x ^ (i : ℕ) * y ^ (j : ℕ)) (A : Prover n l F Xs Ds) (Q : ℕ)
    (hlab1 : ∀ ds z c, A.query ds = outerLink V e v w hm1 z c →
      coms2 (rowPairing e w) (rowOutput w) v (A.outerLabel ds) = coms2 (rowPairing e w) (rowOutput w) v z)
    (hlab2 : ∀ ds z c, A.query ds = innerLink V w hm2 z c →
      coms2 (LinearMap.lsmul F G1) single w (A.innerLabel ds) = coms2 (LinearMap.lsmul F G1) single w z)
    (hs1 : ∀ ds, (A.outerSteps ds).length = k) (hs2 : ∀ ds, (A.innerSteps ds).length = k') :
    (Finset.univ.filter fun H : Xs → Ds =>
      TBivariate.verify { V with digest := Sipp.oracle H } (List.ofFn w, List.ofFn v) com (x, y) value
        (A.proof e v w Q H) = .ok true ∧
      ¬ A.Collides V e v w hm1 hm2 ra x Q k k' H).card * Ds.card ≤
    6 * (Q + k + k') * (Q + k + k' + 1) * m * Ds.card ^ Xs.card := by
  have hTg : Decodable (· ∈ Set.range (rowOutput (F := F) w)) V.multiexpSsm.serT := by
    intro a b s t ha hb h
    obtain ⟨a, rfl⟩ := ha
    obtain ⟨b, rfl⟩ := hb
    exact decodable_single hG _ _ _ _ ⟨_, rfl⟩ ⟨_, rfl⟩ h
  have hTf : Decodable (· ∈ Set.range (single (T := F))) V.scalarSsm.serT := decodable_single hF
  have hinj1 : ∀ (z : Outer n l F) c z' c', outerLink V e v w hm1 z c = outerLink V e v w hm1 z' c' → c = c' := by
    intro z c z' c' h
    have h := congrArg Subtype.val h
    simp only [outerLink, Gipa.hashInput, List.append_assoc] at h
    obtain ⟨-, h⟩ := decodable_nonce _ _ _ _ (by norm_num) (by norm_num) h
    exact (hF _ _ _ _ trivial trivial h).1
  have hinj2 : ∀ (z : Inner l F) c z' c', innerLink V w hm2 z c = innerLink V w hm2 z' c' → c = c' := by
    intro z c z' c' h
    have h := congrArg Subtype.val h
    simp only [innerLink, link, Gipa.hashInput, List.append_assoc] at h
    obtain ⟨-, h⟩ := decodable_nonce _ _ _ _ (by norm_num) (by norm_num) h
    exact (hF _ _ _ _ trivial trivial h).1
  have hm' : ∀ (x : F) (S : Finset Ds), (∀ d ∈ S, challengeOf F d = x) → S.card ≤ m := fun x S hS =>
    (Finset.card_le_card fun d hd => Finset.mem_filter.mpr ⟨Finset.mem_univ _, hS d hd⟩).trans (hm x)
  let px : List F := List.ofFn fun i : Fin n => x ^ (i : ℕ)
  let py : List F := List.ofFn fun i : Fin l => y ^ (i : ℕ)
  let s1 : St F (Fin n → F) (Fin n → Fin l → F) (Fin l → F) := (formalKey n, px, ra, 0)
  let s2 : St F (Fin l → F) (Fin l → F) F := (formalKey l, py, 0, value)
  let doomed := Doomed (smulMap F (Fin l → F)) (formal n) (0 : (Fin l → F) →ₗ[F] _) LinearMap.id
    (mulMap F) (formal l) (LinearMap.id : (Fin l → F) →ₗ[F] _) 0
  have hst : doomed s1 s2 := by
    refine ⟨by simp [s1, px, formalKey], by simp [s2, py, formalKey], ?_⟩
    rintro ⟨u, ⟨a, a1, a2, a3⟩, ⟨b, b1, b2, b3⟩⟩
    have toFn : ∀ {M : Type} {n : ℕ} (a : List M), a.length = n → ∃ a' : Fin n → M, a = List.ofFn a' := by
      intro M n a ha
      subst ha
      exact ⟨a.get, (List.ofFn_get a).symm⟩
    obtain ⟨a, rfl⟩ := toFn (n := n) a (a1.trans (by simp [s1, formalKey]))
    obtain ⟨b, rfl⟩ := toFn (n := l) b (b1.trans (by simp [s2, formalKey]))
    simp only [s1, s2, px, py, dot_formalKey, LinearMap.zero_apply, LinearMap.id_apply, add_zero,
      zero_add] at a2 a3 b2 b3
    rw [dot_ofFn] at a3 b3
    subst a2 b2
    refine hfalse (b3.trans ?_)
    rw [a3, Finset.sum_comm]
    refine Finset.sum_congr rfl fun j _ => ?_
    rw [mulMap_apply, Finset.sum_apply, Finset.sum_mul]
    refine Finset.sum_congr rfl fun i _ => ?_
    simp [mul_comm]
  have c1 : Fintype.card Ds = Ds.card := Fintype.card_coe Ds
  have c2 : Fintype.card (Xs → Ds) = Ds.card ^ Xs.card := by
    rw [Fintype.card_fun, Fintype.card_coe, Fintype.card_coe]
  rw [← c2, ← c1]
  refine Nat.le_of_mul_le_mul_left (c := 2) ?_ (by norm_num)
  refine le_trans (Oracle.count_static2 A.query Q k A.outerSteps A.innerSteps (outerLink V e v w hm1)
    (innerLink V w hm2) (challengeOf F) 0 A.outerLabel s1
    (fun st z d => foldSt st ((z.1.1, id z.1.2.2), (z.2.1, id z.2.2.2)) (challengeOf F d)) A.innerLabel s2
    (fun st z d => foldSt st ((z.1.1, id z.1.2.2), (z.2.1, id z.2.2.2)) (challengeOf F d)) doomed hinj1 hinj2 m
    (3 * m) hm' (fun t1 t2 z1 z2 b1 b2 _ ht S hS => escape_le (challengeOf F) m hm' t1 t2 _ _ b1 b2 ht S hS)
    hst k' (fun ds => (hs1 ds).le) (fun ds => (hs2 ds).le) _ ?_) (le_of_eq (by ring))
  intro H hH
  obtain ⟨-, hacc, hcol⟩ := Finset.mem_filter.mp hH
  rintro ⟨hdm, hne1, hne2⟩
  set V' : Env ρ F G1 G2 GT TF := { V with digest := Sipp.oracle H } with hV'
  obtain ⟨acc1, acc2⟩ := (TBivariate.C78_both (V := V') _ _ _ _ _).mp hacc
  -- the openings
  obtain ⟨ask1, ask2⟩ := Oracle.output_asked2 A.query Q k A.outerSteps A.innerSteps (outerLink V e v w hm1)
    (innerLink V w hm2) (challengeOf F) 0 k' H (fun ds => (hs1 ds).le) (fun ds => (hs2 ds).le)
  have htr : Oracle.trace (A.all V e v w hm1 hm2 Q k) H Q = Oracle.trace A.query H Q :=
    Oracle.trace_withCheck2 A.query Q k A.outerSteps A.innerSteps (outerLink V e v w hm1) (innerLink V w hm2)
      (challengeOf F) 0 H
  have hlt : ∀ ds, ds.length < Q → A.all V e v w hm1 hm2 Q k ds = A.query ds :=
    Oracle.withCheck2_lt A.query Q k A.outerSteps A.innerSteps (outerLink V e v w hm1) (innerLink V w hm2)
      (challengeOf F) 0
  set zs1 := A.outerSteps (Oracle.trace A.query H Q) with hzs1
  set zs2 := A.innerSteps (Oracle.trace A.query H Q) with hzs2
  have ops1 : (A.outerOpenings V e v w hm1 hm2 Q k k' H).map (coms2 (rowPairing e w) (rowOutput w) v) =
      zs1.map (coms2 (rowPairing e w) (rowOutput w) v) := by
    rw [Prover.outerOpenings, List.map_map]
    refine Oracle.map_queries (outerLink V e v w hm1) (challengeOf F) (coms2 (rowPairing e w) (rowOutput w) v) _
      (fun x => ∃ i < Q + k + k', Oracle.asked (A.all V e v w hm1 hm2 Q k) H i = x) H zs1 0 ?_ ask1
    intro z hz c hx
    refine Oracle.label_rel2 A.query Q _ A.outerSteps (outerLink V e v w hm1) A.outerLabel hlt
      (fun z z' => coms2 (rowPairing e w) (rowOutput w) v z = coms2 (rowPairing e w) (rowOutput w) v z') z c
      (fun ds h => hlab1 ds z c h) ?_ H _ (by rw [htr]; exact hz) hx
    intro ds z' hz' c' h
    obtain ⟨-, -, g1, g2⟩ := Gipa.C23_hash_input_injective (P := V.multiexpSsm) hF hT hF hTg 0 0 (by norm_num)
      (by norm_num) _ _ trivial trivial _ _ _ _ (by simp [coms2, coms]) (congrArg Subtype.val h)
    exact Prod.ext g1 g2
  have ops2 : (A.innerOpenings V e v w hm1 hm2 Q k k' H).map (coms2 (LinearMap.lsmul F G1) single w) =
      zs2.map (coms2 (LinearMap.lsmul F G1) single w) := by
    rw [Prover.innerOpenings, List.map_map]
    refine Oracle.map_queries (innerLink V w hm2) (challengeOf F) (coms2 (LinearMap.lsmul F G1) single w) _
      (fun x => ∃ i < Q + k + k', Oracle.asked (A.all V e v w hm1 hm2 Q k) H i = x) H zs2 0 ?_ ask2
    intro z hz c hx
    refine Oracle.label_rel2 A.query Q _ A.innerSteps (innerLink V w hm2) A.innerLabel hlt
      (fun z z' => coms2 (LinearMap.lsmul F G1) single w z = coms2 (LinearMap.lsmul F G1) single w z') z c
      (fun ds h => hlab2 ds z c h) ?_ H _ (by rw [htr]; exact hz) hx
    intro ds z' hz' c' h
    obtain ⟨-, -, g1, g2⟩ := Gipa.C23_hash_input_injective (P := V.scalarSsm) hF hG hF hTf 0 0 (by norm_num)
      (by norm_num) _ _ trivial trivial _ _ _ _ (by simp [coms2, coms]) (congrArg Subtype.val h)
    exact Prod.ext g1 g2
  have len1 : (A.outerChallenges V e v w hm1 Q H).length = k := by
    rw [Prover.outerChallenges, List.length_map, Prover.outerInputs, Oracle.length_queries, hs1]
  have len2 : (A.innerChallenges V w hm2 Q H).length = k' := by
    rw [Prover.innerChallenges, List.length_map, Prover.innerInputs, Oracle.length_queries, hs2]
  -- both arguments as runs
  have hcom' : com = commitTo (rowPairing e w) v ra := hcom
  have run1 : Run (smulMap F G1) e (idψ PUnit.unit) (List.ofFn v) ((List.range n).map (x ^ ·))
      (commitTo (rowPairing e w) v ra, ⟨[(A.proof e v w Q H).yEvalComm]⟩) (A.outerChallenges V e v w hm1 Q H)
      (outer (zs1.map (coms2 (rowPairing e w) (rowOutput w) v))) (A.proof e v w Q H).second.base.1 := by
    obtain ⟨com1, hrec⟩ := recLoop_chain' (P := V.multiexpSsm) (coms2 (rowPairing e w) (rowOutput w) v)
      (outerLink V e v w hm1) (fun _ _ => rfl) hd H zs1 0 []
      (com, 0, ⟨[(A.proof e v w Q H).yEvalComm]⟩) rfl hne1
    have hlen : (A.proof e v w Q H).second.steps.length = k := by simp [Prover.proof, hs1]
    obtain ⟨cs, com2, hrc, hrun⟩ := C71_gipa_run (multiexpSsm_lawful V' hE) V'.X _ PUnit.unit com _ x _
      (by rw [hlen, List.length_ofFn, hn]) acc1
    have hcs : cs = A.outerChallenges V e v w hm1 Q H := by
      rw [Gipa.recursiveChallenges, Prover.proof, List.reverse_reverse] at hrc
      erw [hrec] at hrc
      have := congrArg Prod.snd (Except.ok.inj hrc)
      exact (List.reverse_injective this).symm
    subst hcs
    rw [hlen, ← hn, hcom', Prover.proof, List.reverse_reverse] at hrun
    exact hrun
  have run2 : Run (mulMap F) (LinearMap.lsmul F G1) (idψ PUnit.unit) (List.ofFn w) ((List.range l).map (y ^ ·))
      (commitTo (LinearMap.lsmul F G1) w (A.combined (Oracle.trace A.query H Q)), ⟨[value]⟩)
      (A.innerChallenges V w hm2 Q H)
      (outer (zs2.map (coms2 (LinearMap.lsmul F G1) single w))) (A.proof e v w Q H).first.base.1 := by
    obtain ⟨com1, hrec⟩ := recLoop_chain' (P := V.scalarSsm) (coms2 (LinearMap.lsmul F G1) single w)
      (innerLink V w hm2) (fun _ _ => rfl) hd H zs2 0 []
      ((A.proof e v w Q H).yEvalComm, 0, ⟨[value]⟩) rfl hne2
    have hlen : (A.proof e v w Q H).first.steps.length = k' := by simp [Prover.proof, hs2]
    obtain ⟨cs, com2, hrc, hrun⟩ := C71_gipa_run (scalarSsm_lawful V') V'.X _ PUnit.unit _ _ y _
      (by rw [hlen, List.length_ofFn, hl]) acc2
    have hcs : cs = A.innerChallenges V w hm2 Q H := by
      rw [Gipa.recursiveChallenges, Prover.proof, List.reverse_reverse] at hrc
      erw [hrec] at hrc
      have := congrArg Prod.snd (Except.ok.inj hrc)
      exact (List.reverse_injective this).symm
    subst hcs
    rw [hlen, ← hl, Prover.proof, List.reverse_reverse] at hrun
    exact hrun
  obtain ⟨x', f1, g1, t1⟩ := run_eqs (rowPairing e w) (rowOutput w) v _ ra _ _ (by rw [len1, hn]) zs1 _ ops1 _ run1
  obtain ⟨y', f2, g2, t2⟩ := run_eqs (LinearMap.lsmul F G1) single w _ _ _ _ (by rw [len2, hl]) zs2 _ ops2 _ run2
  have hpx : px = (List.range n).map (x ^ ·) := by apply List.ext_getElem <;> simp [px]
  have hpy : py = (List.range l).map (y ^ ·) := by apply List.ext_getElem <;> simp [py]
  obtain ⟨-, -, hno⟩ := hdm
  refine hno ⟨A.combined (Oracle.trace A.query H Q), ?_, ?_⟩
  · rw [follow_end _ _ _ _ _ _ _ _ _ (by rw [hs1]; exact hn), hpx]
    change Opens _ _ _ _ _ ([weights ((A.outerChallenges V e v w hm1 Q H).map (·⁻¹)) n],
      foldAll ((A.outerChallenges V e v w hm1 Q H).map (·⁻¹)) _,
      accum (A.outerChallenges V e v w hm1 Q H)
        ((A.outerOpenings V e v w hm1 hm2 Q k k' H).map fun z => (z.1.1, z.2.1)) ra,
      accum (A.outerChallenges V e v w hm1 Q H)
        ((A.outerOpenings V e v w hm1 hm2 Q k k' H).map fun z => (z.1.2.2, z.2.2.2)) 0)
    rw [f1]
    refine ⟨[(A.outerBase (Oracle.trace A.query H Q)).1], rfl, ?_, ?_⟩
    · by_contra hcon
      refine hcol (Or.inl ⟨fun h => hcon ?_, ?_⟩)
      · change accum _ _ _ + 0 = _
        rw [add_zero]
        refine h.trans ?_
        simp [formal]; rfl
      · refine g1.trans ?_
        exact (commitTo_formal (rowPairing e w) v (A.outerBase (Oracle.trace A.query H Q)).1 _).symm
    · change accum _ _ 0 + A.combined (Oracle.trace A.query H Q) = dot _ [_] [x']
      rw [accum_add, zero_add]
      by_contra hcon
      refine hcol (Or.inr (Or.inl ⟨fun h => hcon ?_, ?_⟩))
      · refine h.trans ?_
        rw [Prover.combinedPair, f1]
        simp
      · rw [Prover.combinedPair, f1]
        have : accum (A.outerChallenges V e v w hm1 Q H)
            (((A.outerOpenings V e v w hm1 hm2 Q k k' H).map fun z => (row w z.1.2.2, row w z.2.2.2)).map
              fun s => (single s.1, single s.2)) (single (row w (A.combined (Oracle.trace A.query H Q)))) =
            single (x' • row w (A.outerBase (Oracle.trace A.query H Q)).1) := by
          rw [List.map_map]; exact t1
        rw [accum_single] at this
        have := congrArg IdentityOutput.vals this
        simp only [single, List.cons.injEq, and_true] at this
        change row w (accum _ _ _) = row w (_ • _)
        rw [map_accum, map_smul, List.map_map]
        exact this
  · rw [follow_end _ _ _ _ _ _ _ _ _ (by rw [hs2]; exact hl), hpy]
    change Opens _ _ _ _ _ ([weights ((A.innerChallenges V w hm2 Q H).map (·⁻¹)) l],
      foldAll ((A.innerChallenges V w hm2 Q H).map (·⁻¹)) _,
      accum (A.innerChallenges V w hm2 Q H)
        ((A.innerOpenings V e v w hm1 hm2 Q k k' H).map fun z => (z.1.1, z.2.1)) 0,
      accum (A.innerChallenges V w hm2 Q H)
        ((A.innerOpenings V e v w hm1 hm2 Q k k' H).map fun z => (z.1.2.2, z.2.2.2)) value)
    rw [f2]
    refine ⟨[(A.innerBase (Oracle.trace A.query H Q)).1], rfl, ?_, ?_⟩
    · change accum _ _ 0 + A.combined (Oracle.trace A.query H Q) = _
      rw [accum_add, zero_add]
      by_contra hcon
      refine hcol (Or.inr (Or.inr ⟨fun h => hcon ?_, ?_⟩))
      · refine h.trans ?_
        simp [formal]; rfl
      · refine g2.trans ?_
        exact (commitTo_formal (LinearMap.lsmul F G1) w (A.innerBase (Oracle.trace A.query H Q)).1 _).symm
    · change accum _ _ value + 0 = dot _ [_] [y']
      have : accum (A.innerChallenges V w hm2 Q H)
          (((A.innerOpenings V e v w hm1 hm2 Q k k' H).map fun z => (z.1.2.2, z.2.2.2)).map
            fun s => (single s.1, single s.2)) (single value) =
          single ((A.innerBase (Oracle.trace A.query H Q)).1 * y') := by
        rw [List.map_map]; exact t2
      rw [accum_single] at this
      have := congrArg IdentityOutput.vals this
      simp only [single, List.cons.injEq, and_true] at this
      rw [add_zero, this]
      simp

open Classical in
/-- With keys that commit to every row and every vector of rows uniquely no collision exists. -/
theorem C103_binding (hE : V.E.Lawful e)
    (hF : Decodable (fun _ => True) V.serF) (hG : Decodable (fun _ => True) V.serG1)
    (hT : Decodable (fun _ => True) V.serGT) (hd : ∀ d ∈ Ds, 16 ≤ d.length) (m : ℕ)
    (hm : ∀ x : F, (Finset.univ.filter fun d : Ds => challengeOf F d = x).card ≤ m) (k k' : ℕ)
    (hn : n = 2 ^ k) (hl : l = 2 ^ k')
    (b1 : Function.Injective fun r : Fin l → F => ∑ j, r j • w j)
    (b2 : Function.Injective fun r : Fin n → Fin l → F => ∑ i, e (∑ j, r i j • w j) (v i))
    (com : GT) (ra : Fin n → Fin l → F) (hcom : com = ∑ i, e (∑ j, ra i j • w j) (v i)) (x y value : F)
    (hfalse : value ≠ ∑ i, ∑ j, ra i j * x ^ (i : ℕ) * y ^ (j : ℕ)) (A : Prover n l F Xs Ds) (Q : ℕ)
    (hlab1 : ∀ ds z c, A.query ds = outerLink V e v w hm1 z c →
      coms2 (rowPairing e w) (rowOutput w) v (A.outerLabel ds) = coms2 (rowPairing e w) (rowOutput w) v z)
    (hlab2 : ∀ ds z c, A.query ds = innerLink V w hm2 z c →
      coms2 (LinearMap.lsmul F G1) single w (A.innerLabel ds) = coms2 (LinearMap.lsmul F G1) single w z)
    (hs1 : ∀ ds, (A.outerSteps ds).length = k) (hs2 : ∀ ds, (A.innerSteps ds).length = k') :
    (Finset.univ.filter fun H : Xs → Ds =>
      TBivariate.verify { V with digest := Sipp.oracle H } (List.ofFn w, List.ofFn v) com (x, y) value
        (A.proof e v w Q H) = .ok true).card * Ds.card ≤
    6 * (Q + k + k') * (Q + k + k' + 1) * m * Ds.card ^ Xs.card := by
  refine le_trans (Nat.mul_le_mul_right _ (Finset.card_le_card fun H hH => ?_))
    (C103_static hm1 hm2 hE hF hG hT hd m hm k k' hn hl com ra hcom x y value hfalse A Q hlab1 hlab2 hs1 hs2)
  obtain ⟨-, h⟩ := Finset.mem_filter.mp hH
  refine Finset.mem_filter.mpr ⟨Finset.mem_univ _, h, ?_⟩
  rintro (h | h | h)
  · exact h.1 (b2 h.2)
  · exact h.1 (b1 h.2)
  · exact h.1 (b1 h.2)

/-- The value of a polynomial, by rows of `l` coefficients. -/
theorem evalAt_rows (p : List F) (hp : p.length ≤ n * l) (z : F) :
    evalAt p z = ∑ i : Fin n, ∑ j : Fin l, p.getD (i * l + j) 0 * (z ^ l) ^ (i : ℕ) * z ^ (j : ℕ) := by
  have h1 : evalAt p z = ∑ t ∈ Finset.range p.length, p.getD t 0 * z ^ t := by
    have : evalAt p z = dot (mulMap F · ·) (List.ofFn p.get) (List.ofFn fun t : Fin p.length => z ^ (t : ℕ)) := by
      rw [List.ofFn_get, evalAt]
      congr 1
      apply List.ext_getElem <;> simp [powers]
    rw [this, dot_ofFn, Finset.sum_range]
    exact Finset.sum_congr rfl fun t _ => by simp
  have h2 : ∑ t ∈ Finset.range p.length, p.getD t 0 * z ^ t = ∑ t ∈ Finset.range (n * l), p.getD t 0 * z ^ t := by
    refine Finset.sum_subset (Finset.range_subset_range.mpr hp) fun t _ ht => ?_
    simp only [Finset.mem_range, not_lt] at ht
    simp [List.getD_eq_getElem?_getD, ht]
  rw [h1, h2, Finset.sum_range, ← finProdFinEquiv.sum_comp, Fintype.sum_prod_type]
  refine Finset.sum_congr rfl fun i _ => Finset.sum_congr rfl fun j _ => ?_
  have : ((finProdFinEquiv (i, j) : Fin (n * l)) : ℕ) = i * l + j := by simp [mul_comm, add_comm]
  rw [this, pow_add, mul_comm (i : ℕ) l, pow_mul]
  ring

open Classical in
/-- C103 for the transparent univariate scheme: the commitment is the one `commit` computes for `p`, and the value
is not `p(z)`. -/
theorem C103_univariate (hE : V.E.Lawful e)
    (hF : Decodable (fun _ => True) V.serF) (hG : Decodable (fun _ => True) V.serG1)
    (hT : Decodable (fun _ => True) V.serGT) (hd : ∀ d ∈ Ds, 16 ≤ d.length) (m : ℕ)
    (hm : ∀ x : F, (Finset.univ.filter fun d : Ds => challengeOf F d = x).card ≤ m) (k k' : ℕ)
    (hn : n = 2 ^ k) (hl : l = 2 ^ k') (p : List F) (hp : p.length ≤ n * l) (com : GT) (coms : List G1)
    (hcom : TUnivariate.commit V (List.ofFn w, List.ofFn v) p = .ok (com, coms)) (z value : F)
    (hfalse : value ≠ evalAt p z) (A : Prover n l F Xs Ds) (Q : ℕ)
    (hlab1 : ∀ ds z c, A.query ds = outerLink V e v w hm1 z c →
      coms2 (rowPairing e w) (rowOutput w) v (A.outerLabel ds) = coms2 (rowPairing e w) (rowOutput w) v z)
    (hlab2 : ∀ ds z c, A.query ds = innerLink V w hm2 z c →
      coms2 (LinearMap.lsmul F G1) single w (A.innerLabel ds) = coms2 (LinearMap.lsmul F G1) single w z)
    (hs1 : ∀ ds, (A.outerSteps ds).length = k) (hs2 : ∀ ds, (A.innerSteps ds).length = k') :
    (Finset.univ.filter fun H : Xs → Ds =>
      TUnivariate.verify { V with digest := Sipp.oracle H } (List.ofFn w, List.ofFn v) com z value
        (A.proof e v w Q H) = .ok true ∧
      ¬ A.Collides V e v w hm1 hm2 (fun i j => p.getD (i * l + j) 0) (z ^ l) Q k k' H).card * Ds.card ≤
    6 * (Q + k + k') * (Q + k + k' + 1) * m * Ds.card ^ Xs.card := by
  have hw : List.ofFn w ≠ [] := by
    intro h; have := congrArg List.length h; rw [List.length_ofFn, hl] at this; simp at this
  have hv : List.ofFn v ≠ [] := by
    intro h; have := congrArg List.length h; rw [List.length_ofFn, hn] at this; simp at this
  have hc : com = ∑ i : Fin n, e (∑ j : Fin l, p.getD (i * l + j) 0 • w j) (v i) := by
    rw [TUnivariate.C102_commit_value V hE _ hw hv] at hcom
    have := congrArg Prod.fst (Except.ok.inj hcom)
    refine this.symm.trans ?_
    have hrows : rowSums (List.ofFn w) (List.ofFn v).length p =
        List.ofFn fun i : Fin n => ∑ j : Fin l, p.getD (i * l + j) 0 • w j := by
      apply List.ext_getElem
      · simp [rowSums]
      · intro i h1 h2
        rw [List.getElem_ofFn]
        simp only [rowSums, List.getElem_map, List.getElem_range]
        have : coeffRow p (List.ofFn w).length i = List.ofFn fun j : Fin l => p.getD (i * l + j) 0 := by
          apply List.ext_getElem <;> simp [coeffRow]
        rw [this]
        exact dot_ofFn (LinearMap.lsmul F G1) _ w
    rw [hrows]
    exact dot_ofFn e _ v
  refine le_trans (Nat.mul_le_mul_right _ (Finset.card_le_card fun H hH => ?_))
    (C103_static hm1 hm2 hE hF hG hT hd m hm k k' hn hl com _ hc (z ^ l) z value
      (by rw [evalAt_rows p hp] at hfalse; exact hfalse) A Q hlab1 hlab2 hs1 hs2)
  obtain ⟨-, h, h'⟩ := Finset.mem_filter.mp hH
  refine Finset.mem_filter.mpr ⟨Finset.mem_univ _, ?_, h'⟩
  rw [TUnivariate.C78_point _ hw hv, List.length_ofFn] at h
  exact h

end Static

/-! ## An instance: four coefficients over the field with 101 elements -/

section Example
open Toy
open GipaStatic (exampleDigests card_exampleDigests exampleDigests_key exampleKey decodable_ser decodable_pair)

/-- Rows are committed to by themselves, vectors of rows by matrices. -/
abbrev Mat := Fin 2 → Fin 2 → Toy.F

/-- The matrix of products. -/
def exampleE : (Fin 2 → Toy.F) →ₗ[Toy.F] (Fin 2 → Toy.F) →ₗ[Toy.F] Mat :=
  LinearMap.mk₂ Toy.F (fun r s i j => s i * r j)
    (fun _ _ _ => by funext i j; simp [mul_add]) (fun _ _ _ => by funext i j; simp [mul_left_comm])
    (fun _ _ _ => by funext i j; simp [add_mul]) (fun _ _ _ => by funext i j; simp [mul_assoc])

/-- The parameters. -/
def exampleEnv : Env ℕ Toy.F (Fin 2 → Toy.F) (Fin 2 → Toy.F) Mat (Multiplicative Mat) where
  E := ⟨fun r s => .ofAdd (exampleE r s), fun t => some t.toAdd⟩
  X := Toy.X
  digest := Toy.digest
  fromRandomBytes bs := bs.getLast?.map fun b => (b.toNat : Toy.F)
  serF := Toy.ser
  serG1 r := Toy.ser (r 0) ++ Toy.ser (r 1)
  serG2 r := Toy.ser (r 0) ++ Toy.ser (r 1)
  serGT m := (Toy.ser (m 0 0) ++ Toy.ser (m 0 1)) ++ (Toy.ser (m 1 0) ++ Toy.ser (m 1 1))
  randF := Toy.rand
  randG1 s := (fun _ => s, s + 1)
  randG2 s := (fun _ => s, s + 1)
  g := exampleKey 0
  h := exampleKey 0

theorem exampleEnv_lawful : exampleEnv.E.Lawful (F := Toy.F) exampleE where
  finalExp_one := rfl
  finalExp_miller _ _ := rfl
  finalExp_mul x y u v hx hy := by
    simp only [exampleEnv, Option.some.injEq] at hx hy ⊢
    rw [← hx, ← hy]; rfl

theorem decodable_mat : Decodable (fun _ => True) exampleEnv.serGT :=
  .of_fixed 4 (fun _ _ => rfl) fun x y _ _ h => by
    obtain ⟨h1, h2⟩ := List.append_inj h rfl
    have g1 := decodable_pair (x 0) (y 0) [] [] trivial trivial (congrArg (· ++ []) h1)
    have g2 := decodable_pair (x 1) (y 1) [] [] trivial trivial (congrArg (· ++ []) h2)
    funext i
    fin_cases i
    · exact g1.1
    · exact g2.1

theorem example_row (r : Fin 2 → Toy.F) : ∑ j, r j • exampleKey j = r := by
  funext i
  fin_cases i <;> simp [exampleKey, Pi.single_apply]

theorem example_rows (r : Mat) : ∑ i, exampleE (∑ j, r i j • exampleKey j) (exampleKey i) = r := by
  funext i j
  simp only [example_row]
  fin_cases i <;> simp [exampleE, exampleKey, Pi.single_apply]

/-- The hash inputs of both arguments. -/
noncomputable def exampleInputs : Finset Bytes :=
  (Set.finite_range fun p : Toy.F × Outer 2 2 Toy.F =>
    exampleEnv.multiexpSsm.hashInput 0 p.1
      (coms2 (F := Toy.F) (rowPairing exampleE exampleKey) (rowOutput exampleKey) exampleKey p.2).1
      (coms2 (F := Toy.F) (rowPairing exampleE exampleKey) (rowOutput exampleKey) exampleKey p.2).2).toFinset ∪
  (Set.finite_range fun p : Toy.F × Inner 2 Toy.F =>
    exampleEnv.scalarSsm.hashInput 0 p.1
      (coms2 (F := Toy.F) (LinearMap.lsmul Toy.F (Fin 2 → Toy.F)) single exampleKey p.2).1
      (coms2 (F := Toy.F) (LinearMap.lsmul Toy.F (Fin 2 → Toy.F)) single exampleKey p.2).2).toFinset

theorem exampleOuter_mem (k : Toy.F) (z : Outer 2 2 Toy.F) :
    exampleEnv.multiexpSsm.hashInput 0 k
      (coms2 (F := Toy.F) (rowPairing exampleE exampleKey) (rowOutput exampleKey) exampleKey z).1
      (coms2 (F := Toy.F) (rowPairing exampleE exampleKey) (rowOutput exampleKey) exampleKey z).2 ∈ exampleInputs :=
  Finset.mem_union_left _ ((Set.Finite.mem_toFinset _).mpr ⟨(k, z), rfl⟩)

theorem exampleInner_mem (k : Toy.F) (z : Inner 2 Toy.F) :
    exampleEnv.scalarSsm.hashInput 0 k
      (coms2 (F := Toy.F) (LinearMap.lsmul Toy.F (Fin 2 → Toy.F)) single exampleKey z).1
      (coms2 (F := Toy.F) (LinearMap.lsmul Toy.F (Fin 2 → Toy.F)) single exampleKey z).2 ∈ exampleInputs :=
  Finset.mem_union_right _ ((Set.Finite.mem_toFinset _).mpr ⟨(k, z), rfl⟩)

/-- The commitments determine what the prover knows. -/
theorem exampleOuter_inj {z z' : Outer 2 2 Toy.F}
    (h : coms2 (F := Toy.F) (rowPairing exampleE exampleKey) (rowOutput exampleKey) exampleKey z =
      coms2 (rowPairing exampleE exampleKey) (rowOutput exampleKey) exampleKey z') : z = z' := by
  have c1 : ∀ r : Mat, commitTo (rowPairing exampleE exampleKey) exampleKey r = r := example_rows
  have c2 : ∀ r : Fin 2 → Toy.F, commitTo (LinearMap.lsmul Toy.F (Fin 2 → Toy.F)) exampleKey r = r := example_row
  simp only [coms2, coms, c1, rowOutput, row, c2, single, Prod.mk.injEq, IdentityOutput.mk.injEq,
    List.cons.injEq, and_true] at h
  exact Prod.ext (Prod.ext h.1.1 (Prod.ext h.1.2.1 h.1.2.2)) (Prod.ext h.2.1 (Prod.ext h.2.2.1 h.2.2.2))

theorem exampleInner_inj {z z' : Inner 2 Toy.F}
    (h : coms2 (F := Toy.F) (LinearMap.lsmul Toy.F (Fin 2 → Toy.F)) single exampleKey z =
      coms2 (LinearMap.lsmul Toy.F (Fin 2 → Toy.F)) single exampleKey z') : z = z' := by
  have c2 : ∀ r : Fin 2 → Toy.F, commitTo (LinearMap.lsmul Toy.F (Fin 2 → Toy.F)) exampleKey r = r := example_row
  simp only [coms2, coms, c2, single, Prod.mk.injEq, IdentityOutput.mk.injEq,
    List.cons.injEq, and_true] at h
  exact Prod.ext (Prod.ext h.1.1 (Prod.ext h.1.2.1 h.1.2.2)) (Prod.ext h.2.1 (Prod.ext h.2.2.1 h.2.2.2))

open Classical in
/-- `1 + 2 y + 3 x + 4 x y` is 82 at `(5, 3)`. A prover with one query makes the verifier accept 83 for at most 72
in 101 of all oracles. -/
example (A : Prover 2 2 Toy.F exampleInputs exampleDigests)
    (hlab1 : ∀ ds z c, A.query ds = outerLink exampleEnv exampleE exampleKey exampleKey exampleOuter_mem z c →
      A.outerLabel ds = z)
    (hlab2 : ∀ ds z c, A.query ds = innerLink exampleEnv exampleKey exampleInner_mem z c → A.innerLabel ds = z)
    (hs1 : ∀ ds, (A.outerSteps ds).length = 1) (hs2 : ∀ ds, (A.innerSteps ds).length = 1) :
    (Finset.univ.filter fun H : exampleInputs → exampleDigests =>
      TBivariate.verify { exampleEnv with digest := Sipp.oracle H } (List.ofFn exampleKey, List.ofFn exampleKey)
        ![![1, 2], ![3, 4]] (5, 3) 83 (A.proof exampleE exampleKey exampleKey 1 H) = .ok true).card * 101 ≤
    72 * 101 ^ exampleInputs.card := by
  have := C103_binding (V := exampleEnv) (e := exampleE) (v := exampleKey) (w := exampleKey) (Xs := exampleInputs)
    (Ds := exampleDigests) exampleOuter_mem exampleInner_mem exampleEnv_lawful decodable_ser decodable_pair
    decodable_mat
    (by
      intro d hd
      obtain ⟨x, -, rfl⟩ := Finset.mem_image.mp hd
      simp [Toy.ser]) 1
    (fun x => Finset.card_le_one.mpr fun d hd d' hd' => exampleDigests_key d d'
      ((Finset.mem_filter.mp hd).2.trans (Finset.mem_filter.mp hd').2.symm)) 1 1 rfl rfl
    (fun r s h => by simpa only [example_row] using h) (fun r s h => by simpa only [example_rows] using h)
    ![![1, 2], ![3, 4]] ![![1, 2], ![3, 4]] (example_rows _).symm 5 3 83 (by decide +kernel) A 1
    (fun ds z c h => by rw [hlab1 ds z c h]) (fun ds z c h => by rw [hlab2 ds z c h]) hs1 hs2
  rw [card_exampleDigests, show 6 * (1 + 1 + 1) * (1 + 1 + 1 + 1) * 1 = 72 from rfl] at this
  exact this

/-- Such a prover. -/
noncomputable def exampleProver : Prover 2 2 Toy.F exampleInputs exampleDigests where
  query _ := outerLink exampleEnv exampleE exampleKey exampleKey exampleOuter_mem
    ((![![1, 2], ![3, 4]], 0, ![5, 6]), (![![7, 8], ![9, 1]], 2, ![3, 4])) 0
  outerLabel _ := ((![![1, 2], ![3, 4]], 0, ![5, 6]), (![![7, 8], ![9, 1]], 2, ![3, 4]))
  innerLabel _ := ((![1, 2], 0, 5), (![3, 4], 1, 6))
  outerSteps _ := [((![![1, 2], ![3, 4]], 0, ![5, 6]), (![![7, 8], ![9, 1]], 2, ![3, 4]))]
  innerSteps _ := [((![1, 2], 0, 5), (![3, 4], 1, 6))]
  outerBase _ := (![1, 2], 3)
  innerBase _ := (1, 2)
  combined _ := ![7, 9]

example : (∀ ds z c,
      exampleProver.query ds = outerLink exampleEnv exampleE exampleKey exampleKey exampleOuter_mem z c →
      exampleProver.outerLabel ds = z) ∧
    (∀ ds z c, exampleProver.query ds = innerLink exampleEnv exampleKey exampleInner_mem z c →
      exampleProver.innerLabel ds = z) ∧
    (∀ ds, (exampleProver.outerSteps ds).length = 1) ∧ ∀ ds, (exampleProver.innerSteps ds).length = 1 := by
  refine ⟨fun ds z c h => ?_, fun ds z c h => ?_, fun _ => rfl, fun _ => rfl⟩
  · have hTg : Decodable (· ∈ Set.range (rowOutput (F := Toy.F) exampleKey)) exampleEnv.multiexpSsm.serT := by
      intro a b s t ha hb h
      obtain ⟨a, rfl⟩ := ha
      obtain ⟨b, rfl⟩ := hb
      exact decodable_single decodable_pair _ _ _ _ ⟨_, rfl⟩ ⟨_, rfl⟩ h
    obtain ⟨-, -, g1, g2⟩ := Gipa.C23_hash_input_injective (P := exampleEnv.multiexpSsm) decodable_ser decodable_mat
      decodable_ser hTg 0 0 (by norm_num) (by norm_num) _ _ trivial trivial _ _ _ _ (by simp [coms2, coms])
      (congrArg Subtype.val h)
    exact exampleOuter_inj (Prod.ext g1 g2)
  · have := congrArg (fun b => List.length b.1) h
    simp [exampleProver, outerLink, innerLink, link, coms2, coms, Gipa.hashInput, Env.multiexpSsm, Env.scalarSsm,
      exampleEnv, Toy.ser, nonceBytes, leBytes, rowOutput, single, serIdentity, serSeq, ssmGipa] at this

end Example

end Ripp.PolyStatic
