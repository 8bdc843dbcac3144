import Verif.Props.GipaStatic
import Verif.Props.SsmExtract

/-!
# C87: the structured-message argument in the random oracle model, for a statement fixed before the oracle

As C84 for `GIPAWithSSM`. The right message is public, so that three challenges per round suffice.
-/

set_option linter.unusedSectionVars false
set_option linter.unusedVariables false

namespace Ripp.SsmStatic

open Spec Extract GipaStatic SsmExtract

variable {ρ F MA T KA KT OA OT RT O : Type} [Field F]
  [AddCommGroup MA] [Module F MA] [AddCommGroup T] [Module F T] [AddCommGroup KA] [Module F KA]
  [AddCommGroup OA] [Module F OA] [Add OT] [SMul F OT] [AddCommGroup O] [Module F O]

section Chain
variable (bil : MA →ₗ[F] F →ₗ[F] T) (φ : MA →ₗ[F] KA →ₗ[F] OA) (η : OT → Option O) (ψ' : T →ₗ[F] O)

/-- The key, the public message, the commitments. -/
abbrev St (F KA OA OT : Type) := List KA × List F × OA × OT

/-- The commitment has an opening with the committed inner product. -/
def Opens (st : St F KA OA OT) : Prop :=
  ∃ a : List MA, a.length = st.1.length ∧ st.2.2.1 = dot (φ · ·) a st.1 ∧
    η st.2.2.2 = some (ψ' (dot (bil · ·) a st.2.1))

/-- A false statement. -/
def Doomed (st : St F KA OA OT) : Prop := st.1.length = st.2.1.length ∧ ¬ Opens bil φ η ψ' st

open Classical in
/-- One round with challenge `x`. -/
noncomputable def foldSt (st : St F KA OA OT) (z : (OA × OT) × (OA × OT)) (x : F) : St F KA OA OT :=
  if ∃ n, st.1.length = 2 * n then
    (foldHalf x⁻¹ st.1, foldHalf x⁻¹ st.2.1, x • z.1.1 + st.2.2.1 + x⁻¹ • z.2.1,
      x • z.1.2 + st.2.2.2 + x⁻¹ • z.2.2)
  else st

variable {bil φ η ψ'} {ψ : T → OT}

/-- If a round leads to a true statement for three challenges, the statement before was true. -/
theorem opens_of_three (R : Reads F η ψ ψ') (st : St F KA OA OT) (z : (OA × OT) × (OA × OT)) (n : ℕ)
    (ha : st.1.length = 2 * n) (hb : st.2.1.length = 2 * n) (c : Fin 3 → F) (hc : Function.Injective c)
    (h0 : ∀ i, c i ≠ 0) (h : ∀ i, Opens bil φ η ψ' (foldSt st z (c i))) : Opens bil φ η ψ' st := by
  have h' : ∀ i, ∃ a : List MA, a.length = n ∧
      c i • z.1.1 + st.2.2.1 + (c i)⁻¹ • z.2.1 = dot (φ · ·) a (foldHalf (c i)⁻¹ st.1) ∧
      η (c i • z.1.2 + st.2.2.2 + (c i)⁻¹ • z.2.2) = some (ψ' (dot (bil · ·) a (foldHalf (c i)⁻¹ st.2.1))) := by
    intro i
    have := h i
    rw [foldSt, if_pos ⟨n, ha⟩] at this
    obtain ⟨a, e1, e2, e3⟩ := this
    exact ⟨a, by rw [e1]; exact length_foldHalf _ _ n ha, e2, e3⟩
  choose a la e2 e3 using h'
  refine ⟨merge c a, by rw [length_merge c a n la, ha],
    (dot_merge φ c h0 hc a n la st.1 ha _ _ _ fun i => (e2 i).symm).symm, ?_⟩
  simp only [R.add, R.smul] at e3
  cases h1 : η z.1.2 with
  | none => simpa [h1] using e3 0
  | some x =>
    cases h2 : η st.2.2.2 with
    | none => simpa [h1, h2] using e3 0
    | some y =>
      cases h3 : η z.2.2 with
      | none => simpa [h1, h2, h3] using e3 0
      | some w =>
        simp only [h1, h2, h3, Option.map_some, Option.bind_some, Option.some.injEq] at e3
        have lin : ∀ (xs : List MA) (ys : List F), ψ' (dot (bil · ·) xs ys) =
            dot (bil.compr₂ ψ' · ·) xs ys := by
          intro xs
          induction xs with
          | nil => intro ys; simp
          | cons x xs ih => intro ys; cases ys <;> simp [ih]
        rw [lin]
        congr 1
        refine (dot_merge (bil.compr₂ ψ') c h0 hc _ n la st.2.1 hb x y w fun i => ?_).symm
        rw [← lin]
        exact (e3 i).symm

/-- At most two non-zero challenges lead from a false statement to a true one. -/
theorem escape_le (R : Reads F η ψ ψ') {D : Type} (key : D → F) (m : ℕ)
    (hm : ∀ (x : F) (S : Finset D), (∀ d ∈ S, key d = x) → S.card ≤ m)
    (st : St F KA OA OT) (z : (OA × OT) × (OA × OT)) (hst : Doomed bil φ η ψ' st)
    (S : Finset D) (hS : ∀ d ∈ S, ¬ Doomed bil φ η ψ' (foldSt st z (key d))) : S.card ≤ 3 * m := by
  classical
  obtain ⟨hlen, hno⟩ := hst
  by_cases hn : ∃ n, st.1.length = 2 * n
  · obtain ⟨n, ha⟩ := hn
    have hb : st.2.1.length = 2 * n := by rw [← hlen, ha]
    have hop : ∀ d ∈ S, Opens bil φ η ψ' (foldSt st z (key d)) := by
      intro d hd
      by_contra hcon
      refine hS d hd ⟨?_, hcon⟩
      rw [foldSt, if_pos ⟨n, ha⟩]
      change (foldHalf _ st.1).length = (foldHalf _ st.2.1).length
      rw [length_foldHalf _ _ n ha, length_foldHalf _ _ n hb]
    have hT3 : (S.image key).card ≤ 3 := by
      by_contra hcon
      have h3 : 3 ≤ ((S.image key).erase 0).card := by
        have := Finset.pred_card_le_card_erase (s := S.image key) (a := 0)
        omega
      obtain ⟨U, hU, hU3⟩ := Finset.exists_subset_card_eq h3
      let c : Fin 3 → F := fun i => (U.equivFin.symm (Fin.cast hU3.symm i) : U)
      have hcU : ∀ i, c i ∈ U := fun i => (U.equivFin.symm (Fin.cast hU3.symm i)).2
      have hc : Function.Injective c := fun i j h => by
        have := U.equivFin.symm.injective (Subtype.ext h)
        exact Fin.cast_injective _ this
      refine hno (opens_of_three R st z n ha hb c hc
        (fun i => (Finset.mem_erase.mp (hU (hcU i))).1) fun i => ?_)
      obtain ⟨d, hd, he⟩ := Finset.mem_image.mp (Finset.mem_erase.mp (hU (hcU i))).2
      rw [← he]
      exact hop d hd
    rw [Finset.card_eq_sum_card_image key S]
    refine (Finset.sum_le_card_nsmul _ _ m fun x _ => ?_).trans ?_
    · exact hm x _ fun d hd => (Finset.mem_filter.mp hd).2
    · rw [smul_eq_mul]
      exact Nat.mul_le_mul_right m hT3
  · have : S = ∅ := by
      apply Finset.eq_empty_of_forall_notMem
      intro d hd
      refine hS d hd ?_
      rw [foldSt, if_neg hn]
      exact ⟨hlen, hno⟩
    simp [this]

/-- All rounds. -/
theorem foldl_foldSt : ∀ (ps : List (((OA × OT) × (OA × OT)) × F)) (ka : List KA) (mb : List F)
    (ca : OA) (ct : OT), ka.length = 2 ^ ps.length →
    ps.foldl (fun st p => foldSt st p.1 p.2) (ka, mb, ca, ct) =
      (foldAll ((ps.map (·.2)).map (·⁻¹)) ka, foldAll ((ps.map (·.2)).map (·⁻¹)) mb,
        accum (ps.map (·.2)) (ps.map fun p => (p.1.1.1, p.1.2.1)) ca,
        accum (ps.map (·.2)) (ps.map fun p => (p.1.1.2, p.1.2.2)) ct)
  | [], ka, kb, ca, ct, _ => by simp [foldAll, accum]
  | p :: ps, ka, mb, ca, ct, ha => by
    have h2 : (2 : ℕ) ^ (ps.length + 1) = 2 * 2 ^ ps.length := by rw [pow_succ]; ring
    rw [List.length_cons, h2] at ha
    rw [List.foldl_cons]
    have : foldSt (ka, mb, ca, ct) p.1 p.2 = (foldHalf p.2⁻¹ ka, foldHalf p.2⁻¹ mb,
        p.2 • p.1.1.1 + ca + p.2⁻¹ • p.1.2.1, p.2 • p.1.1.2 + ct + p.2⁻¹ • p.1.2.2) := by
      rw [foldSt, if_pos ⟨_, ha⟩]
    rw [this, foldl_foldSt ps _ _ _ _ (length_foldHalf _ _ _ ha)]
    simp [foldAll, accum]

end Chain

/-! ## The theorem -/

section Static
variable [DecidableEq F] [DecidableEq OA] [DecidableEq OT] {n : ℕ}

/-- A vector, the placeholder value, and what determines a commitment to an inner product. -/
abbrev Known (n : ℕ) (F MA RT : Type) := (Fin n → MA) × F × RT

/-- The commitments that are hashed. -/
def coms (φa : MA →ₗ[F] KA →ₗ[F] OA) (τ : RT → OT) (va : Fin n → KA) (r : Known n F MA RT) : Coms OA F OT :=
  (commitTo φa va r.1, r.2.1, τ r.2.2)

/-- The commitments of both halves of a step. -/
def coms2 (φa : MA →ₗ[F] KA →ₗ[F] OA) (τ : RT → OT) (va : Fin n → KA)
    (z : Known n F MA RT × Known n F MA RT) :
    Coms OA F OT × Coms OA F OT := (coms φa τ va z.1, coms φa τ va z.2)

/-- A prover with oracle access, as in C84. -/
structure Prover (n : ℕ) (F MA RT : Type) (Xs Ds : Finset Bytes) where
  query : List Ds → Xs
  label : List Ds → Known n F MA RT × Known n F MA RT
  steps : List Ds → List (Known n F MA RT × Known n F MA RT)
  base : List Ds → MA × F

variable (P : Gipa ρ F MA F T KA Placeholder KT OA F OT) (φa : MA →ₗ[F] KA →ₗ[F] OA)
  (τ : RT → OT) (va : Fin n → KA) {Xs Ds : Finset Bytes}
  (hmem : ∀ k z, P.hashInput 0 k (coms2 φa τ va z).1 (coms2 φa τ va z).2 ∈ Xs)

/-- The hash input of a round. -/
def link (z : Known n F MA RT × Known n F MA RT) (k : F) : Xs :=
  ⟨P.hashInput 0 k (coms2 φa τ va z).1 (coms2 φa τ va z).2, hmem _ _⟩

/-- The hash inputs of all rounds. -/
def Prover.inputs (A : Prover n F MA RT Xs Ds) (Q : ℕ) (H : Xs → Ds) : List Xs :=
  Oracle.queries (link P φa τ va hmem) (challengeOf F) H 0 (A.steps (Oracle.trace A.query H Q))

/-- The challenges of all rounds. -/
def Prover.challenges (A : Prover n F MA RT Xs Ds) (Q : ℕ) (H : Xs → Ds) : List F :=
  (A.inputs P φa τ va hmem Q H).map fun x => challengeOf F (H x)

/-- What was known about the step commitments when they were first hashed. -/
noncomputable def Prover.openings (A : Prover n F MA RT Xs Ds) (Q k : ℕ) (H : Xs → Ds) :
    List (Known n F MA RT × Known n F MA RT) :=
  (A.inputs P φa τ va hmem Q H).map (Oracle.firstLabel
    (Oracle.withCheck A.query Q A.steps (link P φa τ va hmem) (challengeOf F) 0)
    (Oracle.withLabels Q A.steps A.label) H (Q + k))

/-- The proof. -/
def Prover.proof (A : Prover n F MA RT Xs Ds) (Q : ℕ) (H : Xs → Ds) : GipaProof MA F OA F OT where
  steps := ((A.steps (Oracle.trace A.query H Q)).map (coms2 φa τ va)).reverse
  base := A.base (Oracle.trace A.query H Q)

/-- Two messages: the combination of the known openings, and the one the base stands for. -/
noncomputable def Prover.pair (A : Prover n F MA RT Xs Ds) (ra : Fin n → MA) (Q k : ℕ) (H : Xs → Ds) :
    (Fin n → MA) × (Fin n → MA) :=
  (accum (A.challenges P φa τ va hmem Q H)
      ((A.openings P φa τ va hmem Q k H).map fun z => (z.1.1, z.2.1)) ra,
    fun i => weights ((A.challenges P φa τ va hmem Q H).map (·⁻¹)) n i •
      (A.base (Oracle.trace A.query H Q)).1)

variable {P φa τ va} {bil : MA →ₗ[F] F →ₗ[F] T} {ψ : KT → T → OT} {η : OT → Option O} {ψ' : T →ₗ[F] O}

/-- What the honest prover determines of a step: all but the placeholders. -/
def lift (τ : RT → OT) (z : Known n F MA RT × Known n F MA RT) :
    ((Fin n → MA) × OT) × ((Fin n → MA) × OT) := ((z.1.1, τ z.1.2.2), (z.2.1, τ z.2.2.2))

/-- What was known about the commitments of the rounds, and the challenges. -/
noncomputable def Prover.rounds (A : Prover n F MA RT Xs Ds) (Q k : ℕ) (H : Xs → Ds) :
    List ((Known n F MA RT × Known n F MA RT) × F) :=
  (A.inputs P φa τ va hmem Q H).map fun x => (Oracle.firstLabel
    (Oracle.withCheck A.query Q A.steps (link P φa τ va hmem) (challengeOf F) 0)
    (Oracle.withLabels Q A.steps A.label) H (Q + k) x, challengeOf F (H x))

/-- The formal statement before the rounds. -/
def start (ra : Fin n → MA) (b : F) (comT : OT) : St F (Fin n → F) (Fin n → MA) OT :=
  (formalKey n, List.ofFn fun i : Fin n => b ^ (i : ℕ), ra, comT)

/-- If the proof is an accepting run and no collision is found, the openings add up to an opening of the last
commitments. -/
theorem run_end (kt : KT) (R : Reads F η (ψ kt) ψ')
    (hF : Decodable (fun _ => True) P.serF) (hA : Decodable (fun _ => True) P.serA)
    (hB : Decodable (fun _ => True) P.serB) (hT : Decodable (· ∈ Set.range τ) P.serT) (k : ℕ)
    (hn : n = 2 ^ k) (comA : OA) (comT : OT) (b : F) (ra : Fin n → MA)
    (hra : comA = commitTo φa va ra) (A : Prover n F MA RT Xs Ds) (Q : ℕ)
    (hlab : ∀ ds z x, A.query ds = link P φa τ va hmem z x → coms2 φa τ va (A.label ds) = coms2 φa τ va z)
    (hsteps : ∀ ds, (A.steps ds).length = k) (H : Xs → Ds)
    (hrun : Run bil φa (ψ kt) (List.ofFn va) ((List.range (2 ^ k)).map (b ^ ·)) (comA, comT)
        (A.challenges P φa τ va hmem Q H) (outer (A.proof φa τ va Q H).steps.reverse)
        (A.base (Oracle.trace A.query H Q)).1)
    (hcA : ¬ Clash φa va (A.pair P φa τ va hmem ra Q k H)) :
    let ps := A.rounds (P := P) (φa := φa) (τ := τ) (va := va) hmem Q k H
    let fin := (ps.map fun p => (lift τ p.1, p.2)).foldl (fun st p => foldSt st p.1 p.2) (start ra b comT)
    ps.length = k ∧ ps.map (fun p => coms2 φa τ va p.1) = (A.proof φa τ va Q H).steps.reverse ∧
      ps.map (·.2) = A.challenges P φa τ va hmem Q H ∧
      1 = fin.1.length ∧ fin.2.2.1 = dot (formal n · ·) [(A.base (Oracle.trace A.query H Q)).1] fin.1 ∧
      η fin.2.2.2 = some (ψ' (dot (bil · ·) [(A.base (Oracle.trace A.query H Q)).1] fin.2.1)) := by
  classical
  obtain ⟨ka, b', e1, e2, e3, e5⟩ := hrun
  -- the openings
  set zs := A.steps (Oracle.trace A.query H Q) with hzs
  set qs := A.inputs P φa τ va hmem Q H with hqs
  have hops : (A.openings P φa τ va hmem Q k H).map (coms2 φa τ va) = zs.map (coms2 φa τ va) := by
    rw [Prover.openings, List.map_map]
    refine Oracle.map_queries (link P φa τ va hmem) (challengeOf F)
      (coms2 φa τ va) _ (fun x => ∃ i < Q + k, Oracle.asked
        (Oracle.withCheck A.query Q A.steps (link P φa τ va hmem) (challengeOf F) 0) H i = x) H zs 0 ?_
      (Oracle.output_asked A.query Q A.steps (link P φa τ va hmem) (challengeOf F) 0 H k
        fun ds => (hsteps ds).le)
    intro z hz x hx
    refine Oracle.label_rel A.query Q A.steps (link P φa τ va hmem) (challengeOf F) 0 A.label
      (fun z z' => coms2 φa τ va z = coms2 φa τ va z') z x ?_ ?_ H (Q + k) hx
    · intro ds h
      exact hlab ds z x h
    · intro ds z' hz' x' h
      obtain ⟨-, -, g1, g2⟩ := Gipa.C23_hash_input_injective (P := P) hF hA hB hT 0 0 (by norm_num)
        (by norm_num) _ _ trivial trivial _ _ _ _ (by simp [coms2, coms]) (congrArg Subtype.val h)
      exact Prod.ext g1 g2
  have hklen : (A.challenges P φa τ va hmem Q H).length = k := by
    rw [Prover.challenges, List.length_map, Prover.inputs, Oracle.length_queries, hsteps]
  set cs := A.challenges P φa τ va hmem Q H with hcs
  set os := A.openings P φa τ va hmem Q k H with hos
  -- the formal state at the end
  intro ps
  have hps : ps = qs.map fun x => (Oracle.firstLabel
    (Oracle.withCheck A.query Q A.steps (link P φa τ va hmem) (challengeOf F) 0)
    (Oracle.withLabels Q A.steps A.label) H (Q + k) x, challengeOf F (H x)) := rfl
  have p1 : ps.map (·.2) = cs := by rw [hps, List.map_map]; rfl
  have p3 : ∀ {Y : Type} (f : Known n F MA RT × Known n F MA RT → Y), ps.map (fun p => f p.1) = os.map f := fun f => by
    rw [hps, List.map_map, hos, Prover.openings, List.map_map]; rfl
  have plen : ps.length = k := by
    rw [← List.length_map (f := fun p => p.2), p1, hklen]
  intro fin
  have p4 : ps.map (fun p => p.2⁻¹) = cs.map (·⁻¹) := by rw [← p1, List.map_map]; rfl
  have hmb : (List.ofFn fun i : Fin n => b ^ (i : ℕ)) = (List.range (2 ^ k)).map (b ^ ·) := by
    rw [← hn]
    apply List.ext_getElem <;> simp
  have hfin : fin = ([weights (cs.map (·⁻¹)) n], [b'], accum cs (os.map fun z => (z.1.1, z.2.1)) ra,
      accum cs (os.map fun z => (τ z.1.2.2, τ z.2.2.2)) comT) := by
    change (ps.map fun p => (lift τ p.1, p.2)).foldl (fun st p => foldSt st p.1 p.2) (start ra b comT) = _
    rw [start, foldl_foldSt _ _ _ _ _ (by rw [List.length_map, plen, ← hn]; simp [formalKey])]
    simp only [List.map_map, Function.comp_def, lift]
    rw [p1, p4, p3 (fun z => (z.1.1, z.2.1)), p3 (fun z => (τ z.1.2.2, τ z.2.2.2)),
      foldAll_formalKey _ (by rw [List.length_map, hklen, hn]), hmb, e2]
  have hrev : outer (A.proof φa τ va Q H).steps.reverse = outer (os.map (coms2 φa τ va)) := by
    rw [hops, Prover.proof, List.reverse_reverse]
  rw [hrev, outer, List.map_map, List.map_map] at e3 e5
  refine ⟨plen, ?_, p1, by rw [hfin]; rfl, ?_, ?_⟩
  · rw [p3, hops, Prover.proof, List.reverse_reverse]
  · rw [hfin]
    change accum cs _ ra = dot _ [_] [_]
    have hk : keyOf va (weights (cs.map (·⁻¹)) n) = ka := by
      have := map_foldAll (keyOf (F := F) va) (cs.map (·⁻¹)) (formalKey n)
      rw [foldAll_formalKey _ (by rw [List.length_map, hklen, hn]), map_formalKey, e1] at this
      exact List.singleton_injective this
    by_contra hcon
    refine hcA ⟨fun h => hcon (h.trans ?_), ?_⟩
    · simp [formal]; rfl
    · change commitTo φa va (accum cs _ ra) = commitTo φa va (formal n _ (weights (cs.map (·⁻¹)) n))
      rw [commitTo_formal, hk, map_accum, ← hra, List.map_map]
      exact e3
  · rw [hfin]
    change η (accum cs _ comT) = _
    have : accum cs (os.map fun z => (τ z.1.2.2, τ z.2.2.2)) comT = _ := e5
    rw [this, R.value]
    simp

open Classical in
/-- The count behind C87, for any set of oracles for which the proof is an accepting run and no collision is
found. -/
theorem count_runs (X : Exec) (kt : KT) (R : Reads F η (ψ kt) ψ')
    (hF : Decodable (fun _ => True) P.serF) (hA : Decodable (fun _ => True) P.serA)
    (hB : Decodable (fun _ => True) P.serB) (hT : Decodable (· ∈ Set.range τ) P.serT)
    (hd : ∀ d ∈ Ds, 16 ≤ d.length) (m : ℕ)
    (hm : ∀ x : F, (Finset.univ.filter fun d : Ds => challengeOf F d = x).card ≤ m) (k : ℕ)
    (hn : n = 2 ^ k) (comA : OA) (comT : OT) (b : F) (ra : Fin n → MA)
    (hra : comA = commitTo φa va ra)
    (hfalse : η comT ≠ some (ψ' (∑ i : Fin n, bil (ra i) (b ^ (i : ℕ))))) (A : Prover n F MA RT Xs Ds)
    (Q : ℕ)
    (hlab : ∀ ds z x, A.query ds = link P φa τ va hmem z x → coms2 φa τ va (A.label ds) = coms2 φa τ va z)
    (hsteps : ∀ ds, (A.steps ds).length = k) (W : Finset (Xs → Ds))
    (hW : ∀ H ∈ W, (∀ x ∈ A.inputs P φa τ va hmem Q H, challengeOf F (H x) ≠ 0) →
      Run bil φa (ψ kt) (List.ofFn va) ((List.range (2 ^ k)).map (b ^ ·)) (comA, comT)
        (A.challenges P φa τ va hmem Q H) (outer (A.proof φa τ va Q H).steps.reverse)
        (A.base (Oracle.trace A.query H Q)).1 ∧
      ¬ Clash φa va (A.pair P φa τ va hmem ra Q k H)) :
    W.card * Ds.card ≤ (Q + k) * (Q + k + 4) * m * Ds.card ^ Xs.card := by
  have hinj : ∀ (z : Known n F MA RT × Known n F MA RT) (x : F) z' x',
      link P φa τ va hmem z x = link P φa τ va hmem z' x' → x = x' := by
    intro z x z' x' h
    have h := congrArg Subtype.val h
    simp only [link, Gipa.hashInput, List.append_assoc] at h
    obtain ⟨-, h⟩ := decodable_nonce _ _ _ _ (by norm_num) (by norm_num) h
    exact (hF _ _ _ _ trivial trivial h).1
  have hm' : ∀ (x : F) (S : Finset Ds), (∀ d ∈ S, challengeOf F d = x) → S.card ≤ m := fun x S hS =>
    (Finset.card_le_card fun d hd => Finset.mem_filter.mpr ⟨Finset.mem_univ _, hS d hd⟩).trans (hm x)
  let st0 : St F (Fin n → F) (Fin n → MA) OT := start ra b comT
  have hst : Doomed bil (formal n) η ψ' st0 := by
    refine ⟨by simp [st0, start, formalKey], ?_⟩
    rintro ⟨a, h1, h3, h5⟩
    obtain ⟨a', rfl⟩ : ∃ a' : Fin n → MA, a = List.ofFn a' := by
      refine ⟨fun i => a[i]'(by rw [h1]; simp [st0, start, formalKey]), ?_⟩
      apply List.ext_getElem <;> simp [h1, st0, start, formalKey]
    simp only [st0, start, dot_formalKey] at h3 h5
    rw [dot_ofFn, ← h3] at h5
    exact hfalse h5
  have c1 : Fintype.card Ds = Ds.card := Fintype.card_coe Ds
  have c2 : Fintype.card (Xs → Ds) = Ds.card ^ Xs.card := by
    rw [Fintype.card_fun, Fintype.card_coe, Fintype.card_coe]
  have c3 : (Q + k) * (3 * m) + (Q + k) * (Q + k + 1) * m = (Q + k) * (Q + k + 4) * m := by ring
  rw [← c2, ← c1, ← c3]
  refine Oracle.count_static A.query Q A.steps (link P φa τ va hmem) (challengeOf F) 0 A.label st0
    (fun st z d => foldSt st (lift τ z) (challengeOf F d))
    (Doomed bil (formal n) η ψ') hinj m (3 * m) hm'
    (fun st z hst S hS => escape_le R (challengeOf F) m hm' st _ hst S hS) hst k (fun ds => (hsteps ds).le) _ ?_
  intro H hH
  rintro ⟨hdm, hne⟩
  obtain ⟨hrun, hcA⟩ := hW H hH hne
  obtain ⟨-, -, -, r1, r2, r3⟩ := run_end hmem kt R hF hA hB hT k hn comA comT b ra hra A Q hlab hsteps H hrun hcA
  rw [Oracle.follow_eq] at hdm
  refine hdm.2 ?_
  rw [Prover.rounds, List.map_map, List.foldl_map] at r1 r2 r3
  exact ⟨[(A.base (Oracle.trace A.query H Q)).1], r1, r2, r3⟩

open Classical in
/-- C87: fix keys of length `2^k`, a scalar `b`, commitments, and an opening of the left one whose inner
product with the powers of `b` is not the committed one. For a prover that knows openings of the
commitments it hashes the verifier accepts, and no collision of the key is found, for at most
`N (N + 4) m / |Ds|` of all oracles, with `N = Q + k` and `m` as in C84. -/
theorem C87_static (L : P.Lawful bil φa 0 ψ) (X : Exec) (kt : KT) (R : Reads F η (ψ kt) ψ')
    (hF : Decodable (fun _ => True) P.serF) (hA : Decodable (fun _ => True) P.serA)
    (hB : Decodable (fun _ => True) P.serB) (hT : Decodable (· ∈ Set.range τ) P.serT)
    (hd : ∀ d ∈ Ds, 16 ≤ d.length) (m : ℕ)
    (hm : ∀ x : F, (Finset.univ.filter fun d : Ds => challengeOf F d = x).card ≤ m) (k : ℕ)
    (hn : n = 2 ^ k) (comA : OA) (comT : OT) (b : F) (ra : Fin n → MA)
    (hra : comA = commitTo φa va ra)
    (hfalse : η comT ≠ some (ψ' (∑ i : Fin n, bil (ra i) (b ^ (i : ℕ))))) (A : Prover n F MA RT Xs Ds)
    (Q : ℕ)
    (hlab : ∀ ds z x, A.query ds = link P φa τ va hmem z x → coms2 φa τ va (A.label ds) = coms2 φa τ va z)
    (hsteps : ∀ ds, (A.steps ds).length = k) :
    (Finset.univ.filter fun H : Xs → Ds =>
      GipaSsm.verify X (withDigest P (Sipp.oracle H)) (List.ofFn va) kt comA comT b
        (A.proof φa τ va Q H) = .ok true ∧
      ¬ Clash φa va (A.pair P φa τ va hmem ra Q k H)).card * Ds.card ≤
    (Q + k) * (Q + k + 4) * m * Ds.card ^ Xs.card := by
  refine count_runs hmem X kt R hF hA hB hT hd m hm k hn comA comT b ra hra hfalse A Q hlab hsteps _ ?_
  intro H hH hne
  obtain ⟨-, hacc, hcA⟩ := Finset.mem_filter.mp hH
  refine ⟨?_, hcA⟩
  obtain ⟨com1, hrec⟩ := recLoop_chain' (coms2 φa τ va) (link P φa τ va hmem) (fun _ _ => by rw [link]) hd H
    (A.steps (Oracle.trace A.query H Q)) 0 [] (comA, 0, comT) rfl hne
  have L' : (withDigest P (Sipp.oracle H)).Lawful bil φa 0 ψ :=
    ⟨L.ip_ok, L.lmc_ok, L.rmc_ok, L.ipc_ok, L.ψ_add, L.ψ_smul⟩
  have hlen : (A.proof φa τ va Q H).steps.length = k := by simp [Prover.proof, hsteps]
  obtain ⟨cs, com2, hrc, hrun⟩ := C71_gipa_run L' X _ kt comA comT b _
    (by rw [hlen, List.length_ofFn, hn]) hacc
  have hcs : cs = A.challenges P φa τ va hmem Q H := by
    rw [Gipa.recursiveChallenges, Prover.proof, List.reverse_reverse, hrec] at hrc
    have := congrArg Prod.snd (Except.ok.inj hrc)
    exact (List.reverse_injective this).symm
  subst hcs
  rwa [hlen] at hrun

include hmem in
open Classical in
/-- With a key that commits to every vector uniquely no collision exists. -/
theorem C87_binding (L : P.Lawful bil φa 0 ψ) (X : Exec) (kt : KT) (R : Reads F η (ψ kt) ψ')
    (hF : Decodable (fun _ => True) P.serF) (hA : Decodable (fun _ => True) P.serA)
    (hB : Decodable (fun _ => True) P.serB) (hT : Decodable (· ∈ Set.range τ) P.serT)
    (hd : ∀ d ∈ Ds, 16 ≤ d.length) (m : ℕ)
    (hm : ∀ x : F, (Finset.univ.filter fun d : Ds => challengeOf F d = x).card ≤ m) (k : ℕ)
    (hn : n = 2 ^ k) (comA : OA) (comT : OT) (b : F) (ra : Fin n → MA)
    (bA : Function.Injective (commitTo φa va)) (hra : comA = commitTo φa va ra)
    (hfalse : η comT ≠ some (ψ' (∑ i : Fin n, bil (ra i) (b ^ (i : ℕ))))) (A : Prover n F MA RT Xs Ds)
    (Q : ℕ)
    (hlab : ∀ ds z x, A.query ds = link P φa τ va hmem z x → coms2 φa τ va (A.label ds) = coms2 φa τ va z)
    (hsteps : ∀ ds, (A.steps ds).length = k) :
    (Finset.univ.filter fun H : Xs → Ds =>
      GipaSsm.verify X (withDigest P (Sipp.oracle H)) (List.ofFn va) kt comA comT b
        (A.proof φa τ va Q H) = .ok true).card * Ds.card ≤
    (Q + k) * (Q + k + 4) * m * Ds.card ^ Xs.card := by
  refine le_trans (Nat.mul_le_mul_right _ (Finset.card_le_card fun H hH => ?_))
    (C87_static hmem L X kt R hF hA hB hT hd m hm k hn comA comT b ra hra hfalse A Q hlab hsteps)
  obtain ⟨-, h⟩ := Finset.mem_filter.mp hH
  exact Finset.mem_filter.mpr ⟨Finset.mem_univ _, h, fun h => h.1 (bA h.2)⟩

end Static

/-! ## An instance: vectors of length 2 over the field with 101 elements -/

section Example
open Toy

/-- Vectors are committed to by themselves, inner products in the clear. -/
def exampleSsm : Gipa Unit Toy.F Toy.F Toy.F Toy.F (Fin 2 → Toy.F) Placeholder Placeholder
    (Fin 2 → Toy.F) Toy.F (IdentityOutput Toy.F) :=
  ssmGipa (fun a b => .ok (dot (LinearMap.lsmul Toy.F Toy.F · ·) a b))
    ⟨fun _ _ => .ok ([], ()), fun k m => .ok (dot (formal (F := Toy.F) 2 · ·) m k)⟩
    identityCommitment
    Toy.digest Toy.ser (fun v => Toy.ser (v 0) ++ Toy.ser (v 1)) (serIdentity Toy.ser)

theorem exampleSsm_lawful : exampleSsm.Lawful (LinearMap.lsmul Toy.F Toy.F) (formal 2) 0 idψ :=
  ⟨fun _ _ _ => rfl, fun _ _ _ => rfl, fun k m _ => congrArg Except.ok (dot_const_zero m k).symm,
    fun _ _ => rfl, fun _ _ _ => rfl, fun _ _ _ => rfl⟩

/-- The hash inputs of first attempts. -/
noncomputable def exampleInputs : Finset Bytes :=
  (Set.finite_range fun p : Toy.F × Known 2 Toy.F Toy.F Toy.F × Known 2 Toy.F Toy.F Toy.F =>
    exampleSsm.hashInput 0 p.1 (coms2 (F := Toy.F) (formal 2) single exampleKey p.2).1
      (coms2 (F := Toy.F) (formal 2) single exampleKey p.2).2).toFinset

theorem exampleInputs_mem (k : Toy.F) (z : Known 2 Toy.F Toy.F Toy.F × Known 2 Toy.F Toy.F Toy.F) :
    exampleSsm.hashInput 0 k (coms2 (F := Toy.F) (formal 2) single exampleKey z).1
      (coms2 (F := Toy.F) (formal 2) single exampleKey z).2 ∈ exampleInputs :=
  (Set.Finite.mem_toFinset _).mpr ⟨(k, z), rfl⟩

open Classical in
/-- `1 * 1 + 2 * 5 = 11`. A prover with one query makes the verifier accept 12 for at most 12 in 101 of all
oracles. -/
example (A : Prover 2 Toy.F Toy.F Toy.F exampleInputs exampleDigests)
    (hlab : ∀ ds z x, A.query ds = link exampleSsm (formal 2) single exampleKey exampleInputs_mem z x →
      A.label ds = z)
    (hsteps : ∀ ds, (A.steps ds).length = 1) :
    (Finset.univ.filter fun H : exampleInputs → exampleDigests =>
      GipaSsm.verify Toy.X (withDigest exampleSsm (Sipp.oracle H)) (List.ofFn exampleKey) PUnit.unit
        exampleA ⟨[12]⟩ 5 (A.proof (formal (F := Toy.F) 2) single exampleKey 1 H) = .ok true).card * 101 ≤
    12 * 101 ^ exampleInputs.card := by
  have inj : Function.Injective (commitTo (formal (F := Toy.F) (M := Toy.F) 2) exampleKey) := fun x y h => by
    simpa only [commitTo_exampleKey] using h
  have := C87_binding (P := exampleSsm) (Xs := exampleInputs) (Ds := exampleDigests) (va := exampleKey)
    (τ := single) exampleInputs_mem exampleSsm_lawful Toy.X PUnit.unit (reads_identity PUnit.unit)
    decodable_ser decodable_pair decodable_ser (decodable_single decodable_ser)
    (by
      intro d hd
      obtain ⟨x, -, rfl⟩ := Finset.mem_image.mp hd
      simp [Toy.ser]) 1
    (fun x => Finset.card_le_one.mpr fun d hd d' hd' => exampleDigests_key d d'
      ((Finset.mem_filter.mp hd).2.trans (Finset.mem_filter.mp hd').2.symm)) 1 rfl
    exampleA ⟨[12]⟩ 5 exampleA inj (commitTo_exampleKey _).symm
    (by decide +kernel) A 1 (fun ds z x h => by rw [hlab ds z x h]) hsteps
  rw [card_exampleDigests, show (1 + 1) * (1 + 1 + 4) * 1 = 12 from rfl] at this
  exact this

/-- Such a prover. -/
noncomputable def exampleProver : Prover 2 Toy.F Toy.F Toy.F exampleInputs exampleDigests where
  query _ := link exampleSsm (formal 2) single exampleKey exampleInputs_mem ((exampleA, 0, 5), (exampleB, 1, 6)) 0
  label _ := ((exampleA, 0, 5), (exampleB, 1, 6))
  steps _ := [((exampleA, 0, 5), (exampleB, 1, 6))]
  base _ := (1, 2)

example : (∀ ds z x, exampleProver.query ds =
        link exampleSsm (formal 2) single exampleKey exampleInputs_mem z x →
      exampleProver.label ds = z) ∧ ∀ ds, (exampleProver.steps ds).length = 1 := by
  refine ⟨fun ds z x h => ?_, fun _ => rfl⟩
  obtain ⟨-, -, g1, g2⟩ := Gipa.C23_hash_input_injective (P := exampleSsm)
    decodable_ser decodable_pair decodable_ser (decodable_single decodable_ser) 0 0 (by norm_num)
    (by norm_num) _ _ trivial trivial _ _ _ _ (by simp [coms2, coms]) (congrArg Subtype.val h)
  simp only [coms2, coms, commitTo_exampleKey, single, Prod.mk.injEq, IdentityOutput.mk.injEq,
    List.cons.injEq, and_true] at g1 g2
  exact Prod.ext (Prod.ext g1.1 (Prod.ext g1.2.1 g1.2.2)) (Prod.ext g2.1 (Prod.ext g2.2.1 g2.2.2))

end Example

end Ripp.SsmStatic
