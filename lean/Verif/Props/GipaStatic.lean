import Verif.Props.Extract
import Verif.Props.SippOracle
import Verif.Lemmas.Chain
import Verif.Toy

/-!
# C84: GIPA in the random oracle model, for a statement fixed before the oracle

`C22` breaks the non-interactive argument by choosing the statement after the challenges. Here the statement
is fixed, the hash is a random function, and the prover knows openings of the commitments it hashes.
-/

set_option linter.unusedSectionVars false
set_option linter.unusedVariables false

namespace Ripp.GipaStatic

open Spec Extract

variable {ρ F MA MB T KA KB KT OA OB OT RT O : Type} [Field F]
  [AddCommGroup MA] [Module F MA] [AddCommGroup MB] [Module F MB]
  [AddCommGroup T] [Module F T] [AddCommGroup KA] [Module F KA] [AddCommGroup KB] [Module F KB]
  [AddCommGroup OA] [Module F OA] [AddCommGroup OB] [Module F OB] [Add OT] [SMul F OT]
  [AddCommGroup O] [Module F O]

/-! ## One round -/

section Round
variable {M K C : Type} [AddCommGroup M] [Module F M] [AddCommGroup K] [Module F K] [AddCommGroup C]
  [Module F C]

/-- No two messages have the same commitment. -/
def Binding (φ : M →ₗ[F] K →ₗ[F] C) (k : List K) : Prop :=
  ∀ m m' : List M, m.length = k.length → m'.length = k.length →
    dot (φ · ·) m k = dot (φ · ·) m' k → m = m'

theorem Binding.fold {φ : M →ₗ[F] K →ₗ[F] C} {k : List K} (h : Binding φ k) (n : ℕ)
    (hk : k.length = 2 * n) (x : F) : Binding φ (foldHalf x k) := by
  intro m m' hm hm' he
  rw [length_foldHalf _ _ n hk] at hm hm'
  have := h (unfold x m) (unfold x m') (by simp [hm, hk]) (by simp [hm', hk])
    (by rw [dot_unfold _ _ _ _ (by rw [hk, hm]), dot_unfold _ _ _ _ (by rw [hk, hm']), he])
  simpa [unfold, hm, hm'] using congrArg (List.take n) this

variable (β : MA →ₗ[F] MB →ₗ[F] T) (φa : MA →ₗ[F] KA →ₗ[F] OA) (φb : MB →ₗ[F] KB →ₗ[F] OB)
  (η : OT → Option O) (ψ' : T →ₗ[F] O)

/-- The commitments have an opening with the committed inner product. -/
def Opens (ka : List KA) (kb : List KB) (com : OA × OB × OT) : Prop :=
  ∃ (a : List MA) (b : List MB), a.length = ka.length ∧ b.length = kb.length ∧
    com.1 = dot (φa · ·) a ka ∧ com.2.1 = dot (φb · ·) b kb ∧ η com.2.2 = some (ψ' (dot (β · ·) a b))

variable {β φa φb η ψ'} {ψ : T → OT}

/-- If a round leads to a true statement for four challenges, the statement before was true. -/
theorem opens_of_four (R : Reads F η ψ ψ') (ka : List KA) (kb : List KB) (com l r : OA × OB × OT)
    (n : ℕ) (ha : ka.length = 2 * n) (hb : kb.length = 2 * n) (bA : Binding φa ka) (bB : Binding φb kb)
    (c : Fin 4 → F) (hc : Function.Injective c) (h0 : ∀ i, c i ≠ 0)
    (h : ∀ i, Opens β φa φb η ψ' (foldHalf (c i)⁻¹ ka) (foldHalf (c i) kb)
      (c i • l.1 + com.1 + (c i)⁻¹ • r.1, c i • l.2.1 + com.2.1 + (c i)⁻¹ • r.2.1,
        c i • l.2.2 + com.2.2 + (c i)⁻¹ • r.2.2)) :
    Opens β φa φb η ψ' ka kb com := by
  choose a b h1 h2 h3 h4 h5 using h
  have la : ∀ i, (a i).length = n := fun i => by rw [h1, length_foldHalf _ _ n ha]
  have lb : ∀ i, (b i).length = n := fun i => by rw [h2, length_foldHalf _ _ n hb]
  have d0 : ∀ i, (c i)⁻¹ ≠ 0 := fun i => inv_ne_zero (h0 i)
  have hd : Function.Injective fun i => (c i)⁻¹ := fun i j e => hc (inv_injective e)
  have hopA : ∀ i, dot (φa · ·) (a i) (foldHalf (c i)⁻¹ ka) =
        c i • l.1 + com.1 + (c i)⁻¹ • r.1 := fun i => (h3 i).symm
  have hopB : ∀ i, dot (φb · ·) (b i) (foldHalf ((c i)⁻¹)⁻¹ kb) =
        (c i)⁻¹ • r.2.1 + com.2.1 + ((c i)⁻¹)⁻¹ • l.2.1 := by
    intro i
    rw [inv_inv, ← h4 i]; module
  have eA : ∀ i, expected c a i = unfold (c i)⁻¹ (a i) := fun i =>
    bA _ _ (by rw [length_expected c a n la, ha]) (by rw [length_unfold, la, ha])
      (expected_opens φa c h0 hc a n la ka ha _ _ _ hopA i)
  have eB : ∀ i, expected (fun i => (c i)⁻¹) b i = unfold ((c i)⁻¹)⁻¹ (b i) := fun i =>
    bB _ _ (by rw [length_expected _ b n lb, hb]) (by rw [length_unfold, lb, hb])
      (expected_opens φb _ d0 hd b n lb kb hb _ _ _ hopB i)
  obtain ⟨-, oa, -⟩ := side_opens φa c h0 hc a n la ka ha _ _ _ hopA
  obtain ⟨-, ob, -⟩ := side_opens φb _ d0 hd b n lb kb hb _ _ _ hopB
  have sa := length_side wM c a n la
  have sb := length_side wM (fun i => (c i)⁻¹) b n lb
  refine ⟨side wM c a, side wM (fun i => (c i)⁻¹) b, by rw [sa, ha], by rw [sb, hb], oa.symm, ob.symm, ?_⟩
  have key : ∀ i, η (c i • l.2.2 + com.2.2 + (c i)⁻¹ • r.2.2) = some (ψ' (
      c i • dot (β · ·) ((side wM c a).drop n) ((side wM (fun i => (c i)⁻¹) b).take n)
      + dot (β · ·) (side wM c a) (side wM (fun i => (c i)⁻¹) b)
      + (c i)⁻¹ • dot (β · ·) ((side wM c a).take n)
        ((side wM (fun i => (c i)⁻¹) b).drop n))) := by
    intro i
    rw [h5 i, fold_of_expected c h0 hc a n la eA i, fold_of_expected _ d0 hd b n lb eB i,
      dot_fold β (c i) (h0 i) _ _ n sa sb]
  simp only [R.add, R.smul, map_add, map_smul] at key
  cases h1 : η l.2.2 with
  | none => simpa [h1] using key 0
  | some x =>
    cases h2 : η com.2.2 with
    | none => simpa [h1, h2] using key 0
    | some y =>
      cases h3 : η r.2.2 with
      | none => simpa [h1, h2, h3] using key 0
      | some z =>
        simp only [h1, h2, h3, Option.map_some, Option.bind_some, Option.some.injEq] at key
        rw [three_runs c h0 hc _ _ _ _ _ _ key]

end Round

/-! ## Rounds as a chain -/

section Chain
variable (β : MA →ₗ[F] MB →ₗ[F] T) (φa : MA →ₗ[F] KA →ₗ[F] OA) (φb : MB →ₗ[F] KB →ₗ[F] OB)
  (η : OT → Option O) (ψ' : T →ₗ[F] O)

/-- Keys and commitments. -/
abbrev St (KA KB OA OB OT : Type) := List KA × List KB × (OA × OB × OT)

/-- A false statement for binding keys. -/
def Doomed (st : St KA KB OA OB OT) : Prop :=
  st.1.length = st.2.1.length ∧ Binding φa st.1 ∧ Binding φb st.2.1 ∧
    ¬ Opens β φa φb η ψ' st.1 st.2.1 st.2.2

open Classical in
/-- One round with challenge `x`. -/
noncomputable def foldSt (st : St KA KB OA OB OT) (z : (OA × OB × OT) × (OA × OB × OT)) (x : F) :
    St KA KB OA OB OT :=
  if ∃ n, st.1.length = 2 * n then
    (foldHalf x⁻¹ st.1, foldHalf x st.2.1,
      (x • z.1.1 + st.2.2.1 + x⁻¹ • z.2.1, x • z.1.2.1 + st.2.2.2.1 + x⁻¹ • z.2.2.1,
        x • z.1.2.2 + st.2.2.2.2 + x⁻¹ • z.2.2.2))
  else st

variable {β φa φb η ψ'} {ψ : T → OT}

/-- At most three non-zero challenges lead from a false statement to a true one. -/
theorem escape_le (R : Reads F η ψ ψ') {D : Type} (key : D → F) (m : ℕ)
    (hm : ∀ (x : F) (S : Finset D), (∀ d ∈ S, key d = x) → S.card ≤ m)
    (st : St KA KB OA OB OT) (z : (OA × OB × OT) × (OA × OB × OT)) (hst : Doomed β φa φb η ψ' st)
    (S : Finset D) (hS : ∀ d ∈ S, ¬ Doomed β φa φb η ψ' (foldSt st z (key d))) : S.card ≤ 4 * m := by
  classical
  obtain ⟨hlen, bA, bB, hno⟩ := hst
  by_cases hn : ∃ n, st.1.length = 2 * n
  · obtain ⟨n, ha⟩ := hn
    have hb : st.2.1.length = 2 * n := by rw [← hlen, ha]
    have hop : ∀ d ∈ S, Opens β φa φb η ψ' (foldHalf (key d)⁻¹ st.1) (foldHalf (key d) st.2.1)
        (key d • z.1.1 + st.2.2.1 + (key d)⁻¹ • z.2.1, key d • z.1.2.1 + st.2.2.2.1 + (key d)⁻¹ • z.2.2.1,
          key d • z.1.2.2 + st.2.2.2.2 + (key d)⁻¹ • z.2.2.2) := by
      intro d hd
      by_contra hcon
      refine hS d hd ?_
      rw [foldSt, if_pos ⟨n, ha⟩]
      exact ⟨by rw [length_foldHalf _ _ n ha, length_foldHalf _ _ n hb], bA.fold n ha _, bB.fold n hb _, hcon⟩
    have hT4 : (S.image key).card ≤ 4 := by
      by_contra hcon
      have h4 : 4 ≤ ((S.image key).erase 0).card := by
        have := Finset.pred_card_le_card_erase (s := S.image key) (a := 0)
        omega
      obtain ⟨U, hU, hU4⟩ := Finset.exists_subset_card_eq h4
      let c : Fin 4 → F := fun i => (U.equivFin.symm (Fin.cast hU4.symm i) : U)
      have hcU : ∀ i, c i ∈ U := fun i => (U.equivFin.symm (Fin.cast hU4.symm i)).2
      have hc : Function.Injective c := fun i j h => by
        have := U.equivFin.symm.injective (Subtype.ext h)
        exact Fin.cast_injective _ this
      refine hno (opens_of_four R st.1 st.2.1 st.2.2 z.1 z.2 n ha hb bA bB c hc
        (fun i => (Finset.mem_erase.mp (hU (hcU i))).1) fun i => ?_)
      obtain ⟨d, hd, he⟩ := Finset.mem_image.mp (Finset.mem_erase.mp (hU (hcU i))).2
      have := hop d hd
      rw [he] at this
      exact this
    rw [Finset.card_eq_sum_card_image key S]
    refine (Finset.sum_le_card_nsmul _ _ m fun x _ => ?_).trans ?_
    · exact hm x _ fun d hd => (Finset.mem_filter.mp hd).2
    · rw [smul_eq_mul]
      exact Nat.mul_le_mul_right m hT4
  · have : S = ∅ := by
      apply Finset.eq_empty_of_forall_notMem
      intro d hd
      refine hS d hd ?_
      rw [foldSt, if_neg hn]
      exact ⟨hlen, bA, bB, hno⟩
    simp [this]

/-- All rounds. -/
theorem foldl_foldSt : ∀ (ps : List (((OA × OB × OT) × (OA × OB × OT)) × F)) (ka : List KA) (kb : List KB)
    (com : OA × OB × OT), ka.length = 2 ^ ps.length →
    ps.foldl (fun st p => foldSt st p.1 p.2) (ka, kb, com) =
      (foldAll ((ps.map (·.2)).map (·⁻¹)) ka, foldAll (ps.map (·.2)) kb,
        (accum (ps.map (·.2)) (ps.map fun p => (p.1.1.1, p.1.2.1)) com.1,
          accum (ps.map (·.2)) (ps.map fun p => (p.1.1.2.1, p.1.2.2.1)) com.2.1,
          accum (ps.map (·.2)) (ps.map fun p => (p.1.1.2.2, p.1.2.2.2)) com.2.2))
  | [], ka, kb, com, _ => by simp [foldAll, accum]
  | p :: ps, ka, kb, com, ha => by
    have h2 : (2 : ℕ) ^ (ps.length + 1) = 2 * 2 ^ ps.length := by rw [pow_succ]; ring
    rw [List.length_cons, h2] at ha
    rw [List.foldl_cons]
    have : foldSt (ka, kb, com) p.1 p.2 = (foldHalf p.2⁻¹ ka, foldHalf p.2 kb,
        (p.2 • p.1.1.1 + com.1 + p.2⁻¹ • p.1.2.1, p.2 • p.1.1.2.1 + com.2.1 + p.2⁻¹ • p.1.2.2.1,
          p.2 • p.1.1.2.2 + com.2.2 + p.2⁻¹ • p.1.2.2.2)) := by
      rw [foldSt, if_pos ⟨_, ha⟩]
    rw [this, foldl_foldSt ps _ _ _ (length_foldHalf _ _ _ ha)]
    simp [foldAll, accum]

end Chain

/-! ## Vectors as formal commitments -/

section Formal
variable {M K C : Type} [AddCommGroup M] [Module F M] [AddCommGroup K] [Module F K] [AddCommGroup C]
  [Module F C] {n : ℕ}

/-- The commitment to a vector. -/
def commitTo (φ : M →ₗ[F] K →ₗ[F] C) (v : Fin n → K) : (Fin n → M) →ₗ[F] C where
  toFun r := ∑ i, φ (r i) (v i)
  map_add' r s := by simp [Finset.sum_add_distrib]
  map_smul' c r := by simp [Finset.smul_sum]

/-- The message scaled by each of the coefficients. -/
def formal (n : ℕ) : M →ₗ[F] (Fin n → F) →ₗ[F] (Fin n → M) :=
  LinearMap.mk₂ F (fun m k i => k i • m) (fun m m' k => by funext i; simp)
    (fun c m k => by funext i; rw [Pi.smul_apply, smul_comm]) (fun m k k' => by funext i; simp [add_smul])
    (fun c m k => by funext i; simp [mul_smul])

/-- The unit vectors. -/
def formalKey (n : ℕ) : List (Fin n → F) := List.ofFn fun i => Pi.single i 1

theorem dot_ofFn (φ : M →ₗ[F] K →ₗ[F] C) : ∀ {n : ℕ} (a : Fin n → M) (k : Fin n → K),
    dot (φ · ·) (List.ofFn a) (List.ofFn k) = ∑ i, φ (a i) (k i)
  | 0, a, k => by simp
  | n + 1, a, k => by rw [List.ofFn_succ, List.ofFn_succ, dot_cons, dot_ofFn, Fin.sum_univ_succ]

theorem dot_formalKey (a : Fin n → M) :
    dot (formal (F := F) n · ·) (List.ofFn a) (formalKey n) = a := by
  rw [formalKey, dot_ofFn]
  funext i
  simp [formal, Pi.single_apply, ite_smul]

theorem binding_formal : Binding (formal (F := F) (M := M) n) (formalKey n) := by
  intro m m' hm hm' h
  simp only [formalKey, List.length_ofFn] at hm hm'
  subst hm
  have e1 : m = List.ofFn m.get := (List.ofFn_get m).symm
  have e2 : m' = List.ofFn fun i : Fin m.length => m'.get (i.cast hm'.symm) := by
    apply List.ext_getElem <;> simp [hm']
  rw [e1, e2] at h ⊢
  rw [List.length_ofFn] at h
  rw [dot_formalKey] at h
  erw [dot_formalKey] at h
  rw [h]

/-- The key with coefficients `k`. -/
def keyOf (v : Fin n → K) : (Fin n → F) →ₗ[F] K where
  toFun k := ∑ i, k i • v i
  map_add' r s := by simp [Finset.sum_add_distrib, add_smul]
  map_smul' c r := by simp [Finset.smul_sum, mul_smul]

theorem commitTo_formal (φ : M →ₗ[F] K →ₗ[F] C) (v : Fin n → K) (m : M) (k : Fin n → F) :
    commitTo φ v (formal n m k) = φ m (keyOf v k) := by
  simp [commitTo, formal, keyOf]

theorem map_formalKey (v : Fin n → K) : (formalKey n).map (keyOf (F := F) v) = List.ofFn v := by
  rw [formalKey, List.map_ofFn]
  congr 1
  funext i
  simp [keyOf, Pi.single_apply, ite_smul]

theorem map_foldHalf (f : M →ₗ[F] K) (x : F) (v : List M) :
    (foldHalf x v).map f = foldHalf x (v.map f) := by
  simp [foldHalf, addV, smulV, List.map_zipWith, List.zipWith_map, ← List.map_take, ← List.map_drop,
    Function.comp_def]
  rw [List.zipWith_map_right]
  simp

theorem map_foldAll (f : M →ₗ[F] K) : ∀ (xs : List F) (v : List M),
    (foldAll xs v).map f = foldAll xs (v.map f)
  | [], _ => rfl
  | x :: xs, v => by rw [foldAll, foldAll, map_foldAll f xs, map_foldHalf]

theorem map_accum (f : M →ₗ[F] K) : ∀ (cs : List F) (ss : List (M × M)) (c : M),
    f (accum cs ss c) = accum cs (ss.map fun s => (f s.1, f s.2)) (f c)
  | [], _, _ => by simp [accum]
  | _ :: _, [], _ => by simp [accum]
  | x :: cs, s :: ss, c => by rw [accum, map_accum f cs ss]; simp [accum]

/-- The weights of the base message in the vector it stands for. -/
def weights (cs : List F) (n : ℕ) : Fin n → F := fun i => bitProd cs.reverse i

theorem foldAll_formalKey (cs : List F) (hn : n = 2 ^ cs.length) :
    foldAll cs (formalKey n) = [weights cs n] := by
  classical
  have h := dot_exps cs.reverse (formalKey (F := F) n) (by simp [formalKey, hn])
  rw [List.reverse_reverse] at h
  rw [h]
  congr 1
  have e : exps cs.reverse = List.ofFn (weights cs n) := by
    rw [exps_eq]
    apply List.ext_getElem
    · simp [hn]
    · intro i h1 h2
      simp [weights]
  rw [e, formalKey]
  have := dot_ofFn (smulMap F (Fin n → F)) (fun i : Fin n => Pi.single i (1 : F)) (weights cs n)
  simp only [smulMap_apply] at this
  rw [this]
  funext i
  simp [Pi.single_apply]

end Formal

/-! ## The theorem -/

section Static
variable [DecidableEq F] [DecidableEq T] [DecidableEq OA] [DecidableEq OB] [DecidableEq OT] {n : ℕ}

/-- The same argument with another hash function. -/
def withDigest (P : Gipa ρ F MA MB T KA KB KT OA OB OT) (dg : Bytes → Bytes) :
    Gipa ρ F MA MB T KA KB KT OA OB OT := { P with digest := dg }

/-- Vectors, and what determines a commitment to an inner product. -/
abbrev Known (n : ℕ) (MA MB RT : Type) := (Fin n → MA) × (Fin n → MB) × RT

/-- The commitments to these vectors; `τ` makes the commitment to an inner product. -/
def coms (φa : MA →ₗ[F] KA →ₗ[F] OA) (φb : MB →ₗ[F] KB →ₗ[F] OB) (τ : RT → OT) (va : Fin n → KA)
    (vb : Fin n → KB) (r : Known n MA MB RT) : Coms OA OB OT :=
  (commitTo φa va r.1, commitTo φb vb r.2.1, τ r.2.2)

/-- Both halves of a step, with the commitments to inner products. -/
def lift (τ : RT → OT) (z : Known n MA MB RT × Known n MA MB RT) : Known n MA MB OT × Known n MA MB OT :=
  ((z.1.1, z.1.2.1, τ z.1.2.2), (z.2.1, z.2.2.1, τ z.2.2.2))

/-- A prover with oracle access. Its queries, and what it knows about the commitments it hashes, are computed
from the answers so far; at the end it outputs a proof (steps in round order), again with openings. -/
structure Prover (n : ℕ) (MA MB RT : Type) (Xs Ds : Finset Bytes) where
  query : List Ds → Xs
  label : List Ds → Known n MA MB RT × Known n MA MB RT
  steps : List Ds → List (Known n MA MB RT × Known n MA MB RT)
  base : List Ds → MA × MB

/-- The challenge made from a digest: the inverse of its first 16 bytes. -/
def challengeOf (F : Type) [Field F] {Ds : Finset Bytes} (d : Ds) : F :=
  ((beNat ((d : Bytes).take 16) : ℕ) : F)⁻¹

variable (P : Gipa ρ F MA MB T KA KB KT OA OB OT) (φa : MA →ₗ[F] KA →ₗ[F] OA) (φb : MB →ₗ[F] KB →ₗ[F] OB)
  (τ : RT → OT) (va : Fin n → KA) (vb : Fin n → KB) {Xs Ds : Finset Bytes}
  (hmem : ∀ k z1 z2, P.hashInput 0 k (coms φa φb τ va vb z1) (coms φa φb τ va vb z2) ∈ Xs)

/-- The hash input of a round. -/
def link (z : Known n MA MB RT × Known n MA MB RT) (k : F) : Xs :=
  ⟨P.hashInput 0 k (coms φa φb τ va vb z.1) (coms φa φb τ va vb z.2), hmem _ _ _⟩

/-- The hash inputs of all rounds. -/
def Prover.inputs (A : Prover n MA MB RT Xs Ds) (Q : ℕ) (H : Xs → Ds) : List Xs :=
  Oracle.queries (link P φa φb τ va vb hmem) (challengeOf F) H 0 (A.steps (Oracle.trace A.query H Q))

/-- The challenges of all rounds. -/
def Prover.challenges (A : Prover n MA MB RT Xs Ds) (Q : ℕ) (H : Xs → Ds) : List F :=
  (A.inputs P φa φb τ va vb hmem Q H).map fun x => challengeOf F (H x)

/-- The openings given when the step commitments were first hashed. -/
noncomputable def Prover.openings (A : Prover n MA MB RT Xs Ds) (Q k : ℕ) (H : Xs → Ds) :
    List (Known n MA MB RT × Known n MA MB RT) :=
  (A.inputs P φa φb τ va vb hmem Q H).map (Oracle.firstLabel
    (Oracle.withCheck A.query Q A.steps (link P φa φb τ va vb hmem) (challengeOf F) 0)
    (Oracle.withLabels Q A.steps A.label) H (Q + k))

/-- The proof. -/
def Prover.proof (A : Prover n MA MB RT Xs Ds) (Q : ℕ) (H : Xs → Ds) : GipaProof MA MB OA OB OT where
  steps := ((A.steps (Oracle.trace A.query H Q)).map fun z =>
    (coms φa φb τ va vb z.1, coms φa φb τ va vb z.2)).reverse
  base := A.base (Oracle.trace A.query H Q)

/-- Two left messages: the combination of the known openings, and the one the base stands for. -/
noncomputable def Prover.pairA (A : Prover n MA MB RT Xs Ds) (ra : Fin n → MA) (Q k : ℕ) (H : Xs → Ds) :
    (Fin n → MA) × (Fin n → MA) :=
  (accum (A.challenges P φa φb τ va vb hmem Q H)
      ((A.openings P φa φb τ va vb hmem Q k H).map fun z => (z.1.1, z.2.1)) ra,
    fun i => weights ((A.challenges P φa φb τ va vb hmem Q H).map (·⁻¹)) n i •
      (A.base (Oracle.trace A.query H Q)).1)

/-- The same for right messages. -/
noncomputable def Prover.pairB (A : Prover n MA MB RT Xs Ds) (rb : Fin n → MB) (Q k : ℕ) (H : Xs → Ds) :
    (Fin n → MB) × (Fin n → MB) :=
  (accum (A.challenges P φa φb τ va vb hmem Q H)
      ((A.openings P φa φb τ va vb hmem Q k H).map fun z => (z.1.2.1, z.2.2.1)) rb,
    fun i => weights (A.challenges P φa φb τ va vb hmem Q H) n i • (A.base (Oracle.trace A.query H Q)).2)

/-- Two different messages with the same commitment. -/
def Clash {M K C : Type} [AddCommGroup M] [Module F M] [AddCommGroup K] [Module F K] [AddCommGroup C]
    [Module F C] (φ : M →ₗ[F] K →ₗ[F] C) (v : Fin n → K) (p : (Fin n → M) × (Fin n → M)) : Prop :=
  p.1 ≠ p.2 ∧ commitTo φ v p.1 = commitTo φ v p.2

variable {P φa φb τ va vb} {β : MA →ₗ[F] MB →ₗ[F] T} {ψ : KT → T → OT} {η : OT → Option O} {ψ' : T →ₗ[F] O}

/-- The oracle as a hash function. -/
theorem oracle_apply {Xs Ds : Finset Bytes} (H : Xs → Ds) (x : Xs) : Sipp.oracle H x = H x := by
  rw [Sipp.oracle]
  exact dif_pos x.2

omit [AddCommGroup MA] [Module F MA] [AddCommGroup MB] [Module F MB] [AddCommGroup T] [Module F T]
  [AddCommGroup KA] [Module F KA] [AddCommGroup KB] [Module F KB] in
/-- Without a zero the challenges of the verifier are those of the chain; `cm` are the commitments of a
step, and `dg` is a hash function that agrees with the oracle. -/
theorem recLoop_digest {Z : Type} (cm : Z → Coms OA OB OT × Coms OA OB OT)
    (enc : Z → F → Xs) (henc : ∀ z k, (enc z k : Bytes) = P.hashInput 0 k (cm z).1 (cm z).2)
    (hd : ∀ d ∈ Ds, 16 ≤ d.length) (H : Xs → Ds) (dg : Bytes → Bytes) (hdg : ∀ x : Xs, dg x = H x) :
    ∀ (zs : List Z) (k : F) (tr : List F) (com : Coms OA OB OT),
      tr.getLast?.getD 0 = k →
      (∀ x ∈ Oracle.queries enc (challengeOf F) H k zs, challengeOf F (H x) ≠ 0) →
      ∃ com', (withDigest P dg).recLoop (zs.map cm) com tr =
        .ok (com', tr ++ (Oracle.queries enc (challengeOf F) H k zs).map fun x => challengeOf F (H x))
  | [], k, tr, com, _, _ => ⟨com, by simp [Gipa.recLoop, Oracle.queries]⟩
  | z :: zs, k, tr, com, hk, hne => by
    set x := enc z k with hx
    have h0 : challengeOf F (H x) ≠ 0 := hne x (by simp [Oracle.queries, hx])
    have hv : ((beNat (((H x : Ds) : Bytes).take 16) : ℕ) : F) ≠ 0 := fun h => h0 (by rw [challengeOf, h, inv_zero])
    have hdig : (withDigest P dg).digest ((withDigest P dg).hashInput 0 k
        (cm z).1 (cm z).2) = H x := by
      change dg (P.hashInput 0 k (cm z).1 (cm z).2) = _
      rw [← henc]
      exact hdg x
    have hch : (withDigest P dg).challenge k (cm z).1 (cm z).2 =
        .ok (challengeOf F (H x), (challengeOf F (H x))⁻¹) := by
      have hlt : ¬ ((H x : Ds) : Bytes).length < 16 := by have := hd _ (H x).2; omega
      rw [Gipa.challenge, show nonceLimit = (nonceLimit - 1) + 1 by decide, searchNonce,
        Gipa.challengeAttempt, hdig]
      simp only [if_neg hlt, inverse_of_ne hv, challengeOf, inv_inv]
    obtain ⟨com', h⟩ := recLoop_digest cm enc henc hd H dg hdg zs (challengeOf F (H x)) (tr ++ [challengeOf F (H x)])
      (Gipa.foldComs (challengeOf F (H x)) (challengeOf F (H x))⁻¹ com (cm z).1 (cm z).2) (by simp)
      (fun y hy => hne y (by simp [Oracle.queries, ← hx, hy]))
    refine ⟨com', ?_⟩
    rw [List.map_cons, Gipa.recLoop, hk, hch]
    simp only [Except.bind, bind]
    rw [h, Oracle.queries, List.map_cons, ← hx]
    simp

omit [AddCommGroup MA] [Module F MA] [AddCommGroup MB] [Module F MB] [AddCommGroup T] [Module F T]
  [AddCommGroup KA] [Module F KA] [AddCommGroup KB] [Module F KB] in
/-- The same for the hash function that is the oracle. -/
theorem recLoop_chain' {Z : Type} (cm : Z → Coms OA OB OT × Coms OA OB OT)
    (enc : Z → F → Xs) (henc : ∀ z k, (enc z k : Bytes) = P.hashInput 0 k (cm z).1 (cm z).2)
    (hd : ∀ d ∈ Ds, 16 ≤ d.length) (H : Xs → Ds)
    (zs : List Z) (k : F) (tr : List F) (com : Coms OA OB OT) (hk : tr.getLast?.getD 0 = k)
    (h : ∀ x ∈ Oracle.queries enc (challengeOf F) H k zs, challengeOf F (H x) ≠ 0) :
    ∃ com', (withDigest P (Sipp.oracle H)).recLoop (zs.map cm) com tr =
      .ok (com', tr ++ (Oracle.queries enc (challengeOf F) H k zs).map fun x => challengeOf F (H x)) :=
  recLoop_digest cm enc henc hd H _ (oracle_apply H) zs k tr com hk h

/-- Without a zero the challenges of the verifier are those of the chain. -/
theorem recLoop_chain (hd : ∀ d ∈ Ds, 16 ≤ d.length) (H : Xs → Ds)
    (zs : List (Known n MA MB RT × Known n MA MB RT)) (k : F) (tr : List F) (com : Coms OA OB OT)
    (hk : tr.getLast?.getD 0 = k)
    (h : ∀ x ∈ Oracle.queries (link P φa φb τ va vb hmem) (challengeOf F) H k zs, challengeOf F (H x) ≠ 0) :
    ∃ com', (withDigest P (Sipp.oracle H)).recLoop
      (zs.map fun z => (coms φa φb τ va vb z.1, coms φa φb τ va vb z.2)) com tr =
      .ok (com', tr ++ (Oracle.queries (link P φa φb τ va vb hmem) (challengeOf F) H k zs).map
        fun x => challengeOf F (H x)) :=
  recLoop_chain' (fun z => (coms φa φb τ va vb z.1, coms φa φb τ va vb z.2)) (link P φa φb τ va vb hmem)
    (fun z k => by rw [link]) hd H zs k tr com hk h

/-- The rounds with the openings given when their commitments were first hashed, and their challenges. -/
noncomputable def Prover.rounds (A : Prover n MA MB RT Xs Ds) (Q k : ℕ) (H : Xs → Ds) :
    List ((Known n MA MB OT × Known n MA MB OT) × F) :=
  (A.inputs P φa φb τ va vb hmem Q H).map fun x => (lift τ (Oracle.firstLabel
    (Oracle.withCheck A.query Q A.steps (link P φa φb τ va vb hmem) (challengeOf F) 0)
    (Oracle.withLabels Q A.steps A.label) H (Q + k) x), challengeOf F (H x))

/-- If the verifier accepts and no collision is found, the openings add up to an opening of the last commitments. -/
theorem accepted_end (L : P.Lawful β φa φb ψ) (kt : KT) (R : Reads F η (ψ kt) ψ')
    (hF : Decodable (fun _ => True) P.serF) (hA : Decodable (fun _ => True) P.serA)
    (hB : Decodable (fun _ => True) P.serB) (hT : Decodable (· ∈ Set.range τ) P.serT)
    (hd : ∀ d ∈ Ds, 16 ≤ d.length) (k : ℕ)
    (hn : n = 2 ^ k) (com : Coms OA OB OT) (ra : Fin n → MA) (rb : Fin n → MB)
    (hra : com.1 = commitTo φa va ra) (hrb : com.2.1 = commitTo φb vb rb)
    (A : Prover n MA MB RT Xs Ds) (Q : ℕ)
    (hlab : ∀ ds z x, A.query ds = link P φa φb τ va vb hmem z x →
      coms φa φb τ va vb (A.label ds).1 = coms φa φb τ va vb z.1 ∧
      coms φa φb τ va vb (A.label ds).2 = coms φa φb τ va vb z.2)
    (hsteps : ∀ ds, (A.steps ds).length = k) (H : Xs → Ds)
    (hacc : (withDigest P (Sipp.oracle H)).verify (List.ofFn va) (List.ofFn vb) kt com
        (A.proof φa φb τ va vb Q H) = .ok true)
    (hcA : ¬ Clash φa va (A.pairA P φa φb τ va vb hmem ra Q k H))
    (hcB : ¬ Clash φb vb (A.pairB P φa φb τ va vb hmem rb Q k H))
    (hne : ∀ x ∈ A.inputs P φa φb τ va vb hmem Q H, challengeOf F (H x) ≠ 0) :
    let ps := A.rounds (P := P) (φa := φa) (φb := φb) (τ := τ) (va := va) (vb := vb) hmem Q k H
    let fin := ps.foldl (fun st p => foldSt st p.1 p.2)
      ((formalKey n, formalKey n, (ra, rb, com.2.2)) : St (Fin n → F) (Fin n → F) (Fin n → MA) (Fin n → MB) OT)
    let base := (A.proof φa φb τ va vb Q H).base
    ps.length = k ∧
      (ps.map fun p => (coms φa φb id va vb p.1.1, coms φa φb id va vb p.1.2)) =
        (A.proof φa φb τ va vb Q H).steps.reverse ∧
      (∃ com', (withDigest P (Sipp.oracle H)).recLoop (A.proof φa φb τ va vb Q H).steps.reverse com [] =
        .ok (com', ps.map (·.2))) ∧
      1 = fin.1.length ∧ 1 = fin.2.1.length ∧ fin.2.2.1 = dot (formal n · ·) [base.1] fin.1 ∧
      fin.2.2.2.1 = dot (formal n · ·) [base.2] fin.2.1 ∧
      η fin.2.2.2.2 = some (ψ' (dot (β · ·) [base.1] [base.2])) := by
  -- the challenges
  obtain ⟨com1, hrec⟩ := recLoop_chain hmem hd H (A.steps (Oracle.trace A.query H Q)) 0 [] com rfl hne
  have L' : (withDigest P (Sipp.oracle H)).Lawful β φa φb ψ :=
    ⟨L.ip_ok, L.lmc_ok, L.rmc_ok, L.ipc_ok, L.ψ_add, L.ψ_smul⟩
  have hlen : (A.proof φa φb τ va vb Q H).steps.length = k := by simp [Prover.proof, hsteps]
  obtain ⟨cs, com2, hrc, ka, kb, e1, e2, e3, e4, e5⟩ := (C67_verify_iff L' _ _ kt com _
    (by rw [hlen, List.length_ofFn, hn]) (by rw [hlen, List.length_ofFn, hn])).mp hacc
  have hcs : cs = A.challenges P φa φb τ va vb hmem Q H := by
    rw [Gipa.recursiveChallenges, Prover.proof, List.reverse_reverse, hrec] at hrc
    have := congrArg Prod.snd (Except.ok.inj hrc)
    exact (List.reverse_injective this).symm
  subst hcs
  -- the openings
  set zs := A.steps (Oracle.trace A.query H Q) with hzs
  set qs := A.inputs P φa φb τ va vb hmem Q H with hqs
  have hops : (A.openings P φa φb τ va vb hmem Q k H).map (fun z =>
      (coms φa φb τ va vb z.1, coms φa φb τ va vb z.2)) =
      zs.map fun z => (coms φa φb τ va vb z.1, coms φa φb τ va vb z.2) := by
    rw [Prover.openings, List.map_map]
    refine Oracle.map_queries (link P φa φb τ va vb hmem) (challengeOf F)
      (fun z => (coms φa φb τ va vb z.1, coms φa φb τ va vb z.2)) _ (fun x => ∃ i < Q + k, Oracle.asked
        (Oracle.withCheck A.query Q A.steps (link P φa φb τ va vb hmem) (challengeOf F) 0) H i = x) H zs 0 ?_
      (Oracle.output_asked A.query Q A.steps (link P φa φb τ va vb hmem) (challengeOf F) 0 H k
        fun ds => (hsteps ds).le)
    intro z hz x hx
    refine Oracle.label_rel A.query Q A.steps (link P φa φb τ va vb hmem) (challengeOf F) 0 A.label
      (fun z z' => (coms φa φb τ va vb z.1, coms φa φb τ va vb z.2) =
        (coms φa φb τ va vb z'.1, coms φa φb τ va vb z'.2)) z x ?_ ?_ H (Q + k) hx
    · intro ds h
      have := hlab ds z x h
      exact Prod.ext this.1 this.2
    · intro ds z' hz' x' h
      obtain ⟨-, -, g1, g2⟩ := Gipa.C23_hash_input_injective (P := P) hF hA hB hT 0 0 (by norm_num)
        (by norm_num) _ _ trivial trivial _ _ _ _ (by simp [coms]) (congrArg Subtype.val h)
      exact Prod.ext g1 g2
  have hklen : (A.challenges P φa φb τ va vb hmem Q H).length = k := by
    rw [Prover.challenges, List.length_map, Prover.inputs, Oracle.length_queries, hsteps]
  set cs := A.challenges P φa φb τ va vb hmem Q H with hcs
  set os := A.openings P φa φb τ va vb hmem Q k H with hos
  -- the formal state at the end
  intro ps
  have hps : ps = qs.map fun x => (lift τ (Oracle.firstLabel
    (Oracle.withCheck A.query Q A.steps (link P φa φb τ va vb hmem) (challengeOf F) 0)
    (Oracle.withLabels Q A.steps A.label) H (Q + k) x), challengeOf F (H x)) := rfl
  have p1 : ps.map (·.2) = cs := by rw [hps, List.map_map]; rfl
  have p2 : ps.map (·.1) = os.map (lift τ) := by
    rw [hps, List.map_map, hos, Prover.openings, List.map_map]; rfl
  have p3 : ∀ {Y : Type} (f : Known n MA MB OT × Known n MA MB OT → Y),
      ps.map (fun p => f p.1) = os.map fun z => f (lift τ z) := fun f => by
    have h1 : ps.map (fun p => f p.1) = (ps.map (·.1)).map f :=
      (List.map_map (g := f) (f := Prod.fst) (l := ps)).symm
    rw [h1, p2, List.map_map]
    rfl
  have plen : ps.length = k := by
    rw [← List.length_map (f := fun p => p.2), p1, hklen]
  intro fin base
  have hfin : fin = ([weights (cs.map (·⁻¹)) n], [weights cs n],
      (accum cs (os.map fun z => (z.1.1, z.2.1)) ra, accum cs (os.map fun z => (z.1.2.1, z.2.2.1)) rb,
        accum cs (os.map fun z => (τ z.1.2.2, τ z.2.2.2)) com.2.2)) := by
    change ps.foldl (fun st p => foldSt st p.1 p.2) _ = _
    rw [foldl_foldSt ps _ _ _ (by rw [plen, ← hn]; simp [formalKey]), p1,
      p3 (fun z => (z.1.1, z.2.1)), p3 (fun z => (z.1.2.1, z.2.2.1)), p3 (fun z => (z.1.2.2, z.2.2.2)),
      foldAll_formalKey _ (by rw [List.length_map, hklen, hn]),
      foldAll_formalKey _ (by rw [hklen, hn])]
    rfl
  have hrev : (A.proof φa φb τ va vb Q H).steps.reverse =
      os.map fun z => (coms φa φb τ va vb z.1, coms φa φb τ va vb z.2) := by
    rw [hops, Prover.proof, List.reverse_reverse]
  rw [hrev, List.map_map] at e3 e4 e5
  rw [hfin]
  refine ⟨plen, ?_, ⟨com1, ?_⟩, rfl, rfl, ?_, ?_, ?_⟩
  · rw [hrev, p3 fun z => (coms φa φb id va vb z.1, coms φa φb id va vb z.2)]
    rfl
  · rw [p1, Prover.proof, List.reverse_reverse, hrec]
    rfl
  · change accum cs _ ra = dot _ [_] [_]
    have hk : keyOf va (weights (cs.map (·⁻¹)) n) = ka := by
      have := map_foldAll (keyOf (F := F) va) (cs.map (·⁻¹)) (formalKey n)
      rw [foldAll_formalKey _ (by rw [List.length_map, hklen, hn]), map_formalKey, e1] at this
      exact List.singleton_injective this
    by_contra hcon
    refine hcA ⟨fun h => hcon (h.trans ?_), ?_⟩
    · simp [formal]; rfl
    · change commitTo φa va (accum cs _ ra) = commitTo φa va (formal n _ (weights (cs.map (·⁻¹)) n))
      rw [commitTo_formal, hk, map_accum, ← hra, List.map_map]
      exact e3
  · change accum cs _ rb = dot _ [_] [_]
    have hk : keyOf vb (weights cs n) = kb := by
      have := map_foldAll (keyOf (F := F) vb) cs (formalKey n)
      rw [foldAll_formalKey _ (by rw [hklen, hn]), map_formalKey, e2] at this
      exact List.singleton_injective this
    by_contra hcon
    refine hcB ⟨fun h => hcon (h.trans ?_), ?_⟩
    · simp [formal]; rfl
    · change commitTo φb vb (accum cs _ rb) = commitTo φb vb (formal n _ (weights cs n))
      rw [commitTo_formal, hk, map_accum, ← hrb, List.map_map]
      exact e4
  · change η (accum cs _ com.2.2) = _
    have : accum cs (os.map fun z => (τ z.1.2.2, τ z.2.2.2)) com.2.2 = _ := e5
    rw [this, R.value]
    simp [Prover.proof, base]

open Classical in
/-- C84: fix keys of length `2^k`, commitments, and an opening of them whose inner product is not the
committed one. Then for a prover that knows openings of the commitments it hashes the verifier accepts, and no
collision of the keys is found, for at most `(N (N + 5) m) / |Ds|` of all oracles, where `N = Q + k`, `Q` is
the number of queries and `m` the number of digests with the same first 16 bytes (as field elements). -/
theorem C84_static (L : P.Lawful β φa φb ψ) (kt : KT) (R : Reads F η (ψ kt) ψ')
    (hF : Decodable (fun _ => True) P.serF) (hA : Decodable (fun _ => True) P.serA)
    (hB : Decodable (fun _ => True) P.serB) (hT : Decodable (· ∈ Set.range τ) P.serT)
    (hd : ∀ d ∈ Ds, 16 ≤ d.length) (m : ℕ)
    (hm : ∀ x : F, (Finset.univ.filter fun d : Ds => challengeOf F d = x).card ≤ m) (k : ℕ)
    (hn : n = 2 ^ k) (com : Coms OA OB OT) (ra : Fin n → MA) (rb : Fin n → MB)
    (hra : com.1 = commitTo φa va ra) (hrb : com.2.1 = commitTo φb vb rb)
    (hfalse : η com.2.2 ≠ some (ψ' (∑ i, β (ra i) (rb i)))) (A : Prover n MA MB RT Xs Ds) (Q : ℕ)
    (hlab : ∀ ds z x, A.query ds = link P φa φb τ va vb hmem z x →
      coms φa φb τ va vb (A.label ds).1 = coms φa φb τ va vb z.1 ∧
      coms φa φb τ va vb (A.label ds).2 = coms φa φb τ va vb z.2)
    (hsteps : ∀ ds, (A.steps ds).length = k) :
    (Finset.univ.filter fun H : Xs → Ds =>
      (withDigest P (Sipp.oracle H)).verify (List.ofFn va) (List.ofFn vb) kt com
        (A.proof φa φb τ va vb Q H) = .ok true ∧
      ¬ Clash φa va (A.pairA P φa φb τ va vb hmem ra Q k H) ∧
      ¬ Clash φb vb (A.pairB P φa φb τ va vb hmem rb Q k H)).card * Ds.card ≤
    (Q + k) * (Q + k + 5) * m * Ds.card ^ Xs.card := by
  have hinj : ∀ (z : Known n MA MB RT × Known n MA MB RT) (x : F) z' x',
      link P φa φb τ va vb hmem z x = link P φa φb τ va vb hmem z' x' → x = x' := by
    intro z x z' x' h
    have h := congrArg Subtype.val h
    simp only [link, Gipa.hashInput, List.append_assoc] at h
    obtain ⟨-, h⟩ := decodable_nonce _ _ _ _ (by norm_num) (by norm_num) h
    exact (hF _ _ _ _ trivial trivial h).1
  have hm' : ∀ (x : F) (S : Finset Ds), (∀ d ∈ S, challengeOf F d = x) → S.card ≤ m := fun x S hS =>
    (Finset.card_le_card fun d hd => Finset.mem_filter.mpr ⟨Finset.mem_univ _, hS d hd⟩).trans (hm x)
  let st0 : St (Fin n → F) (Fin n → F) (Fin n → MA) (Fin n → MB) OT :=
    (formalKey n, formalKey n, (ra, rb, com.2.2))
  have hst : Doomed β (formal n) (formal n) η ψ' st0 := by
    refine ⟨by simp [st0, formalKey], binding_formal, binding_formal, ?_⟩
    rintro ⟨a, b, h1, h2, h3, h4, h5⟩
    obtain ⟨a', rfl⟩ : ∃ a' : Fin n → MA, a = List.ofFn a' := by
      refine ⟨fun i => a[i]'(by rw [h1]; simp [st0, formalKey]), ?_⟩
      apply List.ext_getElem <;> simp [h1, st0, formalKey]
    obtain ⟨b', rfl⟩ : ∃ b' : Fin n → MB, b = List.ofFn b' := by
      refine ⟨fun i => b[i]'(by rw [h2]; simp [st0, formalKey]), ?_⟩
      apply List.ext_getElem <;> simp [h2, st0, formalKey]
    simp only [st0, dot_formalKey] at h3 h4 h5
    rw [dot_ofFn, ← h3, ← h4] at h5
    exact hfalse h5
  have c1 : Fintype.card Ds = Ds.card := Fintype.card_coe Ds
  have c2 : Fintype.card (Xs → Ds) = Ds.card ^ Xs.card := by
    rw [Fintype.card_fun, Fintype.card_coe, Fintype.card_coe]
  have c3 : (Q + k) * (4 * m) + (Q + k) * (Q + k + 1) * m = (Q + k) * (Q + k + 5) * m := by ring
  rw [← c2, ← c1, ← c3]
  refine Oracle.count_static A.query Q A.steps (link P φa φb τ va vb hmem) (challengeOf F) 0 A.label st0
    (fun st z d => foldSt st (lift τ z) (challengeOf F d)) (Doomed β (formal n) (formal n) η ψ') hinj m (4 * m) hm'
    (fun st z hst S hS => escape_le R (challengeOf F) m hm' st (lift τ z) hst S hS) hst k (fun ds => (hsteps ds).le) _ ?_
  intro H hH
  obtain ⟨-, hacc, hcA, hcB⟩ := Finset.mem_filter.mp hH
  rintro ⟨hdm, hne⟩
  obtain ⟨-, -, -, h1, h2, h3, h4, h5⟩ := accepted_end hmem L kt R hF hA hB hT hd k hn com ra rb hra hrb A Q hlab
    hsteps H hacc hcA hcB hne
  rw [Oracle.follow_eq] at hdm
  have hfold : (Oracle.queries (link P φa φb τ va vb hmem) (challengeOf F) H 0
      (A.steps (Oracle.trace A.query H Q))).foldl (fun st x =>
      foldSt st (lift τ (Oracle.firstLabel
        (Oracle.withCheck A.query Q A.steps (link P φa φb τ va vb hmem) (challengeOf F) 0)
        (Oracle.withLabels Q A.steps A.label) H (Q + k) x)) (challengeOf F (H x))) st0 =
      (A.rounds hmem Q k H).foldl (fun st p => foldSt st p.1 p.2) st0 := by
    rw [Prover.rounds, List.foldl_map]; rfl
  rw [hfold] at hdm
  exact hdm.2.2.2 ⟨[(A.proof φa φb τ va vb Q H).base.1], [(A.proof φa φb τ va vb Q H).base.2], h1, h2, h3, h4, h5⟩

open Classical in
include hmem in
/-- With keys for which different messages have different commitments, the verifier accepts a false
statement for at most this share of all oracles. -/
theorem C84_binding (L : P.Lawful β φa φb ψ) (kt : KT) (R : Reads F η (ψ kt) ψ')
    (hF : Decodable (fun _ => True) P.serF) (hA : Decodable (fun _ => True) P.serA)
    (hB : Decodable (fun _ => True) P.serB) (hT : Decodable (· ∈ Set.range τ) P.serT)
    (hd : ∀ d ∈ Ds, 16 ≤ d.length) (m : ℕ)
    (hm : ∀ x : F, (Finset.univ.filter fun d : Ds => challengeOf F d = x).card ≤ m) (k : ℕ)
    (hn : n = 2 ^ k) (com : Coms OA OB OT) (ra : Fin n → MA) (rb : Fin n → MB)
    (bA : Function.Injective (commitTo φa va)) (bB : Function.Injective (commitTo φb vb))
    (hra : com.1 = commitTo φa va ra) (hrb : com.2.1 = commitTo φb vb rb)
    (hfalse : η com.2.2 ≠ some (ψ' (∑ i, β (ra i) (rb i)))) (A : Prover n MA MB RT Xs Ds) (Q : ℕ)
    (hlab : ∀ ds z x, A.query ds = link P φa φb τ va vb hmem z x →
      coms φa φb τ va vb (A.label ds).1 = coms φa φb τ va vb z.1 ∧
      coms φa φb τ va vb (A.label ds).2 = coms φa φb τ va vb z.2)
    (hsteps : ∀ ds, (A.steps ds).length = k) :
    (Finset.univ.filter fun H : Xs → Ds =>
      (withDigest P (Sipp.oracle H)).verify (List.ofFn va) (List.ofFn vb) kt com
        (A.proof φa φb τ va vb Q H) = .ok true).card * Ds.card ≤
    (Q + k) * (Q + k + 5) * m * Ds.card ^ Xs.card := by
  refine le_trans (Nat.mul_le_mul_right _ (Finset.card_le_card fun H hH => ?_))
    (C84_static hmem L kt R hF hA hB hT hd m hm k hn com ra rb hra hrb hfalse A Q hlab hsteps)
  obtain ⟨-, h⟩ := Finset.mem_filter.mp hH
  exact Finset.mem_filter.mpr ⟨Finset.mem_univ _, h, fun h => h.1 (bA h.2), fun h => h.1 (bB h.2)⟩

end Static

/-! ## An instance: vectors of length 2 over the field with 101 elements -/

section Example
open Toy

/-- A list with one element. -/
def single {T : Type} (t : T) : IdentityOutput T := ⟨[t]⟩

theorem decodable_single {T : Type} {ser : T → Bytes} (h : Decodable (fun _ => True) ser) :
    Decodable (· ∈ Set.range single) (serIdentity ser) := by
  rintro _ _ u v ⟨x, rfl⟩ ⟨y, rfl⟩ e
  exact decodable_serIdentity h _ _ u v (by simp [single]) (by simp [single]) e

/-- Vectors are committed to by themselves, inner products in the clear. -/
def exampleGipa : Gipa Unit Toy.F Toy.F Toy.F Toy.F (Fin 2 → Toy.F) (Fin 2 → Toy.F) Placeholder
    (Fin 2 → Toy.F) (Fin 2 → Toy.F) (IdentityOutput Toy.F) where
  ip a b := .ok (dot (LinearMap.lsmul Toy.F Toy.F · ·) a b)
  lmc := ⟨fun _ _ => .ok ([], ()), fun k m => .ok (dot (formal (F := Toy.F) 2 · ·) m k)⟩
  rmc := ⟨fun _ _ => .ok ([], ()), fun k m => .ok (dot (formal (F := Toy.F) 2 · ·) m k)⟩
  ipc := identityCommitment
  digest := Toy.digest
  serF := Toy.ser
  serA v := Toy.ser (v 0) ++ Toy.ser (v 1)
  serB v := Toy.ser (v 0) ++ Toy.ser (v 1)
  serT := serIdentity Toy.ser

theorem exampleGipa_lawful : exampleGipa.Lawful (LinearMap.lsmul Toy.F Toy.F) (formal 2) (formal 2)
    idψ :=
  ⟨fun _ _ _ => rfl, fun _ _ _ => rfl, fun _ _ _ => rfl, fun _ _ => rfl, fun _ _ _ => rfl,
    fun _ _ _ => rfl⟩

/-- The hash inputs of first attempts. -/
noncomputable def exampleInputs : Finset Bytes :=
  (Set.finite_range fun p : Toy.F × Known 2 Toy.F Toy.F Toy.F × Known 2 Toy.F Toy.F Toy.F =>
    exampleGipa.hashInput 0 p.1 (p.2.1.1, p.2.1.2.1, single p.2.1.2.2)
      (p.2.2.1, p.2.2.2.1, single p.2.2.2.2)).toFinset

/-- 101 digests of 16 bytes. -/
def exampleDigests : Finset Bytes :=
  (Finset.univ : Finset Toy.F).image fun x => List.replicate 15 0 ++ Toy.ser x

theorem ser_inj (x y : Toy.F) (h : Toy.ser x = Toy.ser y) : x = y := by
  revert x y; decide +kernel

theorem decodable_ser : Decodable (fun _ => True) Toy.ser :=
  .of_fixed 1 (fun _ _ => rfl) fun x y _ _ => ser_inj x y

theorem decodable_pair : Decodable (fun _ => True) fun v : Fin 2 → Toy.F => Toy.ser (v 0) ++ Toy.ser (v 1) :=
  .of_fixed 2 (fun _ _ => rfl) fun x y _ _ h => by
    obtain ⟨h1, h2⟩ := List.append_inj h rfl
    funext i
    fin_cases i
    · exact ser_inj _ _ h1
    · exact ser_inj _ _ h2

theorem card_exampleDigests : exampleDigests.card = 101 := by
  rw [exampleDigests, Finset.card_image_of_injective, Finset.card_univ, ZMod.card]
  intro x y h
  exact ser_inj _ _ (List.append_cancel_left h)

theorem exampleDigests_key (d d' : exampleDigests) (h : challengeOf Toy.F d = challengeOf Toy.F d') :
    d = d' := by
  obtain ⟨d, hd⟩ := d
  obtain ⟨d', hd'⟩ := d'
  obtain ⟨x, -, rfl⟩ := Finset.mem_image.mp hd
  obtain ⟨y, -, rfl⟩ := Finset.mem_image.mp hd'
  have h := inv_injective h
  have key : ∀ x y : Toy.F, ((beNat ((List.replicate 15 0 ++ Toy.ser x).take 16) : ℕ) : Toy.F) =
      ((beNat ((List.replicate 15 0 ++ Toy.ser y).take 16) : ℕ) : Toy.F) → x = y := by decide +kernel
  simp [key x y h]

/-- The committed vectors. -/
def exampleA : Fin 2 → Toy.F := ![1, 2]
/-- The committed vectors. -/
def exampleB : Fin 2 → Toy.F := ![3, 4]
/-- The key. -/
def exampleKey : Fin 2 → Fin 2 → Toy.F := fun i => Pi.single i 1

theorem commitTo_exampleKey (r : Fin 2 → Toy.F) : commitTo (formal (F := Toy.F) 2) exampleKey r = r := by
  funext i
  fin_cases i <;> simp [commitTo, formal, exampleKey, Pi.single_apply]

theorem exampleInputs_mem (k : Toy.F) (z1 z2 : Known 2 Toy.F Toy.F Toy.F) :
    exampleGipa.hashInput 0 k (coms (F := Toy.F) (formal 2) (formal 2) single exampleKey exampleKey z1)
      (coms (F := Toy.F) (formal 2) (formal 2) single exampleKey exampleKey z2) ∈ exampleInputs := by
  refine (Set.Finite.mem_toFinset _).mpr ⟨(k, z1, z2), ?_⟩
  simp only [coms, commitTo_exampleKey]

open Classical in
/-- `1 * 3 + 2 * 4 = 11`. A prover with one query makes the verifier accept 12 for at most 14 in 101 of all
oracles. -/
example (A : Prover 2 Toy.F Toy.F Toy.F exampleInputs exampleDigests)
    (hlab : ∀ ds z x, A.query ds =
        link exampleGipa (formal 2) (formal 2) single exampleKey exampleKey exampleInputs_mem z x →
      A.label ds = z)
    (hsteps : ∀ ds, (A.steps ds).length = 1) :
    (Finset.univ.filter fun H : exampleInputs → exampleDigests =>
      (withDigest exampleGipa (Sipp.oracle H)).verify (List.ofFn exampleKey) (List.ofFn exampleKey) PUnit.unit
        (exampleA, exampleB, ⟨[12]⟩)
        (A.proof (formal (F := Toy.F) 2) (formal 2) single exampleKey exampleKey 1 H) = .ok true).card * 101 ≤
    14 * 101 ^ exampleInputs.card := by
  have inj : Function.Injective (commitTo (formal (F := Toy.F) (M := Toy.F) 2) exampleKey) := fun x y h => by
    simpa only [commitTo_exampleKey] using h
  have := C84_binding (P := exampleGipa) (Xs := exampleInputs) (Ds := exampleDigests) (va := exampleKey)
    (vb := exampleKey) (τ := single) exampleInputs_mem exampleGipa_lawful PUnit.unit (reads_identity PUnit.unit)
    decodable_ser decodable_pair decodable_pair (decodable_single decodable_ser)
    (by
      intro d hd
      obtain ⟨x, -, rfl⟩ := Finset.mem_image.mp hd
      simp [Toy.ser]) 1
    (fun x => Finset.card_le_one.mpr fun d hd d' hd' => exampleDigests_key d d'
      ((Finset.mem_filter.mp hd).2.trans (Finset.mem_filter.mp hd').2.symm)) 1 rfl
    (exampleA, exampleB, ⟨[12]⟩) exampleA exampleB inj inj (commitTo_exampleKey _).symm
    (commitTo_exampleKey _).symm (by decide +kernel) A 1
    (fun ds z x h => by rw [hlab ds z x h]; exact ⟨rfl, rfl⟩) hsteps
  rw [card_exampleDigests, show (1 + 1) * (1 + 1 + 5) * 1 = 14 from rfl] at this
  exact this

/-- Such a prover. -/
noncomputable def exampleProver : Prover 2 Toy.F Toy.F Toy.F exampleInputs exampleDigests where
  query _ := link exampleGipa (formal 2) (formal 2) single exampleKey exampleKey exampleInputs_mem
    ((exampleA, exampleB, 5), (exampleB, exampleA, 6)) 0
  label _ := ((exampleA, exampleB, 5), (exampleB, exampleA, 6))
  steps _ := [((exampleA, exampleB, 5), (exampleB, exampleA, 6))]
  base _ := (1, 2)

example : (∀ ds z x, exampleProver.query ds =
        link exampleGipa (formal 2) (formal 2) single exampleKey exampleKey exampleInputs_mem z x →
      exampleProver.label ds = z) ∧ ∀ ds, (exampleProver.steps ds).length = 1 := by
  refine ⟨fun ds z x h => ?_, fun _ => rfl⟩
  obtain ⟨-, -, g1, g2⟩ := Gipa.C23_hash_input_injective (P := exampleGipa)
    decodable_ser decodable_pair decodable_pair (decodable_single decodable_ser) 0 0 (by norm_num)
    (by norm_num) _ _ trivial trivial _ _ _ _ (by simp [coms]) (congrArg Subtype.val h)
  simp only [coms, commitTo_exampleKey, single, Prod.mk.injEq, IdentityOutput.mk.injEq,
    List.cons.injEq, and_true] at g1 g2
  exact Prod.ext (Prod.ext g1.1 (Prod.ext g1.2.1 g1.2.2)) (Prod.ext g2.1 (Prod.ext g2.2.1 g2.2.2))

end Example

end Ripp.GipaStatic
