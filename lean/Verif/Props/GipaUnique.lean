import Verif.Props.GipaStatic

/-!
# C125: accepted GIPA proofs are those of the honest prover, in the random oracle model

C84 counts the oracles for which a false statement is accepted. Here the proofs are compared: for commitments fixed in
advance whose opening is known, an accepted proof is, except for the same share of all oracles and up to collisions of
the keys, exactly the one that `GIPA::prove` returns for this opening.
-/

set_option linter.unusedSectionVars false
set_option linter.unusedVariables false

namespace Ripp.GipaStatic

open Spec Extract

variable {ρ F MA MB T KA KB KT OA OB OT RT O : Type} [Field F]
  [AddCommGroup MA] [Module F MA] [AddCommGroup MB] [Module F MB]
  [AddCommGroup T] [Module F T] [AddCommGroup KA] [Module F KA] [AddCommGroup KB] [Module F KB]
  [AddCommGroup OA] [Module F OA] [AddCommGroup OB] [Module F OB] [Add OT] [SMul F OT]
  [AddCommGroup O] [Module F O]

/-! ## One round -/

section Round

theorem three_runs_all (c : Fin 4 → F) (h0 : ∀ i, c i ≠ 0) (hc : Function.Injective c)
    (l m r l' m' r' : O) (h : ∀ i, c i • l + m + (c i)⁻¹ • r = c i • l' + m' + (c i)⁻¹ • r') :
    l = l' ∧ r = r' := by
  have h01 : c 0 ≠ c 1 := fun e => absurd (hc e) (by decide)
  have h02 : c 0 ≠ c 2 := fun e => absurd (hc e) (by decide)
  have h12 : c 1 ≠ c 2 := fun e => absurd (hc e) (by decide)
  constructor
  · have a := weights_L (h0 0) (h0 1) (h0 2) h01 h02 h12
    have e := combine wL (c 0) (c 1) (c 2) l m r
    rw [h 0, h 1, h 2, combine, a.1, a.2.1, a.2.2] at e
    simpa using e.symm
  · have a := weights_R (h0 0) (h0 1) (h0 2) h01 h02 h12
    have e := combine wR (c 0) (c 1) (c 2) l m r
    rw [h 0, h 1, h 2, combine, a.1, a.2.1, a.2.2] at e
    simpa using e.symm

variable (β : MA →ₗ[F] MB →ₗ[F] T) (φa : MA →ₗ[F] KA →ₗ[F] OA) (φb : MB →ₗ[F] KB →ₗ[F] OB)
  (η : OT → Option O) (ψ' : T →ₗ[F] O)

/-- `a`, `b` open the commitments, with the committed inner product. -/
def OpensTo (ka : List KA) (kb : List KB) (com : OA × OB × OT) (a : List MA) (b : List MB) : Prop :=
  a.length = ka.length ∧ b.length = kb.length ∧
    com.1 = dot (φa · ·) a ka ∧ com.2.1 = dot (φb · ·) b kb ∧ η com.2.2 = some (ψ' (dot (β · ·) a b))

/-- The commitments of the two cross terms, which the honest prover sends. -/
def Cross (n : ℕ) (ka : List KA) (kb : List KB) (a : List MA) (b : List MB)
    (z : (OA × OB × OT) × (OA × OB × OT)) : Prop :=
  (z.1.1 = dot (φa · ·) (a.drop n) (ka.take n) ∧ z.1.2.1 = dot (φb · ·) (b.take n) (kb.drop n) ∧
    η z.1.2.2 = some (ψ' (dot (β · ·) (a.drop n) (b.take n)))) ∧
  z.2.1 = dot (φa · ·) (a.take n) (ka.drop n) ∧ z.2.2.1 = dot (φb · ·) (b.drop n) (kb.take n) ∧
    η z.2.2.2 = some (ψ' (dot (β · ·) (a.take n) (b.drop n)))

variable {β φa φb η ψ'} {ψ : T → OT}

/-- If a round leads to a true statement for four challenges, the prover sent the honest commitments. -/
theorem cross_of_four (R : Reads F η ψ ψ') (ka : List KA) (kb : List KB) (com l r : OA × OB × OT)
    (n : ℕ) (ha : ka.length = 2 * n) (hb : kb.length = 2 * n) (bA : Binding φa ka) (bB : Binding φb kb)
    (c : Fin 4 → F) (hc : Function.Injective c) (h0 : ∀ i, c i ≠ 0)
    (h : ∀ i, Opens β φa φb η ψ' (foldHalf (c i)⁻¹ ka) (foldHalf (c i) kb)
      (c i • l.1 + com.1 + (c i)⁻¹ • r.1, c i • l.2.1 + com.2.1 + (c i)⁻¹ • r.2.1,
        c i • l.2.2 + com.2.2 + (c i)⁻¹ • r.2.2)) :
    ∃ a b, OpensTo β φa φb η ψ' ka kb com a b ∧ Cross β φa φb η ψ' n ka kb a b (l, r) := by
  choose a b h1 h2 h3 h4 h5 using h
  have la : ∀ i, (a i).length = n := fun i => by rw [h1, length_foldHalf _ _ n ha]
  have lb : ∀ i, (b i).length = n := fun i => by rw [h2, length_foldHalf _ _ n hb]
  have d0 : ∀ i, (c i)⁻¹ ≠ 0 := fun i => inv_ne_zero (h0 i)
  have hd : Function.Injective fun i => (c i)⁻¹ := fun i j e => hc (inv_injective e)
  have hopA : ∀ i, dot (φa · ·) (a i) (foldHalf (c i)⁻¹ ka) =
        c i • l.1 + com.1 + (c i)⁻¹ • r.1 := fun i => (h3 i).symm
  have hopB : ∀ i, dot (φb · ·) (b i) (foldHalf ((c i)⁻¹)⁻¹ kb) =
        (c i)⁻¹ • r.2.1 + com.2.1 + ((c i)⁻¹)⁻¹ • l.2.1 := by
    intro i
    rw [inv_inv, ← h4 i]; module
  have eA : ∀ i, expected c a i = unfold (c i)⁻¹ (a i) := fun i =>
    bA _ _ (by rw [length_expected c a n la, ha]) (by rw [length_unfold, la, ha])
      (expected_opens φa c h0 hc a n la ka ha _ _ _ hopA i)
  have eB : ∀ i, expected (fun i => (c i)⁻¹) b i = unfold ((c i)⁻¹)⁻¹ (b i) := fun i =>
    bB _ _ (by rw [length_expected _ b n lb, hb]) (by rw [length_unfold, lb, hb])
      (expected_opens φb _ d0 hd b n lb kb hb _ _ _ hopB i)
  obtain ⟨-, oa, -⟩ := side_opens φa c h0 hc a n la ka ha _ _ _ hopA
  obtain ⟨-, ob, -⟩ := side_opens φb _ d0 hd b n lb kb hb _ _ _ hopB
  have sa := length_side wM c a n la
  have sb := length_side wM (fun i => (c i)⁻¹) b n lb
  set A := side wM c a with hA
  set B := side wM (fun i => (c i)⁻¹) b with hB
  have fA : ∀ i, a i = foldHalf (c i) A := fold_of_expected c h0 hc a n la eA
  have fB : ∀ i, b i = foldHalf (c i)⁻¹ B := fold_of_expected _ d0 hd b n lb eB
  have kA : ∀ i, c i • l.1 + com.1 + (c i)⁻¹ • r.1 = c i • dot (φa · ·) (A.drop n) (ka.take n) + com.1
      + (c i)⁻¹ • dot (φa · ·) (A.take n) (ka.drop n) := by
    intro i
    rw [← hopA i, fA i, dot_fold φa (c i) (h0 i) _ _ n sa ha, oa]
  have kB : ∀ i, c i • l.2.1 + com.2.1 + (c i)⁻¹ • r.2.1 = c i • dot (φb · ·) (B.take n) (kb.drop n) + com.2.1
      + (c i)⁻¹ • dot (φb · ·) (B.drop n) (kb.take n) := by
    intro i
    have := hopB i
    rw [inv_inv, fB i, dot_fold' φb (c i) (h0 i) _ _ n sb hb, ob] at this
    rw [this]; abel
  obtain ⟨a1, a2⟩ := three_runs_all c h0 hc _ _ _ _ _ _ kA
  obtain ⟨b1, b2⟩ := three_runs_all c h0 hc _ _ _ _ _ _ kB
  have key : ∀ i, η (c i • l.2.2 + com.2.2 + (c i)⁻¹ • r.2.2) = some (ψ' (
      c i • dot (β · ·) (A.drop n) (B.take n) + dot (β · ·) A B
      + (c i)⁻¹ • dot (β · ·) (A.take n) (B.drop n))) := by
    intro i
    rw [h5 i, fA i, fB i, dot_fold β (c i) (h0 i) _ _ n sa sb]
  simp only [R.add, R.smul, map_add, map_smul] at key
  cases h1 : η l.2.2 with
  | none => simpa [h1] using key 0
  | some x =>
    cases h2 : η com.2.2 with
    | none => simpa [h1, h2] using key 0
    | some y =>
      cases h3 : η r.2.2 with
      | none => simpa [h1, h2, h3] using key 0
      | some z =>
        simp only [h1, h2, h3, Option.map_some, Option.bind_some, Option.some.injEq] at key
        have m1 := three_runs c h0 hc _ _ _ _ _ _ key
        obtain ⟨l1, r1⟩ := three_runs_all c h0 hc _ _ _ _ _ _ key
        exact ⟨A, B, ⟨by rw [sa, ha], by rw [sb, hb], oa.symm, ob.symm, by rw [h2, m1]⟩,
          ⟨a1, b1, by rw [h1, l1]⟩, a2, b2, by rw [h3, r1]⟩

/-- An honest round leads from a true statement to the folded true statement. -/
theorem OpensTo.fold (R : Reads F η ψ ψ') {ka : List KA} {kb : List KB} {com : OA × OB × OT} {a : List MA}
    {b : List MB} (h : OpensTo β φa φb η ψ' ka kb com a b) (n : ℕ) (ha : ka.length = 2 * n) (hb : kb.length = 2 * n)
    {z : (OA × OB × OT) × (OA × OB × OT)} (hz : Cross β φa φb η ψ' n ka kb a b z) (x : F) (hx : x ≠ 0) :
    OpensTo β φa φb η ψ' (foldHalf x⁻¹ ka) (foldHalf x kb)
      (x • z.1.1 + com.1 + x⁻¹ • z.2.1, x • z.1.2.1 + com.2.1 + x⁻¹ • z.2.2.1,
        x • z.1.2.2 + com.2.2 + x⁻¹ • z.2.2.2) (foldHalf x a) (foldHalf x⁻¹ b) := by
  obtain ⟨h1, h2, h3, h4, h5⟩ := h
  obtain ⟨⟨z1, z2, z3⟩, z4, z5, z6⟩ := hz
  rw [ha] at h1
  rw [hb] at h2
  refine ⟨by rw [length_foldHalf _ _ n h1, length_foldHalf _ _ n ha],
    by rw [length_foldHalf _ _ n h2, length_foldHalf _ _ n hb], ?_, ?_, ?_⟩
  · rw [dot_fold φa x hx _ _ n h1 ha, z1, z4, h3]
  · rw [dot_fold' φb x hx _ _ n h2 hb, z2, z5, h4]
  · simp only [R.add, R.smul, z3, z6, h5, Option.map_some, Option.bind_some, dot_fold β x hx _ _ n h1 h2, map_add,
      map_smul]

end Round

/-! ## Rounds as a chain -/

section Chain
variable (β : MA →ₗ[F] MB →ₗ[F] T) (φa : MA →ₗ[F] KA →ₗ[F] OA) (φb : MB →ₗ[F] KB →ₗ[F] OB)
  (η : OT → Option O) (ψ' : T →ₗ[F] O)

/-- One round; the flag records that the prover has left the honest run. -/
noncomputable def foldFlag (st : St KA KB OA OB OT × Prop) (z : (OA × OB × OT) × (OA × OB × OT)) (x : F) :
    St KA KB OA OB OT × Prop :=
  (foldSt st.1 z x, st.2 ∨ ∃ n, st.1.1.length = 2 * n ∧ ¬ ∃ a b,
    OpensTo β φa φb η ψ' st.1.1 st.1.2.1 st.1.2.2 a b ∧ Cross β φa φb η ψ' n st.1.1 st.1.2.1 a b z)

/-- If the prover has left the honest run, the statement is false. -/
def Caught (st : St KA KB OA OB OT × Prop) : Prop :=
  st.1.1.length = st.1.2.1.length ∧ Binding φa st.1.1 ∧ Binding φb st.1.2.1 ∧
    (st.2 → ¬ Opens β φa φb η ψ' st.1.1 st.1.2.1 st.1.2.2)

variable {β φa φb η ψ'} {ψ : T → OT}

theorem caught_le (R : Reads F η ψ ψ') {D : Type} (key : D → F) (m : ℕ)
    (hm : ∀ (x : F) (S : Finset D), (∀ d ∈ S, key d = x) → S.card ≤ m)
    (st : St KA KB OA OB OT × Prop) (z : (OA × OB × OT) × (OA × OB × OT)) (hst : Caught β φa φb η ψ' st)
    (S : Finset D) (hS : ∀ d ∈ S, ¬ Caught β φa φb η ψ' (foldFlag β φa φb η ψ' st z (key d))) :
    S.card ≤ 4 * m := by
  classical
  obtain ⟨hlen, bA, bB, hno⟩ := hst
  by_cases hop : Opens β φa φb η ψ' st.1.1 st.1.2.1 st.1.2.2
  swap
  · exact escape_le R key m hm st.1 z ⟨hlen, bA, bB, hop⟩ S fun d hd h =>
      hS d hd ⟨h.1, h.2.1, h.2.2.1, fun _ => h.2.2.2⟩
  have hflag : ¬ st.2 := fun h => hno h hop
  by_cases hn : ∃ n, st.1.1.length = 2 * n
  · obtain ⟨n, ha⟩ := hn
    have hb : st.1.2.1.length = 2 * n := by rw [← hlen, ha]
    have hfold : ∀ d, foldSt st.1 z (key d) = (foldHalf (key d)⁻¹ st.1.1, foldHalf (key d) st.1.2.1,
        (key d • z.1.1 + st.1.2.2.1 + (key d)⁻¹ • z.2.1, key d • z.1.2.1 + st.1.2.2.2.1 + (key d)⁻¹ • z.2.2.1,
          key d • z.1.2.2 + st.1.2.2.2.2 + (key d)⁻¹ • z.2.2.2)) := fun d => by
      rw [foldSt, if_pos ⟨n, ha⟩]
    have hcaught : ∀ d, ((foldFlag β φa φb η ψ' st z (key d)).2 → ¬ Opens β φa φb η ψ' (foldSt st.1 z (key d)).1
        (foldSt st.1 z (key d)).2.1 (foldSt st.1 z (key d)).2.2) →
        Caught β φa φb η ψ' (foldFlag β φa φb η ψ' st z (key d)) := by
      intro d h
      refine ⟨?_, ?_, ?_, h⟩
      all_goals simp only [foldFlag, hfold]
      · rw [length_foldHalf _ _ n ha, length_foldHalf _ _ n hb]
      · exact bA.fold n ha _
      · exact bB.fold n hb _
    have hop' : ∀ d ∈ S, (foldFlag β φa φb η ψ' st z (key d)).2 ∧ Opens β φa φb η ψ' (foldHalf (key d)⁻¹ st.1.1)
        (foldHalf (key d) st.1.2.1)
        (key d • z.1.1 + st.1.2.2.1 + (key d)⁻¹ • z.2.1, key d • z.1.2.1 + st.1.2.2.2.1 + (key d)⁻¹ • z.2.2.1,
          key d • z.1.2.2 + st.1.2.2.2.2 + (key d)⁻¹ • z.2.2.2) := by
      intro d hd
      have := mt (hcaught d) (hS d hd)
      rw [Classical.not_imp, not_not, hfold] at this
      exact this
    have hT4 : (S.image key).card ≤ 4 := by
      by_contra hcon
      have h4 : 4 ≤ ((S.image key).erase 0).card := by
        have := Finset.pred_card_le_card_erase (s := S.image key) (a := 0)
        omega
      obtain ⟨U, hU, hU4⟩ := Finset.exists_subset_card_eq h4
      let c : Fin 4 → F := fun i => (U.equivFin.symm (Fin.cast hU4.symm i) : U)
      have hcU : ∀ i, c i ∈ U := fun i => (U.equivFin.symm (Fin.cast hU4.symm i)).2
      have hc : Function.Injective c := fun i j h => by
        have := U.equivFin.symm.injective (Subtype.ext h)
        exact Fin.cast_injective _ this
      have hcr := cross_of_four R st.1.1 st.1.2.1 st.1.2.2 z.1 z.2 n ha hb bA bB c hc
        (fun i => (Finset.mem_erase.mp (hU (hcU i))).1) fun i => by
          obtain ⟨d, hd, he⟩ := Finset.mem_image.mp (Finset.mem_erase.mp (hU (hcU i))).2
          have := (hop' d hd).2
          rw [he] at this
          exact this
      obtain ⟨d, hd, -⟩ := Finset.mem_image.mp (Finset.mem_erase.mp (hU (hcU 0))).2
      rcases (hop' d hd).1 with h | ⟨n', hn', h⟩
      · exact hflag h
      · obtain rfl : n' = n := by omega
        exact h hcr
    rw [Finset.card_eq_sum_card_image key S]
    refine (Finset.sum_le_card_nsmul _ _ m fun x _ => ?_).trans ?_
    · exact hm x _ fun d hd => (Finset.mem_filter.mp hd).2
    · rw [smul_eq_mul]
      exact Nat.mul_le_mul_right m hT4
  · have : S = ∅ := by
      apply Finset.eq_empty_of_forall_notMem
      intro d hd
      refine hS d hd ?_
      simp only [foldFlag, foldSt, if_neg hn]
      refine ⟨hlen, bA, bB, fun h => ?_⟩
      rcases h with h | ⟨n, h, -⟩
      · exact absurd h hflag
      · exact absurd ⟨n, h⟩ hn
    simp [this]

variable (β φa φb η ψ')

/-- The steps are those of the honest prover for `a`, `b`. -/
def HonestRun : List (((OA × OB × OT) × (OA × OB × OT)) × F) → List KA → List KB → List MA → List MB → Prop
  | [], _, _, _, _ => True
  | p :: ps, ka, kb, a, b => Cross β φa φb η ψ' (2 ^ ps.length) ka kb a b p.1 ∧
      HonestRun ps (foldHalf p.2⁻¹ ka) (foldHalf p.2 kb) (foldHalf p.2 a) (foldHalf p.2⁻¹ b)

variable {β φa φb η ψ'}

theorem foldl_flag_fst (st : St KA KB OA OB OT × Prop) (ps : List (((OA × OB × OT) × (OA × OB × OT)) × F)) :
    (ps.foldl (fun st p => foldFlag β φa φb η ψ' st p.1 p.2) st).1 =
      ps.foldl (fun st p => foldSt st p.1 p.2) st.1 := by
  induction ps generalizing st with
  | nil => rfl
  | cons p ps ih => rw [List.foldl_cons, ih]; rfl

/-- A run that is not flagged is honest and ends with the folded messages. -/
theorem honest_of_unflagged (R : Reads F η ψ ψ') : ∀ (ps : List (((OA × OB × OT) × (OA × OB × OT)) × F))
    (ka : List KA) (kb : List KB) (com : OA × OB × OT) (fl : Prop) (a : List MA) (b : List MB),
    ka.length = 2 ^ ps.length → kb.length = 2 ^ ps.length → Binding φa ka → Binding φb kb → (∀ p ∈ ps, p.2 ≠ 0) →
    OpensTo β φa φb η ψ' ka kb com a b →
    ¬ (ps.foldl (fun st p => foldFlag β φa φb η ψ' st p.1 p.2) ((ka, kb, com), fl)).2 →
    let fin := (ps.foldl (fun st p => foldFlag β φa φb η ψ' st p.1 p.2) ((ka, kb, com), fl)).1
    ¬ fl ∧ HonestRun β φa φb η ψ' ps ka kb a b ∧
      OpensTo β φa φb η ψ' fin.1 fin.2.1 fin.2.2 (foldAll (ps.map (·.2)) a) (foldAll ((ps.map (·.2)).map (·⁻¹)) b)
  | [], ka, kb, com, fl, a, b, _, _, _, _, _, hop, hf => ⟨hf, trivial, by simpa [foldAll] using hop⟩
  | p :: ps, ka, kb, com, fl, a, b, ha, hb, bA, bB, h0, hop, hf => by
    have h2 : (2 : ℕ) ^ (ps.length + 1) = 2 * 2 ^ ps.length := by rw [pow_succ]; ring
    rw [List.length_cons, h2] at ha hb
    have hx : p.2 ≠ 0 := h0 p (by simp)
    rw [List.foldl_cons] at hf
    set fl' := (foldFlag β φa φb η ψ' ((ka, kb, com), fl) p.1 p.2).2 with hfl
    have hfold : foldFlag β φa φb η ψ' ((ka, kb, com), fl) p.1 p.2 = ((foldHalf p.2⁻¹ ka, foldHalf p.2 kb,
        (p.2 • p.1.1.1 + com.1 + p.2⁻¹ • p.1.2.1, p.2 • p.1.1.2.1 + com.2.1 + p.2⁻¹ • p.1.2.2.1,
          p.2 • p.1.1.2.2 + com.2.2 + p.2⁻¹ • p.1.2.2.2)), fl') := by
      rw [hfl]
      simp only [foldFlag]
      rw [foldSt, if_pos ⟨_, ha⟩]
    by_cases hfl' : fl'
    · exfalso
      apply hf
      rw [hfold]
      have : ∀ (qs : List (((OA × OB × OT) × (OA × OB × OT)) × F)) (st : St KA KB OA OB OT × Prop), st.2 →
          (qs.foldl (fun st p => foldFlag β φa φb η ψ' st p.1 p.2) st).2 := by
        intro qs
        induction qs with
        | nil => exact fun st h => h
        | cons q qs ih => exact fun st h => ih _ (Or.inl h)
      exact this _ _ hfl'
    · have hno := hfl'
      simp only [hfl, foldFlag, not_or] at hno
      obtain ⟨hfl0, hcr⟩ := hno
      have hcr : ∃ a b, OpensTo β φa φb η ψ' ka kb com a b ∧ Cross β φa φb η ψ' (2 ^ ps.length) ka kb a b p.1 := by
        by_contra h
        exact hcr ⟨_, ha, h⟩
      obtain ⟨a', b', ho, hcr⟩ := hcr
      obtain rfl : a' = a := bA _ _ ho.1 hop.1 (by rw [← ho.2.2.1, ← hop.2.2.1])
      obtain rfl : b' = b := bB _ _ ho.2.1 hop.2.1 (by rw [← ho.2.2.2.1, ← hop.2.2.2.1])
      rw [hfold] at hf
      obtain ⟨-, i1, i2⟩ := honest_of_unflagged R ps _ _ _ fl' _ _ (length_foldHalf _ _ _ ha)
        (length_foldHalf _ _ _ hb) (bA.fold _ ha _) (bB.fold _ hb _) (fun q hq => h0 q (by simp [hq]))
        (ho.fold R _ ha hb hcr _ hx) hf
      refine ⟨hfl0, ⟨hcr, i1⟩, ?_⟩
      rw [List.foldl_cons, hfold]
      simpa [foldAll] using i2

end Chain


/-! ## The honest prover -/

section Honest
variable [DecidableEq F] [DecidableEq T] [DecidableEq OA] [DecidableEq OB] [DecidableEq OT] {n : ℕ}

theorem dot_keyOf {M K C : Type} [AddCommGroup M] [Module F M] [AddCommGroup K] [Module F K] [AddCommGroup C]
    [Module F C] (φ : M →ₗ[F] K →ₗ[F] C) (v : Fin n → K) : ∀ (m : List M) (k : List (Fin n → F)),
    dot (φ · ·) m (k.map (keyOf v)) = commitTo φ v (dot (formal n · ·) m k)
  | [], _ => by simp
  | _ :: _, [] => by simp
  | x :: m, k :: ks => by
    rw [List.map_cons, dot_cons, dot_cons, map_add, commitTo_formal, dot_keyOf φ v m ks]

variable {P : Gipa ρ F MA MB T KA KB KT OA OB OT} {β : MA →ₗ[F] MB →ₗ[F] T} {φa : MA →ₗ[F] KA →ₗ[F] OA}
  {φb : MB →ₗ[F] KB →ₗ[F] OB} {ψ : KT → T → OT} {η : OT → Option O} {ψ' : T →ₗ[F] O}
  {va : Fin n → KA} {vb : Fin n → KB}

/-- The prover makes an honest run. -/
theorem proveLoop_honest (L : P.Lawful β φa φb ψ) (kt : KT) :
    ∀ (ps : List ((Known n MA MB OT × Known n MA MB OT) × F)) (ka kb : List (Fin n → F)) (fuel : ℕ)
      (st : ProveState F MA MB KA KB OA OB OT), ps.length ≤ fuel → st.ma.length = 2 ^ ps.length →
      st.mb.length = 2 ^ ps.length → ka.length = 2 ^ ps.length → kb.length = 2 ^ ps.length →
      st.cka = ka.map (keyOf va) → st.ckb = kb.map (keyOf vb) →
      HonestRun β (formal n) (formal n) η ψ' ps ka kb st.ma st.mb →
      (∀ p ∈ ps, ∀ t, (η p.1.1.2.2 = some (ψ' t) → p.1.1.2.2 = ψ kt t) ∧
        (η p.1.2.2.2 = some (ψ' t) → p.1.2.2.2 = ψ kt t)) →
      P.chals (ps.map fun p => (coms φa φb id va vb p.1.1, coms φa φb id va vb p.1.2)) st.transcript =
        .ok (st.transcript ++ ps.map (·.2)) →
      ∃ a b aux, foldAll (ps.map (·.2)) st.ma = [a] ∧ foldAll ((ps.map (·.2)).map (·⁻¹)) st.mb = [b] ∧
        P.proveLoop [kt] fuel st = .ok (⟨(st.steps ++
          ps.map fun p => (coms φa φb id va vb p.1.1, coms φa φb id va vb p.1.2)).reverse, (a, b)⟩, aux)
  | [], ka, kb, fuel, st, _, h1, h2, h3, h4, hka, hkb, _, _, _ => by
    obtain ⟨a, ha⟩ := List.length_eq_one_iff.mp (by simpa using h1)
    obtain ⟨b, hb⟩ := List.length_eq_one_iff.mp (by simpa using h2)
    obtain ⟨ka, rfl⟩ := List.length_eq_one_iff.mp (by simpa using h3)
    obtain ⟨kb, rfl⟩ := List.length_eq_one_iff.mp (by simpa using h4)
    refine ⟨a, b, ⟨st.transcript.reverse, (keyOf va ka, keyOf vb kb)⟩, by simp [foldAll, ha], by simp [foldAll, hb], ?_⟩
    rw [Gipa.proveLoop.eq_def]
    simp [ha, hb, hka, hkb]
  | p :: ps, ka, kb, fuel, st, hf, h1, h2, h3, h4, hka, hkb, hon, hτ, hch => by
    obtain ⟨fuel, rfl⟩ : ∃ f, fuel = f + 1 := ⟨fuel - 1, by simp at hf; omega⟩
    have e : (2 : ℕ) ^ (ps.length + 1) = 2 * 2 ^ ps.length := by rw [pow_succ]; ring
    rw [List.length_cons, e] at h1 h2 h3 h4
    have hne : ¬ st.ma.length = 1 := by omega
    have c1 : coms φa φb id va vb p.1.1 = Gipa.cross1 β φa φb ψ kt (2 ^ ps.length) st.ma st.mb st.cka st.ckb := by
      obtain ⟨⟨z1, z2, z3⟩, -⟩ := hon.1
      simp only [Gipa.cross1, Gipa.honestComs, coms, id, hka, hkb, ← List.map_take, ← List.map_drop, dot_keyOf, z1, z2,
        ((hτ p (by simp) _).1 z3)]
    have c2 : coms φa φb id va vb p.1.2 = Gipa.cross2 β φa φb ψ kt (2 ^ ps.length) st.ma st.mb st.cka st.ckb := by
      obtain ⟨-, z1, z2, z3⟩ := hon.1
      simp only [Gipa.cross2, Gipa.honestComs, coms, id, hka, hkb, ← List.map_take, ← List.map_drop, dot_keyOf, z1, z2,
        ((hτ p (by simp) _).2 z3)]
    rw [List.map_cons, Gipa.chals, bind_eq_ok] at hch
    obtain ⟨⟨c, ci⟩, hc1, hc2⟩ := hch
    obtain rfl : c = p.2 := by
      obtain ⟨new, hnew, -⟩ := P.chals_prefix _ _ _ hc2
      rw [List.map_cons, List.append_assoc] at hnew
      have := List.append_cancel_left hnew
      simpa using (List.cons.inj this).1.symm
    rw [Gipa.proveLoop.eq_def]
    simp only [if_neg hne]
    rw [Gipa.proveRound_eq L kt (2 ^ ps.length) st h1 h2 (by rw [hka, List.length_map, h3])
      (by rw [hkb, List.length_map, h4]), ← c1, ← c2, hc1]
    simp only [ok_bind]
    obtain ⟨a, b, aux, f1, f2, hrun⟩ := proveLoop_honest L kt ps (foldHalf p.2⁻¹ ka) (foldHalf p.2 kb) fuel
      (Gipa.nextState p.2 (coms φa φb id va vb p.1.1) (coms φa φb id va vb p.1.2) st) (by simp at hf; omega)
      (length_foldHalf _ _ _ h1) (length_foldHalf _ _ _ h2) (length_foldHalf _ _ _ h3) (length_foldHalf _ _ _ h4)
      (by rw [map_foldHalf]; simp [Gipa.nextState, hka]) (by rw [map_foldHalf]; simp [Gipa.nextState, hkb]) hon.2
      (fun q hq => hτ q (by simp [hq])) (by rw [Gipa.nextState]; simpa using hc2)
    exact ⟨a, b, aux, f1, f2, by rw [hrun]; simp [Gipa.nextState]⟩

end Honest

/-! ## The theorem -/

section Unique
variable [DecidableEq F] [DecidableEq T] [DecidableEq OA] [DecidableEq OB] [DecidableEq OT] {n : ℕ}
  {P : Gipa ρ F MA MB T KA KB KT OA OB OT} {φa : MA →ₗ[F] KA →ₗ[F] OA} {φb : MB →ₗ[F] KB →ₗ[F] OB}
  {τ : RT → OT} {va : Fin n → KA} {vb : Fin n → KB} {Xs Ds : Finset Bytes}
  (hmem : ∀ k z1 z2, P.hashInput 0 k (coms φa φb τ va vb z1) (coms φa φb τ va vb z2) ∈ Xs)
  {β : MA →ₗ[F] MB →ₗ[F] T} {ψ : KT → T → OT} {η : OT → Option O} {ψ' : T →ₗ[F] O}

open Classical in
/-- C125: fix keys of length `2^k`, commitments and an opening of the two vector commitments. Then for a prover that
knows openings of the commitments it hashes it holds, for all but `(N (N + 5) m) / |Ds|` of all oracles: if the
verifier accepts and no collision of the keys is found, the committed inner product is the right one and the proof is
the one `GIPA::prove_with_aux` returns for the opening. -/
theorem C125_unique (L : P.Lawful β φa φb ψ) (kt : KT) (R : Reads F η (ψ kt) ψ')
    (hτ : ∀ r t, η (τ r) = some (ψ' t) → τ r = ψ kt t)
    (hF : Decodable (fun _ => True) P.serF) (hA : Decodable (fun _ => True) P.serA)
    (hB : Decodable (fun _ => True) P.serB) (hT : Decodable (· ∈ Set.range τ) P.serT)
    (hd : ∀ d ∈ Ds, 16 ≤ d.length) (m : ℕ)
    (hm : ∀ x : F, (Finset.univ.filter fun d : Ds => challengeOf F d = x).card ≤ m) (k : ℕ)
    (hn : n = 2 ^ k) (com : Coms OA OB OT) (ra : Fin n → MA) (rb : Fin n → MB)
    (hra : com.1 = commitTo φa va ra) (hrb : com.2.1 = commitTo φb vb rb)
    (A : Prover n MA MB RT Xs Ds) (Q : ℕ)
    (hlab : ∀ ds z x, A.query ds = link P φa φb τ va vb hmem z x →
      coms φa φb τ va vb (A.label ds).1 = coms φa φb τ va vb z.1 ∧
      coms φa φb τ va vb (A.label ds).2 = coms φa φb τ va vb z.2)
    (hsteps : ∀ ds, (A.steps ds).length = k) :
    (Finset.univ.filter fun H : Xs → Ds =>
      (withDigest P (Sipp.oracle H)).verify (List.ofFn va) (List.ofFn vb) kt com
        (A.proof φa φb τ va vb Q H) = .ok true ∧
      ¬ Clash φa va (A.pairA P φa φb τ va vb hmem ra Q k H) ∧
      ¬ Clash φb vb (A.pairB P φa φb τ va vb hmem rb Q k H) ∧
      ¬ (η com.2.2 = some (ψ' (∑ i, β (ra i) (rb i))) ∧
        ∃ aux, (withDigest P (Sipp.oracle H)).proveWithAux (List.ofFn ra) (List.ofFn rb) (List.ofFn va)
          (List.ofFn vb) [kt] = .ok (A.proof φa φb τ va vb Q H, aux))).card * Ds.card ≤
    (Q + k) * (Q + k + 5) * m * Ds.card ^ Xs.card := by
  have hinj : ∀ (z : Known n MA MB RT × Known n MA MB RT) (x : F) z' x',
      link P φa φb τ va vb hmem z x = link P φa φb τ va vb hmem z' x' → x = x' := by
    intro z x z' x' h
    have h := congrArg Subtype.val h
    simp only [link, Gipa.hashInput, List.append_assoc] at h
    obtain ⟨-, h⟩ := decodable_nonce _ _ _ _ (by norm_num) (by norm_num) h
    exact (hF _ _ _ _ trivial trivial h).1
  have hm' : ∀ (x : F) (S : Finset Ds), (∀ d ∈ S, challengeOf F d = x) → S.card ≤ m := fun x S hS =>
    (Finset.card_le_card fun d hd => Finset.mem_filter.mpr ⟨Finset.mem_univ _, hS d hd⟩).trans (hm x)
  let st0 : St (Fin n → F) (Fin n → F) (Fin n → MA) (Fin n → MB) OT :=
    (formalKey n, formalKey n, (ra, rb, com.2.2))
  let fl : Prop := η com.2.2 ≠ some (ψ' (∑ i, β (ra i) (rb i)))
  have hst : Caught β (formal n) (formal n) η ψ' (st0, fl) := by
    refine ⟨by simp [st0, formalKey], binding_formal, binding_formal, ?_⟩
    rintro hfalse ⟨a, b, h1, h2, h3, h4, h5⟩
    obtain rfl : a = List.ofFn ra := binding_formal _ _ h1 (by simp [formalKey])
      (by rw [← h3, dot_formalKey])
    obtain rfl : b = List.ofFn rb := binding_formal _ _ h2 (by simp [formalKey])
      (by rw [← h4, dot_formalKey])
    rw [dot_ofFn] at h5
    exact hfalse h5
  have c1 : Fintype.card Ds = Ds.card := Fintype.card_coe Ds
  have c2 : Fintype.card (Xs → Ds) = Ds.card ^ Xs.card := by
    rw [Fintype.card_fun, Fintype.card_coe, Fintype.card_coe]
  have c3 : (Q + k) * (4 * m) + (Q + k) * (Q + k + 1) * m = (Q + k) * (Q + k + 5) * m := by ring
  rw [← c2, ← c1, ← c3]
  refine Oracle.count_static A.query Q A.steps (link P φa φb τ va vb hmem) (challengeOf F) 0 A.label (st0, fl)
    (fun st z d => foldFlag β (formal n) (formal n) η ψ' st (lift τ z) (challengeOf F d))
    (Caught β (formal n) (formal n) η ψ') hinj m (4 * m) hm'
    (fun st z hst S hS => caught_le R (challengeOf F) m hm' st (lift τ z) hst S hS) hst k
    (fun ds => (hsteps ds).le) _ ?_
  intro H hH
  obtain ⟨-, hacc, hcA, hcB, hnot⟩ := Finset.mem_filter.mp hH
  rintro ⟨hdm, hne⟩
  obtain ⟨plen, hcoms, ⟨com', hrec⟩, h1, h2, h3, h4, h5⟩ := accepted_end hmem L kt R hF hA hB hT hd k hn com ra rb
    hra hrb A Q hlab hsteps H hacc hcA hcB hne
  rw [Oracle.follow_eq] at hdm
  have hfold : (Oracle.queries (link P φa φb τ va vb hmem) (challengeOf F) H 0
      (A.steps (Oracle.trace A.query H Q))).foldl (fun st x =>
      foldFlag β (formal n) (formal n) η ψ' st (lift τ (Oracle.firstLabel
        (Oracle.withCheck A.query Q A.steps (link P φa φb τ va vb hmem) (challengeOf F) 0)
        (Oracle.withLabels Q A.steps A.label) H (Q + k) x)) (challengeOf F (H x))) (st0, fl) =
      (A.rounds hmem Q k H).foldl (fun st p => foldFlag β (formal n) (formal n) η ψ' st p.1 p.2) (st0, fl) := by
    rw [Prover.rounds, List.foldl_map]; rfl
  rw [hfold] at hdm
  set ps := A.rounds (P := P) (φa := φa) (φb := φb) (τ := τ) (va := va) (vb := vb) hmem Q k H with hps
  obtain ⟨-, bA, bB, hflag⟩ := hdm
  rw [foldl_flag_fst] at bA bB hflag
  have hunf := fun h => hflag h ⟨[(A.proof φa φb τ va vb Q H).base.1], [(A.proof φa φb τ va vb Q H).base.2],
    h1, h2, h3, h4, h5⟩
  -- the run is honest
  by_cases hfl : fl
  · refine hunf ?_
    have : ∀ (qs : List ((Known n MA MB OT × Known n MA MB OT) × F))
        (st : St (Fin n → F) (Fin n → F) (Fin n → MA) (Fin n → MB) OT × Prop), st.2 →
        (qs.foldl (fun st p => foldFlag β (formal n) (formal n) η ψ' st p.1 p.2) st).2 := by
      intro qs
      induction qs with
      | nil => exact fun st h => h
      | cons q qs ih => exact fun st h => ih _ (Or.inl h)
    exact this _ _ hfl
  have hsum : η com.2.2 = some (ψ' (∑ i, β (ra i) (rb i))) := not_not.mp hfl
  have hlen : (formalKey (F := F) n).length = 2 ^ ps.length := by simp [formalKey, plen, hn]
  have hne0 : ∀ p ∈ ps, p.2 ≠ 0 := by
    intro p hp
    obtain ⟨x, hx, rfl⟩ := List.mem_map.mp hp
    exact hne x hx
  obtain ⟨-, hrun, hend⟩ := honest_of_unflagged R ps _ _ _ fl (List.ofFn ra) (List.ofFn rb) hlen hlen binding_formal
    binding_formal hne0 ⟨by simp [formalKey], by simp [formalKey], (dot_formalKey ra).symm, (dot_formalKey rb).symm,
      by rw [dot_ofFn]; exact hsum⟩ hunf
  rw [foldl_flag_fst] at hend
  have L' : (withDigest P (Sipp.oracle H)).Lawful β φa φb ψ :=
    ⟨L.ip_ok, L.lmc_ok, L.rmc_ok, L.ipc_ok, L.ψ_add, L.ψ_smul⟩
  have hch : (withDigest P (Sipp.oracle H)).chals
      (ps.map fun p => (coms φa φb id va vb p.1.1, coms φa φb id va vb p.1.2)) [] = .ok (ps.map (·.2)) := by
    rw [hcoms]
    rw [Gipa.recLoop_eq, bind_eq_ok] at hrec
    obtain ⟨tr, htr, h⟩ := hrec
    have e : tr = ps.map (·.2) := (Prod.ext_iff.mp (Except.ok.inj h)).2
    rw [htr, e]
  have hlab' : ∀ p ∈ ps, ∀ t, (η p.1.1.2.2 = some (ψ' t) → p.1.1.2.2 = ψ kt t) ∧
        (η p.1.2.2.2 = some (ψ' t) → p.1.2.2.2 = ψ kt t) := by
    intro p hp t
    obtain ⟨x, hx, rfl⟩ := List.mem_map.mp hp
    exact ⟨hτ _ t, hτ _ t⟩
  obtain ⟨a, b, aux, f1, f2, hprove⟩ := proveLoop_honest (va := va) (vb := vb) L' kt ps (formalKey n) (formalKey n) n
    ⟨List.ofFn ra, List.ofFn rb, List.ofFn va, List.ofFn vb, [], []⟩ (by rw [plen, hn]; exact Nat.lt_two_pow_self.le)
    (by simp [plen, hn]) (by simp [plen, hn]) hlen hlen (map_formalKey va).symm (map_formalKey vb).symm hrun hlab' hch
  -- its result is the proof
  have ea : [(A.proof φa φb τ va vb Q H).base.1] = [a] := by
    rw [← f1]
    exact bA _ _ h1 hend.1 (by rw [← h3, ← hend.2.2.1])
  have eb : [(A.proof φa φb τ va vb Q H).base.2] = [b] := by
    rw [← f2]
    exact bB _ _ h2 hend.2.1 (by rw [← h4, ← hend.2.2.2.1])
  refine hnot ⟨hsum, aux, ?_⟩
  have hpow : isPow2 n = true := by rw [hn]; exact isPow2_two_pow k
  rw [Gipa.proveWithAux, List.length_ofFn, hpow]
  simp only [assert_true, ok_bind]
  rw [hprove]
  have e1 : (A.proof φa φb τ va vb Q H).base = (a, b) :=
    Prod.ext (List.singleton_injective ea) (List.singleton_injective eb)
  rw [hcoms, ← e1]
  simp

open Classical in
/-- With keys for which different messages have different commitments, an accepted proof is the honest one but for this
share of all oracles. -/
theorem C125_binding (L : P.Lawful β φa φb ψ) (kt : KT) (R : Reads F η (ψ kt) ψ')
    (hτ : ∀ r t, η (τ r) = some (ψ' t) → τ r = ψ kt t)
    (hF : Decodable (fun _ => True) P.serF) (hA : Decodable (fun _ => True) P.serA)
    (hB : Decodable (fun _ => True) P.serB) (hT : Decodable (· ∈ Set.range τ) P.serT)
    (hd : ∀ d ∈ Ds, 16 ≤ d.length) (m : ℕ)
    (hm : ∀ x : F, (Finset.univ.filter fun d : Ds => challengeOf F d = x).card ≤ m) (k : ℕ)
    (hn : n = 2 ^ k) (com : Coms OA OB OT) (ra : Fin n → MA) (rb : Fin n → MB)
    (bA : Function.Injective (commitTo φa va)) (bB : Function.Injective (commitTo φb vb))
    (hra : com.1 = commitTo φa va ra) (hrb : com.2.1 = commitTo φb vb rb)
    (A : Prover n MA MB RT Xs Ds) (Q : ℕ)
    (hlab : ∀ ds z x, A.query ds = link P φa φb τ va vb hmem z x →
      coms φa φb τ va vb (A.label ds).1 = coms φa φb τ va vb z.1 ∧
      coms φa φb τ va vb (A.label ds).2 = coms φa φb τ va vb z.2)
    (hsteps : ∀ ds, (A.steps ds).length = k) :
    (Finset.univ.filter fun H : Xs → Ds =>
      (withDigest P (Sipp.oracle H)).verify (List.ofFn va) (List.ofFn vb) kt com
        (A.proof φa φb τ va vb Q H) = .ok true ∧
      ¬ ∃ aux, (withDigest P (Sipp.oracle H)).proveWithAux (List.ofFn ra) (List.ofFn rb) (List.ofFn va)
          (List.ofFn vb) [kt] = .ok (A.proof φa φb τ va vb Q H, aux)).card * Ds.card ≤
    (Q + k) * (Q + k + 5) * m * Ds.card ^ Xs.card := by
  refine le_trans (Nat.mul_le_mul_right _ (Finset.card_le_card fun H hH => ?_))
    (C125_unique hmem L kt R hτ hF hA hB hT hd m hm k hn com ra rb hra hrb A Q hlab hsteps)
  obtain ⟨-, h, h'⟩ := Finset.mem_filter.mp hH
  exact Finset.mem_filter.mpr ⟨Finset.mem_univ _, h, fun h => h.1 (bA h.2), fun h => h.1 (bB h.2), fun h => h' h.2⟩

open Classical in
/-- Two such provers have different accepted proofs of the same statement for at most twice this share. -/
theorem C125_two_provers (L : P.Lawful β φa φb ψ) (kt : KT) (R : Reads F η (ψ kt) ψ')
    (hτ : ∀ r t, η (τ r) = some (ψ' t) → τ r = ψ kt t)
    (hF : Decodable (fun _ => True) P.serF) (hA : Decodable (fun _ => True) P.serA)
    (hB : Decodable (fun _ => True) P.serB) (hT : Decodable (· ∈ Set.range τ) P.serT)
    (hd : ∀ d ∈ Ds, 16 ≤ d.length) (m : ℕ)
    (hm : ∀ x : F, (Finset.univ.filter fun d : Ds => challengeOf F d = x).card ≤ m) (k : ℕ)
    (hn : n = 2 ^ k) (com : Coms OA OB OT) (ra : Fin n → MA) (rb : Fin n → MB)
    (bA : Function.Injective (commitTo φa va)) (bB : Function.Injective (commitTo φb vb))
    (hra : com.1 = commitTo φa va ra) (hrb : com.2.1 = commitTo φb vb rb)
    (A A' : Prover n MA MB RT Xs Ds) (Q : ℕ)
    (hlab : ∀ B ∈ [A, A'], ∀ ds z x, B.query ds = link P φa φb τ va vb hmem z x →
      coms φa φb τ va vb (B.label ds).1 = coms φa φb τ va vb z.1 ∧
      coms φa φb τ va vb (B.label ds).2 = coms φa φb τ va vb z.2)
    (hsteps : ∀ B ∈ [A, A'], ∀ ds, (B.steps ds).length = k) :
    (Finset.univ.filter fun H : Xs → Ds =>
      (withDigest P (Sipp.oracle H)).verify (List.ofFn va) (List.ofFn vb) kt com
        (A.proof φa φb τ va vb Q H) = .ok true ∧
      (withDigest P (Sipp.oracle H)).verify (List.ofFn va) (List.ofFn vb) kt com
        (A'.proof φa φb τ va vb Q H) = .ok true ∧
      A.proof φa φb τ va vb Q H ≠ A'.proof φa φb τ va vb Q H).card * Ds.card ≤
    2 * ((Q + k) * (Q + k + 5) * m) * Ds.card ^ Xs.card := by
  have h1 := C125_binding hmem L kt R hτ hF hA hB hT hd m hm k hn com ra rb bA bB hra hrb A Q
    (hlab A (by simp)) (hsteps A (by simp))
  have h2 := C125_binding hmem L kt R hτ hF hA hB hT hd m hm k hn com ra rb bA bB hra hrb A' Q
    (hlab A' (by simp)) (hsteps A' (by simp))
  rw [mul_assoc 2, two_mul]
  refine le_trans ?_ (Nat.add_le_add h1 h2)
  rw [← Nat.add_mul]
  refine Nat.mul_le_mul_right _ ((Finset.card_le_card fun H hH => ?_).trans (Finset.card_union_le _ _))
  obtain ⟨-, v1, v2, hne⟩ := Finset.mem_filter.mp hH
  rw [Finset.mem_union, Finset.mem_filter, Finset.mem_filter]
  by_contra hcon
  simp only [Finset.mem_univ, true_and, v1, v2, not_or, not_not] at hcon
  obtain ⟨⟨_, e1⟩, _, e2⟩ := hcon
  exact hne (Prod.ext_iff.mp (Except.ok.inj (e1.symm.trans e2))).1

end Unique

/-! ## An instance: vectors of length 2 over the field with 101 elements -/

section Example
open Toy

open Classical in
/-- A prover with one query has an accepted proof of the true value 11 that is not the honest proof for at most 14 in
101 of all oracles. -/
theorem C125_example (A : Prover 2 Toy.F Toy.F Toy.F exampleInputs exampleDigests)
    (hlab : ∀ ds z x, A.query ds =
        link exampleGipa (formal 2) (formal 2) single exampleKey exampleKey exampleInputs_mem z x →
      A.label ds = z)
    (hsteps : ∀ ds, (A.steps ds).length = 1) :
    (Finset.univ.filter fun H : exampleInputs → exampleDigests =>
      (withDigest exampleGipa (Sipp.oracle H)).verify (List.ofFn exampleKey) (List.ofFn exampleKey) PUnit.unit
        (exampleA, exampleB, ⟨[11]⟩)
        (A.proof (formal (F := Toy.F) 2) (formal 2) single exampleKey exampleKey 1 H) = .ok true ∧
      ¬ ∃ aux, (withDigest exampleGipa (Sipp.oracle H)).proveWithAux [1, 2] [3, 4] (List.ofFn exampleKey)
        (List.ofFn exampleKey) [PUnit.unit] =
        .ok (A.proof (formal (F := Toy.F) 2) (formal 2) single exampleKey exampleKey 1 H, aux)).card * 101 ≤
    14 * 101 ^ exampleInputs.card := by
  have inj : Function.Injective (commitTo (formal (F := Toy.F) (M := Toy.F) 2) exampleKey) := fun x y h => by
    simpa only [commitTo_exampleKey] using h
  have := C125_binding (P := exampleGipa) (Xs := exampleInputs) (Ds := exampleDigests) (va := exampleKey)
    (vb := exampleKey) (τ := single) exampleInputs_mem exampleGipa_lawful PUnit.unit (reads_identity PUnit.unit)
    (by
      intro r t h
      simp only [single, List.head?_cons, Option.some.injEq] at h
      subst h
      rfl)
    decodable_ser decodable_pair decodable_pair (decodable_single decodable_ser)
    (by
      intro d hd
      obtain ⟨x, -, rfl⟩ := Finset.mem_image.mp hd
      simp [Toy.ser]) 1
    (fun x => Finset.card_le_one.mpr fun d hd d' hd' => exampleDigests_key d d'
      ((Finset.mem_filter.mp hd).2.trans (Finset.mem_filter.mp hd').2.symm)) 1 rfl
    (exampleA, exampleB, ⟨[11]⟩) exampleA exampleB inj inj (commitTo_exampleKey _).symm
    (commitTo_exampleKey _).symm A 1
    (fun ds z x h => by rw [hlab ds z x h]; exact ⟨rfl, rfl⟩) hsteps
  rw [card_exampleDigests, show (1 + 1) * (1 + 1 + 5) * 1 = 14 from rfl,
    show List.ofFn exampleA = [1, 2] from rfl, show List.ofFn exampleB = [3, 4] from rfl] at this
  exact this

/-- The honest proof is accepted, and it is not accepted when one entry of a step is changed. -/
example : (do
      let (π, _) ← exampleGipa.proveWithAux [1, 2] [3, 4] (List.ofFn exampleKey) (List.ofFn exampleKey) [PUnit.unit]
      let π' := { π with steps := π.steps.map fun s => ((s.1.1, s.1.2.1, ⟨[7]⟩), s.2) }
      return (← exampleGipa.verify (List.ofFn exampleKey) (List.ofFn exampleKey) PUnit.unit
        (exampleA, exampleB, ⟨[11]⟩) π,
        ← exampleGipa.verify (List.ofFn exampleKey) (List.ofFn exampleKey) PUnit.unit
        (exampleA, exampleB, ⟨[11]⟩) π')) = Except.ok (true, false) := by
  decide +kernel

end Example

end Ripp.GipaStatic
