import Verif.Props.GipaUnique
import Verif.Props.SsmStatic
import Verif.Props.SsmFree

/-!
# C129: accepted structured-message proofs in the random oracle model

As C125 for `GIPAWithSSM`. The right message is public and has no commitment; the elements of a proof that stand for it
are, except for a small share of all oracles, those of the honest prover too.
-/

set_option linter.unusedSectionVars false
set_option linter.unusedVariables false

namespace Ripp.SsmStatic

open Spec Extract GipaStatic SsmExtract

variable {ρ F MA T KA KT OA OT RT O : Type} [Field F]
  [AddCommGroup MA] [Module F MA] [AddCommGroup T] [Module F T] [AddCommGroup KA] [Module F KA]
  [AddCommGroup OA] [Module F OA] [Add OT] [SMul F OT] [AddCommGroup O] [Module F O]

/-! ## One round -/

section Round
variable (bil : MA →ₗ[F] F →ₗ[F] T) (φ : MA →ₗ[F] KA →ₗ[F] OA) (η : OT → Option O) (ψ' : T →ₗ[F] O)

/-- `a` opens the commitment, with the committed inner product. -/
def OpensTo (st : St F KA OA OT) (a : List MA) : Prop :=
  a.length = st.1.length ∧ st.2.2.1 = dot (φ · ·) a st.1 ∧ η st.2.2.2 = some (ψ' (dot (bil · ·) a st.2.1))

/-- The commitments of the two cross terms, which the honest prover sends. -/
def Cross (n : ℕ) (ka : List KA) (mb : List F) (a : List MA) (z : (OA × OT) × (OA × OT)) : Prop :=
  (z.1.1 = dot (φ · ·) (a.drop n) (ka.take n) ∧ η z.1.2 = some (ψ' (dot (bil · ·) (a.drop n) (mb.take n)))) ∧
  z.2.1 = dot (φ · ·) (a.take n) (ka.drop n) ∧ η z.2.2 = some (ψ' (dot (bil · ·) (a.take n) (mb.drop n)))

variable {bil φ η ψ'} {ψ : T → OT}

/-- If a round leads to a true statement for four challenges, the prover sent the honest commitments. -/
theorem cross_of_four (R : Reads F η ψ ψ') (st : St F KA OA OT) (z : (OA × OT) × (OA × OT)) (n : ℕ)
    (ha : st.1.length = 2 * n) (hb : st.2.1.length = 2 * n) (bA : Binding φ st.1) (c : Fin 4 → F)
    (hc : Function.Injective c) (h0 : ∀ i, c i ≠ 0) (h : ∀ i, Opens bil φ η ψ' (foldSt st z (c i))) :
    ∃ a, OpensTo bil φ η ψ' st a ∧ Cross bil φ η ψ' n st.1 st.2.1 a z := by
  have h' : ∀ i, ∃ a : List MA, a.length = n ∧
      dot (φ · ·) a (foldHalf (c i)⁻¹ st.1) = c i • z.1.1 + st.2.2.1 + (c i)⁻¹ • z.2.1 ∧
      η (c i • z.1.2 + st.2.2.2 + (c i)⁻¹ • z.2.2) = some (ψ' (dot (bil · ·) a (foldHalf (c i)⁻¹ st.2.1))) := by
    intro i
    have := h i
    rw [foldSt, if_pos ⟨n, ha⟩] at this
    obtain ⟨a, e1, e2, e3⟩ := this
    exact ⟨a, by rw [e1]; exact length_foldHalf _ _ n ha, e2.symm, e3⟩
  choose a la hop key using h'
  have eA : ∀ i, expected c a i = unfold (c i)⁻¹ (a i) := fun i =>
    bA _ _ (by rw [length_expected c a n la, ha]) (by rw [length_unfold, la, ha])
      (expected_opens φ c h0 hc a n la st.1 ha _ _ _ hop i)
  obtain ⟨-, oa, -⟩ := side_opens φ c h0 hc a n la st.1 ha _ _ _ hop
  have sa := length_side wM c a n la
  set A := side wM c a with hA
  have fA : ∀ i, a i = foldHalf (c i) A := fold_of_expected c h0 hc a n la eA
  have kA : ∀ i, c i • z.1.1 + st.2.2.1 + (c i)⁻¹ • z.2.1 = c i • dot (φ · ·) (A.drop n) (st.1.take n) + st.2.2.1
      + (c i)⁻¹ • dot (φ · ·) (A.take n) (st.1.drop n) := by
    intro i
    rw [← hop i, fA i, dot_fold φ (c i) (h0 i) _ _ n sa ha, oa]
  obtain ⟨a1, a2⟩ := three_runs_all c h0 hc _ _ _ _ _ _ kA
  have key : ∀ i, η (c i • z.1.2 + st.2.2.2 + (c i)⁻¹ • z.2.2) = some (ψ' (
      c i • dot (bil · ·) (A.drop n) (st.2.1.take n) + dot (bil · ·) A st.2.1
      + (c i)⁻¹ • dot (bil · ·) (A.take n) (st.2.1.drop n))) := by
    intro i
    rw [key i, fA i, dot_fold bil (c i) (h0 i) _ _ n sa hb]
  simp only [R.add, R.smul, map_add, map_smul] at key
  cases h1 : η z.1.2 with
  | none => simpa [h1] using key 0
  | some x =>
    cases h2 : η st.2.2.2 with
    | none => simpa [h1, h2] using key 0
    | some y =>
      cases h3 : η z.2.2 with
      | none => simpa [h1, h2, h3] using key 0
      | some w =>
        simp only [h1, h2, h3, Option.map_some, Option.bind_some, Option.some.injEq] at key
        have m1 := three_runs c h0 hc _ _ _ _ _ _ key
        obtain ⟨l1, r1⟩ := three_runs_all c h0 hc _ _ _ _ _ _ key
        exact ⟨A, ⟨by rw [sa, ha], oa.symm, by rw [h2, m1]⟩, ⟨a1, by rw [h1, l1]⟩, a2, by rw [h3, r1]⟩

/-- An honest round leads from a true statement to the folded true statement. -/
theorem OpensTo.fold (R : Reads F η ψ ψ') {st : St F KA OA OT} {a : List MA} (h : OpensTo bil φ η ψ' st a) (n : ℕ)
    (ha : st.1.length = 2 * n) (hb : st.2.1.length = 2 * n) {z : (OA × OT) × (OA × OT)}
    (hz : Cross bil φ η ψ' n st.1 st.2.1 a z) (x : F) (hx : x ≠ 0) :
    OpensTo bil φ η ψ' (foldSt st z x) (foldHalf x a) := by
  obtain ⟨h1, h3, h5⟩ := h
  obtain ⟨⟨z1, z3⟩, z4, z6⟩ := hz
  rw [ha] at h1
  rw [foldSt, if_pos ⟨n, ha⟩]
  refine ⟨?_, ?_, ?_⟩
  · change _ = (foldHalf _ st.1).length
    rw [length_foldHalf _ _ n h1, length_foldHalf _ _ n ha]
  · change _ = dot _ _ (foldHalf _ st.1)
    rw [dot_fold φ x hx _ _ n h1 ha, z1, z4, h3]
  · change η (_ + _) = some (ψ' (dot _ _ (foldHalf _ st.2.1)))
    simp only [R.add, R.smul, z3, z6, h5, Option.map_some, Option.bind_some, dot_fold bil x hx _ _ n h1 hb, map_add,
      map_smul]

/-- A quadratic equation with a non-zero coefficient has at most two non-zero solutions. -/
theorem quadratic_le (l m r : F) (h : l ≠ 0 ∨ m ≠ 0 ∨ r ≠ 0) (S : Finset F) (h0 : ∀ x ∈ S, x ≠ 0)
    (hS : ∀ x ∈ S, x • l + m + x⁻¹ • r = 0) : S.card ≤ 2 := by
  classical
  let p : Polynomial F := Polynomial.C l * Polynomial.X ^ 2 + Polynomial.C m * Polynomial.X + Polynomial.C r
  have hp : p ≠ 0 := by
    intro hp
    have e2 : p.coeff 2 = l := by simp [p]
    have e1 : p.coeff 1 = m := by simp [p, Polynomial.coeff_X_pow, Polynomial.coeff_C]
    have e0 : p.coeff 0 = r := by simp [p]
    rw [hp] at e2 e1 e0
    simp only [Polynomial.coeff_zero] at e2 e1 e0
    rcases h with h | h | h
    · exact h e2.symm
    · exact h e1.symm
    · exact h e0.symm
  have hd : p.natDegree ≤ 2 := Polynomial.natDegree_quadratic_le
  refine (Finset.card_le_card (t := p.roots.toFinset) fun x hx => ?_).trans
    ((Multiset.toFinset_card_le _).trans ((Polynomial.card_roots' p).trans hd))
  rw [Multiset.mem_toFinset, Polynomial.mem_roots hp, Polynomial.IsRoot.def]
  have := hS x hx
  have hx0 := h0 x hx
  simp only [smul_eq_mul] at this
  simp only [p, Polynomial.eval_add, Polynomial.eval_mul, Polynomial.eval_C, Polynomial.eval_pow, Polynomial.eval_X]
  field_simp at this
  linear_combination this

end Round

/-! ## All rounds -/

section Chain
variable (bil : MA →ₗ[F] F →ₗ[F] T) (φ : MA →ₗ[F] KA →ₗ[F] OA) (η : OT → Option O) (ψ' : T →ₗ[F] O)

/-- One round; the flag records that the prover has left the honest run. -/
noncomputable def foldFlag (st : St F KA OA OT × Prop) (z : (OA × OT) × (OA × OT)) (x : F) : St F KA OA OT × Prop :=
  (foldSt st.1 z x, st.2 ∨ ∃ n, st.1.1.length = 2 * n ∧ ¬ ∃ a,
    OpensTo bil φ η ψ' st.1 a ∧ Cross bil φ η ψ' n st.1.1 st.1.2.1 a z)

/-- If the prover has left the honest run, the statement is false. -/
def Caught (st : St F KA OA OT × Prop) : Prop :=
  st.1.1.length = st.1.2.1.length ∧ Binding φ st.1.1 ∧ (st.2 → ¬ Opens bil φ η ψ' st.1)

variable {bil φ η ψ'} {ψ : T → OT}

theorem foldSt_eq (st : St F KA OA OT) (z : (OA × OT) × (OA × OT)) (x : F) (n : ℕ) (ha : st.1.length = 2 * n) :
    foldSt st z x = (foldHalf x⁻¹ st.1, foldHalf x⁻¹ st.2.1, x • z.1.1 + st.2.2.1 + x⁻¹ • z.2.1,
      x • z.1.2 + st.2.2.2 + x⁻¹ • z.2.2) := by
  rw [foldSt, if_pos ⟨n, ha⟩]

theorem caught_le (R : Reads F η ψ ψ') {D : Type} (key : D → F) (m : ℕ)
    (hm : ∀ (x : F) (S : Finset D), (∀ d ∈ S, key d = x) → S.card ≤ m)
    (st : St F KA OA OT × Prop) (z : (OA × OT) × (OA × OT)) (hst : Caught bil φ η ψ' st)
    (S : Finset D) (hS : ∀ d ∈ S, ¬ Caught bil φ η ψ' (foldFlag bil φ η ψ' st z (key d))) : S.card ≤ 4 * m := by
  classical
  obtain ⟨hlen, bA, hno⟩ := hst
  by_cases hn : ∃ n, st.1.1.length = 2 * n
  · obtain ⟨n, ha⟩ := hn
    have hb : st.1.2.1.length = 2 * n := by rw [← hlen, ha]
    have hcaught : ∀ d, ((foldFlag bil φ η ψ' st z (key d)).2 → ¬ Opens bil φ η ψ' (foldSt st.1 z (key d))) →
        Caught bil φ η ψ' (foldFlag bil φ η ψ' st z (key d)) := by
      intro d h
      refine ⟨?_, ?_, h⟩
      all_goals simp only [foldFlag, foldSt_eq _ _ _ n ha]
      · rw [length_foldHalf _ _ n ha, length_foldHalf _ _ n hb]
      · exact bA.fold n ha _
    have hop' : ∀ d ∈ S, (foldFlag bil φ η ψ' st z (key d)).2 ∧ Opens bil φ η ψ' (foldSt st.1 z (key d)) := by
      intro d hd
      have := mt (hcaught d) (hS d hd)
      rwa [Classical.not_imp, not_not] at this
    have hT4 : (S.image key).card ≤ 4 := by
      by_contra hcon
      have h4 : 4 ≤ ((S.image key).erase 0).card := by
        have := Finset.pred_card_le_card_erase (s := S.image key) (a := 0)
        omega
      obtain ⟨U, hU, hU4⟩ := Finset.exists_subset_card_eq h4
      let c : Fin 4 → F := fun i => (U.equivFin.symm (Fin.cast hU4.symm i) : U)
      have hcU : ∀ i, c i ∈ U := fun i => (U.equivFin.symm (Fin.cast hU4.symm i)).2
      have hc : Function.Injective c := fun i j h => by
        have := U.equivFin.symm.injective (Subtype.ext h)
        exact Fin.cast_injective _ this
      obtain ⟨a, hopen, hcr⟩ := cross_of_four R st.1 z n ha hb bA c hc
        (fun i => (Finset.mem_erase.mp (hU (hcU i))).1) fun i => by
          obtain ⟨d, hd, he⟩ := Finset.mem_image.mp (Finset.mem_erase.mp (hU (hcU i))).2
          have := (hop' d hd).2
          rw [he] at this
          exact this
      obtain ⟨d, hd, -⟩ := Finset.mem_image.mp (Finset.mem_erase.mp (hU (hcU 0))).2
      rcases (hop' d hd).1 with h | ⟨n', hn', h⟩
      · exact hno h ⟨a, hopen⟩
      · obtain rfl : n' = n := by omega
        exact h ⟨a, hopen, hcr⟩
    rw [Finset.card_eq_sum_card_image key S]
    refine (Finset.sum_le_card_nsmul _ _ m fun x _ => ?_).trans ?_
    · exact hm x _ fun d hd => (Finset.mem_filter.mp hd).2
    · rw [smul_eq_mul]
      exact Nat.mul_le_mul_right m hT4
  · have : S = ∅ := by
      apply Finset.eq_empty_of_forall_notMem
      intro d hd
      refine hS d hd ?_
      simp only [foldFlag, foldSt, if_neg hn]
      refine ⟨hlen, bA, fun h => ?_⟩
      rcases h with h | ⟨n, h, -⟩
      · exact hno h
      · exact absurd ⟨n, h⟩ hn
    simp [this]

variable (bil φ η ψ')

/-- The steps are those of the honest prover for `a`. -/
def HonestRun : List (((OA × OT) × (OA × OT)) × F) → List KA → List F → List MA → Prop
  | [], _, _, _ => True
  | p :: ps, ka, mb, a => Cross bil φ η ψ' (2 ^ ps.length) ka mb a p.1 ∧
      HonestRun ps (foldHalf p.2⁻¹ ka) (foldHalf p.2⁻¹ mb) (foldHalf p.2 a)

variable {bil φ η ψ'}

theorem foldl_flag_fst (st : St F KA OA OT × Prop) (ps : List (((OA × OT) × (OA × OT)) × F)) :
    (ps.foldl (fun st p => foldFlag bil φ η ψ' st p.1 p.2) st).1 = ps.foldl (fun st p => foldSt st p.1 p.2) st.1 := by
  induction ps generalizing st with
  | nil => rfl
  | cons p ps ih => rw [List.foldl_cons, ih]; rfl

theorem foldl_flag_snd (ps : List (((OA × OT) × (OA × OT)) × F)) : ∀ st : St F KA OA OT × Prop, st.2 →
    (ps.foldl (fun st p => foldFlag bil φ η ψ' st p.1 p.2) st).2 := by
  induction ps with
  | nil => exact fun st h => h
  | cons q qs ih => exact fun st h => ih _ (Or.inl h)

/-- A run that is not flagged is honest and ends with the folded message. -/
theorem honest_of_unflagged (R : Reads F η ψ ψ') : ∀ (ps : List (((OA × OT) × (OA × OT)) × F))
    (st : St F KA OA OT) (fl : Prop) (a : List MA), st.1.length = 2 ^ ps.length → st.2.1.length = 2 ^ ps.length →
    Binding φ st.1 → (∀ p ∈ ps, p.2 ≠ 0) → OpensTo bil φ η ψ' st a →
    ¬ (ps.foldl (fun st p => foldFlag bil φ η ψ' st p.1 p.2) (st, fl)).2 →
    ¬ fl ∧ HonestRun bil φ η ψ' ps st.1 st.2.1 a ∧
      OpensTo bil φ η ψ' (ps.foldl (fun st p => foldSt st p.1 p.2) st) (foldAll (ps.map (·.2)) a)
  | [], st, fl, a, _, _, _, _, hop, hf => ⟨hf, trivial, by simpa [foldAll] using hop⟩
  | p :: ps, st, fl, a, ha, hb, bA, h0, hop, hf => by
    have h2 : (2 : ℕ) ^ (ps.length + 1) = 2 * 2 ^ ps.length := by rw [pow_succ]; ring
    rw [List.length_cons, h2] at ha hb
    have hx : p.2 ≠ 0 := h0 p (by simp)
    rw [List.foldl_cons] at hf
    have hfl' : ¬ (foldFlag bil φ η ψ' (st, fl) p.1 p.2).2 := fun h => hf (foldl_flag_snd ps _ h)
    obtain ⟨hfl0, hcr⟩ := not_or.mp hfl'
    have hcr : ∃ a, OpensTo bil φ η ψ' st a ∧ Cross bil φ η ψ' (2 ^ ps.length) st.1 st.2.1 a p.1 := by
      by_contra h
      exact hcr ⟨_, ha, h⟩
    obtain ⟨a', ho, hcr⟩ := hcr
    obtain rfl : a' = a := bA _ _ ho.1 hop.1 (by rw [← ho.2.1, ← hop.2.1])
    have e1 : (foldSt st p.1 p.2).1 = foldHalf p.2⁻¹ st.1 := by rw [foldSt_eq _ _ _ _ ha]
    have e2 : (foldSt st p.1 p.2).2.1 = foldHalf p.2⁻¹ st.2.1 := by rw [foldSt_eq _ _ _ _ ha]
    obtain ⟨-, i1, i2⟩ := honest_of_unflagged R ps (foldSt st p.1 p.2) _ _ (by rw [e1]; exact length_foldHalf _ _ _ ha)
      (by rw [e2]; exact length_foldHalf _ _ _ hb) (by rw [e1]; exact bA.fold _ ha _) (fun q hq => h0 q (by simp [hq]))
      (ho.fold R _ ha hb hcr _ hx) hf
    rw [e1, e2] at i1
    exact ⟨hfl0, ⟨hcr, i1⟩, by simpa [foldAll] using i2⟩

end Chain

/-! ## The honest prover -/

section Honest
variable [DecidableEq F] {n : ℕ} {P : Gipa ρ F MA F T KA Placeholder KT OA F OT} {bil : MA →ₗ[F] F →ₗ[F] T}
  {φa : MA →ₗ[F] KA →ₗ[F] OA} {ψ : KT → T → OT} {η : OT → Option O} {ψ' : T →ₗ[F] O} {va : Fin n → KA}

/-- The placeholders of a step. -/
def tagsOf (z : Known n F MA RT × Known n F MA RT) : F × F := (z.1.2.1, z.2.2.1)

/-- The honest prover with the same placeholders makes the same run. -/
theorem taggedRun_honest (τ : RT → OT) (kt : KT) (hτ : ∀ r t, η (τ r) = some (ψ' t) → τ r = ψ kt t) :
    ∀ (ps : List ((Known n F MA RT × Known n F MA RT) × F)) (ka : List (Fin n → F)) (ma : List MA) (mb : List F)
      (tr : List F), ma.length = 2 ^ ps.length → mb.length = 2 ^ ps.length → ka.length = 2 ^ ps.length →
      HonestRun bil (formal n) η ψ' (ps.map fun p => (lift τ p.1, p.2)) ka mb ma →
      P.chals (ps.map fun p => coms2 φa τ va p.1) tr = .ok (tr ++ ps.map (·.2)) →
      Gipa.taggedRun P bil φa ψ kt (ps.map fun p => tagsOf p.1) (tr.getLast?.getD 0) ma mb (ka.map (keyOf va)) =
        .ok (ps.map fun p => coms2 φa τ va p.1, ps.map (·.2), foldAll (ps.map (·.2)) ma,
          (foldAll ((ps.map (·.2)).map (·⁻¹)) ka).map (keyOf va))
  | [], ka, ma, mb, tr, _, _, _, _, _ => by simp [Gipa.taggedRun, foldAll]
  | p :: ps, ka, ma, mb, tr, h1, h2, h3, hon, hch => by
    have e : (2 : ℕ) ^ (ps.length + 1) = 2 * 2 ^ ps.length := by rw [pow_succ]; ring
    rw [List.length_cons, e] at h1 h2 h3
    simp only [List.map_cons] at hon hch ⊢
    obtain ⟨⟨⟨z1, z2⟩, z3, z4⟩, hon⟩ := hon
    simp only [lift, List.length_map] at z1 z2 z3 z4
    rw [Gipa.taggedRun]
    simp only [List.length_map]
    have c1 : (dot (φa · ·) (ma.drop (2 ^ ps.length)) ((ka.map (keyOf va)).take (2 ^ ps.length)), (tagsOf p.1).1,
        ψ kt (dot (bil · ·) (ma.drop (2 ^ ps.length)) (mb.take (2 ^ ps.length)))) = (coms2 φa τ va p.1).1 := by
      rw [← List.map_take, dot_keyOf, ← z1, ← hτ _ _ z2]
      rfl
    have c2 : (dot (φa · ·) (ma.take (2 ^ ps.length)) ((ka.map (keyOf va)).drop (2 ^ ps.length)), (tagsOf p.1).2,
        ψ kt (dot (bil · ·) (ma.take (2 ^ ps.length)) (mb.drop (2 ^ ps.length)))) = (coms2 φa τ va p.1).2 := by
      rw [← List.map_drop, dot_keyOf, ← z3, ← hτ _ _ z4]
      rfl
    rw [c1, c2]
    rw [Gipa.chals, bind_eq_ok] at hch
    obtain ⟨⟨c, ci⟩, hc1, hc2⟩ := hch
    obtain rfl : c = p.2 := by
      obtain ⟨new, hnew, -⟩ := P.chals_prefix _ _ _ hc2
      rw [List.append_assoc] at hnew
      have := List.append_cancel_left hnew
      simpa using (List.cons.inj this).1.symm
    rw [hc1]
    simp only [ok_bind]
    have ih := taggedRun_honest τ kt hτ ps (foldHalf p.2⁻¹ ka) (foldHalf p.2 ma) (foldHalf p.2⁻¹ mb) (tr ++ [p.2])
      (length_foldHalf _ _ _ h1) (length_foldHalf _ _ _ h2) (length_foldHalf _ _ _ h3) hon (by simpa using hc2)
    rw [List.getLast?_concat, Option.getD_some, map_foldHalf] at ih
    rw [ih]
    simp [foldAll]

end Honest

/-! ## The count -/

section Count
variable [DecidableEq F] [DecidableEq OA] [DecidableEq OT] {n : ℕ}
  {P : Gipa ρ F MA F T KA Placeholder KT OA F OT} {φa : MA →ₗ[F] KA →ₗ[F] OA}
  {τ : RT → OT} {va : Fin n → KA} {Xs Ds : Finset Bytes}
  (hmem : ∀ k z, P.hashInput 0 k (coms2 φa τ va z).1 (coms2 φa τ va z).2 ∈ Xs)
  {bil : MA →ₗ[F] F →ₗ[F] T} {ψ : KT → T → OT} {η : OT → Option O} {ψ' : T →ₗ[F] O}

open Classical in
/-- The count behind C129. For all but few oracles for which the proof is an accepting run and no collision is found,
it is the honest proof with the same placeholders. Beside it runs any invariant of the placeholders that at most `q`
challenges break in a round. -/
theorem count_unique {σ : Type} (next : σ → F × F → F → σ) (Ok : σ → Prop) (s0 : σ) (h0 : Ok s0) (q : ℕ)
    (hq : ∀ s z (S : Finset F), Ok s → (∀ x ∈ S, ¬ Ok (next s z x)) → S.card ≤ q)
    (kt : KT) (R : Reads F η (ψ kt) ψ') (hτ : ∀ r t, η (τ r) = some (ψ' t) → τ r = ψ kt t)
    (hF : Decodable (fun _ => True) P.serF) (hA : Decodable (fun _ => True) P.serA)
    (hB : Decodable (fun _ => True) P.serB) (hT : Decodable (· ∈ Set.range τ) P.serT)
    (hd : ∀ d ∈ Ds, 16 ≤ d.length) (m : ℕ)
    (hm : ∀ x : F, (Finset.univ.filter fun d : Ds => challengeOf F d = x).card ≤ m) (k : ℕ)
    (hn : n = 2 ^ k) (comA : OA) (comT : OT) (b : F) (ra : Fin n → MA)
    (hra : comA = commitTo φa va ra) (A : Prover n F MA RT Xs Ds) (Q : ℕ)
    (hlab : ∀ ds z x, A.query ds = link P φa τ va hmem z x → coms2 φa τ va (A.label ds) = coms2 φa τ va z)
    (hsteps : ∀ ds, (A.steps ds).length = k) (W : Finset (Xs → Ds))
    (hW : ∀ H ∈ W, (∀ x ∈ A.inputs P φa τ va hmem Q H, challengeOf F (H x) ≠ 0) →
      Run bil φa (ψ kt) (List.ofFn va) ((List.range (2 ^ k)).map (b ^ ·)) (comA, comT)
        (A.challenges P φa τ va hmem Q H) (outer (A.proof φa τ va Q H).steps.reverse)
        (A.base (Oracle.trace A.query H Q)).1 ∧
      ¬ Clash φa va (A.pair P φa τ va hmem ra Q k H) ∧
      ¬ (η comT = some (ψ' (∑ i : Fin n, bil (ra i) (b ^ (i : ℕ)))) ∧
        Ok (((Gipa.tags (A.proof φa τ va Q H).steps.reverse).zip (A.challenges P φa τ va hmem Q H)).foldl
          (fun s p => next s p.1 p.2) s0) ∧
        ∃ ka, Gipa.taggedRun (withDigest P (Sipp.oracle H)) bil φa ψ kt
          (Gipa.tags (A.proof φa τ va Q H).steps.reverse) 0 (List.ofFn ra) (powers b n) (List.ofFn va) =
            .ok ((A.proof φa τ va Q H).steps.reverse, A.challenges P φa τ va hmem Q H,
              [(A.base (Oracle.trace A.query H Q)).1], [ka]))) :
    W.card * Ds.card ≤ (Q + k) * (Q + k + 5 + q) * m * Ds.card ^ Xs.card := by
  have hinj : ∀ (z : Known n F MA RT × Known n F MA RT) (x : F) z' x',
      link P φa τ va hmem z x = link P φa τ va hmem z' x' → x = x' := by
    intro z x z' x' h
    have h := congrArg Subtype.val h
    simp only [link, Gipa.hashInput, List.append_assoc] at h
    obtain ⟨-, h⟩ := decodable_nonce _ _ _ _ (by norm_num) (by norm_num) h
    exact (hF _ _ _ _ trivial trivial h).1
  have hm' : ∀ (x : F) (S : Finset Ds), (∀ d ∈ S, challengeOf F d = x) → S.card ≤ m := fun x S hS =>
    (Finset.card_le_card fun d hd => Finset.mem_filter.mpr ⟨Finset.mem_univ _, hS d hd⟩).trans (hm x)
  let fl : Prop := η comT ≠ some (ψ' (∑ i : Fin n, bil (ra i) (b ^ (i : ℕ))))
  have hst : Caught bil (formal n) η ψ' (start ra b comT, fl) := by
    refine ⟨by simp [start, formalKey], binding_formal, ?_⟩
    rintro hfalse ⟨a, h1, h3, h5⟩
    obtain rfl : a = List.ofFn ra := binding_formal _ _ h1 (by simp [formalKey])
      (h3.symm.trans (dot_formalKey ra).symm)
    simp only [start] at h5
    rw [dot_ofFn] at h5
    exact hfalse h5
  have c1 : Fintype.card Ds = Ds.card := Fintype.card_coe Ds
  have c2 : Fintype.card (Xs → Ds) = Ds.card ^ Xs.card := by
    rw [Fintype.card_fun, Fintype.card_coe, Fintype.card_coe]
  have c3 : (Q + k) * (4 * m + q * m) + (Q + k) * (Q + k + 1) * m = (Q + k) * (Q + k + 5 + q) * m := by ring
  rw [← c2, ← c1, ← c3]
  refine Oracle.count_static A.query Q A.steps (link P φa τ va hmem) (challengeOf F) 0 A.label ((start ra b comT, fl), s0)
    (fun st z d => (foldFlag bil (formal n) η ψ' st.1 (lift τ z) (challengeOf F d),
      next st.2 (tagsOf z) (challengeOf F d)))
    (fun st => Caught bil (formal n) η ψ' st.1 ∧ Ok st.2) hinj m (4 * m + q * m) hm' ?_ ⟨hst, h0⟩ k
    (fun ds => (hsteps ds).le) _ ?_
  · intro st z hst S hS
    rw [← Finset.card_filter_add_card_filter_not (s := S) fun d => ¬ Caught bil (formal n) η ψ'
      (foldFlag bil (formal n) η ψ' st.1 (lift τ z) (challengeOf F d))]
    refine Nat.add_le_add (caught_le R (challengeOf F) m hm' st.1 (lift τ z) hst.1 _ fun d hd =>
      (Finset.mem_filter.mp hd).2) ?_
    set S' := S.filter fun d => ¬ ¬ Caught bil (formal n) η ψ'
      (foldFlag bil (formal n) η ψ' st.1 (lift τ z) (challengeOf F d)) with hS'
    rw [Finset.card_eq_sum_card_image (challengeOf F) S']
    refine (Finset.sum_le_card_nsmul _ _ m fun x _ => hm' x _ fun d hd => (Finset.mem_filter.mp hd).2).trans ?_
    rw [smul_eq_mul]
    refine Nat.mul_le_mul_right m (hq st.2 (tagsOf z) _ hst.2 fun x hx => ?_)
    obtain ⟨d, hd, rfl⟩ := Finset.mem_image.mp hx
    obtain ⟨hd, hc⟩ := Finset.mem_filter.mp hd
    exact fun h => hS d hd ⟨not_not.mp hc, h⟩
  intro H hH
  rintro ⟨hdm, hne⟩
  obtain ⟨hrun, hcA, hnot⟩ := hW H hH hne
  obtain ⟨plen, hcoms, hcs, h1, h3, h5⟩ := run_end hmem kt R hF hA hB hT k hn comA comT b ra hra A Q hlab hsteps H hrun
    hcA
  rw [Oracle.follow_eq] at hdm
  set ps := A.rounds (P := P) (φa := φa) (τ := τ) (va := va) hmem Q k H with hps
  have hfold : ∀ (xs : List ((Known n F MA RT × Known n F MA RT) × F))
      (st : (St F (Fin n → F) (Fin n → MA) OT × Prop) × σ),
      xs.foldl (fun st p => (foldFlag bil (formal n) η ψ' st.1 (lift τ p.1) p.2, next st.2 (tagsOf p.1) p.2)) st =
        ((xs.map fun p => (lift τ p.1, p.2)).foldl (fun st p => foldFlag bil (formal n) η ψ' st p.1 p.2) st.1,
          (xs.map fun p => (tagsOf p.1, p.2)).foldl (fun st p => next st p.1 p.2) st.2) := by
    intro xs
    induction xs with
    | nil => exact fun st => rfl
    | cons x xs ih => exact fun st => ih _
  have hdm' := hfold ps ((start ra b comT, fl), s0)
  rw [hps, Prover.rounds, List.foldl_map, ← Prover.rounds, ← hps] at hdm'
  rw [show Oracle.queries (link P φa τ va hmem) (challengeOf F) H 0 (A.steps (Oracle.trace A.query H Q)) =
    A.inputs P φa τ va hmem Q H from rfl, hdm'] at hdm
  obtain ⟨⟨-, bA, hflag⟩, hok⟩ := hdm
  simp only at bA hflag hok
  rw [foldl_flag_fst] at bA hflag
  have hunf := fun h => hflag h ⟨[(A.base (Oracle.trace A.query H Q)).1], h1, h3, h5⟩
  by_cases hfl : fl
  · exact hunf (foldl_flag_snd _ _ hfl)
  have hsum : η comT = some (ψ' (∑ i : Fin n, bil (ra i) (b ^ (i : ℕ)))) := not_not.mp hfl
  have hne0 : ∀ p ∈ ps, p.2 ≠ 0 := by
    intro p hp
    obtain ⟨x, hx, rfl⟩ := List.mem_map.mp hp
    exact hne x hx
  have hlen : (formalKey (F := F) n).length = 2 ^ ps.length := by simp [formalKey, plen, hn]
  obtain ⟨-, hhon, hend⟩ := honest_of_unflagged R (ps.map fun p => (lift τ p.1, p.2)) (start ra b comT) fl (List.ofFn ra)
    (by rw [List.length_map]; exact hlen) (by simp [start, plen, hn]) binding_formal
    (by
      intro p hp
      obtain ⟨p', hp', rfl⟩ := List.mem_map.mp hp
      exact hne0 p' hp')
    ⟨by simp [start, formalKey], (dot_formalKey ra).symm, by simp only [start]; rw [dot_ofFn]; exact hsum⟩ hunf
  have hch : (withDigest P (Sipp.oracle H)).chals (ps.map fun p => coms2 φa τ va p.1) [] = .ok ([] ++ ps.map (·.2)) := by
    obtain ⟨com1, hrec⟩ := recLoop_chain' (coms2 φa τ va) (link P φa τ va hmem) (fun _ _ => by rw [link]) hd H
      (A.steps (Oracle.trace A.query H Q)) 0 [] (comA, 0, comT) rfl hne
    rw [hcoms, Prover.proof, List.reverse_reverse, List.nil_append, hcs]
    rw [Gipa.recLoop_eq, bind_eq_ok] at hrec
    obtain ⟨tr, htr, h⟩ := hrec
    have e : tr = [] ++ A.challenges P φa τ va hmem Q H := (Prod.ext_iff.mp (Except.ok.inj h)).2
    rw [htr, e, List.nil_append]
  have hpow : (List.ofFn fun i : Fin n => b ^ (i : ℕ)) = powers b n := by
    rw [powers]
    apply List.ext_getElem <;> simp
  have htag := taggedRun_honest (P := withDigest P (Sipp.oracle H)) (bil := bil) (φa := φa) (va := va) τ kt hτ ps
    (formalKey n) (List.ofFn ra) (powers b n) [] (by simp [plen, hn]) (by simp [plen, hn]) hlen
    (by rw [← hpow]; exact hhon) hch
  have e0 : (ps.map fun p => tagsOf p.1) = Gipa.tags (A.proof φa τ va Q H).steps.reverse := by
    rw [← hcoms, Gipa.tags, List.map_map]
    rfl
  have e1 : (ps.map fun p => (tagsOf p.1, p.2)) = (Gipa.tags (A.proof φa τ va Q H).steps.reverse).zip
      (A.challenges P φa τ va hmem Q H) := by
    rw [← e0, ← hcs, List.zip_map']
  have e2 : foldAll (ps.map (·.2)) (List.ofFn ra) = [(A.base (Oracle.trace A.query H Q)).1] := by
    have hend' := hend
    rw [List.map_map] at hend'
    exact (bA [(A.base (Oracle.trace A.query H Q)).1] _ h1 hend'.1 (h3.symm.trans hend'.2.1)).symm
  rw [e2, foldAll_formalKey _ (by rw [List.length_map, List.length_map, plen, hn]), e0, hcoms, hcs, map_formalKey]
    at htag
  exact hnot ⟨hsum, e1 ▸ hok, _, htag⟩

/-! ## The placeholders -/

open Classical in
/-- The folded placeholder, and whether one of the placeholders was not zero. -/
noncomputable def nextTag (s : F × Prop) (z : F × F) (x : F) : F × Prop :=
  if x = 0 then s else (x • z.1 + s.1 + x⁻¹ • z.2, s.2 ∨ z ≠ (0, 0))

theorem nextTag_le (s : F × Prop) (z : F × F) (S : Finset F) (hs : s.2 → s.1 ≠ 0)
    (hS : ∀ x ∈ S, ¬ ((nextTag s z x).2 → (nextTag s z x).1 ≠ 0)) : S.card ≤ 2 := by
  have key : ∀ x ∈ S, x ≠ 0 ∧ (s.2 ∨ z ≠ (0, 0)) ∧ x • z.1 + s.1 + x⁻¹ • z.2 = 0 := by
    intro x hx
    have h := hS x hx
    by_cases hx0 : x = 0
    · rw [nextTag, if_pos hx0] at h
      exact absurd hs h
    · rw [nextTag, if_neg hx0, Classical.not_imp, not_not] at h
      exact ⟨hx0, h⟩
  rcases S.eq_empty_or_nonempty with rfl | ⟨x, hx⟩
  · simp
  refine quadratic_le z.1 s.1 z.2 ?_ S (fun x hx => (key x hx).1) fun x hx => (key x hx).2.2
  by_contra hcon
  push Not at hcon
  obtain ⟨h1, h2, h3⟩ := hcon
  rcases (key x hx).2.1 with h | h
  · exact hs h h2
  · exact h (Prod.ext h1 h3)

theorem foldl_nextTag : ∀ (zs : List (F × F)) (cs : List F) (s : F × Prop), zs.length = cs.length →
    (∀ c ∈ cs, c ≠ 0) →
    ((zs.zip cs).foldl (fun s p => nextTag s p.1 p.2) s).1 = accum cs zs s.1 ∧
    (((zs.zip cs).foldl (fun s p => nextTag s p.1 p.2) s).2 ↔ s.2 ∨ ∃ z ∈ zs, z ≠ (0, 0))
  | [], [], s, _, _ => by simp [accum]
  | [], _ :: _, _, h, _ => by simp at h
  | _ :: _, [], _, h, _ => by simp at h
  | z :: zs, c :: cs, s, hl, h0 => by
    obtain ⟨i1, i2⟩ := foldl_nextTag zs cs (nextTag s z c) (by simpa using hl) fun c hc => h0 c (by simp [hc])
    rw [List.zip_cons_cons, List.foldl_cons, i1, i2, nextTag, if_neg (h0 c (by simp))]
    refine ⟨rfl, ?_⟩
    simp only [List.mem_cons, exists_eq_or_imp]
    tauto

/-! ## The theorem -/

open Classical in
/-- C129: fix a key of length `2^k`, a scalar `b`, commitments and an opening of the left one. Then for a prover that
knows openings of the commitments it hashes it holds, for all but `N (N + 7) m / |Ds|` of all oracles: if the verifier
accepts and no collision of the key is found, the committed inner product is the right one, all placeholders in the
steps are zero, and the proof is the one that `prove_with_structured_scalar_message` returns for the opening, but for the
right base element; this gives the same committed inner product with the left base element. -/
theorem C129_unique (L : P.Lawful bil φa 0 ψ) (X : Exec) (kt : KT) (R : Reads F η (ψ kt) ψ')
    (hτ : ∀ r t, η (τ r) = some (ψ' t) → τ r = ψ kt t)
    (hF : Decodable (fun _ => True) P.serF) (hA : Decodable (fun _ => True) P.serA)
    (hB : Decodable (fun _ => True) P.serB) (hT : Decodable (· ∈ Set.range τ) P.serT)
    (hd : ∀ d ∈ Ds, 16 ≤ d.length) (m : ℕ)
    (hm : ∀ x : F, (Finset.univ.filter fun d : Ds => challengeOf F d = x).card ≤ m) (k : ℕ)
    (hn : n = 2 ^ k) (comA : OA) (comT : OT) (b : F) (ra : Fin n → MA)
    (hra : comA = commitTo φa va ra) (A : Prover n F MA RT Xs Ds) (Q : ℕ)
    (hlab : ∀ ds z x, A.query ds = link P φa τ va hmem z x → coms2 φa τ va (A.label ds) = coms2 φa τ va z)
    (hsteps : ∀ ds, (A.steps ds).length = k) :
    (Finset.univ.filter fun H : Xs → Ds =>
      GipaSsm.verify X (withDigest P (Sipp.oracle H)) (List.ofFn va) kt comA comT b
        (A.proof φa τ va Q H) = .ok true ∧
      ¬ Clash φa va (A.pair P φa τ va hmem ra Q k H) ∧
      ¬ (η comT = some (ψ' (∑ i : Fin n, bil (ra i) (b ^ (i : ℕ)))) ∧
        (∀ s ∈ (A.proof φa τ va Q H).steps, s.1.2.1 = 0 ∧ s.2.2.1 = 0) ∧
        ∃ π, GipaSsm.prove (withDigest P (Sipp.oracle H)) (List.ofFn ra) (powers b n) (List.ofFn va) kt = .ok π ∧
          π.steps = (A.proof φa τ va Q H).steps ∧ π.base.1 = (A.proof φa τ va Q H).base.1 ∧
          ψ kt (bil π.base.1 (A.proof φa τ va Q H).base.2) = ψ kt (bil π.base.1 π.base.2))).card * Ds.card ≤
    (Q + k) * (Q + k + 7) * m * Ds.card ^ Xs.card := by
  refine count_unique (bil := bil) hmem nextTag (fun s => s.2 → s.1 ≠ 0) (0, False) (fun h => h.elim) 2
    (fun s z S => nextTag_le s z S) kt R hτ hF hA hB hT hd m hm k hn comA comT b ra hra A Q hlab hsteps _ ?_
  intro H hH hne
  obtain ⟨-, hacc, hcA, hnot⟩ := Finset.mem_filter.mp hH
  obtain ⟨com1, hrec⟩ := recLoop_chain' (coms2 φa τ va) (link P φa τ va hmem) (fun _ _ => by rw [link]) hd H
    (A.steps (Oracle.trace A.query H Q)) 0 [] (comA, 0, comT) rfl hne
  have L' : (withDigest P (Sipp.oracle H)).Lawful bil φa 0 ψ :=
    ⟨L.ip_ok, L.lmc_ok, L.rmc_ok, L.ipc_ok, L.ψ_add, L.ψ_smul⟩
  have hlen : (A.proof φa τ va Q H).steps.length = k := by simp [Prover.proof, hsteps]
  set cs := A.challenges P φa τ va hmem Q H with hcs
  have hrc : (withDigest P (Sipp.oracle H)).recursiveChallenges (comA, 0, comT) (A.proof φa τ va Q H) =
      .ok (com1, cs.reverse) := by
    rw [Gipa.recursiveChallenges, Prover.proof, List.reverse_reverse, hrec]
    rfl
  have hcl : cs.length = k := by
    rw [hcs, Prover.challenges, List.length_map, Prover.inputs, Oracle.length_queries, hsteps]
  have hcne : ∀ c ∈ cs, c ≠ 0 := by
    intro c hc
    obtain ⟨x, hx, rfl⟩ := List.mem_map.mp hc
    exact hne x hx
  have hcom : com1 = Gipa.foldMany (A.proof φa τ va Q H).steps.reverse cs (comA, 0, comT) := by
    rw [Gipa.recursiveChallenges_eq] at hrc
    cases h : (withDigest P (Sipp.oracle H)).chals (A.proof φa τ va Q H).steps.reverse [] with
    | error e => simp [h] at hrc
    | ok cs' =>
      simp only [h, ok_bind, Except.ok.injEq, Prod.mk.injEq, List.reverse_inj] at hrc
      rw [← hrc.1, ← hrc.2]
  obtain ⟨ka, b', f1, f2, -, hver, -⟩ := GipaSsm.C33_verdict L' X (List.ofFn va) kt comA comT b _ cs com1
    (by rw [hlen, List.length_ofFn, hn]) hrc
  obtain ⟨v1, v2, v3, v4⟩ := hver.mp hacc
  rw [hcl] at f2
  rw [Gipa.foldMany_eq] at hcom
  refine ⟨⟨ka, b', f1, f2, ?_, ?_⟩, hcA, ?_⟩
  · refine Eq.trans ?_ v1
    rw [hcom, outer, List.map_map]; rfl
  · refine Eq.trans ?_ v4
    rw [hcom, outer, List.map_map]; rfl
  rintro ⟨hsum, hok, ka', htag⟩
  refine hnot ⟨hsum, ?_⟩
  set zs := Gipa.tags (A.proof φa τ va Q H).steps.reverse with hzs
  have hzl : zs.length = k := by rw [hzs, Gipa.tags, List.length_map, List.length_reverse, hlen]
  obtain ⟨g1, g2⟩ := foldl_nextTag zs cs (0, False) (hzl.trans hcl.symm) hcne
  have hz0 : ∀ z ∈ zs, z = (0, 0) := by
    intro z hz
    by_contra hcon
    refine hok (g2.mpr (Or.inr ⟨z, hz, hcon⟩)) ?_
    rw [hcom] at v2
    exact g1.trans v2
  have hzr : zs = List.replicate k (0, 0) := List.eq_replicate_iff.mpr ⟨hzl, hz0⟩
  refine ⟨fun s hs => ?_, ?_⟩
  · have := hz0 (s.1.2.1, s.2.2.1) (by rw [hzs, Gipa.tags]; exact List.mem_map.mpr ⟨s, by simpa using hs, rfl⟩)
    exact ⟨congrArg Prod.fst this, congrArg Prod.snd this⟩
  have hp := Gipa.C128_zero L' kt k (List.ofFn ra) (powers b n) (List.ofFn va) (by simp [hn]) (by simp [hn]) (by simp [hn])
  rw [← hzr, htag, ok_bind] at hp
  have hf : foldAll (cs.map (·⁻¹)) (powers b n) = [b'] := by rw [powers, hn]; exact f2
  refine ⟨⟨(A.proof φa τ va Q H).steps, ((A.proof φa τ va Q H).base.1, b')⟩, ?_, rfl, rfl, v3.symm.trans v4⟩
  rw [GipaSsm.prove, hp]
  simp only [hf]
  simp [idx, Prover.proof]

open Classical in
/-- With a key that binds: for all but at most this share of the oracles, an accepted proof has the steps and the left base
element of the honest one. -/
theorem C129_binding (L : P.Lawful bil φa 0 ψ) (X : Exec) (kt : KT) (R : Reads F η (ψ kt) ψ')
    (hτ : ∀ r t, η (τ r) = some (ψ' t) → τ r = ψ kt t)
    (hF : Decodable (fun _ => True) P.serF) (hA : Decodable (fun _ => True) P.serA)
    (hB : Decodable (fun _ => True) P.serB) (hT : Decodable (· ∈ Set.range τ) P.serT)
    (hd : ∀ d ∈ Ds, 16 ≤ d.length) (m : ℕ)
    (hm : ∀ x : F, (Finset.univ.filter fun d : Ds => challengeOf F d = x).card ≤ m) (k : ℕ)
    (hn : n = 2 ^ k) (comA : OA) (comT : OT) (b : F) (ra : Fin n → MA)
    (bA : Function.Injective (commitTo φa va))
    (hra : comA = commitTo φa va ra) (A : Prover n F MA RT Xs Ds) (Q : ℕ)
    (hlab : ∀ ds z x, A.query ds = link P φa τ va hmem z x → coms2 φa τ va (A.label ds) = coms2 φa τ va z)
    (hsteps : ∀ ds, (A.steps ds).length = k) :
    (Finset.univ.filter fun H : Xs → Ds =>
      GipaSsm.verify X (withDigest P (Sipp.oracle H)) (List.ofFn va) kt comA comT b
        (A.proof φa τ va Q H) = .ok true ∧
      ¬ (η comT = some (ψ' (∑ i : Fin n, bil (ra i) (b ^ (i : ℕ)))) ∧
        (∀ s ∈ (A.proof φa τ va Q H).steps, s.1.2.1 = 0 ∧ s.2.2.1 = 0) ∧
        ∃ π, GipaSsm.prove (withDigest P (Sipp.oracle H)) (List.ofFn ra) (powers b n) (List.ofFn va) kt = .ok π ∧
          π.steps = (A.proof φa τ va Q H).steps ∧ π.base.1 = (A.proof φa τ va Q H).base.1 ∧
          ψ kt (bil π.base.1 (A.proof φa τ va Q H).base.2) = ψ kt (bil π.base.1 π.base.2))).card * Ds.card ≤
    (Q + k) * (Q + k + 7) * m * Ds.card ^ Xs.card := by
  refine le_trans (Nat.mul_le_mul_right _ (Finset.card_le_card fun H hH => ?_))
    (C129_unique hmem L X kt R hτ hF hA hB hT hd m hm k hn comA comT b ra hra A Q hlab hsteps)
  obtain ⟨-, h, h'⟩ := Finset.mem_filter.mp hH
  exact Finset.mem_filter.mpr ⟨Finset.mem_univ _, h, fun h => h.1 (bA h.2), h'⟩

end Count

/-! ## An instance: vectors of length 2 over the field with 101 elements -/

section Example
open Toy

open Classical in
/-- `1 * 1 + 2 * 5 = 11`. A prover with one query has an accepted proof of this value with other steps or another left
base element than the honest proof for at most 18 in 101 of all oracles. -/
theorem C129_example (A : Prover 2 Toy.F Toy.F Toy.F exampleInputs exampleDigests)
    (hlab : ∀ ds z x, A.query ds = link exampleSsm (formal 2) single exampleKey exampleInputs_mem z x →
      A.label ds = z)
    (hsteps : ∀ ds, (A.steps ds).length = 1) :
    (Finset.univ.filter fun H : exampleInputs → exampleDigests =>
      GipaSsm.verify Toy.X (withDigest exampleSsm (Sipp.oracle H)) (List.ofFn exampleKey) PUnit.unit
        exampleA ⟨[11]⟩ 5 (A.proof (formal (F := Toy.F) 2) single exampleKey 1 H) = .ok true ∧
      ¬ ∃ π, GipaSsm.prove (withDigest exampleSsm (Sipp.oracle H)) [1, 2] [1, 5] (List.ofFn exampleKey) PUnit.unit =
          .ok π ∧ π.steps = (A.proof (formal (F := Toy.F) 2) single exampleKey 1 H).steps ∧
        π.base.1 = (A.proof (formal (F := Toy.F) 2) single exampleKey 1 H).base.1).card * 101 ≤
    18 * 101 ^ exampleInputs.card := by
  have inj : Function.Injective (commitTo (formal (F := Toy.F) (M := Toy.F) 2) exampleKey) := fun x y h => by
    simpa only [commitTo_exampleKey] using h
  have := C129_binding (P := exampleSsm) (Xs := exampleInputs) (Ds := exampleDigests) (va := exampleKey)
    (τ := single) exampleInputs_mem exampleSsm_lawful Toy.X PUnit.unit (reads_identity PUnit.unit)
    (by
      intro r t h
      simp only [single, List.head?_cons, Option.some.injEq] at h
      subst h
      rfl)
    decodable_ser decodable_pair decodable_ser (decodable_single decodable_ser)
    (by
      intro d hd
      obtain ⟨x, -, rfl⟩ := Finset.mem_image.mp hd
      simp [Toy.ser]) 1
    (fun x => Finset.card_le_one.mpr fun d hd d' hd' => exampleDigests_key d d'
      ((Finset.mem_filter.mp hd).2.trans (Finset.mem_filter.mp hd').2.symm)) 1 rfl
    exampleA ⟨[11]⟩ 5 exampleA inj (commitTo_exampleKey _).symm A 1 (fun ds z x h => by rw [hlab ds z x h]) hsteps
  rw [card_exampleDigests, show (1 + 1) * (1 + 1 + 7) * 1 = 18 from rfl,
    show List.ofFn exampleA = [1, 2] from rfl, show powers (5 : Toy.F) 2 = [1, 5] from by decide +kernel] at this
  refine le_trans (Nat.mul_le_mul_right _ (Finset.card_le_card fun H hH => ?_)) this
  obtain ⟨-, h, h'⟩ := Finset.mem_filter.mp hH
  refine @Finset.mem_filter _ _ (_) _ _ |>.mpr ⟨Finset.mem_univ _, h, fun h'' => h' ?_⟩
  obtain ⟨-, -, π, e1, e2, e3, -⟩ := h''
  exact ⟨π, e1, e2, e3⟩

/-- The honest proof is accepted; it is not accepted with another value in a step, or with a non-zero placeholder. -/
example : (do
      let π ← GipaSsm.prove exampleSsm [1, 2] [1, 5] (List.ofFn exampleKey) PUnit.unit
      let π1 := { π with steps := π.steps.map fun s => ((s.1.1, s.1.2.1, ⟨[7]⟩), s.2) }
      let π2 := { π with steps := π.steps.map fun s => ((s.1.1, 1, s.1.2.2), s.2) }
      return (← GipaSsm.verify Toy.X exampleSsm (List.ofFn exampleKey) PUnit.unit exampleA ⟨[11]⟩ 5 π,
        ← GipaSsm.verify Toy.X exampleSsm (List.ofFn exampleKey) PUnit.unit exampleA ⟨[11]⟩ 5 π1,
        ← GipaSsm.verify Toy.X exampleSsm (List.ofFn exampleKey) PUnit.unit exampleA ⟨[11]⟩ 5 π2)) =
    Except.ok (true, false, false) := by
  decide +kernel

end Example

end Ripp.SsmStatic
