import Verif.Props.TipaStatic
import Verif.Props.TipaSsmStatic
import Verif.Props.PolyStatic
import Verif.Lemmas.Shape
import Verif.Props.Groth16Extract

/-!
# C108: the aggregation of Groth16 proofs in the random oracle model

`C52` breaks the aggregation by choosing the inputs after the challenges. Here the commitments to the proofs, the
verifying key and the inputs are fixed before the oracle. The two aggregated values are part of the proof and are
not hashed: only the pairing product equation links them, so that both arguments have to be followed together.
-/

set_option linter.unusedSectionVars false
set_option linter.unusedVariables false

namespace Ripp.AggStatic

open Spec Extract
open GipaStatic (Binding commitTo formal formalKey dot_ofFn dot_formalKey keyOf commitTo_formal map_formalKey
  map_foldAll map_accum weights foldAll_formalKey binding_formal withDigest challengeOf Clash recLoop_digest single
  decodable_single)
open PolyStatic (combo map_combo combo_add)

variable {F : Type} [Field F]

/-! ## One round of the argument with two committed vectors, with an unknown contribution -/

section Round
variable {MA MB T KA KB OA OB Y : Type} [AddCommGroup MA] [Module F MA] [AddCommGroup MB] [Module F MB]
  [AddCommGroup T] [Module F T] [AddCommGroup KA] [Module F KA] [AddCommGroup KB] [Module F KB]
  [AddCommGroup OA] [Module F OA] [AddCommGroup OB] [Module F OB] [AddCommGroup Y] [Module F Y]
  (bil : MA →ₗ[F] MB →ₗ[F] T) (φa : MA →ₗ[F] KA →ₗ[F] OA) (φb : MB →ₗ[F] KB →ₗ[F] OB) (uT : Y →ₗ[F] T)

/-- The statement, with the contribution of `y` to the inner product, is true. -/
def Opens (y : Y) (st : GipaStatic.St KA KB OA OB T) : Prop :=
  ∃ (a : List MA) (b : List MB), a.length = st.1.length ∧ b.length = st.2.1.length ∧
    st.2.2.1 = dot (φa · ·) a st.1 ∧ st.2.2.2.1 = dot (φb · ·) b st.2.1 ∧
    st.2.2.2.2 + uT y = dot (bil · ·) a b

variable {bil φa φb uT}

/-- The first three of four. -/
def three {α : Type} (c : Fin 4 → α) : Fin 3 → α := fun i => c i.castSucc

theorem opens_same (st : GipaStatic.St KA KB OA OB T) (bA : Binding φa st.1) (bB : Binding φb st.2.1)
    (c : Fin 3 → F) (h0 : ∀ i, c i ≠ 0) (hc : Function.Injective c) (y : Fin 3 → Y)
    (h : ∀ i, Opens bil φa φb uT (y i) st) : Opens bil φa φb uT (combo c y) st := by
  choose a b la lb e1 e2 e3 using h
  refine ⟨a 0, b 0, la 0, lb 0, e1 0, e2 0, ?_⟩
  have ea : ∀ i, a i = a 0 := fun i => bA _ _ (la i) (la 0) ((e1 i).symm.trans (e1 0))
  have eb : ∀ i, b i = b 0 := fun i => bB _ _ (lb i) (lb 0) ((e2 i).symm.trans (e2 0))
  have e : ∀ i, st.2.2.2.2 + uT (y i) = dot (bil · ·) (a 0) (b 0) := fun i => by rw [e3, ea, eb]
  rw [map_combo, ← combo_add c h0 hc]
  simp only [e]
  have := combo_add c h0 hc (dot (bil · ·) (a 0) (b 0)) fun _ => (0 : T)
  simpa [combo] using this

/-- Openings after a round for four challenges combined to one before the round. -/
theorem opens_of_four (st : GipaStatic.St KA KB OA OB T) (hst : st.1.length = st.2.1.length)
    (bA : Binding φa st.1) (bB : Binding φb st.2.1) (z : (OA × OB × T) × (OA × OB × T))
    (c : Fin 4 → F) (hc : Function.Injective c) (h0 : ∀ i, c i ≠ 0) (b : Bool) (y : Fin 4 → Y)
    (h : ∀ i, Opens bil φa φb uT (y i) (if b then GipaStatic.foldSt st z (c i) else st)) :
    Opens bil φa φb uT (combo (three c) (three y)) st := by
  have hc3 : Function.Injective (three c) := hc.comp (Fin.castSucc_injective 3)
  have h03 : ∀ i, three c i ≠ 0 := fun i => h0 _
  cases b with
  | false => exact opens_same st bA bB _ h03 hc3 _ fun i => h _
  | true =>
    simp only [if_true] at h
    by_cases hn : ∃ n, st.1.length = 2 * n
    · obtain ⟨n, ha⟩ := hn
      have hb : st.2.1.length = 2 * n := by rw [← hst, ha]
      have h' : ∀ i, ∃ (a : List MA) (b : List MB), a.length = n ∧ b.length = n ∧
          c i • z.1.1 + st.2.2.1 + (c i)⁻¹ • z.2.1 = dot (φa · ·) a (foldHalf (c i)⁻¹ st.1) ∧
          c i • z.1.2.1 + st.2.2.2.1 + (c i)⁻¹ • z.2.2.1 = dot (φb · ·) b (foldHalf (c i) st.2.1) ∧
          c i • z.1.2.2 + (st.2.2.2.2 + uT (y i)) + (c i)⁻¹ • z.2.2.2 = dot (bil · ·) a b := by
        intro i
        have := h i
        rw [GipaStatic.foldSt, if_pos ⟨n, ha⟩] at this
        obtain ⟨a, b, e1, e2, e3, e4, e5⟩ := this
        refine ⟨a, b, by rw [e1]; exact length_foldHalf _ _ n ha, by rw [e2]; exact length_foldHalf _ _ n hb, e3, e4, ?_⟩
        rw [← e5]; module
      choose a b la lb h3 h4 h5 using h'
      have d0 : ∀ i, (c i)⁻¹ ≠ 0 := fun i => inv_ne_zero (h0 i)
      have hd : Function.Injective fun i => (c i)⁻¹ := fun i j e => hc (inv_injective e)
      have hopB : ∀ i, dot (φb · ·) (b i) (foldHalf ((c i)⁻¹)⁻¹ st.2.1) =
            (c i)⁻¹ • z.2.2.1 + st.2.2.2.1 + ((c i)⁻¹)⁻¹ • z.1.2.1 := by
        intro i
        rw [inv_inv, ← h4 i]; module
      have eA : ∀ i, expected c a i = unfold (c i)⁻¹ (a i) := fun i =>
        bA _ _ (by rw [length_expected c a n la, ha]) (by rw [length_unfold, la, ha])
          (expected_opens φa c h0 hc a n la _ ha _ _ _ (fun i => (h3 i).symm) i)
      have eB : ∀ i, expected (fun i => (c i)⁻¹) b i = unfold ((c i)⁻¹)⁻¹ (b i) := fun i =>
        bB _ _ (by rw [length_expected _ b n lb, hb]) (by rw [length_unfold, lb, hb])
          (expected_opens φb _ d0 hd b n lb _ hb _ _ _ hopB i)
      obtain ⟨-, oa, -⟩ := side_opens φa c h0 hc a n la _ ha _ _ _ fun i => (h3 i).symm
      obtain ⟨-, ob, -⟩ := side_opens φb _ d0 hd b n lb _ hb _ _ _ hopB
      have sa := length_side wM c a n la
      have sb := length_side wM (fun i => (c i)⁻¹) b n lb
      refine ⟨side wM c a, side wM (fun i => (c i)⁻¹) b, by rw [sa, ha], by rw [sb, hb], oa.symm, ob.symm, ?_⟩
      have key : ∀ i, c i • z.1.2.2 + (st.2.2.2.2 + uT (y i)) + (c i)⁻¹ • z.2.2.2 =
          c i • dot (bil · ·) ((side wM c a).drop n) ((side wM (fun i => (c i)⁻¹) b).take n)
          + dot (bil · ·) (side wM c a) (side wM (fun i => (c i)⁻¹) b)
          + (c i)⁻¹ • dot (bil · ·) ((side wM c a).take n)
            ((side wM (fun i => (c i)⁻¹) b).drop n) := by
        intro i
        rw [h5 i, fold_of_expected c h0 hc a n la eA i, fold_of_expected _ d0 hd b n lb eB i,
          dot_fold bil (c i) (h0 i) _ _ n sa sb]
      have w := weights_M (h03 0) (h03 1) (h03 2) (fun e => absurd (hc3 e) (by decide))
        (fun e => absurd (hc3 e) (by decide)) (fun e => absurd (hc3 e) (by decide))
      rw [map_combo, ← combo_add _ h03 hc3]
      generalize dot (bil · ·) (side wM c a) (side wM (fun i => (c i)⁻¹) b) = m at key ⊢
      generalize dot (bil · ·) ((side wM c a).drop n) ((side wM (fun i => (c i)⁻¹) b).take n) = l at key
      generalize dot (bil · ·) ((side wM c a).take n) ((side wM (fun i => (c i)⁻¹) b).drop n) = r at key
      have k0 := key 0
      have k1 := key 1
      have k2 := key 2
      simp only [combo]
      change wM (three c 0) (three c 1) (three c 2) • (st.2.2.2.2 + uT (y 0)) +
        wM (three c 1) (three c 0) (three c 2) • (st.2.2.2.2 + uT (y 1)) +
        wM (three c 2) (three c 0) (three c 1) • (st.2.2.2.2 + uT (y 2)) = m
      change three c 0 • _ + _ + (three c 0)⁻¹ • _ = three c 0 • _ + _ + (three c 0)⁻¹ • _ at k0
      change three c 1 • _ + _ + (three c 1)⁻¹ • _ = three c 1 • _ + _ + (three c 1)⁻¹ • _ at k1
      change three c 2 • _ + _ + (three c 2)⁻¹ • _ = three c 2 • _ + _ + (three c 2)⁻¹ • _ at k2
      linear_combination (norm := module) wM (three c 0) (three c 1) (three c 2) • k0 +
        wM (three c 1) (three c 0) (three c 2) • k1 + wM (three c 2) (three c 0) (three c 1) • k2 +
        w.1 • (l - z.1.2.2) + w.2.1 • m + w.2.2 • (r - z.2.2.2)
    · refine opens_same st bA bB _ h03 hc3 _ fun i => ?_
      have := h i.castSucc
      rwa [GipaStatic.foldSt, if_neg hn] at this

end Round

/-! ## Both arguments -/

section Pair
variable {MA MB T KA KB OA OB M2 K2 C2 O2 Y : Type} [AddCommGroup MA] [Module F MA] [AddCommGroup MB] [Module F MB]
  [AddCommGroup T] [Module F T] [AddCommGroup KA] [Module F KA] [AddCommGroup KB] [Module F KB]
  [AddCommGroup OA] [Module F OA] [AddCommGroup OB] [Module F OB] [AddCommGroup M2] [Module F M2]
  [AddCommGroup K2] [Module F K2] [AddCommGroup C2] [Module F C2] [AddCommGroup O2] [Module F O2]
  [AddCommGroup Y] [Module F Y]
  (bil : MA →ₗ[F] MB →ₗ[F] T) (φa : MA →ₗ[F] KA →ₗ[F] OA) (φb : MB →ₗ[F] KB →ₗ[F] OB) (uT : Y →ₗ[F] T)
  (bil2 : M2 →ₗ[F] F →ₗ[F] O2) (φ2 : M2 →ₗ[F] K2 →ₗ[F] C2) (uT2 : Y →ₗ[F] O2)

/-- The keys of the first argument are binding, and no value makes both statements true. -/
def Doomed (s1 : GipaStatic.St KA KB OA OB T) (s2 : SsmStatic.St F K2 C2 O2) : Prop :=
  (s1.1.length = s1.2.1.length ∧ Binding φa s1.1 ∧ Binding φb s1.2.1) ∧ s2.1.length = s2.2.1.length ∧
    ¬ ∃ y, Opens bil φa φb uT y s1 ∧ PolyStatic.Opens bil2 φ2 0 uT2 y s2

variable {bil φa φb uT bil2 φ2 uT2}

theorem foldSt_fine (st : GipaStatic.St KA KB OA OB T)
    (h : st.1.length = st.2.1.length ∧ Binding φa st.1 ∧ Binding φb st.2.1)
    (z : (OA × OB × T) × (OA × OB × T)) (x : F) :
    (GipaStatic.foldSt st z x).1.length = (GipaStatic.foldSt st z x).2.1.length ∧
      Binding φa (GipaStatic.foldSt st z x).1 ∧ Binding φb (GipaStatic.foldSt st z x).2.1 := by
  by_cases hn : ∃ n, st.1.length = 2 * n
  · rw [GipaStatic.foldSt, if_pos hn]
    obtain ⟨n, ha⟩ := hn
    have hb : st.2.1.length = 2 * n := by rw [← h.1, ha]
    exact ⟨by simp only [length_foldHalf _ _ n ha, length_foldHalf _ _ n hb], h.2.1.fold n ha _, h.2.2.fold n hb _⟩
  · rw [GipaStatic.foldSt, if_neg hn]; exact h

/-- At most three non-zero challenges make a doomed pair, of which one or both statements are extended with the
same challenge, one that is not doomed. -/
theorem escape_le {D : Type} (key : D → F) (m : ℕ)
    (hm : ∀ (x : F) (S : Finset D), (∀ d ∈ S, key d = x) → S.card ≤ m)
    (s1 : GipaStatic.St KA KB OA OB T) (s2 : SsmStatic.St F K2 C2 O2) (z1 : (OA × OB × T) × (OA × OB × T))
    (z2 : (C2 × O2) × (C2 × O2)) (b1 b2 : Bool) (hst : Doomed bil φa φb uT bil2 φ2 uT2 s1 s2) (S : Finset D)
    (hS : ∀ d ∈ S, ¬ Doomed bil φa φb uT bil2 φ2 uT2 (if b1 then GipaStatic.foldSt s1 z1 (key d) else s1)
      (if b2 then SsmStatic.foldSt s2 z2 (key d) else s2)) : S.card ≤ 4 * m := by
  classical
  obtain ⟨l1, l2, hno⟩ := hst
  have hop : ∀ d ∈ S, ∃ y, Opens bil φa φb uT y (if b1 then GipaStatic.foldSt s1 z1 (key d) else s1) ∧
      PolyStatic.Opens bil2 φ2 0 uT2 y (if b2 then SsmStatic.foldSt s2 z2 (key d) else s2) := by
    intro d hd
    by_contra hcon
    refine hS d hd ⟨?_, ?_, hcon⟩
    · split
      · exact foldSt_fine _ l1 _ _
      · exact l1
    · split
      · exact PolyStatic.foldSt_length _ l2 _ _
      · exact l2
  have hT4 : (S.image key).card ≤ 4 := by
    by_contra hcon
    have h4 : 4 ≤ ((S.image key).erase 0).card := by
      have := Finset.pred_card_le_card_erase (s := S.image key) (a := 0)
      omega
    obtain ⟨U, hU, hU4⟩ := Finset.exists_subset_card_eq h4
    let c : Fin 4 → F := fun i => (U.equivFin.symm (Fin.cast hU4.symm i) : U)
    have hcU : ∀ i, c i ∈ U := fun i => (U.equivFin.symm (Fin.cast hU4.symm i)).2
    have hc : Function.Injective c := fun i j h => by
      have := U.equivFin.symm.injective (Subtype.ext h)
      exact Fin.cast_injective _ this
    have h0 : ∀ i, c i ≠ 0 := fun i => (Finset.mem_erase.mp (hU (hcU i))).1
    have hy : ∀ i, ∃ y, Opens bil φa φb uT y (if b1 then GipaStatic.foldSt s1 z1 (c i) else s1) ∧
        PolyStatic.Opens bil2 φ2 0 uT2 y (if b2 then SsmStatic.foldSt s2 z2 (c i) else s2) := by
      intro i
      obtain ⟨d, hd, he⟩ := Finset.mem_image.mp (Finset.mem_erase.mp (hU (hcU i))).2
      rw [← he]
      exact hop d hd
    choose y y1 y2 using hy
    exact hno ⟨combo (three c) (three y), opens_of_four s1 l1.1 l1.2.1 l1.2.2 z1 c hc h0 b1 y y1,
      PolyStatic.opens_of_three s2 l2 z2 (three c) (fun i => h0 _) (hc.comp (Fin.castSucc_injective 3)) b2 (three y)
        fun i => y2 _⟩
  rw [Finset.card_eq_sum_card_image key S]
  refine (Finset.sum_le_card_nsmul _ _ m fun x _ => ?_).trans ?_
  · exact hm x _ fun d hd => (Finset.mem_filter.mp hd).2
  · rw [smul_eq_mul]
    exact Nat.mul_le_mul_right m hT4

end Pair

/-! ## The end of the first chain -/

section End
variable {MA MB T KA KB OA OB OT RT O : Type} [AddCommGroup MA] [Module F MA] [AddCommGroup MB] [Module F MB]
  [AddCommGroup T] [Module F T] [AddCommGroup KA] [Module F KA] [AddCommGroup KB] [Module F KB]
  [AddCommGroup OA] [Module F OA] [AddCommGroup OB] [Module F OB] [Add OT] [SMul F OT]
  [AddCommGroup O] [Module F O] {n : ℕ}

/-- The commitments of both halves of a step. -/
def coms2 (φa : MA →ₗ[F] KA →ₗ[F] OA) (φb : MB →ₗ[F] KB →ₗ[F] OB) (τ : RT → OT) (va : Fin n → KA)
    (vb : Fin n → KB) (z : GipaStatic.Known n MA MB RT × GipaStatic.Known n MA MB RT) :
    Coms OA OB OT × Coms OA OB OT := (GipaStatic.coms φa φb τ va vb z.1, GipaStatic.coms φa φb τ va vb z.2)

/-- An accepting run, with the known openings `os` in the place of the commitments. -/
theorem run_eqs {bil : MA →ₗ[F] MB →ₗ[F] T} {φa : MA →ₗ[F] KA →ₗ[F] OA} {φb : MB →ₗ[F] KB →ₗ[F] OB} {ψ : T → OT}
    (τ : RT → OT) (va : Fin n → KA) (vb : Fin n → KB) (ra : Fin n → MA) (rb : Fin n → MB) (comT : OT)
    (cs : List F) (hn : n = 2 ^ cs.length)
    (zs os : List (GipaStatic.Known n MA MB RT × GipaStatic.Known n MA MB RT))
    (hos : os.map (coms2 φa φb τ va vb) = zs.map (coms2 φa φb τ va vb)) (a : MA) (b : MB)
    (h : Run bil φa φb ψ (List.ofFn va) (List.ofFn vb) (commitTo φa va ra, commitTo φb vb rb, comT) cs
      (zs.map (coms2 φa φb τ va vb)) a b) :
    commitTo φa va (accum cs (os.map fun z => (z.1.1, z.2.1)) ra) = φa a (keyOf va (weights (cs.map (·⁻¹)) n)) ∧
    commitTo φb vb (accum cs (os.map fun z => (z.1.2.1, z.2.2.1)) rb) = φb b (keyOf vb (weights cs n)) ∧
    accum cs (os.map fun z => (τ z.1.2.2, τ z.2.2.2)) comT = ψ (bil a b) := by
  obtain ⟨ka, kb, e1, e2, e3, e4, e5⟩ := h
  rw [← hos, List.map_map] at e3 e4 e5
  refine ⟨?_, ?_, e5⟩
  · have hk : keyOf va (weights (cs.map (·⁻¹)) n) = ka := by
      have := map_foldAll (keyOf (F := F) va) (cs.map (·⁻¹)) (formalKey n)
      rw [foldAll_formalKey _ (by rw [List.length_map, hn]), map_formalKey, e1] at this
      exact List.singleton_injective this
    rw [hk, map_accum, List.map_map]
    exact e3
  · have hk : keyOf vb (weights cs n) = kb := by
      have := map_foldAll (keyOf (F := F) vb) cs (formalKey n)
      rw [foldAll_formalKey _ hn, map_formalKey, e2] at this
      exact List.singleton_injective this
    rw [hk, map_accum, List.map_map]
    exact e4

/-- The formal state at the end of a chain. -/
theorem follow_end {X D : Type}
    (enc : GipaStatic.Known n MA MB RT × GipaStatic.Known n MA MB RT → F → X) (key : D → F) (H : X → D)
    (f : RT → O) (ra : Fin n → MA) (rb : Fin n → MB) (t0 : O)
    (L : X → GipaStatic.Known n MA MB RT × GipaStatic.Known n MA MB RT)
    (zs : List (GipaStatic.Known n MA MB RT × GipaStatic.Known n MA MB RT)) (hn : n = 2 ^ zs.length) :
    Oracle.follow enc key (fun st z d => GipaStatic.foldSt st (GipaStatic.lift f z) (key d)) L H
        ((formalKey n, formalKey n, ra, rb, t0) :
          GipaStatic.St (Fin n → F) (Fin n → F) (Fin n → MA) (Fin n → MB) O) 0 zs =
      ([weights (((Oracle.queries enc key H 0 zs).map fun x => key (H x)).map (·⁻¹)) n],
        [weights ((Oracle.queries enc key H 0 zs).map fun x => key (H x)) n],
        accum ((Oracle.queries enc key H 0 zs).map fun x => key (H x))
          (((Oracle.queries enc key H 0 zs).map L).map fun z => (z.1.1, z.2.1)) ra,
        accum ((Oracle.queries enc key H 0 zs).map fun x => key (H x))
          (((Oracle.queries enc key H 0 zs).map L).map fun z => (z.1.2.1, z.2.2.1)) rb,
        accum ((Oracle.queries enc key H 0 zs).map fun x => key (H x))
          (((Oracle.queries enc key H 0 zs).map L).map fun z => (f z.1.2.2, f z.2.2.2)) t0) := by
  rw [Oracle.follow_eq]
  set qs := Oracle.queries enc key H 0 zs with hqs
  have hlen : qs.length = zs.length := Oracle.length_queries enc key H zs 0
  have hfold : qs.foldl (fun st x => GipaStatic.foldSt st (GipaStatic.lift f (L x)) (key (H x)))
        ((formalKey n, formalKey n, ra, rb, t0) :
          GipaStatic.St (Fin n → F) (Fin n → F) (Fin n → MA) (Fin n → MB) O) =
      (qs.map fun x => (GipaStatic.lift f (L x), key (H x))).foldl
        (fun st p => GipaStatic.foldSt st p.1 p.2) (formalKey n, formalKey n, ra, rb, t0) := by
    rw [List.foldl_map]
  rw [hfold, GipaStatic.foldl_foldSt _ _ _ _ (by simp [formalKey, hlen, hn])]
  simp only [List.map_map, Function.comp_def, GipaStatic.lift]
  rw [← foldAll_formalKey _ (by rw [List.length_map, hlen]; exact hn),
    ← foldAll_formalKey _ (by rw [List.length_map, hlen]; exact hn)]

end End

/-! ## Both chains for a fixed challenge -/

section Static
open TipaStatic (Comb leftKey rightKey)

variable {ρ G1 G2 GT TF : Type} [DecidableEq F] [AddCommGroup G1] [Module F G1]
  [AddCommGroup G2] [Module F G2] [AddCommGroup GT] [Module F GT] [Monoid TF]
  [DecidableEq G1] [DecidableEq GT] {n : ℕ}

/-- What the prover knows about a step of the argument for the `A` and `B`: two pairs of vectors and a value. -/
abbrev StepAB (n : ℕ) (G1 G2 R : Type) := GipaStatic.Known n G1 G2 R × GipaStatic.Known n G1 G2 R

/-- What it knows about a step of the argument for the `C`: two vectors, and a scalar and a value for each. -/
abbrev StepC (n : ℕ) (F G1 R : Type) := SsmStatic.Known n F G1 R × SsmStatic.Known n F G1 R

/-- A prover with oracle access. Its queries, and what it knows about the commitments and final keys it hashes, are
computed from the answers so far; a query may belong to either argument. At the end it outputs both aggregated values
and both proofs (steps in round order), with the openings and with the final keys and their openings as combinations
of the reference string. -/
structure Prover (n : ℕ) (F G1 G2 GT R1 R2 : Type) (Xs Ds : Finset Bytes) where
  query : List Ds → Xs
  labelAB : List Ds → StepAB n G1 G2 R1
  labelC : List Ds → StepC n F G1 R2
  keysAB : List Ds → Comb n F × Comb n F
  keysC : List Ds → Comb n F
  ipAB : List Ds → GT
  aggC : List Ds → G1
  stepsAB : List Ds → List (StepAB n G1 G2 R1)
  stepsC : List Ds → List (StepC n F G1 R2)
  baseAB : List Ds → G1 × G2
  baseC : List Ds → G1 × F
  finalAB : List Ds → Comb n F × Comb n F
  finalC : List Ds → Comb n F
  openingAB : List Ds → Comb n F × Comb n F
  openingC : List Ds → Comb n F

variable {Xs Ds : Finset Bytes} {R1 R2 : Type} {S1 : Shape GT R1} {S2 : Shape G1 R2}

/-- The part for the `A` and `B`. -/
def Prover.ab (A : Prover n F G1 G2 GT R1 R2 Xs Ds) : TipaStatic.Prover n F G1 G2 R1 Xs Ds where
  query := A.query
  label := A.labelAB
  steps := A.stepsAB
  base := A.baseAB
  keys := A.keysAB
  final := A.finalAB
  opening := A.openingAB

/-- The part for the `C`. -/
def Prover.c (A : Prover n F G1 G2 GT R1 R2 Xs Ds) : TipaSsmStatic.Prover n F G1 R2 Xs Ds where
  query := A.query
  label := A.labelC
  steps := A.stepsC
  base := A.baseC
  keys := A.keysC
  final := A.finalC
  opening := A.openingC

variable (V : Env ρ F G1 G2 GT TF) (e : G1 →ₗ[F] G2 →ₗ[F] GT) (srs : SRS G1 G2) (r : F)
  (hm1 : ∀ k z1 z2, V.pairingAB.hashInput 0 k
    (GipaStatic.coms e e.flip S1.out (leftKey srs r n) (rightKey srs n) z1)
    (GipaStatic.coms e e.flip S1.out (leftKey srs r n) (rightKey srs n) z2) ∈ Xs)
  (hm2 : ∀ k z, V.multiexpSsm.hashInput 0 k (SsmStatic.coms2 e S2.out (leftKey srs (1 : F) n) z).1
    (SsmStatic.coms2 e S2.out (leftKey srs (1 : F) n) z).2 ∈ Xs)

/-- The hash input of a round of the argument for the `A` and `B`. -/
abbrev linkAB (z : StepAB n G1 G2 R1) (k : F) : Xs :=
  GipaStatic.link V.pairingAB e e.flip S1.out (leftKey srs r n) (rightKey srs n) hm1 z k

/-- The hash input of a round of the argument for the `C`. -/
abbrev linkC (z : StepC n F G1 R2) (k : F) : Xs :=
  SsmStatic.link V.multiexpSsm e S2.out (leftKey srs (1 : F) n) hm2 z k

/-- The queries of prover and verifier. -/
def Prover.all (A : Prover n F G1 G2 GT R1 R2 Xs Ds) (Q k : ℕ) : List Ds → Xs :=
  Oracle.withCheck2 A.query Q k A.stepsAB A.stepsC (linkAB V e srs r hm1) (linkC V e srs hm2) (challengeOf F) 0

/-- The challenges of all rounds. -/
abbrev Prover.challengesAB (A : Prover n F G1 G2 GT R1 R2 Xs Ds) (Q : ℕ) (H : Xs → Ds) : List F :=
  A.ab.toProver.challenges V.pairingAB e e.flip S1.out (leftKey srs r n) (rightKey srs n) hm1 Q H

abbrev Prover.challengesC (A : Prover n F G1 G2 GT R1 R2 Xs Ds) (Q : ℕ) (H : Xs → Ds) : List F :=
  A.c.toProver.challenges V.multiexpSsm e S2.out (leftKey srs (1 : F) n) hm2 Q H

/-- What was known about the step commitments when they were first hashed. -/
noncomputable def Prover.openingsAB (A : Prover n F G1 G2 GT R1 R2 Xs Ds) (Q k : ℕ) (H : Xs → Ds) :
    List (StepAB n G1 G2 R1) :=
  (A.ab.toProver.inputs V.pairingAB e e.flip S1.out (leftKey srs r n) (rightKey srs n) hm1 Q H).map
    (Oracle.firstLabel (A.all V e srs r hm1 hm2 Q k)
    (Oracle.labels (A.all V e srs r hm1 hm2 Q k) Q A.stepsAB (linkAB V e srs r hm1) A.labelAB) H (Q + k + k))

noncomputable def Prover.openingsC (A : Prover n F G1 G2 GT R1 R2 Xs Ds) (Q k : ℕ) (H : Xs → Ds) : List (StepC n F G1 R2) :=
  (A.c.toProver.inputs V.multiexpSsm e S2.out (leftKey srs (1 : F) n) hm2 Q H).map
    (Oracle.firstLabel (A.all V e srs r hm1 hm2 Q k)
    (Oracle.labels (A.all V e srs r hm1 hm2 Q k) Q A.stepsC (linkC V e srs hm2) A.labelC) H (Q + k + k))

/-- Two vectors: the combination of the known openings, and the one the base stands for; for the `A`, … -/
noncomputable def Prover.pairA (A : Prover n F G1 G2 GT R1 R2 Xs Ds) (ra : Fin n → G1) (Q k : ℕ) (H : Xs → Ds) :
    (Fin n → G1) × (Fin n → G1) :=
  (accum (A.challengesAB V e srs r hm1 Q H)
      ((A.openingsAB V e srs r hm1 hm2 Q k H).map fun z => (z.1.1, z.2.1)) ra,
    fun i => weights ((A.challengesAB V e srs r hm1 Q H).map (·⁻¹)) n i •
      (A.baseAB (Oracle.trace A.query H Q)).1)

/-- … for the `B`, … -/
noncomputable def Prover.pairB (A : Prover n F G1 G2 GT R1 R2 Xs Ds) (rb : Fin n → G2) (Q k : ℕ) (H : Xs → Ds) :
    (Fin n → G2) × (Fin n → G2) :=
  (accum (A.challengesAB V e srs r hm1 Q H)
      ((A.openingsAB V e srs r hm1 hm2 Q k H).map fun z => (z.1.2.1, z.2.2.1)) rb,
    fun i => weights (A.challengesAB V e srs r hm1 Q H) n i • (A.baseAB (Oracle.trace A.query H Q)).2)

/-- … and for the `C`. -/
noncomputable def Prover.pairC (A : Prover n F G1 G2 GT R1 R2 Xs Ds) (rc : Fin n → G1) (Q k : ℕ) (H : Xs → Ds) :
    (Fin n → G1) × (Fin n → G1) :=
  (accum (A.challengesC V e srs hm2 Q H)
      ((A.openingsC V e srs r hm1 hm2 Q k H).map fun z => (z.1.1, z.2.1)) rc,
    fun i => weights ((A.challengesC V e srs hm2 Q H).map (·⁻¹)) n i • (A.baseC (Oracle.trace A.query H Q)).1)

/-- The prover found two different vectors with the same commitment. -/
def Prover.Collides (A : Prover n F G1 G2 GT R1 R2 Xs Ds) (ra : Fin n → G1) (rb : Fin n → G2) (rc : Fin n → G1) (Q k : ℕ)
    (H : Xs → Ds) : Prop :=
  Clash e (leftKey srs r n) (A.pairA V e srs r hm1 hm2 ra Q k H) ∨
    Clash e.flip (rightKey srs n) (A.pairB V e srs r hm1 hm2 rb Q k H) ∨
    Clash e (leftKey srs (1 : F) n) (A.pairC V e srs r hm1 hm2 rc Q k H)

variable {V e srs r}

/-- The equations that two accepting runs without a collision give for the known openings. -/
theorem runs_eqs (hF : Decodable (fun _ => True) V.serF) (hG : Decodable (fun _ => True) V.serG1)
    (hT : Decodable (fun _ => True) V.serGT) (k : ℕ)
    (hn : n = 2 ^ k) (ra : Fin n → G1) (rb : Fin n → G2) (rc : Fin n → G1) (A : Prover n F G1 G2 GT R1 R2 Xs Ds) (Q : ℕ)
    (hlab1 : ∀ ds z c, A.query ds = linkAB V e srs r hm1 z c →
      coms2 e e.flip S1.out (leftKey srs r n) (rightKey srs n) (A.labelAB ds) =
        coms2 e e.flip S1.out (leftKey srs r n) (rightKey srs n) z)
    (hlab2 : ∀ ds z c, A.query ds = linkC V e srs hm2 z c →
      SsmStatic.coms2 e S2.out (leftKey srs (1 : F) n) (A.labelC ds) =
        SsmStatic.coms2 e S2.out (leftKey srs (1 : F) n) z)
    (hs1 : ∀ ds, (A.stepsAB ds).length = k) (hs2 : ∀ ds, (A.stepsC ds).length = k) (H : Xs → Ds)
    (run1 : Run e e e.flip single (List.ofFn (leftKey srs r n)) (List.ofFn (rightKey srs n))
        (commitTo e (leftKey srs r n) ra, commitTo e.flip (rightKey srs n) rb,
          single (A.ipAB (Oracle.trace A.query H Q)))
        (A.challengesAB V e srs r hm1 Q H)
        ((A.stepsAB (Oracle.trace A.query H Q)).map (coms2 e e.flip S1.out (leftKey srs r n) (rightKey srs n)))
        (A.baseAB (Oracle.trace A.query H Q)).1 (A.baseAB (Oracle.trace A.query H Q)).2)
    (run2 : SsmExtract.Run (smulMap F G1) e single (List.ofFn (leftKey srs (1 : F) n)) ((List.range n).map (r ^ ·))
        (commitTo e (leftKey srs (1 : F) n) rc, single (A.aggC (Oracle.trace A.query H Q)))
        (A.challengesC V e srs hm2 Q H)
        (SsmExtract.outer ((A.stepsC (Oracle.trace A.query H Q)).map
          (SsmStatic.coms2 e S2.out (leftKey srs (1 : F) n))))
        (A.baseC (Oracle.trace A.query H Q)).1)
    (hcol : ¬ A.Collides V e srs r hm1 hm2 ra rb rc Q k H) :
    ((A.openingsAB V e srs r hm1 hm2 Q k H).map (coms2 e e.flip S1.out (leftKey srs r n) (rightKey srs n)) =
        (A.stepsAB (Oracle.trace A.query H Q)).map (coms2 e e.flip S1.out (leftKey srs r n) (rightKey srs n)) ∧
      (A.pairA V e srs r hm1 hm2 ra Q k H).1 = (A.pairA V e srs r hm1 hm2 ra Q k H).2 ∧
      (A.pairB V e srs r hm1 hm2 rb Q k H).1 = (A.pairB V e srs r hm1 hm2 rb Q k H).2 ∧
      accum (A.challengesAB V e srs r hm1 Q H)
          ((A.openingsAB V e srs r hm1 hm2 Q k H).map fun z => (S1.head z.1.2.2, S1.head z.2.2.2))
          (A.ipAB (Oracle.trace A.query H Q)) =
        e (A.baseAB (Oracle.trace A.query H Q)).1 (A.baseAB (Oracle.trace A.query H Q)).2) ∧
    (A.openingsC V e srs r hm1 hm2 Q k H).map (SsmStatic.coms2 e S2.out (leftKey srs (1 : F) n)) =
        (A.stepsC (Oracle.trace A.query H Q)).map (SsmStatic.coms2 e S2.out (leftKey srs (1 : F) n)) ∧
      (A.pairC V e srs r hm1 hm2 rc Q k H).1 = (A.pairC V e srs r hm1 hm2 rc Q k H).2 ∧
      ∃ r', foldAll ((A.challengesC V e srs hm2 Q H).map (·⁻¹)) ((List.range n).map (r ^ ·)) = [r'] ∧
        accum (A.challengesC V e srs hm2 Q H)
          ((A.openingsC V e srs r hm1 hm2 Q k H).map fun z => (S2.head z.1.2.2, S2.head z.2.2.2))
          (A.aggC (Oracle.trace A.query H Q)) = smulMap F G1 (A.baseC (Oracle.trace A.query H Q)).1 r' := by
  have hTt : Decodable (· ∈ Set.range S1.out) V.pairingAB.serT := S1.decodable hT
  have hTg : Decodable (· ∈ Set.range S2.out) V.multiexpSsm.serT := S2.decodable hG
  obtain ⟨ask1, ask2⟩ := Oracle.output_asked2 A.query Q k A.stepsAB A.stepsC (linkAB V e srs r hm1)
    (linkC V e srs hm2) (challengeOf F) 0 k H (fun ds => (hs1 ds).le) (fun ds => (hs2 ds).le)
  have htr : Oracle.trace (A.all V e srs r hm1 hm2 Q k) H Q = Oracle.trace A.query H Q :=
    Oracle.trace_withCheck2 A.query Q k A.stepsAB A.stepsC (linkAB V e srs r hm1) (linkC V e srs hm2)
      (challengeOf F) 0 H
  have hlt : ∀ ds, ds.length < Q → A.all V e srs r hm1 hm2 Q k ds = A.query ds :=
    Oracle.withCheck2_lt A.query Q k A.stepsAB A.stepsC (linkAB V e srs r hm1) (linkC V e srs hm2)
      (challengeOf F) 0
  set zs1 := A.stepsAB (Oracle.trace A.query H Q) with hzs1
  set zs2 := A.stepsC (Oracle.trace A.query H Q) with hzs2
  have ops1 : (A.openingsAB V e srs r hm1 hm2 Q k H).map
        (coms2 e e.flip S1.out (leftKey srs r n) (rightKey srs n)) =
      zs1.map (coms2 e e.flip S1.out (leftKey srs r n) (rightKey srs n)) := by
    rw [Prover.openingsAB, List.map_map]
    refine Oracle.map_queries (linkAB V e srs r hm1) (challengeOf F)
      (coms2 e e.flip S1.out (leftKey srs r n) (rightKey srs n)) _
      (fun x => ∃ i < Q + k + k, Oracle.asked (A.all V e srs r hm1 hm2 Q k) H i = x) H zs1 0 ?_ ask1
    intro z hz c hx
    refine Oracle.label_rel2 A.query Q _ A.stepsAB (linkAB V e srs r hm1) A.labelAB hlt
      (fun z z' => coms2 e e.flip S1.out (leftKey srs r n) (rightKey srs n) z =
        coms2 e e.flip S1.out (leftKey srs r n) (rightKey srs n) z') z c
      (fun ds h => hlab1 ds z c h) ?_ H _ (by rw [htr]; exact hz) hx
    intro ds z' hz' c' h
    obtain ⟨-, -, g1, g2⟩ := Gipa.C23_hash_input_injective (P := V.pairingAB) hF hT hT hTt 0 0 (by norm_num)
      (by norm_num) _ _ trivial trivial _ _ _ _ (by simp [GipaStatic.coms]) (congrArg Subtype.val h)
    exact Prod.ext g1 g2
  have ops2 : (A.openingsC V e srs r hm1 hm2 Q k H).map (SsmStatic.coms2 e S2.out (leftKey srs (1 : F) n)) =
      zs2.map (SsmStatic.coms2 e S2.out (leftKey srs (1 : F) n)) := by
    rw [Prover.openingsC, List.map_map]
    refine Oracle.map_queries (linkC V e srs hm2) (challengeOf F) (SsmStatic.coms2 e S2.out (leftKey srs (1 : F) n)) _
      (fun x => ∃ i < Q + k + k, Oracle.asked (A.all V e srs r hm1 hm2 Q k) H i = x) H zs2 0 ?_ ask2
    intro z hz c hx
    refine Oracle.label_rel2 A.query Q _ A.stepsC (linkC V e srs hm2) A.labelC hlt
      (fun z z' => SsmStatic.coms2 e S2.out (leftKey srs (1 : F) n) z =
        SsmStatic.coms2 e S2.out (leftKey srs (1 : F) n) z') z c
      (fun ds h => hlab2 ds z c h) ?_ H _ (by rw [htr]; exact hz) hx
    intro ds z' hz' c' h
    obtain ⟨-, -, g1, g2⟩ := Gipa.C23_hash_input_injective (P := V.multiexpSsm) hF hT hF hTg 0 0 (by norm_num)
      (by norm_num) _ _ trivial trivial _ _ _ _ (by simp [SsmStatic.coms2, SsmStatic.coms]) (congrArg Subtype.val h)
    exact Prod.ext g1 g2
  have len1 : (A.challengesAB V e srs r hm1 Q H).length = k := by
    rw [Prover.challengesAB, GipaStatic.Prover.challenges, List.length_map, GipaStatic.Prover.inputs,
      Oracle.length_queries]
    exact hs1 _
  have len2 : (A.challengesC V e srs hm2 Q H).length = k := by
    rw [Prover.challengesC, SsmStatic.Prover.challenges, List.length_map, SsmStatic.Prover.inputs,
      Oracle.length_queries]
    exact hs2 _
  obtain ⟨gA, gB, t1⟩ := run_eqs S1.out (leftKey srs r n) (rightKey srs n) ra rb _ _ (by rw [len1, hn]) zs1 _ ops1 _ _
    run1
  obtain ⟨r', f2, gC, t2⟩ := PolyStatic.run_eqs e S2.out (leftKey srs (1 : F) n) _ rc _ _ (by rw [len2, hn]) zs2 _
    ops2 _ run2
  refine ⟨⟨ops1, ?_, ?_, ?_⟩, ops2, ?_, r', f2, ?_⟩
  · by_contra hcon
    exact hcol (Or.inl ⟨hcon, gA.trans (commitTo_formal e _ _ _).symm⟩)
  · by_contra hcon
    exact hcol (Or.inr (Or.inl ⟨hcon, gB.trans (commitTo_formal e.flip _ _ _).symm⟩))
  · have : accum (A.challengesAB V e srs r hm1 Q H)
        (((A.openingsAB V e srs r hm1 hm2 Q k H).map fun z => (z.1.2.2, z.2.2.2)).map
          fun s => (S1.out s.1, S1.out s.2)) (single (A.ipAB (Oracle.trace A.query H Q))) =
        single (e (A.baseAB (Oracle.trace A.query H Q)).1 (A.baseAB (Oracle.trace A.query H Q)).2) := by
      rw [List.map_map]; exact t1
    rw [Shape.accum_head, List.map_map] at this
    have := congrArg IdentityOutput.vals this
    simp only [single, List.cons.injEq, and_true] at this
    exact this
  · by_contra hcon
    exact hcol (Or.inr (Or.inr ⟨hcon, gC.trans (commitTo_formal e _ _ _).symm⟩))
  · have : accum (A.challengesC V e srs hm2 Q H)
        (((A.openingsC V e srs r hm1 hm2 Q k H).map fun z => (z.1.2.2, z.2.2.2)).map
          fun s => (S2.out s.1, S2.out s.2)) (single (A.aggC (Oracle.trace A.query H Q))) =
        single (smulMap F G1 (A.baseC (Oracle.trace A.query H Q)).1 r') := by
      rw [List.map_map]; exact t2
    rw [Shape.accum_head, List.map_map] at this
    have := congrArg IdentityOutput.vals this
    simp only [single, List.cons.injEq, and_true] at this
    exact this

/-- The states at the ends of both chains are open for the aggregated value that is not hashed. -/
theorem runs_open (k : ℕ) (hn : n = 2 ^ k) (ra : Fin n → G1) (rb : Fin n → G2) (rc : Fin n → G1) (t : GT) (δ : G2)
    (A : Prover n F G1 G2 GT R1 R2 Xs Ds) (Q : ℕ)
    (hs1 : ∀ ds, (A.stepsAB ds).length = k) (hs2 : ∀ ds, (A.stepsC ds).length = k) (H : Xs → Ds)
    (hppe : A.ipAB (Oracle.trace A.query H Q) = t + e (A.aggC (Oracle.trace A.query H Q)) δ)
    (gA : (A.pairA V e srs r hm1 hm2 ra Q k H).1 = (A.pairA V e srs r hm1 hm2 ra Q k H).2)
    (gB : (A.pairB V e srs r hm1 hm2 rb Q k H).1 = (A.pairB V e srs r hm1 hm2 rb Q k H).2)
    (t1 : accum (A.challengesAB V e srs r hm1 Q H)
          ((A.openingsAB V e srs r hm1 hm2 Q k H).map fun z => (S1.head z.1.2.2, S1.head z.2.2.2))
          (A.ipAB (Oracle.trace A.query H Q)) =
        e (A.baseAB (Oracle.trace A.query H Q)).1 (A.baseAB (Oracle.trace A.query H Q)).2)
    (gC : (A.pairC V e srs r hm1 hm2 rc Q k H).1 = (A.pairC V e srs r hm1 hm2 rc Q k H).2) (r' : F)
    (f2 : foldAll ((A.challengesC V e srs hm2 Q H).map (·⁻¹)) ((List.range n).map (r ^ ·)) = [r'])
    (t2 : accum (A.challengesC V e srs hm2 Q H)
          ((A.openingsC V e srs r hm1 hm2 Q k H).map fun z => (S2.head z.1.2.2, S2.head z.2.2.2))
          (A.aggC (Oracle.trace A.query H Q)) = smulMap F G1 (A.baseC (Oracle.trace A.query H Q)).1 r') :
    Opens e (formal n) (formal n) (e.flip δ) (A.aggC (Oracle.trace A.query H Q))
      (Oracle.follow (linkAB V e srs r hm1) (challengeOf F)
        (fun st z d => GipaStatic.foldSt st (GipaStatic.lift S1.head z) (challengeOf F d))
        (Oracle.firstLabel (A.all V e srs r hm1 hm2 Q k)
          (Oracle.labels (A.all V e srs r hm1 hm2 Q k) Q A.stepsAB (linkAB V e srs r hm1) A.labelAB) H (Q + k + k)) H
        ((formalKey n, formalKey n, ra, rb, t) :
          GipaStatic.St (Fin n → F) (Fin n → F) (Fin n → G1) (Fin n → G2) GT) 0
        (A.stepsAB (Oracle.trace A.query H Q))) ∧
    PolyStatic.Opens (smulMap F G1) (formal n) 0 (LinearMap.id : G1 →ₗ[F] G1) (A.aggC (Oracle.trace A.query H Q))
      (Oracle.follow (linkC V e srs hm2) (challengeOf F)
        (fun st z d => SsmStatic.foldSt st ((z.1.1, S2.head z.1.2.2), (z.2.1, S2.head z.2.2.2)) (challengeOf F d))
        (Oracle.firstLabel (A.all V e srs r hm1 hm2 Q k)
          (Oracle.labels (A.all V e srs r hm1 hm2 Q k) Q A.stepsC (linkC V e srs hm2) A.labelC) H (Q + k + k)) H
        ((formalKey n, List.ofFn fun i : Fin n => r ^ (i : ℕ), rc, 0) : SsmStatic.St F (Fin n → F) (Fin n → G1) G1) 0
        (A.stepsC (Oracle.trace A.query H Q))) := by
  have hpr : (List.ofFn fun i : Fin n => r ^ (i : ℕ)) = (List.range n).map (r ^ ·) := by
    apply List.ext_getElem <;> simp
  constructor
  · rw [follow_end _ _ _ _ _ _ _ _ _ (by rw [hs1]; exact hn)]
    change Opens _ _ _ _ _ ([weights ((A.challengesAB V e srs r hm1 Q H).map (·⁻¹)) n],
      [weights (A.challengesAB V e srs r hm1 Q H) n],
      accum (A.challengesAB V e srs r hm1 Q H)
        ((A.openingsAB V e srs r hm1 hm2 Q k H).map fun z => (z.1.1, z.2.1)) ra,
      accum (A.challengesAB V e srs r hm1 Q H)
        ((A.openingsAB V e srs r hm1 hm2 Q k H).map fun z => (z.1.2.1, z.2.2.1)) rb,
      accum (A.challengesAB V e srs r hm1 Q H)
        ((A.openingsAB V e srs r hm1 hm2 Q k H).map fun z => (S1.head z.1.2.2, S1.head z.2.2.2)) t)
    refine ⟨[(A.baseAB (Oracle.trace A.query H Q)).1], [(A.baseAB (Oracle.trace A.query H Q)).2], rfl, rfl, ?_, ?_, ?_⟩
    · refine gA.trans ?_
      simp [formal]; rfl
    · refine gB.trans ?_
      simp [formal]; rfl
    · change accum _ _ t + e (A.aggC (Oracle.trace A.query H Q)) δ = dot _ [_] [_]
      rw [PolyStatic.accum_add, ← hppe, t1]
      simp
  · rw [PolyStatic.follow_end _ _ _ _ _ _ _ _ _ (by rw [hs2]; exact hn), hpr]
    change PolyStatic.Opens _ _ _ _ _ ([weights ((A.challengesC V e srs hm2 Q H).map (·⁻¹)) n],
      foldAll ((A.challengesC V e srs hm2 Q H).map (·⁻¹)) _,
      accum (A.challengesC V e srs hm2 Q H)
        ((A.openingsC V e srs r hm1 hm2 Q k H).map fun z => (z.1.1, z.2.1)) rc,
      accum (A.challengesC V e srs hm2 Q H)
        ((A.openingsC V e srs r hm1 hm2 Q k H).map fun z => (S2.head z.1.2.2, S2.head z.2.2.2)) 0)
    rw [f2]
    refine ⟨[(A.baseC (Oracle.trace A.query H Q)).1], rfl, ?_, ?_⟩
    · change accum _ _ rc + 0 = _
      rw [add_zero]
      refine gC.trans ?_
      simp [formal]; rfl
    · change accum _ _ 0 + A.aggC (Oracle.trace A.query H Q) = dot _ [_] [r']
      rw [PolyStatic.accum_add, zero_add, t2]
      simp

open Classical in
/-- For a fixed challenge, and openings of the commitments for which the pairing product equation fails, few oracles
give two accepting runs whose aggregated values satisfy the equation, without a collision. -/
theorem count_runs (hF : Decodable (fun _ => True) V.serF) (hG : Decodable (fun _ => True) V.serG1)
    (hT : Decodable (fun _ => True) V.serGT) (m : ℕ)
    (hm : ∀ x : F, (Finset.univ.filter fun d : Ds => challengeOf F d = x).card ≤ m) (k : ℕ)
    (hn : n = 2 ^ k) (ra : Fin n → G1) (rb : Fin n → G2) (rc : Fin n → G1) (t : GT) (δ : G2)
    (hfalse : ∑ i, e (ra i) (rb i) ≠ t + e (∑ i : Fin n, r ^ (i : ℕ) • rc i) δ) (A : Prover n F G1 G2 GT R1 R2 Xs Ds) (Q : ℕ)
    (hlab1 : ∀ ds z c, A.query ds = linkAB V e srs r hm1 z c →
      coms2 e e.flip S1.out (leftKey srs r n) (rightKey srs n) (A.labelAB ds) =
        coms2 e e.flip S1.out (leftKey srs r n) (rightKey srs n) z)
    (hlab2 : ∀ ds z c, A.query ds = linkC V e srs hm2 z c →
      SsmStatic.coms2 e S2.out (leftKey srs (1 : F) n) (A.labelC ds) =
        SsmStatic.coms2 e S2.out (leftKey srs (1 : F) n) z)
    (hs1 : ∀ ds, (A.stepsAB ds).length = k) (hs2 : ∀ ds, (A.stepsC ds).length = k) (W : Finset (Xs → Ds))
    (hW : ∀ H ∈ W, (∀ x ∈ A.ab.toProver.inputs V.pairingAB e e.flip S1.out (leftKey srs r n) (rightKey srs n) hm1 Q H,
        challengeOf F (H x) ≠ 0) →
      (∀ x ∈ A.c.toProver.inputs V.multiexpSsm e S2.out (leftKey srs (1 : F) n) hm2 Q H, challengeOf F (H x) ≠ 0) →
      A.ipAB (Oracle.trace A.query H Q) = t + e (A.aggC (Oracle.trace A.query H Q)) δ ∧
      Run e e e.flip single (List.ofFn (leftKey srs r n)) (List.ofFn (rightKey srs n))
        (commitTo e (leftKey srs r n) ra, commitTo e.flip (rightKey srs n) rb,
          single (A.ipAB (Oracle.trace A.query H Q)))
        (A.challengesAB V e srs r hm1 Q H)
        ((A.stepsAB (Oracle.trace A.query H Q)).map (coms2 e e.flip S1.out (leftKey srs r n) (rightKey srs n)))
        (A.baseAB (Oracle.trace A.query H Q)).1 (A.baseAB (Oracle.trace A.query H Q)).2 ∧
      SsmExtract.Run (smulMap F G1) e single (List.ofFn (leftKey srs (1 : F) n)) ((List.range n).map (r ^ ·))
        (commitTo e (leftKey srs (1 : F) n) rc, single (A.aggC (Oracle.trace A.query H Q)))
        (A.challengesC V e srs hm2 Q H)
        (SsmExtract.outer ((A.stepsC (Oracle.trace A.query H Q)).map
          (SsmStatic.coms2 e S2.out (leftKey srs (1 : F) n))))
        (A.baseC (Oracle.trace A.query H Q)).1 ∧
      ¬ A.Collides V e srs r hm1 hm2 ra rb rc Q k H) :
    W.card * Ds.card ≤ 8 * (Q + k + k) * (Q + k + k + 1) * m * Ds.card ^ Xs.card := by
  have hTt : Decodable (· ∈ Set.range S1.out) V.pairingAB.serT := S1.decodable hT
  have hTg : Decodable (· ∈ Set.range S2.out) V.multiexpSsm.serT := S2.decodable hG
  have hinj1 : ∀ (z : StepAB n G1 G2 R1) c z' c', linkAB V e srs r hm1 z c = linkAB V e srs r hm1 z' c' → c = c' := by
    intro z c z' c' h
    have h := congrArg Subtype.val h
    simp only [linkAB, GipaStatic.link, Gipa.hashInput, List.append_assoc] at h
    obtain ⟨-, h⟩ := decodable_nonce _ _ _ _ (by norm_num) (by norm_num) h
    exact (hF _ _ _ _ trivial trivial h).1
  have hinj2 : ∀ (z : StepC n F G1 R2) c z' c', linkC V e srs hm2 z c = linkC V e srs hm2 z' c' → c = c' := by
    intro z c z' c' h
    have h := congrArg Subtype.val h
    simp only [linkC, SsmStatic.link, Gipa.hashInput, List.append_assoc] at h
    obtain ⟨-, h⟩ := decodable_nonce _ _ _ _ (by norm_num) (by norm_num) h
    exact (hF _ _ _ _ trivial trivial h).1
  have hm' : ∀ (x : F) (S : Finset Ds), (∀ d ∈ S, challengeOf F d = x) → S.card ≤ m := fun x S hS =>
    (Finset.card_le_card fun d hd => Finset.mem_filter.mpr ⟨Finset.mem_univ _, hS d hd⟩).trans (hm x)
  let pr : List F := List.ofFn fun i : Fin n => r ^ (i : ℕ)
  let s1 : GipaStatic.St (Fin n → F) (Fin n → F) (Fin n → G1) (Fin n → G2) GT :=
    (formalKey n, formalKey n, ra, rb, t)
  let s2 : SsmStatic.St F (Fin n → F) (Fin n → G1) G1 := (formalKey n, pr, rc, 0)
  let doomed := Doomed e (formal n) (formal n) (e.flip δ) (smulMap F G1) (formal n) (LinearMap.id : G1 →ₗ[F] G1)
  have hst : doomed s1 s2 := by
    refine ⟨⟨by simp [s1, formalKey], binding_formal, binding_formal⟩, by simp [s2, pr, formalKey], ?_⟩
    rintro ⟨u, ⟨a, b, a1, b1, a2, b2, a3⟩, ⟨c, c1, c2, c3⟩⟩
    have toFn : ∀ {M : Type} {n : ℕ} (a : List M), a.length = n → ∃ a' : Fin n → M, a = List.ofFn a' := by
      intro M n a ha
      subst ha
      exact ⟨a.get, (List.ofFn_get a).symm⟩
    obtain ⟨a, rfl⟩ := toFn (n := n) a (a1.trans (by simp [s1, formalKey]))
    obtain ⟨b, rfl⟩ := toFn (n := n) b (b1.trans (by simp [s1, formalKey]))
    obtain ⟨c, rfl⟩ := toFn (n := n) c (c1.trans (by simp [s2, formalKey]))
    simp only [s1, s2, pr, dot_formalKey, LinearMap.zero_apply, LinearMap.id_apply, add_zero,
      zero_add] at a2 a3 b2 c2 c3
    rw [dot_ofFn] at a3 c3
    subst a2 b2 c2
    refine hfalse (a3.symm.trans ?_)
    rw [c3, LinearMap.flip_apply]
    simp
  have c1 : Fintype.card Ds = Ds.card := Fintype.card_coe Ds
  have c2 : Fintype.card (Xs → Ds) = Ds.card ^ Xs.card := by
    rw [Fintype.card_fun, Fintype.card_coe, Fintype.card_coe]
  rw [← c2, ← c1]
  refine Nat.le_of_mul_le_mul_left (c := 2) ?_ (by norm_num)
  refine le_trans (Oracle.count_static2 A.query Q k A.stepsAB A.stepsC (linkAB V e srs r hm1)
    (linkC V e srs hm2) (challengeOf F) 0 A.labelAB s1
    (fun st z d => GipaStatic.foldSt st (GipaStatic.lift S1.head z) (challengeOf F d)) A.labelC s2
    (fun st z d => SsmStatic.foldSt st ((z.1.1, S2.head z.1.2.2), (z.2.1, S2.head z.2.2.2)) (challengeOf F d)) doomed hinj1 hinj2 m
    (4 * m) hm' (fun t1 t2 z1 z2 b1 b2 _ ht S hS => escape_le (challengeOf F) m hm' t1 t2 _ _ b1 b2 ht S hS)
    hst k (fun ds => (hs1 ds).le) (fun ds => (hs2 ds).le) _ ?_) ?_
  swap
  · rw [← Nat.mul_assoc 2]
    refine Nat.mul_le_mul_right _ ?_
    have : (Q + k + k) * (Q + k + k + 1) * (3 * (m + 4 * m)) = 15 * ((Q + k + k) * (Q + k + k + 1) * m) := by ring
    rw [this, show 2 * (8 * (Q + k + k) * (Q + k + k + 1) * m) = 16 * ((Q + k + k) * (Q + k + k + 1) * m) by ring]
    exact Nat.mul_le_mul_right _ (by norm_num)
  intro H hH
  rintro ⟨hdm, hne1, hne2⟩
  obtain ⟨hppe, run1, run2, hcol⟩ := hW H hH hne1 hne2
  obtain ⟨⟨-, gA, gB, t1⟩, -, gC, r', f2, t2⟩ := runs_eqs hm1 hm2 hF hG hT k hn ra rb rc A Q hlab1 hlab2 hs1 hs2 H run1
    run2 hcol
  obtain ⟨-, -, hno⟩ := hdm
  exact hno ⟨A.aggC (Oracle.trace A.query H Q), runs_open hm1 hm2 k hn ra rb rc t δ A Q hs1 hs2 H hppe gA gB t1 gC r' f2
    t2⟩

/-! ## The opening points -/

section Point
variable (V e srs r)
  (hp1 : ∀ t x ka kb, t < 2 ^ 64 → TipaStatic.pointInput V.tipa V.pairingAB t x ka kb ∈ Xs)
  (hp2 : ∀ t x ka, t < 2 ^ 64 → TipaSsmStatic.pointInput V.tipa V.multiexpSsm t x ka ∈ Xs)

/-- The opening point of the first argument is found in `N` attempts, and the trapdoors `α`, `β` are not a zero of
the polynomials that belong to the final keys and their openings. -/
def Prover.OpenedAB (A : Prover n F G1 G2 GT R1 R2 Xs Ds) (α β : F) (Q k N : ℕ) (hN : N ≤ 2 ^ 64) (H : Xs → Ds) : Prop :=
  ∃ t, ∃ ht : t < N, ∃ c,
    V.fromRandomBytes (H (A.ab.point V.tipa V.pairingAB e e.flip S1.out srs r hm1 hp1 Q t (ht.trans_le hN) H)) =
      some c ∧
    (∀ t', ∀ ht' : t' < t, V.fromRandomBytes
      (H (A.ab.point V.tipa V.pairingAB e e.flip S1.out srs r hm1 hp1 Q t' ((ht'.trans ht).trans_le hN) H)) = none) ∧
    ¬ TipaStatic.Leak
      (A.ab.knownKeys V.tipa V.pairingAB e e.flip S1.out srs r hm1 hp1 Q k t (ht.trans_le hN) H).1
      (A.openingAB (Oracle.trace A.query H Q)).1
      ((keyPoly ((A.challengesAB V e srs r hm1 Q H).reverse.map (·⁻¹)) r⁻¹).eval c) c β α ∧
    ¬ TipaStatic.Leak
      (A.ab.knownKeys V.tipa V.pairingAB e e.flip S1.out srs r hm1 hp1 Q k t (ht.trans_le hN) H).2
      (A.openingAB (Oracle.trace A.query H Q)).2
      ((keyPoly (A.challengesAB V e srs r hm1 Q H).reverse 1).eval c) c α β

/-- The same for the second argument. -/
def Prover.OpenedC (A : Prover n F G1 G2 GT R1 R2 Xs Ds) (α β : F) (Q k N : ℕ) (hN : N ≤ 2 ^ 64) (H : Xs → Ds) : Prop :=
  ∃ t, ∃ ht : t < N, ∃ c,
    V.fromRandomBytes (H (A.c.point V.tipa V.multiexpSsm e S2.out srs hm2 hp2 Q t (ht.trans_le hN) H)) = some c ∧
    (∀ t', ∀ ht' : t' < t, V.fromRandomBytes
      (H (A.c.point V.tipa V.multiexpSsm e S2.out srs hm2 hp2 Q t' ((ht'.trans ht).trans_le hN) H)) = none) ∧
    ¬ TipaStatic.Leak (A.c.knownKey V.tipa V.multiexpSsm e S2.out srs hm2 hp2 Q k t (ht.trans_le hN) H)
      (A.openingC (Oracle.trace A.query H Q))
      ((keyPoly ((A.challengesC V e srs hm2 Q H).reverse.map (·⁻¹)) 1).eval c) c β α

variable (S1 S2) in
/-- The aggregate proof. -/
def Prover.aggProof (A : Prover n F G1 G2 GT R1 R2 Xs Ds) (comA comB comC : GT) (Q : ℕ) (H : Xs → Ds) :
    AggProof F G1 G2 GT where
  comA := comA
  comB := comB
  comC := comC
  ipAB := A.ipAB (Oracle.trace A.query H Q)
  aggC := A.aggC (Oracle.trace A.query H Q)
  proofAB := A.ab.tipaProof e e.flip S1.out srs r Q H
  proofC := A.c.tipaProof e S2.out srs Q H

variable {V e srs r}

/-- Number of oracles, times the number of digests and divided by the number of all oracles, for a fixed challenge. -/
def errorTerm (Q k n N m m' : ℕ) : ℕ :=
  8 * (Q + k + k) * (Q + k + k + 1) * m +
    N * ((Q + k + 1) * ((2 * n - 2) * m') + (Q + k + 1) * (Q + k + 2) * m) +
    N * ((Q + k + 1) * (2 * (2 * n - 2) * m') + (Q + k + 1) * (Q + k + 2) * m)

open Classical in
/-- The count for a fixed challenge. -/
theorem count_fixed (hE : V.E.Lawful e) (hF : Decodable (fun _ => True) V.serF)
    (hG1 : Decodable (fun _ => True) V.serG1) (hG2 : Decodable (fun _ => True) V.serG2)
    (hT : Decodable (fun _ => True) V.serGT) (hd : ∀ d ∈ Ds, 16 ≤ d.length) (m m' : ℕ)
    (hm : ∀ x : F, (Finset.univ.filter fun d : Ds => challengeOf F d = x).card ≤ m)
    (hm' : ∀ c, (Finset.univ.filter fun d : Ds => V.fromRandomBytes d = some c).card ≤ m') (k : ℕ)
    (hn : n = 2 ^ k) (g : G1) (h : G2) (α β : F) (hsrs : IsSrs srs g h α β n) (hg0 : g ≠ 0) (hh0 : h ≠ 0)
    (hg : ∀ y, e g y = 0 → y = 0) (hh : ∀ x, e x h = 0 → x = 0) (v : VerifierSRS G1 G2)
    (hv : srs.verifierKey = .ok v) (hr : r ≠ 0)
    (ra : Fin n → G1) (rb : Fin n → G2) (rc : Fin n → G1) (t : GT) (δ : G2)
    (hfalse : ∑ i, e (ra i) (rb i) ≠ t + e (∑ i : Fin n, r ^ (i : ℕ) • rc i) δ) (A : Prover n F G1 G2 GT R1 R2 Xs Ds)
    (Q N : ℕ) (hN : N ≤ 2 ^ 64)
    (hlab1 : ∀ ds z c, A.query ds = linkAB V e srs r hm1 z c →
      coms2 e e.flip S1.out (leftKey srs r n) (rightKey srs n) (A.labelAB ds) =
        coms2 e e.flip S1.out (leftKey srs r n) (rightKey srs n) z)
    (hlab2 : ∀ ds z c, A.query ds = linkC V e srs hm2 z c →
      SsmStatic.coms2 e S2.out (leftKey srs (1 : F) n) (A.labelC ds) =
        SsmStatic.coms2 e S2.out (leftKey srs (1 : F) n) z)
    (hkeys1 : ∀ ds, ∀ t < 2 ^ 64, ∀ x ka kb,
      (A.query ds : Bytes) = TipaStatic.pointInput V.tipa V.pairingAB t x ka kb →
      TipaStatic.left srs (A.keysAB ds).1 = ka ∧ TipaStatic.right srs (A.keysAB ds).2 = kb)
    (hkeys2 : ∀ ds, ∀ t < 2 ^ 64, ∀ x ka,
      (A.query ds : Bytes) = TipaSsmStatic.pointInput V.tipa V.multiexpSsm t x ka →
      TipaStatic.left srs (A.keysC ds) = ka)
    (hsep1 : ∀ t < 2 ^ 64, ∀ z x x' ka kb,
      (linkAB V e srs r hm1 z x : Bytes) ≠ TipaStatic.pointInput V.tipa V.pairingAB t x' ka kb)
    (hsep2 : ∀ t < 2 ^ 64, ∀ z x x' ka,
      (linkC V e srs hm2 z x : Bytes) ≠ TipaSsmStatic.pointInput V.tipa V.multiexpSsm t x' ka)
    (hs1 : ∀ ds, (A.stepsAB ds).length = k) (hs2 : ∀ ds, (A.stepsC ds).length = k) (W : Finset (Xs → Ds))
    (hW : ∀ H ∈ W, A.ipAB (Oracle.trace A.query H Q) = t + e (A.aggC (Oracle.trace A.query H Q)) δ ∧
      (∃ dg : Bytes → Bytes, (∀ x : Xs, dg x = H x) ∧
        Tipa.verifyWithShift V.tipa (withDigest V.pairingAB dg) v PUnit.unit
          (commitTo e (leftKey srs r n) ra, commitTo e.flip (rightKey srs n) rb,
            single (A.ipAB (Oracle.trace A.query H Q))) (A.ab.tipaProof e e.flip S1.out srs r Q H) r = .ok true ∧
        TipaSsm.verify V.X V.tipa (withDigest V.multiexpSsm dg) v PUnit.unit (commitTo e (leftKey srs (1 : F) n) rc)
          (single (A.aggC (Oracle.trace A.query H Q))) r (A.c.tipaProof e S2.out srs Q H) = .ok true) ∧
      ¬ A.Collides V e srs r hm1 hm2 ra rb rc Q k H ∧
      A.OpenedAB V e srs r hm1 hp1 α β Q k N hN H ∧ A.OpenedC V e srs hm2 hp2 α β Q k N hN H) :
    W.card * Ds.card ≤ errorTerm Q k n N m m' * Ds.card ^ Xs.card := by
  refine TipaStatic.count_split (P := V.pairingAB) (V := V.tipa) hm1 hp1 hF hG2 hG1 m m' hm hm' k hn A.ab Q N hN hkeys1
    hsep1 hs1 W _ fun W1 hW1 hgood1 => ?_
  refine TipaSsmStatic.count_split (P := V.multiexpSsm) (V := V.tipa) hm2 hp2 hF hG2 m m' hm hm' k hn A.c Q N hN hkeys2
    hsep2 hs2 W1 _ fun W2 hW2 hgood2 => ?_
  refine count_runs hm1 hm2 hF hG1 hT m hm k hn ra rb rc t δ hfalse A Q hlab1 hlab2 hs1 hs2 W2 fun H hH hne1 hne2 => ?_
  obtain ⟨hppe, ⟨dg, hdg, hab, hc⟩, hcol, ⟨t1, ht1, c1, hc1, hf1, lA, lB⟩, ⟨t2, ht2, c2, hc2, hf2, lC⟩⟩ :=
    hW H (hW1 (hW2 hH))
  refine ⟨hppe, ?_, ?_, hcol⟩
  · have L := pairingAB_lawful V hE
    have hacc := TipaStatic.accepted_gipa hm1 hp1 L hE PUnit.unit hd k hn g h α β hsrs hg0 hh0 hg hh v hv hr
      _ A.ab Q hs1 H dg hdg hab t1 (ht1.trans_le hN) c1 hc1 hf1 lA lB (hgood1 H (hW2 hH) t1 ht1)
    have L' : (withDigest V.pairingAB dg).Lawful e e e.flip idψ :=
      ⟨L.ip_ok, L.lmc_ok, L.rmc_ok, L.ipc_ok, L.ψ_add, L.ψ_smul⟩
    obtain ⟨com1, hrec⟩ := recLoop_digest (P := V.pairingAB)
      (coms2 e e.flip S1.out (leftKey srs r n) (rightKey srs n))
      (linkAB V e srs r hm1) (fun _ _ => by rw [linkAB, GipaStatic.link]; rfl) hd H dg hdg
      (A.stepsAB (Oracle.trace A.query H Q)) 0 []
      (commitTo e (leftKey srs r n) ra, commitTo e.flip (rightKey srs n) rb,
        single (A.ipAB (Oracle.trace A.query H Q))) rfl hne1
    have hlen : (A.ab.toProver.proof e e.flip S1.out (leftKey srs r n) (rightKey srs n) Q H).steps.length =
        k := by
      rw [GipaStatic.Prover.proof, List.length_reverse, List.length_map]
      exact hs1 _
    obtain ⟨cs, com2, hrc, hrun⟩ := (C67_verify_iff L' _ _ PUnit.unit _ _
      (by rw [hlen, List.length_ofFn, hn]) (by rw [hlen, List.length_ofFn, hn])).mp hacc
    have hcs : cs = A.challengesAB V e srs r hm1 Q H := by
      rw [Gipa.recursiveChallenges, GipaStatic.Prover.proof, List.reverse_reverse] at hrc
      replace hrec : (withDigest V.pairingAB dg).recLoop
          ((A.ab.steps (Oracle.trace A.ab.query H Q)).map fun z =>
            (GipaStatic.coms e e.flip S1.out (leftKey srs r n) (rightKey srs n) z.1,
              GipaStatic.coms e e.flip S1.out (leftKey srs r n) (rightKey srs n) z.2)) _ [] = _ := hrec
      rw [hrec] at hrc
      have := congrArg Prod.snd (Except.ok.inj hrc)
      exact (List.reverse_injective this).symm
    subst hcs
    rw [GipaStatic.Prover.proof, List.reverse_reverse] at hrun
    exact hrun
  · have := TipaSsmStatic.accepted_run hm2 hp2 (multiexpSsm_lawful V hE) hE V.X PUnit.unit hd k hn g h α β
      (hsrs.left (by rw [hn]; exact Nat.one_le_two_pow)) hh0 hg v hv _ _ r A.c Q hs2 H dg hdg hc t2 (ht2.trans_le hN)
      c2 hc2 hf2 lC (hgood2 H hH t2 ht2)
    rw [SsmStatic.Prover.proof, List.reverse_reverse, ← hn] at this
    exact this

end Point

/-! ## The challenge -/

/-- A count over pairs, from counts for the good first components. -/
theorem count_pairs {U H : Type} [Fintype U] [Fintype H] [DecidableEq U] [DecidableEq H] (W : Finset (U × H))
    (bad : Finset U) (D a b c : ℕ) (hbad : bad.card * D ≤ a * Fintype.card U) (hH : Fintype.card H = c)
    (hgood : ∀ u ∉ bad, (Finset.univ.filter fun h => (u, h) ∈ W).card * D ≤ b * c) :
    W.card * D ≤ (a + b) * (Fintype.card U * c) := by
  have h1 : W.card = ∑ u : U, (Finset.univ.filter fun h => (u, h) ∈ W).card := by
    rw [← Finset.card_sigma]
    refine Finset.card_bij (fun p _ => ⟨p.1, p.2⟩) ?_ ?_ ?_
    · intro p hp; simpa using hp
    · rintro ⟨u, h⟩ - ⟨u', h'⟩ - hq
      simp only [Sigma.mk.injEq] at hq
      obtain ⟨rfl, hq⟩ := hq
      rw [eq_of_heq hq]
    · rintro ⟨u, h⟩ hp
      exact ⟨(u, h), by simpa using hp, rfl⟩
  rw [h1, ← Finset.sum_filter_add_sum_filter_not Finset.univ (· ∈ bad), add_mul, add_mul]
  refine Nat.add_le_add ?_ ?_
  · have : ∑ u ∈ Finset.univ.filter (· ∈ bad), (Finset.univ.filter fun h => (u, h) ∈ W).card ≤ bad.card * c := by
      refine (Finset.sum_le_card_nsmul _ _ c fun u _ => ?_).trans ?_
      · rw [← hH]; exact Finset.card_le_univ _
      · rw [smul_eq_mul]; simp
    refine (Nat.mul_le_mul_right D this).trans ?_
    calc bad.card * c * D = bad.card * D * c := by ring
      _ ≤ a * Fintype.card U * c := Nat.mul_le_mul_right _ hbad
      _ = _ := by ring
  · rw [Finset.sum_mul]
    refine (Finset.sum_le_card_nsmul _ _ (b * c) fun u hu => hgood u (Finset.mem_filter.mp hu).2).trans ?_
    rw [smul_eq_mul]
    calc _ ≤ Fintype.card U * (b * c) := Nat.mul_le_mul_right _ (Finset.card_le_univ _)
      _ = _ := by ring

/-- The challenge `r` is the first digest that decodes. -/
def Draws {N : ℕ} (V : Env ρ F G1 G2 GT TF) (u : Fin N → Ds) (r : F) : Prop :=
  ∃ t, V.fromRandomBytes (u t) = some r ∧ ∀ t' < t, V.fromRandomBytes (u t') = none

theorem Draws.unique {N : ℕ} {V : Env ρ F G1 G2 GT TF} {u : Fin N → Ds} {r r' : F} (h : Draws V u r)
    (h' : Draws V u r') : r = r' := by
  obtain ⟨t, h1, h2⟩ := h
  obtain ⟨t', h1', h2'⟩ := h'
  rcases lt_trichotomy t t' with h | h | h
  · rw [h2' t h] at h1; cases h1
  · subst h; exact Option.some.inj (h1.symm.trans h1')
  · rw [h2 t' h] at h1'; cases h1'

open Classical in
/-- Few oracles draw a challenge from a small set. -/
theorem count_draws (V : Env ρ F G1 G2 GT TF) (N m' b : ℕ)
    (hm' : ∀ c, (Finset.univ.filter fun d : Ds => V.fromRandomBytes d = some c).card ≤ m') (bad : F → Prop)
    (hb : ∀ S : Finset F, (∀ r ∈ S, bad r) → S.card ≤ b) :
    (Finset.univ.filter fun u : Fin N → Ds => ∃ r, Draws V u r ∧ bad r).card * Ds.card ≤
      N * (b * m') * Fintype.card (Fin N → Ds) := by
  let B : Finset Ds := Finset.univ.filter fun d => ∃ r, V.fromRandomBytes d = some r ∧ bad r
  have hB : B.card ≤ b * m' := by
    rw [Finset.card_eq_sum_card_image (fun d : Ds => (V.fromRandomBytes d).getD 0) B]
    refine (Finset.sum_le_card_nsmul _ _ m' fun c hc => ?_).trans ?_
    · refine (Finset.card_le_card fun d hd => ?_).trans (hm' c)
      obtain ⟨hd, h⟩ := Finset.mem_filter.mp hd
      obtain ⟨-, r, hr, -⟩ := Finset.mem_filter.mp hd
      rw [hr, Option.getD_some] at h
      exact Finset.mem_filter.mpr ⟨Finset.mem_univ _, by rw [hr, h]⟩
    · rw [smul_eq_mul]
      refine Nat.mul_le_mul_right _ (hb _ fun r hr => ?_)
      obtain ⟨d, hd, rfl⟩ := Finset.mem_image.mp hr
      obtain ⟨-, r, hr, hbad⟩ := Finset.mem_filter.mp hd
      rwa [hr, Option.getD_some]
  have hsub : (Finset.univ.filter fun u : Fin N → Ds => ∃ r, Draws V u r ∧ bad r) ⊆
      Finset.univ.biUnion fun t : Fin N => Finset.univ.filter fun u : Fin N → Ds => u t ∈ B := by
    intro u hu
    obtain ⟨-, r, ⟨t, h1, -⟩, hbad⟩ := Finset.mem_filter.mp hu
    exact Finset.mem_biUnion.mpr ⟨t, Finset.mem_univ _, Finset.mem_filter.mpr ⟨Finset.mem_univ _,
      Finset.mem_filter.mpr ⟨Finset.mem_univ _, r, h1, hbad⟩⟩⟩
  have hone : ∀ t : Fin N, (Finset.univ.filter fun u : Fin N → Ds => u t ∈ B).card * Ds.card ≤
      b * m' * Fintype.card (Fin N → Ds) := by
    intro t
    have h1 : (Finset.univ.filter fun u : Fin N → Ds => u t ∈ B) =
        Fintype.piFinset (Function.update (fun _ => (Finset.univ : Finset Ds)) t B) := by
      ext u
      simp only [Finset.mem_filter, Finset.mem_univ, true_and, Fintype.mem_piFinset]
      constructor
      · intro h y
        by_cases hy : y = t
        · subst hy; simpa using h
        · simp [Function.update_of_ne hy]
      · intro h
        simpa using h t
    rw [h1, Fintype.card_piFinset, ← Finset.mul_prod_erase _ _ (Finset.mem_univ t), Function.update_self,
      Finset.prod_congr rfl (g := fun _ => Ds.card) fun y hy => by
        rw [Function.update_of_ne (Finset.ne_of_mem_erase hy), Finset.card_univ, Fintype.card_coe],
      Finset.prod_const, Finset.card_erase_of_mem (Finset.mem_univ t), Finset.card_univ, Fintype.card_fin,
      Fintype.card_fun, Fintype.card_fin, Fintype.card_coe, mul_assoc, ← pow_succ,
      Nat.sub_add_cancel (Nat.one_le_of_lt t.2)]
    exact Nat.mul_le_mul_right _ hB
  refine (Nat.mul_le_mul_right _ ((Finset.card_le_card hsub).trans Finset.card_biUnion_le)).trans ?_
  rw [Finset.sum_mul]
  refine (Finset.sum_le_card_nsmul _ _ _ fun t _ => hone t).trans ?_
  rw [smul_eq_mul, Finset.card_univ, Fintype.card_fin, mul_assoc N (b * m')]

/-- The hash input of attempt `t` for the challenge. -/
def challengeInput (V : Env ρ F G1 G2 GT TF) (comA comB comC : GT) (t : ℕ) : Bytes :=
  nonceBytes t ++ V.serGT comA ++ V.serGT comB ++ V.serGT comC

/-- It is the challenge of the verifier. -/
theorem Draws.eq_challenge {N : ℕ} (hN : N ≤ 2 ^ 64) {u : Fin N → Ds} {r r' : F} (h : Draws V u r)
    (comA comB comC : GT) (dg : Bytes → Bytes) (hdg : ∀ t : Fin N, dg (challengeInput V comA comB comC t) = u t)
    (hc : Groth16.challenge { V with digest := dg } comA comB comC = .ok r') : r' = r := by
  obtain ⟨t', -, h1', h2'⟩ := (C69_groth16 _ _ _ _ _).mp hc
  obtain ⟨t, h1, h2⟩ := h
  have key : ∀ t : Fin N, V.fromRandomBytes (u t) =
      V.fromRandomBytes (dg (be8 t ++ V.serGT comA ++ V.serGT comB ++ V.serGT comC)) := fun t => by
    rw [← hdg t, challengeInput, nonceBytes_eq]
  rw [key] at h1
  rcases lt_trichotomy t' (t : ℕ) with h | h | h
  · have := h2 ⟨t', h.trans t.2⟩ h
    rw [key] at this
    exact absurd (this.symm.trans h1') (by simp)
  · subst h
    exact Option.some.inj (h1'.symm.trans h1)
  · exact absurd ((h2' t h).symm.trans h1) (by simp)

theorem dot_pair_ofFn {L M N : Type} [AddCommMonoid N] (f : L → M → N) : ∀ {n : ℕ} (a : Fin n → L) (b : Fin n → M),
    dot f (List.ofFn a) (List.ofFn b) = ∑ i, f (a i) (b i)
  | 0, a, b => by simp
  | n + 1, a, b => by rw [List.ofFn_succ, List.ofFn_succ, dot_cons, dot_pair_ofFn, Fin.sum_univ_succ]

theorem dot_range_ofFn {M N : Type} [AddCommMonoid N] (f : F → M → N) (r : F) (a : Fin n → M) :
    dot f (powers r n) (List.ofFn a) = ∑ i : Fin n, f (r ^ (i : ℕ)) (a i) := by
  have : powers r n = List.ofFn fun i : Fin n => r ^ (i : ℕ) := by
    apply List.ext_getElem <;> simp [powers]
  rw [this, dot_pair_ofFn]

theorem commit_shift (hr : r ≠ 0) (a : Fin n → G1) :
    commitTo e (leftKey srs r n) (fun i => r ^ (i : ℕ) • a i) = commitTo e (leftKey srs (1 : F) n) a := by
  change ∑ i : Fin n, e (r ^ (i : ℕ) • a i) (r⁻¹ ^ (i : ℕ) • srs.hBetaPowers.getD (2 * i) 0) =
    ∑ i : Fin n, e (a i) ((1 : F)⁻¹ ^ (i : ℕ) • srs.hBetaPowers.getD (2 * i) 0)
  refine Finset.sum_congr rfl fun i _ => ?_
  simp only [map_smul, LinearMap.smul_apply, smul_smul, inv_one, one_pow, one_smul]
  rw [← mul_pow, inv_mul_cancel₀ hr, one_pow, one_smul]

section Theorem
variable (hm1 : ∀ (r : F) k z1 z2, V.pairingAB.hashInput 0 k
    (GipaStatic.coms e e.flip S1.out (leftKey srs r n) (rightKey srs n) z1)
    (GipaStatic.coms e e.flip S1.out (leftKey srs r n) (rightKey srs n) z2) ∈ Xs)
  (hm2 : ∀ k z, V.multiexpSsm.hashInput 0 k (SsmStatic.coms2 e S2.out (leftKey srs (1 : F) n) z).1
    (SsmStatic.coms2 e S2.out (leftKey srs (1 : F) n) z).2 ∈ Xs)
  (hp1 : ∀ t x ka kb, t < 2 ^ 64 → TipaStatic.pointInput V.tipa V.pairingAB t x ka kb ∈ Xs)
  (hp2 : ∀ t x ka, t < 2 ^ 64 → TipaSsmStatic.pointInput V.tipa V.multiexpSsm t x ka ∈ Xs)

open Classical in
/-- C108: fix a reference string for `n = 2^k` proofs, a verifying key, inputs, and commitments to proofs that are
not all valid for the inputs. The prover is given the answers `u` to the `N` first hash inputs for the challenge, and
then queries the oracle `H`. It knows openings of the commitments and combinations of the reference string for the
final keys it hashes. Then, except for a small share of all `(u, H)`, the verifier does not accept, or one of its
searches takes more than `N` attempts, or the prover has found a collision of the commitment keys, or a non-zero
polynomial of which the trapdoors are a zero. `Q` is the number of queries, `m` the number of digests for a challenge of
a round, and `m'` the number of digests for an opening point or a challenge of the aggregation. -/
theorem C108_static (hE : V.E.Lawful e) (hF : Decodable (fun _ => True) V.serF)
    (hG1 : Decodable (fun _ => True) V.serG1) (hG2 : Decodable (fun _ => True) V.serG2)
    (hT : Decodable (fun _ => True) V.serGT) (hd : ∀ d ∈ Ds, 16 ≤ d.length) (m m' : ℕ)
    (hm : ∀ x : F, (Finset.univ.filter fun d : Ds => challengeOf F d = x).card ≤ m)
    (hm' : ∀ c, (Finset.univ.filter fun d : Ds => V.fromRandomBytes d = some c).card ≤ m') (k : ℕ)
    (hn : n = 2 ^ k) (g : G1) (h : G2) (α β : F) (hsrs : IsSrs srs g h α β n) (hg0 : g ≠ 0) (hh0 : h ≠ 0)
    (hg : ∀ y, e g y = 0 → y = 0) (hh : ∀ x, e x h = 0 → x = 0) (v : VerifierSRS G1 G2)
    (hv : srs.verifierKey = .ok v) (vk : G16VK G1 G2) (inputs : List (List F)) (hin : inputs.length = n)
    (hrow : ∀ row ∈ inputs, row.length + 1 = vk.gammaAbc.length) (ps : Fin n → G16Proof G1 G2)
    (hbad : ¬ List.Forall₂ (Groth16.Valid e vk) (List.ofFn ps) inputs) (comA comB comC : GT)
    (hA : comA = commitTo e (leftKey srs (1 : F) n) fun i => (ps i).a)
    (hB : comB = commitTo e.flip (rightKey srs n) fun i => (ps i).b)
    (hC : comC = commitTo e (leftKey srs (1 : F) n) fun i => (ps i).c)
    (Q N : ℕ) (hN : N ≤ 2 ^ 64) (A : (Fin N → Ds) → Prover n F G1 G2 GT R1 R2 Xs Ds)
    (hlab1 : ∀ u r, Draws V u r → ∀ ds z c, (A u).query ds = linkAB V e srs r (hm1 r) z c →
      coms2 e e.flip S1.out (leftKey srs r n) (rightKey srs n) ((A u).labelAB ds) =
        coms2 e e.flip S1.out (leftKey srs r n) (rightKey srs n) z)
    (hlab2 : ∀ u ds z c, (A u).query ds = linkC V e srs hm2 z c →
      SsmStatic.coms2 e S2.out (leftKey srs (1 : F) n) ((A u).labelC ds) =
        SsmStatic.coms2 e S2.out (leftKey srs (1 : F) n) z)
    (hkeys1 : ∀ u ds, ∀ t < 2 ^ 64, ∀ x ka kb,
      ((A u).query ds : Bytes) = TipaStatic.pointInput V.tipa V.pairingAB t x ka kb →
      TipaStatic.left srs ((A u).keysAB ds).1 = ka ∧ TipaStatic.right srs ((A u).keysAB ds).2 = kb)
    (hkeys2 : ∀ u ds, ∀ t < 2 ^ 64, ∀ x ka,
      ((A u).query ds : Bytes) = TipaSsmStatic.pointInput V.tipa V.multiexpSsm t x ka →
      TipaStatic.left srs ((A u).keysC ds) = ka)
    (hsep1 : ∀ r, ∀ t < 2 ^ 64, ∀ z x x' ka kb,
      (linkAB V e srs r (hm1 r) z x : Bytes) ≠ TipaStatic.pointInput V.tipa V.pairingAB t x' ka kb)
    (hsep2 : ∀ t < 2 ^ 64, ∀ z x x' ka,
      (linkC V e srs hm2 z x : Bytes) ≠ TipaSsmStatic.pointInput V.tipa V.multiexpSsm t x' ka)
    (hs1 : ∀ u ds, ((A u).stepsAB ds).length = k) (hs2 : ∀ u ds, ((A u).stepsC ds).length = k)
    (W : Finset ((Fin N → Ds) × (Xs → Ds)))
    (hW : ∀ uH ∈ W, ∃ r, Draws V uH.1 r ∧
      (∃ dg : Bytes → Bytes, (∀ t : Fin N, dg (challengeInput V comA comB comC t) = uH.1 t) ∧
        (∀ x : Xs, dg x = uH.2 x) ∧
        Groth16.verify { V with digest := dg } v vk inputs
          ((A uH.1).aggProof S1 S2 e srs r comA comB comC Q uH.2) = .ok true) ∧
      ¬ (A uH.1).Collides V e srs r (hm1 r) hm2 (fun i => r ^ (i : ℕ) • (ps i).a) (fun i => (ps i).b)
        (fun i => (ps i).c) Q k uH.2 ∧
      (A uH.1).OpenedAB V e srs r (hm1 r) hp1 α β Q k N hN uH.2 ∧
      (A uH.1).OpenedC V e srs hm2 hp2 α β Q k N hN uH.2) :
    W.card * Ds.card ≤ (N * ((n - 1) * m') + errorTerm Q k n N m m') * (Ds.card ^ N * Ds.card ^ Xs.card) := by
  have c1 : Fintype.card (Fin N → Ds) = Ds.card ^ N := by
    rw [Fintype.card_fun, Fintype.card_fin, Fintype.card_coe]
  have c2 : Fintype.card (Xs → Ds) = Ds.card ^ Xs.card := by
    rw [Fintype.card_fun, Fintype.card_coe, Fintype.card_coe]
  let ok : F → Prop := fun r => Groth16.verifyPpe V vk inputs r
    (dot (fun (x : F) (p : G16Proof G1 G2) => x • e p.a p.b) (powers r (List.ofFn ps).length) (List.ofFn ps))
    (dot (fun (x : F) (p : G16Proof G1 G2) => x • p.c) (powers r (List.ofFn ps).length) (List.ofFn ps)) = .ok true
  have hok : ∀ S : Finset F, (∀ r ∈ S, ok r) → S.card ≤ n - 1 := by
    intro S hS
    have := Groth16.C50_few_bad_challenges hE vk (List.ofFn ps) inputs (by simp [hin]) hrow hbad S hS
    rwa [List.length_ofFn] at this
  have hne : inputs ≠ [] := by
    rintro rfl
    have := Nat.one_le_two_pow (n := k)
    rw [← hn, ← hin] at this
    simp at this
  rw [← c1]
  refine count_pairs _ (Finset.univ.filter fun u : Fin N → Ds => ∃ r, Draws V u r ∧ ok r) Ds.card _ _ _
    (count_draws V N m' (n - 1) hm' ok hok) c2 fun u hu => ?_
  by_cases hdr : ∃ r, Draws V u r ∧ r ≠ 0 ∧ r ≠ 1
  swap
  · refine le_trans (le_of_eq ?_) (Nat.zero_le _)
    rw [Finset.card_eq_zero.mpr, zero_mul]
    refine Finset.eq_empty_of_forall_notMem fun H hH => hdr ?_
    obtain ⟨r, hr, ⟨dg, hdg1, hdg2, hacc⟩, -⟩ := hW _ (Finset.mem_filter.mp hH).2
    obtain ⟨r', b1, b2, b3, hch, hppe, hb⟩ := Groth16.verify_ok v vk inputs _ { V with digest := dg } true hacc
    have hr' := hr.eq_challenge hN _ _ _ dg hdg1 hch.hc
    subst hr'
    exact ⟨r', hr, hch.ne_zero, (Groth16.verifyPpe_shape (V := { V with digest := dg }) hE vk inputs r' _ _ _ hppe).1⟩
  obtain ⟨r, hr, hr0, hr1⟩ := hdr
  have hnok : ¬ ok r := fun h => hu (Finset.mem_filter.mpr ⟨Finset.mem_univ _, r, hr, h⟩)
  refine count_fixed (r := r) (hm1 r) hm2 hp1 hp2 hE hF hG1 hG2 hT hd m m' hm hm' k hn g h α β hsrs hg0 hh0 hg hh v hv
    hr0 (fun i => r ^ (i : ℕ) • (ps i).a) (fun i => (ps i).b) (fun i => (ps i).c)
    ((powers r inputs.length).sum • e vk.alpha vk.beta
      + e (dot (fun (x : F) (row : List F) => x • dot (fun s g => s • g) (1 :: row) vk.gammaAbc)
          (powers r inputs.length) inputs) vk.gamma) vk.delta ?_ (A u) Q N hN (hlab1 u r hr) (hlab2 u) (hkeys1 u)
    (hkeys2 u) (hsep1 r) hsep2 (hs1 u) (hs2 u) _ fun H hH => ?_
  · intro hcon
    refine hnok ?_
    simp only [ok]
    rw [Groth16.verifyPpe_iff hE vk inputs hne hrow r hr1]
    refine congrArg Except.ok (decide_eq_true ?_)
    rw [List.length_ofFn, dot_range_ofFn, dot_range_ofFn, ← hcon]
    simp
  · obtain ⟨r', hr', ⟨dg, hdg1, hdg2, hacc⟩, hcol, o1, o2⟩ := hW _ (Finset.mem_filter.mp hH).2
    obtain rfl := hr'.unique hr
    obtain ⟨r2, b1, b2, b3, ⟨hch, hab, hc⟩, hppe, hb⟩ :=
      Groth16.verify_ok v vk inputs _ { V with digest := dg } true hacc
    have hr2 := hr.eq_challenge hN _ _ _ dg hdg1 hch
    subst hr2
    obtain ⟨rfl, rfl, rfl⟩ : b1 = true ∧ b2 = true ∧ b3 = true := by
      revert hb; cases b1 <;> cases b2 <;> cases b3 <;> simp
    refine ⟨?_, ⟨dg, hdg2, ?_, ?_⟩, hcol, o1, o2⟩
    · rw [Groth16.verifyPpe_iff (V := { V with digest := dg }) hE vk inputs hne hrow r2 hr1] at hppe
      exact of_decide_eq_true (Except.ok.inj hppe)
    · rw [commit_shift hr0, ← hA, ← hB]
      exact hab
    · rw [← hC]
      exact hc

end Theorem

end Static

/-! ## An instance: two proofs over the field with 101 elements -/

section Example
open Toy
open TipaStatic (leftKey rightKey exampleSrs exampleSrs_isSrs exampleDigests_point)
open GipaStatic (exampleDigests exampleDigests_key card_exampleDigests decodable_ser ser_inj)

/-- Two bytes for target group elements, so that the hash inputs have different lengths. -/
def exampleEnv : Env ℕ Toy.F Toy.F Toy.F Toy.F Toy.TF := { Toy.env with serGT := fun x => 0 :: Toy.ser x }

theorem decodable_serGT : Decodable (fun _ => True) exampleEnv.serGT :=
  .of_fixed 2 (fun _ _ => rfl) fun x y _ _ h => ser_inj x y (List.cons.inj h).2

/-- One entry. -/
abbrev exampleShape : Shape Toy.F Toy.F := Shape.one Toy.F

/-- The commitments of a step of the first argument, for the challenge `r`. -/
def exampleAB (r : Toy.F) (z : StepAB 2 Toy.F Toy.F Toy.F) :=
  coms2 Toy.e Toy.e.flip exampleShape.out (leftKey exampleSrs r 2) (rightKey exampleSrs 2) z

/-- The commitments of a step of the second argument. -/
def exampleC (z : StepC 2 Toy.F Toy.F Toy.F) :=
  SsmStatic.coms2 (F := Toy.F) Toy.e exampleShape.out (leftKey exampleSrs (1 : Toy.F) 2) z

/-- The hash inputs of both arguments. -/
noncomputable def exampleInputs : Finset Bytes :=
  ((Set.finite_range fun p : Toy.F × Toy.F × StepAB 2 Toy.F Toy.F Toy.F =>
    exampleEnv.pairingAB.hashInput 0 p.2.1 (exampleAB p.1 p.2.2).1 (exampleAB p.1 p.2.2).2).toFinset ∪
  (Set.finite_range fun p : Toy.F × StepC 2 Toy.F Toy.F Toy.F =>
    exampleEnv.multiexpSsm.hashInput 0 p.1 (exampleC p.2).1 (exampleC p.2).2).toFinset) ∪
  ((Set.finite_range fun p : Fin (2 ^ 64) × Toy.F × Toy.F × Toy.F =>
    TipaStatic.pointInput exampleEnv.tipa exampleEnv.pairingAB p.1 p.2.1 p.2.2.1 p.2.2.2).toFinset ∪
  (Set.finite_range fun p : Fin (2 ^ 64) × Toy.F × Toy.F =>
    TipaSsmStatic.pointInput exampleEnv.tipa exampleEnv.multiexpSsm p.1 p.2.1 p.2.2).toFinset)

theorem example_hm1 (r k : Toy.F) (z1 z2 : GipaStatic.Known 2 Toy.F Toy.F Toy.F) :
    exampleEnv.pairingAB.hashInput 0 k
      (GipaStatic.coms Toy.e Toy.e.flip exampleShape.out (leftKey exampleSrs r 2) (rightKey exampleSrs 2) z1)
      (GipaStatic.coms Toy.e Toy.e.flip exampleShape.out (leftKey exampleSrs r 2) (rightKey exampleSrs 2) z2) ∈ exampleInputs :=
  Finset.mem_union_left _ (Finset.mem_union_left _ ((Set.Finite.mem_toFinset _).mpr ⟨(r, k, z1, z2), rfl⟩))

theorem example_hm2 (k : Toy.F) (z : StepC 2 Toy.F Toy.F Toy.F) :
    exampleEnv.multiexpSsm.hashInput 0 k
      (SsmStatic.coms2 (F := Toy.F) Toy.e exampleShape.out (leftKey exampleSrs (1 : Toy.F) 2) z).1
      (SsmStatic.coms2 (F := Toy.F) Toy.e exampleShape.out (leftKey exampleSrs (1 : Toy.F) 2) z).2 ∈
        exampleInputs :=
  Finset.mem_union_left _ (Finset.mem_union_right _ ((Set.Finite.mem_toFinset _).mpr ⟨(k, z), rfl⟩))

theorem example_hp1 (t : ℕ) (x ka kb : Toy.F) (ht : t < 2 ^ 64) :
    TipaStatic.pointInput exampleEnv.tipa exampleEnv.pairingAB t x ka kb ∈ exampleInputs :=
  Finset.mem_union_right _ (Finset.mem_union_left _ ((Set.Finite.mem_toFinset _).mpr ⟨(⟨t, ht⟩, x, ka, kb), rfl⟩))

theorem example_hp2 (t : ℕ) (x ka : Toy.F) (ht : t < 2 ^ 64) :
    TipaSsmStatic.pointInput exampleEnv.tipa exampleEnv.multiexpSsm t x ka ∈ exampleInputs :=
  Finset.mem_union_right _ (Finset.mem_union_right _ ((Set.Finite.mem_toFinset _).mpr ⟨(⟨t, ht⟩, x, ka), rfl⟩))

/-- The lengths of the hash inputs. -/
theorem length_linkAB (r : Toy.F) (z : StepAB 2 Toy.F Toy.F Toy.F) (x : Toy.F) :
    (linkAB exampleEnv Toy.e exampleSrs r (example_hm1 r) z x : Bytes).length = 37 := by
  simp [linkAB, GipaStatic.link, GipaStatic.coms, exampleShape, Shape.one, single, serIdentity, serSeq, Gipa.hashInput, exampleEnv,
    Env.pairingAB, Toy.env, Toy.ser, nonceBytes, leBytes]

theorem length_linkC (z : StepC 2 Toy.F Toy.F Toy.F) (x : Toy.F) :
    (linkC exampleEnv Toy.e exampleSrs example_hm2 z x : Bytes).length = 33 := by
  simp [linkC, SsmStatic.link, SsmStatic.coms2, SsmStatic.coms, exampleShape, Shape.one, single, serIdentity, serSeq, Gipa.hashInput, exampleEnv,
    Env.multiexpSsm, ssmGipa, Toy.env, Toy.ser, nonceBytes, leBytes]

theorem length_pointAB (t : ℕ) (x ka kb : Toy.F) :
    (TipaStatic.pointInput exampleEnv.tipa exampleEnv.pairingAB t x ka kb).length = 11 := by
  simp [TipaStatic.pointInput, exampleEnv, Env.tipa, Env.pairingAB, Toy.env, Toy.ser, nonceBytes, leBytes]

theorem length_pointC (t : ℕ) (x ka : Toy.F) :
    (TipaSsmStatic.pointInput exampleEnv.tipa exampleEnv.multiexpSsm t x ka).length = 10 := by
  simp [TipaSsmStatic.pointInput, exampleEnv, Env.tipa, Env.multiexpSsm, ssmGipa, Toy.env, Toy.ser, nonceBytes, leBytes]

/-- The hash inputs for the challenge are not among those of the arguments. -/
example (comA comB comC : Toy.F) (t : ℕ) : challengeInput exampleEnv comA comB comC t ∉ exampleInputs := by
  intro h
  have hl : (challengeInput exampleEnv comA comB comC t).length = 14 := by
    simp [challengeInput, exampleEnv, Toy.ser, nonceBytes, leBytes]
  simp only [exampleInputs, Finset.mem_union, Set.Finite.mem_toFinset, Set.mem_range] at h
  rcases h with (⟨p, h⟩ | ⟨p, h⟩) | (⟨p, h⟩ | ⟨p, h⟩) <;> rw [← h] at hl
  · exact absurd ((length_linkAB p.1 p.2.2 p.2.1).symm.trans hl) (by norm_num)
  · exact absurd ((length_linkC p.2 p.1).symm.trans hl) (by norm_num)
  · exact absurd ((length_pointAB _ _ _ _).symm.trans hl) (by norm_num)
  · exact absurd ((length_pointC _ _ _).symm.trans hl) (by norm_num)

/-- A valid proof for the input 1 and an invalid one for the input 2. -/
def examplePs : Fin 2 → G16Proof Toy.F Toy.F := ![⟨5, 7, 24⟩, ⟨5, 7, 21⟩]

theorem one_attempt : 1 ≤ 2 ^ 64 := by norm_num

open Classical in
/-- With the commitments `5 + 5 * 25 = 29`, `7 + 7 * 9 = 70` and `24 + 21 * 25 = 44` to these proofs. -/
example (Q : ℕ) (A : (Fin 1 → exampleDigests) → Prover 2 Toy.F Toy.F Toy.F Toy.F Toy.F Toy.F exampleInputs exampleDigests)
    (hlab1 : ∀ u r, Draws exampleEnv u r → ∀ ds z c,
      (A u).query ds = linkAB exampleEnv Toy.e exampleSrs r (example_hm1 r) z c →
      exampleAB r ((A u).labelAB ds) = exampleAB r z)
    (hlab2 : ∀ u ds z c, (A u).query ds = linkC exampleEnv Toy.e exampleSrs example_hm2 z c →
      exampleC ((A u).labelC ds) = exampleC z)
    (hkeys1 : ∀ u ds, ∀ t < 2 ^ 64, ∀ x ka kb,
      ((A u).query ds : Bytes) = TipaStatic.pointInput exampleEnv.tipa exampleEnv.pairingAB t x ka kb →
      TipaStatic.left exampleSrs ((A u).keysAB ds).1 = ka ∧ TipaStatic.right exampleSrs ((A u).keysAB ds).2 = kb)
    (hkeys2 : ∀ u ds, ∀ t < 2 ^ 64, ∀ x ka,
      ((A u).query ds : Bytes) = TipaSsmStatic.pointInput exampleEnv.tipa exampleEnv.multiexpSsm t x ka →
      TipaStatic.left exampleSrs ((A u).keysC ds) = ka)
    (hs1 : ∀ u ds, ((A u).stepsAB ds).length = 1) (hs2 : ∀ u ds, ((A u).stepsC ds).length = 1)
    (W : Finset ((Fin 1 → exampleDigests) × (exampleInputs → exampleDigests)))
    (hW : ∀ uH ∈ W, ∃ r, Draws exampleEnv uH.1 r ∧
      (∃ dg : Bytes → Bytes, (∀ t : Fin 1, dg (challengeInput exampleEnv 29 70 44 t) = uH.1 t) ∧
        (∀ x : exampleInputs, dg x = uH.2 x) ∧
        Groth16.verify { exampleEnv with digest := dg } ⟨1, 1, 5, 3⟩ Groth16.toyVK [[1], [2]]
          ((A uH.1).aggProof exampleShape exampleShape Toy.e exampleSrs r 29 70 44 Q uH.2) = .ok true) ∧
      ¬ (A uH.1).Collides exampleEnv Toy.e exampleSrs r (example_hm1 r) example_hm2
        (fun i => r ^ (i : ℕ) • (examplePs i).a) (fun i => (examplePs i).b) (fun i => (examplePs i).c) Q 1 uH.2 ∧
      (A uH.1).OpenedAB exampleEnv Toy.e exampleSrs r (example_hm1 r) example_hp1 3 5 Q 1 1 one_attempt uH.2 ∧
      (A uH.1).OpenedC exampleEnv Toy.e exampleSrs example_hm2 example_hp2 3 5 Q 1 1 one_attempt uH.2) :
    W.card * 101 ≤ (1 * ((2 - 1) * 1) + errorTerm Q 1 2 1 1 1) * (101 ^ 1 * 101 ^ exampleInputs.card) := by
  have := C108_static (V := exampleEnv) (e := Toy.e) (srs := exampleSrs) (Xs := exampleInputs) (Ds := exampleDigests)
    example_hm1 example_hm2 example_hp1 example_hp2 Toy.lawful decodable_ser decodable_ser decodable_ser
    decodable_serGT
    (by
      intro d hd
      obtain ⟨x, -, rfl⟩ := Finset.mem_image.mp hd
      simp [Toy.ser]) 1 1
    (fun x => Finset.card_le_one.mpr fun d hd d' hd' => exampleDigests_key d d'
      ((Finset.mem_filter.mp hd).2.trans (Finset.mem_filter.mp hd').2.symm))
    (fun x => Finset.card_le_one.mpr fun d hd d' hd' => exampleDigests_point d d' x
      (Finset.mem_filter.mp hd).2 (Finset.mem_filter.mp hd').2) 1 rfl 1 1 3 5 exampleSrs_isSrs (by decide)
    (by decide) (fun y h => by simpa using h) (fun y h => by simpa using h) ⟨1, 1, 5, 3⟩ rfl Groth16.toyVK [[1], [2]] rfl
    (by simp [Groth16.toyVK]) examplePs ?_ 29 70 44 (by decide +kernel) (by decide +kernel) (by decide +kernel) Q 1
    one_attempt A hlab1 hlab2 hkeys1 hkeys2
    (fun r t _ z x x' ka kb h => absurd ((length_linkAB r z x).symm.trans
      ((congrArg List.length h).trans (length_pointAB t x' ka kb))) (by norm_num))
    (fun t _ z x x' ka h => absurd ((length_linkC z x).symm.trans
      ((congrArg List.length h).trans (length_pointC t x' ka))) (by norm_num)) hs1 hs2 W hW
  · rwa [card_exampleDigests] at this
  · intro h
    cases h with
    | cons _ h => cases h with
      | cons h _ =>
        have := h.2
        revert this
        decide

/-- Without queries before the proof the share is at most 73 in 101. -/
example : 1 * ((2 - 1) * 1) + errorTerm 0 1 2 1 1 1 = 73 := rfl

/-- Such a prover: it hashes final keys before the rounds, and uses the digest it is given. -/
noncomputable def exampleProver (u : Fin 1 → exampleDigests) :
    Prover 2 Toy.F Toy.F Toy.F Toy.F Toy.F Toy.F exampleInputs exampleDigests where
  query _ := ⟨TipaStatic.pointInput exampleEnv.tipa exampleEnv.pairingAB 0 0
    (TipaStatic.left exampleSrs (n := 2) (![1, 0, 7], (0 : Toy.F)))
    (TipaStatic.right exampleSrs (n := 2) (![1, 0, 8], (0 : Toy.F))), example_hp1 _ _ _ _ (by norm_num)⟩
  labelAB _ := ((![1, 2], ![3, 4], 5), (![1, 2], ![3, 4], 6))
  labelC _ := ((![1, 2], 0, 5), (![3, 4], 1, 6))
  keysAB _ := ((![1, 0, 7], 0), (![1, 0, 8], 0))
  keysC _ := (![1, 0, 7], 0)
  ipAB _ := (exampleEnv.fromRandomBytes (u 0)).getD 0
  aggC _ := 3
  stepsAB _ := [((![1, 2], ![3, 4], 5), (![1, 2], ![3, 4], 6))]
  stepsC _ := [((![1, 2], 0, 5), (![3, 4], 1, 6))]
  baseAB _ := (1, 2)
  baseC _ := (1, 2)
  finalAB _ := ((![1, 0, 7], 0), (![1, 0, 8], 0))
  finalC _ := (![1, 0, 7], 0)
  openingAB _ := ((![0, 1, 7], 0), (![0, 1, 8], 0))
  openingC _ := (![0, 1, 7], 0)

example : (∀ u r, Draws exampleEnv u r → ∀ ds z c,
      (exampleProver u).query ds = linkAB exampleEnv Toy.e exampleSrs r (example_hm1 r) z c →
      exampleAB r ((exampleProver u).labelAB ds) = exampleAB r z) ∧
    (∀ u ds z c, (exampleProver u).query ds = linkC exampleEnv Toy.e exampleSrs example_hm2 z c →
      exampleC ((exampleProver u).labelC ds) = exampleC z) ∧
    (∀ u ds, ∀ t < 2 ^ 64, ∀ x ka kb,
      ((exampleProver u).query ds : Bytes) = TipaStatic.pointInput exampleEnv.tipa exampleEnv.pairingAB t x ka kb →
      TipaStatic.left exampleSrs ((exampleProver u).keysAB ds).1 = ka ∧
        TipaStatic.right exampleSrs ((exampleProver u).keysAB ds).2 = kb) ∧
    (∀ u ds, ∀ t < 2 ^ 64, ∀ x ka,
      ((exampleProver u).query ds : Bytes) = TipaSsmStatic.pointInput exampleEnv.tipa exampleEnv.multiexpSsm t x ka →
      TipaStatic.left exampleSrs ((exampleProver u).keysC ds) = ka) ∧
    (∀ u ds, ((exampleProver u).stepsAB ds).length = 1) ∧ ∀ u ds, ((exampleProver u).stepsC ds).length = 1 := by
  have hq : ∀ u ds, ((exampleProver u).query ds : Bytes).length = 11 := fun u ds => length_pointAB _ _ _ _
  refine ⟨fun u r _ ds z c h => ?_, fun u ds z c h => ?_, fun u ds t ht x ka kb h => ?_, fun u ds t ht x ka h => ?_,
    fun _ _ => rfl, fun _ _ => rfl⟩
  · exact absurd ((hq u ds).symm.trans ((congrArg List.length (congrArg Subtype.val h)).trans (length_linkAB r z c)))
      (by norm_num)
  · exact absurd ((hq u ds).symm.trans ((congrArg List.length (congrArg Subtype.val h)).trans (length_linkC z c)))
      (by norm_num)
  · simp only [exampleProver, TipaStatic.pointInput, List.append_assoc] at h
    obtain ⟨-, h⟩ := decodable_nonce _ _ _ _ (by norm_num) ht h
    obtain ⟨-, h⟩ := decodable_ser _ _ _ _ trivial trivial h
    obtain ⟨h1, h2⟩ := List.append_inj h rfl
    exact ⟨ser_inj _ _ h1, ser_inj _ _ h2⟩
  · exact absurd ((hq u ds).symm.trans ((congrArg List.length h).trans (length_pointC t x ka))) (by norm_num)

end Example

end Ripp.AggStatic
