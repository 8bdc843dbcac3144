import Verif.Props.AggStatic
import Verif.Props.TipaUnique
import Verif.Props.TipaSsmUnique
import Verif.Lemmas.Rewind

/-!
# C132: accepted aggregate proofs in the random oracle model

As C126 and C130 for the aggregation of Groth16 proofs. The two aggregated values are not hashed, so that they and both
arguments have to be looked at together: each determines the other through the pairing product equation.
-/

set_option linter.unusedSectionVars false
set_option linter.unusedVariables false

namespace Ripp.AggStatic

open Spec Extract Polynomial
open GipaStatic (challengeOf withDigest Clash commitTo formalKey formal weights keyOf single decodable_single Binding
  dot_formalKey binding_formal map_formalKey foldAll_formalKey recLoop_digest commitTo_formal dot_keyOf dot_ofFn)

variable {F : Type} [Field F]

/-! ## One round -/

section Round
variable {MA MB T KA KB OA OB M2 K2 C2 O2 Y : Type} [AddCommGroup MA] [Module F MA] [AddCommGroup MB] [Module F MB]
  [AddCommGroup T] [Module F T] [AddCommGroup KA] [Module F KA] [AddCommGroup KB] [Module F KB]
  [AddCommGroup OA] [Module F OA] [AddCommGroup OB] [Module F OB] [AddCommGroup M2] [Module F M2]
  [AddCommGroup K2] [Module F K2] [AddCommGroup C2] [Module F C2] [AddCommGroup O2] [Module F O2]
  [AddCommGroup Y] [Module F Y]
  (bil : MA →ₗ[F] MB →ₗ[F] T) (φa : MA →ₗ[F] KA →ₗ[F] OA) (φb : MB →ₗ[F] KB →ₗ[F] OB) (uT : Y →ₗ[F] T)
  (bil2 : M2 →ₗ[F] F →ₗ[F] O2) (φ2 : M2 →ₗ[F] K2 →ₗ[F] C2) (uT2 : Y →ₗ[F] O2)

theorem reads_some : Reads F (some : T → Option T) id LinearMap.id :=
  ⟨fun _ _ => rfl, fun _ _ => rfl, fun _ => rfl⟩

/-- `a` and `b` open the vector commitments; nothing is said about the inner product. -/
def OpenAB (st : GipaStatic.St KA KB OA OB T) (a : List MA) (b : List MB) : Prop :=
  a.length = st.1.length ∧ b.length = st.2.1.length ∧ st.2.2.1 = dot (φa · ·) a st.1 ∧ st.2.2.2.1 = dot (φb · ·) b st.2.1

/-- The same for the second argument. -/
def OpenC (st : SsmStatic.St F K2 C2 O2) (a : List M2) : Prop :=
  a.length = st.1.length ∧ st.2.2.1 = dot (φ2 · ·) a st.1

/-- One round of the first argument; the flag records that the prover has left the honest run. -/
noncomputable def nextAB (st : GipaStatic.St KA KB OA OB T × Prop) (z : (OA × OB × T) × (OA × OB × T)) (x : F) :
    GipaStatic.St KA KB OA OB T × Prop :=
  (GipaStatic.foldSt st.1 z x, st.2 ∨ ∃ n, st.1.1.length = 2 * n ∧ ¬ ∃ a b, OpenAB φa φb st.1 a b ∧
    GipaStatic.Cross bil φa φb some LinearMap.id n st.1.1 st.1.2.1 a b z)

/-- One round of the second argument. -/
noncomputable def nextC (st : SsmStatic.St F K2 C2 O2 × Prop) (z : (C2 × O2) × (C2 × O2)) (x : F) :
    SsmStatic.St F K2 C2 O2 × Prop :=
  (SsmStatic.foldSt st.1 z x, st.2 ∨ ∃ n, st.1.1.length = 2 * n ∧ ¬ ∃ a, OpenC φ2 st.1 a ∧
    SsmStatic.Cross bil2 φ2 some LinearMap.id n st.1.1 st.1.2.1 a z)

/-- If the prover has left one of the honest runs, no value makes both statements true. -/
def Caught (s1 : GipaStatic.St KA KB OA OB T × Prop) (s2 : SsmStatic.St F K2 C2 O2 × Prop) : Prop :=
  (s1.1.1.length = s1.1.2.1.length ∧ Binding φa s1.1.1 ∧ Binding φb s1.1.2.1) ∧
    (s2.1.1.length = s2.1.2.1.length ∧ Binding φ2 s2.1.1) ∧
    (s1.2 ∨ s2.2 → ¬ ∃ y, Opens bil φa φb uT y s1.1 ∧ PolyStatic.Opens bil2 φ2 0 uT2 y s2.1)

variable {bil φa φb uT bil2 φ2 uT2}

theorem foldSt_fine2 (st : SsmStatic.St F K2 C2 O2) (h : st.1.length = st.2.1.length ∧ Binding φ2 st.1)
    (z : (C2 × O2) × (C2 × O2)) (x : F) :
    (SsmStatic.foldSt st z x).1.length = (SsmStatic.foldSt st z x).2.1.length ∧
      Binding φ2 (SsmStatic.foldSt st z x).1 := by
  by_cases hn : ∃ n, st.1.length = 2 * n
  · rw [SsmStatic.foldSt, if_pos hn]
    obtain ⟨n, ha⟩ := hn
    have hb : st.2.1.length = 2 * n := by rw [← h.1, ha]
    exact ⟨by simp only [length_foldHalf _ _ n ha, length_foldHalf _ _ n hb], h.2.fold n ha _⟩
  · rw [SsmStatic.foldSt, if_neg hn]; exact h

/-- The value is determined by the second statement. -/
theorem value_of_C (hu : Function.Injective uT2) {st : SsmStatic.St F K2 C2 O2} (b : Binding φ2 st.1) {y y' : Y}
    (h : PolyStatic.Opens bil2 φ2 0 uT2 y st) (h' : PolyStatic.Opens bil2 φ2 0 uT2 y' st) : y = y' := by
  obtain ⟨a, a1, a2, a3⟩ := h
  obtain ⟨a', b1, b2, b3⟩ := h'
  obtain rfl : a = a' := b _ _ a1 b1 (a2.symm.trans b2)
  exact hu (add_left_cancel (a3.trans b3.symm))

/-- The value is determined by the first statement. -/
theorem value_of_AB (hu : Function.Injective uT) {st : GipaStatic.St KA KB OA OB T} (bA : Binding φa st.1)
    (bB : Binding φb st.2.1) {y y' : Y} (h : Opens bil φa φb uT y st) (h' : Opens bil φa φb uT y' st) : y = y' := by
  obtain ⟨a, b, a1, a2, a3, a4, a5⟩ := h
  obtain ⟨a', b', b1, b2, b3, b4, b5⟩ := h'
  obtain rfl : a = a' := bA _ _ a1 b1 (a3.symm.trans b3)
  obtain rfl : b = b' := bB _ _ a2 b2 (a4.symm.trans b4)
  exact hu (add_left_cancel (a5.trans b5.symm))

/-- Four challenges that make the first statement true for the same value: the step is the honest one. -/
theorem crossAB_of_four (st : GipaStatic.St KA KB OA OB T) (hst : st.1.length = st.2.1.length)
    (bA : Binding φa st.1) (bB : Binding φb st.2.1) (z : (OA × OB × T) × (OA × OB × T)) (n : ℕ)
    (ha : st.1.length = 2 * n) (c : Fin 4 → F) (hc : Function.Injective c) (h0 : ∀ i, c i ≠ 0) (y : Y)
    (h : ∀ i, Opens bil φa φb uT y (GipaStatic.foldSt st z (c i))) :
    Opens bil φa φb uT y st ∧ ∃ a b, OpenAB φa φb st a b ∧
      GipaStatic.Cross bil φa φb some LinearMap.id n st.1 st.2.1 a b z := by
  obtain ⟨a, b, ⟨o1, o2, o3, o4, o5⟩, hcr⟩ := GipaStatic.cross_of_four (β := bil) (φa := φa) (φb := φb) reads_some st.1
    st.2.1 (st.2.2.1, st.2.2.2.1, st.2.2.2.2 + uT y) z.1 z.2 n ha (hst ▸ ha) bA bB c hc h0 fun i => by
      have := h i
      rw [GipaStatic.foldSt, if_pos ⟨n, ha⟩] at this
      obtain ⟨a, b, e1, e2, e3, e4, e5⟩ := this
      refine ⟨a, b, e1, e2, e3, e4, ?_⟩
      rw [LinearMap.id_apply, ← e5]
      refine congrArg some ?_
      module
  exact ⟨⟨a, b, o1, o2, o3, o4, Option.some.inj o5⟩, a, b, ⟨o1, o2, o3, o4⟩, hcr⟩

/-- The same for the second statement. -/
theorem crossC_of_four (st : SsmStatic.St F K2 C2 O2) (hst : st.1.length = st.2.1.length)
    (bA : Binding φ2 st.1) (z : (C2 × O2) × (C2 × O2)) (n : ℕ)
    (ha : st.1.length = 2 * n) (c : Fin 4 → F) (hc : Function.Injective c) (h0 : ∀ i, c i ≠ 0) (y : Y)
    (h : ∀ i, PolyStatic.Opens bil2 φ2 0 uT2 y (SsmStatic.foldSt st z (c i))) :
    PolyStatic.Opens bil2 φ2 0 uT2 y st ∧ ∃ a, OpenC φ2 st a ∧
      SsmStatic.Cross bil2 φ2 some LinearMap.id n st.1 st.2.1 a z := by
  obtain ⟨a, ⟨o1, o3, o5⟩, hcr⟩ := SsmStatic.cross_of_four (bil := bil2) (φ := φ2) reads_some
    (st.1, st.2.1, st.2.2.1, st.2.2.2 + uT2 y) z n ha (hst ▸ ha) bA c hc h0 fun i => by
      have := h i
      rw [SsmStatic.foldSt_eq _ _ _ n ha] at this
      obtain ⟨a, e1, e3, e5⟩ := this
      rw [SsmStatic.foldSt_eq (st.1, st.2.1, st.2.2.1, st.2.2.2 + uT2 y) _ _ n ha]
      refine ⟨a, e1, by simpa using e3, ?_⟩
      rw [LinearMap.id_apply, ← e5]
      refine congrArg some ?_
      module
  exact ⟨⟨a, o1, by simpa using o3, Option.some.inj o5⟩, a, ⟨o1, o3⟩, hcr⟩

/-- If one of the statements is extended, at most three non-zero challenges hide that the prover leaves the honest
run. -/
theorem caught_le (hu : Function.Injective uT) (hu2 : Function.Injective uT2) {D : Type} (key : D → F) (m : ℕ)
    (hm : ∀ (x : F) (S : Finset D), (∀ d ∈ S, key d = x) → S.card ≤ m)
    (s1 : GipaStatic.St KA KB OA OB T × Prop) (s2 : SsmStatic.St F K2 C2 O2 × Prop) (z1 : (OA × OB × T) × (OA × OB × T))
    (z2 : (C2 × O2) × (C2 × O2)) (b1 b2 : Bool) (hb : ¬ (b1 = true ∧ b2 = true))
    (hst : Caught bil φa φb uT bil2 φ2 uT2 s1 s2) (S : Finset D)
    (hS : ∀ d ∈ S, ¬ Caught bil φa φb uT bil2 φ2 uT2 (if b1 then nextAB bil φa φb s1 z1 (key d) else s1)
      (if b2 then nextC bil2 φ2 s2 z2 (key d) else s2)) : S.card ≤ 4 * m := by
  obtain ⟨l1, l2, hno⟩ := hst
  by_contra hcard
  classical
  obtain ⟨c, hc, h0, hd⟩ := Oracle.exists_keys 4 key 0 m hm S (by omega)
  -- the new flag is set, and there is a value
  have hop : ∀ i, ((if b1 then nextAB bil φa φb s1 z1 (c i) else s1).2 ∨ (if b2 then nextC bil2 φ2 s2 z2 (c i) else s2).2) ∧
      ∃ y, Opens bil φa φb uT y (if b1 then nextAB bil φa φb s1 z1 (c i) else s1).1 ∧
      PolyStatic.Opens bil2 φ2 0 uT2 y (if b2 then nextC bil2 φ2 s2 z2 (c i) else s2).1 := by
    intro i
    obtain ⟨d, hdS, hdi⟩ := hd i
    rw [← hdi]
    by_contra hcon
    refine hS d hdS ⟨?_, ?_, fun hf hy => hcon ⟨hf, hy⟩⟩
    · split
      · exact foldSt_fine _ l1 _ _
      · exact l1
    · split
      · exact foldSt_fine2 _ l2 _ _
      · exact l2
  cases b1 with
  | false =>
    cases b2 with
    | false => exact hno (hop 0).1 (hop 0).2
    | true =>
      simp only [Bool.false_eq_true, if_false, if_true] at hop
      by_cases hn : ∃ n, s2.1.1.length = 2 * n
      · obtain ⟨n, ha⟩ := hn
        choose hf y y1 y2 using hop
        have hy : ∀ i, y i = y 0 := fun i => value_of_AB hu l1.2.1 l1.2.2 (y1 i) (y1 0)
        obtain ⟨ho, hcr⟩ := crossC_of_four s2.1 l2.1 l2.2 z2 n ha c hc h0 (y 0) fun i => hy i ▸ y2 i
        rcases hf 0 with hf | hf | ⟨n', hn', hf⟩
        · exact hno (Or.inl hf) ⟨y 0, y1 0, ho⟩
        · exact hno (Or.inr hf) ⟨y 0, y1 0, ho⟩
        · obtain rfl : n' = n := by omega
          exact hf hcr
      · obtain ⟨hf, y, y1, y2⟩ := hop 0
        simp only [nextC, SsmStatic.foldSt, if_neg hn] at y2
        rcases hf with hf | hf | ⟨n', hn', -⟩
        · exact hno (Or.inl hf) ⟨y, y1, y2⟩
        · exact hno (Or.inr hf) ⟨y, y1, y2⟩
        · exact hn ⟨n', hn'⟩
  | true =>
    cases b2 with
    | true => exact hb ⟨rfl, rfl⟩
    | false =>
      simp only [Bool.false_eq_true, if_false, if_true] at hop
      by_cases hn : ∃ n, s1.1.1.length = 2 * n
      · obtain ⟨n, ha⟩ := hn
        choose hf y y1 y2 using hop
        have hy : ∀ i, y i = y 0 := fun i => value_of_C hu2 l2.2 (y2 i) (y2 0)
        obtain ⟨ho, hcr⟩ := crossAB_of_four s1.1 l1.1 l1.2.1 l1.2.2 z1 n ha c hc h0 (y 0) fun i => hy i ▸ y1 i
        rcases hf 0 with (hf | ⟨n', hn', hf⟩) | hf
        · exact hno (Or.inl hf) ⟨y 0, ho, y2 0⟩
        · obtain rfl : n' = n := by omega
          exact hf hcr
        · exact hno (Or.inr hf) ⟨y 0, ho, y2 0⟩
      · obtain ⟨hf, y, y1, y2⟩ := hop 0
        simp only [nextAB, GipaStatic.foldSt, if_neg hn] at y1
        rcases hf with (hf | ⟨n', hn', -⟩) | hf
        · exact hno (Or.inl hf) ⟨y, y1, y2⟩
        · exact hn ⟨n', hn'⟩
        · exact hno (Or.inr hf) ⟨y, y1, y2⟩

/-! ## All rounds -/

theorem foldl_nextAB_fst (st : GipaStatic.St KA KB OA OB T × Prop) (ps : List (((OA × OB × T) × (OA × OB × T)) × F)) :
    (ps.foldl (fun st p => nextAB bil φa φb st p.1 p.2) st).1 =
      ps.foldl (fun st p => GipaStatic.foldSt st p.1 p.2) st.1 := by
  induction ps generalizing st with
  | nil => rfl
  | cons p ps ih => rw [List.foldl_cons, ih]; rfl

theorem foldl_nextAB_snd (ps : List (((OA × OB × T) × (OA × OB × T)) × F)) :
    ∀ st : GipaStatic.St KA KB OA OB T × Prop, st.2 →
      (ps.foldl (fun st p => nextAB bil φa φb st p.1 p.2) st).2 := by
  induction ps with
  | nil => exact fun st h => h
  | cons q qs ih => exact fun st h => ih _ (Or.inl h)

theorem foldl_nextC_fst (st : SsmStatic.St F K2 C2 O2 × Prop) (ps : List (((C2 × O2) × (C2 × O2)) × F)) :
    (ps.foldl (fun st p => nextC bil2 φ2 st p.1 p.2) st).1 =
      ps.foldl (fun st p => SsmStatic.foldSt st p.1 p.2) st.1 := by
  induction ps generalizing st with
  | nil => rfl
  | cons p ps ih => rw [List.foldl_cons, ih]; rfl

theorem foldl_nextC_snd (ps : List (((C2 × O2) × (C2 × O2)) × F)) :
    ∀ st : SsmStatic.St F K2 C2 O2 × Prop, st.2 → (ps.foldl (fun st p => nextC bil2 φ2 st p.1 p.2) st).2 := by
  induction ps with
  | nil => exact fun st h => h
  | cons q qs ih => exact fun st h => ih _ (Or.inl h)

/-- A run of the first argument that is not flagged is honest, and with the right inner product at the start it ends with
the folded messages. -/
theorem honestAB_of_unflagged : ∀ (ps : List (((OA × OB × T) × (OA × OB × T)) × F))
    (ka : List KA) (kb : List KB) (cA : OA) (cB : OB) (t t' : T) (fl : Prop) (a : List MA) (b : List MB),
    ka.length = 2 ^ ps.length → kb.length = 2 ^ ps.length → Binding φa ka → Binding φb kb → (∀ p ∈ ps, p.2 ≠ 0) →
    GipaStatic.OpensTo bil φa φb some LinearMap.id ka kb (cA, cB, t) a b →
    ¬ (ps.foldl (fun st p => nextAB bil φa φb st p.1 p.2) ((ka, kb, cA, cB, t'), fl)).2 →
    let fin := ps.foldl (fun st p => GipaStatic.foldSt st p.1 p.2) (ka, kb, cA, cB, t)
    GipaStatic.HonestRun bil φa φb some LinearMap.id ps ka kb a b ∧
      GipaStatic.OpensTo bil φa φb some LinearMap.id fin.1 fin.2.1 fin.2.2 (foldAll (ps.map (·.2)) a)
        (foldAll ((ps.map (·.2)).map (·⁻¹)) b)
  | [], ka, kb, cA, cB, t, t', fl, a, b, _, _, _, _, _, hop, hf => ⟨trivial, by simpa [foldAll] using hop⟩
  | p :: ps, ka, kb, cA, cB, t, t', fl, a, b, ha, hb, bA, bB, h0, hop, hf => by
    have h2 : (2 : ℕ) ^ (ps.length + 1) = 2 * 2 ^ ps.length := by rw [pow_succ]; ring
    rw [List.length_cons, h2] at ha hb
    have hx : p.2 ≠ 0 := h0 p (by simp)
    rw [List.foldl_cons] at hf
    have hfl : ¬ (nextAB bil φa φb ((ka, kb, cA, cB, t'), fl) p.1 p.2).2 := fun h => hf (foldl_nextAB_snd ps _ h)
    obtain ⟨-, hcr⟩ := not_or.mp hfl
    have hcr : ∃ a b, OpenAB φa φb (ka, kb, cA, cB, t') a b ∧
        GipaStatic.Cross bil φa φb some LinearMap.id (2 ^ ps.length) ka kb a b p.1 := by
      by_contra h
      exact hcr ⟨_, ha, h⟩
    obtain ⟨a', b', ⟨o1, o2, o3, o4⟩, hcr⟩ := hcr
    obtain rfl : a' = a := bA _ _ o1 hop.1 (o3.symm.trans hop.2.2.1)
    obtain rfl : b' = b := bB _ _ o2 hop.2.1 (o4.symm.trans hop.2.2.2.1)
    have hfold : ∀ t, GipaStatic.foldSt (ka, kb, cA, cB, t) p.1 p.2 = (foldHalf p.2⁻¹ ka, foldHalf p.2 kb,
        (p.2 • p.1.1.1 + cA + p.2⁻¹ • p.1.2.1, p.2 • p.1.1.2.1 + cB + p.2⁻¹ • p.1.2.2.1,
          p.2 • p.1.1.2.2 + t + p.2⁻¹ • p.1.2.2.2)) := fun t => by
      rw [GipaStatic.foldSt, if_pos ⟨_, ha⟩]
    rw [nextAB] at hf
    rw [hfold] at hf
    obtain ⟨i1, i2⟩ := honestAB_of_unflagged ps _ _ _ _ (p.2 • p.1.1.2.2 + t + p.2⁻¹ • p.1.2.2.2) _ _ _ _
      (length_foldHalf _ _ _ ha) (length_foldHalf _ _ _ hb) (bA.fold _ ha _) (bB.fold _ hb _)
      (fun q hq => h0 q (by simp [hq])) (hop.fold reads_some _ ha hb hcr _ hx) hf
    refine ⟨⟨hcr, i1⟩, ?_⟩
    rw [List.foldl_cons, hfold]
    simpa [foldAll] using i2

/-- The same for the second argument. -/
theorem honestC_of_unflagged : ∀ (ps : List (((C2 × O2) × (C2 × O2)) × F))
    (ka : List K2) (mb : List F) (cA : C2) (t t' : O2) (fl : Prop) (a : List M2), ka.length = 2 ^ ps.length →
    mb.length = 2 ^ ps.length → Binding φ2 ka → (∀ p ∈ ps, p.2 ≠ 0) →
    SsmStatic.OpensTo bil2 φ2 some LinearMap.id (ka, mb, cA, t) a →
    ¬ (ps.foldl (fun st p => nextC bil2 φ2 st p.1 p.2) ((ka, mb, cA, t'), fl)).2 →
    SsmStatic.HonestRun bil2 φ2 some LinearMap.id ps ka mb a ∧
      SsmStatic.OpensTo bil2 φ2 some LinearMap.id
        (ps.foldl (fun st p => SsmStatic.foldSt st p.1 p.2) (ka, mb, cA, t)) (foldAll (ps.map (·.2)) a)
  | [], ka, mb, cA, t, t', fl, a, _, _, _, _, hop, hf => ⟨trivial, by simpa [foldAll] using hop⟩
  | p :: ps, ka, mb, cA, t, t', fl, a, ha, hb, bA, h0, hop, hf => by
    have h2 : (2 : ℕ) ^ (ps.length + 1) = 2 * 2 ^ ps.length := by rw [pow_succ]; ring
    rw [List.length_cons, h2] at ha hb
    have hx : p.2 ≠ 0 := h0 p (by simp)
    rw [List.foldl_cons] at hf
    have hfl : ¬ (nextC bil2 φ2 ((ka, mb, cA, t'), fl) p.1 p.2).2 := fun h => hf (foldl_nextC_snd ps _ h)
    obtain ⟨-, hcr⟩ := not_or.mp hfl
    have hcr : ∃ a, OpenC φ2 (ka, mb, cA, t') a ∧
        SsmStatic.Cross bil2 φ2 some LinearMap.id (2 ^ ps.length) ka mb a p.1 := by
      by_contra h
      exact hcr ⟨_, ha, h⟩
    obtain ⟨a', ⟨o1, o3⟩, hcr⟩ := hcr
    obtain rfl : a' = a := bA _ _ o1 hop.1 (o3.symm.trans hop.2.1)
    have hfold : ∀ t, SsmStatic.foldSt (ka, mb, cA, t) p.1 p.2 = (foldHalf p.2⁻¹ ka, foldHalf p.2⁻¹ mb,
        p.2 • p.1.1.1 + cA + p.2⁻¹ • p.1.2.1, p.2 • p.1.1.2 + t + p.2⁻¹ • p.1.2.2) := fun t =>
      SsmStatic.foldSt_eq _ _ _ _ ha
    rw [nextC] at hf
    rw [hfold] at hf
    have := hop.fold reads_some _ ha hb hcr _ hx
    rw [hfold] at this
    obtain ⟨i1, i2⟩ := honestC_of_unflagged ps _ _ _ (p.2 • p.1.1.2 + t + p.2⁻¹ • p.1.2.2) _ _ _
      (length_foldHalf _ _ _ ha) (length_foldHalf _ _ _ hb) (bA.fold _ ha _)
      (fun q hq => h0 q (by simp [hq])) this hf
    refine ⟨⟨hcr, i1⟩, ?_⟩
    rw [List.foldl_cons, hfold]
    simpa [foldAll] using i2

end Round

/-! ## The honest provers -/

section Lift
variable {MA MB T KA KB OA OB M2 K2 C2 O2 : Type} [AddCommGroup MA] [Module F MA] [AddCommGroup MB] [Module F MB]
  [AddCommGroup T] [Module F T] [AddCommGroup KA] [Module F KA] [AddCommGroup KB] [Module F KB]
  [AddCommGroup OA] [Module F OA] [AddCommGroup OB] [Module F OB] [AddCommGroup M2] [Module F M2]
  [AddCommGroup K2] [Module F K2] [AddCommGroup C2] [Module F C2] [AddCommGroup O2] [Module F O2]
  {bil : MA →ₗ[F] MB →ₗ[F] T} {φa : MA →ₗ[F] KA →ₗ[F] OA} {φb : MB →ₗ[F] KB →ₗ[F] OB}
  {bil2 : M2 →ₗ[F] F →ₗ[F] O2} {φ2 : M2 →ₗ[F] K2 →ₗ[F] C2}

/-- The same run with the values as the outputs of the identity commitment. -/
theorem honestAB_single : ∀ (ps : List (((OA × OB × T) × (OA × OB × T)) × F)) (ka : List KA) (kb : List KB) (a : List MA)
    (b : List MB), GipaStatic.HonestRun bil φa φb some LinearMap.id ps ka kb a b →
    GipaStatic.HonestRun bil φa φb (fun o : IdentityOutput T => o.vals.head?) LinearMap.id
      (ps.map fun p => (((p.1.1.1, p.1.1.2.1, single p.1.1.2.2), (p.1.2.1, p.1.2.2.1, single p.1.2.2.2)), p.2)) ka kb a b
  | [], _, _, _, _, _ => trivial
  | p :: ps, ka, kb, a, b, ⟨h, h'⟩ => by
    refine ⟨?_, honestAB_single ps _ _ _ _ h'⟩
    rw [List.length_map]
    exact h

theorem honestC_single : ∀ (ps : List (((C2 × O2) × (C2 × O2)) × F)) (ka : List K2) (mb : List F) (a : List M2),
    SsmStatic.HonestRun bil2 φ2 some LinearMap.id ps ka mb a →
    SsmStatic.HonestRun bil2 φ2 (fun o : IdentityOutput O2 => o.vals.head?) LinearMap.id
      (ps.map fun p => (((p.1.1.1, single p.1.1.2), (p.1.2.1, single p.1.2.2)), p.2)) ka mb a
  | [], _, _, _, _ => trivial
  | p :: ps, ka, mb, a, ⟨h, h'⟩ => by
    refine ⟨?_, honestC_single ps _ _ _ h'⟩
    rw [List.length_map]
    exact h

end Lift

theorem follow_fst {X D Z κ S : Type} (enc : Z → κ → X) (key : D → κ) (next : S → Z → D → S)
    (next' : S × Prop → Z → D → S × Prop) (h : ∀ s z d, (next' s z d).1 = next s.1 z d) (L : X → Z) (H : X → D) :
    ∀ (zs : List Z) (s : S × Prop) (k : κ),
      (Oracle.follow enc key next' L H s k zs).1 = Oracle.follow enc key next L H s.1 k zs
  | [], _, _ => rfl
  | z :: zs, s, k => by rw [Oracle.follow, Oracle.follow, follow_fst enc key next next' h L H zs, h]

theorem binding_foldAll {M K O : Type} [AddCommGroup M] [Module F M] [AddCommGroup K] [Module F K] [AddCommGroup O]
    [Module F O] {φ : M →ₗ[F] K →ₗ[F] O} : ∀ (cs : List F) (ka : List K), ka.length = 2 ^ cs.length → Binding φ ka →
      Binding φ (foldAll cs ka)
  | [], _, _, h => h
  | c :: cs, ka, hl, h => by
    have h2 : (2 : ℕ) ^ (cs.length + 1) = 2 * 2 ^ cs.length := by rw [pow_succ]; ring
    rw [List.length_cons, h2] at hl
    exact binding_foldAll cs _ (length_foldHalf _ _ _ hl) (h.fold _ hl _)

/-- An unflagged run from the statement of the first argument, whose end is opened by the base, is honest. -/
theorem finishAB {n : ℕ} {MA MB T : Type} [AddCommGroup MA] [Module F MA] [AddCommGroup MB] [Module F MB] [AddCommGroup T]
    [Module F T] {bil : MA →ₗ[F] MB →ₗ[F] T}
    (ps : List ((((Fin n → MA) × (Fin n → MB) × T) × ((Fin n → MA) × (Fin n → MB) × T)) × F)) (hn : n = 2 ^ ps.length)
    (h0 : ∀ p ∈ ps, p.2 ≠ 0) (ra : Fin n → MA) (rb : Fin n → MB) (t' ip : T) (x : MA) (y : MB)
    (gA : accum (ps.map (·.2)) (ps.map fun p => (p.1.1.1, p.1.2.1)) ra =
      fun i => weights ((ps.map (·.2)).map (·⁻¹)) n i • x)
    (gB : accum (ps.map (·.2)) (ps.map fun p => (p.1.1.2.1, p.1.2.2.1)) rb = fun i => weights (ps.map (·.2)) n i • y)
    (gT : accum (ps.map (·.2)) (ps.map fun p => (p.1.1.2.2, p.1.2.2.2)) ip = bil x y)
    (hf : ¬ (ps.foldl (fun st p => nextAB bil (formal (F := F) n) (formal n) st p.1 p.2)
      ((formalKey n, formalKey n, ra, rb, t'), False)).2) :
    GipaStatic.HonestRun bil (formal n) (formal n) some LinearMap.id ps (formalKey n) (formalKey n) (List.ofFn ra)
      (List.ofFn rb) ∧ foldAll (ps.map (·.2)) (List.ofFn ra) = [x] ∧
      foldAll ((ps.map (·.2)).map (·⁻¹)) (List.ofFn rb) = [y] ∧ ip = ∑ i, bil (ra i) (rb i) := by
  have hlen : (formalKey (F := F) n).length = 2 ^ ps.length := by simp [formalKey, hn]
  obtain ⟨h, hend⟩ := honestAB_of_unflagged (bil := bil) (φa := formal n) (φb := formal n) ps (formalKey n) (formalKey n) ra
    rb (∑ i, bil (ra i) (rb i)) t' False (List.ofFn ra) (List.ofFn rb) hlen hlen binding_formal binding_formal h0
    ⟨by simp [formalKey], by simp [formalKey], (dot_formalKey ra).symm, (dot_formalKey rb).symm, by rw [dot_ofFn]; rfl⟩ hf
  have bA := binding_foldAll ((ps.map (·.2)).map (·⁻¹)) (formalKey n) (by simpa using hlen)
    (binding_formal (F := F) (M := MA))
  have bB := binding_foldAll (ps.map (·.2)) (formalKey n) (by simpa using hlen) (binding_formal (F := F) (M := MB))
  rw [GipaStatic.foldl_foldSt _ _ _ _ hlen] at hend
  obtain ⟨e1, e2, e3, e4, e5⟩ := hend
  have k1 : foldAll ((ps.map (·.2)).map (·⁻¹)) (formalKey (F := F) n) = [weights ((ps.map (·.2)).map (·⁻¹)) n] :=
    foldAll_formalKey _ (by simpa using hn)
  have k2 : foldAll (ps.map (·.2)) (formalKey (F := F) n) = [weights (ps.map (·.2)) n] :=
    foldAll_formalKey _ (by simpa using hn)
  simp only [k1, k2] at bA bB e1 e2 e3 e4
  have fa : foldAll (ps.map (·.2)) (List.ofFn ra) = [x] :=
    bA _ _ e1 rfl (e3.symm.trans (gA.trans (by simp [formal])))
  have fb : foldAll ((ps.map (·.2)).map (·⁻¹)) (List.ofFn rb) = [y] :=
    bB _ _ e2 rfl (e4.symm.trans (gB.trans (by simp [formal])))
  refine ⟨h, fa, fb, ?_⟩
  rw [fa, fb] at e5
  have e5 : accum (ps.map (·.2)) (ps.map fun p => (p.1.1.2.2, p.1.2.2.2)) (∑ i, bil (ra i) (rb i)) = bil x y :=
    (Option.some.inj e5).trans (by simp)
  have h1 := PolyStatic.accum_add (ps.map (·.2)) (ps.map fun p => (p.1.1.2.2, p.1.2.2.2)) 0 ip
  have h2 := PolyStatic.accum_add (ps.map (·.2)) (ps.map fun p => (p.1.1.2.2, p.1.2.2.2)) 0 (∑ i, bil (ra i) (rb i))
  rw [zero_add, gT] at h1
  rw [zero_add, e5, ← h1] at h2
  exact (add_left_cancel h2).symm

/-- The same for the second argument. -/
theorem finishC {n : ℕ} {M : Type} [AddCommGroup M] [Module F M]
    (ps : List ((((Fin n → M) × M) × ((Fin n → M) × M)) × F)) (hn : n = 2 ^ ps.length)
    (h0 : ∀ p ∈ ps, p.2 ≠ 0) (rc : Fin n → M) (r r' : F) (t' ip x : M)
    (gA : accum (ps.map (·.2)) (ps.map fun p => (p.1.1.1, p.1.2.1)) rc =
      fun i => weights ((ps.map (·.2)).map (·⁻¹)) n i • x)
    (hr : foldAll ((ps.map (·.2)).map (·⁻¹)) (List.ofFn fun i : Fin n => r ^ (i : ℕ)) = [r'])
    (gT : accum (ps.map (·.2)) (ps.map fun p => (p.1.1.2, p.1.2.2)) ip = smulMap F M x r')
    (hf : ¬ (ps.foldl (fun st p => nextC (smulMap F M) (formal (F := F) n) st p.1 p.2)
      ((formalKey n, List.ofFn fun i : Fin n => r ^ (i : ℕ), rc, t'), False)).2) :
    SsmStatic.HonestRun (smulMap F M) (formal n) some LinearMap.id ps (formalKey n) (List.ofFn fun i : Fin n => r ^ (i : ℕ))
      (List.ofFn rc) ∧ foldAll (ps.map (·.2)) (List.ofFn rc) = [x] ∧ ip = ∑ i : Fin n, r ^ (i : ℕ) • rc i := by
  have hlen : (formalKey (F := F) n).length = 2 ^ ps.length := by simp [formalKey, hn]
  obtain ⟨h, hend⟩ := honestC_of_unflagged (bil2 := smulMap F M) (φ2 := formal n) ps (formalKey n)
    (List.ofFn fun i : Fin n => r ^ (i : ℕ)) rc (∑ i : Fin n, r ^ (i : ℕ) • rc i) t' False (List.ofFn rc) hlen
    (by simpa using hn) binding_formal h0
    ⟨by simp [formalKey], (dot_formalKey rc).symm, by simp only; rw [dot_ofFn]; rfl⟩ hf
  have bA := binding_foldAll ((ps.map (·.2)).map (·⁻¹)) (formalKey n) (by simpa using hlen)
    (binding_formal (F := F) (M := M))
  rw [SsmStatic.foldl_foldSt _ _ _ _ _ hlen] at hend
  obtain ⟨e1, e3, e5⟩ := hend
  simp only at e1 e3 e5
  rw [foldAll_formalKey _ (by rw [List.length_map, List.length_map]; exact hn)] at bA e1 e3
  have fa : foldAll (ps.map (·.2)) (List.ofFn rc) = [x] :=
    bA _ _ e1 rfl (e3.symm.trans (gA.trans (by simp [formal])))
  refine ⟨h, fa, ?_⟩
  rw [fa, hr] at e5
  have e5 : accum (ps.map (·.2)) (ps.map fun p => (p.1.1.2, p.1.2.2)) (∑ i : Fin n, r ^ (i : ℕ) • rc i) = smulMap F M x r' :=
    (Option.some.inj e5).trans (by simp)
  have h1 := PolyStatic.accum_add (ps.map (·.2)) (ps.map fun p => (p.1.1.2, p.1.2.2)) 0 ip
  have h2 := PolyStatic.accum_add (ps.map (·.2)) (ps.map fun p => (p.1.1.2, p.1.2.2)) 0 (∑ i : Fin n, r ^ (i : ℕ) • rc i)
  rw [zero_add, gT] at h1
  rw [zero_add, e5, ← h1] at h2
  exact (add_left_cancel h2).symm

section Static
open TipaStatic (Comb leftKey rightKey)

variable {ρ G1 G2 GT TF : Type} [DecidableEq F] [AddCommGroup G1] [Module F G1]
  [AddCommGroup G2] [Module F G2] [AddCommGroup GT] [Module F GT] [Monoid TF]
  [DecidableEq G1] [DecidableEq GT] {n : ℕ} {Xs Ds : Finset Bytes}
  {V : Env ρ F G1 G2 GT TF} {e : G1 →ₗ[F] G2 →ₗ[F] GT} {srs : SRS G1 G2} {r : F}
  (hm1 : ∀ k z1 z2, V.pairingAB.hashInput 0 k
    (GipaStatic.coms e e.flip (Shape.one GT).out (leftKey srs r n) (rightKey srs n) z1)
    (GipaStatic.coms e e.flip (Shape.one GT).out (leftKey srs r n) (rightKey srs n) z2) ∈ Xs)
  (hm2 : ∀ k z, V.multiexpSsm.hashInput 0 k (SsmStatic.coms2 e (Shape.one G1).out (leftKey srs (1 : F) n) z).1
    (SsmStatic.coms2 e (Shape.one G1).out (leftKey srs (1 : F) n) z).2 ∈ Xs)

open Classical in
/-- For a fixed challenge, and for all but few oracles: two accepting runs whose aggregated values satisfy the pairing
product equation, without a collision, are the honest ones. -/
theorem count_honest (hE : V.E.Lawful e) (hF : Decodable (fun _ => True) V.serF)
    (hG : Decodable (fun _ => True) V.serG1) (hT : Decodable (fun _ => True) V.serGT) (hd : ∀ d ∈ Ds, 16 ≤ d.length) (m : ℕ)
    (hm : ∀ x : F, (Finset.univ.filter fun d : Ds => challengeOf F d = x).card ≤ m) (k : ℕ)
    (hn : n = 2 ^ k) (ra : Fin n → G1) (rb : Fin n → G2) (rc : Fin n → G1) (t : GT) (δ : G2)
    (hδ : ∀ x, e x δ = 0 → x = 0) (A : Prover n F G1 G2 GT GT G1 Xs Ds) (Q : ℕ)
    (hlab1 : ∀ ds z c, A.query ds = linkAB V e srs r hm1 z c →
      coms2 e e.flip (Shape.one GT).out (leftKey srs r n) (rightKey srs n) (A.labelAB ds) =
        coms2 e e.flip (Shape.one GT).out (leftKey srs r n) (rightKey srs n) z)
    (hlab2 : ∀ ds z c, A.query ds = linkC V e srs hm2 z c →
      SsmStatic.coms2 e (Shape.one G1).out (leftKey srs (1 : F) n) (A.labelC ds) =
        SsmStatic.coms2 e (Shape.one G1).out (leftKey srs (1 : F) n) z)
    (hsep : ∀ z c z' c', linkAB V e srs r hm1 z c ≠ linkC V e srs hm2 z' c')
    (hs1 : ∀ ds, (A.stepsAB ds).length = k) (hs2 : ∀ ds, (A.stepsC ds).length = k) (W : Finset (Xs → Ds))
    (hW : ∀ H ∈ W, (∀ x ∈ A.ab.toProver.inputs V.pairingAB e e.flip (Shape.one GT).out (leftKey srs r n) (rightKey srs n) hm1 Q H,
        challengeOf F (H x) ≠ 0) →
      (∀ x ∈ A.c.toProver.inputs V.multiexpSsm e (Shape.one G1).out (leftKey srs (1 : F) n) hm2 Q H, challengeOf F (H x) ≠ 0) →
      A.ipAB (Oracle.trace A.query H Q) = t + e (A.aggC (Oracle.trace A.query H Q)) δ ∧
      Run e e e.flip single (List.ofFn (leftKey srs r n)) (List.ofFn (rightKey srs n))
        (commitTo e (leftKey srs r n) ra, commitTo e.flip (rightKey srs n) rb,
          single (A.ipAB (Oracle.trace A.query H Q)))
        (A.challengesAB V e srs r hm1 Q H)
        ((A.stepsAB (Oracle.trace A.query H Q)).map (coms2 e e.flip (Shape.one GT).out (leftKey srs r n) (rightKey srs n)))
        (A.baseAB (Oracle.trace A.query H Q)).1 (A.baseAB (Oracle.trace A.query H Q)).2 ∧
      SsmExtract.Run (smulMap F G1) e single (List.ofFn (leftKey srs (1 : F) n)) ((List.range n).map (r ^ ·))
        (commitTo e (leftKey srs (1 : F) n) rc, single (A.aggC (Oracle.trace A.query H Q)))
        (A.challengesC V e srs hm2 Q H)
        (SsmExtract.outer ((A.stepsC (Oracle.trace A.query H Q)).map
          (SsmStatic.coms2 e (Shape.one G1).out (leftKey srs (1 : F) n))))
        (A.baseC (Oracle.trace A.query H Q)).1 ∧
      ¬ A.Collides V e srs r hm1 hm2 ra rb rc Q k H ∧
      ∃ dg : Bytes → Bytes, (∀ x : Xs, dg x = H x) ∧
        ¬ (A.ipAB (Oracle.trace A.query H Q) = ∑ i, e (ra i) (rb i) ∧
          A.aggC (Oracle.trace A.query H Q) = ∑ i : Fin n, r ^ (i : ℕ) • rc i ∧
          (∃ aux, (withDigest V.pairingAB dg).proveWithAux (List.ofFn ra) (List.ofFn rb) (List.ofFn (leftKey srs r n))
            (List.ofFn (rightKey srs n)) [PUnit.unit] =
              .ok (A.ab.toProver.proof e e.flip (Shape.one GT).out (leftKey srs r n) (rightKey srs n) Q H, aux)) ∧
          ∃ ka, Gipa.taggedRun (withDigest V.multiexpSsm dg) (smulMap F G1) e idψ PUnit.unit
            (Gipa.tags (A.c.toProver.proof e (Shape.one G1).out (leftKey srs (1 : F) n) Q H).steps.reverse) 0 (List.ofFn rc)
            (powers r n) (List.ofFn (leftKey srs (1 : F) n)) =
              .ok ((A.c.toProver.proof e (Shape.one G1).out (leftKey srs (1 : F) n) Q H).steps.reverse, A.challengesC V e srs hm2 Q H,
                [(A.baseC (Oracle.trace A.query H Q)).1], [ka]))) :
    W.card * Ds.card ≤ 8 * (Q + k + k) * (Q + k + k + 1) * m * Ds.card ^ Xs.card := by
  have hinj1 : ∀ (z : StepAB n G1 G2 GT) c z' c', linkAB V e srs r hm1 z c = linkAB V e srs r hm1 z' c' → c = c' := by
    intro z c z' c' h
    have h := congrArg Subtype.val h
    simp only [linkAB, GipaStatic.link, Gipa.hashInput, List.append_assoc] at h
    obtain ⟨-, h⟩ := decodable_nonce _ _ _ _ (by norm_num) (by norm_num) h
    exact (hF _ _ _ _ trivial trivial h).1
  have hinj2 : ∀ (z : StepC n F G1 G1) c z' c', linkC V e srs hm2 z c = linkC V e srs hm2 z' c' → c = c' := by
    intro z c z' c' h
    have h := congrArg Subtype.val h
    simp only [linkC, SsmStatic.link, Gipa.hashInput, List.append_assoc] at h
    obtain ⟨-, h⟩ := decodable_nonce _ _ _ _ (by norm_num) (by norm_num) h
    exact (hF _ _ _ _ trivial trivial h).1
  have hm' : ∀ (x : F) (S : Finset Ds), (∀ d ∈ S, challengeOf F d = x) → S.card ≤ m := fun x S hS =>
    (Finset.card_le_card fun d hd => Finset.mem_filter.mpr ⟨Finset.mem_univ _, hS d hd⟩).trans (hm x)
  let pr : List F := List.ofFn fun i : Fin n => r ^ (i : ℕ)
  let s1 : GipaStatic.St (Fin n → F) (Fin n → F) (Fin n → G1) (Fin n → G2) GT :=
    (formalKey n, formalKey n, ra, rb, t)
  let s2 : SsmStatic.St F (Fin n → F) (Fin n → G1) G1 := (formalKey n, pr, rc, 0)
  let caught := Caught e (formal n) (formal n) (e.flip δ) (smulMap F G1) (formal n) (LinearMap.id : G1 →ₗ[F] G1)
  have hst : caught (s1, False) (s2, False) :=
    ⟨⟨by simp [s1, formalKey], binding_formal, binding_formal⟩, ⟨by simp [s2, pr, formalKey], binding_formal⟩,
      fun h => absurd h (by simp)⟩
  have hu : Function.Injective (e.flip δ) := by
    intro x y h
    exact sub_eq_zero.mp (hδ _ (by
      have h : e x δ = e y δ := h
      rw [map_sub, LinearMap.sub_apply, h, sub_self]))
  have c1 : Fintype.card Ds = Ds.card := Fintype.card_coe Ds
  have c2 : Fintype.card (Xs → Ds) = Ds.card ^ Xs.card := by
    rw [Fintype.card_fun, Fintype.card_coe, Fintype.card_coe]
  rw [← c2, ← c1]
  refine Nat.le_of_mul_le_mul_left (c := 2) ?_ (by norm_num)
  refine le_trans (Oracle.count_static2 A.query Q k A.stepsAB A.stepsC (linkAB V e srs r hm1)
    (linkC V e srs hm2) (challengeOf F) 0 A.labelAB (s1, False)
    (fun st z d => nextAB e (formal n) (formal n) st z (challengeOf F d)) A.labelC (s2, False)
    (fun st z d => nextC (smulMap F G1) (formal n) st ((z.1.1, id z.1.2.2), (z.2.1, id z.2.2.2)) (challengeOf F d))
    caught hinj1 hinj2 m (4 * m) hm' (fun t1 t2 z1 z2 b1 b2 hb ht S hS => caught_le hu Function.injective_id
      (challengeOf F) m hm' t1 t2 _ _ b1 b2 (fun h => ?_) ht S hS)
    hst k (fun ds => (hs1 ds).le) (fun ds => (hs2 ds).le) _ ?_) ?_
  · obtain ⟨z, c, z', c', h⟩ := hb h.1 h.2
    exact hsep z c z' c' h
  swap
  · rw [← Nat.mul_assoc 2]
    refine Nat.mul_le_mul_right _ ?_
    have : (Q + k + k) * (Q + k + k + 1) * (3 * (m + 4 * m)) = 15 * ((Q + k + k) * (Q + k + k + 1) * m) := by ring
    rw [this, show 2 * (8 * (Q + k + k) * (Q + k + k + 1) * m) = 16 * ((Q + k + k) * (Q + k + k + 1) * m) by ring]
    exact Nat.mul_le_mul_right _ (by norm_num)
  intro H hH
  rintro ⟨hdm, hne1, hne2⟩
  obtain ⟨hppe, run1, run2, hcol, dg, hdg, hnot⟩ := hW H hH hne1 hne2
  obtain ⟨⟨ops1, gA, gB, t1⟩, ops2, gC, r', f2, t2⟩ := runs_eqs hm1 hm2 hF hG hT k hn ra rb rc A Q hlab1 hlab2 hs1 hs2 H
    run1 run2 hcol
  have hopen := runs_open hm1 hm2 k hn ra rb rc t δ A Q hs1 hs2 H hppe gA gB t1 gC r' f2 t2
  obtain ⟨-, -, hflag⟩ := hdm
  simp only [follow_fst (linkAB V e srs r hm1) (challengeOf F) (fun st z d => GipaStatic.foldSt st z (challengeOf F d))
      (fun st z d => nextAB e (formal n) (formal n) st z (challengeOf F d)) (fun _ _ _ => rfl),
    follow_fst (linkC V e srs hm2) (challengeOf F)
      (fun st z d => SsmStatic.foldSt st ((z.1.1, id z.1.2.2), (z.2.1, id z.2.2.2)) (challengeOf F d))
      (fun st z d => nextC (smulMap F G1) (formal n) st ((z.1.1, id z.1.2.2), (z.2.1, id z.2.2.2)) (challengeOf F d))
      (fun _ _ _ => rfl)] at hflag
  obtain ⟨hf1, hf2⟩ := not_or.mp fun h => hflag h ⟨_, hopen⟩
  clear hflag hopen
  rw [Oracle.follow_eq] at hf1 hf2
  let in1 := A.ab.toProver.inputs V.pairingAB e e.flip (Shape.one GT).out (leftKey srs r n) (rightKey srs n) hm1 Q H
  let in2 := A.c.toProver.inputs V.multiexpSsm e (Shape.one G1).out (leftKey srs (1 : F) n) hm2 Q H
  let L1 := Oracle.firstLabel (A.all V e srs r hm1 hm2 Q k)
    (Oracle.labels (A.all V e srs r hm1 hm2 Q k) Q A.stepsAB (linkAB V e srs r hm1) A.labelAB) H (Q + k + k)
  let L2 := Oracle.firstLabel (A.all V e srs r hm1 hm2 Q k)
    (Oracle.labels (A.all V e srs r hm1 hm2 Q k) Q A.stepsC (linkC V e srs hm2) A.labelC) H (Q + k + k)
  let ps1 : List (StepAB n G1 G2 GT × F) := in1.map fun x => (L1 x, challengeOf F (H x))
  let ps2 : List (StepC n F G1 G1 × F) := in2.map fun x => (L2 x, challengeOf F (H x))
  let qs2 := ps2.map fun p => (SsmStatic.lift id p.1, p.2)
  have len1 : ps1.length = k := by
    rw [List.length_map]
    exact (Oracle.length_queries _ _ _ _ _).trans (hs1 _)
  have len2 : ps2.length = k := by
    rw [List.length_map]
    exact (Oracle.length_queries _ _ _ _ _).trans (hs2 _)
  have ne1 : ∀ p ∈ ps1, p.2 ≠ 0 := by
    intro p hp
    obtain ⟨x, hx, rfl⟩ := List.mem_map.mp hp
    exact hne1 x hx
  have ne2 : ∀ p ∈ qs2, p.2 ≠ 0 := by
    intro p hp
    obtain ⟨q, hq, rfl⟩ := List.mem_map.mp hp
    obtain ⟨x, hx, rfl⟩ := List.mem_map.mp hq
    exact hne2 x hx
  have cs1 : ps1.map (·.2) = A.challengesAB V e srs r hm1 Q H := by simp only [ps1, List.map_map]; rfl
  have cs2 : ps2.map (·.2) = A.challengesC V e srs hm2 Q H := by simp only [ps2, List.map_map]; rfl
  have cq2 : qs2.map (·.2) = A.challengesC V e srs hm2 Q H := by rw [← cs2]; simp only [qs2, List.map_map]; rfl
  have op1 : ∀ {γ : Type} (f : StepAB n G1 G2 GT → γ), (ps1.map fun p => f p.1) =
      (A.openingsAB V e srs r hm1 hm2 Q k H).map f := by
    intro γ f; simp only [ps1, Prover.openingsAB, List.map_map]; rfl
  have op2 : ∀ {γ : Type} (f : StepC n F G1 G1 → γ), (ps2.map fun p => f p.1) =
      (A.openingsC V e srs r hm1 hm2 Q k H).map f := by
    intro γ f; simp only [ps2, Prover.openingsC, List.map_map]; rfl
  have oq2 : ∀ {γ : Type} (f : _ → γ), (qs2.map fun p => f p.1) =
      (A.openingsC V e srs r hm1 hm2 Q k H).map fun z => f (SsmStatic.lift id z) := by
    intro γ f; rw [← op2]; simp only [qs2, List.map_map]; rfl
  have hpr : (List.ofFn fun i : Fin n => r ^ (i : ℕ)) = (List.range n).map (r ^ ·) := by
    apply List.ext_getElem <;> simp
  obtain ⟨hon1, fa, fb, hip⟩ := finishAB ps1 (by rw [len1]; exact hn) ne1 ra rb t (A.ipAB (Oracle.trace A.query H Q))
    (A.baseAB (Oracle.trace A.query H Q)).1 (A.baseAB (Oracle.trace A.query H Q)).2
    (by rw [cs1, op1 fun z => (z.1.1, z.2.1)]; exact gA) (by rw [cs1, op1 fun z => (z.1.2.1, z.2.2.1)]; exact gB)
    (by rw [cs1, op1 fun z => (z.1.2.2, z.2.2.2)]; exact t1)
    (by simp only [ps1]; rw [List.foldl_map]; exact hf1)
  obtain ⟨hon2, fc, hag⟩ := finishC qs2 (by rw [List.length_map, len2]; exact hn) ne2 rc r r' 0
    (A.aggC (Oracle.trace A.query H Q)) (A.baseC (Oracle.trace A.query H Q)).1
    (by rw [cq2, oq2 fun z => (z.1.1, z.2.1)]; exact gC) (by rw [cq2, hpr]; exact f2)
    (by rw [cq2, oq2 fun z => (z.1.2, z.2.2)]; exact t2)
    (by simp only [qs2, ps2]; rw [List.foldl_map, List.foldl_map]; exact hf2)
  refine hnot ⟨hip, hag, ?_, ?_⟩
  · obtain ⟨com1, hrec⟩ := recLoop_digest (P := V.pairingAB) (coms2 e e.flip (Shape.one GT).out (leftKey srs r n) (rightKey srs n))
      (linkAB V e srs r hm1) (fun _ _ => rfl) hd H dg hdg (A.stepsAB (Oracle.trace A.query H Q)) 0 []
      (commitTo e (leftKey srs r n) ra, commitTo e.flip (rightKey srs n) rb, single 0) rfl hne1
    have hsteps : (ps1.map fun p => coms2 e e.flip (Shape.one GT).out (leftKey srs r n) (rightKey srs n) p.1) =
        (A.stepsAB (Oracle.trace A.query H Q)).map (coms2 e e.flip (Shape.one GT).out (leftKey srs r n) (rightKey srs n)) :=
      (op1 _).trans ops1
    let qs1 := ps1.map fun p => (GipaStatic.lift single p.1, p.2)
    have L : V.pairingAB.Lawful e e e.flip idψ := pairingAB_lawful V hE
    have L' : (withDigest V.pairingAB dg).Lawful e e e.flip idψ :=
      ⟨L.ip_ok, L.lmc_ok, L.rmc_ok, L.ipc_ok, L.ψ_add, L.ψ_smul⟩
    have cq1 : qs1.map (·.2) = ps1.map (·.2) := by simp only [qs1, List.map_map]; rfl
    have cm1 : (qs1.map fun p => (GipaStatic.coms e e.flip id (leftKey srs r n) (rightKey srs n) p.1.1,
        GipaStatic.coms e e.flip id (leftKey srs r n) (rightKey srs n) p.1.2)) =
        (A.stepsAB (Oracle.trace A.query H Q)).map (coms2 e e.flip (Shape.one GT).out (leftKey srs r n) (rightKey srs n)) := by
      rw [← hsteps]; simp only [qs1, List.map_map]; rfl
    have hch : (withDigest V.pairingAB dg).chals
        (qs1.map fun p => (GipaStatic.coms e e.flip id (leftKey srs r n) (rightKey srs n) p.1.1,
          GipaStatic.coms e e.flip id (leftKey srs r n) (rightKey srs n) p.1.2)) [] = .ok ([] ++ qs1.map (·.2)) := by
      rw [cm1, cq1, cs1]
      rw [Gipa.recLoop_eq, bind_eq_ok] at hrec
      obtain ⟨tr, htr, h⟩ := hrec
      have e : tr = [] ++ A.challengesAB V e srs r hm1 Q H := (Prod.ext_iff.mp (Except.ok.inj h)).2
      rw [htr, e]
    have hlen : (formalKey (F := F) n).length = 2 ^ qs1.length := by simp [formalKey, qs1, len1, hn]
    obtain ⟨a, b, aux, f1, f2, hprove⟩ := GipaStatic.proveLoop_honest (va := leftKey srs r n) (vb := rightKey srs n)
      (η := fun o : IdentityOutput GT => o.vals.head?) (ψ' := LinearMap.id) L' PUnit.unit qs1 (formalKey n) (formalKey n) n
      ⟨List.ofFn ra, List.ofFn rb, List.ofFn (leftKey srs r n), List.ofFn (rightKey srs n), [], []⟩
      (by rw [List.length_map, len1, hn]; exact Nat.lt_two_pow_self.le)
      (by simp [qs1, len1, hn]) (by simp [qs1, len1, hn]) hlen hlen (map_formalKey _).symm (map_formalKey _).symm
      (honestAB_single _ _ _ _ _ hon1)
      (by
        intro p hp t
        obtain ⟨x, hx, rfl⟩ := List.mem_map.mp hp
        exact ⟨fun h => congrArg single (Option.some.inj h), fun h => congrArg single (Option.some.inj h)⟩) hch
    rw [cq1] at f1 f2
    have ea := List.singleton_injective (fa.symm.trans f1)
    have eb := List.singleton_injective (fb.symm.trans f2)
    refine ⟨aux, ?_⟩
    have hpow : isPow2 n = true := by rw [hn]; exact isPow2_two_pow k
    rw [Gipa.proveWithAux, List.length_ofFn, hpow]
    simp only [assert_true, ok_bind]
    rw [hprove, cm1, ← ea, ← eb]
    rfl
  · obtain ⟨com1, hrec⟩ := recLoop_digest (P := V.multiexpSsm) (SsmStatic.coms2 e (Shape.one G1).out (leftKey srs (1 : F) n))
      (linkC V e srs hm2) (fun _ _ => rfl) hd H dg hdg (A.stepsC (Oracle.trace A.query H Q)) 0 []
      (commitTo e (leftKey srs (1 : F) n) rc, 0, single 0) rfl hne2
    have hsteps : (ps2.map fun p => SsmStatic.coms2 e (Shape.one G1).out (leftKey srs (1 : F) n) p.1) =
        (A.c.toProver.proof e (Shape.one G1).out (leftKey srs (1 : F) n) Q H).steps.reverse := by
      refine ((op2 _).trans ops2).trans ?_
      rw [SsmStatic.Prover.proof, List.reverse_reverse]
      rfl
    have hch : (withDigest V.multiexpSsm dg).chals
        (ps2.map fun p => SsmStatic.coms2 e (Shape.one G1).out (leftKey srs (1 : F) n) p.1) [] = .ok ([] ++ ps2.map (·.2)) := by
      rw [(op2 _).trans ops2, cs2]
      rw [Gipa.recLoop_eq, bind_eq_ok] at hrec
      obtain ⟨tr, htr, h⟩ := hrec
      have e : tr = [] ++ A.challengesC V e srs hm2 Q H := (Prod.ext_iff.mp (Except.ok.inj h)).2
      rw [htr, e]
    have hlen : (formalKey (F := F) n).length = 2 ^ ps2.length := by simp [formalKey, len2, hn]
    have hpow : (List.ofFn fun i : Fin n => r ^ (i : ℕ)) = powers r n := hpr
    have htag := SsmStatic.taggedRun_honest (P := withDigest V.multiexpSsm dg) (bil := smulMap F G1) (φa := e)
      (va := leftKey srs (1 : F) n) (η := fun o : IdentityOutput G1 => o.vals.head?) (ψ' := LinearMap.id) (ψ := idψ) (Shape.one G1).out
      PUnit.unit (fun _ _ h => congrArg single (Option.some.inj h)) ps2 (formalKey n) (List.ofFn rc) (powers r n) []
      (by simp [len2, hn]) (by simp [len2, hn]) hlen (by
        rw [← hpow]
        have := honestC_single _ _ _ _ hon2
        simp only [qs2, List.map_map] at this
        exact this) hch
    have e0 : (ps2.map fun p => SsmStatic.tagsOf p.1) =
        Gipa.tags (A.c.toProver.proof e (Shape.one G1).out (leftKey srs (1 : F) n) Q H).steps.reverse := by
      rw [← hsteps, Gipa.tags]
      simp only [List.map_map]
      rfl
    rw [cs2, ← cq2, fc, cq2, foldAll_formalKey _ (by rw [List.length_map, ← cs2, List.length_map, len2, hn]), e0, hsteps,
      map_formalKey] at htag
    exact ⟨_, htag⟩


section Point
variable (V e srs r)
  (hp1 : ∀ t x ka kb, t < 2 ^ 64 → TipaStatic.pointInput V.tipa V.pairingAB t x ka kb ∈ Xs)
  (hp2 : ∀ t x ka, t < 2 ^ 64 → TipaSsmStatic.pointInput V.tipa V.multiexpSsm t x ka ∈ Xs)

/-- The opening point of the first argument, which is the first digest that decodes, is no trapdoor. -/
def Prover.AvoidsAB (A : Prover n F G1 G2 GT GT G1 Xs Ds) (α β : F) (Q N : ℕ) (hN : N ≤ 2 ^ 64) (H : Xs → Ds) : Prop :=
  ∀ t, ∀ ht : t < N, ∀ c,
    V.fromRandomBytes (H (A.ab.point V.tipa V.pairingAB e e.flip (Shape.one GT).out srs r hm1 hp1 Q t (ht.trans_le hN) H)) =
      some c →
    (∀ t', ∀ ht' : t' < t, V.fromRandomBytes
      (H (A.ab.point V.tipa V.pairingAB e e.flip (Shape.one GT).out srs r hm1 hp1 Q t' ((ht'.trans ht).trans_le hN) H)) = none) →
    c ≠ α ∧ c ≠ β

/-- The same for the second argument, which only has a left key. -/
def Prover.AvoidsC (A : Prover n F G1 G2 GT GT G1 Xs Ds) (β : F) (Q N : ℕ) (hN : N ≤ 2 ^ 64) (H : Xs → Ds) : Prop :=
  ∀ t, ∀ ht : t < N, ∀ c,
    V.fromRandomBytes (H (A.c.point V.tipa V.multiexpSsm e (Shape.one G1).out srs hm2 hp2 Q t (ht.trans_le hN) H)) = some c →
    (∀ t', ∀ ht' : t' < t, V.fromRandomBytes
      (H (A.c.point V.tipa V.multiexpSsm e (Shape.one G1).out srs hm2 hp2 Q t' ((ht'.trans ht).trans_le hN) H)) = none) → c ≠ β

variable {V e srs r}

open Classical in
/-- The count for a fixed challenge. -/
theorem count_unique_fixed (hE : V.E.Lawful e) (hF : Decodable (fun _ => True) V.serF)
    (hG1 : Decodable (fun _ => True) V.serG1) (hG2 : Decodable (fun _ => True) V.serG2)
    (hT : Decodable (fun _ => True) V.serGT) (hd : ∀ d ∈ Ds, 16 ≤ d.length) (m m' : ℕ)
    (hm : ∀ x : F, (Finset.univ.filter fun d : Ds => challengeOf F d = x).card ≤ m)
    (hm' : ∀ c, (Finset.univ.filter fun d : Ds => V.fromRandomBytes d = some c).card ≤ m') (k : ℕ)
    (hn : n = 2 ^ k) (g : G1) (h : G2) (α β : F) (hsrs : IsSrs srs g h α β n) (hg0 : g ≠ 0) (hh0 : h ≠ 0)
    (hg : ∀ y, e g y = 0 → y = 0) (hh : ∀ x, e x h = 0 → x = 0) (v : VerifierSRS G1 G2)
    (hv : srs.verifierKey = .ok v) (hr : r ≠ 0)
    (ra : Fin n → G1) (rb : Fin n → G2) (rc : Fin n → G1) (t : GT) (δ : G2) (hδ : ∀ x, e x δ = 0 → x = 0)
    (A : Prover n F G1 G2 GT GT G1 Xs Ds) (Q N : ℕ) (hN : N ≤ 2 ^ 64)
    (hlab1 : ∀ ds z c, A.query ds = linkAB V e srs r hm1 z c →
      coms2 e e.flip (Shape.one GT).out (leftKey srs r n) (rightKey srs n) (A.labelAB ds) =
        coms2 e e.flip (Shape.one GT).out (leftKey srs r n) (rightKey srs n) z)
    (hlab2 : ∀ ds z c, A.query ds = linkC V e srs hm2 z c →
      SsmStatic.coms2 e (Shape.one G1).out (leftKey srs (1 : F) n) (A.labelC ds) =
        SsmStatic.coms2 e (Shape.one G1).out (leftKey srs (1 : F) n) z)
    (hkeys1 : ∀ ds, ∀ t < 2 ^ 64, ∀ x ka kb,
      (A.query ds : Bytes) = TipaStatic.pointInput V.tipa V.pairingAB t x ka kb →
      TipaStatic.left srs (A.keysAB ds).1 = ka ∧ TipaStatic.right srs (A.keysAB ds).2 = kb)
    (hkeys2 : ∀ ds, ∀ t < 2 ^ 64, ∀ x ka,
      (A.query ds : Bytes) = TipaSsmStatic.pointInput V.tipa V.multiexpSsm t x ka →
      TipaStatic.left srs (A.keysC ds) = ka)
    (hsep : ∀ z c z' c', linkAB V e srs r hm1 z c ≠ linkC V e srs hm2 z' c')
    (hsep1 : ∀ t < 2 ^ 64, ∀ z x x' ka kb,
      (linkAB V e srs r hm1 z x : Bytes) ≠ TipaStatic.pointInput V.tipa V.pairingAB t x' ka kb)
    (hsep2 : ∀ t < 2 ^ 64, ∀ z x x' ka,
      (linkC V e srs hm2 z x : Bytes) ≠ TipaSsmStatic.pointInput V.tipa V.multiexpSsm t x' ka)
    (hs1 : ∀ ds, (A.stepsAB ds).length = k) (hs2 : ∀ ds, (A.stepsC ds).length = k) (W : Finset (Xs → Ds))
    (hW : ∀ H ∈ W, A.ipAB (Oracle.trace A.query H Q) = t + e (A.aggC (Oracle.trace A.query H Q)) δ ∧
      (∃ dg : Bytes → Bytes, (∀ x : Xs, dg x = H x) ∧
        Tipa.verifyWithShift V.tipa (withDigest V.pairingAB dg) v PUnit.unit
          (commitTo e (leftKey srs r n) ra, commitTo e.flip (rightKey srs n) rb,
            single (A.ipAB (Oracle.trace A.query H Q))) (A.ab.tipaProof e e.flip (Shape.one GT).out srs r Q H) r = .ok true ∧
        TipaSsm.verify V.X V.tipa (withDigest V.multiexpSsm dg) v PUnit.unit (commitTo e (leftKey srs (1 : F) n) rc)
          (single (A.aggC (Oracle.trace A.query H Q))) r (A.c.tipaProof e (Shape.one G1).out srs Q H) = .ok true ∧
        ¬ (A.ipAB (Oracle.trace A.query H Q) = ∑ i, e (ra i) (rb i) ∧
          A.aggC (Oracle.trace A.query H Q) = ∑ i : Fin n, r ^ (i : ℕ) • rc i ∧
          Tipa.proveWithShift V.tipa (withDigest V.pairingAB dg) srs (List.ofFn ra) (List.ofFn rb)
            (List.ofFn (leftKey srs r n)) (List.ofFn (rightKey srs n)) PUnit.unit r =
              .ok (A.ab.tipaProof e e.flip (Shape.one GT).out srs r Q H) ∧
          TipaSsm.proveTagged V.tipa (withDigest V.multiexpSsm dg) (smulMap F G1) e idψ srs (List.ofFn rc) (powers r n)
            (List.ofFn (leftKey srs (1 : F) n)) PUnit.unit (TipaSsm.free (A.c.tipaProof e (Shape.one G1).out srs Q H)).1
            (TipaSsm.free (A.c.tipaProof e (Shape.one G1).out srs Q H)).2 = .ok (A.c.tipaProof e (Shape.one G1).out srs Q H))) ∧
      ¬ A.Collides V e srs r hm1 hm2 ra rb rc Q k H ∧
      A.OpenedAB V e srs r hm1 hp1 α β Q k N hN H ∧ A.OpenedC V e srs hm2 hp2 α β Q k N hN H ∧
      A.AvoidsAB V e srs r hm1 hp1 α β Q N hN H ∧ A.AvoidsC V e srs hm2 hp2 β Q N hN H) :
    W.card * Ds.card ≤ errorTerm Q k n N m m' * Ds.card ^ Xs.card := by
  have hn1 : 1 ≤ n := by rw [hn]; exact Nat.one_le_two_pow
  refine TipaStatic.count_split (P := V.pairingAB) (V := V.tipa) hm1 hp1 hF hG2 hG1 m m' hm hm' k hn A.ab Q N hN hkeys1
    hsep1 hs1 W _ fun W1 hW1 hgood1 => ?_
  refine TipaSsmStatic.count_split (P := V.multiexpSsm) (V := V.tipa) hm2 hp2 hF hG2 m m' hm hm' k hn A.c Q N hN hkeys2
    hsep2 hs2 W1 _ fun W2 hW2 hgood2 => ?_
  refine count_honest hm1 hm2 hE hF hG1 hT hd m hm k hn ra rb rc t δ hδ A Q hlab1 hlab2 hsep hs1 hs2 W2
    fun H hH hne1 hne2 => ?_
  obtain ⟨hppe, ⟨dg, hdg, hab, hc, hnot⟩, hcol, ⟨t1, ht1, c1, hc1, hf1, lA, lB⟩, ⟨t2, ht2, c2, hc2, hf2, lC⟩, av1, av2⟩ :=
    hW H (hW1 (hW2 hH))
  obtain ⟨hα1, hβ1⟩ := av1 t1 ht1 c1 hc1 hf1
  have hβ2 := av2 t2 ht2 c2 hc2 hf2
  have L := pairingAB_lawful V hE
  have L' : (withDigest V.pairingAB dg).Lawful e e e.flip idψ :=
    ⟨L.ip_ok, L.lmc_ok, L.rmc_ok, L.ipc_ok, L.ψ_add, L.ψ_smul⟩
  have L2 := multiexpSsm_lawful V hE
  have L2' : (withDigest V.multiexpSsm dg).Lawful (smulMap F G1) e 0 idψ :=
    ⟨L2.ip_ok, L2.lmc_ok, L2.rmc_ok, L2.ipc_ok, L2.ψ_add, L2.ψ_smul⟩
  have hv' := hv
  rw [(C25_keys srs g h α β _ hn1 hsrs).2.2] at hv'
  cases hv'
  obtain ⟨com2, hrec2, hkzg2, f3, hrun2⟩ := TipaSsmStatic.accepted_data hm2 hp2 L2 hE V.X PUnit.unit hd k hn g h α β
    (hsrs.left hn1) hh0 hg _ hv _ _ r A.c Q hs2 H dg hdg hc t2 (ht2.trans_le hN) c2 hc2 hf2 lC (hgood2 H hH t2 ht2)
  refine ⟨hppe, ?_, ?_, hcol, dg, hdg, ?_⟩
  · have hacc := TipaStatic.accepted_gipa hm1 hp1 L hE PUnit.unit hd k hn g h α β hsrs hg0 hh0 hg hh _ hv hr
      _ A.ab Q hs1 H dg hdg hab t1 (ht1.trans_le hN) c1 hc1 hf1 lA lB (hgood1 H (hW2 hH) t1 ht1)
    obtain ⟨com1, hrec⟩ := recLoop_digest (P := V.pairingAB)
      (coms2 e e.flip (Shape.one GT).out (leftKey srs r n) (rightKey srs n))
      (linkAB V e srs r hm1) (fun _ _ => by rw [linkAB, GipaStatic.link]; rfl) hd H dg hdg
      (A.stepsAB (Oracle.trace A.query H Q)) 0 []
      (commitTo e (leftKey srs r n) ra, commitTo e.flip (rightKey srs n) rb,
        single (A.ipAB (Oracle.trace A.query H Q))) rfl hne1
    have hlen : (A.ab.toProver.proof e e.flip (Shape.one GT).out (leftKey srs r n) (rightKey srs n) Q H).steps.length =
        k := by
      rw [GipaStatic.Prover.proof, List.length_reverse, List.length_map]
      exact hs1 _
    obtain ⟨cs, com2, hrc, hrun⟩ := (C67_verify_iff L' _ _ PUnit.unit _ _
      (by rw [hlen, List.length_ofFn, hn]) (by rw [hlen, List.length_ofFn, hn])).mp hacc
    have hcs : cs = A.challengesAB V e srs r hm1 Q H := by
      rw [Gipa.recursiveChallenges, GipaStatic.Prover.proof, List.reverse_reverse] at hrc
      replace hrec : (withDigest V.pairingAB dg).recLoop
          ((A.ab.steps (Oracle.trace A.ab.query H Q)).map fun z =>
            (GipaStatic.coms e e.flip (Shape.one GT).out (leftKey srs r n) (rightKey srs n) z.1,
              GipaStatic.coms e e.flip (Shape.one GT).out (leftKey srs r n) (rightKey srs n) z.2)) _ [] = _ := hrec
      rw [hrec] at hrc
      have := congrArg Prod.snd (Except.ok.inj hrc)
      exact (List.reverse_injective this).symm
    subst hcs
    rw [GipaStatic.Prover.proof, List.reverse_reverse] at hrun
    exact hrun
  · rw [SsmStatic.Prover.proof, List.reverse_reverse, ← hn] at hrun2
    exact hrun2
  · rintro ⟨q1, q2, ⟨aux, hgipa⟩, ka, htag⟩
    refine hnot ⟨q1, q2, ?_, ?_⟩
    · obtain ⟨com1, tr, hrec, hkzg, f1, f2⟩ := TipaStatic.accepted_keys hm1 hp1 L hE PUnit.unit hd k hn g h α β hsrs hg0
        hh0 hg hh _ hv hr _ A.ab Q hs1 H dg hdg hab t1 (ht1.trans_le hN) c1 hc1 hf1 lA lB (hgood1 H (hW2 hH) t1 ht1)
      rw [TipaStatic.ofFn_leftKey hn1 hsrs, TipaStatic.ofFn_rightKey hn1 hsrs] at hgipa ⊢
      rw [TipaStatic.ofFn_leftKey hn1 hsrs] at f1
      rw [TipaStatic.ofFn_rightKey hn1 hsrs] at f2
      exact TipaStatic.honest_of_gipa L' hE PUnit.unit k g h α β (hn ▸ hsrs) hg hh hr _ com1 _ _ (by simp [hn])
        (by simp [hn]) _ aux tr c1 hab hgipa hrec hkzg f1 f2 hα1 hβ1
    · rw [TipaSsmStatic.ofFn_leftKey hn1 (hsrs.left hn1)] at htag f3 ⊢
      exact TipaSsmStatic.tagged_of_run L2' hE V.X PUnit.unit k g h α β (hn ▸ hsrs.left hn1) hg _ _ r com2 _ _
        (A.c.tipaProof e (Shape.one G1).out srs Q H) _ ka c2
        (by simp [TipaSsmStatic.Prover.tipaProof, SsmStatic.Prover.proof]; exact hs2 _) hc htag hrec2 hkzg2 f3 hβ2

end Point

section Theorem
variable (hm1 : ∀ (r : F) k z1 z2, V.pairingAB.hashInput 0 k
    (GipaStatic.coms e e.flip (Shape.one GT).out (leftKey srs r n) (rightKey srs n) z1)
    (GipaStatic.coms e e.flip (Shape.one GT).out (leftKey srs r n) (rightKey srs n) z2) ∈ Xs)
  (hp1 : ∀ t x ka kb, t < 2 ^ 64 → TipaStatic.pointInput V.tipa V.pairingAB t x ka kb ∈ Xs)
  (hp2 : ∀ t x ka, t < 2 ^ 64 → TipaSsmStatic.pointInput V.tipa V.multiexpSsm t x ka ∈ Xs)

open Classical in
/-- C132: fix a reference string for `n = 2^k` proofs, a verifying key, inputs, and commitments to proofs. For a prover
as in C108 it holds, except for a small share of all `(u, H)`: if the verifier accepts and finds its challenges in `N`
attempts, and the prover has found no collision of the keys, no non-zero polynomial of which the trapdoors are a zero,
and no opening point that is a trapdoor, then the two aggregated values are the right ones for the committed proofs, the
argument for the first is the one `TIPA::prove_with_srs_shift` returns, and the argument for the second is the one of the
prover of C128 with the free elements in it. Here `δ` of the verifying key must be no zero of the pairing, and the two
arguments must not share hash inputs. -/
theorem C132_unique (hE : V.E.Lawful e) (hF : Decodable (fun _ => True) V.serF)
    (hG1 : Decodable (fun _ => True) V.serG1) (hG2 : Decodable (fun _ => True) V.serG2)
    (hT : Decodable (fun _ => True) V.serGT) (hd : ∀ d ∈ Ds, 16 ≤ d.length) (m m' : ℕ)
    (hm : ∀ x : F, (Finset.univ.filter fun d : Ds => challengeOf F d = x).card ≤ m)
    (hm' : ∀ c, (Finset.univ.filter fun d : Ds => V.fromRandomBytes d = some c).card ≤ m') (k : ℕ)
    (hn : n = 2 ^ k) (g : G1) (h : G2) (α β : F) (hsrs : IsSrs srs g h α β n) (hg0 : g ≠ 0) (hh0 : h ≠ 0)
    (hg : ∀ y, e g y = 0 → y = 0) (hh : ∀ x, e x h = 0 → x = 0) (v : VerifierSRS G1 G2)
    (hv : srs.verifierKey = .ok v) (vk : G16VK G1 G2) (hδ : ∀ x, e x vk.delta = 0 → x = 0) (inputs : List (List F))
    (hin : inputs.length = n) (hrow : ∀ row ∈ inputs, row.length + 1 = vk.gammaAbc.length) (ps : Fin n → G16Proof G1 G2)
    (comA comB comC : GT)
    (hA : comA = commitTo e (leftKey srs (1 : F) n) fun i => (ps i).a)
    (hB : comB = commitTo e.flip (rightKey srs n) fun i => (ps i).b)
    (hC : comC = commitTo e (leftKey srs (1 : F) n) fun i => (ps i).c)
    (Q N : ℕ) (hN : N ≤ 2 ^ 64) (A : (Fin N → Ds) → Prover n F G1 G2 GT GT G1 Xs Ds)
    (hlab1 : ∀ u r, Draws V u r → ∀ ds z c, (A u).query ds = linkAB V e srs r (hm1 r) z c →
      coms2 e e.flip (Shape.one GT).out (leftKey srs r n) (rightKey srs n) ((A u).labelAB ds) =
        coms2 e e.flip (Shape.one GT).out (leftKey srs r n) (rightKey srs n) z)
    (hlab2 : ∀ u ds z c, (A u).query ds = linkC V e srs hm2 z c →
      SsmStatic.coms2 e (Shape.one G1).out (leftKey srs (1 : F) n) ((A u).labelC ds) =
        SsmStatic.coms2 e (Shape.one G1).out (leftKey srs (1 : F) n) z)
    (hkeys1 : ∀ u ds, ∀ t < 2 ^ 64, ∀ x ka kb,
      ((A u).query ds : Bytes) = TipaStatic.pointInput V.tipa V.pairingAB t x ka kb →
      TipaStatic.left srs ((A u).keysAB ds).1 = ka ∧ TipaStatic.right srs ((A u).keysAB ds).2 = kb)
    (hkeys2 : ∀ u ds, ∀ t < 2 ^ 64, ∀ x ka,
      ((A u).query ds : Bytes) = TipaSsmStatic.pointInput V.tipa V.multiexpSsm t x ka →
      TipaStatic.left srs ((A u).keysC ds) = ka)
    (hsep : ∀ r z c z' c', linkAB V e srs r (hm1 r) z c ≠ linkC V e srs hm2 z' c')
    (hsep1 : ∀ r, ∀ t < 2 ^ 64, ∀ z x x' ka kb,
      (linkAB V e srs r (hm1 r) z x : Bytes) ≠ TipaStatic.pointInput V.tipa V.pairingAB t x' ka kb)
    (hsep2 : ∀ t < 2 ^ 64, ∀ z x x' ka,
      (linkC V e srs hm2 z x : Bytes) ≠ TipaSsmStatic.pointInput V.tipa V.multiexpSsm t x' ka)
    (hs1 : ∀ u ds, ((A u).stepsAB ds).length = k) (hs2 : ∀ u ds, ((A u).stepsC ds).length = k)
    (W : Finset ((Fin N → Ds) × (Xs → Ds)))
    (hW : ∀ uH ∈ W, ∃ r, Draws V uH.1 r ∧
      (∃ (dg : Bytes → Bytes) (π : AggProof F G1 G2 GT), π = (A uH.1).aggProof (.one GT) (.one G1) e srs r comA comB comC Q uH.2 ∧
        (∀ t : Fin N, dg (challengeInput V comA comB comC t) = uH.1 t) ∧ (∀ x : Xs, dg x = uH.2 x) ∧
        Groth16.verify { V with digest := dg } v vk inputs π = .ok true ∧
        ¬ (π.ipAB = ∑ i : Fin n, r ^ (i : ℕ) • e (ps i).a (ps i).b ∧ π.aggC = ∑ i : Fin n, r ^ (i : ℕ) • (ps i).c ∧
          Tipa.proveWithShift V.tipa (withDigest V.pairingAB dg) srs (List.ofFn fun i => r ^ (i : ℕ) • (ps i).a)
            (List.ofFn fun i => (ps i).b) (List.ofFn (leftKey srs r n)) (List.ofFn (rightKey srs n)) PUnit.unit r =
              .ok π.proofAB ∧
          TipaSsm.proveTagged V.tipa (withDigest V.multiexpSsm dg) (smulMap F G1) e idψ srs
            (List.ofFn fun i => (ps i).c) (powers r n) (List.ofFn (leftKey srs (1 : F) n)) PUnit.unit
            (TipaSsm.free π.proofC).1 (TipaSsm.free π.proofC).2 = .ok π.proofC)) ∧
      ¬ (A uH.1).Collides V e srs r (hm1 r) hm2 (fun i => r ^ (i : ℕ) • (ps i).a) (fun i => (ps i).b)
        (fun i => (ps i).c) Q k uH.2 ∧
      (A uH.1).OpenedAB V e srs r (hm1 r) hp1 α β Q k N hN uH.2 ∧
      (A uH.1).OpenedC V e srs hm2 hp2 α β Q k N hN uH.2 ∧
      (A uH.1).AvoidsAB V e srs r (hm1 r) hp1 α β Q N hN uH.2 ∧
      (A uH.1).AvoidsC V e srs hm2 hp2 β Q N hN uH.2) :
    W.card * Ds.card ≤ errorTerm Q k n N m m' * (Ds.card ^ N * Ds.card ^ Xs.card) := by
  have c1 : Fintype.card (Fin N → Ds) = Ds.card ^ N := by
    rw [Fintype.card_fun, Fintype.card_fin, Fintype.card_coe]
  have c2 : Fintype.card (Xs → Ds) = Ds.card ^ Xs.card := by
    rw [Fintype.card_fun, Fintype.card_coe, Fintype.card_coe]
  have hne : inputs ≠ [] := by
    rintro rfl
    have := Nat.one_le_two_pow (n := k)
    rw [← hn, ← hin] at this
    simp at this
  rw [← c1]
  refine (count_pairs _ ∅ Ds.card 0 (errorTerm Q k n N m m') _ (by simp) c2 fun u _ => ?_).trans (by rw [zero_add])
  by_cases hdr : ∃ r, Draws V u r ∧ r ≠ 0 ∧ r ≠ 1
  swap
  · refine le_trans (le_of_eq ?_) (Nat.zero_le _)
    rw [Finset.card_eq_zero.mpr, zero_mul]
    refine Finset.eq_empty_of_forall_notMem fun H hH => hdr ?_
    obtain ⟨r, hr, ⟨dg, π, rfl, hdg1, hdg2, hacc, -⟩, -⟩ := hW _ (Finset.mem_filter.mp hH).2
    obtain ⟨r', b1, b2, b3, hch, hppe, hb⟩ := Groth16.verify_ok v vk inputs _ { V with digest := dg } true hacc
    have hr' := hr.eq_challenge hN _ _ _ dg hdg1 hch.hc
    subst hr'
    exact ⟨r', hr, hch.ne_zero, (Groth16.verifyPpe_shape (V := { V with digest := dg }) hE vk inputs r' _ _ _ hppe).1⟩
  obtain ⟨r, hr, hr0, hr1⟩ := hdr
  refine count_unique_fixed (r := r) (hm1 r) hm2 hp1 hp2 hE hF hG1 hG2 hT hd m m' hm hm' k hn g h α β hsrs hg0 hh0 hg hh v
    hv hr0 (fun i => r ^ (i : ℕ) • (ps i).a) (fun i => (ps i).b) (fun i => (ps i).c)
    ((powers r inputs.length).sum • e vk.alpha vk.beta
      + e (dot (fun (x : F) (row : List F) => x • dot (fun s g => s • g) (1 :: row) vk.gammaAbc)
          (powers r inputs.length) inputs) vk.gamma) vk.delta hδ (A u) Q N hN (hlab1 u r hr) (hlab2 u) (hkeys1 u)
    (hkeys2 u) (hsep r) (hsep1 r) hsep2 (hs1 u) (hs2 u) _ fun H hH => ?_
  obtain ⟨r', hr', ⟨dg, π, rfl, hdg1, hdg2, hacc, hnot⟩, hcol, o1, o2, a1, a2⟩ := hW _ (Finset.mem_filter.mp hH).2
  obtain rfl := hr'.unique hr
  obtain ⟨r2, b1, b2, b3, ⟨hch, hab, hc⟩, hppe, hb⟩ :=
    Groth16.verify_ok v vk inputs _ { V with digest := dg } true hacc
  have hr2 := hr.eq_challenge hN _ _ _ dg hdg1 hch
  subst hr2
  obtain ⟨rfl, rfl, rfl⟩ : b1 = true ∧ b2 = true ∧ b3 = true := by
    revert hb; cases b1 <;> cases b2 <;> cases b3 <;> simp
  refine ⟨?_, ⟨dg, hdg2, ?_, ?_, fun q => hnot ⟨?_, q.2⟩⟩, hcol, o1, o2, a1, a2⟩
  · rw [Groth16.verifyPpe_iff (V := { V with digest := dg }) hE vk inputs hne hrow r2 hr1] at hppe
    exact of_decide_eq_true (Except.ok.inj hppe)
  · rw [commit_shift hr0, ← hA, ← hB]
    exact hab
  · rw [← hC]
    exact hc
  · refine q.1.trans ?_
    simp

end Theorem

/-- If `aggregate_proofs` returns a proof for the committed proofs, then one with the properties in C132 agrees with it in
everything but the argument about `C`, and in that as well if it has the placeholders of the honest prover. -/
theorem C132_honest (hE : V.E.Lawful e) (k : ℕ) (hn : n = 2 ^ k) (g : G1) (h : G2) (α β : F)
    (hsrs : IsSrs srs g h α β n) (ps : Fin n → G16Proof G1 G2) (hr : r ≠ 0) (π π' : AggProof F G1 G2 GT)
    (hA : π.comA = commitTo e (leftKey srs (1 : F) n) fun i => (ps i).a)
    (hB : π.comB = commitTo e.flip (rightKey srs n) fun i => (ps i).b)
    (hC : π.comC = commitTo e (leftKey srs (1 : F) n) fun i => (ps i).c)
    (hc : Groth16.challenge V π.comA π.comB π.comC = .ok r)
    (hagg : Groth16.aggregate V srs (List.ofFn ps) = .ok π')
    (h1 : π.ipAB = ∑ i : Fin n, r ^ (i : ℕ) • e (ps i).a (ps i).b) (h2 : π.aggC = ∑ i : Fin n, r ^ (i : ℕ) • (ps i).c)
    (h3 : Tipa.proveWithShift V.tipa V.pairingAB srs (List.ofFn fun i => r ^ (i : ℕ) • (ps i).a)
      (List.ofFn fun i => (ps i).b) (List.ofFn (leftKey srs r n)) (List.ofFn (rightKey srs n)) PUnit.unit r =
        .ok π.proofAB)
    (h4 : TipaSsm.proveTagged V.tipa V.multiexpSsm (smulMap F G1) e idψ srs (List.ofFn fun i => (ps i).c) (powers r n)
      (List.ofFn (leftKey srs (1 : F) n)) PUnit.unit (TipaSsm.free π.proofC).1 (TipaSsm.free π.proofC).2 =
        .ok π.proofC) :
    { π with proofC := π'.proofC } = π' ∧
      (π.proofC.gipa.steps.length = k → (∀ s ∈ π.proofC.gipa.steps, s.1.2.1 = 0 ∧ s.2.2.1 = 0) →
        π.proofC.gipa.base.2 = π'.proofC.gipa.base.2 → π = π') := by
  have hn1 : 1 ≤ n := by rw [hn]; exact Nat.one_le_two_pow
  obtain ⟨e1, e2, -⟩ := C25_keys srs g h α β _ hn1 hsrs
  have l1 : srs.commitmentKeys.1.length = n := by simp [e1]
  have l2 : srs.commitmentKeys.2.length = n := by simp [e2]
  have k1 := TipaSsmStatic.ofFn_leftKey hn1 (hsrs.left hn1)
  have k2 := TipaStatic.ofFn_rightKey hn1 hsrs
  have kr := TipaStatic.ofFn_leftKey (r := r) hn1 hsrs
  have mA : (List.ofFn ps).map (·.a) = List.ofFn fun i => (ps i).a := by rw [List.map_ofFn]; rfl
  have mB : (List.ofFn ps).map (·.b) = List.ofFn fun i => (ps i).b := by rw [List.map_ofFn]; rfl
  have mC : (List.ofFn ps).map (·.c) = List.ofFn fun i => (ps i).c := by rw [List.map_ofFn]; rfl
  have dA : dot (e · ·) ((List.ofFn ps).map (·.a)) srs.commitmentKeys.1 = π.comA := by
    rw [hA, mA, ← k1, dot_ofFn]; rfl
  have dB : dot (e · ·) srs.commitmentKeys.2 ((List.ofFn ps).map (·.b)) = π.comB := by
    rw [hB, mB, ← k2, dot_ofFn]; rfl
  have dC : dot (e · ·) ((List.ofFn ps).map (·.c)) srs.commitmentKeys.1 = π.comC := by
    rw [hC, mC, ← k1, dot_ofFn]; rfl
  have hz : List.zipWith (fun a r => r • a) ((List.ofFn ps).map (·.a)) (powers r n) =
      List.ofFn fun i : Fin n => r ^ (i : ℕ) • (ps i).a := by
    rw [mA]
    apply List.ext_getElem <;> simp [powers]
  rw [Groth16.aggregate_eq hE srs _ n hn1 (by simp) l1 l2 r hr (by rw [dA, dB, dC]; exact hc), dA, dB, dC, hz, mB, mC,
    ← kr, ← k2, h3, ← k1, dot_range_ofFn, dot_range_ofFn, ← h1, ← h2, ok_bind, bind_eq_ok] at hagg
  obtain ⟨pC, hpC, hagg⟩ := hagg
  have hagg := Except.ok.inj hagg
  have q1 : { π with proofC := π'.proofC } = π' := by rw [← hagg]
  refine ⟨q1, fun hk hz hb => ?_⟩
  have hp : π'.proofC = pC := by rw [← hagg]
  have := TipaSsmStatic.C130_honest (multiexpSsm_lawful V hE) k _ _ _ PUnit.unit (by simp [hn]) (by simp [hn])
    (by simp [hn]) π.proofC pC hpC h4 hk hz (by rw [← hp]; exact hb)
  rw [← q1, hp, ← this]

end Static

/-! ## An instance: two proofs over the field with 101 elements -/

section Example
open Toy
open TipaStatic (leftKey rightKey exampleSrs exampleSrs_isSrs exampleDigests_point)
open GipaStatic (exampleDigests exampleDigests_key card_exampleDigests decodable_ser ser_inj)

/-- Valid proofs for the inputs 1 and 2. -/
def validPs : Fin 2 → G16Proof Toy.F Toy.F := ![⟨5, 7, 24⟩, ⟨5, 7, 20⟩]

open Classical in
/-- With the commitments `5 + 5 * 25 = 29`, `7 + 7 * 9 = 70` and `24 + 20 * 25 = 19` to these proofs. The provers of the
second example after C108 are such provers. -/
example (Q : ℕ) (A : (Fin 1 → exampleDigests) → Prover 2 Toy.F Toy.F Toy.F Toy.F Toy.F Toy.F exampleInputs exampleDigests)
    (hlab1 : ∀ u r, Draws exampleEnv u r → ∀ ds z c,
      (A u).query ds = linkAB exampleEnv Toy.e exampleSrs r (example_hm1 r) z c →
      exampleAB r ((A u).labelAB ds) = exampleAB r z)
    (hlab2 : ∀ u ds z c, (A u).query ds = linkC exampleEnv Toy.e exampleSrs example_hm2 z c →
      exampleC ((A u).labelC ds) = exampleC z)
    (hkeys1 : ∀ u ds, ∀ t < 2 ^ 64, ∀ x ka kb,
      ((A u).query ds : Bytes) = TipaStatic.pointInput exampleEnv.tipa exampleEnv.pairingAB t x ka kb →
      TipaStatic.left exampleSrs ((A u).keysAB ds).1 = ka ∧ TipaStatic.right exampleSrs ((A u).keysAB ds).2 = kb)
    (hkeys2 : ∀ u ds, ∀ t < 2 ^ 64, ∀ x ka,
      ((A u).query ds : Bytes) = TipaSsmStatic.pointInput exampleEnv.tipa exampleEnv.multiexpSsm t x ka →
      TipaStatic.left exampleSrs ((A u).keysC ds) = ka)
    (hs1 : ∀ u ds, ((A u).stepsAB ds).length = 1) (hs2 : ∀ u ds, ((A u).stepsC ds).length = 1)
    (W : Finset ((Fin 1 → exampleDigests) × (exampleInputs → exampleDigests)))
    (hW : ∀ uH ∈ W, ∃ r, Draws exampleEnv uH.1 r ∧
      (∃ (dg : Bytes → Bytes) (π : AggProof Toy.F Toy.F Toy.F Toy.F),
        π = (A uH.1).aggProof exampleShape exampleShape Toy.e exampleSrs r 29 70 19 Q uH.2 ∧
        (∀ t : Fin 1, dg (challengeInput exampleEnv 29 70 19 t) = uH.1 t) ∧ (∀ x : exampleInputs, dg x = uH.2 x) ∧
        Groth16.verify { exampleEnv with digest := dg } ⟨1, 1, 5, 3⟩ Groth16.toyVK [[1], [2]] π = .ok true ∧
        (π.ipAB ≠ 35 + r * 35 ∨ π.aggC ≠ 24 + r * 20 ∨
          Tipa.proveWithShift exampleEnv.tipa (withDigest exampleEnv.pairingAB dg) exampleSrs [5, r * 5] [7, 7]
            [1, r⁻¹ * 25] [1, 9] PUnit.unit r ≠ .ok π.proofAB ∨
          TipaSsm.proveTagged exampleEnv.tipa (withDigest exampleEnv.multiexpSsm dg) (smulMap Toy.F Toy.F) Toy.e idψ
            exampleSrs [24, 20] [1, r] [1, 25] PUnit.unit (TipaSsm.free π.proofC).1 (TipaSsm.free π.proofC).2 ≠
              .ok π.proofC)) ∧
      ¬ (A uH.1).Collides exampleEnv Toy.e exampleSrs r (example_hm1 r) example_hm2
        (fun i => r ^ (i : ℕ) • (validPs i).a) (fun i => (validPs i).b) (fun i => (validPs i).c) Q 1 uH.2 ∧
      (A uH.1).OpenedAB exampleEnv Toy.e exampleSrs r (example_hm1 r) example_hp1 3 5 Q 1 1 one_attempt uH.2 ∧
      (A uH.1).OpenedC exampleEnv Toy.e exampleSrs example_hm2 example_hp2 3 5 Q 1 1 one_attempt uH.2 ∧
      (A uH.1).AvoidsAB exampleEnv Toy.e exampleSrs r (example_hm1 r) example_hp1 3 5 Q 1 one_attempt uH.2 ∧
      (A uH.1).AvoidsC exampleEnv Toy.e exampleSrs example_hm2 example_hp2 5 Q 1 one_attempt uH.2) :
    W.card * 101 ≤ errorTerm Q 1 2 1 1 1 * (101 ^ 1 * 101 ^ exampleInputs.card) := by
  have := C132_unique (V := exampleEnv) (e := Toy.e) (srs := exampleSrs) (Xs := exampleInputs) (Ds := exampleDigests)
    example_hm2 example_hm1 example_hp1 example_hp2 Toy.lawful decodable_ser decodable_ser decodable_ser
    decodable_serGT
    (by
      intro d hd
      obtain ⟨x, -, rfl⟩ := Finset.mem_image.mp hd
      simp [Toy.ser]) 1 1
    (fun x => Finset.card_le_one.mpr fun d hd d' hd' => exampleDigests_key d d'
      ((Finset.mem_filter.mp hd).2.trans (Finset.mem_filter.mp hd').2.symm))
    (fun x => Finset.card_le_one.mpr fun d hd d' hd' => exampleDigests_point d d' x
      (Finset.mem_filter.mp hd).2 (Finset.mem_filter.mp hd').2) 1 rfl 1 1 3 5 exampleSrs_isSrs (by decide)
    (by decide) (fun y h => by simpa using h) (fun y h => by simpa using h) ⟨1, 1, 5, 3⟩ rfl Groth16.toyVK
    (fun x h => by simpa [Groth16.toyVK] using h) [[1], [2]] rfl
    (by simp [Groth16.toyVK]) validPs 29 70 19 (by decide +kernel) (by decide +kernel) (by decide +kernel) Q 1
    one_attempt A hlab1 hlab2 hkeys1 hkeys2
    (fun r z c z' c' h => absurd ((length_linkAB r z c).symm.trans
      ((congrArg (fun x : exampleInputs => (x : Bytes).length) h).trans (length_linkC z' c'))) (by norm_num))
    (fun r t _ z x x' ka kb h => absurd ((length_linkAB r z x).symm.trans
      ((congrArg List.length h).trans (length_pointAB t x' ka kb))) (by norm_num))
    (fun t _ z x x' ka h => absurd ((length_linkC z x).symm.trans
      ((congrArg List.length h).trans (length_pointC t x' ka))) (by norm_num)) hs1 hs2 W ?_
  · rwa [card_exampleDigests] at this
  intro uH huH
  obtain ⟨r, hr, ⟨dg, π, hπ, h1, h2, hacc, hbad⟩, hrest⟩ := hW uH huH
  refine ⟨r, hr, ⟨dg, π, hπ, h1, h2, hacc, ?_⟩, hrest⟩
  rintro ⟨q1, q2, q3, q4⟩
  have e1 : List.ofFn (leftKey exampleSrs r 2) = [1, r⁻¹ * 25] := by
    simp [leftKey, exampleSrs]
  have e2 : List.ofFn (rightKey exampleSrs 2) = [1, 9] := by decide +kernel
  have e3 : List.ofFn (leftKey exampleSrs (1 : Toy.F) 2) = [1, 25] := by decide +kernel
  have e4 : powers r 2 = [1, r] := by simp [powers, List.range_succ]
  rw [e1, e2] at q3
  rw [e3, e4] at q4
  rcases hbad with h | h | h | h
  · refine h (q1.trans ?_)
    rw [Fin.sum_univ_two]
    simp only [validPs, Fin.val_zero, Fin.val_one, pow_zero, pow_one, one_smul]
    change (5 * 7 : Toy.F) + r * (5 * 7) = _
    congr 1
  · refine h (q2.trans ?_)
    rw [Fin.sum_univ_two]
    simp [validPs]
  · refine h (Eq.trans ?_ q3)
    simp [validPs]
  · exact h q4

/-- Without queries before the proof the share is at most 72 in 101. -/
example : errorTerm 0 1 2 1 1 1 = 72 := rfl

/-- A digest that depends on its input, and the honest aggregate of the two proofs. -/
def honestAgg : AggProof Toy.F Toy.F Toy.F Toy.F where
  comA := 29
  comB := 70
  comC := 19
  ipAB := 17
  aggC := 57
  proofAB := ⟨⟨[((84, 63, ⟨[83]⟩), 88, 7, ⟨[35]⟩)], (52, 41)⟩, (23, 89), (91, 4)⟩
  proofC := ⟨⟨[((20, 0, ⟨[20]⟩), 95, 0, ⟨[80]⟩)], (38, 25)⟩, 80, 53⟩

/-- The same but for values in the second argument that are 5 too large; the aggregated value that fits is not
`24 + 37 * 20 = 57`, but 35. -/
def otherAgg : AggProof Toy.F Toy.F Toy.F Toy.F :=
  { honestAgg with
    aggC := 35
    proofC := ⟨⟨[((20, 0, ⟨[25]⟩), 95, 0, ⟨[85]⟩)], (86, 25)⟩, 84, 33⟩ }

/-- The condition on `δ` is needed: with `δ = 0` the pairing product equation says nothing about the second value, which
is not hashed, and both are accepted. With the verifying key that has `δ = 1` only the honest one is. -/
example : ([⟨2, 3, 1, 0, [29, 0]⟩, Groth16.toyVK].map fun vk =>
      [Groth16.verify Toy.sumEnv ⟨1, 1, 5, 3⟩ vk [[1], [2]] honestAgg,
        Groth16.verify Toy.sumEnv ⟨1, 1, 5, 3⟩ vk [[1], [2]] otherAgg]) =
    [[.ok true, .ok true], [.ok true, .ok false]] := by
  decide +kernel

end Example

end Ripp.AggStatic
