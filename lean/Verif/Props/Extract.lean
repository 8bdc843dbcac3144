import Verif.Lemmas.Extract
import Verif.Lemmas.Fork
import Verif.Props.Gipa

/-!
# C67, C68: knowledge soundness of the generic inner product argument

The verifier of GIPA with its hash replaced by arbitrary challenges, the extractor that recovers an
opening from a tree of accepting runs, and the count of challenge sequences that forces such a tree.
-/

set_option linter.unusedSectionVars false

namespace Ripp.Extract

open Spec

variable {F MA MB T KA KB KT OA OB OT O : Type} [Field F]
  [AddCommGroup MA] [Module F MA] [AddCommGroup MB] [Module F MB]
  [AddCommGroup T] [Module F T] [AddCommGroup KA] [Module F KA] [AddCommGroup KB] [Module F KB]
  [AddCommGroup OA] [Module F OA] [AddCommGroup OB] [Module F OB] [Add OT] [SMul F OT]
  [AddCommGroup O] [Module F O]

/-- The verifier's final equations for the challenges `cs` (round order) instead of hash values:
the folded keys are `ka`, `kb`, and each accumulated commitment is the commitment of the base. -/
def Run (β : MA →ₗ[F] MB →ₗ[F] T) (φa : MA →ₗ[F] KA →ₗ[F] OA) (φb : MB →ₗ[F] KB →ₗ[F] OB)
    (ψ : T → OT) (cka : List KA) (ckb : List KB) (com : OA × OB × OT) (cs : List F)
    (steps : List ((OA × OB × OT) × (OA × OB × OT))) (a : MA) (b : MB) : Prop :=
  ∃ ka kb, foldAll (cs.map (·⁻¹)) cka = [ka] ∧ foldAll cs ckb = [kb] ∧
    accum cs (steps.map fun s => (s.1.1, s.2.1)) com.1 = φa a ka ∧
    accum cs (steps.map fun s => (s.1.2.1, s.2.2.1)) com.2.1 = φb b kb ∧
    accum cs (steps.map fun s => (s.1.2.2, s.2.2.2)) com.2.2 = ψ (β a b)

/-- Runs of one prover that share their first messages: at a node the prover has sent the commitments
`l`, `r` and is run with four challenges; at a leaf it has sent the base pair. -/
inductive Tree (F MA MB C : Type) : Type
  | leaf (a : MA) (b : MB)
  | node (l r : C) (c : Fin 4 → F) (t : Fin 4 → Tree F MA MB C)

/-- The result of extraction: an opening, or two messages with the same commitment. -/
inductive Out (MA MB : Type) : Type
  | opening (a : List MA) (b : List MB)
  | collisionA (m m' : List MA)
  | collisionB (m m' : List MB)
  deriving DecidableEq

/-- Every branch of the tree is an accepting run. The challenges at a node are distinct and not zero. -/
def Tree.Accepts (β : MA →ₗ[F] MB →ₗ[F] T) (φa : MA →ₗ[F] KA →ₗ[F] OA)
    (φb : MB →ₗ[F] KB →ₗ[F] OB) (ψ : T → OT) :
    Tree F MA MB (OA × OB × OT) → List KA → List KB → OA × OB × OT → Prop
  | leaf a b, cka, ckb, com => ∃ ka kb, cka = [ka] ∧ ckb = [kb] ∧
      com.1 = φa a ka ∧ com.2.1 = φb b kb ∧ com.2.2 = ψ (β a b)
  | node l r c t, cka, ckb, com => Function.Injective c ∧ (∀ i, c i ≠ 0) ∧
      Even cka.length ∧ Even ckb.length ∧
      ∀ i, (t i).Accepts β φa φb ψ (foldHalf (c i)⁻¹ cka) (foldHalf (c i) ckb)
        (c i • l.1 + com.1 + (c i)⁻¹ • r.1, c i • l.2.1 + com.2.1 + (c i)⁻¹ • r.2.1,
          c i • l.2.2 + com.2.2 + (c i)⁻¹ • r.2.2)

/-- What the extractor promises: an opening of both commitments whose inner product is the committed
one (`η` reads a commitment to one inner product value), or two different messages with the same
commitment under the given key. -/
def Out.Valid (β : MA →ₗ[F] MB →ₗ[F] T) (φa : MA →ₗ[F] KA →ₗ[F] OA) (φb : MB →ₗ[F] KB →ₗ[F] OB)
    (η : OT → Option O) (ψ' : T →ₗ[F] O) (cka : List KA) (ckb : List KB) (com : OA × OB × OT) :
    Out MA MB → Prop
  | opening a b => a.length = cka.length ∧ b.length = ckb.length ∧
      com.1 = dot (φa · ·) a cka ∧ com.2.1 = dot (φb · ·) b ckb ∧
      η com.2.2 = some (ψ' (dot (β · ·) a b))
  | collisionA m m' => m.length = cka.length ∧ m'.length = cka.length ∧ m ≠ m' ∧
      dot (φa · ·) m cka = dot (φa · ·) m' cka
  | collisionB m m' => m.length = ckb.length ∧ m'.length = ckb.length ∧ m ≠ m' ∧
      dot (φb · ·) m ckb = dot (φb · ·) m' ckb

/-- `η` reads inner product commitments, compatibly with the verifier's linear combinations; `ψ` is the
commitment to one value and `ψ'` what is read from it. -/
structure Reads (F : Type) [Field F] [Module F T] [SMul F OT] [Module F O]
    (η : OT → Option O) (ψ : T → OT) (ψ' : T →ₗ[F] O) : Prop where
  add : ∀ x y, η (x + y) = (η x).bind fun u => (η y).map (u + ·)
  smul : ∀ (c : F) x, η (c • x) = (η x).map (c • ·)
  value : ∀ t, η (ψ t) = some (ψ' t)

/-- The left messages of an opening (empty for a collision). -/
def Out.left : Out MA MB → List MA
  | opening a _ => a
  | _ => []

/-- The right messages of an opening. -/
def Out.right : Out MA MB → List MB
  | opening _ b => b
  | _ => []

/-- A collision for the keys folded with challenge `c` as a collision for the whole keys. -/
def Out.lift (c : F) : Out MA MB → Option (Out MA MB)
  | opening _ _ => none
  | collisionA m m' => some (.collisionA (unfold c⁻¹ m) (unfold c⁻¹ m'))
  | collisionB m m' => some (.collisionB (unfold c m) (unfold c m'))

variable [DecidableEq MA] [DecidableEq MB]

/-- First run that contradicts the recombination of the messages. -/
def mismatch {M : Type} [AddCommGroup M] [Module F M] [DecidableEq M] (c : Fin 4 → F)
    (a : Fin 4 → List M) : Option (Fin 4) :=
  (List.finRange 4).find? fun i => decide (expected c a i ≠ unfold (c i)⁻¹ (a i))

/-- One step of the extractor. -/
def step (c : Fin 4 → F) (o : Fin 4 → Out MA MB) : Out MA MB :=
  match (List.finRange 4).findSome? fun i => (o i).lift (c i) with
  | some x => x
  | none =>
    let a := fun i => (o i).left
    let b := fun i => (o i).right
    let d := fun i => (c i)⁻¹
    match mismatch c a with
    | some i => .collisionA (expected c a i) (unfold (c i)⁻¹ (a i))
    | none =>
      match mismatch d b with
      | some i => .collisionB (expected d b i) (unfold (d i)⁻¹ (b i))
      | none => .opening (side wM c a) (side wM d b)

/-- The extractor. It uses nothing but the messages and challenges in the tree. -/
def extract {C : Type} : Tree F MA MB C → Out MA MB
  | .leaf a b => .opening [a] [b]
  | .node _ _ c t => step c fun i => extract (t i)

section
variable {β : MA →ₗ[F] MB →ₗ[F] T} {φa : MA →ₗ[F] KA →ₗ[F] OA} {φb : MB →ₗ[F] KB →ₗ[F] OB}
  {ψ : T → OT} {η : OT → Option O} {ψ' : T →ₗ[F] O}

omit [DecidableEq MA] [DecidableEq MB] in
theorem Tree.Accepts.length : ∀ (t : Tree F MA MB (OA × OB × OT)) (cka : List KA) (ckb : List KB)
    (com : OA × OB × OT), t.Accepts β φa φb ψ cka ckb com → cka.length = ckb.length
  | .leaf a b, cka, ckb, com, h => by
    obtain ⟨ka, kb, rfl, rfl, -⟩ := h
    rfl
  | .node l r c t, cka, ckb, com, h => by
    obtain ⟨-, -, ⟨n, hn⟩, ⟨m, hm⟩, h⟩ := h
    have := Tree.Accepts.length _ _ _ _ (h 0)
    rw [length_foldHalf _ _ n (by omega), length_foldHalf _ _ m (by omega)] at this
    omega

theorem mismatch_none {M : Type} [AddCommGroup M] [Module F M] [DecidableEq M] {c : Fin 4 → F}
    {a : Fin 4 → List M} (h : mismatch c a = none) (i : Fin 4) :
    expected c a i = unfold (c i)⁻¹ (a i) := by
  rw [mismatch, List.find?_eq_none] at h
  simpa using h i (List.mem_finRange i)

theorem mismatch_some {M : Type} [AddCommGroup M] [Module F M] [DecidableEq M] {c : Fin 4 → F}
    {a : Fin 4 → List M} {i : Fin 4} (h : mismatch c a = some i) :
    expected c a i ≠ unfold (c i)⁻¹ (a i) := by
  simpa using List.find?_some h

/-- Three runs determine the committed inner product. -/
theorem three_runs (c : Fin 4 → F) (h0 : ∀ i, c i ≠ 0) (hc : Function.Injective c)
    (l m r l' m' r' : O) (h : ∀ i, c i • l + m + (c i)⁻¹ • r = c i • l' + m' + (c i)⁻¹ • r') :
    m = m' := by
  have h01 : c 0 ≠ c 1 := fun e => absurd (hc e) (by decide)
  have h02 : c 0 ≠ c 2 := fun e => absurd (hc e) (by decide)
  have h12 : c 1 ≠ c 2 := fun e => absurd (hc e) (by decide)
  have a2 := weights_M (h0 0) (h0 1) (h0 2) h01 h02 h12
  have e := combine wM (c 0) (c 1) (c 2) l m r
  rw [h 0, h 1, h 2, combine, a2.1, a2.2.1, a2.2.2] at e
  simpa using e.symm

/-- Openings of both commitments, or two different messages with the same commitment: `Out.Valid` without the inner
product. -/
def Out.Opens (φa : MA →ₗ[F] KA →ₗ[F] OA) (φb : MB →ₗ[F] KB →ₗ[F] OB) (cka : List KA) (ckb : List KB) (ca : OA)
    (cb : OB) : Out MA MB → Prop
  | opening a b => a.length = cka.length ∧ b.length = ckb.length ∧
      ca = dot (φa · ·) a cka ∧ cb = dot (φb · ·) b ckb
  | collisionA m m' => m.length = cka.length ∧ m'.length = cka.length ∧ m ≠ m' ∧
      dot (φa · ·) m cka = dot (φa · ·) m' cka
  | collisionB m m' => m.length = ckb.length ∧ m'.length = ckb.length ∧ m ≠ m' ∧
      dot (φb · ·) m ckb = dot (φb · ·) m' ckb

omit [DecidableEq MA] [DecidableEq MB] in
theorem Out.valid_iff (cka : List KA) (ckb : List KB) (com : OA × OB × OT) (o : Out MA MB) :
    o.Valid β φa φb η ψ' cka ckb com ↔ o.Opens φa φb cka ckb com.1 com.2.1 ∧
      ∀ a b, o = .opening a b → η com.2.2 = some (ψ' (dot (β · ·) a b)) := by
  cases o with
  | opening a b =>
    constructor
    · rintro ⟨h1, h2, h3, h4, h5⟩
      refine ⟨⟨h1, h2, h3, h4⟩, ?_⟩
      rintro _ _ ⟨⟩
      exact h5
    · rintro ⟨⟨h1, h2, h3, h4⟩, h5⟩
      exact ⟨h1, h2, h3, h4, h5 _ _ rfl⟩
  | collisionA m m' => simp [Out.Valid, Out.Opens]
  | collisionB m m' => simp [Out.Valid, Out.Opens]

/-- One step of the extractor: openings after a round give openings before it, and the inner products after the round
are the values of one expression in the challenge, with the inner product before the round as the constant term. -/
theorem step_opens (β : MA →ₗ[F] MB →ₗ[F] T) (c : Fin 4 → F) (hc : Function.Injective c) (h0 : ∀ i, c i ≠ 0)
    (cka : List KA) (ckb : List KB) (n : ℕ) (ha : cka.length = 2 * n) (hb : ckb.length = 2 * n) (l r com : OA × OB)
    (o : Fin 4 → Out MA MB)
    (ih : ∀ i, (o i).Opens φa φb (foldHalf (c i)⁻¹ cka) (foldHalf (c i) ckb) (c i • l.1 + com.1 + (c i)⁻¹ • r.1)
      (c i • l.2 + com.2 + (c i)⁻¹ • r.2)) :
    (step c o).Opens φa φb cka ckb com.1 com.2 ∧
      ∀ a b, step c o = .opening a b → ∃ x z : T, ∀ i, ∃ a' b', o i = .opening a' b' ∧
        dot (β · ·) a' b' = c i • x + dot (β · ·) a b + (c i)⁻¹ • z := by
  have fa : ∀ x : F, (foldHalf x cka).length = n := fun x => length_foldHalf _ _ n ha
  have fb : ∀ x : F, (foldHalf x ckb).length = n := fun x => length_foldHalf _ _ n hb
  rw [step]
  cases hs : (List.finRange 4).findSome? fun i => (o i).lift (c i) with
  | some x =>
    obtain ⟨i, -, hi⟩ := List.exists_of_findSome?_eq_some hs
    have hv := ih i
    cases ho : o i with
    | opening a b => simp [ho, Out.lift] at hi
    | collisionA m m' =>
      rw [ho] at hi hv
      obtain ⟨l1, l2, hne, heq⟩ := hv
      rw [fa] at l1 l2
      simp only [Out.lift, Option.some.injEq] at hi
      subst hi
      refine ⟨⟨by simp [l1, ha], by simp [l2, ha], ?_, ?_⟩, by simp⟩
      · intro he
        exact hne (by simpa [unfold, l1, l2] using congrArg (List.take n) he)
      · rw [dot_unfold _ _ _ _ (by rw [ha, l1]), dot_unfold _ _ _ _ (by rw [ha, l2]), heq]
    | collisionB m m' =>
      rw [ho] at hi hv
      obtain ⟨l1, l2, hne, heq⟩ := hv
      rw [fb] at l1 l2
      simp only [Out.lift, Option.some.injEq] at hi
      subst hi
      refine ⟨⟨by simp [l1, hb], by simp [l2, hb], ?_, ?_⟩, by simp⟩
      · intro he
        exact hne (by simpa [unfold, l1, l2] using congrArg (List.take n) he)
      · rw [dot_unfold _ _ _ _ (by rw [hb, l1]), dot_unfold _ _ _ _ (by rw [hb, l2]), heq]
  | none =>
    have hop : ∀ i, ∃ a b, o i = .opening a b := by
      intro i
      have := (List.findSome?_eq_none_iff.mp hs) i (List.mem_finRange i)
      cases ho : o i with
      | opening a b => exact ⟨a, b, rfl⟩
      | collisionA m m' => simp [ho, Out.lift] at this
      | collisionB m m' => simp [ho, Out.lift] at this
    choose a b hab using hop
    have ea : ∀ i, (o i).left = a i := fun i => by rw [hab]; rfl
    have eb : ∀ i, (o i).right = b i := fun i => by rw [hab]; rfl
    simp only [ea, eb]
    have la : ∀ i, (a i).length = n := fun i => by
      have := ih i
      rw [hab] at this
      rw [this.1, fa]
    have lb : ∀ i, (b i).length = n := fun i => by
      have := ih i
      rw [hab] at this
      rw [this.2.1, fb]
    have d0 : ∀ i, (c i)⁻¹ ≠ 0 := fun i => inv_ne_zero (h0 i)
    have hd : Function.Injective fun i => (c i)⁻¹ := fun i j e => hc (inv_injective e)
    have hopA : ∀ i, dot (φa · ·) (a i) (foldHalf (c i)⁻¹ cka) =
          c i • l.1 + com.1 + (c i)⁻¹ • r.1 := fun i => by
      have := ih i
      rw [hab] at this
      exact this.2.2.1.symm
    have hopB : ∀ i, dot (φb · ·) (b i) (foldHalf ((c i)⁻¹)⁻¹ ckb) =
          (c i)⁻¹ • r.2 + com.2 + ((c i)⁻¹)⁻¹ • l.2 := by
      intro i
      have := ih i
      rw [hab] at this
      rw [inv_inv, ← this.2.2.2]; abel
    cases hA : mismatch c a with
    | some i =>
      refine ⟨⟨by rw [length_expected c a n la, ha], by rw [length_unfold, la, ha],
        mismatch_some hA, ?_⟩, by simp⟩
      exact expected_opens φa c h0 hc a n la cka ha _ _ _ hopA i
    | none =>
      dsimp only
      cases hB : mismatch (fun i => (c i)⁻¹) b with
      | some i =>
        refine ⟨⟨by rw [length_expected _ b n lb, hb], by rw [length_unfold, lb, hb],
          mismatch_some hB, ?_⟩, by simp⟩
        exact expected_opens φb _ d0 hd b n lb ckb hb _ _ _ hopB i
      | none =>
        obtain ⟨-, oa, -⟩ := side_opens φa c h0 hc a n la cka ha _ _ _ hopA
        obtain ⟨-, ob, -⟩ := side_opens φb _ d0 hd b n lb ckb hb _ _ _ hopB
        have sa := length_side wM c a n la
        have sb := length_side wM (fun i => (c i)⁻¹) b n lb
        refine ⟨⟨by rw [sa, ha], by rw [sb, hb], oa.symm, ob.symm⟩, ?_⟩
        rintro _ _ ⟨⟩
        refine ⟨dot (β · ·) ((side wM c a).drop n) ((side wM (fun i => (c i)⁻¹) b).take n),
          dot (β · ·) ((side wM c a).take n) ((side wM (fun i => (c i)⁻¹) b).drop n), fun i => ⟨a i, b i, hab i, ?_⟩⟩
        rw [fold_of_expected c h0 hc a n la (mismatch_none hA) i,
          fold_of_expected _ d0 hd b n lb (mismatch_none hB) i, dot_fold β (c i) (h0 i) _ _ n sa sb]

/-- C67: the extractor turns every accepting tree into an opening of the commitments with the
committed inner product, or into a collision of one of the two commitments. -/
theorem C67_extract (R : Reads F η ψ ψ') : ∀ (t : Tree F MA MB (OA × OB × OT)) (cka : List KA)
    (ckb : List KB) (com : OA × OB × OT), t.Accepts β φa φb ψ cka ckb com →
    (extract t).Valid β φa φb η ψ' cka ckb com
  | .leaf a b, cka, ckb, com, h => by
    obtain ⟨ka, kb, rfl, rfl, h1, h2, h3⟩ := h
    refine ⟨rfl, rfl, ?_, ?_, ?_⟩
    · rw [h1, dot_singleton]
    · rw [h2, dot_singleton]
    · rw [h3, R.value, dot_singleton]
  | .node l r c t, cka, ckb, com, h => by
    have hlen := Tree.Accepts.length _ _ _ _ h
    obtain ⟨hc, h0, ⟨n, hn⟩, -, h⟩ := h
    have ih := fun i => (Out.valid_iff _ _ _ _).mp (C67_extract R (t i) _ _ _ (h i))
    obtain ⟨hopens, hval⟩ := step_opens β c hc h0 cka ckb n (by omega) (by omega) (l.1, l.2.1) (r.1, r.2.1)
      (com.1, com.2.1) (fun i => extract (t i)) fun i => (ih i).1
    refine (Out.valid_iff _ _ _ _).mpr ⟨hopens, fun a b hab => ?_⟩
    obtain ⟨x, z, hxz⟩ := hval a b hab
    have key : ∀ i, η (c i • l.2.2 + com.2.2 + (c i)⁻¹ • r.2.2) = some (ψ' (
        c i • x + dot (β · ·) a b + (c i)⁻¹ • z)) := by
      intro i
      obtain ⟨a', b', e1, e2⟩ := hxz i
      rw [← e2]
      exact (ih i).2 a' b' e1
    simp only [R.add, R.smul, map_add, map_smul] at key
    cases h1 : η l.2.2 with
    | none => simpa [h1] using key 0
    | some x' =>
      cases h2 : η com.2.2 with
      | none => simpa [h1, h2] using key 0
      | some y' =>
        cases h3 : η r.2.2 with
        | none => simpa [h1, h2, h3] using key 0
        | some z' =>
          simp only [h1, h2, h3, Option.map_some, Option.bind_some, Option.some.injEq] at key
          rw [three_runs c h0 hc _ _ _ _ _ _ key]

end

/-! ## Readings of the inner product commitment -/

/-- The identity commitment to one value is read as its first entry. -/
theorem reads_identity (k : Placeholder) :
    Reads F (fun o : IdentityOutput T => o.vals.head?) (idψ k) (LinearMap.id (R := F) (M := T)) where
  add x y := by
    obtain ⟨x⟩ := x; obtain ⟨y⟩ := y
    cases x <;> cases y <;> rfl
  smul c x := by obtain ⟨x⟩ := x; cases x <;> rfl
  value t := rfl

/-- A commitment with values in a module is read as it is. -/
theorem reads_linear (ψ' : T →ₗ[F] O) : Reads F (OT := O) some ψ' ψ' where
  add _ _ := rfl
  smul _ _ := rfl
  value _ := rfl

/-! ## From accepting runs to trees -/

/-- The runs of the prover `st`, `fin` (message `j` is computed from the first `j` challenges, the base
from all of them) on the challenges of a tree. -/
def build {C : Type} : {k : ℕ} → (List F → C × C) → (List F → MA × MB) → Chals F 4 k →
    Tree F MA MB C
  | _, _, fin, .leaf => .leaf (fin []).1 (fin []).2
  | _, st, fin, .node c t => .node (st []).1 (st []).2 c fun i =>
      build (fun cs => st (c i :: cs)) (fun cs => fin (c i :: cs)) (t i)

/-- The steps sent by the strategy when the challenges are `cs`. -/
def sent {C : Type} (st : List F → C × C) (cs : List F) : List (C × C) :=
  (List.range cs.length).map fun j => st (cs.take j)

omit [Field F] in
theorem sent_cons {C : Type} (st : List F → C × C) (c : F) (cs : List F) :
    sent st (c :: cs) = st [] :: sent (fun l => st (c :: l)) cs := by
  simp [sent, List.range_succ_eq_map, Function.comp_def]

section
variable {β : MA →ₗ[F] MB →ₗ[F] T} {φa : MA →ₗ[F] KA →ₗ[F] OA} {φb : MB →ₗ[F] KB →ₗ[F] OB}
  {ψ : T → OT} {η : OT → Option O} {ψ' : T →ₗ[F] O}

omit [DecidableEq MA] [DecidableEq MB] in
theorem build_accepts (S : Finset F) (hS : ∀ x ∈ S, x ≠ 0) : ∀ {k : ℕ} (t : Chals F 4 k)
    (st : List F → (OA × OB × OT) × (OA × OB × OT)) (fin : List F → MA × MB) (cka : List KA)
    (ckb : List KB) (com : OA × OB × OT), cka.length = 2 ^ k → ckb.length = 2 ^ k →
    t.Within S (fun cs => Run β φa φb ψ cka ckb com cs (sent st cs) (fin cs).1 (fin cs).2) →
    (build st fin t).Accepts β φa φb ψ cka ckb com
  | _, .leaf, st, fin, cka, ckb, com, _, _, h => h
  | _, .node (k := k) c t, st, fin, cka, ckb, com, ha, hb, h => by
    obtain ⟨hi, hm, h⟩ := h
    have h2 : 2 ^ (k + 1) = 2 * 2 ^ k := by rw [pow_succ]; ring
    rw [h2] at ha hb
    refine ⟨hi, fun i => hS _ (hm i), ⟨2 ^ k, by omega⟩, ⟨2 ^ k, by omega⟩, fun i => ?_⟩
    refine build_accepts S hS (t i) _ _ _ _ _ (length_foldHalf _ _ _ ha) (length_foldHalf _ _ _ hb) ?_
    have hi := h i
    simp only [sent_cons] at hi
    exact hi

/-- C68: fix a prover strategy for keys of length `2^k`. If it is accepted for more than
`3 k |S|^(k-1)` of the `|S|^k` challenge sequences over a set `S` of non-zero challenges, some tree of
accepted challenge sequences exists, and running the prover on it and extracting yields an opening of
the commitments with the committed inner product, or a collision. -/
theorem C68_knowledge (R : Reads F η ψ ψ') (k : ℕ) (cka : List KA) (ckb : List KB)
    (com : OA × OB × OT) (ha : cka.length = 2 ^ k) (hb : ckb.length = 2 ^ k)
    (st : List F → (OA × OB × OT) × (OA × OB × OT)) (fin : List F → MA × MB)
    (S : Finset F) (hS : ∀ x ∈ S, x ≠ 0)
    [DecidablePred fun cs => Run β φa φb ψ cka ckb com cs (sent st cs) (fin cs).1 (fin cs).2]
    (hmany : 3 * k * S.card ^ (k - 1) < ((Fintype.piFinset fun _ : Fin k => S).filter fun xs =>
      Run β φa φb ψ cka ckb com (List.ofFn xs) (sent st (List.ofFn xs)) (fin (List.ofFn xs)).1
        (fin (List.ofFn xs)).2).card) :
    ∃ t : Chals F 4 k,
      t.Within S (fun cs => Run β φa φb ψ cka ckb com cs (sent st cs) (fin cs).1 (fin cs).2) ∧
      (extract (build st fin t)).Valid β φa φb η ψ' cka ckb com := by
  obtain ⟨t, ht⟩ := exists_tree 3 S k
    (fun cs => Run β φa φb ψ cka ckb com cs (sent st cs) (fin cs).1 (fin cs).2) hmany
  exact ⟨t, ht, C67_extract R _ _ _ _ (build_accepts S hS t st fin cka ckb com ha hb ht)⟩

/-- C68: where no two messages have the same commitment, a statement without an opening is accepted
for at most `3 k |S|^(k-1)` challenge sequences, whatever the prover does. -/
theorem C68_soundness (R : Reads F η ψ ψ') (k : ℕ) (cka : List KA) (ckb : List KB)
    (com : OA × OB × OT) (ha : cka.length = 2 ^ k) (hb : ckb.length = 2 ^ k)
    (bindA : ∀ m m' : List MA, m.length = cka.length → m'.length = cka.length →
      dot (φa · ·) m cka = dot (φa · ·) m' cka → m = m')
    (bindB : ∀ m m' : List MB, m.length = ckb.length → m'.length = ckb.length →
      dot (φb · ·) m ckb = dot (φb · ·) m' ckb → m = m')
    (hfalse : ¬ ∃ (a : List MA) (b : List MB), a.length = 2 ^ k ∧ b.length = 2 ^ k ∧
      com.1 = dot (φa · ·) a cka ∧ com.2.1 = dot (φb · ·) b ckb ∧
      η com.2.2 = some (ψ' (dot (β · ·) a b)))
    (st : List F → (OA × OB × OT) × (OA × OB × OT)) (fin : List F → MA × MB)
    (S : Finset F) (hS : ∀ x ∈ S, x ≠ 0)
    [DecidablePred fun cs => Run β φa φb ψ cka ckb com cs (sent st cs) (fin cs).1 (fin cs).2] :
    ((Fintype.piFinset fun _ : Fin k => S).filter fun xs =>
      Run β φa φb ψ cka ckb com (List.ofFn xs) (sent st (List.ofFn xs)) (fin (List.ofFn xs)).1
        (fin (List.ofFn xs)).2).card ≤ 3 * k * S.card ^ (k - 1) := by
  by_contra hcon
  obtain ⟨t, -, hv⟩ := C68_knowledge R k cka ckb com ha hb st fin S hS (not_le.mp hcon)
  cases ho : extract (build st fin t) with
  | opening a b =>
    rw [ho] at hv
    obtain ⟨h1, h2, h3, h4, h5⟩ := hv
    exact hfalse ⟨a, b, by rw [h1, ha], by rw [h2, hb], h3, h4, h5⟩
  | collisionA m m' =>
    rw [ho] at hv
    exact hv.2.2.1 (bindA m m' hv.1 hv.2.1 hv.2.2.2)
  | collisionB m m' =>
    rw [ho] at hv
    exact hv.2.2.1 (bindB m m' hv.1 hv.2.1 hv.2.2.2)

end

/-! ## The runs are those of the verifier -/

section
variable {ρ : Type} [DecidableEq F] [DecidableEq T] [DecidableEq OA] [DecidableEq OB] [DecidableEq OT]
  {P : Gipa ρ F MA MB T KA KB KT OA OB OT}
  {β : MA →ₗ[F] MB →ₗ[F] T} {φa : MA →ₗ[F] KA →ₗ[F] OA} {φb : MB →ₗ[F] KB →ₗ[F] OB}
  {ψ : KT → T → OT}

omit [DecidableEq MA] [DecidableEq MB] in
/-- C67: `GIPA::verify` accepts a proof exactly if the challenges it derives by hashing form an
accepting run with the steps and the base of the proof. -/
theorem C67_verify_iff (L : P.Lawful β φa φb ψ) (cka : List KA) (ckb : List KB) (kt : KT)
    (com : Coms OA OB OT) (proof : GipaProof MA MB OA OB OT)
    (ha : cka.length = 2 ^ proof.steps.length) (hb : ckb.length = 2 ^ proof.steps.length) :
    P.verify cka ckb kt com proof = .ok true ↔
      ∃ cs com', P.recursiveChallenges com proof = .ok (com', cs.reverse) ∧
        Run β φa φb (ψ kt) cka ckb com cs proof.steps.reverse proof.base.1 proof.base.2 := by
  constructor
  · intro h
    have : ∃ x, P.recursiveChallenges com proof = .ok x := by
      unfold Gipa.verify at h
      rw [if_neg (by rw [ha, hb]; simp)] at h
      cases hc : P.recursiveChallenges com proof with
      | error e => simp [hc] at h
      | ok x => exact ⟨x, rfl⟩
    obtain ⟨⟨com', tr⟩, hc⟩ := this
    have hc' : P.recursiveChallenges com proof = .ok (com', tr.reverse.reverse) := by
      rw [List.reverse_reverse]; exact hc
    obtain ⟨ka, kb, b, h1, h2, h3, h4⟩ :=
      Gipa.C18_verdict L cka ckb kt com proof tr.reverse com' ha hb hc'
    rw [h] at h3
    obtain rfl := Except.ok.inj h3
    obtain ⟨e1, e2, e3⟩ := h4.mp rfl
    refine ⟨_, _, hc', ka, kb, h1, h2, ?_, ?_, e3⟩
    · rw [Gipa.accum_eq, ← e1, List.map_map, List.map_map]; rfl
    · rw [Gipa.accum_eq, ← e2, List.map_map, List.map_map]; rfl
  · rintro ⟨cs, com', hc, ka, kb, h1, h2, e1, e2, e3⟩
    obtain ⟨ka', kb', b, h1', h2', h3, h4⟩ :=
      Gipa.C18_verdict L cka ckb kt com proof cs com' ha hb hc
    have hka := List.singleton_inj.mp (h1.symm.trans h1')
    have hkb := List.singleton_inj.mp (h2.symm.trans h2')
    subst hka hkb
    rw [h3, h4.mpr ⟨?_, ?_, e3⟩]
    · rw [← e1, Gipa.accum_eq, List.map_map, List.map_map]; rfl
    · rw [← e2, Gipa.accum_eq, List.map_map, List.map_map]; rfl

end

/-! ## Concrete instances -/

/-- An honest prover for `a = [1, 2]`, `b = [3, 4]` and keys `[5, 6]`, `[7, 8]`, run with the
challenges 1, 2, 3, 4. -/
def honestTree : Tree Toy.F Toy.F Toy.F (Toy.F × Toy.F × Toy.F) :=
  .node (10, 24, 6) (6, 28, 4) ![1, 2, 3, 4] ![.leaf 3 7, .leaf 5 5, .leaf 7 38, .leaf 9 4]

theorem honestTree_accepts :
    honestTree.Accepts Toy.e Toy.e Toy.e id [5, 6] [7, 8] (17, 53, 11) := by
  refine ⟨by decide, by decide, by decide, by decide, fun i => ?_⟩
  fin_cases i <;> exact ⟨_, _, rfl, rfl, by decide +kernel, by decide +kernel, by decide +kernel⟩

example : extract honestTree = .opening [1, 2] [3, 4] := by decide +kernel

/-- A prover that changes its answers: here extraction ends with a collision under the key `[5, 6]`. -/
def cheatingTree : Tree Toy.F Toy.F Toy.F (Toy.F × Toy.F × Toy.F) :=
  .node (0, 0, 0) (0, 0, 0) ![1, 2, 3, 4] ![.leaf 75 0, .leaf 40 0, .leaf 89 0, .leaf 57 0]

theorem cheatingTree_accepts :
    cheatingTree.Accepts Toy.e Toy.e Toy.e id [5, 6] [7, 8] (17, 0, 0) := by
  refine ⟨by decide, by decide, by decide, by decide, fun i => ?_⟩
  fin_cases i <;> exact ⟨_, _, rfl, rfl, by decide +kernel, by decide +kernel, by decide +kernel⟩

example : (extract cheatingTree).Valid Toy.e Toy.e Toy.e some LinearMap.id [5, 6] [7, 8] (17, 0, 0) ∧
    ∃ m m', extract cheatingTree = .collisionA m m' := by
  refine ⟨C67_extract (reads_linear (LinearMap.id (R := Toy.F))) _ _ _ _ cheatingTree_accepts, ?_⟩
  exact ⟨[58, 5], [57, 90], by decide +kernel⟩

/-- The same honest prover as a strategy: all of the challenges 1, 2, 3, 4 are accepted, more than the
bound of `C68_knowledge`. -/
example : ∃ st : List Toy.F → (Toy.F × Toy.F × Toy.F) × (Toy.F × Toy.F × Toy.F),
    ∃ fin : List Toy.F → Toy.F × Toy.F, ∃ S : Finset Toy.F, (∀ x ∈ S, x ≠ 0) ∧
    ∀ _ : DecidablePred fun cs => Run Toy.e Toy.e Toy.e id [5, 6] [7, 8] (17, 53, 11) cs
      (sent st cs) (fin cs).1 (fin cs).2,
    3 * 1 * S.card ^ (1 - 1) < ((Fintype.piFinset fun _ : Fin 1 => S).filter fun xs =>
      Run Toy.e Toy.e Toy.e id [5, 6] [7, 8] (17, 53, 11) (List.ofFn xs) (sent st (List.ofFn xs))
        (fin (List.ofFn xs)).1 (fin (List.ofFn xs)).2).card := by
  refine ⟨fun _ => ((10, 24, 6), (6, 28, 4)), fun cs => (1 + 2 * cs.headD 0, 3 + 4 * (cs.headD 0)⁻¹),
    {1, 2, 3, 4}, by decide, fun _ => ?_⟩
  rw [Finset.filter_true_of_mem, Fintype.card_piFinset_const]
  · decide
  · intro xs hxs
    have h := Fintype.mem_piFinset.mp hxs 0
    have e : List.ofFn xs = [xs 0] := by simp
    rw [e]
    generalize xs 0 = x at h
    simp only [Finset.mem_insert, Finset.mem_singleton] at h
    rcases h with rfl | rfl | rfl | rfl <;>
    exact ⟨_, _, rfl, rfl, by decide +kernel, by decide +kernel, by decide +kernel⟩

/-- Keys under which no two messages collide, and a false statement: the only messages with these
commitments are `[1, 0]` and `[1, 0]`, their inner product is not 5. -/
example : (∀ m m' : List Toy.F, m.length = 2 → m'.length = 2 →
      dot (LinearMap.lsmul Toy.F (Toy.F × Toy.F) · ·) m [(1, 0), (0, 1)] =
      dot (LinearMap.lsmul Toy.F (Toy.F × Toy.F) · ·) m' [(1, 0), (0, 1)] → m = m') ∧
    ¬ ∃ a b : List Toy.F, a.length = 2 ^ 1 ∧ b.length = 2 ^ 1 ∧
      ((1, 0) : Toy.F × Toy.F) = dot (LinearMap.lsmul Toy.F (Toy.F × Toy.F) · ·) a [(1, 0), (0, 1)] ∧
      ((1, 0) : Toy.F × Toy.F) = dot (LinearMap.lsmul Toy.F (Toy.F × Toy.F) · ·) b [(1, 0), (0, 1)] ∧
      some (5 : Toy.F) = some (LinearMap.id (R := Toy.F) (dot (Toy.e · ·) a b)) := by
  constructor
  · intro m m' h h' he
    obtain ⟨x, y, rfl⟩ := List.length_eq_two.mp h
    obtain ⟨x', y', rfl⟩ := List.length_eq_two.mp h'
    simpa using he
  · rintro ⟨a, b, h, h', h1, h2, h3⟩
    obtain ⟨x, y, rfl⟩ := List.length_eq_two.mp h
    obtain ⟨x', y', rfl⟩ := List.length_eq_two.mp h'
    simp only [dot_cons, LinearMap.lsmul_apply, Prod.smul_mk, smul_eq_mul, mul_one, mul_zero,
      dot_nil_left, Prod.mk_add_mk, add_zero, zero_add, Prod.mk.injEq] at h1 h2
    obtain ⟨rfl, rfl⟩ := h1
    obtain ⟨rfl, rfl⟩ := h2
    revert h3
    simp
    decide

/-- The pairing product argument: for the AFGHO commitments the extracted opening is a pair of vectors
with `com.1 = Σ e(aᵢ, vᵢ)`, `com.2.1 = Σ e(wᵢ, bᵢ)` and first entry of `com.2.2` equal to
`Σ e(aᵢ, bᵢ)`; a collision is a pair of different vectors with the same product of pairings. -/
theorem C67_pairing {F G1 G2 GT : Type} [Field F] [AddCommGroup G1] [Module F G1] [AddCommGroup G2]
    [Module F G2] [AddCommGroup GT] [Module F GT] [DecidableEq G1] [DecidableEq G2]
    (e : G1 →ₗ[F] G2 →ₗ[F] GT) (t : Tree F G1 G2 (GT × GT × IdentityOutput GT)) (v : List G2)
    (w : List G1) (com : GT × GT × IdentityOutput GT)
    (h : t.Accepts e e e.flip (fun x => (⟨[x]⟩ : IdentityOutput GT)) v w com) :
    match extract t with
    | .opening a b => a.length = v.length ∧ b.length = w.length ∧ com.1 = dot (e · ·) a v ∧
        com.2.1 = dot (e · ·) w b ∧ com.2.2.vals.head? = some (dot (e · ·) a b)
    | .collisionA m m' => m.length = v.length ∧ m'.length = v.length ∧ m ≠ m' ∧
        dot (e · ·) m v = dot (e · ·) m' v
    | .collisionB m m' => m.length = w.length ∧ m'.length = w.length ∧ m ≠ m' ∧
        dot (e · ·) w m = dot (e · ·) w m' := by
  have hv := C67_extract (reads_identity (F := F) (T := GT) PUnit.unit) t v w com h
  cases ho : extract t with
  | opening a b =>
    rw [ho] at hv
    obtain ⟨h1, h2, h3, h4, h5⟩ := hv
    refine ⟨h1, h2, h3, ?_, h5⟩
    rw [h4, dot_swap]; rfl
  | collisionA m m' => rw [ho] at hv; exact hv
  | collisionB m m' =>
    rw [ho] at hv
    obtain ⟨h1, h2, h3, h4⟩ := hv
    refine ⟨h1, h2, h3, ?_⟩
    rw [dot_swap _ w m, dot_swap _ w m']; exact h4

end Ripp.Extract
