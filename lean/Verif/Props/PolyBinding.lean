import Verif.Props.SsmExtract
import Verif.Props.Transparent
import Mathlib.LinearAlgebra.Lagrange
import Mathlib.Algebra.Polynomial.Roots

/-!
# C78–C81: what the polynomial commitment verifiers check, and evaluation binding with random challenges

`C48` shows that the hash-derived challenges do not bind the value. Here the challenges are arbitrary
(tree of runs, or counted over a challenge set): then two values at one point give a collision of the
commitment keys (or the KZG trapdoor problem), and openings at enough points give the polynomial.
-/

set_option linter.unusedSectionVars false
set_option linter.unusedVariables false

namespace Ripp

open Spec

variable {ρ F G1 G2 GT TF : Type} [Field F] [DecidableEq F] [AddCommGroup G1] [Module F G1]
  [AddCommGroup G2] [Module F G2] [AddCommGroup GT] [Module F GT] [Monoid TF]
  [DecidableEq G1] [DecidableEq GT]
  {V : Env ρ F G1 G2 GT TF} {e : G1 →ₗ[F] G2 →ₗ[F] GT}

namespace TBivariate

/-- C78: the transparent verifier accepts exactly if both inner arguments do: the first for the row
commitments, the second for the combined row. -/
theorem C78_both (ck : List G1 × List G2) (com : GT) (point : F × F) (value : F)
    (proof : TpcProof F G1 GT) :
    verify V ck com point value proof = .ok true ↔
      GipaSsm.verify V.X V.multiexpSsm ck.2 PUnit.unit com ⟨[proof.yEvalComm]⟩ point.1 proof.second =
        .ok true ∧
      GipaSsm.verify V.X V.scalarSsm ck.1 PUnit.unit proof.yEvalComm ⟨[value]⟩ point.2 proof.first =
        .ok true := by
  rw [verify]
  cases GipaSsm.verify V.X V.multiexpSsm ck.2 PUnit.unit com ⟨[proof.yEvalComm]⟩ point.1 proof.second with
  | error x => simp
  | ok b =>
    cases GipaSsm.verify V.X V.scalarSsm ck.1 PUnit.unit proof.yEvalComm ⟨[value]⟩ point.2 proof.first with
    | error x => simp
    | ok b' => simp [pure, Except.pure]

/-- C78: the same as equations. `cs`, `ds` are the challenges of the two arguments in round order,
`com'`, `com''` the folded commitments. -/
theorem C78_verdict (hE : V.E.Lawful e) (ck : List G1 × List G2) (com : GT) (point : F × F) (value : F)
    (proof : TpcProof F G1 GT) (h2 : ck.2.length = 2 ^ proof.second.steps.length)
    (h1 : ck.1.length = 2 ^ proof.first.steps.length) (cs ds : List F)
    (com' : Coms GT F (IdentityOutput G1)) (com'' : Coms G1 F (IdentityOutput F))
    (hc : V.multiexpSsm.recursiveChallenges (com, 0, ⟨[proof.yEvalComm]⟩) proof.second =
      .ok (com', cs.reverse))
    (hd : V.scalarSsm.recursiveChallenges (proof.yEvalComm, 0, ⟨[value]⟩) proof.first =
      .ok (com'', ds.reverse)) :
    ∃ k x' k' y', foldAll (cs.map (·⁻¹)) ck.2 = [k] ∧
      foldAll (cs.map (·⁻¹)) ((List.range (2 ^ cs.length)).map (point.1 ^ ·)) = [x'] ∧
      foldAll (ds.map (·⁻¹)) ck.1 = [k'] ∧
      foldAll (ds.map (·⁻¹)) ((List.range (2 ^ ds.length)).map (point.2 ^ ·)) = [y'] ∧
      (verify V ck com point value proof = .ok true ↔
        (com'.1 = e proof.second.base.1 k ∧ com'.2.1 = 0 ∧
          com'.2.2 = ⟨[proof.second.base.2 • proof.second.base.1]⟩ ∧
          com'.2.2 = ⟨[x' • proof.second.base.1]⟩) ∧
        (com''.1 = proof.first.base.1 • k' ∧ com''.2.1 = 0 ∧
          com''.2.2 = ⟨[proof.first.base.1 * proof.first.base.2]⟩ ∧
          com''.2.2 = ⟨[proof.first.base.1 * y']⟩)) := by
  obtain ⟨k, x', a1, a2, -, a3, -⟩ := GipaSsm.C33_verdict (multiexpSsm_lawful V hE) V.X ck.2 PUnit.unit
    com ⟨[proof.yEvalComm]⟩ point.1 proof.second cs com' h2 hc
  obtain ⟨k', y', b1, b2, -, b3, -⟩ := GipaSsm.C33_verdict (scalarSsm_lawful V) V.X ck.1 PUnit.unit
    proof.yEvalComm ⟨[value]⟩ point.2 proof.first ds com'' h1 hd
  refine ⟨k, x', k', y', a1, a2, b1, b2, ?_⟩
  rw [C78_both, a3, b3]
  rfl

/-- C78: an accepted proof is an accepting run of both arguments (`SsmExtract.Run`), for the challenges
derived by hashing. -/
theorem C78_run (hE : V.E.Lawful e) (ck : List G1 × List G2) (com : GT) (point : F × F) (value : F)
    (proof : TpcProof F G1 GT) (h2 : ck.2.length = 2 ^ proof.second.steps.length)
    (h1 : ck.1.length = 2 ^ proof.first.steps.length)
    (h : verify V ck com point value proof = .ok true) :
    ∃ cs ds,
      SsmExtract.Run (smulMap F G1) e (fun t => (⟨[t]⟩ : IdentityOutput G1)) ck.2
        ((List.range (2 ^ proof.second.steps.length)).map (point.1 ^ ·)) (com, ⟨[proof.yEvalComm]⟩) cs
        (SsmExtract.outer proof.second.steps.reverse) proof.second.base.1 ∧
      SsmExtract.Run (mulMap F) (LinearMap.lsmul F G1) (fun t => (⟨[t]⟩ : IdentityOutput F)) ck.1
        ((List.range (2 ^ proof.first.steps.length)).map (point.2 ^ ·)) (proof.yEvalComm, ⟨[value]⟩) ds
        (SsmExtract.outer proof.first.steps.reverse) proof.first.base.1 := by
  obtain ⟨ha, hb⟩ := (C78_both ck com point value proof).mp h
  obtain ⟨cs, _, -, r⟩ := SsmExtract.C71_gipa_run (multiexpSsm_lawful V hE) V.X ck.2 PUnit.unit com _
    point.1 proof.second h2 ha
  obtain ⟨ds, _, -, r'⟩ := SsmExtract.C71_gipa_run (scalarSsm_lawful V) V.X ck.1 PUnit.unit _ _
    point.2 proof.first h1 hb
  exact ⟨cs, ds, r, r'⟩

end TBivariate

namespace Bivariate

/-- C78: the verifier of the scheme with a reference string accepts exactly if the inner argument accepts
and the value satisfies the KZG equation for the claimed row commitment. -/
theorem C78_both (hE : V.E.Lawful e) (g : G1) (h : G2) (gb : G1) (α : F)
    (hnd : ∀ x, e x h = 0 → x = 0) (com : GT) (point : F × F) (value : F)
    (proof : PcProof F G1 G2 GT) :
    verify V ⟨g, h, gb, α • h⟩ com point value proof = .ok true ↔
      TipaSsm.verify V.X V.tipa V.multiexpSsm ⟨g, h, gb, α • h⟩ PUnit.unit com ⟨[proof.yEvalComm]⟩
        point.1 proof.ip = .ok true ∧
      proof.yEvalComm - value • g = (α - point.2) • proof.kzg := by
  rw [verify, ← Kzg.C38_verdict hE g h gb α point.2 value proof.yEvalComm proof.kzg hnd]
  cases TipaSsm.verify V.X V.tipa V.multiexpSsm ⟨g, h, gb, α • h⟩ PUnit.unit com ⟨[proof.yEvalComm]⟩
    point.1 proof.ip with
  | error x => simp
  | ok b =>
    cases Kzg.verify V.E ⟨g, h, gb, α • h⟩ proof.yEvalComm point.2 value proof.kzg with
    | error x => simp
    | ok b' => simp [pure, Except.pure]

end Bivariate

namespace TUnivariate

/-- C78: the transparent univariate verifier checks the point `(z^(number of coefficient keys), z)`. -/
theorem C78_point (ck : List G1 × List G2) (h1 : ck.1 ≠ []) (h2 : ck.2 ≠ []) (com : GT)
    (z value : F) (proof : TpcProof F G1 GT) :
    verify V ck com z value proof =
      TBivariate.verify V ck com (z ^ ck.1.length, z) value proof := by
  have l1 : ck.1.length ≠ 0 := fun h => h1 (List.length_eq_zero_iff.mp h)
  have l2 : ck.2.length ≠ 0 := fun h => h2 (List.length_eq_zero_iff.mp h)
  rw [verify, parseDegrees, if_neg (by tauto)]
  simp only [ok_bind, Nat.sub_add_cancel (Nat.one_le_iff_ne_zero.mpr l1)]

end TUnivariate

/-! ## C79: two values at one point -/

/-- Two different messages with the same commitment. -/
def Collides {A K C : Type} [AddMonoid C] (φ : A → K → C) (ck : List K) (m m' : List A) : Prop :=
  m.length = ck.length ∧ m'.length = ck.length ∧ m ≠ m' ∧ dot φ m ck = dot φ m' ck

namespace TBivariate

/-- The runs of a prover that opens a commitment at `(x, y)`: the row commitment it sends and the trees of
runs of the two inner arguments. -/
structure Opening (F G1 GT : Type) where
  x : F
  y : F
  value : F
  row : G1
  second : SsmExtract.Tree F G1 (GT × IdentityOutput G1)
  first : SsmExtract.Tree F F (G1 × IdentityOutput F)

/-- All runs are accepted. -/
def Opening.Accepts (e : G1 →ₗ[F] G2 →ₗ[F] GT) (ck : List G1 × List G2) (com : GT)
    (o : Opening F G1 GT) : Prop :=
  o.second.Accepts (smulMap F G1) e (fun t => ⟨[t]⟩) ck.2 (powers o.x ck.2.length) (com, ⟨[o.row]⟩) ∧
  o.first.Accepts (mulMap F) (LinearMap.lsmul F G1) (fun t => ⟨[t]⟩) ck.1 (powers o.y ck.1.length)
    (o.row, ⟨[o.value]⟩)

/-- The rows `R` are committed to by `com`, the coefficients `r` to by the rows combined at `x`, and the value at `y`
is `value`. -/
def Knows (e : G1 →ₗ[F] G2 →ₗ[F] GT) (ck : List G1 × List G2) (com : GT) (x y value : F) (R : List G1)
    (r : List F) : Prop :=
  R.length = ck.2.length ∧ com = dot (e · ·) R ck.2 ∧
    dot (smulMap F G1 · ·) R (powers x ck.2.length) = dot (LinearMap.lsmul F G1 · ·) r ck.1 ∧
    r.length = ck.1.length ∧ value = evalAt r y

/-- What the trees of an opening contain. -/
theorem Opening.Accepts.spec {ck : List G1 × List G2} {com : GT} {o : Opening F G1 GT}
    (h : o.Accepts e ck com) :
    Knows e ck com o.x o.y o.value (SsmExtract.extract o.second) (SsmExtract.extract o.first) := by
  obtain ⟨a1, a2, a3⟩ := SsmExtract.C71_extract
    (Extract.reads_identity (F := F) (T := G1) PUnit.unit) _ _ _ _ h.1
  obtain ⟨b1, b2, b3⟩ := SsmExtract.C71_extract
    (Extract.reads_identity (F := F) (T := F) PUnit.unit) _ _ _ _ h.2
  have a3 : o.row = dot (smulMap F G1 · ·) (SsmExtract.extract o.second) (powers o.x ck.2.length) := by
    simpa using a3
  refine ⟨a1, a2, a3.symm.trans b2, b1, ?_⟩
  rw [evalAt, b1]
  simpa using b3

theorem binding_of_knows {ck : List G1 × List G2} {com : GT} {x y value value' : F} {R R' : List G1} {r r' : List F}
    (h : Knows e ck com x y value R r) (h' : Knows e ck com x y value' R' r') (hv : value ≠ value') :
    Collides (e · ·) ck.2 R R' ∨ Collides (LinearMap.lsmul F G1 · ·) ck.1 r r' := by
  obtain ⟨a1, a2, a3, a4, a5⟩ := h
  obtain ⟨b1, b2, b3, b4, b5⟩ := h'
  by_cases hs : R = R'
  · right
    refine ⟨a4, b4, fun hf => hv ?_, ?_⟩
    · rw [a5, b5, hf]
    · rw [← a3, ← b3, hs]
  · left
    exact ⟨a1, b1, hs, by rw [← a2, ← b2]⟩

/-- C79: two accepted openings of one commitment at one point with different values give two messages with
the same commitment, for the key of the rows or for the key of the coefficients. -/
theorem C79_binding {ck : List G1 × List G2} {com : GT} {o o' : Opening F G1 GT}
    (h : o.Accepts e ck com) (h' : o'.Accepts e ck com) (hx : o.x = o'.x) (hy : o.y = o'.y)
    (hv : o.value ≠ o'.value) :
    Collides (e · ·) ck.2 (SsmExtract.extract o.second) (SsmExtract.extract o'.second) ∨
    Collides (LinearMap.lsmul F G1 · ·) ck.1 (SsmExtract.extract o.first)
      (SsmExtract.extract o'.first) := by
  have h2 := h'.spec
  rw [← hx, ← hy] at h2
  exact binding_of_knows h.spec h2 hv

theorem committed_of_knows (hE : V.E.Lawful e) {ck : List G1 × List G2} {com : GT} {coms : List G1}
    {ps : List (List F)} (hps : ps.length ≤ ck.2.length) (hrow : ∀ p ∈ ps, p.length ≤ ck.1.length)
    (hcom : commit V ck ps = .ok (com, coms)) {x y value : F} {R : List G1} {r : List F}
    (h : Knows e ck com x y value R r) (hv : value ≠ evalAt (ps.map fun p => evalAt p y) x) :
    Collides (e · ·) ck.2 R coms ∨
    ∃ q : List F, (∀ z, evalAt q z = evalAt (ps.map fun p => evalAt p z) x) ∧
      Collides (LinearMap.lsmul F G1 · ·) ck.1 r q := by
  obtain ⟨a1, a2, a3, a4, a6⟩ := h
  rw [commit_eq V hE ck ps hps hrow] at hcom
  simp only [Except.ok.injEq, Prod.mk.injEq] at hcom
  obtain ⟨hc, rfl⟩ := hcom
  by_cases hs : R = (resize ps ck.2.length []).map (rowCom ck.1)
  · right
    have hq : ∀ z, evalAt (combined ps x ck.2.length ck.1.length) z =
        evalAt (ps.map fun p => evalAt p z) x := fun z => by
      rw [eval_combined ps x z _ _ hps hrow, evalAt_eq]
    refine ⟨combined ps x ck.2.length ck.1.length, hq, a4, length_combined _ _ _ _, fun hf => hv ?_, ?_⟩
    · rw [a6, hf, hq]
    · rw [← a3, hs, dot_rows]
  · left
    exact ⟨a1, by simp [resize_length], hs, by rw [← a2, hc]⟩

/-- C79: an accepted opening of the commitment to a known polynomial with a value other than the
polynomial's gives a collision with the honest messages. -/
theorem C79_committed (hE : V.E.Lawful e) {ck : List G1 × List G2} {com : GT} {coms : List G1}
    {ps : List (List F)} (hps : ps.length ≤ ck.2.length) (hrow : ∀ p ∈ ps, p.length ≤ ck.1.length)
    (hcom : commit V ck ps = .ok (com, coms)) {o : Opening F G1 GT} (h : o.Accepts e ck com)
    (hv : o.value ≠ evalAt (ps.map fun p => evalAt p o.y) o.x) :
    Collides (e · ·) ck.2 (SsmExtract.extract o.second) coms ∨
    ∃ q : List F, (∀ z, evalAt q z = evalAt (ps.map fun p => evalAt p z) o.x) ∧
      Collides (LinearMap.lsmul F G1 · ·) ck.1 (SsmExtract.extract o.first) q :=
  committed_of_knows hE hps hrow hcom h.spec hv

/-- The prover of the interactive scheme: the messages of the second argument may depend on all challenges
of the first. -/
structure Strategy (F G1 GT : Type) where
  row : G1
  steps2 : List F → (GT × IdentityOutput G1) × (GT × IdentityOutput G1)
  fin2 : List F → G1
  steps1 : List F → List F → (G1 × IdentityOutput F) × (G1 × IdentityOutput F)
  fin1 : List F → List F → F

/-- The prover is accepted for the challenges `cs` and `ds`. -/
def Strategy.Accepted (e : G1 →ₗ[F] G2 →ₗ[F] GT) (ck : List G1 × List G2) (com : GT) (x y value : F)
    (P : Strategy F G1 GT) (cs ds : List F) : Prop :=
  SsmExtract.Run (smulMap F G1) e (fun t => (⟨[t]⟩ : IdentityOutput G1)) ck.2 (powers x ck.2.length)
    (com, ⟨[P.row]⟩) cs (Extract.sent P.steps2 cs) (P.fin2 cs) ∧
  SsmExtract.Run (mulMap F) (LinearMap.lsmul F G1) (fun t => (⟨[t]⟩ : IdentityOutput F)) ck.1
    (powers y ck.1.length) (P.row, ⟨[value]⟩) ds (Extract.sent (P.steps1 cs) ds) (P.fin1 cs ds)

/-- The runs of the prover on the challenges of two trees; `cs` are the challenges of the argument for the
rows that precede the runs of the other argument. -/
def Strategy.opening (P : Strategy F G1 GT) (x y value : F) {k l : ℕ} (t : Extract.Chals F 3 k) (cs : List F)
    (t' : Extract.Chals F 3 l) : Opening F G1 GT :=
  ⟨x, y, value, P.row, SsmExtract.build P.steps2 P.fin2 t, SsmExtract.build (P.steps1 cs) (P.fin1 cs) t'⟩

open Classical in
/-- C79: a prover accepted for more than `2 k |S|^(k-1) |S|^l` and more than `|S|^k 2 l |S|^(l-1)` of the
`|S|^(k+l)` challenge pairs over a set `S` of non-zero challenges has an accepted opening. -/
theorem C79_runs (k l : ℕ) (ck : List G1 × List G2) (h2 : ck.2.length = 2 ^ k) (h1 : ck.1.length = 2 ^ l)
    (com : GT) (x y value : F) (P : Strategy F G1 GT) (S : Finset F) (hS : ∀ c ∈ S, c ≠ 0)
    (hmany : max (2 * k * S.card ^ (k - 1) * S.card ^ l) (S.card ^ k * (2 * l * S.card ^ (l - 1))) <
      (((Fintype.piFinset fun _ : Fin k => S) ×ˢ (Fintype.piFinset fun _ : Fin l => S)).filter fun c =>
        P.Accepted e ck com x y value (List.ofFn c.1) (List.ofFn c.2)).card) :
    ∃ (t : Extract.Chals F 3 k) (cs : List F) (t' : Extract.Chals F 3 l),
      (P.opening x y value t cs t').Accepts e ck com := by
  set A := Fintype.piFinset fun _ : Fin k => S with hA
  set B := Fintype.piFinset fun _ : Fin l => S with hB
  have cA : A.card = S.card ^ k := by simp [hA]
  have cB : B.card = S.card ^ l := by simp [hB]
  obtain ⟨hm1, hm2⟩ := max_lt_iff.mp hmany
  set Q := (A ×ˢ B).filter fun c => P.Accepted e ck com x y value (List.ofFn c.1) (List.ofFn c.2) with hQ
  -- the second argument
  have hsec : 2 * k * S.card ^ (k - 1) < (A.filter fun cs =>
      SsmExtract.Run (smulMap F G1) e (fun t => (⟨[t]⟩ : IdentityOutput G1)) ck.2 (powers x ck.2.length)
        (com, ⟨[P.row]⟩) (List.ofFn cs) (Extract.sent P.steps2 (List.ofFn cs))
        (P.fin2 (List.ofFn cs))).card := by
    by_contra hcon
    have hsub : Q ⊆ (A.filter fun cs =>
        SsmExtract.Run (smulMap F G1) e (fun t => (⟨[t]⟩ : IdentityOutput G1)) ck.2
        (powers x ck.2.length) (com, ⟨[P.row]⟩) (List.ofFn cs) (Extract.sent P.steps2 (List.ofFn cs))
        (P.fin2 (List.ofFn cs))) ×ˢ B := by
      intro c hc
      obtain ⟨c1, c2⟩ := Finset.mem_filter.mp hc
      obtain ⟨c3, c4⟩ := Finset.mem_product.mp c1
      exact Finset.mem_product.mpr ⟨Finset.mem_filter.mpr ⟨c3, c2.1⟩, c4⟩
    have := Finset.card_le_card hsub
    rw [Finset.card_product, cB] at this
    have h3 := Nat.mul_le_mul_right (S.card ^ l) (not_lt.mp hcon)
    omega
  obtain ⟨t2, ht2⟩ := Extract.exists_tree 2 S k (fun cs =>
      SsmExtract.Run (smulMap F G1) e (fun t => (⟨[t]⟩ : IdentityOutput G1)) ck.2 (powers x ck.2.length)
        (com, ⟨[P.row]⟩) cs (Extract.sent P.steps2 cs) (P.fin2 cs)) hsec
  -- the first argument, after some challenges
  have hfst : ∃ cs ∈ A, 2 * l * S.card ^ (l - 1) < (B.filter fun ds =>
      SsmExtract.Run (mulMap F) (LinearMap.lsmul F G1) (fun t => (⟨[t]⟩ : IdentityOutput F)) ck.1
        (powers y ck.1.length) (P.row, ⟨[value]⟩) (List.ofFn ds)
        (Extract.sent (P.steps1 (List.ofFn cs)) (List.ofFn ds))
        (P.fin1 (List.ofFn cs) (List.ofFn ds))).card := by
    by_contra hcon
    push Not at hcon
    have hf : Q.card = ∑ cs ∈ A, (Q.filter fun c => c.1 = cs).card :=
      Finset.card_eq_sum_card_fiberwise fun c hc =>
        (Finset.mem_product.mp (Finset.mem_filter.mp hc).1).1
    have hle : ∀ cs ∈ A, (Q.filter fun c => c.1 = cs).card ≤ 2 * l * S.card ^ (l - 1) := by
      intro cs hcs
      refine le_trans ?_ (hcon cs hcs)
      refine Finset.card_le_card_of_injOn (fun c => c.2) ?_ ?_
      · intro c hc
        obtain ⟨c1, rfl⟩ := Finset.mem_filter.mp hc
        obtain ⟨c2, c3⟩ := Finset.mem_filter.mp c1
        exact Finset.mem_filter.mpr ⟨(Finset.mem_product.mp c2).2, c3.2⟩
      · intro c hc d hd heq
        have hc := (Finset.mem_filter.mp hc).2
        have hd := (Finset.mem_filter.mp hd).2
        exact Prod.ext (hc.trans hd.symm) heq
    have := Finset.sum_le_card_nsmul A _ _ hle
    rw [← hf, cA, smul_eq_mul] at this
    omega
  obtain ⟨cs, -, hfst⟩ := hfst
  obtain ⟨t1, ht1⟩ := Extract.exists_tree 2 S l (fun ds =>
      SsmExtract.Run (mulMap F) (LinearMap.lsmul F G1) (fun t => (⟨[t]⟩ : IdentityOutput F)) ck.1
        (powers y ck.1.length) (P.row, ⟨[value]⟩) ds
        (Extract.sent (P.steps1 (List.ofFn cs)) ds) (P.fin1 (List.ofFn cs) ds)) hfst
  exact ⟨t2, List.ofFn cs, t1,
    SsmExtract.build_accepts S hS t2 _ _ _ _ _ h2 (by simp [h2]) ht2,
    SsmExtract.build_accepts S hS t1 _ _ _ _ _ h1 (by simp [h1]) ht1⟩

open Classical in
/-- C79: for a committed polynomial and a wrong value, every prover accepted more often than that yields
a collision with the honest messages. -/
theorem C79_soundness (hE : V.E.Lawful e) (k l : ℕ) (ck : List G1 × List G2) (h2 : ck.2.length = 2 ^ k)
    (h1 : ck.1.length = 2 ^ l) (ps : List (List F)) (hps : ps.length ≤ ck.2.length)
    (hrow : ∀ p ∈ ps, p.length ≤ ck.1.length) (com : GT) (coms : List G1)
    (hcom : commit V ck ps = .ok (com, coms)) (x y value : F)
    (hv : value ≠ evalAt (ps.map fun p => evalAt p y) x) (P : Strategy F G1 GT) (S : Finset F)
    (hS : ∀ c ∈ S, c ≠ 0) :
    (((Fintype.piFinset fun _ : Fin k => S) ×ˢ (Fintype.piFinset fun _ : Fin l => S)).filter fun c =>
        P.Accepted e ck com x y value (List.ofFn c.1) (List.ofFn c.2)).card ≤
      max (2 * k * S.card ^ (k - 1) * S.card ^ l) (S.card ^ k * (2 * l * S.card ^ (l - 1))) ∨
    ∃ (t : Extract.Chals F 3 k) (cs : List F) (t' : Extract.Chals F 3 l),
      Collides (e · ·) ck.2 (SsmExtract.extract (P.opening x y value t cs t').second) coms ∨
      ∃ q : List F, (∀ z, evalAt q z = evalAt (ps.map fun p => evalAt p z) x) ∧
        Collides (LinearMap.lsmul F G1 · ·) ck.1
          (SsmExtract.extract (P.opening x y value t cs t').first) q := by
  by_cases hmany : (((Fintype.piFinset fun _ : Fin k => S) ×ˢ
      (Fintype.piFinset fun _ : Fin l => S)).filter fun c =>
        P.Accepted e ck com x y value (List.ofFn c.1) (List.ofFn c.2)).card ≤
      max (2 * k * S.card ^ (k - 1) * S.card ^ l) (S.card ^ k * (2 * l * S.card ^ (l - 1)))
  · exact Or.inl hmany
  · right
    obtain ⟨t, cs, t', ho⟩ := C79_runs k l ck h2 h1 com x y value P S hS (not_le.mp hmany)
    exact ⟨t, cs, t', C79_committed hE hps hrow hcom ho hv⟩

end TBivariate

namespace Bivariate

/-- The runs of a prover that opens a commitment of the scheme with a reference string. -/
structure Opening (F G1 GT : Type) where
  x : F
  y : F
  value : F
  row : G1
  ip : SsmExtract.Tree F G1 (GT × IdentityOutput G1)
  kzg : G1

/-- All runs are accepted. -/
def Opening.Accepts (E : Engine G1 G2 GT TF) (e : G1 →ₗ[F] G2 →ₗ[F] GT) (v : VerifierSRS G1 G2)
    (ck : List G2) (com : GT) (o : Opening F G1 GT) : Prop :=
  o.ip.Accepts (smulMap F G1) e (fun t => ⟨[t]⟩) ck (powers o.x ck.length) (com, ⟨[o.row]⟩) ∧
  Kzg.verify E v o.row o.y o.value o.kzg = .ok true

/-- C79: two accepted openings at one point with different values give a collision of the keys, or
`(α - y)⁻¹ g` for the trapdoor `α`. -/
theorem C79_binding (hE : V.E.Lawful e) (g : G1) (h : G2) (gb : G1) (α : F)
    (hnd : ∀ x, e x h = 0 → x = 0) (hg : g ≠ 0) {ck : List G2} {com : GT} {o o' : Opening F G1 GT}
    (ho : o.Accepts V.E e ⟨g, h, gb, α • h⟩ ck com) (ho' : o'.Accepts V.E e ⟨g, h, gb, α • h⟩ ck com)
    (hx : o.x = o'.x) (hy : o.y = o'.y) (hv : o.value ≠ o'.value) :
    Collides (e · ·) ck (SsmExtract.extract o.ip) (SsmExtract.extract o'.ip) ∨
    α ≠ o.y ∧ (o'.value - o.value)⁻¹ • (o.kzg - o'.kzg) = (α - o.y)⁻¹ • g := by
  obtain ⟨a1, a2, a3⟩ := SsmExtract.C71_extract
    (Extract.reads_identity (F := F) (T := G1) PUnit.unit) _ _ _ _ ho.1
  obtain ⟨b1, b2, b3⟩ := SsmExtract.C71_extract
    (Extract.reads_identity (F := F) (T := G1) PUnit.unit) _ _ _ _ ho'.1
  by_cases hs : SsmExtract.extract o.ip = SsmExtract.extract o'.ip
  · right
    have hU : o.row = o'.row := by
      simp only [List.head?_cons, Option.some.injEq, LinearMap.id_apply] at a3 b3
      rw [a3, b3, hs, hx]
    have h2 := ho'.2
    rw [← hU, ← hy] at h2
    exact (Kzg.C38_double_opening hE g h gb α o.y o.value o'.value o.row o.kzg o'.kzg hv ho.2 h2).2
      hnd hg
  · left
    refine ⟨a1, b1, hs, ?_⟩
    have a2 : com = _ := a2
    have b2 : com = _ := b2
    rw [← a2, ← b2]

/-- C79: an accepted opening of the commitment to a known polynomial with a wrong value gives a collision
with the row commitments, or `(α - y)⁻¹ g`, computed from the proof and the quotient `w` of the
polynomial by `Y - y`. -/
theorem C79_committed (hE : V.E.Lawful e) (srs : SRS G1 G2 × List G1) (g : G1) (h : G2) (α β : F)
    (n m : ℕ) (hs : IsSrs srs g h α β n m) (hnd : ∀ x, e x h = 0 → x = 0) (hg : g ≠ 0)
    (ps : List (List F)) (hps : ps.length ≤ n + 1)
    (hrow : ∀ p ∈ ps, p.getLast? ≠ some 0 ∧ p.length ≤ m + 1) (com : GT) (coms : List G1)
    (hcom : commit V srs ps = .ok (com, coms)) (gb : G1) (o : Opening F G1 GT)
    (ho : o.Accepts V.E e ⟨g, h, gb, α • h⟩ srs.1.commitmentKeys.1 com)
    (hv : o.value ≠ evalAt (ps.map fun p => evalAt p o.y) o.x) :
    Collides (e · ·) srs.1.commitmentKeys.1 (SsmExtract.extract o.ip) coms ∨
    ∃ w : List F, (∀ z, evalAt (ps.map fun p => evalAt p z) o.x =
        evalAt (ps.map fun p => evalAt p o.y) o.x + (z - o.y) * evalAt w z) ∧ α ≠ o.y ∧
      (evalAt (ps.map fun p => evalAt p o.y) o.x - o.value)⁻¹ • (o.kzg - evalAt w α • g) =
        (α - o.y)⁻¹ • g := by
  have hrow' : ∀ p ∈ ps, p.length ≤ m + 1 := fun p hp => (hrow p hp).2
  obtain ⟨a1, a2, a3⟩ := SsmExtract.C71_extract
    (Extract.reads_identity (F := F) (T := G1) PUnit.unit) _ _ _ _ ho.1
  have hk := length_keys hs
  rw [commit_eq V hE srs g h α β n m hs ps hps hrow] at hcom
  simp only [Except.ok.injEq, Prod.mk.injEq] at hcom
  obtain ⟨hc, rfl⟩ := hcom
  by_cases hs' : SsmExtract.extract o.ip = (resize ps (n + 1) []).map fun p => polyEval p α • g
  · right
    simp only [List.head?_cons, Option.some.injEq, LinearMap.id_apply] at a3
    rw [hs', hk] at a3
    have hU : o.row = polyEval (polyOf (combined ps o.x n m)) α • g := by
      rw [a3, polyEval_polyOf]
      exact dot_rows g α o.x ps n m hps hrow'
    have hhon := Kzg.complete hE g h gb α o.y (polyOf (combined ps o.x n m))
    rw [← hU, polyEval_polyOf, ← eval_combined ps o.x o.y n m hps hrow'] at hhon
    refine ⟨polyDivLinear (polyOf (combined ps o.x n m)) o.y, fun z => ?_, ?_⟩
    · rw [eval_combined ps o.x z n m hps hrow', eval_combined ps o.x o.y n m hps hrow',
        evalAt_eq (polyDivLinear _ _), polyDivLinear_spec, polyEval_polyOf, polyEval_polyOf]
      ring
    rw [evalAt_eq (polyDivLinear _ _)]
    exact (Kzg.C38_double_opening hE g h gb α o.y _ _ o.row o.kzg _ hv ho.2 hhon).2 hnd hg
  · left
    refine ⟨a1, by simp [resize_length, hk], hs', ?_⟩
    have a2 : com = _ := a2
    rw [← a2, hc]

end Bivariate

/-! ## C80: openings at enough points give the polynomial -/

namespace TBivariate

theorem dot_ofFn {A B C : Type} [AddCommMonoid C] (β : A → B → C) : ∀ (n : ℕ) (f : Fin n → A)
    (g : Fin n → B), dot β (List.ofFn f) (List.ofFn g) = ∑ i, β (f i) (g i)
  | 0, _, _ => by simp
  | n + 1, f, g => by
    rw [List.ofFn_succ, List.ofFn_succ, dot_cons, dot_ofFn β n, Fin.sum_univ_succ]

/-- Coefficient `j` of the polynomial that is 1 at `x i` and 0 at the other points. -/
noncomputable def weight {n : ℕ} (x : Fin n → F) (i : Fin n) (j : ℕ) : F :=
  (Lagrange.basis Finset.univ x i).coeff j

theorem sum_weight {n : ℕ} (x : Fin n → F) (hx : Function.Injective x) (j l : Fin n) :
    ∑ i, weight x i j * x i ^ (l : ℕ) = if l = j then 1 else 0 := by
  have h := Lagrange.eq_interpolate (s := Finset.univ) (v := x) (f := Polynomial.X ^ (l : ℕ))
    hx.injOn (lt_of_le_of_lt (Polynomial.degree_X_pow_le _) (by simp))
  have h := congrArg (fun p => p.coeff (j : ℕ)) h
  simp only [Lagrange.interpolate_apply, Polynomial.finsetSum_coeff, Polynomial.coeff_C_mul,
    Polynomial.coeff_X_pow, Polynomial.eval_pow, Polynomial.eval_X] at h
  rw [Finset.sum_congr rfl fun i _ => mul_comm (weight x i j) (x i ^ (l : ℕ))]
  refine Eq.trans h.symm ?_
  by_cases hl : l = j
  · simp [hl]
  · have : (j : ℕ) ≠ l := fun h => hl (Fin.ext h.symm)
    simp [hl, this]

/-- The result of extraction. -/
inductive Found (F G1 : Type) : Type
  | polynomial (ps : List (List F))
  | collision (m m' : List G1)

/-- What the extractor promises: a polynomial of the right size whose commitment is `com`, or two messages
with the same commitment. -/
def Found.Good (V : Env ρ F G1 G2 GT TF) (e : G1 →ₗ[F] G2 →ₗ[F] GT) (ck : List G1 × List G2) (com : GT) :
    Found F G1 → Prop
  | polynomial ps => ps.length = ck.2.length ∧ (∀ p ∈ ps, p.length = ck.1.length) ∧
      ∃ coms, commit V ck ps = .ok (com, coms)
  | collision m m' => Collides (e · ·) ck.2 m m'

open Classical in
/-- Interpolates the combined rows `r i`, which are known at the points `x i`, unless the rows `R i` differ. `m` is the
number of coefficients of a row. -/
noncomputable def interpolate {n : ℕ} (m : ℕ) (x : Fin n → F) (R : Fin n → List G1) (r : Fin n → List F) :
    Found F G1 :=
  if h : ∃ c : Fin n × Fin n, R c.1 ≠ R c.2 then .collision (R h.choose.1) (R h.choose.2)
  else .polynomial (List.ofFn fun j : Fin n => lin m (List.ofFn fun i => weight x i j) (List.ofFn r))

theorem interpolate_good (hE : V.E.Lawful e) (ck : List G1 × List G2) (com : GT)
    {n : ℕ} (hn : ck.2.length = n) (hpos : 1 ≤ n) (x : Fin n → F) (hx : Function.Injective x)
    (R : Fin n → List G1) (r : Fin n → List F) (hR : ∀ i, (R i).length = ck.2.length)
    (hcom : ∀ i, com = dot (e · ·) (R i) ck.2) (hr : ∀ i, (r i).length = ck.1.length)
    (hrow : ∀ i, dot (smulMap F G1 · ·) (R i) (powers (x i) ck.2.length) =
      dot (LinearMap.lsmul F G1 · ·) (r i) ck.1) :
    (interpolate ck.1.length x R r).Good V e ck com := by
  classical
  rw [interpolate]
  split_ifs with hne
  · exact ⟨hR _, hR _, hne.choose_spec, by rw [← hcom, ← hcom]⟩
  · push Not at hne
    set m := ck.1.length with hm
    let i0 : Fin n := ⟨0, hpos⟩
    have hR' : ∀ i, R i = R i0 := fun i => hne (i, i0)
    have r1 := hR i0
    have r2 := hcom i0
    rw [hn] at r1
    have lens : ∀ q ∈ List.ofFn r, q.length = m := by
      intro q hq
      obtain ⟨i, rfl⟩ := (List.mem_ofFn' _ _).mp hq
      exact hr i
    set ps := List.ofFn fun j : Fin n => lin m (List.ofFn fun i => weight x i j) (List.ofFn r) with hps
    have lps : ps.length = n := by simp [hps]
    have lrow : ∀ p ∈ ps, p.length = m := by
      intro p hp
      obtain ⟨j, rfl⟩ := (List.mem_ofFn' _ _).mp hp
      exact length_lin _ _ _ lens
    refine ⟨lps.trans hn.symm, lrow, (resize ps n []).map (rowCom ck.1), ?_⟩
    rw [commit_eq V hE ck ps (lps.trans hn.symm).le fun p hp => (lrow p hp).le, hn]
    have hrows : (resize ps n []).map (rowCom ck.1) = R i0 := by
      rw [resize_of_length_le _ _ _ lps.le, lps, Nat.sub_self, List.replicate_zero, List.append_nil]
      refine List.ext_getElem (by simp [lps, r1]) fun j h1 h2 => ?_
      have hj : j < n := by simpa [lps] using h1
      have hpj : ps[j]'(by rw [lps]; exact hj) =
          lin m (List.ofFn fun i => weight x i j) (List.ofFn r) := by simp [hps]
      rw [List.getElem_map, hpj, rowCom, pad]
      have hlen := length_lin m (List.ofFn fun i => weight x i j) (List.ofFn r) lens
      rw [resize_of_length_le _ _ _ (by rw [hlen]), hlen, Nat.sub_self, List.replicate_zero,
        List.append_nil, dot_lin _ _ _ _ _ lens, dot_ofFn]
      have hU : ∀ i, dot (LinearMap.lsmul F G1 · ·) (r i) ck.1 =
          ∑ l : Fin n, (x i ^ (l : ℕ)) • (R i0)[l]'(by rw [r1]; exact l.2) := by
        intro i
        rw [← hrow, hR', hn]
        have e1 : R i0 = List.ofFn fun l : Fin n => (R i0)[l]'(by rw [r1]; exact l.2) := by
          refine List.ext_getElem (by simp [r1]) fun l h1 h2 => by simp
        have e2 : powers (x i) n = List.ofFn fun l : Fin n => x i ^ (l : ℕ) := by
          refine List.ext_getElem (by simp) fun l h1 h2 => by simp [powers]
        conv_lhs => rw [e1, e2]
        rw [dot_ofFn]
        rfl
      simp only [hU, Finset.smul_sum, smul_smul]
      rw [Finset.sum_comm]
      simp only [← Finset.sum_smul]
      rw [Finset.sum_congr rfl fun l _ => by
        rw [sum_weight x hx ⟨j, hj⟩ l]]
      simp
    rw [hrows, ← r2]

/-- The extractor. -/
noncomputable def extract {n : ℕ} (m : ℕ) (o : Fin n → Opening F G1 GT) : Found F G1 :=
  interpolate m (fun i => (o i).x) (fun i => SsmExtract.extract (o i).second) fun i => SsmExtract.extract (o i).first

/-- C80: accepted openings at as many different `x` as there are rows determine a polynomial that commits
to `com`, or a collision of the row keys. -/
theorem C80_extract (hE : V.E.Lawful e) (ck : List G1 × List G2) (com : GT)
    {n : ℕ} (hn : ck.2.length = n) (hpos : 1 ≤ n) (o : Fin n → Opening F G1 GT)
    (h : ∀ i, (o i).Accepts e ck com)
    (hx : Function.Injective fun i => (o i).x) : (extract ck.1.length o).Good V e ck com :=
  interpolate_good hE ck com hn hpos _ hx _ _ (fun i => (h i).spec.1) (fun i => (h i).spec.2.1)
    (fun i => (h i).spec.2.2.2.1) fun i => (h i).spec.2.2.1

/-- C80: every further accepted opening has the value of that polynomial, or gives a collision. -/
theorem C80_value (hE : V.E.Lawful e) (ck : List G1 × List G2) (com : GT) (ps : List (List F))
    (hg : (Found.polynomial ps : Found F G1).Good V e ck com) (o : Opening F G1 GT)
    (h : o.Accepts e ck com) :
    o.value = evalAt (ps.map fun p => evalAt p o.y) o.x ∨
    (∃ coms, commit V ck ps = .ok (com, coms) ∧
      Collides (e · ·) ck.2 (SsmExtract.extract o.second) coms) ∨
    ∃ q : List F, (∀ z, evalAt q z = evalAt (ps.map fun p => evalAt p z) o.x) ∧
      Collides (LinearMap.lsmul F G1 · ·) ck.1 (SsmExtract.extract o.first) q := by
  obtain ⟨h1, h2, coms, h3⟩ := hg
  by_cases hv : o.value = evalAt (ps.map fun p => evalAt p o.y) o.x
  · exact Or.inl hv
  · right
    rcases C79_committed hE h1.le (fun p hp => (h2 p hp).le) h3 h hv with h | h
    · exact Or.inl ⟨coms, h3, h⟩
    · exact Or.inr h

end TBivariate

namespace TUnivariate

theorem resize_trim : ∀ r : List F, resize (trim r) r.length 0 = r
  | [] => rfl
  | a :: r => by
    have ih := resize_trim r
    rw [resize_of_length_le _ _ _ (length_trim_le _)] at ih ⊢
    rw [trim]
    cases h : trim r with
    | nil =>
      rw [h] at ih
      by_cases ha : a = 0
      · simp only [ha, if_true]
        simp only [List.nil_append, List.length_nil, Nat.sub_zero] at ih ⊢
        rw [List.length_cons, List.replicate_succ, ih]
      · simp only [if_neg ha]
        simp only [List.nil_append, List.length_nil, Nat.sub_zero] at ih
        simp only [List.length_cons, List.length_nil, Nat.add_sub_add_right, Nat.sub_zero,
          List.cons_append, List.nil_append, ih]
    | cons b bs =>
      rw [h] at ih
      simp only [List.length_cons, Nat.add_sub_add_right, List.cons_append] at ih ⊢
      rw [ih]

theorem takeRows_flatten (w : ℕ) : ∀ ps : List (List F), (∀ p ∈ ps, p.length = w) →
    takeRows w ps.length ps.flatten = .ok (ps.map polyOf)
  | [], _ => rfl
  | p :: ps, h => by
    have hp := h p (by simp)
    rw [List.length_cons, takeRows, List.flatten_cons, takeCoeffs_eq w _ (by simp [hp])]
    simp only [ok_bind]
    rw [List.drop_left' hp, List.take_left' hp, takeRows_flatten w ps fun q hq => h q (by simp [hq])]
    rfl

theorem length_flatten (w : ℕ) : ∀ ps : List (List F), (∀ p ∈ ps, p.length = w) →
    ps.flatten.length = ps.length * w
  | [], _ => by simp
  | p :: ps, h => by
    rw [List.flatten_cons, List.length_append, h p (by simp), length_flatten w ps fun q hq => h q (by simp [hq]),
      List.length_cons]
    ring

/-- C80 for the univariate scheme: the extracted rows, read one after the other, are a polynomial whose
univariate commitment is `com`, and its value at `z` is the bivariate one at `(z^m, z)`. -/
theorem C80_flatten (hE : V.E.Lawful e) (ck : List G1 × List G2) (h1 : ck.1 ≠ []) (h2 : ck.2 ≠ [])
    (com : GT) (ps : List (List F))
    (hg : (TBivariate.Found.polynomial ps : TBivariate.Found F G1).Good V e ck com) :
    ps.flatten.length = ck.2.length * ck.1.length ∧
    (∃ coms, commit V ck ps.flatten = .ok (com, coms)) ∧
    ∀ z, evalAt ps.flatten z = evalAt (ps.map fun p => evalAt p z) (z ^ ck.1.length) := by
  obtain ⟨g1, g2, coms, g3⟩ := hg
  have l1 : 1 ≤ ck.1.length := List.length_pos_iff.mpr h1
  have l2 : 1 ≤ ck.2.length := List.length_pos_iff.mpr h2
  have hl := length_flatten _ ps g2
  rw [g1] at hl
  have hd : parseDegrees ck = .ok (ck.2.length - 1, ck.1.length - 1) := by
    rw [parseDegrees, if_neg (by omega)]
  have hform : bivariateForm (ck.2.length - 1, ck.1.length - 1) ps.flatten = .ok (ps.map polyOf) := by
    rw [bivariateForm, Nat.sub_add_cancel l1, Nat.sub_add_cancel l2, resize_of_length_le _ _ _ hl.le, hl,
      Nat.sub_self, List.replicate_zero, List.append_nil, ← g1, takeRows_flatten _ _ g2]
  refine ⟨hl, ⟨coms, ?_⟩, fun z => ?_⟩
  · rw [commit, hd]
    simp only [ok_bind]
    rw [hform]
    simp only [ok_bind]
    rw [TBivariate.commit_eq V hE ck ps g1.le fun p hp => (g2 p hp).le] at g3
    rw [TBivariate.commit_eq V hE ck _ (by rw [List.length_map, g1]) fun p hp => by
      obtain ⟨q, hq, rfl⟩ := List.mem_map.mp hp
      exact (length_trim_le q).trans (g2 q hq).le, ← g3]
    have : (resize (ps.map polyOf) ck.2.length []).map (TBivariate.rowCom ck.1) =
        (resize ps ck.2.length []).map (TBivariate.rowCom ck.1) := by
      rw [resize_of_length_le _ _ _ g1.le, resize_of_length_le _ _ _ (by rw [List.length_map, g1]),
        List.length_map, g1, Nat.sub_self, List.replicate_zero, List.append_nil, List.append_nil,
        List.map_map]
      refine List.map_congr_left fun p hp => ?_
      have e1 := resize_trim p
      have e2 : resize p ck.1.length 0 = p := by
        rw [resize_of_length_le _ _ _ (g2 p hp).le, g2 p hp, Nat.sub_self, List.replicate_zero,
          List.append_nil]
      rw [g2 p hp] at e1
      simp only [Function.comp_apply, TBivariate.rowCom, TBivariate.pad, polyOf, e1, e2]
    rw [this]
  · obtain ⟨rows, f1, -, -, f4⟩ := bivariateForm_eq (ck.2.length - 1) (ck.1.length - 1) ps.flatten
    rw [hform] at f1
    have f1 := Except.ok.inj f1
    subst f1
    have := f4 z
    rw [Nat.sub_add_cancel l1, Nat.sub_add_cancel l2, ← hl, List.take_length, List.map_map] at this
    simp only [evalAt_eq]
    rw [← this]
    simp only [Function.comp_def, polyEval_polyOf]

end TUnivariate

/-! ## C81: KZG against algebraic provers -/

namespace Kzg

open Polynomial in
/-- A coefficient list as a polynomial. -/
noncomputable def toPoly : List F → F[X]
  | [] => 0
  | a :: p => C a + X * toPoly p

open Polynomial in
theorem natDegree_toPoly : ∀ p : List F, (toPoly p).natDegree ≤ p.length - 1
  | [] => by simp [toPoly]
  | [a] => by simp [toPoly]
  | a :: b :: p => by
    have ih := natDegree_toPoly (b :: p)
    rw [toPoly]
    refine (natDegree_add_le _ _).trans (max_le (by simp) ((natDegree_mul_le).trans ?_))
    have := natDegree_X_le (R := F)
    simp only [List.length_cons] at ih ⊢
    omega

open Polynomial in
theorem eval_toPoly (z : F) : ∀ p : List F, (toPoly p).eval z = evalAt p z
  | [] => by simp [toPoly, evalAt]
  | a :: p => by
    rw [toPoly, eval_add, eval_mul, eval_C, eval_X, eval_toPoly z p, evalAt_eq, evalAt_eq]
    simp [polyEval]

open Polynomial Classical in
/-- C81: if the commitment and the proof are combinations of the powers `α^i g` with known coefficients
`p`, `w`, then for a wrong value the verifier accepts for at most `max (deg p) (deg w + 1)` trapdoors. -/
theorem C81_algebraic {E : Engine G1 G2 GT TF} (hE : E.Lawful e) (g : G1) (h : G2) (gb : G1)
    (hnd : ∀ x, e x h = 0 → x = 0) (hg : g ≠ 0) (p w : List F) (z value : F)
    (hv : value ≠ evalAt p z) (S : Finset F) :
    (S.filter fun α => verify E ⟨g, h, gb, α • h⟩ (evalAt p α • g) z value (evalAt w α • g) =
      .ok true).card ≤ max (p.length - 1) w.length := by
  set f : F[X] := toPoly p - C value - (X - C z) * toPoly w with hf
  have hf0 : f ≠ 0 := by
    intro h0
    have := congrArg (eval z) h0
    simp only [hf, eval_sub, eval_mul, eval_C, eval_X, sub_self, zero_mul, sub_zero, eval_toPoly,
      eval_zero] at this
    exact hv (sub_eq_zero.mp this).symm
  have hdeg : f.natDegree ≤ max (p.length - 1) w.length := by
    rw [hf]
    refine (natDegree_sub_le _ _).trans (max_le ?_ ?_)
    · refine (natDegree_sub_C (p := toPoly p)).le.trans ((natDegree_toPoly p).trans (le_max_left _ _))
    · cases w with
      | nil => simp [toPoly]
      | cons b w =>
        refine natDegree_mul_le.trans ?_
        have h1 := natDegree_toPoly (b :: w)
        rw [natDegree_X_sub_C]
        simp only [List.length_cons] at h1 ⊢
        omega
  have hsub : (S.filter fun α => verify E ⟨g, h, gb, α • h⟩ (evalAt p α • g) z value (evalAt w α • g) =
      .ok true) ⊆ f.roots.toFinset := by
    intro α hα
    have hα := (Finset.mem_filter.mp hα).2
    rw [C38_verdict hE g h gb α z value _ _ hnd, smul_smul, ← sub_smul] at hα
    have hα := smul_left_injective F hg hα
    rw [Multiset.mem_toFinset, mem_roots hf0, IsRoot, hf]
    simp only [eval_sub, eval_mul, eval_C, eval_X, eval_toPoly]
    exact sub_eq_zero.mpr hα
  exact (Finset.card_le_card hsub).trans ((Multiset.toFinset_card_le _).trans
    ((card_roots' f).trans hdeg))

end Kzg

/-! ## Concrete instances -/

namespace TBivariate

/-- The honest runs with challenges 1, 2, 3 for the message `[a, b]`, the key `[k, k']` and the point `x`. -/
def exampleTree (a b k k' x : Toy.F) : SsmExtract.Tree Toy.F Toy.F (Toy.F × IdentityOutput Toy.F) :=
  .node (b * k, ⟨[b]⟩) (a * k', ⟨[a * x]⟩) ![1, 2, 3] ![.leaf (a + b), .leaf (a + 2 * b), .leaf (a + 3 * b)]

/-- An opening of the commitment 27 under the keys `[5, 6]`, `[7, 8]`, made from row commitments `[a, b]` and
combined row `[c, d]`. -/
def exampleOpening (a b c d x : Toy.F) : Opening Toy.F Toy.F Toy.F :=
  ⟨x, 2, c + 2 * d, a + b * x, exampleTree a b 7 8 x, exampleTree c d 5 6 2⟩

/-- `(1 + 2 Y) + X (3 + 4 Y)` has row commitments 17, 39 and commitment 27; its value at `(3, 2)` is 38. -/
theorem exampleOpening_accepts :
    (exampleOpening 17 39 10 14 3).Accepts Toy.e ([5, 6], [7, 8]) 27 := by
  constructor
  all_goals
    refine ⟨by decide, by decide, by decide, by decide, fun i => ?_⟩
    fin_cases i <;> exact ⟨_, _, rfl, rfl, by decide +kernel, by decide +kernel⟩

/-- A collision of the row key (all groups are one-dimensional here) opens the same commitment to 4. -/
theorem exampleOpening_wrong :
    (exampleOpening 25 32 4 0 3).Accepts Toy.e ([5, 6], [7, 8]) 27 := by
  constructor
  all_goals
    refine ⟨by decide, by decide, by decide, by decide, fun i => ?_⟩
    fin_cases i <;> exact ⟨_, _, rfl, rfl, by decide +kernel, by decide +kernel⟩

example := C79_binding exampleOpening_accepts exampleOpening_wrong rfl rfl (by decide)

/-- C79 finds the collision `[17, 39]`, `[25, 32]`. -/
example : SsmExtract.extract (exampleOpening 17 39 10 14 3).second = [17, 39] ∧
    SsmExtract.extract (exampleOpening 25 32 4 0 3).second = [25, 32] ∧
    Collides (Toy.e · ·) [7, 8] [17, 39] [25, 32] := by
  refine ⟨by decide +kernel, by decide +kernel, by decide, by decide, by decide, by decide +kernel⟩

/-- The opening of the same polynomial at `(4, 2)`. -/
theorem exampleOpening_other :
    (exampleOpening 17 39 13 18 4).Accepts Toy.e ([5, 6], [7, 8]) 27 := by
  constructor
  all_goals
    refine ⟨by decide, by decide, by decide, by decide, fun i => ?_⟩
    fin_cases i <;> exact ⟨_, _, rfl, rfl, by decide +kernel, by decide +kernel⟩

/-- C80 applies to the openings at `x = 3` and `x = 4`. -/
example : ∃ ps, extract 2 ![exampleOpening 17 39 10 14 3, exampleOpening 17 39 13 18 4] = .polynomial ps ∧
    (Found.polynomial ps : Found Toy.F Toy.F).Good Toy.env Toy.e ([5, 6], [7, 8]) 27 := by
  have hg := C80_extract (V := Toy.env) Toy.lawful ([5, 6], [7, 8]) 27 (n := 2) rfl (by decide)
    ![exampleOpening 17 39 10 14 3, exampleOpening 17 39 13 18 4]
    (fun i => by fin_cases i; exacts [exampleOpening_accepts, exampleOpening_other]) (by decide)
  have : ¬ ∃ c : Fin 2 × Fin 2,
      SsmExtract.extract (![exampleOpening 17 39 10 14 3, exampleOpening 17 39 13 18 4] c.1).second ≠
      SsmExtract.extract (![exampleOpening 17 39 10 14 3, exampleOpening 17 39 13 18 4] c.2).second := by
    decide +kernel
  rw [extract, interpolate, dif_neg this]
  rw [extract, interpolate] at hg
  erw [dif_neg this] at hg
  exact ⟨_, rfl, hg⟩

/-- With the trapdoor 3 the KZG part opens the row commitment 33 to 5 and to 6; C79 recovers
`(3 - 2)⁻¹ · 1`. -/
example :
    let v : VerifierSRS Toy.F Toy.F := ⟨1, 1, 5, (3 : Toy.F) • 1⟩
    let o : Bivariate.Opening Toy.F Toy.F Toy.F := ⟨3, 2, 5, 33, exampleTree 17 39 7 8 3, 28⟩
    let o' : Bivariate.Opening Toy.F Toy.F Toy.F := ⟨3, 2, 6, 33, exampleTree 17 39 7 8 3, 27⟩
    o.Accepts Toy.E Toy.e v [7, 8] 27 ∧ o'.Accepts Toy.E Toy.e v [7, 8] 27 ∧
      (o'.value - o.value)⁻¹ • (o.kzg - o'.kzg) = ((3 - 2)⁻¹ : Toy.F) • (1 : Toy.F) := by
  refine ⟨⟨exampleOpening_accepts.1, by decide +kernel⟩, ⟨exampleOpening_accepts.1, by decide +kernel⟩,
    by decide +kernel⟩

/-- C81 is tight for a constant claim: for `p = Y` at 0 with the claimed value 3 and the proof 0, exactly
the trapdoor 3 accepts. -/
example : Kzg.verify Toy.E ⟨1, 1, 5, (3 : Toy.F) • 1⟩ (evalAt [0, 1] (3 : Toy.F) • (1 : Toy.F)) (0 : Toy.F) 3
      (evalAt [] (3 : Toy.F) • (1 : Toy.F)) = .ok true ∧
    Kzg.verify Toy.E ⟨1, 1, 5, (4 : Toy.F) • 1⟩ (evalAt [0, 1] (4 : Toy.F) • (1 : Toy.F)) (0 : Toy.F) 3
      (evalAt [] (4 : Toy.F) • (1 : Toy.F)) = .ok false := by
  constructor <;> decide +kernel

end TBivariate

end Ripp
