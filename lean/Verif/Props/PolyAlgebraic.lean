import Verif.Props.PolyBinding

/-!
# C83: knowledge soundness of the polynomial commitment with a reference string

The `G1` elements of an algebraic prover are combinations of the reference string's: `α^i g` and `β g`. The
coefficients of the powers are given as a polynomial. Challenges are arbitrary, as in `C79`.
-/

set_option linter.unusedSectionVars false
set_option linter.unusedVariables false

namespace Ripp

open Spec Polynomial

variable {ρ F G1 G2 GT TF : Type} [Field F] [DecidableEq F] [AddCommGroup G1] [Module F G1]
  [AddCommGroup G2] [Module F G2] [AddCommGroup GT] [Module F GT] [Monoid TF]
  [DecidableEq G1] [DecidableEq GT]
  {V : Env ρ F G1 G2 GT TF} {e : G1 →ₗ[F] G2 →ₗ[F] GT}

namespace SsmExtract

variable {M N C : Type} [AddCommGroup M] [Module F M] [AddCommGroup N] [Module F N]

/-- Applies a map to the final messages. -/
def Tree.map (f : M → N) : Tree F M C → Tree F N C
  | .leaf a => .leaf (f a)
  | .node l r c t => .node l r c fun i => (t i).map f

theorem map_unfold (f : M →ₗ[F] N) (x : F) (v : List M) :
    (Extract.unfold x v).map f = Extract.unfold x (v.map f) := by
  simp [Extract.unfold, smulV, Function.comp_def]

theorem map_addV (f : M →ₗ[F] N) (u v : List M) : (addV u v).map f = addV (u.map f) (v.map f) := by
  simp [addV, List.map_zipWith, List.zipWith_map]

theorem map_smulV (f : M →ₗ[F] N) (c : F) (v : List M) : (smulV c v).map f = smulV c (v.map f) := by
  simp [smulV, Function.comp_def]

/-- The extractor only forms linear combinations. -/
theorem extract_map (f : M →ₗ[F] N) : ∀ t : Tree F M C, extract (t.map f) = (extract t).map f
  | .leaf a => rfl
  | .node l r c t => by
    rw [Tree.map, extract, extract]
    simp only [extract_map f, merge, map_addV, map_smulV, map_unfold]

end SsmExtract

namespace Bivariate

/-- The group element with coefficients `c.1` of the powers of `α` and `c.2` of `β g`. -/
noncomputable def rep (g : G1) (α β : F) : F[X] × F →ₗ[F] G1 where
  toFun c := c.1.eval α • g + (c.2 * β) • g
  map_add' c d := by simp only [Prod.fst_add, Prod.snd_add, eval_add]; module
  map_smul' a c := by
    simp only [Prod.smul_fst, Prod.smul_snd, eval_smul, smul_eq_mul, RingHom.id_apply]; module

/-- The runs of an algebraic prover: every group element in `G1` with its coefficients. -/
structure AlgOpening (F G1 GT : Type) [Field F] where
  x : F
  y : F
  value : F
  row : F[X] × F
  ip : SsmExtract.Tree F (F[X] × F) (GT × IdentityOutput G1)
  kzg : F[X] × F

/-- The runs as the verifier sees them. -/
noncomputable def AlgOpening.opening (o : AlgOpening F G1 GT) (g : G1) (α β : F) : Opening F G1 GT :=
  ⟨o.x, o.y, o.value, rep g α β o.row, o.ip.map (rep g α β), rep g α β o.kzg⟩

/-- The extracted rows. -/
noncomputable def AlgOpening.rows (o : AlgOpening F G1 GT) : List (F[X] × F) := SsmExtract.extract o.ip

/-- The combination `Σ x^i row_i` of the extracted rows. -/
noncomputable def AlgOpening.combined (o : AlgOpening F G1 GT) : F[X] × F :=
  dot (fun r c => c • r) o.rows (powers o.x o.rows.length)

theorem map_dot {M N : Type} [AddCommGroup M] [Module F M] [AddCommGroup N] [Module F N]
    (f : M →ₗ[F] N) : ∀ (u : List M) (w : List F), f (dot (fun r c => c • r) u w) =
      dot (fun r c => c • r) (u.map f) w
  | [], _ => by simp
  | _ :: _, [] => by simp
  | a :: u, c :: w => by simp [map_dot f u w]

/-- C83: from accepted runs of an algebraic prover the extractor gets rows that open the commitment, and the
claimed value is the value of the extracted polynomial, unless the trapdoors are a zero of one of two
explicit non-zero polynomials in `α` and `β`. -/
theorem C83_extract (hE : V.E.Lawful e) (g : G1) (h : G2) (gb : G1) (α β : F)
    (hnd : ∀ x, e x h = 0 → x = 0) (hg : g ≠ 0) (ck : List G2) (com : GT) (o : AlgOpening F G1 GT)
    (ho : (o.opening g α β).Accepts V.E e ⟨g, h, gb, α • h⟩ ck com) :
    o.rows.length = ck.length ∧ com = dot (e · ·) (o.rows.map (rep g α β)) ck ∧
    (o.value = dot (fun r c => c * r.1.eval o.y) o.rows (powers o.x o.rows.length) ∨
      (¬ (powerPart o.row.1 o.kzg.1 o.value o.y = 0 ∧ otherPart o.row.2 o.kzg.2 o.y = 0) ∧
        (powerPart o.row.1 o.kzg.1 o.value o.y).eval α + β * (otherPart o.row.2 o.kzg.2 o.y).eval α = 0) ∨
      (o.combined ≠ o.row ∧
        (o.combined.1 - o.row.1).eval α + β * (o.combined.2 - o.row.2) = 0)) := by
  obtain ⟨a1, a2, a3⟩ := SsmExtract.C71_extract
    (Extract.reads_identity (F := F) (T := G1) PUnit.unit) _ _ _ _ ho.1
  have hrows : SsmExtract.extract (o.opening g α β).ip = o.rows.map (rep g α β) :=
    SsmExtract.extract_map _ _
  simp only [hrows, List.head?_cons, Option.some.injEq, LinearMap.id_apply, List.length_map] at a1 a2 a3
  refine ⟨a1, a2, ?_⟩
  have hcomb : rep g α β o.combined = rep g α β o.row := by
    rw [AlgOpening.combined, map_dot, a1]
    exact a3.symm
  have hc0 : (o.combined.1 - o.row.1).eval α + β * (o.combined.2 - o.row.2) = 0 := by
    have : ((o.combined.1 - o.row.1).eval α + β * (o.combined.2 - o.row.2)) • g = 0 := by
      have h1 : rep g α β (o.combined - o.row) = 0 := by rw [map_sub, hcomb, sub_self]
      rw [← h1]
      simp only [rep, LinearMap.coe_mk, AddHom.coe_mk, Prod.fst_sub, Prod.snd_sub]
      module
    exact (smul_eq_zero.mp this).resolve_right hg
  have hk0 : (powerPart o.row.1 o.kzg.1 o.value o.y).eval α +
      β * (otherPart o.row.2 o.kzg.2 o.y).eval α = 0 := by
    have h2 := (Kzg.C38_verdict hE g h gb α o.y o.value _ _ hnd).mp ho.2
    have : ((powerPart o.row.1 o.kzg.1 o.value o.y).eval α +
        β * (otherPart o.row.2 o.kzg.2 o.y).eval α) • g = 0 := by
      have h3 : rep g α β o.row - o.value • g - (α - o.y) • rep g α β o.kzg = 0 := sub_eq_zero.mpr h2
      rw [← h3]
      simp only [rep, LinearMap.coe_mk, AddHom.coe_mk, powerPart, otherPart, eval_sub, eval_mul, eval_X,
        eval_C]
      module
    exact (smul_eq_zero.mp this).resolve_right hg
  by_cases hz : powerPart o.row.1 o.kzg.1 o.value o.y = 0 ∧ otherPart o.row.2 o.kzg.2 o.y = 0
  · by_cases hne : o.combined = o.row
    · left
      obtain ⟨-, hv⟩ := C70_zero_polynomial _ _ _ _ _ _ hz.1 hz.2
      rw [← hv, ← hne, AlgOpening.combined]
      have key : ∀ (u : List (F[X] × F)) (w : List F), (dot (fun r c => c • r) u w).1.eval o.y =
          dot (fun r c => c * r.1.eval o.y) u w := by
        intro u
        induction u with
        | nil => intro w; simp
        | cons a u ih => intro w; cases w <;> simp [ih]
      exact key _ _
    · exact Or.inr (Or.inr ⟨hne, hc0⟩)
  · exact Or.inr (Or.inl ⟨hz, hk0⟩)

/-- Coefficients, lowest first, of a polynomial of degree at most `m`. -/
noncomputable def coeffs (m : ℕ) (p : F[X]) : List F := polyOf ((List.range (m + 1)).map p.coeff)

theorem polyEval_range (m : ℕ) (p : F[X]) (hp : p.natDegree ≤ m) (z : F) :
    polyEval (coeffs m p) z = p.eval z := by
  rw [coeffs, polyEval_polyOf, ← dot_powers_eq _ z _ le_rfl, eval_eq_sum_range' (n := m + 1) (by omega)]
  simp only [List.length_map, List.length_range, powers]
  rw [dot_map_left, dot_map_right]
  have : ∀ (n s : ℕ), dot (fun i j => (mulMap F (p.coeff i)) (z ^ j)) (List.range' s n) (List.range' s n) =
      ∑ i ∈ Finset.range n, p.coeff (s + i) * z ^ (s + i) := by
    intro n
    induction n with
    | zero => intro s; simp
    | succ n ih =>
      intro s
      rw [List.range'_succ, dot_cons, ih, Finset.sum_range_succ']
      simp only [mulMap_apply, add_zero]
      rw [add_comm]
      congr 1
      refine Finset.sum_congr rfl fun i _ => ?_
      rw [show s + 1 + i = s + (i + 1) by ring]
  simpa [List.range_eq_range'] using this (m + 1) 0

/-- C83: if the rows use the powers only, and those of the reference string, the extracted polynomial's
commitment is the given one. -/
theorem C83_commit (hE : V.E.Lawful e) (srs : SRS G1 G2 × List G1) (g : G1) (h : G2) (α β : F)
    (n m : ℕ) (hs : IsSrs srs g h α β n m) (com : GT) (rows : List (F[X] × F))
    (hlen : rows.length = n + 1)
    (hcom : com = dot (e · ·) (rows.map (rep g α β)) srs.1.commitmentKeys.1)
    (hb : ∀ r ∈ rows, r.2 = 0 ∧ r.1.natDegree ≤ m) :
    (∃ coms, commit V srs (rows.map fun r => coeffs m r.1) = .ok (com, coms)) ∧
    ∀ x y, evalAt ((rows.map fun r => coeffs m r.1).map fun p => evalAt p y) x =
      dot (fun r c => c * r.1.eval y) rows (powers x rows.length) := by
  constructor
  · refine ⟨rows.map (rep g α β), ?_⟩
    rw [commit_eq V hE srs g h α β n m hs _ (by simp [hlen]) ?_]
    · rw [resize_of_length_le _ _ _ (by simp [hlen]), List.length_map, hlen, Nat.sub_self,
        List.replicate_zero, List.append_nil, List.map_map]
      have : (rows.map ((fun p => polyEval p α • g) ∘ fun r => coeffs m r.1)) =
          rows.map (rep g α β) := by
        refine List.map_congr_left fun r hr => ?_
        obtain ⟨h1, h2⟩ := hb r hr
        simp [rep, polyEval_range m r.1 h2, h1]
      rw [this, ← hcom]
    · intro p hp
      obtain ⟨r, -, rfl⟩ := List.mem_map.mp hp
      exact ⟨getLast?_trim _, (length_trim_le _).trans (by simp)⟩
  · intro x y
    rw [List.map_map, evalAt, List.length_map, dot_map_left]
    have : ∀ (u : List (F[X] × F)) (w : List F), (∀ r ∈ u, r.1.natDegree ≤ m) →
        dot (fun r c => ((fun p => evalAt p y) ∘ fun r : F[X] × F => coeffs m r.1) r * c) u w =
        dot (fun r c => c * r.1.eval y) u w := by
      intro u
      induction u with
      | nil => intro w _; simp
      | cons a u ih =>
        intro w hu
        cases w with
        | nil => simp
        | cons c w =>
          rw [dot_cons, dot_cons, ih w fun r hr => hu r (by simp [hr])]
          simp only [Function.comp_apply, evalAt_eq, polyEval_range m a.1 (hu a (by simp))]
          ring
    exact this _ _ fun r hr => (hb r hr).2

/-- C83: each of the two exceptional cases concerns at most `(d + 1) |S|` of the `|S|²` trapdoor pairs, where
`d` bounds the degrees. -/
theorem C83_trapdoors (o : AlgOpening F G1 GT) (d : ℕ) (h1 : o.row.1.natDegree ≤ d)
    (h2 : o.kzg.1.natDegree + 1 ≤ d) (h3 : o.combined.1.natDegree ≤ d) (S : Finset F) :
    (¬ (powerPart o.row.1 o.kzg.1 o.value o.y = 0 ∧ otherPart o.row.2 o.kzg.2 o.y = 0) →
      ((S ×ˢ S).filter fun s => (powerPart o.row.1 o.kzg.1 o.value o.y).eval s.2 +
        s.1 * (otherPart o.row.2 o.kzg.2 o.y).eval s.2 = 0).card ≤ (d + 1) * S.card) ∧
    (o.combined ≠ o.row →
      ((S ×ˢ S).filter fun s => (o.combined.1 - o.row.1).eval s.2 +
        s.1 * (o.combined.2 - o.row.2) = 0).card ≤ (d + 1) * S.card) := by
  refine ⟨fun h => C70_trapdoors _ _ _ _ _ _ h d h1 h2 S, fun h => ?_⟩
  have := card_pairs_le (o.combined.1 - o.row.1) (C (o.combined.2 - o.row.2)) ?_ d
    ((natDegree_sub_le _ _).trans (max_le h3 h1)) (by simp) S
  · simpa using this
  · rintro ⟨ha, hb⟩
    rw [C_eq_zero] at hb
    exact h (Prod.ext (sub_eq_zero.mp ha) (sub_eq_zero.mp hb))

/-- The honest prover for `(1 + 2 Y) + X (3 + 4 Y)` at `(3, 2)`. -/
noncomputable def exampleAlg : AlgOpening Toy.F Toy.F Toy.F :=
  ⟨3, 2, 38, (C 10 + C 14 * X, 0),
    .node (105, ⟨[15]⟩) (56, ⟨[21]⟩) ![1, 2, 3]
      ![.leaf (C 4 + C 6 * X, 0), .leaf (C 7 + C 10 * X, 0), .leaf (C 10 + C 14 * X, 0)],
    (C 14, 0)⟩

theorem exampleAlg_accepts :
    (exampleAlg.opening 1 3 5).Accepts Toy.E Toy.e ⟨1, 1, 5, (3 : Toy.F) • 1⟩ [7, 8] 68 := by
  have : exampleAlg.opening 1 3 5 = ⟨3, 2, 38, 52, TBivariate.exampleTree 7 15 7 8 3, 14⟩ := by
    simp only [exampleAlg, AlgOpening.opening, TBivariate.exampleTree, SsmExtract.Tree.map]
    congr 1
    · simp [rep]; decide
    · congr 1
      funext i
      fin_cases i <;> simp [SsmExtract.Tree.map, rep] <;> decide
    · simp [rep]
  rw [this]
  refine ⟨⟨by decide, by decide, by decide, by decide, fun i => ?_⟩, by decide +kernel⟩
  fin_cases i <;> exact ⟨_, _, rfl, rfl, by decide +kernel, by decide +kernel⟩

example := C83_extract (V := Toy.env) Toy.lawful 1 1 5 3 5 (fun x h => by simpa using h) (by decide) [7, 8] 68
  exampleAlg exampleAlg_accepts

end Bivariate

end Ripp
