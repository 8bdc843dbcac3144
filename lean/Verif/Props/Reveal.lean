import Verif.Props.PolyBinding
import Verif.Props.Transparent
import Verif.Props.Tipa
import Verif.Props.Groth16

/-!
# C144: what proofs reveal about the messages

No proof of this repository hides anything: commitments are functions of the messages, and every proof contains, in its
base, a public linear combination of them. For polynomials committed to without a reference string this is a combination
of the coefficients themselves, so that an opening reveals more than the value that is opened.
-/

set_option linter.unusedSectionVars false

namespace Ripp

open Spec

namespace Gipa

section
variable {ρ F MA MB T KA KB KT OA OB OT : Type} [Field F] [DecidableEq F]
  [AddCommGroup MA] [Module F MA] [AddCommGroup MB] [Module F MB]
  [AddCommGroup T] [Module F T] [AddCommGroup KA] [Module F KA] [AddCommGroup KB] [Module F KB]
  [AddCommGroup OA] [Module F OA] [AddCommGroup OB] [Module F OB] [Add OT] [SMul F OT]
  {P : Gipa ρ F MA MB T KA KB KT OA OB OT}
  {β : MA →ₗ[F] MB →ₗ[F] T} {φa : MA →ₗ[F] KA →ₗ[F] OA} {φb : MB →ₗ[F] KB →ₗ[F] OB}
  {ψ : KT → T → OT}

/-- C144: the base of an honest proof consists of the linear combinations of the two messages whose coefficients are the
products of the challenges, and of their inverses; these are computed from the proof alone. -/
theorem C144_gipa (L : P.Lawful β φa φb ψ) (hd : ∀ x, 16 ≤ (P.digest x).length)
    (k : ℕ) (ma : List MA) (mb : List MB) (cka : List KA) (ckb : List KB) (kt : KT)
    (h1 : ma.length = 2 ^ k) (h2 : mb.length = 2 ^ k) (h3 : cka.length = 2 ^ k)
    (h4 : ckb.length = 2 ^ k) (proof : GipaProof MA MB OA OB OT) (aux : GipaAux F KA KB)
    (h : P.proveWithAux ma mb cka ckb [kt] = .ok (proof, aux)) (com : Coms OA OB OT) :
    ∃ com' tr, P.recursiveChallenges com proof = .ok (com', tr) ∧ tr.length = k ∧
      proof.base.1 = dot (fun m w => w • m) ma ((List.range (2 ^ k)).map (bitProd tr)) ∧
      proof.base.2 = dot (fun m w => w • m) mb ((List.range (2 ^ k)).map (bitProd (tr.map (·⁻¹)))) := by
  rcases proveWithAux_outcome L hd kt k ma mb cka ckb h1 h2 h3 h4 with h' | ⟨steps, cs, a, b, ka, kb, O⟩
  · rw [h'] at h; cases h
  · rw [O.run] at h
    cases h
    have ea := dot_exps cs.reverse ma (by rw [List.length_reverse, O.length_cs, h1])
    have eb := dot_exps (cs.map (·⁻¹)).reverse mb (by rw [List.length_reverse, List.length_map, O.length_cs, h2])
    rw [List.reverse_reverse, exps_eq, List.length_reverse, O.length_cs, O.fold_ma] at ea
    rw [List.reverse_reverse, exps_eq, List.length_reverse, List.length_map, O.length_cs, O.fold_mb] at eb
    refine ⟨foldMany steps cs com, cs.reverse, by simp [recursiveChallenges, recLoop_eq, O.chals],
      by simp [O.length_cs], by simpa using ea, ?_⟩
    rw [List.map_reverse]
    simpa using eb

/-- The challenges of a proof. -/
def challengesOf (P : Gipa ρ F MA MB T KA KB KT OA OB OT) (proof : GipaProof MA MB OA OB OT) : List F :=
  match P.chals proof.steps.reverse [] with
  | .ok cs => cs.reverse
  | .error _ => []

theorem challengesOf_eq (com com' : Coms OA OB OT) (proof : GipaProof MA MB OA OB OT) (tr : List F)
    (h : P.recursiveChallenges com proof = .ok (com', tr)) : P.challengesOf proof = tr := by
  simp only [recursiveChallenges, recLoop_eq] at h
  rw [challengesOf]
  cases hc : P.chals proof.steps.reverse [] with
  | error e => simp [hc] at h
  | ok cs =>
    simp only [hc, ok_bind, pure_eq_ok, Except.ok.injEq, Prod.mk.injEq] at h
    exact h.2

omit [DecidableEq F] in
theorem dot_range_sum {M : Type} [AddCommGroup M] [Module F M] (w : ℕ → F) : ∀ (ma : List M),
    dot (fun m w => w • m) ma ((List.range ma.length).map w) = ∑ i : Fin ma.length, w i • ma[i]
  | [] => by simp [dot]
  | m :: ma => by
    have hs : ∑ i : Fin (m :: ma).length, w i • (m :: ma)[i] = w 0 • m + ∑ i : Fin ma.length, w (i + 1) • ma[i] :=
      Fin.sum_univ_succ (n := ma.length) fun i => w i • (m :: ma)[i]
    rw [hs, List.length_cons, List.range_succ_eq_map, List.map_cons, List.map_map, dot_cons]
    have := dot_range_sum (fun i => w (i + 1)) ma
    simp only [Function.comp_def] at this ⊢
    rw [this]

/-- C144: several honest proofs with the same left message, for example proofs of its inner products with several right
messages, reveal the entries of the left message: if a combination of the coefficient vectors is a unit vector, then the
same combination of the base elements is the entry. -/
theorem C144_recover (L : P.Lawful β φa φb ψ) (hd : ∀ x, 16 ≤ (P.digest x).length) {ι : Type} [Fintype ι]
    (k : ℕ) (ma : List MA) (mb : ι → List MB) (cka : ι → List KA) (ckb : ι → List KB) (kt : ι → KT)
    (h1 : ma.length = 2 ^ k) (h2 : ∀ j, (mb j).length = 2 ^ k) (h3 : ∀ j, (cka j).length = 2 ^ k)
    (h4 : ∀ j, (ckb j).length = 2 ^ k) (proof : ι → GipaProof MA MB OA OB OT) (aux : ι → GipaAux F KA KB)
    (h : ∀ j, P.proveWithAux ma (mb j) (cka j) (ckb j) [kt j] = .ok (proof j, aux j))
    (i : ℕ) (hi : i < ma.length) (coeff : ι → F)
    (hc : ∀ i' < 2 ^ k, ∑ j, coeff j * bitProd (P.challengesOf (proof j)) i' = if i' = i then 1 else 0) :
    ∑ j, coeff j • (proof j).base.1 = ma[i] := by
  have hb (j : ι) : (proof j).base.1 = ∑ i' : Fin ma.length, bitProd (P.challengesOf (proof j)) i' • ma[i'] := by
    rcases proveWithAux_outcome L hd (kt j) k ma (mb j) (cka j) (ckb j) h1 (h2 j) (h3 j) (h4 j) with
      h' | ⟨steps, cs, a, b, ka, kb, O⟩
    · rw [h j] at h'; cases h'
    · obtain ⟨com', tr, hr, -, hb, -⟩ := C144_gipa L hd k ma (mb j) (cka j) (ckb j) (kt j) h1 (h2 j) (h3 j) (h4 j)
        (proof j) (aux j) (h j) (honestComs β φa φb ψ (kt j) ma (mb j) (cka j) (ckb j))
      rw [challengesOf_eq _ _ _ _ hr, ← dot_range_sum, hb, h1]
  simp only [hb, Finset.smul_sum, smul_smul]
  rw [Finset.sum_comm]
  simp only [← Finset.sum_smul]
  rw [Finset.sum_eq_single ⟨i, hi⟩]
  · rw [hc i (h1 ▸ hi), if_pos rfl, one_smul]; rfl
  · intro i' _ hne
    rw [hc i' (h1 ▸ i'.2), if_neg (fun h => hne (Fin.ext h)), zero_smul]
  · simp

/-- C144: two proofs with different challenges reveal the two entries of their common left message. -/
theorem C144_two (L : P.Lawful β φa φb ψ) (hd : ∀ x, 16 ≤ (P.digest x).length) (m0 m1 : MA)
    (mb mb' : List MB) (cka cka' : List KA) (ckb ckb' : List KB) (kt kt' : KT)
    (h2 : mb.length = 2) (h2' : mb'.length = 2) (h3 : cka.length = 2) (h3' : cka'.length = 2) (h4 : ckb.length = 2)
    (h4' : ckb'.length = 2) (proof proof' : GipaProof MA MB OA OB OT) (aux aux' : GipaAux F KA KB)
    (h : P.proveWithAux [m0, m1] mb cka ckb [kt] = .ok (proof, aux))
    (h' : P.proveWithAux [m0, m1] mb' cka' ckb' [kt'] = .ok (proof', aux')) :
    ∃ c c', P.challengesOf proof = [c] ∧ P.challengesOf proof' = [c'] ∧
      (c ≠ c' → m1 = (c - c')⁻¹ • (proof.base.1 - proof'.base.1) ∧ m0 = proof.base.1 - c • m1) := by
  have key (mb : List MB) (cka : List KA) (ckb : List KB) (kt : KT) (h2 : mb.length = 2) (h3 : cka.length = 2)
      (h4 : ckb.length = 2) (proof : GipaProof MA MB OA OB OT) (aux : GipaAux F KA KB)
      (h : P.proveWithAux [m0, m1] mb cka ckb [kt] = .ok (proof, aux)) :
      ∃ c, P.challengesOf proof = [c] ∧ proof.base.1 = m0 + c • m1 := by
    obtain ⟨com', tr, hr, hl, hb, -⟩ := C144_gipa L hd 1 [m0, m1] mb cka ckb kt rfl h2 h3 h4 proof aux h
      (honestComs β φa φb ψ kt [m0, m1] mb cka ckb)
    obtain ⟨c, rfl⟩ := List.length_eq_one_iff.mp hl
    refine ⟨c, challengesOf_eq _ _ _ _ hr, ?_⟩
    rw [hb]
    simp [List.range_succ, bitProd, dot]
  obtain ⟨c, hc, hb⟩ := key mb cka ckb kt h2 h3 h4 proof aux h
  obtain ⟨c', hc', hb'⟩ := key mb' cka' ckb' kt' h2' h3' h4' proof' aux' h'
  refine ⟨c, c', hc, hc', fun hne => ?_⟩
  have : m1 = (c - c')⁻¹ • (proof.base.1 - proof'.base.1) := by
    rw [hb, hb', show m0 + c • m1 - (m0 + c' • m1) = (c - c') • m1 by rw [sub_smul]; abel, smul_smul,
      inv_mul_cancel₀ (sub_ne_zero.mpr hne), one_smul]
  exact ⟨this, by rw [hb]; abel⟩

end

end Gipa

namespace GipaSsm

section
variable {ρ F MA T KA KT OA OT : Type} [Field F] [DecidableEq F]
  [AddCommGroup MA] [Module F MA] [AddCommGroup T] [Module F T] [AddCommGroup KA] [Module F KA]
  [AddCommGroup OA] [Module F OA] [Add OT] [SMul F OT]
  {P : Gipa ρ F MA F T KA Placeholder KT OA F OT}
  {β : MA →ₗ[F] F →ₗ[F] T} {φa : MA →ₗ[F] KA →ₗ[F] OA} {φb : F →ₗ[F] Placeholder →ₗ[F] F}
  {ψ : KT → T → OT}

/-- C144 for a structured scalar message: the base contains a combination of the committed message. -/
theorem C144_ssm (L : P.Lawful β φa φb ψ) (hd : ∀ x, 16 ≤ (P.digest x).length) (k : ℕ) (ma : List MA) (mb : List F)
    (cka : List KA) (kt : KT) (h1 : ma.length = 2 ^ k) (h2 : mb.length = 2 ^ k) (h3 : cka.length = 2 ^ k)
    (proof : GipaProof MA F OA F OT) (h : prove P ma mb cka kt = .ok proof) :
    (P.challengesOf proof).length = k ∧ proof.base.1 =
      dot (fun m w => w • m) ma ((List.range (2 ^ k)).map (bitProd (P.challengesOf proof))) := by
  obtain ⟨⟨proof', aux⟩, hp, h'⟩ := bind_eq_ok.mp h
  cases h'
  obtain ⟨com', tr, hr, hl, hb, -⟩ := Gipa.C144_gipa L hd k ma mb cka _ kt h1 h2 h3
    (by rw [List.length_replicate, h2]) proof aux hp
    (Gipa.honestComs β φa φb ψ kt ma mb cka (List.replicate mb.length PUnit.unit))
  rw [Gipa.challengesOf_eq _ _ _ _ hr]
  exact ⟨hl, hb⟩

end

end GipaSsm

namespace TBivariate

section
variable {ρ F G1 G2 GT TF : Type} [Field F] [DecidableEq F] [AddCommGroup G1] [Module F G1]
  [AddCommGroup G2] [Module F G2] [AddCommGroup GT] [Module F GT] [Monoid TF] {e : G1 →ₗ[F] G2 →ₗ[F] GT}
  [DecidableEq G1] [DecidableEq GT]

theorem dot_combined (ps : List (List F)) (x : F) (n m : ℕ) (w : List F) (hps : ps.length ≤ n)
    (hrow : ∀ p ∈ ps, p.length ≤ m) :
    dot (mulMap F · ·) (combined ps x n m) w = evalAt (ps.map fun p => dot (· * ·) p w) x := by
  have hm : ∀ p ∈ resize ps n [], p.length ≤ m := by
    intro p hp
    rw [resize_of_length_le _ _ _ hps] at hp
    rcases List.mem_append.mp hp with hp | hp
    · exact hrow p hp
    · rw [(List.mem_replicate.mp hp).2]; simp
  rw [combined, dot_lin _ _ _ _ _ (pad_rows ps n m), dot_map_right, evalAt_eq,
    ← polyEval_resize _ n _ (by simpa using hps), ← dot_powers_eq _ x n (by rw [resize_length]), dot_swap]
  have er : resize (ps.map fun p => dot (· * ·) p w) n 0 = (resize ps n []).map fun p => dot (· * ·) p w := by
    rw [resize_of_length_le _ _ _ hps, resize_of_length_le _ _ _ (by simpa using hps)]
    simp
  rw [er, dot_map_left]
  generalize resize ps n [] = qs at hm
  generalize powers x n = xs
  induction qs generalizing xs with
  | nil => simp
  | cons q qs ih =>
    cases xs with
    | nil => simp
    | cons y ys =>
      simp only [dot_cons]
      rw [ih (fun p hp => hm p (by simp [hp])), pad, dot_resize _ _ _ _ (hm q (by simp))]
      simp [mul_comm]

variable (V : Env ρ F G1 G2 GT TF) (hd : ∀ b, 16 ≤ (V.digest b).length)

include hd in
/-- C144: an honest opening of a polynomial without a reference string contains a public combination of its
coefficients that is not the value opened. -/
theorem C144_transparent (l : ℕ) (ck : List G1 × List G2) (h1 : ck.1.length = 2 ^ l) (h2 : 1 ≤ ck.2.length)
    (ps : List (List F)) (hps : ps.length ≤ ck.2.length) (hrow : ∀ p ∈ ps, p.length ≤ ck.1.length)
    (coms : List G1) (x y : F) (proof : TpcProof F G1 GT) (h : open_ V ck ps coms (x, y) = .ok proof) :
    (V.scalarSsm.challengesOf proof.first).length = l ∧ proof.first.base.1 =
      evalAt (ps.map fun p => dot (· * ·) p
        ((List.range (2 ^ l)).map (bitProd (V.scalarSsm.challengesOf proof.first)))) x := by
  rw [open_eq V ck ps hps (by rw [h1]; exact Nat.one_le_two_pow) h2] at h
  obtain ⟨second, -, h⟩ := bind_eq_ok.mp h
  obtain ⟨first, hf, h⟩ := bind_eq_ok.mp h
  cases h
  obtain ⟨hl, hb⟩ := GipaSsm.C144_ssm (scalarSsm_lawful V) hd l _ _ ck.1 PUnit.unit
    (by rw [length_combined, h1]) (by rw [length_powers, h1]) h1 first hf
  refine ⟨hl, ?_⟩
  rw [← dot_combined ps x ck.2.length ck.1.length _ hps hrow, hb]
  congr 1
  funext a b
  simp [mul_comm]

include hd in
/-- C144: with two columns the opening at `(x, y)` also reveals the value at `(x, c)`, where `c` is the challenge. -/
theorem C144_second_value (ck : List G1 × List G2) (h1 : ck.1.length = 2) (h2 : 1 ≤ ck.2.length)
    (ps : List (List F)) (hps : ps.length ≤ ck.2.length) (hrow : ∀ p ∈ ps, p.length ≤ 2)
    (coms : List G1) (x y : F) (proof : TpcProof F G1 GT) (h : open_ V ck ps coms (x, y) = .ok proof) :
    ∃ c, V.scalarSsm.challengesOf proof.first = [c] ∧
      proof.first.base.1 = evalAt (ps.map fun p => evalAt p c) x := by
  obtain ⟨hl, hb⟩ := C144_transparent V hd 1 ck h1 h2 ps hps (by rwa [h1]) coms x y proof h
  obtain ⟨c, hc⟩ := List.length_eq_one_iff.mp hl
  refine ⟨c, hc, ?_⟩
  rw [hb, hc]
  congr 1
  refine List.map_congr_left fun p hp => ?_
  have := hrow p hp
  rcases p with _ | ⟨a, _ | ⟨b, _ | ⟨d, p⟩⟩⟩
  · simp [dot, evalAt]
  · simp [dot, evalAt, powers, List.range_succ, bitProd]
  · simp [dot, evalAt, powers, List.range_succ, bitProd]
  · simp at this

/-- A polynomial with `n` coefficients is determined by its values at `n` points. -/
theorem eq_of_evalAt {n : ℕ} (p q : List F) (hp : p.length = n) (hq : q.length = n) (x : Fin n → F)
    (hx : Function.Injective x) (h : ∀ i, evalAt p (x i) = evalAt q (x i)) : p = q := by
  rcases Nat.eq_zero_or_pos n with h0 | h0
  · rw [List.eq_nil_of_length_eq_zero (hp.trans h0), List.eq_nil_of_length_eq_zero (hq.trans h0)]
  have e : Kzg.toPoly p = Kzg.toPoly q := by
    refine Polynomial.eq_of_natDegree_lt_card_of_eval_eq _ _ hx
      (fun i => by rw [Kzg.eval_toPoly, Kzg.eval_toPoly, h]) ?_
    rw [Fintype.card_fin]
    have := Kzg.natDegree_toPoly p
    have := Kzg.natDegree_toPoly q
    refine max_lt ?_ ?_ <;> omega
  clear h hx x h0
  induction p generalizing q n with
  | nil => exact (List.eq_nil_of_length_eq_zero (by rw [hq, ← hp]; rfl)).symm
  | cons a p ih =>
    cases q with
    | nil => simp at hp hq; omega
    | cons b q =>
      have e0 : a = b := by simpa [Kzg.toPoly] using congrArg (Polynomial.eval 0) e
      subst e0
      rw [Kzg.toPoly, Kzg.toPoly] at e
      rw [ih (n := p.length) q rfl (by simp at hp hq; omega)
        (mul_left_cancel₀ Polynomial.X_ne_zero (add_left_cancel e))]

include hd in
/-- C144: with two columns, openings at as many points as there are rows determine the polynomial: two polynomials
with the same values and the same first parts of the openings are equal, unless a challenge is the coordinate. -/
theorem C144_determined {n : ℕ} (ck : List G1 × List G2) (h1 : ck.1.length = 2) (h2 : n ≤ ck.2.length) (h0 : 0 < n)
    (ps ps' : List (List F)) (hn : ps.length = n) (hn' : ps'.length = n) (hrow : ∀ p ∈ ps, p.length = 2)
    (hrow' : ∀ p ∈ ps', p.length = 2) (coms coms' : List G1) (x y : Fin n → F) (hx : Function.Injective x)
    (proof proof' : Fin n → TpcProof F G1 GT) (h : ∀ i, open_ V ck ps coms (x i, y i) = .ok (proof i))
    (h' : ∀ i, open_ V ck ps' coms' (x i, y i) = .ok (proof' i))
    (hv : ∀ i, evalAt (ps.map fun p => evalAt p (y i)) (x i) = evalAt (ps'.map fun p => evalAt p (y i)) (x i))
    (hf : ∀ i, (proof i).first = (proof' i).first)
    (hy : ∀ i, V.scalarSsm.challengesOf (proof i).first ≠ [y i]) : ps = ps' := by
  have row (ps : List (List F)) (hrow : ∀ p ∈ ps, p.length = 2) (x y : F) :
      evalAt (ps.map fun p => evalAt p y) x =
        evalAt (ps.map fun p => p.getD 0 0) x + y * evalAt (ps.map fun p => p.getD 1 0) x := by
    simp only [evalAt_eq]
    induction ps with
    | nil => simp [polyEval]
    | cons p ps ih =>
      obtain ⟨a, b, rfl⟩ := List.length_eq_two.mp (hrow p (by simp))
      have ih := ih fun p hp => hrow p (by simp [hp])
      simp only [List.map_cons, polyEval_cons, ih]
      simp [polyEval]
      ring
  have both (i : Fin n) : evalAt (ps.map fun p => p.getD 1 0) (x i) = evalAt (ps'.map fun p => p.getD 1 0) (x i) ∧
      evalAt (ps.map fun p => p.getD 0 0) (x i) = evalAt (ps'.map fun p => p.getD 0 0) (x i) := by
    obtain ⟨c, hc, hb⟩ := C144_second_value V hd ck h1 (h0.trans_le h2) ps (hn.trans_le h2)
      (fun p hp => (hrow p hp).le) coms _ _ _ (h i)
    obtain ⟨c', hc', hb'⟩ := C144_second_value V hd ck h1 (h0.trans_le h2) ps' (hn'.trans_le h2)
      (fun p hp => (hrow' p hp).le) coms' _ _ _ (h' i)
    rw [← hf i, hc] at hc'
    cases hc'
    rw [← hf i, hb, row ps hrow, row ps' hrow'] at hb'
    have hv := hv i
    rw [row ps hrow, row ps' hrow'] at hv
    have hne : c - y i ≠ 0 := sub_ne_zero.mpr fun e => hy i (by rw [hc, e])
    have : evalAt (ps.map fun p => p.getD 1 0) (x i) = evalAt (ps'.map fun p => p.getD 1 0) (x i) := by
      refine mul_left_cancel₀ hne ?_
      linear_combination hb' - hv
    refine ⟨this, ?_⟩
    rw [this] at hv
    exact add_right_cancel hv
  have e1 := eq_of_evalAt _ _ (by simpa using hn) (by simpa using hn') x hx fun i => (both i).1
  have e0 := eq_of_evalAt _ _ (by simpa using hn) (by simpa using hn') x hx fun i => (both i).2
  clear both h h' hv hf hy hx proof proof' h2 h0 x y
  induction ps generalizing ps' n with
  | nil => exact (List.eq_nil_of_length_eq_zero (by rw [hn', ← hn]; rfl)).symm
  | cons p ps ih =>
    cases ps' with
    | nil => simp at hn hn'; omega
    | cons p' ps' =>
      obtain ⟨a, b, rfl⟩ := List.length_eq_two.mp (hrow p (by simp))
      obtain ⟨a', b', rfl⟩ := List.length_eq_two.mp (hrow' p' (by simp))
      simp only [List.map_cons, List.cons.injEq] at e0 e1
      have ha : a = a' := by simpa using e0.1
      have hb : b = b' := by simpa using e1.1
      rw [ha, hb, ih (n := ps.length) ps' rfl (by simp at hn hn'; omega) (fun p hp => hrow p (by simp [hp]))
        (fun p hp => hrow' p (by simp [hp])) e1.2 e0.2]

end

end TBivariate

/-! ## TIPA and the aggregation -/

section
variable {ρ F MA MB T KT OA OB OT G1 G2 GT TF : Type} [Field F] [DecidableEq F]
  [AddCommGroup MA] [Module F MA] [AddCommGroup MB] [Module F MB]
  [AddCommGroup T] [Module F T] [AddCommGroup G1] [Module F G1] [AddCommGroup G2] [Module F G2]
  [AddCommGroup OA] [Module F OA] [AddCommGroup OB] [Module F OB] [Add OT] [SMul F OT]

namespace Tipa

/-- C144 for TIPA. -/
theorem C144_tipa {P : Gipa ρ F MA MB T G2 G1 KT OA OB OT}
    {β : MA →ₗ[F] MB →ₗ[F] T} {φa : MA →ₗ[F] G2 →ₗ[F] OA} {φb : MB →ₗ[F] G1 →ₗ[F] OB} {ψ : KT → T → OT}
    (L : P.Lawful β φa φb ψ) (hd : ∀ x, 16 ≤ (P.digest x).length) (V : TipaEnv F G1 G2 GT TF) (srs : SRS G1 G2)
    (k : ℕ) (ma : List MA) (mb : List MB) (cka : List G2) (ckb : List G1) (kt : KT) (shift : F)
    (h1 : ma.length = 2 ^ k) (h2 : mb.length = 2 ^ k) (h3 : cka.length = 2 ^ k) (h4 : ckb.length = 2 ^ k)
    (proof : TipaProof G1 G2 MA MB OA OB OT) (h : proveWithShift V P srs ma mb cka ckb kt shift = .ok proof) :
    (P.challengesOf proof.gipa).length = k ∧
      proof.gipa.base.1 =
        dot (fun m w => w • m) ma ((List.range (2 ^ k)).map (bitProd (P.challengesOf proof.gipa))) ∧
      proof.gipa.base.2 =
        dot (fun m w => w • m) mb ((List.range (2 ^ k)).map (bitProd ((P.challengesOf proof.gipa).map (·⁻¹)))) := by
  obtain ⟨⟨gipa, aux⟩, hp, h⟩ := bind_eq_ok.mp h
  obtain ⟨_, -, h⟩ := bind_eq_ok.mp h
  obtain ⟨_, -, h⟩ := bind_eq_ok.mp h
  obtain ⟨_, -, h⟩ := bind_eq_ok.mp h
  obtain ⟨_, -, h⟩ := bind_eq_ok.mp h
  obtain ⟨_, -, h⟩ := bind_eq_ok.mp h
  cases h
  obtain ⟨com', tr, hr, hl, hb⟩ := Gipa.C144_gipa L hd k ma mb cka ckb kt h1 h2 h3 h4 gipa aux hp
    (Gipa.honestComs β φa φb ψ kt ma mb cka ckb)
  rw [Gipa.challengesOf_eq _ _ _ _ hr]
  exact ⟨hl, hb⟩

end Tipa

namespace TipaSsm

/-- C144 for TIPA with a structured scalar message. -/
theorem C144_tipa {P : Gipa ρ F MA F T G2 Placeholder KT OA F OT}
    {β : MA →ₗ[F] F →ₗ[F] T} {φa : MA →ₗ[F] G2 →ₗ[F] OA} {φb : F →ₗ[F] Placeholder →ₗ[F] F} {ψ : KT → T → OT}
    (L : P.Lawful β φa φb ψ) (hd : ∀ x, 16 ≤ (P.digest x).length) (V : TipaEnv F G1 G2 GT TF) (srs : SRS G1 G2)
    (k : ℕ) (ma : List MA) (mb : List F) (cka : List G2) (kt : KT)
    (h1 : ma.length = 2 ^ k) (h2 : mb.length = 2 ^ k) (h3 : cka.length = 2 ^ k)
    (proof : TipaSsmProof F G2 MA OA OT) (h : prove V P srs ma mb cka kt = .ok proof) :
    (P.challengesOf proof.gipa).length = k ∧
      proof.gipa.base.1 =
        dot (fun m w => w • m) ma ((List.range (2 ^ k)).map (bitProd (P.challengesOf proof.gipa))) := by
  obtain ⟨⟨gipa, aux⟩, hp, h⟩ := bind_eq_ok.mp h
  obtain ⟨_, -, h⟩ := bind_eq_ok.mp h
  obtain ⟨_, -, h⟩ := bind_eq_ok.mp h
  obtain ⟨_, -, h⟩ := bind_eq_ok.mp h
  cases h
  exact GipaSsm.C144_ssm L hd k ma mb cka kt h1 h2 h3 gipa (by rw [GipaSsm.prove, hp]; rfl)

end TipaSsm

end

namespace Groth16

section
variable {ρ F G1 G2 GT TF : Type} [Field F] [DecidableEq F] [AddCommGroup G1] [Module F G1]
  [AddCommGroup G2] [Module F G2] [AddCommGroup GT] [Module F GT] [Monoid TF] {e : G1 →ₗ[F] G2 →ₗ[F] GT}
  [DecidableEq GT]

/-- C144: the aggregate of two proofs reveals their elements `C`, unless the challenge of the proof is the challenge of
the aggregation: `aggC` and the base are two combinations of them. -/
theorem C144_aggregate (V : Env ρ F G1 G2 GT TF) (hE : V.E.Lawful e) (hd : ∀ b, 16 ≤ (V.digest b).length)
    (srs : SRS G1 G2) (hs : srs.commitmentKeys.1.length = 2) (p0 p1 : G16Proof G1 G2) (agg : AggProof F G1 G2 GT)
    (h : aggregate V srs [p0, p1] = .ok agg) :
    ∃ r c, challenge V agg.comA agg.comB agg.comC = .ok r ∧ V.multiexpSsm.challengesOf agg.proofC.gipa = [c] ∧
      agg.aggC = p0.c + r • p1.c ∧ agg.proofC.gipa.base.1 = p0.c + c • p1.c ∧
      (r ≠ c → p1.c = (r - c)⁻¹ • (agg.aggC - agg.proofC.gipa.base.1) ∧ p0.c = agg.aggC - r • p1.c) := by
  obtain ⟨comA, hA, h⟩ := bind_eq_ok.mp h
  obtain ⟨comB, hB, h⟩ := bind_eq_ok.mp h
  obtain ⟨comC, hC, h⟩ := bind_eq_ok.mp h
  obtain ⟨r, hr, h⟩ := bind_eq_ok.mp h
  obtain ⟨rVec, hrv, h⟩ := bind_eq_ok.mp h
  obtain ⟨ipAB, -, h⟩ := bind_eq_ok.mp h
  obtain ⟨aggC, hagg, h⟩ := bind_eq_ok.mp h
  obtain ⟨ck1R, -, h⟩ := bind_eq_ok.mp h
  obtain ⟨_, -, h⟩ := bind_eq_ok.mp h
  obtain ⟨_, -, h⟩ := bind_eq_ok.mp h
  obtain ⟨proofAB, -, h⟩ := bind_eq_ok.mp h
  obtain ⟨proofC, hpC, h⟩ := bind_eq_ok.mp h
  cases h
  rw [structuredScalarPower_eq] at hrv
  cases hrv
  obtain ⟨hl, hb⟩ := TipaSsm.C144_tipa (multiexpSsm_lawful V hE) hd V.tipa srs 1 _ _ _ PUnit.unit rfl
    (by simp [length_powers]) hs proofC hpC
  obtain ⟨c, hc⟩ := List.length_eq_one_iff.mp hl
  have hb : proofC.gipa.base.1 = p0.c + c • p1.c := by
    rw [hb, hc]
    simp [List.range_succ, bitProd, dot]
  have hagg : aggC = p0.c + r • p1.c := by
    rw [multiexpIP_eq _ _ (by simp [length_powers])] at hagg
    cases hagg
    simp [powers, List.range_succ, dot]
  refine ⟨r, c, hr, hc, hagg, hb, fun hne => ?_⟩
  have : p1.c = (r - c)⁻¹ • (aggC - proofC.gipa.base.1) := by
    rw [hagg, hb, show p0.c + r • p1.c - (p0.c + c • p1.c) = (r - c) • p1.c by rw [sub_smul]; abel, smul_smul,
      inv_mul_cancel₀ (sub_ne_zero.mpr hne), one_smul]
  exact ⟨this, by rw [hagg, add_sub_cancel_right]⟩

end

end Groth16

/-! ## Examples -/

namespace Reveal

/-- A digest that depends on its input. -/
def digest (b : Bytes) : Bytes :=
  List.replicate 15 0 ++ [UInt8.ofNat (b.foldl (fun s x => (3 * s + x.toNat) % 97) 0 + 1)]

/-- The toy curve with this digest. -/
def env : Env ℕ Toy.F Toy.F Toy.F Toy.F Toy.TF := { Toy.env with digest := digest }

theorem digest_length (b : Bytes) : 16 ≤ (digest b).length := by simp [digest]

/-- C144 applied: two proofs for the left message `[3, 5]`, with challenges 23 and 61, have the bases 17 and 5, from which
the message is computed. -/
example : ∃ proof aux proof' aux',
    env.scalarGipa.proveWithAux [3, 5] [7, 11] [2, 9] [4, 6] [PUnit.unit] = .ok (proof, aux) ∧
    env.scalarGipa.proveWithAux [3, 5] [8, 13] [2, 9] [4, 6] [PUnit.unit] = .ok (proof', aux') ∧
    proof.base.1 = 17 ∧ proof'.base.1 = 5 ∧ (5 : Toy.F) = (23 - 61)⁻¹ * (17 - 5) ∧ (3 : Toy.F) = 17 - 23 * 5 := by
  have e : (env.scalarGipa.proveWithAux [3, 5] [7, 11] [2, 9] [4, 6] [PUnit.unit]).map
      (fun r => (r.1.base.1, env.scalarGipa.challengesOf r.1)) = .ok (17, [23]) := by decide +kernel
  have e' : (env.scalarGipa.proveWithAux [3, 5] [8, 13] [2, 9] [4, 6] [PUnit.unit]).map
      (fun r => (r.1.base.1, env.scalarGipa.challengesOf r.1)) = .ok (5, [61]) := by decide +kernel
  cases h : env.scalarGipa.proveWithAux [3, 5] [7, 11] [2, 9] [4, 6] [PUnit.unit] with
  | error f => rw [h] at e; cases e
  | ok r =>
    cases h' : env.scalarGipa.proveWithAux [3, 5] [8, 13] [2, 9] [4, 6] [PUnit.unit] with
    | error f => rw [h'] at e'; cases e'
    | ok r' =>
      rw [h] at e; rw [h'] at e'
      simp only [Except.map, Except.ok.injEq, Prod.mk.injEq] at e e'
      obtain ⟨c, c', hc, hc', hm⟩ := Gipa.C144_two (scalarGipa_lawful env) digest_length 3 5 [7, 11] [8, 13] [2, 9]
        [2, 9] [4, 6] [4, 6] PUnit.unit PUnit.unit rfl rfl rfl rfl rfl rfl r.1 r'.1 r.2 r'.2 h h'
      rw [e.2] at hc; rw [e'.2] at hc'
      cases hc; cases hc'
      rw [e.1, e'.1] at hm
      obtain ⟨m1, m0⟩ := hm (by decide)
      exact ⟨r.1, r.2, r'.1, r'.2, rfl, rfl, e.1, e'.1, m1, m0⟩

/-- C144 applied: the opening of `1 + 2 Y + 3 X + 4 X Y` at `(5, 7)`, whose value is 69, reveals that the value
at `(5, 34)` is 57. -/
example : ∃ proof, TBivariate.open_ Toy.env ([11, 12], [13, 14]) ([[1, 2], [3, 4]] : List (List Toy.F)) [35, 81] (5, 7) =
      .ok proof ∧ Toy.env.scalarSsm.challengesOf proof.first = [34] ∧
    proof.first.base.1 = 57 ∧ evalAt (([[1, 2], [3, 4]] : List (List Toy.F)).map fun p => evalAt p 34) 5 = 57 ∧
    evalAt (([[1, 2], [3, 4]] : List (List Toy.F)).map fun p => evalAt p 7) 5 = 69 := by
  have e : (TBivariate.open_ Toy.env ([11, 12], [13, 14]) ([[1, 2], [3, 4]] : List (List Toy.F)) [35, 81] (5, 7)).map
      (fun r => Toy.env.scalarSsm.challengesOf r.first) = .ok [34] := by decide +kernel
  cases h : TBivariate.open_ Toy.env ([11, 12], [13, 14]) ([[1, 2], [3, 4]] : List (List Toy.F)) [35, 81] (5, 7) with
  | error f => rw [h] at e; cases e
  | ok r =>
    rw [h] at e
    simp only [Except.map, Except.ok.injEq] at e
    obtain ⟨c, hc, hb⟩ := TBivariate.C144_second_value Toy.env Toy.digest_length ([11, 12], [13, 14]) rfl (by decide)
      [[1, 2], [3, 4]] (by decide) (by decide) [35, 81] 5 7 r h
    rw [e] at hc
    cases hc
    have v : evalAt (([[1, 2], [3, 4]] : List (List Toy.F)).map fun p => evalAt p 34) 5 = 57 := by decide +kernel
    exact ⟨r, rfl, e, hb.trans v, v, by decide +kernel⟩

/-- C144 applied: a polynomial with two rows of two coefficients whose openings at `(5, 7)` and `(6, 7)` have the values
and the first parts of those of `1 + 2 Y + 3 X + 4 X Y` is this polynomial. -/
example (a b c d : Toy.F) (coms : List Toy.F) (y : Fin 2 → Toy.F) (hy : y = ![7, 7]) (x : Fin 2 → Toy.F)
    (hx : x = ![5, 6]) (proof proof' : Fin 2 → TpcProof Toy.F Toy.F Toy.F)
    (h : ∀ i, TBivariate.open_ Toy.env ([11, 12], [13, 14]) [[1, 2], [3, 4]] [35, 81] (x i, y i) = .ok (proof i))
    (h' : ∀ i, TBivariate.open_ Toy.env ([11, 12], [13, 14]) [[a, b], [c, d]] coms (x i, y i) = .ok (proof' i))
    (hv : ∀ i, evalAt (([[1, 2], [3, 4]] : List (List Toy.F)).map fun p => evalAt p (y i)) (x i) =
      evalAt ([[a, b], [c, d]].map fun p => evalAt p (y i)) (x i))
    (hf : ∀ i, (proof i).first = (proof' i).first) : a = 1 ∧ b = 2 ∧ c = 3 ∧ d = 4 := by
  have e : ∀ i, (TBivariate.open_ Toy.env ([11, 12], [13, 14]) ([[1, 2], [3, 4]] : List (List Toy.F)) [35, 81]
      (![5, 6] i, ![7, 7] i)).map (fun r => Toy.env.scalarSsm.challengesOf r.first) = .ok [34] := by decide +kernel
  have := TBivariate.C144_determined Toy.env Toy.digest_length ([11, 12], [13, 14]) rfl (by decide) (by decide)
    [[1, 2], [3, 4]] [[a, b], [c, d]] rfl rfl (by decide) (by simp) [35, 81] coms x y (by rw [hx]; decide) proof proof'
    h h' hv hf fun i => by
      have := e i
      rw [← hx, ← hy, h i] at this
      simp only [Except.map, Except.ok.injEq] at this
      rw [this, hy]
      clear this; revert i; decide
  simp only [List.cons.injEq, and_true] at this
  obtain ⟨⟨rfl, rfl⟩, rfl, rfl⟩ := this
  exact ⟨rfl, rfl, rfl, rfl⟩

/-- C144 applied: the coefficients with which the two proofs above give the second entry of `[3, 5]`. -/
example (proof : Fin 2 → GipaProof Toy.F Toy.F Toy.F Toy.F (IdentityOutput Toy.F)) (aux : Fin 2 → GipaAux Toy.F Toy.F Toy.F)
    (h : ∀ j, env.scalarGipa.proveWithAux [3, 5] (![[7, 11], [8, 13]] j) [2, 9] [4, 6] [PUnit.unit] =
      .ok (proof j, aux j)) :
    ∑ j, ![(23 - 61 : Toy.F)⁻¹, -(23 - 61 : Toy.F)⁻¹] j • (proof j).base.1 = 5 := by
  have e : ∀ j, (env.scalarGipa.proveWithAux [3, 5] (![[7, 11], [8, 13]] j) [2, 9] [4, 6] [PUnit.unit]).map
      (fun r => env.scalarGipa.challengesOf r.1) = .ok (![[23], [61]] j) := by decide +kernel
  refine Gipa.C144_recover (scalarGipa_lawful env) digest_length 1 [3, 5] ![[7, 11], [8, 13]] (fun _ => [2, 9])
    (fun _ => [4, 6]) (fun _ => PUnit.unit) rfl (by decide) (fun _ => rfl) (fun _ => rfl) proof aux h 1 (by decide) _ ?_
  have e' (j : Fin 2) : env.scalarGipa.challengesOf (proof j) = ![[23], [61]] j := by
    have := e j
    rw [h j] at this
    simpa [Except.map] using this
  simp only [e']
  decide +kernel

/-- C144 applied: an aggregate of two proofs, from which the elements `C`, 8 and 13, are computed. -/
example : ∃ agg r c, Groth16.aggregate env ⟨[1, 2, 4], [1, 3, 9], 3, 2⟩ [⟨5, 6, 8⟩, ⟨7, 11, 13⟩] = .ok agg ∧ r ≠ c ∧
    (13 : Toy.F) = (r - c)⁻¹ * (agg.aggC - agg.proofC.gipa.base.1) ∧ (8 : Toy.F) = agg.aggC - r * 13 := by
  have e : (Groth16.aggregate env ⟨[1, 2, 4], [1, 3, 9], 3, 2⟩ [⟨5, 6, 8⟩, ⟨7, 11, 13⟩]).map (fun r =>
      match Groth16.challenge env r.comA r.comB r.comC with
      | .ok x => decide ([x] ≠ env.multiexpSsm.challengesOf r.proofC.gipa)
      | .error _ => false) = .ok true := by decide +kernel
  cases h : Groth16.aggregate env ⟨[1, 2, 4], [1, 3, 9], 3, 2⟩ [⟨5, 6, 8⟩, ⟨7, 11, 13⟩] with
  | error f => rw [h] at e; cases e
  | ok agg =>
    obtain ⟨r, c, hr, hc, -, -, hm⟩ := Groth16.C144_aggregate env Toy.lawful digest_length _ rfl _ _ agg h
    rw [h] at e
    simp only [Except.map, Except.ok.injEq, hr, hc, decide_eq_true_eq, ne_eq, List.cons.injEq, and_true] at e
    exact ⟨agg, r, c, rfl, e, (hm e).1, (hm e).2⟩

end Reveal

end Ripp
