import Verif.Model.Sipp
import Verif.Lemmas.InnerProducts
import Verif.Lemmas.FinalKeys
import Verif.Lemmas.Bytes
import Verif.Lemmas.Groth16
import Mathlib.Data.Fintype.Pi
import Mathlib.Tactic.LinearCombination
import Mathlib.Tactic.Module

/-! # Lemmas about SIPP -/

namespace Ripp.Sipp

open Spec

section Dots
variable {F G : Type} [Field F] [AddCommGroup G] [Module F G]

theorem dot_scaled : ∀ (a : List G) (s r : List F),
    dot (fun g s => s • g) a (List.zipWith (fun x r => x * r) s r) =
      dot (fun g s => s • g) (List.zipWith (fun a r => r • a) a r) s
  | [], _, _ => by simp
  | _ :: _, [], _ => by simp
  | _ :: _, _ :: _, [] => by simp
  | a :: as, s :: ss, r :: rs => by simp [dot_scaled as ss rs, mul_smul]

theorem zipWith_ones (a : List G) :
    List.zipWith (fun a (r : F) => r • a) a (List.replicate a.length 1) = a := by
  induction a with
  | nil => rfl
  | cons a as ih => simp [List.replicate_succ, ih]

theorem zipWith_fold (x : F) (v : List G) (n : ℕ) (h : v.length = 2 * n) :
    List.zipWith (fun l r => x • r + l) (v.take n) (v.drop n) = foldHalf x v := by
  have e : v.length / 2 = n := by omega
  rw [foldHalf, e, addV, smulV, List.zipWith_map_right]
  simp only [add_comm]

end Dots

section Pairings
variable {σ F G1 G2 GT TF : Type} [Field F] [AddCommGroup G1] [Module F G1] [AddCommGroup G2]
  [Module F G2] [AddCommGroup GT] [Module F GT] [Monoid TF]
  {V : Env σ F G1 G2 GT TF} {e : G1 →ₗ[F] G2 →ₗ[F] GT}

theorem productOfPairingsWithCoeffs_eq (hE : V.E.Lawful e) (a : List G1) (b : List G2) (r : List F)
    (h1 : a.length = b.length) (h2 : a.length ≤ r.length) :
    productOfPairingsWithCoeffs V a b r =
      .ok (dot (e · ·) (List.zipWith (fun a r => r • a) a r) b) := by
  have hl : (List.zipWith (fun a (r : F) => r • a) a r).length = b.length := by
    rw [List.length_zipWith]; omega
  rw [productOfPairingsWithCoeffs]
  generalize List.zipWith (fun a (r : F) => r • a) a r = a' at hl
  have hn := (chunkSize_pos V.X.pos a'.length).ne'
  obtain ⟨ml, m1, m2⟩ := hE.chunked hn _ a' b rfl hl
  simp only [hn, if_false]
  erw [m1]
  simp [parReduce_mul, m2]

theorem productOfPairings_eq (hE : V.E.Lawful e) (a : List G1) (b : List G2)
    (h : a.length = b.length) : productOfPairings (F := F) V a b = .ok (dot (e · ·) a b) := by
  rw [productOfPairings, productOfPairingsWithCoeffs_eq hE _ _ _ h (by simp), zipWith_ones]

end Pairings

section Scalars
variable {F : Type} [Field F] [DecidableEq F]

omit [DecidableEq F] in
theorem bitProd_snoc : ∀ (l : List F) (x : F) (i : ℕ),
    bitProd (l ++ [x]) i = bitProd l i * (if i.testBit l.length then x else 1)
  | [], x, i => by simp [bitProd, Nat.testBit_zero]
  | y :: l, x, i => by
    rw [List.cons_append, bitProd, bitProd, bitProd_snoc l x (i / 2), List.length_cons,
      Nat.testBit_succ, mul_assoc]

omit [DecidableEq F] in
theorem length_scalarLoop (n : ℕ) : ∀ (xs : List F) (j : ℕ) (s : List F),
    (scalarLoop n xs j s).length = s.length
  | [], _, _ => rfl
  | x :: xs, j, s => by rw [scalarLoop, length_scalarLoop]; simp

omit [DecidableEq F] in
theorem scalarLoop_getElem? (n : ℕ) : ∀ (xs : List F) (j : ℕ) (s : List F) (i : ℕ),
    n = j + xs.length →
    (scalarLoop n xs j s)[i]? = s[i]?.map (· * bitProd xs.reverse i)
  | [], j, s, i, _ => by simp [scalarLoop, bitProd]
  | x :: xs, j, s, i, h => by
    rw [scalarLoop, scalarLoop_getElem? n xs (j + 1) _ i (by simp at h; omega), List.getElem?_mapIdx,
      List.reverse_cons, bitProd_snoc, Option.map_map]
    congr 1
    funext v
    have : n - j - 1 = xs.reverse.length := by simp at h ⊢; omega
    rw [this]
    simp only [Function.comp]
    split <;> ring

theorem scalarLoop_eq (xs : List F) :
    scalarLoop xs.length xs 0 (List.replicate (2 ^ xs.length) 1) = exps xs.reverse := by
  apply List.ext_getElem?
  intro i
  rw [scalarLoop_getElem? _ _ _ _ _ (by simp)]
  by_cases h : i < 2 ^ xs.length
  · rw [exps_getElem? _ _ (by simpa using h)]
    simp [h]
  · rw [List.getElem?_eq_none (l := exps xs.reverse) (by simp [length_exps]; omega)]
    simp [h]

end Scalars

section Prove
variable {σ F G1 G2 GT TF : Type} [Field F] [DecidableEq F] [AddCommGroup G1] [Module F G1]
  [AddCommGroup G2] [Module F G2] [AddCommGroup GT] [Module F GT] [Monoid TF]
  {V : Env σ F G1 G2 GT TF} {e : G1 →ₗ[F] G2 →ₗ[F] GT}

/-- Cross terms. -/
abbrev cross (xs : List F) (zs : List (GT × GT)) : GT :=
  dot (fun x (z : GT × GT) => x • z.1 + x⁻¹ • z.2) xs zs

omit [DecidableEq F] [AddCommGroup GT] [Module F GT] [AddCommGroup G1] [Module F G1]
  [AddCommGroup G2] [Module F G2] [Monoid TF] in
theorem length_challenges : ∀ (zs : List (GT × GT)) (rng : Rng σ),
    (challenges V rng zs : List F).length = zs.length
  | [], _ => rfl
  | z :: zs, rng => by simp [challenges, length_challenges zs]

/-- One round of the prover loop. -/
theorem proveLoop_step (hE : V.E.Lawful e) (k fuel : ℕ) (a : List G1) (b : List G2)
    (rng : Rng σ) (acc : List (GT × GT)) (ha : a.length = 2 ^ (k + 1)) (hb : b.length = 2 ^ (k + 1)) :
    let L := dot (e · ·) (a.drop (2 ^ k)) (b.take (2 ^ k))
    let R := dot (e · ·) (a.take (2 ^ k)) (b.drop (2 ^ k))
    let xr : F × Rng σ := roundChallenge V rng (L, R)
    proveLoop V (fuel + 1) (2 ^ (k + 1)) a b rng acc =
      (do
        let xInv ← unwrap (inverse xr.1)
        proveLoop V fuel (2 ^ k) (foldHalf xr.1 a)
          (List.zipWith (fun l r => xInv • r + l) (b.take (2 ^ k)) (b.drop (2 ^ k))) xr.2
          (acc ++ [(L, R)])) := by
  intro L R xr
  have h2 : (2 : ℕ) ^ (k + 1) = 2 * 2 ^ k := by rw [pow_succ]; ring
  have hne : ¬ (2 : ℕ) ^ (k + 1) = 1 := by have := Nat.two_pow_pos k; omega
  have hdiv : (2 : ℕ) ^ (k + 1) / 2 = 2 ^ k := by omega
  rw [h2] at ha hb
  rw [proveLoop]
  simp only [hne, if_false, hdiv]
  rw [sliceTo_of_le _ _ (by omega), sliceFrom_of_le _ _ (by omega),
    sliceTo_of_le _ _ (by omega), sliceFrom_of_le _ _ (by omega)]
  simp only [ok_bind]
  rw [productOfPairings_eq hE _ _ (by simp; omega), productOfPairings_eq hE _ _ (by simp; omega)]
  simp only [ok_bind]
  rw [zipWith_fold _ a _ ha]

/-- Outcome of the prover loop: a panic at a zero challenge, or all the cross terms. -/
theorem proveLoop_outcome (hE : V.E.Lawful e) : ∀ (k fuel : ℕ) (a : List G1) (b : List G2)
    (rng : Rng σ) (acc : List (GT × GT)), a.length = 2 ^ k → b.length = 2 ^ k → k ≤ fuel →
    ∃ zs : List (GT × GT), zs.length ≤ k ∧
      ((proveLoop V fuel (2 ^ k) a b rng acc = panic' .unwrap ∧
          (0 : F) ∈ (challenges V rng zs : List F)) ∨
        (proveLoop V fuel (2 ^ k) a b rng acc = .ok (acc ++ zs) ∧ zs.length = k ∧
          (∀ x ∈ (challenges V rng zs : List F), x ≠ 0) ∧
          dot (e · ·) (foldAll (challenges V rng zs : List F) a)
              (foldAll ((challenges V rng zs : List F).map (·⁻¹)) b) =
            dot (e · ·) a b + cross (challenges V rng zs) zs))
  | 0, fuel, a, b, rng, acc, _, _, _ => by
    refine ⟨[], le_rfl, .inr ⟨?_, rfl, by simp [challenges], by simp [challenges, foldAll]⟩⟩
    rw [proveLoop.eq_def]
    simp
  | k + 1, 0, _, _, _, _, _, _, hf => by omega
  | k + 1, fuel + 1, a, b, rng, acc, ha, hb, hf => by
    have h2 : (2 : ℕ) ^ (k + 1) = 2 * 2 ^ k := by rw [pow_succ]; ring
    have hne : ¬ (2 : ℕ) ^ (k + 1) = 1 := by have := Nat.two_pow_pos k; omega
    have hdiv : (2 : ℕ) ^ (k + 1) / 2 = 2 ^ k := by omega
    rw [h2] at ha hb
    set L := dot (e · ·) (a.drop (2 ^ k)) (b.take (2 ^ k)) with hL
    set R := dot (e · ·) (a.take (2 ^ k)) (b.drop (2 ^ k)) with hR
    obtain ⟨⟨x, rng'⟩, hxr⟩ : ∃ p, p = (roundChallenge V rng (L, R) : F × Rng σ) := ⟨_, rfl⟩
    have hch : ∀ zs, (challenges V rng ((L, R) :: zs) : List F) = x :: challenges V rng' zs := by
      intro zs; rw [challenges, ← hxr]
    have step : proveLoop V (fuel + 1) (2 ^ (k + 1)) a b rng acc =
        (do
          let xInv ← unwrap (inverse x)
          proveLoop V fuel (2 ^ k) (foldHalf x a)
            (List.zipWith (fun l r => xInv • r + l) (b.take (2 ^ k)) (b.drop (2 ^ k))) rng'
            (acc ++ [(L, R)])) := by
      have := proveLoop_step hE k fuel a b rng acc (h2 ▸ ha) (h2 ▸ hb)
      simp only [← hL, ← hR, ← hxr] at this
      exact this
    by_cases hx : x = 0
    · refine ⟨[(L, R)], by simp, .inl ⟨?_, by simp [hch, hx]⟩⟩
      rw [step, hx]; simp
    · rw [step, inverse_of_ne hx]
      simp only [unwrap_some, ok_bind]
      rw [zipWith_fold x⁻¹ b _ hb]
      obtain ⟨zs, hl, h⟩ := proveLoop_outcome hE k fuel (foldHalf x a) (foldHalf x⁻¹ b) rng'
        (acc ++ [(L, R)]) (length_foldHalf _ _ _ ha) (length_foldHalf _ _ _ hb) (by omega)
      refine ⟨(L, R) :: zs, by simpa using hl, ?_⟩
      rw [hch]
      rcases h with ⟨h1, h3⟩ | ⟨h1, h3, h4, h5⟩
      · exact .inl ⟨h1, by simp [h3]⟩
      · refine .inr ⟨by rw [h1]; simp, by simpa using h3, ?_, ?_⟩
        · intro y hy
          rcases List.mem_cons.mp hy with rfl | hy
          · exact hx
          · exact h4 y hy
        · rw [List.map_cons, foldAll, foldAll, h5, dot_fold e x hx a b _ ha hb, cross, cross,
            dot_cons]
          abel

end Prove

section Verify
variable {σ F G1 G2 GT TF : Type} [Field F] [DecidableEq F] [AddCommGroup G1] [Module F G1]
  [AddCommGroup G2] [Module F G2] [AddCommGroup GT] [Module F GT] [Monoid TF] [DecidableEq GT]
  {V : Env σ F G1 G2 GT TF} {e : G1 →ₗ[F] G2 →ₗ[F] GT}

omit [DecidableEq F] [DecidableEq GT] in
theorem zipWith_cross : ∀ (xs : List F) (zs : List (GT × GT)),
    (List.zipWith (fun (z : GT × GT) (x : F × F) => x.1 • z.1 + x.2 • z.2) zs
      (xs.zip (xs.map (·⁻¹)))).sum = cross xs zs
  | [], zs => by cases zs <;> simp [cross]
  | x :: xs, [] => by simp [cross]
  | x :: xs, z :: zs => by
    have := zipWith_cross xs zs
    simp only [List.map_cons, List.zip_cons_cons, List.zipWith_cons_cons, List.sum_cons, this, cross,
      dot_cons]

/-- The verifier's outcome on well-shaped input. -/
theorem verify_eq (hE : V.E.Lawful e) (a : List G1) (b : List G2) (r : List F) (value : GT)
    (proof : List (GT × GT)) (hk : 1 ≤ proof.length) (ha : a.length = 2 ^ proof.length)
    (hb : b.length = 2 ^ proof.length) (hr : 2 ^ proof.length ≤ r.length) (xs : List F)
    (hxs : xs = challenges V (Rng.fromSeed V (seedBytes V a b r value)) proof) :
    verify V a b r value proof = .ok (decide
      (e (dot (fun g s => s • g) a (List.zipWith (fun x r => x * r) (exps xs.reverse) r))
        (dot (fun g s => s • g) b (exps (xs.map (·⁻¹)).reverse)) = value + cross xs proof)) := by
  have hlen : xs.length = proof.length := by rw [hxs, length_challenges]
  have h2 : 2 ≤ 2 ^ proof.length := by
    calc 2 = 2 ^ 1 := rfl
      _ ≤ _ := Nat.pow_le_pow_right (by norm_num) hk
  have s1 := scalarLoop_eq xs
  have s2 := scalarLoop_eq (xs.map (·⁻¹))
  rw [List.length_map] at s2
  rw [hlen] at s1 s2
  rw [verify]
  simp only [ha, hb, isPow2_two_pow, assert_true, ok_bind, h2, decide_true, beq_self_eq_true, ← hxs,
    s1, s2, parReduce_add, zipWith_cross]
  rw [msm_eq _ _ (by simp [length_exps, hlen, ha]; omega)]
  simp only [unwrap_some, ok_bind]
  rw [msm_eq _ _ (by simp [length_exps, hlen, hb])]
  simp only [unwrap_some, ok_bind]
  rw [hE.pairing_eq]
  rfl

omit [DecidableEq GT] in
/-- The verifier's combined points are the folded vectors. -/
theorem combined_eq (a : List G1) (b : List G2) (r xs : List F) (ha : a.length = 2 ^ xs.length)
    (hb : b.length = 2 ^ xs.length) (hr : 2 ^ xs.length ≤ r.length) :
    dot (e · ·) (foldAll xs (List.zipWith (fun a r => r • a) a r)) (foldAll (xs.map (·⁻¹)) b) =
    e (dot (fun g s => s • g) a (List.zipWith (fun x r => x * r) (exps xs.reverse) r))
      (dot (fun g s => s • g) b (exps (xs.map (·⁻¹)).reverse)) := by
  have h1 := dot_exps xs.reverse (List.zipWith (fun a r => r • a) a r)
    (by simp [ha]; omega)
  have h2 := dot_exps (xs.map (·⁻¹)).reverse b (by simp [hb])
  rw [List.reverse_reverse] at h1 h2
  rw [h1, h2, dot_singleton, dot_scaled]

end Verify

section Count
variable {F G1 G2 GT : Type} [Field F] [AddCommGroup G1] [Module F G1] [AddCommGroup G2]
  [Module F G2] [AddCommGroup GT] [Module F GT] (e : G1 →ₗ[F] G2 →ₗ[F] GT)

/-- The messages sent by a prover strategy when the verifier's challenges are `xs`: message `j` is
computed from the first `j` challenges. -/
def messages (st : List F → GT × GT) (xs : List F) : List (GT × GT) :=
  (List.range xs.length).map fun j => st (xs.take j)

omit [Field F] [AddCommGroup GT] in
theorem length_messages (st : List F → GT × GT) (xs : List F) :
    (messages st xs).length = xs.length := by simp [messages]

omit [Field F] [AddCommGroup GT] in
theorem messages_cons (st : List F → GT × GT) (x : F) (xs : List F) :
    messages st (x :: xs) = st [] :: messages (fun l => st (x :: l)) xs := by
  simp [messages, List.range_succ_eq_map, Function.comp_def]

/-- For a false statement at most two first challenges make the folded statement true. -/
theorem card_bad (S : Finset F) (hS : ∀ x ∈ S, x ≠ 0) (d u w : GT) (hd : d ≠ 0)
    (h : ∀ x ∈ S, x • u + d + x⁻¹ • w = 0) : S.card ≤ 2 := by
  have := card_roots_dot (F := F) [w, d, u] ⟨d, by simp, hd⟩ S fun x hx => by
    have h0 := hS x hx
    have h1 := congrArg (x • ·) (h x hx)
    simp only [smul_add, smul_smul, mul_inv_cancel₀ h0, smul_zero, one_smul] at h1
    refine Eq.trans ?_ h1
    simp [powers, List.range_succ, pow_two]
    abel
  simpa using Nat.lt_succ_iff.mp this

theorem count_core [DecidableEq F] [DecidableEq GT] (S : Finset F) (hS : ∀ x ∈ S, x ≠ 0) :
    ∀ (k : ℕ) (a : List G1) (b : List G2) (v : GT) (st : List F → GT × GT),
      a.length = 2 ^ k → b.length = 2 ^ k → v ≠ dot (e · ·) a b →
      ((Fintype.piFinset fun _ : Fin k => S).filter fun xs =>
        dot (e · ·) (foldAll (List.ofFn xs) a) (foldAll ((List.ofFn xs).map (·⁻¹)) b) =
          v + cross (List.ofFn xs) (messages st (List.ofFn xs))).card ≤ 2 * k * S.card ^ (k - 1)
  | 0, a, b, v, st, _, _, hv => by
    simp only [List.ofFn_zero, List.map_nil, foldAll, cross, dot_nil_left, add_zero]
    rw [Finset.filter_false_of_mem (fun _ _ => Ne.symm hv)]
    simp
  | k + 1, a, b, v, st, ha, hb, hv => by
    rw [Finset.card_eq_sum_card_fiberwise (f := fun xs => xs 0) (t := S)
      (fun xs hxs => by
        simp only [Finset.coe_filter, Fintype.mem_piFinset, Set.mem_ofPred_eq] at hxs
        exact hxs.1 0)]
    have h2 : ∀ n : ℕ, 2 ^ (n + 1) = 2 * 2 ^ n := fun n => by rw [pow_succ]; ring
    rw [h2] at ha hb
    set L := dot (e · ·) (a.drop (2 ^ k)) (b.take (2 ^ k)) with hL
    set R := dot (e · ·) (a.take (2 ^ k)) (b.drop (2 ^ k)) with hR
    let z := st []
    let bad : F → Prop := fun x => v + (x • z.1 + x⁻¹ • z.2) = x • L + dot (e · ·) a b + x⁻¹ • R
    classical
    have hbad : (S.filter bad).card ≤ 2 := by
      apply card_bad _ (fun x hx => hS x (Finset.mem_filter.mp hx).1) (v - dot (e · ·) a b)
        (z.1 - L) (z.2 - R) (sub_ne_zero.mpr hv)
      intro x hx
      have := (Finset.mem_filter.mp hx).2
      simp only [bad] at this
      rw [← sub_eq_zero] at this
      rw [← this]
      module
    have key : ∀ x ∈ S, (((Fintype.piFinset fun _ : Fin (k + 1) => S).filter fun xs =>
        dot (e · ·) (foldAll (List.ofFn xs) a) (foldAll ((List.ofFn xs).map (·⁻¹)) b) =
          v + cross (List.ofFn xs) (messages st (List.ofFn xs))).filter fun xs => xs 0 = x).card ≤
        (if bad x then S.card ^ k else 0) + 2 * k * S.card ^ (k - 1) := by
      intro x hx
      have hx0 := hS x hx
      let v' := v + (x • z.1 + x⁻¹ • z.2)
      have hle : (((Fintype.piFinset fun _ : Fin (k + 1) => S).filter fun xs =>
        dot (e · ·) (foldAll (List.ofFn xs) a) (foldAll ((List.ofFn xs).map (·⁻¹)) b) =
          v + cross (List.ofFn xs) (messages st (List.ofFn xs))).filter fun xs => xs 0 = x).card ≤
          ((Fintype.piFinset fun _ : Fin k => S).filter fun xs =>
            dot (e · ·) (foldAll (List.ofFn xs) (foldHalf x a))
              (foldAll ((List.ofFn xs).map (·⁻¹)) (foldHalf x⁻¹ b)) =
            v' + cross (List.ofFn xs) (messages (fun l => st (x :: l)) (List.ofFn xs))).card := by
        apply Finset.card_le_card_of_injOn (fun xs => fun i : Fin k => xs i.succ)
        · intro xs hxs
          simp only [Finset.coe_filter, Finset.mem_filter, Fintype.mem_piFinset,
            Set.mem_ofPred_eq] at hxs ⊢
          obtain ⟨⟨hm, heq⟩, h0⟩ := hxs
          refine ⟨fun i => hm i.succ, ?_⟩
          rw [List.ofFn_succ, h0, List.map_cons, foldAll, foldAll, messages_cons, cross, dot_cons,
            ← add_assoc] at heq
          exact heq
        · intro xs hxs ys hys hxy
          simp only [Finset.coe_filter, Finset.mem_filter, Set.mem_ofPred_eq] at hxs hys
          funext i
          refine Fin.cases ?_ (fun j => ?_) i
          · rw [hxs.2, hys.2]
          · exact congrFun hxy j
      refine hle.trans ?_
      split
      · refine (Finset.card_filter_le _ _).trans ?_
        rw [Fintype.card_piFinset_const]
        exact Nat.le_add_right _ _
      · rename_i hb'
        rw [zero_add]
        apply count_core S hS k _ _ _ _ (length_foldHalf _ _ _ ha) (length_foldHalf _ _ _ hb)
        intro hcon
        apply hb'
        rw [dot_fold e x hx0 a b _ ha hb] at hcon
        exact hcon
    refine (Finset.sum_le_sum key).trans ?_
    rw [Finset.sum_add_distrib, Finset.sum_ite, Finset.sum_const_zero, add_zero, Finset.sum_const,
      Finset.sum_const, smul_eq_mul, smul_eq_mul, Nat.add_sub_cancel]
    have : S.card * (2 * k * S.card ^ (k - 1)) = 2 * k * S.card ^ k := by
      cases k with
      | zero => simp
      | succ n => rw [Nat.add_sub_cancel, pow_succ]; ring
    rw [this]
    calc _ ≤ 2 * S.card ^ k + 2 * k * S.card ^ k := by gcongr
      _ = 2 * (k + 1) * S.card ^ k := by ring

end Count

end Ripp.Sipp
