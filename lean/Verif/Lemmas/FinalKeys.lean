import Verif.Model.Gipa
import Verif.Lemmas.InnerProducts

/-! # The exponent vectors of the verifier -/

set_option linter.unusedSectionVars false

namespace Ripp

open Spec

variable {F : Type} [Field F] [DecidableEq F]

/-- `v ++ x v`. -/
def doubleUp (v : List F) (x : F) : List F := v ++ v.map (· * x)

theorem length_doubleUp (v : List F) (x : F) : (doubleUp v x).length = 2 * v.length := by
  simp [doubleUp]; omega

theorem pushScaled_aux (v : List F) (x : F) : ∀ (c : ℕ), c ≤ v.length →
    (List.range c).foldlM (m := Except Fault)
      (fun v j => do return v ++ [(← idx v j) * x]) v = .ok (v ++ (v.take c).map (· * x))
  | 0, _ => by simp
  | c + 1, h => by
    rw [List.range_succ, List.foldlM_append, pushScaled_aux v x c (by omega)]
    have hlt : c < (v ++ List.map (· * x) (List.take c v)).length := by simp; omega
    simp only [ok_bind, List.foldlM_cons, List.foldlM_nil, idx_of_lt _ _ hlt, pure_eq_ok]
    rw [List.getElem_append_left (by omega), List.take_succ_eq_append_getElem (by omega),
      List.map_append, List.append_assoc]
    rfl

theorem pushScaled_eq (v : List F) (x : F) (c : ℕ) (h : c = v.length) :
    pushScaled v x c = .ok (doubleUp v x) := by
  subst h
  rw [pushScaled, pushScaled_aux v x _ le_rfl, List.take_length, doubleUp]

theorem exponentLoop_eq : ∀ (cs : List F) (i : ℕ) (va vb : List F), va.length = 2 ^ i →
    vb.length = 2 ^ i → (∀ c ∈ cs, c ≠ 0) →
    exponentLoop cs i (va, vb) =
      .ok ((cs.map (·⁻¹)).foldl doubleUp va, cs.foldl doubleUp vb)
  | [], i, va, vb, _, _, _ => rfl
  | c :: cs, i, va, vb, ha, hb, h => by
    rw [exponentLoop, inverse_of_ne (h c (by simp))]
    simp only [unwrap_some, ok_bind]
    rw [pushScaled_eq va _ _ ha.symm, pushScaled_eq vb _ _ hb.symm]
    simp only [ok_bind, List.map_cons, List.foldl_cons]
    exact exponentLoop_eq cs (i + 1) _ _ (by rw [length_doubleUp, ha, pow_succ]; ring)
      (by rw [length_doubleUp, hb, pow_succ]; ring) fun d hd => h d (by simp [hd])

theorem length_foldl_doubleUp : ∀ (cs v : List F),
    (cs.foldl doubleUp v).length = 2 ^ cs.length * v.length
  | [], v => by simp
  | c :: cs, v => by
    rw [List.foldl_cons, length_foldl_doubleUp, length_doubleUp, List.length_cons, pow_succ]; ring

/-- The exponent vector for `xs` (head = lowest bit). -/
def exps (xs : List F) : List F := xs.foldl doubleUp [1]

theorem length_exps (xs : List F) : (exps xs).length = 2 ^ xs.length := by
  simp [exps, length_foldl_doubleUp]

theorem exps_append (xs : List F) (x : F) : exps (xs ++ [x]) = doubleUp (exps xs) x := by
  simp [exps]

theorem foldl_doubleUp_getElem? : ∀ (xs v : List F) (i : ℕ), 0 < v.length →
    i < 2 ^ xs.length * v.length →
    (xs.foldl doubleUp v)[i]? = some (v.getD (i % v.length) 0 * bitProd xs (i / v.length))
  | [], v, i, hv, h => by
    have hi : i < v.length := by simpa using h
    simp [bitProd, Nat.mod_eq_of_lt hi, hi]
  | x :: xs, v, i, hv, h => by
    rw [List.foldl_cons, foldl_doubleUp_getElem? xs _ i (by rw [length_doubleUp]; omega)
      (by rw [length_doubleUp]; rw [List.length_cons, pow_succ] at h; nlinarith)]
    rw [length_doubleUp, bitProd]
    congr 1
    have hdm : i / v.length / 2 = i / (2 * v.length) := by rw [Nat.div_div_eq_div_mul, mul_comm]
    have hmod : i % (2 * v.length) = i % v.length + v.length * (i / v.length % 2) := by
      rw [mul_comm 2, Nat.mod_mul]
    have hlt : i % v.length < v.length := Nat.mod_lt _ hv
    rw [hdm, ← mul_assoc]
    congr 1
    rw [hmod, doubleUp]
    rcases Nat.mod_two_eq_zero_or_one (i / v.length) with h2 | h2
    · simp [h2, hlt, List.getElem?_append]
    · simp [h2, hlt]

theorem exps_getElem? (xs : List F) (i : ℕ) (h : i < 2 ^ xs.length) :
    (exps xs)[i]? = some (bitProd xs i) := by
  rw [exps, foldl_doubleUp_getElem? xs [1] i (by simp) (by simpa using h)]
  simp [Nat.mod_one]

theorem exps_eq (xs : List F) : exps xs = (List.range (2 ^ xs.length)).map (bitProd xs) := by
  apply List.ext_getElem?
  intro i
  by_cases h : i < 2 ^ xs.length
  · rw [exps_getElem? _ _ h]; simp [h]
  · rw [List.getElem?_eq_none (by rw [length_exps]; omega)]
    simp [h]

section Keys
variable {K : Type} [AddCommGroup K] [Module F K]

theorem foldl_add_sum (xs : List K) (a : K) : xs.foldl (· + ·) a = a + xs.sum := by
  induction xs generalizing a with
  | nil => simp
  | cons x xs ih => simp [ih, add_assoc]

theorem foldKeys_eq (ck : List K) (xs : List F) (h1 : 0 < ck.length) (h2 : 0 < xs.length) :
    foldKeys ck xs = .ok (dot (fun g x => x • g) ck xs) := by
  cases ck with
  | nil => simp at h1
  | cons k ck =>
    cases xs with
    | nil => simp at h2
    | cons x xs =>
      simp only [foldKeys, idx_cons_zero, ok_bind]
      rw [sliceFrom_of_le _ _ (by simp), sliceFrom_of_le _ _ (by simp)]
      simp [foldl_add_sum, zipWith_sum]

theorem dot_doubleUp (x : F) (ck : List K) (v : List F) (n : ℕ) (h : ck.length = 2 * n)
    (hv : v.length = n) :
    dot (fun g x => x • g) ck (doubleUp v x) = dot (fun g x => x • g) (foldHalf x ck) v := by
  have e : ck.length / 2 = n := by omega
  have hmul : v.map (· * x) = smulV x v := by
    simp only [smulV, smul_eq_mul, mul_comm]
  conv_lhs => rw [← List.take_append_drop n ck]
  rw [doubleUp, dot_append _ _ _ _ _ (by simp [h, hv]; omega), foldHalf, e, hmul]
  have h1 := dot_smulV_right (smulMap F K) x (ck.drop n) v
  have h2 := dot_addV_left (smulMap F K) (ck.take n) (smulV x (ck.drop n)) v (by simp; omega)
  have h3 := dot_smulV_left (smulMap F K) x (ck.drop n) v
  simp only [smulMap_apply] at h1 h2 h3
  rw [h1, h2, h3]

/-- The one-shot combination equals the round by round folding (rounds in reverse order). -/
theorem dot_exps (xs : List F) : ∀ (ck : List K), ck.length = 2 ^ xs.length →
    foldAll xs.reverse ck = [dot (fun g x => x • g) ck (exps xs)] := by
  induction xs using List.reverseRecOn with
  | nil =>
    intro ck h
    obtain ⟨k, rfl⟩ := List.length_eq_one_iff.mp (by simpa using h)
    simp [foldAll, exps]
  | append_singleton xs x ih =>
    intro ck h
    have h' : ck.length = 2 * 2 ^ xs.length := by
      rw [h, List.length_append, List.length_singleton, pow_succ]; ring
    rw [List.reverse_append]
    simp only [List.reverse_singleton, List.singleton_append, foldAll]
    rw [ih _ (length_foldHalf x ck _ h'), exps_append,
      dot_doubleUp x ck _ (2 ^ xs.length) h' (length_exps xs)]

end Keys

section FinalKeys
variable {KA KB : Type} [AddCommGroup KA] [Module F KA] [AddCommGroup KB] [Module F KB]

theorem finalKeys_eq (cka : List KA) (ckb : List KB) (tr : List F) (h1 : cka.length = 2 ^ tr.length)
    (h2 : 0 < ckb.length) (h : ∀ c ∈ tr, c ≠ 0) :
    finalKeys cka ckb tr = .ok (dot (fun g x => x • g) cka (exps (tr.map (·⁻¹))),
      dot (fun g x => x • g) ckb (exps tr)) := by
  unfold finalKeys
  rw [h1]
  simp only [isPow2_two_pow, assert_true, ok_bind]
  rw [exponentLoop_eq tr 0 [1] [1] (by simp) (by simp) h]
  simp only [ok_bind]
  have hl : (List.foldl doubleUp [1] (List.map (fun x => x⁻¹) tr)).length = 2 ^ tr.length := by
    simp [length_foldl_doubleUp]
  rw [hl]
  simp only [beq_self_eq_true, assert_true, ok_bind]
  rw [foldKeys_eq cka _ (by rw [h1]; positivity) (by rw [hl]; positivity),
    foldKeys_eq ckb _ h2 (by rw [length_foldl_doubleUp]; simp)]
  rfl

/-- A transcript of the wrong length makes the computation panic. -/
theorem finalKeys_wrong (cka : List KA) (ckb : List KB) (tr : List F)
    (h1 : cka.length ≠ 2 ^ tr.length) (h : ∀ c ∈ tr, c ≠ 0) :
    finalKeys cka ckb tr = panic' .assertion := by
  unfold finalKeys
  cases hp : isPow2 cka.length with
  | false => rfl
  | true =>
    simp only [assert_true, ok_bind]
    rw [exponentLoop_eq tr 0 [1] [1] (by simp) (by simp) h]
    have hl : (List.foldl doubleUp [1] (List.map (fun x => x⁻¹) tr)).length = 2 ^ tr.length := by
      simp [length_foldl_doubleUp]
    simp only [ok_bind, hl]
    rw [show (2 ^ tr.length == cka.length) = false by simpa using fun h => h1 h.symm]
    rfl

end FinalKeys

end Ripp
