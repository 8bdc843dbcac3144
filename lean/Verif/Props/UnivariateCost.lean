import Verif.Model.UnivariateCost
import Verif.Props.ProverCost
import Verif.Props.Univariate
import Verif.Props.Transparent

/-!
# C146: the work of the set-ups and of the univariate commitments, in terms of the degree

Written from the claims of the paper for a polynomial of degree `d`: committing takes `O(d)` scalar
multiplications and `O(√d)` pairings, opening `O(√d)` group operations and pairings, the structured keys
have `O(√d)` elements, and verifying takes `O(log d)` with the structured keys and `O(√d)` with the
transparent ones. All constants are explicit. `√(4 d)` is written `Nat.sqrt (4 * d)`.
-/

set_option linter.unusedSectionVars false
set_option linter.unusedVariables false

namespace Ripp

open Counted Spec

section Sizes

/-- The sizes chosen for a degree: `s` is the power of two, `f` the skew. -/
theorem split_sizes (t j : ℕ) (hj : 1 ≤ j) (ht : 1 ≤ t) :
    ∃ f x y k l, splitDegrees (2 ^ j) (if 2 ^ (t + 1) ≤ 2 ^ j then 2 ^ t else 2 ^ j / 2) = .ok (x, y) ∧
      1 ≤ f ∧ f ≤ 2 ^ t ∧ (x + 1) * f = 2 ^ j ∧ y + 1 = 2 ^ j * f ∧ x + 1 = 2 ^ k ∧ y + 1 = 2 ^ l ∧
      1 ≤ k ∧ k ≤ j ∧ k + l = 2 * j := by
  have key : ∀ a b, (2 ^ a - 1 + 1) * 2 ^ b = 2 ^ (a + b) ∧
      2 ^ (a + 2 * b) - 1 + 1 = 2 ^ (a + b) * 2 ^ b ∧ 2 ^ a - 1 + 1 = 2 ^ a ∧
      2 ^ (a + 2 * b) - 1 + 1 = 2 ^ (a + 2 * b) := by
    intro a b
    have e1 : 2 ^ a - 1 + 1 = 2 ^ a := Nat.sub_add_cancel Nat.one_le_two_pow
    have e2 : 2 ^ (a + 2 * b) - 1 + 1 = 2 ^ (a + 2 * b) := Nat.sub_add_cancel Nat.one_le_two_pow
    exact ⟨by rw [e1, pow_add], by rw [e2, ← pow_add]; congr 1; omega, e1, e2⟩
  by_cases h : t + 1 ≤ j
  · rw [if_pos (Nat.pow_le_pow_right (by norm_num) h)]
    have hs := splitDegrees_pow (j - t) t
    have k1 := key (j - t) t
    rw [show j - t + t = j by omega] at hs k1
    exact ⟨2 ^ t, _, _, _, _, hs, Nat.one_le_two_pow, le_rfl, k1.1, k1.2.1, k1.2.2.1, k1.2.2.2,
      by omega, by omega, by omega⟩
  · rw [if_neg (by rw [not_le]; exact Nat.pow_lt_pow_right (by norm_num) (by omega))]
    have hs := splitDegrees_pow 1 (j - 1)
    have k1 := key 1 (j - 1)
    rw [show 1 + (j - 1) = j by omega] at hs k1
    have e : 2 ^ j / 2 = 2 ^ (j - 1) := by
      obtain ⟨i, rfl⟩ : ∃ i, j = i + 1 := ⟨j - 1, by omega⟩
      rw [pow_succ, Nat.mul_div_cancel _ (by norm_num)]; simp
    rw [e]
    exact ⟨2 ^ (j - 1), _, _, _, _, hs, Nat.one_le_two_pow,
      Nat.pow_le_pow_right (by norm_num) (by omega), k1.1, k1.2.1, k1.2.2.1, k1.2.2.2, by omega,
      by omega, by omega⟩

/-- The sizes `n` and `m` chosen for degree `d`, with skew at most `c`. -/
structure SizesFor (d c n m k l : ℕ) : Prop where
  enough : d + 1 ≤ n * m
  tight : n * m ≤ 4 * d
  rows : n ≤ Nat.sqrt (4 * d)
  cols : m ≤ c * Nat.sqrt (4 * d)
  nPow : n = 2 ^ k
  mPow : m = 2 ^ l
  one : 1 ≤ k
  rowLog : 2 * k ≤ Nat.log 2 (4 * d)
  bothLog : k + l ≤ Nat.log 2 (4 * d)

theorem sizesFor (t d j : ℕ) (hd : 1 ≤ d) (ht : 1 ≤ t) (h2 : ∀ i, j ≤ i ↔ d + 1 ≤ 4 ^ i) :
    ∃ x y k l, splitDegrees (2 ^ j) (if 2 ^ (t + 1) ≤ 2 ^ j then 2 ^ t else 2 ^ j / 2) = .ok (x, y) ∧
      SizesFor d (2 ^ t) (x + 1) (y + 1) k l := by
  have hj : 1 ≤ j := by
    by_contra h0
    have := (h2 0).mp (by omega)
    simp at this; omega
  obtain ⟨f, x, y, k, l, h3, f1, f2, hx, hy, hk, hl, k1, kj, kl⟩ := split_sizes t j hj ht
  have hp : (2 ^ j) * (2 ^ j) = 4 ^ j := by rw [← mul_pow, show 2 * 2 = 4 by norm_num]
  have hxy : (x + 1) * (y + 1) = 4 ^ j := by
    calc (x + 1) * (y + 1) = ((x + 1) * f) * 2 ^ j := by rw [hy]; ring
      _ = 4 ^ j := by rw [hx, hp]
  have hup : 4 ^ j ≤ 4 * d := by
    have : ¬ d + 1 ≤ 4 ^ (j - 1) := fun h => by
      have := (h2 (j - 1)).mpr h
      omega
    have e : 4 ^ j = 4 * 4 ^ (j - 1) := by
      rw [← pow_succ']; congr 1; omega
    omega
  have hS : 2 ^ j ≤ Nat.sqrt (4 * d) := by
    rw [Nat.le_sqrt, hp]; exact hup
  have hlog : 2 * j ≤ Nat.log 2 (4 * d) := by
    refine Nat.le_log_of_pow_le (by norm_num) ?_
    rw [pow_mul]; exact hup
  refine ⟨x, y, k, l, h3, ⟨?_, ?_, ?_, ?_, hk, hl, k1, by omega, by omega⟩⟩
  · rw [hxy]; exact (h2 j).mp le_rfl
  · rw [hxy]; exact hup
  · refine le_trans ?_ hS
    rw [← hx]; exact Nat.le_mul_of_pos_right _ f1
  · rw [hy, mul_comm]
    exact Nat.mul_le_mul f2 hS

/-- The sizes of the scheme with structured keys: the skew is at most 16. -/
theorem sizes_kzg (d : ℕ) (hd : 1 ≤ d) (h : d + 1 ≤ 2 ^ 52) :
    ∃ x y k l, bivariateDegrees d = .ok (x, y) ∧ SizesFor d 16 (x + 1) (y + 1) k l := by
  obtain ⟨j, h1, h2⟩ := sqrtPow2_eq d h
  obtain ⟨x, y, k, l, h3, h4⟩ := sizesFor 4 d j hd (by norm_num) h2
  refine ⟨x, y, k, l, ?_, h4⟩
  rw [bivariateDegrees, h1]
  exact h3

/-- The sizes of the transparent scheme: the skew is at most 4. -/
theorem sizes_transparent (d : ℕ) (hd : 1 ≤ d) (h : d + 1 ≤ 2 ^ 52) :
    ∃ x y k l, bivariateDegreesT d = .ok (x, y) ∧ SizesFor d 4 (x + 1) (y + 1) k l := by
  obtain ⟨j, h1, h2⟩ := sqrtPow2_eq d h
  obtain ⟨x, y, k, l, h3, h4⟩ := sizesFor 2 d j hd (by norm_num) h2
  refine ⟨x, y, k, l, ?_, h4⟩
  rw [bivariateDegreesT, h1]
  exact h3

end Sizes

variable {ρ F G1 G2 GT TF T KT OT : Type} [Field F] [DecidableEq F]
  [AddCommGroup G1] [Module F G1] [AddCommGroup G2] [Module F G2] [AddCommGroup GT] [Module F GT]
  [Monoid TF]

/-! ## Without the counts -/

@[simp] theorem value_powC (z : F) (n : ℕ) : (powC z n).value = .ok (z ^ n) := rfl

theorem costs_powC (o : Op) (z : F) (n : ℕ) : (powC z n).Costs o (unit .pow o) fun _ => True :=
  ((costs_tick .pow o 1 _).step fun _ _ => costs_pure o _ _).eq (by simp [unit])

theorem mapM_ok_map {α β : Type} (f : α → β) (xs : List α) :
    xs.mapM (fun a => (.ok (f a) : Res β)) = .ok (xs.map f) := by
  induction xs with
  | nil => rfl
  | cons x xs ih => rw [List.mapM_cons, ih]; rfl

@[simp] theorem value_structuredGeneratorsC {G : Type} [AddCommGroup G] [Module F G] (num : ℕ) (g : G)
    (s : F) : (structuredGeneratorsC num g s).value = structuredGenerators num g s := by
  simp only [structuredGeneratorsC, structuredGenerators, value_bind, value_free, value_powersLoopC,
    value_mapM, value_smulC, mapM_ok_map, ok_bind]
  rfl

/-- C146: without the counts, the counting set-ups are the set-ups. -/
theorem C146_setup_value (V : Env ρ F G1 G2 GT TF) (ipc : Commitment ρ KT T OT) (s : ρ)
    (size x y : ℕ) :
    (tipaSetupC V.randF V.g V.h ipc s size).value = tipaSetup V.randF V.g V.h ipc s size ∧
    (Kzg.setupC V s size).value = Kzg.setup V s size ∧
    (Bivariate.setupC V s x y).value = Bivariate.setup V s x y ∧
    (Univariate.setupC V s size).value = Univariate.setup V s size := by
  have hb : ∀ x y, (Bivariate.setupC V s x y).value = Bivariate.setup V s x y := fun x y => by
    simp only [Bivariate.setupC, Bivariate.setup, value_bind, value_structuredGeneratorsC, value_smulC,
      value_pure, ok_bind]
    rfl
  refine ⟨?_, ?_, hb x y, ?_⟩
  · simp only [tipaSetupC, tipaSetup, value_bind, value_structuredGeneratorsC, value_smulC, value_free,
      value_pure, ok_bind]
    by_cases h : size = 0
    · simp [h]
    · simp only [if_neg h]
      rfl
  · simp only [Kzg.setupC, Kzg.setup, value_bind, value_structuredGeneratorsC, value_smulC,
      value_pure, ok_bind]
    rfl
  · simp only [Univariate.setupC, Univariate.setup, value_bind, value_free, hb]

/-- C146: without the counts, the counting functions are those of the univariate schemes. -/
theorem C146_univariate_value (V : Env ρ F G1 G2 GT TF) (srs : SRS G1 G2 × List G1)
    (ck : List G1 × List G2) (p : List F) (coms : List G1) (z : F) :
    (Univariate.commitC V srs p).value = Univariate.commit V srs p ∧
    (Univariate.openC V srs p coms z).value = Univariate.open_ V srs p coms z ∧
    (TUnivariate.commitC V ck p).value = TUnivariate.commit V ck p ∧
    (TUnivariate.openC V ck p coms z).value = TUnivariate.open_ V ck p coms z := by
  refine ⟨?_, ?_, ?_, ?_⟩
  · simp only [Univariate.commitC, Univariate.commit, value_bind, value_free,
      Bivariate.value_commitC]
  · simp only [Univariate.openC, Univariate.open_, value_bind, value_free, value_powC, ok_bind,
      Bivariate.value_openC]
  · simp only [TUnivariate.commitC, TUnivariate.commit, value_bind, value_free,
      TBivariate.value_commitC]
  · simp only [TUnivariate.openC, TUnivariate.open_, value_bind, value_free, value_powC, ok_bind,
      TBivariate.value_openC]

/-- C146: the same for the verifiers. -/
theorem C146_verify_value [DecidableEq G1] [DecidableEq GT] (V : Env ρ F G1 G2 GT TF)
    (v : VerifierSRS G1 G2) (ck : List G1 × List G2) (d : ℕ) (com : GT) (z eval : F)
    (proof : PcProof F G1 G2 GT) (proof' : TpcProof F G1 GT) :
    (Univariate.verifyC V v d com z eval proof).value = Univariate.verify V v d com z eval proof ∧
    (TUnivariate.verifyC V ck com z eval proof').value = TUnivariate.verify V ck com z eval proof' := by
  refine ⟨?_, ?_⟩
  · simp only [Univariate.verifyC, Univariate.verify, value_bind, value_free, value_powC, ok_bind,
      Bivariate.value_verifyC]
  · simp only [TUnivariate.verifyC, TUnivariate.verify, value_bind, value_free, value_powC, ok_bind,
      TBivariate.value_verifyC]

/-! ## Set-ups -/

theorem costs_structuredGeneratorsC {G : Type} [AddCommGroup G] [Module F G] (o : Op) (num : ℕ)
    (g : G) (s : F) :
    (structuredGeneratorsC num g s).Costs o (num * unit .mul o + num * unit .scale o)
      fun _ => True := by
  refine ((costs_free o _ _).step fun _ _ => (costs_powersLoopC o s num 1 []).step
    (m := num * unit .scale o) fun ps hps => ?_).eq (Nat.zero_add _)
  have hl : ps.length = num := by
    rw [value_powersLoopC] at hps
    cases hps
    rw [powersLoop_eq]
    simp [Spec.powers]
  exact (costs_mapM (fun p => costs_smulC o p g) ps).eq (by rw [hl])

/-- C146: TIPA's set-up for `n` messages takes `4 n` scalar multiplications. -/
theorem C146_tipa_setup (V : Env ρ F G1 G2 GT TF) (ipc : Commitment ρ KT T OT) (s : ρ) (n : ℕ) :
    (tipaSetupC V.randF V.g V.h ipc s n).Takes True fun
      | .mul => 2 * (2 * n - 1)
      | .scale => 2 * (2 * n - 1) + 2
      | _ => 0 := by
  refine takes_of_costs fun o _ => ?_
  refine ((costs_free o _ _).step fun _ _ => (costs_structuredGeneratorsC o _ _ _).step fun _ _ =>
    (costs_structuredGeneratorsC o _ _ _).step fun _ _ => (costs_free o _ _).step fun _ _ =>
    (costs_free o _ _).step fun _ _ => (costs_smulC o _ _).step fun _ _ =>
    (costs_smulC o _ _).step fun _ _ => costs_pure o _ _).eq ?_
  cases o <;> simp [unit] <;> ring

/-- C146: KZG's set-up for degree `d` takes `d + 3` scalar multiplications. -/
theorem C146_kzg_setup (V : Env ρ F G1 G2 GT TF) (s : ρ) (d : ℕ) :
    (Kzg.setupC V s d).Takes True fun
      | .mul => d + 1
      | .scale => d + 3
      | _ => 0 := by
  refine takes_of_costs fun o _ => ?_
  refine ((costs_structuredGeneratorsC o _ _ _).step fun _ _ => (costs_smulC o _ _).step fun _ _ =>
    (costs_smulC o _ _).step fun _ _ => costs_pure o _ _).eq ?_
  cases o <;> simp [unit]

/-- C146: the set-up for `x + 1` and `y + 1` powers. -/
theorem C146_bivariate_setup (V : Env ρ F G1 G2 GT TF) (s : ρ) (x y : ℕ) :
    (Bivariate.setupC V s x y).Takes True fun
      | .mul => 2 * x + y + 2
      | .scale => 2 * x + y + 4
      | _ => 0 := by
  refine takes_of_costs fun o _ => ?_
  refine ((costs_structuredGeneratorsC o _ _ _).step fun _ _ =>
    (costs_structuredGeneratorsC o _ _ _).step fun _ _ => (costs_smulC o _ _).step fun _ _ =>
    (costs_smulC o _ _).step fun _ _ => costs_pure o _ _).eq ?_
  cases o <;> simp [unit] <;> ring

theorem work_free_bind {α β : Type} {r : Res α} {a : α} (h : r = .ok a) (f : α → Counted β) :
    (free r >>= f).work = (f a).work := by
  subst h
  show (fun _ => 0) + (f a).1 = (f a).1
  funext o
  simp

/-- C146: the structured keys for degree `d` have `O(√d)` elements: the set-up takes at most
`18 √(4 d) + 1` scalar multiplications. -/
theorem C146_univariate_setup (V : Env ρ F G1 G2 GT TF) (s : ρ) (d : ℕ) (hd1 : 1 ≤ d)
    (hd2 : d + 1 ≤ 2 ^ 52) (o : Op) :
    (Univariate.setupC V s d).work o ≤ match o with
      | .mul => 18 * Nat.sqrt (4 * d)
      | .scale => 18 * Nat.sqrt (4 * d) + 1
      | _ => 0 := by
  obtain ⟨x, y, k, l, h1, h2⟩ := sizes_kzg d hd1 hd2
  rw [Univariate.setupC, work_free_bind h1]
  have h3 := h2.rows
  have h4 := h2.cols
  refine ((C146_bivariate_setup V s x y) o fun _ => trivial).1.trans ?_
  cases o <;> simp <;> omega

/-! ## The scheme with structured keys -/

namespace Univariate

variable (V : Env ρ F G1 G2 GT TF) (s s' : ρ) (d : ℕ) (srs : SRS G1 G2 × List G1)

theorem cost_sizes (hd1 : 1 ≤ d) (hd2 : d + 1 ≤ 2 ^ 52) (hset : setup V s d = .ok (srs, s')) :
    ∃ n m k l, SizesFor d 16 n m k l ∧ srs.1.hBetaPowers.length = 2 * n - 1 ∧
      srs.2.length = m := by
  obtain ⟨x, y, k, l, h1, h2⟩ := sizes_kzg d hd1 hd2
  obtain ⟨srs', α, β, s'', h4, h5⟩ := Bivariate.C41_setup V s x y
  rw [setup, h1] at hset
  simp only [ok_bind] at hset
  rw [h4] at hset
  simp only [Except.ok.injEq, Prod.mk.injEq] at hset
  obtain ⟨rfl, rfl⟩ := hset
  have e1 : srs'.1.hBetaPowers.length = 2 * (x + 1) - 1 := by rw [h5.left.hBeta]; simp
  have e2 : srs'.2.length = y + 1 := by rw [h5.kzg]; simp
  exact ⟨x + 1, y + 1, k, l, h2, e1, e2⟩

/-- C146: committing to a polynomial of degree at most `d` takes between `d + 1` and `4 d` scalar
multiplications and at most `√(4 d)` Miller loops. -/
theorem C146_commit (hd1 : 1 ≤ d) (hd2 : d + 1 ≤ 2 ^ 52) (hset : setup V s d = .ok (srs, s'))
    (p : List F) :
    (∀ o, (commitC V srs p).work o ≤ match o with
      | .scale => 4 * d
      | .miller => Nat.sqrt (4 * d)
      | .finalExp => 1
      | _ => 0) ∧
    ∀ r, commit V srs p = .ok r → d + 1 ≤ (commitC V srs p).work .scale := by
  obtain ⟨n, m, k, l, h, e1, e2⟩ := cost_sizes V s s' d srs hd1 hd2 hset
  have hw : (commitC V srs p).Takes True fun
      | .scale => n * srs.2.length
      | .miller => n
      | .finalExp => 1
      | _ => 0 := by
    refine takes_of_costs fun o _ => ?_
    refine ((costs_free o _ _).step fun _ _ => (costs_free o _ _).step fun rows _ => ?_).eq
      ((Nat.zero_add _).trans (Nat.zero_add _))
    have := C120_bivariate_commit V srs rows n e1 o fun _ => trivial
    exact ⟨this.1, fun a ha _ => this.2 a ha⟩
  refine ⟨fun o => ((hw o fun _ => trivial).1).trans ?_, fun r hr => ?_⟩
  · have h1 := h.tight
    have h2 := h.rows
    rw [e2]
    cases o <;> simp <;> assumption
  · rw [(hw .scale fun _ => trivial).2 r ((C146_univariate_value V srs ([], []) p [] 0).1.trans hr)]
    simp only [e2]
    exact h.enough

/-- The bounds for opening a commitment to a polynomial of degree at most `d`. -/
def openBound (d : ℕ) : Work
  | .mul => 4 * d + 25 * Nat.sqrt (4 * d)
  | .inv => Nat.log 2 (4 * d)
  | .scale => 40 * Nat.sqrt (4 * d)
  | .miller => 2 * Nat.sqrt (4 * d)
  | .finalExp => Nat.log 2 (4 * d)
  | .hash => Nat.log 2 (4 * d)
  | .pow => 1

/-- C146: opening takes `O(√d)` scalar multiplications of group elements and Miller loops, and `O(d)`
multiplications of scalars. -/
theorem C146_open (hd1 : 1 ≤ d) (hd2 : d + 1 ≤ 2 ^ 52) (hset : setup V s d = .ok (srs, s'))
    (p q : List F) (com : GT) (coms : List G1) (hc : commit V srs q = .ok (com, coms)) (z : F) (o : Op)
    (ho : o = .hash ∨ o = .inv → V.multiexpSsm.FirstTry ∧ ∀ x, V.fromRandomBytes (V.digest x) ≠ none) :
    (openC V srs p coms z).work o ≤ openBound d o := by
  obtain ⟨n, m, k, l, h, e1, e2⟩ := cost_sizes V s s' d srs hd1 hd2 hset
  have hcl : coms.length = 2 ^ k := by
    obtain ⟨_, -, hc⟩ := bind_eq_ok.mp hc
    obtain ⟨rows, -, hc⟩ := bind_eq_ok.mp hc
    rw [← Bivariate.value_commitC] at hc
    obtain ⟨_, -, hc'⟩ := value_bind_eq_ok hc
    obtain ⟨cs, hcs, hc'⟩ := value_bind_eq_ok hc'
    obtain ⟨_, -, hc'⟩ := value_bind_eq_ok hc'
    cases hc'
    rw [value_mapM] at hcs
    rw [length_of_mapM hcs, length_resize, SRS.commitmentKeys, length_stepBy2, e1, h.nPow]
    have := Nat.one_le_two_pow (n := k)
    omega
  rw [h.nPow] at e1
  have hw : (openC V srs p coms z).Costs o (unit .pow o + bivariateOpenWork k m o) fun _ => False := by
    refine ((costs_free o _ _).step fun _ _ => (costs_powC o _ _).step fun _ _ =>
      (costs_free o _ _).step fun rows _ => ?_).eq
      ((Nat.zero_add _).trans (congrArg _ (Nat.zero_add _)))
    refine ⟨?_, fun _ _ h => h.elim⟩
    rw [← e2]
    exact (C120_bivariate_open V srs rows coms _ k h.one e1 hcl o ho).1
  refine hw.1.trans ?_
  have h1 := h.tight
  have h2 := h.rows
  have h3 := h.cols
  have h4 := h.rowLog
  have h5 := h.one
  have h6 : k < n := by rw [h.nPow]; exact Nat.lt_two_pow_self
  have h7 := h.nPow
  cases o <;> simp [unit, bivariateOpenWork, openBound, ← h7] <;> omega

/-- The bounds for the verification of a proof with the right number of rounds. -/
def verifyBound (d : ℕ) : Work
  | .mul => 3 * Nat.log 2 (4 * d) + 2
  | .inv => 2 * Nat.log 2 (4 * d)
  | .scale => 3 * Nat.log 2 (4 * d) + 5
  | .miller => 5
  | .finalExp => 5
  | .hash => Nat.log 2 (4 * d)
  | .pow => 1

/-- C146: verifying takes five pairings and otherwise `O(log d)`, for every proof whose number `k` of
rounds is that of an honest proof. -/
theorem C146_verify [DecidableEq G1] [DecidableEq GT] (hd1 : 1 ≤ d) (hd2 : d + 1 ≤ 2 ^ 52)
    (v : VerifierSRS G1 G2) (com : GT) (z eval : F) (proof : PcProof F G1 G2 GT)
    (hk : ∀ x y, bivariateDegrees d = .ok (x, y) → x + 1 = 2 ^ proof.ip.gipa.steps.length) (o : Op)
    (ho : o = .hash ∨ o = .inv → V.multiexpSsm.FirstTry ∧ ∀ x, V.fromRandomBytes (V.digest x) ≠ none) :
    (verifyC V v d com z eval proof).work o ≤ verifyBound d o := by
  obtain ⟨x, y, k, l, h1, h⟩ := sizes_kzg d hd1 hd2
  have hk' : k = proof.ip.gipa.steps.length :=
    Nat.pow_right_injective le_rfl (h.nPow.symm.trans (hk x y h1))
  have hw : (verifyC V v d com z eval proof).Costs o (unit .pow o + bivariateWork k o)
      fun _ => False := by
    refine ((costs_free o _ _).step fun _ _ => (costs_powC o _ _).step fun _ _ => ?_).eq
      (Nat.zero_add _)
    refine ⟨?_, fun _ _ h => h.elim⟩
    rw [hk']
    exact (C113_bivariate V v com _ eval proof o ho).1
  refine hw.1.trans ?_
  have h4 := h.rowLog
  have h5 := h.one
  cases o <;> simp [unit, bivariateWork, verifyBound] <;> omega

end Univariate

/-! ## The transparent scheme -/

namespace TUnivariate

variable (V : Env ρ F G1 G2 GT TF) (s s' : ρ) (d : ℕ) (ck : List G1 × List G2)

theorem cost_sizes (hd1 : 1 ≤ d) (hd2 : d + 1 ≤ 2 ^ 52) (hset : setup V s d = .ok (ck, s')) :
    ∃ n m k l, SizesFor d 4 n m k l ∧ ck.2.length = n ∧ ck.1.length = m := by
  obtain ⟨x, y, k, l, h1, h2⟩ := sizes_transparent d hd1 hd2
  obtain ⟨ck', s'', h5, h6, h7⟩ := TBivariate.C47_setup V s x y
  rw [setup, h1] at hset
  simp only [ok_bind] at hset
  rw [h5] at hset
  simp only [Except.ok.injEq, Prod.mk.injEq] at hset
  obtain ⟨rfl, rfl⟩ := hset
  exact ⟨x + 1, y + 1, k, l, h2, h7, h6⟩

/-- C146: committing with the transparent scheme: the same numbers. -/
theorem C146_commit (hd1 : 1 ≤ d) (hd2 : d + 1 ≤ 2 ^ 52) (hset : setup V s d = .ok (ck, s'))
    (p : List F) :
    (∀ o, (commitC V ck p).work o ≤ match o with
      | .scale => 4 * d
      | .miller => Nat.sqrt (4 * d)
      | .finalExp => 1
      | _ => 0) ∧
    ∀ r, commit V ck p = .ok r → d + 1 ≤ (commitC V ck p).work .scale := by
  obtain ⟨n, m, k, l, h, e1, e2⟩ := cost_sizes V s s' d ck hd1 hd2 hset
  have hw : (commitC V ck p).Takes True fun
      | .scale => ck.2.length * ck.1.length
      | .miller => ck.2.length
      | .finalExp => 1
      | _ => 0 := by
    refine takes_of_costs fun o _ => ?_
    refine ((costs_free o _ _).step fun _ _ => (costs_free o _ _).step fun rows _ => ?_).eq
      ((Nat.zero_add _).trans (Nat.zero_add _))
    have := C120_transparent_commit V ck rows o fun _ => trivial
    exact ⟨this.1, fun a ha _ => this.2 a ha⟩
  refine ⟨fun o => ((hw o fun _ => trivial).1).trans ?_, fun r hr => ?_⟩
  · have h1 := h.tight
    have h2 := h.rows
    rw [e1, e2]
    cases o <;> simp <;> assumption
  · rw [(hw .scale fun _ => trivial).2 r
      ((C146_univariate_value V (⟨[], [], 0, 0⟩, []) ck p [] 0).2.2.1.trans hr)]
    simp only [e1, e2]
    exact h.enough

/-- The bounds for opening a commitment of the transparent scheme. -/
def openBound (d : ℕ) : Work
  | .mul => 4 * d + 13 * Nat.sqrt (4 * d)
  | .inv => Nat.log 2 (4 * d)
  | .scale => 34 * Nat.sqrt (4 * d)
  | .miller => 2 * Nat.sqrt (4 * d)
  | .finalExp => Nat.log 2 (4 * d)
  | .hash => Nat.log 2 (4 * d)
  | .pow => 1

/-- C146: opening with the transparent scheme. -/
theorem C146_open (hd1 : 1 ≤ d) (hd2 : d + 1 ≤ 2 ^ 52) (hset : setup V s d = .ok (ck, s'))
    (p q : List F) (com : GT) (coms : List G1) (hc : commit V ck q = .ok (com, coms)) (z : F) (o : Op)
    (ho : o = .hash ∨ o = .inv → V.multiexpSsm.FirstTry ∧ V.scalarSsm.FirstTry) :
    (openC V ck p coms z).work o ≤ openBound d o := by
  obtain ⟨n, m, k, l, h, e1, e2⟩ := cost_sizes V s s' d ck hd1 hd2 hset
  have hcl : coms.length = 2 ^ k := by
    obtain ⟨_, -, hc⟩ := bind_eq_ok.mp hc
    obtain ⟨rows, -, hc⟩ := bind_eq_ok.mp hc
    rw [← TBivariate.value_commitC] at hc
    obtain ⟨_, -, hc'⟩ := value_bind_eq_ok hc
    obtain ⟨cs, hcs, hc'⟩ := value_bind_eq_ok hc'
    obtain ⟨_, -, hc'⟩ := value_bind_eq_ok hc'
    cases hc'
    rw [value_mapM] at hcs
    rw [length_of_mapM hcs, length_resize, e1, h.nPow]
  have hw : (openC V ck p coms z).Costs o (unit .pow o + transparentOpenWork k l o)
      fun _ => False := by
    refine ((costs_free o _ _).step fun _ _ => (costs_powC o _ _).step fun _ _ =>
      (costs_free o _ _).step fun rows _ => ?_).eq
      ((Nat.zero_add _).trans (congrArg _ (Nat.zero_add _)))
    exact ⟨(C120_transparent_open V ck rows coms _ k l (e1.trans h.nPow) (e2.trans h.mPow) hcl o ho).1,
      fun _ _ h => h.elim⟩
  refine hw.1.trans ?_
  have h1 := h.tight
  have h2 := h.rows
  have h3 := h.cols
  have h4 := h.rowLog
  have h5 := h.bothLog
  have h7 := h.nPow
  have h8 := h.mPow
  cases o <;> simp [unit, transparentOpenWork, openBound, ← h7, ← h8] <;> omega

/-- The bounds for the verification of a transparent proof with the right numbers of rounds. -/
def verifyBound (d : ℕ) : Work
  | .mul => 10 * Nat.sqrt (4 * d) + 3 * Nat.log 2 (4 * d)
  | .inv => 3 * Nat.log 2 (4 * d)
  | .scale => 10 * Nat.sqrt (4 * d) + 6 * Nat.log 2 (4 * d) + 4
  | .miller => 2
  | .finalExp => 2
  | .hash => Nat.log 2 (4 * d)
  | .pow => 1

/-- C146: verifying with the transparent scheme takes two pairings, but `O(√d)` scalar
multiplications; and an accepted proof takes at least `2 √(4 (d + 1))` of them. -/
theorem C146_verify [DecidableEq G1] [DecidableEq GT] (hd1 : 1 ≤ d) (hd2 : d + 1 ≤ 2 ^ 52)
    (hset : setup V s d = .ok (ck, s')) (com : GT) (z eval : F) (proof : TpcProof F G1 GT) :
    (ck.2.length = 2 ^ proof.second.steps.length → ck.1.length = 2 ^ proof.first.steps.length →
      ∀ o, (o = .hash ∨ o = .inv → V.multiexpSsm.FirstTry ∧ V.scalarSsm.FirstTry) →
        (verifyC V ck com z eval proof).work o ≤ verifyBound d o) ∧
    (verify V ck com z eval proof = .ok true →
      2 * Nat.sqrt (4 * (d + 1)) ≤ (verifyC V ck com z eval proof).work .scale) := by
  obtain ⟨n, m, k, l, h, e1, e2⟩ := cost_sizes V s s' d ck hd1 hd2 hset
  have hw : ∀ o, (o = .hash ∨ o = .inv → V.multiexpSsm.FirstTry ∧ V.scalarSsm.FirstTry) →
      (verifyC V ck com z eval proof).Costs o (unit .pow o
        + transparentWork proof.second.steps.length n proof.first.steps.length m o) (· = true) := by
    intro o ho
    refine ((costs_free o _ _).step fun _ _ => (costs_powC o _ _).step fun x _ => ?_).eq
      (Nat.zero_add _)
    have := C113_transparent V ck com (x, z) eval proof o ho
    rw [e1, e2] at this
    exact ⟨this.1, fun a ha h => this.2 (h ▸ ha)⟩
  refine ⟨fun hk hl o ho => (hw o ho).1.trans ?_, fun hv => ?_⟩
  · have hk' : k = proof.second.steps.length :=
      Nat.pow_right_injective le_rfl (h.nPow.symm.trans (e1.symm.trans hk))
    have hl' : l = proof.first.steps.length :=
      Nat.pow_right_injective le_rfl (h.mPow.symm.trans (e2.symm.trans hl))
    rw [← hk', ← hl']
    have h1 := h.tight
    have h2 := h.rows
    have h3 := h.cols
    have h4 := h.rowLog
    have h5 := h.bothLog
    have h7 := h.nPow
    have h8 := h.mPow
    have h9 := Nat.one_le_two_pow (n := k)
    have h10 := Nat.one_le_two_pow (n := l)
    cases o <;> simp [unit, transparentWork, verifyBound, ← h7, ← h8] <;> omega
  · rw [(hw .scale (by simp)).2 true
      ((C146_verify_value V (⟨0, 0, 0, 0⟩ : VerifierSRS G1 G2) ck 0 com z eval
        ⟨⟨⟨[], (0, 0)⟩, 0, 0⟩, 0, 0⟩ proof).2.trans hv) rfl]
    have h1 := h.enough
    have h2 : Nat.sqrt (4 * (d + 1)) ≤ n + m := by
      refine (Nat.sqrt_le_sqrt (n := (n + m) * (n + m)) ?_).trans_eq (Nat.sqrt_eq _)
      have := four_mul_le_sq_add n m
      nlinarith
    simp only [unit, transparentWork]
    omega

end TUnivariate

/-! ## Examples -/

/-- TIPA's set-up for eight messages takes 32 scalar multiplications. -/
example : ∃ r, (tipaSetupC Toy.env.randF Toy.env.g Toy.env.h
      (identityCommitment (T := Toy.F)) 11 8).value = .ok r ∧
    (tipaSetupC Toy.env.randF Toy.env.g Toy.env.h
      (identityCommitment (T := Toy.F)) 11 8).work .scale = 32 := by
  refine ⟨_, rfl, ?_⟩
  exact (C146_tipa_setup Toy.env (identityCommitment (T := Toy.F)) 11 8 .scale (by simp)).2 _ rfl

/-- The crate's example size `d = 65535`: the set-up takes at most 9199 scalar multiplications. -/
example : (Univariate.setupC Toy.env 11 65535).work .scale ≤ 9199 := by
  refine (C146_univariate_setup Toy.env 11 65535 (by norm_num) (by norm_num) .scale).trans ?_
  have : Nat.sqrt (4 * 65535) = 511 := by rw [eq_comm, Nat.eq_sqrt]; norm_num
  simp [this]

/-- Committing to and opening `1 + 2 X + 3 X²` with keys for degree 3. -/
example : ∃ srs s' com coms proof, Univariate.setup Toy.env 11 3 = .ok (srs, s') ∧
    (Univariate.commitC Toy.env srs ([1, 2, 3] : List Toy.F)).value = .ok (com, coms) ∧
    4 ≤ (Univariate.commitC Toy.env srs ([1, 2, 3] : List Toy.F)).work .scale ∧
    (Univariate.commitC Toy.env srs ([1, 2, 3] : List Toy.F)).work .scale ≤ 12 ∧
    (Univariate.commitC Toy.env srs ([1, 2, 3] : List Toy.F)).work .miller ≤ 3 ∧
    (Univariate.openC Toy.env srs ([1, 2, 3] : List Toy.F) coms 5).value = .ok proof ∧
    (Univariate.openC Toy.env srs ([1, 2, 3] : List Toy.F) coms 5).work .miller ≤ 6 := by
  obtain ⟨x, y, k, l, j, h1, h2, -⟩ := C43_degrees 3 (by norm_num) (by norm_num)
  obtain ⟨srs, α, β, s', h4, h5⟩ := Bivariate.C41_setup Toy.env 11 x y
  have hset : Univariate.setup Toy.env 11 3 = .ok (srs, s') := by
    rw [Univariate.setup, h1]; exact h4
  have hse := searchEnds_of_digest Toy.env.multiexpSsm Toy.digest_length Toy.digest_ne_zero
  obtain ⟨com, coms, v, proof, a1, a2, a3, a4⟩ := Univariate.C45_complete_total Toy.env Toy.lawful
    Toy.digest_length hse Toy.ssmKzgEnds 11 s' 3 srs (by norm_num) (by norm_num) hset
    [1, 2, 3] (by decide) 5
  obtain ⟨v1, v2, -, -⟩ := C146_univariate_value Toy.env srs ([], []) ([1, 2, 3] : List Toy.F) coms 5
  have c := Univariate.C146_commit Toy.env 11 s' 3 srs (by norm_num) (by norm_num) hset [1, 2, 3]
  have o := Univariate.C146_open Toy.env 11 s' 3 srs (by norm_num) (by norm_num) hset [1, 2, 3] _ com
    coms a1 5 .miller (by simp)
  have e : Nat.sqrt (4 * 3) = 3 := by rw [eq_comm, Nat.eq_sqrt]; norm_num
  refine ⟨srs, s', com, coms, proof, hset, v1.trans a1, c.2 _ a1, c.1 .scale, ?_, v2.trans a3, ?_⟩
  · have := c.1 .miller
    simpa only [e] using this
  · simpa only [Univariate.openBound, e] using o

/-- The transparent scheme: the verification of an opening takes at least 8 scalar multiplications. -/
example : ∃ ck s' com coms proof, TUnivariate.setup Toy.env 11 3 = .ok (ck, s') ∧
    TUnivariate.commit Toy.env ck ([1, 2, 3] : List Toy.F) = .ok (com, coms) ∧
    (TUnivariate.openC Toy.env ck ([1, 2, 3] : List Toy.F) coms 5).value = .ok proof ∧
    (TUnivariate.openC Toy.env ck ([1, 2, 3] : List Toy.F) coms 5).work .scale ≤ 102 ∧
    (TUnivariate.verifyC Toy.env ck com (5 : Toy.F) 86 proof).value = .ok true ∧
    8 ≤ (TUnivariate.verifyC Toy.env ck com (5 : Toy.F) 86 proof).work .scale := by
  have hval : evalAt ([1, 2, 3] : List Toy.F) 5 = 86 := by decide +kernel
  obtain ⟨x, y, k, l, j, h1, h2, -⟩ := C43_degrees_transparent 3 (by norm_num) (by norm_num)
  obtain ⟨ck, s', h4, -⟩ := TBivariate.C47_setup Toy.env 11 x y
  have hset : TUnivariate.setup Toy.env 11 3 = .ok (ck, s') := by
    rw [TUnivariate.setup, h1]; exact h4
  have hse := searchEnds_of_digest Toy.env.multiexpSsm Toy.digest_length Toy.digest_ne_zero
  have hse' := searchEnds_of_digest Toy.env.scalarSsm Toy.digest_length Toy.digest_ne_zero
  obtain ⟨com, coms, proof, a1, a2, a4⟩ := TUnivariate.C47_complete_total Toy.env Toy.lawful
    Toy.digest_length hse hse' 11 s' 3 ck (by norm_num) (by norm_num) hset [1, 2, 3] (by decide) 5
  rw [hval] at a4
  obtain ⟨-, -, -, v2⟩ := C146_univariate_value Toy.env (⟨[], [], 0, 0⟩, []) ck
    ([1, 2, 3] : List Toy.F) coms 5
  have o := TUnivariate.C146_open Toy.env 11 s' 3 ck (by norm_num) (by norm_num) hset [1, 2, 3] _ com
    coms a1 5 .scale (by simp)
  have w := (TUnivariate.C146_verify Toy.env 11 s' 3 ck (by norm_num) (by norm_num) hset com 5 86
    proof).2 a4
  have e : Nat.sqrt (4 * 3) = 3 := by rw [eq_comm, Nat.eq_sqrt]; norm_num
  have e' : Nat.sqrt (4 * (3 + 1)) = 4 := by rw [eq_comm, Nat.eq_sqrt]; norm_num
  rw [e'] at w
  refine ⟨ck, s', com, coms, proof, hset, a1, v2.trans a2, ?_, ?_, w⟩
  · simpa only [TUnivariate.openBound, e] using o
  · exact (C146_verify_value Toy.env (⟨0, 0, 0, 0⟩ : VerifierSRS Toy.F Toy.F) ck 0 com 5 86
      ⟨⟨⟨[], (0, 0)⟩, 0, 0⟩, 0, 0⟩ proof).2.trans a4

end Ripp
