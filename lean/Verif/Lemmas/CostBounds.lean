import Verif.Lemmas.Cost
import Verif.Lemmas.FinalKeys
import Verif.Lemmas.Tipa

/-!
# The work of the parts of the verifiers
-/

set_option linter.unusedSectionVars false

namespace Ripp

open Counted

section Primitives
variable {F G G1 G2 GT TF : Type} [Field F] [DecidableEq F] [AddCommGroup G1] [Module F G1]
  [AddCommGroup G2] [Module F G2] (o : Op)

/-- 1 for the operation `o'` and 0 for all others. -/
def unit (o' : Op) (o : Op) : ℕ := if o = o' then 1 else 0

theorem costs_mulC (x y : F) : (mulC x y).Costs o (unit .mul o) fun _ => True :=
  ((costs_tick .mul o 1 _).step fun _ _ => costs_pure o _ _).eq (by simp [unit])

theorem costs_inverseC (x : F) : (inverseC x).Costs o (unit .inv o) fun _ => True :=
  ((costs_tick .inv o 1 _).step fun _ _ => costs_pure o _ _).eq (by simp [unit])

theorem costs_smulC [SMul F G] (x : F) (g : G) : (smulC x g).Costs o (unit .scale o) fun _ => True :=
  ((costs_tick .scale o 1 _).step fun _ _ => costs_pure o _ _).eq (by simp [unit])

theorem costs_pairingC (E : Engine G1 G2 GT TF) (p : G1) (q : G2) :
    (pairingC E p q).Costs o (unit .miller o + unit .finalExp o) fun _ => True :=
  ((costs_tick .miller o 1 _).step fun _ _ => (costs_tick .finalExp o 1 _).step fun _ _ =>
    costs_free o _ _).eq (by simp [unit])

theorem costs_prodC (X : Sched) (xs : List F) :
    (prodC X xs).Costs o (xs.length * unit .mul o) fun _ => True :=
  ((costs_tick .mul o xs.length _).step fun _ _ => costs_pure o _ _).eq (by simp [unit])

theorem costs_pairingIPC [Monoid TF] (E : Engine G1 G2 GT TF) (X : Exec) (a : List G1)
    (b : List G2) (h : a.length = b.length) :
    (pairingIPC E X a b).Costs o (a.length * unit .miller o + unit .finalExp o) fun _ => True := by
  unfold pairingIPC
  rw [if_neg (by simpa using h)]
  exact ((costs_tick .miller o a.length _).step fun _ _ => (costs_tick .finalExp o 1 _).step
    fun _ _ => costs_free o _ _).eq (by simp [unit])

theorem costs_multiexpIPC [AddCommGroup G] [Module F G] (a : List G) (b : List F)
    (h : a.length = b.length) :
    (multiexpIPC a b).Costs o (a.length * unit .scale o) fun _ => True := by
  unfold multiexpIPC
  rw [if_neg (by simpa using h)]
  exact ((costs_tick .scale o a.length _).step fun _ _ => costs_free o _ _).eq (by simp [unit])

/-- The lengths need not be known to agree: an error costs nothing. -/
theorem costs_scalarIPC (X : Exec) (a b : List F) :
    (scalarIPC X a b).Costs o (a.length * unit .mul o) fun _ => True := by
  unfold scalarIPC
  split
  · exact ⟨Nat.zero_le _, fun _ h => by cases h⟩
  · exact ((costs_tick .mul o a.length _).step fun _ _ => costs_free o _ _).eq (by simp [unit])

theorem costs_msmC [AddCommGroup G] [Module F G] (a : List G) (b : List F) :
    (msmC a b).Costs o (a.length * unit .scale o) fun _ => True := by
  unfold msmC
  split
  · exact ⟨Nat.zero_le _, fun _ h => by cases h⟩
  · exact ((costs_tick .scale o a.length _).step fun _ _ => costs_free o _ _).eq (by simp [unit])

/-- A challenge loop: operations that are not part of an attempt are not performed; if the first
attempt never fails, one attempt is made. -/
theorem costs_searchNonceC {α : Type} {f : ℕ → Counted (Option α)} {n : ℕ}
    (hf : ∀ i, (f i).Costs o n fun _ => True)
    (h : (unit .hash o = 0 ∧ n = 0) ∨ (f 0).value ≠ .ok none) (fuel : ℕ) :
    (searchNonceC f fuel 0).Costs o (unit .hash o + n) fun _ => True := by
  rcases h with h | h
  · have : ∀ fuel nonce, (searchNonceC f fuel nonce).Costs o 0 fun _ => True := by
      intro fuel
      induction fuel with
      | zero => intro _; exact costs_free o _ _
      | succ fuel ih =>
        intro nonce
        have h1 : (tick .hash 1).Costs o 0 fun _ => True := by
          have := costs_tick .hash o 1 (fun _ => True)
          rwa [show (if o = Op.hash then 1 else 0) = 0 from h.1] at this
        refine (h1.step fun _ _ => ((h.2 ▸ hf nonce).step (m := 0) fun a _ => ?_).eq rfl).eq rfl
        cases a with
        | none => exact ih _
        | some x => exact costs_pure o _ _
    exact (this fuel 0).eq (by omega)
  · cases fuel with
    | zero => exact ⟨Nat.zero_le _, fun _ h => by cases h⟩
    | succ fuel =>
      refine ((costs_tick .hash o 1 _).step fun _ _ => ((hf 0).step (m := 0) fun a ha => ?_)).eq ?_
      · cases a with
        | none => exact absurd ha h
        | some x => exact costs_pure o _ _
      · simp [unit]

end Primitives

section FinalKeys
variable {F : Type} [Field F] [DecidableEq F] (o : Op)

theorem costs_pushScaledC (v : List F) (x : F) (n : ℕ) :
    (pushScaledC v x n).Costs o (n * unit .mul o) fun _ => True :=
  (costs_foldlM (n := unit .mul o) (fun b a =>
    ((costs_free o _ _).step fun _ _ => (costs_mulC o _ _).step fun _ _ => costs_pure o _ _).eq
      (by omega)) _ _).eq (by simp)

theorem costs_exponentLoopC (cs : List F) (i : ℕ) (acc : List F × List F) :
    (exponentLoopC cs i acc).Costs o
      (cs.length * unit .inv o + 2 * (2 ^ i * (2 ^ cs.length - 1)) * unit .mul o)
      fun _ => True := by
  induction cs generalizing i acc with
  | nil => exact (costs_free o _ _).eq (by simp)
  | cons c cs ih =>
    obtain ⟨va, vb⟩ := acc
    refine ((costs_inverseC o c).step fun _ _ => (costs_free o _ _).step fun _ _ =>
      (costs_pushScaledC o _ _ _).step fun _ _ => (costs_pushScaledC o _ _ _).step fun _ _ =>
      ih _ _).eq ?_
    obtain ⟨t, ht⟩ : ∃ t, 2 ^ cs.length = t + 1 :=
      ⟨2 ^ cs.length - 1, by have := Nat.one_le_two_pow (n := cs.length); omega⟩
    have h1 : 2 ^ (cs.length + 1) - 1 = 2 * t + 1 := by rw [pow_succ, ht]; omega
    rw [List.length_cons, h1, ht, Nat.add_sub_cancel, pow_succ]
    ring

theorem costs_foldKeysC {K : Type} [AddCommGroup K] [Module F K] (ck : List K) (xs : List F)
    (h : ck.length = xs.length) (h0 : 0 < ck.length) :
    (foldKeysC ck xs).Costs o (ck.length * unit .scale o) fun _ => True := by
  refine ((costs_free o _ _).step fun _ _ => (costs_free o _ _).step fun _ _ =>
    (costs_smulC o _ _).step fun _ _ => (costs_free o _ _).step fun ck' hck =>
    (costs_free o _ _).step (m := (ck.length - 1) * unit .scale o) fun xs' hxs => ?_).eq ?_
  · simp only [value_free, sliceFrom] at hck hxs
    rw [if_pos (by omega)] at hck hxs
    cases hck
    cases hxs
    refine ((costs_mapM (n := unit .scale o) (fun p : K × F => costs_smulC o p.2 p.1) _).step fun _ _ =>
      costs_pure o _ _).eq ?_
    simp [h]
  · obtain ⟨t, ht⟩ : ∃ t, ck.length = t + 1 := ⟨ck.length - 1, by omega⟩
    rw [ht, Nat.add_sub_cancel]
    ring

theorem length_of_exponentLoop : ∀ (cs : List F) (i : ℕ) (acc acc' : List F × List F),
    acc.1.length = 2 ^ i → acc.2.length = 2 ^ i → exponentLoop cs i acc = .ok acc' →
      acc'.1.length = 2 ^ (i + cs.length) ∧ acc'.2.length = 2 ^ (i + cs.length)
  | [], i, acc, acc', h1, h2, h => by
    cases h
    exact ⟨h1, h2⟩
  | c :: cs, i, (va, vb), acc', h1, h2, h => by
    rw [exponentLoop] at h
    by_cases hc : c = 0
    · simp [hc, inverse, unwrap, panic'] at h
    · rw [inverse_of_ne hc, unwrap_some, ok_bind, pushScaled_eq va _ _ h1.symm,
        pushScaled_eq vb _ _ h2.symm] at h
      have := length_of_exponentLoop cs (i + 1) _ acc' (by rw [length_doubleUp, h1, pow_succ]; ring)
        (by rw [length_doubleUp, h2, pow_succ]; ring) h
      rw [List.length_cons, show i + (cs.length + 1) = i + 1 + cs.length by ring]
      exact this

theorem costs_finalKeysC {KA KB : Type} [AddCommGroup KA] [Module F KA] [AddCommGroup KB]
    [Module F KB] (cka : List KA) (ckb : List KB) (tr : List F) (h : ckb.length = cka.length) :
    (finalKeysC cka ckb tr).Costs o
      (tr.length * unit .inv o + 2 * (2 ^ tr.length - 1) * unit .mul o
        + 2 * cka.length * unit .scale o) fun _ => True := by
  refine ((costs_free o _ _).step fun _ _ => (costs_exponentLoopC o tr 0 _).step fun acc hacc =>
    (costs_free o _ _).step (m := 2 * cka.length * unit .scale o) fun _ ha => ?_).eq ?_
  · rw [value_exponentLoopC] at hacc
    obtain ⟨h1, h2⟩ := length_of_exponentLoop tr 0 _ _ rfl rfl hacc
    simp only [Nat.zero_add] at h1 h2
    have h3 : acc.1.length = cka.length := by
      by_contra hne
      simp [assert, hne] at ha
    have h0 : 0 < cka.length := by rw [← h3, h1]; positivity
    exact ((costs_foldKeysC o cka acc.1 h3.symm h0).step fun _ _ =>
      (costs_foldKeysC o ckb acc.2 (by omega) (by omega)).step fun _ _ => costs_pure o _ _).eq
        (by rw [h]; ring)
  · simp only [pow_zero, one_mul]
    ring

end FinalKeys

namespace Gipa
variable {ρ F MA MB T KA KB KT OA OB OT : Type} [Field F] [DecidableEq F]
  [AddCommGroup KA] [Module F KA] [AddCommGroup KB] [Module F KB]
  [DecidableEq OA] [DecidableEq OB] [DecidableEq OT]
  [Add OA] [SMul F OA] [Add OB] [SMul F OB] [Add OT] [SMul F OT] (o : Op)

/-- The hash value of the first attempt at a challenge is always invertible. -/
def FirstTry (P : Gipa ρ F MA MB T KA KB KT OA OB OT) : Prop :=
  ∀ prev com1 com2, P.challengeAttempt prev com1 com2 0 ≠ .ok none

theorem costs_challengeAttemptC (P : Gipa ρ F MA MB T KA KB KT OA OB OT) (prev : F)
    (com1 com2 : Coms OA OB OT) (nonce : ℕ) :
    (P.challengeAttemptC prev com1 com2 nonce).Costs o (unit .inv o) fun _ => True := by
  simp only [challengeAttemptC]
  split
  · exact ⟨Nat.zero_le _, fun _ h => by cases h⟩
  · refine ((costs_inverseC o _).step (m := 0) fun a _ => ?_).eq rfl
    cases a <;> exact costs_pure o _ _

theorem costs_foldComsC (c cInv : F) (com com1 com2 : Coms OA OB OT) :
    (foldComsC c cInv com com1 com2).Costs o (6 * unit .scale o) fun _ => True :=
  ((costs_smulC o _ _).step fun _ _ => (costs_smulC o _ _).step fun _ _ =>
    (costs_smulC o _ _).step fun _ _ => (costs_smulC o _ _).step fun _ _ =>
    (costs_smulC o _ _).step fun _ _ => (costs_smulC o _ _).step fun _ _ => costs_pure o _ _).eq
      (by ring)

variable {o}

theorem costs_recLoopC {P : Gipa ρ F MA MB T KA KB KT OA OB OT}
    (h : o = .hash ∨ o = .inv → P.FirstTry) (steps : List (Coms OA OB OT × Coms OA OB OT))
    (com : Coms OA OB OT) (tr : List F) :
    (P.recLoopC steps com tr).Costs o
      (steps.length * (unit .hash o + unit .inv o + 6 * unit .scale o)) fun _ => True := by
  induction steps generalizing com tr with
  | nil => exact (costs_free o _ _).eq (by simp)
  | cons s steps ih =>
    obtain ⟨com1, com2⟩ := s
    refine ((costs_searchNonceC o (costs_challengeAttemptC o P _ com1 com2) ?_ _).step fun c _ =>
      (costs_foldComsC o _ _ _ _ _).step fun _ _ => ih _ _).eq ?_
    · by_cases ho : o = .hash ∨ o = .inv
      · exact Or.inr (by rw [value_challengeAttemptC]; exact h ho _ _ _)
      · push Not at ho
        exact Or.inl ⟨if_neg ho.1, if_neg ho.2⟩
    · rw [List.length_cons]
      ring

theorem costs_recursiveChallengesC {P : Gipa ρ F MA MB T KA KB KT OA OB OT}
    (h : o = .hash ∨ o = .inv → P.FirstTry) (com : Coms OA OB OT)
    (proof : GipaProof MA MB OA OB OT) :
    (P.recursiveChallengesC com proof).Costs o
      (proof.steps.length * (unit .hash o + unit .inv o + 6 * unit .scale o)) fun _ => True :=
  ((costs_recLoopC h _ com []).step fun _ _ => costs_pure o _ _).eq (by simp)

theorem length_of_recursiveChallenges {P : Gipa ρ F MA MB T KA KB KT OA OB OT}
    {com com' : Coms OA OB OT} {proof : GipaProof MA MB OA OB OT} {tr : List F}
    (h : P.recursiveChallenges com proof = .ok (com', tr)) :
    tr.length = proof.steps.length ∧ ∀ c ∈ tr, c ≠ 0 := by
  rw [recursiveChallenges, recLoop_eq] at h
  cases hc : P.chals proof.steps.reverse [] with
  | error e => rw [hc] at h; cases h
  | ok cs =>
    rw [hc] at h
    obtain ⟨new, h1, h2, h3⟩ := P.chals_prefix _ _ _ hc
    simp only [List.nil_append] at h1
    subst h1
    cases h
    exact ⟨by simpa using h2, by simpa using h3⟩

end Gipa

/-- The work of the inner product and of the commitments for messages of length one. -/
structure GipaCount.Single {MA MB T KA KB KT OA OB OT : Type}
    (C : GipaCount MA MB T KA KB KT OA OB OT) (ip lmc rmc ipc : Work) : Prop where
  ip : ∀ o a b, (C.ip [a] [b]).Costs o (ip o) fun _ => True
  lmc : ∀ o k m, (C.lmc [k] [m]).Costs o (lmc o) fun _ => True
  rmc : ∀ o k m, (C.rmc [k] [m]).Costs o (rmc o) fun _ => True
  ipc : ∀ o k m, (C.ipc [k] [m]).Costs o (ipc o) fun _ => True

theorem costs_verifyCommitmentC {K M O : Type} [DecidableEq O]
    {commit : List K → List M → Counted O} {o : Op} {n : ℕ} {k : List K} {m : List M}
    (h : (commit k m).Costs o n fun _ => True) (com : O) (Q : Bool → Prop) :
    (verifyCommitmentC commit k m com).Costs o n Q :=
  (h.step fun _ _ => costs_pure o _ _).eq (by simp)

/-- A check that is done only if an earlier one succeeds. -/
theorem costs_and {x y : Counted Bool} {o : Op} {n m : ℕ}
    (hx : x.Costs o n fun _ => True) (hy : y.Costs o m (· = true)) :
    (x >>= fun b => if b then y else pure false).Costs o (n + m) (· = true) := by
  refine hx.step fun b _ => ?_
  cases b with
  | true => exact hy
  | false => exact ⟨Nat.zero_le _, fun _ h h' => by subst h'; cases h⟩

/-- The same followed by a conjunction with the result of another check. -/
theorem costs_and_pure {x y : Counted Bool} {o : Op} {n m : ℕ} (b : Bool)
    (hx : x.Costs o n fun _ => True) (hy : y.Costs o m fun _ => True) :
    (x >>= fun c => if c then y >>= fun d => pure (b && d) else pure false >>= fun d =>
      pure (b && d)).Costs o (n + m) (· = true) := by
  refine hx.step fun c _ => ?_
  cases c with
  | true => exact (hy.step fun _ _ => costs_pure o _ _).eq (by simp)
  | false => exact ⟨Nat.zero_le _, fun a h h' => by
      subst h'
      simp only [value_bind, value_pure, if_false, Bool.false_eq_true] at h
      cases b <;> cases h⟩

theorem and_pure_eq_ok {x y : Counted Bool} {b : Bool}
    (h : (x >>= fun c => if c then y >>= fun d => pure (b && d) else pure false >>= fun d =>
      pure (b && d)).value = .ok true) : b = true := by
  obtain ⟨c, -, h⟩ := value_bind_eq_ok h
  cases c with
  | true =>
    obtain ⟨d, -, h⟩ := value_bind_eq_ok (by simpa using h : (y >>= fun d => pure (b && d)).value = _)
    simp only [value_pure, Except.ok.injEq, Bool.and_eq_true] at h
    exact h.1
  | false =>
    simp only [value_bind, value_pure, if_false, Bool.false_eq_true] at h
    cases b <;> cases h

theorem Gipa.costs_verifyBaseC {MA MB T KA KB KT OA OB OT : Type}
    [DecidableEq OA] [DecidableEq OB] [DecidableEq OT]
    {C : GipaCount MA MB T KA KB KT OA OB OT} {ip lmc rmc ipc : Work} (h : C.Single ip lmc rmc ipc)
    (o : Op) (ka : KA) (kb : KB) (ckt : KT) (com : Coms OA OB OT)
    (proof : GipaProof MA MB OA OB OT) :
    (verifyBaseC C ka kb [ckt] com proof).Costs o (ip o + lmc o + rmc o + ipc o) (· = true) :=
  ((h.ip o _ _).step fun _ _ => costs_and (costs_verifyCommitmentC (h.lmc o _ _) _ _)
    (costs_and (costs_verifyCommitmentC (h.rmc o _ _) _ _)
      (costs_verifyCommitmentC (h.ipc o _ _) _ _))).eq (by ring)

section KeyOpenings
variable {F G1 G2 GT TF : Type} [Field F] [DecidableEq F] [AddCommGroup G1] [Module F G1]
  [AddCommGroup G2] [Module F G2] [DecidableEq GT] (o : Op)

theorem costs_invertAllC (xs : List F) :
    (invertAllC xs).Costs o (xs.length * unit .inv o) fun _ => True :=
  costs_mapM (fun x => ((costs_inverseC o x).step fun _ _ => costs_free o _ _).eq (by simp)) xs

theorem length_productFormLoop : ∀ (xs : List F) (p : F) (acc : List F),
    (productFormLoop xs p acc).length = acc.length + xs.length
  | [], _, _ => rfl
  | x :: xs, p, acc => by
    rw [productFormLoop, length_productFormLoop]
    simp only [List.length_append, List.length_cons, List.length_nil]
    ring

theorem costs_productFormLoopC (xs : List F) (p : F) (acc : List F) :
    (productFormLoopC xs p acc).Costs o (2 * xs.length * unit .mul o) fun _ => True := by
  induction xs generalizing p acc with
  | nil => exact (costs_pure o _ _).eq (by simp)
  | cons x xs ih =>
    refine ((costs_mulC o _ _).step fun _ _ => (costs_mulC o _ _).step fun _ _ => ih _ _).eq ?_
    rw [List.length_cons]
    ring

theorem costs_productFormC (xs : List F) (z r : F) :
    (productFormC xs z r).Costs o ((3 * xs.length + 2) * unit .mul o) fun _ => True := by
  refine ((costs_mulC o _ _).step fun _ _ => (costs_mulC o _ _).step fun _ _ =>
    (costs_productFormLoopC o _ _ _).step (m := xs.length * unit .mul o) fun pf h => ?_).eq (by ring)
  rw [value_productFormLoopC] at h
  cases h
  exact (costs_prodC o _ _).eq (by rw [length_productFormLoop]; simp)

theorem costs_verifyKeyOpeningG2C (E : Engine G1 G2 GT TF) (v : VerifierSRS G1 G2)
    (ck opening : G2) (tr : List F) (r z : F) :
    (verifyKeyOpeningG2C E v ck opening tr r z).Costs o
      ((3 * tr.length + 2) * unit .mul o + 2 * unit .scale o + 2 * unit .miller o
        + 2 * unit .finalExp o) fun _ => True :=
  ((costs_productFormC o _ _ _).step fun _ _ => (costs_smulC o _ _).step fun _ _ =>
    (costs_pairingC o _ _ _).step fun _ _ => (costs_smulC o _ _).step fun _ _ =>
    (costs_pairingC o _ _ _).step fun _ _ => costs_pure o _ _).eq (by ring)

theorem costs_verifyKeyOpeningG1C (E : Engine G1 G2 GT TF) (v : VerifierSRS G1 G2)
    (ck opening : G1) (tr : List F) (r z : F) :
    (verifyKeyOpeningG1C E v ck opening tr r z).Costs o
      ((3 * tr.length + 2) * unit .mul o + 2 * unit .scale o + 2 * unit .miller o
        + 2 * unit .finalExp o) fun _ => True :=
  ((costs_productFormC o _ _ _).step fun _ _ => (costs_smulC o _ _).step fun _ _ =>
    (costs_pairingC o _ _ _).step fun _ _ => (costs_smulC o _ _).step fun _ _ =>
    (costs_pairingC o _ _ _).step fun _ _ => costs_pure o _ _).eq (by ring)

theorem length_of_finalScalarLoop : ∀ (xs : List F) (p : F) (acc pf : List F),
    finalScalarLoop xs p acc = .ok pf → pf.length = acc.length + xs.length
  | [], _, _, _, h => by cases h; rfl
  | x :: xs, p, acc, pf, h => by
    rw [finalScalarLoop] at h
    by_cases hx : x = 0
    · simp [hx, inverse, unwrap, panic'] at h
    · rw [inverse_of_ne hx, unwrap_some, ok_bind] at h
      rw [length_of_finalScalarLoop _ _ _ _ h]
      simp only [List.length_append, List.length_cons, List.length_nil]
      ring

theorem costs_finalScalarLoopC (xs : List F) (p : F) (acc : List F) :
    (finalScalarLoopC xs p acc).Costs o (xs.length * unit .inv o + 2 * xs.length * unit .mul o)
      fun _ => True := by
  induction xs generalizing p acc with
  | nil => exact (costs_pure o _ _).eq (by simp)
  | cons x xs ih =>
    refine ((costs_inverseC o _).step fun _ _ => (costs_free o _ _).step fun _ _ =>
      (costs_mulC o _ _).step fun _ _ => (costs_mulC o _ _).step fun _ _ => ih _ _).eq ?_
    rw [List.length_cons]
    ring

theorem costs_finalScalarC (X : Exec) (xs : List F) (b : F) :
    (finalScalarC X xs b).Costs o (xs.length * unit .inv o + 3 * xs.length * unit .mul o)
      fun _ => True := by
  refine ((costs_finalScalarLoopC o _ _ _).step (m := xs.length * unit .mul o)
    fun pf h => ?_).eq (by ring)
  rw [value_finalScalarLoopC] at h
  exact (costs_prodC o _ _).eq (by rw [length_of_finalScalarLoop _ _ _ _ h]; simp)

theorem costs_structuredScalarPowerC (n : ℕ) (s : F) :
    (structuredScalarPowerC n s).Costs o ((n - 1) * unit .mul o) fun _ => True :=
  (costs_foldlM (n := unit .mul o) (fun b a =>
    ((costs_free o _ _).step fun _ _ => (costs_mulC o _ _).step fun _ _ => costs_pure o _ _).eq
      (by omega)) _ _).eq (by simp)

theorem Kzg.costs_verifyC (E : Engine G1 G2 GT TF) (v : VerifierSRS G1 G2) (com : G1) (z eval : F)
    (proof : G1) :
    (Kzg.verifyC E v com z eval proof).Costs o
      (2 * unit .scale o + 2 * unit .miller o + 2 * unit .finalExp o) fun _ => True :=
  ((costs_smulC o _ _).step fun _ _ => (costs_pairingC o _ _ _).step fun _ _ =>
    (costs_smulC o _ _).step fun _ _ => (costs_pairingC o _ _ _).step fun _ _ =>
    costs_pure o _ _).eq (by ring)

theorem length_of_mapM {α β : Type} {f : α → Res β} : ∀ {xs : List α} {ys : List β},
    xs.mapM f = .ok ys → ys.length = xs.length
  | [], ys, h => by cases h; rfl
  | x :: xs, ys, h => by
    rw [List.mapM_cons] at h
    cases hx : f x with
    | error e => rw [hx] at h; cases h
    | ok y =>
      rw [hx] at h
      cases hxs : xs.mapM f with
      | error e => rw [hxs] at h; cases h
      | ok ys' =>
        rw [hxs] at h
        cases h
        simp [length_of_mapM hxs]

theorem Groth16.costs_inputLoopC (X : Exec) (inputs : List (List F)) (rVec : List F) (bs : List G1)
    (i : ℕ) (acc : G1) :
    (Groth16.inputLoopC X inputs rVec bs i acc).Costs o
      (bs.length * (inputs.length * unit .mul o + unit .scale o)) fun _ => True := by
  induction bs generalizing i acc with
  | nil => exact (costs_free o _ _).eq (by simp)
  | cons b bs ih =>
    refine ((costs_free o _ _).step (m := (bs.length + 1) * (inputs.length * unit .mul o
      + unit .scale o)) fun col hcol => ?_).eq (by simp)
    rw [← length_of_mapM hcol]
    rw [← length_of_mapM hcol] at ih
    exact ((costs_scalarIPC o X _ _).step fun _ _ => (costs_smulC o _ _).step fun _ _ =>
      ih _ _).eq (by ring)

end KeyOpenings

end Ripp
