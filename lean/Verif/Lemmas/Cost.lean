import Verif.Model.Cost
import Mathlib.Tactic.Ring

/-!
# Forgetting the counts, and bounds on the work of composed steps
-/

set_option linter.unusedSectionVars false

namespace Ripp

namespace Counted
variable {α β : Type}

@[ext] theorem ext {x y : Counted α} (h : x.work = y.work) (h' : x.value = y.value) : x = y :=
  Prod.ext h h'

@[simp] theorem value_pure (a : α) : (pure a : Counted α).value = .ok a := rfl
@[simp] theorem work_pure (a : α) : (pure a : Counted α).work = 0 := rfl
@[simp] theorem value_free (r : Res α) : (free r).value = r := rfl
@[simp] theorem work_free (r : Res α) : (free r).work = 0 := rfl
@[simp] theorem value_tick (o : Op) (n : ℕ) : (tick o n).value = .ok () := rfl
@[simp] theorem work_tick (o : Op) (n : ℕ) : (tick o n).work = Pi.single o n := rfl

@[simp] theorem value_bind (x : Counted α) (f : α → Counted β) :
    (x >>= f).value = x.value >>= fun a => (f a).value := by
  obtain ⟨w, v⟩ := x
  cases v <;> rfl

theorem value_bind_eq_ok {x : Counted α} {f : α → Counted β} {b : β} (h : (x >>= f).value = .ok b) :
    ∃ a, x.value = .ok a ∧ (f a).value = .ok b := by
  rw [value_bind] at h
  cases hx : x.value with
  | error e => rw [hx] at h; cases h
  | ok a => rw [hx] at h; exact ⟨a, rfl, h⟩

theorem work_bind_ok {x : Counted α} {a : α} (h : x.value = .ok a) (f : α → Counted β) :
    (x >>= f).work = x.work + (f a).work := by
  obtain ⟨w, v⟩ := x
  simp only [value] at h
  subst h
  rfl

theorem work_bind_error {x : Counted α} {e : Fault} (h : x.value = .error e)
    (f : α → Counted β) : (x >>= f).work = x.work := by
  obtain ⟨w, v⟩ := x
  simp only [value] at h
  subst h
  rfl

instance : LawfulMonad Counted := LawfulMonad.mk'
  (id_map := by
    intro α x
    obtain ⟨w, v⟩ := x
    cases v <;> rfl)
  (pure_bind := by
    intro α β a f
    refine Counted.ext ?_ (value_bind _ _)
    rw [work_bind_ok (value_pure a)]
    simp)
  (bind_assoc := by
    intro α β γ x f g
    refine Counted.ext ?_ ?_
    · cases hx : x.value with
      | error e =>
        rw [work_bind_error (e := e) (by rw [value_bind, hx]; rfl), work_bind_error hx,
          work_bind_error hx]
      | ok a =>
        rw [work_bind_ok hx]
        cases h : (f a).value with
        | error e =>
          rw [work_bind_error (e := e) (by rw [value_bind, hx]; exact h), work_bind_error h,
            work_bind_ok hx]
        | ok b =>
          rw [work_bind_ok (a := b) (by rw [value_bind, hx]; exact h), work_bind_ok h,
            work_bind_ok hx, add_assoc]
    · simp only [value_bind]
      cases x.value <;> rfl)

/-- Forgetting the counts of a loop over a list. -/
theorem value_mapM (f : α → Counted β) (xs : List α) :
    (xs.mapM f).value = xs.mapM fun a => (f a).value := by
  induction xs with
  | nil => rfl
  | cons x xs ih =>
    simp only [List.mapM_cons, value_bind, ih, value_pure]
    rfl

theorem value_foldlM (f : β → α → Counted β) (xs : List α) (b : β) :
    (xs.foldlM f b).value = xs.foldlM (fun b a => (f b a).value) b := by
  induction xs generalizing b with
  | nil => rfl
  | cons x xs ih => simp only [List.foldlM_cons, value_bind, ih]

theorem value_ite (p : Prop) [Decidable p] (x y : Counted α) :
    (if p then x else y).value = if p then x.value else y.value := by
  split <;> rfl

/-- The work of kind `o` is at most `n`, and is exactly `n` when the outcome is a value satisfying
`Q`. -/
def Costs (o : Op) (n : ℕ) (Q : α → Prop) (x : Counted α) : Prop :=
  x.work o ≤ n ∧ ∀ a, x.value = .ok a → Q a → x.work o = n

theorem Costs.bind {o : Op} {n m : ℕ} {Q : β → Prop} {R : α → Prop} {x : Counted α}
    {f : α → Counted β} (hx : x.Costs o n R) (hf : ∀ a, x.value = .ok a → (f a).Costs o m Q)
    (hR : ∀ a b, x.value = .ok a → (f a).value = .ok b → Q b → R a) :
    (x >>= f).Costs o (n + m) Q := by
  cases h : x.value with
  | error e =>
    refine ⟨?_, ?_⟩
    · rw [work_bind_error h]; exact hx.1.trans (Nat.le_add_right _ _)
    · intro b hb
      rw [value_bind, h] at hb
      cases hb
  | ok a =>
    have hfa := hf a h
    refine ⟨?_, ?_⟩
    · rw [work_bind_ok h]; exact Nat.add_le_add hx.1 hfa.1
    · intro b hb hq
      rw [value_bind, h] at hb
      rw [work_bind_ok h, Pi.add_apply, hx.2 a h (hR a b h hb hq), hfa.2 b hb hq]

/-- A first step whose work does not depend on its result. -/
theorem Costs.step {o : Op} {n m : ℕ} {Q : β → Prop} {x : Counted α} {f : α → Counted β}
    (hx : x.Costs o n fun _ => True) (hf : ∀ a, x.value = .ok a → (f a).Costs o m Q) :
    (x >>= f).Costs o (n + m) Q :=
  hx.bind hf fun _ _ _ _ _ => trivial

theorem Costs.eq {o : Op} {n m : ℕ} {Q : α → Prop} {x : Counted α} (h : x.Costs o n Q)
    (e : n = m) : x.Costs o m Q := e ▸ h

theorem costs_pure (o : Op) (Q : α → Prop) (a : α) : (pure a : Counted α).Costs o 0 Q :=
  ⟨le_rfl, fun _ _ _ => rfl⟩

theorem costs_free (o : Op) (Q : α → Prop) (r : Res α) : (free r).Costs o 0 Q :=
  ⟨le_rfl, fun _ _ _ => rfl⟩

theorem costs_tick (o o' : Op) (k : ℕ) (Q : Unit → Prop) :
    (tick o k).Costs o' (if o' = o then k else 0) Q := by
  have h : (tick o k).work o' = if o' = o then k else 0 := by
    rw [work_tick, Pi.single_apply]
  exact ⟨h.le, fun _ _ _ => h⟩

/-- A loop over a list in which every element costs the same. -/
theorem costs_mapM {o : Op} {n : ℕ} {f : α → Counted β} (hf : ∀ a, (f a).Costs o n fun _ => True)
    (xs : List α) : (xs.mapM f).Costs o (xs.length * n) fun _ => True := by
  induction xs with
  | nil => simpa using costs_pure o _ _
  | cons x xs ih =>
    rw [List.mapM_cons]
    refine ((hf x).step fun a _ => ih.step fun b _ => costs_pure o _ _).eq ?_
    simp only [List.length_cons]
    ring

theorem costs_foldlM {o : Op} {n : ℕ} {f : β → α → Counted β}
    (hf : ∀ b a, (f b a).Costs o n fun _ => True) (xs : List α) (b : β) :
    (xs.foldlM f b).Costs o (xs.length * n) fun _ => True := by
  induction xs generalizing b with
  | nil => simpa using costs_pure o _ _
  | cons x xs ih =>
    rw [List.foldlM_cons]
    refine ((hf b x).step fun a _ => ih a).eq ?_
    simp only [List.length_cons]
    ring

end Counted

open Counted

/-! ## Forgetting the counts -/

section Primitives
variable {F G G1 G2 GT TF : Type} [Field F] [DecidableEq F] [AddCommGroup G1] [Module F G1]
  [AddCommGroup G2] [Module F G2]

theorem ok_bind' {α β : Type} (a : α) (f : α → Res β) : ((Except.ok a : Res α) >>= f) = f a := rfl

@[simp] theorem value_mulC (x y : F) : (mulC x y).value = .ok (x * y) := rfl
@[simp] theorem value_inverseC (x : F) : (inverseC x).value = .ok (inverse x) := rfl
@[simp] theorem value_smulC [SMul F G] (x : F) (g : G) : (smulC x g).value = .ok (x • g) := rfl
@[simp] theorem value_pairingC (E : Engine G1 G2 GT TF) (p : G1) (q : G2) :
    (pairingC E p q).value = E.pairing p q := rfl
@[simp] theorem value_prodC (X : Sched) (xs : List F) :
    (prodC X xs).value = .ok (parReduce (· * ·) 1 X xs) := rfl

@[simp] theorem value_pairingIPC [Monoid TF] (E : Engine G1 G2 GT TF) (X : Exec) (a : List G1)
    (b : List G2) : (pairingIPC E X a b).value = pairingIP E X a b := by
  unfold pairingIPC
  split
  · rename_i h
    simp only [pairingIP, if_pos h, value_free]; rfl
  · rfl

@[simp] theorem value_multiexpIPC [AddCommGroup G] [Module F G] (a : List G) (b : List F) :
    (multiexpIPC a b).value = multiexpIP a b := by
  unfold multiexpIPC
  split
  · rename_i h
    simp only [multiexpIP, if_pos h, value_free]; rfl
  · rfl

@[simp] theorem value_scalarIPC (X : Exec) (a b : List F) :
    (scalarIPC X a b).value = scalarIP X a b := by
  unfold scalarIPC
  split
  · rename_i h
    simp only [scalarIP, if_pos h, value_free]; rfl
  · rfl

@[simp] theorem value_msmC [AddCommGroup G] [Module F G] (a : List G) (b : List F) :
    (msmC a b).value = unwrap (msm a b) := by
  unfold msmC
  split
  · rename_i h
    simp only [msm, if_neg h, value_free]; rfl
  · rfl

theorem value_searchNonceC {α : Type} (f : ℕ → Counted (Option α)) (fuel nonce : ℕ) :
    (searchNonceC f fuel nonce).value = searchNonce (fun n => (f n).value) fuel nonce := by
  induction fuel generalizing nonce with
  | zero => rfl
  | succ fuel ih =>
    simp only [searchNonceC, searchNonce, value_bind, value_tick, ok_bind']
    cases h : (f nonce).value with
    | error e => rfl
    | ok o =>
      cases o with
      | none => exact ih _
      | some x => rfl

end Primitives

@[simp] theorem value_verifyCommitmentC {ρ K M O : Type} [DecidableEq O] (C : Commitment ρ K M O)
    (commit : List K → List M → Counted O) (h : ∀ k m, (commit k m).value = C.commit k m)
    (k : List K) (m : List M) (com : O) :
    (verifyCommitmentC commit k m com).value = C.verify k m com := by
  simp only [verifyCommitmentC, Commitment.verify, value_bind, h, value_pure]
  rfl

section FinalKeys
variable {F : Type} [Field F] [DecidableEq F]

@[simp] theorem value_pushScaledC (v : List F) (x : F) (n : ℕ) :
    (pushScaledC v x n).value = pushScaled v x n := by
  simp only [pushScaledC, pushScaled, value_foldlM, value_bind, value_free, value_mulC, ok_bind',
    value_pure]
  rfl

theorem value_exponentLoopC (cs : List F) (i : ℕ) (acc : List F × List F) :
    (exponentLoopC cs i acc).value = exponentLoop cs i acc := by
  induction cs generalizing i acc with
  | nil => rfl
  | cons c cs ih =>
    obtain ⟨va, vb⟩ := acc
    simp only [exponentLoopC, exponentLoop, value_bind, value_inverseC, value_free, ok_bind',
      value_pushScaledC, ih]

theorem value_smul_mapM {K : Type} [AddCommGroup K] [Module F K] (ck : List K) (xs : List F) :
    ((ck.zip xs).mapM fun (p : K × F) => smulC p.2 p.1).value
      = .ok (List.zipWith (fun g x => x • g) ck xs) := by
  induction ck generalizing xs with
  | nil => simp
  | cons g ck ih =>
    cases xs with
    | nil => simp
    | cons x xs =>
      simp only [List.zip_cons_cons, List.mapM_cons, value_bind, value_smulC, ok_bind', ih,
        value_pure, List.zipWith_cons_cons]

@[simp] theorem value_foldKeysC {K : Type} [AddCommGroup K] [Module F K] (ck : List K) (xs : List F) :
    (foldKeysC ck xs).value = foldKeys ck xs := by
  simp only [foldKeysC, foldKeys, value_bind, value_free, value_smulC, ok_bind', value_smul_mapM,
    value_pure]
  rfl

@[simp] theorem value_finalKeysC {KA KB : Type} [AddCommGroup KA] [Module F KA] [AddCommGroup KB]
    [Module F KB] (cka : List KA) (ckb : List KB) (tr : List F) :
    (finalKeysC cka ckb tr).value = finalKeys cka ckb tr := by
  simp only [finalKeysC, finalKeys, value_bind, value_free, value_exponentLoopC, value_foldKeysC,
    value_pure]
  rfl

end FinalKeys

namespace Gipa
variable {ρ F MA MB T KA KB KT OA OB OT : Type} [Field F] [DecidableEq F]
  [AddCommGroup KA] [Module F KA] [AddCommGroup KB] [Module F KB]
  [DecidableEq OA] [DecidableEq OB] [DecidableEq OT]
  [Add OA] [SMul F OA] [Add OB] [SMul F OB] [Add OT] [SMul F OT]

theorem value_challengeAttemptC (P : Gipa ρ F MA MB T KA KB KT OA OB OT) (prev : F)
    (com1 com2 : Coms OA OB OT) (nonce : ℕ) :
    (P.challengeAttemptC prev com1 com2 nonce).value = P.challengeAttempt prev com1 com2 nonce := by
  simp only [challengeAttemptC, challengeAttempt]
  split
  · rfl
  · simp only [value_bind, value_inverseC, ok_bind']
    cases inverse (beNat ((P.digest (P.hashInput nonce prev com1 com2)).take 16) : F) <;> rfl

theorem value_recLoopC (P : Gipa ρ F MA MB T KA KB KT OA OB OT)
    (steps : List (Coms OA OB OT × Coms OA OB OT)) (com : Coms OA OB OT) (tr : List F) :
    (P.recLoopC steps com tr).value = P.recLoop steps com tr := by
  induction steps generalizing com tr with
  | nil => rfl
  | cons s steps ih =>
    obtain ⟨com1, com2⟩ := s
    simp only [recLoopC, recLoop, value_bind, value_searchNonceC, value_challengeAttemptC, challenge,
      foldComsC, value_smulC, ok_bind', value_pure, ih, foldComs]

@[simp] theorem value_recursiveChallengesC (P : Gipa ρ F MA MB T KA KB KT OA OB OT)
    (com : Coms OA OB OT) (proof : GipaProof MA MB OA OB OT) :
    (P.recursiveChallengesC com proof).value = P.recursiveChallenges com proof := by
  simp only [recursiveChallengesC, recursiveChallenges, value_bind, value_recLoopC]
  rfl

theorem value_verifyBaseC {P : Gipa ρ F MA MB T KA KB KT OA OB OT}
    {C : GipaCount MA MB T KA KB KT OA OB OT} (h : C.Of P) (ka : KA) (kb : KB) (ckt : List KT)
    (com : Coms OA OB OT) (proof : GipaProof MA MB OA OB OT) :
    (verifyBaseC C ka kb ckt com proof).value = P.verifyBase ka kb ckt com proof := by
  simp only [verifyBaseC, verifyBase, value_bind, h.ip, value_ite,
    value_verifyCommitmentC P.lmc C.lmc h.lmc, value_verifyCommitmentC P.rmc C.rmc h.rmc,
    value_verifyCommitmentC P.ipc C.ipc h.ipc, value_pure]
  rfl

/-- Without the counts, `verifyC` is `verify`. -/
theorem value_verifyC {P : Gipa ρ F MA MB T KA KB KT OA OB OT}
    {C : GipaCount MA MB T KA KB KT OA OB OT} (h : C.Of P) (cka : List KA) (ckb : List KB) (ckt : KT)
    (com : Coms OA OB OT) (proof : GipaProof MA MB OA OB OT) :
    (verifyC P C cka ckb ckt com proof).value = P.verify cka ckb ckt com proof := by
  simp only [verifyC, verify, value_ite, value_bind, value_free, value_recursiveChallengesC,
    value_finalKeysC, value_verifyBaseC h]
  split <;> rfl

end Gipa

section KeyOpenings
variable {F G1 G2 GT TF : Type} [Field F] [DecidableEq F] [AddCommGroup G1] [Module F G1]
  [AddCommGroup G2] [Module F G2] [DecidableEq GT]

@[simp] theorem value_invertAllC (xs : List F) : (invertAllC xs).value = invertAll xs := by
  simp only [invertAllC, invertAll, value_mapM, value_bind, value_inverseC, ok_bind', value_free]

theorem value_productFormLoopC (xs : List F) (p : F) (acc : List F) :
    (productFormLoopC xs p acc).value = .ok (productFormLoop xs p acc) := by
  induction xs generalizing p acc with
  | nil => rfl
  | cons x xs ih => simp only [productFormLoopC, productFormLoop, value_bind, value_mulC, ok_bind', ih]

@[simp] theorem value_productFormC (xs : List F) (z r : F) :
    (productFormC xs z r).value = .ok (productForm xs z r) := by
  simp only [productFormC, productForm, value_bind, value_mulC, ok_bind', value_productFormLoopC,
    value_prodC, parReduce, List.prod_eq_foldl]

@[simp] theorem value_verifyKeyOpeningG2C (E : Engine G1 G2 GT TF) (v : VerifierSRS G1 G2)
    (ck opening : G2) (tr : List F) (r z : F) :
    (verifyKeyOpeningG2C E v ck opening tr r z).value = verifyKeyOpeningG2 E v ck opening tr r z := by
  simp only [verifyKeyOpeningG2C, verifyKeyOpeningG2, value_bind, value_productFormC, ok_bind',
    value_smulC, value_pairingC, value_pure]
  rfl

@[simp] theorem value_verifyKeyOpeningG1C (E : Engine G1 G2 GT TF) (v : VerifierSRS G1 G2)
    (ck opening : G1) (tr : List F) (r z : F) :
    (verifyKeyOpeningG1C E v ck opening tr r z).value = verifyKeyOpeningG1 E v ck opening tr r z := by
  simp only [verifyKeyOpeningG1C, verifyKeyOpeningG1, value_bind, value_productFormC, ok_bind',
    value_smulC, value_pairingC, value_pure]
  rfl

theorem value_finalScalarLoopC (xs : List F) (p : F) (acc : List F) :
    (finalScalarLoopC xs p acc).value = finalScalarLoop xs p acc := by
  induction xs generalizing p acc with
  | nil => rfl
  | cons x xs ih =>
    simp only [finalScalarLoopC, finalScalarLoop, value_bind, value_inverseC, value_free, value_mulC,
      ok_bind', ih]

@[simp] theorem value_finalScalarC (X : Exec) (xs : List F) (b : F) :
    (finalScalarC X xs b).value = finalScalar X xs b := by
  simp only [finalScalarC, finalScalar, value_bind, value_finalScalarLoopC, value_prodC]
  rfl

end KeyOpenings

namespace Tipa
variable {ρ F MA MB T KT OA OB OT G1 G2 GT TF : Type} [Field F] [DecidableEq F]
  [AddCommGroup G1] [Module F G1] [AddCommGroup G2] [Module F G2]
  [DecidableEq GT] [DecidableEq OA] [DecidableEq OB] [DecidableEq OT]
  [Add OA] [SMul F OA] [Add OB] [SMul F OB] [Add OT] [SMul F OT]

@[simp] theorem value_kzgChallengeC (V : TipaEnv F G1 G2 GT TF) (digest : Bytes → Bytes)
    (serF : F → Bytes) (tr : List F) (cka : G2) (ckb : G1) :
    (kzgChallengeC V digest serF tr cka ckb).value = kzgChallenge V digest serF tr cka ckb := by
  simp only [kzgChallengeC, kzgChallenge, value_searchNonceC, value_bind, value_free, value_pure]
  rfl

/-- Without the counts, `verifyWithShiftC` is `verifyWithShift`. -/
theorem value_verifyWithShiftC (V : TipaEnv F G1 G2 GT TF) {P : Gipa ρ F MA MB T G2 G1 KT OA OB OT}
    {C : GipaCount MA MB T G2 G1 KT OA OB OT} (h : C.Of P) (v : VerifierSRS G1 G2) (ckt : KT)
    (com : Coms OA OB OT) (proof : TipaProof G1 G2 MA MB OA OB OT) (r : F) :
    (verifyWithShiftC V P C v ckt com proof r).value = verifyWithShift V P v ckt com proof r := by
  simp only [verifyWithShiftC, verifyWithShift, value_bind, Gipa.value_recursiveChallengesC,
    value_invertAllC, value_kzgChallengeC, value_inverseC, value_free, ok_bind',
    value_verifyKeyOpeningG2C, value_verifyKeyOpeningG1C, Gipa.value_verifyBaseC h, value_pure]
  rfl

end Tipa

namespace GipaSsm
variable {ρ F MA T KA KT OA OT : Type} [Field F] [DecidableEq F]
  [AddCommGroup KA] [Module F KA]
  [DecidableEq OA] [DecidableEq OT] [Add OA] [SMul F OA] [Add OT] [SMul F OT]

/-- Without the counts, `verifyC` is `verify`. -/
theorem value_verifyC (X : Exec) {P : Gipa ρ F MA F T KA Placeholder KT OA F OT}
    {C : GipaCount MA F T KA Placeholder KT OA F OT} (h : C.Of P) (cka : List KA) (ckt : KT)
    (comA : OA) (comT : OT) (b : F) (proof : GipaProof MA F OA F OT) :
    (verifyC X P C cka ckt comA comT b proof).value = verify X P cka ckt comA comT b proof := by
  simp only [verifyC, verify, value_bind, Gipa.value_recursiveChallengesC, value_finalKeysC,
    Gipa.value_verifyBaseC h, value_finalScalarC, h.ip, value_ite,
    value_verifyCommitmentC P.lmc C.lmc h.lmc, value_verifyCommitmentC P.ipc C.ipc h.ipc, value_pure]
  rfl

end GipaSsm

namespace TipaSsm
variable {ρ F MA T KT OA OT G1 G2 GT TF : Type} [Field F] [DecidableEq F]
  [AddCommGroup G1] [Module F G1] [AddCommGroup G2] [Module F G2]
  [DecidableEq GT] [DecidableEq OA] [DecidableEq OT] [Add OA] [SMul F OA] [Add OT] [SMul F OT]

@[simp] theorem value_kzgChallengeC (V : TipaEnv F G1 G2 GT TF) (digest : Bytes → Bytes)
    (serF : F → Bytes) (tr : List F) (cka : G2) :
    (kzgChallengeC V digest serF tr cka).value = kzgChallenge V digest serF tr cka := by
  simp only [kzgChallengeC, kzgChallenge, value_searchNonceC, value_bind, value_free, value_pure]
  rfl

/-- Without the counts, `verifyC` is `verify`. -/
theorem value_verifyC (X : Exec) (V : TipaEnv F G1 G2 GT TF)
    {P : Gipa ρ F MA F T G2 Placeholder KT OA F OT} {C : GipaCount MA F T G2 Placeholder KT OA F OT}
    (h : C.Of P) (v : VerifierSRS G1 G2) (ckt : KT) (comA : OA) (comT : OT) (b : F)
    (proof : TipaSsmProof F G2 MA OA OT) :
    (verifyC X V P C v ckt comA comT b proof).value = verify X V P v ckt comA comT b proof := by
  simp only [verifyC, verify, value_bind, Gipa.value_recursiveChallengesC, value_invertAllC,
    value_kzgChallengeC, value_verifyKeyOpeningG2C, value_finalScalarC, h.ip, value_ite,
    value_verifyCommitmentC P.lmc C.lmc h.lmc, value_verifyCommitmentC P.ipc C.ipc h.ipc, value_pure]
  rfl

end TipaSsm

section Applications
variable {ρ F G1 G2 GT TF : Type} [Field F] [DecidableEq F]
  [AddCommGroup G1] [Module F G1] [AddCommGroup G2] [Module F G2] [Monoid TF]

@[simp] theorem value_structuredScalarPowerC (n : ℕ) (s : F) :
    (structuredScalarPowerC n s).value = structuredScalarPower n s := by
  simp only [structuredScalarPowerC, structuredScalarPower, value_foldlM, value_bind, value_free,
    value_mulC, ok_bind', value_pure]
  rfl

@[simp] theorem Kzg.value_verifyC [DecidableEq GT] (E : Engine G1 G2 GT TF) (v : VerifierSRS G1 G2)
    (com : G1) (z eval : F) (proof : G1) :
    (Kzg.verifyC E v com z eval proof).value = Kzg.verify E v com z eval proof := by
  simp only [Kzg.verifyC, Kzg.verify, value_bind, value_smulC, ok_bind', value_pairingC, value_pure]
  rfl

theorem Groth16.value_inputLoopC (X : Exec) (inputs : List (List F)) (rVec : List F) (bs : List G1)
    (i : ℕ) (acc : G1) :
    (Groth16.inputLoopC X inputs rVec bs i acc).value = Groth16.inputLoop X inputs rVec bs i acc := by
  induction bs generalizing i acc with
  | nil => rfl
  | cons b bs ih =>
    simp only [Groth16.inputLoopC, Groth16.inputLoop, value_bind, value_free, value_scalarIPC,
      value_smulC, ok_bind', ih]

@[simp] theorem Groth16.value_challengeC (V : Env ρ F G1 G2 GT TF) (a b c : GT) :
    (Groth16.challengeC V a b c).value = Groth16.challenge V a b c := by
  simp only [Groth16.challengeC, Groth16.challenge, value_searchNonceC, value_free]

theorem Env.pairingABC_of (V : Env ρ F G1 G2 GT TF) : V.pairingABC.Of V.pairingAB :=
  ⟨fun _ _ => value_pairingIPC _ _ _ _, fun _ _ => value_pairingIPC _ _ _ _,
    fun _ _ => value_pairingIPC _ _ _ _, fun _ _ => rfl⟩

theorem Env.multiexpSsmC_of (V : Env ρ F G1 G2 GT TF) : V.multiexpSsmC.Of V.multiexpSsm :=
  ⟨fun _ _ => value_multiexpIPC _ _, fun _ _ => value_pairingIPC _ _ _ _, fun _ _ => rfl,
    fun _ _ => rfl⟩

theorem Env.scalarSsmC_of (V : Env ρ F G1 G2 GT TF) : V.scalarSsmC.Of V.scalarSsm :=
  ⟨fun _ _ => value_scalarIPC _ _ _, fun _ _ => value_multiexpIPC _ _, fun _ _ => rfl,
    fun _ _ => rfl⟩

variable [AddCommGroup GT] [Module F GT] [DecidableEq GT] [DecidableEq G1]

@[simp] theorem Groth16.value_verifyPpeC (V : Env ρ F G1 G2 GT TF) (vk : G16VK G1 G2)
    (inputs : List (List F)) (r : F) (ipAB : GT) (aggC : G1) :
    (Groth16.verifyPpeC V vk inputs r ipAB aggC).value
      = Groth16.verifyPpe V vk inputs r ipAB aggC := by
  simp only [Groth16.verifyPpeC, Groth16.verifyPpe, value_bind, value_tick, value_inverseC,
    value_free, value_mulC, value_smulC, ok_bind', value_pairingC, value_structuredScalarPowerC,
    Groth16.value_inputLoopC, value_pure]
  rfl

/-- Without the counts, `verifyC` is `verify`. -/
theorem Bivariate.value_verifyC (V : Env ρ F G1 G2 GT TF) (v : VerifierSRS G1 G2) (com : GT)
    (point : F × F) (eval : F) (proof : PcProof F G1 G2 GT) :
    (Bivariate.verifyC V v com point eval proof).value
      = Bivariate.verify V v com point eval proof := by
  simp only [Bivariate.verifyC, Bivariate.verify, value_bind,
    TipaSsm.value_verifyC V.X V.tipa V.multiexpSsmC_of, Kzg.value_verifyC, value_pure]
  rfl

/-- Without the counts, `verifyC` is `verify`. -/
theorem TBivariate.value_verifyC (V : Env ρ F G1 G2 GT TF) (ck : List G1 × List G2) (com : GT)
    (point : F × F) (eval : F) (proof : TpcProof F G1 GT) :
    (TBivariate.verifyC V ck com point eval proof).value
      = TBivariate.verify V ck com point eval proof := by
  simp only [TBivariate.verifyC, TBivariate.verify, value_bind,
    GipaSsm.value_verifyC V.X V.multiexpSsmC_of, GipaSsm.value_verifyC V.X V.scalarSsmC_of,
    value_pure]
  rfl

/-- Without the counts, `verifyC` is `verify`. -/
theorem Groth16.value_verifyC (V : Env ρ F G1 G2 GT TF) (v : VerifierSRS G1 G2) (vk : G16VK G1 G2)
    (inputs : List (List F)) (proof : AggProof F G1 G2 GT) :
    (Groth16.verifyC V v vk inputs proof).value = Groth16.verify V v vk inputs proof := by
  simp only [Groth16.verifyC, Groth16.verify, value_bind, Groth16.value_challengeC,
    Tipa.value_verifyWithShiftC V.tipa V.pairingABC_of,
    TipaSsm.value_verifyC V.X V.tipa V.multiexpSsmC_of, Groth16.value_verifyPpeC, value_pure]
  rfl

end Applications

namespace Sipp
variable {σ F G1 G2 GT TF : Type} [Field F] [DecidableEq F] [AddCommGroup G1] [Module F G1]
  [AddCommGroup G2] [Module F G2] [AddCommGroup GT] [Module F GT] [DecidableEq GT]

theorem value_challengesC (V : Env σ F G1 G2 GT TF) (rng : Rng σ) (zs : List (GT × GT)) :
    (challengesC V rng zs : Counted (List F)).value = .ok (challenges V rng zs) := by
  induction zs generalizing rng with
  | nil => rfl
  | cons z zs ih =>
    simp only [challengesC, challenges, value_bind, value_tick, ok_bind', ih, value_pure]

theorem value_scalePassC (bit : ℕ) (x : F) (i : ℕ) (vs : List F) :
    (scalePassC bit x i vs).value
      = .ok (vs.mapIdx fun j v => if (i + j).testBit bit then v * x else v) := by
  induction vs generalizing i with
  | nil => rfl
  | cons v vs ih =>
    have h : ∀ j, i + 1 + j = i + (j + 1) := by omega
    unfold scalePassC
    split <;> rename_i hb
    · simp only [value_bind, value_mulC, ok_bind', ih, value_pure, List.mapIdx_cons, Nat.add_zero, hb,
        if_true, h]
    · simp only [value_bind, ok_bind', ih, value_pure, List.mapIdx_cons, Nat.add_zero, hb, h]
      rfl

theorem value_scalarLoopC (n : ℕ) (xs : List F) (j : ℕ) (s : List F) :
    (scalarLoopC n xs j s).value = .ok (scalarLoop n xs j s) := by
  induction xs generalizing j s with
  | nil => rfl
  | cons x xs ih =>
    simp only [scalarLoopC, scalarLoop, value_bind, value_scalePassC, ok_bind', ih, Nat.zero_add]

theorem value_terms (zs : List (GT × GT)) (xs : List (F × F)) :
    ((zs.zip xs).mapM fun (p : (GT × GT) × F × F) => do
      let l ← smulC p.2.1 p.1.1
      let r ← smulC p.2.2 p.1.2
      return l + r).value
      = .ok (List.zipWith (fun (z : GT × GT) (x : F × F) => x.1 • z.1 + x.2 • z.2) zs xs) := by
  induction zs generalizing xs with
  | nil => rfl
  | cons z zs ih =>
    cases xs with
    | nil => rfl
    | cons x xs =>
      simp only [List.zip_cons_cons, List.mapM_cons, value_bind, value_smulC, ok_bind', ih,
        value_pure, List.zipWith_cons_cons]

theorem value_mul_mapM (xs ys : List F) :
    ((xs.zip ys).mapM fun (p : F × F) => mulC p.1 p.2).value
      = .ok (List.zipWith (fun x r => x * r) xs ys) := by
  induction xs generalizing ys with
  | nil => rfl
  | cons x xs ih =>
    cases ys with
    | nil => rfl
    | cons y ys =>
      simp only [List.zip_cons_cons, List.mapM_cons, value_bind, value_mulC, ok_bind', ih,
        value_pure, List.zipWith_cons_cons]

/-- Without the counts, `verifyC` is `verify`. -/
theorem value_verifyC (V : Env σ F G1 G2 GT TF) (a : List G1) (b : List G2) (r : List F) (value : GT)
    (proof : List (GT × GT)) :
    (verifyC V a b r value proof).value = verify V a b r value proof := by
  simp only [verifyC, verify, value_bind, value_free, value_tick, ok_bind', value_challengesC,
    value_terms, value_scalarLoopC, value_mul_mapM, value_msmC, value_pairingC, value_pure]
  rfl

end Sipp

end Ripp
