import Verif.Lemmas.ProverCost
import Verif.Lemmas.PolyCommit

/-!
# The work of the parts of the provers
-/

set_option linter.unusedSectionVars false

namespace Ripp

open Counted

section Polynomials
variable {F : Type} [Field F] [DecidableEq F] (o : Op)

theorem costs_polyDivLinearC (p : List F) (z : F) :
    (polyDivLinearC p z).Costs o (p.length * unit .mul o) fun _ => True :=
  ((costs_tick .mul o p.length _).step fun _ _ => costs_pure o _ _).eq (by simp [unit])

theorem costs_pushProductC (v : List F) (x p : F) (n : ℕ) :
    (pushProductC v x p n).Costs o (2 * n * unit .mul o) fun _ => True :=
  (costs_foldlM (n := 2 * unit .mul o) (fun b a =>
    ((costs_free o _ _).step fun _ _ => (costs_mulC o _ _).step fun _ _ => (costs_mulC o _ _).step
      fun _ _ => costs_pure o _ _).eq (by omega)) _ _).eq (by rw [List.length_range]; ring)

theorem costs_coefficientLoopC (xs : List F) (i : ℕ) (p : F) (acc : List F) :
    (coefficientLoopC xs i p acc).Costs o
      ((2 * (2 ^ i * (2 ^ xs.length - 1)) + xs.length) * unit .mul o) fun _ => True := by
  induction xs generalizing i p acc with
  | nil => exact (costs_free o _ _).eq (by simp)
  | cons x xs ih =>
    refine ((costs_pushProductC o _ _ _ _).step fun _ _ => (costs_mulC o _ _).step fun _ _ =>
      ih _ _ _).eq ?_
    obtain ⟨t, ht⟩ : ∃ t, 2 ^ xs.length = t + 1 :=
      ⟨2 ^ xs.length - 1, by have := Nat.one_le_two_pow (n := xs.length); omega⟩
    have h1 : 2 ^ (xs.length + 1) - 1 = 2 * t + 1 := by rw [pow_succ, ht]; omega
    rw [List.length_cons, h1, ht, Nat.add_sub_cancel, pow_succ]
    ring

theorem costs_keyCoefficientsC (tr : List F) (r : F) :
    (keyCoefficientsC tr r).Costs o ((2 * (2 ^ tr.length - 1) + tr.length) * unit .mul o)
      fun _ => True :=
  ((costs_coefficientLoopC o tr 0 r [1]).step fun _ _ => costs_pure o _ _).eq (by simp)

/-- Subtracting a constant does not change the degree of a polynomial that is not constant. -/
theorem length_polySub_const (q : List F) (c : F) (h : 2 ≤ (polyOf q).length) :
    (polySub (polyOf q) (polyOf [c])).length = (polyOf q).length := by
  have hc : (polyOf [c]).length ≤ 1 := length_trim_le _
  obtain ⟨l, hl⟩ : ∃ l, (polyOf q).length = l + 2 := ⟨_, (Nat.sub_add_cancel h).symm⟩
  have hlast : (polyOf q).getLast? ≠ some 0 := getLast?_trim q
  unfold polySub
  rw [show max (polyOf q).length (polyOf [c]).length = l + 2 by omega]
  have hx : (polyOf q).getLast? = some ((polyOf q).getD (l + 1) 0) := by
    rw [List.getLast?_eq_getElem?, hl, List.getD_eq_getElem?_getD]
    simp only [show l + 2 - 1 = l + 1 from rfl]
    rw [List.getElem?_eq_getElem (by omega)]
    rfl
  rw [trim_of_last _ ((polyOf q).getD (l + 1) 0)]
  · simp [hl]
  · rw [List.getLast?_eq_getElem?]
    simp only [List.length_map, List.length_range, List.getElem?_map, show l + 2 - 1 = l + 1 from rfl]
    rw [List.getElem?_range (by omega)]
    simp only [Option.map_some, Option.some.injEq]
    rw [List.getD_eq_getElem?_getD (l := polyOf [c]), List.getElem?_eq_none (by omega),
      Option.getD_none, sub_zero]
  · intro h0
    exact hlast (by rw [hx, h0])

theorem costs_proveKeyOpeningC {G : Type} [AddCommGroup G] [Module F G] (srs : List G)
    (tr : List F) (r z : F) (h : 2 ≤ srs.length) :
    (proveKeyOpeningC srs tr r z).Costs o
      ((2 * (2 ^ tr.length - 1) + 4 * tr.length + 2 + srs.length) * unit .mul o
        + srs.length * unit .scale o) fun _ => True := by
  refine ((costs_keyCoefficientsC o tr r).step fun cs _ => (costs_free o _ _).step
    (m := (3 * tr.length + 2) * unit .mul o + (srs.length * unit .mul o
      + srs.length * unit .scale o)) fun _ ha => ?_).eq (by ring)
  have hl : srs.length = (polyOf cs).length := by
    by_contra hne
    simp [assert, hne, panic'] at ha
  refine (costs_productFormC o _ _ _).step fun ce _ => ((costs_polyDivLinearC o _ _).eq ?_).step
    fun q _ => costs_multiexpIPC o _ _ ?_
  · rw [length_polySub_const cs ce (by omega), hl]
  · simp only [resize, List.length_append, List.length_take, List.length_replicate]
    omega

theorem costs_foldC {M : Type} [AddCommGroup M] [Module F M] (x : F) (as bs : List M) {n : ℕ}
    (ha : as.length = n) (hb : bs.length = n) :
    (foldC x as bs).Costs o (n * unit .scale o) fun _ => True :=
  (costs_mapM (n := unit .scale o) (fun p : M × M =>
    ((costs_smulC o _ _).step fun _ _ => costs_pure o _ _).eq (by simp)) _).eq
      (by simp [ha, hb])

end Polynomials

/-- The work of the inner product and of the commitments: a fixed amount for every message and a fixed
amount for every call. -/
structure GipaCount.Linear {MA MB T KA KB KT OA OB OT : Type}
    (C : GipaCount MA MB T KA KB KT OA OB OT) (ip lmc rmc : Work × Work) (ipc : Work) : Prop where
  ip : ∀ o a b, a.length = b.length → (C.ip a b).Costs o (a.length * ip.1 o + ip.2 o) fun _ => True
  lmc : ∀ o k m, k.length = m.length →
    (C.lmc k m).Costs o (m.length * lmc.1 o + lmc.2 o) fun _ => True
  rmc : ∀ o k m, k.length = m.length →
    (C.rmc k m).Costs o (m.length * rmc.1 o + rmc.2 o) fun _ => True
  ipc : ∀ o k m, (C.ipc [k] [m]).Costs o (ipc o) fun _ => True

theorem length_of_sliceTo {α : Type} {xs ys : List α} {n : ℕ}
    (h : (free (sliceTo xs n)).value = .ok ys) : ys.length = n ∧ n ≤ xs.length := by
  simp only [value_free, sliceTo] at h
  split at h
  · cases h
    exact ⟨by simpa, by assumption⟩
  · cases h

theorem length_of_sliceFrom {α : Type} {xs ys : List α} {n : ℕ}
    (h : (free (sliceFrom xs n)).value = .ok ys) : ys.length = xs.length - n := by
  simp only [value_free, sliceFrom] at h
  split at h
  · cases h
    simp
  · cases h

theorem length_of_foldC {F M : Type} [Field F] [AddCommGroup M] [Module F M] {x : F}
    {as bs cs : List M} {n : ℕ} (ha : as.length = n) (hb : bs.length = n)
    (h : (foldC x as bs).value = .ok cs) : cs.length = n := by
  classical
  rw [value_foldC] at h
  cases h
  simp [ha, hb]

namespace Gipa
variable {ρ F MA MB T KA KB KT OA OB OT : Type} [Field F] [DecidableEq F]
  [AddCommGroup MA] [Module F MA] [AddCommGroup MB] [Module F MB]
  [AddCommGroup KA] [Module F KA] [AddCommGroup KB] [Module F KB]
  {P : Gipa ρ F MA MB T KA KB KT OA OB OT} {C : GipaCount MA MB T KA KB KT OA OB OT} {o : Op}

/-- All four vectors of the state have length `n`. -/
def Sized (st : ProveState F MA MB KA KB OA OB OT) (n : ℕ) : Prop :=
  st.ma.length = n ∧ st.mb.length = n ∧ st.cka.length = n ∧ st.ckb.length = n

theorem costs_attemptC (o : Op) (P : Gipa ρ F MA MB T KA KB KT OA OB OT) (prev : F)
    (com1 com2 : Coms OA OB OT) (nonce : ℕ) :
    (P.challengeAttemptC prev com1 com2 nonce).Costs o (unit .inv o) fun _ => True := by
  simp only [challengeAttemptC]
  split
  · exact ⟨Nat.zero_le _, fun _ h => by cases h⟩
  · refine ((costs_inverseC o _).step (m := 0) fun a _ => ?_).eq rfl
    cases a <;> exact costs_pure o _ _

theorem costs_challengeC (h : o = .hash ∨ o = .inv → P.FirstTry) (prev : F)
    (com1 com2 : Coms OA OB OT) :
    (searchNonceC (P.challengeAttemptC prev com1 com2) nonceLimit 0).Costs o
      (unit .hash o + unit .inv o) fun _ => True := by
  refine costs_searchNonceC o (costs_attemptC o P _ com1 com2) ?_ _
  by_cases ho : o = .hash ∨ o = .inv
  · exact Or.inr (by rw [value_attemptC]; exact h ho _ _ _)
  · push Not at ho
    exact Or.inl ⟨if_neg ho.1, if_neg ho.2⟩

theorem sized_proveRoundC {ckt : List KT} {st st' : ProveState F MA MB KA KB OA OB OT} {n : ℕ}
    (hs : Sized st (2 * n)) (h : (proveRoundC P C ckt st).value = .ok st') :
    Sized st' n ∧ st'.transcript.length = st.transcript.length + 1
      ∧ st'.steps.length = st.steps.length + 1 := by
  obtain ⟨h1, h2, h3, h4⟩ := hs
  have hn : st.ma.length / 2 = n := by omega
  unfold proveRoundC at h
  simp only [hn] at h
  obtain ⟨ma1, hma1, h⟩ := value_bind_eq_ok h
  obtain ⟨ma2, hma2, h⟩ := value_bind_eq_ok h
  obtain ⟨cka1, hcka1, h⟩ := value_bind_eq_ok h
  obtain ⟨cka2, hcka2, h⟩ := value_bind_eq_ok h
  obtain ⟨mb1, hmb1, h⟩ := value_bind_eq_ok h
  obtain ⟨mb2, hmb2, h⟩ := value_bind_eq_ok h
  obtain ⟨ckb1, hckb1, h⟩ := value_bind_eq_ok h
  obtain ⟨ckb2, hckb2, h⟩ := value_bind_eq_ok h
  have e1 := length_of_sliceFrom hma1
  have e2 := (length_of_sliceTo hma2).1
  have e3 := (length_of_sliceTo hcka1).1
  have e4 := length_of_sliceFrom hcka2
  have e5 := (length_of_sliceTo hmb1).1
  have e6 := length_of_sliceFrom hmb2
  have e7 := length_of_sliceFrom hckb1
  have e8 := (length_of_sliceTo hckb2).1
  iterate 8 obtain ⟨_, -, h⟩ := value_bind_eq_ok h
  obtain ⟨⟨c, cInv⟩, -, h⟩ := value_bind_eq_ok h
  obtain ⟨ma, hma, h⟩ := value_bind_eq_ok h
  obtain ⟨mb, hmb, h⟩ := value_bind_eq_ok h
  obtain ⟨cka, hcka, h⟩ := value_bind_eq_ok h
  obtain ⟨ckb, hckb, h⟩ := value_bind_eq_ok h
  cases h
  refine ⟨⟨length_of_foldC (by omega) (by omega) hma, length_of_foldC (by omega) (by omega) hmb,
    length_of_foldC (by omega) (by omega) hcka, length_of_foldC (by omega) (by omega) hckb⟩, ?_, ?_⟩
  · simp
  · simp

/-- The work of one round for vectors of length `2 * n`. -/
theorem costs_proveRoundC (ho : o = .hash ∨ o = .inv → P.FirstTry) {ip lmc rmc : Work × Work}
    {ipc : Work} (hL : C.Linear ip lmc rmc ipc) (ckt : KT)
    (st : ProveState F MA MB KA KB OA OB OT) {n : ℕ} (hs : Sized st (2 * n)) :
    (proveRoundC P C [ckt] st).Costs o
      (2 * (n * (ip.1 o + lmc.1 o + rmc.1 o) + (ip.2 o + lmc.2 o + rmc.2 o + ipc o))
        + (unit .hash o + unit .inv o) + 4 * n * unit .scale o) fun _ => True := by
  obtain ⟨h1, h2, h3, h4⟩ := hs
  have hn : st.ma.length / 2 = n := by omega
  unfold proveRoundC
  simp only [hn]
  refine ((costs_free o _ _).step fun ma1 hma1 => (costs_free o _ _).step fun ma2 hma2 =>
    (costs_free o _ _).step fun cka1 hcka1 => (costs_free o _ _).step fun cka2 hcka2 =>
    (costs_free o _ _).step fun mb1 hmb1 => (costs_free o _ _).step fun mb2 hmb2 =>
    (costs_free o _ _).step fun ckb1 hckb1 => (costs_free o _ _).step
    (m := (n * lmc.1 o + lmc.2 o) + ((n * rmc.1 o + rmc.2 o) + ((n * ip.1 o + ip.2 o) + (ipc o +
      ((n * lmc.1 o + lmc.2 o) + ((n * rmc.1 o + rmc.2 o) + ((n * ip.1 o + ip.2 o) + (ipc o +
      ((unit .hash o + unit .inv o) + 4 * n * unit .scale o))))))))) fun ckb2 hckb2 => ?_).eq
      (by ring)
  have e1 := length_of_sliceFrom hma1
  have e2 := (length_of_sliceTo hma2).1
  have e3 := (length_of_sliceTo hcka1).1
  have e4 := length_of_sliceFrom hcka2
  have e5 := (length_of_sliceTo hmb1).1
  have e6 := length_of_sliceFrom hmb2
  have e7 := length_of_sliceFrom hckb1
  have e8 := (length_of_sliceTo hckb2).1
  have f1 : ma1.length = n := by omega
  have f4 : cka2.length = n := by omega
  have f6 : mb2.length = n := by omega
  have f7 : ckb1.length = n := by omega
  refine ((hL.lmc o cka1 ma1 (by omega)).eq (by rw [f1])).step fun _ _ =>
    ((hL.rmc o ckb1 mb1 (by omega)).eq (by rw [e5])).step fun _ _ =>
    ((hL.ip o ma1 mb1 (by omega)).eq (by rw [f1])).step fun _ _ => (hL.ipc o ckt _).step fun _ _ =>
    ((hL.lmc o cka2 ma2 (by omega)).eq (by rw [e2])).step fun _ _ =>
    ((hL.rmc o ckb2 mb2 (by omega)).eq (by rw [f6])).step fun _ _ =>
    ((hL.ip o ma2 mb2 (by omega)).eq (by rw [e2])).step fun _ _ => (hL.ipc o ckt _).step fun _ _ =>
    (costs_challengeC ho _ _ _).step fun c _ => ?_
  exact ((costs_foldC o _ _ _ f1 e2).step fun _ _ => (costs_foldC o _ _ _ f6 e5).step fun _ _ =>
    (costs_foldC o _ _ _ f4 e3).step fun _ _ => (costs_foldC o _ _ _ f7 e8).step fun _ _ =>
    costs_pure o _ _).eq (by ring)

/-- The operations of GIPA's prover for `2^k` messages, where the inner product and the commitments
together take `per` for every message and `call` for every call. -/
def proverWork (k : ℕ) (per call : Work) : Work := fun o =>
  2 * ((2 ^ k - 1) * per o + k * call o) + 4 * (2 ^ k - 1) * unit .scale o
    + k * (unit .hash o + unit .inv o)

theorem proverWork_succ (k : ℕ) (per call : Work) (o : Op) :
    proverWork (k + 1) per call o = (2 * (2 ^ k * per o + call o) + (unit .hash o + unit .inv o)
      + 4 * 2 ^ k * unit .scale o) + proverWork k per call o := by
  obtain ⟨t, ht⟩ : ∃ t, 2 ^ k = t + 1 :=
    ⟨2 ^ k - 1, by have := Nat.one_le_two_pow (n := k); omega⟩
  have h1 : 2 ^ (k + 1) - 1 = 2 * t + 1 := by rw [pow_succ, ht]; omega
  simp only [proverWork, h1, ht, Nat.add_sub_cancel]
  ring

theorem costs_proveLoopC (ho : o = .hash ∨ o = .inv → P.FirstTry) {ip lmc rmc : Work × Work}
    {ipc : Work} (hL : C.Linear ip lmc rmc ipc) (ckt : KT) (k fuel : ℕ)
    (st : ProveState F MA MB KA KB OA OB OT) (hs : Sized st (2 ^ k)) :
    (proveLoopC P C [ckt] fuel st).Costs o
      (proverWork k (ip.1 + lmc.1 + rmc.1) (ip.2 + lmc.2 + rmc.2 + ipc) o) fun _ => True := by
  induction k generalizing fuel st with
  | zero =>
    unfold proveLoopC
    rw [if_pos (by simpa using hs.1)]
    exact ((costs_free o _ _).step fun _ _ => (costs_free o _ _).step fun _ _ =>
      (costs_free o _ _).step fun _ _ => (costs_free o _ _).step fun _ _ => costs_pure o _ _).eq
        (by simp [proverWork])
  | succ k ih =>
    have h2 : 2 ^ (k + 1) = 2 * 2 ^ k := by rw [pow_succ]; ring
    have hpos := Nat.one_le_two_pow (n := k)
    unfold proveLoopC
    rw [if_neg (by rw [hs.1, h2]; omega)]
    cases fuel with
    | zero => exact ⟨Nat.zero_le _, fun _ h => by cases h⟩
    | succ fuel =>
      rw [h2] at hs
      rw [proverWork_succ]
      exact (costs_proveRoundC ho hL ckt st hs).step fun st' hst' =>
        ih fuel st' (sized_proveRoundC hs hst').1

theorem length_of_proveLoopC (ckt : List KT) (k fuel : ℕ)
    (st : ProveState F MA MB KA KB OA OB OT) (hs : Sized st (2 ^ k))
    {proof : GipaProof MA MB OA OB OT} {aux : GipaAux F KA KB}
    (h : (proveLoopC P C ckt fuel st).value = .ok (proof, aux)) :
    aux.transcript.length = st.transcript.length + k ∧ proof.steps.length = st.steps.length + k := by
  induction k generalizing fuel st with
  | zero =>
    unfold proveLoopC at h
    rw [if_pos (by simpa using hs.1)] at h
    iterate 4 obtain ⟨_, -, h⟩ := value_bind_eq_ok h
    cases h
    simp
  | succ k ih =>
    have h2 : 2 ^ (k + 1) = 2 * 2 ^ k := by rw [pow_succ]; ring
    have hpos := Nat.one_le_two_pow (n := k)
    unfold proveLoopC at h
    rw [if_neg (by rw [hs.1, h2]; omega)] at h
    cases fuel with
    | zero => cases h
    | succ fuel =>
      rw [h2] at hs
      obtain ⟨st', hst', h⟩ := value_bind_eq_ok h
      obtain ⟨hs', ht, hp⟩ := sized_proveRoundC hs hst'
      have := ih fuel st' hs' h
      omega

theorem costs_proveWithAuxC (ho : o = .hash ∨ o = .inv → P.FirstTry) {ip lmc rmc : Work × Work}
    {ipc : Work} (hL : C.Linear ip lmc rmc ipc) {ma : List MA} {mb : List MB} {cka : List KA}
    {ckb : List KB} (ckt : KT) {k : ℕ} (h1 : ma.length = 2 ^ k) (h2 : mb.length = 2 ^ k)
    (h3 : cka.length = 2 ^ k) (h4 : ckb.length = 2 ^ k) :
    (proveWithAuxC P C ma mb cka ckb [ckt]).Costs o
      (proverWork k (ip.1 + lmc.1 + rmc.1) (ip.2 + lmc.2 + rmc.2 + ipc) o) fun _ => True :=
  ((costs_free o _ _).step fun _ _ => costs_proveLoopC ho hL ckt k _ _ ⟨h1, h2, h3, h4⟩).eq
    (by simp)

theorem length_of_proveWithAuxC {ma : List MA} {mb : List MB} {cka : List KA}
    {ckb : List KB} {ckt : List KT} {k : ℕ} (h1 : ma.length = 2 ^ k) (h2 : mb.length = 2 ^ k)
    (h3 : cka.length = 2 ^ k) (h4 : ckb.length = 2 ^ k)
    {proof : GipaProof MA MB OA OB OT} {aux : GipaAux F KA KB}
    (h : (proveWithAuxC P C ma mb cka ckb ckt).value = .ok (proof, aux)) :
    aux.transcript.length = k ∧ proof.steps.length = k := by
  unfold proveWithAuxC at h
  obtain ⟨_, -, h⟩ := value_bind_eq_ok h
  have := length_of_proveLoopC ckt k _ _ ⟨h1, h2, h3, h4⟩ h
  simpa using this

end Gipa

section Applications
variable {ρ F G1 G2 GT TF : Type} [Field F] [DecidableEq F]
  [AddCommGroup G1] [Module F G1] [AddCommGroup G2] [Module F G2] [Monoid TF] (o : Op)

theorem costs_powersLoopC (x : F) (n : ℕ) (p : F) (acc : List F) :
    (powersLoopC x n p acc).Costs o (n * unit .mul o) fun _ => True := by
  induction n generalizing p acc with
  | zero => exact (costs_pure o _ _).eq (by simp)
  | succ n ih => exact ((costs_mulC o _ _).step fun _ _ => ih _ _).eq (by ring)

theorem costs_yEvalCoeffsC (ps : List (List F)) (powers : List F) (n m : ℕ) :
    (yEvalCoeffsC ps powers n m).Costs o (n * m * unit .mul o) fun _ => True :=
  (costs_mapM (n := n * unit .mul o) (fun j => ((costs_mapM (n := unit .mul o) (fun i =>
    ((costs_free o _ _).step fun _ _ => (costs_free o _ _).step fun _ _ => (costs_free o _ _).step
      fun _ _ => costs_mulC o _ _).eq (by omega)) _).step fun _ _ => costs_pure o _ _).eq
        (by simp)) _).eq (by rw [List.length_range]; ring)

theorem Kzg.costs_commitC (powers : List G1) (p : List F) :
    (Kzg.commitC powers p).Costs o (powers.length * unit .scale o) fun _ => True :=
  ((costs_free o _ _).step fun _ _ => (costs_free o _ _).step fun _ _ => costs_msmC o _ _).eq
    (by simp)

theorem Kzg.costs_openC (powers : List G1) (p : List F) (z : F) :
    (Kzg.openC powers p z).Costs o (p.length * unit .mul o + powers.length * unit .scale o)
      fun _ => True :=
  ((costs_free o _ _).step fun _ _ => (costs_free o _ _).step fun _ _ =>
    (costs_polyDivLinearC o _ _).step fun _ _ => costs_msmC o _ _).eq (by simp)

theorem length_stepBy2 {α : Type} : ∀ l : List α, (stepBy2 l).length = (l.length + 1) / 2
  | [] => by simp [stepBy2]
  | [_] => by simp [stepBy2]
  | x :: _ :: xs => by
    rw [stepBy2, List.length_cons, length_stepBy2 xs, List.length_cons, List.length_cons]
    omega

end Applications

end Ripp
