import Verif.Lemmas.GipaInstances
import Verif.Lemmas.Bytes

/-!
# C11-C23: the generic inner product argument

The theorems hold for every instantiation satisfying `Gipa.Lawful`; `Verif/Lemmas/GipaInstances.lean`
shows that the instantiations of the crate satisfy it.
-/

set_option linter.unusedSectionVars false
set_option linter.unusedVariables false

namespace Ripp

open Spec

namespace Gipa

variable {ρ F MA MB T KA KB KT OA OB OT : Type} [Field F] [DecidableEq F]
  [AddCommGroup MA] [Module F MA] [AddCommGroup MB] [Module F MB]
  [AddCommGroup T] [Module F T] [AddCommGroup KA] [Module F KA] [AddCommGroup KB] [Module F KB]
  [AddCommGroup OA] [Module F OA] [AddCommGroup OB] [Module F OB] [Add OT] [SMul F OT]
  [DecidableEq T] [DecidableEq OA] [DecidableEq OB] [DecidableEq OT]
  {P : Gipa ρ F MA MB T KA KB KT OA OB OT}
  {β : MA →ₗ[F] MB →ₗ[F] T} {φa : MA →ₗ[F] KA →ₗ[F] OA} {φb : MB →ₗ[F] KB →ₗ[F] OB}
  {ψ : KT → T → OT}

/-- The commitments `com` and the value `t` are the honest ones for the messages and keys. -/
structure Honest (P : Gipa ρ F MA MB T KA KB KT OA OB OT) (ma : List MA) (mb : List MB) (t : T)
    (cka : List KA) (ckb : List KB) (kt : KT) (com : Coms OA OB OT) : Prop where
  ip : P.ip ma mb = .ok t
  lmc : P.lmc.commit cka ma = .ok com.1
  rmc : P.rmc.commit ckb mb = .ok com.2.1
  ipc : P.ipc.commit [kt] [t] = .ok com.2.2

theorem Honest.eq (L : P.Lawful β φa φb ψ) {k : ℕ} {ma : List MA} {mb : List MB} {t : T}
    {cka : List KA} {ckb : List KB} {kt : KT} {com : Coms OA OB OT}
    (h1 : ma.length = 2 ^ k) (h2 : mb.length = 2 ^ k) (h3 : cka.length = 2 ^ k)
    (h4 : ckb.length = 2 ^ k) (H : Honest P ma mb t cka ckb kt com) :
    t = dot (β · ·) ma mb ∧ com = honestComs β φa φb ψ kt ma mb cka ckb := by
  have e1 := H.ip; have e2 := H.lmc; have e3 := H.rmc; have e4 := H.ipc
  rw [L.ip_ok _ _ (h1.trans h2.symm)] at e1
  rw [L.lmc_ok _ _ (h3.trans h1.symm)] at e2
  rw [L.rmc_ok _ _ (h4.trans h2.symm)] at e3
  rw [L.ipc_ok] at e4
  have e1 := Except.ok.inj e1
  subst e1
  refine ⟨rfl, ?_⟩
  exact Prod.ext (Except.ok.inj e2).symm (Prod.ext (Except.ok.inj e3).symm (Except.ok.inj e4).symm)

theorem prove_of_honest {ma : List MA} {mb : List MB} {t : T} {cka : List KA} {ckb : List KB}
    {kt : KT} {com : Coms OA OB OT} (H : Honest P ma mb t cka ckb kt com)
    (hp : isPow2 ma.length = true) :
    P.prove ma mb t cka ckb kt com =
      (P.proveWithAux ma mb cka ckb [kt] >>= fun p => .ok p.1) := by
  unfold prove
  simp [H.ip, hp, Commitment.verify, H.lmc, H.rmc, H.ipc]

/-- C11: for honest input of power-of-two length the prover either searches through all nonces without
success or returns a proof that the verifier accepts. -/
theorem C11_complete (L : P.Lawful β φa φb ψ) (hd : ∀ x, 16 ≤ (P.digest x).length)
    (k : ℕ) (ma : List MA) (mb : List MB) (t : T) (cka : List KA) (ckb : List KB) (kt : KT)
    (com : Coms OA OB OT)
    (h1 : ma.length = 2 ^ k) (h2 : mb.length = 2 ^ k) (h3 : cka.length = 2 ^ k)
    (h4 : ckb.length = 2 ^ k) (H : Honest P ma mb t cka ckb kt com) :
    P.prove ma mb t cka ckb kt com = .error .diverge ∨
    ∃ proof, P.prove ma mb t cka ckb kt com = .ok proof ∧
      P.verify cka ckb kt com proof = .ok true := by
  rw [prove_of_honest H (by rw [h1]; simp)]
  obtain ⟨-, rfl⟩ := H.eq L h1 h2 h3 h4
  rcases proveWithAux_outcome L hd kt k ma mb cka ckb h1 h2 h3 h4 with h | ⟨steps, cs, a, b, ka, kb, O⟩
  · left; rw [h]; rfl
  · right
    exact ⟨_, by rw [O.run]; rfl, O.verify L h3 h4⟩

/-- C11: with a digest for which every challenge search ends, completeness is unconditional. -/
theorem C11_complete_total (L : P.Lawful β φa φb ψ) (hd : ∀ x, 16 ≤ (P.digest x).length)
    (hs : P.SearchEnds) (k : ℕ) (ma : List MA) (mb : List MB) (t : T) (cka : List KA)
    (ckb : List KB) (kt : KT) (com : Coms OA OB OT)
    (h1 : ma.length = 2 ^ k) (h2 : mb.length = 2 ^ k) (h3 : cka.length = 2 ^ k)
    (h4 : ckb.length = 2 ^ k) (H : Honest P ma mb t cka ckb kt com) :
    ∃ proof, P.prove ma mb t cka ckb kt com = .ok proof ∧
      P.verify cka ckb kt com proof = .ok true := by
  rw [prove_of_honest H (by rw [h1]; simp)]
  obtain ⟨-, rfl⟩ := H.eq L h1 h2 h3 h4
  obtain ⟨steps, cs, a, b, ka, kb, O⟩ :=
    proveWithAux_total L hd hs kt k ma mb cka ckb h1 h2 h3 h4
  exact ⟨_, by rw [O.run]; rfl, O.verify L h3 h4⟩

/-- C12: whatever the instantiation, a returned proof means that the statement was true. -/
theorem C12_prove_only_true (ma : List MA) (mb : List MB) (t : T) (cka : List KA) (ckb : List KB)
    (kt : KT) (com : Coms OA OB OT) (proof : GipaProof MA MB OA OB OT)
    (h : P.prove ma mb t cka ckb kt com = .ok proof) :
    Honest P ma mb t cka ckb kt com ∧ ∃ k, ma.length = 2 ^ k := by
  unfold prove at h
  rw [bind_eq_ok] at h
  obtain ⟨t', ht, h⟩ := h
  by_cases htt : t' = t
  swap
  · simp [htt] at h
  subst htt
  cases hp : isPow2 ma.length with
  | false => simp [hp] at h
  | true =>
    simp only [ne_eq, not_true_eq_false, if_false, hp, Bool.true_eq_false, pure_eq_ok, ok_bind] at h
    have hpow := (isPow2_iff _).mp hp
    simp only [Commitment.verify] at h
    cases hA : P.lmc.commit cka ma with
    | error e => simp [hA] at h
    | ok oa =>
      simp only [hA, ok_bind, pure_eq_ok] at h
      by_cases ha : oa = com.1
      swap
      · simp [ha] at h
      simp only [ha, decide_true, if_true] at h
      cases hB : P.rmc.commit ckb mb with
      | error e => simp [hB] at h
      | ok ob =>
        simp only [hB, ok_bind] at h
        by_cases hb : ob = com.2.1
        swap
        · simp [hb] at h
        simp only [hb, decide_true, if_true] at h
        cases hT : P.ipc.commit [kt] [t'] with
        | error e => simp [hT] at h
        | ok ot =>
          simp only [hT, ok_bind] at h
          by_cases ht2 : ot = com.2.2
          swap
          · simp [ht2] at h
          exact ⟨⟨ht, ha ▸ hA, hb ▸ hB, ht2 ▸ hT⟩, hpow⟩

/-- C13: a wrong value. -/
theorem C13_wrong_value (ma : List MA) (mb : List MB) (t t' : T) (cka : List KA) (ckb : List KB)
    (kt : KT) (com : Coms OA OB OT) (h : P.ip ma mb = .ok t') (hne : t' ≠ t) :
    P.prove ma mb t cka ckb kt com = .error .ipInvalid := by
  simp [prove, h, hne]

/-- C13: a length that is not a power of two. -/
theorem C13_not_power_of_two (ma : List MA) (mb : List MB) (t : T) (cka : List KA) (ckb : List KB)
    (kt : KT) (com : Coms OA OB OT) (h : P.ip ma mb = .ok t) (hl : ∀ k, ma.length ≠ 2 ^ k) :
    P.prove ma mb t cka ckb kt com = .error (.argLength ma.length mb.length) := by
  simp [prove, h, isPow2_eq_false.mpr hl]

/-- C13: a commitment that does not open (all three commitments computable, at least one different). -/
theorem C13_wrong_commitment (ma : List MA) (mb : List MB) (t : T) (cka : List KA) (ckb : List KB)
    (kt : KT) (com com' : Coms OA OB OT) (H : Honest P ma mb t cka ckb kt com')
    (hl : ∃ k, ma.length = 2 ^ k) (hne : com' ≠ com) :
    P.prove ma mb t cka ckb kt com = .error .ipInvalid := by
  have hp := (isPow2_iff _).mpr hl
  unfold prove
  simp only [H.ip, ok_bind, ne_eq, not_true_eq_false, if_false, hp, Bool.true_eq_false, pure_eq_ok,
    Commitment.verify, H.lmc, H.rmc, H.ipc]
  by_cases h1 : com'.1 = com.1
  · by_cases h2 : com'.2.1 = com.2.1
    · by_cases h3 : com'.2.2 = com.2.2
      · exact absurd (Prod.ext h1 (Prod.ext h2 h3)) hne
      · simp [h1, h2, h3]
    · simp [h1, h2]
  · simp [h1]

/-- C13: an error of the inner product, of the left or of the right commitment is passed on (for the
inner products and commitments of the crate this is `MessageLengthInvalid`). -/
theorem C13_error_passed_on (ma : List MA) (mb : List MB) (t : T) (cka : List KA) (ckb : List KB)
    (kt : KT) (com : Coms OA OB OT) (f : Fault) :
    (P.ip ma mb = .error f → P.prove ma mb t cka ckb kt com = .error f) ∧
    (P.ip ma mb = .ok t → (∃ k, ma.length = 2 ^ k) → P.lmc.commit cka ma = .error f →
      P.prove ma mb t cka ckb kt com = .error f) ∧
    (P.ip ma mb = .ok t → (∃ k, ma.length = 2 ^ k) → P.lmc.commit cka ma = .ok com.1 →
      P.rmc.commit ckb mb = .error f → P.prove ma mb t cka ckb kt com = .error f) := by
  refine ⟨fun h => by simp [prove, h], fun h hl hA => ?_, fun h hl hA hB => ?_⟩
  · simp [prove, h, (isPow2_iff _).mpr hl, Commitment.verify, hA]
  · simp [prove, h, (isPow2_iff _).mpr hl, Commitment.verify, hA, hB]

/-- C14: on vectors of equal power-of-two length the recursive prover returns a proof or searches
through all nonces; no panic, no error. -/
theorem C14_no_panic (L : P.Lawful β φa φb ψ) (hd : ∀ x, 16 ≤ (P.digest x).length)
    (k : ℕ) (ma : List MA) (mb : List MB) (cka : List KA) (ckb : List KB) (kt : KT)
    (h1 : ma.length = 2 ^ k) (h2 : mb.length = 2 ^ k) (h3 : cka.length = 2 ^ k)
    (h4 : ckb.length = 2 ^ k) :
    (∃ r, P.proveWithAux ma mb cka ckb [kt] = .ok r) ∨
      P.proveWithAux ma mb cka ckb [kt] = .error .diverge := by
  rcases proveWithAux_outcome L hd kt k ma mb cka ckb h1 h2 h3 h4 with h | ⟨steps, cs, a, b, ka, kb, O⟩
  · exact Or.inr h
  · exact Or.inl ⟨_, O.run⟩

/-- C14 for `prove`: with four vectors of one power-of-two length, the only possible outcomes are a
proof, `InnerProductInvalid` and exhausted nonces. -/
theorem C14_prove_outcomes (L : P.Lawful β φa φb ψ) (hd : ∀ x, 16 ≤ (P.digest x).length)
    (k : ℕ) (ma : List MA) (mb : List MB) (t : T) (cka : List KA) (ckb : List KB) (kt : KT)
    (com : Coms OA OB OT)
    (h1 : ma.length = 2 ^ k) (h2 : mb.length = 2 ^ k) (h3 : cka.length = 2 ^ k)
    (h4 : ckb.length = 2 ^ k) :
    (∃ proof, P.prove ma mb t cka ckb kt com = .ok proof) ∨
      P.prove ma mb t cka ckb kt com = .error .ipInvalid ∨
      P.prove ma mb t cka ckb kt com = .error .diverge := by
  have hip := L.ip_ok ma mb (h1.trans h2.symm)
  by_cases ht : dot (β · ·) ma mb = t
  · have H : Honest P ma mb t cka ckb kt (honestComs β φa φb ψ kt ma mb cka ckb) :=
      ⟨ht ▸ hip, L.lmc_ok _ _ (h3.trans h1.symm), L.rmc_ok _ _ (h4.trans h2.symm),
        by rw [L.ipc_ok]; simp [honestComs, ht]⟩
    by_cases hc : honestComs β φa φb ψ kt ma mb cka ckb = com
    · rcases C11_complete L hd k ma mb t cka ckb kt com h1 h2 h3 h4 (hc ▸ H) with h | ⟨p, h, -⟩
      · exact Or.inr (Or.inr h)
      · exact Or.inl ⟨p, h⟩
    · exact Or.inr (Or.inl (C13_wrong_commitment _ _ _ _ _ _ _ _ H ⟨k, h1⟩ hc))
  · exact Or.inr (Or.inl (C13_wrong_value _ _ _ _ _ _ _ _ hip ht))

/-- C15: exactly `k` rounds for length `2^k`. -/
theorem C15_rounds (L : P.Lawful β φa φb ψ) (hd : ∀ x, 16 ≤ (P.digest x).length)
    (k : ℕ) (ma : List MA) (mb : List MB) (cka : List KA) (ckb : List KB) (kt : KT)
    (h1 : ma.length = 2 ^ k) (h2 : mb.length = 2 ^ k) (h3 : cka.length = 2 ^ k)
    (h4 : ckb.length = 2 ^ k) (proof : GipaProof MA MB OA OB OT) (aux : GipaAux F KA KB)
    (h : P.proveWithAux ma mb cka ckb [kt] = .ok (proof, aux)) :
    proof.steps.length = k ∧ aux.transcript.length = k := by
  rcases proveWithAux_outcome L hd kt k ma mb cka ckb h1 h2 h3 h4 with h' | ⟨steps, cs, a, b, ka, kb, O⟩
  · rw [h'] at h; cases h
  · rw [O.run] at h
    cases h
    simp [O.length_steps, O.length_cs]

/-- C16: the verifier recomputes the prover's transcript. -/
theorem C16_same_transcript (L : P.Lawful β φa φb ψ) (hd : ∀ x, 16 ≤ (P.digest x).length)
    (k : ℕ) (ma : List MA) (mb : List MB) (cka : List KA) (ckb : List KB) (kt : KT)
    (h1 : ma.length = 2 ^ k) (h2 : mb.length = 2 ^ k) (h3 : cka.length = 2 ^ k)
    (h4 : ckb.length = 2 ^ k) (proof : GipaProof MA MB OA OB OT) (aux : GipaAux F KA KB)
    (h : P.proveWithAux ma mb cka ckb [kt] = .ok (proof, aux)) (com : Coms OA OB OT) :
    ∃ com', P.recursiveChallenges com proof = .ok (com', aux.transcript) := by
  rcases proveWithAux_outcome L hd kt k ma mb cka ckb h1 h2 h3 h4 with h' | ⟨steps, cs, a, b, ka, kb, O⟩
  · rw [h'] at h; cases h
  · rw [O.run] at h
    cases h
    refine ⟨foldMany steps cs com, ?_⟩
    simp [recursiveChallenges, recLoop_eq, O.chals]

/-- C16: for any proof, also adversarial, all challenges are non-zero and there is one per step. -/
theorem C16_challenges_nonzero (com com' : Coms OA OB OT) (proof : GipaProof MA MB OA OB OT)
    (tr : List F) (h : P.recursiveChallenges com proof = .ok (com', tr)) :
    tr.length = proof.steps.length ∧ ∀ c ∈ tr, c ≠ 0 := by
  simp only [recursiveChallenges, recLoop_eq] at h
  cases hc : P.chals proof.steps.reverse [] with
  | error e => simp [hc] at h
  | ok cs =>
    obtain ⟨new, hnew, hl, hn⟩ := P.chals_prefix _ _ _ hc
    simp only [List.nil_append] at hnew
    subst hnew
    simp only [hc, ok_bind, pure_eq_ok, Except.ok.injEq, Prod.mk.injEq] at h
    obtain ⟨-, rfl⟩ := h
    exact ⟨by simp [hl], fun c hc => hn c (by simpa using hc)⟩

/-- C17: the verifier's one-shot keys are the keys folded round by round and the bit-product sums.
`tr` is the transcript in the order in which it is stored (last round first). -/
theorem C17_final_keys (cka : List KA) (ckb : List KB) (tr : List F)
    (h1 : cka.length = 2 ^ tr.length) (h2 : ckb.length = 2 ^ tr.length) (h : ∀ c ∈ tr, c ≠ 0) :
    ∃ ka kb, finalKeys cka ckb tr = .ok (ka, kb) ∧
      foldAll (tr.reverse.map (·⁻¹)) cka = [ka] ∧ foldAll tr.reverse ckb = [kb] ∧
      ka = dot (fun g x => x • g) cka
        ((List.range (2 ^ tr.length)).map (bitProd (tr.map (·⁻¹)))) ∧
      kb = dot (fun g x => x • g) ckb ((List.range (2 ^ tr.length)).map (bitProd tr)) := by
  refine ⟨_, _, finalKeys_eq cka ckb tr h1 (by rw [h2]; positivity) h, ?_, ?_, ?_, ?_⟩
  · rw [List.map_reverse]; exact dot_exps _ _ (by simpa using h1)
  · exact dot_exps _ _ h2
  · rw [exps_eq]; simp
  · rw [exps_eq]

example : finalKeys ([1, 2, 3, 4] : List Toy.F) ([5, 6, 7, 8] : List Toy.F) ([2, 3] : List Toy.F) =
    .ok (1 + 51 * 2 + 34 * 3 + 17 * 4, 5 + 2 * 6 + 3 * 7 + 6 * 8) := by
  obtain ⟨ka, kb, h, -, -, h1, h2⟩ := C17_final_keys ([1, 2, 3, 4] : List Toy.F)
    ([5, 6, 7, 8] : List Toy.F) ([2, 3] : List Toy.F) rfl rfl (by decide)
  rw [h, h1, h2]
  decide +kernel

/-! ## The verdict -/

theorem foldMany_eq : ∀ (ss : List (Coms OA OB OT × Coms OA OB OT)) (cs : List F)
    (com : Coms OA OB OT), foldMany ss cs com =
      (accum cs (ss.map fun s => (s.1.1, s.2.1)) com.1,
       accum cs (ss.map fun s => (s.1.2.1, s.2.2.1)) com.2.1,
       accum cs (ss.map fun s => (s.1.2.2, s.2.2.2)) com.2.2)
  | [], cs, com => by cases cs <;> simp [foldMany, accum]
  | s :: ss, [], com => by simp [foldMany, accum]
  | s :: ss, c :: cs, com => by
    rw [foldMany, foldMany_eq ss cs]; simp [foldComs, accum]

omit [DecidableEq F] in
theorem accum_eq {O : Type} [AddCommGroup O] [Module F O] : ∀ (cs : List F) (ss : List (O × O))
    (com : O), accum cs ss com = com + dot (· • ·) cs (ss.map (·.1))
      + dot (· • ·) (cs.map (·⁻¹)) (ss.map (·.2))
  | [], ss, com => by simp [accum]
  | c :: cs, [], com => by simp [accum]
  | c :: cs, s :: ss, com => by
    rw [accum, accum_eq cs ss]; simp; abel

/-- C18: the verdict as three equations. `cs` are the derived challenges in round order, `ka`, `kb`
the folded keys. The first two commitments are sums in a group; the third, whose output type may be
the truncating identity output, is accumulated round by round. -/
theorem C18_verdict (L : P.Lawful β φa φb ψ) (cka : List KA) (ckb : List KB) (kt : KT)
    (com : Coms OA OB OT) (proof : GipaProof MA MB OA OB OT) (cs : List F) (com' : Coms OA OB OT)
    (ha : cka.length = 2 ^ proof.steps.length) (hb : ckb.length = 2 ^ proof.steps.length)
    (hc : P.recursiveChallenges com proof = .ok (com', cs.reverse)) :
    ∃ ka kb b, foldAll (cs.map (·⁻¹)) cka = [ka] ∧ foldAll cs ckb = [kb] ∧
      P.verify cka ckb kt com proof = .ok b ∧ (b = true ↔
        com.1 + dot (· • ·) cs (proof.steps.reverse.map (·.1.1))
          + dot (· • ·) (cs.map (·⁻¹)) (proof.steps.reverse.map (·.2.1)) = φa proof.base.1 ka ∧
        com.2.1 + dot (· • ·) cs (proof.steps.reverse.map (·.1.2.1))
          + dot (· • ·) (cs.map (·⁻¹)) (proof.steps.reverse.map (·.2.2.1)) = φb proof.base.2 kb ∧
        accum cs (proof.steps.reverse.map fun s => (s.1.2.2, s.2.2.2)) com.2.2 =
          ψ kt (β proof.base.1 proof.base.2)) := by
  have hlen := (C16_challenges_nonzero _ _ _ _ hc).1
  simp only [recursiveChallenges, recLoop_eq] at hc
  cases hch : P.chals proof.steps.reverse [] with
  | error e => simp [hch] at hc
  | ok cs' =>
    simp only [hch, ok_bind, pure_eq_ok, Except.ok.injEq, Prod.mk.injEq] at hc
    obtain ⟨-, hrev⟩ := hc
    have : cs' = cs := by simpa using congrArg List.reverse hrev
    subst this
    have hlen' : cs'.length = proof.steps.length := by simpa using hlen
    obtain ⟨ka, hka⟩ := List.length_eq_one_iff.mp
      (length_foldAll (cs'.map (·⁻¹)) cka (by simp [ha, hlen']))
    obtain ⟨kb, hkb⟩ := List.length_eq_one_iff.mp (length_foldAll cs' ckb (by simp [hb, hlen']))
    refine ⟨ka, kb, _, hka, hkb, by rw [verify_eq L _ _ _ _ _ ha hb, hch, ok_bind, hka, hkb], ?_⟩
    rw [decide_eq_true_eq, foldMany_eq, honestComs]
    simp only [accum_eq, Prod.mk.injEq, dot_singleton, List.map_map]
    rfl

/-- C19: malformed key lengths are rejected with an error value. -/
theorem C19_key_lengths (cka : List KA) (ckb : List KB) (kt : KT) (com : Coms OA OB OT)
    (proof : GipaProof MA MB OA OB OT)
    (h : (∀ k, cka.length ≠ 2 ^ k) ∨ cka.length ≠ ckb.length) :
    P.verify cka ckb kt com proof = .error (.argLength cka.length ckb.length) := by
  unfold verify
  rw [if_pos (by rcases h with h | h; exacts [Or.inl (isPow2_eq_false.mpr h), Or.inr h])]
  rfl

/-- C20: a proof with a wrong number of rounds makes `verify` panic (or never finish); it never
returns a verdict or an error value. -/
theorem C20_wrong_rounds_panics (hd : ∀ x, 16 ≤ (P.digest x).length) (k : ℕ) (cka : List KA)
    (ckb : List KB) (kt : KT) (com : Coms OA OB OT) (proof : GipaProof MA MB OA OB OT)
    (h3 : cka.length = 2 ^ k) (h4 : ckb.length = 2 ^ k) (hne : proof.steps.length ≠ k) :
    P.verify cka ckb kt com proof = .error (.panic .assertion) ∨
      P.verify cka ckb kt com proof = .error .diverge := by
  have hne' : cka.length ≠ 2 ^ proof.steps.length := by
    rw [h3]; exact fun h => hne (Nat.pow_right_injective le_rfl h.symm)
  rw [verify_wrong_rounds P cka ckb kt com proof (by rw [h3]; simp) (h3.trans h4.symm) hne']
  have htot : ∀ (ss : List (Coms OA OB OT × Coms OA OB OT)) (tr : List F),
      (∃ tr', P.chals ss tr = .ok tr') ∨ P.chals ss tr = .error .diverge := by
    intro ss
    induction ss with
    | nil => intro tr; exact Or.inl ⟨tr, rfl⟩
    | cons s ss ih =>
      intro tr
      obtain ⟨s1, s2⟩ := s
      rw [Gipa.chals]
      rcases P.challenge_total hd (tr.getLast?.getD 0) s1 s2 with ⟨c, -, h⟩ | h
      · rw [h]; exact ih _
      · right; rw [h]; rfl
  rcases htot proof.steps.reverse [] with ⟨tr, h⟩ | h
  · left; rw [h]; rfl
  · right; rw [h]; rfl

/-- C21: the transcript is the same for every statement (the function does not even receive the
keys). -/
theorem C21_statement_free (com com' : Coms OA OB OT) (proof : GipaProof MA MB OA OB OT) :
    (P.recursiveChallenges com proof).map (·.2) = (P.recursiveChallenges com' proof).map (·.2) := by
  simp only [recursiveChallenges, recLoop_eq]
  cases P.chals proof.steps.reverse [] <;> rfl

/-- C22: for all vectors of length `2^(k+1)` and every non-zero shift direction `s` there is an
accepted proof for the honest `com_a`, `com_b` and a commitment to a *different* inner product
`t' = ⟨a,b⟩ - c s`, `c ≠ 0`. -/
theorem C22_forgery (L : P.Lawful β φa φb ψ) (hd : ∀ x, 16 ≤ (P.digest x).length)
    (hs : P.SearchEnds) (k : ℕ) (ma : List MA) (mb : List MB) (t : T) (cka : List KA)
    (ckb : List KB) (kt : KT) (com : Coms OA OB OT)
    (h1 : ma.length = 2 ^ (k + 1)) (h2 : mb.length = 2 ^ (k + 1)) (h3 : cka.length = 2 ^ (k + 1))
    (h4 : ckb.length = 2 ^ (k + 1)) (H : Honest P ma mb t cka ckb kt com) (s : T) (hs0 : s ≠ 0) :
    ∃ t' ot proof, t' ≠ t ∧ P.ipc.commit [kt] [t'] = .ok ot ∧
      P.verify cka ckb kt (com.1, com.2.1, ot) proof = .ok true := by
  obtain ⟨rfl, rfl⟩ := H.eq L h1 h2 h3 h4
  obtain ⟨c, proof, hc, hv⟩ := forge L hd hs kt k ma mb cka ckb h1 h2 h3 h4 s
  refine ⟨_, _, proof, ?_, L.ipc_ok kt _, hv⟩
  intro h
  have : c • s = 0 := sub_eq_self.mp h
  rcases smul_eq_zero.mp this with h | h
  exacts [hc h, hs0 h]

/-- C23: with encodings that can be read off the front of a byte string (constant length, or
length-prefixed as for vectors), the hash input of a round determines nonce, previous challenge and all
six step commitments. `SA`, `SB`, `ST` restrict to the values that occur (vectors shorter than 2^64). -/
theorem C23_hash_input_injective {SF : F → Prop} {SA : OA → Prop} {SB : OB → Prop} {ST : OT → Prop}
    (hF : Decodable SF P.serF) (hA : Decodable SA P.serA) (hB : Decodable SB P.serB)
    (hT : Decodable ST P.serT)
    (n n' : ℕ) (hn : n < 2 ^ 64) (hn' : n' < 2 ^ 64) (prev prev' : F) (hp : SF prev) (hp' : SF prev')
    (com1 com2 com1' com2' : Coms OA OB OT)
    (hcom : ∀ c ∈ [com1, com2, com1', com2'], SA c.1 ∧ SB c.2.1 ∧ ST c.2.2)
    (h : P.hashInput n prev com1 com2 = P.hashInput n' prev' com1' com2') :
    n = n' ∧ prev = prev' ∧ com1 = com1' ∧ com2 = com2' := by
  obtain ⟨h1, h2, h1', h2'⟩ : (SA com1.1 ∧ SB com1.2.1 ∧ ST com1.2.2) ∧
      (SA com2.1 ∧ SB com2.2.1 ∧ ST com2.2.2) ∧ (SA com1'.1 ∧ SB com1'.2.1 ∧ ST com1'.2.2) ∧
      (SA com2'.1 ∧ SB com2'.2.1 ∧ ST com2'.2.2) := by simpa using hcom
  simp only [hashInput, List.append_assoc] at h
  obtain ⟨en, h⟩ := decodable_nonce _ _ _ _ hn hn' h
  obtain ⟨ep, h⟩ := hF _ _ _ _ hp hp' h
  obtain ⟨e1, h⟩ := hA _ _ _ _ h1.1 h1'.1 h
  obtain ⟨e2, h⟩ := hB _ _ _ _ h1.2.1 h1'.2.1 h
  obtain ⟨e3, h⟩ := hT _ _ _ _ h1.2.2 h1'.2.2 h
  obtain ⟨e4, h⟩ := hA _ _ _ _ h2.1 h2'.1 h
  obtain ⟨e5, h⟩ := hB _ _ _ _ h2.2.1 h2'.2.1 h
  rw [← List.append_nil (P.serT com2.2.2), ← List.append_nil (P.serT com2'.2.2)] at h
  obtain ⟨e6, -⟩ := hT _ _ _ _ h2.2.2 h2'.2.2 h
  exact ⟨en, ep, Prod.ext e1 (Prod.ext e2 e3), Prod.ext e4 (Prod.ext e5 e6)⟩

end Gipa

end Ripp
