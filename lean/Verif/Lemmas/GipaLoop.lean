import Verif.Lemmas.Gipa
import Verif.Lemmas.FinalKeys

/-! # Prover loop, verifier loop and their agreement -/

set_option linter.unusedSectionVars false

namespace Ripp

open Spec

namespace Gipa

section Rec
variable {ρ F MA MB T KA KB KT OA OB OT : Type} [Field F] [DecidableEq F]
  [Add OA] [SMul F OA] [Add OB] [SMul F OB] [Add OT] [SMul F OT]
  (P : Gipa ρ F MA MB T KA KB KT OA OB OT)

/-- Challenges of a list of steps in round order, starting after transcript `tr`. -/
def chals : List (Coms OA OB OT × Coms OA OB OT) → List F → Res (List F)
  | [], tr => .ok tr
  | (com1, com2) :: rest, tr => do
    let (c, _) ← P.challenge (tr.getLast?.getD 0) com1 com2
    chals rest (tr ++ [c])

/-- Folding of the running commitments with known challenges. -/
def foldMany : List (Coms OA OB OT × Coms OA OB OT) → List F → Coms OA OB OT → Coms OA OB OT
  | s :: ss, c :: cs, com => foldMany ss cs (foldComs c c⁻¹ com s.1 s.2)
  | _, _, com => com

theorem chals_prefix : ∀ (ss : List (Coms OA OB OT × Coms OA OB OT)) (tr tr' : List F),
    P.chals ss tr = .ok tr' → ∃ new, tr' = tr ++ new ∧ new.length = ss.length ∧ ∀ c ∈ new, c ≠ 0
  | [], tr, tr', h => by
    simp only [chals, Except.ok.injEq] at h
    exact ⟨[], by simp [h], rfl, by simp⟩
  | (com1, com2) :: ss, tr, tr', h => by
    rw [chals, bind_eq_ok] at h
    obtain ⟨⟨c, ci⟩, h1, h2⟩ := h
    obtain ⟨new, rfl, hl, hn⟩ := chals_prefix ss _ _ h2
    refine ⟨c :: new, by simp, by simp [hl], ?_⟩
    intro d hd
    rcases List.mem_cons.mp hd with rfl | hd
    · exact (P.challenge_ok h1).1
    · exact hn d hd

theorem recLoop_eq : ∀ (ss : List (Coms OA OB OT × Coms OA OB OT)) (com : Coms OA OB OT)
    (tr : List F), P.recLoop ss com tr =
      (P.chals ss tr >>= fun tr' => .ok (foldMany ss (tr'.drop tr.length) com, tr'))
  | [], com, tr => by simp [recLoop, chals, foldMany]
  | (com1, com2) :: ss, com, tr => by
    rw [recLoop, chals]
    cases h : P.challenge (tr.getLast?.getD 0) com1 com2 with
    | error e => rfl
    | ok p =>
      obtain ⟨c, ci⟩ := p
      have hci := (P.challenge_ok h).2
      subst hci
      simp only [ok_bind]
      rw [recLoop_eq ss]
      cases h2 : P.chals ss (tr ++ [c]) with
      | error e => rfl
      | ok tr' =>
        obtain ⟨new, rfl, -, -⟩ := P.chals_prefix ss _ _ h2
        simp [foldMany]

end Rec

section Loop
variable {ρ F MA MB T KA KB KT OA OB OT : Type} [Field F] [DecidableEq F]
  [AddCommGroup MA] [Module F MA] [AddCommGroup MB] [Module F MB]
  [AddCommGroup T] [Module F T] [AddCommGroup KA] [Module F KA] [AddCommGroup KB] [Module F KB]
  [AddCommGroup OA] [Module F OA] [AddCommGroup OB] [Module F OB] [Add OT] [SMul F OT]
  {P : Gipa ρ F MA MB T KA KB KT OA OB OT}
  {β : MA →ₗ[F] MB →ₗ[F] T} {φa : MA →ₗ[F] KA →ₗ[F] OA} {φb : MB →ₗ[F] KB →ₗ[F] OB}
  {ψ : KT → T → OT}

/-- What a successful run of the prover loop from state `st` with vectors of length `2^k` produces. -/
structure LoopOutcome (P : Gipa ρ F MA MB T KA KB KT OA OB OT)
    (β : MA →ₗ[F] MB →ₗ[F] T) (φa : MA →ₗ[F] KA →ₗ[F] OA) (φb : MB →ₗ[F] KB →ₗ[F] OB)
    (ψ : KT → T → OT) (kt : KT) (fuel k : ℕ) (st : ProveState F MA MB KA KB OA OB OT)
    (steps : List (Coms OA OB OT × Coms OA OB OT)) (cs : List F) (a : MA) (b : MB) (ka : KA)
    (kb : KB) : Prop where
  run : P.proveLoop [kt] fuel st =
    .ok ({ steps := (st.steps ++ steps).reverse, base := (a, b) },
      { transcript := (st.transcript ++ cs).reverse, ckBase := (ka, kb) })
  length_steps : steps.length = k
  length_cs : cs.length = k
  ne_zero : ∀ c ∈ cs, c ≠ 0
  chals : P.chals steps st.transcript = .ok (st.transcript ++ cs)
  fold_ma : foldAll cs st.ma = [a]
  fold_mb : foldAll (cs.map (·⁻¹)) st.mb = [b]
  fold_cka : foldAll (cs.map (·⁻¹)) st.cka = [ka]
  fold_ckb : foldAll cs st.ckb = [kb]
  coms : foldMany steps cs (honestComs β φa φb ψ kt st.ma st.mb st.cka st.ckb) =
    honestComs β φa φb ψ kt [a] [b] [ka] [kb]

theorem proveLoop_one (P : Gipa ρ F MA MB T KA KB KT OA OB OT) (β : MA →ₗ[F] MB →ₗ[F] T) (φa : MA →ₗ[F] KA →ₗ[F] OA)
    (φb : MB →ₗ[F] KB →ₗ[F] OB) (ψ : KT → T → OT) (kt : KT) (fuel : ℕ) (st : ProveState F MA MB KA KB OA OB OT)
    (h1 : st.ma.length = 1) (h2 : st.mb.length = 1) (h3 : st.cka.length = 1) (h4 : st.ckb.length = 1) :
    ∃ a b ka kb, LoopOutcome P β φa φb ψ kt fuel 0 st [] [] a b ka kb := by
  obtain ⟨a, ha⟩ := List.length_eq_one_iff.mp h1
  obtain ⟨b, hb⟩ := List.length_eq_one_iff.mp h2
  obtain ⟨ka, hka⟩ := List.length_eq_one_iff.mp h3
  obtain ⟨kb, hkb⟩ := List.length_eq_one_iff.mp h4
  refine ⟨a, b, ka, kb, ?_, rfl, rfl, by simp, by simp [Gipa.chals], by simp [foldAll, ha],
    by simp [foldAll, hb], by simp [foldAll, hka], by simp [foldAll, hkb],
    by simp [foldMany, ha, hb, hka, hkb]⟩
  unfold proveLoop
  simp [ha, hb, hka, hkb]

theorem proveLoop_outcome (L : P.Lawful β φa φb ψ) (hd : ∀ x, 16 ≤ (P.digest x).length) (kt : KT) :
    ∀ (k fuel : ℕ) (st : ProveState F MA MB KA KB OA OB OT), k ≤ fuel →
      st.ma.length = 2 ^ k → st.mb.length = 2 ^ k → st.cka.length = 2 ^ k → st.ckb.length = 2 ^ k →
      P.proveLoop [kt] fuel st = .error .diverge ∨
      ∃ steps cs a b ka kb, LoopOutcome P β φa φb ψ kt fuel k st steps cs a b ka kb := by
  intro k
  induction k with
  | zero =>
    intro fuel st _ h1 h2 h3 h4
    obtain ⟨a, b, ka, kb, O⟩ := proveLoop_one P β φa φb ψ kt fuel st (by simpa using h1) (by simpa using h2)
      (by simpa using h3) (by simpa using h4)
    exact Or.inr ⟨[], [], a, b, ka, kb, O⟩
  | succ k ih =>
    intro fuel st hf h1 h2 h3 h4
    obtain ⟨fuel, rfl⟩ : ∃ f, fuel = f + 1 := ⟨fuel - 1, by omega⟩
    have e : (2 : ℕ) ^ (k + 1) = 2 * 2 ^ k := by rw [pow_succ]; ring
    rw [e] at h1 h2 h3 h4
    have hne : ¬ st.ma.length = 1 := by omega
    rw [proveLoop, if_neg hne]
    rw [proveRound_eq L kt (2 ^ k) st h1 h2 h3 h4]
    set com1 := cross1 β φa φb ψ kt (2 ^ k) st.ma st.mb st.cka st.ckb with hcom1
    set com2 := cross2 β φa φb ψ kt (2 ^ k) st.ma st.mb st.cka st.ckb with hcom2
    rcases P.challenge_total hd (st.transcript.getLast?.getD 0) com1 com2 with ⟨c, hc, hch⟩ | hch
    · rw [hch]
      simp only [ok_bind]
      rcases ih fuel (nextState c com1 com2 st) (by omega)
        (length_foldHalf _ _ _ h1) (length_foldHalf _ _ _ h2) (length_foldHalf _ _ _ h3)
        (length_foldHalf _ _ _ h4) with hdiv | ⟨steps, cs, a, b, ka, kb, O⟩
      · left; exact hdiv
      · right
        refine ⟨(com1, com2) :: steps, c :: cs, a, b, ka, kb, ?_, by simp [O.length_steps],
          by simp [O.length_cs], ?_, ?_, O.fold_ma, O.fold_mb, O.fold_cka, O.fold_ckb, ?_⟩
        · rw [proveLoop, if_neg hne]
          rw [proveRound_eq L kt (2 ^ k) st h1 h2 h3 h4, ← hcom1, ← hcom2, hch]
          simp only [ok_bind]
          rw [O.run]
          simp [nextState]
        · intro d hd
          rcases List.mem_cons.mp hd with rfl | hd
          · exact hc
          · exact O.ne_zero d hd
        · rw [Gipa.chals, hch]
          simp only [ok_bind]
          have := O.chals
          simpa [nextState] using this
        · rw [foldMany]
          have := O.coms
          rw [hcom1, hcom2, foldComs_honest L kt (2 ^ k) c hc _ _ _ _ h1 h2 h3 h4]
          exact this
    · left; rw [hch]; rfl

end Loop

section Verify
variable {ρ F MA MB T KA KB KT OA OB OT : Type} [Field F] [DecidableEq F]
  [AddCommGroup MA] [Module F MA] [AddCommGroup MB] [Module F MB]
  [AddCommGroup T] [Module F T] [AddCommGroup KA] [Module F KA] [AddCommGroup KB] [Module F KB]
  [AddCommGroup OA] [Module F OA] [AddCommGroup OB] [Module F OB] [Add OT] [SMul F OT]
  [DecidableEq OA] [DecidableEq OB] [DecidableEq OT]
  {P : Gipa ρ F MA MB T KA KB KT OA OB OT}
  {β : MA →ₗ[F] MB →ₗ[F] T} {φa : MA →ₗ[F] KA →ₗ[F] OA} {φb : MB →ₗ[F] KB →ₗ[F] OB}
  {ψ : KT → T → OT}

theorem verifyBase_eq (L : P.Lawful β φa φb ψ) (ka : KA) (kb : KB) (kt : KT)
    (com : Coms OA OB OT) (proof : GipaProof MA MB OA OB OT) :
    P.verifyBase ka kb [kt] com proof =
      .ok (decide (com = honestComs β φa φb ψ kt [proof.base.1] [proof.base.2] [ka] [kb])) := by
  unfold verifyBase Commitment.verify
  rw [L.ip_ok _ _ rfl, L.lmc_ok _ _ rfl, L.rmc_ok _ _ rfl]
  simp only [ok_bind, L.ipc_ok, pure_eq_ok, honestComs, Prod.ext_iff]
  generalize dot (φa · ·) [proof.base.1] [ka] = x
  generalize dot (φb · ·) [proof.base.2] [kb] = y
  by_cases h1 : x = com.1
  · by_cases h2 : y = com.2.1
    · simp only [h1, h2, decide_true, if_true, true_and, Except.ok.injEq]
      congr 1
      exact propext eq_comm
    · simp [h1, h2, Ne.symm h2]
  · simp [h1, Ne.symm h1]

/-- The verifier's verdict on a proof with the right number of rounds. -/
theorem verify_eq (L : P.Lawful β φa φb ψ) (cka : List KA) (ckb : List KB) (kt : KT)
    (com : Coms OA OB OT) (proof : GipaProof MA MB OA OB OT)
    (ha : cka.length = 2 ^ proof.steps.length) (hb : ckb.length = 2 ^ proof.steps.length) :
    P.verify cka ckb kt com proof =
      (P.chals proof.steps.reverse [] >>= fun cs => .ok (decide
        (foldMany proof.steps.reverse cs com = honestComs β φa φb ψ kt [proof.base.1]
          [proof.base.2] (foldAll (cs.map (·⁻¹)) cka) (foldAll cs ckb)))) := by
  unfold verify
  rw [if_neg (by rw [ha, hb]; simp)]
  simp only [recursiveChallenges, recLoop_eq]
  cases h : P.chals proof.steps.reverse [] with
  | error e => rfl
  | ok cs =>
    obtain ⟨new, hnew, hl, hn⟩ := P.chals_prefix _ _ _ h
    simp only [List.nil_append] at hnew
    subst hnew
    simp only [ok_bind, pure_eq_ok, List.length_nil, List.drop_zero]
    have hlen : cs.reverse.length = proof.steps.length := by simp [hl]
    rw [finalKeys_eq cka ckb cs.reverse (by rw [hlen, ha]) (by rw [hb]; positivity)
      (fun c hc => hn c (by simpa using hc))]
    simp only [ok_bind]
    rw [verifyBase_eq L]
    have e1 := dot_exps (cs.reverse.map (·⁻¹)) cka (by simp [ha, hl])
    have e2 := dot_exps cs.reverse ckb (by simp [hb, hl])
    rw [← List.map_reverse, List.reverse_reverse] at e1
    rw [List.reverse_reverse] at e2
    rw [e1, e2]

/-- A proof with a wrong number of rounds never yields a verdict. -/
theorem verify_wrong_rounds (P : Gipa ρ F MA MB T KA KB KT OA OB OT) (cka : List KA) (ckb : List KB)
    (kt : KT) (com : Coms OA OB OT) (proof : GipaProof MA MB OA OB OT)
    (hp : isPow2 cka.length = true) (hab : cka.length = ckb.length)
    (ha : cka.length ≠ 2 ^ proof.steps.length) :
    P.verify cka ckb kt com proof =
      (P.chals proof.steps.reverse [] >>= fun _ => panic' .assertion) := by
  unfold verify
  rw [if_neg (by rw [hp, hab]; simp)]
  simp only [recursiveChallenges, recLoop_eq]
  cases h : P.chals proof.steps.reverse [] with
  | error e => rfl
  | ok cs =>
    obtain ⟨new, hnew, hl, hn⟩ := P.chals_prefix _ _ _ h
    simp only [List.nil_append] at hnew
    subst hnew
    simp only [ok_bind, pure_eq_ok, List.length_nil, List.drop_zero]
    rw [finalKeys_wrong cka ckb cs.reverse (by simpa [hl] using ha)
      (fun c hc => hn c (by simpa using hc))]
    rfl

end Verify

end Gipa

end Ripp
