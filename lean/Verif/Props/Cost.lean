import Verif.Lemmas.CostBounds
import Verif.Props.Groth16Verify
import Verif.Props.Sipp

/-!
# C113: the work of the verifiers

The verifiers of `Verif/Model/Cost.lean` count the expensive operations; without the counts they are
the verifiers of the other model files (the `_value` theorems below).

Written from the claims of the code and of the paper: SIPP's verifier computes "only a single pairing"
(`sipp/src/lib.rs:23-24`), TIPA's verifier and with it those of the polynomial commitment and of the
aggregation work in time logarithmic in the number of messages, GIPA's verifier in linear time. The
numbers are exact for accepted proofs, and upper bounds for everything else, also for runs that end
with an error or a panic. Inversions and digests depend on the number of nonces tried for a challenge;
their numbers are given for the case that no nonce has to be skipped.

The bound for GIPA is exponential in the number of rounds *of the proof*, whatever the length of the
keys, and `C113_gipa_attack` shows that this is not an artefact: the verifier computes `2^(k+1) - 2`
products for a proof with `k` rounds before it compares the number of rounds with the length of the
keys (`ip_proofs/src/gipa.rs:373-382`), so a short malicious proof costs it exponential time and memory.
-/

set_option linter.unusedSectionVars false

namespace Ripp

open Counted

/-- The counts `x` of a verifier are at most `w`, and exactly `w` if it accepts. Digests and inversions
(of which there is one for every nonce tried) are included only if `first` holds. -/
def Counted.Within (first : Prop) (w : Work) (x : Counted Bool) : Prop :=
  ∀ o, (o = .hash ∨ o = .inv → first) → x.work o ≤ w o ∧ (x.value = .ok true → x.work o = w o)

theorem within_of_costs {first : Prop} {w : Work} {x : Counted Bool}
    (h : ∀ o, (o = .hash ∨ o = .inv → first) → x.Costs o (w o) (· = true)) : x.Within first w :=
  fun o ho => ⟨(h o ho).1, fun hx => (h o ho).2 _ hx rfl⟩

/-- The operations of GIPA's verifier for a proof with `k` rounds and keys of length `n`, apart from
those of the final check. -/
def gipaWork (k n : ℕ) : Work
  | .mul => 2 * (2 ^ k - 1)
  | .inv => 2 * k
  | .scale => 6 * k + 2 * n
  | .hash => k
  | _ => 0

/-- The operations of TIPA's verifier for a proof with `k` rounds, apart from those of the final
check. -/
def tipaWork (k : ℕ) : Work
  | .mul => 6 * k + 4
  | .inv => 2 * k + 1
  | .scale => 6 * k + 4
  | .miller => 4
  | .finalExp => 4
  | .hash => k + 1
  | .pow => 0

/-- The operations of the verifier of GIPA with a structured message. -/
def gipaSsmWork (k n : ℕ) : Work
  | .mul => 2 * (2 ^ k - 1) + 3 * k
  | .inv => 3 * k
  | .scale => 6 * k + 2 * n
  | .hash => k
  | _ => 0

/-- The operations of the verifier of TIPA with a structured message. -/
def tipaSsmWork (k : ℕ) : Work
  | .mul => 6 * k + 2
  | .inv => 3 * k
  | .scale => 6 * k + 2
  | .miller => 2
  | .finalExp => 2
  | .hash => k + 1
  | .pow => 0

namespace Gipa

variable {ρ F MA MB T KA KB KT OA OB OT : Type} [Field F] [DecidableEq F]
  [AddCommGroup KA] [Module F KA] [AddCommGroup KB] [Module F KB]
  [DecidableEq OA] [DecidableEq OB] [DecidableEq OT]
  [Add OA] [SMul F OA] [Add OB] [SMul F OB] [Add OT] [SMul F OT]
  {P : Gipa ρ F MA MB T KA KB KT OA OB OT} {C : GipaCount MA MB T KA KB KT OA OB OT}

/-- C113: without the counts, the counting verifier is GIPA's verifier. -/
theorem C113_gipa_value (h : C.Of P) (cka : List KA) (ckb : List KB) (ckt : KT)
    (com : Coms OA OB OT) (proof : GipaProof MA MB OA OB OT) :
    (verifyC P C cka ckb ckt com proof).value = P.verify cka ckb ckt com proof :=
  value_verifyC h cka ckb ckt com proof

/-- C113: the work of GIPA's verifier. -/
theorem C113_gipa {ip lmc rmc ipc : Work} (hS : C.Single ip lmc rmc ipc) (cka : List KA)
    (ckb : List KB) (ckt : KT) (com : Coms OA OB OT) (proof : GipaProof MA MB OA OB OT) :
    (verifyC P C cka ckb ckt com proof).Within P.FirstTry
      (gipaWork proof.steps.length cka.length + (ip + lmc + rmc + ipc)) := by
  refine within_of_costs fun o ho => ?_
  unfold verifyC
  split
  · exact ⟨Nat.zero_le _, fun _ h _ => by cases h⟩
  · rename_i hl
    push Not at hl
    refine ((costs_recursiveChallengesC ho com proof).step (m := proof.steps.length * unit .inv o
      + 2 * (2 ^ proof.steps.length - 1) * unit .mul o + 2 * cka.length * unit .scale o
      + (ip o + lmc o + rmc o + ipc o)) fun p hp => ?_).eq ?_
    · rw [value_recursiveChallengesC] at hp
      rw [← (length_of_recursiveChallenges hp).1]
      exact (costs_finalKeysC o cka ckb p.2 hl.2.symm).step fun ks _ =>
        costs_verifyBaseC hS o ks.1 ks.2 ckt p.1 proof
    · cases o <;> simp [unit, gipaWork] <;> ring

/-- C113: the number of products computed by GIPA's verifier depends on the number of rounds of the
proof alone, not on the length of the keys, and they are computed whatever the outcome is. -/
theorem C113_gipa_early {ip lmc rmc ipc : Work} (hS : C.Single ip lmc rmc ipc)
    (h0 : ip .mul = 0 ∧ lmc .mul = 0 ∧ rmc .mul = 0 ∧ ipc .mul = 0) (cka : List KA)
    (ckb : List KB) (h1 : isPow2 cka.length = true) (h2 : cka.length = ckb.length) (ckt : KT)
    (com : Coms OA OB OT) (proof : GipaProof MA MB OA OB OT) {com' : Coms OA OB OT} {tr : List F}
    (hr : P.recursiveChallenges com proof = .ok (com', tr)) :
    (verifyC P C cka ckb ckt com proof).work .mul = 2 * (2 ^ proof.steps.length - 1) := by
  apply le_antisymm
  · have := (C113_gipa (P := P) hS cka ckb ckt com proof .mul (by simp)).1
    simpa [gipaWork, h0] using this
  · obtain ⟨ht, hne⟩ := length_of_recursiveChallenges hr
    unfold verifyC
    rw [if_neg (by simp [← h2, h1]), work_bind_ok ((value_recursiveChallengesC P com proof).trans hr)]
    have hx : (exponentLoopC tr 0 ([1], [1])).value = .ok
        ((tr.map (·⁻¹)).foldl doubleUp [1], tr.foldl doubleUp [1]) := by
      rw [value_exponentLoopC, exponentLoop_eq tr 0 [1] [1] rfl rfl hne]
    have hw := (costs_exponentLoopC .mul tr 0 ([1], [1])).2 _ hx trivial
    have hf : (exponentLoopC tr 0 ([1], [1])).work .mul ≤ (finalKeysC cka ckb tr).work .mul := by
      unfold finalKeysC
      rw [work_bind_ok (x := free (assert (isPow2 cka.length))) (a := ())
        (by rw [value_free, h1]; rfl), work_bind_ok hx]
      simp
    have hb : (finalKeysC cka ckb tr).work .mul ≤ (finalKeysC cka ckb tr >>= fun ks =>
        verifyBaseC C ks.1 ks.2 [ckt] com' proof).work .mul := by
      cases h : (finalKeysC cka ckb tr).value with
      | error e => rw [work_bind_error h]
      | ok a => rw [work_bind_ok h]; simp
    rw [hw] at hf
    simp only [unit, ht, pow_zero, one_mul] at hf
    exact (le_trans (by simpa using hf) hb).trans (Nat.le_add_left _ _)

/-- C113: for every number `k` of rounds there is a proof that costs the verifier `2^(k+1) - 2` products
before it panics, although the keys have length one. -/
theorem C113_gipa_attack {MA MB T OA OB OT : Type} [AddCommGroup MA] [Module F MA]
    [AddCommGroup MB] [Module F MB] [AddCommGroup T] [Module F T]
    [AddCommGroup OA] [Module F OA] [AddCommGroup OB] [Module F OB] [Add OT] [SMul F OT]
    [DecidableEq OA] [DecidableEq OB] [DecidableEq OT]
    {P : Gipa ρ F MA MB T KA KB KT OA OB OT} {C : GipaCount MA MB T KA KB KT OA OB OT}
    {bil : MA →ₗ[F] MB →ₗ[F] T} {φa : MA →ₗ[F] KA →ₗ[F] OA} {φb : MB →ₗ[F] KB →ₗ[F] OB}
    {ψ : KT → T → OT} (L : P.Lawful bil φa φb ψ) (hC : C.Of P) {ip lmc rmc ipc : Work}
    (hS : C.Single ip lmc rmc ipc)
    (h0 : ip .mul = 0 ∧ lmc .mul = 0 ∧ rmc .mul = 0 ∧ ipc .mul = 0)
    (hd : ∀ x, 16 ≤ (P.digest x).length) (hs : P.SearchEnds) (ka : KA) (kb : KB) (ckt : KT)
    (com : Coms OA OB OT) (base : MA × MB) (k : ℕ) :
    ∃ proof : GipaProof MA MB OA OB OT, proof.steps.length = k + 1 ∧
      (verifyC P C [ka] [kb] ckt com proof).value = panic' .assertion ∧
      (verifyC P C [ka] [kb] ckt com proof).work .mul = 2 * (2 ^ (k + 1) - 1) := by
  have hch : ∀ (n : ℕ) (tr : List F), ∃ cs,
      P.chals (List.replicate n ((0, 0, ψ ckt 0), (0, 0, ψ ckt 0))) tr = .ok cs := by
    intro n
    induction n with
    | zero => exact fun tr => ⟨tr, rfl⟩
    | succ n ih =>
      intro tr
      obtain ⟨c, -, hc⟩ := challenge_of_ends L hd hs (tr.getLast?.getD 0) (0, 0, ψ ckt 0)
        (0, 0, ψ ckt 0) ⟨_, _, rfl⟩ ⟨_, _, rfl⟩
      obtain ⟨cs, h⟩ := ih (tr ++ [c])
      refine ⟨cs, ?_⟩
      rw [List.replicate_succ, chals]
      simp only [hc, ok_bind]
      exact h
  obtain ⟨cs, hcs⟩ := hch (k + 1) []
  let proof : GipaProof MA MB OA OB OT :=
    ⟨List.replicate (k + 1) ((0, 0, ψ ckt 0), (0, 0, ψ ckt 0)), base⟩
  have hl : proof.steps.length = k + 1 := List.length_replicate
  have hr : P.recursiveChallenges com proof
      = .ok (foldMany proof.steps.reverse cs com, cs.reverse) := by
    simp only [recursiveChallenges, recLoop_eq, proof, List.reverse_replicate, hcs]
    rfl
  refine ⟨proof, hl, ?_, ?_⟩
  · obtain ⟨ht, hne⟩ := length_of_recursiveChallenges hr
    rw [value_verifyC hC, verify, if_neg (by simp [isPow2, countOnes]), hr, ok_bind]
    have : finalKeys [ka] [kb] cs.reverse = panic' .assertion := by
      refine finalKeys_wrong _ _ _ ?_ hne
      rw [ht, hl, List.length_singleton]
      have := Nat.one_le_two_pow (n := k)
      rw [pow_succ]
      omega
    simp only [this]
    rfl
  · rw [C113_gipa_early hS h0 [ka] [kb] (by simp [isPow2, countOnes]) rfl ckt com proof hr, hl]

end Gipa

namespace Tipa

variable {ρ F MA MB T KT OA OB OT G1 G2 GT TF : Type} [Field F] [DecidableEq F]
  [AddCommGroup G1] [Module F G1] [AddCommGroup G2] [Module F G2]
  [DecidableEq GT] [DecidableEq OA] [DecidableEq OB] [DecidableEq OT]
  [Add OA] [SMul F OA] [Add OB] [SMul F OB] [Add OT] [SMul F OT]
  {V : TipaEnv F G1 G2 GT TF} {P : Gipa ρ F MA MB T G2 G1 KT OA OB OT}
  {C : GipaCount MA MB T G2 G1 KT OA OB OT}

/-- C113: without the counts, the counting verifier is TIPA's verifier. -/
theorem C113_tipa_value (h : C.Of P) (v : VerifierSRS G1 G2) (ckt : KT) (com : Coms OA OB OT)
    (proof : TipaProof G1 G2 MA MB OA OB OT) (r : F) :
    (verifyWithShiftC V P C v ckt com proof r).value = verifyWithShift V P v ckt com proof r :=
  value_verifyWithShiftC V h v ckt com proof r

omit [DecidableEq GT] in
theorem costs_kzgChallengeC {o : Op}
    (digest : Bytes → Bytes)
    (h : o = .hash ∨ o = .inv → ∀ x, V.fromRandomBytes (digest x) ≠ none)
    (serF : F → Bytes) (tr : List F) (cka : G2) (ckb : G1) :
    (kzgChallengeC V digest serF tr cka ckb).Costs o (unit .hash o) fun _ => True := by
  refine (costs_searchNonceC o (n := 0) (fun i => ((costs_free o _ _).step fun _ _ =>
    costs_pure o _ _).eq (by simp)) ?_ _).eq (by simp)
  by_cases ho : o = .hash
  · right
    intro hv
    obtain ⟨t, -, hv⟩ := value_bind_eq_ok hv
    exact h (Or.inl ho) _ (Except.ok.inj hv)
  · exact Or.inl ⟨if_neg ho, rfl⟩

theorem costs_verifyWithShiftC {o : Op} (ho : o = .hash ∨ o = .inv → P.FirstTry)
    (ho' : o = .hash ∨ o = .inv → ∀ x, V.fromRandomBytes (P.digest x) ≠ none)
    {ip lmc rmc ipc : Work} (hS : C.Single ip lmc rmc ipc) (v : VerifierSRS G1 G2) (ckt : KT)
    (com : Coms OA OB OT) (proof : TipaProof G1 G2 MA MB OA OB OT) (r : F) :
    (verifyWithShiftC V P C v ckt com proof r).Costs o
      (tipaWork proof.gipa.steps.length o + (ip o + lmc o + rmc o + ipc o)) (· = true) := by
  refine ((Gipa.costs_recursiveChallengesC ho com proof.gipa).step
    (m := proof.gipa.steps.length * unit .inv o + (unit .hash o + unit .inv o
      + 2 * ((3 * proof.gipa.steps.length + 2) * unit .mul o + 2 * unit .scale o
        + 2 * unit .miller o + 2 * unit .finalExp o) + (ip o + lmc o + rmc o + ipc o)))
    fun p hp => ?_).eq ?_
  · rw [Gipa.value_recursiveChallengesC] at hp
    rw [← (Gipa.length_of_recursiveChallenges hp).1]
    refine (costs_invertAllC o p.2).step fun tri htri => ?_
    have hlen : tri.length = p.2.length := length_of_mapM ((value_invertAllC p.2).symm.trans htri)
    refine ((costs_kzgChallengeC _ ho' _ _ _ _).step fun c _ => (costs_inverseC o r).step fun ri _ =>
      (costs_free o _ _).step fun ri' _ => (costs_verifyKeyOpeningG2C o _ _ _ _ _ _ _).step
      fun b1 _ => (costs_verifyKeyOpeningG1C o _ _ _ _ _ _ _).step fun b2 _ =>
      (Gipa.costs_verifyBaseC hS o _ _ ckt p.1 proof.gipa).bind (Q := (· = true))
        (fun b3 _ => costs_pure o _ _) fun b3 b _ hb hb' => ?_).eq ?_
    · simp only [value_pure, Except.ok.injEq] at hb
      subst hb'
      simp only [Bool.and_eq_true] at hb
      exact hb.2
    · rw [hlen]
      ring
  · cases o <;> simp [unit, tipaWork] <;> ring

/-- C113: the work of TIPA's verifier: logarithmic, and four pairings apart from the final check. -/
theorem C113_tipa {ip lmc rmc ipc : Work} (hS : C.Single ip lmc rmc ipc) (v : VerifierSRS G1 G2)
    (ckt : KT) (com : Coms OA OB OT) (proof : TipaProof G1 G2 MA MB OA OB OT) (r : F) :
    (verifyWithShiftC V P C v ckt com proof r).Within
      (P.FirstTry ∧ ∀ x, V.fromRandomBytes (P.digest x) ≠ none)
      (tipaWork proof.gipa.steps.length + (ip + lmc + rmc + ipc)) :=
  within_of_costs fun _ ho => costs_verifyWithShiftC (fun h => (ho h).1) (fun h => (ho h).2) hS v ckt
    com proof r

end Tipa

namespace GipaSsm

variable {ρ F MA T KA KT OA OT : Type} [Field F] [DecidableEq F]
  [AddCommGroup KA] [Module F KA]
  [DecidableEq OA] [DecidableEq OT] [Add OA] [SMul F OA] [Add OT] [SMul F OT]
  {P : Gipa ρ F MA F T KA Placeholder KT OA F OT} {C : GipaCount MA F T KA Placeholder KT OA F OT}

/-- C113: without the counts, the counting verifier is the verifier of the structured-message
argument. -/
theorem C113_gipa_ssm_value (X : Exec) (h : C.Of P) (cka : List KA) (ckt : KT) (comA : OA) (comT : OT)
    (b : F) (proof : GipaProof MA F OA F OT) :
    (verifyC X P C cka ckt comA comT b proof).value = verify X P cka ckt comA comT b proof :=
  value_verifyC X h cka ckt comA comT b proof

theorem costs_verifyC {o : Op} (ho : o = .hash ∨ o = .inv → P.FirstTry) (X : Exec)
    {ip lmc rmc ipc : Work} (hS : C.Single ip lmc rmc ipc) (cka : List KA) (ckt : KT) (comA : OA)
    (comT : OT) (b : F) (proof : GipaProof MA F OA F OT) :
    (verifyC X P C cka ckt comA comT b proof).Costs o
      (gipaSsmWork proof.steps.length cka.length o
        + (2 * ip o + 2 * lmc o + rmc o + 2 * ipc o)) (· = true) := by
  refine ((Gipa.costs_recursiveChallengesC ho _ proof).step
    (m := proof.steps.length * unit .inv o + 2 * (2 ^ proof.steps.length - 1) * unit .mul o
        + 2 * cka.length * unit .scale o + ((ip o + lmc o + rmc o + ipc o)
        + (proof.steps.length * unit .inv o + 3 * proof.steps.length * unit .mul o
        + (ip o + (lmc o + ipc o))))) fun p hp => ?_).eq ?_
  · rw [Gipa.value_recursiveChallengesC] at hp
    rw [← (Gipa.length_of_recursiveChallenges hp).1]
    refine (costs_finalKeysC o cka _ p.2 (by simp)).step fun ks _ =>
      (Gipa.costs_verifyBaseC hS o ks.1 ks.2 ckt p.1 proof).bind (Q := (· = true)) (fun b1 _ =>
      (costs_finalScalarC o X p.2 b).step fun bb _ => (hS.ip o _ _).step fun t _ =>
      costs_and_pure b1 (costs_verifyCommitmentC (hS.lmc o _ _) _ _)
        (costs_verifyCommitmentC (hS.ipc o _ _) _ _)) ?_
    intro b1 b _ hb hb'
    subst hb'
    obtain ⟨_, -, hb⟩ := value_bind_eq_ok hb
    obtain ⟨_, -, hb⟩ := value_bind_eq_ok hb
    exact and_pure_eq_ok hb
  · cases o <;> simp [unit, gipaSsmWork] <;> ring

/-- C113: the work of the verifier of the structured-message argument. -/
theorem C113_gipa_ssm (X : Exec) {ip lmc rmc ipc : Work} (hS : C.Single ip lmc rmc ipc)
    (cka : List KA) (ckt : KT) (comA : OA) (comT : OT) (b : F) (proof : GipaProof MA F OA F OT) :
    (verifyC X P C cka ckt comA comT b proof).Within P.FirstTry
      (gipaSsmWork proof.steps.length cka.length
        + (2 • ip + 2 • lmc + rmc + 2 • ipc)) :=
  within_of_costs fun _ ho => costs_verifyC ho X hS cka ckt comA comT b proof

end GipaSsm

namespace TipaSsm

variable {ρ F MA T KT OA OT G1 G2 GT TF : Type} [Field F] [DecidableEq F]
  [AddCommGroup G1] [Module F G1] [AddCommGroup G2] [Module F G2]
  [DecidableEq GT] [DecidableEq OA] [DecidableEq OT] [Add OA] [SMul F OA] [Add OT] [SMul F OT]
  {V : TipaEnv F G1 G2 GT TF} {P : Gipa ρ F MA F T G2 Placeholder KT OA F OT}
  {C : GipaCount MA F T G2 Placeholder KT OA F OT}

/-- C113: without the counts, the counting verifier is the verifier of TIPA with a structured
message. -/
theorem C113_tipa_ssm_value (X : Exec) (h : C.Of P) (v : VerifierSRS G1 G2) (ckt : KT) (comA : OA)
    (comT : OT) (b : F) (proof : TipaSsmProof F G2 MA OA OT) :
    (verifyC X V P C v ckt comA comT b proof).value = verify X V P v ckt comA comT b proof :=
  value_verifyC X V h v ckt comA comT b proof

omit [DecidableEq GT] in
theorem costs_kzgChallengeC {o : Op}
    (digest : Bytes → Bytes)
    (h : o = .hash ∨ o = .inv → ∀ x, V.fromRandomBytes (digest x) ≠ none)
    (serF : F → Bytes) (tr : List F) (cka : G2) :
    (kzgChallengeC V digest serF tr cka).Costs o (unit .hash o) fun _ => True := by
  refine (costs_searchNonceC o (n := 0) (fun i => ((costs_free o _ _).step fun _ _ =>
    costs_pure o _ _).eq (by simp)) ?_ _).eq (by simp)
  by_cases ho : o = .hash
  · right
    intro hv
    obtain ⟨t, -, hv⟩ := value_bind_eq_ok hv
    exact h (Or.inl ho) _ (Except.ok.inj hv)
  · exact Or.inl ⟨if_neg ho, rfl⟩

theorem costs_verifyC {o : Op} (ho : o = .hash ∨ o = .inv → P.FirstTry)
    (ho' : o = .hash ∨ o = .inv → ∀ x, V.fromRandomBytes (P.digest x) ≠ none) (X : Exec)
    {ip lmc rmc ipc : Work} (hS : C.Single ip lmc rmc ipc) (v : VerifierSRS G1 G2) (ckt : KT)
    (comA : OA) (comT : OT) (b : F) (proof : TipaSsmProof F G2 MA OA OT) :
    (verifyC X V P C v ckt comA comT b proof).Costs o
      (tipaSsmWork proof.gipa.steps.length o + (ip o + lmc o + ipc o)) (· = true) := by
  refine ((Gipa.costs_recursiveChallengesC ho _ proof.gipa).step
    (m := proof.gipa.steps.length * unit .inv o + (unit .hash o
      + ((3 * proof.gipa.steps.length + 2) * unit .mul o + 2 * unit .scale o
        + 2 * unit .miller o + 2 * unit .finalExp o)
      + (proof.gipa.steps.length * unit .inv o + 3 * proof.gipa.steps.length * unit .mul o
        + (ip o + (lmc o + ipc o))))) fun p hp => ?_).eq ?_
  · rw [Gipa.value_recursiveChallengesC] at hp
    rw [← (Gipa.length_of_recursiveChallenges hp).1]
    refine (costs_invertAllC o p.2).step fun tri htri => ?_
    have hlen : tri.length = p.2.length := length_of_mapM ((value_invertAllC p.2).symm.trans htri)
    refine ((costs_kzgChallengeC _ ho' _ _ _).step fun c _ =>
      (costs_verifyKeyOpeningG2C o _ _ _ _ _ _ _).step fun b1 _ =>
      (costs_finalScalarC o X p.2 b).step fun bb _ => (hS.ip o _ _).step fun t _ =>
      costs_and_pure b1 (costs_verifyCommitmentC (hS.lmc o _ _) _ _)
        (costs_verifyCommitmentC (hS.ipc o _ _) _ _)).eq ?_
    rw [hlen]
    ring
  · cases o <;> simp [unit, tipaSsmWork] <;> ring

/-- C113: the work of the verifier of TIPA with a structured message. -/
theorem C113_tipa_ssm (X : Exec) {ip lmc rmc ipc : Work} (hS : C.Single ip lmc rmc ipc)
    (v : VerifierSRS G1 G2) (ckt : KT) (comA : OA) (comT : OT) (b : F)
    (proof : TipaSsmProof F G2 MA OA OT) :
    (verifyC X V P C v ckt comA comT b proof).Within
      (P.FirstTry ∧ ∀ x, V.fromRandomBytes (P.digest x) ≠ none)
      (tipaSsmWork proof.gipa.steps.length + (ip + lmc + ipc)) :=
  within_of_costs fun _ ho => costs_verifyC (fun h => (ho h).1) (fun h => (ho h).2) X hS v ckt comA
    comT b proof

end TipaSsm

section Applications
variable {ρ F G1 G2 GT TF : Type} [Field F] [DecidableEq F]
  [AddCommGroup G1] [Module F G1] [AddCommGroup G2] [Module F G2] [Monoid TF]

/-- One pairing. -/
def pairingWork : Work
  | .miller => 1
  | .finalExp => 1
  | _ => 0

theorem costs_pairing_one (E : Engine G1 G2 GT TF) (X : Exec) (a : G1) (b : G2) (o : Op) :
    (pairingIPC E X [a] [b]).Costs o (pairingWork o) fun _ => True :=
  (costs_pairingIPC o E X [a] [b] rfl).eq (by cases o <;> rfl)

theorem pairingABC_single (V : Env ρ F G1 G2 GT TF) :
    V.pairingABC.Single pairingWork pairingWork pairingWork 0 :=
  ⟨fun o a b => costs_pairing_one V.E V.X a b o, fun o k m => costs_pairing_one V.E V.X m k o,
    fun o k m => costs_pairing_one V.E V.X k m o, fun o _ _ => costs_pure o _ _⟩

theorem multiexpSsmC_single (V : Env ρ F G1 G2 GT TF) :
    V.multiexpSsmC.Single (unit .scale) pairingWork 0 0 :=
  ⟨fun o a b => (costs_multiexpIPC o [a] [b] rfl).eq (by simp),
    fun o k m => costs_pairing_one V.E V.X m k o, fun o _ _ => costs_pure o _ _,
    fun o _ _ => costs_pure o _ _⟩

theorem scalarSsmC_single (V : Env ρ F G1 G2 GT TF) :
    V.scalarSsmC.Single (unit .mul) (unit .scale) 0 0 :=
  ⟨fun o a b => (costs_scalarIPC o V.X [a] [b]).eq (by simp),
    fun o k m => (costs_multiexpIPC o [k] [m] rfl).eq (by simp),
    fun o _ _ => costs_pure o _ _, fun o _ _ => costs_pure o _ _⟩

variable [AddCommGroup GT] [Module F GT] [DecidableEq GT] [DecidableEq G1]

/-- The operations of the verifier of the polynomial commitment scheme for a proof with `k` rounds. -/
def bivariateWork (k : ℕ) : Work
  | .mul => 6 * k + 2
  | .inv => 3 * k
  | .scale => 6 * k + 5
  | .miller => 5
  | .finalExp => 5
  | .hash => k + 1
  | .pow => 0

/-- The operations of the verifier of the transparent polynomial commitment scheme for proofs with `k₂`
and `k₁` rounds and keys of length `n₂` and `n₁`. -/
def transparentWork (k₂ n₂ k₁ n₁ : ℕ) : Work
  | .mul => 2 * (2 ^ k₂ - 1) + 3 * k₂ + 2 * (2 ^ k₁ - 1) + 3 * k₁ + 2
  | .inv => 3 * k₂ + 3 * k₁
  | .scale => 6 * k₂ + 2 * n₂ + 6 * k₁ + 2 * n₁ + 4
  | .miller => 2
  | .finalExp => 2
  | .hash => k₂ + k₁
  | .pow => 0

/-- The operations of the verifier of an aggregate proof with `k` and `k'` rounds for `n` proofs with
`l` public inputs. -/
def aggregateWork (k k' n l : ℕ) : Work
  | .mul => 6 * k + 6 * k' + 7 + (n - 1) + l * n
  | .inv => 2 * k + 3 * k' + 2
  | .pow => 1
  | .scale => 6 * k + 6 * k' + 9 + l
  | .miller => 13
  | .finalExp => 13
  | .hash => k + k' + 3

/-- C113: without the counts, the counting verifier is that of the polynomial commitment scheme. -/
theorem C113_bivariate_value (V : Env ρ F G1 G2 GT TF) (v : VerifierSRS G1 G2) (com : GT)
    (point : F × F) (eval : F) (proof : PcProof F G1 G2 GT) :
    (Bivariate.verifyC V v com point eval proof).value
      = Bivariate.verify V v com point eval proof :=
  Bivariate.value_verifyC V v com point eval proof

/-- C113: the work of the verifier of the polynomial commitment scheme: five pairings, and otherwise
linear in the number of rounds. -/
theorem C113_bivariate (V : Env ρ F G1 G2 GT TF) (v : VerifierSRS G1 G2) (com : GT)
    (point : F × F) (eval : F) (proof : PcProof F G1 G2 GT) :
    (Bivariate.verifyC V v com point eval proof).Within
      (V.multiexpSsm.FirstTry ∧ ∀ x, V.fromRandomBytes (V.digest x) ≠ none)
      (bivariateWork proof.ip.gipa.steps.length) := by
  refine within_of_costs fun o ho => ?_
  refine ((TipaSsm.costs_verifyC (fun h => (ho h).1) (fun h => (ho h).2) V.X
    (multiexpSsmC_single V) v PUnit.unit com _ point.1 proof.ip).bind (fun b1 _ =>
    (Kzg.costs_verifyC o V.E v _ _ _ _).step fun b2 _ => costs_pure o _ _) ?_).eq ?_
  · intro b1 b _ hb hb'
    subst hb'
    obtain ⟨_, -, hb⟩ := value_bind_eq_ok hb
    simp only [value_pure, Except.ok.injEq, Bool.and_eq_true] at hb
    exact hb.1
  · cases o <;> simp [unit, tipaSsmWork, bivariateWork, pairingWork]

/-- C113: without the counts, the counting verifier is that of the transparent scheme. -/
theorem C113_transparent_value (V : Env ρ F G1 G2 GT TF) (ck : List G1 × List G2) (com : GT)
    (point : F × F) (eval : F) (proof : TpcProof F G1 GT) :
    (TBivariate.verifyC V ck com point eval proof).value
      = TBivariate.verify V ck com point eval proof :=
  TBivariate.value_verifyC V ck com point eval proof

/-- C113: the work of the verifier of the transparent polynomial commitment scheme. -/
theorem C113_transparent (V : Env ρ F G1 G2 GT TF) (ck : List G1 × List G2) (com : GT)
    (point : F × F) (eval : F) (proof : TpcProof F G1 GT) :
    (TBivariate.verifyC V ck com point eval proof).Within
      (V.multiexpSsm.FirstTry ∧ V.scalarSsm.FirstTry)
      (transparentWork proof.second.steps.length ck.2.length proof.first.steps.length
        ck.1.length) := by
  refine within_of_costs fun o ho => ?_
  refine ((GipaSsm.costs_verifyC (fun h => (ho h).1) V.X (multiexpSsmC_single V) ck.2 PUnit.unit com
    _ point.1 proof.second).bind (fun b1 _ => (GipaSsm.costs_verifyC (fun h => (ho h).2) V.X
    (scalarSsmC_single V) ck.1 PUnit.unit _ _ point.2 proof.first).bind (Q := (· = true))
    (fun b2 _ => costs_pure o _ _) ?_) ?_).eq ?_
  · intro b2 b _ hb hb'
    subst hb'
    simp only [value_pure, Except.ok.injEq, Bool.and_eq_true] at hb
    exact hb.2
  · intro b1 b _ hb hb'
    subst hb'
    obtain ⟨_, -, hb⟩ := value_bind_eq_ok hb
    simp only [value_pure, Except.ok.injEq, Bool.and_eq_true] at hb
    exact hb.1
  · cases o <;> simp [unit, gipaSsmWork, transparentWork, pairingWork] <;> ring

/-- C113: without the counts, the counting verifier is that of aggregate proofs. -/
theorem C113_aggregate_value (V : Env ρ F G1 G2 GT TF) (v : VerifierSRS G1 G2) (vk : G16VK G1 G2)
    (inputs : List (List F)) (proof : AggProof F G1 G2 GT) :
    (Groth16.verifyC V v vk inputs proof).value = Groth16.verify V v vk inputs proof :=
  Groth16.value_verifyC V v vk inputs proof

theorem costs_verifyPpeC (o : Op) (V : Env ρ F G1 G2 GT TF) (vk : G16VK G1 G2)
    (inputs : List (List F)) (r : F) (ipAB : GT) (aggC : G1) :
    (Groth16.verifyPpeC V vk inputs r ipAB aggC).Costs o
      (unit .pow o + unit .inv o + (1 + (inputs.length - 1)
        + (vk.gammaAbc.length - 1) * inputs.length) * unit .mul o
        + (vk.gammaAbc.length - 1 + 2) * unit .scale o + 3 * unit .miller o
        + 3 * unit .finalExp o) fun _ => True :=
  ((costs_tick .pow o 1 _).step fun _ _ => (costs_inverseC o _).step fun _ _ =>
    (costs_free o _ _).step fun _ _ => (costs_mulC o _ _).step fun _ _ => (costs_smulC o _ _).step
    fun _ _ => (costs_pairingC o _ _ _).step fun _ _ => (costs_free o _ _).step fun _ _ =>
    (costs_free o _ _).step fun _ _ => (costs_structuredScalarPowerC o _ _).step fun _ _ =>
    (costs_free o _ _).step fun _ _ => (costs_smulC o _ _).step fun _ _ =>
    (Groth16.costs_inputLoopC o V.X inputs _ _ _ _).step fun _ _ =>
    (costs_pairingC o _ _ _).step fun _ _ => (costs_pairingC o _ _ _).step fun _ _ =>
    costs_pure o _ _).eq (by
      rw [List.length_drop, show (if o = Op.pow then 1 else 0) = unit .pow o from rfl]
      ring)

omit [AddCommGroup GT] [Module F GT] [DecidableEq GT] [DecidableEq G1] in
theorem costs_challengeC {o : Op} (V : Env ρ F G1 G2 GT TF)
    (h : o = .hash ∨ o = .inv → ∀ x, V.fromRandomBytes (V.digest x) ≠ none) (a b c : GT) :
    (Groth16.challengeC V a b c).Costs o (unit .hash o) fun _ => True := by
  refine (costs_searchNonceC o (n := 0) (fun i => costs_free o _ _) ?_ _).eq (by simp)
  by_cases ho : o = .hash
  · exact Or.inr fun hv => h (Or.inl ho) _ (Except.ok.inj hv)
  · exact Or.inl ⟨if_neg ho, rfl⟩

/-- C113: the work of the verifier of an aggregate proof: thirteen pairings however many proofs are
aggregated. -/
theorem C113_aggregate (V : Env ρ F G1 G2 GT TF) (v : VerifierSRS G1 G2) (vk : G16VK G1 G2)
    (inputs : List (List F)) (proof : AggProof F G1 G2 GT) :
    (Groth16.verifyC V v vk inputs proof).Within
      ((V.pairingAB.FirstTry ∧ V.multiexpSsm.FirstTry) ∧ ∀ x, V.fromRandomBytes (V.digest x) ≠ none)
      (aggregateWork proof.proofAB.gipa.steps.length proof.proofC.gipa.steps.length inputs.length
        (vk.gammaAbc.length - 1)) := by
  refine within_of_costs fun o ho => ?_
  refine ((costs_challengeC V (fun h => (ho h).2) _ _ _).step fun r _ =>
    (Tipa.costs_verifyWithShiftC (fun h => (ho h).1.1) (fun h => (ho h).2) (pairingABC_single V) v
      PUnit.unit _ proof.proofAB r).bind (fun b1 _ => (TipaSsm.costs_verifyC (fun h => (ho h).1.2)
      (fun h => (ho h).2) V.X (multiexpSsmC_single V) v PUnit.unit proof.comC _ r proof.proofC).bind
      (fun b2 _ => (costs_verifyPpeC o V vk inputs r proof.ipAB proof.aggC).step fun b3 _ =>
        costs_pure o _ _) ?_) ?_).eq ?_
  · intro b2 b _ hb hb'
    subst hb'
    obtain ⟨_, -, hb⟩ := value_bind_eq_ok hb
    simp only [value_pure, Except.ok.injEq, Bool.and_eq_true] at hb
    exact hb.1.2
  · intro b1 b _ hb hb'
    subst hb'
    obtain ⟨_, -, hb⟩ := value_bind_eq_ok hb
    obtain ⟨_, -, hb⟩ := value_bind_eq_ok hb
    simp only [value_pure, Except.ok.injEq, Bool.and_eq_true] at hb
    exact hb.1.1
  · cases o <;> simp [unit, tipaWork, tipaSsmWork, aggregateWork, pairingWork] <;>
      ring

end Applications

namespace Sipp
variable {σ F G1 G2 GT TF : Type} [Field F] [DecidableEq F] [AddCommGroup G1] [Module F G1]
  [AddCommGroup G2] [Module F G2] [AddCommGroup GT] [Module F GT] [DecidableEq GT]

/-- The operations of SIPP's verifier for a proof with `k` rounds, that is for `2^k` pairs. -/
def sippWork (k : ℕ) : Work
  | .mul => (k + 1) * 2 ^ k
  | .inv => k
  | .scale => 2 * k + 2 * 2 ^ k
  | .miller => 1
  | .finalExp => 1
  | .hash => k + 1
  | .pow => 0

/-- C113: without the counts, the counting verifier is SIPP's verifier. -/
theorem C113_sipp_value (V : Env σ F G1 G2 GT TF) (a : List G1) (b : List G2) (r : List F)
    (value : GT) (proof : List (GT × GT)) :
    (verifyC V a b r value proof).value = verify V a b r value proof :=
  value_verifyC V a b r value proof

theorem costs_challengesC (o : Ripp.Op) (V : Env σ F G1 G2 GT TF) (rng : Rng σ) (zs : List (GT × GT)) :
    (challengesC V rng zs : Counted (List F)).Costs o (zs.length * unit .hash o) fun _ => True := by
  induction zs generalizing rng with
  | nil => exact (costs_pure o _ _).eq (by simp)
  | cons z zs ih =>
    refine ((costs_tick .hash o 1 _).step fun _ _ => (ih _).step fun _ _ => costs_pure o _ _).eq ?_
    rw [List.length_cons, show (if o = Ripp.Op.hash then 1 else 0) = unit .hash o from rfl]
    ring

theorem costs_scalePassC (o : Ripp.Op) (bit : ℕ) (x : F) (i : ℕ) (vs : List F) :
    (scalePassC bit x i vs).Costs o
      (((List.range' i vs.length).filter (·.testBit bit)).length * unit .mul o) fun _ => True := by
  induction vs generalizing i with
  | nil => exact (costs_pure o _ _).eq (by simp)
  | cons v vs ih =>
    unfold scalePassC
    rw [List.length_cons, List.range'_succ, List.filter_cons]
    split <;> rename_i hb
    · refine ((costs_mulC o _ _).step fun _ _ => (ih _).step fun _ _ => costs_pure o _ _).eq ?_
      rw [List.length_cons]
      ring
    · refine ((costs_pure o _ _).step fun _ _ => (ih _).step fun _ _ => costs_pure o _ _).eq ?_
      simp

/-- Half of the numbers below `2^k` have a given bit. -/
theorem length_filter_testBit (k bit : ℕ) (h : bit < k) :
    2 * ((List.range (2 ^ k)).filter (·.testBit bit)).length = 2 ^ k := by
  induction k with
  | zero => omega
  | succ k ih =>
    rw [pow_succ, Nat.mul_two, List.range_add, List.filter_append, List.length_append,
      List.filter_map, List.length_map]
    by_cases hk : bit = k
    · subst hk
      have h1 : (List.range (2 ^ bit)).filter (·.testBit bit) = [] := by
        rw [List.filter_eq_nil_iff]
        intro i hi
        rw [Nat.testBit_lt_two_pow (List.mem_range.mp hi)]
        simp
      have h2 : (List.range (2 ^ bit)).filter ((·.testBit bit) ∘ (2 ^ bit + ·))
          = List.range (2 ^ bit) := by
        rw [List.filter_eq_self]
        intro i hi
        simp only [Function.comp]
        rw [Nat.testBit_two_pow_add_eq, Nat.testBit_lt_two_pow (List.mem_range.mp hi)]
        rfl
      rw [h1, h2, List.length_range, List.length_nil]
      omega
    · have hlt : bit < k := by omega
      have h2 : ((·.testBit bit) ∘ (2 ^ k + ·) : ℕ → Bool) = (·.testBit bit) := by
        funext i
        exact Nat.testBit_two_pow_add_gt hlt i
      rw [h2]
      have := ih hlt
      omega

theorem costs_scalarLoopC (o : Ripp.Op) (n : ℕ) (xs : List F) (j : ℕ) (s : List F)
    (hs : s.length = 2 * 2 ^ n) (hj : j + xs.length ≤ n + 1) :
    (scalarLoopC (n + 1) xs j s).Costs o (xs.length * 2 ^ n * unit .mul o) fun _ => True := by
  induction xs generalizing j s with
  | nil => exact (costs_pure o _ _).eq (by simp)
  | cons x xs ih =>
    rw [List.length_cons] at hj
    refine ((costs_scalePassC o _ x 0 s).step (m := xs.length * 2 ^ n * unit .mul o)
      fun s' hs' => ?_).eq ?_
    · rw [value_scalePassC] at hs'
      cases hs'
      exact ih _ _ (by rw [List.length_mapIdx, hs]) (by omega)
    · have h := length_filter_testBit (n + 1) (n + 1 - j - 1) (by omega)
      have h' : 2 * 2 ^ n = 2 ^ (n + 1) := by rw [pow_succ]; ring
      rw [hs, h', ← List.range_eq_range', show ((List.range (2 ^ (n + 1))).filter
        (·.testBit (n + 1 - j - 1))).length = 2 ^ n by omega, List.length_cons]
      ring

/-- C113: the work of SIPP's verifier: a single pairing, and `2 * 2^k + 2 * k` scalar multiplications. -/
theorem C113_sipp (V : Env σ F G1 G2 GT TF) (a : List G1) (b : List G2) (r : List F) (value : GT)
    (proof : List (GT × GT)) (o : Ripp.Op) :
    (verifyC V a b r value proof).work o ≤ sippWork proof.length o ∧
      ∀ v, (verifyC V a b r value proof).value = .ok v →
        (verifyC V a b r value proof).work o = sippWork proof.length o := by
  suffices h : (verifyC V a b r value proof).Costs o (sippWork proof.length o) fun _ => True from
    ⟨h.1, fun v hv => h.2 v hv trivial⟩
  unfold verifyC
  refine ((costs_free o _ _).step (m := sippWork proof.length o) fun _ _ =>
    ((costs_free o _ _).step (m := sippWork proof.length o) fun _ h2 =>
    ((costs_free o _ _).step (m := sippWork proof.length o) fun _ h3 =>
    ((costs_free o _ _).step (m := sippWork proof.length o) fun _ h4 => ?_).eq
      (Nat.zero_add _)).eq (Nat.zero_add _)).eq (Nat.zero_add _)).eq (Nat.zero_add _)
  have hab : a.length = b.length := by
    by_contra hne
    simp [assert, hne, panic'] at h3
  have hlen : 2 ^ proof.length = a.length := by
    by_contra hne
    simp [assert, hne, panic'] at h4
  have hge : 2 ≤ a.length := by
    by_contra hne
    simp [assert, hne, panic'] at h2
  obtain ⟨n, hn⟩ : ∃ n, proof.length = n + 1 := by
    cases hp : proof.length with
    | zero => rw [hp] at hlen; omega
    | succ n => exact ⟨n, rfl⟩
  have hn2 : a.length = 2 * 2 ^ n := by rw [← hlen, hn, pow_succ]; ring
  refine ((costs_tick .hash o 1 _).step fun _ _ => (costs_challengesC o V _ proof).step
    (m := (n + 1) * unit .inv o + ((n + 1) * (2 * unit .scale o) + ((n + 1) * 2 ^ n * unit .mul o
      + ((n + 1) * 2 ^ n * unit .mul o + (a.length * unit .mul o + (a.length * unit .scale o
      + (a.length * unit .scale o + (unit .miller o + unit .finalExp o + 0))))))))
    fun xs hxs => ?_).eq ?_
  · have hx : xs.length = n + 1 := by
      rw [value_challengesC] at hxs
      cases hxs
      rw [length_challenges, hn]
    have hrep : (List.replicate a.length (1 : F)).length = 2 * 2 ^ n := by
      rw [List.length_replicate, hn2]
    refine (((costs_tick .inv o xs.length _).eq (m := (n + 1) * unit .inv o)
      (by simp [unit, hx])).step fun _ _ => ((costs_mapM (n := 2 * unit .scale o)
        (fun p : (GT × GT) × F × F => ((costs_smulC o _ _).step fun _ _ =>
          (costs_smulC o _ _).step fun _ _ => costs_pure o _ _).eq (by ring)) _).eq
        (m := (n + 1) * (2 * unit .scale o)) (by simp [hx, hn])).step fun terms _ => ?_)
    rw [hn]
    refine ((costs_scalarLoopC o n xs 0 _ hrep (by omega)).eq (by rw [hx])).step fun s hs =>
      ((costs_scalarLoopC o n _ 0 _ hrep (by simp [hx])).eq (by rw [List.length_map, hx])).step
      fun sInvs hsi => ?_
    have hsl : s.length = a.length := by
      rw [value_scalarLoopC] at hs
      cases hs
      rw [length_scalarLoop, hrep, hn2]
    refine Costs.bind (R := fun s' => s'.length = a.length) ⟨?_, ?_⟩ (fun s' _ =>
      (costs_msmC o a s').step fun _ _ => ((costs_msmC o b sInvs).eq (by rw [hab])).step fun _ _ =>
      (costs_pairingC o _ _ _).step fun _ _ => costs_pure o _ _) ?_
    · refine (costs_mapM (fun p : F × F => costs_mulC o p.1 p.2) (s.zip r)).1.trans ?_
      refine Nat.mul_le_mul_right _ ?_
      rw [List.length_zip, hsl]
      exact min_le_left _ _
    · intro s' hs' hl
      rw [(costs_mapM (fun p : F × F => costs_mulC o p.1 p.2) (s.zip r)).2 s' hs' trivial, ← hl]
      rw [length_of_mapM ((value_mapM _ _).symm.trans hs')]
    · intro s' v _ hv _
      obtain ⟨a', ha', -⟩ := value_bind_eq_ok hv
      by_contra hne
      unfold msmC at ha'
      rw [if_pos (fun h => hne h.symm)] at ha'
      cases ha'
  · rw [hn2]
    cases o <;> simp [unit, sippWork, hn, pow_succ] <;> ring

end Sipp

/-! ## Examples -/

theorem Toy.firstTry {MA MB T KA KB KT OA OB OT : Type}
    (P : Gipa ℕ Toy.F MA MB T KA KB KT OA OB OT) (h : P.digest = Toy.digest) : P.FirstTry := by
  intro prev com1 com2
  simp only [Gipa.challengeAttempt, h, Toy.digest]
  decide

theorem Toy.decodes (x : Bytes) : Toy.env.fromRandomBytes (Toy.env.digest x) ≠ none := by
  obtain ⟨c, hc⟩ := Toy.fromRandomBytes_digest x
  exact fun h => Option.some_ne_none c (hc.symm.trans h)

/-- The aggregate of the four toy proofs is checked with 13 pairings. -/
example : ∃ v proof, Groth16.aggregate Toy.env Toy.srs Groth16.toyProofs = .ok proof ∧
    (Groth16.verifyC Toy.env v Groth16.toyVK [[1], [2], [3], [4]] proof).value = .ok true ∧
    (Groth16.verifyC Toy.env v Groth16.toyVK [[1], [2], [3], [4]] proof).work .miller = 13 ∧
    (Groth16.verifyC Toy.env v Groth16.toyVK [[1], [2], [3], [4]] proof).work .hash
      = proof.proofAB.gipa.steps.length + proof.proofC.gipa.steps.length + 3 := by
  obtain ⟨v, proof, -, h2, h3⟩ := Groth16.toy_accepted
  have hv := (C113_aggregate_value Toy.env v Groth16.toyVK [[1], [2], [3], [4]] proof).trans h3
  have hw := C113_aggregate Toy.env v Groth16.toyVK [[1], [2], [3], [4]] proof
  exact ⟨v, proof, h2, hv, (hw .miller (by simp)).2 hv,
    (hw .hash fun _ => ⟨⟨Toy.firstTry _ rfl, Toy.firstTry _ rfl⟩, Toy.decodes⟩).2 hv⟩

/-- The product of four toy pairings is checked with one pairing and 12 scalar multiplications. -/
example : ∃ zs, Sipp.prove Toy.sippEnv [1, 2, 3, 4] [5, 6, 7, 8] [1, 1, 2, 3]
      (Sipp.product Toy.e [1, 2, 3, 4] [5, 6, 7, 8] [1, 1, 2, 3]) = .ok zs ∧
    (Sipp.verifyC Toy.sippEnv [1, 2, 3, 4] [5, 6, 7, 8] [1, 1, 2, 3]
      (Sipp.product Toy.e [1, 2, 3, 4] [5, 6, 7, 8] [1, 1, 2, 3]) zs).work .miller = 1 ∧
    (Sipp.verifyC Toy.sippEnv [1, 2, 3, 4] [5, 6, 7, 8] [1, 1, 2, 3]
      (Sipp.product Toy.e [1, 2, 3, 4] [5, 6, 7, 8] [1, 1, 2, 3]) zs).work .scale = 12 := by
  obtain ⟨zs, h1, h2, h3⟩ := Sipp.C55_complete_total (V := Toy.sippEnv) Toy.lawful
    Sipp.toy_draw_ne_zero 2 (by norm_num) [1, 2, 3, 4] [5, 6, 7, 8] [1, 1, 2, 3] rfl rfl (by decide)
  have hv := (Sipp.C113_sipp_value Toy.sippEnv _ _ _ _ zs).trans h3
  refine ⟨zs, h1, ?_, ?_⟩
  · exact (Sipp.C113_sipp Toy.sippEnv _ _ _ _ zs .miller).2 _ hv
  · rw [(Sipp.C113_sipp Toy.sippEnv _ _ _ _ zs .scale).2 _ hv, h2]
    rfl

/-- A proof with 30 rounds makes the verifier compute more than two thousand million products for keys
of length one. -/
example : ∃ proof : GipaProof Toy.F Toy.F Toy.F Toy.F (IdentityOutput Toy.F),
    proof.steps.length = 30 ∧
    (Gipa.verifyC Toy.env.pairingAB Toy.env.pairingABC [2] [3] PUnit.unit (1, 2, ⟨[3]⟩) proof).value
      = panic' .assertion ∧
    (Gipa.verifyC Toy.env.pairingAB Toy.env.pairingABC [2] [3] PUnit.unit (1, 2, ⟨[3]⟩) proof).work
      .mul = 2147483646 := by
  obtain ⟨proof, h1, h2, h3⟩ := Gipa.C113_gipa_attack (pairingAB_lawful Toy.env Toy.lawful)
    Toy.env.pairingABC_of (pairingABC_single Toy.env) ⟨rfl, rfl, rfl, rfl⟩ Toy.digest_length
    (searchEnds_of_digest _ Toy.digest_length Toy.digest_ne_zero) 2 3 PUnit.unit (1, 2, ⟨[3]⟩) (4, 5)
    29
  exact ⟨proof, h1, h2, h3.trans (by norm_num)⟩

end Ripp
