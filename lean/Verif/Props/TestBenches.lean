import Verif.Props.Tests

/-!
# The benches of the inner product arguments (C106)

`main` of the three bench programs runs through for every seed and size. The benches of GIPA and TIPA discard the
verifier's answer: a verifier that rejects goes unnoticed, while the unit tests stop.
-/

namespace Ripp

open Spec

/-! ## The verdict -/

section
variable {ρ F MA MB T KA KB KT OA OB OT : Type} [Field F] [DecidableEq F]
  [AddCommGroup MA] [Module F MA] [AddCommGroup MB] [Module F MB]
  [AddCommGroup KA] [Module F KA] [AddCommGroup KB] [Module F KB]
  [DecidableEq T] [DecidableEq OA] [DecidableEq OB] [DecidableEq OT]
  [Add OA] [SMul F OA] [Add OB] [SMul F OB] [Add OT] [SMul F OT]

theorem gipaBench_eq (P : Gipa ρ F MA MB T KA KB KT OA OB OT) (randA : ρ → MA × ρ) (randB : ρ → MB × ρ) (n : ℕ)
    (s s' : ρ) (keys : List KA × List KB × KT) (hs : P.setup (drawPairs randA randB n s).2 n = .ok (keys, s')) :
    gipaBench P randA randB n s = (gipaRun P keys (drawPairs randA randB n s).1).map fun _ => s' := by
  rcases hr : drawPairs randA randB n s with ⟨m, s1⟩
  rw [hr] at hs
  simp only at hs
  simp only [gipaBench, hr, hs, unwrapRes_ok, ok_bind]
  cases gipaRun P keys m <;> rfl

end

/-- A commitment that is always zero. -/
def zeroCom : Commitment ℕ Toy.F Toy.F Toy.F where
  setup s n := .ok (List.replicate n 0, s)
  commit _ _ := .ok 0

/-- An argument for an `inner product` that is always 1, hence not bilinear: the verifier rejects the prover. -/
def wrongGipa : Gipa ℕ Toy.F Toy.F Toy.F Toy.F Toy.F Toy.F Placeholder Toy.F Toy.F (IdentityOutput Toy.F) :=
  { Toy.env.pairingAB with ip := fun _ _ => .ok 1, lmc := zeroCom, rmc := zeroCom }

theorem wrongGipa_challenge (p : Toy.F) (c d : Coms Toy.F Toy.F (IdentityOutput Toy.F)) :
    wrongGipa.challenge p c d = .ok (34, 3) := by
  have h0 : ((beNat ((Toy.digest (wrongGipa.hashInput 0 p c d)).take 16) : ℕ) : Toy.F) = 3 := by
    simp only [Toy.digest]; decide
  have hi : inverse (3 : Toy.F) = some 34 := by
    rw [inverse_of_ne (by decide), inv_eq_of_mul_eq_one_right (by decide : (3 : Toy.F) * 34 = 1)]
  have : wrongGipa.challengeAttempt p c d 0 = .ok (some (34, 3)) := by
    have hlt : ¬ (wrongGipa.digest (wrongGipa.hashInput 0 p c d)).length < 16 :=
      Nat.not_lt.mpr (Toy.digest_length (wrongGipa.hashInput 0 p c d))
    simp only [Gipa.challengeAttempt, if_neg hlt]
    rw [show wrongGipa.digest = Toy.digest from rfl, h0, hi]
  rw [Gipa.challenge, show nonceLimit = (nonceLimit - 1) + 1 by decide, searchNonce, this]

theorem wrongGipa_run (m : List Toy.F × List Toy.F) (h1 : m.1.length = 2) (h2 : m.2.length = 2) :
    gipaRun wrongGipa ([0, 0], [0, 0], PUnit.unit) m = .ok false := by
  have p2 : isPow2 2 = true := by simp [isPow2, countOnes]
  obtain ⟨a, b⟩ := m
  match a, h1, b, h2 with
  | [a1, a2], _, [b1, b2], _ =>
    have hr : wrongGipa.proveRound [PUnit.unit] ⟨[a1, a2], [b1, b2], [0, 0], [0, 0], [], []⟩ =
        .ok ⟨[34 * a2 + a1], [3 * b2 + b1], [0], [0], [((0, 0, ⟨[1]⟩), (0, 0, ⟨[1]⟩))], [34]⟩ := by
      simp [Gipa.proveRound, sliceFrom, sliceTo, wrongGipa_challenge, show wrongGipa.ip = fun _ _ => .ok 1 from rfl,
        show wrongGipa.lmc = zeroCom from rfl, show wrongGipa.rmc = zeroCom from rfl, zeroCom,
        show wrongGipa.ipc = identityCommitment from rfl, identityCommitment]
    have hp : wrongGipa.proveWithAux [a1, a2] [b1, b2] [0, 0] [0, 0] [PUnit.unit] =
        .ok (⟨[((0, 0, ⟨[1]⟩), (0, 0, ⟨[1]⟩))], (34 * a2 + a1, 3 * b2 + b1)⟩, ⟨[34], (0, 0)⟩) := by
      rw [Gipa.proveWithAux]
      simp only [List.length_cons, List.length_nil, zero_add, Nat.reduceAdd, p2, assert_true, ok_bind]
      rw [Gipa.proveLoop]
      simp only [List.length_cons, List.length_nil, zero_add, Nat.reduceAdd]
      rw [if_neg (by decide), hr]
      rfl
    have hv : wrongGipa.recursiveChallenges (0, 0, ⟨[1]⟩) ⟨[((0, 0, ⟨[1]⟩), (0, 0, ⟨[1]⟩))],
        ((34 * a2 + a1 : Toy.F), (3 * b2 + b1 : Toy.F))⟩ = .ok ((0, 0, ⟨[38]⟩), [34]) := by
      simp [Gipa.recursiveChallenges, Gipa.recLoop, wrongGipa_challenge, Gipa.foldComs]
      rfl
    have hk : finalKeys [(0 : Toy.F), 0] [(0 : Toy.F), 0] [(34 : Toy.F)] = .ok (0, 0) := by
      simp [finalKeys, p2, exponentLoop, pushScaled, foldKeys, idx, sliceFrom, inverse,
        show (34 : Toy.F) ≠ 0 by decide]
    have hne : ¬ ((⟨[1]⟩ : IdentityOutput Toy.F) = ⟨[38]⟩) := by decide
    simp [gipaRun, Gipa.prove, Gipa.verify, p2, hp, hv, hk, Gipa.verifyBase, Commitment.verify, hne,
      show wrongGipa.ip = fun _ _ => .ok 1 from rfl,
      show wrongGipa.lmc = zeroCom from rfl, show wrongGipa.rmc = zeroCom from rfl, zeroCom,
      show wrongGipa.ipc = identityCommitment from rfl, identityCommitment]

theorem wrongGipa_setup (s : ℕ) : wrongGipa.setup s 2 = .ok (([0, 0], [0, 0], PUnit.unit), s) := rfl

/-- C106: the bench does not notice a rejecting verifier, the unit test does. -/
theorem C106_verdict_ignored :
    gipaTest wrongGipa (drawPairs Toy.rand Toy.rand) 2 0 = panic' .assertion ∧
      gipaBench wrongGipa Toy.rand Toy.rand 2 0 = .ok 4 := by
  constructor
  · rw [gipaTest, wrongGipa_setup]
    simp only [unwrapRes_ok, ok_bind]
    rw [wrongGipa_run _ (length_drawPairs _ _ 2 0).1 (length_drawPairs _ _ 2 0).2]
    rfl
  · rw [gipaBench_eq _ _ _ _ _ _ _ (wrongGipa_setup _),
      wrongGipa_run _ (length_drawPairs _ _ 2 0).1 (length_drawPairs _ _ 2 0).2]
    rfl

/-! ## The bench programs -/

section
variable {ρ F G1 G2 GT TF : Type} [Field F] [DecidableEq F]
  [AddCommGroup G1] [Module F G1]
  [AddCommGroup G2] [Module F G2] [AddCommGroup GT] [Module F GT] [Monoid TF] [DecidableEq G1] [DecidableEq G2]
  [DecidableEq GT] {e : G1 →ₗ[F] G2 →ₗ[F] GT} (V : Env ρ F G1 G2 GT TF)

theorem ipBench_ok {A B T : Type} (ip : List A → List B → Res T) (randA : ρ → A × ρ) (randB : ρ → B × ρ) (n : ℕ)
    (s : ρ) (h : ∀ a b, a.length = b.length → ∃ t, ip a b = .ok t) :
    ipBench ip randA randB n s = .ok (drawPairs randA randB n s).2 := by
  obtain ⟨t, ht⟩ := h _ _ ((length_drawPairs randA randB n s).1.trans (length_drawPairs randA randB n s).2.symm)
  rcases hr : drawPairs randA randB n s with ⟨⟨l, r⟩, s'⟩
  rw [hr] at ht
  simp only [ipBench, hr, ht, unwrapRes_ok, ok_bind, pure_eq_ok]

/-- C106: the bench of the inner products runs through for every seed and every size. -/
theorem C106_inner_products (hE : V.E.Lawful e) (n : ℕ) (s : ρ) : ∃ s', ipBenchMain V n s = .ok s' := by
  rw [ipBenchMain, ipBench_ok _ _ _ _ _ fun a b h => ⟨_, pairingIP_eq hE V.X a b h⟩]
  simp only [ok_bind]
  rw [ipBench_ok _ _ _ _ _ fun a b h => ⟨_, multiexpIP_eq a b h⟩]
  simp only [ok_bind]
  rw [ipBench_ok _ _ _ _ _ fun a b h => ⟨_, multiexpIP_eq a b h⟩]
  exact ⟨_, rfl⟩

theorem map_passes {α : Type} {x : Res Bool} (y : α) (h : x = .error .diverge ∨ x = .ok true) :
    x.map (fun _ => y) = .error .diverge ∨ ∃ z, x.map (fun _ => y) = .ok z := by
  rcases h with h | h
  · left; rw [h]; rfl
  · right; rw [h]; exact ⟨_, rfl⟩

theorem seq_passes {α β : Type} {x : Res α} {f : α → Res β} (h : x = .error .diverge ∨ ∃ s, x = .ok s)
    (h' : ∀ s, x = .ok s → f s = .error .diverge ∨ ∃ t, f s = .ok t) :
    (x >>= f) = .error .diverge ∨ ∃ t, (x >>= f) = .ok t := by
  rcases h with h | ⟨s, h⟩
  · left; rw [h]; rfl
  · rw [h]; exact h' s h

/-- C106: so does the bench of GIPA, for every power of two, unless a challenge search fails. -/
theorem C106_gipa (hE : V.E.Lawful e) (hd : ∀ x, 16 ≤ (V.digest x).length) (k : ℕ) (s : ρ) :
    gipaBenchMain V (2 ^ k) s = .error .diverge ∨ ∃ s', gipaBenchMain V (2 ^ k) s = .ok s' := by
  refine seq_passes ?_ fun s' _ => ?_
  · have l := length_drawPairs V.randG1 V.randG2 (2 ^ k) s
    rw [gipaBench_eq _ _ _ _ _ _ _ (C104_gipa V _ _).1]
    exact map_passes _ (gipaRun_passes (pairingAB_lawful V hE) hd k _ _ _ _ l.1 l.2 (by simp [draws])
      (by simp [draws]))
  · have l := length_drawPairs V.randG1 V.randF (2 ^ k) s'
    rw [gipaBench_eq _ _ _ _ _ _ _ (C104_gipa V _ _).2.1]
    exact map_passes _ (gipaRun_passes (multiexpGipa_lawful V hE) hd k _ _ _ _ l.1 l.2 (by simp [draws])
      (by simp [draws]))

theorem tipaBench_eq {MA MB T OA OB : Type} [AddCommGroup MA] [Module F MA] [AddCommGroup MB] [Module F MB]
    [Add T] [SMul F T] [DecidableEq T] [DecidableEq OA] [DecidableEq OB] [Add OA] [SMul F OA] [Add OB] [SMul F OB]
    (P : Gipa ρ F MA MB T G2 G1 Placeholder OA OB (IdentityOutput T)) (hP : P.ipc = identityCommitment)
    (randA : ρ → MA × ρ) (randB : ρ → MB × ρ) (n : ℕ) (hn : 1 ≤ n) (s : ρ) :
    ∃ (srs : SRS G1 G2) (α β : F), IsSrs srs V.g V.h α β n ∧
      tipaBench V P randA randB n s = (tipaRun V P srs PUnit.unit (drawPairs randA randB n s).1).map fun _ =>
        after V.randF (drawPairs randA randB n s).2 2 := by
  rcases hr : drawPairs randA randB n s with ⟨m, s1⟩
  obtain ⟨srs, s', h, rfl, hs⟩ := tipaSetup_identity V (T := T) s1 n hn
  refine ⟨srs, _, _, hs, ?_⟩
  simp only [tipaBench, hr, hP, h, unwrapRes_ok, ok_bind]
  cases tipaRun V P srs PUnit.unit m <;> rfl

/-- C106: the two benches of TIPA, with the state of the generator afterwards. -/
theorem C106_tipa (hE : V.E.Lawful e) (hd : ∀ x, 16 ≤ (V.digest x).length) (k : ℕ) (s : ρ) :
    (tipaBench V V.pairingAB V.randG1 V.randG2 (2 ^ (k + 1)) s = .error .diverge ∨
      tipaBench V V.pairingAB V.randG1 V.randG2 (2 ^ (k + 1)) s =
        .ok (after V.randF (drawPairs V.randG1 V.randG2 (2 ^ (k + 1)) s).2 2)) ∧
    (tipaBench V V.multiexpGipa V.randG1 V.randF (2 ^ (k + 1)) s = .error .diverge ∨
      tipaBench V V.multiexpGipa V.randG1 V.randF (2 ^ (k + 1)) s =
        .ok (after V.randF (drawPairs V.randG1 V.randF (2 ^ (k + 1)) s).2 2)) := by
  constructor
  · have l := length_drawPairs V.randG1 V.randG2 (2 ^ (k + 1)) s
    obtain ⟨srs, α, β, hs, h⟩ := tipaBench_eq V V.pairingAB rfl V.randG1 V.randG2 (2 ^ (k + 1)) Nat.one_le_two_pow s
    rw [h]
    rcases tipaRun_passes V (pairingAB_lawful V hE) hE hd k _ _ _ _ _ hs PUnit.unit _ l.1 l.2 with h' | h'
    · left; rw [h']; rfl
    · right; rw [h']; rfl
  · have l := length_drawPairs V.randG1 V.randF (2 ^ (k + 1)) s
    obtain ⟨srs, α, β, hs, h⟩ := tipaBench_eq V V.multiexpGipa rfl V.randG1 V.randF (2 ^ (k + 1)) Nat.one_le_two_pow s
    rw [h]
    rcases tipaRun_passes V (multiexpGipa_lawful V hE) hE hd k _ _ _ _ _ hs PUnit.unit _ l.1 l.2 with h' | h'
    · left; rw [h']; rfl
    · right; rw [h']; rfl

/-- C106: the bench with a shift panics exactly if the random shift is zero. -/
theorem C106_shift (hE : V.E.Lawful e) (hd : ∀ x, 16 ≤ (V.digest x).length) (k : ℕ) (s : ρ) :
    let s1 := after V.randF (drawPairs V.randG1 V.randG2 (2 ^ (k + 1)) s).2 2
    let run := tipaShiftBench V V.pairingAB V.randG1 V.randG2 (2 ^ (k + 1)) s
    (nth V.randF s1 0 = 0 → run = panic' .unwrap) ∧
      (nth V.randF s1 0 ≠ 0 → run = .error .diverge ∨ run = .ok (after V.randF s1 1)) := by
  intro s1 run
  have l := length_drawPairs V.randG1 V.randG2 (2 ^ (k + 1)) s
  rcases hr : drawPairs V.randG1 V.randG2 (2 ^ (k + 1)) s with ⟨m, s0⟩
  obtain ⟨srs, s', h, hs', hs⟩ := tipaSetup_identity V (T := GT) s0 (2 ^ (k + 1)) Nat.one_le_two_pow
  have hs1 : s1 = s' := by simp only [s1, hr, hs']
  rw [hr] at l
  have hrun : run = (do
      let (_, s) ← tipaShiftRun V V.pairingAB false srs PUnit.unit m (2 ^ (k + 1)) s1
      return s) := by
    simp only [run]
    rw [tipaShiftBench, show V.pairingAB.ipc = identityCommitment from rfl, hr]
    simp only [h, unwrapRes_ok, ok_bind, hs1]
  rcases tipaShiftRun_passes V hE hd k false srs _ _ _ _ hs _ l.1 l.2 s1 with ⟨h0, h'⟩ | ⟨h0, h' | h'⟩
  · exact ⟨fun _ => by rw [hrun, h']; rfl, fun hne => absurd h0 hne⟩
  · exact ⟨fun h => absurd h h0, fun _ => .inl (by rw [hrun, h']; rfl)⟩
  · exact ⟨fun h => absurd h h0, fun _ => .inr (by rw [hrun, h']; rfl)⟩

/-- C106: the bench with a structured scalar message. -/
theorem C106_ssm (hE : V.E.Lawful e) (hd : ∀ x, 16 ≤ (V.digest x).length) (k : ℕ) (s : ρ) :
    tipaSsmBench V V.multiexpSsm V.randG1 (2 ^ (k + 1)) s = .error .diverge ∨
      tipaSsmBench V V.multiexpSsm V.randG1 (2 ^ (k + 1)) s =
        .ok (after V.randF (after V.randG1 s (2 ^ (k + 1))) 3) := by
  have hpw : ∀ r : F, structuredScalarPower (2 ^ (k + 1)) r = .ok (powers r (2 ^ (k + 1))) := fun r => by
    rw [structuredScalarPower_eq, max_eq_right Nat.one_le_two_pow]
  obtain ⟨srs, s', h, rfl, hs⟩ := tipaSetup_identity V (T := G1)
    (V.randF (after V.randG1 s (2 ^ (k + 1)))).2 (2 ^ (k + 1)) Nat.one_le_two_pow
  rw [tipaSsmBench, show V.multiexpSsm.ipc = identityCommitment from rfl, C104_random_generators]
  simp only [ok_bind, hpw, h, unwrapRes_ok]
  rcases tipaSsmRun_passes V hE hd k srs _ _ _ _ hs (draws V.randG1 s (2 ^ (k + 1))) (by simp [draws])
    (V.randF (after V.randG1 s (2 ^ (k + 1)))).1 with h' | h'
  · left; rw [h']; rfl
  · right; rw [h']; rfl

/-- C106: `main` of the TIPA benches ends normally, or in a challenge search, or in the panic for a zero shift. -/
theorem C106_tipa_main (hE : V.E.Lawful e) (hd : ∀ x, 16 ≤ (V.digest x).length) (k : ℕ) (s : ρ) :
    tipaBenchMain V (2 ^ (k + 1)) s = .error .diverge ∨
      (∃ s', tipaBenchMain V (2 ^ (k + 1)) s = .ok s') ∨
      ((∃ s', nth V.randF s' 0 = 0) ∧ tipaBenchMain V (2 ^ (k + 1)) s = panic' .unwrap) := by
  rw [tipaBenchMain]
  rcases (C106_tipa V hE hd k s).1 with h | h
  · left; rw [h]; rfl
  rw [h]
  simp only [ok_bind]
  rcases (C106_tipa V hE hd k (after V.randF (drawPairs V.randG1 V.randG2 (2 ^ (k + 1)) s).2 2)).2 with h | h
  · left; rw [h]; rfl
  rw [h]
  simp only [ok_bind]
  generalize after V.randF _ 2 = s2
  obtain ⟨h0, h1⟩ := C106_shift V hE hd k s2
  by_cases hz : nth V.randF (after V.randF (drawPairs V.randG1 V.randG2 (2 ^ (k + 1)) s2).2 2) 0 = 0
  · right; right
    refine ⟨⟨_, hz⟩, ?_⟩
    rw [h0 hz]; rfl
  · rcases h1 hz with h | h
    · left; rw [h]; rfl
    · rw [h]
      simp only [ok_bind]
      rcases C106_ssm V hE hd k (after V.randF (after V.randF
        (drawPairs V.randG1 V.randG2 (2 ^ (k + 1)) s2).2 2) 1) with h | h
      · exact .inl h
      · exact .inr (.inl ⟨_, h⟩)

end

/-! ## The toy instance -/

/-- No search ends, since the digest is never zero. -/
example (k s : ℕ) : ∃ s', gipaBenchMain Toy.env (2 ^ k) s = .ok s' := by
  rw [gipaBenchMain, gipaBench_eq _ _ _ _ _ _ _ (C104_gipa Toy.env _ _).1,
    gipaRun_total (pairingAB_lawful Toy.env Toy.lawful) Toy.digest_length
      (searchEnds_of_digest _ Toy.digest_length Toy.digest_ne_zero) k _ _ _ _ (length_drawPairs _ _ _ _).1
      (length_drawPairs _ _ _ _).2 (by simp [draws]) (by simp [draws])]
  simp only [Except.map, ok_bind]
  rw [gipaBench_eq _ _ _ _ _ _ _ (C104_gipa Toy.env _ _).2.1,
    gipaRun_total (multiexpGipa_lawful Toy.env Toy.lawful) Toy.digest_length
      (searchEnds_of_digest _ Toy.digest_length Toy.digest_ne_zero) k _ _ _ _ (length_drawPairs _ _ _ _).1
      (length_drawPairs _ _ _ _).2 (by simp [draws]) (by simp [draws])]
  exact ⟨_, rfl⟩

/-- Size 2, seed 95: four draws for the messages, two for the trapdoors, and the shift is draw 101, which is zero. -/
example : tipaShiftBench Toy.env Toy.env.pairingAB Toy.rand Toy.rand 2 95 = panic' .unwrap :=
  (C106_shift Toy.env Toy.lawful Toy.digest_length 0 95).1 (by decide)

end Ripp
