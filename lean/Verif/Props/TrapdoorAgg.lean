import Verif.Props.Groth16Verify

/-!
# C133: who knows the trapdoor of a reference string can aggregate proofs for any inputs

The forger runs the code of the honest aggregator. Only the proofs it gives to it are made up: with `α` and `β` it
chooses commitments first, asks for the challenge, and then computes proofs with these commitments that satisfy the
batch equation for this one challenge. Nothing about the verifying key is known to it.
-/

set_option linter.unusedSectionVars false

namespace Ripp

open Spec

section Vectors

variable {F G1 G2 GT : Type} [Field F] [AddCommGroup G1] [Module F G1] [AddCommGroup G2]
  [Module F G2] [AddCommGroup GT] [Module F GT]

theorem dot_replicate_left {A B C : Type} [AddMonoid C] (f : A → B → C) (z : A) (hz : ∀ b, f z b = 0) :
    ∀ (m : ℕ) (bs : List B), dot f (List.replicate m z) bs = 0
  | 0, bs => by simp
  | _ + 1, [] => by simp
  | m + 1, b :: bs => by
    rw [List.replicate_succ, dot_cons, hz, zero_add, dot_replicate_left f z hz m bs]

theorem dot_replicate_right {A B C : Type} [AddMonoid C] (f : A → B → C) (z : B) (hz : ∀ a, f a z = 0) :
    ∀ (m : ℕ) (as : List A), dot f as (List.replicate m z) = 0
  | 0, as => by simp
  | _ + 1, [] => by simp
  | m + 1, a :: as => by
    rw [List.replicate_succ, dot_cons, hz, zero_add, dot_replicate_right f z hz m as]

theorem range_four {A : Type} (f : ℕ → A) (m : ℕ) : (List.range (m + 4)).map f =
    f 0 :: f 1 :: f 2 :: f 3 :: (List.range m).map fun i => f (i + 4) := by
  simp [List.range_succ_eq_map, Function.comp_def]

theorem range_two {A : Type} (f : ℕ → A) (m : ℕ) : (List.range (m + 2)).map f =
    f 0 :: f 1 :: (List.range m).map fun i => f (i + 2) := by
  simp [List.range_succ_eq_map, Function.comp_def]

end Vectors

namespace TipaSsm

variable {ρ F G1 G2 GT TF : Type} [Field F] [DecidableEq F] [AddCommGroup G1] [Module F G1] [AddCommGroup G2]
  [Module F G2] [AddCommGroup GT] [Module F GT] [Monoid TF] [DecidableEq G1] [DecidableEq GT]
  {V : Env ρ F G1 G2 GT TF} {e : G1 →ₗ[F] G2 →ₗ[F] GT}

/-- `n ≥ 2` messages with the commitment `e S h` and the inner product `T` with the powers of `b`. -/
def fakeMessages (β b : F) (S T : G1) (n : ℕ) : List G1 :=
  let x := (β ^ 2 - b)⁻¹ • (S - T)
  [T - b • x, x] ++ List.replicate (n - 2) 0

theorem length_fakeMessages (β b : F) (S T : G1) (n : ℕ) (hn : 2 ≤ n) : (fakeMessages β b S T n).length = n := by
  simp [fakeMessages]; omega

theorem fakeMessages_commit (β b : F) (S T : G1) (hb : b ≠ β ^ 2 ∨ S = T) (m : ℕ) (h : G2) :
    dot (e · ·) (fakeMessages β b S T (m + 2)) ((List.range (m + 2)).map fun i => β ^ (2 * i) • h) = e S h := by
  have key : T - b • ((β ^ 2 - b)⁻¹ • (S - T)) + β ^ 2 • ((β ^ 2 - b)⁻¹ • (S - T)) = S := by
    rcases hb with hb | rfl
    · have hne : β ^ 2 - b ≠ 0 := sub_ne_zero.mpr hb.symm
      rw [sub_add_eq_add_sub, add_sub_assoc, ← sub_smul, smul_smul, mul_inv_cancel₀ hne, one_smul, add_sub_cancel]
    · simp
  rw [range_two]
  simp only [fakeMessages, Nat.add_sub_cancel, List.cons_append, List.nil_append, dot_cons]
  rw [dot_replicate_left _ _ (fun b => by simp), add_zero]
  conv_rhs => rw [← key]
  simp only [mul_zero, pow_zero, one_smul, mul_one, map_add, map_smul, LinearMap.add_apply, LinearMap.smul_apply]

theorem fakeMessages_value (β b : F) (S T : G1) (m : ℕ) :
    dot (fun (x : G1) (y : F) => y • x) (fakeMessages β b S T (m + 2)) (powers b (m + 2)) = T := by
  rw [powers, range_two]
  simp only [fakeMessages, Nat.add_sub_cancel, List.cons_append, List.nil_append, dot_cons]
  rw [dot_replicate_left _ _ (fun b => by simp)]
  simp

/-- C133: with the trapdoor `β` every commitment to messages (`e S h` is the general form) is opened to every inner
product `T` with the powers of `b`: the honest prover returns an accepted proof for the made-up messages. -/
theorem C133_tipa_ssm (hE : V.E.Lawful e) (hd : ∀ x, 16 ≤ (V.digest x).length) (hs : V.multiexpSsm.SearchEnds)
    (hrb : KzgEnds V.tipa V.digest V.serF) (k : ℕ) (srs : SRS G1 G2) (g : G1) (h : G2) (α β : F)
    (hsrs : IsLeftSrs srs g h α β (2 ^ (k + 1))) (b : F) (S T : G1) (hb : b ≠ β ^ 2 ∨ S = T) :
    ∃ v proof, srs.verifierKey = .ok v ∧
      prove V.tipa V.multiexpSsm srs (fakeMessages β b S T (2 ^ (k + 1))) (powers b (2 ^ (k + 1)))
        srs.commitmentKeys.1 PUnit.unit = .ok proof ∧
      verify V.X V.tipa V.multiexpSsm v PUnit.unit (e S h) ⟨[T]⟩ b proof = .ok true := by
  have hn : 1 ≤ 2 ^ (k + 1) := Nat.one_le_two_pow
  obtain ⟨m, hm⟩ : ∃ m, 2 ^ (k + 1) = m + 2 := ⟨2 ^ (k + 1) - 2, by have := Nat.pow_le_pow_right (n := 2) (by omega) (show 1 ≤ k + 1 by omega); omega⟩
  have hl : (fakeMessages β b S T (2 ^ (k + 1))).length = 2 ^ (k + 1) := length_fakeMessages _ _ _ _ _ (by omega)
  obtain ⟨e1, -⟩ := hsrs.keys hn
  refine C34_complete_total (V := V.tipa) (multiexpSsm_lawful V hE) hE hd hs hrb V.X k srs g h α β hsrs _ _ b T
    PUnit.unit (e S h) ⟨[T]⟩ hl (by rw [structuredScalarPower_eq, max_eq_right hn]) ⟨?_, ?_, rfl⟩
  · change multiexpIP _ _ = _
    rw [multiexpIP_eq _ _ (by simp), hl]
    rw [hm]
    exact congrArg Except.ok (fakeMessages_value β b S T m)
  · change pairingIP V.E V.X _ _ = _
    rw [pairingIP_eq hE _ _ _ (by simp [hl, e1]), e1]
    rw [hm]
    exact congrArg Except.ok (fakeMessages_commit β b S T hb m h)

end TipaSsm

namespace Groth16

variable {ρ F G1 G2 GT TF : Type} [Field F] [DecidableEq F] [AddCommGroup G1] [Module F G1] [AddCommGroup G2]
  [Module F G2] [AddCommGroup GT] [Module F GT] [Monoid TF] [DecidableEq G1] [DecidableEq GT]
  {V : Env ρ F G1 G2 GT TF} {e : G1 →ₗ[F] G2 →ₗ[F] GT}

/-- `n ≥ 4` made-up proofs with the commitments `e P h`, `e g Q` and `e S h` for the challenge `r`: the first two carry
the right-hand side of the batch equation, the next two correct the commitments. -/
def fakeProofs (α β : F) (vk : G16VK G1 G2) (inputs : List (List F)) (r : F) (P : G1) (Q : G2) (S : G1) :
    List (G16Proof G1 G2) :=
  let n := inputs.length
  let a0 := (powers r n).sum • vk.alpha
  let a1 := r⁻¹ • dot (fun (x : F) (row : List F) => x • dot (fun s g => s • g) (1 :: row) vk.gammaAbc) (powers r n) inputs
  let c := (β ^ 2 - r)⁻¹ • S
  [⟨a0, vk.beta, -r • c⟩, ⟨a1, vk.gamma, c⟩, ⟨(β ^ 4)⁻¹ • (P - a0 - β ^ 2 • a1), 0, 0⟩,
    ⟨0, (α ^ 6)⁻¹ • (Q - vk.beta - α ^ 2 • vk.gamma), 0⟩] ++ List.replicate (n - 4) ⟨0, 0, 0⟩

section Fake

variable (α β : F) (vk : G16VK G1 G2) (inputs : List (List F)) (r : F) (P : G1) (Q : G2) (S : G1)

theorem length_fakeProofs (hn : 4 ≤ inputs.length) :
    (fakeProofs α β vk inputs r P Q S).length = inputs.length := by
  simp [fakeProofs]; omega

theorem fakeProofs_comA (hβ : β ≠ 0) (m : ℕ) (hm : inputs.length = m + 4) (h : G2) :
    dot (e · ·) ((fakeProofs α β vk inputs r P Q S).map (·.a)) ((List.range (m + 4)).map fun i => β ^ (2 * i) • h) =
      e P h := by
  rw [range_four]
  simp only [fakeProofs, hm, Nat.add_sub_cancel, List.cons_append, List.nil_append, List.map_cons, List.map_replicate,
    dot_cons]
  rw [dot_replicate_left _ _ (fun b => by simp)]
  simp only [map_smul, map_sub, map_zero, LinearMap.smul_apply, LinearMap.sub_apply, LinearMap.zero_apply, smul_zero,
    mul_zero, pow_zero, one_smul, mul_one]
  rw [smul_smul (β ^ (2 * 2)), show 2 * 2 = 4 from rfl, mul_inv_cancel₀ (pow_ne_zero 4 hβ), one_smul]
  abel

theorem fakeProofs_comB (hα : α ≠ 0) (m : ℕ) (hm : inputs.length = m + 4) (g : G1) :
    dot (e · ·) ((List.range (m + 4)).map fun i => α ^ (2 * i) • g) ((fakeProofs α β vk inputs r P Q S).map (·.b)) =
      e g Q := by
  rw [range_four]
  simp only [fakeProofs, hm, Nat.add_sub_cancel, List.cons_append, List.nil_append, List.map_cons, List.map_replicate,
    dot_cons]
  rw [dot_replicate_right _ _ (fun b => by simp)]
  simp only [map_smul, map_sub, map_zero, LinearMap.smul_apply, mul_zero, pow_zero, one_smul, mul_one]
  rw [smul_comm (α ^ 2) (α ^ (2 * 3)), ← smul_sub, ← smul_sub, smul_smul (α ^ 6)⁻¹, show 2 * 3 = 6 from rfl,
    inv_mul_cancel₀ (pow_ne_zero 6 hα), one_smul]
  abel

theorem fakeProofs_comC (hS : r ≠ β ^ 2 ∨ S = 0) (m : ℕ) (hm : inputs.length = m + 4) (h : G2) :
    dot (e · ·) ((fakeProofs α β vk inputs r P Q S).map (·.c)) ((List.range (m + 4)).map fun i => β ^ (2 * i) • h) =
      e S h := by
  have key : -r • ((β ^ 2 - r)⁻¹ • S) + β ^ 2 • ((β ^ 2 - r)⁻¹ • S) = S := by
    rcases hS with hS | rfl
    · rw [← add_smul, neg_add_eq_sub, smul_smul, mul_inv_cancel₀ (sub_ne_zero.mpr hS.symm), one_smul]
    · simp
  rw [range_four]
  simp only [fakeProofs, hm, Nat.add_sub_cancel, List.cons_append, List.nil_append, List.map_cons, List.map_replicate,
    dot_cons]
  rw [dot_replicate_left _ _ (fun b => by simp)]
  conv_rhs => rw [← key]
  simp only [map_smul, map_add, map_zero, LinearMap.smul_apply, LinearMap.add_apply, LinearMap.zero_apply, smul_zero,
    mul_zero, pow_zero, one_smul, mul_one, add_zero]

theorem fakeProofs_batch (hr : r ≠ 0) (hn : 4 ≤ inputs.length) :
    BatchEq e vk (fakeProofs α β vk inputs r P Q S) inputs r := by
  obtain ⟨m, hm⟩ : ∃ m, inputs.length = m + 4 := ⟨inputs.length - 4, by omega⟩
  rw [BatchEq, length_fakeProofs _ _ _ _ _ _ _ _ hn]
  conv_lhs => rw [powers, hm, range_four]
  conv_rhs => rw [show dot (fun (x : F) (p : G16Proof G1 G2) => x • p.c) (powers r inputs.length)
    (fakeProofs α β vk inputs r P Q S) = 0 by
      rw [powers, hm, range_four]
      simp only [fakeProofs, hm, Nat.add_sub_cancel, List.cons_append, List.nil_append, dot_cons]
      rw [dot_replicate_right _ _ (fun b => by simp)]
      simp]
  simp only [fakeProofs, List.cons_append, List.nil_append, dot_cons]
  rw [dot_replicate_right _ _ (fun b => by simp)]
  simp [smul_smul, hr]

end Fake

/-- C133: who knows the trapdoors `α` and `β` fixes any three commitments, and after the challenge is known makes the
code of the aggregator return a proof with these commitments that is accepted for the given inputs, whatever the
inputs and the verifying key are. -/
theorem C133_forge (hE : V.E.Lawful e) (hd : ∀ x, 16 ≤ (V.digest x).length)
    (hs1 : V.pairingAB.SearchEnds) (hs2 : V.multiexpSsm.SearchEnds) (hrb : DecodesEnd V) (k : ℕ)
    (srs : SRS G1 G2) (g : G1) (h : G2) (α β : F) (hα : α ≠ 0) (hβ : β ≠ 0)
    (hsrs : IsSrs srs g h α β (2 ^ (k + 2))) (vk : G16VK G1 G2) (inputs : List (List F))
    (hin : inputs.length = 2 ^ (k + 2)) (hrow : ∀ row ∈ inputs, row.length + 1 = vk.gammaAbc.length)
    (P : G1) (Q : G2) (S : G1) (r : F) (hc : challenge V (e P h) (e g Q) (e S h) = .ok r) (hr0 : r ≠ 0) (hr1 : r ≠ 1)
    (hS : r ≠ β ^ 2 ∨ S = 0) :
    ∃ v proof, srs.verifierKey = .ok v ∧ aggregate V srs (fakeProofs α β vk inputs r P Q S) = .ok proof ∧
      (proof.comA, proof.comB, proof.comC) = (e P h, e g Q, e S h) ∧ verify V v vk inputs proof = .ok true := by
  have hn : 4 ≤ 2 ^ (k + 2) := by
    have := Nat.one_le_two_pow (n := k); rw [pow_add]; omega
  obtain ⟨m, hm⟩ : ∃ m, 2 ^ (k + 2) = m + 4 := ⟨2 ^ (k + 2) - 4, by omega⟩
  have hl := length_fakeProofs α β vk inputs r P Q S (by omega)
  obtain ⟨e1, e2, -⟩ := C25_keys srs g h α β _ (by omega) hsrs
  have cA : dot (e · ·) ((fakeProofs α β vk inputs r P Q S).map (·.a)) srs.commitmentKeys.1 = e P h := by
    rw [e1, hm]; exact fakeProofs_comA _ _ _ _ _ _ _ _ hβ m (hin.trans hm) h
  have cB : dot (e · ·) srs.commitmentKeys.2 ((fakeProofs α β vk inputs r P Q S).map (·.b)) = e g Q := by
    rw [e2, hm]; exact fakeProofs_comB _ _ _ _ _ _ _ _ hα m (hin.trans hm) g
  have cC : dot (e · ·) ((fakeProofs α β vk inputs r P Q S).map (·.c)) srs.commitmentKeys.1 = e S h := by
    rw [e1, hm]; exact fakeProofs_comC _ _ _ _ _ _ _ _ hS m (hin.trans hm) h
  obtain ⟨v, proof, h1, h2, h3⟩ := complete_of_batch_total hE hd hs1 hs2 hrb (k + 1) srs g h α β hsrs vk
    (fakeProofs α β vk inputs r P Q S) inputs (hl.trans hin) (by rintro rfl; simp at hin; omega) hrow (by
      intro r' hr'
      rw [cA, cB, cC, hc] at hr'
      cases hr'
      exact ⟨hr0, hr1, fakeProofs_batch _ _ _ _ _ _ _ _ hr0 (by omega)⟩)
  obtain ⟨q1, q2, q3, -⟩ := C49_values hE srs _ _ (by omega) (hl.trans hin) (by simp [e1]) (by simp [e2]) proof h2
  exact ⟨v, proof, h1, h2, by rw [q1, q2, q3, cA, cB, cC], h3⟩

/-- C133: in particular the commitments to any given proofs, for example to valid proofs for other inputs, can be
reused. They do not bind the holder of the trapdoor to the proofs. -/
theorem C133_replace (hE : V.E.Lawful e) (hd : ∀ x, 16 ≤ (V.digest x).length)
    (hs1 : V.pairingAB.SearchEnds) (hs2 : V.multiexpSsm.SearchEnds) (hrb : DecodesEnd V) (k : ℕ)
    (srs : SRS G1 G2) (g : G1) (h : G2) (α β : F) (hα : α ≠ 0) (hβ : β ≠ 0)
    (hsrs : IsSrs srs g h α β (2 ^ (k + 2))) (vk : G16VK G1 G2) (inputs : List (List F))
    (hin : inputs.length = 2 ^ (k + 2)) (hrow : ∀ row ∈ inputs, row.length + 1 = vk.gammaAbc.length)
    (proofs : List (G16Proof G1 G2)) (hp : proofs.length = 2 ^ (k + 2)) (honest : AggProof F G1 G2 GT)
    (hh : aggregate V srs proofs = .ok honest)
    (hr : ∀ r, challenge V honest.comA honest.comB honest.comC = .ok r → r ≠ 1 ∧ r ≠ β ^ 2) :
    ∃ v fakes proof, srs.verifierKey = .ok v ∧ aggregate V srs fakes = .ok proof ∧
      (proof.comA, proof.comB, proof.comC) = (honest.comA, honest.comB, honest.comC) ∧
      verify V v vk inputs proof = .ok true := by
  have hn : 4 ≤ 2 ^ (k + 2) := by
    have := Nat.one_le_two_pow (n := k); rw [pow_add]; omega
  obtain ⟨e1, e2, -⟩ := C25_keys srs g h α β _ (by omega) hsrs
  obtain ⟨q1, q2, q3, r, hc, hr0, -⟩ := C49_values hE srs _ _ (by omega) hp (by simp [e1]) (by simp [e2]) honest hh
  have left (f : G16Proof G1 G2 → G1) : ∃ P, dot (e · ·) (proofs.map f) srs.commitmentKeys.1 = e P h := by
    rw [e1]
    generalize List.range (2 ^ (k + 2)) = is
    induction proofs.map f generalizing is with
    | nil => exact ⟨0, by simp⟩
    | cons x xs ih =>
      cases is with
      | nil => exact ⟨0, by simp⟩
      | cons i is =>
        obtain ⟨P, hP⟩ := ih is
        exact ⟨β ^ (2 * i) • x + P, by simp [hP]⟩
  have right : ∃ Q, dot (e · ·) srs.commitmentKeys.2 (proofs.map (·.b)) = e g Q := by
    rw [e2]
    generalize List.range (2 ^ (k + 2)) = is
    induction proofs.map (·.b) generalizing is with
    | nil => exact ⟨0, by simp⟩
    | cons x xs ih =>
      cases is with
      | nil => exact ⟨0, by simp⟩
      | cons i is =>
        obtain ⟨Q, hQ⟩ := ih is
        exact ⟨α ^ (2 * i) • x + Q, by simp [hQ]⟩
  obtain ⟨P, hP⟩ := left (·.a)
  obtain ⟨Q, hQ⟩ := right
  obtain ⟨S, hS⟩ := left (·.c)
  obtain ⟨hr1, hr2⟩ := hr r hc
  rw [q1, q2, q3, hP, hQ, hS] at hc ⊢
  obtain ⟨v, proof, h1, h2, h3, h4⟩ := C133_forge hE hd hs1 hs2 hrb k srs g h α β hα hβ hsrs vk inputs hin hrow P Q S r hc
    hr0 hr1 (.inl hr2)
  exact ⟨v, _, proof, h1, h2, h3, h4⟩

/-! ## Examples with `α = 3`, `β = 5`, `r = 3` -/

/-- The made-up proofs for the inputs 50, 61, 70, 80 with the commitments of `toyProofs`. -/
def toyFakes : List (G16Proof Toy.F Toy.F) :=
  fakeProofs (3 : Toy.F) (5 : Toy.F) toyVK [[50], [61], [70], [80]] (3 : Toy.F) (5 * (1 + 25 + 625 + 15625)) (7 * (1 + 9 + 81 + 729))
    (24 + 20 * 25 + 16 * 625 + 12 * 15625)

/-- None of them is valid. -/
example : ∀ x ∈ toyFakes.zip [[50], [61], [70], [80]], ¬ Valid Toy.e toyVK x.1 x.2 := by
  simp only [Valid]
  decide +kernel

example : toyFakes.map (fun p => (p.a, p.b, p.c)) = [(80, 3, 28), (4, 1, 58), (37, 0, 0), (0, 40, 0)] := by
  decide +kernel

/-- The aggregate of `toyProofs` and an accepted one for other inputs with the same commitments. -/
example : ∃ v honest proof, Toy.srs.verifierKey = .ok v ∧ aggregate Toy.env Toy.srs toyProofs = .ok honest ∧
    verify Toy.env v toyVK [[1], [2], [3], [4]] honest = .ok true ∧ aggregate Toy.env Toy.srs toyFakes = .ok proof ∧
    (proof.comA, proof.comB, proof.comC) = (honest.comA, honest.comB, honest.comC) ∧
    verify Toy.env v toyVK [[50], [61], [70], [80]] proof = .ok true := by
  obtain ⟨v, honest, h1, h2, h3⟩ := toy_accepted
  obtain ⟨v', proof, q1, q2, q3, q4⟩ := C133_forge (V := Toy.env) Toy.lawful Toy.digest_length
    (searchEnds_of_digest _ Toy.digest_length Toy.digest_ne_zero)
    (searchEnds_of_digest _ Toy.digest_length Toy.digest_ne_zero)
    (Groth16.decodesEnd_of_decodes _ Toy.fromRandomBytes_digest) 0 Toy.srs 1 1 3 5 (by decide) (by decide)
    Toy.srs_isSrs toyVK [[50], [61], [70], [80]] rfl (by simp [toyVK]) (5 * (1 + 25 + 625 + 15625))
    (7 * (1 + 9 + 81 + 729)) (24 + 20 * 25 + 16 * 625 + 12 * 15625) 3 (by decide +kernel) (by decide) (by decide)
    (.inl (by decide))
  cases h1.symm.trans q1
  obtain ⟨c1, c2, c3, -⟩ := C49_values Toy.lawful Toy.srs toyProofs 4 (by norm_num) rfl rfl rfl honest h2
  refine ⟨v, honest, proof, h1, h2, h3, q2, ?_, q4⟩
  rw [q3, c1, c2, c3]
  decide +kernel

/-- A commitment to the messages 24, 20, 16, 12, opened to the inner product 77 with 1, 3, 9, 27. -/
example : ∃ v proof, Toy.srs.verifierKey = .ok v ∧
    TipaSsm.verify Toy.env.X Toy.env.tipa Toy.env.multiexpSsm v PUnit.unit
      (24 + 20 * 25 + 16 * 625 + 12 * 15625) ⟨[77]⟩ 3 proof = .ok true := by
  obtain ⟨v, proof, h1, -, h2⟩ := TipaSsm.C133_tipa_ssm (V := Toy.env) Toy.lawful Toy.digest_length
    (searchEnds_of_digest _ Toy.digest_length Toy.digest_ne_zero)
    (Groth16.decodesEnd_of_decodes Toy.env Toy.fromRandomBytes_digest).c 1 Toy.srs 1 1 3 5
    (Toy.srs_isSrs.left (by norm_num)) 3 (24 + 20 * 25 + 16 * 625 + 12 * 15625) 77 (.inl (by decide))
  refine ⟨v, proof, h1, ?_⟩
  have : Toy.e (24 + 20 * 25 + 16 * 625 + 12 * 15625) 1 = (24 + 20 * 25 + 16 * 625 + 12 * 15625) := by
    decide +kernel
  rwa [this] at h2

end Groth16

end Ripp
