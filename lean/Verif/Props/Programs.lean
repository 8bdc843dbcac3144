import Verif.Props.Bench
import Verif.Props.InnerProducts

/-!
# C139: the example and bench programs as a whole

Property statements are in `properties.jsonl`.
-/

set_option linter.unusedSectionVars false

namespace Ripp.Bench

open Spec

/-- Completeness of a proof system for circuits `C`: set-up succeeds when the constraints of the circuit can be
generated, and with the keys of a circuit of the same shape every satisfied circuit gets a proof in the relation `R`.
`rel c` is the relation of the circuit, `input c` its public input. -/
structure Snark.Complete {ρ C X π PK VK Sh : Type} (S : Snark ρ C X π PK VK) (shape : C → Sh) (rel : C → Res Prop)
    (input : C → X) (R : VK → X → π → Prop) : Prop where
  setup : ∀ c s P, rel c = .ok P → ∃ r, S.setup c s = .ok r
  prove : ∀ c₀ c s₀ pk vk s₁ s P, S.setup c₀ s₀ = .ok ((pk, vk), s₁) → shape c₀ = shape c → rel c = .ok P → P →
    ∃ p s', S.prove pk c s = .ok (p, s') ∧ R vk (input c) p

section
variable {ρ C X π PK VK Sh : Type} {S : Snark ρ C X π PK VK} {shape : C → Sh} {rel : C → Res Prop} {input : C → X}
  {R : VK → X → π → Prop}

theorem proveAll_complete (hS : S.Complete shape rel input R) (c₀ : C) (s₀ s₁ : ρ) (pk : PK) (vk : VK)
    (h0 : S.setup c₀ s₀ = .ok ((pk, vk), s₁)) : ∀ (cs : List C) (s : ρ),
    (∀ c ∈ cs, shape c₀ = shape c ∧ ∃ P, rel c = .ok P ∧ P) →
    ∃ ps s', proveAll S pk cs s = .ok (ps, s') ∧ List.Forall₂ (fun p c => R vk (input c) p) ps cs
  | [], s, _ => ⟨[], s, rfl, .nil⟩
  | c :: cs, s, h => by
    obtain ⟨h1, P, h2, h3⟩ := h c (by simp)
    obtain ⟨p, s', h4, h5⟩ := hS.prove c₀ c s₀ pk vk s₁ s P h0 h1 h2 h3
    obtain ⟨ps, s'', h6, h7⟩ := proveAll_complete hS c₀ s₀ s₁ pk vk h0 cs s' fun c hc => h c (by simp [hc])
    refine ⟨p :: ps, s'', ?_, .cons h5 h7⟩
    rw [proveAll, h4]
    simp only [unwrapRes_ok, ok_bind, h6]
    rfl

theorem snarkTrials_complete (hS : S.Complete shape rel input fun vk x p => S.verify vk x p = .ok true) (c : C)
    (s₀ s₁ : ρ) (pk : PK) (vk : VK) (h0 : S.setup c s₀ = .ok ((pk, vk), s₁)) (P : Prop) (h2 : rel c = .ok P)
    (h3 : P) : (∀ s, ∃ s', snarkTrial S pk vk c (input c) s = .ok s') ∧
      ∀ (n : ℕ) (s : ρ), ∃ s', snarkTrials S pk vk c (input c) n s = .ok s' := by
  have h1 : ∀ s, ∃ s', snarkTrial S pk vk c (input c) s = .ok s' := fun s => by
    obtain ⟨p, s', h4, h5⟩ := hS.prove c c s₀ pk vk s₁ s P h0 rfl h2 h3
    refine ⟨s', ?_⟩
    rw [snarkTrial, h4]
    simp only [unwrapRes_ok, ok_bind, h5, assert_true]
    rfl
  refine ⟨h1, fun n => ?_⟩
  induction n with
  | zero => exact fun s => ⟨s, rfl⟩
  | succ n ih =>
    intro s
    obtain ⟨s', h⟩ := h1 s
    obtain ⟨s'', h'⟩ := ih s'
    exact ⟨s'', by rw [snarkTrials, h]; exact h'⟩

end

section
variable {ρ ρ' F F2 G1 G2 GT TF PK PK2 PK3 VK2 VK3 π2 π3 : Type} [Field F] [Field F2] [DecidableEq F] [AddCommGroup G1]
  [Module F G1] [AddCommGroup G2] [Module F G2] [AddCommGroup GT] [Module F GT] [Monoid TF] [DecidableEq G1]
  [DecidableEq GT] {e : G1 →ₗ[F] G2 →ₗ[F] GT}

/-! ## The aggregation example -/

theorem foldl_add_eq (l : List F) (w : F) : l.foldl (· + ·) w = w + l.sum := by
  induction l generalizing w with
  | nil => simp
  | cons x l ih => rw [List.foldl_cons, ih, List.sum_cons, add_assoc]

theorem exampleLoop_valid (V : Env ρ F G1 G2 GT TF)
    (S : Snark ρ (TestCircuit F) (List F) (G16Proof G1 G2) PK (G16VK G1 G2))
    (hS : S.Complete (fun c => c.publicInputs.length)
      (fun c => .ok (c.sum = c.witness + c.publicInputs.sum)) (fun c => c.publicInputs ++ [c.sum])
      (fun vk x p => Groth16.Valid e vk p x)) (m : ℕ) (s₀ s₁ : ρ) (pk : PK) (vk : G16VK G1 G2)
    (h0 : S.setup ⟨List.replicate m 0, 0, 0⟩ s₀ = .ok ((pk, vk), s₁)) : ∀ (n : ℕ) (s : ρ),
    ∃ ps xs s', exampleLoop V S pk m n s = .ok ((ps, xs), s') ∧ ps.length = n ∧
      List.Forall₂ (Groth16.Valid e vk) ps xs
  | 0, s => ⟨[], [], s, rfl, rfl, .nil⟩
  | n + 1, s => by
    have hl := randomGenerators_length V.randF m s
    obtain ⟨p, s', h4, h5⟩ := hS.prove _ ⟨(randomGenerators V.randF s m).1,
      (V.randF (randomGenerators V.randF s m).2).1,
      (V.randF (randomGenerators V.randF s m).2).1 + (randomGenerators V.randF s m).1.sum⟩ s₀ pk vk s₁
      (V.randF (randomGenerators V.randF s m).2).2 _ h0 (by simp [hl]) rfl rfl
    obtain ⟨ps, xs, s'', h6, h7, h8⟩ := exampleLoop_valid V S hS m s₀ s₁ pk vk h0 n s'
    refine ⟨p :: ps, _, s'', ?_, by simp [h7], .cons h5 h8⟩
    rw [exampleLoop]
    simp only [h4, unwrapRes_ok, ok_bind, h6]
    rfl

/-- The example runs through for any number of public inputs and any power of two of at least two proofs, unless a
challenge search fails: with Groth16 complete for the relation of the circuit, the aggregate is accepted. -/
theorem C139_example (V : Env ρ F G1 G2 GT TF) (hE : V.E.Lawful e) (hd : ∀ x, 16 ≤ (V.digest x).length)
    (hr : ∀ cA cB cC r, Groth16.challenge V cA cB cC = .ok r → r ≠ 0 ∧ r ≠ 1)
    (S : Snark ρ (TestCircuit F) (List F) (G16Proof G1 G2) PK (G16VK G1 G2))
    (hS : S.Complete (fun c => c.publicInputs.length)
      (fun c => .ok (testCircuit c.publicInputs c.sum c.witness)) (fun c => c.publicInputs ++ [c.sum])
      (fun vk x p => Groth16.Valid e vk p x)) (m k : ℕ) (seed : ρ) :
    exampleMain V S m (2 ^ (k + 1)) seed = .error .diverge ∨ exampleMain V S m (2 ^ (k + 1)) seed = .ok () := by
  have hS' : S.Complete (fun c => c.publicInputs.length)
      (fun c => .ok (c.sum = c.witness + c.publicInputs.sum)) (fun c => c.publicInputs ++ [c.sum])
      (fun vk x p => Groth16.Valid e vk p x) := by
    simpa only [testCircuit, foldl_add_eq] using hS
  obtain ⟨⟨⟨pk, vk⟩, s₁⟩, h0⟩ := hS.setup ⟨List.replicate m 0, 0, 0⟩ seed _ rfl
  obtain ⟨srs, s', v, hset, hv1, -, -⟩ := setup_keys V s₁ (2 ^ (k + 1)) Nat.one_le_two_pow
  obtain ⟨ps, xs, s'', h1, h2, h3⟩ := exampleLoop_valid V S hS' m seed s₁ pk vk h0 (2 ^ (k + 1)) s'
  have h4 := Groth16.C74_end_to_end V hE hd k s₁ _ _ hset vk ps xs h2 h3 fun r => hr _ _ _ r
  rw [exampleMain, h0]
  simp only [unwrapRes_ok, ok_bind, hset, h1]
  rcases h4 with h4 | ⟨v', proof, h5, h6, h7⟩
  · left; rw [h4]; rfl
  · right; rw [h6]; simp only [unwrapRes_ok, ok_bind, h5, h7, assert_true]

/-! ## The aggregation bench -/

theorem forall₂_replicate {A B : Type} {R : A → B → Prop} {a : A} {b : B} (h : R a b) :
    ∀ n, List.Forall₂ R (List.replicate n a) (List.replicate n b)
  | 0 => .nil
  | n + 1 => .cons h (forall₂_replicate h n)

/-- The bench runs through for any power of two of at least two proofs and any flags, unless a challenge search fails. -/
theorem C139_groth16 (V : Env ρ F G1 G2 GT TF) (hE : V.E.Lawful e) (hd : ∀ x, 16 ≤ (V.digest x).length)
    (hr : ∀ cA cB cC r, Groth16.challenge V cA cB cC = .ok r → r ≠ 0 ∧ r ≠ 1)
    (rand : ρ' → ℕ × ρ') (seed : ρ') (hash : Bytes → Bytes) (hh : ∀ x, (hash x).length = 32)
    (rand32 : ρ → Bytes × ρ) (h32 : ∀ s, (rand32 s).1.length = 32)
    (S1 : Snark ρ HashCircuit (List F) (G16Proof G1 G2) PK (G16VK G1 G2))
    (hS1 : S1.Complete (fun c => (c.input.length, c.output.length)) (fun c => .ok (hash c.input = c.output))
      (fun c => (hashElements c.output).map (↑)) (fun vk x p => Groth16.Valid e vk p x))
    (S2 : Snark ρ (RecursionCircuit (G16Proof G1 G2) (G16VK G1 G2)) (List F2) π2 PK2 VK2)
    (hS2 : S2.Complete (fun c => (c.hashOutputs.map List.length, c.proofs.length, c.vk.gammaAbc.length))
      (fun c => recursionCircuit (fun x p => Groth16.Valid e c.vk p (x.map (↑))) c.hashOutputs
        (recursionInput c.hashOutputs) c.proofs)
      (fun c => (recursionInput c.hashOutputs).map (↑)) (fun vk x p => S2.verify vk x p = .ok true))
    (S3 : Snark ρ ManyCircuit (List F) π3 PK3 VK3)
    (hS3 : S3.Complete (fun c => (c.input.map List.length, c.output.map List.length))
      (fun c => .ok (manyCircuit hash c.input c.output)) (fun c => (manyInput c.input c.output).map (↑))
      (fun vk x p => S3.verify vk x p = .ok true))
    (parse : String → Option ℕ) (argv : List String) (args : Args) (ha : groth16Args parse argv = .ok (some args))
    (k : ℕ) (hk : args.numProofs = 2 ^ (k + 1)) (s : ρ) :
    groth16Main V rand seed hash rand32 S1 S2 S3 parse argv s = .error .diverge ∨
    groth16Main V rand seed hash rand32 S1 S2 S3 parse argv s = .ok () := by
  rw [groth16Main, ha]
  simp only [ok_bind]
  obtain ⟨numTrials, numProofs, rec, all, mono⟩ := args
  obtain rfl : numProofs = 2 ^ (k + 1) := hk
  rw [groth16Run]
  simp only
  obtain ⟨inputs, hin⟩ : ∃ l, l = (randomGenerators rand32 s (2 ^ (k + 1))).1 := ⟨_, rfl⟩
  have hlen : inputs.length = 2 ^ (k + 1) := by rw [hin]; exact randomGenerators_length rand32 _ s
  have hin32 : ∀ x ∈ inputs, x.length = 32 := by
    have : ∀ (n : ℕ) (s : ρ), ∀ x ∈ (randomGenerators rand32 s n).1, x.length = 32 := by
      intro n
      induction n with
      | zero => intro s x hx; simp [randomGenerators] at hx
      | succ n ih =>
        intro s x hx
        simp only [randomGenerators, List.mem_cons] at hx
        rcases hx with rfl | hx
        · exact h32 s
        · exact ih _ x hx
    rw [hin]; exact this _ _
  rw [← hin]
  obtain ⟨⟨⟨pk, vk⟩, s₁⟩, h0⟩ := hS1.setup ⟨List.replicate 32 0, List.replicate 32 0⟩
    (randomGenerators rand32 s (2 ^ (k + 1))).2 _ rfl
  simp only [h0, unwrapRes_ok, ok_bind]
  -- the proofs that are made
  have hmade : ∀ hs : List (Bytes × Bytes), (∀ h ∈ hs, h.1.length = 32 ∧ h.2 = hash h.1) →
      ∃ ps s', proveAll S1 pk (hs.map fun h => (⟨h.1, h.2⟩ : HashCircuit)) s₁ = .ok (ps, s') ∧
        List.Forall₂ (fun p (h : Bytes × Bytes) => Groth16.Valid e vk p ((hashElements h.2).map (↑))) ps hs := by
    intro hs hhs
    obtain ⟨ps, s', h1, h2⟩ := proveAll_complete hS1 _ _ _ pk vk h0 (hs.map fun h => ⟨h.1, h.2⟩) s₁ (by
      intro c hc
      obtain ⟨h, hm, rfl⟩ := List.mem_map.mp hc
      obtain ⟨e1, e2⟩ := hhs h hm
      exact ⟨by simp [e1, e2, hh], _, rfl, e2.symm⟩)
    exact ⟨ps, s', h1, (List.forall₂_map_right_iff (R := fun p (c : HashCircuit) => Groth16.Valid e vk p
      ((hashElements c.output).map (↑)))).mp h2⟩
  -- the proofs that are used
  obtain ⟨ps, hs, hprs, s₂, hps, hpl, hhs, hval⟩ : ∃ (ps : List (G16Proof G1 G2)) (hs : List (Bytes × Bytes)) (made : _)
      (s₂ : ρ), (proveAll S1 pk ((if all then inputs.map (fun x => (x, hash x))
          else (inputs.map (fun x => (x, hash x))).take 1).map fun h => (⟨h.1, h.2⟩ : HashCircuit)) s₁ = .ok (made, s₂) ∧
        benchProofs all (2 ^ (k + 1)) made (inputs.map fun x => (x, hash x)) = .ok (ps, hs)) ∧
      ps.length = 2 ^ (k + 1) ∧ (∀ h ∈ hs, h.1.length = 32 ∧ h.2 = hash h.1) ∧
      List.Forall₂ (fun p (h : Bytes × Bytes) => Groth16.Valid e vk p ((hashElements h.2).map (↑))) ps hs := by
    have hall : ∀ h ∈ inputs.map (fun x => (x, hash x)), h.1.length = 32 ∧ h.2 = hash h.1 := by
      intro h hm
      obtain ⟨x, hx, rfl⟩ := List.mem_map.mp hm
      exact ⟨hin32 x hx, rfl⟩
    cases all
    · obtain ⟨ps, s', h1, h2⟩ := hmade ((inputs.map fun x => (x, hash x)).take 1) fun h hm =>
        hall h (List.mem_of_mem_take hm)
      obtain ⟨x, xs, rfl⟩ : ∃ x xs, inputs = x :: xs := by
        cases inputs with
        | nil => exact absurd hlen.symm (by simp)
        | cons x xs => exact ⟨x, xs, rfl⟩
      simp only [List.map_cons, List.take_succ_cons, List.take_zero] at h1 h2
      cases h2 with
      | cons hp hn =>
        cases hn
        refine ⟨_, _, _, _, ⟨h1, rfl⟩, by simp, ?_, forall₂_replicate (R := fun p (h : Bytes × Bytes) =>
          Groth16.Valid e vk p ((hashElements h.2).map (↑))) hp _⟩
        intro h hm
        rw [List.eq_of_mem_replicate hm]
        exact hall _ (by simp)
    · obtain ⟨ps, s', h1, h2⟩ := hmade _ hall
      exact ⟨ps, _, ps, s', ⟨h1, rfl⟩, by rw [h2.length_eq, List.length_map, hlen], hall, h2⟩
  rw [hps.1]
  simp only [ok_bind, hps.2]
  have hval' : List.Forall₂ (Groth16.Valid e vk) ps ((hs.map (·.2)).map fun h => (hashElements h).map (↑)) := by
    rw [List.map_map]
    exact List.forall₂_map_right_iff.mpr hval
  rcases C98_part V hE hd rand seed s₂ vk numTrials k _ ps hpl hval' hr with h | ⟨srs, s₃, -, h⟩
  · left; rw [h]; rfl
  right
  rw [h]
  simp only [ok_bind]
  have hrl : ps.length = (hs.map (·.2)).length := by rw [hval.length_eq, List.length_map]
  -- the monolithic circuit
  obtain ⟨hm1, hm2⟩ := C96_many hash (hs.map (·.1)) (hs.map (·.2)) (by simp)
  have hin2 : (hs.map (·.2)).flatMap (fun h => (hashElements h).map (↑)) =
      (manyInput (hs.map (·.1)) (hs.map (·.2))).map ((↑) : ℕ → F) := by
    rw [hm2, List.map_flatMap]
  have hmono : ∀ s₄, (unwrapRes (S3.setup ⟨hs.map (·.1), hs.map (·.2)⟩ s₄) >>= fun r =>
      snarkTrial S3 r.1.1 r.1.2 ⟨hs.map (·.1), hs.map (·.2)⟩
        ((hs.map (·.2)).flatMap fun h => (hashElements h).map ((↑) : ℕ → F)) r.2 >>= fun _ =>
      (pure () : Res Unit)) = .ok () := by
    intro s₄
    obtain ⟨⟨⟨pk3, vk3⟩, s₅⟩, h2⟩ := hS3.setup ⟨hs.map (·.1), hs.map (·.2)⟩ s₄ _ rfl
    obtain ⟨s₆, h3⟩ := (snarkTrials_complete hS3 ⟨hs.map (·.1), hs.map (·.2)⟩ s₄ s₅ pk3 vk3 h2 _ rfl
      (hm1.mpr (by
        rw [List.map_map]
        exact List.map_congr_left fun h hm => (hhs h hm).2))).1 s₅
    simp only [h2, unwrapRes_ok, ok_bind]
    rw [hin2, h3]
    rfl
  cases rec
  · rw [if_neg (by simp)]
    simp only [pure_eq_ok, ok_bind]
    cases mono
    · rfl
    · rw [if_pos rfl]; exact hmono s₃
  · rw [if_pos rfl]
    obtain ⟨P, hP, hP'⟩ := C96_relation (fun x p => Groth16.Valid e vk p (x.map (↑))) (hs.map (·.2)) (hs.map (·.2)) ps
      rfl hrl
    obtain ⟨⟨⟨pk2, vk2⟩, s₄⟩, h2⟩ := hS2.setup ⟨hs.map (·.2), ps, vk⟩ s₃ P hP
    obtain ⟨s₅, h3⟩ := (snarkTrials_complete hS2 ⟨hs.map (·.2), ps, vk⟩ s₃ s₄ pk2 vk2 h2 P hP
      (hP'.mpr (List.forall₂_map_left_iff.mpr hval.flip))).2 numTrials s₄
    simp only [h2, unwrapRes_ok, ok_bind]
    rw [h3]
    simp only [ok_bind]
    cases mono
    · rfl
    · rw [if_pos rfl]; exact hmono s₅

/-! ## The polynomial commitment bench -/

theorem forM_eq {A : Type} (f : A → Res Unit) : ∀ l : List A, (∀ a ∈ l, f a = .error .diverge ∨ f a = .ok ()) →
    l.forM f = .error .diverge ∨ l.forM f = .ok ()
  | [], _ => .inr rfl
  | a :: l, h => by
    show (f a >>= fun _ => l.forM f) = _ ∨ (f a >>= fun _ => l.forM f) = _
    rcases h a (by simp) with h1 | h1
    · left; rw [h1]; rfl
    · rw [h1]; exact forM_eq f l fun b hb => h b (by simp [hb])

theorem forM_append_eq {A : Type} (f : A → Res Unit) : ∀ l l' : List A,
    (l ++ l').forM f = l.forM f >>= fun _ => l'.forM f
  | [], _ => rfl
  | a :: l, l' => by
    show (f a >>= fun _ => (l ++ l').forM f) = (f a >>= fun _ => l.forM f) >>= fun _ => l'.forM f
    rw [forM_append_eq f l l']
    cases f a <;> rfl

theorem polyTrials_eq (V : Env ρ F G1 G2 GT TF) (randPoly : ℕ → ρ → List F × ρ) (d : ℕ) (trial : List F → F → Res Unit)
    (h : ∀ s z, trial (randPoly d s).1 z = .error .diverge ∨ trial (randPoly d s).1 z = .ok ()) : ∀ (n : ℕ) (s : ρ),
    polyTrials V randPoly d trial n s = .error .diverge ∨ polyTrials V randPoly d trial n s = .ok ()
  | 0, _ => .inr rfl
  | n + 1, s => by
    rw [polyTrials]
    simp only
    rcases h s (V.randF (randPoly d s).2).1 with h1 | h1
    · left; rw [h1]; rfl
    · rw [h1]; exact polyTrials_eq V randPoly d trial h n _

theorem polyPoint_eq (V : Env ρ F G1 G2 GT TF) (hE : V.E.Lawful e) (hd : ∀ x, 16 ≤ (V.digest x).length)
    (randPoly : ℕ → ρ → List F × ρ) (hp : ∀ d s, (randPoly d s).1.length ≤ d + 1)
    (hl : ∀ d s, (randPoly d s).1.getLast? ≠ some 0) (seed : ρ) (numTrials i : ℕ) (hi : i ≤ 30) :
    polyPoint V randPoly seed numTrials (4 ^ (i + 1) - 1) = .error .diverge ∨
    polyPoint V randPoly seed numTrials (4 ^ (i + 1) - 1) = .ok () := by
  have e1 : 4 ^ (i + 1) - 1 + 1 = 4 ^ (i + 1) := Nat.sub_add_cancel (Nat.one_le_pow _ 4 (by norm_num))
  have e2 : 4 ≤ 4 ^ (i + 1) := by rw [pow_succ]; have := Nat.one_le_pow i 4 (by norm_num); omega
  have e3 : 4 ^ (i + 1) - 1 + 1 < 2 ^ 64 := by
    rw [e1, show (2 : ℕ) ^ 64 = 4 ^ 32 by norm_num]
    exact Nat.pow_lt_pow_right (by norm_num) (by omega)
  have hp' : ∀ s, (randPoly (4 ^ (i + 1) - 1) s).1.length ≤ 4 ^ (i + 1) := fun s => by
    have := hp (4 ^ (i + 1) - 1) s
    rwa [e1] at this
  rw [polyPoint]
  obtain ⟨α, β, s1, h1⟩ := Kzg.C37_setup V seed (4 ^ (i + 1) - 1)
  rcases polyTrials_eq V randPoly (4 ^ (i + 1) - 1) _ (fun s z => .inr (C97_kzg V hE seed s1 _ _ h1 _ (hl _ s) (hp _ s) z))
    numTrials s1 with h | h
  · left; rw [h1]; simp only [unwrapRes_ok, ok_bind]; rw [h]; rfl
  simp only [h1, unwrapRes_ok, ok_bind, h]
  obtain ⟨x, y, -, -, -, h2, -⟩ := C76_degrees (4 ^ (i + 1) - 1) (by omega) e3
  obtain ⟨srs, a, b, s2, h3, -⟩ := Bivariate.C41_setup V seed x y
  have h4 : Univariate.setup V seed (4 ^ (i + 1) - 1) = .ok (srs, s2) := by
    rw [Univariate.setup, h2]; exact h3
  obtain ⟨-, -, v, -, hv, -⟩ := Univariate.C76_complete V hE hd seed s2 _ srs (by omega) e3 (not_short i) h4 []
    (by simp) 0
  simp only [h4, unwrapRes_ok, ok_bind, hv]
  rcases polyTrials_eq V randPoly (4 ^ (i + 1) - 1) _ (fun s z => C97_ipa V hE hd i hi seed s2 srs h4 v hv _ (hp' s) z)
    numTrials s2 with h | h
  · left; rw [h]; rfl
  simp only [h, ok_bind]
  obtain ⟨x, y, -, -, -, h5, -⟩ := C76_degrees_transparent (4 ^ (i + 1) - 1) (by omega) e3
  obtain ⟨ck, s3, h6, -⟩ := TBivariate.C47_setup V seed x y
  have h7 : TUnivariate.setup V seed (4 ^ (i + 1) - 1) = .ok (ck, s3) := by
    rw [TUnivariate.setup, h5]; exact h6
  simp only [h7, unwrapRes_ok, ok_bind]
  exact polyTrials_eq V randPoly (4 ^ (i + 1) - 1) _ (fun s z => C97_transparent V hE hd i hi seed s3 ck h7 _ (hp' s) z)
    numTrials s3

/-- The bench runs through for up to 31 data points, unless a challenge search fails; with more it panics when it
computes the 32nd degree. -/
theorem C139_poly (V : Env ρ F G1 G2 GT TF) (hE : V.E.Lawful e) (hd : ∀ x, 16 ≤ (V.digest x).length)
    (randPoly : ℕ → ρ → List F × ρ) (hp : ∀ d s, (randPoly d s).1.length ≤ d + 1)
    (hl : ∀ d s, (randPoly d s).1.getLast? ≠ some 0) (seed : ρ) (parse : String → Option ℕ) (argv : List String)
    (numTrials numDataPoints : ℕ) (ha : polyArgs parse argv = .ok (some (numTrials, numDataPoints))) :
    (numDataPoints ≤ 31 → polyMain V randPoly seed parse argv = .error .diverge ∨
      polyMain V randPoly seed parse argv = .ok ()) ∧
    (32 ≤ numDataPoints → polyMain V randPoly seed parse argv = .error .diverge ∨
      polyMain V randPoly seed parse argv = panic' .overflow) := by
  rw [polyMain, ha]
  simp only [ok_bind]
  have hstep : ∀ i ≤ 30, (do let degree ← benchDegree i; polyPoint V randPoly seed numTrials degree) = .error .diverge ∨
      (do let degree ← benchDegree i; polyPoint V randPoly seed numTrials degree) = .ok () := fun i hi => by
    rw [(C97_degree i).1 hi]
    exact polyPoint_eq V hE hd randPoly hp hl seed numTrials i hi
  constructor
  · intro hn
    exact forM_eq _ _ fun i hi => hstep i (by have := List.mem_range.mp hi; omega)
  · intro hn
    obtain ⟨m, rfl⟩ : ∃ m, numDataPoints = 31 + (m + 1) := ⟨numDataPoints - 32, by omega⟩
    rw [polyRun, List.range_add, forM_append_eq]
    rcases forM_eq (fun i => do let degree ← benchDegree i; polyPoint V randPoly seed numTrials degree) (List.range 31)
      (fun i hi => hstep i (by have := List.mem_range.mp hi; omega)) with h | h
    · left; rw [h]; rfl
    · right
      rw [h, List.range_succ_eq_map]
      simp only [ok_bind, List.map_cons]
      show ((benchDegree 31 >>= fun degree => _) >>= fun _ => _) = _
      rw [(C97_degree 31).2 (by norm_num)]
      rfl

end

/-! ## The SIPP example -/

section
variable {σ F G1 G2 GT TF : Type} [Field F] [DecidableEq F] [AddCommGroup G1] [Module F G1]
  [AddCommGroup G2] [Module F G2] [AddCommGroup GT] [Module F GT] [Monoid TF] [DecidableEq GT]
  {V : Sipp.Env σ F G1 G2 GT TF} {e : G1 →ₗ[F] G2 →ₗ[F] GT}

/-- With sizes from `2` to at most `2^30` the program runs through. -/
theorem C139_scaling (hE : V.E.Lawful e) (hrng : ∀ rng : Sipp.Rng σ, (((rng.nextU128 V).1 : ℕ) : F) ≠ 0)
    (shuffleA : ℕ → List G1 → List G1) (shuffleB : ℕ → List G2 → List G2)
    (hA : ∀ n l, (shuffleA n l).length = l.length) (hB : ∀ n l, (shuffleB n l).length = l.length) (g : G1) (h : G2)
    (x : F) (parse : String → Option ℕ) (argv : List String) (lo hi : ℕ) (dir : String)
    (ha : scalingArgs parse argv = .ok (lo, hi, dir)) (h1 : 1 ≤ lo) (h2 : hi ≤ 30) :
    scalingMain V shuffleA shuffleB g h x parse argv = .ok () := by
  rw [scalingMain, ha]
  simp only [ok_bind, shiftCount, if_pos (show hi < 31 by omega), List.length_replicate]
  refine C95_run hE hrng shuffleA shuffleB hA hB _ hi (by simp) _ _ _ (fun i hi' => ?_) (by simp) (by simp)
  obtain ⟨j, hj, rfl⟩ := List.mem_drop_iff_getElem.mp hi'
  rw [List.length_range] at hj
  rw [List.getElem_range]
  omega

/-- With `0` as the smallest logarithm it panics at the first size. -/
theorem C139_scaling_zero (hE : V.E.Lawful e)
    (shuffleA : ℕ → List G1 → List G1) (shuffleB : ℕ → List G2 → List G2)
    (hA : ∀ n l, (shuffleA n l).length = l.length) (hB : ∀ n l, (shuffleB n l).length = l.length) (g : G1) (h : G2)
    (x : F) (parse : String → Option ℕ) (argv : List String) (hi : ℕ) (dir : String)
    (ha : scalingArgs parse argv = .ok (0, hi, dir)) (h2 : hi ≤ 30) :
    scalingMain V shuffleA shuffleB g h x parse argv = panic' .assertion := by
  rw [scalingMain, ha]
  simp only [ok_bind, shiftCount, if_pos (show hi < 31 by omega), List.length_replicate, List.drop_zero,
    List.range_succ_eq_map]
  exact C95_zero hE shuffleA shuffleB hA hB _ _ _ _ (by simp) (by simp) (by simp)

/-- The shift that gives the number of elements has type `i32`: from `2^31` on the program panics before the first
proof, although `2^31` fits into `usize`. -/
theorem C139_scaling_limit (shuffleA : ℕ → List G1 → List G1) (shuffleB : ℕ → List G2 → List G2) (g : G1) (h : G2)
    (x : F) (parse : String → Option ℕ) (argv : List String) (lo hi : ℕ) (dir : String)
    (ha : scalingArgs parse argv = .ok (lo, hi, dir)) (h2 : 31 ≤ hi) (hlo : lo ≤ hi) :
    scalingMain V shuffleA shuffleB g h x parse argv = panic' (if hi = 31 then .bounds else .overflow) := by
  rw [scalingMain, ha]
  simp only [ok_bind, shiftCount, if_neg (show ¬ hi < 31 by omega)]
  by_cases h31 : hi = 31
  · rw [if_pos h31, if_pos h31]
    simp only [ok_bind, List.replicate_zero]
    obtain ⟨is, his⟩ : ∃ is, (List.range (hi + 1)).drop lo = lo :: is := by
      rw [List.drop_eq_getElem_cons (by simp; omega), List.getElem_range]
      exact ⟨_, rfl⟩
    rw [his, scalingRun]
    have : sliceTo ([] : List G1) (2 ^ lo) = panic' .bounds := by
      rw [sliceTo, if_neg]
      simp
    simp only [this]
    rfl
  · rw [if_neg h31, if_neg h31]
    rfl

end

/-! ## On the toy curve -/

/-- Groth16 with a simulator as the prover: the proof for the public input `x` is `(0, 0, C)` with the `C` that
satisfies the equation; like the prover, it refuses a circuit that is not satisfied. -/
def toySnark {C : Type} (size : C → ℕ) (sat : C → Bool) (input : C → List Toy.F) :
    Snark ℕ C (List Toy.F) (G16Proof Toy.F Toy.F) (G16VK Toy.F Toy.F) (G16VK Toy.F Toy.F) where
  setup c s := .ok ((⟨2, 3, 1, 1, List.replicate (size c + 1) 4⟩, ⟨2, 3, 1, 1, List.replicate (size c + 1) 4⟩), s)
  prove pk c s := if sat c then
      .ok (⟨0, 0, -(6 + dot (fun s g => s • g) (1 :: input c) pk.gammaAbc)⟩, s + 1) else panic' .assertion
  verify vk x p := .ok (decide (p.a * p.b = 6 + dot (fun s g => s • g) (1 :: x) vk.gammaAbc + p.c))

theorem toySnark_complete {C Sh : Type} (size : C → ℕ) (sat : C → Bool) (input : C → List Toy.F) (shape : C → Sh)
    (h1 : ∀ c c', shape c = shape c' → size c = size c') (h2 : ∀ c, sat c → (input c).length = size c) :
    (toySnark size sat input).Complete shape (fun c => .ok (sat c = true)) input
      (fun vk x p => Groth16.Valid Toy.e vk p x) where
  setup c s P _ := ⟨_, rfl⟩
  prove c₀ c s₀ pk vk s₁ s P h hs hr hP := by
    cases h
    cases hr
    refine ⟨_, _, if_pos hP, ?_, ?_⟩
    · simp [h2 c hP, h1 c₀ c hs]
    · show (0 : Toy.F) * 0 = 2 * 3 + _ * 1 + _ * 1
      ring

/-- The proof system of the aggregation example. -/
def toyTest : Snark ℕ (TestCircuit Toy.F) (List Toy.F) (G16Proof Toy.F Toy.F) (G16VK Toy.F Toy.F)
    (G16VK Toy.F Toy.F) :=
  toySnark (fun c => c.publicInputs.length + 1) (fun c => c.sum == c.publicInputs.foldl (· + ·) c.witness)
    fun c => c.publicInputs ++ [c.sum]

/-- The example with 4 public inputs and 1024 proofs. -/
example : exampleMain Toy.env toyTest 4 (2 ^ 10) 0 = .error .diverge ∨
    exampleMain Toy.env toyTest 4 (2 ^ 10) 0 = .ok () :=
  C139_example (e := Toy.e) Toy.env Toy.lawful Toy.digest_length
    (fun _ _ _ r hc => by rw [Groth16.challenge_toy] at hc; cases hc; exact ⟨by decide, by decide⟩) _
    (by
      have := toySnark_complete (fun c : TestCircuit Toy.F => c.publicInputs.length + 1)
        (fun c => c.sum == c.publicInputs.foldl (· + ·) c.witness) (fun c => c.publicInputs ++ [c.sum])
        (fun c => c.publicInputs.length) (fun _ _ h => congrArg (· + 1) h) (by simp)
      simp only [beq_iff_eq] at this
      exact this) 4 9 0

/-- With two public inputs and four proofs it does end; with three or one proof it panics. -/
example : exampleMain Toy.env toyTest 2 4 0 = .ok () ∧ exampleMain Toy.env toyTest 2 3 0 = panic' .assertion ∧
    exampleMain Toy.env toyTest 2 1 0 = panic' .unwrap := by
  decide +kernel

/-- The other programs' proof systems: a hash that repeats the first byte, the recursion, and all hashes in one. -/
def toyHash (bs : Bytes) : Bytes := List.replicate 32 (bs.headD 0)

@[inherit_doc toyHash] def toyS1 := toySnark (fun _ : HashCircuit => 2) (fun c => toyHash c.input == c.output)
  fun c => (hashElements c.output).map (↑)

@[inherit_doc toyHash] def toyS2 := toySnark
  (fun c : RecursionCircuit (G16Proof Toy.F Toy.F) (G16VK Toy.F Toy.F) => 2 * c.hashOutputs.length)
  (fun c => c.hashOutputs.length == c.proofs.length) fun c => (recursionInput c.hashOutputs).map (↑)

@[inherit_doc toyHash] def toyS3 := toySnark (fun c : ManyCircuit => 2 * c.output.length)
  (fun c => c.output == c.input.map toyHash) fun c => (manyInput c.input c.output).map (↑)

/-- All parts of the aggregation bench with two proofs and two trials, with one proof copied and with both made. -/
example (all : Bool) : groth16Run (F2 := Toy.F) Toy.env (fun s : ℕ => (s, s + 1)) 3 toyHash
    (fun s => (List.replicate 32 (UInt8.ofNat s), s + 1)) toyS1 toyS2 toyS3 ⟨2, 2, true, all, true⟩ 5 = .ok () := by
  cases all <;> decide +kernel

/-- One data point of the polynomial commitment bench. -/
example : polyRun Toy.env (fun d s => (List.replicate (d + 1) (s + 1 : Toy.F), s + 1)) 5 2 1 = .ok () := by
  decide +kernel

/-- Sizes 2 and 4; sizes from `2^31` on. -/
example (parse : String → Option ℕ) (h1 : parse "1" = some 1) (h2 : parse "2" = some 2) (h31 : parse "31" = some 31)
    (h32 : parse "32" = some 32) :
    scalingMain Toy.sippEnv (fun _ => List.reverse) (fun _ l => l) 5 7 3 parse ["p", "1", "2", "."] = .ok () ∧
    scalingMain Toy.sippEnv (fun _ => List.reverse) (fun _ l => l) 5 7 3 parse ["p", "1", "31", "."] =
      panic' .bounds ∧
    scalingMain Toy.sippEnv (fun _ => List.reverse) (fun _ l => l) 5 7 3 parse ["p", "1", "32", "."] =
      panic' .overflow := by
  have h : ∀ t n, parse t = some n → scalingArgs parse ["p", "1", t, "."] = .ok (1, n, ".") := fun t n ht =>
    C94_scaling _ _ _ _ _ [] 1 n h1 ht
  exact ⟨C139_scaling Toy.lawful Sipp.toy_draw_ne_zero _ _ (by simp) (by simp) _ _ _ _ _ 1 2 "." (h _ _ h2) le_rfl
      (by norm_num),
    C139_scaling_limit _ _ _ _ _ _ _ 1 31 "." (h _ _ h31) (by norm_num) (by norm_num),
    C139_scaling_limit _ _ _ _ _ _ _ 1 32 "." (h _ _ h32) (by norm_num) (by norm_num)⟩

end Ripp.Bench
