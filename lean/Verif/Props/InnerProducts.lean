import Verif.Lemmas.InnerProducts
import Verif.Model.Commitments
import Verif.Toy

/-!
# C01-C10: inner products and commitments
-/

set_option linter.unusedSectionVars false
set_option linter.unusedVariables false

namespace Ripp

open Spec

section InnerProducts

variable {F G G1 G2 GT TF : Type} [Field F] [AddCommGroup G] [Module F G] [AddCommGroup G1]
  [Module F G1] [AddCommGroup G2] [Module F G2] [AddCommGroup GT] [Module F GT] [Monoid TF]
  {E : Engine G1 G2 GT TF} {e : G1 →ₗ[F] G2 →ₗ[F] GT}

/-- C01: the pairing inner product of equally long vectors is `Σ e(aᵢ, bᵢ)` for every number of
threads and every reduction schedule. -/
theorem C01_pairing_inner_product (hE : E.Lawful e) (X : Exec) (a : List G1) (b : List G2)
    (h : a.length = b.length) : pairingIP E X a b = .ok (dot (e · ·) a b) :=
  pairingIP_eq hE X a b h

/-- C01: the result (also an error) does not depend on threads or schedule. -/
theorem C01_pairing_schedule_independent (hE : E.Lawful e) (X Y : Exec) (a : List G1)
    (b : List G2) : pairingIP E X a b = pairingIP E Y a b := by
  by_cases h : a.length = b.length
  · rw [pairingIP_eq hE X a b h, pairingIP_eq hE Y a b h]
  · rw [pairingIP_err E X a b h, pairingIP_err E Y a b h]

example : pairingIP Toy.E Toy.X [2, 3, 5, 7, 1] [1, 4, 6, 8, 9] = .ok (109 : Toy.F) :=
  C01_pairing_inner_product Toy.lawful Toy.X _ _ rfl

/-- C02: multiexponentiation. -/
theorem C02_multiexponentiation (a : List G) (s : List F) (h : a.length = s.length) :
    multiexpIP a s = .ok (dot (fun g c => c • g) a s) :=
  multiexpIP_eq a s h

/-- C02: scalar inner product, for every schedule. -/
theorem C02_scalar (X : Exec) (a b : List F) (h : a.length = b.length) :
    scalarIP X a b = .ok (dot (· * ·) a b) :=
  scalarIP_eq X a b h

example : multiexpIP ([2, 3, 5] : List Toy.F) ([4, 6, 8] : List Toy.F) = .ok 66 :=
  C02_multiexponentiation _ _ rfl
example : scalarIP Toy.X [2, 3, 5] [4, 6, 8] = .ok (66 : Toy.F) := C02_scalar Toy.X _ _ rfl

/-- C03: an inner product returns `MessageLengthInvalid` with the two lengths exactly when the
lengths differ; in all other cases it returns a value (so it never panics). -/
theorem C03_pairing_error_iff (hE : E.Lawful e) (X : Exec) (a : List G1) (b : List G2) :
    (pairingIP E X a b = .error (.ipLength a.length b.length) ↔ a.length ≠ b.length) ∧
    (∀ f, pairingIP E X a b = .error f → f = .ipLength a.length b.length) := by
  by_cases h : a.length = b.length
  · simp [pairingIP_eq hE X a b h, h]
  · simp [pairingIP_err E X a b h, h]

/-- C03 for the multiexponentiation. -/
theorem C03_multiexponentiation_error_iff (a : List G) (s : List F) :
    (multiexpIP a s = .error (.ipLength a.length s.length) ↔ a.length ≠ s.length) ∧
    (∀ f, multiexpIP a s = .error f → f = .ipLength a.length s.length) := by
  by_cases h : a.length = s.length
  · simp [multiexpIP_eq a s h, h]
  · simp [multiexpIP_err a s h, h]

/-- C03 for the scalar product. -/
theorem C03_scalar_error_iff (X : Exec) (a b : List F) :
    (scalarIP X a b = .error (.ipLength a.length b.length) ↔ a.length ≠ b.length) ∧
    (∀ f, scalarIP X a b = .error f → f = .ipLength a.length b.length) := by
  by_cases h : a.length = b.length
  · simp [scalarIP_eq X a b h, h]
  · simp [scalarIP_err X a b h, h]

example : scalarIP Toy.X [2, 3] [4] = .error (α := Toy.F) (.ipLength 2 1) :=
  (C03_scalar_error_iff Toy.X _ _).1.mpr (by simp)

end InnerProducts

/-- Observable bilinearity of a function on two vectors that may fail: whenever the parts succeed, the
combination succeeds with the combined value. -/
structure BilinearFn {F A B C : Type} [Field F] [AddCommGroup A] [Module F A] [AddCommGroup B]
    [Module F B] [AddCommGroup C] [Module F C] (f : List A → List B → Res C) : Prop where
  add_left : ∀ a a' b x y, f a b = .ok x → f a' b = .ok y → f (addV a a') b = .ok (x + y)
  add_right : ∀ a b b' x y, f a b = .ok x → f a b' = .ok y → f a (addV b b') = .ok (x + y)
  smul_left : ∀ (c : F) a b x, f a b = .ok x → f (smulV c a) b = .ok (c • x)
  smul_right : ∀ (c : F) a b x, f a b = .ok x → f a (smulV c b) = .ok (c • x)
  append : ∀ a a' b b' x y, f a b = .ok x → f a' b' = .ok y →
    f (a ++ a') (b ++ b') = .ok (x + y)

/-- A function that is a bilinear sum on equal lengths and fails otherwise is bilinear. -/
theorem BilinearFn.of_dot {F A B C : Type} [Field F] [AddCommGroup A] [Module F A] [AddCommGroup B]
    [Module F B] [AddCommGroup C] [Module F C] (f : List A → List B → Res C)
    (β : A →ₗ[F] B →ₗ[F] C) (hok : ∀ a b, a.length = b.length → f a b = .ok (dot (β · ·) a b))
    (herr : ∀ a b, a.length ≠ b.length → ∀ x, f a b ≠ .ok x) : BilinearFn (F := F) f := by
  have key : ∀ {a b x}, f a b = .ok x → a.length = b.length ∧ x = dot (β · ·) a b := by
    intro a b x h
    by_cases hl : a.length = b.length
    · rw [hok a b hl] at h
      exact ⟨hl, (Except.ok.inj h).symm⟩
    · exact absurd h (herr a b hl x)
  constructor
  · intro a a' b x y h1 h2
    obtain ⟨l1, rfl⟩ := key h1
    obtain ⟨l2, rfl⟩ := key h2
    rw [hok _ _ (by simp [l1, l2]), dot_addV_left _ _ _ _ (by omega)]
  · intro a b b' x y h1 h2
    obtain ⟨l1, rfl⟩ := key h1
    obtain ⟨l2, rfl⟩ := key h2
    rw [hok _ _ (by simp [← l1, ← l2]), dot_addV_right _ _ _ _ (by omega)]
  · intro c a b x h1
    obtain ⟨l1, rfl⟩ := key h1
    rw [hok _ _ (by simp [l1]), dot_smulV_left]
  · intro c a b x h1
    obtain ⟨l1, rfl⟩ := key h1
    rw [hok _ _ (by simp [l1]), dot_smulV_right]
  · intro a a' b b' x y h1 h2
    obtain ⟨l1, rfl⟩ := key h1
    obtain ⟨l2, rfl⟩ := key h2
    rw [hok _ _ (by simp [l1, l2]), dot_append _ _ _ _ _ l1]

section Bilinear

variable {ρ F G G1 G2 GT TF : Type} [Field F] [AddCommGroup G] [Module F G] [AddCommGroup G1]
  [Module F G1] [AddCommGroup G2] [Module F G2] [AddCommGroup GT] [Module F GT] [Monoid TF]
  {E : Engine G1 G2 GT TF} {e : G1 →ₗ[F] G2 →ₗ[F] GT}

/-- C04: the pairing inner product is bilinear and splits over concatenation. -/
theorem C04_pairing_bilinear (hE : E.Lawful e) (X : Exec) :
    BilinearFn (F := F) (pairingIP E X) :=
  .of_dot _ e (pairingIP_eq hE X) fun a b h x => by simp [pairingIP_err E X a b h]

/-- C04 for the multiexponentiation. -/
theorem C04_multiexponentiation_bilinear :
    BilinearFn (F := F) (multiexpIP (F := F) (G := G)) :=
  .of_dot _ (smulMap F G) multiexpIP_eq fun a b h x => by simp [multiexpIP_err a b h]

/-- C04 for the scalar product. -/
theorem C04_scalar_bilinear (X : Exec) : BilinearFn (F := F) (scalarIP (F := F) X) :=
  .of_dot _ (mulMap F) (scalarIP_eq X) fun a b h x => by simp [scalarIP_err X a b h]

example : pairingIP Toy.E Toy.X (addV [1, 2] [3, 4]) [5, 6] = .ok ((17 : Toy.F) + 39) :=
  (C04_pairing_bilinear Toy.lawful Toy.X).add_left _ _ _ _ _
    (C01_pairing_inner_product Toy.lawful Toy.X _ _ rfl)
    (C01_pairing_inner_product Toy.lawful Toy.X _ _ rfl)

/-- C05: Pedersen commitments are doubly homomorphic (first argument the key, second the message). -/
theorem C05_pedersen_homomorphic (rand : ρ → G × ρ) :
    BilinearFn (F := F) (pedersen (F := F) rand).commit :=
  C04_multiexponentiation_bilinear

/-- C05: AFGHO commitments in G1 are doubly homomorphic. -/
theorem C05_afghoG1_homomorphic (hE : E.Lawful e) (X : Exec) (rand : ρ → G2 × ρ) :
    BilinearFn (F := F) (afghoG1 E X rand).commit := by
  have h := C04_pairing_bilinear hE X
  exact ⟨fun _ _ _ => h.add_right _ _ _, fun _ _ _ => h.add_left _ _ _, fun c _ _ => h.smul_right c _ _,
    fun c _ _ => h.smul_left c _ _, fun _ _ _ _ => h.append _ _ _ _⟩

/-- C05: AFGHO commitments in G2 are doubly homomorphic. -/
theorem C05_afghoG2_homomorphic (hE : E.Lawful e) (X : Exec) (rand : ρ → G1 × ρ) :
    BilinearFn (F := F) (afghoG2 E X rand).commit :=
  C04_pairing_bilinear hE X

example : (pedersen (F := Toy.F) Toy.rand).commit [10, 20] (addV [1, 2] [3, 4]) =
    .ok ((50 : Toy.F) + 110) :=
  (C05_pedersen_homomorphic Toy.rand).add_right [10, 20] [1, 2] [3, 4] 50 110
    (C02_multiexponentiation [10, 20] [1, 2] rfl) (C02_multiexponentiation [10, 20] [3, 4] rfl)

/-- C06: `verify` accepts exactly the value returned by `commit`, rejects every other value, and
fails exactly as `commit` does. -/
theorem C06_verify_iff {K M O : Type} [DecidableEq O] (C : Commitment ρ K M O) (k : List K)
    (m : List M) (com : O) :
    (C.verify k m com = .ok true ↔ C.commit k m = .ok com) ∧
    (C.verify k m com = .ok false ↔ ∃ o, C.commit k m = .ok o ∧ o ≠ com) ∧
    (∀ f, C.verify k m com = .error f ↔ C.commit k m = .error f) := by
  unfold Commitment.verify
  cases h : C.commit k m with
  | error e => simp
  | ok o => simp

/-- C06 instantiated: what AFGHO and Pedersen verification accept, and the length error. -/
theorem C06_concrete [DecidableEq GT] [DecidableEq G] (hE : E.Lawful e) (X : Exec)
    (rand : ρ → G × ρ) (rand1 : ρ → G1 × ρ) (rand2 : ρ → G2 × ρ) (k : List G) (m : List F) (c : G)
    (g : List G1) (h : List G2) (t : GT) :
    (k.length = m.length →
      (pedersen rand).verify k m c = .ok (decide (c = dot (fun x y => y • x) k m))) ∧
    (k.length ≠ m.length →
      (pedersen rand).verify k m c = .error (.ipLength k.length m.length)) ∧
    (g.length = h.length →
      (afghoG1 E X rand2).verify h g t = .ok (decide (t = dot (e · ·) g h)) ∧
      (afghoG2 E X rand1).verify g h t = .ok (decide (t = dot (e · ·) g h))) ∧
    (g.length ≠ h.length →
      (afghoG1 E X rand2).verify h g t = .error (.ipLength g.length h.length) ∧
      (afghoG2 E X rand1).verify g h t = .error (.ipLength g.length h.length)) := by
  refine ⟨fun hl => ?_, fun hl => ?_, fun hl => ?_, fun hl => ?_⟩ <;>
    simp only [Commitment.verify, pedersen, afghoG1, afghoG2]
  · simp [multiexpIP_eq k m hl, eq_comm]
  · simp [multiexpIP_err k m hl]
  · simp [pairingIP_eq hE X g h hl, eq_comm]
  · simp [pairingIP_err E X g h hl]

example : (afghoG1 Toy.E Toy.X Toy.rand).verify [10, 20] [1, 2] (50 : Toy.F) = .ok true :=
  (C06_verify_iff _ _ _ _).1.mpr
    (C01_pairing_inner_product Toy.lawful Toy.X [1, 2] [10, 20] rfl)

omit [AddCommGroup G] in
theorem randomGenerators_length (rand : ρ → G × ρ) : ∀ (n : ℕ) (s : ρ),
    (randomGenerators rand s n).1.length = n
  | 0, _ => rfl
  | n + 1, s => by simp [randomGenerators, randomGenerators_length rand n]

/-- A commitment whose `setup` always succeeds with exactly the requested number of keys. -/
def SetupExact {K M O : Type} (C : Commitment ρ K M O) : Prop :=
  ∀ s n, ∃ ks s', C.setup s n = .ok (ks, s') ∧ ks.length = n

/-- C07: all five commitment schemes return exactly the requested number of keys. -/
theorem C07_setup_lengths (E : Engine G1 G2 GT TF) (X : Exec) (rand : ρ → G × ρ)
    (rand1 : ρ → G1 × ρ) (rand2 : ρ → G2 × ρ) {T : Type} :
    SetupExact (pedersen (F := F) rand) ∧ SetupExact (afghoG1 E X rand2) ∧
    SetupExact (afghoG2 E X rand1) ∧ SetupExact (identityCommitment (ρ := ρ) (T := T)) ∧
    SetupExact (ssmPlaceholder (ρ := ρ) (F := F)) :=
  ⟨fun s n => ⟨_, _, rfl, randomGenerators_length rand n s⟩,
    fun s n => ⟨_, _, rfl, randomGenerators_length rand2 n s⟩,
    fun s n => ⟨_, _, rfl, randomGenerators_length rand1 n s⟩,
    fun s n => ⟨_, _, rfl, List.length_replicate⟩,
    fun s n => ⟨_, _, rfl, List.length_replicate⟩⟩

/-- The keys returned by `random_generators` are exactly the successive outputs of the sampler, so
`n + m` keys are `n` keys followed by `m` more. -/
theorem C07_random_generators_append (rand : ρ → G × ρ) : ∀ (n m : ℕ) (s : ρ),
    (randomGenerators rand s (n + m)).1 =
      (randomGenerators rand s n).1 ++ (randomGenerators rand (randomGenerators rand s n).2 m).1
  | 0, m, s => by simp [randomGenerators]
  | n + 1, m, s => by
    rw [show n + 1 + m = (n + m) + 1 by omega]
    simp [randomGenerators, C07_random_generators_append rand n m]

example : (randomGenerators Toy.rand 5 3).1 = [5, 6, 7] := rfl

end Bilinear

section Binding

variable {ρ F G G1 G2 GT TF : Type} [Field F] [AddCommGroup G] [Module F G] [AddCommGroup G1]
  [Module F G1] [AddCommGroup G2] [Module F G2] [AddCommGroup GT] [Module F GT] [Monoid TF]
  {E : Engine G1 G2 GT TF} {e : G1 →ₗ[F] G2 →ₗ[F] GT}

/-- Entrywise difference. -/
def subV {M : Type} [Sub M] (u v : List M) : List M := List.zipWith (· - ·) u v

theorem subV_eq_zero {M : Type} [AddCommGroup M] : ∀ (u v : List M), u.length = v.length →
    (∀ x ∈ subV u v, x = 0) → u = v
  | [], [], _, _ => rfl
  | [], _ :: _, h, _ => by simp at h
  | _ :: _, [], h, _ => by simp at h
  | a :: u, b :: v, h, h' => by
    rw [show a = b from sub_eq_zero.mp (h' (a - b) (by simp [subV])),
      subV_eq_zero u v (by simpa using h) fun x hx => h' x (by
        simp only [subV, List.zipWith_cons_cons, List.mem_cons]; exact Or.inr hx)]

/-- Binding, as a reduction: two different openings of one commitment give a non-zero vector that
commits to zero under the same key. -/
def BindingReduction {K M O : Type} [AddCommGroup M] [Zero O] (C : Commitment ρ K M O) : Prop :=
  ∀ k m m' c, C.commit k m = .ok c → C.commit k m' = .ok c → m ≠ m' →
    (∃ x ∈ subV m m', x ≠ 0) ∧ C.commit k (subV m m') = .ok 0

theorem bindingReduction_of_bilinear {K M O : Type} [AddCommGroup K] [Module F K] [AddCommGroup M]
    [Module F M] [AddCommGroup O] [Module F O] (C : Commitment ρ K M O)
    (h : BilinearFn (F := F) C.commit) (hl : ∀ k m x, C.commit k m = .ok x → k.length = m.length) :
    BindingReduction C := by
  intro k m m' c h1 h2 hne
  have hlen : m.length = m'.length := (hl _ _ _ h1).symm.trans (hl _ _ _ h2)
  refine ⟨?_, ?_⟩
  · by_contra hc
    push Not at hc
    exact hne (subV_eq_zero m m' hlen hc)
  · have := h.add_right k m (smulV (-1 : F) m') c _ h1 (h.smul_right (-1) k m' c h2)
    have e1 : addV m (smulV (-1 : F) m') = subV m m' := by
      simp [addV, smulV, subV, List.zipWith_map_right, sub_eq_add_neg]
    rw [e1] at this
    rw [this]; simp

/-- C08: binding reduction for the three group commitments. -/
theorem C08_binding_reduction (hE : E.Lawful e) (X : Exec) (rand : ρ → G × ρ)
    (rand1 : ρ → G1 × ρ) (rand2 : ρ → G2 × ρ) :
    BindingReduction (pedersen (F := F) rand) ∧ BindingReduction (afghoG1 E X rand2) ∧
    BindingReduction (afghoG2 E X rand1) := by
  refine ⟨bindingReduction_of_bilinear (F := F) _ (C05_pedersen_homomorphic rand) ?_,
    bindingReduction_of_bilinear (F := F) _ (C05_afghoG1_homomorphic hE X rand2) ?_,
    bindingReduction_of_bilinear (F := F) _ (C05_afghoG2_homomorphic hE X rand1) ?_⟩ <;>
  · intro k m x h
    by_contra hl
    simp only [pedersen, afghoG1, afghoG2] at h
    first
      | rw [multiexpIP_err _ _ hl] at h; cases h
      | rw [pairingIP_err _ _ _ _ hl] at h; cases h
      | rw [pairingIP_err _ _ _ _ (Ne.symm hl)] at h; cases h

/-- C08: under a key with no non-trivial relation a commitment has at most one opening. -/
theorem C08_unique_opening {K M O : Type} [AddCommGroup M] [Zero O] (C : Commitment ρ K M O)
    (hb : BindingReduction C) (k : List K)
    (hk : ∀ d, C.commit k d = .ok 0 → ∀ x ∈ d, x = 0) (m m' : List M) (c : O)
    (h1 : C.commit k m = .ok c) (h2 : C.commit k m' = .ok c) : m = m' := by
  by_contra hne
  obtain ⟨⟨x, hx, hx0⟩, h0⟩ := hb k m m' c h1 h2 hne
  exact hx0 (hk _ h0 x hx)

/-- Two openings of 50 under the key (10, 20): 1·10 + 2·20 = 3·10 + 1·20. -/
example : (pedersen Toy.rand).commit ([10, 20] : List Toy.F) (subV [1, 2] [3, (1 : Toy.F)]) = .ok 0 :=
  ((C08_binding_reduction Toy.lawful Toy.X Toy.rand Toy.rand Toy.rand).1 [10, 20] [1, 2] [3, 1]
    (50 : Toy.F) (C02_multiexponentiation [10, 20] [1, 2] rfl)
    (C02_multiexponentiation [10, 20] [3, 1] rfl) (by decide)).2

/-- A key of one generator has no non-trivial relation. -/
example (d : List Toy.F) (h : (pedersen Toy.rand).commit [(1 : Toy.F)] d = .ok 0) :
    ∀ x ∈ d, x = 0 := by
  by_cases hl : 1 = d.length
  · obtain ⟨y, rfl⟩ := List.length_eq_one_iff.mp hl.symm
    simp only [pedersen, multiexpIP_eq [(1 : Toy.F)] [y] rfl, Except.ok.injEq] at h
    simpa using h
  · simp [pedersen, multiexpIP_err [(1 : Toy.F)] d hl] at h

end Binding

section Identity

variable {ρ F T : Type}

/-- C09: the identity commitment returns the message whatever the key is; two openings of one
commitment are equal. -/
theorem C09_identity_binding (k k' : List Placeholder) (m m' : List T) :
    (identityCommitment (ρ := ρ)).commit k m = .ok ⟨m⟩ ∧
    ((identityCommitment (ρ := ρ)).commit k m = (identityCommitment (ρ := ρ)).commit k' m' ↔
      m = m') := by
  simp [identityCommitment]

/-- C09: homomorphic on messages (entrywise sum), and adding outputs of different lengths keeps only
the common prefix. -/
theorem C09_identity_add [Add T] (m m' : List T) :
    (⟨m⟩ + ⟨m'⟩ : IdentityOutput T) = ⟨addV m m'⟩ ∧
    ((⟨m⟩ + ⟨m'⟩ : IdentityOutput T)).vals.length = min m.length m'.length :=
  ⟨rfl, by
    change (List.zipWith (· + ·) m m').length = _
    simp⟩

/-- C09: homogeneous. -/
theorem C09_identity_smul [SMul F T] (c : F) (m : List T) :
    (c • (⟨m⟩ : IdentityOutput T)) = ⟨smulV c m⟩ := rfl

/-- Truncation in a concrete case: the third entry disappears. -/
example : (⟨[1, 2, 3]⟩ + ⟨[10, 20]⟩ : IdentityOutput ℕ) = ⟨[11, 22]⟩ := rfl

/-- C10: the placeholder commitment is zero for all keys and messages; it verifies any message against
zero and nothing else. -/
theorem C10_placeholder [Field F] [DecidableEq F] (k : List Placeholder) (m : List F) (c : F) :
    (ssmPlaceholder (ρ := ρ)).commit k m = .ok 0 ∧
    ((ssmPlaceholder (ρ := ρ)).verify k m c = .ok true ↔ c = 0) ∧
    (c ≠ 0 → (ssmPlaceholder (ρ := ρ)).verify k m c = .ok false) := by
  refine ⟨rfl, ?_, fun h => ?_⟩
  · simp [Commitment.verify, ssmPlaceholder, eq_comm]
  · simp [Commitment.verify, ssmPlaceholder, Ne.symm h]

end Identity

end Ripp
