import Verif.Model.Display
import Verif.Props.GipaInstances

/-!
# C145: what the texts of the errors say

Property statements are in `properties.jsonl`.
-/

set_option linter.unusedSectionVars false

namespace Ripp

theorem toList_lengthText (l r : ℕ) : (lengthText l r).toList =
    "left length, right length: ".toList ++ (Nat.toDigits 10 l ++ (',' :: ' ' :: Nat.toDigits 10 r)) := by
  have h : lengthText l r = "left length, right length: " ++ l.repr ++ ", " ++ r.repr := rfl
  have hs : ", ".toList = [',', ' '] := by decide
  rw [h, String.toList_append, String.toList_append, String.toList_append, Nat.toList_repr, Nat.toList_repr, hs]
  simp only [List.append_assoc, List.cons_append, List.nil_append]

theorem comma_notMem_toDigits (n : ℕ) : ',' ∉ Nat.toDigits 10 n := fun h => by
  have := Nat.isDigit_of_mem_toDigits (by norm_num) (by norm_num) h
  revert this; decide

theorem toDigits_inj {m n : ℕ} (h : Nat.toDigits 10 m = Nat.toDigits 10 n) : m = n := by
  have := congrArg (Nat.ofDigitChars 10 · 0) h
  simpa [Nat.ofDigitChars_toDigits] using this

theorem append_sep_inj {α : Type} (c : α) : ∀ (a a' b b' : List α), c ∉ a → c ∉ a' → a ++ c :: b = a' ++ c :: b' →
    a = a' ∧ b = b'
  | [], [], b, b', _, _, h => by simpa using h
  | [], x :: a', b, b', _, h', h => by
    simp only [List.nil_append, List.cons_append, List.cons.injEq] at h
    exact absurd (by simp [h.1]) h'
  | x :: a, [], b, b', h', _, h => by
    simp only [List.nil_append, List.cons_append, List.cons.injEq] at h
    exact absurd (by simp [h.1]) h'
  | x :: a, y :: a', b, b', h1, h2, h => by
    simp only [List.cons_append, List.cons.injEq] at h
    obtain ⟨e1, e2⟩ := append_sep_inj c a a' b b' (fun h => h1 (by simp [h])) (fun h => h2 (by simp [h])) h.2
    exact ⟨by rw [h.1, e1], e2⟩

/-- C145: the texts of the errors. -/
theorem C145_text (l r : ℕ) :
    (Fault.ipLength l r).text = some ("left length, right length: " ++ toString l ++ ", " ++ toString r) ∧
    (Fault.argLength l r).text = some ("left length, right length: " ++ toString l ++ ", " ++ toString r) ∧
    Fault.ipInvalid.text = some "inner product not sound" := ⟨rfl, rfl, rfl⟩

/-- C145: the text of a length error determines the two lengths, in order. -/
theorem C145_lengths (l r l' r' : ℕ) : lengthText l r = lengthText l' r' ↔ l = l' ∧ r = r' := by
  constructor
  · intro h
    have h := congrArg String.toList h
    rw [toList_lengthText, toList_lengthText] at h
    obtain ⟨e1, e2⟩ := append_sep_inj ',' _ _ _ _ (comma_notMem_toDigits l) (comma_notMem_toDigits l')
      (List.append_cancel_left h)
    exact ⟨toDigits_inj e1, toDigits_inj (by simpa using e2)⟩
  · rintro ⟨rfl, rfl⟩; rfl

/-- C145: two error values of the crates have the same text exactly if they are equal or are length errors of the two
crates with the same lengths; so the text does not tell which crate rejected the input. -/
theorem C145_same_text (f g : Fault) (hf : f.text ≠ none) : f.text = g.text ↔
    f = g ∨ ∃ l r, (f = .ipLength l r ∧ g = .argLength l r) ∨ (f = .argLength l r ∧ g = .ipLength l r) := by
  have hne (l r : ℕ) : lengthText l r ≠ "inner product not sound" := fun h => by
    have h := congrArg String.toList h
    rw [toList_lengthText] at h
    have := congrArg List.head? h
    revert this; simp
  cases f <;> cases g <;>
    simp [Fault.text, C145_lengths, hne, (hne _ _).symm] at hf ⊢

section
variable {F G G1 G2 GT TF : Type} [Field F] [DecidableEq F] [AddCommGroup G] [Module F G]
  [AddCommGroup G1] [Module F G1] [AddCommGroup G2] [Module F G2] [AddCommGroup GT] [Module F GT] [Monoid TF]
  {ρ : Type} {E : Engine G1 G2 GT TF}

/-- C145: the text of a rejected commitment gives the number of keys first for Pedersen and for AFGHO commitments to
elements of `G2`, but the number of messages first for AFGHO commitments to elements of `G1`. -/
theorem C145_commit (X : Exec) (rand : ρ → G × ρ) (rand1 : ρ → G1 × ρ) (rand2 : ρ → G2 × ρ) (k : List G) (m : List F)
    (k1 m1 : List G1) (k2 m2 : List G2) :
    (k.length ≠ m.length → ∃ f, (pedersen rand).commit k m = .error f ∧
      f.text = some (lengthText k.length m.length)) ∧
    (k2.length ≠ m1.length → ∃ f, (afghoG1 E X rand2).commit k2 m1 = .error f ∧
      f.text = some (lengthText m1.length k2.length)) ∧
    (k1.length ≠ m2.length → ∃ f, (afghoG2 E X rand1).commit k1 m2 = .error f ∧
      f.text = some (lengthText k1.length m2.length)) :=
  ⟨fun h => ⟨_, multiexpIP_err k m h, rfl⟩, fun h => ⟨_, pairingIP_err E X m1 k2 h.symm, rfl⟩,
    fun h => ⟨_, pairingIP_err E X k1 m2 h, rfl⟩⟩

end

namespace Gipa

section
variable {ρ F MA MB T KA KB KT OA OB OT : Type} [Field F] [DecidableEq F]
  [AddCommGroup MA] [Module F MA] [AddCommGroup MB] [Module F MB]
  [AddCommGroup T] [Module F T] [AddCommGroup KA] [Module F KA] [AddCommGroup KB] [Module F KB]
  [AddCommGroup OA] [Module F OA] [AddCommGroup OB] [Module F OB] [Add OT] [SMul F OT]
  [DecidableEq T] [DecidableEq OA] [DecidableEq OB] [DecidableEq OT]
  (P : Gipa ρ F MA MB T KA KB KT OA OB OT)

/-- C145: GIPA's prover says the same about a wrong inner product and about commitments that do not open; a length that
is not a power of two is reported by the two lengths alone. -/
theorem C145_prove (ma : List MA) (mb : List MB) (t t' : T) (cka : List KA) (ckb : List KB) (kt : KT)
    (com com' : Coms OA OB OT) :
    (P.ip ma mb = .ok t' → t' ≠ t → ∃ f, P.prove ma mb t cka ckb kt com = .error f ∧
      f.text = some "inner product not sound") ∧
    (Honest P ma mb t cka ckb kt com' → (∃ k, ma.length = 2 ^ k) → com' ≠ com →
      ∃ f, P.prove ma mb t cka ckb kt com = .error f ∧ f.text = some "inner product not sound") ∧
    (P.ip ma mb = .ok t → (∀ k, ma.length ≠ 2 ^ k) → ∃ f, P.prove ma mb t cka ckb kt com = .error f ∧
      f.text = some (lengthText ma.length mb.length)) :=
  ⟨fun h hne => ⟨_, C13_wrong_value ma mb t t' cka ckb kt com h hne, rfl⟩,
    fun H hl hne => ⟨_, C13_wrong_commitment ma mb t cka ckb kt com com' H hl hne, rfl⟩,
    fun h hl => ⟨_, C13_not_power_of_two ma mb t cka ckb kt com h hl, rfl⟩⟩

end

end Gipa

/-! ## Examples -/

/-- Two keys for one message, or two messages for one key: which of the two is written first depends on the scheme. -/
example : ∃ f g, (pedersen (F := Toy.F) Toy.rand).commit [3, 4] [5] = .error f ∧
    (afghoG1 Toy.E Toy.X Toy.rand).commit [5] [3, 4] = .error g ∧
    f.text = some "left length, right length: 2, 1" ∧ g.text = some "left length, right length: 2, 1" := by
  obtain ⟨f, h1, h2⟩ := (C145_commit (E := Toy.E) Toy.X Toy.rand Toy.rand Toy.rand ([3, 4] : List Toy.F)
    ([5] : List Toy.F) ([] : List Toy.F) [3, 4] ([5] : List Toy.F) []).1 (by simp)
  obtain ⟨g, h3, h4⟩ := (C145_commit (E := Toy.E) Toy.X Toy.rand Toy.rand Toy.rand ([3, 4] : List Toy.F)
    ([5] : List Toy.F) ([] : List Toy.F) [3, 4] ([5] : List Toy.F) []).2.1 (by simp)
  exact ⟨f, g, h1, h3, h2.trans (by decide +kernel), h4.trans (by decide +kernel)⟩

example : lengthText 12 3 ≠ lengthText 1 23 := fun h => by
  have := (C145_lengths 12 3 1 23).mp h
  omega

example : (Fault.ipLength 3 3).text = (Fault.argLength 3 3).text :=
  (C145_same_text _ _ (by simp [Fault.text])).mpr (.inr ⟨3, 3, .inl ⟨rfl, rfl⟩⟩)

end Ripp
