import Verif.Props.Groth16Setup
import Verif.Props.Transparent

/-!
# Randomness of the set-ups: C104

Property statements are in `properties.jsonl`.  A generator is a function from states to values and states;
`after` and `nth` below describe its successive draws.
-/

set_option linter.unusedSectionVars false
set_option linter.unusedVariables false

namespace Ripp

open Spec

/-- The state after `n` draws. -/
def after {ρ A : Type} (rand : ρ → A × ρ) (s : ρ) (n : ℕ) : ρ := (fun s => (rand s).2)^[n] s

/-- The draw number `i`, counted from 0. -/
def nth {ρ A : Type} (rand : ρ → A × ρ) (s : ρ) (i : ℕ) : A := (rand (after rand s i)).1

/-- The first `n` draws. -/
def draws {ρ A : Type} (rand : ρ → A × ρ) (s : ρ) (n : ℕ) : List A := (List.range n).map (nth rand s)

section

variable {ρ F G1 G2 GT TF : Type} [Field F] [DecidableEq F] [AddCommGroup G1] [Module F G1]
  [AddCommGroup G2] [Module F G2] [AddCommGroup GT] [Module F GT] [Monoid TF]

/-- C104: `random_generators` returns successive draws. -/
theorem C104_random_generators {A : Type} (rand : ρ → A × ρ) : ∀ (n : ℕ) (s : ρ),
    randomGenerators rand s n = (draws rand s n, after rand s n)
  | 0, _ => rfl
  | n + 1, s => by
    have h : randomGenerators rand s (n + 1) = ((rand s).1 :: (randomGenerators rand (rand s).2 n).1,
        (randomGenerators rand (rand s).2 n).2) := rfl
    rw [h, C104_random_generators rand n]
    simp only [draws, List.range_succ_eq_map, List.map_cons, List.map_map]
    rfl

example : randomGenerators Toy.rand 5 3 = ([5, 6, 7], 8) := rfl

/-- C104: the commitment schemes with random keys. -/
theorem C104_commitments {G : Type} [AddCommGroup G] [Module F G] (E : Engine G1 G2 GT TF) (X : Exec)
    (rand : ρ → G × ρ) (rand1 : ρ → G1 × ρ) (rand2 : ρ → G2 × ρ) (s : ρ) (n : ℕ) :
    (pedersen (F := F) rand).setup s n = .ok (draws rand s n, after rand s n) ∧
    (afghoG1 E X rand2).setup s n = .ok (draws rand2 s n, after rand2 s n) ∧
    (afghoG2 E X rand1).setup s n = .ok (draws rand1 s n, after rand1 s n) := by
  refine ⟨?_, ?_, ?_⟩ <;> simp [pedersen, afghoG1, afghoG2, C104_random_generators]

variable (V : Env ρ F G1 G2 GT TF)

/-- C104: the keys of GIPA for pairing products, multi-exponentiations and scalar products.  The right key
starts where the left key ends. -/
theorem C104_gipa (s : ρ) (n : ℕ) :
    V.pairingAB.setup s n = .ok ((draws V.randG2 s n, draws V.randG1 (after V.randG2 s n) n, PUnit.unit),
      after V.randG1 (after V.randG2 s n) n) ∧
    V.multiexpGipa.setup s n = .ok ((draws V.randG2 s n, draws V.randG1 (after V.randG2 s n) n, PUnit.unit),
      after V.randG1 (after V.randG2 s n) n) ∧
    V.scalarGipa.setup s n = .ok ((draws V.randG2 s n, draws V.randG2 (after V.randG2 s n) n, PUnit.unit),
      after V.randG2 (after V.randG2 s n) n) := by
  refine ⟨?_, ?_, ?_⟩ <;>
    simp [Gipa.setup, Env.pairingAB, Env.multiexpGipa, Env.scalarGipa, pedersen, afghoG1, afghoG2,
      identityCommitment, C104_random_generators, unwrap]

/-- C104: the trapdoors of KZG are the first two draws. -/
theorem C104_kzg (s : ρ) (d : ℕ) :
    Kzg.setup V s d = .ok (((List.range (d + 1)).map fun i => nth V.randF s 0 ^ i • V.g,
      ⟨V.g, V.h, nth V.randF s 1 • V.g, nth V.randF s 0 • V.h⟩), after V.randF s 2) := by
  simp [Kzg.setup, structuredGenerators_eq, powers, Function.comp_def, nth, after]

/-- C104: so are those of TIPA. -/
theorem C104_tipa (s : ρ) (n : ℕ) (hn : 1 ≤ n) :
    tipaSetup V.randF V.g V.h (identityCommitment (T := GT)) s n = .ok
      ((⟨(List.range (2 * n - 1)).map fun i => nth V.randF s 0 ^ i • V.g,
        (List.range (2 * n - 1)).map fun i => nth V.randF s 1 ^ i • V.h,
        nth V.randF s 1 • V.g, nth V.randF s 0 • V.h⟩, PUnit.unit), after V.randF s 2) := by
  have h0 : n ≠ 0 := by omega
  simp only [tipaSetup, if_neg h0, structuredGenerators_eq _ _ _ (show 0 < 2 * n - 1 by omega)]
  simp [identityCommitment, powers, Function.comp_def, unwrap, nth, after]

/-- C104: and those of the bivariate commitment. -/
theorem C104_bivariate (s : ρ) (x y : ℕ) :
    Bivariate.setup V s x y = .ok
      ((⟨[V.g], (List.range (2 * x + 1)).map fun i => nth V.randF s 1 ^ i • V.h,
        nth V.randF s 1 • V.g, nth V.randF s 0 • V.h⟩,
        (List.range (y + 1)).map fun i => nth V.randF s 0 ^ i • V.g), after V.randF s 2) := by
  simp [Bivariate.setup, structuredGenerators_eq, powers, Function.comp_def, nth, after]

/-- C104: the keys of the transparent bivariate commitment. -/
theorem C104_transparent (s : ρ) (x y : ℕ) :
    TBivariate.setup V s x y = .ok
      ((draws V.randG1 s (y + 1), draws V.randG2 (after V.randG1 s (y + 1)) (x + 1)),
        after V.randG2 (after V.randG1 s (y + 1)) (x + 1)) := by
  simp [TBivariate.setup, GipaSsm.setup, pedersen, afghoG1, identityCommitment, C104_random_generators,
    unwrap]

/-- A generator that reads a tape of group elements, one entry per draw. -/
def tapeEnv (V : Env ρ F G1 G2 GT TF) : Env (ℕ → G1 × G2) F G1 G2 GT TF where
  E := V.E
  X := V.X
  g := V.g
  h := V.h
  randF t := (0, t)
  randG1 t := ((t 0).1, fun i => t (i + 1))
  randG2 t := ((t 0).2, fun i => t (i + 1))
  digest := V.digest
  fromRandomBytes := V.fromRandomBytes
  serF := V.serF
  serG1 := V.serG1
  serG2 := V.serG2
  serGT := V.serGT

theorem after_tape {A B : Type} (f : B → A) (t : ℕ → B) : ∀ n,
    after (fun t : ℕ → B => (f (t 0), fun i => t (i + 1))) t n = fun i => t (i + n)
  | 0 => rfl
  | n + 1 => by
    have := after_tape f t n
    rw [after] at this ⊢
    rw [Function.iterate_succ_apply', this]
    funext i
    simp only []
    congr 1
    omega

/-- C104: every key element is a different entry of the tape, so keys from a random tape are independent and
uniformly distributed. -/
theorem C104_tape (t : ℕ → G1 × G2) (n x y : ℕ) :
    (tapeEnv V).pairingAB.setup t n = .ok (((List.range n).map fun i => (t i).2,
      (List.range n).map fun i => (t (i + n)).1, PUnit.unit), fun i => t (i + n + n)) ∧
    TBivariate.setup (tapeEnv V) t x y = .ok (((List.range (y + 1)).map fun i => (t i).1,
      (List.range (x + 1)).map fun i => (t (i + (y + 1))).2), fun i => t (i + (x + 1) + (y + 1))) := by
  have h1 : ∀ t n, after (tapeEnv V).randG1 t n = fun i => t (i + n) := fun t n => after_tape Prod.fst t n
  have h2 : ∀ t n, after (tapeEnv V).randG2 t n = fun i => t (i + n) := fun t n => after_tape Prod.snd t n
  have d1 : ∀ t n, draws (tapeEnv V).randG1 t n = (List.range n).map fun i => (t i).1 := by
    intro t n
    simp only [draws]
    congr 1
    funext i
    simp only [nth, h1]
    simp [tapeEnv]
  have d2 : ∀ t n, draws (tapeEnv V).randG2 t n = (List.range n).map fun i => (t i).2 := by
    intro t n
    simp only [draws]
    congr 1
    funext i
    simp only [nth, h2]
    simp [tapeEnv]
  refine ⟨?_, ?_⟩
  · rw [(C104_gipa _ t n).1, d1, d2, h1, h2]
  · rw [C104_transparent, d1, d2, h1, h2]

end

/-- The first draw of the example generator is 3, the second 4. -/
example : Kzg.setup Toy.env (3 : ℕ) 2 = .ok (([1, 3, 9], ⟨1, 1, 4, 3⟩), 5) := by
  rw [C104_kzg]; rfl

example : TBivariate.setup Toy.env (3 : ℕ) 1 2 = .ok (([3, 4, 5], [6, 7]), 8) := by
  rw [C104_transparent]; rfl

namespace GipaSsm

/-- C07 for a structured scalar message and any commitment scheme: the key of the inner product commitment is the last
one its set-up returns (`pop().unwrap()`), and an empty list of keys is a panic. -/
theorem C07_setup_last {ρ MA T KA KT OA OT : Type} (lmc : Commitment ρ KA MA OA)
    (ipc : Commitment ρ KT T OT) (s s1 s2 : ρ) (size : ℕ) (ka : List KA) (e1 : lmc.setup s size = .ok (ka, s1)) :
    (∀ kts kt, ipc.setup s1 1 = .ok (kts ++ [kt], s2) → GipaSsm.setup lmc ipc s size = .ok ((ka, kt), s2)) ∧
    (ipc.setup s1 1 = .ok ([], s2) → GipaSsm.setup lmc ipc s size = panic' .unwrap) :=
  ⟨fun kts kt h => by simp [GipaSsm.setup, e1, h], fun h => by simp [GipaSsm.setup, e1, h, unwrap]⟩

end GipaSsm

/-- A scheme that returns one key more than asked for: the last is used. -/
example : GipaSsm.setup (pedersen (F := Toy.F) Toy.rand)
    { (pedersen (F := Toy.F) Toy.rand) with setup := fun s n => (pedersen (F := Toy.F) Toy.rand).setup s (n + 1) }
    3 2 = .ok (([3, 4], 6), 7) :=
  (GipaSsm.C07_setup_last _ _ 3 5 7 2 [3, 4] rfl).1 [5] 6 rfl

end Ripp
