import Verif.Props.Table
import Verif.Props.Bench

/-!
# C155: what the SIPP example measures
-/

namespace Ripp.Bench

open Spec

section
variable {σ F G1 G2 GT TF : Type} [Field F] [DecidableEq F] [AddCommGroup G1] [Module F G1]
  [AddCommGroup G2] [Module F G2] [AddCommGroup GT] [Module F GT] [Monoid TF] [DecidableEq GT]
  {V : Sipp.Env σ F G1 G2 GT TF} {e : G1 →ₗ[F] G2 →ₗ[F] GT}

/-- C155: repeating the measurement of one size repeats the same computation: the loop does what one iteration does. -/
theorem C155_once (r : List F) (a : List G1) (b : List G2) (n : ℕ) :
    scalingLoop V (fun _ l => l) (fun _ l => l) r (n + 1) a b = (do scalingStep V a b r; return (a, b)) := by
  induction n with
  | zero => rfl
  | succ n ih =>
    rw [scalingLoop]
    simp only [ih]
    cases scalingStep V a b r with
    | error f => rfl
    | ok x => rfl

theorem loop_replicate (shuffleA : ℕ → List G1 → List G1) (shuffleB : ℕ → List G2 → List G2)
    (hA : ∀ n l, (shuffleA n l).Perm l) (hB : ∀ n l, (shuffleB n l).Perm l) (r : List F) (u : G1) (v : G2) (m : ℕ) :
    ∀ n, scalingLoop V shuffleA shuffleB r n (List.replicate m u) (List.replicate m v) =
      scalingLoop V (fun _ l => l) (fun _ l => l) r n (List.replicate m u) (List.replicate m v)
  | 0 => rfl
  | n + 1 => by
    rw [scalingLoop, scalingLoop, List.perm_replicate.mp (hA n _), List.perm_replicate.mp (hB n _)]
    simp only [loop_replicate shuffleA shuffleB hA hB r u v m n]

theorem loop_result (r : List F) (a : List G1) (b : List G2) (n : ℕ) (x : List G1 × List G2)
    (h : scalingLoop V (fun _ l => l) (fun _ l => l) r n a b = .ok x) : x = (a, b) := by
  cases n with
  | zero => exact (Except.ok.inj h).symm
  | succ n =>
    rw [C155_once] at h
    obtain ⟨_, -, h⟩ := bind_eq_ok.mp h
    exact (Except.ok.inj h).symm

theorem run_replicate (shuffleA : ℕ → List G1 → List G1) (shuffleB : ℕ → List G2 → List G2)
    (hA : ∀ n l, (shuffleA n l).Perm l) (hB : ∀ n l, (shuffleB n l).Perm l) (r : List F) (u : G1) (v : G2) (n : ℕ) :
    ∀ is, scalingRun V shuffleA shuffleB r is (List.replicate n u) (List.replicate n v) =
      scalingRun V (fun _ l => l) (fun _ l => l) r is (List.replicate n u) (List.replicate n v)
  | [] => rfl
  | i :: is => by
    rw [scalingRun, scalingRun]
    by_cases hle : 2 ^ i ≤ n
    · have e1 : sliceTo (List.replicate n u) (2 ^ i) = .ok (List.replicate (2 ^ i) u) := by
        rw [sliceTo_of_le _ _ (by simpa using hle), List.take_replicate, min_eq_left hle]
      have e2 : sliceTo (List.replicate n v) (2 ^ i) = .ok (List.replicate (2 ^ i) v) := by
        rw [sliceTo_of_le _ _ (by simpa using hle), List.take_replicate, min_eq_left hle]
      simp only [e1, e2, ok_bind, loop_replicate shuffleA shuffleB hA hB]
      cases hl : scalingLoop V (fun _ l => l) (fun _ l => l) r (numIters i) (List.replicate (2 ^ i) u)
          (List.replicate (2 ^ i) v) with
      | error f => rfl
      | ok x =>
        rw [loop_result _ _ _ _ _ hl]
        simp only [ok_bind, List.drop_replicate, ← List.replicate_add, Nat.add_sub_cancel' hle]
        exact run_replicate shuffleA shuffleB hA hB r u v n is
    · have e1 : sliceTo (List.replicate n u) (2 ^ i) = panic' .bounds := by
        rw [sliceTo, if_neg (by simpa using hle)]
      simp only [e1]
      rfl

/-- C155: the shuffles do nothing, whatever they are: all pairs are equal. -/
theorem C155_shuffle (shuffleA : ℕ → List G1 → List G1) (shuffleB : ℕ → List G2 → List G2)
    (hA : ∀ n l, (shuffleA n l).Perm l) (hB : ∀ n l, (shuffleB n l).Perm l) (g : G1) (h : G2) (x : F)
    (parse : String → Option ℕ) (args : List String) :
    scalingMain V shuffleA shuffleB g h x parse args =
      scalingMain V (fun _ l => l) (fun _ l => l) g h x parse args := by
  rw [scalingMain, scalingMain]
  simp only [run_replicate shuffleA shuffleB hA hB]

omit [DecidableEq F] [DecidableEq GT] in
/-- C155: the value whose computation is measured is a multiple of a single pairing. -/
theorem C155_value (g : G1) (h : G2) (x : F) (m k : ℕ) (hk : m ≤ k) :
    Sipp.product e (List.replicate m (g + g)) (List.replicate m (h + h)) (List.replicate k x) =
      (4 * m) • (x • e g h) := by
  rw [Sipp.C54_coeffs_scale]
  induction m generalizing k with
  | zero => simp
  | succ m ih =>
    obtain ⟨k, rfl⟩ : ∃ j, k = j + 1 := ⟨k - 1, by omega⟩
    rw [List.replicate_succ, List.replicate_succ, List.replicate_succ, List.zip_cons_cons, dot_cons, ih k (by omega)]
    simp only [map_add, LinearMap.add_apply, smul_add]
    rw [show 4 * (m + 1) = 4 * m + 4 by ring, add_nsmul, show (4 : ℕ) = 1 + 1 + 1 + 1 from rfl]
    simp only [add_nsmul, one_nsmul]
    abel

end

end Ripp.Bench

namespace Ripp.Table

/-- C155: the file is written without an error; it is empty if the bounds are in the wrong order. -/
theorem C155_writes (time : ℕ → String × String × String) (lo hi : ℕ) :
    writeAll none (scalingTable time lo hi) = .ok (if lo ≤ hi then some 4 else none) := by
  rw [scalingTable]
  by_cases h : lo ≤ hi
  · rw [if_pos h]
    split
    · rename_i h0
      have := congrArg List.length h0
      simp at this
      omega
    · refine writeAll_same 4 _ fun r hr => ?_
      obtain ⟨i, -, rfl⟩ := List.mem_map.mp hr
      rfl
  · rw [if_neg h, List.drop_eq_nil_of_le (by simp; omega)]
    rfl

/-- C155: one row for every size from `2^lo` to `2^hi`, in this order, under the header. -/
theorem C155_sizes (time : ℕ → String × String × String) (lo k : ℕ) :
    (scalingTable time lo (lo + k)).map List.head? =
      some "size" :: (List.range (k + 1)).map fun j => some (toString (2 ^ (lo + j))) := by
  have e : (List.range (lo + k + 1)).drop lo = (List.range (k + 1)).map (lo + ·) := by
    rw [show lo + k + 1 = lo + (k + 1) by ring, List.range_add, List.drop_left' (by simp)]
  rw [scalingTable, e]
  split
  · rename_i h0
    simp at h0
  · rename_i i is h0
    rw [← h0]
    simp [Function.comp_def]

/-- C155: the row of a size has its three times in the order of the header. -/
theorem C155_row (time : ℕ → String × String × String) (lo hi i : ℕ) (h1 : lo ≤ i) (h2 : i ≤ hi) (d p v : String)
    (ht : time i = (d, p, v)) : [toString (2 ^ i), d, p, v] ∈ (scalingTable time lo hi).tail ∧
      (scalingTable time lo hi).head? = some ["size", "direct", "prover", "verifier"] := by
  have hi : i ∈ (List.range (hi + 1)).drop lo := by
    refine List.mem_iff_getElem.mpr ⟨i - lo, by simp; omega, ?_⟩
    rw [List.getElem_drop, List.getElem_range]
    omega
  rw [scalingTable]
  split
  · rename_i h0
    rw [h0] at hi
    cases hi
  · rename_i j js h0
    rw [h0] at hi
    refine ⟨List.mem_map.mpr ⟨i, hi, ?_⟩, rfl⟩
    rw [ht]

/-- C155: no size occurs twice. -/
theorem C155_distinct (time : ℕ → String × String × String) (lo hi : ℕ) :
    ((scalingTable time lo hi).tail.map List.head?).Nodup := by
  by_cases h : lo ≤ hi
  · obtain ⟨k, rfl⟩ := Nat.exists_eq_add_of_le h
    rw [List.map_tail, C155_sizes, List.tail_cons]
    refine List.Nodup.map (fun i j hij => ?_) List.nodup_range
    have := Nat.pow_right_injective (le_refl 2) (toString_inj (Option.some.inj hij))
    omega
  · rw [scalingTable, List.drop_eq_nil_of_le (by simp; omega)]
    simp

example : (scalingTable (fun i => (toString i, "0.5", "0.25")) 1 3).map line =
    ["size,direct,prover,verifier\n", "2,1,0.5,0.25\n", "4,2,0.5,0.25\n", "8,3,0.5,0.25\n"] := by decide +kernel

/-- Bounds in the wrong order: not even a header. -/
example : scalingTable (fun _ => ("", "", "")) 3 1 = [] := by decide

example : Sipp.product Toy.e (List.replicate 4 (5 + 5)) (List.replicate 4 (7 + 7)) (List.replicate 8 3) =
    (16 * (3 * (5 * 7)) : Toy.F) := by
  rw [Bench.C155_value 5 7 3 4 8 (by norm_num)]
  decide +kernel

/-- The program with reversed vectors is the program without shuffles. -/
example (parse : String → Option ℕ) (args : List String) :
    Bench.scalingMain Toy.sippEnv (fun _ => List.reverse) (fun _ l => l) 5 7 3 parse args =
      Bench.scalingMain Toy.sippEnv (fun _ l => l) (fun _ l => l) 5 7 3 parse args :=
  Bench.C155_shuffle _ _ (fun _ l => List.reverse_perm l) (fun _ _ => .refl _) _ _ _ _ _

end Ripp.Table
