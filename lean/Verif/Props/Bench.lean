import Verif.Model.Bench
import Verif.Lemmas.Bytes
import Verif.Lemmas.InnerProducts
import Verif.Props.Batch
import Verif.Props.DegreeLimit
import Verif.Props.Groth16Setup
import Verif.Props.Sipp

/-!
# C94 … C98: the programs in `benches/` and `sipp/examples/`

Property statements are in `properties.jsonl`.
-/

set_option linter.unusedSectionVars false

namespace Ripp

@[simp] theorem unwrapRes_ok {α : Type} (x : α) : unwrapRes (.ok x : Res α) = .ok x := rfl

@[simp] theorem unwrapRes_diverge {α : Type} : unwrapRes (.error .diverge : Res α) = .error .diverge := rfl

@[simp] theorem unwrapRes_panic {α : Type} (k : PanicKind) : unwrapRes (panic' k : Res α) = panic' k := rfl

end Ripp

namespace Ripp.Bench

open Spec

/-! ## C94: command lines -/

theorem popBench_eq (prog : String) (args : List String) (h : "--bench" ∉ prog :: args) (end_ : Bool) :
    popBench ((prog :: args) ++ if end_ then ["--bench"] else []) = .ok (prog :: args) := by
  cases end_
  · have hne : (prog :: args).getLast (by simp) ≠ "--bench" := fun e =>
      h (e ▸ List.getLast_mem _)
    simp only [popBench, Bool.false_eq_true, if_false, List.append_nil]
    rw [List.getLast?_eq_getLast_of_ne_nil (by simp)]
    simp only [unwrap, ok_bind, if_neg hne]; rfl
  · simp only [popBench, if_true]
    rw [List.getLast?_concat]
    simp only [unwrap, ok_bind, if_true]
    rw [List.dropLast_concat]; rfl

/-- The argument text of a flag. -/
def word (b : Bool) : String := if b then "true" else "false"

/-- All arguments given: each is read where the usage text says, except the last, which is never read. -/
theorem C94_all (parse : String → Option ℕ) (prog t n mono : String) (nt np : ℕ) (ht : parse t = some nt)
    (hn : parse n = some np) (rec gen : Bool) (hh : t ≠ "-h" ∧ t ≠ "--help")
    (hb : ∀ s ∈ [prog, t, n, mono], s ≠ "--bench") (end_ : Bool) :
    groth16Args parse ([prog, t, n, word rec, word gen, mono] ++
      if end_ then ["--bench"] else []) = .ok (some ⟨nt, np, rec, gen, gen⟩) := by
  have hmem : "--bench" ∉ [prog, t, n, word rec, word gen, mono] := by
    intro h
    simp only [List.mem_cons, List.not_mem_nil, or_false] at h
    rcases h with h | h | h | h | h | h
    · exact hb prog (by simp) h.symm
    · exact hb t (by simp) h.symm
    · exact hb n (by simp) h.symm
    · cases rec <;> simp [word] at h
    · cases gen <;> simp [word] at h
    · exact hb mono (by simp) h.symm
  rw [groth16Args, popBench_eq _ _ hmem]
  cases rec <;> cases gen <;>
    simp [wantsHelp, flag, number, unwrap, hh.1, hh.2, ht, hn, idx, word]

/-- Whatever the command line, the monolithic circuit is benchmarked exactly if all proofs are generated. -/
theorem C94_monolithic (parse : String → Option ℕ) (args : List String) (r : Args)
    (h : groth16Args parse args = .ok (some r)) : r.monolithicProof = r.generateAllProofs := by
  rw [groth16Args] at h
  obtain ⟨args', -, h⟩ := bind_eq_ok.mp h
  by_cases hh : wantsHelp args'
  · simp [hh] at h
  simp only [hh, Bool.false_eq_true, if_false] at h
  obtain ⟨_, -, h⟩ := bind_eq_ok.mp h
  obtain ⟨x, h1, h⟩ := bind_eq_ok.mp h
  obtain ⟨y, h2, h⟩ := bind_eq_ok.mp h
  obtain ⟨_, -, h⟩ := bind_eq_ok.mp h
  obtain ⟨_, -, h⟩ := bind_eq_ok.mp h
  rw [h1] at h2
  cases h2; cases h; rfl

/-- C94 is violated: the last argument says no monolithic proof, and one is benchmarked. -/
theorem C94_violated (parse : String → Option ℕ) (h1 : parse "10" = some 10) (h8 : parse "8" = some 8) :
    groth16Args parse ["groth16_aggregation", "10", "8", "true", "true", "false", "--bench"] =
      .ok (some ⟨10, 8, true, true, true⟩) :=
  C94_all parse "groth16_aggregation" "10" "8" "false" 10 8 h1 h8 true true (by decide) (by decide) true

/-- Missing flags count as `true`. -/
theorem C94_defaults (parse : String → Option ℕ) (prog t n : String) (nt np : ℕ) (ht : parse t = some nt)
    (hn : parse n = some np) (hh : t ≠ "-h" ∧ t ≠ "--help") (hb : ∀ s ∈ [prog, t, n], s ≠ "--bench")
    (end_ : Bool) :
    groth16Args parse ([prog, t, n] ++ if end_ then ["--bench"] else []) =
      .ok (some ⟨nt, np, true, true, true⟩) ∧
    polyArgs parse ([prog, t, n] ++ if end_ then ["--bench"] else []) = .ok (some (nt, np)) := by
  have hmem : "--bench" ∉ [prog, t, n] := fun h => hb _ h rfl
  rw [groth16Args, polyArgs, popBench_eq _ _ hmem]
  simp [wantsHelp, flag, number, unwrap, hh.1, hh.2, ht, hn, idx]

/-- The usage text is printed without arguments and with `-h` or `--help` as the first. -/
theorem C94_help (parse : String → Option ℕ) (prog : String) (args : List String) (end_ : Bool)
    (hb : "--bench" ∉ prog :: args)
    (h : args = [] ∨ args.head? = some "-h" ∨ args.head? = some "--help") :
    groth16Args parse ((prog :: args) ++ if end_ then ["--bench"] else []) = .ok none ∧
    polyArgs parse ((prog :: args) ++ if end_ then ["--bench"] else []) = .ok none := by
  rw [groth16Args, polyArgs, popBench_eq _ _ hb]
  have : wantsHelp (prog :: args) = true := by
    cases args with
    | nil => rfl
    | cons x xs => simpa [wantsHelp] using h
  simp only [ok_bind, this, if_true]
  exact ⟨rfl, rfl⟩

/-- One argument: no usage text but a panic at the missing second one. -/
theorem C94_one_argument (parse : String → Option ℕ) (prog t : String) (nt : ℕ) (ht : parse t = some nt)
    (hh : t ≠ "-h" ∧ t ≠ "--help") (hb : ∀ s ∈ [prog, t], s ≠ "--bench") (end_ : Bool) :
    groth16Args parse ([prog, t] ++ if end_ then ["--bench"] else []) = panic' .bounds ∧
    polyArgs parse ([prog, t] ++ if end_ then ["--bench"] else []) = panic' .bounds := by
  have hmem : "--bench" ∉ [prog, t] := fun h => hb _ h rfl
  rw [groth16Args, polyArgs, popBench_eq _ _ hmem]
  simp [wantsHelp, flag, number, unwrap, hh.1, hh.2, ht, idx, panic']

/-- The SIPP example panics whenever it prints its usage text. -/
theorem C94_scaling_help (parse : String → Option ℕ) (args : List String) (hp : parse "-h" = none)
    (hp' : parse "--help" = none) (h : wantsHelp args = true) :
    scalingArgs parse args = panic' .bounds ∨ scalingArgs parse args = panic' .unwrap := by
  match args with
  | [] => exact .inl rfl
  | [_] => exact .inl rfl
  | x :: y :: zs =>
    right
    have : y = "-h" ∨ y = "--help" := by simpa [wantsHelp] using h
    rcases this with rfl | rfl <;> simp [scalingArgs, number, idx, unwrap, hp, hp', panic']

theorem C94_scaling (parse : String → Option ℕ) (prog x y dir : String) (rest : List String) (lo hi : ℕ)
    (hx : parse x = some lo) (hy : parse y = some hi) :
    scalingArgs parse (prog :: x :: y :: dir :: rest) = .ok (lo, hi, dir) := by
  simp [scalingArgs, number, idx, unwrap, hx, hy]

example : ¬ ∀ (parse : String → Option ℕ) (args : List String) (r : Args) (mono : String),
    groth16Args parse args = .ok (some r) → args[5]? = some mono → (r.monolithicProof = true ↔ mono = "true") :=
  fun h => by
    have := h (fun s => if s = "10" then some 10 else if s = "8" then some 8 else none) _ _ "false"
      (C94_violated _ (by simp) (by simp)) rfl
    simp at this

/-! ## C95: the SIPP example -/

section
variable {σ F G1 G2 GT TF : Type} [Field F] [DecidableEq F] [AddCommGroup G1] [Module F G1]
  [AddCommGroup G2] [Module F G2] [AddCommGroup GT] [Module F GT] [Monoid TF] [DecidableEq GT]
  {V : Sipp.Env σ F G1 G2 GT TF} {e : G1 →ₗ[F] G2 →ₗ[F] GT}

/-- One iteration on `2^i ≥ 2` pairs with at least as many coefficients: the assertion holds, unless a challenge
is zero. -/
theorem C95_step (hE : V.E.Lawful e) (i : ℕ) (hi : 1 ≤ i) (a : List G1) (b : List G2) (r : List F)
    (ha : a.length = 2 ^ i) (hb : b.length = 2 ^ i) (hr : 2 ^ i ≤ r.length) :
    scalingStep V a b r = .ok () ∨ (scalingStep V a b r = panic' .unwrap ∧ ∃ zs : List (GT × GT), zs.length ≤ i ∧
      (0 : F) ∈ (Sipp.challenges V (Sipp.Rng.fromSeed V (Sipp.seedBytes V a b r (Sipp.product e a b r))) zs : List F)) := by
  rw [scalingStep, Sipp.C54_with_coeffs hE a b r (ha.trans hb.symm) (ha ▸ hr)]
  simp only [ok_bind]
  obtain ⟨zs, hl, ⟨h, h0⟩ | ⟨h1, -, h2⟩⟩ := Sipp.C55_complete hE i hi a b r ha hb hr
  · right; rw [h]; exact ⟨rfl, zs, hl, h0⟩
  · left; rw [h1]; simp only [unwrapRes_ok, ok_bind]; rw [h2]; rfl

/-- If no draw of the generator is zero in the field, the whole loop of one size runs through; the shuffles only
need to keep the lengths. -/
theorem C95_loop (hE : V.E.Lawful e) (hrng : ∀ rng : Sipp.Rng σ, (((rng.nextU128 V).1 : ℕ) : F) ≠ 0)
    (shuffleA : ℕ → List G1 → List G1) (shuffleB : ℕ → List G2 → List G2)
    (hA : ∀ n l, (shuffleA n l).length = l.length) (hB : ∀ n l, (shuffleB n l).length = l.length)
    (r : List F) (i : ℕ) (hi : 1 ≤ i) (hr : 2 ^ i ≤ r.length) :
    ∀ (n : ℕ) (a : List G1) (b : List G2), a.length = 2 ^ i → b.length = 2 ^ i →
      ∃ a' b', scalingLoop V shuffleA shuffleB r n a b = .ok (a', b') ∧ a'.length = 2 ^ i ∧ b'.length = 2 ^ i
  | 0, a, b, ha, hb => ⟨a, b, rfl, ha, hb⟩
  | n + 1, a, b, ha, hb => by
    have ha' := (hA n a).trans ha
    have hb' := (hB n b).trans hb
    obtain ⟨zs, h1, -, h2⟩ := Sipp.C55_complete_total hE hrng i hi _ _ r ha' hb' hr
    have hs : scalingStep V (shuffleA n a) (shuffleB n b) r = .ok () := by
      rw [scalingStep, Sipp.C54_with_coeffs hE _ _ r (ha'.trans hb'.symm) (ha' ▸ hr)]
      simp only [ok_bind]
      rw [h1]; simp only [unwrapRes_ok, ok_bind]; rw [h2]; rfl
    rw [scalingLoop]
    simp only [hs, ok_bind]
    exact C95_loop hE hrng shuffleA shuffleB hA hB r i hi hr n _ _ ha' hb'

/-- The program runs through for all sizes from `2` up to the size of the vectors, in any order. -/
theorem C95_run (hE : V.E.Lawful e) (hrng : ∀ rng : Sipp.Rng σ, (((rng.nextU128 V).1 : ℕ) : F) ≠ 0)
    (shuffleA : ℕ → List G1 → List G1) (shuffleB : ℕ → List G2 → List G2)
    (hA : ∀ n l, (shuffleA n l).length = l.length) (hB : ∀ n l, (shuffleB n l).length = l.length)
    (r : List F) (hi : ℕ) (hr : 2 ^ hi ≤ r.length) :
    ∀ (is : List ℕ) (a : List G1) (b : List G2), (∀ i ∈ is, 1 ≤ i ∧ i ≤ hi) → a.length = 2 ^ hi →
      b.length = 2 ^ hi → scalingRun V shuffleA shuffleB r is a b = .ok ()
  | [], _, _, _, _, _ => rfl
  | i :: is, a, b, his, ha, hb => by
    obtain ⟨h1, h2⟩ := his i (by simp)
    have hle : 2 ^ i ≤ 2 ^ hi := Nat.pow_le_pow_right (by norm_num) h2
    obtain ⟨a', b', h3, h4, h5⟩ := C95_loop hE hrng shuffleA shuffleB hA hB r i h1 (hle.trans hr) (numIters i)
      (a.take (2 ^ i)) (b.take (2 ^ i)) (by rw [List.length_take]; omega) (by rw [List.length_take]; omega)
    rw [scalingRun]
    simp only [sliceTo_of_le a _ (ha ▸ hle), sliceTo_of_le b _ (hb ▸ hle), ok_bind, h3]
    exact C95_run hE hrng shuffleA shuffleB hA hB r hi hr is _ _ (fun j hj => his j (by simp [hj]))
      (by rw [List.length_append, List.length_drop]; omega)
      (by rw [List.length_append, List.length_drop]; omega)

/-- With `0` as the smallest logarithm the program panics: the verifier refuses a single pair. -/
theorem C95_zero (hE : V.E.Lawful e) (shuffleA : ℕ → List G1 → List G1) (shuffleB : ℕ → List G2 → List G2)
    (hA : ∀ n l, (shuffleA n l).length = l.length) (hB : ∀ n l, (shuffleB n l).length = l.length)
    (r : List F) (is : List ℕ) (a : List G1) (b : List G2) (ha : a ≠ []) (hb : b ≠ []) (hr : r ≠ []) :
    scalingRun V shuffleA shuffleB r (0 :: is) a b = panic' .assertion := by
  have la : 1 ≤ a.length := List.length_pos_of_ne_nil ha
  have lb : 1 ≤ b.length := List.length_pos_of_ne_nil hb
  have lr : 1 ≤ r.length := List.length_pos_of_ne_nil hr
  have e1 : (shuffleA 0 (a.take 1)).length = 1 := by rw [hA, List.length_take]; omega
  have e2 : (shuffleB 0 (b.take 1)).length = 1 := by rw [hB, List.length_take]; omega
  obtain ⟨x, hx⟩ := List.length_eq_one_iff.mp e1
  obtain ⟨y, hy⟩ := List.length_eq_one_iff.mp e2
  rw [scalingRun]
  simp only [pow_zero, sliceTo_of_le a 1 la, sliceTo_of_le b 1 lb, ok_bind]
  rw [show numIters 0 = 0 + 1 from rfl, scalingLoop]
  simp only [hx, hy]
  rw [scalingStep, Sipp.C54_with_coeffs hE _ _ r rfl (by simpa using lr)]
  simp only [ok_bind]
  rw [(Sipp.C56_length_one V x y r _).1]
  simp only [unwrapRes_ok, ok_bind]
  rw [(Sipp.C56_length_one V x y r _).2]
  rfl

end

/-- The number of iterations is meant to fall with the size, but is 1 for `2^6` and 10 for `2^7`; from `2^7` on it
falls. -/
theorem C95_iterations : numIters 5 = 20 ∧ numIters 6 = 1 ∧ numIters 7 = 10 ∧
    (∀ i, 1 ≤ numIters i) ∧ (∀ i j, 7 ≤ i → i ≤ j → numIters j ≤ numIters i) := by
  refine ⟨rfl, rfl, rfl, fun i => ?_, fun i j h1 h2 => ?_⟩
  · unfold numIters; split_ifs <;> norm_num
  · unfold numIters; split_ifs <;> omega

/-- The table of iterations. -/
theorem C95_table (i : ℕ) : (numIters i = 20 ↔ i ∈ [1, 2, 3, 4, 5]) ∧ (numIters i = 10 ↔ i ∈ [7, 8, 9, 10]) ∧
    (numIters i = 5 ↔ i ∈ [11, 12, 13]) ∧ (numIters i = 1 ↔ i ∈ [0, 6] ∨ 13 < i) := by
  simp only [List.mem_cons, List.not_mem_nil, or_false]
  unfold numIters
  split_ifs <;> refine ⟨?_, ?_, ?_, ?_⟩ <;> constructor <;> intro h <;> omega

/-- Sizes 2 and 4 on the toy curve, with reversal as the shuffle. -/
example : scalingRun Toy.sippEnv (fun _ => List.reverse) (fun _ l => l) [1, 1, 2, 3, 5] [1, 2] [1, 2, 3, 4]
    [5, 6, 7, 8] = .ok () :=
  C95_run Toy.lawful Sipp.toy_draw_ne_zero _ _ (by simp) (by simp) _ 2 (by decide) _ _ _ (by decide) rfl rfl

example : scalingRun Toy.sippEnv (fun _ => List.reverse) (fun _ l => l) [1, 1, 2, 3] [0, 1, 2] [1, 2, 3, 4]
    [5, 6, 7, 8] = panic' .assertion :=
  C95_zero Toy.lawful _ _ (by simp) (by simp) _ _ _ _ (by simp) (by simp) (by simp)

/-! ## C96: the circuits -/

theorem leNat_lt : ∀ bs : Bytes, leNat bs < 256 ^ bs.length
  | [] => by simp [leNat]
  | b :: bs => by
    have h1 := leNat_lt bs
    have h2 : b.toNat < 256 := b.toNat_lt
    rw [leNat, List.length_cons, pow_succ]; omega

theorem leNat_leBytes : ∀ k n, leNat (leBytes k n) = n % 256 ^ k
  | 0, n => by simp [leBytes, leNat, Nat.mod_one]
  | k + 1, n => by
    rw [leBytes, leNat, leNat_leBytes k, pow_succ, mul_comm (256 ^ k), Nat.mod_mul]
    congr 1
    simp

theorem leBytes_zero : ∀ k, leBytes k 0 = List.replicate k 0
  | 0 => rfl
  | k + 1 => by rw [leBytes, Nat.zero_div, leBytes_zero k]; rfl

theorem leBytes_leNat : ∀ (bs : Bytes) (k : ℕ), bs.length ≤ k →
    leBytes k (leNat bs) = bs ++ List.replicate (k - bs.length) 0
  | [], k, _ => by simpa [leNat] using leBytes_zero k
  | b :: bs, k + 1, h => by
    have h2 : b.toNat < 256 := b.toNat_lt
    rw [leNat, leBytes, show (b.toNat + 256 * leNat bs) % 256 = b.toNat by omega,
      show (b.toNat + 256 * leNat bs) / 256 = leNat bs by omega, leBytes_leNat bs k (by simpa using h)]
    simp

/-- Unpacking gives the bytes back, padded. -/
theorem unpack {s : ℕ} (hs : s ≠ 0) : ∀ (n : ℕ) (bs : Bytes), bs.length ≤ n →
    ((((chunks s bs).map leNat).flatMap (leBytes s)).take bs.length = bs ∧
      (chunks s bs).length = (bs.length + s - 1) / s)
  | n, [], _ => by
    rw [chunks_nil]
    exact ⟨rfl, (Nat.div_eq_of_lt (by simp; omega)).symm⟩
  | n + 1, b :: bs, h => by
    rw [chunks_of_ne hs (by simp)]
    obtain ⟨h1, h2⟩ := unpack hs n ((b :: bs).drop s) (by simp at h ⊢; omega)
    constructor
    · simp only [List.map_cons, List.flatMap_cons]
      rw [leBytes_leNat _ s (by rw [List.length_take]; omega)]
      by_cases hle : (b :: bs).length ≤ s
      · rw [List.take_of_length_le hle, List.append_assoc, List.take_left]
      · have e1 : ((b :: bs).take s).length = s := by rw [List.length_take]; omega
        rw [e1, Nat.sub_self, List.replicate_zero, List.append_nil, List.take_append, e1,
          List.take_of_length_le (by rw [e1]; omega)]
        rw [List.length_drop] at h1
        rw [h1, List.take_append_drop]
    · rw [List.length_cons, h2, List.length_drop]
      by_cases hle : (b :: bs).length ≤ s
      · rw [Nat.sub_eq_zero_of_le hle, Nat.div_eq_of_lt (by omega), eq_comm]
        have : 0 < (b :: bs).length := by simp
        exact Nat.div_eq_of_lt_le (by omega) (by omega)
      · rw [show (b :: bs).length + s - 1 = ((b :: bs).length - s + s - 1) + s by omega,
          Nat.add_div_right _ (by omega)]

theorem readBytes_pack (bits : ℕ) (hb : 9 ≤ bits) (bs : Bytes) (rest : List ℕ) :
    readBytes bits bs.length (packBytes bits bs ++ rest) = (bs, rest) := by
  have hs : (bits - 1) / 8 ≠ 0 := by omega
  obtain ⟨h1, h2⟩ := unpack hs _ bs le_rfl
  rw [readBytes, packBytes]
  rw [← h2, ← List.length_map (f := leNat), List.take_left, List.drop_left, h1]

theorem chunks_flatMap {s : ℕ} (hs : s ≠ 0) : ∀ xs : List ℕ, chunks s (xs.flatMap (leBytes s)) = xs.map (leBytes s)
  | [] => chunks_nil _
  | x :: xs => by
    have hl := length_leBytes s x
    rw [List.flatMap_cons, chunks_of_ne hs (by
      intro h
      have := congrArg List.length h
      rw [List.length_append, hl, List.length_nil] at this
      omega)]
    rw [List.take_left' hl, List.drop_left' hl, chunks_flatMap hs xs, List.map_cons]

theorem chunks_length_le {s : ℕ} (hs : s ≠ 0) : ∀ (n : ℕ) (bs : Bytes), bs.length ≤ n → ∀ c ∈ chunks s bs, c.length ≤ s
  | _, [], _ => by simp [chunks_nil]
  | n + 1, b :: bs, h => by
    rw [chunks_of_ne hs (by simp)]
    intro c hc
    rcases List.mem_cons.mp hc with rfl | hc
    · rw [List.length_take]; omega
    · exact chunks_length_le hs n _ (by simp at h ⊢; omega) c hc

/-- Packed elements are below `256^s`. -/
theorem packBytes_lt (bits : ℕ) (hb : 9 ≤ bits) (bs : Bytes) : ∀ x ∈ packBytes bits bs, x < 256 ^ ((bits - 1) / 8) := by
  intro x hx
  obtain ⟨c, hc, rfl⟩ := List.mem_map.mp hx
  exact (leNat_lt c).trans_le (Nat.pow_le_pow_right (by norm_num) (chunks_length_le (by omega) _ bs le_rfl c hc))

/-- Both sides take the same public input: whatever hashes of the same lengths the circuit was set up with, on the
public input computed from the hashes `hs` the inner verifiers get the public inputs of `hs`. -/
theorem C96_recursion : ∀ (hs0 hs : List Bytes), hs0.map List.length = hs.map List.length →
    circuitElements hs0 (recursionInput hs) = hs.map hashElements
  | [], [], _ => rfl
  | h0 :: hs0, h :: hs, hl => by
    simp only [List.map_cons, List.cons.injEq] at hl
    have hlen : (hashBytes h0).length = (hashBytes h).length := by
      have e1 : ∀ h : Bytes, (hashBytes h).length = 32 * ((h.length + 31 - 1) / 31) := fun h => by
        rw [hashBytes, List.length_flatMap]
        simp only [length_leBytes]
        rw [List.map_const', List.sum_replicate, hashElements, packBytes, List.length_map,
          show (blsBits - 1) / 8 = 31 from rfl, (unpack (by norm_num) _ h le_rfl).2]
        simp [mul_comm]
      rw [e1, e1, hl.1]
    rw [circuitElements, recursionInput, List.flatMap_cons, hlen, readBytes_pack _ (by decide)]
    simp only
    rw [show (hs.flatMap fun h => packBytes bw6Bits (hashBytes h)) = recursionInput hs from rfl,
      C96_recursion hs0 hs hl.2, List.map_cons, hashBytes, show (blsBits + 7) / 8 = 32 from rfl,
      chunks_flatMap (by norm_num), List.map_map]
    congr 1
    conv_rhs => rw [← List.map_id (hashElements h)]
    apply List.map_congr_left
    intro x hx
    have := packBytes_lt blsBits (by decide) h x hx
    rw [Function.comp_apply, leNat_leBytes, id, Nat.mod_eq_of_lt]
    exact this.trans_le (Nat.pow_le_pow_right (by norm_num) (by decide))

theorem packBytes_inj (bits : ℕ) (hb : 9 ≤ bits) (bs bs' : Bytes) (hl : bs.length = bs'.length)
    (h : packBytes bits bs = packBytes bits bs') : bs = bs' := by
  have h1 := readBytes_pack bits hb bs []
  have h2 := readBytes_pack bits hb bs' []
  rw [h, hl, h2] at h1
  exact (congrArg Prod.fst h1).symm

theorem length_packBytes (bits : ℕ) (hb : 9 ≤ bits) (bs : Bytes) :
    (packBytes bits bs).length = (bs.length + (bits - 1) / 8 - 1) / ((bits - 1) / 8) := by
  rw [packBytes, List.length_map, (unpack (by omega) _ bs le_rfl).2]

/-- Two elements below `2^248` per hash. -/
theorem C96_hash_elements (h : Bytes) (hl : h.length = 32) :
    (hashElements h).length = 2 ∧ ∀ x ∈ hashElements h, x < 2 ^ 248 := by
  constructor
  · rw [hashElements, length_packBytes _ (by decide), hl]; rfl
  · intro x hx
    have := packBytes_lt blsBits (by decide) h x hx
    rwa [show (256 : ℕ) ^ ((blsBits - 1) / 8) = 2 ^ 248 from by decide] at this

/-- Different hashes have different public inputs. -/
theorem C96_hash_injective (h h' : Bytes) (hl : h.length = 32) (hl' : h'.length = 32)
    (he : hashElements h = hashElements h') : h = h' :=
  packBytes_inj _ (by decide) h h' (hl.trans hl'.symm) he

set_option exponentiation.threshold 400 in
/-- The public input of the recursion circuit: two elements below `2^376` per hash. -/
theorem C96_input_size : ∀ (hs : List Bytes), (∀ h ∈ hs, h.length = 32) →
    (recursionInput hs).length = 2 * hs.length ∧ ∀ x ∈ recursionInput hs, x < 2 ^ 376
  | [], _ => by simp [recursionInput]
  | h :: hs, hl => by
    obtain ⟨h1, h2⟩ := C96_input_size hs fun h' hh => hl h' (by simp [hh])
    have e1 : (hashBytes h).length = 64 := by
      rw [hashBytes, List.length_flatMap]
      simp only [length_leBytes]
      rw [List.map_const', List.sum_replicate, (C96_hash_elements h (hl h (by simp))).1]
      rfl
    rw [recursionInput, List.flatMap_cons,
      show (hs.flatMap fun h => packBytes bw6Bits (hashBytes h)) = recursionInput hs from rfl]
    constructor
    · rw [List.length_append, h1, length_packBytes _ (by decide), e1, List.length_cons,
        show (64 + (bw6Bits - 1) / 8 - 1) / ((bw6Bits - 1) / 8) = 2 from rfl]
      ring
    · intro x hx
      rcases List.mem_append.mp hx with hx | hx
      · have := packBytes_lt bw6Bits (by decide) _ x hx
        rwa [show (256 : ℕ) ^ ((bw6Bits - 1) / 8) = 2 ^ 376 from by
          rw [show (256 : ℕ) = 2 ^ 8 by norm_num, ← pow_mul]; congr 1] at this
      · exact h2 x hx

/-- Different lists of hashes have different public inputs. -/
theorem C96_input_injective (hs hs' : List Bytes) (hl : ∀ h ∈ hs, h.length = 32) (hl' : ∀ h ∈ hs', h.length = 32)
    (he : recursionInput hs = recursionInput hs') : hs = hs' := by
  have e1 := (C96_input_size hs hl).1
  have e2 := (C96_input_size hs' hl').1
  rw [he] at e1
  have hn : hs.length = hs'.length := by omega
  have hm : ∀ l : List Bytes, (∀ h ∈ l, h.length = 32) → l.map List.length = List.replicate l.length 32 :=
    fun l hl => List.eq_replicate_iff.mpr ⟨by simp, by simpa using hl⟩
  have hlen : hs.map List.length = hs'.map List.length := by rw [hm _ hl, hm _ hl', hn]
  have h1 := C96_recursion hs hs rfl
  rw [he, C96_recursion hs hs' hlen] at h1
  have hinj : ∀ h ∈ hs', ∀ h' ∈ hs, hashElements h = hashElements h' → h = h' := fun h hh h' hh' =>
    C96_hash_injective h h' (hl' h hh) (hl h' hh')
  clear he e1 e2 hlen hl hl' hm
  induction hs generalizing hs' with
  | nil => simpa using h1
  | cons h hs ih =>
    cases hs' with
    | nil => simp at h1
    | cons h' hs' =>
      simp only [List.map_cons, List.cons.injEq] at h1
      rw [hinj h' (by simp) h (by simp) h1.1,
        ih hs' (by simpa using hn) h1.2 fun a ha b hb => hinj a (by simp [ha]) b (by simp [hb])]

/-- On the public input of `hs` the recursion circuit is satisfied exactly if every inner proof verifies for its
hash. -/
theorem C96_relation {Proof : Type} (verifies : List ℕ → Proof → Prop) (hs0 hs : List Bytes) (proofs : List Proof)
    (hl : hs0.map List.length = hs.map List.length) (hp : proofs.length = hs.length) :
    ∃ P, recursionCircuit verifies hs0 (recursionInput hs) proofs = .ok P ∧
      (P ↔ List.Forall₂ (fun h p => verifies (hashElements h) p) hs proofs) := by
  refine ⟨∀ p ∈ (hs.map hashElements).zip proofs, verifies p.1 p.2, ?_, ?_⟩
  · rw [recursionCircuit, C96_recursion hs0 hs hl]
    simp only [List.length_map, hp, beq_self_eq_true, assert_true, ok_bind]
    rfl
  · rw [← List.forall₂_map_left_iff (f := hashElements) (R := verifies), List.forall₂_iff_zip]
    simp [hp]

/-- Another number of proofs than of hashes panics. -/
theorem C96_wrong_number {Proof : Type} (verifies : List ℕ → Proof → Prop) (hs : List Bytes) (xs : List ℕ)
    (proofs : List Proof) (hp : proofs.length ≠ hs.length) :
    recursionCircuit verifies hs xs proofs = panic' .assertion := by
  have hl : ∀ (hs : List Bytes) xs, (circuitElements hs xs).length = hs.length := by
    intro hs
    induction hs with
    | nil => intro _; rfl
    | cons h hs ih => intro xs; rw [circuitElements]; simp [ih]
  rw [recursionCircuit]
  simp only [hl]
  rw [show (hs.length == proofs.length) = false by simpa using hp.symm]
  rfl

/-- The single circuit for all hashes: satisfied exactly if each output is the hash of its input; its public input
is that of the outputs, as the verifier computes it. -/
theorem C96_many (hash : Bytes → Bytes) (input output : List Bytes) (h : input.length = output.length) :
    (manyCircuit hash input output ↔ output = input.map hash) ∧
    manyInput input output = output.flatMap hashElements := by
  induction input generalizing output with
  | nil =>
    obtain rfl := List.length_eq_zero_iff.mp h.symm
    simp [manyCircuit, manyInput]
  | cons x xs ih =>
    cases output with
    | nil => simp at h
    | cons y ys =>
      obtain ⟨h1, h2⟩ := ih ys (by simpa using h)
      constructor
      · have : manyCircuit hash (x :: xs) (y :: ys) ↔ hash x = y ∧ manyCircuit hash xs ys := by
          simp [manyCircuit]
        rw [this, h1, List.map_cons, List.cons.injEq, eq_comm]
      · have : manyInput (x :: xs) (y :: ys) = hashElements y ++ manyInput xs ys := by
          simp [manyInput]
        rw [this, h2, List.flatMap_cons]

/-- The circuit of the example: every public input has exactly one witness, so every statement is true. -/
theorem C96_test_circuit {F : Type} [Field F] (publicInputs : List F) (publicSum : F) :
    ∃! w, testCircuit publicInputs publicSum w := by
  have h : ∀ (l : List F) (w : F), l.foldl (· + ·) w = w + l.sum := by
    intro l
    induction l with
    | nil => intro w; simp
    | cons x l ih => intro w; rw [List.foldl_cons, ih, List.sum_cons]; ring
  refine ⟨publicSum - publicInputs.sum, ?_, fun w hw => ?_⟩
  · simp [testCircuit, h]
  · have hw' : publicSum = publicInputs.foldl (· + ·) w := hw
    rw [hw', h]; ring

/-- Two 32-byte strings that differ in the last byte. -/
example : recursionInput [List.replicate 31 7 ++ [1], List.replicate 31 7 ++ [2]] ≠
    recursionInput [List.replicate 31 7 ++ [1], List.replicate 31 7 ++ [3]] := fun h => by
  have := C96_input_injective _ _ (by decide) (by decide) h
  simp at this

/-- The witness for the public inputs 1, 2, 3 and the sum 10. -/
example : testCircuit [(1 : Toy.F), 2, 3] 10 4 ∧ ¬ testCircuit [(1 : Toy.F), 2, 3] 10 5 := by
  constructor
  · show (10 : Toy.F) = _; decide
  · show ¬ (10 : Toy.F) = _; decide

/-! ## C97: the polynomial commitment bench -/

theorem not_short (i : ℕ) : ¬ ShortDegree (4 ^ (i + 1) - 1) := by
  rintro ⟨j, -, -, h1, h2⟩
  rw [Nat.sub_add_cancel (Nat.one_le_pow _ 4 (by norm_num))] at h1 h2
  have h3 : j < i + 1 := (Nat.pow_lt_pow_iff_right (by norm_num)).mp h1
  have h4 : 4 ^ (j + 1) ≤ 4 ^ (i + 1) := Nat.pow_le_pow_right (by norm_num) h3
  have h5 : 4 ^ (j - 26) ≤ 4 ^ j := Nat.pow_le_pow_right (by norm_num) (by omega)
  rw [pow_succ 4 j] at h4
  omega

/-- The degrees are computed without overflow for up to 31 data points. -/
theorem C97_degree (i : ℕ) : (i ≤ 30 → benchDegree i = .ok (4 ^ (i + 1) - 1)) ∧
    (31 ≤ i → benchDegree i = panic' .overflow) := by
  have e : (2 : ℕ) ^ 64 = 4 ^ 32 := by norm_num
  constructor
  · intro h
    rw [benchDegree, if_pos]
    rw [e]; exact Nat.pow_lt_pow_right (by norm_num) (by omega)
  · intro h
    rw [benchDegree, if_neg]
    rw [e, not_lt]; exact Nat.pow_le_pow_right (by norm_num) (by omega)

/-- For these degrees both schemes split without waste: the capacity is exactly the number of coefficients. -/
theorem C97_exact (i : ℕ) (hi : i ≤ 30) :
    (∃ x y, bivariateDegrees (4 ^ (i + 1) - 1) = .ok (x, y) ∧ (x + 1) * (y + 1) = 4 ^ (i + 1)) ∧
    (∃ x y, bivariateDegreesT (4 ^ (i + 1) - 1) = .ok (x, y) ∧ (x + 1) * (y + 1) = 4 ^ (i + 1)) := by
  have e1 : 4 ^ (i + 1) - 1 + 1 = 4 ^ (i + 1) := Nat.sub_add_cancel (Nat.one_le_pow _ 4 (by norm_num))
  have e2 : 4 ≤ 4 ^ (i + 1) := by rw [pow_succ]; have := Nat.one_le_pow i 4 (by norm_num); omega
  have e3 : 4 ^ (i + 1) - 1 + 1 < 2 ^ 64 := by
    rw [e1, show (2 : ℕ) ^ 64 = 4 ^ 32 by norm_num]
    exact Nat.pow_lt_pow_right (by norm_num) (by omega)
  have key : ∀ n j : ℕ, n = 4 ^ j → (∀ i', i' < j → 4 ^ i' < 4 ^ (i + 1)) → 4 ^ (i + 1) ≤ n →
      n = 4 ^ (i + 1) := by
    rintro _ j rfl h1 h2
    refine le_antisymm (Nat.pow_le_pow_right (by norm_num) ?_) h2
    by_contra h
    exact lt_irrefl _ (h1 (i + 1) (by omega))
  constructor
  · obtain ⟨x, y, k, l, j, h1, -, -, h2, -, h3, h4⟩ := C76_degrees (4 ^ (i + 1) - 1) (by omega) e3
    rw [e1] at h3 h4
    exact ⟨x, y, h1, key _ j h2 h3 (h4.mpr (not_short i))⟩
  · obtain ⟨x, y, k, l, j, h1, -, -, h2, -, h3, h4⟩ := C76_degrees_transparent (4 ^ (i + 1) - 1) (by omega) e3
    rw [e1] at h3 h4
    exact ⟨x, y, h1, key _ j h2 h3 (h4.mpr (not_short i))⟩

section
variable {ρ F G1 G2 GT TF : Type} [Field F] [DecidableEq F] [AddCommGroup G1] [Module F G1]
  [AddCommGroup G2] [Module F G2] [AddCommGroup GT] [Module F GT] [Monoid TF]
  [DecidableEq G1] [DecidableEq GT] {e : G1 →ₗ[F] G2 →ₗ[F] GT}

theorem verifyMany_true : verifyMany (.ok true) = .ok () := rfl

/-- KZG: every trial passes. -/
theorem C97_kzg (V : Env ρ F G1 G2 GT TF) (hE : V.E.Lawful e) (s s' : ρ) (d : ℕ)
    (srs : List G1 × VerifierSRS G1 G2) (hset : Kzg.setup V s d = .ok (srs, s')) (p : List F)
    (hp : p.getLast? ≠ some 0) (hd : p.length ≤ d + 1) (z : F) : kzgTrial V srs p z = .ok () := by
  obtain ⟨pws, v⟩ := srs
  obtain ⟨com, π, h1, h2, h3⟩ := Kzg.C37_complete V hE s s' d pws v hset p hp hd z
  rw [kzgTrial]
  simp only [h1, h2, unwrapRes_ok, ok_bind, ← evalAt_eq, h3, verifyMany_true]

/-- The structured scheme: every trial with a degree of the bench passes, unless a challenge search fails. -/
theorem C97_ipa (V : Env ρ F G1 G2 GT TF) (hE : V.E.Lawful e) (hd : ∀ b, 16 ≤ (V.digest b).length)
    (i : ℕ) (hi : i ≤ 30) (s s' : ρ) (srs : SRS G1 G2 × List G1)
    (hset : Univariate.setup V s (4 ^ (i + 1) - 1) = .ok (srs, s')) (v : VerifierSRS G1 G2)
    (hv : srs.1.verifierKey = .ok v) (p : List F) (hp : p.length ≤ 4 ^ (i + 1)) (z : F) :
    ipaTrial V srs v (4 ^ (i + 1) - 1) p z = .error .diverge ∨ ipaTrial V srs v (4 ^ (i + 1) - 1) p z = .ok () := by
  have e1 : 4 ^ (i + 1) - 1 + 1 = 4 ^ (i + 1) := Nat.sub_add_cancel (Nat.one_le_pow _ 4 (by norm_num))
  have e2 : 4 ≤ 4 ^ (i + 1) := by rw [pow_succ]; have := Nat.one_le_pow i 4 (by norm_num); omega
  have e3 : 4 ^ (i + 1) - 1 + 1 < 2 ^ 64 := by
    rw [e1, show (2 : ℕ) ^ 64 = 4 ^ 32 by norm_num]
    exact Nat.pow_lt_pow_right (by norm_num) (by omega)
  obtain ⟨com, coms, v', h2, h1, h3⟩ := Univariate.C76_complete V hE hd s s' _ srs (by omega) e3 (not_short i)
    hset p (by omega) z
  rw [hv] at h1
  cases h1
  rw [ipaTrial]
  simp only [h2, unwrapRes_ok, ok_bind, ← evalAt_eq]
  rcases h3 with h3 | ⟨proof, h3, h4⟩
  · left; rw [h3]; rfl
  · right; rw [h3]; simp only [unwrapRes_ok, ok_bind, h4, verifyMany_true]

/-- The transparent scheme likewise. -/
theorem C97_transparent (V : Env ρ F G1 G2 GT TF) (hE : V.E.Lawful e) (hd : ∀ b, 16 ≤ (V.digest b).length)
    (i : ℕ) (hi : i ≤ 30) (s s' : ρ) (ck : List G1 × List G2)
    (hset : TUnivariate.setup V s (4 ^ (i + 1) - 1) = .ok (ck, s')) (p : List F)
    (hp : p.length ≤ 4 ^ (i + 1)) (z : F) :
    transparentTrial V ck p z = .error .diverge ∨ transparentTrial V ck p z = .ok () := by
  have e1 : 4 ^ (i + 1) - 1 + 1 = 4 ^ (i + 1) := Nat.sub_add_cancel (Nat.one_le_pow _ 4 (by norm_num))
  have e2 : 4 ≤ 4 ^ (i + 1) := by rw [pow_succ]; have := Nat.one_le_pow i 4 (by norm_num); omega
  have e3 : 4 ^ (i + 1) - 1 + 1 < 2 ^ 64 := by
    rw [e1, show (2 : ℕ) ^ 64 = 4 ^ 32 by norm_num]
    exact Nat.pow_lt_pow_right (by norm_num) (by omega)
  obtain ⟨com, coms, h1, h3⟩ := TUnivariate.C76_complete V hE hd s s' _ ck (by omega) e3 (not_short i)
    hset p (by omega) z
  rw [transparentTrial]
  simp only [h1, unwrapRes_ok, ok_bind, ← evalAt_eq]
  rcases h3 with h3 | ⟨proof, h3, h4⟩
  · left; rw [h3]; rfl
  · right; rw [h3]; simp only [unwrapRes_ok, ok_bind, h4, verifyMany_true]

/-! ## C98: the aggregation bench -/

variable {ρ' : Type}

theorem benchProofs_valid (vk : G16VK G1 G2) (all : Bool) (n : ℕ) (made : List (G16Proof G1 G2))
    (inputs : List (List F)) (hn : made.length = n) (h1 : 1 ≤ n) (hv : List.Forall₂ (Groth16.Valid e vk) made inputs) :
    ∃ ps xs, benchProofs all n made inputs = .ok (ps, xs) ∧ ps.length = n ∧
      List.Forall₂ (Groth16.Valid e vk) ps xs := by
  cases all
  · cases hv with
    | nil => simp at hn; omega
    | cons h hs =>
      refine ⟨_, _, rfl, by simp, ?_⟩
      clear hn h1
      induction n with
      | zero => exact .nil
      | succ n ih => exact .cons h ih
  · exact ⟨made, inputs, rfl, hn, hv⟩

theorem setup_keys (V : Env ρ F G1 G2 GT TF) (s : ρ) (n : ℕ) (hn : 1 ≤ n) :
    ∃ srs s' v, Groth16.setup V s n = .ok (srs, s') ∧ srs.verifierKey = .ok v ∧
      srs.commitmentKeys.1.length = n ∧ srs.commitmentKeys.2.length = n := by
  refine ⟨_, _, _, Groth16.C74_setup V s n hn,
    (IsLeftSrs.keys (g := V.g) (h := V.h) (α := (V.randF s).1) (β := (V.randF (V.randF s).2).1) hn
      (IsSrs.left hn ⟨rfl, rfl, rfl, rfl⟩)).2, ?_, ?_⟩ <;>
  simp [SRS.commitmentKeys, stepBy2_map_range]

theorem trials_eq (x : Res Unit) (n : ℕ) (h : x = .error .diverge ∨ x = .ok ()) :
    ((List.replicate n ()).forM fun _ => x) = .error .diverge ∨
    ((List.replicate n ()).forM fun _ => x) = .ok () := by
  rcases h with rfl | rfl
  · cases n with
    | zero => exact .inr rfl
    | succ n => exact .inl rfl
  · right
    induction n with
    | zero => rfl
    | succ n ih => exact ih

/-- For a power of two of at least two valid proofs every assertion of batch verification and aggregation holds, unless
a challenge search fails. -/
theorem C98_part (V : Env ρ F G1 G2 GT TF) (hE : V.E.Lawful e) (hd : ∀ x, 16 ≤ (V.digest x).length)
    (rand : ρ' → ℕ × ρ') (seed : ρ') (s : ρ) (vk : G16VK G1 G2) (numTrials k : ℕ) (xs : List (List F))
    (ps : List (G16Proof G1 G2)) (h2 : ps.length = 2 ^ (k + 1)) (h3 : List.Forall₂ (Groth16.Valid e vk) ps xs)
    (hr : ∀ cA cB cC r, Groth16.challenge V cA cB cC = .ok r → r ≠ 0 ∧ r ≠ 1) :
    aggregationPart V rand seed s vk numTrials (2 ^ (k + 1)) xs ps = .error .diverge ∨
    ∃ srs s', Groth16.setup V s (2 ^ (k + 1)) = .ok (srs, s') ∧
      aggregationPart V rand seed s vk numTrials (2 ^ (k + 1)) xs ps = .ok s' := by
  obtain ⟨srs, s', v, hset, hv1, -, -⟩ := setup_keys V s (2 ^ (k + 1)) Nat.one_le_two_pow
  have h4 := Groth16.C74_end_to_end V hE hd k s _ _ hset vk ps xs h2 h3 fun r => hr _ _ _ r
  have h5 : aggregationTrial V srs v vk xs ps = .error .diverge ∨ aggregationTrial V srs v vk xs ps = .ok () := by
    rw [aggregationTrial]
    rcases h4 with h4 | ⟨v', proof, h5, h6, h7⟩
    · left; rw [h4]; rfl
    · right
      rw [hv1] at h5
      cases h5
      rw [h6]; simp only [unwrapRes_ok, ok_bind, h7, assert_true]
  rw [aggregationPart]
  rw [Batch.C88_complete hE rand seed vk xs ps h3]
  simp only [unwrapRes_ok, ok_bind, assert_true, hset, hv1]
  rcases trials_eq _ numTrials h5 with h | h
  · left; rw [h]; rfl
  · right; exact ⟨srs, s', rfl, by rw [h]; rfl⟩

/-- For a power of two of at least two valid proofs every assertion of the bench holds, unless a challenge search
ends; with one proof copied as well as with all proofs. -/
theorem C98_run (V : Env ρ F G1 G2 GT TF) (hE : V.E.Lawful e) (hd : ∀ x, 16 ≤ (V.digest x).length)
    (rand : ρ' → ℕ × ρ') (seed : ρ') (s : ρ) (vk : G16VK G1 G2) (all : Bool) (numTrials k : ℕ)
    (inputs : List (List F)) (made : List (G16Proof G1 G2)) (hn : made.length = 2 ^ (k + 1))
    (hv : List.Forall₂ (Groth16.Valid e vk) made inputs)
    (hr : ∀ cA cB cC r, Groth16.challenge V cA cB cC = .ok r → r ≠ 0 ∧ r ≠ 1) :
    aggregationRun V rand seed s vk all numTrials (2 ^ (k + 1)) inputs made = .error .diverge ∨
    ∃ srs s', Groth16.setup V s (2 ^ (k + 1)) = .ok (srs, s') ∧
      aggregationRun V rand seed s vk all numTrials (2 ^ (k + 1)) inputs made = .ok s' := by
  obtain ⟨ps, xs, h1, h2, h3⟩ := benchProofs_valid vk all _ made inputs hn Nat.one_le_two_pow hv
  rw [aggregationRun, h1]
  exact C98_part V hE hd rand seed s vk numTrials k xs ps h2 h3 hr

/-- With no proof the bench panics; with one proof, or a number that is not a power of two, it panics at the first
trial unless a challenge search fails. -/
theorem C98_sizes (V : Env ρ F G1 G2 GT TF) (hE : V.E.Lawful e) (rand : ρ' → ℕ × ρ') (seed : ρ') (s : ρ)
    (vk : G16VK G1 G2) (all : Bool) (numTrials n : ℕ) (inputs : List (List F)) (made : List (G16Proof G1 G2))
    (hn : made.length = n) (hbad : ∀ k, n ≠ 2 ^ (k + 1)) (ht : 1 ≤ numTrials)
    (hv : List.Forall₂ (Groth16.Valid e vk) made inputs)
    (hr : ∀ cA cB cC r, Groth16.challenge V cA cB cC = .ok r → r ≠ 0) :
    aggregationRun V rand seed s vk all numTrials n inputs made = .error .diverge ∨
    ∃ why, aggregationRun V rand seed s vk all numTrials n inputs made = panic' why := by
  rcases Nat.eq_zero_or_pos n with rfl | hpos
  · right
    obtain rfl := List.length_eq_zero_iff.mp hn
    cases hv
    cases all
    · exact ⟨.bounds, rfl⟩
    · refine ⟨.overflow, ?_⟩
      rw [aggregationRun, benchProofs]
      simp only [if_true, pure_eq_ok, ok_bind]
      rw [aggregationPart, Batch.C88_complete hE rand seed vk [] [] .nil]
      simp only [unwrapRes_ok, ok_bind, assert_true, Groth16.C74_setup_zero]
      rfl
  obtain ⟨ps, xs, h1, h2, h3⟩ := benchProofs_valid vk all _ made inputs hn hpos hv
  obtain ⟨srs, s', v, hset, hv1, hk1, hk2⟩ := setup_keys V s n hpos
  obtain ⟨m, rfl⟩ : ∃ m, numTrials = m + 1 := ⟨numTrials - 1, by omega⟩
  rw [aggregationRun, h1]
  simp only [ok_bind]
  rw [aggregationPart, Batch.C88_complete hE rand seed vk xs ps h3]
  simp only [unwrapRes_ok, ok_bind, assert_true, hset, hv1, List.replicate_succ]
  have h5 : Groth16.aggregate V srs ps = .error .diverge ∨ ∃ why, Groth16.aggregate V srs ps = panic' why := by
    rcases Groth16.challenge_total V (dot (e · ·) (ps.map (·.a)) srs.commitmentKeys.1)
      (dot (e · ·) srs.commitmentKeys.2 (ps.map (·.b)))
      (dot (e · ·) (ps.map (·.c)) srs.commitmentKeys.1) with ⟨r, hc⟩ | hc
    · right
      by_cases h1n : n = 1
      · obtain ⟨p, rfl⟩ := List.length_eq_one_iff.mp (h2.trans h1n)
        exact ⟨_, Groth16.C64_single hE srs p (hk1.trans h1n) (hk2.trans h1n) r (hr _ _ _ r hc) hc⟩
      · refine ⟨_, Groth16.C64_not_power_of_two hE srs ps n hpos (fun k => ?_) h2 hk1 hk2 r (hr _ _ _ r hc) hc⟩
        cases k with
        | zero => simpa using h1n
        | succ k => exact hbad k
    · left
      exact Groth16.aggregate_diverge hE srs ps (hk1.trans h2.symm) (hk2.trans h2.symm) _ hc
  rcases h5 with h5 | ⟨why, h5⟩
  · left
    have : aggregationTrial V srs v vk xs ps = .error .diverge := by rw [aggregationTrial, h5]; rfl
    show ((aggregationTrial V srs v vk xs ps >>= fun _ => _) >>= fun _ => _) = _
    rw [this]; rfl
  · right
    refine ⟨why, ?_⟩
    have : aggregationTrial V srs v vk xs ps = panic' why := by rw [aggregationTrial, h5]; rfl
    show ((aggregationTrial V srs v vk xs ps >>= fun _ => _) >>= fun _ => _) = _
    rw [this]; rfl

end

/-- Four valid proofs on the toy curve, three trials. -/
example (all : Bool) (rand : ℕ → ℕ × ℕ) :
    aggregationRun Toy.env rand 0 (0 : ℕ) Groth16.toyVK all 3 4 [[1], [2], [3], [4]] Groth16.toyProofs =
      .error .diverge ∨
    ∃ srs s', Groth16.setup Toy.env 0 4 = .ok (srs, s') ∧
      aggregationRun Toy.env rand 0 (0 : ℕ) Groth16.toyVK all 3 4 [[1], [2], [3], [4]] Groth16.toyProofs = .ok s' :=
  C98_run (e := Toy.e) Toy.env Toy.lawful Toy.digest_length rand 0 0 Groth16.toyVK all 3 1 _ _ rfl
    Groth16.toy_valid fun _ _ _ r hc => by
      rw [Groth16.challenge_toy] at hc; cases hc; exact ⟨by decide, by decide⟩

/-- The first data point: degree 3. -/
example : benchDegree 0 = .ok 3 ∧ ∃ srs v ck s' s'', Univariate.setup Toy.env 11 3 = .ok (srs, s') ∧
    srs.1.verifierKey = .ok v ∧
    TUnivariate.setup Toy.env 11 3 = .ok (ck, s'') ∧
    (ipaTrial Toy.env srs v 3 [1, 2, 3, 4] (5 : Toy.F) = .error .diverge ∨
      ipaTrial Toy.env srs v 3 [1, 2, 3, 4] (5 : Toy.F) = .ok ()) ∧
    (transparentTrial Toy.env ck [1, 2, 3, 4] (5 : Toy.F) = .error .diverge ∨
      transparentTrial Toy.env ck [1, 2, 3, 4] (5 : Toy.F) = .ok ()) := by
  obtain ⟨x, y, k, l, j, h1, h2, -⟩ := C43_degrees 3 (by norm_num) (by norm_num)
  obtain ⟨srs, α, β, s', h4, h5⟩ := Bivariate.C41_setup Toy.env 11 x y
  have hset : Univariate.setup Toy.env 11 3 = .ok (srs, s') := by
    rw [Univariate.setup, h1]; exact h4
  obtain ⟨x', y', k', l', j', h1', h2', -⟩ := C43_degrees_transparent 3 (by norm_num) (by norm_num)
  obtain ⟨ck, s'', h4', -⟩ := TBivariate.C47_setup Toy.env 11 x' y'
  have hset' : TUnivariate.setup Toy.env 11 3 = .ok (ck, s'') := by
    rw [TUnivariate.setup, h1']; exact h4'
  obtain ⟨-, -, v, -, hv, -⟩ := Univariate.C76_complete Toy.env Toy.lawful Toy.digest_length 11 s' 3 srs (by norm_num)
    (by norm_num) (not_short 0) hset [] (by simp) 0
  exact ⟨(C97_degree 0).1 (by norm_num), srs, v, ck, s', s'', hset, hv, hset',
    C97_ipa Toy.env Toy.lawful Toy.digest_length 0 (by norm_num) 11 s' srs hset v hv [1, 2, 3, 4] (by decide) 5,
    C97_transparent Toy.env Toy.lawful Toy.digest_length 0 (by norm_num) 11 s'' ck hset' [1, 2, 3, 4] (by decide) 5⟩

end Ripp.Bench
