import Verif.Model.Release
import Verif.Props.Univariate
import Verif.Props.Transparent
import Verif.Props.Outcome
import Verif.Props.Programs
import Verif.Lemmas.ProverCostBounds

/-!
# Release builds: C140

Property statements are in `properties.jsonl`.
-/

set_option linter.unusedSectionVars false
set_option linter.unusedVariables false

namespace Ripp

open Spec

namespace Release

theorem wadd_eq {a b : ℕ} (h : a + b < 2 ^ 64) : wadd a b = a + b := Nat.mod_eq_of_lt h

theorem wmul_eq {a b : ℕ} (h : a * b < 2 ^ 64) : wmul a b = a * b := Nat.mod_eq_of_lt h

theorem wsub_eq {a b : ℕ} (h : a < 2 ^ 64) (hb : b ≤ a) : wsub a b = a - b := by
  rw [wsub]; omega

theorem wsub_zero_one : wsub 0 1 = 2 ^ 64 - 1 := by decide +kernel

theorem wadd_max : wadd (2 ^ 64 - 1) 1 = 0 := by decide +kernel

theorem wadd_half : 0 < wadd (wsub 0 1 / 2) 1 := by decide +kernel

/-- The wrapping operations are those of machine words. -/
theorem C140_words (a b : ℕ) (ha : a < 2 ^ 64) (hb : b < 2 ^ 64) :
    wadd a b = (BitVec.ofNat 64 a + BitVec.ofNat 64 b).toNat ∧
    wsub a b = (BitVec.ofNat 64 a - BitVec.ofNat 64 b).toNat ∧
    wmul a b = (BitVec.ofNat 64 a * BitVec.ofNat 64 b).toNat := by
  simp only [wadd, wsub, wmul, BitVec.toNat_add, BitVec.toNat_sub, BitVec.toNat_mul, BitVec.toNat_ofNat]
  rw [Nat.mod_eq_of_lt ha, Nat.mod_eq_of_lt hb]
  exact ⟨rfl, by rw [Nat.add_comm], rfl⟩

theorem f64OfNat_le {n : ℕ} (h : n < 2 ^ 64) : f64OfNat n ≤ 2 ^ 64 := by
  rw [f64OfNat]
  split_ifs with h1
  · omega
  have h0 : n ≠ 0 := by omega
  have hk : Nat.log2 n ≤ 63 := by
    have := (Nat.log2_lt h0 (k := 64)).2 h; omega
  have hk2 : 53 ≤ Nat.log2 n := (Nat.le_log2 h0).2 (by omega)
  have hq : n / 2 ^ (Nat.log2 n - 52) + 1 ≤ 2 ^ 53 := by
    rw [Nat.succ_le_iff, Nat.div_lt_iff_lt_mul (by positivity), ← pow_add]
    exact lt_of_lt_of_le (Nat.lt_log2_self) (Nat.pow_le_pow_right (by omega) (by omega))
  have hp : (2 : ℕ) ^ 53 * 2 ^ (Nat.log2 n - 52) ≤ 2 ^ 64 := by
    rw [← pow_add]; exact Nat.pow_le_pow_right (by omega) (by omega)
  have hq1 := (Nat.mul_le_mul_right (2 ^ (Nat.log2 n - 52)) hq).trans hp
  have hq0 := (Nat.mul_le_mul_right (2 ^ (Nat.log2 n - 52)) (Nat.le_succ (n / 2 ^ (Nat.log2 n - 52)))).trans hq1
  simp only []
  split_ifs <;> assumption

theorem f64CeilSqrt_le {m : ℕ} (h : m ≤ 2 ^ 64) : f64CeilSqrt m ≤ 2 ^ 32 + 1 := by
  rw [f64CeilSqrt]
  generalize 52 - Nat.log2 m / 2 = k
  have hs : (m * 4 ^ k).sqrt ≤ 2 ^ 32 * 2 ^ k := by
    calc (m * 4 ^ k).sqrt ≤ (2 ^ 32 * 2 ^ k * (2 ^ 32 * 2 ^ k)).sqrt := Nat.sqrt_le_sqrt (by
          have : (2 : ℕ) ^ 32 * 2 ^ k * (2 ^ 32 * 2 ^ k) = 2 ^ 64 * 4 ^ k := by
            rw [show (4 : ℕ) = 2 * 2 from rfl, mul_pow]; ring
          rw [this]; exact Nat.mul_le_mul_right _ h)
      _ = _ := Nat.sqrt_eq _
  have hr : (if m * 4 ^ k - (m * 4 ^ k).sqrt * (m * 4 ^ k).sqrt ≤ (m * 4 ^ k).sqrt then (m * 4 ^ k).sqrt
      else (m * 4 ^ k).sqrt + 1) ≤ 2 ^ 32 * 2 ^ k + 1 := by split_ifs <;> omega
  refine Nat.div_le_of_le_mul ?_
  have hp : 0 < 2 ^ k := by positivity
  rw [mul_add, mul_one, mul_comm (2 ^ k)]
  omega

theorem sqrtPow2_le {d : ℕ} (h : d + 1 < 2 ^ 64) : sqrtPow2 d ≤ 2 ^ 33 := by
  rw [sqrtPow2, wadd_eq h, nextPow2]
  refine Nat.pow_le_pow_right (by omega) (Nat.clog_le_of_le_pow ?_)
  have := f64CeilSqrt_le (f64OfNat_le h)
  omega

theorem sqrtPow2_agree {d : ℕ} (h : d + 1 < 2 ^ 64) : Ripp.sqrtPow2 d = .ok (sqrtPow2 d) := by
  rw [Ripp.sqrtPow2, if_neg (by omega), sqrtPow2, wadd_eq h]

theorem splitDegrees_agree {s k : ℕ} (hs : s ≤ 2 ^ 33) (hk : k ≤ 16) (h : Ripp.splitDegrees s k ≠ panic' .overflow) :
    splitDegrees s k = Ripp.splitDegrees s k := by
  rw [splitDegrees, Ripp.splitDegrees] at *
  split_ifs at h ⊢ with h1 h2
  · rfl
  · exact absurd rfl h
  · have : s / k ≤ s := Nat.div_le_self _ _
    have : s * k ≤ 2 ^ 33 * 16 := Nat.mul_le_mul hs hk
    rw [not_or] at h2
    obtain ⟨h3, h4⟩ := h2
    rw [wmul_eq (by omega)]
    generalize s / k = q at *
    generalize s * k = r at *
    rw [wsub_eq (by omega) (by omega), wsub_eq (by omega) (by omega)]

/-- The degree computations give the same result in release builds, where debug builds do not report an overflow. -/
theorem C140_degrees (d : ℕ) (hd : d < 2 ^ 64) :
    (Ripp.bivariateDegrees d ≠ panic' .overflow → bivariateDegrees d = Ripp.bivariateDegrees d) ∧
    (Ripp.bivariateDegreesT d ≠ panic' .overflow → bivariateDegreesT d = Ripp.bivariateDegreesT d) := by
  by_cases h : d + 1 < 2 ^ 64
  · rw [bivariateDegrees, Ripp.bivariateDegrees, bivariateDegreesT, Ripp.bivariateDegreesT, sqrtPow2_agree h]
    simp only [ok_bind]
    exact ⟨splitDegrees_agree (sqrtPow2_le h) (by split_ifs <;> omega),
      splitDegrees_agree (sqrtPow2_le h) (by split_ifs <;> omega)⟩
  · have : Ripp.sqrtPow2 d = panic' .overflow := by rw [Ripp.sqrtPow2, if_pos (by omega)]
    rw [Ripp.bivariateDegrees, Ripp.bivariateDegreesT, this]
    exact ⟨fun h => absurd rfl h, fun h => absurd rfl h⟩

theorem degrees_bound {d x y : ℕ} (h : Ripp.bivariateDegrees d = .ok (x, y) ∨ Ripp.bivariateDegreesT d = .ok (x, y)) :
    x ≤ 2 ^ 33 ∧ y ≤ 2 ^ 37 := by
  by_cases hd : d + 1 < 2 ^ 64
  · have key : ∀ k ≤ 16, Ripp.splitDegrees (sqrtPow2 d) k = .ok (x, y) → x ≤ 2 ^ 33 ∧ y ≤ 2 ^ 37 := by
      intro k hk h
      rw [Ripp.splitDegrees] at h
      split_ifs at h
      · cases h
      · cases h
      · have h1 := sqrtPow2_le hd
        have h2 : sqrtPow2 d / k ≤ sqrtPow2 d := Nat.div_le_self _ _
        have h3 : sqrtPow2 d * k ≤ 2 ^ 33 * 16 := Nat.mul_le_mul h1 hk
        rw [Except.ok.injEq, Prod.mk.injEq] at h
        omega
    rcases h with h | h
    · rw [Ripp.bivariateDegrees, sqrtPow2_agree hd] at h
      exact key _ (by split_ifs <;> omega) h
    · rw [Ripp.bivariateDegreesT, sqrtPow2_agree hd] at h
      exact key _ (by split_ifs <;> omega) h
  · have h' : Ripp.sqrtPow2 d = panic' .overflow := by rw [Ripp.sqrtPow2, if_pos (by omega)]
    rw [Ripp.bivariateDegrees, Ripp.bivariateDegreesT, h'] at h
    rcases h with h | h <;> cases h

/-- The largest degree: a debug build stops at the addition, a release build at the division. -/
theorem C140_degree_max : bivariateDegrees (2 ^ 64 - 1) = panic' .divZero ∧
    bivariateDegreesT (2 ^ 64 - 1) = panic' .divZero := by
  have : sqrtPow2 (2 ^ 64 - 1) = 1 := by
    rw [sqrtPow2, wadd_max]; decide +kernel
  rw [bivariateDegrees, bivariateDegreesT, this]
  exact ⟨rfl, rfl⟩

example : bivariateDegrees 1023 = .ok (1, 511) := by decide +kernel

section Form
variable {F : Type} [Field F] [DecidableEq F]

theorem takeRows_zero (n : ℕ) (it : List F) : takeRows 0 n it = .ok (List.replicate n []) := by
  induction n with
  | zero => rfl
  | succ n ih =>
    rw [takeRows]
    simp only [takeCoeffs, ok_bind, ih]
    rfl

theorem takeCoeffs_outcome (n : ℕ) (it : List F) :
    (∃ r, takeCoeffs n it = .ok r) ∨ takeCoeffs n it = panic' .unwrap := by
  induction n generalizing it with
  | zero => exact .inl ⟨_, rfl⟩
  | succ n ih =>
    rw [takeCoeffs]
    cases it with
    | nil => exact .inr rfl
    | cons c it =>
      simp only [List.head?_cons, unwrap_some, ok_bind, List.tail_cons]
      rcases ih it with ⟨⟨cs, it'⟩, h⟩ | h
      · rw [h]; exact .inl ⟨_, rfl⟩
      · rw [h]; exact .inr rfl

theorem takeRows_outcome (w n : ℕ) (it : List F) :
    (∃ rows, takeRows w n it = .ok rows ∧ rows.length = n) ∨ takeRows w n it = panic' .unwrap := by
  induction n generalizing it with
  | zero => exact .inl ⟨_, rfl, rfl⟩
  | succ n ih =>
    rw [takeRows]
    rcases takeCoeffs_outcome w it with ⟨⟨cs, it'⟩, h⟩ | h
    · rw [h]
      simp only [ok_bind]
      rcases ih it' with ⟨rows, h', hl⟩ | h'
      · rw [h']; exact .inl ⟨_, rfl, by simp [hl]⟩
      · rw [h']; exact .inr rfl
    · rw [h]; exact .inr rfl

/-- `bivariate_form` gives the same rows in release builds, as long as the number of coefficients fits into a word. -/
theorem bivariateForm_agree (d : ℕ × ℕ) (h : (d.1 + 1) * (d.2 + 1) < 2 ^ 64) (p : List F) :
    bivariateForm d p = Ripp.bivariateForm d p := by
  have h1 : d.1 + 1 < 2 ^ 64 := lt_of_le_of_lt (Nat.le_mul_of_pos_right _ (by omega)) h
  have h2 : d.2 + 1 < 2 ^ 64 := lt_of_le_of_lt (Nat.le_mul_of_pos_left _ (by omega)) h
  rw [bivariateForm, Ripp.bivariateForm]
  rw [wadd_eq h1, wadd_eq h2, wmul_eq h]

end Form

section Setup
variable {ρ F G1 G2 KT T OT : Type} [Field F] [AddCommGroup G1] [Module F G1]
  [AddCommGroup G2] [Module F G2]

/-- `setup` of the inner product arguments is the same in release builds for `1 ≤ size < 2^63`. -/
theorem C140_tipa_setup (randF : ρ → F × ρ) (g : G1) (h : G2) (ipc : Commitment ρ KT T OT) (s : ρ)
    (size : ℕ) (h1 : 1 ≤ size) (h2 : size < 2 ^ 63) :
    tipaSetup randF g h ipc s size = Ripp.tipaSetup randF g h ipc s size := by
  rw [tipaSetup, Ripp.tipaSetup, wmul_eq (by omega), wsub_eq (by omega) (by omega)]
  simp only [if_neg (show ¬ size = 0 by omega)]

/-- For size 0, where a debug build panics, a release build asks for `2^64 - 1` powers. -/
theorem C140_tipa_setup_zero (randF : ρ → F × ρ) (g : G1) (h : G2) (s : ρ) :
    Ripp.tipaSetup randF g h (identityCommitment (T := T)) s 0 = panic' .overflow ∧
    ∃ srs s', tipaSetup randF g h (identityCommitment (T := T)) s 0 = .ok ((srs, PUnit.unit), s') ∧
      srs.gAlphaPowers.length = 2 ^ 64 - 1 ∧ srs.hBetaPowers.length = 2 ^ 64 - 1 := by
  refine ⟨rfl, ?_⟩
  rw [tipaSetup]
  have hn : wsub (wmul 2 0) 1 = 2 ^ 64 - 1 := wsub_zero_one
  have hp : 0 < wsub (wmul 2 0) 1 := by rw [hn]; norm_num
  rw [← hn]
  generalize wsub (wmul 2 0) 1 = n at *
  simp only [structuredGenerators_eq _ _ _ hp]
  exact ⟨_, _, rfl, by simp, by simp⟩

end Setup

section
variable {ρ F G1 G2 GT TF : Type} [Field F] [DecidableEq F] [AddCommGroup G1] [Module F G1]
  [AddCommGroup G2] [Module F G2] [AddCommGroup GT] [Module F GT] [Monoid TF] [DecidableEq G1]
  [DecidableEq GT] {e : G1 →ₗ[F] G2 →ₗ[F] GT}

namespace Univariate

/-- The set-up is the same in release builds, unless a debug build stops with an overflow. -/
theorem C140_setup (V : Env ρ F G1 G2 GT TF) (s : ρ) (d : ℕ) (hd : d < 2 ^ 64)
    (h : Ripp.Univariate.setup V s d ≠ panic' .overflow) : setup V s d = Ripp.Univariate.setup V s d := by
  rw [setup, Ripp.Univariate.setup] at *
  have h' : Ripp.bivariateDegrees d ≠ panic' .overflow := fun h0 => h (by rw [h0]; rfl)
  rw [(C140_degrees d hd).1 h']
  cases hb : Ripp.bivariateDegrees d with
  | error f => rfl
  | ok xy =>
    obtain ⟨x, y⟩ := xy
    have := degrees_bound (.inl hb)
    simp only [ok_bind]
    rw [Bivariate.setup, Ripp.Bivariate.setup, wmul_eq (by omega), wadd_eq (by omega), wadd_eq (by omega)]

/-- The verifier gives the same answer in release builds, unless a debug build stops with an overflow. -/
theorem C140_verify (V : Env ρ F G1 G2 GT TF) (v : VerifierSRS G1 G2) (maxDegree : ℕ) (hd : maxDegree < 2 ^ 64)
    (com : GT) (z eval : F) (proof : PcProof F G1 G2 GT)
    (h : Ripp.Univariate.verify V v maxDegree com z eval proof ≠ panic' .overflow) :
    verify V v maxDegree com z eval proof = Ripp.Univariate.verify V v maxDegree com z eval proof := by
  rw [verify, Ripp.Univariate.verify] at *
  have h' : Ripp.bivariateDegrees maxDegree ≠ panic' .overflow := fun h0 => h (by rw [h0]; rfl)
  rw [(C140_degrees maxDegree hd).1 h']
  cases hb : Ripp.bivariateDegrees maxDegree with
  | error f => rfl
  | ok xy =>
    obtain ⟨x, y⟩ := xy
    have := degrees_bound (.inl hb)
    simp only [ok_bind]
    rw [wadd_eq (by omega)]

theorem parse_agree (srs : SRS G1 G2 × List G1) (hl : srs.1.hBetaPowers.length * srs.2.length < 2 ^ 64)
    (h : Ripp.Univariate.parseDegrees srs ≠ panic' .overflow) :
    Ripp.Univariate.parseDegrees srs = .ok (parseDegrees srs) ∧
    ((parseDegrees srs).1 + 1) * ((parseDegrees srs).2 + 1) < 2 ^ 64 ∧
    wadd (parseDegrees srs).2 1 = (parseDegrees srs).2 + 1 := by
  rw [Ripp.Univariate.parseDegrees] at *
  split_ifs at h ⊢ with h0
  · exact absurd rfl h
  have h1 : srs.1.hBetaPowers.length < 2 ^ 64 := lt_of_le_of_lt (Nat.le_mul_of_pos_right _ (by omega)) hl
  have h2 : srs.2.length < 2 ^ 64 := lt_of_le_of_lt (Nat.le_mul_of_pos_left _ (by omega)) hl
  rw [parseDegrees, wsub_eq h1 (by omega), wsub_eq h2 (by omega)]
  refine ⟨rfl, lt_of_le_of_lt (Nat.mul_le_mul ?_ ?_) hl, ?_⟩
  · dsimp only; omega
  · dsimp only; omega
  · dsimp only; exact wadd_eq (by omega)

theorem commit_of_parse (V : Env ρ F G1 G2 GT TF) (srs : SRS G1 G2 × List G1) (p : List F) (d : ℕ × ℕ)
    (h1 : Ripp.Univariate.parseDegrees srs = .ok d) :
    (Ripp.bivariateForm d p >>= fun ps => Ripp.Bivariate.commit V srs ps) = Ripp.Univariate.commit V srs p := by
  rw [Ripp.Univariate.commit, h1]
  rfl

theorem open_of_parse (V : Env ρ F G1 G2 GT TF) (srs : SRS G1 G2 × List G1) (p : List F) (coms : List G1) (z : F) (d : ℕ × ℕ)
    (h1 : Ripp.Univariate.parseDegrees srs = .ok d) :
    (Ripp.bivariateForm d p >>= fun ps => Ripp.Bivariate.open_ V srs ps coms (z ^ (d.2 + 1), z)) =
      Ripp.Univariate.open_ V srs p coms z := by
  rw [Ripp.Univariate.open_, h1]
  rfl

/-- Committing and opening are the same in release builds, unless a debug build stops with an overflow. -/
theorem C140_commit (V : Env ρ F G1 G2 GT TF) (srs : SRS G1 G2 × List G1)
    (hl : srs.1.hBetaPowers.length * srs.2.length < 2 ^ 64) (p : List F) (coms : List G1) (z : F) :
    (Ripp.Univariate.commit V srs p ≠ panic' .overflow → commit V srs p = Ripp.Univariate.commit V srs p) ∧
    (Ripp.Univariate.open_ V srs p coms z ≠ panic' .overflow →
      open_ V srs p coms z = Ripp.Univariate.open_ V srs p coms z) := by
  constructor
  · intro h
    obtain ⟨h1, h2, h3⟩ := parse_agree srs hl fun h0 => h (by rw [Ripp.Univariate.commit, h0]; rfl)
    rw [commit, bivariateForm_agree _ h2]
    exact commit_of_parse V srs p _ h1
  · intro h
    obtain ⟨h1, h2, h3⟩ := parse_agree srs hl fun h0 => h (by rw [Ripp.Univariate.open_, h0]; rfl)
    rw [open_, h3, bivariateForm_agree _ h2]
    exact open_of_parse V srs p coms z _ h1

/-- With an empty half of the key committing still panics in release builds, only later. -/
theorem C140_empty_key (V : Env ρ F G1 G2 GT TF) (srs : SRS G1 G2 × List G1)
    (hl : srs.1.hBetaPowers.length < 2 ^ 64) (h : srs.1.hBetaPowers = [] ∨ srs.2 = []) (p : List F) :
    commit V srs p = panic' .assertion ∨ commit V srs p = panic' .unwrap := by
  rw [commit, bivariateForm]
  by_cases hb : srs.1.hBetaPowers = []
  · have hx : 0 < wadd (parseDegrees srs).1 1 := by
      rw [parseDegrees, hb, List.length_nil]; exact wadd_half
    generalize wadd (parseDegrees srs).1 1 = N at *
    generalize wadd (parseDegrees srs).2 1 = M at *
    generalize wmul N M = K at *
    rcases takeRows_outcome M N (resize p K 0) with ⟨rows, hr, hlen⟩ | hr
    · rw [hr]
      left
      simp only [ok_bind]
      have hck : srs.1.commitmentKeys.1.length = 0 := by
        rw [SRS.commitmentKeys, hb]; rfl
      rw [Ripp.Bivariate.commit]
      rw [hck, hlen, decide_eq_false (by omega)]
      rfl
    · rw [hr]; exact .inr rfl
  · have h2 : srs.2 = [] := h.resolve_left hb
    have hy : wadd (parseDegrees srs).2 1 = 0 := by
      rw [parseDegrees, h2, List.length_nil, wsub_zero_one]; exact wadd_max
    have hpos : 0 < srs.1.hBetaPowers.length := List.length_pos_iff.mpr hb
    have hck : srs.1.commitmentKeys.1.length = wadd (parseDegrees srs).1 1 := by
      rw [SRS.commitmentKeys, length_stepBy2, parseDegrees, wsub_eq hl (by omega), wadd_eq (by dsimp only; omega)]
      dsimp only
      omega
    have hpos' : 0 < wadd (parseDegrees srs).1 1 := by
      rw [← hck, SRS.commitmentKeys, length_stepBy2]; omega
    rw [hy, takeRows_zero]
    generalize wadd (parseDegrees srs).1 1 = N at *
    left
    rw [ok_bind, Ripp.Bivariate.commit]
    rw [hck, List.length_replicate, decide_eq_true le_rfl, assert_true, ok_bind, resize,
      List.take_of_length_le (by simp), List.length_replicate, Nat.sub_self, List.replicate_zero, List.append_nil]
    obtain ⟨n, hn⟩ := Nat.exists_eq_add_of_lt hpos'
    rw [hn, Nat.zero_add, List.replicate_succ, List.mapM_cons, h2]
    rfl

/-- And no opening proof is produced. -/
theorem C140_empty_key_open (V : Env ρ F G1 G2 GT TF) (srs : SRS G1 G2 × List G1)
    (h : srs.1.hBetaPowers = [] ∨ srs.2 = []) (p : List F) (coms : List G1) (z : F)
    (proof : PcProof F G1 G2 GT) : open_ V srs p coms z ≠ .ok proof := by
  intro hok
  rw [open_, bivariateForm] at hok
  obtain ⟨rows, hr, hok⟩ := bind_eq_ok.mp hok
  rw [Ripp.Bivariate.open_] at hok
  obtain ⟨_, ha, hok⟩ := bind_eq_ok.mp hok
  rcases h with hb | h2
  · have hx : 0 < wadd (parseDegrees srs).1 1 := by
      rw [parseDegrees, hb, List.length_nil]; exact wadd_half
    generalize wadd (parseDegrees srs).1 1 = N at *
    generalize wadd (parseDegrees srs).2 1 = M at *
    generalize wmul N M = K at *
    rcases takeRows_outcome M N (resize p K 0) with ⟨rows', hr', hlen⟩ | hr'
    · rw [hr', Except.ok.injEq] at hr
      subst hr
      have hck : srs.1.commitmentKeys.1.length = 0 := by
        rw [SRS.commitmentKeys, hb]; rfl
      rw [hck, hlen, decide_eq_false (by omega)] at ha
      cases ha
    · rw [hr'] at hr; cases hr
  · rw [h2] at hok
    obtain ⟨yEval, hy, hok⟩ := bind_eq_ok.mp hok
    obtain ⟨_, -, hok⟩ := bind_eq_ok.mp hok
    obtain ⟨_, -, hok⟩ := bind_eq_ok.mp hok
    obtain ⟨_, hk, -⟩ := bind_eq_ok.mp hok
    rw [Ripp.Kzg.open_] at hk
    obtain ⟨d, -, hk⟩ := bind_eq_ok.mp hk
    obtain ⟨_, hk, -⟩ := bind_eq_ok.mp hk
    rw [List.length_nil, decide_eq_false (by omega)] at hk
    cases hk

end Univariate

theorem dot_zeros (e : G1 →ₗ[F] G2 →ₗ[F] GT) : ∀ (n : ℕ) (ks : List G2), dot (e · ·) (List.replicate n 0) ks = 0
  | 0, _ => by simp
  | n + 1, [] => by simp
  | n + 1, k :: ks => by
    rw [List.replicate_succ, dot_cons, dot_zeros e n ks]; simp

namespace TUnivariate

/-- The set-up is the same in release builds, unless a debug build stops with an overflow. -/
theorem C140_setup (V : Env ρ F G1 G2 GT TF) (s : ρ) (d : ℕ) (hd : d < 2 ^ 64)
    (h : Ripp.TUnivariate.setup V s d ≠ panic' .overflow) : setup V s d = Ripp.TUnivariate.setup V s d := by
  rw [setup, Ripp.TUnivariate.setup] at *
  have h' : Ripp.bivariateDegreesT d ≠ panic' .overflow := fun h0 => h (by rw [h0]; rfl)
  rw [(C140_degrees d hd).2 h']
  cases hb : Ripp.bivariateDegreesT d with
  | error f => rfl
  | ok xy =>
    obtain ⟨x, y⟩ := xy
    have := degrees_bound (.inr hb)
    simp only [ok_bind]
    rw [TBivariate.setup, Ripp.TBivariate.setup, wadd_eq (by omega), wadd_eq (by omega)]

theorem parse_agree (ck : List G1 × List G2) (hl : ck.1.length * ck.2.length < 2 ^ 64)
    (h : Ripp.TUnivariate.parseDegrees ck ≠ panic' .overflow) :
    Ripp.TUnivariate.parseDegrees ck = .ok (parseDegrees ck) ∧
    ((parseDegrees ck).1 + 1) * ((parseDegrees ck).2 + 1) < 2 ^ 64 ∧
    wadd (parseDegrees ck).2 1 = (parseDegrees ck).2 + 1 := by
  rw [Ripp.TUnivariate.parseDegrees] at *
  split_ifs at h ⊢ with h0
  · exact absurd rfl h
  have h1 : ck.1.length < 2 ^ 64 := lt_of_le_of_lt (Nat.le_mul_of_pos_right _ (by omega)) hl
  have h2 : ck.2.length < 2 ^ 64 := lt_of_le_of_lt (Nat.le_mul_of_pos_left _ (by omega)) hl
  rw [mul_comm] at hl
  rw [parseDegrees, wsub_eq h1 (by omega), wsub_eq h2 (by omega)]
  refine ⟨rfl, lt_of_le_of_lt (Nat.mul_le_mul ?_ ?_) hl, ?_⟩
  · dsimp only; omega
  · dsimp only; omega
  · dsimp only; exact wadd_eq (by omega)

theorem commit_of_parse (V : Env ρ F G1 G2 GT TF) (ck : List G1 × List G2) (p : List F) (d : ℕ × ℕ)
    (h1 : Ripp.TUnivariate.parseDegrees ck = .ok d) :
    (Ripp.bivariateForm d p >>= fun ps => Ripp.TBivariate.commit V ck ps) = Ripp.TUnivariate.commit V ck p := by
  rw [Ripp.TUnivariate.commit, h1]
  rfl

theorem open_of_parse (V : Env ρ F G1 G2 GT TF) (ck : List G1 × List G2) (p : List F) (coms : List G1) (z : F) (d : ℕ × ℕ)
    (h1 : Ripp.TUnivariate.parseDegrees ck = .ok d) :
    (Ripp.bivariateForm d p >>= fun ps => Ripp.TBivariate.open_ V ck ps coms (z ^ (d.2 + 1), z)) =
      Ripp.TUnivariate.open_ V ck p coms z := by
  rw [Ripp.TUnivariate.open_, h1]
  rfl

theorem verify_of_parse (V : Env ρ F G1 G2 GT TF) (ck : List G1 × List G2) (com : GT) (z eval : F)
    (proof : TpcProof F G1 GT) (d : ℕ × ℕ) (h1 : Ripp.TUnivariate.parseDegrees ck = .ok d) :
    Ripp.TBivariate.verify V ck com (z ^ (d.2 + 1), z) eval proof = Ripp.TUnivariate.verify V ck com z eval proof := by
  rw [Ripp.TUnivariate.verify, h1]
  rfl

/-- Committing, opening and verifying are the same in release builds, unless a debug build stops with an overflow. -/
theorem C140_commit (V : Env ρ F G1 G2 GT TF) (ck : List G1 × List G2)
    (hl : ck.1.length * ck.2.length < 2 ^ 64) (p : List F) (coms : List G1) (com : GT) (z eval : F)
    (proof : TpcProof F G1 GT) :
    (Ripp.TUnivariate.commit V ck p ≠ panic' .overflow → commit V ck p = Ripp.TUnivariate.commit V ck p) ∧
    (Ripp.TUnivariate.open_ V ck p coms z ≠ panic' .overflow →
      open_ V ck p coms z = Ripp.TUnivariate.open_ V ck p coms z) ∧
    (Ripp.TUnivariate.verify V ck com z eval proof ≠ panic' .overflow →
      verify V ck com z eval proof = Ripp.TUnivariate.verify V ck com z eval proof) := by
  refine ⟨?_, ?_, ?_⟩
  · intro h
    obtain ⟨h1, h2, h3⟩ := parse_agree ck hl fun h0 => h (by rw [Ripp.TUnivariate.commit, h0]; rfl)
    rw [commit, bivariateForm_agree _ h2]
    exact commit_of_parse V ck p _ h1
  · intro h
    obtain ⟨h1, h2, h3⟩ := parse_agree ck hl fun h0 => h (by rw [Ripp.TUnivariate.open_, h0]; rfl)
    rw [open_, h3, bivariateForm_agree _ h2]
    exact open_of_parse V ck p coms z _ h1
  · intro h
    obtain ⟨h1, h2, h3⟩ := parse_agree ck hl fun h0 => h (by rw [Ripp.TUnivariate.verify, h0]; rfl)
    rw [verify, h3]
    exact verify_of_parse V ck com z eval proof _ h1

/-- With an empty half of the key a debug build panics. A release build returns the same commitment, zero, for every
polynomial. -/
theorem C140_empty_key (V : Env ρ F G1 G2 GT TF) (hE : V.E.Lawful e) (ck : List G1 × List G2)
    (hl : ck.2.length < 2 ^ 64) (h : ck.1 = [] ∨ ck.2 = []) (p : List F) :
    Ripp.TUnivariate.commit V ck p = panic' .overflow ∧
    commit V ck p = .ok (0, List.replicate ck.2.length 0) := by
  refine ⟨(Ripp.TUnivariate.C100_empty_key V ck h p [] 0).1, ?_⟩
  rw [commit, bivariateForm]
  by_cases h2 : ck.2 = []
  · have hx : wadd (parseDegrees ck).1 1 = 0 := by
      rw [parseDegrees, h2, List.length_nil, wsub_zero_one]; exact wadd_max
    rw [hx, takeRows, ok_bind]
    rw [Ripp.TBivariate.commit_eq V hE ck [] (by simp) (by simp), h2]
    rfl
  · have h1 : ck.1 = [] := h.resolve_right h2
    have hy : wadd (parseDegrees ck).2 1 = 0 := by
      rw [parseDegrees, h1, List.length_nil, wsub_zero_one]; exact wadd_max
    have hpos : 0 < ck.2.length := List.length_pos_iff.mpr h2
    have hx : wadd (parseDegrees ck).1 1 = ck.2.length := by
      rw [parseDegrees, wsub_eq hl (by omega), wadd_eq (by dsimp only; omega)]
      dsimp only
      omega
    rw [hy, hx, takeRows_zero]
    generalize parseDegrees ck = d at *
    rw [ok_bind]
    have hrow : Ripp.TBivariate.rowCom ck.1 ([] : List F) = 0 := by
      rw [h1]; rfl
    rw [Ripp.TBivariate.commit_eq V hE ck _ (by simp) (by
      intro q hq
      rw [List.eq_of_mem_replicate hq]; simp), resize, List.take_of_length_le (by simp), List.length_replicate,
      Nat.sub_self, List.replicate_zero, List.append_nil, List.map_replicate, hrow,
      dot_zeros]

theorem prove_empty_key (V : Env ρ F G1 G2 GT TF) (coms : List G1) (pw : List F) (kb : List Placeholder)
    (kt : List Placeholder) (r) : V.multiexpSsm.proveWithAux coms pw [] kb kt ≠ .ok r := by
  intro hs
  rw [Gipa.proveWithAux] at hs
  obtain ⟨_, hp, hs⟩ := bind_eq_ok.mp hs
  rw [Gipa.proveLoop.eq_def] at hs
  match coms, hp with
  | [], hp =>
    rw [List.length_nil, show isPow2 0 = false by decide +kernel, assert_false] at hp
    cases hp
  | [c], _ =>
    dsimp only at hs
    rw [if_pos (by rfl)] at hs
    obtain ⟨_, -, hs⟩ := bind_eq_ok.mp hs
    obtain ⟨_, -, hs⟩ := bind_eq_ok.mp hs
    obtain ⟨_, hi, -⟩ := bind_eq_ok.mp hs
    cases hi
  | c :: c' :: cs, _ =>
    dsimp only [List.length_cons] at hs
    rw [if_neg (by omega)] at hs
    obtain ⟨_, hs, -⟩ := bind_eq_ok.mp hs
    rw [Gipa.proveRound] at hs
    obtain ⟨_, -, hs⟩ := bind_eq_ok.mp hs
    obtain ⟨_, -, hs⟩ := bind_eq_ok.mp hs
    obtain ⟨_, hs, -⟩ := bind_eq_ok.mp hs
    rw [sliceTo, if_neg (by simp)] at hs
    cases hs

/-- No opening proof is produced from such a key. -/
theorem C140_empty_key_open (V : Env ρ F G1 G2 GT TF) (hE : V.E.Lawful e) (ck : List G1 × List G2)
    (hl : ck.2.length < 2 ^ 64) (h : ck.1 = [] ∨ ck.2 = []) (p : List F) (coms : List G1) (z : F)
    (proof : TpcProof F G1 GT) : open_ V ck p coms z ≠ .ok proof := by
  intro hok
  rw [open_, bivariateForm] at hok
  obtain ⟨rows, hr, hok⟩ := bind_eq_ok.mp hok
  rw [Ripp.TBivariate.open_] at hok
  obtain ⟨_, ha, hok⟩ := bind_eq_ok.mp hok
  obtain ⟨pw, hpw, hok⟩ := bind_eq_ok.mp hok
  obtain ⟨yEval, hy, hok⟩ := bind_eq_ok.mp hok
  obtain ⟨_, -, hok⟩ := bind_eq_ok.mp hok
  obtain ⟨_, hs, hok⟩ := bind_eq_ok.mp hok
  obtain ⟨_, -, hok⟩ := bind_eq_ok.mp hok
  obtain ⟨_, hf, hok⟩ := bind_eq_ok.mp hok
  rcases h with h1 | h2
  · rw [h1] at hy
    have : yEval = [] := by
      simpa [yEvalCoeffs] using hy.symm
    rw [this, GipaSsm.prove, Gipa.proveWithAux, List.length_nil,
      show isPow2 0 = false by decide +kernel, assert_false] at hf
    cases hf
  · rw [h2, GipaSsm.prove] at hs
    obtain ⟨⟨pf, aux⟩, hs, -⟩ := bind_eq_ok.mp hs
    exact prove_empty_key V _ _ _ _ _ hs

/-- The verifier accepts under the same conditions on the lengths as in debug builds. In particular it gives no verdict
for a key with an empty half. -/
theorem C140_verify (V : Env ρ F G1 G2 GT TF) (hE : V.E.Lawful e) (hd : ∀ x, 16 ≤ (V.digest x).length) {m : Prop}
    (hm : V.Searches m) (ck : List G1 × List G2) (com : GT) (z eval : F) (proof : TpcProof F G1 GT) :
    Outcome m (ck.2.length = 2 ^ proof.second.steps.length ∧ ck.1.length = 2 ^ proof.first.steps.length)
      (verify V ck com z eval proof) :=
  Ripp.TBivariate.C121_transparent hE hd hm ck com _ eval proof

theorem C140_empty_key_verify (V : Env ρ F G1 G2 GT TF) (hE : V.E.Lawful e) (hd : ∀ x, 16 ≤ (V.digest x).length)
    {m : Prop} (hm : V.Searches m) (ck : List G1 × List G2) (h : ck.1 = [] ∨ ck.2 = []) (com : GT) (z eval : F)
    (proof : TpcProof F G1 GT) (b : Bool) : verify V ck com z eval proof ≠ .ok b := by
  intro hok
  have := (C140_verify V hE hd hm ck com z eval proof).panics (by
    rintro ⟨h2, h1⟩
    have p2 := Nat.two_pow_pos proof.second.steps.length
    have p1 := Nat.two_pow_pos proof.first.steps.length
    rcases h with h | h
    · rw [h, List.length_nil] at h1; omega
    · rw [h, List.length_nil] at h2; omega)
  rw [hok] at this
  rcases this with ⟨-, h⟩ | ⟨p, h⟩ <;> cases h

end TUnivariate

namespace Bench

/-- The degrees of the bench are the same for the first 31 data points. From the 32nd on, where a debug build panics,
the degree is `2^64 - 1` in release builds, and the first set-up panics. -/
theorem C140_bench_degree (i : ℕ) (V : Env ρ F G1 G2 GT TF) (s : ρ) :
    (i ≤ 30 → Ripp.Bench.benchDegree i = .ok (benchDegree i)) ∧
    (31 ≤ i → Ripp.Bench.benchDegree i = panic' .overflow ∧ benchDegree i = 2 ^ 64 - 1 ∧
      Kzg.setup V s (benchDegree i) = panic' .assertion) := by
  constructor
  · intro hi
    have h4 : 4 ^ (i + 1) ≤ 4 ^ 31 := Nat.pow_le_pow_right (by omega) (by omega)
    have h1 : 1 ≤ 4 ^ (i + 1) := Nat.one_le_pow _ _ (by omega)
    rw [(Ripp.Bench.C97_degree i).1 hi, benchDegree, Nat.mod_eq_of_lt (by omega), wsub_eq (by omega) h1]
  · intro hi
    have h0 : 4 ^ (i + 1) % 2 ^ 64 = 0 := by
      refine Nat.mod_eq_zero_of_dvd ?_
      rw [show (4 : ℕ) = 2 ^ 2 from rfl, ← pow_mul]
      exact Nat.pow_dvd_pow 2 (by omega)
    refine ⟨(Ripp.Bench.C97_degree i).2 hi, ?_, ?_⟩
    · rw [benchDegree, h0]; exact wsub_zero_one
    · rw [benchDegree, h0, wsub_zero_one, Kzg.setup, wadd_max]
      rfl

end Bench

end

namespace Bench

variable {σ F G1 G2 GT TF : Type} [Field F] [DecidableEq F] [AddCommGroup G1] [Module F G1]
  [AddCommGroup G2] [Module F G2] [AddCommGroup GT] [Module F GT] [Monoid TF] [DecidableEq GT]
  {e : G1 →ₗ[F] G2 →ₗ[F] GT} {V : Sipp.Env σ F G1 G2 GT TF}

/-- The scaling program is the same up to `2^31` elements. -/
theorem C140_scaling (shuffleA : ℕ → List G1 → List G1) (shuffleB : ℕ → List G2 → List G2) (g : G1) (h : G2)
    (x : F) (parse : String → Option ℕ) (argv : List String) (lo hi : ℕ) (dir : String)
    (ha : Ripp.Bench.scalingArgs parse argv = .ok (lo, hi, dir)) (h2 : hi ≤ 31) :
    scalingMain V shuffleA shuffleB g h x parse argv =
      Ripp.Bench.scalingMain V shuffleA shuffleB g h x parse argv := by
  rw [scalingMain, Ripp.Bench.scalingMain, ha]
  simp only [ok_bind]
  rw [shiftCount, Ripp.Bench.shiftCount, Nat.mod_eq_of_lt (by omega)]
  by_cases h31 : hi < 31
  · simp only [if_pos h31, ok_bind]
  · simp only [if_neg h31, if_pos (show hi = 31 by omega), ok_bind]

theorem run_short (hE : V.E.Lawful e) (hrng : ∀ rng : Sipp.Rng σ, (((rng.nextU128 V).1 : ℕ) : F) ≠ 0)
    (shuffleA : ℕ → List G1 → List G1) (shuffleB : ℕ → List G2 → List G2)
    (hA : ∀ n l, (shuffleA n l).length = l.length) (hB : ∀ n l, (shuffleB n l).length = l.length)
    (r : List F) (n : ℕ) (hr : n ≤ r.length) :
    ∀ (is : List ℕ) (a : List G1) (b : List G2), (∀ i ∈ is, 1 ≤ i) → (∃ i ∈ is, n < 2 ^ i) → a.length = n →
      b.length = n → Ripp.Bench.scalingRun V shuffleA shuffleB r is a b = panic' .bounds
  | [], _, _, _, h, _, _ => by simp at h
  | i :: is, a, b, his, hex, ha, hb => by
    rw [Ripp.Bench.scalingRun]
    by_cases hle : 2 ^ i ≤ n
    · obtain ⟨a', b', h3, h4, h5⟩ := Ripp.Bench.C95_loop hE hrng shuffleA shuffleB hA hB r i (his i (by simp))
        (hle.trans hr) (Ripp.Bench.numIters i) (a.take (2 ^ i)) (b.take (2 ^ i)) (by rw [List.length_take]; omega)
        (by rw [List.length_take]; omega)
      simp only [sliceTo_of_le a _ (ha ▸ hle), sliceTo_of_le b _ (hb ▸ hle), ok_bind, h3]
      refine run_short hE hrng shuffleA shuffleB hA hB r n hr is _ _ (fun j hj => his j (by simp [hj])) ?_
        (by rw [List.length_append, List.length_drop]; omega) (by rw [List.length_append, List.length_drop]; omega)
      obtain ⟨j, hj, hj2⟩ := hex
      rcases List.mem_cons.mp hj with rfl | hj
      · omega
      · exact ⟨j, hj, hj2⟩
    · rw [show sliceTo a (2 ^ i) = panic' .bounds by rw [sliceTo, if_neg (by omega)]]
      rfl

/-- Beyond, a release build prepares too few elements: `hi = 32` gives one element. It stops when it takes the first slice
that does not exist, after the runs for the sizes that do. -/
theorem C140_scaling_limit (hE : V.E.Lawful e) (hrng : ∀ rng : Sipp.Rng σ, (((rng.nextU128 V).1 : ℕ) : F) ≠ 0)
    (shuffleA : ℕ → List G1 → List G1) (shuffleB : ℕ → List G2 → List G2)
    (hA : ∀ n l, (shuffleA n l).length = l.length) (hB : ∀ n l, (shuffleB n l).length = l.length) (g : G1) (h : G2)
    (x : F) (parse : String → Option ℕ) (argv : List String) (lo hi : ℕ) (dir : String)
    (ha : Ripp.Bench.scalingArgs parse argv = .ok (lo, hi, dir)) (h1 : 1 ≤ lo) (hlo : lo ≤ hi) (h2 : 32 ≤ hi)
    (h3 : hi < 64) :
    scalingMain V shuffleA shuffleB g h x parse argv = panic' .bounds := by
  rw [scalingMain, ha]
  simp only [ok_bind, List.length_replicate]
  refine run_short hE hrng shuffleA shuffleB hA hB _ (shiftCount hi) (by simp) _ _ _ (fun i hi' => ?_)
    ⟨hi, ?_, ?_⟩ (by simp) (by simp)
  · obtain ⟨j, hj, rfl⟩ := List.mem_drop_iff_getElem.mp hi'
    rw [List.getElem_range]
    omega
  · refine List.mem_drop_iff_getElem.mpr ⟨hi - lo, by simp; omega, ?_⟩
    rw [List.getElem_range]
    omega
  · rw [shiftCount]
    split_ifs with h
    · exact Nat.pow_lt_pow_right (by omega) (by omega)
    · positivity

end Bench

section Direct
variable {ρ F G1 G2 GT TF : Type} [Field F] [DecidableEq F] [AddCommGroup G1] [Module F G1]
  [AddCommGroup G2] [Module F G2] [AddCommGroup GT] [Module F GT] [Monoid TF] [DecidableEq G1]
  [DecidableEq GT]

namespace Kzg

/-- KZG set-up: the same in release builds for every degree but the last, for which the assertion on the number of
powers fails. -/
theorem C140_setup (V : Env ρ F G1 G2 GT TF) (s : ρ) (d : ℕ) :
    (d + 1 < 2 ^ 64 → setup V s d = Ripp.Kzg.setup V s d) ∧
    (d = 2 ^ 64 - 1 → setup V s d = panic' .assertion) := by
  constructor
  · intro h
    rw [setup, Ripp.Kzg.setup, wadd_eq h]
  · rintro rfl
    rw [setup, wadd_max]
    simp [structuredGenerators, assert]

end Kzg

namespace Bivariate

/-- Bivariate set-up called with degrees: the same in release builds if the sizes are machine words. If only the bound on
the degree in `X` is too large, a release build returns a reference string that is too short, for `2 ^ 63` that of
degree 0. -/
theorem C140_setup (V : Env ρ F G1 G2 GT TF) (s : ρ) (x y : ℕ) (hy : y + 1 < 2 ^ 64) :
    (2 * x + 1 < 2 ^ 64 → setup V s x y = Ripp.Bivariate.setup V s x y) ∧
    (2 ^ 63 ≤ x → x < 2 ^ 64 → setup V s x y = Ripp.Bivariate.setup V s (x - 2 ^ 63) y) := by
  constructor
  · intro h
    rw [setup, Ripp.Bivariate.setup, wmul_eq (by omega), wadd_eq (by omega), wadd_eq (by omega)]
  · intro h h'
    have : wmul 2 x = 2 * (x - 2 ^ 63) := by rw [wmul]; omega
    rw [setup, Ripp.Bivariate.setup, this, wadd_eq (by omega), wadd_eq (by omega)]

end Bivariate

namespace TBivariate

/-- The same for the set-up without a reference string, where the largest degrees give empty keys. -/
theorem C140_setup (V : Env ρ F G1 G2 GT TF) (s : ρ) (x y : ℕ) :
    (x + 1 < 2 ^ 64 → y + 1 < 2 ^ 64 → setup V s x y = Ripp.TBivariate.setup V s x y) ∧
    (x = 2 ^ 64 - 1 → y + 1 < 2 ^ 64 → ∃ ck s', setup V s x y = .ok ((ck, []), s') ∧ ck.length = y + 1) ∧
    (x + 1 < 2 ^ 64 → y = 2 ^ 64 - 1 → ∃ ck s', setup V s x y = .ok (([], ck), s') ∧ ck.length = x + 1) := by
  refine ⟨fun h h' => ?_, ?_, ?_⟩
  · rw [setup, Ripp.TBivariate.setup, wadd_eq h, wadd_eq h']
  · rintro rfl h
    rw [setup, wadd_max, wadd_eq h]
    simp [GipaSsm.setup, pedersen, afghoG1, identityCommitment, unwrap, randomGenerators, randomGenerators_length]
  · rintro h rfl
    rw [setup, wadd_max, wadd_eq h]
    simp [GipaSsm.setup, pedersen, afghoG1, identityCommitment, unwrap, randomGenerators, randomGenerators_length]

end TBivariate

end Direct

/-- Degree bound `2 ^ 63` in `X`: the release build returns the reference string of degree 0. -/
example : Bivariate.setup Toy.env 3 (2 ^ 63) 1 = .ok ((⟨[1], [1], 4, 3⟩, [1, 3]), 5) := by
  rw [(Bivariate.C140_setup Toy.env 3 (2 ^ 63) 1 (by norm_num)).2 (by norm_num) (by norm_num), Nat.sub_self]
  rfl

/-- A key with two elements in one half and none in the other: every polynomial gets the commitment zero. -/
example (com : Toy.F) (coms : List Toy.F) (proof : TpcProof Toy.F Toy.F Toy.F) :
    TUnivariate.commit Toy.env ([], [3, 5]) ([1, 2, 3] : List Toy.F) = .ok (0, [0, 0]) ∧
    TUnivariate.commit Toy.env ([], [3, 5]) ([4] : List Toy.F) = .ok (0, [0, 0]) ∧
    TUnivariate.commit Toy.env ([3, 5], []) ([1, 2, 3] : List Toy.F) = .ok (0, []) ∧
    TUnivariate.open_ Toy.env ([3, 5], []) ([1, 2, 3] : List Toy.F) coms 5 ≠ .ok proof :=
  ⟨(TUnivariate.C140_empty_key Toy.env Toy.lawful ([], [3, 5]) (by simp) (.inl rfl) _).2,
    (TUnivariate.C140_empty_key Toy.env Toy.lawful ([], [3, 5]) (by simp) (.inl rfl) _).2,
    (TUnivariate.C140_empty_key Toy.env Toy.lawful ([3, 5], []) (by simp) (.inr rfl) _).2,
    TUnivariate.C140_empty_key_open Toy.env Toy.lawful _ (by simp) (.inr rfl) _ _ _ _⟩

/-- The set-up for degree 3 is the same. -/
example : TUnivariate.setup Toy.env 11 3 = Ripp.TUnivariate.setup Toy.env 11 3 :=
  TUnivariate.C140_setup Toy.env 11 3 (by norm_num) (by decide +kernel)

example : Bench.benchDegree 30 = 2 ^ 62 - 1 ∧ Bench.benchDegree 31 = 2 ^ 64 - 1 ∧ Bench.shiftCount 30 = 2 ^ 30 ∧
    Bench.shiftCount 31 = 0 ∧ Bench.shiftCount 33 = 2 ∧ wsub 3 5 = 2 ^ 64 - 2 ∧ wmul (2 ^ 63) 3 = 2 ^ 63 := by
  decide +kernel

end Release

end Ripp
