import Verif.Lemmas.Sipp
import Verif.Toy

/-! # SIPP (C54–C61, C66) -/

set_option linter.unusedSectionVars false

namespace Ripp.Sipp

open Spec

section Spec
variable {F G1 G2 GT : Type} [Field F] [AddCommGroup G1] [Module F G1] [AddCommGroup G2]
  [Module F G2] [AddCommGroup GT] [Module F GT]

/-- `Σ e(rᵢ aᵢ, bᵢ)`. -/
def product (e : G1 →ₗ[F] G2 →ₗ[F] GT) (a : List G1) (b : List G2) (r : List F) : GT :=
  dot (fun x y => e x y) (List.zipWith (fun a r => r • a) a r) b

/-- The verifier's equation for challenges `xs` and cross terms `zs`:
`e(Σ sᵢ rᵢ aᵢ, Σ sᵢ⁻¹ bᵢ) = value + Σ (xⱼ zlⱼ + xⱼ⁻¹ zrⱼ)`, where `sᵢ` is the product of the challenges
of the rounds whose bit is set in `i`; the first round belongs to the top bit. -/
def Equation (e : G1 →ₗ[F] G2 →ₗ[F] GT) (a : List G1) (b : List G2) (r : List F) (value : GT)
    (xs : List F) (zs : List (GT × GT)) : Prop :=
  e (dot (fun g s => s • g) a
      (List.zipWith (· * ·) ((List.range (2 ^ xs.length)).map (bitProd xs.reverse)) r))
    (dot (fun g s => s • g) b
      ((List.range (2 ^ xs.length)).map (bitProd (xs.map (·⁻¹)).reverse))) =
  value + dot (fun x (z : GT × GT) => x • z.1 + x⁻¹ • z.2) xs zs

end Spec

section
variable {σ F G1 G2 GT TF : Type} [Field F] [AddCommGroup G1] [Module F G1]
  [AddCommGroup G2] [Module F G2] [AddCommGroup GT] [Module F GT] [Monoid TF]
  {V : Env σ F G1 G2 GT TF} {e : G1 →ₗ[F] G2 →ₗ[F] GT}

/-! ## C54: products of pairings -/

theorem C54_with_coeffs (hE : V.E.Lawful e) (a : List G1) (b : List G2) (r : List F)
    (h1 : a.length = b.length) (h2 : a.length ≤ r.length) :
    productOfPairingsWithCoeffs V a b r = .ok (product e a b r) :=
  productOfPairingsWithCoeffs_eq hE a b r h1 h2

theorem C54_plain (hE : V.E.Lawful e) (a : List G1) (b : List G2) (h : a.length = b.length) :
    productOfPairings (F := F) V a b = .ok (dot (fun x y => e x y) a b) :=
  productOfPairings_eq hE a b h

/-- Coefficients come out of the pairing. -/
theorem C54_coeffs_scale (a : List G1) (b : List G2) (r : List F) :
    product e a b r = dot (fun (p : G1 × G2) r => r • e p.1 p.2) (a.zip b) r := by
  unfold product
  induction a generalizing b r with
  | nil => simp
  | cons a as ih =>
    cases b with
    | nil => simp
    | cons b bs =>
      cases r with
      | nil => simp
      | cons r rs => simp [ih]

example : productOfPairingsWithCoeffs Toy.sippEnv [1, 2, 3, 4, 5] [6, 7, 8, 9, 10] [1, 1, 2, 3, 5] =
    .ok (product Toy.e [1, 2, 3, 4, 5] [6, 7, 8, 9, 10] [1, 1, 2, 3, 5]) :=
  C54_with_coeffs Toy.lawful _ _ _ rfl (by decide)

example : product Toy.e [1, 2, 3, 4, 5] [6, 7, 8, 9, 10] [1, 1, 2, 3, 5] = (22 : Toy.F) := by
  simp [product]; decide

/-! ## C66: vectors of different lengths -/

omit [AddCommGroup GT] [Module F GT] [AddCommGroup G1] [Module F G1] [AddCommGroup G2] [Module F G2] in
theorem mapM_chunks_panic (E : Engine G1 G2 GT TF) {n : ℕ} (hn : n ≠ 0) :
    ∀ (len : ℕ) (a : List G1) (b : List G2), a.length = len → a.length ≠ b.length →
      ¬ n ∣ min a.length b.length →
    ((chunks n a).zip (chunks n b)).mapM
        (fun (p : List G1 × List G2) => E.multiMillerLoop p.1 p.2) = panic' .zipLength := by
  intro len
  induction len using Nat.strong_induction_on with
  | _ len ih =>
    intro a b hlen hab hd
    have ha : a ≠ [] := by rintro rfl; simp at hd
    have hb : b ≠ [] := by rintro rfl; simp at hd
    have hpos : 0 < a.length := List.length_pos_iff.mpr ha
    rw [chunks_of_ne hn ha, chunks_of_ne hn hb, List.zip_cons_cons, List.mapM_cons]
    by_cases hm : min a.length b.length < n
    · have : (a.take n).length ≠ (b.take n).length := by simp; omega
      simp only [Engine.multiMillerLoop, this, if_false, panic'_bind]
    · have h1 : (a.take n).length = (b.take n).length := by simp; omega
      rw [ih (a.drop n).length (by simp; omega) (a.drop n) (b.drop n) rfl (by simp; omega) (by
        simp only [List.length_drop, Nat.sub_min_sub_right]
        intro h
        apply hd
        rw [← Nat.sub_add_cancel (Nat.le_of_not_lt hm)]
        exact (Nat.dvd_add_self_right).mpr h)]
      simp only [Engine.multiMillerLoop, h1, if_true, ok_bind, panic'_bind]

theorem mapM_chunks_trunc (hE : V.E.Lawful e) {n : ℕ} (hn : n ≠ 0) :
    ∀ (len : ℕ) (a : List G1) (b : List G2), a.length = len → n ∣ min a.length b.length →
    ∃ ml : List TF, ((chunks n a).zip (chunks n b)).mapM
        (fun (p : List G1 × List G2) => V.E.multiMillerLoop p.1 p.2) = .ok ml ∧
      V.E.finalExp ml.prod = some (dot (e · ·) a b) := by
  intro len
  induction len using Nat.strong_induction_on with
  | _ len ih =>
    intro a b hlen hd
    by_cases ha : a = []
    · subst ha
      exact ⟨[], by simp [chunks_nil], by simp [hE.finalExp_one]⟩
    by_cases hb : b = []
    · subst hb
      exact ⟨[], by simp [chunks_nil], by simp [hE.finalExp_one]⟩
    have hpa : 0 < a.length := List.length_pos_iff.mpr ha
    have hpb : 0 < b.length := List.length_pos_iff.mpr hb
    have hle : n ≤ min a.length b.length := Nat.le_of_dvd (by omega) hd
    have h1 : (a.take n).length = (b.take n).length := by simp; omega
    obtain ⟨ml, m1, m2⟩ := ih (a.drop n).length (by simp; omega) (a.drop n) (b.drop n) rfl (by
      simp only [List.length_drop, Nat.sub_min_sub_right]
      exact Nat.dvd_sub hd dvd_rfl)
    refine ⟨(List.zipWith V.E.miller (a.take n) (b.take n)).prod :: ml, ?_, ?_⟩
    · rw [chunks_of_ne hn ha, chunks_of_ne hn hb, List.zip_cons_cons, List.mapM_cons, m1]
      simp only [Engine.multiMillerLoop, h1, if_true, ok_bind, pure_eq_ok]
    · rw [List.prod_cons]
      conv_rhs => rw [← List.take_append_drop n a, ← List.take_append_drop n b]
      rw [dot_append _ _ _ _ _ h1]
      exact hE.finalExp_mul _ _ _ _ (hE.finalExp_prod _ _) m2

/-- The outcome for vectors of different lengths: a silently truncated product when the chunk size (a
function of the number of threads) divides the length of the shorter vector, a panic otherwise. -/
theorem C66_mismatched (hE : V.E.Lawful e) (a : List G1) (b : List G2) (h : a.length ≠ b.length) :
    productOfPairings (F := F) V a b =
      if (if V.X.threads ≤ a.length then a.length / V.X.threads else 1) ∣ min a.length b.length
      then .ok (dot (fun x y => e x y) a b) else panic' .zipLength := by
  have hn := (chunkSize_pos V.X.pos a.length).ne'
  rw [productOfPairings, productOfPairingsWithCoeffs, zipWith_ones]
  change _ = if chunkSize V.X.threads a.length ∣ _ then _ else _
  simp only [hn, if_false]
  split
  · rename_i hd
    obtain ⟨ml, m1, m2⟩ := mapM_chunks_trunc hE hn _ a b rfl hd
    erw [m1]
    simp [parReduce_mul, m2]
  · rename_i hd
    erw [mapM_chunks_panic V.E hn _ a b rfl h hd]
    rfl

/-- The same for the public function `cfg_multi_pairing` of the inner products, whose callers check the lengths. -/
theorem C66_cfg_multi_pairing (hE : V.E.Lawful e) (a : List G1) (b : List G2) (h : a.length ≠ b.length) :
    cfgMultiPairing V.E V.X a b =
      if (if V.X.threads ≤ a.length then a.length / V.X.threads else 1) ∣ min a.length b.length
      then .ok (some (dot (fun x y => e x y) a b)) else panic' .zipLength := by
  have hn := (chunkSize_pos V.X.pos a.length).ne'
  rw [cfgMultiPairing]
  change _ = if chunkSize V.X.threads a.length ∣ _ then _ else _
  simp only [hn, if_false]
  split
  · rename_i hd
    obtain ⟨ml, m1, m2⟩ := mapM_chunks_trunc hE hn _ a b rfl hd
    erw [m1]
    simp [parReduce_mul, m2]
  · rename_i hd
    erw [mapM_chunks_panic V.E hn _ a b rfl h hd]
    rfl

end

/-- The same call panics with one thread and returns a value with four: the outcome for vectors of
different lengths depends on the machine. -/
theorem C66_depends_on_threads : ∃ (a b : List Toy.F) (V₁ V₂ : Env Unit Toy.F Toy.F Toy.F Toy.F Toy.TF),
    V₁ = { V₂ with X := V₁.X } ∧
    productOfPairings (F := Toy.F) V₁ a b = panic' .zipLength ∧
    productOfPairings (F := Toy.F) V₂ a b = .ok 10 := by
  refine ⟨[2, 3], [5], { Toy.sippEnv with X := ⟨1, by norm_num, .leaf⟩ }, Toy.sippEnv, rfl, ?_, ?_⟩
  · rw [C66_mismatched (e := Toy.e) Toy.lawful _ _ (by simp)]
    simp
  · rw [C66_mismatched (e := Toy.e) Toy.lawful _ _ (by simp)]
    have : Toy.sippEnv.X.threads = 4 := rfl
    rw [this]
    simp
    decide

example : cfgMultiPairing Toy.E ⟨4, by norm_num, .leaf⟩ [2, 3] [5] = .ok (some (10 : Toy.F)) ∧
    cfgMultiPairing Toy.E ⟨1, by norm_num, .leaf⟩ [2, 3] [5] = panic' .zipLength :=
  ⟨(C66_cfg_multi_pairing (V := { Toy.sippEnv with X := ⟨4, by norm_num, .leaf⟩ }) Toy.lawful [2, 3] [5]
      (by simp)).trans (by simp; decide),
    (C66_cfg_multi_pairing (V := { Toy.sippEnv with X := ⟨1, by norm_num, .leaf⟩ }) Toy.lawful [2, 3] [5]
      (by simp)).trans (by simp)⟩

section
variable {σ F G1 G2 GT TF : Type} [Field F] [DecidableEq F] [AddCommGroup G1] [Module F G1]
  [AddCommGroup G2] [Module F G2] [AddCommGroup GT] [Module F GT] [Monoid TF] [DecidableEq GT]
  {V : Env σ F G1 G2 GT TF} {e : G1 →ₗ[F] G2 →ₗ[F] GT}

/-! ## C57: the verifier's equation -/

instance (e : G1 →ₗ[F] G2 →ₗ[F] GT) (a : List G1) (b : List G2) (r : List F) (value : GT)
    (xs : List F) (zs : List (GT × GT)) : Decidable (Equation e a b r value xs zs) := by
  unfold Equation; infer_instance

theorem equation_iff (a : List G1) (b : List G2) (r : List F) (value : GT) (xs : List F)
    (zs : List (GT × GT)) (ha : a.length = 2 ^ xs.length) (hb : b.length = 2 ^ xs.length)
    (hr : 2 ^ xs.length ≤ r.length) :
    Equation e a b r value xs zs ↔
      dot (e · ·) (foldAll xs (List.zipWith (fun a r => r • a) a r)) (foldAll (xs.map (·⁻¹)) b) =
        value + cross xs zs := by
  rw [combined_eq a b r xs ha hb hr, Equation, exps_eq, exps_eq]
  simp only [List.length_reverse, List.length_map]

/-- On well-formed input `verify` decides the equation, with the challenges it derives. -/
theorem C57_verify (hE : V.E.Lawful e) (a : List G1) (b : List G2) (r : List F) (value : GT)
    (proof : List (GT × GT)) (hk : 1 ≤ proof.length) (ha : a.length = 2 ^ proof.length)
    (hb : b.length = 2 ^ proof.length) (hr : 2 ^ proof.length ≤ r.length) :
    verify V a b r value proof = .ok (decide (Equation e a b r value
      (challenges V (Rng.fromSeed V (seedBytes V a b r value)) proof) proof)) := by
  rw [verify_eq hE a b r value proof hk ha hb hr _ rfl]
  have : ∀ xs : List F, (Equation e a b r value xs proof ↔
      e (dot (fun g s => s • g) a (List.zipWith (fun x r => x * r) (exps xs.reverse) r))
        (dot (fun g s => s • g) b (exps (xs.map (·⁻¹)).reverse)) = value + cross xs proof) := by
    intro xs
    rw [Equation, exps_eq, exps_eq]
    simp only [List.length_reverse, List.length_map]
  simp only [this]

/-- The challenges: challenge `j` is the first `u128` drawn from ChaCha seeded with the digest of the
`j`-th pair followed by the previous seed; the first seed is the digest of the statement. -/
theorem C57_challenges (V : Env σ F G1 G2 GT TF) (seed : Bytes) (proof : List (GT × GT)) (j : ℕ)
    (hj : j < proof.length) :
    (challenges V (Rng.fromSeed V seed) proof : List F)[j]? =
      some (let d := (proof.take (j + 1)).foldl
              (fun s z => V.digest (V.serGT z.1 ++ V.serGT z.2 ++ s)) (V.digest seed)
            let lo := V.nextU64 (V.chachaSeed d)
            let hi := V.nextU64 lo.2
            ((hi.1.toNat * 2 ^ 64 + lo.1.toNat : ℕ) : F)) := by
  have gen : ∀ (proof : List (GT × GT)) (rng : Rng σ) (j : ℕ), j < proof.length →
      (challenges V rng proof : List F)[j]? =
      some (let d := (proof.take (j + 1)).foldl
              (fun s z => V.digest (V.serGT z.1 ++ V.serGT z.2 ++ s)) rng.seed
            let lo := V.nextU64 (V.chachaSeed d)
            let hi := V.nextU64 lo.2
            ((hi.1.toNat * 2 ^ 64 + lo.1.toNat : ℕ) : F)) := by
    intro proof
    induction proof with
    | nil => intro rng j hj; simp at hj
    | cons z zs ih =>
      intro rng j hj
      cases j with
      | zero => simp [challenges, roundChallenge, Rng.absorb, Rng.nextU128]
      | succ j =>
        rw [challenges]
        simp only [List.getElem?_cons_succ]
        rw [ih _ _ (by simpa using hj)]
        rfl
  exact gen proof _ j hj

/-! ## C55: completeness -/

/-- Honest prover, any claimed value: the prover panics at a zero challenge, or returns `k` pairs and
the verifier accepts exactly if the claimed value is the product. -/
theorem C55_honest (hE : V.E.Lawful e) (k : ℕ) (hk : 1 ≤ k) (a : List G1) (b : List G2) (r : List F)
    (value : GT) (ha : a.length = 2 ^ k) (hb : b.length = 2 ^ k) (hr : 2 ^ k ≤ r.length) :
    ∃ zs : List (GT × GT), zs.length ≤ k ∧
      ((prove V a b r value = panic' .unwrap ∧
        (0 : F) ∈ (challenges V (Rng.fromSeed V (seedBytes V a b r value)) zs : List F)) ∨
      (prove V a b r value = .ok zs ∧ zs.length = k ∧
        verify V a b r value zs = .ok (decide (value = product e a b r)))) := by
  have hz : (List.zipWith (fun a (r : F) => r • a) a r).length = 2 ^ k := by simp [ha, hr]
  obtain ⟨zs, hl, h⟩ := proveLoop_outcome hE k (2 ^ k) (List.zipWith (fun a r => r • a) a r) b
    (Rng.fromSeed V (seedBytes V a b r value)) [] hz hb Nat.lt_two_pow_self.le
  have hp : prove V a b r value = proveLoop V (2 ^ k) (2 ^ k)
      (List.zipWith (fun a r => r • a) a r) b (Rng.fromSeed V (seedBytes V a b r value)) [] := by
    rw [prove]
    simp only [ha, hb, beq_self_eq_true, assert_true, ok_bind, isPow2_two_pow]
  refine ⟨zs, hl, ?_⟩
  rw [hp]
  rcases h with h | ⟨h1, h2, h3, h4⟩
  · exact .inl h
  · refine .inr ⟨by simpa using h1, h2, ?_⟩
    rw [C57_verify hE a b r value zs (h2 ▸ hk) (h2 ▸ ha) (h2 ▸ hb) (by rwa [h2])]
    congr 1
    rw [decide_eq_decide]
    have hlen : (challenges V (Rng.fromSeed V (seedBytes V a b r value)) zs : List F).length = k := by
      rw [length_challenges, h2]
    rw [equation_iff _ _ _ _ _ _ (by rw [hlen, ha]) (by rw [hlen, hb]) (by rwa [hlen]), h4,
      add_left_inj, product]
    exact eq_comm

/-- For the true product the proof is accepted, unless a challenge was zero. -/
theorem C55_complete (hE : V.E.Lawful e) (k : ℕ) (hk : 1 ≤ k) (a : List G1) (b : List G2) (r : List F)
    (ha : a.length = 2 ^ k) (hb : b.length = 2 ^ k) (hr : 2 ^ k ≤ r.length) :
    ∃ zs : List (GT × GT), zs.length ≤ k ∧
      ((prove V a b r (product e a b r) = panic' .unwrap ∧
        (0 : F) ∈ (challenges V (Rng.fromSeed V (seedBytes V a b r (product e a b r))) zs : List F)) ∨
      (prove V a b r (product e a b r) = .ok zs ∧ zs.length = k ∧
        verify V a b r (product e a b r) zs = .ok true)) := by
  obtain ⟨zs, hl, h⟩ := C55_honest hE k hk a b r (product e a b r) ha hb hr
  exact ⟨zs, hl, by simpa using h⟩

/-- If no draw of the generator is zero in the field, the honest proof is always accepted. -/
theorem C55_complete_total (hE : V.E.Lawful e)
    (hrng : ∀ rng : Rng σ, (((rng.nextU128 V).1 : ℕ) : F) ≠ 0)
    (k : ℕ) (hk : 1 ≤ k) (a : List G1) (b : List G2) (r : List F)
    (ha : a.length = 2 ^ k) (hb : b.length = 2 ^ k) (hr : 2 ^ k ≤ r.length) :
    ∃ zs : List (GT × GT), prove V a b r (product e a b r) = .ok zs ∧ zs.length = k ∧
      verify V a b r (product e a b r) zs = .ok true := by
  have hch : ∀ (zs : List (GT × GT)) (rng : Rng σ), (0 : F) ∉ (challenges V rng zs : List F) := by
    intro zs
    induction zs with
    | nil => simp [challenges]
    | cons z zs ih =>
      intro rng h
      rw [challenges] at h
      rcases List.mem_cons.mp h with h | h
      · exact hrng _ h.symm
      · exact ih _ h
  obtain ⟨zs, _, ⟨_, h⟩ | h⟩ := C55_complete (V := V) hE k hk a b r ha hb hr
  · exact absurd h (hch _ _)
  · exact ⟨zs, h⟩

/-- A prover run on a wrong value never yields an accepted proof. -/
theorem C55_wrong_value (hE : V.E.Lawful e) (k : ℕ) (hk : 1 ≤ k) (a : List G1) (b : List G2)
    (r : List F) (value : GT) (ha : a.length = 2 ^ k) (hb : b.length = 2 ^ k) (hr : 2 ^ k ≤ r.length)
    (hv : value ≠ product e a b r) (zs : List (GT × GT)) (h : prove V a b r value = .ok zs) :
    verify V a b r value zs = .ok false := by
  obtain ⟨zs', _, ⟨h', _⟩ | ⟨h', _, h''⟩⟩ := C55_honest (V := V) hE k hk a b r value ha hb hr
  · rw [h] at h'; exact absurd h'.symm (panic'_ne_ok _ _)
  · rw [h, Except.ok.injEq] at h'
    subst h'
    simpa [hv] using h''

end

theorem toy_draw_ne_zero (rng : Rng Unit) : (((rng.nextU128 Toy.sippEnv).1 : ℕ) : Toy.F) ≠ 0 := by
  simp only [Rng.nextU128, Toy.sippEnv]
  decide

example : ∃ zs, prove Toy.sippEnv [1, 2, 3, 4] [5, 6, 7, 8] [1, 1, 2, 3]
      (product Toy.e [1, 2, 3, 4] [5, 6, 7, 8] [1, 1, 2, 3]) = .ok zs ∧ zs.length = 2 ∧
    verify Toy.sippEnv [1, 2, 3, 4] [5, 6, 7, 8] [1, 1, 2, 3]
      (product Toy.e [1, 2, 3, 4] [5, 6, 7, 8] [1, 1, 2, 3]) zs = .ok true :=
  C55_complete_total Toy.lawful toy_draw_ne_zero 2 (by norm_num) _ _ _ rfl rfl (by decide)

section
variable {σ F G1 G2 GT TF : Type} [Field F] [DecidableEq F] [AddCommGroup G1] [Module F G1]
  [AddCommGroup G2] [Module F G2] [AddCommGroup GT] [Module F GT] [Monoid TF] [DecidableEq GT]
  {V : Env σ F G1 G2 GT TF} {e : G1 →ₗ[F] G2 →ₗ[F] GT}

/-! ## C56: length one -/

/-- The prover accepts a single pair and returns the empty proof; the verifier panics on it, for every
proof. -/
theorem C56_length_one (V : Env σ F G1 G2 GT TF) (a : G1) (b : G2) (r : List F) (value : GT) :
    prove V [a] [b] r value = .ok [] ∧
      ∀ proof, verify V [a] [b] r value proof = panic' .assertion := by
  constructor
  · rw [prove]
    simp only [List.length_singleton, beq_self_eq_true, assert_true, ok_bind,
      show isPow2 1 = true from isPow2_two_pow 0]
    rw [proveLoop.eq_def]
    simp
  · intro proof
    rw [verify]
    simp [show isPow2 1 = true from isPow2_two_pow 0]

/-! ## C58: soundness against every prover strategy -/

/-- If the claimed value is wrong then, for every strategy (message `j` is a function of the first `j`
challenges) and every finite set `S` of non-zero challenges, the verifier's equation holds for at most
`2 k |S|^(k-1)` of the `|S|^k` challenge sequences. -/
theorem C58_soundness (e : G1 →ₗ[F] G2 →ₗ[F] GT) (k : ℕ) (a : List G1) (b : List G2) (r : List F)
    (value : GT) (ha : a.length = 2 ^ k) (hb : b.length = 2 ^ k) (hr : 2 ^ k ≤ r.length)
    (hv : value ≠ product e a b r) (S : Finset F) (hS : ∀ x ∈ S, x ≠ 0) (st : List F → GT × GT) :
    ((Fintype.piFinset fun _ : Fin k => S).filter fun xs =>
      Equation e a b r value (List.ofFn xs)
        ((List.range k).map fun j => st ((List.ofFn xs).take j))).card ≤
      2 * k * S.card ^ (k - 1) := by
  have h := count_core e S hS k (List.zipWith (fun a r => r • a) a r) b value st
    (by simp [ha, hr]) hb hv
  refine le_trans (Finset.card_le_card ?_) h
  intro xs hxs
  rw [Finset.mem_filter] at hxs ⊢
  refine ⟨hxs.1, ?_⟩
  have := (equation_iff _ _ _ _ _ _ (by simp [ha]) (by simp [hb]) (by simp [hr])).mp hxs.2
  rw [this, messages, List.length_ofFn]

/-- The accepting fraction is at most `2k/|S|`. -/
theorem C58_fraction (e : G1 →ₗ[F] G2 →ₗ[F] GT) (k : ℕ) (a : List G1) (b : List G2) (r : List F)
    (value : GT) (ha : a.length = 2 ^ k) (hb : b.length = 2 ^ k) (hr : 2 ^ k ≤ r.length)
    (hv : value ≠ product e a b r) (S : Finset F) (hS : ∀ x ∈ S, x ≠ 0) (st : List F → GT × GT) :
    S.card * ((Fintype.piFinset fun _ : Fin k => S).filter fun xs =>
      Equation e a b r value (List.ofFn xs)
        ((List.range k).map fun j => st ((List.ofFn xs).take j))).card ≤
      2 * k * (Fintype.piFinset fun _ : Fin k => S).card := by
  rw [Fintype.card_piFinset_const]
  refine (Nat.mul_le_mul_left _ (C58_soundness e k a b r value ha hb hr hv S hS st)).trans ?_
  cases k with
  | zero => simp
  | succ n => rw [Nat.add_sub_cancel, pow_succ]; apply le_of_eq; ring

end

/-- A false statement meeting the hypotheses, with the cheating strategy that always sends `(1, -3)`;
the accepting set is not empty. -/
example : (3 : Toy.F) ≠ product Toy.e [1, 0] [1, 0] [1, 1] ∧
    ∃ st : List Toy.F → Toy.F × Toy.F, ∃ xs : Fin 1 → Toy.F, xs 0 ≠ 0 ∧
      Equation Toy.e [1, 0] [1, 0] [1, 1] 3 (List.ofFn xs)
        ((List.range 1).map fun j => st ((List.ofFn xs).take j)) := by
  refine ⟨by simp [product]; decide, fun _ => (1, -3), fun _ => 1, by simp, ?_⟩
  simp [Equation, bitProd, List.range_succ]

section
variable {σ F G1 G2 GT TF : Type} [Field F] [DecidableEq F] [AddCommGroup G1] [Module F G1]
  [AddCommGroup G2] [Module F G2] [AddCommGroup GT] [Module F GT] [Monoid TF] [DecidableEq GT]
  {V : Env σ F G1 G2 GT TF} {e : G1 →ₗ[F] G2 →ₗ[F] GT}

/-! ## C59: the transcript binds the statement -/

/-- An injective encoding of constant length. -/
def Fixed {α : Type} (ser : α → Bytes) : Prop :=
  ∃ l, (∀ x, (ser x).length = l) ∧ ∀ x y, ser x = ser y → x = y

theorem Fixed.decodable {α : Type} {ser : α → Bytes} (h : Fixed ser) :
    Decodable (fun _ => True) ser := by
  obtain ⟨l, h1, h2⟩ := h
  exact .of_fixed l (fun x _ => h1 x) (fun x y _ _ => h2 x y)

/-- The hash input of the first seed determines the whole statement. -/
theorem C59_seed (h1 : Fixed V.serG1) (h2 : Fixed V.serG2) (h3 : Fixed V.serF) (h4 : Fixed V.serGT)
    (a a' : List G1) (b b' : List G2) (r r' : List F) (v v' : GT)
    (la : a.length < 2 ^ 64) (la' : a'.length < 2 ^ 64) (lb : b.length < 2 ^ 64)
    (lb' : b'.length < 2 ^ 64) (lr : r.length < 2 ^ 64) (lr' : r'.length < 2 ^ 64)
    (h : seedBytes V a b r v = seedBytes V a' b' r' v') : a = a' ∧ b = b' ∧ r = r' ∧ v = v' := by
  simp only [seedBytes, List.append_assoc] at h
  obtain ⟨e1, h⟩ := decodable_serSeq h1.decodable a a' _ _ ⟨la, by simp⟩ ⟨la', by simp⟩ h
  obtain ⟨e2, h⟩ := decodable_serSeq h2.decodable b b' _ _ ⟨lb, by simp⟩ ⟨lb', by simp⟩ h
  obtain ⟨e3, h⟩ := decodable_serSeq h3.decodable r r' _ _ ⟨lr, by simp⟩ ⟨lr', by simp⟩ h
  exact ⟨e1, e2, e3, h4.choose_spec.2 _ _ h⟩

/-- Absorbing determines the pair and the previous seed (seeds have equal length). -/
theorem C59_absorb (h4 : Fixed V.serGT) (z z' : GT × GT) (s s' : Bytes)
    (h : V.serGT z.1 ++ V.serGT z.2 ++ s = V.serGT z'.1 ++ V.serGT z'.2 ++ s') : z = z' ∧ s = s' := by
  simp only [List.append_assoc] at h
  obtain ⟨e1, h⟩ := h4.decodable _ _ _ _ trivial trivial h
  obtain ⟨e2, h⟩ := h4.decodable _ _ _ _ trivial trivial h
  exact ⟨Prod.ext e1 e2, h⟩

/-- The byte strings hashed in a transcript that starts with `x`: first `x`, then each pair followed by the digest of
the previous string. -/
def hashInputs (V : Env σ F G1 G2 GT TF) : Bytes → List (GT × GT) → List Bytes
  | x, [] => [x]
  | x, z :: zs => x :: hashInputs V (V.serGT z.1 ++ V.serGT z.2 ++ V.digest x) zs

theorem seed_collision (h4 : Fixed V.serGT) : ∀ (zs zs' : List (GT × GT)) (x x' : Bytes), zs.length = zs'.length →
    (zs.foldl (fun g z => g.absorb V (V.serGT z.1 ++ V.serGT z.2)) (Rng.fromSeed V x)).seed =
      (zs'.foldl (fun g z => g.absorb V (V.serGT z.1 ++ V.serGT z.2)) (Rng.fromSeed V x')).seed →
    (x = x' ∧ zs = zs') ∨ ∃ (i : ℕ) (y y' : Bytes), (hashInputs V x zs)[i]? = some y ∧
      (hashInputs V x' zs')[i]? = some y' ∧
      y ≠ y' ∧ V.digest y = V.digest y'
  | [], [], x, x', _, h => by
    by_cases hx : x = x'
    · exact .inl ⟨hx, rfl⟩
    · exact .inr ⟨0, x, x', rfl, rfl, hx, h⟩
  | z :: zs, z' :: zs', x, x', hl, h => by
    rcases seed_collision h4 zs zs' (V.serGT z.1 ++ V.serGT z.2 ++ V.digest x)
      (V.serGT z'.1 ++ V.serGT z'.2 ++ V.digest x') (by simpa using hl) h with ⟨h5, h6⟩ | ⟨i, y, y', h5, h6, h7⟩
    · obtain ⟨h7, h8⟩ := C59_absorb h4 _ _ _ _ h5
      by_cases hx : x = x'
      · exact .inl ⟨hx, by rw [h6, h7]⟩
      · exact .inr ⟨0, x, x', rfl, rfl, hx, h8⟩
    · exact .inr ⟨i + 1, y, y', by simpa [hashInputs] using h5, by simpa [hashInputs] using h6, h7⟩
  | [], _ :: _, _, _, hl, _ => by simp at hl
  | _ :: _, [], _, _, hl, _ => by simp at hl

/-- Two transcripts with the same number of rounds that arrive at the same seed either agree on the statement and on all
pairs, or two different strings that they hash at the same place have the same digest. -/
theorem C59_transcript (h1 : Fixed V.serG1) (h2 : Fixed V.serG2) (h3 : Fixed V.serF)
    (h4 : Fixed V.serGT) (a a' : List G1) (b b' : List G2) (r r' : List F) (v v' : GT)
    (la : a.length < 2 ^ 64) (la' : a'.length < 2 ^ 64) (lb : b.length < 2 ^ 64)
    (lb' : b'.length < 2 ^ 64) (lr : r.length < 2 ^ 64) (lr' : r'.length < 2 ^ 64)
    (zs zs' : List (GT × GT)) (hl : zs.length = zs'.length)
    (h : (zs.foldl (fun g z => g.absorb V (V.serGT z.1 ++ V.serGT z.2))
            (Rng.fromSeed V (seedBytes V a b r v))).seed =
         (zs'.foldl (fun g z => g.absorb V (V.serGT z.1 ++ V.serGT z.2))
            (Rng.fromSeed V (seedBytes V a' b' r' v'))).seed) :
    (a = a' ∧ b = b' ∧ r = r' ∧ v = v' ∧ zs = zs') ∨
      ∃ (i : ℕ) (y y' : Bytes), (hashInputs V (seedBytes V a b r v) zs)[i]? = some y ∧
        (hashInputs V (seedBytes V a' b' r' v') zs')[i]? = some y' ∧ y ≠ y' ∧ V.digest y = V.digest y' := by
  rcases seed_collision h4 zs zs' _ _ hl h with ⟨h5, h6⟩ | h5
  · obtain ⟨e1, e2, e3, e4⟩ := C59_seed h1 h2 h3 h4 a a' b b' r r' v v' la la' lb lb' lr lr' h5
    exact .inl ⟨e1, e2, e3, e4, h6⟩
  · exact .inr h5

/-! ## C60: the generator depends on the absorbed history only -/

/-- The operations available on `FiatShamirRng`: absorbing, and any use of the ChaCha generator
(`next_u32`, `next_u64`, `fill_bytes`). -/
inductive Op (σ : Type)
  | absorb (bytes : Bytes)
  | draw (f : σ → σ)

/-- Executes operations in order. -/
def runOps (V : Env σ F G1 G2 GT TF) : Rng σ → List (Op σ) → Rng σ
  | g, [] => g
  | g, .absorb bs :: ops => runOps V (g.absorb V bs) ops
  | g, .draw f :: ops => runOps V { g with r := f g.r } ops

/-- The byte strings absorbed. -/
def absorbed : List (Op σ) → List Bytes
  | [] => []
  | .absorb bs :: ops => bs :: absorbed ops
  | .draw _ :: ops => absorbed ops

theorem seed_runOps (V : Env σ F G1 G2 GT TF) : ∀ (ops : List (Op σ)) (g : Rng σ),
    (runOps V g ops).seed = (absorbed ops).foldl (fun s m => V.digest (m ++ s)) g.seed
  | [], _ => rfl
  | .absorb bs :: ops, g => by rw [runOps, seed_runOps V ops]; rfl
  | .draw f :: ops, g => by rw [runOps, seed_runOps V ops]; rfl

theorem runOps_append (V : Env σ F G1 G2 GT TF) : ∀ (ops ops' : List (Op σ)) (g : Rng σ),
    runOps V g (ops ++ ops') = runOps V (runOps V g ops) ops'
  | [], _, _ => rfl
  | .absorb bs :: ops, ops', g => by rw [List.cons_append, runOps, runOps, runOps_append V ops]
  | .draw f :: ops, ops', g => by rw [List.cons_append, runOps, runOps, runOps_append V ops]

/-- After an absorb the state is: seed `H(mₙ ‖ … H(m₁ ‖ H(seed)))`, generator freshly seeded with it,
whatever was drawn before. -/
theorem C60_state (V : Env σ F G1 G2 GT TF) (seed : Bytes) (ops : List (Op σ)) (m : Bytes) :
    let d := (absorbed ops ++ [m]).foldl (fun s m => V.digest (m ++ s)) (V.digest seed)
    runOps V (Rng.fromSeed V seed) (ops ++ [.absorb m]) = ⟨V.chachaSeed d, d⟩ := by
  intro d
  rw [runOps_append, runOps, runOps, Rng.absorb, seed_runOps]
  have : d = V.digest (m ++ (absorbed ops).foldl (fun s m => V.digest (m ++ s)) (V.digest seed)) := by
    simp [d]
  rw [this]
  rfl

/-- Equal histories give equal states, hence equal outputs. -/
theorem C60_history (V : Env σ F G1 G2 GT TF) (seed : Bytes) (ops ops' : List (Op σ)) (m : Bytes)
    (h : absorbed ops = absorbed ops') :
    runOps V (Rng.fromSeed V seed) (ops ++ [.absorb m]) =
      runOps V (Rng.fromSeed V seed) (ops' ++ [.absorb m]) := by
  rw [C60_state, C60_state, h]

/-- Drawing twice without absorbing continues the stream instead of repeating it. -/
theorem C60_draw_keeps_seed (V : Env σ F G1 G2 GT TF) (g : Rng σ) :
    (g.nextU128 V).2.seed = g.seed := rfl

/-! ## C61: malformed input -/

theorem C61_not_power_of_two (V : Env σ F G1 G2 GT TF) (a : List G1) (b : List G2) (r : List F)
    (value : GT) (proof : List (GT × GT)) (h : ∀ k, a.length ≠ 2 ^ k) :
    verify V a b r value proof = panic' .assertion := by
  rw [verify]; simp [isPow2_eq_false.mpr h]

theorem C61_too_short (V : Env σ F G1 G2 GT TF) (a : List G1) (b : List G2) (r : List F)
    (value : GT) (proof : List (GT × GT)) (h : a.length < 2) :
    verify V a b r value proof = panic' .assertion := by
  rw [verify]
  cases isPow2 a.length
  · rfl
  · simp [show ¬ 2 ≤ a.length by omega]

theorem C61_vector_lengths (V : Env σ F G1 G2 GT TF) (a : List G1) (b : List G2) (r : List F)
    (value : GT) (proof : List (GT × GT)) (h : a.length ≠ b.length) :
    verify V a b r value proof = panic' .assertion := by
  rw [verify]
  cases isPow2 a.length
  · rfl
  · by_cases h2 : 2 ≤ a.length <;> simp [h2, beq_eq_false_iff_ne.mpr h]

theorem C61_proof_length (V : Env σ F G1 G2 GT TF) (a : List G1) (b : List G2) (r : List F)
    (value : GT) (proof : List (GT × GT)) (h : a.length ≠ 2 ^ proof.length) :
    verify V a b r value proof = panic' .assertion := by
  rw [verify]
  cases isPow2 a.length
  · rfl
  · by_cases h2 : 2 ≤ a.length
    · by_cases h3 : a.length = b.length
      · simp [h2, ← h3, beq_eq_false_iff_ne.mpr (Ne.symm h)]
      · simp [h2, beq_eq_false_iff_ne.mpr h3]
    · simp [h2]

/-- Too few coefficients: the length check inside the multi-scalar multiplication fails and is
unwrapped. -/
theorem C61_short_coeffs (V : Env σ F G1 G2 GT TF) (a : List G1) (b : List G2) (r : List F)
    (value : GT) (proof : List (GT × GT)) (hk : 1 ≤ proof.length) (ha : a.length = 2 ^ proof.length)
    (hb : b.length = 2 ^ proof.length) (hr : r.length < 2 ^ proof.length) :
    verify V a b r value proof = panic' .unwrap := by
  have h2 : 2 ≤ 2 ^ proof.length := by
    calc 2 = 2 ^ 1 := rfl
      _ ≤ _ := Nat.pow_le_pow_right (by norm_num) hk
  rw [verify]
  simp only [ha, hb, isPow2_two_pow, assert_true, ok_bind, h2, decide_true, beq_self_eq_true]
  rw [msm, if_neg (by simp [length_scalarLoop, ha]; omega)]
  rfl

/-- Surplus coefficients do not enter the equation (only the seed). -/
theorem C61_surplus_coeffs (a : List G1) (b : List G2) (r extra : List F) (value : GT) (xs : List F)
    (zs : List (GT × GT)) (ha : a.length = r.length) (hx : a.length = 2 ^ xs.length) :
    Equation e a b (r ++ extra) value xs zs ↔ Equation e a b r value xs zs := by
  have : List.zipWith (fun x y : F => x * y)
      ((List.range (2 ^ xs.length)).map (bitProd xs.reverse)) (r ++ extra) =
      List.zipWith (· * ·) ((List.range (2 ^ xs.length)).map (bitProd xs.reverse)) r := by
    apply List.ext_getElem?
    intro i
    by_cases hi : i < r.length
    · simp [List.getElem?_zipWith, hi, List.getElem?_append_left hi]
    · rw [List.getElem?_eq_none (by simp; omega), List.getElem?_eq_none (by simp; omega)]
  unfold Equation
  rw [this]

/-- The prover asserts equal lengths and a power of two. -/
theorem C61_prover_lengths (V : Env σ F G1 G2 GT TF) (a : List G1) (b : List G2) (r : List F)
    (value : GT) (h : a.length ≠ b.length ∨ ∀ k, a.length ≠ 2 ^ k) :
    prove V a b r value = panic' .assertion := by
  rw [prove]
  by_cases h1 : a.length = b.length
  · rcases h with h | h
    · exact absurd h1 h
    · rw [← h1]
      simp [isPow2_eq_false.mpr h]
  · simp [beq_eq_false_iff_ne.mpr h1]

end

example : verify Toy.sippEnv [1, 2, 3, 4] [5, 6, 7, 8] [1, 1, 2, 3] 7 [(1, 2), (3, 4), (5, 6)] =
    panic' .assertion := C61_proof_length _ _ _ _ _ _ (by simp)

example : verify Toy.sippEnv [1, 2, 3, 4] [5, 6, 7, 8] [1, 1, 2] 7 [(1, 2), (3, 4)] =
    panic' .unwrap := C61_short_coeffs _ _ _ _ _ _ (by simp) rfl rfl (by simp)

theorem toy_ser_fixed : Fixed Toy.sippEnv.serF :=
  ⟨1, fun _ => rfl, fun x y h => by
    have h' : UInt8.ofNat x.val = UInt8.ofNat y.val := by
      have := (List.cons.inj (show [UInt8.ofNat x.val] = [UInt8.ofNat y.val] from h)).1
      exact this
    have := congrArg UInt8.toNat h'
    have hx := ZMod.val_lt x
    have hy := ZMod.val_lt y
    simp only [UInt8.toNat_ofNat'] at this
    exact ZMod.val_injective _ (by omega)⟩

example : seedBytes Toy.sippEnv [1, 2] [3, 4] [5, 6] 7 ≠ seedBytes Toy.sippEnv [1, 2] [3, 4] [5] 7 :=
  fun h => by
    have := (C59_seed toy_ser_fixed toy_ser_fixed toy_ser_fixed toy_ser_fixed [1, 2] [1, 2] [3, 4]
      [3, 4] [5, 6] [5] 7 7 (by decide) (by decide) (by decide) (by decide) (by decide) (by decide) h)
    exact absurd this.2.2.1 (by decide)

end Ripp.Sipp
