import Verif.Model.Batch
import Verif.Props.Groth16Verify
import Mathlib.Data.Fintype.Pi
import Mathlib.Data.Fintype.BigOperators

/-!
# C88 – C91: the batch verifier of Groth16 proofs
-/

set_option linter.unusedSectionVars false

namespace Ripp.Batch

open Spec Groth16

variable {ρ F G1 G2 GT TF : Type} [Field F] [AddCommGroup G1] [Module F G1] [AddCommGroup G2] [Module F G2]
  [Monoid TF] [AddCommGroup GT] [Module F GT] [DecidableEq GT]
  {E : Engine G1 G2 GT TF} {e : G1 →ₗ[F] G2 →ₗ[F] GT}

theorem foldl_smul (row : List F) : ∀ (abc : List G1) (g : G1),
    (row.zip abc).foldl (fun g p => g + p.1 • p.2) g = g + dot (fun s g => s • g) row abc := by
  induction row with
  | nil => simp
  | cons x row ih =>
    intro abc g
    cases abc with
    | nil => simp
    | cons b abc => simp [ih, add_assoc]

theorem inputTerm_eq (abc : List G1) (h : abc ≠ []) (row : List F) :
    inputTerm abc row = .ok (dot (fun s g => s • g) (1 :: row) abc) := by
  obtain ⟨a, abc, rfl⟩ := List.exists_cons_of_ne_nil h
  simp [inputTerm, idx, foldl_smul]

theorem sum_map_zip {A M : Type} [AddCommGroup M] [Module F M] (f : A → M) : ∀ (xs : List A) (rs : List F),
    ((xs.zip rs).map fun p => p.2 • f p.1).sum = dot (fun r x => r • f x) rs xs
  | [], rs => by simp
  | _ :: _, [] => by simp
  | x :: xs, r :: rs => by simp [sum_map_zip f xs rs]

theorem finalExp_prod (hE : E.Lawful e) : ∀ (a : List G1) (b : List G2),
    E.finalExp (List.zipWith E.miller a b).prod = some (dot (e · ·) a b)
  | [], b => by simp [hE.finalExp_one]
  | _ :: _, [] => by simp [hE.finalExp_one]
  | a :: as, b :: bs => by
    simpa using hE.finalExp_mul _ _ _ _ (hE.finalExp_miller a b) (finalExp_prod hE as bs)

theorem dot_map_ab : ∀ (proofs : List (G16Proof G1 G2)) (rs : List F),
    dot (e · ·) ((proofs.zip rs).map fun p => p.2 • p.1.a) (proofs.map (·.b)) =
      dot (fun r (p : G16Proof G1 G2) => r • e p.a p.b) rs proofs
  | [], rs => by simp
  | _ :: _, [] => by simp
  | p :: ps, r :: rs => by simp [dot_map_ab ps rs]

/-- C88: with at least as many coefficients as proofs, the verifier decides one equation. The sum over the
input rows stops at the end of the shorter of rows and coefficients. -/
theorem C88_verdict (hE : E.Lawful e) (vk : G16VK G1 G2) (habc : vk.gammaAbc ≠ []) (inputs : List (List F))
    (proofs : List (G16Proof G1 G2)) (rs : List F) (hrs : proofs.length ≤ rs.length) :
    verifyWith E (prepareVK vk) inputs proofs rs = .ok (decide (
      dot (fun r (p : G16Proof G1 G2) => r • e p.a p.b) rs proofs =
        rs.sum • e vk.alpha vk.beta
        + e (dot (fun r row => r • dot (fun s g => s • g) (1 :: row) vk.gammaAbc) rs inputs) vk.gamma
        + e (dot (fun r (p : G16Proof G1 G2) => r • p.c) rs proofs) vk.delta)) := by
  have h1 : (inputs.zip rs).mapM (fun (x : List F × F) =>
      (do return x.2 • (← inputTerm vk.gammaAbc x.1) : Res G1)) =
      .ok ((inputs.zip rs).map fun x => x.2 • dot (fun s g => s • g) (1 :: x.1) vk.gammaAbc) := by
    apply mapM_ok
    intro x _
    simp [inputTerm_eq _ habc]
  have h2 : E.multiMillerLoop ((proofs.zip rs).map fun p => p.2 • p.1.a) (proofs.map (·.b)) =
      .ok (List.zipWith E.miller ((proofs.zip rs).map fun p => p.2 • p.1.a) (proofs.map (·.b))).prod := by
    rw [Engine.multiMillerLoop, if_pos (by simpa using hrs)]
  have h3 : ∀ a b c a' b' c', E.multiMillerLoop [a, b, c] [a', b', c'] =
      .ok (List.zipWith E.miller [a, b, c] [a', b', c']).prod := fun _ _ _ _ _ _ => rfl
  have hex := hE.finalExp_mul _ _ _ _
    (finalExp_prod hE [-(rs.sum • vk.alpha),
      ((inputs.zip rs).map fun x => x.2 • dot (fun s g => s • g) (1 :: x.1) vk.gammaAbc).sum,
      ((proofs.zip rs).map fun p => p.2 • p.1.c).sum] [vk.beta, -vk.gamma, -vk.delta])
    (finalExp_prod hE ((proofs.zip rs).map fun p => p.2 • p.1.a) (proofs.map (·.b)))
  rw [verifyWith]
  simp only [prepareVK, h1, h2, h3, ok_bind, hex]
  rw [dot_map_ab, sum_map_zip (fun row => dot (fun s g => s • g) (1 :: row) vk.gammaAbc),
    sum_map_zip (fun p : G16Proof G1 G2 => p.c)]
  change Except.ok _ = Except.ok _
  congr 2
  simp only [dot_cons, dot_nil_left, map_neg, LinearMap.neg_apply, map_smul, LinearMap.smul_apply,
    add_zero, eq_iff_iff]
  constructor
  · intro h
    rw [← sub_eq_zero, ← h]
    abel
  · intro h
    rw [h]
    abel

/-- By how much one proof misses the Groth16 equation for one row of inputs. -/
def defect (e : G1 →ₗ[F] G2 →ₗ[F] GT) (vk : G16VK G1 G2) (p : G16Proof G1 G2) (row : List F) : GT :=
  e p.a p.b - (e vk.alpha vk.beta + e (dot (fun s g => s • g) (1 :: row) vk.gammaAbc) vk.gamma
    + e p.c vk.delta)

theorem valid_iff (vk : G16VK G1 G2) (p : G16Proof G1 G2) (row : List F)
    (h : row.length + 1 = vk.gammaAbc.length) : Valid e vk p row ↔ defect e vk p row = 0 := by
  rw [Valid, defect, sub_eq_zero]
  exact and_iff_right h

/-- The equation as a combination of the defects. -/
theorem C88_combination (hE : E.Lawful e) (vk : G16VK G1 G2) (habc : vk.gammaAbc ≠ [])
    (inputs : List (List F)) (proofs : List (G16Proof G1 G2)) (hl : proofs.length = inputs.length)
    (rs : List F) (hrs : rs.length = proofs.length) :
    verifyWith E (prepareVK vk) inputs proofs rs = .ok (decide (
      dot (fun (r : F) (d : GT) => r • d) rs (List.zipWith (defect e vk) proofs inputs) = 0)) := by
  rw [C88_verdict hE vk habc inputs proofs rs hrs.ge]
  congr 2
  have g1 : e (dot (fun r row => r • dot (fun s g => s • g) (1 :: row) vk.gammaAbc) rs inputs) vk.gamma =
      dot (fun r row => r • e (dot (fun s g => s • g) (1 :: row) vk.gammaAbc) vk.gamma) rs inputs :=
    dot_smul_map (e.flip vk.gamma) (fun row => dot (fun s g => s • g) (1 :: row) vk.gammaAbc) rs inputs
  have g2 : e (dot (fun r (p : G16Proof G1 G2) => r • p.c) rs proofs) vk.delta =
      dot (fun r (p : G16Proof G1 G2) => r • e p.c vk.delta) rs proofs :=
    dot_smul_map (e.flip vk.delta) (fun p : G16Proof G1 G2 => p.c) rs proofs
  rw [g1, g2]
  rw [eq_iff_iff, ← sub_eq_zero]
  refine Eq.congr ?_ rfl
  clear habc g1 g2
  induction rs generalizing proofs inputs with
  | nil => simp
  | cons r rs ih =>
    cases proofs with
    | nil => simp at hrs
    | cons p ps =>
      cases inputs with
      | nil => simp at hl
      | cons row rows =>
        have := ih rows ps (by simpa using hl) (by simpa using hrs)
        simp only [List.zipWith_cons_cons, dot_cons, ← this, List.sum_cons, defect]
        module

theorem length_coefficients (rand : ρ → ℕ × ρ) (seed : ρ) : ∀ n,
    (coefficients (F := F) rand seed n).length = n := by
  intro n
  rw [coefficients, List.length_map]
  induction n generalizing seed with
  | zero => rfl
  | succ n ih => simp [randomGenerators, ih]

/-- C88: valid proofs are accepted, whatever the generator returns. -/
theorem C88_complete (hE : E.Lawful e) (rand : ρ → ℕ × ρ) (seed : ρ) (vk : G16VK G1 G2)
    (inputs : List (List F)) (proofs : List (G16Proof G1 G2))
    (hv : List.Forall₂ (Valid e vk) proofs inputs) :
    verify E rand seed (prepareVK vk) inputs proofs = .ok true := by
  rw [verify]
  cases hv with
  | nil =>
    have h := hE.finalExp_mul _ _ _ _ (finalExp_prod hE [-(0 • vk.alpha), 0, 0]
      [vk.beta, -vk.gamma, -vk.delta]) hE.finalExp_one
    simp [verifyWith, coefficients, randomGenerators, Engine.multiMillerLoop, prepareVK] at h ⊢
    simp [h]
  | cons h hs =>
    rename_i p row ps rows
    have habc : vk.gammaAbc ≠ [] := by
      intro h0
      have := h.1
      rw [h0] at this
      simp at this
    rw [C88_combination hE vk habc _ _ (by simpa using hs.length_eq) _ (length_coefficients _ _ _)]
    congr 1
    rw [decide_eq_true_iff]
    have : ∀ (ps : List (G16Proof G1 G2)) (rows : List (List F)), List.Forall₂ (Valid e vk) ps rows →
        ∀ rs : List F, dot (fun (r : F) (d : GT) => r • d) rs (List.zipWith (defect e vk) ps rows) = 0 := by
      intro ps rows h
      induction h with
      | nil => simp
      | cons h _ ih =>
        intro rs
        cases rs with
        | nil => simp
        | cons r rs => simp [ih, (valid_iff vk _ _ h.1).mp h]
    exact this _ _ (.cons h hs) _

/-! ## C89: the coefficients are the same in every call -/

/-- C89: for every generator and seed, two valid proofs can be changed so that at least one is invalid and
the batch is still accepted. -/
theorem C89_forgery (hE : E.Lawful e) (rand : ρ → ℕ × ρ) (seed : ρ) (vk : G16VK G1 G2)
    (p0 p1 : G16Proof G1 G2) (row0 row1 : List F) (h0 : Valid e vk p0 row0) (h1 : Valid e vk p1 row1)
    (D : G1) (hD : e D vk.delta ≠ 0) :
    ∃ c0 c1 : G1,
      verify E rand seed (prepareVK vk) [row0, row1] [⟨p0.a, p0.b, c0⟩, ⟨p1.a, p1.b, c1⟩] = .ok true ∧
      (¬ Valid e vk ⟨p0.a, p0.b, c0⟩ row0 ∨ ¬ Valid e vk ⟨p1.a, p1.b, c1⟩ row1) := by
  have habc : vk.gammaAbc ≠ [] := by
    intro h
    have := h0.1
    rw [h] at this
    simp at this
  obtain ⟨r0, r1, hr⟩ : ∃ r0 r1 : F, coefficients rand seed 2 = [r0, r1] :=
    List.length_eq_two.mp (length_coefficients rand seed 2)
  have d0 := (valid_iff vk p0 row0 h0.1).mp h0
  have d1 := (valid_iff vk p1 row1 h1.1).mp h1
  have key : ∀ (p : G16Proof G1 G2) (row : List F) (x : G1), defect e vk ⟨p.a, p.b, p.c + x⟩ row =
      defect e vk p row - e x vk.delta := by
    intro p row x
    simp only [defect, map_add, LinearMap.add_apply]
    abel
  have acc : ∀ x0 x1 : G1, r0 • e x0 vk.delta + r1 • e x1 vk.delta = 0 →
      verify E rand seed (prepareVK vk) [row0, row1]
        [⟨p0.a, p0.b, p0.c + x0⟩, ⟨p1.a, p1.b, p1.c + x1⟩] = .ok true := by
    intro x0 x1 h
    rw [verify]
    change verifyWith E _ _ _ (coefficients rand seed 2) = _
    rw [hr, C88_combination hE vk habc _ _ rfl _ rfl]
    simp only [List.zipWith_cons_cons, List.zipWith_nil_left, dot_cons, dot_nil_left, key, d0, d1]
    have : r0 • (0 - e x0 vk.delta) + (r1 • (0 - e x1 vk.delta) + 0) = 0 := by
      rw [add_zero, zero_sub, zero_sub, smul_neg, smul_neg, ← neg_add, h, neg_zero]
    simp only [this, decide_true]
  by_cases hz : r0 = 0
  · refine ⟨p0.c + D, p1.c + 0, acc _ _ (by simp [hz]), Or.inl ?_⟩
    rw [valid_iff vk _ _ h0.1, key, d0, zero_sub, neg_eq_zero]
    exact hD
  · refine ⟨p0.c + r1 • D, p1.c + -(r0 • D), acc _ _ ?_, Or.inr ?_⟩
    · simp only [map_smul, LinearMap.smul_apply, map_neg, LinearMap.neg_apply]
      module
    · rw [valid_iff vk _ _ h1.1, key, d1, zero_sub, neg_eq_zero, map_neg, LinearMap.neg_apply, neg_eq_zero,
        map_smul, LinearMap.smul_apply]
      exact smul_ne_zero hz hD

/-! ## C90: coefficients drawn at random -/

theorem dot_ofFn_sum {n : ℕ} (r : Fin n → F) (ds : List GT) (h : ds.length = n) :
    dot (fun (r : F) (d : GT) => r • d) (List.ofFn r) ds = ∑ i : Fin n, r i • ds[i]'(by rw [h]; exact i.2) := by
  subst h
  induction ds with
  | nil => simp
  | cons d ds ih =>
    rw [List.ofFn_succ]
    simp only [dot_cons, ih fun i => r i.succ]
    exact (Fin.sum_univ_succ fun i : Fin (ds.length + 1) => r i • (d :: ds)[i]).symm

/-- C90: if some proof of the batch is invalid, at most `|S|^(n-1)` of the `|S|^n` coefficient vectors with
entries in `S` make the verifier accept. -/
theorem C90_random (hE : E.Lawful e) (vk : G16VK G1 G2) (habc : vk.gammaAbc ≠ [])
    (inputs : List (List F)) (proofs : List (G16Proof G1 G2)) (hl : proofs.length = inputs.length)
    (hrow : ∀ row ∈ inputs, row.length + 1 = vk.gammaAbc.length)
    (hbad : ¬ List.Forall₂ (Valid e vk) proofs inputs) (S : Finset F)
    (W : Finset (Fin proofs.length → F)) (hW : ∀ r ∈ W, ∀ i, r i ∈ S)
    (hacc : ∀ r ∈ W, verifyWith E (prepareVK vk) inputs proofs (List.ofFn r) = .ok true) :
    W.card ≤ S.card ^ (proofs.length - 1) := by
  classical
  set ds := List.zipWith (defect e vk) proofs inputs with hds
  have hlen : ds.length = proofs.length := by simp [hds, hl]
  obtain ⟨j, hj⟩ : ∃ j : Fin proofs.length, ds[j]'(by rw [hlen]; exact j.2) ≠ 0 := by
    by_contra hcon
    push Not at hcon
    refine hbad (List.forall₂_iff_get.mpr ⟨hl, fun i h1 h2 => ?_⟩)
    rw [valid_iff _ _ _ (hrow _ (List.get_mem _ _))]
    simpa [hds] using hcon ⟨i, h1⟩
  have hsum : ∀ r ∈ W, ∑ i : Fin proofs.length, r i • ds[i]'(by rw [hlen]; exact i.2) = 0 := by
    intro r hr
    have := hacc r hr
    rw [C88_combination hE vk habc _ _ hl _ (by simp), ← hds, dot_ofFn_sum r ds hlen] at this
    simpa using Except.ok.inj this
  have hcard : (Fintype.piFinset fun _ : {i : Fin proofs.length // i ≠ j} => S).card =
      S.card ^ (proofs.length - 1) := by
    rw [Fintype.card_piFinset]
    simp [Fintype.card_subtype_compl]
  rw [← hcard]
  refine Finset.card_le_card_of_injOn (fun r i => r i.1) (fun r hr => ?_) ?_
  · exact Fintype.mem_piFinset.mpr fun i => hW r hr i.1
  · intro r hr r' hr' h
    have hoff : ∀ i, i ≠ j → r i = r' i := fun i hi => congrFun h ⟨i, hi⟩
    have h1 := hsum r hr
    have h2 := hsum r' hr'
    rw [← Finset.add_sum_erase _ _ (Finset.mem_univ j)] at h1 h2
    have h3 : ∑ i ∈ Finset.univ.erase j, r i • ds[i]'(by rw [hlen]; exact i.2) =
        ∑ i ∈ Finset.univ.erase j, r' i • ds[i]'(by rw [hlen]; exact i.2) :=
      Finset.sum_congr rfl fun i hi => by rw [hoff i (Finset.ne_of_mem_erase hi)]
    rw [h3] at h1
    have h4 : r j • ds[j]'(by rw [hlen]; exact j.2) = r' j • ds[j]'(by rw [hlen]; exact j.2) :=
      add_right_cancel (h1.trans h2.symm)
    funext i
    by_cases hi : i = j
    · subst hi
      rw [← sub_eq_zero, ← sub_smul, smul_eq_zero, sub_eq_zero] at h4
      exact h4.resolve_right hj
    · exact hoff i hi

/-! ## C91: lists of different lengths -/

/-- C91: rows of inputs beyond the number of proofs are ignored. -/
theorem C91_extra_rows (rand : ρ → ℕ × ρ) (seed : ρ) (pvk : G16PVK G1 G2) (inputs extra : List (List F))
    (proofs : List (G16Proof G1 G2)) (h : proofs.length ≤ inputs.length) :
    verify E rand seed pvk (inputs ++ extra) proofs = verify E rand seed pvk inputs proofs := by
  have hz : (inputs ++ extra).zip (coefficients (F := F) rand seed proofs.length) =
      inputs.zip (coefficients rand seed proofs.length) := by
    have : ∀ (xs ys : List (List F)) (rs : List F), rs.length ≤ xs.length → (xs ++ ys).zip rs = xs.zip rs := by
      intro xs
      induction xs with
      | nil => intro ys rs h; simp [List.length_eq_zero_iff.mp (Nat.le_zero.mp h)]
      | cons x xs ih =>
        intro ys rs h
        cases rs with
        | nil => simp
        | cons r rs => simp [ih ys rs (by simpa using h)]
    exact this _ _ _ (by rw [length_coefficients]; exact h)
  rw [verify, verify, verifyWith, verifyWith, hz]

theorem coefficients_succ (rand : ρ → ℕ × ρ) (seed : ρ) (n : ℕ) : ∃ r : F,
    coefficients rand seed (n + 1) = coefficients rand seed n ++ [r] := by
  induction n generalizing seed with
  | zero => exact ⟨_, rfl⟩
  | succ n ih =>
    obtain ⟨r, hr⟩ := ih (rand seed).2
    exact ⟨r, congrArg (((rand seed).1 : F) :: ·) hr⟩

theorem dot_snoc {A : Type} {M : Type} [AddCommGroup M] [Module F M] (f : F → A → M) : ∀ (rs : List F)
    (xs : List A) (r : F) (x : A), rs.length = xs.length →
    dot f (rs ++ [r]) (xs ++ [x]) = dot f rs xs + f r x := by
  intro rs xs r x h
  rw [dot_append _ _ _ _ _ h]
  simp

theorem dot_longer {A : Type} {M : Type} [AddCommGroup M] [Module F M] (f : F → A → M) : ∀ (rs : List F)
    (xs : List A) (r : F), xs.length ≤ rs.length → dot f (rs ++ [r]) xs = dot f rs xs
  | [], [], r, _ => by simp
  | [], _ :: _, r, h => by simp at h
  | _ :: _, [], r, _ => by simp
  | r' :: rs, x :: xs, r, h => by simp [dot_longer f rs xs r (by simpa using h)]

/-- C91: a proof without a row of inputs is checked without an input term: `(α, β, 0)` is accepted after
any batch. -/
theorem C91_missing_row (hE : E.Lawful e) (rand : ρ → ℕ × ρ) (seed : ρ) (vk : G16VK G1 G2)
    (habc : vk.gammaAbc ≠ []) (inputs : List (List F)) (proofs : List (G16Proof G1 G2))
    (h : inputs.length ≤ proofs.length) :
    verify E rand seed (prepareVK vk) inputs (proofs ++ [⟨vk.alpha, vk.beta, 0⟩]) =
      verify E rand seed (prepareVK vk) inputs proofs := by
  rw [verify, verify, List.length_append, List.length_singleton]
  obtain ⟨r, hr⟩ := coefficients_succ (F := F) rand seed proofs.length
  have hc := length_coefficients (F := F) rand seed proofs.length
  rw [hr, C88_verdict hE vk habc _ _ _ (by simp [hc]), C88_verdict hE vk habc _ _ _ hc.ge]
  rw [dot_snoc _ _ _ _ _ hc, dot_snoc _ _ _ _ _ hc, dot_longer _ _ _ _ (by rw [hc]; exact h)]
  congr 2
  rw [eq_iff_iff, List.sum_append, List.sum_singleton, add_smul, smul_zero, add_zero,
    add_right_comm _ (r • _), add_right_comm _ (r • _)]
  exact add_left_inj _

/-- C91: a row that is too long is cut off, one that is too short is filled with zeros. -/
theorem C91_rows (abc : List G1) (h : abc ≠ []) (row : List F) :
    (∀ extra, row.length + 1 = abc.length → inputTerm abc (row ++ extra) = inputTerm abc row) ∧
    ∀ n, inputTerm abc row = inputTerm abc (row ++ List.replicate n 0) := by
  obtain ⟨a, abc, rfl⟩ := List.exists_cons_of_ne_nil h
  simp only [inputTerm_eq _ h]
  constructor
  · intro extra hl
    have hl : row.length = abc.length := by simpa using hl
    congr 1
    rw [dot_cons, dot_cons, ← List.append_nil abc, dot_append _ _ _ _ _ hl, List.append_nil]
    simp
  · intro n
    have key : ∀ (row : List F) (abc : List G1), dot (fun s g => s • g) (row ++ List.replicate n 0) abc =
        dot (fun s g => s • g) row abc := by
      intro row
      induction row with
      | nil =>
        intro abc
        rw [List.nil_append, dot_nil_left]
        induction n generalizing abc with
        | zero => simp
        | succ n ih => cases abc <;> simp [List.replicate_succ, ih]
      | cons x row ih => intro abc; cases abc <;> simp [ih]
    rw [dot_cons, dot_cons, key]

/-- C91: an empty batch is accepted, with any rows of inputs. -/
theorem C91_empty (hE : E.Lawful e) (rand : ρ → ℕ × ρ) (seed : ρ) (vk : G16VK G1 G2)
    (inputs : List (List F)) : verify E rand seed (prepareVK vk) inputs [] = .ok true := by
  rw [← List.nil_append inputs, C91_extra_rows rand seed _ [] inputs [] le_rfl]
  exact C88_complete hE rand seed vk [] [] .nil

/-- C91: a key without input elements makes a non-empty batch with inputs panic. -/
theorem C91_empty_key (rand : ρ → ℕ × ρ) (seed : ρ) (pvk : G16PVK G1 G2) (h : pvk.vk.gammaAbc = [])
    (row : List F) (rows : List (List F)) (p : G16Proof G1 G2) (ps : List (G16Proof G1 G2)) :
    verify E rand seed pvk (row :: rows) (p :: ps) = .error (.panic .bounds) := by
  rw [verify, List.length_cons, coefficients, randomGenerators, verifyWith]
  simp only [List.map_cons, List.zip_cons_cons, List.mapM_cons, h]
  rfl

/-! ## Examples -/

/-- The four proofs of the aggregation example. -/
example : verify (F := Toy.F) Toy.E (fun s : ℕ => (s, s + 1)) 5 (prepareVK toyVK) [[1], [2], [3], [4]] toyProofs = .ok true :=
  C88_complete Toy.lawful _ _ _ _ _ toy_valid

/-- One wrong input. -/
example : verify (F := Toy.F) Toy.E (fun s : ℕ => (s, s + 1)) 5 (prepareVK toyVK) [[1], [7], [3], [4]] toyProofs =
    .ok false := by
  decide +kernel

/-- C89 with the coefficients 5 and 6: two invalid proofs. -/
example : verify (F := Toy.F) Toy.E (fun s : ℕ => (s, s + 1)) 5 (prepareVK toyVK) [[1], [2]]
      [⟨5, 7, 24 + 6⟩, ⟨5, 7, 20 - 5⟩] = .ok true ∧
    ¬ Valid Toy.e toyVK ⟨5, 7, 24 + 6⟩ [1] ∧ ¬ Valid Toy.e toyVK ⟨5, 7, 20 - 5⟩ [2] :=
  ⟨by decide +kernel, fun h => absurd h.2 (by decide +kernel), fun h => absurd h.2 (by decide +kernel)⟩

example : ∃ c0 c1, verify (F := Toy.F) Toy.E (fun s : ℕ => (s, s + 1)) 5 (prepareVK toyVK) [[1], [2]]
      [⟨5, 7, c0⟩, ⟨5, 7, c1⟩] = .ok true ∧
    (¬ Valid Toy.e toyVK ⟨5, 7, c0⟩ [1] ∨ ¬ Valid Toy.e toyVK ⟨5, 7, c1⟩ [2]) :=
  C89_forgery Toy.lawful _ _ toyVK ⟨5, 7, 24⟩ ⟨5, 7, 20⟩ _ _ ⟨rfl, by decide⟩ ⟨rfl, by decide⟩ 1 (by decide)

/-- C90: the second proof is wrong; at most `3^3` of the `3^4` coefficient vectors pass. -/
example (W : Finset (Fin 4 → Toy.F)) (hW : ∀ r ∈ W, ∀ i, r i ∈ ({1, 2, 3} : Finset Toy.F))
    (hacc : ∀ r ∈ W, verifyWith Toy.E (prepareVK toyVK) [[1], [7], [3], [4]] toyProofs (List.ofFn r) =
      .ok true) : W.card ≤ 27 := by
  refine C90_random Toy.lawful toyVK (by decide) _ toyProofs rfl (by simp [toyVK]) ?_ {1, 2, 3} W hW hacc
  intro h
  cases h with
  | cons _ h => cases h with
    | cons h _ =>
      have := h.2
      revert this
      decide

/-- C91: no inputs at all. -/
example : verify (F := Toy.F) Toy.E (fun s : ℕ => (s, s + 1)) 5 (prepareVK toyVK) [] [⟨2, 3, 0⟩] = .ok true := by
  have := C91_missing_row Toy.lawful (fun s : ℕ => (s, s + 1)) 5 toyVK (by decide) [] [] le_rfl
  rw [C91_empty Toy.lawful] at this
  exact this

end Ripp.Batch
