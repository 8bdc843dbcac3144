import Verif.Props.CommitValue

/-!
# C122: commitments to polynomials, and KZG openings, are linear in the polynomial

`Combines a b s p q` says that the coefficient lists represent `s = a p + b q`; the lists may differ in length.
-/

set_option linter.unusedSectionVars false

namespace Ripp

open Spec

/-- `s = a p + b q`, coefficient by coefficient. -/
def Combines {F : Type} [Field F] (a b : F) (s p q : List F) : Prop :=
  ∀ i, s.getD i 0 = a * p.getD i 0 + b * q.getD i 0

section
variable {F G1 G2 GT : Type} [Field F] [DecidableEq F] [AddCommGroup G1] [Module F G1] [AddCommGroup G2] [Module F G2]
  [AddCommGroup GT] [Module F GT]

theorem Combines.drop {a b : F} {s p q : List F} (h : Combines a b s p q) (n : ℕ) :
    Combines a b (s.drop n) (p.drop n) (q.drop n) := by
  intro i
  have := h (n + i)
  simpa [List.getD_eq_getElem?_getD, List.getElem?_drop] using this

theorem Combines.tail {a b : F} {s p q : List F} (h : Combines a b s p q) : Combines a b s.tail p.tail q.tail := by
  have := h.drop 1
  rwa [List.drop_one, List.drop_one, List.drop_one] at this

theorem polyEval_tail (p : List F) (z : F) : polyEval p z = p.getD 0 0 + z * polyEval p.tail z := by
  cases p <;> simp [polyEval]

/-- Evaluation is linear. -/
theorem Combines.polyEval {a b : F} (z : F) : ∀ (n : ℕ) {s p q : List F}, s.length ≤ n → p.length ≤ n → q.length ≤ n →
    Combines a b s p q → polyEval s z = a * polyEval p z + b * polyEval q z
  | 0, s, p, q, hs, hp, hq, _ => by
    have := List.length_eq_zero_iff.mp (Nat.le_zero.mp hs)
    have := List.length_eq_zero_iff.mp (Nat.le_zero.mp hp)
    have := List.length_eq_zero_iff.mp (Nat.le_zero.mp hq)
    subst s p q
    simp [Ripp.polyEval]
  | n + 1, s, p, q, hs, hp, hq, h => by
    rw [polyEval_tail s, polyEval_tail p, polyEval_tail q, h 0,
      Combines.polyEval z n (by simpa using hs) (by simpa using hp) (by simpa using hq) h.tail]
    ring

theorem getD_synthDiv (z : F) : ∀ (p : List F) (i : ℕ), (synthDiv z p).2.getD i 0 = polyEval (p.drop (i + 1)) z := by
  have hr : ∀ p : List F, (synthDiv z p).1 = polyEval p z := by
    intro p
    induction p with
    | nil => rfl
    | cons c p ih => rw [synthDiv, polyEval_tail]; simp [ih]
  intro p
  induction p with
  | nil => intro i; simp [synthDiv, Ripp.polyEval]
  | cons c p ih =>
    intro i
    rw [synthDiv]
    cases i with
    | zero => simp [hr]
    | succ i => simpa using ih i

theorem getD_of_le {p : List F} {i : ℕ} (h : p.length ≤ i) : p.getD i 0 = 0 := by
  rw [List.getD_eq_getElem?_getD, List.getElem?_eq_none h]
  rfl

theorem getD_trim (p : List F) (i : ℕ) : (trim p).getD i 0 = p.getD i 0 := by
  have := congrArg (·.getD i 0) (TUnivariate.resize_trim p)
  simp only [resize_eq_map] at this
  by_cases hi : i < p.length
  · simpa [List.getD_eq_getElem?_getD, hi] using this
  · have := length_trim_le p
    rw [getD_of_le (by omega), getD_of_le (by omega)]

/-- Division by `X - z` is linear. -/
theorem Combines.polyDivLinear {a b : F} {s p q : List F} (h : Combines a b s p q) (z : F) :
    Combines a b (polyDivLinear s z) (polyDivLinear p z) (polyDivLinear q z) := by
  intro i
  simp only [Ripp.polyDivLinear, getD_trim, getD_synthDiv]
  exact Combines.polyEval z (max s.length (max p.length q.length)) (by simp) (by simp) (by simp)
    (h.drop _)

/-- The sum `Σ_i p_i key_i`. -/
theorem dot_combine (key : List G1) (a b : F) : ∀ (n : ℕ) (f g h : ℕ → F), (∀ i, f i = a * g i + b * h i) →
    dot (fun (c : F) (k : G1) => c • k) ((List.range n).map f) key =
      a • dot (fun (c : F) (k : G1) => c • k) ((List.range n).map g) key +
      b • dot (fun (c : F) (k : G1) => c • k) ((List.range n).map h) key := by
  induction key with
  | nil => intro n f g h _; cases n <;> simp
  | cons k key ih =>
    intro n f g h hf
    cases n with
    | zero => simp
    | succ n =>
      have key' := ih n (fun i => f (i + 1)) (fun i => g (i + 1)) (fun i => h (i + 1)) fun i => hf (i + 1)
      simp only [List.range_succ_eq_map, List.map_cons, List.map_map, Function.comp_def, dot_cons,
        Nat.succ_eq_add_one] at key' ⊢
      rw [key', hf 0]
      module

end

namespace Kzg

variable {F G1 : Type} [Field F] [DecidableEq F] [AddCommGroup G1] [Module F G1]

/-- The sum `Σ_i p_i key_i` over the keys. -/
def value (key : List G1) (p : List F) : G1 :=
  dot (fun (c : F) (k : G1) => c • k) ((List.range key.length).map (p.getD · 0)) key

theorem msm_resize (key : List G1) (p : List F) : unwrap (msm key (resize p key.length 0)) = .ok (value key p) := by
  rw [msm_eq _ _ (by rw [resize_length]), unwrap_some, dot_swap, resize_eq_map]
  rfl

/-- The polynomials for which `commit` and `open` succeed. -/
def Fits (key : List G1) (p : List F) : Prop := ∃ d, polyDegree p = .ok d ∧ d + 1 ≤ key.length

theorem commit_ok_iff (key : List G1) (p : List F) (c : G1) :
    commit key p = .ok c ↔ Fits key p ∧ c = value key p := by
  rw [commit, Fits]
  cases hd : polyDegree p with
  | error x => simp
  | ok d =>
    by_cases h : d + 1 ≤ key.length
    · simp only [ok_bind, decide_eq_true h, assert_true, msm_resize, Except.ok.injEq]
      exact ⟨fun e => ⟨⟨d, rfl, h⟩, e.symm⟩, fun e => e.2.symm⟩
    · simp only [ok_bind, decide_eq_false h, assert_false, Except.ok.injEq]
      refine iff_of_false (by intro e; cases e) ?_
      rintro ⟨⟨d', rfl, h'⟩, -⟩
      exact h h'

theorem open_ok_iff (key : List G1) (p : List F) (z : F) (c : G1) :
    open_ key p z = .ok c ↔ Fits key p ∧ c = value key (polyDivLinear p z) := by
  rw [open_, Fits]
  cases hd : polyDegree p with
  | error x => simp
  | ok d =>
    by_cases h : d + 1 ≤ key.length
    · simp only [ok_bind, decide_eq_true h, assert_true, msm_resize, Except.ok.injEq]
      exact ⟨fun e => ⟨⟨d, rfl, h⟩, e.symm⟩, fun e => e.2.symm⟩
    · simp only [ok_bind, decide_eq_false h, assert_false, Except.ok.injEq]
      refine iff_of_false (by intro e; cases e) ?_
      rintro ⟨⟨d', rfl, h'⟩, -⟩
      exact h h'

theorem Fits.getD {key : List G1} {p : List F} (h : Fits key p) (i : ℕ) (hi : key.length ≤ i) : p.getD i 0 = 0 := by
  obtain ⟨d, hd, hl⟩ := h
  by_cases hz : ∀ x ∈ p, x = 0
  · rw [List.getD_eq_getElem?_getD]
    cases hp : p[i]? with
    | none => rfl
    | some x => exact hz x (List.mem_of_getElem? hp)
  · by_cases hn : p.getLast? = some 0
    · rw [polyDegree_of_trailing hn (by push Not at hz; exact hz)] at hd
      cases hd
    · rw [polyDegree_of_norm hn] at hd
      simp only [Except.ok.injEq] at hd
      exact getD_of_le (by omega)

theorem Fits.combine {key : List G1} {a b : F} {s p q : List F} (hp : Fits key p) (hq : Fits key q)
    (h : Combines a b s p q) (hs : s.getLast? ≠ some 0) : Fits key s := by
  refine ⟨_, polyDegree_of_norm hs, ?_⟩
  have hk : 1 ≤ key.length := by obtain ⟨d, -, hd⟩ := hp; omega
  by_contra hlt
  push Not at hlt
  have h0 := h (s.length - 1)
  rw [hp.getD _ (by omega), hq.getD _ (by omega), mul_zero, mul_zero, add_zero] at h0
  apply hs
  rw [List.getLast?_eq_getElem?, ← h0, List.getD_eq_getElem?_getD, List.getElem?_eq_getElem (by omega)]
  rfl

theorem value_combine (key : List G1) {a b : F} {s p q : List F} (h : Combines a b s p q) :
    value key s = a • value key p + b • value key q := dot_combine key a b _ _ _ _ h

/-- C122: KZG commitments are linear, for every key. `s` must be in normal form, else `commit` panics (C39). -/
theorem C122_kzg_commit (key : List G1) (a b : F) (s p q : List F) (h : Combines a b s p q)
    (hs : s.getLast? ≠ some 0) (cp cq : G1) (hp : commit key p = .ok cp) (hq : commit key q = .ok cq) :
    commit key s = .ok (a • cp + b • cq) := by
  rw [commit_ok_iff] at hp hq ⊢
  exact ⟨hp.1.combine hq.1 h hs, by rw [hp.2, hq.2, value_combine key h]⟩

/-- C122: KZG openings at one point are linear, for every key. -/
theorem C122_kzg_open (key : List G1) (a b z : F) (s p q : List F) (h : Combines a b s p q)
    (hs : s.getLast? ≠ some 0) (πp πq : G1) (hp : open_ key p z = .ok πp) (hq : open_ key q z = .ok πq) :
    open_ key s z = .ok (a • πp + b • πq) := by
  rw [open_ok_iff] at hp hq ⊢
  exact ⟨hp.1.combine hq.1 h hs, by rw [hp.2, hq.2, value_combine key (h.polyDivLinear z)]⟩

variable {G2 GT TF : Type} [AddCommGroup G2] [Module F G2] [AddCommGroup GT] [Module F GT] [Monoid TF] [DecidableEq GT]
  {E : Engine G1 G2 GT TF} {e : G1 →ₗ[F] G2 →ₗ[F] GT}

/-- C122: so the verifier accepts linear combinations of accepted openings at one point, for every verifier key. -/
theorem C122_kzg_verify (hE : E.Lawful e) (v : VerifierSRS G1 G2) (a b z yp yq : F) (cp cq πp πq : G1)
    (hp : verify E v cp z yp πp = .ok true) (hq : verify E v cq z yq πq = .ok true) :
    verify E v (a • cp + b • cq) z (a * yp + b * yq) (a • πp + b • πq) = .ok true := by
  rw [verify_eq hE] at hp hq ⊢
  simp only [Except.ok.injEq, decide_eq_true_eq] at hp hq ⊢
  have : a • cp + b • cq - (a * yp + b * yq) • v.g = a • (cp - yp • v.g) + b • (cq - yq • v.g) := by module
  rw [this]
  simp only [map_add, map_smul, LinearMap.add_apply, LinearMap.smul_apply, hp, hq]

/-- C122: for a sound key and a point that is not the trapdoor the opening is determined by commitment and value, so the
honest opening is the only one that is accepted. -/
theorem C122_kzg_unique (hE : E.Lawful e) (g : G1) (h : G2) (gb : G1) (α z y : F) (hz : z ≠ α)
    (hnd : ∀ x, e x h = 0 → x = 0) (com π π' : G1) (h1 : verify E ⟨g, h, gb, α • h⟩ com z y π = .ok true)
    (h2 : verify E ⟨g, h, gb, α • h⟩ com z y π' = .ok true) : π = π' := by
  rw [C38_verdict hE g h gb α z y com _ hnd] at h1 h2
  have := h1.symm.trans h2
  exact smul_right_injective _ (sub_ne_zero.mpr hz.symm) this

end Kzg

section
variable {F G1 G2 GT : Type} [Field F] [DecidableEq F] [AddCommGroup G1] [Module F G1] [AddCommGroup G2] [Module F G2]
  [AddCommGroup GT] [Module F GT]

theorem dot_combine_left (e : G1 →ₗ[F] G2 →ₗ[F] GT) (a b : F) : ∀ (xs ys : List G1) (ks : List G2),
    xs.length = ys.length → dot (e · ·) (List.zipWith (fun x y => a • x + b • y) xs ys) ks =
      a • dot (e · ·) xs ks + b • dot (e · ·) ys ks
  | [], [], ks, _ => by cases ks <;> simp [dot]
  | x :: xs, y :: ys, [], _ => by simp [dot]
  | x :: xs, y :: ys, k :: ks, h => by
    simp only [List.zipWith_cons_cons, dot_cons]
    rw [dot_combine_left e a b xs ys ks (by simpa using h)]
    simp only [map_add, map_smul, LinearMap.add_apply, LinearMap.smul_apply]
    module
  | [], y :: ys, _, h => by simp at h
  | x :: xs, [], _, h => by simp at h

theorem rowSums_combine (key : List G1) (n : ℕ) {a b : F} {s p q : List F} (h : Combines a b s p q) :
    rowSums key n s = List.zipWith (fun x y => a • x + b • y) (rowSums key n p) (rowSums key n q) := by
  rw [rowSums, rowSums, rowSums]
  refine List.ext_getElem (by simp) fun i h1 h2 => ?_
  simp only [List.getElem_map, List.getElem_range, List.getElem_zipWith]
  exact dot_combine key a b _ _ _ _ fun j => h _

end

section
variable {ρ F G1 G2 GT TF : Type} [Field F] [DecidableEq F] [AddCommGroup G1] [Module F G1]
  [AddCommGroup G2] [Module F G2] [AddCommGroup GT] [Module F GT] [Monoid TF]
  {e : G1 →ₗ[F] G2 →ₗ[F] GT}

namespace Univariate

/-- C122: commitments to univariate polynomials are linear, for every key, and so are the commitments to the rows that
are kept for the opening. -/
theorem C122_commit (V : Env ρ F G1 G2 GT TF) (hE : V.E.Lawful e) (srs : SRS G1 G2 × List G1) (a b : F)
    (s p q : List F) (h : Combines a b s p q) (cp cq : GT × List G1) (hp : commit V srs p = .ok cp)
    (hq : commit V srs q = .ok cq) :
    commit V srs s = .ok (a • cp.1 + b • cq.1, List.zipWith (fun x y => a • x + b • y) cp.2 cq.2) := by
  by_cases h0 : srs.1.hBetaPowers.length = 0 ∨ srs.2.length = 0
  · rw [commit, parseDegrees, if_pos h0] at hp
    cases hp
  push Not at h0
  have h1 : srs.1.hBetaPowers ≠ [] := fun h => h0.1 (by simp [h])
  have h2 : srs.2 ≠ [] := fun h => h0.2 (by simp [h])
  rw [C102_commit_value V hE srs h1 h2 _ _ rfl] at hp hq ⊢
  simp only [Except.ok.injEq] at hp hq
  subst hp hq
  rw [rowSums_combine _ _ h, dot_combine_left _ _ _ _ _ _ (by simp [rowSums])]

end Univariate

namespace TUnivariate

/-- C122: the same for the transparent scheme. -/
theorem C122_commit (V : Env ρ F G1 G2 GT TF) (hE : V.E.Lawful e) (ck : List G1 × List G2) (a b : F)
    (s p q : List F) (h : Combines a b s p q) (cp cq : GT × List G1) (hp : commit V ck p = .ok cp)
    (hq : commit V ck q = .ok cq) :
    commit V ck s = .ok (a • cp.1 + b • cq.1, List.zipWith (fun x y => a • x + b • y) cp.2 cq.2) := by
  by_cases h0 : ck.2.length = 0 ∨ ck.1.length = 0
  · rw [commit, parseDegrees, if_pos h0] at hp
    cases hp
  push Not at h0
  have h1 : ck.1 ≠ [] := fun h => h0.2 (by simp [h])
  have h2 : ck.2 ≠ [] := fun h => h0.1 (by simp [h])
  rw [C102_commit_value V hE ck h1 h2] at hp hq ⊢
  simp only [Except.ok.injEq] at hp hq
  subst hp hq
  rw [rowSums_combine _ _ h, dot_combine_left _ _ _ _ _ _ (by simp [rowSums])]

end TUnivariate

end

theorem resize_eq_map_getD {α : Type} (p : List α) (n : ℕ) (d : α) : resize p n d = (List.range n).map (p.getD · d) := by
  refine List.ext_getElem (by simp [resize_length]) fun i h1 h2 => ?_
  have hi : i < n := by simpa [resize_length] using h1
  simp only [resize, List.getElem_map, List.getElem_range, List.getElem_append, List.getElem_replicate]
  split
  · rename_i h
    have : i < p.length := by simp at h; omega
    simp [List.getD_eq_getElem?_getD, this]
  · rename_i h
    have : p.length ≤ i := by simp at h; omega
    simp [List.getD_eq_getElem?_getD, List.getElem?_eq_none this]

theorem mapM_ok_iff {α β : Type} (f : α → Res β) (Q : α → Prop) (v : α → β)
    (hf : ∀ a b, f a = .ok b ↔ Q a ∧ b = v a) : ∀ (l : List α) (bs : List β),
    l.mapM f = .ok bs ↔ (∀ a ∈ l, Q a) ∧ bs = l.map v
  | [], bs => by simp [pure, Except.pure, eq_comm]
  | a :: l, bs => by
    have ih := mapM_ok_iff f Q v hf l
    rw [List.mapM_cons]
    cases hb : f a with
    | error x =>
      refine iff_of_false (by intro h; cases h) ?_
      rintro ⟨h, -⟩
      have := (hf a (v a)).mpr ⟨h a (by simp), rfl⟩
      rw [hb] at this
      cases this
    | ok b =>
      obtain ⟨hQ, rfl⟩ := (hf a b).mp hb
      cases hl : l.mapM f with
      | error x =>
        refine iff_of_false (by intro h; cases h) ?_
        rintro ⟨h, -⟩
        have := (ih (l.map v)).mpr ⟨fun a ha => h a (by simp [ha]), rfl⟩
        rw [hl] at this
        cases this
      | ok cs =>
        obtain ⟨hQ', rfl⟩ := (ih cs).mp hl
        simp only [ok_bind, pure, Except.pure, Except.ok.injEq, List.map_cons]
        refine ⟨fun h => ⟨?_, h.symm⟩, fun h => h.2.symm⟩
        intro x hx
        rcases List.mem_cons.mp hx with rfl | hx
        · exact hQ
        · exact hQ' x hx

/-- `ss = a ps + b qs` for bivariate polynomials given by their rows. -/
def CombinesRows {F : Type} [Field F] (a b : F) (ss ps qs : List (List F)) : Prop :=
  ∀ i, Combines a b (ss.getD i []) (ps.getD i []) (qs.getD i [])

section
variable {ρ F G1 G2 GT TF : Type} [Field F] [DecidableEq F] [AddCommGroup G1] [Module F G1]
  [AddCommGroup G2] [Module F G2] [AddCommGroup GT] [Module F GT] [Monoid TF]
  {e : G1 →ₗ[F] G2 →ₗ[F] GT}

/-- The commitments to the rows. -/
def rowValues (key : List G1) (n : ℕ) (ps : List (List F)) : List G1 :=
  (List.range n).map fun i => Kzg.value key (ps.getD i [])

theorem rowValues_combine (key : List G1) (n : ℕ) {a b : F} {ss ps qs : List (List F)}
    (h : CombinesRows a b ss ps qs) : rowValues key n ss =
      List.zipWith (fun x y => a • x + b • y) (rowValues key n ps) (rowValues key n qs) := by
  rw [rowValues, rowValues, rowValues]
  refine List.ext_getElem (by simp) fun i h1 h2 => ?_
  simp only [List.getElem_map, List.getElem_range, List.getElem_zipWith]
  exact Kzg.value_combine key (h i)

namespace Bivariate

theorem commit_ok_iff (V : Env ρ F G1 G2 GT TF) (hE : V.E.Lawful e) (srs : SRS G1 G2 × List G1)
    (ps : List (List F)) (c : GT × List G1) :
    commit V srs ps = .ok c ↔ ps.length ≤ srs.1.commitmentKeys.1.length ∧
      (∀ i < srs.1.commitmentKeys.1.length, Kzg.Fits srs.2 (ps.getD i [])) ∧
      c = (dot (e · ·) (rowValues srs.2 srs.1.commitmentKeys.1.length ps) srs.1.commitmentKeys.1,
        rowValues srs.2 srs.1.commitmentKeys.1.length ps) := by
  rw [commit]
  by_cases hl : ps.length ≤ srs.1.commitmentKeys.1.length
  · simp only [hl, decide_true, assert_true, ok_bind, true_and]
    have hmap := mapM_ok_iff (Kzg.commit srs.2) (Kzg.Fits srs.2) (Kzg.value srs.2) (Kzg.commit_ok_iff srs.2)
      (resize ps srs.1.commitmentKeys.1.length [])
    rw [resize_eq_map_getD] at hmap ⊢
    rw [List.map_map] at hmap
    cases hc : ((List.range srs.1.commitmentKeys.1.length).map (ps.getD · [])).mapM (Kzg.commit srs.2) with
    | error x =>
      refine iff_of_false (by intro h; cases h) ?_
      rintro ⟨h, -⟩
      have := (hmap _).mpr ⟨?_, rfl⟩
      · rw [hc] at this
        cases this
      · intro p hp
        obtain ⟨i, hi, rfl⟩ := List.mem_map.mp hp
        exact h i (List.mem_range.mp hi)
    | ok coms =>
      obtain ⟨hfit, rfl⟩ := (hmap _).mp hc
      simp only [ok_bind]
      have : (afghoG1 V.E V.X V.randG2).commit srs.1.commitmentKeys.1
          ((List.range srs.1.commitmentKeys.1.length).map (Kzg.value srs.2 ∘ (ps.getD · []))) =
          .ok (dot (e · ·) (rowValues srs.2 srs.1.commitmentKeys.1.length ps) srs.1.commitmentKeys.1) :=
        pairingIP_eq hE V.X _ _ (by simp)
      rw [this]
      simp only [ok_bind, pure, Except.pure, Except.ok.injEq]
      exact ⟨fun h => ⟨fun i hi => hfit _ (List.mem_map.mpr ⟨i, List.mem_range.mpr hi, rfl⟩), h.symm⟩, fun h => h.2.symm⟩
  · simp only [hl, decide_false, assert_false]
    refine iff_of_false (by intro h; cases h) ?_
    rintro ⟨h, -⟩
    exact h

/-- C122: commitments to bivariate polynomials are linear, for every key. -/
theorem C122_commit (V : Env ρ F G1 G2 GT TF) (hE : V.E.Lawful e) (srs : SRS G1 G2 × List G1) (a b : F)
    (ss ps qs : List (List F)) (h : CombinesRows a b ss ps qs) (hl : ss.length ≤ srs.1.commitmentKeys.1.length)
    (hs : ∀ s ∈ ss, s.getLast? ≠ some 0) (cp cq : GT × List G1) (hp : commit V srs ps = .ok cp)
    (hq : commit V srs qs = .ok cq) :
    commit V srs ss = .ok (a • cp.1 + b • cq.1, List.zipWith (fun x y => a • x + b • y) cp.2 cq.2) := by
  rw [commit_ok_iff V hE] at hp hq ⊢
  obtain ⟨-, fp, rfl⟩ := hp
  obtain ⟨-, fq, rfl⟩ := hq
  refine ⟨hl, fun i hi => (fp i hi).combine (fq i hi) (h i) ?_, ?_⟩
  · rw [List.getD_eq_getElem?_getD]
    cases hi' : ss[i]? with
    | none => simp
    | some s => exact hs s (List.mem_of_getElem? hi')
  · rw [rowValues_combine _ _ h, dot_combine_left _ _ _ _ _ _ (by simp [rowValues])]

end Bivariate

namespace TBivariate

theorem commit_ok_iff (V : Env ρ F G1 G2 GT TF) (hE : V.E.Lawful e) (ck : List G1 × List G2)
    (ps : List (List F)) (c : GT × List G1) :
    commit V ck ps = .ok c ↔ ps.length ≤ ck.2.length ∧ (∀ i < ck.2.length, (ps.getD i []).length ≤ ck.1.length) ∧
      c = (dot (e · ·) (rowValues ck.1 ck.2.length ps) ck.2, rowValues ck.1 ck.2.length ps) := by
  rw [commit]
  by_cases hl : ps.length ≤ ck.2.length
  · simp only [hl, decide_true, assert_true, ok_bind, true_and]
    have hmap := mapM_ok_iff (fun p => do
        assert (decide (p.length ≤ ck.1.length))
        (pedersen V.randG1).commit ck.1 (resize p ck.1.length 0))
      (fun p : List F => p.length ≤ ck.1.length) (Kzg.value ck.1) (by
        intro p c
        by_cases hp : p.length ≤ ck.1.length
        · simp only [hp, decide_true, assert_true, ok_bind, true_and]
          have : (pedersen (F := F) V.randG1).commit ck.1 (resize p ck.1.length 0) = .ok (Kzg.value ck.1 p) := by
            rw [Kzg.value, ← resize_eq_map, ← dot_swap]
            exact multiexpIP_eq _ _ (by rw [resize_length])
          rw [this, Except.ok.injEq, eq_comm]
        · simp only [hp, decide_false, assert_false, false_and, iff_false]
          intro h
          cases h)
      (resize ps ck.2.length [])
    rw [resize_eq_map_getD ps] at hmap ⊢
    rw [List.map_map] at hmap
    cases hc : ((List.range ck.2.length).map (ps.getD · [])).mapM (fun p => do
        assert (decide (p.length ≤ ck.1.length))
        (pedersen V.randG1).commit ck.1 (resize p ck.1.length 0)) with
    | error x =>
      refine iff_of_false (by intro h; cases h) ?_
      rintro ⟨h, -⟩
      have := (hmap _).mpr ⟨?_, rfl⟩
      · rw [hc] at this
        cases this
      · intro p hp
        obtain ⟨i, hi, rfl⟩ := List.mem_map.mp hp
        exact h i (List.mem_range.mp hi)
    | ok coms =>
      obtain ⟨hfit, rfl⟩ := (hmap _).mp hc
      simp only [ok_bind]
      have : (afghoG1 V.E V.X V.randG2).commit ck.2
          ((List.range ck.2.length).map (Kzg.value ck.1 ∘ (ps.getD · []))) =
          .ok (dot (e · ·) (rowValues ck.1 ck.2.length ps) ck.2) :=
        pairingIP_eq hE V.X _ _ (by simp)
      rw [this]
      simp only [ok_bind, pure, Except.pure, Except.ok.injEq]
      exact ⟨fun h => ⟨fun i hi => hfit _ (List.mem_map.mpr ⟨i, List.mem_range.mpr hi, rfl⟩), h.symm⟩, fun h => h.2.symm⟩
  · simp only [hl, decide_false, assert_false]
    refine iff_of_false (by intro h; cases h) ?_
    rintro ⟨h, -⟩
    exact h

/-- C122: the same for the transparent scheme, where the coefficient lists must fit as they are. -/
theorem C122_commit (V : Env ρ F G1 G2 GT TF) (hE : V.E.Lawful e) (ck : List G1 × List G2) (a b : F)
    (ss ps qs : List (List F)) (h : CombinesRows a b ss ps qs) (hl : ss.length ≤ ck.2.length)
    (hs : ∀ s ∈ ss, s.length ≤ ck.1.length) (cp cq : GT × List G1) (hp : commit V ck ps = .ok cp)
    (hq : commit V ck qs = .ok cq) :
    commit V ck ss = .ok (a • cp.1 + b • cq.1, List.zipWith (fun x y => a • x + b • y) cp.2 cq.2) := by
  rw [commit_ok_iff V hE] at hp hq ⊢
  obtain ⟨-, -, rfl⟩ := hp
  obtain ⟨-, -, rfl⟩ := hq
  refine ⟨hl, fun i hi => ?_, ?_⟩
  · rw [List.getD_eq_getElem?_getD]
    cases hi' : ss[i]? with
    | none => simp
    | some s => exact hs s (List.mem_of_getElem? hi')
  · rw [rowValues_combine _ _ h, dot_combine_left _ _ _ _ _ _ (by simp [rowValues])]

end TBivariate

end

/-! ## Examples -/

/-- `2 (1 + 2 X) + (4 + 6 X²)`. -/
theorem combines_example : Combines (2 : Toy.F) 1 [6, 4, 6] [1, 2] [4, 0, 6] := by
  intro i
  match i with
  | 0 => decide
  | 1 => decide
  | 2 => decide
  | i + 3 => simp

/-- The commitments to `1 + 2 X` and `4 + 6 X²` under the key `3, 5, 7` are 13 and 54; the one to the combination is
`2 · 13 + 54`. -/
example : Kzg.commit ([3, 5, 7] : List Toy.F) ([6, 4, 6] : List Toy.F) = .ok (2 * 13 + 54) := by
  have := Kzg.C122_kzg_commit ([3, 5, 7] : List Toy.F) 2 1 [6, 4, 6] [1, 2] [4, 0, 6] combines_example (by decide)
    13 54 (by decide +kernel) (by decide +kernel)
  rw [this]
  decide

/-- Cancellation: `(1 + X²) - X²` is the constant 1, and its opening at 5 is the difference of the openings. -/
example : Kzg.open_ ([3, 5, 7] : List Toy.F) ([1] : List Toy.F) 5 = .ok ((1 : Toy.F) • 20 + (-1 : Toy.F) • 20) :=
  Kzg.C122_kzg_open ([3, 5, 7] : List Toy.F) 1 (-1) 5 [1] [1, 0, 1] [0, 0, 1]
    (by
      intro i
      match i with
      | 0 => decide
      | 1 => decide
      | 2 => decide
      | i + 3 => simp)
    (by decide) 20 20 (by decide +kernel) (by decide +kernel)

/-- The combination is not in normal form: both polynomials have commitments, their difference written with a leading
zero has none. -/
example : Kzg.commit ([3, 5, 7] : List Toy.F) ([1, 0, 0] : List Toy.F) = .error (.panic .assertion) := by
  decide +kernel

/-- With the trapdoor 3 and generators 1: `1 + 2 X` and `4 + 6 X²` have the commitments 7 and 58, at 5 the values 11 and
154 = 53 and the openings 2 and 48. -/
example : Kzg.verify Toy.E ⟨1, 1, 0, (3 : Toy.F) • (1 : Toy.F)⟩ ((2 : Toy.F) • 7 + (1 : Toy.F) • 58) (5 : Toy.F) (2 * 11 + 1 * 53)
    ((2 : Toy.F) • 2 + (1 : Toy.F) • 48) = .ok true :=
  Kzg.C122_kzg_verify Toy.lawful ⟨1, 1, 0, (3 : Toy.F) • (1 : Toy.F)⟩ 2 1 5 11 53 7 58 2 48 (by decide +kernel) (by decide +kernel)

/-- No opening but 48 is accepted for the second one. -/
example (π : Toy.F) (h : Kzg.verify Toy.E ⟨1, 1, 0, (3 : Toy.F) • (1 : Toy.F)⟩ (58 : Toy.F) (5 : Toy.F) 53 π = .ok true) : π = 48 :=
  Kzg.C122_kzg_unique Toy.lawful 1 1 0 3 5 53 (by decide) (by decide) 58 π 48 h
    (by decide +kernel)

/-- The commitments to `1 + 2 X` and `4 + 6 X²` under the keys of the example for C102. -/
example : Univariate.commit Toy.env (⟨[], [7, 0, 2, 9], 0, 0⟩, [3, 5]) ([6, 4, 6] : List Toy.F) =
    .ok ((2 : Toy.F) • 91 + (1 : Toy.F) • 120, [2 * 13 + 12, 2 * 0 + 18]) :=
  Univariate.C122_commit Toy.env Toy.lawful (⟨[], [7, 0, 2, 9], 0, 0⟩, [3, 5]) 2 1 _ _ _ combines_example
    (91, [13, 0]) (120, [12, 18]) (by decide +kernel) (by decide +kernel)

/-- The same keys in the transparent scheme. -/
example : TUnivariate.commit Toy.env ([3, 5], [7, 2]) ([6, 4, 6] : List Toy.F) =
    .ok ((2 : Toy.F) • 91 + (1 : Toy.F) • 120, [2 * 13 + 12, 2 * 0 + 18]) :=
  TUnivariate.C122_commit Toy.env Toy.lawful ([3, 5], [7, 2]) 2 1 _ _ _ combines_example
    (91, [13, 0]) (120, [12, 18]) (by decide +kernel) (by decide +kernel)

/-- Bivariate polynomials with one and with two rows. -/
theorem combinesRows_example : CombinesRows (2 : Toy.F) 1 [[6, 4, 6], [3]] [[1, 2]] [[4, 0, 6], [3]] := by
  intro i
  match i with
  | 0 => exact combines_example
  | 1 =>
    intro j
    match j with
    | 0 => decide
    | j + 1 => simp
  | i + 2 =>
    intro j
    simp

example : Bivariate.commit Toy.env (⟨[], [7, 0, 2, 9], 0, 0⟩, [3, 5, 7]) ([[6, 4, 6], [3]] : List (List Toy.F)) =
    .ok ((2 : Toy.F) • 91 + (1 : Toy.F) • 396, [2 * 13 + 54, 2 * 0 + 9]) :=
  Bivariate.C122_commit Toy.env Toy.lawful (⟨[], [7, 0, 2, 9], 0, 0⟩, [3, 5, 7]) 2 1 _ _ _ combinesRows_example
    (by decide) (by decide) (91, [13, 0]) (396, [54, 9]) (by decide +kernel) (by decide +kernel)

example : TBivariate.commit Toy.env ([3, 5, 7], [7, 2]) ([[6, 4, 6], [3]] : List (List Toy.F)) =
    .ok ((2 : Toy.F) • 91 + (1 : Toy.F) • 396, [2 * 13 + 54, 2 * 0 + 9]) :=
  TBivariate.C122_commit Toy.env Toy.lawful ([3, 5, 7], [7, 2]) 2 1 _ _ _ combinesRows_example
    (by decide) (by decide) (91, [13, 0]) (396, [54, 9]) (by decide +kernel) (by decide +kernel)

end Ripp
