import Verif.Props.Transparent

/-!
# C77: polynomials that are too large for the reference string

Property statements are in `properties.jsonl`.
-/

set_option linter.unusedSectionVars false

namespace Ripp

open Spec

variable {ρ F G1 G2 GT TF : Type} [Field F] [DecidableEq F] [AddCommGroup G1] [Module F G1]
  [AddCommGroup G2] [Module F G2] [AddCommGroup GT] [Module F GT] [Monoid TF]
  {e : G1 →ₗ[F] G2 →ₗ[F] GT}

theorem mapM_error {α β : Type} (f : α → Res β) (E : Fault) : ∀ l : List α,
    (∀ a ∈ l, (∃ b, f a = .ok b) ∨ f a = .error E) → (∃ a ∈ l, f a = .error E) →
    l.mapM f = .error E
  | [], _, h => by simp at h
  | a :: l, h, h' => by
    rw [List.mapM_cons]
    rcases h a (by simp) with ⟨b, hb⟩ | hb
    · obtain ⟨c, hc, hc'⟩ := h'
      rcases List.mem_cons.mp hc with rfl | hc
      · rw [hc'] at hb; exact absurd hb (by simp)
      · rw [hb, mapM_error f E l (fun a ha => h a (by simp [ha])) ⟨c, hc, hc'⟩]; rfl
    · rw [hb]; rfl

theorem mem_resize {α : Type} {l : List α} {n : ℕ} {d a : α} (h : a ∈ resize l n d) :
    a ∈ l ∨ a = d := by
  rw [resize, List.mem_append] at h
  rcases h with h | h
  · exact Or.inl (List.mem_of_mem_take h)
  · exact Or.inr (List.eq_of_mem_replicate h)

theorem mem_resize_of_le {α : Type} {l : List α} {n : ℕ} {d a : α} (hn : l.length ≤ n) (h : a ∈ l) :
    a ∈ resize l n d := by
  rw [resize, List.mem_append, List.take_of_length_le hn]
  exact Or.inl h

theorem yEvalCoeffs_take (ps : List (List F)) (pw : List F) (n m : ℕ) :
    yEvalCoeffs (ps.map (·.take m)) pw n m = yEvalCoeffs ps pw n m := by
  have : (resize (ps.map (·.take m)) n []).map (fun p => resize p m 0) =
      (resize ps n []).map fun p => resize p m 0 := by
    simp only [resize, ← List.map_take, List.map_append, List.map_map, List.length_map,
      List.map_replicate]
    congr 1
    apply List.map_congr_left
    intro p _
    exact resize_take p m
  simp only [yEvalCoeffs, this]

namespace Kzg

theorem commit_too_long (pw : List G1) (p : List F) (hp : p.getLast? ≠ some 0)
    (h : pw.length < p.length) : commit pw p = .error (.panic .assertion) := by
  have h0 : ¬ p.all (fun a => decide (a = 0)) = true := by
    intro hall
    rcases hl : p.getLast? with _ | a
    · rw [List.getLast?_eq_none_iff] at hl; rw [hl] at h; simp at h
    · have := List.all_eq_true.mp hall a (List.mem_of_getLast? hl)
      simp only [decide_eq_true_eq] at this
      rw [hl, this] at hp; exact hp rfl
  rw [commit, polyDegree, if_neg h0, if_neg hp]
  simp only [ok_bind]
  rw [decide_eq_false (by omega)]; rfl

end Kzg

namespace Bivariate

/-- C77: `commit` panics if the polynomial has more than `x + 1` rows or a row of more than `y + 1`
coefficients, and it succeeds otherwise. -/
theorem C77_commit (V : Env ρ F G1 G2 GT TF) (hE : V.E.Lawful e) (srs : SRS G1 G2 × List G1)
    (g : G1) (h : G2) (α β : F) (x y : ℕ) (hs : IsSrs srs g h α β x y) (ps : List (List F))
    (hnorm : ∀ p ∈ ps, p.getLast? ≠ some 0) :
    (ps.length ≤ x + 1 ∧ (∀ p ∈ ps, p.length ≤ y + 1) → ∃ r, commit V srs ps = .ok r) ∧
    (¬ (ps.length ≤ x + 1 ∧ ∀ p ∈ ps, p.length ≤ y + 1) →
      commit V srs ps = .error (.panic .assertion)) := by
  constructor
  · rintro ⟨h1, h2⟩
    exact ⟨_, commit_eq V hE srs g h α β x y hs ps h1 fun p hp => ⟨hnorm p hp, h2 p hp⟩⟩
  · intro hn
    have hk := length_keys hs
    have hl : srs.2.length = y + 1 := by rw [hs.kzg]; simp
    by_cases h1 : ps.length ≤ x + 1
    · have h2 : ∃ p ∈ ps, y + 1 < p.length := by
        by_contra h2
        push Not at h2
        exact hn ⟨h1, h2⟩
      obtain ⟨p, hp, hp'⟩ := h2
      rw [commit]
      simp only [hk, decide_eq_true h1, assert_true, ok_bind]
      rw [mapM_error _ (.panic .assertion)]
      · rfl
      · intro q hq
        have hq0 : q.getLast? ≠ some 0 := by
          rcases mem_resize hq with hq | rfl
          · exact hnorm q hq
          · simp
        by_cases hql : q.length ≤ y + 1
        · rw [kzg_powers hs]
          exact Or.inl ⟨_, Kzg.commit_eq g α _ q hq0 (by omega) hql⟩
        · exact Or.inr (Kzg.commit_too_long _ _ hq0 (by omega))
      · exact ⟨p, mem_resize_of_le h1 hp, Kzg.commit_too_long _ _ (hnorm p hp) (by omega)⟩
    · rw [commit]
      simp only [hk, decide_eq_false h1]
      rfl

/-- C77: `open` panics if the polynomial has more than `x + 1` rows. -/
theorem C77_open_rows (V : Env ρ F G1 G2 GT TF) (srs : SRS G1 G2 × List G1)
    (g : G1) (h : G2) (α β : F) (x y : ℕ) (hs : IsSrs srs g h α β x y) (ps : List (List F))
    (hps : x + 1 < ps.length) (coms : List G1) (point : F × F) :
    open_ V srs ps coms point = .error (.panic .assertion) := by
  have hk := length_keys hs
  rw [open_]
  simp only [hk, decide_eq_false (show ¬ ps.length ≤ x + 1 by omega)]
  rfl

/-- C77: unlike `commit`, `open` accepts rows that are too long.  It ignores the coefficients beyond
`y + 1`. -/
theorem C77_open_truncates (V : Env ρ F G1 G2 GT TF) (srs : SRS G1 G2 × List G1)
    (g : G1) (h : G2) (α β : F) (x y : ℕ) (hs : IsSrs srs g h α β x y) (ps : List (List F))
    (coms : List G1) (point : F × F) :
    open_ V srs ps coms point = open_ V srs (ps.map (·.take (y + 1))) coms point := by
  have hl : srs.2.length = y + 1 := by rw [hs.kzg]; simp
  rw [open_, open_]
  simp only [hl, List.length_map, yEvalCoeffs_take]

end Bivariate

namespace TBivariate

/-- C77: `commit` of the transparent scheme. -/
theorem C77_commit (V : Env ρ F G1 G2 GT TF) (hE : V.E.Lawful e) (ck : List G1 × List G2)
    (ps : List (List F)) :
    (ps.length ≤ ck.2.length ∧ (∀ p ∈ ps, p.length ≤ ck.1.length) → ∃ r, commit V ck ps = .ok r) ∧
    (¬ (ps.length ≤ ck.2.length ∧ ∀ p ∈ ps, p.length ≤ ck.1.length) →
      commit V ck ps = .error (.panic .assertion)) := by
  constructor
  · rintro ⟨h1, h2⟩
    exact ⟨_, commit_eq V hE ck ps h1 h2⟩
  · intro hn
    by_cases h1 : ps.length ≤ ck.2.length
    · have h2 : ∃ p ∈ ps, ck.1.length < p.length := by
        by_contra h2
        push Not at h2
        exact hn ⟨h1, h2⟩
      obtain ⟨p, hp, hp'⟩ := h2
      have hbad : ∀ q : List F, ¬ q.length ≤ ck.1.length →
          (do assert (decide (q.length ≤ ck.1.length))
              (pedersen V.randG1).commit ck.1 (resize q ck.1.length 0) : Res G1) =
            .error (.panic .assertion) := fun q hq => by rw [decide_eq_false hq]; rfl
      rw [commit]
      simp only [decide_eq_true h1, assert_true, ok_bind]
      rw [mapM_error _ (.panic .assertion)]
      · rfl
      · intro q hq
        by_cases hql : q.length ≤ ck.1.length
        · left
          rw [decide_eq_true hql]
          simp only [assert_true, ok_bind]
          exact ⟨_, multiexpIP_eq ck.1 (resize q ck.1.length 0) (by rw [resize_length])⟩
        · exact Or.inr (hbad q hql)
      · exact ⟨p, mem_resize_of_le h1 hp, hbad p (by omega)⟩
    · rw [commit]
      simp only [decide_eq_false h1]
      rfl

/-- C77: `open` of the transparent scheme panics if there are too many rows. -/
theorem C77_open_rows (V : Env ρ F G1 G2 GT TF) (ck : List G1 × List G2) (ps : List (List F))
    (hps : ck.2.length < ps.length) (coms : List G1) (point : F × F) :
    open_ V ck ps coms point = .error (.panic .assertion) := by
  rw [open_]
  simp only [decide_eq_false (show ¬ ps.length ≤ ck.2.length by omega)]
  rfl

/-- C77: `open` of the transparent scheme ignores the coefficients beyond the key. -/
theorem C77_open_truncates (V : Env ρ F G1 G2 GT TF) (ck : List G1 × List G2) (ps : List (List F))
    (coms : List G1) (point : F × F) :
    open_ V ck ps coms point = open_ V ck (ps.map (·.take ck.1.length)) coms point := by
  rw [open_, open_]
  simp only [List.length_map, yEvalCoeffs_take]

end TBivariate

/-! ## Examples -/

/-- Over a reference string for 4 rows of 2 coefficients, `commit` panics on a row of 3 coefficients and
on 5 rows, and `open` returns the same for a row of 3 coefficients as for its first two. -/
example : ∃ srs s', Bivariate.setup Toy.env 11 3 1 = .ok (srs, s') ∧
    Bivariate.commit Toy.env srs ([[1, 2], [3, 0, 5]] : List (List Toy.F)) = .error (.panic .assertion) ∧
    Bivariate.commit Toy.env srs ([[1], [2], [3], [4], [5]] : List (List Toy.F)) =
      .error (.panic .assertion) ∧
    ∀ coms point, Bivariate.open_ Toy.env srs ([[1, 2], [3, 0, 5]] : List (List Toy.F)) coms point =
      Bivariate.open_ Toy.env srs ([[1, 2], [3, 0]] : List (List Toy.F)) coms point := by
  obtain ⟨srs, α, β, s', h1, h2⟩ := Bivariate.C41_setup Toy.env 11 3 1
  exact ⟨srs, s', h1,
    (Bivariate.C77_commit Toy.env Toy.lawful srs _ _ α β 3 1 h2 _ (by decide)).2 (by decide),
    (Bivariate.C77_commit Toy.env Toy.lawful srs _ _ α β 3 1 h2 _ (by decide)).2 (by decide),
    fun coms point => Bivariate.C77_open_truncates Toy.env srs _ _ α β 3 1 h2 _ coms point⟩

end Ripp
