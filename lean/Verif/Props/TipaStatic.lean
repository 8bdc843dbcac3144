import Mathlib.Algebra.Polynomial.OfFn
import Verif.Props.Challenge
import Verif.Props.GipaStatic
import Verif.Props.KeySoundness

/-!
# C92: TIPA in the random oracle model, for a statement fixed before the oracle and algebraic provers

The final keys are not folded by the verifier but opened at a point that is hashed from them. The prover
knows the final keys it hashes as combinations of the reference string.
-/

set_option linter.unusedSectionVars false
set_option linter.unusedVariables false

namespace Ripp.Oracle

variable {X D κ Z Y : Type} (enc : Z → κ → X) (key : D → κ)

theorem queries_append (H : X → D) : ∀ (zs : List Z) (z : Z) (k : κ),
    queries enc key H k (zs ++ [z]) = queries enc key H k zs ++
      [enc z (((queries enc key H k zs).map fun x => key (H x)).getLast?.getD k)]
  | [], z, k => rfl
  | y :: zs, z, k => by
    rw [List.cons_append, queries, queries, queries_append H zs z]
    simp only [List.cons_append, List.map_cons]
    congr 4
    cases h : (queries enc key H (key (H (enc y k))) zs).map fun x => key (H x) with
    | nil => rfl
    | cons a l => rw [List.getLast?_cons_cons]; simp [List.getLast?_cons]

theorem queries_map (H : X → D) (f : Y → Z) : ∀ (ys : List Y) (k : κ),
    queries enc key H k (ys.map f) = queries (fun y => enc (f y)) key H k ys
  | [], _ => rfl
  | y :: ys, k => by rw [List.map_cons, queries, queries, queries_map H f ys]

end Ripp.Oracle

namespace Ripp.TipaStatic

open Spec Extract GipaStatic Polynomial

variable {ρ F MA MB T KT OA OB OT RT O G1 G2 GT TF : Type} [Field F] [DecidableEq F]
  [AddCommGroup MA] [Module F MA] [AddCommGroup MB] [Module F MB] [AddCommGroup T] [Module F T]
  [AddCommGroup G1] [Module F G1] [AddCommGroup G2] [Module F G2]
  [AddCommGroup GT] [Module F GT] [Monoid TF] [DecidableEq GT]
  [AddCommGroup OA] [Module F OA] [AddCommGroup OB] [Module F OB] [Add OT] [SMul F OT]
  [AddCommGroup O] [Module F O]
  [DecidableEq T] [DecidableEq OA] [DecidableEq OB] [DecidableEq OT] {n : ℕ}

/-- Coefficients of the powers in the reference string and of the other trapdoor. -/
abbrev Comb (n : ℕ) (F : Type) := (Fin (2 * n - 1) → F) × F

/-- The coefficients of the powers as a polynomial. -/
noncomputable def poly (q : Comb n F) : F[X] := Polynomial.ofFn (2 * n - 1) q.1

/-- An element of `G2` made from the reference string. -/
def left (srs : SRS G1 G2) (q : Comb n F) : G2 :=
  (∑ i, q.1 i • srs.hBetaPowers.getD i 0) + q.2 • srs.hAlpha

/-- An element of `G1` made from the reference string. -/
def right (srs : SRS G1 G2) (q : Comb n F) : G1 :=
  (∑ i, q.1 i • srs.gAlphaPowers.getD i 0) + q.2 • srs.gBeta

theorem eval_poly (q : Comb n F) (x : F) : (poly q).eval x = ∑ i, q.1 i * x ^ (i : ℕ) := by
  rw [poly, Polynomial.ofFn_eq_sum_monomial, Polynomial.eval_finsetSum]
  simp

theorem natDegree_poly (hn : 1 ≤ n) (q : Comb n F) : (poly q).natDegree ≤ 2 * n - 2 := by
  have := Polynomial.ofFn_natDegree_lt (show 1 ≤ 2 * n - 1 by omega) q.1
  rw [poly]; omega

theorem left_eq {srs : SRS G1 G2} {g : G1} {h : G2} {α β : F} (hsrs : IsSrs srs g h α β n)
    (q : Comb n F) : left srs q = (poly q).eval β • h + q.2 • α • h := by
  rw [left, eval_poly, hsrs.hBeta, hsrs.hAlpha, Finset.sum_smul]
  congr 1
  refine Finset.sum_congr rfl fun i _ => ?_
  simp [mul_smul]

theorem right_eq {srs : SRS G1 G2} {g : G1} {h : G2} {α β : F} (hsrs : IsSrs srs g h α β n)
    (q : Comb n F) : right srs q = (poly q).eval α • g + q.2 • β • g := by
  rw [right, eval_poly, hsrs.gAlpha, hsrs.gBeta, Finset.sum_smul]
  congr 1
  refine Finset.sum_congr rfl fun i _ => ?_
  simp [mul_smul]

/-- The left commitment key, scaled by the shift. -/
def leftKey (srs : SRS G1 G2) (r : F) (n : ℕ) : Fin n → G2 := fun i =>
  r⁻¹ ^ (i : ℕ) • srs.hBetaPowers.getD (2 * i) 0

/-- The right commitment key. -/
def rightKey (srs : SRS G1 G2) (n : ℕ) : Fin n → G1 := fun i => srs.gAlphaPowers.getD (2 * i) 0

theorem ofFn_leftKey {srs : SRS G1 G2} {g : G1} {h : G2} {α β : F} (hn : 1 ≤ n)
    (hsrs : IsSrs srs g h α β n) (r : F) :
    List.ofFn (leftKey srs r n) = srs.commitmentKeys.1.mapIdx fun i ck => r⁻¹ ^ i • ck := by
  obtain ⟨e1, -, -⟩ := C25_keys srs g h α β _ hn hsrs
  rw [e1]
  apply List.ext_getElem
  · simp
  · intro i h1 h2
    have hi : i < n := by simpa using h1
    have : 2 * i < 2 * n - 1 := by omega
    simp [leftKey, hsrs.hBeta, this]

theorem ofFn_rightKey {srs : SRS G1 G2} {g : G1} {h : G2} {α β : F} (hn : 1 ≤ n)
    (hsrs : IsSrs srs g h α β n) :
    List.ofFn (rightKey srs n) = srs.commitmentKeys.2 := by
  obtain ⟨-, e2, -⟩ := C25_keys srs g h α β _ hn hsrs
  rw [e2]
  apply List.ext_getElem
  · simp
  · intro i h1 h2
    have hi : i < n := by simpa using h1
    have : 2 * i < 2 * n - 1 := by omega
    simp [rightKey, hsrs.gAlpha, this]

/-- A prover with oracle access as in `GipaStatic`. In addition it says with each query which combinations
the final keys it hashes are, and at the end outputs final keys and their openings as combinations. -/
structure Prover (n : ℕ) (F MA MB RT : Type) (Xs Ds : Finset Bytes) extends
    GipaStatic.Prover n MA MB RT Xs Ds where
  keys : List Ds → Comb n F × Comb n F
  final : List Ds → Comb n F × Comb n F
  opening : List Ds → Comb n F × Comb n F

variable (V : TipaEnv F G1 G2 GT TF) (P : Gipa ρ F MA MB T G2 G1 KT OA OB OT)
  (φa : MA →ₗ[F] G2 →ₗ[F] OA) (φb : MB →ₗ[F] G1 →ₗ[F] OB) (τ : RT → OT) (srs : SRS G1 G2)
  (r : F) {Xs Ds : Finset Bytes}

/-- The hash input for the opening point: nonce, challenge of the last round, final keys. -/
def pointInput (t : ℕ) (x : F) (ka : G2) (kb : G1) : Bytes :=
  nonceBytes t ++ P.serF x ++ V.serG2 ka ++ V.serG1 kb

variable (hmem : ∀ k z1 z2, P.hashInput 0 k (coms φa φb τ (leftKey srs r n) (rightKey srs n) z1)
    (coms φa φb τ (leftKey srs r n) (rightKey srs n) z2) ∈ Xs)
  (hpt : ∀ t x ka kb, t < 2 ^ 64 → pointInput V P t x ka kb ∈ Xs)

/-- The whole proof. -/
def Prover.tipaProof (A : Prover n F MA MB RT Xs Ds) (Q : ℕ) (H : Xs → Ds) :
    TipaProof G1 G2 MA MB OA OB OT where
  gipa := A.toProver.proof φa φb τ (leftKey srs r n) (rightKey srs n) Q H
  finalCk := (left srs (A.final (Oracle.trace A.query H Q)).1,
    right srs (A.final (Oracle.trace A.query H Q)).2)
  finalCkProof := (left srs (A.opening (Oracle.trace A.query H Q)).1,
    right srs (A.opening (Oracle.trace A.query H Q)).2)

/-! ## The chain that ends with the opening point -/

/-- Links: the commitments of a round, or the final keys. -/
abbrev Link (n : ℕ) (F MA MB RT : Type) :=
  (Known n MA MB RT × Known n MA MB RT) ⊕ (Comb n F × Comb n F)

/-- The hash input of a link. -/
def enc (t : ℕ) (ht : t < 2 ^ 64) : Link n F MA MB RT → F → Xs
  | .inl z, x => link P φa φb τ (leftKey srs r n) (rightKey srs n) hmem z x
  | .inr q, x => ⟨pointInput V P t x (left srs q.1) (right srs q.2), hpt _ _ _ _ ht⟩

/-- The output chain. -/
def Prover.out (A : Prover n F MA MB RT Xs Ds) (ds : List Ds) : List (Link n F MA MB RT) :=
  (A.steps ds).map Sum.inl ++ [Sum.inr (A.final ds)]

open Classical in
/-- The label of a query. -/
noncomputable def Prover.lab (A : Prover n F MA MB RT Xs Ds) (ds : List Ds) : Link n F MA MB RT :=
  if ∃ t < 2 ^ 64, ∃ x ka kb, (A.query ds : Bytes) = pointInput V P t x ka kb then .inr (A.keys ds)
  else .inl (A.label ds)

/-- The queries and labels of prover and verifier. -/
noncomputable def Prover.first (A : Prover n F MA MB RT Xs Ds) (Q k t : ℕ) (ht : t < 2 ^ 64)
    (H : Xs → Ds) : Xs → Link n F MA MB RT :=
  Oracle.firstLabel (Oracle.withCheck A.query Q A.out (enc V P φa φb τ srs r hmem hpt t ht) (challengeOf F) 0)
    (Oracle.withLabels Q A.out (A.lab V P)) H (Q + (k + 1))

/-- The challenges of all rounds, last first. -/
def Prover.transcript (A : Prover n F MA MB RT Xs Ds) (Q : ℕ) (H : Xs → Ds) : List F :=
  (A.toProver.challenges P φa φb τ (leftKey srs r n) (rightKey srs n) hmem Q H).reverse

/-- The input that gives the opening point. -/
def Prover.point (A : Prover n F MA MB RT Xs Ds) (Q t : ℕ) (ht : t < 2 ^ 64) (H : Xs → Ds) : Xs :=
  enc (n := n) (RT := RT) V P φa φb τ srs r hmem hpt t ht (.inr (A.final (Oracle.trace A.query H Q)))
    ((A.transcript P φa φb τ srs r hmem Q H).head?.getD 0)

/-- What was known about the final keys when they were first hashed. -/
noncomputable def Prover.knownKeys (A : Prover n F MA MB RT Xs Ds) (Q k t : ℕ) (ht : t < 2 ^ 64)
    (H : Xs → Ds) : Comb n F × Comb n F :=
  match A.first V P φa φb τ srs r hmem hpt Q k t ht H (A.point V P φa φb τ srs r hmem hpt Q t ht H) with
  | .inr q => q
  | .inl _ => A.final (Oracle.trace A.query H Q)

/-- The trapdoors `s`, `s'` are a zero of the non-zero polynomial that belongs to key `q`, opening `o`, value
`y` and point `c`. -/
def Leak (q o : Comb n F) (y c s s' : F) : Prop :=
  (powerPart (poly q) (poly o) y c).eval s + s' * (otherPart q.2 o.2 c).eval s = 0 ∧
    ¬ (powerPart (poly q) (poly o) y c = 0 ∧ otherPart q.2 o.2 c = 0)

/-- With `d` as answer, agreement at the opening point means that the final keys are right. -/
def Good (r : F) (k : ℕ) (cs : List F) (q : Comb n F × Comb n F) (d : Bytes) : Prop :=
  ∀ c, V.fromRandomBytes d = some c → cs.length = k →
    ((poly q.1).eval c = (keyPoly (cs.reverse.map (·⁻¹)) r⁻¹).eval c →
      poly q.1 = keyPoly (cs.reverse.map (·⁻¹)) r⁻¹) ∧
    ((poly q.2).eval c = (keyPoly cs.reverse 1).eval c → poly q.2 = keyPoly cs.reverse 1)

/-- At most `2 (2 n - 2)` opening points are not good. -/
theorem card_not_good (hn : 1 ≤ n) (k : ℕ) (hk : n = 2 ^ k) (m' : ℕ)
    (hm' : ∀ c, (Finset.univ.filter fun d : Ds => V.fromRandomBytes d = some c).card ≤ m')
    (cs : List F) (q : Comb n F × Comb n F) (S : Finset Ds) (hS : ∀ d ∈ S, ¬ Good V r k cs q d) :
    S.card ≤ 2 * (2 * n - 2) * m' := by
  classical
  have hlen : S.Nonempty → cs.length = k := by
    rintro ⟨d, hd⟩
    by_contra hcon
    exact hS d hd fun c _ h => absurd h hcon
  rcases S.eq_empty_or_nonempty with rfl | hne
  · simp
  replace hlen := hlen hne
  set kA := keyPoly (cs.reverse.map (·⁻¹)) r⁻¹ with hkA
  set kB := keyPoly cs.reverse 1 with hkB
  set I := S.image fun d : Ds => (V.fromRandomBytes d).getD 0 with hI
  have hsome : ∀ d ∈ S, ∃ c, V.fromRandomBytes d = some c ∧
      ((poly q.1).eval c = kA.eval c ∧ poly q.1 ≠ kA ∨ (poly q.2).eval c = kB.eval c ∧ poly q.2 ≠ kB) := by
    intro d hd
    by_contra hcon
    push Not at hcon
    refine hS d hd fun c hc _ => ⟨fun h => (hcon c hc).1 h, fun h => (hcon c hc).2 h⟩
  have h2 : 2 ^ (k + 1) - 2 = 2 * n - 2 := by rw [hk, pow_succ]; omega
  have hcard : ∀ (p kp : F[X]), p.natDegree ≤ 2 * n - 2 → kp.natDegree ≤ 2 * n - 2 →
      (I.filter fun c => p.eval c = kp.eval c ∧ p ≠ kp).card ≤ 2 * n - 2 := by
    intro p kp h1 h2
    by_cases he : p = kp
    · simp [he]
    · refine (Finset.card_le_card ?_).trans (card_agree_le p kp he _ h1 h2 I)
      intro c hc
      obtain ⟨i1, i2, -⟩ := Finset.mem_filter.mp hc
      exact Finset.mem_filter.mpr ⟨i1, i2⟩
  have hIle : I.card ≤ 2 * (2 * n - 2) := by
    have hsub : I ⊆ (I.filter fun c => (poly q.1).eval c = kA.eval c ∧ poly q.1 ≠ kA) ∪
        I.filter fun c => (poly q.2).eval c = kB.eval c ∧ poly q.2 ≠ kB := by
      intro c hc
      obtain ⟨d, hd, rfl⟩ := Finset.mem_image.mp hc
      obtain ⟨c, hc', h⟩ := hsome d hd
      simp only [hc', Option.getD_some] at hc ⊢
      rcases h with h | h
      · exact Finset.mem_union_left _ (Finset.mem_filter.mpr ⟨hc, h⟩)
      · exact Finset.mem_union_right _ (Finset.mem_filter.mpr ⟨hc, h⟩)
    refine (Finset.card_le_card hsub).trans ((Finset.card_union_le _ _).trans ?_)
    have a1 := hcard (poly q.1) kA (natDegree_poly hn _)
      ((natDegree_keyPoly _ _).trans (by simp [hlen, h2]))
    have a2 := hcard (poly q.2) kB (natDegree_poly hn _)
      ((natDegree_keyPoly _ _).trans (by simp [hlen, h2]))
    omega
  rw [Finset.card_eq_sum_card_image (fun d : Ds => (V.fromRandomBytes d).getD 0) S]
  refine (Finset.sum_le_card_nsmul _ _ m' fun c _ => ?_).trans ?_
  · refine (Finset.card_le_card fun d hd => ?_).trans (hm' c)
    obtain ⟨hd, h⟩ := Finset.mem_filter.mp hd
    obtain ⟨c', hc', -⟩ := hsome d hd
    rw [hc', Option.getD_some] at h
    exact Finset.mem_filter.mpr ⟨Finset.mem_univ _, by rw [hc', h]⟩
  · rw [smul_eq_mul]
    exact Nat.mul_le_mul_right m' hIle

/-- The state: the challenges so far, and whether every opening point was good. -/
noncomputable def step (k : ℕ) (st : List F × Prop) (z : Link n F MA MB RT) (d : Ds) : List F × Prop :=
  match z with
  | .inl _ => (st.1 ++ [challengeOf F d], st.2)
  | .inr q => (st.1, st.2 ∧ Good V r k st.1 q d)

/-- The final keys of a link. -/
def keysOf : Link n F MA MB RT → Option (G2 × G1)
  | .inl _ => none
  | .inr q => some (left srs q.1, right srs q.2)

theorem foldl_step (k : ℕ) (H : Xs → Ds) (L : Xs → Link n F MA MB RT) : ∀ (xs : List Xs) (cs : List F)
    (p : Prop), (∀ x ∈ xs, keysOf srs (L x) = none) →
    xs.foldl (fun st x => step V r k st (L x) (H x)) (cs, p) =
      (cs ++ xs.map (fun x => challengeOf F (H x)), p)
  | [], cs, p, _ => by simp
  | x :: xs, cs, p, h => by
    have h0 := h x (by simp)
    rw [List.foldl_cons]
    cases hL : L x with
    | inl z =>
      rw [show step V r k (cs, p) (Sum.inl z) (H x) = (cs ++ [challengeOf F (H x)], p) from rfl,
        foldl_step k H L xs _ _ fun y hy => h y (by simp [hy])]
      simp
    | inr q => rw [hL] at h0; simp [keysOf] at h0

/-- Except for few oracles no challenge is zero, the final keys were known when they were first hashed, and
the opening point is good. -/
theorem count_point (hF : Decodable (fun _ => True) P.serF) (hG2 : Decodable (fun _ => True) V.serG2)
    (hG1 : Decodable (fun _ => True) V.serG1) (m m' : ℕ)
    (hm : ∀ x : F, (Finset.univ.filter fun d : Ds => challengeOf F d = x).card ≤ m)
    (hm' : ∀ c, (Finset.univ.filter fun d : Ds => V.fromRandomBytes d = some c).card ≤ m') (k : ℕ)
    (hn : n = 2 ^ k) (A : Prover n F MA MB RT Xs Ds) (Q : ℕ)
    (hkeys : ∀ ds, ∀ t < 2 ^ 64, ∀ x ka kb, (A.query ds : Bytes) = pointInput V P t x ka kb →
      left srs (A.keys ds).1 = ka ∧ right srs (A.keys ds).2 = kb)
    (hsep : ∀ t < 2 ^ 64, ∀ z x x' ka kb,
      (link P φa φb τ (leftKey srs r n) (rightKey srs n) hmem z x : Bytes) ≠ pointInput V P t x' ka kb)
    (hsteps : ∀ ds, (A.steps ds).length = k) (t : ℕ) (ht : t < 2 ^ 64) (W : Finset (Xs → Ds))
    (hW : ∀ H ∈ W, ¬ ((∀ x ∈ A.toProver.inputs P φa φb τ (leftKey srs r n) (rightKey srs n) hmem Q H,
        challengeOf F (H x) ≠ 0) ∧
      left srs (A.knownKeys V P φa φb τ srs r hmem hpt Q k t ht H).1 =
        left srs (A.final (Oracle.trace A.query H Q)).1 ∧
      right srs (A.knownKeys V P φa φb τ srs r hmem hpt Q k t ht H).2 =
        right srs (A.final (Oracle.trace A.query H Q)).2 ∧
      Good V r k (A.toProver.challenges P φa φb τ (leftKey srs r n) (rightKey srs n) hmem Q H)
        (A.knownKeys V P φa φb τ srs r hmem hpt Q k t ht H)
        (H (A.point V P φa φb τ srs r hmem hpt Q t ht H)))) :
    W.card * Ds.card ≤ ((Q + k + 1) * (2 * (2 * n - 2) * m') + (Q + k + 1) * (Q + k + 2) * m) *
      Ds.card ^ Xs.card := by
  classical
  have hn1 : 1 ≤ n := by rw [hn]; exact Nat.one_le_two_pow
  have c1 : Fintype.card Ds = Ds.card := Fintype.card_coe Ds
  have c2 : Fintype.card (Xs → Ds) = Ds.card ^ Xs.card := by
    rw [Fintype.card_fun, Fintype.card_coe, Fintype.card_coe]
  have hm'' : ∀ (x : F) (S : Finset Ds), (∀ d ∈ S, challengeOf F d = x) → S.card ≤ m := fun x S hS =>
    (Finset.card_le_card fun d hd => Finset.mem_filter.mpr ⟨Finset.mem_univ _, hS d hd⟩).trans (hm x)
  have hval : ∀ (z : Link n F MA MB RT) (x : F), ∃ t' < 2 ^ 64, ∃ rest,
      (enc (n := n) (RT := RT) V P φa φb τ srs r hmem hpt t ht z x : Bytes) = nonceBytes t' ++ (P.serF x ++ rest) := by
    rintro (z | q) x
    · exact ⟨0, by norm_num, _, by simp only [enc, link, Gipa.hashInput, List.append_assoc]; rfl⟩
    · exact ⟨t, ht, _, by simp only [enc, pointInput, List.append_assoc]; rfl⟩
  have hinj : ∀ (z : Link n F MA MB RT) (x : F) (z' : Link n F MA MB RT) (x' : F), enc (n := n) (RT := RT) V P φa φb τ srs r hmem hpt t ht z x =
      enc V P φa φb τ srs r hmem hpt t ht z' x' → x = x' := by
    intro z x z' x' h
    obtain ⟨t1, h1, _, e1⟩ := hval z x
    obtain ⟨t2, h2, _, e2⟩ := hval z' x'
    have h := congrArg Subtype.val h
    rw [e1, e2] at h
    obtain ⟨-, h⟩ := decodable_nonce _ _ _ _ h1 h2 h
    exact (hF _ _ _ _ trivial trivial h).1
  have hK : ∀ ds, (A.out ds).length ≤ k + 1 := fun ds => by simp [Prover.out, hsteps]
  have key := Oracle.count_static A.query Q A.out (enc V P φa φb τ srs r hmem hpt t ht) (challengeOf F) 0
    (A.lab V P) (([], True) : List F × Prop) (step V r k) (fun st => st.2) hinj m (2 * (2 * n - 2) * m') hm''
    (by
      rintro ⟨cs, p⟩ (z | q) hst S hS
      · have : S = ∅ := Finset.eq_empty_of_forall_notMem fun d hd => hS d hd hst
        simp [this]
      · exact card_not_good V r hn1 k hn m' hm' cs q S fun d hd hg => hS d hd ⟨hst, hg⟩)
    trivial (k + 1) hK W ?_
  · rw [c1, c2] at key
    exact key
  intro H hH
  rintro ⟨hdm, hne⟩
  refine hW H hH ?_
  rw [Oracle.follow_eq] at hdm
  change (List.foldl (fun st x => step V r k st (A.first V P φa φb τ srs r hmem hpt Q k t ht H x) (H x))
    ([], True) _).2 at hdm
  have hasked := Oracle.output_asked A.query Q A.out (enc V P φa φb τ srs r hmem hpt t ht) (challengeOf F) 0 H
    (k + 1) hK
  have hrel : ∀ (z : Link n F MA MB RT) (x : F), (∃ i < Q + (k + 1), Oracle.asked (Oracle.withCheck A.query Q A.out
      (enc V P φa φb τ srs r hmem hpt t ht) (challengeOf F) 0) H i = enc V P φa φb τ srs r hmem hpt t ht z x) →
      keysOf srs (A.first V P φa φb τ srs r hmem hpt Q k t ht H (enc V P φa φb τ srs r hmem hpt t ht z x)) =
        keysOf srs z := by
    intro z x hx
    refine Oracle.label_rel A.query Q A.out (enc V P φa φb τ srs r hmem hpt t ht) (challengeOf F) 0 (A.lab V P)
      (fun z z' => keysOf srs z = keysOf srs z') z x ?_ ?_ H (Q + (k + 1)) hx
    · intro ds h
      have h := congrArg Subtype.val h
      rcases z with z | q
      · rw [Prover.lab, if_neg]
        · rfl
        · rintro ⟨t', ht', x', ka, kb, h'⟩
          rw [h'] at h
          exact hsep t' ht' z _ _ _ _ h.symm
      · rw [Prover.lab, if_pos ⟨t, ht, _, _, _, h⟩]
        obtain ⟨g1, g2⟩ := hkeys ds t ht _ _ _ h
        simp only [keysOf, g1, g2]
    · intro ds z' _ x' h
      have h := congrArg Subtype.val h
      rcases z with z | q <;> rcases z' with z' | q'
      · rfl
      · exact absurd h.symm (hsep t ht z _ _ _ _)
      · exact absurd h (hsep t ht z' _ _ _ _)
      · simp only [enc, pointInput, List.append_assoc] at h
        obtain ⟨-, h⟩ := decodable_nonce _ _ _ _ ht ht h
        obtain ⟨-, h⟩ := hF _ _ _ _ trivial trivial h
        obtain ⟨g1, h⟩ := hG2 _ _ _ _ trivial trivial h
        rw [← List.append_nil (V.serG1 _), ← List.append_nil (V.serG1 (right srs q.2))] at h
        obtain ⟨g2, -⟩ := hG1 _ _ _ _ trivial trivial h
        simp only [keysOf, g1, g2]
  -- the queries of the chain
  have hq : Oracle.queries (enc V P φa φb τ srs r hmem hpt t ht) (challengeOf F) H 0
      (A.out (Oracle.trace A.query H Q)) =
      A.toProver.inputs P φa φb τ (leftKey srs r n) (rightKey srs n) hmem Q H ++
        [A.point V P φa φb τ srs r hmem hpt Q t ht H] := by
    rw [Prover.out, Oracle.queries_append, Oracle.queries_map, Prover.point, Prover.transcript,
      List.head?_reverse]
    rfl
  have hin : ∀ x ∈ A.toProver.inputs P φa φb τ (leftKey srs r n) (rightKey srs n) hmem Q H,
      keysOf srs (A.first V P φa φb τ srs r hmem hpt Q k t ht H x) = none := by
    intro x hx
    have hx' := hasked x (by rw [hq]; simp [hx])
    obtain ⟨z, y, rfl⟩ : ∃ z y, x = enc (n := n) (RT := RT) V P φa φb τ srs r hmem hpt t ht (.inl z) y := by
      have : ∀ (zs : List (Known n MA MB RT × Known n MA MB RT)) (y : F),
          ∀ x ∈ Oracle.queries (link P φa φb τ (leftKey srs r n) (rightKey srs n) hmem) (challengeOf F) H y zs,
          ∃ z y, x = enc (n := n) (RT := RT) V P φa φb τ srs r hmem hpt t ht (.inl z) y := by
        intro zs
        induction zs with
        | nil => intro y x hx; simp [Oracle.queries] at hx
        | cons z zs ih =>
          intro y x hx
          rw [Oracle.queries, List.mem_cons] at hx
          rcases hx with rfl | hx
          · exact ⟨z, y, rfl⟩
          · exact ih _ x hx
      exact this _ _ x hx
    exact hrel _ _ hx'
  have hpnt := hrel (.inr (A.final (Oracle.trace A.query H Q))) _
    (hasked (A.point V P φa φb τ srs r hmem hpt Q t ht H) (by rw [hq]; simp))
  rw [hq, List.foldl_append, foldl_step V srs r k H _ _ _ _ hin, List.foldl_cons, List.foldl_nil,
    List.nil_append] at hdm
  cases hL : A.first V P φa φb τ srs r hmem hpt Q k t ht H (A.point V P φa φb τ srs r hmem hpt Q t ht H) with
  | inl z =>
    rw [Prover.point] at hL
    rw [hL] at hpnt; simp [keysOf] at hpnt
  | inr q =>
    have hk : A.knownKeys V P φa φb τ srs r hmem hpt Q k t ht H = q := by
      rw [Prover.knownKeys, hL]
    rw [hL] at hdm
    rw [Prover.point] at hL
    rw [hL] at hpnt
    simp only [keysOf, Option.some.injEq, Prod.mk.injEq] at hpnt
    rw [hk]
    exact ⟨fun x hx => hne x (by rw [hq]; simp [hx]), hpnt.1, hpnt.2, hdm.2⟩

/-! ## The theorem -/

variable {V P φa φb τ srs r} {bil : MA →ₗ[F] MB →ₗ[F] T} {ψ : KT → T → OT} {η : OT → Option O}
  {ψ' : T →ₗ[F] O} {e : G1 →ₗ[F] G2 →ₗ[F] GT}

/-- No challenge is zero, the final keys were known when they were first hashed, and the opening point of attempt
`t` is good. -/
def Prover.Fine (V : TipaEnv F G1 G2 GT TF) (P : Gipa ρ F MA MB T G2 G1 KT OA OB OT)
    (φa : MA →ₗ[F] G2 →ₗ[F] OA) (φb : MB →ₗ[F] G1 →ₗ[F] OB) (τ : RT → OT) (srs : SRS G1 G2) (r : F)
    (hmem : ∀ k z1 z2, P.hashInput 0 k (coms φa φb τ (leftKey srs r n) (rightKey srs n) z1)
      (coms φa φb τ (leftKey srs r n) (rightKey srs n) z2) ∈ Xs)
    (hpt : ∀ t x ka kb, t < 2 ^ 64 → pointInput V P t x ka kb ∈ Xs)
    (A : Prover n F MA MB RT Xs Ds) (Q k t : ℕ) (ht : t < 2 ^ 64) (H : Xs → Ds) : Prop :=
  (∀ x ∈ A.toProver.inputs P φa φb τ (leftKey srs r n) (rightKey srs n) hmem Q H, challengeOf F (H x) ≠ 0) ∧
    left srs (A.knownKeys V P φa φb τ srs r hmem hpt Q k t ht H).1 =
      left srs (A.final (Oracle.trace A.query H Q)).1 ∧
    right srs (A.knownKeys V P φa φb τ srs r hmem hpt Q k t ht H).2 =
      right srs (A.final (Oracle.trace A.query H Q)).2 ∧
    Good V r k (A.toProver.challenges P φa φb τ (leftKey srs r n) (rightKey srs n) hmem Q H)
      (A.knownKeys V P φa φb τ srs r hmem hpt Q k t ht H)
      (H (A.point V P φa φb τ srs r hmem hpt Q t ht H))

open Classical in
/-- In an accepted proof the point is `c` and the final keys are the folded ones, if the opening point is good and the
openings of the final keys hold as identities of polynomials. The hash function `dg` agrees with the oracle. -/
theorem accepted_keys (L : P.Lawful bil φa φb ψ) (hE : V.E.Lawful e) (kt : KT)
    (hd : ∀ d ∈ Ds, 16 ≤ d.length) (k : ℕ) (hn : n = 2 ^ k) (g : G1) (h : G2) (α β : F)
    (hsrs : IsSrs srs g h α β n) (hg0 : g ≠ 0) (hh0 : h ≠ 0)
    (hg : ∀ y, e g y = 0 → y = 0) (hh : ∀ x, e x h = 0 → x = 0) (v : VerifierSRS G1 G2)
    (hv : srs.verifierKey = .ok v) (hr : r ≠ 0) (com : Coms OA OB OT) (A : Prover n F MA MB RT Xs Ds)
    (Q : ℕ) (hsteps : ∀ ds, (A.steps ds).length = k) (H : Xs → Ds) (dg : Bytes → Bytes)
    (hdg : ∀ x : Xs, dg x = H x)
    (hacc : Tipa.verifyWithShift V (withDigest P dg) v kt com (A.tipaProof φa φb τ srs r Q H) r = .ok true)
    (t : ℕ) (ht : t < 2 ^ 64) (c : F)
    (hc : V.fromRandomBytes (H (A.point V P φa φb τ srs r hmem hpt Q t ht H)) = some c)
    (hfirst : ∀ t', ∀ ht' : t' < t, V.fromRandomBytes
      (H (A.point V P φa φb τ srs r hmem hpt Q t' (ht'.trans ht) H)) = none)
    (lA : ¬ Leak (A.knownKeys V P φa φb τ srs r hmem hpt Q k t ht H).1
      (A.opening (Oracle.trace A.query H Q)).1
      ((keyPoly ((A.transcript P φa φb τ srs r hmem Q H).map (·⁻¹)) r⁻¹).eval c) c β α)
    (lB : ¬ Leak (A.knownKeys V P φa φb τ srs r hmem hpt Q k t ht H).2
      (A.opening (Oracle.trace A.query H Q)).2
      ((keyPoly (A.transcript P φa φb τ srs r hmem Q H) 1).eval c) c α β)
    (hgood : A.Fine V P φa φb τ srs r hmem hpt Q k t ht H) :
    ∃ com1 tr, (withDigest P dg).recursiveChallenges com (A.tipaProof φa φb τ srs r Q H).gipa = .ok (com1, tr) ∧
      Tipa.kzgChallenge V (withDigest P dg).digest (withDigest P dg).serF tr
        (A.tipaProof φa φb τ srs r Q H).finalCk.1 (A.tipaProof φa φb τ srs r Q H).finalCk.2 = .ok c ∧
      foldAll (tr.reverse.map (·⁻¹)) (List.ofFn (leftKey srs r n)) = [(A.tipaProof φa φb τ srs r Q H).finalCk.1] ∧
      foldAll tr.reverse (List.ofFn (rightKey srs n)) = [(A.tipaProof φa φb τ srs r Q H).finalCk.2] := by
  have hn1 : 1 ≤ n := by rw [hn]; exact Nat.one_le_two_pow
  have hva := ofFn_leftKey hn1 hsrs r
  have hvb := ofFn_rightKey hn1 hsrs
  obtain ⟨hne, kA, kB, hgood⟩ := hgood
  have L' : (withDigest P dg).Lawful bil φa φb ψ :=
    ⟨L.ip_ok, L.lmc_ok, L.rmc_ok, L.ipc_ok, L.ψ_add, L.ψ_smul⟩
  obtain ⟨com1, hrec⟩ := recLoop_digest (P := P)
    (fun z => (coms φa φb τ (leftKey srs r n) (rightKey srs n) z.1,
      coms φa φb τ (leftKey srs r n) (rightKey srs n) z.2))
    (link P φa φb τ (leftKey srs r n) (rightKey srs n) hmem) (fun _ _ => by rw [link]) hd H dg hdg
    (A.steps (Oracle.trace A.query H Q)) 0 [] com rfl hne
  set tr := A.transcript P φa φb τ srs r hmem Q H with htr
  have hrc : (withDigest P dg).recursiveChallenges com
      (A.tipaProof φa φb τ srs r Q H).gipa = .ok (com1, tr) := by
    rw [Gipa.recursiveChallenges, Prover.tipaProof]
    simp only [GipaStatic.Prover.proof, List.reverse_reverse]
    rw [hrec]
    rfl
  have hlen : tr.length = k := by
    rw [htr, Prover.transcript, List.length_reverse, GipaStatic.Prover.challenges, List.length_map,
      GipaStatic.Prover.inputs, Oracle.length_queries, hsteps]
  obtain ⟨t0, ts, hcons⟩ : ∃ t0 ts, tr = t0 :: ts := by
    cases htr' : tr with
    | nil =>
      exfalso
      rw [Tipa.verifyWithShift, hrc] at hacc
      simp only [ok_bind] at hacc
      rw [htr', invertAll_eq _ (by simp)] at hacc
      simp only [ok_bind] at hacc
      rw [Tipa.kzgChallenge_nil] at hacc
      cases hacc
    | cons a l => exact ⟨a, l, rfl⟩
  have hpoint : ∀ t' (h' : t' < 2 ^ 64),
      (A.point V P φa φb τ srs r hmem hpt Q t' h' H : Bytes) = be8 t' ++ P.serF t0 ++
      V.serG2 (A.tipaProof φa φb τ srs r Q H).finalCk.1 ++ V.serG1 (A.tipaProof φa φb τ srs r Q H).finalCk.2 := by
    intro t' h'
    rw [Prover.point, ← htr, hcons, ← nonceBytes_eq]
    rfl
  have hkzg : Tipa.kzgChallenge V (withDigest P dg).digest (withDigest P dg).serF tr
      (A.tipaProof φa φb τ srs r Q H).finalCk.1 (A.tipaProof φa φb τ srs r Q H).finalCk.2 = .ok c := by
    rw [hcons, C69_kzg]
    refine ⟨t, ht, ?_, fun t' ht' => ?_⟩
    · change V.fromRandomBytes (dg (be8 t ++ P.serF t0 ++ _ ++ _)) = _
      rw [← hpoint t ht, hdg, hc]
    · change V.fromRandomBytes (dg (be8 t' ++ P.serF t0 ++ _ ++ _)) = _
      rw [← hpoint t' (ht'.trans ht), hdg, hfirst t' ht']
  have hg' := hgood c hc (by rw [← hlen, htr, Prover.transcript, List.length_reverse])
  subst hn
  refine ⟨com1, tr, hrc, hkzg, ?_⟩
  rw [hva, hvb]
  exact Tipa.folded_keys L' hE k srs g h α β hsrs hg0 hh0 hg hh v hv kt com com1
    (A.tipaProof φa φb τ srs r Q H) r hr tr c (by simp [Prover.tipaProof, GipaStatic.Prover.proof, hsteps]) hrc
    hkzg (poly (A.knownKeys V P φa φb τ srs r hmem hpt Q k t ht H).1)
    (poly (A.opening (Oracle.trace A.query H Q)).1)
    (poly (A.knownKeys V P φa φb τ srs r hmem hpt Q k t ht H).2)
    (poly (A.opening (Oracle.trace A.query H Q)).2) _ _ _ _
    (kA.symm.trans (left_eq hsrs _)) (left_eq hsrs _) (kB.symm.trans (right_eq hsrs _)) (right_eq hsrs _)
    (fun h => by_contra fun h' => lA ⟨h, h'⟩) (fun h => by_contra fun h' => lB ⟨h, h'⟩)
    hg'.1 hg'.2 hacc

open Classical in
/-- So it is accepted by GIPA with the whole keys. -/
theorem accepted_gipa (L : P.Lawful bil φa φb ψ) (hE : V.E.Lawful e) (kt : KT)
    (hd : ∀ d ∈ Ds, 16 ≤ d.length) (k : ℕ) (hn : n = 2 ^ k) (g : G1) (h : G2) (α β : F)
    (hsrs : IsSrs srs g h α β n) (hg0 : g ≠ 0) (hh0 : h ≠ 0)
    (hg : ∀ y, e g y = 0 → y = 0) (hh : ∀ x, e x h = 0 → x = 0) (v : VerifierSRS G1 G2)
    (hv : srs.verifierKey = .ok v) (hr : r ≠ 0) (com : Coms OA OB OT) (A : Prover n F MA MB RT Xs Ds)
    (Q : ℕ) (hsteps : ∀ ds, (A.steps ds).length = k) (H : Xs → Ds) (dg : Bytes → Bytes)
    (hdg : ∀ x : Xs, dg x = H x)
    (hacc : Tipa.verifyWithShift V (withDigest P dg) v kt com (A.tipaProof φa φb τ srs r Q H) r = .ok true)
    (t : ℕ) (ht : t < 2 ^ 64) (c : F)
    (hc : V.fromRandomBytes (H (A.point V P φa φb τ srs r hmem hpt Q t ht H)) = some c)
    (hfirst : ∀ t', ∀ ht' : t' < t, V.fromRandomBytes
      (H (A.point V P φa φb τ srs r hmem hpt Q t' (ht'.trans ht) H)) = none)
    (lA : ¬ Leak (A.knownKeys V P φa φb τ srs r hmem hpt Q k t ht H).1
      (A.opening (Oracle.trace A.query H Q)).1
      ((keyPoly ((A.transcript P φa φb τ srs r hmem Q H).map (·⁻¹)) r⁻¹).eval c) c β α)
    (lB : ¬ Leak (A.knownKeys V P φa φb τ srs r hmem hpt Q k t ht H).2
      (A.opening (Oracle.trace A.query H Q)).2
      ((keyPoly (A.transcript P φa φb τ srs r hmem Q H) 1).eval c) c α β)
    (hgood : A.Fine V P φa φb τ srs r hmem hpt Q k t ht H) :
    (withDigest P dg).verify (List.ofFn (leftKey srs r n)) (List.ofFn (rightKey srs n)) kt com
      (A.toProver.proof φa φb τ (leftKey srs r n) (rightKey srs n) Q H) = .ok true := by
  obtain ⟨com1, tr, hrc, hkzg, f1, f2⟩ := accepted_keys hmem hpt L hE kt hd k hn g h α β hsrs hg0 hh0 hg hh v hv hr com A Q
    hsteps H dg hdg hacc t ht c hc hfirst lA lB hgood
  have L' : (withDigest P dg).Lawful bil φa φb ψ :=
    ⟨L.ip_ok, L.lmc_ok, L.rmc_ok, L.ipc_ok, L.ψ_add, L.ψ_smul⟩
  exact (Tipa.C31_same_verdict _ kt com com1 _ r hr tr c hrc hkzg hE L' _ _
    (by simp [Prover.tipaProof, GipaStatic.Prover.proof, hsteps, hn])
    (by simp [Prover.tipaProof, GipaStatic.Prover.proof, hsteps, hn]) f1 f2).1 hacc

open Classical in
/-- A count for the oracles with good opening points extends to all oracles. -/
theorem count_split (hF : Decodable (fun _ => True) P.serF) (hG2 : Decodable (fun _ => True) V.serG2)
    (hG1 : Decodable (fun _ => True) V.serG1) (m m' : ℕ)
    (hm : ∀ x : F, (Finset.univ.filter fun d : Ds => challengeOf F d = x).card ≤ m)
    (hm' : ∀ c, (Finset.univ.filter fun d : Ds => V.fromRandomBytes d = some c).card ≤ m') (k : ℕ)
    (hn : n = 2 ^ k) (A : Prover n F MA MB RT Xs Ds) (Q N : ℕ) (hN : N ≤ 2 ^ 64)
    (hkeys : ∀ ds, ∀ t < 2 ^ 64, ∀ x ka kb, (A.query ds : Bytes) = pointInput V P t x ka kb →
      left srs (A.keys ds).1 = ka ∧ right srs (A.keys ds).2 = kb)
    (hsep : ∀ t < 2 ^ 64, ∀ z x x' ka kb,
      (link P φa φb τ (leftKey srs r n) (rightKey srs n) hmem z x : Bytes) ≠ pointInput V P t x' ka kb)
    (hsteps : ∀ ds, (A.steps ds).length = k) (W : Finset (Xs → Ds)) (B : ℕ)
    (hW : ∀ W1 ⊆ W, (∀ H ∈ W1, ∀ t, ∀ ht : t < N, A.Fine V P φa φb τ srs r hmem hpt Q k t (ht.trans_le hN) H) →
      W1.card * Ds.card ≤ B * Ds.card ^ Xs.card) :
    W.card * Ds.card ≤
    (B + N * ((Q + k + 1) * (2 * (2 * n - 2) * m') + (Q + k + 1) * (Q + k + 2) * m)) * Ds.card ^ Xs.card := by
  let W2 : Fin N → Finset (Xs → Ds) := fun t => Finset.univ.filter fun H : Xs → Ds =>
    ¬ A.Fine V P φa φb τ srs r hmem hpt Q k t (t.2.trans_le hN) H
  let W1 : Finset (Xs → Ds) := W.filter fun H => ∀ t, H ∉ W2 t
  have b2 : ∀ t, (W2 t).card * Ds.card ≤
      ((Q + k + 1) * (2 * (2 * n - 2) * m') + (Q + k + 1) * (Q + k + 2) * m) * Ds.card ^ Xs.card :=
    fun t => count_point V P φa φb τ srs r hmem hpt hF hG2 hG1 m m' hm hm' k hn A Q hkeys hsep hsteps t
      (t.2.trans_le hN) (W2 t) fun H hH => (Finset.mem_filter.mp hH).2
  have b1 : W1.card * Ds.card ≤ B * Ds.card ^ Xs.card := by
    refine hW W1 (Finset.filter_subset _ _) fun H hH t ht => ?_
    obtain ⟨-, hno⟩ := Finset.mem_filter.mp hH
    exact not_not.mp fun h => hno ⟨t, ht⟩ (Finset.mem_filter.mpr ⟨Finset.mem_univ _, h⟩)
  have b3 : (W1 ∪ Finset.univ.biUnion W2).card * Ds.card ≤ (B +
      N * ((Q + k + 1) * (2 * (2 * n - 2) * m') + (Q + k + 1) * (Q + k + 2) * m)) * Ds.card ^ Xs.card := by
    refine (Nat.mul_le_mul_right _ ((Finset.card_union_le _ _).trans
      (Nat.add_le_add_left Finset.card_biUnion_le _))).trans ?_
    rw [add_mul, add_mul, Finset.sum_mul, mul_assoc N]
    refine Nat.add_le_add b1 ((Finset.sum_le_card_nsmul _ _ _ fun t _ => b2 t).trans ?_)
    simp
  refine le_trans (Nat.mul_le_mul_right _ (Finset.card_le_card ?_)) b3
  intro H hH
  by_cases hbad : ∃ t, H ∈ W2 t
  · obtain ⟨t, hbad⟩ := hbad
    exact Finset.mem_union_right _ (Finset.mem_biUnion.mpr ⟨t, Finset.mem_univ _, hbad⟩)
  · exact Finset.mem_union_left _ (Finset.mem_filter.mpr ⟨hH, fun t h => hbad ⟨t, h⟩⟩)

open Classical in
/-- C92: fix a reference string for vectors of length `2^k`, commitments with the keys in it, and an opening of
them whose inner product is not the committed one. A prover knows openings of the commitments and combinations
of the reference string for the final keys it hashes. Then, except for a small share of all oracles, the
verifier does not accept, or finds the opening point only after `N` attempts, or the prover has found a
collision of the keys, or a non-zero polynomial of which the trapdoors are a zero. `Q` is the number of
queries, `m` the number of digests for a challenge and `m'` the number of digests for an opening point. -/
theorem C92_static (L : P.Lawful bil φa φb ψ) (hE : V.E.Lawful e) (kt : KT) (R : Reads F η (ψ kt) ψ')
    (hF : Decodable (fun _ => True) P.serF) (hA : Decodable (fun _ => True) P.serA)
    (hB : Decodable (fun _ => True) P.serB) (hT : Decodable (· ∈ Set.range τ) P.serT)
    (hG2 : Decodable (fun _ => True) V.serG2) (hG1 : Decodable (fun _ => True) V.serG1)
    (hd : ∀ d ∈ Ds, 16 ≤ d.length) (m m' : ℕ)
    (hm : ∀ x : F, (Finset.univ.filter fun d : Ds => challengeOf F d = x).card ≤ m)
    (hm' : ∀ c, (Finset.univ.filter fun d : Ds => V.fromRandomBytes d = some c).card ≤ m') (k : ℕ)
    (hn : n = 2 ^ k) (g : G1) (h : G2) (α β : F) (hsrs : IsSrs srs g h α β n) (hg0 : g ≠ 0) (hh0 : h ≠ 0)
    (hg : ∀ y, e g y = 0 → y = 0) (hh : ∀ x, e x h = 0 → x = 0) (v : VerifierSRS G1 G2)
    (hv : srs.verifierKey = .ok v) (hr : r ≠ 0) (com : Coms OA OB OT) (ra : Fin n → MA) (rb : Fin n → MB)
    (hra : com.1 = commitTo φa (leftKey srs r n) ra) (hrb : com.2.1 = commitTo φb (rightKey srs n) rb)
    (hfalse : η com.2.2 ≠ some (ψ' (∑ i, bil (ra i) (rb i)))) (A : Prover n F MA MB RT Xs Ds) (Q N : ℕ)
    (hN : N ≤ 2 ^ 64)
    (hlab : ∀ ds z x, A.query ds = link P φa φb τ (leftKey srs r n) (rightKey srs n) hmem z x →
      coms φa φb τ (leftKey srs r n) (rightKey srs n) (A.label ds).1 =
        coms φa φb τ (leftKey srs r n) (rightKey srs n) z.1 ∧
      coms φa φb τ (leftKey srs r n) (rightKey srs n) (A.label ds).2 =
        coms φa φb τ (leftKey srs r n) (rightKey srs n) z.2)
    (hkeys : ∀ ds, ∀ t < 2 ^ 64, ∀ x ka kb, (A.query ds : Bytes) = pointInput V P t x ka kb →
      left srs (A.keys ds).1 = ka ∧ right srs (A.keys ds).2 = kb)
    (hsep : ∀ t < 2 ^ 64, ∀ z x x' ka kb,
      (link P φa φb τ (leftKey srs r n) (rightKey srs n) hmem z x : Bytes) ≠ pointInput V P t x' ka kb)
    (hsteps : ∀ ds, (A.steps ds).length = k) :
    (Finset.univ.filter fun H : Xs → Ds =>
      Tipa.verifyWithShift V (withDigest P (Sipp.oracle H)) v kt com (A.tipaProof φa φb τ srs r Q H) r =
        .ok true ∧
      ¬ Clash φa (leftKey srs r n) (A.toProver.pairA P φa φb τ (leftKey srs r n) (rightKey srs n) hmem ra Q k H) ∧
      ¬ Clash φb (rightKey srs n) (A.toProver.pairB P φa φb τ (leftKey srs r n) (rightKey srs n) hmem rb Q k H) ∧
      ∃ t, ∃ ht : t < N, ∃ c,
        V.fromRandomBytes (H (A.point V P φa φb τ srs r hmem hpt Q t (ht.trans_le hN) H)) = some c ∧
        (∀ t', ∀ ht' : t' < t, V.fromRandomBytes
          (H (A.point V P φa φb τ srs r hmem hpt Q t' ((ht'.trans ht).trans_le hN) H)) = none) ∧
        ¬ Leak (A.knownKeys V P φa φb τ srs r hmem hpt Q k t (ht.trans_le hN) H).1
          (A.opening (Oracle.trace A.query H Q)).1
          ((keyPoly ((A.transcript P φa φb τ srs r hmem Q H).map (·⁻¹)) r⁻¹).eval c) c β α ∧
        ¬ Leak (A.knownKeys V P φa φb τ srs r hmem hpt Q k t (ht.trans_le hN) H).2
          (A.opening (Oracle.trace A.query H Q)).2
          ((keyPoly (A.transcript P φa φb τ srs r hmem Q H) 1).eval c) c α β).card * Ds.card ≤
    ((Q + k) * (Q + k + 5) * m +
      N * ((Q + k + 1) * (2 * (2 * n - 2) * m') + (Q + k + 1) * (Q + k + 2) * m)) * Ds.card ^ Xs.card := by
  refine count_split hmem hpt hF hG2 hG1 m m' hm hm' k hn A Q N hN hkeys hsep hsteps _ _ fun W1 hW1 hgood => ?_
  refine le_trans (Nat.mul_le_mul_right _ (Finset.card_le_card fun H hH => ?_))
    (C84_static hmem L kt R hF hA hB hT hd m hm k hn com ra rb hra hrb hfalse A.toProver Q hlab hsteps)
  obtain ⟨-, hacc, hcA, hcB, t, ht, c, hc, hfirst, lA, lB⟩ := Finset.mem_filter.mp (hW1 hH)
  exact Finset.mem_filter.mpr ⟨Finset.mem_univ _, accepted_gipa hmem hpt L hE kt hd k hn g h α β hsrs hg0 hh0 hg hh v
    hv hr com A Q hsteps H _ (oracle_apply H) hacc t (ht.trans_le hN) c hc hfirst lA lB (hgood H hH t ht), hcA, hcB⟩

/-! ## An instance: vectors of length 2 over the field with 101 elements -/

section Example
open Toy

/-- Inner products with the key as commitments. -/
def exampleGipa : Gipa Unit Toy.F Toy.F Toy.F Toy.F Toy.F Toy.F Placeholder Toy.F Toy.F
    (IdentityOutput Toy.F) where
  ip a b := .ok (dot (Toy.e · ·) a b)
  lmc := ⟨fun _ _ => .ok ([], ()), fun k m => .ok (dot (Toy.e · ·) m k)⟩
  rmc := ⟨fun _ _ => .ok ([], ()), fun k m => .ok (dot (Toy.e · ·) m k)⟩
  ipc := identityCommitment
  digest := Toy.digest
  serF := Toy.ser
  serA := Toy.ser
  serB := Toy.ser
  serT := serIdentity Toy.ser

theorem exampleGipa_lawful : exampleGipa.Lawful Toy.e Toy.e Toy.e idψ :=
  ⟨fun _ _ _ => rfl, fun _ _ _ => rfl, fun _ _ _ => rfl, fun _ _ => rfl, fun _ _ _ => rfl,
    fun _ _ _ => rfl⟩

/-- The last byte of a digest gives the opening point. -/
def exampleEnv : TipaEnv Toy.F Toy.F Toy.F Toy.F Toy.TF :=
  ⟨Toy.E, fun bs => bs.getLast?.map fun b => (b.toNat : Toy.F), Toy.ser, Toy.ser⟩

/-- The reference string for vectors of length 2 with trapdoors 3 and 5. -/
def exampleSrs : SRS Toy.F Toy.F := ⟨[1, 3, 9], [1, 5, 25], 5, 3⟩

theorem exampleSrs_isSrs : IsSrs exampleSrs (1 : Toy.F) (1 : Toy.F) (3 : Toy.F) 5 2 :=
  ⟨by decide +kernel, by decide +kernel, by decide, by decide⟩

/-- The commitments of a step. -/
def exampleComs (z : Known 2 Toy.F Toy.F Toy.F) : Coms Toy.F Toy.F (IdentityOutput Toy.F) :=
  coms Toy.e Toy.e single (leftKey exampleSrs (1 : Toy.F) 2) (rightKey exampleSrs 2) z

/-- The hash inputs. -/
noncomputable def exampleInputs : Finset Bytes :=
  (Set.finite_range fun p : Toy.F × Known 2 Toy.F Toy.F Toy.F × Known 2 Toy.F Toy.F Toy.F =>
    exampleGipa.hashInput 0 p.1 (exampleComs p.2.1) (exampleComs p.2.2)).toFinset ∪
  (Set.finite_range fun p : Fin (2 ^ 64) × Toy.F × Toy.F × Toy.F =>
    pointInput exampleEnv exampleGipa p.1 p.2.1 p.2.2.1 p.2.2.2).toFinset

theorem exampleInputs_mem (k : Toy.F) (z1 z2 : Known 2 Toy.F Toy.F Toy.F) :
    exampleGipa.hashInput 0 k
      (coms Toy.e Toy.e single (leftKey exampleSrs (1 : Toy.F) 2) (rightKey exampleSrs 2) z1)
      (coms Toy.e Toy.e single (leftKey exampleSrs (1 : Toy.F) 2) (rightKey exampleSrs 2) z2) ∈ exampleInputs :=
  Finset.mem_union_left _ ((Set.Finite.mem_toFinset _).mpr ⟨(k, z1, z2), rfl⟩)

theorem exampleInputs_pt (t : ℕ) (x ka kb : Toy.F) (ht : t < 2 ^ 64) :
    pointInput exampleEnv exampleGipa t x ka kb ∈ exampleInputs :=
  Finset.mem_union_right _ ((Set.Finite.mem_toFinset _).mpr ⟨(⟨t, ht⟩, x, ka, kb), rfl⟩)

theorem example_sep (t : ℕ) (z : Known 2 Toy.F Toy.F Toy.F × Known 2 Toy.F Toy.F Toy.F) (x x' ka kb : Toy.F) :
    (link exampleGipa Toy.e Toy.e single (leftKey exampleSrs (1 : Toy.F) 2) (rightKey exampleSrs 2)
      exampleInputs_mem z x : Bytes) ≠ pointInput exampleEnv exampleGipa t x' ka kb := by
  intro h
  have := congrArg List.length h
  simp [link, coms, single, serIdentity, serSeq, Gipa.hashInput, pointInput, exampleGipa, exampleEnv, Toy.ser,
    nonceBytes, leBytes] at this

theorem exampleDigests_point (d d' : exampleDigests) (c : Toy.F)
    (h : exampleEnv.fromRandomBytes d = some c) (h' : exampleEnv.fromRandomBytes d' = some c) : d = d' := by
  obtain ⟨d, hd⟩ := d
  obtain ⟨d', hd'⟩ := d'
  obtain ⟨x, -, rfl⟩ := Finset.mem_image.mp hd
  obtain ⟨y, -, rfl⟩ := Finset.mem_image.mp hd'
  have key : ∀ x y : Toy.F, exampleEnv.fromRandomBytes (List.replicate 15 0 ++ Toy.ser x) =
      exampleEnv.fromRandomBytes (List.replicate 15 0 ++ Toy.ser y) → x = y := by decide +kernel
  simp [key x y (h.trans h'.symm)]

open Classical in
/-- The vectors `(1, 2)` and `(3, 4)`, whose inner product is 11 and not 12; commitments
`1 + 2 * 25 = 51` and `3 + 4 * 9 = 39`. One query and one attempt for the opening point: at most 38 in 101 of
all oracles. -/
example (A : Prover 2 Toy.F Toy.F Toy.F Toy.F exampleInputs exampleDigests)
    (hlab : ∀ ds z x, A.query ds = link exampleGipa Toy.e Toy.e single (leftKey exampleSrs (1 : Toy.F) 2)
        (rightKey exampleSrs 2) exampleInputs_mem z x →
      exampleComs (A.label ds).1 = exampleComs z.1 ∧ exampleComs (A.label ds).2 = exampleComs z.2)
    (hkeys : ∀ ds, ∀ t < 2 ^ 64, ∀ x ka kb,
      (A.query ds : Bytes) = pointInput exampleEnv exampleGipa t x ka kb →
      left exampleSrs (A.keys ds).1 = ka ∧ right exampleSrs (A.keys ds).2 = kb)
    (hsteps : ∀ ds, (A.steps ds).length = 1) (W : Finset (exampleInputs → exampleDigests))
    (hW : ∀ H ∈ W,
      Tipa.verify exampleEnv (withDigest exampleGipa (Sipp.oracle H)) ⟨1, 1, 5, 3⟩ PUnit.unit (51, 39, ⟨[12]⟩)
        (A.tipaProof Toy.e Toy.e single exampleSrs 1 1 H) = .ok true ∧
      ¬ Clash Toy.e (leftKey exampleSrs (1 : Toy.F) 2) (A.toProver.pairA exampleGipa Toy.e Toy.e single
        (leftKey exampleSrs (1 : Toy.F) 2) (rightKey exampleSrs 2) exampleInputs_mem ![1, 2] 1 1 H) ∧
      ¬ Clash Toy.e (rightKey exampleSrs 2) (A.toProver.pairB exampleGipa Toy.e Toy.e single
        (leftKey exampleSrs (1 : Toy.F) 2) (rightKey exampleSrs 2) exampleInputs_mem ![3, 4] 1 1 H) ∧
      ∀ c : Toy.F,
        ¬ Leak (A.knownKeys exampleEnv exampleGipa Toy.e Toy.e single exampleSrs 1 exampleInputs_mem
            exampleInputs_pt 1 1 0 (by norm_num) H).1 (A.opening (Oracle.trace A.query H 1)).1
          ((keyPoly ((A.transcript exampleGipa Toy.e Toy.e single exampleSrs 1 exampleInputs_mem 1 H).map (·⁻¹))
            1⁻¹).eval c) c 5 3 ∧
        ¬ Leak (A.knownKeys exampleEnv exampleGipa Toy.e Toy.e single exampleSrs 1 exampleInputs_mem
            exampleInputs_pt 1 1 0 (by norm_num) H).2 (A.opening (Oracle.trace A.query H 1)).2
          ((keyPoly (A.transcript exampleGipa Toy.e Toy.e single exampleSrs 1 exampleInputs_mem 1 H) 1).eval c) c
            3 5) :
    W.card * 101 ≤ 38 * 101 ^ exampleInputs.card := by
  have := C92_static (n := 2) (P := exampleGipa) (V := exampleEnv) (Xs := exampleInputs) (Ds := exampleDigests)
    (srs := exampleSrs) (r := 1) (τ := single) exampleInputs_mem
    exampleInputs_pt exampleGipa_lawful Toy.lawful PUnit.unit (reads_identity PUnit.unit)
    decodable_ser decodable_ser decodable_ser (decodable_single decodable_ser) decodable_ser decodable_ser
    (by
      intro d hd
      obtain ⟨x, -, rfl⟩ := Finset.mem_image.mp hd
      simp [Toy.ser]) 1 1
    (fun x => Finset.card_le_one.mpr fun d hd d' hd' => exampleDigests_key d d'
      ((Finset.mem_filter.mp hd).2.trans (Finset.mem_filter.mp hd').2.symm))
    (fun x => Finset.card_le_one.mpr fun d hd d' hd' => exampleDigests_point d d' x
      (Finset.mem_filter.mp hd).2 (Finset.mem_filter.mp hd').2) 1 rfl 1 1 3 5 exampleSrs_isSrs (by decide)
    (by decide) (fun y h => by simpa using h) (fun y h => by simpa using h) ⟨1, 1, 5, 3⟩ rfl (by decide)
    (51, 39, ⟨[12]⟩) ![1, 2] ![3, 4] (by decide +kernel) (by decide +kernel) (by decide +kernel) A 1 1
    (by norm_num) hlab hkeys (fun t _ => example_sep t) hsteps
  rw [card_exampleDigests, show (1 + 1) * (1 + 1 + 5) * 1 +
    1 * ((1 + 1 + 1) * (2 * (2 * 2 - 2) * 1) + (1 + 1 + 1) * (1 + 1 + 2) * 1) = 38 from rfl] at this
  refine le_trans (Nat.mul_le_mul_right _ (Finset.card_le_card fun H hH => ?_)) this
  obtain ⟨h1, h2, h3, h4⟩ := hW H hH
  refine Finset.mem_filter.mpr ⟨Finset.mem_univ _, h1, h2, h3, 0, by norm_num, ?_⟩
  have hsome : ∀ d : exampleDigests, ∃ c, exampleEnv.fromRandomBytes d = some c := by
    rintro ⟨d, hd⟩
    obtain ⟨x, -, rfl⟩ := Finset.mem_image.mp hd
    exact ⟨((UInt8.ofNat x.val).toNat : Toy.F), by simp [exampleEnv, Toy.ser]⟩
  obtain ⟨c, hc⟩ := hsome (H (A.point exampleEnv exampleGipa Toy.e Toy.e single exampleSrs 1 exampleInputs_mem
    exampleInputs_pt 1 0 (by norm_num) H))
  exact ⟨c, hc, fun t' ht' => absurd ht' (Nat.not_lt_zero _), (h4 c).1, (h4 c).2⟩

/-- Such a prover: it hashes final keys before the rounds. -/
noncomputable def exampleProver : Prover 2 Toy.F Toy.F Toy.F Toy.F exampleInputs exampleDigests where
  query _ := ⟨pointInput exampleEnv exampleGipa 0 0 (left exampleSrs (n := 2) (![1, 0, 7], (0 : Toy.F)))
    (right exampleSrs (n := 2) (![1, 0, 8], (0 : Toy.F))), exampleInputs_pt _ _ _ _ (by norm_num)⟩
  label _ := ((![1, 2], ![3, 4], 5), (![1, 2], ![3, 4], 6))
  steps _ := [((![1, 2], ![3, 4], 5), (![1, 2], ![3, 4], 6))]
  base _ := (1, 2)
  keys _ := ((![1, 0, 7], 0), (![1, 0, 8], 0))
  final _ := ((![1, 0, 7], 0), (![1, 0, 8], 0))
  opening _ := ((![0, 1, 7], 0), (![2, 0, 8], 0))

example : (∀ ds z x, exampleProver.query ds = link exampleGipa Toy.e Toy.e single
        (leftKey exampleSrs (1 : Toy.F) 2) (rightKey exampleSrs 2) exampleInputs_mem z x →
      exampleComs (exampleProver.label ds).1 = exampleComs z.1 ∧
      exampleComs (exampleProver.label ds).2 = exampleComs z.2) ∧
    (∀ ds, ∀ t < 2 ^ 64, ∀ x ka kb,
      (exampleProver.query ds : Bytes) = pointInput exampleEnv exampleGipa t x ka kb →
      left exampleSrs (exampleProver.keys ds).1 = ka ∧ right exampleSrs (exampleProver.keys ds).2 = kb) ∧
    ∀ ds, (exampleProver.steps ds).length = 1 := by
  refine ⟨fun ds z x h => absurd (congrArg Subtype.val h).symm (example_sep _ _ _ _ _ _), fun ds t ht x ka kb h => ?_,
    fun _ => rfl⟩
  simp only [exampleProver, pointInput, List.append_assoc] at h
  obtain ⟨-, h⟩ := decodable_nonce _ _ _ _ (by norm_num) ht h
  obtain ⟨-, h⟩ := decodable_ser _ _ _ _ trivial trivial h
  obtain ⟨g1, h⟩ := decodable_ser _ _ _ _ trivial trivial h
  exact ⟨g1, ser_inj _ _ h⟩

end Example

end Ripp.TipaStatic
