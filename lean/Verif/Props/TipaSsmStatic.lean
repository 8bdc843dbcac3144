import Verif.Props.SsmStatic
import Verif.Props.TipaStatic

/-!
# C93: TIPA with structured messages in the random oracle model, for a statement fixed before the oracle

As C92, with C87 in the place of C84; only the left key is opened.
-/

set_option linter.unusedSectionVars false
set_option linter.unusedVariables false

namespace Ripp.TipaSsmStatic

open Spec Extract SsmExtract Polynomial
open SsmStatic (Known coms coms2 link)
open GipaStatic (challengeOf withDigest Clash commitTo recLoop_digest oracle_apply decodable_ser ser_inj exampleDigests
  card_exampleDigests exampleDigests_key single decodable_single)
open TipaStatic (Comb poly left leftKey natDegree_poly Leak)

variable {ρ F MA T KT OA OT RT O G1 G2 GT TF : Type} [Field F] [DecidableEq F]
  [AddCommGroup MA] [Module F MA] [AddCommGroup T] [Module F T]
  [AddCommGroup G1] [Module F G1] [AddCommGroup G2] [Module F G2]
  [AddCommGroup GT] [Module F GT] [Monoid TF] [DecidableEq GT]
  [AddCommGroup OA] [Module F OA] [Add OT] [SMul F OT]
  [AddCommGroup O] [Module F O] [DecidableEq OA] [DecidableEq OT] {n : ℕ}

theorem left_eq {srs : SRS G1 G2} {g : G1} {h : G2} {α β : F} (hsrs : IsLeftSrs srs g h α β n)
    (q : Comb n F) : left srs q = (poly q).eval β • h + q.2 • α • h := by
  rw [left, TipaStatic.eval_poly, hsrs.hBeta, hsrs.hAlpha, Finset.sum_smul]
  congr 1
  refine Finset.sum_congr rfl fun i _ => ?_
  simp [mul_smul]

theorem ofFn_leftKey {srs : SRS G1 G2} {g : G1} {h : G2} {α β : F} (hn : 1 ≤ n)
    (hsrs : IsLeftSrs srs g h α β n) : List.ofFn (leftKey srs (1 : F) n) = srs.commitmentKeys.1 := by
  obtain ⟨e1, -⟩ := hsrs.keys hn
  rw [e1]
  apply List.ext_getElem
  · simp
  · intro i h1 h2
    have hi : i < n := by simpa using h1
    have : 2 * i < 2 * n - 1 := by omega
    simp [leftKey, hsrs.hBeta, this]

/-- A prover with oracle access as in C87 that in addition knows the final keys it hashes, the final key it
outputs and its opening as combinations of the reference string. -/
structure Prover (n : ℕ) (F MA RT : Type) (Xs Ds : Finset Bytes) extends
    SsmStatic.Prover n F MA RT Xs Ds where
  keys : List Ds → Comb n F
  final : List Ds → Comb n F
  opening : List Ds → Comb n F

variable (V : TipaEnv F G1 G2 GT TF) (P : Gipa ρ F MA F T G2 Placeholder KT OA F OT)
  (φa : MA →ₗ[F] G2 →ₗ[F] OA) (τ : RT → OT) (srs : SRS G1 G2) {Xs Ds : Finset Bytes}

/-- The hash input for the opening point: nonce, challenge of the last round, final key. -/
def pointInput (t : ℕ) (x : F) (ka : G2) : Bytes :=
  nonceBytes t ++ P.serF x ++ V.serG2 ka

variable (hmem : ∀ k z, P.hashInput 0 k (coms2 φa τ (leftKey srs (1 : F) n) z).1
    (coms2 φa τ (leftKey srs (1 : F) n) z).2 ∈ Xs)
  (hpt : ∀ t x ka, t < 2 ^ 64 → pointInput V P t x ka ∈ Xs)

/-- The whole proof. -/
def Prover.tipaProof (A : Prover n F MA RT Xs Ds) (Q : ℕ) (H : Xs → Ds) : TipaSsmProof F G2 MA OA OT where
  gipa := A.toProver.proof φa τ (leftKey srs (1 : F) n) Q H
  finalCk := left srs (A.final (Oracle.trace A.query H Q))
  finalCkProof := left srs (A.opening (Oracle.trace A.query H Q))

/-- Links: the commitments of a round, or the final key. -/
abbrev Link (n : ℕ) (F MA RT : Type) := (Known n F MA RT × Known n F MA RT) ⊕ Comb n F

/-- The hash input of a link. -/
def enc (t : ℕ) (ht : t < 2 ^ 64) : Link n F MA RT → F → Xs
  | .inl z, x => link P φa τ (leftKey srs (1 : F) n) hmem z x
  | .inr q, x => ⟨pointInput V P t x (left srs q), hpt _ _ _ ht⟩

/-- The output chain. -/
def Prover.out (A : Prover n F MA RT Xs Ds) (ds : List Ds) : List (Link n F MA RT) :=
  (A.steps ds).map Sum.inl ++ [Sum.inr (A.final ds)]

open Classical in
/-- The label of a query. -/
noncomputable def Prover.lab (A : Prover n F MA RT Xs Ds) (ds : List Ds) : Link n F MA RT :=
  if ∃ t < 2 ^ 64, ∃ x ka, (A.query ds : Bytes) = pointInput V P t x ka then .inr (A.keys ds)
  else .inl (A.label ds)

/-- The labels of prover and verifier. -/
noncomputable def Prover.first (A : Prover n F MA RT Xs Ds) (Q k t : ℕ) (ht : t < 2 ^ 64)
    (H : Xs → Ds) : Xs → Link n F MA RT :=
  Oracle.firstLabel (Oracle.withCheck A.query Q A.out (enc V P φa τ srs hmem hpt t ht) (challengeOf F) 0)
    (Oracle.withLabels Q A.out (A.lab V P)) H (Q + (k + 1))

/-- The challenges of all rounds, last first. -/
def Prover.transcript (A : Prover n F MA RT Xs Ds) (Q : ℕ) (H : Xs → Ds) : List F :=
  (A.toProver.challenges P φa τ (leftKey srs (1 : F) n) hmem Q H).reverse

/-- The input that gives the opening point. -/
def Prover.point (A : Prover n F MA RT Xs Ds) (Q t : ℕ) (ht : t < 2 ^ 64) (H : Xs → Ds) : Xs :=
  enc (n := n) (RT := RT) V P φa τ srs hmem hpt t ht (.inr (A.final (Oracle.trace A.query H Q)))
    ((A.transcript P φa τ srs hmem Q H).head?.getD 0)

/-- What was known about the final key when it was first hashed. -/
noncomputable def Prover.knownKey (A : Prover n F MA RT Xs Ds) (Q k t : ℕ) (ht : t < 2 ^ 64)
    (H : Xs → Ds) : Comb n F :=
  match A.first V P φa τ srs hmem hpt Q k t ht H (A.point V P φa τ srs hmem hpt Q t ht H) with
  | .inr q => q
  | .inl _ => A.final (Oracle.trace A.query H Q)

/-- With `d` as answer, agreement at the opening point means that the final key is right. -/
def Good (k : ℕ) (cs : List F) (q : Comb n F) (d : Bytes) : Prop :=
  ∀ c, V.fromRandomBytes d = some c → cs.length = k →
    (poly q).eval c = (keyPoly (cs.reverse.map (·⁻¹)) 1).eval c →
      poly q = keyPoly (cs.reverse.map (·⁻¹)) 1

/-- At most `2 n - 2` opening points are not good. -/
theorem card_not_good (hn : 1 ≤ n) (k : ℕ) (hk : n = 2 ^ k) (m' : ℕ)
    (hm' : ∀ c, (Finset.univ.filter fun d : Ds => V.fromRandomBytes d = some c).card ≤ m')
    (cs : List F) (q : Comb n F) (S : Finset Ds) (hS : ∀ d ∈ S, ¬ Good V k cs q d) :
    S.card ≤ (2 * n - 2) * m' := by
  classical
  rcases S.eq_empty_or_nonempty with rfl | ⟨d0, hd0⟩
  · simp
  have hlen : cs.length = k := by
    by_contra hcon
    exact hS d0 hd0 fun c _ h => absurd h hcon
  set kA := keyPoly (cs.reverse.map (·⁻¹)) 1 with hkA
  set I := S.image fun d : Ds => (V.fromRandomBytes d).getD 0 with hI
  have hsome : ∀ d ∈ S, ∃ c, V.fromRandomBytes d = some c ∧ (poly q).eval c = kA.eval c ∧ poly q ≠ kA := by
    intro d hd
    by_contra hcon
    push Not at hcon
    exact hS d hd fun c hc _ h => hcon c hc h
  have h2 : 2 ^ (k + 1) - 2 = 2 * n - 2 := by rw [hk, pow_succ]; omega
  have hIle : I.card ≤ 2 * n - 2 := by
    obtain ⟨-, -, -, hne⟩ := hsome d0 hd0
    refine (Finset.card_le_card ?_).trans (card_agree_le (poly q) kA hne (2 * n - 2) (natDegree_poly hn _)
      ((natDegree_keyPoly _ _).trans (by simp [hlen, h2])) I)
    intro c hc
    refine Finset.mem_filter.mpr ⟨hc, ?_⟩
    obtain ⟨d, hd, rfl⟩ := Finset.mem_image.mp hc
    obtain ⟨c, hc', h, -⟩ := hsome d hd
    rw [hc', Option.getD_some]
    exact h
  rw [Finset.card_eq_sum_card_image (fun d : Ds => (V.fromRandomBytes d).getD 0) S]
  refine (Finset.sum_le_card_nsmul _ _ m' fun c _ => ?_).trans ?_
  · refine (Finset.card_le_card fun d hd => ?_).trans (hm' c)
    obtain ⟨hd, h⟩ := Finset.mem_filter.mp hd
    obtain ⟨c', hc', -⟩ := hsome d hd
    rw [hc', Option.getD_some] at h
    exact Finset.mem_filter.mpr ⟨Finset.mem_univ _, by rw [hc', h]⟩
  · rw [smul_eq_mul]
    exact Nat.mul_le_mul_right m' hIle

/-- The state: the challenges so far, and whether every opening point was good. -/
noncomputable def step (k : ℕ) (st : List F × Prop) (z : Link n F MA RT) (d : Ds) : List F × Prop :=
  match z with
  | .inl _ => (st.1 ++ [challengeOf F d], st.2)
  | .inr q => (st.1, st.2 ∧ Good V k st.1 q d)

/-- The final key of a link. -/
def keysOf : Link n F MA RT → Option G2
  | .inl _ => none
  | .inr q => some (left srs q)

theorem foldl_step (k : ℕ) (H : Xs → Ds) (L : Xs → Link n F MA RT) : ∀ (xs : List Xs) (cs : List F)
    (p : Prop), (∀ x ∈ xs, keysOf srs (L x) = none) →
    xs.foldl (fun st x => step V k st (L x) (H x)) (cs, p) =
      (cs ++ xs.map (fun x => challengeOf F (H x)), p)
  | [], cs, p, _ => by simp
  | x :: xs, cs, p, h => by
    have h0 := h x (by simp)
    rw [List.foldl_cons]
    cases hL : L x with
    | inl z =>
      rw [show step V k (cs, p) (Sum.inl z) (H x) = (cs ++ [challengeOf F (H x)], p) from rfl,
        foldl_step k H L xs _ _ fun y hy => h y (by simp [hy])]
      simp
    | inr q => rw [hL] at h0; simp [keysOf] at h0

/-- Except for few oracles no challenge is zero, the final key was known when it was first hashed, and
the opening point is good. -/
theorem count_point (hF : Decodable (fun _ => True) P.serF) (hG2 : Decodable (fun _ => True) V.serG2)
    (m m' : ℕ)
    (hm : ∀ x : F, (Finset.univ.filter fun d : Ds => challengeOf F d = x).card ≤ m)
    (hm' : ∀ c, (Finset.univ.filter fun d : Ds => V.fromRandomBytes d = some c).card ≤ m') (k : ℕ)
    (hn : n = 2 ^ k) (A : Prover n F MA RT Xs Ds) (Q : ℕ)
    (hkeys : ∀ ds, ∀ t < 2 ^ 64, ∀ x ka, (A.query ds : Bytes) = pointInput V P t x ka →
      left srs (A.keys ds) = ka)
    (hsep : ∀ t < 2 ^ 64, ∀ z x x' ka,
      (link P φa τ (leftKey srs (1 : F) n) hmem z x : Bytes) ≠ pointInput V P t x' ka)
    (hsteps : ∀ ds, (A.steps ds).length = k) (t : ℕ) (ht : t < 2 ^ 64) (W : Finset (Xs → Ds))
    (hW : ∀ H ∈ W, ¬ ((∀ x ∈ A.toProver.inputs P φa τ (leftKey srs (1 : F) n) hmem Q H,
        challengeOf F (H x) ≠ 0) ∧
      left srs (A.knownKey V P φa τ srs hmem hpt Q k t ht H) =
        left srs (A.final (Oracle.trace A.query H Q)) ∧
      Good V k (A.toProver.challenges P φa τ (leftKey srs (1 : F) n) hmem Q H)
        (A.knownKey V P φa τ srs hmem hpt Q k t ht H)
        (H (A.point V P φa τ srs hmem hpt Q t ht H)))) :
    W.card * Ds.card ≤ ((Q + k + 1) * ((2 * n - 2) * m') + (Q + k + 1) * (Q + k + 2) * m) *
      Ds.card ^ Xs.card := by
  classical
  have hn1 : 1 ≤ n := by rw [hn]; exact Nat.one_le_two_pow
  have c1 : Fintype.card Ds = Ds.card := Fintype.card_coe Ds
  have c2 : Fintype.card (Xs → Ds) = Ds.card ^ Xs.card := by
    rw [Fintype.card_fun, Fintype.card_coe, Fintype.card_coe]
  have hm'' : ∀ (x : F) (S : Finset Ds), (∀ d ∈ S, challengeOf F d = x) → S.card ≤ m := fun x S hS =>
    (Finset.card_le_card fun d hd => Finset.mem_filter.mpr ⟨Finset.mem_univ _, hS d hd⟩).trans (hm x)
  have hval : ∀ (z : Link n F MA RT) (x : F), ∃ t' < 2 ^ 64, ∃ rest,
      (enc (n := n) (RT := RT) V P φa τ srs hmem hpt t ht z x : Bytes) = nonceBytes t' ++ (P.serF x ++ rest) := by
    rintro (z | q) x
    · exact ⟨0, by norm_num, _, by simp only [enc, link, Gipa.hashInput, List.append_assoc]; rfl⟩
    · exact ⟨t, ht, _, by simp only [enc, pointInput, List.append_assoc]; rfl⟩
  have hinj : ∀ (z : Link n F MA RT) (x : F) (z' : Link n F MA RT) (x' : F), enc (n := n) (RT := RT) V P φa τ srs hmem hpt t ht z x =
      enc V P φa τ srs hmem hpt t ht z' x' → x = x' := by
    intro z x z' x' h
    obtain ⟨t1, h1, _, e1⟩ := hval z x
    obtain ⟨t2, h2, _, e2⟩ := hval z' x'
    have h := congrArg Subtype.val h
    rw [e1, e2] at h
    obtain ⟨-, h⟩ := decodable_nonce _ _ _ _ h1 h2 h
    exact (hF _ _ _ _ trivial trivial h).1
  have hK : ∀ ds, (A.out ds).length ≤ k + 1 := fun ds => by simp [Prover.out, hsteps]
  have key := Oracle.count_static A.query Q A.out (enc V P φa τ srs hmem hpt t ht) (challengeOf F) 0
    (A.lab V P) (([], True) : List F × Prop) (step V k) (fun st => st.2) hinj m ((2 * n - 2) * m') hm''
    (by
      rintro ⟨cs, p⟩ (z | q) hst S hS
      · have : S = ∅ := Finset.eq_empty_of_forall_notMem fun d hd => hS d hd hst
        simp [this]
      · exact card_not_good V hn1 k hn m' hm' cs q S fun d hd hg => hS d hd ⟨hst, hg⟩)
    trivial (k + 1) hK W ?_
  · rw [c1, c2] at key
    exact key
  intro H hH
  rintro ⟨hdm, hne⟩
  refine hW H hH ?_
  rw [Oracle.follow_eq] at hdm
  change (List.foldl (fun st x => step V k st (A.first V P φa τ srs hmem hpt Q k t ht H x) (H x))
    ([], True) _).2 at hdm
  have hasked := Oracle.output_asked A.query Q A.out (enc V P φa τ srs hmem hpt t ht) (challengeOf F) 0 H
    (k + 1) hK
  have hrel : ∀ (z : Link n F MA RT) (x : F), (∃ i < Q + (k + 1), Oracle.asked (Oracle.withCheck A.query Q A.out
      (enc V P φa τ srs hmem hpt t ht) (challengeOf F) 0) H i = enc V P φa τ srs hmem hpt t ht z x) →
      keysOf srs (A.first V P φa τ srs hmem hpt Q k t ht H (enc V P φa τ srs hmem hpt t ht z x)) =
        keysOf srs z := by
    intro z x hx
    refine Oracle.label_rel A.query Q A.out (enc V P φa τ srs hmem hpt t ht) (challengeOf F) 0 (A.lab V P)
      (fun z z' => keysOf srs z = keysOf srs z') z x ?_ ?_ H (Q + (k + 1)) hx
    · intro ds h
      have h := congrArg Subtype.val h
      rcases z with z | q
      · rw [Prover.lab, if_neg]
        · rfl
        · rintro ⟨t', ht', x', ka, h'⟩
          rw [h'] at h
          exact hsep t' ht' z _ _ _ h.symm
      · rw [Prover.lab, if_pos ⟨t, ht, _, _, h⟩]
        simp only [keysOf, hkeys ds t ht _ _ h]
    · intro ds z' _ x' h
      have h := congrArg Subtype.val h
      rcases z with z | q <;> rcases z' with z' | q'
      · rfl
      · exact absurd h.symm (hsep t ht z _ _ _)
      · exact absurd h (hsep t ht z' _ _ _)
      · simp only [enc, pointInput, List.append_assoc] at h
        obtain ⟨-, h⟩ := decodable_nonce _ _ _ _ ht ht h
        obtain ⟨-, h⟩ := hF _ _ _ _ trivial trivial h
        rw [← List.append_nil (V.serG2 _), ← List.append_nil (V.serG2 (left srs q))] at h
        obtain ⟨g1, -⟩ := hG2 _ _ _ _ trivial trivial h
        simp only [keysOf, g1]
  -- the queries of the chain
  have hq : Oracle.queries (enc V P φa τ srs hmem hpt t ht) (challengeOf F) H 0
      (A.out (Oracle.trace A.query H Q)) =
      A.toProver.inputs P φa τ (leftKey srs (1 : F) n) hmem Q H ++
        [A.point V P φa τ srs hmem hpt Q t ht H] := by
    rw [Prover.out, Oracle.queries_append, Oracle.queries_map, Prover.point, Prover.transcript,
      List.head?_reverse]
    rfl
  have hin : ∀ x ∈ A.toProver.inputs P φa τ (leftKey srs (1 : F) n) hmem Q H,
      keysOf srs (A.first V P φa τ srs hmem hpt Q k t ht H x) = none := by
    intro x hx
    have hx' := hasked x (by rw [hq]; simp [hx])
    obtain ⟨z, y, rfl⟩ : ∃ z y, x = enc (n := n) (RT := RT) V P φa τ srs hmem hpt t ht (.inl z) y := by
      have : ∀ (zs : List (Known n F MA RT × Known n F MA RT)) (y : F),
          ∀ x ∈ Oracle.queries (link P φa τ (leftKey srs (1 : F) n) hmem) (challengeOf F) H y zs,
          ∃ z y, x = enc (n := n) (RT := RT) V P φa τ srs hmem hpt t ht (.inl z) y := by
        intro zs
        induction zs with
        | nil => intro y x hx; simp [Oracle.queries] at hx
        | cons z zs ih =>
          intro y x hx
          rw [Oracle.queries, List.mem_cons] at hx
          rcases hx with rfl | hx
          · exact ⟨z, y, rfl⟩
          · exact ih _ x hx
      exact this _ _ x hx
    exact hrel _ _ hx'
  have hpnt := hrel (.inr (A.final (Oracle.trace A.query H Q))) _
    (hasked (A.point V P φa τ srs hmem hpt Q t ht H) (by rw [hq]; simp))
  rw [hq, List.foldl_append, foldl_step V srs k H _ _ _ _ hin, List.foldl_cons, List.foldl_nil,
    List.nil_append] at hdm
  cases hL : A.first V P φa τ srs hmem hpt Q k t ht H (A.point V P φa τ srs hmem hpt Q t ht H) with
  | inl z =>
    rw [Prover.point] at hL
    rw [hL] at hpnt; simp [keysOf] at hpnt
  | inr q =>
    have hk : A.knownKey V P φa τ srs hmem hpt Q k t ht H = q := by
      rw [Prover.knownKey, hL]
    rw [hL] at hdm
    rw [Prover.point] at hL
    rw [hL] at hpnt
    simp only [keysOf, Option.some.injEq] at hpnt
    rw [hk]
    exact ⟨fun x hx => hne x (by rw [hq]; simp [hx]), hpnt, hdm.2⟩

/-! ## The theorem -/

variable {V P φa τ srs} {bil : MA →ₗ[F] F →ₗ[F] T} {ψ : KT → T → OT} {η : OT → Option O}
  {ψ' : T →ₗ[F] O} {e : G1 →ₗ[F] G2 →ₗ[F] GT}

/-- No challenge is zero, the final key was known when it was first hashed, and the opening point of attempt `t` is
good. -/
def Prover.Fine (V : TipaEnv F G1 G2 GT TF) (P : Gipa ρ F MA F T G2 Placeholder KT OA F OT)
    (φa : MA →ₗ[F] G2 →ₗ[F] OA) (τ : RT → OT) (srs : SRS G1 G2)
    (hmem : ∀ k z, P.hashInput 0 k (coms2 φa τ (leftKey srs (1 : F) n) z).1
      (coms2 φa τ (leftKey srs (1 : F) n) z).2 ∈ Xs)
    (hpt : ∀ t x ka, t < 2 ^ 64 → pointInput V P t x ka ∈ Xs)
    (A : Prover n F MA RT Xs Ds) (Q k t : ℕ) (ht : t < 2 ^ 64) (H : Xs → Ds) : Prop :=
  (∀ x ∈ A.toProver.inputs P φa τ (leftKey srs (1 : F) n) hmem Q H, challengeOf F (H x) ≠ 0) ∧
    left srs (A.knownKey V P φa τ srs hmem hpt Q k t ht H) =
      left srs (A.final (Oracle.trace A.query H Q)) ∧
    Good V k (A.toProver.challenges P φa τ (leftKey srs (1 : F) n) hmem Q H)
      (A.knownKey V P φa τ srs hmem hpt Q k t ht H)
      (H (A.point V P φa τ srs hmem hpt Q t ht H))

open Classical in
/-- An accepted proof is an accepting run and contains the folded key, if the opening point is good and the opening of the final key holds
as an identity of polynomials. The hash function `dg` agrees with the oracle. -/
theorem accepted_data (L : P.Lawful bil φa 0 ψ) (hE : V.E.Lawful e) (X : Exec) (kt : KT)
    (hd : ∀ d ∈ Ds, 16 ≤ d.length) (k : ℕ) (hn : n = 2 ^ k) (g : G1) (h : G2) (α β : F)
    (hsrs : IsLeftSrs srs g h α β n) (hh0 : h ≠ 0) (hg : ∀ y, e g y = 0 → y = 0) (v : VerifierSRS G1 G2)
    (hv : srs.verifierKey = .ok v) (comA : OA) (comT : OT) (b : F) (A : Prover n F MA RT Xs Ds)
    (Q : ℕ) (hsteps : ∀ ds, (A.steps ds).length = k) (H : Xs → Ds)
    (dg : Bytes → Bytes) (hdg : ∀ x : Xs, dg x = H x)
    (hacc : TipaSsm.verify X V (withDigest P dg) v kt comA comT b (A.tipaProof φa τ srs Q H) =
      .ok true) (t : ℕ) (ht : t < 2 ^ 64) (c : F)
    (hc : V.fromRandomBytes (H (A.point V P φa τ srs hmem hpt Q t ht H)) = some c)
    (hfirst : ∀ t', ∀ ht' : t' < t, V.fromRandomBytes
      (H (A.point V P φa τ srs hmem hpt Q t' (ht'.trans ht) H)) = none)
    (lA : ¬ Leak (A.knownKey V P φa τ srs hmem hpt Q k t ht H)
      (A.opening (Oracle.trace A.query H Q))
      ((keyPoly ((A.transcript P φa τ srs hmem Q H).map (·⁻¹)) 1).eval c) c β α)
    (hgood : A.Fine V P φa τ srs hmem hpt Q k t ht H) :
    ∃ com1, (withDigest P dg).recursiveChallenges (comA, b, comT) (A.tipaProof φa τ srs Q H).gipa =
        .ok (com1, A.transcript P φa τ srs hmem Q H) ∧
      TipaSsm.kzgChallenge V dg P.serF (A.transcript P φa τ srs hmem Q H) (A.tipaProof φa τ srs Q H).finalCk = .ok c ∧
      foldAll ((A.toProver.challenges P φa τ (leftKey srs (1 : F) n) hmem Q H).map (·⁻¹))
        (List.ofFn (leftKey srs (1 : F) n)) = [(A.tipaProof φa τ srs Q H).finalCk] ∧
      Run bil φa (ψ kt) (List.ofFn (leftKey srs (1 : F) n)) ((List.range (2 ^ k)).map (b ^ ·)) (comA, comT)
        (A.toProver.challenges P φa τ (leftKey srs (1 : F) n) hmem Q H)
        (outer (A.toProver.proof φa τ (leftKey srs (1 : F) n) Q H).steps.reverse)
        (A.base (Oracle.trace A.query H Q)).1 := by
  have hva := ofFn_leftKey (F := F) (by rw [hn]; exact Nat.one_le_two_pow) hsrs
  obtain ⟨hne, kA, hgood⟩ := hgood
  have L' : (withDigest P dg).Lawful bil φa 0 ψ :=
    ⟨L.ip_ok, L.lmc_ok, L.rmc_ok, L.ipc_ok, L.ψ_add, L.ψ_smul⟩
  obtain ⟨com1, hrec⟩ := recLoop_digest (P := P) (coms2 φa τ (leftKey srs (1 : F) n))
    (link P φa τ (leftKey srs (1 : F) n) hmem) (fun _ _ => by rw [link]) hd H dg hdg
    (A.steps (Oracle.trace A.query H Q)) 0 [] (comA, b, comT) rfl hne
  set tr := A.transcript P φa τ srs hmem Q H with htr
  have hrc : (withDigest P dg).recursiveChallenges (comA, b, comT)
      (A.tipaProof φa τ srs Q H).gipa = .ok (com1, tr) := by
    rw [Gipa.recursiveChallenges, Prover.tipaProof]
    simp only [SsmStatic.Prover.proof, List.reverse_reverse]
    rw [hrec]
    rfl
  have hlen : tr.length = k := by
    rw [htr, Prover.transcript, List.length_reverse, SsmStatic.Prover.challenges, List.length_map,
      SsmStatic.Prover.inputs, Oracle.length_queries, hsteps]
  obtain ⟨t0, ts, hcons⟩ : ∃ t0 ts, tr = t0 :: ts := by
    cases htr' : tr with
    | nil =>
      exfalso
      rw [TipaSsm.verify, hrc] at hacc
      simp only [ok_bind] at hacc
      rw [htr', invertAll_eq _ (by simp)] at hacc
      simp only [ok_bind] at hacc
      rw [TipaSsm.kzgChallenge_nil] at hacc
      cases hacc
    | cons a l => exact ⟨a, l, rfl⟩
  have hpoint : ∀ t' (h' : t' < 2 ^ 64),
      (A.point V P φa τ srs hmem hpt Q t' h' H : Bytes) = be8 t' ++ P.serF t0 ++
      V.serG2 (A.tipaProof φa τ srs Q H).finalCk := by
    intro t' h'
    rw [Prover.point, ← htr, hcons, ← nonceBytes_eq]
    rfl
  have hkzg : TipaSsm.kzgChallenge V (withDigest P dg).digest
      (withDigest P dg).serF tr (A.tipaProof φa τ srs Q H).finalCk = .ok c := by
    rw [hcons, C69_kzg_ssm]
    refine ⟨t, ht, ?_, fun t' ht' => ?_⟩
    · change V.fromRandomBytes (dg (be8 t ++ P.serF t0 ++ _)) = _
      rw [← hpoint t ht, hdg, hc]
    · change V.fromRandomBytes (dg (be8 t' ++ P.serF t0 ++ _)) = _
      rw [← hpoint t' (ht'.trans ht), hdg, hfirst t' ht']
  have hg' := hgood c hc (by rw [← hlen, htr, Prover.transcript, List.length_reverse])
  have htr2 : (A.toProver.challenges P φa τ (leftKey srs (1 : F) n) hmem Q H) = tr.reverse := by
    rw [htr, Prover.transcript, List.reverse_reverse]
  rw [htr2, hva]
  rw [htr2, List.reverse_reverse] at hg'
  subst hn
  refine ⟨com1, hrc, hkzg, ?_⟩
  exact tipa_run_key L' hE X k srs g h α β hsrs hh0 hg v hv kt comA comT b com1
    (A.tipaProof φa τ srs Q H) tr c (by simp [Prover.tipaProof, SsmStatic.Prover.proof, hsteps]) hrc
    hkzg (poly (A.knownKey V P φa τ srs hmem hpt Q k t ht H))
    (poly (A.opening (Oracle.trace A.query H Q))) _ _
    (kA.symm.trans (left_eq hsrs _)) (left_eq hsrs _)
    (fun h => by_contra fun h' => lA ⟨h, h'⟩) hg' hacc

open Classical in
/-- An accepted proof is an accepting run, if the opening point is good and the opening of the final key holds
as an identity of polynomials. The hash function `dg` agrees with the oracle. -/
theorem accepted_run (L : P.Lawful bil φa 0 ψ) (hE : V.E.Lawful e) (X : Exec) (kt : KT)
    (hd : ∀ d ∈ Ds, 16 ≤ d.length) (k : ℕ) (hn : n = 2 ^ k) (g : G1) (h : G2) (α β : F)
    (hsrs : IsLeftSrs srs g h α β n) (hh0 : h ≠ 0) (hg : ∀ y, e g y = 0 → y = 0) (v : VerifierSRS G1 G2)
    (hv : srs.verifierKey = .ok v) (comA : OA) (comT : OT) (b : F) (A : Prover n F MA RT Xs Ds)
    (Q : ℕ) (hsteps : ∀ ds, (A.steps ds).length = k) (H : Xs → Ds)
    (dg : Bytes → Bytes) (hdg : ∀ x : Xs, dg x = H x)
    (hacc : TipaSsm.verify X V (withDigest P dg) v kt comA comT b (A.tipaProof φa τ srs Q H) =
      .ok true) (t : ℕ) (ht : t < 2 ^ 64) (c : F)
    (hc : V.fromRandomBytes (H (A.point V P φa τ srs hmem hpt Q t ht H)) = some c)
    (hfirst : ∀ t', ∀ ht' : t' < t, V.fromRandomBytes
      (H (A.point V P φa τ srs hmem hpt Q t' (ht'.trans ht) H)) = none)
    (lA : ¬ Leak (A.knownKey V P φa τ srs hmem hpt Q k t ht H)
      (A.opening (Oracle.trace A.query H Q))
      ((keyPoly ((A.transcript P φa τ srs hmem Q H).map (·⁻¹)) 1).eval c) c β α)
    (hgood : A.Fine V P φa τ srs hmem hpt Q k t ht H) :
    Run bil φa (ψ kt) (List.ofFn (leftKey srs (1 : F) n)) ((List.range (2 ^ k)).map (b ^ ·)) (comA, comT)
      (A.toProver.challenges P φa τ (leftKey srs (1 : F) n) hmem Q H)
      (outer (A.toProver.proof φa τ (leftKey srs (1 : F) n) Q H).steps.reverse)
      (A.base (Oracle.trace A.query H Q)).1 :=
  let ⟨_, _, _, _, hr⟩ := accepted_data hmem hpt L hE X kt hd k hn g h α β hsrs hh0 hg v hv comA comT b A Q hsteps H dg hdg hacc t ht c hc hfirst lA hgood
  hr

open Classical in
/-- A count for the oracles with good opening points extends to all oracles. -/
theorem count_split (hF : Decodable (fun _ => True) P.serF) (hG2 : Decodable (fun _ => True) V.serG2) (m m' : ℕ)
    (hm : ∀ x : F, (Finset.univ.filter fun d : Ds => challengeOf F d = x).card ≤ m)
    (hm' : ∀ c, (Finset.univ.filter fun d : Ds => V.fromRandomBytes d = some c).card ≤ m') (k : ℕ)
    (hn : n = 2 ^ k) (A : Prover n F MA RT Xs Ds) (Q N : ℕ) (hN : N ≤ 2 ^ 64)
    (hkeys : ∀ ds, ∀ t < 2 ^ 64, ∀ x ka, (A.query ds : Bytes) = pointInput V P t x ka →
      left srs (A.keys ds) = ka)
    (hsep : ∀ t < 2 ^ 64, ∀ z x x' ka,
      (link P φa τ (leftKey srs (1 : F) n) hmem z x : Bytes) ≠ pointInput V P t x' ka)
    (hsteps : ∀ ds, (A.steps ds).length = k) (W : Finset (Xs → Ds)) (B : ℕ)
    (hW : ∀ W1 ⊆ W, (∀ H ∈ W1, ∀ t, ∀ ht : t < N, A.Fine V P φa τ srs hmem hpt Q k t (ht.trans_le hN) H) →
      W1.card * Ds.card ≤ B * Ds.card ^ Xs.card) :
    W.card * Ds.card ≤
    (B + N * ((Q + k + 1) * ((2 * n - 2) * m') + (Q + k + 1) * (Q + k + 2) * m)) * Ds.card ^ Xs.card := by
  let W2 : Fin N → Finset (Xs → Ds) := fun t => Finset.univ.filter fun H : Xs → Ds =>
    ¬ A.Fine V P φa τ srs hmem hpt Q k t (t.2.trans_le hN) H
  let W1 : Finset (Xs → Ds) := W.filter fun H => ∀ t, H ∉ W2 t
  have b2 : ∀ t, (W2 t).card * Ds.card ≤
      ((Q + k + 1) * ((2 * n - 2) * m') + (Q + k + 1) * (Q + k + 2) * m) * Ds.card ^ Xs.card :=
    fun t => count_point V P φa τ srs hmem hpt hF hG2 m m' hm hm' k hn A Q hkeys hsep hsteps t
      (t.2.trans_le hN) (W2 t) fun H hH => (Finset.mem_filter.mp hH).2
  have b1 : W1.card * Ds.card ≤ B * Ds.card ^ Xs.card := by
    refine hW W1 (Finset.filter_subset _ _) fun H hH t ht => ?_
    obtain ⟨-, hno⟩ := Finset.mem_filter.mp hH
    exact not_not.mp fun h => hno ⟨t, ht⟩ (Finset.mem_filter.mpr ⟨Finset.mem_univ _, h⟩)
  have b3 : (W1 ∪ Finset.univ.biUnion W2).card * Ds.card ≤ (B +
      N * ((Q + k + 1) * ((2 * n - 2) * m') + (Q + k + 1) * (Q + k + 2) * m)) * Ds.card ^ Xs.card := by
    refine (Nat.mul_le_mul_right _ ((Finset.card_union_le _ _).trans
      (Nat.add_le_add_left Finset.card_biUnion_le _))).trans ?_
    rw [add_mul, add_mul, Finset.sum_mul, mul_assoc N]
    refine Nat.add_le_add b1 ((Finset.sum_le_card_nsmul _ _ _ fun t _ => b2 t).trans ?_)
    simp
  refine le_trans (Nat.mul_le_mul_right _ (Finset.card_le_card ?_)) b3
  intro H hH
  by_cases hbad : ∃ t, H ∈ W2 t
  · obtain ⟨t, hbad⟩ := hbad
    exact Finset.mem_union_right _ (Finset.mem_biUnion.mpr ⟨t, Finset.mem_univ _, hbad⟩)
  · exact Finset.mem_union_left _ (Finset.mem_filter.mpr ⟨hH, fun t h => hbad ⟨t, h⟩⟩)

open Classical in
/-- C93: fix a reference string for vectors of length `2^k`, a scalar `b`, commitments, and an opening of the left
one whose inner product with the powers of `b` is not the committed one. A prover knows openings of the
commitments and combinations of the reference string for the final keys it hashes. Then, except for a small
share of all oracles, the verifier does not accept, or finds the opening point only after `N` attempts, or the
prover has found a collision of the key, or a non-zero polynomial of which the trapdoors are a zero. `Q`, `m`
and `m'` are as in C92. -/
theorem C93_static (L : P.Lawful bil φa 0 ψ) (hE : V.E.Lawful e) (X : Exec) (kt : KT)
    (R : Reads F η (ψ kt) ψ')
    (hF : Decodable (fun _ => True) P.serF) (hA : Decodable (fun _ => True) P.serA)
    (hB : Decodable (fun _ => True) P.serB) (hT : Decodable (· ∈ Set.range τ) P.serT)
    (hG2 : Decodable (fun _ => True) V.serG2)
    (hd : ∀ d ∈ Ds, 16 ≤ d.length) (m m' : ℕ)
    (hm : ∀ x : F, (Finset.univ.filter fun d : Ds => challengeOf F d = x).card ≤ m)
    (hm' : ∀ c, (Finset.univ.filter fun d : Ds => V.fromRandomBytes d = some c).card ≤ m') (k : ℕ)
    (hn : n = 2 ^ k) (g : G1) (h : G2) (α β : F) (hsrs : IsLeftSrs srs g h α β n) (hh0 : h ≠ 0)
    (hg : ∀ y, e g y = 0 → y = 0) (v : VerifierSRS G1 G2)
    (hv : srs.verifierKey = .ok v) (comA : OA) (comT : OT) (b : F) (ra : Fin n → MA)
    (hra : comA = commitTo φa (leftKey srs (1 : F) n) ra)
    (hfalse : η comT ≠ some (ψ' (∑ i : Fin n, bil (ra i) (b ^ (i : ℕ))))) (A : Prover n F MA RT Xs Ds)
    (Q N : ℕ) (hN : N ≤ 2 ^ 64)
    (hlab : ∀ ds z x, A.query ds = link P φa τ (leftKey srs (1 : F) n) hmem z x →
      coms2 φa τ (leftKey srs (1 : F) n) (A.label ds) = coms2 φa τ (leftKey srs (1 : F) n) z)
    (hkeys : ∀ ds, ∀ t < 2 ^ 64, ∀ x ka, (A.query ds : Bytes) = pointInput V P t x ka →
      left srs (A.keys ds) = ka)
    (hsep : ∀ t < 2 ^ 64, ∀ z x x' ka,
      (link P φa τ (leftKey srs (1 : F) n) hmem z x : Bytes) ≠ pointInput V P t x' ka)
    (hsteps : ∀ ds, (A.steps ds).length = k) :
    (Finset.univ.filter fun H : Xs → Ds =>
      TipaSsm.verify X V (withDigest P (Sipp.oracle H)) v kt comA comT b (A.tipaProof φa τ srs Q H) =
        .ok true ∧
      ¬ Clash φa (leftKey srs (1 : F) n) (A.toProver.pair P φa τ (leftKey srs (1 : F) n) hmem ra Q k H) ∧
      ∃ t, ∃ ht : t < N, ∃ c,
        V.fromRandomBytes (H (A.point V P φa τ srs hmem hpt Q t (ht.trans_le hN) H)) = some c ∧
        (∀ t', ∀ ht' : t' < t, V.fromRandomBytes
          (H (A.point V P φa τ srs hmem hpt Q t' ((ht'.trans ht).trans_le hN) H)) = none) ∧
        ¬ Leak (A.knownKey V P φa τ srs hmem hpt Q k t (ht.trans_le hN) H)
          (A.opening (Oracle.trace A.query H Q))
          ((keyPoly ((A.transcript P φa τ srs hmem Q H).map (·⁻¹)) 1).eval c) c β α).card * Ds.card ≤
    ((Q + k) * (Q + k + 4) * m +
      N * ((Q + k + 1) * ((2 * n - 2) * m') + (Q + k + 1) * (Q + k + 2) * m)) * Ds.card ^ Xs.card := by
  refine count_split hmem hpt hF hG2 m m' hm hm' k hn A Q N hN hkeys hsep hsteps _ _ fun W1 hW1 hgood => ?_
  refine SsmStatic.count_runs (va := leftKey srs (1 : F) n) (bil := bil) hmem X kt R hF hA hB hT hd m hm k hn
    comA comT b ra hra hfalse A.toProver Q hlab hsteps W1 fun H hH _ => ?_
  obtain ⟨-, hacc, hcA, t, ht, c, hc, hfirst, lA⟩ := Finset.mem_filter.mp (hW1 hH)
  exact ⟨accepted_run hmem hpt L hE X kt hd k hn g h α β hsrs hh0 hg v hv comA comT b A Q hsteps H _ (oracle_apply H) hacc t
    (ht.trans_le hN) c hc hfirst lA (hgood H hH t ht), hcA⟩

/-! ## An instance: vectors of length 2 over the field with 101 elements -/

section Example
open Toy
open TipaStatic (exampleEnv exampleDigests_point)

/-- Inner products with the key as commitments. -/
def exampleSsm : Gipa Unit Toy.F Toy.F Toy.F Toy.F Toy.F Placeholder Placeholder Toy.F Toy.F
    (IdentityOutput Toy.F) :=
  ssmGipa (fun a b => .ok (dot (LinearMap.lsmul Toy.F Toy.F · ·) a b))
    ⟨fun _ _ => .ok ([], ()), fun k m => .ok (dot (Toy.e · ·) m k)⟩
    identityCommitment
    Toy.digest Toy.ser Toy.ser (serIdentity Toy.ser)

theorem exampleSsm_lawful : exampleSsm.Lawful (LinearMap.lsmul Toy.F Toy.F) Toy.e 0 idψ :=
  ⟨fun _ _ _ => rfl, fun _ _ _ => rfl, fun k m _ => congrArg Except.ok (dot_const_zero m k).symm,
    fun _ _ => rfl, fun _ _ _ => rfl, fun _ _ _ => rfl⟩

/-- A reference string with trapdoors 3 and 5 and only one power of the first. -/
def exampleSrs : SRS Toy.F Toy.F := ⟨[1], [1, 5, 25], 5, 3⟩

theorem exampleSrs_isSrs : IsLeftSrs exampleSrs (1 : Toy.F) (1 : Toy.F) (3 : Toy.F) 5 2 :=
  ⟨by decide +kernel, by decide +kernel, by decide, by decide⟩

/-- The commitments of a step. -/
def exampleComs (z : Known 2 Toy.F Toy.F Toy.F × Known 2 Toy.F Toy.F Toy.F) :
    Coms Toy.F Toy.F (IdentityOutput Toy.F) × Coms Toy.F Toy.F (IdentityOutput Toy.F) :=
  coms2 (F := Toy.F) Toy.e single (leftKey exampleSrs (1 : Toy.F) 2) z

/-- The hash inputs. -/
noncomputable def exampleInputs : Finset Bytes :=
  (Set.finite_range fun p : Toy.F × Known 2 Toy.F Toy.F Toy.F × Known 2 Toy.F Toy.F Toy.F =>
    exampleSsm.hashInput 0 p.1 (exampleComs p.2).1 (exampleComs p.2).2).toFinset ∪
  (Set.finite_range fun p : Fin (2 ^ 64) × Toy.F × Toy.F =>
    pointInput exampleEnv exampleSsm p.1 p.2.1 p.2.2).toFinset

theorem exampleInputs_mem (k : Toy.F) (z : Known 2 Toy.F Toy.F Toy.F × Known 2 Toy.F Toy.F Toy.F) :
    exampleSsm.hashInput 0 k (coms2 (F := Toy.F) Toy.e single (leftKey exampleSrs (1 : Toy.F) 2) z).1
      (coms2 (F := Toy.F) Toy.e single (leftKey exampleSrs (1 : Toy.F) 2) z).2 ∈ exampleInputs :=
  Finset.mem_union_left _ ((Set.Finite.mem_toFinset _).mpr ⟨(k, z), rfl⟩)

theorem exampleInputs_pt (t : ℕ) (x ka : Toy.F) (ht : t < 2 ^ 64) :
    pointInput exampleEnv exampleSsm t x ka ∈ exampleInputs :=
  Finset.mem_union_right _ ((Set.Finite.mem_toFinset _).mpr ⟨(⟨t, ht⟩, x, ka), rfl⟩)

theorem example_sep (t : ℕ) (z : Known 2 Toy.F Toy.F Toy.F × Known 2 Toy.F Toy.F Toy.F) (x x' ka : Toy.F) :
    (link exampleSsm Toy.e single (leftKey exampleSrs (1 : Toy.F) 2) exampleInputs_mem z x : Bytes) ≠
      pointInput exampleEnv exampleSsm t x' ka := by
  intro h
  have := congrArg List.length h
  simp [link, coms2, coms, single, serIdentity, serSeq, Gipa.hashInput, pointInput, exampleSsm, ssmGipa, exampleEnv, Toy.ser, nonceBytes, leBytes] at this

open Classical in
/-- The vector `(1, 2)`, whose value at 7 is 15 and not 16; commitment `1 + 2 * 25 = 51`. One query and one
attempt for the opening point: at most 30 in 101 of all oracles. -/
example (A : Prover 2 Toy.F Toy.F Toy.F exampleInputs exampleDigests)
    (hlab : ∀ ds z x, A.query ds =
        link exampleSsm Toy.e single (leftKey exampleSrs (1 : Toy.F) 2) exampleInputs_mem z x →
      exampleComs (A.label ds) = exampleComs z)
    (hkeys : ∀ ds, ∀ t < 2 ^ 64, ∀ x ka,
      (A.query ds : Bytes) = pointInput exampleEnv exampleSsm t x ka →
      left exampleSrs (A.keys ds) = ka)
    (hsteps : ∀ ds, (A.steps ds).length = 1) (W : Finset (exampleInputs → exampleDigests))
    (hW : ∀ H ∈ W,
      TipaSsm.verify Toy.X exampleEnv (withDigest exampleSsm (Sipp.oracle H)) ⟨1, 1, 5, 3⟩ PUnit.unit 51 ⟨[16]⟩ 7
        (A.tipaProof Toy.e single exampleSrs 1 H) = .ok true ∧
      ¬ Clash Toy.e (leftKey exampleSrs (1 : Toy.F) 2) (A.toProver.pair exampleSsm Toy.e single
        (leftKey exampleSrs (1 : Toy.F) 2) exampleInputs_mem ![1, 2] 1 1 H) ∧
      ∀ c : Toy.F,
        ¬ Leak (A.knownKey exampleEnv exampleSsm Toy.e single exampleSrs exampleInputs_mem
            exampleInputs_pt 1 1 0 (by norm_num) H) (A.opening (Oracle.trace A.query H 1))
          ((keyPoly ((A.transcript exampleSsm Toy.e single exampleSrs exampleInputs_mem 1 H).map (·⁻¹))
            1).eval c) c 5 3) :
    W.card * 101 ≤ 30 * 101 ^ exampleInputs.card := by
  have := C93_static (n := 2) (P := exampleSsm) (V := exampleEnv) (Xs := exampleInputs) (Ds := exampleDigests)
    (srs := exampleSrs) (τ := single) exampleInputs_mem
    exampleInputs_pt exampleSsm_lawful Toy.lawful Toy.X PUnit.unit (reads_identity PUnit.unit)
    decodable_ser decodable_ser decodable_ser (decodable_single decodable_ser) decodable_ser
    (by
      intro d hd
      obtain ⟨x, -, rfl⟩ := Finset.mem_image.mp hd
      simp [Toy.ser]) 1 1
    (fun x => Finset.card_le_one.mpr fun d hd d' hd' => exampleDigests_key d d'
      ((Finset.mem_filter.mp hd).2.trans (Finset.mem_filter.mp hd').2.symm))
    (fun x => Finset.card_le_one.mpr fun d hd d' hd' => exampleDigests_point d d' x
      (Finset.mem_filter.mp hd).2 (Finset.mem_filter.mp hd').2) 1 rfl 1 1 3 5 exampleSrs_isSrs (by decide)
    (fun y h => by simpa using h) ⟨1, 1, 5, 3⟩ rfl
    51 ⟨[16]⟩ 7 ![1, 2] (by decide +kernel) (by decide +kernel) A 1 1
    (by norm_num) hlab hkeys (fun t _ => example_sep t) hsteps
  rw [card_exampleDigests, show (1 + 1) * (1 + 1 + 4) * 1 +
    1 * ((1 + 1 + 1) * ((2 * 2 - 2) * 1) + (1 + 1 + 1) * (1 + 1 + 2) * 1) = 30 from rfl] at this
  refine le_trans (Nat.mul_le_mul_right _ (Finset.card_le_card fun H hH => ?_)) this
  obtain ⟨h1, h2, h4⟩ := hW H hH
  refine Finset.mem_filter.mpr ⟨Finset.mem_univ _, h1, h2, 0, by norm_num, ?_⟩
  have hsome : ∀ d : exampleDigests, ∃ c, exampleEnv.fromRandomBytes d = some c := by
    rintro ⟨d, hd⟩
    obtain ⟨x, -, rfl⟩ := Finset.mem_image.mp hd
    exact ⟨((UInt8.ofNat x.val).toNat : Toy.F), by simp [exampleEnv, Toy.ser]⟩
  obtain ⟨c, hc⟩ := hsome (H (A.point exampleEnv exampleSsm Toy.e single exampleSrs exampleInputs_mem
    exampleInputs_pt 1 0 (by norm_num) H))
  exact ⟨c, hc, fun t' ht' => absurd ht' (Nat.not_lt_zero _), h4 c⟩

/-- Such a prover: it hashes a final key before the rounds. -/
noncomputable def exampleProver : Prover 2 Toy.F Toy.F Toy.F exampleInputs exampleDigests where
  query _ := ⟨pointInput exampleEnv exampleSsm 0 0 (left exampleSrs (n := 2) (![1, 0, 7], (0 : Toy.F))),
    exampleInputs_pt _ _ _ (by norm_num)⟩
  label _ := ((![1, 2], 0, 5), (![3, 4], 1, 6))
  steps _ := [((![1, 2], 0, 5), (![3, 4], 1, 6))]
  base _ := (1, 2)
  keys _ := (![1, 0, 7], 0)
  final _ := (![1, 0, 7], 0)
  opening _ := (![0, 1, 7], 0)

example : (∀ ds z x, exampleProver.query ds =
        link exampleSsm Toy.e single (leftKey exampleSrs (1 : Toy.F) 2) exampleInputs_mem z x →
      exampleComs (exampleProver.label ds) = exampleComs z) ∧
    (∀ ds, ∀ t < 2 ^ 64, ∀ x ka,
      (exampleProver.query ds : Bytes) = pointInput exampleEnv exampleSsm t x ka →
      left exampleSrs (exampleProver.keys ds) = ka) ∧
    ∀ ds, (exampleProver.steps ds).length = 1 := by
  refine ⟨fun ds z x h => absurd (congrArg Subtype.val h).symm (example_sep _ _ _ _ _), fun ds t ht x ka h => ?_,
    fun _ => rfl⟩
  simp only [exampleProver, pointInput, List.append_assoc] at h
  obtain ⟨-, h⟩ := decodable_nonce _ _ _ _ (by norm_num) ht h
  obtain ⟨-, h⟩ := decodable_ser _ _ _ _ trivial trivial h
  exact ser_inj _ _ h

end Example

end Ripp.TipaSsmStatic
