import Verif.Props.Univariate
import Verif.Props.GipaInstances

/-!
# Transparent polynomial commitments: C47, C46 and C48 for the transparent scheme

Property statements are in `properties.jsonl`.
-/

set_option linter.unusedSectionVars false
set_option linter.unusedVariables false

namespace Ripp

open Spec

namespace TBivariate

variable {ρ F G1 G2 GT TF : Type} [Field F] [DecidableEq F] [AddCommGroup G1] [Module F G1]
  [AddCommGroup G2] [Module F G2] [AddCommGroup GT] [Module F GT] [Monoid TF]
  {e : G1 →ₗ[F] G2 →ₗ[F] GT}

/-- C47: `setup` returns `y + 1` and `x + 1` keys. -/
theorem C47_setup (V : Env ρ F G1 G2 GT TF) (s : ρ) (x y : ℕ) :
    ∃ ck s', setup V s x y = .ok (ck, s') ∧ ck.1.length = y + 1 ∧ ck.2.length = x + 1 := by
  obtain ⟨hp, ha, -, hi, -⟩ := C07_setup_lengths (F := F) V.E V.X V.randG1 V.randG1 V.randG2 (T := F)
  obtain ⟨-, -, -, hi', -⟩ := C07_setup_lengths (F := F) V.E V.X V.randG1 V.randG1 V.randG2 (T := G1)
  obtain ⟨k1, t1, s1, e1, l1⟩ := GipaSsm.C07_setup _ _ hp hi s (y + 1)
  obtain ⟨k2, t2, s2, e2, l2⟩ := GipaSsm.C07_setup _ _ ha hi' s1 (x + 1)
  refine ⟨(k1, k2), s2, ?_, l1, l2⟩
  rw [setup, e1]
  simp only [ok_bind]
  rw [e2]
  rfl

/-- Row `p`, padded. -/
def pad (m : ℕ) (p : List F) : List F := resize p m 0

/-- The commitment to one row. -/
def rowCom (ck : List G1) (p : List F) : G1 :=
  dot (LinearMap.lsmul F G1 · ·) (pad ck.length p) ck

/-- The combined row polynomial. -/
def combined (ps : List (List F)) (px : F) (n m : ℕ) : List F :=
  lin m (powers px n) ((resize ps n []).map (pad m))

theorem pad_rows (ps : List (List F)) (n m : ℕ) :
    ∀ r ∈ (resize ps n []).map (pad m), r.length = m := by
  intro r hr
  obtain ⟨p, -, rfl⟩ := List.mem_map.mp hr
  exact resize_length _ _ _

theorem length_combined (ps : List (List F)) (px : F) (n m : ℕ) :
    (combined ps px n m).length = m := length_lin _ _ _ (pad_rows ps n m)

theorem eval_combined (ps : List (List F)) (px py : F) (n m : ℕ) (hps : ps.length ≤ n)
    (hrow : ∀ p ∈ ps, p.length ≤ m) :
    evalAt (ps.map fun p => evalAt p py) px = polyEval (combined ps px n m) py := by
  have := polyEval_lin ps px py n m hps hrow
  rw [evalAt_eq]
  simp only [evalAt_eq]
  exact this.symm

theorem commit_eq (V : Env ρ F G1 G2 GT TF) (hE : V.E.Lawful e) (ck : List G1 × List G2)
    (ps : List (List F)) (hps : ps.length ≤ ck.2.length) (hrow : ∀ p ∈ ps, p.length ≤ ck.1.length) :
    commit V ck ps = .ok (dot (e · ·) ((resize ps ck.2.length []).map (rowCom ck.1)) ck.2,
      (resize ps ck.2.length []).map (rowCom ck.1)) := by
  rw [commit]
  simp only [decide_eq_true hps, assert_true, ok_bind]
  rw [mapM_ok _ (rowCom ck.1)]
  · simp only [ok_bind]
    have : (afghoG1 V.E V.X V.randG2).commit ck.2 ((resize ps ck.2.length []).map (rowCom ck.1)) =
        .ok (dot (e · ·) ((resize ps ck.2.length []).map (rowCom ck.1)) ck.2) :=
      pairingIP_eq hE V.X _ _ (by rw [List.length_map, resize_length])
    rw [this]; rfl
  · intro p hp
    have hl : p.length ≤ ck.1.length := by
      rw [resize_of_length_le _ _ _ hps] at hp
      rcases List.mem_append.mp hp with hp | hp
      · exact hrow p hp
      · rw [(List.mem_replicate.mp hp).2]; simp
    simp only [decide_eq_true hl, assert_true, ok_bind]
    change multiexpIP ck.1 (resize p ck.1.length 0) = _
    rw [multiexpIP_eq _ _ (by rw [resize_length]), dot_swap]
    rfl

/-- The inner product of the row commitments with the powers of the point is the commitment to the
combined row. -/
theorem dot_rows (ck : List G1) (ps : List (List F)) (px : F) (n : ℕ) :
    dot (smulMap F G1 · ·) ((resize ps n []).map (rowCom ck)) (powers px n) =
      dot (LinearMap.lsmul F G1 · ·) (combined ps px n ck.length) ck := by
  rw [combined, dot_lin _ _ _ _ _ (pad_rows ps n ck.length), dot_map_left, dot_map_right, dot_swap]
  rfl

variable [DecidableEq G1] [DecidableEq GT]

theorem honest_second (V : Env ρ F G1 G2 GT TF) (hE : V.E.Lawful e) (ck : List G1 × List G2)
    (ps : List (List F)) (px : F) :
    GipaSsm.Honest V.multiexpSsm ((resize ps ck.2.length []).map (rowCom ck.1)) px ck.2 PUnit.unit
      (dot (e · ·) ((resize ps ck.2.length []).map (rowCom ck.1)) ck.2)
      ⟨[dot (LinearMap.lsmul F G1 · ·) (combined ps px ck.2.length ck.1.length) ck.1]⟩
      (dot (LinearMap.lsmul F G1 · ·) (combined ps px ck.2.length ck.1.length) ck.1) where
  ip := by
    have := (multiexpSsm_lawful V hE).ip_ok ((resize ps ck.2.length []).map (rowCom ck.1))
      (powers px ck.2.length) (by rw [List.length_map, resize_length, length_powers])
    rw [List.length_map, resize_length]
    rw [dot_rows] at this
    exact this
  lmc := pairingIP_eq hE V.X _ _ (by rw [List.length_map, resize_length])
  ipc := rfl

theorem honest_first (V : Env ρ F G1 G2 GT TF) (ck : List G1) (q : List F)
    (hq : q.length = ck.length) (py : F) :
    GipaSsm.Honest V.scalarSsm q py ck PUnit.unit
      (dot (LinearMap.lsmul F G1 · ·) q ck) ⟨[polyEval q py]⟩ (polyEval q py) where
  ip := by
    have := (scalarSsm_lawful V).ip_ok q (powers py q.length) (by simp)
    rw [dot_powers_eq _ _ _ le_rfl] at this
    exact this
  lmc := (scalarSsm_lawful V).lmc_ok _ _ hq.symm
  ipc := rfl

theorem open_eq (V : Env ρ F G1 G2 GT TF) (ck : List G1 × List G2)
    (ps : List (List F)) (hps : ps.length ≤ ck.2.length) (h1 : 1 ≤ ck.1.length) (h2 : 1 ≤ ck.2.length)
    (coms : List G1) (px py : F) :
    open_ V ck ps coms (px, py) =
      (GipaSsm.prove V.multiexpSsm coms (powers px ck.2.length) ck.2 PUnit.unit >>= fun second =>
        GipaSsm.prove V.scalarSsm (combined ps px ck.2.length ck.1.length) (powers py ck.1.length) ck.1
          PUnit.unit >>= fun first => .ok
          { second := second, first := first,
            yEvalComm := dot (LinearMap.lsmul F G1 · ·) (combined ps px ck.2.length ck.1.length) ck.1 }) := by
  rw [open_]
  simp only [decide_eq_true hps, assert_true, ok_bind]
  rw [structuredScalarPower_eq, structuredScalarPower_eq, max_eq_right h1, max_eq_right h2]
  simp only [ok_bind]
  rw [yEvalCoeffs_eq _ _ _ _ (length_powers _ _)]
  simp only [ok_bind]
  have : (pedersen V.randG1).commit ck.1 (combined ps px ck.2.length ck.1.length) =
      .ok (dot (LinearMap.lsmul F G1 · ·) (combined ps px ck.2.length ck.1.length) ck.1) :=
    (scalarSsm_lawful V).lmc_ok _ _ (length_combined _ _ _ _).symm
  rw [show lin ck.1.length (powers px ck.2.length)
    ((resize ps ck.2.length []).map fun p => resize p ck.1.length 0)
    = combined ps px ck.2.length ck.1.length from rfl, this]
  rfl

/-- C47: completeness of the bivariate scheme for all power-of-two key sizes (also 1). -/
theorem C47_complete (V : Env ρ F G1 G2 GT TF) (hE : V.E.Lawful e)
    (hd : ∀ b, 16 ≤ (V.digest b).length) (k l : ℕ) (ck : List G1 × List G2)
    (h1 : ck.1.length = 2 ^ l) (h2 : ck.2.length = 2 ^ k) (ps : List (List F))
    (hps : ps.length ≤ ck.2.length) (hrow : ∀ p ∈ ps, p.length ≤ ck.1.length) (point : F × F) :
    ∃ com coms, commit V ck ps = .ok (com, coms) ∧
      (open_ V ck ps coms point = .error .diverge ∨
      ∃ proof, open_ V ck ps coms point = .ok proof ∧
        verify V ck com point (evalAt (ps.map fun p => evalAt p point.2) point.1) proof = .ok true) := by
  obtain ⟨px, py⟩ := point
  refine ⟨_, _, commit_eq V hE ck ps hps hrow, ?_⟩
  rw [open_eq V ck ps hps (by rw [h1]; exact Nat.one_le_two_pow) (by rw [h2]; exact Nat.one_le_two_pow)]
  have hs2 : structuredScalarPower (2 ^ k) px = .ok (powers px ck.2.length) := by
    rw [structuredScalarPower_eq, max_eq_right Nat.one_le_two_pow, h2]
  have hs1 : structuredScalarPower (2 ^ l) py = .ok (powers py ck.1.length) := by
    rw [structuredScalarPower_eq, max_eq_right Nat.one_le_two_pow, h1]
  rcases GipaSsm.C33_complete (multiexpSsm_lawful V hE) hd V.X k _ _ px _ ck.2 PUnit.unit _ _
    (by rw [List.length_map, resize_length, h2]) h2 hs2 (honest_second V hE ck ps px) with
    hA | ⟨pf2, hA1, hA2⟩
  · left; rw [hA]; rfl
  · rcases GipaSsm.C33_complete (scalarSsm_lawful V) hd V.X l _ _ py _ ck.1 PUnit.unit _ _
      (by rw [length_combined, h1]) h1 hs1
      (honest_first V ck.1 (combined ps px ck.2.length ck.1.length) (length_combined _ _ _ _) py) with
      hB | ⟨pf1, hB1, hB2⟩
    · left; rw [hA1]
      simp only [ok_bind]
      rw [hB]; rfl
    · right
      rw [hA1]
      simp only [ok_bind]
      rw [hB1]
      simp only [ok_bind]
      refine ⟨_, rfl, ?_⟩
      rw [verify]
      simp only
      rw [hA2]
      simp only [ok_bind]
      rw [eval_combined ps px py _ _ hps hrow, hB2]
      rfl

/-- C47: unconditional if the challenge searches end. -/
theorem C47_complete_total (V : Env ρ F G1 G2 GT TF) (hE : V.E.Lawful e)
    (hd : ∀ b, 16 ≤ (V.digest b).length) (hse : V.multiexpSsm.SearchEnds)
    (hse' : V.scalarSsm.SearchEnds) (k l : ℕ) (ck : List G1 × List G2)
    (h1 : ck.1.length = 2 ^ l) (h2 : ck.2.length = 2 ^ k) (ps : List (List F))
    (hps : ps.length ≤ ck.2.length) (hrow : ∀ p ∈ ps, p.length ≤ ck.1.length) (point : F × F) :
    ∃ com coms proof, commit V ck ps = .ok (com, coms) ∧ open_ V ck ps coms point = .ok proof ∧
      verify V ck com point (evalAt (ps.map fun p => evalAt p point.2) point.1) proof = .ok true := by
  obtain ⟨com, coms, e1, e2⟩ := C47_complete V hE hd k l ck h1 h2 ps hps hrow point
  rcases e2 with e2 | ⟨proof, e2⟩
  · exfalso
    obtain ⟨px, py⟩ := point
    rw [commit_eq V hE ck ps hps hrow] at e1
    simp only [Except.ok.injEq, Prod.mk.injEq] at e1
    obtain ⟨-, rfl⟩ := e1
    rw [open_eq V ck ps hps (by rw [h1]; exact Nat.one_le_two_pow)
      (by rw [h2]; exact Nat.one_le_two_pow)] at e2
    have hs2 : structuredScalarPower (2 ^ k) px = .ok (powers px ck.2.length) := by
      rw [structuredScalarPower_eq, max_eq_right Nat.one_le_two_pow, h2]
    have hs1 : structuredScalarPower (2 ^ l) py = .ok (powers py ck.1.length) := by
      rw [structuredScalarPower_eq, max_eq_right Nat.one_le_two_pow, h1]
    obtain ⟨pf2, hA1, -⟩ := GipaSsm.C33_complete_total (multiexpSsm_lawful V hE) hd hse V.X k _ _ px _
      ck.2 PUnit.unit _ _ (by rw [List.length_map, resize_length, h2]) h2 hs2
      (honest_second V hE ck ps px)
    obtain ⟨pf1, hB1, -⟩ := GipaSsm.C33_complete_total (scalarSsm_lawful V) hd hse' V.X l _ _ py _ ck.1
      PUnit.unit _ _ (by rw [length_combined, h1]) h1 hs1
      (honest_first V ck.1 (combined ps px ck.2.length ck.1.length) (length_combined _ _ _ _) py)
    rw [hA1] at e2
    simp only [ok_bind] at e2
    rw [hB1] at e2
    simp at e2
  · exact ⟨com, coms, proof, e1, e2⟩

/-- C47: key sizes that are not powers of two make `open` panic. -/
theorem C47_open_not_pow2 (V : Env ρ F G1 G2 GT TF) (ck : List G1 × List G2)
    (h1 : 1 ≤ ck.1.length) (h2 : 1 ≤ ck.2.length) (hx : ∀ k, ck.2.length ≠ 2 ^ k) (ps : List (List F))
    (hps : ps.length ≤ ck.2.length) (coms : List G1) (hc : coms.length = ck.2.length) (point : F × F) :
    open_ V ck ps coms point = .error (.panic .assertion) := by
  obtain ⟨px, py⟩ := point
  rw [open_eq V ck ps hps h1 h2, GipaSsm.prove, Gipa.proveWithAux, hc, isPow2_eq_false.mpr hx]
  rfl

/-- C48: evaluation binding fails: for every polynomial that fits and every point, an opening proof
for a different value is accepted. -/
theorem C48_forgery (V : Env ρ F G1 G2 GT TF) (hE : V.E.Lawful e)
    (hd : ∀ b, 16 ≤ (V.digest b).length) (hse : V.multiexpSsm.SearchEnds)
    (hse' : V.scalarSsm.SearchEnds) (k l : ℕ) (ck : List G1 × List G2)
    (h1 : ck.1.length = 2 ^ (l + 1)) (h2 : ck.2.length = 2 ^ k) (ps : List (List F))
    (hps : ps.length ≤ ck.2.length) (hrow : ∀ p ∈ ps, p.length ≤ ck.1.length) (point : F × F) :
    ∃ com coms value proof, commit V ck ps = .ok (com, coms) ∧
      value ≠ evalAt (ps.map fun p => evalAt p point.2) point.1 ∧
      verify V ck com point value proof = .ok true := by
  obtain ⟨px, py⟩ := point
  have hs2 : structuredScalarPower (2 ^ k) px = .ok (powers px ck.2.length) := by
    rw [structuredScalarPower_eq, max_eq_right Nat.one_le_two_pow, h2]
  obtain ⟨pf2, hA1, hA2⟩ := GipaSsm.C33_complete_total (multiexpSsm_lawful V hE) hd hse V.X k _ _ px _
    ck.2 PUnit.unit _ _ (by rw [List.length_map, resize_length, h2]) h2 hs2
    (honest_second V hE ck ps px)
  obtain ⟨value, comT', pf1, hne, hT, hB2⟩ := GipaSsm.C63_forgery (scalarSsm_lawful V) hd hse' V.X l _ py
    _ ck.1 PUnit.unit _ _ (by rw [length_combined, h1]) h1
    (honest_first V ck.1 (combined ps px ck.2.length ck.1.length) (length_combined _ _ _ _) py) 1
    one_ne_zero
  have hT : comT' = ⟨[value]⟩ := (Except.ok.inj hT).symm
  subst hT
  refine ⟨_, _, value, ⟨pf2, dot (LinearMap.lsmul F G1 · ·)
    (combined ps px ck.2.length ck.1.length) ck.1, pf1⟩, commit_eq V hE ck ps hps hrow, ?_, ?_⟩
  · rwa [eval_combined ps px py _ _ hps hrow]
  · rw [verify]
    simp only
    rw [hA2]
    simp only [ok_bind]
    rw [hB2]
    rfl

end TBivariate

namespace TUnivariate

variable {ρ F G1 G2 GT TF : Type} [Field F] [DecidableEq F] [AddCommGroup G1] [Module F G1]
  [AddCommGroup G2] [Module F G2] [AddCommGroup GT] [Module F GT] [Monoid TF]
  {e : G1 →ₗ[F] G2 →ₗ[F] GT}

theorem parseDegrees_eq {ck : List G1 × List G2} {x y : ℕ} (h1 : ck.1.length = y + 1)
    (h2 : ck.2.length = x + 1) : parseDegrees ck = .ok (x, y) := by
  rw [parseDegrees, if_neg (by omega), h1, h2]; rfl

/-- C100: with an empty half of the key, committing and opening panic (subtraction overflow). -/
theorem C100_empty_key (V : Env ρ F G1 G2 GT TF) (ck : List G1 × List G2)
    (h : ck.1 = [] ∨ ck.2 = []) (p : List F) (coms : List G1) (z : F) :
    commit V ck p = panic' .overflow ∧ open_ V ck p coms z = panic' .overflow := by
  have : parseDegrees ck = panic' .overflow := by
    rw [parseDegrees, if_pos (by simpa using h.symm)]
  rw [commit, open_, this]
  exact ⟨rfl, rfl⟩

/-- C100: and so does the verifier, which reads the degrees from the same key. -/
theorem C100_empty_key_verify [DecidableEq G1] [DecidableEq GT] (V : Env ρ F G1 G2 GT TF)
    (ck : List G1 × List G2) (h : ck.1 = [] ∨ ck.2 = []) (com : GT) (z eval : F)
    (proof : TpcProof F G1 GT) : verify V ck com z eval proof = panic' .overflow := by
  rw [verify, parseDegrees, if_pos (by simpa using h.symm)]
  rfl

/-- C46: the transparent scheme also drops coefficients silently. -/
theorem C46_truncates (V : Env ρ F G1 G2 GT TF) (ck : List G1 × List G2) (x y : ℕ)
    (h1 : ck.1.length = y + 1) (h2 : ck.2.length = x + 1) (p : List F) (coms : List G1) (z : F) :
    commit V ck p = commit V ck (p.take ((x + 1) * (y + 1))) ∧
    open_ V ck p coms z = open_ V ck (p.take ((x + 1) * (y + 1))) coms z := by
  rw [commit, commit, open_, open_, parseDegrees_eq h1 h2]
  simp only [ok_bind]
  rw [C46_form_truncates x y p]
  exact ⟨rfl, rfl⟩

variable [DecidableEq G1] [DecidableEq GT]

theorem setup_sizes (V : Env ρ F G1 G2 GT TF) (s s' : ρ) (d : ℕ) (ck : List G1 × List G2)
    (hd1 : 1 ≤ d) (hd2 : d + 1 ≤ 2 ^ 52) (hset : setup V s d = .ok (ck, s')) :
    ∃ k l x y : ℕ, x + 1 = 2 ^ (k + 1) ∧ y + 1 = 2 ^ (l + 1) ∧ d + 1 ≤ (x + 1) * (y + 1) ∧
      ck.1.length = y + 1 ∧ ck.2.length = x + 1 := by
  obtain ⟨x, y, k, l, j, h1, h2, h3, -, h4, -⟩ := C43_degrees_transparent d hd1 hd2
  obtain ⟨ck', s'', h5, h6, h7⟩ := TBivariate.C47_setup V s x y
  rw [setup, h1] at hset
  simp only [ok_bind] at hset
  rw [h5] at hset
  simp only [Except.ok.injEq, Prod.mk.injEq] at hset
  obtain ⟨rfl, rfl⟩ := hset
  exact ⟨k, l, x, y, h2, h3, h4, h6, h7⟩

theorem complete_sizes (V : Env ρ F G1 G2 GT TF) (hE : V.E.Lawful e)
    (hd : ∀ b, 16 ≤ (V.digest b).length) (k l x y d : ℕ)
    (ck : List G1 × List G2) (hx : x + 1 = 2 ^ (k + 1)) (hy : y + 1 = 2 ^ (l + 1))
    (hcap : d + 1 ≤ (x + 1) * (y + 1)) (l1 : ck.1.length = y + 1) (l2 : ck.2.length = x + 1) (p : List F)
    (hp : p.length ≤ d + 1) (z : F) :
    ∃ com coms, commit V ck p = .ok (com, coms) ∧
      (open_ V ck p coms z = .error .diverge ∨
      ∃ proof, open_ V ck p coms z = .ok proof ∧
        verify V ck com z (evalAt p z) proof = .ok true) := by
  obtain ⟨rows, f1, f2, f3, f4⟩ := bivariateForm_eq x y p
  obtain ⟨com, coms, g1, g2⟩ := TBivariate.C47_complete V hE hd (k + 1) (l + 1) ck (l1.trans hy)
    (l2.trans hx) rows (by omega) (fun r hr => by rw [l1]; exact (f3 r hr).2) (z ^ (y + 1), z)
  have hval : evalAt (rows.map fun p => evalAt p z) (z ^ (y + 1)) = evalAt p z := by
    simp only [evalAt_eq]
    rw [f4, List.take_of_length_le (by omega)]
  simp only [hval] at g2
  refine ⟨com, coms, ?_, ?_⟩
  · rw [commit, parseDegrees_eq l1 l2]
    simp only [ok_bind]
    rw [f1]; exact g1
  · rw [open_, parseDegrees_eq l1 l2]
    simp only [ok_bind]
    rw [f1]
    simp only [ok_bind, verify, parseDegrees_eq l1 l2]
    exact g2

theorem complete_total_sizes (V : Env ρ F G1 G2 GT TF) (hE : V.E.Lawful e)
    (hd : ∀ b, 16 ≤ (V.digest b).length) (hse : V.multiexpSsm.SearchEnds)
    (hse' : V.scalarSsm.SearchEnds) (k l x y d : ℕ)
    (ck : List G1 × List G2) (hx : x + 1 = 2 ^ (k + 1)) (hy : y + 1 = 2 ^ (l + 1))
    (hcap : d + 1 ≤ (x + 1) * (y + 1)) (l1 : ck.1.length = y + 1) (l2 : ck.2.length = x + 1) (p : List F)
    (hp : p.length ≤ d + 1) (z : F) :
    ∃ com coms proof, commit V ck p = .ok (com, coms) ∧ open_ V ck p coms z = .ok proof ∧
        verify V ck com z (evalAt p z) proof = .ok true := by
  obtain ⟨rows, f1, f2, f3, f4⟩ := bivariateForm_eq x y p
  obtain ⟨com, coms, proof, g1, g2, g3⟩ := TBivariate.C47_complete_total V hE hd hse hse' (k + 1) (l + 1)
    ck (l1.trans hy)
    (l2.trans hx) rows (by omega) (fun r hr => by rw [l1]; exact (f3 r hr).2) (z ^ (y + 1), z)
  have hval : evalAt (rows.map fun p => evalAt p z) (z ^ (y + 1)) = evalAt p z := by
    simp only [evalAt_eq]
    rw [f4, List.take_of_length_le (by omega)]
  simp only [hval] at g3
  refine ⟨com, coms, proof, ?_, ?_, ?_⟩
  · rw [commit, parseDegrees_eq l1 l2]
    simp only [ok_bind]
    rw [f1]; exact g1
  · rw [open_, parseDegrees_eq l1 l2]
    simp only [ok_bind]
    rw [f1]; exact g2
  · rw [verify, parseDegrees_eq l1 l2]; exact g3

/-- C47: completeness of the univariate scheme for degrees `1 … 2^52 - 1`, from `setup` on. -/
theorem C47_complete (V : Env ρ F G1 G2 GT TF) (hE : V.E.Lawful e)
    (hd : ∀ b, 16 ≤ (V.digest b).length) (s s' : ρ) (d : ℕ) (ck : List G1 × List G2)
    (hd1 : 1 ≤ d) (hd2 : d + 1 ≤ 2 ^ 52) (hset : setup V s d = .ok (ck, s')) (p : List F)
    (hp : p.length ≤ d + 1) (z : F) :
    ∃ com coms, commit V ck p = .ok (com, coms) ∧
      (open_ V ck p coms z = .error .diverge ∨
      ∃ proof, open_ V ck p coms z = .ok proof ∧
        verify V ck com z (evalAt p z) proof = .ok true) := by
  obtain ⟨k, l, x, y, hx, hy, hcap, l1, l2⟩ := setup_sizes V s s' d ck hd1 hd2 hset
  exact complete_sizes V hE hd k l x y d ck hx hy hcap l1 l2 p hp z

/-- C47: unconditional if the challenge searches end. -/
theorem C47_complete_total (V : Env ρ F G1 G2 GT TF) (hE : V.E.Lawful e)
    (hd : ∀ b, 16 ≤ (V.digest b).length) (hse : V.multiexpSsm.SearchEnds)
    (hse' : V.scalarSsm.SearchEnds) (s s' : ρ) (d : ℕ) (ck : List G1 × List G2)
    (hd1 : 1 ≤ d) (hd2 : d + 1 ≤ 2 ^ 52) (hset : setup V s d = .ok (ck, s')) (p : List F)
    (hp : p.length ≤ d + 1) (z : F) :
    ∃ com coms proof, commit V ck p = .ok (com, coms) ∧ open_ V ck p coms z = .ok proof ∧
        verify V ck com z (evalAt p z) proof = .ok true := by
  obtain ⟨k, l, x, y, hx, hy, hcap, l1, l2⟩ := setup_sizes V s s' d ck hd1 hd2 hset
  exact complete_total_sizes V hE hd hse hse' k l x y d ck hx hy hcap l1 l2 p hp z

/-- C47: degree 0 panics in `setup`. -/
theorem C47_setup_zero (V : Env ρ F G1 G2 GT TF) (s : ρ) :
    setup V s 0 = .error (.panic .divZero) := by
  rw [setup, C43_zero.2]; rfl

/-- C48: evaluation binding fails for the transparent univariate scheme. -/
theorem C48_forgery (V : Env ρ F G1 G2 GT TF) (hE : V.E.Lawful e)
    (hd : ∀ b, 16 ≤ (V.digest b).length) (hse : V.multiexpSsm.SearchEnds)
    (hse' : V.scalarSsm.SearchEnds) (s s' : ρ) (d : ℕ) (ck : List G1 × List G2)
    (hd1 : 1 ≤ d) (hd2 : d + 1 ≤ 2 ^ 52) (hset : setup V s d = .ok (ck, s')) (p : List F)
    (hp : p.length ≤ d + 1) (z : F) :
    ∃ com coms value proof, commit V ck p = .ok (com, coms) ∧ value ≠ evalAt p z ∧
        verify V ck com z value proof = .ok true := by
  obtain ⟨k, l, x, y, hx, hy, hcap, l1, l2⟩ := setup_sizes V s s' d ck hd1 hd2 hset
  obtain ⟨rows, f1, f2, f3, f4⟩ := bivariateForm_eq x y p
  obtain ⟨com, coms, value, proof, g1, g2, g3⟩ := TBivariate.C48_forgery V hE hd hse hse' (k + 1) l
    ck (l1.trans hy)
    (l2.trans hx) rows (by omega) (fun r hr => by rw [l1]; exact (f3 r hr).2) (z ^ (y + 1), z)
  refine ⟨com, coms, value, proof, ?_, ?_, ?_⟩
  · rw [commit, parseDegrees_eq l1 l2]
    simp only [ok_bind]
    rw [f1]; exact g1
  · simp only [evalAt_eq] at g2 ⊢
    rwa [f4, List.take_of_length_le (by omega)] at g2
  · rw [verify, parseDegrees_eq l1 l2]; exact g3

end TUnivariate

/-! ## Examples -/

/-- C100 applied: no keys for the coefficients in `X`. -/
example (com : Toy.F) (proof : TpcProof Toy.F Toy.F Toy.F) :
    TUnivariate.commit Toy.env ([3, 5], []) ([1, 2, 3] : List Toy.F) = panic' .overflow ∧
    TUnivariate.verify Toy.env ([3, 5], []) com (5 : Toy.F) 86 proof = panic' .overflow :=
  ⟨(TUnivariate.C100_empty_key Toy.env ([3, 5], []) (.inr rfl) _ [] 0).1,
    TUnivariate.C100_empty_key_verify Toy.env ([3, 5], []) (.inr rfl) _ _ _ _⟩

/-- C47 and C48 apply to `1 + 2 X + 3 X²` (degree bound 3) at the point 5, whose value is 86. -/
example : ∃ ck s' com coms proof value proof', TUnivariate.setup Toy.env 11 3 = .ok (ck, s') ∧
    TUnivariate.commit Toy.env ck ([1, 2, 3] : List Toy.F) = .ok (com, coms) ∧
    TUnivariate.verify Toy.env ck com (5 : Toy.F) 86 proof = .ok true ∧
    value ≠ 86 ∧ TUnivariate.verify Toy.env ck com (5 : Toy.F) value proof' = .ok true := by
  have hval : evalAt ([1, 2, 3] : List Toy.F) 5 = 86 := by decide +kernel
  obtain ⟨x, y, k, l, j, h1, h2, -⟩ := C43_degrees_transparent 3 (by norm_num) (by norm_num)
  obtain ⟨ck, s', h4, -⟩ := TBivariate.C47_setup Toy.env 11 x y
  have hset : TUnivariate.setup Toy.env 11 3 = .ok (ck, s') := by
    rw [TUnivariate.setup, h1]; exact h4
  have hse := searchEnds_of_digest Toy.env.multiexpSsm Toy.digest_length Toy.digest_ne_zero
  have hse' := searchEnds_of_digest Toy.env.scalarSsm Toy.digest_length Toy.digest_ne_zero
  obtain ⟨com, coms, proof, a1, a2, a4⟩ := TUnivariate.C47_complete_total Toy.env Toy.lawful
    Toy.digest_length hse hse' 11 s' 3 ck (by norm_num) (by norm_num) hset [1, 2, 3] (by decide) 5
  obtain ⟨com', coms', value, proof', b1, b3, b4⟩ := TUnivariate.C48_forgery Toy.env Toy.lawful
    Toy.digest_length hse hse' 11 s' 3 ck (by norm_num) (by norm_num) hset [1, 2, 3] (by decide) 5
  rw [a1] at b1
  obtain ⟨rfl, rfl⟩ := Prod.mk.inj (Except.ok.inj b1)
  rw [hval] at a4 b3
  exact ⟨ck, s', com, coms, proof, value, proof', hset, a1, a4, b3, b4⟩

end Ripp
