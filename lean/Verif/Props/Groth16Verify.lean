import Verif.Props.Groth16

/-!
# C50-C53, C64, C65: what the aggregate verifier checks and what it does not

Property statements are in `properties.jsonl`.
-/

set_option linter.unusedSectionVars false
set_option linter.unusedVariables false

namespace Ripp.Groth16

open Spec

variable {ρ F G1 G2 GT TF : Type} [Field F] [DecidableEq F]
  [AddCommGroup G1] [Module F G1] [AddCommGroup G2] [Module F G2] [Monoid TF]
  [AddCommGroup GT] [Module F GT] [DecidableEq G1] [DecidableEq GT]
  {V : Env ρ F G1 G2 GT TF} {e : G1 →ₗ[F] G2 →ₗ[F] GT}

/-! ## C51: panics of the verifier and the aggregator -/

/-- C51: challenge 0 makes the aggregator panic. -/
theorem C51_aggregate_zero (hE : V.E.Lawful e) (srs : SRS G1 G2) (proofs : List (G16Proof G1 G2))
    (n : ℕ) (hn : 2 ≤ n) (hp : proofs.length = n) (h1 : srs.commitmentKeys.1.length = n)
    (h2 : srs.commitmentKeys.2.length = n)
    (hc : challenge V (dot (e · ·) (proofs.map (·.a)) srs.commitmentKeys.1)
      (dot (e · ·) srs.commitmentKeys.2 (proofs.map (·.b)))
      (dot (e · ·) (proofs.map (·.c)) srs.commitmentKeys.1) = .ok 0) :
    aggregate V srs proofs = .error (.panic .unwrap) :=
  aggregate_zero hE srs proofs n hn hp h1 h2 hc

theorem verifyPpe_one (V : Env ρ F G1 G2 GT TF) (vk : G16VK G1 G2) (inputs : List (List F))
    (ipAB : GT) (aggC : G1) : verifyPpe V vk inputs 1 ipAB aggC = .error (.panic .unwrap) := by
  simp [verifyPpe, panic']

theorem verifyPpe_nil (hE : V.E.Lawful e) (vk : G16VK G1 G2) (r : F) (hr : r ≠ 1)
    (ipAB : GT) (aggC : G1) : verifyPpe V vk [] r ipAB aggC = .error (.panic .bounds) := by
  rw [verifyPpe, inverse_of_ne (sub_ne_zero.mpr hr)]
  simp only [unwrap_some, ok_bind]
  rw [hE.pairing_eq]
  rfl

theorem verifyPpe_size (hE : V.E.Lawful e) (vk : G16VK G1 G2) (row0 : List F) (rows : List (List F))
    (hl : vk.gammaAbc.length ≠ row0.length + 1) (r : F) (hr : r ≠ 1)
    (ipAB : GT) (aggC : G1) :
    verifyPpe V vk (row0 :: rows) r ipAB aggC = .error (.panic .assertion) := by
  rw [verifyPpe, inverse_of_ne (sub_ne_zero.mpr hr)]
  simp only [unwrap_some, ok_bind]
  rw [hE.pairing_eq]
  simp only [idx_cons_zero, ok_bind]
  have ha : (vk.gammaAbc.length == row0.length + 1) = false := by simp [hl]
  rw [ha]; rfl

theorem verifyPpe_short (hE : V.E.Lawful e) (vk : G16VK G1 G2) (row0 : List F) (rows : List (List F))
    (hl : vk.gammaAbc.length = row0.length + 1) (hs : ∃ row ∈ rows, row.length < row0.length) (r : F)
    (hr : r ≠ 1) (ipAB : GT) (aggC : G1) :
    verifyPpe V vk (row0 :: rows) r ipAB aggC = .error (.panic .bounds) := by
  obtain ⟨alpha, beta, gamma, delta, abcs⟩ := vk
  cases abcs with
  | nil => simp at hl
  | cons abc0 abc =>
    rw [verifyPpe, inverse_of_ne (sub_ne_zero.mpr hr)]
    simp only [unwrap_some, ok_bind]
    rw [hE.pairing_eq]
    simp only [idx_cons_zero, ok_bind]
    have ha : ((abc0 :: abc).length == row0.length + 1) = true := by simpa using hl
    rw [ha]
    simp only [assert_true, ok_bind]
    rw [structuredScalarPower_eq, max_eq_right (by simp)]
    simp only [ok_bind, List.drop_one, List.tail_cons]
    rw [inputLoop_err _ _ _ (by simp [powers])]
    · rfl
    · obtain ⟨row, hr, hlt⟩ := hs
      refine ⟨row, by simp [hr], ?_⟩
      simp at hl; omega
    · simp

/-- The shape conditions implied by a normal return of the pairing equation check. -/
theorem verifyPpe_shape (hE : V.E.Lawful e) (vk : G16VK G1 G2) (inputs : List (List F)) (r : F)
    (ipAB : GT) (aggC : G1) (b : Bool) (h : verifyPpe V vk inputs r ipAB aggC = .ok b) :
    r ≠ 1 ∧ ∃ row0 rows, inputs = row0 :: rows ∧ vk.gammaAbc.length = row0.length + 1 ∧
      ∀ row ∈ rows, row0.length ≤ row.length := by
  have hr : r ≠ 1 := by
    rintro rfl
    rw [verifyPpe_one] at h; cases h
  refine ⟨hr, ?_⟩
  cases inputs with
  | nil => rw [verifyPpe_nil hE vk r hr] at h; cases h
  | cons row0 rows =>
    refine ⟨row0, rows, rfl, ?_⟩
    by_cases hl : vk.gammaAbc.length = row0.length + 1
    · refine ⟨hl, ?_⟩
      by_contra hcon
      push Not at hcon
      rw [verifyPpe_short hE vk row0 rows hl hcon r hr] at h
      cases h
    · rw [verifyPpe_size hE vk row0 rows hl r hr] at h; cases h

section
variable (v : VerifierSRS G1 G2) (vk : G16VK G1 G2) (inputs : List (List F))
  (proof : AggProof F G1 G2 GT) (r : F) (b1 b2 : Bool)

/-- The two TIPA checks of the verifier return normally. -/
structure Checked (V : Env ρ F G1 G2 GT TF) (v : VerifierSRS G1 G2) (proof : AggProof F G1 G2 GT)
    (r : F) (b1 b2 : Bool) : Prop where
  hc : challenge V proof.comA proof.comB proof.comC = .ok r
  ab : Tipa.verifyWithShift V.tipa V.pairingAB v PUnit.unit
    (proof.comA, proof.comB, ⟨[proof.ipAB]⟩) proof.proofAB r = .ok b1
  c : TipaSsm.verify V.X V.tipa V.multiexpSsm v PUnit.unit proof.comC ⟨[proof.aggC]⟩ r
    proof.proofC = .ok b2

theorem Checked.verify_eq {V : Env ρ F G1 G2 GT TF} {v : VerifierSRS G1 G2}
    {proof : AggProof F G1 G2 GT} {r : F} {b1 b2 : Bool} (H : Checked V v proof r b1 b2)
    (vk : G16VK G1 G2) (inputs : List (List F)) : verify V v vk inputs proof =
      (verifyPpe V vk inputs r proof.ipAB proof.aggC).map (fun b => b1 && b2 && b) :=
  verify_of_checks v vk inputs proof r b1 b2 H.hc H.ab H.c

/-- A normal return of the verifier means that all parts returned normally. -/
theorem verify_ok (V : Env ρ F G1 G2 GT TF) (b : Bool) (h : verify V v vk inputs proof = .ok b) :
    ∃ r b1 b2 b3, Checked V v proof r b1 b2 ∧
      verifyPpe V vk inputs r proof.ipAB proof.aggC = .ok b3 ∧ b = (b1 && b2 && b3) := by
  rw [verify] at h
  obtain ⟨r, hr, h⟩ := bind_eq_ok.mp h
  obtain ⟨b1, h1, h⟩ := bind_eq_ok.mp h
  obtain ⟨b2, h2, h⟩ := bind_eq_ok.mp h
  obtain ⟨b3, h3, h⟩ := bind_eq_ok.mp h
  exact ⟨r, b1, b2, b3, ⟨hr, h1, h2⟩, h3, (Except.ok.inj h).symm⟩

/-- C51: challenge 1 makes the verifier panic, whatever the verdict of the TIPA checks. -/
theorem C51_verify_one (H : Checked V v proof 1 b1 b2) :
    verify V v vk inputs proof = .error (.panic .unwrap) := by
  rw [H.verify_eq, verifyPpe_one]; rfl

/-- C51: no public inputs make the verifier panic. -/
theorem C51_verify_no_inputs (hE : V.E.Lawful e) (H : Checked V v proof r b1 b2) (hr : r ≠ 1) :
    verify V v vk [] proof = .error (.panic .bounds) := by
  rw [H.verify_eq, verifyPpe_nil hE vk r hr]; rfl

/-- C51: a verifying key that does not fit the first row makes the verifier panic. -/
theorem C51_verify_key_size (hE : V.E.Lawful e) (H : Checked V v proof r b1 b2) (hr : r ≠ 1)
    (row0 : List F) (rows : List (List F)) (hl : vk.gammaAbc.length ≠ row0.length + 1) :
    verify V v vk (row0 :: rows) proof = .error (.panic .assertion) := by
  rw [H.verify_eq, verifyPpe_size hE vk row0 rows hl r hr]; rfl

/-- C53: a later row shorter than the first makes the verifier panic. -/
theorem C53_short_row (hE : V.E.Lawful e) (H : Checked V v proof r b1 b2) (hr : r ≠ 1)
    (row0 : List F) (rows : List (List F)) (hl : vk.gammaAbc.length = row0.length + 1)
    (hs : ∃ row ∈ rows, row.length < row0.length) :
    verify V v vk (row0 :: rows) proof = .error (.panic .bounds) := by
  rw [H.verify_eq, verifyPpe_short hE vk row0 rows hl hs r hr]; rfl

end

/-! ## C53 and C52: which parts of the public inputs matter -/

theorem inputLoop_congr (X : Exec) (inputs inputs' : List (List F)) (rVec : List F) :
    ∀ (bs : List G1) (i : ℕ) (acc : G1),
    (∀ t, i ≤ t → t < i + bs.length →
      ((inputs.mapM fun row => idx row t) >>= fun col => scalarIP X col rVec) =
      ((inputs'.mapM fun row => idx row t) >>= fun col => scalarIP X col rVec)) →
    inputLoop X inputs rVec bs i acc = inputLoop X inputs' rVec bs i acc
  | [], _, _, _ => rfl
  | b :: bs, i, acc, h => by
    have h0 := h i le_rfl (by simp)
    have ih := fun acc' => inputLoop_congr X inputs inputs' rVec bs (i + 1) acc' fun t h1 h2 =>
      h t (by omega) (by simp; omega)
    have e : ∀ ins : List (List F), inputLoop X ins rVec (b :: bs) i acc =
        (((ins.mapM fun row => idx row i) >>= fun col => scalarIP X col rVec) >>= fun s =>
          inputLoop X ins rVec bs (i + 1) (acc + s • b)) := by
      intro ins
      rw [inputLoop]
      cases (ins.mapM fun row => idx row i : Res (List F)) <;> rfl
    rw [e, e, h0]
    congr 1
    funext s
    exact ih _

theorem verifyPpe_congr (V : Env ρ F G1 G2 GT TF) (vk : G16VK G1 G2) (row0 row0' : List F)
    (rows rows' : List (List F)) (hl0 : row0.length = row0'.length) (hl : rows.length = rows'.length)
    (r : F) (h : ∀ t, t + 1 < vk.gammaAbc.length → t < row0.length →
      (((row0 :: rows).mapM fun row => idx row t) >>= fun col =>
        scalarIP V.X col (powers r (rows.length + 1))) =
      (((row0' :: rows').mapM fun row => idx row t) >>= fun col =>
        scalarIP V.X col (powers r (rows.length + 1)))) (ipAB : GT) (aggC : G1) :
    verifyPpe V vk (row0 :: rows) r ipAB aggC = verifyPpe V vk (row0' :: rows') r ipAB aggC := by
  rw [verifyPpe, verifyPpe]
  simp only [idx_cons_zero, ok_bind, List.length_cons]
  rw [← hl, ← hl0]
  congr 1
  funext i
  congr 1
  funext p1
  by_cases ha : vk.gammaAbc.length = row0.length + 1
  · congr 1
    funext _
    rw [structuredScalarPower_eq, max_eq_right (by omega)]
    simp only [ok_bind]
    congr 1
    funext abc0
    rw [inputLoop_congr V.X _ (row0' :: rows')]
    intro t _ ht
    simp at ht
    exact h t (by omega) (by omega)
  · have : (vk.gammaAbc.length == row0.length + 1) = false := by simp [ha]
    rw [this]; rfl

/-- C53: values appended to any row but the first do not change the result (verdict, error or
panic). -/
theorem C53_extra_ignored (V : Env ρ F G1 G2 GT TF) (v : VerifierSRS G1 G2) (vk : G16VK G1 G2)
    (row0 : List F) (rows rows' : List (List F))
    (h : List.Forall₂ (fun row row' => row0.length ≤ row.length ∧ row <+: row') rows rows')
    (proof : AggProof F G1 G2 GT) :
    verify V v vk (row0 :: rows) proof = verify V v vk (row0 :: rows') proof := by
  have key : ∀ r ipAB aggC, verifyPpe V vk (row0 :: rows) r ipAB aggC =
      verifyPpe V vk (row0 :: rows') r ipAB aggC := by
    intro r ipAB aggC
    apply verifyPpe_congr V vk row0 row0 rows rows' rfl h.length_eq
    intro t _ ht
    have : ((row0 :: rows).mapM fun row => idx row t : Res (List F)) =
        (row0 :: rows').mapM fun row => idx row t := by
      rw [List.mapM_cons, List.mapM_cons]
      congr 1
      funext x
      congr 1
      induction h with
      | nil => rfl
      | @cons a b l1 l2 hab _ ih =>
        rw [List.mapM_cons, List.mapM_cons, ih]
        have : idx a t = idx b t := by
          obtain ⟨s, rfl⟩ := hab.2
          rw [idx, idx, List.getElem?_append_left (by omega)]
        rw [this]
    rw [this]
  simp only [verify, key]

/-- The column sum `Σ_i r^i x_{i,t}` of the public inputs. -/
def colSum (r : F) (inputs : List (List F)) (t : ℕ) : F :=
  dot (· * ·) (inputs.map fun row => row.getD t 0) (powers r inputs.length)

/-- C52: the result depends on the public inputs only through their shape and the column sums weighted
with the powers of the challenge. -/
theorem C52_depends_on_column_sums (V : Env ρ F G1 G2 GT TF) (vk : G16VK G1 G2)
    (inputs inputs' : List (List F)) (hl : inputs.length = inputs'.length)
    (m : ℕ) (hm : ∀ row ∈ inputs, row.length = m) (hm' : ∀ row ∈ inputs', row.length = m) (r : F)
    (h : ∀ t < m, colSum r inputs t = colSum r inputs' t) (ipAB : GT) (aggC : G1) :
    verifyPpe V vk inputs r ipAB aggC = verifyPpe V vk inputs' r ipAB aggC := by
  cases inputs with
  | nil => cases inputs' with
    | nil => rfl
    | cons => simp at hl
  | cons row0 rows => cases inputs' with
    | nil => simp at hl
    | cons row0' rows' =>
      have hl' : rows.length = rows'.length := by simpa using hl
      apply verifyPpe_congr V vk row0 row0' rows rows' (by rw [hm row0 (by simp), hm' row0' (by simp)])
        hl'
      intro t _ ht
      have hlt : t < m := by rw [← hm row0 (by simp)]; exact ht
      rw [column_ok _ _ fun row hr => by rw [hm row hr]; exact hlt,
        column_ok _ _ fun row hr => by rw [hm' row hr]; exact hlt]
      simp only [ok_bind]
      rw [scalarIP_eq _ _ _ (by simp [powers]), scalarIP_eq _ _ _ (by simp [powers, hl'])]
      have := h t hlt
      rw [colSum, colSum] at this
      simp only [List.length_cons] at this
      rw [this, hl']

theorem dot_set (j : ℕ) (x : F) : ∀ (l rs : List F), j < l.length → l.length = rs.length →
    dot (· * ·) (l.set j x) rs = dot (· * ·) (l.set j 0) rs + x * rs.getD j 0 := by
  induction j with
  | zero =>
    intro l rs h1 h2
    cases l with
    | nil => simp at h1
    | cons a as => cases rs with
      | nil => simp at h2
      | cons b bs => simp; ring
  | succ j ih =>
    intro l rs h1 h2
    cases l with
    | nil => simp at h1
    | cons a as => cases rs with
      | nil => simp at h2
      | cons b bs =>
        simp only [List.set_cons_succ, dot_cons, List.getD_cons_succ]
        rw [ih as bs (by simpa using h1) (by simpa using h2)]; ring

/-- For every target there is a row `j` giving the prescribed column sums. -/
theorem exists_row (r : F) (hr : r ≠ 0) (inputs : List (List F)) (j : ℕ) (hj : j < inputs.length)
    (m : ℕ) (target : ℕ → F) : ∃ row : List F, row.length = m ∧
      ∀ t < m, colSum r (inputs.set j row) t = target t := by
  refine ⟨(List.range m).map fun t => (target t - colSum r (inputs.set j []) t) * (r ^ j)⁻¹, by simp, ?_⟩
  intro t ht
  have key : ∀ row : List F, colSum r (inputs.set j row) t =
      colSum r (inputs.set j []) t + row.getD t 0 * r ^ j := by
    intro row
    rw [colSum, colSum, List.map_set, List.map_set, List.length_set, List.length_set,
      dot_set j _ _ _ (by simpa using hj) (by simp [powers])]
    congr 2
    simp [powers, List.getD_eq_getElem?_getD, hj]
  rw [key]
  have : ((List.range m).map fun t => (target t - colSum r (inputs.set j []) t) * (r ^ j)⁻¹).getD t 0 =
      (target t - colSum r (inputs.set j []) t) * (r ^ j)⁻¹ := by
    simp [List.getD_eq_getElem?_getD, ht]
  rw [this, mul_assoc, inv_mul_cancel₀ (pow_ne_zero _ hr)]
  ring

/-- The challenge of an accepted aggregate proof is not zero. -/
theorem Checked.ne_zero {v : VerifierSRS G1 G2} {proof : AggProof F G1 G2 GT} {r : F} {b1 b2 : Bool}
    (H : Checked V v proof r b1 b2) : r ≠ 0 := by
  rintro rfl
  have h := H.ab
  rw [Tipa.verifyWithShift] at h
  obtain ⟨x, h1, h⟩ := bind_eq_ok.mp h
  obtain ⟨y, h2, h⟩ := bind_eq_ok.mp h
  obtain ⟨z, h3, h⟩ := bind_eq_ok.mp h
  simp at h

theorem take_congr (V : Env ρ F G1 G2 GT TF) (v : VerifierSRS G1 G2) (vk : G16VK G1 G2)
    (row0 : List F) (rows : List (List F)) (hs : ∀ row ∈ rows, row0.length ≤ row.length)
    (proof : AggProof F G1 G2 GT) :
    verify V v vk (row0 :: rows) proof =
      verify V v vk (row0 :: rows.map (·.take row0.length)) proof := by
  symm
  apply C53_extra_ignored
  induction rows with
  | nil => exact .nil
  | cons row rows ih =>
    refine .cons ⟨?_, List.take_prefix _ _⟩ (ih fun row hr => hs row (by simp [hr]))
    have := hs row (by simp)
    simp [this]

/-- C52 (violated expectation): an accepted aggregate proof is accepted for every choice of all but one
of the public input rows; the remaining row `j` is then determined by linear equations. `m` is the
number of public inputs of the circuit. -/
theorem C52_rebind (hE : V.E.Lawful e) (v : VerifierSRS G1 G2) (vk : G16VK G1 G2)
    (inputs : List (List F)) (proof : AggProof F G1 G2 GT)
    (hacc : verify V v vk inputs proof = .ok true) (m : ℕ) (hm : vk.gammaAbc.length = m + 1)
    (inputs' : List (List F)) (hl : inputs'.length = inputs.length)
    (hrows : ∀ row ∈ inputs', row.length = m) (j : ℕ) (hj : j < inputs.length) :
    ∃ row : List F, row.length = m ∧ verify V v vk (inputs'.set j row) proof = .ok true := by
  obtain ⟨r, b1, b2, b3, H, hppe, hb⟩ := verify_ok v vk inputs proof V true hacc
  obtain ⟨hr1, row0, rows, rfl, hl0, hge⟩ := verifyPpe_shape hE vk inputs r _ _ _ hppe
  have hm0 : row0.length = m := by omega
  rw [take_congr V v vk row0 rows hge proof] at hacc
  have hlen : ∀ row ∈ row0 :: rows.map (·.take row0.length), row.length = m := by
    intro row hr
    rcases List.mem_cons.mp hr with rfl | hr
    · exact hm0
    · obtain ⟨row', hr', rfl⟩ := List.mem_map.mp hr
      have := hge row' hr'
      simp; omega
  obtain ⟨row, h1, h2⟩ := exists_row r H.ne_zero inputs' j (by omega) m
    (colSum r (row0 :: rows.map (·.take row0.length)))
  refine ⟨row, h1, ?_⟩
  rw [H.verify_eq] at hacc ⊢
  rw [← hacc]
  congr 1
  refine C52_depends_on_column_sums V vk _ _ (by simp [hl]) m ?_ hlen r h2 _ _
  intro row' hr'
  rcases List.mem_or_eq_of_mem_set hr' with hr' | rfl
  · exact hrows row' hr'
  · exact h1

/-- C52 (violated expectation): with at least two rows and at least one public input per row, every
accepted aggregate proof is accepted for different public inputs. -/
theorem C52_not_bound (hE : V.E.Lawful e) (v : VerifierSRS G1 G2) (vk : G16VK G1 G2)
    (inputs : List (List F)) (proof : AggProof F G1 G2 GT)
    (hacc : verify V v vk inputs proof = .ok true) (hn : 2 ≤ inputs.length)
    (hm : 2 ≤ vk.gammaAbc.length) :
    ∃ inputs' : List (List F), (inputs'.head? ≠ inputs.head?) ∧ inputs'.length = inputs.length ∧
      (∀ row ∈ inputs', row.length + 1 = vk.gammaAbc.length) ∧
      verify V v vk inputs' proof = .ok true := by
  obtain ⟨r, b1, b2, b3, H, hppe, hb⟩ := verify_ok v vk inputs proof V true hacc
  obtain ⟨hr1, row0, rows, rfl, hl0, hge⟩ := verifyPpe_shape hE vk inputs r _ _ _ hppe
  obtain ⟨m, hm1⟩ : ∃ m, vk.gammaAbc.length = m + 1 := ⟨row0.length, hl0⟩
  have hm0 : row0.length = m := by omega
  let inputs' : List (List F) := row0.map (· + 1) :: rows.map (·.take m)
  have hlen : ∀ row ∈ inputs', row.length = m := by
    intro row hr
    rcases List.mem_cons.mp hr with rfl | hr
    · simp [hm0]
    · obtain ⟨row', hr', rfl⟩ := List.mem_map.mp hr
      have := hge row' hr'
      simp; omega
  obtain ⟨row, h1, h2⟩ := C52_rebind hE v vk (row0 :: rows) proof hacc m hm1 inputs' (by simp [inputs'])
    hlen 1 hn
  refine ⟨inputs'.set 1 row, ?_, by simp [inputs'], ?_, h2⟩
  · simp only [inputs', List.set_cons_succ, List.head?_cons, ne_eq, Option.some.injEq]
    intro h
    cases row0 with
    | nil => simp at hm0; omega
    | cons x xs => simp at h
  · intro row' hr'
    rw [hm1]
    rcases List.mem_or_eq_of_mem_set hr' with hr' | rfl
    · rw [hlen row' hr']
    · rw [h1]

/-! ## C50: the batch equation -/

/-- C50: if some proof violates the Groth16 equation for its row, fewer than `n` challenges make the
aggregate equation hold for the true sums. -/
theorem C50_few_bad_challenges (hE : V.E.Lawful e) (vk : G16VK G1 G2) (proofs : List (G16Proof G1 G2))
    (inputs : List (List F)) (hl : proofs.length = inputs.length)
    (hrow : ∀ row ∈ inputs, row.length + 1 = vk.gammaAbc.length)
    (hbad : ¬ List.Forall₂ (Valid e vk) proofs inputs) (S : Finset F)
    (hS : ∀ r ∈ S, verifyPpe V vk inputs r
      (dot (fun (x : F) (p : G16Proof G1 G2) => x • e p.a p.b) (powers r proofs.length) proofs)
      (dot (fun (x : F) (p : G16Proof G1 G2) => x • p.c) (powers r proofs.length) proofs) = .ok true) :
    S.card ≤ proofs.length - 1 := by
  let D : G16Proof G1 G2 × List F → GT := fun q => e q.1.a q.1.b - (e vk.alpha vk.beta
    + e (dot (fun s g => s • g) (1 :: q.2) vk.gammaAbc) vk.gamma + e q.1.c vk.delta)
  have hne : inputs ≠ [] := by
    rintro rfl
    apply hbad
    rw [List.length_nil, List.length_eq_zero_iff] at hl
    subst hl
    exact .nil
  have hD : ∃ d ∈ (proofs.zip inputs).map D, d ≠ 0 := by
    by_contra hcon
    push Not at hcon
    apply hbad
    rw [List.forall₂_iff_zip]
    refine ⟨hl, ?_⟩
    intro p row hmem
    refine ⟨hrow row (List.of_mem_zip hmem).2, ?_⟩
    have := hcon (D (p, row)) (List.mem_map.mpr ⟨_, hmem, rfl⟩)
    exact sub_eq_zero.mp this
  have hsum : ∀ (rs : List F) (ps : List (G16Proof G1 G2)) (ins : List (List F)),
      ps.length = ins.length → rs.length = ins.length →
      dot (fun (r : F) (d : GT) => r • d) rs ((ps.zip ins).map D) =
        dot (fun (x : F) (p : G16Proof G1 G2) => x • e p.a p.b) rs ps -
        (rs.sum • e vk.alpha vk.beta
        + e (dot (fun (x : F) (row : List F) => x • dot (fun s g => s • g) (1 :: row) vk.gammaAbc)
            rs ins) vk.gamma
        + e (dot (fun (x : F) (p : G16Proof G1 G2) => x • p.c) rs ps) vk.delta) := by
    intro rs
    induction rs with
    | nil => intro ps ins h1 h2; simp
    | cons r rs ih =>
      intro ps ins h1 h2
      cases ins with
      | nil => simp at h2
      | cons row ins => cases ps with
        | nil => simp at h1
        | cons p ps =>
          rw [List.zip_cons_cons, List.map_cons, dot_cons, dot_cons, dot_cons (b := row),
            dot_cons (b := p), ih ps ins (by simpa using h1) (by simpa using h2), List.sum_cons]
          simp only [D, map_add, map_smul, LinearMap.add_apply, LinearMap.smul_apply]
          module
  have := card_roots_dot ((proofs.zip inputs).map D) hD S (by
    intro r hr
    have h := hS r hr
    have hr1 := (verifyPpe_shape hE vk inputs r _ _ _ h).1
    rw [verifyPpe_iff hE vk inputs hne hrow r hr1] at h
    have h := of_decide_eq_true (Except.ok.inj h)
    have hlen : ((proofs.zip inputs).map D).length = inputs.length := by simp [hl]
    rw [hlen, hsum _ _ _ hl (by simp [powers]), ← hl]
    rw [← hl] at h
    rw [h, sub_self])
  rw [List.length_map, List.length_zip, hl, min_self] at this
  omega

/-- C50: conversely, a batch of valid proofs passes for every challenge other than 1. -/
theorem C50_valid_passes (hE : V.E.Lawful e) (vk : G16VK G1 G2) (proofs : List (G16Proof G1 G2))
    (inputs : List (List F)) (hne : inputs ≠ []) (hv : List.Forall₂ (Valid e vk) proofs inputs) (r : F)
    (hr : r ≠ 1) :
    verifyPpe V vk inputs r
      (dot (fun (x : F) (p : G16Proof G1 G2) => x • e p.a p.b) (powers r proofs.length) proofs)
      (dot (fun (x : F) (p : G16Proof G1 G2) => x • p.c) (powers r proofs.length) proofs) = .ok true := by
  rw [verifyPpe_iff hE vk inputs hne (valid_rows hv) r hr]
  have := valid_batchEq hv r
  rw [BatchEq] at this
  simp [this]

/-! ## C64: inputs on which the aggregator fails -/

/-- C64: a reference string of another size than the number of proofs is reported as an error. -/
theorem C64_wrong_size (V : Env ρ F G1 G2 GT TF) (srs : SRS G1 G2) (proofs : List (G16Proof G1 G2))
    (h : srs.commitmentKeys.1.length ≠ proofs.length) :
    aggregate V srs proofs = .error (.ipLength proofs.length srs.commitmentKeys.1.length) := by
  rw [aggregate]
  simp only []
  rw [pairingIP_err _ _ _ _ (by simpa using h.symm)]
  simp

/-- C64: a single proof cannot be aggregated: the aggregator panics. -/
theorem C64_single (hE : V.E.Lawful e) (srs : SRS G1 G2) (p : G16Proof G1 G2)
    (h1 : srs.commitmentKeys.1.length = 1) (h2 : srs.commitmentKeys.2.length = 1) (r : F) (hr : r ≠ 0)
    (hc : challenge V (dot (e · ·) [p.a] srs.commitmentKeys.1)
      (dot (e · ·) srs.commitmentKeys.2 [p.b]) (dot (e · ·) [p.c] srs.commitmentKeys.1) = .ok r) :
    aggregate V srs [p] = .error (.panic .unwrap) := by
  rw [aggregate_eq hE srs [p] 1 le_rfl rfl h1 h2 r hr hc]
  obtain ⟨ka, hka⟩ := List.length_eq_one_iff.mp h1
  obtain ⟨kb, hkb⟩ := List.length_eq_one_iff.mp h2
  rw [hka, hkb]
  have e1 : List.zipWith (fun (a : G1) (r : F) => r • a) ([p].map (·.a)) (powers r 1) = [p.a] := by
    simp [powers]
  have e2 : ([ka].mapIdx fun i k => r⁻¹ ^ i • k) = [ka] := by simp
  rw [e1, e2]
  have := (Tipa.C30_prove_length_one V.tipa V.pairingAB srs p.a p.b ka kb PUnit.unit r).1
  rw [List.map_singleton, this]; rfl

/-- C64: a number of proofs that is not a power of two makes the aggregator panic. -/
theorem C64_not_power_of_two (hE : V.E.Lawful e) (srs : SRS G1 G2) (proofs : List (G16Proof G1 G2))
    (n : ℕ) (hn : 1 ≤ n) (hpow : ∀ k, n ≠ 2 ^ k) (hp : proofs.length = n)
    (h1 : srs.commitmentKeys.1.length = n) (h2 : srs.commitmentKeys.2.length = n) (r : F) (hr : r ≠ 0)
    (hc : challenge V (dot (e · ·) (proofs.map (·.a)) srs.commitmentKeys.1)
      (dot (e · ·) srs.commitmentKeys.2 (proofs.map (·.b)))
      (dot (e · ·) (proofs.map (·.c)) srs.commitmentKeys.1) = .ok r) :
    aggregate V srs proofs = .error (.panic .assertion) := by
  rw [aggregate_eq hE srs proofs n hn hp h1 h2 r hr hc, Tipa.proveWithShift, Gipa.proveWithAux]
  have : isPow2 (List.zipWith (fun (a : G1) (r : F) => r • a) (proofs.map (·.a)) (powers r n)).length =
      false := by
    rw [isPow2_eq_false]
    simpa [powers, hp] using hpow
  rw [this]; rfl

/-! ## C65: the number of proofs is not bound -/

/-- C65: an aggregate of more proofs than there are input rows is accepted if the surplus proofs
satisfy `e(A, B) = e(C, δ)`, for instance if they are all zero. -/
theorem C65_padding (hE : V.E.Lawful e) (hd : ∀ x, 16 ≤ (V.digest x).length)
    (hs1 : V.pairingAB.SearchEnds) (hs2 : V.multiexpSsm.SearchEnds)
    (hrb : DecodesEnd V) (k : ℕ)
    (srs : SRS G1 G2) (g : G1) (h : G2) (α β : F) (hsrs : IsSrs srs g h α β (2 ^ (k + 1)))
    (vk : G16VK G1 G2) (proofs pads : List (G16Proof G1 G2)) (inputs : List (List F))
    (hne : inputs ≠ []) (hp : (proofs ++ pads).length = 2 ^ (k + 1))
    (hv : List.Forall₂ (Valid e vk) proofs inputs)
    (hpad : ∀ p ∈ pads, e p.a p.b = e p.c vk.delta)
    (hr : ∀ cA cB cC r, challenge V cA cB cC = .ok r → r ≠ 0 ∧ r ≠ 1) :
    ∃ v proof, srs.verifierKey = .ok v ∧ aggregate V srs (proofs ++ pads) = .ok proof ∧
      verify V v vk inputs proof = .ok true := by
  refine complete_of_batch_total hE hd hs1 hs2 hrb k srs g h α β hsrs vk (proofs ++ pads) inputs hp hne
    (valid_rows hv) fun r hc => ⟨(hr _ _ _ r hc).1, (hr _ _ _ r hc).2, ?_⟩
  have hb := valid_batchEq hv r
  have hsplit : powers r (proofs ++ pads).length =
      powers r proofs.length ++ (List.range pads.length).map fun i => r ^ (proofs.length + i) := by
    simp [powers, List.range_add, Function.comp_def]
  have hpads : ∀ (rs : List F) (ps : List (G16Proof G1 G2)), (∀ p ∈ ps, e p.a p.b = e p.c vk.delta) →
      dot (fun (x : F) (p : G16Proof G1 G2) => x • e p.a p.b) rs ps =
      e (dot (fun (x : F) (p : G16Proof G1 G2) => x • p.c) rs ps) vk.delta := by
    intro rs ps
    induction ps generalizing rs with
    | nil => intro _; simp
    | cons p ps ih =>
      intro hps
      cases rs with
      | nil => simp
      | cons x xs =>
        simp only [dot_cons, map_add, LinearMap.add_apply, map_smul, LinearMap.smul_apply]
        rw [ih xs fun p hp => hps p (by simp [hp]), hps p (by simp)]
  rw [BatchEq] at hb ⊢
  rw [hsplit, dot_append _ _ _ _ _ (by simp [powers]), dot_append _ _ _ _ _ (by simp [powers]), hb,
    hpads _ pads hpad, map_add, LinearMap.add_apply]
  abel

/-! ## Examples -/

theorem challenge_toy (cA cB cC : Toy.F) : challenge Toy.env cA cB cC = .ok 3 := by
  rw [challenge, show nonceLimit = (nonceLimit - 1) + 1 by decide, searchNonce]
  rfl

/-- A verifying key for a circuit with one public input. -/
def toyVK : G16VK Toy.F Toy.F := ⟨2, 3, 1, 1, [1, 4]⟩

/-- Four valid proofs for the inputs 1, 2, 3, 4. -/
def toyProofs : List (G16Proof Toy.F Toy.F) := [⟨5, 7, 24⟩, ⟨5, 7, 20⟩, ⟨5, 7, 16⟩, ⟨5, 7, 12⟩]

theorem toy_valid : List.Forall₂ (Valid Toy.e toyVK) toyProofs [[1], [2], [3], [4]] :=
  .cons ⟨rfl, by decide⟩ (.cons ⟨rfl, by decide⟩ (.cons ⟨rfl, by decide⟩ (.cons ⟨rfl, by decide⟩ .nil)))

/-- C49 applies to the toy batch. -/
theorem toy_accepted : ∃ v proof, Toy.srs.verifierKey = .ok v ∧
    aggregate Toy.env Toy.srs toyProofs = .ok proof ∧
    verify Toy.env v toyVK [[1], [2], [3], [4]] proof = .ok true :=
  C49_complete_total (V := Toy.env) Toy.lawful Toy.digest_length
    (searchEnds_of_digest _ Toy.digest_length Toy.digest_ne_zero)
    (searchEnds_of_digest _ Toy.digest_length Toy.digest_ne_zero) (Groth16.decodesEnd_of_decodes _ Toy.fromRandomBytes_digest) 1 Toy.srs
    1 1 3 5 Toy.srs_isSrs toyVK toyProofs _ rfl toy_valid
    (fun r hc => by rw [challenge_toy] at hc; cases hc; exact ⟨by decide, by decide⟩)

/-- C52 applied to it: the same aggregate proof is accepted for inputs 50, 60, 70 and some fourth
value, although no proof for 50, 60 or 70 was aggregated. -/
example : ∃ v proof row, Toy.srs.verifierKey = .ok v ∧
    aggregate Toy.env Toy.srs toyProofs = .ok proof ∧
    verify Toy.env v toyVK [[50], [60], [70], row] proof = .ok true := by
  obtain ⟨v, proof, h1, h2, h3⟩ := toy_accepted
  obtain ⟨row, -, h⟩ := C52_rebind Toy.lawful v toyVK _ proof h3 1 rfl [[50], [60], [70], [0]] rfl
    (by simp) 3 (by simp)
  exact ⟨v, proof, row, h1, h2, h⟩

/-- C53 applied to it: surplus values in the second row. -/
example : ∃ v proof, Toy.srs.verifierKey = .ok v ∧
    aggregate Toy.env Toy.srs toyProofs = .ok proof ∧
    verify Toy.env v toyVK [[1], [2, 99, 98], [3], [4]] proof = .ok true := by
  obtain ⟨v, proof, h1, h2, h3⟩ := toy_accepted
  refine ⟨v, proof, h1, h2, ?_⟩
  rw [← h3]
  symm
  apply C53_extra_ignored
  refine .cons ⟨by simp, ⟨[99, 98], rfl⟩⟩ (.cons ⟨by simp, ⟨[], rfl⟩⟩ (.cons ⟨by simp, ⟨[], rfl⟩⟩ .nil))

/-- C51 and C53 applied to it: the verifier panics for no inputs, for a key that is too small and for a
short second row. -/
example : ∃ v proof, Toy.srs.verifierKey = .ok v ∧
    aggregate Toy.env Toy.srs toyProofs = .ok proof ∧
    verify Toy.env v toyVK [] proof = .error (.panic .bounds) ∧
    verify Toy.env v toyVK [[1, 2], [3, 4]] proof = .error (.panic .assertion) ∧
    verify Toy.env v toyVK [[1], []] proof = .error (.panic .bounds) := by
  obtain ⟨v, proof, h1, h2, h3⟩ := toy_accepted
  obtain ⟨r, b1, b2, b3, H, h4, -⟩ := verify_ok v toyVK _ proof Toy.env true h3
  have hr := (verifyPpe_shape Toy.lawful toyVK _ r _ _ _ h4).1
  exact ⟨v, proof, h1, h2, C51_verify_no_inputs v toyVK proof r b1 b2 Toy.lawful H hr,
    C51_verify_key_size v toyVK proof r b1 b2 Toy.lawful H hr [1, 2] [[3, 4]] (by simp [toyVK]),
    C53_short_row v toyVK proof r b1 b2 Toy.lawful H hr [1] [[]] rfl ⟨[], by simp, by simp⟩⟩

/-- C50 applies: the second proof is wrong, so at most three challenges pass. -/
example (S : Finset Toy.F)
    (hS : ∀ r ∈ S, verifyPpe Toy.env toyVK [[1], [7], [3], [4]] r
      (dot (fun (x : Toy.F) (p : G16Proof Toy.F Toy.F) => x • Toy.e p.a p.b)
        (powers r toyProofs.length) toyProofs)
      (dot (fun (x : Toy.F) (p : G16Proof Toy.F Toy.F) => x • p.c)
        (powers r toyProofs.length) toyProofs) = .ok true) : S.card ≤ 3 := by
  refine C50_few_bad_challenges Toy.lawful toyVK toyProofs _ rfl (by simp [toyVK]) ?_ S hS
  intro h
  cases h with
  | cons _ h => cases h with
    | cons h _ =>
      have := h.2
      revert this
      decide

/-- C65 applied to two valid and two zero proofs. -/
example : ∃ v proof, Toy.srs.verifierKey = .ok v ∧
    aggregate Toy.env Toy.srs [⟨5, 7, 24⟩, ⟨5, 7, 20⟩, ⟨0, 0, 0⟩, ⟨0, 0, 0⟩] = .ok proof ∧
    verify Toy.env v toyVK [[1], [2]] proof = .ok true :=
  C65_padding (V := Toy.env) Toy.lawful Toy.digest_length
    (searchEnds_of_digest _ Toy.digest_length Toy.digest_ne_zero)
    (searchEnds_of_digest _ Toy.digest_length Toy.digest_ne_zero) (Groth16.decodesEnd_of_decodes _ Toy.fromRandomBytes_digest) 1 Toy.srs
    1 1 3 5 Toy.srs_isSrs toyVK [⟨5, 7, 24⟩, ⟨5, 7, 20⟩] [⟨0, 0, 0⟩, ⟨0, 0, 0⟩] [[1], [2]] (by simp) rfl
    (.cons ⟨rfl, by decide⟩ (.cons ⟨rfl, by decide⟩ .nil)) (by simp)
    (fun _ _ _ r hc => by rw [challenge_toy] at hc; cases hc; exact ⟨by decide, by decide⟩)

/-- C51 applied: a generator of challenges that always returns 0. -/
example : aggregate { Toy.env with fromRandomBytes := fun _ => some 0 } Toy.srs toyProofs =
    .error (.panic .unwrap) :=
  C51_aggregate_zero (V := { Toy.env with fromRandomBytes := fun _ => some 0 }) Toy.lawful _ _ 4
    (by norm_num) rfl rfl rfl
    (by rw [challenge, show nonceLimit = (nonceLimit - 1) + 1 by decide, searchNonce])

/-- C51 applied: challenge 1. The aggregate of valid proofs passes both TIPA checks, then the verifier
panics. -/
example : ∃ v proof,
    aggregate { Toy.env with fromRandomBytes := fun _ => some 1 } Toy.srs toyProofs = .ok proof ∧
    verify { Toy.env with fromRandomBytes := fun _ => some 1 } v toyVK [[1], [2], [3], [4]] proof =
      .error (.panic .unwrap) := by
  let V : Env ℕ Toy.F Toy.F Toy.F Toy.F Toy.TF := { Toy.env with fromRandomBytes := fun _ => some 1 }
  have hc : ∀ cA cB cC, challenge V cA cB cC = .ok 1 := by
    intro cA cB cC
    rw [challenge, show nonceLimit = (nonceLimit - 1) + 1 by decide, searchNonce]
  have hE : V.E.Lawful Toy.e := Toy.lawful
  have hs : ∀ {MA MB T KA KB KT OA OB OT : Type} (P : Gipa ℕ Toy.F MA MB T KA KB KT OA OB OT),
      P.digest = Toy.digest → P.SearchEnds := fun P h =>
    searchEnds_of_digest P (h ▸ Toy.digest_length) (h ▸ Toy.digest_ne_zero)
  obtain ⟨v, pAB, hv1, hv2, hv3⟩ := Tipa.C29_complete_total (V := V.tipa) (pairingAB_lawful V hE) hE
    Toy.digest_length (hs _ rfl) (Tipa.kzgEnds_of_decodes _ _ _ fun x => ⟨1, rfl⟩) 1 Toy.srs 1 1 3 5 1
    one_ne_zero Toy.srs_isSrs _ _ _ PUnit.unit _ rfl rfl (honest_ab hE Toy.srs toyProofs 4 rfl rfl rfl 1 one_ne_zero)
  obtain ⟨v', pC, hw1, hw2, hw3⟩ := TipaSsm.C34_complete_total (V := V.tipa) (multiexpSsm_lawful V hE)
    hE Toy.digest_length (hs _ rfl) (TipaSsm.kzgEnds_of_decodes _ _ _ fun x => ⟨1, rfl⟩) V.X 1 Toy.srs
    1 1 3 5 (Toy.srs_isSrs.left (by norm_num)) _ (powers (1 : Toy.F) 4) 1 _ PUnit.unit _ _ rfl
    (by rw [structuredScalarPower_eq]; rfl) (honest_c hE Toy.srs toyProofs 4 rfl rfl 1)
  have hvv := Except.ok.inj (hv1.symm.trans hw1)
  subst hvv
  refine ⟨v, _, by rw [aggregate_eq hE Toy.srs toyProofs 4 (by norm_num) rfl rfl rfl 1 one_ne_zero
    (hc _ _ _), hv2]; simp only [ok_bind]; rw [hw2]; rfl, ?_⟩
  exact C51_verify_one (V := V) v toyVK _ _ true true ⟨hc _ _ _, hv3, hw3⟩

/-- C64 applied: three proofs with a reference string of size three. -/
example : aggregate Toy.env ⟨[1, 3, 9, 27, 81], [1, 5, 25, 24, 19], 5, 3⟩
    [⟨5, 7, 24⟩, ⟨5, 7, 20⟩, ⟨5, 7, 16⟩] = .error (.panic .assertion) :=
  C64_not_power_of_two Toy.lawful _ _ 3 (by norm_num)
    (fun k => by
      rcases k with _ | _ | k
      · norm_num
      · norm_num
      · rw [pow_add]; omega) rfl rfl rfl 3 (by decide) (challenge_toy _ _ _)

end Ripp.Groth16
