import Verif.Props.TipaSsmStatic
import Verif.Props.PolyStatic

/-!
# C107: the polynomial commitments with a reference string in the random oracle model

As C103, with C93 for the argument about the row commitments and the KZG equation for the combined row. Commitment,
point and value are fixed before the oracle; the combined row is part of the proof.
-/

set_option linter.unusedSectionVars false
set_option linter.unusedVariables false

namespace Ripp.PcStatic

open Spec Extract SsmExtract Polynomial
open SsmStatic (Known coms coms2 link St foldSt Doomed escape_le)
open GipaStatic (challengeOf withDigest Clash commitTo formal formalKey dot_ofFn dot_formalKey commitTo_formal
  map_accum weights single decodable_single)
open TipaStatic (Comb poly left leftKey Leak)
open TipaSsmStatic (pointInput)
open PolyStatic (row run_eqs follow_end accum_single evalAt_rows)

variable {ρ F G1 G2 GT TF : Type} [Field F] [DecidableEq F]
  [AddCommGroup G1] [Module F G1] [AddCommGroup G2] [Module F G2]
  [AddCommGroup GT] [Module F GT] [Monoid TF] [DecidableEq G1] [DecidableEq GT] {n l : ℕ}

/-- Coefficients of the powers of `α`, and of `β`: what a prover knows about an element of `G1`. -/
abbrev Row (l : ℕ) (F : Type) := (Fin l → F) × F

/-- The element of `G1`. -/
def element (w : Fin l → G1) (gb : G1) : Row l F →ₗ[F] G1 :=
  (row w).coprod (LinearMap.toSpanSingleton F G1 gb)

/-- The value at `y` of the polynomial in `α`. -/
def valueAt (y : F) : Row l F →ₗ[F] F :=
  (commitTo (mulMap F) fun j : Fin l => y ^ (j : ℕ)) ∘ₗ LinearMap.fst F (Fin l → F) F

theorem valueAt_apply (y : F) (r : Row l F) : valueAt y r = ∑ j, r.1 j * y ^ (j : ℕ) := rfl

/-- The polynomial in `α`. -/
noncomputable def rowPoly (r : Row l F) : F[X] := ∑ j, C (r.1 j) * X ^ (j : ℕ)

theorem eval_rowPoly (r : Row l F) (y : F) : (rowPoly r).eval y = valueAt y r := by
  simp [rowPoly, valueAt_apply, eval_finsetSum]

/-- The trapdoors are a zero of the non-zero polynomial that belongs to the combined row `u` and the quotient `o`. -/
def RowLeak (u o : Row l F) (value y α β : F) : Prop :=
  (powerPart (rowPoly u) (rowPoly o) value y).eval α + β * (otherPart u.2 o.2 y).eval α = 0 ∧
    ¬ (powerPart (rowPoly u) (rowPoly o) value y = 0 ∧ otherPart u.2 o.2 y = 0)

/-- The argument about row commitments, with the rows in their place. -/
def rowSsm (V : Env ρ F G1 G2 GT TF) (ι : Row l F →ₗ[F] G1) :
    Gipa ρ F (Row l F) F G1 G2 Placeholder Placeholder GT F (IdentityOutput G1) :=
  ssmGipa (fun a b => V.multiexpSsm.ip (a.map ι) b)
    ⟨V.multiexpSsm.lmc.setup, fun k m => V.multiexpSsm.lmc.commit k (m.map ι)⟩ V.multiexpSsm.ipc V.digest V.serF
    V.serGT (serIdentity V.serG1)

/-- The bilinear maps of this argument. -/
def rowSmul (ι : Row l F →ₗ[F] G1) : Row l F →ₗ[F] F →ₗ[F] G1 := smulMap F G1 ∘ₗ ι

def rowPair (e : G1 →ₗ[F] G2 →ₗ[F] GT) (ι : Row l F →ₗ[F] G1) : Row l F →ₗ[F] G2 →ₗ[F] GT := e ∘ₗ ι

/-- The commitment to an inner product. -/
def output (ι : Row l F →ₗ[F] G1) (r : Row l F) : IdentityOutput G1 := single (ι r)

theorem dot_map {M N K O : Type} [AddCommMonoid O] (f : N → K → O) (g : M → N) :
    ∀ (a : List M) (b : List K), dot f (a.map g) b = dot (fun x y => f (g x) y) a b
  | [], _ => by simp
  | _ :: _, [] => by simp
  | x :: a, y :: b => by simp [dot_map f g a b]

theorem rowSsm_lawful (V : Env ρ F G1 G2 GT TF) {e : G1 →ₗ[F] G2 →ₗ[F] GT} (hE : V.E.Lawful e)
    (ι : Row l F →ₗ[F] G1) : (rowSsm V ι).Lawful (rowSmul ι) (rowPair e ι) 0 idψ := by
  have L := multiexpSsm_lawful V hE
  refine ⟨fun a b h => ?_, fun k m h => ?_, fun k m h => L.rmc_ok k m h, L.ipc_ok, L.ψ_add, L.ψ_smul⟩
  · refine (L.ip_ok (a.map ι) b (by simpa using h)).trans ?_
    rw [dot_map]; rfl
  · refine (L.lmc_ok k (m.map ι) (by simpa using h)).trans ?_
    rw [dot_map]; rfl

/-- The verifier, seen from the rows. -/
def mapProof (ι : Row l F →ₗ[F] G1) (p : TipaSsmProof F G2 (Row l F) GT (IdentityOutput G1)) :
    TipaSsmProof F G2 G1 GT (IdentityOutput G1) where
  gipa := ⟨p.gipa.steps, (ι p.gipa.base.1, p.gipa.base.2)⟩
  finalCk := p.finalCk
  finalCkProof := p.finalCkProof

theorem recLoop_rowSsm (V : Env ρ F G1 G2 GT TF) (ι : Row l F →ₗ[F] G1) (D : Bytes → Bytes) :
    ∀ steps com tr, (withDigest (rowSsm V ι) D).recLoop steps com tr =
      ({ V with digest := D } : Env ρ F G1 G2 GT TF).multiexpSsm.recLoop steps com tr := by
  intro steps
  induction steps with
  | nil => intro _ _; rfl
  | cons s steps ih =>
    intro com tr
    have : (withDigest (rowSsm V ι) D).challenge (tr.getLast?.getD 0) s.1 s.2 =
      ({ V with digest := D } : Env ρ F G1 G2 GT TF).multiexpSsm.challenge (tr.getLast?.getD 0) s.1 s.2 := rfl
    rw [Gipa.recLoop, Gipa.recLoop, this]
    cases ({ V with digest := D } : Env ρ F G1 G2 GT TF).multiexpSsm.challenge (tr.getLast?.getD 0) s.1 s.2 with
    | error x => rfl
    | ok c => exact ih _ _

theorem verify_rowSsm (V : Env ρ F G1 G2 GT TF) (ι : Row l F →ₗ[F] G1) (D : Bytes → Bytes)
    (v : VerifierSRS G1 G2) (comA : GT) (comT : IdentityOutput G1) (b : F)
    (p : TipaSsmProof F G2 (Row l F) GT (IdentityOutput G1)) :
    TipaSsm.verify V.X V.tipa (withDigest (rowSsm V ι) D) v PUnit.unit comA comT b p =
      TipaSsm.verify V.X V.tipa ({ V with digest := D } : Env ρ F G1 G2 GT TF).multiexpSsm v PUnit.unit comA comT b
        (mapProof ι p) := by
  have : (withDigest (rowSsm V ι) D).recursiveChallenges (comA, b, comT) p.gipa =
      ({ V with digest := D } : Env ρ F G1 G2 GT TF).multiexpSsm.recursiveChallenges (comA, b, comT)
        (mapProof ι p).gipa := by
    rw [Gipa.recursiveChallenges, recLoop_rowSsm]
    rfl
  rw [TipaSsm.verify, this]
  rfl

/-- A prover as in C93 that outputs also the combined row and the quotient. -/
structure Prover (n l : ℕ) (F : Type) (Xs Ds : Finset Bytes) extends
    toTipa : TipaSsmStatic.Prover n F (Row l F) (Row l F) Xs Ds where
  combined : List Ds → Row l F
  quotient : List Ds → Row l F

variable (V : Env ρ F G1 G2 GT TF) (e : G1 →ₗ[F] G2 →ₗ[F] GT) (srs : SRS G1 G2) (ι : Row l F →ₗ[F] G1)
  {Xs Ds : Finset Bytes}

/-- The proof. -/
def Prover.pcProof (A : Prover n l F Xs Ds) (Q : ℕ) (H : Xs → Ds) : PcProof F G1 G2 GT where
  ip := mapProof ι (A.tipaProof (rowPair e ι) (output ι) srs Q H)
  yEvalComm := ι (A.combined (Oracle.trace A.query H Q))
  kzg := ι (A.quotient (Oracle.trace A.query H Q))

variable (hmem : ∀ (k : F) z, (rowSsm V ι).hashInput 0 k
    (coms2 (rowPair e ι) (output ι) (leftKey srs (1 : F) n) z).1
    (coms2 (rowPair e ι) (output ι) (leftKey srs (1 : F) n) z).2 ∈ Xs)

/-- Two vectors of rows: the combination of the known openings, and the one the base stands for. -/
noncomputable def Prover.rowsPair (A : Prover n l F Xs Ds) (ra : Fin n → Row l F) (Q k : ℕ) (H : Xs → Ds) :
    (Fin n → Row l F) × (Fin n → Row l F) :=
  A.toTipa.toProver.pair (rowSsm V ι) (rowPair e ι) (output ι) (leftKey srs (1 : F) n) hmem ra Q k H

/-- Two rows: the combined row with the known openings, and the base times the folded powers of `x`. -/
noncomputable def Prover.combinedPair (A : Prover n l F Xs Ds) (x : F) (Q k : ℕ) (H : Xs → Ds) :
    Row l F × Row l F :=
  (accum (A.toTipa.toProver.challenges (rowSsm V ι) (rowPair e ι) (output ι) (leftKey srs (1 : F) n) hmem Q H)
      ((A.toTipa.toProver.openings (rowSsm V ι) (rowPair e ι) (output ι) (leftKey srs (1 : F) n) hmem Q k H).map
        fun z => (z.1.2.2, z.2.2.2))
      (A.combined (Oracle.trace A.query H Q)),
    (foldAll ((A.toTipa.toProver.challenges (rowSsm V ι) (rowPair e ι) (output ι) (leftKey srs (1 : F) n) hmem
      Q H).map (·⁻¹)) ((List.range n).map (x ^ ·))).headD 0 • (A.base (Oracle.trace A.query H Q)).1)

/-- The prover found two different vectors of rows, or two different rows, with the same commitment. -/
def Prover.Collides (A : Prover n l F Xs Ds) (ra : Fin n → Row l F) (x : F) (Q k : ℕ) (H : Xs → Ds) : Prop :=
  Clash (rowPair e ι) (leftKey srs (1 : F) n) (A.rowsPair V e srs ι hmem ra Q k H) ∨
    (A.combinedPair V e srs ι hmem x Q k H).1 ≠ (A.combinedPair V e srs ι hmem x Q k H).2 ∧
      ι (A.combinedPair V e srs ι hmem x Q k H).1 = ι (A.combinedPair V e srs ι hmem x Q k H).2

variable {V e srs ι}

open Classical in
/-- The count, for oracles for which the argument is an accepting run without collision and the combined row has the
claimed value. -/
theorem count_value (hF : Decodable (fun _ => True) V.serF) (hG : Decodable (fun _ => True) V.serG1)
    (hT : Decodable (fun _ => True) V.serGT) (m : ℕ)
    (hm : ∀ x : F, (Finset.univ.filter fun d : Ds => challengeOf F d = x).card ≤ m) (k : ℕ)
    (hn : n = 2 ^ k) (ra : Fin n → Row l F) (x y value : F)
    (hfalse : value ≠ ∑ i, ∑ j, (ra i).1 j * x ^ (i : ℕ) * y ^ (j : ℕ)) (A : Prover n l F Xs Ds)
    (Q : ℕ)
    (hlab : ∀ ds z c, A.query ds = link (rowSsm V ι) (rowPair e ι) (output ι) (leftKey srs (1 : F) n) hmem z c →
      coms2 (rowPair e ι) (output ι) (leftKey srs (1 : F) n) (A.label ds) =
        coms2 (rowPair e ι) (output ι) (leftKey srs (1 : F) n) z)
    (hsteps : ∀ ds, (A.steps ds).length = k) (W : Finset (Xs → Ds))
    (hW : ∀ H ∈ W, valueAt y (A.combined (Oracle.trace A.query H Q)) = value ∧
      Run (rowSmul ι) (rowPair e ι) (idψ PUnit.unit) (List.ofFn (leftKey srs (1 : F) n))
        ((List.range (2 ^ k)).map (x ^ ·))
        (commitTo (rowPair e ι) (leftKey srs (1 : F) n) ra, output ι (A.combined (Oracle.trace A.query H Q)))
        (A.toTipa.toProver.challenges (rowSsm V ι) (rowPair e ι) (output ι) (leftKey srs (1 : F) n) hmem Q H)
        (outer (A.toTipa.toProver.proof (rowPair e ι) (output ι) (leftKey srs (1 : F) n) Q H).steps.reverse)
        (A.base (Oracle.trace A.query H Q)).1 ∧
      ¬ A.Collides V e srs ι hmem ra x Q k H) :
    W.card * Ds.card ≤ (Q + k) * (Q + k + 4) * m * Ds.card ^ Xs.card := by
  have hTo : Decodable (· ∈ Set.range (output ι)) (rowSsm V ι).serT := by
    intro a b s t ha hb h
    obtain ⟨a, rfl⟩ := ha
    obtain ⟨b, rfl⟩ := hb
    exact decodable_single hG _ _ _ _ ⟨_, rfl⟩ ⟨_, rfl⟩ h
  have hinj : ∀ (z : Known n F (Row l F) (Row l F) × Known n F (Row l F) (Row l F)) (c : F) z' c',
      link (rowSsm V ι) (rowPair e ι) (output ι) (leftKey srs (1 : F) n) hmem z c =
        link (rowSsm V ι) (rowPair e ι) (output ι) (leftKey srs (1 : F) n) hmem z' c' → c = c' := by
    intro z c z' c' h
    have h := congrArg Subtype.val h
    simp only [link, Gipa.hashInput, List.append_assoc] at h
    obtain ⟨-, h⟩ := decodable_nonce _ _ _ _ (by norm_num) (by norm_num) h
    exact (hF _ _ _ _ trivial trivial h).1
  have hm' : ∀ (x : F) (S : Finset Ds), (∀ d ∈ S, challengeOf F d = x) → S.card ≤ m := fun x S hS =>
    (Finset.card_le_card fun d hd => Finset.mem_filter.mpr ⟨Finset.mem_univ _, hS d hd⟩).trans (hm x)
  let px : List F := List.ofFn fun i : Fin n => x ^ (i : ℕ)
  let bil : Row l F →ₗ[F] F →ₗ[F] F := mulMap F ∘ₗ valueAt y
  let st0 : St F (Fin n → F) (Fin n → Row l F) F := (formalKey n, px, ra, value)
  have R : Reads (T := F) (OT := F) (O := F) F some id LinearMap.id := ⟨fun _ _ => rfl, fun _ _ => rfl, fun _ => rfl⟩
  have hst : Doomed bil (formal n) some (LinearMap.id : F →ₗ[F] F) st0 := by
    refine ⟨by simp [st0, px, formalKey], ?_⟩
    rintro ⟨a, h1, h3, h5⟩
    obtain ⟨a', rfl⟩ : ∃ a' : Fin n → Row l F, a = List.ofFn a' := by
      refine ⟨fun i => a[i]'(by rw [h1]; simp [st0, formalKey]), ?_⟩
      apply List.ext_getElem <;> simp [h1, st0, formalKey]
    simp only [st0, px, dot_formalKey] at h3 h5
    rw [dot_ofFn, ← h3] at h5
    refine hfalse ((Option.some.inj h5).trans ?_)
    rw [LinearMap.id_apply]
    refine Finset.sum_congr rfl fun i _ => ?_
    change valueAt y (ra i) * x ^ (i : ℕ) = _
    rw [valueAt_apply, Finset.sum_mul]
    exact Finset.sum_congr rfl fun j _ => by ring
  have c1 : Fintype.card Ds = Ds.card := Fintype.card_coe Ds
  have c2 : Fintype.card (Xs → Ds) = Ds.card ^ Xs.card := by
    rw [Fintype.card_fun, Fintype.card_coe, Fintype.card_coe]
  have c3 : (Q + k) * (3 * m) + (Q + k) * (Q + k + 1) * m = (Q + k) * (Q + k + 4) * m := by ring
  rw [← c2, ← c1, ← c3]
  refine Oracle.count_static A.query Q A.steps (link (rowSsm V ι) (rowPair e ι) (output ι) (leftKey srs (1 : F) n) hmem) (challengeOf F) 0
    A.label st0
    (fun st z d => foldSt st ((z.1.1, valueAt y z.1.2.2), (z.2.1, valueAt y z.2.2.2)) (challengeOf F d))
    (Doomed bil (formal n) some LinearMap.id) hinj m (3 * m) hm'
    (fun st z hst S hS => escape_le R (challengeOf F) m hm' st _ hst S hS) hst k (fun ds => (hsteps ds).le) _ ?_
  intro H hH
  rintro ⟨hdm, hne⟩
  obtain ⟨hval, hrun, hcol⟩ := hW H hH
  set zs := A.steps (Oracle.trace A.query H Q) with hzs
  have hops : (A.toTipa.toProver.openings (rowSsm V ι) (rowPair e ι) (output ι) (leftKey srs (1 : F) n) hmem Q k H).map
      (coms2 (rowPair e ι) (output ι) (leftKey srs (1 : F) n)) = zs.map (coms2 (rowPair e ι) (output ι) (leftKey srs (1 : F) n)) := by
    rw [SsmStatic.Prover.openings, List.map_map]
    refine Oracle.map_queries (link (rowSsm V ι) (rowPair e ι) (output ι) (leftKey srs (1 : F) n) hmem) (challengeOf F)
      (coms2 (rowPair e ι) (output ι) (leftKey srs (1 : F) n)) _ (fun x => ∃ i < Q + k, Oracle.asked
        (Oracle.withCheck A.query Q A.steps (link (rowSsm V ι) (rowPair e ι) (output ι) (leftKey srs (1 : F) n) hmem) (challengeOf F) 0)
        H i = x) H zs 0 ?_
      (Oracle.output_asked A.query Q A.steps (link (rowSsm V ι) (rowPair e ι) (output ι) (leftKey srs (1 : F) n) hmem) (challengeOf F) 0
        H k fun ds => (hsteps ds).le)
    intro z hz x hx
    refine Oracle.label_rel A.query Q A.steps (link (rowSsm V ι) (rowPair e ι) (output ι) (leftKey srs (1 : F) n) hmem) (challengeOf F) 0
      A.label (fun z z' => coms2 (rowPair e ι) (output ι) (leftKey srs (1 : F) n) z = coms2 (rowPair e ι) (output ι) (leftKey srs (1 : F) n) z') z x ?_ ?_ H
      (Q + k) hx
    · intro ds h
      exact hlab ds z x h
    · intro ds z' hz' x' h
      obtain ⟨-, -, g1, g2⟩ := Gipa.C23_hash_input_injective (P := rowSsm V ι) hF hT hF hTo 0 0 (by norm_num)
        (by norm_num) _ _ trivial trivial _ _ _ _ (by simp [coms2, coms]) (congrArg Subtype.val h)
      exact Prod.ext g1 g2
  set cs := A.toTipa.toProver.challenges (rowSsm V ι) (rowPair e ι) (output ι) (leftKey srs (1 : F) n) hmem Q H with hcs
  have hklen : cs.length = k := by
    rw [hcs, SsmStatic.Prover.challenges, List.length_map, SsmStatic.Prover.inputs, Oracle.length_queries, hsteps]
  rw [SsmStatic.Prover.proof, List.reverse_reverse] at hrun
  obtain ⟨x', f1, g1, t1⟩ := run_eqs (rowPair e ι) (output ι) (leftKey srs (1 : F) n) _ ra _ cs (by rw [hklen, hn]) zs _ hops _ hrun
  have hpx : px = (List.range n).map (x ^ ·) := by apply List.ext_getElem <;> simp [px]
  rw [← hn] at f1
  have hdm2 := hdm.2
  rw [follow_end _ _ _ _ _ _ _ _ _ (by rw [hsteps]; exact hn), hpx] at hdm2
  set os := A.toTipa.toProver.openings (rowSsm V ι) (rowPair e ι) (output ι) (leftKey srs (1 : F) n) hmem Q k H with hos
  change ¬ SsmStatic.Opens _ _ _ _ ([weights (cs.map (·⁻¹)) n], foldAll (cs.map (·⁻¹)) _,
    accum cs (os.map fun z => (z.1.1, z.2.1)) ra,
    accum cs (os.map fun z => (valueAt y z.1.2.2, valueAt y z.2.2.2)) value) at hdm2
  rw [f1] at hdm2
  refine hdm2 ⟨[(A.base (Oracle.trace A.query H Q)).1], rfl, ?_, ?_⟩
  · by_contra hcon
    refine hcol (Or.inl ⟨fun h => hcon (h.trans ?_), ?_⟩)
    · simp [formal]; rfl
    · refine g1.trans ?_
      exact (commitTo_formal (rowPair e ι) (leftKey srs (1 : F) n) (A.base (Oracle.trace A.query H Q)).1 _).symm
  · have heq : (A.combinedPair V e srs ι hmem x Q k H).1 = (A.combinedPair V e srs ι hmem x Q k H).2 := by
      by_contra hcon
      refine hcol (Or.inr ⟨hcon, ?_⟩)
      have : accum cs ((os.map fun z => (ι z.1.2.2, ι z.2.2.2)).map fun s => (single s.1, single s.2))
          (single (ι (A.combined (Oracle.trace A.query H Q)))) =
          single (x' • ι (A.base (Oracle.trace A.query H Q)).1) := by
        rw [List.map_map]; exact t1
      rw [accum_single] at this
      have := congrArg IdentityOutput.vals this
      simp only [single, List.cons.injEq, and_true] at this
      rw [Prover.combinedPair, ← hcs, ← hos, f1]
      change ι (accum _ _ _) = ι (_ • _)
      rw [map_accum, map_smul, List.map_map]
      exact this
    rw [Prover.combinedPair, ← hcs, ← hos, f1] at heq
    have heq : accum cs (os.map fun z => (z.1.2.2, z.2.2.2)) (A.combined (Oracle.trace A.query H Q)) =
      x' • (A.base (Oracle.trace A.query H Q)).1 := heq
    have heq := congrArg (valueAt y) heq
    rw [map_accum, hval, List.map_map, map_smul] at heq
    change some (accum cs _ value) = some (dot _ [_] [x'])
    refine congrArg some (heq.trans ?_)
    simp [bil, mul_comm]

/-- The verifier key and the KZG equation for known elements of `G1`. -/
theorem kzg_equation {g : G1} {α β : F} (hg : g ≠ 0) (w : Fin l → G1) (hw : ∀ j, w j = α ^ (j : ℕ) • g)
    (u o : Row l F) (value y : F) :
    element w (β • g) u - value • g = (α - y) • element w (β • g) o ↔
      (powerPart (rowPoly u) (rowPoly o) value y).eval α + β * (otherPart u.2 o.2 y).eval α = 0 := by
  have hel : ∀ r : Row l F, element w (β • g) r = (valueAt α r + r.2 * β) • g := by
    intro r
    change (∑ j, r.1 j • w j) + r.2 • β • g = _
    rw [valueAt_apply, add_smul, Finset.sum_smul, mul_smul]
    congr 1
    exact Finset.sum_congr rfl fun j _ => by rw [hw, mul_smul]
  rw [hel, hel, ← sub_eq_zero]
  have : (valueAt α u + u.2 * β) • g - value • g - (α - y) • (valueAt α o + o.2 * β) • g =
      ((powerPart (rowPoly u) (rowPoly o) value y).eval α + β * (otherPart u.2 o.2 y).eval α) • g := by
    simp only [powerPart, otherPart, eval_sub, eval_mul, eval_X, eval_C, eval_rowPoly]
    module
  rw [this, smul_eq_zero, or_iff_left hg]

variable {w : Fin l → G1} {gb : G1}

open Classical in
/-- C107: fix a reference string for `2^k` rows with `l` coefficients, a commitment to rows `ra`, a point and a value
that is not the value of the committed polynomial there. A prover knows openings of the commitments it hashes, and
combinations of the reference string for the final keys, the combined row and the quotient. Then, except for a
small share of all oracles, the verifier does not accept, or finds the opening point only after `N` attempts, or the
prover has found a collision of the keys, or a non-zero polynomial of which the trapdoors are a zero. `Q`, `m` and
`m'` are as in C92. -/
theorem C107_static (hE : V.E.Lawful e)
    (hmem : ∀ (k : F) z, (rowSsm V (element w gb)).hashInput 0 k
      (coms2 (rowPair e (element w gb)) (output (element w gb)) (leftKey srs (1 : F) n) z).1
      (coms2 (rowPair e (element w gb)) (output (element w gb)) (leftKey srs (1 : F) n) z).2 ∈ Xs)
    (hpt : ∀ t x ka, t < 2 ^ 64 → pointInput V.tipa (rowSsm V (element w gb)) t x ka ∈ Xs)
    (hF : Decodable (fun _ => True) V.serF) (hG : Decodable (fun _ => True) V.serG1)
    (hT : Decodable (fun _ => True) V.serGT) (hG2 : Decodable (fun _ => True) V.serG2)
    (hd : ∀ d ∈ Ds, 16 ≤ d.length) (m m' : ℕ)
    (hm : ∀ x : F, (Finset.univ.filter fun d : Ds => challengeOf F d = x).card ≤ m)
    (hm' : ∀ c, (Finset.univ.filter fun d : Ds => V.fromRandomBytes d = some c).card ≤ m') (k : ℕ)
    (hn : n = 2 ^ k) (g : G1) (h : G2) (α β : F) (hsrs : IsLeftSrs srs g h α β n)
    (hw : ∀ j, w j = α ^ (j : ℕ) • g) (hgb : gb = β • g) (hg0 : g ≠ 0) (hh0 : h ≠ 0)
    (hg : ∀ y, e g y = 0 → y = 0) (hh : ∀ x, e x h = 0 → x = 0) (v : VerifierSRS G1 G2)
    (hv : srs.verifierKey = .ok v) (com : GT) (ra : Fin n → Row l F)
    (hcom : com = ∑ i, e (∑ j, (ra i).1 j • w j + (ra i).2 • gb) (leftKey srs (1 : F) n i)) (x y value : F)
    (hfalse : value ≠ ∑ i, ∑ j, (ra i).1 j * x ^ (i : ℕ) * y ^ (j : ℕ)) (A : Prover n l F Xs Ds)
    (Q N : ℕ) (hN : N ≤ 2 ^ 64)
    (hlab : ∀ ds z c, A.query ds = link (rowSsm V (element w gb)) (rowPair e (element w gb)) (output (element w gb))
        (leftKey srs (1 : F) n) hmem z c →
      coms2 (rowPair e (element w gb)) (output (element w gb)) (leftKey srs (1 : F) n) (A.label ds) =
        coms2 (rowPair e (element w gb)) (output (element w gb)) (leftKey srs (1 : F) n) z)
    (hkeys : ∀ ds, ∀ t < 2 ^ 64, ∀ x ka,
      (A.query ds : Bytes) = pointInput V.tipa (rowSsm V (element w gb)) t x ka → left srs (A.keys ds) = ka)
    (hsep : ∀ t < 2 ^ 64, ∀ z x x' ka,
      (link (rowSsm V (element w gb)) (rowPair e (element w gb)) (output (element w gb)) (leftKey srs (1 : F) n) hmem
        z x : Bytes) ≠ pointInput V.tipa (rowSsm V (element w gb)) t x' ka)
    (hsteps : ∀ ds, (A.steps ds).length = k) :
    (Finset.univ.filter fun H : Xs → Ds =>
      Bivariate.verify { V with digest := Sipp.oracle H } v com (x, y) value
        (A.pcProof e srs (element w gb) Q H) = .ok true ∧
      ¬ A.Collides V e srs (element w gb) hmem ra x Q k H ∧
      ¬ RowLeak (A.combined (Oracle.trace A.query H Q)) (A.quotient (Oracle.trace A.query H Q)) value y α β ∧
      ∃ t, ∃ ht : t < N, ∃ c,
        V.fromRandomBytes (H (A.point V.tipa (rowSsm V (element w gb)) (rowPair e (element w gb))
          (output (element w gb)) srs hmem hpt Q t (ht.trans_le hN) H)) = some c ∧
        (∀ t', ∀ ht' : t' < t, V.fromRandomBytes (H (A.point V.tipa (rowSsm V (element w gb))
          (rowPair e (element w gb)) (output (element w gb)) srs hmem hpt Q t' ((ht'.trans ht).trans_le hN) H)) =
            none) ∧
        ¬ Leak (A.knownKey V.tipa (rowSsm V (element w gb)) (rowPair e (element w gb)) (output (element w gb)) srs
            hmem hpt Q k t (ht.trans_le hN) H)
          (A.opening (Oracle.trace A.query H Q))
          ((keyPoly ((A.transcript (rowSsm V (element w gb)) (rowPair e (element w gb)) (output (element w gb)) srs
            hmem Q H).map (·⁻¹)) 1).eval c) c β α).card * Ds.card ≤
    ((Q + k) * (Q + k + 4) * m +
      N * ((Q + k + 1) * ((2 * n - 2) * m') + (Q + k + 1) * (Q + k + 2) * m)) * Ds.card ^ Xs.card := by
  have hcom' : com = commitTo (rowPair e (element w gb)) (leftKey srs (1 : F) n) ra := hcom
  refine TipaSsmStatic.count_split hmem hpt hF hG2 m m' hm hm' k hn A.toTipa Q N hN hkeys hsep hsteps _ _
    fun W1 hW1 hgood => ?_
  refine count_value hmem hF hG hT m hm k hn ra x y value hfalse A Q hlab hsteps W1 fun H hH => ?_
  obtain ⟨-, hacc, hcol, hleak, t, ht, c, hc, hfirst, lA⟩ := Finset.mem_filter.mp (hW1 hH)
  obtain ⟨-, hv'⟩ := hsrs.keys (by rw [hn]; exact Nat.one_le_two_pow)
  obtain rfl : v = ⟨g, h, β • g, α • h⟩ := Except.ok.inj (hv.symm.trans hv')
  obtain ⟨acc1, acc2⟩ := (Bivariate.C78_both (V := { V with digest := Sipp.oracle H }) (e := e) hE g h (β • g) α hh
    com (x, y) value _).mp hacc
  refine ⟨?_, ?_, hcol⟩
  · subst hgb
    have hz := (kzg_equation hg0 w hw _ _ value y).mp acc2
    have := not_not.mp fun h => hleak ⟨hz, h⟩
    rw [← eval_rowPoly]
    exact (C70_zero_polynomial _ _ _ _ _ _ this.1 this.2).2
  · rw [← hcom']
    refine TipaSsmStatic.accepted_run hmem hpt (rowSsm_lawful V hE (element w gb)) hE V.X PUnit.unit hd k hn g h α β
      hsrs hh0 hg _ hv com (output (element w gb) (A.combined (Oracle.trace A.query H Q))) x A.toTipa Q hsteps H _
      (GipaStatic.oracle_apply H) ?_ t
      (ht.trans_le hN) c hc hfirst lA (hgood H hH t ht)
    rw [verify_rowSsm]
    exact acc1

/-- The commitment of the univariate scheme, with the coefficients in rows. -/
theorem univariate_commit {srs : SRS G1 G2 × List G1} (hE : V.E.Lawful e) (g : G1) (h : G2) (α β : F) (dx dy : ℕ)
    (hx : n = dx + 1) (hy : l = dy + 1) (hsrs : Bivariate.IsSrs srs g h α β dx dy) (hw : ∀ j, w j = α ^ (j : ℕ) • g)
    (p : List F) (com : GT) (coms : List G1) (hcom : Univariate.commit V srs p = .ok (com, coms)) :
    com = ∑ i : Fin n, e (∑ j : Fin l, p.getD (i * l + j) 0 • w j + (0 : F) • gb) (leftKey srs.1 (1 : F) n i) := by
  have hleft : IsLeftSrs srs.1 g h α β n := by rw [hx]; exact hsrs.left
  have h2 : srs.2 = List.ofFn w := by
    rw [hsrs.kzg, ← hy]
    apply List.ext_getElem <;> simp [hw]
  rw [Univariate.C102_commit_value V hE srs (by rw [hleft.hBeta]; intro h; have := congrArg List.length h; simp at this; omega)
    (by rw [h2]; intro h; have := congrArg List.length h; simp at this; omega) p n
    (by rw [hleft.hBeta]; simp; omega)] at hcom
  have := congrArg Prod.fst (Except.ok.inj hcom)
  refine this.symm.trans ?_
  simp only [zero_smul, add_zero]
  have hrows : rowSums srs.2 n p =
      List.ofFn fun i : Fin n => ∑ j : Fin l, p.getD (i * l + j) 0 • w j := by
    apply List.ext_getElem
    · simp [rowSums]
    · intro i h1 h2'
      rw [List.getElem_ofFn]
      simp only [rowSums, List.getElem_map, List.getElem_range]
      have : coeffRow p srs.2.length i = List.ofFn fun j : Fin l => p.getD (i * l + j) 0 := by
        rw [h2]
        apply List.ext_getElem <;> simp [coeffRow]
      rw [this, h2]
      exact dot_ofFn (LinearMap.lsmul F G1) _ w
  have hk : ((List.range n).map fun i => srs.1.hBetaPowers.getD (2 * i) 0) = List.ofFn (leftKey srs.1 (1 : F) n) := by
    apply List.ext_getElem <;> simp [leftKey]
  rw [hrows, hk]
  exact dot_ofFn e _ _

open Classical in
/-- C107 for the univariate scheme: the commitment is the one `commit` computes for `p`, and the value is not
`p(z)`. -/
theorem C107_univariate {srs : SRS G1 G2 × List G1} (hE : V.E.Lawful e)
    (hmem : ∀ (k : F) z, (rowSsm V (element w gb)).hashInput 0 k
      (coms2 (rowPair e (element w gb)) (output (element w gb)) (leftKey srs.1 (1 : F) n) z).1
      (coms2 (rowPair e (element w gb)) (output (element w gb)) (leftKey srs.1 (1 : F) n) z).2 ∈ Xs)
    (hpt : ∀ t x ka, t < 2 ^ 64 → pointInput V.tipa (rowSsm V (element w gb)) t x ka ∈ Xs)
    (hF : Decodable (fun _ => True) V.serF) (hG : Decodable (fun _ => True) V.serG1)
    (hT : Decodable (fun _ => True) V.serGT) (hG2 : Decodable (fun _ => True) V.serG2)
    (hd : ∀ d ∈ Ds, 16 ≤ d.length) (m m' : ℕ)
    (hm : ∀ x : F, (Finset.univ.filter fun d : Ds => challengeOf F d = x).card ≤ m)
    (hm' : ∀ c, (Finset.univ.filter fun d : Ds => V.fromRandomBytes d = some c).card ≤ m') (k : ℕ)
    (hn : n = 2 ^ k) (g : G1) (h : G2) (α β : F) (degree dx dy : ℕ)
    (hdeg : bivariateDegrees degree = .ok (dx, dy)) (hx : n = dx + 1) (hy : l = dy + 1)
    (hsrs : Bivariate.IsSrs srs g h α β dx dy) (hw : ∀ j, w j = α ^ (j : ℕ) • g) (hgb : gb = β • g)
    (hg0 : g ≠ 0) (hh0 : h ≠ 0)
    (hg : ∀ y, e g y = 0 → y = 0) (hh : ∀ x, e x h = 0 → x = 0) (v : VerifierSRS G1 G2)
    (hv : srs.1.verifierKey = .ok v) (p : List F) (hp : p.length ≤ n * l) (com : GT) (coms : List G1)
    (hcom : Univariate.commit V srs p = .ok (com, coms)) (z value : F)
    (hfalse : value ≠ evalAt p z) (A : Prover n l F Xs Ds) (Q N : ℕ) (hN : N ≤ 2 ^ 64)
    (hlab : ∀ ds z c, A.query ds = link (rowSsm V (element w gb)) (rowPair e (element w gb)) (output (element w gb))
        (leftKey srs.1 (1 : F) n) hmem z c →
      coms2 (rowPair e (element w gb)) (output (element w gb)) (leftKey srs.1 (1 : F) n) (A.label ds) =
        coms2 (rowPair e (element w gb)) (output (element w gb)) (leftKey srs.1 (1 : F) n) z)
    (hkeys : ∀ ds, ∀ t < 2 ^ 64, ∀ x ka,
      (A.query ds : Bytes) = pointInput V.tipa (rowSsm V (element w gb)) t x ka → left srs.1 (A.keys ds) = ka)
    (hsep : ∀ t < 2 ^ 64, ∀ z x x' ka,
      (link (rowSsm V (element w gb)) (rowPair e (element w gb)) (output (element w gb)) (leftKey srs.1 (1 : F) n)
        hmem z x : Bytes) ≠ pointInput V.tipa (rowSsm V (element w gb)) t x' ka)
    (hsteps : ∀ ds, (A.steps ds).length = k) :
    (Finset.univ.filter fun H : Xs → Ds =>
      Univariate.verify { V with digest := Sipp.oracle H } v degree com z value
        (A.pcProof e srs.1 (element w gb) Q H) = .ok true ∧
      ¬ A.Collides V e srs.1 (element w gb) hmem (fun i => (fun j => p.getD (i * l + j) 0, 0)) (z ^ l) Q k H ∧
      ¬ RowLeak (A.combined (Oracle.trace A.query H Q)) (A.quotient (Oracle.trace A.query H Q)) value z α β ∧
      ∃ t, ∃ ht : t < N, ∃ c,
        V.fromRandomBytes (H (A.point V.tipa (rowSsm V (element w gb)) (rowPair e (element w gb))
          (output (element w gb)) srs.1 hmem hpt Q t (ht.trans_le hN) H)) = some c ∧
        (∀ t', ∀ ht' : t' < t, V.fromRandomBytes (H (A.point V.tipa (rowSsm V (element w gb))
          (rowPair e (element w gb)) (output (element w gb)) srs.1 hmem hpt Q t' ((ht'.trans ht).trans_le hN) H)) =
            none) ∧
        ¬ Leak (A.knownKey V.tipa (rowSsm V (element w gb)) (rowPair e (element w gb)) (output (element w gb)) srs.1
            hmem hpt Q k t (ht.trans_le hN) H)
          (A.opening (Oracle.trace A.query H Q))
          ((keyPoly ((A.transcript (rowSsm V (element w gb)) (rowPair e (element w gb)) (output (element w gb)) srs.1
            hmem Q H).map (·⁻¹)) 1).eval c) c β α).card * Ds.card ≤
    ((Q + k) * (Q + k + 4) * m +
      N * ((Q + k + 1) * ((2 * n - 2) * m') + (Q + k + 1) * (Q + k + 2) * m)) * Ds.card ^ Xs.card := by
  have hleft : IsLeftSrs srs.1 g h α β n := by rw [hx]; exact hsrs.left
  have hc := univariate_commit (gb := gb) hE g h α β dx dy hx hy hsrs hw p com coms hcom
  refine le_trans (Nat.mul_le_mul_right _ (Finset.card_le_card fun H hH => ?_))
    (C107_static hE hmem hpt hF hG hT hG2 hd m m' hm hm' k hn g h α β hleft hw hgb hg0 hh0 hg hh v hv com
      (fun i => (fun j => p.getD (i * l + j) 0, 0)) hc (z ^ l) z value
      (by rw [evalAt_rows p hp] at hfalse; exact hfalse) A Q N hN hlab hkeys hsep hsteps)
  obtain ⟨-, h, h'⟩ := Finset.mem_filter.mp hH
  refine Finset.mem_filter.mpr ⟨Finset.mem_univ _, ?_, h'⟩
  rw [Univariate.verify, hdeg] at h
  have h : Bivariate.verify _ v com (z ^ (dy + 1), z) value _ = _ := h
  rw [← hy] at h
  exact h

/-! ## An instance: two rows of two coefficients over the field with 101 elements -/

section Example
open Toy
open GipaStatic (decodable_ser ser_inj exampleDigests card_exampleDigests exampleDigests_key)
open TipaSsmStatic (exampleSrs exampleSrs_isSrs)

/-- The powers of the trapdoor 3, and the other trapdoor 5. -/
def exampleElement : Row 2 Toy.F →ₗ[Toy.F] Toy.F := element (![1, 3] : Fin 2 → Toy.F) 5

/-- What is known about a step. -/
abbrev ExampleStep := Known 2 Toy.F (Row 2 Toy.F) (Row 2 Toy.F) × Known 2 Toy.F (Row 2 Toy.F) (Row 2 Toy.F)

/-- The commitments of a step. -/
def exampleComs (z : ExampleStep) :
    Coms Toy.F Toy.F (IdentityOutput Toy.F) × Coms Toy.F Toy.F (IdentityOutput Toy.F) :=
  coms2 (F := Toy.F) (rowPair Toy.e exampleElement) (output exampleElement) (leftKey exampleSrs (1 : Toy.F) 2) z

/-- The hash inputs. -/
noncomputable def exampleInputs : Finset Bytes :=
  (Set.finite_range fun p : Toy.F × ExampleStep =>
    (rowSsm Toy.env exampleElement).hashInput 0 p.1 (exampleComs p.2).1 (exampleComs p.2).2).toFinset ∪
  (Set.finite_range fun p : Fin (2 ^ 64) × Toy.F × Toy.F =>
    pointInput Toy.env.tipa (rowSsm Toy.env exampleElement) p.1 p.2.1 p.2.2).toFinset

theorem exampleInputs_mem (k : Toy.F) (z : ExampleStep) :
    (rowSsm Toy.env exampleElement).hashInput 0 k
      (coms2 (F := Toy.F) (rowPair Toy.e exampleElement) (output exampleElement)
        (leftKey exampleSrs (1 : Toy.F) 2) z).1
      (coms2 (F := Toy.F) (rowPair Toy.e exampleElement) (output exampleElement)
        (leftKey exampleSrs (1 : Toy.F) 2) z).2 ∈ exampleInputs :=
  Finset.mem_union_left _ ((Set.Finite.mem_toFinset _).mpr ⟨(k, z), rfl⟩)

theorem exampleInputs_pt (t : ℕ) (x ka : Toy.F) (ht : t < 2 ^ 64) :
    pointInput Toy.env.tipa (rowSsm Toy.env exampleElement) t x ka ∈ exampleInputs :=
  Finset.mem_union_right _ ((Set.Finite.mem_toFinset _).mpr ⟨(⟨t, ht⟩, x, ka), rfl⟩)

theorem example_sep (t : ℕ) (z : ExampleStep) (x x' ka : Toy.F) :
    (link (rowSsm Toy.env exampleElement) (rowPair Toy.e exampleElement) (output exampleElement)
      (leftKey exampleSrs (1 : Toy.F) 2) exampleInputs_mem z x : Bytes) ≠
      pointInput Toy.env.tipa (rowSsm Toy.env exampleElement) t x' ka := by
  intro h
  have := congrArg List.length h
  simp [link, coms2, coms, output, single, serIdentity, serSeq, Gipa.hashInput, pointInput, rowSsm, ssmGipa,
    Env.tipa, Toy.env, Toy.ser, nonceBytes, leBytes] at this

open Classical in
/-- `1 + 2 y + 3 x + 4 x y` is 82 at `(5, 3)`; its commitment is `(1 + 2 * 3) + (3 + 4 * 3) * 25 = 382 = 79`. A prover
with one query and one attempt for the opening point: 83 is accepted for at most 30 in 101 of all oracles. -/
example (A : Prover 2 2 Toy.F exampleInputs exampleDigests)
    (hlab : ∀ ds z c, A.query ds = link (rowSsm Toy.env exampleElement) (rowPair Toy.e exampleElement)
        (output exampleElement) (leftKey exampleSrs (1 : Toy.F) 2) exampleInputs_mem z c →
      exampleComs (A.label ds) = exampleComs z)
    (hkeys : ∀ ds, ∀ t < 2 ^ 64, ∀ x ka,
      (A.query ds : Bytes) = pointInput Toy.env.tipa (rowSsm Toy.env exampleElement) t x ka →
      left exampleSrs (A.keys ds) = ka)
    (hsteps : ∀ ds, (A.steps ds).length = 1) (W : Finset (exampleInputs → exampleDigests))
    (hW : ∀ H ∈ W,
      Bivariate.verify { Toy.env with digest := Sipp.oracle H } ⟨1, 1, 5, 3⟩ 79 (5, 3) 83
        (A.pcProof Toy.e exampleSrs exampleElement 1 H) = .ok true ∧
      ¬ A.Collides Toy.env Toy.e exampleSrs exampleElement exampleInputs_mem ![(![1, 2], 0), (![3, 4], 0)] 5 1 1 H ∧
      ¬ RowLeak (A.combined (Oracle.trace A.query H 1)) (A.quotient (Oracle.trace A.query H 1)) 83 3 3 5 ∧
      ∀ c : Toy.F,
        ¬ Leak (A.knownKey Toy.env.tipa (rowSsm Toy.env exampleElement) (rowPair Toy.e exampleElement)
            (output exampleElement) exampleSrs exampleInputs_mem exampleInputs_pt 1 1 0 (by norm_num) H)
          (A.opening (Oracle.trace A.query H 1))
          ((keyPoly ((A.transcript (rowSsm Toy.env exampleElement) (rowPair Toy.e exampleElement)
            (output exampleElement) exampleSrs exampleInputs_mem 1 H).map (·⁻¹)) 1).eval c) c 5 3) :
    W.card * 101 ≤ 30 * 101 ^ exampleInputs.card := by
  have := C107_static (V := Toy.env) (e := Toy.e) (n := 2) (Xs := exampleInputs) (Ds := exampleDigests)
    (srs := exampleSrs) (w := ![1, 3]) (gb := 5) Toy.lawful exampleInputs_mem exampleInputs_pt
    decodable_ser decodable_ser decodable_ser decodable_ser
    (by
      intro d hd
      obtain ⟨x, -, rfl⟩ := Finset.mem_image.mp hd
      simp [Toy.ser]) 1 1
    (fun x => Finset.card_le_one.mpr fun d hd d' hd' => exampleDigests_key d d'
      ((Finset.mem_filter.mp hd).2.trans (Finset.mem_filter.mp hd').2.symm))
    (fun x => Finset.card_le_one.mpr fun d hd d' hd' => TipaStatic.exampleDigests_point d d' x
      (Finset.mem_filter.mp hd).2 (Finset.mem_filter.mp hd').2) 1 rfl 1 1 3 5 exampleSrs_isSrs
    (by decide +kernel) (by decide) (by decide) (by decide)
    (fun y h => by simpa using h) (fun y h => by simpa using h) ⟨1, 1, 5, 3⟩ rfl
    79 ![(![1, 2], 0), (![3, 4], 0)] (by decide +kernel) 5 3 83 (by decide +kernel) A 1 1
    (by norm_num) hlab hkeys (fun t _ => example_sep t) hsteps
  rw [card_exampleDigests, show (1 + 1) * (1 + 1 + 4) * 1 +
    1 * ((1 + 1 + 1) * ((2 * 2 - 2) * 1) + (1 + 1 + 1) * (1 + 1 + 2) * 1) = 30 from rfl] at this
  refine le_trans (Nat.mul_le_mul_right _ (Finset.card_le_card fun H hH => ?_)) this
  obtain ⟨h1, h2, h3, h4⟩ := hW H hH
  refine Finset.mem_filter.mpr ⟨Finset.mem_univ _, h1, h2, h3, 0, by norm_num, ?_⟩
  have hsome : ∀ d : exampleDigests, ∃ c, Toy.env.fromRandomBytes d = some c := by
    rintro ⟨d, hd⟩
    obtain ⟨x, -, rfl⟩ := Finset.mem_image.mp hd
    exact ⟨((UInt8.ofNat x.val).toNat : Toy.F), by simp [Toy.env, Toy.ser]⟩
  obtain ⟨c, hc⟩ := hsome (H (A.point Toy.env.tipa (rowSsm Toy.env exampleElement) (rowPair Toy.e exampleElement)
    (output exampleElement) exampleSrs exampleInputs_mem exampleInputs_pt 1 0 (by norm_num) H))
  exact ⟨c, hc, fun t' ht' => absurd ht' (Nat.not_lt_zero _), h4 c⟩

/-- Such a prover: it hashes a final key before the rounds. -/
noncomputable def exampleProver : Prover 2 2 Toy.F exampleInputs exampleDigests where
  query _ := ⟨pointInput Toy.env.tipa (rowSsm Toy.env exampleElement) 0 0
    (left exampleSrs (n := 2) (![1, 0, 7], (0 : Toy.F))), exampleInputs_pt _ _ _ (by norm_num)⟩
  label _ := ((![(![1, 2], 0), (![3, 4], 1)], 0, (![5, 1], 2)), (![(![1, 0], 3), (![2, 2], 0)], 1, (![6, 7], 0)))
  steps _ := [((![(![1, 2], 0), (![3, 4], 1)], 0, (![5, 1], 2)), (![(![1, 0], 3), (![2, 2], 0)], 1, (![6, 7], 0)))]
  base _ := ((![1, 2], 0), 2)
  keys _ := (![1, 0, 7], 0)
  final _ := (![1, 0, 7], 0)
  opening _ := (![0, 1, 7], 0)
  combined _ := (![16, 22], 0)
  quotient _ := (![22, 0], 0)

example : (∀ ds z c, exampleProver.query ds = link (rowSsm Toy.env exampleElement) (rowPair Toy.e exampleElement)
        (output exampleElement) (leftKey exampleSrs (1 : Toy.F) 2) exampleInputs_mem z c →
      exampleComs (exampleProver.label ds) = exampleComs z) ∧
    (∀ ds, ∀ t < 2 ^ 64, ∀ x ka,
      (exampleProver.query ds : Bytes) = pointInput Toy.env.tipa (rowSsm Toy.env exampleElement) t x ka →
      left exampleSrs (exampleProver.keys ds) = ka) ∧
    ∀ ds, (exampleProver.steps ds).length = 1 := by
  refine ⟨fun ds z x h => absurd (congrArg Subtype.val h).symm (example_sep _ _ _ _ _), fun ds t ht x ka h => ?_,
    fun _ => rfl⟩
  simp only [exampleProver, pointInput, List.append_assoc] at h
  obtain ⟨-, h⟩ := decodable_nonce _ _ _ _ (by norm_num) ht h
  obtain ⟨-, h⟩ := decodable_ser _ _ _ _ trivial trivial h
  exact ser_inj _ _ h

/-- With the true value 82 the quotient 22 belongs to the combined row `16 + 22 y`, and nothing is leaked. -/
example : ¬ RowLeak (l := 2) ((![16, 22], 0) : Row 2 Toy.F) (![22, 0], 0) 82 3 3 5 := by
  rintro ⟨-, h⟩
  refine h ⟨?_, by simp [otherPart]⟩
  have : (82 : Toy.F) = 16 + 22 * 3 := by decide
  rw [this]
  simp only [powerPart, rowPoly, Fin.sum_univ_two, Matrix.cons_val_zero, Matrix.cons_val_one, Fin.val_zero,
    Fin.val_one, map_add, map_mul, map_zero]
  ring

end Example

end Ripp.PcStatic
