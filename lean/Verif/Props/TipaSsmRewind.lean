import Verif.Props.TipaSsmStatic
import Verif.Props.SsmRewind
import Verif.Props.TipaRewind

/-!
# C115: knowledge soundness of TIPA with structured messages in the random oracle model, for a statement fixed before
the oracle

As C114, with C110 in the place of C109; only the left key is opened, and no collision can occur.
-/

set_option linter.unusedSectionVars false

namespace Ripp.TipaSsmStatic

open Spec SsmExtract Polynomial
open Extract (Reads reads_identity)
open GipaStatic (challengeOf withDigest recLoop_digest oracle_apply decodable_ser ser_inj exampleDigests
  card_exampleDigests single decodable_single Sent sentComs exampleDigests_length exampleDigests_card card_apply)
open TipaStatic (Comb poly left natDegree_poly Leak)
open SsmStatic (rounds)

variable {ρ F MA T KT OA OT RT O G1 G2 GT TF : Type} [Field F] [DecidableEq F]
  [AddCommGroup MA] [Module F MA] [AddCommGroup T] [Module F T]
  [AddCommGroup G1] [Module F G1] [AddCommGroup G2] [Module F G2]
  [AddCommGroup GT] [Module F GT] [Monoid TF] [DecidableEq GT]
  [AddCommGroup OA] [Module F OA] [Add OT] [SMul F OT]
  [AddCommGroup O] [Module F O] [DecidableEq OA] [DecidableEq OT] {n : ℕ}

/-- A prover with oracle access as in `GipaStatic.AnyProver`. In addition it says with each query which combination
the final key it hashes is, and at the end outputs a final key and its opening as combinations. -/
structure AnyProver (n : ℕ) (F MA OA RT : Type) (Xs Ds : Finset Bytes) extends
    GipaStatic.AnyProver MA F OA F RT Xs Ds where
  keys : List Ds → Comb n F
  final : List Ds → Comb n F
  opening : List Ds → Comb n F

variable (V : TipaEnv F G1 G2 GT TF) (P : Gipa ρ F MA F T G2 Placeholder KT OA F OT) (τ : RT → OT) (srs : SRS G1 G2)
  {Xs Ds : Finset Bytes}
  (hmem : ∀ k (z : Sent OA F RT), P.hashInput 0 k (sentComs τ z).1 (sentComs τ z).2 ∈ Xs)
  (hpt : ∀ t x ka, t < 2 ^ 64 → pointInput V P t x ka ∈ Xs)

/-- The whole proof. -/
def AnyProver.tipaProof (A : AnyProver n F MA OA RT Xs Ds) (Q : ℕ) (H : Xs → Ds) : TipaSsmProof F G2 MA OA OT where
  gipa := A.toAnyProver.proof τ Q H
  finalCk := left srs (A.final (Oracle.trace A.query H Q))
  finalCkProof := left srs (A.opening (Oracle.trace A.query H Q))

/-- The hash input of a round. -/
def sentInput (z : Sent OA F RT) (k : F) : Xs := ⟨_, hmem k z⟩

/-- The hash input for the opening point. -/
def keyInput (t : ℕ) (ht : t < 2 ^ 64) (q : Comb n F) (k : F) : Xs :=
  ⟨pointInput V P t k (left srs q), hpt _ _ _ ht⟩

/-- The challenges of all rounds, last first. -/
def AnyProver.transcript (A : AnyProver n F MA OA RT Xs Ds) (Q : ℕ) (H : Xs → Ds) : List F :=
  (Oracle.roundKeys A.query Q A.steps (sentInput P τ hmem) (challengeOf F) 0 H).reverse

/-- The input that gives the opening point. -/
def AnyProver.point (A : AnyProver n F MA OA RT Xs Ds) (Q t : ℕ) (ht : t < 2 ^ 64) (H : Xs → Ds) : Xs :=
  Oracle.lastQuery A.query Q A.steps A.final (sentInput P τ hmem) (keyInput V P srs hpt t ht) (challengeOf F) 0 H

/-- What was known about the final key when it was first hashed. -/
noncomputable def AnyProver.knownKey (A : AnyProver n F MA OA RT Xs Ds) (Q t : ℕ) (ht : t < 2 ^ 64)
    (H : Xs → Ds) : Comb n F :=
  Oracle.firstKnown A.query Q A.keys A.final H (A.point V P τ srs hmem hpt Q t ht H)

/-- No challenge is zero, the final key was known when it was first hashed, and the opening point of attempt
`t` is good. -/
def AnyProver.Fine (A : AnyProver n F MA OA RT Xs Ds) (Q k t : ℕ) (ht : t < 2 ^ 64) (H : Xs → Ds) : Prop :=
  (∀ x ∈ Oracle.queries (sentInput P τ hmem) (challengeOf F) H 0 (A.steps (Oracle.trace A.query H Q)),
    challengeOf F (H x) ≠ 0) ∧
  left srs (A.knownKey V P τ srs hmem hpt Q t ht H) = left srs (A.final (Oracle.trace A.query H Q)) ∧
  Good V k (Oracle.roundKeys A.query Q A.steps (sentInput P τ hmem) (challengeOf F) 0 H)
    (A.knownKey V P τ srs hmem hpt Q t ht H) (H (A.point V P τ srs hmem hpt Q t ht H))

/-- All but a few oracles are fine. -/
theorem count_not_fine (hF : Decodable (fun _ => True) P.serF) (hG2 : Decodable (fun _ => True) V.serG2) (m m' : ℕ)
    (hm : ∀ x : F, (Finset.univ.filter fun d : Ds => challengeOf F d = x).card ≤ m)
    (hm' : ∀ c, (Finset.univ.filter fun d : Ds => V.fromRandomBytes d = some c).card ≤ m') (k : ℕ)
    (hn : n = 2 ^ k) (A : AnyProver n F MA OA RT Xs Ds) (Q : ℕ)
    (hkeys : ∀ ds, ∀ t < 2 ^ 64, ∀ x ka, (A.query ds : Bytes) = pointInput V P t x ka → left srs (A.keys ds) = ka)
    (hsep : ∀ t < 2 ^ 64, ∀ z x x' ka, (sentInput P τ hmem z x : Bytes) ≠ pointInput V P t x' ka)
    (hsteps : ∀ ds, (A.steps ds).length = k) (t : ℕ) (ht : t < 2 ^ 64) (W : Finset (Xs → Ds))
    (hW : ∀ H ∈ W, ¬ A.Fine V P τ srs hmem hpt Q k t ht H) :
    W.card * Ds.card ≤ ((Q + k + 1) * ((2 * n - 2) * m') + (Q + k + 1) * (Q + k + 2) * m) *
      Ds.card ^ Xs.card := by
  classical
  have hn1 : 1 ≤ n := by rw [hn]; exact Nat.one_le_two_pow
  have c1 : Fintype.card Ds = Ds.card := Fintype.card_coe Ds
  have c2 : Fintype.card (Xs → Ds) = Ds.card ^ Xs.card := by
    rw [Fintype.card_fun, Fintype.card_coe, Fintype.card_coe]
  rw [← c2, ← c1]
  refine Oracle.count_tail A.query Q A.steps A.keys A.final (sentInput P τ hmem) (keyInput V P srs hpt t ht)
    (challengeOf F) 0 (fun q => left srs q) ?_ ?_ ?_ m _ ?_ (fun cs q d => Good V k cs q d) ?_ ?_ k hsteps W hW
  · intro z x z' x' h
    have h := congrArg Subtype.val h
    simp only [sentInput, Gipa.hashInput, List.append_assoc] at h
    obtain ⟨-, h⟩ := decodable_nonce _ _ _ _ (by norm_num) (by norm_num) h
    exact (hF _ _ _ _ trivial trivial h).1
  · intro q x q' x' h
    have h := congrArg Subtype.val h
    simp only [keyInput, pointInput, List.append_assoc] at h
    obtain ⟨-, h⟩ := decodable_nonce _ _ _ _ ht ht h
    obtain ⟨g0, h⟩ := hF _ _ _ _ trivial trivial h
    rw [← List.append_nil (V.serG2 _), ← List.append_nil (V.serG2 (left srs q'))] at h
    exact ⟨(hG2 _ _ _ _ trivial trivial h).1, g0⟩
  · intro z x q x' h
    exact hsep t ht z x _ _ (congrArg Subtype.val h)
  · exact fun x S hS =>
      (Finset.card_le_card fun d hd => Finset.mem_filter.mpr ⟨Finset.mem_univ _, hS d hd⟩).trans (hm x)
  · exact fun cs q S hS => card_not_good V hn1 k hn m' hm' cs q S hS
  · intro ds q x h
    exact hkeys ds t ht _ _ (congrArg Subtype.val h)

variable {V P τ srs} {bil : MA →ₗ[F] F →ₗ[F] T} {φa : MA →ₗ[F] G2 →ₗ[F] OA}
  {ψ : KT → T → OT} {η : OT → Option O} {ψ' : T →ₗ[F] O} {e : G1 →ₗ[F] G2 →ₗ[F] GT}

open Classical in
/-- An accepted proof is an accepting run, if the opening point is good and the opening of the final key holds as an
identity of polynomials. The hash function `dg` agrees with the oracle. -/
theorem AnyProver.accepted_run (L : P.Lawful bil φa 0 ψ) (hE : V.E.Lawful e) (X : Exec) (kt : KT)
    (hd : ∀ d ∈ Ds, 16 ≤ d.length) (k : ℕ) (hn : n = 2 ^ k) (g : G1) (h : G2) (α β : F)
    (hsrs : IsLeftSrs srs g h α β n) (hh0 : h ≠ 0) (hg : ∀ y, e g y = 0 → y = 0) (v : VerifierSRS G1 G2)
    (hv : srs.verifierKey = .ok v) (comA : OA) (comT : OT) (b : F)
    (A : AnyProver n F MA OA RT Xs Ds) (Q : ℕ) (hsteps : ∀ ds, (A.steps ds).length = k) (H : Xs → Ds)
    (dg : Bytes → Bytes) (hdg : ∀ x : Xs, dg x = H x)
    (hacc : TipaSsm.verify X V (withDigest P dg) v kt comA comT b (A.tipaProof τ srs Q H) = .ok true)
    (t : ℕ) (ht : t < 2 ^ 64) (c : F)
    (hc : V.fromRandomBytes (H (A.point V P τ srs hmem hpt Q t ht H)) = some c)
    (hfirst : ∀ t', ∀ ht' : t' < t, V.fromRandomBytes
      (H (A.point V P τ srs hmem hpt Q t' (ht'.trans ht) H)) = none)
    (lA : ¬ Leak (A.knownKey V P τ srs hmem hpt Q t ht H) (A.opening (Oracle.trace A.query H Q))
      ((keyPoly ((A.transcript P τ hmem Q H).map (·⁻¹)) 1).eval c) c β α)
    (hgood : A.Fine V P τ srs hmem hpt Q k t ht H) :
    Run bil φa (ψ kt) srs.commitmentKeys.1 ((List.range (2 ^ k)).map (b ^ ·)) (comA, comT)
      ((rounds hmem A.toAnyProver Q H).map fun x => challengeOf F (H x))
      (outer (A.toAnyProver.proof τ Q H).steps.reverse) (A.toAnyProver.proof τ Q H).base.1 := by
  obtain ⟨hne, kA, hgood⟩ := hgood
  have L' : (withDigest P dg).Lawful bil φa 0 ψ :=
    ⟨L.ip_ok, L.lmc_ok, L.rmc_ok, L.ipc_ok, L.ψ_add, L.ψ_smul⟩
  obtain ⟨com1, hrec⟩ := recLoop_digest (P := P) (sentComs τ) (sentInput P τ hmem) (fun _ _ => rfl) hd H dg hdg
    (A.steps (Oracle.trace A.query H Q)) 0 [] (comA, b, comT) rfl hne
  set tr := A.transcript P τ hmem Q H with htr
  have hrc : (withDigest P dg).recursiveChallenges (comA, b, comT) (A.tipaProof τ srs Q H).gipa = .ok (com1, tr) := by
    rw [Gipa.recursiveChallenges, AnyProver.tipaProof]
    simp only [GipaStatic.AnyProver.proof, List.reverse_reverse]
    rw [hrec]
    rfl
  have hlen : tr.length = k := by
    rw [htr, AnyProver.transcript, List.length_reverse, Oracle.roundKeys, List.length_map, Oracle.length_queries,
      hsteps]
  obtain ⟨t0, ts, hcons⟩ : ∃ t0 ts, tr = t0 :: ts := by
    cases htr' : tr with
    | nil =>
      exfalso
      rw [TipaSsm.verify, hrc] at hacc
      simp only [ok_bind] at hacc
      rw [htr', invertAll_eq _ (by simp)] at hacc
      simp only [ok_bind] at hacc
      rw [TipaSsm.kzgChallenge_nil] at hacc
      cases hacc
    | cons a l => exact ⟨a, l, rfl⟩
  have hpoint : ∀ t' (h' : t' < 2 ^ 64),
      (A.point V P τ srs hmem hpt Q t' h' H : Bytes) = be8 t' ++ P.serF t0 ++
      V.serG2 (A.tipaProof τ srs Q H).finalCk := by
    intro t' h'
    rw [AnyProver.point, Oracle.lastQuery, ← List.head?_reverse, show (Oracle.roundKeys A.query Q A.steps
      (sentInput P τ hmem) (challengeOf F) 0 H).reverse = tr from rfl, hcons, ← nonceBytes_eq]
    rfl
  have hkzg : TipaSsm.kzgChallenge V (withDigest P dg).digest (withDigest P dg).serF tr
      (A.tipaProof τ srs Q H).finalCk = .ok c := by
    rw [hcons, C69_kzg_ssm]
    refine ⟨t, ht, ?_, fun t' ht' => ?_⟩
    · change V.fromRandomBytes (dg (be8 t ++ P.serF t0 ++ _)) = _
      rw [← hpoint t ht, hdg, hc]
    · change V.fromRandomBytes (dg (be8 t' ++ P.serF t0 ++ _)) = _
      rw [← hpoint t' (ht'.trans ht), hdg, hfirst t' ht']
  have hg' := hgood c hc (by rw [← hlen, htr, AnyProver.transcript, List.length_reverse])
  have htr2 : (rounds hmem A.toAnyProver Q H).map (fun x => challengeOf F (H x)) = tr.reverse := by
    rw [htr, AnyProver.transcript, List.reverse_reverse]
    rfl
  rw [htr2]
  subst hn
  exact C71_tipa_run L' hE X k srs g h α β hsrs hh0 hg v hv kt comA comT b com1
    (A.tipaProof τ srs Q H) tr c (by simp [AnyProver.tipaProof, GipaStatic.AnyProver.proof, hsteps]) hrc
    hkzg (poly (A.knownKey V P τ srs hmem hpt Q t ht H))
    (poly (A.opening (Oracle.trace A.query H Q))) _ _
    (kA.symm.trans (left_eq hsrs _)) (left_eq hsrs _)
    (fun h => by_contra fun h' => lA ⟨h, h'⟩) hg' hacc

/-- C115: fix a reference string for vectors of length `n = 2^k`, a scalar `b` and commitments. Let the verifier accept
the proofs of a prover with `Q` queries for more than
`(M (M + 4) m + N ((M + 1) (2 n - 2) m' + (M + 1) (M + 2) m)) / |Ds|` of all oracles, with an opening point found within
`N` attempts and without a non-zero polynomial of which the trapdoors are a zero. `M`, `m` and `m'` are as in C114. Then
the proofs for these oracles contain a tree of runs, and the extractor of C71 turns this tree into an opening of the
commitment whose inner product with the powers of `b` is the committed one. -/
theorem C115_knowledge (L : P.Lawful bil φa 0 ψ) (hE : V.E.Lawful e) (X : Exec) (kt : KT) (R : Reads F η (ψ kt) ψ')
    (hF : Decodable (fun _ => True) P.serF) (hA : Decodable (fun _ => True) P.serA)
    (hB : Decodable (fun _ => True) P.serB) (hT : Decodable (· ∈ Set.range τ) P.serT)
    (hG2 : Decodable (fun _ => True) V.serG2) (hd : ∀ d ∈ Ds, 16 ≤ d.length) (m m' : ℕ)
    (hm : ∀ x : F, (Finset.univ.filter fun d : Ds => challengeOf F d = x).card ≤ m)
    (hm' : ∀ c, (Finset.univ.filter fun d : Ds => V.fromRandomBytes d = some c).card ≤ m') (k : ℕ)
    (hn : n = 2 ^ k) (g : G1) (h : G2) (α β : F) (hsrs : IsLeftSrs srs g h α β n) (hh0 : h ≠ 0)
    (hg : ∀ y, e g y = 0 → y = 0) (v : VerifierSRS G1 G2) (hv : srs.verifierKey = .ok v)
    (comA : OA) (comT : OT) (b : F) (A : AnyProver n F MA OA RT Xs Ds) (Q N : ℕ) (hN : N ≤ 2 ^ 64)
    (hkeys : ∀ ds, ∀ t < 2 ^ 64, ∀ x ka, (A.query ds : Bytes) = pointInput V P t x ka → left srs (A.keys ds) = ka)
    (hsep : ∀ t < 2 ^ 64, ∀ z x x' ka, (sentInput P τ hmem z x : Bytes) ≠ pointInput V P t x' ka)
    (hsteps : ∀ ds, (A.steps ds).length = k) (W : Finset (Xs → Ds))
    (hW : ∀ H ∈ W, TipaSsm.verify X V (withDigest P (Sipp.oracle H)) v kt comA comT b (A.tipaProof τ srs Q H) =
        .ok true ∧
      ∃ t, ∃ ht : t < N, ∃ c,
        V.fromRandomBytes (H (A.point V P τ srs hmem hpt Q t (ht.trans_le hN) H)) = some c ∧
        (∀ t', ∀ ht' : t' < t, V.fromRandomBytes
          (H (A.point V P τ srs hmem hpt Q t' ((ht'.trans ht).trans_le hN) H)) = none) ∧
        ¬ Leak (A.knownKey V P τ srs hmem hpt Q t (ht.trans_le hN) H) (A.opening (Oracle.trace A.query H Q))
          ((keyPoly ((A.transcript P τ hmem Q H).map (·⁻¹)) 1).eval c) c β α)
    (hmany : ((Q + k) * (Q + k + 4) * m +
      N * ((Q + k + 1) * ((2 * n - 2) * m') + (Q + k + 1) * (Q + k + 2) * m)) * Ds.card ^ Xs.card <
        W.card * Ds.card) :
    ∃ t : SsmExtract.Tree F MA (OA × OT),
      (t.Branches fun ps a => ∃ H ∈ W, ∃ com',
        (withDigest P (Sipp.oracle H)).recursiveChallenges (comA, b, comT) (A.tipaProof τ srs Q H).gipa =
          .ok (com', (ps.map (·.2)).reverse) ∧
        (A.tipaProof τ srs Q H).gipa.steps.map (fun s => ((s.1.1, s.1.2.2), (s.2.1, s.2.2.2))) =
          (ps.map (·.1)).reverse ∧
        (A.tipaProof τ srs Q H).gipa.base.1 = a) ∧
      (SsmExtract.extract t).length = n ∧ comA = dot (φa · ·) (SsmExtract.extract t) srs.commitmentKeys.1 ∧
      η comT = some (ψ' (dot (bil · ·) (SsmExtract.extract t) ((List.range n).map (b ^ ·)))) := by
  classical
  have hn1 : 1 ≤ n := by rw [hn]; exact Nat.one_le_two_pow
  have hlen : srs.commitmentKeys.1.length = 2 ^ k := by
    obtain ⟨e1, -⟩ := hsrs.keys hn1
    rw [e1]; simp [hn]
  obtain ⟨S, hSW, hfine, hmany'⟩ := Oracle.exists_fine W N
    (fun t H => ¬ A.Fine V P τ srs hmem hpt Q k t (t.2.trans_le hN) H) _ _ _ _
    (fun t S hS => count_not_fine V P τ srs hmem hpt hF hG2 m m' hm hm' k hn A Q hkeys hsep hsteps t
      (t.2.trans_le hN) S hS) hmany
  obtain ⟨tree, h1, h2⟩ := SsmStatic.tree_of_runs (bil := bil) (φa := φa) (ψ := ψ) hmem kt hF hA hB hT m hm k
    srs.commitmentKeys.1 hlen comA comT b A.toAnyProver Q hsteps S
    (fun H hH _ => by
      obtain ⟨hacc, t, ht, c, hc, hfirst, lA⟩ := hW H (hSW hH)
      exact A.accepted_run hmem hpt L hE X kt hd k hn g h α β hsrs hh0 hg v hv comA comT b Q hsteps H _
        (oracle_apply H) hacc t (ht.trans_le hN) c hc hfirst lA (not_not.mp (hfine H hH ⟨t, ht⟩))) hmany'
  have := C71_extract R _ _ _ _ h2
  rw [hlen, ← hn] at this
  refine ⟨tree, SsmExtract.Tree.Branches.mono tree ?_ h1, this⟩
  rintro ps a ⟨H, hH, hnz, e1, e2, e3⟩
  obtain ⟨com1, hrec⟩ := recLoop_digest (P := P) (sentComs τ) (sentInput P τ hmem) (fun _ _ => rfl) hd H _
    (oracle_apply H) (A.steps (Oracle.trace A.query H Q)) 0 [] (comA, b, comT) rfl hnz
  refine ⟨H, hSW hH, com1, ?_, e2, e3⟩
  rw [Gipa.recursiveChallenges, AnyProver.tipaProof, GipaStatic.AnyProver.proof, List.reverse_reverse, hrec, e1]
  rfl

open Classical in
/-- C115: a statement without an opening is accepted for at most this share of all oracles, if the prover does not find
a non-zero polynomial of which the trapdoors are a zero. -/
theorem C115_soundness (L : P.Lawful bil φa 0 ψ) (hE : V.E.Lawful e) (X : Exec) (kt : KT) (R : Reads F η (ψ kt) ψ')
    (hF : Decodable (fun _ => True) P.serF) (hA : Decodable (fun _ => True) P.serA)
    (hB : Decodable (fun _ => True) P.serB) (hT : Decodable (· ∈ Set.range τ) P.serT)
    (hG2 : Decodable (fun _ => True) V.serG2) (hd : ∀ d ∈ Ds, 16 ≤ d.length) (m m' : ℕ)
    (hm : ∀ x : F, (Finset.univ.filter fun d : Ds => challengeOf F d = x).card ≤ m)
    (hm' : ∀ c, (Finset.univ.filter fun d : Ds => V.fromRandomBytes d = some c).card ≤ m') (k : ℕ)
    (hn : n = 2 ^ k) (g : G1) (h : G2) (α β : F) (hsrs : IsLeftSrs srs g h α β n) (hh0 : h ≠ 0)
    (hg : ∀ y, e g y = 0 → y = 0) (v : VerifierSRS G1 G2) (hv : srs.verifierKey = .ok v)
    (comA : OA) (comT : OT) (b : F)
    (hfalse : ¬ ∃ a : List MA, a.length = n ∧ comA = dot (φa · ·) a srs.commitmentKeys.1 ∧
      η comT = some (ψ' (dot (bil · ·) a ((List.range n).map (b ^ ·)))))
    (A : AnyProver n F MA OA RT Xs Ds) (Q N : ℕ) (hN : N ≤ 2 ^ 64)
    (hkeys : ∀ ds, ∀ t < 2 ^ 64, ∀ x ka, (A.query ds : Bytes) = pointInput V P t x ka → left srs (A.keys ds) = ka)
    (hsep : ∀ t < 2 ^ 64, ∀ z x x' ka, (sentInput P τ hmem z x : Bytes) ≠ pointInput V P t x' ka)
    (hsteps : ∀ ds, (A.steps ds).length = k) :
    (Finset.univ.filter fun H : Xs → Ds =>
      TipaSsm.verify X V (withDigest P (Sipp.oracle H)) v kt comA comT b (A.tipaProof τ srs Q H) = .ok true ∧
      ∃ t, ∃ ht : t < N, ∃ c,
        V.fromRandomBytes (H (A.point V P τ srs hmem hpt Q t (ht.trans_le hN) H)) = some c ∧
        (∀ t', ∀ ht' : t' < t, V.fromRandomBytes
          (H (A.point V P τ srs hmem hpt Q t' ((ht'.trans ht).trans_le hN) H)) = none) ∧
        ¬ Leak (A.knownKey V P τ srs hmem hpt Q t (ht.trans_le hN) H) (A.opening (Oracle.trace A.query H Q))
          ((keyPoly ((A.transcript P τ hmem Q H).map (·⁻¹)) 1).eval c) c β α).card * Ds.card ≤
    ((Q + k) * (Q + k + 4) * m +
      N * ((Q + k + 1) * ((2 * n - 2) * m') + (Q + k + 1) * (Q + k + 2) * m)) * Ds.card ^ Xs.card := by
  by_contra hcon
  obtain ⟨t, -, hv⟩ := C115_knowledge hmem hpt L hE X kt R hF hA hB hT hG2 hd m m' hm hm' k hn g h α β hsrs hh0 hg v hv
    comA comT b A Q N hN hkeys hsep hsteps _ (fun H hH => (Finset.mem_filter.mp hH).2) (not_le.mp hcon)
  exact hfalse ⟨_, hv⟩

/-! ## An instance: vectors of length 2 over the field with 101 elements -/

section Example
open Toy hiding X
open TipaStatic (exampleEnv exampleDigests_point seen no_leak keyPoly_single)

/-- The hash inputs. -/
noncomputable def anyInputs : Finset Bytes :=
  (Set.finite_range fun p : Toy.F × Sent Toy.F Toy.F Toy.F =>
    exampleSsm.hashInput 0 p.1 (sentComs single p.2).1 (sentComs single p.2).2).toFinset ∪
  (Set.finite_range fun p : Fin (2 ^ 64) × Toy.F × Toy.F =>
    pointInput exampleEnv exampleSsm p.1 p.2.1 p.2.2).toFinset

theorem anyInputs_mem (k : Toy.F) (z : Sent Toy.F Toy.F Toy.F) :
    exampleSsm.hashInput 0 k (sentComs single z).1 (sentComs single z).2 ∈ anyInputs :=
  Finset.mem_union_left _ ((Set.Finite.mem_toFinset _).mpr ⟨(k, z), rfl⟩)

theorem anyInputs_pt (t : ℕ) (x ka : Toy.F) (ht : t < 2 ^ 64) :
    pointInput exampleEnv exampleSsm t x ka ∈ anyInputs :=
  Finset.mem_union_right _ ((Set.Finite.mem_toFinset _).mpr ⟨(⟨t, ht⟩, x, ka), rfl⟩)

theorem any_sep (t : ℕ) (z : Sent Toy.F Toy.F Toy.F) (x x' ka : Toy.F) :
    (sentInput exampleSsm single anyInputs_mem z x : Bytes) ≠ pointInput exampleEnv exampleSsm t x' ka := by
  intro h
  have := congrArg List.length h
  simp [sentInput, sentComs, single, serIdentity, serSeq, Gipa.hashInput, pointInput, exampleSsm, ssmGipa, exampleEnv,
    Toy.ser, nonceBytes, leBytes] at this

/-- The final key for the challenge `c`. -/
def honestKey (c : Toy.F) : Comb 2 Toy.F := (![1, 0, c⁻¹], 0)

/-- An honest prover for the vector `(1, 2)` and `b = 7`. It asks for its only challenge, then for the opening
point. -/
noncomputable def honestAny : AnyProver 2 Toy.F Toy.F Toy.F Toy.F anyInputs exampleDigests where
  query
    | [] => sentInput exampleSsm single anyInputs_mem ((2, 0, 2), (25, 0, 7)) 0
    | d :: ds => keyInput exampleEnv exampleSsm exampleSrs anyInputs_pt 0 (by norm_num)
      (honestKey (seen (d :: ds)).1) (seen (d :: ds)).1
  steps _ := [((2, 0, 2), (25, 0, 7))]
  base ds := (1 + (seen ds).1 * 2, 0)
  keys ds := honestKey (seen ds).1
  final ds := honestKey (seen ds).1
  opening ds := (![(seen ds).1⁻¹ * (seen ds).2, (seen ds).1⁻¹, 0], 0)

/-- Its first query. -/
noncomputable abbrev firstInput : anyInputs := sentInput exampleSsm single anyInputs_mem ((2, 0, 2), (25, 0, 7)) 0

theorem honest_keys (ds : List exampleDigests) (t : ℕ) (ht : t < 2 ^ 64) (x ka : Toy.F)
    (h : (honestAny.query ds : Bytes) = pointInput exampleEnv exampleSsm t x ka) :
    left exampleSrs (honestAny.keys ds) = ka := by
  rcases ds with - | ⟨d, ds⟩
  · exact absurd h (any_sep _ _ _ _ _)
  · simp only [honestAny, keyInput, pointInput, List.append_assoc] at h
    obtain ⟨-, h⟩ := decodable_nonce _ _ _ _ (by norm_num) ht h
    obtain ⟨-, h⟩ := decodable_ser _ _ _ _ trivial trivial h
    exact ser_inj _ _ h

variable (H : anyInputs → exampleDigests)

/-- The challenge. -/
noncomputable abbrev ch : Toy.F := challengeOf Toy.F (H firstInput)

/-- The second query. -/
noncomputable abbrev secondInput : anyInputs :=
  keyInput exampleEnv exampleSsm exampleSrs anyInputs_pt 0 (by norm_num) (honestKey (ch H)) (ch H)

theorem honest_trace : Oracle.trace honestAny.query H 2 = [H firstInput, H (secondInput H)] := rfl

theorem honest_point (ht : 0 < 2 ^ 64) :
    honestAny.point exampleEnv exampleSsm single exampleSrs anyInputs_mem anyInputs_pt 2 0 ht H = secondInput H :=
  rfl

theorem honest_transcript :
    honestAny.transcript exampleSsm single anyInputs_mem 2 H = [ch H] := rfl

theorem honest_known (ht : 0 < 2 ^ 64) :
    honestAny.knownKey exampleEnv exampleSsm single exampleSrs anyInputs_mem anyInputs_pt 2 0 ht H =
      honestKey (ch H) := by
  rw [AnyProver.knownKey, honest_point]
  refine Oracle.firstKnown_of_asked honestAny.query 2 honestAny.keys honestAny.final H 1 (by norm_num) ?_
  intro i hi h
  obtain rfl : i = 0 := by omega
  exact any_sep _ _ _ _ _ (congrArg Subtype.val h)

/-- The verifier accepts whenever the challenge is not zero. -/
theorem honest_accepted (h0 : ch H ≠ 0) (z : Toy.F) (hz : exampleEnv.fromRandomBytes (H (secondInput H)) = some z) :
    TipaSsm.verify Toy.X exampleEnv (withDigest exampleSsm (Sipp.oracle H)) ⟨1, 1, 5, 3⟩ PUnit.unit
      51 ⟨[15]⟩ 7 (honestAny.tipaProof single exampleSrs 2 H) = .ok true := by
  obtain ⟨com', hrec⟩ := recLoop_digest (P := exampleSsm) (sentComs single)
    (sentInput exampleSsm single anyInputs_mem) (fun _ _ => rfl) exampleDigests_length H _ (oracle_apply H)
    (honestAny.steps (Oracle.trace honestAny.query H 2)) 0 [] (51, 7, ⟨[15]⟩) rfl (by
      intro x hx
      rw [honestAny] at hx
      simp only [Oracle.queries, List.mem_singleton] at hx
      subst hx
      exact h0)
  have L' : (withDigest exampleSsm (Sipp.oracle H)).Lawful (LinearMap.lsmul Toy.F Toy.F) Toy.e 0 idψ :=
    ⟨exampleSsm_lawful.ip_ok, exampleSsm_lawful.lmc_ok, exampleSsm_lawful.rmc_ok, exampleSsm_lawful.ipc_ok,
      exampleSsm_lawful.ψ_add, exampleSsm_lawful.ψ_smul⟩
  have hrc : (withDigest exampleSsm (Sipp.oracle H)).recursiveChallenges (51, 7, ⟨[15]⟩)
      (honestAny.tipaProof single exampleSrs 2 H).gipa = .ok (com', [ch H].reverse) := by
    rw [Gipa.recursiveChallenges, AnyProver.tipaProof]
    simp only [GipaStatic.AnyProver.proof, List.reverse_reverse]
    rw [hrec]
    rfl
  have hcom : com' = Gipa.foldMany (honestAny.tipaProof single exampleSrs 2 H).gipa.steps.reverse [ch H]
      (51, 7, ⟨[15]⟩) := by
    have h := hrc
    rw [Gipa.recursiveChallenges_eq] at h
    cases hcs : (withDigest exampleSsm (Sipp.oracle H)).chals
      (honestAny.tipaProof single exampleSrs 2 H).gipa.steps.reverse [] with
    | error e => simp [hcs] at h
    | ok cs =>
      simp only [hcs, ok_bind, Except.ok.injEq, Prod.mk.injEq] at h
      rw [← h.1, ← List.reverse_injective h.2]
  have hs : seen (Oracle.trace honestAny.query H 2) = (ch H, z) := by
    rw [honest_trace]
    exact Prod.ext rfl (by simp [seen, hz])
  have hck : (honestAny.tipaProof single exampleSrs 2 H).finalCk = left exampleSrs (honestKey (ch H)) := rfl
  have hop : (honestAny.tipaProof single exampleSrs 2 H).finalCkProof =
      left exampleSrs (n := 2) (![(ch H)⁻¹ * z, (ch H)⁻¹, 0], 0) := by
    rw [AnyProver.tipaProof]
    simp only [honestAny] at hs ⊢
    rw [hs]
  have hkzg : TipaSsm.kzgChallenge exampleEnv (withDigest exampleSsm (Sipp.oracle H)).digest
      (withDigest exampleSsm (Sipp.oracle H)).serF [ch H].reverse
      (honestAny.tipaProof single exampleSrs 2 H).finalCk = .ok z := by
    rw [List.reverse_singleton, C69_kzg_ssm]
    refine ⟨0, by norm_num, ?_, fun t' ht' => absurd ht' (Nat.not_lt_zero _)⟩
    rw [← hz, ← oracle_apply H (secondInput H), hck]
    rfl
  have hl : (left exampleSrs (honestKey (ch H)) : Toy.F) = 1 + (ch H)⁻¹ * 25 := by
    simp [left, honestKey, exampleSrs, Fin.sum_univ_three]
  have hl' : (left exampleSrs (n := 2) (![(ch H)⁻¹ * z, (ch H)⁻¹, 0], (0 : Toy.F)) : Toy.F) =
      (ch H)⁻¹ * z + (ch H)⁻¹ * 5 := by
    simp [left, exampleSrs, Fin.sum_univ_three]
  obtain ⟨b', e2, e3, -⟩ := TipaSsm.C34_verdict (V := exampleEnv) L' Toy.lawful Toy.X ⟨1, 1, 5, 3⟩ PUnit.unit 51 ⟨[15]⟩ 7
    (honestAny.tipaProof single exampleSrs 2 H) [ch H] com' z hrc hkzg
  rw [e3, hcom, hck, hop, hl, hl']
  have hb : (honestAny.tipaProof single exampleSrs 2 H).gipa.base = (1 + ch H * 2, 0) := rfl
  have hst : (honestAny.tipaProof single exampleSrs 2 H).gipa.steps.reverse =
      [sentComs single ((2, 0, 2), (25, 0, 7))] := rfl
  refine ⟨?_, ?_⟩
  · refine (C28_check_G2 Toy.lawful (1 : Toy.F) (1 : Toy.F) 3 5 (fun y h => by simpa using h) _ _ _ _ _).mpr ?_
    simp
    ring
  rw [hb, hst]
  have g2 : b' = 1 + (ch H)⁻¹ * 7 := by
    have : foldAll ([ch H].map (·⁻¹)) ((List.range (2 ^ [ch H].length)).map ((7 : Toy.F) ^ ·)) =
        [1 + (ch H)⁻¹ * 7] := by
      generalize ch H = c
      clear * -
      revert c; decide +kernel
    rw [this] at e2
    exact (List.singleton_injective e2).symm
  rw [g2]
  generalize ch H = c at h0
  clear * - h0
  revert c
  decide +kernel

/-- Almost all oracles: the bound is 49 in 101. So the hypotheses of `C115_knowledge` are met and its tree exists. -/
example : ∃ t : SsmExtract.Tree Toy.F Toy.F (Toy.F × IdentityOutput Toy.F), (extract t).length = 2 ∧
    (51 : Toy.F) = dot (Toy.e · ·) (extract t) exampleSrs.commitmentKeys.1 ∧
    some (15 : Toy.F) = some (LinearMap.id (R := Toy.F) (dot (LinearMap.lsmul Toy.F Toy.F · ·) (extract t)
      ((List.range 2).map ((7 : Toy.F) ^ ·)))) := by
  classical
  obtain ⟨t, -, h⟩ := C115_knowledge (n := 2) (P := exampleSsm) (V := exampleEnv) (Xs := anyInputs)
    (Ds := exampleDigests) (srs := exampleSrs) (τ := single) anyInputs_mem anyInputs_pt exampleSsm_lawful
    Toy.lawful Toy.X PUnit.unit (reads_identity PUnit.unit)
    decodable_ser decodable_ser decodable_ser (decodable_single decodable_ser) decodable_ser
    exampleDigests_length 1 1 exampleDigests_card
    (fun x => Finset.card_le_one.mpr fun d hd d' hd' => exampleDigests_point d d' x
      (Finset.mem_filter.mp hd).2 (Finset.mem_filter.mp hd').2) 1 rfl 1 1 3 5 exampleSrs_isSrs (by decide)
    (fun y h => by simpa using h) ⟨1, 1, 5, 3⟩ rfl
    51 ⟨[15]⟩ 7 honestAny 2 1 (by norm_num) honest_keys (fun t _ => any_sep t) (fun _ => rfl)
    (Finset.univ.filter fun H => ch H ≠ 0)
    (fun H hH => by
      have hsome : ∀ d : exampleDigests, ∃ c, exampleEnv.fromRandomBytes d = some c := by
        rintro ⟨d, hd⟩
        obtain ⟨x, -, rfl⟩ := Finset.mem_image.mp hd
        exact ⟨((UInt8.ofNat x.val).toNat : Toy.F), by simp [exampleEnv, Toy.ser]⟩
      obtain ⟨z, hz⟩ := hsome (H (secondInput H))
      refine ⟨honest_accepted H (Finset.mem_filter.mp hH).2 z hz, 0, by norm_num, z, hz,
        fun t' ht' => absurd ht' (Nat.not_lt_zero _), ?_⟩
      rw [honest_known, honest_transcript, honest_trace]
      simp only [honestAny, honestKey, seen, List.getElem?_cons_zero, List.getElem?_cons_succ, Option.map_some,
        Option.bind_some, hz, Option.getD_some]
      refine no_leak _ _ _ _ _ ?_
      simp [keyPoly_single]) (by
      have h2 := Finset.card_filter_add_card_filter_not (s := (Finset.univ : Finset exampleDigests))
        (fun d => challengeOf Toy.F d = 0)
      rw [Finset.card_univ, Fintype.card_coe, card_exampleDigests] at h2
      have h3 := exampleDigests_card 0
      have h1 := card_apply firstInput fun d : exampleDigests => challengeOf Toy.F d ≠ 0
      rw [Fintype.card_fun, Fintype.card_coe, Fintype.card_coe] at h1
      rw [h1, card_exampleDigests]
      have h6 : 0 < 101 ^ anyInputs.card := by positivity
      exact Nat.mul_lt_mul_of_pos_right (show _ < _ by simp only [ne_eq]; omega) h6)
  exact ⟨t, h⟩

open Classical in
/-- The key is `(1, 25)`, so the value at 25 of a vector with commitment 51 is 51. No algebraic prover with one query
makes the verifier accept 52 for more than 30 in 101 of all oracles, unless it finds a polynomial with the trapdoors as
a zero. -/
example (A : AnyProver 2 Toy.F Toy.F Toy.F Toy.F anyInputs exampleDigests)
    (hkeys : ∀ ds, ∀ t < 2 ^ 64, ∀ x ka, (A.query ds : Bytes) = pointInput exampleEnv exampleSsm t x ka →
      left exampleSrs (A.keys ds) = ka)
    (hsteps : ∀ ds, (A.steps ds).length = 1) (W : Finset (anyInputs → exampleDigests))
    (hW : ∀ H ∈ W,
      TipaSsm.verify Toy.X exampleEnv (withDigest exampleSsm (Sipp.oracle H)) ⟨1, 1, 5, 3⟩ PUnit.unit 51 ⟨[52]⟩ 25
        (A.tipaProof single exampleSrs 1 H) = .ok true ∧
      ∀ c : Toy.F,
        ¬ Leak (A.knownKey exampleEnv exampleSsm single exampleSrs anyInputs_mem anyInputs_pt 1 0 (by norm_num) H)
          (A.opening (Oracle.trace A.query H 1))
          ((keyPoly ((A.transcript exampleSsm single anyInputs_mem 1 H).map (·⁻¹)) 1).eval c) c 5 3) :
    W.card * 101 ≤ 30 * 101 ^ anyInputs.card := by
  have := C115_soundness (n := 2) (P := exampleSsm) (V := exampleEnv) (Xs := anyInputs)
    (Ds := exampleDigests) (srs := exampleSrs) (τ := single) anyInputs_mem anyInputs_pt exampleSsm_lawful
    Toy.lawful Toy.X PUnit.unit (reads_identity PUnit.unit)
    decodable_ser decodable_ser decodable_ser (decodable_single decodable_ser) decodable_ser
    exampleDigests_length 1 1 exampleDigests_card
    (fun x => Finset.card_le_one.mpr fun d hd d' hd' => exampleDigests_point d d' x
      (Finset.mem_filter.mp hd).2 (Finset.mem_filter.mp hd').2) 1 rfl 1 1 3 5 exampleSrs_isSrs (by decide)
    (fun y h => by simpa using h) ⟨1, 1, 5, 3⟩ rfl 51 ⟨[52]⟩ 25 (by
      rintro ⟨a, h1, h3, h5⟩
      obtain ⟨x, y, rfl⟩ := List.length_eq_two.mp h1
      have h3 : (51 : Toy.F) = x * 1 + y * 25 := by
        rw [h3, show exampleSrs.commitmentKeys.1 = [(1 : Toy.F), 25] from rfl]
        simp [dot]
      have h5 : (52 : Toy.F) = x * 1 + y * 25 := by
        have := Option.some.inj h5
        rw [show (List.range 2).map ((25 : Toy.F) ^ ·) = [1, 25] by decide +kernel] at this
        simpa [dot] using this
      exact absurd (h3.trans h5.symm) (by decide)) A 1 1 (by norm_num) hkeys (fun t _ => any_sep t) hsteps
  rw [card_exampleDigests, show (1 + 1) * (1 + 1 + 4) * 1 +
    1 * ((1 + 1 + 1) * ((2 * 2 - 2) * 1) + (1 + 1 + 1) * (1 + 1 + 2) * 1) = 30 from rfl] at this
  refine le_trans (Nat.mul_le_mul_right _ (Finset.card_le_card fun H hH => ?_)) this
  obtain ⟨h1, h4⟩ := hW H hH
  refine Finset.mem_filter.mpr ⟨Finset.mem_univ _, h1, 0, by norm_num, ?_⟩
  have hsome : ∀ d : exampleDigests, ∃ c, exampleEnv.fromRandomBytes d = some c := by
    rintro ⟨d, hd⟩
    obtain ⟨x, -, rfl⟩ := Finset.mem_image.mp hd
    exact ⟨((UInt8.ofNat x.val).toNat : Toy.F), by simp [exampleEnv, Toy.ser]⟩
  obtain ⟨c, hc⟩ := hsome (H (A.point exampleEnv exampleSsm single exampleSrs anyInputs_mem
    anyInputs_pt 1 0 (by norm_num) H))
  exact ⟨c, hc, fun t' ht' => absurd ht' (Nat.not_lt_zero _), h4 c⟩

end Example

end Ripp.TipaSsmStatic
