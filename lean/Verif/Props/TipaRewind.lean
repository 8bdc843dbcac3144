import Verif.Props.TipaStatic
import Verif.Props.GipaRewind
import Verif.Lemmas.Tail

/-!
# C114: knowledge soundness of TIPA in the random oracle model, for a statement fixed before the oracle

Unlike in C92 the prover need not know anything about the commitments it hashes; it only knows the final keys and
their openings as combinations of the reference string. If the verifier accepts for a large share of all oracles, the
proofs output for these oracles contain a tree from which the extractor of C67 computes an opening or a collision.
-/

set_option linter.unusedSectionVars false

namespace Ripp.TipaStatic

open Spec Extract GipaStatic Polynomial

variable {ρ F MA MB T KT OA OB OT RT O G1 G2 GT TF : Type} [Field F] [DecidableEq F]
  [AddCommGroup MA] [Module F MA] [AddCommGroup MB] [Module F MB] [AddCommGroup T] [Module F T]
  [AddCommGroup G1] [Module F G1] [AddCommGroup G2] [Module F G2]
  [AddCommGroup GT] [Module F GT] [Monoid TF] [DecidableEq GT]
  [AddCommGroup OA] [Module F OA] [AddCommGroup OB] [Module F OB] [Add OT] [SMul F OT]
  [AddCommGroup O] [Module F O]
  [DecidableEq T] [DecidableEq OA] [DecidableEq OB] [DecidableEq OT] {n : ℕ}

theorem _root_.Ripp.Extract.Tree.Branches.mono {C : Type} : ∀ (t : Tree F MA MB C)
    {p q : List ((C × C) × F) → MA × MB → Prop}, (∀ ps b, p ps b → q ps b) → t.Branches p → t.Branches q
  | .leaf _ _, _, _, h, hp => h _ _ hp
  | .node _ _ _ t, _, _, h, ⟨h1, h2, h3⟩ => 
    ⟨h1, h2, fun i => Ripp.Extract.Tree.Branches.mono (t i) (fun _ _ => h _ _) (h3 i)⟩

/-- A prover with oracle access as in `GipaStatic.AnyProver`. In addition it says with each query which combinations
the final keys it hashes are, and at the end outputs final keys and their openings as combinations. -/
structure AnyProver (n : ℕ) (F MA MB OA OB RT : Type) (Xs Ds : Finset Bytes) extends
    GipaStatic.AnyProver MA MB OA OB RT Xs Ds where
  keys : List Ds → Comb n F × Comb n F
  final : List Ds → Comb n F × Comb n F
  opening : List Ds → Comb n F × Comb n F

variable (V : TipaEnv F G1 G2 GT TF) (P : Gipa ρ F MA MB T G2 G1 KT OA OB OT) (τ : RT → OT) (srs : SRS G1 G2)
  (r : F) {Xs Ds : Finset Bytes}
  (hmem : ∀ k (z : Sent OA OB RT), P.hashInput 0 k (sentComs τ z).1 (sentComs τ z).2 ∈ Xs)
  (hpt : ∀ t x ka kb, t < 2 ^ 64 → pointInput V P t x ka kb ∈ Xs)

/-- The whole proof. -/
def AnyProver.tipaProof (A : AnyProver n F MA MB OA OB RT Xs Ds) (Q : ℕ) (H : Xs → Ds) :
    TipaProof G1 G2 MA MB OA OB OT where
  gipa := A.toAnyProver.proof τ Q H
  finalCk := (left srs (A.final (Oracle.trace A.query H Q)).1,
    right srs (A.final (Oracle.trace A.query H Q)).2)
  finalCkProof := (left srs (A.opening (Oracle.trace A.query H Q)).1,
    right srs (A.opening (Oracle.trace A.query H Q)).2)

/-- The hash input of a round. -/
def sentInput (z : Sent OA OB RT) (k : F) : Xs := ⟨_, hmem k z⟩

/-- The hash input for the opening point. -/
def keyInput (t : ℕ) (ht : t < 2 ^ 64) (q : Comb n F × Comb n F) (k : F) : Xs :=
  ⟨pointInput V P t k (left srs q.1) (right srs q.2), hpt _ _ _ _ ht⟩

/-- The challenges of all rounds, last first. -/
def AnyProver.transcript (A : AnyProver n F MA MB OA OB RT Xs Ds) (Q : ℕ) (H : Xs → Ds) : List F :=
  (Oracle.roundKeys A.query Q A.steps (sentInput P τ hmem) (challengeOf F) 0 H).reverse

/-- The input that gives the opening point. -/
def AnyProver.point (A : AnyProver n F MA MB OA OB RT Xs Ds) (Q t : ℕ) (ht : t < 2 ^ 64) (H : Xs → Ds) : Xs :=
  Oracle.lastQuery A.query Q A.steps A.final (sentInput P τ hmem) (keyInput V P srs hpt t ht) (challengeOf F) 0 H

/-- What was known about the final keys when they were first hashed. -/
noncomputable def AnyProver.knownKeys (A : AnyProver n F MA MB OA OB RT Xs Ds) (Q t : ℕ) (ht : t < 2 ^ 64)
    (H : Xs → Ds) : Comb n F × Comb n F :=
  Oracle.firstKnown A.query Q A.keys A.final H (A.point V P τ srs hmem hpt Q t ht H)

/-- No challenge is zero, the final keys were known when they were first hashed, and the opening point of attempt
`t` is good. -/
def AnyProver.Fine (A : AnyProver n F MA MB OA OB RT Xs Ds) (Q k t : ℕ) (ht : t < 2 ^ 64) (H : Xs → Ds) : Prop :=
  (∀ x ∈ Oracle.queries (sentInput P τ hmem) (challengeOf F) H 0 (A.steps (Oracle.trace A.query H Q)),
    challengeOf F (H x) ≠ 0) ∧
  (left srs (A.knownKeys V P τ srs hmem hpt Q t ht H).1, right srs (A.knownKeys V P τ srs hmem hpt Q t ht H).2) =
    (left srs (A.final (Oracle.trace A.query H Q)).1, right srs (A.final (Oracle.trace A.query H Q)).2) ∧
  Good V r k (Oracle.roundKeys A.query Q A.steps (sentInput P τ hmem) (challengeOf F) 0 H)
    (A.knownKeys V P τ srs hmem hpt Q t ht H) (H (A.point V P τ srs hmem hpt Q t ht H))

/-- All but a few oracles are fine. -/
theorem count_not_fine (hF : Decodable (fun _ => True) P.serF) (hG2 : Decodable (fun _ => True) V.serG2)
    (hG1 : Decodable (fun _ => True) V.serG1) (m m' : ℕ)
    (hm : ∀ x : F, (Finset.univ.filter fun d : Ds => challengeOf F d = x).card ≤ m)
    (hm' : ∀ c, (Finset.univ.filter fun d : Ds => V.fromRandomBytes d = some c).card ≤ m') (k : ℕ)
    (hn : n = 2 ^ k) (A : AnyProver n F MA MB OA OB RT Xs Ds) (Q : ℕ)
    (hkeys : ∀ ds, ∀ t < 2 ^ 64, ∀ x ka kb, (A.query ds : Bytes) = pointInput V P t x ka kb →
      left srs (A.keys ds).1 = ka ∧ right srs (A.keys ds).2 = kb)
    (hsep : ∀ t < 2 ^ 64, ∀ z x x' ka kb, (sentInput P τ hmem z x : Bytes) ≠ pointInput V P t x' ka kb)
    (hsteps : ∀ ds, (A.steps ds).length = k) (t : ℕ) (ht : t < 2 ^ 64) (W : Finset (Xs → Ds))
    (hW : ∀ H ∈ W, ¬ A.Fine V P τ srs r hmem hpt Q k t ht H) :
    W.card * Ds.card ≤ ((Q + k + 1) * (2 * (2 * n - 2) * m') + (Q + k + 1) * (Q + k + 2) * m) *
      Ds.card ^ Xs.card := by
  classical
  have hn1 : 1 ≤ n := by rw [hn]; exact Nat.one_le_two_pow
  have c1 : Fintype.card Ds = Ds.card := Fintype.card_coe Ds
  have c2 : Fintype.card (Xs → Ds) = Ds.card ^ Xs.card := by
    rw [Fintype.card_fun, Fintype.card_coe, Fintype.card_coe]
  rw [← c2, ← c1]
  refine Oracle.count_tail A.query Q A.steps A.keys A.final (sentInput P τ hmem) (keyInput V P srs hpt t ht)
    (challengeOf F) 0 (fun q => (left srs q.1, right srs q.2)) ?_ ?_ ?_ m _ ?_
    (fun cs q d => Good V r k cs q d) ?_ ?_ k hsteps W hW
  · intro z x z' x' h
    have h := congrArg Subtype.val h
    simp only [sentInput, Gipa.hashInput, List.append_assoc] at h
    obtain ⟨-, h⟩ := decodable_nonce _ _ _ _ (by norm_num) (by norm_num) h
    exact (hF _ _ _ _ trivial trivial h).1
  · intro q x q' x' h
    have h := congrArg Subtype.val h
    simp only [keyInput, pointInput, List.append_assoc] at h
    obtain ⟨-, h⟩ := decodable_nonce _ _ _ _ ht ht h
    obtain ⟨g0, h⟩ := hF _ _ _ _ trivial trivial h
    obtain ⟨g1, h⟩ := hG2 _ _ _ _ trivial trivial h
    rw [← List.append_nil (V.serG1 _), ← List.append_nil (V.serG1 (right srs q'.2))] at h
    obtain ⟨g2, -⟩ := hG1 _ _ _ _ trivial trivial h
    exact ⟨Prod.ext g1 g2, g0⟩
  · intro z x q x' h
    exact hsep t ht z x _ _ _ (congrArg Subtype.val h)
  · exact fun x S hS =>
      (Finset.card_le_card fun d hd => Finset.mem_filter.mpr ⟨Finset.mem_univ _, hS d hd⟩).trans (hm x)
  · exact fun cs q S hS => card_not_good V r hn1 k hn m' hm' cs q S hS
  · intro ds q x h
    obtain ⟨g1, g2⟩ := hkeys ds t ht _ _ _ (congrArg Subtype.val h)
    exact Prod.ext g1 g2

variable {V P τ srs r} {bil : MA →ₗ[F] MB →ₗ[F] T} {φa : MA →ₗ[F] G2 →ₗ[F] OA} {φb : MB →ₗ[F] G1 →ₗ[F] OB}
  {ψ : KT → T → OT} {η : OT → Option O} {ψ' : T →ₗ[F] O} {e : G1 →ₗ[F] G2 →ₗ[F] GT}

/-- An accepted proof is accepted by GIPA with the whole keys, if the opening point is good and the openings of the
final keys hold as identities of polynomials. The hash function `dg` agrees with the oracle. -/
theorem AnyProver.accepted_gipa (L : P.Lawful bil φa φb ψ) (hE : V.E.Lawful e) (kt : KT)
    (hd : ∀ d ∈ Ds, 16 ≤ d.length) (k : ℕ) (hn : n = 2 ^ k) (g : G1) (h : G2) (α β : F)
    (hsrs : IsSrs srs g h α β n) (hg0 : g ≠ 0) (hh0 : h ≠ 0)
    (hg : ∀ y, e g y = 0 → y = 0) (hh : ∀ x, e x h = 0 → x = 0) (v : VerifierSRS G1 G2)
    (hv : srs.verifierKey = .ok v) (hr : r ≠ 0) (com : Coms OA OB OT)
    (A : AnyProver n F MA MB OA OB RT Xs Ds) (Q : ℕ) (hsteps : ∀ ds, (A.steps ds).length = k) (H : Xs → Ds)
    (dg : Bytes → Bytes) (hdg : ∀ x : Xs, dg x = H x)
    (hacc : Tipa.verifyWithShift V (withDigest P dg) v kt com (A.tipaProof τ srs Q H) r = .ok true)
    (t : ℕ) (ht : t < 2 ^ 64) (c : F)
    (hc : V.fromRandomBytes (H (A.point V P τ srs hmem hpt Q t ht H)) = some c)
    (hfirst : ∀ t', ∀ ht' : t' < t, V.fromRandomBytes
      (H (A.point V P τ srs hmem hpt Q t' (ht'.trans ht) H)) = none)
    (lA : ¬ Leak (A.knownKeys V P τ srs hmem hpt Q t ht H).1 (A.opening (Oracle.trace A.query H Q)).1
      ((keyPoly ((A.transcript P τ hmem Q H).map (·⁻¹)) r⁻¹).eval c) c β α)
    (lB : ¬ Leak (A.knownKeys V P τ srs hmem hpt Q t ht H).2 (A.opening (Oracle.trace A.query H Q)).2
      ((keyPoly (A.transcript P τ hmem Q H) 1).eval c) c α β)
    (hgood : A.Fine V P τ srs r hmem hpt Q k t ht H) :
    (withDigest P dg).verify (srs.commitmentKeys.1.mapIdx fun i ck => r⁻¹ ^ i • ck) srs.commitmentKeys.2 kt com
      (A.toAnyProver.proof τ Q H) = .ok true := by
  obtain ⟨hne, hkk, hgood⟩ := hgood
  have kA := congrArg Prod.fst hkk
  have kB := congrArg Prod.snd hkk
  simp only at kA kB
  have L' : (withDigest P dg).Lawful bil φa φb ψ :=
    ⟨L.ip_ok, L.lmc_ok, L.rmc_ok, L.ipc_ok, L.ψ_add, L.ψ_smul⟩
  obtain ⟨com1, hrec⟩ := recLoop_digest (P := P) (sentComs τ) (sentInput P τ hmem) (fun _ _ => rfl) hd H dg hdg
    (A.steps (Oracle.trace A.query H Q)) 0 [] com rfl hne
  set tr := A.transcript P τ hmem Q H with htr
  have hrc : (withDigest P dg).recursiveChallenges com (A.tipaProof τ srs Q H).gipa = .ok (com1, tr) := by
    rw [Gipa.recursiveChallenges, AnyProver.tipaProof]
    simp only [GipaStatic.AnyProver.proof, List.reverse_reverse]
    rw [hrec]
    rfl
  have hlen : tr.length = k := by
    rw [htr, AnyProver.transcript, List.length_reverse, Oracle.roundKeys, List.length_map, Oracle.length_queries,
      hsteps]
  obtain ⟨t0, ts, hcons⟩ : ∃ t0 ts, tr = t0 :: ts := by
    cases htr' : tr with
    | nil =>
      exfalso
      rw [Tipa.verifyWithShift, hrc] at hacc
      simp only [ok_bind] at hacc
      rw [htr', invertAll_eq _ (by simp)] at hacc
      simp only [ok_bind] at hacc
      rw [Tipa.kzgChallenge_nil] at hacc
      cases hacc
    | cons a l => exact ⟨a, l, rfl⟩
  have hpoint : ∀ t' (h' : t' < 2 ^ 64),
      (A.point V P τ srs hmem hpt Q t' h' H : Bytes) = be8 t' ++ P.serF t0 ++
      V.serG2 (A.tipaProof τ srs Q H).finalCk.1 ++ V.serG1 (A.tipaProof τ srs Q H).finalCk.2 := by
    intro t' h'
    rw [AnyProver.point, Oracle.lastQuery, ← List.head?_reverse, show (Oracle.roundKeys A.query Q A.steps
      (sentInput P τ hmem) (challengeOf F) 0 H).reverse = tr from rfl, hcons, ← nonceBytes_eq]
    rfl
  have hkzg : Tipa.kzgChallenge V (withDigest P dg).digest (withDigest P dg).serF tr
      (A.tipaProof τ srs Q H).finalCk.1 (A.tipaProof τ srs Q H).finalCk.2 = .ok c := by
    rw [hcons, C69_kzg]
    refine ⟨t, ht, ?_, fun t' ht' => ?_⟩
    · change V.fromRandomBytes (dg (be8 t ++ P.serF t0 ++ _ ++ _)) = _
      rw [← hpoint t ht, hdg, hc]
    · change V.fromRandomBytes (dg (be8 t' ++ P.serF t0 ++ _ ++ _)) = _
      rw [← hpoint t' (ht'.trans ht), hdg, hfirst t' ht']
  have hg' := hgood c hc (by rw [← hlen, htr, AnyProver.transcript, List.length_reverse])
  subst hn
  exact Tipa.C70_tipa L' hE k srs g h α β hsrs hg0 hh0 hg hh v hv kt com com1
    (A.tipaProof τ srs Q H) r hr tr c (by simp [AnyProver.tipaProof, GipaStatic.AnyProver.proof, hsteps]) hrc
    hkzg (poly (A.knownKeys V P τ srs hmem hpt Q t ht H).1)
    (poly (A.opening (Oracle.trace A.query H Q)).1)
    (poly (A.knownKeys V P τ srs hmem hpt Q t ht H).2)
    (poly (A.opening (Oracle.trace A.query H Q)).2) _ _ _ _
    (kA.symm.trans (left_eq hsrs _)) (left_eq hsrs _) (kB.symm.trans (right_eq hsrs _)) (right_eq hsrs _)
    (fun h => by_contra fun h' => lA ⟨h, h'⟩) (fun h => by_contra fun h' => lB ⟨h, h'⟩)
    hg'.1 hg'.2 hacc

variable [DecidableEq MA] [DecidableEq MB]

/-- C114: fix a reference string for vectors of length `n = 2^k`, a shift and commitments. Let the verifier accept the
proofs of a prover with `Q` queries for more than
`(M (M + 5) m + N ((M + 1) (4 n - 4) m' + (M + 1) (M + 2) m)) / |Ds|` of all oracles, with an opening point found within
`N` attempts and without a non-zero polynomial of which the trapdoors are a zero. Here `M = Q + k`, `m` is the number of
digests for a challenge and `m'` the number of digests for an opening point. Then the proofs for these oracles contain
a tree of runs, and the extractor of C67 turns this tree into an opening of the commitments under the keys of the
reference string with the committed inner product, or into a collision of these keys. -/
theorem C114_knowledge (L : P.Lawful bil φa φb ψ) (hE : V.E.Lawful e) (kt : KT) (R : Reads F η (ψ kt) ψ')
    (hF : Decodable (fun _ => True) P.serF) (hA : Decodable (fun _ => True) P.serA)
    (hB : Decodable (fun _ => True) P.serB) (hT : Decodable (· ∈ Set.range τ) P.serT)
    (hG2 : Decodable (fun _ => True) V.serG2) (hG1 : Decodable (fun _ => True) V.serG1)
    (hd : ∀ d ∈ Ds, 16 ≤ d.length) (m m' : ℕ)
    (hm : ∀ x : F, (Finset.univ.filter fun d : Ds => challengeOf F d = x).card ≤ m)
    (hm' : ∀ c, (Finset.univ.filter fun d : Ds => V.fromRandomBytes d = some c).card ≤ m') (k : ℕ)
    (hn : n = 2 ^ k) (g : G1) (h : G2) (α β : F) (hsrs : IsSrs srs g h α β n) (hg0 : g ≠ 0) (hh0 : h ≠ 0)
    (hg : ∀ y, e g y = 0 → y = 0) (hh : ∀ x, e x h = 0 → x = 0) (v : VerifierSRS G1 G2)
    (hv : srs.verifierKey = .ok v) (hr : r ≠ 0) (com : Coms OA OB OT)
    (A : AnyProver n F MA MB OA OB RT Xs Ds) (Q N : ℕ) (hN : N ≤ 2 ^ 64)
    (hkeys : ∀ ds, ∀ t < 2 ^ 64, ∀ x ka kb, (A.query ds : Bytes) = pointInput V P t x ka kb →
      left srs (A.keys ds).1 = ka ∧ right srs (A.keys ds).2 = kb)
    (hsep : ∀ t < 2 ^ 64, ∀ z x x' ka kb, (sentInput P τ hmem z x : Bytes) ≠ pointInput V P t x' ka kb)
    (hsteps : ∀ ds, (A.steps ds).length = k) (W : Finset (Xs → Ds))
    (hW : ∀ H ∈ W, Tipa.verifyWithShift V (withDigest P (Sipp.oracle H)) v kt com (A.tipaProof τ srs Q H) r =
        .ok true ∧
      ∃ t, ∃ ht : t < N, ∃ c,
        V.fromRandomBytes (H (A.point V P τ srs hmem hpt Q t (ht.trans_le hN) H)) = some c ∧
        (∀ t', ∀ ht' : t' < t, V.fromRandomBytes
          (H (A.point V P τ srs hmem hpt Q t' ((ht'.trans ht).trans_le hN) H)) = none) ∧
        ¬ Leak (A.knownKeys V P τ srs hmem hpt Q t (ht.trans_le hN) H).1 (A.opening (Oracle.trace A.query H Q)).1
          ((keyPoly ((A.transcript P τ hmem Q H).map (·⁻¹)) r⁻¹).eval c) c β α ∧
        ¬ Leak (A.knownKeys V P τ srs hmem hpt Q t (ht.trans_le hN) H).2 (A.opening (Oracle.trace A.query H Q)).2
          ((keyPoly (A.transcript P τ hmem Q H) 1).eval c) c α β)
    (hmany : ((Q + k) * (Q + k + 5) * m +
      N * ((Q + k + 1) * (2 * (2 * n - 2) * m') + (Q + k + 1) * (Q + k + 2) * m)) * Ds.card ^ Xs.card <
        W.card * Ds.card) :
    ∃ t : Tree F MA MB (OA × OB × OT),
      (t.Branches fun ps base => ∃ H ∈ W, ∃ com',
        (withDigest P (Sipp.oracle H)).recursiveChallenges com (A.tipaProof τ srs Q H).gipa =
          .ok (com', (ps.map (·.2)).reverse) ∧
        (A.tipaProof τ srs Q H).gipa.steps = (ps.map (·.1)).reverse ∧ (A.tipaProof τ srs Q H).gipa.base = base) ∧
      (extract t).Valid bil φa φb η ψ' (srs.commitmentKeys.1.mapIdx fun i ck => r⁻¹ ^ i • ck)
        srs.commitmentKeys.2 com := by
  classical
  have hn1 : 1 ≤ n := by rw [hn]; exact Nat.one_le_two_pow
  obtain ⟨e1, e2, -⟩ := C25_keys srs g h α β _ hn1 hsrs
  obtain ⟨S, hSW, hfine, hmany'⟩ := Oracle.exists_fine W N
    (fun t H => ¬ A.Fine V P τ srs r hmem hpt Q k t (t.2.trans_le hN) H) _ _ _ _
    (fun t S hS => count_not_fine V P τ srs r hmem hpt hF hG2 hG1 m m' hm hm' k hn A Q hkeys hsep hsteps t
      (t.2.trans_le hN) S hS) hmany
  obtain ⟨tree, h1, h2⟩ := C109_knowledge (P := P) (τ := τ) hmem L kt R hF hA hB hT hd m hm k
    (srs.commitmentKeys.1.mapIdx fun i ck => r⁻¹ ^ i • ck) srs.commitmentKeys.2
    (by rw [List.length_mapIdx, e1]; simp [hn]) (by rw [e2]; simp [hn]) com A.toAnyProver Q hsteps S
    (fun H hH => by
      obtain ⟨hacc, t, ht, c, hc, hfirst, lA, lB⟩ := hW H (hSW hH)
      exact A.accepted_gipa hmem hpt L hE kt hd k hn g h α β hsrs hg0 hh0 hg hh v hv hr com Q hsteps H _
        (oracle_apply H) hacc t (ht.trans_le hN) c hc hfirst lA lB (not_not.mp (hfine H hH ⟨t, ht⟩))) hmany'
  refine ⟨tree, ?_, h2⟩
  refine Extract.Tree.Branches.mono tree (fun ps base => ?_) h1
  rintro ⟨H, hH, rest⟩
  exact ⟨H, hSW hH, rest⟩

/-! ## An instance: vectors of length 2 over the field with 101 elements -/

section Example
open Toy hiding X

/-- The hash inputs. -/
noncomputable def anyInputs : Finset Bytes :=
  (Set.finite_range fun p : Toy.F × Sent Toy.F Toy.F Toy.F =>
    exampleGipa.hashInput 0 p.1 (sentComs single p.2).1 (sentComs single p.2).2).toFinset ∪
  (Set.finite_range fun p : Fin (2 ^ 64) × Toy.F × Toy.F × Toy.F =>
    pointInput exampleEnv exampleGipa p.1 p.2.1 p.2.2.1 p.2.2.2).toFinset

theorem anyInputs_mem (k : Toy.F) (z : Sent Toy.F Toy.F Toy.F) :
    exampleGipa.hashInput 0 k (sentComs single z).1 (sentComs single z).2 ∈ anyInputs :=
  Finset.mem_union_left _ ((Set.Finite.mem_toFinset _).mpr ⟨(k, z), rfl⟩)

theorem anyInputs_pt (t : ℕ) (x ka kb : Toy.F) (ht : t < 2 ^ 64) :
    pointInput exampleEnv exampleGipa t x ka kb ∈ anyInputs :=
  Finset.mem_union_right _ ((Set.Finite.mem_toFinset _).mpr ⟨(⟨t, ht⟩, x, ka, kb), rfl⟩)

theorem any_sep (t : ℕ) (z : Sent Toy.F Toy.F Toy.F) (x x' ka kb : Toy.F) :
    (sentInput exampleGipa single anyInputs_mem z x : Bytes) ≠ pointInput exampleEnv exampleGipa t x' ka kb := by
  intro h
  have := congrArg List.length h
  simp [sentInput, sentComs, single, serIdentity, serSeq, Gipa.hashInput, pointInput, exampleGipa, exampleEnv,
    Toy.ser, nonceBytes, leBytes] at this

/-- The challenge and the opening point an honest prover sees. -/
def seen (ds : List exampleDigests) : Toy.F × Toy.F :=
  ((ds[0]?.map fun d : exampleDigests => challengeOf Toy.F d).getD 0,
    (ds[1]?.bind fun d : exampleDigests => exampleEnv.fromRandomBytes d).getD 0)

/-- The final keys for the challenge `c`. -/
def honestKeys (c : Toy.F) : Comb 2 Toy.F × Comb 2 Toy.F := ((![1, 0, c⁻¹], 0), (![1, 0, c], 0))

/-- An honest prover for the vectors `(1, 2)` and `(3, 4)`. It asks for its only challenge, then for the opening
point. -/
noncomputable def honestAny : AnyProver 2 Toy.F Toy.F Toy.F Toy.F Toy.F Toy.F anyInputs exampleDigests where
  query
    | [] => sentInput exampleGipa single anyInputs_mem ((2, 27, 6), (25, 4, 4)) 0
    | d :: ds => keyInput exampleEnv exampleGipa exampleSrs anyInputs_pt 0 (by norm_num)
      (honestKeys (seen (d :: ds)).1) (seen (d :: ds)).1
  steps _ := [((2, 27, 6), (25, 4, 4))]
  base ds := (1 + (seen ds).1 * 2, 3 + (seen ds).1⁻¹ * 4)
  keys ds := honestKeys (seen ds).1
  final ds := honestKeys (seen ds).1
  opening ds := ((![(seen ds).1⁻¹ * (seen ds).2, (seen ds).1⁻¹, 0], 0),
    (![(seen ds).1 * (seen ds).2, (seen ds).1, 0], 0))

/-- Its first query. -/
noncomputable abbrev firstInput : anyInputs := sentInput exampleGipa single anyInputs_mem ((2, 27, 6), (25, 4, 4)) 0

theorem honest_keys (ds : List exampleDigests) (t : ℕ) (ht : t < 2 ^ 64) (x ka kb : Toy.F)
    (h : (honestAny.query ds : Bytes) = pointInput exampleEnv exampleGipa t x ka kb) :
    left exampleSrs (honestAny.keys ds).1 = ka ∧ right exampleSrs (honestAny.keys ds).2 = kb := by
  rcases ds with - | ⟨d, ds⟩
  · exact absurd h (any_sep _ _ _ _ _ _)
  · simp only [honestAny, keyInput, pointInput, List.append_assoc] at h
    obtain ⟨-, h⟩ := decodable_nonce _ _ _ _ (by norm_num) ht h
    obtain ⟨-, h⟩ := decodable_ser _ _ _ _ trivial trivial h
    obtain ⟨g1, h⟩ := decodable_ser _ _ _ _ trivial trivial h
    exact ⟨g1, ser_inj _ _ h⟩

variable (H : anyInputs → exampleDigests)

/-- The challenge. -/
noncomputable abbrev ch : Toy.F := challengeOf Toy.F (H firstInput)

/-- The second query. -/
noncomputable abbrev secondInput : anyInputs :=
  keyInput exampleEnv exampleGipa exampleSrs anyInputs_pt 0 (by norm_num) (honestKeys (ch H)) (ch H)

theorem honest_trace : Oracle.trace honestAny.query H 2 = [H firstInput, H (secondInput H)] := rfl

theorem honest_point (ht : 0 < 2 ^ 64) :
    honestAny.point exampleEnv exampleGipa single exampleSrs anyInputs_mem anyInputs_pt 2 0 ht H = secondInput H :=
  rfl

theorem honest_transcript :
    honestAny.transcript exampleGipa single anyInputs_mem 2 H = [ch H] := rfl

theorem honest_known (ht : 0 < 2 ^ 64) :
    honestAny.knownKeys exampleEnv exampleGipa single exampleSrs anyInputs_mem anyInputs_pt 2 0 ht H =
      honestKeys (ch H) := by
  rw [AnyProver.knownKeys, honest_point]
  refine Oracle.firstKnown_of_asked honestAny.query 2 honestAny.keys honestAny.final H 1 (by norm_num) ?_
  intro i hi h
  obtain rfl : i = 0 := by omega
  exact any_sep _ _ _ _ _ _ (congrArg Subtype.val h)

theorem toy_poly {K : Type} [Field K] [DecidableEq K] (a b c d : K) : poly (n := 2) (![a, b, c], d) = C a + C b * X + C c * X ^ 2 := by
  rw [poly, Polynomial.ofFn_eq_sum_monomial]
  simp [Fin.sum_univ_three, ← Polynomial.C_mul_X_pow_eq_monomial]

theorem keyPoly_single {K : Type} [Field K] (x r : K) : keyPoly [x] r = 1 + C (x * r) * X ^ 2 := by
  simp [keyPoly, mul_assoc]

/-- An honest opening leaks nothing. -/
theorem no_leak {K : Type} [Field K] [DecidableEq K] (c z y s s' : K) (hy : y = 1 + c * z ^ 2) :
    ¬ Leak (n := 2) (![1, 0, c], 0) (![c * z, c, 0], 0) y z s s' := by
  rintro ⟨-, h⟩
  refine h ⟨?_, ?_⟩
  · rw [powerPart, toy_poly, toy_poly, hy]
    simp only [map_zero, map_one, map_add, map_mul, map_pow]
    ring
  · simp [otherPart]

/-- The verifier accepts whenever the challenge is not zero. -/
theorem honest_accepted (h0 : ch H ≠ 0) (z : Toy.F) (hz : exampleEnv.fromRandomBytes (H (secondInput H)) = some z) :
    Tipa.verifyWithShift exampleEnv (withDigest exampleGipa (Sipp.oracle H)) ⟨1, 1, 5, 3⟩ PUnit.unit
      (51, 39, ⟨[11]⟩) (honestAny.tipaProof single exampleSrs 2 H) 1 = .ok true := by
  obtain ⟨com', hrec⟩ := recLoop_chain' (P := exampleGipa) (sentComs single)
    (sentInput exampleGipa single anyInputs_mem)
    (fun _ _ => rfl) exampleDigests_length H (honestAny.steps (Oracle.trace honestAny.query H 2)) 0 []
    (51, 39, ⟨[11]⟩) rfl (by
      intro x hx
      rw [honestAny] at hx
      simp only [Oracle.queries, List.mem_singleton] at hx
      subst hx
      exact h0)
  have L' : (withDigest exampleGipa (Sipp.oracle H)).Lawful Toy.e Toy.e Toy.e idψ :=
    ⟨exampleGipa_lawful.ip_ok, exampleGipa_lawful.lmc_ok, exampleGipa_lawful.rmc_ok, exampleGipa_lawful.ipc_ok,
      exampleGipa_lawful.ψ_add, exampleGipa_lawful.ψ_smul⟩
  have hrc : (withDigest exampleGipa (Sipp.oracle H)).recursiveChallenges (51, 39, ⟨[11]⟩)
      (honestAny.tipaProof single exampleSrs 2 H).gipa = .ok (com', [ch H]) := by
    rw [Gipa.recursiveChallenges, AnyProver.tipaProof]
    simp only [GipaStatic.AnyProver.proof, List.reverse_reverse]
    rw [hrec]
    rfl
  have hs : seen (Oracle.trace honestAny.query H 2) = (ch H, z) := by
    rw [honest_trace]
    exact Prod.ext rfl (by simp [seen, hz])
  have hck : (honestAny.tipaProof single exampleSrs 2 H).finalCk =
      (left exampleSrs (honestKeys (ch H)).1, right exampleSrs (honestKeys (ch H)).2) := rfl
  have hop : (honestAny.tipaProof single exampleSrs 2 H).finalCkProof =
      (left exampleSrs (n := 2) (![(ch H)⁻¹ * z, (ch H)⁻¹, 0], 0),
        right exampleSrs (n := 2) (![ch H * z, ch H, 0], 0)) := by
    rw [AnyProver.tipaProof]
    simp only [honestAny] at hs ⊢
    rw [hs]
  have hkzg : Tipa.kzgChallenge exampleEnv (withDigest exampleGipa (Sipp.oracle H)).digest
      (withDigest exampleGipa (Sipp.oracle H)).serF [ch H]
      (honestAny.tipaProof single exampleSrs 2 H).finalCk.1 (honestAny.tipaProof single exampleSrs 2 H).finalCk.2 =
      .ok z := by
    rw [C69_kzg]
    refine ⟨0, by norm_num, ?_, fun t' ht' => absurd ht' (Nat.not_lt_zero _)⟩
    rw [← hz, ← oracle_apply H (secondInput H), hck]
    rfl
  have hl : (left exampleSrs (honestKeys (ch H)).1 : Toy.F) = 1 + (ch H)⁻¹ * 25 := by
    simp [left, honestKeys, exampleSrs, Fin.sum_univ_three]
  have hr : (right exampleSrs (honestKeys (ch H)).2 : Toy.F) = 1 + ch H * 9 := by
    simp [right, honestKeys, exampleSrs, Fin.sum_univ_three]
  have hl' : (left exampleSrs (n := 2) (![(ch H)⁻¹ * z, (ch H)⁻¹, 0], (0 : Toy.F)) : Toy.F) =
      (ch H)⁻¹ * z + (ch H)⁻¹ * 5 := by
    simp [left, exampleSrs, Fin.sum_univ_three]
  have hr' : (right exampleSrs (n := 2) (![ch H * z, ch H, 0], (0 : Toy.F)) : Toy.F) = ch H * z + ch H * 3 := by
    simp [right, exampleSrs, Fin.sum_univ_three]
  have hv := (Tipa.C31_same_verdict (P := withDigest exampleGipa (Sipp.oracle H)) (V := exampleEnv) ⟨1, 1, 5, 3⟩
    PUnit.unit (51, 39, ⟨[11]⟩) com' (honestAny.tipaProof single exampleSrs 2 H) 1 one_ne_zero [ch H] z hrc hkzg
    Toy.lawful L' [1, 25] [1, 9] rfl rfl (by rw [hck, hl]; simp [foldAll, foldHalf])
    (by rw [hck, hr]; simp [foldAll, foldHalf])).2
    (by
      rw [hck, hop, hl, hl']
      refine (C28_check_G2 Toy.lawful (1 : Toy.F) (1 : Toy.F) 3 5 (fun y h => by simpa using h) _ _ _ _ _).mpr ?_
      simp
      ring)
    (by
      rw [hck, hop, hr, hr']
      refine (C28_check_G1 Toy.lawful (1 : Toy.F) (1 : Toy.F) 3 5 (fun y h => by simpa using h) _ _ _ _ _).mpr ?_
      simp
      ring)
  rw [hv]
  refine (C67_verify_iff L' _ _ PUnit.unit _ _ rfl rfl).mpr ⟨[ch H], com', hrc, ?_⟩
  have hb : (honestAny.tipaProof single exampleSrs 2 H).gipa.base = (1 + ch H * 2, 3 + (ch H)⁻¹ * 4) := rfl
  have hst : (honestAny.tipaProof single exampleSrs 2 H).gipa.steps.reverse =
      [sentComs single ((2, 27, 6), (25, 4, 4))] := rfl
  rw [hb, hst]
  generalize ch H = c at h0
  refine ⟨1 + c⁻¹ * 25, 1 + c * 9, by simp [foldAll, foldHalf], by simp [foldAll, foldHalf], ?_, ?_, ?_⟩
  all_goals clear * - h0; revert c; decide +kernel

/-- Almost all oracles: the bound is 60 in 101. So the hypotheses of `C114_knowledge` are met and its tree exists. -/
example : ∃ t : Tree Toy.F Toy.F Toy.F (Toy.F × Toy.F × IdentityOutput Toy.F), (extract t).Valid Toy.e Toy.e Toy.e
    (fun o : IdentityOutput Toy.F => o.vals.head?) LinearMap.id
    (exampleSrs.commitmentKeys.1.mapIdx fun i ck => (1 : Toy.F)⁻¹ ^ i • ck) exampleSrs.commitmentKeys.2
    (51, 39, ⟨[11]⟩) := by
  classical
  obtain ⟨t, -, h⟩ := C114_knowledge (n := 2) (P := exampleGipa) (V := exampleEnv) (Xs := anyInputs)
    (Ds := exampleDigests) (srs := exampleSrs) (r := 1) (τ := single) anyInputs_mem anyInputs_pt exampleGipa_lawful
    Toy.lawful PUnit.unit (reads_identity PUnit.unit)
    decodable_ser decodable_ser decodable_ser (decodable_single decodable_ser) decodable_ser decodable_ser
    exampleDigests_length 1 1 exampleDigests_card
    (fun x => Finset.card_le_one.mpr fun d hd d' hd' => exampleDigests_point d d' x
      (Finset.mem_filter.mp hd).2 (Finset.mem_filter.mp hd').2) 1 rfl 1 1 3 5 exampleSrs_isSrs (by decide)
    (by decide) (fun y h => by simpa using h) (fun y h => by simpa using h) ⟨1, 1, 5, 3⟩ rfl (by decide)
    (51, 39, ⟨[11]⟩) honestAny 2 1 (by norm_num) honest_keys (fun t _ => any_sep t) (fun _ => rfl)
    (Finset.univ.filter fun H => ch H ≠ 0)
    (fun H hH => by
      have hsome : ∀ d : exampleDigests, ∃ c, exampleEnv.fromRandomBytes d = some c := by
        rintro ⟨d, hd⟩
        obtain ⟨x, -, rfl⟩ := Finset.mem_image.mp hd
        exact ⟨((UInt8.ofNat x.val).toNat : Toy.F), by simp [exampleEnv, Toy.ser]⟩
      obtain ⟨z, hz⟩ := hsome (H (secondInput H))
      refine ⟨honest_accepted H (Finset.mem_filter.mp hH).2 z hz, 0, by norm_num, z, hz,
        fun t' ht' => absurd ht' (Nat.not_lt_zero _), ?_, ?_⟩
      all_goals
        rw [honest_known, honest_transcript, honest_trace]
        simp only [honestAny, honestKeys, seen, List.getElem?_cons_zero, List.getElem?_cons_succ, Option.map_some,
          Option.bind_some, hz, Option.getD_some]
        refine no_leak _ _ _ _ _ ?_
        simp [keyPoly_single]) (by
      have h2 := Finset.card_filter_add_card_filter_not (s := (Finset.univ : Finset exampleDigests))
        (fun d => challengeOf Toy.F d = 0)
      rw [Finset.card_univ, Fintype.card_coe, card_exampleDigests] at h2
      have h3 := exampleDigests_card 0
      have h1 := card_apply firstInput fun d : exampleDigests => challengeOf Toy.F d ≠ 0
      rw [Fintype.card_fun, Fintype.card_coe, Fintype.card_coe] at h1
      rw [h1, card_exampleDigests]
      have h6 : 0 < 101 ^ anyInputs.card := by positivity
      exact Nat.mul_lt_mul_of_pos_right (show _ < _ by simp only [ne_eq]; omega) h6)
  exact ⟨t, h⟩

end Example

end Ripp.TipaStatic
