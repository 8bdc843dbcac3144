import Verif.Props.Grind
import Verif.Props.PcRewind
import Verif.Props.SippUnique

/-!
# C143: the bounds in numbers for TIPA, the polynomial commitments and SIPP

C136 computes the number of digests for each challenge and states the bounds of GIPA and of the aggregation for the
encodings of the repository. Here the same is done for the other arguments: digests are all strings of `L` bytes, the
prover may ask for the digest of every string with at most `M` bytes, and commitments to inner products have up to
`B + 1` entries.
-/

set_option linter.unusedSectionVars false

namespace Ripp.Level

open Spec GipaStatic Extract Domain
open Grind (upTo mem_upTo)

/-- Digests are 2^128 times the digests for a round challenge. -/
theorem card_digests' {L : ℕ} (hL : 16 ≤ L) : (digests L).card = 2 ^ 128 * 256 ^ (L - 16) := by
  rw [card_digests, show (2 : ℕ) ^ 128 = 256 ^ 16 by norm_num, ← pow_add]; congr 1; omega

theorem card_oracles (M L : ℕ) : Fintype.card (upTo M → digests L) = (digests L).card ^ (upTo M).card := by
  rw [Fintype.card_fun, Fintype.card_coe, Fintype.card_coe]

/-- From a share in `2^128` to the form of the theorems. -/
theorem many_of {L M b w : ℕ} (hL : 16 ≤ L) (a : ℕ) (hb : b ≤ a * 256 ^ (L - 16))
    (h : a * Fintype.card (upTo M → digests L) < w * 2 ^ 128) :
    b * (digests L).card ^ (upTo M).card < w * (digests L).card := by
  rw [card_oracles] at h
  calc _ ≤ a * 256 ^ (L - 16) * (digests L).card ^ (upTo M).card := Nat.mul_le_mul_right _ hb
    _ = a * (digests L).card ^ (upTo M).card * 256 ^ (L - 16) := by ring
    _ < w * 2 ^ 128 * 256 ^ (L - 16) := Nat.mul_lt_mul_of_pos_right h (by positivity)
    _ = _ := by rw [mul_assoc, ← card_digests' hL]

theorem point_le_round {L bits : ℕ} (hb : 128 ≤ bits) (hL : bits ≤ 8 * L) : 2 ^ (8 * L - bits) ≤ 256 ^ (L - 16) := by
  rw [show (256 : ℕ) = 2 ^ 8 by norm_num, ← pow_mul]
  exact Nat.pow_le_pow_right (by norm_num) (by omega)

section
variable {ρ F G1 G2 GT TF : Type} [Field F] [DecidableEq F] [AddCommGroup G1] [Module F G1] [AddCommGroup G2]
  [Module F G2] [AddCommGroup GT] [Module F GT] [Monoid TF] [DecidableEq G1] [DecidableEq G2] [DecidableEq GT]
  {V : Env ρ F G1 G2 GT TF} {f g1 g2 gt B M L : ℕ} (hV : Encodes V f g1 g2 gt) (hB : B + 1 < 2 ^ 64)

include hV in
theorem fits_roundAB (hM : 24 + f + (4 + 2 * (B + 1)) * gt ≤ M) (k : F)
    (z : Sent GT GT (GT × {l : List GT // l.length ≤ B})) :
    V.pairingAB.hashInput 0 k (sentComs (Shape.upTo GT B hB).out z).1 (sentComs (Shape.upTo GT B hB).out z).2 ∈
      upTo M := by
  refine mem_upTo.mpr (le_trans (le_of_eq (length_bytes hV (.roundAB 0 k _ _))) (le_trans ?_ hM))
  have h1 := z.1.2.2.2.2
  have h2 := z.2.2.2.2.2
  simp only [Query.size, sentComs, Shape.upTo, List.length_cons]
  gcongr
  omega

include hV in
theorem fits_roundC (hM : 24 + 3 * f + 2 * gt + 2 * (B + 1) * g1 ≤ M) (k : F)
    (z : Sent GT F (G1 × {l : List G1 // l.length ≤ B})) :
    V.multiexpSsm.hashInput 0 k (sentComs (Shape.upTo G1 B hB).out z).1 (sentComs (Shape.upTo G1 B hB).out z).2 ∈
      upTo M := by
  refine mem_upTo.mpr (le_trans (le_of_eq (length_bytes hV (.roundC 0 k _ _))) (le_trans ?_ hM))
  have h1 := z.1.2.2.2.2
  have h2 := z.2.2.2.2.2
  simp only [Query.size, sentComs, Shape.upTo, List.length_cons]
  gcongr
  omega

include hV in
theorem fits_scalar (hM : 24 + 3 * f + 2 * g1 + 2 * (B + 1) * f ≤ M) (k : F)
    (z : Sent G1 F (F × {l : List F // l.length ≤ B})) :
    V.scalarSsm.hashInput 0 k (sentComs (Shape.upTo F B hB).out z).1 (sentComs (Shape.upTo F B hB).out z).2 ∈
      upTo M := by
  refine mem_upTo.mpr (le_trans ?_ hM)
  have h1 := z.1.2.2.2.2
  have h2 := z.2.2.2.2.2
  have e : (V.scalarSsm.hashInput 0 k (sentComs (Shape.upTo F B hB).out z).1
      (sentComs (Shape.upTo F B hB).out z).2).length =
      24 + 3 * f + 2 * g1 + (z.1.2.2.2.1.length + z.2.2.2.2.1.length + 2) * f := by
    simp only [Gipa.hashInput, Env.scalarSsm, ssmGipa, List.length_append, length_nonceBytes, hV.lenF, hV.lenG1,
      length_serIdentity hV.lenF, sentComs, Shape.upTo, List.length_cons]
    ring
  rw [e]
  gcongr
  omega

include hV in
/-- C143: C111 in numbers. From a prover that opens a transparent commitment for more than `6 N (N + 1)` in `2^128`
oracles, with `N = Q + k + k'`, rows and coefficients with the claimed value can be extracted. -/
theorem C143_transparent {e : G1 →ₗ[F] G2 →ₗ[F] GT} (hE : V.E.Lawful e) (p : ℕ) [CharP F p]
    (hp : p = 0 ∨ 2 ^ 128 ≤ p) (hL : 16 ≤ L) (hM : 24 + 3 * f + 2 * gt + 2 * (B + 1) * g1 ≤ M)
    (hM' : 24 + 3 * f + 2 * g1 + 2 * (B + 1) * f ≤ M) (k k' : ℕ) (ck : List G1 × List G2)
    (h2 : ck.2.length = 2 ^ k) (h1 : ck.1.length = 2 ^ k') (com : GT) (x y value : F)
    (A : PolyStatic.AnyProver F G1 GT (G1 × {l : List G1 // l.length ≤ B}) (F × {l : List F // l.length ≤ B})
      (upTo M) (digests L)) (Q : ℕ) (hs1 : ∀ ds, (A.outerSteps ds).length = k)
    (hs2 : ∀ ds, (A.innerSteps ds).length = k') (W : Finset (upTo M → digests L))
    (hW : ∀ H ∈ W, TBivariate.verify { V with digest := Sipp.oracle H } ck com (x, y) value
      (A.proof (Shape.upTo G1 B hB) (Shape.upTo F B hB) Q H) = .ok true)
    (hmany : 6 * (Q + k + k') * (Q + k + k' + 1) * Fintype.card (upTo M → digests L) < W.card * 2 ^ 128) :
    ∃ t, A.Rewound (Shape.upTo G1 B hB) (Shape.upTo F B hB) V Q com value W t ∧
      TBivariate.Knows e ck com x y value (PolyStatic.extract2 t).2.1 (PolyStatic.extract2 t).2.2 :=
  PolyStatic.C111_knowledge (fits_roundC hV hB hM) (fits_scalar hV hB hM') hE hV.decF hV.decG1 hV.decGT
    (fun d hd => by rw [mem_digests.mp hd]; exact hL) (256 ^ (L - 16)) (C136_round_le F p hp L hL) k k' ck h2 h1 com x y
    value A Q hs1 hs2 W hW (many_of hL _ le_rfl hmany)

include hV in
/-- C143: the same for a univariate commitment of the transparent scheme. From a prover that opens the commitment to a
polynomial to another value than the polynomial's, a collision with the honest messages can be extracted. -/
theorem C143_transparent_univariate {e : G1 →ₗ[F] G2 →ₗ[F] GT} (hE : V.E.Lawful e) (p : ℕ) [CharP F p]
    (hp : p = 0 ∨ 2 ^ 128 ≤ p) (hL : 16 ≤ L) (hM : 24 + 3 * f + 2 * gt + 2 * (B + 1) * g1 ≤ M)
    (hM' : 24 + 3 * f + 2 * g1 + 2 * (B + 1) * f ≤ M) (k k' : ℕ) (ck : List G1 × List G2)
    (h2 : ck.2.length = 2 ^ k) (h1 : ck.1.length = 2 ^ k') (com : GT) (coms : List G1) (poly : List F)
    (hpoly : poly.length ≤ ck.2.length * ck.1.length) (hcom : TUnivariate.commit V ck poly = .ok (com, coms))
    (z value : F) (hv : value ≠ evalAt poly z)
    (A : PolyStatic.AnyProver F G1 GT (G1 × {l : List G1 // l.length ≤ B}) (F × {l : List F // l.length ≤ B})
      (upTo M) (digests L)) (Q : ℕ) (hs1 : ∀ ds, (A.outerSteps ds).length = k)
    (hs2 : ∀ ds, (A.innerSteps ds).length = k') (W : Finset (upTo M → digests L))
    (hW : ∀ H ∈ W, TUnivariate.verify { V with digest := Sipp.oracle H } ck com z value
      (A.proof (Shape.upTo G1 B hB) (Shape.upTo F B hB) Q H) = .ok true)
    (hmany : 6 * (Q + k + k') * (Q + k + k' + 1) * Fintype.card (upTo M → digests L) < W.card * 2 ^ 128) :
    ∃ t, A.Rewound (Shape.upTo G1 B hB) (Shape.upTo F B hB) V Q com value W t ∧
      (Collides (e · ·) ck.2 (PolyStatic.extract2 t).2.1 coms ∨
        ∃ q : List F, evalAt q z = evalAt poly z ∧
          Collides (LinearMap.lsmul F G1 · ·) ck.1 (PolyStatic.extract2 t).2.2 q) :=
  PolyStatic.C111_univariate (fits_roundC hV hB hM) (fits_scalar hV hB hM') hE hV.decF hV.decG1 hV.decGT
    (fun d hd => by rw [mem_digests.mp hd]; exact hL) (256 ^ (L - 16)) (C136_round_le F p hp L hL) k k' ck h2 h1 com coms
    poly hpoly hcom z value hv A Q hs1 hs2 W hW (many_of hL _ le_rfl hmany)

theorem sep_roundAB (hS : Separated f g1 g2 gt) (hV : Encodes V f g1 g2 gt) (t : ℕ) (k : F)
    (z : Sent GT GT (GT × {l : List GT // l.length ≤ B})) (x' : F) (ka : G2) (kb : G1) :
    V.pairingAB.hashInput 0 k (sentComs (Shape.upTo GT B hB).out z).1 (sentComs (Shape.upTo GT B hB).out z).2 ≠
      TipaStatic.pointInput V.tipa V.pairingAB t x' ka kb :=
  C134_disjoint hV hS (.roundAB 0 k _ _) (.pointAB t x' ka kb) (by simp [Query.kind])

theorem sep_roundC (hS : Separated f g1 g2 gt) (hV : Encodes V f g1 g2 gt) (t : ℕ) (k : F)
    (z : Sent GT F (G1 × {l : List G1 // l.length ≤ B})) (x' : F) (ka : G2) :
    V.multiexpSsm.hashInput 0 k (sentComs (Shape.upTo G1 B hB).out z).1 (sentComs (Shape.upTo G1 B hB).out z).2 ≠
      TipaSsmStatic.pointInput V.tipa V.multiexpSsm t x' ka :=
  C134_disjoint hV hS (.roundC 0 k _ _) (.pointC t x' ka) (by simp [Query.kind])

include hV in
theorem fits_pointAB (hM : 8 + f + g2 + g1 ≤ M) (t : ℕ) (x : F) (ka : G2) (kb : G1) (_ : t < 2 ^ 64) :
    TipaStatic.pointInput V.tipa V.pairingAB t x ka kb ∈ upTo M :=
  mem_upTo.mpr (le_trans (le_of_eq (length_bytes hV (.pointAB t x ka kb))) hM)

include hV in
theorem fits_pointC (hM : 8 + f + g2 ≤ M) (t : ℕ) (x : F) (ka : G2) (_ : t < 2 ^ 64) :
    TipaSsmStatic.pointInput V.tipa V.multiexpSsm t x ka ∈ upTo M :=
  mem_upTo.mpr (le_trans (le_of_eq (length_bytes hV (.pointC t x ka))) hM)

/-- The bound of C114 with one digest per challenge. -/
def tipaBound (Q k n N : ℕ) : ℕ :=
  (Q + k) * (Q + k + 5) + N * ((Q + k + 1) * (2 * (2 * n - 2)) + (Q + k + 1) * (Q + k + 2))

/-- The bound of C115 and C116 with one digest per challenge. -/
def ssmBound (Q k n N : ℕ) : ℕ :=
  (Q + k) * (Q + k + 4) + N * ((Q + k + 1) * (2 * n - 2) + (Q + k + 1) * (Q + k + 2))

theorem tipaBound_le (Q k n N m m' : ℕ) (h : m' ≤ m) :
    (Q + k) * (Q + k + 5) * m + N * ((Q + k + 1) * (2 * (2 * n - 2) * m') + (Q + k + 1) * (Q + k + 2) * m) ≤
      tipaBound Q k n N * m := by
  calc _ ≤ (Q + k) * (Q + k + 5) * m + N * ((Q + k + 1) * (2 * (2 * n - 2) * m) + (Q + k + 1) * (Q + k + 2) * m) := by
        gcongr
    _ = _ := by rw [tipaBound]; ring

theorem ssmBound_le (Q k n N m m' : ℕ) (h : m' ≤ m) :
    (Q + k) * (Q + k + 4) * m + N * ((Q + k + 1) * ((2 * n - 2) * m') + (Q + k + 1) * (Q + k + 2) * m) ≤
      ssmBound Q k n N * m := by
  calc _ ≤ (Q + k) * (Q + k + 4) * m + N * ((Q + k + 1) * ((2 * n - 2) * m) + (Q + k + 1) * (Q + k + 2) * m) := by
        gcongr
    _ = _ := by rw [ssmBound]; ring

section Points
variable {e : G1 →ₗ[F] G2 →ₗ[F] GT} (hE : V.E.Lawful e) (hS : Separated f g1 g2 gt) (p bits len : ℕ) [CharP F p]
  (hp : 2 ^ 128 ≤ p) (hpb : p ≤ 2 ^ bits) (hb : bits ≤ 8 * len) (hL : len ≤ L)
  (hfr : ∀ d, V.fromRandomBytes d = arkRandom F p bits len d)

include hp hpb hb hL in
theorem bits_facts : 128 ≤ bits ∧ 16 ≤ L ∧ bits ≤ 8 * L := by
  have hbits : 128 ≤ bits := (Nat.pow_le_pow_iff_right (by norm_num : 1 < 2)).mp (hp.trans hpb)
  omega

include hE hS hp hpb hb hL hfr in
/-- C143: C114 in numbers, for inner products of pairings. -/
theorem C143_tipa (hM : 24 + f + (4 + 2 * (B + 1)) * gt ≤ M) (hM' : 8 + f + g2 + g1 ≤ M) (k n : ℕ) (hn : n = 2 ^ k)
    (srs : SRS G1 G2) (g : G1) (h : G2) (α β : F) (hsrs : IsSrs srs g h α β n) (hg0 : g ≠ 0) (hh0 : h ≠ 0)
    (hg : ∀ y, e g y = 0 → y = 0) (hh : ∀ x, e x h = 0 → x = 0) (v : VerifierSRS G1 G2)
    (hv : srs.verifierKey = .ok v) (r : F) (hr : r ≠ 0) (com : Coms GT GT (IdentityOutput GT))
    (A : TipaStatic.AnyProver n F G1 G2 GT GT (GT × {l : List GT // l.length ≤ B}) (upTo M) (digests L)) (Q N : ℕ)
    (hN : N ≤ 2 ^ 64)
    (hkeys : ∀ ds, ∀ t < 2 ^ 64, ∀ x ka kb,
      (A.query ds : Bytes) = TipaStatic.pointInput V.tipa V.pairingAB t x ka kb →
      TipaStatic.left srs (A.keys ds).1 = ka ∧ TipaStatic.right srs (A.keys ds).2 = kb)
    (hsteps : ∀ ds, (A.steps ds).length = k) (W : Finset (upTo M → digests L))
    (hW : ∀ H ∈ W, Tipa.verifyWithShift V.tipa (withDigest V.pairingAB (Sipp.oracle H)) v PUnit.unit com
        (A.tipaProof (Shape.upTo GT B hB).out srs Q H) r = .ok true ∧
      ∃ t, ∃ ht : t < N, ∃ c,
        V.fromRandomBytes (H (A.point V.tipa V.pairingAB (Shape.upTo GT B hB).out srs (fits_roundAB hV hB hM)
          (fits_pointAB hV hM') Q t (ht.trans_le hN) H)) = some c ∧
        (∀ t', ∀ ht' : t' < t, V.fromRandomBytes (H (A.point V.tipa V.pairingAB (Shape.upTo GT B hB).out srs
          (fits_roundAB hV hB hM) (fits_pointAB hV hM') Q t' ((ht'.trans ht).trans_le hN) H)) = none) ∧
        ¬ TipaStatic.Leak (A.knownKeys V.tipa V.pairingAB (Shape.upTo GT B hB).out srs (fits_roundAB hV hB hM)
            (fits_pointAB hV hM') Q t (ht.trans_le hN) H).1 (A.opening (Oracle.trace A.query H Q)).1
          ((keyPoly ((A.transcript V.pairingAB (Shape.upTo GT B hB).out (fits_roundAB hV hB hM) Q H).map (·⁻¹))
            r⁻¹).eval c) c β α ∧
        ¬ TipaStatic.Leak (A.knownKeys V.tipa V.pairingAB (Shape.upTo GT B hB).out srs (fits_roundAB hV hB hM)
            (fits_pointAB hV hM') Q t (ht.trans_le hN) H).2 (A.opening (Oracle.trace A.query H Q)).2
          ((keyPoly (A.transcript V.pairingAB (Shape.upTo GT B hB).out (fits_roundAB hV hB hM) Q H) 1).eval c) c α β)
    (hmany : tipaBound Q k n N * Fintype.card (upTo M → digests L) < W.card * 2 ^ 128) :
    ∃ t : Tree F G1 G2 (GT × GT × IdentityOutput GT),
      (t.Branches fun ps base => ∃ H ∈ W, ∃ com',
        (withDigest V.pairingAB (Sipp.oracle H)).recursiveChallenges com
            (A.tipaProof (Shape.upTo GT B hB).out srs Q H).gipa = .ok (com', (ps.map (·.2)).reverse) ∧
        (A.tipaProof (Shape.upTo GT B hB).out srs Q H).gipa.steps = (ps.map (·.1)).reverse ∧
        (A.tipaProof (Shape.upTo GT B hB).out srs Q H).gipa.base = base) ∧
      (extract t).Valid e e e.flip (fun o => o.vals.head?) (LinearMap.id (R := F) (M := GT))
        (srs.commitmentKeys.1.mapIdx fun i ck => r⁻¹ ^ i • ck) srs.commitmentKeys.2 com := by
  obtain ⟨b1, b2, b3⟩ := bits_facts p bits len hp hpb hb hL
  exact TipaStatic.C114_knowledge (fits_roundAB hV hB hM) (fits_pointAB hV hM') (pairingAB_lawful V hE) hE PUnit.unit
    (reads_identity PUnit.unit) hV.decF hV.decGT hV.decGT ((Shape.upTo GT B hB).decodable hV.decGT) hV.decG2 hV.decG1
    (fun d hd => by rw [mem_digests.mp hd]; exact b2) (256 ^ (L - 16)) (2 ^ (8 * L - bits))
    (C136_round_le F p (.inr hp) L b2)
    (fun c => by simp only [Env.tipa, hfr]; exact C136_point_le F p bits len L hpb hb hL c) k hn g h α β hsrs hg0 hh0 hg hh
    v hv hr com A Q N hN hkeys (fun t _ z x x' ka kb => sep_roundAB hB hS hV t x z x' ka kb) hsteps W hW
    (many_of b2 _ (tipaBound_le Q k n N _ _ (point_le_round b1 b3)) hmany)

section Rows
open PcStatic

variable {l : ℕ} {w : Fin l → G1} {gb : G1}

include hE hS hp hpb hb hL hfr in
/-- C143: C116 in numbers, for the bivariate commitment with reference string. -/
theorem C143_bivariate (hM : 24 + 3 * f + 2 * gt + 2 * (B + 1) * g1 ≤ M) (hM' : 8 + f + g2 ≤ M) (k n : ℕ)
    (hn : n = 2 ^ k) (srs : SRS G1 G2) (g : G1) (h : G2) (α β : F) (hsrs : IsLeftSrs srs g h α β n)
    (hw : ∀ j, w j = α ^ (j : ℕ) • g) (hgb : gb = β • g) (hg0 : g ≠ 0) (hh0 : h ≠ 0)
    (hg : ∀ y, e g y = 0 → y = 0) (hh : ∀ x, e x h = 0 → x = 0) (v : VerifierSRS G1 G2)
    (hv : srs.verifierKey = .ok v) (com : GT) (x y value : F)
    (A : PcStatic.AnyProver n l F GT (G1 × {l : List G1 // l.length ≤ B}) (upTo M) (digests L)) (Q N : ℕ)
    (hN : N ≤ 2 ^ 64)
    (hkeys : ∀ ds, ∀ t < 2 ^ 64, ∀ x ka,
      (A.query ds : Bytes) = TipaSsmStatic.pointInput V.tipa (rowSsm V (element w gb)) t x ka →
        TipaStatic.left srs (A.keys ds) = ka)
    (hsteps : ∀ ds, (A.steps ds).length = k) (W : Finset (upTo M → digests L))
    (hW : ∀ H ∈ W, Bivariate.verify { V with digest := Sipp.oracle H } v com (x, y) value
        (A.pcProof (Shape.upTo G1 B hB) srs (element w gb) Q H) = .ok true ∧
      A.Clean (V := V) (srs := srs) (w := w) (gb := gb) (Sh := Shape.upTo G1 B hB) (fits_roundC hV hB hM)
        (fits_pointC hV hM') Q N hN α β y value H)
    (hmany : ssmBound Q k n N * Fintype.card (upTo M → digests L) < W.card * 2 ^ 128) :
    ∃ t : SsmExtract.Tree F (Row l F × Row l F) (GT × G1),
      A.Rewound (Shape.upTo G1 B hB) V srs (element w gb) Q com x W t ∧
      Knows e (element w gb) srs.commitmentKeys.1 com x y value (extractBy t).1 (extractBy t).2 := by
  obtain ⟨b1, b2, b3⟩ := bits_facts p bits len hp hpb hb hL
  exact C116_knowledge (fits_roundC hV hB hM) (fits_pointC hV hM') hE hV.decF hV.decG1 hV.decGT hV.decG2
    (fun d hd => by rw [mem_digests.mp hd]; exact b2) (256 ^ (L - 16)) (2 ^ (8 * L - bits))
    (C136_round_le F p (.inr hp) L b2)
    (fun c => by simp only [hfr]; exact C136_point_le F p bits len L hpb hb hL c) k hn g h α β hsrs hw hgb hg0 hh0
    hg hh v hv com x y value A Q N hN hkeys (fun t _ z x x' ka => sep_roundC hB hS hV t x z x' ka) hsteps W hW
    (many_of b2 _ (ssmBound_le Q k n N _ _ (point_le_round b1 b3)) hmany)

include hE hS hp hpb hb hL hfr in
/-- C143: C116 in numbers, for the univariate commitment with reference string: from a prover that opens the commitment
to a polynomial to another value, other rows with this commitment, or two different combinations of the reference string
with the same element of `G1`, can be extracted. -/
theorem C143_univariate (hM : 24 + 3 * f + 2 * gt + 2 * (B + 1) * g1 ≤ M) (hM' : 8 + f + g2 ≤ M) (k n : ℕ)
    (hn : n = 2 ^ k) (srs : SRS G1 G2 × List G1) (g : G1) (h : G2) (α β : F) (degree dx dy : ℕ)
    (hdeg : bivariateDegrees degree = .ok (dx, dy)) (hx : n = dx + 1) (hy : l = dy + 1)
    (hsrs : Bivariate.IsSrs srs g h α β dx dy)
    (hw : ∀ j, w j = α ^ (j : ℕ) • g) (hgb : gb = β • g) (hg0 : g ≠ 0) (hh0 : h ≠ 0)
    (hg : ∀ y, e g y = 0 → y = 0) (hh : ∀ x, e x h = 0 → x = 0) (v : VerifierSRS G1 G2)
    (hv : srs.1.verifierKey = .ok v) (poly : List F) (hpoly : poly.length ≤ n * l) (com : GT) (coms : List G1)
    (hcom : Univariate.commit V srs poly = .ok (com, coms)) (z value : F) (hfalse : value ≠ evalAt poly z)
    (A : PcStatic.AnyProver n l F GT (G1 × {l : List G1 // l.length ≤ B}) (upTo M) (digests L)) (Q N : ℕ)
    (hN : N ≤ 2 ^ 64)
    (hkeys : ∀ ds, ∀ t < 2 ^ 64, ∀ x ka,
      (A.query ds : Bytes) = TipaSsmStatic.pointInput V.tipa (rowSsm V (element w gb)) t x ka →
        TipaStatic.left srs.1 (A.keys ds) = ka)
    (hsteps : ∀ ds, (A.steps ds).length = k) (W : Finset (upTo M → digests L))
    (hW : ∀ H ∈ W, Univariate.verify { V with digest := Sipp.oracle H } v degree com z value
        (A.pcProof (Shape.upTo G1 B hB) srs.1 (element w gb) Q H) = .ok true ∧
      A.Clean (V := V) (srs := srs.1) (w := w) (gb := gb) (Sh := Shape.upTo G1 B hB) (fits_roundC hV hB hM)
        (fits_pointC hV hM') Q N hN α β z value H)
    (hmany : ssmBound Q k n N * Fintype.card (upTo M → digests L) < W.card * 2 ^ 128) :
    ∃ t : SsmExtract.Tree F (Row l F × Row l F) (GT × G1),
      A.Rewound (Shape.upTo G1 B hB) V srs.1 (element w gb) Q com (z ^ l) W t ∧
      (Ripp.Collides (fun r k => e (element w gb r) k) srs.1.commitmentKeys.1 (extractBy t).2
          (List.ofFn fun i : Fin n => ((fun j => poly.getD (i * l + j) 0, 0) : Row l F)) ∨
        TwoForms (element w gb) (z ^ l) (extractBy t).1 (extractBy t).2) := by
  obtain ⟨b1, b2, b3⟩ := bits_facts p bits len hp hpb hb hL
  exact C116_univariate (fits_roundC hV hB hM) (fits_pointC hV hM') hE hV.decF hV.decG1 hV.decGT hV.decG2
    (fun d hd => by rw [mem_digests.mp hd]; exact b2) (256 ^ (L - 16)) (2 ^ (8 * L - bits))
    (C136_round_le F p (.inr hp) L b2)
    (fun c => by simp only [hfr]; exact C136_point_le F p bits len L hpb hb hL c) k hn g h α β degree dx dy hdeg hx hy
    hsrs hw hgb hg0 hh0 hg hh v hv poly hpoly com coms hcom z value hfalse A Q N hN hkeys
    (fun t _ z x x' ka => sep_roundC hB hS hV t x z x' ka) hsteps W hW
    (many_of b2 _ (ssmBound_le Q k n N _ _ (point_le_round b1 b3)) hmany)

end Rows

end Points

end

/-- C143: for at most `2^20` messages, `2^40` queries and `2^7` attempts per search all these bounds are less than one in
`2^40`; for the transparent commitments less than one in `2^45`. -/
theorem C143_numbers (Q k k' n N : ℕ) (hQ : Q ≤ 2 ^ 40) (hk : k ≤ 20) (hk' : k' ≤ 20) (hn : n = 2 ^ k) (hN : N ≤ 2 ^ 7) :
    tipaBound Q k n N * 2 ^ 40 < 2 ^ 128 ∧ ssmBound Q k n N * 2 ^ 40 < 2 ^ 128 ∧
      6 * (Q + k + k') * (Q + k + k' + 1) * 2 ^ 45 < 2 ^ 128 := by
  have hn' : n ≤ 2 ^ 20 := hn ▸ Nat.pow_le_pow_right (by norm_num) hk
  have h1 : tipaBound Q k n N ≤ tipaBound (2 ^ 40) 20 (2 ^ 20) (2 ^ 7) := by rw [tipaBound, tipaBound]; gcongr
  have h2 : ssmBound Q k n N ≤ ssmBound (2 ^ 40) 20 (2 ^ 20) (2 ^ 7) := by rw [ssmBound, ssmBound]; gcongr
  have h3 : 6 * (Q + k + k') * (Q + k + k' + 1) ≤ 6 * (2 ^ 40 + 20 + 20) * (2 ^ 40 + 20 + 20 + 1) := by gcongr
  refine ⟨lt_of_le_of_lt (Nat.mul_le_mul_right _ h1) ?_, lt_of_le_of_lt (Nat.mul_le_mul_right _ h2) ?_,
    lt_of_le_of_lt (Nat.mul_le_mul_right _ h3) (by norm_num)⟩
  · rw [tipaBound]; norm_num
  · rw [ssmBound]; norm_num

/-! ## SIPP -/

section Sipp
open Sipp (Output seedBytes drawn oracle)

variable {σ F G1 G2 GT TF : Type} [Field F] [DecidableEq F] [AddCommGroup G1] [Module F G1] [AddCommGroup G2]
  [Module F G2] [AddCommGroup GT] [Module F GT] [Monoid TF] [DecidableEq GT]

/-- The `u128` that is drawn after the generator has been seeded with `d`. -/
def drawnU128 (V : Sipp.Env σ F G1 G2 GT TF) (d : Bytes) : ℕ :=
  let lo := V.nextU64 (V.chachaSeed d)
  (V.nextU64 lo.2).1.toNat * 2 ^ 64 + lo.1.toNat

theorem drawnU128_lt (V : Sipp.Env σ F G1 G2 GT TF) (d : Bytes) : drawnU128 V d < 2 ^ 128 := by
  have h1 := (V.nextU64 (V.chachaSeed d)).1.toNat_lt
  have h2 := (V.nextU64 (V.nextU64 (V.chachaSeed d)).2).1.toNat_lt
  rw [drawnU128]
  omega

/-- C143: C72 and C119 in numbers. Let each number be drawn for at most `c` in `2^128` seeds. An adversary with `Q`
queries that chooses the statement outputs an accepted proof of a false statement, or one that is not the honest proof,
for at most `(3 c + 1) (Q + K + 1)` in `2^128` oracles, where `K` is the number of rounds. -/
theorem C143_sipp {e : G1 →ₗ[F] G2 →ₗ[F] GT} (V : Sipp.Env σ F G1 G2 GT TF) (hE : V.E.Lawful e) {f g1 g2 gt L M : ℕ}
    (hf : ∀ x, (V.serF x).length = f) (h1 : ∀ x, (V.serG1 x).length = g1) (h2 : ∀ x, (V.serG2 x).length = g2)
    (ht : ∀ x, (V.serGT x).length = gt) (i1 : Function.Injective V.serG1) (i2 : Function.Injective V.serG2)
    (i3 : Function.Injective V.serF) (i4 : Function.Injective V.serGT) (p : ℕ) [CharP F p] (hp : p = 0 ∨ 2 ^ 128 ≤ p)
    (hL : 32 ≤ L) (hsep : gt + L < 24 + 2 * (g1 + g2 + f)) (hM : 2 * gt + L ≤ M) (c : ℕ)
    (hrng : ∀ v < 2 ^ 128, ((digests L).filter fun d => drawnU128 V d = v).card * 2 ^ 128 ≤ c * 256 ^ L)
    (query : List (digests L) → upTo M) (Q K : ℕ) (hN : Q + K + 1 ≤ 2 ^ 128)
    (out : List (digests L) → Output F G1 G2 GT)
    (hout : ∀ ds, 24 + (out ds).a.length * g1 + (out ds).b.length * g2 + (out ds).r.length * f + gt ≤ M ∧
      (out ds).a.length < 2 ^ 64 ∧ (out ds).r.length < 2 ^ 64 ∧ (out ds).proof.length ≤ K)
    (W : Finset (upTo M → digests L))
    (hW : ∀ H ∈ W,
      let o := out (Oracle.trace query H Q)
      Sipp.verify (V.withDigest (oracle H)) o.a o.b o.r o.value o.proof = .ok true ∧
        ¬ (o.value = Sipp.product e o.a o.b o.r ∧
          Sipp.prove (V.withDigest (oracle H)) o.a o.b o.r o.value = .ok o.proof)) :
    W.card * 2 ^ 128 ≤ (3 * c + 1) * (Q + K + 1) * Fintype.card (upTo M → digests L) := by
  set R := 256 ^ (L - 16) with hR
  have hcard : (digests L).card = 2 ^ 128 * R := card_digests' (by omega)
  have hRbig : 2 ^ 128 ≤ R := by
    rw [hR, show (2 : ℕ) ^ 128 = 256 ^ 16 by norm_num]
    exact Nat.pow_le_pow_right (by norm_num) (by omega)
  have hlen {α : Type} (ser : α → Bytes) (l : ℕ) (h : ∀ x, (ser x).length = l) (xs : List α) :
      (serSeq ser xs).length = 8 + xs.length * l := by
    rw [serSeq, List.length_append, length_leBytes]
    congr 1
    induction xs with
    | nil => simp
    | cons x xs ih => simp [h, ih]; ring
  have hm : ∀ x : F, (Finset.univ.filter fun d : digests L => (drawn V d : F) = x).card ≤ c * R := by
    intro x
    by_cases hx : ∃ d : digests L, (drawn V d : F) = x
    · obtain ⟨d, rfl⟩ := hx
      have h := hrng (drawnU128 V d) (drawnU128_lt V d)
      have e256 : (256 : ℕ) ^ L = 2 ^ 128 * R := by rw [← card_digests, hcard]
      have h' : ((digests L).filter fun d' => drawnU128 V d' = drawnU128 V d).card ≤ c * R := by
        refine Nat.le_of_mul_le_mul_right (c := 2 ^ 128) ?_ (by positivity)
        rw [e256] at h
        linarith
      refine le_trans (Finset.card_le_card_of_injOn Subtype.val ?_ (fun _ _ _ _ h => Subtype.ext h)) h'
      intro d' hd'
      have hd' := (Finset.mem_filter.mp (Finset.mem_coe.mp hd')).2
      exact Finset.mem_coe.mpr (Finset.mem_filter.mpr
        ⟨d'.2, cast_inj F p hp (drawnU128_lt V d') (drawnU128_lt V d) hd'⟩)
    · rw [Finset.card_eq_zero.mpr (Finset.filter_eq_empty_iff.mpr fun d _ h => hx ⟨d, h⟩)]
      exact Nat.zero_le _
  have key := Sipp.C119_unique V hE (upTo M) (digests L) g1 g2 f gt L h1 h2 hf ht i1 i2 i3 i4
    (fun d hd => mem_digests.mp hd) hsep
    (fun z d => mem_upTo.mpr (by
      rw [List.length_append, List.length_append, ht, ht, mem_digests.mp d.2]; omega)) (c * R) hm query Q K out
    (fun ds => ⟨mem_upTo.mpr (by
      rw [seedBytes, List.length_append, List.length_append, List.length_append, hlen _ _ h1, hlen _ _ h2, hlen _ _ hf, ht]
      have := (hout ds).1
      omega), (hout ds).2⟩) W hW
  rw [card_oracles]
  refine Nat.le_of_mul_le_mul_right (c := R) ?_ (by omega)
  rw [mul_assoc, ← hcard]
  refine key.trans ?_
  calc _ ≤ ((Q + K + 1) * (3 * (c * R)) + (Q + K + 1) * R) * (digests L).card ^ (upTo M).card := by
        rw [pow_two]
        gcongr
        omega
    _ = _ := by ring

/-- C143: with `2^40` queries, 30 rounds and a generator that draws each number for at most `2^20` in `2^128` seeds this
is less than one in `2^66`. -/
theorem C143_sipp_numbers (Q K c : ℕ) (hQ : Q ≤ 2 ^ 40) (hK : K ≤ 30) (hc : c ≤ 2 ^ 19) :
    (3 * c + 1) * (Q + K + 1) * 2 ^ 66 < 2 ^ 128 := by
  have : (3 * c + 1) * (Q + K + 1) ≤ (3 * 2 ^ 19 + 1) * (2 ^ 40 + 30 + 1) := by gcongr
  calc _ ≤ _ := Nat.mul_le_mul_right _ this
    _ < _ := by norm_num

/-- The lengths of BLS12-377, BLS12-381 and BW6-761 with digests of 32 bytes satisfy the assumption of `C143_sipp`. -/
theorem C143_sipp_sizes : 576 + 32 < 24 + 2 * (96 + 192 + 32) ∧ 576 + 32 < 24 + 2 * (192 + 192 + 48) := by
  norm_num

end Sipp

/-! ## Examples: the instance of C136 with the prime `2^521 - 1` -/

section Examples
open Sipp (Output oracle)
open Codec (leNat leNat_lt)

variable {p : ℕ} [Fact p.Prime] (h2 : p + 1 = 2 ^ 521)

include h2 in
/-- Four rows of two coefficients and up to four entries per commitment, with `2^40` queries: a prover that opens a
commitment for one in `2^44` oracles knows the rows and the coefficients. -/
example (com x y value : ZMod p) (Q L M : ℕ) (hL : 16 ≤ L) (hM : 8000 ≤ M) (hQ : Q ≤ 2 ^ 40)
    (A : PolyStatic.AnyProver (ZMod p) (ZMod p) (ZMod p) (ZMod p × {l : List (ZMod p) // l.length ≤ 3})
      (ZMod p × {l : List (ZMod p) // l.length ≤ 3}) (upTo M) (digests L))
    (hs1 : ∀ ds, (A.outerSteps ds).length = 2) (hs2 : ∀ ds, (A.innerSteps ds).length = 1)
    (W : Finset (upTo M → digests L))
    (hW : ∀ H ∈ W, TBivariate.verify { env p with digest := Sipp.oracle H } ([1, 2], [1, 3, 5, 7]) com (x, y) value
      (A.proof (Shape.upTo _ 3 three_lt) (Shape.upTo _ 3 three_lt) Q H) = .ok true)
    (hmany : Fintype.card (upTo M → digests L) ≤ W.card * 2 ^ 45) :
    ∃ t, A.Rewound (Shape.upTo _ 3 three_lt) (Shape.upTo _ 3 three_lt) (env p) Q com value W t ∧
      TBivariate.Knows (LinearMap.lsmul (ZMod p) (ZMod p)) ([1, 2], [1, 3, 5, 7]) com x y value
        (PolyStatic.extract2 t).2.1 (PolyStatic.extract2 t).2.2 := by
  have hpos : 0 < Fintype.card (upTo M → digests L) := by
    rw [card_oracles, card_digests]; positivity
  refine C143_transparent (encodes h2) three_lt lawful p (.inr (le_modulus h2)) hL (by omega) (by omega) 2 1 _ rfl rfl
    com x y value A Q hs1 hs2 W hW ?_
  have := (C143_numbers Q 2 1 4 0 hQ (by norm_num) (by norm_num) rfl (by norm_num)).2.2
  refine Nat.lt_of_mul_lt_mul_right (a := 2 ^ 45) ?_
  calc _ = 6 * (Q + 2 + 1) * (Q + 2 + 1 + 1) * 2 ^ 45 * Fintype.card (upTo M → digests L) := by ring
    _ < 2 ^ 128 * Fintype.card (upTo M → digests L) := Nat.mul_lt_mul_of_pos_right this hpos
    _ ≤ 2 ^ 128 * (W.card * 2 ^ 45) := Nat.mul_le_mul_left _ hmany
    _ = _ := by ring

variable (p) in
/-- SIPP over the same field, with a generator that outputs its seed. -/
def sippEnv : Sipp.Env Bytes (ZMod p) (ZMod p) (ZMod p) (ZMod p) (Multiplicative (ZMod p)) where
  E := engine p
  X := Toy.X
  digest _ := List.replicate 32 1
  chachaSeed d := (d.take 16).reverse
  nextU64 s := (UInt64.ofNat (leNat (s.take 8)), s.drop 8)
  serF := ser
  serG1 := ser
  serG2 := ser
  serGT := ser

theorem drawn_sippEnv {L : ℕ} (hL : 16 ≤ L) {d : Bytes} (hd : d ∈ digests L) :
    drawnU128 (sippEnv p) d = beNat (d.take 16) := by
  have hlen : (d.take 16).reverse.length = 16 := by
    rw [List.length_reverse, List.length_take, mem_digests.mp hd, min_eq_left hL]
  have lt (s : Bytes) (h : s.length = 8) : leNat s < 2 ^ 64 := by
    have := leNat_lt s
    rw [h] at this
    norm_num at this ⊢
    exact this
  rw [← leNat_reverse]
  set s := (d.take 16).reverse
  have e : s = s.take 8 ++ (s.drop 8).take 8 := by
    conv_lhs => rw [← List.take_append_drop 8 s]
    rw [List.take_of_length_le (l := s.drop 8) (by rw [List.length_drop, hlen])]
  have l1 : (s.take 8).length = 8 := by rw [List.length_take, hlen]; rfl
  have l2 : ((s.drop 8).take 8).length = 8 := by rw [List.length_take, List.length_drop, hlen]; rfl
  have : drawnU128 (sippEnv p) d = leNat ((s.drop 8).take 8) * 2 ^ 64 + leNat (s.take 8) := by
    show (UInt64.ofNat (leNat ((s.drop 8).take 8))).toNat * 2 ^ 64 + (UInt64.ofNat (leNat (s.take 8))).toNat = _
    rw [UInt64.toNat_ofNat', UInt64.toNat_ofNat', Nat.mod_eq_of_lt (lt _ l2), Nat.mod_eq_of_lt (lt _ l1)]
  rw [this]
  conv_rhs => rw [e, leNat_append, l1]
  norm_num
  ring

include h2 in
/-- For `2^40` queries and up to 30 rounds at most one in `2^85` oracles goes wrong. -/
example (Q M : ℕ) (hQ : Q ≤ 2 ^ 40) (hM : 164 ≤ M) (query : List (digests 32) → upTo M)
    (out : List (digests 32) → Output (ZMod p) (ZMod p) (ZMod p) (ZMod p))
    (hout : ∀ ds, 24 + (out ds).a.length * 66 + (out ds).b.length * 66 + (out ds).r.length * 66 + 66 ≤ M ∧
      (out ds).a.length < 2 ^ 64 ∧ (out ds).r.length < 2 ^ 64 ∧ (out ds).proof.length ≤ 30)
    (W : Finset (upTo M → digests 32))
    (hW : ∀ H ∈ W,
      let o := out (Oracle.trace query H Q)
      Sipp.verify ((sippEnv p).withDigest (oracle H)) o.a o.b o.r o.value o.proof = .ok true ∧
        ¬ (o.value = Sipp.product (LinearMap.lsmul (ZMod p) (ZMod p)) o.a o.b o.r ∧
          Sipp.prove ((sippEnv p).withDigest (oracle H)) o.a o.b o.r o.value = .ok o.proof)) :
    W.card * 2 ^ 85 ≤ Fintype.card (upTo M → digests 32) := by
  have len : ∀ x : ZMod p, (ser x).length = 66 := fun x => length_leBytes 66 _
  have h := C143_sipp (sippEnv p) lawful len len len len (ser_inj h2) (ser_inj h2) (ser_inj h2) (ser_inj h2) p
    (.inr (le_modulus h2)) (L := 32) le_rfl (by norm_num) (by omega) 1
    (fun v hv => by
      rw [Finset.filter_congr (q := fun d => beNat (d.take 16) = v)
        (fun d hd => by rw [drawn_sippEnv (by norm_num) hd]), card_first16 32 (by norm_num) v hv]
      norm_num) query Q 30 (by norm_num at hQ ⊢; omega) out hout W hW
  refine Nat.le_of_mul_le_mul_right (c := 2 ^ 43) ?_ (by norm_num)
  calc _ = W.card * 2 ^ 128 := by ring
    _ ≤ _ := h
    _ ≤ 2 ^ 43 * Fintype.card (upTo M → digests 32) := by
        refine Nat.mul_le_mul_right _ ?_
        norm_num at hQ ⊢
        omega
    _ = _ := by ring

end Examples

end Ripp.Level
