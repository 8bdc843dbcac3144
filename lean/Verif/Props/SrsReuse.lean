import Verif.Props.TipaLength
import Verif.Props.PolyCommit
import Verif.Props.Groth16Verify

/-!
# C147: cutting and re-randomising a reference string

`setup` is called for one size, and `prove` demands a reference string of exactly the size of the messages
(C64, C127). Written from the expectation that one set-up ceremony serves all sizes up to its own: the
first `2 m - 1` powers of a string are a string for `m` messages with the same verifier key, so that the
prover may cut the string and the verifier needs nothing new. Further, anyone can multiply new secrets
into a string without knowing the old ones.
-/

set_option linter.unusedSectionVars false

namespace Ripp

open Spec

section
variable {F G1 G2 : Type} [Field F] [AddCommGroup G1] [Module F G1] [AddCommGroup G2] [Module F G2]

/-- The string with the first `2 m - 1` powers only. -/
def cutSrs (m : ℕ) (srs : SRS G1 G2) : SRS G1 G2 :=
  { srs with gAlphaPowers := srs.gAlphaPowers.take (2 * m - 1)
             hBetaPowers := srs.hBetaPowers.take (2 * m - 1) }

theorem take_map_range {α : Type} (f : ℕ → α) (m n : ℕ) (h : m ≤ n) :
    ((List.range n).map f).take m = (List.range m).map f := by
  rw [← List.map_take, List.take_range, min_eq_left h]

/-- C147: the first `2 m - 1` powers are a reference string for `m` messages with the same secrets and the
same verifier key; the commitment keys are the first `m` ones. -/
theorem C147_cut (srs : SRS G1 G2) (g : G1) (h : G2) (α β : F) (n m : ℕ) (hm : 1 ≤ m) (hmn : m ≤ n)
    (hs : IsSrs srs g h α β n) :
    IsSrs (cutSrs m srs) g h α β m ∧ (cutSrs m srs).verifierKey = srs.verifierKey ∧
      (cutSrs m srs).commitmentKeys
        = (srs.commitmentKeys.1.take m, srs.commitmentKeys.2.take m) := by
  have h1 : IsSrs (cutSrs m srs) g h α β m :=
    ⟨by rw [cutSrs, hs.gAlpha]; exact take_map_range _ _ _ (by omega),
      by rw [cutSrs, hs.hBeta]; exact take_map_range _ _ _ (by omega), hs.gBeta, hs.hAlpha⟩
  obtain ⟨a, b, c⟩ := Tipa.C86_keys (cutSrs m srs) srs g h α β m n hm hmn h1 hs
  exact ⟨h1, a, Prod.ext b c⟩

/-- C147: new secrets `δ` and `ε` multiplied into a string. The right-hand side uses the elements of the
string only. -/
theorem C147_update (srs : SRS G1 G2) (g : G1) (h : G2) (α β δ ε : F) (n : ℕ)
    (hs : IsSrs srs g h α β n) :
    IsSrs (⟨srs.gAlphaPowers.mapIdx fun i x => δ ^ i • x, srs.hBetaPowers.mapIdx fun i x => ε ^ i • x,
      ε • srs.gBeta, δ • srs.hAlpha⟩ : SRS G1 G2) g h (δ * α) (ε * β) n := by
  refine ⟨?_, ?_, ?_, ?_⟩
  · rw [hs.gAlpha]
    refine List.ext_getElem (by simp) fun i h1 h2 => ?_
    simp [mul_pow, mul_smul]
  · rw [hs.hBeta]
    refine List.ext_getElem (by simp) fun i h1 h2 => ?_
    simp [mul_pow, mul_smul]
  · rw [hs.gBeta, mul_smul]
  · rw [hs.hAlpha, mul_smul]

end

namespace Tipa

variable {ρ F MA MB T KT OA OB OT G1 G2 GT TF : Type} [Field F] [DecidableEq F]
  [AddCommGroup MA] [Module F MA] [AddCommGroup MB] [Module F MB] [AddCommGroup T] [Module F T]
  [AddCommGroup G1] [Module F G1] [AddCommGroup G2] [Module F G2]
  [AddCommGroup GT] [Module F GT] [Monoid TF] [DecidableEq GT]
  [AddCommGroup OA] [Module F OA] [AddCommGroup OB] [Module F OB] [Add OT] [SMul F OT]
  [DecidableEq T] [DecidableEq OA] [DecidableEq OB] [DecidableEq OT]
  {P : Gipa ρ F MA MB T G2 G1 KT OA OB OT} {V : TipaEnv F G1 G2 GT TF}
  {bil : MA →ₗ[F] MB →ₗ[F] T} {φa : MA →ₗ[F] G2 →ₗ[F] OA} {φb : MB →ₗ[F] G1 →ₗ[F] OB} {ψ : KT → T → OT}
  {e : G1 →ₗ[F] G2 →ₗ[F] GT}

/-- C147: TIPA with a cut string is complete for the verifier key of the whole string. The commitments are
those with the first keys of the whole string. -/
theorem C147_tipa (L : P.Lawful bil φa φb ψ) (hE : V.E.Lawful e) (hd : ∀ x, 16 ≤ (P.digest x).length)
    (hse : P.SearchEnds) (hrb : KzgEnds V P.digest P.serF) (k n : ℕ) (hkn : 2 ^ (k + 1) ≤ n)
    (srs : SRS G1 G2) (g : G1) (h : G2) (α β : F) (hs : IsSrs srs g h α β n) (ma : List MA) (mb : List MB)
    (t : T) (kt : KT) (com : Coms OA OB OT) (h1 : ma.length = 2 ^ (k + 1)) (h2 : mb.length = 2 ^ (k + 1))
    (H : Gipa.Honest P ma mb t (srs.commitmentKeys.1.take (2 ^ (k + 1)))
      (srs.commitmentKeys.2.take (2 ^ (k + 1))) kt com) :
    ∃ v proof, srs.verifierKey = .ok v ∧
      prove V P (cutSrs (2 ^ (k + 1)) srs) ma mb (srs.commitmentKeys.1.take (2 ^ (k + 1)))
        (srs.commitmentKeys.2.take (2 ^ (k + 1))) kt = .ok proof ∧
      verify V P v kt com proof = .ok true := by
  obtain ⟨a, b, c⟩ := C147_cut srs g h α β n _ Nat.one_le_two_pow hkn hs
  have c1 := congrArg Prod.fst c
  have c2 := congrArg Prod.snd c
  simp only at c1 c2
  rw [← c1, ← c2] at H ⊢
  rw [← b]
  have := C29_complete_total (V := V) L hE hd hse hrb k _ g h α β 1 one_ne_zero a ma mb t kt com h1 h2
    (by rw [mapIdx_one]; exact H)
  rw [mapIdx_one] at this
  exact this

/-- The toy string of size four serves two messages. -/
example : ∃ v proof, Toy.srs.verifierKey = .ok v ∧
    Tipa.prove Toy.env.tipa Toy.env.pairingAB (cutSrs 2 Toy.srs) [1, 2] [5, 6]
      (Toy.srs.commitmentKeys.1.take 2) (Toy.srs.commitmentKeys.2.take 2) PUnit.unit = .ok proof ∧
    Tipa.verify Toy.env.tipa Toy.env.pairingAB v PUnit.unit (51, 59, ⟨[17]⟩) proof = .ok true :=
  C147_tipa (V := Toy.env.tipa) (pairingAB_lawful Toy.env Toy.lawful) Toy.lawful Toy.digest_length
    (searchEnds_of_digest _ Toy.digest_length Toy.digest_ne_zero) Toy.kzgEnds 0 4 (by norm_num) Toy.srs
    (1 : Toy.F) (1 : Toy.F) 3 5 Toy.srs_isSrs [1, 2] [5, 6] 17 PUnit.unit (51, 59, ⟨[17]⟩) rfl rfl
    ⟨by decide +kernel, by decide +kernel, by decide +kernel, by decide +kernel⟩

/-- Multiplying the secrets 2 and 7 into the toy string with secrets 3 and 5. -/
example : IsSrs (⟨[1, 6, 36, 14, 84, 100, 95], [1, 35, 13, 51, 68, 57, 76], 35, 6⟩ : SRS Toy.F Toy.F)
    (1 : Toy.F) (1 : Toy.F) (6 : Toy.F) 35 4 := by
  have h := C147_update Toy.srs (1 : Toy.F) (1 : Toy.F) (3 : Toy.F) 5 2 7 4 Toy.srs_isSrs
  have e1 : (2 : Toy.F) * 3 = 6 := by decide +kernel
  have e2 : (7 : Toy.F) * 5 = 35 := by decide +kernel
  rw [e1, e2] at h
  have e : (⟨Toy.srs.gAlphaPowers.mapIdx fun i x => (2 : Toy.F) ^ i • x,
      Toy.srs.hBetaPowers.mapIdx fun i x => (7 : Toy.F) ^ i • x, (7 : Toy.F) • Toy.srs.gBeta,
      (2 : Toy.F) • Toy.srs.hAlpha⟩ : SRS Toy.F Toy.F)
      = ⟨[1, 6, 36, 14, 84, 100, 95], [1, 35, 13, 51, 68, 57, 76], 35, 6⟩ := by
    rw [SRS.mk.injEq]
    exact ⟨by decide +kernel, by decide +kernel, by decide +kernel, by decide +kernel⟩
  rwa [e] at h

end Tipa

namespace Groth16

variable {ρ F G1 G2 GT TF : Type} [Field F] [DecidableEq F]
  [AddCommGroup G1] [Module F G1] [AddCommGroup G2] [Module F G2]
  [AddCommGroup GT] [Module F GT] [Monoid TF] [DecidableEq G1] [DecidableEq G2] [DecidableEq GT]
  {V : Env ρ F G1 G2 GT TF} {e : G1 →ₗ[F] G2 →ₗ[F] GT}

/-- C147: fewer proofs than the string was made for can be aggregated with a cut string, and the verifier
keeps its key. -/
theorem C147_aggregate (hE : V.E.Lawful e) (hd : ∀ x, 16 ≤ (V.digest x).length)
    (hs1 : V.pairingAB.SearchEnds) (hs2 : V.multiexpSsm.SearchEnds) (hrb : DecodesEnd V) (k n : ℕ)
    (hkn : 2 ^ (k + 1) ≤ n) (srs : SRS G1 G2) (g : G1) (h : G2) (α β : F) (hsrs : IsSrs srs g h α β n)
    (vk : G16VK G1 G2) (proofs : List (G16Proof G1 G2)) (inputs : List (List F))
    (hp : proofs.length = 2 ^ (k + 1)) (hv : List.Forall₂ (Valid e vk) proofs inputs)
    (hr : ∀ r, challenge V (dot (e · ·) (proofs.map (·.a)) (srs.commitmentKeys.1.take (2 ^ (k + 1))))
      (dot (e · ·) (srs.commitmentKeys.2.take (2 ^ (k + 1))) (proofs.map (·.b)))
      (dot (e · ·) (proofs.map (·.c)) (srs.commitmentKeys.1.take (2 ^ (k + 1)))) = .ok r →
        r ≠ 0 ∧ r ≠ 1) :
    ∃ v proof, srs.verifierKey = .ok v ∧ aggregate V (cutSrs (2 ^ (k + 1)) srs) proofs = .ok proof ∧
      verify V v vk inputs proof = .ok true := by
  obtain ⟨a, b, c⟩ := C147_cut srs g h α β n _ Nat.one_le_two_pow hkn hsrs
  have c1 := congrArg Prod.fst c
  have c2 := congrArg Prod.snd c
  simp only at c1 c2
  rw [← c1, ← c2] at hr
  rw [← b]
  exact C49_complete_total hE hd hs1 hs2 hrb k _ g h α β a vk proofs inputs hp hv hr

end Groth16

namespace Bivariate

variable {ρ F G1 G2 GT TF : Type} [Field F] [DecidableEq F]
  [AddCommGroup G1] [Module F G1] [AddCommGroup G2] [Module F G2]
  [AddCommGroup GT] [Module F GT] [Monoid TF] [DecidableEq G1] [DecidableEq GT]
  {e : G1 →ₗ[F] G2 →ₗ[F] GT}

/-- The string for smaller degrees. -/
def cutPcSrs (x y : ℕ) (srs : SRS G1 G2 × List G1) : SRS G1 G2 × List G1 :=
  ({ srs.1 with hBetaPowers := srs.1.hBetaPowers.take (2 * x + 1) }, srs.2.take (y + 1))

/-- C147: the same for the strings of the polynomial commitments. -/
theorem C147_cut (srs : SRS G1 G2 × List G1) (g : G1) (h : G2) (α β : F) (x y x' y' : ℕ) (hx : x' ≤ x)
    (hy : y' ≤ y) (hs : IsSrs srs g h α β x y) :
    IsSrs (cutPcSrs x' y' srs) g h α β x' y' ∧
      (cutPcSrs x' y' srs).1.verifierKey = srs.1.verifierKey := by
  have h1 : IsSrs (cutPcSrs x' y' srs) g h α β x' y' := by
    refine ⟨⟨hs.left.gHead, ?_, hs.left.gBeta, hs.left.hAlpha⟩, ?_⟩
    · rw [cutPcSrs, hs.left.hBeta]
      exact take_map_range _ _ _ (by omega)
    · rw [cutPcSrs, hs.kzg]
      exact take_map_range _ _ _ (by omega)
  exact ⟨h1, ((h1.left.keys (by omega)).2).trans ((hs.left.keys (by omega)).2).symm⟩

/-- C147: the commitment to a polynomial does not depend on the size of the string. -/
theorem C147_commit (V : Env ρ F G1 G2 GT TF) (hE : V.E.Lawful e) (srs : SRS G1 G2 × List G1) (g : G1)
    (h : G2) (α β : F) (x y x' y' : ℕ) (hx : x' ≤ x) (hy : y' ≤ y) (hs : IsSrs srs g h α β x y)
    (ps : List (List F)) (hps : ps.length ≤ x' + 1)
    (hrow : ∀ p ∈ ps, p.getLast? ≠ some 0 ∧ p.length ≤ y' + 1) :
    ∃ com coms, commit V (cutPcSrs x' y' srs) ps = .ok (com, coms) ∧
      commit V srs ps = .ok (com, coms ++ List.replicate (x - x') 0) := by
  obtain ⟨h1, -⟩ := C147_cut srs g h α β x y x' y' hx hy hs
  refine ⟨_, _, commit_eq V hE _ g h α β x' y' h1 ps hps hrow, ?_⟩
  rw [commit_eq V hE srs g h α β x y hs ps (by omega) fun p hp =>
    ⟨(hrow p hp).1, (hrow p hp).2.trans (by omega)⟩]
  have hr : (resize ps (x + 1) []).map (fun p => polyEval p α • g)
      = (resize ps (x' + 1) []).map (fun p => polyEval p α • g) ++ List.replicate (x - x') 0 := by
    rw [resize, resize, List.take_of_length_le (by omega), List.take_of_length_le (by omega)]
    rw [show x + 1 - ps.length = (x' + 1 - ps.length) + (x - x') by omega, List.replicate_add,
      ← List.append_assoc, List.map_append]
    congr 1
    simp [polyEval]
  have k1 := (hs.left.keys (by omega)).1
  have k2 := (h1.left.keys (by omega)).1
  have hk : srs.1.commitmentKeys.1 = (cutPcSrs x' y' srs).1.commitmentKeys.1
      ++ srs.1.commitmentKeys.1.drop (x' + 1) := by
    rw [k2, k1]
    conv_lhs => rw [← List.take_append_drop (x' + 1) ((List.range (x + 1)).map _)]
    rw [take_map_range _ _ _ (by omega)]
  rw [hr, hk, Tipa.dot_pad _ _ _ _ _ (by rw [k2]; simp [resize_length])]

/-- C147: a commitment made with a long string can be opened with a cut string, and the verifier keeps its
key. -/
theorem C147_open (V : Env ρ F G1 G2 GT TF) (hE : V.E.Lawful e) (hd : ∀ b, 16 ≤ (V.digest b).length)
    (hse : V.multiexpSsm.SearchEnds) (hrb : TipaSsm.KzgEnds V.tipa V.digest V.serF)
    (k : ℕ) (srs : SRS G1 G2 × List G1) (g : G1) (h : G2) (α β : F) (x y x' y' : ℕ) (hx : x' ≤ x)
    (hy : y' ≤ y) (hs : IsSrs srs g h α β x y) (hx' : x' + 1 = 2 ^ (k + 1)) (ps : List (List F))
    (hps : ps.length ≤ x' + 1) (hrow : ∀ p ∈ ps, p.getLast? ≠ some 0 ∧ p.length ≤ y' + 1)
    (point : F × F) :
    ∃ com coms v proof, commit V srs ps = .ok (com, coms) ∧ srs.1.verifierKey = .ok v ∧
      open_ V (cutPcSrs x' y' srs) ps (coms.take (x' + 1)) point = .ok proof ∧
      verify V v com point (evalAt (ps.map fun p => evalAt p point.2) point.1) proof = .ok true := by
  obtain ⟨h1, h2⟩ := C147_cut srs g h α β x y x' y' hx hy hs
  obtain ⟨com, coms, c1, c2⟩ := C147_commit V hE srs g h α β x y x' y' hx hy hs ps hps hrow
  obtain ⟨com', coms', v, proof, d1, d2, d3, d4⟩ := C41_complete_total V hE hd hse hrb k _ g h α β x' y' h1
    hx' ps hps hrow point
  rw [c1] at d1
  obtain ⟨rfl, rfl⟩ := Prod.mk.inj (Except.ok.inj d1)
  refine ⟨com, _, v, proof, c2, h2 ▸ d2, ?_, d4⟩
  have hl : coms.length = x' + 1 := by
    rw [commit_eq V hE _ g h α β x' y' h1 ps hps hrow] at c1
    rw [← (Prod.mk.inj (Except.ok.inj c1)).2]
    simp [resize_length]
  rw [List.take_append_of_le_length hl.ge, List.take_of_length_le hl.le]
  exact d3

end Bivariate

namespace Groth16

/-- Two of the toy proofs aggregated with the toy string for four, and the error with the whole string. -/
example : (∃ v proof, Toy.srs.verifierKey = .ok v ∧
    aggregate Toy.env (cutSrs 2 Toy.srs) (toyProofs.take 2) = .ok proof ∧
    verify Toy.env v toyVK [[1], [2]] proof = .ok true) ∧
    aggregate Toy.env Toy.srs (toyProofs.take 2) = .error (.ipLength 2 4) :=
  ⟨C147_aggregate (V := Toy.env) Toy.lawful Toy.digest_length
    (searchEnds_of_digest _ Toy.digest_length Toy.digest_ne_zero)
    (searchEnds_of_digest _ Toy.digest_length Toy.digest_ne_zero)
    (Groth16.decodesEnd_of_decodes _ Toy.fromRandomBytes_digest) 0 4 (by norm_num) Toy.srs
    1 1 3 5 Toy.srs_isSrs toyVK (toyProofs.take 2) _ rfl
    (.cons ⟨rfl, by decide⟩ (.cons ⟨rfl, by decide⟩ .nil))
    (fun r hc => by rw [challenge_toy] at hc; cases hc; exact ⟨by decide, by decide⟩),
    C64_wrong_size Toy.env Toy.srs (toyProofs.take 2) (by decide +kernel)⟩

end Groth16

/-- A polynomial with two powers of `x`, committed with a string for four and opened with the cut one. -/
example : ∃ srs s' com coms v proof, Bivariate.setup Toy.env 11 3 1 = .ok (srs, s') ∧
    Bivariate.commit Toy.env srs ([[1, 2], [3]] : List (List Toy.F)) = .ok (com, coms) ∧
    coms.length = 4 ∧ srs.1.verifierKey = .ok v ∧
    Bivariate.open_ Toy.env (Bivariate.cutPcSrs 1 1 srs) [[1, 2], [3]] (coms.take 2)
      ((6, 7) : Toy.F × Toy.F) = .ok proof ∧
    Bivariate.verify Toy.env v com ((6, 7) : Toy.F × Toy.F) 33 proof = .ok true := by
  obtain ⟨srs, α, β, s', h1, h2⟩ := Bivariate.C41_setup Toy.env 11 3 1
  obtain ⟨com, coms, v, proof, h3, h4, h5, h6⟩ := Bivariate.C147_open Toy.env Toy.lawful
    Toy.digest_length (searchEnds_of_digest _ Toy.digest_length Toy.digest_ne_zero)
    Toy.ssmKzgEnds 0 srs _ _ α β 3 1 1 1 (by norm_num) le_rfl h2 rfl [[1, 2], [3]] (by decide) (by decide)
    ((6, 7) : Toy.F × Toy.F)
  obtain ⟨com', coms', g1, g2⟩ := Bivariate.C147_commit Toy.env Toy.lawful srs _ _ α β 3 1 1 1
    (by norm_num) le_rfl h2 [[1, 2], [3]] (by decide) (by decide)
  refine ⟨srs, s', com, coms, v, proof, h1, h3, ?_, h4, h5, ?_⟩
  · rw [Bivariate.commit_eq Toy.env Toy.lawful srs _ _ α β 3 1 h2 _ (by decide) (by decide)] at h3
    rw [← (Prod.mk.inj (Except.ok.inj h3)).2]
    simp [resize_length]
  · have : evalAt (([[1, 2], [3]] : List (List Toy.F)).map fun p => evalAt p 7) 6 = 33 := by
      decide +kernel
    rwa [this] at h6

end Ripp
