import Verif.Props.Trapdoor
import Verif.Props.Ssm
import Verif.Props.Groth16Verify
import Verif.Props.Univariate

/-!
# C142: no verifier checks its reference string

The fields of `VerifierSRS` (`ip_proofs/src/tipa/mod.rs:104-110`) are public, so a verifier may be handed a string that no set-up
returns. Most theorems are about the string of four zeros.
-/

set_option linter.unusedSectionVars false

namespace Ripp

open Spec

namespace Kzg

variable {F G1 G2 GT TF : Type} [Field F] [DecidableEq F] [AddCommGroup G1] [Module F G1] [AddCommGroup G2]
  [Module F G2] [AddCommGroup GT] [Module F GT] [Monoid TF] [DecidableEq GT] {E : Engine G1 G2 GT TF}
  {e : G1 →ₗ[F] G2 →ₗ[F] GT}

/-- C142: without `h` everything is an opening of everything. -/
theorem C142_kzg (hE : E.Lawful e) (g gb com π : G1) (z value : F) : verify E ⟨g, 0, gb, 0⟩ com z value π = .ok true := by
  rw [verify_eq hE]
  simp

/-- C142: without `g` the verdict does not depend on the value. -/
theorem C142_kzg_value (hE : E.Lawful e) (h hα : G2) (gb com π : G1) (z value value' : F) :
    verify E ⟨0, h, gb, hα⟩ com z value π = verify E ⟨0, h, gb, hα⟩ com z value' π := by
  rw [verify_eq hE, verify_eq hE]
  simp

/-- C142: conversely, a verifier that accepts everything has a string with which no pairing tells `g` from zero. -/
theorem C142_kzg_iff (hE : E.Lawful e) (v : VerifierSRS G1 G2) :
    (∀ (com : G1) (z value : F) (π : G1), verify E v com z value π = .ok true) ↔ (∀ x, e x v.h = 0) ∧ ∀ x, e x v.hAlpha = 0 := by
  simp only [verify_eq hE, Except.ok.injEq, decide_eq_true_eq]
  constructor
  · intro h
    have h0 : ∀ x, e x v.h = 0 := fun x => by simpa using h x 0 0 0
    exact ⟨h0, fun x => by simpa [h0] using (h 0 0 0 x).symm⟩
  · rintro ⟨h1, h2⟩ com z value π
    simp [h1, h2]

end Kzg

section Keys

variable {F G1 G2 GT TF : Type} [Field F] [DecidableEq F] [AddCommGroup G1] [Module F G1] [AddCommGroup G2]
  [Module F G2] [AddCommGroup GT] [Module F GT] [Monoid TF] [DecidableEq GT] {E : Engine G1 G2 GT TF}
  {e : G1 →ₗ[F] G2 →ₗ[F] GT}

/-- C142: every final key passes, with every opening. -/
theorem C142_key (hE : E.Lawful e) (g : G1) (h hα : G2) (gb : G1) (ck2 op2 : G2) (ck1 op1 : G1) (tr : List F) (r z : F) :
    verifyKeyOpeningG2 E ⟨0, h, 0, hα⟩ ck2 op2 tr r z = .ok true ∧
      verifyKeyOpeningG1 E ⟨g, 0, gb, 0⟩ ck1 op1 tr r z = .ok true := by
  rw [verifyKeyOpeningG2_eq hE, verifyKeyOpeningG1_eq hE]
  simp

end Keys

namespace Gipa

variable {ρ F MA MB T KA KB KT OA OB OT : Type} [Field F] [DecidableEq F]
  [AddCommGroup MA] [Module F MA] [AddCommGroup MB] [Module F MB] [AddCommGroup T] [Module F T]
  [AddCommGroup KA] [Module F KA] [AddCommGroup KB] [Module F KB]
  [AddCommGroup OA] [Module F OA] [AddCommGroup OB] [Module F OB] [Add OT] [SMul F OT]
  {P : Gipa ρ F MA MB T KA KB KT OA OB OT}
  {bil : MA →ₗ[F] MB →ₗ[F] T} {φa : MA →ₗ[F] KA →ₗ[F] OA} {φb : MB →ₗ[F] KB →ₗ[F] OB} {ψ : KT → T → OT}

/-- Rounds in which nothing but zeros is sent leave every statement as it is. -/
theorem idle_rounds (L : P.Lawful bil φa φb ψ) (hd : ∀ x, 16 ≤ (P.digest x).length) (hs : P.SearchEnds) (kt : KT) (n : ℕ) :
    ∃ cs : List F, cs.length = n ∧ ∀ (a : OA) (b : OB) (t : T) (base : MA × MB),
      P.recursiveChallenges (a, b, ψ kt t) ⟨List.replicate n ((0, 0, ψ kt 0), (0, 0, ψ kt 0)), base⟩ =
        .ok ((a, b, ψ kt t), cs.reverse) := by
  have hch : ∀ (n : ℕ) (tr : List F), ∃ cs, P.chals (List.replicate n ((0, 0, ψ kt 0), (0, 0, ψ kt 0))) tr = .ok cs := by
    intro n
    induction n with
    | zero => exact fun tr => ⟨tr, rfl⟩
    | succ n ih =>
      intro tr
      obtain ⟨c, -, hc⟩ := challenge_of_ends L hd hs (tr.getLast?.getD 0) (0, 0, ψ kt 0) (0, 0, ψ kt 0)
        ⟨_, _, rfl⟩ ⟨_, _, rfl⟩
      obtain ⟨cs, h⟩ := ih (tr ++ [c])
      refine ⟨cs, ?_⟩
      rw [List.replicate_succ, chals]
      simp only [hc, ok_bind]
      exact h
  have hfold : ∀ (n : ℕ) (cs : List F) (a : OA) (b : OB) (t : T),
      foldMany (List.replicate n ((0, 0, ψ kt 0), (0, 0, ψ kt 0))) cs (a, b, ψ kt t) = (a, b, ψ kt t) := by
    intro n
    induction n with
    | zero => intro cs a b t; cases cs <;> rfl
    | succ n ih =>
      intro cs a b t
      cases cs with
      | nil => rfl
      | cons c cs =>
        have : foldComs c c⁻¹ (a, b, ψ kt t) (0, 0, ψ kt 0) (0, 0, ψ kt 0) = (a, b, ψ kt t) := by
          simp only [foldComs, smul_zero, add_zero, zero_add, ← L.ψ_smul, ← L.ψ_add]
        rw [List.replicate_succ, foldMany]
        simp only [this]
        exact ih cs a b t
  obtain ⟨cs, hcs⟩ := hch n []
  have hrec : ∀ (a : OA) (b : OB) (t : T) (base : MA × MB),
      P.recursiveChallenges (a, b, ψ kt t) ⟨List.replicate n ((0, 0, ψ kt 0), (0, 0, ψ kt 0)), base⟩ =
        .ok ((a, b, ψ kt t), cs.reverse) := by
    intro a b t base
    rw [recursiveChallenges_eq]
    simp only [List.reverse_replicate, hcs, ok_bind, hfold]
  refine ⟨cs, ?_, hrec⟩
  obtain ⟨new, e1, e2, -⟩ := chals_prefix _ _ _ _ hcs
  rw [e1, List.nil_append, e2, List.length_replicate]

end Gipa

namespace Tipa

variable {ρ F MA MB T KT OA OB OT G1 G2 GT TF : Type} [Field F] [DecidableEq F]
  [AddCommGroup MA] [Module F MA] [AddCommGroup MB] [Module F MB] [AddCommGroup T] [Module F T]
  [AddCommGroup G1] [Module F G1] [AddCommGroup G2] [Module F G2]
  [AddCommGroup GT] [Module F GT] [Monoid TF] [DecidableEq GT]
  [AddCommGroup OA] [Module F OA] [AddCommGroup OB] [Module F OB] [Add OT] [SMul F OT]
  [DecidableEq T] [DecidableEq OA] [DecidableEq OB] [DecidableEq OT]
  {P : Gipa ρ F MA MB T G2 G1 KT OA OB OT} {V : TipaEnv F G1 G2 GT TF}
  {bil : MA →ₗ[F] MB →ₗ[F] T} {φa : MA →ₗ[F] G2 →ₗ[F] OA} {φb : MB →ₗ[F] G1 →ₗ[F] OB}
  {ψ : KT → T → OT} {e : G1 →ₗ[F] G2 →ₗ[F] GT}

/-- C142: a statement is accepted as soon as single messages and single keys of the prover's choice satisfy it, with any
number of rounds and any openings. -/
theorem C142_tipa (L : P.Lawful bil φa φb ψ) (hE : V.E.Lawful e) (hd : ∀ x, 16 ≤ (P.digest x).length)
    (hs : P.SearchEnds) (hrb : KzgEnds V P.digest P.serF) (r : F) (hr : r ≠ 0) (k : ℕ) (kt : KT)
    (a : MA) (b : MB) (cka op2 : G2) (ckb op1 : G1) :
    ∃ proof : TipaProof G1 G2 MA MB OA OB OT, proof.gipa.steps.length = k + 1 ∧ proof.gipa.base = (a, b) ∧
      proof.finalCk = (cka, ckb) ∧ proof.finalCkProof = (op2, op1) ∧
      verifyWithShift V P ⟨0, 0, 0, 0⟩ kt (φa a cka, φb b ckb, ψ kt (bil a b)) proof r = .ok true := by
  obtain ⟨cs, hlen, hrec⟩ := Gipa.idle_rounds L hd hs kt (k + 1)
  have hne : cs.reverse ≠ [] := by
    intro h
    have := congrArg List.length h
    simp [hlen] at this
  obtain ⟨c, hkz⟩ := kzgChallenge_ends V P.digest P.serF hrb cs.reverse cka ckb hne
  exact ⟨⟨⟨_, (a, b)⟩, (cka, ckb), (op2, op1)⟩, List.length_replicate, rfl, rfl, rfl,
    (C31_accepts_iff _ kt _ _ _ r hr _ c (hrec _ _ _ _) hkz hE L).mpr
      ⟨(C142_key hE 0 0 0 0 _ _ 0 0 _ _ _).1, (C142_key hE 0 0 0 0 0 0 _ _ _ _ _).2, rfl, rfl, rfl⟩⟩

end Tipa

namespace TipaSsm

variable {ρ F MA T KT OA OT G1 G2 GT TF : Type} [Field F] [DecidableEq F]
  [AddCommGroup MA] [Module F MA] [AddCommGroup T] [Module F T]
  [AddCommGroup G1] [Module F G1] [AddCommGroup G2] [Module F G2]
  [AddCommGroup GT] [Module F GT] [Monoid TF] [DecidableEq GT]
  [AddCommGroup OA] [Module F OA] [Add OT] [SMul F OT] [DecidableEq OA] [DecidableEq OT]
  {P : Gipa ρ F MA F T G2 Placeholder KT OA F OT} {V : TipaEnv F G1 G2 GT TF}
  {bil : MA →ₗ[F] F →ₗ[F] T} {φa : MA →ₗ[F] G2 →ₗ[F] OA} {ψ : KT → T → OT} {e : G1 →ₗ[F] G2 →ₗ[F] GT}

/-- C142: for the structured message the value is the product of the message and a scalar that depends on nothing but the
structure and the number of rounds. -/
theorem C142_ssm (L : P.Lawful bil φa 0 ψ) (hE : V.E.Lawful e) (hd : ∀ x, 16 ≤ (P.digest x).length)
    (hs : P.SearchEnds) (hrb : KzgEnds V P.digest P.serF) (X : Exec) (k : ℕ) (kt : KT) (b : F) :
    ∃ b' : F, ∀ (a : MA) (ck op h hα : G2), ∃ proof : TipaSsmProof F G2 MA OA OT, proof.gipa.steps.length = k + 1 ∧
      proof.finalCk = ck ∧ proof.finalCkProof = op ∧
      verify X V P ⟨0, h, 0, hα⟩ kt (φa a ck) (ψ kt (bil a b')) b proof = .ok true := by
  obtain ⟨cs, hlen, hrec⟩ := Gipa.idle_rounds L hd hs kt (k + 1)
  have hne : cs.reverse ≠ [] := by
    intro h
    have := congrArg List.length h
    simp [hlen] at this
  obtain ⟨b', e2⟩ : ∃ b', foldAll (cs.map (·⁻¹)) (powers b (2 ^ cs.length)) = [b'] := by
    have := fold_powers (cs.reverse.map (·⁻¹)) b
    rw [← List.map_reverse, List.reverse_reverse, List.length_map, List.length_reverse] at this
    exact ⟨_, this⟩
  refine ⟨b', fun a ck op h hα => ?_⟩
  obtain ⟨c, hkz⟩ := kzgChallenge_ends V P.digest P.serF hrb cs.reverse ck hne
  refine ⟨⟨⟨List.replicate (k + 1) ((0, 0, ψ kt 0), (0, 0, ψ kt 0)), (a, 0)⟩, ck, op⟩, List.length_replicate, rfl, rfl, ?_⟩
  obtain ⟨b'', e3, hv, -⟩ := C34_verdict L hE X ⟨0, h, 0, hα⟩ kt (φa a ck) _ b ⟨⟨_, (a, 0)⟩, ck, op⟩ cs _ c
    (hrec (φa a ck) b (bil a b') (a, 0)) hkz
  refine hv.mpr ⟨(C142_key hE 0 _ _ 0 _ _ 0 0 _ _ _).1, rfl, ?_⟩
  have : b' = b'' := List.head_eq_of_cons_eq (e2.symm.trans e3)
  rw [this]

end TipaSsm

namespace Bivariate

variable {ρ F G1 G2 GT TF : Type} [Field F] [DecidableEq F] [AddCommGroup G1] [Module F G1] [AddCommGroup G2]
  [Module F G2] [AddCommGroup GT] [Module F GT] [Monoid TF] [DecidableEq G1] [DecidableEq GT]
  {V : Env ρ F G1 G2 GT TF} {e : G1 →ₗ[F] G2 →ₗ[F] GT}

/-- C142: every commitment that is one pairing opens to every value at every point. -/
theorem C142_bivariate (hE : V.E.Lawful e) (hd : ∀ x, 16 ≤ (V.digest x).length) (hs : V.multiexpSsm.SearchEnds)
    (hrb : TipaSsm.KzgEnds V.tipa V.digest V.serF) (k : ℕ) (x : G1) (y : G2) (point : F × F) :
    ∃ proof : PcProof F G1 G2 GT, proof.ip.gipa.steps.length = k + 1 ∧
      ∀ value, verify V ⟨0, 0, 0, 0⟩ (e x y) point value proof = .ok true := by
  obtain ⟨b', h⟩ := TipaSsm.C142_ssm (V := V.tipa) (multiexpSsm_lawful V hE) hE hd hs hrb V.X k PUnit.unit point.1
  obtain ⟨ip, h1, -, -, h2⟩ := h x y 0 0 0
  refine ⟨⟨ip, b' • x, 0⟩, h1, fun value => ?_⟩
  rw [verify]
  have h2 : TipaSsm.verify V.X V.tipa V.multiexpSsm ⟨0, 0, 0, 0⟩ PUnit.unit (e x y) ⟨[b' • x]⟩ point.1 ip = .ok true := h2
  simp only [h2, ok_bind, Kzg.C142_kzg hE]
  rfl

end Bivariate

namespace Univariate

variable {ρ F G1 G2 GT TF : Type} [Field F] [DecidableEq F] [AddCommGroup G1] [Module F G1] [AddCommGroup G2]
  [Module F G2] [AddCommGroup GT] [Module F GT] [Monoid TF] [DecidableEq G1] [DecidableEq GT]
  {V : Env ρ F G1 G2 GT TF} {e : G1 →ₗ[F] G2 →ₗ[F] GT}

@[inherit_doc Bivariate.C142_bivariate]
theorem C142_univariate (hE : V.E.Lawful e) (hd : ∀ x, 16 ≤ (V.digest x).length) (hs : V.multiexpSsm.SearchEnds)
    (hrb : TipaSsm.KzgEnds V.tipa V.digest V.serF) (k d : ℕ) (h1 : 1 ≤ d) (h2 : d + 1 ≤ 2 ^ 52) (x : G1) (y : G2) (z : F) :
    ∃ proof : PcProof F G1 G2 GT, proof.ip.gipa.steps.length = k + 1 ∧
      ∀ value, verify V ⟨0, 0, 0, 0⟩ d (e x y) z value proof = .ok true := by
  obtain ⟨dx, dy, -, -, -, hdeg, -⟩ := C43_degrees d h1 h2
  obtain ⟨proof, hl, h⟩ := Bivariate.C142_bivariate hE hd hs hrb k x y (z ^ (dy + 1), z)
  refine ⟨proof, hl, fun value => ?_⟩
  rw [verify, hdeg]
  exact h value

end Univariate

namespace Groth16

variable {ρ F G1 G2 GT TF : Type} [Field F] [DecidableEq F] [AddCommGroup G1] [Module F G1] [AddCommGroup G2]
  [Module F G2] [AddCommGroup GT] [Module F GT] [Monoid TF] [DecidableEq G1] [DecidableEq GT]
  {V : Env ρ F G1 G2 GT TF} {e : G1 →ₗ[F] G2 →ₗ[F] GT}

/-- C142: for every verifying key and all inputs of the right size an aggregate is accepted; it commits to zeros. -/
theorem C142_groth16 (hE : V.E.Lawful e) (hd : ∀ x, 16 ≤ (V.digest x).length) (hs1 : V.pairingAB.SearchEnds)
    (hs2 : V.multiexpSsm.SearchEnds) (hrb1 : Tipa.KzgEnds V.tipa V.digest V.serF)
    (hrb2 : TipaSsm.KzgEnds V.tipa V.digest V.serF) (hsurj : ∀ t, ∃ x y, e x y = t) (k : ℕ) (vk : G16VK G1 G2)
    (inputs : List (List F)) (hne : inputs ≠ []) (hrow : ∀ row ∈ inputs, row.length + 1 = vk.gammaAbc.length)
    (r : F) (hc : challenge V 0 0 0 = .ok r) (h0 : r ≠ 0) (h1 : r ≠ 1) :
    ∃ proof : AggProof F G1 G2 GT, proof.comA = 0 ∧ proof.comB = 0 ∧ proof.comC = 0 ∧ proof.aggC = 0 ∧
      proof.proofAB.gipa.steps.length = k + 1 ∧ proof.proofC.gipa.steps.length = k + 1 ∧
      verify V ⟨0, 0, 0, 0⟩ vk inputs proof = .ok true := by
  obtain ⟨x, y, hxy⟩ := hsurj ((powers r inputs.length).sum • e vk.alpha vk.beta
      + e (dot (fun (x : F) (row : List F) => x • dot (fun s g => s • g) (1 :: row) vk.gammaAbc)
          (powers r inputs.length) inputs) vk.gamma + e 0 vk.delta)
  obtain ⟨pab, l1, -, -, -, hab⟩ := Tipa.C142_tipa (V := V.tipa) (pairingAB_lawful V hE) hE hd hs1 hrb1 r h0 k PUnit.unit
    x y 0 0 0 0
  obtain ⟨b', h⟩ := TipaSsm.C142_ssm (V := V.tipa) (multiexpSsm_lawful V hE) hE hd hs2 hrb2 V.X k PUnit.unit r
  obtain ⟨pc, l2, -, -, hC⟩ := h 0 0 0 0 0
  have hab' : Tipa.verifyWithShift V.tipa V.pairingAB ⟨0, 0, 0, 0⟩ PUnit.unit (0, 0, ⟨[e x y]⟩) pab r = .ok true := by
    rw [← hab]
    congr 1
    simp [idψ]
  have hC' : TipaSsm.verify V.X V.tipa V.multiexpSsm ⟨0, 0, 0, 0⟩ PUnit.unit 0 ⟨[0]⟩ r pc = .ok true := by
    rw [← hC]
    simp [idψ]
  refine ⟨⟨0, 0, 0, e x y, 0, pab, pc⟩, rfl, rfl, rfl, rfl, l1, l2, ?_⟩
  have hppe : verifyPpe V vk inputs r (e x y) 0 = .ok true := by
    rw [verifyPpe_iff hE vk inputs hne hrow r h1, hxy]
    simp
  rw [verify, hc]
  simp only [ok_bind]
  rw [hab', hC', hppe]
  rfl

/-- C142: a verifying key without `gamma` does not look at the inputs. -/
theorem C142_gamma (hE : V.E.Lawful e) (vk : G16VK G1 G2) (hγ : vk.gamma = 0) (inputs inputs' : List (List F))
    (hne : inputs ≠ []) (hl : inputs.length = inputs'.length)
    (hrow : ∀ row ∈ inputs, row.length + 1 = vk.gammaAbc.length)
    (hrow' : ∀ row ∈ inputs', row.length + 1 = vk.gammaAbc.length) (v : VerifierSRS G1 G2) (proof : AggProof F G1 G2 GT)
    (hr : challenge V proof.comA proof.comB proof.comC ≠ .ok 1) :
    verify V v vk inputs proof = verify V v vk inputs' proof := by
  have hne' : inputs' ≠ [] := by
    rintro rfl
    exact hne (List.length_eq_zero_iff.mp hl)
  rw [verify, verify]
  cases hc : challenge V proof.comA proof.comB proof.comC with
  | error => rfl
  | ok r =>
    have h1 : r ≠ 1 := by
      rintro rfl
      exact hr hc
    simp only [ok_bind]
    rw [verifyPpe_iff hE vk inputs hne hrow r h1, verifyPpe_iff hE vk inputs' hne' hrow' r h1, hγ, hl]
    simp

end Groth16

/-! ## Examples -/

/-- The commitment to zero opens to 9, at any point. -/
example (z : Toy.F) : Kzg.verify Toy.E ⟨0, 0, 0, 0⟩ (0 : Toy.F) z (9 : Toy.F) 0 = .ok true := Kzg.C142_kzg Toy.lawful 0 0 0 0 z 9

/-- One proof opens the commitment `2 · 3` at `(4, 5)` to 8 and to 9. -/
example : ∃ proof, Bivariate.verify Toy.env ⟨0, 0, 0, 0⟩ 6 (4, 5) 8 proof = .ok true ∧
    Bivariate.verify Toy.env ⟨0, 0, 0, 0⟩ 6 (4, 5) 9 proof = .ok true := by
  obtain ⟨proof, -, h⟩ := Bivariate.C142_bivariate (V := Toy.env) Toy.lawful Toy.digest_length
    (searchEnds_of_digest _ Toy.digest_length Toy.digest_ne_zero) Toy.ssmKzgEnds 1 (2 : Toy.F) (3 : Toy.F) (4, 5)
  exact ⟨proof, h 8, h 9⟩

/-- An aggregate for the inputs 1, 2, 3, 100, although nobody has a proof for 100. -/
example : ∃ proof, proof.aggC = 0 ∧
    Groth16.verify Toy.env ⟨0, 0, 0, 0⟩ Groth16.toyVK [[1], [2], [3], [100]] proof = .ok true := by
  obtain ⟨proof, -, -, -, h1, -, -, h2⟩ := Groth16.C142_groth16 (V := Toy.env) Toy.lawful Toy.digest_length
    (searchEnds_of_digest _ Toy.digest_length Toy.digest_ne_zero)
    (searchEnds_of_digest _ Toy.digest_length Toy.digest_ne_zero) Toy.kzgEnds Toy.ssmKzgEnds
    (fun t => ⟨t, 1, by simp [Toy.e]⟩) 1 Groth16.toyVK [[1], [2], [3], [100]] (by simp) (by simp [Groth16.toyVK]) 3
    (Groth16.challenge_toy 0 0 0) (by decide) (by decide)
  exact ⟨proof, h1, h2⟩

end Ripp
