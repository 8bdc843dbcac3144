import Verif.Lemmas.Basic
import Verif.Toy

/-!
# C153: digests shorter than 16 bytes, and what GIPA uses of a digest

SIPP asks for a digest of 32 bytes in its types (`D: Digest<OutputSize = U32>`, `sipp/src/lib.rs:36-40`); the other crate takes
any `D: Digest` and cuts 16 bytes out of its output at run time.
-/

namespace Ripp

/-- A digest all of whose outputs are too short. -/
def ShortDigest (d : Bytes → Bytes) : Prop := ∀ x, (d x).length < 16

theorem searchNonce_first {α : Type} (f : ℕ → Res (Option α)) (e : Fault) (h : f 0 = .error e) :
    searchNonce f nonceLimit 0 = .error e := by
  obtain ⟨k, hk⟩ : ∃ k, nonceLimit = k + 1 := ⟨nonceLimit - 1, by rw [nonceLimit]; norm_num⟩
  rw [hk, searchNonce, h]

section Gipa

variable {ρ F MA MB T KA KB KT OA OB OT : Type} [Field F] [DecidableEq F]

/-- C153: with a short digest every challenge panics. -/
theorem C153_challenge (P : Gipa ρ F MA MB T KA KB KT OA OB OT) (hd : ShortDigest P.digest) (prev : F)
    (com1 com2 : Coms OA OB OT) : P.challenge prev com1 com2 = panic' .bounds := by
  rw [Gipa.challenge]
  refine searchNonce_first _ _ ?_
  rw [Gipa.challengeAttempt]
  exact if_pos (hd _)

variable [Add OA] [SMul F OA] [Add OB] [SMul F OB] [Add OT] [SMul F OT]

/-- C153: with a short digest the verifier panics on every proof with a round. -/
theorem C153_rounds (P : Gipa ρ F MA MB T KA KB KT OA OB OT) (hd : ShortDigest P.digest) (com : Coms OA OB OT)
    (proof : GipaProof MA MB OA OB OT) (hs : proof.steps ≠ []) :
    P.recursiveChallenges com proof = panic' .bounds := by
  rw [Gipa.recursiveChallenges]
  cases hr : proof.steps.reverse with
  | nil => exact absurd (List.reverse_eq_nil_iff.mp hr) hs
  | cons x rest =>
    obtain ⟨c1, c2⟩ := x
    rw [Gipa.recLoop, C153_challenge P hd]
    rfl

theorem recursive_ok_nil (P : Gipa ρ F MA MB T KA KB KT OA OB OT) (hd : ShortDigest P.digest) (com : Coms OA OB OT)
    (proof : GipaProof MA MB OA OB OT) (x : Coms OA OB OT × List F) (h : P.recursiveChallenges com proof = .ok x) :
    proof.steps = [] ∧ x = (com, []) := by
  by_cases hs : proof.steps = []
  · refine ⟨hs, ?_⟩
    rw [Gipa.recursiveChallenges, hs] at h
    exact (Except.ok.inj h).symm
  · rw [C153_rounds P hd com proof hs] at h
    cases h

variable [AddCommGroup KA] [Module F KA] [AddCommGroup KB] [Module F KB]
  [DecidableEq OA] [DecidableEq OB] [DecidableEq OT]

/-- C153: with a short digest `GIPA::verify` gives a verdict only on proofs without rounds. -/
theorem C153_gipa_verify (P : Gipa ρ F MA MB T KA KB KT OA OB OT) (hd : ShortDigest P.digest) (cka : List KA) (ckb : List KB)
    (ckt : KT) (com : Coms OA OB OT) (proof : GipaProof MA MB OA OB OT) (b : Bool)
    (h : P.verify cka ckb ckt com proof = .ok b) : proof.steps = [] := by
  rw [Gipa.verify] at h
  split at h
  · cases h
  · obtain ⟨x, hx, -⟩ := bind_eq_ok.mp h
    exact (recursive_ok_nil P hd com proof x hx).1

end Gipa

section Prove

variable {ρ F MA MB T KA KB KT OA OB OT : Type} [Field F] [DecidableEq F]
  [AddCommGroup MA] [Module F MA] [AddCommGroup MB] [Module F MB]
  [AddCommGroup KA] [Module F KA] [AddCommGroup KB] [Module F KB]

theorem proveRound_short (P : Gipa ρ F MA MB T KA KB KT OA OB OT) (hd : ShortDigest P.digest) (ckt : List KT)
    (st st' : ProveState F MA MB KA KB OA OB OT) : P.proveRound ckt st ≠ .ok st' := by
  intro h
  rw [Gipa.proveRound] at h
  simp only [bind_eq_ok, C153_challenge P hd] at h
  obtain ⟨_, _, _, _, _, _, _, _, _, _, _, _, _, _, _, _, _, _, _, _, _, _, _, _, _, _, _, _, _, _, _, _, _, h, _⟩ := h
  cases h

/-- C153: with a short digest no prover but that for single elements returns a proof, and that has no rounds. -/
theorem C153_gipa_prove (P : Gipa ρ F MA MB T KA KB KT OA OB OT) (hd : ShortDigest P.digest) (ma : List MA) (mb : List MB)
    (cka : List KA) (ckb : List KB) (ckt : List KT) (x : GipaProof MA MB OA OB OT × GipaAux F KA KB)
    (h : P.proveWithAux ma mb cka ckb ckt = .ok x) : ma.length = 1 ∧ x.1.steps = [] ∧ x.2.transcript = [] := by
  rw [Gipa.proveWithAux] at h
  obtain ⟨_, -, h⟩ := bind_eq_ok.mp h
  rw [Gipa.proveLoop.eq_def] at h
  simp only at h
  by_cases h1 : ma.length = 1
  · rw [if_pos h1] at h
    simp only [bind_eq_ok] at h
    obtain ⟨_, _, _, _, _, _, _, _, h⟩ := h
    cases h
    exact ⟨h1, rfl, rfl⟩
  · rw [if_neg h1] at h
    split at h
    · cases h
    · obtain ⟨st, hst, -⟩ := bind_eq_ok.mp h
      exact absurd hst (proveRound_short P hd ckt _ st)

end Prove

section Tipa

variable {ρ F MA MB T KT OA OB OT G1 G2 GT TF : Type}

theorem tipa_kzg_nil (V : TipaEnv F G1 G2 GT TF) (d : Bytes → Bytes) (s : F → Bytes) (a : G2) (b : G1) :
    Tipa.kzgChallenge V d s [] a b = panic' .unwrap := searchNonce_first _ _ rfl

theorem ssm_kzg_nil (V : TipaEnv F G1 G2 GT TF) (d : Bytes → Bytes) (s : F → Bytes) (a : G2) :
    TipaSsm.kzgChallenge V d s [] a = panic' .unwrap := searchNonce_first _ _ rfl

variable [Field F] [DecidableEq F]
  [AddCommGroup MA] [Module F MA] [AddCommGroup MB] [Module F MB]
  [AddCommGroup G1] [Module F G1] [AddCommGroup G2] [Module F G2]

/-- C153: with a short digest TIPA's prover never returns a proof, for vectors of any length. -/
theorem C153_tipa_prove (V : TipaEnv F G1 G2 GT TF) (P : Gipa ρ F MA MB T G2 G1 KT OA OB OT) (hd : ShortDigest P.digest)
    (srs : SRS G1 G2) (ma : List MA) (mb : List MB) (cka : List G2) (ckb : List G1) (ckt : KT) (r : F)
    (p : TipaProof G1 G2 MA MB OA OB OT) : Tipa.proveWithShift V P srs ma mb cka ckb ckt r ≠ .ok p := by
  intro h
  rw [Tipa.proveWithShift] at h
  obtain ⟨x, hx, h⟩ := bind_eq_ok.mp h
  obtain ⟨-, -, ht⟩ := C153_gipa_prove P hd _ _ _ _ _ _ hx
  obtain ⟨pr, aux⟩ := x
  simp only at h ht
  rw [ht] at h
  obtain ⟨_, -, h⟩ := bind_eq_ok.mp h
  obtain ⟨_, -, h⟩ := bind_eq_ok.mp h
  rw [tipa_kzg_nil] at h
  cases h

omit [AddCommGroup G1] [Module F G1] in
/-- C153: nor does the prover with a structured message. -/
theorem C153_ssm_prove (V : TipaEnv F G1 G2 GT TF) (P : Gipa ρ F MA F T G2 Placeholder KT OA F OT)
    (hd : ShortDigest P.digest) (srs : SRS G1 G2) (ma : List MA) (mb : List F) (cka : List G2) (ckt : KT)
    (p : TipaSsmProof F G2 MA OA OT) : TipaSsm.prove V P srs ma mb cka ckt ≠ .ok p := by
  intro h
  rw [TipaSsm.prove] at h
  obtain ⟨x, hx, h⟩ := bind_eq_ok.mp h
  obtain ⟨-, -, ht⟩ := C153_gipa_prove P hd _ _ _ _ _ _ hx
  obtain ⟨pr, aux⟩ := x
  simp only at h ht
  rw [ht] at h
  obtain ⟨_, -, h⟩ := bind_eq_ok.mp h
  rw [ssm_kzg_nil] at h
  cases h

variable [DecidableEq GT] [DecidableEq OA] [DecidableEq OB] [DecidableEq OT]
  [Add OA] [SMul F OA] [Add OB] [SMul F OB] [Add OT] [SMul F OT]

omit [AddCommGroup MA] [Module F MA] [AddCommGroup MB] [Module F MB] in
/-- C153: with a short digest TIPA's verifier never gives a verdict, whatever the proof is. -/
theorem C153_tipa_verify (V : TipaEnv F G1 G2 GT TF) (P : Gipa ρ F MA MB T G2 G1 KT OA OB OT) (hd : ShortDigest P.digest)
    (v : VerifierSRS G1 G2) (ckt : KT) (com : Coms OA OB OT) (p : TipaProof G1 G2 MA MB OA OB OT) (r : F) (b : Bool) :
    Tipa.verifyWithShift V P v ckt com p r ≠ .ok b := by
  intro h
  rw [Tipa.verifyWithShift] at h
  obtain ⟨x, hx, h⟩ := bind_eq_ok.mp h
  obtain ⟨-, rfl⟩ := recursive_ok_nil P hd _ _ _ hx
  obtain ⟨_, -, h⟩ := bind_eq_ok.mp h
  simp only [tipa_kzg_nil] at h
  cases h

omit [AddCommGroup MA] [Module F MA] in
/-- C153: nor does the verifier for structured messages. -/
theorem C153_ssm_verify (X : Exec) (V : TipaEnv F G1 G2 GT TF) (P : Gipa ρ F MA F T G2 Placeholder KT OA F OT)
    (hd : ShortDigest P.digest) (v : VerifierSRS G1 G2) (ckt : KT) (comA : OA) (comT : OT) (z : F)
    (p : TipaSsmProof F G2 MA OA OT) (b : Bool) : TipaSsm.verify X V P v ckt comA comT z p ≠ .ok b := by
  intro h
  rw [TipaSsm.verify] at h
  obtain ⟨x, hx, h⟩ := bind_eq_ok.mp h
  obtain ⟨-, rfl⟩ := recursive_ok_nil P hd _ _ _ hx
  obtain ⟨_, -, h⟩ := bind_eq_ok.mp h
  simp only [ssm_kzg_nil] at h
  cases h

end Tipa

section Applications

variable {ρ F G1 G2 GT TF : Type} [Field F] [DecidableEq F]
  [AddCommGroup G1] [Module F G1] [AddCommGroup G2] [Module F G2] [Monoid TF] [DecidableEq G1]
  [AddCommGroup GT] [Module F GT] [DecidableEq GT]

/-- C153: with a short digest nothing is opened or verified, neither for polynomials in two variables nor in one. -/
theorem C153_polynomial (V : Env ρ F G1 G2 GT TF) (hd : ShortDigest V.digest) :
    (∀ srs ps coms point p, Bivariate.open_ V srs ps coms point ≠ .ok p) ∧
    (∀ v com point eval p b, Bivariate.verify V v com point eval p ≠ .ok b) ∧
    (∀ srs ps coms z p, Univariate.open_ V srs ps coms z ≠ .ok p) ∧
    (∀ v d com z eval p b, Univariate.verify V v d com z eval p ≠ .ok b) := by
  have h1 : ∀ srs ps coms point p, Bivariate.open_ V srs ps coms point ≠ .ok p := by
    intro srs ps coms point p h
    rw [Bivariate.open_] at h
    obtain ⟨_, -, h⟩ := bind_eq_ok.mp h
    obtain ⟨_, -, h⟩ := bind_eq_ok.mp h
    obtain ⟨_, -, h⟩ := bind_eq_ok.mp h
    obtain ⟨q, hq, -⟩ := bind_eq_ok.mp h
    exact C153_ssm_prove V.tipa V.multiexpSsm hd _ _ _ _ _ q hq
  have h2 : ∀ v com point eval p b, Bivariate.verify V v com point eval p ≠ .ok b := by
    intro v com point eval p b h
    rw [Bivariate.verify] at h
    obtain ⟨q, hq, -⟩ := bind_eq_ok.mp h
    exact C153_ssm_verify V.X V.tipa V.multiexpSsm hd _ _ _ _ _ _ q hq
  refine ⟨h1, h2, ?_, ?_⟩
  · intro srs ps coms z p h
    rw [Univariate.open_] at h
    obtain ⟨_, -, h⟩ := bind_eq_ok.mp h
    obtain ⟨_, -, h⟩ := bind_eq_ok.mp h
    exact h1 _ _ _ _ _ h
  · intro v d com z eval p b h
    rw [Univariate.verify] at h
    obtain ⟨_, -, h⟩ := bind_eq_ok.mp h
    exact h2 _ _ _ _ _ _ h

/-- C153: with a short digest no Groth16 proofs are aggregated and no aggregate proof is judged. -/
theorem C153_groth16 (V : Env ρ F G1 G2 GT TF) (hd : ShortDigest V.digest) :
    (∀ srs proofs p, Groth16.aggregate V srs proofs ≠ .ok p) ∧
    (∀ v vk inputs p b, Groth16.verify V v vk inputs p ≠ .ok b) := by
  constructor
  · intro srs proofs p h
    rw [Groth16.aggregate] at h
    obtain ⟨_, -, h⟩ := bind_eq_ok.mp h
    obtain ⟨_, -, h⟩ := bind_eq_ok.mp h
    obtain ⟨_, -, h⟩ := bind_eq_ok.mp h
    obtain ⟨_, -, h⟩ := bind_eq_ok.mp h
    obtain ⟨_, -, h⟩ := bind_eq_ok.mp h
    obtain ⟨_, -, h⟩ := bind_eq_ok.mp h
    obtain ⟨_, -, h⟩ := bind_eq_ok.mp h
    obtain ⟨_, -, h⟩ := bind_eq_ok.mp h
    obtain ⟨_, -, h⟩ := bind_eq_ok.mp h
    obtain ⟨_, -, h⟩ := bind_eq_ok.mp h
    obtain ⟨q, hq, -⟩ := bind_eq_ok.mp h
    exact C153_tipa_prove V.tipa V.pairingAB hd _ _ _ _ _ _ _ q hq
  · intro v vk inputs p b h
    rw [Groth16.verify] at h
    obtain ⟨_, -, h⟩ := bind_eq_ok.mp h
    obtain ⟨q, hq, -⟩ := bind_eq_ok.mp h
    exact C153_tipa_verify V.tipa V.pairingAB hd _ _ _ _ _ q hq

/-- C153: with a short digest the transparent verifier gives a verdict only on proofs without rounds. -/
theorem C153_transparent (V : Env ρ F G1 G2 GT TF) (hd : ShortDigest V.digest) (ck : List G1 × List G2) (com : GT)
    (point : F × F) (eval : F) (p : TpcProof F G1 GT) (b : Bool)
    (h : TBivariate.verify V ck com point eval p = .ok b) : p.second.steps = [] ∧ p.first.steps = [] := by
  rw [TBivariate.verify] at h
  obtain ⟨_, h1, h⟩ := bind_eq_ok.mp h
  obtain ⟨_, h2, -⟩ := bind_eq_ok.mp h
  rw [GipaSsm.verify] at h1 h2
  obtain ⟨x, hx, -⟩ := bind_eq_ok.mp h1
  obtain ⟨y, hy, -⟩ := bind_eq_ok.mp h2
  exact ⟨(recursive_ok_nil V.multiexpSsm hd _ _ x hx).1, (recursive_ok_nil V.scalarSsm hd _ _ y hy).1⟩

end Applications

/-! ## Only the first 16 bytes count in GIPA -/

section Prefix

variable {ρ F MA MB T KA KB KT OA OB OT : Type} [Field F] [DecidableEq F]

theorem challenge_prefix (P : Gipa ρ F MA MB T KA KB KT OA OB OT) (d : Bytes → Bytes)
    (h16 : ∀ x, 16 ≤ (P.digest x).length ∧ (d x).take 16 = (P.digest x).take 16) (prev : F) (com1 com2 : Coms OA OB OT) :
    ({ P with digest := d } : Gipa ρ F MA MB T KA KB KT OA OB OT).challenge prev com1 com2 = P.challenge prev com1 com2 := by
  rw [Gipa.challenge, Gipa.challenge]
  congr 1
  funext nonce
  rw [Gipa.challengeAttempt, Gipa.challengeAttempt]
  obtain ⟨hl, ht⟩ := h16 (P.hashInput nonce prev com1 com2)
  have hl' : 16 ≤ (d (P.hashInput nonce prev com1 com2)).length := by
    have := congrArg List.length ht
    rw [List.length_take, List.length_take] at this
    omega
  have e : ({ P with digest := d } : Gipa ρ F MA MB T KA KB KT OA OB OT).hashInput nonce prev com1 com2 =
      P.hashInput nonce prev com1 com2 := rfl
  simp only [e]
  rw [if_neg (by omega), if_neg (by omega), ht]

variable [AddCommGroup KA] [Module F KA] [AddCommGroup KB] [Module F KB]
  [DecidableEq OA] [DecidableEq OB] [DecidableEq OT]
  [Add OA] [SMul F OA] [Add OB] [SMul F OB] [Add OT] [SMul F OT]

/-- C153: two digests of at least 16 bytes that agree in the first 16 bytes give the same verifier of GIPA. -/
theorem C153_prefix_verify (P : Gipa ρ F MA MB T KA KB KT OA OB OT) (d : Bytes → Bytes)
    (h16 : ∀ x, 16 ≤ (P.digest x).length ∧ (d x).take 16 = (P.digest x).take 16) (cka : List KA) (ckb : List KB) (ckt : KT)
    (com : Coms OA OB OT) (proof : GipaProof MA MB OA OB OT) :
    ({ P with digest := d } : Gipa ρ F MA MB T KA KB KT OA OB OT).verify cka ckb ckt com proof =
      P.verify cka ckb ckt com proof := by
  have hrec : ∀ steps com tr, ({ P with digest := d } : Gipa ρ F MA MB T KA KB KT OA OB OT).recLoop steps com tr =
      P.recLoop steps com tr := by
    intro steps
    induction steps with
    | nil => intro com tr; rfl
    | cons s rest ih =>
      intro com tr
      obtain ⟨c1, c2⟩ := s
      rw [Gipa.recLoop, Gipa.recLoop, challenge_prefix P d h16]
      simp only [ih]
  have hr : ({ P with digest := d } : Gipa ρ F MA MB T KA KB KT OA OB OT).recursiveChallenges com proof =
      P.recursiveChallenges com proof := by
    rw [Gipa.recursiveChallenges, Gipa.recursiveChallenges, hrec]
  rw [Gipa.verify, Gipa.verify, hr]
  rfl

end Prefix

section PrefixProve

variable {ρ F MA MB T KA KB KT OA OB OT : Type} [Field F] [DecidableEq F]
  [AddCommGroup MA] [Module F MA] [AddCommGroup MB] [Module F MB]
  [AddCommGroup KA] [Module F KA] [AddCommGroup KB] [Module F KB]

/-- C153: and the same prover. -/
theorem C153_prefix_prove (P : Gipa ρ F MA MB T KA KB KT OA OB OT) (d : Bytes → Bytes)
    (h16 : ∀ x, 16 ≤ (P.digest x).length ∧ (d x).take 16 = (P.digest x).take 16) (ma : List MA) (mb : List MB)
    (cka : List KA) (ckb : List KB) (ckt : List KT) :
    ({ P with digest := d } : Gipa ρ F MA MB T KA KB KT OA OB OT).proveWithAux ma mb cka ckb ckt =
      P.proveWithAux ma mb cka ckb ckt := by
  have hround : ∀ st, ({ P with digest := d } : Gipa ρ F MA MB T KA KB KT OA OB OT).proveRound ckt st =
      P.proveRound ckt st := by
    intro st
    rw [Gipa.proveRound, Gipa.proveRound]
    simp only [challenge_prefix P d h16]
  have hloop : ∀ fuel st, ({ P with digest := d } : Gipa ρ F MA MB T KA KB KT OA OB OT).proveLoop ckt fuel st =
      P.proveLoop ckt fuel st := by
    intro fuel
    induction fuel with
    | zero => intro st; rw [Gipa.proveLoop, Gipa.proveLoop]
    | succ n ih =>
      intro st
      rw [Gipa.proveLoop, Gipa.proveLoop]
      simp only [hround, ih]
  rw [Gipa.proveWithAux, Gipa.proveWithAux, hloop]

end PrefixProve

/-! ## Examples -/

/-- A digest of 8 bytes. -/
example : ShortDigest fun _ => List.replicate 8 0 := by
  intro x
  simp

/-- The digest of the toy instance has exactly 16 bytes, so it is not short. -/
example : ¬ ShortDigest Toy.env.digest := by
  intro h
  have := h []
  revert this
  decide

example : ({ Toy.env.pairingAB with digest := fun _ => [1, 2, 3, 4, 5, 6, 7, 8] } :
    Gipa ℕ Toy.F Toy.F Toy.F Toy.F Toy.F Toy.F Placeholder Toy.F Toy.F (IdentityOutput Toy.F)).challenge 0
      (1, 2, ⟨[3]⟩) (4, 5, ⟨[6]⟩) = panic' .bounds :=
  C153_challenge _ (fun _ => by simp) _ _ _

example : ({ Toy.env.pairingAB with digest := fun x => Toy.digest x ++ [7, 7] } :
    Gipa ℕ Toy.F Toy.F Toy.F Toy.F Toy.F Toy.F Placeholder Toy.F Toy.F (IdentityOutput Toy.F)).proveWithAux
      [1, 2] [3, 4] [5, 6] [7, 8] [PUnit.unit] = Toy.env.pairingAB.proveWithAux [1, 2] [3, 4] [5, 6] [7, 8] [PUnit.unit] :=
  C153_prefix_prove Toy.env.pairingAB _ (fun _ => ⟨le_refl 16, rfl⟩) _ _ _ _ _

end Ripp
