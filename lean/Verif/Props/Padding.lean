import Verif.Props.TipaLength
import Verif.Props.Ssm
import Verif.Props.Sipp
import Verif.Props.Groth16

/-!
# C150: vectors of other lengths, padded to a power of two

The provers insist on a power of two. A caller who has `n` entries can append zeros: with the first `n` keys the commitments
and the inner product are those of the entries themselves.
-/

set_option linter.unusedSectionVars false

namespace Ripp

open Spec

section Dot
variable {F A B C : Type} [Field F] [AddCommGroup A] [Module F A] [AddCommGroup B] [Module F B] [AddCommGroup C]
    [Module F C]

/-- Zeros at the end pair with anything. -/
theorem dot_zeros_take (φ : A →ₗ[F] B →ₗ[F] C) (a : List A) (b : List B) (j : ℕ) (h : a.length ≤ b.length) :
    dot (φ · ·) (a ++ List.replicate j 0) b = dot (φ · ·) a (b.take a.length) := by
  conv_lhs => rw [← List.take_append_drop a.length b]
  exact Tipa.dot_pad φ a _ _ j (by simp [h])

end Dot

namespace Gipa

variable {ρ F MA MB T KA KB KT OA OB OT : Type} [Field F] [DecidableEq F]
  [AddCommGroup MA] [Module F MA] [AddCommGroup MB] [Module F MB]
  [AddCommGroup T] [Module F T] [AddCommGroup KA] [Module F KA] [AddCommGroup KB] [Module F KB]
  [AddCommGroup OA] [Module F OA] [AddCommGroup OB] [Module F OB] [Add OT] [SMul F OT]
  [DecidableEq T] [DecidableEq OA] [DecidableEq OB] [DecidableEq OT]
  {P : Gipa ρ F MA MB T KA KB KT OA OB OT}
  {bil : MA →ₗ[F] MB →ₗ[F] T} {φa : MA →ₗ[F] KA →ₗ[F] OA} {φb : MB →ₗ[F] KB →ₗ[F] OB} {ψ : KT → T → OT}

/-- C150: a true statement about `n ≤ N` entries and the first `n` keys is the same statement about the padded entries
and all keys; and conversely. -/
theorem C150_statement (L : P.Lawful bil φa φb ψ) (N : ℕ) (ma : List MA) (mb : List MB) (t : T) (cka : List KA)
    (ckb : List KB) (kt : KT) (com : Coms OA OB OT) (h : ma.length = mb.length) (hN : ma.length ≤ N)
    (h3 : cka.length = N) (h4 : ckb.length = N) :
    Honest P (ma ++ List.replicate (N - ma.length) 0) (mb ++ List.replicate (N - mb.length) 0) t cka ckb kt com ↔
    Honest P ma mb t (cka.take ma.length) (ckb.take mb.length) kt com := by
  have l1 : (ma ++ List.replicate (N - ma.length) (0 : MA)).length = N := by simp; omega
  have l2 : (mb ++ List.replicate (N - mb.length) (0 : MB)).length = N := by simp; omega
  have e1 : P.ip (ma ++ List.replicate (N - ma.length) 0) (mb ++ List.replicate (N - mb.length) 0) = P.ip ma mb := by
    rw [L.ip_ok _ _ (l1.trans l2.symm), L.ip_ok _ _ h, Tipa.dot_pad _ _ _ _ _ h]
  have e2 : P.lmc.commit cka (ma ++ List.replicate (N - ma.length) 0) = P.lmc.commit (cka.take ma.length) ma := by
    rw [L.lmc_ok _ _ (h3.trans l1.symm), L.lmc_ok _ _ (by simp; omega), dot_zeros_take _ _ _ _ (by omega)]
  have e3 : P.rmc.commit ckb (mb ++ List.replicate (N - mb.length) 0) = P.rmc.commit (ckb.take mb.length) mb := by
    rw [L.rmc_ok _ _ (h4.trans l2.symm), L.rmc_ok _ _ (by simp; omega), dot_zeros_take _ _ _ _ (by omega)]
  constructor
  · rintro ⟨q1, q2, q3, q4⟩
    exact ⟨e1 ▸ q1, e2 ▸ q2, e3 ▸ q3, q4⟩
  · rintro ⟨q1, q2, q3, q4⟩
    exact ⟨e1.trans q1, e2.trans q2, e3.trans q3, q4⟩

/-- C150: GIPA for `n ≤ 2^k` entries. -/
theorem C150_gipa (L : P.Lawful bil φa φb ψ) (hd : ∀ x, 16 ≤ (P.digest x).length) (k : ℕ) (ma : List MA)
    (mb : List MB) (t : T) (cka : List KA) (ckb : List KB) (kt : KT) (com : Coms OA OB OT)
    (h : ma.length = mb.length) (hN : ma.length ≤ 2 ^ k) (h3 : cka.length = 2 ^ k) (h4 : ckb.length = 2 ^ k)
    (H : Honest P ma mb t (cka.take ma.length) (ckb.take mb.length) kt com) :
    P.prove (ma ++ List.replicate (2 ^ k - ma.length) 0) (mb ++ List.replicate (2 ^ k - mb.length) 0) t cka ckb kt com =
      .error .diverge ∨
    ∃ proof, P.prove (ma ++ List.replicate (2 ^ k - ma.length) 0) (mb ++ List.replicate (2 ^ k - mb.length) 0) t
        cka ckb kt com = .ok proof ∧ P.verify cka ckb kt com proof = .ok true :=
  C11_complete L hd k _ _ t cka ckb kt com (by simp; omega) (by simp; omega) h3 h4
    ((C150_statement L _ ma mb t cka ckb kt com h hN h3 h4).mpr H)

/-- C150: the prover refuses what is not true of the entries themselves: what it proves for padded entries is the statement
about the entries and the first keys. -/
theorem C150_only_true (L : P.Lawful bil φa φb ψ) (N : ℕ) (ma : List MA) (mb : List MB) (t : T) (cka : List KA)
    (ckb : List KB) (kt : KT) (com : Coms OA OB OT) (h : ma.length = mb.length) (hN : ma.length ≤ N)
    (h3 : cka.length = N) (h4 : ckb.length = N) (proof : GipaProof MA MB OA OB OT)
    (hp : P.prove (ma ++ List.replicate (N - ma.length) 0) (mb ++ List.replicate (N - mb.length) 0) t cka ckb kt com =
      .ok proof) :
    t = dot (bil · ·) ma mb ∧ com.1 = dot (φa · ·) ma (cka.take ma.length) ∧
      com.2.1 = dot (φb · ·) mb (ckb.take mb.length) ∧ ∃ k, N = 2 ^ k := by
  obtain ⟨H, k, hk⟩ := C12_prove_only_true _ _ t cka ckb kt com proof hp
  obtain ⟨q1, q2, q3, -⟩ := (C150_statement L N ma mb t cka ckb kt com h hN h3 h4).mp H
  rw [L.ip_ok _ _ h] at q1
  rw [L.lmc_ok _ _ (by simp; omega)] at q2
  rw [L.rmc_ok _ _ (by simp; omega)] at q3
  refine ⟨(Except.ok.inj q1).symm, (Except.ok.inj q2).symm, (Except.ok.inj q3).symm, k, ?_⟩
  rw [← hk]
  simp
  omega

end Gipa

namespace Tipa

variable {ρ F MA MB T KT OA OB OT G1 G2 GT TF : Type} [Field F] [DecidableEq F]
  [AddCommGroup MA] [Module F MA] [AddCommGroup MB] [Module F MB] [AddCommGroup T] [Module F T]
  [AddCommGroup G1] [Module F G1] [AddCommGroup G2] [Module F G2]
  [AddCommGroup GT] [Module F GT] [Monoid TF] [DecidableEq GT]
  [AddCommGroup OA] [Module F OA] [AddCommGroup OB] [Module F OB] [Add OT] [SMul F OT]
  [DecidableEq T] [DecidableEq OA] [DecidableEq OB] [DecidableEq OT]
  {P : Gipa ρ F MA MB T G2 G1 KT OA OB OT} {V : TipaEnv F G1 G2 GT TF}
  {bil : MA →ₗ[F] MB →ₗ[F] T} {φa : MA →ₗ[F] G2 →ₗ[F] OA} {φb : MB →ₗ[F] G1 →ₗ[F] OB} {ψ : KT → T → OT}
  {e : G1 →ₗ[F] G2 →ₗ[F] GT}

/-- C150: TIPA for `n ≤ 2^(k+1)` entries. -/
theorem C150_tipa (L : P.Lawful bil φa φb ψ) (hE : V.E.Lawful e) (hd : ∀ x, 16 ≤ (P.digest x).length) (k : ℕ)
    (srs : SRS G1 G2) (g : G1) (h : G2) (α β : F) (hsrs : IsSrs srs g h α β (2 ^ (k + 1))) (ma : List MA)
    (mb : List MB) (t : T) (kt : KT) (com : Coms OA OB OT) (hl : ma.length = mb.length)
    (hN : ma.length ≤ 2 ^ (k + 1))
    (H : Gipa.Honest P ma mb t (srs.commitmentKeys.1.take ma.length) (srs.commitmentKeys.2.take mb.length) kt com) :
    prove V P srs (ma ++ List.replicate (2 ^ (k + 1) - ma.length) 0) (mb ++ List.replicate (2 ^ (k + 1) - mb.length) 0)
      srs.commitmentKeys.1 srs.commitmentKeys.2 kt = .error .diverge ∨
    ∃ v proof, srs.verifierKey = .ok v ∧
      prove V P srs (ma ++ List.replicate (2 ^ (k + 1) - ma.length) 0)
        (mb ++ List.replicate (2 ^ (k + 1) - mb.length) 0) srs.commitmentKeys.1 srs.commitmentKeys.2 kt = .ok proof ∧
      verify V P v kt com proof = .ok true := by
  obtain ⟨e1, e2, -⟩ := C25_keys srs g h α β _ Nat.one_le_two_pow hsrs
  exact C29_complete L hE hd k srs g h α β hsrs _ _ t kt com (by simp; omega) (by simp; omega)
    ((Gipa.C150_statement L _ ma mb t _ _ kt com hl hN (by simp [e1]) (by simp [e2])).mpr H)

end Tipa

namespace GipaSsm

variable {ρ F MA T KA KT OA OT : Type} [Field F] [DecidableEq F]
  [AddCommGroup MA] [Module F MA] [AddCommGroup T] [Module F T] [AddCommGroup KA] [Module F KA]
  [AddCommGroup OA] [Module F OA] [Add OT] [SMul F OT] [DecidableEq OA] [DecidableEq OT]
  {P : Gipa ρ F MA F T KA Placeholder KT OA F OT}
  {bil : MA →ₗ[F] F →ₗ[F] T} {φa : MA →ₗ[F] KA →ₗ[F] OA} {ψ : KT → T → OT}

/-- C150: with powers of a scalar on the other side: the powers beyond the `n`-th do not matter. -/
theorem C150_ssm_statement (L : P.Lawful bil φa 0 ψ) (N : ℕ) (ma : List MA) (b : F) (t : T) (cka : List KA) (kt : KT)
    (comA : OA) (comT : OT) (hN : ma.length ≤ N) (h3 : cka.length = N) :
    Honest P (ma ++ List.replicate (N - ma.length) 0) b cka kt comA comT t ↔
    Honest P ma b (cka.take ma.length) kt comA comT t := by
  have l1 : (ma ++ List.replicate (N - ma.length) (0 : MA)).length = N := by simp; omega
  have e1 : P.ip (ma ++ List.replicate (N - ma.length) 0)
      ((List.range (ma ++ List.replicate (N - ma.length) (0 : MA)).length).map (b ^ ·)) =
      P.ip ma ((List.range ma.length).map (b ^ ·)) := by
    rw [L.ip_ok _ _ (by simp), L.ip_ok _ _ (by simp), l1, dot_zeros_take _ _ _ _ (by simpa using hN), ← List.map_take,
      List.take_range, min_eq_left hN]
  have e2 : P.lmc.commit cka (ma ++ List.replicate (N - ma.length) 0) = P.lmc.commit (cka.take ma.length) ma := by
    rw [L.lmc_ok _ _ (h3.trans l1.symm), L.lmc_ok _ _ (by simp; omega), dot_zeros_take _ _ _ _ (by omega)]
  constructor
  · rintro ⟨q1, q2, q3⟩
    exact ⟨e1.symm.trans q1, e2.symm.trans q2, q3⟩
  · rintro ⟨q1, q2, q3⟩
    exact ⟨e1.trans q1, e2.trans q2, q3⟩

/-- C150: GIPA with structured messages for `n ≤ 2^k` entries. -/
theorem C150_ssm (L : P.Lawful bil φa 0 ψ) (hd : ∀ x, 16 ≤ (P.digest x).length) (X : Exec) (k : ℕ) (ma : List MA)
    (mb : List F) (b : F) (t : T) (cka : List KA) (kt : KT) (comA : OA) (comT : OT) (hN : ma.length ≤ 2 ^ k)
    (h3 : cka.length = 2 ^ k) (hmb : structuredScalarPower (2 ^ k) b = .ok mb)
    (H : Honest P ma b (cka.take ma.length) kt comA comT t) :
    prove P (ma ++ List.replicate (2 ^ k - ma.length) 0) mb cka kt = .error .diverge ∨
    ∃ proof, prove P (ma ++ List.replicate (2 ^ k - ma.length) 0) mb cka kt = .ok proof ∧
      verify X P cka kt comA comT b proof = .ok true :=
  C33_complete L hd X k _ mb b t cka kt comA comT (by simp; omega) h3 hmb
    ((C150_ssm_statement L _ ma b t cka kt comA comT hN h3).mpr H)

end GipaSsm

namespace TipaSsm

variable {ρ F MA T KT OA OT G1 G2 GT TF : Type} [Field F] [DecidableEq F]
  [AddCommGroup MA] [Module F MA] [AddCommGroup T] [Module F T]
  [AddCommGroup G1] [Module F G1] [AddCommGroup G2] [Module F G2]
  [AddCommGroup GT] [Module F GT] [Monoid TF] [DecidableEq GT]
  [AddCommGroup OA] [Module F OA] [Add OT] [SMul F OT] [DecidableEq OA] [DecidableEq OT]
  {P : Gipa ρ F MA F T G2 Placeholder KT OA F OT} {V : TipaEnv F G1 G2 GT TF}
  {bil : MA →ₗ[F] F →ₗ[F] T} {φa : MA →ₗ[F] G2 →ₗ[F] OA} {ψ : KT → T → OT} {e : G1 →ₗ[F] G2 →ₗ[F] GT}

/-- C150: TIPA with structured messages for `n ≤ 2^(k+1)` entries. -/
theorem C150_tipa_ssm (L : P.Lawful bil φa 0 ψ) (hE : V.E.Lawful e) (hd : ∀ x, 16 ≤ (P.digest x).length) (X : Exec)
    (k : ℕ) (srs : SRS G1 G2) (g : G1) (h : G2) (α β : F) (hsrs : IsSrs srs g h α β (2 ^ (k + 1))) (ma : List MA)
    (mb : List F) (b : F) (t : T) (kt : KT) (comA : OA) (comT : OT) (hN : ma.length ≤ 2 ^ (k + 1))
    (hmb : structuredScalarPower (2 ^ (k + 1)) b = .ok mb)
    (H : GipaSsm.Honest P ma b (srs.commitmentKeys.1.take ma.length) kt comA comT t) :
    prove V P srs (ma ++ List.replicate (2 ^ (k + 1) - ma.length) 0) mb srs.commitmentKeys.1 kt = .error .diverge ∨
    ∃ v proof, srs.verifierKey = .ok v ∧
      prove V P srs (ma ++ List.replicate (2 ^ (k + 1) - ma.length) 0) mb srs.commitmentKeys.1 kt = .ok proof ∧
      verify X V P v kt comA comT b proof = .ok true := by
  obtain ⟨e1, -, -⟩ := C25_keys srs g h α β _ Nat.one_le_two_pow hsrs
  exact C34_complete L hE hd X k srs g h α β (IsSrs.left Nat.one_le_two_pow hsrs) _ mb b t kt comA comT
    (by simp; omega) hmb ((GipaSsm.C150_ssm_statement L _ ma b t _ kt comA comT hN (by simp [e1])).mpr H)

end TipaSsm

namespace Sipp

variable {σ F G1 G2 GT TF : Type} [Field F] [AddCommGroup G1] [Module F G1] [AddCommGroup G2] [Module F G2]
  [AddCommGroup GT] [Module F GT] [Monoid TF] {V : Env σ F G1 G2 GT TF} {e : G1 →ₗ[F] G2 →ₗ[F] GT}

/-- C150: padding does not change a product of pairings, whatever coefficients are added; zeros on one side are enough. -/
theorem C150_product (e : G1 →ₗ[F] G2 →ₗ[F] GT) (a : List G1) (b b' : List G2) (r r' : List F) (j : ℕ)
    (h : a.length = b.length) (hr : a.length = r.length) :
    product e (a ++ List.replicate j 0) (b ++ b') (r ++ r') = product e a b r := by
  rw [product, product, List.zipWith_append hr]
  have hz : ∀ (j : ℕ) (r' : List F), List.zipWith (fun (a : G1) (r : F) => r • a) (List.replicate j 0) r' =
      List.replicate (min j r'.length) 0 := by
    intro j
    induction j with
    | zero => simp
    | succ j ih =>
      intro r'
      cases r' with
      | nil => simp
      | cons x xs => rw [List.replicate_succ, List.zipWith_cons_cons, ih, smul_zero]; simp [← List.replicate_succ]
  rw [hz]
  exact Tipa.dot_pad e _ _ _ _ (by simp [h, ← hr])

/-- C150: SIPP for `n ≤ 2^k` pairs: the verifier, given the padded vectors, accepts the honest proof for the product of the
`n` pairs, unless a challenge is zero. -/
theorem C150_sipp [DecidableEq F] [DecidableEq GT] (hE : V.E.Lawful e) (k : ℕ) (hk : 1 ≤ k) (a : List G1) (b : List G2)
    (r : List F) (h : a.length = b.length) (hr : a.length = r.length) (hN : a.length ≤ 2 ^ k) :
    let a' := a ++ List.replicate (2 ^ k - a.length) 0
    let b' := b ++ List.replicate (2 ^ k - b.length) 0
    let r' := r ++ List.replicate (2 ^ k - r.length) 0
    ∃ zs : List (GT × GT), zs.length ≤ k ∧
      ((prove V a' b' r' (product e a b r) = panic' .unwrap ∧
        (0 : F) ∈ (challenges V (Rng.fromSeed V (seedBytes V a' b' r' (product e a b r))) zs : List F)) ∨
      (prove V a' b' r' (product e a b r) = .ok zs ∧ zs.length = k ∧
        verify V a' b' r' (product e a b r) zs = .ok true)) := by
  intro a' b' r'
  have := C55_complete (V := V) hE k hk a' b' r' (by simp [a']; omega) (by simp [b']; omega) (by simp [r']; omega)
  rw [show product e a' b' r' = product e a b r from C150_product e a b _ r _ _ h hr] at this
  exact this

/-- C150: a false value for `n` pairs stays false for the padded vectors, so the soundness of SIPP (C58) is that for the
pairs themselves. -/
theorem C150_sipp_sound [DecidableEq F] [DecidableEq GT] (e : G1 →ₗ[F] G2 →ₗ[F] GT) (k : ℕ) (a : List G1) (b : List G2)
    (r : List F) (value : GT) (h : a.length = b.length) (hr : a.length = r.length) (hN : a.length ≤ 2 ^ k)
    (hv : value ≠ product e a b r) (S : Finset F) (hS : ∀ x ∈ S, x ≠ 0) (st : List F → GT × GT) :
    S.card * ((Fintype.piFinset fun _ : Fin k => S).filter fun xs =>
      Equation e (a ++ List.replicate (2 ^ k - a.length) 0) (b ++ List.replicate (2 ^ k - b.length) 0)
        (r ++ List.replicate (2 ^ k - r.length) 0) value (List.ofFn xs)
        ((List.range k).map fun j => st ((List.ofFn xs).take j))).card ≤
      2 * k * (Fintype.piFinset fun _ : Fin k => S).card :=
  C58_fraction e k _ _ _ value (by simp; omega) (by simp; omega) (by simp; omega)
    (by rw [C150_product e a b _ r _ _ h hr]; exact hv) S hS st

end Sipp

namespace Groth16

variable {ρ F G1 G2 GT TF : Type} [Field F] [DecidableEq F] [AddCommGroup G1] [Module F G1] [AddCommGroup G2]
  [Module F G2] [AddCommGroup GT] [Module F GT] [Monoid TF] [DecidableEq G1] [DecidableEq GT] {V : Env ρ F G1 G2 GT TF}
  {e : G1 →ₗ[F] G2 →ₗ[F] GT}

/-- C150: any number of Groth16 proofs can be aggregated by repeating one of them together with its inputs.
(Zero proofs without rows of inputs are accepted too: C65.) -/
theorem C150_groth16 (hE : V.E.Lawful e) (hd : ∀ x, 16 ≤ (V.digest x).length) (k : ℕ) (srs : SRS G1 G2) (g : G1) (h : G2)
    (α β : F) (hsrs : IsSrs srs g h α β (2 ^ (k + 1))) (vk : G16VK G1 G2) (proofs : List (G16Proof G1 G2))
    (inputs : List (List F)) (p : G16Proof G1 G2) (x : List F) (hN : proofs.length + 1 ≤ 2 ^ (k + 1))
    (hv : List.Forall₂ (Valid e vk) (proofs ++ [p]) (inputs ++ [x])) :
    let proofs' := proofs ++ List.replicate (2 ^ (k + 1) - proofs.length) p
    let inputs' := inputs ++ List.replicate (2 ^ (k + 1) - inputs.length) x
    (∀ r, challenge V (dot (e · ·) (proofs'.map (·.a)) srs.commitmentKeys.1)
      (dot (e · ·) srs.commitmentKeys.2 (proofs'.map (·.b)))
      (dot (e · ·) (proofs'.map (·.c)) srs.commitmentKeys.1) = .ok r → r ≠ 0 ∧ r ≠ 1) →
    List.Forall₂ (Valid e vk) proofs' inputs' ∧
    (aggregate V srs proofs' = .error .diverge ∨
    ∃ v proof, srs.verifierKey = .ok v ∧ aggregate V srs proofs' = .ok proof ∧
      verify V v vk inputs' proof = .ok true) := by
  intro proofs' inputs' hr
  have hl : proofs.length = inputs.length := by simpa using hv.length_eq
  have hv1 : List.Forall₂ (Valid e vk) proofs inputs := by
    have := List.forall₂_take proofs.length hv
    simpa [hl] using this
  have hpx : Valid e vk p x := by
    have := List.forall₂_drop proofs.length hv
    simpa [hl] using this
  have hrep : ∀ j, List.Forall₂ (Valid e vk) (List.replicate j p) (List.replicate j x) := by
    intro j
    induction j with
    | zero => exact .nil
    | succ j ih => exact .cons hpx ih
  have hv' : List.Forall₂ (Valid e vk) proofs' inputs' := by
    simp only [proofs', inputs', ← hl]
    exact List.rel_append hv1 (hrep _)
  exact ⟨hv', C49_complete hE hd k srs g h α β hsrs vk proofs' inputs' (by simp [proofs']; omega) hv' hr⟩

end Groth16

/-! ## Examples -/

/-- Three entries and keys for four. -/
example : ∃ proof, Toy.env.pairingAB.prove [1, 2, 3, 0] [5, 6, 7, 0] 38 [2, 3, 4, 9] [1, 4, 2, 8] PUnit.unit
      (20, 43, ⟨[38]⟩) = .ok proof ∧
    Toy.env.pairingAB.verify [2, 3, 4, 9] [1, 4, 2, 8] PUnit.unit (20, 43, ⟨[38]⟩) proof = .ok true :=
  Gipa.C11_complete_total (pairingAB_lawful Toy.env Toy.lawful) Toy.digest_length
    (searchEnds_of_digest _ Toy.digest_length Toy.digest_ne_zero) 2 [1, 2, 3, 0] [5, 6, 7, 0] 38 [2, 3, 4, 9] [1, 4, 2, 8]
    PUnit.unit (20, 43, ⟨[38]⟩) rfl rfl rfl rfl
    ((Gipa.C150_statement (pairingAB_lawful Toy.env Toy.lawful) 4 [1, 2, 3] [5, 6, 7] 38 [2, 3, 4, 9] [1, 4, 2, 8]
      PUnit.unit (20, 43, ⟨[38]⟩) rfl (by decide) rfl rfl).mpr
        ⟨by decide +kernel, by decide +kernel, by decide +kernel, by decide +kernel⟩)

/-- Three pairings, with anything opposite the zero. -/
example (b r : Toy.F) : Sipp.product Toy.e [1, 2, 3, 0] [5, 6, 7, b] [1, 1, 2, r] = 59 :=
  (Sipp.C150_product Toy.e [1, 2, 3] [5, 6, 7] [b] [1, 1, 2] [r] 1 rfl rfl).trans (by decide +kernel)

end Ripp
