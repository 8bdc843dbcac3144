import Verif.Model.GipaInstances
import Verif.Model.Transparent
import Verif.Lemmas.GipaMain
import Verif.Toy

/-! # The instantiations are lawful -/

set_option linter.unusedSectionVars false

namespace Ripp

open Spec

/-- Commitment to one inner product value by the identity commitment. -/
def idψ {T : Type} (_ : Placeholder) (t : T) : IdentityOutput T := ⟨[t]⟩

theorem idψ_add {T : Type} [Add T] (k : Placeholder) (t t' : T) :
    idψ k (t + t') = idψ k t + idψ k t' := rfl

theorem idψ_smul {F T : Type} [SMul F T] (k : Placeholder) (c : F) (t : T) :
    idψ k (c • t) = c • idψ k t := rfl

theorem dot_const_zero {A B C : Type} [AddMonoid C] : ∀ (a : List A) (b : List B),
    dot (fun _ _ => (0 : C)) a b = 0
  | [], b => by simp
  | a :: as, [] => by simp
  | a :: as, b :: bs => by simp [dot_const_zero as bs]

variable {ρ F G1 G2 GT TF : Type} [Field F] [DecidableEq F]
  [AddCommGroup G1] [Module F G1] [AddCommGroup G2] [Module F G2]
  [AddCommGroup GT] [Module F GT] [Monoid TF]

theorem pairingAB_lawful (V : Env ρ F G1 G2 GT TF) {e : G1 →ₗ[F] G2 →ₗ[F] GT}
    (hE : V.E.Lawful e) : V.pairingAB.Lawful e e e.flip idψ where
  ip_ok a b h := pairingIP_eq hE V.X a b h
  lmc_ok k m h := pairingIP_eq hE V.X m k h.symm
  rmc_ok k m h := by
    change pairingIP V.E V.X k m = _
    rw [pairingIP_eq hE V.X k m h, dot_swap]; rfl
  ipc_ok _ _ := rfl
  ψ_add := idψ_add
  ψ_smul k c t := idψ_smul k c t

theorem multiexpGipa_lawful (V : Env ρ F G1 G2 GT TF) {e : G1 →ₗ[F] G2 →ₗ[F] GT}
    (hE : V.E.Lawful e) : V.multiexpGipa.Lawful (smulMap F G1) e (LinearMap.lsmul F G1) idψ where
  ip_ok a b h := multiexpIP_eq a b h
  lmc_ok k m h := pairingIP_eq hE V.X m k h.symm
  rmc_ok k m h := by
    change multiexpIP k m = _
    rw [multiexpIP_eq k m h, dot_swap]; rfl
  ipc_ok _ _ := rfl
  ψ_add := idψ_add
  ψ_smul k c t := idψ_smul k c t

theorem scalarGipa_lawful (V : Env ρ F G1 G2 GT TF) :
    V.scalarGipa.Lawful (mulMap F) (LinearMap.lsmul F G2) (LinearMap.lsmul F G2) idψ where
  ip_ok a b h := scalarIP_eq V.X a b h
  lmc_ok k m h := by
    change multiexpIP k m = _
    rw [multiexpIP_eq k m h, dot_swap]; rfl
  rmc_ok k m h := by
    change multiexpIP k m = _
    rw [multiexpIP_eq k m h, dot_swap]; rfl
  ipc_ok _ _ := rfl
  ψ_add := idψ_add
  ψ_smul k c t := idψ_smul k c t

theorem scalarTipa_lawful (V : Env ρ F G1 G2 GT TF) :
    V.scalarTipa.Lawful (mulMap F) (LinearMap.lsmul F G2) (LinearMap.lsmul F G1) idψ where
  ip_ok a b h := scalarIP_eq V.X a b h
  lmc_ok k m h := by
    change multiexpIP k m = _
    rw [multiexpIP_eq k m h, dot_swap]; rfl
  rmc_ok k m h := by
    change multiexpIP k m = _
    rw [multiexpIP_eq k m h, dot_swap]; rfl
  ipc_ok _ _ := rfl
  ψ_add := idψ_add
  ψ_smul k c t := idψ_smul k c t

theorem multiexpSsm_lawful (V : Env ρ F G1 G2 GT TF) {e : G1 →ₗ[F] G2 →ₗ[F] GT}
    (hE : V.E.Lawful e) : V.multiexpSsm.Lawful (smulMap F G1) e 0 idψ where
  ip_ok a b h := multiexpIP_eq a b h
  lmc_ok k m h := pairingIP_eq hE V.X m k h.symm
  rmc_ok k m h := by
    change Except.ok 0 = _
    simp [dot_const_zero]
  ipc_ok _ _ := rfl
  ψ_add := idψ_add
  ψ_smul k c t := idψ_smul k c t

theorem scalarSsm_lawful (V : Env ρ F G1 G2 GT TF) :
    V.scalarSsm.Lawful (mulMap F) (LinearMap.lsmul F G1) 0 idψ where
  ip_ok a b h := scalarIP_eq V.X a b h
  lmc_ok k m h := by
    change multiexpIP k m = _
    rw [multiexpIP_eq k m h, dot_swap]; rfl
  rmc_ok k m h := by
    change Except.ok 0 = _
    simp [dot_const_zero]
  ipc_ok _ _ := rfl
  ψ_add := idψ_add
  ψ_smul k c t := idψ_smul k c t

/-- If the digest, read as a field element, is never zero, every search ends at nonce 0. -/
theorem searchEnds_of_digest {MA MB T KA KB KT OA OB OT : Type}
    (P : Gipa ρ F MA MB T KA KB KT OA OB OT) (hd : ∀ x, 16 ≤ (P.digest x).length)
    (h : ∀ x, ((beNat ((P.digest x).take 16) : ℕ) : F) ≠ 0) : P.SearchEnds := by
  intro prev com1 com2
  have hlt : ¬ (P.digest (P.hashInput 0 prev com1 com2)).length < 16 := by
    have := hd (P.hashInput 0 prev com1 com2); omega
  have : P.challengeAttempt prev com1 com2 0 =
      .ok (some ((((beNat ((P.digest (P.hashInput 0 prev com1 com2)).take 16) : ℕ) : F))⁻¹,
        ((beNat ((P.digest (P.hashInput 0 prev com1 com2)).take 16) : ℕ) : F))) := by
    simp only [Gipa.challengeAttempt, if_neg hlt, inverse_of_ne (h _)]
  rw [Gipa.challenge, show nonceLimit = (nonceLimit - 1) + 1 by decide, searchNonce, this]
  simp

theorem Toy.digest_length (x : Bytes) : 16 ≤ (Toy.digest x).length := by simp [Toy.digest]

theorem Toy.digest_ne_zero (x : Bytes) :
    ((beNat ((Toy.digest x).take 16) : ℕ) : Toy.F) ≠ 0 := by
  simp only [Toy.digest]; decide

end Ripp
