import Verif.Model.InnerProducts
import Verif.Lemmas.Basic
import Verif.Lemmas.Dot

/-! # Lemmas about the inner products -/

namespace Ripp

open Spec

section
variable {F G1 G2 GT TF : Type} [Field F] [AddCommGroup G1] [Module F G1] [AddCommGroup G2]
  [Module F G2] [AddCommGroup GT] [Module F GT] [Monoid TF]
  {E : Engine G1 G2 GT TF} {e : G1 →ₗ[F] G2 →ₗ[F] GT}

theorem Engine.Lawful.pairing_eq (hE : E.Lawful e) (p : G1) (q : G2) :
    E.pairing p q = .ok (e p q) := by
  simp [Engine.pairing, hE.finalExp_miller]

theorem Engine.Lawful.finalExp_prod (hE : E.Lawful e) : ∀ (a : List G1) (b : List G2),
    E.finalExp (List.zipWith E.miller a b).prod = some (dot (e · ·) a b)
  | [], b => by simp [hE.finalExp_one]
  | a :: as, [] => by simp [hE.finalExp_one]
  | a :: as, b :: bs => by
    simp only [List.zipWith_cons_cons, List.prod_cons, dot_cons]
    exact hE.finalExp_mul _ _ _ _ (hE.finalExp_miller a b) (hE.finalExp_prod as bs)

theorem chunks_nil {α : Type} (n : ℕ) : chunks n ([] : List α) = [] := by
  rw [chunks]; simp

theorem chunks_of_ne {α : Type} {n : ℕ} (hn : n ≠ 0) {xs : List α} (h : xs ≠ []) :
    chunks n xs = xs.take n :: chunks n (xs.drop n) := by
  rw [chunks]; simp [h, hn]

/-- Chunked Miller loops, multiplied together, give the whole sum after final exponentiation. -/
theorem Engine.Lawful.chunked (hE : E.Lawful e) {n : ℕ} (hn : n ≠ 0) :
    ∀ (len : ℕ) (a : List G1) (b : List G2), a.length = len → a.length = b.length →
    ∃ ml : List TF, ((chunks n a).zip (chunks n b)).mapM
        (fun (p : List G1 × List G2) => E.multiMillerLoop p.1 p.2) = .ok ml ∧
      E.finalExp ml.prod = some (dot (e · ·) a b) := by
  intro len
  induction len using Nat.strong_induction_on with
  | _ len ih =>
    intro a b hlen hab
    by_cases ha : a = []
    · subst ha
      have hb : b = [] := by simpa using hab.symm
      subst hb
      exact ⟨[], by simp [chunks_nil], by simp [hE.finalExp_one]⟩
    · have hb : b ≠ [] := by
        rintro rfl
        exact ha (by simpa using hab)
      have hpos : 0 < a.length := List.length_pos_iff.mpr ha
      obtain ⟨ml, h1, h2⟩ := ih (a.drop n).length (by simp; omega) (a.drop n) (b.drop n) rfl
        (by simp [hab])
      refine ⟨(List.zipWith E.miller (a.take n) (b.take n)).prod :: ml, ?_, ?_⟩
      · rw [chunks_of_ne hn ha, chunks_of_ne hn hb, List.zip_cons_cons, List.mapM_cons, h1]
        simp [Engine.multiMillerLoop, hab]
      · rw [List.prod_cons]
        conv_rhs => rw [← List.take_append_drop n a, ← List.take_append_drop n b]
        rw [dot_append _ _ _ _ _ (by simp [hab])]
        exact hE.finalExp_mul _ _ _ _ (hE.finalExp_prod _ _) h2

theorem pairingIP_eq (hE : E.Lawful e) (X : Exec) (a : List G1) (b : List G2)
    (h : a.length = b.length) : pairingIP E X a b = .ok (dot (e · ·) a b) := by
  have hn := (chunkSize_pos X.pos a.length).ne'
  obtain ⟨ml, h1, h2⟩ := hE.chunked hn _ a b rfl h
  unfold pairingIP cfgMultiPairing
  simp only [h, ne_eq, not_true_eq_false, if_false, pure_eq_ok]
  rw [h] at h1 hn
  simp only [hn, if_false]
  erw [h1]
  simp [parReduce_mul, h2]

omit [AddCommGroup G1] [AddCommGroup G2] [AddCommGroup GT] in
theorem pairingIP_err (E : Engine G1 G2 GT TF) (X : Exec) (a : List G1) (b : List G2)
    (h : a.length ≠ b.length) : pairingIP E X a b = .error (.ipLength a.length b.length) := by
  simp [pairingIP, h]

end

section
variable {F G : Type} [Field F] [AddCommGroup G] [Module F G]

theorem msm_eq (a : List G) (b : List F) (h : a.length = b.length) :
    msm a b = some (dot (fun g s => s • g) a b) := by
  simp [msm, h, zipWith_sum]

theorem multiexpIP_eq (a : List G) (b : List F) (h : a.length = b.length) :
    multiexpIP a b = .ok (dot (fun g s => s • g) a b) := by
  simp [multiexpIP, h, msm_eq a b h]

theorem multiexpIP_err (a : List G) (b : List F) (h : a.length ≠ b.length) :
    multiexpIP a b = .error (.ipLength a.length b.length) := by
  simp [multiexpIP, h]

theorem scalarIP_eq (X : Exec) (a b : List F) (h : a.length = b.length) :
    scalarIP X a b = .ok (dot (· * ·) a b) := by
  simp [scalarIP, h, parReduce_add, zipWith_sum]

theorem scalarIP_err (X : Exec) (a b : List F) (h : a.length ≠ b.length) :
    scalarIP X a b = .error (.ipLength a.length b.length) := by
  simp [scalarIP, h]

/-- Scalar multiplication as a bilinear map, group element first. -/
def smulMap (F G : Type) [Field F] [AddCommGroup G] [Module F G] : G →ₗ[F] F →ₗ[F] G :=
  (LinearMap.lsmul F G).flip

@[simp] theorem smulMap_apply (g : G) (s : F) : smulMap F G g s = s • g := rfl

/-- Field multiplication as a bilinear map. -/
def mulMap (F : Type) [Field F] : F →ₗ[F] F →ₗ[F] F := LinearMap.lsmul F F

@[simp] theorem mulMap_apply (a b : F) : mulMap F a b = a * b := rfl

end

end Ripp
