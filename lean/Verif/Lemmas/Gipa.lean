import Verif.Model.Gipa
import Verif.Lemmas.InnerProducts

/-! # Lemmas about GIPA for an arbitrary lawful instantiation -/

set_option linter.unusedSectionVars false

namespace Ripp

open Spec

namespace Gipa

section Law
variable {ρ F MA MB T KA KB KT OA OB OT : Type}

/-- What the generic argument needs from its type parameters `IP, LMC, RMC, IPC`: on vectors of equal
length the inner product and the two commitments are the sums of the bilinear maps `β`, `φa`, `φb`,
and the commitment to a single inner product value `t` is `ψ kt t`, additive and homogeneous in `t`.
(No property of the digest and the serializers.) -/
structure Lawful [Field F] [AddCommGroup MA] [Module F MA] [AddCommGroup MB] [Module F MB]
    [AddCommGroup T] [Module F T] [AddCommGroup KA] [Module F KA] [AddCommGroup KB] [Module F KB]
    [AddCommGroup OA] [Module F OA] [AddCommGroup OB] [Module F OB] [Add OT] [SMul F OT]
    (P : Gipa ρ F MA MB T KA KB KT OA OB OT)
    (β : MA →ₗ[F] MB →ₗ[F] T) (φa : MA →ₗ[F] KA →ₗ[F] OA) (φb : MB →ₗ[F] KB →ₗ[F] OB)
    (ψ : KT → T → OT) : Prop where
  ip_ok : ∀ a b, a.length = b.length → P.ip a b = .ok (dot (β · ·) a b)
  lmc_ok : ∀ k m, k.length = m.length → P.lmc.commit k m = .ok (dot (φa · ·) m k)
  rmc_ok : ∀ k m, k.length = m.length → P.rmc.commit k m = .ok (dot (φb · ·) m k)
  ipc_ok : ∀ k t, P.ipc.commit [k] [t] = .ok (ψ k t)
  ψ_add : ∀ k t t', ψ k (t + t') = ψ k t + ψ k t'
  ψ_smul : ∀ k (c : F) t, ψ k (c • t) = c • ψ k t

end Law

section Challenge
variable {ρ F MA MB T KA KB KT OA OB OT : Type} [Field F] [DecidableEq F]
  (P : Gipa ρ F MA MB T KA KB KT OA OB OT)

theorem challenge_ok {prev : F} {com1 com2 : Coms OA OB OT} {c ci : F}
    (h : P.challenge prev com1 com2 = .ok (c, ci)) : c ≠ 0 ∧ ci = c⁻¹ := by
  refine searchNonce_ok (P := fun x : F × F => x.1 ≠ 0 ∧ x.2 = x.1⁻¹) ?_ _ _ _ h
  intro n x hx
  simp only [challengeAttempt] at hx
  split at hx
  · simp at hx
  · rename_i hlen
    by_cases h0 : ((beNat ((P.digest (P.hashInput n prev com1 com2)).take 16) : ℕ) : F) = 0
    · simp [h0] at hx
    · rw [inverse_of_ne h0] at hx
      simp only [Except.ok.injEq, Option.some.injEq] at hx
      subst hx
      exact ⟨inv_ne_zero h0, (inv_inv _).symm⟩

/-- With a digest of at least 16 bytes, the challenge search ends or tries all nonces. -/
theorem challenge_total (hd : ∀ x, 16 ≤ (P.digest x).length) (prev : F)
    (com1 com2 : Coms OA OB OT) :
    (∃ c, c ≠ 0 ∧ P.challenge prev com1 com2 = .ok (c, c⁻¹)) ∨
      P.challenge prev com1 com2 = .error .diverge := by
  have hg : P.challengeAttempt prev com1 com2 = fun n => .ok
      (match inverse ((beNat ((P.digest (P.hashInput n prev com1 com2)).take 16) : ℕ) : F) with
        | some cInv => some (cInv, ((beNat ((P.digest (P.hashInput n prev com1 com2)).take 16) : ℕ) : F))
        | none => none) := by
    funext n
    have := hd (P.hashInput n prev com1 com2)
    have hlt : ¬ (P.digest (P.hashInput n prev com1 com2)).length < 16 := by omega
    simp only [challengeAttempt, if_neg hlt]
    generalize inverse (F := F) _ = o
    cases o <;> rfl
  rcases searchNonce_total (fun n =>
      (match inverse ((beNat ((P.digest (P.hashInput n prev com1 com2)).take 16) : ℕ) : F) with
        | some cInv => some (cInv, ((beNat ((P.digest (P.hashInput n prev com1 com2)).take 16) : ℕ) : F))
        | none => none)) nonceLimit 0 with ⟨m, x, -, -, -, -, h⟩ | ⟨-, h⟩
  · left
    have h' : P.challenge prev com1 com2 = .ok x := by rw [challenge, hg]; exact h
    have := P.challenge_ok (c := x.1) (ci := x.2) h'
    exact ⟨x.1, this.1, by rw [h']; simp [← this.2]⟩
  · right
    rw [challenge, hg]; exact h

end Challenge

section Round
variable {ρ F MA MB T KA KB KT OA OB OT : Type} [Field F] [DecidableEq F]
  [AddCommGroup MA] [Module F MA] [AddCommGroup MB] [Module F MB]
  [AddCommGroup T] [Module F T] [AddCommGroup KA] [Module F KA] [AddCommGroup KB] [Module F KB]
  [AddCommGroup OA] [Module F OA] [AddCommGroup OB] [Module F OB] [Add OT] [SMul F OT]
  {P : Gipa ρ F MA MB T KA KB KT OA OB OT}
  {β : MA →ₗ[F] MB →ₗ[F] T} {φa : MA →ₗ[F] KA →ₗ[F] OA} {φb : MB →ₗ[F] KB →ₗ[F] OB}
  {ψ : KT → T → OT}

/-- The honest commitments of a statement. -/
def honestComs (β : MA →ₗ[F] MB →ₗ[F] T) (φa : MA →ₗ[F] KA →ₗ[F] OA) (φb : MB →ₗ[F] KB →ₗ[F] OB)
    (ψ : KT → T → OT) (kt : KT) (ma : List MA) (mb : List MB) (cka : List KA) (ckb : List KB) :
    Coms OA OB OT :=
  (dot (φa · ·) ma cka, dot (φb · ·) mb ckb, ψ kt (dot (β · ·) ma mb))

/-- First cross commitment of a round with halves of length `n`. -/
def cross1 (β : MA →ₗ[F] MB →ₗ[F] T) (φa : MA →ₗ[F] KA →ₗ[F] OA) (φb : MB →ₗ[F] KB →ₗ[F] OB)
    (ψ : KT → T → OT) (kt : KT) (n : ℕ) (ma : List MA) (mb : List MB) (cka : List KA)
    (ckb : List KB) : Coms OA OB OT :=
  honestComs β φa φb ψ kt (ma.drop n) (mb.take n) (cka.take n) (ckb.drop n)

/-- Second cross commitment. -/
def cross2 (β : MA →ₗ[F] MB →ₗ[F] T) (φa : MA →ₗ[F] KA →ₗ[F] OA) (φb : MB →ₗ[F] KB →ₗ[F] OB)
    (ψ : KT → T → OT) (kt : KT) (n : ℕ) (ma : List MA) (mb : List MB) (cka : List KA)
    (ckb : List KB) : Coms OA OB OT :=
  honestComs β φa φb ψ kt (ma.take n) (mb.drop n) (cka.drop n) (ckb.take n)

omit [Field F] [DecidableEq F] [Module F MA] in
theorem zipWith_fold_rev [SMul F MA] (c : F) (hi lo : List MA) :
    List.zipWith (fun a1 a2 => c • a1 + a2) hi lo = addV lo (smulV c hi) := by
  induction hi generalizing lo with
  | nil => cases lo <;> simp [addV]
  | cons x hi ih =>
    cases lo with
    | nil => simp [addV]
    | cons y lo =>
      simp only [List.zipWith_cons_cons, smulV_cons, addV_cons, ih, add_comm (c • x) y]

/-- The state after a round with challenge `c` and step commitments `com1`, `com2`. -/
def nextState (c : F) (com1 com2 : Coms OA OB OT) (st : ProveState F MA MB KA KB OA OB OT) :
    ProveState F MA MB KA KB OA OB OT :=
  { ma := foldHalf c st.ma, mb := foldHalf c⁻¹ st.mb, cka := foldHalf c⁻¹ st.cka,
    ckb := foldHalf c st.ckb, steps := st.steps ++ [(com1, com2)],
    transcript := st.transcript ++ [c] }

theorem proveRound_eq (L : P.Lawful β φa φb ψ) (kt : KT) (n : ℕ)
    (st : ProveState F MA MB KA KB OA OB OT) (h1 : st.ma.length = 2 * n)
    (h2 : st.mb.length = 2 * n) (h3 : st.cka.length = 2 * n) (h4 : st.ckb.length = 2 * n) :
    P.proveRound [kt] st =
      (P.challenge (st.transcript.getLast?.getD 0)
        (cross1 β φa φb ψ kt n st.ma st.mb st.cka st.ckb)
        (cross2 β φa φb ψ kt n st.ma st.mb st.cka st.ckb)) >>= fun p =>
        .ok (nextState p.1 (cross1 β φa φb ψ kt n st.ma st.mb st.cka st.ckb)
          (cross2 β φa φb ψ kt n st.ma st.mb st.cka st.ckb) st) := by
  have hn : st.ma.length / 2 = n := by omega
  unfold proveRound
  simp only [hn]
  rw [sliceFrom_of_le _ _ (by omega), sliceTo_of_le _ _ (by omega), sliceTo_of_le _ _ (by omega),
    sliceFrom_of_le _ _ (by omega), sliceTo_of_le _ _ (by omega), sliceFrom_of_le _ _ (by omega),
    sliceFrom_of_le _ _ (by omega), sliceTo_of_le _ _ (by omega)]
  simp only [ok_bind]
  rw [L.lmc_ok _ _ (by simp; omega), L.rmc_ok _ _ (by simp; omega), L.ip_ok _ _ (by simp; omega),
    L.lmc_ok _ _ (by simp; omega), L.rmc_ok _ _ (by simp; omega), L.ip_ok _ _ (by simp; omega)]
  simp only [ok_bind, L.ipc_ok]
  change (P.challenge (st.transcript.getLast?.getD 0)
    (cross1 β φa φb ψ kt n st.ma st.mb st.cka st.ckb)
    (cross2 β φa φb ψ kt n st.ma st.mb st.cka st.ckb) >>= _) = _
  cases hc : P.challenge (st.transcript.getLast?.getD 0)
    (cross1 β φa φb ψ kt n st.ma st.mb st.cka st.ckb)
    (cross2 β φa φb ψ kt n st.ma st.mb st.cka st.ckb) with
  | error e => rfl
  | ok p =>
    obtain ⟨c, ci⟩ := p
    have hci := (P.challenge_ok hc).2
    subst hci
    simp only [ok_bind, pure_eq_ok, nextState, zipWith_fold_rev]
    simp only [foldHalf, h1, h2, h3, h4, show 2 * n / 2 = n by omega]
    rfl

/-- One round of folding the running commitments keeps them honest. -/
theorem foldComs_honest (L : P.Lawful β φa φb ψ) (kt : KT) (n : ℕ) (c : F) (hc : c ≠ 0)
    (ma : List MA) (mb : List MB) (cka : List KA) (ckb : List KB)
    (h1 : ma.length = 2 * n) (h2 : mb.length = 2 * n) (h3 : cka.length = 2 * n)
    (h4 : ckb.length = 2 * n) :
    foldComs c c⁻¹ (honestComs β φa φb ψ kt ma mb cka ckb)
        (cross1 β φa φb ψ kt n ma mb cka ckb) (cross2 β φa φb ψ kt n ma mb cka ckb) =
      honestComs β φa φb ψ kt (foldHalf c ma) (foldHalf c⁻¹ mb) (foldHalf c⁻¹ cka)
        (foldHalf c ckb) := by
  simp only [foldComs, honestComs, cross1, cross2]
  rw [dot_fold φa c hc ma cka n h1 h3, dot_fold' φb c hc mb ckb n h2 h4,
    dot_fold β c hc ma mb n h1 h2, L.ψ_add, L.ψ_add, L.ψ_smul, L.ψ_smul]

end Round

end Gipa

end Ripp
