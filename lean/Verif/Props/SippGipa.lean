import Verif.Lemmas.Sipp
import Verif.Lemmas.GipaMain
import Verif.Lemmas.GipaInstances

/-!
# C156: SIPP is the part of GIPA that concerns the inner product
-/

namespace Ripp

open Spec

section Spec
variable {F A B C : Type} [Field F] [AddCommGroup A] [Module F A] [AddCommGroup B] [Module F B]
  [AddCommGroup C] [Module F C]

/-- The crossed inner products of all rounds for given challenges: upper half with lower half and lower half with upper half,
before folding both vectors, one with the challenge and one with its inverse. -/
def crossTerms (e : A →ₗ[F] B →ₗ[F] C) : List F → List A → List B → List (C × C)
  | [], _, _ => []
  | c :: cs, a, b =>
    (dot (e · ·) (a.drop (a.length / 2)) (b.take (b.length / 2)),
      dot (e · ·) (a.take (a.length / 2)) (b.drop (b.length / 2))) ::
      crossTerms e cs (foldHalf c a) (foldHalf c⁻¹ b)

/-- C156: with nonzero challenges the crossed terms lead from the inner product of two vectors to that of their folds. -/
theorem C156_telescope (e : A →ₗ[F] B →ₗ[F] C) : ∀ (cs : List F) (a : List A) (b : List B), (∀ c ∈ cs, c ≠ 0) →
    a.length = 2 ^ cs.length → b.length = 2 ^ cs.length →
    dot (e · ·) (foldAll cs a) (foldAll (cs.map (·⁻¹)) b) =
      dot (e · ·) a b + dot (fun x (z : C × C) => x • z.1 + x⁻¹ • z.2) cs (crossTerms e cs a b)
  | [], a, b, _, _, _ => by simp [foldAll, dot]
  | c :: cs, a, b, h, ha, hb => by
    have h2 : (2 : ℕ) ^ (c :: cs).length = 2 * 2 ^ cs.length := by rw [List.length_cons, pow_succ]; ring
    rw [h2] at ha hb
    have hda : a.length / 2 = 2 ^ cs.length := by omega
    have hdb : b.length / 2 = 2 ^ cs.length := by omega
    rw [List.map_cons, foldAll, foldAll, C156_telescope e cs _ _ (fun x hx => h x (List.mem_cons_of_mem _ hx))
      (length_foldHalf _ _ _ ha) (length_foldHalf _ _ _ hb), dot_fold e c (h c List.mem_cons_self) a b _ ha hb, crossTerms,
      dot_cons, hda, hdb]
    abel

end Spec

namespace Sipp

variable {σ F G1 G2 GT TF : Type} [Field F] [DecidableEq F] [AddCommGroup G1] [Module F G1]
  [AddCommGroup G2] [Module F G2] [AddCommGroup GT] [Module F GT] [Monoid TF]
  {V : Env σ F G1 G2 GT TF} {e : G1 →ₗ[F] G2 →ₗ[F] GT}

theorem loop_crossTerms (hE : V.E.Lawful e) : ∀ (k fuel : ℕ) (a : List G1) (b : List G2) (rng : Rng σ)
    (acc zs : List (GT × GT)), a.length = 2 ^ k → b.length = 2 ^ k →
    proveLoop (F := F) V fuel (2 ^ k) a b rng acc = .ok zs →
    ∃ new, zs = acc ++ new ∧ new.length = k ∧ new = crossTerms e (challenges V rng new) a b
  | 0, fuel, a, b, rng, acc, zs, _, _, h => by
    rw [proveLoop.eq_def] at h
    simp only [pow_zero, if_true] at h
    exact ⟨[], by simpa using (Except.ok.inj h).symm, rfl, rfl⟩
  | k + 1, 0, a, b, rng, acc, zs, _, _, h => by
    have hne : ¬ (2 : ℕ) ^ (k + 1) = 1 := by have := Nat.two_pow_pos k; omega
    rw [proveLoop.eq_def] at h
    simp only [hne, if_false] at h
    cases h
  | k + 1, fuel + 1, a, b, rng, acc, zs, ha, hb, h => by
    rw [proveLoop_step hE k fuel a b rng acc ha hb] at h
    have h2 : (2 : ℕ) ^ (k + 1) = 2 * 2 ^ k := by rw [pow_succ]; ring
    have hda : a.length / 2 = 2 ^ k := by omega
    have hdb : b.length / 2 = 2 ^ k := by omega
    obtain ⟨xi, hx, h⟩ := bind_eq_ok.mp h
    by_cases h0 : (roundChallenge V rng (dot (e · ·) (a.drop (2 ^ k)) (b.take (2 ^ k)),
        dot (e · ·) (a.take (2 ^ k)) (b.drop (2 ^ k))) : F × Rng σ).1 = 0
    · rw [h0] at hx
      simp at hx
    · rw [inverse_of_ne h0] at hx
      obtain rfl := Except.ok.inj hx
      rw [zipWith_fold _ b _ (hb.trans h2)] at h
      obtain ⟨new, rfl, hl, hn⟩ := loop_crossTerms hE k fuel _ _ _ _ _ (length_foldHalf _ _ _ (ha.trans h2))
        (length_foldHalf _ _ _ (hb.trans h2)) h
      refine ⟨(dot (e · ·) (a.drop (2 ^ k)) (b.take (2 ^ k)), dot (e · ·) (a.take (2 ^ k)) (b.drop (2 ^ k))) :: new,
        by simp, by simp [hl], ?_⟩
      rw [challenges, crossTerms, hda, hdb]
      exact congrArg _ hn

/-- C156: a proof of SIPP consists of the crossed terms for its own challenges. -/
theorem C156_sipp (hE : V.E.Lawful e) (k : ℕ) (a : List G1) (b : List G2) (r : List F) (value : GT) (zs : List (GT × GT))
    (ha : a.length = 2 ^ k) (hr : 2 ^ k ≤ r.length) (h : prove V a b r value = .ok zs) :
    zs.length = k ∧ zs = crossTerms e (challenges V (Rng.fromSeed V (seedBytes V a b r value)) zs)
      (List.zipWith (fun a r => r • a) a r) b := by
  rw [prove] at h
  obtain ⟨_, h1, h⟩ := bind_eq_ok.mp h
  obtain ⟨_, -, h⟩ := bind_eq_ok.mp h
  have hb : a.length = b.length := by
    by_contra hne
    rw [assert, if_neg (by simpa using hne)] at h1
    cases h1
  rw [ha] at h
  obtain ⟨new, rfl, hl, hn⟩ := loop_crossTerms hE k _ _ b _ _ _ (by rw [List.length_zipWith]; omega) (by omega) h
  exact ⟨hl, hn⟩

end Sipp

namespace Gipa

variable {ρ F MA MB T KA KB KT OA OB OT : Type} [Field F] [DecidableEq F]
  [AddCommGroup MA] [Module F MA] [AddCommGroup MB] [Module F MB]
  [AddCommGroup T] [Module F T] [AddCommGroup KA] [Module F KA] [AddCommGroup KB] [Module F KB]
  [AddCommGroup OA] [Module F OA] [AddCommGroup OB] [Module F OB] [Add OT] [SMul F OT]
  {P : Gipa ρ F MA MB T KA KB KT OA OB OT}
  {β : MA →ₗ[F] MB →ₗ[F] T} {φa : MA →ₗ[F] KA →ₗ[F] OA} {φb : MB →ₗ[F] KB →ₗ[F] OB}
  {ψ : KT → T → OT}

theorem loop_crossTerms (L : P.Lawful β φa φb ψ) (kt : KT) : ∀ (k fuel : ℕ) (st : ProveState F MA MB KA KB OA OB OT)
    (x : GipaProof MA MB OA OB OT × GipaAux F KA KB), st.ma.length = 2 ^ k → st.mb.length = 2 ^ k →
    st.cka.length = 2 ^ k → st.ckb.length = 2 ^ k → P.proveLoop [kt] fuel st = .ok x →
    ∃ steps cs, x.1.steps = (st.steps ++ steps).reverse ∧ x.2.transcript = (st.transcript ++ cs).reverse ∧ cs.length = k ∧
      steps.map (fun s => (s.1.2.2, s.2.2.2)) = (crossTerms β cs st.ma st.mb).map (fun z => (ψ kt z.1, ψ kt z.2)) ∧
      foldAll cs st.ma = [x.1.base.1] ∧ foldAll (cs.map (·⁻¹)) st.mb = [x.1.base.2]
  | 0, fuel, st, x, h1, h2, _, _, h => by
    rw [proveLoop.eq_def] at h
    simp only at h
    rw [if_pos (by simpa using h1)] at h
    simp only [bind_eq_ok] at h
    obtain ⟨p, hp, q, hq, _, _, _, _, h⟩ := h
    obtain ⟨p', hp'⟩ := List.length_eq_one_iff.mp (h1.trans (pow_zero 2))
    obtain ⟨q', hq'⟩ := List.length_eq_one_iff.mp (h2.trans (pow_zero 2))
    rw [hp', idx_cons_zero] at hp
    rw [hq', idx_cons_zero] at hq
    cases h
    obtain rfl := Except.ok.inj hp
    obtain rfl := Except.ok.inj hq
    exact ⟨[], [], by simp, by simp, rfl, rfl, hp', hq'⟩
  | k + 1, fuel, st, x, h1, h2, h3, h4, h => by
    have e : (2 : ℕ) ^ (k + 1) = 2 * 2 ^ k := by rw [pow_succ]; ring
    rw [e] at h1 h2 h3 h4
    have hne : ¬ st.ma.length = 1 := by omega
    have hda : st.ma.length / 2 = 2 ^ k := by omega
    have hdb : st.mb.length / 2 = 2 ^ k := by omega
    rw [proveLoop.eq_def] at h
    simp only at h
    rw [if_neg hne] at h
    cases fuel with
    | zero => cases h
    | succ fuel =>
      simp only at h
      rw [proveRound_eq L kt (2 ^ k) st h1 h2 h3 h4] at h
      obtain ⟨st', hst, h⟩ := bind_eq_ok.mp h
      obtain ⟨⟨c, ci⟩, -, hst⟩ := bind_eq_ok.mp hst
      obtain rfl := Except.ok.inj hst
      obtain ⟨steps, cs, hs, ht, hl, hm, hp, hq⟩ := loop_crossTerms L kt k fuel _ x (length_foldHalf _ _ _ h1)
        (length_foldHalf _ _ _ h2) (length_foldHalf _ _ _ h3) (length_foldHalf _ _ _ h4) h
      refine ⟨(cross1 β φa φb ψ kt (2 ^ k) st.ma st.mb st.cka st.ckb, cross2 β φa φb ψ kt (2 ^ k) st.ma st.mb st.cka st.ckb)
        :: steps, c :: cs, by rw [hs]; simp [nextState], by rw [ht]; simp [nextState], by simp [hl], ?_, hp, hq⟩
      rw [List.map_cons, crossTerms, List.map_cons, hda, hdb]
      exact congrArg _ hm

/-- C156: the commitments to inner products in a proof of GIPA are those to the crossed terms for its own challenges. -/
theorem C156_gipa (L : P.Lawful β φa φb ψ) (kt : KT) (k : ℕ) (ma : List MA) (mb : List MB) (cka : List KA) (ckb : List KB)
    (h1 : ma.length = 2 ^ k) (h2 : mb.length = 2 ^ k) (h3 : cka.length = 2 ^ k) (h4 : ckb.length = 2 ^ k)
    (proof : GipaProof MA MB OA OB OT) (aux : GipaAux F KA KB) (h : P.proveWithAux ma mb cka ckb [kt] = .ok (proof, aux)) :
    aux.transcript.length = k ∧ proof.steps.reverse.map (fun s => (s.1.2.2, s.2.2.2)) =
      (crossTerms β aux.transcript.reverse ma mb).map fun z => (ψ kt z.1, ψ kt z.2) := by
  rw [proveWithAux] at h
  obtain ⟨_, -, h⟩ := bind_eq_ok.mp h
  obtain ⟨steps, cs, hs, ht, hl, hm, hp, hq⟩ := loop_crossTerms L kt k _ _ _ h1 h2 h3 h4 h
  simp only [List.nil_append] at hs ht
  rw [hs, ht, List.reverse_reverse, List.reverse_reverse]
  exact ⟨by rw [List.length_reverse]; exact hl, hm⟩

/-- C156: the base of a proof of GIPA is the fold of both vectors with its challenges. -/
theorem C156_base (L : P.Lawful β φa φb ψ) (kt : KT) (k : ℕ) (ma : List MA) (mb : List MB) (cka : List KA) (ckb : List KB)
    (h1 : ma.length = 2 ^ k) (h2 : mb.length = 2 ^ k) (h3 : cka.length = 2 ^ k) (h4 : ckb.length = 2 ^ k)
    (proof : GipaProof MA MB OA OB OT) (aux : GipaAux F KA KB) (h : P.proveWithAux ma mb cka ckb [kt] = .ok (proof, aux)) :
    foldAll aux.transcript.reverse ma = [proof.base.1] ∧
      foldAll (aux.transcript.reverse.map (·⁻¹)) mb = [proof.base.2] := by
  rw [proveWithAux] at h
  obtain ⟨_, -, h⟩ := bind_eq_ok.mp h
  obtain ⟨steps, cs, hs, ht, hl, hm, hp, hq⟩ := loop_crossTerms L kt k _ _ _ h1 h2 h3 h4 h
  simp only [List.nil_append] at ht
  rw [ht, List.reverse_reverse]
  exact ⟨hp, hq⟩

end Gipa

section Both
variable {σ ρ F G1 G2 GT TF : Type} [Field F] [DecidableEq F] [AddCommGroup G1] [Module F G1]
  [AddCommGroup G2] [Module F G2] [AddCommGroup GT] [Module F GT] [Monoid TF]
  {e : G1 →ₗ[F] G2 →ₗ[F] GT}

/-- C156: if SIPP and GIPA for pairing products get the same challenges, the elements of the SIPP proof are the inner products
in the GIPA proof, round by round. -/
theorem C156_same (W : Sipp.Env σ F G1 G2 GT TF) (hW : W.E.Lawful e) (V : Env ρ F G1 G2 GT TF) (hV : V.E.Lawful e) (k : ℕ)
    (a : List G1) (b : List G2) (r : List F) (cka : List G2) (ckb : List G1) (value : GT) (ha : a.length = 2 ^ k)
    (hb : b.length = 2 ^ k) (hr : 2 ^ k ≤ r.length) (h3 : cka.length = 2 ^ k) (h4 : ckb.length = 2 ^ k)
    (zs : List (GT × GT)) (hz : Sipp.prove W a b r value = .ok zs)
    (proof : GipaProof G1 G2 GT GT (IdentityOutput GT)) (aux : GipaAux F G2 G1)
    (hp : V.pairingAB.proveWithAux (List.zipWith (fun a r => r • a) a r) b cka ckb [PUnit.unit] = .ok (proof, aux))
    (hc : Sipp.challenges W (Sipp.Rng.fromSeed W (Sipp.seedBytes W a b r value)) zs = aux.transcript.reverse) :
    proof.steps.reverse.map (fun s => (s.1.2.2, s.2.2.2)) =
      zs.map fun z => ((⟨[z.1]⟩ : IdentityOutput GT), (⟨[z.2]⟩ : IdentityOutput GT)) := by
  obtain ⟨-, hs⟩ := Sipp.C156_sipp hW k a b r value zs ha hr hz
  obtain ⟨-, hg⟩ := Gipa.C156_gipa (pairingAB_lawful V hV) PUnit.unit k _ b cka ckb (by rw [List.length_zipWith]; omega) hb
    h3 h4 proof aux hp
  rw [hg, ← hc, ← hs]
  rfl

/-- C156: the verifier of SIPP then pairs the two elements of the base of the GIPA proof. -/
theorem C156_verify [DecidableEq GT] (W : Sipp.Env σ F G1 G2 GT TF) (hW : W.E.Lawful e) (V : Env ρ F G1 G2 GT TF)
    (hV : V.E.Lawful e) (k : ℕ) (hk : 1 ≤ k)
    (a : List G1) (b : List G2) (r : List F) (cka : List G2) (ckb : List G1) (value : GT) (ha : a.length = 2 ^ k)
    (hb : b.length = 2 ^ k) (hr : 2 ^ k ≤ r.length) (h3 : cka.length = 2 ^ k) (h4 : ckb.length = 2 ^ k)
    (zs : List (GT × GT)) (hz : zs.length = k)
    (proof : GipaProof G1 G2 GT GT (IdentityOutput GT)) (aux : GipaAux F G2 G1)
    (hp : V.pairingAB.proveWithAux (List.zipWith (fun a r => r • a) a r) b cka ckb [PUnit.unit] = .ok (proof, aux))
    (hc : Sipp.challenges W (Sipp.Rng.fromSeed W (Sipp.seedBytes W a b r value)) zs = aux.transcript.reverse) :
    Sipp.verify W a b r value zs = .ok (decide (e proof.base.1 proof.base.2 =
      value + dot (fun x (z : GT × GT) => x • z.1 + x⁻¹ • z.2) aux.transcript.reverse zs)) := by
  subst hz
  obtain ⟨hA, hB⟩ := Gipa.C156_base (pairingAB_lawful V hV) PUnit.unit zs.length _ b cka ckb
    (by rw [List.length_zipWith]; omega) hb h3 h4 proof aux hp
  have hl : aux.transcript.reverse.length = zs.length := by rw [← hc, Sipp.length_challenges]
  rw [Sipp.verify_eq hW a b r value zs hk ha hb hr _ hc.symm, ← Sipp.combined_eq a b r _ (by rw [hl]; exact ha)
    (by rw [hl]; exact hb) (by rw [hl]; exact hr), hA, hB, dot_singleton]

end Both

/-! ## Examples -/

/-- The crossed terms of `(1, 2)` and `(3, 4)`: `2 * 3` and `1 * 4`. -/
example : crossTerms Toy.e [5] [1, 2] [3, 4] = [(6, 4)] := by decide +kernel

/-- Two rounds, the challenges 2 and 5. -/
example : crossTerms Toy.e [2, 5] [1, 2, 3, 4] [1, 1, 1, 1] = [(7, 3), (15, 61)] := by decide +kernel

/-- SIPP over the small instance with a generator whose draws are those of GIPA there. -/
def Toy.sameEnv (lo : UInt64) : Sipp.Env Bool Toy.F Toy.F Toy.F Toy.F Toy.TF :=
  { E := Toy.E, X := Toy.X, digest := Toy.digest, chachaSeed := fun _ => false,
    nextU64 := fun s => if s then (0, false) else (lo, true), serF := Toy.ser, serG1 := Toy.ser, serG2 := Toy.ser,
    serGT := Toy.ser }

/-- The proof of SIPP and its challenges. -/
example : (Sipp.prove (Toy.sameEnv 34) [1, 2, 3, 4] [5, 6, 7, 8] [1, 1, 2, 3] 7).toOption = some [(1, 23), (55, 90)] ∧
    (Sipp.challenges (Toy.sameEnv 34) (Sipp.Rng.fromSeed (Toy.sameEnv 34)
      (Sipp.seedBytes (Toy.sameEnv 34) [1, 2, 3, 4] [5, 6, 7, 8] [1, 1, 2, 3] 7)) [(1, 23), (55, 90)] : List Toy.F) =
      [34, 34] := by
  decide +kernel

/-- GIPA for the scaled vector gets the same challenges and has the same inner products. -/
example : ((Toy.env.pairingAB.proveWithAux [1, 2, 6, 12] [5, 6, 7, 8] [1, 1, 1, 1] [1, 1, 1, 1]
      [PUnit.unit]).toOption.map fun x => (x.2.transcript, x.1.steps.reverse.map fun s => (s.1.2.2.vals, s.2.2.2.vals))) =
    some ([34, 34], [([1], [23]), ([55], [90])]) := by
  decide +kernel

/-- With other challenges the second rounds differ. -/
example : (Sipp.prove (Toy.sameEnv 3) [1, 2, 3, 4] [5, 6, 7, 8] [1, 1, 2, 3] 7).toOption = some [(1, 23), (43, 30)] := by
  decide +kernel

/-- The base of that proof is the fold of the vectors, and SIPP accepts the true value only. -/
example : ((Toy.env.pairingAB.proveWithAux [1, 2, 6, 12] [5, 6, 7, 8] [1, 1, 1, 1] [1, 1, 1, 1]
      [PUnit.unit]).toOption.map fun x => x.1.base) = some (5, 15) ∧
    foldAll [34, 34] ([1, 2, 6, 12] : List Toy.F) = [5] ∧ foldAll [3, 3] ([5, 6, 7, 8] : List Toy.F) = [15] ∧
    (Sipp.verify (Toy.sameEnv 34) [1, 2, 3, 4] [5, 6, 7, 8] [1, 1, 2, 3] 54 [(1, 23), (55, 90)]).toOption = some true ∧
    (Sipp.verify (Toy.sameEnv 34) [1, 2, 3, 4] [5, 6, 7, 8] [1, 1, 2, 3] 7 [(1, 23), (55, 90)]).toOption = some false := by
  decide +kernel

end Ripp
