import Verif.Props.Tipa

/-!
# C86: the TIPA verifier does not know the length of the vectors

The verifier key does not depend on the size of the reference string, and padding with zeros changes neither
the commitments nor the inner product.
-/

namespace Ripp.Tipa

open Spec

section
variable {F G1 G2 : Type} [Field F] [AddCommGroup G1] [Module F G1] [AddCommGroup G2] [Module F G2]

/-- C86: reference strings of different sizes with the same trapdoors have the same verifier key, and the
shorter commitment keys are prefixes of the longer ones. -/
theorem C86_keys (srs srs' : SRS G1 G2) (g : G1) (h : G2) (α β : F) (n m : ℕ) (hn : 1 ≤ n) (hnm : n ≤ m)
    (hs : IsSrs srs g h α β n) (hs' : IsSrs srs' g h α β m) :
    srs.verifierKey = srs'.verifierKey ∧ srs.commitmentKeys.1 = srs'.commitmentKeys.1.take n ∧
      srs.commitmentKeys.2 = srs'.commitmentKeys.2.take n := by
  obtain ⟨a1, a2, a3⟩ := C25_keys srs g h α β n hn hs
  obtain ⟨b1, b2, b3⟩ := C25_keys srs' g h α β m (hn.trans hnm) hs'
  rw [a1, a2, a3, b1, b2, b3, ← List.map_take, ← List.map_take, List.take_range, min_eq_left hnm]
  exact ⟨rfl, rfl, rfl⟩

theorem dot_pad {A B C : Type} [AddCommGroup A] [Module F A] [AddCommGroup B] [Module F B] [AddCommGroup C]
    [Module F C] (φ : A →ₗ[F] B →ₗ[F] C) (a : List A) (b b' : List B) (j : ℕ) (hab : a.length = b.length) :
    dot (φ · ·) (a ++ List.replicate j 0) (b ++ b') = dot (φ · ·) a b := by
  rw [dot_append _ a _ b b' hab]
  have : ∀ (j : ℕ) (b' : List B), dot (φ · ·) (List.replicate j 0) b' = 0 := by
    intro j
    induction j with
    | zero => simp
    | succ j ih =>
      intro b'
      cases b' with
      | nil => simp
      | cons x xs => rw [List.replicate_succ, dot_cons, ih]; simp
  rw [this, add_zero]

end

variable {ρ F MA MB T KT OA OB OT G1 G2 GT TF : Type} [Field F] [DecidableEq F]
  [AddCommGroup MA] [Module F MA] [AddCommGroup MB] [Module F MB] [AddCommGroup T] [Module F T]
  [AddCommGroup G1] [Module F G1] [AddCommGroup G2] [Module F G2]
  [AddCommGroup GT] [Module F GT] [Monoid TF] [DecidableEq GT]
  [AddCommGroup OA] [Module F OA] [AddCommGroup OB] [Module F OB] [Add OT] [SMul F OT]
  [DecidableEq T] [DecidableEq OA] [DecidableEq OB] [DecidableEq OT]
  {P : Gipa ρ F MA MB T G2 G1 KT OA OB OT} {V : TipaEnv F G1 G2 GT TF}
  {bil : MA →ₗ[F] MB →ₗ[F] T} {φa : MA →ₗ[F] G2 →ₗ[F] OA} {φb : MB →ₗ[F] G1 →ₗ[F] OB} {ψ : KT → T → OT}
  {e : G1 →ₗ[F] G2 →ₗ[F] GT}

/-- C86: commitments to vectors of length `2^(k+1)` are also commitments to vectors of length
`2^(k+1+j)`; if the challenge searches end, the same verifier key accepts a proof with `k+1` rounds and one
with `k+1+j` rounds for them. -/
theorem C86_length_not_bound (L : P.Lawful bil φa φb ψ) (hE : V.E.Lawful e)
    (hd : ∀ x, 16 ≤ (P.digest x).length) (hse : P.SearchEnds)
    (hrb : KzgEnds V P.digest P.serF) (k j : ℕ) (srs srs' : SRS G1 G2) (g : G1)
    (h : G2) (α β : F) (hsrs : IsSrs srs g h α β (2 ^ (k + 1))) (hsrs' : IsSrs srs' g h α β (2 ^ (k + 1 + j)))
    (ma : List MA) (mb : List MB) (t : T) (kt : KT) (com : Coms OA OB OT) (h1 : ma.length = 2 ^ (k + 1))
    (h2 : mb.length = 2 ^ (k + 1))
    (H : Gipa.Honest P ma mb t srs.commitmentKeys.1 srs.commitmentKeys.2 kt com) :
    ∃ v p p', srs.verifierKey = .ok v ∧ srs'.verifierKey = .ok v ∧
      Gipa.Honest P (ma ++ List.replicate (2 ^ (k + 1 + j) - 2 ^ (k + 1)) 0)
        (mb ++ List.replicate (2 ^ (k + 1 + j) - 2 ^ (k + 1)) 0) t srs'.commitmentKeys.1
        srs'.commitmentKeys.2 kt com ∧
      verify V P v kt com p = .ok true ∧ p.gipa.steps.length = k + 1 ∧
      verify V P v kt com p' = .ok true ∧ p'.gipa.steps.length = k + 1 + j := by
  have hle : 2 ^ (k + 1) ≤ 2 ^ (k + 1 + j) := Nat.pow_le_pow_right (by norm_num) (by omega)
  obtain ⟨hv, c1, c2⟩ := C86_keys srs srs' g h α β _ _ Nat.one_le_two_pow hle hsrs hsrs'
  obtain ⟨a1, a2, a3⟩ := C25_keys srs g h α β _ Nat.one_le_two_pow hsrs
  obtain ⟨b1, b2, b3⟩ := C25_keys srs' g h α β _ Nat.one_le_two_pow hsrs'
  have la1 : srs.commitmentKeys.1.length = 2 ^ (k + 1) := by simp [a1]
  have la2 : srs.commitmentKeys.2.length = 2 ^ (k + 1) := by simp [a2]
  have lb1 : srs'.commitmentKeys.1.length = 2 ^ (k + 1 + j) := by simp [b1]
  have lb2 : srs'.commitmentKeys.2.length = 2 ^ (k + 1 + j) := by simp [b2]
  set m := 2 ^ (k + 1 + j) - 2 ^ (k + 1) with hm
  have lm : (ma ++ List.replicate m (0 : MA)).length = 2 ^ (k + 1 + j) := by simp [h1]; omega
  have lm' : (mb ++ List.replicate m (0 : MB)).length = 2 ^ (k + 1 + j) := by simp [h2]; omega
  have s1 : srs'.commitmentKeys.1 = srs.commitmentKeys.1 ++ srs'.commitmentKeys.1.drop (2 ^ (k + 1)) := by
    rw [c1, List.take_append_drop]
  have s2 : srs'.commitmentKeys.2 = srs.commitmentKeys.2 ++ srs'.commitmentKeys.2.drop (2 ^ (k + 1)) := by
    rw [c2, List.take_append_drop]
  obtain ⟨q1, q2, q3, q4⟩ := H
  have H' : Gipa.Honest P (ma ++ List.replicate m 0) (mb ++ List.replicate m 0) t srs'.commitmentKeys.1
      srs'.commitmentKeys.2 kt com := by
    refine ⟨?_, ?_, ?_, q4⟩
    · rw [L.ip_ok _ _ (lm.trans lm'.symm), dot_pad _ _ _ _ _ (h1.trans h2.symm), ← q1,
        L.ip_ok _ _ (h1.trans h2.symm)]
    · rw [L.lmc_ok _ _ (lb1.trans lm.symm), ← q2, L.lmc_ok _ _ (la1.trans h1.symm), s1]
      rw [dot_pad _ _ _ _ _ (h1.trans la1.symm)]
    · rw [L.rmc_ok _ _ (lb2.trans lm'.symm), ← q3, L.rmc_ok _ _ (la2.trans h2.symm), s2]
      rw [dot_pad _ _ _ _ _ (h2.trans la2.symm)]
  have rounds : ∀ (n : ℕ) (s : SRS G1 G2) (ma : List MA) (mb : List MB) (p : TipaProof G1 G2 MA MB OA OB OT),
      ma.length = 2 ^ n → mb.length = 2 ^ n → s.commitmentKeys.1.length = 2 ^ n →
      s.commitmentKeys.2.length = 2 ^ n →
      prove V P s ma mb s.commitmentKeys.1 s.commitmentKeys.2 kt = .ok p → p.gipa.steps.length = n := by
    intro n s ma mb p r1 r2 r3 r4 hp
    simp only [prove, proveWithShift, bind_eq_ok] at hp
    obtain ⟨⟨q, aux⟩, hq, _, _, _, _, _, _, _, _, _, _, hp⟩ := hp
    cases hp
    exact (Gipa.C15_rounds L hd n ma mb _ _ kt r1 r2 r3 r4 q aux hq).1
  have one : ∀ (n : ℕ) (s : SRS G1 G2) (ma : List MA) (mb : List MB), IsSrs s g h α β (2 ^ (n + 1)) →
      ma.length = 2 ^ (n + 1) → mb.length = 2 ^ (n + 1) →
      Gipa.Honest P ma mb t s.commitmentKeys.1 s.commitmentKeys.2 kt com →
      ∃ v p, s.verifierKey = .ok v ∧
        prove V P s ma mb s.commitmentKeys.1 s.commitmentKeys.2 kt = .ok p ∧
        verify V P v kt com p = .ok true := by
    intro n s ma mb i1 i2 i3 i4
    have := C29_complete_total (V := V) L hE hd hse hrb n s g h α β 1 one_ne_zero i1 ma mb t kt com i2 i3
      (by rw [mapIdx_one]; exact i4)
    rw [mapIdx_one] at this
    exact this
  obtain ⟨v, p, v1, v2, v3⟩ := one k srs ma mb hsrs h1 h2 ⟨q1, q2, q3, q4⟩
  have e : k + 1 + j = (k + j) + 1 := by omega
  obtain ⟨v', p', w1, w2, w3⟩ := one (k + j) srs' _ _ (e ▸ hsrs') (e ▸ lm) (e ▸ lm') H'
  have hvv : v = v' := by
    rw [hv, w1] at v1
    exact (Except.ok.inj v1).symm
  subst hvv
  exact ⟨v, p, p', v1, w1, H', v3, rounds _ _ _ _ _ h1 h2 la1 la2 v2, w3,
    rounds _ _ _ _ _ lm lm' lb1 lb2 w2⟩

/-- Two entries, also seen as four. -/
example : ∃ v p p', Tipa.verify Toy.env.tipa Toy.env.pairingAB v PUnit.unit (51, 59, ⟨[17]⟩) p = .ok true ∧
    p.gipa.steps.length = 1 ∧
    Tipa.verify Toy.env.tipa Toy.env.pairingAB v PUnit.unit (51, 59, ⟨[17]⟩) p' = .ok true ∧
    p'.gipa.steps.length = 2 := by
  have hs : IsSrs (⟨[1, 3, 9], [1, 5, 25], 5, 3⟩ : SRS Toy.F Toy.F) (1 : Toy.F) (1 : Toy.F) (3 : Toy.F) 5
      (2 ^ (0 + 1)) := ⟨by decide, by decide, by decide, by decide⟩
  obtain ⟨v, p, p', -, -, -, h⟩ := C86_length_not_bound (V := Toy.env.tipa)
    (pairingAB_lawful Toy.env Toy.lawful) Toy.lawful Toy.digest_length
    (searchEnds_of_digest _ Toy.digest_length Toy.digest_ne_zero) Toy.kzgEnds 0 1 _ Toy.srs
    (1 : Toy.F) (1 : Toy.F) 3 5 hs Toy.srs_isSrs [1, 2] [5, 6] 17 PUnit.unit (51, 59, ⟨[17]⟩) rfl rfl
    ⟨by decide +kernel, by decide +kernel, by decide +kernel, by decide +kernel⟩
  exact ⟨v, p, p', h⟩

end Ripp.Tipa
