import Verif.Props.Malleable

/-!
# C128: the placeholders in a structured-message proof with reference string are free

The right message of a structured-message argument has no commitment; every step of a proof carries two field elements
in its place. The honest prover sends zeros. They are hashed, but `TIPAWithSSM` never checks them: for every choice of
these elements there is an accepted proof of the same statement. So a prover has as many different challenges to choose
from as it likes, and a polynomial opening or an aggregate proof has at least `|F|^(2k + 1)` accepted variants.
-/

set_option linter.unusedSectionVars false

namespace Ripp

open Spec

namespace Gipa

variable {ρ F MA T KA KT OA OT : Type} [Field F] [DecidableEq F]
  [AddCommGroup MA] [Module F MA] [AddCommGroup T] [Module F T] [AddCommGroup KA] [Module F KA]
  [AddCommGroup OA] [Module F OA] [Add OT] [SMul F OT]

/-- The two field elements that a step carries in the place of commitments to the right message. -/
def tags (steps : List (Coms OA F OT × Coms OA F OT)) : List (F × F) := steps.map fun s => (s.1.2.1, s.2.2.1)

/-- The rounds of a prover that puts `zs` into the place of the commitments to the right message, in round order:
the steps, the challenges, and the folded left message and key. -/
def taggedRun (P : Gipa ρ F MA F T KA Placeholder KT OA F OT) (bil : MA →ₗ[F] F →ₗ[F] T) (φa : MA →ₗ[F] KA →ₗ[F] OA)
    (ψ : KT → T → OT) (kt : KT) : List (F × F) → F → List MA → List F → List KA →
    Res (List (Coms OA F OT × Coms OA F OT) × List F × List MA × List KA)
  | [], _, a, _, k => .ok ([], [], a, k)
  | z :: zs, prev, a, b, k => do
    let n := 2 ^ zs.length
    let l : Coms OA F OT := (dot (φa · ·) (a.drop n) (k.take n), z.1, ψ kt (dot (bil · ·) (a.drop n) (b.take n)))
    let r : Coms OA F OT := (dot (φa · ·) (a.take n) (k.drop n), z.2, ψ kt (dot (bil · ·) (a.take n) (b.drop n)))
    let (c, _) ← P.challenge prev l r
    let (steps, cs, a', k') ← taggedRun P bil φa ψ kt zs c (foldHalf c a) (foldHalf c⁻¹ b) (foldHalf c⁻¹ k)
    return ((l, r) :: steps, c :: cs, a', k')

variable {P : Gipa ρ F MA F T KA Placeholder KT OA F OT}
  {bil : MA →ₗ[F] F →ₗ[F] T} {φa : MA →ₗ[F] KA →ₗ[F] OA} {ψ : KT → T → OT}

/-- Such a run succeeds for all tags, and folds the statement to the statement about single elements. -/
theorem taggedRun_ok (L : P.Lawful bil φa 0 ψ) (hd : ∀ x, 16 ≤ (P.digest x).length) (hs : P.SearchEnds) (kt : KT) :
    ∀ (zs : List (F × F)) (tr : List F) (ma : List MA) (mb : List F) (cka : List KA), ma.length = 2 ^ zs.length →
      mb.length = 2 ^ zs.length → cka.length = 2 ^ zs.length →
      ∃ steps cs a b ka, taggedRun P bil φa ψ kt zs (tr.getLast?.getD 0) ma mb cka = .ok (steps, cs, [a], [ka]) ∧
        tags steps = zs ∧ cs.length = zs.length ∧ (∀ c ∈ cs, c ≠ 0) ∧ P.chals steps tr = .ok (tr ++ cs) ∧
        foldAll cs ma = [a] ∧ foldAll (cs.map (·⁻¹)) mb = [b] ∧ foldAll (cs.map (·⁻¹)) cka = [ka] ∧
        ∀ y, (foldMany steps cs (dot (φa · ·) ma cka, y, ψ kt (dot (bil · ·) ma mb))).1 = φa a ka ∧
          (foldMany steps cs (dot (φa · ·) ma cka, y, ψ kt (dot (bil · ·) ma mb))).2.2 = ψ kt (bil a b)
  | [], tr, ma, mb, cka, h1, h2, h3 => by
    obtain ⟨a, rfl⟩ := List.length_eq_one_iff.mp (by simpa using h1)
    obtain ⟨b, rfl⟩ := List.length_eq_one_iff.mp (by simpa using h2)
    obtain ⟨ka, rfl⟩ := List.length_eq_one_iff.mp (by simpa using h3)
    exact ⟨[], [], a, b, ka, rfl, rfl, rfl, by simp, by simp [chals], by simp [foldAll], by simp [foldAll],
      by simp [foldAll], fun y => by simp [foldMany]⟩
  | z :: zs, tr, ma, mb, cka, h1, h2, h3 => by
    have e : (2 : ℕ) ^ (zs.length + 1) = 2 * 2 ^ zs.length := by rw [pow_succ]; ring
    rw [List.length_cons, e] at h1 h2 h3
    set n := 2 ^ zs.length with hn
    set l : Coms OA F OT := (dot (φa · ·) (ma.drop n) (cka.take n), z.1, ψ kt (dot (bil · ·) (ma.drop n) (mb.take n)))
      with hl
    set r : Coms OA F OT := (dot (φa · ·) (ma.take n) (cka.drop n), z.2, ψ kt (dot (bil · ·) (ma.take n) (mb.drop n)))
      with hr
    obtain ⟨c, hc, hch⟩ := challenge_of_ends L hd hs (tr.getLast?.getD 0) l r ⟨_, _, rfl⟩ ⟨_, _, rfl⟩
    obtain ⟨steps, cs, a, b, ka, r1, r2, r3, r4, r5, r6, r7, r8, r9⟩ := taggedRun_ok L hd hs kt zs (tr ++ [c])
      (foldHalf c ma) (foldHalf c⁻¹ mb) (foldHalf c⁻¹ cka) (length_foldHalf _ _ _ h1) (length_foldHalf _ _ _ h2)
      (length_foldHalf _ _ _ h3)
    rw [List.getLast?_concat, Option.getD_some] at r1
    refine ⟨(l, r) :: steps, c :: cs, a, b, ka, ?_, by rw [tags, List.map_cons]; exact congrArg _ r2,
      by simp [r3], ?_, ?_, r6, r7, r8, ?_⟩
    · rw [taggedRun]
      simp only [← hn]
      rw [← hl, ← hr, hch]
      simp only [ok_bind]
      rw [r1]
      rfl
    · intro d hd
      rcases List.mem_cons.mp hd with rfl | hd
      · exact hc
      · exact r4 d hd
    · rw [chals, hch]
      simp only [ok_bind]
      simpa using r5
    · intro y
      rw [foldMany]
      have e1 : foldComs c c⁻¹ (dot (φa · ·) ma cka, y, ψ kt (dot (bil · ·) ma mb)) l r =
          (dot (φa · ·) (foldHalf c ma) (foldHalf c⁻¹ cka), c • z.1 + y + c⁻¹ • z.2,
            ψ kt (dot (bil · ·) (foldHalf c ma) (foldHalf c⁻¹ mb))) := by
        simp only [foldComs, hl, hr]
        rw [dot_fold φa c hc ma cka n h1 h3, dot_fold bil c hc ma mb n h1 h2, L.ψ_add, L.ψ_add, L.ψ_smul, L.ψ_smul]
      rw [e1]
      exact r9 _

/-- With zeros, the rounds are those of `GIPA::prove_with_aux`. -/
theorem proveLoop_tagged (L : P.Lawful bil φa 0 ψ) (kt : KT) : ∀ (k fuel : ℕ)
    (st : ProveState F MA F KA Placeholder OA F OT), k ≤ fuel → st.ma.length = 2 ^ k → st.mb.length = 2 ^ k →
    st.cka.length = 2 ^ k → st.ckb.length = 2 ^ k →
    P.proveLoop [kt] fuel st =
      (taggedRun P bil φa ψ kt (List.replicate k (0, 0)) (st.transcript.getLast?.getD 0) st.ma st.mb st.cka >>= fun r => do
        let a ← idx r.2.2.1 0
        let b ← idx (foldAll (r.2.1.map (·⁻¹)) st.mb) 0
        let ka ← idx r.2.2.2 0
        return (⟨(st.steps ++ r.1).reverse, (a, b)⟩, ⟨(st.transcript ++ r.2.1).reverse, (ka, PUnit.unit)⟩))
  | 0, fuel, st, _, h1, h2, h3, h4 => by
    have h1' : st.ma.length = 1 := by simpa using h1
    rw [proveLoop.eq_def]
    simp only [if_pos h1']
    obtain ⟨kb, hkb⟩ := List.length_eq_one_iff.mp (by simpa using h4 : st.ckb.length = 1)
    simp [taggedRun, foldAll, hkb]
  | k + 1, fuel, st, hf, h1, h2, h3, h4 => by
    obtain ⟨fuel, rfl⟩ : ∃ f, fuel = f + 1 := ⟨fuel - 1, by omega⟩
    have e : (2 : ℕ) ^ (k + 1) = 2 * 2 ^ k := by rw [pow_succ]; ring
    rw [e] at h1 h2 h3 h4
    have hne : ¬ st.ma.length = 1 := by omega
    rw [proveLoop.eq_def]
    simp only [if_neg hne]
    rw [proveRound_eq L kt (2 ^ k) st h1 h2 h3 h4, List.replicate_succ, taggedRun]
    simp only [List.length_replicate]
    have c1 : cross1 bil φa (0 : F →ₗ[F] Placeholder →ₗ[F] F) ψ kt (2 ^ k) st.ma st.mb st.cka st.ckb =
        (dot (φa · ·) (st.ma.drop (2 ^ k)) (st.cka.take (2 ^ k)), 0,
          ψ kt (dot (bil · ·) (st.ma.drop (2 ^ k)) (st.mb.take (2 ^ k)))) := by
      rw [cross1, honestComs]
      exact Prod.ext rfl (Prod.ext (dot_const_zero _ _) rfl)
    have c2 : cross2 bil φa (0 : F →ₗ[F] Placeholder →ₗ[F] F) ψ kt (2 ^ k) st.ma st.mb st.cka st.ckb =
        (dot (φa · ·) (st.ma.take (2 ^ k)) (st.cka.drop (2 ^ k)), 0,
          ψ kt (dot (bil · ·) (st.ma.take (2 ^ k)) (st.mb.drop (2 ^ k)))) := by
      rw [cross2, honestComs]
      exact Prod.ext rfl (Prod.ext (dot_const_zero _ _) rfl)
    rw [c1, c2]
    cases hc : P.challenge (st.transcript.getLast?.getD 0)
        (dot (φa · ·) (st.ma.drop (2 ^ k)) (st.cka.take (2 ^ k)), 0,
          ψ kt (dot (bil · ·) (st.ma.drop (2 ^ k)) (st.mb.take (2 ^ k))))
        (dot (φa · ·) (st.ma.take (2 ^ k)) (st.cka.drop (2 ^ k)), 0,
          ψ kt (dot (bil · ·) (st.ma.take (2 ^ k)) (st.mb.drop (2 ^ k)))) with
    | error x => rfl
    | ok c =>
      simp only [ok_bind]
      rw [proveLoop_tagged L kt k fuel (nextState c.1 _ _ st) (by omega) (length_foldHalf _ _ _ h1)
        (length_foldHalf _ _ _ h2) (length_foldHalf _ _ _ h3) (length_foldHalf _ _ _ h4)]
      simp only [nextState, List.getLast?_concat, Option.getD_some]
      cases taggedRun P bil φa ψ kt (List.replicate k (0, 0)) c.1 (foldHalf c.1 st.ma) (foldHalf c.1⁻¹ st.mb)
        (foldHalf c.1⁻¹ st.cka) with
      | error x => rfl
      | ok r => simp [foldAll]

/-- C128: with zeros, the run is the one of `GIPA::prove_with_aux` for messages and a key of length `2^k`. -/
theorem C128_zero (L : P.Lawful bil φa 0 ψ) (kt : KT) (k : ℕ) (ma : List MA) (mb : List F) (cka : List KA)
    (h1 : ma.length = 2 ^ k) (h2 : mb.length = 2 ^ k) (h3 : cka.length = 2 ^ k) :
    P.proveWithAux ma mb cka (List.replicate mb.length PUnit.unit) [kt] =
      (taggedRun P bil φa ψ kt (List.replicate k (0, 0)) 0 ma mb cka >>= fun r => do
        let a ← idx r.2.2.1 0
        let b ← idx (foldAll (r.2.1.map (·⁻¹)) mb) 0
        let ka ← idx r.2.2.2 0
        return (⟨r.1.reverse, (a, b)⟩, ⟨r.2.1.reverse, (ka, PUnit.unit)⟩)) := by
  rw [proveWithAux, h1, isPow2_two_pow k, assert_true, ok_bind, proveLoop_tagged L kt k _ _ Nat.lt_two_pow_self.le h1 h2 h3
    (by simpa using h2)]
  simp

end Gipa

namespace TipaSsm

variable {ρ F MA T KT OA OT G1 G2 GT TF : Type} [Field F] [DecidableEq F]
  [AddCommGroup MA] [Module F MA] [AddCommGroup T] [Module F T]
  [AddCommGroup G1] [Module F G1] [AddCommGroup G2] [Module F G2]
  [AddCommGroup GT] [Module F GT] [Monoid TF] [DecidableEq GT]
  [AddCommGroup OA] [Module F OA] [Add OT] [SMul F OT] [DecidableEq OA] [DecidableEq OT]
  {P : Gipa ρ F MA F T G2 Placeholder KT OA F OT} {V : TipaEnv F G1 G2 GT TF}
  {bil : MA →ₗ[F] F →ₗ[F] T} {φa : MA →ₗ[F] G2 →ₗ[F] OA} {ψ : KT → T → OT}
  {e : G1 →ₗ[F] G2 →ₗ[F] GT}

/-- The `2k + 1` field elements of a proof that stand for the right message: two per step, and the base message. -/
def free (proof : TipaSsmProof F G2 MA OA OT) : List (F × F) × F :=
  (Gipa.tags proof.gipa.steps, proof.gipa.base.2)

/-- The prover that puts `zs` into the steps and `y` into the base, and otherwise follows
`prove_with_structured_scalar_message`. -/
def proveTagged (V : TipaEnv F G1 G2 GT TF) (P : Gipa ρ F MA F T G2 Placeholder KT OA F OT)
    (bil : MA →ₗ[F] F →ₗ[F] T) (φa : MA →ₗ[F] G2 →ₗ[F] OA) (ψ : KT → T → OT) (srs : SRS G1 G2) (ma : List MA)
    (mb : List F) (cka : List G2) (kt : KT) (zs : List (F × F)) (y : F) : Res (TipaSsmProof F G2 MA OA OT) := do
  let (steps, cs, as, ks) ← Gipa.taggedRun P bil φa ψ kt zs.reverse 0 ma mb cka
  let a ← idx as 0
  let ka ← idx ks 0
  let inv ← invertAll cs.reverse
  let c ← kzgChallenge V P.digest P.serF cs.reverse ka
  let op ← proveKeyOpening srs.hBetaPowers inv 1 c
  return ⟨⟨steps.reverse, (a, y)⟩, ka, op⟩

/-- With zeros and the folded message it is `prove_with_structured_scalar_message`. -/
theorem C128_tagged (L : P.Lawful bil φa 0 ψ) (srs : SRS G1 G2) (k : ℕ) (ma : List MA) (mb : List F) (cka : List G2)
    (kt : KT) (h1 : ma.length = 2 ^ k) (h2 : mb.length = 2 ^ k) (h3 : cka.length = 2 ^ k)
    (π : TipaSsmProof F G2 MA OA OT) (h : prove V P srs ma mb cka kt = .ok π) :
    proveTagged V P bil φa ψ srs ma mb cka kt (List.replicate k (0, 0)) π.gipa.base.2 = .ok π := by
  rw [prove, Gipa.C128_zero L kt k ma mb cka h1 h2 h3] at h
  rw [proveTagged, List.reverse_replicate]
  cases hr : Gipa.taggedRun P bil φa ψ kt (List.replicate k (0, 0)) 0 ma mb cka with
  | error x => rw [hr] at h; cases h
  | ok r =>
    obtain ⟨steps, cs, as, ks⟩ := r
    rw [hr] at h
    simp only [ok_bind, bind_assoc, bind_eq_ok] at h ⊢
    obtain ⟨a, ha, b, hb, ka, hka, x, hx, i, hi, c, hc, op, hop, h⟩ := h
    obtain rfl := Except.ok.inj hx
    refine ⟨a, ha, ka, hka, i, hi, c, hc, op, hop, ?_⟩
    obtain rfl := Except.ok.inj h
    rfl

/-- The proof of this prover is accepted, for every true statement. -/
theorem C128_accepted (L : P.Lawful bil φa 0 ψ) (hE : V.E.Lawful e)
    (hd : ∀ x, 16 ≤ (P.digest x).length) (hs : P.SearchEnds) (hrb : KzgEnds V P.digest P.serF) (X : Exec)
    (k : ℕ) (srs : SRS G1 G2) (g : G1) (h : G2) (α β : F)
    (hsrs : IsLeftSrs srs g h α β (2 ^ (k + 1))) (ma : List MA) (b : F) (t : T) (kt : KT)
    (comA : OA) (comT : OT) (h1 : ma.length = 2 ^ (k + 1))
    (H : GipaSsm.Honest P ma b srs.commitmentKeys.1 kt comA comT t)
    (zs : List (F × F)) (hz : zs.length = k + 1) (y : F) :
    ∃ v proof, srs.verifierKey = .ok v ∧
      proveTagged V P bil φa ψ srs ma (powers b (2 ^ (k + 1))) srs.commitmentKeys.1 kt zs y = .ok proof ∧
      verify X V P v kt comA comT b proof = .ok true ∧ free proof = (zs, y) := by
  obtain ⟨e1, e3⟩ := hsrs.keys Nat.one_le_two_pow
  rw [e1] at H ⊢
  rw [e3]
  have hl : ((List.range (2 ^ (k + 1))).map fun i => β ^ (2 * i) • h).length = 2 ^ (k + 1) := by simp
  obtain ⟨ht, hT, hcom⟩ := H.eq L (hl.trans h1.symm) (List.replicate (2 ^ (k + 1)) PUnit.unit)
  rw [h1] at hcom ht
  have hcA : comA = dot (φa · ·) ma _ := congrArg (·.1) hcom
  have hzl : zs.reverse.length = k + 1 := by simp [hz]
  obtain ⟨steps, cs, a, b', ka, r1, r2, r3, r4, r5, r6, r7, r8, r9⟩ := Gipa.taggedRun_ok L hd hs kt zs.reverse [] ma
    (powers b (2 ^ (k + 1))) ((List.range (2 ^ (k + 1))).map fun i => β ^ (2 * i) • h) (by rw [hzl, h1])
    (by rw [hzl]; simp) (by rw [hzl, hl])
  rw [List.nil_append] at r5
  have hcs : cs.reverse ≠ [] := by
    intro h0
    rw [List.reverse_eq_nil_iff.mp h0, hzl] at r3
    simp at r3
  obtain ⟨c, hc⟩ := kzgChallenge_ends V P.digest P.serF hrb cs.reverse ka hcs
  set tr := cs.reverse with htr
  have hlen : tr.length = k + 1 := by rw [htr, List.length_reverse, r3, hzl]
  have hne : ∀ x ∈ tr, x ≠ 0 := fun x hx => r4 x (by simpa [htr] using hx)
  have hnei : ∀ x ∈ tr.map (·⁻¹), x ≠ 0 := by
    intro x hx
    obtain ⟨y, hy, rfl⟩ := List.mem_map.mp hx
    exact inv_ne_zero (hne y hy)
  have hka : ka = productForm (tr.map (·⁻¹)) β 1 • h := by
    have := fold_key (tr.map (·⁻¹)) h β 1
      ((List.range (2 ^ (k + 1))).map fun i => β ^ (2 * i) • h)
      (by rw [List.length_map, hlen]; simp)
    rw [← List.map_reverse, htr, List.reverse_reverse, r8] at this
    simpa [htr] using this
  have hsz : 2 * 2 ^ (k + 1) - 1 = 2 ^ (k + 1 + 1) - 1 := by rw [pow_succ 2 (k + 1), mul_comm]
  obtain ⟨op, hA1, hA2⟩ := opening_G2 hE (tr.map (·⁻¹)) hnei 1 c one_ne_zero g h α β
    srs.hBetaPowers (by rw [hsrs.hBeta, List.length_map, hlen, hsz])
  refine ⟨_, ⟨{ steps := steps.reverse, base := (a, y) }, ka, op⟩, rfl, ?_, ?_, ?_⟩
  · rw [List.getLast?_nil, Option.getD_none] at r1
    rw [proveTagged, r1]
    simp only [ok_bind, idx]
    simp only [List.getElem?_cons_zero]
    rw [← htr, invertAll_eq _ hne]
    simp only [ok_bind]
    rw [hc]
    simp only [ok_bind]
    rw [hA1]
    rfl
  · rw [verify_eq L hE X _ _ _ _ _ _ cs (by simpa using r5) c hc]
    have hv : ((scaled (cs.reverse.map (·⁻¹)) b).map (1 + ·)).prod = b' := by
      have := fold_powers (cs.reverse.map (·⁻¹)) b
      rw [← List.map_reverse, List.reverse_reverse, List.length_map, List.length_reverse, r3, hzl, r7] at this
      simpa using this.symm
    rw [verifyKeyOpeningG2_eq hE, ← hka] at hA2
    have hcT : comT = ψ kt (dot (bil · ·) ma (powers b (2 ^ (k + 1)))) := by rw [hT, ht]
    obtain ⟨c1, c3⟩ := r9 b
    rw [← hcA, ← hcT] at c1 c3
    simp only [List.reverse_reverse]
    rw [hv, c1, c3]
    simpa [htr] using hA2
  · simp only [free]
    rw [Gipa.tags, List.map_reverse, ← Gipa.tags, r2, List.reverse_reverse]

/-- C128: for every true statement about `2^(k+1)` messages and every choice of the field elements in the steps and in
the base, there is an accepted proof of this statement that contains exactly these. -/
theorem C128_free (L : P.Lawful bil φa 0 ψ) (hE : V.E.Lawful e)
    (hd : ∀ x, 16 ≤ (P.digest x).length) (hs : P.SearchEnds) (hrb : KzgEnds V P.digest P.serF) (X : Exec)
    (k : ℕ) (srs : SRS G1 G2) (g : G1) (h : G2) (α β : F)
    (hsrs : IsLeftSrs srs g h α β (2 ^ (k + 1))) (ma : List MA) (b : F) (t : T) (kt : KT)
    (comA : OA) (comT : OT) (h1 : ma.length = 2 ^ (k + 1))
    (H : GipaSsm.Honest P ma b srs.commitmentKeys.1 kt comA comT t)
    (zs : List (F × F)) (hz : zs.length = k + 1) (y : F) :
    ∃ v proof, srs.verifierKey = .ok v ∧ verify X V P v kt comA comT b proof = .ok true ∧ free proof = (zs, y) := by
  obtain ⟨v, proof, h1, -, h2, h3⟩ := C128_accepted L hE hd hs hrb X k srs g h α β hsrs ma b t kt comA comT h1 H zs hz y
  exact ⟨v, proof, h1, h2, h3⟩

/-- C128: so a true statement about `2^(k+1)` messages has an injective family of accepted proofs, indexed by `2k + 3`
field elements. -/
theorem C128_family (L : P.Lawful bil φa 0 ψ) (hE : V.E.Lawful e)
    (hd : ∀ x, 16 ≤ (P.digest x).length) (hs : P.SearchEnds) (hrb : KzgEnds V P.digest P.serF) (X : Exec)
    (k : ℕ) (srs : SRS G1 G2) (g : G1) (h : G2) (α β : F)
    (hsrs : IsLeftSrs srs g h α β (2 ^ (k + 1))) (ma : List MA) (b : F) (t : T) (kt : KT)
    (comA : OA) (comT : OT) (h1 : ma.length = 2 ^ (k + 1))
    (H : GipaSsm.Honest P ma b srs.commitmentKeys.1 kt comA comT t) :
    ∃ v, srs.verifierKey = .ok v ∧ ∃ f : (Fin (k + 1) → F × F) × F → TipaSsmProof F G2 MA OA OT,
      Function.Injective f ∧ ∀ z, verify X V P v kt comA comT b (f z) = .ok true := by
  have key := fun z : (Fin (k + 1) → F × F) × F => C128_free L hE hd hs hrb X k srs g h α β hsrs ma b t kt comA comT h1 H
    (List.ofFn z.1) (by simp) z.2
  choose v f hv hf hfree using key
  obtain ⟨v0, hv0⟩ : ∃ v0, srs.verifierKey = .ok v0 := ⟨_, hv (0, 0)⟩
  refine ⟨v0, hv0, f, fun z z' hzz => ?_, fun z => ?_⟩
  · have := congrArg free hzz
    rw [hfree, hfree] at this
    obtain ⟨i, j⟩ := Prod.ext_iff.mp this
    exact Prod.ext (List.ofFn_injective i) j
  · have e0 : v0 = v z := Except.ok.inj (hv0.symm.trans (hv z))
    rw [e0]
    exact hf z

end TipaSsm

namespace Bivariate

variable {ρ F G1 G2 GT TF : Type} [Field F] [DecidableEq F] [AddCommGroup G1] [Module F G1] [AddCommGroup G2]
  [Module F G2] [AddCommGroup GT] [Module F GT] [Monoid TF] [DecidableEq G1] [DecidableEq GT]
  {V : Env ρ F G1 G2 GT TF} {e : G1 →ₗ[F] G2 →ₗ[F] GT}

/-- C128: an accepted opening of the honest prover can be replaced by one with any field elements in the steps and in
the base of its inner argument; it is accepted for the same commitment, point and value. -/
theorem C128_bivariate (hE : V.E.Lawful e) (hd : ∀ b, 16 ≤ (V.digest b).length) (hse : V.multiexpSsm.SearchEnds)
    (hrb : TipaSsm.KzgEnds V.tipa V.digest V.serF) (k : ℕ) (srs : SRS G1 G2 × List G1) (g : G1) (h : G2)
    (α β : F) (x y : ℕ) (hs : IsSrs srs g h α β x y) (hx : x + 1 = 2 ^ (k + 1)) (ps : List (List F))
    (hps : ps.length ≤ x + 1) (hrow : ∀ p ∈ ps, p.getLast? ≠ some 0 ∧ p.length ≤ y + 1) (point : F × F) (value : F)
    (com : GT) (coms : List G1) (v : VerifierSRS G1 G2) (proof : PcProof F G1 G2 GT)
    (hcom : commit V srs ps = .ok (com, coms)) (hv : srs.1.verifierKey = .ok v)
    (hopen : open_ V srs ps coms point = .ok proof) (hacc : verify V v com point value proof = .ok true)
    (zs : List (F × F)) (hz : zs.length = k + 1) (w : F) :
    ∃ ip, TipaSsm.free ip = (zs, w) ∧ verify V v com point value { proof with ip := ip } = .ok true := by
  obtain ⟨px, py⟩ := point
  have hrow' : ∀ p ∈ ps, p.length ≤ y + 1 := fun p hp => (hrow p hp).2
  rw [commit_eq V hE srs g h α β x y hs ps hps hrow] at hcom
  simp only [Except.ok.injEq, Prod.mk.injEq] at hcom
  obtain ⟨rfl, rfl⟩ := hcom
  rw [open_eq V srs g h α β x y hs ps hps, bind_eq_ok] at hopen
  obtain ⟨ip, -, hp⟩ := hopen
  have hp := Except.ok.inj hp
  obtain ⟨v', ip', hv', hacc', hfree⟩ := TipaSsm.C128_free (V := V.tipa) (multiexpSsm_lawful V hE) hE hd hse hrb V.X k
    srs.1 g h α β (hx ▸ hs.left) _ px _ PUnit.unit _ _ (by rw [List.length_map, resize_length, hx])
    (honest V hE srs g h α β x y hs ps hps hrow' px) zs hz w
  obtain rfl : v = v' := Except.ok.inj (hv.symm.trans hv')
  refine ⟨ip', hfree, ?_⟩
  rw [verify, bind_eq_ok] at hacc
  obtain ⟨b1, h1, hacc⟩ := hacc
  rw [bind_eq_ok] at hacc
  obtain ⟨b2, h2, hacc⟩ := hacc
  have hb : (b1 && b2) = true := Except.ok.inj hacc
  rw [Bool.and_eq_true] at hb
  have hy : proof.yEvalComm = polyEval (combined ps px x y) α • g := by rw [← hp]
  rw [verify]
  simp only [hy] at h2 ⊢
  rw [hacc']
  simp only [ok_bind]
  rw [h2, hb.2]
  rfl

end Bivariate

namespace Groth16

variable {ρ F G1 G2 GT TF : Type} [Field F] [DecidableEq F] [AddCommGroup G1] [Module F G1] [AddCommGroup G2]
  [Module F G2] [AddCommGroup GT] [Module F GT] [Monoid TF] [DecidableEq G1] [DecidableEq GT]
  {V : Env ρ F G1 G2 GT TF} {e : G1 →ₗ[F] G2 →ₗ[F] GT}

/-- C128: an accepted aggregate proof of the honest prover can be replaced by one with any field elements in the steps
and in the base of the argument about `C`; it is accepted for the same inputs. -/
theorem C128_aggregate (hE : V.E.Lawful e) (hd : ∀ x, 16 ≤ (V.digest x).length) (hs2 : V.multiexpSsm.SearchEnds)
    (hrb : TipaSsm.KzgEnds V.tipa V.digest V.serF) (k : ℕ)
    (srs : SRS G1 G2) (g : G1) (h : G2) (α β : F) (hsrs : IsSrs srs g h α β (2 ^ (k + 1)))
    (vk : G16VK G1 G2) (proofs : List (G16Proof G1 G2)) (inputs : List (List F))
    (hp : proofs.length = 2 ^ (k + 1)) (v : VerifierSRS G1 G2) (proof : AggProof F G1 G2 GT)
    (hv : srs.verifierKey = .ok v) (hagg : aggregate V srs proofs = .ok proof)
    (hacc : verify V v vk inputs proof = .ok true) (zs : List (F × F)) (hz : zs.length = k + 1) (w : F) :
    ∃ pC, TipaSsm.free pC = (zs, w) ∧ verify V v vk inputs { proof with proofC := pC } = .ok true := by
  have hn : 1 ≤ 2 ^ (k + 1) := Nat.one_le_two_pow
  obtain ⟨e1, e2, e3⟩ := C25_keys srs g h α β _ hn hsrs
  have l1 : srs.commitmentKeys.1.length = 2 ^ (k + 1) := by simp [e1]
  have l2 : srs.commitmentKeys.2.length = 2 ^ (k + 1) := by simp [e2]
  obtain ⟨r, hr, i1, i2⟩ := accepted_parts v vk inputs proof hacc
  have hr0 : r ≠ 0 := by
    rintro rfl
    rw [Tipa.verifyWithShift] at i1
    simp only [bind_eq_ok] at i1
    obtain ⟨_, -, _, -, _, -, c, hc, -⟩ := i1
    simp [inverse, panic'] at hc
  have la : (proofs.map (·.a)).length = srs.commitmentKeys.1.length := by simp [hp, l1]
  have lb : srs.commitmentKeys.2.length = (proofs.map (·.b)).length := by simp [hp, l2]
  have lc : (proofs.map (·.c)).length = srs.commitmentKeys.1.length := by simp [hp, l1]
  have hcoms : proof.comA = dot (e · ·) (proofs.map (·.a)) srs.commitmentKeys.1 ∧
      proof.comB = dot (e · ·) srs.commitmentKeys.2 (proofs.map (·.b)) ∧
      proof.comC = dot (e · ·) (proofs.map (·.c)) srs.commitmentKeys.1 := by
    have h0 := hagg
    rw [aggregate] at h0
    simp only [pairingIP_eq hE V.X _ _ la, pairingIP_eq hE V.X _ _ lb, pairingIP_eq hE V.X _ _ lc, ok_bind,
      bind_eq_ok] at h0
    obtain ⟨_, -, _, -, _, -, _, -, _, -, _, -, _, -, _, -, _, -, h0⟩ := h0
    have h0 := Except.ok.inj h0
    rw [← h0]
    exact ⟨rfl, rfl, rfl⟩
  obtain ⟨hA, hB, hC⟩ := hcoms
  have hc := hr
  rw [hA, hB, hC] at hc
  rw [aggregate_eq hE srs proofs _ hn hp l1 l2 r hr0 hc, bind_eq_ok] at hagg
  obtain ⟨pAB, -, hagg⟩ := hagg
  rw [bind_eq_ok] at hagg
  obtain ⟨pC0, -, hagg⟩ := hagg
  have haggC : proof.aggC = dot (fun (x : F) (p : G16Proof G1 G2) => x • p.c) (powers r (2 ^ (k + 1))) proofs := by
    rw [← Except.ok.inj hagg]
  obtain ⟨v', pC, hv', hacc', hfree⟩ := TipaSsm.C128_free (V := V.tipa) (multiexpSsm_lawful V hE) hE hd hs2 hrb V.X k
    srs g h α β (hsrs.left hn) _ r _ PUnit.unit _ _ (by simp [hp]) (honest_c hE srs proofs _ hp l1 r) zs hz w
  obtain rfl : v = v' := Except.ok.inj (hv.symm.trans hv')
  rw [← hC, ← haggC] at hacc'
  refine ⟨pC, hfree, ?_⟩
  rw [verify_of_checks v vk inputs proof r true true hr i1 i2] at hacc
  rw [verify_of_checks v vk inputs { proof with proofC := pC } r true true hr i1 hacc']
  exact hacc

end Groth16

/-- The opening of `1 + 2 Y + X (3 + 4 Y)` at `(2, 4)` with any three field elements instead of `0, 0, 7`: 101^3 accepted
proofs of the same statement. -/
example (z1 z2 y : Toy.F) :
    Bivariate.verify Toy.env ⟨1, 1, (5 : Toy.F) • (1 : Toy.F), (7 : Toy.F) • (1 : Toy.F)⟩ 83 (2, 4) 47
      ⟨⟨⟨[((31, z1, ⟨[31]⟩), (72, z2, ⟨[30]⟩))], (59, y)⟩, 76, 24⟩, 77, 10⟩ = .ok true :=
  have h0 : Bivariate.verify Toy.env ⟨1, 1, (5 : Toy.F) • (1 : Toy.F), (7 : Toy.F) • (1 : Toy.F)⟩ 83 (2, 4) 47
    Toy.opening1 = .ok true := by decide +kernel
  h0

/-- The same with a digest that depends on its input. -/
def Toy.sumEnv : Env ℕ Toy.F Toy.F Toy.F Toy.F Toy.TF :=
  { Toy.env with digest := fun b => List.replicate 15 0 ++ [b.foldl (fun s x => (3 * s + x) % 101) 1] }

/-- Other elements in the round give another challenge, and with it another final key and opening. The first proof has the
elements of the honest prover. -/
example :
    (Toy.sumEnv.multiexpSsm.challenge 0 (31, 0, ⟨[31]⟩) (72, 0, ⟨[30]⟩)).map (·.1) = .ok 64 ∧
    (Toy.sumEnv.multiexpSsm.challenge 0 (31, 10, ⟨[31]⟩) (72, 20, ⟨[30]⟩)).map (·.1) = .ok 89 ∧
    Bivariate.verify Toy.sumEnv ⟨1, 1, (5 : Toy.F) • (1 : Toy.F), (7 : Toy.F) • (1 : Toy.F)⟩ 83 (2, 4) 47
      ⟨⟨⟨[((31, 0, ⟨[31]⟩), (72, 0, ⟨[30]⟩))], (80, 7)⟩, 44, 74⟩, 77, 10⟩ = .ok true ∧
    Bivariate.verify Toy.sumEnv ⟨1, 1, (5 : Toy.F) • (1 : Toy.F), (7 : Toy.F) • (1 : Toy.F)⟩ 83 (2, 4) 47
      ⟨⟨⟨[((31, 10, ⟨[31]⟩), (72, 20, ⟨[30]⟩))], (47, 30)⟩, 41, 83⟩, 77, 10⟩ = .ok true := by
  decide +kernel

/-- The hypotheses can be met: two messages 15 and 31 with the point 2. -/
example : ∃ v, (⟨[1], [1, 5, 25], 5, 7⟩ : SRS Toy.F Toy.F).verifierKey = .ok v ∧
    ∃ f : (Fin (0 + 1) → Toy.F × Toy.F) × Toy.F → TipaSsmProof Toy.F Toy.F Toy.F Toy.F (IdentityOutput Toy.F),
      Function.Injective f ∧
      ∀ z, TipaSsm.verify Toy.X Toy.env.tipa Toy.env.multiexpSsm v PUnit.unit 83 ⟨[77]⟩ 2 (f z) = .ok true :=
  TipaSsm.C128_family (multiexpSsm_lawful Toy.env Toy.lawful) Toy.lawful (fun _ => le_refl 16)
    (searchEnds_of_digest _ Toy.digest_length Toy.digest_ne_zero)
    Toy.ssmKzgEnds Toy.X 0 _ 1 1 7 5 ⟨by decide +kernel, by decide +kernel, by decide, by decide⟩ [15, 31] 2 77
    PUnit.unit 83 ⟨[77]⟩ rfl ⟨by decide +kernel, by decide +kernel, by decide +kernel⟩

end Ripp
