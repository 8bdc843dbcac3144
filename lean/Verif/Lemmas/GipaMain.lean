import Verif.Lemmas.GipaLoop

/-! # Prover and verifier put together -/

set_option linter.unusedSectionVars false

namespace Ripp

open Spec

namespace Gipa

variable {ρ F MA MB T KA KB KT OA OB OT : Type} [Field F] [DecidableEq F]
  [AddCommGroup MA] [Module F MA] [AddCommGroup MB] [Module F MB]
  [AddCommGroup T] [Module F T] [AddCommGroup KA] [Module F KA] [AddCommGroup KB] [Module F KB]
  [AddCommGroup OA] [Module F OA] [AddCommGroup OB] [Module F OB] [Add OT] [SMul F OT]
  {P : Gipa ρ F MA MB T KA KB KT OA OB OT}
  {β : MA →ₗ[F] MB →ₗ[F] T} {φa : MA →ₗ[F] KA →ₗ[F] OA} {φb : MB →ₗ[F] KB →ₗ[F] OB}
  {ψ : KT → T → OT}

/-- What a successful run of `prove_with_aux` on vectors of length `2^k` produces. `steps` and `cs`
are in round order. -/
structure ProveOutcome (P : Gipa ρ F MA MB T KA KB KT OA OB OT)
    (β : MA →ₗ[F] MB →ₗ[F] T) (φa : MA →ₗ[F] KA →ₗ[F] OA) (φb : MB →ₗ[F] KB →ₗ[F] OB)
    (ψ : KT → T → OT) (kt : KT) (k : ℕ) (ma : List MA) (mb : List MB) (cka : List KA)
    (ckb : List KB) (steps : List (Coms OA OB OT × Coms OA OB OT)) (cs : List F) (a : MA) (b : MB)
    (ka : KA) (kb : KB) : Prop where
  run : P.proveWithAux ma mb cka ckb [kt] =
    .ok ({ steps := steps.reverse, base := (a, b) },
      { transcript := cs.reverse, ckBase := (ka, kb) })
  length_steps : steps.length = k
  length_cs : cs.length = k
  ne_zero : ∀ c ∈ cs, c ≠ 0
  chals : P.chals steps [] = .ok cs
  fold_ma : foldAll cs ma = [a]
  fold_mb : foldAll (cs.map (·⁻¹)) mb = [b]
  fold_cka : foldAll (cs.map (·⁻¹)) cka = [ka]
  fold_ckb : foldAll cs ckb = [kb]
  coms : foldMany steps cs (honestComs β φa φb ψ kt ma mb cka ckb) =
    honestComs β φa φb ψ kt [a] [b] [ka] [kb]

/-- A list of steps whose challenges fold the vectors to single elements and fold the commitments
`com` to the honest commitments of those elements. -/
structure FoldOutcome (P : Gipa ρ F MA MB T KA KB KT OA OB OT)
    (β : MA →ₗ[F] MB →ₗ[F] T) (φa : MA →ₗ[F] KA →ₗ[F] OA) (φb : MB →ₗ[F] KB →ₗ[F] OB)
    (ψ : KT → T → OT) (kt : KT) (k : ℕ) (ma : List MA) (mb : List MB) (cka : List KA)
    (ckb : List KB) (com : Coms OA OB OT) (steps : List (Coms OA OB OT × Coms OA OB OT))
    (cs : List F) (a : MA) (b : MB) (ka : KA) (kb : KB) : Prop where
  length_steps : steps.length = k
  length_cs : cs.length = k
  ne_zero : ∀ c ∈ cs, c ≠ 0
  chals : P.chals steps [] = .ok cs
  fold_ma : foldAll cs ma = [a]
  fold_mb : foldAll (cs.map (·⁻¹)) mb = [b]
  fold_cka : foldAll (cs.map (·⁻¹)) cka = [ka]
  fold_ckb : foldAll cs ckb = [kb]
  coms : foldMany steps cs com = honestComs β φa φb ψ kt [a] [b] [ka] [kb]

theorem ProveOutcome.fold {kt : KT} {k : ℕ} {ma : List MA} {mb : List MB} {cka : List KA}
    {ckb : List KB} {steps : List (Coms OA OB OT × Coms OA OB OT)} {cs : List F} {a : MA} {b : MB}
    {ka : KA} {kb : KB} (O : ProveOutcome P β φa φb ψ kt k ma mb cka ckb steps cs a b ka kb) :
    FoldOutcome P β φa φb ψ kt k ma mb cka ckb (honestComs β φa φb ψ kt ma mb cka ckb) steps cs a b
      ka kb :=
  ⟨O.length_steps, O.length_cs, O.ne_zero, O.chals, O.fold_ma, O.fold_mb, O.fold_cka, O.fold_ckb,
    O.coms⟩

theorem proveWithAux_outcome (L : P.Lawful β φa φb ψ) (hd : ∀ x, 16 ≤ (P.digest x).length)
    (kt : KT) (k : ℕ) (ma : List MA) (mb : List MB) (cka : List KA) (ckb : List KB)
    (h1 : ma.length = 2 ^ k) (h2 : mb.length = 2 ^ k) (h3 : cka.length = 2 ^ k)
    (h4 : ckb.length = 2 ^ k) :
    P.proveWithAux ma mb cka ckb [kt] = .error .diverge ∨
    ∃ steps cs a b ka kb,
      ProveOutcome P β φa φb ψ kt k ma mb cka ckb steps cs a b ka kb := by
  have hp : P.proveWithAux ma mb cka ckb [kt] = P.proveLoop [kt] ma.length
      { ma := ma, mb := mb, cka := cka, ckb := ckb, steps := [], transcript := [] } := by
    unfold proveWithAux
    rw [h1]; simp
  rcases proveLoop_outcome L hd kt k ma.length
      { ma := ma, mb := mb, cka := cka, ckb := ckb, steps := [], transcript := [] }
      (by rw [h1]; exact Nat.lt_two_pow_self.le) h1 h2 h3 h4 with h | ⟨steps, cs, a, b, ka, kb, O⟩
  · left; rw [hp, h]
  · right
    refine ⟨steps, cs, a, b, ka, kb, ?_, O.length_steps, O.length_cs, O.ne_zero, ?_, O.fold_ma,
      O.fold_mb, O.fold_cka, O.fold_ckb, O.coms⟩
    · rw [hp, O.run]; simp
    · simpa using O.chals

section
variable [DecidableEq OA] [DecidableEq OB] [DecidableEq OT]

theorem FoldOutcome.verify {kt : KT} {k : ℕ} {ma : List MA} {mb : List MB} {cka : List KA}
    {ckb : List KB} {com : Coms OA OB OT} {steps : List (Coms OA OB OT × Coms OA OB OT)} {cs : List F}
    {a : MA} {b : MB} {ka : KA} {kb : KB}
    (L : P.Lawful β φa φb ψ) (h3 : cka.length = 2 ^ k) (h4 : ckb.length = 2 ^ k)
    (O : FoldOutcome P β φa φb ψ kt k ma mb cka ckb com steps cs a b ka kb) :
    P.verify cka ckb kt com { steps := steps.reverse, base := (a, b) } = .ok true := by
  rw [verify_eq L _ _ _ _ _ (by simp [O.length_steps, h3]) (by simp [O.length_steps, h4])]
  simp only [List.reverse_reverse, O.chals, ok_bind, O.coms, O.fold_cka, O.fold_ckb, decide_true]

theorem ProveOutcome.verify {kt : KT} {k : ℕ} {ma : List MA} {mb : List MB} {cka : List KA}
    {ckb : List KB} {steps : List (Coms OA OB OT × Coms OA OB OT)} {cs : List F} {a : MA} {b : MB}
    {ka : KA} {kb : KB}
    (L : P.Lawful β φa φb ψ) (h3 : cka.length = 2 ^ k) (h4 : ckb.length = 2 ^ k)
    (O : ProveOutcome P β φa φb ψ kt k ma mb cka ckb steps cs a b ka kb) :
    P.verify cka ckb kt (honestComs β φa φb ψ kt ma mb cka ckb)
      { steps := steps.reverse, base := (a, b) } = .ok true :=
  O.fold.verify L h3 h4

end

/-- A commitment to one inner product under some key. -/
def Committed (P : Gipa ρ F MA MB T KA KB KT OA OB OT) (o : OT) : Prop :=
  ∃ k t, P.ipc.commit [k] [t] = .ok o

/-- Every challenge search ends, at least if the inner product parts of the two commitments are
commitments to one value. -/
def SearchEnds (P : Gipa ρ F MA MB T KA KB KT OA OB OT) : Prop :=
  ∀ prev com1 com2, P.Committed com1.2.2 → P.Committed com2.2.2 →
    P.challenge prev com1 com2 ≠ .error .diverge

theorem challenge_of_ends (L : P.Lawful β φa φb ψ) (hd : ∀ x, 16 ≤ (P.digest x).length)
    (hs : SearchEnds P) (prev : F) (com1 com2 : Coms OA OB OT) (h1 : ∃ k t, com1.2.2 = ψ k t)
    (h2 : ∃ k t, com2.2.2 = ψ k t) : ∃ c, c ≠ 0 ∧ P.challenge prev com1 com2 = .ok (c, c⁻¹) := by
  obtain ⟨k, t, h1⟩ := h1
  obtain ⟨k', t', h2⟩ := h2
  exact (P.challenge_total hd prev com1 com2).resolve_right (hs prev com1 com2
    ⟨k, t, h1 ▸ L.ipc_ok k t⟩ ⟨k', t', h2 ▸ L.ipc_ok k' t'⟩)

theorem proveLoop_ne_diverge (L : P.Lawful β φa φb ψ) (hd : ∀ x, 16 ≤ (P.digest x).length)
    (hs : SearchEnds P) (kt : KT) : ∀ (k fuel : ℕ) (st : ProveState F MA MB KA KB OA OB OT),
      k ≤ fuel → st.ma.length = 2 ^ k → st.mb.length = 2 ^ k → st.cka.length = 2 ^ k →
      st.ckb.length = 2 ^ k → P.proveLoop [kt] fuel st ≠ .error .diverge := by
  intro k
  induction k with
  | zero =>
    intro fuel st _ h1 h2 h3 h4
    obtain ⟨a, ha⟩ := List.length_eq_one_iff.mp (by simpa using h1)
    obtain ⟨b, hb⟩ := List.length_eq_one_iff.mp (by simpa using h2)
    obtain ⟨ka, hka⟩ := List.length_eq_one_iff.mp (by simpa using h3)
    obtain ⟨kb, hkb⟩ := List.length_eq_one_iff.mp (by simpa using h4)
    unfold proveLoop
    simp [ha, hb, hka, hkb]
  | succ k ih =>
    intro fuel st hf h1 h2 h3 h4
    obtain ⟨fuel, rfl⟩ : ∃ f, fuel = f + 1 := ⟨fuel - 1, by omega⟩
    have e : (2 : ℕ) ^ (k + 1) = 2 * 2 ^ k := by rw [pow_succ]; ring
    rw [e] at h1 h2 h3 h4
    have hne : ¬ st.ma.length = 1 := by omega
    rw [proveLoop, if_neg hne]
    rw [proveRound_eq L kt (2 ^ k) st h1 h2 h3 h4]
    obtain ⟨c, hc, hch⟩ := challenge_of_ends L hd hs (st.transcript.getLast?.getD 0)
      (cross1 β φa φb ψ kt (2 ^ k) st.ma st.mb st.cka st.ckb)
      (cross2 β φa φb ψ kt (2 ^ k) st.ma st.mb st.cka st.ckb) ⟨_, _, rfl⟩ ⟨_, _, rfl⟩
    rw [hch]
    simp only [ok_bind]
    exact ih fuel _ (by omega) (length_foldHalf _ _ _ h1) (length_foldHalf _ _ _ h2)
      (length_foldHalf _ _ _ h3) (length_foldHalf _ _ _ h4)

theorem proveWithAux_total (L : P.Lawful β φa φb ψ) (hd : ∀ x, 16 ≤ (P.digest x).length)
    (hs : SearchEnds P) (kt : KT) (k : ℕ) (ma : List MA) (mb : List MB) (cka : List KA)
    (ckb : List KB) (h1 : ma.length = 2 ^ k) (h2 : mb.length = 2 ^ k) (h3 : cka.length = 2 ^ k)
    (h4 : ckb.length = 2 ^ k) :
    ∃ steps cs a b ka kb,
      ProveOutcome P β φa φb ψ kt k ma mb cka ckb steps cs a b ka kb := by
  refine (proveWithAux_outcome L hd kt k ma mb cka ckb h1 h2 h3 h4).resolve_left ?_
  unfold proveWithAux
  rw [h1]
  simp only [isPow2_two_pow, assert_true, ok_bind]
  exact proveLoop_ne_diverge L hd hs kt k _ _ Nat.lt_two_pow_self.le h1 h2 h3 h4

/-! ## The forged proof: shift of the first step -/

/-- The first step with inner product shifted by `s`. -/
def shifted (β : MA →ₗ[F] MB →ₗ[F] T) (φa : MA →ₗ[F] KA →ₗ[F] OA) (φb : MB →ₗ[F] KB →ₗ[F] OB)
    (ψ : KT → T → OT) (kt : KT) (n : ℕ) (ma : List MA) (mb : List MB) (cka : List KA)
    (ckb : List KB) (s : T) : Coms OA OB OT :=
  ((cross1 β φa φb ψ kt n ma mb cka ckb).1, (cross1 β φa φb ψ kt n ma mb cka ckb).2.1,
    ψ kt (dot (β · ·) (ma.drop n) (mb.take n) + s))

/-- If the challenge of the first round is `c`, honest steps after the shifted one fold the commitments with inner
product shifted by `- c s` to honest ones. -/
theorem shift_fold (L : P.Lawful β φa φb ψ)
    (kt : KT) (k : ℕ) (ma : List MA) (mb : List MB) (cka : List KA) (ckb : List KB)
    (h1 : ma.length = 2 ^ (k + 1)) (h2 : mb.length = 2 ^ (k + 1)) (h3 : cka.length = 2 ^ (k + 1))
    (h4 : ckb.length = 2 ^ (k + 1)) (s : T) (c : F) (hc : c ≠ 0)
    (hch : P.challenge 0 (shifted β φa φb ψ kt (2 ^ k) ma mb cka ckb s) (cross2 β φa φb ψ kt (2 ^ k) ma mb cka ckb) =
      .ok (c, c⁻¹))
    (hloop : ∀ st : ProveState F MA MB KA KB OA OB OT, st.ma.length = 2 ^ k → st.mb.length = 2 ^ k →
      st.cka.length = 2 ^ k → st.ckb.length = 2 ^ k →
      ∃ steps cs a b ka kb, LoopOutcome P β φa φb ψ kt k k st steps cs a b ka kb) :
    ∃ (steps : List (Coms OA OB OT × Coms OA OB OT)) (cs : List F) (a : MA) (b : MB) (ka : KA)
      (kb : KB), FoldOutcome P β φa φb ψ kt (k + 1) ma mb cka ckb
        (dot (φa · ·) ma cka, dot (φb · ·) mb ckb, ψ kt (dot (β · ·) ma mb - c • s))
        ((shifted β φa φb ψ kt (2 ^ k) ma mb cka ckb s, cross2 β φa φb ψ kt (2 ^ k) ma mb cka ckb) :: steps)
        (c :: cs) a b ka kb := by
  have e : (2 : ℕ) ^ (k + 1) = 2 * 2 ^ k := by rw [pow_succ]; ring
  rw [e] at h1 h2 h3 h4
  set n := 2 ^ k
  let com1 := shifted β φa φb ψ kt n ma mb cka ckb s
  let com2 := cross2 β φa φb ψ kt n ma mb cka ckb
  let st : ProveState F MA MB KA KB OA OB OT :=
    { ma := foldHalf c ma, mb := foldHalf c⁻¹ mb, cka := foldHalf c⁻¹ cka, ckb := foldHalf c ckb,
      steps := [(com1, com2)], transcript := [c] }
  obtain ⟨steps, cs, a, b, ka, kb, O⟩ :=
    hloop st (length_foldHalf _ _ _ h1) (length_foldHalf _ _ _ h2) (length_foldHalf _ _ _ h3)
      (length_foldHalf _ _ _ h4)
  have hf : foldComs c c⁻¹ (dot (φa · ·) ma cka, dot (φb · ·) mb ckb,
      ψ kt (dot (β · ·) ma mb - c • s)) com1 com2 =
      honestComs β φa φb ψ kt st.ma st.mb st.cka st.ckb := by
    rw [← foldComs_honest L kt n c hc ma mb cka ckb h1 h2 h3 h4]
    simp only [foldComs, com1, com2, shifted, cross2, honestComs, Prod.mk.injEq]
    refine ⟨trivial, trivial, ?_⟩
    simp only [cross1, honestComs]
    rw [← L.ψ_smul, ← L.ψ_smul, ← L.ψ_smul, ← L.ψ_add, ← L.ψ_add, ← L.ψ_add, ← L.ψ_add]
    congr 1
    rw [smul_add]; abel
  refine ⟨steps, cs, a, b, ka, kb, by simp [O.length_steps], by simp [O.length_cs], ?_, ?_, O.fold_ma, O.fold_mb,
    O.fold_cka, O.fold_ckb, ?_⟩
  · intro d hd
    rcases List.mem_cons.mp hd with rfl | hd
    · exact hc
    · exact O.ne_zero d hd
  · rw [Gipa.chals]
    simp only [List.getLast?_nil, Option.getD_none, hch, ok_bind, List.nil_append]
    simpa [st] using O.chals
  · exact (congrArg (foldMany steps cs) hf).trans O.coms

/-- From any statement of length `2^(k+1)` and any shift `s` of the inner product: steps and
challenges that fold the commitments with shifted inner product to honest ones. -/
theorem forge_fold (L : P.Lawful β φa φb ψ)
    (hd : ∀ x, 16 ≤ (P.digest x).length) (hs : SearchEnds P)
    (kt : KT) (k : ℕ) (ma : List MA) (mb : List MB) (cka : List KA) (ckb : List KB)
    (h1 : ma.length = 2 ^ (k + 1)) (h2 : mb.length = 2 ^ (k + 1)) (h3 : cka.length = 2 ^ (k + 1))
    (h4 : ckb.length = 2 ^ (k + 1)) (s : T) :
    ∃ (c : F) (steps : List (Coms OA OB OT × Coms OA OB OT)) (cs : List F) (a : MA) (b : MB) (ka : KA)
      (kb : KB), c ≠ 0 ∧ FoldOutcome P β φa φb ψ kt (k + 1) ma mb cka ckb
        (dot (φa · ·) ma cka, dot (φb · ·) mb ckb, ψ kt (dot (β · ·) ma mb - c • s)) steps cs a b ka
        kb := by
  obtain ⟨c, hc, hch⟩ := challenge_of_ends L hd hs 0 (shifted β φa φb ψ kt (2 ^ k) ma mb cka ckb s)
    (cross2 β φa φb ψ kt (2 ^ k) ma mb cka ckb) ⟨_, _, rfl⟩ ⟨_, _, rfl⟩
  obtain ⟨steps, cs, a, b, ka, kb, O⟩ := shift_fold L kt k ma mb cka ckb h1 h2 h3 h4 s c hc hch
    fun st e1 e2 e3 e4 => (proveLoop_outcome L hd kt k k st le_rfl e1 e2 e3 e4).resolve_left
      (proveLoop_ne_diverge L hd hs kt k k st le_rfl e1 e2 e3 e4)
  exact ⟨c, _, _, a, b, ka, kb, hc, O⟩

/-- From any statement of length `2^(k+1)` and any shift `s` of the inner product: an accepted proof
for the shifted inner product commitment. -/
theorem forge [DecidableEq OA] [DecidableEq OB] [DecidableEq OT] (L : P.Lawful β φa φb ψ)
    (hd : ∀ x, 16 ≤ (P.digest x).length) (hs : SearchEnds P)
    (kt : KT) (k : ℕ) (ma : List MA) (mb : List MB) (cka : List KA) (ckb : List KB)
    (h1 : ma.length = 2 ^ (k + 1)) (h2 : mb.length = 2 ^ (k + 1)) (h3 : cka.length = 2 ^ (k + 1))
    (h4 : ckb.length = 2 ^ (k + 1)) (s : T) :
    ∃ (c : F) (proof : GipaProof MA MB OA OB OT), c ≠ 0 ∧
      P.verify cka ckb kt (dot (φa · ·) ma cka, dot (φb · ·) mb ckb,
        ψ kt (dot (β · ·) ma mb - c • s)) proof = .ok true := by
  obtain ⟨c, steps, cs, a, b, ka, kb, hc, O⟩ := forge_fold L hd hs kt k ma mb cka ckb h1 h2 h3 h4 s
  exact ⟨c, _, hc, O.verify L h3 h4⟩

end Gipa

end Ripp
