import Verif.Props.Level

/-!
# C137: trying hash inputs until the challenge fits

A lower bound that goes with C84 and C136. The prover fixes a challenge in advance, chooses step commitments with which a
false statement passes for this challenge, and hashes them; then it tries the next ones. One attempt serves for all
statements that differ in the inner product, as the statement is not hashed (C21).
-/

set_option linter.unusedSectionVars false

namespace Ripp.Grind

open Spec GipaStatic Extract Level

/-! ## Counting -/

/-- The functions that avoid a set of values at each of `Q` places. -/
theorem card_avoid {X D : Type} [Fintype X] [DecidableEq X] [Fintype D] [DecidableEq D] (Q g : ℕ) (x : Fin Q → X)
    (hx : Function.Injective x) (good : Fin Q → Finset D) (hg : ∀ i, (good i).card = g) :
    (Finset.univ.filter fun H : X → D => ∀ i, H (x i) ∉ good i).card * Fintype.card D ^ Q =
      (Fintype.card D - g) ^ Q * Fintype.card (X → D) := by
  classical
  let allowed : X → Finset D := fun y => Finset.univ.filter fun d => ∀ i, x i = y → d ∉ good i
  have h1 : (Finset.univ.filter fun H : X → D => ∀ i, H (x i) ∉ good i) = Fintype.piFinset allowed := by
    ext H
    simp only [Finset.mem_filter, Finset.mem_univ, true_and, Fintype.mem_piFinset, allowed]
    constructor
    · rintro h _ i rfl; exact h i
    · intro h i; exact h _ i rfl
  have h2 : ∀ i, (allowed (x i)).card = Fintype.card D - g := by
    intro i
    have : allowed (x i) = (good i)ᶜ := by
      ext d
      simp only [allowed, Finset.mem_filter, Finset.mem_univ, true_and, Finset.mem_compl]
      constructor
      · intro h; exact h i rfl
      · intro h j hj; rw [hx hj]; exact h
    rw [this, Finset.card_compl, hg]
  have h3 : ∀ y ∈ (Finset.univ.image x)ᶜ, (allowed y).card = Fintype.card D := by
    intro y hy
    rw [Finset.mem_compl, Finset.mem_image] at hy
    have : allowed y = Finset.univ := by
      ext d
      simp only [allowed, Finset.mem_filter, Finset.mem_univ, true_and, iff_true]
      exact fun i hi => (hy ⟨i, Finset.mem_univ _, hi⟩).elim
    rw [this, Finset.card_univ]
  rw [h1, Fintype.card_piFinset, ← Finset.prod_mul_prod_compl (Finset.univ.image x), Finset.prod_congr rfl h3,
    Finset.prod_const, Finset.prod_image fun i _ j _ h => hx h, Finset.prod_congr rfl fun i _ => h2 i, Finset.prod_const,
    Finset.card_univ, Fintype.card_fin, Finset.card_compl, Finset.card_image_of_injective _ hx, Finset.card_univ,
    Fintype.card_fin, mul_assoc, ← pow_add, Fintype.card_fun]
  congr 2
  have := Fintype.card_le_of_injective x hx
  rw [Fintype.card_fin] at this
  omega

/-- Bernoulli. -/
theorem pow_mul_le (M S : ℕ) (h : S ≤ M) : ∀ Q, (M - S) ^ Q * (M + Q * S) ≤ M ^ Q * M
  | 0 => by simp
  | Q + 1 => by
    obtain ⟨K, rfl⟩ : ∃ K, M = K + S := ⟨M - S, by omega⟩
    have ih := pow_mul_le (K + S) S (by omega) Q
    simp only [Nat.add_sub_cancel] at ih ⊢
    calc K ^ (Q + 1) * (K + S + (Q + 1) * S) = K ^ Q * (K * (K + S + (Q + 1) * S)) := by ring
      _ ≤ K ^ Q * ((K + S + Q * S) * (K + S)) := Nat.mul_le_mul_left _ (by
        have : (K + S + Q * S) * (K + S) = K * (K + S + (Q + 1) * S) + (S * S + Q * S * S) := by ring
        omega)
      _ = K ^ Q * (K + S + Q * S) * (K + S) := by ring
      _ ≤ (K + S) ^ Q * (K + S) * (K + S) := by gcongr
      _ = _ := by ring

/-! ## The attack -/

section Attack

variable {ρ F MA MB T KA KB KT OA OB OT : Type} [Field F] [DecidableEq F]
  [AddCommGroup MA] [Module F MA] [AddCommGroup MB] [Module F MB] [AddCommGroup T] [Module F T] [DecidableEq T]
  [AddCommGroup KA] [Module F KA] [AddCommGroup KB] [Module F KB] [AddCommGroup OA] [Module F OA]
  [AddCommGroup OB] [Module F OB] [Add OT] [SMul F OT] [DecidableEq OA] [DecidableEq OB] [DecidableEq OT]
  {P : Gipa ρ F MA MB T KA KB KT OA OB OT} {φa : MA →ₗ[F] KA →ₗ[F] OA} {φb : MB →ₗ[F] KB →ₗ[F] OB}
  {β : MA →ₗ[F] MB →ₗ[F] T} {ψ : KT → T → OT}

/-- C137: for vectors of any length `2^(k+1)`, if the challenge of the first round is `c` for step commitments shifted by
`s`, then honest further rounds make a proof that is accepted for the inner product `⟨a, b⟩ - c s`. -/
theorem C137_hit (L : P.Lawful β φa φb ψ) (hd : ∀ x, 16 ≤ (P.digest x).length) (hs : P.SearchEnds) (kt : KT) (k : ℕ)
    (ma : List MA) (mb : List MB) (cka : List KA) (ckb : List KB) (h1 : ma.length = 2 ^ (k + 1))
    (h2 : mb.length = 2 ^ (k + 1)) (h3 : cka.length = 2 ^ (k + 1)) (h4 : ckb.length = 2 ^ (k + 1)) (s : T) (c : F)
    (hch : P.challenge 0
      (dot (φa · ·) (ma.drop (2 ^ k)) (cka.take (2 ^ k)), dot (φb · ·) (mb.take (2 ^ k)) (ckb.drop (2 ^ k)),
        ψ kt (dot (β · ·) (ma.drop (2 ^ k)) (mb.take (2 ^ k)) + s))
      (dot (φa · ·) (ma.take (2 ^ k)) (cka.drop (2 ^ k)), dot (φb · ·) (mb.drop (2 ^ k)) (ckb.take (2 ^ k)),
        ψ kt (dot (β · ·) (ma.take (2 ^ k)) (mb.drop (2 ^ k)))) = .ok (c, c⁻¹)) :
    ∃ proof, P.verify cka ckb kt
      (dot (φa · ·) ma cka, dot (φb · ·) mb ckb, ψ kt (dot (β · ·) ma mb - c • s)) proof = .ok true := by
  obtain ⟨steps, cs, a, b, ka, kb, O⟩ := Gipa.shift_fold L kt k ma mb cka ckb h1 h2 h3 h4 s c
    (P.challenge_ok hch).1 hch fun st e1 e2 e3 e4 =>
      (Gipa.proveLoop_outcome L hd kt k k st le_rfl e1 e2 e3 e4).resolve_left
        (Gipa.proveLoop_ne_diverge L hd hs kt k k st le_rfl e1 e2 e3 e4)
  exact ⟨_, O.verify L h3 h4⟩

variable {Xs Ds : Finset Bytes} {va : Fin 2 → KA} {vb : Fin 2 → KB} {kt : KT}
  (hmem : ∀ k z1 z2, P.hashInput 0 k (coms φa φb (ψ kt) va vb z1) (coms φa φb (ψ kt) va vb z2) ∈ Xs)

/-- What attempt number `i` hashes: the honest step of a round for vectors of length two, shifted by `(i + 1) s`. -/
def attempt (β : MA →ₗ[F] MB →ₗ[F] T) (ra : Fin 2 → MA) (rb : Fin 2 → MB) (s : T) (i : ℕ) :
    Known 2 MA MB T × Known 2 MA MB T :=
  ((![ra 1, 0], ![0, rb 0], β (ra 1) (rb 0) + ((i + 1 : ℕ) : F) • s),
    (![0, ra 0], ![rb 1, 0], β (ra 0) (rb 1)))

/-- The first 16 bytes of a digest. -/
def prefixOf {Ds : Finset Bytes} (d : Ds) : ℕ := beNat ((d : Bytes).take 16)

/-- The digest is `(i + 1) j` for one of the `S` statements. -/
def Hit {Ds : Finset Bytes} (S i : ℕ) (d : Ds) : Prop := ∃ j, 1 ≤ j ∧ j ≤ S ∧ prefixOf d = (i + 1) * j

open Classical in
/-- The first attempt that succeeded. -/
noncomputable def firstHit {Ds : Finset Bytes} (S : ℕ) (ds : List Ds) : Option (ℕ × Ds) :=
  ds.zipIdx.find? (fun p => decide (Hit S p.2 p.1)) |>.map fun p => (p.2, p.1)

/-- The prover that makes attempts `0, 1, …` and outputs the first that succeeded. -/
noncomputable def grinder (β : MA →ₗ[F] MB →ₗ[F] T) (ra : Fin 2 → MA) (rb : Fin 2 → MB) (s : T) (S : ℕ) :
    Prover 2 MA MB T Xs Ds where
  query ds := link P φa φb (ψ kt) va vb hmem (attempt β ra rb s ds.length) 0
  label ds := attempt β ra rb s ds.length
  steps ds := [attempt β ra rb s ((firstHit S ds).elim 0 (·.1))]
  base ds := (firstHit S ds).elim (0, 0) fun p =>
    (ra 0 + challengeOf F p.2 • ra 1, rb 0 + (challengeOf F p.2)⁻¹ • rb 1)

theorem firstHit_spec {S : ℕ} {ds : List Ds} {p : ℕ × Ds} (h : firstHit S ds = some p) :
    ds[p.1]? = some p.2 ∧ Hit S p.1 p.2 := by
  rw [firstHit, Option.map_eq_some_iff] at h
  obtain ⟨q, h1, rfl⟩ := h
  refine ⟨?_, by simpa using List.find?_some h1⟩
  have := List.mem_of_find?_eq_some h1
  rwa [List.mem_zipIdx_iff_getElem?] at this

theorem firstHit_isSome {S i : ℕ} {ds : List Ds} {d : Ds} (h : ds[i]? = some d) (hit : Hit S i d) :
    ∃ p, firstHit S ds = some p := by
  rw [← Option.isSome_iff_exists, firstHit, Option.isSome_map, List.find?_isSome]
  exact ⟨(d, i), List.mem_zipIdx_iff_getElem?.mpr h, by simpa using hit⟩

theorem take_pair {α : Type} (x y : α) : [x, y].take 1 = [x] := rfl

/-- The commitments of the statement `⟨a, b⟩ - (1 / j) s`. -/
def statement (β : MA →ₗ[F] MB →ₗ[F] T) (φa : MA →ₗ[F] KA →ₗ[F] OA) (φb : MB →ₗ[F] KB →ₗ[F] OB) (ψ : KT → T → OT)
    (va : Fin 2 → KA) (vb : Fin 2 → KB) (kt : KT) (ra : Fin 2 → MA) (rb : Fin 2 → MB) (s : T) (j : ℕ) :
    Coms OA OB OT :=
  (commitTo φa va ra, commitTo φb vb rb, ψ kt (∑ i, β (ra i) (rb i) - (j : F)⁻¹ • s))

theorem asked_grinder (ra : Fin 2 → MA) (rb : Fin 2 → MB) (s : T) (S : ℕ) (H : Xs → Ds) (i : ℕ) :
    Oracle.asked (grinder (P := P) (Ds := Ds) hmem β ra rb s S).query H i =
      link P φa φb (ψ kt) va vb hmem (attempt β ra rb s i) 0 := by
  simp [Oracle.asked, grinder]

/-- If an attempt succeeds, the proof is accepted for one of the statements. -/
theorem accepted (L : P.Lawful β φa φb ψ) (hd : ∀ d ∈ Ds, 16 ≤ d.length) (p : ℕ) [CharP F p]
    (hp : p = 0 ∨ 2 ^ 128 ≤ p) (Q S : ℕ) (hQS : Q * S < 2 ^ 128) (ra : Fin 2 → MA) (rb : Fin 2 → MB) (s : T)
    (H : Xs → Ds) (i : ℕ) (hi : i < Q)
    (hit : Hit S i (H (link P φa φb (ψ kt) va vb hmem (attempt β ra rb s i) 0))) :
    ∃ j, 1 ≤ j ∧ j ≤ S ∧ (withDigest P (Sipp.oracle H)).verify (List.ofFn va) (List.ofFn vb) kt
      (statement β φa φb ψ va vb kt ra rb s j)
      ((grinder (P := P) hmem β ra rb s S).proof φa φb (ψ kt) va vb Q H) = .ok true := by
  set A := grinder (P := P) (Ds := Ds) hmem β ra rb s S with hA
  have ht : ∀ i < Q, (Oracle.trace A.query H Q)[i]? =
      some (H (link P φa φb (ψ kt) va vb hmem (attempt β ra rb s i) 0)) := fun i hi => by
    rw [Oracle.trace_getElem? _ _ _ _ hi, hA, asked_grinder]
  obtain ⟨⟨i, d⟩, hf⟩ := firstHit_isSome (ht i hi) hit
  obtain ⟨hid, j, hj1, hj2, hv⟩ := firstHit_spec hf
  simp only at hid hv
  have hi : i < Q := by
    have := (List.getElem?_eq_some_iff.mp hid).1
    simpa using this
  obtain rfl : H (link P φa φb (ψ kt) va vb hmem (attempt β ra rb s i) 0) = d := by
    have := ht i hi
    rw [hid] at this
    exact (Option.some.inj this).symm
  set x := link P φa φb (ψ kt) va vb hmem (attempt β ra rb s i) 0 with hx
  have hlt : (i + 1) * j < 2 ^ 128 := lt_of_le_of_lt (Nat.mul_le_mul hi hj2) hQS
  have hpos : 0 < (i + 1) * j := Nat.mul_pos (Nat.succ_pos _) hj1
  have hv0 : (prefixOf (H x) : F) ≠ 0 := by
    rw [hv]
    intro h
    rw [← Nat.cast_zero] at h
    have := cast_inj F p hp hlt (by norm_num) h
    omega
  have hi0 : ((i + 1 : ℕ) : F) ≠ 0 := by
    rw [hv, Nat.cast_mul] at hv0
    exact left_ne_zero_of_mul hv0
  set c := challengeOf F (H x) with hc
  have hc0 : c ≠ 0 := inv_ne_zero hv0
  have hcs : c • (((i + 1 : ℕ) : F) • s) = (j : F)⁻¹ • s := by
    rw [smul_smul, hc, challengeOf, ← prefixOf, hv, Nat.cast_mul, mul_inv]
    congr 1
    field_simp
  refine ⟨j, hj1, hj2, ?_⟩
  have e1 : Gipa.shifted β φa φb ψ kt (2 ^ 0) (List.ofFn ra) (List.ofFn rb) (List.ofFn va) (List.ofFn vb)
      (((i + 1 : ℕ) : F) • s) = coms φa φb (ψ kt) va vb (attempt β ra rb s i).1 := by
    simp [Gipa.shifted, Gipa.cross1, Gipa.honestComs, coms, attempt, commitTo, List.ofFn_succ, Fin.sum_univ_two,
      take_pair]
  have e2 : Gipa.cross2 β φa φb ψ kt (2 ^ 0) (List.ofFn ra) (List.ofFn rb) (List.ofFn va) (List.ofFn vb) =
      coms φa φb (ψ kt) va vb (attempt β ra rb s i).2 := by
    simp [Gipa.cross2, Gipa.honestComs, coms, attempt, commitTo, List.ofFn_succ, Fin.sum_univ_two,
      take_pair]
  have hch : (withDigest P (Sipp.oracle H)).challenge 0 (coms φa φb (ψ kt) va vb (attempt β ra rb s i).1)
      (coms φa φb (ψ kt) va vb (attempt β ra rb s i).2) = .ok (c, c⁻¹) := by
    have hdig : (withDigest P (Sipp.oracle H)).digest ((withDigest P (Sipp.oracle H)).hashInput 0 0
        (coms φa φb (ψ kt) va vb (attempt β ra rb s i).1) (coms φa φb (ψ kt) va vb (attempt β ra rb s i).2)) =
        H x := oracle_apply H x
    have hl : ¬ ((H x : Ds) : Bytes).length < 16 := by have := hd _ (H x).2; omega
    rw [Gipa.challenge, show nonceLimit = (nonceLimit - 1) + 1 by decide, searchNonce,
      Gipa.challengeAttempt, hdig]
    rw [prefixOf] at hv0
    simp only [if_neg hl, inverse_of_ne hv0, hc, challengeOf, inv_inv]
  have L' : (withDigest P (Sipp.oracle H)).Lawful β φa φb ψ := ⟨L.1, L.2, L.3, L.4, L.5, L.6⟩
  obtain ⟨steps, cs, a, b, ka, kb, O⟩ := Gipa.shift_fold L' kt 0 (List.ofFn ra) (List.ofFn rb) (List.ofFn va)
    (List.ofFn vb) (by simp) (by simp) (by simp) (by simp) (((i + 1 : ℕ) : F) • s) c hc0 (by rw [e1, e2]; exact hch)
    fun st h1 h2 h3 h4 => by
      obtain ⟨a, b, ka, kb, O⟩ := Gipa.proveLoop_one (withDigest P (Sipp.oracle H)) β φa φb ψ kt 0 st h1 h2 h3 h4
      exact ⟨_, _, _, _, _, _, O⟩
  have hV := O.verify L' (by simp) (by simp)
  obtain rfl : steps = [] := by simpa using O.length_steps
  obtain rfl : cs = [] := by simpa using O.length_cs
  have ha : a = ra 0 + c • ra 1 := by
    have := O.fold_ma
    simp [foldAll, foldHalf, List.ofFn_succ, addV, smulV] at this
    exact this.symm
  have hb : b = rb 0 + c⁻¹ • rb 1 := by
    have := O.fold_mb
    simp [foldAll, foldHalf, List.ofFn_succ, addV, smulV] at this
    exact this.symm
  have hproof : A.proof φa φb (ψ kt) va vb Q H = { steps := [(coms φa φb (ψ kt) va vb (attempt β ra rb s i).1,
      coms φa φb (ψ kt) va vb (attempt β ra rb s i).2)].reverse, base := (a, b) } := by
    rw [Prover.proof, hA]
    simp only [grinder] at hf ⊢
    simp only [hA, grinder] at hf
    rw [hf, ha, hb]
    rfl
  have hst : statement β φa φb ψ va vb kt ra rb s j = (dot (φa · ·) (List.ofFn ra) (List.ofFn va),
      dot (φb · ·) (List.ofFn rb) (List.ofFn vb),
      ψ kt (dot (β · ·) (List.ofFn ra) (List.ofFn rb) - c • (((i + 1 : ℕ) : F) • s))) := by
    rw [statement, hcs, dot_ofFn, dot_ofFn, dot_ofFn]
    rfl
  rw [hproof, hst, ← e1, ← e2]
  exact hV

/-- The digests with which attempt `i` succeeds. -/
theorem card_hit (L i S : ℕ) (hL : 16 ≤ L) (h : (i + 1) * S < 2 ^ 128) [DecidablePred (Hit (Ds := digests L) S i)] :
    (Finset.univ.filter fun d : digests L => Hit S i d).card = S * 256 ^ (L - 16) := by
  classical
  have e : (Finset.univ.filter fun d : digests L => Hit S i d) =
      (Finset.range S).biUnion fun j => Finset.univ.filter fun d : digests L => prefixOf d = (i + 1) * (j + 1) := by
    ext d
    simp only [Finset.mem_filter, Finset.mem_univ, true_and, Finset.mem_biUnion, Finset.mem_range]
    constructor
    · rintro ⟨j, h1, h2, h3⟩
      exact ⟨j - 1, by omega, by rw [h3]; congr 1; omega⟩
    · rintro ⟨j, h1, h2⟩
      exact ⟨j + 1, by omega, by omega, h2⟩
  rw [e, Finset.card_biUnion, Finset.sum_congr rfl (g := fun _ => 256 ^ (L - 16)), Finset.sum_const, Finset.card_range,
    smul_eq_mul]
  · intro j hj
    rw [Finset.mem_range] at hj
    rw [← card_first16 L hL ((i + 1) * (j + 1)) (lt_of_le_of_lt (Nat.mul_le_mul_left _ (by omega)) h)]
    refine Finset.card_bij (fun d _ => (d : Bytes)) ?_ (fun _ _ _ _ h => Subtype.ext h) ?_
    · intro d hd
      exact Finset.mem_filter.mpr ⟨d.2, (Finset.mem_filter.mp hd).2⟩
    · intro d hd
      obtain ⟨h1, h2⟩ := Finset.mem_filter.mp hd
      exact ⟨⟨d, h1⟩, Finset.mem_filter.mpr ⟨Finset.mem_univ _, h2⟩, rfl⟩
  · intro j _ j' _ hne
    refine Finset.disjoint_left.mpr fun d h1 h2 => hne ?_
    have h1 := (Finset.mem_filter.mp h1).2
    have h2 := (Finset.mem_filter.mp h2).2
    have := Nat.eq_of_mul_eq_mul_left (Nat.succ_pos i) (h1.symm.trans h2)
    omega

theorem link_injective (hF : Decodable (fun _ => True) P.serF) (hA : Decodable (fun _ => True) P.serA)
    (hB : Decodable (fun _ => True) P.serB) (hT : Decodable (· ∈ Set.range (ψ kt)) P.serT)
    (hψ : Function.Injective (ψ kt)) (p : ℕ) [CharP F p] (hp : p = 0 ∨ 2 ^ 128 ≤ p) (ra : Fin 2 → MA)
    (rb : Fin 2 → MB) (s : T) (hs : s ≠ 0) {i i' : ℕ} (hi : i + 1 < 2 ^ 128) (hi' : i' + 1 < 2 ^ 128)
    (h : link P φa φb (ψ kt) va vb hmem (attempt β ra rb s i) 0 = link P φa φb (ψ kt) va vb hmem (attempt β ra rb s i') 0) :
    i = i' := by
  have h := congrArg Subtype.val h
  simp only [link, Gipa.hashInput, List.append_assoc, attempt, coms] at h
  obtain ⟨-, h⟩ := decodable_nonce _ _ _ _ (by norm_num) (by norm_num) h
  obtain ⟨-, h⟩ := hF _ _ _ _ trivial trivial h
  obtain ⟨-, h⟩ := hA _ _ _ _ trivial trivial h
  obtain ⟨-, h⟩ := hB _ _ _ _ trivial trivial h
  obtain ⟨h, -⟩ := hT _ _ _ _ ⟨_, rfl⟩ ⟨_, rfl⟩ h
  have h := smul_left_injective F hs (add_left_cancel (hψ h))
  have := cast_inj F p hp hi hi' h
  omega

open Classical in
/-- C137: for false statements `⟨a, b⟩ - (1 / j) s`, `j = 1, …, S`, about given vectors of length two there is a prover
with `Q` queries whose proof is refused for all of them only for a share of `(1 - S / 2^128)^Q` of all oracles. -/
theorem C137_refused (L : P.Lawful β φa φb ψ) (hF : Decodable (fun _ => True) P.serF)
    (hA : Decodable (fun _ => True) P.serA) (hB : Decodable (fun _ => True) P.serB)
    (hT : Decodable (· ∈ Set.range (ψ kt)) P.serT) (hψ : Function.Injective (ψ kt)) (p : ℕ) [CharP F p]
    (hp : p = 0 ∨ 2 ^ 128 ≤ p) (l : ℕ) (hl : 16 ≤ l) (Q S : ℕ) (hS : 1 ≤ S) (hQS : Q * S < 2 ^ 128) (ra : Fin 2 → MA)
    (rb : Fin 2 → MB) (s : T) (hs : s ≠ 0) :
    (Finset.univ.filter fun H : Xs → digests l => ¬ ∃ j, 1 ≤ j ∧ j ≤ S ∧
      (withDigest P (Sipp.oracle H)).verify (List.ofFn va) (List.ofFn vb) kt
        (statement β φa φb ψ va vb kt ra rb s j)
        ((grinder (P := P) hmem β ra rb s S).proof φa φb (ψ kt) va vb Q H) = .ok true).card * (2 ^ 128) ^ Q ≤
    (2 ^ 128 - S) ^ Q * Fintype.card (Xs → digests l) := by
  let x : Fin Q → Xs := fun i => link P φa φb (ψ kt) va vb hmem (attempt β ra rb s i) 0
  have hQ : Q < 2 ^ 128 := lt_of_le_of_lt (Nat.le_mul_of_pos_right Q hS) hQS
  have hx : Function.Injective x := fun i i' h =>
    Fin.ext (link_injective hmem hF hA hB hT hψ p hp ra rb s hs (by omega) (by omega) h)
  have hc := card_avoid (D := digests l) Q (S * 256 ^ (l - 16)) x hx
    (fun i => Finset.univ.filter fun d : digests l => Hit S i d)
    fun i => card_hit l i S hl (lt_of_le_of_lt (Nat.mul_le_mul_right _ i.2) hQS)
  have hle : (Finset.univ.filter fun H : Xs → digests l => ¬ ∃ j, 1 ≤ j ∧ j ≤ S ∧
      (withDigest P (Sipp.oracle H)).verify (List.ofFn va) (List.ofFn vb) kt
        (statement β φa φb ψ va vb kt ra rb s j)
        ((grinder (P := P) hmem β ra rb s S).proof φa φb (ψ kt) va vb Q H) = .ok true).card ≤
      (Finset.univ.filter fun H : Xs → digests l =>
        ∀ i : Fin Q, H (x i) ∉ Finset.univ.filter fun d : digests l => Hit S i d).card := by
    refine Finset.card_le_card fun H hH => ?_
    rw [Finset.mem_filter] at hH ⊢
    refine ⟨Finset.mem_univ _, fun i hi => ?_⟩
    obtain ⟨j, h1, h2, h3⟩ := accepted hmem L (fun d hd => by rw [mem_digests.mp hd]; exact hl) p hp Q S hQS ra rb s H i
      i.2 (Finset.mem_filter.mp hi).2
    exact hH.2 ⟨j, h1, h2, h3⟩
  have e : Fintype.card (digests l) = 2 ^ 128 * 256 ^ (l - 16) := by
    rw [Fintype.card_coe, card_digests, show (2 : ℕ) ^ 128 = 256 ^ 16 by norm_num, ← pow_add]; congr 1; omega
  refine Nat.le_of_mul_le_mul_right (c := (256 ^ (l - 16)) ^ Q) ?_ (by positivity)
  rw [mul_assoc, ← mul_pow, ← e]
  refine (Nat.mul_le_mul_right _ hle).trans (le_of_eq (hc.trans ?_))
  rw [e, ← Nat.sub_mul, mul_pow]
  exact mul_right_comm _ _ _

open Classical in
/-- C137: so for a share of at least `Q S / (2^128 + Q S)` of all oracles one of the false statements is accepted. -/
theorem C137_accepted (L : P.Lawful β φa φb ψ) (hF : Decodable (fun _ => True) P.serF)
    (hA : Decodable (fun _ => True) P.serA) (hB : Decodable (fun _ => True) P.serB)
    (hT : Decodable (· ∈ Set.range (ψ kt)) P.serT) (hψ : Function.Injective (ψ kt)) (p : ℕ) [CharP F p]
    (hp : p = 0 ∨ 2 ^ 128 ≤ p) (l : ℕ) (hl : 16 ≤ l) (Q S : ℕ) (hS : 1 ≤ S) (hQS : Q * S < 2 ^ 128) (ra : Fin 2 → MA)
    (rb : Fin 2 → MB) (s : T) (hs : s ≠ 0) :
    Q * S * Fintype.card (Xs → digests l) ≤
    (Finset.univ.filter fun H : Xs → digests l => ∃ j, 1 ≤ j ∧ j ≤ S ∧
      (withDigest P (Sipp.oracle H)).verify (List.ofFn va) (List.ofFn vb) kt
        (statement β φa φb ψ va vb kt ra rb s j)
        ((grinder (P := P) hmem β ra rb s S).proof φa φb (ψ kt) va vb Q H) = .ok true).card * (2 ^ 128 + Q * S) := by
  have h := C137_refused hmem L hF hA hB hT hψ p hp l hl Q S hS hQS ra rb s hs
  set R := (Finset.univ.filter fun H : Xs → digests l => ¬ ∃ j, 1 ≤ j ∧ j ≤ S ∧
    (withDigest P (Sipp.oracle H)).verify (List.ofFn va) (List.ofFn vb) kt
      (statement β φa φb ψ va vb kt ra rb s j)
      ((grinder (P := P) hmem β ra rb s S).proof φa φb (ψ kt) va vb Q H) = .ok true) with hR
  have hsplit : (Finset.univ.filter fun H : Xs → digests l => ∃ j, 1 ≤ j ∧ j ≤ S ∧
      (withDigest P (Sipp.oracle H)).verify (List.ofFn va) (List.ofFn vb) kt
        (statement β φa φb ψ va vb kt ra rb s j)
        ((grinder (P := P) hmem β ra rb s S).proof φa φb (ψ kt) va vb Q H) = .ok true) = Rᶜ := by
    ext H
    simp only [hR, Finset.mem_filter, Finset.mem_univ, true_and, Finset.mem_compl, not_not]
  rw [hsplit, Finset.card_compl]
  have hRle : R.card ≤ Fintype.card (Xs → digests l) := Finset.card_le_univ R
  set N := Fintype.card (Xs → digests l)
  have hSM : S ≤ 2 ^ 128 ∨ Q = 0 := by
    rcases Nat.eq_zero_or_pos Q with h | h
    · exact Or.inr h
    · exact Or.inl (le_trans (Nat.le_mul_of_pos_left S h) hQS.le)
  rcases hSM with hSM | rfl
  · have hb := pow_mul_le (2 ^ 128) S hSM Q
    have : R.card * (2 ^ 128 + Q * S) ≤ 2 ^ 128 * N := by
      refine Nat.le_of_mul_le_mul_right (c := (2 ^ 128) ^ Q) ?_ (by positivity)
      calc R.card * (2 ^ 128 + Q * S) * (2 ^ 128) ^ Q = R.card * (2 ^ 128) ^ Q * (2 ^ 128 + Q * S) := by ring
        _ ≤ (2 ^ 128 - S) ^ Q * N * (2 ^ 128 + Q * S) := Nat.mul_le_mul_right _ h
        _ = (2 ^ 128 - S) ^ Q * (2 ^ 128 + Q * S) * N := by ring
        _ ≤ (2 ^ 128) ^ Q * 2 ^ 128 * N := Nat.mul_le_mul_right _ hb
        _ = _ := by ring
    rw [Nat.sub_mul, mul_add, mul_comm N (2 ^ 128)]
    have e : Q * S * N = N * (Q * S) := by ring
    omega
  · simp

/-- C137: these statements are false in the sense of C84. -/
theorem C137_false {O : Type} [AddCommGroup O] [Module F O] {η : OT → Option O} {ψ' : T →ₗ[F] O}
    (R : Reads F η (ψ kt) ψ') (p : ℕ) [CharP F p] (hp : p = 0 ∨ 2 ^ 128 ≤ p) (ra : Fin 2 → MA) (rb : Fin 2 → MB) (s : T)
    (hs : ψ' s ≠ 0) (j : ℕ) (h1 : 1 ≤ j) (hj : j < 2 ^ 128) :
    η (statement β φa φb ψ va vb kt ra rb s j).2.2 ≠ some (ψ' (∑ i, β (ra i) (rb i))) := by
  rw [statement, R.value, map_sub, map_smul]
  intro h
  have h := smul_eq_zero.mp (sub_eq_self.mp (Option.some.inj h))
  rcases h with h | h
  · rw [inv_eq_zero, ← Nat.cast_zero] at h
    have := cast_inj F p hp hj (by norm_num) h
    omega
  · exact hs h

end Attack

/-! ## An instance -/

section Example

variable {p : ℕ} [Fact p.Prime] (h2 : p + 1 = 2 ^ 521)

variable (p) in
/-- Multiplication. -/
abbrev times : ZMod p →ₗ[ZMod p] ZMod p →ₗ[ZMod p] ZMod p := LinearMap.lsmul (ZMod p) (ZMod p)

/-- All byte strings with at most `M` bytes. -/
def upTo (M : ℕ) : Finset Bytes := (Finset.range (M + 1)).biUnion digests

theorem mem_upTo {M : ℕ} {x : Bytes} : x ∈ upTo M ↔ x.length ≤ M := by
  simp only [upTo, Finset.mem_biUnion, Finset.mem_range, mem_digests]
  exact ⟨fun ⟨l, h1, h2⟩ => by omega, fun h => ⟨_, by omega, rfl⟩⟩

include h2 in
theorem mem_example {M : ℕ} (hM : 8000 ≤ M) (va vb : Fin 2 → ZMod p) (k : ZMod p)
    (z1 z2 : Known 2 (ZMod p) (ZMod p) (ZMod p)) :
    (env p).pairingAB.hashInput 0 k
      (coms (times p) (times p).flip (idψ PUnit.unit) va vb z1)
      (coms (times p) (times p).flip (idψ PUnit.unit) va vb z2) ∈
      upTo M := by
  rw [mem_upTo]
  have := Domain.length_bytes (encodes h2) (.roundAB 0 k
    (coms (times p) (times p).flip (idψ PUnit.unit) va vb z1)
    (coms (times p) (times p).flip (idψ PUnit.unit) va vb z2))
  refine le_trans (le_of_eq this) ?_
  simp only [Domain.Query.size, coms, idψ, List.length_cons, List.length_nil]
  omega

open Classical in
/-- `1 * 3 + 2 * 4 = 11`. With `2^40` queries the verifier accepts 10 for at least one in `2^89` oracles. -/
example {M l : ℕ} (hM : 8000 ≤ M) (hl : 16 ≤ l) :
    Fintype.card (upTo M → digests l) ≤ (Finset.univ.filter fun H : upTo M → digests l =>
      (withDigest (env p).pairingAB (Sipp.oracle H)).verify [1, 25] [1, 9] PUnit.unit (51, 39, ⟨[10]⟩)
        ((grinder (P := (env p).pairingAB) (mem_example h2 hM ![1, 25] ![1, 9])
          (times p) ![1, 2] ![3, 4] 1 1).proof (times p) (times p).flip
          (idψ PUnit.unit) ![1, 25] ![1, 9] (2 ^ 40) H) = .ok true).card *
      2 ^ 89 := by
  have hdec : Decodable (fun _ => True) fun x : ZMod p => (env p).serGT x :=
    .of_fixed 576 (fun x _ => (encodes h2).4 x) fun x y _ _ h => (encodes h2).8 h
  have h := C137_accepted (P := (env p).pairingAB) (φa := times p)
    (φb := (times p).flip) (ψ := idψ) (kt := PUnit.unit) (va := ![1, 25]) (vb := ![1, 9])
    (mem_example h2 hM ![1, 25] ![1, 9]) (pairingAB_lawful (env p) lawful)
    (.of_fixed 66 (fun x _ => (encodes h2).1 x) fun x y _ _ h => (encodes h2).5 h) hdec hdec
    (decodable_single hdec) (fun x y h => by simpa [idψ] using h) p (.inr (le_modulus h2)) l hl (2 ^ 40) 1 le_rfl
    (by norm_num) ![1, 2] ![3, 4] 1 one_ne_zero
  have e : statement (times p) (times p)
      (times p).flip idψ ![1, 25] ![1, 9] PUnit.unit ![1, 2] ![3, 4] 1 1 =
      (51, 39, ⟨[10]⟩) := by
    simp [statement, commitTo, Fin.sum_univ_two, idψ]
    norm_num
  have hk : (List.ofFn ![1, 25] : List (ZMod p)) = [1, 25] ∧ (List.ofFn ![1, 9] : List (ZMod p)) = [1, 9] := by
    simp [List.ofFn_succ]
  rw [hk.1, hk.2] at h
  have hsub : (Finset.univ.filter fun H : upTo M → digests l => ∃ j, 1 ≤ j ∧ j ≤ 1 ∧
      (withDigest (env p).pairingAB (Sipp.oracle H)).verify [1, 25] [1, 9] PUnit.unit
        (statement (times p) (times p) (times p).flip idψ ![1, 25] ![1, 9] PUnit.unit ![1, 2] ![3, 4] 1 j)
        ((grinder (P := (env p).pairingAB) (mem_example h2 hM ![1, 25] ![1, 9])
          (times p) ![1, 2] ![3, 4] 1 1).proof (times p) (times p).flip
          (idψ PUnit.unit) ![1, 25] ![1, 9] (2 ^ 40) H) = .ok true).card ≤
      (Finset.univ.filter fun H : upTo M → digests l =>
        (withDigest (env p).pairingAB (Sipp.oracle H)).verify [1, 25] [1, 9] PUnit.unit (51, 39, ⟨[10]⟩)
          ((grinder (P := (env p).pairingAB) (mem_example h2 hM ![1, 25] ![1, 9])
            (times p) ![1, 2] ![3, 4] 1 1).proof (times p) (times p).flip
            (idψ PUnit.unit) ![1, 25] ![1, 9] (2 ^ 40) H) = .ok true).card := by
    refine Finset.card_le_card fun H hH => ?_
    rw [Finset.mem_filter] at hH ⊢
    obtain ⟨-, j, h1, h2, h3⟩ := hH
    obtain rfl : j = 1 := by omega
    rw [e] at h3
    exact ⟨Finset.mem_univ _, h3⟩
  have h := h.trans (Nat.mul_le_mul_right _ hsub)
  generalize (Finset.univ.filter fun H : upTo M → digests l =>
    (withDigest (env p).pairingAB (Sipp.oracle H)).verify [1, 25] [1, 9] PUnit.unit (51, 39, ⟨[10]⟩)
      ((grinder (P := (env p).pairingAB) (mem_example h2 hM ![1, 25] ![1, 9])
        (times p) ![1, 2] ![3, 4] 1 1).proof (times p) (times p).flip
        (idψ PUnit.unit) ![1, 25] ![1, 9] (2 ^ 40) H) = .ok true).card = c at h ⊢
  norm_num at h ⊢
  omega

end Example

end Ripp.Grind
