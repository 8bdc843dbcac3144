import Verif.Props.Grind

/-!
# C138: choosing the statement after the answers of the hash function

C84, C117 and C136 fix the statement before the oracle; the verifiers do not hash it, and C22 and C52 are attacks that
choose it afterwards. Here the prover may choose it afterwards, but among finitely many that are fixed before. The bounds
grow with the number of statements, which C137 shows to be necessary.
-/

set_option linter.unusedSectionVars false

namespace Ripp.Choice

open Spec GipaStatic Extract Level

section Gipa

variable {ρ F MA MB T KA KB KT OA OB OT O RT ι : Type} [Field F] [DecidableEq F]
  [AddCommGroup MA] [Module F MA] [AddCommGroup MB] [Module F MB] [AddCommGroup T] [Module F T] [DecidableEq T]
  [AddCommGroup KA] [Module F KA] [AddCommGroup KB] [Module F KB] [AddCommGroup OA] [Module F OA]
  [AddCommGroup OB] [Module F OB] [AddCommGroup O] [Module F O] [Add OT] [SMul F OT]
  [DecidableEq OA] [DecidableEq OB] [DecidableEq OT] {n L : ℕ}
  {P : Gipa ρ F MA MB T KA KB KT OA OB OT} {φa : MA →ₗ[F] KA →ₗ[F] OA} {φb : MB →ₗ[F] KB →ₗ[F] OB}
  {τ : RT → OT} {va : Fin n → KA} {vb : Fin n → KB} {Xs : Finset Bytes}
  {β : MA →ₗ[F] MB →ₗ[F] T} {ψ : KT → T → OT} {η : OT → Option O} {ψ' : T →ₗ[F] O}

/-- C138: the argument for inner products, when the prover may choose afterwards which of the false statements `j` of a
finite set `J` it proves: one of them is accepted, without a collision of the keys, for at most
`|J| (Q + k) (Q + k + 5)` in `2^128` oracles. -/
theorem C138_gipa (hmem : ∀ k z1 z2, P.hashInput 0 k (coms φa φb τ va vb z1) (coms φa φb τ va vb z2) ∈ Xs)
    (p : ℕ) [CharP F p] (hp : p = 0 ∨ 2 ^ 128 ≤ p) (hL : 16 ≤ L)
    (Lw : P.Lawful β φa φb ψ) (kt : KT) (R : Reads F η (ψ kt) ψ')
    (hF : Decodable (fun _ => True) P.serF) (hA : Decodable (fun _ => True) P.serA)
    (hB : Decodable (fun _ => True) P.serB) (hT : Decodable (· ∈ Set.range τ) P.serT) (k : ℕ)
    (hn : n = 2 ^ k) (J : Finset ι) (com : ι → Coms OA OB OT) (ra : ι → Fin n → MA) (rb : ι → Fin n → MB)
    (hra : ∀ j ∈ J, (com j).1 = commitTo φa va (ra j)) (hrb : ∀ j ∈ J, (com j).2.1 = commitTo φb vb (rb j))
    (hfalse : ∀ j ∈ J, η (com j).2.2 ≠ some (ψ' (∑ i, β (ra j i) (rb j i))))
    (A : Prover n MA MB RT Xs (digests L)) (Q : ℕ)
    (hlab : ∀ ds z x, A.query ds = link P φa φb τ va vb hmem z x →
      coms φa φb τ va vb (A.label ds).1 = coms φa φb τ va vb z.1 ∧
      coms φa φb τ va vb (A.label ds).2 = coms φa φb τ va vb z.2)
    (hsteps : ∀ ds, (A.steps ds).length = k) (W : Finset (Xs → digests L))
    (hW : ∀ H ∈ W, ∃ j ∈ J,
      (withDigest P (Sipp.oracle H)).verify (List.ofFn va) (List.ofFn vb) kt (com j)
        (A.proof φa φb τ va vb Q H) = .ok true ∧
      ¬ Clash φa va (A.pairA P φa φb τ va vb hmem (ra j) Q k H) ∧
      ¬ Clash φb vb (A.pairB P φa φb τ va vb hmem (rb j) Q k H)) :
    W.card * 2 ^ 128 ≤ J.card * ((Q + k) * (Q + k + 5)) * Fintype.card (Xs → digests L) := by
  classical
  have hsub : W ⊆ J.biUnion fun j => Finset.univ.filter fun H : Xs → digests L =>
        (withDigest P (Sipp.oracle H)).verify (List.ofFn va) (List.ofFn vb) kt (com j)
          (A.proof φa φb τ va vb Q H) = .ok true ∧
        ¬ Clash φa va (A.pairA P φa φb τ va vb hmem (ra j) Q k H) ∧
        ¬ Clash φb vb (A.pairB P φa φb τ va vb hmem (rb j) Q k H) := by
    intro H hH
    obtain ⟨j, hj, h⟩ := hW H hH
    exact Finset.mem_biUnion.mpr ⟨j, hj, Finset.mem_filter.mpr ⟨Finset.mem_univ _, h⟩⟩
  refine (Nat.mul_le_mul_right _ ((Finset.card_le_card hsub).trans Finset.card_biUnion_le)).trans ?_
  rw [Finset.sum_mul]
  refine (Finset.sum_le_card_nsmul _ _ _ fun j hj => C136_gipa hmem p hp hL Lw kt R hF hA hB hT k hn (com j) (ra j) (rb j)
    (hra j hj) (hrb j hj) (hfalse j hj) A Q hlab hsteps).trans ?_
  rw [smul_eq_mul, ← mul_assoc]

end Gipa

section Aggregate

open AggStatic Domain

variable {ρ F G1 G2 GT TF ι : Type} [Field F] [DecidableEq F] [AddCommGroup G1] [Module F G1] [AddCommGroup G2]
  [Module F G2] [AddCommGroup GT] [Module F GT] [Monoid TF] [DecidableEq G1] [DecidableEq G2] [DecidableEq GT]
  {V : Env ρ F G1 G2 GT TF} {f g1 g2 gt B M : ℕ} (hV : Encodes V f g1 g2 gt) (hS : Separated f g1 g2 gt)
  (hM : Room f g1 g2 gt B M) (hB : B + 1 < 2 ^ 64) (comA comB comC : GT)

/-- C138: the aggregation, when the prover may choose afterwards for which of the verifying keys and inputs `j` of a
finite set `J` the aggregate proof is to be accepted. If it succeeds for more than
`|J| (N (n - 1) + errorTerm Q k n N 1 1)` in `2^128` oracles, then for one `j` proofs in the commitments that are valid
for these inputs, or a collision, can be extracted. -/
theorem C138_aggregate {e : G1 →ₗ[F] G2 →ₗ[F] GT} (hE : V.E.Lawful e) (p bits len L : ℕ) [CharP F p] (hp : 2 ^ 128 ≤ p)
    (hpb : p ≤ 2 ^ bits) (hb : bits ≤ 8 * len) (hL : len ≤ L)
    (hfr : ∀ d, V.fromRandomBytes d = arkRandom F p bits len d) (k n : ℕ)
    (hn : n = 2 ^ k) (srs : SRS G1 G2) (g : G1) (h : G2) (α β : F) (hsrs : IsSrs srs g h α β n) (hg0 : g ≠ 0) (hh0 : h ≠ 0)
    (hg : ∀ y, e g y = 0 → y = 0) (hh : ∀ x, e x h = 0 → x = 0) (v : VerifierSRS G1 G2)
    (hv : srs.verifierKey = .ok v) (J : Finset ι) (vk : ι → G16VK G1 G2) (inputs : ι → List (List F))
    (hin : ∀ j ∈ J, (inputs j).length = n)
    (hrow : ∀ j ∈ J, ∀ row ∈ inputs j, row.length + 1 = (vk j).gammaAbc.length) (Q N : ℕ) (hN : N ≤ 2 ^ 64)
    (A : (Fin N → digests L) → AnyProver n F G1 G2 GT (GT × {l : List GT // l.length ≤ B})
      (G1 × {l : List G1 // l.length ≤ B}) (askable V comA comB comC M) (digests L))
    (hkeys1 : ∀ u ds, ∀ t < 2 ^ 64, ∀ x ka kb,
      ((A u).query ds : Bytes) = TipaStatic.pointInput V.tipa V.pairingAB t x ka kb →
      TipaStatic.left srs ((A u).keysAB ds).1 = ka ∧ TipaStatic.right srs ((A u).keysAB ds).2 = kb)
    (hkeys2 : ∀ u ds, ∀ t < 2 ^ 64, ∀ x ka,
      ((A u).query ds : Bytes) = TipaSsmStatic.pointInput V.tipa V.multiexpSsm t x ka →
      TipaStatic.left srs ((A u).keysC ds) = ka)
    (hs1 : ∀ u ds, ((A u).stepsAB ds).length = k) (hs2 : ∀ u ds, ((A u).stepsC ds).length = k)
    (W : Finset ((Fin N → digests L) × (askable V comA comB comC M → digests L)))
    (hW : ∀ uH ∈ W, ∃ j ∈ J, ∃ r, Draws V uH.1 r ∧
      (∃ dg : Bytes → Bytes, (∀ t : Fin N, dg (challengeInput V comA comB comC t) = uH.1 t) ∧
        (∀ x : askable V comA comB comC M, dg x = uH.2 x) ∧
        Groth16.verify { V with digest := dg } v (vk j) (inputs j) ((A uH.1).aggProof (Shape.upTo GT B hB)
          (Shape.upTo G1 B hB) srs comA comB comC Q uH.2) = .ok true) ∧
      (A uH.1).OpenedAB V srs r (mem_roundAB hV hS hM hB comA comB comC) (mem_pointAB hV hS hM comA comB comC)
        α β Q N hN uH.2 ∧
      (A uH.1).OpenedC V srs (mem_roundC hV hS hM hB comA comB comC) (mem_pointC hV hS hM comA comB comC)
        α β Q N hN uH.2)
    (hmany : J.card * (N * (n - 1) + errorTerm Q k n N 1 1) *
      Fintype.card ((Fin N → digests L) × (askable V comA comB comC M → digests L)) < W.card * 2 ^ 128) :
    ∃ j ∈ J,
      ∃ (x : F × PairTree F G1 G2 GT (GT × {l : List GT // l.length ≤ B}) (G1 × {l : List G1 // l.length ≤ B}))
      (xs : List (F × PairTree F G1 G2 GT (GT × {l : List GT // l.length ≤ B}) (G1 × {l : List G1 // l.length ≤ B}))),
      (∀ y ∈ x :: xs, ∃ u, Draws V u y.1 ∧
        (A u).Rewound V srs y.1 (Shape.upTo GT B hB) (Shape.upTo G1 B hB) Q comA comB comC (fun H => (u, H) ∈ W) y.2) ∧
      ((x :: xs).map (·.1)).Nodup ∧ n ≤ (x :: xs).length ∧
      (extractProofs x xs).Good e (vk j) (inputs j) srs.commitmentKeys.1 srs.commitmentKeys.2 comA comB comC := by
  classical
  let Wj : ι → Finset ((Fin N → digests L) × (askable V comA comB comC M → digests L)) := fun j => W.filter fun uH =>
    ∃ r, Draws V uH.1 r ∧
      (∃ dg : Bytes → Bytes, (∀ t : Fin N, dg (challengeInput V comA comB comC t) = uH.1 t) ∧
        (∀ x : askable V comA comB comC M, dg x = uH.2 x) ∧
        Groth16.verify { V with digest := dg } v (vk j) (inputs j) ((A uH.1).aggProof (Shape.upTo GT B hB)
          (Shape.upTo G1 B hB) srs comA comB comC Q uH.2) = .ok true) ∧
      (A uH.1).OpenedAB V srs r (mem_roundAB hV hS hM hB comA comB comC) (mem_pointAB hV hS hM comA comB comC)
        α β Q N hN uH.2 ∧
      (A uH.1).OpenedC V srs (mem_roundC hV hS hM hB comA comB comC) (mem_pointC hV hS hM comA comB comC)
        α β Q N hN uH.2
  have hsub : W ⊆ J.biUnion Wj := fun uH hu => by
    obtain ⟨j, hj, h⟩ := hW uH hu
    exact Finset.mem_biUnion.mpr ⟨j, hj, Finset.mem_filter.mpr ⟨hu, h⟩⟩
  obtain ⟨j, hj, hm⟩ : ∃ j ∈ J, (N * (n - 1) + errorTerm Q k n N 1 1) *
      Fintype.card ((Fin N → digests L) × (askable V comA comB comC M → digests L)) < (Wj j).card * 2 ^ 128 := by
    by_contra hno
    push Not at hno
    refine absurd ((Nat.mul_le_mul_right (2 ^ 128) ((Finset.card_le_card hsub).trans Finset.card_biUnion_le)).trans ?_)
      (not_le.mpr hmany)
    rw [Finset.sum_mul]
    refine (Finset.sum_le_card_nsmul _ _ _ hno).trans ?_
    rw [smul_eq_mul, mul_assoc]
  obtain ⟨x, xs, h1, h2, h3, h4⟩ := C136_aggregate hV hS hM hB comA comB comC hE p bits len L hp hpb hb hL hfr k n hn srs
    g h α β hsrs hg0 hh0 hg hh v hv (vk j) (inputs j) (hin j hj) (hrow j hj) Q N hN A hkeys1 hkeys2 hs1 hs2 (Wj j)
    (fun uH hu => (Finset.mem_filter.mp hu).2) hm
  refine ⟨j, hj, x, xs, fun y hy => ?_, h2, h3, h4⟩
  obtain ⟨u, hu, hr⟩ := h1 y hy
  exact ⟨u, hu, Oracle.Tree2.Branches.mono hr fun _ _ _ ⟨H, hH, hr⟩ => ⟨H, (Finset.mem_filter.mp hH).1, hr⟩⟩

end Aggregate

/-! ## Instances -/

section Example

open AggStatic Domain Grind

variable {p : ℕ} [Fact p.Prime] (h2 : p + 1 = 2 ^ 521)

/-- `1 * 3 + 2 * 4 = 11`. The prover may choose for which `j` from 1 to `2^20` it claims `11 - 1/j`. -/
example {M l : ℕ} (hM : 8000 ≤ M) (hl : 16 ≤ l)
    (A : Prover 2 (ZMod p) (ZMod p) (ZMod p) (upTo M) (digests l)) (Q : ℕ)
    (hlab : ∀ ds z x, A.query ds = link (env p).pairingAB (times p) (times p).flip (idψ PUnit.unit) ![1, 25] ![1, 9]
        (mem_example h2 hM _ _) z x →
      coms (times p) (times p).flip (idψ PUnit.unit) ![1, 25] ![1, 9] (A.label ds).1 =
        coms (times p) (times p).flip (idψ PUnit.unit) ![1, 25] ![1, 9] z.1 ∧
      coms (times p) (times p).flip (idψ PUnit.unit) ![1, 25] ![1, 9] (A.label ds).2 =
        coms (times p) (times p).flip (idψ PUnit.unit) ![1, 25] ![1, 9] z.2)
    (hsteps : ∀ ds, (A.steps ds).length = 1) (W : Finset (upTo M → digests l))
    (hW : ∀ H ∈ W, ∃ j ∈ Finset.Icc (1 : ℕ) (2 ^ 20),
      (withDigest (env p).pairingAB (Sipp.oracle H)).verify (List.ofFn ![1, 25]) (List.ofFn ![1, 9]) PUnit.unit
        (51, 39, ⟨[11 - (j : ZMod p)⁻¹]⟩)
        (A.proof (times p) (times p).flip (idψ PUnit.unit) ![1, 25] ![1, 9] Q H) = .ok true ∧
      ¬ Clash (times p) ![1, 25] (A.pairA (env p).pairingAB (times p) (times p).flip (idψ PUnit.unit) ![1, 25] ![1, 9]
        (mem_example h2 hM _ _) ![1, 2] Q 1 H) ∧
      ¬ Clash (times p).flip ![1, 9] (A.pairB (env p).pairingAB (times p) (times p).flip (idψ PUnit.unit) ![1, 25] ![1, 9]
        (mem_example h2 hM _ _) ![3, 4] Q 1 H)) :
    W.card * 2 ^ 128 ≤ 2 ^ 20 * ((Q + 1) * (Q + 1 + 5)) * Fintype.card (upTo M → digests l) := by
  have hdec : Decodable (fun _ => True) fun x : ZMod p => (env p).serGT x :=
    .of_fixed 576 (fun x _ => (encodes h2).4 x) fun x y _ _ h => (encodes h2).8 h
  have h := C138_gipa (P := (env p).pairingAB) (φa := times p) (φb := (times p).flip) (ψ := idψ) (τ := idψ PUnit.unit)
    (va := ![1, 25]) (vb := ![1, 9]) (mem_example h2 hM _ _) p (.inr (le_modulus h2)) hl
    (pairingAB_lawful (env p) lawful) PUnit.unit (Extract.reads_identity _)
    (.of_fixed 66 (fun x _ => (encodes h2).1 x) fun x y _ _ h => (encodes h2).5 h) hdec hdec
    (decodable_single hdec) 1 rfl (Finset.Icc 1 (2 ^ 20)) (fun j : ℕ => (51, 39, ⟨[11 - (j : ZMod p)⁻¹]⟩))
    (fun _ => ![1, 2]) (fun _ => ![3, 4]) (fun j _ => by simp [commitTo, Fin.sum_univ_two]; norm_num)
    (fun j _ => by simp [commitTo, Fin.sum_univ_two]; norm_num) (fun j hj => ?_) A Q hlab hsteps W hW
  · have e : (Finset.Icc 1 (2 ^ 20)).card = 2 ^ 20 := by rw [Nat.card_Icc]; norm_num
    rwa [e] at h
  · intro h
    obtain ⟨h1, hj⟩ := Finset.mem_Icc.mp hj
    have h : (11 : ZMod p) - (j : ZMod p)⁻¹ = 11 := by
      have := Option.some.inj h
      simp [Fin.sum_univ_two] at this
      linear_combination this
    have h := inv_eq_zero.mp (sub_eq_self.mp h)
    rw [← Nat.cast_zero] at h
    have := cast_inj (ZMod p) p (.inr (le_modulus h2)) (lt_of_le_of_lt hj (by norm_num)) (by norm_num) h
    omega

include h2 in
/-- The prover may choose the first of the two inputs afterwards, from `S` numbers with `S` at most `2^20`. -/
example (comA comB comC : ZMod p) (Q L M S : ℕ) (hL : 72 ≤ L) (hM : 8000 ≤ M)
    (A : (Fin 128 → digests L) → AnyProver 2 (ZMod p) (ZMod p) (ZMod p) (ZMod p)
      (ZMod p × {l : List (ZMod p) // l.length ≤ 3}) (ZMod p × {l : List (ZMod p) // l.length ≤ 3})
      (askable (env p) comA comB comC M) (digests L))
    (hkeys1 : ∀ u ds, ∀ t < 2 ^ 64, ∀ x ka kb,
      ((A u).query ds : Bytes) = TipaStatic.pointInput (env p).tipa (env p).pairingAB t x ka kb →
      TipaStatic.left (srs p) ((A u).keysAB ds).1 = ka ∧ TipaStatic.right (srs p) ((A u).keysAB ds).2 = kb)
    (hkeys2 : ∀ u ds, ∀ t < 2 ^ 64, ∀ x ka,
      ((A u).query ds : Bytes) = TipaSsmStatic.pointInput (env p).tipa (env p).multiexpSsm t x ka →
      TipaStatic.left (srs p) ((A u).keysC ds) = ka)
    (hs1 : ∀ u ds, ((A u).stepsAB ds).length = 1) (hs2 : ∀ u ds, ((A u).stepsC ds).length = 1)
    (W : Finset ((Fin 128 → digests L) × (askable (env p) comA comB comC M → digests L)))
    (hW : ∀ uH ∈ W, ∃ j ∈ Finset.range S, ∃ r, Draws (env p) uH.1 r ∧
      (∃ dg : Bytes → Bytes, (∀ t : Fin 128, dg (challengeInput (env p) comA comB comC t) = uH.1 t) ∧
        (∀ x : askable (env p) comA comB comC M, dg x = uH.2 x) ∧
        Groth16.verify { env p with digest := dg } ⟨1, 1, 5, 3⟩ ⟨2, 3, 1, 1, [1, 4]⟩ [[(j : ZMod p)], [2]]
          ((A uH.1).aggProof (Shape.upTo _ 3 three_lt) (Shape.upTo _ 3 three_lt) (srs p) comA comB comC Q uH.2) =
            .ok true) ∧
      (A uH.1).OpenedAB (S1 := Shape.upTo _ 3 three_lt) (env p) (srs p) r (mem_roundAB (encodes h2) separated (room hM) three_lt comA comB comC)
        (mem_pointAB (encodes h2) separated (room hM) comA comB comC) 3 5 Q 128 (by norm_num) uH.2 ∧
      (A uH.1).OpenedC (S2 := Shape.upTo _ 3 three_lt) (env p) (srs p) (mem_roundC (encodes h2) separated (room hM) three_lt comA comB comC)
        (mem_pointC (encodes h2) separated (room hM) comA comB comC) 3 5 Q 128 (by norm_num) uH.2)
    (hQ : Q ≤ 2 ^ 40) (hS : S ≤ 2 ^ 20)
    (hmany : Fintype.card ((Fin 128 → digests L) × (askable (env p) comA comB comC M → digests L)) ≤
      W.card * 2 ^ 19) :
    ∃ j : ℕ, j < S ∧ ∃ found : Groth16.Found (ZMod p) (ZMod p), found.Good (LinearMap.lsmul (ZMod p) (ZMod p))
      ⟨2, 3, 1, 1, [1, 4]⟩ [[(j : ZMod p)], [2]] [1, 25] [1, 9] comA comB comC := by
  have hpos : 0 < Fintype.card ((Fin 128 → digests L) × (askable (env p) comA comB comC M → digests L)) := by
    have : 0 < (digests L).card := by rw [card_digests]; positivity
    rw [Fintype.card_prod, Fintype.card_fun, Fintype.card_fun, Fintype.card_coe (digests L)]
    exact Nat.mul_pos (Nat.pow_pos this) (Nat.pow_pos this)
  obtain ⟨j, hj, x, xs, -, -, -, h⟩ := C138_aggregate (encodes h2) separated (room hM) three_lt comA comB comC lawful p
    521 72 L (le_modulus h2) (by omega) (by norm_num) hL (fun _ => rfl) 1 2 rfl (srs p) 1 1 3 5 isSrs one_ne_zero
    one_ne_zero (fun y h => by simpa using h) (fun x h => by simpa using h) ⟨1, 1, 5, 3⟩ rfl (Finset.range S)
    (fun _ => ⟨2, 3, 1, 1, [1, 4]⟩) (fun j => [[(j : ZMod p)], [2]]) (fun _ _ => rfl)
    (fun j _ row hrow => by simp at hrow; rcases hrow with rfl | rfl <;> rfl) Q 128 (by norm_num) A hkeys1
    hkeys2 hs1 hs2 W hW (by
      have := C136_numbers Q 1 2 128 hQ (by norm_num) rfl (by norm_num)
      refine Nat.lt_of_mul_lt_mul_right (a := 2 ^ 19) ?_
      rw [Finset.card_range]
      calc _ ≤ 2 ^ 20 * (128 * (2 - 1) + errorTerm Q 1 2 128 1 1) * Fintype.card _ * 2 ^ 19 := by gcongr
        _ = (128 * (2 - 1) + errorTerm Q 1 2 128 1 1) * 2 ^ 39 * Fintype.card _ := by ring
        _ < 2 ^ 128 * Fintype.card _ := Nat.mul_lt_mul_of_pos_right this hpos
        _ ≤ 2 ^ 128 * (W.card * 2 ^ 19) := Nat.mul_le_mul_left _ hmany
        _ = _ := by ring)
  exact ⟨j, Finset.mem_range.mp hj, _, h⟩

end Example

end Ripp.Choice
