import Verif.Props.SippOracle

/-!
# C119: accepted SIPP proofs are those of the honest prover

C72 counts the digests for which a false statement is accepted. Here also the proofs are compared: an adversary that
outputs a statement and an accepted proof has, except for the same share of all digests, a true statement and exactly the
proof that `SIPP::prove` returns for it. So a proof cannot be modified into a second proof of the same statement.
-/

set_option linter.unusedSectionVars false

namespace Ripp.Sipp

open Spec

section
variable {σ F G1 G2 GT TF : Type} [Field F] [DecidableEq F] [AddCommGroup G1] [Module F G1]
  [AddCommGroup G2] [Module F G2] [AddCommGroup GT] [Module F GT] [Monoid TF] [DecidableEq GT]
  {e : G1 →ₗ[F] G2 →ₗ[F] GT}

/-- The two cross products of the halves. -/
def halves (e : G1 →ₗ[F] G2 →ₗ[F] GT) (a : List G1) (b : List G2) : GT × GT :=
  (dot (e · ·) (a.drop (a.length / 2)) (b.take (a.length / 2)),
    dot (e · ·) (a.take (a.length / 2)) (b.drop (a.length / 2)))

/-- A folded statement, and whether the prover has left the honest run: the statement was false, the pair was not that of
the honest prover, or the challenge was zero. -/
noncomputable def nextFlagged (V : Env σ F G1 G2 GT TF) (e : G1 →ₗ[F] G2 →ₗ[F] GT) {Ds : Finset Bytes}
    (st : (List G1 × List G2 × GT) × Prop) (z : GT × GT) (d : Ds) : (List G1 × List G2 × GT) × Prop :=
  (nextState (F := F) V st.1 z d,
    (∃ n, st.1.1.length = 2 * n ∧ st.1.2.1.length = 2 * n) ∧
      (falseState e st.1 ∨ z ≠ halves e st.1.1 st.1.2.1 ∨ (drawn V d : F) = 0) ∨ st.2)

/-- If the prover has left the honest run, the folded statement is false. -/
def caught (e : G1 →ₗ[F] G2 →ₗ[F] GT) (st : (List G1 × List G2 × GT) × Prop) : Prop :=
  st.2 → falseState e st.1

/-- A pair other than the honest one makes the folded statement true for at most two challenges. -/
theorem card_swap (S : Finset F) (hS : ∀ x ∈ S, x ≠ 0) (u w : GT) (h0 : u ≠ 0 ∨ w ≠ 0)
    (h : ∀ x ∈ S, x • u + x⁻¹ • w = 0) : S.card ≤ 2 := by
  have := card_roots_dot (F := F) [w, 0, u] (by
      rcases h0 with h0 | h0
      · exact ⟨u, by simp, h0⟩
      · exact ⟨w, by simp, h0⟩) S fun x hx => by
    have h0 := hS x hx
    have h1 := congrArg (x • ·) (h x hx)
    simp only [smul_add, smul_smul, mul_inv_cancel₀ h0, smul_zero, one_smul] at h1
    refine Eq.trans ?_ h1
    simp [powers, List.range_succ, pow_two]
    abel
  simpa using Nat.lt_succ_iff.mp this

theorem caught_le (V : Env σ F G1 G2 GT TF) {Ds : Finset Bytes} (m : ℕ)
    (hm : ∀ (x : F) (S : Finset Ds), (∀ d ∈ S, (drawn V d : F) = x) → S.card ≤ m)
    (st : (List G1 × List G2 × GT) × Prop) (z : GT × GT) (hst : caught e st) (S : Finset Ds)
    (hS : ∀ d ∈ S, ¬ caught e (nextFlagged V e st z d)) : S.card ≤ 3 * m := by
  classical
  have hS' : ∀ d ∈ S, ¬ falseState e (nextState (F := F) V st.1 z d) := fun d hd h => hS d hd fun _ => h
  by_cases hf : falseState e st.1
  · exact escape_le V m hm st.1 z hf S hS'
  have hp : ¬ st.2 := fun h => hf (hst h)
  by_cases hn : ∃ n, st.1.1.length = 2 * n ∧ st.1.2.1.length = 2 * n
  · set T : Finset F := S.image fun d : Ds => (drawn V (d : Bytes) : F) with hT
    have hT3 : T.card ≤ 3 := by
      have h2 : (T.erase 0).card ≤ 2 := by
        obtain ⟨⟨a, b, v⟩, p⟩ := st
        obtain ⟨n, ha, hb⟩ := hn
        simp only at ha hb hp
        have hhalf : a.length / 2 = n := by omega
        by_cases hz : z = halves e a b
        · have : T.erase 0 = ∅ := by
            apply Finset.eq_empty_of_forall_notMem
            intro x hx
            obtain ⟨hx0, hx⟩ := Finset.mem_erase.mp hx
            obtain ⟨d, hd, rfl⟩ := Finset.mem_image.mp hx
            refine hS d hd fun h => ?_
            rcases h with ⟨-, h | h | h⟩ | h
            · exact absurd h hf
            · exact absurd hz h
            · exact absurd h hx0
            · exact absurd h hp
          simp [this]
        · apply card_swap (T.erase 0) (fun x hx => (Finset.mem_erase.mp hx).1)
            (z.1 - dot (e · ·) (a.drop n) (b.take n)) (z.2 - dot (e · ·) (a.take n) (b.drop n))
          · by_contra hcon
            push Not at hcon
            apply hz
            rw [halves, hhalf, ← sub_eq_zero.mp hcon.1, ← sub_eq_zero.mp hcon.2]
          intro x hx
          obtain ⟨hx0, hx⟩ := Finset.mem_erase.mp hx
          obtain ⟨d, hd, rfl⟩ := Finset.mem_image.mp hx
          have h := not_not.mp (hS' d hd)
          have hv : v = dot (e · ·) a b := not_not.mp hf
          simp only [nextState] at h
          rw [if_pos ⟨n, ha, hb⟩] at h
          simp only at h
          rw [dot_fold e _ hx0 a b n ha hb, hv] at h
          rw [smul_sub, smul_sub]
          rw [← sub_eq_zero] at h
          rw [← h]
          abel
      have := Finset.pred_card_le_card_erase (s := T) (a := 0)
      omega
    rw [Finset.card_eq_sum_card_image (fun d : Ds => (drawn V d : F)) S]
    refine (Finset.sum_le_card_nsmul _ _ m fun x _ => ?_).trans ?_
    · exact hm x _ fun d hd => (Finset.mem_filter.mp hd).2
    · rw [smul_eq_mul]
      exact Nat.mul_le_mul_right m hT3
  · have : S = ∅ := by
      apply Finset.eq_empty_of_forall_notMem
      intro d hd
      refine hS d hd fun h => ?_
      rcases h with ⟨h, -⟩ | h
      · exact absurd h hn
      · exact absurd h hp
    simp [this]

/-- A chain that has not left the honest run is the proof of the honest prover. -/
theorem run_flagged (V : Env σ F G1 G2 GT TF) {Xs Ds : Finset Bytes} (H : Xs → Ds)
    (hE : V.E.Lawful e)
    (hz : ∀ (z : GT × GT) (d : Ds), V.serGT z.1 ++ V.serGT z.2 ++ (d : Bytes) ∈ Xs) :
    ∀ (zs : List (GT × GT)) (a : List G1) (b : List G2) (v : GT) (p : Prop) (s : Ds) (rng : Rng σ),
      rng.seed = s → a.length = 2 ^ zs.length → b.length = 2 ^ zs.length →
      let fin := Oracle.run (nextFlagged V e) (fun z d => (⟨_, hz z d⟩ : Xs)) H ((a, b, v), p) s zs
      fin.1 = Oracle.run (nextState (F := F) V) (fun z d => (⟨_, hz z d⟩ : Xs)) H (a, b, v) s zs ∧
      (¬ fin.2 → ¬ p ∧ (1 ≤ zs.length → v = dot (e · ·) a b) ∧
        ∀ fuel acc, zs.length ≤ fuel → proveLoop (V.withDigest (oracle H)) fuel (2 ^ zs.length) a b rng acc =
          .ok (acc ++ zs))
  | [], a, b, v, p, s, rng, _, _, _ => by
    refine ⟨rfl, fun h => ⟨h, by simp, fun fuel acc _ => ?_⟩⟩
    rw [proveLoop.eq_def]
    simp
  | z :: zs, a, b, v, p, s, rng, hs, ha, hb => by
    intro fin
    have h2 : (2 : ℕ) ^ (zs.length + 1) = 2 * 2 ^ zs.length := by rw [pow_succ]; ring
    rw [List.length_cons] at ha hb
    have ha' := ha
    have hb' := hb
    rw [h2] at ha hb
    set d := H ⟨_, hz z s⟩ with hd
    have hseed : (rng.absorb (V.withDigest (oracle H)) (V.serGT z.1 ++ V.serGT z.2)).seed = d := by
      simp only [Rng.absorb, Env.withDigest, oracle, hs]
      rw [dif_pos (hz z s)]
    have hch : (roundChallenge (V.withDigest (oracle H)) rng z : F × Rng σ).1 = drawn V d := by
      simp only [roundChallenge, Rng.nextU128, drawn, ← hseed]
      rfl
    have hnext : nextState (F := F) V (a, b, v) z d = (foldHalf (drawn V d : F) a,
        foldHalf (drawn V d : F)⁻¹ b, v + ((drawn V d : F) • z.1 + (drawn V d : F)⁻¹ • z.2)) := by
      rw [nextState, if_pos ⟨_, ha, hb⟩]
    obtain ⟨i1, i2⟩ := run_flagged V H hE hz zs (foldHalf (drawn V d : F) a) (foldHalf (drawn V d : F)⁻¹ b)
      (v + ((drawn V d : F) • z.1 + (drawn V d : F)⁻¹ • z.2))
      (nextFlagged V e ((a, b, v), p) z d).2 d (roundChallenge (V.withDigest (oracle H)) rng z : F × Rng σ).2
      hseed (length_foldHalf _ _ _ ha) (length_foldHalf _ _ _ hb)
    have hfin : fin = Oracle.run (nextFlagged V e) (fun z d => (⟨_, hz z d⟩ : Xs)) H
        ((foldHalf (drawn V d : F) a, foldHalf (drawn V d : F)⁻¹ b,
          v + ((drawn V d : F) • z.1 + (drawn V d : F)⁻¹ • z.2)), (nextFlagged V e ((a, b, v), p) z d).2) d zs := by
      rw [← hnext]
      rfl
    rw [← hfin] at i1 i2
    refine ⟨?_, fun hf => ?_⟩
    · rw [i1, Oracle.run, ← hd, hnext]
    · obtain ⟨hp, -, hl⟩ := i2 hf
      simp only [nextFlagged, not_or, not_and] at hp
      obtain ⟨h1, h3⟩ := hp
      have h4 := h1 ⟨_, ha, hb⟩
      push Not at h4
      obtain ⟨h4, h5, h6⟩ := h4
      refine ⟨h3, fun _ => not_not.mp h4, fun fuel acc hfuel => ?_⟩
      obtain ⟨fuel, rfl⟩ : ∃ f, fuel = f + 1 := ⟨fuel - 1, by simp at hfuel; omega⟩
      have hhalf : a.length / 2 = 2 ^ zs.length := by omega
      have hzz : z = (dot (e · ·) (a.drop (2 ^ zs.length)) (b.take (2 ^ zs.length)),
          dot (e · ·) (a.take (2 ^ zs.length)) (b.drop (2 ^ zs.length))) := by
        rw [h5, halves, hhalf]
      have hE' : (V.withDigest (oracle H)).E.Lawful e := hE
      rw [List.length_cons]
      have hstep := proveLoop_step hE' zs.length fuel a b rng acc ha' hb'
      simp only at hstep
      rw [hstep, ← hzz, hch, inverse_of_ne h6]
      simp only [unwrap_some, ok_bind]
      rw [zipWith_fold _ b _ hb, hl fuel (acc ++ [z]) (by simp at hfuel; omega)]
      simp

/-- C119: an adversary with `Q` queries outputs an accepted proof for a statement that is false, or for which the honest
prover does not return exactly this proof, for no more oracles than C72 allows for false statements. -/
theorem C119_unique (V : Env σ F G1 G2 GT TF) (hE : V.E.Lawful e)
    (Xs Ds : Finset Bytes) (l1 l2 lF lT ld : ℕ)
    (h1 : ∀ x, (V.serG1 x).length = l1) (h2 : ∀ x, (V.serG2 x).length = l2)
    (h3 : ∀ x, (V.serF x).length = lF) (h4 : ∀ x, (V.serGT x).length = lT)
    (i1 : Function.Injective V.serG1) (i2 : Function.Injective V.serG2)
    (i3 : Function.Injective V.serF) (i4 : Function.Injective V.serGT)
    (hd : ∀ d ∈ Ds, d.length = ld) (hsep : lT + ld < 24 + 2 * (l1 + l2 + lF))
    (hz : ∀ (z : GT × GT) (d : Ds), V.serGT z.1 ++ V.serGT z.2 ++ (d : Bytes) ∈ Xs)
    (m : ℕ) (hm : ∀ x : F, (Finset.univ.filter fun d : Ds => (drawn V d : F) = x).card ≤ m)
    (query : List Ds → Xs) (Q K : ℕ) (out : List Ds → Output F G1 G2 GT)
    (hout : ∀ ds, seedBytes V (out ds).a (out ds).b (out ds).r (out ds).value ∈ Xs ∧
      (out ds).a.length < 2 ^ 64 ∧ (out ds).r.length < 2 ^ 64 ∧ (out ds).proof.length ≤ K)
    (W : Finset (Xs → Ds))
    (hW : ∀ H ∈ W,
      let o := out (Oracle.trace query H Q)
      verify (V.withDigest (oracle H)) o.a o.b o.r o.value o.proof = .ok true ∧
        ¬ (o.value = product e o.a o.b o.r ∧
          prove (V.withDigest (oracle H)) o.a o.b o.r o.value = .ok o.proof)) :
    W.card * Ds.card ≤ ((Q + K + 1) * (3 * m) + (Q + K + 1) ^ 2) * Ds.card ^ Xs.card := by
  classical
  have f1 : Fixed V.serG1 := ⟨l1, h1, fun x y h => i1 h⟩
  have f2 : Fixed V.serG2 := ⟨l2, h2, fun x y h => i2 h⟩
  have f3 : Fixed V.serF := ⟨lF, h3, fun x y h => i3 h⟩
  have f4 : Fixed V.serGT := ⟨lT, h4, fun x y h => i4 h⟩
  let enc : GT × GT → Ds → Xs := fun z d => ⟨_, hz z d⟩
  let dec : Xs → Option (((List G1 × List G2 × GT) × Prop) ⊕ (GT × GT) × Ds) := fun q =>
    (decode (F := F) (G1 := G1) (G2 := G2) V q).map (Sum.map (fun st => (st, False)) id)
  have key := Oracle.count_adversary query Q
    (fun ds => ((⟨_, (hout ds).1⟩ : Xs), (out ds).proof)) enc dec
    (nextFlagged V e) (caught e)
    (fun z d => by
      simp only [dec, decode_absorb V l1 l2 lF lT ld h1 h2 h3 h4 f4 hd hsep z d (enc z d) rfl]
      rfl) (3 * m)
    (fun st z hst S hS => caught_le V m (fun x S hx => le_trans (Finset.card_le_card
      fun d hd => Finset.mem_filter.mpr ⟨Finset.mem_univ _, hx d hd⟩) (hm x)) st z hst S hS) K
  have c1 : Fintype.card Ds = Ds.card := Fintype.card_coe Ds
  have c2 : Fintype.card (Xs → Ds) = Ds.card ^ Xs.card := by
    rw [Fintype.card_fun, Fintype.card_coe, Fintype.card_coe]
  rw [c1, c2] at key
  refine le_trans (Nat.mul_le_mul_right _ (Finset.card_le_card ?_)) key
  intro H hH
  obtain ⟨hacc, hno⟩ := hW H hH
  refine Finset.mem_filter.mpr ⟨Finset.mem_univ _, ?_⟩
  generalize Oracle.trace query H Q = ds at hacc hno ⊢
  obtain ⟨ho1, ho2, ho3, ho4⟩ := hout ds
  obtain ⟨hk, ha, hb, hr⟩ := shape_of_verify _ _ _ _ _ _ hacc
  have hpow : 2 ≤ 2 ^ (out ds).proof.length := by
    calc 2 = 2 ^ 1 := rfl
      _ ≤ _ := Nat.pow_le_pow_right (by norm_num) hk
  have hlen : (List.zipWith (fun a (r : F) => r • a) (out ds).a (out ds).r).length = 2 ^ (out ds).proof.length := by
    simp [ha]; omega
  refine ⟨((List.zipWith (fun a r => r • a) (out ds).a (out ds).r, (out ds).b, (out ds).value), False), ?_,
    False.elim, ho4, ?_⟩
  · simp only [dec]
    rw [decode_seed V f1 f2 f3 f4 (out ds) ⟨by omega, by omega, by omega, ho2, by omega, ho3⟩ _ rfl]
    rfl
  have hseed : (Rng.fromSeed (V.withDigest (oracle H))
      (seedBytes V (out ds).a (out ds).b (out ds).r (out ds).value)).seed = H ⟨_, ho1⟩ := by
    simp only [Rng.fromSeed, Env.withDigest, oracle]; rw [dif_pos ho1]
  have hrun := run_eq (F := F) V H hz (out ds).proof
    (List.zipWith (fun a r => r • a) (out ds).a (out ds).r) (out ds).b (out ds).value
    (H ⟨_, ho1⟩) _ hseed hlen hb
  obtain ⟨r1, r2⟩ := run_flagged V H hE hz (out ds).proof
    (List.zipWith (fun a r => r • a) (out ds).a (out ds).r) (out ds).b (out ds).value False
    (H ⟨_, ho1⟩) _ hseed hlen hb
  have hE' : (V.withDigest (oracle H)).E.Lawful e := hE
  rw [C57_verify hE' _ _ _ _ _ hk ha hb hr] at hacc
  have heq := of_decide_eq_true (Except.ok.inj hacc)
  rw [equation_iff _ _ _ _ _ _ (by rw [length_challenges, ha]) (by rw [length_challenges, hb])
    (by rw [length_challenges]; exact hr)] at heq
  intro hcaught
  have htrue : ¬ falseState e (Oracle.run (nextFlagged V e) enc H
      ((List.zipWith (fun a (r : F) => r • a) (out ds).a (out ds).r, (out ds).b, (out ds).value), False)
      (H ⟨_, ho1⟩) (out ds).proof).1 := by
    rw [show (Oracle.run (nextFlagged V e) enc H _ (H ⟨_, ho1⟩) (out ds).proof).1 = _ from r1, hrun, falseState,
      not_not]
    exact heq.symm
  obtain ⟨-, hv, hprove⟩ := r2 fun h => htrue (hcaught h)
  refine hno ⟨hv hk, ?_⟩
  rw [prove]
  simp only [ha, hb, beq_self_eq_true, assert_true, ok_bind, isPow2_two_pow]
  exact hprove _ [] Nat.lt_two_pow_self.le

/-- C119: an adversary that outputs two different accepted proofs of one statement does so for at most twice as many
oracles. -/
theorem C119_two_proofs (V : Env σ F G1 G2 GT TF) (hE : V.E.Lawful e)
    (Xs Ds : Finset Bytes) (l1 l2 lF lT ld : ℕ)
    (h1 : ∀ x, (V.serG1 x).length = l1) (h2 : ∀ x, (V.serG2 x).length = l2)
    (h3 : ∀ x, (V.serF x).length = lF) (h4 : ∀ x, (V.serGT x).length = lT)
    (i1 : Function.Injective V.serG1) (i2 : Function.Injective V.serG2)
    (i3 : Function.Injective V.serF) (i4 : Function.Injective V.serGT)
    (hd : ∀ d ∈ Ds, d.length = ld) (hsep : lT + ld < 24 + 2 * (l1 + l2 + lF))
    (hz : ∀ (z : GT × GT) (d : Ds), V.serGT z.1 ++ V.serGT z.2 ++ (d : Bytes) ∈ Xs)
    (m : ℕ) (hm : ∀ x : F, (Finset.univ.filter fun d : Ds => (drawn V d : F) = x).card ≤ m)
    (query : List Ds → Xs) (Q K : ℕ) (out : List Ds → Output F G1 G2 GT) (other : List Ds → List (GT × GT))
    (hout : ∀ ds, seedBytes V (out ds).a (out ds).b (out ds).r (out ds).value ∈ Xs ∧
      (out ds).a.length < 2 ^ 64 ∧ (out ds).r.length < 2 ^ 64 ∧ (out ds).proof.length ≤ K ∧ (other ds).length ≤ K)
    (W : Finset (Xs → Ds))
    (hW : ∀ H ∈ W,
      let o := out (Oracle.trace query H Q)
      let other := other (Oracle.trace query H Q)
      verify (V.withDigest (oracle H)) o.a o.b o.r o.value o.proof = .ok true ∧
      verify (V.withDigest (oracle H)) o.a o.b o.r o.value other = .ok true ∧ o.proof ≠ other) :
    W.card * Ds.card ≤ 2 * (((Q + K + 1) * (3 * m) + (Q + K + 1) ^ 2) * Ds.card ^ Xs.card) := by
  classical
  let p : (Xs → Ds) → Prop := fun H =>
    let o := out (Oracle.trace query H Q)
    prove (V.withDigest (oracle H)) o.a o.b o.r o.value = .ok o.proof
  have e1 := C119_unique V hE Xs Ds l1 l2 lF lT ld h1 h2 h3 h4 i1 i2 i3 i4 hd hsep hz m hm query Q K out
    (fun ds => ⟨(hout ds).1, (hout ds).2.1, (hout ds).2.2.1, (hout ds).2.2.2.1⟩) (W.filter fun H => ¬ p H)
    (fun H hH => ⟨(hW H (Finset.mem_filter.mp hH).1).1, fun h => (Finset.mem_filter.mp hH).2 h.2⟩)
  have e2 := C119_unique V hE Xs Ds l1 l2 lF lT ld h1 h2 h3 h4 i1 i2 i3 i4 hd hsep hz m hm query Q K
    (fun ds => { out ds with proof := other ds })
    (fun ds => ⟨(hout ds).1, (hout ds).2.1, (hout ds).2.2.1, (hout ds).2.2.2.2⟩) (W.filter p)
    (fun H hH => by
      obtain ⟨hm1, hm2⟩ := Finset.mem_filter.mp hH
      refine ⟨(hW H hm1).2.1, fun h => (hW H hm1).2.2 ?_⟩
      exact Except.ok.inj (Eq.trans (Eq.symm hm2) h.2))
  rw [← Finset.card_filter_add_card_filter_not (s := W) p, add_mul, two_mul]
  omega

end

/-- A true statement with a proof other than the honest `[(0, 0)]`, accepted for the challenge `1`. -/
def Toy.forged : Output Toy.F Toy.F Toy.F Toy.F := ⟨[1, 0], [1, 0], [1, 1], 1, [(1, -1)]⟩

/-- The inputs of the oracle. -/
noncomputable def Toy.inputs' : Finset Bytes :=
  ((Set.finite_range fun zx : (Toy.F × Toy.F) × Toy.F =>
      Toy.ser zx.1.1 ++ Toy.ser zx.1.2 ++ Toy.ser zx.2).insert
    (seedBytes Toy.oracleEnv [1, 0] [1, 0] [1, 1] 1)).toFinset

theorem toy_mem_inputs' (z : Toy.F × Toy.F) (d : Bytes) (hd : d ∈ Toy.digests) :
    Toy.ser z.1 ++ Toy.ser z.2 ++ d ∈ Toy.inputs' := by
  obtain ⟨x, rfl⟩ := (toy_mem_digests d).mp hd
  exact (Set.Finite.mem_toFinset _).mpr (.inr ⟨(z, x), rfl⟩)

theorem toy_seed_mem' : seedBytes Toy.oracleEnv [1, 0] [1, 0] [1, 1] 1 ∈ Toy.inputs' :=
  (Set.Finite.mem_toFinset _).mpr (.inl rfl)

/-- The forged proof is accepted together with the honest one for few oracles. -/
example (query : List Toy.digests → Toy.inputs') (Q : ℕ) (W : Finset (Toy.inputs' → Toy.digests))
    (hW : ∀ H ∈ W, verify (Toy.oracleEnv.withDigest (oracle H)) [1, 0] [1, 0] [(1 : Toy.F), 1] (1 : Toy.F)
        [((1 : Toy.F), (-1 : Toy.F))] = .ok true ∧
      verify (Toy.oracleEnv.withDigest (oracle H)) [1, 0] [1, 0] [(1 : Toy.F), 1] (1 : Toy.F)
        [((0 : Toy.F), (0 : Toy.F))] = .ok true) :
    W.card * 101 ≤ 2 * (((Q + 2) * 3 + (Q + 2) ^ 2) * 101 ^ Toy.inputs'.card) := by
  have := C119_two_proofs Toy.oracleEnv Toy.lawful Toy.inputs' Toy.digests 1 1 1 1 1
    (fun _ => rfl) (fun _ => rfl) (fun _ => rfl) (fun _ => rfl) toy_ser_injective toy_ser_injective
    toy_ser_injective toy_ser_injective
    (fun d hd => by obtain ⟨x, rfl⟩ := (toy_mem_digests d).mp hd; rfl) (by norm_num)
    (fun z d => toy_mem_inputs' z d d.2) 1
    (fun x => by
      rw [Finset.card_le_one]
      intro d hd d' hd'
      obtain ⟨y, hy⟩ := (toy_mem_digests _).mp d.2
      obtain ⟨y', hy'⟩ := (toy_mem_digests _).mp d'.2
      have e1 := (Finset.mem_filter.mp hd).2
      have e2 := (Finset.mem_filter.mp hd').2
      rw [← hy, toy_drawn] at e1
      rw [← hy', toy_drawn] at e2
      exact Subtype.ext (by rw [← hy, ← hy', e1, e2]))
    query Q 1 (fun _ => Toy.forged) (fun _ => [(0, 0)])
    (fun ds => ⟨toy_seed_mem', by decide, by decide, le_rfl, le_rfl⟩) W
    (fun H hH => ⟨(hW H hH).1, (hW H hH).2, by decide⟩)
  rw [toy_card_digests] at this
  exact this

/-- For some oracles both are accepted, so the bound cannot be zero. -/
example : ∃ H : Toy.inputs' → Toy.digests,
    verify (Toy.oracleEnv.withDigest (oracle H)) [1, 0] [1, 0] [(1 : Toy.F), 1] (1 : Toy.F)
        [((1 : Toy.F), (-1 : Toy.F))] = .ok true ∧
      verify (Toy.oracleEnv.withDigest (oracle H)) [1, 0] [1, 0] [(1 : Toy.F), 1] (1 : Toy.F)
        [((0 : Toy.F), (0 : Toy.F))] = .ok true := by
  refine ⟨fun _ => ⟨Toy.ser 1, toy_one_mem⟩, ?_⟩
  set H : Toy.inputs' → Toy.digests := fun _ => ⟨Toy.ser 1, toy_one_mem⟩ with hH
  have hE : (Toy.oracleEnv.withDigest (oracle H)).E.Lawful Toy.e := Toy.lawful
  have h1 : oracle H (seedBytes (Toy.oracleEnv.withDigest (oracle H)) [1, 0] [1, 0] [1, 1] 1) =
      Toy.ser 1 := dif_pos toy_seed_mem'
  have hc : ∀ x y : Toy.F, (challenges (Toy.oracleEnv.withDigest (oracle H)) (Rng.fromSeed (Toy.oracleEnv.withDigest
      (oracle H)) (seedBytes (Toy.oracleEnv.withDigest (oracle H)) [1, 0] [1, 0] [1, 1] 1)) [(x, y)] :
      List Toy.F) = [1] := by
    intro x y
    have h2 : oracle H (Toy.ser x ++ Toy.ser y ++ Toy.ser 1) = Toy.ser 1 :=
      dif_pos (toy_mem_inputs' (x, y) _ toy_one_mem)
    have hc : (challenges (Toy.oracleEnv.withDigest (oracle H)) (Rng.fromSeed (Toy.oracleEnv.withDigest
      (oracle H)) (seedBytes (Toy.oracleEnv.withDigest (oracle H)) [1, 0] [1, 0] [1, 1] 1)) [(x, y)] :
      List Toy.F) = [drawn Toy.oracleEnv (oracle H (Toy.ser x ++ Toy.ser y ++ (oracle H
        (seedBytes (Toy.oracleEnv.withDigest (oracle H)) [1, 0] [1, 0] [1, 1] 1))))] := rfl
    rw [h1, h2, toy_drawn] at hc
    exact hc
  constructor
  · rw [C57_verify hE _ _ _ _ _ (by simp) rfl rfl (by simp)]
    simp only [hc]
    congr 1
    simp [Equation, bitProd, List.range_succ]
  · rw [C57_verify hE _ _ _ _ _ (by simp) rfl rfl (by simp)]
    simp [hc, Equation, bitProd, List.range_succ]

end Ripp.Sipp
