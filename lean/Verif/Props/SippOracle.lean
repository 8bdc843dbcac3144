import Verif.Props.Sipp
import Verif.Lemmas.Oracle

/-!
# SIPP in the random oracle model (C72)

The digest is a function `H` from a finite set `Xs` of byte strings to a finite set `Ds` of digests. An
adversary asks `Q` queries, each computed from the answers so far, and outputs a statement and a proof.
The theorem counts the functions `H` for which `verify` accepts a false statement.
-/

set_option linter.unusedSectionVars false

namespace Ripp.Sipp

open Spec

section
variable {σ F G1 G2 GT TF : Type} [Field F] [DecidableEq F] [AddCommGroup G1] [Module F G1]
  [AddCommGroup G2] [Module F G2] [AddCommGroup GT] [Module F GT] [Monoid TF] [DecidableEq GT]
  {e : G1 →ₗ[F] G2 →ₗ[F] GT}

/-- A statement and a proof: `a`, `b`, `r`, the claimed value, the pairs. -/
structure Output (F G1 G2 GT : Type) where
  a : List G1
  b : List G2
  r : List F
  value : GT
  proof : List (GT × GT)

/-- The digest given by `H`; outside of `Xs` it is the empty string. -/
def oracle {Xs Ds : Finset Bytes} (H : Xs → Ds) (x : Bytes) : Bytes :=
  if h : x ∈ Xs then (H ⟨x, h⟩ : Bytes) else []

/-- The same environment with another digest. -/
def Env.withDigest (V : Env σ F G1 G2 GT TF) (dg : Bytes → Bytes) : Env σ F G1 G2 GT TF :=
  { V with digest := dg }

/-- The challenge drawn after the generator has been seeded with `d`. -/
def drawn (V : Env σ F G1 G2 GT TF) (d : Bytes) : F :=
  let lo := V.nextU64 (V.chachaSeed d)
  let hi := V.nextU64 lo.2
  ((hi.1.toNat * 2 ^ 64 + lo.1.toNat : ℕ) : F)

/-- Folding one round. -/
noncomputable def nextState (V : Env σ F G1 G2 GT TF) {Ds : Finset Bytes}
    (st : List G1 × List G2 × GT) (z : GT × GT) (d : Ds) : List G1 × List G2 × GT :=
  open Classical in
  if ∃ n, st.1.length = 2 * n ∧ st.2.1.length = 2 * n then
    (foldHalf (drawn V d : F) st.1, foldHalf (drawn V d : F)⁻¹ st.2.1,
      st.2.2 + ((drawn V d : F) • z.1 + (drawn V d : F)⁻¹ • z.2))
  else st

/-- The folded statement is false. -/
def falseState (e : G1 →ₗ[F] G2 →ₗ[F] GT) (st : List G1 × List G2 × GT) : Prop :=
  st.2.2 ≠ dot (e · ·) st.1 st.2.1

/-- From a false statement at most three challenges lead to a true one (two roots, and zero). -/
theorem escape_le (V : Env σ F G1 G2 GT TF) {Ds : Finset Bytes} (m : ℕ)
    (hm : ∀ (x : F) (S : Finset Ds), (∀ d ∈ S, (drawn V d : F) = x) → S.card ≤ m)
    (st : List G1 × List G2 × GT) (z : GT × GT) (hst : falseState e st) (S : Finset Ds)
    (hS : ∀ d ∈ S, ¬ falseState e (nextState (F := F) V st z d)) : S.card ≤ 3 * m := by
  classical
  obtain ⟨a, b, v⟩ := st
  by_cases hn : ∃ n, a.length = 2 * n ∧ b.length = 2 * n
  · set T : Finset F := S.image fun d : Ds => (drawn V (d : Bytes) : F) with hT
    have hT3 : T.card ≤ 3 := by
      have h2 : (T.erase 0).card ≤ 2 := by
        obtain ⟨n, ha, hb⟩ := hn
        apply card_bad (T.erase 0) (fun x hx => (Finset.mem_erase.mp hx).1)
          (v - dot (e · ·) a b) (z.1 - dot (e · ·) (a.drop n) (b.take n))
          (z.2 - dot (e · ·) (a.take n) (b.drop n)) (sub_ne_zero.mpr hst)
        intro x hx
        obtain ⟨hx0, hx⟩ := Finset.mem_erase.mp hx
        obtain ⟨d, hd, rfl⟩ := Finset.mem_image.mp hx
        have h := not_not.mp (hS d hd)
        simp only [nextState] at h
        rw [if_pos ⟨n, ha, hb⟩] at h
        simp only at h
        rw [dot_fold e _ hx0 a b n ha hb] at h
        rw [smul_sub, smul_sub]
        rw [← sub_eq_zero] at h
        rw [← h]
        abel
      have := Finset.pred_card_le_card_erase (s := T) (a := 0)
      omega
    rw [Finset.card_eq_sum_card_image (fun d : Ds => (drawn V d : F)) S]
    refine (Finset.sum_le_card_nsmul _ _ m fun x _ => ?_).trans ?_
    · exact hm x _ fun d hd => (Finset.mem_filter.mp hd).2
    · rw [smul_eq_mul]
      exact Nat.mul_le_mul_right m hT3
  · have : S = ∅ := by
      apply Finset.eq_empty_of_forall_notMem
      intro d hd
      refine hS d hd ?_
      rw [nextState, if_neg hn]
      exact hst
    simp [this]

/-- The chain computed by the verifier. -/
theorem run_eq (V : Env σ F G1 G2 GT TF) {Xs Ds : Finset Bytes} (H : Xs → Ds)
    (hz : ∀ (z : GT × GT) (d : Ds), V.serGT z.1 ++ V.serGT z.2 ++ (d : Bytes) ∈ Xs) :
    ∀ (zs : List (GT × GT)) (a : List G1) (b : List G2) (v : GT) (s : Ds) (rng : Rng σ),
      rng.seed = s → a.length = 2 ^ zs.length → b.length = 2 ^ zs.length →
      Oracle.run (nextState (F := F) V) (fun z d => (⟨_, hz z d⟩ : Xs)) H (a, b, v) s zs =
        (foldAll (challenges (V.withDigest (oracle H)) rng zs : List F) a,
          foldAll ((challenges (V.withDigest (oracle H)) rng zs : List F).map (·⁻¹)) b,
          v + cross (challenges (V.withDigest (oracle H)) rng zs : List F) zs)
  | [], a, b, v, s, rng, _, _, _ => by simp [Oracle.run, challenges, foldAll, cross]
  | z :: zs, a, b, v, s, rng, hs, ha, hb => by
    have h2 : (2 : ℕ) ^ (zs.length + 1) = 2 * 2 ^ zs.length := by rw [pow_succ]; ring
    rw [List.length_cons, h2] at ha hb
    set d := H ⟨_, hz z s⟩ with hd
    have hseed : (rng.absorb (V.withDigest (oracle H)) (V.serGT z.1 ++ V.serGT z.2)).seed = d := by
      simp only [Rng.absorb, Env.withDigest, oracle, hs]
      rw [dif_pos (hz z s)]
    have hch : (roundChallenge (V.withDigest (oracle H)) rng z : F × Rng σ).1 = drawn V d := by
      simp only [roundChallenge, Rng.nextU128, drawn, ← hseed]
      rfl
    rw [Oracle.run, ← hd]
    have hnext : nextState (F := F) V (a, b, v) z d = (foldHalf (drawn V d : F) a,
        foldHalf (drawn V d : F)⁻¹ b, v + ((drawn V d : F) • z.1 + (drawn V d : F)⁻¹ • z.2)) := by
      rw [nextState, if_pos ⟨_, ha, hb⟩]
    rw [hnext, run_eq V H hz zs _ _ _ d (roundChallenge (V.withDigest (oracle H)) rng z : F × Rng σ).2
      hseed (length_foldHalf _ _ _ ha) (length_foldHalf _ _ _ hb)]
    have hc : (challenges (V.withDigest (oracle H)) rng (z :: zs) : List F) = drawn V d ::
        challenges (V.withDigest (oracle H))
          (roundChallenge (V.withDigest (oracle H)) rng z : F × Rng σ).2 zs := by
      rw [challenges, ← hch]
    rw [hc, List.map_cons, foldAll, foldAll, cross, cross, dot_cons]
    simp only [add_assoc]

/-- Accepted input is well-formed. -/
theorem shape_of_verify (V : Env σ F G1 G2 GT TF) (a : List G1) (b : List G2)
    (r : List F) (value : GT) (proof : List (GT × GT)) (h : verify V a b r value proof = .ok true) :
    1 ≤ proof.length ∧ a.length = 2 ^ proof.length ∧ b.length = 2 ^ proof.length ∧
      2 ^ proof.length ≤ r.length := by
  have ha : a.length = 2 ^ proof.length := by
    by_contra hcon
    rw [C61_proof_length V a b r value proof hcon] at h
    simp [panic'] at h
  have hb : a.length = b.length := by
    by_contra hcon
    rw [C61_vector_lengths V a b r value proof hcon] at h
    simp [panic'] at h
  have h2 : 2 ≤ a.length := by
    by_contra hcon
    rw [C61_too_short V a b r value proof (by omega)] at h
    simp [panic'] at h
  have hk : 1 ≤ proof.length := by
    by_contra hcon
    have h0 : proof.length = 0 := by omega
    rw [h0] at ha
    omega
  refine ⟨hk, ha, hb ▸ ha, ?_⟩
  by_contra hcon
  rw [C61_short_coeffs V a b r value proof hk ha (hb ▸ ha) (by omega)] at h
  simp [panic'] at h

theorem length_serSeq {α : Type} (ser : α → Bytes) (l : ℕ) (h : ∀ x, (ser x).length = l)
    (xs : List α) : (serSeq ser xs).length = 8 + xs.length * l := by
  rw [serSeq, List.length_append, List.length_flatMap]
  have : (xs.map fun x => (ser x).length) = List.replicate xs.length l := by
    rw [List.eq_replicate_iff]
    simp [h]
  rw [this]
  simp [length_leBytes]

open Classical in
/-- What a query means: the seed of a well-formed statement, the absorption of a pair into a digest, or
nothing. -/
noncomputable def decode (V : Env σ F G1 G2 GT TF) {Xs Ds : Finset Bytes} (q : Xs) :
    Option ((List G1 × List G2 × GT) ⊕ (GT × GT) × Ds) :=
  if h : ∃ o : Output F G1 G2 GT, (2 ≤ o.a.length ∧ 2 ≤ o.b.length ∧ 2 ≤ o.r.length ∧
      o.a.length < 2 ^ 64 ∧ o.b.length < 2 ^ 64 ∧ o.r.length < 2 ^ 64) ∧
      seedBytes V o.a o.b o.r o.value = q then
    some (.inl (List.zipWith (fun a r => r • a) h.choose.a h.choose.r, h.choose.b, h.choose.value))
  else if h : ∃ zd : (GT × GT) × Ds, V.serGT zd.1.1 ++ V.serGT zd.1.2 ++ (zd.2 : Bytes) = q then
    some (.inr h.choose)
  else none

theorem decode_seed (V : Env σ F G1 G2 GT TF) {Xs Ds : Finset Bytes} (h1 : Fixed V.serG1)
    (h2 : Fixed V.serG2) (h3 : Fixed V.serF) (h4 : Fixed V.serGT) (o : Output F G1 G2 GT)
    (hw : 2 ≤ o.a.length ∧ 2 ≤ o.b.length ∧ 2 ≤ o.r.length ∧
      o.a.length < 2 ^ 64 ∧ o.b.length < 2 ^ 64 ∧ o.r.length < 2 ^ 64)
    (q : Xs) (hq : seedBytes V o.a o.b o.r o.value = q) :
    decode (Ds := Ds) V q = some (.inl (List.zipWith (fun a r => r • a) o.a o.r, o.b, o.value)) := by
  have h : ∃ o : Output F G1 G2 GT, (2 ≤ o.a.length ∧ 2 ≤ o.b.length ∧ 2 ≤ o.r.length ∧
      o.a.length < 2 ^ 64 ∧ o.b.length < 2 ^ 64 ∧ o.r.length < 2 ^ 64) ∧
      seedBytes V o.a o.b o.r o.value = q := ⟨o, hw, hq⟩
  obtain ⟨hc, hcq⟩ := h.choose_spec
  obtain ⟨e1, e2, e3, e4⟩ := C59_seed h1 h2 h3 h4 _ _ _ _ _ _ _ _ hc.2.2.2.1 hw.2.2.2.1
    hc.2.2.2.2.1 hw.2.2.2.2.1 hc.2.2.2.2.2 hw.2.2.2.2.2 (hcq.trans hq.symm)
  rw [decode, dif_pos h, e1, e2, e3, e4]

theorem decode_absorb (V : Env σ F G1 G2 GT TF) {Xs Ds : Finset Bytes} (l1 l2 lF lT ld : ℕ)
    (h1 : ∀ x, (V.serG1 x).length = l1) (h2 : ∀ x, (V.serG2 x).length = l2)
    (h3 : ∀ x, (V.serF x).length = lF) (h4 : ∀ x, (V.serGT x).length = lT)
    (i4 : Fixed V.serGT) (hd : ∀ d ∈ Ds, d.length = ld)
    (hsep : lT + ld < 24 + 2 * (l1 + l2 + lF))
    (z : GT × GT) (d : Ds) (q : Xs) (hq : V.serGT z.1 ++ V.serGT z.2 ++ (d : Bytes) = q) :
    decode (F := F) (G1 := G1) (G2 := G2) V q = some (.inr (z, d)) := by
  have hno : ¬ ∃ o : Output F G1 G2 GT, (2 ≤ o.a.length ∧ 2 ≤ o.b.length ∧ 2 ≤ o.r.length ∧
      o.a.length < 2 ^ 64 ∧ o.b.length < 2 ^ 64 ∧ o.r.length < 2 ^ 64) ∧
      seedBytes V o.a o.b o.r o.value = q := by
    rintro ⟨o, hw, ho⟩
    have := congrArg List.length (ho.trans hq.symm)
    simp only [seedBytes, List.length_append, length_serSeq _ _ h1, length_serSeq _ _ h2,
      length_serSeq _ _ h3, h4, hd d d.2] at this
    have e1 := Nat.mul_le_mul_right l1 hw.1
    have e2 := Nat.mul_le_mul_right l2 hw.2.1
    have e3 := Nat.mul_le_mul_right lF hw.2.2.1
    omega
  have h : ∃ zd : (GT × GT) × Ds, V.serGT zd.1.1 ++ V.serGT zd.1.2 ++ (zd.2 : Bytes) = q :=
    ⟨(z, d), hq⟩
  obtain ⟨e1, e2⟩ := C59_absorb i4 _ _ _ _ (h.choose_spec.trans hq.symm)
  rw [decode, dif_neg hno, dif_pos h]
  congr 2
  exact Prod.ext e1 (Subtype.ext e2)

/-- C72: soundness of the SIPP verifier in the random oracle model. The hypotheses on lengths separate
the two kinds of hash inputs; for BLS12-377 and BLAKE2s they read `576 + 32 < 24 + 2 (96 + 192 + 32)`. -/
theorem C72_sipp_random_oracle (V : Env σ F G1 G2 GT TF) (hE : V.E.Lawful e)
    (Xs Ds : Finset Bytes) (l1 l2 lF lT ld : ℕ)
    (h1 : ∀ x, (V.serG1 x).length = l1) (h2 : ∀ x, (V.serG2 x).length = l2)
    (h3 : ∀ x, (V.serF x).length = lF) (h4 : ∀ x, (V.serGT x).length = lT)
    (i1 : Function.Injective V.serG1) (i2 : Function.Injective V.serG2)
    (i3 : Function.Injective V.serF) (i4 : Function.Injective V.serGT)
    (hd : ∀ d ∈ Ds, d.length = ld) (hsep : lT + ld < 24 + 2 * (l1 + l2 + lF))
    (hz : ∀ (z : GT × GT) (d : Ds), V.serGT z.1 ++ V.serGT z.2 ++ (d : Bytes) ∈ Xs)
    (m : ℕ) (hm : ∀ x : F, (Finset.univ.filter fun d : Ds => (drawn V d : F) = x).card ≤ m)
    (query : List Ds → Xs) (Q K : ℕ) (out : List Ds → Output F G1 G2 GT)
    (hout : ∀ ds, seedBytes V (out ds).a (out ds).b (out ds).r (out ds).value ∈ Xs ∧
      (out ds).a.length < 2 ^ 64 ∧ (out ds).r.length < 2 ^ 64 ∧ (out ds).proof.length ≤ K) :
    (Finset.univ.filter fun H : Xs → Ds =>
      let o := out (Oracle.trace query H Q)
      o.value ≠ product e o.a o.b o.r ∧
        verify (V.withDigest (oracle H)) o.a o.b o.r o.value o.proof = .ok true).card * Ds.card ≤
    ((Q + K + 1) * (3 * m) + (Q + K + 1) ^ 2) * Ds.card ^ Xs.card := by
  classical
  have f1 : Fixed V.serG1 := ⟨l1, h1, fun x y h => i1 h⟩
  have f2 : Fixed V.serG2 := ⟨l2, h2, fun x y h => i2 h⟩
  have f3 : Fixed V.serF := ⟨lF, h3, fun x y h => i3 h⟩
  have f4 : Fixed V.serGT := ⟨lT, h4, fun x y h => i4 h⟩
  let enc : GT × GT → Ds → Xs := fun z d => ⟨_, hz z d⟩
  have key := Oracle.count_adversary query Q
    (fun ds => ((⟨_, (hout ds).1⟩ : Xs), (out ds).proof)) enc (decode (F := F) (G1 := G1) (G2 := G2) V)
    (nextState (F := F) V) (falseState e)
    (fun z d => decode_absorb V l1 l2 lF lT ld h1 h2 h3 h4 f4 hd hsep z d _ rfl) (3 * m)
    (fun st z hst S hS => escape_le V m (fun x S hx => le_trans (Finset.card_le_card
      fun d hd => Finset.mem_filter.mpr ⟨Finset.mem_univ _, hx d hd⟩) (hm x)) st z hst S hS) K
  have c1 : Fintype.card Ds = Ds.card := Fintype.card_coe Ds
  have c2 : Fintype.card (Xs → Ds) = Ds.card ^ Xs.card := by
    rw [Fintype.card_fun, Fintype.card_coe, Fintype.card_coe]
  rw [c1, c2] at key
  refine le_trans (Nat.mul_le_mul_right _ (Finset.card_le_card ?_)) key
  intro H hH
  obtain ⟨-, hv, hacc⟩ := Finset.mem_filter.mp hH
  refine Finset.mem_filter.mpr ⟨Finset.mem_univ _, ?_⟩
  generalize Oracle.trace query H Q = ds at hv hacc ⊢
  obtain ⟨ho1, ho2, ho3, ho4⟩ := hout ds
  obtain ⟨hk, ha, hb, hr⟩ := shape_of_verify _ _ _ _ _ _ hacc
  have hpow : 2 ≤ 2 ^ (out ds).proof.length := by
    calc 2 = 2 ^ 1 := rfl
      _ ≤ _ := Nat.pow_le_pow_right (by norm_num) hk
  refine ⟨_, decode_seed V f1 f2 f3 f4 (out ds) ⟨by omega, by omega, by omega, ho2, by omega, ho3⟩ _ rfl,
    hv, ho4, ?_⟩
  have hrun := run_eq (F := F) V H hz (out ds).proof
    (List.zipWith (fun a r => r • a) (out ds).a (out ds).r) (out ds).b (out ds).value
    (H ⟨_, ho1⟩) (Rng.fromSeed (V.withDigest (oracle H))
      (seedBytes V (out ds).a (out ds).b (out ds).r (out ds).value))
    (by simp only [Rng.fromSeed, Env.withDigest, oracle]; rw [dif_pos ho1])
    (by simp [ha]; omega) hb
  rw [show (Oracle.run (nextState (F := F) V) enc H _ (H ⟨_, ho1⟩) (out ds).proof) = _ from hrun]
  have hE' : (V.withDigest (oracle H)).E.Lawful e := hE
  rw [C57_verify hE' _ _ _ _ _ hk ha hb hr] at hacc
  have heq := of_decide_eq_true (Except.ok.inj hacc)
  rw [equation_iff _ _ _ _ _ _ (by rw [length_challenges, ha]) (by rw [length_challenges, hb])
    (by rw [length_challenges]; exact hr)] at heq
  rw [falseState, not_not]
  exact heq.symm

end

/-- A toy environment whose generator returns the seed byte. -/
def Toy.oracleEnv : Env UInt8 Toy.F Toy.F Toy.F Toy.F Toy.TF where
  E := Toy.E
  X := Toy.X
  digest := Toy.digest
  chachaSeed d := d.headD 0
  nextU64 := fun s => (UInt64.ofNat s.toNat, 0)
  serF := Toy.ser
  serG1 := Toy.ser
  serG2 := Toy.ser
  serGT := Toy.ser

/-- The digests `0, …, 100`. -/
noncomputable def Toy.digests : Finset Bytes := (Set.finite_range Toy.ser).toFinset

/-- The inputs of the oracle. -/
noncomputable def Toy.inputs : Finset Bytes :=
  ((Set.finite_range fun zx : (Toy.F × Toy.F) × Toy.F =>
      Toy.ser zx.1.1 ++ Toy.ser zx.1.2 ++ Toy.ser zx.2).insert
    (seedBytes Toy.oracleEnv [1, 0] [1, 0] [1, 1] 3)).toFinset

/-- A false statement with a proof that is accepted for the challenge `1`. -/
def Toy.cheat : Output Toy.F Toy.F Toy.F Toy.F := ⟨[1, 0], [1, 0], [1, 1], 3, [(1, -3)]⟩

theorem toy_ser_injective : Function.Injective Toy.ser := fun _ _ h => toy_ser_fixed.choose_spec.2 _ _ h

theorem toy_mem_digests (d : Bytes) : d ∈ Toy.digests ↔ ∃ x : Toy.F, Toy.ser x = d :=
  Set.Finite.mem_toFinset _

theorem toy_card_digests : Toy.digests.card = 101 := by
  have : Toy.digests = Finset.univ.map ⟨Toy.ser, toy_ser_injective⟩ := by
    ext d
    rw [toy_mem_digests, Finset.mem_map]
    simp
  rw [this, Finset.card_map, Finset.card_univ, ZMod.card]

theorem toy_mem_inputs (z : Toy.F × Toy.F) (d : Bytes) (hd : d ∈ Toy.digests) :
    Toy.ser z.1 ++ Toy.ser z.2 ++ d ∈ Toy.inputs := by
  obtain ⟨x, rfl⟩ := (toy_mem_digests d).mp hd
  exact (Set.Finite.mem_toFinset _).mpr (.inr ⟨(z, x), rfl⟩)

theorem toy_seed_mem : seedBytes Toy.oracleEnv [1, 0] [1, 0] [1, 1] 3 ∈ Toy.inputs :=
  (Set.Finite.mem_toFinset _).mpr (.inl rfl)

theorem toy_one_mem : Toy.ser 1 ∈ Toy.digests := (toy_mem_digests _).mpr ⟨1, rfl⟩

theorem toy_drawn (x : Toy.F) : (drawn Toy.oracleEnv (Toy.ser x) : Toy.F) = x := by
  revert x
  decide +kernel

example (query : List Toy.digests → Toy.inputs) (Q : ℕ) :
    (Finset.univ.filter fun H : Toy.inputs → Toy.digests =>
      Toy.cheat.value ≠ product Toy.e Toy.cheat.a Toy.cheat.b Toy.cheat.r ∧
        verify (Toy.oracleEnv.withDigest (oracle H)) Toy.cheat.a Toy.cheat.b Toy.cheat.r
          Toy.cheat.value Toy.cheat.proof = .ok true).card * 101 ≤
    ((Q + 2) * 3 + (Q + 2) ^ 2) * 101 ^ Toy.inputs.card := by
  have := C72_sipp_random_oracle Toy.oracleEnv Toy.lawful Toy.inputs Toy.digests 1 1 1 1 1
    (fun _ => rfl) (fun _ => rfl) (fun _ => rfl) (fun _ => rfl) toy_ser_injective toy_ser_injective
    toy_ser_injective toy_ser_injective
    (fun d hd => by obtain ⟨x, rfl⟩ := (toy_mem_digests d).mp hd; rfl) (by norm_num)
    (fun z d => toy_mem_inputs z d d.2) 1
    (fun x => by
      rw [Finset.card_le_one]
      intro d hd d' hd'
      obtain ⟨y, hy⟩ := (toy_mem_digests _).mp d.2
      obtain ⟨y', hy'⟩ := (toy_mem_digests _).mp d'.2
      have e1 := (Finset.mem_filter.mp hd).2
      have e2 := (Finset.mem_filter.mp hd').2
      rw [← hy, toy_drawn] at e1
      rw [← hy', toy_drawn] at e2
      exact Subtype.ext (by rw [← hy, ← hy', e1, e2]))
    query Q 1 (fun _ => Toy.cheat)
    (fun ds => ⟨toy_seed_mem, by decide, by decide, le_rfl⟩)
  rw [toy_card_digests] at this
  exact this

/-- The cheater does succeed for some oracles. -/
example : Toy.cheat.value ≠ product Toy.e Toy.cheat.a Toy.cheat.b Toy.cheat.r ∧
    ∃ H : Toy.inputs → Toy.digests,
      verify (Toy.oracleEnv.withDigest (oracle H)) Toy.cheat.a Toy.cheat.b Toy.cheat.r
        Toy.cheat.value Toy.cheat.proof = .ok true := by
  refine ⟨by simp [product, Toy.cheat]; decide, fun _ => ⟨Toy.ser 1, toy_one_mem⟩, ?_⟩
  set H : Toy.inputs → Toy.digests := fun _ => ⟨Toy.ser 1, toy_one_mem⟩ with hH
  have hE : (Toy.oracleEnv.withDigest (oracle H)).E.Lawful Toy.e := Toy.lawful
  rw [C57_verify hE _ _ _ _ _ (by simp [Toy.cheat]) rfl rfl (by simp [Toy.cheat])]
  have h1 : oracle H (seedBytes (Toy.oracleEnv.withDigest (oracle H)) [1, 0] [1, 0] [1, 1] 3) =
      Toy.ser 1 := dif_pos toy_seed_mem
  have h2 : oracle H (Toy.ser 1 ++ Toy.ser (-3) ++ Toy.ser 1) = Toy.ser 1 :=
    dif_pos (toy_mem_inputs (1, -3) _ toy_one_mem)
  have hc : (challenges (Toy.oracleEnv.withDigest (oracle H)) (Rng.fromSeed (Toy.oracleEnv.withDigest
      (oracle H)) (seedBytes (Toy.oracleEnv.withDigest (oracle H)) [1, 0] [1, 0] [1, 1] 3)) [(1, -3)] :
      List Toy.F) = [drawn Toy.oracleEnv (oracle H (Toy.ser 1 ++ Toy.ser (-3) ++ (oracle H
        (seedBytes (Toy.oracleEnv.withDigest (oracle H)) [1, 0] [1, 0] [1, 1] 3))))] := rfl
  rw [h1, h2, toy_drawn] at hc
  simp only [Toy.cheat, hc]
  congr 1
  simp [Equation, bitProd, List.range_succ]

end Ripp.Sipp
