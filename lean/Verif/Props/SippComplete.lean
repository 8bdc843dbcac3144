import Verif.Props.SippOracle
import Verif.Lemmas.Honest

/-!
# Completeness of SIPP in the random oracle model (C99)

The honest prover panics when a challenge is zero in the field (C55). With the digest a function `H` from
a finite set `Xs` of byte strings to a finite set `Ds` of digests, this happens for a small share of all
`H`.
-/

set_option linter.unusedSectionVars false

namespace Ripp.Sipp

open Spec

section
variable {σ F G1 G2 GT TF : Type} [Field F] [DecidableEq F] [AddCommGroup G1] [Module F G1]
  [AddCommGroup G2] [Module F G2] [AddCommGroup GT] [Module F GT] [Monoid TF] [DecidableEq GT]
  {e : G1 →ₗ[F] G2 →ₗ[F] GT}

/-- The pair sent in a round with vectors `a` and `b`. -/
def honestPair (e : G1 →ₗ[F] G2 →ₗ[F] GT) (a : List G1) (b : List G2) : GT × GT :=
  (dot (e · ·) (a.drop (a.length / 2)) (b.take (a.length / 2)),
    dot (e · ·) (a.take (a.length / 2)) (b.drop (a.length / 2)))

/-- The material hashed in the round after the answers `ds`, starting from the digest `s`. -/
def honestQuery (V : Env σ F G1 G2 GT TF) (e : G1 →ₗ[F] G2 →ₗ[F] GT) {Xs Ds : Finset Bytes}
    (hz : ∀ (z : GT × GT) (d : Ds), V.serGT z.1 ++ V.serGT z.2 ++ (d : Bytes) ∈ Xs) :
    List G1 → List G2 → Ds → List Ds → Xs
  | a, b, s, [] => ⟨_, hz (honestPair e a b) s⟩
  | a, b, _, d :: ds => honestQuery V e hz (foldHalf (drawn V d : F) a) (foldHalf (drawn V d : F)⁻¹ b) d ds

/-- If none of the answers draws zero, the prover loop ends without a panic. -/
theorem proveLoop_honest (V : Env σ F G1 G2 GT TF) (hE : V.E.Lawful e) {Xs Ds : Finset Bytes}
    (hz : ∀ (z : GT × GT) (d : Ds), V.serGT z.1 ++ V.serGT z.2 ++ (d : Bytes) ∈ Xs) (H : Xs → Ds) :
    ∀ (k fuel : ℕ) (a : List G1) (b : List G2) (s : Ds) (rng : Rng σ) (acc : List (GT × GT)),
      rng.seed = s → a.length = 2 ^ k → b.length = 2 ^ k → k ≤ fuel →
      (∀ n < k, (drawn V (H (Oracle.asked (honestQuery (F := F) V e hz a b s) H n)) : F) ≠ 0) →
      ∃ zs, proveLoop (F := F) (V.withDigest (oracle H)) fuel (2 ^ k) a b rng acc = .ok zs
  | 0, fuel, a, b, s, rng, acc, _, _, _, _, _ => by
    refine ⟨acc, ?_⟩
    rw [proveLoop.eq_def]
    simp
  | k + 1, 0, _, _, _, _, _, _, _, _, hf, _ => by omega
  | k + 1, fuel + 1, a, b, s, rng, acc, hs, ha, hb, hf, hd => by
    have hh : a.length / 2 = 2 ^ k := by rw [ha, pow_succ]; omega
    have hxr : (roundChallenge (V.withDigest (oracle H)) rng (honestPair e a b) : F × Rng σ).1 =
          drawn V (H ⟨_, hz (honestPair e a b) s⟩) ∧
        (roundChallenge (F := F) (V.withDigest (oracle H)) rng (honestPair e a b)).2.seed =
          H ⟨_, hz (honestPair e a b) s⟩ := by
      have ho : oracle H (V.serGT (honestPair e a b).1 ++ V.serGT (honestPair e a b).2 ++ rng.seed) =
          H ⟨_, hz (honestPair e a b) s⟩ := by
        rw [hs]; exact dif_pos (hz _ s)
      constructor
      · rw [drawn, ← ho]; rfl
      · rw [← ho]; rfl
    have hx : (drawn V (H ⟨_, hz (honestPair e a b) s⟩) : F) ≠ 0 := hd 0 (by omega)
    rw [proveLoop_step (V := V.withDigest (oracle H)) hE k fuel a b rng acc ha hb]
    rw [honestPair, hh] at hxr hx
    rw [hxr.1, inverse_of_ne hx]
    simp only [unwrap_some, ok_bind]
    have h2 : (2 : ℕ) ^ (k + 1) = 2 * 2 ^ k := by rw [pow_succ]; ring
    rw [h2] at ha hb
    rw [zipWith_fold _ b _ hb]
    refine proveLoop_honest V hE hz H k fuel _ _ _ _ _ hxr.2 (length_foldHalf _ _ _ ha)
      (length_foldHalf _ _ _ hb) (by omega) ?_
    intro n hn
    have := hd (n + 1) (by omega)
    rw [Oracle.asked_succ] at this
    simpa only [honestQuery, honestPair, hh] using this

open Classical in
/-- For all but `(k + 1) * m / |Ds|` of the functions `H : Xs → Ds`, the honest prover of a true statement
with `2 ^ k` pairs ends without a panic and its proof is accepted. `m` is the number of digests drawing a
challenge that is zero in the field. Nothing is asked of the encodings. -/
theorem C99_sipp_complete_oracle (V : Env σ F G1 G2 GT TF) (hE : V.E.Lawful e) (Xs Ds : Finset Bytes)
    (hz : ∀ (z : GT × GT) (d : Ds), V.serGT z.1 ++ V.serGT z.2 ++ (d : Bytes) ∈ Xs)
    (k : ℕ) (hk : 1 ≤ k) (a : List G1) (b : List G2) (r : List F)
    (ha : a.length = 2 ^ k) (hb : b.length = 2 ^ k) (hr : 2 ^ k ≤ r.length)
    (hseed : seedBytes V a b r (product e a b r) ∈ Xs) :
    (Finset.univ.filter fun H : Xs → Ds =>
      ¬ ∃ zs, prove (V.withDigest (oracle H)) a b r (product e a b r) = .ok zs ∧ zs.length = k ∧
        verify (V.withDigest (oracle H)) a b r (product e a b r) zs = .ok true).card * Ds.card ≤
    (k + 1) * (Finset.univ.filter fun d : Ds => (drawn V d : F) = 0).card * Ds.card ^ Xs.card := by
  set A := List.zipWith (fun a (r : F) => r • a) a r with hA
  set query : List Ds → Xs := fun ds => match ds with
    | [] => ⟨_, hseed⟩
    | d :: ds => honestQuery (F := F) V e hz A b d ds with hq
  have hc := Oracle.count_hit query (k + 1) (Finset.univ.filter fun d : Ds => (drawn V d : F) = 0)
  rw [Fintype.card_fun, Fintype.card_coe, Fintype.card_coe] at hc
  refine le_trans (Nat.mul_le_mul_right _ (Finset.card_le_card ?_)) hc
  intro H hH
  refine Finset.mem_filter.mpr ⟨Finset.mem_univ _, ?_⟩
  have hH := (Finset.mem_filter.mp hH).2
  by_contra hno
  push Not at hno
  apply hH
  have hE' : (V.withDigest (oracle H)).E.Lawful e := hE
  obtain ⟨zs, -, ⟨hp, -⟩ | h⟩ := C55_complete (V := V.withDigest (oracle H)) hE' k hk a b r ha hb hr
  · exfalso
    have hz' : A.length = 2 ^ k := by simp [hA, ha, hr]
    obtain ⟨zs, hzs⟩ := proveLoop_honest V hE hz H k (2 ^ k) A b (H ⟨_, hseed⟩)
      (Rng.fromSeed (V.withDigest (oracle H)) (seedBytes V a b r (product e a b r))) []
      (dif_pos hseed) hz' hb Nat.lt_two_pow_self.le (fun n hn => by
        have := hno (n + 1) (by omega)
        rw [Oracle.asked_succ] at this
        simpa using this)
    have : prove (V.withDigest (oracle H)) a b r (product e a b r) = .ok zs := by
      rw [← hzs, prove]
      simp only [ha, hb, beq_self_eq_true, assert_true, ok_bind, isPow2_two_pow]
      rfl
    rw [this] at hp
    exact panic'_ne_ok _ _ hp.symm
  · exact ⟨zs, h⟩

end

theorem toy_zero_draws : (Finset.univ.filter fun d : Toy.digests =>
    (drawn Toy.oracleEnv d : Toy.F) = 0).card = 1 := by
  rw [Finset.card_eq_one]
  refine ⟨⟨Toy.ser 0, (toy_mem_digests _).mpr ⟨0, rfl⟩⟩, ?_⟩
  ext d
  obtain ⟨x, hx⟩ := (toy_mem_digests _).mp d.2
  simp only [Finset.mem_filter, Finset.mem_univ, true_and, Finset.mem_singleton, Subtype.ext_iff]
  rw [← hx, toy_drawn]
  exact ⟨fun h => by rw [h], fun h => toy_ser_injective h⟩

open Classical in
/-- Four pairs: the share of the bad oracles is at most `3 / 101`. -/
example (a b r : List Toy.F) (v : Toy.F) (hv : v = product Toy.e a b r) (ha : a = [1, 2, 3, 4])
    (hb : b = [5, 6, 7, 8]) (hr : r = [1, 1, 2, 3]) (Xs : Finset Bytes)
    (hXs : Xs = insert (seedBytes Toy.oracleEnv a b r v) Toy.inputs) :
    (Finset.univ.filter fun H : Xs → Toy.digests =>
      ¬ ∃ zs, prove (Toy.oracleEnv.withDigest (oracle H)) a b r v = .ok zs ∧ zs.length = 2 ∧
        verify (Toy.oracleEnv.withDigest (oracle H)) a b r v zs = .ok true).card * 101 ≤
      3 * 101 ^ Xs.card := by
  have := C99_sipp_complete_oracle Toy.oracleEnv Toy.lawful Xs Toy.digests
    (fun z d => hXs ▸ Finset.mem_insert_of_mem (toy_mem_inputs z d d.2)) 2 (by norm_num)
    a b r (by simp [ha]) (by simp [hb]) (by simp [hr])
    (by rw [hXs, hv]; exact Finset.mem_insert_self _ _)
  rw [toy_card_digests, ← hv, toy_zero_draws] at this
  exact this

/-- The oracle that always answers with the digest of zero makes the honest prover panic. -/
example : prove (Toy.oracleEnv.withDigest fun _ => Toy.ser 0) [1, 2, 3, 4] [5, 6, 7, 8] [1, 1, 2, 3]
    (product Toy.e [1, 2, 3, 4] [5, 6, 7, 8] [1, 1, 2, 3]) = panic' .unwrap := by
  decide +kernel

end Ripp.Sipp
