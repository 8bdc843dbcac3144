import Verif.Props.Domain
import Verif.Props.Serialize
import Verif.Props.AggRewind
import Verif.Props.Challenge
import Mathlib.NumberTheory.LucasLehmer

/-!
# C136: how likely each challenge is, and the bounds for the hash functions and curves of the repository

The random oracle theorems speak about the largest number `m` of digests that give the same round challenge and the
largest number `m'` that give the same point or linear combination. Here these numbers are computed for digests of `L`
bytes. The round challenge is made from the first 16 bytes (`ip_proofs/src/gipa.rs:248-251`), the others with
`from_random_bytes` (`ip_proofs/src/tipa/mod.rs:205`,
`ip_proofs/src/applications/groth16_aggregation.rs:112`).
-/

set_option linter.unusedSectionVars false

namespace Ripp.Level

open Spec GipaStatic Extract Codec

/-- All digests of `L` bytes. -/
def digests (L : ℕ) : Finset Bytes := (Finset.range (256 ^ L)).image (leBytes L)

theorem mem_digests {L : ℕ} {d : Bytes} : d ∈ digests L ↔ d.length = L := by
  rw [digests, Finset.mem_image]
  constructor
  · rintro ⟨n, -, rfl⟩
    exact length_leBytes L n
  · rintro rfl
    exact ⟨leNat d, Finset.mem_range.mpr (leNat_lt d), leBytes_leNat d⟩

theorem card_digests (L : ℕ) : (digests L).card = 256 ^ L := by
  rw [digests, Finset.card_image_of_injOn, Finset.card_range]
  intro a ha b hb h
  have ha := Finset.mem_range.mp (Finset.mem_coe.mp ha)
  have hb := Finset.mem_range.mp (Finset.mem_coe.mp hb)
  rw [← leNat_leBytes L a ha, ← leNat_leBytes L b hb, h]

attribute [irreducible] digests

theorem beNat_reverse : ∀ d : Bytes, beNat d.reverse = leNat d
  | [] => rfl
  | b :: d => by
    have := beNat_reverse d
    rw [beNat] at this ⊢
    rw [List.reverse_cons, List.foldl_append, this]
    simp [leNat]
    omega

theorem leNat_reverse (d : Bytes) : leNat d.reverse = beNat d := by
  rw [← beNat_reverse, List.reverse_reverse]

theorem leNat_append : ∀ u v : Bytes, leNat (u ++ v) = leNat u + 256 ^ u.length * leNat v
  | [], v => by simp [leNat]
  | b :: u, v => by
    rw [List.cons_append, leNat, leNat, leNat_append u v, List.length_cons, pow_succ]
    ring

/-! ## Round challenges -/

/-- The digests whose first 16 bytes are a given number. -/
theorem card_first16 (L : ℕ) (hL : 16 ≤ L) (v : ℕ) (hv : v < 2 ^ 128) :
    ((digests L).filter fun d => beNat (d.take 16) = v).card = 256 ^ (L - 16) := by
  rw [← card_digests]
  symm
  refine Finset.card_bij (fun t _ => (leBytes 16 v).reverse ++ t) ?_ ?_ ?_
  · intro t ht
    rw [Finset.mem_filter, mem_digests]
    rw [mem_digests] at ht
    have hl : (leBytes 16 v).reverse.length = 16 := by rw [List.length_reverse, length_leBytes]
    refine ⟨by rw [List.length_append, hl, ht]; omega, ?_⟩
    rw [List.take_left' hl, beNat_reverse, leNat_leBytes 16 v (by norm_num at hv ⊢; exact hv)]
  · intro t _ t' _ h
    exact List.append_cancel_left h
  · intro d hd
    rw [Finset.mem_filter, mem_digests] at hd
    refine ⟨d.drop 16, mem_digests.mpr (by rw [List.length_drop, hd.1]), ?_⟩
    have h16 : (d.take 16).reverse.length = 16 := by rw [List.length_reverse, List.length_take, hd.1]; omega
    have : leBytes 16 v = (d.take 16).reverse := by
      have h := leBytes_leNat (d.take 16).reverse
      rwa [h16, leNat_reverse, hd.2] at h
    rw [this, List.reverse_reverse, List.take_append_drop]

section Round

variable (F : Type) [Field F] [DecidableEq F] (p : ℕ) [CharP F p]

theorem cast_inj (hp : p = 0 ∨ 2 ^ 128 ≤ p) {a b : ℕ} (ha : a < 2 ^ 128) (hb : b < 2 ^ 128) (h : (a : F) = b) :
    a = b := by
  have := (CharP.natCast_eq_natCast F p).mp h
  rcases hp with rfl | hp
  · simpa [Nat.ModEq] using this
  · exact Nat.ModEq.eq_of_lt_of_lt this (by omega) (by omega)

theorem first16_lt {L : ℕ} (hL : 16 ≤ L) {d : Bytes} (hd : d ∈ digests L) : beNat (d.take 16) < 2 ^ 128 := by
  have := leNat_lt (d.take 16).reverse
  rw [leNat_reverse, List.length_reverse, List.length_take, mem_digests.mp hd, min_eq_left hL] at this
  norm_num at this ⊢
  exact this

/-- C136: every number below `2^128` is equally likely, so the inverse of each is the round challenge for exactly one
in `2^128` digests. -/
theorem C136_round (hp : p = 0 ∨ 2 ^ 128 ≤ p) (L : ℕ) (hL : 16 ≤ L) (v : ℕ) (hv : v < 2 ^ 128) :
    (Finset.univ.filter fun d : digests L => challengeOf F d = (v : F)⁻¹).card * 2 ^ 128 = (digests L).card := by
  have : (Finset.univ.filter fun d : digests L => challengeOf F d = (v : F)⁻¹).card =
      ((digests L).filter fun d => beNat (d.take 16) = v).card := by
    refine Finset.card_bij (fun d _ => (d : Bytes)) ?_ (fun _ _ _ _ h => Subtype.ext h) ?_
    · intro d hd
      refine Finset.mem_filter.mpr ⟨d.2, ?_⟩
      exact cast_inj F p hp (first16_lt hL d.2) hv (inv_injective (Finset.mem_filter.mp hd).2)
    · intro d hd
      obtain ⟨h1, h2⟩ := Finset.mem_filter.mp hd
      exact ⟨⟨d, h1⟩, Finset.mem_filter.mpr ⟨Finset.mem_univ _, by rw [challengeOf, h2]⟩, rfl⟩
  rw [this, card_first16 L hL v hv, card_digests]
  calc 256 ^ (L - 16) * 2 ^ 128 = 256 ^ (L - 16) * 256 ^ 16 := by norm_num
    _ = 256 ^ L := by rw [← pow_add]; congr 1; omega

/-- C136: no round challenge is made from more than one in `2^128` digests. -/
theorem C136_round_le (hp : p = 0 ∨ 2 ^ 128 ≤ p) (L : ℕ) (hL : 16 ≤ L) (x : F) :
    (Finset.univ.filter fun d : digests L => challengeOf F d = x).card ≤ 256 ^ (L - 16) := by
  rcases Finset.eq_empty_or_nonempty (Finset.univ.filter fun d : digests L => challengeOf F d = x) with h | ⟨d, hd⟩
  · rw [h]; exact Nat.zero_le _
  have hx : x = (beNat ((d : Bytes).take 16) : F)⁻¹ := (Finset.mem_filter.mp hd).2.symm
  have := C136_round F p hp L hL _ (first16_lt hL d.2)
  rw [← hx, card_digests] at this
  refine (Nat.eq_of_mul_eq_mul_right (by norm_num : 0 < 2 ^ 128) (this.trans ?_)).le
  calc 256 ^ L = 256 ^ (L - 16) * 256 ^ 16 := by rw [← pow_add]; congr 1; omega
    _ = 256 ^ (L - 16) * 2 ^ 128 := by norm_num

end Round

/-! ## Points and linear combinations -/

/-- What ark-ff 0.4 does for a prime field: the first `len` bytes (the size of the number in memory) as a little-endian
number, of which the lowest `bits` bits are kept (`bits` is the bit size of the modulus); the result is used if it is
below the modulus. -/
def arkRandom (F : Type) [Field F] (p bits len : ℕ) (d : Bytes) : Option F :=
  let v := leNat (d.take len) % 2 ^ bits
  if v < p then some (v : F) else none

theorem take_mod (d : Bytes) (len bits : ℕ) (hb : bits ≤ 8 * len) (hl : len ≤ d.length) :
    leNat (d.take len) % 2 ^ bits = leNat d % 2 ^ bits := by
  conv_rhs => rw [← List.take_append_drop len d, leNat_append, List.length_take, min_eq_left hl]
  have : (256 : ℕ) ^ len = 2 ^ bits * 2 ^ (8 * len - bits) := by
    rw [← pow_add, show (256 : ℕ) = 2 ^ 8 by norm_num, ← pow_mul]; congr 1; omega
  rw [this, mul_assoc, Nat.add_mul_mod_self_left]

/-- The digests whose low bits are a given number. -/
theorem card_low (L bits : ℕ) (hL : bits ≤ 8 * L) (v : ℕ) (hv : v < 2 ^ bits) :
    ((digests L).filter fun d => leNat d % 2 ^ bits = v).card = 2 ^ (8 * L - bits) := by
  have h256 : (256 : ℕ) ^ L = 2 ^ (8 * L - bits) * 2 ^ bits := by
    rw [← pow_add, show (256 : ℕ) = 2 ^ 8 by norm_num, ← pow_mul]; congr 1; omega
  rw [← Finset.card_range (2 ^ (8 * L - bits))]
  symm
  have hlt : ∀ q < 2 ^ (8 * L - bits), v + 2 ^ bits * q < 256 ^ L := by
    intro q hq
    calc v + 2 ^ bits * q < 2 ^ bits * (q + 1) := by rw [mul_add]; omega
      _ ≤ 2 ^ bits * 2 ^ (8 * L - bits) := Nat.mul_le_mul_left _ hq
      _ = 256 ^ L := by rw [h256, mul_comm]
  refine Finset.card_bij (fun q _ => leBytes L (v + 2 ^ bits * q)) ?_ ?_ ?_
  · intro q hq
    rw [Finset.mem_range] at hq
    refine Finset.mem_filter.mpr ⟨mem_digests.mpr (length_leBytes _ _), ?_⟩
    rw [leNat_leBytes _ _ (hlt q hq), Nat.add_mul_mod_self_left, Nat.mod_eq_of_lt hv]
  · intro q hq q' hq' h
    rw [Finset.mem_range] at hq hq'
    have := congrArg leNat h
    rw [leNat_leBytes _ _ (hlt q hq), leNat_leBytes _ _ (hlt q' hq')] at this
    exact Nat.eq_of_mul_eq_mul_left (Nat.two_pow_pos bits) (by omega)
  · intro d hd
    obtain ⟨h1, h2⟩ := Finset.mem_filter.mp hd
    rw [mem_digests] at h1
    have hd' := leNat_lt d
    rw [h1, h256] at hd'
    refine ⟨leNat d / 2 ^ bits, Finset.mem_range.mpr (Nat.div_lt_of_lt_mul (by rwa [mul_comm] at hd')), ?_⟩
    rw [← h2, Nat.mod_add_div, ← h1, leBytes_leNat]

section Point

variable (F : Type) [Field F] [DecidableEq F] (p : ℕ) [CharP F p] (bits len L : ℕ)

/-- C136: every element of the prime field is made from the same number of digests, one in `2^bits`. -/
theorem C136_point (hp : p ≤ 2 ^ bits) (hb : bits ≤ 8 * len) (hL : len ≤ L) (v : ℕ) (hv : v < p) :
    (Finset.univ.filter fun d : digests L => arkRandom F p bits len d = some (v : F)).card * 2 ^ bits =
      (digests L).card := by
  have : (Finset.univ.filter fun d : digests L => arkRandom F p bits len d = some (v : F)).card =
      ((digests L).filter fun d => leNat d % 2 ^ bits = v).card := by
    refine Finset.card_bij (fun d _ => (d : Bytes)) ?_ (fun _ _ _ _ h => Subtype.ext h) ?_
    · intro d hd
      refine Finset.mem_filter.mpr ⟨d.2, ?_⟩
      have h := (Finset.mem_filter.mp hd).2
      have hl := mem_digests.mp d.2
      rw [arkRandom, take_mod _ _ _ hb (by omega)] at h
      split at h
      · rename_i hlt
        have := (CharP.natCast_eq_natCast F p).mp (Option.some.inj h)
        exact Nat.ModEq.eq_of_lt_of_lt this hlt hv
      · cases h
    · intro d hd
      obtain ⟨h1, h2⟩ := Finset.mem_filter.mp hd
      refine ⟨⟨d, h1⟩, Finset.mem_filter.mpr ⟨Finset.mem_univ _, ?_⟩, rfl⟩
      rw [arkRandom, take_mod _ _ _ hb (by rw [mem_digests] at h1; simp only; omega)]
      dsimp only
      rw [h2, if_pos hv]
  rw [this, card_low L bits (by omega) v (by omega), card_digests, ← pow_add, show (256 : ℕ) = 2 ^ 8 by norm_num,
    ← pow_mul]
  congr 1
  omega

/-- C136: no element is made from more than one in `2^bits` digests. -/
theorem C136_point_le (hp : p ≤ 2 ^ bits) (hb : bits ≤ 8 * len) (hL : len ≤ L) (c : F) :
    (Finset.univ.filter fun d : digests L => arkRandom F p bits len d = some c).card ≤ 2 ^ (8 * L - bits) := by
  rcases Finset.eq_empty_or_nonempty (Finset.univ.filter fun d : digests L => arkRandom F p bits len d = some c) with
    h | ⟨d, hd⟩
  · rw [h]; exact Nat.zero_le _
  have h := (Finset.mem_filter.mp hd).2
  rw [arkRandom] at h
  split at h
  · rename_i hlt
    rw [← Option.some.inj h]
    have := C136_point F p bits len L hp hb hL _ hlt
    rw [card_digests] at this
    refine (Nat.eq_of_mul_eq_mul_right (Nat.two_pow_pos bits) (this.trans ?_)).le
    rw [← pow_add, show (256 : ℕ) = 2 ^ 8 by norm_num, ← pow_mul]
    congr 1
    omega
  · cases h

/-- C136: an attempt fails for `2^bits - p` in `2^bits` digests, fewer than half as `bits` is the bit size of `p`. -/
theorem C136_retry (hb : bits ≤ 8 * len) (hL : len ≤ L) :
    (Finset.univ.filter fun d : digests L => arkRandom F p bits len d = none).card * 2 ^ bits =
      (2 ^ bits - p) * (digests L).card := by
  have e : (Finset.univ.filter fun d : digests L => arkRandom F p bits len d = none).card =
      ((digests L).filter fun d => leNat d % 2 ^ bits ∈ Finset.Ico p (2 ^ bits)).card := by
    refine Finset.card_bij (fun d _ => (d : Bytes)) ?_ (fun _ _ _ _ h => Subtype.ext h) ?_
    · intro d hd
      refine Finset.mem_filter.mpr ⟨d.2, ?_⟩
      have h := (Finset.mem_filter.mp hd).2
      have hl := mem_digests.mp d.2
      rw [arkRandom, take_mod _ _ _ hb (by omega)] at h
      split at h
      · cases h
      · rename_i hlt
        exact Finset.mem_Ico.mpr ⟨by omega, Nat.mod_lt _ (Nat.two_pow_pos bits)⟩
    · intro d hd
      obtain ⟨h1, h2⟩ := Finset.mem_filter.mp hd
      refine ⟨⟨d, h1⟩, Finset.mem_filter.mpr ⟨Finset.mem_univ _, ?_⟩, rfl⟩
      rw [arkRandom, take_mod _ _ _ hb (by rw [mem_digests] at h1; simp only; omega)]
      dsimp only
      rw [if_neg (by rw [Finset.mem_Ico] at h2; omega)]
  have hsum : ((digests L).filter fun d => leNat d % 2 ^ bits ∈ Finset.Ico p (2 ^ bits)).card =
      ∑ v ∈ Finset.Ico p (2 ^ bits), ((digests L).filter fun d => leNat d % 2 ^ bits = v).card := by
    rw [Finset.card_eq_sum_card_fiberwise (f := fun d => leNat d % 2 ^ bits) (t := Finset.Ico p (2 ^ bits))]
    · refine Finset.sum_congr rfl fun v hv => ?_
      congr 1
      ext d
      simp only [Finset.mem_filter]
      constructor
      · rintro ⟨⟨h1, -⟩, h2⟩; exact ⟨h1, h2⟩
      · rintro ⟨h1, h2⟩; exact ⟨⟨h1, h2 ▸ hv⟩, h2⟩
    · intro d hd
      exact (Finset.mem_filter.mp (Finset.mem_coe.mp hd)).2
  rw [e, hsum, Finset.sum_congr rfl fun v hv => card_low L bits (by omega) v (Finset.mem_Ico.mp hv).2, Finset.sum_const,
    Nat.card_Ico, smul_eq_mul, mul_assoc, card_digests, ← pow_add, show (256 : ℕ) = 2 ^ 8 by norm_num, ← pow_mul]
  congr 2
  omega

end Point

/-! ## The bounds -/

section Gipa

variable {ρ F MA MB T KA KB KT OA OB OT O RT : Type} [Field F] [DecidableEq F]
  [AddCommGroup MA] [Module F MA] [AddCommGroup MB] [Module F MB] [AddCommGroup T] [Module F T] [DecidableEq T]
  [AddCommGroup KA] [Module F KA] [AddCommGroup KB] [Module F KB] [AddCommGroup OA] [Module F OA]
  [AddCommGroup OB] [Module F OB] [AddCommGroup O] [Module F O] [Add OT] [SMul F OT]
  [DecidableEq OA] [DecidableEq OB] [DecidableEq OT] {n L : ℕ}
  {P : Gipa ρ F MA MB T KA KB KT OA OB OT} {φa : MA →ₗ[F] KA →ₗ[F] OA} {φb : MB →ₗ[F] KB →ₗ[F] OB}
  {τ : RT → OT} {va : Fin n → KA} {vb : Fin n → KB} {Xs : Finset Bytes}
  {β : MA →ₗ[F] MB →ₗ[F] T} {ψ : KT → T → OT} {η : OT → Option O} {ψ' : T →ₗ[F] O}

open Classical in
/-- C136: C84 in numbers. A false statement that is fixed in advance is accepted, without a collision of the keys, for
at most `(Q + k) (Q + k + 5)` in `2^128` oracles. -/
theorem C136_gipa (hmem : ∀ k z1 z2, P.hashInput 0 k (coms φa φb τ va vb z1) (coms φa φb τ va vb z2) ∈ Xs)
    (p : ℕ) [CharP F p] (hp : p = 0 ∨ 2 ^ 128 ≤ p) (hL : 16 ≤ L)
    (Lw : P.Lawful β φa φb ψ) (kt : KT) (R : Reads F η (ψ kt) ψ')
    (hF : Decodable (fun _ => True) P.serF) (hA : Decodable (fun _ => True) P.serA)
    (hB : Decodable (fun _ => True) P.serB) (hT : Decodable (· ∈ Set.range τ) P.serT) (k : ℕ)
    (hn : n = 2 ^ k) (com : Coms OA OB OT) (ra : Fin n → MA) (rb : Fin n → MB)
    (hra : com.1 = commitTo φa va ra) (hrb : com.2.1 = commitTo φb vb rb)
    (hfalse : η com.2.2 ≠ some (ψ' (∑ i, β (ra i) (rb i)))) (A : Prover n MA MB RT Xs (digests L)) (Q : ℕ)
    (hlab : ∀ ds z x, A.query ds = link P φa φb τ va vb hmem z x →
      coms φa φb τ va vb (A.label ds).1 = coms φa φb τ va vb z.1 ∧
      coms φa φb τ va vb (A.label ds).2 = coms φa φb τ va vb z.2)
    (hsteps : ∀ ds, (A.steps ds).length = k) :
    (Finset.univ.filter fun H : Xs → digests L =>
      (withDigest P (Sipp.oracle H)).verify (List.ofFn va) (List.ofFn vb) kt com
        (A.proof φa φb τ va vb Q H) = .ok true ∧
      ¬ Clash φa va (A.pairA P φa φb τ va vb hmem ra Q k H) ∧
      ¬ Clash φb vb (A.pairB P φa φb τ va vb hmem rb Q k H)).card * 2 ^ 128 ≤
    (Q + k) * (Q + k + 5) * Fintype.card (Xs → digests L) := by
  have h := C84_static hmem Lw kt R hF hA hB hT (fun d hd => by rw [mem_digests.mp hd]; exact hL) (256 ^ (L - 16))
    (C136_round_le F p hp L hL) k hn com ra rb hra hrb hfalse A Q hlab hsteps
  have e : (digests L).card = 2 ^ 128 * 256 ^ (L - 16) := by
    rw [card_digests, show (2 : ℕ) ^ 128 = 256 ^ 16 by norm_num, ← pow_add]; congr 1; omega
  rw [Fintype.card_fun, Fintype.card_coe, Fintype.card_coe]
  refine Nat.le_of_mul_le_mul_right (c := 256 ^ (L - 16)) ?_ (by positivity)
  rw [mul_assoc, ← e]
  exact h.trans (le_of_eq (by ring))

end Gipa

section Aggregate

open AggStatic Domain

variable {ρ F G1 G2 GT TF : Type} [Field F] [DecidableEq F] [AddCommGroup G1] [Module F G1] [AddCommGroup G2]
  [Module F G2] [AddCommGroup GT] [Module F GT] [Monoid TF] [DecidableEq G1] [DecidableEq G2] [DecidableEq GT]

instance (T : Type) [AddCommGroup T] (B : ℕ) : Nonempty (T × {l : List T // l.length ≤ B}) :=
  ⟨(0, ⟨[], Nat.zero_le _⟩)⟩

/-- All byte strings with at most `M` bytes but those that are hashed for the challenge of the linear combination. -/
def askable (V : Env ρ F G1 G2 GT TF) (comA comB comC : GT) (M : ℕ) : Finset Bytes :=
  ((Finset.range (M + 1)).biUnion digests) \ (Finset.range (2 ^ 64)).image (challengeInput V comA comB comC)

theorem mem_askable {V : Env ρ F G1 G2 GT TF} {comA comB comC : GT} {M : ℕ} {x : Bytes} :
    x ∈ askable V comA comB comC M ↔ x.length ≤ M ∧ ∀ t < 2 ^ 64, challengeInput V comA comB comC t ≠ x := by
  simp only [askable, Finset.mem_sdiff, Finset.mem_biUnion, Finset.mem_range, mem_digests, Finset.mem_image, not_exists,
    not_and]
  constructor
  · rintro ⟨⟨l, h1, h2⟩, h3⟩; exact ⟨by omega, h3⟩
  · rintro ⟨h1, h2⟩; exact ⟨⟨_, by omega, rfl⟩, h2⟩

/-- Large enough for all hash inputs of proofs with at most `B + 1` entries per commitment. -/
structure Room (f g1 g2 gt B M : ℕ) : Prop where
  roundAB : 24 + f + (4 + 2 * (B + 1)) * gt ≤ M
  roundC : 24 + 3 * f + 2 * gt + 2 * (B + 1) * g1 ≤ M
  point : 8 + f + g2 + g1 ≤ M

variable {V : Env ρ F G1 G2 GT TF} {f g1 g2 gt B M : ℕ} (hV : Encodes V f g1 g2 gt) (hS : Separated f g1 g2 gt)
  (hM : Room f g1 g2 gt B M) (hB : B + 1 < 2 ^ 64) (comA comB comC : GT)

include hV hS in
theorem mem_of_query (q : Query F G1 G2 GT) (hk : q.kind ≠ 4) (hq : q.size f g1 g2 gt ≤ M) :
    q.bytes V ∈ askable V comA comB comC M :=
  mem_askable.mpr ⟨by rwa [length_bytes hV], fun t _ =>
    C134_disjoint hV hS (.first t comA comB comC) q fun h => hk h.symm⟩

include hV hS hM in
theorem mem_roundAB (k : F) (z : Sent GT GT (GT × {l : List GT // l.length ≤ B})) :
    V.pairingAB.hashInput 0 k (sentComs (Shape.upTo GT B hB).out z).1 (sentComs (Shape.upTo GT B hB).out z).2 ∈
      askable V comA comB comC M := by
  refine mem_of_query hV hS comA comB comC (.roundAB 0 k _ _) (by simp [Query.kind]) (le_trans ?_ hM.roundAB)
  have h1 := z.1.2.2.2.2
  have h2 := z.2.2.2.2.2
  simp only [Query.size, sentComs, Shape.upTo, List.length_cons]
  gcongr
  omega

include hV hS hM in
theorem mem_roundC (k : F) (z : Sent GT F (G1 × {l : List G1 // l.length ≤ B})) :
    V.multiexpSsm.hashInput 0 k (sentComs (Shape.upTo G1 B hB).out z).1 (sentComs (Shape.upTo G1 B hB).out z).2 ∈
      askable V comA comB comC M := by
  refine mem_of_query hV hS comA comB comC (.roundC 0 k _ _) (by simp [Query.kind]) (le_trans ?_ hM.roundC)
  have h1 := z.1.2.2.2.2
  have h2 := z.2.2.2.2.2
  simp only [Query.size, sentComs, Shape.upTo, List.length_cons]
  gcongr
  omega

include hV hS hM in
theorem mem_pointAB (t : ℕ) (x : F) (ka : G2) (kb : G1) (_ : t < 2 ^ 64) :
    TipaStatic.pointInput V.tipa V.pairingAB t x ka kb ∈ askable V comA comB comC M :=
  mem_of_query hV hS comA comB comC (.pointAB t x ka kb) (by simp [Query.kind]) hM.point

include hV hS hM in
theorem mem_pointC (t : ℕ) (x : F) (ka : G2) (_ : t < 2 ^ 64) :
    TipaSsmStatic.pointInput V.tipa V.multiexpSsm t x ka ∈ askable V comA comB comC M :=
  mem_of_query hV hS comA comB comC (.pointC t x ka) (by simp [Query.kind])
    (le_trans (by simp only [Query.size]; omega) hM.point)

theorem errorTerm_le (Q k n N m m' : ℕ) (h : m' ≤ m) : N * ((n - 1) * m') + errorTerm Q k n N m m' ≤
    (N * (n - 1) + errorTerm Q k n N 1 1) * m := by
  calc N * ((n - 1) * m') + errorTerm Q k n N m m' ≤ N * ((n - 1) * m) + errorTerm Q k n N m m := by
        rw [errorTerm, errorTerm]; gcongr
    _ = _ := by rw [errorTerm, errorTerm]; ring

/-- C136: C117 for digests of `L` bytes, ark-ff's `from_random_bytes`, encodings of the given sizes, and all proofs with
at most `B + 1` entries per commitment: the prover may ask for the digest of every byte string with at most `M` bytes.
The share above which valid proofs or a collision can be extracted is `N (n - 1) + errorTerm Q k n N 1 1` in `2^128`. -/
theorem C136_aggregate {e : G1 →ₗ[F] G2 →ₗ[F] GT} (hE : V.E.Lawful e) (p bits len L : ℕ) [CharP F p] (hp : 2 ^ 128 ≤ p)
    (hpb : p ≤ 2 ^ bits) (hb : bits ≤ 8 * len) (hL : len ≤ L)
    (hfr : ∀ d, V.fromRandomBytes d = arkRandom F p bits len d) (k n : ℕ)
    (hn : n = 2 ^ k) (srs : SRS G1 G2) (g : G1) (h : G2) (α β : F) (hsrs : IsSrs srs g h α β n) (hg0 : g ≠ 0) (hh0 : h ≠ 0)
    (hg : ∀ y, e g y = 0 → y = 0) (hh : ∀ x, e x h = 0 → x = 0) (v : VerifierSRS G1 G2)
    (hv : srs.verifierKey = .ok v) (vk : G16VK G1 G2) (inputs : List (List F)) (hin : inputs.length = n)
    (hrow : ∀ row ∈ inputs, row.length + 1 = vk.gammaAbc.length) (Q N : ℕ) (hN : N ≤ 2 ^ 64)
    (A : (Fin N → digests L) → AnyProver n F G1 G2 GT (GT × {l : List GT // l.length ≤ B})
      (G1 × {l : List G1 // l.length ≤ B}) (askable V comA comB comC M) (digests L))
    (hkeys1 : ∀ u ds, ∀ t < 2 ^ 64, ∀ x ka kb,
      ((A u).query ds : Bytes) = TipaStatic.pointInput V.tipa V.pairingAB t x ka kb →
      TipaStatic.left srs ((A u).keysAB ds).1 = ka ∧ TipaStatic.right srs ((A u).keysAB ds).2 = kb)
    (hkeys2 : ∀ u ds, ∀ t < 2 ^ 64, ∀ x ka,
      ((A u).query ds : Bytes) = TipaSsmStatic.pointInput V.tipa V.multiexpSsm t x ka →
      TipaStatic.left srs ((A u).keysC ds) = ka)
    (hs1 : ∀ u ds, ((A u).stepsAB ds).length = k) (hs2 : ∀ u ds, ((A u).stepsC ds).length = k)
    (W : Finset ((Fin N → digests L) × (askable V comA comB comC M → digests L)))
    (hW : ∀ uH ∈ W, ∃ r, Draws V uH.1 r ∧
      (∃ dg : Bytes → Bytes, (∀ t : Fin N, dg (challengeInput V comA comB comC t) = uH.1 t) ∧
        (∀ x : askable V comA comB comC M, dg x = uH.2 x) ∧
        Groth16.verify { V with digest := dg } v vk inputs ((A uH.1).aggProof (Shape.upTo GT B hB) (Shape.upTo G1 B hB)
          srs comA comB comC Q uH.2) = .ok true) ∧
      (A uH.1).OpenedAB V srs r (mem_roundAB hV hS hM hB comA comB comC) (mem_pointAB hV hS hM comA comB comC)
        α β Q N hN uH.2 ∧
      (A uH.1).OpenedC V srs (mem_roundC hV hS hM hB comA comB comC) (mem_pointC hV hS hM comA comB comC)
        α β Q N hN uH.2)
    (hmany : (N * (n - 1) + errorTerm Q k n N 1 1) *
      Fintype.card ((Fin N → digests L) × (askable V comA comB comC M → digests L)) < W.card * 2 ^ 128) :
    ∃ (x : F × PairTree F G1 G2 GT (GT × {l : List GT // l.length ≤ B}) (G1 × {l : List G1 // l.length ≤ B}))
      (xs : List (F × PairTree F G1 G2 GT (GT × {l : List GT // l.length ≤ B}) (G1 × {l : List G1 // l.length ≤ B}))),
      (∀ y ∈ x :: xs, ∃ u, Draws V u y.1 ∧
        (A u).Rewound V srs y.1 (Shape.upTo GT B hB) (Shape.upTo G1 B hB) Q comA comB comC (fun H => (u, H) ∈ W) y.2) ∧
      ((x :: xs).map (·.1)).Nodup ∧ n ≤ (x :: xs).length ∧
      (extractProofs x xs).Good e vk inputs srs.commitmentKeys.1 srs.commitmentKeys.2 comA comB comC := by
  have hbits : 128 ≤ bits := (Nat.pow_le_pow_iff_right (by norm_num : 1 < 2)).mp (hp.trans hpb)
  obtain ⟨-, sep1, sep2⟩ := C134_hypotheses hV hS
  refine C117_knowledge (mem_roundAB hV hS hM hB comA comB comC) (mem_roundC hV hS hM hB comA comB comC)
    (mem_pointAB hV hS hM comA comB comC) (mem_pointC hV hS hM comA comB comC) hE hV.decF hV.decG1 hV.decG2 hV.decGT
    (fun d hd => by rw [mem_digests.mp hd]; omega) (256 ^ (L - 16)) (2 ^ (8 * L - bits))
    (C136_round_le F p (.inr hp) L (by omega))
    (fun c => by simp only [hfr]; exact C136_point_le F p bits len L hpb hb hL c) k hn g h α β hsrs hg0 hh0 hg hh v hv vk
    inputs hin hrow comA comB comC Q N hN A hkeys1 hkeys2 (fun t _ z x x' ka kb => sep1 _ _ _ _ _ _ _ _)
    (fun t _ z x x' ka => sep2 _ _ _ _ _ _ _) hs1 hs2 W hW ?_
  have e1 : (digests L).card = 2 ^ 128 * 256 ^ (L - 16) := by
    rw [card_digests, show (2 : ℕ) ^ 128 = 256 ^ 16 by norm_num, ← pow_add]; congr 1; omega
  have e2 : (2 : ℕ) ^ (8 * L - bits) ≤ 256 ^ (L - 16) := by
    rw [show (256 : ℕ) = 2 ^ 8 by norm_num, ← pow_mul]
    exact Nat.pow_le_pow_right (by norm_num) (by omega)
  rw [Fintype.card_prod, Fintype.card_fun, Fintype.card_fun, Fintype.card_fin, Fintype.card_coe, Fintype.card_coe] at hmany
  calc _ ≤ (N * (n - 1) + errorTerm Q k n N 1 1) * 256 ^ (L - 16) * ((digests L).card ^ N * (digests L).card ^ _) :=
        Nat.mul_le_mul_right _ (errorTerm_le Q k n N _ _ e2)
    _ = (N * (n - 1) + errorTerm Q k n N 1 1) * ((digests L).card ^ N * (digests L).card ^ _) * 256 ^ (L - 16) := by ring
    _ < W.card * 2 ^ 128 * 256 ^ (L - 16) := Nat.mul_lt_mul_of_pos_right hmany (by positivity)
    _ = _ := by rw [mul_assoc, ← e1]

/-- C136: for at most `2^20` proofs, `2^40` queries and `2^7` attempts per search this is less than one in `2^39`. -/
theorem C136_numbers (Q k n N : ℕ) (hQ : Q ≤ 2 ^ 40) (hk : k ≤ 20) (hn : n = 2 ^ k) (hN : N ≤ 2 ^ 7) :
    (N * (n - 1) + errorTerm Q k n N 1 1) * 2 ^ 39 < 2 ^ 128 := by
  have hn' : n ≤ 2 ^ 20 := hn ▸ Nat.pow_le_pow_right (by norm_num) hk
  have : N * (n - 1) + errorTerm Q k n N 1 1 ≤ 2 ^ 7 * (2 ^ 20 - 1) + errorTerm (2 ^ 40) 20 (2 ^ 20) (2 ^ 7) 1 1 := by
    rw [errorTerm, errorTerm]; gcongr
  calc _ ≤ _ := Nat.mul_le_mul_right _ this
    _ < _ := by rw [errorTerm]; norm_num

end Aggregate

/-! ## An instance: a field with `p = 2^521 - 1` elements -/

section Example

open AggStatic Domain

set_option exponentiation.threshold 600

/-- There is such a field. -/
example : ∃ p : ℕ, p.Prime ∧ p + 1 = 2 ^ 521 :=
  ⟨mersenne 521, lucas_lehmer_sufficiency 521 (by norm_num) (by norm_num), succ_mersenne 521⟩

variable {p : ℕ} [Fact p.Prime] (h2 : p + 1 = 2 ^ 521)

include h2

theorem le_modulus : 2 ^ 128 ≤ p := by
  have : 2 ^ 128 < (2 : ℕ) ^ 521 := Nat.pow_lt_pow_right (by norm_num) (by norm_num)
  omega

theorem modulus_lt : p < 256 ^ 66 := by
  have : (256 : ℕ) ^ 66 = 2 ^ 521 * 2 ^ 7 := by
    rw [show (256 : ℕ) = 2 ^ 8 by norm_num, ← pow_mul, ← pow_add]
  rw [this, ← h2]
  omega

omit h2 in
/-- The inverse of 5 is the round challenge for one in `2^128` digests of at least 72 bytes. -/
example (h2 : p + 1 = 2 ^ 521) (L : ℕ) (hL : 72 ≤ L) :
    (Finset.univ.filter fun d : digests L => challengeOf (ZMod p) d = ((5 : ℕ) : ZMod p)⁻¹).card * 2 ^ 128 =
      (digests L).card :=
  C136_round (ZMod p) p (.inr (le_modulus h2)) L (by omega) 5 (by norm_num)

omit h2 in
/-- An opening point is 5 for one in `2^521`, and one in `2^521` has to be tried again. -/
example (h2 : p + 1 = 2 ^ 521) (L : ℕ) (hL : 72 ≤ L) :
    (Finset.univ.filter fun d : digests L => arkRandom (ZMod p) p 521 72 d = some ((5 : ℕ) : ZMod p)).card * 2 ^ 521 =
      (digests L).card ∧
    (Finset.univ.filter fun d : digests L => arkRandom (ZMod p) p 521 72 d = none).card * 2 ^ 521 = (digests L).card :=
  ⟨C136_point (ZMod p) p 521 72 L (by omega) (by norm_num) hL 5 (by have := le_modulus h2; omega),
    (C136_retry (ZMod p) p 521 72 L (by norm_num) hL).trans (by rw [← h2]; simp)⟩

omit h2

/-- 66 bytes per field element, with zeros appended for the groups. -/
def ser (x : ZMod p) : Bytes := leBytes 66 x.val

include h2 in
theorem ser_inj : Function.Injective (ser (p := p)) := by
  intro x y h
  have hx : x.val < 256 ^ 66 := (ZMod.val_lt x).trans (modulus_lt h2)
  have hy : y.val < 256 ^ 66 := (ZMod.val_lt y).trans (modulus_lt h2)
  have := congrArg leNat h
  rw [ser, ser, leNat_leBytes 66 _ hx, leNat_leBytes 66 _ hy] at this
  exact ZMod.val_injective _ this

variable (p) in
/-- Multiplication as the pairing. -/
def engine : Engine (ZMod p) (ZMod p) (ZMod p) (Multiplicative (ZMod p)) where
  miller x y := .ofAdd (x * y)
  finalExp t := some t.toAdd

theorem lawful : (engine p).Lawful (F := ZMod p) (LinearMap.lsmul (ZMod p) (ZMod p)) where
  finalExp_one := rfl
  finalExp_miller _ _ := rfl
  finalExp_mul x y u v hx hy := by
    simp only [engine, Option.some.injEq] at hx hy ⊢
    rw [← hx, ← hy]; rfl

variable (p) in
/-- The instance. -/
def env : Env ℕ (ZMod p) (ZMod p) (ZMod p) (ZMod p) (Multiplicative (ZMod p)) where
  E := engine p
  X := Toy.X
  digest _ := List.replicate 80 1
  fromRandomBytes := arkRandom (ZMod p) p 521 72
  serF := ser
  serG1 x := ser x ++ List.replicate 30 0
  serG2 x := ser x ++ List.replicate 126 0
  serGT x := ser x ++ List.replicate 510 0
  randF s := (s, s + 1)
  randG1 s := (s, s + 1)
  randG2 s := (s, s + 1)
  g := 1
  h := 1

include h2 in
theorem encodes : Encodes (env p) 66 96 192 576 := by
  have inj' (l : ℕ) : Function.Injective fun x : ZMod p => ser x ++ List.replicate l 0 := fun x y h =>
    ser_inj h2 (List.append_cancel_right h)
  have len (l : ℕ) (x : ZMod p) : (ser x ++ List.replicate l 0).length = 66 + l := by simp [ser, length_leBytes]
  exact ⟨fun x => length_leBytes 66 _, len 30, len 126, len 510, ser_inj h2, inj' 30, inj' 126, inj' 510⟩

omit [Fact p.Prime] in
theorem separated : Separated 66 96 192 576 := by
  constructor <;> intros <;> omega

variable (p) in
/-- The reference string for two proofs with trapdoors 3 and 5. -/
def srs : SRS (ZMod p) (ZMod p) := ⟨[1, 3, 9], [1, 5, 25], 5, 3⟩

theorem isSrs : IsSrs (srs p) (1 : ZMod p) (1 : ZMod p) (3 : ZMod p) 5 2 := by
  constructor <;> norm_num [srs, List.range_succ]

theorem room {M : ℕ} (hM : 8000 ≤ M) : Room 66 96 192 576 3 M := ⟨by omega, by omega, by omega⟩

theorem three_lt : 3 + 1 < 2 ^ 64 := by norm_num

/-- For two proofs, up to four entries per commitment, hash inputs of at most `M` bytes, `2^40` queries and 128 attempts
per search, only the assumptions about the prover are left. If it succeeds for one in `2^39` oracles, there is something
to extract. -/
example (comA comB comC : ZMod p) (Q L M : ℕ) (hL : 72 ≤ L) (hM : 8000 ≤ M)
    (A : (Fin 128 → digests L) → AnyProver 2 (ZMod p) (ZMod p) (ZMod p) (ZMod p)
      (ZMod p × {l : List (ZMod p) // l.length ≤ 3}) (ZMod p × {l : List (ZMod p) // l.length ≤ 3})
      (askable (env p) comA comB comC M) (digests L))
    (hkeys1 : ∀ u ds, ∀ t < 2 ^ 64, ∀ x ka kb,
      ((A u).query ds : Bytes) = TipaStatic.pointInput (env p).tipa (env p).pairingAB t x ka kb →
      TipaStatic.left (srs p) ((A u).keysAB ds).1 = ka ∧ TipaStatic.right (srs p) ((A u).keysAB ds).2 = kb)
    (hkeys2 : ∀ u ds, ∀ t < 2 ^ 64, ∀ x ka,
      ((A u).query ds : Bytes) = TipaSsmStatic.pointInput (env p).tipa (env p).multiexpSsm t x ka →
      TipaStatic.left (srs p) ((A u).keysC ds) = ka)
    (hs1 : ∀ u ds, ((A u).stepsAB ds).length = 1) (hs2 : ∀ u ds, ((A u).stepsC ds).length = 1)
    (W : Finset ((Fin 128 → digests L) × (askable (env p) comA comB comC M → digests L)))
    (hW : ∀ uH ∈ W, ∃ r, Draws (env p) uH.1 r ∧
      (∃ dg : Bytes → Bytes, (∀ t : Fin 128, dg (challengeInput (env p) comA comB comC t) = uH.1 t) ∧
        (∀ x : askable (env p) comA comB comC M, dg x = uH.2 x) ∧
        Groth16.verify { env p with digest := dg } ⟨1, 1, 5, 3⟩ ⟨2, 3, 1, 1, [1, 4]⟩ [[1], [2]]
          ((A uH.1).aggProof (Shape.upTo _ 3 three_lt) (Shape.upTo _ 3 three_lt) (srs p) comA comB comC Q uH.2) =
            .ok true) ∧
      (A uH.1).OpenedAB (S1 := Shape.upTo _ 3 three_lt) (env p) (srs p) r (mem_roundAB (encodes h2) separated (room hM) three_lt comA comB comC)
        (mem_pointAB (encodes h2) separated (room hM) comA comB comC) 3 5 Q 128 (by norm_num) uH.2 ∧
      (A uH.1).OpenedC (S2 := Shape.upTo _ 3 three_lt) (env p) (srs p) (mem_roundC (encodes h2) separated (room hM) three_lt comA comB comC)
        (mem_pointC (encodes h2) separated (room hM) comA comB comC) 3 5 Q 128 (by norm_num) uH.2)
    (hQ : Q ≤ 2 ^ 40)
    (hmany : Fintype.card ((Fin 128 → digests L) × (askable (env p) comA comB comC M → digests L)) ≤
      W.card * 2 ^ 39) :
    ∃ found : Groth16.Found (ZMod p) (ZMod p), found.Good (LinearMap.lsmul (ZMod p) (ZMod p)) ⟨2, 3, 1, 1, [1, 4]⟩
      [[1], [2]] [1, 25] [1, 9] comA comB comC := by
  have hpos : 0 < Fintype.card ((Fin 128 → digests L) × (askable (env p) comA comB comC M → digests L)) := by
    have : 0 < (digests L).card := by rw [card_digests]; positivity
    rw [Fintype.card_prod, Fintype.card_fun, Fintype.card_fun, Fintype.card_coe (digests L)]
    positivity
  obtain ⟨x, xs, -, -, -, h⟩ := C136_aggregate (encodes h2) separated (room hM) three_lt comA comB comC lawful p 521 72 L
    (le_modulus h2) (by omega) (by norm_num) hL (fun _ => rfl) 1 2 rfl (srs p) 1 1 3 5 isSrs one_ne_zero one_ne_zero
    (fun y h => by simpa using h) (fun x h => by simpa using h) ⟨1, 1, 5, 3⟩ rfl ⟨2, 3, 1, 1, [1, 4]⟩ [[1], [2]] rfl
    (by simp) Q 128 (by norm_num) A hkeys1 hkeys2 hs1 hs2 W hW (by
      have := C136_numbers Q 1 2 128 hQ (by norm_num) rfl (by norm_num)
      refine Nat.lt_of_mul_lt_mul_right (a := 2 ^ 39) ?_
      calc _ = (128 * (2 - 1) + errorTerm Q 1 2 128 1 1) * 2 ^ 39 * Fintype.card _ := by ring
        _ < 2 ^ 128 * Fintype.card _ := Nat.mul_lt_mul_of_pos_right this hpos
        _ ≤ 2 ^ 128 * (W.card * 2 ^ 39) := Nat.mul_le_mul_left _ hmany
        _ = _ := by ring)
  exact ⟨_, h⟩

end Example

end Ripp.Level
