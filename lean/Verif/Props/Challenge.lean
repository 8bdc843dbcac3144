import Verif.Lemmas.GipaLoop
import Verif.Lemmas.Bytes
import Verif.Model.Groth16
import Verif.Toy
import Mathlib.Data.Nat.Digits.Defs

/-!
# C69: how the Fiat-Shamir challenges are computed

Each challenge loop returns the first usable value among the hashes with nonces 0, 1, 2, …, and the
hashed bytes are spelled out.
-/

set_option linter.unusedSectionVars false

namespace Ripp

open Spec

/-- The eight bytes of `n`, most significant first. -/
def be8 (n : ℕ) : Bytes :=
  [56, 48, 40, 32, 24, 16, 8, 0].map fun s => UInt8.ofNat (n / 2 ^ s % 256)

/-- The number with the given bytes, most significant first. -/
def fromBE (bs : Bytes) : ℕ := Nat.ofDigits 256 (bs.reverse.map UInt8.toNat)

/-- `x` is the first value found by `g` among the nonces below `2^64`. -/
def First {α : Type} (g : ℕ → Option α) (x : α) : Prop :=
  ∃ n < 2 ^ 64, g n = some x ∧ ∀ m < n, g m = none

theorem nonceBytes_eq (n : ℕ) : nonceBytes n = be8 n := by
  simp only [nonceBytes, leBytes, be8, List.reverse_cons, List.reverse_nil, List.nil_append,
    List.cons_append, List.map_cons, List.map_nil, Nat.div_div_eq_div_mul]
  norm_num

theorem beNat_eq (bs : Bytes) : beNat bs = fromBE bs := by
  have h : ∀ (bs : Bytes) (acc : ℕ), bs.foldl (fun acc b => acc * 256 + b.toNat) acc =
      acc * 256 ^ bs.length + fromBE bs := by
    intro bs
    induction bs with
    | nil => intro acc; simp [fromBE]
    | cons b bs ih =>
      intro acc
      rw [List.foldl_cons, ih]
      simp [fromBE, Nat.ofDigits_append, pow_succ]
      ring
  rw [beNat, h]; simp

theorem searchNonce_iff {α : Type} (g : ℕ → Option α) (x : α) :
    searchNonce (fun n => .ok (g n)) nonceLimit 0 = .ok x ↔ First g x := by
  rcases searchNonce_total g nonceLimit 0 with ⟨m, y, -, h2, h3, h4, h5⟩ | ⟨h1, h2⟩
  · rw [h5]
    rw [nonceLimit] at h2
    constructor
    · intro h
      obtain rfl := Except.ok.inj h
      exact ⟨m, by omega, h3, fun m' hm => h4 m' (Nat.zero_le _) hm⟩
    · rintro ⟨n, -, hn, hlt⟩
      have : n = m := by
        rcases lt_trichotomy n m with h | h | h
        · rw [h4 n (Nat.zero_le _) h] at hn; cases hn
        · exact h
        · rw [hlt m h] at h3; cases h3
      subst this
      rw [hn] at h3
      rw [Option.some.inj h3]
  · rw [h2]
    constructor
    · intro h; cases h
    · rintro ⟨n, hn, hs, -⟩
      rw [h1 n (Nat.zero_le _) (by rw [nonceLimit]; omega)] at hs
      cases hs

theorem searchNonce_diverge_iff {α : Type} (g : ℕ → Option α) :
    searchNonce (fun n => .ok (g n)) nonceLimit 0 = .error .diverge ↔ ∀ n < 2 ^ 64, g n = none := by
  rcases searchNonce_total g nonceLimit 0 with ⟨m, y, -, h2, h3, h4, h5⟩ | ⟨h1, h2⟩
  · rw [h5]
    rw [nonceLimit] at h2
    constructor
    · intro h; cases h
    · intro h
      rw [h m (by omega)] at h3; cases h3
  · rw [h2]
    exact ⟨fun _ n hn => h1 n (Nat.zero_le _) (by rw [nonceLimit]; omega), fun _ => rfl⟩

theorem searchNonce_error {α : Type} (f : ℕ → Res (Option α)) (e : Fault) (h : f 0 = .error e) :
    searchNonce f nonceLimit 0 = .error e := by
  rw [show nonceLimit = (2 ^ 64 - 1) + 1 by norm_num [nonceLimit], searchNonce, h]

namespace Gipa

section
variable {ρ F MA MB T KA KB KT OA OB OT : Type} [Field F] [DecidableEq F]
  (P : Gipa ρ F MA MB T KA KB KT OA OB OT)

/-- The value hashed from nonce `n`: the first 16 digest bytes as a big-endian number in the field. -/
def hashValue (prev : F) (com1 com2 : OA × OB × OT) (n : ℕ) : F :=
  (fromBE ((P.digest (be8 n ++ P.serF prev ++ P.serA com1.1 ++ P.serB com1.2.1 ++ P.serT com1.2.2
    ++ P.serA com2.1 ++ P.serB com2.2.1 ++ P.serT com2.2.2)).take 16) : ℕ)

theorem challengeAttempt_eq (hd : ∀ x, 16 ≤ (P.digest x).length) (prev : F)
    (com1 com2 : OA × OB × OT) : P.challengeAttempt prev com1 com2 = fun n => .ok
      (if P.hashValue prev com1 com2 n = 0 then none
        else some ((P.hashValue prev com1 com2 n)⁻¹, P.hashValue prev com1 com2 n)) := by
  funext n
  have := hd (P.hashInput n prev com1 com2)
  have hlt : ¬ (P.digest (P.hashInput n prev com1 com2)).length < 16 := by omega
  have hv : ((beNat ((P.digest (P.hashInput n prev com1 com2)).take 16) : ℕ) : F) =
      P.hashValue prev com1 com2 n := by
    rw [beNat_eq, hashValue, hashInput, nonceBytes_eq]
  simp only [challengeAttempt, if_neg hlt, hv, inverse]
  by_cases h0 : P.hashValue prev com1 com2 n = 0
  · simp [h0]
  · simp [h0]

/-- C69: the challenge of a round is the inverse of the first non-zero hash value, and the pair returned
is the challenge with its inverse. -/
theorem C69_gipa (hd : ∀ x, 16 ≤ (P.digest x).length) (prev : F) (com1 com2 : OA × OB × OT)
    (c ci : F) : P.challenge prev com1 com2 = .ok (c, ci) ↔
      ∃ n < 2 ^ 64, P.hashValue prev com1 com2 n ≠ 0 ∧
        (∀ m < n, P.hashValue prev com1 com2 m = 0) ∧
        c = (P.hashValue prev com1 com2 n)⁻¹ ∧ ci = P.hashValue prev com1 com2 n := by
  rw [challenge, P.challengeAttempt_eq hd, searchNonce_iff]
  constructor
  · rintro ⟨n, hn, h1, h2⟩
    dsimp only at h1 h2
    split at h1
    · cases h1
    · rename_i hne
      simp only [Option.some.injEq, Prod.mk.injEq] at h1
      refine ⟨n, hn, hne, fun m hm => ?_, h1.1.symm, h1.2.symm⟩
      have := h2 m hm
      split at this
      · assumption
      · cases this
  · rintro ⟨n, hn, hne, hz, rfl, rfl⟩
    exact ⟨n, hn, if_neg hne, fun m hm => if_pos (hz m hm)⟩

/-- C69: it runs out of nonces exactly if all `2^64` hash values are zero. -/
theorem C69_gipa_diverges (hd : ∀ x, 16 ≤ (P.digest x).length) (prev : F)
    (com1 com2 : OA × OB × OT) : P.challenge prev com1 com2 = .error .diverge ↔
      ∀ n < 2 ^ 64, P.hashValue prev com1 com2 n = 0 := by
  rw [challenge, P.challengeAttempt_eq hd, searchNonce_diverge_iff]
  refine forall₂_congr fun n _ => ?_
  split <;> simp_all

/-- C69: a hash function with less than 16 bytes of output panics. -/
theorem C69_gipa_short_digest (hd : ∀ x, (P.digest x).length < 16) (prev : F)
    (com1 com2 : OA × OB × OT) : P.challenge prev com1 com2 = .error (.panic .bounds) :=
  searchNonce_error _ _ (by simp only [challengeAttempt, if_pos (hd _)]; rfl)

variable [Add OA] [SMul F OA] [Add OB] [SMul F OB] [Add OT] [SMul F OT]

theorem chals_iff : ∀ (ss : List (Coms OA OB OT × Coms OA OB OT)) (tr new : List F),
    P.chals ss tr = .ok (tr ++ new) ↔ new.length = ss.length ∧ ∀ j (h : j < ss.length),
      P.challenge ((tr.getLast?.getD 0 :: new).getD j 0) ss[j].1 ss[j].2 =
        .ok (new.getD j 0, (new.getD j 0)⁻¹)
  | [], tr, new => by simp [chals]
  | (com1, com2) :: ss, tr, [] => by
    constructor
    · intro h
      obtain ⟨n, h1, h2, -⟩ := P.chals_prefix _ _ _ h
      have : n = [] := by simpa using h1
      simp [this] at h2
    · rintro ⟨h, -⟩; simp at h
  | (com1, com2) :: ss, tr, c :: new => by
    rw [chals, bind_eq_ok]
    constructor
    · rintro ⟨⟨c', ci⟩, h1, h2⟩
      obtain ⟨n, hn, -, -⟩ := P.chals_prefix _ _ _ h2
      have hn' : c :: new = c' :: n := by simpa using hn
      obtain ⟨rfl, rfl⟩ := List.cons.inj hn'
      have h2' : P.chals ss (tr ++ [c]) = .ok ((tr ++ [c]) ++ new) := by simpa using h2
      obtain ⟨hl, hall⟩ := (chals_iff ss (tr ++ [c]) new).mp h2'
      refine ⟨by simp [hl], ?_⟩
      intro j hj
      cases j with
      | zero =>
        have := (P.challenge_ok h1).2
        simpa [← this] using h1
      | succ j =>
        have := hall j (by simpa using hj)
        simpa using this
    · rintro ⟨hl, hall⟩
      have h0 := hall 0 (by simp)
      refine ⟨(c, c⁻¹), by simpa using h0, ?_⟩
      have : P.chals ss (tr ++ [c]) = .ok ((tr ++ [c]) ++ new) := by
        refine (chals_iff ss (tr ++ [c]) new).mpr ⟨by simpa using hl, fun j hj => ?_⟩
        have := hall (j + 1) (by simpa using hj)
        simpa using this
      simpa using this

/-- C69: `cs` (round order) is the transcript of a proof exactly if it has one entry per round and the
challenge of round `j` is derived from that of round `j - 1` (zero for the first round) and the two
commitments of round `j`. Steps and transcript are stored last round first. -/
theorem C69_transcript (com : Coms OA OB OT) (proof : GipaProof MA MB OA OB OT) (cs : List F) :
    (∃ com', P.recursiveChallenges com proof = .ok (com', cs.reverse)) ↔
      cs.length = proof.steps.length ∧ ∀ j (h : j < proof.steps.reverse.length),
        P.challenge ((0 :: cs).getD j 0) proof.steps.reverse[j].1 proof.steps.reverse[j].2 =
          .ok (cs.getD j 0, (cs.getD j 0)⁻¹) := by
  have hl : proof.steps.reverse.length = proof.steps.length := List.length_reverse
  rw [← hl]
  refine Iff.trans ?_ (P.chals_iff proof.steps.reverse [] cs)
  simp only [recursiveChallenges, recLoop_eq, List.nil_append]
  cases hc : P.chals proof.steps.reverse [] with
  | error e => simp
  | ok x =>
    constructor
    · rintro ⟨com', h'⟩
      simp only [ok_bind, pure_eq_ok, Except.ok.injEq, Prod.mk.injEq] at h'
      rw [List.reverse_injective h'.2]
    · intro h'
      obtain rfl := Except.ok.inj h'
      exact ⟨_, rfl⟩

end

end Gipa

section
variable {F G1 G2 GT TF : Type}

/-- C69: the point at which the final keys are opened (TIPA) is the first success of
`from_random_bytes` on the hash of nonce, last round challenge and final keys. -/
theorem C69_kzg [Field F] (V : TipaEnv F G1 G2 GT TF) (digest : Bytes → Bytes) (serF : F → Bytes)
    (t0 : F) (ts : List F) (cka : G2) (ckb : G1) (z : F) :
    Tipa.kzgChallenge V digest serF (t0 :: ts) cka ckb = .ok z ↔
      First (fun n => V.fromRandomBytes (digest (be8 n ++ serF t0 ++ V.serG2 cka ++ V.serG1 ckb))) z := by
  rw [← searchNonce_iff]
  simp only [← nonceBytes_eq]
  rfl

/-- C69: the same for the structured message argument, where only the left key is hashed. -/
theorem C69_kzg_ssm [Field F] (V : TipaEnv F G1 G2 GT TF) (digest : Bytes → Bytes) (serF : F → Bytes)
    (t0 : F) (ts : List F) (cka : G2) (z : F) :
    TipaSsm.kzgChallenge V digest serF (t0 :: ts) cka = .ok z ↔
      First (fun n => V.fromRandomBytes (digest (be8 n ++ serF t0 ++ V.serG2 cka))) z := by
  rw [← searchNonce_iff]
  simp only [← nonceBytes_eq]
  rfl

/-- C69: without any round there is no challenge to hash and both loops panic. -/
theorem C69_kzg_no_rounds [Field F] (V : TipaEnv F G1 G2 GT TF) (digest : Bytes → Bytes)
    (serF : F → Bytes) (cka : G2) (ckb : G1) :
    Tipa.kzgChallenge V digest serF [] cka ckb = .error (.panic .unwrap) ∧
      TipaSsm.kzgChallenge V digest serF [] cka = .error (.panic .unwrap) :=
  ⟨searchNonce_error _ _ rfl, searchNonce_error _ _ rfl⟩

/-- C69: the random linear combination challenge of the Groth16 aggregation. -/
theorem C69_groth16 {ρ : Type} [Field F] (V : Env ρ F G1 G2 GT TF) (comA comB comC : GT) (r : F) :
    Groth16.challenge V comA comB comC = .ok r ↔
      First (fun n => V.fromRandomBytes
        (V.digest (be8 n ++ V.serGT comA ++ V.serGT comB ++ V.serGT comC))) r := by
  rw [← searchNonce_iff]
  simp only [← nonceBytes_eq]
  rfl

end

/-- Bytes of a nonce and of a number. -/
example : be8 258 = [0, 0, 0, 0, 0, 0, 1, 2] ∧ fromBE [1, 2, 3] = 66051 := by decide

/-- With the toy hash, whose first 16 bytes are the number 3, every challenge is `3⁻¹ = 34`. -/
example (x y : Toy.F × Toy.F × IdentityOutput Toy.F) :
    Toy.env.pairingAB.challenge 7 x y = .ok (34, 3) := by
  rw [Gipa.C69_gipa _ (fun _ => le_of_eq rfl)]
  have h : ∀ n, Gipa.hashValue Toy.env.pairingAB (7 : Toy.F) x y n = 3 := fun n => by
    have e : ((fromBE ((List.replicate 15 0 ++ [3] : Bytes).take 16) : ℕ) : Toy.F) = 3 := by
      decide +kernel
    exact e
  refine ⟨0, by norm_num, ?_, fun m hm => absurd hm (Nat.not_lt_zero m), ?_, ?_⟩
  · rw [h]; decide
  · rw [h]; decide +kernel
  · rw [h]

end Ripp
