import Verif.Model.Platform
import Verif.Props.Groth16
import Verif.Props.Transparent

/-!
# C148: platforms with another width of `usize`
-/

namespace Ripp

namespace Platform

open Spec

/-- `x` is what `y` is, unless the nonces run out; `D` says whether this can happen. -/
def NarrowsIf (D : Prop) {α : Type} (x y : Res α) : Prop := D ∧ x = .error .diverge ∨ x = y

/-- `x` is what `y` is, unless the nonces run out. -/
abbrev Narrows {α : Type} (x y : Res α) : Prop := NarrowsIf True x y

theorem NarrowsIf.refl {D : Prop} {α : Type} (x : Res α) : NarrowsIf D x x := .inr rfl

theorem NarrowsIf.bind {D : Prop} {α β : Type} {x y : Res α} {f g : α → Res β} (h : NarrowsIf D x y)
    (k : ∀ a, NarrowsIf D (f a) (g a)) : NarrowsIf D (x >>= f) (y >>= g) := by
  rcases h with ⟨hD, rfl⟩ | rfl
  · exact .inl ⟨hD, rfl⟩
  · cases x with
    | error e => exact .inr rfl
    | ok a => exact k a

theorem NarrowsIf.eq {D : Prop} {α : Type} {x y : Res α} (h : NarrowsIf D x y) (hD : ¬ D) : x = y :=
  h.resolve_left fun h => hD h.1

theorem NarrowsIf.mono {D D' : Prop} {α : Type} {x y : Res α} (hD : D → D') (h : NarrowsIf D x y) :
    NarrowsIf D' x y := h.imp_left fun h => ⟨hD h.1, h.2⟩

/-- Goes through two programs that differ in the calls dealt with by `h`. -/
macro "narrows" "(" h:term ")" : tactic =>
  `(tactic| (dsimp only; repeat' first | with_reducible exact .refl _ | exact $h |
    with_reducible refine .bind ?_ fun _ => ?_ | split | exact .refl _))

/-- A search runs out of nonces if and only if every nonce fails. -/
theorem searchNonce_out {α : Type} (f : ℕ → Res (Option α)) (hf : ∀ n, f n ≠ .error .diverge) : ∀ (m i : ℕ),
    searchNonce f m i = .error .diverge ↔ ∀ n < m, f (i + n) = .ok none
  | 0, _ => by simp [searchNonce]
  | m + 1, i => by
    rw [searchNonce, Nat.forall_lt_succ_left, add_zero]
    have ih := searchNonce_out f hf m (i + 1)
    have := hf i
    cases h : f i with
    | error e => rw [h] at this; simpa using this
    | ok o =>
      cases o with
      | some x => simp
      | none => simpa [add_assoc, add_comm, add_left_comm] using ih

theorem searchNonce_narrows {α : Type} (f : ℕ → Res (Option α)) : ∀ (m n i : ℕ), m ≤ n →
    Narrows (searchNonce f m i) (searchNonce f n i)
  | 0, _, _, _ => .inl ⟨trivial, rfl⟩
  | m + 1, n, i, h => by
    obtain ⟨n, rfl⟩ : ∃ n', n = n' + 1 := ⟨n - 1, by omega⟩
    rw [searchNonce, searchNonce]
    cases f i with
    | error e => exact .refl _
    | ok o =>
      cases o with
      | some x => exact .refl _
      | none => exact searchNonce_narrows f m n (i + 1) (by omega)

theorem leBytes_append : ∀ (a b n : ℕ), leBytes (a + b) n = leBytes a n ++ leBytes b (n / 256 ^ a)
  | 0, b, n => by simp [leBytes]
  | a + 1, b, n => by
    rw [show a + 1 + b = (a + b) + 1 by omega, leBytes, leBytes, leBytes_append a b]
    simp [Nat.div_div_eq_div_mul, pow_succ']

theorem length_leBytes' : ∀ (a n : ℕ), (leBytes a n).length = a
  | 0, _ => rfl
  | a + 1, n => by simp [leBytes, length_leBytes' a]

/-- The last `w` of the 8 bytes of a nonce. -/
theorem drop_nonceBytes (w : ℕ) (hw : w ≤ 8) (n : ℕ) (rest : Bytes) :
    (Ripp.nonceBytes n ++ rest).drop (8 - w) = nonceBytes w n ++ rest := by
  have h : leBytes 8 n = leBytes w n ++ leBytes (8 - w) (n / 256 ^ w) := by
    rw [← leBytes_append]; congr 1; omega
  rw [Ripp.nonceBytes, nonceBytes, h, List.reverse_append, List.append_assoc, List.drop_append]
  simp [length_leBytes']

/-- The digest that ignores the bytes a nonce has too many on a 64-bit platform. -/
def short (w : ℕ) (digest : Bytes → Bytes) (b : Bytes) : Bytes := digest (b.drop (8 - w))

theorem limit_le (w : ℕ) (hw : w ≤ 8) : nonceLimit w ≤ Ripp.nonceLimit := by
  unfold nonceLimit Ripp.nonceLimit
  exact Nat.pow_le_pow_right (by norm_num) (by omega)

section Gipa

variable {ρ F MA MB T KA KB KT OA OB OT : Type} [Field F] [DecidableEq F]

/-- The 64-bit program with the digest `short w`. -/
def shortGipa (w : ℕ) (P : Ripp.Gipa ρ F MA MB T KA KB KT OA OB OT) :
    Ripp.Gipa ρ F MA MB T KA KB KT OA OB OT := { P with digest := short w P.digest }

variable (w : ℕ) (hw : w ≤ 8) (P : Ripp.Gipa ρ F MA MB T KA KB KT OA OB OT)

include hw in
theorem attempt_eq (prev : F) (com1 com2 : Coms OA OB OT) (n : ℕ) :
    Gipa.challengeAttempt w P prev com1 com2 n = (shortGipa w P).challengeAttempt prev com1 com2 n := by
  have h : (shortGipa w P).digest ((shortGipa w P).hashInput n prev com1 com2) =
      P.digest (Gipa.hashInput w P n prev com1 com2) := by
    simp only [shortGipa, short, Ripp.Gipa.hashInput, Gipa.hashInput, List.append_assoc]
    rw [drop_nonceBytes w hw]
  simp only [Gipa.challengeAttempt, Ripp.Gipa.challengeAttempt, h]
  rfl

include hw in
theorem challenge_narrows (prev : F) (com1 com2 : Coms OA OB OT) :
    Narrows (Gipa.challenge w P prev com1 com2) ((shortGipa w P).challenge prev com1 com2) := by
  have : Gipa.challengeAttempt w P prev com1 com2 = (shortGipa w P).challengeAttempt prev com1 com2 :=
    funext (attempt_eq w hw P prev com1 com2)
  rw [Gipa.challenge, Ripp.Gipa.challenge, this]
  exact searchNonce_narrows _ _ _ _ (limit_le w hw)

/-- Some search of GIPA runs out of nonces. -/
def GipaOut : Prop := ∃ prev com1 com2, Gipa.challenge w P prev com1 com2 = .error .diverge

variable {D : Prop} (hD : GipaOut w P → D)

include hw hD in
theorem challengeIf (prev : F) (com1 com2 : Coms OA OB OT) :
    NarrowsIf D (Gipa.challenge w P prev com1 com2) ((shortGipa w P).challenge prev com1 com2) :=
  (challenge_narrows w hw P prev com1 com2).imp_left fun h => ⟨hD ⟨_, _, _, h.2⟩, h.2⟩

section
variable [Add OA] [SMul F OA] [Add OB] [SMul F OB] [Add OT] [SMul F OT]

include hw hD in
theorem recLoop_narrows : ∀ (steps : List (Coms OA OB OT × Coms OA OB OT)) (com : Coms OA OB OT) (tr : List F),
    NarrowsIf D (Gipa.recLoop w P steps com tr) ((shortGipa w P).recLoop steps com tr)
  | [], _, _ => .refl _
  | _ :: rest, _, _ => .bind (challengeIf w hw P hD _ _ _) fun _ => recLoop_narrows rest _ _

include hw hD in
theorem recursiveChallenges_narrows (com : Coms OA OB OT) (proof : GipaProof MA MB OA OB OT) :
    NarrowsIf D (Gipa.recursiveChallenges w P com proof) ((shortGipa w P).recursiveChallenges com proof) :=
  .bind (recLoop_narrows w hw P hD _ _ _) fun _ => .refl _

end

variable [AddCommGroup MA] [Module F MA] [AddCommGroup MB] [Module F MB]
  [AddCommGroup KA] [Module F KA] [AddCommGroup KB] [Module F KB]

include hw hD in
theorem proveRound_narrows (ckt : List KT) (st : ProveState F MA MB KA KB OA OB OT) :
    NarrowsIf D (Gipa.proveRound w P ckt st) ((shortGipa w P).proveRound ckt st) := by
  unfold Gipa.proveRound Ripp.Gipa.proveRound
  iterate 16 refine .bind (.refl _) fun _ => ?_
  exact .bind (challengeIf w hw P hD _ _ _) fun _ => .refl _

include hw hD in
theorem proveLoop_narrows (ckt : List KT) : ∀ (fuel : ℕ) (st : ProveState F MA MB KA KB OA OB OT),
    NarrowsIf D (Gipa.proveLoop w P ckt fuel st) ((shortGipa w P).proveLoop ckt fuel st)
  | 0, st => by unfold Gipa.proveLoop Ripp.Gipa.proveLoop; exact .refl _
  | fuel + 1, st => by
    unfold Gipa.proveLoop Ripp.Gipa.proveLoop
    split
    · exact .refl _
    · exact .bind (proveRound_narrows w hw P hD ckt st) fun st => proveLoop_narrows ckt fuel st

include hw hD in
theorem proveWithAux_narrows (ma : List MA) (mb : List MB) (cka : List KA) (ckb : List KB) (ckt : List KT) :
    NarrowsIf D (Gipa.proveWithAux w P ma mb cka ckb ckt) ((shortGipa w P).proveWithAux ma mb cka ckb ckt) :=
  .bind (.refl _) fun _ => proveLoop_narrows w hw P hD ckt _ _

variable [DecidableEq T] [DecidableEq OA] [DecidableEq OB] [DecidableEq OT]
  [Add OA] [SMul F OA] [Add OB] [SMul F OB] [Add OT] [SMul F OT]

include hw in
/-- C148: on a platform whose `usize` has `w ≤ 8` bytes, GIPA's prover and verifier do what they do on a 64-bit
platform with the digest that skips the first `8 - w` bytes, unless the nonces run out. -/
theorem C148_gipa :
    (∀ (ma : List MA) (mb : List MB) (t : T) (cka : List KA) (ckb : List KB) (ckt : KT) (com : Coms OA OB OT),
      NarrowsIf (GipaOut w P) (Gipa.prove w P ma mb t cka ckb ckt com)
        ({ P with digest := fun b => P.digest (b.drop (8 - w)) }.prove ma mb t cka ckb ckt com)) ∧
    ∀ (cka : List KA) (ckb : List KB) (ckt : KT) (com : Coms OA OB OT) (proof : GipaProof MA MB OA OB OT),
      NarrowsIf (GipaOut w P) (Gipa.verify w P cka ckb ckt com proof)
        ({ P with digest := fun b => P.digest (b.drop (8 - w)) }.verify cka ckb ckt com proof) := by
  constructor
  · intro ma mb t cka ckb ckt com
    unfold Gipa.prove Ripp.Gipa.prove
    narrows (proveWithAux_narrows w hw P id _ _ _ _ _)
  · intro cka ckb ckt com proof
    unfold Gipa.verify Ripp.Gipa.verify
    narrows (recursiveChallenges_narrows w hw P id _ _)

end Gipa

section Complete

variable {ρ F MA MB T KA KB KT OA OB OT : Type} [Field F] [DecidableEq F]
  [AddCommGroup MA] [Module F MA] [AddCommGroup MB] [Module F MB]
  [AddCommGroup T] [Module F T] [AddCommGroup KA] [Module F KA] [AddCommGroup KB] [Module F KB]
  [AddCommGroup OA] [Module F OA] [AddCommGroup OB] [Module F OB] [Add OT] [SMul F OT]
  [DecidableEq T] [DecidableEq OA] [DecidableEq OB] [DecidableEq OT]
  {P : Ripp.Gipa ρ F MA MB T KA KB KT OA OB OT}
  {β : MA →ₗ[F] MB →ₗ[F] T} {φa : MA →ₗ[F] KA →ₗ[F] OA} {φb : MB →ₗ[F] KB →ₗ[F] OB}
  {ψ : KT → T → OT}

omit [DecidableEq F] [DecidableEq T] [DecidableEq OA] [DecidableEq OB] [DecidableEq OT] in
theorem shortGipa_lawful (w : ℕ) (L : P.Lawful β φa φb ψ) : (shortGipa w P).Lawful β φa φb ψ :=
  ⟨L.ip_ok, L.lmc_ok, L.rmc_ok, L.ipc_ok, L.ψ_add, L.ψ_smul⟩

/-- C148: on every platform, GIPA is complete among programs of this platform. -/
theorem C148_complete (w : ℕ) (hw : w ≤ 8) (L : P.Lawful β φa φb ψ) (hd : ∀ x, 16 ≤ (P.digest x).length)
    (k : ℕ) (ma : List MA) (mb : List MB) (t : T) (cka : List KA) (ckb : List KB) (kt : KT)
    (com : Coms OA OB OT) (h1 : ma.length = 2 ^ k) (h2 : mb.length = 2 ^ k) (h3 : cka.length = 2 ^ k)
    (h4 : ckb.length = 2 ^ k) (H : Ripp.Gipa.Honest P ma mb t cka ckb kt com) :
    Gipa.prove w P ma mb t cka ckb kt com = .error .diverge ∨
    ∃ proof, Gipa.prove w P ma mb t cka ckb kt com = .ok proof ∧
      (Gipa.verify w P cka ckb kt com proof = .error .diverge ∨
        Gipa.verify w P cka ckb kt com proof = .ok true) := by
  rcases (C148_gipa w hw P).1 ma mb t cka ckb kt com with ⟨-, h⟩ | h
  · exact .inl h
  rcases Ripp.Gipa.C11_complete (shortGipa_lawful w L) (fun x => hd _) k ma mb t cka ckb kt com h1 h2 h3 h4
      ⟨H.ip, H.lmc, H.rmc, H.ipc⟩ with h' | ⟨proof, h', hv⟩
  · exact .inl (h.trans h')
  · refine .inr ⟨proof, h.trans h', ?_⟩
    rcases (C148_gipa w hw P).2 cka ckb kt com proof with ⟨-, hn⟩ | hn
    · exact .inl hn
    · exact .inr (hn.trans hv)

/-- C148, violation: a proof of length two made on a platform with `w ≤ 8` bytes is rejected on a 64-bit
platform if the two challenges differ, unless the second entry of the left message disappears. -/
theorem C148_rejected (w : ℕ) (hw : w ≤ 8) (L : P.Lawful β φa φb ψ) (a0 a1 : MA) (b0 b1 : MB) (t : T)
    (k0 k1 : KA) (l0 l1 : KB) (kt : KT) (com : Coms OA OB OT)
    (H : Ripp.Gipa.Honest P [a0, a1] [b0, b1] t [k0, k1] [l0, l1] kt com) (proof : GipaProof MA MB OA OB OT)
    (h : Gipa.prove w P [a0, a1] [b0, b1] t [k0, k1] [l0, l1] kt com = .ok proof) :
    ∃ x y : Coms OA OB OT, proof.steps = [(x, y)] ∧ ∀ c c' d d' : F, Gipa.challenge w P 0 x y = .ok (c, c') →
      P.challenge 0 x y = .ok (d, d') → c ≠ d → φa a1 (k0 + d⁻¹ • k1) ≠ 0 →
      P.verify [k0, k1] [l0, l1] kt com proof = .ok false := by
  have L' := shortGipa_lawful w L
  obtain ⟨-, rfl⟩ := H.eq L (k := 1) rfl rfl rfl rfl
  have hp : (shortGipa w P).prove [a0, a1] [b0, b1] t [k0, k1] [l0, l1] kt
      (Ripp.Gipa.honestComs β φa φb ψ kt [a0, a1] [b0, b1] [k0, k1] [l0, l1]) = .ok proof := by
    rcases (C148_gipa w hw P).1 [a0, a1] [b0, b1] t [k0, k1] [l0, l1] kt
      (Ripp.Gipa.honestComs β φa φb ψ kt [a0, a1] [b0, b1] [k0, k1] [l0, l1]) with ⟨-, h'⟩ | h'
    · rw [h'] at h; cases h
    · exact h'.symm.trans h
  have H' : Ripp.Gipa.Honest (shortGipa w P) [a0, a1] [b0, b1] t [k0, k1] [l0, l1] kt
      (Ripp.Gipa.honestComs β φa φb ψ kt [a0, a1] [b0, b1] [k0, k1] [l0, l1]) := ⟨H.ip, H.lmc, H.rmc, H.ipc⟩
  rw [Ripp.Gipa.prove_of_honest H' (isPow2_two_pow 1)] at hp
  obtain ⟨⟨proof', aux⟩, hq, e⟩ := bind_eq_ok.mp hp
  simp only [Except.ok.injEq] at e
  subst e
  clear hp
  rw [Ripp.Gipa.proveWithAux] at hq
  obtain ⟨-, -, hp⟩ := bind_eq_ok.mp hq
  change Ripp.Gipa.proveLoop _ _ (1 + 1) _ = _ at hp
  rw [Ripp.Gipa.proveLoop.eq_def] at hp
  dsimp only at hp
  rw [if_neg (by simp)] at hp
  obtain ⟨st, hst, hp⟩ := bind_eq_ok.mp hp
  rw [Ripp.Gipa.proveRound_eq L' kt 1 _ rfl rfl rfl rfl] at hst
  obtain ⟨⟨c, c'⟩, hc, hst⟩ := bind_eq_ok.mp hst
  simp only [Except.ok.injEq] at hst
  subst hst
  rw [Ripp.Gipa.proveLoop.eq_def] at hp
  dsimp only at hp
  rw [if_pos (by simp [Ripp.Gipa.nextState, foldHalf, addV, smulV])] at hp
  have hp' : proof' = { steps := [(Ripp.Gipa.honestComs β φa φb ψ kt [a1] [b0] [k0] [l1],
      Ripp.Gipa.honestComs β φa φb ψ kt [a0] [b1] [k1] [l0])], base := (a0 + c • a1, b0 + c⁻¹ • b1) } := by
    obtain ⟨a, ea, hp⟩ := bind_eq_ok.mp hp
    obtain ⟨b, eb, hp⟩ := bind_eq_ok.mp hp
    obtain ⟨ka, -, hp⟩ := bind_eq_ok.mp hp
    obtain ⟨kb, -, hp⟩ := bind_eq_ok.mp hp
    simp only [idx, Ripp.Gipa.nextState, foldHalf, addV, smulV, List.length_cons, List.length_nil, zero_add,
      Nat.reduceAdd, Nat.reduceDiv, List.take_succ_cons, List.take_zero, List.drop_succ_cons, List.drop_zero,
      List.map_cons, List.map_nil, List.zipWith_cons_cons, List.zipWith_nil_left, List.getElem?_cons_zero,
      Except.ok.injEq] at ea eb
    refine (congrArg Prod.fst (Except.ok.inj hp)).symm.trans ?_
    rw [← ea, ← eb]
    rfl
  subst hp'
  refine ⟨_, _, rfl, fun c₁ c₁' d d' h1 h2 hne hz => ?_⟩
  have hcc : c₁ = c := by
    rcases challenge_narrows w hw P 0 (Ripp.Gipa.honestComs β φa φb ψ kt [a1] [b0] [k0] [l1])
      (Ripp.Gipa.honestComs β φa φb ψ kt [a0] [b1] [k1] [l0]) with ⟨-, hn⟩ | hn
    · rw [hn] at h1; cases h1
    · have := (h1.symm.trans hn).trans hc
      simp only [Except.ok.injEq, Prod.mk.injEq] at this
      exact this.1
  subst hcc
  rw [Ripp.Gipa.verify_eq L _ _ _ _ _ rfl rfl]
  simp only [List.reverse_cons, List.reverse_nil, List.nil_append, Ripp.Gipa.chals, List.getLast?_nil,
    Option.getD_none, h2, ok_bind, Except.ok.injEq, decide_eq_false_iff_not]
  intro he
  have h1 := congrArg Prod.fst he
  have hd : d ≠ 0 := (P.challenge_ok h2).1
  simp [Ripp.Gipa.foldMany, Ripp.Gipa.foldComs, Ripp.Gipa.honestComs, foldAll, foldHalf, addV, smulV, dot] at h1
  refine hz ?_
  have e1 : φa a1 k1 = d • d⁻¹ • φa a1 k1 := by rw [smul_smul, mul_inv_cancel₀ hd, one_smul]
  have e2 : (d - c₁) • φa a1 (k0 + d⁻¹ • k1) = 0 := by
    rw [map_add, map_smul, smul_add, sub_smul, sub_smul, ← e1]
    rw [← sub_eq_zero.mpr h1]
    abel
  exact (smul_eq_zero.mp e2).resolve_left (sub_ne_zero.mpr (Ne.symm hne))

end Complete

section Tipa

variable {ρ F MA MB T KT OA OB OT G1 G2 GT TF : Type} [Field F] [DecidableEq F]
  [AddCommGroup MA] [Module F MA] [AddCommGroup MB] [Module F MB]
  [AddCommGroup G1] [Module F G1] [AddCommGroup G2] [Module F G2]

omit [Field F] [DecidableEq F] [AddCommGroup G1] [Module F G1] [AddCommGroup G2] [Module F G2] in
theorem kzgChallenge_narrows (w : ℕ) (hw : w ≤ 8) (V : TipaEnv F G1 G2 GT TF) (digest : Bytes → Bytes)
    (serF : F → Bytes) (tr : List F) (cka : G2) (ckb : G1) :
    Narrows (Tipa.kzgChallenge w V digest serF tr cka ckb)
      (Ripp.Tipa.kzgChallenge V (short w digest) serF tr cka ckb) := by
  unfold Tipa.kzgChallenge Ripp.Tipa.kzgChallenge short
  simp only [List.append_assoc, drop_nonceBytes w hw]
  exact searchNonce_narrows _ _ _ _ (limit_le w hw)

omit [Field F] [DecidableEq F] [AddCommGroup G1] [Module F G1] [AddCommGroup G2] [Module F G2] in
theorem ssmKzgChallenge_narrows (w : ℕ) (hw : w ≤ 8) (V : TipaEnv F G1 G2 GT TF) (digest : Bytes → Bytes)
    (serF : F → Bytes) (tr : List F) (cka : G2) :
    Narrows (TipaSsm.kzgChallenge w V digest serF tr cka)
      (Ripp.TipaSsm.kzgChallenge V (short w digest) serF tr cka) := by
  unfold TipaSsm.kzgChallenge Ripp.TipaSsm.kzgChallenge short
  simp only [List.append_assoc, drop_nonceBytes w hw]
  exact searchNonce_narrows _ _ _ _ (limit_le w hw)

/-- Some search of TIPA runs out of nonces. -/
def TipaOut (w : ℕ) (V : TipaEnv F G1 G2 GT TF) (P : Ripp.Gipa ρ F MA MB T G2 G1 KT OA OB OT) : Prop :=
  GipaOut w P ∨ ∃ tr cka ckb, Tipa.kzgChallenge w V P.digest P.serF tr cka ckb = .error .diverge

/-- Some search of TIPA with structured scalar messages runs out of nonces. -/
def SsmOut (w : ℕ) (V : TipaEnv F G1 G2 GT TF) (P : Ripp.Gipa ρ F MA F T G2 Placeholder KT OA F OT) : Prop :=
  GipaOut w P ∨ ∃ tr cka, TipaSsm.kzgChallenge w V P.digest P.serF tr cka = .error .diverge

variable [DecidableEq GT] [DecidableEq OA] [DecidableEq OB] [DecidableEq OT]
  [Add OA] [SMul F OA] [Add OB] [SMul F OB] [Add OT] [SMul F OT]

/-- C148 for TIPA with any shift. -/
theorem C148_tipa (w : ℕ) (hw : w ≤ 8) (V : TipaEnv F G1 G2 GT TF) (P : Ripp.Gipa ρ F MA MB T G2 G1 KT OA OB OT) :
    (∀ (srs : SRS G1 G2) (ma : List MA) (mb : List MB) (cka : List G2) (ckb : List G1) (ckt : KT) (r : F),
      NarrowsIf (TipaOut w V P) (Tipa.proveWithShift w V P srs ma mb cka ckb ckt r)
        (Ripp.Tipa.proveWithShift V { P with digest := fun b => P.digest (b.drop (8 - w)) } srs ma mb cka ckb ckt
          r)) ∧
    ∀ (v : VerifierSRS G1 G2) (ckt : KT) (com : Coms OA OB OT) (proof : TipaProof G1 G2 MA MB OA OB OT) (r : F),
      NarrowsIf (TipaOut w V P) (Tipa.verifyWithShift w V P v ckt com proof r)
        (Ripp.Tipa.verifyWithShift V { P with digest := fun b => P.digest (b.drop (8 - w)) } v ckt com proof r) := by
  constructor
  · intro srs ma mb cka ckb ckt r
    unfold Tipa.proveWithShift Ripp.Tipa.proveWithShift
    refine .bind (proveWithAux_narrows w hw P Or.inl _ _ _ _ _) fun p => ?_
    narrows ((kzgChallenge_narrows w hw V _ _ _ _ _).imp_left fun h => ⟨.inr ⟨_, _, _, h.2⟩, h.2⟩)
  · intro v ckt com proof r
    unfold Tipa.verifyWithShift Ripp.Tipa.verifyWithShift
    refine .bind (recursiveChallenges_narrows w hw P Or.inl _ _) fun p => ?_
    narrows ((kzgChallenge_narrows w hw V _ _ _ _ _).imp_left fun h => ⟨.inr ⟨_, _, _, h.2⟩, h.2⟩)

/-- C148 for the arguments with structured scalar messages. -/
theorem C148_ssm (w : ℕ) (hw : w ≤ 8) {KA : Type} [AddCommGroup KA] [Module F KA] (X : Exec)
    (P : Ripp.Gipa ρ F MA F T KA Placeholder KT OA F OT) :
    (∀ (ma : List MA) (mb : List F) (cka : List KA) (ckt : KT), NarrowsIf (GipaOut w P) (GipaSsm.prove w P ma mb cka ckt)
      (Ripp.GipaSsm.prove { P with digest := fun b => P.digest (b.drop (8 - w)) } ma mb cka ckt)) ∧
    ∀ (cka : List KA) (ckt : KT) (comA : OA) (comT : OT) (b : F) (proof : GipaProof MA F OA F OT),
      NarrowsIf (GipaOut w P) (GipaSsm.verify w X P cka ckt comA comT b proof)
        (Ripp.GipaSsm.verify X { P with digest := fun b => P.digest (b.drop (8 - w)) } cka ckt comA comT b proof) := by
  constructor
  · intro ma mb cka ckt
    exact .bind (proveWithAux_narrows w hw P id _ _ _ _ _) fun p => .refl _
  · intro cka ckt comA comT b proof
    exact .bind (recursiveChallenges_narrows w hw P id _ _) fun p => .refl _

/-- C148 for TIPA with structured scalar messages. -/
theorem C148_tipa_ssm (w : ℕ) (hw : w ≤ 8) (X : Exec) (V : TipaEnv F G1 G2 GT TF)
    (P : Ripp.Gipa ρ F MA F T G2 Placeholder KT OA F OT) :
    (∀ (srs : SRS G1 G2) (ma : List MA) (mb : List F) (cka : List G2) (ckt : KT),
      NarrowsIf (SsmOut w V P) (TipaSsm.prove w V P srs ma mb cka ckt)
        (Ripp.TipaSsm.prove V { P with digest := fun b => P.digest (b.drop (8 - w)) } srs ma mb cka ckt)) ∧
    ∀ (v : VerifierSRS G1 G2) (ckt : KT) (comA : OA) (comT : OT) (b : F) (proof : TipaSsmProof F G2 MA OA OT),
      NarrowsIf (SsmOut w V P) (TipaSsm.verify w X V P v ckt comA comT b proof)
        (Ripp.TipaSsm.verify X V { P with digest := fun b => P.digest (b.drop (8 - w)) } v ckt comA comT b
          proof) := by
  constructor
  · intro srs ma mb cka ckt
    unfold TipaSsm.prove Ripp.TipaSsm.prove
    refine .bind (proveWithAux_narrows w hw P Or.inl _ _ _ _ _) fun p => ?_
    narrows ((ssmKzgChallenge_narrows w hw V _ _ _ _).imp_left fun h => ⟨.inr ⟨_, _, h.2⟩, h.2⟩)
  · intro v ckt comA comT b proof
    unfold TipaSsm.verify Ripp.TipaSsm.verify
    refine .bind (recursiveChallenges_narrows w hw P Or.inl _ _) fun p => ?_
    narrows ((ssmKzgChallenge_narrows w hw V _ _ _ _).imp_left fun h => ⟨.inr ⟨_, _, h.2⟩, h.2⟩)

end Tipa

section Applications

variable {ρ F G1 G2 GT TF : Type} [Field F] [DecidableEq F]
  [AddCommGroup G1] [Module F G1] [AddCommGroup G2] [Module F G2] [AddCommGroup GT] [Module F GT] [Monoid TF]
  [DecidableEq G1] [DecidableEq GT]

omit [Field F] [DecidableEq F] [AddCommGroup G1] [Module F G1] [AddCommGroup G2] [Module F G2] [AddCommGroup GT]
  [Module F GT] [Monoid TF] [DecidableEq G1] [DecidableEq GT] in
theorem challengeR_narrows (w : ℕ) (hw : w ≤ 8) (V : Env ρ F G1 G2 GT TF) (cA cB cC : GT) :
    Narrows (Groth16.challenge w V cA cB cC)
      (Ripp.Groth16.challenge { V with digest := fun b => V.digest (b.drop (8 - w)) } cA cB cC) := by
  unfold Groth16.challenge Ripp.Groth16.challenge
  simp only [List.append_assoc, drop_nonceBytes w hw]
  exact searchNonce_narrows _ _ _ _ (limit_le w hw)

/-- Some search of the aggregation runs out of nonces. -/
def AggOut (w : ℕ) (V : Env ρ F G1 G2 GT TF) : Prop :=
  (∃ cA cB cC, Groth16.challenge w V cA cB cC = .error .diverge) ∨
    TipaOut w V.tipa V.pairingAB ∨ SsmOut w V.tipa V.multiexpSsm

/-- C148 for the aggregation of Groth16 proofs. -/
theorem C148_aggregate (w : ℕ) (hw : w ≤ 8) (V : Env ρ F G1 G2 GT TF) :
    (∀ (srs : SRS G1 G2) (proofs : List (G16Proof G1 G2)), NarrowsIf (AggOut w V) (Groth16.aggregate w V srs proofs)
      (Ripp.Groth16.aggregate { V with digest := fun b => V.digest (b.drop (8 - w)) } srs proofs)) ∧
    ∀ (v : VerifierSRS G1 G2) (vk : G16VK G1 G2) (inputs : List (List F)) (proof : AggProof F G1 G2 GT),
      NarrowsIf (AggOut w V) (Groth16.verify w V v vk inputs proof)
        (Ripp.Groth16.verify { V with digest := fun b => V.digest (b.drop (8 - w)) } v vk inputs proof) := by
  have hc : ∀ cA cB cC, NarrowsIf (AggOut w V) (Groth16.challenge w V cA cB cC) _ := fun cA cB cC =>
    (challengeR_narrows w hw V cA cB cC).imp_left fun h => ⟨.inl ⟨_, _, _, h.2⟩, h.2⟩
  constructor
  · intro srs proofs
    unfold Groth16.aggregate Ripp.Groth16.aggregate
    iterate 3 refine .bind (.refl _) fun _ => ?_
    refine .bind (hc _ _ _) fun r => ?_
    iterate 6 refine .bind (.refl _) fun _ => ?_
    refine .bind (.mono (fun h => .inr (.inl h)) ((C148_tipa w hw V.tipa V.pairingAB).1 _ _ _ _ _ _ _)) fun _ => ?_
    exact .bind (.mono (fun h => .inr (.inr h)) ((C148_tipa_ssm w hw V.X V.tipa V.multiexpSsm).1 _ _ _ _ _)) fun _ => .refl _
  · intro v vk inputs proof
    unfold Groth16.verify Ripp.Groth16.verify
    refine .bind (hc _ _ _) fun r => ?_
    refine .bind (.mono (fun h => .inr (.inl h)) ((C148_tipa w hw V.tipa V.pairingAB).2 _ _ _ _ _)) fun _ => ?_
    exact .bind (.mono (fun h => .inr (.inr h)) ((C148_tipa_ssm w hw V.X V.tipa V.multiexpSsm).2 _ _ _ _ _ _)) fun _ => .refl _

/-- C148 for the polynomial commitments with a reference string. -/
theorem C148_polynomial (w : ℕ) (hw : w ≤ 8) (V : Env ρ F G1 G2 GT TF) :
    (∀ (srs : SRS G1 G2 × List G1) (ps : List (List F)) (coms : List G1) (point : F × F),
      NarrowsIf (SsmOut w V.tipa V.multiexpSsm) (Bivariate.open_ w V srs ps coms point)
        (Ripp.Bivariate.open_ { V with digest := fun b => V.digest (b.drop (8 - w)) } srs ps coms point)) ∧
    ∀ (v : VerifierSRS G1 G2) (com : GT) (point : F × F) (eval : F) (proof : PcProof F G1 G2 GT),
      NarrowsIf (SsmOut w V.tipa V.multiexpSsm) (Bivariate.verify w V v com point eval proof)
        (Ripp.Bivariate.verify { V with digest := fun b => V.digest (b.drop (8 - w)) } v com point eval proof) := by
  constructor
  · intro srs ps coms point
    unfold Bivariate.open_ Ripp.Bivariate.open_
    iterate 3 refine .bind (.refl _) fun _ => ?_
    exact .bind ((C148_tipa_ssm w hw V.X V.tipa V.multiexpSsm).1 _ _ _ _ _) fun _ => .refl _
  · intro v com point eval proof
    unfold Bivariate.verify Ripp.Bivariate.verify
    exact .bind ((C148_tipa_ssm w hw V.X V.tipa V.multiexpSsm).2 _ _ _ _ _ _) fun _ => .refl _

/-- C148 for the polynomial commitments without a reference string. -/
theorem C148_transparent (w : ℕ) (hw : w ≤ 8) (V : Env ρ F G1 G2 GT TF) :
    (∀ (ck : List G1 × List G2) (ps : List (List F)) (coms : List G1) (point : F × F),
      NarrowsIf (GipaOut w V.multiexpSsm ∨ GipaOut w V.scalarSsm) (TBivariate.open_ w V ck ps coms point)
        (Ripp.TBivariate.open_ { V with digest := fun b => V.digest (b.drop (8 - w)) } ck ps coms point)) ∧
    ∀ (ck : List G1 × List G2) (com : GT) (point : F × F) (eval : F) (proof : TpcProof F G1 GT),
      NarrowsIf (GipaOut w V.multiexpSsm ∨ GipaOut w V.scalarSsm) (TBivariate.verify w V ck com point eval proof)
        (Ripp.TBivariate.verify { V with digest := fun b => V.digest (b.drop (8 - w)) } ck com point eval
          proof) := by
  constructor
  · intro ck ps coms point
    unfold TBivariate.open_ Ripp.TBivariate.open_
    iterate 4 refine .bind (.refl _) fun _ => ?_
    refine .bind (.mono .inl ((C148_ssm w hw V.X V.multiexpSsm).1 _ _ _ _)) fun _ => ?_
    refine .bind (.refl _) fun _ => ?_
    exact .bind (.mono .inr ((C148_ssm w hw V.X V.scalarSsm).1 _ _ _ _)) fun _ => .refl _
  · intro ck com point eval proof
    unfold TBivariate.verify Ripp.TBivariate.verify
    refine .bind (.mono .inl ((C148_ssm w hw V.X V.multiexpSsm).2 _ _ _ _ _ _)) fun _ => ?_
    exact .bind (.mono .inr ((C148_ssm w hw V.X V.scalarSsm).2 _ _ _ _ _ _)) fun _ => .refl _

/-- C148: the aggregation is complete among programs of one platform. -/
theorem C148_aggregate_complete (w : ℕ) (hw : w ≤ 8) (V : Env ρ F G1 G2 GT TF) {e : G1 →ₗ[F] G2 →ₗ[F] GT}
    (hE : V.E.Lawful e) (hd : ∀ x, 16 ≤ (V.digest x).length) (k : ℕ)
    (srs : SRS G1 G2) (g : G1) (h : G2) (α β : F) (hsrs : IsSrs srs g h α β (2 ^ (k + 1)))
    (vk : G16VK G1 G2) (proofs : List (G16Proof G1 G2)) (inputs : List (List F))
    (hp : proofs.length = 2 ^ (k + 1)) (hv : List.Forall₂ (Ripp.Groth16.Valid e vk) proofs inputs)
    (hr : ∀ r, Groth16.challenge w V (dot (e · ·) (proofs.map (·.a)) srs.commitmentKeys.1)
      (dot (e · ·) srs.commitmentKeys.2 (proofs.map (·.b)))
      (dot (e · ·) (proofs.map (·.c)) srs.commitmentKeys.1) = .ok r → r ≠ 0 ∧ r ≠ 1) :
    Groth16.aggregate w V srs proofs = .error .diverge ∨
    ∃ v proof, srs.verifierKey = .ok v ∧ Groth16.aggregate w V srs proofs = .ok proof ∧
      (Groth16.verify w V v vk inputs proof = .error .diverge ∨
        Groth16.verify w V v vk inputs proof = .ok true) := by
  obtain ⟨e1, e2, -⟩ := C25_keys srs g h α β _ (Nat.one_le_two_pow) hsrs
  have l1 : srs.commitmentKeys.1.length = proofs.length := by rw [e1, hp]; simp
  have l2 : srs.commitmentKeys.2.length = proofs.length := by rw [e2, hp]; simp
  rcases challengeR_narrows w hw V (dot (e · ·) (proofs.map (·.a)) srs.commitmentKeys.1)
      (dot (e · ·) srs.commitmentKeys.2 (proofs.map (·.b)))
      (dot (e · ·) (proofs.map (·.c)) srs.commitmentKeys.1) with ⟨-, hc⟩ | hc
  · left
    rw [Groth16.aggregate]
    simp only []
    rw [pairingIP_eq hE _ _ _ (by simp [l1])]
    simp only [ok_bind]
    rw [pairingIP_eq hE _ _ _ (by simp [l2])]
    simp only [ok_bind]
    rw [pairingIP_eq hE _ _ _ (by simp [l1])]
    simp only [ok_bind]
    rw [hc]; rfl
  rcases (C148_aggregate w hw V).1 srs proofs with ⟨-, ha⟩ | ha
  · exact .inl ha
  rcases Ripp.Groth16.C49_complete (V := { V with digest := fun b => V.digest (b.drop (8 - w)) }) hE
      (fun x => hd _) k srs g h α β hsrs vk proofs inputs hp hv (fun r hx => hr r (hc.trans hx)) with
    h' | ⟨v, proof, h1, h2, h3⟩
  · exact .inl (ha.trans h')
  · refine .inr ⟨v, proof, h1, ha.trans h2, ?_⟩
    rcases (C148_aggregate w hw V).2 v vk inputs proof with ⟨-, hn⟩ | hn
    · exact .inl hn
    · exact .inr (hn.trans h3)

end Applications

/-! ## When the nonces run out -/

section Out

variable {ρ F MA MB T KA KB KT OA OB OT G1 G2 GT TF : Type} [Field F] [DecidableEq F]

/-- C148: a search runs out of nonces if and only if all `2^(8w)` nonces fail. -/
theorem C148_out (w : ℕ) :
    (∀ (P : Ripp.Gipa ρ F MA MB T KA KB KT OA OB OT) (prev : F) (x y : Coms OA OB OT),
      (∀ b, 16 ≤ (P.digest b).length) → (Gipa.challenge w P prev x y = .error .diverge ↔ ∀ n < 2 ^ (8 * w),
        ((beNat ((P.digest ((leBytes w n).reverse ++ P.serF prev ++ P.serA x.1 ++ P.serB x.2.1 ++ P.serT x.2.2 ++
          P.serA y.1 ++ P.serB y.2.1 ++ P.serT y.2.2)).take 16) : ℕ) : F) = 0)) ∧
    (∀ (V : TipaEnv F G1 G2 GT TF) (digest : Bytes → Bytes) (serF : F → Bytes) (t0 : F) (tr : List F) (cka : G2)
        (ckb : G1), Tipa.kzgChallenge w V digest serF (t0 :: tr) cka ckb = .error .diverge ↔ ∀ n < 2 ^ (8 * w),
      V.fromRandomBytes (digest ((leBytes w n).reverse ++ serF t0 ++ V.serG2 cka ++ V.serG1 ckb)) = none) ∧
    (∀ (V : TipaEnv F G1 G2 GT TF) (digest : Bytes → Bytes) (serF : F → Bytes) (t0 : F) (tr : List F) (cka : G2),
        TipaSsm.kzgChallenge w V digest serF (t0 :: tr) cka = .error .diverge ↔ ∀ n < 2 ^ (8 * w),
      V.fromRandomBytes (digest ((leBytes w n).reverse ++ serF t0 ++ V.serG2 cka)) = none) ∧
    ∀ (V : Env ρ F G1 G2 GT TF) (cA cB cC : GT), Groth16.challenge w V cA cB cC = .error .diverge ↔
      ∀ n < 2 ^ (8 * w),
        V.fromRandomBytes (V.digest ((leBytes w n).reverse ++ V.serGT cA ++ V.serGT cB ++ V.serGT cC)) = none := by
  refine ⟨fun P prev x y hd => ?_, fun V digest serF t0 tr cka ckb => ?_, fun V digest serF t0 tr cka => ?_,
    fun V cA cB cC => ?_⟩
  · have hf : ∀ n, Gipa.challengeAttempt w P prev x y n =
        .ok ((inverse ((beNat ((P.digest (Gipa.hashInput w P n prev x y)).take 16) : ℕ) : F)).map fun ci =>
          (ci, ((beNat ((P.digest (Gipa.hashInput w P n prev x y)).take 16) : ℕ) : F))) := by
      intro n
      have hlt : ¬ (P.digest (Gipa.hashInput w P n prev x y)).length < 16 := by
        have := hd (Gipa.hashInput w P n prev x y); omega
      simp only [Gipa.challengeAttempt, if_neg hlt]
      generalize inverse (F := F) _ = o
      cases o <;> rfl
    rw [Gipa.challenge, searchNonce_out _ (fun n => by rw [hf]; simp)]
    refine forall₂_congr fun n _ => ?_
    rw [zero_add, hf]
    simp only [Except.ok.injEq, Option.map_eq_none_iff]
    change _ ↔ ((beNat ((P.digest (Gipa.hashInput w P n prev x y)).take 16) : ℕ) : F) = 0
    generalize ((beNat ((P.digest (Gipa.hashInput w P n prev x y)).take 16) : ℕ) : F) = z
    rcases eq_or_ne z 0 with rfl | hz
    · simp
    · simp [inverse_of_ne hz, hz]
  · rw [Tipa.kzgChallenge, searchNonce_out _ (fun n => by intro h; cases h)]
    refine forall₂_congr fun n _ => ?_
    rw [zero_add]
    exact ⟨fun h => Except.ok.inj h, fun h => congrArg Except.ok h⟩
  · rw [TipaSsm.kzgChallenge, searchNonce_out _ (fun n => by intro h; cases h)]
    refine forall₂_congr fun n _ => ?_
    rw [zero_add]
    exact ⟨fun h => Except.ok.inj h, fun h => congrArg Except.ok h⟩
  · rw [Groth16.challenge, searchNonce_out _ (fun n => by intro h; cases h)]
    refine forall₂_congr fun n _ => ?_
    rw [zero_add]
    exact ⟨fun h => Except.ok.inj h, fun h => congrArg Except.ok h⟩

end Out

/-! ## A concrete platform -/

/-- The small environment with a digest that depends on the length of the input. -/
def exampleEnv : Env ℕ Toy.F Toy.F Toy.F Toy.F Toy.TF :=
  { Toy.env with digest := fun b => List.replicate 15 0 ++ [if b.length % 8 < 4 then 3 else 5] }

theorem exampleEnv_length (x : Bytes) : 16 ≤ (exampleEnv.digest x).length := by
  simp [exampleEnv]

/-- A nonce on a 32-bit and on a 64-bit platform. -/
example : nonceBytes 4 258 = [0, 0, 1, 2] ∧ nonceBytes 8 258 = [0, 0, 0, 0, 0, 0, 1, 2] := by decide

/-- A search that succeeds at nonce 0. -/
theorem challenge_first {ρ F MA MB T KA KB KT OA OB OT : Type} [Field F] [DecidableEq F] (w : ℕ)
    (P : Ripp.Gipa ρ F MA MB T KA KB KT OA OB OT) (prev : F) (x y : Coms OA OB OT)
    (hd : 16 ≤ (P.digest (Gipa.hashInput w P 0 prev x y)).length)
    (h : ((beNat ((P.digest (Gipa.hashInput w P 0 prev x y)).take 16) : ℕ) : F) ≠ 0) :
    Gipa.challenge w P prev x y =
      .ok (((beNat ((P.digest (Gipa.hashInput w P 0 prev x y)).take 16) : ℕ) : F)⁻¹,
        ((beNat ((P.digest (Gipa.hashInput w P 0 prev x y)).take 16) : ℕ) : F)) := by
  have h0 : 0 < nonceLimit w := by unfold nonceLimit; positivity
  obtain ⟨m, hm⟩ : ∃ m, nonceLimit w = m + 1 := ⟨nonceLimit w - 1, by omega⟩
  rw [Gipa.challenge, hm, searchNonce]
  have hlt : ¬ (P.digest (Gipa.hashInput w P 0 prev x y)).length < 16 := by omega
  simp only [Gipa.challengeAttempt, if_neg hlt, inverse_of_ne h]

/-- C148: with 8 bytes, the challenges are those of the 64-bit program. -/
theorem C148_wide {ρ F MA MB T KA KB KT OA OB OT : Type} [Field F] [DecidableEq F]
    (P : Ripp.Gipa ρ F MA MB T KA KB KT OA OB OT) (prev : F) (x y : Coms OA OB OT) :
    Gipa.challenge 8 P prev x y = P.challenge prev x y := by
  have h : nonceLimit 8 = Ripp.nonceLimit := by simp only [nonceLimit, Ripp.nonceLimit]
  rw [Gipa.challenge, Ripp.Gipa.challenge, h]
  rfl

theorem exampleEnv_value (b : Bytes) : ((beNat ((exampleEnv.digest b).take 16) : ℕ) : Toy.F) =
    if b.length % 8 < 4 then 3 else 5 := by
  have : exampleEnv.digest b = List.replicate 15 0 ++ [if b.length % 8 < 4 then 3 else 5] := rfl
  rw [this]
  split <;> decide +kernel

theorem exampleEnv_ne (b : Bytes) : ((beNat ((exampleEnv.digest b).take 16) : ℕ) : Toy.F) ≠ 0 := by
  rw [exampleEnv_value]
  split <;> decide

/-- C148, violation: a proof made on a 32-bit platform and accepted there is rejected on a 64-bit platform. -/
theorem C148_witness : ∃ proof,
    Gipa.prove 4 exampleEnv.pairingAB [1, 2] [5, 6] 17 [2, 3] [1, 4] PUnit.unit (8, 29, ⟨[17]⟩) = .ok proof ∧
    Gipa.verify 4 exampleEnv.pairingAB [2, 3] [1, 4] PUnit.unit (8, 29, ⟨[17]⟩) proof = .ok true ∧
    exampleEnv.pairingAB.verify [2, 3] [1, 4] PUnit.unit (8, 29, ⟨[17]⟩) proof = .ok false := by
  have L := pairingAB_lawful exampleEnv (e := Toy.e) Toy.lawful
  have H : Ripp.Gipa.Honest exampleEnv.pairingAB [1, 2] [5, 6] 17 [2, 3] [1, 4] PUnit.unit (8, 29, ⟨[17]⟩) :=
    ⟨pairingIP_eq Toy.lawful Toy.X [1, 2] [5, 6] rfl, pairingIP_eq Toy.lawful Toy.X [1, 2] [2, 3] rfl,
      pairingIP_eq Toy.lawful Toy.X [1, 4] [5, 6] rfl, rfl⟩
  have hw : ∀ w prev x y, Gipa.challenge w exampleEnv.pairingAB prev x y ≠ .error .diverge := by
    intro w prev x y h
    rw [challenge_first w _ prev x y (exampleEnv_length _) (exampleEnv_ne _)] at h
    cases h
  have ho : ¬ GipaOut 4 exampleEnv.pairingAB := fun ⟨prev, x, y, h⟩ => hw 4 prev x y h
  have T := C148_gipa 4 (by norm_num) exampleEnv.pairingAB
  have hs : (shortGipa 4 exampleEnv.pairingAB).SearchEnds :=
    searchEnds_of_digest _ (fun x => exampleEnv_length _) (fun x => exampleEnv_ne _)
  obtain ⟨proof, h1, h2⟩ := Ripp.Gipa.C11_complete_total (shortGipa_lawful 4 L) (fun x => exampleEnv_length _) hs 1
    [1, 2] [5, 6] 17 [2, 3] [1, 4] PUnit.unit (8, 29, ⟨[17]⟩) rfl rfl rfl rfl ⟨H.ip, H.lmc, H.rmc, H.ipc⟩
  have h1' := ((T.1 [1, 2] [5, 6] 17 [2, 3] [1, 4] PUnit.unit (8, 29, ⟨[17]⟩)).eq ho).trans h1
  refine ⟨proof, h1', ((T.2 [2, 3] [1, 4] PUnit.unit (8, 29, ⟨[17]⟩) proof).eq ho).trans h2, ?_⟩
  obtain ⟨x, y, -, hr⟩ := C148_rejected 4 (by norm_num) L _ _ _ _ _ _ _ _ _ _ _ H proof h1'
  have c4 := challenge_first 4 exampleEnv.pairingAB 0 x y (exampleEnv_length _) (exampleEnv_ne _)
  have c8 := (C148_wide exampleEnv.pairingAB 0 x y).symm.trans
    (challenge_first 8 exampleEnv.pairingAB 0 x y (exampleEnv_length _) (exampleEnv_ne _))
  have hl : (Gipa.hashInput 8 exampleEnv.pairingAB 0 0 x y).length =
      (Gipa.hashInput 4 exampleEnv.pairingAB 0 0 x y).length + 4 := by
    simp only [Gipa.hashInput, nonceBytes, List.length_append, List.length_reverse, length_leBytes']
    omega
  refine hr _ _ _ _ c4 c8 ?_ ?_ <;>
    rw [show exampleEnv.pairingAB.digest = exampleEnv.digest from rfl] <;> simp only [exampleEnv_value, hl]
  · intro h
    split at h <;> split at h
    · omega
    · exact absurd h (by decide +kernel)
    · exact absurd h (by decide +kernel)
    · omega
  · split <;> decide +kernel

end Platform

end Ripp
