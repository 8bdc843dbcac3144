import Verif.Model.Tests
import Verif.Props.SetupDraws
import Verif.Props.Bench

/-!
# The unit tests and benches pass for every seed (C105, C106)

C105: the unit tests. C106: the benches of the inner product arguments, and what they do not notice.
-/

namespace Ripp

open Spec

/-! ## `unwrap` and drawing -/

@[simp] theorem isErr_ok {α : Type} (x : α) : isErr (.ok x : Res α) = .ok false := rfl

theorem length_randomGenerators {ρ A : Type} (rand : ρ → A × ρ) (s : ρ) (n : ℕ) :
    (randomGenerators rand s n).1.length = n := by
  rw [C104_random_generators]; simp [draws]

theorem length_drawPairs {ρ A B : Type} (randA : ρ → A × ρ) (randB : ρ → B × ρ) : ∀ (n : ℕ) (s : ρ),
    (drawPairs randA randB n s).1.1.length = n ∧ (drawPairs randA randB n s).1.2.length = n
  | 0, _ => ⟨rfl, rfl⟩
  | n + 1, s => by
    have ih := length_drawPairs randA randB n (randB (randA s).2).2
    exact ⟨congrArg (· + 1) ih.1, congrArg (· + 1) ih.2⟩

theorem length_drawBoth {ρ A B : Type} (randA : ρ → A × ρ) (randB : ρ → B × ρ) (n : ℕ) (s : ρ) :
    (drawBoth randA randB n s).1.1.length = n ∧ (drawBoth randA randB n s).1.2.length = n :=
  ⟨length_randomGenerators randA s n, length_randomGenerators randB (randomGenerators randA s n).2 n⟩

/-- With one generator the two vectors are the even and the odd draws. -/
theorem drawPairs_eq {ρ A : Type} (rand : ρ → A × ρ) : ∀ (n : ℕ) (s : ρ),
    drawPairs rand rand n s = (((List.range n).map fun i => nth rand s (2 * i),
      (List.range n).map fun i => nth rand s (2 * i + 1)), after rand s (2 * n))
  | 0, _ => rfl
  | n + 1, s => by
    have h : drawPairs rand rand (n + 1) s =
        (((rand s).1 :: (drawPairs rand rand n (rand (rand s).2).2).1.1,
          (rand (rand s).2).1 :: (drawPairs rand rand n (rand (rand s).2).2).1.2),
          (drawPairs rand rand n (rand (rand s).2).2).2) := rfl
    rw [h, drawPairs_eq rand n]
    simp only [List.range_succ_eq_map, List.map_cons, List.map_map]
    rfl

/-! ## C105: commitment tests -/

section
variable {ρ F G G1 G2 GT TF : Type} [Field F] [DecidableEq F] [AddCommGroup G] [Module F G] [DecidableEq G]
  [AddCommGroup G1] [Module F G1]
  [AddCommGroup G2] [Module F G2] [AddCommGroup GT] [Module F GT] [Monoid TF] [DecidableEq G1] [DecidableEq G2]
  [DecidableEq GT] {e : G1 →ₗ[F] G2 →ₗ[F] GT}

theorem commitmentTest_eq {K M O : Type} [DecidableEq O] (C : Commitment ρ K M O) (rand : ρ → M × ρ) (n : ℕ)
    (s s' : ρ) (keys : List K) (c : List K → List M → O) (hset : C.setup s n = .ok (keys, s'))
    (hk : keys.length = n) (hc : ∀ k m, k.length = m.length → C.commit k m = .ok (c k m))
    (hl : ∀ k m, k.length ≠ m.length → ∃ a b, C.commit k m = .error (.ipLength a b)) :
    commitmentTest C rand n s =
      if c keys ((List.range n).map fun i => nth rand s' (2 * i + 1)) =
          c keys ((List.range n).map fun i => nth rand s' (2 * i)) then panic' .assertion else .ok () := by
  have h1 := hc keys ((List.range n).map fun i => nth rand s' (2 * i)) (by simp [hk])
  have h2 := hc keys ((List.range n).map fun i => nth rand s' (2 * i + 1)) (by simp [hk])
  obtain ⟨a, b, h3⟩ := hl keys (((List.range n).map fun i => nth rand s' (2 * i)) ++
    [(rand (after rand s' (2 * n))).1]) (by simp [hk])
  rw [commitmentTest, hset]
  simp only [unwrapRes_ok, ok_bind, drawPairs_eq, Commitment.verify, h1, h2, h3, pure_eq_ok, decide_true,
    assert_true]
  split_ifs with h
  · simp only [h, decide_true]; rfl
  · simp only [h, decide_false]; rfl

/-- C105: the three commitment tests pass, for any seed and size, exactly if the two random messages have different
commitments; otherwise the second assertion fails. -/
theorem C105_commitments (V : Env ρ F G1 G2 GT TF) (hE : V.E.Lawful e) (randF : ρ → F × ρ) (rand : ρ → G × ρ)
    (n : ℕ) (s : ρ) :
    (commitmentTest (pedersen rand) randF n s =
      if dot (fun g s => s • g) (draws rand s n) ((List.range n).map fun i => nth randF (after rand s n) (2 * i + 1)) =
        dot (fun g s => s • g) (draws rand s n) ((List.range n).map fun i => nth randF (after rand s n) (2 * i))
      then panic' .assertion else .ok ()) ∧
    (commitmentTest (afghoG1 V.E V.X V.randG2) V.randG1 n s =
      if dot (e · ·) ((List.range n).map fun i => nth V.randG1 (after V.randG2 s n) (2 * i + 1)) (draws V.randG2 s n) =
        dot (e · ·) ((List.range n).map fun i => nth V.randG1 (after V.randG2 s n) (2 * i)) (draws V.randG2 s n)
      then panic' .assertion else .ok ()) ∧
    (commitmentTest (afghoG2 V.E V.X V.randG1) V.randG2 n s =
      if dot (e · ·) (draws V.randG1 s n) ((List.range n).map fun i => nth V.randG2 (after V.randG1 s n) (2 * i + 1)) =
        dot (e · ·) (draws V.randG1 s n) ((List.range n).map fun i => nth V.randG2 (after V.randG1 s n) (2 * i))
      then panic' .assertion else .ok ()) := by
  refine ⟨?_, ?_, ?_⟩
  · refine commitmentTest_eq (pedersen rand) randF n s _ _ (fun k m => dot (fun g s => s • g) k m)
      (C104_commitments V.E V.X rand V.randG1 V.randG2 s n).1 (by simp [draws]) (fun k m h => multiexpIP_eq k m h)
      fun k m h => ⟨k.length, m.length, ?_⟩
    simp [pedersen, multiexpIP, h]
  · refine commitmentTest_eq (afghoG1 V.E V.X V.randG2) V.randG1 n s _ _ (fun k m => dot (e · ·) m k)
      (C104_commitments (F := F) V.E V.X V.randG1 V.randG1 V.randG2 s n).2.1 (by simp [draws])
      (fun k m h => pairingIP_eq hE V.X m k h.symm)
      fun k m h => ⟨m.length, k.length, ?_⟩
    simp [afghoG1, pairingIP, Ne.symm h]
  · refine commitmentTest_eq (afghoG2 V.E V.X V.randG1) V.randG2 n s _ _ (fun k m => dot (e · ·) k m)
      (C104_commitments (F := F) V.E V.X V.randG1 V.randG1 V.randG2 s n).2.2 (by simp [draws])
      (fun k m h => pairingIP_eq hE V.X k m h)
      fun k m h => ⟨k.length, m.length, ?_⟩
    simp [afghoG2, pairingIP, h]

/-- In the toy instance with size 2 and seed 5 the commitments differ. -/
example : commitmentTest (pedersen (F := Toy.F) Toy.rand) Toy.rand 2 5 = .ok () := by
  rw [(C105_commitments Toy.env Toy.lawful Toy.rand Toy.rand 2 5).1]; rfl

/-! ## C105: GIPA, TIPA and the structured message arguments -/

end

section Generic
variable {ρ F MA MB T KA KB KT OA OB OT G1 G2 GT TF : Type} [Field F] [DecidableEq F]
  [AddCommGroup MA] [Module F MA] [AddCommGroup MB] [Module F MB] [AddCommGroup T] [Module F T]
  [AddCommGroup KA] [Module F KA] [AddCommGroup KB] [Module F KB]
  [AddCommGroup OA] [Module F OA] [AddCommGroup OB] [Module F OB] [Add OT] [SMul F OT]
  [AddCommGroup G1] [Module F G1] [AddCommGroup G2] [Module F G2] [AddCommGroup GT] [Module F GT] [Monoid TF]
  [DecidableEq T] [DecidableEq OA] [DecidableEq OB] [DecidableEq OT] [DecidableEq GT]
  {β : MA →ₗ[F] MB →ₗ[F] T} {φa : MA →ₗ[F] KA →ₗ[F] OA} {φb : MB →ₗ[F] KB →ₗ[F] OB} {ψ : KT → T → OT}
  {e : G1 →ₗ[F] G2 →ₗ[F] GT}

theorem gipaRun_passes {P : Gipa ρ F MA MB T KA KB KT OA OB OT} (L : P.Lawful β φa φb ψ)
    (hd : ∀ x, 16 ≤ (P.digest x).length) (k : ℕ) (cka : List KA) (ckb : List KB) (kt : KT) (m : List MA × List MB)
    (h1 : m.1.length = 2 ^ k) (h2 : m.2.length = 2 ^ k) (h3 : cka.length = 2 ^ k) (h4 : ckb.length = 2 ^ k) :
    gipaRun P (cka, ckb, kt) m = .error .diverge ∨ gipaRun P (cka, ckb, kt) m = .ok true := by
  have e1 := L.lmc_ok cka m.1 (h3.trans h1.symm)
  have e2 := L.rmc_ok ckb m.2 (h4.trans h2.symm)
  have e3 := L.ip_ok m.1 m.2 (h1.trans h2.symm)
  have e4 := L.ipc_ok kt (dot (β · ·) m.1 m.2)
  rw [gipaRun]
  simp only [e1, e2, e3, e4, unwrapRes_ok, ok_bind]
  rcases Gipa.C11_complete L hd k m.1 m.2 _ cka ckb kt (_, _, _) h1 h2 h3 h4 ⟨e3, e1, e2, e4⟩ with h | ⟨proof, h, h'⟩
  · left; rw [h]; rfl
  · right; rw [h]; simp only [unwrapRes_ok, ok_bind, h']

theorem gipaRun_total {P : Gipa ρ F MA MB T KA KB KT OA OB OT} (L : P.Lawful β φa φb ψ)
    (hd : ∀ x, 16 ≤ (P.digest x).length) (hs : P.SearchEnds) (k : ℕ) (cka : List KA) (ckb : List KB) (kt : KT)
    (m : List MA × List MB) (h1 : m.1.length = 2 ^ k) (h2 : m.2.length = 2 ^ k) (h3 : cka.length = 2 ^ k)
    (h4 : ckb.length = 2 ^ k) : gipaRun P (cka, ckb, kt) m = .ok true := by
  have e1 := L.lmc_ok cka m.1 (h3.trans h1.symm)
  have e2 := L.rmc_ok ckb m.2 (h4.trans h2.symm)
  have e3 := L.ip_ok m.1 m.2 (h1.trans h2.symm)
  have e4 := L.ipc_ok kt (dot (β · ·) m.1 m.2)
  rw [gipaRun]
  simp only [e1, e2, e3, e4, unwrapRes_ok, ok_bind]
  obtain ⟨proof, h, h'⟩ := Gipa.C11_complete_total L hd hs k m.1 m.2 _ cka ckb kt (_, _, _) h1 h2 h3 h4
    ⟨e3, e1, e2, e4⟩
  rw [h]; simp only [unwrapRes_ok, ok_bind, h']

theorem tipaRun_passes (V : Env ρ F G1 G2 GT TF) {φa : MA →ₗ[F] G2 →ₗ[F] OA} {φb : MB →ₗ[F] G1 →ₗ[F] OB}
    {P : Gipa ρ F MA MB T G2 G1 KT OA OB OT} (L : P.Lawful β φa φb ψ) (hE : V.E.Lawful e)
    (hd : ∀ x, 16 ≤ (P.digest x).length) (k : ℕ) (srs : SRS G1 G2) (g : G1) (h : G2) (α β' : F)
    (hsrs : IsSrs srs g h α β' (2 ^ (k + 1))) (kt : KT) (m : List MA × List MB)
    (h1 : m.1.length = 2 ^ (k + 1)) (h2 : m.2.length = 2 ^ (k + 1)) :
    tipaRun V P srs kt m = .error .diverge ∨ tipaRun V P srs kt m = .ok true := by
  obtain ⟨k1, k2, k3⟩ := C25_keys srs g h α β' _ Nat.one_le_two_pow hsrs
  have l1 : srs.commitmentKeys.1.length = 2 ^ (k + 1) := by simp [k1]
  have l2 : srs.commitmentKeys.2.length = 2 ^ (k + 1) := by simp [k2]
  have e1 := L.lmc_ok srs.commitmentKeys.1 m.1 (l1.trans h1.symm)
  have e2 := L.rmc_ok srs.commitmentKeys.2 m.2 (l2.trans h2.symm)
  have e3 := L.ip_ok m.1 m.2 (h1.trans h2.symm)
  have e4 := L.ipc_ok kt (dot (β · ·) m.1 m.2)
  rw [tipaRun]
  simp only [k3, e1, e2, e3, e4, unwrapRes_ok, ok_bind]
  rcases Tipa.C29_complete (V := V.tipa) L hE hd k srs g h α β' hsrs m.1 m.2 _ kt (_, _, _) h1 h2
    ⟨e3, e1, e2, e4⟩ with h | ⟨v, proof, hv, h, h'⟩
  · left; rw [h]; rfl
  · right
    rw [k3] at hv
    cases hv
    rw [h]; simp only [unwrapRes_ok, ok_bind, h']

end Generic

section
variable {ρ F G1 G2 GT TF : Type} [Field F] [DecidableEq F]
  [AddCommGroup G1] [Module F G1]
  [AddCommGroup G2] [Module F G2] [AddCommGroup GT] [Module F GT] [Monoid TF] [DecidableEq G1] [DecidableEq G2]
  [DecidableEq GT] {e : G1 →ₗ[F] G2 →ₗ[F] GT} (V : Env ρ F G1 G2 GT TF)

theorem assert_passes {x : Res Bool} (h : x = .error .diverge ∨ x = .ok true) :
    (do assert (← x) : Res Unit) = .error .diverge ∨ (do assert (← x) : Res Unit) = .ok () := by
  rcases h with h | h
  · left; rw [h]; rfl
  · right; rw [h]; rfl

/-- C105: the three GIPA tests pass for every seed and every power of two, unless a challenge search fails. -/
theorem C105_gipa (hE : V.E.Lawful e) (hd : ∀ x, 16 ≤ (V.digest x).length) (k : ℕ) (s : ρ) :
    (gipaTest V.pairingAB (drawBoth V.randG1 V.randG2) (2 ^ k) s = .error .diverge ∨
      gipaTest V.pairingAB (drawBoth V.randG1 V.randG2) (2 ^ k) s = .ok ()) ∧
    (gipaTest V.multiexpGipa (drawBoth V.randG1 V.randF) (2 ^ k) s = .error .diverge ∨
      gipaTest V.multiexpGipa (drawBoth V.randG1 V.randF) (2 ^ k) s = .ok ()) ∧
    (gipaTest V.scalarGipa (drawPairs V.randF V.randF) (2 ^ k) s = .error .diverge ∨
      gipaTest V.scalarGipa (drawPairs V.randF V.randF) (2 ^ k) s = .ok ()) := by
  obtain ⟨s1, s2, s3⟩ := C104_gipa V s (2 ^ k)
  refine ⟨?_, ?_, ?_⟩
  · rw [gipaTest, s1]
    have l := length_drawBoth V.randG1 V.randG2 (2 ^ k) (after V.randG1 (after V.randG2 s (2 ^ k)) (2 ^ k))
    exact assert_passes (gipaRun_passes (pairingAB_lawful V hE) hd k _ _ _ _ l.1 l.2 (by simp [draws])
      (by simp [draws]))
  · rw [gipaTest, s2]
    have l := length_drawBoth V.randG1 V.randF (2 ^ k) (after V.randG1 (after V.randG2 s (2 ^ k)) (2 ^ k))
    exact assert_passes (gipaRun_passes (multiexpGipa_lawful V hE) hd k _ _ _ _ l.1 l.2 (by simp [draws])
      (by simp [draws]))
  · rw [gipaTest, s3]
    have l := length_drawPairs V.randF V.randF (2 ^ k) (after V.randG2 (after V.randG2 s (2 ^ k)) (2 ^ k))
    exact assert_passes (gipaRun_passes (scalarGipa_lawful V) hd k _ _ _ _ l.1 l.2 (by simp [draws])
      (by simp [draws]))

/-- The toy GIPA test passes for every seed and size. -/
example (k s : ℕ) : gipaTest Toy.env.pairingAB (drawBoth Toy.rand Toy.rand) (2 ^ k) s = .ok () := by
  have l := length_drawBoth Toy.rand Toy.rand (2 ^ k) (after Toy.env.randG1 (after Toy.env.randG2 s (2 ^ k)) (2 ^ k))
  rw [gipaTest, (C104_gipa Toy.env s (2 ^ k)).1]
  simp only [unwrapRes_ok, ok_bind]
  rw [gipaRun_total (pairingAB_lawful Toy.env Toy.lawful) Toy.digest_length
    (searchEnds_of_digest _ Toy.digest_length Toy.digest_ne_zero) k _ _ _ _ l.1 l.2 (by simp [draws])
    (by simp [draws])]
  rfl

theorem tipaSetup_identity {T : Type} (s : ρ) (n : ℕ) (hn : 1 ≤ n) :
    ∃ srs s', tipaSetup V.randF V.g V.h (identityCommitment (T := T)) s n = .ok ((srs, PUnit.unit), s') ∧
      s' = after V.randF s 2 ∧ IsSrs srs V.g V.h (nth V.randF s 0) (nth V.randF s 1) n := by
  have h0 : n ≠ 0 := by omega
  refine ⟨⟨(List.range (2 * n - 1)).map fun i => nth V.randF s 0 ^ i • V.g,
        (List.range (2 * n - 1)).map fun i => nth V.randF s 1 ^ i • V.h,
        nth V.randF s 1 • V.g, nth V.randF s 0 • V.h⟩, _, ?_, rfl, ⟨rfl, rfl, rfl, rfl⟩⟩
  simp only [tipaSetup, if_neg h0, structuredGenerators_eq _ _ _ (show 0 < 2 * n - 1 by omega)]
  simp [identityCommitment, powers, Function.comp_def, unwrap, nth, after]

/-- C105: the three TIPA tests without shift. -/
theorem C105_tipa (hE : V.E.Lawful e) (hd : ∀ x, 16 ≤ (V.digest x).length) (k : ℕ) (s : ρ) :
    (tipaTest V V.pairingAB (drawBoth V.randG1 V.randG2) (2 ^ (k + 1)) s = .error .diverge ∨
      tipaTest V V.pairingAB (drawBoth V.randG1 V.randG2) (2 ^ (k + 1)) s = .ok ()) ∧
    (tipaTest V V.multiexpGipa (drawBoth V.randG1 V.randF) (2 ^ (k + 1)) s = .error .diverge ∨
      tipaTest V V.multiexpGipa (drawBoth V.randG1 V.randF) (2 ^ (k + 1)) s = .ok ()) ∧
    (tipaTest V V.scalarTipa (drawPairs V.randF V.randF) (2 ^ (k + 1)) s = .error .diverge ∨
      tipaTest V V.scalarTipa (drawPairs V.randF V.randF) (2 ^ (k + 1)) s = .ok ()) := by
  have hn : 1 ≤ 2 ^ (k + 1) := Nat.one_le_two_pow
  refine ⟨?_, ?_, ?_⟩
  · obtain ⟨srs, s', h, -, hs⟩ := tipaSetup_identity V (T := GT) s _ hn
    rw [tipaTest, show V.pairingAB.ipc = identityCommitment from rfl, h]
    have l := length_drawBoth V.randG1 V.randG2 (2 ^ (k + 1)) s'
    exact assert_passes (tipaRun_passes V (pairingAB_lawful V hE) hE hd k _ _ _ _ _ hs _ _ l.1 l.2)
  · obtain ⟨srs, s', h, -, hs⟩ := tipaSetup_identity V (T := G1) s _ hn
    rw [tipaTest, show V.multiexpGipa.ipc = identityCommitment from rfl, h]
    have l := length_drawBoth V.randG1 V.randF (2 ^ (k + 1)) s'
    exact assert_passes (tipaRun_passes V (multiexpGipa_lawful V hE) hE hd k _ _ _ _ _ hs _ _ l.1 l.2)
  · obtain ⟨srs, s', h, -, hs⟩ := tipaSetup_identity V (T := F) s _ hn
    rw [tipaTest, show V.scalarTipa.ipc = identityCommitment from rfl, h]
    have l := length_drawPairs V.randF V.randF (2 ^ (k + 1)) s'
    exact assert_passes (tipaRun_passes V (scalarTipa_lawful V) hE hd k _ _ _ _ _ hs _ _ l.1 l.2)

theorem shiftBoth_eq (r : F) (hr : r ≠ 0) (ma : List G1) (ck : List G2) :
    shiftBoth (powers r ck.length) ma ck =
      .ok (List.zipWith (fun a r => r • a) ma (powers r ck.length), ck.mapIdx fun i k => r⁻¹ ^ i • k) := by
  have hck : ((ck.zip (powers r ck.length)).mapM fun (p : G2 × F) => do
      return (← unwrap (inverse p.2)) • p.1 : Res (List G2)) =
      .ok (ck.mapIdx fun i k => r⁻¹ ^ i • k) := by
    rw [mapM_ok _ (fun p : G2 × F => p.2⁻¹ • p.1)]
    · rw [← Groth16.powers_zip_inv]
    · intro p hp
      have := (List.of_mem_zip hp).2
      simp only [powers, List.mem_map] at this
      obtain ⟨i, -, hi⟩ := this
      have h0 : p.2 ≠ 0 := by rw [← hi]; exact pow_ne_zero _ hr
      simp [inverse_of_ne h0]
  rw [shiftBoth, hck]; rfl

theorem shiftBoth_zero (n : ℕ) (hn : 2 ≤ n) (ma : List G1) (ck : List G2) (hl : ck.length = n) :
    shiftBoth (powers (0 : F) n) ma ck = panic' .unwrap := by
  obtain ⟨n, rfl⟩ : ∃ m, n = m + 2 := ⟨n - 2, by omega⟩
  match ck, hl with
  | a :: b :: ck, _ =>
    have : powers (0 : F) (n + 2) = 1 :: 0 :: ((List.range n).map fun i => (0 : F) ^ (i + 2)) := by
      simp only [powers, List.range_succ_eq_map, List.map_cons, List.map_map, pow_zero, pow_one,
        List.cons.injEq, true_and]
      rfl
    rw [shiftBoth, this]
    simp only [List.zip_cons_cons, List.mapM_cons, inverse, one_ne_zero, if_false, if_true, unwrap]
    rfl

theorem tipaShiftRun_passes (hE : V.E.Lawful e) (hd : ∀ x, 16 ≤ (V.digest x).length) (k : ℕ) (check : Bool)
    (srs : SRS G1 G2) (g : G1) (h : G2) (α β : F) (hsrs : IsSrs srs g h α β (2 ^ (k + 1)))
    (m : List G1 × List G2) (h1 : m.1.length = 2 ^ (k + 1)) (h2 : m.2.length = 2 ^ (k + 1)) (s : ρ) :
    (nth V.randF s 0 = 0 ∧ tipaShiftRun V V.pairingAB check srs PUnit.unit m (2 ^ (k + 1)) s = panic' .unwrap) ∨
    nth V.randF s 0 ≠ 0 ∧
    (tipaShiftRun V V.pairingAB check srs PUnit.unit m (2 ^ (k + 1)) s = .error .diverge ∨
      tipaShiftRun V V.pairingAB check srs PUnit.unit m (2 ^ (k + 1)) s = .ok (true, after V.randF s 1)) := by
  obtain ⟨k1, k2, k3⟩ := C25_keys srs g h α β _ Nat.one_le_two_pow hsrs
  have l1 : srs.commitmentKeys.1.length = 2 ^ (k + 1) := by simp [k1]
  have l2 : srs.commitmentKeys.2.length = 2 ^ (k + 1) := by simp [k2]
  have L := pairingAB_lawful V hE
  have e1 := L.lmc_ok srs.commitmentKeys.1 m.1 (l1.trans h1.symm)
  have e2 := L.rmc_ok srs.commitmentKeys.2 m.2 (l2.trans h2.symm)
  have hr0 : (V.randF s).1 = nth V.randF s 0 := rfl
  have hpw : ∀ r : F, structuredScalarPower (2 ^ (k + 1)) r = .ok (powers r (2 ^ (k + 1))) := fun r => by
    rw [structuredScalarPower_eq, max_eq_right Nat.one_le_two_pow]
  by_cases hr : nth V.randF s 0 = 0
  · left
    refine ⟨hr, ?_⟩
    rw [tipaShiftRun]
    simp only [k3, e1, e2, unwrapRes_ok, ok_bind, hpw, hr0, hr]
    rw [shiftBoth_zero _ (by rw [pow_succ]; have := Nat.one_le_two_pow (n := k); omega) _ _ l1]
    rfl
  · right
    refine ⟨hr, ?_⟩
    set r := nth V.randF s 0 with hrdef
    set ma' := List.zipWith (fun (a : G1) (r : F) => r • a) m.1 (powers r (2 ^ (k + 1))) with hma
    set ck' := srs.commitmentKeys.1.mapIdx fun i k => r⁻¹ ^ i • k with hck
    have l3 : ma'.length = 2 ^ (k + 1) := by simp [hma, h1, powers]
    have l4 : ck'.length = 2 ^ (k + 1) := by simp [hck, l1]
    have e3 := L.ip_ok ma' m.2 (l3.trans h2.symm)
    have e4 := L.ipc_ok PUnit.unit (dot (e · ·) ma' m.2)
    have e5 := L.lmc_ok ck' ma' (l4.trans l3.symm)
    have hsc : dot (e · ·) ma' ck' = dot (e · ·) m.1 srs.commitmentKeys.1 := by
      have := Groth16.dot_scaled_keys e r hr m.1 srs.commitmentKeys.1 (h1.trans l1.symm)
      rwa [h1] at this
    have hsh := shiftBoth_eq r hr m.1 srs.commitmentKeys.1
    rw [l1] at hsh
    rw [tipaShiftRun]
    simp only [k3, e1, e2, unwrapRes_ok, ok_bind, hpw, hr0]
    rw [hsh]
    simp only [ok_bind, ← hma, ← hck, e3, e4, unwrapRes_ok, Commitment.verify, e5, hsc, decide_true, pure_eq_ok,
      assert_true, ite_self]
    rcases Tipa.C29_complete_shift (V := V.tipa) L hE hd k srs g h α β r hr hsrs ma' m.2 _ PUnit.unit (_, _, _) l3 h2
      ⟨e3, e5.trans (congrArg Except.ok hsc), e2, e4⟩ with h | ⟨v, proof, hv, h, h'⟩
    · left
      rw [h]; rfl
    · right
      rw [k3] at hv
      cases hv
      rw [h]; simp only [unwrapRes_ok, ok_bind]; erw [h']; rfl

/-- C105: the test with a shifted reference string passes, unless a challenge search fails, exactly if the random
shift is not zero; for zero it panics at `inverse().unwrap()`. The shift is the draw after the messages. -/
theorem C105_shift (hE : V.E.Lawful e) (hd : ∀ x, 16 ≤ (V.digest x).length) (k : ℕ) (s : ρ) :
    let r := nth V.randF (after V.randG2 (after V.randG1 (after V.randF s 2) (2 ^ (k + 1))) (2 ^ (k + 1))) 0
    let run := tipaShiftTest V V.pairingAB (drawBoth V.randG1 V.randG2) (2 ^ (k + 1)) s
    (r = 0 → run = panic' .unwrap) ∧ (r ≠ 0 → run = .error .diverge ∨ run = .ok ()) := by
  intro r run
  obtain ⟨srs, s', h, rfl, hs⟩ := tipaSetup_identity V (T := GT) s (2 ^ (k + 1)) Nat.one_le_two_pow
  have l := length_drawBoth V.randG1 V.randG2 (2 ^ (k + 1)) (after V.randF s 2)
  have hst : (drawBoth V.randG1 V.randG2 (2 ^ (k + 1)) (after V.randF s 2)).2 =
      after V.randG2 (after V.randG1 (after V.randF s 2) (2 ^ (k + 1))) (2 ^ (k + 1)) := by
    simp only [drawBoth, C104_random_generators]
  have hrun : run = (do
      let (ok, _) ← tipaShiftRun V V.pairingAB true srs PUnit.unit
        (drawBoth V.randG1 V.randG2 (2 ^ (k + 1)) (after V.randF s 2)).1 (2 ^ (k + 1))
        (drawBoth V.randG1 V.randG2 (2 ^ (k + 1)) (after V.randF s 2)).2
      assert ok) := by
    simp only [run]
    rw [tipaShiftTest, show V.pairingAB.ipc = identityCommitment from rfl, h]
    rfl
  rw [hst] at hrun
  rcases tipaShiftRun_passes V hE hd k true srs _ _ _ _ hs _ l.1 l.2
    (after V.randG2 (after V.randG1 (after V.randF s 2) (2 ^ (k + 1))) (2 ^ (k + 1))) with ⟨h0, h'⟩ | ⟨h0, h' | h'⟩
  · exact ⟨fun _ => by rw [hrun, h']; rfl, fun hne => absurd h0 hne⟩
  · exact ⟨fun h => absurd h h0, fun _ => .inl (by rw [hrun, h']; rfl)⟩
  · exact ⟨fun h => absurd h h0, fun _ => .inr (by rw [hrun, h']; rfl)⟩

theorem tipaSsmRun_passes (hE : V.E.Lawful e) (hd : ∀ x, 16 ≤ (V.digest x).length) (k : ℕ) (srs : SRS G1 G2) (g : G1)
    (h : G2) (α β : F) (hsrs : IsSrs srs g h α β (2 ^ (k + 1))) (ma : List G1) (h1 : ma.length = 2 ^ (k + 1)) (b : F) :
    tipaSsmRun V V.multiexpSsm srs PUnit.unit ma b (powers b (2 ^ (k + 1))) = .error .diverge ∨
    tipaSsmRun V V.multiexpSsm srs PUnit.unit ma b (powers b (2 ^ (k + 1))) = .ok true := by
  obtain ⟨k1, k2, k3⟩ := C25_keys srs g h α β _ Nat.one_le_two_pow hsrs
  have l1 : srs.commitmentKeys.1.length = 2 ^ (k + 1) := by simp [k1]
  have L := multiexpSsm_lawful V hE
  have lp : (powers b (2 ^ (k + 1))).length = 2 ^ (k + 1) := by simp [powers]
  have e1 := L.lmc_ok srs.commitmentKeys.1 ma (l1.trans h1.symm)
  have e3 := L.ip_ok ma (powers b (2 ^ (k + 1))) (h1.trans lp.symm)
  have e4 := L.ipc_ok PUnit.unit (dot (fun g s => s • g) ma (powers b (2 ^ (k + 1))))
  rw [tipaSsmRun]
  simp only [k3, e1, e3, unwrapRes_ok, ok_bind]
  erw [e4]
  simp only [unwrapRes_ok, ok_bind]
  rcases TipaSsm.C34_complete (V := V.tipa) L hE hd V.X k srs g h α β (IsSrs.left Nat.one_le_two_pow hsrs) ma
    (powers b (2 ^ (k + 1))) b _ PUnit.unit _ _ h1
    (by rw [structuredScalarPower_eq, max_eq_right Nat.one_le_two_pow])
    ⟨by rw [h1]; exact e3, e1, e4⟩ with h | ⟨v, proof, hv, h, h'⟩
  · left; rw [h]; rfl
  · right
    rw [k3] at hv
    cases hv
    rw [h]; simp only [unwrapRes_ok, ok_bind]; erw [h']; rfl

/-- C105: the two tests with a structured scalar message. -/
theorem C105_ssm (hE : V.E.Lawful e) (hd : ∀ x, 16 ≤ (V.digest x).length) (k : ℕ) (s : ρ) :
    (tipaSsmTest V V.multiexpSsm V.randG1 (2 ^ (k + 1)) s = .error .diverge ∨
      tipaSsmTest V V.multiexpSsm V.randG1 (2 ^ (k + 1)) s = .ok ()) ∧
    (gipaSsmTest V.X V.scalarSsm V.randF V.randF (2 ^ k) s = .error .diverge ∨
      gipaSsmTest V.X V.scalarSsm V.randF V.randF (2 ^ k) s = .ok ()) := by
  have hpw : ∀ (k : ℕ) (r : F), structuredScalarPower (2 ^ k) r = .ok (powers r (2 ^ k)) := fun k r => by
    rw [structuredScalarPower_eq, max_eq_right Nat.one_le_two_pow]
  constructor
  · obtain ⟨srs, s', h, -, hs⟩ := tipaSetup_identity V (T := G1) s (2 ^ (k + 1)) Nat.one_le_two_pow
    rw [tipaSsmTest, show V.multiexpSsm.ipc = identityCommitment from rfl, h]
    simp only [unwrapRes_ok, ok_bind, hpw]
    exact assert_passes (tipaSsmRun_passes V hE hd k srs _ _ _ _ hs _ (length_randomGenerators _ _ _) _)
  · have hset : GipaSsm.setup V.scalarSsm.lmc V.scalarSsm.ipc s (2 ^ k) =
        .ok ((draws V.randG1 s (2 ^ k), PUnit.unit), after V.randG1 s (2 ^ k)) := by
      simp [GipaSsm.setup, Env.scalarSsm, ssmGipa, pedersen, identityCommitment, C104_random_generators, unwrap]
    rw [gipaSsmTest, hset]
    set s' := after V.randG1 s (2 ^ k)
    set ck := draws V.randG1 s (2 ^ k) with hck
    have l1 : ck.length = 2 ^ k := by simp [hck, draws]
    have h1 := length_randomGenerators V.randF s' (2 ^ k)
    rcases hr : randomGenerators V.randF s' (2 ^ k) with ⟨ma, s2⟩
    rcases hb : V.randF s2 with ⟨b, s3⟩
    rw [hr] at h1
    simp only at h1
    have L := scalarSsm_lawful V
    have lp : (powers b (2 ^ k)).length = 2 ^ k := by simp [powers]
    have e1 := L.lmc_ok ck ma (l1.trans h1.symm)
    have e3 := L.ip_ok ma (powers b (2 ^ k)) (h1.trans lp.symm)
    have e4 := L.ipc_ok PUnit.unit (dot (· * ·) ma (powers b (2 ^ k)))
    simp only [unwrapRes_ok, ok_bind, hpw, hr, hb, e1, e3]
    erw [e4]
    simp only [unwrapRes_ok, ok_bind]
    rcases GipaSsm.C33_complete L hd V.X k ma (powers b (2 ^ k)) b _ ck PUnit.unit _ _ h1 l1 (hpw k b)
      ⟨by rw [h1]; exact e3, e1, e4⟩ with h | ⟨proof, h, h'⟩
    · left; rw [h]; rfl
    · right
      rw [h]; simp only [unwrapRes_ok, ok_bind]; erw [h']; rfl

/-! ## C105: polynomial commitments and SIPP -/

theorem drawRows_spec (randF : ρ → F × ρ) (m : ℕ) : ∀ (n : ℕ) (s : ρ),
    (drawRows randF m n s).1.length = n ∧
      ∀ p ∈ (drawRows randF m n s).1, p.getLast? ≠ some 0 ∧ p.length ≤ m
  | 0, _ => ⟨rfl, by simp [drawRows]⟩
  | n + 1, s => by
    have ih := drawRows_spec randF m n (randomGenerators randF s m).2
    have h : (drawRows randF m (n + 1) s).1 = polyOf (randomGenerators randF s m).1 ::
        (drawRows randF m n (randomGenerators randF s m).2).1 := rfl
    rw [h]
    refine ⟨congrArg (· + 1) ih.1, ?_⟩
    intro p hp
    rcases List.mem_cons.mp hp with rfl | hp
    · exact ⟨getLast?_trim _, (length_trim_le _).trans (length_randomGenerators _ _ _).le⟩
    · exact ih.2 p hp

/-- C105: the tests of the polynomial commitments; every degree in `x` that is a power of two minus one (the tests use
7), for the transparent scheme also in `y`, and every degree of the univariate schemes up to `2^52 - 1` (65535). -/
theorem C105_polynomials (hE : V.E.Lawful e) (hd : ∀ x, 16 ≤ (V.digest x).length) (s : ρ) :
    (∀ k x y, x + 1 = 2 ^ (k + 1) → bivariateTest V x y s = .error .diverge ∨ bivariateTest V x y s = .ok ()) ∧
    (∀ k l x y, x + 1 = 2 ^ k → y + 1 = 2 ^ l →
      tBivariateTest V x y s = .error .diverge ∨ tBivariateTest V x y s = .ok ()) ∧
    (∀ d, 1 ≤ d → d + 1 ≤ 2 ^ 52 → univariateTest V d s = .error .diverge ∨ univariateTest V d s = .ok ()) ∧
    (∀ d, 1 ≤ d → d + 1 ≤ 2 ^ 52 → tUnivariateTest V d s = .error .diverge ∨ tUnivariateTest V d s = .ok ()) := by
  refine ⟨fun k x y hx => ?_, fun k l x y hx hy => ?_, fun d h1 h2 => ?_, fun d h1 h2 => ?_⟩
  · obtain ⟨srs, α, β, s', hset, -⟩ := Bivariate.C41_setup V s x y
    obtain ⟨hl, hrow⟩ := drawRows_spec V.randF (y + 1) (x + 1) s'
    rw [bivariateTest, hset]
    simp only [unwrapRes_ok, ok_bind]
    obtain ⟨com, coms, v, c1, c2, c3⟩ := Bivariate.C41_end_to_end V hE hd k s s' srs x y hset hx
      (drawRows V.randF (y + 1) (x + 1) s').1 hl.le hrow
      ((V.randF (drawRows V.randF (y + 1) (x + 1) s').2).1,
        (V.randF (V.randF (drawRows V.randF (y + 1) (x + 1) s').2).2).1)
    simp only [c1, c2, unwrapRes_ok, ok_bind]
    rcases c3 with h | ⟨proof, h, h'⟩
    · left; rw [h]; rfl
    · right; rw [h]; simp only [unwrapRes_ok, ok_bind]; rw [h']; rfl
  · obtain ⟨ck, s', hset, l1, l2⟩ := TBivariate.C47_setup V s x y
    obtain ⟨hl, hrow⟩ := drawRows_spec V.randF (y + 1) (x + 1) s'
    rw [tBivariateTest, hset]
    simp only [unwrapRes_ok, ok_bind]
    obtain ⟨com, coms, c1, c3⟩ := TBivariate.C47_complete V hE hd k l ck (l1.trans hy) (l2.trans hx)
      (drawRows V.randF (y + 1) (x + 1) s').1 (hl.le.trans l2.ge) (fun p hp => (hrow p hp).2.trans l1.ge)
      ((V.randF (drawRows V.randF (y + 1) (x + 1) s').2).1,
        (V.randF (V.randF (drawRows V.randF (y + 1) (x + 1) s').2).2).1)
    rw [← C40_evaluate] at c3
    simp only [c1, unwrapRes_ok, ok_bind]
    rcases c3 with h | ⟨proof, h, h'⟩
    · left; rw [h]; rfl
    · right; rw [h]; simp only [unwrapRes_ok, ok_bind]; rw [h']; rfl
  · obtain ⟨x, y, -, -, -, e1, -⟩ := C43_degrees d h1 h2
    obtain ⟨srs, α, β, s', hset, -⟩ := Bivariate.C41_setup V s x y
    have hset : Univariate.setup V s d = .ok (srs, s') := by rw [Univariate.setup, e1]; exact hset
    rw [univariateTest, hset]
    simp only [unwrapRes_ok, ok_bind]
    obtain ⟨com, coms, v, c1, c2, c3⟩ := Univariate.C45_complete V hE hd s s' d srs h1 h2 hset
      (polyOf (randomGenerators V.randF s' (d + 1)).1)
      ((length_trim_le _).trans (length_randomGenerators _ _ _).le)
      (V.randF (randomGenerators V.randF s' (d + 1)).2).1
    simp only [c1, c2, unwrapRes_ok, ok_bind, ← evalAt_eq]
    rcases c3 with h | ⟨proof, h, h'⟩
    · left; rw [h]; rfl
    · right; rw [h]; simp only [unwrapRes_ok, ok_bind]; rw [h']; rfl
  · obtain ⟨x, y, -, -, -, e1, -⟩ := C43_degrees_transparent d h1 h2
    obtain ⟨ck, s', hset, -⟩ := TBivariate.C47_setup V s x y
    have hset : TUnivariate.setup V s d = .ok (ck, s') := by rw [TUnivariate.setup, e1]; exact hset
    rw [tUnivariateTest, hset]
    simp only [unwrapRes_ok, ok_bind]
    obtain ⟨com, coms, c1, c3⟩ := TUnivariate.C47_complete V hE hd s s' d ck h1 h2 hset
      (polyOf (randomGenerators V.randF s' (d + 1)).1)
      ((length_trim_le _).trans (length_randomGenerators _ _ _).le)
      (V.randF (randomGenerators V.randF s' (d + 1)).2).1
    simp only [c1, unwrapRes_ok, ok_bind, ← evalAt_eq]
    rcases c3 with h | ⟨proof, h, h'⟩
    · left; rw [h]; rfl
    · right; rw [h]; simp only [unwrapRes_ok, ok_bind]; rw [h']; rfl

theorem length_drawTriples {τ : Type} (rand1 : τ → G1 × τ) (rand2 : τ → G2 × τ) (randF : τ → F × τ) : ∀ (n : ℕ) (s : τ),
    (drawTriples rand1 rand2 randF n s).1.length = n ∧ (drawTriples rand1 rand2 randF n s).2.1.length = n ∧
      (drawTriples rand1 rand2 randF n s).2.2.length = n
  | 0, _ => ⟨rfl, rfl, rfl⟩
  | n + 1, s => by
    have ih := length_drawTriples rand1 rand2 randF n (randF (rand2 (rand1 s).2).2).2
    exact ⟨congrArg (· + 1) ih.1, congrArg (· + 1) ih.2.1, congrArg (· + 1) ih.2.2⟩

/-- C105: the SIPP test passes for every seed and every power of two from two on, or panics at the inverse of a zero
challenge. -/
theorem C105_sipp {σ τ : Type} (V : Sipp.Env σ F G1 G2 GT TF) (hE : V.E.Lawful e) (rand1 : τ → G1 × τ)
    (rand2 : τ → G2 × τ) (randF : τ → F × τ) (k : ℕ) (s : τ) :
    sippTest V rand1 rand2 randF (2 ^ (k + 1)) s = .ok () ∨
      (sippTest V rand1 rand2 randF (2 ^ (k + 1)) s = panic' .unwrap ∧
        let (a, b, r) := drawTriples rand1 rand2 randF (2 ^ (k + 1)) s
        ∃ zs : List (GT × GT), zs.length ≤ k + 1 ∧
          (0 : F) ∈ (Sipp.challenges V (Sipp.Rng.fromSeed V (Sipp.seedBytes V a b r (Sipp.product e a b r))) zs : List F)) := by
  obtain ⟨l1, l2, l3⟩ := length_drawTriples rand1 rand2 randF (2 ^ (k + 1)) s
  rw [sippTest]
  generalize drawTriples rand1 rand2 randF (2 ^ (k + 1)) s = abr at l1 l2 l3 ⊢
  obtain ⟨a, b, r⟩ := abr
  simp only at l1 l2 l3 ⊢
  rw [Sipp.C54_with_coeffs hE a b r (l1.trans l2.symm) (l1.trans l3.symm).le]
  simp only [ok_bind]
  obtain ⟨zs, hl, ⟨h, h0⟩ | ⟨h, -, h'⟩⟩ := Sipp.C55_complete hE (k + 1) (by omega) a b r l1 l2 l3.ge
  · right; rw [h]; exact ⟨rfl, zs, hl, h0⟩
  · left
    rw [h]
    simp only [isErr_ok, unwrapRes_ok, ok_bind, Bool.not_false, assert_true]
    rw [h']; rfl

end
end Ripp
