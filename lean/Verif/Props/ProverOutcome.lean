import Verif.Props.Outcome
import Verif.Props.ProveLengths
import Verif.Lemmas.ProverCostBounds

/-!
# C127: every outcome of the provers

For every input of every prover it is stated whether it returns a proof and, if not, with which error value or
panic it ends. The outcome depends on the lengths of the arguments only, apart from the checks of `GIPA::prove` and
the challenge of the aggregation.
-/

set_option linter.unusedSectionVars false

namespace Ripp

open Spec

/-- The call returns a value for `none` and ends with the fault `f` for `some f`; if `m`, it may also have tried all
`2^64` nonces without success. -/
def Ends {α : Type} (m : Prop) (o : Option Fault) (x : Res α) : Prop :=
  (m ∧ x = .error .diverge) ∨ (o = none ∧ ∃ a, x = .ok a) ∨ ∃ f, o = some f ∧ x = .error f

namespace Ends

variable {α β : Type} {m : Prop} {o : Option Fault}

theorem ok (a : α) : Ends m none (.ok a : Res α) := .inr (.inl ⟨rfl, a, rfl⟩)

theorem fault (f : Fault) : Ends m (some f) (.error f : Res α) := .inr (.inr ⟨f, rfl, rfl⟩)

theorem diverge (hm : m) : Ends m o (.error .diverge : Res α) := .inl ⟨hm, rfl⟩

/-- A fault of the first call ends the whole. -/
theorem bind {x : Res α} {g : α → Res β} {p q : Option Fault} (hx : Ends m p x)
    (hg : p = none → ∀ a, x = .ok a → Ends m q (g a)) : Ends m (p.or q) (x >>= g) := by
  rcases hx with ⟨hm, rfl⟩ | ⟨rfl, a, rfl⟩ | ⟨f, rfl, rfl⟩
  · exact .diverge hm
  · simpa using hg rfl a rfl
  · exact .fault f

theorem bind_ok {x : Res α} {g : α → Res β} {a : α} (hx : x = .ok a) (hg : Ends m o (g a)) : Ends m o (x >>= g) := by
  rw [hx]; exact hg

theorem congr {p q : Option Fault} {x : Res α} (h : Ends m p x) (e : p = q) : Ends m q x := e ▸ h

/-- If no search can run out of nonces, the outcome is the stated one. -/
theorem iff {x : Res α} (h : Ends False o x) : ((∃ a, x = .ok a) ↔ o = none) ∧ ∀ f, x = .error f ↔ o = some f := by
  rcases h with ⟨hm, -⟩ | ⟨rfl, a, rfl⟩ | ⟨f, rfl, rfl⟩
  · exact hm.elim
  · simp
  · simp

end Ends

/-- The length error of the inner products. -/
def lengthFault (l r : ℕ) : Option Fault := if l = r then none else some (.ipLength l r)

theorem lengthFault_none {l r : ℕ} (h : lengthFault l r = none) : l = r := by
  by_contra hne
  simp [lengthFault, hne] at h

@[simp] theorem lengthFault_self (l : ℕ) : lengthFault l l = none := by simp [lengthFault]

namespace Gipa

variable {ρ F MA MB T KA KB KT OA OB OT : Type} [Field F] [DecidableEq F]
  [AddCommGroup MA] [Module F MA] [AddCommGroup MB] [Module F MB]
  [AddCommGroup T] [Module F T] [AddCommGroup KA] [Module F KA] [AddCommGroup KB] [Module F KB]
  [AddCommGroup OA] [Module F OA] [AddCommGroup OB] [Module F OB] [Add OT] [SMul F OT]
  {P : Gipa ρ F MA MB T KA KB KT OA OB OT}
  {β : MA →ₗ[F] MB →ₗ[F] T} {φa : MA →ₗ[F] KA →ₗ[F] OA} {φb : MB →ₗ[F] KB →ₗ[F] OB}
  {ψ : KT → T → OT} {m : Prop} {eL eR eI : ℕ → ℕ → Option Fault}

/-- How the commitments and the inner product end for lists of different lengths; `eL` and `eR` get the length of the
key and then that of the message. -/
structure Checks (P : Gipa ρ F MA MB T KA KB KT OA OB OT) (eL eR eI : ℕ → ℕ → Option Fault) : Prop where
  lmc : ∀ k m f, eL k.length m.length = some f → P.lmc.commit k m = .error f
  rmc : ∀ k m f, eR k.length m.length = some f → P.rmc.commit k m = .error f
  ip : ∀ a b f, eI a.length b.length = some f → P.ip a b = .error f
  lmc_none : ∀ {k m}, eL k m = none → k = m
  ip_none : ∀ {a b}, eI a b = none → a = b
  rmc_none : ∀ k m, eR k.length m.length = none → ∃ o, P.rmc.commit k m = .ok o

open Classical in
/-- How the recursive prover ends for messages of lengths `a`, `b` and keys of lengths `ka`, `kb`. -/
noncomputable def proveFault (eL eR eI : ℕ → ℕ → Option Fault) (a b ka kb : ℕ) : Option Fault :=
  if ∀ k, a ≠ 2 ^ k then some (.panic .assertion)
  else if a = 1 then if b = 0 ∨ ka = 0 ∨ kb = 0 then some (.panic .bounds) else none
  else if b < a / 2 ∨ ka < a / 2 ∨ kb < a / 2 then some (.panic .bounds)
  else ((eR (kb - a / 2) (a / 2)).or (eL (ka - a / 2) (a / 2))).or
    ((eR (a / 2) (b - a / 2)).or (eI (a / 2) (b - a / 2)))

theorem round_fault (L : P.Lawful β φa φb ψ) (C : P.Checks eL eR eI) (kt : KT) (s : ℕ)
    (st : ProveState F MA MB KA KB OA OB OT) (h1 : st.ma.length = 2 * s) (h2 : s ≤ st.mb.length)
    (h3 : s ≤ st.cka.length) (h4 : s ≤ st.ckb.length) (f : Fault)
    (hf : ((eR (st.ckb.length - s) s).or (eL (st.cka.length - s) s)).or
      ((eR s (st.mb.length - s)).or (eI s (st.mb.length - s))) = some f) :
    P.proveRound [kt] st = .error f := by
  have hdiv : 2 * s / 2 = s := by omega
  simp only [proveRound, h1, hdiv]
  rw [sliceFrom_of_le st.ma _ (by omega), sliceTo_of_le st.ma _ (by omega),
    sliceTo_of_le st.cka _ h3, sliceFrom_of_le st.cka _ h3, sliceTo_of_le st.mb _ h2, sliceFrom_of_le st.mb _ h2,
    sliceFrom_of_le st.ckb _ h4, sliceTo_of_le st.ckb _ h4]
  simp only [ok_bind]
  rw [L.lmc_ok (st.cka.take s) (st.ma.drop s) (by simp; omega)]
  simp only [ok_bind]
  have l1 : (st.ckb.drop s).length = st.ckb.length - s := by simp
  have l2 : (st.mb.take s).length = s := by simp [h2]
  have l3 : (st.cka.drop s).length = st.cka.length - s := by simp
  have l4 : (st.ma.take s).length = s := by simp; omega
  have l5 : (st.ckb.take s).length = s := by simp [h4]
  have l6 : (st.mb.drop s).length = st.mb.length - s := by simp
  cases e1 : eR (st.ckb.length - s) s with
  | some f' =>
    rw [C.rmc (st.ckb.drop s) (st.mb.take s) f' (by rw [l1, l2]; exact e1)]
    rw [e1] at hf
    simp only [Option.some_or, Option.some.injEq] at hf
    rw [hf]; rfl
  | none =>
    obtain ⟨o1, ho1⟩ := C.rmc_none (st.ckb.drop s) (st.mb.take s) (by rw [l1, l2]; exact e1)
    rw [ho1, L.ip_ok (st.ma.drop s) (st.mb.take s) (by simp; omega)]
    simp only [ok_bind, L.ipc_ok]
    rw [e1, Option.none_or] at hf
    cases e2 : eL (st.cka.length - s) s with
    | some f' =>
      rw [C.lmc (st.cka.drop s) (st.ma.take s) f' (by rw [l3, l4]; exact e2)]
      rw [e2] at hf
      simp only [Option.some_or, Option.some.injEq] at hf
      rw [hf]; rfl
    | none =>
      rw [L.lmc_ok (st.cka.drop s) (st.ma.take s) (by rw [l3, l4]; exact C.lmc_none e2)]
      simp only [ok_bind]
      rw [e2, Option.none_or] at hf
      cases e3 : eR s (st.mb.length - s) with
      | some f' =>
        rw [C.rmc (st.ckb.take s) (st.mb.drop s) f' (by rw [l5, l6]; exact e3)]
        rw [e3] at hf
        simp only [Option.some_or, Option.some.injEq] at hf
        rw [hf]; rfl
      | none =>
        obtain ⟨o2, ho2⟩ := C.rmc_none (st.ckb.take s) (st.mb.drop s) (by rw [l5, l6]; exact e3)
        rw [e3, Option.none_or] at hf
        rw [ho2, C.ip (st.ma.take s) (st.mb.drop s) f (by rw [l4, l6]; exact hf)]
        rfl

theorem searchEnds (hm : P.Searches m) (hmm : ¬ m) : P.SearchEnds :=
  fun _ _ _ _ _ h => hmm (hm _ _ _ h)

theorem proveFault_none (C : P.Checks eL eR eI) {a b ka kb : ℕ} (hkb : kb = b ∨ ∀ k m, eR k m = none → k = m)
    (h : proveFault eL eR eI a b ka kb = none) : a = 1 ∨ ∃ k, a = 2 ^ (k + 1) ∧ b = a ∧ ka = a ∧ kb = a := by
  rw [proveFault] at h
  split_ifs at h with p1 p2 p3 p4
  · exact .inl p2
  · push Not at p1 p4
    obtain ⟨k, hk⟩ := p1
    obtain _ | k := k
    · exact absurd hk p2
    have h2 : (2 : ℕ) ^ (k + 1) = 2 * 2 ^ k := by rw [pow_succ]; ring
    have hs : a / 2 = 2 ^ k := by rw [hk, h2, Nat.mul_div_cancel_left _ (by norm_num)]
    have hpos := Nat.two_pow_pos k
    obtain ⟨s1, s2, s3⟩ := p4
    rw [hs] at s1 s2 s3 h
    simp only [Option.or_eq_none_iff] at h
    obtain ⟨⟨f1, f2⟩, f3, f4⟩ := h
    have l1 := C.lmc_none f2
    have l2 := C.ip_none f4
    refine .inr ⟨k, hk, by omega, by omega, ?_⟩
    rcases hkb with h | h
    · omega
    · have := h _ _ f1
      omega

open Classical in
/-- With lists of one length only the power of two matters. -/
theorem proveFault_same (hL : ∀ k, eL k k = none) (hR : ∀ k, eR k k = none) (hI : ∀ k, eI k k = none) (n : ℕ) :
    proveFault eL eR eI n n n n = if ∀ k, n ≠ 2 ^ k then some (.panic .assertion) else none := by
  rw [proveFault]
  by_cases p1 : ∀ k, n ≠ 2 ^ k
  · rw [if_pos p1, if_pos p1]
  rw [if_neg p1, if_neg p1]
  push Not at p1
  obtain ⟨k, hk⟩ := p1
  obtain _ | k := k
  · simp [hk]
  have h2 : (2 : ℕ) ^ (k + 1) = 2 * 2 ^ k := by rw [pow_succ]; ring
  have hpos := Nat.two_pow_pos k
  have hs : n - n / 2 = n / 2 := by omega
  rw [if_neg (by omega), if_neg (by omega), hs, hL, hR, hI]
  rfl

/-- C127: the recursive prover `GIPA::prove_with_aux`. If the right commitment does not compare lengths, its key must be as long as the
message. -/
theorem C127_gipa (L : P.Lawful β φa φb ψ) (C : P.Checks eL eR eI) (hd : ∀ x, 16 ≤ (P.digest x).length)
    (hm : P.Searches m) (ma : List MA) (mb : List MB) (cka : List KA) (ckb : List KB) (kt : KT)
    (hkb : ckb.length = mb.length ∨ ∀ k m, eR k m = none → k = m) :
    Ends m (proveFault eL eR eI ma.length mb.length cka.length ckb.length)
      (P.proveWithAux ma mb cka ckb [kt]) := by
  rw [proveFault]
  split_ifs with p1 p2 p3 p4
  · rw [C73_not_power_of_two P ma mb cka ckb [kt] p1]
    exact .fault _
  · obtain ⟨a, rfl⟩ := List.length_eq_one_iff.mp p2
    rw [C73_length_one]
    rcases mb with _ | ⟨b, mb⟩ <;> rcases cka with _ | ⟨ka, cka⟩ <;> rcases ckb with _ | ⟨kb, ckb⟩ <;>
      first | exact .fault _ | simp at p3
  · obtain ⟨a, rfl⟩ := List.length_eq_one_iff.mp p2
    rw [C73_length_one]
    rcases mb with _ | ⟨b, mb⟩ <;> rcases cka with _ | ⟨ka, cka⟩ <;> rcases ckb with _ | ⟨kb, ckb⟩ <;>
      first | exact .ok _ | simp at p3
  · push Not at p1
    obtain ⟨k, hk⟩ := p1
    obtain _ | k := k
    · exact absurd hk p2
    have h2 : (2 : ℕ) ^ (k + 1) = 2 * 2 ^ k := by rw [pow_succ]; ring
    rw [C73_too_short P k ma mb cka ckb [kt] hk (by
      rw [hk, h2, Nat.mul_div_cancel_left _ (by norm_num)] at p4; exact p4)]
    exact .fault _
  · push Not at p1 p4
    obtain ⟨k, hk⟩ := p1
    obtain _ | k := k
    · exact absurd hk p2
    have h2 : (2 : ℕ) ^ (k + 1) = 2 * 2 ^ k := by rw [pow_succ]; ring
    have hs : ma.length / 2 = 2 ^ k := by rw [hk, h2, Nat.mul_div_cancel_left _ (by norm_num)]
    have hpos := Nat.two_pow_pos k
    obtain ⟨s1, s2, s3⟩ := p4
    rw [hs] at s1 s2 s3 ⊢
    cases hf : ((eR (ckb.length - 2 ^ k) (2 ^ k)).or (eL (cka.length - 2 ^ k) (2 ^ k))).or
      ((eR (2 ^ k) (mb.length - 2 ^ k)).or (eI (2 ^ k) (mb.length - 2 ^ k))) with
    | some f =>
      have := round_fault L C kt (2 ^ k) { ma := ma, mb := mb, cka := cka, ckb := ckb, steps := [], transcript := [] }
        (hk.trans h2) s1 s2 s3 f hf
      rw [proveWithAux, hk, isPow2_two_pow, proveLoop.eq_def]
      obtain ⟨n, hn⟩ : ∃ n, (2 : ℕ) ^ (k + 1) = n + 1 := ⟨2 ^ (k + 1) - 1, by omega⟩
      simp only [assert_true, ok_bind, hk, show ¬ (2 : ℕ) ^ (k + 1) = 1 by omega, if_false]
      rw [hn]
      simp only [this]
      exact .fault _
    | none =>
      simp only [Option.or_eq_none_iff] at hf
      obtain ⟨⟨f1, f2⟩, f3, f4⟩ := hf
      have l1 := C.lmc_none f2
      have l2 := C.ip_none f4
      have l3 : ckb.length = ma.length := by
        rcases hkb with h | h
        · omega
        · have := h _ _ f1
          omega
      rcases proveWithAux_outcome L hd kt (k + 1) ma mb cka ckb hk (by omega) (by omega) (by omega) with h | ⟨steps, cs, a, b, ka, kb, O⟩
      · by_cases hmm : m
        · exact .inl ⟨hmm, h⟩
        obtain ⟨steps, cs, a, b, ka, kb, O⟩ := proveWithAux_total L hd (searchEnds hm hmm) kt (k + 1) ma mb cka ckb hk
          (by omega) (by omega) (by omega)
        rw [O.run]; exact .ok _
      · rw [O.run]; exact .ok _

open Classical in
/-- How `GIPA::prove` ends: it checks the inner product, its length, and the three commitments in this order. -/
noncomputable def checkedFault (eL eR eI : ℕ → ℕ → Option Fault) (β : MA →ₗ[F] MB →ₗ[F] T) (φa : MA →ₗ[F] KA →ₗ[F] OA)
    (φb : MB →ₗ[F] KB →ₗ[F] OB) (ψ : KT → T → OT) (ma : List MA) (mb : List MB) (t : T) (cka : List KA) (ckb : List KB)
    (kt : KT) (com : Coms OA OB OT) : Option Fault :=
  (eI ma.length mb.length).or <|
  if dot (β · ·) ma mb ≠ t then some .ipInvalid
  else if ∀ k, ma.length ≠ 2 ^ k then some (.argLength ma.length mb.length)
  else (eL cka.length ma.length).or <|
  if dot (φa · ·) ma cka ≠ com.1 then some .ipInvalid
  else (eR ckb.length mb.length).or <|
  if dot (φb · ·) mb ckb ≠ com.2.1 ∨ ψ kt t ≠ com.2.2 then some .ipInvalid else none

/-- C127: `GIPA::prove` never panics. -/
theorem C127_prove [DecidableEq T] [DecidableEq OA] [DecidableEq OB] [DecidableEq OT] (L : P.Lawful β φa φb ψ)
    (C : P.Checks eL eR eI) (hR : ∀ k m, eR k m = none → k = m) (hd : ∀ x, 16 ≤ (P.digest x).length)
    (hm : P.Searches m) (ma : List MA) (mb : List MB) (t : T) (cka : List KA) (ckb : List KB) (kt : KT)
    (com : Coms OA OB OT) :
    Ends m (checkedFault eL eR eI β φa φb ψ ma mb t cka ckb kt com) (P.prove ma mb t cka ckb kt com) := by
  unfold checkedFault
  cases e1 : eI ma.length mb.length with
  | some f =>
    rw [(C13_error_passed_on ma mb t cka ckb kt com f).1 (C.ip _ _ _ e1)]
    exact .fault _
  | none =>
    have h1 := C.ip_none e1
    rw [Option.none_or]
    have hip := L.ip_ok ma mb h1
    by_cases p1 : dot (β · ·) ma mb = t
    swap
    · rw [if_pos p1, C13_wrong_value ma mb t _ cka ckb kt com hip p1]
      exact .fault _
    rw [if_neg (not_not.mpr p1)]
    subst p1
    by_cases p2 : ∀ k, ma.length ≠ 2 ^ k
    · rw [if_pos p2, C13_not_power_of_two ma mb _ cka ckb kt com hip p2]
      exact .fault _
    rw [if_neg p2]
    push Not at p2
    obtain ⟨k, hk⟩ := p2
    cases e2 : eL cka.length ma.length with
    | some f =>
      rw [(C13_error_passed_on ma mb _ cka ckb kt com f).2.1 hip ⟨k, hk⟩ (C.lmc _ _ _ e2)]
      exact .fault _
    | none =>
      have h2 := C.lmc_none e2
      rw [Option.none_or]
      have hl := L.lmc_ok cka ma h2
      have hp := (isPow2_iff _).mpr ⟨k, hk⟩
      by_cases p3 : dot (φa · ·) ma cka = com.1
      swap
      · rw [if_pos p3]
        have : P.prove ma mb (dot (β · ·) ma mb) cka ckb kt com = .error .ipInvalid := by
          simp [prove, hip, hp, Commitment.verify, hl, p3]
        rw [this]
        exact .fault _
      rw [if_neg (not_not.mpr p3)]
      rw [p3] at hl
      cases e3 : eR ckb.length mb.length with
      | some f =>
        rw [(C13_error_passed_on ma mb _ cka ckb kt com f).2.2 hip ⟨k, hk⟩ hl (C.rmc _ _ _ e3)]
        exact .fault _
      | none =>
        have h3 := hR _ _ e3
        rw [Option.none_or]
        have hr := L.rmc_ok ckb mb h3
        have hi := L.ipc_ok kt (dot (β · ·) ma mb)
        split_ifs with p4
        · have : P.prove ma mb (dot (β · ·) ma mb) cka ckb kt com = .error .ipInvalid := by
            by_cases p5 : dot (φb · ·) mb ckb = com.2.1
            · have p6 := p4.resolve_left (not_not.mpr p5)
              simp [prove, hip, hp, Commitment.verify, hl, hr, hi, p5, p6]
            · simp [prove, hip, hp, Commitment.verify, hl, hr, p5]
          rw [this]
          exact .fault _
        · push Not at p4
          rw [prove_of_honest ⟨hip, hl, p4.1 ▸ hr, p4.2 ▸ hi⟩ hp]
          by_cases hmm : m
          · rcases proveWithAux_outcome L hd kt k ma mb cka ckb hk (by omega) (by omega) (by omega) with
              h | ⟨steps, cs, a, b, ka, kb, O⟩
            · rw [h]
              exact .diverge hmm
            · rw [O.run]; exact .ok _
          · obtain ⟨steps, cs, a, b, ka, kb, O⟩ := proveWithAux_total L hd (searchEnds hm hmm) kt k ma mb cka ckb hk
              (by omega) (by omega) (by omega)
            rw [O.run]; exact .ok _

end Gipa

/-- The proof of a final key: it needs exactly as many powers as the key polynomial has coefficients. -/
theorem proveKeyOpening_ends {F G : Type} [Field F] [DecidableEq F] [AddCommGroup G] [Module F G] {m : Prop}
    (srs : List G) (xs : List F) (h : ∀ x ∈ xs, x ≠ 0) (r z : F) (hr : r ≠ 0) :
    Ends m (if srs.length = 2 ^ (xs.length + 1) - 1 then none else some (.panic .assertion))
      (proveKeyOpening srs xs r z) := by
  have hlen : (spread (exps (scaled xs r))).length = 2 ^ (xs.length + 1) - 1 := by
    rw [length_spread, length_exps, length_scaled, pow_succ]; congr 1; ring
  rw [proveKeyOpening, keyCoefficients_eq]
  simp only [ok_bind]
  rw [polyOf_spread_exps _ (scaled_ne_zero xs r hr h), hlen]
  split_ifs with hl
  · rw [show (srs.length == 2 ^ (xs.length + 1) - 1) = true by simp [hl]]
    simp only [assert_true, ok_bind]
    rw [multiexpIP_eq _ _ (by rw [resize_length])]
    exact .ok _
  · rw [show (srs.length == 2 ^ (xs.length + 1) - 1) = false by simp [hl]]
    exact .fault _

namespace Tipa

variable {ρ F MA MB T KT OA OB OT G1 G2 GT TF : Type} [Field F] [DecidableEq F]
  [AddCommGroup MA] [Module F MA] [AddCommGroup MB] [Module F MB] [AddCommGroup T] [Module F T]
  [AddCommGroup G1] [Module F G1] [AddCommGroup G2] [Module F G2]
  [AddCommGroup OA] [Module F OA] [AddCommGroup OB] [Module F OB] [Add OT] [SMul F OT]
  {P : Gipa ρ F MA MB T G2 G1 KT OA OB OT} {V : TipaEnv F G1 G2 GT TF}
  {bil : MA →ₗ[F] MB →ₗ[F] T} {φa : MA →ₗ[F] G2 →ₗ[F] OA} {φb : MB →ₗ[F] G1 →ₗ[F] OB}
  {ψ : KT → T → OT} {m : Prop} {eL eR eI : ℕ → ℕ → Option Fault}

open Classical in
/-- How the rest of TIPA's prover ends after GIPA for messages of length `n`, with `hb` powers of `β` and `ga` powers of
`α` in the reference string: messages of length one have no challenge to hash. -/
noncomputable def openFault (n : ℕ) (r : F) (hb ga : ℕ) : Option Fault :=
  if n = 1 ∨ r = 0 then some (.panic .unwrap)
  else if hb = 2 * n - 1 ∧ ga = 2 * n - 1 then none else some (.panic .assertion)

/-- C127: TIPA's prover. The key arguments need not be those of the reference string. -/
theorem C127_tipa (L : P.Lawful bil φa φb ψ) (C : P.Checks eL eR eI) (hR : ∀ k m, eR k m = none → k = m)
    (hd : ∀ x, 16 ≤ (P.digest x).length) (hm : P.Searches m) (hk : Searches V P.digest P.serF m)
    (srs : SRS G1 G2) (ma : List MA) (mb : List MB) (cka : List G2) (ckb : List G1) (kt : KT) (r : F) :
    Ends m ((Gipa.proveFault eL eR eI ma.length mb.length cka.length ckb.length).or
        (openFault ma.length r srs.hBetaPowers.length srs.gAlphaPowers.length))
      (proveWithShift V P srs ma mb cka ckb kt r) := by
  rw [proveWithShift]
  refine (Gipa.C127_gipa L C hd hm ma mb cka ckb kt (.inr hR)).bind fun hnone res hres => ?_
  rcases Gipa.proveFault_none C (.inr hR) hnone with h1 | ⟨k, hk1, h2, h3, h4⟩
  · obtain ⟨a, rfl⟩ := List.length_eq_one_iff.mp h1
    rw [Gipa.C73_length_one] at hres
    rcases mb with _ | ⟨b, mb⟩ <;> rcases cka with _ | ⟨ka, cka⟩ <;> rcases ckb with _ | ⟨kb, ckb⟩ <;>
      cases hres
    simp only [openFault, List.length_singleton, true_or, if_true]
    rw [invertAll_eq _ (by simp)]
    simp only [ok_bind, List.map_nil, kzgChallenge_nil]
    by_cases hr : r = 0
    · subst hr
      simp only [Ripp.inverse, if_true, unwrap]
      exact .fault _
    · rw [inverse_of_ne hr]
      exact .fault _
  · rcases Gipa.proveWithAux_outcome L hd kt (k + 1) ma mb cka ckb hk1 (h2.trans hk1) (h3.trans hk1) (h4.trans hk1) with
      h | ⟨steps, cs, a, b, ka, kb, O⟩
    · rw [h] at hres; cases hres
    rw [O.run] at hres
    cases hres
    have hpos := Nat.two_pow_pos k
    have hp2 : (2 : ℕ) ^ (k + 1) = 2 * 2 ^ k := by rw [pow_succ]; ring
    have hn1 : ma.length ≠ 1 := by omega
    have hlen : 2 ^ (cs.length + 1) - 1 = 2 * ma.length - 1 := by rw [O.length_cs, hk1, pow_succ]; omega
    have hne : ∀ x ∈ cs.reverse, x ≠ 0 := fun x hx => O.ne_zero x (List.mem_reverse.mp hx)
    simp only [openFault, hn1, false_or]
    rw [invertAll_eq _ hne]
    simp only [ok_bind]
    by_cases hr : r = 0
    · subst hr
      simp only [Ripp.inverse, if_true, unwrap]
      exact .fault _
    rw [if_neg hr, inverse_of_ne hr]
    simp only [unwrap_some, ok_bind]
    rcases kzgChallenge_total V P.digest P.serF cs.reverse ka kb (by
      rw [← List.length_pos_iff, List.length_reverse, O.length_cs]; omega) with ⟨c, hc⟩ | hc
    swap
    · rw [hc]
      exact .diverge (hk _ _ _ hc)
    rw [hc]
    simp only [ok_bind]
    have o1 := proveKeyOpening_ends (m := m) srs.hBetaPowers (cs.reverse.map (·⁻¹))
      (fun x hx => by
        obtain ⟨y, hy, rfl⟩ := List.mem_map.mp hx
        exact inv_ne_zero (hne y hy)) r⁻¹ c (inv_ne_zero hr)
    have o2 := proveKeyOpening_ends (m := m) srs.gAlphaPowers cs.reverse hne (1 : F) c one_ne_zero
    rw [List.length_map, List.length_reverse, hlen] at o1
    rw [List.length_reverse, hlen] at o2
    refine (o1.bind fun _ x1 _ => o2.bind fun _ x2 _ => .ok _).congr ?_
    by_cases q1 : srs.hBetaPowers.length = 2 * ma.length - 1 <;>
      by_cases q2 : srs.gAlphaPowers.length = 2 * ma.length - 1 <;> simp [q1, q2]

end Tipa

namespace GipaSsm

variable {ρ F MA T KA KT OA OT : Type} [Field F] [DecidableEq F]
  [AddCommGroup MA] [Module F MA] [AddCommGroup T] [Module F T] [AddCommGroup KA] [Module F KA]
  [AddCommGroup OA] [Module F OA] [Add OT] [SMul F OT]
  {P : Gipa ρ F MA F T KA Placeholder KT OA F OT}
  {bil : MA →ₗ[F] F →ₗ[F] T} {φa : MA →ₗ[F] KA →ₗ[F] OA} {ψ : KT → T → OT} {m : Prop}
  {eL eI : ℕ → ℕ → Option Fault}

/-- How GIPA's prover with a structured message ends. The placeholder commitment checks nothing. -/
noncomputable def proveFault (eL eI : ℕ → ℕ → Option Fault) (a b ka : ℕ) : Option Fault :=
  Gipa.proveFault eL (fun _ _ => none) eI a b ka b

/-- C127: the prover of GIPA with a structured message. -/
theorem C127_gipa_ssm (L : P.Lawful bil φa 0 ψ) (C : P.Checks eL (fun _ _ => none) eI)
    (hd : ∀ x, 16 ≤ (P.digest x).length) (hm : P.Searches m) (ma : List MA) (mb : List F) (cka : List KA) (kt : KT) :
    Ends m (proveFault eL eI ma.length mb.length cka.length) (prove P ma mb cka kt) := by
  have h := Gipa.C127_gipa L C hd hm ma mb cka (List.replicate mb.length PUnit.unit) kt (.inl (by simp))
  rw [List.length_replicate] at h
  refine (h.bind fun _ x _ => .ok x.1).congr ?_
  simp [proveFault]

end GipaSsm

namespace TipaSsm

variable {ρ F MA T KT OA OT G1 G2 GT TF : Type} [Field F] [DecidableEq F]
  [AddCommGroup MA] [Module F MA] [AddCommGroup T] [Module F T]
  [AddCommGroup G1] [Module F G1] [AddCommGroup G2] [Module F G2]
  [AddCommGroup OA] [Module F OA] [Add OT] [SMul F OT]
  {P : Gipa ρ F MA F T G2 Placeholder KT OA F OT} {V : TipaEnv F G1 G2 GT TF}
  {bil : MA →ₗ[F] F →ₗ[F] T} {φa : MA →ₗ[F] G2 →ₗ[F] OA} {ψ : KT → T → OT} {m : Prop}
  {eL eI : ℕ → ℕ → Option Fault}

/-- How TIPA's prover with a structured message ends. -/
noncomputable def proveFault (eL eI : ℕ → ℕ → Option Fault) (a b ka hb : ℕ) : Option Fault :=
  (GipaSsm.proveFault eL eI a b ka).or
    (if a = 1 then some (.panic .unwrap) else if hb = 2 * a - 1 then none else some (.panic .assertion))

/-- C127: the prover of TIPA with a structured message. -/
theorem C127_tipa_ssm (L : P.Lawful bil φa 0 ψ) (C : P.Checks eL (fun _ _ => none) eI)
    (hd : ∀ x, 16 ≤ (P.digest x).length) (hm : P.Searches m) (hk : Searches V P.digest P.serF m)
    (srs : SRS G1 G2) (ma : List MA) (mb : List F) (cka : List G2) (kt : KT) :
    Ends m (proveFault eL eI ma.length mb.length cka.length srs.hBetaPowers.length)
      (prove V P srs ma mb cka kt) := by
  have h := Gipa.C127_gipa L C hd hm ma mb cka (List.replicate mb.length PUnit.unit) kt (.inl (by simp))
  rw [List.length_replicate] at h
  rw [prove, proveFault, GipaSsm.proveFault]
  refine h.bind fun hnone res hres => ?_
  rcases Gipa.proveFault_none C (.inl rfl) hnone with h1 | ⟨k, hk1, h2, h3, h4⟩
  · obtain ⟨a, rfl⟩ := List.length_eq_one_iff.mp h1
    rw [Gipa.C73_length_one] at hres
    rcases mb with _ | ⟨b, mb⟩ <;> rcases cka with _ | ⟨ka, cka⟩ <;>
      simp only [List.length_cons, List.replicate_succ] at hres <;> cases hres
    simp only [List.length_singleton, if_true]
    rw [invertAll_eq _ (by simp)]
    simp only [ok_bind, List.map_nil, kzgChallenge_nil]
    exact .fault _
  · rcases Gipa.proveWithAux_outcome L hd kt (k + 1) ma mb cka (List.replicate mb.length PUnit.unit) hk1 (h2.trans hk1)
      (h3.trans hk1) (by simp [h2.trans hk1]) with h | ⟨steps, cs, a, b, ka, kb, O⟩
    · rw [h] at hres; cases hres
    rw [O.run] at hres
    cases hres
    have hpos := Nat.two_pow_pos k
    have hp2 : (2 : ℕ) ^ (k + 1) = 2 * 2 ^ k := by rw [pow_succ]; ring
    have hn1 : ma.length ≠ 1 := by omega
    have hlen : 2 ^ (cs.length + 1) - 1 = 2 * ma.length - 1 := by rw [O.length_cs, hk1, pow_succ]; omega
    have hne : ∀ x ∈ cs.reverse, x ≠ 0 := fun x hx => O.ne_zero x (List.mem_reverse.mp hx)
    rw [if_neg hn1]
    simp only []
    rw [invertAll_eq _ hne]
    simp only [ok_bind]
    rcases kzgChallenge_total V P.digest P.serF cs.reverse ka (by
      rw [← List.length_pos_iff, List.length_reverse, O.length_cs]; omega) with ⟨c, hc⟩ | hc
    swap
    · rw [hc]
      exact .diverge (hk _ _ hc)
    rw [hc]
    simp only [ok_bind]
    have o1 := proveKeyOpening_ends (m := m) srs.hBetaPowers (cs.reverse.map (·⁻¹))
      (fun x hx => by
        obtain ⟨y, hy, rfl⟩ := List.mem_map.mp hx
        exact inv_ne_zero (hne y hy)) (1 : F) c one_ne_zero
    rw [List.length_map, List.length_reverse, hlen] at o1
    exact (o1.bind fun _ x1 _ => .ok _).congr (by simp)

end TipaSsm

section Instances

variable {ρ F G1 G2 GT TF : Type} [Field F] [DecidableEq F] [AddCommGroup G1] [Module F G1]
  [AddCommGroup G2] [Module F G2] [Monoid TF]

theorem lengthFault_some {l r : ℕ} {f : Fault} (h : lengthFault l r = some f) : l ≠ r ∧ f = .ipLength l r := by
  rw [lengthFault] at h
  split_ifs at h with p
  exact ⟨p, (Option.some.inj h).symm⟩

theorem pairingAB_checks [AddCommGroup GT] [Module F GT] (V : Env ρ F G1 G2 GT TF) {e : G1 →ₗ[F] G2 →ₗ[F] GT}
    (hE : V.E.Lawful e) : V.pairingAB.Checks (fun k m => lengthFault m k) lengthFault lengthFault where
  lmc k m f h := by
    obtain ⟨h1, rfl⟩ := lengthFault_some h
    exact pairingIP_err V.E V.X m k h1
  rmc k m f h := by
    obtain ⟨h1, rfl⟩ := lengthFault_some h
    exact pairingIP_err V.E V.X k m h1
  ip a b f h := by
    obtain ⟨h1, rfl⟩ := lengthFault_some h
    exact pairingIP_err V.E V.X a b h1
  lmc_none h := (lengthFault_none h).symm
  ip_none h := lengthFault_none h
  rmc_none k m h := ⟨_, pairingIP_eq hE V.X k m (lengthFault_none h)⟩

theorem multiexpSsm_checks (V : Env ρ F G1 G2 GT TF) :
    V.multiexpSsm.Checks (fun k m => lengthFault m k) (fun _ _ => none) lengthFault where
  lmc k m f h := by
    obtain ⟨h1, rfl⟩ := lengthFault_some h
    exact pairingIP_err V.E V.X m k h1
  rmc k m f h := by cases h
  ip a b f h := by
    obtain ⟨h1, rfl⟩ := lengthFault_some h
    exact multiexpIP_err a b h1
  lmc_none h := (lengthFault_none h).symm
  ip_none h := lengthFault_none h
  rmc_none k m h := ⟨_, rfl⟩

theorem scalarSsm_checks (V : Env ρ F G1 G2 GT TF) :
    V.scalarSsm.Checks lengthFault (fun _ _ => none) lengthFault where
  lmc k m f h := by
    obtain ⟨h1, rfl⟩ := lengthFault_some h
    exact multiexpIP_err k m h1
  rmc k m f h := by cases h
  ip a b f h := by
    obtain ⟨h1, rfl⟩ := lengthFault_some h
    exact scalarIP_err V.X a b h1
  lmc_none h := lengthFault_none h
  ip_none h := lengthFault_none h
  rmc_none k m h := ⟨_, rfl⟩

end Instances

section Applications

variable {ρ F G1 G2 GT TF : Type} [Field F] [DecidableEq F] [AddCommGroup G1] [Module F G1]
  [AddCommGroup G2] [Module F G2] [AddCommGroup GT] [Module F GT] [Monoid TF]
  {V : Env ρ F G1 G2 GT TF} {e : G1 →ₗ[F] G2 →ₗ[F] GT} {m : Prop}

namespace Bivariate

/-- How `open` of the bivariate commitment ends, for `rows` row polynomials, `coms` row commitments, a key of length
`ck`, `hb` powers of `β` and `kzg` powers for the columns. -/
noncomputable def openFault (rows coms ck hb kzg : ℕ) : Option Fault :=
  if ck < rows then some (.panic .assertion)
  else (TipaSsm.proveFault (fun k m => lengthFault m k) lengthFault coms ck ck hb).or
    (if kzg = 0 then some (.panic .assertion) else none)

/-- C127: `BivariatePolynomialCommitment::open`. -/
theorem C127_bivariate (hE : V.E.Lawful e) (hd : ∀ x, 16 ≤ (V.digest x).length) (hm : V.Searches m)
    (srs : SRS G1 G2 × List G1) (ps : List (List F))
    (coms : List G1) (point : F × F) :
    Ends m (openFault ps.length coms.length srs.1.commitmentKeys.1.length srs.1.hBetaPowers.length srs.2.length)
      (open_ V srs ps coms point) := by
  rw [open_, openFault]
  simp only []
  by_cases h : srs.1.commitmentKeys.1.length < ps.length
  · rw [if_pos h, decide_eq_false (by omega)]
    exact .fault _
  · rw [if_neg h, decide_eq_true (by omega)]
    simp only [assert_true, ok_bind]
    have hp : (powersLoop point.1 srs.1.commitmentKeys.1.length 1 []).length = srs.1.commitmentKeys.1.length := by
      simp [powersLoop_eq, powers]
    rw [yEvalCoeffs_eq _ _ _ _ hp]
    simp only [ok_bind]
    have hl : (lin srs.2.length (powersLoop point.1 srs.1.commitmentKeys.1.length 1 [])
        ((resize ps srs.1.commitmentKeys.1.length []).map fun p => resize p srs.2.length 0)).length = srs.2.length :=
      length_lin _ _ _ (by
        intro r hr
        obtain ⟨p, -, rfl⟩ := List.mem_map.mp hr
        exact resize_length _ _ _)
    generalize lin srs.2.length (powersLoop point.1 srs.1.commitmentKeys.1.length 1 [])
        ((resize ps srs.1.commitmentKeys.1.length []).map fun p => resize p srs.2.length 0) = ye at hl ⊢
    rw [msm_eq _ _ hl.symm]
    simp only [unwrap_some, ok_bind]
    have ht := TipaSsm.C127_tipa_ssm (V := V.tipa) (multiexpSsm_lawful V hE) (multiexpSsm_checks V) hd hm.c hm.kzgSsm srs.1 coms
      (powersLoop point.1 srs.1.commitmentKeys.1.length 1 []) srs.1.commitmentKeys.1 PUnit.unit
    rw [hp] at ht
    refine ht.bind fun _ ip _ => ?_
    have ho := Kzg.C39_open srs.2 (polyOf ye) point.2 (getLast?_trim ye)
    have hle : (polyOf ye).length ≤ srs.2.length := hl ▸ length_trim_le ye
    by_cases h0 : srs.2.length = 0
    · rw [if_pos h0, ho.2 (by omega)]
      exact .fault _
    · obtain ⟨π, hπ⟩ := ho.1 (by omega)
      rw [if_neg h0, hπ]
      exact .ok _

end Bivariate

namespace Univariate

/-- How `open` of the univariate commitment ends. -/
noncomputable def openFault (coms hb kzg : ℕ) : Option Fault :=
  if hb = 0 ∨ kzg = 0 then some (.panic .overflow)
  else TipaSsm.proveFault (fun k m => lengthFault m k) lengthFault coms ((hb + 1) / 2) ((hb + 1) / 2) hb

/-- C127: `UnivariatePolynomialCommitment::open`. It does not depend on the polynomial. -/
theorem C127_univariate (hE : V.E.Lawful e) (hd : ∀ x, 16 ≤ (V.digest x).length) (hm : V.Searches m)
    (srs : SRS G1 G2 × List G1) (p : List F)
    (coms : List G1) (z : F) :
    Ends m (openFault coms.length srs.1.hBetaPowers.length srs.2.length) (open_ V srs p coms z) := by
  rw [open_, openFault, parseDegrees]
  by_cases h : srs.1.hBetaPowers.length = 0 ∨ srs.2.length = 0
  · rw [if_pos h, if_pos h]
    exact .fault _
  rw [if_neg h, if_neg h]
  push Not at h
  simp only [ok_bind]
  obtain ⟨rows, h1, h2, -⟩ := bivariateForm_eq ((srs.1.hBetaPowers.length - 1) / 2) (srs.2.length - 1) p
  rw [h1]
  simp only [ok_bind]
  refine (Bivariate.C127_bivariate hE hd hm srs rows coms _).congr ?_
  have hck : srs.1.commitmentKeys.1.length = (srs.1.hBetaPowers.length + 1) / 2 :=
    length_stepBy2 _
  rw [Bivariate.openFault, h2, hck, if_neg (by omega), if_neg h.2, Option.or_none]

end Univariate

namespace TBivariate

/-- How `open` of the transparent bivariate commitment ends, for keys of lengths `k1` (columns) and `k2` (rows). -/
noncomputable def openFault (rows coms k1 k2 : ℕ) : Option Fault :=
  if k2 < rows then some (.panic .assertion)
  else (GipaSsm.proveFault (fun k m => lengthFault m k) lengthFault coms (max 1 k2) k2).or
    (GipaSsm.proveFault lengthFault lengthFault k1 (max 1 k1) k1)

/-- C127: `BivariatePolynomialCommitment::open` of the transparent commitment. -/
theorem C127_transparent (hE : V.E.Lawful e) (hd : ∀ x, 16 ≤ (V.digest x).length) (hm : V.Searches m)
    (ck : List G1 × List G2) (ps : List (List F)) (coms : List G1) (point : F × F) :
    Ends m (openFault ps.length coms.length ck.1.length ck.2.length) (open_ V ck ps coms point) := by
  rw [open_, openFault]
  by_cases h : ck.2.length < ps.length
  · rw [if_pos h, decide_eq_false (by omega)]
    exact .fault _
  rw [if_neg h, decide_eq_true (by omega), structuredScalarPower_eq, structuredScalarPower_eq]
  simp only [assert_true, ok_bind]
  obtain ⟨ye, hy, hl⟩ : ∃ ye, yEvalCoeffs ps (powers point.1 (max 1 ck.2.length)) ck.2.length ck.1.length = .ok ye ∧
      ye.length = ck.1.length := by
    by_cases h0 : ck.2.length = 0
    · refine ⟨List.replicate ck.1.length 0, ?_, by simp⟩
      rw [h0, yEvalCoeffs]
      simp only [List.range_zero, List.mapM_nil, pure_eq_ok, ok_bind, List.sum_nil]
      rw [mapM_ok _ (fun _ => (0 : F)) _ (by simp)]
      simp
    · refine ⟨_, yEvalCoeffs_eq _ _ _ _ (by simp [powers]; omega), length_lin _ _ _ ?_⟩
      intro r hr
      obtain ⟨p, -, rfl⟩ := List.mem_map.mp hr
      exact resize_length _ _ _
  rw [hy]
  simp only [ok_bind]
  rw [show (pedersen V.randG1).commit ck.1 ye = _ from multiexpIP_eq ck.1 ye hl.symm]
  simp only [ok_bind]
  have a1 := GipaSsm.C127_gipa_ssm (multiexpSsm_lawful V hE) (multiexpSsm_checks V) hd hm.c coms
    (powers point.1 (max 1 ck.2.length)) ck.2 PUnit.unit
  have a2 := GipaSsm.C127_gipa_ssm (scalarSsm_lawful V) (scalarSsm_checks V) hd hm.s ye
    (powers point.2 (max 1 ck.1.length)) ck.1 PUnit.unit
  simp only [powers, List.length_map, List.length_range, hl] at a1 a2
  exact (a1.bind fun _ x1 _ => a2.bind fun _ x2 _ => .ok _).congr (by simp)

end TBivariate

namespace TUnivariate

/-- How `open` of the transparent univariate commitment ends. -/
noncomputable def openFault (coms k1 k2 : ℕ) : Option Fault :=
  if k1 = 0 ∨ k2 = 0 then some (.panic .overflow)
  else (GipaSsm.proveFault (fun k m => lengthFault m k) lengthFault coms k2 k2).or
    (GipaSsm.proveFault lengthFault lengthFault k1 k1 k1)

/-- C127: `UnivariatePolynomialCommitment::open` of the transparent commitment. -/
theorem C127_transparent_univariate (hE : V.E.Lawful e) (hd : ∀ x, 16 ≤ (V.digest x).length)
    (hm : V.Searches m) (ck : List G1 × List G2) (p : List F)
    (coms : List G1) (z : F) :
    Ends m (openFault coms.length ck.1.length ck.2.length) (open_ V ck p coms z) := by
  rw [open_, openFault, parseDegrees]
  by_cases h : ck.1.length = 0 ∨ ck.2.length = 0
  · rw [if_pos h, if_pos h.symm]
    exact .fault _
  rw [if_neg h, if_neg (fun q => h q.symm)]
  push Not at h
  simp only [ok_bind]
  obtain ⟨rows, h1, h2, -⟩ := bivariateForm_eq (ck.2.length - 1) (ck.1.length - 1) p
  rw [h1]
  simp only [ok_bind]
  refine (TBivariate.C127_transparent hE hd hm ck rows coms _).congr ?_
  rw [TBivariate.openFault, h2, if_neg (by omega), max_eq_right (by omega), max_eq_right (by omega)]

end TUnivariate

namespace Groth16

variable [DecidableEq GT]

open Classical in
/-- How `aggregate_proofs` ends for `n` proofs, keys of lengths `k1` and `k2`, `hb` and `ga` powers in the reference
string and the outcome `c` of the search for the challenge. -/
noncomputable def aggregateFault (n k1 k2 hb ga : ℕ) (c : Res F) : Option Fault :=
  (lengthFault n k1).or <| (lengthFault k2 n).or <|
  match c with
  | .error f => some f
  | .ok r =>
    if n = 0 then some (.ipLength 0 1)
    else if n = 1 ∨ r = 0 then some (.panic .unwrap)
    else if (∃ k, n = 2 ^ k) ∧ hb = 2 * n - 1 ∧ ga = 2 * n - 1 then none
    else some (.panic .assertion)

/-- C127: `aggregate_proofs`. -/
theorem C127_aggregate (hE : V.E.Lawful e) (hd : ∀ x, 16 ≤ (V.digest x).length) (hm : V.Searches m)
    (srs : SRS G1 G2) (proofs : List (G16Proof G1 G2)) :
    Ends m (aggregateFault proofs.length srs.commitmentKeys.1.length srs.commitmentKeys.2.length
        srs.hBetaPowers.length srs.gAlphaPowers.length
        (challenge V (dot (e · ·) (proofs.map (·.a)) srs.commitmentKeys.1)
          (dot (e · ·) srs.commitmentKeys.2 (proofs.map (·.b)))
          (dot (e · ·) (proofs.map (·.c)) srs.commitmentKeys.1)))
      (aggregate V srs proofs) := by
  classical
  by_cases h1 : proofs.length = srs.commitmentKeys.1.length
  swap
  · rw [aggregateFault.eq_def, lengthFault, if_neg h1, Option.some_or, aggregate]
    simp only []
    rw [pairingIP_err _ _ _ _ (by simpa using h1), List.length_map]
    exact .fault _
  by_cases h2 : srs.commitmentKeys.2.length = proofs.length
  swap
  · rw [aggregateFault.eq_def, lengthFault, if_pos h1, lengthFault, if_neg h2, Option.none_or, Option.some_or, aggregate]
    simp only []
    rw [pairingIP_eq hE _ _ _ (by simpa using h1)]
    simp only [ok_bind]
    rw [pairingIP_err _ _ _ _ (by simpa using h2), List.length_map]
    exact .fault _
  rw [aggregateFault.eq_def, ← h1, h2, lengthFault_self, Option.none_or, Option.none_or]
  cases hc : challenge V (dot (e · ·) (proofs.map (·.a)) srs.commitmentKeys.1)
      (dot (e · ·) srs.commitmentKeys.2 (proofs.map (·.b)))
      (dot (e · ·) (proofs.map (·.c)) srs.commitmentKeys.1) with
  | error f =>
    rw [aggregate_diverge hE srs proofs h1.symm h2 f hc]
    exact .fault _
  | ok r =>
    have hT := fun (ma : List G1) (mb : List G2) (cka : List G2) (ckb : List G1) (r : F) =>
      Tipa.C127_tipa (V := V.tipa) (pairingAB_lawful V hE) (pairingAB_checks V hE) (fun _ _ => lengthFault_none)
        hd hm.ab hm.kzg srs ma mb cka ckb PUnit.unit r
    have hS := fun (ma : List G1) (mb : List F) (cka : List G2) =>
      TipaSsm.C127_tipa_ssm (V := V.tipa) (multiexpSsm_lawful V hE) (multiexpSsm_checks V) hd hm.c hm.kzgSsm srs ma mb cka
        PUnit.unit
    have same := fun n => Gipa.proveFault_same (eL := fun k m => lengthFault m k) (eR := lengthFault) (eI := lengthFault)
      (fun k => lengthFault_self k) lengthFault_self lengthFault_self n
    have same' := fun n => Gipa.proveFault_same (eL := fun k m => lengthFault m k) (eR := fun _ _ => none)
      (eI := lengthFault) (fun k => lengthFault_self k) (fun _ => rfl) lengthFault_self n
    simp only []
    by_cases n0 : proofs.length = 0
    · rw [if_pos n0, aggregate]
      simp only []
      rw [pairingIP_eq hE _ _ _ (by simpa using h1)]
      simp only [ok_bind]
      rw [pairingIP_eq hE _ _ _ (by simpa using h2)]
      simp only [ok_bind]
      rw [pairingIP_eq hE _ _ _ (by simpa using h1)]
      simp only [ok_bind]
      rw [hc]
      simp only [ok_bind]
      rw [structuredScalarPower_eq]
      simp only [ok_bind]
      rw [pairingIP_eq hE _ _ _ (by simp [powers, n0])]
      simp only [ok_bind]
      rw [multiexpIP_err _ _ (by simp [powers, n0])]
      simp only [List.length_map, n0, powers, List.length_range]
      exact .fault _
    rw [if_neg n0]
    by_cases hr : r = 0
    · rw [if_pos (.inr hr)]
      subst hr
      by_cases n1 : proofs.length = 1
      swap
      · rw [aggregate_zero hE srs proofs _ (by omega) rfl h1.symm h2 hc]
        exact .fault _
      obtain ⟨p, rfl⟩ := List.length_eq_one_iff.mp n1
      obtain ⟨k1, hk1⟩ := List.length_eq_one_iff.mp h1.symm
      obtain ⟨k2, hk2⟩ := List.length_eq_one_iff.mp h2
      have hT1 := hT [p.a] [p.b] [k1] [k2] 0
      simp only [List.length_singleton] at hT1
      rw [same, if_neg (by push Not; exact ⟨0, rfl⟩), Option.none_or, Tipa.openFault,
        if_pos (.inl rfl)] at hT1
      rw [aggregate, show srs.commitmentKeys = ([k1], [k2]) from Prod.ext hk1 hk2]
      rw [hk1, hk2] at hc
      simp only [List.map_cons, List.map_nil] at hc ⊢
      rw [pairingIP_eq hE _ _ _ rfl]
      simp only [ok_bind]
      rw [pairingIP_eq hE _ _ _ rfl]
      simp only [ok_bind]
      rw [pairingIP_eq hE _ _ _ rfl]
      simp only [ok_bind]
      rw [hc]
      simp only [ok_bind]
      rw [structuredScalarPower_eq, show powers (0 : F) (max 1 [p].length) = [1] by simp [powers]]
      simp only [ok_bind, List.zipWith_cons_cons, List.zipWith_nil_left, one_smul]
      rw [pairingIP_eq hE _ _ _ rfl]
      simp only [ok_bind]
      rw [multiexpIP_eq [p.c] [(1 : F)] rfl]
      simp only [ok_bind, List.zip_cons_cons, List.zip_nil_left, List.mapM_cons, List.mapM_nil,
        inverse_of_ne (one_ne_zero (α := F)), unwrap_some, inv_one, one_smul, pure_eq_ok]
      rw [pairingIP_eq hE _ _ _ rfl]
      simp only [ok_bind, decide_true, assert_true]
      exact (hT1.bind (q := none) fun h => by cases h).congr (by simp)
    rw [aggregate_eq hE srs proofs _ (by omega) rfl h1.symm h2 r hr hc]
    have hT1 := hT (List.zipWith (fun a r => r • a) (proofs.map (·.a)) (powers r proofs.length)) (proofs.map (·.b))
        (srs.commitmentKeys.1.mapIdx fun i k => r⁻¹ ^ i • k) srs.commitmentKeys.2 r
    have hS1 := hS (proofs.map (·.c)) (powers r proofs.length) srs.commitmentKeys.1
    simp only [List.length_zipWith, List.length_map, powers, List.length_range, min_self, List.length_mapIdx, ← h1,
      h2] at hT1 hS1
    rw [same] at hT1
    rw [TipaSsm.proveFault, GipaSsm.proveFault, same'] at hS1
    refine (hT1.bind fun _ x1 _ => hS1.bind fun _ x2 _ => .ok _).congr ?_
    simp only [Tipa.openFault, hr, or_false]
    by_cases q0 : ∃ k, proofs.length = 2 ^ k
    · have q0' : ¬ ∀ k, proofs.length ≠ 2 ^ k := by push Not; exact q0
      rw [if_neg q0', Option.none_or, Option.none_or, Option.or_none]
      by_cases q1 : proofs.length = 1
      · simp [q1]
      · by_cases q2 : srs.hBetaPowers.length = 2 * proofs.length - 1 <;>
          by_cases q3 : srs.gAlphaPowers.length = 2 * proofs.length - 1 <;> simp [q0, q1, q2, q3]
    · have q0' : ∀ k, proofs.length ≠ 2 ^ k := by push Not at q0; exact q0
      have q1 : proofs.length ≠ 1 := fun h => q0 ⟨0, h⟩
      rw [if_pos q0']
      simp [q0, q1]

end Groth16

end Applications

open Toy in
/-- Four proofs and a reference string of the right size are aggregated, three are not, and neither are four with one
power of `β` too many, which leaves the keys as they are. -/
theorem C127_example (p1 p2 p3 p4 : G16Proof F F) (g h gb ha : F) (x : List F) (hx : x.length = 7) (y : F) :
    (∃ π, Groth16.aggregate env ⟨x, x, gb, ha⟩ [p1, p2, p3, p4] = .ok π) ∧
    Groth16.aggregate env ⟨x, x, gb, ha⟩ [p1, p2, p3] = .error (.ipLength 3 4) ∧
    Groth16.aggregate env ⟨x.take 5, x.take 5, gb, ha⟩ [p1, p2, p3] = .error (.panic .assertion) ∧
    Groth16.aggregate env ⟨x, y :: x, gb, ha⟩ [p1, p2, p3, p4] = .error (.panic .assertion) ∧
    Groth16.aggregate env ⟨[g], [h], gb, ha⟩ [p1] = .error (.panic .unwrap) ∧
    Groth16.aggregate env ⟨[], [], gb, ha⟩ [] = .error (.ipLength 0 1) := by
  have hc : ∀ a b c, Groth16.challenge env a b c = .ok 3 := by
    intro a b c
    rw [Groth16.challenge, show nonceLimit = (nonceLimit - 1) + 1 by decide, searchNonce]
    rfl
  have H := fun srs proofs => (Groth16.C127_aggregate (V := env) lawful (fun _ => le_refl 16) searches srs proofs).iff
  simp only [hc, SRS.commitmentKeys, length_stepBy2] at H
  have h3 : (3 : F) ≠ 0 := by decide
  refine ⟨(H _ _).1.mpr ?_, (H _ _).2 _ |>.mpr ?_, (H _ _).2 _ |>.mpr ?_, (H _ _).2 _ |>.mpr ?_, (H _ _).2 _ |>.mpr ?_,
    (H _ _).2 _ |>.mpr ?_⟩ <;> rw [Groth16.aggregateFault.eq_def]
  · have : ∃ k, 4 = 2 ^ k := ⟨2, rfl⟩
    simp [hx, lengthFault, h3, this]
  · simp [hx, lengthFault]
  · have : ¬ ∃ k, 3 = 2 ^ k := by
      rintro ⟨k, hk⟩
      rcases k with _ | _ | k
      · simp at hk
      · simp at hk
      · rw [pow_add] at hk; omega
    simp [hx, lengthFault, h3, this]
  · simp [hx, lengthFault, h3]
  · simp [lengthFault]
  · simp [lengthFault]

open Toy in
/-- The univariate polynomial commitment: a reference string for four rows opens with four row commitments only. -/
example (p : List F) (x y : List F) (hx : x.length = 7) (hy : y ≠ []) (c : List F) (z a gb ha : F) :
    (∃ π, Univariate.open_ env (⟨[a], x, gb, ha⟩, y) p c z = .ok π) ↔ c.length = 4 := by
  rw [(Univariate.C127_univariate (V := env) lawful (fun _ => le_refl 16) searches _ p c z).iff.1, Univariate.openFault]
  have hy' : y.length ≠ 0 := by simpa using hy
  simp only [hx, hy', or_false, show ¬ (7 : ℕ) = 0 by decide, if_false, Nat.reduceAdd, Nat.reduceDiv]
  constructor
  · intro h
    rw [TipaSsm.proveFault, Option.or_eq_none_iff] at h
    rcases Gipa.proveFault_none (multiexpSsm_checks env) (.inl rfl) h.1 with h1 | ⟨k, h1, h2, -⟩
    · rw [if_pos h1] at h
      cases h.2
    · exact h2.symm
  · intro h
    rw [h, TipaSsm.proveFault, GipaSsm.proveFault,
      Gipa.proveFault_same (eL := fun k m => lengthFault m k) (eR := fun _ _ => none) (fun k => lengthFault_self k)
        (fun _ => rfl) lengthFault_self, if_neg (by push Not; exact ⟨2, rfl⟩)]
    rfl

end Ripp
