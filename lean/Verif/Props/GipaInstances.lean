import Verif.Props.Gipa
import Verif.Props.InnerProducts

/-!
# C07, C11, C13, C18, C22, C62 for the instantiations of the crate
-/

set_option linter.unusedSectionVars false
set_option linter.unusedVariables false

namespace Ripp

open Spec Gipa

section
variable {ρ F MA MB T KA KB KT OA OB OT : Type}

/-- C07: `GIPA::setup` returns `size` keys on both sides and does not panic. -/
theorem C07_gipa_setup (P : Gipa ρ F MA MB T KA KB KT OA OB OT) (h1 : SetupExact P.lmc)
    (h2 : SetupExact P.rmc) (h3 : SetupExact P.ipc) (s : ρ) (size : ℕ) :
    ∃ ka kb kt s', P.setup s size = .ok ((ka, kb, kt), s') ∧ ka.length = size ∧
      kb.length = size := by
  obtain ⟨ka, s1, e1, l1⟩ := h1 s size
  obtain ⟨kb, s2, e2, l2⟩ := h2 s1 size
  obtain ⟨kt, s3, e3, l3⟩ := h3 s2 1
  obtain ⟨k, rfl⟩ := List.length_eq_one_iff.mp l3
  exact ⟨ka, kb, k, s3, by simp [Gipa.setup, e1, e2, e3], l1, l2⟩

/-- C07 for any commitment scheme: the key of the inner product commitment is the last one its set-up returns
(`pop().unwrap()`), and an empty list of keys is a panic. -/
theorem C07_gipa_setup_last (P : Gipa ρ F MA MB T KA KB KT OA OB OT) (s s1 s2 s3 : ρ) (size : ℕ) (ka : List KA)
    (kb : List KB) (e1 : P.lmc.setup s size = .ok (ka, s1)) (e2 : P.rmc.setup s1 size = .ok (kb, s2)) :
    (∀ kts kt, P.ipc.setup s2 1 = .ok (kts ++ [kt], s3) → P.setup s size = .ok ((ka, kb, kt), s3)) ∧
    (P.ipc.setup s2 1 = .ok ([], s3) → P.setup s size = panic' .unwrap) :=
  ⟨fun kts kt h => by simp [Gipa.setup, e1, e2, h], fun h => by simp [Gipa.setup, e1, e2, h, unwrap]⟩

end

section
variable {ρ F G1 G2 GT TF : Type} [Field F] [DecidableEq F]
  [AddCommGroup G1] [Module F G1] [AddCommGroup G2] [Module F G2]
  [AddCommGroup GT] [Module F GT] [Monoid TF] [DecidableEq G1] [DecidableEq G2] [DecidableEq GT]
  (V : Env ρ F G1 G2 GT TF) {e : G1 →ₗ[F] G2 →ₗ[F] GT}

/-- C07 for the three instances. -/
theorem C07_gipa_setup_instances (s : ρ) (size : ℕ) :
    (∃ ka kb kt s', V.pairingAB.setup s size = .ok ((ka, kb, kt), s') ∧ ka.length = size ∧
      kb.length = size) ∧
    (∃ ka kb kt s', V.multiexpGipa.setup s size = .ok ((ka, kb, kt), s') ∧ ka.length = size ∧
      kb.length = size) ∧
    (∃ ka kb kt s', V.scalarGipa.setup s size = .ok ((ka, kb, kt), s') ∧ ka.length = size ∧
      kb.length = size) := by
  obtain ⟨p1, a1, a2, -, -⟩ := C07_setup_lengths (F := F) V.E V.X V.randG1 V.randG1 V.randG2 (T := GT)
  obtain ⟨p2, -, -, -, -⟩ := C07_setup_lengths (F := F) V.E V.X V.randG2 V.randG1 V.randG2 (T := GT)
  have hi : ∀ T, SetupExact (identityCommitment (ρ := ρ) (T := T)) := fun T =>
    (C07_setup_lengths (F := F) V.E V.X V.randG2 V.randG1 V.randG2 (T := T)).2.2.2.1
  exact ⟨C07_gipa_setup _ a1 a2 (hi _) s size, C07_gipa_setup _ a1 p1 (hi _) s size,
    C07_gipa_setup _ p2 p2 (hi _) s size⟩

/-- C11 for the pairing inner product with AFGHO commitments. -/
theorem C11_pairing (hE : V.E.Lawful e) (hd : ∀ x, 16 ≤ (V.digest x).length) (k : ℕ)
    (ma : List G1) (mb : List G2) (cka : List G2) (ckb : List G1)
    (h1 : ma.length = 2 ^ k) (h2 : mb.length = 2 ^ k) (h3 : cka.length = 2 ^ k)
    (h4 : ckb.length = 2 ^ k) :
    let t := dot (e · ·) ma mb
    let com := (dot (e · ·) ma cka, dot (e · ·) ckb mb, (⟨[t]⟩ : IdentityOutput GT))
    V.pairingAB.prove ma mb t cka ckb PUnit.unit com = .error .diverge ∨
    ∃ proof, V.pairingAB.prove ma mb t cka ckb PUnit.unit com = .ok proof ∧
      V.pairingAB.verify cka ckb PUnit.unit com proof = .ok true :=
  C11_complete (pairingAB_lawful V hE) hd k ma mb _ cka ckb PUnit.unit _ h1 h2 h3 h4
    ⟨pairingIP_eq hE V.X _ _ (h1.trans h2.symm), pairingIP_eq hE V.X _ _ (h1.trans h3.symm),
      pairingIP_eq hE V.X _ _ (h4.trans h2.symm), rfl⟩

/-- C11 for the multiexponentiation inner product. -/
theorem C11_multiexponentiation (hE : V.E.Lawful e) (hd : ∀ x, 16 ≤ (V.digest x).length) (k : ℕ)
    (ma : List G1) (mb : List F) (cka : List G2) (ckb : List G1)
    (h1 : ma.length = 2 ^ k) (h2 : mb.length = 2 ^ k) (h3 : cka.length = 2 ^ k)
    (h4 : ckb.length = 2 ^ k) :
    let t := dot (fun g s => s • g) ma mb
    let com := (dot (e · ·) ma cka, dot (fun g s => s • g) ckb mb, (⟨[t]⟩ : IdentityOutput G1))
    V.multiexpGipa.prove ma mb t cka ckb PUnit.unit com = .error .diverge ∨
    ∃ proof, V.multiexpGipa.prove ma mb t cka ckb PUnit.unit com = .ok proof ∧
      V.multiexpGipa.verify cka ckb PUnit.unit com proof = .ok true :=
  C11_complete (multiexpGipa_lawful V hE) hd k ma mb _ cka ckb PUnit.unit _ h1 h2 h3 h4
    ⟨multiexpIP_eq _ _ (h1.trans h2.symm), pairingIP_eq hE V.X _ _ (h1.trans h3.symm),
      multiexpIP_eq _ _ (h4.trans h2.symm), rfl⟩

/-- C11 for the scalar inner product. -/
theorem C11_scalar (hd : ∀ x, 16 ≤ (V.digest x).length) (k : ℕ)
    (ma mb : List F) (cka ckb : List G2)
    (h1 : ma.length = 2 ^ k) (h2 : mb.length = 2 ^ k) (h3 : cka.length = 2 ^ k)
    (h4 : ckb.length = 2 ^ k) :
    let t := dot (· * ·) ma mb
    let com := (dot (fun g s => s • g) cka ma, dot (fun g s => s • g) ckb mb,
      (⟨[t]⟩ : IdentityOutput F))
    V.scalarGipa.prove ma mb t cka ckb PUnit.unit com = .error .diverge ∨
    ∃ proof, V.scalarGipa.prove ma mb t cka ckb PUnit.unit com = .ok proof ∧
      V.scalarGipa.verify cka ckb PUnit.unit com proof = .ok true :=
  C11_complete (scalarGipa_lawful V) hd k ma mb _ cka ckb PUnit.unit _ h1 h2 h3 h4
    ⟨scalarIP_eq V.X _ _ (h1.trans h2.symm), multiexpIP_eq _ _ (h3.trans h1.symm),
      multiexpIP_eq _ _ (h4.trans h2.symm), rfl⟩

/-- The searches end for the toy digest, so the pairing argument of length 4 is accepted there. -/
example : ∃ proof, Toy.env.pairingAB.prove [1, 2, 3, 4] [5, 6, 7, 8] 70 [2, 3, 5, 7] [1, 1, 4, 9]
      PUnit.unit (51, 10, ⟨[70]⟩) = .ok proof ∧
    Toy.env.pairingAB.verify [2, 3, 5, 7] [1, 1, 4, 9] PUnit.unit (51, 10, ⟨[70]⟩) proof = .ok true :=
  C11_complete_total (pairingAB_lawful Toy.env Toy.lawful) Toy.digest_length
    (searchEnds_of_digest _ Toy.digest_length Toy.digest_ne_zero) 2 _ _ _ _ _ _ _ rfl rfl rfl rfl
    ⟨pairingIP_eq Toy.lawful Toy.X [1, 2, 3, 4] [5, 6, 7, 8] rfl,
      pairingIP_eq Toy.lawful Toy.X [1, 2, 3, 4] [2, 3, 5, 7] rfl,
      pairingIP_eq Toy.lawful Toy.X [1, 1, 4, 9] [5, 6, 7, 8] rfl, rfl⟩

/-- C13: length mismatches of the pairing instance give `MessageLengthInvalid` of the inner product
crate. -/
theorem C13_pairing_lengths (ma : List G1) (mb : List G2) (t : GT) (cka : List G2) (ckb : List G1)
    (com : Coms GT GT (IdentityOutput GT)) :
    (ma.length ≠ mb.length → V.pairingAB.prove ma mb t cka ckb PUnit.unit com =
      .error (.ipLength ma.length mb.length)) ∧
    (V.pairingAB.ip ma mb = .ok t → (∃ k, ma.length = 2 ^ k) → ma.length ≠ cka.length →
      V.pairingAB.prove ma mb t cka ckb PUnit.unit com =
        .error (.ipLength ma.length cka.length)) ∧
    (V.pairingAB.ip ma mb = .ok t → (∃ k, ma.length = 2 ^ k) →
      V.pairingAB.lmc.commit cka ma = .ok com.1 → ckb.length ≠ mb.length →
      V.pairingAB.prove ma mb t cka ckb PUnit.unit com =
        .error (.ipLength ckb.length mb.length)) :=
  ⟨fun h => (C13_error_passed_on ma mb t cka ckb _ com _).1 (pairingIP_err V.E V.X _ _ h),
    fun h hl hk => (C13_error_passed_on ma mb t cka ckb _ com _).2.1 h hl
      (pairingIP_err V.E V.X _ _ hk),
    fun h hl hA hk => (C13_error_passed_on ma mb t cka ckb _ com _).2.2 h hl hA
      (pairingIP_err V.E V.X _ _ hk)⟩

/-- C22 for the scalar instance: under keys on which no relation is known to exist at all (so that
`com_a` and `com_b` have exactly one opening), `verify` accepts a statement whose inner product
commitment is wrong. The expected soundness statement is therefore false. -/
theorem C22_false_statement_accepted (hd : ∀ x, 16 ≤ (V.digest x).length)
    (hs : V.scalarGipa.SearchEnds) (k : ℕ) (cka ckb : List G2)
    (h3 : cka.length = 2 ^ (k + 1)) (h4 : ckb.length = 2 ^ (k + 1))
    (hka : ∀ d : List F, (pedersen V.randG2).commit cka d = .ok 0 → ∀ x ∈ d, x = 0)
    (hkb : ∀ d : List F, (pedersen V.randG2).commit ckb d = .ok 0 → ∀ x ∈ d, x = 0)
    (ma mb : List F) (h1 : ma.length = 2 ^ (k + 1)) (h2 : mb.length = 2 ^ (k + 1)) :
    ∃ com proof, V.scalarGipa.verify cka ckb PUnit.unit com proof = .ok true ∧
      (∃ ma mb, V.scalarGipa.lmc.commit cka ma = .ok com.1 ∧
        V.scalarGipa.rmc.commit ckb mb = .ok com.2.1) ∧
      ∀ ma mb t, V.scalarGipa.lmc.commit cka ma = .ok com.1 →
        V.scalarGipa.rmc.commit ckb mb = .ok com.2.1 → V.scalarGipa.ip ma mb = .ok t →
        V.scalarGipa.ipc.commit [PUnit.unit] [t] ≠ .ok com.2.2 := by
  have cA := multiexpIP_eq cka ma (h3.trans h1.symm)
  have cB := multiexpIP_eq ckb mb (h4.trans h2.symm)
  obtain ⟨t', ot, proof, hne, hot, hv⟩ := C22_forgery (scalarGipa_lawful V) hd hs k ma mb _ cka ckb
    PUnit.unit (_, _, _) h1 h2 h3 h4 ⟨scalarIP_eq V.X _ _ (h1.trans h2.symm), cA, cB, rfl⟩
    (1 : F) one_ne_zero
  refine ⟨_, proof, hv, ⟨ma, mb, cA, cB⟩, ?_⟩
  intro ma' mb' t hA hB hip hcom
  have hbind : BindingReduction (pedersen (F := F) V.randG2) :=
    bindingReduction_of_bilinear (F := F) _ (C05_pedersen_homomorphic V.randG2) (by
      intro k m x h
      by_contra hl
      simp only [pedersen] at h
      rw [multiexpIP_err _ _ hl] at h; cases h)
  have e1 := C08_unique_opening _ hbind cka hka ma ma' _ cA hA
  have e2 := C08_unique_opening _ hbind ckb hkb mb mb' _ cB hB
  subst e1 e2
  rw [show V.scalarGipa.ip ma mb = scalarIP V.X ma mb from rfl,
    scalarIP_eq V.X _ _ (h1.trans h2.symm)] at hip
  have hip := Except.ok.inj hip
  rw [← hot] at hcom
  have : t = t' := by
    have h := IdentityOutput.mk.inj (Except.ok.inj hcom)
    simpa using h
  exact hne (this ▸ hip.symm)

end

/-- Keys without any relation exist: the two unit vectors. -/
example (rand : ℕ → (Toy.F × Toy.F) × ℕ) (d : List Toy.F)
    (h : (pedersen rand).commit [((1 : Toy.F), (0 : Toy.F)), (0, 1)] d = .ok 0) :
    ∀ x ∈ d, x = 0 := by
  by_cases hl : 2 = d.length
  · obtain ⟨y, z, rfl⟩ := List.length_eq_two.mp hl.symm
    simp only [pedersen, multiexpIP_eq [((1 : Toy.F), (0 : Toy.F)), (0, 1)] [y, z] rfl,
      Except.ok.injEq] at h
    simpa using h
  · simp [pedersen, multiexpIP_err [((1 : Toy.F), (0 : Toy.F)), (0, 1)] d hl] at h

/-- An environment with `G2 = F × F`, to which the unit vectors of the previous example belong. -/
def Toy.env2 : Env ℕ Toy.F Toy.F (Toy.F × Toy.F) Toy.F Toy.TF where
  E := { miller := fun x y => .ofAdd (x * y.1), finalExp := fun t => some t.toAdd }
  X := Toy.X
  digest := Toy.digest
  fromRandomBytes bs := bs.getLast?.map fun b => (b.toNat : Toy.F)
  serF := Toy.ser
  serG1 := Toy.ser
  serG2 x := Toy.ser x.1 ++ Toy.ser x.2
  serGT := Toy.ser
  randF := Toy.rand
  randG1 := Toy.rand
  randG2 s := ((s, s + 1), s + 1)
  g := 1
  h := (1, 1)

example : (∀ x, 16 ≤ (Toy.env2.digest x).length) ∧ Toy.env2.scalarGipa.SearchEnds :=
  ⟨Toy.digest_length, searchEnds_of_digest _ Toy.digest_length Toy.digest_ne_zero⟩

/-! ## Identity outputs: what the third equation says -/

section Identity
variable {F T : Type} [Field F] [AddCommGroup T] [Module F T]

/-- First entry, or zero. -/
def hd (o : IdentityOutput T) : T := o.vals.headD 0

theorem hd_add (x y : IdentityOutput T) (hx : x.vals ≠ []) (hy : y.vals ≠ []) :
    hd (x + y) = hd x + hd y ∧ (x + y).vals ≠ [] := by
  obtain ⟨xs⟩ := x
  obtain ⟨ys⟩ := y
  cases xs with
  | nil => exact absurd rfl hx
  | cons a as =>
    cases ys with
    | nil => exact absurd rfl hy
    | cons b bs => exact ⟨rfl, by change (a + b) :: _ ≠ []; simp⟩

theorem hd_smul (c : F) (x : IdentityOutput T) (hx : x.vals ≠ []) :
    hd (c • x) = c • hd x ∧ (c • x).vals ≠ [] := by
  obtain ⟨xs⟩ := x
  cases xs with
  | nil => exact absurd rfl hx
  | cons a as => exact ⟨rfl, by change c • a :: _ ≠ []; simp⟩

theorem length_vals_add (x y : IdentityOutput T) :
    (x + y).vals.length = min x.vals.length y.vals.length := by
  change (List.zipWith _ _ _).length = _; simp

theorem length_vals_smul (c : F) (x : IdentityOutput T) : (c • x).vals.length = x.vals.length := by
  change (List.map _ _).length = _; simp

theorem length_accum : ∀ (cs : List F) (ss : List (IdentityOutput T × IdentityOutput T))
    (com : IdentityOutput T) (m : ℕ), cs.length = ss.length →
    (m ≤ (accum cs ss com).vals.length ↔
      m ≤ com.vals.length ∧ ∀ s ∈ ss, m ≤ s.1.vals.length ∧ m ≤ s.2.vals.length)
  | [], [], com, m, _ => by simp [accum]
  | [], _ :: _, _, _, h => by simp at h
  | _ :: _, [], _, _, h => by simp at h
  | c :: cs, s :: ss, com, m, h => by
    rw [accum, length_accum cs ss _ m (by simpa using h)]
    simp only [length_vals_add, length_vals_smul, List.mem_cons, forall_eq_or_imp, le_min_iff]
    tauto

theorem hd_accum : ∀ (cs : List F) (ss : List (IdentityOutput T × IdentityOutput T))
    (com : IdentityOutput T), com.vals ≠ [] → (∀ s ∈ ss, s.1.vals ≠ [] ∧ s.2.vals ≠ []) →
    hd (accum cs ss com) = accum cs (ss.map fun s => (hd s.1, hd s.2)) (hd com)
  | [], ss, com, _, _ => by simp [accum]
  | c :: cs, [], com, _, _ => by simp [accum]
  | c :: cs, s :: ss, com, hc, hs => by
    have hs0 := hs s (by simp)
    obtain ⟨e1, n1⟩ := hd_smul c s.1 hs0.1
    obtain ⟨e2, n2⟩ := hd_smul c⁻¹ s.2 hs0.2
    obtain ⟨e3, n3⟩ := hd_add (c • s.1) com n1 hc
    obtain ⟨e4, n4⟩ := hd_add (c • s.1 + com) (c⁻¹ • s.2) n3 n2
    rw [accum, hd_accum cs ss _ n4 fun x hx => hs x (by simp [hx])]
    simp [accum, e1, e2, e3, e4]

/-- C18 for identity outputs: the third equation holds iff all outputs involved are non-empty, at least
one has exactly one entry, and the equation holds for the first entries. Entries beyond the first are
not compared. -/
theorem C18_identity_equation (cs : List F) (ss : List (IdentityOutput T × IdentityOutput T))
    (com : IdentityOutput T) (t : T) (hl : cs.length = ss.length) :
    accum cs ss com = ⟨[t]⟩ ↔
      (com.vals ≠ [] ∧ ∀ s ∈ ss, s.1.vals ≠ [] ∧ s.2.vals ≠ []) ∧
      (com.vals.length = 1 ∨ ∃ s ∈ ss, s.1.vals.length = 1 ∨ s.2.vals.length = 1) ∧
      hd com + dot (· • ·) cs (ss.map fun s => hd s.1)
        + dot (· • ·) (cs.map (·⁻¹)) (ss.map fun s => hd s.2) = t := by
  have hne : ∀ (l : List T), l ≠ [] ↔ 1 ≤ l.length := fun l => by
    rw [Nat.one_le_iff_ne_zero, ne_eq, ne_eq, List.length_eq_zero_iff]
  have h1 := length_accum cs ss com 1 hl
  have h2 := length_accum cs ss com 2 hl
  have h1' : 1 ≤ (accum cs ss com).vals.length ↔
      com.vals ≠ [] ∧ ∀ s ∈ ss, s.1.vals ≠ [] ∧ s.2.vals ≠ [] := by
    rw [h1]; simp only [hne]
  constructor
  · intro h
    have hlen : (accum cs ss com).vals.length = 1 := by rw [h]; rfl
    have hA := h1'.mp (by omega)
    refine ⟨hA, ?_, ?_⟩
    · by_contra hcon
      push Not at hcon
      have : 2 ≤ (accum cs ss com).vals.length := by
        rw [h2]
        have a1 := (hne _).mp hA.1
        refine ⟨by have := hcon.1; omega, fun s hs => ?_⟩
        have a2 := (hne _).mp (hA.2 s hs).1
        have a3 := (hne _).mp (hA.2 s hs).2
        have := hcon.2 s hs
        omega
      omega
    · have := hd_accum cs ss com hA.1 hA.2
      rw [h, accum_eq] at this
      simpa [hd, List.map_map, Function.comp_def] using this.symm
  · rintro ⟨hA, hB, hC⟩
    have hge := h1'.mpr hA
    have hlen : (accum cs ss com).vals.length = 1 := by
      by_contra hcon
      have := h2.mp (by omega)
      rcases hB with hB | ⟨s, hs, hB⟩
      · omega
      · have := this.2 s hs; omega
    obtain ⟨x, hx⟩ := List.length_eq_one_iff.mp hlen
    have h := hd_accum cs ss com hA.1 hA.2
    rw [accum_eq] at h
    simp only [List.map_map, Function.comp_def] at h
    rw [hC] at h
    apply IdentityOutput.ext
    rw [hx]
    simp only [hd, hx, List.headD_cons] at h
    rw [h]

example : accum [(2 : Toy.F)] [((⟨[1, 5]⟩ : IdentityOutput Toy.F), ⟨[2, 6, 7]⟩)] ⟨[10]⟩ = ⟨[13]⟩ :=
  (C18_identity_equation (F := Toy.F) (T := Toy.F) [2] [(⟨[1, 5]⟩, ⟨[2, 6, 7]⟩)] ⟨[10]⟩ 13 rfl).mpr
    ⟨by simp, by simp, by decide +kernel⟩

end Identity

section Junk
variable {ρ F MA MB T KA KB OA OB : Type} [Field F] [DecidableEq F]
  [AddCommGroup MA] [Module F MA] [AddCommGroup MB] [Module F MB]
  [AddCommGroup T] [Module F T] [AddCommGroup KA] [Module F KA] [AddCommGroup KB] [Module F KB]
  [AddCommGroup OA] [Module F OA] [AddCommGroup OB] [Module F OB]
  [DecidableEq T] [DecidableEq OA] [DecidableEq OB]
  {P : Gipa ρ F MA MB T KA KB Placeholder OA OB (IdentityOutput T)}
  {β : MA →ₗ[F] MB →ₗ[F] T} {φa : MA →ₗ[F] KA →ₗ[F] OA} {φb : MB →ₗ[F] KB →ₗ[F] OB}

/-- C62: a proof that is accepted for `com_t = [t]` and has a step with a one-element output (as every
proof made by the prover with at least one round has) is also accepted for `com_t = [t, junk...]`,
although that is not a commitment to any inner product. -/
theorem C62_trailing_junk (L : P.Lawful β φa φb idψ) (cka : List KA) (ckb : List KB) (ca : OA)
    (cb : OB) (t : T) (junk : List T) (proof : GipaProof MA MB OA OB (IdentityOutput T))
    (ha : cka.length = 2 ^ proof.steps.length) (hb : ckb.length = 2 ^ proof.steps.length)
    (hstep : ∃ s ∈ proof.steps, s.1.2.2.vals.length = 1 ∨ s.2.2.2.vals.length = 1)
    (hv : P.verify cka ckb PUnit.unit (ca, cb, ⟨[t]⟩) proof = .ok true) :
    P.verify cka ckb PUnit.unit (ca, cb, ⟨t :: junk⟩) proof = .ok true := by
  rw [verify_eq L _ _ _ _ _ ha hb] at hv ⊢
  cases hch : P.chals proof.steps.reverse [] with
  | error e => simp [hch] at hv
  | ok cs =>
    obtain ⟨new, hnew, hl, -⟩ := P.chals_prefix _ _ _ hch
    simp only [List.nil_append] at hnew
    subst hnew
    simp only [hch, ok_bind, Except.ok.injEq, decide_eq_true_eq, foldMany_eq, honestComs,
      Prod.mk.injEq] at hv ⊢
    refine ⟨hv.1, hv.2.1, ?_⟩
    have h3 := hv.2.2
    have hl' : cs.length = (proof.steps.reverse.map fun s => (s.1.2.2, s.2.2.2)).length := by simp [hl]
    rw [show ∀ x, idψ PUnit.unit x = (⟨[x]⟩ : IdentityOutput T) from fun _ => rfl] at h3 ⊢
    rw [C18_identity_equation _ _ _ _ hl'] at h3 ⊢
    refine ⟨⟨by simp, h3.1.2⟩, Or.inr ?_, h3.2.2⟩
    obtain ⟨s, hs, hs1⟩ := hstep
    exact ⟨(s.1.2.2, s.2.2.2), List.mem_map.mpr ⟨s, by simpa using hs, rfl⟩, hs1⟩

end Junk

end Ripp
