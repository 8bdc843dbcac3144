import Verif.Lemmas.Shape
import Verif.Props.Groth16Extract
import Verif.Props.SsmFree
import Verif.Model.Transparent

/-!
# C135: the number of entries in the commitments of the rounds

The commitments to inner products in a proof are vectors (`dh_commitments/src/identity/mod.rs:32-35`) whose length is
not checked; sums are cut to the shorter one (`:37-52`). The theorems say which lengths an accepted proof can have and
what the further entries are for: they are hashed (`ip_proofs/src/gipa.rs:239-250`, `334-345`) and not used otherwise.
-/

set_option linter.unusedSectionVars false

namespace Ripp

open Spec

namespace Entries

variable {ρ F MA MB T KA KB OA OB : Type} [Field F] [DecidableEq F]
  [AddCommGroup MA] [Module F MA] [AddCommGroup MB] [Module F MB] [AddCommGroup T] [Module F T] [DecidableEq T]
  [AddCommGroup KA] [Module F KA] [AddCommGroup KB] [Module F KB]
  [AddCommGroup OA] [Module F OA] [AddCommGroup OB] [Module F OB] [DecidableEq OA] [DecidableEq OB]

/-- Keep the first entries of the commitments to inner products. -/
def firstOnly (π : GipaProof MA MB OA OB (IdentityOutput T)) : GipaProof MA MB OA OB (IdentityOutput T) :=
  { π with steps := π.steps.map fun s =>
      ((s.1.1, s.1.2.1, ⟨s.1.2.2.vals.take 1⟩), (s.2.1, s.2.2.1, ⟨s.2.2.2.vals.take 1⟩)) }

/-- No commitment to an inner product in the proof is empty. -/
def NoneEmpty (π : GipaProof MA MB OA OB (IdentityOutput T)) : Prop :=
  ∀ s ∈ π.steps, s.1.2.2.vals ≠ [] ∧ s.2.2.2.vals ≠ []

theorem accum_first : ∀ (cs : List F) (ss : List (IdentityOutput T × IdentityOutput T)) (c : IdentityOutput T),
    c.vals.length ≤ 1 →
    accum cs (ss.map fun s => (⟨s.1.vals.take 1⟩, ⟨s.2.vals.take 1⟩)) c = accum cs ss c
  | [], _, _, _ => by simp [accum]
  | _ :: _, [], _, _ => by simp [accum]
  | x :: cs, ⟨⟨l⟩, ⟨r⟩⟩ :: ss, ⟨c⟩, h => by
    have key : (x • (⟨l.take 1⟩ : IdentityOutput T) + ⟨c⟩ + x⁻¹ • (⟨r.take 1⟩ : IdentityOutput T)) =
        x • (⟨l⟩ : IdentityOutput T) + ⟨c⟩ + x⁻¹ • (⟨r⟩ : IdentityOutput T) := by
      change IdentityOutput.mk (List.zipWith (· + ·) (List.zipWith (· + ·) ((l.take 1).map (x • ·)) c)
        ((r.take 1).map (x⁻¹ • ·))) = IdentityOutput.mk (List.zipWith (· + ·) (List.zipWith (· + ·) (l.map (x • ·)) c)
        (r.map (x⁻¹ • ·)))
      match c, l, r, h with
      | [], _, _, _ => simp
      | [_], [], _, _ => simp
      | [_], _ :: _, [], _ => simp
      | [_], _ :: _, _ :: _, _ => simp
    have hlen : (x • (⟨l⟩ : IdentityOutput T) + ⟨c⟩ + x⁻¹ • (⟨r⟩ : IdentityOutput T)).vals.length ≤ 1 := by
      change (List.zipWith (· + ·) (List.zipWith (· + ·) (l.map (x • ·)) c) (r.map (x⁻¹ • ·))).length ≤ 1
      simp only [List.length_zipWith, List.length_map]
      change c.length ≤ 1 at h
      omega
    rw [List.map_cons, accum, accum]
    dsimp only
    rw [key, accum_first cs ss _ hlen]

variable {P : Gipa ρ F MA MB T KA KB Placeholder OA OB (IdentityOutput T)}

/-- The further entries have no effect other than on the challenges. -/
theorem recursive_first (com : Coms OA OB (IdentityOutput T)) (h : com.2.2.vals.length ≤ 1)
    (π : GipaProof MA MB OA OB (IdentityOutput T))
    (hc : P.chals (firstOnly π).steps.reverse [] = P.chals π.steps.reverse []) :
    P.recursiveChallenges com (firstOnly π) = P.recursiveChallenges com π := by
  rw [Gipa.recursiveChallenges_eq, Gipa.recursiveChallenges_eq, hc]
  congr 1
  funext cs
  rw [Gipa.foldMany_eq, Gipa.foldMany_eq]
  simp only [firstOnly, ← List.map_reverse, List.map_map, Function.comp_def]
  have := accum_first cs (π.steps.reverse.map fun s => (s.1.2.2, s.2.2.2)) com.2.2 h
  rw [List.map_map] at this
  simp only [Function.comp_def] at this
  rw [this]

/-- If the folded commitment is not empty, none of the proof is. -/
theorem noneEmpty_of_recursive (com : Coms OA OB (IdentityOutput T)) (π : GipaProof MA MB OA OB (IdentityOutput T))
    (b : Coms OA OB (IdentityOutput T)) (tr : List F) (h : P.recursiveChallenges com π = .ok (b, tr))
    (hb : b.2.2.vals ≠ []) : NoneEmpty π := by
  rw [Gipa.recursiveChallenges_eq, bind_eq_ok] at h
  obtain ⟨cs, hcs, h⟩ := h
  obtain ⟨new, rfl, hl, -⟩ := Gipa.chals_prefix P _ _ _ hcs
  have h1 := congrArg Prod.fst (Except.ok.inj h)
  rw [Gipa.foldMany_eq] at h1
  simp only at h1
  subst h1
  intro s hs
  exact Shape.accum_vals_ne_nil _ _ _ (by simpa using hl) hb (s.1.2.2, s.2.2.2)
    (List.mem_map.mpr ⟨s, List.mem_reverse.mpr hs, rfl⟩)

theorem identity_verify (kt : List Placeholder) (t : T) (o : IdentityOutput T)
    (h : (identityCommitment (ρ := ρ)).verify kt [t] o = .ok true) : o.vals ≠ [] := by
  have : (⟨[t]⟩ : IdentityOutput T) = o := by simpa [Commitment.verify, identityCommitment] using h
  rw [← this]
  simp

/-! ## The four arguments -/

theorem verifyBase_ne_nil (hP : P.ipc = identityCommitment) {ka : KA} {kb : KB} {kt : List Placeholder}
    {com : Coms OA OB (IdentityOutput T)} {π : GipaProof MA MB OA OB (IdentityOutput T)}
    (h : P.verifyBase ka kb kt com π = .ok true) : com.2.2.vals ≠ [] := by
  rw [Gipa.verifyBase] at h
  obtain ⟨t, -, h⟩ := bind_eq_ok.mp h
  obtain ⟨b1, -, h⟩ := bind_eq_ok.mp h
  cases b1
  · simp at h
  obtain ⟨b2, -, h⟩ := bind_eq_ok.mp (by simpa using h)
  cases b2
  · simp at h
  rw [if_pos rfl, hP] at h
  exact identity_verify kt t _ h

/-- C135: an accepted proof of `GIPA` has no empty commitment. -/
theorem C135_gipa (hP : P.ipc = identityCommitment) (cka : List KA) (ckb : List KB) (kt : Placeholder)
    (com : Coms OA OB (IdentityOutput T)) (π : GipaProof MA MB OA OB (IdentityOutput T))
    (h : P.verify cka ckb kt com π = .ok true) : NoneEmpty π := by
  rw [Gipa.verify] at h
  split at h
  · cases h
  obtain ⟨⟨b, tr⟩, hr, h⟩ := bind_eq_ok.mp h
  obtain ⟨⟨ka, kb⟩, -, h⟩ := bind_eq_ok.mp h
  exact noneEmpty_of_recursive com π b tr hr (verifyBase_ne_nil hP h)

/-- C135: further entries in a proof of `GIPA` only matter for the challenges. -/
theorem C135_gipa_first (cka : List KA) (ckb : List KB) (kt : Placeholder)
    (com : Coms OA OB (IdentityOutput T)) (hl : com.2.2.vals.length ≤ 1)
    (π : GipaProof MA MB OA OB (IdentityOutput T))
    (hc : P.chals (firstOnly π).steps.reverse [] = P.chals π.steps.reverse []) :
    P.verify cka ckb kt com (firstOnly π) = P.verify cka ckb kt com π := by
  rw [Gipa.verify, Gipa.verify, recursive_first com hl π hc]
  rfl

section Ssm

variable {Q : Gipa ρ F MA F T KA Placeholder Placeholder OA F (IdentityOutput T)}

/-- C135: an accepted proof of `GIPAWithSSM` has no empty commitment. -/
theorem C135_gipa_ssm (hP : Q.ipc = identityCommitment) (X : Exec) (cka : List KA) (kt : Placeholder)
    (comA : OA) (comT : IdentityOutput T) (b : F) (π : GipaProof MA F OA F (IdentityOutput T))
    (h : GipaSsm.verify X Q cka kt comA comT b π = .ok true) : NoneEmpty π := by
  rw [GipaSsm.verify] at h
  obtain ⟨⟨bc, tr⟩, hr, h⟩ := bind_eq_ok.mp h
  obtain ⟨⟨ka, kb⟩, -, h⟩ := bind_eq_ok.mp h
  obtain ⟨b1, hb1, h⟩ := bind_eq_ok.mp h
  obtain ⟨bb, -, h⟩ := bind_eq_ok.mp h
  obtain ⟨t, -, h⟩ := bind_eq_ok.mp h
  obtain ⟨b2, -, h⟩ := bind_eq_ok.mp h
  have : b1 = true := by
    cases b2
    · simp at h
    · rw [if_pos rfl] at h
      obtain ⟨b3, -, h⟩ := bind_eq_ok.mp h
      have := Except.ok.inj h
      simp only [Bool.and_eq_true] at this
      exact this.1
  rw [this] at hb1
  exact noneEmpty_of_recursive _ π bc tr hr (verifyBase_ne_nil hP hb1)

/-- C135: further entries in a proof of `GIPAWithSSM` only matter for the challenges. -/
theorem C135_gipa_ssm_first (X : Exec) (cka : List KA) (kt : Placeholder)
    (comA : OA) (comT : IdentityOutput T) (hl : comT.vals.length ≤ 1) (b : F)
    (π : GipaProof MA F OA F (IdentityOutput T))
    (hc : Q.chals (firstOnly π).steps.reverse [] = Q.chals π.steps.reverse []) :
    GipaSsm.verify X Q cka kt comA comT b (firstOnly π) = GipaSsm.verify X Q cka kt comA comT b π := by
  rw [GipaSsm.verify, GipaSsm.verify, recursive_first (comA, 0, comT) hl π hc]
  rfl

end Ssm

section Tipa

variable {G1 G2 GT TF : Type} [AddCommGroup G1] [Module F G1] [AddCommGroup G2] [Module F G2]
  [AddCommGroup GT] [Module F GT] [Monoid TF] [DecidableEq GT]
  {W : TipaEnv F G1 G2 GT TF}
  {Q : Gipa ρ F MA MB T G2 G1 Placeholder OA OB (IdentityOutput T)}
  {R : Gipa ρ F MA F T G2 Placeholder Placeholder OA F (IdentityOutput T)}

/-- C135: an accepted proof of `TIPA` has no empty commitment. -/
theorem C135_tipa (hP : Q.ipc = identityCommitment) (v : VerifierSRS G1 G2) (kt : Placeholder)
    (com : Coms OA OB (IdentityOutput T)) (π : TipaProof G1 G2 MA MB OA OB (IdentityOutput T)) (r : F)
    (h : Tipa.verifyWithShift W Q v kt com π r = .ok true) : NoneEmpty π.gipa := by
  rw [Tipa.verifyWithShift] at h
  obtain ⟨⟨bc, tr⟩, hr, h⟩ := bind_eq_ok.mp h
  obtain ⟨inv, -, h⟩ := bind_eq_ok.mp h
  obtain ⟨c, -, h⟩ := bind_eq_ok.mp h
  obtain ⟨ri, -, h⟩ := bind_eq_ok.mp h
  obtain ⟨b1, -, h⟩ := bind_eq_ok.mp h
  obtain ⟨b2, -, h⟩ := bind_eq_ok.mp h
  obtain ⟨b3, hb3, h⟩ := bind_eq_ok.mp h
  have : b3 = true := by
    have := Except.ok.inj h
    simp only [Bool.and_eq_true] at this
    exact this.2
  rw [this] at hb3
  exact noneEmpty_of_recursive com π.gipa bc tr hr (verifyBase_ne_nil hP hb3)

/-- C135: further entries in a proof of `TIPA` only matter for the challenges. -/
theorem C135_tipa_first (v : VerifierSRS G1 G2) (kt : Placeholder)
    (com : Coms OA OB (IdentityOutput T)) (hl : com.2.2.vals.length ≤ 1)
    (π : TipaProof G1 G2 MA MB OA OB (IdentityOutput T)) (r : F)
    (hc : Q.chals (firstOnly π.gipa).steps.reverse [] = Q.chals π.gipa.steps.reverse []) :
    Tipa.verifyWithShift W Q v kt com { π with gipa := firstOnly π.gipa } r =
      Tipa.verifyWithShift W Q v kt com π r := by
  rw [Tipa.verifyWithShift, Tipa.verifyWithShift, recursive_first com hl π.gipa hc]
  rfl

/-- C135: an accepted proof of `TIPAWithSSM` has no empty commitment. -/
theorem C135_tipa_ssm (hP : R.ipc = identityCommitment) (X : Exec) (v : VerifierSRS G1 G2) (kt : Placeholder)
    (comA : OA) (comT : IdentityOutput T) (b : F) (π : TipaSsmProof F G2 MA OA (IdentityOutput T))
    (h : TipaSsm.verify X W R v kt comA comT b π = .ok true) : NoneEmpty π.gipa := by
  rw [TipaSsm.verify] at h
  obtain ⟨⟨bc, tr⟩, hr, h⟩ := bind_eq_ok.mp h
  obtain ⟨inv, -, h⟩ := bind_eq_ok.mp h
  obtain ⟨c, -, h⟩ := bind_eq_ok.mp h
  obtain ⟨b1, -, h⟩ := bind_eq_ok.mp h
  obtain ⟨bb, -, h⟩ := bind_eq_ok.mp h
  obtain ⟨t, -, h⟩ := bind_eq_ok.mp h
  obtain ⟨b2, -, h⟩ := bind_eq_ok.mp h
  cases b2
  · simp at h
  rw [if_pos rfl] at h
  obtain ⟨b3, hb2, h⟩ := bind_eq_ok.mp h
  have : b3 = true := by
    have := Except.ok.inj h
    simp only [Bool.and_eq_true] at this
    exact this.2
  rw [this, hP] at hb2
  exact noneEmpty_of_recursive _ π.gipa bc tr hr (identity_verify _ t _ hb2)

/-- C135: further entries in a proof of `TIPAWithSSM` only matter for the challenges. -/
theorem C135_tipa_ssm_first (X : Exec) (v : VerifierSRS G1 G2) (kt : Placeholder)
    (comA : OA) (comT : IdentityOutput T) (hl : comT.vals.length ≤ 1) (b : F)
    (π : TipaSsmProof F G2 MA OA (IdentityOutput T))
    (hc : R.chals (firstOnly π.gipa).steps.reverse [] = R.chals π.gipa.steps.reverse []) :
    TipaSsm.verify X W R v kt comA comT b { π with gipa := firstOnly π.gipa } =
      TipaSsm.verify X W R v kt comA comT b π := by
  rw [TipaSsm.verify, TipaSsm.verify, recursive_first (comA, b, comT) hl π.gipa hc]
  rfl

end Tipa

/-! ## The applications -/

section Applications

variable {G1 G2 GT TF : Type} [AddCommGroup G1] [Module F G1] [AddCommGroup G2] [Module F G2]
  [AddCommGroup GT] [Module F GT] [Monoid TF] [DecidableEq G1] [DecidableEq G2] [DecidableEq GT]
  (V : Env ρ F G1 G2 GT TF)

/-- C135: an accepted aggregate has no empty commitment. -/
theorem C135_aggregate (v : VerifierSRS G1 G2) (vk : G16VK G1 G2) (inputs : List (List F))
    (π : AggProof F G1 G2 GT) (h : Groth16.verify V v vk inputs π = .ok true) :
    NoneEmpty π.proofAB.gipa ∧ NoneEmpty π.proofC.gipa := by
  obtain ⟨r, b1, b2, b3, H, -, hb⟩ := Groth16.verify_ok v vk inputs π V true h
  simp only [Eq.comm (a := true), Bool.and_eq_true] at hb
  obtain ⟨⟨rfl, rfl⟩, -⟩ := hb
  exact ⟨C135_tipa rfl v _ _ π.proofAB r H.2, C135_tipa_ssm rfl V.X v _ _ _ r π.proofC H.3⟩

/-- C135: with the challenges it has, an aggregate is accepted if and only if the one with single entries is. -/
theorem C135_aggregate_first (v : VerifierSRS G1 G2) (vk : G16VK G1 G2) (inputs : List (List F))
    (π : AggProof F G1 G2 GT)
    (h1 : V.pairingAB.chals (firstOnly π.proofAB.gipa).steps.reverse [] =
      V.pairingAB.chals π.proofAB.gipa.steps.reverse [])
    (h2 : V.multiexpSsm.chals (firstOnly π.proofC.gipa).steps.reverse [] =
      V.multiexpSsm.chals π.proofC.gipa.steps.reverse []) :
    Groth16.verify V v vk inputs { π with
      proofAB := { π.proofAB with gipa := firstOnly π.proofAB.gipa }
      proofC := { π.proofC with gipa := firstOnly π.proofC.gipa } } = Groth16.verify V v vk inputs π := by
  rw [Groth16.verify, Groth16.verify]
  dsimp only
  congr 1
  funext r
  rw [C135_tipa_first v _ _ (by simp) π.proofAB r h1, C135_tipa_ssm_first V.X v _ _ _ (by simp) r π.proofC h2]

/-- C135: an accepted opening of a bivariate polynomial has no empty commitment. -/
theorem C135_bivariate (v : VerifierSRS G1 G2) (com : GT) (point : F × F) (eval : F) (π : PcProof F G1 G2 GT)
    (h : Bivariate.verify V v com point eval π = .ok true) : NoneEmpty π.ip.gipa := by
  rw [Bivariate.verify] at h
  obtain ⟨b1, h1, h⟩ := bind_eq_ok.mp h
  obtain ⟨b2, -, h⟩ := bind_eq_ok.mp h
  have := Except.ok.inj h
  simp only [Bool.and_eq_true] at this
  rw [this.1] at h1
  exact C135_tipa_ssm rfl V.X v _ _ _ _ π.ip h1

/-- C135: the same with transparent keys. -/
theorem C135_transparent (ck : List G1 × List G2) (com : GT) (point : F × F) (eval : F) (π : TpcProof F G1 GT)
    (h : TBivariate.verify V ck com point eval π = .ok true) : NoneEmpty π.second ∧ NoneEmpty π.first := by
  rw [TBivariate.verify] at h
  obtain ⟨b1, h1, h⟩ := bind_eq_ok.mp h
  obtain ⟨b2, h2, h⟩ := bind_eq_ok.mp h
  have := Except.ok.inj h
  simp only [Bool.and_eq_true] at this
  rw [this.1] at h1
  rw [this.2] at h2
  exact ⟨C135_gipa_ssm rfl V.X _ _ _ _ _ π.second h1, C135_gipa_ssm rfl V.X _ _ _ _ _ π.first h2⟩

/-- C135: further entries in an opening of a bivariate polynomial only matter for the challenges. -/
theorem C135_bivariate_first (v : VerifierSRS G1 G2) (com : GT) (point : F × F) (eval : F) (π : PcProof F G1 G2 GT)
    (h : V.multiexpSsm.chals (firstOnly π.ip.gipa).steps.reverse [] =
      V.multiexpSsm.chals π.ip.gipa.steps.reverse []) :
    Bivariate.verify V v com point eval { π with ip := { π.ip with gipa := firstOnly π.ip.gipa } } =
      Bivariate.verify V v com point eval π := by
  rw [Bivariate.verify, Bivariate.verify]
  dsimp only
  rw [C135_tipa_ssm_first V.X v _ _ _ (by simp) point.1 π.ip h]

/-- C135: the same with transparent keys. -/
theorem C135_transparent_first (ck : List G1 × List G2) (com : GT) (point : F × F) (eval : F) (π : TpcProof F G1 GT)
    (h2 : V.multiexpSsm.chals (firstOnly π.second).steps.reverse [] = V.multiexpSsm.chals π.second.steps.reverse [])
    (h1 : V.scalarSsm.chals (firstOnly π.first).steps.reverse [] = V.scalarSsm.chals π.first.steps.reverse []) :
    TBivariate.verify V ck com point eval { π with second := firstOnly π.second, first := firstOnly π.first } =
      TBivariate.verify V ck com point eval π := by
  rw [TBivariate.verify, TBivariate.verify]
  dsimp only
  rw [C135_gipa_ssm_first V.X _ _ _ _ (by simp) _ π.second h2, C135_gipa_ssm_first V.X _ _ _ _ (by simp) _ π.first h1]

/-- C135: for univariate polynomials with a reference string. -/
theorem C135_univariate (v : VerifierSRS G1 G2) (degree : ℕ) (com : GT) (z eval : F) (π : PcProof F G1 G2 GT) :
    (Univariate.verify V v degree com z eval π = .ok true → NoneEmpty π.ip.gipa) ∧
    (V.multiexpSsm.chals (firstOnly π.ip.gipa).steps.reverse [] = V.multiexpSsm.chals π.ip.gipa.steps.reverse [] →
      Univariate.verify V v degree com z eval { π with ip := { π.ip with gipa := firstOnly π.ip.gipa } } =
        Univariate.verify V v degree com z eval π) := by
  constructor
  · intro h
    rw [Univariate.verify] at h
    obtain ⟨d, -, h⟩ := bind_eq_ok.mp h
    exact C135_bivariate V v com _ eval π h
  · intro h
    rw [Univariate.verify, Univariate.verify]
    congr 1
    funext d
    exact C135_bivariate_first V v com _ eval π h

/-- C135: for univariate polynomials with transparent keys. -/
theorem C135_transparent_univariate (ck : List G1 × List G2) (com : GT) (z eval : F) (π : TpcProof F G1 GT) :
    (TUnivariate.verify V ck com z eval π = .ok true → NoneEmpty π.second ∧ NoneEmpty π.first) ∧
    (V.multiexpSsm.chals (firstOnly π.second).steps.reverse [] = V.multiexpSsm.chals π.second.steps.reverse [] →
      V.scalarSsm.chals (firstOnly π.first).steps.reverse [] = V.scalarSsm.chals π.first.steps.reverse [] →
      TUnivariate.verify V ck com z eval { π with second := firstOnly π.second, first := firstOnly π.first } =
        TUnivariate.verify V ck com z eval π) := by
  constructor
  · intro h
    rw [TUnivariate.verify] at h
    obtain ⟨d, -, h⟩ := bind_eq_ok.mp h
    exact C135_transparent V ck com _ eval π h
  · intro h2 h1
    rw [TUnivariate.verify, TUnivariate.verify]
    congr 1
    funext d
    exact C135_transparent_first V ck com _ eval π h2 h1

end Applications

/-- C135: the proofs without empty commitments are those of the shapes in C108, C111, C116 and C117, for some bound on
the number of further entries. -/
theorem C135_shape (π : GipaProof MA MB OA OB (IdentityOutput T)) (h : NoneEmpty π) (B : ℕ) (hB : B + 1 < 2 ^ 64)
    (hl : ∀ s ∈ π.steps, s.1.2.2.vals.length ≤ B + 1 ∧ s.2.2.2.vals.length ≤ B + 1) :
    ∃ zs : List ((OA × OB × (T × {l : List T // l.length ≤ B})) × (OA × OB × (T × {l : List T // l.length ≤ B}))),
      π.steps = zs.map fun z =>
        ((z.1.1, z.1.2.1, (Shape.upTo T B hB).out z.1.2.2), (z.2.1, z.2.2.1, (Shape.upTo T B hB).out z.2.2.2)) := by
  obtain ⟨steps, base⟩ := π
  simp only [NoneEmpty] at h hl ⊢
  induction steps with
  | nil => exact ⟨[], rfl⟩
  | cons s ss ih =>
    obtain ⟨zs, hzs⟩ := ih (fun s hs => h s (List.mem_cons_of_mem _ hs)) (fun s hs => hl s (List.mem_cons_of_mem _ hs))
    have h0 := h s List.mem_cons_self
    have l0 := hl s List.mem_cons_self
    obtain ⟨z1, e1⟩ := Shape.upTo_all B hB s.1.2.2 h0.1 l0.1
    obtain ⟨z2, e2⟩ := Shape.upTo_all B hB s.2.2.2 h0.2 l0.2
    exact ⟨((s.1.1, s.1.2.1, z1), (s.2.1, s.2.2.1, z2)) :: zs, by rw [List.map_cons, ← hzs, e1, e2]⟩

/-! ## Examples -/

/-- Put the given vectors in the place of the commitments to inner products of the first round. -/
def withEntries (π : AggProof Toy.F Toy.F Toy.F Toy.F) (l1 r1 l2 r2 : List Toy.F) : AggProof Toy.F Toy.F Toy.F Toy.F :=
  { π with
    proofAB := { π.proofAB with gipa := { π.proofAB.gipa with steps := π.proofAB.gipa.steps.map fun s =>
      ((s.1.1, s.1.2.1, ⟨l1⟩), (s.2.1, s.2.2.1, ⟨r1⟩)) } }
    proofC := { π.proofC with gipa := { π.proofC.gipa with steps := π.proofC.gipa.steps.map fun s =>
      ((s.1.1, s.1.2.1, ⟨l2⟩), (s.2.1, s.2.2.1, ⟨r2⟩)) } } }

/-- With a digest that is constant, an aggregate is accepted with any further entries, and not with an empty vector. -/
example : [withEntries Groth16.toyAgg [4] [35] [20] [72], withEntries Groth16.toyAgg [4, 1, 2] [35, 3] [20] [72, 0],
      withEntries Groth16.toyAgg [4] [] [20] [72], withEntries Groth16.toyAgg [1, 4] [35] [20] [72]].map
      (Groth16.verify Toy.env ⟨1, 1, 5, 2⟩ Groth16.toyVK [[1], [2]]) =
    [.ok true, .ok true, .ok false, .ok false] := by
  decide +kernel

/-- The entries that `C135_aggregate_first` removes. -/
example : Groth16.verify Toy.env ⟨1, 1, 5, 2⟩ Groth16.toyVK [[1], [2]]
      (withEntries Groth16.toyAgg [4, 1, 2] [35, 3] [20] [72, 0]) = .ok true :=
  (C135_aggregate_first Toy.env ⟨1, 1, 5, 2⟩ Groth16.toyVK [[1], [2]]
    (withEntries Groth16.toyAgg [4, 1, 2] [35, 3] [20] [72, 0]) (by decide +kernel) (by decide +kernel)).symm.trans
    (by decide +kernel)

end Entries
end Ripp
