import Verif.Lemmas.Share
import Verif.Lemmas.Bytes
import Verif.Props.Challenge
import Verif.Props.GipaStatic
import Verif.Props.Groth16Verify
import Verif.Props.Univariate
import Verif.Props.Transparent

/-!
# C101: completeness in the random oracle model

The completeness theorems leave one obstacle: a challenge search that tries all nonces in vain. Here the
hash function answers the queries "nonce, then one of the strings in `Ps`" with a function chosen at random,
and the share of the functions for which some search fails is bounded.
-/

set_option linter.unusedSectionVars false

namespace Ripp

open Spec

theorem fromBE_nonceBytes (n : ℕ) (h : n < 2 ^ 64) : fromBE (nonceBytes n) = n := by
  have key : ∀ k n, n < 256 ^ k → Nat.ofDigits 256 ((leBytes k n).map UInt8.toNat) = n := by
    intro k
    induction k with
    | zero => intro n hn; simp at hn; simp [leBytes, hn]
    | succ k ih =>
      intro n hn
      rw [pow_succ] at hn
      simp only [leBytes, List.map_cons, Nat.ofDigits_cons, ih (n / 256)
        (Nat.div_lt_of_lt_mul (by linarith))]
      simp
      omega
  rw [fromBE, nonceBytes, List.reverse_reverse]
  exact key 8 n (by norm_num; exact h)

/-- The hash function that answers the first `N` nonces before a string in `Ps` with `H`, and everything
else with `dg`. -/
def searchOracle (dg : Bytes → Bytes) {Ps Ds : Finset Bytes} {N : ℕ} (H : Ps → Fin N → Ds) (x : Bytes) :
    Bytes :=
  if h : x.drop 8 ∈ Ps ∧ fromBE (x.take 8) < N then H ⟨_, h.1⟩ ⟨_, h.2⟩ else dg x

section Search
variable {Ps Ds : Finset Bytes} {N : ℕ}

theorem searchOracle_eq (dg : Bytes → Bytes) (H : Ps → Fin N → Ds) (hN : N ≤ 2 ^ 64) (p : Ps)
    (i : Fin N) : searchOracle dg H (be8 i ++ p) = H p i := by
  have h8 : (be8 i).length = 8 := rfl
  have e1 : (be8 i ++ (p : Bytes)).drop 8 = p := List.drop_left' h8
  have e2 : fromBE ((be8 i ++ (p : Bytes)).take 8) = i := by
    rw [List.take_left' h8, ← nonceBytes_eq, fromBE_nonceBytes _ (lt_of_lt_of_le i.2 hN)]
  rw [searchOracle, dif_pos ⟨by rw [e1]; exact p.2, by rw [e2]; exact i.2⟩]
  congr 2
  exact Fin.ext e2

theorem searchOracle_length (dg : Bytes → Bytes) (H : Ps → Fin N → Ds) (l : ℕ)
    (hd : ∀ d ∈ Ds, l ≤ d.length) (hdg : ∀ x, l ≤ (dg x).length) (x : Bytes) :
    l ≤ (searchOracle dg H x).length := by
  rw [searchOracle]
  split
  · exact hd _ (Subtype.prop _)
  · exact hdg x

/-- Before one of the strings, all the nonces are answered with `z`. -/
def Stuck (z : Ds → Prop) (H : Ps → Fin N → Ds) : Prop := ∃ p, ∀ i, z (H p i)

theorem share_stuck (z : Ds → Prop) :
    share (Stuck z : (Ps → Fin N → Ds) → Prop) ≤ Ps.card * share z ^ N := by
  classical
  refine le_trans (share_exists fun (p : Ps) (H : Ps → Fin N → Ds) => ∀ i, z (H p i)) (le_of_eq ?_)
  rw [Finset.sum_congr rfl fun p _ => (share_apply p fun f : Fin N → Ds => ∀ i, z (f i)).trans
    (share_all N z)]
  simp

theorem not_stuck {z : Ds → Prop} {H : Ps → Fin N → Ds} (h : ¬ Stuck z H) (dg : Bytes → Bytes)
    (hN : N ≤ 2 ^ 64) (p : Bytes) (hp : p ∈ Ps) :
    ∃ n < 2 ^ 64, ∃ d : Ds, ¬ z d ∧ searchOracle dg H (be8 n ++ p) = d := by
  rw [Stuck] at h
  push Not at h
  obtain ⟨i, hi⟩ := h ⟨p, hp⟩
  exact ⟨i, lt_of_lt_of_le i.2 hN, _, hi, searchOracle_eq dg H hN ⟨p, hp⟩ i⟩

/-- The digest gives a challenge that is zero in the field. -/
def ZeroHash (F : Type) [Field F] (d : Ds) : Prop := ((fromBE ((d : Bytes).take 16) : ℕ) : F) = 0

/-- The digest does not decode to a field element. -/
def NoElement {F : Type} (fromRandomBytes : Bytes → Option F) (d : Ds) : Prop :=
  fromRandomBytes d = none

/-- The digest decodes to 0 or 1. -/
def BadElement {F : Type} [Field F] (fromRandomBytes : Bytes → Option F) (d : Ds) : Prop :=
  fromRandomBytes d = some 0 ∨ fromRandomBytes d = some 1

end Search

/-! ## The strings hashed after the nonce -/

/-- `Ps` contains what GIPA hashes after the nonce. -/
def Gipa.Asks {ρ F MA MB T KA KB KT OA OB OT : Type} (P : Gipa ρ F MA MB T KA KB KT OA OB OT)
    (Ps : Finset Bytes) : Prop :=
  ∀ (prev : F) (com1 com2 : Coms OA OB OT), P.Committed com1.2.2 → P.Committed com2.2.2 →
    P.serF prev ++ P.serA com1.1 ++ P.serB com1.2.1 ++ P.serT com1.2.2
      ++ P.serA com2.1 ++ P.serB com2.2.1 ++ P.serT com2.2.2 ∈ Ps

/-- `Ps` contains what TIPA hashes after the nonce for the opening point of the keys. -/
def Tipa.Asks {F G1 G2 GT TF : Type} (V : TipaEnv F G1 G2 GT TF) (serF : F → Bytes) (Ps : Finset Bytes) :
    Prop := ∀ t cka ckb, serF t ++ V.serG2 cka ++ V.serG1 ckb ∈ Ps

@[inherit_doc Tipa.Asks]
def TipaSsm.Asks {F G1 G2 GT TF : Type} (V : TipaEnv F G1 G2 GT TF) (serF : F → Bytes)
    (Ps : Finset Bytes) : Prop := ∀ t cka, serF t ++ V.serG2 cka ∈ Ps

/-- `Ps` contains what the Groth16 aggregation hashes after the nonce. -/
def Groth16.Asks {ρ F G1 G2 GT TF : Type} (V : Env ρ F G1 G2 GT TF) (Ps : Finset Bytes) : Prop :=
  ∀ cA cB cC, V.serGT cA ++ V.serGT cB ++ V.serGT cC ∈ Ps

/-- The same environment with another hash function. -/
def Env.withDigest {ρ F G1 G2 GT TF : Type} (V : Env ρ F G1 G2 GT TF) (dg : Bytes → Bytes) :
    Env ρ F G1 G2 GT TF := { V with digest := dg }

/-- With finite types there are such sets. -/
theorem Gipa.exists_asks {ρ F MA MB T KA KB KT OA OB OT : Type} [Finite F] [Finite OA] [Finite OB]
    [Finite T] [Finite KT] (P : Gipa ρ F MA MB T KA KB KT OA OB OT) : ∃ Ps, P.Asks Ps := by
  have hc : Finite {o // P.Committed o} := by
    refine Finite.of_surjective (α := {x : KT × T // ∃ o, P.ipc.commit [x.1] [x.2] = .ok o})
      (fun x => ⟨x.2.choose, _, _, x.2.choose_spec⟩) ?_
    rintro ⟨o, k, t, h⟩
    refine ⟨⟨(k, t), o, h⟩, Subtype.ext ?_⟩
    have := (show ∃ o, P.ipc.commit [k] [t] = .ok o from ⟨o, h⟩).choose_spec
    exact Except.ok.inj (this.symm.trans h)
  refine ⟨(Set.finite_range fun x : F × OA × OB × {o // P.Committed o} × OA × OB ×
    {o // P.Committed o} => P.serF x.1 ++ P.serA x.2.1 ++ P.serB x.2.2.1 ++ P.serT x.2.2.2.1
      ++ P.serA x.2.2.2.2.1 ++ P.serB x.2.2.2.2.2.1 ++ P.serT x.2.2.2.2.2.2).toFinset, ?_⟩
  intro prev com1 com2 h1 h2
  rw [Set.Finite.mem_toFinset]
  exact ⟨(prev, com1.1, com1.2.1, ⟨_, h1⟩, com2.1, com2.2.1, ⟨_, h2⟩), rfl⟩

section Ends
variable {Ps Ds : Finset Bytes} {N : ℕ} (dg : Bytes → Bytes) {H : Ps → Fin N → Ds}

theorem Gipa.searchEnds_of_oracle {ρ F MA MB T KA KB KT OA OB OT : Type} [Field F] [DecidableEq F]
    (P : Gipa ρ F MA MB T KA KB KT OA OB OT) (hP : P.Asks Ps) (hN : N ≤ 2 ^ 64)
    (hd : ∀ d ∈ Ds, 16 ≤ d.length) (hdg : ∀ x, 16 ≤ (dg x).length)
    (h : ¬ Stuck (ZeroHash F) H) : (GipaStatic.withDigest P (searchOracle dg H)).SearchEnds := by
  intro prev com1 com2 h1 h2 hdiv
  rw [Gipa.C69_gipa_diverges _ (searchOracle_length dg H 16 hd hdg)] at hdiv
  obtain ⟨n, hn, d, hz, he⟩ := not_stuck h dg hN _ (hP prev com1 com2 h1 h2)
  apply hz
  have := hdiv n hn
  rw [Gipa.hashValue] at this
  simp only [List.append_assoc] at this he
  rw [ZeroHash, ← he]
  exact this

theorem Tipa.kzgEnds_of_oracle {F G1 G2 GT TF : Type} [Field F] (V : TipaEnv F G1 G2 GT TF)
    (serF : F → Bytes) (hP : Tipa.Asks V serF Ps) (hN : N ≤ 2 ^ 64)
    (h : ¬ Stuck (NoElement V.fromRandomBytes) H) : Tipa.KzgEnds V (searchOracle dg H) serF := by
  intro tr cka ckb
  cases tr with
  | nil => simp [Tipa.kzgChallenge_nil, panic']
  | cons t ts =>
    obtain ⟨n, hn, d, hz, he⟩ := not_stuck h dg hN _ (hP t cka ckb)
    refine searchNonce_ends (fun nonce => V.fromRandomBytes
      (searchOracle dg H (nonceBytes nonce ++ serF t ++ V.serG2 cka ++ V.serG1 ckb))) n hn ?_
    rw [nonceBytes_eq]
    simp only [List.append_assoc] at he ⊢
    rw [he]
    exact hz

theorem TipaSsm.kzgEnds_of_oracle {F G1 G2 GT TF : Type} [Field F] (V : TipaEnv F G1 G2 GT TF)
    (serF : F → Bytes) (hP : TipaSsm.Asks V serF Ps) (hN : N ≤ 2 ^ 64)
    (h : ¬ Stuck (NoElement V.fromRandomBytes) H) : TipaSsm.KzgEnds V (searchOracle dg H) serF := by
  intro tr cka
  cases tr with
  | nil => simp [TipaSsm.kzgChallenge_nil, panic']
  | cons t ts =>
    obtain ⟨n, hn, d, hz, he⟩ := not_stuck h dg hN _ (hP t cka)
    refine searchNonce_ends (fun nonce => V.fromRandomBytes
      (searchOracle dg H (nonceBytes nonce ++ serF t ++ V.serG2 cka))) n hn ?_
    rw [nonceBytes_eq]
    simp only [List.append_assoc] at he ⊢
    rw [he]
    exact hz

theorem Groth16.challenge_of_oracle {ρ F G1 G2 GT TF : Type} [Field F] (V : Env ρ F G1 G2 GT TF)
    (hP : Groth16.Asks V Ps) (hN : N ≤ 2 ^ 64) (h : ¬ Stuck (NoElement V.fromRandomBytes) H)
    (cA cB cC : GT) : Groth16.challenge (V.withDigest (searchOracle dg H)) cA cB cC ≠ .error .diverge := by
  obtain ⟨n, hn, d, hz, he⟩ := not_stuck h dg hN _ (hP cA cB cC)
  refine searchNonce_ends (fun nonce => V.fromRandomBytes
    (searchOracle dg H (nonceBytes nonce ++ V.serGT cA ++ V.serGT cB ++ V.serGT cC))) n hn ?_
  rw [nonceBytes_eq]
  simp only [List.append_assoc] at he ⊢
  rw [he]
  exact hz

/-- The challenge is the first answer that decodes. -/
theorem Groth16.challenge_first {ρ F G1 G2 GT TF : Type} [Field F] (V : Env ρ F G1 G2 GT TF)
    (hN : N ≤ 2 ^ 64) (cA cB cC : GT) (p : Ps) (hp : (p : Bytes) = V.serGT cA ++ V.serGT cB ++ V.serGT cC)
    (h : ¬ ∀ i, NoElement V.fromRandomBytes (H p i)) (r : F)
    (hr : Groth16.challenge (V.withDigest (searchOracle dg H)) cA cB cC = .ok r) :
    ∃ i, V.fromRandomBytes (H p i) = some r ∧ ∀ j < i, NoElement V.fromRandomBytes (H p j) := by
  rw [C69_groth16] at hr
  obtain ⟨n, hn, h1, h2⟩ := hr
  have e : ∀ i : Fin N, searchOracle dg H (be8 i ++ V.serGT cA ++ V.serGT cB ++ V.serGT cC) = H p i := by
    intro i
    rw [← searchOracle_eq dg H hN p i, hp]
    simp only [List.append_assoc]
  have hlt : n < N := by
    by_contra hge
    push Not at h hge
    obtain ⟨i, hi⟩ := h
    apply hi
    have := h2 i (lt_of_lt_of_le i.2 hge)
    change V.fromRandomBytes (searchOracle dg H
      (be8 _ ++ V.serGT cA ++ V.serGT cB ++ V.serGT cC)) = none at this
    rw [e] at this
    exact this
  refine ⟨⟨n, hlt⟩, ?_, fun j hj => ?_⟩
  · rw [← e]; exact h1
  · have := h2 j hj
    change V.fromRandomBytes (searchOracle dg H
      (be8 _ ++ V.serGT cA ++ V.serGT cB ++ V.serGT cC)) = none at this
    rw [e] at this
    exact this

end Ends

/-! ## The theorems -/

section Gipa
variable {ρ F MA MB T KA KB KT OA OB OT : Type} [Field F] [DecidableEq F]
  [AddCommGroup MA] [Module F MA] [AddCommGroup MB] [Module F MB]
  [AddCommGroup T] [Module F T] [AddCommGroup KA] [Module F KA] [AddCommGroup KB] [Module F KB]
  [AddCommGroup OA] [Module F OA] [AddCommGroup OB] [Module F OB] [Add OT] [SMul F OT]
  [DecidableEq T] [DecidableEq OA] [DecidableEq OB] [DecidableEq OT]
  {P : Gipa ρ F MA MB T KA KB KT OA OB OT}
  {β : MA →ₗ[F] MB →ₗ[F] T} {φa : MA →ₗ[F] KA →ₗ[F] OA} {φb : MB →ₗ[F] KB →ₗ[F] OB}
  {ψ : KT → T → OT}

theorem lawful_withDigest (L : P.Lawful β φa φb ψ) (dg : Bytes → Bytes) :
    (GipaStatic.withDigest P dg).Lawful β φa φb ψ :=
  ⟨L.ip_ok, L.lmc_ok, L.rmc_ok, L.ipc_ok, L.ψ_add, L.ψ_smul⟩

/-- C101: the share of the oracles for which GIPA fails on any honest statement is at most `|Ps| z ^ N`, where
`z` is the share of the digests that are zero in the field. -/
theorem C101_gipa (L : P.Lawful β φa φb ψ) (Ps Ds : Finset Bytes) (N : ℕ) (hN : N ≤ 2 ^ 64)
    (dg : Bytes → Bytes) (hP : P.Asks Ps) (hd : ∀ d ∈ Ds, 16 ≤ d.length)
    (hdg : ∀ x, 16 ≤ (dg x).length) :
    share (fun H : Ps → Fin N → Ds => ∃ k ma mb t cka ckb kt com,
      ma.length = 2 ^ k ∧ mb.length = 2 ^ k ∧ cka.length = 2 ^ k ∧ ckb.length = 2 ^ k ∧
      Gipa.Honest P ma mb t cka ckb kt com ∧
      ¬ ∃ proof, (GipaStatic.withDigest P (searchOracle dg H)).prove ma mb t cka ckb kt com = .ok proof ∧
        (GipaStatic.withDigest P (searchOracle dg H)).verify cka ckb kt com proof = .ok true) ≤
      Ps.card * share (ZeroHash F : Ds → Prop) ^ N := by
  refine le_trans (share_mono fun H => ?_) (share_stuck _)
  rintro ⟨k, ma, mb, t, cka, ckb, kt, com, h1, h2, h3, h4, Ho, hno⟩
  by_contra hs
  exact hno (Gipa.C11_complete_total (lawful_withDigest L _) (searchOracle_length dg H 16 hd hdg)
    (P.searchEnds_of_oracle dg hP hN hd hdg hs) k ma mb t cka ckb kt com h1 h2 h3 h4
    ⟨Ho.ip, Ho.lmc, Ho.rmc, Ho.ipc⟩)

end Gipa

section Tipa
variable {ρ F MA MB T KT OA OB OT G1 G2 GT TF : Type} [Field F] [DecidableEq F]
  [AddCommGroup MA] [Module F MA] [AddCommGroup MB] [Module F MB] [AddCommGroup T] [Module F T]
  [AddCommGroup G1] [Module F G1] [AddCommGroup G2] [Module F G2]
  [AddCommGroup GT] [Module F GT] [Monoid TF] [DecidableEq GT]
  [AddCommGroup OA] [Module F OA] [AddCommGroup OB] [Module F OB] [Add OT] [SMul F OT]
  [DecidableEq T] [DecidableEq OA] [DecidableEq OB] [DecidableEq OT]
  {V : TipaEnv F G1 G2 GT TF} {ψ : KT → T → OT} {e : G1 →ₗ[F] G2 →ₗ[F] GT}

/-- C101 for TIPA with shift; `u` is the share of the digests that decode to no field element. -/
theorem C101_tipa {P : Gipa ρ F MA MB T G2 G1 KT OA OB OT} {bil : MA →ₗ[F] MB →ₗ[F] T}
    {φa : MA →ₗ[F] G2 →ₗ[F] OA} {φb : MB →ₗ[F] G1 →ₗ[F] OB}
    (L : P.Lawful bil φa φb ψ) (hE : V.E.Lawful e) (Ps Ds : Finset Bytes) (N : ℕ) (hN : N ≤ 2 ^ 64)
    (dg : Bytes → Bytes) (hP : P.Asks Ps) (hP' : Tipa.Asks V P.serF Ps) (hd : ∀ d ∈ Ds, 16 ≤ d.length)
    (hdg : ∀ x, 16 ≤ (dg x).length) :
    share (fun H : Ps → Fin N → Ds => ∃ (k : ℕ) (srs : SRS G1 G2) (g : G1) (h : G2) (α β r : F)
      (ma : List MA) (mb : List MB) (t : T) (kt : KT) (com : Coms OA OB OT), r ≠ 0 ∧
      IsSrs srs g h α β (2 ^ (k + 1)) ∧ ma.length = 2 ^ (k + 1) ∧ mb.length = 2 ^ (k + 1) ∧
      Gipa.Honest P ma mb t (srs.commitmentKeys.1.mapIdx fun i ck => (r⁻¹) ^ i • ck)
        srs.commitmentKeys.2 kt com ∧
      ¬ ∃ v proof, srs.verifierKey = .ok v ∧
        Tipa.proveWithShift V (GipaStatic.withDigest P (searchOracle dg H)) srs ma mb
          (srs.commitmentKeys.1.mapIdx fun i ck => (r⁻¹) ^ i • ck) srs.commitmentKeys.2 kt r = .ok proof ∧
        Tipa.verifyWithShift V (GipaStatic.withDigest P (searchOracle dg H)) v kt com proof r =
          .ok true) ≤
      Ps.card * share (ZeroHash F : Ds → Prop) ^ N +
        Ps.card * share (NoElement V.fromRandomBytes : Ds → Prop) ^ N := by
  refine le_trans (share_mono fun H => ?_) (le_trans (share_or _ _) (add_le_add (share_stuck _)
    (share_stuck _)))
  rintro ⟨k, srs, g, h, α, β, r, ma, mb, t, kt, com, hr, hsrs, h1, h2, Ho, hno⟩
  by_contra hs
  rw [not_or] at hs
  exact hno (Tipa.C29_complete_total (lawful_withDigest L _) hE (searchOracle_length dg H 16 hd hdg)
    (P.searchEnds_of_oracle dg hP hN hd hdg hs.1) (Tipa.kzgEnds_of_oracle dg V P.serF hP' hN hs.2)
    k srs g h α β r hr hsrs ma mb t kt com h1 h2 ⟨Ho.ip, Ho.lmc, Ho.rmc, Ho.ipc⟩)

/-- C101 for TIPA with structured messages. -/
theorem C101_tipa_ssm {P : Gipa ρ F MA F T G2 Placeholder KT OA F OT} {bil : MA →ₗ[F] F →ₗ[F] T}
    {φa : MA →ₗ[F] G2 →ₗ[F] OA} (L : P.Lawful bil φa 0 ψ) (hE : V.E.Lawful e)
    (Ps Ds : Finset Bytes) (N : ℕ) (hN : N ≤ 2 ^ 64) (dg : Bytes → Bytes) (hP : P.Asks Ps)
    (hP' : TipaSsm.Asks V P.serF Ps) (hd : ∀ d ∈ Ds, 16 ≤ d.length) (hdg : ∀ x, 16 ≤ (dg x).length)
    (X : Exec) :
    share (fun H : Ps → Fin N → Ds => ∃ (k : ℕ) (srs : SRS G1 G2) (g : G1) (h : G2) (α β : F)
      (ma : List MA) (mb : List F) (b : F) (t : T) (kt : KT) (comA : OA) (comT : OT),
      IsLeftSrs srs g h α β (2 ^ (k + 1)) ∧ ma.length = 2 ^ (k + 1) ∧
      structuredScalarPower (2 ^ (k + 1)) b = .ok mb ∧
      GipaSsm.Honest P ma b srs.commitmentKeys.1 kt comA comT t ∧
      ¬ ∃ v proof, srs.verifierKey = .ok v ∧
        TipaSsm.prove V (GipaStatic.withDigest P (searchOracle dg H)) srs ma mb
          srs.commitmentKeys.1 kt = .ok proof ∧
        TipaSsm.verify X V (GipaStatic.withDigest P (searchOracle dg H)) v kt comA comT b proof =
          .ok true) ≤
      Ps.card * share (ZeroHash F : Ds → Prop) ^ N +
        Ps.card * share (NoElement V.fromRandomBytes : Ds → Prop) ^ N := by
  refine le_trans (share_mono fun H => ?_) (le_trans (share_or _ _) (add_le_add (share_stuck _)
    (share_stuck _)))
  rintro ⟨k, srs, g, h, α, β, ma, mb, b, t, kt, comA, comT, hsrs, h1, hmb, Ho, hno⟩
  by_contra hs
  rw [not_or] at hs
  exact hno (TipaSsm.C34_complete_total (lawful_withDigest L _) hE (searchOracle_length dg H 16 hd hdg)
    (P.searchEnds_of_oracle dg hP hN hd hdg hs.1) (TipaSsm.kzgEnds_of_oracle dg V P.serF hP' hN hs.2) X
    k srs g h α β hsrs ma mb b t kt comA comT h1 hmb ⟨Ho.ip, Ho.lmc, Ho.ipc⟩)

end Tipa

section Env
variable {ρ F G1 G2 GT TF : Type} [Field F] [DecidableEq F]
  [AddCommGroup G1] [Module F G1] [AddCommGroup G2] [Module F G2] [Monoid TF]
  [AddCommGroup GT] [Module F GT] [DecidableEq G1] [DecidableEq GT]
  (V : Env ρ F G1 G2 GT TF) {e : G1 →ₗ[F] G2 →ₗ[F] GT}

/-- C101 for the structured polynomial commitment. -/
theorem C101_poly_commit (hE : V.E.Lawful e) (Ps Ds : Finset Bytes) (N : ℕ) (hN : N ≤ 2 ^ 64)
    (dg : Bytes → Bytes) (hP : V.multiexpSsm.Asks Ps) (hP' : TipaSsm.Asks V.tipa V.serF Ps)
    (hd : ∀ d ∈ Ds, 16 ≤ d.length) (hdg : ∀ x, 16 ≤ (dg x).length) :
    share (fun H : Ps → Fin N → Ds => ∃ (s s' : ρ) (d : ℕ) (srs : SRS G1 G2 × List G1) (p : List F)
      (z : F), 1 ≤ d ∧ d + 1 ≤ 2 ^ 52 ∧
      Univariate.setup (V.withDigest (searchOracle dg H)) s d = .ok (srs, s') ∧ p.length ≤ d + 1 ∧
      ¬ ∃ com coms v proof,
        Univariate.commit (V.withDigest (searchOracle dg H)) srs p = .ok (com, coms) ∧
        srs.1.verifierKey = .ok v ∧
        Univariate.open_ (V.withDigest (searchOracle dg H)) srs p coms z = .ok proof ∧
        Univariate.verify (V.withDigest (searchOracle dg H)) v d com z (evalAt p z) proof = .ok true) ≤
      Ps.card * share (ZeroHash F : Ds → Prop) ^ N +
        Ps.card * share (NoElement V.fromRandomBytes : Ds → Prop) ^ N := by
  refine le_trans (share_mono fun H => ?_) (le_trans (share_or _ _) (add_le_add (share_stuck _)
    (share_stuck _)))
  rintro ⟨s, s', d, srs, p, z, hd1, hd2, hset, hp, hno⟩
  by_contra hs
  rw [not_or] at hs
  exact hno (Univariate.C45_complete_total (V.withDigest (searchOracle dg H)) hE
    (searchOracle_length dg H 16 hd hdg) (Gipa.searchEnds_of_oracle dg _ hP hN hd hdg hs.1)
    (TipaSsm.kzgEnds_of_oracle dg V.tipa V.serF hP' hN hs.2) s s' d srs hd1 hd2 hset p hp z)

/-- C101 for the transparent polynomial commitment. -/
theorem C101_transparent (hE : V.E.Lawful e) (Ps Ds : Finset Bytes) (N : ℕ) (hN : N ≤ 2 ^ 64)
    (dg : Bytes → Bytes) (hP : V.multiexpSsm.Asks Ps) (hP' : V.scalarSsm.Asks Ps)
    (hd : ∀ d ∈ Ds, 16 ≤ d.length) (hdg : ∀ x, 16 ≤ (dg x).length) :
    share (fun H : Ps → Fin N → Ds => ∃ (s s' : ρ) (d : ℕ) (ck : List G1 × List G2) (p : List F)
      (z : F), 1 ≤ d ∧ d + 1 ≤ 2 ^ 52 ∧
      TUnivariate.setup (V.withDigest (searchOracle dg H)) s d = .ok (ck, s') ∧ p.length ≤ d + 1 ∧
      ¬ ∃ com coms proof,
        TUnivariate.commit (V.withDigest (searchOracle dg H)) ck p = .ok (com, coms) ∧
        TUnivariate.open_ (V.withDigest (searchOracle dg H)) ck p coms z = .ok proof ∧
        TUnivariate.verify (V.withDigest (searchOracle dg H)) ck com z (evalAt p z) proof = .ok true) ≤
      Ps.card * share (ZeroHash F : Ds → Prop) ^ N := by
  refine le_trans (share_mono fun H => ?_) (share_stuck _)
  rintro ⟨s, s', d, ck, p, z, hd1, hd2, hset, hp, hno⟩
  by_contra hs
  exact hno (TUnivariate.C47_complete_total (V.withDigest (searchOracle dg H)) hE
    (searchOracle_length dg H 16 hd hdg) (Gipa.searchEnds_of_oracle dg _ hP hN hd hdg hs)
    (Gipa.searchEnds_of_oracle dg _ hP' hN hd hdg hs) s s' d ck hd1 hd2 hset p hp z)

/-- C101 for the Groth16 aggregation, which also fails if its challenge is 0 or 1. With `u` the share of the
digests decoding to no element, `b` the share of those decoding to 0 or 1, this adds `b / (1 - u)`. -/
theorem C101_groth16 (hE : V.E.Lawful e) (Ps Ds : Finset Bytes) (N : ℕ) (hN : N ≤ 2 ^ 64)
    (dg : Bytes → Bytes) (hP1 : V.pairingAB.Asks Ps) (hP2 : V.multiexpSsm.Asks Ps)
    (hP3 : Tipa.Asks V.tipa V.serF Ps) (hP4 : TipaSsm.Asks V.tipa V.serF Ps) (hP5 : Groth16.Asks V Ps)
    (hd : ∀ d ∈ Ds, 16 ≤ d.length) (hdg : ∀ x, 16 ≤ (dg x).length)
    (hu : share (NoElement V.fromRandomBytes : Ds → Prop) < 1) (k : ℕ)
    (srs : SRS G1 G2) (g : G1) (h : G2) (α β : F) (hsrs : IsSrs srs g h α β (2 ^ (k + 1)))
    (vk : G16VK G1 G2) (proofs : List (G16Proof G1 G2)) (inputs : List (List F))
    (hp : proofs.length = 2 ^ (k + 1)) (hv : List.Forall₂ (Groth16.Valid e vk) proofs inputs) :
    share (fun H : Ps → Fin N → Ds => ¬ ∃ v proof, srs.verifierKey = .ok v ∧
        Groth16.aggregate (V.withDigest (searchOracle dg H)) srs proofs = .ok proof ∧
        Groth16.verify (V.withDigest (searchOracle dg H)) v vk inputs proof = .ok true) ≤
      Ps.card * share (ZeroHash F : Ds → Prop) ^ N +
        Ps.card * share (NoElement V.fromRandomBytes : Ds → Prop) ^ N +
        share (BadElement V.fromRandomBytes : Ds → Prop) /
          (1 - share (NoElement V.fromRandomBytes : Ds → Prop)) := by
  classical
  set cA := dot (e · ·) (proofs.map (·.a)) srs.commitmentKeys.1 with hcA
  set cB := dot (e · ·) srs.commitmentKeys.2 (proofs.map (·.b)) with hcB
  set cC := dot (e · ·) (proofs.map (·.c)) srs.commitmentKeys.1 with hcC
  set p : Ps := ⟨_, hP5 cA cB cC⟩ with hpp
  have hfirst := share_apply (X := Ps) (D := Fin N → Ds) p fun f => ∃ i,
    BadElement V.fromRandomBytes (f i) ∧ ∀ j < i, NoElement V.fromRandomBytes (f j)
  refine le_trans (share_mono fun H => ?_) (le_trans (share_or _ _) (add_le_add (le_trans (share_or _ _)
    (add_le_add (share_stuck _) (share_stuck _))) (le_trans hfirst.le (share_first _ _ hu N))))
  intro hno
  by_contra hs
  rw [not_or, not_or] at hs
  obtain ⟨⟨hs1, hs2⟩, hs3⟩ := hs
  refine hno (Groth16.C49_complete_total (V := V.withDigest (searchOracle dg H)) hE
    (searchOracle_length dg H 16 hd hdg) (Gipa.searchEnds_of_oracle dg _ hP1 hN hd hdg hs1)
    (Gipa.searchEnds_of_oracle dg _ hP2 hN hd hdg hs1)
    ⟨Tipa.kzgEnds_of_oracle dg V.tipa V.serF hP3 hN hs2,
      TipaSsm.kzgEnds_of_oracle dg V.tipa V.serF hP4 hN hs2,
      Groth16.challenge_of_oracle dg V hP5 hN hs2⟩ k srs g h α β hsrs vk proofs inputs hp hv ?_)
  intro r hr
  obtain ⟨i, h1, h2⟩ := Groth16.challenge_first dg V hN cA cB cC p rfl
    (fun hall => hs2 ⟨p, hall⟩) r hr
  constructor
  · rintro rfl
    exact hs3 ⟨i, .inl h1, h2⟩
  · rintro rfl
    exact hs3 ⟨i, .inr h1, h2⟩

end Env

/-! ## Example -/

/-- Digests of 16 bytes with the values `0, …, 100`. -/
def Toy.wide : Finset Bytes := (Finset.range 101).image fun n => List.replicate 15 0 ++ [UInt8.ofNat n]

theorem toy_card_wide : Toy.wide.card = 101 := by decide +kernel

theorem toy_share (p : Toy.wide → Prop) (S : Finset Bytes) (hS : S ⊆ Toy.wide)
    (h : ∀ d : Toy.wide, p d ↔ (d : Bytes) ∈ S) : share p = S.card / 101 := by
  classical
  rw [share_eq, Fintype.card_coe, toy_card_wide]
  have : S = (Finset.univ.filter p).map (Function.Embedding.subtype _) := by
    ext d
    simp only [Finset.mem_map, Finset.mem_filter, Finset.mem_univ, true_and,
      Function.Embedding.subtype_apply]
    constructor
    · intro hd
      exact ⟨⟨d, hS hd⟩, (h _).mpr hd, rfl⟩
    · rintro ⟨d, hp, rfl⟩
      exact (h d).mp hp
  rw [this, Finset.card_map]
  rfl

theorem toy_share_zero : share (ZeroHash Toy.F : Toy.wide → Prop) = 1 / 101 := by
  have h : ∀ d ∈ Toy.wide, ((fromBE (d.take 16) : ℕ) : Toy.F) = 0 ↔
      d ∈ ({List.replicate 16 0} : Finset Bytes) := by decide +kernel
  exact (toy_share _ {List.replicate 16 0} (by decide +kernel) fun d => h d d.2).trans (by simp)

theorem toy_share_no : share (NoElement Toy.env.fromRandomBytes : Toy.wide → Prop) = 0 := by
  have h : ∀ d ∈ Toy.wide, Toy.env.fromRandomBytes d = none ↔ d ∈ (∅ : Finset Bytes) := by decide +kernel
  exact (toy_share _ ∅ (by simp) fun d => h d d.2).trans (by simp)

theorem toy_share_bad : share (BadElement Toy.env.fromRandomBytes : Toy.wide → Prop) = 2 / 101 := by
  have h : ∀ d ∈ Toy.wide, Toy.env.fromRandomBytes d = some 0 ∨ Toy.env.fromRandomBytes d = some 1 ↔
      d ∈ ({List.replicate 16 0, List.replicate 15 0 ++ [1]} : Finset Bytes) := by decide +kernel
  refine (toy_share _ {List.replicate 16 0, List.replicate 15 0 ++ [1]} (by decide +kernel)
    fun d => h d d.2).trans ?_
  rw [Finset.card_pair (by decide)]
  norm_num

theorem card_range_le {α β : Type} [Fintype α] (f : α → β) :
    (Set.finite_range f).toFinset.card ≤ Fintype.card α := by
  classical
  rw [show (Set.finite_range f).toFinset = Finset.univ.image f by ext; simp]
  exact Finset.card_image_le

/-- What the toy aggregation hashes after the nonce. -/
noncomputable def Toy.asked : Finset Bytes :=
  (Set.finite_range fun x : F × F × F × F × F × F × F => ser x.1 ++ ser x.2.1 ++ ser x.2.2.1 ++
    serIdentity ser ⟨[x.2.2.2.1]⟩ ++ ser x.2.2.2.2.1 ++ ser x.2.2.2.2.2.1 ++
    serIdentity ser ⟨[x.2.2.2.2.2.2]⟩).toFinset ∪
  (Set.finite_range fun x : F × F × F => ser x.1 ++ ser x.2.1 ++ ser x.2.2).toFinset ∪
  (Set.finite_range fun x : F × F => ser x.1 ++ ser x.2).toFinset

theorem toy_card_asked : Toy.asked.card ≤ 101 ^ 7 + 101 ^ 3 + 101 ^ 2 := by
  refine le_trans (Finset.card_union_le _ _) (add_le_add (le_trans (Finset.card_union_le _ _)
    (add_le_add ?_ ?_)) ?_) <;>
  · refine le_trans (card_range_le _) (le_of_eq ?_)
    simp only [Fintype.card_prod, ZMod.card]
    norm_num

theorem toy_mem_asked₇ (a b c d f g h : Toy.F) :
    Toy.ser a ++ Toy.ser b ++ Toy.ser c ++ serIdentity Toy.ser ⟨[d]⟩ ++ Toy.ser f ++ Toy.ser g ++
      serIdentity Toy.ser ⟨[h]⟩ ∈ Toy.asked :=
  Finset.mem_union_left _ (Finset.mem_union_left _ ((Set.Finite.mem_toFinset _).mpr ⟨(a, b, c, d, f, g, h), rfl⟩))

theorem toy_mem_asked₃ (a b c : Toy.F) : Toy.ser a ++ Toy.ser b ++ Toy.ser c ∈ Toy.asked :=
  Finset.mem_union_left _ (Finset.mem_union_right _ ((Set.Finite.mem_toFinset _).mpr ⟨(a, b, c), rfl⟩))

theorem toy_mem_asked₂ (a b : Toy.F) : Toy.ser a ++ Toy.ser b ∈ Toy.asked :=
  Finset.mem_union_right _ ((Set.Finite.mem_toFinset _).mpr ⟨(a, b), rfl⟩)

theorem toy_asks_ab : Toy.env.pairingAB.Asks Toy.asked := by
  rintro prev ⟨a, b, t⟩ ⟨a', b', t'⟩ ⟨_, x, h⟩ ⟨_, x', h'⟩
  obtain rfl := Except.ok.inj h
  obtain rfl := Except.ok.inj h'
  exact toy_mem_asked₇ prev a b x a' b' x'

theorem toy_asks_c : Toy.env.multiexpSsm.Asks Toy.asked := by
  rintro prev ⟨a, b, t⟩ ⟨a', b', t'⟩ ⟨_, x, h⟩ ⟨_, x', h'⟩
  obtain rfl := Except.ok.inj h
  obtain rfl := Except.ok.inj h'
  exact toy_mem_asked₇ prev a b x a' b' x'

/-- With ten nonces, the aggregation of the four toy proofs is accepted for more than 97 out of 100 functions. -/
example : share (fun H : Toy.asked → Fin 10 → Toy.wide => ¬ ∃ v proof, Toy.srs.verifierKey = .ok v ∧
      Groth16.aggregate (Toy.env.withDigest (searchOracle Toy.digest H)) Toy.srs Groth16.toyProofs =
        .ok proof ∧
      Groth16.verify (Toy.env.withDigest (searchOracle Toy.digest H)) v Groth16.toyVK
        [[1], [2], [3], [4]] proof = .ok true) < 3 / 100 := by
  have hw : ∀ d ∈ Toy.wide, 16 ≤ d.length := by decide +kernel
  have h := C101_groth16 Toy.env Toy.lawful Toy.asked Toy.wide 10 (by norm_num) Toy.digest toy_asks_ab
    toy_asks_c toy_mem_asked₃ toy_mem_asked₂ toy_mem_asked₃ hw Toy.digest_length
    (by rw [toy_share_no]; norm_num) 1 Toy.srs 1 1 3 5 Toy.srs_isSrs Groth16.toyVK Groth16.toyProofs _ rfl
    Groth16.toy_valid
  refine lt_of_le_of_lt h ?_
  have hc : (Toy.asked.card : ℚ) ≤ 101 ^ 7 + 101 ^ 3 + 101 ^ 2 := by exact_mod_cast toy_card_asked
  rw [toy_share_zero, toy_share_no, toy_share_bad]
  have : (Toy.asked.card : ℚ) * (1 / 101) ^ 10 ≤ (101 ^ 7 + 101 ^ 3 + 101 ^ 2) * (1 / 101) ^ 10 :=
    mul_le_mul_of_nonneg_right hc (by positivity)
  norm_num at this ⊢
  linarith

end Ripp
