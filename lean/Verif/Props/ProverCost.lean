import Verif.Lemmas.ProverCostBounds
import Verif.Props.Cost
import Verif.Props.PolyCommit

/-!
# C120: the work of the provers

The provers of `Verif/Model/ProverCost.lean` count the expensive operations; without the counts they
are the provers of the other model files (the `_value` theorems below).

Written from the claims of the paper: the provers of SIPP, GIPA, TIPA and of the aggregation work in
time linear in the number `n = 2^k` of messages, that of the two-tier polynomial commitments in time
linear in the number of coefficients with only `O(√d)` group operations for an opening. The numbers are
exact for every run that returns a proof, and upper bounds for all others. Digests and inversions are
given for the case that no nonce has to be skipped, as in C113.

Two things that the numbers show: SIPP's prover computes `5 n - 4` scalar multiplications, of which
`2 n - 2` are multiplications by one (`sipp/src/lib.rs:221-224`), and the openings of the commitment keys
compute the same product of a challenge and a power anew for every coefficient
(`ip_proofs/src/tipa/mod.rs:411-413`).
-/

set_option linter.unusedSectionVars false

namespace Ripp

open Counted

/-- The counts of `x` are at most `w`, and exactly `w` if there is a result. Digests and inversions are
included only if `first` holds. -/
def Counted.Takes {α : Type} (first : Prop) (w : Work) (x : Counted α) : Prop :=
  ∀ o, (o = .hash ∨ o = .inv → first) →
    x.work o ≤ w o ∧ ∀ a, x.value = .ok a → x.work o = w o

theorem takes_of_costs {α : Type} {first : Prop} {w : Work} {x : Counted α}
    (h : ∀ o, (o = .hash ∨ o = .inv → first) → x.Costs o (w o) fun _ => True) : x.Takes first w :=
  fun o ho => ⟨(h o ho).1, fun a ha => (h o ho).2 a ha trivial⟩

theorem costs_error {α : Type} (o : Op) (n : ℕ) (Q : α → Prop) (e : Fault) :
    (free (.error e) : Counted α).Costs o n Q := ⟨Nat.zero_le _, fun _ h => by cases h⟩

namespace Gipa

variable {ρ F MA MB T KA KB KT OA OB OT : Type} [Field F] [DecidableEq F]
  [AddCommGroup MA] [Module F MA] [AddCommGroup MB] [Module F MB]
  [AddCommGroup KA] [Module F KA] [AddCommGroup KB] [Module F KB]
  [DecidableEq T] [DecidableEq OA] [DecidableEq OB] [DecidableEq OT]
  {P : Gipa ρ F MA MB T KA KB KT OA OB OT} {C : GipaCount MA MB T KA KB KT OA OB OT}

/-- C120: without the counts, the counting prover is GIPA's prover. -/
theorem C120_gipa_value (h : C.Of P) (ma : List MA) (mb : List MB) (t : T) (cka : List KA)
    (ckb : List KB) (ckt : KT) (com : Coms OA OB OT) :
    (proveC P C ma mb t cka ckb ckt com).value = P.prove ma mb t cka ckb ckt com :=
  value_proveC h ma mb t cka ckb ckt com

/-- C120: the work of GIPA's prover for `2^k` messages: the inner product and the commitments of all
messages once, for the checks, and twice those of `2^k - 1` messages in the rounds, together with
`4 (2^k - 1)` multiplications for folding messages and keys. -/
theorem C120_gipa {ip lmc rmc : Work × Work} {ipc : Work} (hL : C.Linear ip lmc rmc ipc)
    (ma : List MA) (mb : List MB) (t : T) (cka : List KA) (ckb : List KB) (ckt : KT)
    (com : Coms OA OB OT) (k : ℕ) (h1 : ma.length = 2 ^ k) (h2 : mb.length = 2 ^ k)
    (h3 : cka.length = 2 ^ k) (h4 : ckb.length = 2 ^ k) :
    (proveC P C ma mb t cka ckb ckt com).Takes P.FirstTry fun o =>
      (2 ^ k + 2 * (2 ^ k - 1)) * (ip.1 o + lmc.1 o + rmc.1 o)
        + (2 * k + 1) * (ip.2 o + lmc.2 o + rmc.2 o + ipc o)
        + match o with
          | .scale => 4 * (2 ^ k - 1)
          | .hash => k
          | .inv => k
          | _ => 0 := by
  refine takes_of_costs fun o ho => ?_
  unfold proveC
  have hip := (hL.ip o ma mb (by omega)).eq (by rw [h1])
  have hl := (hL.lmc o cka ma (by omega)).eq (by rw [h1])
  have hr := (hL.rmc o ckb mb (by omega)).eq (by rw [h2])
  refine (hip.step (m := (2 ^ k * lmc.1 o + lmc.2 o) + ((2 ^ k * rmc.1 o + rmc.2 o) + (ipc o
    + proverWork k (ip.1 + lmc.1 + rmc.1) (ip.2 + lmc.2 + rmc.2 + ipc) o))) fun i _ => ?_).eq ?_
  · split
    · exact costs_error o _ _ _
    · split
      · exact costs_error o _ _ _
      · refine (costs_verifyCommitmentC hl _ _).step fun b _ => ?_
        split
        · exact costs_error o _ _ _
        · refine (costs_verifyCommitmentC hr _ _).step fun b _ => ?_
          split
          · exact costs_error o _ _ _
          · refine (costs_verifyCommitmentC (hL.ipc o _ _) _ _).step fun b _ => ?_
            split
            · exact costs_error o _ _ _
            · exact ((costs_proveWithAuxC ho hL ckt h1 h2 h3 h4).step fun _ _ =>
                costs_pure o _ _).eq (by simp)
  · cases o <;> simp [unit, proverWork] <;> ring

end Gipa

namespace Tipa

variable {ρ F MA MB T KT OA OB OT G1 G2 GT TF : Type} [Field F] [DecidableEq F]
  [AddCommGroup MA] [Module F MA] [AddCommGroup MB] [Module F MB]
  [AddCommGroup G1] [Module F G1] [AddCommGroup G2] [Module F G2]
  {V : TipaEnv F G1 G2 GT TF} {P : Gipa ρ F MA MB T G2 G1 KT OA OB OT}
  {C : GipaCount MA MB T G2 G1 KT OA OB OT}

/-- C120: without the counts, the counting prover is TIPA's prover. -/
theorem C120_tipa_value (h : C.Of P) (srs : SRS G1 G2) (ma : List MA) (mb : List MB) (cka : List G2)
    (ckb : List G1) (ckt : KT) (r : F) :
    (proveWithShiftC V P C srs ma mb cka ckb ckt r).value
      = proveWithShift V P srs ma mb cka ckb ckt r :=
  value_proveWithShiftC V h srs ma mb cka ckb ckt r

/-- The operations of TIPA's prover for `2^k` messages, apart from the inner product and the
commitments of the rounds. -/
def tipaProverWork (k : ℕ) : Work
  | .mul => 8 * 2 ^ k + 8 * k - 2
  | .inv => 2 * k + 1
  | .scale => 8 * 2 ^ k - 6
  | .hash => k + 1
  | _ => 0

theorem costs_proveWithShiftC {o : Op} (ho : o = .hash ∨ o = .inv → P.FirstTry)
    (ho' : o = .hash ∨ o = .inv → ∀ x, V.fromRandomBytes (P.digest x) ≠ none)
    {ip lmc rmc : Work × Work} {ipc : Work} (hL : C.Linear ip lmc rmc ipc) (srs : SRS G1 G2)
    {ma : List MA} {mb : List MB} {cka : List G2} {ckb : List G1} (ckt : KT) (r : F) {k : ℕ}
    (hk : 1 ≤ k) (h1 : ma.length = 2 ^ k) (h2 : mb.length = 2 ^ k) (h3 : cka.length = 2 ^ k)
    (h4 : ckb.length = 2 ^ k) (h5 : srs.hBetaPowers.length = 2 * 2 ^ k - 1)
    (h6 : srs.gAlphaPowers.length = 2 * 2 ^ k - 1) :
    (proveWithShiftC V P C srs ma mb cka ckb ckt r).Costs o
      (tipaProverWork k o + 2 * ((2 ^ k - 1) * (ip.1 o + lmc.1 o + rmc.1 o)
        + k * (ip.2 o + lmc.2 o + rmc.2 o + ipc o))) fun _ => True := by
  obtain ⟨s, hs⟩ : ∃ s, 2 ^ k = s + 2 := by
    refine ⟨2 ^ k - 2, ?_⟩
    have : 2 ^ 1 ≤ 2 ^ k := Nat.pow_le_pow_right (by norm_num) hk
    omega
  refine ((Gipa.costs_proveWithAuxC ho hL ckt h1 h2 h3 h4).step (m := k * unit .inv o
    + (unit .inv o + (unit .hash o + (((2 * (2 ^ k - 1) + 4 * k + 2 + (2 * 2 ^ k - 1)) * unit .mul o
    + (2 * 2 ^ k - 1) * unit .scale o) + ((2 * (2 ^ k - 1) + 4 * k + 2 + (2 * 2 ^ k - 1))
    * unit .mul o + (2 * 2 ^ k - 1) * unit .scale o)))))
    fun p hp => ?_).eq ?_
  · obtain ⟨proof, aux⟩ := p
    have hlen := (Gipa.length_of_proveWithAuxC h1 h2 h3 h4 hp).1
    refine ((costs_invertAllC o aux.transcript).eq (by rw [hlen])).step fun tri htri => ?_
    have htri' : tri.length = k :=
      (length_of_mapM ((value_invertAllC aux.transcript).symm.trans htri)).trans hlen
    refine ((costs_inverseC o r).step fun _ _ => (costs_free o _ _).step fun _ _ =>
      (costs_kzgChallengeC _ ho' _ _ _ _).step fun c _ =>
      ((costs_proveKeyOpeningC o srs.hBetaPowers tri _ c (by omega)).eq (by rw [htri', h5])).step
      fun _ _ => ((costs_proveKeyOpeningC o srs.gAlphaPowers aux.transcript 1 c (by omega)).eq
        (by rw [hlen, h6])).step fun _ _ => costs_pure o _ _).eq (by ring)
  · have e1 : s + 2 - 1 = s + 1 := rfl
    have e2 : 2 * (s + 2) - 1 = 2 * s + 3 := by omega
    have e3 : 8 * (s + 2) - 6 = 8 * s + 10 := by omega
    have e4 : 8 * (s + 2) + 8 * k - 2 = 8 * s + 8 * k + 14 := by omega
    cases o <;> simp [unit, tipaProverWork, Gipa.proverWork, hs, e1, e2, e3, e4] <;> ring

/-- C120: the work of TIPA's prover with a reference string for `2^k` messages. -/
theorem C120_tipa {ip lmc rmc : Work × Work} {ipc : Work} (hL : C.Linear ip lmc rmc ipc)
    (srs : SRS G1 G2) (ma : List MA) (mb : List MB) (cka : List G2) (ckb : List G1) (ckt : KT) (r : F)
    (k : ℕ) (hk : 1 ≤ k) (h1 : ma.length = 2 ^ k) (h2 : mb.length = 2 ^ k)
    (h3 : cka.length = 2 ^ k) (h4 : ckb.length = 2 ^ k)
    (h5 : srs.hBetaPowers.length = 2 * 2 ^ k - 1) (h6 : srs.gAlphaPowers.length = 2 * 2 ^ k - 1) :
    (proveWithShiftC V P C srs ma mb cka ckb ckt r).Takes
      (P.FirstTry ∧ ∀ x, V.fromRandomBytes (P.digest x) ≠ none) fun o =>
      tipaProverWork k o + 2 * ((2 ^ k - 1) * (ip.1 o + lmc.1 o + rmc.1 o)
        + k * (ip.2 o + lmc.2 o + rmc.2 o + ipc o)) :=
  takes_of_costs fun _ ho => costs_proveWithShiftC (fun h => (ho h).1) (fun h => (ho h).2) hL srs ckt
    r hk h1 h2 h3 h4 h5 h6

end Tipa

namespace GipaSsm

variable {ρ F MA T KA KT OA OT : Type} [Field F] [DecidableEq F]
  [AddCommGroup MA] [Module F MA] [AddCommGroup KA] [Module F KA]
  {P : Gipa ρ F MA F T KA Placeholder KT OA F OT} {C : GipaCount MA F T KA Placeholder KT OA F OT}

/-- C120: without the counts, the counting prover is that of the structured-message argument. -/
theorem C120_gipa_ssm_value (h : C.Of P) (ma : List MA) (mb : List F) (cka : List KA) (ckt : KT) :
    (proveC P C ma mb cka ckt).value = prove P ma mb cka ckt :=
  value_proveC h ma mb cka ckt

theorem costs_proveC {o : Op} (ho : o = .hash ∨ o = .inv → P.FirstTry) {ip lmc rmc : Work × Work}
    {ipc : Work} (hL : C.Linear ip lmc rmc ipc) {ma : List MA} {mb : List F} {cka : List KA}
    (ckt : KT) {k : ℕ} (h1 : ma.length = 2 ^ k) (h2 : mb.length = 2 ^ k)
    (h3 : cka.length = 2 ^ k) :
    (proveC P C ma mb cka ckt).Costs o
      (Gipa.proverWork k (ip.1 + lmc.1 + rmc.1) (ip.2 + lmc.2 + rmc.2 + ipc) o) fun _ => True :=
  ((Gipa.costs_proveWithAuxC ho hL ckt h1 h2 h3 (by simpa using h2)).step fun _ _ =>
    costs_pure o _ _).eq (by simp)

/-- C120: the work of the prover of the structured-message argument for `2^k` messages. -/
theorem C120_gipa_ssm {ip lmc rmc : Work × Work} {ipc : Work} (hL : C.Linear ip lmc rmc ipc)
    (ma : List MA) (mb : List F) (cka : List KA) (ckt : KT) (k : ℕ) (h1 : ma.length = 2 ^ k)
    (h2 : mb.length = 2 ^ k) (h3 : cka.length = 2 ^ k) :
    (proveC P C ma mb cka ckt).Takes P.FirstTry fun o =>
      2 * ((2 ^ k - 1) * (ip.1 o + lmc.1 o + rmc.1 o) + k * (ip.2 o + lmc.2 o + rmc.2 o + ipc o))
        + match o with
          | .scale => 4 * (2 ^ k - 1)
          | .hash => k
          | .inv => k
          | _ => 0 :=
  takes_of_costs fun o ho => (costs_proveC ho hL ckt h1 h2 h3).eq (by
    cases o <;> simp [unit, Gipa.proverWork])

end GipaSsm

namespace TipaSsm

variable {ρ F MA T KT OA OT G1 G2 GT TF : Type} [Field F] [DecidableEq F]
  [AddCommGroup MA] [Module F MA]
  [AddCommGroup G1] [Module F G1] [AddCommGroup G2] [Module F G2]
  {V : TipaEnv F G1 G2 GT TF} {P : Gipa ρ F MA F T G2 Placeholder KT OA F OT}
  {C : GipaCount MA F T G2 Placeholder KT OA F OT}

/-- C120: without the counts, the counting prover is that of TIPA with a structured message. -/
theorem C120_tipa_ssm_value (h : C.Of P) (srs : SRS G1 G2) (ma : List MA) (mb : List F)
    (cka : List G2) (ckt : KT) :
    (proveC V P C srs ma mb cka ckt).value = prove V P srs ma mb cka ckt :=
  value_proveC V h srs ma mb cka ckt

/-- The operations of the prover of TIPA with a structured message, apart from the inner product and
the commitments of the rounds. -/
def tipaSsmProverWork (k : ℕ) : Work
  | .mul => 4 * 2 ^ k + 4 * k - 1
  | .inv => 2 * k
  | .scale => 6 * 2 ^ k - 5
  | .hash => k + 1
  | _ => 0

theorem costs_proveC {o : Op} (ho : o = .hash ∨ o = .inv → P.FirstTry)
    (ho' : o = .hash ∨ o = .inv → ∀ x, V.fromRandomBytes (P.digest x) ≠ none)
    {ip lmc rmc : Work × Work} {ipc : Work} (hL : C.Linear ip lmc rmc ipc) (srs : SRS G1 G2)
    {ma : List MA} {mb : List F} {cka : List G2} (ckt : KT) {k : ℕ}
    (hk : 1 ≤ k) (h1 : ma.length = 2 ^ k) (h2 : mb.length = 2 ^ k) (h3 : cka.length = 2 ^ k)
    (h5 : srs.hBetaPowers.length = 2 * 2 ^ k - 1) :
    (proveC V P C srs ma mb cka ckt).Costs o
      (tipaSsmProverWork k o + 2 * ((2 ^ k - 1) * (ip.1 o + lmc.1 o + rmc.1 o)
        + k * (ip.2 o + lmc.2 o + rmc.2 o + ipc o))) fun _ => True := by
  obtain ⟨s, hs⟩ : ∃ s, 2 ^ k = s + 2 := by
    refine ⟨2 ^ k - 2, ?_⟩
    have : 2 ^ 1 ≤ 2 ^ k := Nat.pow_le_pow_right (by norm_num) hk
    omega
  have h4 : (List.replicate mb.length (PUnit.unit : Placeholder)).length = 2 ^ k := by simpa using h2
  refine ((Gipa.costs_proveWithAuxC ho hL ckt h1 h2 h3 h4).step (m := k * unit .inv o
    + (unit .hash o + ((2 * (2 ^ k - 1) + 4 * k + 2 + (2 * 2 ^ k - 1)) * unit .mul o
    + (2 * 2 ^ k - 1) * unit .scale o)))
    fun p hp => ?_).eq ?_
  · obtain ⟨proof, aux⟩ := p
    have hlen := (Gipa.length_of_proveWithAuxC h1 h2 h3 h4 hp).1
    refine ((costs_invertAllC o aux.transcript).eq (by rw [hlen])).step fun tri htri => ?_
    have htri' : tri.length = k :=
      (length_of_mapM ((value_invertAllC aux.transcript).symm.trans htri)).trans hlen
    exact ((costs_kzgChallengeC _ ho' _ _ _).step fun c _ =>
      ((costs_proveKeyOpeningC o srs.hBetaPowers tri _ c (by omega)).eq (by rw [htri', h5])).step
      fun _ _ => costs_pure o _ _).eq (by ring)
  · have e1 : s + 2 - 1 = s + 1 := rfl
    have e2 : 2 * (s + 2) - 1 = 2 * s + 3 := by omega
    have e3 : 6 * (s + 2) - 5 = 6 * s + 7 := by omega
    have e4 : 4 * (s + 2) + 4 * k - 1 = 4 * s + 4 * k + 7 := by omega
    cases o <;> simp [unit, tipaSsmProverWork, Gipa.proverWork, hs, e1, e2, e3, e4] <;> ring

/-- C120: the work of the prover of TIPA with a structured message for `2^k` messages. -/
theorem C120_tipa_ssm {ip lmc rmc : Work × Work} {ipc : Work} (hL : C.Linear ip lmc rmc ipc)
    (srs : SRS G1 G2) (ma : List MA) (mb : List F) (cka : List G2) (ckt : KT)
    (k : ℕ) (hk : 1 ≤ k) (h1 : ma.length = 2 ^ k) (h2 : mb.length = 2 ^ k)
    (h3 : cka.length = 2 ^ k) (h5 : srs.hBetaPowers.length = 2 * 2 ^ k - 1) :
    (proveC V P C srs ma mb cka ckt).Takes
      (P.FirstTry ∧ ∀ x, V.fromRandomBytes (P.digest x) ≠ none) fun o =>
      tipaSsmProverWork k o + 2 * ((2 ^ k - 1) * (ip.1 o + lmc.1 o + rmc.1 o)
        + k * (ip.2 o + lmc.2 o + rmc.2 o + ipc o)) :=
  takes_of_costs fun _ ho => costs_proveC (fun h => (ho h).1) (fun h => (ho h).2) hL srs ckt
    hk h1 h2 h3 h5

end TipaSsm

section Applications
variable {ρ F G1 G2 GT TF : Type} [Field F] [DecidableEq F]
  [AddCommGroup G1] [Module F G1] [AddCommGroup G2] [Module F G2] [Monoid TF]

theorem costs_pairing_n (E : Engine G1 G2 GT TF) (X : Exec) (o : Op) {a : List G1} {b : List G2}
    {n : ℕ} (ha : a.length = n) (hb : b.length = n) :
    (pairingIPC E X a b).Costs o (n * unit .miller o + unit .finalExp o) fun _ => True :=
  (costs_pairingIPC o E X a b (by omega)).eq (by rw [ha])

theorem pairingABC_linear (V : Env ρ F G1 G2 GT TF) :
    V.pairingABC.Linear (unit .miller, unit .finalExp) (unit .miller, unit .finalExp)
      (unit .miller, unit .finalExp) 0 :=
  ⟨fun o _ _ h => costs_pairing_n V.E V.X o rfl h.symm, fun o _ _ h => costs_pairing_n V.E V.X o rfl h,
    fun o _ _ h => costs_pairing_n V.E V.X o h rfl, fun o _ _ => costs_pure o _ _⟩

theorem multiexpSsmC_linear (V : Env ρ F G1 G2 GT TF) :
    V.multiexpSsmC.Linear (unit .scale, 0) (unit .miller, unit .finalExp) 0 0 :=
  ⟨fun o a b h => costs_multiexpIPC o a b h,
    fun o _ _ h => costs_pairing_n V.E V.X o rfl h, fun o _ _ _ => (costs_pure o _ _).eq (by simp),
    fun o _ _ => costs_pure o _ _⟩

theorem scalarSsmC_linear (V : Env ρ F G1 G2 GT TF) :
    V.scalarSsmC.Linear (unit .mul, 0) (unit .scale, 0) 0 0 :=
  ⟨fun o a b _ => costs_scalarIPC o V.X a b,
    fun o k m h => (costs_multiexpIPC o k m h).eq (by simp [h]),
    fun o _ _ _ => (costs_pure o _ _).eq (by simp), fun o _ _ => costs_pure o _ _⟩

/-- C120: without the counts, the counting functions are those of the polynomial commitment schemes. -/
theorem C120_bivariate_value (V : Env ρ F G1 G2 GT TF) (srs : SRS G1 G2 × List G1)
    (ck : List G1 × List G2) (ps : List (List F)) (coms : List G1) (point : F × F) :
    (Bivariate.commitC V srs ps).value = Bivariate.commit V srs ps ∧
    (Bivariate.openC V srs ps coms point).value = Bivariate.open_ V srs ps coms point ∧
    (TBivariate.commitC V ck ps).value = TBivariate.commit V ck ps ∧
    (TBivariate.openC V ck ps coms point).value = TBivariate.open_ V ck ps coms point :=
  ⟨Bivariate.value_commitC V srs ps, Bivariate.value_openC V srs ps coms point,
    TBivariate.value_commitC V ck ps, TBivariate.value_openC V ck ps coms point⟩

theorem length_resize {α : Type} (xs : List α) (n : ℕ) (d : α) : (resize xs n d).length = n := by
  simp only [resize, List.length_append, List.length_take, List.length_replicate]
  omega

/-- C120: committing to a bivariate polynomial takes one scalar multiplication for every coefficient
and one Miller loop for every power of `x`. -/
theorem C120_bivariate_commit (V : Env ρ F G1 G2 GT TF) (srs : SRS G1 G2 × List G1)
    (ps : List (List F)) (n : ℕ) (h : srs.1.hBetaPowers.length = 2 * n - 1) :
    (Bivariate.commitC V srs ps).Takes True fun
      | .scale => n * srs.2.length
      | .miller => n
      | .finalExp => 1
      | _ => 0 := by
  refine takes_of_costs fun o _ => ?_
  have hck : srs.1.commitmentKeys.1.length = n := by
    rw [SRS.commitmentKeys, length_stepBy2, h]
    omega
  refine ((costs_free o _ _).step fun _ _ => (costs_mapM (fun p => Kzg.costs_commitC o srs.2 p)
    _).step (m := n * unit .miller o + unit .finalExp o) fun coms hc => ?_).eq ?_
  · rw [value_mapM] at hc
    have := length_of_mapM hc
    rw [length_resize, hck] at this
    exact ((costs_pairing_n V.E V.X o this hck).step fun _ _ => costs_pure o _ _).eq (by simp)
  · rw [length_resize, hck]
    cases o <;> simp [unit]

/-- The operations for opening a commitment to a polynomial with `2^k` powers of `x` and `m` powers of
`y`. -/
def bivariateOpenWork (k m : ℕ) : Work
  | .mul => 2 ^ k * m + m + 5 * 2 ^ k + 4 * k - 1
  | .inv => 2 * k
  | .scale => 8 * 2 ^ k - 7 + 2 * m
  | .miller => 2 * (2 ^ k - 1)
  | .finalExp => 2 * k
  | .hash => k + 1
  | .pow => 0

/-- C120: opening a commitment to a polynomial with `n · m` coefficients takes that many multiplications
of scalars, but only `O(n + m)` group operations. The number of multiplications is an upper bound,
because the opening divides a polynomial whose degree depends on the values; all other numbers are
exact. -/
theorem C120_bivariate_open (V : Env ρ F G1 G2 GT TF) (srs : SRS G1 G2 × List G1)
    (ps : List (List F)) (coms : List G1) (point : F × F) (k : ℕ) (hk : 1 ≤ k)
    (h : srs.1.hBetaPowers.length = 2 * 2 ^ k - 1) (hc : coms.length = 2 ^ k) (o : Op)
    (ho : o = .hash ∨ o = .inv →
      V.multiexpSsm.FirstTry ∧ ∀ x, V.fromRandomBytes (V.digest x) ≠ none) :
    (Bivariate.openC V srs ps coms point).work o ≤ bivariateOpenWork k srs.2.length o ∧
      (o ≠ .mul → ∀ proof, (Bivariate.openC V srs ps coms point).value = .ok proof →
        (Bivariate.openC V srs ps coms point).work o = bivariateOpenWork k srs.2.length o) := by
  have hck : srs.1.commitmentKeys.1.length = 2 ^ k := by
    rw [SRS.commitmentKeys, length_stepBy2, h]
    omega
  obtain ⟨s, hs⟩ : ∃ s, 2 ^ k = s + 2 := by
    refine ⟨2 ^ k - 2, ?_⟩
    have : 2 ^ 1 ≤ 2 ^ k := Nat.pow_le_pow_right (by norm_num) hk
    omega
  suffices H : (Bivariate.openC V srs ps coms point).Costs o
      (bivariateOpenWork k srs.2.length o) fun _ => o ≠ .mul from
    ⟨H.1, fun h p hp => H.2 p hp h⟩
  unfold Bivariate.openC
  simp only [hck]
  refine ((costs_free o _ _).step fun _ _ => (costs_powersLoopC o _ _ _ _).step
    (m := 2 ^ k * srs.2.length * unit .mul o + (srs.2.length * unit .scale o
      + ((TipaSsm.tipaSsmProverWork k o + 2 * ((2 ^ k - 1) * (unit .scale o + unit .miller o)
        + k * unit .finalExp o)) + (srs.2.length * unit .mul o + srs.2.length * unit .scale o))))
    fun xs hxs => ?_).eq ?_
  · have hxl : xs.length = 2 ^ k := by
      rw [value_powersLoopC] at hxs
      cases hxs
      rw [powersLoop_eq]
      simp
    refine (costs_yEvalCoeffsC o _ _ _ _).step fun ye hye => (costs_msmC o _ _).step fun _ _ =>
      ((TipaSsm.costs_proveC (fun h => (ho h).1) (fun h => (ho h).2) (multiexpSsmC_linear V) srs.1
        PUnit.unit hk hc hxl hck h).eq (by simp)).step fun ip _ => ?_
    have hyl : (polyOf ye).length ≤ srs.2.length := by
      refine (length_trim_le _).trans (le_of_eq ?_)
      rw [value_yEvalCoeffsC] at hye
      have := length_of_mapM hye
      simpa using this
    have hz := Kzg.costs_openC o srs.2 (polyOf ye) point.2
    refine (Costs.bind (R := fun _ => o ≠ .mul) (x := Kzg.openC srs.2 (polyOf ye) point.2)
      ⟨hz.1.trans ?_, ?_⟩ (fun _ _ => costs_pure o _ _) (fun _ _ _ _ h => h)).eq (Nat.add_zero _)
    · gcongr
    · intro a ha hne
      rw [hz.2 a ha trivial]
      simp [unit, hne]
  · have e1 : s + 2 - 1 = s + 1 := rfl
    have e2 : 6 * (s + 2) - 5 = 6 * s + 7 := by omega
    have e3 : 8 * (s + 2) - 7 = 8 * s + 9 := by omega
    have e4 : 4 * (s + 2) + 4 * k - 1 = 4 * s + 4 * k + 7 := by omega
    have e5 : (s + 2) * srs.2.length + srs.2.length + 5 * (s + 2) + 4 * k - 1
      = (s + 2) * srs.2.length + srs.2.length + 5 * s + 4 * k + 9 := by omega
    cases o <;> simp [unit, TipaSsm.tipaSsmProverWork, bivariateOpenWork, hs, e1, e2, e3, e4, e5] <;>
      ring

/-- C120: committing with the transparent scheme. -/
theorem C120_transparent_commit (V : Env ρ F G1 G2 GT TF) (ck : List G1 × List G2)
    (ps : List (List F)) :
    (TBivariate.commitC V ck ps).Takes True fun
      | .scale => ck.2.length * ck.1.length
      | .miller => ck.2.length
      | .finalExp => 1
      | _ => 0 := by
  refine takes_of_costs fun o _ => ?_
  refine ((costs_free o _ _).step fun _ _ => (costs_mapM (n := ck.1.length * unit .scale o)
    (fun p => ((costs_free o _ _).step fun _ _ =>
      costs_multiexpIPC o _ _ (length_resize _ _ _).symm).eq (by simp)) _).step
    (m := ck.2.length * unit .miller o + unit .finalExp o) fun coms hc => ?_).eq ?_
  · rw [value_mapM] at hc
    have := length_of_mapM hc
    rw [length_resize] at this
    exact ((costs_pairing_n V.E V.X o this rfl).step fun _ _ => costs_pure o _ _).eq (by simp)
  · rw [length_resize]
    cases o <;> simp [unit]

/-- The operations for opening a commitment of the transparent scheme, for keys of length `2^k₁` and
`2^k₂`. -/
def transparentOpenWork (k₂ k₁ : ℕ) : Work
  | .mul => 2 ^ k₂ * 2 ^ k₁ + 2 ^ k₂ + 3 * 2 ^ k₁ - 4
  | .inv => k₂ + k₁
  | .scale => 6 * 2 ^ k₂ + 7 * 2 ^ k₁ - 12
  | .miller => 2 * (2 ^ k₂ - 1)
  | .finalExp => 2 * k₂
  | .hash => k₂ + k₁
  | .pow => 0

/-- C120: opening a commitment of the transparent scheme. -/
theorem C120_transparent_open (V : Env ρ F G1 G2 GT TF) (ck : List G1 × List G2)
    (ps : List (List F)) (coms : List G1) (point : F × F) (k₂ k₁ : ℕ) (h2 : ck.2.length = 2 ^ k₂)
    (h1 : ck.1.length = 2 ^ k₁) (hc : coms.length = 2 ^ k₂) :
    (TBivariate.openC V ck ps coms point).Takes (V.multiexpSsm.FirstTry ∧ V.scalarSsm.FirstTry)
      (transparentOpenWork k₂ k₁) := by
  refine takes_of_costs fun o ho => ?_
  obtain ⟨s, hs⟩ : ∃ s, 2 ^ k₂ = s + 1 :=
    ⟨2 ^ k₂ - 1, by have := Nat.one_le_two_pow (n := k₂); omega⟩
  obtain ⟨t, ht⟩ : ∃ t, 2 ^ k₁ = t + 1 :=
    ⟨2 ^ k₁ - 1, by have := Nat.one_le_two_pow (n := k₁); omega⟩
  have hpl : ∀ (k : ℕ) (x : F) (xs : List F),
      (structuredScalarPowerC (2 ^ k) x).value = .ok xs → xs.length = 2 ^ k := by
    intro k x xs hx
    rw [value_structuredScalarPowerC, structuredScalarPower_eq] at hx
    cases hx
    have := Nat.one_le_two_pow (n := k)
    simp only [Spec.powers, List.length_map, List.length_range]
    omega
  unfold TBivariate.openC
  simp only [h1, h2]
  refine ((costs_free o _ _).step fun _ _ => (costs_structuredScalarPowerC o _ _).step
    (m := 2 ^ k₂ * 2 ^ k₁ * unit .mul o + (2 ^ k₁ * unit .scale o
      + (Gipa.proverWork k₂ (unit .scale + unit .miller + 0) (0 + unit .finalExp + 0 + 0) o
      + ((2 ^ k₁ - 1) * unit .mul o
      + Gipa.proverWork k₁ (unit .mul + unit .scale + 0) (0 + 0 + 0 + 0) o))))
    fun xs hxs => ?_).eq ?_
  · refine (costs_yEvalCoeffsC o _ _ _ _).step fun ye hye => ?_
    have hyl : ye.length = 2 ^ k₁ := by
      rw [value_yEvalCoeffsC] at hye
      have := length_of_mapM hye
      simpa using this
    exact ((costs_multiexpIPC o ck.1 ye (by omega)).eq (by rw [h1])).step fun _ _ =>
      (GipaSsm.costs_proveC (fun h => (ho h).1) (multiexpSsmC_linear V) PUnit.unit hc
        (hpl _ _ _ hxs) h2).step fun _ _ => (costs_structuredScalarPowerC o _ _).step fun ys hys =>
      ((GipaSsm.costs_proveC (fun h => (ho h).2) (scalarSsmC_linear V) PUnit.unit hyl
        (hpl _ _ _ hys) h1).step fun _ _ => costs_pure o _ _).eq (Nat.add_zero _)
  · have e1 : (s + 1) * (t + 1) + (s + 1) + 3 * (t + 1) - 4
      = (s + 1) * (t + 1) + s + 3 * t := by omega
    have e2 : 6 * (s + 1) + 7 * (t + 1) - 12 = 6 * s + 7 * t + 1 := by omega
    cases o <;> simp [unit, Gipa.proverWork, transparentOpenWork, hs, ht, e1, e2] <;> ring

variable [DecidableEq GT]

/-- C120: without the counts, the counting function is the aggregation. -/
theorem C120_aggregate_value (V : Env ρ F G1 G2 GT TF) (srs : SRS G1 G2)
    (proofs : List (G16Proof G1 G2)) :
    (Groth16.aggregateC V srs proofs).value = Groth16.aggregate V srs proofs :=
  Groth16.value_aggregateC V srs proofs

/-- The operations for aggregating `2^k` proofs. -/
def aggregateProverWork (k : ℕ) : Work
  | .mul => 13 * 2 ^ k + 12 * k - 4
  | .inv => 2 ^ k + 4 * k + 1
  | .scale => 19 * 2 ^ k - 13
  | .miller => 13 * 2 ^ k - 8
  | .finalExp => 8 * k + 5
  | .hash => 2 * k + 3
  | .pow => 0

/-- C120: aggregating `n = 2^k` Groth16 proofs takes `13 n - 8` Miller loops and `19 n - 13` scalar
multiplications. -/
theorem C120_aggregate (V : Env ρ F G1 G2 GT TF) (srs : SRS G1 G2) (proofs : List (G16Proof G1 G2))
    (k : ℕ) (hk : 1 ≤ k) (h : proofs.length = 2 ^ k)
    (h5 : srs.hBetaPowers.length = 2 * 2 ^ k - 1) (h6 : srs.gAlphaPowers.length = 2 * 2 ^ k - 1) :
    (Groth16.aggregateC V srs proofs).Takes
      ((V.pairingAB.FirstTry ∧ V.multiexpSsm.FirstTry) ∧ ∀ x, V.fromRandomBytes (V.digest x) ≠ none)
      (aggregateProverWork k) := by
  refine takes_of_costs fun o ho => ?_
  obtain ⟨s, hs⟩ : ∃ s, 2 ^ k = s + 2 := by
    refine ⟨2 ^ k - 2, ?_⟩
    have : 2 ^ 1 ≤ 2 ^ k := Nat.pow_le_pow_right (by norm_num) hk
    omega
  have hck1 : srs.commitmentKeys.1.length = 2 ^ k := by
    rw [SRS.commitmentKeys, length_stepBy2, h5]
    omega
  have hck2 : srs.commitmentKeys.2.length = 2 ^ k := by
    rw [SRS.commitmentKeys, length_stepBy2, h6]
    omega
  have hck1' : (stepBy2 srs.hBetaPowers).length = 2 ^ k := hck1
  have ha : (proofs.map (·.a)).length = 2 ^ k := by simpa using h
  have hb : (proofs.map (·.b)).length = 2 ^ k := by simpa using h
  have hc : (proofs.map (·.c)).length = 2 ^ k := by simpa using h
  refine ((costs_pairing_n V.E V.X o ha hck1).step fun comA _ =>
    (costs_pairing_n V.E V.X o hck2 hb).step fun comB _ =>
    (costs_pairing_n V.E V.X o hc hck1).step fun comC _ =>
    (costs_challengeC V (fun h => (ho h).2) comA comB comC).step fun r _ =>
    (costs_structuredScalarPowerC o proofs.length r).step
    (m := 2 ^ k * unit .scale o + ((2 ^ k * unit .miller o + unit .finalExp o)
      + (2 ^ k * unit .scale o + (2 ^ k * (unit .inv o + unit .scale o)
      + ((2 ^ k * unit .miller o + unit .finalExp o)
      + ((Tipa.tipaProverWork k o + 2 * ((2 ^ k - 1) * (3 * unit .miller o)
        + k * (3 * unit .finalExp o)))
      + (TipaSsm.tipaSsmProverWork k o + 2 * ((2 ^ k - 1) * (unit .scale o + unit .miller o)
        + k * unit .finalExp o)))))))) fun rv hrv => ?_).eq ?_
  · have hrl : rv.length = 2 ^ k := by
      rw [value_structuredScalarPowerC, structuredScalarPower_eq] at hrv
      cases hrv
      simp only [Spec.powers, List.length_map, List.length_range]
      omega
    refine ((costs_mapM (fun p : G1 × F => costs_smulC o p.2 p.1) _).eq (by simp [h, hrl])).step
      fun aR haR => ?_
    have haR' : aR.length = 2 ^ k := by
      rw [value_mapM] at haR
      have := length_of_mapM haR
      simpa [h, hrl] using this
    refine (costs_pairing_n V.E V.X o haR' hb).step fun _ _ =>
      ((costs_multiexpIPC o _ rv (by rw [hc, hrl])).eq (by rw [hc])).step fun _ _ =>
      ((costs_mapM (n := unit .inv o + unit .scale o) (fun p : G2 × F =>
        ((costs_inverseC o _).step fun _ _ => (costs_free o _ _).step fun _ _ =>
          costs_smulC o _ _).eq (by omega)) _).eq (by rw [List.length_zip, hrl, hck1', min_self])).step
      fun ckR hckR => ?_
    have hckR' : ckR.length = 2 ^ k := by
      rw [value_mapM] at hckR
      have := length_of_mapM hckR
      rwa [List.length_zip, hrl, hck1', min_self] at this
    exact (costs_pairing_n V.E V.X o haR' hckR').step fun _ _ => ((costs_free o _ _).step fun _ _ =>
      ((Tipa.costs_proveWithShiftC (V := V.tipa) (fun h => (ho h).1.1) (fun h => (ho h).2)
        (pairingABC_linear V) srs PUnit.unit r hk haR' hb hckR' hck2 h5 h6).eq
        (m := Tipa.tipaProverWork k o + 2 * ((2 ^ k - 1) * (3 * unit .miller o)
        + k * (3 * unit .finalExp o))) (by simp only [Pi.zero_apply]; ring)).step fun _ _ =>
      ((TipaSsm.costs_proveC (V := V.tipa) (fun h => (ho h).1.2) (fun h => (ho h).2)
        (multiexpSsmC_linear V) srs PUnit.unit hk hc hrl hck1 h5).eq
        (m := TipaSsm.tipaSsmProverWork k o + 2 * ((2 ^ k - 1) * (unit .scale o + unit .miller o)
        + k * unit .finalExp o)) (by simp)).step fun _ _ => costs_pure o _ _).eq (by ring)
  · have e1 : s + 2 - 1 = s + 1 := rfl
    have e2 : 6 * (s + 2) - 5 = 6 * s + 7 := by omega
    have e3 : 8 * (s + 2) - 6 = 8 * s + 10 := by omega
    have e4 : 4 * (s + 2) + 4 * k - 1 = 4 * s + 4 * k + 7 := by omega
    have e5 : 8 * (s + 2) + 8 * k - 2 = 8 * s + 8 * k + 14 := by omega
    have e6 : 13 * (s + 2) + 12 * k - 4 = 13 * s + 12 * k + 22 := by omega
    have e7 : 19 * (s + 2) - 13 = 19 * s + 25 := by omega
    have e8 : 13 * (s + 2) - 8 = 13 * s + 18 := by omega
    cases o <;> simp [unit, Tipa.tipaProverWork, TipaSsm.tipaSsmProverWork, aggregateProverWork, h, hs,
      e1, e2, e3, e4, e5, e6, e7, e8] <;> ring

end Applications

namespace Sipp
variable {σ F G1 G2 GT TF : Type} [Field F] [DecidableEq F] [AddCommGroup G1] [Module F G1]
  [AddCommGroup G2] [Module F G2] [Monoid TF]

/-- The operations of SIPP's prover for `2^k` pairs. -/
def sippProverWork (k : ℕ) : Work
  | .inv => k
  | .scale => 5 * 2 ^ k - 4
  | .miller => 2 * (2 ^ k - 1)
  | .finalExp => 2 * k
  | .hash => k + 1
  | _ => 0

/-- C120: without the counts, the counting prover is SIPP's prover. -/
theorem C120_sipp_value (V : Env σ F G1 G2 GT TF) (a : List G1) (b : List G2) (r : List F)
    (value : GT) : (proveC V a b r value).value = prove V a b r value :=
  value_proveC V a b r value

theorem costs_productOfPairingsC (o : Ripp.Op) (V : Env σ F G1 G2 GT TF) {a : List G1} {b : List G2}
    {n : ℕ} (ha : a.length = n) (hb : b.length = n) :
    (productOfPairingsC (F := F) V a b).Costs o
      (n * unit .scale o + n * unit .miller o + unit .finalExp o) fun _ => True :=
  ((costs_tick .scale o _ _).step fun _ _ => (costs_tick .miller o _ _).step fun _ _ =>
    (costs_tick .finalExp o _ _).step fun _ _ => costs_free o _ _).eq (by
      simp only [List.length_replicate, ha, hb, min_self]
      cases o <;> simp [unit])

theorem costs_proveLoopC (o : Ripp.Op) (V : Env σ F G1 G2 GT TF) (k fuel : ℕ) (a : List G1)
    (b : List G2) (rng : Rng σ) (acc : List (GT × GT)) (ha : a.length = 2 ^ k)
    (hb : b.length = 2 ^ k) :
    (proveLoopC (F := F) V fuel (2 ^ k) a b rng acc).Costs o
      ((2 ^ k - 1) * (4 * unit .scale o + 2 * unit .miller o)
        + k * (2 * unit .finalExp o + unit .hash o + unit .inv o)) fun _ => True := by
  induction k generalizing fuel a b rng acc with
  | zero =>
    unfold proveLoopC
    rw [if_pos (by simp)]
    exact (costs_free o _ _).eq (by simp)
  | succ k ih =>
    have h2 : 2 ^ (k + 1) = 2 * 2 ^ k := by rw [pow_succ]; ring
    obtain ⟨t, ht⟩ : ∃ t, 2 ^ k = t + 1 :=
      ⟨2 ^ k - 1, by have := Nat.one_le_two_pow (n := k); omega⟩
    unfold proveLoopC
    rw [if_neg (by omega)]
    cases fuel with
    | zero => exact costs_error o _ _ _
    | succ fuel =>
      have hh : 2 ^ (k + 1) / 2 = 2 ^ k := by omega
      simp only [hh]
      refine ((costs_free o _ _).step fun aL haL => (costs_free o _ _).step fun aR haR =>
        (costs_free o _ _).step fun bL hbL => (costs_free o _ _).step
        (m := (2 ^ k * unit .scale o + 2 ^ k * unit .miller o + unit .finalExp o)
          + ((2 ^ k * unit .scale o + 2 ^ k * unit .miller o + unit .finalExp o)
          + (unit .hash o + (2 ^ k * unit .scale o + (unit .inv o + (2 ^ k * unit .scale o
          + ((2 ^ k - 1) * (4 * unit .scale o + 2 * unit .miller o)
          + k * (2 * unit .finalExp o + unit .hash o + unit .inv o)))))))) fun bR hbR => ?_).eq ?_
      · have e1 := (length_of_sliceTo haL).1
        have e2 := length_of_sliceFrom haR
        have e3 := (length_of_sliceTo hbL).1
        have e4 := length_of_sliceFrom hbR
        have f2 : aR.length = 2 ^ k := by omega
        have f4 : bR.length = 2 ^ k := by omega
        exact (costs_productOfPairingsC o V f2 e3).step fun _ _ =>
          (costs_productOfPairingsC o V e1 f4).step fun _ _ => (costs_tick .hash o 1 _).step fun _ _ =>
          (costs_foldC o _ _ _ f2 e1).step fun a' ha' => (costs_inverseC o _).step fun _ _ =>
          ((costs_free o _ _).step fun _ _ => (costs_foldC o _ _ _ f4 e3).step fun b' hb' =>
          ih fuel a' b' _ _ (length_of_foldC f2 e1 ha') (length_of_foldC f4 e3 hb')).eq
            (Nat.zero_add _)
      · have h1 : 2 ^ (k + 1) - 1 = 2 * t + 1 := by omega
        rw [h1, ht, Nat.add_sub_cancel]
        ring

/-- C120: the work of SIPP's prover for `n = 2^k` pairs: `2 n - 2` Miller loops and `5 n - 4` scalar
multiplications. -/
theorem C120_sipp (V : Env σ F G1 G2 GT TF) (a : List G1) (b : List G2) (r : List F) (value : GT)
    (k : ℕ) (ha : a.length = 2 ^ k) (hb : b.length = 2 ^ k) (hr : r.length = 2 ^ k) :
    (proveC V a b r value).Takes True (sippProverWork k) := by
  refine takes_of_costs fun o _ => ?_
  refine ((costs_free o _ _).step fun _ _ => (costs_free o _ _).step fun _ _ =>
    (costs_tick .hash o 1 _).step fun _ _ => ((costs_mapM (fun p : G1 × F => costs_smulC o p.2 p.1)
    (a.zip r)).eq (m := 2 ^ k * unit .scale o) (by simp [ha, hr])).step
    (m := (2 ^ k - 1) * (4 * unit .scale o + 2 * unit .miller o)
        + k * (2 * unit .finalExp o + unit .hash o + unit .inv o)) fun ar har => ?_).eq ?_
  · rw [value_mapM] at har
    have := length_of_mapM har
    rw [ha]
    exact costs_proveLoopC o V k _ _ _ _ _ (by simpa [ha, hr] using this) hb
  · obtain ⟨t, ht⟩ : ∃ t, 2 ^ k = t + 1 :=
      ⟨2 ^ k - 1, by have := Nat.one_le_two_pow (n := k); omega⟩
    have e1 : 5 * (t + 1) - 4 = 5 * t + 1 := by omega
    cases o <;> simp [unit, sippProverWork, ht, e1] <;> ring

/-- C120: the multiplications inside `product_of_pairings` are multiplications by one: without them the
function computes the same. -/
theorem C120_sipp_ones (V : Env σ F G1 G2 GT TF) (a : List G1) (b : List G2) :
    productOfPairings (F := F) V a b = (do
      let cs := chunkSize V.X.threads a.length
      if cs = 0 then panic' .assertion
      let ml ← ((chunks cs a).zip (chunks cs b)).mapM fun (aa, bb) => V.E.multiMillerLoop aa bb
      unwrap (V.E.finalExp (parReduce (· * ·) 1 V.X.sched ml))) := by
  have h : List.zipWith (fun (x : G1) (r : F) => r • x) a (List.replicate a.length 1) = a := by
    induction a with
    | nil => rfl
    | cons x a ih =>
      rw [List.length_cons, List.replicate_succ, List.zipWith_cons_cons, ih, one_smul]
  simp only [productOfPairings, productOfPairingsWithCoeffs, h]

end Sipp

/-! ## Examples -/

/-- Aggregating the four toy proofs takes 44 Miller loops, 63 scalar multiplications and 7 digests. -/
example : ∃ proof, (Groth16.aggregateC Toy.env Toy.srs Groth16.toyProofs).value = .ok proof ∧
    (Groth16.aggregateC Toy.env Toy.srs Groth16.toyProofs).work .miller = 44 ∧
    (Groth16.aggregateC Toy.env Toy.srs Groth16.toyProofs).work .scale = 63 ∧
    (Groth16.aggregateC Toy.env Toy.srs Groth16.toyProofs).work .hash = 7 := by
  obtain ⟨v, proof, -, h2, -⟩ := Groth16.toy_accepted
  have hv := (C120_aggregate_value Toy.env Toy.srs Groth16.toyProofs).trans h2
  have hw := C120_aggregate Toy.env Toy.srs Groth16.toyProofs 2 (by norm_num) rfl
    (by rw [Toy.srs_isSrs.hBeta]; simp) (by rw [Toy.srs_isSrs.gAlpha]; simp)
  exact ⟨proof, hv, (hw .miller (by simp)).2 _ hv, (hw .scale (by simp)).2 _ hv,
    (hw .hash fun _ => ⟨⟨Toy.firstTry _ rfl, Toy.firstTry _ rfl⟩, Toy.decodes⟩).2 _ hv⟩

/-- Proving the product of four toy pairings takes 6 Miller loops and 16 scalar multiplications. -/
example : ∃ zs, (Sipp.proveC Toy.sippEnv [1, 2, 3, 4] [5, 6, 7, 8] [1, 1, 2, 3]
      (Sipp.product Toy.e [1, 2, 3, 4] [5, 6, 7, 8] [1, 1, 2, 3])).value = .ok zs ∧
    (Sipp.proveC Toy.sippEnv [1, 2, 3, 4] [5, 6, 7, 8] [1, 1, 2, 3]
      (Sipp.product Toy.e [1, 2, 3, 4] [5, 6, 7, 8] [1, 1, 2, 3])).work .miller = 6 ∧
    (Sipp.proveC Toy.sippEnv [1, 2, 3, 4] [5, 6, 7, 8] [1, 1, 2, 3]
      (Sipp.product Toy.e [1, 2, 3, 4] [5, 6, 7, 8] [1, 1, 2, 3])).work .scale = 16 := by
  obtain ⟨zs, h1, -, -⟩ := Sipp.C55_complete_total (V := Toy.sippEnv) Toy.lawful
    Sipp.toy_draw_ne_zero 2 (by norm_num) [1, 2, 3, 4] [5, 6, 7, 8] [1, 1, 2, 3] rfl rfl (by decide)
  have hv := (Sipp.C120_sipp_value Toy.sippEnv _ _ _ _).trans h1
  have hw := Sipp.C120_sipp Toy.sippEnv [1, 2, 3, 4] [5, 6, 7, 8] [1, 1, 2, 3]
    (Sipp.product Toy.e [1, 2, 3, 4] [5, 6, 7, 8] [1, 1, 2, 3]) 2 rfl rfl rfl
  exact ⟨zs, hv, (hw .miller (by simp)).2 _ hv, (hw .scale (by simp)).2 _ hv⟩

/-- Opening a commitment to a toy polynomial with 4 powers of `x` and 2 powers of `y`: 6 Miller loops,
29 scalar multiplications and at most 37 multiplications of scalars. -/
example : ∃ srs s' com coms proof, Bivariate.setup Toy.env 11 3 1 = .ok (srs, s') ∧
    (Bivariate.commitC Toy.env srs ([[1, 2], [3], [], [0, 4]] : List (List Toy.F))).value
      = .ok (com, coms) ∧
    (Bivariate.commitC Toy.env srs ([[1, 2], [3], [], [0, 4]] : List (List Toy.F))).work .scale = 8 ∧
    (Bivariate.openC Toy.env srs [[1, 2], [3], [], [0, 4]] coms ((6, 7) : Toy.F × Toy.F)).value
      = .ok proof ∧
    (Bivariate.openC Toy.env srs [[1, 2], [3], [], [0, 4]] coms
      ((6, 7) : Toy.F × Toy.F)).work .miller = 6 ∧
    (Bivariate.openC Toy.env srs [[1, 2], [3], [], [0, 4]] coms
      ((6, 7) : Toy.F × Toy.F)).work .scale = 29 ∧
    (Bivariate.openC Toy.env srs [[1, 2], [3], [], [0, 4]] coms
      ((6, 7) : Toy.F × Toy.F)).work .mul ≤ 37 := by
  obtain ⟨srs, α, β, s', h1, h2⟩ := Bivariate.C41_setup Toy.env 11 3 1
  obtain ⟨com, coms, v, proof, h3, -, h5, -⟩ := Bivariate.C41_complete_total Toy.env Toy.lawful
    Toy.digest_length (searchEnds_of_digest _ Toy.digest_length Toy.digest_ne_zero)
    Toy.ssmKzgEnds 1 srs _ _ α β 3 1 h2 rfl [[1, 2], [3], [], [0, 4]] (by decide) (by decide)
    ((6, 7) : Toy.F × Toy.F)
  obtain ⟨v1, v2, -, -⟩ := C120_bivariate_value Toy.env srs ([], [])
    ([[1, 2], [3], [], [0, 4]] : List (List Toy.F)) coms (6, 7)
  have hc := v1.trans h3
  have ho := v2.trans h5
  have hl : srs.1.hBetaPowers.length = 2 * 2 ^ 2 - 1 := by rw [h2.left.hBeta]; simp
  have hl2 : srs.2.length = 2 := by rw [h2.kzg]; simp
  have hcl : coms.length = 2 ^ 2 := by
    obtain ⟨_, -, hc'⟩ := value_bind_eq_ok hc
    obtain ⟨cs, hcs, hc'⟩ := value_bind_eq_ok hc'
    obtain ⟨_, -, hc'⟩ := value_bind_eq_ok hc'
    cases hc'
    rw [value_mapM] at hcs
    rw [length_of_mapM hcs, length_resize, SRS.commitmentKeys, length_stepBy2, hl]
    norm_num
  have hw := C120_bivariate_open Toy.env srs [[1, 2], [3], [], [0, 4]] coms (6, 7) 2 (by norm_num) hl
    hcl
  rw [hl2] at hw
  refine ⟨srs, s', com, coms, proof, h1, hc, ?_, ho, (hw .miller (by simp)).2 (by simp) _ ho,
    (hw .scale (by simp)).2 (by simp) _ ho, (hw .mul (by simp)).1⟩
  have := (C120_bivariate_commit Toy.env srs ([[1, 2], [3], [], [0, 4]] : List (List Toy.F)) 4 hl
    .scale (by simp)).2 _ hc
  rw [this, hl2]

end Ripp
