import Verif.Props.AggUnique

/-!
# C134: the hash inputs of the aggregation are told apart by their lengths

No hash input carries a label that says what it is for. The theorems of the random oracle model assume that an input of
one kind is never an input of another kind. Here this is proved for the encodings of the curves in the repository, also
for proofs whose commitments to inner products have more or fewer entries than one.
-/

set_option linter.unusedSectionVars false

namespace Ripp.Domain

open Spec

variable {ρ F G1 G2 GT TF : Type} [Field F] [DecidableEq F] [AddCommGroup G1] [Module F G1] [AddCommGroup G2]
  [Module F G2] [AddCommGroup GT] [Module F GT] [Monoid TF] [DecidableEq G1] [DecidableEq GT]

/-- The uncompressed encodings have the given numbers of bytes and are injective. -/
structure Encodes (V : Env ρ F G1 G2 GT TF) (f g1 g2 gt : ℕ) : Prop where
  lenF : ∀ x, (V.serF x).length = f
  lenG1 : ∀ x, (V.serG1 x).length = g1
  lenG2 : ∀ x, (V.serG2 x).length = g2
  lenGT : ∀ x, (V.serGT x).length = gt
  injF : Function.Injective V.serF
  injG1 : Function.Injective V.serG1
  injG2 : Function.Injective V.serG2
  injGT : Function.Injective V.serGT

/-- Everything that `aggregate_proofs` and `verify_aggregate_proof` hash. -/
inductive Query (F G1 G2 GT : Type)
  /-- A round of the argument for the A and B, `gipa.rs:236-247`. -/
  | roundAB (nonce : ℕ) (prev : F) (com1 com2 : Coms GT GT (IdentityOutput GT))
  /-- A round of the argument for the C, `gipa.rs:236-247`. -/
  | roundC (nonce : ℕ) (prev : F) (com1 com2 : Coms GT F (IdentityOutput G1))
  /-- The opening point of the final keys of the first argument, `tipa/mod.rs:194-204`. -/
  | pointAB (nonce : ℕ) (last : F) (cka : G2) (ckb : G1)
  /-- The opening point of the final key of the second, `tipa/structured_scalar_message.rs:238-246`. -/
  | pointC (nonce : ℕ) (last : F) (cka : G2)
  /-- The challenge of the linear combination, `groth16_aggregation.rs:105-111`. -/
  | first (nonce : ℕ) (comA comB comC : GT)

/-- The nonce and the lengths of vectors are 64-bit numbers. -/
def Query.Fits : Query F G1 G2 GT → Prop
  | .roundAB n _ c1 c2 => n < 2 ^ 64 ∧ c1.2.2.vals.length < 2 ^ 64 ∧ c2.2.2.vals.length < 2 ^ 64
  | .roundC n _ c1 c2 => n < 2 ^ 64 ∧ c1.2.2.vals.length < 2 ^ 64 ∧ c2.2.2.vals.length < 2 ^ 64
  | .pointAB n _ _ _ => n < 2 ^ 64
  | .pointC n _ _ => n < 2 ^ 64
  | .first n _ _ _ => n < 2 ^ 64

/-- The bytes that are hashed. -/
def Query.bytes (V : Env ρ F G1 G2 GT TF) : Query F G1 G2 GT → Bytes
  | .roundAB n prev c1 c2 => V.pairingAB.hashInput n prev c1 c2
  | .roundC n prev c1 c2 => V.multiexpSsm.hashInput n prev c1 c2
  | .pointAB n x cka ckb => nonceBytes n ++ V.serF x ++ V.serG2 cka ++ V.serG1 ckb
  | .pointC n x cka => nonceBytes n ++ V.serF x ++ V.serG2 cka
  | .first n a b c => nonceBytes n ++ V.serGT a ++ V.serGT b ++ V.serGT c

/-- No length occurs for two kinds. -/
structure Separated (f g1 g2 gt : ℕ) : Prop where
  ab_c : ∀ M M', 24 + f + (4 + M) * gt ≠ 24 + 3 * f + 2 * gt + M' * g1
  ab_pab : ∀ M, 24 + f + (4 + M) * gt ≠ 8 + f + g2 + g1
  ab_pc : ∀ M, 24 + f + (4 + M) * gt ≠ 8 + f + g2
  ab_first : ∀ M, 24 + f + (4 + M) * gt ≠ 8 + 3 * gt
  c_pab : ∀ M, 24 + 3 * f + 2 * gt + M * g1 ≠ 8 + f + g2 + g1
  c_pc : ∀ M, 24 + 3 * f + 2 * gt + M * g1 ≠ 8 + f + g2
  c_first : ∀ M, 24 + 3 * f + 2 * gt + M * g1 ≠ 8 + 3 * gt
  pab_pc : 8 + f + g2 + g1 ≠ 8 + f + g2
  pab_first : 8 + f + g2 + g1 ≠ 8 + 3 * gt
  pc_first : 8 + f + g2 ≠ 8 + 3 * gt

/-- C134: BLS12-381 and BLS12-377: 32 bytes per scalar, 48 per coordinate, which are 2, 4 and 12. -/
theorem C134_bls : Separated 32 96 192 576 := by
  constructor <;> intros <;> omega

/-- C134: BW6-761: 48 bytes per scalar, 96 per coordinate, which are 2, 2 and 6. -/
theorem C134_bw6 : Separated 48 192 192 576 := by
  constructor <;> intros <;> omega

section
variable {V : Env ρ F G1 G2 GT TF} {f g1 g2 gt : ℕ}

theorem length_nonceBytes (n : ℕ) : (nonceBytes n).length = 8 := by simp [nonceBytes, length_leBytes]

theorem length_serIdentity {T : Type} {ser : T → Bytes} {l : ℕ} (h : ∀ x, (ser x).length = l) (o : IdentityOutput T) :
    (serIdentity ser o).length = 8 + o.vals.length * l := by
  rw [serIdentity, serSeq, List.length_append, length_leBytes]
  congr 1
  induction o.vals with
  | nil => simp
  | cons x xs ih => simp [h, ih]; ring

/-- The length of a hash input. -/
def Query.size (f g1 g2 gt : ℕ) : Query F G1 G2 GT → ℕ
  | .roundAB _ _ c1 c2 => 24 + f + (4 + (c1.2.2.vals.length + c2.2.2.vals.length)) * gt
  | .roundC _ _ c1 c2 => 24 + 3 * f + 2 * gt + (c1.2.2.vals.length + c2.2.2.vals.length) * g1
  | .pointAB _ _ _ _ => 8 + f + g2 + g1
  | .pointC _ _ _ => 8 + f + g2
  | .first _ _ _ _ => 8 + 3 * gt

theorem length_bytes (hV : Encodes V f g1 g2 gt) (q : Query F G1 G2 GT) : (q.bytes V).length = q.size f g1 g2 gt := by
  cases q with
  | roundAB n prev c1 c2 =>
    simp only [Query.bytes, Query.size, Gipa.hashInput, Env.pairingAB, List.length_append, length_nonceBytes, hV.lenF,
      hV.lenGT, length_serIdentity hV.lenGT]
    ring
  | roundC n prev c1 c2 =>
    simp only [Query.bytes, Query.size, Gipa.hashInput, Env.multiexpSsm, ssmGipa, List.length_append,
      length_nonceBytes, hV.lenF, hV.lenGT, length_serIdentity hV.lenG1]
    ring
  | pointAB n x cka ckb =>
    simp only [Query.bytes, Query.size, List.length_append, length_nonceBytes, hV.lenF, hV.lenG1, hV.lenG2]
  | pointC n x cka =>
    simp only [Query.bytes, Query.size, List.length_append, length_nonceBytes, hV.lenF, hV.lenG2]
  | first n a b c =>
    simp only [Query.bytes, Query.size, List.length_append, length_nonceBytes, hV.lenGT]
    ring

theorem Encodes.decF (hV : Encodes V f g1 g2 gt) : Decodable (fun _ => True) V.serF :=
  .of_fixed f (fun x _ => hV.lenF x) fun _ _ _ _ h => hV.injF h

theorem Encodes.decG1 (hV : Encodes V f g1 g2 gt) : Decodable (fun _ => True) V.serG1 :=
  .of_fixed g1 (fun x _ => hV.lenG1 x) fun _ _ _ _ h => hV.injG1 h

theorem Encodes.decG2 (hV : Encodes V f g1 g2 gt) : Decodable (fun _ => True) V.serG2 :=
  .of_fixed g2 (fun x _ => hV.lenG2 x) fun _ _ _ _ h => hV.injG2 h

theorem Encodes.decGT (hV : Encodes V f g1 g2 gt) : Decodable (fun _ => True) V.serGT :=
  .of_fixed gt (fun x _ => hV.lenGT x) fun _ _ _ _ h => hV.injGT h

/-- C134: a byte string is the input of at most one query. So neither can an answer for one purpose be used for another,
nor can one query stand for different values. -/
theorem C134_injective (hV : Encodes V f g1 g2 gt) (hS : Separated f g1 g2 gt) (q q' : Query F G1 G2 GT)
    (hq : q.Fits) (hq' : q'.Fits) (h : q.bytes V = q'.bytes V) : q = q' := by
  have hl : q.size f g1 g2 gt = q'.size f g1 g2 gt := by rw [← length_bytes hV, ← length_bytes hV, h]
  cases q with
  | roundAB n prev c1 c2 =>
    cases q' with
    | roundAB n' prev' c1' c2' =>
      obtain ⟨rfl, rfl, rfl, rfl⟩ := Gipa.C23_hash_input_injective (P := V.pairingAB) hV.decF hV.decGT hV.decGT
        (decodable_serIdentity hV.decGT) n n' hq.1 hq'.1 prev prev' trivial trivial c1 c2 c1' c2'
        (by simpa using ⟨hq.2.1, hq.2.2, hq'.2.1, hq'.2.2⟩) h
      rfl
    | roundC => exact absurd hl (hS.ab_c _ _)
    | pointAB => exact absurd hl (hS.ab_pab _)
    | pointC => exact absurd hl (hS.ab_pc _)
    | first => exact absurd hl (hS.ab_first _)
  | roundC n prev c1 c2 =>
    cases q' with
    | roundC n' prev' c1' c2' =>
      obtain ⟨rfl, rfl, rfl, rfl⟩ := Gipa.C23_hash_input_injective (P := V.multiexpSsm) hV.decF hV.decGT hV.decF
        (decodable_serIdentity hV.decG1) n n' hq.1 hq'.1 prev prev' trivial trivial c1 c2 c1' c2'
        (by simpa using ⟨hq.2.1, hq.2.2, hq'.2.1, hq'.2.2⟩) h
      rfl
    | roundAB => exact absurd hl.symm (hS.ab_c _ _)
    | pointAB => exact absurd hl (hS.c_pab _)
    | pointC => exact absurd hl (hS.c_pc _)
    | first => exact absurd hl (hS.c_first _)
  | pointAB n x cka ckb =>
    cases q' with
    | pointAB n' x' cka' ckb' =>
      simp only [Query.bytes, List.append_assoc] at h
      obtain ⟨rfl, h1⟩ := decodable_nonce _ _ _ _ hq hq' h
      obtain ⟨rfl, h2⟩ := hV.decF _ _ _ _ trivial trivial h1
      obtain ⟨rfl, h3⟩ := hV.decG2 _ _ _ _ trivial trivial h2
      rw [hV.injG1 h3]
    | roundAB => exact absurd hl.symm (hS.ab_pab _)
    | roundC => exact absurd hl.symm (hS.c_pab _)
    | pointC => exact absurd hl hS.pab_pc
    | first => exact absurd hl hS.pab_first
  | pointC n x cka =>
    cases q' with
    | pointC n' x' cka' =>
      simp only [Query.bytes, List.append_assoc] at h
      obtain ⟨rfl, h1⟩ := decodable_nonce _ _ _ _ hq hq' h
      obtain ⟨rfl, h2⟩ := hV.decF _ _ _ _ trivial trivial h1
      rw [hV.injG2 h2]
    | roundAB => exact absurd hl.symm (hS.ab_pc _)
    | roundC => exact absurd hl.symm (hS.c_pc _)
    | pointAB => exact absurd hl.symm hS.pab_pc
    | first => exact absurd hl hS.pc_first
  | first n a b c =>
    cases q' with
    | first n' a' b' c' =>
      simp only [Query.bytes, List.append_assoc] at h
      obtain ⟨rfl, h1⟩ := decodable_nonce _ _ _ _ hq hq' h
      obtain ⟨rfl, h2⟩ := hV.decGT _ _ _ _ trivial trivial h1
      obtain ⟨rfl, h3⟩ := hV.decGT _ _ _ _ trivial trivial h2
      rw [hV.injGT h3]
    | roundAB => exact absurd hl.symm (hS.ab_first _)
    | roundC => exact absurd hl.symm (hS.c_first _)
    | pointAB => exact absurd hl.symm hS.pab_first
    | pointC => exact absurd hl.symm hS.pc_first

/-- What a query is for. -/
def Query.kind : Query F G1 G2 GT → ℕ
  | .roundAB .. => 0
  | .roundC .. => 1
  | .pointAB .. => 2
  | .pointC .. => 3
  | .first .. => 4

/-- C134: inputs for different purposes differ, whatever the nonces and vectors are. -/
theorem C134_disjoint (hV : Encodes V f g1 g2 gt) (hS : Separated f g1 g2 gt) (q q' : Query F G1 G2 GT)
    (hk : q.kind ≠ q'.kind) : q.bytes V ≠ q'.bytes V := by
  intro h
  have hl : q.size f g1 g2 gt = q'.size f g1 g2 gt := by rw [← length_bytes hV, ← length_bytes hV, h]
  cases q <;> cases q' <;>
    first
    | exact hk rfl
    | exact hS.ab_c _ _ hl | exact hS.ab_c _ _ hl.symm | exact hS.ab_pab _ hl | exact hS.ab_pab _ hl.symm
    | exact hS.ab_pc _ hl | exact hS.ab_pc _ hl.symm | exact hS.ab_first _ hl | exact hS.ab_first _ hl.symm
    | exact hS.c_pab _ hl | exact hS.c_pab _ hl.symm | exact hS.c_pc _ hl | exact hS.c_pc _ hl.symm
    | exact hS.c_first _ hl | exact hS.c_first _ hl.symm | exact hS.pab_pc hl | exact hS.pab_pc hl.symm
    | exact hS.pab_first hl | exact hS.pab_first hl.symm | exact hS.pc_first hl | exact hS.pc_first hl.symm

/-- C134: the hypotheses about hash inputs of C92, C93, C107, C108, C114 to C117, C126, C130 and C132. -/
theorem C134_hypotheses (hV : Encodes V f g1 g2 gt) (hS : Separated f g1 g2 gt) :
    (∀ t x c1 c2 t' x' c1' c2', V.pairingAB.hashInput t x c1 c2 ≠ V.multiexpSsm.hashInput t' x' c1' c2') ∧
    (∀ t x c1 c2 t' x' ka kb,
      V.pairingAB.hashInput t x c1 c2 ≠ TipaStatic.pointInput V.tipa V.pairingAB t' x' ka kb) ∧
    (∀ t x c1 c2 t' x' ka,
      V.multiexpSsm.hashInput t x c1 c2 ≠ TipaSsmStatic.pointInput V.tipa V.multiexpSsm t' x' ka) :=
  ⟨fun t x c1 c2 t' x' c1' c2' => C134_disjoint hV hS (.roundAB t x c1 c2) (.roundC t' x' c1' c2') (by simp [Query.kind]),
    fun t x c1 c2 t' x' ka kb => C134_disjoint hV hS (.roundAB t x c1 c2) (.pointAB t' x' ka kb) (by simp [Query.kind]),
    fun t x c1 c2 t' x' ka => C134_disjoint hV hS (.roundC t x c1 c2) (.pointC t' x' ka) (by simp [Query.kind])⟩

/-- In the form used by C108 and C132. -/
theorem sep_links (hV : Encodes V f g1 g2 gt) (hS : Separated f g1 g2 gt) {n : ℕ} {Xs : Finset Bytes}
    {R1 R2 : Type} {S1 : Shape GT R1} {S2 : Shape G1 R2} (e : G1 →ₗ[F] G2 →ₗ[F] GT) (srs : SRS G1 G2) (r : F)
    (hm1 : ∀ k z1 z2, V.pairingAB.hashInput 0 k
      (GipaStatic.coms e e.flip S1.out (TipaStatic.leftKey srs r n) (TipaStatic.rightKey srs n) z1)
      (GipaStatic.coms e e.flip S1.out (TipaStatic.leftKey srs r n) (TipaStatic.rightKey srs n) z2) ∈ Xs)
    (hm2 : ∀ k z, V.multiexpSsm.hashInput 0 k
      (SsmStatic.coms2 e S2.out (TipaStatic.leftKey srs (1 : F) n) z).1
      (SsmStatic.coms2 e S2.out (TipaStatic.leftKey srs (1 : F) n) z).2 ∈ Xs) :
    (∀ z c z' c', AggStatic.linkAB V e srs r hm1 z c ≠ AggStatic.linkC V e srs hm2 z' c') ∧
    (∀ t < 2 ^ 64, ∀ z x x' ka kb, (AggStatic.linkAB V e srs r hm1 z x : Bytes) ≠
      TipaStatic.pointInput V.tipa V.pairingAB t x' ka kb) ∧
    ∀ t < 2 ^ 64, ∀ z x x' ka, (AggStatic.linkC V e srs hm2 z x : Bytes) ≠
      TipaSsmStatic.pointInput V.tipa V.multiexpSsm t x' ka := by
  obtain ⟨h1, h2, h3⟩ := C134_hypotheses hV hS
  exact ⟨fun z c z' c' h => h1 _ _ _ _ _ _ _ _ (congrArg Subtype.val h), fun t _ z x x' ka kb => h2 _ _ _ _ _ _ _ _,
    fun t _ z x x' ka => h3 _ _ _ _ _ _ _⟩

/-- C134: the two arguments of a transparent polynomial opening hash different inputs as long as every commitment to an
inner product has one entry. -/
theorem C134_transparent (hV : Encodes V f g1 g2 gt) (hne : f ≠ gt) (t t' : ℕ) (x x' : F)
    (c1 c2 : Coms GT F (IdentityOutput G1)) (c1' c2' : Coms G1 F (IdentityOutput F))
    (h1 : c1.2.2.vals.length = 1) (h2 : c2.2.2.vals.length = 1) (h1' : c1'.2.2.vals.length = 1)
    (h2' : c2'.2.2.vals.length = 1) : V.multiexpSsm.hashInput t x c1 c2 ≠ V.scalarSsm.hashInput t' x' c1' c2' := by
  intro h
  have hl := congrArg List.length h
  simp only [Gipa.hashInput, Env.multiexpSsm, Env.scalarSsm, ssmGipa, List.length_append, length_nonceBytes, hV.lenF,
    hV.lenGT, hV.lenG1, length_serIdentity hV.lenG1, length_serIdentity hV.lenF, h1, h2, h1', h2'] at hl
  omega

/-- C134: there is no separation between applications. The second argument of an accepted aggregate is, as it stands, the
first part of an opening of a bivariate polynomial: whoever can open `agg_c` as a KZG commitment has an opening of
`com_c` at the point `(r, y)`. -/
theorem C134_reuse (v : VerifierSRS G1 G2) (vk : G16VK G1 G2) (inputs : List (List F)) (proof : AggProof F G1 G2 GT)
    (hacc : Groth16.verify V v vk inputs proof = .ok true) (y value : F) (π : G1)
    (hk : Kzg.verify V.E v proof.aggC y value π = .ok true) :
    ∃ r, Groth16.challenge V proof.comA proof.comB proof.comC = .ok r ∧
      Bivariate.verify V v proof.comC (r, y) value ⟨proof.proofC, proof.aggC, π⟩ = .ok true := by
  rw [Groth16.verify] at hacc
  obtain ⟨r, hr, hacc⟩ := bind_eq_ok.mp hacc
  obtain ⟨b1, -, hacc⟩ := bind_eq_ok.mp hacc
  obtain ⟨b2, hb2, hacc⟩ := bind_eq_ok.mp hacc
  obtain ⟨b3, -, hacc⟩ := bind_eq_ok.mp hacc
  have h := Except.ok.inj hacc
  have hb : b2 = true := by
    cases b1 <;> cases b2 <;> simp_all
  subst hb
  refine ⟨r, hr, ?_⟩
  rw [Bivariate.verify]
  simp only [hb2, hk, ok_bind]
  rfl

end

/-! ## Examples -/

/-- An instance whose encodings have the sizes of BLS12-381: a number in the first byte, the rest is zero. -/
def toyEnv : Env ℕ Toy.F Toy.F Toy.F Toy.F Toy.TF :=
  { Toy.env with
    serF := fun x => Toy.ser x ++ List.replicate 31 0
    serG1 := fun x => Toy.ser x ++ List.replicate 95 0
    serG2 := fun x => Toy.ser x ++ List.replicate 191 0
    serGT := fun x => Toy.ser x ++ List.replicate 575 0 }

theorem toy_encodes : Encodes toyEnv 32 96 192 576 := by
  have inj : Function.Injective Toy.ser := by decide +kernel
  have inj' (l : ℕ) : Function.Injective fun x => Toy.ser x ++ List.replicate l 0 := fun x y h =>
    inj (List.append_cancel_right h)
  have len (l : ℕ) (x : Toy.F) : (Toy.ser x ++ List.replicate l 0).length = l + 1 := by simp [Toy.ser]
  exact ⟨len 31, len 95, len 191, len 575, inj' 31, inj' 95, inj' 191, inj' 575⟩

/-- In this instance all queries are told apart. -/
example (q q' : Query Toy.F Toy.F Toy.F Toy.F) (hq : q.Fits) (hq' : q'.Fits) :
    q.bytes toyEnv = q'.bytes toyEnv ↔ q = q' :=
  ⟨C134_injective toy_encodes C134_bls q q' hq hq', fun h => by rw [h]⟩

/-- With one byte for everything, the input for an opening point is an input for the first challenge too. -/
example : (Query.pointAB 7 1 2 3 : Query Toy.F Toy.F Toy.F Toy.F).bytes Toy.env =
    (Query.first 7 1 2 3 : Query Toy.F Toy.F Toy.F Toy.F).bytes Toy.env := by
  decide +kernel

/-- With the sizes of BLS12-381 the lengths coincide for the transparent scheme if the inner products of a round of
the second argument have 36 entries. -/
example (c1 c2 : Coms Toy.F Toy.F (IdentityOutput Toy.F)) (c1' c2' : Coms Toy.F Toy.F (IdentityOutput Toy.F))
    (h1 : c1.2.2.vals.length = 1) (h2 : c2.2.2.vals.length = 1) (h1' : c1'.2.2.vals.length = 18)
    (h2' : c2'.2.2.vals.length = 18) : (toyEnv.multiexpSsm.hashInput 0 0 c1 c2).length =
      (toyEnv.scalarSsm.hashInput 0 0 c1' c2').length := by
  have hV := toy_encodes
  simp only [Gipa.hashInput, Env.multiexpSsm, Env.scalarSsm, ssmGipa, List.length_append, length_nonceBytes, hV.lenF,
    hV.lenGT, hV.lenG1, length_serIdentity hV.lenG1, length_serIdentity hV.lenF, h1, h2, h1', h2']

/-- The aggregate of four valid proofs in the example instance, and the second argument in an opening of `com_c` at the
point `(3, 4)`; the value is `agg_c` itself, with the opening of a
constant polynomial. -/
example : ∃ v proof, Toy.srs.verifierKey = .ok v ∧ Groth16.aggregate Toy.env Toy.srs Groth16.toyProofs = .ok proof ∧
    Bivariate.verify Toy.env v proof.comC (3, 4) proof.aggC ⟨proof.proofC, proof.aggC, 0⟩ = .ok true := by
  obtain ⟨v, proof, h1, h2, h3⟩ := Groth16.toy_accepted
  have hv := (C25_keys Toy.srs 1 1 3 5 4 (by norm_num) Toy.srs_isSrs).2.2
  cases h1.symm.trans hv
  obtain ⟨r, hr, h4⟩ := C134_reuse _ _ _ _ h3 4 proof.aggC 0 (by
    refine (Kzg.verify_eq Toy.lawful _ _ _ _ _).trans ?_
    simp)
  refine ⟨_, proof, hv, h2, ?_⟩
  have : r = 3 := by
    obtain ⟨n, -, h5, -⟩ := (C69_groth16 Toy.env _ _ _ _).mp hr
    exact (Option.some.inj h5).symm
  exact this ▸ h4

/-- The hypothesis of C72 and C119 that seeds and absorbed messages are told apart: sizes of the BLS12 curves and of
BW6-761, digests of 32 bytes (Blake2s) and 64 bytes (Blake2b). -/
example : 576 + 32 < 24 + 2 * (96 + 192 + 32) ∧ 576 + 64 < 24 + 2 * (96 + 192 + 32) ∧
    576 + 64 < 24 + 2 * (192 + 192 + 48) := by
  decide

end Ripp.Domain
