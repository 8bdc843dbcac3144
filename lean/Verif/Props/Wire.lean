import Verif.Model.Wire
import Verif.Props.Serialize
import Verif.Props.Cost

/-!
# C149: proofs that arrive as bytes
-/

namespace Ripp

open Codec Spec

section Generic

variable {α : Type} {C : Codec α} {S : α → Prop}

/-- C149: bytes are accepted exactly if they begin with the encoding of an accepted proof. -/
theorem C149_accept_iff (hC : C.Faithful S) (v : α → Res Bool) (bs : Bytes) :
    receive C v bs = .ok (some true) ↔ ∃ p rest, S p ∧ bs = C.ser p ++ rest ∧ v p = .ok true := by
  constructor
  · intro h
    cases hd : C.de bs with
    | none => rw [receive, hd] at h; cases h
    | some x =>
      obtain ⟨p, rest⟩ := x
      obtain ⟨hs, rfl⟩ := hC.canonical _ _ _ hd
      refine ⟨p, rest, hs, rfl, ?_⟩
      rw [receive, hd] at h
      obtain ⟨b, hb, h⟩ := bind_eq_ok.mp h
      cases h
      exact hb
  · rintro ⟨p, rest, hs, rfl, hv⟩
    rw [receive, hC.read p rest hs]
    simp only [hv, ok_bind]
    rfl

/-- C149: bytes are refused unread exactly if they do not begin with an encoding; otherwise the verifier decides. -/
theorem C149_outcome (hC : C.Faithful S) (v : α → Res Bool) (bs : Bytes) :
    (receive C v bs = .ok none ∧ ∀ p rest, S p → bs ≠ C.ser p ++ rest) ∨
    ∃ p rest, S p ∧ bs = C.ser p ++ rest ∧
      (∀ b, v p = .ok b → receive C v bs = .ok (some b)) ∧ ∀ e, v p = .error e → receive C v bs = .error e := by
  cases hd : C.de bs with
  | none =>
    refine .inl ⟨by rw [receive, hd], ?_⟩
    rintro p rest hs rfl
    rw [hC.read p rest hs] at hd
    cases hd
  | some x =>
    obtain ⟨p, rest⟩ := x
    obtain ⟨hs, rfl⟩ := hC.canonical _ _ _ hd
    refine .inr ⟨p, rest, hs, rfl, fun b hb => ?_, fun e he => ?_⟩
    · rw [receive, hd]; simp only [hb, ok_bind]; rfl
    · rw [receive, hd]; simp only [he]; rfl

/-- C149, a caveat for callers: bytes after the proof do not matter, so accepted messages can be prolonged. -/
theorem C149_trailing (hC : C.Faithful S) (v : α → Res Bool) (bs u : Bytes) (b : Bool)
    (h : receive C v bs = .ok (some b)) : receive C v (bs ++ u) = .ok (some b) := by
  cases hd : C.de bs with
  | none => rw [receive, hd] at h; cases h
  | some x =>
    obtain ⟨p, rest⟩ := x
    obtain ⟨hs, rfl⟩ := hC.canonical _ _ _ hd
    have h' := hC.read p (rest ++ u) hs
    rw [← List.append_assoc] at h'
    rw [receive, hd] at h
    rw [receive, h']
    exact h

/-- C149: a message of given length is accepted for one proof at most in one way: the messages that carry the same
proof differ only in what follows it. -/
theorem C149_unique (hC : C.Faithful S) (p : α) (bs bs' rest rest' : Bytes) (h : C.de bs = some (p, rest))
    (h' : C.de bs' = some (p, rest')) : bs = bs' ↔ rest = rest' := by
  obtain ⟨-, rfl⟩ := hC.canonical _ _ _ h
  obtain ⟨-, rfl⟩ := hC.canonical _ _ _ h'
  exact List.append_right_inj _

end Generic

section Size

variable {G1 G2 MA MB OA OB OT : Type}

/-- C149: the number of rounds of a proof read from bytes is bounded by the number of bytes, if a pair of triples
takes at least `m`. -/
theorem C149_rounds {mA : Codec MA} {mB : Codec MB} {A : Codec OA} {B : Codec OB} {T : Codec OT} {sMA : MA → Prop}
    {sMB : MB → Prop} {sA : OA → Prop} {sB : OB → Prop} {sT : OT → Prop} (hmA : mA.Faithful sMA)
    (hmB : mB.Faithful sMB) (hA : A.Faithful sA) (hB : B.Faithful sB) (hT : T.Faithful sT) (m : ℕ)
    (hm : ∀ x, m ≤ (((coms A B T).prod (coms A B T)).ser x).length) (bs : Bytes) (p : GipaProof MA MB OA OB OT)
    (rest : Bytes) (h : (gipaProof mA mB A B T).de bs = some (p, rest)) :
    8 + p.steps.length * m ≤ bs.length := by
  obtain ⟨-, rfl⟩ := (C85_gipa hmA hmB hA hB hT).canonical _ _ _ h
  have key : ∀ l : List (Coms OA OB OT × Coms OA OB OT),
      l.length * m ≤ (l.flatMap ((coms A B T).prod (coms A B T)).ser).length := by
    intro l
    induction l with
    | nil => simp
    | cons x l ih =>
      have := hm x
      rw [List.flatMap_cons, List.length_append, List.length_cons, Nat.succ_mul]
      omega
  have := key p.steps
  simp only [gipaProof, vec, serSeq, List.length_append, length_leBytes]
  omega

end Size

namespace Gipa

variable {ρ F MA MB T KA KB KT OA OB OT : Type} [Field F] [DecidableEq F]
  [AddCommGroup MA] [Module F MA] [AddCommGroup MB] [Module F MB]
  [AddCommGroup T] [Module F T] [AddCommGroup KA] [Module F KA] [AddCommGroup KB] [Module F KB]
  [AddCommGroup OA] [Module F OA] [AddCommGroup OB] [Module F OB] [Add OT] [SMul F OT]
  [DecidableEq OA] [DecidableEq OB] [DecidableEq OT]
  {P : Gipa ρ F MA MB T KA KB KT OA OB OT} {C : GipaCount MA MB T KA KB KT OA OB OT}
  {bil : MA →ₗ[F] MB →ₗ[F] T} {φa : MA →ₗ[F] KA →ₗ[F] OA} {φb : MB →ₗ[F] KB →ₗ[F] OB} {ψ : KT → T → OT}

/-- C149: a message of `8 + 2 (k + 1) (lA + lB + lT) + lmA + lmB` bytes makes GIPA's verifier with keys of length one
compute `2^(k+2) - 2` products before it panics: the work is exponential in the number of bytes received. -/
theorem C149_gipa_attack (L : P.Lawful bil φa φb ψ) (hC : C.Of P) {ip lmc rmc ipc : Work}
    (hS : C.Single ip lmc rmc ipc) (h0 : ip .mul = 0 ∧ lmc .mul = 0 ∧ rmc .mul = 0 ∧ ipc .mul = 0)
    (hd : ∀ x, 16 ≤ (P.digest x).length) (hs : P.SearchEnds) (ka : KA) (kb : KB) (ckt : KT)
    (com : Coms OA OB OT) {mA : Codec MA} {mB : Codec MB} {A : Codec OA} {B : Codec OB} {T' : Codec OT}
    {sMA : MA → Prop} {sMB : MB → Prop} {sA : OA → Prop} {sB : OB → Prop} {sT : OT → Prop}
    (hmA : mA.Faithful sMA) (hmB : mB.Faithful sMB) (hA : A.Faithful sA) (hB : B.Faithful sB) (hT : T'.Faithful sT)
    (w1 : sMA 0) (w2 : sMB 0) (w3 : sA 0) (w4 : sB 0) (w5 : sT (ψ ckt 0)) (k : ℕ) (hk : k + 1 < 2 ^ 64) :
    ∃ (bs : Bytes) (proof : GipaProof MA MB OA OB OT), (gipaProof mA mB A B T').de bs = some (proof, []) ∧
      bs.length = 8 + 2 * (k + 1) * ((A.ser 0).length + (B.ser 0).length + (T'.ser (ψ ckt 0)).length) +
        ((mA.ser 0).length + (mB.ser 0).length) ∧
      receive (gipaProof mA mB A B T') (P.verify [ka] [kb] ckt com) bs = panic' .assertion ∧
      (verifyC P C [ka] [kb] ckt com proof).value = P.verify [ka] [kb] ckt com proof ∧
      (verifyC P C [ka] [kb] ckt com proof).work .mul = 2 ^ (k + 2) - 2 := by
  have hch : ∀ (n : ℕ) (tr : List F), ∃ cs,
      P.chals (List.replicate n ((0, 0, ψ ckt 0), (0, 0, ψ ckt 0))) tr = .ok cs := by
    intro n
    induction n with
    | zero => exact fun tr => ⟨tr, rfl⟩
    | succ n ih =>
      intro tr
      obtain ⟨c, -, hc⟩ := challenge_of_ends L hd hs (tr.getLast?.getD 0) (0, 0, ψ ckt 0)
        (0, 0, ψ ckt 0) ⟨_, _, rfl⟩ ⟨_, _, rfl⟩
      obtain ⟨cs, h⟩ := ih (tr ++ [c])
      refine ⟨cs, ?_⟩
      rw [List.replicate_succ, chals]
      simp only [hc, ok_bind]
      exact h
  obtain ⟨cs, hcs⟩ := hch (k + 1) []
  let proof : GipaProof MA MB OA OB OT :=
    ⟨List.replicate (k + 1) ((0, 0, ψ ckt 0), (0, 0, ψ ckt 0)), (0, 0)⟩
  have hl : proof.steps.length = k + 1 := List.length_replicate
  have hr : P.recursiveChallenges com proof
      = .ok (foldMany proof.steps.reverse cs com, cs.reverse) := by
    simp only [recursiveChallenges, recLoop_eq, proof, List.reverse_replicate, hcs]
    rfl
  have hw : GipaWritable sMA sMB sA sB sT proof := by
    refine ⟨by rw [hl]; exact hk, fun z hz => ?_, w1, w2⟩
    obtain rfl := (List.mem_replicate.mp hz).2
    exact ⟨⟨w3, w4, w5⟩, w3, w4, w5⟩
  have hread := (C85_gipa hmA hmB hA hB hT).read proof [] hw
  have hv : P.verify [ka] [kb] ckt com proof = panic' .assertion := by
    obtain ⟨ht, hne⟩ := length_of_recursiveChallenges hr
    rw [verify, if_neg (by simp [isPow2, countOnes]), hr, ok_bind]
    have : finalKeys [ka] [kb] cs.reverse = panic' .assertion := by
      refine finalKeys_wrong _ _ _ ?_ hne
      rw [ht, hl, List.length_singleton]
      have := Nat.one_le_two_pow (n := k)
      rw [pow_succ]
      omega
    simp only [this]
    rfl
  rw [List.append_nil] at hread
  refine ⟨(gipaProof mA mB A B T').ser proof, proof, hread, ?_, ?_, value_verifyC hC _ _ _ _ _, ?_⟩
  · simp only [gipaProof, vec, serSeq, proof, List.length_append, length_leBytes, Codec.prod]
    rw [length_flatMap_const (l := 2 * ((A.ser 0).length + (B.ser 0).length + (T'.ser (ψ ckt 0)).length)),
      List.length_replicate]
    · ring
    · intro z hz
      obtain rfl := (List.mem_replicate.mp hz).2
      simp only [coms, Codec.prod, List.length_append]
      ring
  · rw [receive, hread]
    simp only [hv]
    rfl
  · rw [C113_gipa_early hS h0 [ka] [kb] (by simp [isPow2, countOnes]) rfl ckt com proof hr, hl]
    rw [show k + 2 = k + 1 + 1 from rfl, pow_succ 2 (k + 1)]
    omega

end Gipa

namespace Tipa

variable {ρ F MA MB T KT OA OB OT G1 G2 GT TF : Type} [Field F] [DecidableEq F]
  [AddCommGroup G1] [Module F G1] [AddCommGroup G2] [Module F G2]
  [DecidableEq GT] [DecidableEq OA] [DecidableEq OB] [DecidableEq OT]
  [Add OA] [SMul F OA] [Add OB] [SMul F OB] [Add OT] [SMul F OT]
  {V : TipaEnv F G1 G2 GT TF} {P : Gipa ρ F MA MB T G2 G1 KT OA OB OT}
  {C : GipaCount MA MB T G2 G1 KT OA OB OT}

/-- C149: the work of TIPA's verifier on the proof read from a message is linear in the number of bytes. -/
theorem C149_tipa_work {ip lmc rmc ipc : Work} (hS : C.Single ip lmc rmc ipc) (v : VerifierSRS G1 G2)
    (ckt : KT) (com : Coms OA OB OT) (r : F)
    {g1 : Codec G1} {g2 : Codec G2} {mA : Codec MA} {mB : Codec MB} {A : Codec OA} {B : Codec OB} {T' : Codec OT}
    {sMA : MA → Prop} {sMB : MB → Prop} {sA : OA → Prop} {sB : OB → Prop}
    {sT : OT → Prop} (hmA : mA.Faithful sMA) (hmB : mB.Faithful sMB) (hA : A.Faithful sA)
    (hB : B.Faithful sB) (hT : T'.Faithful sT) (hm : ∀ x, 1 ≤ (((coms A B T').prod (coms A B T')).ser x).length)
    (bs : Bytes) (proof : TipaProof G1 G2 MA MB OA OB OT) (rest : Bytes)
    (h : (tipaProof g1 g2 mA mB A B T').de bs = some (proof, rest)) (o : Op)
    (ho : o = .hash ∨ o = .inv → P.FirstTry ∧ ∀ x, V.fromRandomBytes (P.digest x) ≠ none) :
    (verifyWithShiftC V P C v ckt com proof r).work o ≤ 6 * bs.length + (ip + lmc + rmc + ipc) o := by
  have hb : 8 + proof.gipa.steps.length * 1 ≤ bs.length := by
    simp only [tipaProof, bind, Option.bind_eq_some_iff] at h
    obtain ⟨⟨gipa, b1⟩, h1, ⟨ck, b2⟩, h2, ⟨pf, b3⟩, h3, h4⟩ := h
    cases h4
    exact C149_rounds hmA hmB hA hB hT 1 hm bs gipa b1 h1
  have := (C113_tipa (V := V) (P := P) hS v ckt com proof r o ho).1
  refine this.trans ?_
  have hw : tipaWork proof.gipa.steps.length o ≤ 6 * bs.length := by
    cases o <;> simp only [tipaWork] <;> omega
  exact Nat.add_le_add_right hw _

end Tipa

section Tipp

variable {ρ F G1 G2 GT TF : Type} [Field F] [DecidableEq F] [AddCommGroup G1] [Module F G1] [AddCommGroup G2]
  [Module F G2] [AddCommGroup GT] [Module F GT] [Monoid TF] [DecidableEq GT]

/-- C149: the whole way of a proof for pairing products, from the reference string over the bytes to the verdict;
whatever follows the proof in the message. -/
theorem C149_tipp (V : Env ρ F G1 G2 GT TF) {e : G1 →ₗ[F] G2 →ₗ[F] GT} (hE : V.E.Lawful e)
    (hd : ∀ x, 16 ≤ (V.digest x).length) {g1 : Codec G1} {g2 : Codec G2} {gt : Codec GT} {l1 l2 lT : ℕ}
    (h1 : g1.Faithful fun _ => True) (h2 : g2.Faithful fun _ => True) (hT : gt.Faithful fun _ => True)
    (z1 : g1.Takes (fun _ => True) l1) (z2 : g2.Takes (fun _ => True) l2) (zT : gt.Takes (fun _ => True) lT)
    (k : ℕ) (hk : k + 1 < 2 ^ 64) (srs : SRS G1 G2) (g : G1) (h : G2) (α β : F)
    (hsrs : IsSrs srs g h α β (2 ^ (k + 1))) (ma : List G1) (mb : List G2)
    (q1 : ma.length = 2 ^ (k + 1)) (q2 : mb.length = 2 ^ (k + 1)) :
    Tipa.prove V.tipa V.pairingAB srs ma mb srs.commitmentKeys.1 srs.commitmentKeys.2 PUnit.unit =
      .error .diverge ∨
    ∃ v proof, srs.verifierKey = .ok v ∧
      Tipa.prove V.tipa V.pairingAB srs ma mb srs.commitmentKeys.1 srs.commitmentKeys.2 PUnit.unit = .ok proof ∧
      ((tipaProof g1 g2 g1 g2 gt gt (identityOutput gt)).ser proof).length =
        8 + (k + 1) * (6 * lT + 16) + 3 * (l1 + l2) ∧
      ∀ rest, receive (tipaProof g1 g2 g1 g2 gt gt (identityOutput gt))
        (Tipa.verify V.tipa V.pairingAB v PUnit.unit (dot (e · ·) ma srs.commitmentKeys.1,
          dot (e · ·) srs.commitmentKeys.2 mb, ⟨[dot (e · ·) ma mb]⟩))
        ((tipaProof g1 g2 g1 g2 gt gt (identityOutput gt)).ser proof ++ rest) = .ok (some true) := by
  obtain ⟨e1, e2, -⟩ := C25_keys srs g h α β _ (Nat.one_le_two_pow) hsrs
  have l1' : srs.commitmentKeys.1.length = 2 ^ (k + 1) := by rw [e1]; simp
  have l2' : srs.commitmentKeys.2.length = 2 ^ (k + 1) := by rw [e2]; simp
  rcases Tipa.C29_complete (V := V.tipa) (pairingAB_lawful V hE) hE hd k srs g h α β hsrs ma mb (dot (e · ·) ma mb)
      PUnit.unit (dot (e · ·) ma srs.commitmentKeys.1, dot (e · ·) srs.commitmentKeys.2 mb, ⟨[dot (e · ·) ma mb]⟩)
      q1 q2 ⟨pairingIP_eq hE _ _ _ (by omega), pairingIP_eq hE _ _ _ (by omega), pairingIP_eq hE _ _ _ (by omega),
        rfl⟩ with hx | ⟨v, proof, hv, hp, hverify⟩
  · exact .inl hx
  · have key := C85_tipp V hE hd h1 h2 hT z1 z2 zT (k + 1) hk srs ma mb _ _ q1 q2 l1' l2' proof hp
    refine .inr ⟨v, proof, hv, hp, (key []).1, fun rest => ?_⟩
    rw [receive, (key rest).2]
    simp only [hverify, ok_bind]
    rfl

end Tipp

/-! ## Examples -/

namespace Toy

/-- A proof with one round that is accepted, and stays accepted with bytes appended. -/
example (rest : Bytes) (p : GipaProof F F F F (IdentityOutput F))
    (h : env.pairingAB.verify [2, 3] [1, 4] PUnit.unit (8, 29, ⟨[17]⟩) p = .ok true)
    (hp : GipaWritable (fun _ => True) (fun _ => True) (fun _ => True) (fun _ => True)
      (fun o : IdentityOutput F => o.vals.length < 2 ^ 64 ∧ ∀ x ∈ o.vals, True) p) :
    let C := gipaProof codec codec codec codec (identityOutput codec)
    receive C (env.pairingAB.verify [2, 3] [1, 4] PUnit.unit (8, 29, ⟨[17]⟩)) (C.ser p ++ rest) = .ok (some true) :=
  (C149_accept_iff (C85_gipa codec_faithful codec_faithful codec_faithful codec_faithful
    codec_faithful.identityOutput) _ _).mpr ⟨p, rest, hp, rfl, h⟩

/-- With one byte per element, 670 bytes cost the verifier 2147483646 products. -/
example : ∃ (bs : Bytes) (proof : GipaProof F F F F (IdentityOutput F)), bs.length = 670 ∧
    (gipaProof codec codec codec codec (identityOutput codec)).de bs = some (proof, []) ∧
    (Gipa.verifyC env.pairingAB env.pairingABC [2] [3] PUnit.unit (1, 2, ⟨[3]⟩) proof).work .mul = 2147483646 := by
  obtain ⟨bs, proof, h1, h2, -, -, h3⟩ := Gipa.C149_gipa_attack (pairingAB_lawful env lawful)
    env.pairingABC_of (pairingABC_single env) ⟨rfl, rfl, rfl, rfl⟩ digest_length
    (searchEnds_of_digest _ digest_length digest_ne_zero) 2 3 PUnit.unit (1, 2, ⟨[3]⟩)
    codec_faithful codec_faithful codec_faithful codec_faithful codec_faithful.identityOutput trivial trivial trivial
    trivial ⟨by simp [idψ], by simp⟩ 29 (by norm_num)
  exact ⟨bs, proof, h2, h1, h3.trans (by norm_num)⟩

/-- Four pairings: 58 bytes, accepted with anything appended. -/
example : Tipa.prove env.tipa env.pairingAB srs [1, 2, 3, 4] [5, 6, 7, 8] srs.commitmentKeys.1 srs.commitmentKeys.2
      PUnit.unit = .error .diverge ∨
    ∃ v proof, srs.verifierKey = .ok v ∧ Tipa.prove env.tipa env.pairingAB srs [1, 2, 3, 4] [5, 6, 7, 8]
        srs.commitmentKeys.1 srs.commitmentKeys.2 PUnit.unit = .ok proof ∧
      ((tipaProof codec codec codec codec codec codec (identityOutput codec)).ser proof).length = 58 ∧
      ∀ rest, receive (tipaProof codec codec codec codec codec codec (identityOutput codec))
        (Tipa.verify env.tipa env.pairingAB v PUnit.unit (dot (e · ·) [1, 2, 3, 4] srs.commitmentKeys.1,
          dot (e · ·) srs.commitmentKeys.2 [5, 6, 7, 8], ⟨[dot (e · ·) [1, 2, 3, 4] [5, 6, 7, 8]]⟩))
        ((tipaProof codec codec codec codec codec codec (identityOutput codec)).ser proof ++ rest) =
          .ok (some true) :=
  C149_tipp env lawful digest_length codec_faithful codec_faithful codec_faithful (l1 := 1) (l2 := 1) (lT := 1)
    (fun _ _ => rfl) (fun _ _ => rfl) (fun _ _ => rfl) 1 (by norm_num) srs _ _ _ _ srs_isSrs [1, 2, 3, 4] [5, 6, 7, 8]
    rfl rfl

end Toy

end Ripp
