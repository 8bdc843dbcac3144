import Verif.Model.Serialize
import Verif.Lemmas.Bytes
import Verif.Props.Tipa
import Verif.Props.Ssm
import Verif.Toy

/-!
# C85: proofs survive serialization, and have one encoding only
-/

namespace Ripp

namespace Codec

variable {α β : Type}

/-- Reading what was written returns the value and the rest; only what is written can be read. `S` are the
values that can be written (for instance vectors with fewer than `2^64` entries). -/
structure Faithful (C : Codec α) (S : α → Prop) : Prop where
  read : ∀ x u, S x → C.de (C.ser x ++ u) = some (x, u)
  canonical : ∀ bs x u, C.de bs = some (x, u) → S x ∧ bs = C.ser x ++ u

theorem Faithful.decodable {C : Codec α} {S : α → Prop} (h : C.Faithful S) : Decodable S C.ser := by
  intro x y u v hx hy e
  have := h.read x u hx
  rw [e, h.read y v hy] at this
  simp only [Option.some.injEq, Prod.mk.injEq] at this
  exact ⟨this.1.symm, this.2.symm⟩

theorem faithful_placeholder : placeholder.Faithful fun _ => True where
  read _ _ _ := rfl
  canonical bs x u h := by
    simp only [placeholder, Option.some.injEq, Prod.mk.injEq] at h
    exact ⟨trivial, by simp [placeholder, h.2]⟩

theorem Faithful.prod {A : Codec α} {B : Codec β} {S : α → Prop} {S' : β → Prop} (hA : A.Faithful S)
    (hB : B.Faithful S') : (A.prod B).Faithful fun p => S p.1 ∧ S' p.2 where
  read x u h := by
    simp [Codec.prod, hA.read _ _ h.1, hB.read _ _ h.2]
  canonical bs x u h := by
    simp only [Codec.prod, bind, Option.bind_eq_some_iff] at h
    obtain ⟨⟨a, b1⟩, h1, ⟨b, b2⟩, h2, h3⟩ := h
    obtain ⟨s1, rfl⟩ := hA.canonical _ _ _ h1
    obtain ⟨s2, rfl⟩ := hB.canonical _ _ _ h2
    cases h3
    exact ⟨⟨s1, s2⟩, by simp [Codec.prod]⟩

theorem leNat_leBytes : ∀ k n, n < 256 ^ k → leNat (leBytes k n) = n
  | 0, n, h => by simp at h; simp [leBytes, leNat, h]
  | k + 1, n, h => by
    have h2 : n / 256 < 256 ^ k := by
      rw [pow_succ] at h
      exact Nat.div_lt_of_lt_mul (by linarith)
    rw [leBytes, leNat, leNat_leBytes k _ h2]
    have : (UInt8.ofNat (n % 256)).toNat = n % 256 := by simp
    rw [this]
    omega

theorem leBytes_leNat : ∀ bs : Bytes, leBytes bs.length (leNat bs) = bs
  | [] => rfl
  | b :: bs => by
    have hb := b.toNat_lt
    rw [List.length_cons, leBytes, leNat]
    have h1 : (b.toNat + 256 * leNat bs) % 256 = b.toNat := by omega
    have h2 : (b.toNat + 256 * leNat bs) / 256 = leNat bs := by omega
    rw [h1, h2, leBytes_leNat bs]
    simp

theorem leNat_lt : ∀ bs : Bytes, leNat bs < 256 ^ bs.length
  | [] => by simp [leNat]
  | b :: bs => by
    have hb := b.toNat_lt
    have := leNat_lt bs
    rw [leNat, List.length_cons, pow_succ]
    omega

theorem faithful_u64 : u64.Faithful fun n => n < 2 ^ 64 where
  read n u h := by
    have h8 : n < 256 ^ 8 := by norm_num; exact h
    have hl := length_leBytes 8 n
    simp only [u64, List.length_append, hl]
    rw [if_neg (by omega), List.take_left' hl, List.drop_left' hl, leNat_leBytes 8 n h8]
  canonical bs n u h := by
    simp only [u64] at h
    split at h
    · cases h
    · rename_i hl
      simp only [Option.some.injEq, Prod.mk.injEq] at h
      obtain ⟨rfl, rfl⟩ := h
      have h8 : (bs.take 8).length = 8 := by rw [List.length_take]; omega
      refine ⟨?_, ?_⟩
      · have := leNat_lt (bs.take 8)
        rw [h8] at this
        norm_num at this ⊢
        exact this
      · have := leBytes_leNat (bs.take 8)
        rw [h8] at this
        simp only [u64]
        rw [this, List.take_append_drop]

theorem many_read {A : Codec α} {S : α → Prop} (hA : A.Faithful S) : ∀ (xs : List α) (u : Bytes),
    (∀ x ∈ xs, S x) → many A xs.length (xs.flatMap A.ser ++ u) = some (xs, u)
  | [], u, _ => rfl
  | x :: xs, u, h => by
    rw [List.length_cons, many, List.flatMap_cons, List.append_assoc, hA.read _ _ (h x (by simp))]
    simp only [bind, Option.bind_some]
    rw [many_read hA xs u fun y hy => h y (by simp [hy])]
    rfl

theorem many_canonical {A : Codec α} {S : α → Prop} (hA : A.Faithful S) : ∀ (n : ℕ) (bs : Bytes) (xs : List α)
    (u : Bytes), many A n bs = some (xs, u) →
      xs.length = n ∧ (∀ x ∈ xs, S x) ∧ bs = xs.flatMap A.ser ++ u
  | 0, bs, xs, u, h => by
    simp only [many, Option.some.injEq, Prod.mk.injEq] at h
    obtain ⟨rfl, rfl⟩ := h
    simp
  | n + 1, bs, xs, u, h => by
    simp only [many, bind, Option.bind_eq_some_iff] at h
    obtain ⟨⟨a, b1⟩, h1, ⟨as, b2⟩, h2, h3⟩ := h
    obtain ⟨s1, rfl⟩ := hA.canonical _ _ _ h1
    obtain ⟨l, s2, rfl⟩ := many_canonical hA n _ _ _ h2
    cases h3
    refine ⟨by simp [l], ?_, by simp⟩
    intro x hx
    rcases List.mem_cons.mp hx with rfl | hx
    · exact s1
    · exact s2 x hx

theorem Faithful.vec {A : Codec α} {S : α → Prop} (hA : A.Faithful S) :
    (vec A).Faithful fun xs => xs.length < 2 ^ 64 ∧ ∀ x ∈ xs, S x where
  read xs u h := by
    have h1 := faithful_u64.read xs.length (xs.flatMap A.ser ++ u) h.1
    simp only [Codec.vec, serSeq, List.append_assoc, bind]
    rw [show leBytes 8 xs.length = u64.ser xs.length from rfl, h1]
    simp only [Option.bind_some]
    exact many_read hA xs u h.2
  canonical bs xs u h := by
    simp only [Codec.vec, bind, Option.bind_eq_some_iff] at h
    obtain ⟨⟨n, b1⟩, h1, h2⟩ := h
    obtain ⟨hn, rfl⟩ := faithful_u64.canonical _ _ _ h1
    obtain ⟨rfl, s, rfl⟩ := many_canonical hA _ _ _ _ h2
    exact ⟨⟨hn, s⟩, by simp [Codec.vec, serSeq, u64]⟩

theorem Faithful.identityOutput {A : Codec α} {S : α → Prop} (hA : A.Faithful S) :
    (identityOutput A).Faithful fun o => o.vals.length < 2 ^ 64 ∧ ∀ x ∈ o.vals, S x where
  read o u h := by
    have := hA.vec.read o.vals u h
    simp only [Codec.identityOutput, serIdentity, bind]
    rw [show serSeq A.ser o.vals = (Codec.vec A).ser o.vals from rfl, this]
    rfl
  canonical bs o u h := by
    simp only [Codec.identityOutput, bind, Option.bind_eq_some_iff] at h
    obtain ⟨⟨v, b1⟩, h1, h2⟩ := h
    obtain ⟨s, rfl⟩ := hA.vec.canonical _ _ _ h1
    cases h2
    exact ⟨s, rfl⟩

variable {F G1 G2 MA MB OA OB OT : Type} {sF : F → Prop} {s1 : G1 → Prop} {s2 : G2 → Prop} {sMA : MA → Prop}
  {sMB : MB → Prop} {sA : OA → Prop} {sB : OB → Prop} {sT : OT → Prop}

/-- The parts of a GIPA proof are in the given sets, and the number of rounds fits into 64 bits. -/
def GipaWritable (sMA : MA → Prop) (sMB : MB → Prop) (sA : OA → Prop) (sB : OB → Prop) (sT : OT → Prop)
    (p : GipaProof MA MB OA OB OT) : Prop :=
  p.steps.length < 2 ^ 64 ∧
  (∀ z ∈ p.steps, (sA z.1.1 ∧ sB z.1.2.1 ∧ sT z.1.2.2) ∧ sA z.2.1 ∧ sB z.2.2.1 ∧ sT z.2.2.2) ∧
  sMA p.base.1 ∧ sMB p.base.2

variable {f : Codec F} {g1 : Codec G1} {g2 : Codec G2} {mA : Codec MA} {mB : Codec MB} {A : Codec OA}
  {B : Codec OB} {T : Codec OT}

/-- C85: GIPA proofs. -/
theorem C85_gipa (hmA : mA.Faithful sMA) (hmB : mB.Faithful sMB) (hA : A.Faithful sA) (hB : B.Faithful sB)
    (hT : T.Faithful sT) : (gipaProof mA mB A B T).Faithful (GipaWritable sMA sMB sA sB sT) := by
  have hv := ((hA.prod (hB.prod hT)).prod (hA.prod (hB.prod hT))).vec
  have hb := hmA.prod hmB
  constructor
  · intro p u h
    have h1 := hv.read p.steps ((mA.prod mB).ser p.base ++ u) ⟨h.1, h.2.1⟩
    have h2 := hb.read p.base u h.2.2
    simp only [gipaProof, coms, List.append_assoc, bind]
    rw [h1, Option.bind_some, h2]
    rfl
  · intro bs p u h
    simp only [gipaProof, bind, Option.bind_eq_some_iff] at h
    obtain ⟨⟨v, b1⟩, h1, ⟨b, b2⟩, h2, h3⟩ := h
    obtain ⟨q1, rfl⟩ := hv.canonical _ _ _ h1
    obtain ⟨q2, rfl⟩ := hb.canonical _ _ _ h2
    cases h3
    exact ⟨⟨q1.1, q1.2, q2⟩, by simp [gipaProof, coms]⟩

/-- C85: TIPA proofs. -/
theorem C85_tipa (h1 : g1.Faithful s1) (h2 : g2.Faithful s2) (hmA : mA.Faithful sMA) (hmB : mB.Faithful sMB)
    (hA : A.Faithful sA) (hB : B.Faithful sB) (hT : T.Faithful sT) :
    (tipaProof g1 g2 mA mB A B T).Faithful fun p => GipaWritable sMA sMB sA sB sT p.gipa ∧
      (s2 p.finalCk.1 ∧ s1 p.finalCk.2) ∧ s2 p.finalCkProof.1 ∧ s1 p.finalCkProof.2 := by
  have hg := C85_gipa hmA hmB hA hB hT
  have hk := h2.prod h1
  constructor
  · intro p u h
    have e1 := hg.read p.gipa ((g2.prod g1).ser p.finalCk ++ ((g2.prod g1).ser p.finalCkProof ++ u)) h.1
    have e2 := hk.read p.finalCk ((g2.prod g1).ser p.finalCkProof ++ u) h.2.1
    have e3 := hk.read p.finalCkProof u h.2.2
    simp only [tipaProof, List.append_assoc, bind]
    rw [e1, Option.bind_some, e2, Option.bind_some, e3]
    rfl
  · intro bs p u h
    simp only [tipaProof, bind, Option.bind_eq_some_iff] at h
    obtain ⟨⟨v, b1⟩, e1, ⟨b, b2⟩, e2, ⟨c, b3⟩, e3, e4⟩ := h
    obtain ⟨q1, rfl⟩ := hg.canonical _ _ _ e1
    obtain ⟨q2, rfl⟩ := hk.canonical _ _ _ e2
    obtain ⟨q3, rfl⟩ := hk.canonical _ _ _ e3
    cases e4
    exact ⟨⟨q1, q2, q3⟩, by simp [tipaProof]⟩

/-- C85: TIPA proofs for structured scalar messages. -/
theorem C85_ssm (hf : f.Faithful sF) (h2 : g2.Faithful s2) (hmA : mA.Faithful sMA) (hA : A.Faithful sA)
    (hT : T.Faithful sT) :
    (tipaSsmProof f g2 mA A T).Faithful fun p => GipaWritable sMA sF sA sF sT p.gipa ∧
      s2 p.finalCk ∧ s2 p.finalCkProof := by
  have hg := C85_gipa hmA hf hA hf hT
  constructor
  · intro p u h
    have e1 := hg.read p.gipa (g2.ser p.finalCk ++ (g2.ser p.finalCkProof ++ u)) h.1
    have e2 := h2.read p.finalCk (g2.ser p.finalCkProof ++ u) h.2.1
    have e3 := h2.read p.finalCkProof u h.2.2
    simp only [tipaSsmProof, List.append_assoc, bind]
    rw [e1, Option.bind_some, e2, Option.bind_some, e3]
    rfl
  · intro bs p u h
    simp only [tipaSsmProof, bind, Option.bind_eq_some_iff] at h
    obtain ⟨⟨v, b1⟩, e1, ⟨b, b2⟩, e2, ⟨c, b3⟩, e3, e4⟩ := h
    obtain ⟨q1, rfl⟩ := hg.canonical _ _ _ e1
    obtain ⟨q2, rfl⟩ := h2.canonical _ _ _ e2
    obtain ⟨q3, rfl⟩ := h2.canonical _ _ _ e3
    cases e4
    exact ⟨⟨q1, q2, q3⟩, by simp [tipaSsmProof]⟩

/-! ## Sizes -/

/-- All values of the set take `l` bytes. -/
def Takes (C : Codec α) (S : α → Prop) (l : ℕ) : Prop := ∀ x, S x → (C.ser x).length = l

theorem length_flatMap_const {ser : α → Bytes} {l : ℕ} : ∀ xs : List α, (∀ x ∈ xs, (ser x).length = l) →
    (xs.flatMap ser).length = xs.length * l
  | [], _ => by simp
  | x :: xs, h => by
    rw [List.flatMap_cons, List.length_append, h x (by simp),
      length_flatMap_const xs fun y hy => h y (by simp [hy]), List.length_cons]
    ring

theorem takes_identityOutput {C : Codec α} {S : α → Prop} {l : ℕ} (h : C.Takes S l) (v : ℕ) :
    (identityOutput C).Takes (fun o => o.vals.length = v ∧ ∀ x ∈ o.vals, S x) (8 + v * l) := by
  intro o ho
  simp only [identityOutput, serIdentity, serSeq, List.length_append, length_leBytes]
  rw [length_flatMap_const _ fun x hx => h x (ho.2 x hx), ho.1]

/-- The size of a GIPA proof is linear in the number of rounds. -/
theorem C85_gipa_size {lmA lmB lA lB lT : ℕ} (hmA : mA.Takes sMA lmA) (hmB : mB.Takes sMB lmB)
    (hA : A.Takes sA lA) (hB : B.Takes sB lB) (hT : T.Takes sT lT) (p : GipaProof MA MB OA OB OT)
    (hp : GipaWritable sMA sMB sA sB sT p) :
    ((gipaProof mA mB A B T).ser p).length = 8 + p.steps.length * (2 * (lA + lB + lT)) + (lmA + lmB) := by
  simp only [gipaProof, vec, serSeq, List.length_append, length_leBytes, Codec.prod, hmA _ hp.2.2.1,
    hmB _ hp.2.2.2]
  rw [length_flatMap_const (l := 2 * (lA + lB + lT))]
  intro z hz
  obtain ⟨⟨q1, q2, q3⟩, q4, q5, q6⟩ := hp.2.1 z hz
  simp only [coms, Codec.prod, List.length_append, hA _ q1, hB _ q2, hT _ q3, hA _ q4, hB _ q5, hT _ q6]
  ring

theorem C85_tipa_size {l1 l2 lmA lmB lA lB lT : ℕ} (h1 : g1.Takes s1 l1) (h2 : g2.Takes s2 l2)
    (hmA : mA.Takes sMA lmA) (hmB : mB.Takes sMB lmB)
    (hA : A.Takes sA lA) (hB : B.Takes sB lB) (hT : T.Takes sT lT) (p : TipaProof G1 G2 MA MB OA OB OT)
    (hp : GipaWritable sMA sMB sA sB sT p.gipa) (hk : s2 p.finalCk.1 ∧ s1 p.finalCk.2)
    (hq : s2 p.finalCkProof.1 ∧ s1 p.finalCkProof.2) :
    ((tipaProof g1 g2 mA mB A B T).ser p).length =
      8 + p.gipa.steps.length * (2 * (lA + lB + lT)) + (lmA + lmB) + 2 * (l1 + l2) := by
  simp only [tipaProof, List.length_append, C85_gipa_size hmA hmB hA hB hT p.gipa hp, Codec.prod, h1 _ hk.2,
    h2 _ hk.1, h1 _ hq.2, h2 _ hq.1]
  ring

theorem C85_ssm_size {lF l2 lmA lA lT : ℕ} (hf : f.Takes sF lF) (h2 : g2.Takes s2 l2)
    (hmA : mA.Takes sMA lmA) (hA : A.Takes sA lA) (hT : T.Takes sT lT) (p : TipaSsmProof F G2 MA OA OT)
    (hp : GipaWritable sMA sF sA sF sT p.gipa) (hk : s2 p.finalCk) (hq : s2 p.finalCkProof) :
    ((tipaSsmProof f g2 mA A T).ser p).length =
      8 + p.gipa.steps.length * (2 * (lA + lF + lT)) + (lmA + lF) + 2 * l2 := by
  simp only [tipaSsmProof, List.length_append, C85_gipa_size hmA hf hA hf hT p.gipa hp, h2 _ hk, h2 _ hq]
  ring

end Codec

/-! ## Proofs made by the prover -/

section Honest
open Spec
variable {ρ F MA MB T KA KB KT OA OB OT : Type} [Field F] [DecidableEq F]
  [AddCommGroup MA] [Module F MA] [AddCommGroup MB] [Module F MB]
  [AddCommGroup KA] [Module F KA] [AddCommGroup KB] [Module F KB]

/-- The inner product commitments in the steps are outputs of `commit`. -/
theorem Gipa.proveLoop_steps {P : Gipa ρ F MA MB T KA KB KT OA OB OT} {kt : List KT} {S : OT → Prop}
    (hS : ∀ t o, P.ipc.commit kt [t] = .ok o → S o) : ∀ (fuel : ℕ) (st : ProveState F MA MB KA KB OA OB OT)
    (p : GipaProof MA MB OA OB OT) (aux : GipaAux F KA KB), (∀ z ∈ st.steps, S z.1.2.2 ∧ S z.2.2.2) →
    P.proveLoop kt fuel st = .ok (p, aux) → ∀ z ∈ p.steps, S z.1.2.2 ∧ S z.2.2.2 := by
  have hround : ∀ st st' : ProveState F MA MB KA KB OA OB OT, (∀ z ∈ st.steps, S z.1.2.2 ∧ S z.2.2.2) →
      P.proveRound kt st = .ok st' → ∀ z ∈ st'.steps, S z.1.2.2 ∧ S z.2.2.2 := by
    intro st st' hst h
    simp only [proveRound, bind_eq_ok] at h
    obtain ⟨ma1, -, ma2, -, cka1, -, cka2, -, mb1, -, mb2, -, ckb1, -, ckb2, -, l1, -, r1, -, u1, -, t1, h1,
      l2, -, r2, -, u2, -, t2, h2, c, -, h⟩ := h
    cases h
    intro z hz
    rcases List.mem_append.mp hz with hz | hz
    · exact hst z hz
    · rw [List.mem_singleton] at hz
      subst hz
      exact ⟨hS _ _ h1, hS _ _ h2⟩
  intro fuel
  induction fuel with
  | zero =>
    intro st p aux hst h
    rw [proveLoop] at h
    split at h
    · simp only [bind_eq_ok] at h
      obtain ⟨a, -, b, -, ka, -, kb, -, h⟩ := h
      cases h
      simpa using hst
    · cases h
  | succ n ih =>
    intro st p aux hst h
    rw [proveLoop] at h
    split at h
    · simp only [bind_eq_ok] at h
      obtain ⟨a, -, b, -, ka, -, kb, -, h⟩ := h
      cases h
      simpa using hst
    · simp only [bind_eq_ok] at h
      obtain ⟨st', h1, h2⟩ := h
      exact ih st' p aux (hround st st' hst h1) h2

end Honest

section Tipp
open Spec Codec
variable {ρ F G1 G2 GT TF : Type} [Field F] [DecidableEq F] [AddCommGroup G1] [Module F G1] [AddCommGroup G2]
  [Module F G2] [AddCommGroup GT] [Module F GT] [Monoid TF] [DecidableEq GT]

/-- A proof for pairing products of `2^k` entries takes
`8 + k (6 |GT| + 16) + 3 (|G1| + |G2|)` bytes and is read back. -/
theorem C85_tipp (V : Env ρ F G1 G2 GT TF) {e : G1 →ₗ[F] G2 →ₗ[F] GT} (hE : V.E.Lawful e)
    (hd : ∀ x, 16 ≤ (V.digest x).length) {g1 : Codec G1} {g2 : Codec G2} {gt : Codec GT} {l1 l2 lT : ℕ}
    (h1 : g1.Faithful fun _ => True) (h2 : g2.Faithful fun _ => True) (hT : gt.Faithful fun _ => True)
    (z1 : g1.Takes (fun _ => True) l1) (z2 : g2.Takes (fun _ => True) l2) (zT : gt.Takes (fun _ => True) lT)
    (k : ℕ) (hk : k < 2 ^ 64) (srs : SRS G1 G2) (ma : List G1) (mb : List G2) (cka : List G2) (ckb : List G1)
    (q1 : ma.length = 2 ^ k) (q2 : mb.length = 2 ^ k) (q3 : cka.length = 2 ^ k) (q4 : ckb.length = 2 ^ k)
    (proof : TipaProof G1 G2 G1 G2 GT GT (IdentityOutput GT))
    (h : Tipa.prove V.tipa V.pairingAB srs ma mb cka ckb PUnit.unit = .ok proof) (rest : Bytes) :
    let C := tipaProof g1 g2 g1 g2 gt gt (identityOutput gt)
    (C.ser proof).length = 8 + k * (6 * lT + 16) + 3 * (l1 + l2) ∧
    C.de (C.ser proof ++ rest) = some (proof, rest) := by
  intro C
  simp only [Tipa.prove, Tipa.proveWithShift, bind_eq_ok] at h
  obtain ⟨⟨p, aux⟩, hp, _, _, _, _, _, _, _, _, _, _, h⟩ := h
  cases h
  have hlen := (Gipa.C15_rounds (pairingAB_lawful V hE) hd k ma mb cka ckb PUnit.unit q1 q2 q3 q4 p aux hp).1
  have hs : ∀ z ∈ p.steps, z.1.2.2.vals.length = 1 ∧ z.2.2.2.vals.length = 1 := by
    simp only [Gipa.proveWithAux, bind_eq_ok] at hp
    obtain ⟨-, -, hp⟩ := hp
    refine Gipa.proveLoop_steps (S := fun o : IdentityOutput GT => o.vals.length = 1) ?_ _ _ p aux (by simp) hp
    intro t o ho
    cases ho
    rfl
  have w1 : GipaWritable (fun _ : G1 => True) (fun _ : G2 => True) (fun _ : GT => True) (fun _ : GT => True)
      (fun o : IdentityOutput GT => o.vals.length = 1 ∧ ∀ x ∈ o.vals, True) p :=
    ⟨by rw [hlen]; exact hk, fun z hz => by simp [hs z hz], trivial, trivial⟩
  have w2 : GipaWritable (fun _ : G1 => True) (fun _ : G2 => True) (fun _ : GT => True) (fun _ : GT => True)
      (fun o : IdentityOutput GT => o.vals.length < 2 ^ 64 ∧ ∀ x ∈ o.vals, True) p :=
    ⟨by rw [hlen]; exact hk, fun z hz => by simp [hs z hz], trivial, trivial⟩
  constructor
  · rw [C85_tipa_size z1 z2 z1 z2 zT zT (takes_identityOutput zT 1) _ w1 (by simp) (by simp), hlen]
    ring
  · exact (C85_tipa h1 h2 h1 h2 hT hT hT.identityOutput).read _ _ ⟨w2, by simp, by simp⟩

end Tipp

/-! ## Example -/

namespace Toy

/-- One byte per field element; larger bytes are refused. -/
def codec : Codec F where
  ser := ser
  de
    | [] => none
    | b :: bs => if b.toNat < 101 then some ((b.toNat : F), bs) else none

theorem codec_faithful : codec.Faithful fun _ => True where
  read x u _ := by
    have h : ∀ x : F, (UInt8.ofNat x.val).toNat < 101 ∧ (((UInt8.ofNat x.val).toNat : ℕ) : F) = x := by
      decide +kernel
    simp [codec, ser, (h x).1, -UInt8.toNat_ofNat', (h x).2]
  canonical bs x u h := by
    cases bs with
    | nil => simp [codec] at h
    | cons b bs =>
      simp only [codec] at h
      split at h
      · rename_i hb
        simp only [Option.some.injEq, Prod.mk.injEq] at h
        obtain ⟨rfl, rfl⟩ := h
        have key : ∀ n : Fin 101, UInt8.ofNat ((n.val : F)).val = UInt8.ofNat n.val := by decide +kernel
        refine ⟨trivial, ?_⟩
        simp only [codec, ser, List.singleton_append, List.cons.injEq, and_true]
        rw [key ⟨b.toNat, hb⟩]
        simp
      · cases h

/-- A proof for four pairings: two rounds, `8 + 2 * 22 + 6` bytes. -/
example (proof : TipaProof F F F F F F (IdentityOutput F))
    (h : Tipa.prove env.tipa env.pairingAB srs [1, 2, 3, 4] [5, 6, 7, 8] srs.commitmentKeys.1
      srs.commitmentKeys.2 PUnit.unit = .ok proof) :
    ((Codec.tipaProof codec codec codec codec codec codec (Codec.identityOutput codec)).ser proof).length =
      58 :=
  (C85_tipp env lawful digest_length codec_faithful codec_faithful codec_faithful (fun _ _ => rfl)
    (fun _ _ => rfl) (fun _ _ => rfl) 2 (by norm_num) srs _ _ _ _ rfl rfl (by decide +kernel)
    (by decide +kernel) proof h []).1

/-- The encoding of a proof with one round; a changed length prefix is refused. -/
example : let C := Codec.gipaProof codec codec codec codec (Codec.identityOutput codec)
    C.ser ⟨[((1, 2, ⟨[3]⟩), 4, 5, ⟨[6]⟩)], (7, 8)⟩ =
      [1, 0, 0, 0, 0, 0, 0, 0, 1, 2, 1, 0, 0, 0, 0, 0, 0, 0, 3, 4, 5, 1, 0, 0, 0, 0, 0, 0, 0, 6, 7, 8] ∧
    C.de [2, 0, 0, 0, 0, 0, 0, 0, 1, 2, 1, 0, 0, 0, 0, 0, 0, 0, 3, 4, 5, 1, 0, 0, 0, 0, 0, 0, 0, 6, 7, 8] = none := by
  decide +kernel

end Toy

end Ripp
