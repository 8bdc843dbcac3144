import Verif.Model.Commitments

/-!
# Model of `ip_proofs/src/gipa.rs`

Type parameters: `F` the scalar field, `MA`/`MB` left/right messages, `T` the inner product output,
`KA`/`KB`/`KT` the keys and `OA`/`OB`/`OT` the outputs of the left, right and inner-product
commitments, `ρ` the state of the random number generator.
-/

namespace Ripp

/-- The type parameters `IP, LMC, RMC, IPC, D` of `GIPA` with their associated functions, and the
serializers used to build hash inputs. -/
structure Gipa (ρ F MA MB T KA KB KT OA OB OT : Type) where
  ip : List MA → List MB → Res T
  lmc : Commitment ρ KA MA OA
  rmc : Commitment ρ KB MB OB
  ipc : Commitment ρ KT T OT
  digest : Bytes → Bytes
  serF : F → Bytes
  serA : OA → Bytes
  serB : OB → Bytes
  serT : OT → Bytes

/-- A triple of commitments `(LMC::Output, RMC::Output, IPC::Output)`. -/
abbrev Coms (OA OB OT : Type) := OA × OB × OT

/-- `GIPAProof`, `ip_proofs/src/gipa.rs:25-51` (`r_commitment_steps`, `r_base`). Steps are stored in
reverse order of the rounds. -/
@[ext] structure GipaProof (MA MB OA OB OT : Type) where
  steps : List (Coms OA OB OT × Coms OA OB OT)
  base : MA × MB

/-- `GIPAAux`, `ip_proofs/src/gipa.rs:54-75` (`r_transcript`, `ck_base`). -/
structure GipaAux (F KA KB : Type) where
  transcript : List F
  ckBase : KA × KB

/-- The mutable variables of the prover loop, `ip_proofs/src/gipa.rs:191-194`. -/
structure ProveState (F MA MB KA KB OA OB OT : Type) where
  ma : List MA
  mb : List MB
  cka : List KA
  ckb : List KB
  steps : List (Coms OA OB OT × Coms OA OB OT)
  transcript : List F

namespace Gipa

variable {ρ F MA MB T KA KB KT OA OB OT : Type}

/-- The bytes hashed in one round, `ip_proofs/src/gipa.rs:239-247` and `334-342`. -/
def hashInput (P : Gipa ρ F MA MB T KA KB KT OA OB OT) (nonce : ℕ) (prev : F)
    (com1 com2 : Coms OA OB OT) : Bytes :=
  nonceBytes nonce ++ P.serF prev
    ++ P.serA com1.1 ++ P.serB com1.2.1 ++ P.serT com1.2.2
    ++ P.serA com2.1 ++ P.serB com2.2.1 ++ P.serT com2.2.2

/-- `GIPA::setup`, `ip_proofs/src/gipa.rs:97-106`. -/
def setup (P : Gipa ρ F MA MB T KA KB KT OA OB OT) (s : ρ) (size : ℕ) :
    Res ((List KA × List KB × KT) × ρ) := do
  let (ka, s) ← P.lmc.setup s size
  let (kb, s) ← P.rmc.setup s size
  let (kt, s) ← P.ipc.setup s 1
  let kt ← unwrap kt.getLast?
  return ((ka, kb, kt), s)

variable [Field F] [DecidableEq F]

/-- One attempt of the challenge loop, `ip_proofs/src/gipa.rs:239-256`. Slicing the digest to 16 bytes
panics if it is shorter. The pair returned is `(c_inv, c)` of the hash value `c`. -/
def challengeAttempt (P : Gipa ρ F MA MB T KA KB KT OA OB OT) (prev : F)
    (com1 com2 : Coms OA OB OT) (nonce : ℕ) : Res (Option (F × F)) :=
  let h := P.digest (P.hashInput nonce prev com1 com2)
  if h.length < 16 then panic' .bounds
  else
    let c : F := (beNat (h.take 16) : F)
    match inverse c with
    | some cInv => .ok (some (cInv, c))
    | none => .ok none

/-- The Fiat-Shamir challenge of one round, `ip_proofs/src/gipa.rs:235-258` and `330-353`; returns
`(c, c_inv)` after the swap. -/
def challenge (P : Gipa ρ F MA MB T KA KB KT OA OB OT) (prev : F)
    (com1 com2 : Coms OA OB OT) : Res (F × F) :=
  searchNonce (P.challengeAttempt prev com1 com2) nonceLimit 0

variable [AddCommGroup MA] [Module F MA] [AddCommGroup MB] [Module F MB]
  [AddCommGroup KA] [Module F KA] [AddCommGroup KB] [Module F KB]

/-- One recursive step of `_prove`, `ip_proofs/src/gipa.rs:205-295`. -/
def proveRound (P : Gipa ρ F MA MB T KA KB KT OA OB OT) (ckt : List KT)
    (st : ProveState F MA MB KA KB OA OB OT) : Res (ProveState F MA MB KA KB OA OB OT) := do
  let split := st.ma.length / 2
  let ma1 ← sliceFrom st.ma split
  let ma2 ← sliceTo st.ma split
  let cka1 ← sliceTo st.cka split
  let cka2 ← sliceFrom st.cka split
  let mb1 ← sliceTo st.mb split
  let mb2 ← sliceFrom st.mb split
  let ckb1 ← sliceFrom st.ckb split
  let ckb2 ← sliceTo st.ckb split
  let l1 ← P.lmc.commit cka1 ma1
  let r1 ← P.rmc.commit ckb1 mb1
  let t1 ← P.ipc.commit ckt [← P.ip ma1 mb1]
  let l2 ← P.lmc.commit cka2 ma2
  let r2 ← P.rmc.commit ckb2 mb2
  let t2 ← P.ipc.commit ckt [← P.ip ma2 mb2]
  let com1 : Coms OA OB OT := (l1, r1, t1)
  let com2 : Coms OA OB OT := (l2, r2, t2)
  let (c, cInv) ← P.challenge (st.transcript.getLast?.getD 0) com1 com2
  return {
    ma := List.zipWith (fun a1 a2 => c • a1 + a2) ma1 ma2
    mb := List.zipWith (fun b2 b1 => cInv • b2 + b1) mb2 mb1
    cka := List.zipWith (fun k2 k1 => cInv • k2 + k1) cka2 cka1
    ckb := List.zipWith (fun k1 k2 => c • k1 + k2) ckb1 ckb2
    steps := st.steps ++ [(com1, com2)]
    transcript := st.transcript ++ [c] }

/-- The loop `'recurse`, `ip_proofs/src/gipa.rs:196-297`, followed by the two reversals and the
construction of the result, lines 298-311. -/
def proveLoop (P : Gipa ρ F MA MB T KA KB KT OA OB OT) (ckt : List KT) :
    ℕ → ProveState F MA MB KA KB OA OB OT →
    Res (GipaProof MA MB OA OB OT × GipaAux F KA KB)
  | fuel, st =>
    if st.ma.length = 1 then do
      let a ← idx st.ma 0
      let b ← idx st.mb 0
      let ka ← idx st.cka 0
      let kb ← idx st.ckb 0
      return ({ steps := st.steps.reverse, base := (a, b) },
        { transcript := st.transcript.reverse, ckBase := (ka, kb) })
    else
      match fuel with
      | 0 => .error .diverge
      | fuel + 1 => do proveLoop P ckt fuel (← proveRound P ckt st)

/-- `GIPA::_prove` and `GIPA::prove_with_aux`, `ip_proofs/src/gipa.rs:162-312`. -/
def proveWithAux (P : Gipa ρ F MA MB T KA KB KT OA OB OT)
    (ma : List MA) (mb : List MB) (cka : List KA) (ckb : List KB) (ckt : List KT) :
    Res (GipaProof MA MB OA OB OT × GipaAux F KA KB) := do
  assert (isPow2 ma.length)
  proveLoop P ckt ma.length
    { ma := ma, mb := mb, cka := cka, ckb := ckb, steps := [], transcript := [] }

variable [DecidableEq T] [DecidableEq OA] [DecidableEq OB] [DecidableEq OT]

/-- `GIPA::prove`, `ip_proofs/src/gipa.rs:108-133`. -/
def prove (P : Gipa ρ F MA MB T KA KB KT OA OB OT)
    (ma : List MA) (mb : List MB) (t : T) (cka : List KA) (ckb : List KB) (ckt : KT)
    (com : Coms OA OB OT) : Res (GipaProof MA MB OA OB OT) := do
  if (← P.ip ma mb) ≠ t then throw .ipInvalid
  if isPow2 ma.length = false then throw (.argLength ma.length mb.length)
  let okL ← P.lmc.verify cka ma com.1
  let okAll ←
    if okL then do
      let okR ← P.rmc.verify ckb mb com.2.1
      if okR then P.ipc.verify [ckt] [t] com.2.2 else pure false
    else pure false
  if okAll = false then throw .ipInvalid
  let (proof, _) ← P.proveWithAux ma mb cka ckb [ckt]
  return proof

variable [Add OA] [SMul F OA] [Add OB] [SMul F OB] [Add OT] [SMul F OT]

/-- The update of the running commitments, `ip_proofs/src/gipa.rs:355-357`. -/
def foldComs (c cInv : F) (com : Coms OA OB OT) (com1 com2 : Coms OA OB OT) : Coms OA OB OT :=
  (c • com1.1 + com.1 + cInv • com2.1,
   c • com1.2.1 + com.2.1 + cInv • com2.2.1,
   c • com1.2.2 + com.2.2 + cInv • com2.2.2)

/-- The loop of `_compute_recursive_challenges` over the steps in round order,
`ip_proofs/src/gipa.rs:328-360`; `tr` is `r_transcript` so far. -/
def recLoop (P : Gipa ρ F MA MB T KA KB KT OA OB OT) :
    List (Coms OA OB OT × Coms OA OB OT) → Coms OA OB OT → List F → Res (Coms OA OB OT × List F)
  | [], com, tr => .ok (com, tr)
  | (com1, com2) :: rest, com, tr => do
    let (c, cInv) ← P.challenge (tr.getLast?.getD 0) com1 com2
    recLoop P rest (foldComs c cInv com com1 com2) (tr ++ [c])

/-- `_compute_recursive_challenges` and `verify_recursive_challenge_transcript`,
`ip_proofs/src/gipa.rs:315-363`. -/
def recursiveChallenges (P : Gipa ρ F MA MB T KA KB KT OA OB OT) (com : Coms OA OB OT)
    (proof : GipaProof MA MB OA OB OT) : Res (Coms OA OB OT × List F) := do
  let (com, tr) ← P.recLoop proof.steps.reverse com []
  return (com, tr.reverse)

end Gipa

section FinalKeys
variable {F : Type} [Field F] [DecidableEq F]

/-- `for j in 0..2^i { v.push(v[j] * x) }`: the inner loop at `ip_proofs/src/gipa.rs:377-380` for one
of the two vectors (the two pushes of the Rust loop touch different vectors). -/
def pushScaled (v : List F) (x : F) (count : ℕ) : Res (List F) :=
  (List.range count).foldlM (fun v j => do return v ++ [(← idx v j) * x]) v

/-- The loop at `ip_proofs/src/gipa.rs:373-381` computing both exponent vectors; `i` is the
enumeration index. -/
def exponentLoop : List F → ℕ → List F × List F → Res (List F × List F)
  | [], _, acc => .ok acc
  | c :: cs, i, (va, vb) => do
    let cInv ← unwrap (inverse c)
    let va ← pushScaled va cInv (2 ^ i)
    let vb ← pushScaled vb c (2 ^ i)
    exponentLoop cs (i + 1) (va, vb)

/-- `ck[0]*x[0]` followed by the fold over the rest, `ip_proofs/src/gipa.rs:384-389` and `391-396`. -/
def foldKeys {K : Type} [AddCommGroup K] [Module F K] (ck : List K) (xs : List F) : Res K := do
  let g0 ← idx ck 0
  let x0 ← idx xs 0
  let ckRest ← sliceFrom ck 1
  let xsRest ← sliceFrom xs 1
  return (List.zipWith (fun g x => x • g) ckRest xsRest).foldl (· + ·) (x0 • g0)

/-- `_compute_final_commitment_keys`, `ip_proofs/src/gipa.rs:365-399`. -/
def finalKeys {KA KB : Type} [AddCommGroup KA] [Module F KA] [AddCommGroup KB] [Module F KB]
    (cka : List KA) (ckb : List KB) (transcript : List F) : Res (KA × KB) := do
  assert (isPow2 cka.length)
  let (va, vb) ← exponentLoop transcript 0 ([1], [1])
  assert (va.length == cka.length)
  let ka ← foldKeys cka va
  let kb ← foldKeys ckb vb
  return (ka, kb)

end FinalKeys

namespace Gipa

variable {ρ F MA MB T KA KB KT OA OB OT : Type}
  [DecidableEq OA] [DecidableEq OB] [DecidableEq OT]

/-- `_verify_base_commitment`, `ip_proofs/src/gipa.rs:401-415`. `&&` short-circuits. -/
def verifyBase (P : Gipa ρ F MA MB T KA KB KT OA OB OT) (ka : KA) (kb : KB) (ckt : List KT)
    (com : Coms OA OB OT) (proof : GipaProof MA MB OA OB OT) : Res Bool := do
  let t ← P.ip [proof.base.1] [proof.base.2]
  if ← P.lmc.verify [ka] [proof.base.1] com.1 then
    if ← P.rmc.verify [kb] [proof.base.2] com.2.1 then
      P.ipc.verify ckt [t] com.2.2
    else return false
  else return false

variable [Field F] [DecidableEq F]
  [AddCommGroup KA] [Module F KA] [AddCommGroup KB] [Module F KB]
  [Add OA] [SMul F OA] [Add OB] [SMul F OB] [Add OT] [SMul F OT]

/-- `GIPA::verify`, `ip_proofs/src/gipa.rs:135-160`. -/
def verify (P : Gipa ρ F MA MB T KA KB KT OA OB OT) (cka : List KA) (ckb : List KB) (ckt : KT)
    (com : Coms OA OB OT) (proof : GipaProof MA MB OA OB OT) : Res Bool := do
  if isPow2 cka.length = false ∨ cka.length ≠ ckb.length then
    throw (.argLength cka.length ckb.length)
  let (baseCom, transcript) ← P.recursiveChallenges com proof
  let (ka, kb) ← finalKeys cka ckb transcript
  P.verifyBase ka kb [ckt] baseCom proof

end Gipa

end Ripp
