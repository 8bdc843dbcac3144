import Verif.Model.InnerProducts

/-!
# Model of `sipp/src/lib.rs` and `sipp/src/rng.rs`
-/

namespace Ripp

namespace Sipp

/-- What the SIPP crate uses from its dependencies: the pairing, the digest, the ChaCha generator
(`σ` is its state) and the serializers. -/
structure Env (σ F G1 G2 GT TF : Type) where
  E : Engine G1 G2 GT TF
  X : Exec
  digest : Bytes → Bytes
  /-- `ChaChaRng::from_seed` -/
  chachaSeed : Bytes → σ
  /-- `ChaChaRng::next_u64` -/
  nextU64 : σ → UInt64 × σ
  serF : F → Bytes
  serG1 : G1 → Bytes
  serG2 : G2 → Bytes
  serGT : GT → Bytes

/-- `FiatShamirRng`, `sipp/src/rng.rs:12-20`. -/
structure Rng (σ : Type) where
  r : σ
  seed : Bytes

variable {σ F G1 G2 GT TF : Type}

/-- `FiatShamirRng::from_seed`, `sipp/src/rng.rs:54-62`. -/
def Rng.fromSeed (V : Env σ F G1 G2 GT TF) (seed : Bytes) : Rng σ :=
  let d := V.digest seed
  { r := V.chachaSeed d, seed := d }

/-- `FiatShamirRng::absorb`, `sipp/src/rng.rs:67-72`: the new material comes first. -/
def Rng.absorb (V : Env σ F G1 G2 GT TF) (rng : Rng σ) (bytes : Bytes) : Rng σ :=
  let d := V.digest (bytes ++ rng.seed)
  { r := V.chachaSeed d, seed := d }

/-- `u128::rand(&mut rng)` through `next_u64` (`sipp/src/rng.rs:32-34`): low half first. -/
def Rng.nextU128 (V : Env σ F G1 G2 GT TF) (rng : Rng σ) : ℕ × Rng σ :=
  let (lo, s) := V.nextU64 rng.r
  let (hi, s) := V.nextU64 s
  (hi.toNat * 2 ^ 64 + lo.toNat, { rng with r := s })

/-- The seed material `(a, b, r, value).serialize_uncompressed`, `sipp/src/lib.rs:57-58` and
`127-130`. -/
def seedBytes (V : Env σ F G1 G2 GT TF) (a : List G1) (b : List G2) (r : List F) (value : GT) :
    Bytes :=
  serSeq V.serG1 a ++ serSeq V.serG2 b ++ serSeq V.serF r ++ V.serGT value

/-- One Fiat-Shamir round, `sipp/src/lib.rs:80-85` and `138-144`: absorb `(z_l, z_r)`, draw a `u128`,
convert it to the field. -/
def roundChallenge [Field F] (V : Env σ F G1 G2 GT TF) (rng : Rng σ) (z : GT × GT) : F × Rng σ :=
  let rng := rng.absorb V (V.serGT z.1 ++ V.serGT z.2)
  let (x, rng) := rng.nextU128 V
  ((x : F), rng)

section Pairings
variable [Field F] [AddCommGroup G1] [Module F G1] [Monoid TF]

/-- `product_of_pairings_with_coeffs`, `sipp/src/lib.rs:184-217`. There is no length check: the zip
with `r` and the zip of the chunk lists truncate. -/
def productOfPairingsWithCoeffs (V : Env σ F G1 G2 GT TF) (a : List G1) (b : List G2) (r : List F) :
    Res GT := do
  let a := List.zipWith (fun a r => r • a) a r
  let cs := chunkSize V.X.threads a.length
  if cs = 0 then panic' .assertion
  let ml ← ((chunks cs a).zip (chunks cs b)).mapM fun (aa, bb) => V.E.multiMillerLoop aa bb
  unwrap (V.E.finalExp (parReduce (· * ·) 1 V.X.sched ml))

/-- `product_of_pairings`, `sipp/src/lib.rs:221-224`. -/
def productOfPairings (V : Env σ F G1 G2 GT TF) (a : List G1) (b : List G2) : Res GT :=
  productOfPairingsWithCoeffs V a b (List.replicate a.length (1 : F))

end Pairings

section Prove
variable [Field F] [DecidableEq F] [AddCommGroup G1] [Module F G1] [AddCommGroup G2] [Module F G2]
  [Monoid TF]

/-- The loop `while length != 1`, `sipp/src/lib.rs:69-101`; `acc` is `proof_vec`. -/
def proveLoop (V : Env σ F G1 G2 GT TF) :
    ℕ → ℕ → List G1 → List G2 → Rng σ → List (GT × GT) → Res (List (GT × GT))
  | fuel, length, a, b, rng, acc =>
    if length = 1 then .ok acc
    else
      match fuel with
      | 0 => .error .diverge
      | fuel + 1 => do
        let length := length / 2
        let aL ← sliceTo a length
        let aR ← sliceFrom a length
        let bL ← sliceTo b length
        let bR ← sliceFrom b length
        let zL ← productOfPairings (F := F) V aR bL
        let zR ← productOfPairings (F := F) V aL bR
        let (x, rng) := roundChallenge V rng (zL, zR)
        let a := List.zipWith (fun l r => x • r + l) aL aR
        let xInv ← unwrap (inverse x)
        let b := List.zipWith (fun l r => xInv • r + l) bL bR
        proveLoop V fuel length a b rng (acc ++ [(zL, zR)])

/-- `SIPP::prove`, `sipp/src/lib.rs:42-106`. -/
def prove (V : Env σ F G1 G2 GT TF) (a : List G1) (b : List G2) (r : List F) (value : GT) :
    Res (List (GT × GT)) := do
  assert (a.length == b.length)
  assert (isPow2 a.length)
  let rng := Rng.fromSeed V (seedBytes V a b r value)
  proveLoop V a.length a.length (List.zipWith (fun a r => r • a) a r) b rng []

end Prove

section Verify
variable [Field F] [DecidableEq F] [AddCommGroup G1] [Module F G1] [AddCommGroup G2] [Module F G2]
  [AddCommGroup GT] [Module F GT] [DecidableEq GT]

/-- The challenges recomputed by the verifier, `sipp/src/lib.rs:134-146`. -/
def challenges (V : Env σ F G1 G2 GT TF) : Rng σ → List (GT × GT) → List F
  | _, [] => []
  | rng, z :: zs =>
    let (x, rng) := roundChallenge V rng z
    x :: challenges V rng zs

/-- The loop building `s` (and, with inverted challenges, `s_invs`), `sipp/src/lib.rs:160-170`. `j` is
the enumeration index; for every `i` with bit `proof_len - j - 1` set, entry `i` is multiplied. -/
def scalarLoop (proofLen : ℕ) : List F → ℕ → List F → List F
  | [], _, s => s
  | x :: xs, j, s =>
    scalarLoop proofLen xs (j + 1)
      (s.mapIdx fun i v => if i.testBit (proofLen - j - 1) then v * x else v)

/-- `SIPP::verify`, `sipp/src/lib.rs:109-180`. `f32::log2` of a power of two is exact, so the test at
line 123 is `2 ^ proof_len = length`. `batch_inversion` leaves zeros unchanged, which is Lean's
convention `0⁻¹ = 0`. -/
def verify (V : Env σ F G1 G2 GT TF) (a : List G1) (b : List G2) (r : List F) (value : GT)
    (proof : List (GT × GT)) : Res Bool := do
  let length := a.length
  assert (isPow2 length)
  assert (decide (2 ≤ length))
  assert (length == b.length)
  let proofLen := proof.length
  assert (2 ^ proofLen == length)
  let xs : List F := challenges V (Rng.fromSeed V (seedBytes V a b r value)) proof
  let xInvs := xs.map (·⁻¹)
  let terms := List.zipWith (fun (z : GT × GT) (x : F × F) => x.1 • z.1 + x.2 • z.2) proof
    (xs.zip xInvs)
  let zPrime := value + parReduce (· + ·) 0 V.X.sched terms
  let s := scalarLoop proofLen xs 0 (List.replicate length (1 : F))
  let sInvs := scalarLoop proofLen xInvs 0 (List.replicate length (1 : F))
  let s := List.zipWith (fun x r => x * r) s r
  let a' ← unwrap (msm a s)
  let b' ← unwrap (msm b sInvs)
  let lhs ← V.E.pairing a' b'
  return decide (lhs = zPrime)

end Verify

end Sipp

end Ripp
