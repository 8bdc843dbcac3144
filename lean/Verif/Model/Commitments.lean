import Verif.Model.InnerProducts

/-!
# Model of `dh_commitments/src` and of `SSMPlaceholderCommitment`
-/

namespace Ripp

/-- `trait DoublyHomomorphicCommitment`, `dh_commitments/src/lib.rs:20-55`. `ρ` is the state of the
random number generator, `K`, `M`, `O` are `Key`, `Message`, `Output`. -/
structure Commitment (ρ K M O : Type) where
  setup : ρ → ℕ → Res (List K × ρ)
  commit : List K → List M → Res O

/-- The provided method `verify`, `dh_commitments/src/lib.rs:52-54`. -/
def Commitment.verify {ρ K M O : Type} [DecidableEq O] (C : Commitment ρ K M O)
    (k : List K) (m : List M) (com : O) : Res Bool := do
  let o ← C.commit k m
  return decide (o = com)

/-- `random_generators`, `dh_commitments/src/lib.rs:59-61`; `rand` is `G::rand`. -/
def randomGenerators {ρ G : Type} (rand : ρ → G × ρ) : ρ → ℕ → List G × ρ
  | s, 0 => ([], s)
  | s, n + 1 =>
    let (g, s') := rand s
    let (gs, s'') := randomGenerators rand s' n
    (g :: gs, s'')

section
variable {ρ F G G1 G2 GT TF : Type}

/-- `PedersenCommitment`, `dh_commitments/src/pedersen/mod.rs:14-27`. -/
def pedersen [Field F] [AddCommGroup G] [Module F G] (rand : ρ → G × ρ) :
    Commitment ρ G F G where
  setup s n := .ok (randomGenerators rand s n)
  commit k m := multiexpIP k m

/-- `AFGHOCommitmentG1`, `dh_commitments/src/afgho16/mod.rs:20-33`: messages in G1, keys in G2. -/
def afghoG1 [Monoid TF] (E : Engine G1 G2 GT TF) (X : Exec) (rand : ρ → G2 × ρ) :
    Commitment ρ G2 G1 GT where
  setup s n := .ok (randomGenerators rand s n)
  commit k m := pairingIP E X m k

/-- `AFGHOCommitmentG2`, `dh_commitments/src/afgho16/mod.rs:35-48`: messages in G2, keys in G1. -/
def afghoG2 [Monoid TF] (E : Engine G1 G2 GT TF) (X : Exec) (rand : ρ → G1 × ρ) :
    Commitment ρ G1 G2 GT where
  setup s n := .ok (randomGenerators rand s n)
  commit k m := pairingIP E X k m

end

/-- `HomomorphicPlaceholderValue`, `dh_commitments/src/identity/mod.rs:17-30`: one value, addition
and scaling do nothing (the one-element module). -/
abbrev Placeholder := PUnit.{1}

/-- `IdentityOutput<T>(pub Vec<T>)`, `dh_commitments/src/identity/mod.rs:32-35`. -/
@[ext] structure IdentityOutput (T : Type) where
  vals : List T
  deriving DecidableEq

/-- `impl Add for IdentityOutput`, `dh_commitments/src/identity/mod.rs:37-52` (zip truncates). -/
instance {T : Type} [Add T] : Add (IdentityOutput T) :=
  ⟨fun a b => ⟨List.zipWith (· + ·) a.vals b.vals⟩⟩

/-- `impl MulAssign for IdentityOutput`, `dh_commitments/src/identity/mod.rs:54-62`. -/
instance {F T : Type} [SMul F T] : SMul F (IdentityOutput T) :=
  ⟨fun c a => ⟨a.vals.map (c • ·)⟩⟩

/-- `IdentityCommitment`, `dh_commitments/src/identity/mod.rs:64-89`. -/
def identityCommitment {ρ T : Type} : Commitment ρ Placeholder T (IdentityOutput T) where
  setup s n := .ok (List.replicate n PUnit.unit, s)
  commit _ m := .ok ⟨m⟩

/-- `SSMPlaceholderCommitment`, `ip_proofs/src/tipa/structured_scalar_message.rs:33-47`. -/
def ssmPlaceholder {ρ F : Type} [Field F] : Commitment ρ Placeholder F F where
  setup s n := .ok (List.replicate n PUnit.unit, s)
  commit _ _ := .ok 0

end Ripp
