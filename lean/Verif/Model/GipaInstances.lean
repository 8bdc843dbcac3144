import Verif.Model.Groth16

/-!
# The instantiations of GIPA and TIPA used in the crate

The pairing instance is `Env.pairingAB`.
-/

namespace Ripp

variable {ρ F G1 G2 GT TF : Type} [Field F] [DecidableEq F]
  [AddCommGroup G1] [Module F G1] [AddCommGroup G2] [Module F G2] [Monoid TF]

/-- `MultiExpGIPA = GIPA<MultiexponentiationInnerProduct<G1>, AFGHOCommitmentG1, Pedersen<G1>,
IdentityCommitment<G1>>`, `ip_proofs/src/gipa.rs:500-503`, and the same parameters for `TIPA`,
`ip_proofs/src/tipa/mod.rs:475-478`. -/
def Env.multiexpGipa (V : Env ρ F G1 G2 GT TF) :
    Gipa ρ F G1 F G1 G2 G1 Placeholder GT G1 (IdentityOutput G1) where
  ip := multiexpIP
  lmc := afghoG1 V.E V.X V.randG2
  rmc := pedersen V.randG1
  ipc := identityCommitment
  digest := V.digest
  serF := V.serF
  serA := V.serGT
  serB := V.serG1
  serT := serIdentity V.serG1

/-- `ScalarGIPA = GIPA<ScalarInnerProduct, Pedersen<G2>, Pedersen<G2>, IdentityCommitment<F>>`,
`ip_proofs/src/gipa.rs:531-536`. -/
def Env.scalarGipa (V : Env ρ F G1 G2 GT TF) :
    Gipa ρ F F F F G2 G2 Placeholder G2 G2 (IdentityOutput F) where
  ip := scalarIP V.X
  lmc := pedersen V.randG2
  rmc := pedersen V.randG2
  ipc := identityCommitment
  digest := V.digest
  serF := V.serF
  serA := V.serG2
  serB := V.serG2
  serT := serIdentity V.serF

/-- `ScalarTIPA = TIPA<ScalarInnerProduct, Pedersen<G2>, Pedersen<G1>, IdentityCommitment<F>>`,
`ip_proofs/src/tipa/mod.rs:501-506`. -/
def Env.scalarTipa (V : Env ρ F G1 G2 GT TF) :
    Gipa ρ F F F F G2 G1 Placeholder G2 G1 (IdentityOutput F) where
  ip := scalarIP V.X
  lmc := pedersen V.randG2
  rmc := pedersen V.randG1
  ipc := identityCommitment
  digest := V.digest
  serF := V.serF
  serA := V.serG2
  serB := V.serG1
  serT := serIdentity V.serF

end Ripp
