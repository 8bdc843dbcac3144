import Verif.Model.Serialize

/-!
# Proofs that arrive as bytes

The crate derives `CanonicalDeserialize` for its proofs and leaves reading and verifying to the caller. `receive` is the
straightforward caller: `let proof = Proof::deserialize_…(&bytes[..])?; verify(…, &proof)`. `deserialize` reads from the
front of the slice and does not look at what is left over.
-/

namespace Ripp

/-- Reads a proof from the front of `bs` and verifies it; `none` if reading fails. The codec is one of
`Codec.gipaProof` (`ip_proofs/src/gipa.rs:24-51`), `Codec.tipaProof` (`ip_proofs/src/tipa/mod.rs:41-65`) and
`Codec.tipaSsmProof` (`ip_proofs/src/tipa/structured_scalar_message.rs:138-156`). -/
def receive {α : Type} (C : Codec α) (verify : α → Res Bool) (bs : Bytes) : Res (Option Bool) :=
  match C.de bs with
  | none => .ok none
  | some (p, _) => do return some (← verify p)

end Ripp
