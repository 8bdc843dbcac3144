import Verif.Model.PolyCommit

/-!
# Derived serialization of proofs

`#[derive(CanonicalSerialize, CanonicalDeserialize)]` writes and reads the fields in the order of their
declaration; tuples are written component by component, `PhantomData` takes no bytes, a `Vec` is preceded by
its length (ark-serialize 0.4). Simplifications: the compression mode is part of the codecs of the
components; a reader error and a validation error are both `none`; `Vec` allocation does not fail.
-/

namespace Ripp

/-- `CanonicalSerialize` and `CanonicalDeserialize` of one type: `de` returns the value and the bytes not
read. -/
structure Codec (α : Type) where
  ser : α → Bytes
  de : Bytes → Option (α × Bytes)

namespace Codec

variable {α β : Type}

/-- `HomomorphicPlaceholderValue`, a struct without fields, `dh_commitments/src/identity/mod.rs:17-18`. -/
def placeholder : Codec Placeholder := ⟨fun _ => [], fun bs => some (PUnit.unit, bs)⟩

/-- A pair. -/
def prod (A : Codec α) (B : Codec β) : Codec (α × β) where
  ser p := A.ser p.1 ++ B.ser p.2
  de bs := do
    let (a, bs) ← A.de bs
    let (b, bs) ← B.de bs
    return ((a, b), bs)

/-- The number with these little-endian bytes. -/
def leNat : Bytes → ℕ
  | [] => 0
  | b :: bs => b.toNat + 256 * leNat bs

/-- `u64`. -/
def u64 : Codec ℕ where
  ser n := leBytes 8 n
  de bs := if bs.length < 8 then none else some (leNat (bs.take 8), bs.drop 8)

/-- Reads the given number of elements. -/
def many (A : Codec α) : ℕ → Bytes → Option (List α × Bytes)
  | 0, bs => some ([], bs)
  | n + 1, bs => do
    let (a, bs) ← A.de bs
    let (as, bs) ← many A n bs
    return (a :: as, bs)

/-- `Vec<T>`. -/
def vec (A : Codec α) : Codec (List α) where
  ser := serSeq A.ser
  de bs := do
    let (n, bs) ← u64.de bs
    many A n bs

/-- `IdentityOutput<T>(pub Vec<T>)`, `dh_commitments/src/identity/mod.rs:32-35`. -/
def identityOutput (A : Codec α) : Codec (IdentityOutput α) where
  ser := serIdentity A.ser
  de bs := do
    let (v, bs) ← (vec A).de bs
    return (⟨v⟩, bs)

variable {F G1 G2 MA MB OA OB OT : Type}

/-- The triple of commitments. -/
def coms (A : Codec OA) (B : Codec OB) (T : Codec OT) : Codec (Coms OA OB OT) := A.prod (B.prod T)

/-- `GIPAProof`, `ip_proofs/src/gipa.rs:24-51`. -/
def gipaProof (mA : Codec MA) (mB : Codec MB) (A : Codec OA) (B : Codec OB) (T : Codec OT) :
    Codec (GipaProof MA MB OA OB OT) where
  ser p := (vec ((coms A B T).prod (coms A B T))).ser p.steps ++ (mA.prod mB).ser p.base
  de bs := do
    let (steps, bs) ← (vec ((coms A B T).prod (coms A B T))).de bs
    let (base, bs) ← (mA.prod mB).de bs
    return (⟨steps, base⟩, bs)

/-- `TIPAProof`, `ip_proofs/src/tipa/mod.rs:41-65`. -/
def tipaProof (g1 : Codec G1) (g2 : Codec G2) (mA : Codec MA) (mB : Codec MB) (A : Codec OA) (B : Codec OB)
    (T : Codec OT) : Codec (TipaProof G1 G2 MA MB OA OB OT) where
  ser p := (gipaProof mA mB A B T).ser p.gipa ++ (g2.prod g1).ser p.finalCk ++ (g2.prod g1).ser p.finalCkProof
  de bs := do
    let (gipa, bs) ← (gipaProof mA mB A B T).de bs
    let (ck, bs) ← (g2.prod g1).de bs
    let (pf, bs) ← (g2.prod g1).de bs
    return (⟨gipa, ck, pf⟩, bs)

/-- `TIPAWithSSMProof`, `ip_proofs/src/tipa/structured_scalar_message.rs:138-156`. -/
def tipaSsmProof (f : Codec F) (g2 : Codec G2) (mA : Codec MA) (A : Codec OA) (T : Codec OT) :
    Codec (TipaSsmProof F G2 MA OA OT) where
  ser p := (gipaProof mA f A f T).ser p.gipa ++ g2.ser p.finalCk ++ g2.ser p.finalCkProof
  de bs := do
    let (gipa, bs) ← (gipaProof mA f A f T).de bs
    let (ck, bs) ← g2.de bs
    let (pf, bs) ← g2.de bs
    return (⟨gipa, ck, pf⟩, bs)

end Codec

end Ripp
