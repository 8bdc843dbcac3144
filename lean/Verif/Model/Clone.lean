import Verif.Model.Serialize
import Verif.Model.Display

/-!
# Clones of proofs, sources of errors

The `Clone` implementations that are written out in the crate. They call `clone` of the fields; `cA`, `cB`, … are those of the
messages, outputs and group elements, which belong to other crates. `PhantomData` fields are left out.
-/

namespace Ripp

variable {G1 G2 F MA MB OA OB OT : Type}

/-- `clone` of a triple of commitments. -/
def cloneComs (cOA : OA → OA) (cOB : OB → OB) (cOT : OT → OT) (x : Coms OA OB OT) : Coms OA OB OT :=
  (cOA x.1, cOB x.2.1, cOT x.2.2)

/-- `GIPAProof::clone`, `ip_proofs/src/gipa.rs:418-443`. -/
def GipaProof.clone (cA : MA → MA) (cB : MB → MB) (cOA : OA → OA) (cOB : OB → OB) (cOT : OT → OT)
    (p : GipaProof MA MB OA OB OT) : GipaProof MA MB OA OB OT :=
  { steps := p.steps.map fun s => (cloneComs cOA cOB cOT s.1, cloneComs cOA cOB cOT s.2)
    base := (cA p.base.1, cB p.base.2) }

/-- `TIPAProof::clone`, `ip_proofs/src/tipa/mod.rs:67-94`. -/
def TipaProof.clone (c1 : G1 → G1) (c2 : G2 → G2) (cA : MA → MA) (cB : MB → MB) (cOA : OA → OA) (cOB : OB → OB)
    (cOT : OT → OT) (p : TipaProof G1 G2 MA MB OA OB OT) : TipaProof G1 G2 MA MB OA OB OT :=
  { gipa := p.gipa.clone cA cB cOA cOB cOT
    finalCk := (c2 p.finalCk.1, c1 p.finalCk.2)
    finalCkProof := (c2 p.finalCkProof.1, c1 p.finalCkProof.2) }

/-- `TIPAWithSSMProof::clone`, `ip_proofs/src/tipa/structured_scalar_message.rs:158-179`. -/
def TipaSsmProof.clone (cF : F → F) (c2 : G2 → G2) (cA : MA → MA) (cOA : OA → OA) (cOT : OT → OT)
    (p : TipaSsmProof F G2 MA OA OT) : TipaSsmProof F G2 MA OA OT :=
  { gipa := p.gipa.clone cA cF cOA cF cOT
    finalCk := c2 p.finalCk
    finalCkProof := c2 p.finalCkProof }

/-- `source` of an error value, `inner_products/src/lib.rs:23-27` and `ip_proofs/src/lib.rs:27-31`; the outer `none` stands
for what is not an error value of the crates (as for `Fault.text`). -/
def Fault.source : Fault → Option (Option Fault)
  | .ipLength _ _ => some none
  | .argLength _ _ => some none
  | .ipInvalid => some none
  | _ => none

end Ripp
