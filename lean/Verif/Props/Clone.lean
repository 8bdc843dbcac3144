import Verif.Model.Clone
import Verif.Props.Serialize

/-!
# C151: clones of proofs, sources of errors
-/

namespace Ripp

open Codec

section
variable {G1 G2 F MA MB OA OB OT : Type}

/-- C151: if the clones of the fields are equal to them, so is the clone of a GIPA proof. -/
theorem C151_gipa (cA : MA → MA) (cB : MB → MB) (cOA : OA → OA) (cOB : OB → OB) (cOT : OT → OT)
    (p : GipaProof MA MB OA OB OT) (hA : ∀ x, cA x = x) (hB : ∀ x, cB x = x) (h1 : ∀ x, cOA x = x)
    (h2 : ∀ x, cOB x = x) (h3 : ∀ x, cOT x = x) : p.clone cA cB cOA cOB cOT = p := by
  obtain ⟨steps, a, b⟩ := p
  simp [GipaProof.clone, cloneComs, hA, hB, h1, h2, h3]

/-- C151: the same for TIPA proofs. -/
theorem C151_tipa (c1 : G1 → G1) (c2 : G2 → G2) (cA : MA → MA) (cB : MB → MB) (cOA : OA → OA) (cOB : OB → OB)
    (cOT : OT → OT) (p : TipaProof G1 G2 MA MB OA OB OT) (g1 : ∀ x, c1 x = x) (g2 : ∀ x, c2 x = x)
    (hA : ∀ x, cA x = x) (hB : ∀ x, cB x = x) (h1 : ∀ x, cOA x = x) (h2 : ∀ x, cOB x = x) (h3 : ∀ x, cOT x = x) :
    p.clone c1 c2 cA cB cOA cOB cOT = p := by
  obtain ⟨gipa, ⟨a, b⟩, c, d⟩ := p
  simp [TipaProof.clone, C151_gipa _ _ _ _ _ gipa hA hB h1 h2 h3, g1, g2]

/-- C151: the same for TIPA proofs with structured scalar messages. -/
theorem C151_tipa_ssm (cF : F → F) (c2 : G2 → G2) (cA : MA → MA) (cOA : OA → OA) (cOT : OT → OT)
    (p : TipaSsmProof F G2 MA OA OT) (g1 : ∀ x, cF x = x) (g2 : ∀ x, c2 x = x)
    (hA : ∀ x, cA x = x) (h1 : ∀ x, cOA x = x) (h3 : ∀ x, cOT x = x) :
    p.clone cF c2 cA cOA cOT = p := by
  obtain ⟨gipa, a, b⟩ := p
  simp [TipaSsmProof.clone, C151_gipa _ _ _ _ _ gipa hA g1 h1 g1 h3, g2]

/-- C151: no field is lost: if two proofs have the same clone, and the clones of fields tell
fields apart, they are equal. -/
theorem C151_injective (cA : MA → MA) (cB : MB → MB) (cOA : OA → OA) (cOB : OB → OB) (cOT : OT → OT)
    (hA : Function.Injective cA) (hB : Function.Injective cB) (h1 : Function.Injective cOA)
    (h2 : Function.Injective cOB) (h3 : Function.Injective cOT) :
    Function.Injective (GipaProof.clone cA cB cOA cOB cOT) := by
  rintro ⟨s, a, b⟩ ⟨s', a', b'⟩ h
  simp only [GipaProof.clone, GipaProof.mk.injEq, Prod.mk.injEq] at h
  obtain ⟨hs, ha, hb⟩ := h
  have hinj : Function.Injective fun s : Coms OA OB OT × Coms OA OB OT =>
      (cloneComs cOA cOB cOT s.1, cloneComs cOA cOB cOT s.2) := by
    rintro ⟨⟨x1, x2, x3⟩, y1, y2, y3⟩ ⟨⟨x1', x2', x3'⟩, y1', y2', y3'⟩ h
    simp only [cloneComs, Prod.mk.injEq] at h
    obtain ⟨⟨a1, a2, a3⟩, b1, b2, b3⟩ := h
    rw [h1 a1, h2 a2, h3 a3, h1 b1, h2 b2, h3 b3]
  rw [hinj.list_map hs, hA ha, hB hb]

end

/-- C151: the errors of the crates, those with a text of their own, have no source. -/
theorem C151_source (f : Fault) : (f.source = some none ↔ f.text ≠ none) ∧ (f.source = none ↔ f.text = none) := by
  cases f <;> simp [Fault.source, Fault.text]

/-! ## Examples -/

/-- Elements with different values in all places: the clone has them in the same places. -/
example : (⟨[((1, 2, 3), 4, 5, 6), ((7, 8, 9), 10, 11, 12)], (13, 14)⟩ : GipaProof ℕ ℕ ℕ ℕ ℕ).clone id id id id id =
    ⟨[((1, 2, 3), 4, 5, 6), ((7, 8, 9), 10, 11, 12)], (13, 14)⟩ := C151_gipa _ _ _ _ _ _ (fun _ => rfl) (fun _ => rfl)
  (fun _ => rfl) (fun _ => rfl) fun _ => rfl

example : (⟨⟨[], (1, 2)⟩, (3, 4), (5, 6)⟩ : TipaProof ℕ ℕ ℕ ℕ ℕ ℕ ℕ).clone id id id id id id id =
    ⟨⟨[], (1, 2)⟩, (3, 4), (5, 6)⟩ := rfl

example : (Fault.ipLength 2 3).source = some none ∧ Fault.diverge.source = none := ⟨rfl, rfl⟩

end Ripp
