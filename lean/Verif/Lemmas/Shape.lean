import Verif.Props.GipaStatic
import Mathlib.Data.Set.Finite.List

/-!
# Commitments to inner products with further entries

A commitment to an inner product is a vector (`dh_commitments/src/identity/mod.rs:32-35`), and sums of vectors are cut
to the shorter one (`:37-52`). The verifier compares with a vector of one entry, so it accepts proofs in which the
commitments of the rounds have further entries, which are hashed. A `Shape` is a set of such vectors.
-/

set_option linter.unusedSectionVars false

namespace Ripp

open Spec GipaStatic

/-- Vectors with at least one entry, `head` is the first. -/
structure Shape (T R : Type) where
  out : R → IdentityOutput T
  head : R → T
  spec : ∀ z, ∃ tl, (out z).vals = head z :: tl
  fits : ∀ z, (out z).vals.length < 2 ^ 64
  inj : Function.Injective out

namespace Shape

variable {T R F : Type}

/-- One entry, as in proofs made by `prove`. -/
def one (T : Type) : Shape T T := ⟨single, id, fun _ => ⟨[], rfl⟩, fun _ => by norm_num [single], fun x y h => by
  simpa [single] using h⟩

/-- Up to `B` further entries. -/
def upTo (T : Type) (B : ℕ) (hB : B + 1 < 2 ^ 64) : Shape T (T × {l : List T // l.length ≤ B}) where
  out z := ⟨z.1 :: z.2⟩
  head z := z.1
  spec z := ⟨z.2, rfl⟩
  fits z := by
    have := z.2.2
    rw [List.length_cons]
    omega
  inj := by
    rintro ⟨x, xs, hx⟩ ⟨y, ys, hy⟩ h
    simp only [IdentityOutput.mk.injEq, List.cons.injEq] at h
    exact Prod.ext h.1 (Subtype.ext h.2)

/-- Every vector with at least one and at most `B + 1` entries is of this shape. -/
theorem upTo_all (B : ℕ) (hB : B + 1 < 2 ^ 64) (o : IdentityOutput T) (h : o.vals ≠ []) (hl : o.vals.length ≤ B + 1) :
    ∃ z, (upTo T B hB).out z = o := by
  obtain ⟨vals⟩ := o
  cases vals with
  | nil => exact absurd rfl h
  | cons x xs => exact ⟨(x, ⟨xs, by simpa using hl⟩), rfl⟩

instance [Finite T] (B : ℕ) : Finite {l : List T // l.length ≤ B} := List.finite_length_le T B

theorem out_head (S : Shape T R) (z : R) : (S.out z).vals.head? = some (S.head z) := by
  obtain ⟨tl, h⟩ := S.spec z
  rw [h, List.head?_cons]

/-- The vectors of a shape can be decoded. -/
theorem decodable (S : Shape T R) {ser : T → Bytes} (h : Decodable (fun _ => True) ser) :
    Decodable (· ∈ Set.range S.out) (serIdentity ser) := by
  rintro _ _ u v ⟨x, rfl⟩ ⟨y, rfl⟩ e
  exact decodable_serIdentity h _ _ u v (by simpa using S.fits x) (by simpa using S.fits y) e

variable [Field F] [AddCommGroup T] [Module F T]

/-- Only the first entries matter. -/
theorem accum_head (S : Shape T R) : ∀ (cs : List F) (ss : List (R × R)) (c : T),
    accum cs (ss.map fun s => (S.out s.1, S.out s.2)) (single c) =
      single (accum cs (ss.map fun s => (S.head s.1, S.head s.2)) c)
  | [], _, _ => by simp [accum]
  | _ :: _, [], _ => by simp [accum]
  | x :: cs, s :: ss, c => by
    rw [List.map_cons, accum, List.map_cons, accum, ← accum_head S cs ss]
    congr 1
    obtain ⟨t1, h1⟩ := S.spec s.1
    obtain ⟨t2, h2⟩ := S.spec s.2
    change IdentityOutput.mk (List.zipWith (· + ·) (List.zipWith (· + ·) ((S.out s.1).vals.map (x • ·)) [c])
      ((S.out s.2).vals.map (x⁻¹ • ·))) = _
    rw [h1, h2]
    simp [single]

/-- A commitment that is cut to one entry comes from vectors that are not empty. -/
theorem accum_vals_ne_nil : ∀ (cs : List F) (ss : List (IdentityOutput T × IdentityOutput T)) (c : IdentityOutput T),
    cs.length = ss.length → (accum cs ss c).vals ≠ [] → ∀ s ∈ ss, s.1.vals ≠ [] ∧ s.2.vals ≠ []
  | [], [], _, _, _, s, hs => by simp at hs
  | x :: cs, s :: ss, c, hl, h, s', hs' => by
    have hlen : ∀ (cs : List F) (ss : List (IdentityOutput T × IdentityOutput T)) (c : IdentityOutput T),
        c.vals = [] → (accum cs ss c).vals = [] := by
      intro cs
      induction cs with
      | nil => intro ss c hc; simpa [accum] using hc
      | cons x cs ih =>
        intro ss c hc
        cases ss with
        | nil => simpa [accum] using hc
        | cons s ss =>
          refine ih ss _ ?_
          change List.zipWith _ (List.zipWith _ (s.1.vals.map _) c.vals) (s.2.vals.map _) = []
          rw [hc]
          simp
    rw [accum] at h
    rcases List.mem_cons.mp hs' with rfl | hs'
    · constructor
      · intro h1
        refine h (hlen _ _ _ ?_)
        change List.zipWith _ (List.zipWith _ (s'.1.vals.map _) c.vals) (s'.2.vals.map _) = []
        rw [h1]
        simp
      · intro h1
        refine h (hlen _ _ _ ?_)
        change List.zipWith _ (List.zipWith _ (s'.1.vals.map _) c.vals) (s'.2.vals.map _) = []
        rw [h1]
        simp
    · exact accum_vals_ne_nil cs ss _ (by simpa using hl) h s' hs'

end Shape

end Ripp
