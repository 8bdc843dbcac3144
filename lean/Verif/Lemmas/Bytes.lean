import Verif.Model.PolyCommit
import Verif.Lemmas.Basic

/-! # Byte encodings -/

namespace Ripp

/-- An encoding of the values satisfying `S` that can be read off the front of a byte string. -/
def Decodable {α : Type} (S : α → Prop) (ser : α → Bytes) : Prop :=
  ∀ x y u v, S x → S y → ser x ++ u = ser y ++ v → x = y ∧ u = v

/-- Injective encodings of constant length are decodable. -/
theorem Decodable.of_fixed {α : Type} {S : α → Prop} {ser : α → Bytes} (l : ℕ)
    (hl : ∀ x, S x → (ser x).length = l) (hi : ∀ x y, S x → S y → ser x = ser y → x = y) :
    Decodable S ser := by
  intro x y u v hx hy h
  obtain ⟨h1, h2⟩ := List.append_inj h ((hl x hx).trans (hl y hy).symm)
  exact ⟨hi x y hx hy h1, h2⟩

theorem length_leBytes : ∀ (k n : ℕ), (leBytes k n).length = k
  | 0, _ => rfl
  | k + 1, n => by simp [leBytes, length_leBytes k]

theorem leBytes_inj : ∀ (k n m : ℕ), n < 256 ^ k → m < 256 ^ k → leBytes k n = leBytes k m → n = m
  | 0, n, m, hn, hm, _ => by simp at hn hm; omega
  | k + 1, n, m, hn, hm, h => by
    simp only [leBytes, List.cons.injEq] at h
    rw [pow_succ] at hn hm
    have h2 := leBytes_inj k (n / 256) (m / 256) (Nat.div_lt_of_lt_mul (by linarith))
      (Nat.div_lt_of_lt_mul (by linarith)) h.2
    have h1 : n % 256 = m % 256 := by
      have := congrArg UInt8.toNat h.1
      simpa using this
    omega

theorem decodable_nonce : Decodable (· < 2 ^ 64) nonceBytes :=
  .of_fixed 8 (fun x _ => by simp [nonceBytes, length_leBytes]) fun x y hx hy h =>
    leBytes_inj 8 x y (by norm_num; exact hx) (by norm_num; exact hy)
      (List.reverse_injective h)

theorem decodable_flatMap {α : Type} {S : α → Prop} {ser : α → Bytes} (h : Decodable S ser) :
    ∀ (xs ys : List α) (u v : Bytes), (∀ x ∈ xs, S x) → (∀ y ∈ ys, S y) → xs.length = ys.length →
      xs.flatMap ser ++ u = ys.flatMap ser ++ v → xs = ys ∧ u = v
  | [], [], u, v, _, _, _, e => ⟨rfl, by simpa using e⟩
  | [], _ :: _, _, _, _, _, hl, _ => by simp at hl
  | _ :: _, [], _, _, _, _, hl, _ => by simp at hl
  | x :: xs, y :: ys, u, v, hx, hy, hl, e => by
    simp only [List.flatMap_cons, List.append_assoc] at e
    obtain ⟨hxy, e1⟩ := h x y _ _ (hx x (by simp)) (hy y (by simp)) e
    obtain ⟨hs, e2⟩ := decodable_flatMap h xs ys u v (fun z hz => hx z (by simp [hz]))
      (fun z hz => hy z (by simp [hz])) (by simpa using hl) e1
    exact ⟨by rw [hxy, hs], e2⟩

/-- ark-serialize's vector encoding is decodable (lengths fit into 64 bits). -/
theorem decodable_serSeq {α : Type} {S : α → Prop} {ser : α → Bytes} (h : Decodable S ser) :
    Decodable (fun xs : List α => xs.length < 2 ^ 64 ∧ ∀ x ∈ xs, S x) (serSeq ser) := by
  intro xs ys u v hx hy e
  simp only [serSeq, List.append_assoc] at e
  obtain ⟨e1, e2⟩ := List.append_inj e (by simp [length_leBytes])
  have hl := leBytes_inj 8 _ _ (by norm_num; exact hx.1) (by norm_num; exact hy.1) e1
  exact decodable_flatMap h xs ys u v hx.2 hy.2 hl e2

theorem decodable_serIdentity {α : Type} {S : α → Prop} {ser : α → Bytes} (h : Decodable S ser) :
    Decodable (fun o : IdentityOutput α => o.vals.length < 2 ^ 64 ∧ ∀ x ∈ o.vals, S x)
      (serIdentity ser) := by
  intro x y u v hx hy e
  obtain ⟨e1, e2⟩ := decodable_serSeq h x.vals y.vals u v hx hy e
  exact ⟨IdentityOutput.ext e1, e2⟩

end Ripp
