import Verif.Lemmas.Oracle

/-!
# Honest provers in the random oracle model

An honest prover asks its queries one after another. It fails at an answer in a fixed set.
-/

namespace Ripp.Oracle

variable {X D : Type}

/-- The queries after the first one, as queries of their own. -/
theorem trace_succ (query : List D → X) (H : X → D) : ∀ n, trace query H (n + 1) =
    H (query []) :: trace (fun ds => query (H (query []) :: ds)) H n
  | 0 => by simp [trace]
  | n + 1 => by
    rw [trace, trace_succ query H n, trace]
    rfl

theorem asked_succ (query : List D → X) (H : X → D) (n : ℕ) : asked query H (n + 1) =
    asked (fun ds => query (H (query []) :: ds)) H n := by
  rw [asked, trace_succ]; rfl

open Classical in
/-- One of the first `N` answers lies in a set `B` for at most `N * |B| / |D|` of all `H`: the first such
answer is the answer to a fresh query. -/
theorem count_hit [DecidableEq X] [DecidableEq D] [Fintype X] [Fintype D] (query : List D → X) (N : ℕ)
    (B : Finset D) :
    (Finset.univ.filter fun H : X → D => ∃ n < N, H (asked query H n) ∈ B).card * Fintype.card D ≤
      N * B.card * Fintype.card (X → D) := by
  have h := count_any query N (fun _ => B.card) (fun _ _ => B) (fun _ _ _ _ => rfl) (fun _ _ => le_rfl)
  rw [Finset.sum_const, Finset.card_range, smul_eq_mul] at h
  refine le_trans (Nat.mul_le_mul_right _ (Finset.card_le_card ?_)) h
  intro H hH
  obtain ⟨-, hex⟩ := Finset.mem_filter.mp hH
  have h1 := Nat.find_spec hex
  refine Finset.mem_filter.mpr ⟨Finset.mem_univ _, Nat.find hex, h1.1, ?_, h1.2⟩
  intro i hi he
  exact Nat.find_min hex hi ⟨hi.trans h1.1, he ▸ h1.2⟩

end Ripp.Oracle
