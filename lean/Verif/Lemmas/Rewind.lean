import Verif.Lemmas.Chain

/-!
# Many accepted hash chains contain a full tree

An adversary outputs the links of a chain. If this succeeds for a large share of all oracles, its outputs for
different oracles contain a tree in which every node continues with `b` different keys.
-/

set_option linter.unusedSectionVars false

namespace Ripp.Oracle

variable {X D κ Z C : Type}

/-- A tree of depth `j` whose branches are in `p`: every node has one link and `b` different keys other than
`k0`. -/
def Full (b : ℕ) (k0 : κ) : ℕ → (List (C × κ) → Prop) → Prop
  | 0, p => p []
  | j + 1, p => ∃ (z : C) (c : Fin b → κ), Function.Injective c ∧ (∀ i, c i ≠ k0) ∧
      ∀ i, Full b k0 j fun ps => p ((z, c i) :: ps)

/-- The links and keys of a chain. -/
def path (cm : Z → C) (enc : Z → κ → X) (key : D → κ) (H : X → D) : κ → List Z → List (C × κ)
  | _, [] => []
  | k, z :: zs => (cm z, key (H (enc z k))) :: path cm enc key H (key (H (enc z k))) zs

section
variable (cm : Z → C) (enc : Z → κ → X) (key : D → κ)

@[simp] theorem length_path (H : X → D) : ∀ (zs : List Z) (k : κ), (path cm enc key H k zs).length = zs.length
  | [], _ => rfl
  | z :: zs, k => by rw [path, List.length_cons, length_path H zs, List.length_cons]

theorem path_fst (H : X → D) : ∀ (zs : List Z) (k : κ), (path cm enc key H k zs).map (·.1) = zs.map cm
  | [], _ => rfl
  | z :: zs, k => by rw [path, List.map_cons, path_fst H zs, List.map_cons]

theorem path_snd (H : X → D) : ∀ (zs : List Z) (k : κ),
    (path cm enc key H k zs).map (·.2) = (queries enc key H k zs).map fun x => key (H x)
  | [], _ => rfl
  | z :: zs, k => by rw [path, List.map_cons, path_snd H zs, queries, List.map_cons]

/-- The state reached by a chain that records links and keys. -/
theorem follow_path (L : X → Z) (p : X → Prop) (H : X → D) :
    ∀ (zs : List Z) (st : List (C × κ)) (k : κ), (∀ z ∈ zs, ∀ k, p (enc z k) → cm (L (enc z k)) = cm z) →
      (∀ x ∈ queries enc key H k zs, p x) →
      follow enc key (fun st z d => st ++ [(cm z, key d)]) L H st k zs = st ++ path cm enc key H k zs
  | [], st, _, _, _ => by simp [follow, path]
  | z :: zs, st, k, h, hp => by
    rw [follow, follow_path L p H zs _ _ (fun z hz => h z (by simp [hz])) fun x hx => hp x (by simp [queries, hx]),
      h z (by simp) k (hp _ (by simp [queries])), path]
    simp

end

section
variable [DecidableEq κ]

/-- Among more than `b m` answers there are `b` with different keys other than `k0`. -/
theorem exists_keys (b : ℕ) (key : D → κ) (k0 : κ) (m : ℕ)
    (hm : ∀ (k : κ) (S : Finset D), (∀ d ∈ S, key d = k) → S.card ≤ m) (S : Finset D) (hS : b * m < S.card) :
    ∃ c : Fin b → κ, Function.Injective c ∧ (∀ i, c i ≠ k0) ∧ ∀ i, ∃ d ∈ S, key d = c i := by
  classical
  have hT : b < (S.image key).card := by
    by_contra hcon
    refine absurd hS (not_lt.mpr ?_)
    rw [Finset.card_eq_sum_card_image key S]
    refine (Finset.sum_le_card_nsmul _ _ m fun x _ => ?_).trans ?_
    · exact hm x _ fun d hd => (Finset.mem_filter.mp hd).2
    · rw [smul_eq_mul]
      exact Nat.mul_le_mul_right m (not_lt.mp hcon)
  have h4 : b ≤ ((S.image key).erase k0).card := by
    have := Finset.pred_card_le_card_erase (s := S.image key) (a := k0)
    omega
  obtain ⟨U, hU, hUb⟩ := Finset.exists_subset_card_eq h4
  refine ⟨fun i => (U.equivFin.symm (Fin.cast hUb.symm i) : U), fun i j h => ?_, fun i => ?_, fun i => ?_⟩
  · exact Fin.cast_injective _ (U.equivFin.symm.injective (Subtype.ext h))
  · exact (Finset.mem_erase.mp (hU (U.equivFin.symm (Fin.cast hUb.symm i)).2)).1
  · exact Finset.mem_image.mp (Finset.mem_erase.mp (hU (U.equivFin.symm (Fin.cast hUb.symm i)).2)).2

/-- At most `b` keys lead from a node without a full tree to one with. -/
theorem escape_full (b : ℕ) (key : D → κ) (k0 : κ) (m : ℕ)
    (hm : ∀ (k : κ) (S : Finset D), (∀ d ∈ S, key d = k) → S.card ≤ m) (z : C) (j : ℕ)
    (p : List (C × κ) → Prop) (hp : ¬ Full b k0 (j + 1) p) (S : Finset D)
    (hS : ∀ d ∈ S, Full b k0 j fun ps => p ((z, key d) :: ps)) : S.card ≤ b * m := by
  by_contra hcon
  obtain ⟨c, hc, h0, hd⟩ := exists_keys b key k0 m hm S (not_le.mp hcon)
  refine hp ⟨z, c, hc, h0, fun i => ?_⟩
  obtain ⟨d, hd, he⟩ := hd i
  have := hS d hd
  rw [he] at this
  exact this

variable (adv : List D → X) (Q : ℕ) (out : List D → List Z) (cm : Z → C) (enc : Z → κ → X) (key : D → κ) (k0 : κ)

open Classical in
/-- A link with the given encoding. -/
noncomputable def decode [Nonempty Z] (x : X) : Z :=
  if h : ∃ z k, enc z k = x then h.choose else Classical.arbitrary Z

variable [DecidableEq X] [DecidableEq D] [Fintype D] [Fintype X]

/-- If the adversary outputs chains of `K` links for more than `((Q + K) b m + (Q + K) (Q + K + 1) m) / |D|` of all
oracles, the chains contain a full tree. -/
theorem full_of_many (b : ℕ) (hinj : ∀ z k z' k', enc z k = enc z' k' → cm z = cm z' ∧ k = k') (m : ℕ)
    (hm : ∀ (k : κ) (S : Finset D), (∀ d ∈ S, key d = k) → S.card ≤ m) (K : ℕ)
    (hK : ∀ ds, (out ds).length = K) (W : Finset (X → D))
    (hmany : ((Q + K) * (b * m) + (Q + K) * (Q + K + 1) * m) * Fintype.card (X → D) <
      W.card * Fintype.card D) :
    Full b k0 K fun ps => ∃ H ∈ W, path cm enc key H k0 (out (trace adv H Q)) = ps ∧ ∀ q ∈ ps, q.2 ≠ k0 := by
  classical
  set p : List (C × κ) → Prop := fun ps => ∃ H ∈ W, path cm enc key H k0 (out (trace adv H Q)) = ps ∧
    ∀ q ∈ ps, q.2 ≠ k0 with hp
  have hlen : ∀ ps, p ps → ps.length = K := by
    rintro _ ⟨H, -, rfl, -⟩
    rw [length_path, hK]
  by_contra hno
  have hne : W.Nonempty := by
    rw [Finset.nonempty_iff_ne_empty]
    rintro rfl
    simp at hmany
  refine absurd hmany (not_lt.mpr ?_)
  by_cases hZ : Nonempty Z
  · refine count_static (St := List (C × κ)) adv Q out enc key k0 (fun ds => decode enc (adv ds)) []
      (fun st z d => st ++ [(cm z, key d)]) (fun st => ¬ Full b k0 (K - st.length) fun ps => p (st ++ ps))
      (fun z k z' k' h => (hinj z k z' k' h).2) m (b * m) hm ?_ (by simpa using hno) K (fun ds => (hK ds).le) W ?_
    · intro st z hst S hS
      by_cases hlt : st.length < K
      · obtain ⟨j, hj⟩ : ∃ j, K - st.length = j + 1 := ⟨K - st.length - 1, by omega⟩
        rw [hj] at hst
        refine escape_full b key k0 m hm (cm z) j _ hst S fun d hd => ?_
        have := not_not.mp (hS d hd)
        rw [show K - (st ++ [(cm z, key d)]).length = j by simp; omega] at this
        simpa using this
      · have : S = ∅ := by
          apply Finset.eq_empty_of_forall_notMem
          intro d hd
          have := not_not.mp (hS d hd)
          rw [show K - (st ++ [(cm z, key d)]).length = 0 by simp; omega, Full] at this
          have := hlen _ this
          simp at this
          omega
        simp [this]
    · intro H hH
      rintro ⟨hd, hne⟩
      rw [follow_path cm enc key (firstLabel (withCheck adv Q out enc key k0)
          (withLabels Q out fun ds => decode enc (adv ds)) H (Q + K))
          (fun x => ∃ i < Q + K, asked (withCheck adv Q out enc key k0) H i = x) H _ _ _ ?_
          (output_asked adv Q out enc key k0 H K fun ds => (hK ds).le)] at hd
      · apply hd
        rw [List.nil_append, length_path, hK, Nat.sub_self, Full, List.append_nil]
        refine ⟨H, hH, rfl, fun q hq => ?_⟩
        have : q.2 ∈ (path cm enc key H k0 (out (trace adv H Q))).map (·.2) := List.mem_map_of_mem hq
        rw [path_snd] at this
        obtain ⟨x, hx, he⟩ := List.mem_map.mp this
        rw [← he]
        exact hne x hx
      · intro z hz k hx
        refine label_rel adv Q out enc key k0 (fun ds => decode enc (adv ds)) (fun z z' => cm z = cm z') z k ?_ ?_
          H (Q + K) hx
        · intro ds h
          have he : ∃ z k, enc z k = adv ds := ⟨z, k, h.symm⟩
          rw [decode, dif_pos he]
          obtain ⟨k', hk'⟩ := he.choose_spec
          exact (hinj _ _ _ _ (hk'.trans h)).1
        · intro ds z' _ k' h
          exact (hinj _ _ _ _ h).1
  · have hK0 : K = 0 := by
      rw [← hK []]
      cases h : out [] with
      | nil => rfl
      | cons z _ => exact absurd ⟨z⟩ hZ
    obtain ⟨H, hH⟩ := hne
    subst hK0
    refine absurd ⟨H, hH, ?_, by simp⟩ hno
    rw [List.eq_nil_of_length_eq_zero (hK _)]
    rfl

end

end Ripp.Oracle
