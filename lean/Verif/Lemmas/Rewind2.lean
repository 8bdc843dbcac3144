import Verif.Lemmas.Rewind
import Verif.Lemmas.Chain2

/-!
# Many accepted pairs of hash chains contain a tree

As `Lemmas/Rewind` for two chains over one oracle. A node of the tree extends the first chain, the second, or both
with the same key.
-/

set_option linter.unusedSectionVars false

namespace Ripp.Oracle

variable {X D κ : Type}

/-- A tree of pairs of chains: every node has `b` keys, with which it extends the first chain, the second, or both. -/
inductive Tree2 (b : ℕ) (κ C1 C2 B : Type) : Type
  | leaf (x : B)
  | node (b1 b2 : Bool) (z1 : C1) (z2 : C2) (c : Fin b → κ) (t : Fin b → Tree2 b κ C1 C2 B)

/-- A link before a chain, or none. -/
def front {A : Type} (b : Bool) (q : A) (s : List A) : List A := if b then q :: s else s

section
variable {C1 C2 B : Type}

/-- All branches of the tree are in `p`; the keys of a node are different from each other and from `k0`. -/
def Tree2.Branches {b : ℕ} (k0 : κ) : Tree2 b κ C1 C2 B → (List (C1 × κ) → List (C2 × κ) → B → Prop) → Prop
  | .leaf x, p => p [] [] x
  | .node b1 b2 z1 z2 c t, p => Function.Injective c ∧ (∀ i, c i ≠ k0) ∧
      ∀ i, (t i).Branches k0 fun s1 s2 => p (front b1 (z1, c i) s1) (front b2 (z2, c i) s2)

theorem Tree2.Branches.exists_leaf {b : ℕ} [NeZero b] {k0 : κ} : ∀ {t : Tree2 b κ C1 C2 B}
    {p : List (C1 × κ) → List (C2 × κ) → B → Prop}, t.Branches k0 p → ∃ s1 s2 x, p s1 s2 x
  | .leaf x, _, h => ⟨[], [], x, h⟩
  | .node _ _ _ _ _ _, _, h => by
    obtain ⟨s1, s2, x, h⟩ := Branches.exists_leaf (h.2.2 0)
    exact ⟨_, _, x, h⟩

theorem Tree2.Branches.mono {b : ℕ} {k0 : κ} : ∀ {t : Tree2 b κ C1 C2 B}
    {p q : List (C1 × κ) → List (C2 × κ) → B → Prop}, t.Branches k0 p → (∀ s1 s2 x, p s1 s2 x → q s1 s2 x) →
    t.Branches k0 q
  | .leaf _, _, _, h, hpq => hpq _ _ _ h
  | .node _ _ _ _ _ _, _, _, h, hpq => ⟨h.1, h.2.1, fun i => Branches.mono (h.2.2 i) fun _ _ _ => hpq _ _ _⟩

end

section
variable {Z1 Z2 C1 C2 B : Type} [DecidableEq κ] [DecidableEq X] [DecidableEq D] [Fintype D] [Fintype X]
  (adv : List D → X) (Q : ℕ) (out1 : List D → List Z1) (out2 : List D → List Z2) (fin : List D → B)
  (cm1 : Z1 → C1) (cm2 : Z2 → C2) (enc1 : Z1 → κ → X) (enc2 : Z2 → κ → X) (key : D → κ) (k0 : κ)

/-- If the adversary outputs pairs of chains of `K1` and `K2` links for more than `3 N (N + 1) (b + 1) m / (2 |D|)` of
all oracles, with `N = Q + K1 + K2`, the pairs contain a tree. -/
theorem tree2_of_many [Nonempty Z1] [Nonempty Z2] (b : ℕ)
    (hinj1 : ∀ z k z' k', enc1 z k = enc1 z' k' → cm1 z = cm1 z' ∧ k = k')
    (hinj2 : ∀ z k z' k', enc2 z k = enc2 z' k' → cm2 z = cm2 z' ∧ k = k') (m : ℕ)
    (hm : ∀ (k : κ) (S : Finset D), (∀ d ∈ S, key d = k) → S.card ≤ m) (K1 K2 : ℕ)
    (hK1 : ∀ ds, (out1 ds).length ≤ K1) (hK2 : ∀ ds, (out2 ds).length ≤ K2) (W : Finset (X → D))
    (hmany : (Q + K1 + K2) * (Q + K1 + K2 + 1) * (3 * (m + b * m)) * Fintype.card (X → D) <
      2 * (W.card * Fintype.card D)) :
    ∃ t : Tree2 b κ C1 C2 B, t.Branches k0 fun s1 s2 x => ∃ H ∈ W,
      path cm1 enc1 key H k0 (out1 (trace adv H Q)) = s1 ∧ path cm2 enc2 key H k0 (out2 (trace adv H Q)) = s2 ∧
      fin (trace adv H Q) = x ∧ (∀ q ∈ s1, q.2 ≠ k0) ∧ ∀ q ∈ s2, q.2 ≠ k0 := by
  classical
  set p : List (C1 × κ) → List (C2 × κ) → B → Prop := fun s1 s2 x => ∃ H ∈ W,
      path cm1 enc1 key H k0 (out1 (trace adv H Q)) = s1 ∧ path cm2 enc2 key H k0 (out2 (trace adv H Q)) = s2 ∧
      fin (trace adv H Q) = x ∧ (∀ q ∈ s1, q.2 ≠ k0) ∧ ∀ q ∈ s2, q.2 ≠ k0 with hp
  by_contra hno
  refine absurd hmany (not_lt.mpr ?_)
  refine count_static2 adv Q K1 out1 out2 enc1 enc2 key k0 (fun ds => decode enc1 (adv ds)) []
    (fun st z d => st ++ [(cm1 z, key d)]) (fun ds => decode enc2 (adv ds)) [] (fun st z d => st ++ [(cm2 z, key d)])
    (fun s1 s2 => ¬ ∃ t : Tree2 b κ C1 C2 B, t.Branches k0 fun t1 t2 x => p (s1 ++ t1) (s2 ++ t2) x)
    (fun z k z' k' h => (hinj1 z k z' k' h).2) (fun z k z' k' h => (hinj2 z k z' k' h).2) m (b * m) hm ?_
    (by simpa using hno) K2 hK1 hK2 W ?_
  · intro s1 s2 z1 z2 b1 b2 _ hst S hS
    by_contra hcon
    obtain ⟨c, hc, h0, hd⟩ := exists_keys b key k0 m hm S (not_le.mp hcon)
    have : ∀ i, ∃ t : Tree2 b κ C1 C2 B, t.Branches k0 fun t1 t2 x =>
        p (s1 ++ front b1 (cm1 z1, c i) t1) (s2 ++ front b2 (cm2 z2, c i) t2) x := by
      intro i
      obtain ⟨d, hd, he⟩ := hd i
      obtain ⟨t, ht⟩ := not_not.mp (hS d hd)
      refine ⟨t, ht.mono fun t1 t2 x h => ?_⟩
      rw [← he]
      cases b1 <;> cases b2 <;> simpa [front] using h
    choose t ht using this
    exact hst ⟨.node b1 b2 (cm1 z1) (cm2 z2) c t, hc, h0, ht⟩
  · intro H hH
    rintro ⟨hd, hne1, hne2⟩
    obtain ⟨ask1, ask2⟩ := output_asked2 adv Q K1 out1 out2 enc1 enc2 key k0 K2 H hK1 hK2
    have htr := trace_withCheck2 adv Q K1 out1 out2 enc1 enc2 key k0 H
    have hlt := withCheck2_lt adv Q K1 out1 out2 enc1 enc2 key k0
    rw [follow_path cm1 enc1 key _ (fun x => ∃ i < Q + K1 + K2,
        asked (withCheck2 adv Q K1 out1 out2 enc1 enc2 key k0) H i = x) H _ _ _ ?_ ask1,
      follow_path cm2 enc2 key _ (fun x => ∃ i < Q + K1 + K2,
        asked (withCheck2 adv Q K1 out1 out2 enc1 enc2 key k0) H i = x) H _ _ _ ?_ ask2] at hd
    · refine hd ⟨.leaf (fin (trace adv H Q)), H, hH, by simp, by simp, rfl, fun q hq => ?_, fun q hq => ?_⟩
      · have : q.2 ∈ (path cm1 enc1 key H k0 (out1 (trace adv H Q))).map (·.2) :=
          List.mem_map_of_mem (by simpa using hq)
        rw [path_snd] at this
        obtain ⟨x, hx, he⟩ := List.mem_map.mp this
        rw [← he]
        exact hne1 x hx
      · have : q.2 ∈ (path cm2 enc2 key H k0 (out2 (trace adv H Q))).map (·.2) :=
          List.mem_map_of_mem (by simpa using hq)
        rw [path_snd] at this
        obtain ⟨x, hx, he⟩ := List.mem_map.mp this
        rw [← he]
        exact hne2 x hx
    · intro z hz k hx
      refine label_rel2 adv Q _ out2 enc2 (fun ds => decode enc2 (adv ds)) hlt (fun z z' => cm2 z = cm2 z') z k ?_ ?_
        H _ (by rw [htr]; exact hz) hx
      · intro ds h
        have he : ∃ z k, enc2 z k = adv ds := ⟨z, k, h.symm⟩
        rw [decode, dif_pos he]
        obtain ⟨k', hk'⟩ := he.choose_spec
        exact (hinj2 _ _ _ _ (hk'.trans h)).1
      · intro ds z' _ k' h
        exact (hinj2 _ _ _ _ h).1
    · intro z hz k hx
      refine label_rel2 adv Q _ out1 enc1 (fun ds => decode enc1 (adv ds)) hlt (fun z z' => cm1 z = cm1 z') z k ?_ ?_
        H _ (by rw [htr]; exact hz) hx
      · intro ds h
        have he : ∃ z k, enc1 z k = adv ds := ⟨z, k, h.symm⟩
        rw [decode, dif_pos he]
        obtain ⟨k', hk'⟩ := he.choose_spec
        exact (hinj1 _ _ _ _ (hk'.trans h)).1
      · intro ds z' _ k' h
        exact (hinj1 _ _ _ _ h).1

end

end Ripp.Oracle
