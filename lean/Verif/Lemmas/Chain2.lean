import Verif.Lemmas.Chain

/-!
# Two hash chains over one oracle

As `Lemmas/Chain`, for two chains. A pair of states is doomed or not; the adversary may extend the two chains
in any order, and a query may extend both.
-/

set_option linter.unusedSectionVars false

namespace Ripp.Oracle

variable {X D κ : Type} [DecidableEq κ]

section One
variable {Z St : Type} (query : List D → X) (lab : List D → Z) (enc : Z → κ → X) (key : D → κ) (k0 : κ)
  (st0 : St) (next : St → Z → D → St)

open Classical in
/-- As `states`, but a repeated query adds nothing. -/
noncomputable def freshStates (H : X → D) : ℕ → List (κ × St)
  | 0 => [(k0, st0)]
  | n + 1 =>
    if Fresh query H n then
      match (prevKey enc (asked query H n)).bind fun k => (freshStates H n).lookup k with
      | some st => freshStates H n ++ [(key (H (asked query H n)), next st (lab (trace query H n))
          (H (asked query H n)))]
      | none => freshStates H n
    else freshStates H n

theorem fresh_congr {H H' : X → D} {n : ℕ} (h : trace query H n = trace query H' n) :
    Fresh query H n ↔ Fresh query H' n := by
  unfold Fresh
  constructor
  · intro hf i hi
    rw [← asked_congr query h i hi.le, ← asked_congr query h n le_rfl]
    exact hf i hi
  · intro hf i hi
    rw [asked_congr query h i hi.le, asked_congr query h n le_rfl]
    exact hf i hi

open Classical in
theorem freshStates_congr {H H' : X → D} : ∀ n, trace query H n = trace query H' n →
    freshStates query lab enc key k0 st0 next H n = freshStates query lab enc key k0 st0 next H' n
  | 0, _ => rfl
  | n + 1, h => by
    have h' := trace_congr query h n (by omega)
    rw [freshStates, freshStates, freshStates_congr n h', answer_congr query h n (by omega),
      asked_congr query h n (by omega), h']
    exact if_congr (fresh_congr query h') rfl rfl

theorem freshStates_prefix (H : X → D) (n : ℕ) : ∀ m, n ≤ m →
    freshStates query lab enc key k0 st0 next H n <+: freshStates query lab enc key k0 st0 next H m := by
  intro m h
  induction m, h using Nat.le_induction with
  | base => exact List.prefix_rfl
  | succ m _ ih =>
    refine ih.trans ?_
    rw [freshStates]
    split
    · split
      · exact List.prefix_append _ _
      · exact List.prefix_rfl
    · exact List.prefix_rfl

theorem length_freshStates (H : X → D) : ∀ n,
    (freshStates query lab enc key k0 st0 next H n).length ≤ n + 1
  | 0 => by simp [freshStates]
  | n + 1 => by
    have ih := length_freshStates H n
    rw [freshStates]
    split
    · split
      · rw [List.length_append, List.length_singleton]; omega
      · omega
    · omega

theorem mem_of_mem_freshStates (H : X → D) : ∀ n, ∀ p ∈ freshStates query lab enc key k0 st0 next H n,
    p.1 = k0 ∨ p.1 ∈ (trace query H n).map key
  | 0, p, hp => by simp [freshStates] at hp; simp [hp]
  | n + 1, p, hp => by
    have ih := mem_of_mem_freshStates H n
    have up : p ∈ freshStates query lab enc key k0 st0 next H n →
        p.1 = k0 ∨ p.1 ∈ (trace query H (n + 1)).map key := by
      intro h
      rw [trace, List.map_append]
      exact (ih p h).imp id fun h => List.mem_append_left _ h
    rw [freshStates] at hp
    split at hp
    · split at hp
      · rcases List.mem_append.mp hp with hp | hp
        · exact up hp
        · right
          rw [List.mem_singleton.mp hp, trace]
          simp [asked]
      · exact up hp
    · exact up hp

theorem mem_of_lookup {l : List (κ × St)} {k : κ} {st : St} (h : l.lookup k = some st) : (k, st) ∈ l := by
  obtain ⟨l1, l2, rfl, -⟩ := List.lookup_eq_some_iff.mp h
  simp

/-- Without collisions of keys the end of every chain is among the states, and no key is the initial one. -/
theorem follow_mem (hinj : ∀ z k z' k', enc z k = enc z' k' → k = k') (N : ℕ) (H : X → D)
    (hnew : ∀ n < N, Fresh query H n → key (H (asked query H n)) ∉ k0 :: (trace query H n).map key)
    (hused : ∀ n < N, Fresh query H n → ∀ i ≤ n,
      prevKey enc (asked query H i) ≠ some (key (H (asked query H n)))) :
    ∀ (zs : List Z) (st : St) (k : κ),
      (∃ n ≤ N, (freshStates query lab enc key k0 st0 next H n).lookup k = some st ∧
        ∀ m < n, prevKey enc (asked query H m) = some k → k = k0) →
      (k = k0 → (freshStates query lab enc key k0 st0 next H 0).lookup k = some st) →
      (∀ x ∈ queries enc key H k zs, ∃ i < N, asked query H i = x) →
      (∃ k', (k', follow enc key next (firstLabel query lab H N) H st k zs) ∈
          freshStates query lab enc key k0 st0 next H N) ∧
        ∀ x ∈ queries enc key H k zs, key (H x) ≠ k0
  | [], st, k, ⟨n, hn, ht, _⟩, _, _ =>
    ⟨⟨k, mem_of_lookup (lookup_prefix (freshStates_prefix query lab enc key k0 st0 next H n N hn) ht)⟩,
      by simp [queries]⟩
  | z :: zs, st, k, ⟨n, hn, ht, hfirst⟩, hk0, hl => by
    obtain ⟨m, hm, hma, hmf, hml⟩ := firstLabel_eq query lab H N (enc z k) (hl _ (by simp [queries]))
    have hprev : prevKey enc (asked query H m) = some k := by rw [hma, prevKey_enc enc hinj]
    have hlook : (freshStates query lab enc key k0 st0 next H m).lookup k = some st := by
      by_cases hnm : n ≤ m
      · exact lookup_prefix (freshStates_prefix query lab enc key k0 st0 next H n m hnm) ht
      · exact lookup_prefix (freshStates_prefix query lab enc key k0 st0 next H 0 m (by omega))
          (hk0 (hfirst m (by omega) hprev))
    have hne := hnew m hm hmf
    have hnew' : ∀ p ∈ freshStates query lab enc key k0 st0 next H m, p.1 ≠ key (H (asked query H m)) := by
      intro p hp he
      rcases mem_of_mem_freshStates query lab enc key k0 st0 next H m p hp with h | h
      · exact hne (by rw [← he, h]; simp)
      · exact hne (by rw [← he]; exact List.mem_cons_of_mem _ h)
    have ih := follow_mem hinj N H hnew hused zs
      (next st (lab (trace query H m)) (H (asked query H m))) (key (H (asked query H m)))
      ⟨m + 1, hm, by
        rw [freshStates, if_pos hmf, hprev]
        simp only [Option.bind_some, hlook]
        exact lookup_new _ _ _ hnew', fun i hi h => absurd h (hused m hm hmf i (by omega))⟩
      (fun h => absurd h fun h => hne (by rw [h]; simp))
      (fun x hx => hl x (by rw [hma] at hx; simp [queries, hx]))
    rw [hma] at ih hne
    rw [follow, hml]
    refine ⟨ih.1, fun x hx => ?_⟩
    rw [queries, List.mem_cons] at hx
    rcases hx with rfl | hx
    · exact fun h => hne (by rw [h]; simp)
    · exact ih.2 x hx

end One

section Two
variable {Z1 Z2 St1 St2 : Type} (query : List D → X) (key : D → κ) (k0 : κ)
  (lab1 : List D → Z1) (enc1 : Z1 → κ → X) (st1 : St1) (next1 : St1 → Z1 → D → St1)
  (lab2 : List D → Z2) (enc2 : Z2 → κ → X) (st2 : St2) (next2 : St2 → Z2 → D → St2)

/-- The state that query `n` continues. -/
noncomputable def extended {Z St : Type} (query : List D → X) (lab : List D → Z) (enc : Z → κ → X)
    (key : D → κ) (k0 : κ) (st0 : St) (next : St → Z → D → St) (n : ℕ) (H : X → D) : Option St :=
  (prevKey enc (asked query H n)).bind fun k => (freshStates query lab enc key k0 st0 next H n).lookup k

theorem mem_extended {Z St : Type} {query : List D → X} {lab : List D → Z} {enc : Z → κ → X}
    {key : D → κ} {k0 : κ} {st0 : St} {next : St → Z → D → St} {n : ℕ} {H : X → D} {st : St}
    (h : extended query lab enc key k0 st0 next n H = some st) :
    ∃ k, (k, st) ∈ freshStates query lab enc key k0 st0 next H n := by
  obtain ⟨k, -, hk⟩ := Option.bind_eq_some_iff.mp h
  exact ⟨k, mem_of_lookup hk⟩

open Classical in
theorem mem_freshStates_succ {Z St : Type} {query : List D → X} {lab : List D → Z} {enc : Z → κ → X}
    {key : D → κ} {k0 : κ} {st0 : St} {next : St → Z → D → St} {n : ℕ} {H : X → D} {p : κ × St}
    (h : p ∈ freshStates query lab enc key k0 st0 next H (n + 1)) :
    p ∈ freshStates query lab enc key k0 st0 next H n ∨ Fresh query H n ∧
      ∃ st, extended query lab enc key k0 st0 next n H = some st ∧
        p.2 = next st (lab (trace query H n)) (H (asked query H n)) := by
  rw [freshStates] at h
  split at h
  · rename_i hf
    split at h
    · rename_i st hst
      rcases List.mem_append.mp h with h | h
      · exact Or.inl h
      · refine Or.inr ⟨hf, st, hst, ?_⟩
        rw [List.mem_singleton.mp h]
    · exact Or.inl h
  · exact Or.inl h

/-- The pairs of states of which query `n` continues at least one, and which. -/
noncomputable def candidates (n : ℕ) (H : X → D) : List ((St1 × Bool) × (St2 × Bool)) :=
  let s1 := (extended query lab1 enc1 key k0 st1 next1 n H).toList
  let s2 := (extended query lab2 enc2 key k0 st2 next2 n H).toList
  s1.flatMap (fun s => (freshStates query lab2 enc2 key k0 st2 next2 H n).map fun p => ((s, true), (p.2, false))) ++
    s2.flatMap (fun s => (freshStates query lab1 enc1 key k0 st1 next1 H n).map fun p => ((p.2, false), (s, true))) ++
    s1.flatMap fun s => s2.map fun s' => ((s, true), (s', true))

theorem length_candidates (n : ℕ) (H : X → D) :
    (candidates query key k0 lab1 enc1 st1 next1 lab2 enc2 st2 next2 n H).length ≤ 3 * (n + 1) := by
  have l1 := length_freshStates query lab1 enc1 key k0 st1 next1 H n
  have l2 := length_freshStates query lab2 enc2 key k0 st2 next2 H n
  unfold candidates
  cases extended query lab1 enc1 key k0 st1 next1 n H <;> cases extended query lab2 enc2 key k0 st2 next2 n H <;>
    simp <;> omega

/-- Both states are continued only by a query that is a hash input of both chains. -/
theorem both_extended (n : ℕ) (H : X → D) (q : (St1 × Bool) × (St2 × Bool))
    (hq : q ∈ candidates query key k0 lab1 enc1 st1 next1 lab2 enc2 st2 next2 n H) (h1 : q.1.2 = true)
    (h2 : q.2.2 = true) : ∃ z k z' k', enc1 z k = enc2 z' k' := by
  have enc : ∀ {Z St : Type} {lab : List D → Z} {enc : Z → κ → X} {st0 : St} {next : St → Z → D → St} {s : St},
      s ∈ (extended query lab enc key k0 st0 next n H).toList → ∃ z k, enc z k = asked query H n := by
    intro Z St lab enc st0 next s hs
    obtain ⟨k, hk, -⟩ := Option.bind_eq_some_iff.mp (Option.mem_toList.mp hs)
    rw [prevKey] at hk
    split at hk
    · rename_i hex
      obtain ⟨k, z, h⟩ := hex
      exact ⟨z, k, h⟩
    · cases hk
  simp only [candidates, List.mem_append, List.mem_flatMap, List.mem_map] at hq
  rcases hq with (⟨s, -, p, -, rfl⟩ | ⟨s, -, p, -, rfl⟩) | ⟨s, hs, s', hs', rfl⟩
  · cases h2
  · cases h1
  · obtain ⟨z, k, h⟩ := enc hs
    obtain ⟨z', k', h'⟩ := enc hs'
    exact ⟨z, k, z', k', h.trans h'.symm⟩

variable [Fintype D]

open Classical in
/-- The answers to query `n` that would help: their key is the initial one, or that of an earlier answer, or
was already used in a query, or extending a doomed pair of states with them makes one that is not. -/
noncomputable def hits2 (doomed : St1 → St2 → Prop) (n : ℕ) (H : X → D) : Finset D :=
  (Finset.univ.filter fun d => key d ∈ k0 :: (trace query H n).map key) ∪
  (Finset.univ.filter fun d => key d ∈
    (List.range (n + 1)).filterMap fun i => prevKey enc1 (asked query H i)) ∪
  (Finset.univ.filter fun d => key d ∈
    (List.range (n + 1)).filterMap fun i => prevKey enc2 (asked query H i)) ∪
  (Finset.univ.filter fun d =>
    ∃ q ∈ candidates query key k0 lab1 enc1 st1 next1 lab2 enc2 st2 next2 n H, doomed q.1.1 q.2.1 ∧
      ¬ doomed (if q.1.2 then next1 q.1.1 (lab1 (trace query H n)) d else q.1.1)
        (if q.2.2 then next2 q.2.1 (lab2 (trace query H n)) d else q.2.1))

theorem hits2_congr (doomed : St1 → St2 → Prop) (n : ℕ) (H H' : X → D)
    (h : trace query H n = trace query H' n) :
    hits2 query key k0 lab1 enc1 st1 next1 lab2 enc2 st2 next2 doomed n H =
      hits2 query key k0 lab1 enc1 st1 next1 lab2 enc2 st2 next2 doomed n H' := by
  have e : ∀ {Z : Type} (enc : Z → κ → X),
      ((List.range (n + 1)).filterMap fun i => prevKey enc (asked query H i)) =
      (List.range (n + 1)).filterMap fun i => prevKey enc (asked query H' i) := by
    intro Z enc
    apply List.filterMap_congr
    intro i hi
    rw [asked_congr query h i (by have := List.mem_range.mp hi; omega)]
  have e2 : candidates query key k0 lab1 enc1 st1 next1 lab2 enc2 st2 next2 n H =
      candidates query key k0 lab1 enc1 st1 next1 lab2 enc2 st2 next2 n H' := by
    unfold candidates extended
    rw [asked_congr query h n le_rfl, freshStates_congr query lab1 enc1 key k0 st1 next1 n h,
      freshStates_congr query lab2 enc2 key k0 st2 next2 n h]
  unfold hits2
  rw [h, e enc1, e enc2, e2]

/-- A union over a list. -/
theorem card_exists_le {α : Type} (c : ℕ) (p : α → D → Prop) [∀ a, DecidablePred (p a)] : ∀ l : List α,
    (∀ a ∈ l, (Finset.univ.filter (p a)).card ≤ c) →
    ∀ [DecidablePred fun d => ∃ a ∈ l, p a d],
    (Finset.univ.filter fun d => ∃ a ∈ l, p a d).card ≤ l.length * c
  | [], _, _ => by simp
  | a :: l, h, _ => by
    classical
    have ih := card_exists_le c p l fun b hb => h b (by simp [hb])
    have hsub : (Finset.univ.filter fun d => ∃ b ∈ a :: l, p b d) ⊆
        (Finset.univ.filter (p a)) ∪ Finset.univ.filter fun d => ∃ b ∈ l, p b d := by
      intro d hd
      obtain ⟨-, b, hb, hp⟩ := Finset.mem_filter.mp hd
      rcases List.mem_cons.mp hb with rfl | hb
      · exact Finset.mem_union_left _ (Finset.mem_filter.mpr ⟨Finset.mem_univ _, hp⟩)
      · exact Finset.mem_union_right _ (Finset.mem_filter.mpr ⟨Finset.mem_univ _, b, hb, hp⟩)
    refine (Finset.card_le_card hsub).trans ((Finset.card_union_le _ _).trans ?_)
    have := h a (by simp)
    rw [List.length_cons, Nat.succ_mul]
    omega

theorem card_hits2_le (doomed : St1 → St2 → Prop) (m c : ℕ)
    (hm : ∀ (k : κ) (S : Finset D), (∀ d ∈ S, key d = k) → S.card ≤ m)
    (hc : ∀ s1 s2 z1 z2 (b1 b2 : Bool), (b1 = true → b2 = true → ∃ z k z' k', enc1 z k = enc2 z' k') →
      doomed s1 s2 → ∀ S : Finset D,
      (∀ d ∈ S, ¬ doomed (if b1 then next1 s1 z1 d else s1) (if b2 then next2 s2 z2 d else s2)) → S.card ≤ c)
    (n : ℕ) (H : X → D) :
    (hits2 query key k0 lab1 enc1 st1 next1 lab2 enc2 st2 next2 doomed n H).card ≤
      (n + 1) * (3 * (m + c)) := by
  classical
  unfold hits2
  have h1 := card_keys_le key m hm (k0 :: (trace query H n).map key)
  have h2 : ∀ {Z : Type} (enc : Z → κ → X), (Finset.univ.filter fun d => key d ∈
      (List.range (n + 1)).filterMap fun i => prevKey enc (asked query H i)).card ≤ (n + 1) * m := by
    intro Z enc
    refine (card_keys_le key m hm _).trans (Nat.mul_le_mul_right m ?_)
    exact (List.length_filterMap_le _ _).trans (by simp)
  have h3 := h2 enc1
  have h4 := h2 enc2
  simp only [List.length_cons, List.length_map, length_trace] at h1
  refine (Finset.card_union_le _ _).trans (le_trans (Nat.add_le_add ((Finset.card_union_le _ _).trans
    (Nat.add_le_add ((Finset.card_union_le _ _).trans (Nat.add_le_add h1 h3)) h4))
    (?_ : _ ≤ 3 * (n + 1) * c)) (by ring_nf; omega))
  refine (card_exists_le c (fun (q : (St1 × Bool) × (St2 × Bool)) d => doomed q.1.1 q.2.1 ∧
      ¬ doomed (if q.1.2 then next1 q.1.1 (lab1 (trace query H n)) d else q.1.1)
        (if q.2.2 then next2 q.2.1 (lab2 (trace query H n)) d else q.2.1)) _ fun q hq => ?_).trans
    (Nat.mul_le_mul_right c (length_candidates query key k0 lab1 enc1 st1 next1 lab2 enc2 st2 next2 n H))
  by_cases hd : doomed q.1.1 q.2.1
  · exact hc _ _ _ _ q.1.2 q.2.2 (both_extended query key k0 lab1 enc1 st1 next1 lab2 enc2 st2 next2 n H q hq) hd _
      fun d hd' => (Finset.mem_filter.mp hd').2.2
  · simp [hd]

/-- Without a hit all pairs of states are doomed. -/
theorem doomed_pairs (doomed : St1 → St2 → Prop)
    (hst : doomed st1 st2) (N : ℕ) (H : X → D)
    (hgood : ∀ n < N, Fresh query H n → H (asked query H n) ∉
      hits2 query key k0 lab1 enc1 st1 next1 lab2 enc2 st2 next2 doomed n H) :
    ∀ n ≤ N, ∀ p1 ∈ freshStates query lab1 enc1 key k0 st1 next1 H n,
      ∀ p2 ∈ freshStates query lab2 enc2 key k0 st2 next2 H n, doomed p1.2 p2.2
  | 0, _, p1, h1, p2, h2 => by
    simp only [freshStates, List.mem_singleton] at h1 h2
    rw [h1, h2]; exact hst
  | n + 1, hn, p1, h1, p2, h2 => by
    classical
    have ih := doomed_pairs doomed hst N H hgood n (by omega)
    have hg : Fresh query H n → ∀ q ∈ candidates query key k0 lab1 enc1 st1 next1 lab2 enc2 st2 next2 n H,
        doomed q.1.1 q.2.1 →
        doomed (if q.1.2 then next1 q.1.1 (lab1 (trace query H n)) (H (asked query H n)) else q.1.1)
        (if q.2.2 then next2 q.2.1 (lab2 (trace query H n)) (H (asked query H n)) else q.2.1) := by
      intro hf q hq hd
      by_contra hcon
      exact hgood n (by omega) hf (Finset.mem_union_right _
        (Finset.mem_filter.mpr ⟨Finset.mem_univ _, q, hq, hd, hcon⟩))
    rcases mem_freshStates_succ h1 with h1 | ⟨hf, s1, e1, h1⟩ <;>
    rcases mem_freshStates_succ h2 with h2 | ⟨hf', s2, e2, h2⟩
    · exact ih p1 h1 p2 h2
    · obtain ⟨k, hk⟩ := mem_extended e2
      rw [h2]
      exact hg hf' ((p1.2, false), (s2, true)) (by
        simp only [candidates, List.mem_append]
        exact Or.inl (Or.inr (List.mem_flatMap.mpr ⟨s2, by simp [e2], List.mem_map.mpr ⟨p1, h1, rfl⟩⟩)))
        (ih p1 h1 _ hk)
    · obtain ⟨k, hk⟩ := mem_extended e1
      rw [h1]
      exact hg hf ((s1, true), (p2.2, false)) (by
        simp only [candidates, List.mem_append]
        exact Or.inl (Or.inl (List.mem_flatMap.mpr ⟨s1, by simp [e1], List.mem_map.mpr ⟨p2, h2, rfl⟩⟩)))
        (ih _ hk p2 h2)
    · obtain ⟨k, hk⟩ := mem_extended e1
      obtain ⟨k', hk'⟩ := mem_extended e2
      rw [h1, h2]
      exact hg hf ((s1, true), (s2, true)) (by
        simp only [candidates, List.mem_append]
        exact Or.inr (List.mem_flatMap.mpr ⟨s1, by simp [e1], List.mem_map.mpr ⟨s2, by simp [e2], rfl⟩⟩))
        (ih _ hk _ hk')

/-- Without a hit the final states of any two chains are doomed together, and no key is the initial one. -/
theorem doomed_follow2 (doomed : St1 → St2 → Prop)
    (hinj1 : ∀ z k z' k', enc1 z k = enc1 z' k' → k = k')
    (hinj2 : ∀ z k z' k', enc2 z k = enc2 z' k' → k = k') (hst : doomed st1 st2) (N : ℕ) (H : X → D)
    (hgood : ∀ n < N, Fresh query H n → H (asked query H n) ∉
      hits2 query key k0 lab1 enc1 st1 next1 lab2 enc2 st2 next2 doomed n H)
    (zs1 : List Z1) (zs2 : List Z2)
    (h1 : ∀ x ∈ queries enc1 key H k0 zs1, ∃ i < N, asked query H i = x)
    (h2 : ∀ x ∈ queries enc2 key H k0 zs2, ∃ i < N, asked query H i = x) :
    doomed (follow enc1 key next1 (firstLabel query lab1 H N) H st1 k0 zs1)
        (follow enc2 key next2 (firstLabel query lab2 H N) H st2 k0 zs2) ∧
      (∀ x ∈ queries enc1 key H k0 zs1, key (H x) ≠ k0) ∧
      ∀ x ∈ queries enc2 key H k0 zs2, key (H x) ≠ k0 := by
  classical
  have hnew : ∀ n < N, Fresh query H n → key (H (asked query H n)) ∉ k0 :: (trace query H n).map key := by
    intro n hn hf h
    exact hgood n hn hf (Finset.mem_union_left _ (Finset.mem_union_left _ (Finset.mem_union_left _
      (Finset.mem_filter.mpr ⟨Finset.mem_univ _, h⟩))))
  have hu1 : ∀ n < N, Fresh query H n → ∀ i ≤ n,
      prevKey enc1 (asked query H i) ≠ some (key (H (asked query H n))) := by
    intro n hn hf i hi h
    exact hgood n hn hf (Finset.mem_union_left _ (Finset.mem_union_left _ (Finset.mem_union_right _
      (Finset.mem_filter.mpr ⟨Finset.mem_univ _,
        List.mem_filterMap.mpr ⟨i, List.mem_range.mpr (by omega), h⟩⟩))))
  have hu2 : ∀ n < N, Fresh query H n → ∀ i ≤ n,
      prevKey enc2 (asked query H i) ≠ some (key (H (asked query H n))) := by
    intro n hn hf i hi h
    exact hgood n hn hf (Finset.mem_union_left _ (Finset.mem_union_right _
      (Finset.mem_filter.mpr ⟨Finset.mem_univ _,
        List.mem_filterMap.mpr ⟨i, List.mem_range.mpr (by omega), h⟩⟩)))
  have hl1 : (freshStates query lab1 enc1 key k0 st1 next1 H 0).lookup k0 = some st1 := by simp [freshStates]
  have hl2 : (freshStates query lab2 enc2 key k0 st2 next2 H 0).lookup k0 = some st2 := by simp [freshStates]
  obtain ⟨⟨k1, m1⟩, n1⟩ := follow_mem query lab1 enc1 key k0 st1 next1 hinj1 N H hnew hu1 zs1 st1 k0
    ⟨0, by omega, hl1, by simp⟩ (fun _ => hl1) h1
  obtain ⟨⟨k2, m2⟩, n2⟩ := follow_mem query lab2 enc2 key k0 st2 next2 hinj2 N H hnew hu2 zs2 st2 k0
    ⟨0, by omega, hl2, by simp⟩ (fun _ => hl2) h2
  exact ⟨doomed_pairs query key k0 lab1 enc1 st1 next1 lab2 enc2 st2 next2 doomed hst N H hgood N le_rfl
    _ m1 _ m2, n1, n2⟩

variable [DecidableEq X] [DecidableEq D]

open Classical in
/-- For at most `3 N (N + 1) (m + c) / (2 |D|)` of all oracles there are two chains among the first `N` queries
whose final states are not doomed together, or one that returns to the initial key. -/
theorem count_follow2 [Fintype X] (doomed : St1 → St2 → Prop)
    (hinj1 : ∀ z k z' k', enc1 z k = enc1 z' k' → k = k')
    (hinj2 : ∀ z k z' k', enc2 z k = enc2 z' k' → k = k') (m c : ℕ)
    (hm : ∀ (k : κ) (S : Finset D), (∀ d ∈ S, key d = k) → S.card ≤ m)
    (hc : ∀ s1 s2 z1 z2 (b1 b2 : Bool), (b1 = true → b2 = true → ∃ z k z' k', enc1 z k = enc2 z' k') →
      doomed s1 s2 → ∀ S : Finset D,
      (∀ d ∈ S, ¬ doomed (if b1 then next1 s1 z1 d else s1) (if b2 then next2 s2 z2 d else s2)) → S.card ≤ c)
    (hst : doomed st1 st2) (N : ℕ) :
    2 * ((Finset.univ.filter fun H : X → D => ∃ (zs1 : List Z1) (zs2 : List Z2),
      (∀ x ∈ queries enc1 key H k0 zs1, ∃ i < N, asked query H i = x) ∧
      (∀ x ∈ queries enc2 key H k0 zs2, ∃ i < N, asked query H i = x) ∧
      ¬ (doomed (follow enc1 key next1 (firstLabel query lab1 H N) H st1 k0 zs1)
          (follow enc2 key next2 (firstLabel query lab2 H N) H st2 k0 zs2) ∧
        (∀ x ∈ queries enc1 key H k0 zs1, key (H x) ≠ k0) ∧
        ∀ x ∈ queries enc2 key H k0 zs2, key (H x) ≠ k0)).card * Fintype.card D) ≤
    N * (N + 1) * (3 * (m + c)) * Fintype.card (X → D) := by
  have key' := count_any query N (fun n => (n + 1) * (3 * (m + c)))
    (hits2 query key k0 lab1 enc1 st1 next1 lab2 enc2 st2 next2 doomed)
    (fun n H H' h => hits2_congr query key k0 lab1 enc1 st1 next1 lab2 enc2 st2 next2 doomed n H H' h)
    (fun n H => card_hits2_le query key k0 lab1 enc1 st1 next1 lab2 enc2 st2 next2 doomed m c hm hc n H)
  have hsum : ∀ (a N : ℕ), 2 * ∑ n ∈ Finset.range N, (n + 1) * a = N * (N + 1) * a := by
    intro a N
    induction N with
    | zero => simp
    | succ N ih => rw [Finset.sum_range_succ, Nat.mul_add, ih]; ring
  have key2 := Nat.mul_le_mul_left 2 key'
  rw [← Nat.mul_assoc 2 (∑ n ∈ Finset.range N, (n + 1) * (3 * (m + c))), hsum] at key2
  refine le_trans (Nat.mul_le_mul_left 2 (Nat.mul_le_mul_right _ (Finset.card_le_card ?_))) key2
  intro H hH
  obtain ⟨-, zs1, zs2, h1, h2, h3⟩ := Finset.mem_filter.mp hH
  refine Finset.mem_filter.mpr ⟨Finset.mem_univ _, ?_⟩
  by_contra hcon
  push Not at hcon
  exact h3 (doomed_follow2 query key k0 lab1 enc1 st1 next1 lab2 enc2 st2 next2 doomed hinj1 hinj2 hst N H hcon
    zs1 zs2 h1 h2)

end Two

/-! ## An adversary followed by the verifier -/

section Check
variable {Z1 Z2 : Type} (adv : List D → X) (Q K1 : ℕ) (out1 : List D → List Z1) (out2 : List D → List Z2)
  (enc1 : Z1 → κ → X) (enc2 : Z2 → κ → X) (key : D → κ) (k0 : κ)

/-- The queries of an adversary that asks `Q` queries and outputs the links of two chains, followed by the
queries of a verifier that recomputes them. -/
def withCheck2 : List D → X :=
  withCheck (withCheck adv Q out1 enc1 key k0) (Q + K1) (fun ds => out2 (ds.take Q)) enc2 key k0

open Classical in
/-- The labels: those of the adversary, and for the queries of the verifier the links in the output. -/
noncomputable def labels {Z : Type} (query : List D → X) (Q : ℕ) (out : List D → List Z) (enc : Z → κ → X)
    (lab : List D → Z) (ds : List D) : Z :=
  if h : Q ≤ ds.length ∧ ∃ z ∈ out (ds.take Q), ∃ k, enc z k = query ds then h.2.choose else lab ds

omit [DecidableEq κ] in
theorem withCheck2_lt (ds : List D) (h : ds.length < Q) :
    withCheck2 adv Q K1 out1 out2 enc1 enc2 key k0 ds = adv ds := by
  rw [withCheck2, withCheck, if_pos (by omega), withCheck, if_pos h]

omit [DecidableEq κ] in
theorem trace_withCheck2 (H : X → D) : trace (withCheck2 adv Q K1 out1 out2 enc1 enc2 key k0) H Q =
    trace adv H Q := by
  rw [withCheck2, trace_withCheck _ _ _ _ _ _ _ _ (by omega), trace_withCheck _ _ _ _ _ _ _ _ le_rfl]

omit [DecidableEq κ] in
theorem output_asked2 (K2 : ℕ) (H : X → D) (hK1 : ∀ ds, (out1 ds).length ≤ K1)
    (hK2 : ∀ ds, (out2 ds).length ≤ K2) :
    (∀ x ∈ queries enc1 key H k0 (out1 (trace adv H Q)), ∃ i < Q + K1 + K2,
      asked (withCheck2 adv Q K1 out1 out2 enc1 enc2 key k0) H i = x) ∧
    ∀ x ∈ queries enc2 key H k0 (out2 (trace adv H Q)), ∃ i < Q + K1 + K2,
      asked (withCheck2 adv Q K1 out1 out2 enc1 enc2 key k0) H i = x := by
  constructor
  · intro x hx
    obtain ⟨i, hi, h⟩ := output_asked adv Q out1 enc1 key k0 H K1 hK1 x hx
    refine ⟨i, by omega, ?_⟩
    rw [← h, asked, asked, withCheck2, trace_withCheck _ _ _ _ _ _ _ _ (by omega), withCheck, if_pos (by simpa)]
  · intro x hx
    have := output_asked (withCheck adv Q out1 enc1 key k0) (Q + K1) (fun ds => out2 (ds.take Q)) enc2 key k0 H K2
      (fun ds => hK2 _) x
    rw [trace_take _ _ _ _ (by omega), trace_withCheck _ _ _ _ _ _ _ _ le_rfl] at this
    exact this hx

omit [DecidableEq κ] in
/-- If the adversary's labels are related to its queries, so are those of the verifier's. -/
theorem label_rel2 {Z : Type} (query : List D → X) (out : List D → List Z) (enc : Z → κ → X)
    (lab : List D → Z) (hq : ∀ ds, ds.length < Q → query ds = adv ds) (rel : Z → Z → Prop) (z : Z) (k : κ)
    (hlab : ∀ ds, adv ds = enc z k → rel (lab ds) z)
    (hout : ∀ ds, ∀ z' ∈ out ds, ∀ k', enc z' k' = enc z k → rel z' z) (H : X → D) (N : ℕ)
    (hz : z ∈ out (trace query H Q)) (h : ∃ i < N, asked query H i = enc z k) :
    rel (firstLabel query (labels query Q out enc lab) H N (enc z k)) z := by
  obtain ⟨n, -, ha, -, he⟩ := firstLabel_eq query (labels query Q out enc lab) H N _ h
  rw [he, labels]
  split
  · rename_i hex
    obtain ⟨h1, k', h2⟩ := hex.2.choose_spec
    exact hout _ _ h1 k' (h2.trans ha)
  · rename_i hex
    have hn : n < Q := by
      by_contra hcon
      push Not at hcon
      refine hex ⟨by simpa using hcon, z, ?_, k, ha.symm⟩
      rw [trace_take _ _ _ _ hcon]
      exact hz
    exact hlab _ (by rw [← hq _ (by simpa using hn)]; exact ha)

variable [DecidableEq X] [DecidableEq D] [Fintype D] [Fintype X]

/-- An adversary with `Q` queries whose chains have at most `K1` and `K2` links makes a pair of states that is not
doomed from a doomed one, or returns to the initial key, for at most `3 N (N + 1) (m + c) / (2 |D|)` of all
oracles, with `N = Q + K1 + K2`. -/
theorem count_static2 {St1 St2 : Type} (lab1 : List D → Z1) (st1 : St1) (next1 : St1 → Z1 → D → St1)
    (lab2 : List D → Z2) (st2 : St2) (next2 : St2 → Z2 → D → St2) (doomed : St1 → St2 → Prop)
    (hinj1 : ∀ z k z' k', enc1 z k = enc1 z' k' → k = k')
    (hinj2 : ∀ z k z' k', enc2 z k = enc2 z' k' → k = k') (m c : ℕ)
    (hm : ∀ (k : κ) (S : Finset D), (∀ d ∈ S, key d = k) → S.card ≤ m)
    (hc : ∀ s1 s2 z1 z2 (b1 b2 : Bool), (b1 = true → b2 = true → ∃ z k z' k', enc1 z k = enc2 z' k') →
      doomed s1 s2 → ∀ S : Finset D,
      (∀ d ∈ S, ¬ doomed (if b1 then next1 s1 z1 d else s1) (if b2 then next2 s2 z2 d else s2)) → S.card ≤ c)
    (hst : doomed st1 st2) (K2 : ℕ) (hK1 : ∀ ds, (out1 ds).length ≤ K1) (hK2 : ∀ ds, (out2 ds).length ≤ K2)
    (W : Finset (X → D))
    (hW : ∀ H ∈ W, ¬ (doomed
          (follow enc1 key next1 (firstLabel (withCheck2 adv Q K1 out1 out2 enc1 enc2 key k0)
            (labels (withCheck2 adv Q K1 out1 out2 enc1 enc2 key k0) Q out1 enc1 lab1) H (Q + K1 + K2)) H st1 k0
            (out1 (trace adv H Q)))
          (follow enc2 key next2 (firstLabel (withCheck2 adv Q K1 out1 out2 enc1 enc2 key k0)
            (labels (withCheck2 adv Q K1 out1 out2 enc1 enc2 key k0) Q out2 enc2 lab2) H (Q + K1 + K2)) H st2 k0
            (out2 (trace adv H Q))) ∧
        (∀ x ∈ queries enc1 key H k0 (out1 (trace adv H Q)), key (H x) ≠ k0) ∧
        ∀ x ∈ queries enc2 key H k0 (out2 (trace adv H Q)), key (H x) ≠ k0)) :
    2 * (W.card * Fintype.card D) ≤
    (Q + K1 + K2) * (Q + K1 + K2 + 1) * (3 * (m + c)) * Fintype.card (X → D) := by
  classical
  refine le_trans (Nat.mul_le_mul_left 2 (Nat.mul_le_mul_right _ (Finset.card_le_card ?_)))
    (count_follow2 (withCheck2 adv Q K1 out1 out2 enc1 enc2 key k0) key k0
      (labels (withCheck2 adv Q K1 out1 out2 enc1 enc2 key k0) Q out1 enc1 lab1) enc1 st1 next1
      (labels (withCheck2 adv Q K1 out1 out2 enc1 enc2 key k0) Q out2 enc2 lab2) enc2 st2 next2 doomed hinj1 hinj2
      m c hm hc hst (Q + K1 + K2))
  intro H hH
  obtain ⟨h1, h2⟩ := output_asked2 adv Q K1 out1 out2 enc1 enc2 key k0 K2 H hK1 hK2
  exact Finset.mem_filter.mpr ⟨Finset.mem_univ _, _, _, h1, h2, hW H hH⟩

end Check

end Ripp.Oracle
