import Verif.Lemmas.Chain

/-!
# A hash chain with a last link of another kind

As `Lemmas/Chain`, for the arguments that end with a query of another form: the rounds of TIPA, of which the
prover may know nothing, and then the hash of the final keys, of which it knows something (`known`). For few
oracles only is the last answer a bad one for what was known when the last link was first hashed.
-/

set_option linter.unusedSectionVars false

namespace Ripp.Oracle

open Classical in
/-- If `N` exceptions are rare, most elements of a large set are none of them. -/
theorem exists_fine {α : Type} (W : Finset α) (N : ℕ) (bad : Fin N → α → Prop) (b B d c : ℕ)
    (hbad : ∀ t, ∀ S : Finset α, (∀ x ∈ S, bad t x) → S.card * d ≤ b * c)
    (hmany : (B + N * b) * c < W.card * d) :
    ∃ S ⊆ W, (∀ x ∈ S, ∀ t, ¬ bad t x) ∧ B * c < S.card * d := by
  refine ⟨W.filter fun x => ∀ t, ¬ bad t x, Finset.filter_subset _ _,
    fun x hx => (Finset.mem_filter.mp hx).2, ?_⟩
  by_contra hcon
  push Not at hcon
  have hsub : W ⊆ (W.filter fun x => ∀ t, ¬ bad t x) ∪ Finset.univ.biUnion fun t => W.filter (bad t) := by
    intro x hx
    by_cases h : ∃ t, bad t x
    · obtain ⟨t, h⟩ := h
      exact Finset.mem_union_right _
        (Finset.mem_biUnion.mpr ⟨t, Finset.mem_univ _, Finset.mem_filter.mpr ⟨hx, h⟩⟩)
    · push Not at h
      exact Finset.mem_union_left _ (Finset.mem_filter.mpr ⟨hx, h⟩)
  have hU : (Finset.univ.biUnion fun t => W.filter (bad t)).card * d ≤ N * b * c := by
    refine (Nat.mul_le_mul_right _ Finset.card_biUnion_le).trans ?_
    rw [Finset.sum_mul]
    refine (Finset.sum_le_card_nsmul _ _ (b * c) fun t _ =>
      hbad t _ fun x hx => (Finset.mem_filter.mp hx).2).trans (le_of_eq ?_)
    simp [mul_assoc]
  have hle := (Nat.mul_le_mul_right d (Finset.card_le_card hsub)).trans
    (Nat.mul_le_mul_right d (Finset.card_union_le _ _))
  rw [add_mul] at hle hmany
  omega

variable {X D κ Z Y E : Type} [DecidableEq κ]

theorem queries_snoc (enc : Z → κ → X) (key : D → κ) (H : X → D) : ∀ (zs : List Z) (z : Z) (k : κ),
    queries enc key H k (zs ++ [z]) = queries enc key H k zs ++
      [enc z (((queries enc key H k zs).map fun x => key (H x)).getLast?.getD k)]
  | [], z, k => rfl
  | y :: zs, z, k => by
    rw [List.cons_append, queries, queries, queries_snoc enc key H zs z]
    simp only [List.cons_append, List.map_cons]
    congr 4
    cases h : (queries enc key H (key (H (enc y k))) zs).map fun x => key (H x) with
    | nil => rfl
    | cons a l => rw [List.getLast?_cons_cons]; simp [List.getLast?_cons]

variable (adv : List D → X) (Q : ℕ) (steps : List D → List Z) (known final : List D → Y) (encZ : Z → κ → X)
  (encY : Y → κ → X) (key : D → κ) (k0 : κ)

open Classical in
/-- What was known about `x` when it was first hashed: at a query of the prover, or else in its output. -/
noncomputable def firstKnown (H : X → D) (x : X) : Y :=
  if h : ∃ i < Q, asked adv H i = x then known (trace adv H (Nat.find h)) else final (trace adv H Q)

theorem firstKnown_of_asked (H : X → D) (n : ℕ) (hn : n < Q) (hf : Fresh adv H n) :
    firstKnown adv Q known final H (asked adv H n) = known (trace adv H n) := by
  classical
  have hex : ∃ i < Q, asked adv H i = asked adv H n := ⟨n, hn, rfl⟩
  have : ∀ m, (m < Q ∧ asked adv H m = asked adv H n) → (∀ i < m, ¬ (i < Q ∧ asked adv H i = asked adv H n)) →
      m = n := by
    intro m h1 h2
    rcases lt_trichotomy m n with h | h | h
    · exact absurd h1.2 (hf m h)
    · exact h
    · exact absurd ⟨hn, rfl⟩ (h2 n h)
  rw [firstKnown, dif_pos hex]
  exact congrArg (fun m => known (trace adv H m)) (this _ (Nat.find_spec hex) fun i hi => Nat.find_min hex hi)

theorem firstKnown_of_not (H : X → D) (x : X) (h : ∀ i < Q, asked adv H i ≠ x) :
    firstKnown adv Q known final H x = final (trace adv H Q) := by
  rw [firstKnown, dif_neg]
  rintro ⟨i, hi, he⟩
  exact h i hi he

/-- The keys of the rounds. -/
def roundKeys (H : X → D) : List κ :=
  (queries encZ key H k0 (steps (trace adv H Q))).map fun x => key (H x)

/-- The last query. -/
def lastQuery (H : X → D) : X :=
  encY (final (trace adv H Q)) ((roundKeys adv Q steps encZ key k0 H).getLast?.getD k0)

/-- The encoding of a link. -/
def tailEnc : Z ⊕ Y → κ → X
  | .inl z, k => encZ z k
  | .inr y, k => encY y k

/-- The links of the output. -/
def tailOut (ds : List D) : List (Z ⊕ Y) := (steps ds).map .inl ++ [.inr (final ds)]

open Classical in
/-- The labels of the queries. -/
noncomputable def tailLab (ds : List D) : Z ⊕ Y :=
  if ∃ y k, adv ds = encY y k then .inr (known ds)
  else if h : Nonempty Z then .inl h.some else .inr (known ds)

/-- The state: the keys so far, and whether every last answer was good. -/
def tailNext (Good : List κ → Y → D → Prop) (st : List κ × Prop) (z : Z ⊕ Y) (d : D) : List κ × Prop :=
  match z with
  | .inl _ => (st.1 ++ [key d], st.2)
  | .inr y => (st.1, st.2 ∧ Good st.1 y d)

theorem foldl_tailNext (Good : List κ → Y → D → Prop) (H : X → D) (L : X → Z ⊕ Y) :
    ∀ (xs : List X) (ks : List κ) (p : Prop), (∀ x ∈ xs, ∃ z, L x = .inl z) →
      xs.foldl (fun st x => tailNext key Good st (L x) (H x)) (ks, p) = (ks ++ xs.map (fun x => key (H x)), p)
  | [], ks, p, _ => by simp
  | x :: xs, ks, p, h => by
    obtain ⟨z, hz⟩ := h x (by simp)
    rw [List.foldl_cons, hz, show tailNext key Good (ks, p) (.inl z) (H x) = (ks ++ [key (H x)], p) from rfl,
      foldl_tailNext Good H L xs _ _ fun y hy => h y (by simp [hy])]
    simp

theorem mem_queries {enc : Z → κ → X} {H : X → D} : ∀ (zs : List Z) (k : κ), ∀ x ∈ queries enc key H k zs,
    ∃ z k, x = enc z k
  | [], _, x, hx => by simp [queries] at hx
  | z :: zs, k, x, hx => by
    rw [queries, List.mem_cons] at hx
    rcases hx with rfl | hx
    · exact ⟨z, k, rfl⟩
    · exact mem_queries zs _ x hx

theorem queries_inl (H : X → D) : ∀ (zs : List Z) (k : κ),
    queries (tailEnc encZ encY) key H k (zs.map .inl) = queries encZ key H k zs
  | [], _ => rfl
  | z :: zs, k => by
    rw [List.map_cons, queries, queries, queries_inl H zs]
    rfl

variable [DecidableEq X] [DecidableEq D] [Fintype D] [Fintype X]

open Classical in
/-- Except for few oracles no key is the initial one, what was known about the last link when it was first hashed
is about the same object, and the last answer is good for it. -/
theorem count_tail (ext : Y → E) (hinjZ : ∀ z k z' k', encZ z k = encZ z' k' → k = k')
    (hinjY : ∀ y k y' k', encY y k = encY y' k' → ext y = ext y' ∧ k = k')
    (hsep : ∀ z k y k', encZ z k ≠ encY y k') (m c : ℕ)
    (hm : ∀ (k : κ) (S : Finset D), (∀ d ∈ S, key d = k) → S.card ≤ m)
    (Good : List κ → Y → D → Prop)
    (hc : ∀ ks y (S : Finset D), (∀ d ∈ S, ¬ Good ks y d) → S.card ≤ c)
    (hknown : ∀ ds y k, adv ds = encY y k → ext (known ds) = ext y) (K : ℕ)
    (hK : ∀ ds, (steps ds).length = K) (W : Finset (X → D))
    (hW : ∀ H ∈ W, ¬ ((∀ x ∈ queries encZ key H k0 (steps (trace adv H Q)), key (H x) ≠ k0) ∧
      ext (firstKnown adv Q known final H (lastQuery adv Q steps final encZ encY key k0 H)) =
        ext (final (trace adv H Q)) ∧
      Good (roundKeys adv Q steps encZ key k0 H)
        (firstKnown adv Q known final H (lastQuery adv Q steps final encZ encY key k0 H))
        (H (lastQuery adv Q steps final encZ encY key k0 H)))) :
    W.card * Fintype.card D ≤ ((Q + K + 1) * c + (Q + K + 1) * (Q + K + 2) * m) * Fintype.card (X → D) := by
  have hinj : ∀ z k z' k', tailEnc encZ encY z k = tailEnc encZ encY z' k' → k = k' := by
    rintro (z | y) k (z' | y') k' h
    · exact hinjZ _ _ _ _ h
    · exact absurd h (hsep _ _ _ _)
    · exact absurd h.symm (hsep _ _ _ _)
    · exact (hinjY _ _ _ _ h).2
  have hout : ∀ ds, (tailOut steps final ds).length = K + 1 := fun ds => by simp [tailOut, hK]
  refine count_static adv Q (tailOut steps final) (tailEnc encZ encY) key k0 (tailLab adv known encY)
    (([], True) : List κ × Prop) (tailNext key Good) (fun st => st.2) hinj m c hm ?_ trivial (K + 1)
    (fun ds => (hout ds).le) W ?_
  · rintro ⟨ks, p⟩ (z | y) hst S hS
    · have : S = ∅ := Finset.eq_empty_of_forall_notMem fun d hd => hS d hd hst
      simp [this]
    · exact hc ks y S fun d hd hg => hS d hd ⟨hst, hg⟩
  intro H hH
  rintro ⟨hdm, hne⟩
  refine hW H hH ?_
  rw [follow_eq] at hdm
  set q := withCheck adv Q (tailOut steps final) (tailEnc encZ encY) key k0 with hqdef
  set L := firstLabel q (withLabels Q (tailOut steps final) (tailLab adv known encY)) H (Q + (K + 1)) with hL
  have hasked := output_asked adv Q (tailOut steps final) (tailEnc encZ encY) key k0 H (K + 1)
    (fun ds => (hout ds).le)
  have hq : queries (tailEnc encZ encY) key H k0 (tailOut steps final (trace adv H Q)) =
      queries encZ key H k0 (steps (trace adv H Q)) ++ [lastQuery adv Q steps final encZ encY key k0 H] := by
    rw [tailOut, queries_snoc, queries_inl]
    rfl
  have hin : ∀ x ∈ queries encZ key H k0 (steps (trace adv H Q)), ∃ z, L x = .inl z := by
    intro x hx
    obtain ⟨z, y, rfl⟩ := mem_queries key _ _ x hx
    have hx' := hasked _ (by rw [hq]; exact List.mem_append_left _ hx)
    have := label_rel adv Q (tailOut steps final) (tailEnc encZ encY) key k0 (tailLab adv known encY)
      (fun l _ => ∃ z, l = .inl z) (.inl z) y ?_ ?_ H (Q + (K + 1)) hx'
    · exact this
    · intro ds h
      rw [tailLab, if_neg, dif_pos ⟨z⟩]
      · exact ⟨_, rfl⟩
      · rintro ⟨y', k', h'⟩
        exact hsep z y y' k' (h.symm.trans h')
    · rintro ds (z' | y') _ k' h
      · exact ⟨z', rfl⟩
      · exact absurd h.symm (hsep _ _ _ _)
  have hlast : L (lastQuery adv Q steps final encZ encY key k0 H) =
      .inr (firstKnown adv Q known final H (lastQuery adv Q steps final encZ encY key k0 H)) := by
    have hx := hasked (lastQuery adv Q steps final encZ encY key k0 H) (by rw [hq]; simp)
    obtain ⟨y, k, hy⟩ : ∃ y k, lastQuery adv Q steps final encZ encY key k0 H = encY y k := ⟨_, _, rfl⟩
    generalize lastQuery adv Q steps final encZ encY key k0 H = x at hx hy
    obtain ⟨n, h1, h2, hf, hlab⟩ := firstLabel_eq q
      (withLabels Q (tailOut steps final) (tailLab adv known encY)) H (Q + (K + 1)) x hx
    rw [hL, hlab]
    have heq : ∀ i < Q, asked q H i = asked adv H i := by
      intro i hi
      rw [asked, asked, hqdef, trace_withCheck _ _ _ _ _ _ _ _ hi.le, withCheck, if_pos (by simpa)]
    by_cases hlt : n < Q
    · have hf' : Fresh adv H n := by
        intro i hi
        rw [← heq i (by omega), ← heq n hlt]
        exact hf i hi
      have hk := firstKnown_of_asked adv Q known final H n hlt hf'
      rw [← heq n hlt, h2] at hk
      rw [hk, hqdef, trace_withCheck _ _ _ _ _ _ _ _ hlt.le, withLabels, if_pos (by simpa), tailLab, if_pos]
      exact ⟨y, k, by rw [← hy, ← h2, heq n hlt]; rfl⟩
    · rw [firstKnown_of_not adv Q known final H x fun i hi h => hf i (by omega) (by rw [heq i hi, h, h2]),
        withLabels, if_neg (by simpa using hlt)]
      rw [asked, hqdef, withCheck, if_neg (by simpa using hlt), ← hqdef] at h2
      have htake : (trace q H n).take Q = trace adv H Q := by
        rw [trace_take _ _ _ _ (by omega), hqdef, trace_withCheck _ _ _ _ _ _ _ _ le_rfl]
      rw [htake] at h2 ⊢
      have hidx : (trace q H n).length - Q < (tailOut steps final (trace adv H Q)).length := by
        rw [hout, length_trace]; omega
      rw [List.getElem?_eq_getElem hidx] at h2 ⊢
      simp only at h2 ⊢
      have hmem := List.getElem_mem hidx
      generalize (tailOut steps final (trace adv H Q))[(trace q H n).length - Q] = l at h2 hmem
      rw [tailOut, List.mem_append, List.mem_map, List.mem_singleton] at hmem
      rcases hmem with ⟨z, -, rfl⟩ | rfl
      · rw [hy] at h2
        exact absurd h2 (hsep _ _ _ _)
      · rfl
  have hext : ext (firstKnown adv Q known final H (lastQuery adv Q steps final encZ encY key k0 H)) =
      ext (final (trace adv H Q)) := by
    by_cases hex : ∃ i < Q, asked adv H i = lastQuery adv Q steps final encZ encY key k0 H
    · obtain ⟨n, hn, he, hf⟩ := first_asked adv H Q _ hex
      rw [← he, firstKnown_of_asked adv Q known final H n hn hf]
      exact hknown _ _ _ he
    · rw [firstKnown_of_not adv Q known final H _ fun i hi h => hex ⟨i, hi, h⟩]
  refine ⟨fun x hx => hne x (by rw [hq]; exact List.mem_append_left _ hx), hext, ?_⟩
  rw [hq, List.foldl_append, foldl_tailNext key Good H L _ _ _ hin, List.foldl_cons, List.foldl_nil,
    List.nil_append, hlast] at hdm
  exact hdm.2

end Ripp.Oracle
