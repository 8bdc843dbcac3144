import Verif.Lemmas.Oracle

/-!
# Hash chains with labels that start from a fixed state

Here only a part of the digest (its key) enters the next query, the first query continues a fixed key, and
every query comes with a label: what the adversary knows about the values it hashes.
-/

set_option linter.unusedSectionVars false

namespace Ripp.Oracle

variable {X D κ Z St : Type} [DecidableEq κ]

section
variable (query : List D → X) (lab : List D → Z) (enc : Z → κ → X) (key : D → κ) (k0 : κ) (st0 : St)
  (next : St → Z → D → St)

open Classical in
/-- The key continued by a query. -/
noncomputable def prevKey (x : X) : Option κ :=
  if h : ∃ k z, enc z k = x then some h.choose else none

theorem prevKey_enc (hinj : ∀ z k z' k', enc z k = enc z' k' → k = k') (z : Z) (k : κ) :
    prevKey enc (enc z k) = some k := by
  have h : ∃ k' z', enc z' k' = enc z k := ⟨k, z, rfl⟩
  rw [prevKey, dif_pos h]
  obtain ⟨z', hz⟩ := h.choose_spec
  rw [hinj _ _ _ _ hz]

/-- The states known for the keys after `n` queries. -/
noncomputable def states (H : X → D) : ℕ → List (κ × St)
  | 0 => [(k0, st0)]
  | n + 1 =>
    match (prevKey enc (asked query H n)).bind fun k => (states H n).lookup k with
    | some st => states H n ++ [(key (H (asked query H n)), next st (lab (trace query H n))
        (H (asked query H n)))]
    | none => states H n

theorem states_congr {H H' : X → D} : ∀ n, trace query H n = trace query H' n →
    states query lab enc key k0 st0 next H n = states query lab enc key k0 st0 next H' n
  | 0, _ => rfl
  | n + 1, h => by
    rw [states, states, states_congr n (trace_congr query h n (by omega)),
      answer_congr query h n (by omega), asked_congr query h n (by omega),
      trace_congr query h n (by omega)]

theorem states_prefix (H : X → D) (n : ℕ) : ∀ m, n ≤ m →
    states query lab enc key k0 st0 next H n <+: states query lab enc key k0 st0 next H m := by
  intro m h
  induction m, h using Nat.le_induction with
  | base => exact List.prefix_rfl
  | succ m _ ih =>
    refine ih.trans ?_
    rw [states]
    split
    · exact List.prefix_append _ _
    · exact List.prefix_rfl

theorem mem_of_mem_states (H : X → D) : ∀ n, ∀ p ∈ states query lab enc key k0 st0 next H n,
    p.1 = k0 ∨ p.1 ∈ (trace query H n).map key
  | 0, p, hp => by simp [states] at hp; simp [hp]
  | n + 1, p, hp => by
    have ih := mem_of_mem_states H n
    have up : p ∈ states query lab enc key k0 st0 next H n →
        p.1 = k0 ∨ p.1 ∈ (trace query H (n + 1)).map key := by
      intro h
      rw [trace, List.map_append]
      exact (ih p h).imp id fun h => List.mem_append_left _ h
    rw [states] at hp
    split at hp
    · rcases List.mem_append.mp hp with hp | hp
      · exact up hp
      · right
        rw [List.mem_singleton.mp hp, trace]
        simp [asked]
    · exact up hp

variable [Fintype D]

open Classical in
/-- The answers to query `n` that would help: their key is the initial one, or that of an earlier answer, or
was already used in a query, or they leave a doomed state. -/
noncomputable def hits (doomed : St → Prop) (n : ℕ) (H : X → D) : Finset D :=
  (Finset.univ.filter fun d => key d ∈ k0 :: (trace query H n).map key) ∪
  (Finset.univ.filter fun d => key d ∈
    (List.range (n + 1)).filterMap fun i => prevKey enc (asked query H i)) ∪
  (match (prevKey enc (asked query H n)).bind fun k =>
      (states query lab enc key k0 st0 next H n).lookup k with
    | some st => if doomed st then
        Finset.univ.filter fun d => ¬ doomed (next st (lab (trace query H n)) d) else ∅
    | none => ∅)

theorem hits_congr (doomed : St → Prop) (n : ℕ) (H H' : X → D)
    (h : trace query H n = trace query H' n) :
    hits query lab enc key k0 st0 next doomed n H = hits query lab enc key k0 st0 next doomed n H' := by
  have e1 : ((List.range (n + 1)).filterMap fun i => prevKey enc (asked query H i)) =
      (List.range (n + 1)).filterMap fun i => prevKey enc (asked query H' i) := by
    apply List.filterMap_congr
    intro i hi
    rw [asked_congr query h i (by have := List.mem_range.mp hi; omega)]
  unfold hits
  rw [h, e1, asked_congr query h n le_rfl, states_congr query lab enc key k0 st0 next n h]

/-- A list of keys has at most `m` digests per entry. -/
theorem card_keys_le (m : ℕ)
    (hm : ∀ (k : κ) (S : Finset D), (∀ d ∈ S, key d = k) → S.card ≤ m) :
    ∀ l : List κ, (Finset.univ.filter fun d => key d ∈ l).card ≤ l.length * m := by
  classical
  intro l
  induction l with
  | nil => simp
  | cons a l ih =>
    have : (Finset.univ.filter fun d => key d ∈ a :: l) ⊆
        (Finset.univ.filter fun d => key d = a) ∪ Finset.univ.filter fun d => key d ∈ l := by
      intro d hd
      simp only [Finset.mem_filter, Finset.mem_univ, true_and, List.mem_cons, Finset.mem_union] at hd ⊢
      exact hd
    refine (Finset.card_le_card this).trans ((Finset.card_union_le _ _).trans ?_)
    have := hm a (Finset.univ.filter fun d => key d = a) fun d hd => (Finset.mem_filter.mp hd).2
    rw [List.length_cons, Nat.succ_mul]
    omega

theorem card_hits_le (doomed : St → Prop) (m c : ℕ)
    (hm : ∀ (k : κ) (S : Finset D), (∀ d ∈ S, key d = k) → S.card ≤ m)
    (hc : ∀ st z, doomed st → ∀ S : Finset D, (∀ d ∈ S, ¬ doomed (next st z d)) → S.card ≤ c)
    (n : ℕ) (H : X → D) :
    (hits query lab enc key k0 st0 next doomed n H).card ≤ c + (2 * n + 2) * m := by
  classical
  unfold hits
  refine (Finset.card_union_le _ _).trans ?_
  have h1 := card_keys_le key m hm (k0 :: (trace query H n).map key)
  have h2 := card_keys_le key m hm ((List.range (n + 1)).filterMap fun i => prevKey enc (asked query H i))
  have h2' : ((List.range (n + 1)).filterMap fun i => prevKey enc (asked query H i)).length ≤ n + 1 :=
    (List.length_filterMap_le _ _).trans (by simp)
  have h2'' := h2.trans (Nat.mul_le_mul_right m h2')
  simp only [List.length_cons, List.length_map, length_trace] at h1
  refine le_trans (Nat.add_le_add ((Finset.card_union_le _ _).trans (Nat.add_le_add h1 h2''))
    (?_ : _ ≤ c)) (by ring_nf; omega)
  split
  · split
    · rename_i hd
      exact hc _ _ hd _ fun d hd' => (Finset.mem_filter.mp hd').2
    · simp
  · simp

omit [Fintype D] [DecidableEq κ] in
open Classical in
/-- The label given when `x` was first asked. -/
noncomputable def firstLabel (H : X → D) (N : ℕ) (x : X) : Z :=
  if h : ∃ n < N, asked query H n = x then lab (trace query H (Nat.find h)) else lab []

omit [Fintype D] [DecidableEq κ] in
theorem firstLabel_eq (H : X → D) (N : ℕ) (x : X) (h : ∃ i < N, asked query H i = x) :
    ∃ n < N, asked query H n = x ∧ Fresh query H n ∧
      firstLabel query lab H N x = lab (trace query H n) := by
  classical
  obtain ⟨h1, h2⟩ := Nat.find_spec h
  refine ⟨Nat.find h, h1, h2, fun i hi he => Nat.find_min h hi ⟨hi.trans h1, he.trans h2⟩, ?_⟩
  rw [firstLabel, dif_pos h]

/-- The state at the end of the chain with links `zs` that continues key `k` in state `st`; the labels are
those of `L`. -/
def follow (L : X → Z) (H : X → D) : St → κ → List Z → St
  | st, _, [] => st
  | st, k, z :: zs => follow L H (next st (L (enc z k)) (H (enc z k))) (key (H (enc z k))) zs

/-- The queries of that chain. -/
def queries (H : X → D) : κ → List Z → List X
  | _, [] => []
  | k, z :: zs => enc z k :: queries H (key (H (enc z k))) zs

omit [Fintype D] [DecidableEq κ] in
theorem follow_eq (L : X → Z) (H : X → D) : ∀ (zs : List Z) (st : St) (k : κ),
    follow enc key next L H st k zs =
      (queries enc key H k zs).foldl (fun st x => next st (L x) (H x)) st
  | [], _, _ => rfl
  | z :: zs, st, k => by rw [follow, queries, List.foldl_cons, follow_eq L H zs]

/-- Without a hit, a chain that starts doomed stays doomed, and no key is the initial one. -/
theorem doomed_follow (doomed : St → Prop)
    (hinj : ∀ z k z' k', enc z k = enc z' k' → k = k') (N : ℕ) (H : X → D)
    (hgood : ∀ n < N, Fresh query H n →
      H (asked query H n) ∉ hits query lab enc key k0 st0 next doomed n H) :
    ∀ (zs : List Z) (st : St) (k : κ), doomed st →
      (∃ n ≤ N, (states query lab enc key k0 st0 next H n).lookup k = some st ∧
        ∀ m < n, prevKey enc (asked query H m) = some k → k = k0) →
      (k = k0 → (states query lab enc key k0 st0 next H 0).lookup k = some st) →
      (∀ x ∈ queries enc key H k zs, ∃ i < N, asked query H i = x) →
      doomed (follow enc key next (firstLabel query lab H N) H st k zs) ∧
        ∀ x ∈ queries enc key H k zs, key (H x) ≠ k0
  | [], st, k, hd, _, _, _ => ⟨hd, by simp [queries]⟩
  | z :: zs, st, k, hd, ⟨n, hn, ht, hfirst⟩, hk0, hl => by
    classical
    obtain ⟨m, hm, hma, hmf, hml⟩ := firstLabel_eq query lab H N (enc z k) (hl _ (by simp [queries]))
    have hprev : prevKey enc (asked query H m) = some k := by rw [hma, prevKey_enc enc hinj]
    have hlook : (states query lab enc key k0 st0 next H m).lookup k = some st := by
      by_cases hnm : n ≤ m
      · exact lookup_prefix (states_prefix query lab enc key k0 st0 next H n m hnm) ht
      · exact lookup_prefix (states_prefix query lab enc key k0 st0 next H 0 m (by omega))
          (hk0 (hfirst m (by omega) hprev))
    have hg := hgood m hm hmf
    have hne : key (H (asked query H m)) ∉ k0 :: (trace query H m).map key := by
      intro h
      refine hg (Finset.mem_union_left _ (Finset.mem_union_left _ ?_))
      exact Finset.mem_filter.mpr ⟨Finset.mem_univ _, h⟩
    have hused : ∀ i ≤ m, prevKey enc (asked query H i) ≠ some (key (H (asked query H m))) := by
      intro i hi h
      refine hg (Finset.mem_union_left _ (Finset.mem_union_right _ ?_))
      exact Finset.mem_filter.mpr ⟨Finset.mem_univ _,
        List.mem_filterMap.mpr ⟨i, List.mem_range.mpr (by omega), h⟩⟩
    have hd' : doomed (next st (lab (trace query H m)) (H (asked query H m))) := by
      by_contra hcon
      refine hg (Finset.mem_union_right _ ?_)
      simp only [hprev, Option.bind_some, hlook, hd, if_true]
      exact Finset.mem_filter.mpr ⟨Finset.mem_univ _, hcon⟩
    have hnew : ∀ p ∈ states query lab enc key k0 st0 next H m, p.1 ≠ key (H (asked query H m)) := by
      intro p hp he
      rcases mem_of_mem_states query lab enc key k0 st0 next H m p hp with h | h
      · exact hne (by rw [← he, h]; simp)
      · exact hne (by rw [← he]; exact List.mem_cons_of_mem _ h)
    have ih := doomed_follow doomed hinj N H hgood zs _ (key (H (asked query H m))) hd'
      ⟨m + 1, hm, by
        rw [states, hprev]
        simp only [Option.bind_some, hlook]
        exact lookup_new _ _ _ hnew, fun i hi h => absurd h (hused i (by omega))⟩
      (fun h => absurd h fun h => hne (by rw [h]; simp))
      (fun x hx => hl x (by rw [hma] at hx; simp [queries, hx]))
    rw [hma] at ih hne
    rw [follow, hml]
    refine ⟨ih.1, fun x hx => ?_⟩
    rw [queries, List.mem_cons] at hx
    rcases hx with rfl | hx
    · exact fun h => hne (by rw [h]; simp)
    · exact ih.2 x hx

variable [DecidableEq X] [DecidableEq D]

open Classical in
/-- For at most `(N c + N (N + 1) m) / |D|` of all oracles there is a chain among the first `N` queries that
leaves the doomed initial state or returns to the initial key. -/
theorem count_follow [Fintype X] (doomed : St → Prop)
    (hinj : ∀ z k z' k', enc z k = enc z' k' → k = k') (m c : ℕ)
    (hm : ∀ (k : κ) (S : Finset D), (∀ d ∈ S, key d = k) → S.card ≤ m)
    (hc : ∀ st z, doomed st → ∀ S : Finset D, (∀ d ∈ S, ¬ doomed (next st z d)) → S.card ≤ c)
    (hst : doomed st0) (N : ℕ) :
    (Finset.univ.filter fun H : X → D => ∃ zs : List Z,
      (∀ x ∈ queries enc key H k0 zs, ∃ i < N, asked query H i = x) ∧
      ¬ (doomed (follow enc key next (firstLabel query lab H N) H st0 k0 zs) ∧
        ∀ x ∈ queries enc key H k0 zs, key (H x) ≠ k0)).card * Fintype.card D ≤
    (N * c + N * (N + 1) * m) * Fintype.card (X → D) := by
  have key' := count_any query N (fun n => c + (2 * n + 2) * m)
    (hits query lab enc key k0 st0 next doomed)
    (fun n H H' h => hits_congr query lab enc key k0 st0 next doomed n H H' h)
    (fun n H => card_hits_le query lab enc key k0 st0 next doomed m c hm hc n H)
  have hsum : ∀ N, ∑ n ∈ Finset.range N, (c + (2 * n + 2) * m) = N * c + N * (N + 1) * m := by
    intro N
    induction N with
    | zero => simp
    | succ N ih => rw [Finset.sum_range_succ, ih]; ring
  rw [hsum] at key'
  refine le_trans (Nat.mul_le_mul_right _ (Finset.card_le_card ?_)) key'
  intro H hH
  obtain ⟨-, zs, h1, h2⟩ := Finset.mem_filter.mp hH
  refine Finset.mem_filter.mpr ⟨Finset.mem_univ _, ?_⟩
  by_contra hcon
  push Not at hcon
  have hl : (states query lab enc key k0 st0 next H 0).lookup k0 = some st0 := by
    simp [states]
  exact h2 (doomed_follow query lab enc key k0 st0 next doomed hinj N H hcon zs st0 k0 hst
    ⟨0, by omega, hl, by simp⟩ (fun _ => hl) h1)

end

/-! ## An adversary followed by the verifier -/

section
variable (adv : List D → X) (Q : ℕ) (out : List D → List Z) (enc : Z → κ → X) (key : D → κ) (k0 : κ)
  (lab : List D → Z)

/-- The key that query number `Q + j` of the verifier continues. -/
def lastKey (ds : List D) : κ :=
  if ds.length = Q then k0 else (ds.getLast?.map key).getD k0

/-- The queries of an adversary that asks `Q` queries and outputs the links of a chain, followed by the
queries of a verifier that recomputes the chain. -/
def withCheck (ds : List D) : X :=
  if ds.length < Q then adv ds
  else
    match (out (ds.take Q))[ds.length - Q]? with
    | some z => enc z (lastKey Q key k0 ds)
    | none => adv ds

/-- The labels of these queries. -/
def withLabels (ds : List D) : Z :=
  if ds.length < Q then lab ds
  else
    match (out (ds.take Q))[ds.length - Q]? with
    | some z => z
    | none => lab ds

omit [DecidableEq κ] in
theorem trace_withCheck (H : X → D) : ∀ n ≤ Q,
    trace (withCheck adv Q out enc key k0) H n = trace adv H n
  | 0, _ => rfl
  | n + 1, h => by
    rw [trace, trace, trace_withCheck H n (by omega), withCheck, if_pos (by simp; omega)]

omit [DecidableEq κ] in
/-- The links of the output chain are the queries after the first `Q`. -/
theorem queries_asked (H : X → D) : ∀ (zs : List Z) (j : ℕ), (out (trace adv H Q)).drop j = zs →
    ∀ x ∈ queries enc key H (lastKey Q key k0 (trace (withCheck adv Q out enc key k0) H (Q + j))) zs,
      ∃ i < Q + (j + zs.length), asked (withCheck adv Q out enc key k0) H i = x
  | [], j, _, x, hx => by simp [queries] at hx
  | z :: zs, j, h, x, hx => by
    have hz : (out (trace adv H Q))[j]? = some z := by
      have := congrArg (·[0]?) h
      simpa using this
    have ha : asked (withCheck adv Q out enc key k0) H (Q + j) =
        enc z (lastKey Q key k0 (trace (withCheck adv Q out enc key k0) H (Q + j))) := by
      conv_lhs => rw [asked, withCheck]
      rw [if_neg (by simp), trace_take _ _ _ _ (by omega), trace_withCheck adv Q out enc key k0 H Q le_rfl]
      simp only [length_trace, Nat.add_sub_cancel_left, hz]
    rw [queries, List.mem_cons] at hx
    rcases hx with rfl | hx
    · exact ⟨Q + j, by simp, ha⟩
    · have hd : (out (trace adv H Q)).drop (j + 1) = zs := by
        rw [← List.drop_drop, h]; rfl
      have hlast : lastKey Q key k0 (trace (withCheck adv Q out enc key k0) H (Q + (j + 1))) =
          key (H (enc z (lastKey Q key k0 (trace (withCheck adv Q out enc key k0) H (Q + j))))) := by
        rw [← ha]
        conv_lhs => rw [lastKey, if_neg (by simp), ← Nat.add_assoc, trace]
        simp [asked]
      obtain ⟨i, hi, hx⟩ := queries_asked H zs (j + 1) hd x (by rw [hlast]; exact hx)
      exact ⟨i, by simp at hi ⊢; omega, hx⟩

omit [DecidableEq κ] in
/-- If the adversary's labels are related to its queries, so are those of the verifier's. -/
theorem label_rel (rel : Z → Z → Prop) (z : Z) (k : κ) (hlab : ∀ ds, adv ds = enc z k → rel (lab ds) z)
    (hout : ∀ ds, ∀ z' ∈ out ds, ∀ k', enc z' k' = enc z k → rel z' z) (H : X → D) (N : ℕ)
    (h : ∃ i < N, asked (withCheck adv Q out enc key k0) H i = enc z k) :
    rel (firstLabel (withCheck adv Q out enc key k0) (withLabels Q out lab) H N (enc z k)) z := by
  obtain ⟨n, -, ha, -, he⟩ := firstLabel_eq (withCheck adv Q out enc key k0) (withLabels Q out lab) H N _ h
  rw [he]
  rw [asked, withCheck] at ha
  rw [withLabels]
  split at ha
  · rename_i hl
    rw [if_pos hl]
    exact hlab _ ha
  · rename_i hl
    rw [if_neg hl]
    cases hz : (out ((trace (withCheck adv Q out enc key k0) H n).take Q))[
        (trace (withCheck adv Q out enc key k0) H n).length - Q]? with
    | some z' =>
      rw [hz] at ha
      exact hout _ z' (List.mem_of_getElem? hz) _ ha
    | none =>
      rw [hz] at ha
      exact hlab _ ha

omit [DecidableEq κ] in
theorem output_asked (H : X → D) (K : ℕ) (hK : ∀ ds, (out ds).length ≤ K) :
    ∀ x ∈ queries enc key H k0 (out (trace adv H Q)),
      ∃ i < Q + K, asked (withCheck adv Q out enc key k0) H i = x := by
  intro x hx
  have h0 : lastKey Q key k0 (trace (withCheck adv Q out enc key k0) H (Q + 0)) = k0 := by
    rw [lastKey, if_pos (by simp)]
  obtain ⟨i, hi, h⟩ := queries_asked adv Q out enc key k0 H _ 0 rfl x (by rw [h0]; simpa using hx)
  exact ⟨i, by have := hK (trace adv H Q); simp at hi; omega, h⟩

omit [DecidableEq κ] in
theorem length_queries (H : X → D) : ∀ (zs : List Z) (k : κ), (queries enc key H k zs).length = zs.length
  | [], _ => rfl
  | z :: zs, k => by rw [queries, List.length_cons, length_queries H zs, List.length_cons]

omit [DecidableEq κ] in
theorem map_queries {Y : Type} (f : Z → Y) (L : X → Z) (p : X → Prop) (H : X → D) :
    ∀ (zs : List Z) (k : κ), (∀ z ∈ zs, ∀ k, p (enc z k) → f (L (enc z k)) = f z) →
      (∀ x ∈ queries enc key H k zs, p x) →
      (queries enc key H k zs).map (fun x => f (L x)) = zs.map f
  | [], _, _, _ => rfl
  | z :: zs, k, h, hp => by
    rw [queries, List.map_cons, List.map_cons, h z (by simp) k (hp _ (by simp [queries])),
      map_queries f L p H zs _ (fun z hz => h z (by simp [hz])) fun x hx => hp x (by simp [queries, hx])]

variable [DecidableEq X] [DecidableEq D] [Fintype D] [Fintype X]

/-- An adversary with `Q` queries whose chain has at most `K` links leaves the doomed initial state, or returns
to the initial key, for at most `((Q + K) c + (Q + K) (Q + K + 1) m) / |D|` of all oracles. -/
theorem count_static (st0 : St) (next : St → Z → D → St) (doomed : St → Prop)
    (hinj : ∀ z k z' k', enc z k = enc z' k' → k = k') (m c : ℕ)
    (hm : ∀ (k : κ) (S : Finset D), (∀ d ∈ S, key d = k) → S.card ≤ m)
    (hc : ∀ st z, doomed st → ∀ S : Finset D, (∀ d ∈ S, ¬ doomed (next st z d)) → S.card ≤ c)
    (hst : doomed st0) (K : ℕ) (hK : ∀ ds, (out ds).length ≤ K) (W : Finset (X → D))
    (hW : ∀ H ∈ W, ¬ (doomed (follow enc key next (firstLabel (withCheck adv Q out enc key k0)
          (withLabels Q out lab) H (Q + K)) H st0 k0 (out (trace adv H Q))) ∧
        ∀ x ∈ queries enc key H k0 (out (trace adv H Q)), key (H x) ≠ k0)) :
    W.card * Fintype.card D ≤
    ((Q + K) * c + (Q + K) * (Q + K + 1) * m) * Fintype.card (X → D) := by
  classical
  refine le_trans (Nat.mul_le_mul_right _ (Finset.card_le_card ?_))
    (count_follow (withCheck adv Q out enc key k0) (withLabels Q out lab) enc key k0 st0 next doomed hinj m c
      hm hc hst (Q + K))
  intro H hH
  exact Finset.mem_filter.mpr ⟨Finset.mem_univ _, _, output_asked adv Q out enc key k0 H K hK, hW H hH⟩

end

end Ripp.Oracle
