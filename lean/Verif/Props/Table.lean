import Verif.Model.Table
import Verif.Props.Display
import Mathlib.Data.List.Nodup

/-!
# C152: the tables the benches print
-/

namespace Ripp.Table

/-- A field that is written as it is: without commas, quotation marks and line ends. -/
def Plain (s : String) : Prop := ∀ c ∈ s.toList, c ≠ ',' ∧ c ≠ '"' ∧ c ≠ '\n' ∧ c ≠ '\r'

theorem plain_nat (n : ℕ) : Plain (toString n) := by
  intro c hc
  have hc : c ∈ Nat.toDigits 10 n := by
    rw [← Nat.toList_repr]
    exact hc
  have := Nat.isDigit_of_mem_toDigits (by norm_num) (by norm_num) hc
  refine ⟨?_, ?_, ?_, ?_⟩ <;> rintro rfl <;> revert this <;> decide

theorem toString_inj {m n : ℕ} (h : toString m = toString n) : m = n := by
  have h : m.repr = n.repr := h
  have := congrArg String.toList h
  rw [Nat.toList_repr, Nat.toList_repr] at this
  exact toDigits_inj this

theorem writeAll_same (w : ℕ) : ∀ rs : List (List String), (∀ r ∈ rs, r.length = w) → writeAll (some w) rs = .ok (some w)
  | [], _ => rfl
  | r :: rs, h => by
    have hr : r.length = w := h r (by simp)
    rw [writeAll, writeRecord, hr, if_pos (.inr rfl)]
    exact writeAll_same w rs fun x hx => h x (by simp [hx])

theorem mem_polyScheme (time : String → String → ℕ → ℕ → ℕ) (n d : ℕ) (s : String) (r : List String)
    (h : r ∈ polyScheme time n d s) : ∃ t f u, (f = "setup" ∨ f = "commit" ∨ f = "open" ∨ f = "verify") ∧ 1 ≤ t ∧
      r = [toString (t : ℕ), s, f, toString d, toString (u : ℕ)] := by
  simp only [polyScheme, List.mem_cons, List.mem_flatMap, List.mem_range, List.not_mem_nil, or_false] at h
  rcases h with rfl | ⟨j, -, rfl | rfl | rfl⟩
  · exact ⟨1, _, _, .inl rfl, le_rfl, rfl⟩
  · exact ⟨j + 1, _, _, .inr (.inl rfl), by omega, rfl⟩
  · exact ⟨j + 1, _, _, .inr (.inr (.inl rfl)), by omega, rfl⟩
  · exact ⟨j + 1, _, _, .inr (.inr (.inr rfl)), by omega, rfl⟩

theorem mem_polyTable (time : String → String → ℕ → ℕ → ℕ) (n m : ℕ) (r : List String)
    (h : r ∈ (polyTable time n m).tail) : ∃ t s f i u, (s = "kzg" ∨ s = "ipa" ∨ s = "transparent_ipa") ∧
      (f = "setup" ∨ f = "commit" ∨ f = "open" ∨ f = "verify") ∧ i < m ∧
      r = [toString (t : ℕ), s, f, toString (4 ^ (i + 1) - 1), toString (u : ℕ)] := by
  simp only [polyTable, List.tail_cons, List.mem_flatMap, List.mem_map, List.mem_range, List.mem_append] at h
  obtain ⟨_, ⟨i, hi, rfl⟩, (h | h) | h⟩ := h
  · obtain ⟨t, f, u, hf, -, rfl⟩ := mem_polyScheme _ _ _ _ _ h
    exact ⟨t, _, f, i, u, .inl rfl, hf, hi, rfl⟩
  · obtain ⟨t, f, u, hf, -, rfl⟩ := mem_polyScheme _ _ _ _ _ h
    exact ⟨t, _, f, i, u, .inr (.inl rfl), hf, hi, rfl⟩
  · obtain ⟨t, f, u, hf, -, rfl⟩ := mem_polyScheme _ _ _ _ _ h
    exact ⟨t, _, f, i, u, .inr (.inr rfl), hf, hi, rfl⟩

theorem mem_aggScheme (time : String → String → ℕ → ℕ) (n p : ℕ) (s : String) (r : List String)
    (h : r ∈ aggScheme time n p s) : ∃ t f u, (f = "setup" ∨ f = "aggregate" ∨ f = "verify") ∧
      r = [toString (t : ℕ), toString p, s, f, toString (u : ℕ)] := by
  simp only [aggScheme, List.mem_cons, List.mem_flatMap, List.mem_range, List.not_mem_nil, or_false] at h
  rcases h with rfl | ⟨j, -, rfl | rfl⟩
  · exact ⟨1, _, _, .inl rfl, rfl⟩
  · exact ⟨j + 1, _, _, .inr (.inl rfl), rfl⟩
  · exact ⟨j + 1, _, _, .inr (.inr rfl), rfl⟩

theorem mem_aggTable (time : String → String → ℕ → ℕ) (n p : ℕ) (a b c : Bool) (r : List String)
    (h : r ∈ (aggTable time n p a b c).tail) : ∃ t s f u,
      (s = "single_circuit" ∨ s = "ipa" ∨ s = "olr" ∨ s = "complete_circuit") ∧
      (f = "setup" ∨ f = "prove" ∨ f = "aggregate" ∨ f = "verify") ∧
      r = [toString (t : ℕ), toString p, s, f, toString (u : ℕ)] := by
  simp only [aggTable, List.tail_cons, List.mem_append, List.mem_singleton] at h
  rcases h with (((h | rfl) | h) | h) | h
  · split at h
    · simp only [List.mem_cons, List.not_mem_nil, or_false] at h
      rcases h with rfl | rfl
      · exact ⟨1, _, _, _, .inl rfl, .inl rfl, rfl⟩
      · exact ⟨1, _, _, _, .inl rfl, .inr (.inl rfl), rfl⟩
    · simp at h
  · exact ⟨1, _, _, _, .inl rfl, .inr (.inr (.inr rfl)), rfl⟩
  · obtain ⟨t, f, u, hf, rfl⟩ := mem_aggScheme _ _ _ _ _ h
    exact ⟨t, _, f, u, .inr (.inl rfl), by tauto, rfl⟩
  · split at h
    · obtain ⟨t, f, u, hf, rfl⟩ := mem_aggScheme _ _ _ _ _ h
      exact ⟨t, _, f, u, .inr (.inr (.inl rfl)), by tauto, rfl⟩
    · simp at h
  · split at h
    · simp only [List.mem_cons, List.not_mem_nil, or_false] at h
      rcases h with rfl | rfl | rfl
      · exact ⟨1, _, _, _, .inr (.inr (.inr rfl)), .inl rfl, rfl⟩
      · exact ⟨1, _, _, _, .inr (.inr (.inr rfl)), .inr (.inl rfl), rfl⟩
      · exact ⟨1, _, _, _, .inr (.inr (.inr rfl)), .inr (.inr (.inr rfl)), rfl⟩
    · simp at h

/-- C152: no record has another number of fields than the header, so writing never fails. -/
theorem C152_writes (time : String → String → ℕ → ℕ → ℕ) (time' : String → String → ℕ → ℕ) (n m p : ℕ) (a b c : Bool) :
    writeAll none (polyTable time n m) = .ok (some 5) ∧ writeAll none (aggTable time' n p a b c) = .ok (some 5) := by
  constructor
  · refine (writeAll_same 5 (polyTable time n m).tail fun r hr => ?_)
    obtain ⟨t, s, f, i, u, -, -, -, rfl⟩ := mem_polyTable _ _ _ _ hr
    rfl
  · refine (writeAll_same 5 (aggTable time' n p a b c).tail fun r hr => ?_)
    obtain ⟨t, s, f, u, -, -, rfl⟩ := mem_aggTable _ _ _ _ _ _ _ hr
    rfl

/-- C152: records of different lengths would panic. -/
theorem C152_unequal (r r' : List String) (rs : List (List String)) (h : r.length ≠ r'.length) :
    writeAll none (r :: r' :: rs) = panic' .unwrap := by
  have h' : ¬ ((some r.length : Option ℕ) = none ∨ some r.length = some r'.length) := by simpa using h
  rw [writeAll, writeRecord, if_pos (.inl rfl)]
  simp only [ok_bind]
  rw [writeAll, writeRecord, if_neg h']
  rfl

theorem length_flatMap_range (k : ℕ) (f : ℕ → List (List String)) (hf : ∀ j, (f j).length = k) (n : ℕ) :
    ((List.range n).flatMap f).length = n * k := by
  simp [List.length_flatMap, hf]

/-- C152: the number of records. -/
theorem C152_count (time : String → String → ℕ → ℕ → ℕ) (time' : String → String → ℕ → ℕ) (n m p : ℕ) (a b c : Bool) :
    (polyTable time n m).length = 1 + m * (3 * (1 + 3 * n)) ∧
    (aggTable time' n p a b c).length = 3 + 2 * n + (if a then 1 + 2 * n else 0) + (if b then 2 else 0) +
      (if c then 3 else 0) := by
  have h1 : ∀ d s, (polyScheme time n d s).length = 1 + 3 * n := by
    intro d s
    rw [polyScheme, List.length_cons, length_flatMap_range 3 _ (fun _ => rfl)]
    ring
  have h2 : ∀ s, (aggScheme time' n p s).length = 1 + 2 * n := by
    intro s
    rw [aggScheme, List.length_cons, length_flatMap_range 2 _ (fun _ => rfl)]
    ring
  constructor
  · rw [polyTable, List.length_cons, List.flatMap_map, length_flatMap_range (3 * (1 + 3 * n))]
    · ring
    · intro j
      simp only [List.length_append, h1]
      ring
  · rw [aggTable]
    cases a <;> cases b <;> cases c <;> simp [h2] <;> ring

/-- C152: no field needs quotation marks. -/
theorem C152_plain (time : String → String → ℕ → ℕ → ℕ) (time' : String → String → ℕ → ℕ) (n m p : ℕ) (a b c : Bool) :
    (∀ r ∈ polyTable time n m, ∀ s ∈ r, Plain s) ∧ ∀ r ∈ aggTable time' n p a b c, ∀ s ∈ r, Plain s := by
  constructor
  · intro r hr
    rcases List.mem_cons.mp (show r ∈ _ :: (polyTable time n m).tail from hr) with rfl | hr
    · simp only [List.mem_cons, List.not_mem_nil, or_false]
      rintro s (rfl | rfl | rfl | rfl | rfl) <;> unfold Plain <;> decide
    · obtain ⟨t, s, f, i, u, hs, hf, -, rfl⟩ := mem_polyTable _ _ _ _ hr
      simp only [List.mem_cons, List.not_mem_nil, or_false]
      rintro x (rfl | rfl | rfl | rfl | rfl)
      · exact plain_nat _
      · rcases hs with rfl | rfl | rfl <;> unfold Plain <;> decide
      · rcases hf with rfl | rfl | rfl | rfl <;> unfold Plain <;> decide
      · exact plain_nat _
      · exact plain_nat _
  · intro r hr
    rcases List.mem_cons.mp (show r ∈ _ :: (aggTable time' n p a b c).tail from hr) with rfl | hr
    · simp only [List.mem_cons, List.not_mem_nil, or_false]
      rintro s (rfl | rfl | rfl | rfl | rfl) <;> unfold Plain <;> decide
    · obtain ⟨t, s, f, u, hs, hf, rfl⟩ := mem_aggTable _ _ _ _ _ _ _ hr
      simp only [List.mem_cons, List.not_mem_nil, or_false]
      rintro x (rfl | rfl | rfl | rfl | rfl)
      · exact plain_nat _
      · exact plain_nat _
      · rcases hs with rfl | rfl | rfl | rfl <;> unfold Plain <;> decide
      · rcases hf with rfl | rfl | rfl | rfl <;> unfold Plain <;> decide
      · exact plain_nat _

/-! ## The text determines the table -/

theorem fields_inj : ∀ a b : List (List Char), a ≠ [] → b ≠ [] → (∀ x ∈ a, ',' ∉ x) → (∀ x ∈ b, ',' ∉ x) →
    [','].intercalate a = [','].intercalate b → a = b
  | [], _, h, _, _, _, _ => absurd rfl h
  | _ :: _, [], _, h, _, _, _ => absurd rfl h
  | [x], [y], _, _, _, _, h => by simpa using h
  | [x], y :: y' :: ys, _, _, hx, _, h => by
    rw [List.intercalate_cons_cons] at h
    have : ',' ∈ x := by
      have h : x = y ++ [','] ++ [','].intercalate (y' :: ys) := by simpa using h
      rw [h]; simp
    exact absurd this (hx x (by simp))
  | x :: x' :: xs, [y], _, _, _, hy, h => by
    rw [List.intercalate_cons_cons] at h
    have : ',' ∈ y := by
      have h : x ++ [','] ++ [','].intercalate (x' :: xs) = y := by simpa using h
      rw [← h]; simp
    exact absurd this (hy y (by simp))
  | x :: x' :: xs, y :: y' :: ys, _, _, hx, hy, h => by
    rw [List.intercalate_cons_cons, List.intercalate_cons_cons, List.append_assoc, List.append_assoc] at h
    obtain ⟨e1, e2⟩ := append_sep_inj ',' _ _ _ _ (hx x (by simp)) (hy y (by simp)) h
    rw [e1, fields_inj (x' :: xs) (y' :: ys) (by simp) (by simp) (fun z hz => hx z (by simp [hz]))
      (fun z hz => hy z (by simp [hz])) e2]

theorem newline_notMem : ∀ a : List (List Char), (∀ x ∈ a, '\n' ∉ x) → '\n' ∉ [','].intercalate a
  | [], _ => by simp
  | [x], h => by simpa using h
  | x :: x' :: xs, h => by
    rw [List.intercalate_cons_cons]
    simp only [List.mem_append, not_or]
    exact ⟨⟨h x (by simp), by decide⟩, newline_notMem (x' :: xs) fun z hz => h z (by simp [hz])⟩

/-- C152: two tables with plain fields that give the same text are equal. -/
theorem C152_text : ∀ t t' : List (List String), (∀ r ∈ t, r ≠ [] ∧ ∀ s ∈ r, Plain s) →
    (∀ r ∈ t', r ≠ [] ∧ ∀ s ∈ r, Plain s) →
    t.flatMap (fun r => (line r).toList) = t'.flatMap (fun r => (line r).toList) → t = t' := by
  have hl : ∀ r, (line r).toList = [','].intercalate (r.map String.toList) ++ ['\n'] := by
    intro r
    rw [line, String.toList_append, String.toList_intercalate]
    rfl
  have hn : ∀ r : List String, (∀ s ∈ r, Plain s) → '\n' ∉ [','].intercalate (r.map String.toList) := by
    intro r h
    refine newline_notMem _ fun x hx hc => ?_
    obtain ⟨s, hs, rfl⟩ := List.mem_map.mp hx
    exact (h s hs _ hc).2.2.1 rfl
  have hc : ∀ r : List String, (∀ s ∈ r, Plain s) → ∀ x ∈ r.map String.toList, ',' ∉ x := by
    intro r h x hx hc
    obtain ⟨s, hs, rfl⟩ := List.mem_map.mp hx
    exact (h s hs _ hc).1 rfl
  intro t
  induction t with
  | nil =>
    intro t' _ _ h
    cases t' with
    | nil => rfl
    | cons r t' => simp [hl] at h
  | cons r t ih =>
    intro t' h1 h2 h
    cases t' with
    | nil => simp [hl] at h
    | cons r' t' =>
      rw [List.flatMap_cons, List.flatMap_cons, hl, hl, List.append_assoc, List.append_assoc] at h
      obtain ⟨p1, p2⟩ := h1 r (by simp)
      obtain ⟨q1, q2⟩ := h2 r' (by simp)
      obtain ⟨e1, e2⟩ := append_sep_inj '\n' _ _ _ _ (hn r p2) (hn r' q2) h
      have e3 := fields_inj _ _ (by simpa using p1) (by simpa using q1) (hc r p2) (hc r' q2) e1
      rw [(List.map_injective_iff.mpr fun a b h => String.toList_inj.mp h) e3,
        ih t' (fun x hx => h1 x (by simp [hx])) (fun x hx => h2 x (by simp [hx])) e2]

/-! ## Every measurement has its own row -/

theorem nodup_polyScheme (time : String → String → ℕ → ℕ → ℕ) (n d : ℕ) (s : String) :
    ((polyScheme time n d s).map (List.take 4)).Nodup := by
  rw [polyScheme, List.map_cons, List.nodup_cons, List.map_flatMap]
  constructor
  · simp [polyRecord, List.mem_flatMap]
  · rw [List.nodup_flatMap]
    constructor
    · intro j _
      simp [polyRecord]
    · refine (List.nodup_range (n := n)).imp ?_
      intro j j' hne x hx hx'
      simp only [List.map_cons, List.map_nil, polyRecord, List.take_succ_cons, List.take_zero, List.mem_cons,
        List.not_mem_nil, or_false] at hx hx'
      have e1 : x.head? = some (toString (j + 1)) := by rcases hx with rfl | rfl | rfl <;> rfl
      have e2 : x.head? = some (toString (j' + 1)) := by rcases hx' with rfl | rfl | rfl <;> rfl
      exact hne (by have := toString_inj (Option.some.inj (e1.symm.trans e2)); omega)

/-- C152: trial, scheme, function and degree identify a row of the polynomial commitment bench. -/
theorem C152_poly_rows (time : String → String → ℕ → ℕ → ℕ) (n m : ℕ) :
    ((polyTable time n m).tail.map (List.take 4)).Nodup := by
  rw [polyTable, List.tail_cons, List.flatMap_map, List.map_flatMap, List.nodup_flatMap]
  have key : ∀ (d : ℕ) (s : String) (x : List String), x ∈ (polyScheme time n d s).map (List.take 4) →
      x[1]? = some s ∧ x[3]? = some (toString d) := by
    intro d s x hx
    obtain ⟨r, hr, rfl⟩ := List.mem_map.mp hx
    obtain ⟨t, f, u, -, -, rfl⟩ := mem_polyScheme _ _ _ _ _ hr
    exact ⟨rfl, rfl⟩
  constructor
  · intro i _
    simp only [List.map_append]
    refine List.Nodup.append (List.Nodup.append (nodup_polyScheme _ _ _ _) (nodup_polyScheme _ _ _ _) ?_)
      (nodup_polyScheme _ _ _ _) ?_
    · intro x h1 h2
      have := (key _ _ _ h1).1.symm.trans (key _ _ _ h2).1
      revert this; decide
    · intro x h1 h2
      rcases List.mem_append.mp h1 with h1 | h1
      · have := (key _ _ _ h1).1.symm.trans (key _ _ _ h2).1
        revert this; decide
      · have := (key _ _ _ h1).1.symm.trans (key _ _ _ h2).1
        revert this; decide
  · refine (List.nodup_range (n := m)).imp ?_
    intro i j hne x hx hx'
    have deg : ∀ k, x ∈ ((polyScheme time n (4 ^ (k + 1) - 1) "kzg" ++ polyScheme time n (4 ^ (k + 1) - 1) "ipa" ++
        polyScheme time n (4 ^ (k + 1) - 1) "transparent_ipa").map (List.take 4)) →
        x[3]? = some (toString (4 ^ (k + 1) - 1)) := by
      intro k hk
      simp only [List.map_append, List.mem_append] at hk
      rcases hk with (hk | hk) | hk <;> exact (key _ _ _ hk).2
    have := toString_inj (Option.some.inj ((deg i hx).symm.trans (deg j hx')))
    have h1 := Nat.one_le_pow (i + 1) 4 (by norm_num)
    have h2 := Nat.one_le_pow (j + 1) 4 (by norm_num)
    have h3 : 4 ^ (i + 1) = 4 ^ (j + 1) := by omega
    have := Nat.pow_right_injective (le_refl 2 |>.trans (by norm_num : 2 ≤ 4)) h3
    omega

/-- C152: number of trial, scheme and function identify a row of the aggregation bench. -/
theorem C152_agg_rows (time : String → String → ℕ → ℕ) (n p : ℕ) (b a c : Bool) :
    ((aggTable time n p b a c).tail.map (List.take 4)).Nodup := by
  have key : ∀ (s : String) (x : List String), x ∈ (aggScheme time n p s).map (List.take 4) → x[2]? = some s := by
    intro s x hx
    obtain ⟨r, hr, rfl⟩ := List.mem_map.mp hx
    obtain ⟨t, f, u, -, rfl⟩ := mem_aggScheme _ _ _ _ _ hr
    rfl
  have one : ∀ s, ((aggScheme time n p s).map (List.take 4)).Nodup := by
    intro s
    rw [aggScheme, List.map_cons, List.nodup_cons, List.map_flatMap]
    constructor
    · simp [aggRecord, List.mem_flatMap]
    · rw [List.nodup_flatMap]
      constructor
      · intro j _
        simp [aggRecord]
      · refine (List.nodup_range (n := n)).imp ?_
        intro j j' hne x hx hx'
        simp only [List.map_cons, List.map_nil, aggRecord, List.take_succ_cons, List.take_zero, List.mem_cons,
          List.not_mem_nil, or_false] at hx hx'
        have e1 : x.head? = some (toString (j + 1)) := by rcases hx with rfl | rfl <;> rfl
        have e2 : x.head? = some (toString (j' + 1)) := by rcases hx' with rfl | rfl <;> rfl
        exact hne (by have := toString_inj (Option.some.inj (e1.symm.trans e2)); omega)
  rw [aggTable, List.tail_cons]
  simp only [List.map_append]
  refine List.Nodup.append (List.Nodup.append (List.Nodup.append (List.Nodup.append ?_ ?_ ?_) (one _) ?_) ?_ ?_) ?_ ?_
  · cases a <;> simp [aggRecord]
  · simp
  · cases a <;> simp [aggRecord]
  · intro x h1 h2
    have h2 := key _ _ h2
    cases a <;> simp [aggRecord] at h1
    · subst h1; revert h2; simp
    · rcases h1 with rfl | rfl | rfl <;> revert h2 <;> simp
  · cases b
    · simp
    · exact one _
  · intro x h1 h2
    cases b
    · simp at h2
    · have h2 := key _ _ h2
      rcases List.mem_append.mp h1 with h1 | h1
      · cases a <;> simp [aggRecord] at h1
        · subst h1; revert h2; simp
        · rcases h1 with rfl | rfl | rfl <;> revert h2 <;> simp
      · have := (key _ _ h1).symm.trans h2
        revert this; decide
  · cases c <;> simp [aggRecord]
  · intro x h1 h2
    have h2 : x[2]? = some "complete_circuit" := by
      cases c <;> simp [aggRecord] at h2
      rcases h2 with rfl | rfl | rfl <;> rfl
    rcases List.mem_append.mp h1 with h1 | h1
    · rcases List.mem_append.mp h1 with h1 | h1
      · cases a <;> simp [aggRecord] at h1
        · subst h1; revert h2; simp
        · rcases h1 with rfl | rfl | rfl <;> revert h2 <;> simp
      · have := (key _ _ h1).symm.trans h2
        revert this; decide
    · cases b
      · simp at h1
      · have := (key _ _ h1).symm.trans h2
        revert this; decide

/-- C152: for every degree and scheme there is one row for the set-up and three for every trial; the time of a verification is a
fiftieth of the measured one, rounded down. -/
theorem C152_poly_complete (time : String → String → ℕ → ℕ → ℕ) (n m : ℕ) (s : String)
    (hs : s ∈ ["kzg", "ipa", "transparent_ipa"]) (i : ℕ) (hi : i < m) :
    [toString 1, s, "setup", toString (4 ^ (i + 1) - 1), toString (time s "setup" (4 ^ (i + 1) - 1) 1)] ∈
        (polyTable time n m).tail ∧
    ∀ t, 1 ≤ t → t ≤ n →
      [toString t, s, "commit", toString (4 ^ (i + 1) - 1), toString (time s "commit" (4 ^ (i + 1) - 1) t)] ∈
          (polyTable time n m).tail ∧
      [toString t, s, "open", toString (4 ^ (i + 1) - 1), toString (time s "open" (4 ^ (i + 1) - 1) t)] ∈
          (polyTable time n m).tail ∧
      [toString t, s, "verify", toString (4 ^ (i + 1) - 1), toString (time s "verify" (4 ^ (i + 1) - 1) t / 50)] ∈
          (polyTable time n m).tail := by
  have up : ∀ r, r ∈ polyScheme time n (4 ^ (i + 1) - 1) s → r ∈ (polyTable time n m).tail := by
    intro r hr
    rw [polyTable, List.tail_cons, List.flatMap_map, List.mem_flatMap]
    refine ⟨i, List.mem_range.mpr hi, ?_⟩
    simp only [List.mem_cons, List.not_mem_nil, or_false] at hs
    rcases hs with rfl | rfl | rfl <;> simp [hr]
  refine ⟨up _ (List.mem_cons_self ..), fun t h1 h2 => ?_⟩
  obtain ⟨j, rfl⟩ : ∃ j, t = j + 1 := ⟨t - 1, by omega⟩
  have hj : j ∈ List.range n := List.mem_range.mpr (by omega)
  refine ⟨up _ ?_, up _ ?_, up _ ?_⟩ <;>
    refine List.mem_cons_of_mem _ (List.mem_flatMap.mpr ⟨j, hj, ?_⟩) <;> simp [polyRecord]

/-- C152: when the bench makes one proof and copies it, the table has no rows on setting up and proving the single circuit, but
one on verifying the copies; otherwise it has all three. -/
theorem C152_single (time : String → String → ℕ → ℕ) (n p : ℕ) (b c : Bool) :
    ((∃ r ∈ aggTable time n p b false c, r[2]? = some "single_circuit" ∧ r[3]? ≠ some "verify") → False) ∧
    (∀ a, ["1", toString p, "single_circuit", "verify", toString (time "single_circuit" "verify" 1)] ∈
      aggTable time n p b a c) ∧
    ["1", toString p, "single_circuit", "setup", toString (time "single_circuit" "setup" 1)] ∈ aggTable time n p b true c ∧
    ["1", toString p, "single_circuit", "prove", toString (time "single_circuit" "prove" 1)] ∈ aggTable time n p b true c := by
  have key : ∀ (s : String) (r : List String), r ∈ aggScheme time n p s → r[2]? = some s := by
    intro s r hr
    obtain ⟨t, f, u, -, rfl⟩ := mem_aggScheme _ _ _ _ _ hr
    rfl
  have o : toString 1 = "1" := rfl
  refine ⟨?_, ?_, ?_, ?_⟩
  · rintro ⟨r, hr, h2, h3⟩
    rw [aggTable] at hr
    simp only [List.mem_cons, List.mem_append, List.not_mem_nil, or_false, Bool.false_eq_true, if_false, false_or] at hr
    rcases hr with rfl | ((rfl | hr) | hr) | hr
    · revert h2; decide
    · exact h3 rfl
    · have := (key _ _ hr).symm.trans h2
      revert this; decide
    · cases b
      · simp at hr
      · have := (key _ _ hr).symm.trans h2
        revert this; decide
    · cases c <;> simp [aggRecord] at hr
      rcases hr with rfl | rfl | rfl <;> revert h2 <;> simp
  · intro a
    simp only [aggTable, aggRecord, List.mem_cons, List.mem_append]
    exact .inr (.inl (.inl (.inl (.inr (.inl rfl)))))
  · simp only [aggTable, aggRecord, List.mem_cons, List.mem_append, if_true]
    exact .inr (.inl (.inl (.inl (.inl (.inl rfl)))))
  · simp only [aggTable, aggRecord, List.mem_cons, List.mem_append, if_true]
    exact .inr (.inl (.inl (.inl (.inl (.inr (.inl rfl))))))

/-- C152: every trial of an aggregation has a row for aggregating and one for verifying. -/
theorem C152_agg_complete (time : String → String → ℕ → ℕ) (n p : ℕ) (b a c : Bool) (s : String)
    (hs : s = "ipa" ∨ s = "olr" ∧ b = true) :
    [toString 1, toString p, s, "setup", toString (time s "setup" 1)] ∈ aggTable time n p b a c ∧
    ∀ t, 1 ≤ t → t ≤ n →
      [toString t, toString p, s, "aggregate", toString (time s "aggregate" t)] ∈ aggTable time n p b a c ∧
      [toString t, toString p, s, "verify", toString (time s "verify" t)] ∈ aggTable time n p b a c := by
  have up : ∀ r, r ∈ aggScheme time n p s → r ∈ aggTable time n p b a c := by
    intro r hr
    rw [aggTable]
    refine List.mem_cons_of_mem _ (List.mem_append_left _ ?_)
    rcases hs with rfl | ⟨rfl, rfl⟩
    · exact List.mem_append_left _ (List.mem_append_right _ hr)
    · exact List.mem_append_right _ hr
  refine ⟨up _ (List.mem_cons_self ..), fun t h1 h2 => ?_⟩
  obtain ⟨j, rfl⟩ : ∃ j, t = j + 1 := ⟨t - 1, by omega⟩
  have hj : j ∈ List.range n := List.mem_range.mpr (by omega)
  refine ⟨up _ ?_, up _ ?_⟩ <;>
    refine List.mem_cons_of_mem _ (List.mem_flatMap.mpr ⟨j, hj, ?_⟩) <;> simp [aggRecord]

/-- C152: the rows of the complete circuit are there exactly when it is asked for. -/
theorem C152_monolithic (time : String → String → ℕ → ℕ) (n p : ℕ) (b a : Bool) :
    (∀ f ∈ ["setup", "prove", "verify"], [toString 1, toString p, "complete_circuit", f, toString (time "complete_circuit" f 1)] ∈
      aggTable time n p b a true) ∧
    ∀ r ∈ aggTable time n p b a false, r[2]? ≠ some "complete_circuit" := by
  constructor
  · intro f hf
    rw [aggTable]
    refine List.mem_cons_of_mem _ (List.mem_append_right _ ?_)
    simp only [List.mem_cons, List.not_mem_nil, or_false] at hf
    rcases hf with rfl | rfl | rfl <;> simp [aggRecord]
  · intro r hr h2
    rw [aggTable] at hr
    have key : ∀ (s : String) (r : List String), r ∈ aggScheme time n p s → r[2]? = some s := by
      intro s r hr
      obtain ⟨t, f, u, -, rfl⟩ := mem_aggScheme _ _ _ _ _ hr
      rfl
    simp only [List.mem_cons, List.mem_append, List.not_mem_nil, or_false, Bool.false_eq_true, if_false] at hr
    rcases hr with rfl | ((hr | rfl) | hr) | hr
    · revert h2; decide
    · cases a <;> simp [aggRecord] at hr
      rcases hr with rfl | rfl <;> revert h2 <;> simp
    · revert h2; simp [aggRecord]
    · have := (key _ _ hr).symm.trans h2
      revert this; decide
    · cases b
      · simp at hr
      · have := (key _ _ hr).symm.trans h2
        revert this; decide

/-! ## Examples -/

example : (polyTable (fun _ _ d t => 100 * d + t) 1 2).map line =
    ["trial,scheme,function,degree,time\n", "1,kzg,setup,3,301\n", "1,kzg,commit,3,301\n", "1,kzg,open,3,301\n",
      "1,kzg,verify,3,6\n", "1,ipa,setup,3,301\n", "1,ipa,commit,3,301\n", "1,ipa,open,3,301\n", "1,ipa,verify,3,6\n",
      "1,transparent_ipa,setup,3,301\n", "1,transparent_ipa,commit,3,301\n", "1,transparent_ipa,open,3,301\n",
      "1,transparent_ipa,verify,3,6\n", "1,kzg,setup,15,1501\n", "1,kzg,commit,15,1501\n", "1,kzg,open,15,1501\n",
      "1,kzg,verify,15,30\n", "1,ipa,setup,15,1501\n", "1,ipa,commit,15,1501\n", "1,ipa,open,15,1501\n",
      "1,ipa,verify,15,30\n", "1,transparent_ipa,setup,15,1501\n", "1,transparent_ipa,commit,15,1501\n",
      "1,transparent_ipa,open,15,1501\n", "1,transparent_ipa,verify,15,30\n"] := by decide +kernel

example : (aggTable (fun _ _ t => 7 * t) 2 8 false false true).map line =
    ["trial,num_proofs,scheme,function,time\n", "1,8,single_circuit,verify,7\n", "1,8,ipa,setup,7\n",
      "1,8,ipa,aggregate,7\n", "1,8,ipa,verify,7\n", "2,8,ipa,aggregate,14\n", "2,8,ipa,verify,14\n",
      "1,8,complete_circuit,setup,7\n", "1,8,complete_circuit,prove,7\n", "1,8,complete_circuit,verify,7\n"] := by
  decide +kernel

example : ¬ Plain "a,b" := by unfold Plain; decide

/-- A field with a comma is not told apart. -/
example : line ["a,b"] = line ["a", "b"] := by decide +kernel

end Ripp.Table
