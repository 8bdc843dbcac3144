import Verif.Props.SsmExtract
import Verif.Props.Groth16Verify

/-!
# C75: knowledge soundness of Groth16 proof aggregation

From runs of one prover that shares its three commitments and is challenged with as many values of `r`
as there are proofs, an extractor recovers valid Groth16 proofs or a collision of the commitments. A
prover that is accepted often enough has such runs.
-/

set_option linter.unusedSectionVars false
set_option linter.unusedVariables false

namespace Ripp.Groth16

open Spec

variable {ρ F G1 G2 GT TF : Type} [Field F] [DecidableEq F]
  [AddCommGroup G1] [Module F G1] [AddCommGroup G2] [Module F G2] [Monoid TF]
  [AddCommGroup GT] [Module F GT] [DecidableEq G1] [DecidableEq G2] [DecidableEq GT]
  {V : Env ρ F G1 G2 GT TF} {e : G1 →ₗ[F] G2 →ₗ[F] GT}

/-- The runs of a prover after the challenge `r`: the two aggregates it sends, and the trees of runs of
the two inner product arguments. -/
structure Branch (F G1 G2 GT : Type) where
  r : F
  ipAB : GT
  aggC : G1
  ab : Extract.Tree F G1 G2 (GT × GT × IdentityOutput GT)
  c : SsmExtract.Tree F G1 (GT × IdentityOutput G1)

/-- All runs of a branch are accepted: the first argument for the keys scaled by the powers of `r⁻¹`, the
second for the powers of `r`, and the pairing product equation. -/
def Branch.Accepts (V : Env ρ F G1 G2 GT TF) (e : G1 →ₗ[F] G2 →ₗ[F] GT) (vk : G16VK G1 G2)
    (inputs : List (List F)) (ck1 : List G2) (ck2 : List G1) (comA comB comC : GT)
    (br : Branch F G1 G2 GT) : Prop :=
  br.r ≠ 0 ∧
  br.ab.Accepts e e e.flip (fun x => ⟨[x]⟩) (ck1.mapIdx fun i k => br.r⁻¹ ^ i • k) ck2
    (comA, comB, ⟨[br.ipAB]⟩) ∧
  br.c.Accepts (smulMap F G1) e (fun x => ⟨[x]⟩) ck1 ((List.range ck1.length).map (br.r ^ ·))
    (comC, ⟨[br.aggC]⟩) ∧
  verifyPpe V vk inputs br.r br.ipAB br.aggC = .ok true

/-- The result of extraction. -/
inductive Found (G1 G2 : Type) : Type
  | proofs (ps : List (G16Proof G1 G2))
  | collision1 (m m' : List G1)
  | collision2 (m m' : List G2)

/-- What the extractor promises: one valid proof for every row of inputs, and the commitments are the
commitments to these proofs; or two messages with the same commitment. -/
def Found.Good (e : G1 →ₗ[F] G2 →ₗ[F] GT) (vk : G16VK G1 G2) (inputs : List (List F)) (ck1 : List G2)
    (ck2 : List G1) (comA comB comC : GT) : Found G1 G2 → Prop
  | proofs ps => List.Forall₂ (Valid e vk) ps inputs ∧ comA = dot (e · ·) (ps.map (·.a)) ck1 ∧
      comB = dot (e · ·) ck2 (ps.map (·.b)) ∧ comC = dot (e · ·) (ps.map (·.c)) ck1
  | collision1 m m' => m.length = ck1.length ∧ m'.length = ck1.length ∧ m ≠ m' ∧
      dot (e · ·) m ck1 = dot (e · ·) m' ck1
  | collision2 m m' => m.length = ck2.length ∧ m'.length = ck2.length ∧ m ≠ m' ∧
      dot (e · ·) ck2 m = dot (e · ·) ck2 m'

/-- A message for the scaled key as a message for the key. -/
def unshift (r : F) (m : List G1) : List G1 := m.mapIdx fun i x => r⁻¹ ^ i • x

/-- Proofs from their components. -/
def assemble : List G1 → List G2 → List G1 → List (G16Proof G1 G2)
  | a :: as, b :: bs, c :: cs => ⟨a, b, c⟩ :: assemble as bs cs
  | _, _, _ => []

/-- What an outcome of the first argument for the challenge `r`, and an opening of the second, stand for. -/
def found (r : F) (c : List G1) : Extract.Out G1 G2 → Found G1 G2
  | .opening a b => .proofs (assemble (unshift r a) b c)
  | .collisionA m m' => .collision1 (unshift r m) (unshift r m')
  | .collisionB m m' => .collision2 m m'

/-- Extraction from one branch. -/
def Branch.extract (br : Branch F G1 G2 GT) : Found G1 G2 :=
  found br.r (SsmExtract.extract br.c) (Extract.extract br.ab)

/-- Compares the proofs `ps` with those found for other challenges. -/
def agree (ps : List (G16Proof G1 G2)) : List (Found G1 G2) → Found G1 G2
  | [] => .proofs ps
  | .proofs qs :: xs =>
    if ps.map (·.a) ≠ qs.map (·.a) then .collision1 (ps.map (·.a)) (qs.map (·.a))
    else if ps.map (·.c) ≠ qs.map (·.c) then .collision1 (ps.map (·.c)) (qs.map (·.c))
    else if ps.map (·.b) ≠ qs.map (·.b) then .collision2 (ps.map (·.b)) (qs.map (·.b))
    else agree ps xs
  | x :: _ => x

/-- What was found for one challenge, compared with what was found for others. -/
def settle : Found G1 G2 → List (Found G1 G2) → Found G1 G2
  | .proofs ps, xs => agree ps xs
  | x, _ => x

/-- The extractor. -/
def extract (br : Branch F G1 G2 GT) (brs : List (Branch F G1 G2 GT)) : Found G1 G2 :=
  settle br.extract (brs.map Branch.extract)

theorem dot_mapIdx (f : G1 →ₗ[F] G2 →ₗ[F] GT) (s : F) (a : List G1) (ck : List G2) :
    dot (f · ·) a (ck.mapIdx fun i k => s ^ i • k) = dot (f · ·) (a.mapIdx fun i x => s ^ i • x) ck := by
  have key : ∀ (a : List G1) (ck : List G2) (j : ℕ),
      dot (f · ·) a (ck.mapIdx fun i k => s ^ (i + j) • k) =
        dot (f · ·) (a.mapIdx fun i x => s ^ (i + j) • x) ck := by
    intro a
    induction a with
    | nil => intro ck j; simp
    | cons x xs ih =>
      intro ck j
      cases ck with
      | nil => simp
      | cons k ck =>
        have := ih ck (j + 1)
        simp only [List.mapIdx_cons, dot_cons, Nat.add_assoc, Nat.add_comm 1 j, this, map_smul,
          LinearMap.smul_apply]
  simpa using key a ck 0

theorem unshift_injective {r : F} (hr : r ≠ 0) {m m' : List G1} (h : unshift r m = unshift r m') :
    m = m' := by
  have hl : m.length = m'.length := by simpa [unshift] using congrArg List.length h
  refine List.ext_getElem hl fun i h1 h2 => ?_
  have : (unshift r m)[i]'(by simpa [unshift] using h1) = (unshift r m')[i]'(by simpa [unshift] using h2) := by
    simp only [h]
  simp only [unshift, List.getElem_mapIdx] at this
  exact smul_right_injective _ (pow_ne_zero i (inv_ne_zero hr)) this

theorem assemble_maps : ∀ (a : List G1) (b : List G2) (c : List G1), b.length = a.length →
    c.length = a.length → (assemble a b c).map (·.a) = a ∧ (assemble a b c).map (·.b) = b ∧
      (assemble a b c).map (·.c) = c
  | [], [], [], _, _ => ⟨rfl, rfl, rfl⟩
  | a :: as, b :: bs, c :: cs, h1, h2 => by
    obtain ⟨i1, i2, i3⟩ := assemble_maps as bs cs (by simpa using h1) (by simpa using h2)
    simp [assemble, i1, i2, i3]

theorem maps_injective {ps qs : List (G16Proof G1 G2)} (h1 : ps.map (·.a) = qs.map (·.a))
    (h2 : ps.map (·.b) = qs.map (·.b)) (h3 : ps.map (·.c) = qs.map (·.c)) : ps = qs := by
  induction ps generalizing qs with
  | nil => cases qs with
    | nil => rfl
    | cons q qs => simp at h1
  | cons p ps ih => cases qs with
    | nil => simp at h1
    | cons q qs =>
      simp only [List.map_cons, List.cons.injEq] at h1 h2 h3
      rw [ih h1.2 h2.2 h3.2]
      obtain ⟨a, b, c⟩ := p
      obtain ⟨a', b', c'⟩ := q
      simp only at h1 h2 h3
      rw [h1.1, h2.1, h3.1]

/-- What one branch yields: proofs that open the commitments and satisfy the batch equation for its
challenge, or a collision. -/
def Found.Opens (V : Env ρ F G1 G2 GT TF) (e : G1 →ₗ[F] G2 →ₗ[F] GT) (vk : G16VK G1 G2)
    (inputs : List (List F)) (ck1 : List G2) (ck2 : List G1) (comA comB comC : GT) (r : F) :
    Found G1 G2 → Prop
  | proofs ps => ps.length = ck1.length ∧ ps.length = ck2.length ∧
      comA = dot (e · ·) (ps.map (·.a)) ck1 ∧
      comB = dot (e · ·) ck2 (ps.map (·.b)) ∧ comC = dot (e · ·) (ps.map (·.c)) ck1 ∧
      verifyPpe V vk inputs r
        (dot (fun (x : F) (p : G16Proof G1 G2) => x • e p.a p.b) (powers r ps.length) ps)
        (dot (fun (x : F) (p : G16Proof G1 G2) => x • p.c) (powers r ps.length) ps) = .ok true
  | collision1 m m' => m.length = ck1.length ∧ m'.length = ck1.length ∧ m ≠ m' ∧
      dot (e · ·) m ck1 = dot (e · ·) m' ck1
  | collision2 m m' => m.length = ck2.length ∧ m'.length = ck2.length ∧ m ≠ m' ∧
      dot (e · ·) ck2 m = dot (e · ·) ck2 m'

theorem dot_assemble_ab (r : F) (hr : r ≠ 0) (a : List G1) (b : List G2) (c : List G1)
    (hb : b.length = a.length) (hc : c.length = a.length) :
    dot (fun (x : F) (p : G16Proof G1 G2) => x • e p.a p.b) (powers r a.length)
      (assemble (unshift r a) b c) = dot (e · ·) a b := by
  have key : ∀ (a : List G1) (b : List G2) (c : List G1) (j : ℕ), b.length = a.length →
      c.length = a.length →
      dot (fun (x : F) (p : G16Proof G1 G2) => x • e p.a p.b)
        ((List.range a.length).map fun i => r ^ (i + j))
        (assemble (a.mapIdx fun i x => r⁻¹ ^ (i + j) • x) b c) = dot (e · ·) a b := by
    intro a
    induction a with
    | nil => intro b c j h1 h2; simp
    | cons x xs ih =>
      intro b c j h1 h2
      cases b with
      | nil => simp at h1
      | cons b bs => cases c with
        | nil => simp at h2
        | cons c cs =>
          have := ih bs cs (j + 1) (by simpa using h1) (by simpa using h2)
          have hx : r ^ j * (r⁻¹) ^ j = 1 := by rw [← mul_pow, mul_inv_cancel₀ hr, one_pow]
          simp only [List.length_cons, List.range_succ_eq_map, List.map_cons, List.map_map,
            List.mapIdx_cons, assemble, dot_cons, Function.comp_def, Nat.zero_add, Nat.succ_eq_add_one,
            Nat.add_assoc, Nat.add_comm 1 j, this, map_smul, LinearMap.smul_apply, smul_smul, hx,
            one_smul]
  simpa [powers, unshift] using key a b c 0 hb hc

theorem dot_assemble_c (r : F) (a : List G1) (b : List G2) (c : List G1)
    (hb : b.length = a.length) (hc : c.length = a.length) (xs : List F) :
    dot (fun (x : F) (p : G16Proof G1 G2) => x • p.c) xs (assemble a b c) =
      dot (fun (g : G1) (x : F) => x • g) c xs := by
  induction xs generalizing a b c with
  | nil => simp
  | cons x xs ih =>
    cases a with
    | nil =>
      rw [List.length_nil, List.length_eq_zero_iff] at hc
      subst hc
      cases b <;> simp [assemble]
    | cons a as => cases b with
      | nil => simp at hb
      | cons b bs => cases c with
        | nil => simp at hc
        | cons c cs =>
          simp only [assemble, dot_cons]
          rw [ih as bs cs (by simpa using hb) (by simpa using hc)]

/-- Openings of the commitments in both arguments for the challenge `r`, or a collision in the first. -/
theorem found_opens (vk : G16VK G1 G2) (inputs : List (List F)) (ck1 : List G2) (ck2 : List G1)
    (hlen : ck1.length = ck2.length) (comA comB comC : GT) (r : F) (hr : r ≠ 0) (c : List G1) (o : Extract.Out G1 G2)
    (ho : o.Opens e e.flip (ck1.mapIdx fun i k => r⁻¹ ^ i • k) ck2 comA comB) (hc : c.length = ck1.length)
    (hcom : comC = dot (e · ·) c ck1)
    (hppe : ∀ a b, o = .opening a b → verifyPpe V vk inputs r (dot (e · ·) a b)
      (dot (fun (g : G1) (x : F) => x • g) c (powers r ck1.length)) = .ok true) :
    (found r c o).Opens V e vk inputs ck1 ck2 comA comB comC r := by
  cases o with
  | opening a b =>
    obtain ⟨l1, l2, q1, q2⟩ := ho
    rw [List.length_mapIdx] at l1
    have hl : (unshift r a).length = ck1.length := by rw [unshift, List.length_mapIdx, l1]
    have hb : b.length = a.length := by omega
    have hcl : c.length = a.length := by omega
    obtain ⟨m1, m2, m3⟩ := assemble_maps (unshift r a) b c (by omega) (by omega)
    have la : (assemble (unshift r a) b c).length = a.length := by
      have := congrArg List.length m1
      rw [List.length_map] at this
      omega
    refine ⟨by rw [la, l1], by rw [la, l1, hlen], ?_, ?_, ?_, ?_⟩
    · rw [m1, unshift, ← dot_mapIdx]; exact q1
    · rw [m2, q2, dot_swap]; rfl
    · rw [m3]; exact hcom
    · rw [la, dot_assemble_ab r hr a b _ hb hcl, dot_assemble_c r (unshift r a) b _ (by omega) (by omega), l1]
      exact hppe a b rfl
  | collisionA m m' =>
    obtain ⟨l1, l2, hne, heq⟩ := ho
    rw [List.length_mapIdx] at l1 l2
    refine ⟨by rw [unshift, List.length_mapIdx, l1], by rw [unshift, List.length_mapIdx, l2],
      fun he => hne (unshift_injective hr he), ?_⟩
    rw [unshift, unshift, ← dot_mapIdx, ← dot_mapIdx]
    exact heq
  | collisionB m m' =>
    obtain ⟨l1, l2, hne, heq⟩ := ho
    refine ⟨l1, l2, hne, ?_⟩
    rw [dot_swap, dot_swap (b := m')]
    exact heq

theorem Branch.extract_opens (hE : V.E.Lawful e) (vk : G16VK G1 G2) (inputs : List (List F))
    (ck1 : List G2) (ck2 : List G1) (comA comB comC : GT) (br : Branch F G1 G2 GT)
    (h : br.Accepts V e vk inputs ck1 ck2 comA comB comC) :
    br.extract.Opens V e vk inputs ck1 ck2 comA comB comC br.r := by
  obtain ⟨hr, hab, hc, hppe⟩ := h
  have hlen := Extract.Tree.Accepts.length _ _ _ _ hab
  rw [List.length_mapIdx] at hlen
  obtain ⟨h1, h2⟩ := (Extract.Out.valid_iff _ _ _ _).mp
    (Extract.C67_extract (Extract.reads_identity (F := F) (T := GT) PUnit.unit) _ _ _ _ hab)
  obtain ⟨c1, c2, c3⟩ := SsmExtract.C71_extract (Extract.reads_identity (F := F) (T := G1) PUnit.unit)
    _ _ _ _ hc
  refine found_opens vk inputs ck1 ck2 hlen comA comB comC br.r hr _ _ h1 c1 c2 fun a b hab => ?_
  have q3 := h2 a b hab
  simp only [List.head?_cons, Option.some.injEq, LinearMap.id_apply] at q3 c3
  have : dot (fun (g : G1) (x : F) => x • g) (SsmExtract.extract br.c) (powers br.r ck1.length) = br.aggC := by
    rw [c3, powers]; rfl
  rw [this, ← q3]
  exact hppe

theorem agree_opens (vk : G16VK G1 G2) (inputs : List (List F))
    (ck1 : List G2) (ck2 : List G1) (comA comB comC : GT) (ps : List (G16Proof G1 G2))
    (l1 : ps.length = ck1.length) (l2 : ps.length = ck2.length)
    (q1 : comA = dot (e · ·) (ps.map (·.a)) ck1)
    (q2 : comB = dot (e · ·) ck2 (ps.map (·.b))) (q3 : comC = dot (e · ·) (ps.map (·.c)) ck1) :
    ∀ (xs : List (F × Found G1 G2)),
      (∀ x ∈ xs, x.2.Opens V e vk inputs ck1 ck2 comA comB comC x.1) →
      (agree ps (xs.map (·.2)) = .proofs ps ∧ ∀ x ∈ xs, verifyPpe V vk inputs x.1
        (dot (fun (x : F) (p : G16Proof G1 G2) => x • e p.a p.b) (powers x.1 ps.length) ps)
        (dot (fun (x : F) (p : G16Proof G1 G2) => x • p.c) (powers x.1 ps.length) ps) = .ok true) ∨
      ((∀ qs, agree ps (xs.map (·.2)) ≠ .proofs qs) ∧
        (agree ps (xs.map (·.2))).Good e vk inputs ck1 ck2 comA comB comC)
  | [], _ => .inl ⟨rfl, by simp⟩
  | (r, x) :: xs, h => by
    have ho := h _ (List.mem_cons_self)
    have ih := agree_opens vk inputs ck1 ck2 comA comB comC ps l1 l2 q1 q2 q3 xs
      (fun b hb => h b (by simp [hb]))
    cases x with
    | collision1 m m' => exact .inr ⟨by simp [agree], ho⟩
    | collision2 m m' => exact .inr ⟨by simp [agree], ho⟩
    | proofs qs =>
      obtain ⟨k1, k2, p1, p2, p3, p4⟩ := ho
      rw [List.map_cons, agree]
      by_cases ea : ps.map (·.a) = qs.map (·.a)
      · rw [if_neg (not_not.mpr ea)]
        by_cases ec : ps.map (·.c) = qs.map (·.c)
        · rw [if_neg (not_not.mpr ec)]
          by_cases eb : ps.map (·.b) = qs.map (·.b)
          · rw [if_neg (not_not.mpr eb)]
            have := maps_injective ea eb ec
            subst this
            rcases ih with ⟨i1, i2⟩ | i
            · refine .inl ⟨i1, ?_⟩
              intro b hb
              rcases List.mem_cons.mp hb with rfl | hb
              · exact p4
              · exact i2 b hb
            · exact .inr i
          · rw [if_pos eb]
            exact .inr ⟨by simp, by simp [l2], by simp [k2], eb, by rw [← q2, ← p2]⟩
        · rw [if_pos ec]
          exact .inr ⟨by simp, by simp [l1], by simp [k1], ec, by rw [← q3, ← p3]⟩
      · rw [if_pos ea]
        exact .inr ⟨by simp, by simp [l1], by simp [k1], ea, by rw [← q1, ← p1]⟩

/-- Outcomes for as many different challenges as there are proofs. -/
theorem settle_good (hE : V.E.Lawful e) (vk : G16VK G1 G2) (inputs : List (List F))
    (ck1 : List G2) (ck2 : List G1) (hck : ck1.length = inputs.length)
    (hrow : ∀ row ∈ inputs, row.length + 1 = vk.gammaAbc.length) (comA comB comC : GT)
    (x : F × Found G1 G2) (xs : List (F × Found G1 G2))
    (h : ∀ y ∈ x :: xs, y.2.Opens V e vk inputs ck1 ck2 comA comB comC y.1)
    (hnodup : ((x :: xs).map (·.1)).Nodup) (hmany : inputs.length ≤ (x :: xs).length) :
    (settle x.2 (xs.map (·.2))).Good e vk inputs ck1 ck2 comA comB comC := by
  have ho := h x (List.mem_cons_self)
  obtain ⟨r, x⟩ := x
  cases x with
  | collision1 m m' => exact ho
  | collision2 m m' => exact ho
  | proofs ps =>
    obtain ⟨k1, k2, p1, p2, p3, p4⟩ := ho
    rw [settle]
    rcases agree_opens vk inputs ck1 ck2 comA comB comC ps k1 k2 p1 p2 p3 xs
      (fun b hb => h b (by simp [hb])) with ⟨i1, i2⟩ | i
    · rw [i1]
      refine ⟨?_, p1, p2, p3⟩
      by_contra hbad
      have := C50_few_bad_challenges hE vk ps inputs (by omega) hrow hbad
        (((r, Found.proofs ps) :: xs).map (·.1)).toFinset (by
          intro r' hr
          rw [List.mem_toFinset, List.mem_map] at hr
          obtain ⟨b, hb, rfl⟩ := hr
          rcases List.mem_cons.mp hb with rfl | hb
          · exact p4
          · exact i2 b hb)
      rw [List.toFinset_card_of_nodup hnodup, List.length_map] at this
      simp only [List.length_cons] at this hmany
      omega
    · exact i.2

/-- C75: from accepted branches for as many different challenges as there are proofs the extractor
finds one valid Groth16 proof per row, and these are the committed ones, or a collision of one of the
commitments. -/
theorem C75_extract (hE : V.E.Lawful e) (vk : G16VK G1 G2) (inputs : List (List F))
    (ck1 : List G2) (ck2 : List G1) (hck : ck1.length = inputs.length)
    (hrow : ∀ row ∈ inputs, row.length + 1 = vk.gammaAbc.length) (comA comB comC : GT)
    (br : Branch F G1 G2 GT) (brs : List (Branch F G1 G2 GT))
    (hacc : ∀ b ∈ br :: brs, b.Accepts V e vk inputs ck1 ck2 comA comB comC)
    (hnodup : ((br :: brs).map (·.r)).Nodup) (hmany : inputs.length ≤ (br :: brs).length) :
    (extract br brs).Good e vk inputs ck1 ck2 comA comB comC := by
  have := settle_good hE vk inputs ck1 ck2 hck hrow comA comB comC (br.r, br.extract)
    (brs.map fun b => (b.r, b.extract)) (fun y hy => by
      have : ∃ b ∈ br :: brs, (b.r, b.extract) = y := by
        rw [← List.mem_map, List.map_cons]; exact hy
      obtain ⟨b, hb, rfl⟩ := this
      exact Branch.extract_opens hE vk inputs ck1 ck2 comA comB comC b (hacc b hb))
    (by simpa [Function.comp_def] using hnodup) (by simpa using hmany)
  rw [List.map_map] at this
  exact this

/-! ## Provers that are accepted often -/

/-- What a prover sends after its three commitments: the aggregates, from `r`; the messages of the two
arguments, from `r` and the earlier challenges of the argument. -/
structure Strategy (F G1 G2 GT : Type) where
  ipAB : F → GT
  aggC : F → G1
  stAB : F → List F → (GT × GT × IdentityOutput GT) × (GT × GT × IdentityOutput GT)
  finAB : F → List F → G1 × G2
  stC : F → List F → (GT × IdentityOutput G1) × (GT × IdentityOutput G1)
  finC : F → List F → G1

namespace Strategy

/-- The run of the first argument for `r` and the challenges `cs` is accepted. -/
def RunAB (e : G1 →ₗ[F] G2 →ₗ[F] GT) (ck1 : List G2) (ck2 : List G1) (comA comB : GT)
    (A : Strategy F G1 G2 GT) (r : F) (cs : List F) : Prop :=
  Extract.Run e e e.flip (fun x => ⟨[x]⟩) (ck1.mapIdx fun i k => r⁻¹ ^ i • k) ck2
    (comA, comB, ⟨[A.ipAB r]⟩) cs (Extract.sent (A.stAB r) cs) (A.finAB r cs).1 (A.finAB r cs).2

/-- The run of the second argument for `r` and the challenges `cs` is accepted. -/
def RunC (e : G1 →ₗ[F] G2 →ₗ[F] GT) (ck1 : List G2) (comC : GT)
    (A : Strategy F G1 G2 GT) (r : F) (cs : List F) : Prop :=
  SsmExtract.Run (smulMap F G1) e (fun x => ⟨[x]⟩) ck1 ((List.range ck1.length).map (r ^ ·))
    (comC, ⟨[A.aggC r]⟩) cs (Extract.sent (A.stC r) cs) (A.finC r cs)

/-- The verifier accepts for `r`, the challenges `xs` of the first and `ys` of the second argument. -/
def Accepted (V : Env ρ F G1 G2 GT TF) (e : G1 →ₗ[F] G2 →ₗ[F] GT) (vk : G16VK G1 G2)
    (inputs : List (List F)) (ck1 : List G2) (ck2 : List G1) (comA comB comC : GT)
    (A : Strategy F G1 G2 GT) (r : F) (xs ys : List F) : Prop :=
  A.RunAB e ck1 ck2 comA comB r xs ∧ A.RunC e ck1 comC r ys ∧
    verifyPpe V vk inputs r (A.ipAB r) (A.aggC r) = .ok true

/-- The runs of the prover for `r` on two trees of challenges. -/
def branch (A : Strategy F G1 G2 GT) {k : ℕ} (r : F) (t : Extract.Chals F 4 k)
    (u : Extract.Chals F 3 k) : Branch F G1 G2 GT :=
  ⟨r, A.ipAB r, A.aggC r, Extract.build (A.stAB r) (A.finAB r) t,
    SsmExtract.build (A.stC r) (A.finC r) u⟩

end Strategy

/-- Counting: if the accepted triples are more than `(m + 3 k) |S|^(2k)`, more than `m` first components
have many accepted second and many accepted third components. -/
theorem count_good (k m : ℕ) (S : Finset F) (P Q : F → (Fin k → F) → Prop) (R : F → Prop)
    [DecidablePred fun q : F × (Fin k → F) × (Fin k → F) => P q.1 q.2.1 ∧ Q q.1 q.2.2 ∧ R q.1]
    [∀ r, DecidablePred (P r)] [∀ r, DecidablePred (Q r)] [DecidablePred R]
    (h : (m + 3 * k) * S.card ^ (2 * k) < ((S ×ˢ (Fintype.piFinset fun _ : Fin k => S) ×ˢ
      (Fintype.piFinset fun _ : Fin k => S)).filter fun q =>
        P q.1 q.2.1 ∧ Q q.1 q.2.2 ∧ R q.1).card) :
    m < (S.filter fun r => R r ∧
      3 * k * S.card ^ (k - 1) < ((Fintype.piFinset fun _ : Fin k => S).filter (P r)).card ∧
      2 * k * S.card ^ (k - 1) < ((Fintype.piFinset fun _ : Fin k => S).filter (Q r)).card).card := by
  by_contra hcon
  rw [not_lt] at hcon
  refine absurd h (not_lt.mpr ?_)
  set U := Fintype.piFinset fun _ : Fin k => S with hU
  have cU : U.card = S.card ^ k := by rw [hU, Fintype.card_piFinset_const]
  set G : F → Prop := fun r => R r ∧ 3 * k * S.card ^ (k - 1) < (U.filter (P r)).card ∧
    2 * k * S.card ^ (k - 1) < (U.filter (Q r)).card with hG
  have fiber : ∀ r, ((U ×ˢ U).filter fun q => P r q.1 ∧ Q r q.2 ∧ R r).card ≤
      (if G r then S.card ^ (2 * k) else 0) + 3 * k * S.card ^ (k - 1) * S.card ^ k := by
    intro r
    by_cases hr : R r
    · have : ((U ×ˢ U).filter fun q => P r q.1 ∧ Q r q.2 ∧ R r) =
          (U.filter (P r)) ×ˢ (U.filter (Q r)) := by
        ext q; simp only [Finset.mem_filter, Finset.mem_product]; tauto
      rw [this, Finset.card_product]
      have b1 : (U.filter (P r)).card ≤ S.card ^ k := cU ▸ Finset.card_filter_le _ _
      have b2 : (U.filter (Q r)).card ≤ S.card ^ k := cU ▸ Finset.card_filter_le _ _
      by_cases h1 : 3 * k * S.card ^ (k - 1) < (U.filter (P r)).card
      · by_cases h2 : 2 * k * S.card ^ (k - 1) < (U.filter (Q r)).card
        · rw [if_pos ⟨hr, h1, h2⟩, two_mul, pow_add]
          exact (Nat.mul_le_mul b1 b2).trans (Nat.le_add_right _ _)
        · refine le_trans ?_ (Nat.le_add_left _ _)
          rw [mul_comm]
          refine Nat.mul_le_mul ((not_lt.mp h2).trans ?_) b1
          exact Nat.mul_le_mul_right _ (Nat.mul_le_mul_right _ (by norm_num))
      · refine le_trans ?_ (Nat.le_add_left _ _)
        exact Nat.mul_le_mul (not_lt.mp h1) b2
    · rw [Finset.filter_false_of_mem fun q _ hq => hr hq.2.2, Finset.card_empty]
      exact Nat.zero_le _
  have total : ((S ×ˢ U ×ˢ U).filter fun q => P q.1 q.2.1 ∧ Q q.1 q.2.2 ∧ R q.1).card =
      ∑ r ∈ S, ((U ×ˢ U).filter fun q => P r q.1 ∧ Q r q.2 ∧ R r).card := by
    simp only [Finset.card_filter]
    rw [Finset.sum_product]
    refine Finset.sum_congr rfl fun x _ => Finset.sum_congr rfl fun y _ => ?_
    congr
  rw [total]
  refine (Finset.sum_le_sum fun r _ => fiber r).trans ?_
  rw [Finset.sum_add_distrib, ← Finset.sum_filter, Finset.sum_const, Finset.sum_const, smul_eq_mul,
    smul_eq_mul, add_mul]
  refine Nat.add_le_add (Nat.mul_le_mul_right _ hcon) ?_
  rcases k with _ | k
  · simp
  · apply le_of_eq
    rw [Nat.add_sub_cancel]
    ring

/-- C75: a prover that is accepted for more than `(2^k - 1 + 3 k) |S|^(2k)` of the `|S|^(2k+1)` choices
of challenges from a set `S` of non-zero challenges, where `2^k` is the number of proofs: on the
challenges of some accepted runs the extractor finds a valid proof for every row, and these are the
committed ones, or a collision of the commitments. -/
theorem C75_knowledge (hE : V.E.Lawful e) (vk : G16VK G1 G2) (inputs : List (List F)) (k : ℕ)
    (ck1 : List G2) (ck2 : List G1) (h1 : ck1.length = 2 ^ k) (h2 : ck2.length = 2 ^ k)
    (hin : inputs.length = 2 ^ k) (hrow : ∀ row ∈ inputs, row.length + 1 = vk.gammaAbc.length)
    (comA comB comC : GT) (A : Strategy F G1 G2 GT) (S : Finset F) (hS : ∀ x ∈ S, x ≠ 0)
    [DecidablePred fun q : F × (Fin k → F) × (Fin k → F) =>
      A.Accepted V e vk inputs ck1 ck2 comA comB comC q.1 (List.ofFn q.2.1) (List.ofFn q.2.2)]
    (hmany : (2 ^ k - 1 + 3 * k) * S.card ^ (2 * k) <
      ((S ×ˢ (Fintype.piFinset fun _ : Fin k => S) ×ˢ (Fintype.piFinset fun _ : Fin k => S)).filter
        fun q => A.Accepted V e vk inputs ck1 ck2 comA comB comC q.1 (List.ofFn q.2.1)
          (List.ofFn q.2.2)).card) :
    ∃ (x : F × Extract.Chals F 4 k × Extract.Chals F 3 k)
      (xs : List (F × Extract.Chals F 4 k × Extract.Chals F 3 k)),
      ((x :: xs).map (·.1)).Nodup ∧
      (∀ y ∈ x :: xs, y.1 ∈ S ∧ y.2.1.Within S (A.RunAB e ck1 ck2 comA comB y.1) ∧
        y.2.2.Within S (A.RunC e ck1 comC y.1) ∧
        verifyPpe V vk inputs y.1 (A.ipAB y.1) (A.aggC y.1) = .ok true) ∧
      (extract (A.branch x.1 x.2.1 x.2.2) (xs.map fun y => A.branch y.1 y.2.1 y.2.2)).Good e vk inputs
        ck1 ck2 comA comB comC := by
  classical
  have hc := count_good k (2 ^ k - 1) S (fun r xs => A.RunAB e ck1 ck2 comA comB r (List.ofFn xs))
    (fun r ys => A.RunC e ck1 comC r (List.ofFn ys))
    (fun r => verifyPpe V vk inputs r (A.ipAB r) (A.aggC r) = .ok true) (by convert hmany using 3; exact Iff.rfl)
  set G := S.filter fun r => verifyPpe V vk inputs r (A.ipAB r) (A.aggC r) = .ok true ∧
    3 * k * S.card ^ (k - 1) < ((Fintype.piFinset fun _ : Fin k => S).filter
      fun xs => A.RunAB e ck1 ck2 comA comB r (List.ofFn xs)).card ∧
    2 * k * S.card ^ (k - 1) < ((Fintype.piFinset fun _ : Fin k => S).filter
      fun ys => A.RunC e ck1 comC r (List.ofFn ys)).card with hG
  have hex : ∀ r : G, ∃ tu : Extract.Chals F 4 k × Extract.Chals F 3 k,
      tu.1.Within S (A.RunAB e ck1 ck2 comA comB r.1) ∧ tu.2.Within S (A.RunC e ck1 comC r.1) := by
    intro r
    have hr := (Finset.mem_filter.mp r.2).2
    obtain ⟨t, ht⟩ := Extract.exists_tree 3 S k (A.RunAB e ck1 ck2 comA comB r.1) hr.2.1
    obtain ⟨u, hu⟩ := Extract.exists_tree 2 S k (A.RunC e ck1 comC r.1) hr.2.2
    exact ⟨(t, u), ht, hu⟩
  choose f hf using hex
  set L := G.attach.toList.map fun r => (r.1, f r) with hL
  have hlen : L.length = G.card := by simp [hL]
  have hnd : (L.map (·.1)).Nodup := by
    rw [hL, List.map_map]
    exact G.attach.nodup_toList.map Subtype.val_injective
  have hmem : ∀ y ∈ L, y.1 ∈ S ∧ y.2.1.Within S (A.RunAB e ck1 ck2 comA comB y.1) ∧
        y.2.2.Within S (A.RunC e ck1 comC y.1) ∧
        verifyPpe V vk inputs y.1 (A.ipAB y.1) (A.aggC y.1) = .ok true := by
    intro y hy
    obtain ⟨r, -, rfl⟩ := List.mem_map.mp hy
    have hr := Finset.mem_filter.mp r.2
    exact ⟨hr.1, (hf r).1, (hf r).2, hr.2.1⟩
  have h2k : 1 ≤ 2 ^ k := Nat.one_le_two_pow
  cases hLc : L with
  | nil => rw [hLc, List.length_nil] at hlen; omega
  | cons x xs =>
    rw [hLc] at hlen hnd hmem
    refine ⟨x, xs, hnd, hmem, ?_⟩
    refine C75_extract hE vk inputs ck1 ck2 (h1.trans hin.symm) hrow comA comB comC _ _ ?_ ?_ ?_
    · intro b hb
      have : ∃ y ∈ x :: xs, A.branch y.1 y.2.1 y.2.2 = b := by
        rcases List.mem_cons.mp hb with rfl | hb
        · exact ⟨x, by simp, rfl⟩
        · obtain ⟨y, hy, rfl⟩ := List.mem_map.mp hb
          exact ⟨y, by simp [hy], rfl⟩
      obtain ⟨y, hy, rfl⟩ := this
      obtain ⟨m1, m2, m3, m4⟩ := hmem y hy
      refine ⟨hS _ m1, ?_, ?_, m4⟩
      · exact Extract.build_accepts S hS _ _ _ _ _ _ (by simpa using h1) h2 m2
      · exact SsmExtract.build_accepts S hS _ _ _ _ _ _ h1 (by simpa using h1) m3
    · simpa [Function.comp_def, Strategy.branch] using hnd
    · rw [List.length_cons, List.length_map, hin]
      rw [List.length_cons] at hlen
      omega

/-- C75: where no two messages have the same commitment, commitments that are not those of one valid
proof per row are accepted for at most `(2^k - 1 + 3 k) |S|^(2k)` of the `|S|^(2k+1)` choices of
challenges, whatever the prover does. -/
theorem C75_soundness (hE : V.E.Lawful e) (vk : G16VK G1 G2) (inputs : List (List F)) (k : ℕ)
    (ck1 : List G2) (ck2 : List G1) (h1 : ck1.length = 2 ^ k) (h2 : ck2.length = 2 ^ k)
    (hin : inputs.length = 2 ^ k) (hrow : ∀ row ∈ inputs, row.length + 1 = vk.gammaAbc.length)
    (bind1 : ∀ m m' : List G1, m.length = ck1.length → m'.length = ck1.length →
      dot (e · ·) m ck1 = dot (e · ·) m' ck1 → m = m')
    (bind2 : ∀ m m' : List G2, m.length = ck2.length → m'.length = ck2.length →
      dot (e · ·) ck2 m = dot (e · ·) ck2 m' → m = m')
    (comA comB comC : GT)
    (hfalse : ¬ ∃ ps : List (G16Proof G1 G2), List.Forall₂ (Valid e vk) ps inputs ∧
      comA = dot (e · ·) (ps.map (·.a)) ck1 ∧ comB = dot (e · ·) ck2 (ps.map (·.b)) ∧
      comC = dot (e · ·) (ps.map (·.c)) ck1)
    (A : Strategy F G1 G2 GT) (S : Finset F) (hS : ∀ x ∈ S, x ≠ 0)
    [DecidablePred fun q : F × (Fin k → F) × (Fin k → F) =>
      A.Accepted V e vk inputs ck1 ck2 comA comB comC q.1 (List.ofFn q.2.1) (List.ofFn q.2.2)] :
    ((S ×ˢ (Fintype.piFinset fun _ : Fin k => S) ×ˢ (Fintype.piFinset fun _ : Fin k => S)).filter
      fun q => A.Accepted V e vk inputs ck1 ck2 comA comB comC q.1 (List.ofFn q.2.1)
        (List.ofFn q.2.2)).card ≤ (2 ^ k - 1 + 3 * k) * S.card ^ (2 * k) := by
  by_contra hcon
  obtain ⟨x, xs, -, -, h⟩ := C75_knowledge hE vk inputs k ck1 ck2 h1 h2 hin hrow comA comB comC A S hS
    (not_le.mp hcon)
  revert h
  cases extract (A.branch x.1 x.2.1 x.2.2) (xs.map fun y => A.branch y.1 y.2.1 y.2.2) with
  | proofs ps => exact fun h => hfalse ⟨ps, h⟩
  | collision1 m m' => exact fun h => h.2.2.1 (bind1 m m' h.1 h.2.1 h.2.2.2)
  | collision2 m m' => exact fun h => h.2.2.1 (bind2 m m' h.1 h.2.1 h.2.2.2)

/-! ## The runs are those of the verifier -/

section
open Polynomial

/-- C75: an aggregate proof of an algebraic prover accepted by `verify_aggregate_proof` consists of two
accepting runs for the whole key vectors and satisfies the pairing product equation, unless the trapdoors
are a zero of one of three explicit non-zero polynomials, or one of the two KZG challenges is one of the
few points where a wrong key polynomial agrees with the true one (see `C70_trapdoors`, `C70_points`). -/
theorem C75_verify_run (hE : V.E.Lawful e) (k : ℕ) (srs : SRS G1 G2) (g : G1) (h : G2) (α β : F)
    (hsrs : IsSrs srs g h α β (2 ^ k)) (hg0 : g ≠ 0) (hh0 : h ≠ 0) (hg : ∀ y, e g y = 0 → y = 0)
    (hh : ∀ x, e x h = 0 → x = 0) (v : VerifierSRS G1 G2) (hv : srs.verifierKey = .ok v)
    (vk : G16VK G1 G2) (inputs : List (List F)) (proof : AggProof F G1 G2 GT)
    (hk : proof.proofAB.gipa.steps.length = k) (hk' : proof.proofC.gipa.steps.length = k)
    (r : F) (hr : r ≠ 0) (hch : challenge V proof.comA proof.comB proof.comC = .ok r)
    (com1 : Coms GT GT (IdentityOutput GT)) (com2 : Coms GT F (IdentityOutput G1)) (tr us : List F)
    (c d : F)
    (hrec : V.pairingAB.recursiveChallenges (proof.comA, proof.comB, ⟨[proof.ipAB]⟩) proof.proofAB.gipa =
      .ok (com1, tr))
    (hc : Tipa.kzgChallenge V.tipa V.digest V.serF tr proof.proofAB.finalCk.1 proof.proofAB.finalCk.2 =
      .ok c)
    (hrec' : V.multiexpSsm.recursiveChallenges (proof.comC, r, ⟨[proof.aggC]⟩) proof.proofC.gipa =
      .ok (com2, us))
    (hd : TipaSsm.kzgChallenge V.tipa V.digest V.serF us proof.proofC.finalCk = .ok d)
    (kA oA kB oB kC oC : F[X]) (a a' b b' x x' : F)
    (hkA : proof.proofAB.finalCk.1 = kA.eval β • h + a • α • h)
    (hoA : proof.proofAB.finalCkProof.1 = oA.eval β • h + a' • α • h)
    (hkB : proof.proofAB.finalCk.2 = kB.eval α • g + b • β • g)
    (hoB : proof.proofAB.finalCkProof.2 = oB.eval α • g + b' • β • g)
    (hkC : proof.proofC.finalCk = kC.eval β • h + x • α • h)
    (hoC : proof.proofC.finalCkProof = oC.eval β • h + x' • α • h)
    (tA : (powerPart kA oA ((keyPoly (tr.map (·⁻¹)) r⁻¹).eval c) c).eval β
        + α * (otherPart a a' c).eval β = 0 →
      powerPart kA oA ((keyPoly (tr.map (·⁻¹)) r⁻¹).eval c) c = 0 ∧ otherPart a a' c = 0)
    (tB : (powerPart kB oB ((keyPoly tr 1).eval c) c).eval α + β * (otherPart b b' c).eval α = 0 →
      powerPart kB oB ((keyPoly tr 1).eval c) c = 0 ∧ otherPart b b' c = 0)
    (tC : (powerPart kC oC ((keyPoly (us.map (·⁻¹)) 1).eval d) d).eval β
        + α * (otherPart x x' d).eval β = 0 →
      powerPart kC oC ((keyPoly (us.map (·⁻¹)) 1).eval d) d = 0 ∧ otherPart x x' d = 0)
    (cA : kA.eval c = (keyPoly (tr.map (·⁻¹)) r⁻¹).eval c → kA = keyPoly (tr.map (·⁻¹)) r⁻¹)
    (cB : kB.eval c = (keyPoly tr 1).eval c → kB = keyPoly tr 1)
    (cC : kC.eval d = (keyPoly (us.map (·⁻¹)) 1).eval d → kC = keyPoly (us.map (·⁻¹)) 1)
    (hacc : verify V v vk inputs proof = .ok true) :
    Extract.Run e e e.flip (fun x => (⟨[x]⟩ : IdentityOutput GT))
      (srs.commitmentKeys.1.mapIdx fun i k => r⁻¹ ^ i • k) srs.commitmentKeys.2
      (proof.comA, proof.comB, ⟨[proof.ipAB]⟩) tr.reverse proof.proofAB.gipa.steps.reverse
      proof.proofAB.gipa.base.1 proof.proofAB.gipa.base.2 ∧
    SsmExtract.Run (smulMap F G1) e (fun x => (⟨[x]⟩ : IdentityOutput G1)) srs.commitmentKeys.1
      ((List.range (2 ^ k)).map (r ^ ·)) (proof.comC, ⟨[proof.aggC]⟩) us.reverse
      (SsmExtract.outer proof.proofC.gipa.steps.reverse) proof.proofC.gipa.base.1 ∧
    verifyPpe V vk inputs r proof.ipAB proof.aggC = .ok true := by
  obtain ⟨r', b1, b2, b3, ⟨H0, H1, H2⟩, h3, hb⟩ := verify_ok v vk inputs proof V true hacc
  rw [hch] at H0
  have := Except.ok.inj H0
  subst this
  obtain ⟨⟨rfl, rfl⟩, rfl⟩ : (b1 = true ∧ b2 = true) ∧ b3 = true := by simpa using hb.symm
  refine ⟨?_, ?_, h3⟩
  · have h1 := Tipa.C70_tipa (pairingAB_lawful V hE) hE k srs g h α β hsrs hg0 hh0 hg hh v hv PUnit.unit _
      com1 proof.proofAB r hr tr c hk hrec hc kA oA kB oB a a' b b' hkA hoA hkB hoB tA tB cA cB H1
    obtain ⟨e1, e2, -⟩ := C25_keys srs g h α β _ Nat.one_le_two_pow hsrs
    rw [Extract.C67_verify_iff (pairingAB_lawful V hE) _ _ _ _ _ (by rw [e1, hk]; simp)
      (by rw [e2, hk]; simp)] at h1
    obtain ⟨cs, com', h4, h5⟩ := h1
    rw [hrec] at h4
    have := (Prod.mk.inj (Except.ok.inj h4)).2
    rw [this, List.reverse_reverse]
    exact h5
  · exact SsmExtract.C71_tipa_run (multiexpSsm_lawful V hE) hE V.X k srs g h α β
      (hsrs.left Nat.one_le_two_pow) hh0 hg v hv PUnit.unit proof.comC ⟨[proof.aggC]⟩ r com2 proof.proofC
      us d hk' hrec' hd kC oC x x' hkC hoC tC cC H2

end

/-! ## Concrete instances -/

/-- The runs of an honest prover for the proofs (5, 7, 24) and (5, 7, 20) after the challenge `r`. -/
def toyBranch (r : Toy.F) : Branch Toy.F Toy.F Toy.F Toy.F where
  r := r
  ipAB := 35 + 35 * r
  aggC := 24 + 20 * r
  ab := .node (5 * r, 63, ⟨[35 * r]⟩) (5 * 25 * r⁻¹, 7, ⟨[35]⟩) ![1, 2, 3, 4]
    fun i => .leaf (5 + 5 * r * ![1, 2, 3, 4] i) (7 + 7 * (![1, 2, 3, 4] i)⁻¹)
  c := .node (20, ⟨[20]⟩) (24 * 25, ⟨[24 * r]⟩) ![1, 2, 3] fun i => .leaf (24 + 20 * ![1, 2, 3] i)

theorem toyBranch_accepts (r : Toy.F) (h : r = 2 ∨ r = 3) :
    (toyBranch r).Accepts Toy.env Toy.e toyVK [[1], [2]] [1, 25] [1, 9] 29 70 19 := by
  rcases h with rfl | rfl
  all_goals
  refine ⟨by decide, ⟨by decide, by decide, by decide, by decide, fun i => ?_⟩,
    ⟨by decide, by decide, by decide, by decide, fun i => ?_⟩, by decide +kernel⟩
  · fin_cases i <;> exact ⟨_, _, rfl, rfl, by decide +kernel, by decide +kernel, by decide +kernel⟩
  · fin_cases i <;> exact ⟨_, _, rfl, rfl, by decide +kernel, by decide +kernel⟩

/-- C75 applied: the extractor finds the two proofs. -/
example : (extract (toyBranch 2) [toyBranch 3]).Good Toy.e toyVK [[1], [2]] [1, 25] [1, 9] 29 70 19 :=
  C75_extract Toy.lawful toyVK [[1], [2]] [1, 25] [1, 9] rfl (by simp [toyVK]) 29 70 19 _ _
    (by simp only [List.mem_cons, List.not_mem_nil, or_false]
        rintro b (rfl | rfl)
        · exact toyBranch_accepts 2 (.inl rfl)
        · exact toyBranch_accepts 3 (.inr rfl))
    (by simp [toyBranch]; decide) (by simp)

example : extract (toyBranch 2) [toyBranch 3] = .proofs [⟨5, 7, 24⟩, ⟨5, 7, 20⟩] := by
  have h2 : (toyBranch 2).extract = .proofs [⟨5, 7, 24⟩, ⟨5, 7, 20⟩] := by
    have : Extract.extract (toyBranch 2).ab = .opening [5, 10] [7, 7] := by decide +kernel
    rw [Branch.extract, this]
    have : SsmExtract.extract (toyBranch 2).c = [24, 20] := by decide +kernel
    have hu : unshift (2 : Toy.F) [(5 : Toy.F), 10] = [5, 5] := by decide +kernel
    rw [this, show (toyBranch 2).r = 2 from rfl, found, hu]
    rfl
  have h3 : (toyBranch 3).extract = .proofs [⟨5, 7, 24⟩, ⟨5, 7, 20⟩] := by
    have : Extract.extract (toyBranch 3).ab = .opening [5, 15] [7, 7] := by decide +kernel
    rw [Branch.extract, this]
    have : SsmExtract.extract (toyBranch 3).c = [24, 20] := by decide +kernel
    have hu : unshift (3 : Toy.F) [(5 : Toy.F), 15] = [5, 5] := by decide +kernel
    rw [this, show (toyBranch 3).r = 3 from rfl, found, hu]
    rfl
  rw [extract, h2, List.map_singleton, h3]
  simp [settle, agree]

/-- The same prover as a strategy. -/
def toyStrategy : Strategy Toy.F Toy.F Toy.F Toy.F where
  ipAB r := 35 + 35 * r
  aggC r := 24 + 20 * r
  stAB r _ := ((5 * r, 63, ⟨[35 * r]⟩), (5 * 25 * r⁻¹, 7, ⟨[35]⟩))
  finAB r cs := (5 + 5 * r * cs.headD 0, 7 + 7 * (cs.headD 0)⁻¹)
  stC r _ := ((20, ⟨[20]⟩), (24 * 25, ⟨[24 * r]⟩))
  finC r cs := 24 + 20 * cs.headD 0

/-- It is accepted for all of the challenges 2, …, 6, more than the bound of `C75_knowledge`. -/
example : ∃ S : Finset Toy.F, (∀ x ∈ S, x ≠ 0) ∧
    ∀ _ : DecidablePred fun q : Toy.F × (Fin 1 → Toy.F) × (Fin 1 → Toy.F) =>
      toyStrategy.Accepted Toy.env Toy.e toyVK [[1], [2]] [1, 25] [1, 9] 29 70 19 q.1 (List.ofFn q.2.1)
        (List.ofFn q.2.2),
    (2 ^ 1 - 1 + 3 * 1) * S.card ^ (2 * 1) <
      ((S ×ˢ (Fintype.piFinset fun _ : Fin 1 => S) ×ˢ (Fintype.piFinset fun _ : Fin 1 => S)).filter
        fun q => toyStrategy.Accepted Toy.env Toy.e toyVK [[1], [2]] [1, 25] [1, 9] 29 70 19 q.1
          (List.ofFn q.2.1) (List.ofFn q.2.2)).card := by
  refine ⟨{2, 3, 4, 5, 6}, by decide, fun _ => ?_⟩
  rw [Finset.filter_true_of_mem, Finset.card_product, Finset.card_product, Fintype.card_piFinset_const]
  · decide
  · rintro ⟨r, xs, ys⟩ hq
    simp only [Finset.mem_product, Fintype.mem_piFinset] at hq
    obtain ⟨hr, hx, hy⟩ := hq
    have hx := hx 0
    have hy := hy 0
    have e1 : List.ofFn xs = [xs 0] := by simp
    have e2 : List.ofFn ys = [ys 0] := by simp
    simp only [e1, e2]
    generalize xs 0 = x at hx
    generalize ys 0 = y at hy
    have hr0 : r ≠ 0 := by rintro rfl; revert hr; decide
    have hx0 : x ≠ 0 := by rintro rfl; revert hx; decide
    have hy0 : y ≠ 0 := by rintro rfl; revert hy; decide
    refine ⟨⟨1 + x⁻¹ * (r⁻¹ * 25), 1 + x * 9, ?_, ?_, ?_, ?_, ?_⟩,
      ⟨1 + y⁻¹ * 25, 1 + y⁻¹ * r, ?_, ?_, ?_, ?_⟩, ?_⟩
    · simp [foldAll, foldHalf, addV, smulV]
    · simp [foldAll, foldHalf, addV, smulV]
    · rw [show (29 : Toy.F) = 130 by decide]
      simp [accum, toyStrategy, Extract.sent]; field_simp; ring
    · simp [accum, toyStrategy, Extract.sent]; field_simp; ring
    · refine congrArg (fun t => (⟨[t]⟩ : IdentityOutput Toy.F))
        (show x * (35 * r) + (35 + 35 * r) + x⁻¹ * 35 = (5 + 5 * r * x) * (7 + 7 * x⁻¹) from ?_)
      field_simp; ring
    · simp [foldAll, foldHalf, addV, smulV]
    · simp [foldAll, foldHalf, addV, smulV, List.range_succ]
    · rw [show (19 : Toy.F) = 524 by decide]
      simp [accum, toyStrategy, Extract.sent]; field_simp; ring
    · refine congrArg (fun t => (⟨[t]⟩ : IdentityOutput Toy.F))
        (show y * 20 + (24 + 20 * r) + y⁻¹ * (24 * r) = (1 + y⁻¹ * r) * (24 + 20 * y) from ?_)
      field_simp; ring
    · simp only [Finset.mem_insert, Finset.mem_singleton] at hr
      rcases hr with rfl | rfl | rfl | rfl | rfl <;> decide +kernel

/-- A reference string for two proofs, `α = 2`, `β = 5`. -/
def toySrs2 : SRS Toy.F Toy.F := ⟨[1, 2, 4], [1, 5, 25], 5, 2⟩

/-- An aggregate of the two proofs. -/
def toyAgg : AggProof Toy.F Toy.F Toy.F Toy.F where
  comA := 29
  comB := 35
  comC := 19
  ipAB := 39
  aggC := 84
  proofAB := ⟨⟨[((15, 28, ⟨[4]⟩), 8, 7, ⟨[35]⟩)], (10, 28)⟩, (26, 36), (8, 69)⟩
  proofC := ⟨⟨[((20, 0, ⟨[20]⟩), 95, 0, ⟨[72]⟩)], (98, 10)⟩, 76, 24⟩

section
open Polynomial

theorem toy_keyPoly (x r : Toy.F) : keyPoly [x] r = 1 + C (x * r) * X ^ 2 := by
  simp [keyPoly, mul_assoc]

/-- `C75_verify_run` applied to it. The final keys are `1 + X²` and `1 + 3 X²` at `β` and `1 + 34 X²` at
`α`; the KZG challenge is 3. -/
example : Extract.Run Toy.e Toy.e Toy.e.flip (fun x => (⟨[x]⟩ : IdentityOutput Toy.F))
      (toySrs2.commitmentKeys.1.mapIdx fun i k => (3 : Toy.F)⁻¹ ^ i • k) toySrs2.commitmentKeys.2
      (29, 35, ⟨[39]⟩) [34] [((15, 28, ⟨[4]⟩), 8, 7, ⟨[35]⟩)] 10 28 ∧
    SsmExtract.Run (smulMap Toy.F Toy.F) Toy.e (fun x => (⟨[x]⟩ : IdentityOutput Toy.F))
      toySrs2.commitmentKeys.1 ((List.range (2 ^ 1)).map ((3 : Toy.F) ^ ·)) (19, ⟨[84]⟩) [34]
      [((20, ⟨[20]⟩), (95, ⟨[72]⟩))] 98 ∧
    verifyPpe Toy.env toyVK [[1], [2]] 3 39 84 = .ok true := by
  have e1 : keyPoly (([34] : List Toy.F).map (·⁻¹)) (3 : Toy.F)⁻¹ = 1 + X ^ 2 := by
    rw [List.map_singleton, toy_keyPoly, show (34 : Toy.F)⁻¹ * 3⁻¹ = 1 by decide +kernel]; simp
  have e2 : keyPoly [(34 : Toy.F)] 1 = 1 + C 34 * X ^ 2 := by rw [toy_keyPoly, mul_one]
  have e3 : keyPoly (([34] : List Toy.F).map (·⁻¹)) 1 = 1 + C 3 * X ^ 2 := by
    rw [List.map_singleton, toy_keyPoly, show (34 : Toy.F)⁻¹ * 1 = 3 by decide +kernel]
  have pw : ∀ a : Toy.F, powerPart (1 + C a * X ^ 2) (C a * (X + C 3)) ((1 + C a * X ^ 2 : Toy.F[X]).eval 3) 3
      = 0 := by
    intro a
    simp only [powerPart, eval_add, eval_mul, eval_one, eval_C, eval_pow, eval_X, map_add, map_one, map_mul,
      map_pow]
    ring
  have pw1 := pw 1
  rw [map_one, one_mul, one_mul] at pw1
  have hop : otherPart (0 : Toy.F) 0 3 = 0 := by simp [otherPart]
  refine C75_verify_run (V := Toy.env) Toy.lawful 1 toySrs2 1 1 2 5
    ⟨by decide +kernel, by decide +kernel, by decide, by decide⟩ (by decide) (by decide)
    (fun y h => by simpa using h) (fun x h => by simpa using h) _ rfl toyVK [[1], [2]] toyAgg rfl rfl 3
    (by decide) (challenge_toy _ _ _) (58, 99, ⟨[78]⟩) (75, 3, ⟨[71]⟩) [34] [34] 3 3
    (by decide +kernel) (by decide +kernel) (by decide +kernel) (by decide +kernel)
    (1 + X ^ 2) (X + C 3) (1 + C 34 * X ^ 2) (C 34 * (X + C 3)) (1 + C 3 * X ^ 2) (C 3 * (X + C 3))
    0 0 0 0 0 0 ?_ ?_ ?_ ?_ ?_ ?_ (fun _ => ⟨by rw [e1]; exact pw1, hop⟩)
    (fun _ => ⟨by rw [e2]; exact pw 34, hop⟩) (fun _ => ⟨by rw [e3]; exact pw 3, hop⟩)
    (fun _ => e1.symm) (fun _ => e2.symm) (fun _ => e3.symm) (by decide +kernel)
  all_goals
  simp only [toyAgg, eval_add, eval_mul, eval_one, eval_C, eval_pow, eval_X]
  decide +kernel

end

/-- The tensor product pairing on pairs, for which the keys (1, 0), (0, 1) are binding. -/
def tensor : (Toy.F × Toy.F) →ₗ[Toy.F] (Toy.F × Toy.F) →ₗ[Toy.F] (Toy.F × Toy.F) × (Toy.F × Toy.F) :=
  LinearMap.mk₂ Toy.F (fun x y => (x.1 • y, x.2 • y))
    (fun x x' y => by ext <;> simp [add_mul]) (fun c x y => by ext <;> simp [mul_assoc])
    (fun x y y' => by ext <;> simp) (fun c x y => by ext <;> simp <;> ring)

/-- An environment that computes it. -/
def tensorEnv : Env ℕ Toy.F (Toy.F × Toy.F) (Toy.F × Toy.F) ((Toy.F × Toy.F) × (Toy.F × Toy.F))
    (Multiplicative ((Toy.F × Toy.F) × (Toy.F × Toy.F))) where
  E := ⟨fun x y => .ofAdd (tensor x y), fun t => some t.toAdd⟩
  X := Toy.X
  digest := Toy.digest
  fromRandomBytes _ := some 3
  serF := Toy.ser
  serG1 x := Toy.ser x.1 ++ Toy.ser x.2
  serG2 x := Toy.ser x.1 ++ Toy.ser x.2
  serGT x := Toy.ser x.1.1 ++ Toy.ser x.1.2 ++ Toy.ser x.2.1 ++ Toy.ser x.2.2
  randF := Toy.rand
  randG1 s := ((s, 0), s + 1)
  randG2 s := ((s, 0), s + 1)
  g := (1, 0)
  h := (1, 0)

/-- The hypotheses of `C75_soundness` for two proofs: binding keys, and zero commitments, for which no
valid proofs exist. -/
example : tensorEnv.E.Lawful tensor ∧
    (∀ m m' : List (Toy.F × Toy.F), m.length = 2 → m'.length = 2 →
      dot (tensor · ·) m [(1, 0), (0, 1)] = dot (tensor · ·) m' [(1, 0), (0, 1)] → m = m') ∧
    (∀ m m' : List (Toy.F × Toy.F), m.length = 2 → m'.length = 2 →
      dot (tensor · ·) [(1, 0), (0, 1)] m = dot (tensor · ·) [(1, 0), (0, 1)] m' → m = m') ∧
    ¬ ∃ ps : List (G16Proof (Toy.F × Toy.F) (Toy.F × Toy.F)),
      List.Forall₂ (Valid tensor ⟨(1, 0), (1, 0), (0, 0), (0, 0), [(1, 0), (1, 0)]⟩) ps [[1], [2]] ∧
      (0 : (Toy.F × Toy.F) × (Toy.F × Toy.F)) = dot (tensor · ·) (ps.map (·.a)) [(1, 0), (0, 1)] ∧
      (0 : (Toy.F × Toy.F) × (Toy.F × Toy.F)) = dot (tensor · ·) [(1, 0), (0, 1)] (ps.map (·.b)) ∧
      (0 : (Toy.F × Toy.F) × (Toy.F × Toy.F)) = dot (tensor · ·) (ps.map (·.c)) [(1, 0), (0, 1)] := by
  refine ⟨⟨rfl, fun _ _ => rfl, fun x y u v hx hy => ?_⟩, ?_, ?_, ?_⟩
  · simp only [tensorEnv, Option.some.injEq] at hx hy ⊢
    rw [← hx, ← hy]; rfl
  · intro m m' h h' he
    obtain ⟨x, y, rfl⟩ := List.length_eq_two.mp h
    obtain ⟨x', y', rfl⟩ := List.length_eq_two.mp h'
    simp [tensor, Prod.ext_iff] at he ⊢
    tauto
  · intro m m' h h' he
    obtain ⟨x, y, rfl⟩ := List.length_eq_two.mp h
    obtain ⟨x', y', rfl⟩ := List.length_eq_two.mp h'
    simp [tensor, Prod.ext_iff] at he ⊢
    tauto
  · rintro ⟨ps, hv, ha, -, -⟩
    cases hv with
    | cons h1 hv => cases hv with
      | cons h2 hv =>
        cases hv
        have := h1.2
        simp [tensor, Prod.ext_iff] at ha this
        obtain ⟨⟨ha1, -⟩, ha2, -⟩ := ha
        simp [← ha1] at this

end Ripp.Groth16
