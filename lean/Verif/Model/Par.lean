import Verif.Model.Basic

/-!
# rayon: chunking and reductions under an arbitrary schedule

rayon's `sum`, `product` and `reduce` split the (indexed) input into contiguous parts in a way that
depends on the number of threads and on work stealing, fold each part sequentially starting from the
identity, and combine the results of neighbouring parts. A schedule is therefore an arbitrary
binary tree of split points.
-/

namespace Ripp

/-- An arbitrary run-time splitting decision tree of rayon's `bridge_producer_consumer`. -/
inductive Sched
  | leaf
  | split (at_ : ℕ) (l r : Sched)

/-- `par_iter().reduce(|| id, op)` (also `sum()`, `product()`) executed under schedule `s`. -/
def parReduce {α : Type} (op : α → α → α) (id : α) : Sched → List α → α
  | .leaf, xs => xs.foldl op id
  | .split n l r, xs => op (parReduce op id l (xs.take n)) (parReduce op id r (xs.drop n))

/-- One execution environment: `rayon::current_num_threads()` (always at least one) and the schedule
used by the reduction. Building without the `parallel` feature is `threads = 1`, `sched = leaf`
(`inner_products/src/lib.rs:91-94`). -/
structure Exec where
  threads : ℕ
  pos : 0 < threads
  sched : Sched

/-- `par_chunks(n)` / `chunks(n)` for `n ≠ 0`. -/
def chunks {α : Type} (n : ℕ) (xs : List α) : List (List α) :=
  if _h : xs = [] ∨ n = 0 then [] else xs.take n :: chunks n (xs.drop n)
termination_by xs.length
decreasing_by
  have : xs.length ≠ 0 := fun h' => _h (Or.inl (List.length_eq_zero_iff.mp h'))
  simp only [List.length_drop]; omega

/-- The chunk size computed at `inner_products/src/lib.rs:96-101` and `sipp/src/lib.rs:201-206`. -/
def chunkSize (threads len : ℕ) : ℕ :=
  if threads ≤ len then len / threads else 1

end Ripp
