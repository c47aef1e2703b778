import Mathlib.Data.List.Perm.Subperm
/-!
# Specification: a bounded first-in first-out set, and random samples
-/
namespace Verif.Spec

/-- Insert `x` in a queue of distinct elements (oldest first) of capacity `cap`: nothing happens if
it is there; otherwise it becomes the newest, and if the queue was full the oldest leaves. -/
def fifoInsert {α : Type} [DecidableEq α] (cap : Nat) (q : List α) (x : α) : List α :=
  if x ∈ q then q else if q.length < cap then q ++ [x] else q.tail ++ [x]

/-- The first `cap` distinct elements of a list, in order of first appearance. -/
def firstDistinct {α : Type} [DecidableEq α] (cap : Nat) (xs : List α) : List α :=
  xs.foldl (fun q x => if q.length < cap ∧ x ∉ q then q ++ [x] else q) []

/-- `chosen` is a possible result of choosing `k` elements of `pool` at random without
replacement (`rand::SliceRandom::choose_multiple`): all of the pool if it has fewer than `k`. -/
def IsSample {α : Type} (chosen pool : List α) (k : Nat) : Prop :=
  chosen.Subperm pool ∧ chosen.length = min k pool.length

end Verif.Spec
