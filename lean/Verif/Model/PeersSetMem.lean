import Verif.Model.PeersSet
import Verif.Model.Views

/-!
# The allocations of `src/adnl/peers_set.rs`

Every member is one allocation, shared by the map and the index with `Rc`. The model of `PeersSet` drops
this; here the reference counts are followed, because the iterator hands out references into the
allocations.
-/
namespace Verif.PeersSetMem
open Verif.Views (Mem)

variable {α : Type} [DecidableEq α]

/-- Live allocations: the id and the reference count. Addresses are numbered in the order of allocation,
so a freed address is never valid again. -/
abbrev Heap (α : Type) := AMap Nat (α × Nat)

/-- `PeersSetState` (peers_set.rs:219-225): the keys of the map are compared by content and hold a
reference, as the slots of the index do. -/
structure State (α : Type) where
  heap : Heap α
  next : Nat
  cache : AMap α (Nat × Nat)
  index : List Nat
  capacity : Nat
  upper : Nat
deriving DecidableEq

/-- `with_capacity` (peers_set.rs:18-22, 228-239). -/
def withCapacity (c : Nat) : State α := ⟨[], 0, [], [], PeersSet.makeCapacity c, 0⟩

/-- Loop of `with_peers_and_capacity` (peers_set.rs:247-262). -/
def fillLoop (s : State α) : List α → State α
  | [] => s
  | p :: ps =>
    if s.upper ≥ s.capacity then s
    else match s.cache.get p with
      | none => fillLoop ⟨s.heap.put s.next (p, 2), s.next + 1, s.cache.put p (s.next, s.upper),
          s.index ++ [s.next], s.capacity, s.upper + 1⟩ ps
      | some _ => fillLoop { s with next := s.next + 1 } ps

/-- `with_peers_and_capacity` (peers_set.rs:241-266). -/
def withPeers (peers : List α) (c : Nat) : State α :=
  let s := fillLoop (withCapacity c) peers
  { s with upper := s.upper % s.capacity }

/-- Dropping an `Rc`: the last one frees the allocation. -/
def dropRc (h : Heap α) (a : Nat) : Mem (Heap α) :=
  match h.get a with
  | none => .undefined
  | some (x, n) => if n ≤ 1 then .ok (h.erase a) else .ok (h.put a (x, n - 1))

/-- Reading through a reference to the allocation. -/
def deref (h : Heap α) (a : Nat) : Mem α :=
  match h.get a with
  | none => .undefined
  | some (x, _) => .ok x

/-- `PeersSetState::insert` (peers_set.rs:272-304). The new allocation `next` has two references, the one
of the map and the one of the index. -/
def insert (s : State α) (p : α) : Mem (State α × Bool) :=
  match s.cache.get p with
  | some _ => .ok ({ s with next := s.next + 1 }, false)      -- both references are dropped
  | none =>
    let heap := s.heap.put s.next (p, 2)
    let cache := s.cache.put p (s.next, s.upper)
    let upper := (s.upper + 1) % s.capacity
    match s.index[s.upper]? with
    | none => .ok (⟨heap, s.next + 1, cache, s.index ++ [s.next], s.capacity, upper⟩, true)
    | some old => do
      let oldId ← deref heap old
      match cache.get oldId with
      | none => do
        let heap ← dropRc heap old
        pure (⟨heap, s.next + 1, cache, s.index.set s.upper s.next, s.capacity, upper⟩, true)
      | some (key, i) =>
        if i = s.upper then do
          let heap ← dropRc heap key
          let heap ← dropRc heap old
          pure (⟨heap, s.next + 1, cache.erase oldId, s.index.set s.upper s.next, s.capacity, upper⟩, true)
        else do
          let heap ← dropRc heap old
          pure (⟨heap, s.next + 1, cache, s.index.set s.upper s.next, s.capacity, upper⟩, true)

/-- `extend` (peers_set.rs:130-138), or any sequence of inserts. -/
def inserts (s : State α) : List α → Mem (State α)
  | [] => .ok s
  | p :: ps => do
    let r ← insert s p
    inserts r.1 ps

/-- The references `Iter::next` hands out (peers_set.rs:184-203), one for each slot. -/
def iter (s : State α) : List Nat := s.index

/-- Dropping the map (peers_set.rs:155-157: only the index of the state is moved out). -/
def dropAll (h : Heap α) : List Nat → Mem (Heap α)
  | [] => .ok h
  | a :: as => do
    let h ← dropRc h a
    dropAll h as

/-- `IntoIter::next` until the end (peers_set.rs:165-172): `Rc::try_unwrap` gives the id if this is the
only reference; the others are dropped and skipped. -/
def unwrapAll (h : Heap α) : List Nat → Mem (List α)
  | [] => .ok []
  | a :: as =>
    match h.get a with
    | none => .undefined
    | some (x, n) =>
      if n = 1 then do
        let rest ← unwrapAll (h.erase a) as
        pure (x :: rest)
      else do
        let h ← dropRc h a
        unwrapAll h as

/-- `into_iter` (peers_set.rs:150-158) followed by the whole iteration. -/
def intoIter (s : State α) : Mem (List α) := do
  let h ← dropAll s.heap (s.cache.map (fun e => e.2.1))
  unwrapAll h s.index

end Verif.PeersSetMem
