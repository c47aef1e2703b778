import Verif.Model.AMap

/-!
# Model of `src/adnl/peers_set.rs`

`α` stands for `NodeIdShort`. `Ref`/`Wrapper` only share the allocation of the id and are dropped.
The `RwLock` makes every operation atomic, so a concurrent history is a sequence of operations.
-/
namespace Verif.PeersSet

variable {α : Type} [DecidableEq α]

/-- `PeersSetState` (peers_set.rs:219-225). -/
structure State (α : Type) where
  version : Nat
  cache : AMap α Nat
  index : List α
  capacity : Nat
  upper : Nat

/-- `make_capacity` (peers_set.rs:354-358). -/
def makeCapacity (c : Nat) : Nat := max 1 c

/-- `with_capacity` (peers_set.rs:18-22, 228-239). -/
def withCapacity (c : Nat) : State α := ⟨0, [], [], makeCapacity c, 0⟩

/-- Loop of `with_peers_and_capacity` (peers_set.rs:247-262). -/
def fillLoop (s : State α) : List α → State α
  | [] => s
  | p :: ps =>
    if s.upper ≥ s.capacity then s                        -- break
    else match s.cache.get p with
      | none => fillLoop { s with cache := s.cache.put p s.upper, index := s.index ++ [p],
                                  upper := s.upper + 1 } ps
      | some _ => fillLoop s ps

/-- `with_peers_and_capacity` (peers_set.rs:241-266). -/
def withPeers (peers : List α) (c : Nat) : State α :=
  let s := fillLoop (withCapacity c) peers
  { s with upper := s.upper % s.capacity }

/-- `PeersSetState::insert` (peers_set.rs:272-304). -/
def insert (s : State α) (p : α) : State α × Bool :=
  match s.cache.get p with
  | some _ => (s, false)
  | none =>
    let cache := s.cache.put p s.upper
    let index := s.upper
    let upper := (s.upper + 1) % s.capacity
    match s.index[index]? with
    | some old =>
      let cache := if cache.get old = some index then cache.erase old else cache
      (⟨s.version + 1, cache, s.index.set index p, s.capacity, upper⟩, true)
    | none =>
      (⟨s.version + 1, cache, s.index ++ [p], s.capacity, upper⟩, true)

/-- `contains` (peers_set.rs:40-42). -/
def contains (s : State α) (p : α) : Bool := (s.cache.get p).isSome

/-- `get` (peers_set.rs:44-49). -/
def get (s : State α) (i : Nat) : Option α := s.index[i]?

/-- `len` (peers_set.rs:51-53). -/
def len (s : State α) : Nat := s.index.length

/-- `is_full` (peers_set.rs:268-270). -/
def isFull (s : State α) : Bool := s.index.length ≥ s.capacity

/-- `extend` (peers_set.rs:130-138). -/
def extend (s : State α) (ps : List α) : State α := ps.foldl (fun s p => (insert s p).1) s

/-- Number asked from `choose_multiple` in `get_random_peers` (peers_set.rs:72). The addition is
on `u32`. -/
def sampleSize (amount : Nat) (except : Option α) : Nat :=
  if except.isSome then (amount + 1) % 2 ^ 32 else amount

/-- `get_random_peers` (peers_set.rs:67-83) after `choose_multiple` returned `chosen`. -/
def getRandomPeers (chosen : List α) (amount : Nat) : Option α → List α
  | some e => (chosen.filter (fun x => x ≠ e)).take amount
  | none => chosen

/-- Number asked from `choose_multiple` in `randomly_fill_from` (peers_set.rs:96-99). -/
def fillSampleSize (amount : Nat) (except : Option (List α)) : Nat :=
  match except with
  | some es => amount + es.length
  | none => amount

/-- Peers offered to `insert` by `randomly_fill_from` (peers_set.rs:112-120). -/
def fillOffered (chosen : List α) (amount : Nat) : Option (List α) → List α
  | some es => (chosen.filter (fun x => x ∉ es)).take amount
  | none => chosen

/-- `randomly_fill_from` (peers_set.rs:85-121); `same` is the pointer comparison of line 92. -/
def randomlyFillFrom (s : State α) (same : Bool) (chosen : List α) (amount : Nat)
    (except : Option (List α)) : State α :=
  if same then s else extend s (fillOffered chosen amount except)

end Verif.PeersSet
