import Verif.Model.DhtNode

/-!
# `src/dht/peers_iter.rs` and `src/dht/streams.rs`

`known` is the list of known peers below the capacity of the peer set (65536), where it only grows at
the end. It may grow while `fill` runs; as earlier positions do not change this is the same as reading
the list found by the last read.
-/
namespace Verif.Lookup
open Verif.Buckets

/-- `PeersIter` (peers_iter.rs:6-10). The vector is kept reversed: the head of `stack` is its last
element. -/
structure Iter where
  stack : List (Nat × Bytes)
  index : Nat

/-- Whether a peer is added (peers_iter.rs:32-37). -/
def wanted (batch : Option Nat) (stack : List (Nat × Bytes)) (affinity : Nat) : Bool :=
  match stack, batch with
  | [], _ => true
  | _, none => true
  | (top, _) :: _, some n => decide (top ≤ affinity) || decide (stack.length < n)

/-- The loop of `fill` with `next_known_peer` (peers_iter.rs:27-42, 61-74) over the known peers from
`index` on. The read that finds nothing also increments the index. -/
def fillLoop (key : Bytes) (bad : Bytes → Bool) (batch : Option Nat) : List Bytes → Iter → Iter
  | [], it => { it with index := it.index + 1 }
  | p :: ps, it =>
    if bad p then fillLoop key bad batch ps { it with index := it.index + 1 }
    else if wanted batch it.stack (affinity key p) then
      fillLoop key bad batch ps ⟨(affinity key p, p) :: it.stack, it.index + 1⟩
    else fillLoop key bad batch ps { it with index := it.index + 1 }

/-- `Vec::retain` of peers_iter.rs:49-57. -/
def retain (batch top : Nat) : Nat → List (Nat × Bytes) → List (Nat × Bytes)
  | _, [] => []
  | offset, x :: xs =>
    if offset < batch ∨ x.1 ≥ top then x :: retain batch top (offset + 1) xs
    else retain batch top (offset + 1) xs

/-- Sorting and cutting (peers_iter.rs:44-58). `sort` is `sort_unstable_by_key`, descending. -/
def cut (sort : List (Nat × Bytes) → List (Nat × Bytes)) (batch : Option Nat)
    (v : List (Nat × Bytes)) : List (Nat × Bytes) :=
  match batch, sort v with
  | some n, (top, p) :: rest => retain n top 0 ((top, p) :: rest)
  | _, v' => v'

/-- `fill` (peers_iter.rs:25-59). -/
def fill (sort : List (Nat × Bytes) → List (Nat × Bytes)) (key : Bytes) (bad : Bytes → Bool)
    (batch : Option Nat) (known : List Bytes) (it : Iter) : Iter :=
  let it' := fillLoop key bad batch (known.drop it.index) it
  { it' with stack := (cut sort batch it'.stack.reverse).reverse }

/-- `MAX_PARALLEL_FUTURES` (streams.rs:150). -/
def maxParallel : Nat := 5

/-- `DhtValuesStream` (streams.rs:17-27). `count = none` is the initial `usize::MAX`; `futures` are the
peers being asked; `asked` (not in the code) lists all peers asked so far. -/
structure Stream where
  iter : Iter
  futures : List Bytes
  count : Option Nat
  version : Nat
  asked : List Bytes

/-- `refill_futures` (streams.rs:69-101); `PeersIter::next` (peers_iter.rs:21-23) takes the last element. -/
def refill : List (Nat × Bytes) → Nat → List Bytes → List (Nat × Bytes) × Nat × List Bytes
  | [], count, started => ([], count, started)
  | (_, p) :: rest, count, started =>
    if count + 1 > maxParallel then (rest, count + 1, started ++ [p])
    else refill rest (count + 1) (started ++ [p])

/-- Settings of a lookup. -/
structure Cfg where
  sort : List (Nat × Bytes) → List (Nat × Bytes)
  key : Bytes
  batch : Option Nat
  useNew : Bool

/-- What the lookup finds in one turn of the loop of `poll_next`: the known peers and their version,
which peers are bad, and which future (if any) is ready and whether it gave a value. -/
structure Turn where
  known : List Bytes
  version : Nat
  bad : Bytes → Bool
  ready : Option (Nat × Bool)

inductive Out where
  | item | again | pending | finished
deriving DecidableEq, Repr

/-- First poll (streams.rs:114-117). -/
def start (cfg : Cfg) (t : Turn) (s : Stream) : Stream × Nat :=
  match s.count with
  | some n => (s, n)
  | none => ({ s with iter := fill cfg.sort cfg.key t.bad cfg.batch t.known s.iter }, 0)

/-- Starting queries (streams.rs:120-123). -/
def launch (s : Stream) (n : Nat) : Stream :=
  if n < maxParallel then
    let r := refill s.iter.stack n []
    { s with iter := { s.iter with stack := r.1 }, count := some r.2.1,
             futures := s.futures ++ r.2.2, asked := s.asked ++ r.2.2 }
  else { s with count := some n }

/-- A future finished (streams.rs:126-137). -/
def finish (cfg : Cfg) (t : Turn) (s : Stream) (i : Nat) : Stream :=
  let s := { s with futures := s.futures.eraseIdx i, count := s.count.map (· - 1) }
  if cfg.useNew ∧ t.version ≠ s.version then
    { s with iter := fill cfg.sort cfg.key t.bad cfg.batch t.known s.iter, version := t.version }
  else s

/-- One turn of the loop of `poll_next` (streams.rs:119-149). -/
def turn (cfg : Cfg) (s : Stream) (t : Turn) : Stream × Out :=
  let s := launch (start cfg t s).1 (start cfg t s).2
  if s.futures = [] then (s, .finished)
  else
    match t.ready with
    | none => (s, .pending)
    | some (i, hasValue) =>
      (finish cfg t s (i % s.futures.length), if hasValue then .item else .again)

/-- `DhtValuesStream::new` (streams.rs:35-57); `version` is that of the known peers. -/
def init (version : Nat) : Stream := ⟨⟨[], 0⟩, [], none, version, []⟩

def run (cfg : Cfg) (s : Stream) (ts : List Turn) : Stream := ts.foldl (fun s t => (turn cfg s t).1) s

end Verif.Lookup
