import Verif.Model.Lookup

/-!
# A DHT search among peers that answer (`src/dht/streams.rs`, `src/dht/node.rs:495-526`)

`Model/Lookup.lean` leaves open what the requests bring. Here the loop is closed: every peer has a fixed
answer, the answers extend the known peers, and the stream sees the extended list.

The stream is polled right after it was made, so that no peer becomes known in between. The known peers
stay below the capacity of the set, where the version counts the insertions (peers_set.rs:280); it is
written as the number of known peers.
-/
namespace Verif.SearchNet
open Verif.Lookup

/-- What a request to a peer brings: nothing (no answer, an error or an unreadable answer), a value
that passes `parse_value_result`, or the peers of a `ValueNotFound` accepted by `add_dht_peer`. -/
inductive Reply where
  | silent
  | value
  | nodes (l : List Bytes)
deriving DecidableEq

/-- `PeersSet::insert` (peers_set.rs:272-307) below the capacity, one after the other. -/
def learnAll (known : List Bytes) (l : List Bytes) : List Bytes :=
  l.foldl (fun k p => if p ∈ k then k else k ++ [p]) known

/-- The known peers after a request (node.rs:495-526). -/
def Reply.learn (known : List Bytes) : Reply → List Bytes
  | .nodes l => learnAll known l
  | _ => known

/-- A search and the node it runs on. Not in the code: `done`, the peers whose requests are over;
`found`, the peers whose values were handed out; `marks`, the number of known peers each time the
stream read them. -/
structure World where
  stream : Stream
  known : List Bytes
  done : List Bytes
  found : List Bytes
  marks : List Nat

/-- What happens next. -/
inductive Ev where
  /-- another task makes a peer known -/
  | learn (p : Bytes)
  /-- the stream is polled while no request is over -/
  | poll
  /-- the stream is polled and the `i`-th request in flight is over; `bad` are the peers with too many
  penalties -/
  | complete (i : Nat) (bad : Bytes → Bool)

/-- A turn that finds no request over; `bad` is only used by the first one. -/
def idle (known : List Bytes) (bad : Bytes → Bool) : Turn := ⟨known, known.length, bad, none⟩

/-- `values()` and the first poll (streams.rs:35-57, 111-123). -/
def start (cfg : Cfg) (known : List Bytes) (bad : Bytes → Bool) : World :=
  ⟨(turn cfg (init known.length) (idle known bad)).1, known, [], [], [known.length]⟩

/-- The requests in flight once the stream has started what it can (streams.rs:119-123). -/
def inFlight (w : World) : List Bytes := (launch w.stream (w.stream.count.getD 0)).futures

/-- One event. -/
def step (cfg : Cfg) (net : Bytes → Reply) (w : World) : Ev → World
  | .learn p => { w with known := learnAll w.known [p] }
  | .poll => { w with stream := (turn cfg w.stream (idle w.known fun _ => false)).1 }
  | .complete i bad =>
    match (inFlight w)[i % (inFlight w).length]? with
    | none => w
    | some p =>
      let known := (net p).learn w.known
      let again := cfg.useNew ∧ known.length ≠ w.stream.version
      { stream := (turn cfg w.stream ⟨known, known.length, bad, some (i, decide (net p = .value))⟩).1
        known := known
        done := w.done ++ [p]
        found := if net p = .value then w.found ++ [p] else w.found
        marks := if again then w.marks ++ [known.length] else w.marks }

def run (cfg : Cfg) (net : Bytes → Reply) (w : World) (evs : List Ev) : World :=
  evs.foldl (step cfg net) w

/-- The next poll ends the stream. -/
def Over (cfg : Cfg) (w : World) : Prop :=
  (turn cfg w.stream (idle w.known fun _ => false)).2 = .finished

end Verif.SearchNet
