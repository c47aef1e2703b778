import Verif.Model.DhtNode

/-!
# Discovery: `find_more_dht_nodes` and `find_overlay_nodes` of `src/dht/node.rs`
-/
namespace Verif.Dht
open Verif.Address Verif.DhtProto

variable {c : Crypto}

/-- The loop over the nodes of one answer (dht/node.rs:263-265); `none` is the error that ends
`find_more_dht_nodes`. With each record comes the channel key generated if the ADNL peer is new. -/
def addAll (o : Opts c) (now : Nat) : State c → List (DNode × c.Sec) → State c × Option Nat
  | s, [] => (s, some 0)
  | s, (n, key) :: rest =>
    match addDhtPeer o now s n key with
    | (s', .error) => (s', none)
    | (s', .none) => addAll o now s' rest
    | (s', .some _) => ((addAll o now s' rest).1, (addAll o now s' rest).2.map (· + 1))

/-- The loop over the answers, in the order in which they come in (dht/node.rs:259-272). An answer is
`none` if the query failed; a query without an answer gives an empty list (dht/node.rs:239-242). -/
def findMore (o : Opts c) (now : Nat) : State c → List (Option (List (DNode × c.Sec))) → State c × Option Nat
  | s, [] => (s, some 0)
  | s, none :: rest => findMore o now s rest
  | s, some nodes :: rest =>
    match addAll o now s nodes with
    | (s', none) => (s', none)
    | (s', some n) => ((findMore o now s' rest).1, (findMore o now s' rest).2.map (n + ·))

/-- Adding the nodes of a `dht.valueNotFound` (dht/node.rs:513-520): errors are logged only. -/
def addEach (o : Opts c) (now : Nat) (s : State c) (nodes : List (DNode × c.Sec)) : State c :=
  nodes.foldl (fun s n => (addDhtPeer o now s n.1 n.2).1) s

/-! ### Overlay nodes -/

/-- The variables of `find_overlay_nodes` (dht/node.rs:285-287). -/
structure Search where
  result : List (SockAddr × ONode)
  nodes : List ONode
  cache : List Bytes

def Search.start : Search := ⟨[], [], []⟩

/-- What one turn of the loop meets: the lists of nodes found in the DHT (dht/node.rs:290-296), what
`find_address` gives for the short id of a node, and the order in which the lookups end. -/
structure Round where
  received : List (List ONode)
  address : Bytes → Option SockAddr
  order : List (Bytes × ONode) → List (Bytes × ONode)

/-- The lookups that are started (dht/node.rs:304-324): the cache after it, and short id and node of each. -/
def lookups (c : Crypto) : List Bytes → List ONode → List Bytes × List (Bytes × ONode)
  | cache, [] => (cache, [])
  | cache, n :: rest =>
    match Receiver.fullId c n.id with
    | none => lookups c cache rest
    | some pub =>
      if Node.shortId c pub ∈ cache then lookups c cache rest
      else
        ((lookups c (Node.shortId c pub :: cache) rest).1,
          (Node.shortId c pub, n) :: (lookups c (Node.shortId c pub :: cache) rest).2)

/-- The results, in the order in which the lookups end (dht/node.rs:327-335). -/
def collect (address : Bytes → Option SockAddr) : List (SockAddr × ONode) → List ONode → List (Bytes × ONode) →
    List (SockAddr × ONode) × List ONode
  | result, nodes, [] => (result, nodes)
  | result, nodes, (id, n) :: rest =>
    match address id with
    | some ip => collect address (result ++ [(ip, n)]) nodes rest
    | none =>
      if result = [] then collect address result (nodes ++ [n]) rest
      else collect address result nodes rest

/-- One turn of the loop (dht/node.rs:288-340); the flag says that the loop ends. -/
def searchTurn (c : Crypto) (s : Search) (r : Round) : Search × Bool :=
  if r.received = [] then (s, true)
  else
    let l := lookups c s.cache (r.received.flatten ++ s.nodes)
    let e := collect r.address s.result [] (r.order l.2)
    (⟨e.1, e.2, l.1⟩, decide (e.1 ≠ []))

/-- `find_overlay_nodes` (dht/node.rs:281-343): `none` if it is still running after the given turns. -/
def findOverlay (c : Crypto) : Search → List Round → Option (List (SockAddr × ONode))
  | _, [] => none
  | s, r :: rest =>
    match searchTurn c s r with
    | (s', true) => some s'.result
    | (s', false) => findOverlay c s' rest

end Verif.Dht
