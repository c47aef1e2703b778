import Verif.Model.OverlayProto
import Verif.Model.Dispatch
import Verif.Model.AMap

/-!
# Overlays of a node: `src/overlay/node.rs`

`O` stands for an overlay (`Arc<Overlay>`); what it does with a broadcast or a random-peers query is an
argument (`Handlers`; modelled in OverlayBroadcast and OverlayPeers). Handling one message is one step.
-/
namespace Verif.Overlay
open Verif.Tl Verif.DhtProto Verif.Dispatch

/-- What an overlay does with what it is given; `false` is an error. -/
structure Handlers (O : Type) where
  /-- `receive_broadcast`: the broadcast and the whole message -/
  ordinary : O → Ordinary → Bytes → O × Bool
  /-- `receive_fec_broadcast` -/
  fec : O → FecPart → Bytes → O × Bool
  /-- `process_get_random_peers` -/
  randomPeers : O → List ONode → O × List ONode

/-- `NodeState` (node.rs:119-125). -/
structure NState (O : Type) where
  overlays : AMap Bytes O
  subscribers : AMap Bytes QuerySub

variable {O : Type}

/-- `add_overlay_subscriber` (node.rs:58-72). -/
def addSubscriber (s : NState O) (id : Bytes) (sub : QuerySub) : NState O × Bool :=
  match s.subscribers.get id with
  | none => ({ s with subscribers := s.subscribers.put id sub }, true)
  | some _ => (s, false)

/-- `add_public_overlay`, `add_private_overlay` (node.rs:75-110); `new` is the overlay that would be
created. -/
def addOverlay (s : NState O) (id : Bytes) (new : O) : (NState O) × (O × Bool) :=
  match s.overlays.get id with
  | none => ({ s with overlays := s.overlays.put id new }, (new, true))
  | some o => (s, (o, false))

/-- Reading the overlay id and the broadcast (node.rs:148-150). -/
def readMessage (data : Bytes) : Option (Bytes × Broadcast) :=
  match readHash (data.drop 4) with
  | none => none
  | some (id, rest) =>
    match readBroadcast rest with
    | none => none
    | some (b, _) => some (id, b)

/-- Giving a broadcast to an overlay (node.rs:155-169). -/
def deliver (h : Handlers O) (o : O) (b : Broadcast) (data : Bytes) : O × Bool :=
  match b with
  | .ordinary b => h.ordinary o b data
  | .fec b => h.fec o b data
  | _ => (o, false)

/-- `try_consume_custom` (node.rs:138-170); `none` is an error. -/
def consumeCustom (h : Handlers O) (s : NState O) (constructor : Nat) (data : Bytes) :
    NState O × Option Bool :=
  if constructor ≠ messageId then (s, some false)
  else
    match readMessage data with
    | none => (s, none)
    | some (id, b) =>
      match s.overlays.get id with
      | none => (s, none)
      | some o =>
        let r := deliver h o b data
        ({ s with overlays := s.overlays.put id r.1 }, if r.2 then some true else none)

/-- Reading the overlay id and the constructor of the query inside (node.rs:185-188). -/
def readQuery (query : Bytes) : Option (Bytes × Nat × Bytes) :=
  match readHash (query.drop 4) with
  | none => none
  | some (id, rest) =>
    match readU32 rest with
    | none => none
    | some (k, _) => some (id, k, rest)

/-- Passing a query on (node.rs:197-208). -/
def passOn (s : NState O) (id : Bytes) (constructor : Nat) (query : Bytes) : SubResult :=
  match s.subscribers.get id with
  | none => .error
  | some sub =>
    match sub constructor query with
    | .consumed a => .consumed a
    | .rejected _ => .error
    | .error => .error

/-- `try_consume_query` (node.rs:175-209). -/
def consumeQuery (h : Handlers O) (s : NState O) (constructor : Nat) (query : Bytes) :
    NState O × SubResult :=
  if constructor ≠ queryId then (s, .rejected query)
  else
    match readQuery query with
    | none => (s, .error)
    | some (id, k, rest) =>
      if k = getRandomPeersId then
        match readGetRandomPeers rest with
        | none => (s, .error)
        | some (peers, _) =>
          match s.overlays.get id with
          | none => (s, .error)
          | some o =>
            let r := h.randomPeers o peers
            ({ s with overlays := s.overlays.put id r.1 }, .consumed (some (writeONodes r.2)))
      else (s, passOn s id k rest)

/-- Everything that happens to the node. -/
inductive NAction (O : Type) where
  | subscribe (id : Bytes) (sub : QuerySub)
  | register (id : Bytes) (new : O)
  | custom (constructor : Nat) (data : Bytes)
  | query (constructor : Nat) (data : Bytes)

def nstep (h : Handlers O) (s : NState O) : NAction O → NState O
  | .subscribe id sub => (addSubscriber s id sub).1
  | .register id new => (addOverlay s id new).1
  | .custom k data => (consumeCustom h s k data).1
  | .query k data => (consumeQuery h s k data).1

def nrun (h : Handlers O) (s : NState O) : List (NAction O) → NState O
  | [] => s
  | a :: as => nrun h (nstep h s a) as

end Verif.Overlay
