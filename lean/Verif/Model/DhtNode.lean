import Verif.Model.Buckets
import Verif.Model.PeersSet
import Verif.Model.Storage

/-!
# `src/dht/node.rs`
-/
namespace Verif.Dht
open Verif.Tl Verif.Address Verif.AdnlProto Verif.DhtProto Verif.Storage

/-! ### Penalties -/

/-- `Penalties` (dht/node.rs:756); the counters are `usize`, wrap-around after 2^63 failures is not
modelled. -/
abbrev Penalties := AMap Bytes Nat

/-- `set_good_peer` (dht/node.rs:631-635). -/
def setGood (p : Penalties) (peer : Bytes) : Penalties :=
  match p.get peer with
  | some n => p.put peer (n - 1)
  | none => p

/-- `update_peer_status` (dht/node.rs:614-629). -/
def updateStatus (p : Penalties) (peer : Bytes) (isGood : Bool) : Penalties :=
  if isGood then setGood p peer
  else
    match p.get peer with
    | some n => p.put peer (n + 2)
    | none => p.put peer 0

/-- `is_bad_peer` (dht/node.rs:190-195). -/
def isBad (threshold : Nat) (p : Penalties) (peer : Bytes) : Bool :=
  match p.get peer with
  | some n => decide (n > threshold)
  | none => false

/-- How a query to a peer ends: `Ok(Some(_))`, `Ok(None)` or `Err(_)` of `adnl.query_raw`
(adnl/node/mod.rs:456-497: a timeout gives `Ok(None)`). -/
inductive Outcome where
  | answer | timeout | error
deriving DecidableEq, Repr

/-- `result.is_ok()`. -/
def Outcome.isOk : Outcome → Bool
  | .error => false
  | _ => true

/-- A query to a peer, as far as the penalties go (dht/node.rs:450-494). -/
def queried (p : Penalties) (peer : Bytes) (r : Outcome) : Penalties := updateStatus p peer r.isOk

/-! ### The node -/

variable {c : Crypto}

/-- `NodeState` (dht/node.rs:535-553) and the tables of the ADNL node below. -/
structure State (c : Crypto) where
  adnl : Node.State c
  known : PeersSet.State Bytes
  penalties : Penalties
  buckets : Buckets.Table
  storage : Storage.St

/-- Options: those of the ADNL node (with the peer filter in the context `Dht`), of the storage, and
`max_allowed_k`. -/
structure Opts (c : Crypto) where
  adnl : Node.Opts c
  storage : Storage.Opts
  maxK : Nat

/-- Answer of `add_dht_peer`: `Err(_)`, `Ok(None)`, `Ok(Some(id))`. -/
inductive AddedPeer where
  | error | none | some (id : Bytes)
deriving DecidableEq

/-- `add_dht_peer` (dht/node.rs:573-612). `channelKey` is the channel key generated if the ADNL peer is
new. An overflow panic while the address is parsed is an error here. -/
def addDhtPeer (o : Opts c) (now : Nat) (s : State c) (peer : DNode) (channelKey : c.Sec) :
    State c × AddedPeer :=
  match Receiver.fullId c peer.id with
  | none => (s, .error)
  | some pub =>
    if verifySig c pub (writeDNodeBoxed { peer with signature := [] }) peer.signature = false then
      (s, .none)
    else
      match parse o.adnl.build now o.adnl.clockTolerance peer.addrList with
      | .ok addr =>
        match Node.addPeer o.adnl s.adnl s.buckets.localId (Node.shortId c pub) addr pub channelKey with
        | (_, .peersNotFound) => (s, .error)
        | (_, .no) => (s, .none)
        | (adnl, .yes) =>
          if (PeersSet.insert s.known (Node.shortId c pub)).2 then
            ({ s with adnl := adnl, known := (PeersSet.insert s.known (Node.shortId c pub)).1,
                      buckets := Buckets.insert s.buckets (Node.shortId c pub) peer },
              .some (Node.shortId c pub))
          else
            ({ s with adnl := adnl, penalties := setGood s.penalties (Node.shortId c pub) },
              .some (Node.shortId c pub))
      | _ => (s, .error)

/-- `process_find_node` (dht/node.rs:637-639). -/
def findNode (s : State c) (key : Bytes) (k : Nat) : List DNode :=
  (Buckets.find s.buckets key k).map (·.2)

/-- Collecting nodes from bucket 0 on (dht/node.rs:652-662). -/
def firstNodes (s : State c) (k : Nat) : List DNode :=
  (Buckets.pushAll k s.buckets.bucket [] (List.range 256)).map (·.2)

/-- `process_find_value` (dht/node.rs:641-666); `none` is `InvalidNodeCountLimit`. -/
def findValue (o : Opts c) (now : Nat) (s : State c) (key : Bytes) (k : Nat) : Option ValueResult :=
  if k = 0 ∨ k > o.maxK then none
  else
    match Storage.getRef s.storage key now with
    | some v => some (.found v)
    | none => some (.notFound (firstNodes s k))

/-- `verify_signed_dht_value` (dht/node.rs:729-745). -/
def verifySigned (c : Crypto) (v : Value) : Bool :=
  decide (v.key.key.id = c.sha (writePubKey v.key.id)) &&
  match Storage.signedOk c v with
  | .ok _ => true
  | .error _ => false

/-- Result of `parse_value_result`. -/
inductive Parsed (T : Type) where
  | value (key : KeyDesc) (value : T)
  | nodes (l : List DNode)
  | error

/-- `parse_value_result` (dht/node.rs:496-521) without adding the nodes received; `parseT` is
`tl_proto::deserialize::<T>`. -/
def parseValueResult {T : Type} (c : Crypto) (parseT : Bytes → Option T) (answer : Bytes) : Parsed T :=
  match readValueResult answer with
  | none => .error
  | some (.found v, _) =>
    if v.key.rule = .signature ∧ verifySigned c v = false then .error
    else
      match parseT v.value with
      | none => .error
      | some t => .value v.key t
  | some (.notFound l, _) => .nodes l

/-- `find_address` (dht/node.rs:343-358) on the values the lookup yields. -/
def findAddress (c : Crypto) (build : Build) (now tolerance : Nat) :
    List (KeyDesc × AddrList) → Option (SockAddr × c.Pub)
  | [] => none
  | (key, list) :: rest =>
    match parse build now tolerance list, Receiver.fullId c key.id with
    | .ok addr, some pub => some (addr, pub)
    | _, _ => findAddress c build now tolerance rest

/-- A query handled by the node (dht/node.rs:674-727), as far as it changes the state. `DhtQuery` is
a signed node record followed by another query. -/
inductive Query where
  | ping (randomId : Nat)
  | findNode (key : Bytes) (k : Nat)
  | findValue (key : Bytes) (k : Nat)
  | getSignedAddressList
  | store (v : Value)
  | withNode (node : DNode) (q : Query)

/-- Answers. -/
inductive Answer where
  | pong (randomId : Nat)
  | nodes (l : List DNode)
  | value (r : ValueResult)
  | ownNode
  | stored
  | error

/-- `try_consume_query` (dht/node.rs:674-727). -/
def handle (o : Opts c) (order : List ONode → List ONode) (now now' : Nat) (channelKey : c.Sec)
    (s : State c) : Query → State c × Answer
  | .ping r => (s, .pong r)
  | .findNode key k => (s, .nodes (findNode s key k))
  | .findValue key k =>
    match findValue o now s key k with
    | some r => (s, .value r)
    | none => (s, .error)
  | .getSignedAddressList => (s, .ownNode)
  | .store v =>
    match Storage.insert c o.storage order now now' s.storage v with
    | (st, .ok _) => ({ s with storage := st }, .stored)
    | (st, .error _) => ({ s with storage := st }, .error)
  | .withNode node q =>
    match addDhtPeer o now s node channelKey with
    | (s', .error) => (s', .error)
    | (s', _) => handle o order now now' channelKey s' q

end Verif.Dht
