import Verif.Model.DhtNode

/-!
# DHT queries and answers on the wire: `src/proto/rpc.rs:36-72`, `src/dht/node.rs:674-727`

`tl_proto::deserialize` (external) reads a value and does not look at what follows it.
-/
namespace Verif.Dht
open Verif.Tl Verif.Address Verif.AdnlProto Verif.DhtProto Verif.Storage

variable {c : Crypto}

/-- `rpc::DhtPing::TL_ID` (proto/rpc.rs:36-40). -/
def pingId : Nat := 0xcbeb3f18
/-- `rpc::DhtFindNode::TL_ID` (proto/rpc.rs:42-47). -/
def findNodeId : Nat := 0x6ce2ce6b
/-- `rpc::DhtFindValue::TL_ID` (proto/rpc.rs:49-54). -/
def findValueId : Nat := 0xae4b6011
/-- `rpc::DhtGetSignedAddressList::TL_ID` (proto/rpc.rs:56-58). -/
def getSignedId : Nat := 0xa97948ed
/-- `rpc::DhtStore::TL_ID` (proto/rpc.rs:60-64). -/
def storeId : Nat := 0x34934212
/-- `rpc::DhtQuery::TL_ID` (proto/rpc.rs:66-70). -/
def dhtQueryId : Nat := 0x7d530769

/-- The query serialised: derived `TlWrite` of the types in proto/rpc.rs. A query with the own node record
(`query_with_prefix`, dht/node.rs:478-494; `query_prefix`, dht/node.rs:130-134) is `DhtQuery` followed by the
query itself. -/
def writeQuery : Query → Bytes
  | .ping r => writeU32 pingId ++ writeU64 r
  | .findNode key k => writeU32 findNodeId ++ (key ++ writeU32 k)
  | .findValue key k => writeU32 findValueId ++ (key ++ writeU32 k)
  | .getSignedAddressList => writeU32 getSignedId
  | .store v => writeU32 storeId ++ writeValue v
  | .withNode n q => writeU32 dhtQueryId ++ (writeDNode n ++ writeQuery q)

/-- `dht::Pong` (proto/dht.rs:238-242). -/
def writePong (r : Nat) : Bytes := writeU32 0x5a8aef81 ++ writeU64 r

/-- `dht::NodesOwned`, boxed (proto/dht.rs:34-41). -/
def writeDNodes (l : List DNode) : Bytes := writeU32 0x7974a0be ++ writeVec writeDNode l

/-- `dht::Stored` (proto/dht.rs:244-246). -/
def writeStored : Bytes := writeU32 0x7026fb08

/-- What `try_consume_query` returns. -/
inductive Reply where
  /-- `Consumed(Some(_))` -/
  | answer (data : Bytes)
  /-- `Rejected(_)`: for the next subscriber -/
  | rejected
  | error
deriving DecidableEq

/-- The environment of a query: the clock before and during `insert`, the order in which a hash map gives its
nodes, keys for new peers, and the node record `sign_local_node(build_address_list())`. -/
structure Env (c : Crypto) where
  now : Nat
  now' : Nat
  order : List ONode → List ONode
  channelKey : c.Sec
  own : DNode

/-- `QueryConsumingResult::consume` of an answer (subscriber/mod.rs:49-56). -/
def replyOf (e : Env c) : Answer → Reply
  | .pong r => .answer (writePong r)
  | .nodes l => .answer (writeDNodes l)
  | .value r => .answer (writeValueResult r)
  | .ownNode => .answer (writeDNodeBoxed e.own)
  | .stored => .answer writeStored
  | .error => .error

/-- The query and its answer. -/
def answerTo (o : Opts c) (e : Env c) (s : State c) (q : Query) : State c × Reply :=
  ((handle o e.order e.now e.now' e.channelKey s q).1, replyOf e (handle o e.order e.now e.now' e.channelKey s q).2)

/-- Queries without an inner query: `tl_proto::deserialize(&query)`, after the constructor. -/
def readPlain (id : Nat) : Reader Query :=
  if id = pingId then do
    let r ← readU64
    pure (.ping r)
  else if id = findNodeId then do
    let key ← readHash
    let k ← readU32
    pure (.findNode key k)
  else if id = findValueId then do
    let key ← readHash
    let k ← readU32
    pure (.findValue key k)
  else if id = storeId then do
    let v ← readValue
    pure (.store v)
  else fail

/-- `try_consume_query` (dht/node.rs:674-727) on the bytes of a query whose constructor has been read by the
caller (subscriber/mod.rs:64, dht/node.rs:705), with the depth of the recursion. The budget is never used up
when it is the number of bytes (`says_consume`, `C80_depth_partial` in Props/DhtRpc.lean). -/
def consume (o : Opts c) (e : Env c) : (fuel : Nat) → State c → Bytes → State c × Reply × Nat
  | 0, s, _ => (s, .error, 0)
  | fuel + 1, s, data =>
    match readU32 data with
    | none => (s, .error, 0)
    | some (id, rest) =>
      if id = dhtQueryId then
        match readDNode rest with
        | none => (s, .error, 1)
        | some (node, inner) =>
          match readU32 inner with
          | none => (s, .error, 1)
          | some _ =>
            match addDhtPeer o e.now s node e.channelKey with
            | (s', .error) => (s', .error, 1)
            | (s', _) =>
              match consume o e fuel s' inner with
              | (s'', .rejected, d) => (s'', .error, d + 1)
              | (s'', r, d) => (s'', r, d + 1)
      else if id = getSignedId then (s, .answer (writeDNodeBoxed e.own), 1)
      else if id = pingId ∨ id = findNodeId ∨ id = findValueId ∨ id = storeId then
        match readPlain id rest with
        | none => (s, .error, 1)
        | some (q, _) => ((answerTo o e s q).1, (answerTo o e s q).2, 1)
      else (s, .rejected, 1)

/-- The subscriber called with a query. -/
def consumeQuery (o : Opts c) (e : Env c) (s : State c) (data : Bytes) : State c × Reply × Nat :=
  consume o e data.length s data

end Verif.Dht
