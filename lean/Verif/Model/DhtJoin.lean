import Verif.Model.DhtRpc

/-!
# Joining the DHT: `query_dht_nodes` (`src/dht/node.rs:220-242`)
-/
namespace Verif.Dht
open Verif.Tl Verif.DhtProto

variable {c : Crypto}

/-- `query_prefix`, made once when the node is created (dht/node.rs:130-134). -/
def queryPrefix (own : DNode) : Bytes := writeU32 dhtQueryId ++ writeDNode own

/-- `make_query` (adnl/node/mod.rs:571-585). -/
def makeQuery (pre : Option Bytes) (q : Query) : Bytes := pre.getD [] ++ writeQuery q

/-- The query of `query_dht_nodes` (dht/node.rs:228-236) through `query` and `query_with_prefix`
(dht/node.rs:451-459, 479-494; adnl/node/mod.rs:409-450). -/
def nodesQuery (own : DNode) (localId : Bytes) (k : Nat) (storeSelf : Bool) : Bytes :=
  makeQuery (if storeSelf then some (queryPrefix own) else none) (.findNode localId k)

/-- `tl_proto::deserialize::<BoxedWrapper<NodesOwned>>` (adnl/node/mod.rs:424, proto/dht.rs:34-41). -/
def readNodes (data : Bytes) : Option (List DNode) :=
  match readU32 data with
  | some (id, rest) => if id = 0x7974a0be then (readVec readDNode rest).map (·.1) else none
  | none => none

/-- What `query_dht_nodes` returns (dht/node.rs:237-241): `none` is an error, no answer in time is an empty list. -/
def nodesAnswer : Option Bytes → Option (List DNode)
  | some data => readNodes data
  | none => some []

end Verif.Dht
