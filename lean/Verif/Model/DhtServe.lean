import Verif.Model.DhtEntry
import Verif.Model.Process
import Verif.Model.Dispatch

/-!
# A DHT node at work: `src/dht/node.rs` as a query subscriber, with everything else that touches its state
-/
namespace Verif.Dht
open Verif.Tl Verif.Address Verif.AdnlProto Verif.DhtProto Verif.Storage

variable {c : Crypto}

/-- The node as `QuerySubscriber` (dht/node.rs:674-727): what `try_consume_query` returns. The constructor has been
read from the same bytes by the caller (subscriber/mod.rs:63). -/
def dhtSub (o : Opts c) (e : Env c) (s : State c) : Dispatch.QuerySub := fun _ q =>
  match (consumeQuery o e s q).2.1 with
  | .answer a => .consumed (some a)
  | .rejected => .rejected q
  | .error => .error

/-- What happens to the node besides the queries of one particular peer. -/
inductive Aside (c : Crypto) where
  /-- a query of any other peer, for all `try_consume_query` does (dht/node.rs:674-727) -/
  | query (e : Env c) (data : Bytes)
  /-- the own user stores a value, which the node also keeps itself (`StoreValue::new`, futures.rs:29-42) -/
  | publish (e : Env c) (v : Value)
  /-- the own user announces an overlay node (`store_overlay_node`, dht/node.rs:371-401) -/
  | announce (e : Env c) (valueTtl : Nat) (fullId : Bytes) (node : ONode)
  /-- a node record is learned from an answer (`add_dht_peer`, dht/node.rs:573-612) -/
  | learn (now : Nat) (channelKey : c.Sec) (node : DNode)
  /-- one shard after another, expired values are dropped (storage.rs:79-83) -/
  | collect (shard : Bytes → Bool) (now : Nat)
  /-- a query of this node to a peer ended (dht/node.rs:450-494) -/
  | asked (peer : Bytes) (r : Outcome)

def Aside.step (o : Opts c) (s : State c) : Aside c → State c
  | .query e data => (consumeQuery o e s data).1
  | .publish e v => (storeNew o e s v).1
  | .announce e valueTtl fullId node => (storeOverlayNode o e valueTtl s fullId node).1
  | .learn now key node => (addDhtPeer o now s node key).1
  | .collect shard now => { s with storage := gcPart s.storage shard now }
  | .asked peer r => { s with penalties := queried s.penalties peer r }

/-- What a node goes through, in order: queries of the peer looked at (with the id ADNL gave them), other things of
that peer that ADNL hands out (answers, messages), and the rest. Datagrams are processed by concurrent tasks; the
storage handles one key at a time (storage.rs:86-172), so the effects of two queries on the same key do not mix. -/
inductive Did (c : Crypto) where
  | asked (e : Env c) (l peer qid data : Bytes)
  | other (ev : Process.Event) (y : Process.Reply)
  | aside (a : Aside c)

def Did.step (o : Opts c) (s : State c) : Did c → State c
  | .asked e _ _ _ data => (consumeQuery o e s data).1
  | .other _ _ => s
  | .aside a => a.step o s

/-- The node after all of it. -/
def replay (o : Opts c) (s : State c) (ds : List (Did c)) : State c := ds.foldl (Did.step o) s

end Verif.Dht
