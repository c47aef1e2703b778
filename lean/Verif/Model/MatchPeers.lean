import Verif.Model.Node

/-!
# `match_peer_addresses` (src/adnl/node/mod.rs:386-405)
-/
namespace Verif.Node
open Verif.Address

variable {c : Crypto} {T : Type} [DecidableEq T]

/-- The loop (node/mod.rs:398-402) over the peers in the order of the iterator. -/
def matchLoop : List (Bytes × SockAddr) → AMap SockAddr T → AMap T Bytes → AMap T Bytes
  | [], _, result => result
  | (id, addr) :: peers, entries, result =>
    match entries.get addr with
    | some key => matchLoop peers (entries.erase addr) (result.put key id)
    | none => matchLoop peers entries result

/-- `match_peer_addresses` (node/mod.rs:386-405); `order` is the order in which the iterator of the table gives
its entries. -/
def matchPeerAddresses (order : AMap Bytes (Peer c) → List (Bytes × Peer c)) (s : State c) (localId : Bytes)
    (entries : AMap SockAddr T) : Option (AMap T Bytes) :=
  (s.peers.get localId).map fun t => matchLoop ((order t).map fun e => (e.1, unpack e.2.addr)) entries []

/-- `get_peer_address` (node/mod.rs:371-379). -/
def getPeerAddress (s : State c) (localId peerId : Bytes) : Option SockAddr :=
  (s.peer localId peerId).map fun p => unpack p.addr

end Verif.Node
