import Verif.Model.DhtEntry

/-!
# `find_address` with its search: `src/dht/node.rs:343-359`, `src/dht/streams.rs`
-/
namespace Verif.Dht
open Verif.Tl Verif.Address Verif.AdnlProto Verif.DhtProto Verif.Storage

/-- The question of a search (streams.rs:36, 42): `DhtFindValue` with `k = 6`. -/
def searchQuery (c : Crypto) (key : Key) : Bytes := writeQuery (.findValue (c.sha (writeKeyBoxed key)) 6)

/-- What a search hands out (streams.rs:66-90, 119-148): the values in the answers, in the order in which the requests
end; `ask` is the answer of a peer to the question. -/
def yielded {T : Type} (c : Crypto) (parseT : Bytes → Option T) (ask : Bytes → Option Bytes) (order : List Bytes) :
    List (KeyDesc × T) :=
  order.filterMap fun p => (ask p).bind fun a =>
    match parseValueResult c parseT a with
    | .value key t => some (key, t)
    | _ => none

/-- `find_address` (dht/node.rs:343-359) with the search it makes: `entry(peer_id, KEY_ADDRESS)` has index 0
(entry.rs:25-36). -/
def searchAddress (c : Crypto) (build : Build) (now tolerance : Nat) (ask : Bytes → Bytes → Option Bytes)
    (order : List Bytes) (peerId : Bytes) : Option (SockAddr × c.Pub) :=
  findAddress c build now tolerance
    (yielded c readAddrListBoxed (fun p => ask p (searchQuery c ⟨peerId, keyAddress, 0⟩)) order)

end Verif.Dht
