import Verif.Model.AMap
import Verif.Model.Address

/-!
# Table of known peers of one local id: `add_peer`, `remove_peer`, `reset_peer`
(`src/adnl/node/mod.rs:315-368, 522-538`)

`ι` is `NodeIdShort`, `φ` the context passed to the filter, `S` everything else in `Peer` (public
key, channel key, histories, dates: peer.rs:12-23). The table per local id is created at start
(node/mod.rs:174) and an unknown local id is an error before anything happens.
-/
namespace Verif.PeerTable
open Verif.Address

variable {ι φ S : Type} [DecidableEq ι]

/-- `Peer` (peer.rs:12-23): the packed address and the rest. -/
structure Peer (S : Type) where
  addr : Nat
  session : S

abbrev Peers (ι S : Type) := AMap ι (Peer S)

/-- `PeerFilter` (node/mod.rs:330-334). -/
abbrev Filter (φ ι : Type) := φ → SockAddr → ι → Bool

/-- The filter question (node/mod.rs:330-334): without a filter everyone is accepted. -/
def accepts (filter : Option (Filter φ ι)) (ctx : φ) (addr : SockAddr) (peerId : ι) : Bool :=
  match filter with
  | some f => f ctx addr peerId
  | none => true

/-- `add_peer` (node/mod.rs:315-349). `fresh` is the state made by `Peer::new` (peer.rs:27-35). -/
def addPeer (filter : Option (Filter φ ι)) (socketAddr : SockAddr) (localId : ι) (peers : Peers ι S)
    (ctx : φ) (peerId : ι) (addr : SockAddr) (fresh : S) : Peers ι S × Bool :=
  if peerId = localId ∨ addr = socketAddr then (peers, false)
  else if accepts filter ctx addr peerId = false then (peers, false)
  else match peers.get peerId with
    | some p => (peers.put peerId { p with addr := pack addr }, true)
    | none => (peers.put peerId ⟨pack addr, fresh⟩, true)

/-- `remove_peer` (node/mod.rs:357-368), peers table only. -/
def removePeer (peers : Peers ι S) (peerId : ι) : Peers ι S × Bool :=
  (peers.erase peerId, (peers.get peerId).isSome)

/-- Any change of the session state of a known peer (packet processing, `reset_peer`). -/
def touch (peers : Peers ι S) (peerId : ι) (f : S → S) : Peers ι S :=
  match peers.get peerId with
  | some p => peers.put peerId { p with session := f p.session }
  | none => peers

/-- `get_peer_address` (node/mod.rs:371-379). -/
def getPeerAddress (peers : Peers ι S) (peerId : ι) : Option SockAddr :=
  (peers.get peerId).map (fun p => unpack p.addr)

/-- Operations on the table. -/
inductive Op (ι φ S : Type) where
  | add (ctx : φ) (peerId : ι) (addr : SockAddr) (fresh : S)
  | remove (peerId : ι)
  | touch (peerId : ι) (f : S → S)

def step (filter : Option (Filter φ ι)) (socketAddr : SockAddr) (localId : ι) (peers : Peers ι S) :
    Op ι φ S → Peers ι S
  | .add ctx p a s => (addPeer filter socketAddr localId peers ctx p a s).1
  | .remove p => (removePeer peers p).1
  | .touch p f => touch peers p f

def run (filter : Option (Filter φ ι)) (socketAddr : SockAddr) (localId : ι) (peers : Peers ι S)
    (ops : List (Op ι φ S)) : Peers ι S := ops.foldl (step filter socketAddr localId) peers

end Verif.PeerTable
