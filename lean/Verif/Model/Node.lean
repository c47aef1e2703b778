import Verif.Model.Channel
import Verif.Model.AMap
import Verif.Model.PacketsHistory

/-!
# State of the ADNL node: `src/adnl/node/mod.rs`, `src/adnl/peer.rs`

`Arc<Channel>` values shared by the two channel tables are references (`Nat`) into `heap`, so that
`set_ready` is seen through both tables.
-/
namespace Verif.Node
open Verif.Adnl Verif.AdnlProto Verif.Address

variable {c : Crypto}

/-- `NodeIdFull::compute_short_id` (node_id.rs:46-48): hash of the serialised public key. -/
def shortId (c : Crypto) (p : c.Pub) : Bytes := c.sha (writePubKey (.ed25519 (c.pubBytes p)))

/-- `Peer` (peer.rs:12-23). The send histories consist of a number only; `recvDate` is the reinit date
of `receiver_state`, `sendDate` that of `sender_state`. -/
structure Peer (c : Crypto) where
  pub : c.Pub
  addr : Nat
  channelKey : c.Sec
  recvOrd : PacketsHistory.Hist
  recvPrio : PacketsHistory.Hist
  recvDate : Nat
  sendOrd : Nat
  sendPrio : Nat
  sendDate : Nat

/-- `receiver_state().history(priority)` (peer.rs:150-157). -/
def Peer.recvHist (p : Peer c) (priority : Bool) : PacketsHistory.Hist :=
  if priority then p.recvPrio else p.recvOrd

/-- `sender_state().history(priority).seqno()`. -/
def Peer.sendSeqno (p : Peer c) (priority : Bool) : Nat := if priority then p.sendPrio else p.sendOrd

def Peer.setRecvHist (p : Peer c) (priority : Bool) (h : PacketsHistory.Hist) : Peer c :=
  if priority then { p with recvPrio := h } else { p with recvOrd := h }

def Peer.setSendSeqno (p : Peer c) (priority : Bool) (n : Nat) : Peer c :=
  if priority then { p with sendPrio := n } else { p with sendOrd := n }

/-- `Peer::new` (peer.rs:27-35); `key` is the generated channel key. -/
def Peer.new (startTime : Nat) (addr : SockAddr) (pub : c.Pub) (key : c.Sec) : Peer c :=
  ⟨pub, pack addr, key, PacketsHistory.forRecv, PacketsHistory.forRecv, startTime, 0, 0, 0⟩

/-- `Peer::try_reinit_sender` (peer.rs:41-57), without interference. -/
def Peer.tryReinit (p : Peer c) (date : Nat) : Peer c × Bool :=
  if date = p.sendDate then (p, true)
  else if date > p.sendDate then
    if p.sendDate ≠ 0 then
      ({ p with sendDate := date, sendOrd := 0, sendPrio := 0,
                recvOrd := PacketsHistory.reset p.recvOrd,
                recvPrio := PacketsHistory.reset p.recvPrio }, true)
    else ({ p with sendDate := date }, true)
  else (p, false)

/-- `Peer::reset` (peer.rs:99-105); `key` is the generated channel key. -/
def Peer.reset (p : Peer c) (key : c.Sec) : Peer c :=
  { p with channelKey := key, recvOrd := PacketsHistory.forRecv, recvPrio := PacketsHistory.forRecv,
           recvDate := p.recvDate + 1, sendOrd := 0, sendPrio := 0, sendDate := 0 }

/-- Tables of the node (node/mod.rs:118-140). -/
structure State (c : Crypto) where
  /-- peers per local id -/
  peers : AMap Bytes (AMap Bytes (Peer c))
  /-- all `Arc<Channel>` made so far -/
  heap : AMap Nat Channel
  next : Nat
  /-- `channels_by_peers` -/
  byPeer : AMap Bytes Nat
  /-- `channels_by_id`; the flag is `true` for `ChannelReceiver::Priority` -/
  byId : AMap Bytes (Nat × Bool)

/-- Options and constants of the node that the code below reads (node/mod.rs:30-110). -/
structure Opts (c : Crypto) where
  build : Build
  version : Option Nat
  startTime : Nat
  socketAddr : SockAddr
  addressListTimeout : Nat
  clockTolerance : Nat
  signatureRequired : Bool
  historyEnabled : Bool
  /-- the key store -/
  keys : Bytes → Option c.Sec
  /-- peer filter in the context `AdnlPacket`; `none` if not set -/
  filter : Option (SockAddr → Bytes → Bool)

/-- Peer `peerId` of `localId`. -/
def State.peer (s : State c) (localId peerId : Bytes) : Option (Peer c) :=
  match s.peers.get localId with
  | some t => t.get peerId
  | none => none

/-- Storing a peer in an existing table. -/
def State.setPeer (s : State c) (localId peerId : Bytes) (p : Peer c) : State c :=
  match s.peers.get localId with
  | some t => { s with peers := s.peers.put localId (t.put peerId p) }
  | none => s

/-- The channel of a peer. -/
def State.channel (s : State c) (peerId : Bytes) : Option Channel :=
  match s.byPeer.get peerId with
  | some r => s.heap.get r
  | none => none

/-- `set_ready` (channel.rs:82-84). -/
def State.setReady (s : State c) (r : Nat) : State c :=
  match s.heap.get r with
  | some ch => { s with heap := s.heap.put r { ch with ready := true } }
  | none => s

/-- Answer of `add_peer`. -/
inductive Added where
  | yes | no | peersNotFound
deriving DecidableEq

/-- `add_peer` (node/mod.rs:315-349) for packets; `key` is the channel key generated if the peer is
new. -/
def addPeer (o : Opts c) (s : State c) (localId peerId : Bytes) (addr : SockAddr) (pub : c.Pub)
    (key : c.Sec) : State c × Added :=
  if peerId = localId ∨ addr = o.socketAddr then (s, .no)
  else if (o.filter.map (fun f => f addr peerId)).getD true = false then (s, .no)
  else
    match s.peers.get localId with
    | none => (s, .peersNotFound)
    | some t =>
      match t.get peerId with
      | some p => (s.setPeer localId peerId { p with addr := pack addr }, .yes)
      | none => (s.setPeer localId peerId (Peer.new o.startTime addr pub key), .yes)

/-- Dropping the channel of a peer (node/mod.rs:360-366, 528-534). -/
def dropChannel (s : State c) (peerId : Bytes) : State c :=
  match s.byPeer.get peerId with
  | none => s
  | some r =>
    match s.heap.get r with
    | none => { s with byPeer := s.byPeer.erase peerId }
    | some ch =>
      { s with byPeer := s.byPeer.erase peerId,
               byId := (s.byId.erase ch.inn.ordinary.id).erase ch.inn.priority.id }

/-- `remove_peer` (node/mod.rs:357-368). -/
def removePeer (s : State c) (localId peerId : Bytes) : State c :=
  match s.peers.get localId with
  | none => s
  | some t =>
    { dropChannel s peerId with peers := s.peers.put localId (t.erase peerId) }

/-- `reset_peer` (node/mod.rs:522-538). -/
def resetPeer (s : State c) (localId peerId : Bytes) (key : c.Sec) : State c :=
  match s.peer localId peerId with
  | none => s
  | some p => (dropChannel s peerId).setPeer localId peerId (p.reset key)

/-- Result of `create_channel`. -/
inductive Created where
  | ok | peersNotFound | unknownPeer
deriving DecidableEq

/-- Inserting a new channel for a peer (receiver.rs:542-555, 557-576): `s.byPeer` is overwritten and
both ids are listed. -/
def insertChannel (s : State c) (peerId : Bytes) (ch : Channel) : State c :=
  { s with heap := s.heap.put s.next ch, next := s.next + 1,
           byPeer := s.byPeer.put peerId s.next,
           byId := (s.byId.put ch.inn.ordinary.id (s.next, false)).put ch.inn.priority.id
             (s.next, true) }

/-- `create_channel` (receiver.rs:505-582). -/
def createChannel (s : State c) (localId peerId : Bytes) (peerKey : c.Pub) (date : Nat) (ctx : Ctx) :
    State c × Created :=
  match s.peers.get localId with
  | none => (s, .peersNotFound)
  | some t =>
    match t.get peerId with
    | none => (s, .unknownPeer)
    | some p =>
      let fresh := Channel.new c localId peerId p.channelKey peerKey date ctx
      match s.byPeer.get peerId with
      | some r =>
        match s.heap.get r with
        | none => (s, .ok) -- does not happen: references are never dangling
        | some old =>
          if old.stillValid (c.pubBytes peerKey) date then
            (if ctx = .confirm then s.setReady r else s, .ok)
          else (insertChannel (dropChannel s peerId) peerId fresh, .ok)
      | none => (insertChannel s peerId fresh, .ok)

end Verif.Node
