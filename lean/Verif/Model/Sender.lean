import Verif.Model.Node
import Verif.Model.Transfer

/-!
# `src/adnl/node/sender.rs`
-/
namespace Verif.Sender
open Verif.Adnl Verif.AdnlProto Verif.Address Verif.Node

variable {c : Crypto}

/-- `AdnlSenderError` and the other errors of `send_message`. -/
inductive Err where
  | unknownPeer | unexpectedMessage | peersNotFound | keyNotFound
  /-- `now + address_list_timeout_sec` overflows in a debug build -/
  | panic
deriving DecidableEq, Repr

/-- Randomness used for one packet: ten random bytes and a temporary key. -/
structure Rand (c : Crypto) where
  bytes : Bytes
  temp : c.Sec

/-- `MessageSigner` (sender.rs:313-320). -/
inductive Signer (c : Crypto) where
  | channel (ch : Channel) (priority : Bool)
  | random (key : c.Sec)

/-- The message attached while there is no ready channel (sender.rs:79-104): its size as counted by
the code and the message. -/
def additional (now : Nat) (p : Peer c) : Option Channel → Option (Nat × Message)
  | some ch =>
    if ch.ready then none
    else some (72, .confirmChannel (c.pubBytes (c.pubOf p.channelKey)) ch.peerKey ch.peerDate)
  | none => some (40, .createChannel (c.pubBytes (c.pubOf p.channelKey)) now)

/-- Size of a message as counted by the code (sender.rs:107-114); `none` is refused. -/
def countedSize : Message → Option Nat
  | .answer _ a => some (a.length + 44)
  | .confirmChannel _ _ _ => some 72
  | .custom d => some (d.length + 12)
  | .nop => some 4
  | .query _ q => some (q.length + 44)
  | _ => none

/-- Signer (sender.rs:116-122). -/
def signerOf (key : c.Sec) (priority : Bool) : Option Channel → Signer c
  | some ch => if ch.ready then .channel ch priority else .random key
  | none => .random key

/-- Downgrade to the ordinary channel (sender.rs:216-228). -/
def effectivePriority (p : Peer c) (priority : Bool) : Bool :=
  if (p.recvHist priority).seqno = 0 ∧ p.sendPrio > 10 then false else priority

/-- `Ipv4Addr::is_loopback`. -/
def isLoopback (s : SockAddr) : Bool := s.a = 127

/-- Address in the packet (sender.rs:230-241); `useLoopback` is `use_loopback_for_neighbours`. -/
def localAddr (useLoopback : Bool) (own peer : SockAddr) : SockAddr :=
  if useLoopback ∧ own.octets = peer.octets ∧ isLoopback peer = false then
    { own with a := 127, b := 0, c := 0, d := 1 }
  else own

/-- Address the datagram is sent to (sender.rs:230-239, 297-303). -/
def destination (useLoopback : Bool) (own peer : SockAddr) : SockAddr :=
  if useLoopback ∧ own.octets = peer.octets ∧ isLoopback peer = false then
    { peer with a := 127, b := 0, c := 0, d := 1 }
  else peer

/-- Packet without signature (sender.rs:246-274). `src` and `dates` are present in handshake packets. -/
def basePacket (o : Opts c) (useLoopback : Bool) (now expire : Nat) (p : Peer c) (rand : Bytes)
    (handshakeKey : Option c.Sec) (messages : OutMessages) (seqno confirm : Nat) : OutPacket :=
  { rand1 := rand.take 3
    src := handshakeKey.map fun k => .ed25519 (c.pubBytes (c.pubOf k))
    messages := messages
    address := ⟨some (toAddr (localAddr useLoopback o.socketAddr (unpack p.addr))), now, o.startTime,
      expire⟩
    seqno := seqno
    confirmSeqno := confirm
    reinitDates := handshakeKey.map fun _ => ⟨o.startTime, p.sendDate⟩
    signature := none
    rand2 := rand.drop 3 }

/-- `send_packet` (sender.rs:206-310): the peer with its number bumped and the datagram. -/
def sendPacket (o : Opts c) (useLoopback : Bool) (now : Nat) (peerId : Bytes) (p : Peer c)
    (signer : Signer c) (messages : OutMessages) (r : Rand c) : Except Err (Peer c × Bytes) :=
  match addU32 o.build now o.addressListTimeout with
  | none => .error .panic
  | some expire =>
    match signer with
    | .channel ch prio =>
      let priority := effectivePriority p prio
      let n := (PacketsHistory.bump (p.sendSeqno priority)).2
      let pkt := basePacket o useLoopback now expire p r.bytes none messages n
        (p.recvHist priority).seqno
      .ok (p.setSendSeqno priority n, ch.encrypt c priority o.version (writePacket pkt))
    | .random key =>
      let n := (PacketsHistory.bump (p.sendSeqno false)).2
      let pkt := basePacket o useLoopback now expire p r.bytes (some key) messages n
        (p.recvHist false).seqno
      let signed := { pkt with signature := some (c.sign key (writePacket pkt)) }
      .ok (p.setSendSeqno false n,
        buildHandshake c peerId p.pub r.temp o.version (writePacket signed))

/-- Sending several packets in order; `rand` gives the randomness of each one. -/
def sendAll (o : Opts c) (useLoopback : Bool) (now : Nat) (peerId : Bytes) (signer : Signer c) :
    Peer c → List OutMessages → (Nat → Rand c) → Except Err (Peer c × List Bytes)
  | p, [], _ => .ok (p, [])
  | p, m :: ms, rand =>
    match sendPacket o useLoopback now peerId p signer m (rand 0) with
    | .error e => .error e
    | .ok (p', d) =>
      match sendAll o useLoopback now peerId signer p' ms (fun k => rand (k + 1)) with
      | .error e => .error e
      | .ok (p'', ds) => .ok (p'', d :: ds)

/-- A part as a message. -/
def partMessage (p : Transfer.Part) : Message := .part p.hash p.total p.offset p.data

/-- Packets of one message (sender.rs:124-202): one packet if everything fits into 1024 bytes, parts
otherwise. The message attached goes into the first packet. -/
def packets (sha : Bytes → Bytes) (add : Option (Nat × Message)) (m : Message) (size : Nat) :
    List OutMessages :=
  if (add.map (·.1)).getD 0 + size ≤ 1024 then
    match add with
    | some a => [.pair (writeMessage a.2 ++ writeMessage m)]
    | none => [.single (writeMessage m)]
  else
    let data := writeMessage m
    match Transfer.split data (sha data) (add.map (·.1)), add with
    | first :: rest, some a =>
      .pair (writeMessage a.2 ++ writeMessage (partMessage first)) ::
        rest.map fun q => .single (writeMessage (partMessage q))
    | ps, _ => ps.map fun q => .single (writeMessage (partMessage q))

/-- `send_message` (sender.rs:50-203): the peer afterwards and the datagrams. `key` is the local key
found in the key store. -/
def sendMessage (o : Opts c) (useLoopback : Bool) (now : Nat) (s : State c) (localId peerId : Bytes)
    (m : Message) (priority : Bool) (rand : Nat → Rand c) : Except Err (Peer c × List Bytes) :=
  match s.peers.get localId with
  | none => .error .peersNotFound
  | some t =>
    match t.get peerId with
    | none => .error .unknownPeer
    | some p =>
      match o.keys localId with
      | none => .error .keyNotFound
      | some key =>
        let ch := s.channel peerId
        match countedSize m with
        | none => .error .unexpectedMessage
        | some size =>
          sendAll o useLoopback now peerId (signerOf key priority ch) p
            (packets c.sha (additional now p ch) m size) rand

end Verif.Sender
