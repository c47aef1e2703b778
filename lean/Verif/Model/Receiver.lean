import Verif.Model.Sender

/-!
# `src/adnl/node/receiver.rs`
-/
namespace Verif.Receiver
open Verif.Adnl Verif.AdnlProto Verif.Address Verif.Node

variable {c : Crypto}

/-- Everything that makes a packet fail. -/
inductive Err where
  -- handshake.rs, channel.rs
  | badHandshakeLength | badHandshakeChecksum | invalidPublicKey | badChannelLength | badChannelChecksum
  -- `AdnlReceiverError` (receiver.rs:610-624)
  | unsupportedVersion | invalidPacket | unknownMessage | unknownPeerInChannel
  -- `AdnlPacketError` (receiver.rs:626-652)
  | explicitSource | invalidPeerId | noKeyData | unknownChannel | unknownPeer | dstTooNew | dstTooOld
  | srcTooNew | srcTooOld | confirmTooNew | signatureNotFound | invalidSignature
  | unsupportedPublicKey | badAddressList | peersNotFound | transfer
  | sender (e : Sender.Err)
  | panic
deriving DecidableEq, Repr

/-- `verify` inside `check_packet` (receiver.rs:368-391); `none` is `Ok(())`. -/
def verify (c : Crypto) (raw : Bytes) (sig : Option SigInfo) (pub : c.Pub) (mandatory : Bool) :
    Option Err :=
  match sig with
  | some s =>
    match extract s raw with
    | none => some .signatureNotFound
    | some (_, msg, sg) => if c.verify pub msg sg then none else some .invalidSignature
  | none => if mandatory then some .signatureNotFound else none

/-- `NodeIdFull::try_from(tl::PublicKey)` (node_id.rs:57-69). -/
def fullId (c : Crypto) : PubKey → Option c.Pub
  | .ed25519 k => c.decodePub k
  | _ => none

/-- Finding out who sent the packet (receiver.rs:393-432): peer id and whether the signature is still
to be checked. `chan` is the peer of the channel the packet came through; `key` is the channel key
generated if a new peer is stored. -/
def source (o : Opts c) (now : Nat) (s : State c) (raw : Bytes) (pkt : InPacket) (localId : Bytes)
    (chan : Option Bytes) (key : c.Sec) : State c × Except Err (Bytes × Bool) :=
  match chan with
  | some peerId =>
    if pkt.src.isSome ∨ pkt.srcShort.isSome then (s, .error .explicitSource)
    else (s, .ok (peerId, true))
  | none =>
    match pkt.src with
    | some pk =>
      match fullId c pk with
      | none => (s, .error .unsupportedPublicKey)
      | some pub =>
        let peerId := shortId c pub
        if pkt.srcShort.isSome ∧ pkt.srcShort ≠ some peerId then (s, .error .invalidPeerId)
        else
          match verify c raw pkt.signature pub o.signatureRequired with
          | some e => (s, .error e)
          | none =>
            match pkt.address with
            | none => (s, .ok (peerId, false))
            | some list =>
              match Address.parse o.build now o.clockTolerance list with
              | .ok addr =>
                match addPeer o s localId peerId addr pub key with
                | (s', .peersNotFound) => (s', .error .peersNotFound)
                | (s', _) => (s', .ok (peerId, false))
              | .panic => (s, .error .panic)
              | _ => (s, .error .badAddressList)
    | none =>
      match pkt.srcShort with
      | some peerId => (s, .ok (peerId, true))
      | none => (s, .error .noKeyData)

/-- Verdict on the dates of a packet. -/
inductive DateVerdict where
  | go
  | fail (e : Err)
  /-- our date in the packet is old: answer with `Nop` and fail -/
  | nop
deriving DecidableEq

/-- Reinit dates (receiver.rs:457-481). -/
def checkDates (o : Opts c) (now : Nat) (p : Peer c) : Option ReinitDates → Peer c × DateVerdict
  | none => (p, .go)
  | some d =>
    if d.target > o.startTime then (p, .fail .dstTooNew)
    else
      match addU32 o.build now o.clockTolerance with
      | none => (p, .fail .panic)
      | some limit =>
        if d.loc > limit then (p, .fail .srcTooNew)
        else
          match p.tryReinit d.loc with
          | (p', false) => (p', .fail .srcTooOld)
          | (p', true) =>
            if d.target ≠ 0 ∧ d.target < o.startTime then (p', .nop) else (p', .go)

/-- Verdict on the numbers of a packet. -/
inductive SeqVerdict where
  | go | duplicate | confirmTooNew
deriving DecidableEq

/-- History (receiver.rs:483-493). -/
def checkHistory (o : Opts c) (p : Peer c) (priority : Bool) (seqno : Option Nat) : Peer c × Bool :=
  match seqno with
  | some n =>
    if o.historyEnabled then
      let r := PacketsHistory.deliver (p.recvHist priority) n
      (p.setRecvHist priority r.1, r.2)
    else (p, true)
  | none => (p, true)

/-- Numbers (receiver.rs:483-500). -/
def checkSeqnos (o : Opts c) (p : Peer c) (priority : Bool) (seqno confirm : Option Nat) :
    Peer c × SeqVerdict :=
  match checkHistory o p priority seqno with
  | (p', false) => (p', .duplicate)
  | (p', true) =>
    match confirm with
    | some n => if n > p'.sendSeqno priority then (p', .confirmTooNew) else (p', .go)
    | none => (p', .go)

/-- Result of `check_packet`. -/
inductive Checked where
  | peer (id : Bytes)
  | duplicate
  | fail (e : Err)
deriving DecidableEq

/-- Known peer of the packet (receiver.rs:434-446). -/
def lookup (s : State c) (localId peerId : Bytes) (fromChannel : Bool) : Except Err (Peer c) :=
  match s.peers.get localId with
  | none => .error .peersNotFound
  | some t =>
    if fromChannel ∧ (s.byPeer.get peerId).isSome = false then .error .unknownChannel
    else
      match t.get peerId with
      | none => .error .unknownPeer
      | some p => .ok p

/-- Dates and numbers for the known peer (receiver.rs:457-502). The datagrams are those of the `Nop`
answer. -/
def session (o : Opts c) (ul : Bool) (now : Nat) (s : State c) (pkt : InPacket)
    (localId peerId : Bytes) (p : Peer c) (priority : Bool) (rand : Nat → Sender.Rand c) :
    State c × Checked × List Bytes :=
  match checkDates o now p pkt.reinitDates with
  | (p', .fail e) => (s.setPeer localId peerId p', .fail e, [])
  | (p', .nop) =>
    let s' := s.setPeer localId peerId p'
    match Sender.sendMessage o ul now s' localId peerId .nop false rand with
    | .error e => (s', .fail (.sender e), [])
    | .ok (p'', ds) => (s'.setPeer localId peerId p'', .fail .dstTooOld, ds)
  | (p', .go) =>
    match checkSeqnos o p' priority pkt.seqno pkt.confirmSeqno with
    | (p'', .duplicate) => (s.setPeer localId peerId p'', .duplicate, [])
    | (p'', .confirmTooNew) => (s.setPeer localId peerId p'', .fail .confirmTooNew, [])
    | (p'', .go) => (s.setPeer localId peerId p'', .peer peerId, [])

/-- `check_packet` (receiver.rs:357-503). -/
def checkPacket (o : Opts c) (ul : Bool) (now : Nat) (s : State c) (raw : Bytes) (pkt : InPacket)
    (localId : Bytes) (chan : Option Bytes) (priority : Bool) (key : c.Sec)
    (rand : Nat → Sender.Rand c) : State c × Checked × List Bytes :=
  match source o now s raw pkt localId chan key with
  | (s1, .error e) => (s1, .fail e, [])
  | (s1, .ok (peerId, check)) =>
    match lookup s1 localId peerId chan.isSome with
    | .error e => (s1, .fail e, [])
    | .ok p =>
      -- the signature was already taken if it was checked above (line 374)
      match if check then verify c raw pkt.signature p.pub false else none with
      | some e => (s1, .fail e, [])
      | none => session o ul now s1 pkt localId peerId p priority rand

/-- A decrypted packet: local id, peer of the channel, priority, version, contents. -/
structure Decrypted where
  localId : Bytes
  chan : Option Bytes
  priority : Bool
  version : Option Nat
  data : Bytes

/-- Decryption (receiver.rs:114-139). `.ok none` is a packet for an unknown id. -/
def decrypt (o : Opts c) (s : State c) (data : Bytes) : State c × Except Err (Option Decrypted) :=
  match parseHandshake c o.keys data with
  | .ok localId version payload => (s, .ok (some ⟨localId, none, false, version, payload⟩))
  | .badLength => (s, .error .badHandshakeLength)
  | .badChecksum => (s, .error .badHandshakeChecksum)
  | .invalidPublicKey => (s, .error .invalidPublicKey)
  | .panic => (s, .error .panic)
  | .notForUs =>
    match s.byId.get (data.take 32) with
    | none => (s, .ok none)
    | some (r, priority) =>
      match s.heap.get r with
      | none => (s, .ok none) -- does not happen: references are never dangling
      | some ch =>
        match ch.decrypt c priority data with
        | .ok version payload =>
          (s.setReady r, .ok (some ⟨ch.localId, some ch.peerId, priority, version, payload⟩))
        | .tooShort => (s, .error .badChannelLength)
        | .badChecksum => (s, .error .badChannelChecksum)
        | .panic => (s, .error .panic)

/-- What happens to a received datagram before its messages are processed. -/
inductive Outcome where
  | unknownId
  | duplicate
  | fail (e : Err)
  | accepted (localId peerId : Bytes) (priority : Bool) (messages : List Message)
deriving DecidableEq

/-- `handle_received_data` (receiver.rs:108-175) up to the processing of the messages. -/
def handle (o : Opts c) (ul : Bool) (now : Nat) (s : State c) (data : Bytes) (key : c.Sec)
    (rand : Nat → Sender.Rand c) : State c × Outcome × List Bytes :=
  match decrypt o s data with
  | (s1, .error e) => (s1, .fail e, [])
  | (s1, .ok none) => (s1, .unknownId, [])
  | (s1, .ok (some d)) =>
    if d.version.isSome ∧ d.version ≠ some 0 then (s1, .fail .unsupportedVersion, [])
    else
      match readPacket d.data with
      | none => (s1, .fail .invalidPacket, [])
      | some (pkt, _) =>
        match checkPacket o ul now s1 d.data pkt d.localId d.chan d.priority key rand with
        | (s2, .peer peerId, out) => (s2, .accepted d.localId peerId d.priority pkt.messages, out)
        | (s2, .duplicate, out) => (s2, .duplicate, out)
        | (s2, .fail e, out) => (s2, .fail e, out)

end Verif.Receiver
