import Verif.Model.Receiver

/-!
# Processing of received messages: `src/adnl/node/receiver.rs:160-355`

The subscribers are the environment: `subs` says for each event passed to them whether they failed, were
done, or produced an answer (their order is modelled in `Model/Dispatch.lean`).
-/
namespace Verif.Process
open Verif.Adnl Verif.AdnlProto Verif.Address Verif.Node

variable {c : Crypto}

/-- What reaches the users of the node. -/
inductive Event where
  /-- `queries.update_query` -/
  | answer (queryId data : Bytes)
  /-- `process_message_custom` -/
  | custom (localId peerId data : Bytes)
  /-- `process_query` -/
  | query (localId peerId queryId data : Bytes)
deriving DecidableEq

/-- Reaction of the subscribers. -/
inductive Reply where
  | failed
  | done
  | answer (data : Bytes)

/-- The node with its incoming transfers. -/
structure Full (c : Crypto) where
  node : State c
  transfers : Transfer.Table

/-- Result of a message: events, datagrams sent, and whether the next message is processed (`Ok`). -/
structure Result where
  events : List Event
  sent : List Bytes
  ok : Bool

/-- Channel messages (receiver.rs:268-281, 325-355). -/
def channelMessage (s : State c) (l q key : Bytes) (date : Nat) (ctx : Ctx) : State c × Bool :=
  match c.decodePub key with
  | none => (s, false)
  | some pub =>
    match createChannel s l q pub date ctx with
    | (s', .ok) => (s', true)
    | (s', _) => (s', false)

/-- The second half of `process_message` (receiver.rs:257-319). -/
def processWhole (o : Opts c) (ul : Bool) (now : Nat) (subs : Event → Reply) (s : Full c) (l q : Bytes)
    (prio : Bool) (rand : Nat → Sender.Rand c) : Message → Full c × Result
  | .answer id a => (s, ⟨[.answer id a], [], true⟩)
  | .confirmChannel key _ date =>
    let r := channelMessage s.node l q key date .confirm
    ({ s with node := r.1 }, ⟨[], [], r.2⟩)
  | .createChannel key date =>
    let r := channelMessage s.node l q key date .create
    ({ s with node := r.1 }, ⟨[], [], r.2⟩)
  | .custom d =>
    match subs (.custom l q d) with
    | .failed => (s, ⟨[.custom l q d], [], false⟩)
    | _ => (s, ⟨[.custom l q d], [], true⟩)
  | .nop => (s, ⟨[], [], true⟩)
  | .query id d =>
    match subs (.query l q id d) with
    | .failed => (s, ⟨[.query l q id d], [], false⟩)
    | .done => (s, ⟨[.query l q id d], [], true⟩)
    | .answer a =>
      match Sender.sendMessage o ul now s.node l q (.answer id a) prio rand with
      | .error _ => (s, ⟨[.query l q id d], [], false⟩)
      | .ok (p, ds) => ({ s with node := s.node.setPeer l q p }, ⟨[.query l q id d], ds, true⟩)
  | .part _ _ _ _ => (s, ⟨[], [], false⟩)
  | .reinit _ => (s, ⟨[], [], false⟩)

/-- `process_message` (receiver.rs:177-319). -/
def processMessage (o : Opts c) (ul : Bool) (now : Nat) (subs : Event → Reply) (s : Full c) (l q : Bytes)
    (prio : Bool) (rand : Nat → Sender.Rand c) (m : Message) : Full c × Result :=
  match m with
  | .part hash total offset data =>
    match Transfer.recvPart c.sha s.transfers ⟨hash, total, offset, data⟩ with
    | (t, .none) => ({ s with transfers := t }, ⟨[], [], true⟩)
    | (t, .some buf) =>
      match readMessage buf with
      | none => ({ s with transfers := t }, ⟨[], [], false⟩)
      | some (m', _) => processWhole o ul now subs { s with transfers := t } l q prio rand m'
    | (t, _) => ({ s with transfers := t }, ⟨[], [], false⟩)
  | m => processWhole o ul now subs s l q prio rand m

/-- The loop over the messages (receiver.rs:160-171); the first failure ends it. Every datagram has
randomness of its own. -/
def processAll (o : Opts c) (ul : Bool) (now : Nat) (subs : Event → Reply) (l q : Bytes) (prio : Bool) :
    (Nat → Sender.Rand c) → Full c → List Message → Full c × Result
  | _, s, [] => (s, ⟨[], [], true⟩)
  | rand, s, m :: ms =>
    match processMessage o ul now subs s l q prio rand m with
    | (s', r) =>
      if r.ok then
        match processAll o ul now subs l q prio (fun k => rand (r.sent.length + k)) s' ms with
        | (s'', r') => (s'', ⟨r.events ++ r'.events, r.sent ++ r'.sent, r'.ok⟩)
      else (s', r)

/-- `handle_received_data` (receiver.rs:108-175) as a whole. -/
def receive (o : Opts c) (ul : Bool) (now : Nat) (subs : Event → Reply) (s : Full c) (data : Bytes)
    (key : c.Sec) (rand : Nat → Sender.Rand c) : Full c × Result :=
  match Receiver.handle o ul now s.node data key rand with
  | (n, .accepted l q prio ms, out) =>
    match processAll o ul now subs l q prio (fun k => rand (out.length + k)) { s with node := n } ms with
    | (s', r) => (s', { r with sent := out ++ r.sent })
  | (n, _, out) => ({ s with node := n }, ⟨[], out, false⟩)

end Verif.Process
