import Verif.Model.Process

/-!
# How the handling of a datagram ends: `src/adnl/node/receiver.rs:82-175`

Every datagram is handled in a task of its own (receiver.rs:86-100). A panic ends that task; a loop that
does not end keeps the thread it runs on busy for ever. `Model/Process.lean` treats both as a message that
failed; here they are told apart.
-/
namespace Verif.Process
open Verif.Adnl Verif.AdnlProto Verif.Address Verif.Node

variable {c : Crypto}

/-- How a task ends. -/
inductive Ending where
  /-- it returns, with or without an error -/
  | returned
  /-- it panics -/
  | aborted
  /-- it never returns -/
  | stuck
deriving DecidableEq, Repr

/-- The second half of `process_message` (receiver.rs:257-319): only sending an answer can abort. The
subscribers are the environment. -/
def wholeEnding (o : Opts c) (ul : Bool) (now : Nat) (subs : Event → Reply) (s : Full c) (l q : Bytes)
    (prio : Bool) (rand : Nat → Sender.Rand c) : Message → Ending
  | .query id d =>
    match subs (.query l q id d) with
    | .answer a =>
      match Sender.sendMessage o ul now s.node l q (.answer id a) prio rand with
      | .error .panic => .aborted
      | _ => .returned
    | _ => .returned
  | _ => .returned

/-- `process_message` (receiver.rs:177-319): joining the parts of a transfer may never return. -/
def messageEnding (o : Opts c) (ul : Bool) (now : Nat) (subs : Event → Reply) (s : Full c) (l q : Bytes)
    (prio : Bool) (rand : Nat → Sender.Rand c) : Message → Ending
  | .part hash total offset data =>
    match Transfer.recvPart c.sha s.transfers ⟨hash, total, offset, data⟩ with
    | (_, .hang) => .stuck
    | (t, .some buf) =>
      match readMessage buf with
      | none => .returned
      | some (m', _) => wholeEnding o ul now subs { s with transfers := t } l q prio rand m'
    | _ => .returned
  | m => wholeEnding o ul now subs s l q prio rand m

/-- The loop over the messages (receiver.rs:160-171). -/
def allEnding (o : Opts c) (ul : Bool) (now : Nat) (subs : Event → Reply) (l q : Bytes) (prio : Bool) :
    (Nat → Sender.Rand c) → Full c → List Message → Ending
  | _, _, [] => .returned
  | rand, s, m :: ms =>
    match messageEnding o ul now subs s l q prio rand m with
    | .returned =>
      match processMessage o ul now subs s l q prio rand m with
      | (s', r) =>
        if r.ok then allEnding o ul now subs l q prio (fun k => rand (r.sent.length + k)) s' ms
        else .returned
    | e => e

/-- `handle_received_data` (receiver.rs:108-175). -/
def ending (o : Opts c) (ul : Bool) (now : Nat) (subs : Event → Reply) (s : Full c) (data : Bytes)
    (key : c.Sec) (rand : Nat → Sender.Rand c) : Ending :=
  match Receiver.handle o ul now s.node data key rand with
  | (_, .fail .panic, _) => .aborted
  | (_, .fail (.sender .panic), _) => .aborted
  | (n, .accepted l q prio ms, out) =>
    allEnding o ul now subs l q prio (fun k => rand (out.length + k)) { s with node := n } ms
  | _ => .returned

/-- What happens at a node, as far as the handling of datagrams is concerned: a datagram arrives, a
transfer is dropped after its timeout (receiver.rs:215-230), or something else changes the node (peers
added, messages sent, channels made, …). -/
inductive Happening (c : Crypto) where
  | datagram (now : Nat) (data : Bytes) (key : c.Sec) (rand : Nat → Sender.Rand c)
  | timeout (id : Bytes)
  | other (n : State c)

/-- The node afterwards. -/
def happens (o : Opts c) (ul : Bool) (subs : Event → Reply) (s : Full c) : Happening c → Full c
  | .datagram now data key rand => (receive o ul now subs s data key rand).1
  | .timeout id => { s with transfers := Transfer.expire s.transfers id }
  | .other n => { s with node := n }

end Verif.Process
