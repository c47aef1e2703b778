import Verif.Model.Process
import Verif.Model.QueriesCache

/-!
# Queries of a node: `query_raw` in `src/adnl/node/mod.rs` together with what is received

The reset of the peer after a timeout (mod.rs:488-494) is modelled in `Model/ChannelDrop.lean` and left out here.
-/
namespace Verif.QueryRaw
open Verif.Adnl Verif.AdnlProto Verif.Node Verif.Process

variable {c : Crypto}

/-- The node with its pending queries (node/mod.rs:118-140). -/
structure State (c : Crypto) where
  full : Full c
  cache : QueriesCache.Sys Bytes Bytes

/-- What happens at a node. -/
inductive Act (c : Crypto) where
  /-- `query_raw` up to the first wait (mod.rs:463-474); `id` and `rand` are random -/
  | ask (ul : Bool) (now : Nat) (l q id data : Bytes) (prio : Bool) (rand : Nat → Sender.Rand c)
  /-- `handle_received_data` -/
  | datagram (ul : Bool) (now : Nat) (subs : Event → Reply) (data : Bytes) (key : c.Sec) (rand : Nat → Sender.Rand c)
  /-- the answer taken out is sent to the waiting task (queries_cache.rs:39) -/
  | send (k : Nat)
  /-- the waiting task looks for its answer (mod.rs:482-485) -/
  | poll (n : Nat)
  /-- the timeout, or the task is cancelled (mod.rs:482-485) -/
  | drop (n : Nat)

/-- `process_message_answer` for the answers among the events (receiver.rs:264-267, 321-323): the id alone decides. -/
def answers (s : QueriesCache.Sys Bytes Bytes) : List Event → QueriesCache.Sys Bytes Bytes
  | [] => s
  | .answer id a :: rest => answers (QueriesCache.step s (.answer id a)) rest
  | _ :: rest => answers s rest

/-- One step. A query whose message cannot be sent is dropped at once (mod.rs:466-474). -/
def step (o : Opts c) (s : State c) : Act c → State c
  | .ask ul now l q id data prio rand =>
    let cache := QueriesCache.step s.cache (.add id)
    match Sender.sendMessage o ul now s.full.node l q (.query id data) prio rand with
    | .ok (p, _) => ⟨{ s.full with node := s.full.node.setPeer l q p }, cache⟩
    | .error _ => ⟨s.full, QueriesCache.step cache (.drop s.cache.next)⟩
  | .datagram ul now subs data key rand =>
    ⟨(receive o ul now subs s.full data key rand).1,
      answers s.cache (receive o ul now subs s.full data key rand).2.events⟩
  | .send k => { s with cache := QueriesCache.step s.cache (.send k) }
  | .poll n => { s with cache := QueriesCache.step s.cache (.poll n) }
  | .drop n => { s with cache := QueriesCache.step s.cache (.drop n) }

/-- Any history. -/
def run (o : Opts c) (s : State c) : List (Act c) → State c
  | [] => s
  | a :: as => run o (step o s a) as

/-- A node that has asked nothing yet. -/
def State.start (f : Full c) : State c := ⟨f, QueriesCache.init⟩

end Verif.QueryRaw
