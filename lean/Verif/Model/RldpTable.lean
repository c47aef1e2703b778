import Verif.Model.RldpExchange
import Verif.Model.AMap

/-!
# Many RLDP queries at the same time: the table of transfers of `src/rldp/transfers_cache.rs`

Any number of nodes, each with its table of transfers, and all letters sent so far. A node finds the transfer that a
message belongs to by the transfer id alone; the contents of the transfers are those of `Model/RldpTransfer.lean`.
Messages are taken as read (their encoding is C60); a message part is processed when it is handed over, without the
queue in between, and the entries are not removed (`Model/RldpCache.lean` has both).
-/
namespace Verif.RldpTable
open Verif.Rldp

/-- `RldpTransfer` (transfers_cache.rs:342-346). -/
inductive Slot where
  | incoming
  | outgoing
  | done
deriving DecidableEq, Repr

/-- An `OutgoingContext` in `send` (transfers_cache.rs:455-520). -/
structure OutTask where
  out : Outgoing
  phase : Phase
  peer : Nat

/-- An `IncomingContext` in `receive` (transfers_cache.rs:348-402); `own`: for the answer to an own query. -/
structure InTask (f : Fec) where
  rcv : Receiving f
  peer : Nat
  own : Bool

/-- One node: the table, the running tasks, the ids given to `answer`, what `process_rldp_query` was given (transfer,
peer, query as received), the own queries (`query_id` by transfer) and how they ended. -/
structure RNode (f : Fec) where
  table : AMap Bytes Slot
  outs : AMap Bytes OutTask
  ins : AMap Bytes (InTask f)
  served : List Bytes
  runs : List (Bytes × Nat × Bytes)
  asks : AMap Bytes Bytes
  ended : AMap Bytes Ended

def RNode.init (f : Fec) : RNode f := ⟨[], [], [], [], [], [], []⟩

/-- Options of a node (rldp/node.rs:24-60) and its subscribers. -/
structure ROpts where
  subs : List Dispatch.QuerySub
  force : Bool
  maxAnswer : Nat

variable {f : Fec}

/-- Changes the state shared with the sending task, if there is one. -/
def RNode.setState (s : RNode f) (id : Bytes) (g : OutState → OutState) : RNode f :=
  match s.outs.get id with
  | some t => { s with outs := s.outs.put id { t with out := { t.out with st := g t.out.st } } }
  | none => s

/-- The messages for the replies of `process_chunk` (incoming_transfer.rs:76-138). -/
def ackMsg (id : Bytes) : Ack → PartMsg
  | .confirm p n => .confirm id p n
  | .complete p => .complete id p

/-- `parts_tx.send` and the turn of the loop in `receive` (transfers_cache.rs:359-402). Once the loop of the other
side's query is left, the entry is `Done` (line 308); that of an own query stays until `query` returns (line 143). -/
def RNode.take (s : RNode f) (id : Bytes) (m : Part) : RNode f × List (Nat × PartMsg) :=
  match s.ins.get id with
  | none => (s, [])
  | some t =>
    let s1 := { s with
      ins := s.ins.put id { t with rcv := (t.rcv.step m).1 }
      table := if (t.rcv.step m).1.left && !t.own then s.table.put id .done else s.table }
    (if t.own && (t.rcv.step m).2.isSome then s1.setState (negateId id) (fun st => { st with hasReply := true }) else s1,
      (Reply.acks (t.rcv.step m).2).map fun a => (t.peer, ackMsg id a))

/-- `handle_message` (transfers_cache.rs:167-268): the node afterwards and the messages it sends. -/
def RNode.handle (o : ROpts) (build : Build) (s : RNode f) (src : Nat) : PartMsg → RNode f × List (Nat × PartMsg)
  | .part id m =>
    match s.table.get id with
    | some .incoming => s.take id m
    | some _ => (s, [(src, .confirm id m.part m.seqno), (src, .complete id m.part)])
    | none =>
      RNode.take { s with
        table := s.table.put id .incoming
        ins := s.ins.put id ⟨Receiving.new f o.maxAnswer, src, false⟩ } id m
  | .confirm id p n =>
    (if s.table.get id = some .outgoing then s.setState id (fun st => st.ack build (.confirm p n)) else s, [])
  | .complete id p =>
    (if s.table.get id = some .outgoing then s.setState id (fun st => st.ack build (.complete p)) else s, [])

/-- The steps of `send`. -/
inductive SendAct where
  | begin | bind | chunk | check | giveUp
deriving DecidableEq, Repr

/-- One step of `send` (transfers_cache.rs:464-520). -/
def OutTask.step (f : Fec) (build : Build) (t : OutTask) : SendAct → OutTask × Option Part
  | .begin =>
    if t.phase = .start then
      match t.out.startNextPart f with
      | (o, none) => ({ t with out := o, phase := .ok }, none)
      | (o, some _) => ({ t with out := o, phase := .begun }, none)
    else (t, none)
  | .bind => (if t.phase = .begun then { t with phase := .sending t.out.st.part } else t, none)
  | .chunk =>
    match t.phase with
    | .sending _ =>
      match t.out.prepareChunk f build with
      | (o, .part m) => ({ t with out := o }, some m)
      | (o, _) => ({ t with out := o, phase := .failed }, none)
    | _ => (t, none)
  | .check =>
    match t.phase with
    | .sending p =>
      match t.out.finishedOrNext build p with
      | .no => (t, none)
      | .yes => ({ t with phase := .start }, none)
      | _ => ({ t with phase := .failed }, none)
    | _ => (t, none)
  | .giveUp =>
    match t.phase with
    | .sending _ => ({ t with phase := .failed }, none)
    | _ => (t, none)

/-- A step of the task that sends transfer `id`; once it is over the entry is `Done` (transfers_cache.rs:97-100,
136-140). The entry of an answer stays `Outgoing`, which makes no difference: nobody reads that state any more. -/
def RNode.send (build : Build) (s : RNode f) (id : Bytes) (a : SendAct) : RNode f × List (Nat × PartMsg) :=
  match s.outs.get id with
  | none => (s, [])
  | some t =>
    ({ s with
        outs := s.outs.put id (t.step f build a).1
        table := if (t.step f build a).1.phase.running then s.table else s.table.put id .done },
      (t.step f build a).2.toList.map fun m => (t.peer, .part id m))

/-- `Node::query` and `TransfersCache::query` up to the two tasks (node.rs:120-148; transfers_cache.rs:52-93). -/
def RNode.ask (z : Zstd) (o : ROpts) (s : RNode f) (peer : Nat) (id queryId data : Bytes) (timeout : Nat) : RNode f :=
  { s with
    table := (s.table.put id .outgoing).put (negateId id) .incoming
    outs := s.outs.put id ⟨Outgoing.new (makeQuery z o.force o.maxAnswer timeout queryId data), .start, peer⟩
    ins := s.ins.put (negateId id) ⟨Receiving.new f o.maxAnswer, peer, true⟩
    asks := s.asks.put id queryId }

/-- `answer` up to the sending of the answer (transfers_cache.rs:404-446). -/
def RNode.serve (z : Zstd) (o : ROpts) (s : RNode f) (id : Bytes) : RNode f :=
  match s.ins.get id with
  | none => s
  | some t =>
    if !t.own && t.rcv.left && !s.served.contains id then
      let s1 := { s with served := id :: s.served, runs := s.runs ++ [(id, t.peer, t.rcv.transfer.data)] }
      match Rldp.serve z o.subs o.force t.rcv.transfer.data with
      | some (.answer b) =>
        { s1 with
          outs := s.outs.put (negateId id) ⟨Outgoing.new b, .start, t.peer⟩
          table := s.table.put (negateId id) .outgoing }
      | _ => s1
    else s

/-- The own query `id` finds its answer complete (transfers_cache.rs:128-131, 143-144; node.rs:149-168). -/
def RNode.finish (z : Zstd) (s : RNode f) (id : Bytes) : RNode f :=
  match s.asks.get id, s.ended.get id, s.outs.get id, s.ins.get (negateId id) with
  | some qid, none, some t, some r =>
    if t.phase = .ok ∧ r.rcv.left = true then
      { s with
        ended := s.ended.put id (.with (queryResult z qid r.rcv.transfer.data))
        table := s.table.put (negateId id) .done }
    else s
  | _, _, _, _ => s

/-- The own query `id` returns without an answer (transfers_cache.rs:121-124, 134-140, 143-144). -/
def RNode.quit (s : RNode f) (id : Bytes) : RNode f :=
  match s.asks.get id, s.ended.get id with
  | some _, none => { s with ended := s.ended.put id .without, table := s.table.put (negateId id) .done }
  | _, _ => s

/-- The timer of the other side's query (transfers_cache.rs:329-335). -/
def RNode.expire (s : RNode f) (id : Bytes) : RNode f :=
  match s.ins.get id with
  | some t => if t.own then s else { s with table := s.table.put id .done }
  | none => s

/-- A message on its way or delivered. -/
structure Letter where
  src : Nat
  dst : Nat
  msg : PartMsg

structure World (f : Fec) where
  node : Nat → RNode f
  net : List Letter

def World.init (f : Fec) : World f := ⟨fun _ => RNode.init f, []⟩

inductive WAct where
  /-- node `n` asks `peer`; the transfer id and the query id are random (outgoing_transfer.rs:22, node.rs:172) -/
  | ask (n peer : Nat) (id queryId data : Bytes) (timeout : Nat)
  | send (n : Nat) (id : Bytes) (a : SendAct)
  /-- letter `i` arrives, perhaps once more -/
  | deliver (i : Nat)
  /-- a message that nobody of these nodes sent -/
  | inject (src dst : Nat) (m : PartMsg)
  | serve (n : Nat) (id : Bytes)
  | finish (n : Nat) (id : Bytes)
  | quit (n : Nat) (id : Bytes)
  | expire (n : Nat) (id : Bytes)

/-- What all nodes share: compression, and the options of each. -/
structure Env where
  zstd : Zstd
  opts : Nat → ROpts
  build : Build

/-- A node and what it sends put into the world. -/
def World.put (w : World f) (n : Nat) (r : RNode f × List (Nat × PartMsg)) : World f :=
  ⟨fun k => if k = n then r.1 else w.node k, w.net ++ r.2.map fun x => ⟨n, x.1, x.2⟩⟩

def World.step (e : Env) (w : World f) : WAct → World f
  | .ask n peer id qid data timeout => w.put n ((w.node n).ask e.zstd (e.opts n) peer id qid data timeout, [])
  | .send n id a => w.put n ((w.node n).send e.build id a)
  | .deliver i =>
    match w.net[i]? with
    | some l => w.put l.dst ((w.node l.dst).handle (e.opts l.dst) e.build l.src l.msg)
    | none => w
  | .inject src dst m => w.put dst ((w.node dst).handle (e.opts dst) e.build src m)
  | .serve n id => w.put n ((w.node n).serve e.zstd (e.opts n) id, [])
  | .finish n id => w.put n ((w.node n).finish e.zstd id, [])
  | .quit n id => w.put n ((w.node n).quit id, [])
  | .expire n id => w.put n ((w.node n).expire id, [])

def World.run (e : Env) (w : World f) (as : List WAct) : World f := as.foldl (World.step e) w

end Verif.RldpTable
