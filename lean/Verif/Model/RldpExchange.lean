import Verif.Model.RldpSystem
import Verif.Model.RldpQuery

/-!
# A whole RLDP query: the transfer of the query, the handler, the transfer of the answer

`TransfersCache::query` (transfers_cache.rs:44-160) on one node and `create_answer_handler` with
`IncomingContext::answer` (transfers_cache.rs:270-331, 404-452) on the other one. Both transfers are those of
`Model/RldpSystem.lean`; the network may lose, delay, repeat and reorder everything. Timeouts are steps that can
happen at any time; how long they take is in `Model/RldpTime.lean`.
-/
namespace Verif.Rldp

/-- Options of both nodes and what is asked. -/
structure Setup where
  zstd : Zstd
  /-- the other node's subscribers -/
  subs : List Dispatch.QuerySub
  /-- `force_compression` of the client and of the server -/
  forceClient : Bool
  forceServer : Bool
  /-- `max_answer_size` of the client and of the server -/
  maxClient : Nat
  maxServer : Nat
  timeout : Nat
  queryId : Bytes
  data : Bytes

/-- What the client sends (`make_query`). -/
def Setup.query (c : Setup) : Bytes := makeQuery c.zstd c.forceClient c.maxClient c.timeout c.queryId c.data

/-- How `Node::query` ended: `None` after a timeout, an error of the sender, or with an answer. -/
inductive Ended where
  | without
  | with (r : QueryResult)
deriving DecidableEq, Repr

structure Exchange (f : Fec) where
  /-- transfer of the query, from client to server -/
  query : Sys f
  /-- the server took the query from its receiver (transfers_cache.rs:303-316) -/
  served : Bool
  /-- transfer of the answer, from server to client -/
  answer : Option (Sys f)
  ended : Option Ended

def Exchange.init (f : Fec) (c : Setup) : Exchange f := ⟨Sys.init f c.query c.maxServer, false, none, none⟩

inductive XAct where
  /-- a step of the query's transfer -/
  | query (a : Act)
  /-- the server processes the query (transfers_cache.rs:411-437) -/
  | serve
  /-- a step of the answer's transfer -/
  | answer (a : Act)
  /-- the client finds the answer complete (transfers_cache.rs:128-131; node.rs:149-168) -/
  | finish
  /-- the client returns without (transfers_cache.rs:121-124, 134-140) -/
  | giveUp
deriving DecidableEq, Repr

/-- The client's table entry for the answer is `Done` once `query` returned (transfers_cache.rs:143-144). -/
def Sys.closed {f : Fec} (s : Sys f) (ended : Bool) : Sys f := if ended then { s with expired := true } else s

/-- A message part of the answer that reaches the client's `receive` sets `has_reply` of the query's transfer
(transfers_cache.rs:382-384). -/
def Exchange.noted {f : Fec} (build : Build) (x : Exchange f) (s : Sys f) : Act → Sys f
  | .deliver i =>
    if (s.net[i]?).isSome && !s.expired && !s.recv.left then x.query.step build .reply else x.query
  | _ => x.query

def Exchange.step {f : Fec} (c : Setup) (build : Build) (x : Exchange f) : XAct → Exchange f
  | .query .reply => x
  | .query a => { x with query := x.query.step build a }
  | .serve =>
    if x.query.recv.left && !x.served then
      { x with
        served := true
        answer := match serve c.zstd c.subs c.forceServer x.query.recv.transfer.data with
          | some (.answer b) => some ((Sys.init f b c.maxClient).closed x.ended.isSome)
          | _ => none }
    else x
  | .answer .reply => x
  | .answer a =>
    match x.answer with
    | some s => { x with query := x.noted build s a, answer := some (s.step build a) }
    | none => x
  | .finish =>
    match x.answer with
    | some s =>
      if x.ended.isNone && decide (x.query.phase = .ok) && s.recv.left then
        { x with
          ended := some (.with (queryResult c.zstd c.queryId s.recv.transfer.data))
          answer := some (s.closed true) }
      else x
    | none => x
  | .giveUp =>
    if x.ended.isNone then { x with ended := some .without, answer := x.answer.map (·.closed true) } else x

def Exchange.run {f : Fec} (c : Setup) (build : Build) (x : Exchange f) (as : List XAct) : Exchange f :=
  as.foldl (fun x a => x.step c build a) x

end Verif.Rldp
