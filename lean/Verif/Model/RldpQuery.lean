import Verif.Model.RldpProto
import Verif.Model.Compression
import Verif.Model.Dispatch

/-!
# RLDP queries: `src/rldp/transfers_cache.rs`, `src/rldp/node.rs`
-/
namespace Verif.Rldp
open Verif.Tl

/-- `negate_id` (transfers_cache.rs:651-653). -/
def negateId (id : Bytes) : Bytes := id.map (· ^^^ 0xff)

/-! ### Timeouts

Milliseconds as natural numbers; overflow of `u64` is not modelled. -/

/-- The limits of `QueryOptions` (transfers_cache.rs:523-529). -/
structure QueryOptions where
  min : Nat
  max : Nat

/-- `compute_timeout` (transfers_cache.rs:543-549). -/
def QueryOptions.computeTimeout (o : QueryOptions) : Option Nat → Nat
  | some r => if r > o.max then o.max else Nat.max r o.min
  | none => o.max

/-- `update_roundtrip` (transfers_cache.rs:533-540): new roundtrip and timeout. -/
def QueryOptions.updateRoundtrip (o : QueryOptions) (roundtrip elapsed : Nat) : Nat × Nat :=
  let r := if roundtrip = 0 then elapsed else (roundtrip + elapsed) / 2
  (r, o.computeTimeout (some r))

/-- `big_roundtrip` (transfers_cache.rs:552-554). -/
def QueryOptions.bigRoundtrip (o : QueryOptions) (roundtrip : Nat) : Nat := Nat.min (roundtrip * 2) o.max

/-- `is_timed_out` (transfers_cache.rs:647-649). -/
def isTimedOut (elapsed timeout updates : Nat) : Bool := decide (elapsed > timeout + timeout * updates / 100)

/-- Variables of the waiting loops (transfers_cache.rs:484-512 and 109-133, which have the same form):
the counter is `incoming_seqno` or `updates`. -/
structure Wait where
  start : Nat
  timeout : Nat
  roundtrip : Nat
  counter : Nat

/-- One check at time `now` with the counter read as `c`; `none` is the timeout. -/
def Wait.check (o : QueryOptions) (w : Wait) (now c : Nat) : Option Wait :=
  if c > w.counter then
    let u := o.updateRoundtrip w.roundtrip (now - w.start)
    some ⟨now, u.2, u.1, c⟩
  else if isTimedOut (now - w.start) w.timeout w.counter then none
  else some w

/-- A number of checks. -/
def Wait.run (o : QueryOptions) : Wait → List (Nat × Nat) → Option Wait
  | w, [] => some w
  | w, (now, c) :: rest =>
    match w.check o now c with
    | some w' => w'.run o rest
    | none => none

/-! ### Queries and answers -/

/-- `make_query` (node.rs:171-186): the serialised query. -/
def makeQuery (z : Zstd) (force : Bool) (maxAnswer timeout : Nat) (queryId data : Bytes) : Bytes :=
  writeMessage (.query queryId maxAnswer timeout (if force then compress z data else data))

/-- Result of `process_rldp_query`. -/
inductive Processed where
  | answer (b : Bytes)
  | nothing
  | rejected
  | error
  | answerTooBig
deriving DecidableEq, Repr

/-- `process_rldp_query` (transfers_cache.rs:561-598). -/
def processRldpQuery (z : Zstd) (subs : List Dispatch.QuerySub) (force : Bool) (q : OwnedQuery) : Processed :=
  let answerCompression := (decompress z q.data).isSome || force
  match (Dispatch.processQuery subs (received z q.data)).1 with
  | .processed (some a) =>
    let a' := if answerCompression then compress z a else a
    if a'.length > q.maxAnswerSize then .answerTooBig else .answer (writeMessage (.answer q.queryId a'))
  | .processed none => .nothing
  | .rejected => .rejected
  | .error => .error

/-- `IncomingContext::answer` up to the outgoing transfer (transfers_cache.rs:411-429); `none` is
`UnexpectedMessage`. -/
def serve (z : Zstd) (subs : List Dispatch.QuerySub) (force : Bool) (data : Bytes) : Option Processed :=
  (fromData data).map (processRldpQuery z subs force)

/-- Result of `Node::query` once an answer was received. -/
inductive QueryResult where
  | data (d : Bytes)
  | queryIdMismatch
  | unexpectedAnswer
  | invalidPacketContent
deriving DecidableEq, Repr

/-- `Node::query` (node.rs:149-168) for a received answer. -/
def queryResult (z : Zstd) (queryId answer : Bytes) : QueryResult :=
  match readMessage answer with
  | some (.answer id d, _) => if id = queryId then .data (received z d) else .queryIdMismatch
  | some (.message _ _, _) => .unexpectedAnswer
  | some (.query _ _ _ _, _) => .unexpectedAnswer
  | none => .invalidPacketContent

end Verif.Rldp
