import Verif.Model.Num

/-!
# Subscriber dispatch: `src/subscriber/mod.rs`, `src/adnl/node/receiver.rs`

A subscriber is an arbitrary function; asynchrony is irrelevant because each call is awaited before
the next one. The model also returns the trace of calls (subscriber position, bytes offered).
-/
namespace Verif.Dispatch

/-- Result of `try_consume_query` (subscriber/mod.rs:23-28, 42-47). -/
inductive SubResult where
  | consumed (answer : Option Bytes)
  | rejected (query : Bytes)
  | error
deriving DecidableEq, Repr

/-- Result of `process_query` (subscriber/mod.rs:80-83) or an error. -/
inductive Outcome where
  | processed (answer : Option Bytes)
  | rejected
  | error
deriving DecidableEq, Repr

/-- A query subscriber: constructor and bytes to result. -/
abbrev QuerySub := Nat → Bytes → SubResult

/-- `u32::read_from(&query, &mut 0)` (subscriber/mod.rs:63): fails on fewer than 4 bytes. -/
def readConstructor (q : Bytes) : Option Nat :=
  if q.length < 4 then none else some (ofLE (q.take 4))

/-- Loop of `process_query` (subscriber/mod.rs:65-77), with the trace of calls. -/
def queryLoop (c : Nat) (i : Nat) : List QuerySub → Bytes → Outcome × List (Nat × Bytes)
  | [], _ => (.rejected, [])
  | s :: ss, q =>
    match s c q with
    | .error => (.error, [(i, q)])
    | .consumed a => (.processed a, [(i, q)])
    | .rejected q' =>
      let r := queryLoop c (i + 1) ss q'
      (r.1, (i, q) :: r.2)

/-- `process_query` (subscriber/mod.rs:58-78). -/
def processQuery (subs : List QuerySub) (q : Bytes) : Outcome × List (Nat × Bytes) :=
  match readConstructor q with
  | none => (.error, [])
  | some c => queryLoop c 0 subs q

/-- Result of `try_consume_custom`: `none` is an error. -/
abbrev MsgSub := Nat → Bytes → Option Bool

/-- Loop of `process_message_custom` (receiver.rs:597-605); `none` is an error. -/
def customLoop (c : Nat) (data : Bytes) (i : Nat) : List MsgSub → Option Bool × List (Nat × Bytes)
  | [] => (some false, [])
  | s :: ss =>
    match s c data with
    | none => (none, [(i, data)])
    | some true => (some true, [(i, data)])
    | some false =>
      let r := customLoop c data (i + 1) ss
      (r.1, (i, data) :: r.2)

/-- `process_message_custom` (receiver.rs:591-606). -/
def processCustom (subs : List MsgSub) (data : Bytes) : Option Bool × List (Nat × Bytes) :=
  match readConstructor data with
  | none => (none, [])
  | some c => customLoop c data 0 subs

/-- What the node does with an incoming query (receiver.rs:293-316): the answer message to send,
nothing, or an error. -/
inductive QueryEffect where
  | sendAnswer (answer : Bytes) | nothing | error
deriving DecidableEq, Repr

def queryEffect (subs : List QuerySub) (q : Bytes) : QueryEffect :=
  match (processQuery subs q).1 with
  | .processed (some a) => .sendAnswer a
  | .processed none => .nothing
  | .rejected => .error
  | .error => .error

end Verif.Dispatch
