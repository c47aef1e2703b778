import Verif.Model.AMap
import Verif.Model.Bytes

/-!
# Limit of parallel RLDP queries: `src/rldp/node.rs`
-/
namespace Verif.Rldp

/-- Position in `Node::query` (node.rs:126-169); the number is that of the `Arc<Semaphore>`. -/
inductive QPc where
  /-- before line 135 -/
  | start
  /-- the semaphore was looked up or made (lines 135-140) -/
  | cloned (k : Nat)
  /-- the permit was taken (line 143), the query is in progress -/
  | running (k : Nat)
  | over
deriving DecidableEq, Repr

structure Query where
  peer : Nat
  pc : QPc
deriving DecidableEq, Repr

/-- The table `semaphores`, the free permits of all semaphores made so far, and the queries. Peer ids are
numbers here. -/
structure Limiter where
  table : AMap Nat Nat
  free : List Nat
  queries : List Query

def Limiter.init : Limiter := ⟨[], [], []⟩

inductive LAct where
  /-- `query` is called for a peer -/
  | start (peer : Nat)
  /-- `entry(..).or_insert_with(..).clone()` -/
  | clone (q : Nat)
  /-- `acquire` succeeds -/
  | acquire (q : Nat)
  /-- the permit is dropped -/
  | release (q : Nat)
  /-- `gc` (node.rs:119-123) comes to the entry of a peer; a whole `gc` is a number of these -/
  | gc (peer : Nat)
deriving DecidableEq, Repr

def Limiter.setPc (s : Limiter) (q : Nat) (x : Query) (pc : QPc) : Limiter :=
  { s with queries := s.queries.set q { x with pc := pc } }

/-- `max` is `max_peer_queries`. -/
def Limiter.step (max : Nat) (s : Limiter) : LAct → Limiter
  | .start p => { s with queries := s.queries ++ [⟨p, .start⟩] }
  | .clone q =>
    match s.queries[q]? with
    | some x =>
      if x.pc = .start then
        match s.table.get x.peer with
        | some k => s.setPc q x (.cloned k)
        | none =>
          Limiter.setPc { s with table := s.table.put x.peer s.free.length, free := s.free ++ [max] }
            q x (.cloned s.free.length)
      else s
    | none => s
  | .acquire q =>
    match s.queries[q]? with
    | some x =>
      match x.pc with
      | .cloned k =>
        match s.free[k]? with
        | some (n + 1) => Limiter.setPc { s with free := s.free.set k n } q x (.running k)
        | _ => s
      | _ => s
    | none => s
  | .release q =>
    match s.queries[q]? with
    | some x =>
      match x.pc with
      | .running k =>
        match s.free[k]? with
        | some n => Limiter.setPc { s with free := s.free.set k (n + 1) } q x .over
        | none => s
      | _ => s
    | none => s
  | .gc p =>
    match s.table.get p with
    | some k =>
      match s.free[k]? with
      | some n => if n < max then s else { s with table := s.table.erase p }
      | none => s
    | none => s

def Limiter.run (max : Nat) (s : Limiter) (acts : List LAct) : Limiter := acts.foldl (Limiter.step max) s

end Verif.Rldp
