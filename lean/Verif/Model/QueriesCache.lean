import Verif.Model.AMap

/-!
# Model of `src/adnl/queries_cache.rs`

`ι` is `QueryId`, `β` the answer bytes. Each `PendingAdnlQuery` gets a number (its position in the
order of creation) which also names its oneshot channel. A step is one atomic operation: a map
operation, a channel send, one poll of `wait`, or the drop of a pending query (also when its future
is cancelled by a timeout, node/mod.rs:485).
-/
namespace Verif.QueriesCache

variable {ι β : Type} [DecidableEq ι]

/-- Oneshot channel as seen by the receiver. -/
inductive Chan (β : Type) where
  | open | sent (b : β) | closed
deriving DecidableEq

/-- `PendingAdnlQuery` (queries_cache.rs:44-49): `alive` until `wait` returned or it was dropped;
`results` collects everything `wait` returned. -/
structure Pending (ι β : Type) where
  id : ι
  chan : Chan β
  alive : Bool
  results : List (Option β)

/-- The cache, all pending queries created so far and the answers between `remove` and `send`. -/
structure Sys (ι β : Type) where
  table : AMap ι Nat
  next : Nat
  pend : Nat → Option (Pending ι β)
  inflight : List (Nat × β)

/-- Steps. -/
inductive Op (ι β : Type) where
  /-- `add_query` (queries_cache.rs:24-35) -/
  | add (id : ι)
  /-- `update_query`, `queries.remove` (queries_cache.rs:38) -/
  | answer (id : ι) (b : β)
  /-- `update_query`, `tx.send` of the `k`-th answer taken out (queries_cache.rs:39) -/
  | send (k : Nat)
  /-- a poll of `wait` (queries_cache.rs:52-58) -/
  | poll (n : Nat)
  /-- `Drop` without having finished (queries_cache.rs:61-71) -/
  | drop (n : Nat)

def setPend (f : Nat → Option (Pending ι β)) (n : Nat) (p : Pending ι β) :
    Nat → Option (Pending ι β) := fun m => if m = n then some p else f m

/-- Dropping a sender (its entry is replaced or removed without sending) closes the channel. -/
def closeSender (f : Nat → Option (Pending ι β)) (n : Option Nat) : Nat → Option (Pending ι β) :=
  match n with
  | none => f
  | some n => match f n with
    | none => f
    | some p => setPend f n { p with chan := match p.chan with | .open => .closed | c => c }

/-- One step. Steps that are not possible (poll of a finished query, …) change nothing. -/
def step (s : Sys ι β) : Op ι β → Sys ι β
  | .add id =>
    { s with
      table := s.table.put id s.next
      next := s.next + 1
      pend := setPend (closeSender s.pend (s.table.get id)) s.next ⟨id, .open, true, []⟩ }
  | .answer id b =>
    match s.table.get id with
    | none => s
    | some n => { s with table := s.table.erase id, inflight := s.inflight ++ [(n, b)] }
  | .send k =>
    match s.inflight[k]? with
    | none => s
    | some (n, b) =>
      match s.pend n with
      | none => s
      | some p =>
        { s with
          inflight := s.inflight.eraseIdx k
          pend := setPend s.pend n (if p.alive then { p with chan := .sent b } else p) }
  | .poll n =>
    match s.pend n with
    | none => s
    | some p =>
      if p.alive then
        match p.chan with
        | .open => s
        | .sent b => { s with pend := setPend s.pend n
                                { p with alive := false, results := p.results ++ [some b] } }
        | .closed => { s with pend := setPend s.pend n
                                { p with alive := false, results := p.results ++ [none] } }
      else s
  | .drop n =>
    match s.pend n with
    | none => s
    | some p =>
      if p.alive then
        { s with
          table := s.table.erase p.id
          pend := setPend (closeSender s.pend (s.table.get p.id)) n
            { p with alive := false, chan := .closed } }
      else s

/-- Any history. -/
def run (s : Sys ι β) (ops : List (Op ι β)) : Sys ι β := ops.foldl step s

/-- Empty cache. -/
def init : Sys ι β := ⟨[], 0, fun _ => none, []⟩

end Verif.QueriesCache
