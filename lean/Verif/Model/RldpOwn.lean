import Verif.Model.RldpQuery
import Verif.Model.AMap

/-!
# What the RLDP queries of a node put into its table of transfers: `src/rldp/transfers_cache.rs`

`RldpCache` has the transfers others begin; here are the two entries of every query of the node itself, its receiving
task and the task that clears the entries. The accesses to the table are steps of their own. How the query and its
answer are transferred is left out (`RldpTable`, `RldpSystem`): a transfer ends at any time, with any result. What is
in the table is marked with who put it there, which no step looks at. The calls of the application may be dropped
wherever they wait.
-/
namespace Verif.Rldp.Own

inductive Owner where
  | query (i : Nat)
  | handler (k : Nat)
deriving DecidableEq, Repr

/-- `RldpTransfer` (transfers_cache.rs:342-346). -/
inductive Entry where
  | outgoing (o : Owner)
  | incoming (o : Owner)
  | done (o : Owner)
deriving DecidableEq, Repr

def Entry.owner : Entry → Owner
  | .outgoing o | .incoming o | .done o => o

/-- Where a call of `query` (transfers_cache.rs:43-160) and the task it leaves are. -/
inductive Phase where
  /-- waiting in `send` (line 101), both entries are there and the receiving task is spawned -/
  | sending
  /-- something was received; waiting for the answer (line 115) -/
  | waiting
  /-- before line 144 -/
  | closing
  /-- the call has returned; before the sleep (line 152) -/
  | closed
  | resting (till : Nat)
  /-- between lines 153 and 154 -/
  | halfRemoved
  | over
  /-- the call was dropped while it waited -/
  | dropped (sent : Bool)
deriving DecidableEq, Repr

structure Query where
  id : Bytes
  phase : Phase
  /-- the receiving task (lines 90-98) is there -/
  receiving : Bool
deriving DecidableEq, Repr

/-- The table; the queries made; the ids of the transfers others began (`create_answer_handler`, line 270). -/
structure State where
  entries : AMap Bytes Entry
  queries : List Query
  handlers : List Bytes
  now : Nat
deriving Repr

def State.init : State := ⟨[], [], [], 0⟩

/-- Ids that are in use or were. -/
def State.seen (s : State) (x : Bytes) : Bool :=
  s.queries.any (fun q => x == q.id || x == negateId q.id) || s.handlers.any (fun h => x == h || x == negateId h)

/-- What a handler does to the table. -/
inductive Does where
  /-- `Done` at its id (lines 308, 334) -/
  | done
  /-- the answer, at the negated id (answer, lines 432-437) -/
  | reply
  /-- lines 323-325 -/
  | removeReply
  /-- line 326 -/
  | remove
deriving DecidableEq, Repr

inductive Act where
  /-- `query` is called, up to the first await (lines 53-98); the id is made of random bytes and taken to be new, so
  that nobody else uses it before the second entry is made -/
  | start (t : Bytes)
  /-- `send` returns: with `Ok((true, _))`, or otherwise (lines 101-105, 136-140) -/
  | sent (i : Nat) (reached : Bool)
  /-- the loop of lines 113-134 ends -/
  | waited (i : Nat)
  /-- lines 144-145, and the call returns -/
  | close (i : Nat)
  | rest (i : Nat)
  | removeOut (i : Nat)
  | removeIn (i : Nat)
  /-- the call is dropped -/
  | drop (i : Nat)
  /-- the receiving task ends: it has everything, or its channel is closed (lines 359-401) -/
  | received (i : Nat) (complete : Bool)
  /-- a message part comes for an id that is not in the table (lines 222-225, 279-284) -/
  | arrive (x : Bytes)
  | handler (k : Nat) (d : Does)
  | pass (ms : Nat)
deriving DecidableEq, Repr

def State.setPhase (s : State) (i : Nat) (q : Query) (p : Phase) : State :=
  { s with queries := s.queries.set i { q with phase := p } }

/-- `completion_interval` is a parameter. -/
def step (interval : Nat) (s : State) : Act → State
  | .start t =>
    if t = [] ∨ s.seen t = true then s
    else { s with entries := (s.entries.put t (.outgoing (.query s.queries.length))).put (negateId t)
                    (.incoming (.query s.queries.length)),
                  queries := s.queries ++ [⟨t, .sending, true⟩] }
  | .sent i reached =>
    match s.queries[i]? with
    | none => s
    | some q =>
      if q.phase = .sending then
        { s.setPhase i q (if reached then .waiting else .closing) with
          entries := s.entries.put q.id (.done (.query i)) }
      else s
  | .waited i =>
    match s.queries[i]? with
    | none => s
    | some q => if q.phase = .waiting then s.setPhase i q .closing else s
  | .close i =>
    match s.queries[i]? with
    | none => s
    | some q =>
      if q.phase = .closing then
        { s.setPhase i q .closed with entries := s.entries.put (negateId q.id) (.done (.query i)) }
      else s
  | .rest i =>
    match s.queries[i]? with
    | none => s
    | some q => if q.phase = .closed then s.setPhase i q (.resting (s.now + interval)) else s
  | .removeOut i =>
    match s.queries[i]? with
    | none => s
    | some q =>
      match q.phase with
      | .resting till =>
        if till ≤ s.now then { s.setPhase i q .halfRemoved with entries := s.entries.erase q.id } else s
      | _ => s
  | .removeIn i =>
    match s.queries[i]? with
    | none => s
    | some q =>
      if q.phase = .halfRemoved then
        { s.setPhase i q .over with entries := s.entries.erase (negateId q.id) }
      else s
  | .drop i =>
    match s.queries[i]? with
    | none => s
    | some q =>
      if q.phase = .sending then s.setPhase i q (.dropped false)
      else if q.phase = .waiting then s.setPhase i q (.dropped true)
      else s
  | .received i complete =>
    match s.queries[i]? with
    | none => s
    | some q =>
      if complete ∨ s.entries.get (negateId q.id) ≠ some (.incoming (.query i)) then
        { s with queries := s.queries.set i { q with receiving := false } }
      else s
  | .arrive x =>
    match s.entries.get x with
    | some _ => s
    | none => { s with entries := s.entries.put x (.incoming (.handler s.handlers.length)),
                       handlers := s.handlers ++ [x] }
  | .handler k d =>
    match s.handlers[k]? with
    | none => s
    | some x =>
      match d with
      | .done => { s with entries := s.entries.put x (.done (.handler k)) }
      | .reply => { s with entries := s.entries.put (negateId x) (.outgoing (.handler k)) }
      | .removeReply => { s with entries := s.entries.erase (negateId x) }
      | .remove => { s with entries := s.entries.erase x }
  | .pass ms => { s with now := s.now + ms }

def run (interval : Nat) (s : State) (as : List Act) : State := as.foldl (step interval) s

end Verif.Rldp.Own
