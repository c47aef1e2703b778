import Verif.Model.RldpQuery
import Verif.Model.RldpTransfer
import Verif.Model.AMap

/-!
# The table of RLDP transfers on the answering node: `src/rldp/transfers_cache.rs`

Every access to the table (a `DashMap`), to the queue of a transfer and every awaited point of the tasks
is a step of its own; a schedule orders the steps of all tasks and of all concurrent calls of
`handle_message` in any way. Not modelled: queries of the node's own (`query` inserts its own two random
ids), the contents of the answer and the transfer of the answer.
-/
namespace Verif.Rldp

/-- `RldpTransfer` (transfers_cache.rs:342-346); `incoming k` holds the sender half of task `k`. -/
inductive Entry where
  | incoming (k : Nat)
  | outgoing
  | done
deriving DecidableEq, Repr

/-- Position of the processing task (transfers_cache.rs:305-327). -/
inductive TaskPhase where
  /-- in the loop of `receive` -/
  | receiving
  /-- `receive` returned -/
  | received
  /-- `Done` inserted (line 308) -/
  | finished
  /-- in `answer`, the answer is being sent (line 448) -/
  | sending
  /-- `answer` returned; whether with the id of the outgoing transfer -/
  | answered (out : Bool)
  /-- in `sleep` (line 322) -/
  | sleeping (till : Nat) (out : Bool)
  | over
deriving DecidableEq, Repr

/-- The second task (transfers_cache.rs:329-335). -/
inductive Timer where
  | idle
  | armed (till : Nat)
  | fired
deriving DecidableEq, Repr

/-- What `create_answer_handler` spawns. -/
structure Task (f : Fec) where
  id : Bytes
  rcv : Receiving f
  queue : List Part
  phase : TaskPhase
  timer : Timer

/-- Position in `handle_message` (transfers_cache.rs:182-242). -/
inductive CallPc where
  | look
  | create
  | send (k : Nat)
  | over
deriving DecidableEq, Repr

/-- A call of `handle_message` with a message part. -/
structure Call where
  id : Bytes
  m : Part
  pc : CallPc

/-- The table, tasks and calls made so far, the clock, and the runs of the application's handler (id,
time, query), latest last. -/
structure Cache (f : Fec) where
  entries : AMap Bytes Entry
  tasks : List (Task f)
  calls : List Call
  now : Nat
  runs : List (Bytes × Nat × OwnedQuery)

def Cache.init (f : Fec) : Cache f := ⟨[], [], [], 0, []⟩

inductive CAct where
  /-- `handle_message` is called -/
  | arrive (id : Bytes) (m : Part)
  /-- `self.transfers.get` (line 184) and what follows under the guard -/
  | look (c : Nat)
  /-- `self.transfers.entry` (line 279) -/
  | create (c : Nat)
  /-- `parts_tx.send` (line 229) -/
  | send (c : Nat)
  /-- a turn of the loop of `receive` -/
  | recv (k : Nat)
  /-- line 308 -/
  | finish (k : Nat)
  /-- `answer` up to line 437; whether there is an answer -/
  | answer (k : Nat) (some : Bool)
  /-- the answer was sent, or sending failed (line 448) -/
  | sent (k : Nat) (ok : Bool)
  /-- `sleep` begins (line 322) -/
  | rest (k : Nat)
  /-- lines 323-326 -/
  | remove (k : Nat)
  /-- `sleep` begins (line 333) -/
  | arm (k : Nat)
  /-- line 334 -/
  | fire (k : Nat)
  | tick

variable {f : Fec}

/-- Sending into the queue of a task; nothing happens if the receiving half is closed. -/
def Cache.deliver (s : Cache f) (k : Nat) (m : Part) : Cache f :=
  match s.tasks[k]? with
  | some t =>
    if t.phase = .receiving then { s with tasks := s.tasks.set k { t with queue := t.queue ++ [m] } } else s
  | none => s

def Cache.setPc (s : Cache f) (c : Nat) (call : Call) (pc : CallPc) : Cache f :=
  { s with calls := s.calls.set c { call with pc := pc } }

/-- Whether some sender half of task `k` exists. -/
def Cache.hasSender (s : Cache f) (k : Nat) (id : Bytes) : Bool :=
  decide (s.entries.get id = some (.incoming k)) || s.calls.any fun c => decide (c.pc = .send k)

/-- `completion_interval` is a parameter, as is the maximum size. -/
def Cache.step (maxSize interval : Nat) (s : Cache f) : CAct → Cache f
  | .arrive id m => { s with calls := s.calls ++ [⟨id, m, .look⟩] }
  | .look c =>
    match s.calls[c]? with
    | some call =>
      if call.pc = .look then
        match s.entries.get call.id with
        | some (.incoming k) => (s.deliver k call.m).setPc c call .over
        | some _ => s.setPc c call .over
        | none => s.setPc c call .create
      else s
    | none => s
  | .create c =>
    match s.calls[c]? with
    | some call =>
      if call.pc = .create then
        match s.entries.get call.id with
        | none =>
          Cache.setPc { s with
            entries := s.entries.put call.id (.incoming s.tasks.length),
            tasks := s.tasks ++ [⟨call.id, Receiving.new f maxSize, [], .receiving, .idle⟩] }
            c call (.send s.tasks.length)
        | some _ => s.setPc c call .look
      else s
    | none => s
  | .send c =>
    match s.calls[c]? with
    | some call =>
      match call.pc with
      | .send k => (s.deliver k call.m).setPc c call .over
      | _ => s
    | none => s
  | .recv k =>
    match s.tasks[k]? with
    | some t =>
      if t.phase = .receiving then
        match t.queue with
        | m :: q =>
          let r := (t.rcv.step m).1
          { s with tasks := s.tasks.set k { t with
              rcv := r, queue := q, phase := if r.left then .received else .receiving } }
        | [] =>
          if s.hasSender k t.id then s
          else { s with tasks := s.tasks.set k { t with phase := .received } }
      else s
    | none => s
  | .finish k =>
    match s.tasks[k]? with
    | some t =>
      if t.phase = .received then
        { s with entries := s.entries.put t.id .done,
                 tasks := s.tasks.set k { t with phase := .finished } }
      else s
    | none => s
  | .answer k some? =>
    match s.tasks[k]? with
    | some t =>
      if t.phase = .finished then
        match fromData t.rcv.transfer.data with
        | none => { s with tasks := s.tasks.set k { t with phase := .answered false } }
        | some q =>
          if some? then
            { s with entries := s.entries.put (negateId t.id) .outgoing,
                     tasks := s.tasks.set k { t with phase := .sending },
                     runs := s.runs ++ [(t.id, s.now, q)] }
          else
            { s with tasks := s.tasks.set k { t with phase := .answered false },
                     runs := s.runs ++ [(t.id, s.now, q)] }
      else s
    | none => s
  | .sent k ok =>
    match s.tasks[k]? with
    | some t =>
      if t.phase = .sending then { s with tasks := s.tasks.set k { t with phase := .answered ok } } else s
    | none => s
  | .rest k =>
    match s.tasks[k]? with
    | some t =>
      match t.phase with
      | .answered out =>
        { s with tasks := s.tasks.set k { t with phase := .sleeping (s.now + interval) out } }
      | _ => s
    | none => s
  | .remove k =>
    match s.tasks[k]? with
    | some t =>
      match t.phase with
      | .sleeping till out =>
        if till ≤ s.now then
          { s with entries := (if out then s.entries.erase (negateId t.id) else s.entries).erase t.id,
                   tasks := s.tasks.set k { t with phase := .over } }
        else s
      | _ => s
    | none => s
  | .arm k =>
    match s.tasks[k]? with
    | some t =>
      if t.timer = .idle then
        { s with tasks := s.tasks.set k { t with timer := .armed (s.now + interval) } }
      else s
    | none => s
  | .fire k =>
    match s.tasks[k]? with
    | some t =>
      match t.timer with
      | .armed till =>
        if till ≤ s.now then
          { s with entries := s.entries.put t.id .done,
                   tasks := s.tasks.set k { t with timer := .fired } }
        else s
      | _ => s
    | none => s
  | .tick => { s with now := s.now + 1 }

def Cache.run (maxSize interval : Nat) (s : Cache f) (acts : List CAct) : Cache f :=
  acts.foldl (Cache.step maxSize interval) s

end Verif.Rldp
