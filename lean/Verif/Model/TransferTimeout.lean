import Verif.Model.Transfer

/-!
# Timeouts of multipart transfers

The part branch of `process_message` (`src/adnl/node/receiver.rs:188-256`) with the timeout task spawned
for every new transfer (receiver.rs:210-234) and `UpdatedAt` (`src/util/updated_at.rs`). Packets are
handled by any number of concurrent tasks; a step is one operation on shared data. `add_part` is one step
here (its own interleavings are in `Model/TransferConc.lean`). Time is counted in milliseconds.
-/
namespace Verif.TransferTimeout
open Verif.Transfer

/-- `transfer_timeout_sec` (adnl/node/mod.rs:52) and the longest delay (in milliseconds) between the moment
a task can run and the moment it runs. -/
structure Cfg where
  timeout : Nat
  late : Nat

/-- The timeout task of one transfer (receiver.rs:215-233). -/
inductive Task where
  /-- spawned at the given time, not polled yet -/
  | spawned (at_ : Nat)
  /-- in `sleep`, which ends at the given time -/
  | sleeping (wake : Nat)
  | ended
deriving DecidableEq

/-- One `Arc<Transfer>`: `started` and `updated` are `UpdatedAt` (updated_at.rs:4-7), `updated` counts whole
seconds since `started`. `lastPart` is not in the code: the time of the last `refresh` or of creation. -/
structure Obj where
  id : Bytes
  started : Nat
  updated : Nat
  lastPart : Nat
  inner : Transfer
  task : Task

/-- `UpdatedAt::refresh` (updated_at.rs:17-20). -/
def Obj.refresh (o : Obj) (now : Nat) : Obj :=
  { o with updated := (now - o.started) / 1000, lastPart := now }

/-- `UpdatedAt::is_expired` (updated_at.rs:22-24). -/
def Obj.expired (o : Obj) (timeout now : Nat) : Bool :=
  decide (o.updated + timeout ≤ (now - o.started) / 1000)

/-- Where a task handling a `Part` message is. -/
inductive PC where
  | idle
  /-- has the transfer, is about to `refresh` (line 242) -/
  | found (obj : Nat) (p : Part)
  /-- is about to call `add_part` (line 245) -/
  | refreshed (obj : Nat) (p : Part)
  /-- is about to remove the entry after success or an error (lines 247, 251) -/
  | finished (hash : Bytes)
  /-- in the loop of `add_part` that does not end -/
  | stuck

/-- Node state: the clock, all transfers ever created, the `incoming_transfers` map (mod.rs:130) from
hashes to transfers, and the tasks handling parts. -/
structure State where
  now : Nat
  next : Nat
  objs : Nat → Option Obj
  table : AMap Bytes Nat
  pcs : Nat → PC
  /-- complete messages handed on, oldest first -/
  delivered : List Bytes

def State.init : State := ⟨0, 0, fun _ => none, [], fun _ => .idle, []⟩

inductive Act where
  /-- time passes -/
  | tick (d : Nat)
  /-- task `t` starts to handle `p`: the `entry` call (lines 197-239) -/
  | lookup (t : Nat) (p : Part)
  /-- the next operation of task `t` -/
  | handle (t : Nat)
  /-- the timeout task of transfer `i` runs -/
  | timer (i : Nat)

def setObj (s : State) (i : Nat) (o : Obj) : State :=
  { s with objs := fun j => if j = i then some o else s.objs j }

def setPC (s : State) (t : Nat) (c : PC) : State :=
  { s with pcs := fun u => if u = t then c else s.pcs u }

/-- No task is kept from running for longer than `late`. -/
def mayWait (c : Cfg) (until_ : Nat) (o : Option Obj) : Bool :=
  match o with
  | none => true
  | some o =>
    match o.task with
    | .spawned a => decide (until_ ≤ a + c.late)
    | .sleeping w => decide (until_ ≤ w + c.late)
    | .ended => true

/-- Time passes, at most until some timeout task has to run. -/
def tick (c : Cfg) (s : State) (d : Nat) : State :=
  if (List.range s.next).all (fun i => mayWait c (s.now + d) (s.objs i)) then { s with now := s.now + d }
  else s

/-- Lines 197-239: the transfer is looked up or created together with its task. -/
def lookup (s : State) (t : Nat) (p : Part) : State :=
  match s.pcs t with
  | .idle =>
    match s.table.get p.hash with
    | some i => setPC s t (.found i p)
    | none =>
      setPC { setObj s s.next ⟨p.hash, s.now, 0, s.now, Transfer.new p.total, .spawned s.now⟩ with
        next := s.next + 1, table := s.table.put p.hash s.next } t (.found s.next p)
  | _ => s

/-- The result of `add_part` (lines 245-255). -/
def afterAdd (s : State) (t : Nat) (hash : Bytes) : Res → State
  | .none => setPC s t .idle
  | .some m => setPC { s with delivered := s.delivered ++ [m] } t (.finished hash)
  | .tooMuch => setPC s t (.finished hash)
  | .partMissing => setPC s t (.finished hash)
  | .invalidHash => setPC s t (.finished hash)
  | .hang => setPC s t .stuck

/-- Lines 241-255, one operation at a time. -/
def handle (sha : Bytes → Bytes) (s : State) (t : Nat) : State :=
  match s.pcs t with
  | .idle => s
  | .found i p =>
    match s.objs i with
    | some o => setPC (setObj s i (o.refresh s.now)) t (.refreshed i p)
    | none => s
  | .refreshed i p =>
    match s.objs i with
    | some o =>
      let r := addPart sha o.inner p.offset p.data p.hash
      afterAdd (setObj s i { o with inner := r.1 }) t p.hash r.2
    | none => s
  | .finished h => setPC { s with table := s.table.erase h } t .idle
  | .stuck => s

/-- The body of the timeout task of transfer `i` (lines 216-232). -/
def timer (c : Cfg) (s : State) (i : Nat) : State :=
  match s.objs i with
  | none => s
  | some o =>
    match o.task with
    | .spawned _ => setObj s i { o with task := .sleeping (s.now + c.timeout * 1000) }
    | .sleeping w =>
      if s.now < w then s
      else if o.expired c.timeout s.now then
        { setObj s i { o with task := .ended } with table := s.table.erase o.id }
      else setObj s i { o with task := .sleeping (s.now + c.timeout * 1000) }
    | .ended => s

def step (sha : Bytes → Bytes) (c : Cfg) (s : State) : Act → State
  | .tick d => tick c s d
  | .lookup t p => lookup s t p
  | .handle t => handle sha s t
  | .timer i => timer c s i

def run (sha : Bytes → Bytes) (c : Cfg) (s : State) (as : List Act) : State := as.foldl (step sha c) s

end Verif.TransferTimeout
