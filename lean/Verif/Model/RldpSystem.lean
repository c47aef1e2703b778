import Verif.Model.RldpTransfer

/-!
# One RLDP transfer between two nodes

Sender (`OutgoingContext::send`), receiver (`handle_message` and `receive` on the other node) and the
network between them. Datagrams are kept for ever and can be delivered at any time, any number of times,
or never. Modelled is the life of one table entry on each side; the removal of entries after
`completion_interval` is in `Model/RldpCache.lean`.
-/
namespace Verif.Rldp

/-- Messages back to the sender. -/
inductive Ack where
  | confirm (part seqno : Nat)
  | complete (part : Nat)
deriving DecidableEq, Repr

/-- Position in `OutgoingContext::send` (transfers_cache.rs:464-520): before `start_next_part`, between
it and the read of `part` (line 479), in the loop `'part`, or returned. -/
inductive Phase where
  | start
  | begun
  | sending (part : Nat)
  | ok
  | failed
deriving DecidableEq, Repr

structure Sys (f : Fec) where
  out : Outgoing
  phase : Phase
  recv : Receiving f
  /-- the receiver's table entry was replaced by `Done` on timeout (transfers_cache.rs:329-335) -/
  expired : Bool
  net : List Part
  back : List Ack
  /-- parts started so far (ghost) -/
  started : List Nat

def Sys.init (f : Fec) (data : Bytes) (maxSize : Nat) : Sys f :=
  ⟨Outgoing.new data, .start, Receiving.new f maxSize, false, [], [], []⟩

/-- What can happen next. -/
inductive Act where
  /-- `start_next_part` (transfers_cache.rs:476) -/
  | begin
  /-- read of `part` (transfers_cache.rs:479) -/
  | bind
  /-- `prepare_chunk` and sending (transfers_cache.rs:487-491) -/
  | chunk
  /-- `is_finished_or_next_part` (transfers_cache.rs:493-495, 499-501) -/
  | check
  /-- the sender gives up (transfers_cache.rs:509-511) -/
  | giveUp
  /-- a message part arrives -/
  | deliver (i : Nat)
  /-- a confirmation arrives -/
  | ack (i : Nat)
  /-- a message part of the answer arrives (transfers_cache.rs:382-384), which exists only after the
  query was received -/
  | reply
  /-- `completion_interval` after the first message part -/
  | expire
deriving DecidableEq, Repr

/-- The reply on the wire. -/
def Reply.acks : Option Reply → List Ack
  | some (.complete p) => [.complete p]
  | some (.confirm p s) => [.confirm p s]
  | _ => []

/-- `handle_message` for a message part (transfers_cache.rs:175-242): forwarded to `receive`, or "blindly
confirmed" if the entry is `Done`. -/
def Sys.receive {f : Fec} (s : Sys f) (m : Part) : Sys f :=
  if s.expired || s.recv.left then
    { s with back := s.back ++ [.confirm m.part m.seqno, .complete m.part] }
  else
    { s with recv := (s.recv.step m).1, back := s.back ++ Reply.acks (s.recv.step m).2 }

/-- `handle_message` for a confirmation (transfers_cache.rs:243-262); a panic ends the task that handles
the message and leaves the state as it is. -/
def OutState.ack (build : Build) (s : OutState) : Ack → OutState
  | .confirm p n => s.confirm p n
  | .complete p => (s.complete build p).getD s

/-- While the sender is in `send` its entry is `Outgoing`, afterwards `Done`. -/
def Phase.running : Phase → Bool
  | .ok => false
  | .failed => false
  | _ => true

/-- The sender's next step in `start_next_part`. -/
def Sys.begin {f : Fec} (s : Sys f) : Sys f :=
  match s.out.startNextPart f with
  | (o, none) => { s with out := o, phase := .ok }
  | (o, some _) => { s with out := o, phase := .begun, started := s.started ++ [o.cur] }

/-- The sender's `prepare_chunk`. -/
def Sys.chunk {f : Fec} (build : Build) (s : Sys f) : Sys f :=
  match s.out.prepareChunk f build with
  | (o, .part m) => { s with out := o, net := s.net ++ [m] }
  | (o, _) => { s with out := o, phase := .failed }

/-- The sender's `is_finished_or_next_part`. -/
def Sys.check {f : Fec} (build : Build) (s : Sys f) (p : Nat) : Sys f :=
  match s.out.finishedOrNext build p with
  | .no => s
  | .yes => { s with phase := .start }
  | _ => { s with phase := .failed }

def Sys.step {f : Fec} (build : Build) (s : Sys f) : Act → Sys f
  | .begin => if s.phase = .start then s.begin else s
  | .bind => if s.phase = .begun then { s with phase := .sending s.out.st.part } else s
  | .chunk =>
    match s.phase with
    | .sending _ => s.chunk build
    | _ => s
  | .check =>
    match s.phase with
    | .sending p => s.check build p
    | _ => s
  | .giveUp =>
    match s.phase with
    | .sending _ => { s with phase := .failed }
    | _ => s
  | .deliver i =>
    match s.net[i]? with
    | some m => s.receive m
    | none => s
  | .ack i =>
    match s.back[i]? with
    | some a => if s.phase.running then { s with out := { s.out with st := s.out.st.ack build a } } else s
    | none => s
  | .reply =>
    if s.recv.left then { s with out := { s.out with st := { s.out.st with hasReply := true } } } else s
  | .expire => { s with expired := true }

def Sys.run {f : Fec} (build : Build) (s : Sys f) (as : List Act) : Sys f :=
  as.foldl (fun s a => s.step build a) s

end Verif.Rldp
