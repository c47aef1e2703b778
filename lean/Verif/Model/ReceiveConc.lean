import Verif.Model.PacketsHistoryConc

/-!
# The session date and the packet histories of one peer, used by several tasks at once

Every received datagram is handled by its own task (receiver.rs:87-101), and each of them runs
`check_packet` (receiver.rs:434-500) on the shared `Peer`: the date of the packet is compared with the
known one and the histories are reset if it is newer (`Peer::try_reinit_sender`, peer.rs:41-57), then
the number of the packet is looked up in the receive history of its priority
(`deliver_packet`, packets_history.rs:64-179). One step of a task is one atomic operation;
interleavings are sequentially consistent. The steps inside `deliver_packet` are those of
`Model/PacketsHistoryConc.lean`.

Left out: what does not touch the shared state (the signature, the comparison of the peer's date with
the clock), the send histories (their reset is a store of 0, packets_history.rs:46, and they are not
read here), and packets without number, which no history sees (receiver.rs:484).
-/
namespace Verif.ReceiveConc
open Verif.PacketsHistory

/-- What a task found in its packet: the peer's date (`reinit_dates.local`, if the packet has dates),
whether the date it names for us is an old one (receiver.rs:475: not 0 and below our start time), its
number, and whether it came over a priority channel. -/
structure Task where
  date : Option Nat
  stale : Bool
  seqno : Nat
  priority : Bool
deriving DecidableEq, Repr

/-- Position of a task in `check_packet`. -/
inductive Pc where
  /-- before the load of the date (peer.rs:42) -/
  | start
  /-- the date was loaded (peer.rs:43) -/
  | loaded (old : Nat)
  /-- resetting the receive history `p`: about to load `index` (packets_history.rs:26) -/
  | lockLoad (p : Bool)
  /-- about to exchange `index` for `IN_TRANSIT` (packets_history.rs:32) -/
  | lockCas (p : Bool) (index : Nat)
  /-- about to store word `i` (packets_history.rs:41-44) -/
  | word (p : Bool) (i : Nat)
  /-- about to store 0 as the last number (packets_history.rs:47) -/
  | seqno (p : Bool)
  /-- about to exchange `IN_TRANSIT` for 0 (packets_history.rs:48-52) -/
  | unlock (p : Bool)
  /-- in `deliver_packet`, or back from it (receiver.rs:485-492) -/
  | deliver (pc : PC)
  /-- refused because of a date (receiver.rs:471-479) -/
  | refused
deriving DecidableEq, Repr

/-- What the tasks share: the known date of the peer and its two receive histories (`true` is the
priority one), peer.rs:126-130; and where each task is. -/
structure Sys where
  date : Nat
  hist : Bool → Hist
  pc : Nat → Pc

/-- Changing the history `p`. -/
def Sys.setHist (σ : Sys) (p : Bool) (h : Hist) : Sys :=
  { σ with hist := fun q => if q = p then h else σ.hist q }

/-- Where a dated packet goes on after `try_reinit_sender` returned `true` (receiver.rs:475-481). -/
def afterDate (k : Task) : Pc := if k.stale then .refused else .deliver .load

/-- One atomic operation of a task with the packet `k`, from the position `pc`. -/
def stepOf (σ : Sys) (k : Task) : Pc → Sys × Pc
  | .start =>
    match k.date with
    | none => (σ, .deliver .load)                          -- receiver.rs:457
    | some _ => (σ, .loaded σ.date)                        -- peer.rs:42
  | .loaded old =>
    match k.date with
    | none => (σ, .deliver .load)
    | some d =>
      if d = old then (σ, afterDate k)                     -- peer.rs:44
      else if d > old then                                 -- peer.rs:45-54
        ({ σ with date := d }, if old ≠ 0 then .lockLoad false else afterDate k)
      else (σ, .refused)                                   -- peer.rs:55
  | .lockLoad p =>                                         -- packets_history.rs:26-30
    (σ, if (σ.hist p).index = inTransit then .lockLoad p else .lockCas p (σ.hist p).index)
  | .lockCas p index =>                                    -- packets_history.rs:32-38
    if (σ.hist p).index = index then
      (σ.setHist p { σ.hist p with index := inTransit }, .word p 0)
    else (σ, .lockLoad p)
  | .word p i =>                                           -- packets_history.rs:41-44
    (σ.setHist p { σ.hist p with
        bits := fun j => if j = i then (if i = 4 then 1 else 0) else (σ.hist p).bits j },
      if i < 7 then .word p (i + 1) else .seqno p)
  | .seqno p => (σ.setHist p { σ.hist p with seqno := 0 }, .unlock p)
  | .unlock p =>                                           -- peer.rs:50-53
    (if (σ.hist p).index = inTransit then σ.setHist p { σ.hist p with index := 0 } else σ,
      if p then afterDate k else .lockLoad true)
  | .deliver pc =>
    (σ.setHist k.priority (stepPC (σ.hist k.priority) k.seqno pc).1,
      .deliver (stepPC (σ.hist k.priority) k.seqno pc).2)
  | .refused => (σ, .refused)

/-- Task `t` makes one step. -/
def Sys.step (tasks : Nat → Task) (σ : Sys) (t : Nat) : Sys :=
  let r := stepOf σ (tasks t) (σ.pc t)
  { r.1 with pc := fun u => if u = t then r.2 else σ.pc u }

/-- The tasks run by a schedule, a list of task numbers. -/
def Sys.run (tasks : Nat → Task) (σ : Sys) (sched : List Nat) : Sys :=
  sched.foldl (Sys.step tasks) σ

/-- A peer whose known date is `date`, nothing received yet (peer.rs:27-35, 133-147). -/
def Sys.init (date : Nat) : Sys := ⟨date, fun _ => forRecv, fun _ => .start⟩

/-- The packet of the task passed all these checks. -/
def Sys.accepted (σ : Sys) (t : Nat) : Prop := σ.pc t = .deliver (.done true)

instance (σ : Sys) (t : Nat) : Decidable (σ.accepted t) := inferInstanceAs (Decidable (_ = _))

end Verif.ReceiveConc
