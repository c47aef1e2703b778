import Verif.Model.Num

/-!
# The queue of received broadcasts: `src/overlay/broadcast_receiver.rs`

Small-step model: every operation on `data`, `barriers` (lock-free queues), `sync_lock` or a barrier is one
step. Threads are producers between `data.push` and `tokio::spawn`, notifier tasks, and calls of `pop`.
A `tokio::sync::Barrier::new(2)` counts arrivals and releases both parties at the second one. Dropping a
waiting call (`cancel`) leaves its arrival and its increment of `sync_lock` in place. `sync_lock` is not
wrapped at `2^32`.
-/
namespace Verif.BroadcastReceiver

/-- A barrier: arrivals so far. `owner` and `taker` (who made it, who took it from the queue) are only for
the proofs and never read by `step`. -/
structure Bar where
  count : Nat
  owner : Nat
  taker : Option Nat
deriving DecidableEq, Repr

/-- Where a notifier task is (broadcast_receiver.rs:26-33). -/
inductive NPc where
  /-- about to read `sync_lock` -/
  | check
  /-- about to pop a barrier -/
  | popB
  /-- about to arrive at a barrier -/
  | arrive (b : Nat)
  /-- arrived, waiting -/
  | waiting (b : Nat)
  | done
deriving DecidableEq, Repr

/-- Where a call of `pop` is (broadcast_receiver.rs:37-52). -/
inductive CPc (T : Type) where
  /-- about to increment `sync_lock` -/
  | start
  /-- about to pop data -/
  | tryPop
  /-- found no data, about to make and push a barrier -/
  | pushB
  | arrive (b : Nat)
  | waiting (b : Nat)
  /-- has data, about to decrement `sync_lock` -/
  | got (x : T)
  | returned (x : T)
  | cancelled
deriving DecidableEq, Repr

/-- `BroadcastReceiver` (broadcast_receiver.rs:7-11) with its threads; `pushed` and `popped` are logs. -/
structure State (T : Type) where
  data : List T
  /-- queue of barriers, by number -/
  barriers : List Nat
  bars : List Bar
  /-- `sync_lock` -/
  sync : Nat
  /-- calls of `push` between lines 23 and 25 -/
  toSpawn : Nat
  notifiers : List NPc
  consumers : List (CPc T)
  pushed : List T
  popped : List (Nat × T)

variable {T : Type}

def State.init : State T := ⟨[], [], [], 0, 0, [], [], [], []⟩

/-- Arrivals at a barrier. -/
def State.count (s : State T) (b : Nat) : Nat :=
  match s.bars[b]? with
  | some r => r.count
  | none => 0

/-- One arrival (`Barrier::wait`, first poll). -/
def arriveAt (bars : List Bar) (b : Nat) : List Bar := bars.modify b fun r => { r with count := r.count + 1 }

/-- One step of notifier `j`. -/
def notifierStep (s : State T) (j : Nat) : NPc → State T
  | .check => { s with notifiers := s.notifiers.set j (if s.sync > 0 then .popB else .done) }
  | .popB =>
    match s.barriers with
    | [] => { s with notifiers := s.notifiers.set j .check }
    | b :: rest =>
      { s with barriers := rest
               bars := s.bars.modify b fun r => { r with taker := some j }
               notifiers := s.notifiers.set j (.arrive b) }
  | .arrive b =>
    { s with bars := arriveAt s.bars b
             notifiers := s.notifiers.set j (if s.count b = 0 then .waiting b else .done) }
  | .waiting b => if s.count b < 2 then s else { s with notifiers := s.notifiers.set j .done }
  | .done => s

/-- One step of consumer `i`. -/
def consumerStep (s : State T) (i : Nat) : CPc T → State T
  | .start => { s with sync := s.sync + 1, consumers := s.consumers.set i .tryPop }
  | .tryPop =>
    match s.data with
    | x :: rest => { s with data := rest, consumers := s.consumers.set i (.got x), popped := s.popped ++ [(i, x)] }
    | [] => { s with consumers := s.consumers.set i .pushB }
  | .pushB =>
    { s with barriers := s.barriers ++ [s.bars.length]
             bars := s.bars ++ [⟨0, i, none⟩]
             consumers := s.consumers.set i (.arrive s.bars.length) }
  | .arrive b => { s with bars := arriveAt s.bars b, consumers := s.consumers.set i (.waiting b) }
  | .waiting b => if s.count b < 2 then s else { s with consumers := s.consumers.set i .tryPop }
  | .got x => { s with sync := s.sync - 1, consumers := s.consumers.set i (.returned x) }
  | .returned _ => s
  | .cancelled => s

/-- Dropping the future of a call that waits at its barrier. -/
def cancelStep (s : State T) (i : Nat) : CPc T → State T
  | .waiting _ => { s with consumers := s.consumers.set i .cancelled }
  | _ => s

/-- Actions. -/
inductive Act (T : Type) where
  /-- `data.push` (line 23) -/
  | push (x : T)
  /-- `tokio::spawn` (line 25) -/
  | spawn
  | notifier (j : Nat)
  /-- a new call of `pop` -/
  | call
  | consumer (i : Nat)
  | cancel (i : Nat)
deriving DecidableEq, Repr

def step (s : State T) : Act T → State T
  | .push x => { s with data := s.data ++ [x], toSpawn := s.toSpawn + 1, pushed := s.pushed ++ [x] }
  | .spawn => if s.toSpawn = 0 then s
      else { s with toSpawn := s.toSpawn - 1, notifiers := s.notifiers ++ [.check] }
  | .notifier j =>
    match s.notifiers[j]? with
    | some pc => notifierStep s j pc
    | none => s
  | .call => { s with consumers := s.consumers ++ [.start] }
  | .consumer i =>
    match s.consumers[i]? with
    | some pc => consumerStep s i pc
    | none => s
  | .cancel i =>
    match s.consumers[i]? with
    | some pc => cancelStep s i pc
    | none => s

/-- State after a finite schedule. -/
def run (s : State T) : List (Act T) → State T
  | [] => s
  | a :: as => run (step s a) as

/-- States of an infinite schedule. -/
def states (sched : Nat → Act T) : Nat → State T
  | 0 => State.init
  | k + 1 => step (states sched k) (sched k)

end Verif.BroadcastReceiver
