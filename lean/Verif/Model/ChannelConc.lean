import Verif.Model.AMap
import Verif.Model.Bytes

/-!
# The channel tables used by several tasks

Every received packet is handled by its own task (receiver.rs:88-103), and queries that time out reset peers
(node/mod.rs:456-497), so `create_channel` (receiver.rs:505-582), `remove_peer` (node/mod.rs:357-368) and
`reset_peer` (node/mod.rs:522-538) run concurrently. One step of a thread is one access to `channels_by_peers` or
`channels_by_id`. Locks of `DashMap` are per shard; here they are per key, which allows more schedules.
-/
namespace Verif.ChannelConc

/-- `Channel` (channel.rs:16-35) as far as the tables are concerned. `key` and `date` are those of the peer's side
of the channel, `ord` and `prio` the ids for receiving. -/
structure Chan where
  peer : Bytes
  key : Bytes
  date : Nat
  ord : Bytes
  prio : Bytes
deriving DecidableEq, Repr

/-- `is_still_valid` (channel.rs:65-72), with key and date taken from the new channel. -/
def stillValid (old new : Chan) : Bool := decide (old.key = new.key) || decide (new.date ≤ old.date)

/-- What a thread does. -/
inductive Job where
  /-- `create_channel` for the local id, making the channel if there is need -/
  | create (loc : Bytes) (ch : Chan)
  /-- `remove_peer`, up to `peers.remove` -/
  | remove (peer : Bytes)
  | reset (loc peer : Bytes)
deriving DecidableEq, Repr

/-- The peer whose channel is concerned. -/
def Job.peer : Job → Bytes
  | .create _ ch => ch.peer
  | .remove p => p
  | .reset _ p => p

/-- Access to `channels_by_id`. -/
inductive Act where
  | ins (id : Bytes) (ch : Chan)
  | del (id : Bytes)
deriving DecidableEq, Repr

/-- Position of a thread. -/
inductive Pc where
  | idle
  /-- the accesses left; `entry` says that the entry of `channels_by_peers` is locked -/
  | busy (todo : List Act) (entry : Bool)
  | done
deriving DecidableEq, Repr

structure Sys where
  /-- `channels_by_peers` -/
  byPeer : AMap Bytes Chan
  /-- `channels_by_id` -/
  byId : AMap Bytes Chan
  pc : Nat → Pc
  /-- entries of `channels_by_peers` that are locked -/
  locked : Bytes → Bool
  /-- number of read locks on a peer of a local id (`peers.get`, receiver.rs:516) -/
  readers : Bytes × Bytes → Nat
  /-- write lock on it (`peers.get_mut`, node/mod.rs:524) -/
  writer : Bytes × Bytes → Bool

/-- Nothing has happened yet. -/
def init : Sys := ⟨[], [], fun _ => .idle, fun _ => false, fun _ => 0, fun _ => false⟩

def upd {α β : Type} [DecidableEq α] (f : α → β) (a : α) (b : β) : α → β := fun x => if x = a then b else f x

/-- One access to `channels_by_id`. -/
def act (m : AMap Bytes Chan) : Act → AMap Bytes Chan
  | .ins id ch => m.put id ch
  | .del id => m.erase id

/-- The end of a job gives its locks back. -/
def release (σ : Sys) (job : Job) (entry : Bool) : Sys :=
  let σ := if entry then { σ with locked := upd σ.locked job.peer false } else σ
  match job with
  | .create loc ch => { σ with readers := upd σ.readers (loc, ch.peer) (σ.readers (loc, ch.peer) - 1) }
  | .reset loc p => { σ with writer := upd σ.writer (loc, p) false }
  | .remove _ => σ

/-- Removing the channel of a peer and its ids (node/mod.rs:360-365, 528-533): the entry is free as soon as it is
removed. -/
def begin_drop (σ : Sys) (i : Nat) (job : Job) : Sys :=
  match σ.byPeer.get job.peer with
  | none => release { σ with pc := upd σ.pc i .done } job false
  | some old =>
    { σ with byPeer := σ.byPeer.erase job.peer, pc := upd σ.pc i (.busy [.del old.ord, .del old.prio] false) }

/-- The first step of a job, once the locks it needs are free. -/
def begin (σ : Sys) (i : Nat) : Job → Sys
  | .create loc ch =>
    if σ.locked ch.peer || σ.writer (loc, ch.peer) then σ
    else
      let σ := { σ with readers := upd σ.readers (loc, ch.peer) (σ.readers (loc, ch.peer) + 1) }
      match σ.byPeer.get ch.peer with
      | some old =>
        if stillValid old ch then release { σ with pc := upd σ.pc i .done } (.create loc ch) false
        else
          -- the entry stays locked to the end of the arm (receiver.rs:523-556)
          { σ with byPeer := σ.byPeer.put ch.peer ch, locked := upd σ.locked ch.peer true,
                   pc := upd σ.pc i (.busy [.del old.ord, .del old.prio, .ins ch.ord ch, .ins ch.prio ch] true) }
      | none =>
        -- the guard returned by `insert` is dropped at the end of the statement (receiver.rs:558-567)
        { σ with byPeer := σ.byPeer.put ch.peer ch, pc := upd σ.pc i (.busy [.ins ch.ord ch, .ins ch.prio ch] false) }
  | .remove p => if σ.locked p then σ else begin_drop σ i (.remove p)
  | .reset loc p =>
    if σ.locked p || σ.writer (loc, p) || decide (0 < σ.readers (loc, p)) then σ
    else begin_drop { σ with writer := upd σ.writer (loc, p) true } i (.reset loc p)

/-- A step of thread `i`. -/
def step (jobs : Nat → Job) (σ : Sys) (i : Nat) : Sys :=
  match σ.pc i with
  | .idle => begin σ i (jobs i)
  | .busy [] entry => release { σ with pc := upd σ.pc i .done } (jobs i) entry
  | .busy (a :: todo) entry => { σ with byId := act σ.byId a, pc := upd σ.pc i (.busy todo entry) }
  | .done => σ

def run (jobs : Nat → Job) (σ : Sys) (sched : List Nat) : Sys := sched.foldl (step jobs) σ

end Verif.ChannelConc
