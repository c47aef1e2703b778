import Verif.Model.OverlayBroadcast

/-!
# Broadcasts of one overlay handled by several tasks at once: `src/overlay/overlay.rs`

`OverlayBroadcast` takes one `receive_broadcast` or `receive_fec_broadcast` as one step. Every packet is handled by
a task of its own (receiver.rs:88-103), so calls overlap. Here every access to what is shared is a step of its own:
the table of broadcasts (one operation on an entry), the history, the flag, the time and the channel of a transfer,
the queue of the application, the sending, and the start of the clean-up. One `deliver_packet` is one step (its own
loop is the subject of C03). The other tasks take their steps as in `OverlayBroadcast`. A task that handles an FEC
packet keeps its transfer alive, and so the sending end of its channel.
-/
namespace Verif.Overlay.Conc
open Verif.Tl Verif.AdnlProto Verif.Rldp Verif.Overlay

variable (c : Crypto) (f : Fec)

/-- A task that handles a message, and where it is. -/
inductive Thread where
  /-- `receive_broadcast` (overlay.rs:543), before `create_broadcast` -/
  | ordinary (now : Nat) (b : Ordinary)
  /-- after `create_broadcast` (overlay.rs:569, 588) -/
  | created (bid data source : Bytes)
  /-- after `received_broadcasts.push` (overlay.rs:595-599) -/
  | pushed (bid : Bytes)
  /-- before `spawn_broadcast_gc_task` (overlay.rs:605, 774, 870) -/
  | cleaning (bid : Bytes)
  /-- `send_broadcast` or `send_fec_broadcast` (overlay.rs:720, 783), before `create_broadcast` -/
  | own (bid : Bytes)
  /-- `receive_fec_broadcast` (overlay.rs:611), before the entry is looked up -/
  | fec (now : Nat) (b : FecPart)
  /-- with the transfer `i` (overlay.rs:634-641) -/
  | refresh (i : Nat) (pub : c.Pub) (b : FecPart)
  /-- before `deliver_packet` (overlay.rs:658) -/
  | deliver (i : Nat) (pub : c.Pub) (b : FecPart)
  /-- before `completed.load` (overlay.rs:663) -/
  | load (i : Nat) (pub : c.Pub) (b : FecPart)
  /-- before `broadcast_tx.send` (overlay.rs:664) -/
  | send (i : Nat) (pub : c.Pub) (b : FecPart)
  /-- before `distribute_broadcast` (overlay.rs:678-682) -/
  | forward (i : Nat) (b : FecPart)
  | done

/-- The transfer a task holds. -/
def Thread.holds {c : Crypto} : Thread c → Option Nat
  | .refresh i _ _ | .deliver i _ _ | .load i _ _ | .send i _ _ | .forward i _ => some i
  | _ => none

/-- What can be seen from outside. -/
inductive Event where
  /-- given to the application -/
  | delivered (bid : Bytes) (d : Delivery)
  /-- an ordinary broadcast is passed on -/
  | passed (bid : Bytes)
  /-- a packet of an FEC broadcast is passed on -/
  | passedPart (b : FecPart)
  /-- an error -/
  | failed
  /-- the broadcast is forgotten -/
  | forgotten (bid : Bytes)
deriving DecidableEq, Repr

structure State where
  shared : Overlay.State c f
  threads : List (Thread c)
  log : List Event

def State.init : State c f := ⟨Overlay.State.init c f, [], []⟩

/-- One step of a task: the shared state, where the task is then, and what can be seen. -/
def threadStep (e : Env) (s : Overlay.State c f) : Thread c → Overlay.State c f × Thread c × List Event
  | .ordinary now b =>
    match checkOrdinary c e now b with
    | .outdated => (s, .done, [])
    | .failed => (s, .done, [.failed])
    | .ok bid data source =>
      match s.owned.get bid with
      | some _ => (s, .done, [])
      | none => ({ s with owned := s.owned.put bid .other }, .created bid data source, [])
  | .created bid data source => (s, .pushed bid, [.delivered bid ⟨1, data, source⟩])
  | .pushed bid => (s, .cleaning bid, [.passed bid])
  | .cleaning bid => (s.spawnGc e bid, .done, [])
  | .own bid =>
    match s.owned.get bid with
    | some _ => (s, .done, [])
    | none => ({ s with owned := s.owned.put bid .other }, .cleaning bid, [])
  | .fec now b =>
    match isOutdated e b.date now with
    | none => (s, .done, [.failed])
    | some true => (s, .done, [])
    | some false =>
      match Receiver.fullId c b.src with
      | none => (s, .done, [.failed])
      | some pub =>
        if b.signature.length ≠ 64 then (s, .done, [.failed])
        else
          match s.owned.get b.dataHash with
          | some (.incoming i) => (s, .refresh i pub b, [])
          | some .other => (s, .done, [])
          | none => (newTransfer c f e s b (Node.shortId c pub), .refresh s.transfers.length pub b, [])
  | .refresh i pub b =>
    match s.transfers[i]? with
    | none => (s, .done, [])
    | some t =>
      let t := { t with updatedAt := (s.clock - t.startedAt) / 1000 }
      let s := { s with transfers := s.transfers.set i t }
      if t.source ≠ Node.shortId c pub then (s, .done, []) else (s, .deliver i pub b, [])
  | .deliver i pub b =>
    match s.transfers[i]? with
    | none => (s, .done, [])
    | some t =>
      match PacketsHistory.deliver t.hist b.seqno with
      | (h, fresh) =>
        ({ s with transfers := s.transfers.set i { t with hist := h } }, if fresh then .load i pub b else .done, [])
  | .load i pub b =>
    match s.transfers[i]? with
    | none => (s, .done, [])
    | some t => (s, if t.completed then .forward i b else .send i pub b, [])
  | .send i pub b =>
    match s.transfers[i]? with
    | none => (s, .done, [])
    | some t =>
      if t.phase = .ended then (s, .done, [.failed])
      else ({ s with transfers := s.transfers.set i { t with chan := t.chan ++ [(pub, b)] } }, .forward i b, [])
  | .forward _ b => (s, .done, [.passedPart b])
  | .done => (s, .done, [])

/-- The receiving task of transfer `i` (overlay.rs:983-1013): as `taskStep`, but the channel is closed only when
neither the table nor a task has the transfer any more. -/
def receiverStep (e : Env) (s : State c f) (i : Nat) : State c f :=
  match s.shared.transfers[i]? with
  | none => s
  | some t =>
    if t.chan.isEmpty ∧ s.threads.any (fun th => th.holds == some i) then s
    else
      match taskStep c f e s.shared i with
      | (sh, out) => { s with shared := sh, log := s.log ++ (out.delivered.map (Event.delivered t.bid)).toList }

/-- The steps. -/
inductive Act where
  /-- a task starts: a message has come, or the application sends a broadcast -/
  | ordinary (now : Nat) (b : Ordinary)
  | fec (now : Nat) (b : FecPart)
  | own (bid : Bytes)
  /-- a step of the `k`-th of these tasks -/
  | thread (k : Nat)
  | task (i : Nat)
  | mark (i : Nat)
  | cleanup (i : Nat)
  | tick (ms : Nat)
  | expire (i : Nat)
  | push (i : Nat)
  | gcCheck
  | gcPop
  | gcSub

/-- What is forgotten by a `remove` (overlay.rs:188-190). -/
def forgets (s : Overlay.State c f) : List Event :=
  if s.gc = .pop then
    match s.queue with
    | [] => []
    | bid :: _ => if (s.owned.get bid).isSome then [.forgotten bid] else []
  else []

def step (e : Env) (s : State c f) : Act → State c f
  | .ordinary now b => { s with threads := s.threads ++ [.ordinary now b] }
  | .fec now b => { s with threads := s.threads ++ [.fec now b] }
  | .own bid => { s with threads := s.threads ++ [.own bid] }
  | .thread k =>
    match s.threads[k]? with
    | none => s
    | some th =>
      match threadStep c f e s.shared th with
      | (sh, th', evs) => { shared := sh, threads := s.threads.set k th', log := s.log ++ evs }
  | .task i => receiverStep c f e s i
  | .mark i => { s with shared := (Overlay.step c f e s.shared (.mark i)).1 }
  | .cleanup i => { s with shared := (Overlay.step c f e s.shared (.cleanup i)).1 }
  | .tick ms => { s with shared := (Overlay.step c f e s.shared (.tick ms)).1 }
  | .expire i => { s with shared := (Overlay.step c f e s.shared (.expire i)).1 }
  | .push i => { s with shared := (Overlay.step c f e s.shared (.push i)).1 }
  | .gcCheck => { s with shared := (Overlay.step c f e s.shared .gcCheck).1 }
  | .gcPop => { s with shared := (Overlay.step c f e s.shared .gcPop).1, log := s.log ++ forgets c f s.shared }
  | .gcSub => { s with shared := (Overlay.step c f e s.shared .gcSub).1 }

def run (e : Env) (s : State c f) (as : List Act) : State c f := as.foldl (step c f e) s

end Verif.Overlay.Conc
