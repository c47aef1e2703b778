/-!
# Lifetime of the nodes and of their background tasks

Who holds a strong reference (`Arc`) to what, when tasks end, and what dropping the last reference does. The work
of the tasks is modelled elsewhere (`Receiver`, `Storage`, `OverlayLog`); here only that a datagram may be there
(`ready`) when a task is polled.
-/
namespace Verif.Lifecycle

/-- `dht::Node` with its `NodeState` (dht/node.rs:92-108) and the task of `new` (dht/node.rs:145-154). -/
structure Dht where
  /-- references of the application to `dht::Node` -/
  handles : Nat
  /-- the task is there -/
  task : Bool
  /-- calls of `storage.gc` -/
  cleaned : Nat
deriving DecidableEq, Repr

/-- `overlay::Node` with its `NodeState`, one overlay (overlay/node.rs:15-22, 70-87), and the task of
`Overlay::new` (overlay.rs:181-204), which holds a reference to the overlay while it sleeps. -/
structure Ovl where
  handles : Nat
  task : Bool
deriving DecidableEq, Repr

structure World where
  /-- references of the application to `adnl::Node` -/
  handles : Nat
  /-- `init_state` has been taken (node/mod.rs:244-248) -/
  started : Bool
  /-- the token is cancelled -/
  cancelled : Bool
  /-- the task of `start_receiver` (receiver.rs:47-105) is there; it holds `ctx` -/
  receiver : Bool
  /-- the task of `start_sender` (sender.rs:31-46) is there -/
  sender : Bool
  /-- tasks that handle a packet (receiver.rs:88-103), each with a reference to `ctx` -/
  packets : Nat
  dhts : List Dht
  ovls : List Ovl
deriving DecidableEq, Repr

/-- `Node::new` (node/mod.rs:152-197). -/
def init : World := ⟨1, false, false, false, false, 0, [], []⟩

/-- References to `adnl::Node` that come from the application, also through `dht::Node` and `overlay::Node`
(dht/node.rs:94, overlay/node.rs:17). -/
def appRefs (w : World) : Nat :=
  w.handles + (w.dhts.filter fun d => decide (0 < d.handles)).length +
    (w.ovls.filter fun v => decide (0 < v.handles)).length

/-- `ReceiverContext` (receiver.rs:32-45) exists. -/
def ctx (w : World) : Bool := w.receiver || decide (0 < w.packets)

/-- All strong references to `adnl::Node`; `ReceiverContext` has one (receiver.rs:33, 41-45). -/
def refs (w : World) : Nat := appRefs w + if ctx w then 1 else 0

/-- The lists of subscribers exist: in `init_state` until the start, in `ReceiverContext` afterwards
(node/mod.rs:186-191, 244-258). -/
def subscribed (w : World) : Bool := if w.started then ctx w else decide (0 < refs w)

/-- `Drop for Node` (node/mod.rs:541-546). -/
def settle (w : World) : World := if refs w = 0 then { w with cancelled := true } else w

inductive Op where
  /-- `Arc::clone`, and `adnl()` of the other nodes (dht/node.rs:173, overlay/node.rs:53) -/
  | clone
  | drop
  | start
  | shutdown
  /-- `dht::Node::new` (dht/node.rs:111-157) and cloning or dropping its handles -/
  | newDht
  | cloneDht (i : Nat)
  | dropDht (i : Nat)
  /-- `overlay::Node::new` (overlay/node.rs:25-37) with `add_public_overlay` -/
  | newOvl
  | cloneOvl (i : Nat)
  | dropOvl (i : Nat)
  /-- polling the receiver -/
  | poll (ready : Bool)
  /-- a packet has been handled -/
  | handled
  /-- polling the sender -/
  | pollSender (ready : Bool)
  /-- the sleep of a task has ended -/
  | wakeDht (i : Nat)
  | wakeOvl (i : Nat)
deriving DecidableEq, Repr

/-- Steps of tasks; the others are steps of the application. -/
def Op.task : Op → Bool
  | .poll _ | .handled | .pollSender _ | .wakeDht _ | .wakeOvl _ => true
  | _ => false

/-- The step, before `settle`. The application can do nothing without a reference. -/
def effect (w : World) : Op → World
  | .clone => if 0 < appRefs w then { w with handles := w.handles + 1 } else w
  | .drop => { w with handles := w.handles - 1 }
  | .start =>
    -- node/mod.rs:242-262; `AlreadyRunning` the second time
    if 0 < appRefs w ∧ w.started = false then { w with started := true, receiver := true, sender := true } else w
  | .shutdown => if 0 < appRefs w then { w with cancelled := true } else w
  | .newDht =>
    -- `add_query_subscriber` fails after the start (dht/node.rs:129)
    if 0 < appRefs w ∧ w.started = false then { w with dhts := w.dhts ++ [⟨1, true, 0⟩] } else w
  | .cloneDht i => { w with dhts := w.dhts.modify i fun d =>
      if 0 < d.handles then { d with handles := d.handles + 1 } else d }
  | .dropDht i => { w with dhts := w.dhts.modify i fun d => { d with handles := d.handles - 1 } }
  | .newOvl =>
    if 0 < appRefs w ∧ w.started = false then { w with ovls := w.ovls ++ [⟨1, true⟩] } else w
  | .cloneOvl i => { w with ovls := w.ovls.modify i fun v =>
      if 0 < v.handles then { v with handles := v.handles + 1 } else v }
  | .dropOvl i => { w with ovls := w.ovls.modify i fun v => { v with handles := v.handles - 1 } }
  | .poll ready =>
    -- `select` (receiver.rs:59-62) polls the socket first
    if w.receiver then
      if ready then { w with packets := w.packets + 1 }
      else if w.cancelled then { w with receiver := false } else w
    else w
  | .handled => { w with packets := w.packets - 1 }
  | .pollSender ready =>
    -- sender.rs:34-45
    if w.sender then
      if ready then w else if w.cancelled then { w with sender := false } else w
    else w
  | .wakeDht i =>
    -- dht/node.rs:147-154: the task goes on whether or not `upgrade` succeeds
    { w with dhts := w.dhts.modify i fun d =>
        if d.task && (decide (0 < d.handles) || subscribed w) then { d with cleaned := d.cleaned + 1 } else d }
  | .wakeOvl i =>
    -- overlay.rs:185, 203: the reference is dropped, then `upgrade` succeeds if there is another one
    { w with ovls := w.ovls.modify i fun v =>
        if v.task && !(decide (0 < v.handles) || subscribed w) then { v with task := false } else v }

def step (w : World) (op : Op) : World := settle (effect w op)

def run (w : World) (ops : List Op) : World := ops.foldl step w

end Verif.Lifecycle
