import Verif.Model.DhtNode

/-!
# `add_dht_peer` called by several tasks at once

Records of DHT nodes come from queries (dht/node.rs:703-716), from answers (dht/node.rs:257-262,
dht/node.rs:510-520) and from the application (dht/node.rs:187), each in a task of its own. The calls share
the peers of the ADNL node, `known_peers`, the penalties and the buckets. One step is one access to one
of these (each of them is behind its own lock: the entry of a `DashMap` or the `RwLock` of the set);
interleavings are sequentially consistent. The checks at the beginning (signature, address) touch
nothing shared and belong to the first step.
-/
namespace Verif.DhtConc
open Verif.Tl Verif.Address Verif.AdnlProto Verif.DhtProto Verif.Storage Verif.Dht

variable {c : Crypto}

/-- A call of `add_dht_peer`: the clock, the channel key generated if the ADNL peer is new, and the
record. -/
structure Task (c : Crypto) where
  now : Nat
  key : c.Sec
  node : DNode

/-- Position of a task in `add_dht_peer`. -/
inductive Pc where
  | start
  /-- before `known_peers.insert` (dht/node.rs:605) -/
  | known (id : Bytes)
  /-- before `buckets.insert` (dht/node.rs:606) -/
  | bucket (id : Bytes)
  /-- before `set_good_peer` (dht/node.rs:608) -/
  | good (id : Bytes)
  /-- returned -/
  | done (r : AddedPeer)
deriving DecidableEq

/-- One step of a call (dht/node.rs:573-612). -/
def stepOf (o : Opts c) (s : State c) (k : Task c) : Pc → State c × Pc
  | .start =>                                                        -- dht/node.rs:578-602
    match Receiver.fullId c k.node.id with
    | none => (s, .done .error)
    | some pub =>
      if verifySig c pub (writeDNodeBoxed { k.node with signature := [] }) k.node.signature = false then
        (s, .done .none)
      else
        match parse o.adnl.build k.now o.adnl.clockTolerance k.node.addrList with
        | .ok addr =>
          match Node.addPeer o.adnl s.adnl s.buckets.localId (Node.shortId c pub) addr pub k.key with
          | (_, .peersNotFound) => (s, .done .error)
          | (_, .no) => (s, .done .none)
          | (adnl, .yes) => ({ s with adnl := adnl }, .known (Node.shortId c pub))
        | _ => (s, .done .error)
  | .known id =>                                                     -- dht/node.rs:605
    ({ s with known := (PeersSet.insert s.known id).1 },
      if (PeersSet.insert s.known id).2 then .bucket id else .good id)
  | .bucket id =>                                                    -- dht/node.rs:606
    ({ s with buckets := Buckets.insert s.buckets id k.node }, .done (.some id))
  | .good id => ({ s with penalties := setGood s.penalties id }, .done (.some id))  -- dht/node.rs:608
  | .done r => (s, .done r)

/-- The tables of the node and where each task is. -/
structure Sys (c : Crypto) where
  node : State c
  pc : Nat → Pc

/-- Task `t` makes one step. -/
def Sys.step (o : Opts c) (tasks : Nat → Task c) (σ : Sys c) (t : Nat) : Sys c :=
  let r := stepOf o σ.node (tasks t) (σ.pc t)
  ⟨r.1, fun u => if u = t then r.2 else σ.pc u⟩

/-- The tasks run by a schedule, a list of task numbers. -/
def Sys.run (o : Opts c) (tasks : Nat → Task c) (σ : Sys c) (sched : List Nat) : Sys c :=
  sched.foldl (Sys.step o tasks) σ

/-- No call has begun. -/
def Sys.init (s : State c) : Sys c := ⟨s, fun _ => .start⟩

end Verif.DhtConc
