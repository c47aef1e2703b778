/-!
# Locks of the shared tables

Every table shared between tasks is either a `DashMap`/`DashSet` (a row of shards, each with a
reader-writer lock), a `PeersSet` (one reader-writer lock, adnl/peers_set.rs:13) or a mutex. No guard is
held across an `.await`, so a task is a sequence of *sections*: stretches of code that begin and end without
any guard. The sections in which one guard is alive while another lock is taken are listed function by
function in `Section`; all other accesses are `Section.single`.

External assumptions: a `DashMap` iterator takes the read lock of the next shard before it releases that of
the current one and goes through the shards in ascending order; `get`, `entry`, `get_mut`, `insert`,
`remove` lock the shard of the key; `remove` and `insert` release it before they return.
-/
namespace Verif.Locks

inductive Mode where
  | read
  | write
deriving DecidableEq

/-- The tables. -/
inductive Table where
  /-- overlay/node.rs:122 -/
  | overlays
  /-- overlay/node.rs:124 -/
  | subscribers
  /-- adnl/node/mod.rs:126, adnl/peer.rs:9 -/
  | peers
  /-- adnl/node/mod.rs:131 -/
  | channelsByPeers
  /-- adnl/node/mod.rs:129 -/
  | channelsById
  /-- adnl/node/mod.rs:134 -/
  | incomingTransfers
  /-- adnl/queries_cache.rs:11 -/
  | queries
  /-- overlay/overlay.rs:133 -/
  | knownPeers
  /-- overlay/overlay.rs:135 -/
  | neighbours
  /-- the set made in `prepare_random_peers` (overlay/overlay.rs:905), or a set of the caller -/
  | localSet
  /-- overlay/overlay.rs:131 -/
  | ignoredPeers
  /-- overlay/overlay.rs:129 -/
  | nodes
  /-- overlay/overlay.rs:124 -/
  | receivedPeers
  /-- overlay/overlay.rs:117 -/
  | ownedBroadcasts
  /-- rldp/transfers_cache.rs:20 -/
  | rldpTransfers
  /-- rldp/node.rs:74 -/
  | semaphores
  /-- dht/node.rs:539 -/
  | dhtKnownPeers
  /-- dht/node.rs:541 -/
  | penalties
  /-- dht/buckets.rs:10 -/
  | buckets
  /-- dht/storage.rs:21 -/
  | storage
  /-- adnl/node/mod.rs:142 -/
  | initState
deriving DecidableEq

/-- One lock: a table, which one of the tables of this kind (local key, overlay, bucket, set) and the
shard. -/
structure Lock where
  table : Table
  inst : Nat
  shard : Nat
deriving DecidableEq

inductive Instr where
  | acq (l : Lock) (m : Mode)
  | rel (l : Lock) (m : Mode)
deriving DecidableEq

/-- `a` while holding `l`. -/
def during (l : Lock) (m : Mode) (a : List Instr) : List Instr := .acq l m :: a ++ [.rel l m]

/-- Going through all shards of a map from shard `i` on (`n` more), holding shard `i - 1` if `prev`. -/
def iterFrom (t : Table) (inst : Nat) : Nat → Nat → List Instr
  | i, 0 => [.rel ⟨t, inst, i⟩ .read]
  | i, n + 1 => .acq ⟨t, inst, i + 1⟩ .read :: .rel ⟨t, inst, i⟩ .read :: iterFrom t inst (i + 1) n

/-- Sections of code. Every shard number stands for the shard of some key. -/
inductive Section where
  /-- One access to one table. -/
  | single (l : Lock) (m : Mode)
  /-- `map.iter()` over `n + 1` shards: `match_peer_addresses` (adnl/node/mod.rs:397), `Buckets::find`
  (dht/buckets.rs:69), `Storage::total_size` (dht/storage.rs:40). The loop may be left after any shard. -/
  | iterate (t : Table) (inst n : Nat)
  /-- `send_message` (adnl/node/sender.rs:67-200): the peer and, if it gets that far, its channel. -/
  | sendMessage (loc peer : Nat) (chan : Option Nat)
  /-- `reset_peer` (adnl/node/mod.rs:522-538); `ids`: shards of the two channel ids if there is a channel. -/
  | resetPeer (loc peer chan : Nat) (ids : Option (Nat × Nat))
  /-- `create_channel` (receiver.rs:502-582); `old`: the replaced channel; `new`: `none` if the channel is
  still valid. -/
  | createChannel (loc peer chan : Nat) (old new : Option (Nat × Nat))
  /-- `update_neighbours` (overlay.rs:917-921), i.e. `randomly_fill_from` (peers_set.rs:85-122) from the known
  peers, with the lookups in the ignored peers. -/
  | updateNeighbours (ov : Nat) (ignored : List Nat)
  /-- `add_public_overlay`, `add_private_overlay` (overlay/node.rs:74-110): the new overlay is made while its
  entry is locked. -/
  | addOverlay (shard ov : Nat) (ignored : List Nat)
  /-- `write_cached_peers` (overlay.rs:338-340) into a set of the caller. -/
  | writeCached (ov set : Nat) (ignored : List Nat)
  /-- `prepare_random_peers` (overlay.rs:905-906): fill the local set from the neighbours. -/
  | fillLocal (ov set : Nat)
  /-- `prepare_random_peers` (overlay.rs:907-911): look up the nodes while the local set is iterated. -/
  | readLocal (ov set : Nat) (found : List Nat)

/-- The removal of the two ids of a channel (mod.rs:531-532, receiver.rs:543-546) or their insertion
(receiver.rs:548-555). -/
def channelIds (ids : Option (Nat × Nat)) : List Instr :=
  match ids with
  | none => []
  | some (a, b) => during ⟨.channelsById, 0, a⟩ .write [] ++ during ⟨.channelsById, 0, b⟩ .write []

/-- One access after another. -/
def reads (t : Table) (inst : Nat) : List Nat → List Instr
  | [] => []
  | s :: ss => during ⟨t, inst, s⟩ .read [] ++ reads t inst ss

/-- `randomly_fill_from` (peers_set.rs:101-121). -/
def fillFrom (src dst : Lock) (inner : List Instr) : List Instr :=
  during src .read (during dst .write inner)

def Section.trace : Section → List Instr
  | .single l m => during l m []
  | .iterate t inst n => .acq ⟨t, inst, 0⟩ .read :: iterFrom t inst 0 n
  | .sendMessage loc peer chan =>
    during ⟨.peers, loc, peer⟩ .read
      (match chan with
       | none => []
       | some c => during ⟨.channelsByPeers, 0, c⟩ .read [])
  | .resetPeer loc peer chan ids =>
    during ⟨.peers, loc, peer⟩ .write (during ⟨.channelsByPeers, 0, chan⟩ .write [] ++ channelIds ids)
  | .createChannel loc peer chan old new =>
    during ⟨.peers, loc, peer⟩ .read
      (during ⟨.channelsByPeers, 0, chan⟩ .write (channelIds old ++ channelIds new))
  | .updateNeighbours ov ignored =>
    fillFrom ⟨.knownPeers, ov, 0⟩ ⟨.neighbours, ov, 0⟩ (reads .ignoredPeers ov ignored)
  | .addOverlay shard ov ignored =>
    during ⟨.overlays, 0, shard⟩ .write
      (fillFrom ⟨.knownPeers, ov, 0⟩ ⟨.neighbours, ov, 0⟩ (reads .ignoredPeers ov ignored))
  | .writeCached ov set ignored =>
    fillFrom ⟨.knownPeers, ov, 0⟩ ⟨.localSet, set, 0⟩ (reads .ignoredPeers ov ignored)
  | .fillLocal ov set => fillFrom ⟨.neighbours, ov, 0⟩ ⟨.localSet, set, 0⟩ []
  | .readLocal ov set found => during ⟨.localSet, set, 0⟩ .read (reads .nodes ov found)

/-- What a task still has to do. -/
def program (ss : List Section) : List Instr := ss.flatMap Section.trace

/-! ## Tasks running in parallel -/

structure Thread where
  held : List (Lock × Mode)
  rest : List Instr

abbrev State := List Thread

/-- The lock can be taken: nobody writes, and for writing nobody reads. -/
def available (s : State) (l : Lock) : Mode → Bool
  | .read => s.all (fun t => decide ((l, Mode.write) ∉ t.held))
  | .write => s.all (fun t => decide ((l, Mode.write) ∉ t.held ∧ (l, Mode.read) ∉ t.held))

/-- What one task does next if the locks let it. -/
def Thread.advance (s : State) (t : Thread) : Thread :=
  match t.rest with
  | [] => t
  | .acq l m :: r => if available s l m then ⟨(l, m) :: t.held, r⟩ else t
  | .rel l m :: r => ⟨t.held.erase (l, m), r⟩

/-- One step of task `i`. -/
def step (s : State) (i : Nat) : State :=
  match s[i]? with
  | some t => s.set i (t.advance s)
  | none => s

def run (s : State) (sched : List Nat) : State := sched.foldl step s

/-- Tasks about to start, each with its sections. -/
def start (tasks : List (List Section)) : State := tasks.map (fun ss => ⟨[], program ss⟩)

/-- Task `i` can surely make its next step: the lock is free, and for reading no other task waits to write
(a waiting writer may keep readers out). -/
def CanStep (s : State) (i : Nat) : Prop :=
  ∃ t, s[i]? = some t ∧
    match t.rest with
    | [] => False
    | .rel _ _ :: _ => True
    | .acq l .write :: _ => available s l .write = true
    | .acq l .read :: _ => available s l .read = true ∧
        ∀ u ∈ s, ∀ r, u.rest ≠ .acq l .write :: r

end Verif.Locks
