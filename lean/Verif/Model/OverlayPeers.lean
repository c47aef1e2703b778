import Verif.Model.Storage
import Verif.Model.PeersSet
import Verif.Model.PeerTable

/-!
# Peers of a public overlay: `src/overlay/overlay.rs`

Every function is one step: it touches `ignored_peers`, `known_peers`, `neighbours`, `nodes` one after the
other, each under its own lock, and overlapping calls are taken to happen in some order (`OverlayPeersConc`
does without that). The outcome of the random generator is an argument (`chosen`, what `choose_multiple` returns).
-/
namespace Verif.Overlay
open Verif.AdnlProto Verif.DhtProto

variable (c : Crypto)

/-- The overlay, its key, `max_neighbours`, and what the ADNL node asks before it accepts a peer. -/
structure PEnv where
  /-- `id` -/
  overlay : Bytes
  /-- `node_key` -/
  key : c.Sec
  maxNeighbours : Nat
  filter : Option (PeerTable.Filter Unit Bytes)
  /-- own address of the ADNL node -/
  socketAddr : Address.SockAddr

variable {c}

/-- `overlay_key().id()`. -/
def PEnv.localId (e : PEnv c) : Bytes := Node.shortId c (c.pubOf e.key)

/-- The fields of `Overlay` about peers (overlay.rs:123-137), and the table of peers of the ADNL node for
`overlay_key` (without the sessions). -/
structure PState where
  /-- `received_peers` -/
  received : AMap PubKey ONode
  nodes : AMap Bytes ONode
  /-- `ignored_peers` -/
  ignored : List Bytes
  /-- `known_peers` -/
  known : PeersSet.State Bytes
  neighbours : PeersSet.State Bytes
  adnl : PeerTable.Peers Bytes Unit

/-- `MAX_OVERLAY_PEERS` (mod.rs:103). -/
def maxOverlayPeers : Nat := 65536

/-- `update_neighbours` (overlay.rs:917-921). -/
def updateNeighbours (s : PState) (chosen : List Bytes) (amount : Nat) : PState :=
  { s with neighbours := PeersSet.randomlyFillFrom s.neighbours false chosen amount (some s.ignored) }

/-- `Overlay::new` (overlay.rs:158-179). -/
def PState.init (e : PEnv c) (peers chosen : List Bytes) : PState :=
  let s : PState := ⟨[], [], [], PeersSet.withPeers peers maxOverlayPeers,
    PeersSet.withCapacity e.maxNeighbours, []⟩
  if peers = [] then s else updateNeighbours s chosen e.maxNeighbours

/-- Replacing a stored record by a newer one (overlay.rs:934-943, 700-711). -/
def storeNewer {κ : Type} [DecidableEq κ] (m : AMap κ ONode) (k : κ) (n : ONode) : AMap κ ONode :=
  match m.get k with
  | some old => if old.version < n.version then m.put k n else m
  | none => m.put k n

/-- `insert_public_peer` (overlay.rs:924-944). -/
def insertPublicPeer (s : PState) (peerId : Bytes) (n : ONode) : PState :=
  { s with
    ignored := s.ignored.erase peerId
    known := (PeersSet.insert s.known peerId).1
    neighbours := if PeersSet.isFull s.neighbours then s.neighbours else (PeersSet.insert s.neighbours peerId).1
    nodes := storeNewer s.nodes peerId n }

/-- `add_public_peer` (overlay.rs:243-271); `error ()` is `Err`. -/
def addPublicPeer (e : PEnv c) (s : PState) (addr : Address.SockAddr) (n : ONode) :
    PState × Except Unit (Option Bytes) :=
  if Storage.verifyONode c e.overlay n = false then (s, .ok none)
  else
    match Receiver.fullId c n.id with
    | none => (s, .error ())
    | some pub =>
      let peerId := Node.shortId c pub
      let r := PeerTable.addPeer e.filter e.socketAddr e.localId s.adnl () peerId addr ()
      if r.2 then (insertPublicPeer { s with adnl := r.1 } peerId n, .ok (some peerId))
      else ({ s with adnl := r.1 }, .ok none)

/-- `add_public_peers` (overlay.rs:276-310): the same for each, stopping at an error. -/
def addPublicPeers (e : PEnv c) (s : PState) : List (Address.SockAddr × ONode) →
    PState × Except Unit (List Bytes)
  | [] => (s, .ok [])
  | (addr, n) :: rest =>
    match addPublicPeer e s addr n with
    | (s, .error _) => (s, .error ())
    | (s, .ok r) =>
      match addPublicPeers e s rest with
      | (s, .error _) => (s, .error ())
      | (s, .ok rs) => (s, .ok (r.toList ++ rs))

/-- `remove_public_peer` (overlay.rs:313-322). -/
def removePublicPeer (e : PEnv c) (s : PState) (peerId : Bytes) (chosen : List Bytes) : PState × Bool :=
  if peerId ∈ s.ignored then (s, false)
  else
    let s := { s with ignored := peerId :: s.ignored }
    (if PeersSet.contains s.neighbours peerId then updateNeighbours s chosen e.maxNeighbours else s, true)

/-- `is_active_public_peer` (overlay.rs:333-335). -/
def isActive (s : PState) (peerId : Bytes) : Bool :=
  PeersSet.contains s.known peerId && !decide (peerId ∈ s.ignored)

/-- `write_cached_peers` (overlay.rs:338-340). -/
def writeCachedPeers (s : PState) (dst : PeersSet.State Bytes) (chosen : List Bytes) (amount : Nat) :
    PeersSet.State Bytes := PeersSet.randomlyFillFrom dst false chosen amount (some s.ignored)

/-- `filter_nodes` (overlay.rs:877-896). -/
def filterNodes (e : PEnv c) (l : List ONode) : List ONode :=
  l.filter fun n =>
    (match n.id with
      | .ed25519 k => decide (k ≠ c.pubBytes (c.pubOf e.key))
      | _ => false) && Storage.verifyONode c e.overlay n

/-- `sign_local_node` (overlay.rs:457-475). -/
def signLocalNode (e : PEnv c) (now : Nat) : ONode :=
  ⟨.ed25519 (c.pubBytes (c.pubOf e.key)), e.overlay, now,
    c.sign e.key (writeNodeToSign e.localId e.overlay now)⟩

/-- `prepare_random_peers` (overlay.rs:899-914): a fresh set of capacity 4 filled from the neighbours. -/
def prepareRandomPeers (e : PEnv c) (s : PState) (now : Nat) (chosen : List Bytes) : List ONode :=
  signLocalNode e now ::
    (PeersSet.randomlyFillFrom (PeersSet.withCapacity 4) false chosen 4 none).index.filterMap s.nodes.get

/-- `process_get_random_peers` (overlay.rs:688-717). -/
def processGetRandomPeers (e : PEnv c) (s : PState) (l : List ONode) (now : Nat) (chosen : List Bytes) :
    PState × List ONode :=
  let s := { s with received := (filterNodes e l).foldl (fun m n => storeNewer m n.id n) s.received }
  (s, prepareRandomPeers e s now chosen)

/-- What `exchange_random_peers_ext` makes of an answer (overlay.rs:517-540); `existing` is the filter of
peers not wanted, `none` an answer that cannot be read. -/
def newPeersOf (e : PEnv c) (existing : Bytes → Bool) (answer : Bytes) : Option (List Bytes) :=
  (Storage.decodeNodes answer).map fun l =>
    (filterNodes e l).filterMap fun n =>
      ((Receiver.fullId c n.id).map (Node.shortId c)).filter fun id => !existing id

/-- `take_new_peers` (overlay.rs:451-454). -/
def takeNewPeers (s : PState) : PState × AMap PubKey ONode := ({ s with received := [] }, s.received)

/-- Targets of a broadcast (overlay.rs:757-763, 820-826) and of a relayed one: `get_random_peers`. -/
def targets (chosen : List Bytes) (amount : Nat) (except : Option Bytes) : List Bytes :=
  PeersSet.getRandomPeers chosen amount except

/-- Steps on the peers of an overlay. -/
inductive PAction where
  | add (addr : Address.SockAddr) (n : ONode)
  | addMany (l : List (Address.SockAddr × ONode))
  | remove (peerId : Bytes) (chosen : List Bytes)
  /-- `update_neighbours(1)` in the loop of `Overlay::new` (overlay.rs:197-201) -/
  | refresh (chosen : List Bytes)
  /-- a `getRandomPeers` query -/
  | exchange (l : List ONode) (now : Nat) (chosen : List Bytes)
  | take
  /-- the table of the ADNL node changes for other reasons -/
  | adnl (t : PeerTable.Peers Bytes Unit)

def pstep (e : PEnv c) (s : PState) : PAction → PState
  | .add addr n => (addPublicPeer e s addr n).1
  | .addMany l => (addPublicPeers e s l).1
  | .remove p chosen => (removePublicPeer e s p chosen).1
  | .refresh chosen => updateNeighbours s chosen 1
  | .exchange l now chosen => (processGetRandomPeers e s l now chosen).1
  | .take => (takeNewPeers s).1
  | .adnl t => { s with adnl := t }

def prun (e : PEnv c) (s : PState) : List PAction → PState
  | [] => s
  | a :: as => prun e (pstep e s a) as

end Verif.Overlay
