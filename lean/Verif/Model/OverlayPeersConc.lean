import Verif.Model.OverlayPeers

/-!
# The peers of an overlay, changed by several tasks at once: `src/overlay/overlay.rs`

In `OverlayPeers` every function is one step. Here every access to `ignored_peers`, `known_peers`, `neighbours`, `nodes`,
`received_peers` and to the peers of the ADNL node is a step of its own, and the steps of any number of calls come in any
order. `randomly_fill_from` holds the locks of both sets from the draw on while it looks at `ignored_peers` for each of
the drawn; here the others are not held off, and what it inserts is inserted at once when it lets go: with the locks,
nobody can tell the difference, and without them there are more interleavings. What `choose_multiple` returns is an
argument of the step.
-/
namespace Verif.Overlay.PeersConc
open Verif.AdnlProto Verif.DhtProto

variable {c : Crypto}

/-- The calls that change the peers. -/
inductive Call where
  /-- `add_public_peers`; with one record `add_public_peer` -/
  | add (l : List (Address.SockAddr × ONode))
  | remove (peerId : Bytes)
  /-- `update_neighbours(1)` in the loop of `Overlay::new` (overlay.rs:197-201) -/
  | refresh
  /-- `process_get_random_peers` -/
  | exchange (l : List ONode) (now : Nat)
  | take

/-- Where a call is. -/
inductive Pc where
  /-- the next of the records (overlay.rs:249-263, 287-304): `verify_overlay_node` and `add_peer` -/
  | offer (l : List (Address.SockAddr × ONode))
  /-- line 927 -/
  | unignore (p : Bytes) (n : ONode) (rest : List (Address.SockAddr × ONode))
  /-- line 928 -/
  | know (p : Bytes) (n : ONode) (rest : List (Address.SockAddr × ONode))
  /-- line 930 -/
  | room (p : Bytes) (n : ONode) (rest : List (Address.SockAddr × ONode))
  /-- line 931 -/
  | join (p : Bytes) (n : ONode) (rest : List (Address.SockAddr × ONode))
  /-- lines 934-943 -/
  | store (p : Bytes) (n : ONode) (rest : List (Address.SockAddr × ONode))
  /-- line 314 -/
  | mark (p : Bytes)
  /-- line 318 -/
  | seek (p : Bytes)
  /-- `peers.len()` (peers_set.rs:97) -/
  | size (amount : Nat)
  /-- the draw of `k` peers (peers_set.rs:101-104) -/
  | draw (amount k : Nat)
  /-- the drawn are looked at one after the other (peers_set.rs:113-117) -/
  | pick (amount : Nat) (left picked : List Bytes)
  /-- lines 694-711 -/
  | hear (l : List ONode) (now : Nat)
  /-- lines 900-906 -/
  | sample (now : Nat)
  /-- lines 907-911 -/
  | gather (left : List Bytes) (out : List ONode)
  /-- lines 451-454 -/
  | take
  | over
deriving DecidableEq

def Call.start (_e : PEnv c) : Call → Pc
  | .add l => .offer l
  | .remove p => .mark p
  | .refresh => .size 1
  | .exchange l now => .hear l now
  | .take => .take

/-- One step of one call, and the answer of `process_get_random_peers` when it is complete. `chosen` is what
`choose_multiple` returns where it is called. -/
def tstep (e : PEnv c) (s : PState) (chosen : List Bytes) : Pc → PState × Pc × Option (List ONode)
  | .offer [] => (s, .over, none)
  | .offer ((addr, n) :: rest) =>
    if Storage.verifyONode c e.overlay n = false then (s, .offer rest, none)
    else
      match Receiver.fullId c n.id with
      | none => (s, .over, none)
      | some pub =>
        let r := PeerTable.addPeer e.filter e.socketAddr e.localId s.adnl () (Node.shortId c pub) addr ()
        ({ s with adnl := r.1 }, if r.2 then .unignore (Node.shortId c pub) n rest else .offer rest, none)
  | .unignore p n rest => ({ s with ignored := s.ignored.erase p }, .know p n rest, none)
  | .know p n rest => ({ s with known := (PeersSet.insert s.known p).1 }, .room p n rest, none)
  | .room p n rest => (s, if PeersSet.isFull s.neighbours then .store p n rest else .join p n rest, none)
  | .join p n rest => ({ s with neighbours := (PeersSet.insert s.neighbours p).1 }, .store p n rest, none)
  | .store p n rest => ({ s with nodes := storeNewer s.nodes p n }, .offer rest, none)
  | .mark p => if p ∈ s.ignored then (s, .over, none) else ({ s with ignored := p :: s.ignored }, .seek p, none)
  | .seek p => (s, if PeersSet.contains s.neighbours p then .size e.maxNeighbours else .over, none)
  | .size amount => (s, .draw amount (amount + s.ignored.length), none)
  | .draw amount _ => (s, .pick amount chosen [], none)
  | .pick amount left picked =>
    match left with
    | x :: left =>
      if picked.length < amount then (s, .pick amount left (if x ∈ s.ignored then picked else picked ++ [x]), none)
      else ({ s with neighbours := PeersSet.extend s.neighbours picked }, .over, none)
    | [] => ({ s with neighbours := PeersSet.extend s.neighbours picked }, .over, none)
  | .hear l now =>
    ({ s with received := (filterNodes e l).foldl (fun m n => storeNewer m n.id n) s.received }, .sample now, none)
  | .sample now =>
    (s, .gather (PeersSet.randomlyFillFrom (PeersSet.withCapacity 4) false chosen 4 none).index [signLocalNode e now], none)
  | .gather [] out => (s, .over, some out)
  | .gather (x :: left) out => (s, .gather left (out ++ (s.nodes.get x).toList), none)
  | .take => ({ s with received := [] }, .over, none)
  | .over => (s, .over, none)

/-- The peers, where every call is, and what was answered. -/
structure World where
  peers : PState
  calls : List Pc
  answers : List (List ONode)

inductive Act where
  | begin (k : Call)
  | step (i : Nat) (chosen : List Bytes)
  /-- the table of the ADNL node changes for other reasons -/
  | adnl (t : PeerTable.Peers Bytes Unit)

def wstep (e : PEnv c) (w : World) : Act → World
  | .begin k => { w with calls := w.calls ++ [k.start e] }
  | .step i chosen =>
    match w.calls[i]? with
    | some pc =>
      let r := tstep e w.peers chosen pc
      ⟨r.1, w.calls.set i r.2.1, w.answers ++ r.2.2.toList⟩
    | none => w
  | .adnl t => { w with peers := { w.peers with adnl := t } }

def wrun (e : PEnv c) (w : World) : List Act → World
  | [] => w
  | a :: as => wrun e (wstep e w a) as

/-- A new overlay, and no call yet. -/
def World.init (e : PEnv c) (peers chosen : List Bytes) : World := ⟨PState.init e peers chosen, [], []⟩

end Verif.Overlay.PeersConc
