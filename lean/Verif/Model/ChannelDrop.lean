/-!
# Dropping silent channels

`query_raw` (`src/adnl/node/mod.rs:456-497`) with `Channel::update_drop_timeout` and `reset_drop_timeout`
(`src/adnl/channel.rs:122-137`), for one pair of nodes. Any number of queries run concurrently with the
receiver; a step is one operation on shared data. Time is counted in seconds (`now()`), `now + timeout` is
assumed to fit into u32. Reading the clock and the compare-exchange after it are one step.
-/
namespace Verif.ChannelDrop

/-- One `Arc<Channel>`: the field `drop` (channel.rs:14). The other fields are not in the code. -/
structure Chan where
  drop : Nat
  /-- time of the last packet that was decrypted with it, or of its creation -/
  lastPacket : Nat
deriving DecidableEq

/-- Where a call of `query_raw` is. -/
inductive Query where
  /-- about to look up the channel (node/mod.rs:476-479); the message has been sent -/
  | sent
  /-- waiting for the answer, with the channel found -/
  | waiting (chan : Option Nat)
  /-- about to call `reset_peer` (line 491) -/
  | resetting (chan : Nat)
  | done
deriving DecidableEq

/-- A call of `reset_peer`: when, because of which channel, and which channel was dropped. -/
structure Reset where
  at_ : Nat
  cause : Nat
  dropped : Option Nat
deriving DecidableEq

/-- `current` is the entry of the peer in `channels_by_peers`; `resets` (newest first) is not in the code. -/
structure State where
  now : Nat
  chans : List Chan
  current : Option Nat
  queries : List Query
  resets : List Reset
deriving DecidableEq

def State.init (now : Nat) : State := ⟨now, [], none, [], []⟩

inductive Act where
  | tick (d : Nat)
  /-- `create_channel` inserts a new channel (receiver.rs:535-577) -/
  | create
  /-- the peer is removed (node/mod.rs:357-368) -/
  | remove
  /-- a packet was decrypted with channel `i` (receiver.rs:124-126) -/
  | packet (i : Nat)
  /-- a query is sent -/
  | query
  /-- query `q` looks up the channel -/
  | find (q : Nat)
  /-- query `q` gets its answer -/
  | answer (q : Nat)
  /-- query `q` times out (lines 481-490) -/
  | expire (q : Nat)
  /-- query `q` calls `reset_peer` -/
  | reset (q : Nat)
deriving DecidableEq

/-- `update_drop_timeout` (channel.rs:124-131): the stamp afterwards and the answer. -/
def updateDrop (drop now timeout : Nat) : Nat × Bool :=
  if drop = 0 then (now + timeout, false) else (drop, decide (drop > 0 ∧ drop < now))

/-- The end of `query_raw` without an answer (node/mod.rs:487-494). -/
def expireStep (timeout : Nat) (s : State) (q : Nat) : Option Nat → State
  | none => { s with queries := s.queries.set q .done }
  | some i =>
    match s.chans[i]? with
    | none => s -- does not happen: the query owns a reference
    | some ch =>
      let r := updateDrop ch.drop s.now timeout
      { s with
        chans := s.chans.set i { ch with drop := r.1 }
        queries := s.queries.set q (if r.2 then .resetting i else .done) }

def step (timeout : Nat) (s : State) : Act → State
  | .tick d => { s with now := s.now + d }
  | .create => { s with chans := s.chans ++ [⟨0, s.now⟩], current := some s.chans.length }
  | .remove => { s with current := none }
  | .packet i =>
    match s.chans[i]? with
    | some _ => { s with chans := s.chans.set i ⟨0, s.now⟩ }
    | none => s
  | .query => { s with queries := s.queries ++ [.sent] }
  | .find q =>
    match s.queries[q]? with
    | some .sent => { s with queries := s.queries.set q (.waiting s.current) }
    | _ => s
  | .answer q =>
    match s.queries[q]? with
    | some (.waiting _) => { s with queries := s.queries.set q .done }
    | _ => s
  | .expire q =>
    match s.queries[q]? with
    | some (.waiting c) => expireStep timeout s q c
    | _ => s
  | .reset q =>
    match s.queries[q]? with
    | some (.resetting i) =>
      { s with current := none, queries := s.queries.set q .done, resets := ⟨s.now, i, s.current⟩ :: s.resets }
    | _ => s

def run (timeout : Nat) (s : State) (as : List Act) : State := as.foldl (step timeout) s

end Verif.ChannelDrop
