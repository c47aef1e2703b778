import Verif.Proofs.Delivery
import Verif.Props.Establish2

/-!
# C70: packets between two honest nodes arrive

Two nodes know each other and neither restarts, resets or removes the other. The network may lose,
delay, reorder and duplicate datagrams. Everything else the nodes do (other peers, subscribers,
transfers) is covered by steps which leave the record and the channel of this pair alone.
-/
namespace Verif.Delivery
open Verif.Tl Verif.Adnl Verif.AdnlProto Verif.Address Verif.Node Verif.Receiver Verif.Sender Verif.Props
open Verif.Establish (upd upd_self upd_not upd_not' Expected)

variable {c : Crypto}

/-! ### The system -/

/-- The two nodes `false` and `true`. -/
structure Pair (c : Crypto) where
  opts : Bool → Opts c
  /-- `use_loopback_for_neighbours` -/
  loop : Bool → Bool
  /-- node keys -/
  sec : Bool → c.Sec
  /-- channel keys generated when the peers were added -/
  chan : Bool → c.Sec

def Pair.id (P : Pair c) (b : Bool) : Bytes := shortId c (c.pubOf (P.sec b))

/-- The channel of one side, up to date and readiness. -/
def Pair.channel (P : Pair c) (b : Bool) : Channel :=
  Channel.new c (P.id b) (P.id !b) (P.chan b) (c.pubOf (P.chan !b)) 0 .create

/-- What is assumed about the two nodes once and for all. -/
structure Pair.Fits (P : Pair c) : Prop where
  start : ∀ b, (P.opts b).startTime < 2 ^ 32
  key : ∀ b, (P.opts b).keys (P.id b) = some (P.sec b)
  /-- the ids of the channel are no key ids of the receiver -/
  free : ∀ b prio, (P.opts b).keys ((P.channel b).inn.sub prio).id = none
  /-- the two ids of the channel differ -/
  split : ∀ b, ((P.channel b).inn.sub true).id ≠ ((P.channel b).inn.sub false).id

/-- Where side `b` sends a datagram to, given its record of the other side. -/
def Pair.target (P : Pair c) (b : Bool) (p : Peer c) : SockAddr :=
  destination (P.loop b) (P.opts b).socketAddr (unpack p.addr)

/-- A datagram on the wire, with the messages in it, the priority and the number it was given,
whether it was encrypted with the channel, and the address it was sent to. -/
structure Gram where
  data : Bytes
  sentAt : Nat
  ms : List Message
  prio : Bool
  n : Nat
  viaChannel : Bool
  dst : SockAddr

/-- Nodes, everything each side has sent (oldest first), and which of it has arrived. -/
structure Sys (c : Crypto) where
  node : Bool → State c
  net : Bool → List Gram
  seen : Bool → List Nat

/-- Effect of a received message on the tables of the node: channel messages (receiver.rs:268-281); the
answers of subscribers are sent by send steps. -/
def absorb (l q : Bytes) (s : State c) : Message → State c
  | .createChannel key date => (Process.channelMessage s l q key date .create).1
  | .confirmChannel key _ date => (Process.channelMessage s l q key date .confirm).1
  | _ => s

/-- A datagram arrives. -/
def arrive (o : Opts c) (ul : Bool) (now : Nat) (s : State c) (data : Bytes) (key : c.Sec)
    (rand : Nat → Rand c) : State c :=
  match handle o ul now s data key rand with
  | (s', .accepted l q _ ms, _) => ms.foldl (absorb l q) s'
  | (s', _, _) => s'

/-- Priority of the packet. -/
def prioOf (p : Peer c) : Signer c → Bool
  | .channel _ prio => effectivePriority p prio
  | .random _ => false

def isChannel : Signer c → Bool
  | .channel _ _ => true
  | .random _ => false

/-- Channel messages an honest side sends: its own channel key; confirmations only if it has a channel
(sender.rs:79-104). Dates are u32. -/
def Honest (P : Pair c) (b : Bool) (has : Prop) : Message → Prop
  | .createChannel key date => key = c.pubBytes (c.pubOf (P.chan b)) ∧ date < 2 ^ 32
  | .confirmChannel key _ date => key = c.pubBytes (c.pubOf (P.chan b)) ∧ date < 2 ^ 32 ∧ has
  | _ => True

/-- Keys the packet may be sent with (sender.rs:116-122): the node key, or the channel once it is
ready. -/
def SignerFits (P : Pair c) (σ : Sys c) (b : Bool) : Signer c → Prop
  | .random k => k = P.sec b
  | .channel ch _ => (σ.node b).channel (P.id !b) = some ch ∧ ch.ready = true

/-- An unversioned packet looks like a versioned one by accident. -/
def Accident (P : Pair c) (b : Bool) (p : Peer c) (r : Rand c) (d : Bytes) : Signer c → Prop
  | .random _ => LooksVersioned c (c.dh (P.sec !b) (c.pubOf r.temp)) d
  | .channel ch prio => ChannelLooksVersioned c (ch.out.sub (effectivePriority p prio)).secret d

/-- `s'` has the same record and the same channel of the pair as `s`. -/
structure Undisturbed (P : Pair c) (b : Bool) (s s' : State c) : Prop where
  good : Good s'
  peer : s'.peer (P.id b) (P.id !b) = s.peer (P.id b) (P.id !b)
  channel : s'.channel (P.id !b) = s.channel (P.id !b)
  byPeer : s'.byPeer.get (P.id !b) = s.byPeer.get (P.id !b)
  byId : ∀ prio, s'.byId.get ((P.channel b).inn.sub prio).id = s.byId.get ((P.channel b).inn.sub prio).id

inductive Step (P : Pair c) : Sys c → Sys c → Prop
  /-- side `b` sends a packet with the messages `ms` -/
  | send (σ : Sys c) (b : Bool) (now : Nat) (p p' : Peer c) (signer : Signer c) (out : OutMessages)
      (ms : List Message) (r : Rand c) (d : Bytes) :
      (σ.node b).peer (P.id b) (P.id !b) = some p →
      SignerFits P σ b signer →
      Carries out ms → (rawOf out).length ≤ 60000 →
      (∀ m ∈ ms, Honest P b ((σ.node b).channel (P.id !b) ≠ none) m) →
      r.bytes.length = 10 → now + (P.opts b).addressListTimeout < 2 ^ 32 →
      p.sendSeqno (prioOf p signer) + 1 < 2 ^ 64 →
      sendPacket (P.opts b) (P.loop b) now (P.id !b) p signer out r = .ok (p', d) →
      VersionFits (P.opts b).version (Accident P b p r d signer) →
      Step P σ { σ with
        node := upd σ.node b ((σ.node b).setPeer (P.id b) (P.id !b) p')
        net := upd σ.net b (σ.net b ++
          [⟨d, now, ms, prioOf p signer, p.sendSeqno (prioOf p signer) + 1, isChannel signer, P.target b p⟩]) }
  /-- datagram `i` of side `b` arrives, perhaps not for the first time, not later than the address list
  in it is valid -/
  | deliver (σ : Sys c) (b : Bool) (i : Nat) (g : Gram) (now : Nat) (key : c.Sec) (rand : Nat → Rand c) :
      (σ.net b)[i]? = some g →
      now + (P.opts !b).clockTolerance < 2 ^ 32 →
      (P.opts b).startTime ≤ now + (P.opts !b).clockTolerance →
      now ≤ g.sentAt + (P.opts b).addressListTimeout →
      Step P σ { σ with
        node := upd σ.node (!b) (arrive (P.opts !b) (P.loop !b) now (σ.node !b) g.data key rand)
        seen := upd σ.seen b (i :: σ.seen b) }
  /-- something else happens at side `b` -/
  | other (σ : Sys c) (b : Bool) (s' : State c) : Undisturbed P b (σ.node b) s' →
      Step P σ { σ with node := upd σ.node b s' }

/-- Start: the nodes have added each other, there is no channel between them and nothing was sent. -/
structure Start (P : Pair c) (σ : Sys c) : Prop where
  good : ∀ b, Good (σ.node b)
  noChannel : ∀ b, (σ.node b).channel (P.id !b) = none
  peers : ∀ b, ∃ t addr, (σ.node b).peer (P.id b) (P.id !b) =
    some (Peer.new t addr (c.pubOf (P.sec !b)) (P.chan b))
  net : ∀ b, σ.net b = [] ∧ σ.seen b = []

inductive Reachable (P : Pair c) : Sys c → Prop
  | start (σ : Sys c) : Start P σ → Reachable P σ
  | step (σ σ' : Sys c) : Reachable P σ → Step P σ σ' → Reachable P σ'

/-! ### Invariant -/

def Pair.ends (P : Pair c) : Establish.Ends c := ⟨P.id, P.chan⟩

/-- One node; `other` says that the other side has a channel. -/
structure NodeOk (P : Pair c) (b : Bool) (s : State c) (p : Peer c) (other : Prop) : Prop where
  good : Good s
  peer : s.peer (P.id b) (P.id !b) = some p
  key : p.channelKey = P.chan b
  chan : ∀ ch, s.channel (P.id !b) = some ch → Expected P.ends b ch
  listed : ∀ ch prio, s.channel (P.id !b) = some ch → ∃ r, s.byPeer.get (P.id !b) = some r ∧
    s.byId.get ((P.channel b).inn.sub prio).id = some (r, prio)
  ready : ∀ ch, s.channel (P.id !b) = some ch → ch.ready = true → other
  date : ∀ ch, s.channel (P.id !b) = some ch → ch.peerDate < 2 ^ 32

/-- One datagram; `pr` are the current records. -/
structure GramOk (P : Pair c) (σ : Sys c) (pr : Bool → Peer c) (b : Bool) (g : Gram) : Prop where
  le : g.n ≤ (pr b).sendSeqno g.prio
  honest : ∀ m ∈ g.ms, Honest P b ((σ.node b).channel (P.id !b) ≠ none) m
  made : ∃ p p' signer out r,
    sendPacket (P.opts b) (P.loop b) g.sentAt (P.id !b) p signer out r = .ok (p', g.data) ∧
    p.pub = c.pubOf (P.sec !b) ∧ (p.sendDate = 0 ∨ p.sendDate = (P.opts !b).startTime) ∧
    Carries out g.ms ∧ (rawOf out).length ≤ 60000 ∧ r.bytes.length = 10 ∧
    g.sentAt + (P.opts b).addressListTimeout < 2 ^ 32 ∧
    g.prio = prioOf p signer ∧ g.n = p.sendSeqno g.prio + 1 ∧ g.n < 2 ^ 64 ∧ g.viaChannel = isChannel signer ∧ g.dst = P.target b p ∧
    (p.recvHist g.prio).seqno ≤ (pr !b).sendSeqno g.prio ∧
    VersionFits (P.opts b).version (Accident P b p r g.data signer) ∧
    match signer with
    | .random k => k = P.sec b
    | .channel ch _ => Expected P.ends b ch ∧ (σ.node b).channel (P.id !b) ≠ none ∧
      (σ.node !b).channel (P.id b) ≠ none

/-- One record. -/
structure PeerOk (P : Pair c) (σ : Sys c) (b : Bool) (p : Peer c) : Prop where
  pub : p.pub = c.pubOf (P.sec !b)
  date : p.sendDate = 0 ∨ p.sendDate = (P.opts !b).startTime
  small : ∀ prio, p.sendSeqno prio < 2 ^ 64
  hist : ∀ prio, ∃ xs, p.recvHist prio = PacketsHistory.run PacketsHistory.forRecv xs ∧
    (∀ n ∈ xs, ∃ (i : Nat) (g : Gram), i ∈ σ.seen (!b) ∧ (σ.net !b)[i]? = some g ∧ g.prio = prio ∧ g.n = n) ∧
    ((P.opts b).historyEnabled = true → ∀ (i : Nat) (g : Gram), i ∈ σ.seen (!b) →
      (σ.net !b)[i]? = some g → g.prio = prio → g.n ∈ xs)
  arrived : ∀ i ∈ σ.seen (!b), ((σ.net !b)[i]?).isSome = true

structure Inv (P : Pair c) (σ : Sys c) (pr : Bool → Peer c) : Prop where
  node : ∀ b, NodeOk P b (σ.node b) (pr b) ((σ.node !b).channel (P.id b) ≠ none)
  peer : ∀ b, PeerOk P σ b (pr b)
  gram : ∀ b g, g ∈ σ.net b → GramOk P σ pr b g
  apart : ∀ (b : Bool) (i j : Nat) (g g' : Gram), (σ.net b)[i]? = some g → (σ.net b)[j]? = some g' →
    g.prio = g'.prio → g.n = g'.n → i = j
  few : ∀ b prio, (pr b).sendSeqno prio ≤ (σ.net b).length

/-! ### Channel messages -/

theorem expected_inn {P : Pair c} {b : Bool} {ch : Channel} (h : Expected P.ends b ch) :
    ch.inn = (P.channel b).inn ∧ ch.out = (P.channel b).out ∧ ch.localId = P.id b ∧ ch.peerId = P.id !b := by
  obtain ⟨d, x, e⟩ := h
  rw [e]
  exact ⟨rfl, rfl, rfl, rfl⟩

theorem mirror (hc : c.Lawful) (P : Pair c) (b : Bool) : (P.channel !b).inn = (P.channel b).out := by
  have := (C12_ends_are_mirrored c hc (P.id b) (P.id !b) (P.chan b) (P.chan !b) 0 0 .create .create).1
  unfold Pair.channel
  rw [this, Bool.not_not]

theorem out_id_length (hc : c.Lawful) (P : Pair c) (b prio : Bool) :
    ((P.channel b).out.sub prio).id.length = 32 :=
  sub_id_length c hc _ prio

theorem create_listed {P : Pair c} (hP : P.Fits) {b : Bool} {s : State c} {p : Peer c} {other : Prop}
    (h : NodeOk P b s p other) (date : Nat) (x : Ctx) (ch : Channel) (prio : Bool)
    (hch : (createChannel s (P.id b) (P.id !b) (c.pubOf (P.chan !b)) date x).1.channel (P.id !b) = some ch) :
    ∃ r, (createChannel s (P.id b) (P.id !b) (c.pubOf (P.chan !b)) date x).1.byPeer.get (P.id !b) = some r ∧
      (createChannel s (P.id b) (P.id !b) (c.pubOf (P.chan !b)) date x).1.byId.get
        ((P.channel b).inn.sub prio).id = some (r, prio) := by
  have hp := h.peer
  unfold State.peer at hp
  unfold createChannel at hch ⊢
  cases hl : s.peers.get (P.id b) with
  | none => rw [hl] at hp; cases hp
  | some t =>
    rw [hl] at hp hch
    simp only at hp hch ⊢
    simp only [hp] at hch ⊢
    cases hq : s.byPeer.get (P.id !b) with
    | none =>
      simp only [insertChannel, AMap.get_put, if_true]
      refine ⟨_, rfl, ?_⟩
      have e1 : (Channel.new c (P.id b) (P.id !b) p.channelKey (c.pubOf (P.chan !b)) date x).inn =
          (P.channel b).inn := by rw [h.key]; rfl
      rw [e1]
      cases prio with
      | true => rw [if_pos (show ((P.channel b).inn.sub true).id = (P.channel b).inn.priority.id from rfl)]
      | false =>
        rw [if_neg, if_pos (show ((P.channel b).inn.sub false).id = (P.channel b).inn.ordinary.id from rfl)]
        intro e
        exact hP.split b e.symm
    | some r =>
      obtain ⟨old, f1, f2⟩ := h.good.live _ r hq
      have hold : s.channel (P.id !b) = some old := by rw [State.channel, hq]; exact f1
      have hkey : old.peerKey = c.pubBytes (c.pubOf (P.chan !b)) := by
        obtain ⟨d, x', e⟩ := h.chan old hold
        rw [e]; rfl
      have hv : old.stillValid (c.pubBytes (c.pubOf (P.chan !b))) date = true := by
        simp [Channel.stillValid, hkey]
      simp only [f1, hv, if_true]
      obtain ⟨r', g1, g2⟩ := h.listed old prio hold
      split
      · have := setReady_tab s r
        exact ⟨r', by rw [this.byPeer]; exact g1, by rw [this.byId]; exact g2⟩
      · exact ⟨r', g1, g2⟩

theorem absorb_ok (hc : c.Lawful) {P : Pair c} (hP : P.Fits) {b : Bool} {s : State c} {p : Peer c}
    {other : Prop} (h : NodeOk P b s p other) (m : Message) (hm : Honest P (!b) other m) :
    NodeOk P b (absorb (P.id b) (P.id !b) s m) p other ∧
    (s.channel (P.id !b) ≠ none → (absorb (P.id b) (P.id !b) s m).channel (P.id !b) ≠ none) := by
  have key : ∀ (date : Nat) (x : Ctx), date < 2 ^ 32 → (x = .confirm → other) →
      let s' := (Process.channelMessage s (P.id b) (P.id !b) (c.pubBytes (c.pubOf (P.chan !b))) date x).1
      NodeOk P b s' p other ∧ (s.channel (P.id !b) ≠ none → s'.channel (P.id !b) ≠ none) := by
    intro date x hdate hx
    have e : (Process.channelMessage s (P.id b) (P.id !b) (c.pubBytes (c.pubOf (P.chan !b))) date x).1 =
        (createChannel s (P.id b) (P.id !b) (c.pubOf (P.chan !b)) date x).1 := by
      unfold Process.channelMessage
      rw [hc.decode_pub]
      simp only
      cases createChannel s (P.id b) (P.id !b) (c.pubOf (P.chan !b)) date x with
      | mk s' r => cases r <;> rfl
    have eff := Establish.message_effect hc (E := P.ends) (b := b) h.good h.peer h.key h.chan date x
    obtain ⟨g1, g2, ch', g3, g4, g5, -⟩ := eff
    refine ⟨⟨g1, ?_, h.key, ?_, ?_, ?_, ?_⟩, ?_⟩
    · unfold State.peer
      rw [show (Process.channelMessage s (P.id b) (P.id !b) (c.pubBytes (c.pubOf (P.chan !b))) date x).1.peers
        = s.peers from g2]
      exact h.peer
    · intro ch hch
      rw [show (Process.channelMessage s (P.id b) (P.id !b) (c.pubBytes (c.pubOf (P.chan !b))) date x).1.channel
        (P.id !b) = some ch' from g3] at hch
      cases hch
      exact g4
    · intro ch prio hch
      rw [e] at hch ⊢
      exact create_listed hP h date x ch prio hch
    · intro ch hch hr
      rw [show (Process.channelMessage s (P.id b) (P.id !b) (c.pubBytes (c.pubOf (P.chan !b))) date x).1.channel
        (P.id !b) = some ch' from g3] at hch
      cases hch
      rcases g5 hr with g | ⟨ch0, g6, g7⟩
      · exact hx g
      · exact h.ready ch0 g6 g7
    · intro ch hch
      rw [e] at hch
      cases hold : s.channel (P.id !b) with
      | none =>
        rw [Establish.createChannel_first h.good h.peer hold] at hch
        cases hch
        exact hdate
      | some old =>
        have hlt := h.date old hold
        rcases (Establish.C16_replaced_only_by_newer h.good (P.id b) (P.id !b) (c.pubOf (P.chan !b)) date x old
          hold).1 with g | ⟨-, -, g⟩ | ⟨-, -, p0, -, g⟩
        · rw [g] at hch; cases hch; exact hlt
        · rw [g] at hch; cases hch; exact hlt
        · rw [g] at hch; cases hch; exact hdate
    · intro _
      rw [show (Process.channelMessage s (P.id b) (P.id !b) (c.pubBytes (c.pubOf (P.chan !b))) date x).1.channel
        (P.id !b) = some ch' from g3]
      simp
  cases m with
  | createChannel k date =>
    simp only [Honest] at hm
    obtain ⟨rfl, hd⟩ := hm
    exact key date .create hd (by simp)
  | confirmChannel k pk date =>
    simp only [Honest] at hm
    obtain ⟨rfl, hd, ho⟩ := hm
    exact key date .confirm hd (fun _ => ho)
  | _ => exact ⟨h, id⟩

theorem absorbAll_ok (hc : c.Lawful) {P : Pair c} (hP : P.Fits) {b : Bool} {p : Peer c} {other : Prop} :
    ∀ (ms : List Message) (s : State c), NodeOk P b s p other → (∀ m ∈ ms, Honest P (!b) other m) →
    NodeOk P b (ms.foldl (absorb (P.id b) (P.id !b)) s) p other ∧
    (s.channel (P.id !b) ≠ none → (ms.foldl (absorb (P.id b) (P.id !b)) s).channel (P.id !b) ≠ none)
  | [], s, h, _ => ⟨h, id⟩
  | m :: ms, s, h, hm => by
    obtain ⟨h1, h2⟩ := absorb_ok hc hP h m (hm m (by simp))
    obtain ⟨h3, h4⟩ := absorbAll_ok hc hP ms _ h1 (fun m' hm' => hm m' (by simp [hm']))
    exact ⟨h3, fun x => h4 (h2 x)⟩

theorem put_tab {s s' : State c} {l q : Bytes} {p : Peer c} (h : Put s s' l q p) : Tab s s' :=
  ⟨h.byPeer, h.byId, h.next, fun _ => by rw [h.heap]; exact .inl rfl⟩

theorem put_channel {s s' : State c} {l q : Bytes} {p : Peer c} (h : Put s s' l q p) (x : Bytes) :
    s'.channel x = s.channel x := by
  unfold State.channel
  rw [h.byPeer, h.heap]

/-- Replacing the record of the pair. -/
theorem NodeOk.put {P : Pair c} {b : Bool} {s s' : State c} {p p' : Peer c} {other : Prop}
    (h : NodeOk P b s p other) (hp : Put s s' (P.id b) (P.id !b) p') (hk : p'.channelKey = p.channelKey) :
    NodeOk P b s' p' other := by
  have hch := put_channel hp (P.id !b)
  refine ⟨(put_tab hp).good h.good, hp.here, hk.trans h.key, ?_, ?_, ?_,
    by intro ch e; rw [hch] at e; exact h.date ch e⟩
  · intro ch e; rw [hch] at e; exact h.chan ch e
  · intro ch prio e
    rw [hch] at e
    rw [hp.byPeer, hp.byId]
    exact h.listed ch prio e
  · intro ch e; rw [hch] at e; exact h.ready ch e

theorem setReady_channel {s : State c} {q : Bytes} {r : Nat} {ch : Channel} (hq : s.byPeer.get q = some r)
    (hr : s.heap.get r = some ch) : (s.setReady r).channel q = some { ch with ready := true } := by
  simp [State.channel, State.setReady, hr, hq]

/-- The channel of the pair becomes ready. -/
theorem NodeOk.setReady {P : Pair c} {b : Bool} {s : State c} {p : Peer c} {other : Prop}
    (h : NodeOk P b s p other) (ho : other) {r : Nat} {ch : Channel}
    (hq : s.byPeer.get (P.id !b) = some r) (hr : s.heap.get r = some ch) :
    NodeOk P b (s.setReady r) p other ∧ (s.setReady r).channel (P.id !b) ≠ none := by
  have t := setReady_tab s r
  have hch := setReady_channel hq hr
  have hold : s.channel (P.id !b) = some ch := by rw [State.channel, hq]; exact hr
  refine ⟨⟨t.good h.good, by rw [peer_setReady]; exact h.peer, h.key, ?_, ?_, fun _ _ _ => ho, ?_⟩,
    by rw [hch]; simp⟩
  · intro ch' e
    rw [hch] at e
    cases e
    obtain ⟨d, x, e⟩ := h.chan ch hold
    exact ⟨d, x, by rw [e]⟩
  · intro ch' prio e
    rw [t.byPeer, t.byId]
    exact h.listed ch prio hold
  · intro ch' e
    rw [hch] at e
    cases e
    exact h.date ch hold

/-! ### One datagram arrives -/

theorem tryReinit_pair {P : Pair c} {σ : Sys c} {b : Bool} {q : Peer c} (h : PeerOk P σ b q) :
    q.sendDate ≤ (P.opts !b).startTime ∧
    (q.tryReinit (P.opts !b).startTime).1 = { q with sendDate := (P.opts !b).startTime } := by
  have hle : q.sendDate ≤ (P.opts !b).startTime := by rcases h.date with e | e <;> omega
  refine ⟨hle, ?_⟩
  unfold Peer.tryReinit
  split
  · rename_i e; rw [e]
  · rename_i e
    rw [if_pos (by omega), if_neg (by rcases h.date with e' | e' <;> [simp [e']; exact absurd e'.symm e])]

theorem noted_fields (o : Opts c) (q : Peer c) (prio : Bool) (n : Nat) :
    (noted o q prio n).pub = q.pub ∧ (noted o q prio n).channelKey = q.channelKey ∧
    (noted o q prio n).sendDate = q.sendDate := by
  unfold noted checkHistory
  simp only
  split
  · cases prio <;> exact ⟨rfl, rfl, rfl⟩
  · exact ⟨rfl, rfl, rfl⟩

theorem noted_addr (o : Opts c) (q : Peer c) (prio : Bool) (n : Nat) : (noted o q prio n).addr = q.addr := by
  unfold noted checkHistory
  simp only
  split
  · cases prio <;> rfl
  · rfl

theorem noted_recv (o : Opts c) (q : Peer c) (prio : Bool) (n : Nat) (prio' : Bool) :
    (noted o q prio n).recvHist prio' = if o.historyEnabled = true ∧ prio' = prio then
      (PacketsHistory.deliver (q.recvHist prio) n).1 else q.recvHist prio' := by
  unfold noted checkHistory
  simp only
  by_cases e : o.historyEnabled = true
  · rw [if_pos e]
    cases prio <;> cases prio' <;> simp [e, Peer.setRecvHist, Peer.recvHist]
  · rw [if_neg e, if_neg (fun h => e h.1)]

theorem fresh_eq (o : Opts c) (q : Peer c) (prio : Bool) (n : Nat) :
    fresh o q prio n = if o.historyEnabled = true then (PacketsHistory.deliver (q.recvHist prio) n).2
      else true := by
  unfold fresh checkHistory
  simp only
  split <;> rfl

/-- A datagram of the other side: the record afterwards and the outcome. -/
theorem arrives (hc : c.Lawful) {P : Pair c} (hP : P.Fits) {σ : Sys c} {pr : Bool → Peer c}
    (h : Inv P σ pr) (b : Bool) (g : Gram) (hg : g ∈ σ.net b) (now : Nat)
    (h1 : now + (P.opts !b).clockTolerance < 2 ^ 32)
    (h2 : (P.opts b).startTime ≤ now + (P.opts !b).clockTolerance)
    (h3 : now ≤ g.sentAt + (P.opts b).addressListTimeout) (key : c.Sec) (rand : Nat → Rand c) :
    ∃ s' q', handle (P.opts !b) (P.loop !b) now (σ.node !b) g.data key rand =
        (s', if fresh (P.opts !b) (pr !b) g.prio g.n then
          .accepted (P.id !b) (P.id b) g.prio g.ms else .duplicate, []) ∧
      NodeOk P (!b) s' q' ((σ.node b).channel (P.id !b) ≠ none) ∧
      ((σ.node !b).channel (P.id b) ≠ none → s'.channel (P.id b) ≠ none) ∧
      (∀ prio, q'.sendSeqno prio = (pr !b).sendSeqno prio) ∧
      q'.pub = (pr !b).pub ∧ (q'.sendDate = 0 ∨ q'.sendDate = (P.opts b).startTime) ∧
      (∀ prio, q'.recvHist prio = (noted (P.opts !b) (pr !b) g.prio g.n).recvHist prio) ∧
      (g.viaChannel = true → q'.addr = (pr !b).addr ∧
        ∃ ch, s'.channel (P.id b) = some ch ∧ ch.ready = true) := by
  obtain ⟨p, p', signer, out, r, hsend, hpub, hdate, hm, hraw, hr, hnow, hprio, hn, hn64, hvia, -, hconf, hver, hsig⟩ :=
    (h.gram b g hg).made
  have hnode := h.node (!b)
  have hpeer := h.peer (!b)
  have hre := tryReinit_pair hpeer
  simp only [Bool.not_not] at hnode hre
  have hs := hpeer.small
  have hdate' := hpeer.date
  simp only [Bool.not_not] at hdate'
  have hst := hP.start b
  have hst' := hP.start (!b)
  have hsd : p.sendDate < 2 ^ 32 := by rcases hdate with e | e <;> omega
  have hcf : (p.recvHist g.prio).seqno < 2 ^ 64 := by have := hs g.prio; omega
  cases signer with
  | random k =>
    simp only at hsig
    subst hsig
    have ep : g.prio = false := hprio
    rw [ep] at hn hconf hcf
    have := handshake_arrives hc (P.opts b) (P.opts !b) (P.loop b) (P.loop !b) g.sentAt now (P.id !b) p p'
      (P.sec b) (P.sec !b) out g.ms r g.data hsend hm hraw hr hpub (hc.sha_length _) (hP.key (!b)) hver hnow
      hst hsd (by rw [← show p.sendSeqno false = p.sendOrd from rfl]; omega) hcf h1 h3 (σ.node !b) (pr !b)
      (by have := hnode.peer; simp only [Bool.not_not] at this; exact this) ⟨hdate, h2, hre.1⟩
      (by rw [hre.2]; exact hconf) key rand
    obtain ⟨-, s', a, hh, hput⟩ := this
    have en : g.n = p.sendOrd + 1 := hn
    have e2 : (({ pr (!b) with addr := a } : Peer c).tryReinit (P.opts b).startTime).1 =
        { pr (!b) with addr := a, sendDate := (P.opts b).startTime } := by
      unfold Peer.tryReinit
      simp only
      split
      · rename_i e; rw [e]
      · rename_i e
        rw [if_pos (by rcases hdate' with e' | e' <;> [omega; exact absurd e'.symm e]),
          if_neg (by rcases hdate' with e' | e' <;> [simp [e']; exact absurd e'.symm e])]
    rw [e2] at hput
    rw [hre.2] at hh
    rw [← en] at hh hput
    have hfr : fresh (P.opts !b) { pr (!b) with sendDate := (P.opts b).startTime } false g.n =
        fresh (P.opts !b) (pr !b) false g.n := by
      rw [fresh_eq, fresh_eq]; rfl
    rw [hfr] at hh
    rw [ep]
    obtain ⟨n1, n2, n3⟩ := noted_fields (P.opts !b)
      ({ pr (!b) with addr := a, sendDate := (P.opts b).startTime } : Peer c) false g.n
    refine ⟨s', noted (P.opts !b) { pr (!b) with addr := a, sendDate := (P.opts b).startTime } false g.n,
      hh, ?_, ?_, ?_, ?_, ?_, ?_, by intro e; rw [hvia] at e; cases e⟩
    · exact hnode.put (by rw [Bool.not_not]; exact hput) n2
    · intro e
      rw [put_channel hput]
      exact e
    · intro prio
      rw [noted_send]
      cases prio <;> rfl
    · exact n1
    · exact .inr n3
    · intro prio
      rw [noted_recv, noted_recv]
      cases prio <;> rfl
  | channel ch pr0 =>
    simp only at hsig
    obtain ⟨hexp, hhas, hne⟩ := hsig
    obtain ⟨i1, i2, -, -⟩ := expected_inn hexp
    cases hB : (σ.node !b).channel (P.id b) with
    | none => exact absurd hB hne
    | some chB =>
      have hB' : (σ.node !b).channel (P.id !(!b)) = some chB := by rw [Bool.not_not]; exact hB
      obtain ⟨j1, j2, j3, j4⟩ := expected_inn (hnode.chan chB hB')
      rw [Bool.not_not] at j4
      obtain ⟨ref, l1, l2⟩ := hnode.listed chB g.prio hB'
      rw [Bool.not_not] at l1
      have hheap : (σ.node !b).heap.get ref = some chB := by
        rw [State.channel, l1] at hB
        exact hB
      have hmir := mirror hc P b
      have this := channel_arrives hc (P.opts b) (P.opts !b) (P.loop b) (P.loop !b) g.sentAt now (P.id !b) p p'
        ch chB pr0 out g.ms r g.data hsend hm hr g.prio hprio
        (by rw [hprio]; exact hver)
        hnow hst hsd (by omega) hcf h1 (σ.node !b) ref (by rw [i2]; exact out_id_length hc P b g.prio)
        (by rw [i2, ← hmir]; exact hP.free (!b) g.prio)
        (by rw [i2, ← hmir]; exact l2) hheap (by rw [i2, ← hmir]; exact j1) (by rw [j4, l1]; rfl)
        (pr !b) (by rw [j3, j4]; have := hnode.peer; simp only [Bool.not_not] at this; exact this) hconf key rand
      obtain ⟨-, s', hh, hput⟩ := this
      rw [← hn] at hh hput
      rw [j3, j4] at hh hput
      obtain ⟨r1, r2⟩ := hnode.setReady hhas (by rw [Bool.not_not]; exact l1) hheap
      obtain ⟨n1, n2, n3⟩ := noted_fields (P.opts !b) (pr !b) g.prio g.n
      refine ⟨s', _, hh, r1.put (by rw [Bool.not_not]; exact hput) n2, ?_, ?_, n1, ?_, fun _ => rfl,
        fun _ => ⟨noted_addr _ _ _ _, _, (put_channel hput _).trans (setReady_channel l1 hheap), rfl⟩⟩
      · intro _
        rw [put_channel hput]
        rw [Bool.not_not] at r2
        exact r2
      · intro prio
        rw [noted_send]
      · rw [n3]; exact hdate'

/-! ### The invariant is kept -/

theorem GramOk.mono {P : Pair c} {σ σ' : Sys c} {pr pr' : Bool → Peer c} {b : Bool} {g : Gram}
    (h : GramOk P σ pr b g)
    (hch : ∀ b, (σ.node b).channel (P.id !b) ≠ none → (σ'.node b).channel (P.id !b) ≠ none)
    (hpr : ∀ b prio, (pr b).sendSeqno prio ≤ (pr' b).sendSeqno prio) : GramOk P σ' pr' b g := by
  refine ⟨Nat.le_trans h.le (hpr b _), ?_, ?_⟩
  · intro m hm
    have := h.honest m hm
    cases m with
    | confirmChannel k pk d => exact ⟨this.1, this.2.1, hch b this.2.2⟩
    | _ => exact this
  · obtain ⟨p, p', signer, out, r, a1, a2, a3, a4, a5, a6, a7, a8, a9, a10, a0, ad, a11, a12, a13⟩ := h.made
    refine ⟨p, p', signer, out, r, a1, a2, a3, a4, a5, a6, a7, a8, a9, a10, a0, ad,
      Nat.le_trans a11 (hpr (!b) _), a12, ?_⟩
    cases signer with
    | random k => exact a13
    | channel ch prio =>
      have := hch (!b)
      rw [Bool.not_not] at this
      exact ⟨a13.1, hch b a13.2.1, this a13.2.2⟩

theorem PeerOk.mono {P : Pair c} {σ σ' : Sys c} {b : Bool} {p : Peer c} (h : PeerOk P σ b p)
    (hnet : ∀ (b : Bool) (i : Nat) (g : Gram), (σ.net b)[i]? = some g → (σ'.net b)[i]? = some g)
    (hseen : σ'.seen (!b) = σ.seen (!b)) : PeerOk P σ' b p := by
  refine ⟨h.pub, h.date, h.small, ?_, ?_⟩
  · intro prio
    obtain ⟨xs, e, hx, hy⟩ := h.hist prio
    refine ⟨xs, e, ?_, ?_⟩
    · intro n hn
      obtain ⟨i, g, a1, a2, a3⟩ := hx n hn
      exact ⟨i, g, hseen ▸ a1, hnet _ _ _ a2, a3⟩
    · intro he i g hi hg hpr
      rw [hseen] at hi
      have := h.arrived i hi
      cases hold : (σ.net !b)[i]? with
      | none => rw [hold] at this; cases this
      | some g0 =>
        have e := hnet _ _ _ hold
        rw [hg] at e
        cases e
        exact hy he i g hi hold hpr
  · intro i hi
    rw [hseen] at hi
    have := h.arrived i hi
    cases hold : (σ.net !b)[i]? with
    | none => rw [hold] at this; cases this
    | some g0 => rw [hnet _ _ _ hold]; rfl

theorem start_inv {P : Pair c} {σ : Sys c} (h : Start P σ) : ∃ pr, Inv P σ pr := by
  choose t addr hp using h.peers
  refine ⟨fun b => Peer.new (t b) (addr b) (c.pubOf (P.sec !b)) (P.chan b), ?_, ?_, ?_, ?_,
    fun b prio => by cases prio <;> exact Nat.zero_le _⟩
  · intro b
    have hn := h.noChannel b
    refine ⟨h.good b, hp b, rfl, ?_, ?_, ?_, by intro ch e; rw [hn] at e; cases e⟩
    · intro ch e; rw [hn] at e; cases e
    · intro ch prio e; rw [hn] at e; cases e
    · intro ch e; rw [hn] at e; cases e
  · intro b
    refine ⟨rfl, .inl rfl, ?_, ?_, by intro i hi; rw [(h.net _).2] at hi; cases hi⟩
    · intro prio
      have : (Peer.new (t b) (addr b) (c.pubOf (P.sec !b)) (P.chan b)).sendSeqno prio = 0 := by
        cases prio <;> rfl
      rw [this]; decide
    · intro prio
      refine ⟨[], ?_, by simp, ?_⟩
      · cases prio <;> rfl
      · intro _ i g hi
        rw [(h.net _).2] at hi
        cases hi
  · intro b g hg
    rw [(h.net b).1] at hg
    cases hg
  · intro b i j g g' hi
    rw [(h.net b).1] at hi
    simp at hi

theorem sendPacket_rec {o : Opts c} {ul : Bool} {now : Nat} {i : Bytes} {p p' : Peer c} {signer : Signer c}
    {out : OutMessages} {r : Rand c} {d : Bytes} (h : sendPacket o ul now i p signer out r = .ok (p', d)) :
    p' = p.setSendSeqno (prioOf p signer) (p.sendSeqno (prioOf p signer) + 1) := by
  unfold sendPacket at h
  cases hadd : addU32 o.build now o.addressListTimeout with
  | none => rw [hadd] at h; cases h
  | some e =>
    rw [hadd] at h
    cases signer <;> · simp only [Except.ok.injEq, Prod.mk.injEq] at h; exact h.1.symm

theorem bool_cases (b b' : Bool) : b' = b ∨ b' = !b := by cases b <;> cases b' <;> simp

theorem send_inv {P : Pair c} {σ : Sys c} {pr : Bool → Peer c} (h : Inv P σ pr) (b : Bool) (now : Nat)
    (p p' : Peer c) (signer : Signer c) (out : OutMessages) (ms : List Message) (r : Rand c) (d : Bytes)
    (hp : (σ.node b).peer (P.id b) (P.id !b) = some p) (hs : SignerFits P σ b signer)
    (hm : Carries out ms) (hraw : (rawOf out).length ≤ 60000)
    (hh : ∀ m ∈ ms, Honest P b ((σ.node b).channel (P.id !b) ≠ none) m)
    (hr : r.bytes.length = 10) (hnow : now + (P.opts b).addressListTimeout < 2 ^ 32)
    (h64 : p.sendSeqno (prioOf p signer) + 1 < 2 ^ 64)
    (hsend : sendPacket (P.opts b) (P.loop b) now (P.id !b) p signer out r = .ok (p', d))
    (hv : VersionFits (P.opts b).version (Accident P b p r d signer)) :
    Inv P { σ with
        node := upd σ.node b ((σ.node b).setPeer (P.id b) (P.id !b) p')
        net := upd σ.net b (σ.net b ++
          [⟨d, now, ms, prioOf p signer, p.sendSeqno (prioOf p signer) + 1, isChannel signer, P.target b p⟩]) } (upd pr b p') := by
  have hpp : p = pr b := by
    have := (h.node b).peer
    rw [hp] at this
    cases this
    rfl
  have hrec := sendPacket_rec hsend
  have hput := Put.setPeer hp p'
  have hchan : ∀ b' x, (upd σ.node b ((σ.node b).setPeer (P.id b) (P.id !b) p') b').channel x =
      (σ.node b').channel x := by
    intro b' x
    rcases bool_cases b b' with rfl | rfl
    · rw [upd_self]; exact put_channel hput x
    · rw [upd_not]
  have hcount : ∀ b' prio, (pr b').sendSeqno prio ≤ (upd pr b p' b').sendSeqno prio := by
    intro b' prio
    rcases bool_cases b b' with rfl | rfl
    · rw [upd_self, hrec, ← hpp]
      cases hpo : prioOf p signer <;> cases prio <;> simp [Peer.setSendSeqno, Peer.sendSeqno]
    · rw [upd_not]
  have hfld : p'.pub = p.pub ∧ p'.channelKey = p.channelKey ∧ p'.sendDate = p.sendDate ∧
      ∀ prio, p'.recvHist prio = p.recvHist prio := by
    rw [hrec]
    cases prioOf p signer <;> exact ⟨rfl, rfl, rfl, fun _ => rfl⟩
  have hnet : ∀ (b' : Bool) (i : Nat) (g : Gram), (σ.net b')[i]? = some g →
      (upd σ.net b (σ.net b ++
          [⟨d, now, ms, prioOf p signer, p.sendSeqno (prioOf p signer) + 1, isChannel signer, P.target b p⟩]) b')[i]? = some g := by
    intro b' i g hi
    rcases bool_cases b b' with rfl | rfl
    · rw [upd_self]
      rw [List.getElem?_append_left]
      · exact hi
      · exact (List.getElem?_eq_some_iff.mp hi).1
    · rw [upd_not]; exact hi
  have hpeer' : PeerOk P σ b p' := by
    have hb := h.peer b
    rw [← hpp] at hb
    refine ⟨hfld.1.trans hb.pub, by rw [hfld.2.2.1]; exact hb.date, ?_, ?_, hb.arrived⟩
    · intro prio
      have := hb.small prio
      rw [hrec]
      revert h64 this
      cases hpo : prioOf p signer <;> cases prio <;> simp [Peer.setSendSeqno, Peer.sendSeqno] <;> omega
    · intro prio
      rw [hfld.2.2.2]
      exact hb.hist prio
  have hfew : ∀ b' prio, (upd pr b p' b').sendSeqno prio ≤ (upd σ.net b (σ.net b ++
      [⟨d, now, ms, prioOf p signer, p.sendSeqno (prioOf p signer) + 1, isChannel signer, P.target b p⟩]) b').length := by
    intro b' prio
    have hb := h.few b'
    rcases bool_cases b b' with rfl | rfl
    · rw [← hpp] at hb
      have h0 := hb false
      have h1 := hb true
      simp only [upd_self, List.length_append, List.length_cons, List.length_nil]
      rw [hrec]
      revert h0 h1
      cases hpo : prioOf p signer <;> cases prio <;> simp [Peer.setSendSeqno, Peer.sendSeqno] <;> omega
    · simp only [upd_not]; exact hb prio
  refine ⟨?_, ?_, ?_, ?_, hfew⟩
  · intro b'
    rw [hchan]
    rcases bool_cases b b' with rfl | rfl
    · simp only [upd_self]
      exact ((hpp ▸ h.node b' : NodeOk P b' (σ.node b') p _)).put hput hfld.2.1
    · simp only [upd_not]
      exact h.node _
  · intro b'
    rcases bool_cases b b' with rfl | rfl
    · rw [upd_self]
      exact hpeer'.mono hnet rfl
    · rw [upd_not]
      exact (h.peer _).mono hnet rfl
  · intro b' g hg
    have old : g ∈ σ.net b' → GramOk P { σ with
        node := upd σ.node b ((σ.node b).setPeer (P.id b) (P.id !b) p')
        net := upd σ.net b (σ.net b ++
          [⟨d, now, ms, prioOf p signer, p.sendSeqno (prioOf p signer) + 1, isChannel signer, P.target b p⟩]) } (upd pr b p') b' g := by
      intro hg
      refine (h.gram b' g hg).mono ?_ hcount
      intro b'' hne
      rw [hchan]
      exact hne
    rcases bool_cases b b' with rfl | rfl
    · simp only [upd_self, List.mem_append, List.mem_singleton] at hg
      rcases hg with hg | rfl
      · exact old hg
      · have hb := h.peer b'
        rw [← hpp] at hb
        refine ⟨?_, ?_, p, p', signer, out, r, hsend, hb.pub, hb.date, hm, hraw, hr, hnow, rfl, rfl, h64,
          rfl, rfl, ?_, hv, ?_⟩
        · rw [upd_self, hrec]
          cases hpo : prioOf p signer <;> simp [Peer.setSendSeqno, Peer.sendSeqno]
        · intro m hm
          rw [hchan]
          exact hh m hm
        · rw [upd_not]
          obtain ⟨xs, e, hx, -⟩ := hb.hist (prioOf p signer)
          show (p.recvHist (prioOf p signer)).seqno ≤ _
          rw [e, C02_seqno_is_max]
          have hb : ∀ (l : List Nat) (a m : Nat), a ≤ m → (∀ n ∈ l, n ≤ m) → l.foldl max a ≤ m := by
            intro l
            induction l with
            | nil => intro a m ha _; exact ha
            | cons x l ih =>
              intro a m ha hl
              exact ih _ m (Nat.max_le.mpr ⟨ha, hl x (by simp)⟩) (fun n hn => hl n (by simp [hn]))
          refine hb xs 0 _ (Nat.zero_le _) ?_
          intro n hn
          obtain ⟨i, g, -, a2, a3, a4⟩ := hx n hn
          have := (h.gram _ g (List.mem_of_getElem? a2)).le
          rw [a3, a4] at this
          exact this
        · cases signer with
          | random k => exact hs
          | channel ch prio =>
            have hch := (h.node b').chan ch hs.1
            refine ⟨hch, ?_, ?_⟩
            · rw [hchan, hs.1]; simp
            · rw [hchan]
              exact (h.node b').ready ch hs.1 hs.2
    · simp only [upd_not] at hg
      exact old hg
  · intro b' i j g g' hi hj hprio hn
    rcases bool_cases b b' with rfl | rfl
    · simp only [upd_self] at hi hj
      have hlt : ∀ (i : Nat) (g : Gram), (σ.net b')[i]? = some g → g.prio = prioOf p signer →
          g.n < p.sendSeqno (prioOf p signer) + 1 := by
        intro i g hi hpr
        have := (h.gram b' g (List.mem_of_getElem? hi)).le
        rw [hpr, ← hpp] at this
        omega
      rw [List.getElem?_append] at hi hj
      split at hi
      · split at hj
        · exact h.apart b' i j g g' hi hj hprio hn
        · rename_i hj'
          have e : g' = ⟨d, now, ms, prioOf p signer, p.sendSeqno (prioOf p signer) + 1, isChannel signer, P.target b' p⟩ := by
            rw [List.getElem?_singleton] at hj
            split at hj
            · exact (Option.some.inj hj).symm
            · cases hj
          subst e
          have := hlt i g hi hprio
          simp only at hn
          omega
      · rename_i hi'
        have e : g = ⟨d, now, ms, prioOf p signer, p.sendSeqno (prioOf p signer) + 1, isChannel signer, P.target b' p⟩ := by
          rw [List.getElem?_singleton] at hi
          split at hi
          · exact (Option.some.inj hi).symm
          · cases hi
        have ei : i = (σ.net b').length := by
          rw [List.getElem?_singleton] at hi
          split at hi
          · omega
          · cases hi
        split at hj
        · subst e
          have := hlt j g' hj hprio.symm
          simp only at hn
          omega
        · have ej : j = (σ.net b').length := by
            rw [List.getElem?_singleton] at hj
            split at hj
            · omega
            · cases hj
          omega
    · simp only [upd_not] at hi hj
      exact h.apart _ i j g g' hi hj hprio hn

theorem run_append (h : PacketsHistory.Hist) (xs : List Nat) (n : Nat) :
    PacketsHistory.run h (xs ++ [n]) = (PacketsHistory.deliver (PacketsHistory.run h xs) n).1 := by
  simp [PacketsHistory.run]

theorem deliver_inv (hc : c.Lawful) {P : Pair c} (hP : P.Fits) {σ : Sys c} {pr : Bool → Peer c}
    (h : Inv P σ pr) (b : Bool) (i : Nat) (g : Gram) (now : Nat) (key : c.Sec) (rand : Nat → Rand c)
    (hi : (σ.net b)[i]? = some g)
    (h1 : now + (P.opts !b).clockTolerance < 2 ^ 32)
    (h2 : (P.opts b).startTime ≤ now + (P.opts !b).clockTolerance)
    (h3 : now ≤ g.sentAt + (P.opts b).addressListTimeout) :
    ∃ pr', Inv P { σ with
        node := upd σ.node (!b) (arrive (P.opts !b) (P.loop !b) now (σ.node !b) g.data key rand)
        seen := upd σ.seen b (i :: σ.seen b) } pr' := by
  have hg := List.mem_of_getElem? hi
  obtain ⟨s', q', hh, n1, n2, n3, n4, n5, n6, -⟩ := arrives hc hP h b g hg now h1 h2 h3 key rand
  -- the node after processing
  have harr : NodeOk P (!b) (arrive (P.opts !b) (P.loop !b) now (σ.node !b) g.data key rand) q'
      ((σ.node b).channel (P.id !b) ≠ none) ∧
      ((σ.node !b).channel (P.id b) ≠ none →
        (arrive (P.opts !b) (P.loop !b) now (σ.node !b) g.data key rand).channel (P.id b) ≠ none) := by
    unfold arrive
    rw [hh]
    by_cases hf : fresh (P.opts !b) (pr !b) g.prio g.n = true
    · rw [if_pos hf]
      simp only
      have := absorbAll_ok hc hP (b := !b) g.ms s' n1 (by rw [Bool.not_not]; exact (h.gram b g hg).honest)
      rw [Bool.not_not] at this
      exact ⟨this.1, fun x => this.2 (n2 x)⟩
    · rw [if_neg hf]
      exact ⟨n1, n2⟩
  obtain ⟨g1, g2⟩ := harr
  generalize arrive (P.opts !b) (P.loop !b) now (σ.node !b) g.data key rand = s'' at g1 g2 ⊢
  have hcount : ∀ b' prio, (pr b').sendSeqno prio ≤ (upd pr (!b) q' b').sendSeqno prio := by
    intro b' prio
    rcases bool_cases b b' with rfl | rfl
    · rw [upd_not']
    · rw [upd_self, n3]
  have hch : ∀ b', (σ.node b').channel (P.id !b') ≠ none →
      (upd σ.node (!b) s'' b').channel (P.id !b') ≠ none := by
    intro b' hne
    rcases bool_cases b b' with rfl | rfl
    · rw [upd_not']; exact hne
    · rw [upd_self, Bool.not_not]
      rw [Bool.not_not] at hne
      exact g2 hne
  have hfew : ∀ b' prio, (upd pr (!b) q' b').sendSeqno prio ≤ (σ.net b').length := by
    intro b' prio
    rcases bool_cases b b' with rfl | rfl
    · rw [upd_not']; exact h.few _ prio
    · rw [upd_self, n3]; exact h.few _ prio
  refine ⟨upd pr (!b) q', ?_, ?_, ?_, ?_, hfew⟩
  · intro b'
    rcases bool_cases b b' with rfl | rfl
    · simp only [upd_not', upd_self]
      have hn := h.node b'
      exact ⟨hn.good, hn.peer, hn.key, hn.chan, hn.listed, fun ch e er => g2 (hn.ready ch e er), hn.date⟩
    · simp only [upd_self, Bool.not_not, upd_not']
      exact g1
  · intro b'
    rcases bool_cases b b' with rfl | rfl
    · simp only [upd_not']
      exact (h.peer b').mono (fun _ _ _ => id) (by simp only [upd_not])
    · simp only [upd_self]
      have hq := h.peer (!b)
      refine ⟨n4.trans hq.pub, by rw [Bool.not_not]; exact n5, ?_, ?_, ?_⟩
      · intro prio; rw [n3]; exact hq.small prio
      · intro prio
        rw [n6, noted_recv]
        obtain ⟨xs, e, hx, hy⟩ := hq.hist prio
        simp only [Bool.not_not, upd_self, List.mem_cons] at hx hy ⊢
        by_cases hcond : (P.opts !b).historyEnabled = true ∧ prio = g.prio
        · rw [if_pos hcond]
          obtain ⟨hen, rfl⟩ := hcond
          refine ⟨xs ++ [g.n], ?_, ?_, ?_⟩
          · rw [run_append, e]
          · intro n hn
            rcases List.mem_append.mp hn with hn | hn
            · obtain ⟨j, g', a1, a2⟩ := hx n hn
              exact ⟨j, g', .inr a1, a2⟩
            · simp only [List.mem_singleton] at hn
              exact ⟨i, g, .inl rfl, hi, rfl, hn.symm⟩
          · intro _ j g' hj hg' hpr
            rw [List.mem_append]
            rcases hj with rfl | hj
            · rw [hi] at hg'
              cases hg'
              exact .inr (by simp)
            · exact .inl (hy hen j g' hj hg' hpr)
        · rw [if_neg hcond]
          refine ⟨xs, e, ?_, ?_⟩
          · intro n hn
            obtain ⟨j, g', a1, a2⟩ := hx n hn
            exact ⟨j, g', .inr a1, a2⟩
          · intro hen j g' hj hg' hpr
            rcases hj with rfl | hj
            · rw [hi] at hg'
              cases hg'
              exact absurd ⟨hen, hpr.symm⟩ hcond
            · exact hy hen j g' hj hg' hpr
      · intro j hj
        simp only [Bool.not_not, upd_self, List.mem_cons] at hj ⊢
        rcases hj with rfl | hj
        · rw [hi]; rfl
        · have := hq.arrived j
          rw [Bool.not_not] at this
          exact this hj
  · intro b' g' hg'
    exact (h.gram b' g' hg').mono hch hcount
  · exact h.apart

theorem other_inv {P : Pair c} {σ : Sys c} {pr : Bool → Peer c} (h : Inv P σ pr) (b : Bool) (s' : State c)
    (hu : Undisturbed P b (σ.node b) s') : Inv P { σ with node := upd σ.node b s' } pr := by
  have hchan : ∀ b', (upd σ.node b s' b').channel (P.id !b') = (σ.node b').channel (P.id !b') := by
    intro b'
    rcases bool_cases b b' with rfl | rfl
    · rw [upd_self]; exact hu.channel
    · rw [upd_not]
  refine ⟨?_, ?_, ?_, h.apart, h.few⟩
  · intro b'
    have hco := hchan (!b')
    rw [Bool.not_not] at hco
    rw [hco]
    rcases bool_cases b b' with rfl | rfl
    · simp only [upd_self]
      have hn := h.node b'
      refine ⟨hu.good, by rw [hu.peer]; exact hn.peer, hn.key, ?_, ?_, ?_,
        by intro ch e; rw [hu.channel] at e; exact hn.date ch e⟩
      · intro ch e; rw [hu.channel] at e; exact hn.chan ch e
      · intro ch prio e
        rw [hu.channel] at e
        rw [hu.byPeer, hu.byId]
        exact hn.listed ch prio e
      · intro ch e; rw [hu.channel] at e; exact hn.ready ch e
    · simp only [upd_not]
      exact h.node _
  · intro b'
    exact (h.peer b').mono (fun _ _ _ => id) rfl
  · intro b' g hg
    refine (h.gram b' g hg).mono ?_ (fun _ _ => Nat.le_refl _)
    intro b'' hne
    rw [hchan]
    exact hne

theorem reachable_inv (hc : c.Lawful) {P : Pair c} (hP : P.Fits) {σ : Sys c} (h : Reachable P σ) :
    ∃ pr, Inv P σ pr := by
  induction h with
  | start σ h0 => exact start_inv h0
  | step σ σ' _ hs ih =>
    obtain ⟨pr, ih⟩ := ih
    cases hs with
    | send b now p p' signer out ms r d a1 a2 a3 a4 a5 a6 a7 a8 a9 a10 =>
      exact ⟨_, send_inv ih b now p p' signer out ms r d a1 a2 a3 a4 a5 a6 a7 a8 a9 a10⟩
    | deliver b i g now key rand a1 a2 a3 a4 =>
      exact deliver_inv hc hP ih b i g now key rand a1 a2 a3 a4
    | other b s' a1 => exact ⟨pr, other_inv ih b s' a1⟩

/-! ### C70 -/

/-- C70: the first copy of every datagram that arrives is accepted, attributed to its sender, and its
messages are the ones that were sent. -/
theorem C70_first_copy_accepted (hc : c.Lawful) (P : Pair c) (hP : P.Fits) (σ : Sys c) (h : Reachable P σ)
    (b : Bool) (i : Nat) (g : Gram) (hi : (σ.net b)[i]? = some g) (hnew : i ∉ σ.seen b) (now : Nat)
    (h1 : now + (P.opts !b).clockTolerance < 2 ^ 32)
    (h2 : (P.opts b).startTime ≤ now + (P.opts !b).clockTolerance)
    (h3 : now ≤ g.sentAt + (P.opts b).addressListTimeout) (key : c.Sec) (rand : Nat → Rand c) :
    (handle (P.opts !b) (P.loop !b) now (σ.node !b) g.data key rand).2 =
      (.accepted (P.id !b) (P.id b) g.prio g.ms, []) := by
  obtain ⟨pr, hinv⟩ := reachable_inv hc hP h
  obtain ⟨s', q', hh, -⟩ := arrives hc hP hinv b g (List.mem_of_getElem? hi) now h1 h2 h3 key rand
  rw [hh, if_pos]
  rw [fresh_eq]
  split
  · obtain ⟨xs, e, hx, -⟩ := (hinv.peer (!b)).hist g.prio
    rw [e]
    refine C02_fresh_number_accepted xs g.n ?_
    intro hn
    obtain ⟨j, g', a1, a2, a3, a4⟩ := hx g.n hn
    rw [Bool.not_not] at a1 a2
    have := hinv.apart b j i g' g a2 hi a3 a4
    subst this
    exact hnew a1
  · rfl

/-- C70: a later copy is accepted as well or dropped as a duplicate; it is never an error and never
answered. -/
theorem C70_later_copies (hc : c.Lawful) (P : Pair c) (hP : P.Fits) (σ : Sys c) (h : Reachable P σ)
    (b : Bool) (i : Nat) (g : Gram) (hi : (σ.net b)[i]? = some g) (now : Nat)
    (h1 : now + (P.opts !b).clockTolerance < 2 ^ 32)
    (h2 : (P.opts b).startTime ≤ now + (P.opts !b).clockTolerance)
    (h3 : now ≤ g.sentAt + (P.opts b).addressListTimeout) (key : c.Sec) (rand : Nat → Rand c) :
    (handle (P.opts !b) (P.loop !b) now (σ.node !b) g.data key rand).2 =
      (.accepted (P.id !b) (P.id b) g.prio g.ms, []) ∨
    (handle (P.opts !b) (P.loop !b) now (σ.node !b) g.data key rand).2 = (.duplicate, []) := by
  obtain ⟨pr, hinv⟩ := reachable_inv hc hP h
  obtain ⟨s', q', hh, -⟩ := arrives hc hP hinv b g (List.mem_of_getElem? hi) now h1 h2 h3 key rand
  rw [hh]
  by_cases hf : fresh (P.opts !b) (pr !b) g.prio g.n = true
  · rw [if_pos hf]; exact .inl rfl
  · rw [if_neg hf]; exact .inr rfl

/-- C70: with packet history switched on, and as long as the numbers of the direction and priority stay
below 256, a datagram that has arrived is dropped whenever it arrives again. (Numbers from 256 on are
accepted every time: C01.) -/
theorem C70_copy_dropped_below_256 (hc : c.Lawful) (P : Pair c) (hP : P.Fits) (σ : Sys c)
    (h : Reachable P σ) (b : Bool) (hen : (P.opts !b).historyEnabled = true) (i : Nat) (g : Gram)
    (hi : (σ.net b)[i]? = some g) (hseen : i ∈ σ.seen b)
    (hsmall : ∀ g' ∈ σ.net b, g'.prio = g.prio → g'.n < 256) (now : Nat)
    (h1 : now + (P.opts !b).clockTolerance < 2 ^ 32)
    (h2 : (P.opts b).startTime ≤ now + (P.opts !b).clockTolerance)
    (h3 : now ≤ g.sentAt + (P.opts b).addressListTimeout) (key : c.Sec) (rand : Nat → Rand c) :
    (handle (P.opts !b) (P.loop !b) now (σ.node !b) g.data key rand).2 = (.duplicate, []) := by
  obtain ⟨pr, hinv⟩ := reachable_inv hc hP h
  obtain ⟨s', q', hh, -⟩ := arrives hc hP hinv b g (List.mem_of_getElem? hi) now h1 h2 h3 key rand
  have hf : fresh (P.opts !b) (pr !b) g.prio g.n = false := by
    rw [fresh_eq, if_pos hen]
    obtain ⟨xs, e, hx, hy⟩ := (hinv.peer (!b)).hist g.prio
    rw [Bool.not_not] at hx hy
    rw [e]
    refine C01_no_replay_partial xs g.n ?_ (hy hen i g hseen hi rfl)
    intro n hn
    obtain ⟨j, g', -, a2, a3, a4⟩ := hx n hn
    rw [← a4]
    exact hsmall g' (List.mem_of_getElem? a2) a3
  rw [hh, hf]
  rfl

/-- C70: a packet that came through the channel makes the receiver's end of it ready, so from then on
the receiver uses it as well. -/
theorem C70_channel_packet_makes_ready (hc : c.Lawful) (P : Pair c) (hP : P.Fits) (σ : Sys c)
    (h : Reachable P σ) (b : Bool) (i : Nat) (g : Gram) (hi : (σ.net b)[i]? = some g)
    (hvia : g.viaChannel = true) (now : Nat)
    (h1 : now + (P.opts !b).clockTolerance < 2 ^ 32)
    (h2 : (P.opts b).startTime ≤ now + (P.opts !b).clockTolerance)
    (h3 : now ≤ g.sentAt + (P.opts b).addressListTimeout) (key : c.Sec) (rand : Nat → Rand c) :
    ∃ ch, (handle (P.opts !b) (P.loop !b) now (σ.node !b) g.data key rand).1.channel (P.id b) = some ch ∧
      ch.ready = true := by
  obtain ⟨pr, hinv⟩ := reachable_inv hc hP h
  obtain ⟨s', q', hh, -, -, -, -, -, -, hr⟩ :=
    arrives hc hP hinv b g (List.mem_of_getElem? hi) now h1 h2 h3 key rand
  rw [hh]
  exact (hr hvia).2

/-! ### The hypotheses can be met -/

/-- Two toy nodes with the keys 3 and 5 and the channel keys 7 and 9. -/
def toyPair : Pair Crypto.toy where
  opts b := { toyOpts with
    startTime := if b then 110 else 100
    socketAddr := ⟨1, 2, 3, if b then 4 else 5, 5⟩
    keys := fun i => if i = shortId Crypto.toy (show UInt8 from if b then 5 else 3)
      then some (show UInt8 from if b then 5 else 3) else none }
  loop _ := false
  sec b := show UInt8 from if b then 5 else 3
  chan b := show UInt8 from if b then 9 else 7

theorem toyPair_fits : toyPair.Fits where
  start := by decide
  key b := by simp only [toyPair, Pair.id]; exact if_pos rfl
  free := by decide +kernel
  split := by decide +kernel

def toyNode (b : Bool) : State Crypto.toy where
  peers := [(toyPair.id b, [(toyPair.id !b,
    Peer.new 120 ⟨1, 2, 3, if b then 5 else 4, 5⟩ (toyPair.sec !b) (toyPair.chan b))])]
  heap := []
  next := 0
  byPeer := []
  byId := []

def toySys : Sys Crypto.toy := ⟨toyNode, fun _ => [], fun _ => []⟩

theorem toy_start : Start toyPair toySys where
  good _ := { live := by intro _ _ h; cases h
              bound := by intro _ _ h; cases h
              listed := by intro _ _ _ h; cases h }
  noChannel _ := rfl
  peers b := ⟨120, ⟨1, 2, 3, if b then 5 else 4, 5⟩, by
    simp [toySys, toyNode, State.peer, AMap.get]; rfl⟩
  net _ := ⟨rfl, rfl⟩

/-- The first node sends a channel request and a query in a handshake packet: a reachable state with a
datagram that has not arrived yet. It is accepted (theorem above); after it has arrived it is dropped. -/
def toyOut : OutMessages :=
  .pair (writeMessage (.createChannel (leBytes 32 7) 130) ++
    writeMessage (.query (List.replicate 32 4) (List.replicate 8 5)))

def toyPeer : Peer Crypto.toy := Peer.new 120 ⟨1, 2, 3, 4, 5⟩ (show UInt8 from 5) (show UInt8 from 7)

example : ∃ σ g, Reachable toyPair σ ∧ (σ.net false)[0]? = some g ∧ 0 ∉ σ.seen false ∧
    g.ms = [.createChannel (leBytes 32 7) 130, .query (List.replicate 32 4) (List.replicate 8 5)] ∧
    (handle (toyPair.opts true) false 140 (σ.node true) g.data (show UInt8 from 1) toyRand).2 =
      (.accepted (toyPair.id true) (toyPair.id false) false g.ms, []) := by
  cases hs : sendPacket (toyPair.opts false) false 130 (toyPair.id true) toyPeer
    (.random (show UInt8 from 3)) toyOut ⟨leBytes 10 1, (show UInt8 from 11)⟩ with
  | error e => cases hs
  | ok r =>
    obtain ⟨p', d⟩ := r
    have hstep := Step.send (P := toyPair) toySys false 130 toyPeer p' (.random (show UInt8 from 3)) toyOut
      [.createChannel (leBytes 32 7) 130, .query (List.replicate 32 4) (List.replicate 8 5)]
      ⟨leBytes 10 1, (show UInt8 from 11)⟩ d
      (by simp [toySys, toyNode, State.peer, AMap.get]; rfl) rfl
      ⟨_, _, rfl, rfl, by simp [Message.wf], by simp [Message.wf]⟩ (by decide +kernel)
      (by intro m hm; simp only [List.mem_cons, List.not_mem_nil, or_false] at hm
          rcases hm with rfl | rfl
          · exact ⟨rfl, by decide⟩
          · trivial)
      (by decide) (by decide) (by decide) hs (.inl rfl)
    refine ⟨_, _, .step _ _ (.start _ toy_start) hstep, rfl, by simp [toySys], rfl, ?_⟩
    exact C70_first_copy_accepted Crypto.toy_lawful toyPair toyPair_fits _
      (.step _ _ (.start _ toy_start) hstep) false 0 _ rfl (by simp [toySys]) 140 (by decide) (by decide)
      (show 140 ≤ 130 + 1000 by decide) _ _

end Verif.Delivery
