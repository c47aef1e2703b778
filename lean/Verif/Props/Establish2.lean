import Verif.Props.Establish

/-!
# C16: two nodes establishing a channel

Both nodes know each other and keep their channel keys (no `reset_peer`). The network may lose, delay,
reorder and duplicate what was sent. A packet carries either the channel message of
`Sender.additional`, or nothing of interest inside an established channel.
-/
namespace Verif.Establish
open Verif.Adnl Verif.AdnlProto Verif.Address Verif.Node Verif.Process

variable {c : Crypto}

/-- What a packet brings to the other side. -/
inductive Item where
  | msg (m : Message)
  | viaChannel

/-- The two sides `false` and `true`: ids and channel keys. -/
structure Ends (c : Crypto) where
  id : Bool → Bytes
  key : Bool → c.Sec

/-- Nodes, and everything each side has sent so far. -/
structure Sys (c : Crypto) where
  node : Bool → State c
  net : Bool → List Item

def upd {α : Type} (f : Bool → α) (b : Bool) (v : α) : Bool → α := fun x => if x = b then v else f x

@[simp] theorem upd_self {α : Type} (f : Bool → α) (b : Bool) (v : α) : upd f b v b = v := by simp [upd]
@[simp] theorem upd_not {α : Type} (f : Bool → α) (b : Bool) (v : α) : upd f b v (!b) = f (!b) := by
  cases b <;> simp [upd]
@[simp] theorem upd_not' {α : Type} (f : Bool → α) (b : Bool) (v : α) : upd f (!b) v b = f b := by
  cases b <;> simp [upd]

/-- The interesting part of a packet. -/
def itemOf : Option (Nat × Message) → Item
  | some (_, m) => .msg m
  | none => .viaChannel

/-- Side `b` sends something (sender.rs:79-122). -/
def sendItem (E : Ends c) (σ : Sys c) (b : Bool) (now : Nat) : Sys c :=
  match (σ.node b).peer (E.id b) (E.id !b) with
  | none => σ
  | some p =>
    let it := itemOf (Sender.additional now p ((σ.node b).channel (E.id !b)))
    { σ with net := upd σ.net b (it :: σ.net b) }

/-- The effect of an item on the receiving node: channel messages are processed; a packet that can be
opened with the channel makes it ready (receiver.rs:115-139, 268-281). -/
def applyItem (s : State c) (l q : Bytes) : Item → State c
  | .msg (.createChannel key date) => (channelMessage s l q key date .create).1
  | .msg (.confirmChannel key _ date) => (channelMessage s l q key date .confirm).1
  | .msg _ => s
  | .viaChannel =>
    match s.byPeer.get q with
    | some r => s.setReady r
    | none => s

inductive SysOp where
  | send (b : Bool) (now : Nat)
  /-- item number `i` of side `b` reaches the other side (possibly once more) -/
  | deliver (b : Bool) (i : Nat)

def sysStep (E : Ends c) (σ : Sys c) : SysOp → Sys c
  | .send b now => sendItem E σ b now
  | .deliver b i =>
    match (σ.net b)[i]? with
    | none => σ
    | some it => { σ with node := upd σ.node (!b) (applyItem (σ.node !b) (E.id !b) (E.id b) it) }

def sysRun (E : Ends c) (σ : Sys c) (ops : List SysOp) : Sys c := ops.foldl (sysStep E) σ

/-- Start: the nodes know each other, there are no channels and nothing was sent. -/
structure Start (E : Ends c) (σ : Sys c) : Prop where
  noChannels : ∀ b, NoChannels (σ.node b)
  peers : ∀ b, ∃ p, (σ.node b).peer (E.id b) (E.id !b) = some p ∧ p.channelKey = E.key b
  net : ∀ b, σ.net b = []

/-- The channel side `b` must have, up to date and readiness. -/
def Expected (E : Ends c) (b : Bool) (ch : Channel) : Prop :=
  ∃ d x, ch = { Channel.new c (E.id b) (E.id !b) (E.key b) (c.pubOf (E.key !b)) d x with
    ready := ch.ready }

structure Inv (E : Ends c) (σ : Sys c) : Prop where
  good : ∀ b, Good (σ.node b)
  peers : ∀ b, ∃ p, (σ.node b).peer (E.id b) (E.id !b) = some p ∧ p.channelKey = E.key b
  net : ∀ b it, it ∈ σ.net b →
    (∃ d, it = .msg (.createChannel (c.pubBytes (c.pubOf (E.key b))) d)) ∨
    ((σ.node b).channel (E.id !b) ≠ none ∧
      ((∃ pk d, it = .msg (.confirmChannel (c.pubBytes (c.pubOf (E.key b))) pk d)) ∨
        it = .viaChannel))
  chan : ∀ b ch, (σ.node b).channel (E.id !b) = some ch → Expected E b ch
  ready : ∀ b ch, (σ.node b).channel (E.id !b) = some ch → ch.ready = true →
    (σ.node !b).channel (E.id b) ≠ none

theorem createChannel_peers (s : State c) (l q : Bytes) (key : c.Pub) (date : Nat) (x : Ctx) :
    (createChannel s l q key date x).1.peers = s.peers := by
  have hr : ∀ r, (s.setReady r).peers = s.peers := by
    intro r; unfold State.setReady; split <;> rfl
  have hd : ∀ q, (dropChannel s q).peers = s.peers := by
    intro q; unfold dropChannel; split
    · rfl
    · split <;> rfl
  unfold createChannel
  split
  · rfl
  split
  · rfl
  simp only
  split
  · split
    · rfl
    split
    · simp only
      split
      · exact hr _
      · rfl
    · exact hd _
  · rfl

theorem createChannel_first {s : State c} {l q : Bytes} {key : c.Pub} {date : Nat} {x : Ctx} {p : Peer c}
    (hg : Good s) (hp : s.peer l q = some p) (h : s.channel q = none) :
    (createChannel s l q key date x).1.channel q = some (Channel.new c l q p.channelKey key date x) := by
  have hn : s.byPeer.get q = none := by
    unfold State.channel at h
    cases hq : s.byPeer.get q with
    | none => rfl
    | some r =>
      obtain ⟨c1, f1, -⟩ := hg.live q r hq
      rw [hq] at h
      simp only [f1] at h
      cases h
  unfold State.peer at hp
  unfold createChannel
  cases hl : s.peers.get l with
  | none => rw [hl] at hp; cases hp
  | some t =>
    rw [hl] at hp
    simp only at hp
    simp only [hp, hn]
    simp [State.channel, insertChannel]

/-- What a channel message of the other side does in this setting. -/
theorem message_effect (hc : c.Lawful) {E : Ends c} {s : State c} {b : Bool} {p : Peer c} (hg : Good s)
    (hp : s.peer (E.id b) (E.id !b) = some p) (hk : p.channelKey = E.key b)
    (hch : ∀ ch, s.channel (E.id !b) = some ch → Expected E b ch) (date : Nat) (x : Ctx) :
    let s' := (channelMessage s (E.id b) (E.id !b) (c.pubBytes (c.pubOf (E.key !b))) date x).1
    Good s' ∧ s'.peers = s.peers ∧ ∃ ch', s'.channel (E.id !b) = some ch' ∧ Expected E b ch' ∧
      (ch'.ready = true → x = .confirm ∨ ∃ ch, s.channel (E.id !b) = some ch ∧ ch.ready = true) ∧
      (x = .confirm → ch'.ready = true) := by
  have e : (channelMessage s (E.id b) (E.id !b) (c.pubBytes (c.pubOf (E.key !b))) date x).1 =
      (createChannel s (E.id b) (E.id !b) (c.pubOf (E.key !b)) date x).1 := by
    unfold channelMessage
    rw [hc.decode_pub]
    simp only
    cases hcr : createChannel s (E.id b) (E.id !b) (c.pubOf (E.key !b)) date x with
    | mk s' r => cases r <;> rfl
  simp only [e]
  refine ⟨createChannel_good hg _ _ _ _ _, createChannel_peers _ _ _ _ _ _, ?_⟩
  cases hold : s.channel (E.id !b) with
  | none =>
    refine ⟨_, createChannel_first hg hp hold, ⟨date, x, ?_⟩, ?_, ?_⟩
    · rw [hk]
    · intro h
      left
      simpa [Channel.new] using h
    · intro h
      simp [Channel.new, h]
  | some old =>
    obtain ⟨d0, x0, hold'⟩ := hch old hold
    have hkey : old.peerKey = c.pubBytes (c.pubOf (E.key !b)) := by rw [hold']; rfl
    rcases (C16_replaced_only_by_newer hg (E.id b) (E.id !b) (c.pubOf (E.key !b)) date x old hold).1 with
      g | ⟨hx, -, g⟩ | ⟨hne, -⟩
    · refine ⟨old, g, hch old hold, fun h => .inr ⟨old, rfl, h⟩, ?_⟩
      intro hx
      -- a confirmation for a channel with the same key always makes it ready
      subst hx
      obtain ⟨r, h1, h2⟩ := channel_of hold
      have hv : old.stillValid (c.pubBytes (c.pubOf (E.key !b))) date = true := by
        simp [Channel.stillValid, hkey]
      have : (createChannel s (E.id b) (E.id !b) (c.pubOf (E.key !b)) date .confirm).1.channel (E.id !b) =
          some { old with ready := true } := by
        unfold State.peer at hp
        unfold createChannel
        cases hl : s.peers.get (E.id b) with
        | none => rw [hl] at hp; cases hp
        | some t =>
          rw [hl] at hp
          simp only at hp
          simp only [hp, h1, h2, hv, if_true]
          simp [State.channel, State.setReady, h1, h2]
      rw [g] at this
      simp only [Option.some.injEq] at this
      rw [this]
    · refine ⟨_, g, ⟨d0, x0, ?_⟩, fun _ => .inl hx, fun _ => rfl⟩
      rw [hold']
    · exact absurd hkey hne

theorem setReady_effect {E : Ends c} {s : State c} {b : Bool} (hg : Good s)
    (hch : ∀ ch, s.channel (E.id !b) = some ch → Expected E b ch) :
    let s' := applyItem s (E.id b) (E.id !b) .viaChannel
    Good s' ∧ s'.peers = s.peers ∧ ∀ ch', s'.channel (E.id !b) = some ch' →
      Expected E b ch' ∧ ch'.ready = true ∧ s.channel (E.id !b) ≠ none := by
  simp only [applyItem]
  cases hq : s.byPeer.get (E.id !b) with
  | none =>
    refine ⟨hg, rfl, ?_⟩
    intro ch' h
    obtain ⟨r, h1, -⟩ := channel_of h
    rw [hq] at h1
    cases h1
  | some r =>
    obtain ⟨ch, h1, -⟩ := hg.live _ r hq
    refine ⟨(setReady_tab s r).good hg, by simp [State.setReady, h1], ?_⟩
    intro ch' h
    have hold : s.channel (E.id !b) = some ch := by rw [State.channel, hq]; exact h1
    simp only [State.channel, State.setReady, h1, hq, AMap.get_put, if_true, Option.some.injEq] at h
    subst h
    obtain ⟨d, x, e⟩ := hch ch hold
    refine ⟨⟨d, x, ?_⟩, rfl, by rw [hold]; simp⟩
    rw [e]

theorem applyItem_keeps_channel {E : Ends c} {s : State c} {b : Bool} (it : Item) (hg : Good s)
    (h : s.channel (E.id !b) ≠ none) : (applyItem s (E.id b) (E.id !b) it).channel (E.id !b) ≠ none := by
  cases hold : s.channel (E.id !b) with
  | none => exact absurd hold h
  | some ch =>
    have hmsg : ∀ key date x, (channelMessage s (E.id b) (E.id !b) key date x).1.channel (E.id !b) ≠
        none := by
      intro key date x
      rcases channelMessage_fst s (E.id b) (E.id !b) key date x with e | ⟨pub, -, e⟩
      · rw [e, hold]; simp
      · obtain ⟨ch', h', -⟩ := create_newer hg (E.id b) (E.id !b) pub date x hold
        rw [e, h']; simp
    cases it with
    | msg m => cases m <;> first | exact hmsg _ _ _ | exact h
    | viaChannel =>
      simp only [applyItem]
      split
      · rename_i r _
        obtain ⟨ch', h', -⟩ := tab_newer (setReady_tab s r) hold
        rw [h']; simp
      · exact h

theorem init_inv {E : Ends c} {σ : Sys c} (h : Start E σ) : Inv E σ := by
  have hn : ∀ b, (σ.node b).channel (E.id !b) = none := by
    intro b
    have := (h.noChannels b).2.1
    simp [State.channel, this]
  refine ⟨?_, h.peers, ?_, ?_, ?_⟩
  · intro b
    exact (Reach.init _ (h.noChannels b)).good
  · intro b it hit; rw [h.net b] at hit; cases hit
  · intro b ch hch; rw [hn b] at hch; cases hch
  · intro b ch hch; rw [hn b] at hch; cases hch

theorem step_inv (hc : c.Lawful) {E : Ends c} {σ : Sys c} (h : Inv E σ) (op : SysOp) :
    Inv E (sysStep E σ op) := by
  cases op with
  | send b now =>
    obtain ⟨p, hp, hk⟩ := h.peers b
    simp only [sysStep, sendItem, hp]
    refine ⟨h.good, h.peers, ?_, h.chan, h.ready⟩
    intro b' it hit
    by_cases e : b' = b
    · subst e
      simp only [upd_self, List.mem_cons] at hit
      rcases hit with hit | hit
      · cases hch : (σ.node b').channel (E.id !b') with
        | none =>
          left
          rw [hch] at hit
          exact ⟨now, by rw [hit, ← hk]; rfl⟩
        | some ch =>
          right
          rw [hch] at hit
          refine ⟨by simp, ?_⟩
          by_cases hr : ch.ready = true
          · right
            rw [hit]
            simp [Sender.additional, itemOf, hr]
          · left
            refine ⟨ch.peerKey, ch.peerDate, ?_⟩
            rw [hit]
            simp [Sender.additional, itemOf, hr, hk]
      · exact h.net b' it hit
    · have hb : b' = !b := by cases b <;> cases b' <;> simp_all
      subst hb
      simp only [upd_not] at hit
      exact h.net _ it hit
  | deliver b i =>
    simp only [sysStep]
    cases hi : (σ.net b)[i]? with
    | none => exact h
    | some it =>
      simp only
      have hmem : it ∈ σ.net b := List.mem_of_getElem? hi
      obtain ⟨p, hp, hk⟩ := h.peers (!b)
      have hchan := h.chan (!b)
      have hkeep := applyItem_keeps_channel (E := E) (b := !b) it (h.good (!b))
      simp only [Bool.not_not] at hp hchan hkeep
      -- the effect on the receiving node
      have eff : Good (applyItem (σ.node !b) (E.id !b) (E.id b) it) ∧
          (applyItem (σ.node !b) (E.id !b) (E.id b) it).peers = (σ.node !b).peers ∧
          ∀ ch', (applyItem (σ.node !b) (E.id !b) (E.id b) it).channel (E.id b) = some ch' →
            Expected E (!b) ch' ∧ (ch'.ready = true → (σ.node b).channel (E.id !b) ≠ none) := by
        have hrdy : ∀ ch, (σ.node !b).channel (E.id b) = some ch → ch.ready = true →
            (σ.node b).channel (E.id !b) ≠ none := by
          have := h.ready (!b)
          simpa only [Bool.not_not] using this
        have meff := fun d x => message_effect hc (E := E) (b := !b) (h.good (!b))
          (by simpa only [Bool.not_not] using hp) hk (by simpa only [Bool.not_not] using hchan) d x
        simp only [Bool.not_not] at meff
        rcases h.net b it hmem with ⟨d, rfl⟩ | ⟨hsome, ⟨pk, d, rfl⟩ | rfl⟩
        · obtain ⟨m1, m2, ch1, m3, m4, m5, -⟩ := meff d .create
          refine ⟨m1, m2, ?_⟩
          intro ch' hch'
          simp only [applyItem] at hch'
          rw [m3] at hch'
          cases hch'
          refine ⟨m4, ?_⟩
          intro hr
          rcases m5 hr with e | ⟨ch, e1, e2⟩
          · cases e
          · exact hrdy ch e1 e2
        · obtain ⟨m1, m2, ch1, m3, m4, m5, -⟩ := meff d .confirm
          refine ⟨m1, m2, ?_⟩
          intro ch' hch'
          simp only [applyItem] at hch'
          rw [m3] at hch'
          cases hch'
          exact ⟨m4, fun _ => hsome⟩
        · have seff := setReady_effect (E := E) (b := !b) (h.good (!b))
            (by simpa only [Bool.not_not] using hchan)
          simp only [Bool.not_not] at seff
          obtain ⟨m1, m2, m3⟩ := seff
          refine ⟨m1, m2, ?_⟩
          intro ch' hch'
          exact ⟨(m3 ch' hch').1, fun _ => hsome⟩
      obtain ⟨f1, f2, f3⟩ := eff
      refine ⟨?_, ?_, ?_, ?_, ?_⟩
      · intro b'
        by_cases e : b' = b
        · subst e; simp only [upd_not']; exact h.good _
        · have hb : b' = !b := by cases b <;> cases b' <;> simp_all
          subst hb; simp only [upd_self]; exact f1
      · intro b'
        by_cases e : b' = b
        · subst e; simp only [upd_not']; exact h.peers _
        · have hb : b' = !b := by cases b <;> cases b' <;> simp_all
          subst hb
          refine ⟨p, ?_, hk⟩
          simp only [upd_self, Bool.not_not, State.peer, f2]
          exact hp
      · intro b' it' hit'
        by_cases e : b' = b
        · subst e
          have := h.net b' it' hit'
          simpa only [upd_not'] using this
        · have hb : b' = !b := by cases b <;> cases b' <;> simp_all
          subst hb
          have := h.net _ it' hit'
          simp only [upd_self, Bool.not_not] at this ⊢
          rcases this with g | ⟨g1, g2⟩
          · exact .inl g
          · exact .inr ⟨hkeep g1, g2⟩
      · intro b' ch hch
        by_cases e : b' = b
        · subst e
          simp only [upd_not'] at hch
          exact h.chan _ ch hch
        · have hb : b' = !b := by cases b <;> cases b' <;> simp_all
          subst hb
          simp only [upd_self, Bool.not_not] at hch
          exact (f3 ch hch).1
      · intro b' ch hch hr
        by_cases e : b' = b
        · subst e
          simp only [upd_not', upd_self] at hch ⊢
          exact hkeep (h.ready _ ch hch hr)
        · have hb : b' = !b := by cases b <;> cases b' <;> simp_all
          subst hb
          simp only [upd_self, Bool.not_not, upd_not'] at hch ⊢
          exact (f3 ch hch).2 hr

theorem run_inv (hc : c.Lawful) {E : Ends c} {σ : Sys c} (h : Inv E σ) (ops : List SysOp) :
    Inv E (sysRun E σ ops) := by
  unfold sysRun
  induction ops generalizing σ with
  | nil => exact h
  | cons op ops ih => exact ih (step_inv hc h op)

/-- C16: whatever the order, loss and duplication of the messages, when both sides have a channel the
keys and ids are mirrored: what one side sends the other side listens to, in both directions. -/
theorem C16_both_ends_match (hc : c.Lawful) (E : Ends c) (σ : Sys c) (h0 : Start E σ) (ops : List SysOp)
    (chA chB : Channel) (hA : ((sysRun E σ ops).node false).channel (E.id true) = some chA)
    (hB : ((sysRun E σ ops).node true).channel (E.id false) = some chB) :
    chA.out = chB.inn ∧ chA.inn = chB.out := by
  have h := run_inv hc (init_inv h0) ops
  obtain ⟨d, x, eA⟩ := h.chan false chA hA
  obtain ⟨d', x', eB⟩ := h.chan true chB hB
  rw [eA, eB]
  exact C12_ends_are_mirrored c hc (E.id false) (E.id true) (E.key false) (E.key true) d d' x x'

/-- C16: a side uses its channel for sending (it is ready) only when the other side has the channel
too. -/
theorem C16_ready_only_if_other_side_has_it (hc : c.Lawful) (E : Ends c) (σ : Sys c) (h0 : Start E σ)
    (ops : List SysOp) (b : Bool) (ch : Channel)
    (h : ((sysRun E σ ops).node b).channel (E.id !b) = some ch) (hr : ch.ready = true) :
    ∃ ch', ((sysRun E σ ops).node !b).channel (E.id b) = some ch' ∧ ch.out = ch'.inn := by
  have hi := run_inv hc (init_inv h0) ops
  cases h' : ((sysRun E σ ops).node !b).channel (E.id b) with
  | none => exact absurd h' (hi.ready b ch h hr)
  | some ch' =>
    refine ⟨ch', rfl, ?_⟩
    obtain ⟨d, x, e⟩ := hi.chan b ch h
    have h2 := hi.chan (!b) ch' (by simpa only [Bool.not_not] using h')
    obtain ⟨d', x', e'⟩ := h2
    simp only [Bool.not_not] at e'
    rw [e, e']
    exact (C12_ends_are_mirrored c hc (E.id b) (E.id !b) (E.key b) (E.key !b) d d' x x').1

/-- A send followed by the delivery of what was sent gives the other side a channel; it is ready if
the sender had a channel. -/
theorem send_deliver (hc : c.Lawful) {E : Ends c} {σ : Sys c} (h : Inv E σ) (b : Bool) (now : Nat)
    (hknown : (σ.node b).channel (E.id !b) ≠ none → (σ.node !b).channel (E.id b) ≠ none ∨
      ∀ ch, (σ.node b).channel (E.id !b) = some ch → ch.ready = false) :
    ∃ ch', ((sysRun E σ [.send b now, .deliver b 0]).node !b).channel (E.id b) = some ch' ∧
      ((σ.node b).channel (E.id !b) ≠ none → ch'.ready = true) := by
  obtain ⟨p, hp, hk⟩ := h.peers b
  obtain ⟨p', hp', hk'⟩ := h.peers (!b)
  have hchan := h.chan (!b)
  simp only [Bool.not_not] at hp' hchan
  have meff := fun d x => message_effect hc (E := E) (b := !b) (h.good (!b))
    (by simpa only [Bool.not_not] using hp') hk' (by simpa only [Bool.not_not] using hchan) d x
  simp only [Bool.not_not] at meff
  simp only [sysRun, List.foldl_cons, List.foldl_nil, sysStep, sendItem, hp, upd_self,
    List.getElem?_cons_zero]
  cases hch : (σ.node b).channel (E.id !b) with
  | none =>
    obtain ⟨-, -, ch', m3, -, -, -⟩ := meff now .create
    refine ⟨ch', ?_, fun hx => absurd rfl hx⟩
    simp only [Sender.additional, itemOf, hk, applyItem]
    exact m3
  | some ch =>
    by_cases hr : ch.ready = true
    · simp only [Sender.additional, itemOf, hr, if_true, applyItem]
      rcases hknown (by rw [hch]; simp) with hs | hs
      · cases hs' : (σ.node !b).channel (E.id b) with
        | none => exact absurd hs' hs
        | some ch2 =>
          obtain ⟨r, h1, h2⟩ := channel_of hs'
          refine ⟨{ ch2 with ready := true }, ?_, fun _ => rfl⟩
          simp [State.channel, State.setReady, h1, h2]
      · rw [hs ch hch] at hr
        cases hr
    · obtain ⟨-, -, ch', m3, -, -, m6⟩ := meff ch.peerDate .confirm
      refine ⟨ch', ?_, fun _ => m6 rfl⟩
      simp only [Sender.additional, itemOf, hr, hk, applyItem, Bool.false_eq_true, if_false]
      exact m3

/-- C16: from any state reached by any history, one packet in each direction that gets through leaves
both sides with matching channels, the first sender's being ready; one more packet and both are
ready. -/
theorem C16_exchange_completes (hc : c.Lawful) (E : Ends c) (σ : Sys c) (h0 : Start E σ)
    (ops : List SysOp) (b : Bool) (n1 n2 n3 : Nat) :
    ∃ chA chB,
      ((sysRun E σ (ops ++ [.send b n1, .deliver b 0, .send (!b) n2, .deliver (!b) 0,
        .send b n3, .deliver b 0])).node b).channel (E.id !b) = some chA ∧
      ((sysRun E σ (ops ++ [.send b n1, .deliver b 0, .send (!b) n2, .deliver (!b) 0,
        .send b n3, .deliver b 0])).node !b).channel (E.id b) = some chB ∧
      chA.ready = true ∧ chB.ready = true ∧ chA.out = chB.inn ∧ chA.inn = chB.out := by
  have split : sysRun E σ (ops ++ [.send b n1, .deliver b 0, .send (!b) n2, .deliver (!b) 0,
      .send b n3, .deliver b 0]) =
      sysRun E (sysRun E (sysRun E (sysRun E σ ops) [.send b n1, .deliver b 0])
        [.send (!b) n2, .deliver (!b) 0]) [.send b n3, .deliver b 0] := by
    simp [sysRun]
  rw [split]
  have i0 := run_inv hc (init_inv h0) ops
  generalize sysRun E σ ops = σ0 at *
  have i1 := run_inv hc i0 [.send b n1, .deliver b 0]
  obtain ⟨ch1, g1, -⟩ := send_deliver hc i0 b n1 (by
    intro hne
    cases hch : (σ0.node b).channel (E.id !b) with
    | none => exact absurd hch hne
    | some ch =>
      cases hr : ch.ready with
      | true => exact .inl (i0.ready b ch hch hr)
      | false => right; intro ch' h'; cases h'; exact hr)
  generalize sysRun E σ0 [.send b n1, .deliver b 0] = σ1 at *
  have i2 := run_inv hc i1 [.send (!b) n2, .deliver (!b) 0]
  have s2 := send_deliver hc i1 (!b) n2 (by
    simp only [Bool.not_not]
    intro _
    cases hr : ch1.ready with
    | true =>
      have := i1.ready (!b) ch1 (by simpa only [Bool.not_not] using g1) hr
      exact .inl (by simpa only [Bool.not_not] using this)
    | false => right; intro ch' h'; rw [g1] at h'; cases h'; exact hr)
  simp only [Bool.not_not] at s2
  obtain ⟨ch2, g2, r2⟩ := s2
  have r2 := r2 (by rw [g1]; simp)
  generalize sysRun E σ1 [.send (!b) n2, .deliver (!b) 0] = σ2 at *
  have hother := i2.ready b ch2 g2 r2
  obtain ⟨ch3, g3, r3⟩ := send_deliver hc i2 b n3 (fun _ => .inl hother)
  have r3 := r3 (by rw [g2]; simp)
  have i3 := run_inv hc i2 [.send b n3, .deliver b 0]
  -- the sender's own node does not change in the last exchange
  have same : (sysRun E σ2 [.send b n3, .deliver b 0]).node b = σ2.node b := by
    obtain ⟨p, hp, -⟩ := i2.peers b
    simp [sysRun, sysStep, sendItem, hp]
  refine ⟨ch2, ch3, by rw [same]; exact g2, g3, r2, r3, ?_⟩
  obtain ⟨d, x, e⟩ := i3.chan b ch2 (by rw [same]; exact g2)
  obtain ⟨d', x', e'⟩ := i3.chan (!b) ch3 (by simpa only [Bool.not_not] using g3)
  simp only [Bool.not_not] at e'
  rw [e, e']
  exact C12_ends_are_mirrored c hc (E.id b) (E.id !b) (E.key b) (E.key !b) d d' x x'

/-- Non-vacuity: two toy nodes. -/
def toyEnds : Ends Crypto.toy := ⟨fun b => if b then [2] else [1], fun b => if b then (9 : UInt8) else (4 : UInt8)⟩

def toySys : Sys Crypto.toy :=
  ⟨fun b => ⟨[(toyEnds.id b, [(toyEnds.id !b, Peer.new 100 ⟨1, 2, 3, 4, 5⟩ (7 : UInt8) (toyEnds.key b))])],
    [], 0, [], []⟩, fun _ => []⟩

theorem toy_start : Start toyEnds toySys :=
  ⟨fun _ => ⟨rfl, rfl, rfl⟩, by
    intro b
    cases b <;> exact ⟨_, rfl, rfl⟩, fun _ => rfl⟩

def toyOps : List SysOp := [.send false 100, .deliver false 0, .send true 100, .deliver true 0, .send false 100, .deliver false 0]

-- C16_both_ends_match, C16_ready_only_if_other_side_has_it: after this exchange both sides hold a channel
example : ∃ chA chB : Channel, chA.out = chB.inn ∧ chA.inn = chB.out ∧ chB.ready = true ∧
    ∃ ch', ((sysRun toyEnds toySys toyOps).node !true).channel (toyEnds.id true) = some ch' ∧ chB.out = ch'.inn := by
  have hA : (((sysRun toyEnds toySys toyOps).node false).channel (toyEnds.id true)).isSome = true := by decide +kernel
  have hB : (((sysRun toyEnds toySys toyOps).node true).channel (toyEnds.id false)).map (·.ready) = some true := by
    decide +kernel
  obtain ⟨chA, hA⟩ := Option.isSome_iff_exists.mp hA
  obtain ⟨chB, hB, hr⟩ := Option.map_eq_some_iff.mp hB
  have h := C16_both_ends_match Crypto.toy_lawful toyEnds toySys toy_start toyOps chA chB hA hB
  exact ⟨chA, chB, h.1, h.2, hr,
    C16_ready_only_if_other_side_has_it Crypto.toy_lawful toyEnds toySys toy_start toyOps true chB hB hr⟩

end Verif.Establish
