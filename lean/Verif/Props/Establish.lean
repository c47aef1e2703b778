import Verif.Proofs.Tables
import Verif.Props.Channel
import Verif.Props.Attribution

/-!
# C16: establishing channels
-/
namespace Verif.Establish
open Verif.Adnl Verif.AdnlProto Verif.Address Verif.Node Verif.Process

variable {c : Crypto}

/-! ### Tables of one node over any history -/

/-- Everything that happens to a node. -/
inductive Op (c : Crypto) where
  | recv (now : Nat) (subs : Event → Reply) (data : Bytes) (key : c.Sec) (rand : Nat → Sender.Rand c)
  | send (now : Nat) (l q : Bytes) (m : Message) (priority : Bool) (rand : Nat → Sender.Rand c)
  | add (l q : Bytes) (addr : SockAddr) (pub : c.Pub) (key : c.Sec)
  | remove (l q : Bytes)
  | reset (l q : Bytes) (key : c.Sec)
  | expire (transfer : Bytes)

def step (o : Opts c) (ul : Bool) (s : Full c) : Op c → Full c
  | .recv now subs data key rand => (receive o ul now subs s data key rand).1
  | .send now l q m prio rand =>
    match Sender.sendMessage o ul now s.node l q m prio rand with
    | .ok (p, _) => { s with node := s.node.setPeer l q p }
    | .error _ => s
  | .add l q addr pub key => { s with node := (addPeer o s.node l q addr pub key).1 }
  | .remove l q => { s with node := removePeer s.node l q }
  | .reset l q key => { s with node := resetPeer s.node l q key }
  | .expire t => { s with transfers := Transfer.expire s.transfers t }

def run (o : Opts c) (ul : Bool) (s : Full c) (ops : List (Op c)) : Full c := ops.foldl (step o ul) s

theorem channelMessage_fst (s : State c) (l q key : Bytes) (date : Nat) (x : Ctx) :
    (channelMessage s l q key date x).1 = s ∨
    ∃ pub, c.decodePub key = some pub ∧
      (channelMessage s l q key date x).1 = (createChannel s l q pub date x).1 := by
  unfold channelMessage
  cases hk : c.decodePub key with
  | none => exact .inl rfl
  | some pub =>
    refine .inr ⟨pub, rfl, ?_⟩
    simp only
    cases hc : createChannel s l q pub date x with
    | mk s' r => cases r <;> rfl

/-- A property of node states kept by channel creation and by everything that does not touch the tables
is kept by the processing of a message. -/
theorem processWhole_keeps {P : State c → Prop} (ht : ∀ s s', Tab s s' → P s → P s')
    (hc : ∀ s l q key date x, P s → P (createChannel s l q key date x).1)
    (o : Opts c) (ul : Bool) (now : Nat) (subs : Event → Reply) (s : Full c) (l q : Bytes) (prio : Bool)
    (rand : Nat → Sender.Rand c) (m : Message) (h : P s.node) :
    P (processWhole o ul now subs s l q prio rand m).1.node := by
  have hch : ∀ key date x, P (channelMessage s.node l q key date x).1 := by
    intro key date x
    rcases channelMessage_fst s.node l q key date x with e | ⟨pub, -, e⟩
    · rw [e]; exact h
    · rw [e]; exact hc _ _ _ _ _ _ h
  cases m with
  | answer => exact h
  | custom d => simp only [processWhole]; split <;> exact h
  | confirmChannel => exact hch _ _ _
  | part => exact h
  | createChannel => exact hch _ _ _
  | query id d =>
    simp only [processWhole]
    split
    · exact h
    · exact h
    · split
      · exact h
      · exact ht _ _ (setPeer_tab _ _ _ _) h
  | nop => exact h
  | reinit => exact h

theorem processMessage_keeps {P : State c → Prop} (ht : ∀ s s', Tab s s' → P s → P s')
    (hc : ∀ s l q key date x, P s → P (createChannel s l q key date x).1)
    (o : Opts c) (ul : Bool) (now : Nat) (subs : Event → Reply) (s : Full c) (l q : Bytes) (prio : Bool)
    (rand : Nat → Sender.Rand c) (m : Message) (h : P s.node) :
    P (processMessage o ul now subs s l q prio rand m).1.node := by
  cases m with
  | part hash total offset data =>
    simp only [processMessage]
    split
    · exact h
    · split
      · exact h
      · exact processWhole_keeps ht hc _ _ _ _ _ _ _ _ _ _ h
    · exact h
  | _ => exact processWhole_keeps ht hc _ _ _ _ _ _ _ _ _ _ h

theorem processAll_keeps {P : State c → Prop} (ht : ∀ s s', Tab s s' → P s → P s')
    (hc : ∀ s l q key date x, P s → P (createChannel s l q key date x).1)
    (o : Opts c) (ul : Bool) (now : Nat) (subs : Event → Reply) (l q : Bytes) (prio : Bool)
    (rand : Nat → Sender.Rand c) (ms : List Message) (s : Full c) (h : P s.node) :
    P (processAll o ul now subs l q prio rand s ms).1.node := by
  induction ms generalizing s rand with
  | nil => exact h
  | cons m ms ih =>
    have h1 := processMessage_keeps ht hc o ul now subs s l q prio rand m h
    simp only [processAll]
    split
    · exact ih _ _ h1
    · exact h1

theorem receive_keeps {P : State c → Prop} (ht : ∀ s s', Tab s s' → P s → P s')
    (hc : ∀ s l q key date x, P s → P (createChannel s l q key date x).1)
    (o : Opts c) (ul : Bool) (now : Nat) (subs : Event → Reply) (s : Full c) (data : Bytes)
    (key : c.Sec) (rand : Nat → Sender.Rand c) (h : P s.node) :
    P (receive o ul now subs s data key rand).1.node := by
  have h1 := ht _ _ (handle_tab o ul now s.node data key rand) h
  unfold receive
  cases hh : Receiver.handle o ul now s.node data key rand with
  | mk n z =>
    obtain ⟨w, out⟩ := z
    rw [hh] at h1
    cases w with
    | accepted l q prio ms => exact processAll_keeps ht hc _ _ _ _ _ _ _ _ _ { s with node := n } h1
    | _ => exact h1

theorem removePeer_good {s : State c} (h : Good s) (l q : Bytes) : Good (removePeer s l q) := by
  unfold removePeer
  split
  · exact h
  · have := (dropChannel_good h q).1
    exact ⟨this.live, this.bound, this.listed⟩

theorem resetPeer_good {s : State c} (h : Good s) (l q : Bytes) (key : c.Sec) :
    Good (resetPeer s l q key) := by
  unfold resetPeer
  split
  · exact h
  · exact (setPeer_tab _ _ _ _).good (dropChannel_good h q).1

theorem step_good (o : Opts c) (ul : Bool) (s : Full c) (op : Op c) (h : Good s.node) :
    Good (step o ul s op).node := by
  cases op with
  | recv now subs data key rand =>
    exact receive_keeps (fun _ _ t g => t.good g) (fun _ _ _ _ _ _ g => createChannel_good g _ _ _ _ _)
      _ _ _ _ _ _ _ _ h
  | send now l q m prio rand =>
    simp only [step]
    split
    · exact (setPeer_tab _ _ _ _).good h
    · exact h
  | add l q addr pub key => exact (addPeer_tab _ _ _ _ _ _ _).good h
  | remove l q => exact removePeer_good h l q
  | reset l q key => exact resetPeer_good h l q key
  | expire t => exact h

/-- A node without channels. -/
def NoChannels (s : State c) : Prop := s.heap = [] ∧ s.byPeer = [] ∧ s.byId = []

theorem run_good (o : Opts c) (ul : Bool) (s : Full c) (ops : List (Op c)) (h0 : NoChannels s.node) :
    Good (run o ul s ops).node := by
  have hg : Good s.node := by
    obtain ⟨h1, h2, h3⟩ := h0
    constructor
    · intro q r h; rw [h2] at h; cases h
    · intro r ch h; rw [h1] at h; cases h
    · intro id r prio h; rw [h3] at h; cases h
  unfold run
  clear h0
  induction ops generalizing s with
  | nil => exact hg
  | cons op ops ih => exact ih _ (step_good o ul s op hg)

/-- C16: over any history of received datagrams, sent messages and added, removed or reset peers, every
id in the table of channel ids belongs to the current channel of its peer, and is the id that this
channel listens on. -/
theorem C16_listed_ids_belong_to_current_channels (o : Opts c) (ul : Bool) (s : Full c)
    (ops : List (Op c)) (h0 : NoChannels s.node) (id : Bytes) (r : Nat) (prio : Bool)
    (h : (run o ul s ops).node.byId.get id = some (r, prio)) :
    ∃ ch, (run o ul s ops).node.heap.get r = some ch ∧
      (run o ul s ops).node.channel ch.peerId = some ch ∧ id = (ch.inn.sub prio).id := by
  obtain ⟨ch, h1, h2, h3⟩ := (run_good o ul s ops h0).listed id r prio h
  exact ⟨ch, h1, by rw [State.channel, h2]; exact h1, h3⟩

/-- C16: every peer with a channel entry has a channel, made for that peer. -/
theorem C16_channels_belong_to_their_peer (o : Opts c) (ul : Bool) (s : Full c) (ops : List (Op c))
    (h0 : NoChannels s.node) (q : Bytes) (h : (run o ul s ops).node.byPeer.get q ≠ none) :
    ∃ ch, (run o ul s ops).node.channel q = some ch ∧ ch.peerId = q := by
  cases hq : (run o ul s ops).node.byPeer.get q with
  | none => exact absurd hq h
  | some r =>
    obtain ⟨ch, h1, h2⟩ := (run_good o ul s ops h0).live q r hq
    exact ⟨ch, by rw [State.channel, hq]; exact h1, h2⟩

/-- C16: removing a peer removes its channel and every id it listened on; the channels of other peers and
other peers stay. -/
theorem C16_removed_with_the_peer (o : Opts c) (ul : Bool) (s : Full c) (ops : List (Op c))
    (h0 : NoChannels s.node) (l q : Bytes) (hl : (run o ul s ops).node.peers.get l ≠ none) :
    let after := (run o ul s (ops ++ [.remove l q])).node
    after.peer l q = none ∧ after.channel q = none ∧
    (∀ id r prio, after.byId.get id = some (r, prio) → ∃ ch, after.heap.get r = some ch ∧ ch.peerId ≠ q) ∧
    (∀ q', q' ≠ q → after.channel q' = (run o ul s ops).node.channel q') ∧
    (∀ l' q', (l', q') ≠ (l, q) → after.peer l' q' = (run o ul s ops).node.peer l' q') := by
  have hg := run_good o ul s (ops ++ [.remove l q]) h0
  have e : (run o ul s (ops ++ [.remove l q])).node = removePeer (run o ul s ops).node l q := by
    simp [run, List.foldl_append, step]
  rw [e] at hg ⊢
  obtain ⟨_, d1, d2, d3, _⟩ := dropChannel_good (run_good o ul s ops h0) q
  cases ht : (run o ul s ops).node.peers.get l with
  | none => exact absurd ht hl
  | some t =>
    have er : removePeer (run o ul s ops).node l q =
        { dropChannel (run o ul s ops).node q with
          peers := (run o ul s ops).node.peers.put l (t.erase q) } := by
      unfold removePeer; rw [ht]
    rw [er] at hg ⊢
    refine ⟨?_, ?_, ?_, ?_, ?_⟩
    · simp [State.peer, AMap.get_erase]
    · simp [State.channel, d1]
    · intro id r prio h
      obtain ⟨ch, h1, h2, _⟩ := hg.listed id r prio h
      refine ⟨ch, h1, ?_⟩
      rintro rfl
      simp only [d1] at h2
      cases h2
    · intro q' hq
      simp only [State.channel, d2 q' hq, d3]
    · intro l' q' hne
      simp only [State.peer]
      by_cases hll : l' = l
      · subst hll
        have hq : q' ≠ q := fun e => hne (by rw [e])
        simp [ht, AMap.get_erase, hq]
      · rw [AMap.get_put_ne _ _ hll]

/-- A node without channels gets one from a received packet, and none is left after the removal. -/
example :
    let o := { Sender.toyOpts with socketAddr := ⟨9, 9, 9, 9, 9⟩ }
    let s : Full Crypto.toy := ⟨Sender.toyState, []⟩
    let recv : Op Crypto.toy := .recv 200 (fun _ => .done) Receiver.honestPacket (13 : UInt8) Sender.toyRand
    let q := shortId Crypto.toy (21 : UInt8)
    NoChannels s.node ∧ ((run o false s [recv]).node.peers.get (List.replicate 32 1)).isSome = true ∧
    ((run o false s [recv]).node.channel q).isSome = true ∧
    (run o false s [recv]).node.byId.length = 2 ∧
    (run o false s [recv, .remove (List.replicate 32 1) q]).node.byId = [] :=
  ⟨⟨rfl, rfl, rfl⟩, by decide +kernel, by decide +kernel, by decide +kernel, by decide +kernel⟩

/-! ### Replacement -/

/-- C16: a channel message for a peer with a channel either keeps the channel (a confirmation makes it
ready) because the key is the same or the date is not newer, or replaces it by the channel for the new
key, which is then different and newer. Channels of other peers are not touched. -/
theorem C16_replaced_only_by_newer {s : State c} (hg : Good s) (l q : Bytes) (key : c.Pub) (date : Nat)
    (x : Ctx) (old : Channel) (h : s.channel q = some old) :
    ((createChannel s l q key date x).1.channel q = some old ∨
      (x = .confirm ∧ (c.pubBytes key = old.peerKey ∨ date ≤ old.peerDate) ∧
        (createChannel s l q key date x).1.channel q = some { old with ready := true }) ∨
      (old.peerKey ≠ c.pubBytes key ∧ old.peerDate < date ∧ ∃ p, s.peer l q = some p ∧
        (createChannel s l q key date x).1.channel q =
          some (Channel.new c l q p.channelKey key date x))) ∧
    ∀ q', q' ≠ q → (createChannel s l q key date x).1.channel q' = s.channel q' := by
  have hnext : ∀ r ch, s.heap.get r = some ch → r ≠ s.next := by
    intro r ch h e
    have := hg.bound r ch h
    omega
  unfold createChannel
  cases hl : s.peers.get l with
  | none => exact ⟨.inl h, fun _ _ => rfl⟩
  | some t =>
    simp only
    cases hp : t.get q with
    | none => exact ⟨.inl h, fun _ _ => rfl⟩
    | some p =>
      simp only
      cases hq : s.byPeer.get q with
      | none => rw [State.channel, hq] at h; cases h
      | some r =>
        rw [State.channel, hq] at h
        simp only at h
        simp only [h]
        split
        · rename_i hv
          simp only [Channel.stillValid, Bool.or_eq_true, beq_iff_eq, decide_eq_true_eq] at hv
          simp only
          split
          · rename_i hx
            refine ⟨.inr (.inl ⟨hx, hv.imp Eq.symm id, ?_⟩), ?_⟩
            · simp [State.channel, State.setReady, h, hq]
            · intro q' hne
              simp only [State.channel, State.setReady, h]
              cases hq' : s.byPeer.get q' with
              | none => rfl
              | some r' =>
                obtain ⟨c1, f1, f2⟩ := hg.live q' r' hq'
                obtain ⟨c2, g1, g2⟩ := hg.live q r hq
                simp only [AMap.get_put]
                rw [if_neg ?_]
                intro e
                subst e
                rw [f1] at g1
                cases g1
                exact hne (f2.symm.trans g2)
          · exact ⟨.inl (by rw [State.channel, hq]; exact h), fun _ _ => rfl⟩
        · rename_i hv
          simp only [Channel.stillValid, Bool.or_eq_true, beq_iff_eq, decide_eq_true_eq, not_or] at hv
          obtain ⟨-, d2, d3, d4, d5⟩ := dropChannel_good hg q
          refine ⟨.inr (.inr ⟨hv.1, by omega, p, ?_, ?_⟩), ?_⟩
          · simp [State.peer, hl, hp]
          · simp [State.channel, insertChannel]
          · intro q' hne
            simp only [State.channel, insertChannel, AMap.get_put, if_neg hne, d3 q' hne, d4, d5]
            cases hq' : s.byPeer.get q' with
            | none => rfl
            | some r' =>
              obtain ⟨c1, f1, f2⟩ := hg.live q' r' hq'
              simp only
              rw [if_neg (hnext _ _ f1)]

/-- How the channel of a peer may change while its peer is neither removed nor reset: not at all, by
becoming ready, or by a newer one. -/
def Newer (old new : Channel) : Prop :=
  new = old ∨ new = { old with ready := true } ∨ old.peerDate < new.peerDate

theorem Newer.trans {a b d : Channel} (h1 : Newer a b) (h2 : Newer b d) : Newer a d := by
  rcases h1 with rfl | rfl | h1
  · exact h2
  · rcases h2 with rfl | rfl | h2
    · exact .inr (.inl rfl)
    · exact .inr (.inl rfl)
    · exact .inr (.inr h2)
  · rcases h2 with rfl | rfl | h2
    · exact .inr (.inr h1)
    · exact .inr (.inr h1)
    · exact .inr (.inr (Nat.lt_trans h1 h2))

theorem tab_newer {s s' : State c} (t : Tab s s') {q : Bytes} {ch : Channel}
    (h : s.channel q = some ch) : ∃ ch', s'.channel q = some ch' ∧ Newer ch ch' := by
  unfold State.channel at h ⊢
  rw [t.byPeer]
  cases hq : s.byPeer.get q with
  | none => rw [hq] at h; cases h
  | some r =>
    rw [hq] at h
    simp only at h ⊢
    rcases t.heap r with g | ⟨ch', g, g'⟩
    · exact ⟨ch, g ▸ h, .inl rfl⟩
    · rw [h] at g
      cases g
      exact ⟨_, g', .inr (.inl rfl)⟩

theorem create_newer {s : State c} (hg : Good s) (l q' : Bytes) (key : c.Pub) (date : Nat) (x : Ctx)
    {q : Bytes} {ch : Channel} (h : s.channel q = some ch) :
    ∃ ch', (createChannel s l q' key date x).1.channel q = some ch' ∧ Newer ch ch' := by
  by_cases e : q = q'
  · subst e
    rcases (C16_replaced_only_by_newer hg l q key date x ch h).1 with g | ⟨-, -, g⟩ | ⟨-, g, p, -, g'⟩
    · exact ⟨_, g, .inl rfl⟩
    · exact ⟨_, g, .inr (.inl rfl)⟩
    · exact ⟨_, g', .inr (.inr g)⟩
  · cases h' : s.channel q' with
    | some old =>
      exact ⟨ch, by rw [(C16_replaced_only_by_newer hg l q' key date x old h').2 q e]; exact h, .inl rfl⟩
    | none =>
      have hn : s.byPeer.get q' = none := by
        unfold State.channel at h'
        cases hq : s.byPeer.get q' with
        | none => rfl
        | some r =>
          obtain ⟨c1, f1, -⟩ := hg.live q' r hq
          rw [hq] at h'
          simp only [f1] at h'
          cases h'
      refine ⟨ch, ?_, .inl rfl⟩
      unfold createChannel
      split
      · exact h
      split
      · exact h
      simp only [hn, State.channel, insertChannel, AMap.get_put, if_neg e]
      unfold State.channel at h
      cases hq : s.byPeer.get q with
      | none => rw [hq] at h; cases h
      | some r =>
        rw [hq] at h
        simp only at h ⊢
        rw [if_neg]
        · exact h
        · have := hg.bound _ _ h
          omega

/-- C16: no received datagram, whatever its contents, takes a channel away or goes back to an older
one. -/
theorem C16_datagram_never_downgrades (o : Opts c) (ul : Bool) (now : Nat) (subs : Event → Reply)
    (s : Full c) (data : Bytes) (key : c.Sec) (rand : Nat → Sender.Rand c) (hg : Good s.node)
    (q : Bytes) (ch : Channel) (h : s.node.channel q = some ch) :
    ∃ ch', (receive o ul now subs s data key rand).1.node.channel q = some ch' ∧ Newer ch ch' := by
  have := receive_keeps (P := fun s => Good s ∧ ∃ ch', s.channel q = some ch' ∧ Newer ch ch')
    (fun _ _ t ⟨g, ch', g1, g2⟩ => ⟨t.good g, by
      obtain ⟨d, d1, d2⟩ := tab_newer t g1
      exact ⟨d, d1, g2.trans d2⟩⟩)
    (fun s l q' key date x ⟨g, ch', g1, g2⟩ => ⟨createChannel_good g _ _ _ _ _, by
      obtain ⟨d, d1, d2⟩ := create_newer g l q' key date x g1
      exact ⟨d, d1, g2.trans d2⟩⟩)
    o ul now subs s data key rand ⟨hg, ch, h, .inl rfl⟩
  exact this.2

/-! ### The converse: current channels are found by their ids -/

/-- No two current channels listen on the same id, and the two ids of a channel differ. Collisions of
the hash and of the derived keys are not excluded by the code. -/
def Distinct (s : State c) : Prop :=
  ∀ q q' ch ch' prio prio', s.channel q = some ch → s.channel q' = some ch' →
    (ch.inn.sub prio).id = (ch'.inn.sub prio').id → q = q' ∧ prio = prio'

/-- Every current channel is found by both its ids. -/
def Listed (s : State c) : Prop :=
  ∀ q ch prio, s.channel q = some ch → ∃ r, s.byPeer.get q = some r ∧
    s.byId.get (ch.inn.sub prio).id = some (r, prio)

/-- States of the tables over any history without id collisions. -/
inductive Reach : State c → Prop
  | init (s : State c) : NoChannels s → Reach s
  | other (s s' : State c) : Reach s → Tab s s' → Reach s'
  | create (s : State c) (l q : Bytes) (key : c.Pub) (date : Nat) (x : Ctx) : Reach s →
      Distinct (createChannel s l q key date x).1 → Reach (createChannel s l q key date x).1
  | drop (s : State c) (q : Bytes) : Reach s → Reach (dropChannel s q)

theorem Reach.good {s : State c} (h : Reach s) : Good s := by
  induction h with
  | init s h0 =>
    obtain ⟨h1, h2, h3⟩ := h0
    constructor
    · intro q r h; rw [h2] at h; cases h
    · intro r ch h; rw [h1] at h; cases h
    · intro id r prio h; rw [h3] at h; cases h
  | other s s' _ t ih => exact t.good ih
  | create s l q key date x _ _ ih => exact createChannel_good ih _ _ _ _ _
  | drop s q _ ih => exact (dropChannel_good ih q).1

theorem channel_of {s : State c} {q : Bytes} {ch : Channel} (h : s.channel q = some ch) :
    ∃ r, s.byPeer.get q = some r ∧ s.heap.get r = some ch := by
  unfold State.channel at h
  cases hq : s.byPeer.get q with
  | none => rw [hq] at h; cases h
  | some r => rw [hq] at h; exact ⟨r, rfl, h⟩

theorem drop_listed {s : State c} (hg : Good s) (h : Listed s) (q0 : Bytes) :
    Listed (dropChannel s q0) := by
  intro q ch prio hch
  obtain ⟨-, d2, d3, d4, -⟩ := dropChannel_good hg q0
  have hne : q ≠ q0 := by
    rintro rfl
    obtain ⟨r, hr, -⟩ := channel_of hch
    rw [d2] at hr
    cases hr
  have hs : s.channel q = some ch := by
    rw [State.channel, d3 q hne, d4] at hch
    exact hch
  obtain ⟨r, h1, h2⟩ := h q ch prio hs
  refine ⟨r, by rw [d3 q hne]; exact h1, ?_⟩
  unfold dropChannel
  cases hq0 : s.byPeer.get q0 with
  | none => exact h2
  | some r0 =>
    obtain ⟨ch0, f1, f2⟩ := hg.live q0 r0 hq0
    have hc0 : s.channel q0 = some ch0 := by rw [State.channel, hq0]; exact f1
    have key : ∀ prio0, (ch.inn.sub prio).id ≠ (ch0.inn.sub prio0).id := by
      intro prio0 e
      obtain ⟨r', g1, g2⟩ := h q0 ch0 prio0 hc0
      rw [← e, h2] at g2
      cases g2
      rw [hq0] at g1
      cases g1
      obtain ⟨x, f3, f4⟩ := hg.live q _ h1
      rw [f1] at f3
      cases f3
      exact hne (f4.symm.trans f2)
    simp only [f1, AMap.get_erase]
    rw [if_neg (show ¬ _ = ch0.inn.priority.id from key true),
      if_neg (show ¬ _ = ch0.inn.ordinary.id from key false)]
    exact h2

theorem insert_listed {s : State c} (hg : Good s) (h : Listed s) (q0 : Bytes) (ch0 : Channel)
    (hd : Distinct (insertChannel s q0 ch0)) (hq0 : s.byPeer.get q0 = none) :
    Listed (insertChannel s q0 ch0) := by
  intro q ch prio hch
  have hnew : (insertChannel s q0 ch0).channel q0 = some ch0 := by
    simp [State.channel, insertChannel]
  by_cases e : q = q0
  · subst e
    rw [hnew] at hch
    cases hch
    refine ⟨s.next, by simp [insertChannel], ?_⟩
    simp only [insertChannel, AMap.get_put]
    cases prio with
    | true => rw [if_pos (show (ch0.inn.sub true).id = ch0.inn.priority.id from rfl)]
    | false =>
      rw [if_neg, if_pos (show (ch0.inn.sub false).id = ch0.inn.ordinary.id from rfl)]
      intro e
      have := (hd q q ch0 ch0 false true hnew hnew e).2
      cases this
  · have hs : s.channel q = some ch := by
      obtain ⟨r, h1, h2⟩ := channel_of hch
      simp only [insertChannel, AMap.get_put, if_neg e] at h1 h2
      obtain ⟨x, f1, -⟩ := hg.live q r h1
      rw [if_neg (by have := hg.bound _ _ f1; omega)] at h2
      rw [State.channel, h1]
      exact h2
    obtain ⟨r, h1, h2⟩ := h q ch prio hs
    refine ⟨r, by simpa [insertChannel, AMap.get_put, e] using h1, ?_⟩
    simp only [insertChannel, AMap.get_put]
    rw [if_neg, if_neg]
    · exact h2
    · intro e'
      exact e (hd q q0 ch ch0 prio false hch hnew e').1
    · intro e'
      exact e (hd q q0 ch ch0 prio true hch hnew e').1

theorem tab_listed {s s' : State c} (t : Tab s s') (h : Listed s) : Listed s' := by
  intro q ch prio hch
  obtain ⟨r, h1, h2⟩ := channel_of hch
  rw [t.byPeer] at h1
  rcases t.heap r with g | ⟨ch', g, g'⟩
  · obtain ⟨r', f1, f2⟩ := h q ch prio (by rw [State.channel, h1]; exact g.symm.trans h2)
    exact ⟨r', t.byPeer ▸ f1, t.byId ▸ f2⟩
  · obtain ⟨r', f1, f2⟩ := h q ch' prio (by rw [State.channel, h1]; exact g)
    rw [g'] at h2
    cases h2
    exact ⟨r', t.byPeer ▸ f1, t.byId ▸ f2⟩

/-- C16: as long as no two current channels share an id, every current channel is found by both its
ids. -/
theorem C16_current_channels_are_listed {s : State c} (h : Reach s) : Listed s := by
  induction h with
  | init s h0 =>
    intro q ch prio hch
    obtain ⟨r, h1, -⟩ := channel_of hch
    rw [h0.2.1] at h1
    cases h1
  | other s s' _ t ih => exact tab_listed t ih
  | drop s q h ih => exact drop_listed h.good ih q
  | create s l q key date x h hd ih =>
    have hg := h.good
    unfold createChannel at hd ⊢
    cases hl : s.peers.get l with
    | none => exact ih
    | some t =>
      rw [hl] at hd
      simp only at hd ⊢
      cases hp : t.get q with
      | none => exact ih
      | some p =>
        rw [hp] at hd
        simp only at hd ⊢
        cases hq : s.byPeer.get q with
        | none =>
          rw [hq] at hd
          exact insert_listed hg ih _ _ hd hq
        | some r =>
          rw [hq] at hd
          obtain ⟨ch, f1, f2⟩ := hg.live q r hq
          simp only [f1] at hd ⊢
          split
          · simp only
            split
            · exact tab_listed (setReady_tab s r) ih
            · exact ih
          · rename_i hv
            rw [if_neg hv] at hd
            exact insert_listed (dropChannel_good hg q).1 (drop_listed hg ih q) _ _ hd
              (dropChannel_good hg q).2.1

/-- Without that condition the claim fails: a shared secret whose bytes are all equal gives the same id
to both directions and priorities, and the priority entry hides the ordinary one. -/
theorem C16_listing_needs_distinct :
    ∃ (s : State Crypto.toy), NoChannels s ∧
      ¬ Listed (createChannel s [1] [2] (0 : UInt8) 7 .create).1 := by
  refine ⟨⟨[([1], [([2], Peer.new 100 ⟨1, 2, 3, 4, 5⟩ (7 : UInt8) (9 : UInt8))])], [], 0, [], []⟩,
    ⟨rfl, rfl, rfl⟩, ?_⟩
  intro h
  obtain ⟨r, -, h2⟩ := h [2] (Channel.new Crypto.toy [1] [2] (9 : UInt8) (0 : UInt8) 7 .create) false
    (by decide +kernel)
  revert h2
  have : ((createChannel (c := Crypto.toy)
      ⟨[([1], [([2], Peer.new 100 ⟨1, 2, 3, 4, 5⟩ (7 : UInt8) (9 : UInt8))])], [], 0, [], []⟩
      [1] [2] (0 : UInt8) 7 .create).1.byId.get
      ((Channel.new Crypto.toy [1] [2] (9 : UInt8) (0 : UInt8) 7 .create).inn.sub false).id) =
      some (0, true) := by decide +kernel
  rw [this]
  simp

namespace Example
/-- A node that received a packet with a channel message; `q` is the sender. -/
def o : Opts Crypto.toy := { Sender.toyOpts with socketAddr := ⟨9, 9, 9, 9, 9⟩ }
def start : Full Crypto.toy := ⟨Sender.toyState, []⟩
def recv : Op Crypto.toy := .recv 200 (fun _ => .done) Receiver.honestPacket (13 : UInt8) Sender.toyRand
def q : Bytes := shortId Crypto.toy (21 : UInt8)

theorem none : NoChannels start.node := ⟨rfl, rfl, rfl⟩

theorem exists_channel : ∃ ch, (run o false start [recv]).node.channel q = some ch := by
  have h : ((run o false start [recv]).node.channel q).isSome = true := by decide +kernel
  cases hc : (run o false start [recv]).node.channel q with
  | none => rw [hc] at h; cases h
  | some ch => exact ⟨ch, rfl⟩

-- C16_listed_ids_belong_to_current_channels: two identifiers are listed
example : ∃ id r prio, (run o false start [recv]).node.byId.get id = some (r, prio) ∧
    ∃ ch, (run o false start [recv]).node.heap.get r = some ch ∧
      (run o false start [recv]).node.channel ch.peerId = some ch ∧ id = (ch.inn.sub prio).id := by
  have h : ∃ e ∈ (run o false start [recv]).node.byId, (run o false start [recv]).node.byId.get e.1 = some e.2 := by
    decide +kernel
  obtain ⟨⟨id, r, prio⟩, _, h⟩ := h
  exact ⟨id, r, prio, h, C16_listed_ids_belong_to_current_channels o false start [recv] none id r prio h⟩

-- C16_channels_belong_to_their_peer
example : ∃ ch, (run o false start [recv]).node.channel q = some ch ∧ ch.peerId = q :=
  C16_channels_belong_to_their_peer o false start [recv] none q (by decide +kernel)

-- C16_replaced_only_by_newer: the same peer offers another key
example (old : Channel) (h : (run o false start [recv]).node.channel q = some old) :=
  C16_replaced_only_by_newer (run_good o false start [recv] none) (List.replicate 32 1) q (33 : UInt8) 500 .create old h

-- C16_datagram_never_downgrades: the same packet again
example : ∃ ch, (run o false start [recv]).node.channel q = some ch ∧ ∃ ch',
    (receive o false 201 (fun _ => .done) (run o false start [recv]) Receiver.honestPacket (14 : UInt8)
      Sender.toyRand).1.node.channel q = some ch' ∧ Newer ch ch' := by
  obtain ⟨ch, h⟩ := exists_channel
  exact ⟨ch, h, C16_datagram_never_downgrades o false 201 _ _ _ _ _ (run_good o false start [recv] none) q ch h⟩

-- C16_current_channels_are_listed: a node that adds a peer and makes a channel with it
def added : State Crypto.toy :=
  (addPeer o start.node (List.replicate 32 1) q ⟨1, 2, 3, 4, 5⟩ (21 : UInt8) (14 : UInt8)).1
def created : State Crypto.toy := (createChannel added (List.replicate 32 1) q (33 : UInt8) 500 .create).1

example : Listed created ∧ (created.channel q).isSome = true := by
  refine ⟨C16_current_channels_are_listed (.create _ _ _ _ _ _ (.init added ⟨by rfl, by rfl, by rfl⟩) ?_), by decide +kernel⟩
  have hb : ∀ x, created.byPeer.get x ≠ Option.none → x = q := by
    have : created.byPeer = [(q, created.next - 1)] := by decide +kernel
    intro x hx
    rw [this] at hx
    by_cases e : x = q
    · exact e
    · simp [AMap.get, Ne.symm e] at hx
  have hq : ∀ x ch, created.channel x = some ch → x = q := by
    intro x ch h
    refine hb x fun h0 => ?_
    simp [State.channel, h0] at h
  have hd : ∀ ch, created.channel q = some ch → (ch.inn.sub false).id ≠ (ch.inn.sub true).id := by
    intro ch h
    have : (created.channel q).all (fun ch => (ch.inn.sub false).id ≠ (ch.inn.sub true).id) = true := by decide +kernel
    rw [h] at this
    simpa using this
  intro x x' ch ch' prio prio' h h' he
  obtain rfl := hq x ch h
  obtain rfl := hq x' ch' h'
  have : ch = ch' := Option.some.inj (h.symm.trans h')
  subst this
  refine ⟨rfl, ?_⟩
  cases prio <;> cases prio' <;> first | rfl | exact absurd he (hd ch h) | exact absurd he.symm (hd ch h)
end Example

end Verif.Establish
