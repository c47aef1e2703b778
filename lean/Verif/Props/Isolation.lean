import Verif.Props.Identities
import Verif.Props.Transfer

/-!
# C94: what one pair of ids does leaves the others alone
-/
namespace Verif.Isolation
open Verif.Tl Verif.Adnl Verif.AdnlProto Verif.Address Verif.Node Verif.Receiver Verif.Sender Verif.Process
open Verif.Establish (NoChannels Op step run channelMessage_fst)

variable {c : Crypto}

/-! ### Statement -/

/-- The operation is about the local id `l` and the remote id `q` only. -/
def OnlyAbout (o : Opts c) (ul : Bool) (s : Full c) (l q : Bytes) : Op c → Prop
  | .recv now _ data key rand =>
    ∃ prio ms, (handle o ul now s.node data key rand).2.1 = .accepted l q prio ms
  | .send _ l' q' _ _ _ => l' = l ∧ q' = q
  | .add l' q' _ _ _ => l' = l ∧ q' = q
  | .remove l' q' => l' = l ∧ q' = q
  | .reset l' q' _ => l' = l ∧ q' = q
  | .expire _ => True

/-- C94, full statement: a datagram that is accepted as one from `q` to `l` is still accepted after any
operation which is about another pair of ids. -/
def C94_full : Prop :=
  ∀ (c : Crypto), c.Lawful → ∀ (o : Opts c) (ul : Bool) (s0 : Full c), NoChannels s0.node →
    ∀ (ops : List (Op c)) (op : Op c) (l q l' q' : Bytes),
      OnlyAbout o ul (run o ul s0 ops) l' q' op → ¬ (l' = l ∧ q' = q) →
      ∀ (now : Nat) (d : Bytes) (key : c.Sec) (rand : Nat → Rand c) (prio : Bool) (ms : List Message),
        (handle o ul now (run o ul s0 ops).node d key rand).2.1 = .accepted l q prio ms →
        (handle o ul now (step o ul (run o ul s0 ops) op).node d key rand).2.1 = .accepted l q prio ms

/-- A message that asks for a channel with the key. -/
def Asks : Message → Bytes → Prop
  | .createChannel k _, key => k = key
  | .confirmChannel k _ _, key => k = key
  | _, _ => False

/-- The same, also if it is the last part of such a message. -/
def Announces (c : Crypto) (m : Message) (key : Bytes) : Prop :=
  Asks m key ∨ ∃ h t off d buf m' rest, m = .part h t off d ∧ c.sha buf = h ∧
    readMessage buf = some (m', rest) ∧ Asks m' key

/-- No channel that `q` has or makes by the operation listens on the id `X` (ids are hashes of secrets). -/
def NoClash (o : Opts c) (ul : Bool) (s : Full c) (l q X : Bytes) (op : Op c) : Prop :=
  (∀ ch, s.node.channel q = some ch → ∀ b, (ch.inn.sub b).id ≠ X) ∧
  match op with
  | .recv now _ data key rand => ∀ prio ms m k pub date x b,
      (handle o ul now s.node data key rand).2.1 = .accepted l q prio ms → m ∈ ms → Announces c m k →
      c.decodePub k = some pub →
      ((Channel.new c l q (((s.node.peer l q).map (·.channelKey)).getD key) pub date x).inn.sub b).id ≠ X
  | _ => True

/-! ### What is kept -/

/-- What the acceptance of a packet from `q` to `l` depends on is the same in `s` as in `s0`; the operation
is about `l'` and `q'`, whose channel key is `K`. The last two are about channels and are needed if `G`. -/
structure Kept (G : Prop) (s0 : State c) (l q X l' q' : Bytes) (K : c.Sec) (s : State c) : Prop where
  good : Good s
  table : (s.peers.get l).isSome = (s0.peers.get l).isSome
  peer : s.peer l q = s0.peer l q
  key : ∀ p, s.peer l' q' = some p → p.channelKey = K
  free : G → ∀ ch, s.channel q' = some ch → ∀ b, (ch.inn.sub b).id ≠ X
  chan : G → ∀ r b ch, s0.byId.get X = some (r, b) → s0.heap.get r = some ch → ch.peerId = q →
    s.byId.get X = some (r, b) ∧ ∃ y, s.heap.get r = some { ch with ready := y }

variable {G : Prop} {s0 : State c} {l q X l' q' : Bytes} {K : c.Sec}

theorem Kept.of_tab {s s' : State c} (h : Kept G s0 l q X l' q' K s) (t : Tab s s')
    (htab : (s'.peers.get l).isSome = (s.peers.get l).isSome) (hpeer : s'.peer l q = s.peer l q)
    (hkey : ∀ p, s'.peer l' q' = some p → p.channelKey = K) : Kept G s0 l q X l' q' K s' where
  good := t.good h.good
  table := htab.trans h.table
  peer := hpeer.trans h.peer
  key := hkey
  free hne ch hch b := by
    unfold State.channel at hch
    rw [t.byPeer] at hch
    cases hr : s.byPeer.get q' with
    | none => rw [hr] at hch; cases hch
    | some r =>
      rw [hr] at hch
      simp only at hch
      rcases t.heap r with e | ⟨ch', e, e'⟩
      · exact h.free hne ch (by rw [State.channel, hr]; exact e.symm.trans hch) b
      · rw [e'] at hch
        cases hch
        exact h.free hne ch' (by rw [State.channel, hr]; exact e) b
  chan hne r b ch h1 h2 h3 := by
    obtain ⟨e1, y, e2⟩ := h.chan hne r b ch h1 h2 h3
    refine ⟨by rw [t.byId]; exact e1, ?_⟩
    rcases t.heap r with e | ⟨ch', e, e'⟩
    · exact ⟨y, e.trans e2⟩
    · rw [e2] at e
      cases e
      exact ⟨true, e'⟩

theorem peer_congr {s1 s2 : State c} (h : s1.peers = s2.peers) (l q : Bytes) : s1.peer l q = s2.peer l q := by
  unfold State.peer
  rw [h]

theorem setPeer_table (s : State c) (l q l1 : Bytes) (p : Peer c) :
    ((s.setPeer l q p).peers.get l1).isSome = (s.peers.get l1).isSome := by
  unfold State.setPeer
  cases h : s.peers.get l with
  | none => rfl
  | some t =>
    simp only [AMap.get_put]
    split
    · rename_i e; rw [e, h]; rfl
    · rfl

theorem Kept.setPeer {s : State c} (h : Kept G s0 l q X l' q' K s) (hne : ¬ (l' = l ∧ q' = q)) {p : Peer c}
    (hp : p.channelKey = K) : Kept G s0 l q X l' q' K (s.setPeer l' q' p) := by
  refine h.of_tab (setPeer_tab _ _ _ _) (setPeer_table _ _ _ _ _) ?_ ?_
  · rw [peer_setPeer, if_neg]
    rintro ⟨rfl, rfl, -⟩
    exact hne ⟨rfl, rfl⟩
  · intro p1 h1
    rw [peer_setPeer] at h1
    split at h1
    · cases h1; exact hp
    · exact h.key p1 h1

theorem Kept.setReady {s : State c} (h : Kept G s0 l q X l' q' K s) (r : Nat) :
    Kept G s0 l q X l' q' K (s.setReady r) := by
  refine h.of_tab (setReady_tab _ _) ?_ (peer_setReady _ _ _ _) ?_
  · unfold State.setReady; split <;> rfl
  · intro p; rw [peer_setReady]; exact h.key p

theorem Kept.addPeer {s : State c} (h : Kept G s0 l q X l' q' K s) (hne : ¬ (l' = l ∧ q' = q)) (o : Opts c)
    (a : SockAddr) (pub : c.Pub) (key : c.Sec) (hk : s.peer l' q' = none → key = K) :
    Kept G s0 l q X l' q' K (Node.addPeer o s l' q' a pub key).1 := by
  rcases addPeer_cases o s l' q' a pub key with e | ⟨p, hp, e⟩ | ⟨hn, e⟩
  · rw [e]; exact h
  · rw [e]; exact h.setPeer hne (h.key p hp)
  · rw [e]; exact h.setPeer hne (hk hn)

/-- Dropping the channel of `q'`. -/
theorem Kept.drop {s : State c} (h : Kept G s0 l q X l' q' K s) (hne : G) :
    Good (dropChannel s q') ∧ ∀ r b ch, s0.byId.get X = some (r, b) → s0.heap.get r = some ch → ch.peerId = q →
      (dropChannel s q').byId.get X = some (r, b) ∧
        ∃ y, (dropChannel s q').heap.get r = some { ch with ready := y } := by
  obtain ⟨g, -, -, gh, -⟩ := dropChannel_good h.good q'
  refine ⟨g, fun r b ch h1 h2 h3 => ?_⟩
  obtain ⟨e1, y, e2⟩ := h.chan hne r b ch h1 h2 h3
  rw [gh]
  refine ⟨?_, y, e2⟩
  unfold dropChannel
  cases hr : s.byPeer.get q' with
  | none => exact e1
  | some r' =>
    simp only
    cases hh : s.heap.get r' with
    | none => exact e1
    | some old =>
      have f := h.free hne old (by rw [State.channel, hr]; exact hh)
      simp only [AMap.get_erase]
      rw [if_neg (fun e => f true e.symm), if_neg (fun e => f false e.symm)]
      exact e1

theorem dropChannel_peers (s : State c) (q : Bytes) : (dropChannel s q).peers = s.peers := by
  unfold dropChannel
  cases s.byPeer.get q with
  | none => rfl
  | some r => simp only; cases s.heap.get r <;> rfl

/-- The channel of `q'` was dropped and nothing else than the record of `q'` was changed. -/
theorem Kept.dropped {s s1 : State c} {K' : c.Sec} (h : Kept G s0 l q X l' q' K s)
    (h1 : s1.byPeer = (dropChannel s q').byPeer) (h2 : s1.byId = (dropChannel s q').byId)
    (h3 : s1.heap = (dropChannel s q').heap) (h4 : s1.next = (dropChannel s q').next)
    (ht : (s1.peers.get l).isSome = (s.peers.get l).isSome) (hp : s1.peer l q = s.peer l q)
    (hk : ∀ p, s1.peer l' q' = some p → p.channelKey = K') : Kept G s0 l q X l' q' K' s1 where
  good := by
    obtain ⟨g, -⟩ := dropChannel_good h.good q'
    refine ⟨?_, ?_, ?_⟩
    · rw [h1, h3]; exact g.live
    · rw [h3, h4]; exact g.bound
    · rw [h1, h2, h3]; exact g.listed
  table := ht.trans h.table
  peer := hp.trans h.peer
  key := hk
  free _ ch hch := by
    rw [State.channel, h1, (dropChannel_good h.good q').2.1] at hch
    cases hch
  chan g := by
    rw [h2, h3]
    exact (h.drop g).2

theorem Kept.create {s : State c} (h : Kept G s0 l q X l' q' K s) (pub : c.Pub) (date : Nat) (x : Ctx)
    (hfree : G → ∀ b, ((Channel.new c l' q' K pub date x).inn.sub b).id ≠ X) :
    Kept G s0 l q X l' q' K (createChannel s l' q' pub date x).1 := by
  have hgood := createChannel_good h.good l' q' pub date x
  unfold createChannel at hgood ⊢
  cases ht : s.peers.get l' with
  | none => exact h
  | some t =>
    rw [ht] at hgood
    simp only at hgood ⊢
    cases hp : t.get q' with
    | none => exact h
    | some p =>
      rw [hp] at hgood
      simp only at hgood ⊢
      have hK : p.channelKey = K := h.key p (by rw [State.peer, ht]; exact hp)
      have hins : ∀ s1 : State c, s1.peers = s.peers → s1.next = s.next →
          (G → ∀ r b ch, s0.byId.get X = some (r, b) → s0.heap.get r = some ch → ch.peerId = q →
            s1.byId.get X = some (r, b) ∧ ∃ y, s1.heap.get r = some { ch with ready := y }) →
          Good s1 → Good (insertChannel s1 q' (Channel.new c l' q' p.channelKey pub date x)) →
          Kept G s0 l q X l' q' K (insertChannel s1 q' (Channel.new c l' q' p.channelKey pub date x)) := by
        intro s1 e1 e2 e3 g1 g2
        refine ⟨g2, ?_, ?_, ?_, ?_, ?_⟩
        · show (s1.peers.get l).isSome = _; rw [e1]; exact h.table
        · exact (peer_congr (s2 := s) e1 l q).trans h.peer
        · intro p1 hp1
          exact h.key p1 ((peer_congr (s2 := s) e1 l' q').symm.trans hp1)
        · intro hne ch hch b
          have : ch = Channel.new c l' q' p.channelKey pub date x := by
            simp [State.channel, insertChannel] at hch
            exact hch.symm
          rw [this, hK]
          exact hfree hne b
        · intro hne r b ch h1 h2 h3
          obtain ⟨f1, y, f2⟩ := e3 hne r b ch h1 h2 h3
          have hlt := g1.bound r _ f2
          refine ⟨?_, y, ?_⟩
          · simp only [insertChannel, AMap.get_put]
            have f := hfree hne
            rw [← hK] at f
            rw [if_neg (fun e => f true e.symm), if_neg (fun e => f false e.symm)]
            exact f1
          · simp only [insertChannel, AMap.get_put]
            rw [if_neg (by omega)]
            exact f2
      cases hr : s.byPeer.get q' with
      | none =>
        rw [hr] at hgood
        exact hins s rfl rfl (fun hne => h.chan hne) h.good hgood
      | some r =>
        rw [hr] at hgood
        simp only at hgood ⊢
        cases hh : s.heap.get r with
        | none => exact h
        | some old =>
          rw [hh] at hgood
          simp only at hgood ⊢
          by_cases hv : old.stillValid (c.pubBytes pub) date = true
          · rw [if_pos hv]
            simp only
            split
            · exact h.setReady r
            · exact h
          · rw [if_neg hv] at hgood ⊢
            refine hins (dropChannel s q') (dropChannel_peers s q') ?_ ?_ ?_ hgood
            · exact (dropChannel_good h.good q').2.2.2.2
            · intro hne; exact (h.drop hne).2
            · exact (dropChannel_good h.good q').1

/-! ### Processing what `q'` sent -/

theorem tryReinit_key (p : Peer c) (d : Nat) : (p.tryReinit d).1.channelKey = p.channelKey := by
  unfold Peer.tryReinit
  split
  · rfl
  · split
    · split <;> rfl
    · rfl

theorem checkDates_key (o : Opts c) (now : Nat) (p : Peer c) (d : Option ReinitDates) :
    (checkDates o now p d).1.channelKey = p.channelKey := by
  unfold checkDates
  cases d with
  | none => rfl
  | some d =>
    simp only
    split
    · rfl
    · split
      · rfl
      · split
        · rfl
        · have := tryReinit_key p d.loc
          cases hr : p.tryReinit d.loc with
          | mk p' b =>
            rw [hr] at this
            cases b
            · exact this
            · simp only; split <;> exact this

theorem checkSeqnos_key (o : Opts c) (p : Peer c) (prio : Bool) (n cf : Option Nat) :
    (checkSeqnos o p prio n cf).1.channelKey = p.channelKey := by
  have h : (checkHistory o p prio n).1.channelKey = p.channelKey := by
    unfold checkHistory
    split
    · split
      · simp only [Peer.setRecvHist]; split <;> rfl
      · rfl
    · rfl
  unfold checkSeqnos
  cases hh : checkHistory o p prio n with
  | mk p' b =>
    rw [hh] at h
    cases b
    · exact h
    · simp only
      cases cf with
      | none => exact h
      | some k => simp only; split <;> exact h

/-- What a successful session does to the node. -/
theorem session_state {o : Opts c} {ul : Bool} {now : Nat} {s : State c} {pkt : InPacket} {l q : Bytes}
    {p : Peer c} {prio : Bool} {rand : Nat → Rand c}
    (h : (session o ul now s pkt l q p prio rand).2.1 = .peer q) :
    ∃ p', p'.channelKey = p.channelKey ∧ (session o ul now s pkt l q p prio rand).1 = s.setPeer l q p' := by
  have h1 := checkDates_key o now p pkt.reinitDates
  unfold session at h ⊢
  cases hd : checkDates o now p pkt.reinitDates with
  | mk p' v =>
    rw [hd] at h h1
    cases v with
    | fail e => cases h
    | nop =>
      simp only at h
      cases hm : sendMessage o ul now (s.setPeer l q p') l q .nop false rand with
      | error e => rw [hm] at h; cases h
      | ok x => rw [hm] at h; cases h
    | go =>
      simp only at h ⊢
      have h2 := checkSeqnos_key o p' prio pkt.seqno pkt.confirmSeqno
      cases hs : checkSeqnos o p' prio pkt.seqno pkt.confirmSeqno with
      | mk p'' w =>
        rw [hs] at h h2
        cases w with
        | go => exact ⟨p'', h2.trans h1, rfl⟩
        | duplicate => cases h
        | confirmTooNew => cases h

/-- Success of a session depends on the peer and the packet only. -/
theorem session_same {o : Opts c} {ul : Bool} {now : Nat} {s s' : State c} {pkt : InPacket} {l q : Bytes}
    {p : Peer c} {prio : Bool} {rand : Nat → Rand c}
    (h : (session o ul now s pkt l q p prio rand).2.1 = .peer q) :
    (session o ul now s' pkt l q p prio rand).2.1 = .peer q := by
  unfold session at h ⊢
  cases hd : checkDates o now p pkt.reinitDates with
  | mk p' v =>
    rw [hd] at h
    cases v with
    | fail e => cases h
    | nop =>
      simp only at h
      cases hm : sendMessage o ul now (s.setPeer l q p') l q .nop false rand with
      | error e => rw [hm] at h; cases h
      | ok x => rw [hm] at h; cases h
    | go =>
      simp only at h ⊢
      cases hs : checkSeqnos o p' prio pkt.seqno pkt.confirmSeqno with
      | mk p'' w =>
        rw [hs] at h
        cases w with
        | go => rfl
        | duplicate => cases h
        | confirmTooNew => cases h

/-- Finding the source: either nothing is stored, or the peer with its address. -/
theorem source_state {o : Opts c} {now : Nat} {s s1 : State c} {raw : Bytes} {pkt : InPacket} {l q : Bytes}
    {chan : Option Bytes} {key : c.Sec} {check : Bool}
    (h : source o now s raw pkt l chan key = (s1, .ok (q, check))) :
    (s1 = s ∧ ∀ s', source o now s' raw pkt l chan key = (s', .ok (q, check))) ∨
    ∃ a pub, chan = none ∧ s1 = (Node.addPeer o s l q a pub key).1 ∧
      ∀ s', (Node.addPeer o s' l q a pub key).2 ≠ .peersNotFound →
        source o now s' raw pkt l chan key = ((Node.addPeer o s' l q a pub key).1, .ok (q, check)) := by
  unfold source at h
  cases chan with
  | some x =>
    simp only at h
    split at h
    · cases h
    · rename_i hn
      cases h
      exact .inl ⟨rfl, fun s' => by unfold source; simp only; rw [if_neg hn]⟩
  | none =>
    simp only at h
    cases hsrc : pkt.src with
    | none =>
      rw [hsrc] at h
      simp only at h
      cases hss : pkt.srcShort with
      | none => rw [hss] at h; cases h
      | some x =>
        rw [hss] at h
        cases h
        exact .inl ⟨rfl, fun s' => by unfold source; simp only [hsrc, hss]⟩
    | some pk =>
      rw [hsrc] at h
      simp only at h
      cases hf : fullId c pk with
      | none => rw [hf] at h; cases h
      | some pub =>
        rw [hf] at h
        simp only at h
        split at h
        · cases h
        rename_i hn
        cases hv : verify c raw pkt.signature pub o.signatureRequired with
        | some e => rw [hv] at h; cases h
        | none =>
          rw [hv] at h
          simp only at h
          cases ha : pkt.address with
          | none =>
            rw [ha] at h
            cases h
            refine .inl ⟨rfl, fun s' => ?_⟩
            unfold source
            simp only [hsrc, hf, hv, ha]
            rw [if_neg hn]
          | some list =>
            rw [ha] at h
            simp only at h
            cases hp : Address.parse o.build now o.clockTolerance list with
            | ok addr =>
              rw [hp] at h
              simp only at h
              cases hadd : Node.addPeer o s l (shortId c pub) addr pub key with
              | mk s2 r =>
                rw [hadd] at h
                have hq : q = shortId c pub ∧ check = false ∧ s1 = s2 := by
                  cases r <;> cases h <;> exact ⟨rfl, rfl, rfl⟩
                obtain ⟨rfl, rfl, rfl⟩ := hq
                refine .inr ⟨addr, pub, rfl, by rw [hadd], fun s' hs' => ?_⟩
                unfold source
                simp only [hsrc, hf, hv, ha, hp]
                rw [if_neg hn]
            | _ => rw [hp] at h; cases h

theorem Kept.handle {s : State c} (h : Kept G s0 l q X l' q' K s) (hne : ¬ (l' = l ∧ q' = q)) {o : Opts c}
    {ul : Bool} {now : Nat} {data : Bytes} {key : c.Sec} {rand : Nat → Rand c} {prio : Bool} {ms : List Message}
    (hk : s.peer l' q' = none → key = K)
    (hacc : (Receiver.handle o ul now s data key rand).2.1 = .accepted l' q' prio ms) :
    Kept G s0 l q X l' q' K (Receiver.handle o ul now s data key rand).1 := by
  obtain ⟨s1, d, pkt, rest, e1, e2, -, -, -, -, e3, e4⟩ := handle_accepted hacc
  rw [e4]
  have k1 : Kept G s0 l q X l' q' K s1 ∧ (s1.peer l' q' = none → key = K) := by
    have : s1 = (decrypt o s data).1 := by rw [e1]
    rw [this]
    unfold decrypt
    cases parseHandshake c o.keys data with
    | notForUs =>
      simp only
      cases s.byId.get (data.take 32) with
      | none => exact ⟨h, hk⟩
      | some x =>
        simp only
        cases s.heap.get x.1 with
        | none => exact ⟨h, hk⟩
        | some ch =>
          simp only
          cases ch.decrypt c x.2 data with
          | ok v d => exact ⟨h.setReady _, fun hn => hk (by rw [← peer_setReady s x.1]; exact hn)⟩
          | _ => exact ⟨h, hk⟩
    | _ => exact ⟨h, hk⟩
  obtain ⟨s2, check, p, f1, f2, -, f3, f4⟩ := checkPacket_peer e3
  rw [f4]
  have k2 : Kept G s0 l q X l' q' K s2 := by
    rcases source_state f1 with ⟨e, -⟩ | ⟨a, pub, -, e, -⟩
    · rw [e]; exact k1.1
    · rw [e]; exact k1.1.addPeer hne o a pub key k1.2
  obtain ⟨p', g1, g2⟩ := session_state f3
  rw [g2]
  exact k2.setPeer hne (g1.trans (k2.key p (lookup_ok f2)))

theorem Kept.channelMessage {s : State c} (h : Kept G s0 l q X l' q' K s) (k : Bytes) (date : Nat) (x : Ctx)
    (hfree : ∀ pub, c.decodePub k = some pub → G → ∀ b,
      ((Channel.new c l' q' K pub date x).inn.sub b).id ≠ X) :
    Kept G s0 l q X l' q' K (Process.channelMessage s l' q' k date x).1 := by
  rcases channelMessage_fst s l' q' k date x with e | ⟨pub, e1, e2⟩
  · rw [e]; exact h
  · rw [e2]; exact h.create pub date x (hfree pub e1)

theorem Kept.sent {s : State c} (h : Kept G s0 l q X l' q' K s) (hne : ¬ (l' = l ∧ q' = q)) {o : Opts c}
    {ul : Bool} {now : Nat} {m : Message} {prio : Bool} {rand : Nat → Rand c} {p : Peer c} {ds : List Bytes}
    (hs : sendMessage o ul now s l' q' m prio rand = .ok (p, ds)) :
    Kept G s0 l q X l' q' K (s.setPeer l' q' p) := by
  obtain ⟨p0, h0, os⟩ := sendMessage_onlySent _ _ _ _ _ _ _ _ _ _ _ hs
  refine h.setPeer hne ?_
  rw [os.1]
  exact h.key p0 h0

theorem Kept.whole {s : Full c} (h : Kept G s0 l q X l' q' K s.node) (hne : ¬ (l' = l ∧ q' = q)) {o : Opts c}
    {ul : Bool} {now : Nat} {subs : Event → Reply} {prio : Bool} {rand : Nat → Rand c} {m : Message}
    (hfree : ∀ k pub date x, Asks m k → c.decodePub k = some pub → G → ∀ b,
      ((Channel.new c l' q' K pub date x).inn.sub b).id ≠ X) :
    Kept G s0 l q X l' q' K (processWhole o ul now subs s l' q' prio rand m).1.node := by
  cases m with
  | answer => exact h
  | custom d => simp only [processWhole]; split <;> exact h
  | confirmChannel k _ date => exact h.channelMessage _ _ _ fun pub hp hq b => hfree k pub date .confirm rfl hp hq b
  | part => exact h
  | createChannel k date => exact h.channelMessage _ _ _ fun pub hp hq b => hfree k pub date .create rfl hp hq b
  | query id d =>
    simp only [processWhole]
    split
    · exact h
    · exact h
    · split
      · exact h
      · rename_i hs
        exact h.sent hne hs
  | nop => exact h
  | reinit => exact h

theorem Kept.message {s : Full c} (h : Kept G s0 l q X l' q' K s.node) (hne : ¬ (l' = l ∧ q' = q)) {o : Opts c}
    {ul : Bool} {now : Nat} {subs : Event → Reply} {prio : Bool} {rand : Nat → Rand c} {m : Message}
    (hfree : ∀ k pub date x, Announces c m k → c.decodePub k = some pub → G → ∀ b,
      ((Channel.new c l' q' K pub date x).inn.sub b).id ≠ X) :
    Kept G s0 l q X l' q' K (processMessage o ul now subs s l' q' prio rand m).1.node := by
  have hw : Kept G s0 l q X l' q' K (processWhole o ul now subs s l' q' prio rand m).1.node :=
    h.whole hne fun k pub date x ha => hfree k pub date x (.inl ha)
  cases m with
  | part hash total offset data =>
    simp only [processMessage]
    cases ht : Transfer.recvPart c.sha s.transfers ⟨hash, total, offset, data⟩ with
    | mk t r =>
      cases r with
      | some buf =>
        have hsha := Props.C05_receiver_integrity c.sha s.transfers ⟨hash, total, offset, data⟩ buf
          (by rw [ht])
        simp only
        cases hr : readMessage buf with
        | none => exact h
        | some x =>
          obtain ⟨m', rest⟩ := x
          refine Kept.whole (s := { s with transfers := t }) h hne fun k pub date x ha => ?_
          exact hfree k pub date x (.inr ⟨hash, total, offset, data, buf, m', rest, rfl, hsha, hr, ha⟩)
      | _ => exact h
  | _ => exact hw

theorem Kept.all {o : Opts c} {ul : Bool} {now : Nat} {subs : Event → Reply} {prio : Bool}
    (hne : ¬ (l' = l ∧ q' = q)) {ms : List Message}
    (hfree : ∀ m ∈ ms, ∀ k pub date x, Announces c m k → c.decodePub k = some pub → G → ∀ b,
      ((Channel.new c l' q' K pub date x).inn.sub b).id ≠ X) :
    ∀ {rand : Nat → Rand c} {s : Full c}, Kept G s0 l q X l' q' K s.node →
      Kept G s0 l q X l' q' K (processAll o ul now subs l' q' prio rand s ms).1.node := by
  induction ms with
  | nil => intro rand s h; exact h
  | cons m ms ih =>
    intro rand s h
    have h1 := h.message (o := o) (ul := ul) (now := now) (subs := subs) (prio := prio) (rand := rand) hne
      (hfree m (by simp))
    simp only [processAll]
    split
    · exact ih (fun m' hm' => hfree m' (by simp [hm'])) h1
    · exact h1

/-! ### Acceptance -/

theorem lookup_intro {s : State c} {l q : Bytes} {b : Bool} {p : Peer c} (h : s.peer l q = some p)
    (hb : b = true → (s.byPeer.get q).isSome) : lookup s l q b = .ok p := by
  unfold lookup
  unfold State.peer at h
  cases ht : s.peers.get l with
  | none => rw [ht] at h; cases h
  | some t =>
    rw [ht] at h
    simp only at h ⊢
    rw [if_neg, h]
    rintro ⟨e, e'⟩
    rw [hb e] at e'
    cases e'

/-- `add_peer` looks at the table of the local id and at the peer only. -/
theorem addPeer_view {s s' : State c} {l q : Bytes} (o : Opts c) (a : SockAddr) (pub : c.Pub) (key : c.Sec)
    (ht : (s'.peers.get l).isSome = (s.peers.get l).isSome) (hp : s'.peer l q = s.peer l q) :
    (Node.addPeer o s' l q a pub key).2 = (Node.addPeer o s l q a pub key).2 ∧
    (Node.addPeer o s' l q a pub key).1.peer l q = (Node.addPeer o s l q a pub key).1.peer l q := by
  unfold Node.addPeer
  split
  · exact ⟨rfl, hp⟩
  split
  · exact ⟨rfl, hp⟩
  cases h1 : s.peers.get l with
  | none =>
    rw [h1] at ht
    cases h2 : s'.peers.get l with
    | none => exact ⟨rfl, hp⟩
    | some t => rw [h2] at ht; cases ht
  | some t =>
    rw [h1] at ht
    cases h2 : s'.peers.get l with
    | none => rw [h2] at ht; cases ht
    | some t' =>
      have hp' := hp
      unfold State.peer at hp'
      rw [h1, h2] at hp'
      simp only at hp' ⊢
      rw [hp']
      cases t.get q with
      | none => exact ⟨rfl, by simp [peer_setPeer, h1, h2]⟩
      | some p => exact ⟨rfl, by simp [peer_setPeer, h1, h2]⟩

/-- A packet stays acceptable as long as `Kept` holds. -/
theorem Kept.accepted {s : State c} {d : Bytes} (h : Kept G s0 l q (d.take 32) l' q' K s) {o : Opts c} {ul : Bool}
    {now : Nat} {key : c.Sec} {rand : Nat → Rand c} {prio : Bool} {ms : List Message}
    (hq : G ∨ parseHandshake c o.keys d ≠ .notForUs)
    (hacc : (Receiver.handle o ul now s0 d key rand).2.1 = .accepted l q prio ms) :
    (Receiver.handle o ul now s d key rand).2.1 = .accepted l q prio ms := by
  obtain ⟨s1, dd, pkt, rest, e1, e2, e3, e4, e5, e6, e7, -⟩ := handle_accepted hacc
  obtain ⟨s2, check, p, f1, f2, f3, f4, -⟩ := checkPacket_peer e7
  -- decryption
  have hdec : ∃ s1', decrypt o s d = (s1', .ok (some dd)) ∧ s1'.peers = s.peers ∧ s1.peers = s0.peers ∧
      (dd.chan.isSome = true → (s1'.byPeer.get q).isSome) := by
    cases hp : parseHandshake c o.keys d with
    | ok l1 v pl =>
      rw [decrypt_handshake hp] at e1
      cases e1
      exact ⟨s, decrypt_handshake hp, rfl, rfl, by simp⟩
    | notForUs =>
      rcases hq with hq | hq
      · obtain ⟨r, ch, d1, d2, d3, d4, d5, d6⟩ := decrypt_channel hp e1
        rw [d5] at f1
        obtain ⟨g1, -⟩ := source_channel f1
        obtain ⟨c1, y, c2⟩ := h.chan hq r dd.priority ch d1 d2 g1.symm
        have hpe : ∀ (s : State c) r, (s.setReady r).peers = s.peers := by
          intro s r; unfold State.setReady; split <;> rfl
        have hbp : ∀ (s : State c) r, (s.setReady r).byPeer = s.byPeer := by
          intro s r; unfold State.setReady; split <;> rfl
        refine ⟨s.setReady r, ?_, hpe _ _, by rw [d6]; exact hpe _ _, ?_⟩
        · unfold decrypt
          rw [hp]
          simp only [c1, c2]
          have : ({ ch with ready := y } : Channel).decrypt c dd.priority d = ch.decrypt c dd.priority d := rfl
          rw [this, d3, ← d4, ← d5]
        · intro _
          rw [hbp]
          obtain ⟨ch', k1, k2, -⟩ := h.good.listed _ _ _ c1
          rw [c2] at k1
          cases k1
          rw [g1, k2]
          rfl
      · exact absurd hp hq
    | badLength => unfold decrypt at e1; rw [hp] at e1; cases e1
    | badChecksum => unfold decrypt at e1; rw [hp] at e1; cases e1
    | invalidPublicKey => unfold decrypt at e1; rw [hp] at e1; cases e1
    | panic => unfold decrypt at e1; rw [hp] at e1; cases e1
  obtain ⟨s1', hd1, hd2, hd3, hd4⟩ := hdec
  have hv1 : (s1'.peers.get l).isSome = (s1.peers.get l).isSome := by rw [hd2, hd3]; exact h.table
  have hv2 : s1'.peer l q = s1.peer l q := by
    rw [peer_congr hd2, peer_congr hd3]; exact h.peer
  -- the source
  have hsrc : ∃ s2', source o now s1' dd.data pkt l dd.chan key = (s2', .ok (q, check)) ∧
      s2'.peer l q = some p ∧ s2'.byPeer = s1'.byPeer := by
    have hl := lookup_ok f2
    rcases source_state f1 with ⟨e, hs⟩ | ⟨a, pub, hn, e, hs⟩
    · rw [e] at hl
      exact ⟨s1', hs s1', hv2.trans hl, rfl⟩
    · obtain ⟨w1, w2⟩ := addPeer_view o a pub key hv1 hv2
      refine ⟨_, hs s1' ?_, ?_, (addPeer_tab _ _ _ _ _ _ _).byPeer⟩
      · rw [w1]
        intro hnf
        have : (Node.addPeer o s1 l q a pub key).1 = s1 ∧ s1.peer l q = none := by
          unfold Node.addPeer at hnf ⊢
          split at hnf
          · cases hnf
          rename_i n1
          split at hnf
          · cases hnf
          rename_i n2
          cases ht : s1.peers.get l with
          | none => exact ⟨by rw [if_neg n1, if_neg n2], by rw [State.peer, ht]⟩
          | some t =>
            rw [ht] at hnf
            simp only at hnf
            cases hg : t.get q <;> rw [hg] at hnf <;> cases hnf
        rw [e, this.1, this.2] at hl
        cases hl
      · rw [w2, ← e]; exact hl
  obtain ⟨s2', hs1, hs2, hs3⟩ := hsrc
  have hlook := lookup_intro (b := dd.chan.isSome) hs2 (by rw [hs3]; exact hd4)
  have hver : (if check then verify c dd.data pkt.signature p.pub false else none) = none := by
    cases check with
    | false => rfl
    | true => exact f3 rfl
  have hsess := session_same (s' := s2') f4
  have hcp : (checkPacket o ul now s1' dd.data pkt l dd.chan prio key rand).2.1 = .peer q := by
    unfold checkPacket
    rw [hs1]
    simp only
    rw [hlook]
    simp only
    rw [hver]
    exact hsess
  unfold Receiver.handle
  rw [hd1]
  simp only
  rw [if_neg, e2]
  · simp only
    rw [e3, e4]
    cases hx : checkPacket o ul now s1' dd.data pkt l dd.chan prio key rand with
    | mk s3 z =>
      obtain ⟨w, out⟩ := z
      rw [hx] at hcp
      simp only at hcp
      subst hcp
      simp only
      rw [e5]
  · rintro ⟨a, b⟩
    rcases e6 with e6 | e6
    · rw [e6] at a; cases a
    · exact b e6

/-- Packets from `q` to `l` are accepted before and after any operation that is about another pair of ids, if
the remote ids differ or if the packet is not sent through a channel. Ids of channels must not clash. -/
theorem C94_kept_partial (o : Opts c) (ul : Bool) (s : Full c) (hs : Good s.node) (op : Op c)
    (l q l' q' : Bytes) (hop : OnlyAbout o ul s l' q' op) (hne : ¬ (l' = l ∧ q' = q))
    (now : Nat) (d : Bytes) (key : c.Sec) (rand : Nat → Rand c) (prio : Bool) (ms : List Message)
    (hq : q' ≠ q ∧ NoClash o ul s l' q' (d.take 32) op ∨ parseHandshake c o.keys d ≠ .notForUs)
    (hacc : (Receiver.handle o ul now s.node d key rand).2.1 = .accepted l q prio ms) :
    (Receiver.handle o ul now (step o ul s op).node d key rand).2.1 = .accepted l q prio ms := by
  obtain ⟨G, hG, hfree⟩ : ∃ G : Prop, (G ∨ parseHandshake c o.keys d ≠ .notForUs) ∧
      (G → NoClash o ul s l' q' (d.take 32) op) := by
    rcases hq with ⟨-, hq⟩ | hq
    · exact ⟨True, .inl trivial, fun _ => hq⟩
    · exact ⟨False, .inr hq, False.elim⟩
  have hstart : ∀ k, Kept G s.node l q (d.take 32) l' q' (((s.node.peer l' q').map (·.channelKey)).getD k)
      s.node := by
    intro k
    refine ⟨hs, rfl, rfl, ?_, fun g => (hfree g).1, fun _ r b ch h1 h2 _ => ⟨h1, ch.ready, h2⟩⟩
    intro p hp
    rw [hp]
    rfl
  cases op with
  | recv now' subs data key' rand' =>
    obtain ⟨prio', ms', hop⟩ := hop
    have k1 := (hstart key').handle hne (by intro hn; rw [hn]; rfl) hop
    refine Kept.accepted (s0 := s.node) (G := G) (l' := l') (q' := q')
      (K := ((s.node.peer l' q').map (·.channelKey)).getD key') ?_ hG hacc
    simp only [step]
    unfold receive
    cases hh : Receiver.handle o ul now' s.node data key' rand' with
    | mk n z =>
      obtain ⟨w, out⟩ := z
      rw [hh] at hop k1
      simp only at hop
      subst hop
      refine Kept.all hne ?_ k1
      intro m hm k pub date x ha hk g b
      exact (hfree g).2 prio' ms' m k pub date x b (by rw [hh]) hm ha hk
  | send now' l1 q1 m prio' rand' =>
    obtain ⟨rfl, rfl⟩ := hop
    simp only [step]
    cases hm : sendMessage o ul now' s.node l1 q1 m prio' rand' with
    | error e => exact hacc
    | ok x => exact Kept.accepted ((hstart key).sent hne hm) hG hacc
  | add l1 q1 addr pub key' =>
    obtain ⟨rfl, rfl⟩ := hop
    exact Kept.accepted ((hstart key').addPeer hne o addr pub key' (by intro hn; rw [hn]; rfl)) hG hacc
  | remove l1 q1 =>
    obtain ⟨rfl, rfl⟩ := hop
    simp only [step]
    unfold removePeer
    cases ht : s.node.peers.get l1 with
    | none => exact hacc
    | some t =>
      simp only
      refine Kept.accepted ((hstart key).dropped (K' := key) (s1 := { dropChannel s.node q1 with
        peers := s.node.peers.put l1 (t.erase q1) }) rfl rfl rfl rfl ?_ ?_ ?_) hG hacc
      · simp only [AMap.get_put]
        split
        · rename_i e; rw [e, ht]; rfl
        · rfl
      · simp only [State.peer, AMap.get_put]
        by_cases e : l = l1
        · subst e
          rw [if_pos rfl, ht]
          simp only [AMap.get_erase]
          rw [if_neg]
          rintro rfl
          exact hne ⟨rfl, rfl⟩
        · rw [if_neg e]
      · intro p hp
        simp [State.peer, AMap.get_put, AMap.get_erase] at hp
  | reset l1 q1 key' =>
    obtain ⟨rfl, rfl⟩ := hop
    simp only [step]
    unfold resetPeer
    cases hp : s.node.peer l1 q1 with
    | none => exact hacc
    | some p =>
      simp only
      have hps := dropChannel_peers s.node q1
      have t := setPeer_tab (dropChannel s.node q1) l1 q1 (p.reset key')
      have hheap : ((dropChannel s.node q1).setPeer l1 q1 (p.reset key')).heap = (dropChannel s.node q1).heap := by
        unfold State.setPeer; split <;> rfl
      refine Kept.accepted ((hstart key).dropped (K' := key') t.byPeer t.byId hheap t.next ?_ ?_ ?_) hG hacc
      · rw [setPeer_table, hps]
      · rw [peer_setPeer, if_neg]
        · exact peer_congr hps _ _
        · rintro ⟨rfl, rfl, -⟩
          exact hne ⟨rfl, rfl⟩
      · intro p1 h1
        have := peer_some_table hp
        rw [peer_setPeer, if_pos ⟨rfl, rfl, by rw [hps]; exact this⟩] at h1
        cases h1
        rfl
  | expire t => exact hacc

/-! ### The witness -/
namespace Toy
open Verif.Identities (Nodes Act act sent)
open Verif.Identities.Toy (ident)

/-- Now the second node has two ids, 5 and 6; the first one has id 3. -/
def nodes : Nodes Crypto.toy where
  opts b := { toyOpts with
    startTime := if b then 110 else 100
    socketAddr := ⟨1, 2, 3, if b then 4 else 5, 5⟩
    keys := fun i =>
      if b then if i = ident 5 then some (show UInt8 from 5)
        else if i = ident 6 then some (show UInt8 from 6) else none
      else if i = ident 3 then some (show UInt8 from 3) else none }
  loop _ := false

def start (b : Bool) : Full Crypto.toy where
  node :=
    { peers :=
        if b then [(ident 5, [(ident 3, Identities.Toy.peer b 3 9)]), (ident 6, [(ident 3, Identities.Toy.peer b 3 10)])]
        else [(ident 3, [(ident 5, Identities.Toy.peer b 5 7), (ident 6, Identities.Toy.peer b 6 8)])]
      heap := [], next := 0, byPeer := [], byId := [] }
  transfers := []

/-- The datagram of a message of one byte. -/
def datagram (σ : Bool → Full Crypto.toy) (a : Act Crypto.toy) : Bytes :=
  match sent nodes σ a with
  | .ok (_, [d]) => d
  | _ => []

/-- Ids 3 and 5 make a channel. -/
def first : Bool → Full Crypto.toy := act nodes start (Identities.Toy.say false 120 3 5)
def second : Bool → Full Crypto.toy := act nodes first (Identities.Toy.say true 121 5 3)

/-- What the second node received and sent so far. -/
def ops : List (Op Crypto.toy) :=
  [.recv 120 (fun _ => .done) (datagram start (Identities.Toy.say false 120 3 5)) (show UInt8 from 1) toyRand,
   .send 121 (ident 5) (ident 3) (.custom [1, 2, 3, 4]) false toyRand]

/-- The next datagram from 3 to 5 goes through the channel. -/
def next : Bytes := datagram second (Identities.Toy.say false 122 3 5)

/-- A datagram from 3 to 6 with a request for a channel. -/
def asking : Bytes := datagram second (Identities.Toy.say false 122 3 6)

def other : Op Crypto.toy := .recv 122 (fun _ => .done) asking (show UInt8 from 1) toyRand

/-- The state of the second node. -/
local notation "now2" => run (nodes.opts true) false (start true) ops

theorem accepted : (handle (nodes.opts true) false 123 (now2).node next (show UInt8 from 1) toyRand).2.1 =
    .accepted (ident 5) (ident 3) false [.custom [1, 2, 3, 4]] := by decide +kernel

theorem lost : (handle (nodes.opts true) false 123 (step (nodes.opts true) false now2 other).node next
    (show UInt8 from 1) toyRand).2.1 = .unknownId := by decide +kernel

theorem asked : (handle (nodes.opts true) false 122 (now2).node asking (show UInt8 from 1) toyRand).2.1 =
    .accepted (ident 6) (ident 3) false
      [.createChannel (Crypto.toy.pubBytes (Crypto.toy.pubOf (show UInt8 from 8))) 122, .custom [1, 2, 3, 4]] := by
  decide +kernel

theorem about : OnlyAbout (nodes.opts true) false now2 (ident 6) (ident 3) other :=
  ⟨false, _, asked⟩

end Toy

/-- C94 is violated: a node with the local ids 5 and 6 has a channel with id 3 for its id 5. When id 3 asks
for a channel with id 6, the channel of id 5 is dropped, and what id 3 sends through it is ignored. -/
theorem C94_full_false : ¬ C94_full := by
  intro h
  have := h Crypto.toy Crypto.toy_lawful (Toy.nodes.opts true) false (Toy.start true) ⟨rfl, rfl, rfl⟩ Toy.ops Toy.other
    (Identities.Toy.ident 5) (Identities.Toy.ident 3) (Identities.Toy.ident 6) (Identities.Toy.ident 3)
    Toy.about (fun h => absurd h.1 (by decide +kernel)) 123 Toy.next (show UInt8 from 1) toyRand _ _ Toy.accepted
  rw [Toy.lost] at this
  cases this

/-- The hypotheses are met: the next packet of the channel is still accepted after a peer with another id
was added. -/
example : (handle (Toy.nodes.opts true) false 123 (step (Toy.nodes.opts true) false
      (run (Toy.nodes.opts true) false (Toy.start true) Toy.ops)
      (.add (Identities.Toy.ident 5) (Identities.Toy.ident 9) ⟨1, 2, 3, 6, 5⟩ (show UInt8 from 9) (show UInt8 from 11))).node
      Toy.next (show UInt8 from 1) toyRand).2.1 =
    .accepted (Identities.Toy.ident 5) (Identities.Toy.ident 3) false [.custom [1, 2, 3, 4]] :=
  C94_kept_partial (Toy.nodes.opts true) false (run (Toy.nodes.opts true) false (Toy.start true) Toy.ops)
    (Verif.Establish.run_good _ _ _ _ ⟨rfl, rfl, rfl⟩)
    (.add (Identities.Toy.ident 5) (Identities.Toy.ident 9) ⟨1, 2, 3, 6, 5⟩ (show UInt8 from 9) (show UInt8 from 11))
    (Identities.Toy.ident 5)
    (Identities.Toy.ident 3) (Identities.Toy.ident 5) (Identities.Toy.ident 9) ⟨rfl, rfl⟩
    (fun h => absurd h.2 (by decide +kernel)) 123 Toy.next (show UInt8 from 1) toyRand _ _
    (.inl ⟨by decide +kernel, ⟨fun ch h => by {
      have : (run (Toy.nodes.opts true) false (Toy.start true) Toy.ops).node.byPeer.get (Identities.Toy.ident 9) = none := by
        decide +kernel
      unfold State.channel at h
      rw [this] at h
      cases h }, trivial⟩⟩) Toy.accepted

/-- A handshake packet is still accepted after the peer with the same remote id was removed for the other
local id. -/
example : (handle (Toy.nodes.opts true) false 122 (step (Toy.nodes.opts true) false
      (run (Toy.nodes.opts true) false (Toy.start true) Toy.ops)
      (.remove (Identities.Toy.ident 5) (Identities.Toy.ident 3))).node
      Toy.asking (show UInt8 from 1) toyRand).2.1 =
    .accepted (Identities.Toy.ident 6) (Identities.Toy.ident 3) false
      [.createChannel (Crypto.toy.pubBytes (Crypto.toy.pubOf (show UInt8 from 8))) 122, .custom [1, 2, 3, 4]] :=
  C94_kept_partial (Toy.nodes.opts true) false (run (Toy.nodes.opts true) false (Toy.start true) Toy.ops)
    (Verif.Establish.run_good _ _ _ _ ⟨rfl, rfl, rfl⟩)
    (.remove (Identities.Toy.ident 5) (Identities.Toy.ident 3))
    (Identities.Toy.ident 6)
    (Identities.Toy.ident 3) (Identities.Toy.ident 5) (Identities.Toy.ident 3) ⟨rfl, rfl⟩
    (fun h => absurd h.1 (by decide +kernel)) 122 Toy.asking (show UInt8 from 1) toyRand _ _
    (.inr (by decide +kernel)) Toy.asked

end Verif.Isolation
