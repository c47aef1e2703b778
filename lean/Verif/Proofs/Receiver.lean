import Verif.Model.Receiver
import Verif.Proofs.AMap

namespace Verif.Node
open Verif.Adnl Verif.AdnlProto Verif.Address

variable {c : Crypto}

theorem peer_setPeer (s : State c) (l q : Bytes) (p : Peer c) (l' q' : Bytes) :
    (s.setPeer l q p).peer l' q' =
      if l' = l ∧ q' = q ∧ (s.peers.get l).isSome then some p else s.peer l' q' := by
  unfold State.setPeer
  cases h : s.peers.get l with
  | none => simp
  | some t =>
    unfold State.peer
    simp only [AMap.get_put]
    by_cases hl : l' = l
    · subst hl
      simp only [if_true, AMap.get_put, h]
      by_cases hq : q' = q
      · simp [hq]
      · have hq' : ¬ q = q' := fun e => hq e.symm
        simp [hq, hq']
    · have hl' : ¬ l = l' := fun e => hl e.symm
      simp [hl, hl']

theorem peer_some_table {s : State c} {l q : Bytes} {p : Peer c} (h : s.peer l q = some p) :
    (s.peers.get l).isSome := by
  unfold State.peer at h
  cases ht : s.peers.get l with
  | none => rw [ht] at h; cases h
  | some t => rfl

@[simp] theorem peer_setReady (s : State c) (r : Nat) (l q : Bytes) :
    (s.setReady r).peer l q = s.peer l q := by
  unfold State.setReady State.peer
  cases s.heap.get r <;> rfl

/-- Every known peer stays known and is related to its earlier state by `G`. -/
def Ext (G : Peer c → Peer c → Prop) (s s' : State c) : Prop :=
  ∀ l q p, s.peer l q = some p → ∃ p', s'.peer l q = some p' ∧ G p p'

theorem Ext.refl {G : Peer c → Peer c → Prop} (hG : ∀ p, G p p) (s : State c) : Ext G s s :=
  fun _ _ p h => ⟨p, h, hG p⟩

theorem Ext.trans {G : Peer c → Peer c → Prop} (hG : ∀ a b d, G a b → G b d → G a d)
    {s1 s2 s3 : State c} (h12 : Ext G s1 s2) (h23 : Ext G s2 s3) : Ext G s1 s3 := by
  intro l q p h
  obtain ⟨p', h', g⟩ := h12 l q p h
  obtain ⟨p'', h'', g'⟩ := h23 l q p' h'
  exact ⟨p'', h'', hG _ _ _ g g'⟩

theorem Ext.setPeer {G : Peer c → Peer c → Prop} (hG : ∀ p, G p p) {s : State c} {l q : Bytes}
    {p p' : Peer c} (h : s.peer l q = some p) (g : G p p') : Ext G s (s.setPeer l q p') := by
  intro l1 q1 p1 h1
  rw [peer_setPeer]
  by_cases hc : l1 = l ∧ q1 = q ∧ (s.peers.get l).isSome
  · rw [if_pos hc]
    obtain ⟨rfl, rfl, -⟩ := hc
    rw [h] at h1
    cases h1
    exact ⟨p', rfl, g⟩
  · rw [if_neg hc]
    exact ⟨p1, h1, hG p1⟩

theorem Ext.setReady {G : Peer c → Peer c → Prop} (hG : ∀ p, G p p) (s : State c) (r : Nat) :
    Ext G s (s.setReady r) := fun l q p h => ⟨p, by simpa using h, hG p⟩

/-- A predicate on all stored peers together with their id. -/
def AllPeers (P : Bytes → Peer c → Prop) (s : State c) : Prop := ∀ l q p, s.peer l q = some p → P q p

theorem AllPeers.setPeer {P : Bytes → Peer c → Prop} {s : State c} (h : AllPeers P s) {l q : Bytes}
    {p : Peer c} (hp : P q p) : AllPeers P (s.setPeer l q p) := by
  intro l1 q1 p1 h1
  rw [peer_setPeer] at h1
  by_cases hc : l1 = l ∧ q1 = q ∧ (s.peers.get l).isSome
  · rw [if_pos hc] at h1
    cases h1
    rw [hc.2.1]
    exact hp
  · rw [if_neg hc] at h1
    exact h l1 q1 p1 h1

/-- What `add_peer` does to the table. -/
theorem addPeer_cases (o : Opts c) (s : State c) (l q : Bytes) (a : SockAddr) (pub : c.Pub)
    (key : c.Sec) :
    (addPeer o s l q a pub key).1 = s ∨
    (∃ p, s.peer l q = some p ∧
      (addPeer o s l q a pub key).1 = s.setPeer l q { p with addr := pack a }) ∨
    (s.peer l q = none ∧
      (addPeer o s l q a pub key).1 = s.setPeer l q (Peer.new o.startTime a pub key)) := by
  unfold addPeer
  split
  · exact .inl rfl
  split
  · exact .inl rfl
  unfold State.peer
  cases h1 : s.peers.get l with
  | none => exact .inl rfl
  | some t =>
    simp only
    cases h2 : t.get q with
    | none => exact .inr (.inr ⟨rfl, rfl⟩)
    | some p => exact .inr (.inl ⟨p, rfl, rfl⟩)

theorem Ext.addPeer {G : Peer c → Peer c → Prop} (hG : ∀ p, G p p)
    (ha : ∀ p a, G p { p with addr := a }) (o : Opts c) (s : State c) (l q : Bytes) (a : SockAddr)
    (pub : c.Pub) (key : c.Sec) : Ext G s (Node.addPeer o s l q a pub key).1 := by
  rcases addPeer_cases o s l q a pub key with h | ⟨p, hp, h⟩ | ⟨hn, h⟩
  · rw [h]; exact Ext.refl hG s
  · rw [h]; exact Ext.setPeer hG hp (ha p _)
  · rw [h]
    intro l1 q1 p1 h1
    rw [peer_setPeer]
    by_cases hc : l1 = l ∧ q1 = q ∧ (s.peers.get l).isSome
    · obtain ⟨rfl, rfl, -⟩ := hc
      rw [hn] at h1
      cases h1
    · rw [if_neg hc]
      exact ⟨p1, h1, hG p1⟩

end Verif.Node

namespace Verif.Sender
open Verif.Adnl Verif.AdnlProto Verif.Address Verif.Node

variable {c : Crypto}

/-- Sending changes the sequence numbers only. -/
def OnlySent (p p' : Peer c) : Prop :=
  p' = { p with sendOrd := p'.sendOrd, sendPrio := p'.sendPrio } ∧
  p.sendOrd ≤ p'.sendOrd ∧ p.sendPrio ≤ p'.sendPrio

theorem OnlySent.refl (p : Peer c) : OnlySent p p := ⟨rfl, Nat.le_refl _, Nat.le_refl _⟩

theorem OnlySent.trans {a b d : Peer c} (h1 : OnlySent a b) (h2 : OnlySent b d) : OnlySent a d := by
  obtain ⟨e1, l1, m1⟩ := h1
  obtain ⟨e2, l2, m2⟩ := h2
  refine ⟨?_, by omega, by omega⟩
  rw [e2, e1]

theorem onlySent_set (p : Peer c) (b : Bool) :
    OnlySent p (p.setSendSeqno b (PacketsHistory.bump (p.sendSeqno b)).2) := by
  cases b <;> exact ⟨rfl, by simp [Peer.setSendSeqno, Peer.sendSeqno, PacketsHistory.bump],
    by simp [Peer.setSendSeqno, Peer.sendSeqno, PacketsHistory.bump]⟩

theorem sendPacket_onlySent (o : Opts c) (ul : Bool) (now : Nat) (peerId : Bytes) (p : Peer c)
    (sg : Signer c) (m : OutMessages) (r : Rand c) (p' : Peer c) (d : Bytes)
    (h : sendPacket o ul now peerId p sg m r = .ok (p', d)) : OnlySent p p' := by
  unfold sendPacket at h
  split at h
  · cases h
  · cases sg with
    | channel ch prio => simp only at h; cases h; exact onlySent_set _ _
    | random key => simp only at h; cases h; exact onlySent_set _ _

theorem sendAll_onlySent (o : Opts c) (ul : Bool) (now : Nat) (peerId : Bytes) (sg : Signer c)
    (ms : List OutMessages) : ∀ (p : Peer c) (rand : Nat → Rand c) (p' : Peer c) (ds : List Bytes),
    sendAll o ul now peerId sg p ms rand = .ok (p', ds) → OnlySent p p' := by
  induction ms with
  | nil => intro p rand p' ds h; cases h; exact OnlySent.refl _
  | cons m ms ih =>
    intro p rand p' ds h
    unfold sendAll at h
    cases h1 : sendPacket o ul now peerId p sg m (rand 0) with
    | error e => rw [h1] at h; cases h
    | ok x =>
      obtain ⟨p1, d1⟩ := x
      rw [h1] at h
      simp only at h
      cases h2 : sendAll o ul now peerId sg p1 ms (fun k => rand (k + 1)) with
      | error e => rw [h2] at h; cases h
      | ok y =>
        obtain ⟨p2, ds2⟩ := y
        rw [h2] at h
        simp only at h
        cases h
        exact (sendPacket_onlySent _ _ _ _ _ _ _ _ _ _ h1).trans (ih _ _ _ _ h2)

theorem sendMessage_onlySent (o : Opts c) (ul : Bool) (now : Nat) (s : State c) (l q : Bytes)
    (m : Message) (prio : Bool) (rand : Nat → Rand c) (p' : Peer c) (ds : List Bytes)
    (h : sendMessage o ul now s l q m prio rand = .ok (p', ds)) :
    ∃ p, s.peer l q = some p ∧ OnlySent p p' := by
  unfold sendMessage at h
  unfold State.peer
  cases h1 : s.peers.get l with
  | none => rw [h1] at h; cases h
  | some t =>
    rw [h1] at h
    simp only at h ⊢
    cases h2 : t.get q with
    | none => rw [h2] at h; cases h
    | some p =>
      rw [h2] at h
      simp only at h
      cases h3 : o.keys l with
      | none => rw [h3] at h; cases h
      | some key =>
        rw [h3] at h
        simp only at h
        cases h4 : countedSize m with
        | none => rw [h4] at h; cases h
        | some size =>
          rw [h4] at h
          simp only at h
          exact ⟨p, rfl, sendAll_onlySent _ _ _ _ _ _ _ _ _ _ h⟩

end Verif.Sender

namespace Verif.Receiver
open Verif.Adnl Verif.AdnlProto Verif.Address Verif.Node

variable {c : Crypto}

theorem source_ext {G : Peer c → Peer c → Prop} (hG : ∀ p, G p p)
    (ha : ∀ p a, G p { p with addr := a }) (o : Opts c) (now : Nat) (s : State c) (raw : Bytes)
    (pkt : InPacket) (l : Bytes) (chan : Option Bytes) (key : c.Sec) :
    Ext G s (source o now s raw pkt l chan key).1 := by
  unfold source
  cases chan with
  | some q => simp only; split <;> exact Ext.refl hG s
  | none =>
    simp only
    cases pkt.src with
    | none => simp only; cases pkt.srcShort <;> exact Ext.refl hG s
    | some pk =>
      simp only
      cases fullId c pk with
      | none => exact Ext.refl hG s
      | some pub =>
        simp only
        split
        · exact Ext.refl hG s
        cases verify c raw pkt.signature pub o.signatureRequired with
        | some e => exact Ext.refl hG s
        | none =>
          simp only
          cases pkt.address with
          | none => exact Ext.refl hG s
          | some list =>
            simp only
            cases Address.parse o.build now o.clockTolerance list with
            | ok addr =>
              simp only
              have := Ext.addPeer hG ha o s l (shortId c pub) addr pub key
              cases hadd : Node.addPeer o s l (shortId c pub) addr pub key with
              | mk s' r =>
                rw [hadd] at this
                cases r <;> exact this
            | _ => exact Ext.refl hG s

theorem lookup_ok {s : State c} {l q : Bytes} {b : Bool} {p : Peer c} (h : lookup s l q b = .ok p) :
    s.peer l q = some p := by
  unfold lookup at h
  unfold State.peer
  cases ht : s.peers.get l with
  | none => rw [ht] at h; cases h
  | some t =>
    rw [ht] at h
    simp only at h ⊢
    split at h
    · cases h
    · cases hq : t.get q with
      | none => rw [hq] at h; cases h
      | some p' => rw [hq] at h; simp only at h; cases h; rfl

/-- The steps of a session for a known peer, for any relation they respect. -/
theorem session_ext {G : Peer c → Peer c → Prop} (hG : ∀ p, G p p)
    (ht : ∀ a b d, G a b → G b d → G a d)
    (hd : ∀ p dates now (o : Opts c), G p (checkDates o now p dates).1)
    (hs : ∀ p prio n cf (o : Opts c), G p (checkSeqnos o p prio n cf).1)
    (hsent : ∀ p p', Sender.OnlySent p p' → G p p')
    (o : Opts c) (ul : Bool) (now : Nat) (s : State c) (pkt : InPacket) (l q : Bytes) (p : Peer c)
    (hp : s.peer l q = some p) (prio : Bool) (rand : Nat → Sender.Rand c) :
    Ext G s (session o ul now s pkt l q p prio rand).1 := by
  have e1 := hd p pkt.reinitDates now o
  unfold session
  cases hv : checkDates o now p pkt.reinitDates with
  | mk p' v =>
    rw [hv] at e1
    cases v with
    | fail e => exact Ext.setPeer hG hp e1
    | nop =>
      simp only
      have x1 : Ext G s (s.setPeer l q p') := Ext.setPeer hG hp e1
      cases hm : Sender.sendMessage o ul now (s.setPeer l q p') l q .nop false rand with
      | error e => exact x1
      | ok r =>
        obtain ⟨p'', ds⟩ := r
        simp only
        obtain ⟨p0, h0, os⟩ := Sender.sendMessage_onlySent _ _ _ _ _ _ _ _ _ _ _ hm
        exact Ext.trans ht x1 (Ext.setPeer hG h0 (hsent _ _ os))
    | go =>
      simp only
      have e2 := hs p' prio pkt.seqno pkt.confirmSeqno o
      cases hq : checkSeqnos o p' prio pkt.seqno pkt.confirmSeqno with
      | mk p'' w =>
        rw [hq] at e2
        cases w <;> exact Ext.setPeer hG hp (ht _ _ _ e1 e2)

theorem checkPacket_ext {G : Peer c → Peer c → Prop} (hG : ∀ p, G p p)
    (ht : ∀ a b d, G a b → G b d → G a d)
    (ha : ∀ p a, G p { p with addr := a })
    (hd : ∀ p dates now (o : Opts c), G p (checkDates o now p dates).1)
    (hs : ∀ p prio n cf (o : Opts c), G p (checkSeqnos o p prio n cf).1)
    (hsent : ∀ p p', Sender.OnlySent p p' → G p p')
    (o : Opts c) (ul : Bool) (now : Nat) (s : State c) (raw : Bytes) (pkt : InPacket) (l : Bytes)
    (chan : Option Bytes) (prio : Bool) (key : c.Sec) (rand : Nat → Sender.Rand c) :
    Ext G s (checkPacket o ul now s raw pkt l chan prio key rand).1 := by
  have e0 := source_ext hG ha o now s raw pkt l chan key
  unfold checkPacket
  cases hsrc : source o now s raw pkt l chan key with
  | mk s1 r =>
    rw [hsrc] at e0
    cases r with
    | error e => exact e0
    | ok x =>
      obtain ⟨q, check⟩ := x
      simp only
      cases hl : lookup s1 l q chan.isSome with
      | error e => exact e0
      | ok p =>
        simp only
        cases hv : (if check = true then verify c raw pkt.signature p.pub false else none) with
        | some e => exact e0
        | none =>
          exact Ext.trans ht e0 (session_ext hG ht hd hs hsent o ul now s1 pkt l q p (lookup_ok hl)
            prio rand)

theorem decrypt_ext {G : Peer c → Peer c → Prop} (hG : ∀ p, G p p) (o : Opts c) (s : State c)
    (data : Bytes) : Ext G s (decrypt o s data).1 := by
  unfold decrypt
  cases parseHandshake c o.keys data with
  | notForUs =>
    simp only
    cases s.byId.get (data.take 32) with
    | none => exact Ext.refl hG s
    | some x =>
      obtain ⟨r, prio⟩ := x
      simp only
      cases s.heap.get r with
      | none => exact Ext.refl hG s
      | some ch =>
        simp only
        cases ch.decrypt c prio data with
        | ok v d => exact Ext.setReady hG s r
        | _ => exact Ext.refl hG s
  | _ => exact Ext.refl hG s

theorem handle_ext {G : Peer c → Peer c → Prop} (hG : ∀ p, G p p)
    (ht : ∀ a b d, G a b → G b d → G a d)
    (ha : ∀ p a, G p { p with addr := a })
    (hd : ∀ p dates now (o : Opts c), G p (checkDates o now p dates).1)
    (hs : ∀ p prio n cf (o : Opts c), G p (checkSeqnos o p prio n cf).1)
    (hsent : ∀ p p', Sender.OnlySent p p' → G p p')
    (o : Opts c) (ul : Bool) (now : Nat) (s : State c) (data : Bytes) (key : c.Sec)
    (rand : Nat → Sender.Rand c) : Ext G s (handle o ul now s data key rand).1 := by
  have e0 := decrypt_ext hG o s data
  unfold handle
  cases hdec : decrypt o s data with
  | mk s1 r =>
    rw [hdec] at e0
    cases r with
    | error e => exact e0
    | ok x =>
      cases x with
      | none => exact e0
      | some d =>
        simp only
        split
        · exact e0
        cases hr : readPacket d.data with
        | none => exact e0
        | some y =>
          obtain ⟨pkt, rest⟩ := y
          simp only
          have e1 := checkPacket_ext hG ht ha hd hs hsent o ul now s1 d.data pkt d.localId d.chan
            d.priority key rand
          cases hcp : checkPacket o ul now s1 d.data pkt d.localId d.chan d.priority key rand with
          | mk s2 z =>
            obtain ⟨z1, z2⟩ := z
            rw [hcp] at e1
            cases z1 <;> exact Ext.trans ht e0 e1

end Verif.Receiver
