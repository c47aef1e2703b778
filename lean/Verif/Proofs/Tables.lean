import Verif.Model.Process
import Verif.Proofs.Receiver
import Verif.Proofs.AMap

/-!
# Channel tables of the node
-/
namespace Verif.Node
open Verif.Adnl Verif.AdnlProto Verif.Address

variable {c : Crypto}

/-- Consistency of the tables. -/
structure Good (s : State c) : Prop where
  live : ∀ q r, s.byPeer.get q = some r → ∃ ch, s.heap.get r = some ch ∧ ch.peerId = q
  bound : ∀ r ch, s.heap.get r = some ch → r < s.next
  listed : ∀ id r prio, s.byId.get id = some (r, prio) →
    ∃ ch, s.heap.get r = some ch ∧ s.byPeer.get ch.peerId = some r ∧ id = (ch.inn.sub prio).id

/-- Same tables; channels may have become ready. -/
structure Tab (s s' : State c) : Prop where
  byPeer : s'.byPeer = s.byPeer
  byId : s'.byId = s.byId
  next : s'.next = s.next
  heap : ∀ r, s'.heap.get r = s.heap.get r ∨
    ∃ ch, s.heap.get r = some ch ∧ s'.heap.get r = some { ch with ready := true }

theorem Tab.refl (s : State c) : Tab s s := ⟨rfl, rfl, rfl, fun _ => .inl rfl⟩

theorem Tab.trans {s s' s'' : State c} (h1 : Tab s s') (h2 : Tab s' s'') : Tab s s'' := by
  refine ⟨h2.byPeer.trans h1.byPeer, h2.byId.trans h1.byId, h2.next.trans h1.next, ?_⟩
  intro r
  rcases h2.heap r with h | ⟨ch, h, h'⟩
  · rw [h]; exact h1.heap r
  · rcases h1.heap r with g | ⟨ch', g, g'⟩
    · exact .inr ⟨ch, g ▸ h, h'⟩
    · rw [g'] at h
      cases h
      exact .inr ⟨ch', g, h'⟩

theorem setPeer_tab (s : State c) (l q : Bytes) (p : Peer c) : Tab s (s.setPeer l q p) := by
  unfold State.setPeer
  split
  · exact ⟨rfl, rfl, rfl, fun _ => .inl rfl⟩
  · exact Tab.refl s

theorem setReady_tab (s : State c) (r : Nat) : Tab s (s.setReady r) := by
  unfold State.setReady
  split
  · rename_i ch h
    refine ⟨rfl, rfl, rfl, ?_⟩
    intro r'
    simp only [AMap.get_put]
    by_cases e : r' = r
    · subst e
      exact .inr ⟨ch, h, by simp⟩
    · simp [e]
  · exact Tab.refl s

theorem addPeer_tab (o : Opts c) (s : State c) (l q : Bytes) (a : SockAddr) (pub : c.Pub) (k : c.Sec) :
    Tab s (addPeer o s l q a pub k).1 := by
  unfold addPeer
  split
  · exact Tab.refl s
  split
  · exact Tab.refl s
  split
  · exact Tab.refl s
  split
  · exact setPeer_tab _ _ _ _
  · exact setPeer_tab _ _ _ _

theorem Tab.good {s s' : State c} (t : Tab s s') (h : Good s) : Good s' := by
  constructor
  · intro q r hq
    rw [t.byPeer] at hq
    obtain ⟨ch, h1, h2⟩ := h.live q r hq
    rcases t.heap r with g | ⟨ch', g, g'⟩
    · exact ⟨ch, g ▸ h1, h2⟩
    · rw [h1] at g
      cases g
      exact ⟨_, g', h2⟩
  · intro r ch hr
    rw [t.next]
    rcases t.heap r with g | ⟨ch', g, g'⟩
    · exact h.bound r ch (g ▸ hr)
    · exact h.bound r ch' g
  · intro id r prio hid
    rw [t.byId] at hid
    obtain ⟨ch, h1, h2, h3⟩ := h.listed id r prio hid
    rw [t.byPeer]
    rcases t.heap r with g | ⟨ch', g, g'⟩
    · exact ⟨ch, g ▸ h1, h2, h3⟩
    · rw [h1] at g
      cases g
      exact ⟨_, g', h2, h3⟩

theorem dropChannel_good {s : State c} (h : Good s) (q : Bytes) :
    Good (dropChannel s q) ∧ (dropChannel s q).byPeer.get q = none ∧
    (∀ q', q' ≠ q → (dropChannel s q).byPeer.get q' = s.byPeer.get q') ∧
    (dropChannel s q).heap = s.heap ∧ (dropChannel s q).next = s.next := by
  unfold dropChannel
  cases hq : s.byPeer.get q with
  | none => exact ⟨h, hq, fun _ _ => rfl, rfl, rfl⟩
  | some r =>
    obtain ⟨ch, h1, h2⟩ := h.live q r hq
    simp only [h1]
    refine ⟨⟨?_, h.bound, ?_⟩, ?_, ?_, by simp⟩
    · intro q' r' hq'
      simp only [AMap.get_erase] at hq'
      split at hq'
      · cases hq'
      · exact h.live q' r' hq'
    · intro id r' prio hid
      simp only [AMap.get_erase] at hid
      split at hid
      · cases hid
      split at hid
      · cases hid
      rename_i n1 n2
      obtain ⟨ch', g1, g2, g3⟩ := h.listed id r' prio hid
      refine ⟨ch', g1, ?_, g3⟩
      simp only [AMap.get_erase]
      rw [if_neg ?_]
      · exact g2
      intro e
      rw [e, hq] at g2
      cases g2
      rw [h1] at g1
      cases g1
      cases prio
      · exact n2 g3
      · exact n1 g3
    · simp [AMap.get_erase]
    · intro q' hne
      simp [AMap.get_erase, hne]

theorem insertChannel_good {s : State c} (h : Good s) (q : Bytes) (ch : Channel) (hch : ch.peerId = q)
    (hq : s.byPeer.get q = none) : Good (insertChannel s q ch) := by
  have hnew : ∀ r ch', s.heap.get r = some ch' → r ≠ s.next := by
    intro r ch' hr e
    have := h.bound r ch' hr
    omega
  constructor
  · intro q' r hq'
    simp only [insertChannel, AMap.get_put] at hq' ⊢
    split at hq'
    · cases hq'
      rename_i e
      exact ⟨ch, by simp, hch.trans e.symm⟩
    · obtain ⟨ch', h1, h2⟩ := h.live q' r hq'
      exact ⟨ch', by rw [if_neg (hnew _ _ h1)]; exact h1, h2⟩
  · intro r ch' hr
    simp only [insertChannel, AMap.get_put] at hr ⊢
    split at hr
    · omega
    · have := h.bound r ch' hr
      omega
  · intro id r prio hid
    simp only [insertChannel, AMap.get_put] at hid ⊢
    split at hid
    · cases hid
      rename_i e
      exact ⟨ch, by simp, by simp [hch], e⟩
    split at hid
    · cases hid
      rename_i e
      exact ⟨ch, by simp, by simp [hch], e⟩
    · obtain ⟨ch', g1, g2, g3⟩ := h.listed id r prio hid
      refine ⟨ch', by rw [if_neg (hnew _ _ g1)]; exact g1, ?_, g3⟩
      rw [if_neg ?_]
      · exact g2
      intro e
      rw [e, hq] at g2
      cases g2

theorem createChannel_good {s : State c} (h : Good s) (l q : Bytes) (key : c.Pub) (date : Nat) (x : Ctx) :
    Good (createChannel s l q key date x).1 := by
  unfold createChannel
  cases s.peers.get l with
  | none => exact h
  | some t =>
    simp only
    cases t.get q with
    | none => exact h
    | some p =>
      simp only
      cases hq : s.byPeer.get q with
      | none => exact insertChannel_good h q _ rfl hq
      | some r =>
        obtain ⟨ch, h1, h2⟩ := h.live q r hq
        simp only [h1]
        split
        · simp only
          split
          · exact (setReady_tab s r).good h
          · exact h
        · exact insertChannel_good (dropChannel_good h q).1 q _ rfl (dropChannel_good h q).2.1

/-! ### The handlers -/
open Verif.Receiver

theorem decrypt_tab (o : Opts c) (s : State c) (data : Bytes) : Tab s (Receiver.decrypt o s data).1 := by
  unfold Receiver.decrypt
  split
  all_goals try exact Tab.refl s
  split
  · exact Tab.refl s
  split
  · exact Tab.refl s
  split
  · exact setReady_tab _ _
  all_goals exact Tab.refl s

theorem source_tab (o : Opts c) (now : Nat) (s : State c) (raw : Bytes) (pkt : InPacket) (l : Bytes)
    (chan : Option Bytes) (key : c.Sec) : Tab s (source o now s raw pkt l chan key).1 := by
  unfold source
  cases chan with
  | some q => simp only; split <;> exact Tab.refl s
  | none =>
    simp only
    cases pkt.src with
    | none => simp only; cases pkt.srcShort <;> exact Tab.refl s
    | some pk =>
      simp only
      cases fullId c pk with
      | none => exact Tab.refl s
      | some pub =>
        simp only
        split
        · exact Tab.refl s
        cases verify c raw pkt.signature pub o.signatureRequired with
        | some e => exact Tab.refl s
        | none =>
          simp only
          cases pkt.address with
          | none => exact Tab.refl s
          | some list =>
            simp only
            cases Address.parse o.build now o.clockTolerance list with
            | ok addr =>
              simp only
              have := addPeer_tab o s l (shortId c pub) addr pub key
              cases hadd : Node.addPeer o s l (shortId c pub) addr pub key with
              | mk s' r =>
                rw [hadd] at this
                cases r <;> exact this
            | _ => exact Tab.refl s

theorem session_tab (o : Opts c) (ul : Bool) (now : Nat) (s : State c) (pkt : InPacket) (l q : Bytes)
    (p : Peer c) (prio : Bool) (rand : Nat → Sender.Rand c) :
    Tab s (session o ul now s pkt l q p prio rand).1 := by
  unfold session
  split
  · exact setPeer_tab _ _ _ _
  · simp only
    split
    · exact setPeer_tab _ _ _ _
    · exact (setPeer_tab _ _ _ _).trans (setPeer_tab _ _ _ _)
  · split <;> exact setPeer_tab _ _ _ _

theorem checkPacket_tab (o : Opts c) (ul : Bool) (now : Nat) (s : State c) (raw : Bytes) (pkt : InPacket)
    (l : Bytes) (chan : Option Bytes) (prio : Bool) (key : c.Sec) (rand : Nat → Sender.Rand c) :
    Tab s (checkPacket o ul now s raw pkt l chan prio key rand).1 := by
  have h1 := source_tab o now s raw pkt l chan key
  unfold checkPacket
  cases hs : source o now s raw pkt l chan key with
  | mk s1 r =>
    rw [hs] at h1
    cases r with
    | error e => exact h1
    | ok x =>
      simp only
      split
      · exact h1
      · split
        · exact h1
        · exact h1.trans (session_tab _ _ _ _ _ _ _ _ _ _)

theorem handle_tab (o : Opts c) (ul : Bool) (now : Nat) (s : State c) (data : Bytes) (key : c.Sec)
    (rand : Nat → Sender.Rand c) : Tab s (handle o ul now s data key rand).1 := by
  have h1 := decrypt_tab o s data
  unfold handle
  cases hs : Receiver.decrypt o s data with
  | mk s1 r =>
    rw [hs] at h1
    cases r with
    | error e => exact h1
    | ok x =>
      cases x with
      | none => exact h1
      | some d =>
        simp only
        split
        · exact h1
        cases hr : readPacket d.data with
        | none => exact h1
        | some y =>
          obtain ⟨pkt, rest⟩ := y
          simp only
          have h2 := checkPacket_tab o ul now s1 d.data pkt d.localId d.chan d.priority key rand
          cases hc : checkPacket o ul now s1 d.data pkt d.localId d.chan d.priority key rand with
          | mk s2 z =>
            obtain ⟨z1, z2⟩ := z
            rw [hc] at h2
            cases z1 <;> exact h1.trans h2

end Verif.Node
