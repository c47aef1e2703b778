import Verif.Proofs.Receiver

namespace Verif.Receiver
open Verif.Adnl Verif.AdnlProto Verif.Address Verif.Node

variable {c : Crypto}

/-- What an accepted datagram went through. -/
theorem handle_accepted {o : Opts c} {ul : Bool} {now : Nat} {s : State c} {data : Bytes} {key : c.Sec}
    {rand : Nat → Sender.Rand c} {l q : Bytes} {prio : Bool} {ms : List Message}
    (h : (handle o ul now s data key rand).2.1 = .accepted l q prio ms) :
    ∃ s1 d pkt rest, decrypt o s data = (s1, .ok (some d)) ∧ readPacket d.data = some (pkt, rest) ∧
      d.localId = l ∧ d.priority = prio ∧ pkt.messages = ms ∧
      (d.version = none ∨ d.version = some 0) ∧
      (checkPacket o ul now s1 d.data pkt l d.chan prio key rand).2.1 = .peer q ∧
      (handle o ul now s data key rand).1 =
        (checkPacket o ul now s1 d.data pkt l d.chan prio key rand).1 := by
  unfold handle at h ⊢
  cases hdec : decrypt o s data with
  | mk s1 r =>
    rw [hdec] at h
    cases r with
    | error e => cases h
    | ok x =>
      cases x with
      | none => cases h
      | some d =>
        simp only at h ⊢
        split at h
        · cases h
        rename_i hver
        rw [if_neg hver]
        cases hr : readPacket d.data with
        | none => rw [hr] at h; cases h
        | some y =>
          obtain ⟨pkt, rest⟩ := y
          rw [hr] at h
          simp only at h ⊢
          cases hcp : checkPacket o ul now s1 d.data pkt d.localId d.chan d.priority key rand with
          | mk s2 z =>
            obtain ⟨z1, z2⟩ := z
            rw [hcp] at h
            cases z1 with
            | duplicate => cases h
            | fail e => cases h
            | peer id =>
              simp only at h
              cases h
              refine ⟨s1, d, pkt, rest, rfl, hr, rfl, rfl, rfl, ?_, ?_, ?_⟩
              · cases hv : d.version with
                | none => exact .inl rfl
                | some v =>
                  right
                  rw [hv] at hver
                  simp only [Option.isSome_some, ne_eq, true_and, not_not] at hver
                  exact hver
              · rw [hcp]
              · rw [hcp]

/-- What a packet attributed to a peer went through. -/
theorem checkPacket_peer {o : Opts c} {ul : Bool} {now : Nat} {s : State c} {raw : Bytes}
    {pkt : InPacket} {l q : Bytes} {chan : Option Bytes} {prio : Bool} {key : c.Sec}
    {rand : Nat → Sender.Rand c}
    (h : (checkPacket o ul now s raw pkt l chan prio key rand).2.1 = .peer q) :
    ∃ s1 check p, source o now s raw pkt l chan key = (s1, .ok (q, check)) ∧
      lookup s1 l q chan.isSome = .ok p ∧
      (check = true → verify c raw pkt.signature p.pub false = none) ∧
      (session o ul now s1 pkt l q p prio rand).2.1 = .peer q ∧
      (checkPacket o ul now s raw pkt l chan prio key rand).1 =
        (session o ul now s1 pkt l q p prio rand).1 := by
  have hsess : ∀ (s1 : State c) (q' : Bytes) (p : Peer c),
      (session o ul now s1 pkt l q' p prio rand).2.1 = .peer q → q' = q := by
    intro s1 q' p hh
    unfold session at hh
    cases hv : checkDates o now p pkt.reinitDates with
    | mk p' v =>
      rw [hv] at hh
      cases v with
      | fail e => cases hh
      | nop =>
        simp only at hh
        cases hm : Sender.sendMessage o ul now (s1.setPeer l q' p') l q' .nop false rand with
        | error e => rw [hm] at hh; cases hh
        | ok r => rw [hm] at hh; cases hh
      | go =>
        simp only at hh
        cases hq : checkSeqnos o p' prio pkt.seqno pkt.confirmSeqno with
        | mk p'' w =>
          rw [hq] at hh
          cases w with
          | go => simp only at hh; cases hh; rfl
          | duplicate => cases hh
          | confirmTooNew => cases hh
  unfold checkPacket at h ⊢
  cases hsrc : source o now s raw pkt l chan key with
  | mk s1 r =>
    rw [hsrc] at h
    cases r with
    | error e => cases h
    | ok x =>
      obtain ⟨q', check⟩ := x
      simp only at h ⊢
      cases hl : lookup s1 l q' chan.isSome with
      | error e => rw [hl] at h; cases h
      | ok p =>
        rw [hl] at h
        simp only at h ⊢
        cases hv : (if check = true then verify c raw pkt.signature p.pub false else none) with
        | some e => rw [hv] at h; cases h
        | none =>
          rw [hv] at h
          simp only at h
          have hq := hsess s1 q' p h
          subst hq
          refine ⟨s1, check, p, rfl, hl, ?_, h, rfl⟩
          intro hc
          rw [if_pos hc] at hv
          exact hv

/-- What a packet that passed the session checks went through. -/
theorem session_peer {o : Opts c} {ul : Bool} {now : Nat} {s : State c} {pkt : InPacket}
    {l q q' : Bytes} {p : Peer c} {prio : Bool} {rand : Nat → Sender.Rand c}
    (h : (session o ul now s pkt l q p prio rand).2.1 = .peer q') :
    ∃ p' p'', checkDates o now p pkt.reinitDates = (p', .go) ∧
      checkSeqnos o p' prio pkt.seqno pkt.confirmSeqno = (p'', .go) ∧
      (session o ul now s pkt l q p prio rand).1 = s.setPeer l q p'' := by
  unfold session at h ⊢
  cases hv : checkDates o now p pkt.reinitDates with
  | mk p' v =>
    rw [hv] at h
    cases v with
    | fail e => cases h
    | nop =>
      simp only at h
      cases hm : Sender.sendMessage o ul now (s.setPeer l q p') l q .nop false rand with
      | error e => rw [hm] at h; cases h
      | ok r => rw [hm] at h; cases h
    | go =>
      simp only at h ⊢
      cases hq : checkSeqnos o p' prio pkt.seqno pkt.confirmSeqno with
      | mk p'' w =>
        rw [hq] at h
        cases w with
        | go => exact ⟨p', p'', rfl, hq, rfl⟩
        | duplicate => cases h
        | confirmTooNew => cases h

/-- A handshake packet does not change the state before `check_packet`. -/
theorem decrypt_handshake {o : Opts c} {s : State c} {data l payload : Bytes} {v : Option Nat}
    (h : parseHandshake c o.keys data = .ok l v payload) :
    decrypt o s data = (s, .ok (some ⟨l, none, false, v, payload⟩)) := by
  unfold decrypt
  rw [h]

/-- A packet that reached us through a channel. -/
theorem decrypt_channel {o : Opts c} {s s1 : State c} {data : Bytes} {d : Decrypted}
    (hn : parseHandshake c o.keys data = .notForUs) (h : decrypt o s data = (s1, .ok (some d))) :
    ∃ r ch, s.byId.get (data.take 32) = some (r, d.priority) ∧ s.heap.get r = some ch ∧
      ch.decrypt c d.priority data = .ok d.version d.data ∧ d.localId = ch.localId ∧
      d.chan = some ch.peerId ∧ s1 = s.setReady r := by
  unfold decrypt at h
  rw [hn] at h
  simp only at h
  cases hb : s.byId.get (data.take 32) with
  | none => rw [hb] at h; cases h
  | some x =>
    obtain ⟨r, prio⟩ := x
    rw [hb] at h
    simp only at h
    cases hh : s.heap.get r with
    | none => rw [hh] at h; cases h
    | some ch =>
      rw [hh] at h
      simp only at h
      cases hd : ch.decrypt c prio data with
      | ok v p =>
        rw [hd] at h
        simp only at h
        cases h
        exact ⟨r, ch, rfl, hh, hd, rfl, rfl, rfl⟩
      | _ => rw [hd] at h; cases h

/-- The sender of a packet that came through a channel. -/
theorem source_channel {o : Opts c} {now : Nat} {s s1 : State c} {raw : Bytes} {pkt : InPacket}
    {l q x : Bytes} {key : c.Sec} {check : Bool}
    (h : source o now s raw pkt l (some x) key = (s1, .ok (q, check))) :
    q = x ∧ check = true ∧ s1 = s ∧ pkt.src = none ∧ pkt.srcShort = none := by
  unfold source at h
  simp only at h
  split at h
  · cases h
  rename_i hno
  cases h
  refine ⟨rfl, rfl, rfl, ?_, ?_⟩
  · cases hx : pkt.src with
    | none => rfl
    | some _ => rw [hx] at hno; simp at hno
  · cases hx : pkt.srcShort with
    | none => rfl
    | some _ => rw [hx] at hno; simp at hno

theorem verify_none {raw : Bytes} {sig : Option SigInfo} {pub : c.Pub} {m : Bool}
    (h : verify c raw sig pub m = none) :
    (sig = none ∧ m = false) ∨ ∃ si buf msg, sig = some si ∧ extract si raw = some (buf, msg, si.signature) ∧
      c.verify pub msg si.signature = true := by
  unfold verify at h
  cases sig with
  | none =>
    simp only at h
    cases m with
    | false => exact .inl ⟨rfl, rfl⟩
    | true => cases h
  | some si =>
    right
    simp only at h
    cases he : extract si raw with
    | none => rw [he] at h; cases h
    | some x =>
      obtain ⟨buf, msg, sg⟩ := x
      rw [he] at h
      simp only at h
      have hsg : sg = si.signature := by
        unfold extract at he
        simp only at he
        split at he
        · simp only [Option.some.injEq, Prod.mk.injEq] at he
          exact he.2.2.symm
        · cases he
      split at h
      · rename_i hv
        subst hsg
        exact ⟨si, buf, msg, rfl, he, hv⟩
      · cases h

/-- The sender found for a packet outside a channel. -/
theorem source_handshake {o : Opts c} {now : Nat} {s s1 : State c} {raw : Bytes} {pkt : InPacket}
    {l q : Bytes} {key : c.Sec} {check : Bool}
    (h : source o now s raw pkt l none key = (s1, .ok (q, check))) :
    (check = false ∧ ∃ pk pub, pkt.src = some pk ∧ fullId c pk = some pub ∧ q = shortId c pub ∧
      verify c raw pkt.signature pub o.signatureRequired = none ∧
      (pkt.srcShort = none ∨ pkt.srcShort = some q)) ∨
    (check = true ∧ pkt.src = none ∧ pkt.srcShort = some q ∧ s1 = s) := by
  unfold source at h
  simp only at h
  cases hsrc : pkt.src with
  | none =>
    rw [hsrc] at h
    simp only at h
    cases hss : pkt.srcShort with
    | none => rw [hss] at h; cases h
    | some id =>
      rw [hss] at h
      simp only at h
      cases h
      exact .inr ⟨rfl, rfl, rfl, rfl⟩
  | some pk =>
    rw [hsrc] at h
    simp only at h
    cases hf : fullId c pk with
    | none => rw [hf] at h; cases h
    | some pub =>
      rw [hf] at h
      simp only at h
      split at h
      · cases h
      rename_i hss
      have hss : pkt.srcShort = none ∨ pkt.srcShort = some (shortId c pub) := by
        cases hx : pkt.srcShort with
        | none => exact .inl rfl
        | some id =>
          rw [hx] at hss
          simp only [Option.isSome_some, ne_eq, true_and, not_not] at hss
          exact .inr hss
      cases hv : verify c raw pkt.signature pub o.signatureRequired with
      | some e => rw [hv] at h; cases h
      | none =>
        rw [hv] at h
        simp only at h
        cases hadr : pkt.address with
        | none =>
          rw [hadr] at h
          simp only at h
          cases h
          exact .inl ⟨rfl, pk, pub, rfl, hf, rfl, hv, hss⟩
        | some list =>
          rw [hadr] at h
          simp only at h
          cases hp : Address.parse o.build now o.clockTolerance list with
          | ok addr =>
            rw [hp] at h
            simp only at h
            cases hadd : Node.addPeer o s l (shortId c pub) addr pub key with
            | mk s' r =>
              rw [hadd] at h
              cases r with
              | peersNotFound => cases h
              | yes => simp only at h; cases h; exact .inl ⟨rfl, pk, pub, rfl, hf, rfl, hv, hss⟩
              | no => simp only at h; cases h; exact .inl ⟨rfl, pk, pub, rfl, hf, rfl, hv, hss⟩
          | listIsEmpty => rw [hp] at h; cases h
          | tooNew => rw [hp] at h; cases h
          | expired => rw [hp] at h; cases h
          | panic => rw [hp] at h; cases h

/-- Stored keys match the ids. -/
abbrev KeysMatch (s : State c) : Prop := AllPeers (fun q p => shortId c p.pub = q) s

theorem addPeer_keys (o : Opts c) (s : State c) (l : Bytes) (a : SockAddr) (pub : c.Pub) (key : c.Sec)
    (h : KeysMatch s) : KeysMatch (addPeer o s l (shortId c pub) a pub key).1 := by
  rcases addPeer_cases o s l (shortId c pub) a pub key with e | ⟨p, hp, e⟩ | ⟨hn, e⟩
  · rw [e]; exact h
  · rw [e]; exact AllPeers.setPeer h (h _ _ p hp)
  · rw [e]; exact AllPeers.setPeer h rfl

theorem source_keys (o : Opts c) (now : Nat) (s : State c) (raw : Bytes) (pkt : InPacket) (l : Bytes)
    (chan : Option Bytes) (key : c.Sec) (h : KeysMatch s) :
    KeysMatch (source o now s raw pkt l chan key).1 := by
  unfold source
  cases chan with
  | some q => simp only; split <;> exact h
  | none =>
    simp only
    cases pkt.src with
    | none => simp only; cases pkt.srcShort <;> exact h
    | some pk =>
      simp only
      cases fullId c pk with
      | none => exact h
      | some pub =>
        simp only
        split
        · exact h
        cases verify c raw pkt.signature pub o.signatureRequired with
        | some e => exact h
        | none =>
          simp only
          cases pkt.address with
          | none => exact h
          | some list =>
            simp only
            cases Address.parse o.build now o.clockTolerance list with
            | ok addr =>
              simp only
              have := addPeer_keys o s l addr pub key h
              cases hadd : Node.addPeer o s l (shortId c pub) addr pub key with
              | mk s' r =>
                rw [hadd] at this
                cases r <;> exact this
            | _ => exact h

theorem tryReinit_pub (p : Peer c) (d : Nat) : (p.tryReinit d).1.pub = p.pub := by
  unfold Peer.tryReinit
  split
  · rfl
  split
  · split <;> rfl
  · rfl

theorem checkDates_pub (o : Opts c) (now : Nat) (p : Peer c) (d : Option ReinitDates) :
    (checkDates o now p d).1.pub = p.pub := by
  unfold checkDates
  cases d with
  | none => rfl
  | some d =>
    simp only
    split
    · rfl
    cases addU32 o.build now o.clockTolerance with
    | none => rfl
    | some limit =>
      simp only
      split
      · rfl
      have := tryReinit_pub p d.loc
      cases hr : p.tryReinit d.loc with
      | mk p' b =>
        rw [hr] at this
        cases b with
        | false => exact this
        | true => simp only; split <;> exact this

theorem checkHistory_pub (o : Opts c) (p : Peer c) (prio : Bool) (n : Option Nat) :
    (checkHistory o p prio n).1.pub = p.pub := by
  unfold checkHistory
  cases n with
  | none => rfl
  | some n =>
    simp only
    split
    · cases prio <;> rfl
    · rfl

theorem checkSeqnos_fst (o : Opts c) (p : Peer c) (prio : Bool) (n cf : Option Nat) :
    (checkSeqnos o p prio n cf).1 = (checkHistory o p prio n).1 := by
  unfold checkSeqnos
  cases checkHistory o p prio n with
  | mk p' b =>
    cases b with
    | false => rfl
    | true =>
      simp only
      cases cf with
      | none => rfl
      | some x => simp only; split <;> rfl

theorem session_keys (o : Opts c) (ul : Bool) (now : Nat) (s : State c) (pkt : InPacket)
    (l q : Bytes) (p : Peer c) (hp : s.peer l q = some p) (prio : Bool)
    (rand : Nat → Sender.Rand c) (h : KeysMatch s) :
    KeysMatch (session o ul now s pkt l q p prio rand).1 := by
  have hpq := h l q p hp
  have e1 := checkDates_pub o now p pkt.reinitDates
  unfold session
  cases hv : checkDates o now p pkt.reinitDates with
  | mk p' v =>
    rw [hv] at e1
    have h1 : KeysMatch (s.setPeer l q p') := AllPeers.setPeer h (by rw [e1]; exact hpq)
    cases v with
    | fail e => exact h1
    | nop =>
      simp only
      cases hm : Sender.sendMessage o ul now (s.setPeer l q p') l q .nop false rand with
      | error e => exact h1
      | ok r =>
        obtain ⟨p'', ds⟩ := r
        obtain ⟨p0, h0, os⟩ := Sender.sendMessage_onlySent _ _ _ _ _ _ _ _ _ _ _ hm
        refine AllPeers.setPeer h1 ?_
        rw [os.1]
        exact h1 l q p0 h0
    | go =>
      simp only
      have e2 : (checkSeqnos o p' prio pkt.seqno pkt.confirmSeqno).1.pub = p'.pub := by
        rw [checkSeqnos_fst, checkHistory_pub]
      cases hq : checkSeqnos o p' prio pkt.seqno pkt.confirmSeqno with
      | mk p'' w =>
        rw [hq] at e2
        have : KeysMatch (s.setPeer l q p'') :=
          AllPeers.setPeer h (by rw [e2, e1]; exact hpq)
        cases w <;> exact this

theorem handle_keys (o : Opts c) (ul : Bool) (now : Nat) (s : State c) (data : Bytes) (key : c.Sec)
    (rand : Nat → Sender.Rand c) (h : KeysMatch s) : KeysMatch (handle o ul now s data key rand).1 := by
  have e0 : KeysMatch (decrypt o s data).1 := by
    unfold decrypt
    cases parseHandshake c o.keys data with
    | notForUs =>
      simp only
      cases s.byId.get (data.take 32) with
      | none => exact h
      | some x =>
        obtain ⟨r, prio⟩ := x
        simp only
        cases s.heap.get r with
        | none => exact h
        | some ch =>
          simp only
          cases ch.decrypt c prio data with
          | ok v d => intro l q p hp; exact h l q p (by simpa using hp)
          | _ => exact h
    | _ => exact h
  unfold handle
  cases hdec : decrypt o s data with
  | mk s1 r =>
    rw [hdec] at e0
    cases r with
    | error e => exact e0
    | ok x =>
      cases x with
      | none => exact e0
      | some d =>
        simp only
        split
        · exact e0
        cases hr : readPacket d.data with
        | none => exact e0
        | some y =>
          obtain ⟨pkt, rest⟩ := y
          simp only
          have e1 : KeysMatch (checkPacket o ul now s1 d.data pkt d.localId d.chan d.priority key rand).1 := by
            have e2 := source_keys o now s1 d.data pkt d.localId d.chan key e0
            unfold checkPacket
            cases hsrc : source o now s1 d.data pkt d.localId d.chan key with
            | mk s2 r =>
              rw [hsrc] at e2
              cases r with
              | error e => exact e2
              | ok x =>
                obtain ⟨q, check⟩ := x
                simp only
                cases hl : lookup s2 d.localId q d.chan.isSome with
                | error e => exact e2
                | ok p =>
                  simp only
                  cases hv : (if check = true then verify c d.data pkt.signature p.pub false else none) with
                  | some e => exact e2
                  | none => exact session_keys o ul now s2 pkt _ q p (lookup_ok hl) _ rand e2
          cases hcp : checkPacket o ul now s1 d.data pkt d.localId d.chan d.priority key rand with
          | mk s2 z =>
            obtain ⟨z1, z2⟩ := z
            rw [hcp] at e1
            cases z1 <;> exact e1

end Verif.Receiver
