import Verif.Props.Address
import Verif.Props.Attribution

/-!
# C22 for packets: whom a packet can add to the peer table, or move to another address
-/
namespace Verif.Receiver
open Verif.Adnl Verif.AdnlProto Verif.Address Verif.Node

variable {c : Crypto}

/-- Same key, address and channel key. -/
def Kept (p p' : Peer c) : Prop := p'.addr = p.addr ∧ p'.pub = p.pub ∧ p'.channelKey = p.channelKey

/-- Every record of `s'` is one of `s` with the same key, address and channel key. -/
def KeptAll (s s' : State c) : Prop :=
  ∀ l q p', s'.peer l q = some p' → ∃ p, s.peer l q = some p ∧ Kept p p'

theorem Kept.refl (p : Peer c) : Kept p p := ⟨rfl, rfl, rfl⟩

theorem Kept.trans {a b d : Peer c} (h1 : Kept a b) (h2 : Kept b d) : Kept a d :=
  ⟨h2.1.trans h1.1, h2.2.1.trans h1.2.1, h2.2.2.trans h1.2.2⟩

theorem KeptAll.setPeer {s : State c} {l q : Bytes} {p p' : Peer c} (hp : s.peer l q = some p)
    (h : Kept p p') : KeptAll s (s.setPeer l q p') := by
  intro l' q' x hx
  rw [peer_setPeer] at hx
  split at hx
  · rename_i hc
    obtain ⟨rfl, rfl, -⟩ := hc
    cases hx
    exact ⟨p, hp, h⟩
  · exact ⟨x, hx, Kept.refl _⟩

theorem KeptAll.trans {s1 s2 s3 : State c} (h1 : KeptAll s1 s2) (h2 : KeptAll s2 s3) : KeptAll s1 s3 := by
  intro l q p hp
  obtain ⟨p2, hp2, k2⟩ := h2 l q p hp
  obtain ⟨p1, hp1, k1⟩ := h1 l q p2 hp2
  exact ⟨p1, hp1, k1.trans k2⟩

theorem tryReinit_kept (p : Peer c) (d : Nat) : Kept p (p.tryReinit d).1 := by
  unfold Peer.tryReinit
  split
  · exact Kept.refl _
  split
  · split <;> exact ⟨rfl, rfl, rfl⟩
  · exact Kept.refl _

theorem checkDates_kept (o : Opts c) (now : Nat) (p : Peer c) (d : Option ReinitDates) :
    Kept p (checkDates o now p d).1 := by
  unfold checkDates
  cases d with
  | none => exact Kept.refl _
  | some d =>
    simp only
    split
    · exact Kept.refl _
    cases addU32 o.build now o.clockTolerance with
    | none => exact Kept.refl _
    | some limit =>
      simp only
      split
      · exact Kept.refl _
      have := tryReinit_kept p d.loc
      cases hr : p.tryReinit d.loc with
      | mk p' b =>
        rw [hr] at this
        cases b with
        | false => exact this
        | true => simp only; split <;> exact this

theorem checkSeqnos_kept (o : Opts c) (p : Peer c) (prio : Bool) (n cf : Option Nat) :
    Kept p (checkSeqnos o p prio n cf).1 := by
  rw [checkSeqnos_fst]
  unfold checkHistory
  cases n with
  | none => exact Kept.refl _
  | some n =>
    simp only
    split
    · cases prio <;> exact ⟨rfl, rfl, rfl⟩
    · exact Kept.refl _

theorem session_kept (o : Opts c) (ul : Bool) (now : Nat) (s : State c) (pkt : InPacket)
    (l q : Bytes) (p : Peer c) (hp : s.peer l q = some p) (prio : Bool) (rand : Nat → Sender.Rand c) :
    KeptAll s (session o ul now s pkt l q p prio rand).1 := by
  have e1 := checkDates_kept o now p pkt.reinitDates
  unfold session
  cases hv : checkDates o now p pkt.reinitDates with
  | mk p' v =>
    rw [hv] at e1
    have h1 : KeptAll s (s.setPeer l q p') := .setPeer hp e1
    cases v with
    | fail e => exact h1
    | nop =>
      simp only
      cases hm : Sender.sendMessage o ul now (s.setPeer l q p') l q .nop false rand with
      | error e => exact h1
      | ok r =>
        obtain ⟨p'', ds⟩ := r
        obtain ⟨p0, h0, os⟩ := Sender.sendMessage_onlySent _ _ _ _ _ _ _ _ _ _ _ hm
        refine h1.trans (.setPeer h0 ?_)
        rw [os.1]
        exact ⟨rfl, rfl, rfl⟩
    | go =>
      simp only
      have e2 := checkSeqnos_kept o p' prio pkt.seqno pkt.confirmSeqno
      cases hq : checkSeqnos o p' prio pkt.seqno pkt.confirmSeqno with
      | mk p'' w =>
        rw [hq] at e2
        have : KeptAll s (s.setPeer l q p'') := .setPeer hp (e1.trans e2)
        cases w <;> exact this

/-- The packet `data` vouches for the record `p'` of `q`: it is a handshake for us that carries the key of
`q` and an address list whose address is that of the record; the address is not our own, `q` is not the
local id itself, the filter accepts it, and if signatures are required the packet is signed by `q`. A
record that did not exist before has the key of the packet and the fresh channel key. -/
def Vouched (o : Opts c) (now : Nat) (s : State c) (data : Bytes) (key : c.Sec) (l q : Bytes)
    (p' : Peer c) : Prop :=
  ∃ v payload pkt rest pk pub list addr,
    parseHandshake c o.keys data = .ok l v payload ∧ readPacket payload = some (pkt, rest) ∧
    pkt.src = some pk ∧ fullId c pk = some pub ∧ shortId c pub = q ∧
    (o.signatureRequired = true → SignedBy c payload pub) ∧
    pkt.address = some list ∧ Address.parse o.build now o.clockTolerance list = .ok addr ∧
    unpack p'.addr = addr ∧ q ≠ l ∧ addr ≠ o.socketAddr ∧
    (∀ f, o.filter = some f → f addr q = true) ∧
    (s.peer l q = none → p'.pub = pub ∧ p'.channelKey = key)

/-- C22 at the level of packets: whatever datagram arrives, a peer known afterwards was known before with
the same address, key and channel key, or the datagram vouches for it. -/
theorem C22_by_packet (o : Opts c) (ul : Bool) (now : Nat) (s : State c) (data : Bytes) (key : c.Sec)
    (rand : Nat → Sender.Rand c) (l q : Bytes) (p' : Peer c)
    (h : (handle o ul now s data key rand).1.peer l q = some p') :
    (∃ p, s.peer l q = some p ∧ p'.addr = p.addr ∧ p'.pub = p.pub ∧ p'.channelKey = p.channelKey) ∨
    Vouched o now s data key l q p' := by
  have stable : ∀ l q p2 p', Vouched o now s data key l q p2 → Kept p2 p' →
      Vouched o now s data key l q p' := by
    rintro l q p2 p' ⟨v, payload, pkt, rest, pk, pub, list, addr, a1, a2, a3, a4, a5, a6, a7, a8, a9, a10,
      a11, a12, a13⟩ ⟨k1, k2, k3⟩
    exact ⟨v, payload, pkt, rest, pk, pub, list, addr, a1, a2, a3, a4, a5, a6, a7, a8, by rw [k1]; exact a9,
      a10, a11, a12, fun hn => by rw [k2, k3]; exact a13 hn⟩
  let R (s' : State c) : Prop := ∀ l q p', s'.peer l q = some p' →
    (∃ p, s.peer l q = some p ∧ Kept p p') ∨ Vouched o now s data key l q p'
  have step : ∀ s1 s2, R s1 → KeptAll s1 s2 → R s2 := by
    intro s1 s2 h1 k l q p' hp
    obtain ⟨p1, hp1, k1⟩ := k l q p' hp
    rcases h1 l q p1 hp1 with ⟨p, hp, k0⟩ | hv
    · exact .inl ⟨p, hp, k0.trans k1⟩
    · exact .inr (stable _ _ _ _ hv k1)
  have hself : R s := fun l q p' hp => .inl ⟨p', hp, Kept.refl _⟩
  suffices R (handle o ul now s data key rand).1 from this l q p' h
  clear h l q p'
  unfold handle
  cases hdec : decrypt o s data with
  | mk s1 r =>
    have hpeers : ∀ l q, s1.peer l q = s.peer l q := by
      intro l q
      have e : (decrypt o s data).1.peer l q = s.peer l q := by
        unfold decrypt
        cases parseHandshake c o.keys data with
        | notForUs =>
          simp only
          cases s.byId.get (data.take 32) with
          | none => rfl
          | some x =>
            obtain ⟨r, prio⟩ := x
            simp only
            cases s.heap.get r with
            | none => rfl
            | some ch =>
              simp only
              cases ch.decrypt c prio data <;> simp
        | _ => rfl
      rw [hdec] at e
      exact e
    have e0 : R s1 := fun l q p' hp => .inl ⟨p', by rw [← hpeers]; exact hp, Kept.refl _⟩
    cases r with
    | error e => exact e0
    | ok x =>
      cases x with
      | none => exact e0
      | some d =>
        simp only
        split
        · exact e0
        cases hr : readPacket d.data with
        | none => exact e0
        | some y =>
          obtain ⟨pkt, rest⟩ := y
          simp only
          have e2 : R (source o now s1 d.data pkt d.localId d.chan key).1 := by
            unfold source
            cases hch : d.chan with
            | some x => simp only; split <;> exact e0
            | none =>
              simp only
              cases hsrc : pkt.src with
              | none => simp only; cases pkt.srcShort <;> exact e0
              | some pk =>
                simp only
                cases hf : fullId c pk with
                | none => exact e0
                | some pub =>
                  simp only
                  split
                  · exact e0
                  cases hv : verify c d.data pkt.signature pub o.signatureRequired with
                  | some e => exact e0
                  | none =>
                    simp only
                    cases hadr : pkt.address with
                    | none => exact e0
                    | some list =>
                      simp only
                      cases hp : Address.parse o.build now o.clockTolerance list with
                      | ok addr =>
                        simp only
                        have hopen : parseHandshake c o.keys data = .ok d.localId d.version d.data := by
                          cases hh : parseHandshake c o.keys data with
                          | ok l v payload =>
                            rw [decrypt_handshake hh] at hdec
                            cases hdec
                            rfl
                          | notForUs =>
                            obtain ⟨r, ch, -, -, -, -, h5, -⟩ := decrypt_channel hh hdec
                            rw [hch] at h5
                            cases h5
                          | _ => simp only [decrypt, hh] at hdec; cases hdec
                        have hadd : R (Node.addPeer o s1 d.localId (shortId c pub) addr pub key).1 := by
                          intro l q p' hq
                          unfold addPeer at hq
                          split at hq
                          · exact e0 l q p' hq
                          rename_i hown
                          split at hq
                          · exact e0 l q p' hq
                          rename_i hfil
                          have vouch : ∀ p'' : Peer c, unpack p''.addr = addr →
                              (s.peer d.localId (shortId c pub) = none → p''.pub = pub ∧ p''.channelKey = key) →
                              Vouched o now s data key d.localId (shortId c pub) p'' := by
                            intro p'' ha hn
                            refine ⟨d.version, d.data, pkt, rest, pk, pub, list, addr, hopen, hr, hsrc, hf, rfl,
                              ?_, hadr, hp, ha, fun e => hown (.inl e), fun e => hown (.inr e), ?_, hn⟩
                            · intro hreq
                              rcases verify_none hv with ⟨-, h⟩ | ⟨si, buf, msg, h1, h2, h3⟩
                              · rw [hreq] at h; cases h
                              · exact ⟨pkt, rest, si, buf, msg, hr, h1, h2, h3⟩
                            · intro f hf
                              rw [hf] at hfil
                              simpa using hfil
                          cases ht : s1.peers.get d.localId with
                          | none => rw [ht] at hq; exact e0 l q p' hq
                          | some t =>
                            rw [ht] at hq
                            simp only at hq
                            cases hg : t.get (shortId c pub) with
                            | some p =>
                              rw [hg] at hq
                              simp only at hq
                              rw [peer_setPeer] at hq
                              split at hq
                              · rename_i hc
                                obtain ⟨rfl, rfl, -⟩ := hc
                                cases hq
                                refine .inr (vouch _ (Props.C23_pack_unpack _) ?_)
                                intro hn
                                rw [← hpeers] at hn
                                unfold State.peer at hn
                                rw [ht] at hn
                                simp only at hn
                                rw [hg] at hn
                                cases hn
                              · exact e0 l q p' hq
                            | none =>
                              rw [hg] at hq
                              simp only at hq
                              rw [peer_setPeer] at hq
                              split at hq
                              · rename_i hc
                                obtain ⟨rfl, rfl, -⟩ := hc
                                cases hq
                                exact .inr (vouch _ (Props.C23_pack_unpack _) (fun _ => ⟨rfl, rfl⟩))
                              · exact e0 l q p' hq
                        cases hadd' : Node.addPeer o s1 d.localId (shortId c pub) addr pub key with
                        | mk s' r =>
                          rw [hadd'] at hadd
                          cases r <;> exact hadd
                      | _ => exact e0
          have e1 : R (checkPacket o ul now s1 d.data pkt d.localId d.chan d.priority key rand).1 := by
            unfold checkPacket
            cases hsrc : source o now s1 d.data pkt d.localId d.chan key with
            | mk s2 r =>
              rw [hsrc] at e2
              cases r with
              | error e => exact e2
              | ok x =>
                obtain ⟨q, check⟩ := x
                simp only
                cases hl : lookup s2 d.localId q d.chan.isSome with
                | error e => exact e2
                | ok p =>
                  simp only
                  cases hv : (if check = true then verify c d.data pkt.signature p.pub false else none) with
                  | some e => exact e2
                  | none => exact step _ _ e2 (session_kept o ul now s2 pkt _ q p (lookup_ok hl) _ rand)
          cases hcp : checkPacket o ul now s1 d.data pkt d.localId d.chan d.priority key rand with
          | mk s2 z =>
            obtain ⟨z1, z2⟩ := z
            rw [hcp] at e1
            cases z1 <;> exact e1

/-- The honest packet of `Props/Attribution.lean` adds its sender. -/
example : (match (handle { Sender.toyOpts with socketAddr := ⟨9, 9, 9, 9, 9⟩ } false 200 Sender.toyState
      honestPacket (13 : UInt8) Sender.toyRand).1.peer (List.replicate 32 1) (shortId Crypto.toy (21 : UInt8)) with
    | some p => unpack p.addr == Sender.toyOpts.socketAddr
    | none => false) = true ∧
    (Sender.toyState.peer (List.replicate 32 1) (shortId Crypto.toy (21 : UInt8))).isNone = true := by
  decide +kernel

end Verif.Receiver
