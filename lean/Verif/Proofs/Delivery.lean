import Verif.Proofs.Receiver2
import Verif.Proofs.Sender
import Verif.Props.PacketCodec
import Verif.Props.Handshake
import Verif.Props.Channel
import Verif.Props.Address
import Verif.Props.Replay

/-! # From `send_packet` to `handle_received_data` -/
namespace Verif.Delivery
open Verif.Tl Verif.Adnl Verif.AdnlProto Verif.Address Verif.Node Verif.Receiver Verif.Sender Verif.Props

variable {c : Crypto}

/-- `s'` is `s` with the record of one peer replaced. -/
structure Put (s s' : State c) (l q : Bytes) (p : Peer c) : Prop where
  heap : s'.heap = s.heap
  next : s'.next = s.next
  byPeer : s'.byPeer = s.byPeer
  byId : s'.byId = s.byId
  here : s'.peer l q = some p
  others : ∀ l' q', ¬ (l' = l ∧ q' = q) → s'.peer l' q' = s.peer l' q'

theorem Put.setPeer {s : State c} {l q : Bytes} {p0 : Peer c} (h : s.peer l q = some p0) (p : Peer c) :
    Put s (s.setPeer l q p) l q p := by
  have ht := peer_some_table h
  have e : ∃ m, s.setPeer l q p = { s with peers := m } := by
    unfold State.setPeer
    cases s.peers.get l with
    | none => exact ⟨s.peers, rfl⟩
    | some t => exact ⟨_, rfl⟩
  obtain ⟨m, e⟩ := e
  refine ⟨?_, ?_, ?_, ?_, ?_, ?_⟩
  · rw [e]
  · rw [e]
  · rw [e]
  · rw [e]
  · rw [peer_setPeer, if_pos ⟨rfl, rfl, ht⟩]
  · intro l' q' hn
    rw [peer_setPeer, if_neg]
    rintro ⟨a, b, -⟩
    exact hn ⟨a, b⟩

theorem Put.refl {s : State c} {l q : Bytes} {p : Peer c} (h : s.peer l q = some p) : Put s s l q p :=
  ⟨rfl, rfl, rfl, rfl, h, fun _ _ _ => rfl⟩

theorem Put.trans {s1 s2 s3 : State c} {l q : Bytes} {p p' : Peer c} (h : Put s1 s2 l q p)
    (h' : Put s2 s3 l q p') : Put s1 s3 l q p' :=
  ⟨h'.heap.trans h.heap, h'.next.trans h.next, h'.byPeer.trans h.byPeer, h'.byId.trans h.byId, h'.here,
    fun a b n => (h'.others a b n).trans (h.others a b n)⟩

/-- The address in a known peer's record after `add_peer` with the address `a` (node/mod.rs:325-347): not
taken from the node itself, not the own socket, not if the filter objects. -/
def learnt (o : Opts c) (l q : Bytes) (a : SockAddr) (old : Nat) : Nat :=
  if q = l ∨ a = o.socketAddr ∨ (o.filter.map (fun f => f a q)).getD true = false then old else pack a

theorem addPeer_known (o : Opts c) (s : State c) (l q : Bytes) (a : SockAddr) (pub : c.Pub) (key : c.Sec)
    (p : Peer c) (h : s.peer l q = some p) :
    ∃ s' r, addPeer o s l q a pub key = (s', r) ∧ r ≠ .peersNotFound ∧
      Put s s' l q { p with addr := learnt o l q a p.addr } := by
  unfold addPeer
  split
  · rename_i h0
    have : learnt o l q a p.addr = p.addr := by
      unfold learnt
      rw [if_pos (h0.imp id .inl)]
    rw [this]
    exact ⟨_, _, rfl, by simp, Put.refl h⟩
  rename_i h0
  split
  · rename_i h1
    have : learnt o l q a p.addr = p.addr := by
      unfold learnt
      rw [if_pos (.inr (.inr h1))]
    rw [this]
    exact ⟨_, _, rfl, by simp, Put.refl h⟩
  rename_i h1
  have he : learnt o l q a p.addr = pack a := by
    unfold learnt
    rw [if_neg]
    rintro (e | e | e)
    · exact h0 (.inl e)
    · exact h0 (.inr e)
    · exact h1 e
  rw [he]
  have h' := h
  unfold State.peer at h'
  cases h1 : s.peers.get l with
  | none => rw [h1] at h'; cases h'
  | some t =>
    rw [h1] at h'
    simp only at h' ⊢
    rw [h']
    exact ⟨_, _, rfl, by simp, Put.setPeer h _⟩

/-- The record after the dates of the packet were applied. -/
def dated (q : Peer c) : Option ReinitDates → Peer c
  | some d => (q.tryReinit d.loc).1
  | none => q

/-- The dates of a packet are in order. -/
def DatesFit (o : Opts c) (now : Nat) (q : Peer c) : Option ReinitDates → Prop
  | some d => (d.target = 0 ∨ d.target = o.startTime) ∧ d.loc ≤ now + o.clockTolerance ∧ q.sendDate ≤ d.loc
  | none => True

/-- Whether the history takes the number. -/
def fresh (o : Opts c) (q : Peer c) (prio : Bool) (n : Nat) : Bool := (checkHistory o q prio (some n)).2

/-- The record after the number was noted. -/
def noted (o : Opts c) (q : Peer c) (prio : Bool) (n : Nat) : Peer c := (checkHistory o q prio (some n)).1

theorem checkDates_fit {o : Opts c} {now : Nat} {q : Peer c} {dates : Option ReinitDates}
    (hnow : now + o.clockTolerance < 2 ^ 32) (h : DatesFit o now q dates) :
    checkDates o now q dates = (dated q dates, .go) := by
  cases dates with
  | none => rfl
  | some d =>
    obtain ⟨h1, h2, h3⟩ := h
    unfold checkDates
    simp only [addU32_eq o.build hnow]
    rw [if_neg (by rcases h1 with h1 | h1 <;> omega), if_neg (by omega)]
    have ht : (q.tryReinit d.loc) = ((q.tryReinit d.loc).1, true) := by
      unfold Peer.tryReinit
      split
      · rfl
      · split
        · split <;> rfl
        · omega
    rw [ht]
    simp only
    rw [if_neg (by rcases h1 with h1 | h1 <;> omega)]
    rfl

theorem setRecv_send (q : Peer c) (b b' : Bool) (h : PacketsHistory.Hist) :
    (q.setRecvHist b h).sendSeqno b' = q.sendSeqno b' := by
  cases b <;> cases b' <;> rfl

theorem noted_send (o : Opts c) (q : Peer c) (prio b : Bool) (n : Nat) :
    (noted o q prio n).sendSeqno b = q.sendSeqno b := by
  unfold noted checkHistory
  simp only
  split
  · exact setRecv_send _ _ _ _
  · rfl

theorem checkSeqnos_fit {o : Opts c} {q : Peer c} {prio : Bool} {n confirm : Nat}
    (h : confirm ≤ q.sendSeqno prio) :
    checkSeqnos o q prio (some n) (some confirm) =
      (noted o q prio n, if fresh o q prio n then .go else .duplicate) := by
  have hs := noted_send o q prio prio n
  unfold checkSeqnos
  have hh : checkHistory o q prio (some n) = (noted o q prio n, fresh o q prio n) := rfl
  rw [hh]
  cases fresh o q prio n with
  | false => rfl
  | true => simp only [if_true]; rw [if_neg (by omega)]

theorem session_fit {o : Opts c} {ul : Bool} {now : Nat} {s : State c} {pkt : InPacket} {l i : Bytes}
    {q : Peer c} {prio : Bool} {rand : Nat → Rand c} {n confirm : Nat}
    (hnow : now + o.clockTolerance < 2 ^ 32) (hn : pkt.seqno = some n) (hcf : pkt.confirmSeqno = some confirm)
    (hd : DatesFit o now q pkt.reinitDates)
    (hnum : confirm ≤ (dated q pkt.reinitDates).sendSeqno prio) :
    session o ul now s pkt l i q prio rand =
      (s.setPeer l i (noted o (dated q pkt.reinitDates) prio n),
        if fresh o (dated q pkt.reinitDates) prio n then .peer i else .duplicate, []) := by
  unfold session
  rw [checkDates_fit hnow hd]
  simp only
  rw [hn, hcf, checkSeqnos_fit hnum]
  cases fresh o (dated q pkt.reinitDates) prio n <;> rfl

theorem lookup_known {s : State c} {l i : Bytes} {q : Peer c} (h : s.peer l i = some q) (fromChannel : Bool)
    (hch : fromChannel = true → (s.byPeer.get i).isSome = true) : lookup s l i fromChannel = .ok q := by
  unfold State.peer at h
  unfold lookup
  cases hl : s.peers.get l with
  | none => rw [hl] at h; cases h
  | some t =>
    rw [hl] at h
    simp only at h ⊢
    rw [if_neg (by rintro ⟨a, b⟩; rw [hch a] at b; cases b), h]

/-- The fields of the packet `send_packet` writes. -/
theorem base_wf (hc : c.Lawful) (o : Opts c) (ul : Bool) (now expire : Nat) (p : Peer c) (rand : Bytes)
    (k : Option c.Sec) (m : OutMessages) (n cf : Nat) (sig : Option Bytes)
    (hr : rand.length = 10) (hnow : now < 2 ^ 32) (hex : expire < 2 ^ 32) (hst : o.startTime < 2 ^ 32)
    (hsd : p.sendDate < 2 ^ 32) (hn : n < 2 ^ 64) (hcf : cf < 2 ^ 64)
    (hsig : ∀ s, sig = some s → s.length = 64) :
    OutWf { basePacket o ul now expire p rand k m n cf with signature := sig } := by
  refine ⟨?_, ?_, ?_, hn, hcf, ?_, hsig, ?_⟩
  · simp [basePacket, hr]
  · intro pk hpk
    cases k with
    | none => simp [basePacket] at hpk
    | some k =>
      simp only [basePacket, Option.map_some, Option.some.injEq] at hpk
      subst hpk
      exact hc.pub_length _
  · refine ⟨?_, hnow, hst, hex⟩
    intro a ha
    simp only [basePacket, Option.some.injEq] at ha
    subst ha
    refine ⟨?_, ?_⟩
    · have := ofBE_lt (localAddr ul o.socketAddr (unpack p.addr)).octets
      simpa [toAddr, SockAddr.octets] using this
    · have := (localAddr ul o.socketAddr (unpack p.addr)).port.toNat_lt
      simp only [toAddr]
      omega
  · intro d hd
    cases k with
    | none => simp [basePacket] at hd
    | some k =>
      simp only [basePacket, Option.map_some, Option.some.injEq] at hd
      subst hd
      exact ⟨hst, hsd⟩
  · simp [basePacket, hr]

/-- Versions the receiver takes: its own, or none if the packet does not look versioned by accident. -/
def VersionFits (version : Option Nat) (accident : Prop) : Prop :=
  version = some 0 ∨ (version = none ∧ ¬ accident)

theorem writePacket_ne_nil (p : OutPacket) : writePacket p ≠ [] := by
  intro h
  have := congrArg List.length h
  simp [writePacket] at this

/-- A handshake packet made by `send_packet` arrives: everything up to the checks of dates and numbers
succeeds. -/
theorem handshake_checked_addr (hc : c.Lawful) (oA oB : Opts c) (ul ul' : Bool) (now nowB : Nat) (idB : Bytes)
    (p p' : Peer c) (kA kB : c.Sec) (out : OutMessages) (ms : List Message) (r : Rand c) (d : Bytes)
    (hsend : sendPacket oA ul now idB p (.random kA) out r = .ok (p', d))
    (hm : Carries out ms) (hraw : (rawOf out).length ≤ 60000) (hr : r.bytes.length = 10)
    (hpub : p.pub = c.pubOf kB) (hid : idB.length = 32) (hk : oB.keys idB = some kB)
    (hv : VersionFits oA.version (LooksVersioned c (c.dh kB (c.pubOf r.temp)) d))
    (hnow : now + oA.addressListTimeout < 2 ^ 32) (hst : oA.startTime < 2 ^ 32) (hsd : p.sendDate < 2 ^ 32)
    (hn : p.sendOrd + 1 < 2 ^ 64) (hcf : p.recvOrd.seqno < 2 ^ 64)
    (hnowB : nowB + oB.clockTolerance < 2 ^ 32) (hclock : nowB ≤ now + oA.addressListTimeout)
    (hd2 : oA.startTime ≤ nowB + oB.clockTolerance)
    (s : State c) (q : Peer c) (hq : s.peer idB (shortId c (c.pubOf kA)) = some q)
    (key : c.Sec) (rand : Nat → Rand c) :
    p' = p.setSendSeqno false (p.sendOrd + 1) ∧
    ∃ s1 a pkt, a = learnt oB idB (shortId c (c.pubOf kA)) (localAddr ul oA.socketAddr (unpack p.addr)) q.addr ∧
      Put s s1 idB (shortId c (c.pubOf kA)) { q with addr := a } ∧
      pkt.seqno = some (p.sendOrd + 1) ∧ pkt.confirmSeqno = some p.recvOrd.seqno ∧
      pkt.reinitDates = some ⟨oA.startTime, p.sendDate⟩ ∧
      handle oB ul' nowB s d key rand =
        match session oB ul' nowB s1 pkt idB (shortId c (c.pubOf kA)) { q with addr := a } false rand with
        | (s2, .peer peerId, out) => (s2, .accepted idB peerId false ms, out)
        | (s2, .duplicate, out) => (s2, .duplicate, out)
        | (s2, .fail e, out) => (s2, .fail e, out) := by
  unfold sendPacket at hsend
  rw [addU32_eq oA.build hnow] at hsend
  simp only [Except.ok.injEq, Prod.mk.injEq] at hsend
  obtain ⟨rfl, rfl⟩ := hsend
  refine ⟨rfl, ?_⟩
  have eS : p.sendSeqno false = p.sendOrd := rfl
  have eR : p.recvHist false = p.recvOrd := rfl
  simp only [PacketsHistory.bump, eS, eR] at hv ⊢
  generalize hbase : basePacket oA ul now (now + oA.addressListTimeout) p r.bytes (some kA) out
    (p.sendOrd + 1) p.recvOrd.seqno = base at hv ⊢
  have hnosig : { base with signature := none } = base := by rw [← hbase]; rfl
  generalize hsg : c.sign kA (writePacket base) = sg at hv ⊢
  have hsg64 : sg.length = 64 := by rw [← hsg]; exact hc.sign_length _ _
  have hwf : OutWf { base with signature := some sg } := by
    rw [← hbase]
    exact base_wf hc oA ul now _ p r.bytes (some kA) out _ _ (some sg) hr (by omega) hnow hst hsd hn hcf
      (by intro s hs; cases hs; exact hsg64)
  have hmsg : Carries ({ base with signature := some sg } : OutPacket).messages ms := by
    rw [← hbase]; exact hm
  have hlen : (writePacket { base with signature := some sg }).length < 2 ^ 16 := by
    have := packet_le oA hc ul now (now + oA.addressListTimeout) p r.bytes hr (some kA) out
      (p.sendOrd + 1) p.recvOrd.seqno (some sg) (by intro s hs; cases hs; exact hsg64)
    have : (writePacket { base with signature := some sg }).length ≤ (rawOf out).length + 184 := by
      rw [← hbase]; exact this
    omega
  have hdec : ∃ v, (v = none ∨ v = some 0) ∧ parseHandshake c oB.keys
      (buildHandshake c idB p.pub r.temp oA.version (writePacket { base with signature := some sg })) =
      .ok idB v (writePacket { base with signature := some sg }) := by
    rw [hpub] at hv ⊢
    rcases hv with hv | ⟨hv, hno⟩
    · rw [hv]
      exact ⟨some 0, .inr rfl, C10_versioned_partial c hc oB.keys idB kB r.temp 0 _ hid hk (by decide)
        (writePacket_ne_nil _)⟩
    · rw [hv] at hno ⊢
      exact ⟨none, .inl rfl, C10_unversioned_partial c hc oB.keys idB kB r.temp _ hid hk hno⟩
  obtain ⟨v, hv0, hparse⟩ := hdec
  obtain ⟨pkt, info, hread, hinfo, hext⟩ := C09_extract_gives_signed_bytes _ sg ms hmsg hwf rfl hlen
  have hread' := packet_encodes _ ms hmsg hwf []
  rw [List.append_nil, hread] at hread'
  simp only [Option.some.injEq, Prod.mk.injEq, and_true] at hread'
  have f1 : pkt.src = some (.ed25519 (c.pubBytes (c.pubOf kA))) := by
    rw [hread', ← hbase]; rfl
  have f2 : pkt.srcShort = none := by rw [hread']
  have f3 : pkt.messages = ms := by rw [hread']
  have f4 : pkt.address = some ⟨some (toAddr (localAddr ul oA.socketAddr (unpack p.addr))), now,
      oA.startTime, now + oA.addressListTimeout⟩ := by rw [hread', ← hbase]; rfl
  have f5 : pkt.seqno = some (p.sendOrd + 1) := by rw [hread', ← hbase]; rfl
  have f6 : pkt.confirmSeqno = some p.recvOrd.seqno := by rw [hread', ← hbase]; rfl
  have f7 : pkt.reinitDates = some ⟨oA.startTime, p.sendDate⟩ := by rw [hread', ← hbase]; rfl
  have hver : verify c (writePacket { base with signature := some sg }) pkt.signature (c.pubOf kA)
      oB.signatureRequired = none := by
    unfold verify
    rw [hinfo]
    simp only
    rw [hext]
    simp only
    rw [hnosig, if_pos]
    rw [← hsg]
    exact hc.sign_verify _ _
  have hparse' : Address.parse oB.build nowB oB.clockTolerance
      ⟨some (toAddr (localAddr ul oA.socketAddr (unpack p.addr))), now,
      oA.startTime, now + oA.addressListTimeout⟩ = .ok (localAddr ul oA.socketAddr (unpack p.addr)) := by
    refine ((C24_exact_partial _ _ _ _ hnowB).2 _).mpr ⟨_, ⟨rfl, hd2, .inr hclock⟩, ?_⟩
    rw [C23_address_roundtrip]
  obtain ⟨s1, rr, hadd, hrr, hput⟩ := addPeer_known oB s idB (shortId c (c.pubOf kA))
    (localAddr ul oA.socketAddr (unpack p.addr)) (c.pubOf kA) key q hq
  have hsrc : source oB nowB s (writePacket { base with signature := some sg }) pkt idB none key =
      (s1, .ok (shortId c (c.pubOf kA), false)) := by
    unfold source
    simp only [f1, fullId, hc.decode_pub, f2]
    rw [if_neg (by simp), hver]
    simp only [f4, hparse']
    rw [hadd]
    cases rr with
    | peersNotFound => exact absurd rfl hrr
    | yes => rfl
    | no => rfl
  refine ⟨s1, _, pkt, rfl, hput, f5, f6, f7, ?_⟩
  unfold handle
  rw [decrypt_handshake hparse]
  simp only
  rw [if_neg (by rcases hv0 with e | e <;> rw [e] <;> simp), hread]
  simp only
  unfold checkPacket
  rw [hsrc]
  simp only [Option.isSome_none]
  rw [lookup_known hput.here false (by simp)]
  simp only [Bool.false_eq_true, if_false]
  rw [f3]
  rfl

theorem handshake_checked (hc : c.Lawful) (oA oB : Opts c) (ul ul' : Bool) (now nowB : Nat) (idB : Bytes)
    (p p' : Peer c) (kA kB : c.Sec) (out : OutMessages) (ms : List Message) (r : Rand c) (d : Bytes)
    (hsend : sendPacket oA ul now idB p (.random kA) out r = .ok (p', d))
    (hm : Carries out ms) (hraw : (rawOf out).length ≤ 60000) (hr : r.bytes.length = 10)
    (hpub : p.pub = c.pubOf kB) (hid : idB.length = 32) (hk : oB.keys idB = some kB)
    (hv : VersionFits oA.version (LooksVersioned c (c.dh kB (c.pubOf r.temp)) d))
    (hnow : now + oA.addressListTimeout < 2 ^ 32) (hst : oA.startTime < 2 ^ 32) (hsd : p.sendDate < 2 ^ 32)
    (hn : p.sendOrd + 1 < 2 ^ 64) (hcf : p.recvOrd.seqno < 2 ^ 64)
    (hnowB : nowB + oB.clockTolerance < 2 ^ 32) (hclock : nowB ≤ now + oA.addressListTimeout)
    (hd2 : oA.startTime ≤ nowB + oB.clockTolerance)
    (s : State c) (q : Peer c) (hq : s.peer idB (shortId c (c.pubOf kA)) = some q)
    (key : c.Sec) (rand : Nat → Rand c) :
    p' = p.setSendSeqno false (p.sendOrd + 1) ∧
    ∃ s1 a pkt, Put s s1 idB (shortId c (c.pubOf kA)) { q with addr := a } ∧
      pkt.seqno = some (p.sendOrd + 1) ∧ pkt.confirmSeqno = some p.recvOrd.seqno ∧
      pkt.reinitDates = some ⟨oA.startTime, p.sendDate⟩ ∧
      handle oB ul' nowB s d key rand =
        match session oB ul' nowB s1 pkt idB (shortId c (c.pubOf kA)) { q with addr := a } false rand with
        | (s2, .peer peerId, out) => (s2, .accepted idB peerId false ms, out)
        | (s2, .duplicate, out) => (s2, .duplicate, out)
        | (s2, .fail e, out) => (s2, .fail e, out) := by
  obtain ⟨hp', s1, a, pkt, -, hrest⟩ := handshake_checked_addr hc oA oB ul ul' now nowB idB p p' kA kB out ms r d
    hsend hm hraw hr hpub hid hk hv hnow hst hsd hn hcf hnowB hclock hd2 s q hq key rand
  exact ⟨hp', s1, a, pkt, hrest⟩

/-- A handshake packet made by `send_packet` arrives: it is accepted unless its number is refused. -/
theorem handshake_arrives (hc : c.Lawful) (oA oB : Opts c) (ul ul' : Bool) (now nowB : Nat) (idB : Bytes)
    (p p' : Peer c) (kA kB : c.Sec) (out : OutMessages) (ms : List Message) (r : Rand c) (d : Bytes)
    (hsend : sendPacket oA ul now idB p (.random kA) out r = .ok (p', d))
    (hm : Carries out ms) (hraw : (rawOf out).length ≤ 60000) (hr : r.bytes.length = 10)
    (hpub : p.pub = c.pubOf kB) (hid : idB.length = 32) (hk : oB.keys idB = some kB)
    (hv : VersionFits oA.version (LooksVersioned c (c.dh kB (c.pubOf r.temp)) d))
    (hnow : now + oA.addressListTimeout < 2 ^ 32) (hst : oA.startTime < 2 ^ 32) (hsd : p.sendDate < 2 ^ 32)
    (hn : p.sendOrd + 1 < 2 ^ 64) (hcf : p.recvOrd.seqno < 2 ^ 64)
    (hnowB : nowB + oB.clockTolerance < 2 ^ 32) (hclock : nowB ≤ now + oA.addressListTimeout)
    (s : State c) (q : Peer c) (hq : s.peer idB (shortId c (c.pubOf kA)) = some q)
    (hd : DatesFit oB nowB q (some ⟨oA.startTime, p.sendDate⟩))
    (hnum : p.recvOrd.seqno ≤ (q.tryReinit oA.startTime).1.sendOrd)
    (key : c.Sec) (rand : Nat → Rand c) :
    p' = p.setSendSeqno false (p.sendOrd + 1) ∧
    ∃ s' a, handle oB ul' nowB s d key rand =
        (s', if fresh oB (q.tryReinit oA.startTime).1 false (p.sendOrd + 1) then
          .accepted idB (shortId c (c.pubOf kA)) false ms else .duplicate, []) ∧
      Put s s' idB (shortId c (c.pubOf kA))
        (noted oB (({ q with addr := a } : Peer c).tryReinit oA.startTime).1 false (p.sendOrd + 1)) := by
  obtain ⟨hd1, hd2, hd3⟩ := hd
  obtain ⟨hp', s1, a, pkt, hput, f5, f6, f7, hh⟩ := handshake_checked hc oA oB ul ul' now nowB idB p p' kA kB out
    ms r d hsend hm hraw hr hpub hid hk hv hnow hst hsd hn hcf hnowB hclock hd2 s q hq key rand
  refine ⟨hp', ?_⟩
  have hsame : (dated ({ q with addr := a } : Peer c) pkt.reinitDates) =
      { (q.tryReinit oA.startTime).1 with addr := a } := by
    rw [f7]
    simp only [dated]
    unfold Peer.tryReinit
    split
    · rfl
    · split
      · split <;> rfl
      · rfl
  have hfit : p.recvOrd.seqno ≤ (dated ({ q with addr := a } : Peer c) pkt.reinitDates).sendSeqno false := by
    rw [hsame]
    exact hnum
  have hfr : fresh oB (dated ({ q with addr := a } : Peer c) pkt.reinitDates) false (p.sendOrd + 1) =
      fresh oB (q.tryReinit oA.startTime).1 false (p.sendOrd + 1) := by
    rw [hsame]
    unfold fresh checkHistory
    simp only
    split <;> rfl
  have hsess := session_fit (ul := ul') (s := s1) (l := idB) (i := shortId c (c.pubOf kA)) (rand := rand)
    hnowB f5 f6 (q := { q with addr := a }) (o := oB) (now := nowB) (by rw [f7]; exact ⟨hd1, hd2, hd3⟩) hfit
  refine ⟨_, a, ?_, hput.trans (Put.setPeer hput.here _)⟩
  rw [hh, hsess, hfr, f7]
  cases fresh oB (q.tryReinit oA.startTime).1 false (p.sendOrd + 1) <;> rfl

theorem packet_ge (o : Opts c) (ul : Bool) (now expire : Nat) (p : Peer c) (rand : Bytes)
    (k : Option c.Sec) (m : OutMessages) (n cf : Nat) :
    32 ≤ (writePacket (basePacket o ul now expire p rand k m n cf)).length := by
  simp only [writePacket, basePacket, List.length_append, writeU32_length, writeU64_length,
    writeAddrList_some]
  omega

/-- A channel decrypts what its mirror image encrypts. -/
theorem channel_opens (hc : c.Lawful) (chA chB : Channel) (prio : Bool) (version : Option Nat)
    (data : Bytes) (hd : data ≠ []) (hm : chB.inn = chA.out) (hid : (chA.out.sub prio).id.length = 32)
    (hv : VersionFits version (ChannelLooksVersioned c (chA.out.sub prio).secret
      (chA.encrypt c prio version data))) :
    ∃ v, (v = none ∨ v = some 0) ∧ chB.decrypt c prio (chA.encrypt c prio version data) = .ok v data := by
  have hlen : 64 ≤ (chA.encrypt c prio version data).length := by
    unfold Channel.encrypt sealPacket
    cases version <;> simp only [List.length_append, hid, dataHash_length c hc] <;> omega
  unfold Channel.decrypt
  rw [hm, if_neg (by omega)]
  rcases hv with rfl | ⟨rfl, hno⟩
  · refine ⟨some 0, .inr rfl, ?_⟩
    unfold Channel.encrypt
    rw [open_seal_some c hc 32 0 _ _ data hid (by decide) hd]
  · refine ⟨none, .inl rfl, ?_⟩
    rw [(openPacket_spec c hc 32 _ _ hlen).2]
    · unfold Channel.encrypt
      rw [openOrdinary_seal c hc 32 _ _ data hid]
    · rintro v d ⟨a1, a2, a3, a4⟩
      exact hno ⟨a1, v, decodeVersion_lt _ _ _ a2, by rw [← a3]; exact a4⟩

/-- A channel packet made by `send_packet` arrives: it is accepted unless its number is refused. -/
theorem channel_arrives (hc : c.Lawful) (oA oB : Opts c) (ul ul' : Bool) (now nowB : Nat) (idB : Bytes)
    (p p' : Peer c) (chA chB : Channel) (prio : Bool) (out : OutMessages) (ms : List Message) (r : Rand c)
    (d : Bytes) (hsend : sendPacket oA ul now idB p (.channel chA prio) out r = .ok (p', d))
    (hm : Carries out ms) (hr : r.bytes.length = 10) (eff : Bool) (heff : eff = effectivePriority p prio)
    (hv : VersionFits oA.version (ChannelLooksVersioned c (chA.out.sub eff).secret d))
    (hnow : now + oA.addressListTimeout < 2 ^ 32) (hst : oA.startTime < 2 ^ 32) (hsd : p.sendDate < 2 ^ 32)
    (hn : p.sendSeqno eff + 1 < 2 ^ 64) (hcf : (p.recvHist eff).seqno < 2 ^ 64)
    (hnowB : nowB + oB.clockTolerance < 2 ^ 32)
    (s : State c) (ref : Nat) (hid : (chA.out.sub eff).id.length = 32)
    (hfree : oB.keys (chA.out.sub eff).id = none)
    (hlist : s.byId.get (chA.out.sub eff).id = some (ref, eff)) (hheap : s.heap.get ref = some chB)
    (hmirror : chB.inn = chA.out) (hpeer : (s.byPeer.get chB.peerId).isSome = true)
    (q : Peer c) (hq : s.peer chB.localId chB.peerId = some q)
    (hnum : (p.recvHist eff).seqno ≤ q.sendSeqno eff)
    (key : c.Sec) (rand : Nat → Rand c) :
    p' = p.setSendSeqno eff (p.sendSeqno eff + 1) ∧
    ∃ s', handle oB ul' nowB s d key rand =
        (s', if fresh oB q eff (p.sendSeqno eff + 1) then .accepted chB.localId chB.peerId eff ms
          else .duplicate, []) ∧
      Put (s.setReady ref) s' chB.localId chB.peerId (noted oB q eff (p.sendSeqno eff + 1)) := by
  unfold sendPacket at hsend
  rw [addU32_eq oA.build hnow] at hsend
  simp only [Except.ok.injEq, Prod.mk.injEq] at hsend
  obtain ⟨rfl, rfl⟩ := hsend
  rw [← heff] at hv ⊢
  refine ⟨rfl, ?_⟩
  simp only [PacketsHistory.bump] at hv ⊢
  have h32 := packet_ge oA ul now (now + oA.addressListTimeout) p r.bytes none out
    (p.sendSeqno eff + 1) (p.recvHist eff).seqno
  generalize hbase : basePacket oA ul now (now + oA.addressListTimeout) p r.bytes none out
    (p.sendSeqno eff + 1) (p.recvHist eff).seqno = base at hv h32 ⊢
  have hwf : OutWf base := by
    rw [← hbase]
    exact base_wf hc oA ul now _ p r.bytes none out _ _ none hr (by omega) hnow hst hsd hn hcf
      (by intro s hs; cases hs)
  have hmsg : Carries base.messages ms := by
    rw [← hbase]; exact hm
  obtain ⟨v, hv0, hopen⟩ := channel_opens hc chA chB eff oA.version (writePacket base)
    (writePacket_ne_nil _) hmirror hid hv
  have hread := packet_encodes _ ms hmsg hwf []
  rw [List.append_nil] at hread
  generalize hpkt : (⟨base.src, none, ms, some base.address, some base.seqno, some base.confirmSeqno,
    base.reinitDates, base.signature.map (sigInfo base)⟩ : InPacket) = pkt at hread
  have f1 : pkt.src = none := by rw [← hpkt, ← hbase]; rfl
  have f2 : pkt.srcShort = none := by rw [← hpkt]
  have f3 : pkt.messages = ms := by rw [← hpkt]
  have f4 : pkt.signature = none := by rw [← hpkt, ← hbase]; rfl
  have f5 : pkt.seqno = some (p.sendSeqno eff + 1) := by rw [← hpkt, ← hbase]; rfl
  have f6 : pkt.confirmSeqno = some (p.recvHist eff).seqno := by rw [← hpkt, ← hbase]; rfl
  have f7 : pkt.reinitDates = none := by rw [← hpkt, ← hbase]; rfl
  have htake : (chA.encrypt c eff oA.version (writePacket base)).take 32 = (chA.out.sub eff).id := by
    obtain ⟨rest, hrest⟩ := encrypt_prefix c chA eff oA.version (writePacket base)
    rw [hrest, ← hid]
    exact List.take_left
  have hlen : ¬ (chA.encrypt c eff oA.version (writePacket base)).length < 96 := by
    unfold Channel.encrypt sealPacket
    cases oA.version <;> simp only [List.length_append, hid, dataHash_length c hc, cipher_length c hc] <;>
      omega
  have hnot : parseHandshake c oB.keys (chA.encrypt c eff oA.version (writePacket base)) = .notForUs := by
    unfold parseHandshake
    rw [if_neg hlen, htake, hfree]
  have hdec : decrypt oB s (chA.encrypt c eff oA.version (writePacket base)) =
      (s.setReady ref, .ok (some ⟨chB.localId, some chB.peerId, eff, v, writePacket base⟩)) := by
    unfold decrypt
    rw [hnot]
    simp only
    rw [htake, hlist]
    simp only
    rw [hheap]
    simp only
    rw [hopen]
  have hq' : (s.setReady ref).peer chB.localId chB.peerId = some q := by
    rw [peer_setReady]; exact hq
  have hbp : (s.setReady ref).byPeer = s.byPeer := by
    unfold State.setReady; rw [hheap]
  have hsess := session_fit (ul := ul') (s := s.setReady ref) (l := chB.localId) (i := chB.peerId)
    (rand := rand) hnowB f5 f6 (q := q) (prio := eff) (o := oB) (now := nowB) (by rw [f7]; trivial)
    (by rw [f7]; exact hnum)
  have hdt : dated q pkt.reinitDates = q := by rw [f7]; rfl
  have hsess' : session oB ul' nowB (s.setReady ref) pkt chB.localId chB.peerId q eff rand =
      ((s.setReady ref).setPeer chB.localId chB.peerId (noted oB q eff (p.sendSeqno eff + 1)),
        if fresh oB q eff (p.sendSeqno eff + 1) then .peer chB.peerId else .duplicate, []) := by
    rw [hsess, hdt]
  refine ⟨_, ?_, Put.setPeer hq' _⟩
  unfold handle
  rw [hdec]
  simp only
  rw [if_neg (by rcases hv0 with e | e <;> rw [e] <;> simp), hread]
  simp only
  unfold checkPacket source
  simp only [f1, f2, Option.isSome_none, Bool.false_eq_true, or_self, if_false, Option.isSome_some]
  rw [lookup_known hq' true (by intro _; rw [hbp]; exact hpeer)]
  simp only [f4, verify, Bool.false_eq_true, if_false, if_true]
  rw [hsess', f3]
  cases fresh oB q eff (p.sendSeqno eff + 1) <;> rfl

end Verif.Delivery
