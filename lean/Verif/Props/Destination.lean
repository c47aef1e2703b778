import Verif.Props.Restart
import Verif.Props.Admission

/-!
# C109: where datagrams are sent to

A node sends to the address in its record of the peer (`src/adnl/node/sender.rs:230-239`). The record is
changed by the address list in handshake packets (`src/adnl/node/receiver.rs:416-425`, `src/adnl/node/mod.rs:315-349`),
where a node puts its socket address, or 127.0.0.1 for a peer with the same ip address.
-/
namespace Verif.Delivery
open Verif.Tl Verif.Adnl Verif.AdnlProto Verif.Address Verif.Node Verif.Receiver Verif.Sender Verif.Props
  Verif.Establish

variable {c : Crypto}

/-- Where a datagram for `dst` sent from the machine with the address `host` arrives: loopback addresses mean
the machine itself. -/
def lands (host dst : SockAddr) : SockAddr := if dst.a = 127 then { host with port := dst.port } else dst

/-- The nodes are on the same machine if one of them listens on a loopback address. -/
def Pair.Near (P : Pair c) : Prop := ∀ b, (P.opts b).socketAddr.a = 127 →
  (P.opts b).socketAddr.octets = (P.opts !b).socketAddr.octets

/-- Each side's record of the other leads to the other, and so does everything that was sent. -/
structure Found (P : Pair c) (σ : Sys c) : Prop where
  record : ∀ b p, (σ.node b).peer (P.id b) (P.id !b) = some p →
    lands (P.opts b).socketAddr (unpack p.addr) = (P.opts !b).socketAddr
  sent : ∀ b g, g ∈ σ.net b → lands (P.opts b).socketAddr g.dst = (P.opts !b).socketAddr

/-- Some steps of the two nodes. -/
inductive Leads (P : Pair c) (σ : Sys c) : Sys c → Prop
  | refl : Leads P σ σ
  | step (τ υ : Sys c) : Leads P σ τ → Step P τ υ → Leads P σ υ

/-! ### Addresses -/

theorem octets_eq {x y : SockAddr} (h : x.octets = y.octets) : x = { y with port := x.port } := by
  obtain ⟨a, b, c, d, p⟩ := x
  obtain ⟨a', b', c', d', p'⟩ := y
  simp only [SockAddr.octets, List.cons.injEq, and_true] at h
  simp [h]

theorem lands_destination (ul : Bool) (own x : SockAddr) : lands own (destination ul own x) = lands own x := by
  unfold destination
  split
  · rename_i h
    obtain ⟨-, h2, h3⟩ := h
    simp only [isLoopback, decide_eq_false_iff_not] at h3
    have : lands own x = x := by unfold lands; rw [if_neg h3]
    rw [this]
    unfold lands
    rw [if_pos rfl]
    exact (octets_eq h2.symm).symm
  · rfl

theorem lands_announced {ul : Bool} {own other x : SockAddr} (hx : lands own x = other)
    (h : own.a = 127 → own.octets = other.octets) : lands other (localAddr ul own x) = own := by
  unfold localAddr
  split
  · rename_i hc
    obtain ⟨-, h2, h3⟩ := hc
    simp only [isLoopback, decide_eq_false_iff_not] at h3
    unfold lands at hx
    rw [if_neg h3] at hx
    unfold lands
    rw [if_pos rfl]
    rw [hx] at h2
    exact (octets_eq h2).symm
  · unfold lands
    split
    · rename_i h3
      exact (octets_eq (h h3)).symm
    · rfl

theorem tryReinit_addr (q : Peer c) (t : Nat) : (q.tryReinit t).1.addr = q.addr := by
  unfold Peer.tryReinit
  repeat' split
  all_goals rfl

theorem checkDates_addr (o : Opts c) (now : Nat) (q : Peer c) (d : Option ReinitDates) :
    (checkDates o now q d).1.addr = q.addr := by
  unfold checkDates
  cases d with
  | none => rfl
  | some d =>
    simp only
    split
    · rfl
    split
    · rfl
    split
    · rfl
    have := tryReinit_addr q d.loc
    split <;> rename_i e <;> rw [e] at this
    · exact this
    · split <;> exact this

theorem checkHistory_addr (o : Opts c) (q : Peer c) (prio : Bool) (n : Option Nat) :
    (checkHistory o q prio n).1.addr = q.addr := by
  unfold checkHistory
  cases n with
  | none => rfl
  | some n =>
    simp only
    split
    · cases prio <;> rfl
    · rfl

theorem checkSeqnos_addr (o : Opts c) (q : Peer c) (prio : Bool) (n m : Option Nat) :
    (checkSeqnos o q prio n m).1.addr = q.addr := by
  unfold checkSeqnos
  have := checkHistory_addr o q prio n
  split <;> rename_i e <;> rw [e] at this
  · exact this
  · cases m with
    | none => exact this
    | some m =>
      simp only
      split <;> exact this

/-- Checking dates and numbers leaves the address alone. -/
theorem session_addr (o : Opts c) (ul : Bool) (now : Nat) (s : State c) (pkt : InPacket) (l i : Bytes) (q : Peer c)
    (hq : s.peer l i = some q) (prio : Bool) (rand : Nat → Rand c) :
    ∃ q', (session o ul now s pkt l i q prio rand).1.peer l i = some q' ∧ q'.addr = q.addr := by
  have hset : ∀ x : Peer c, (s.setPeer l i x).peer l i = some x := fun x => (Put.setPeer hq x).here
  have hd := checkDates_addr o now q pkt.reinitDates
  unfold session
  split <;> rename_i x y e' <;> rw [e'] at hd
  · exact ⟨_, hset _, hd⟩
  · simp only
    split
    · exact ⟨_, hset _, hd⟩
    · rename_i p2 ds hsend
      obtain ⟨p3, h1, h2, -⟩ := sendMessage_onlySent _ _ _ _ _ _ _ _ _ _ _ hsend
      rw [hset] at h1
      cases h1
      refine ⟨_, (Put.setPeer (hset _) _).here, ?_⟩
      rw [h2]
      exact hd
  · have hs := checkSeqnos_addr o y prio pkt.seqno pkt.confirmSeqno
    split <;> rename_i e2 <;> rw [e2] at hs <;> exact ⟨_, hset _, hs.trans hd⟩

/-! ### Handshake packets carry the address -/

/-- The node does not take the address `a` for the peer `i`: the peer is the node itself, the address is the node's
own, or the peer filter refuses it. -/
def Objects (o : Opts c) (l i : Bytes) (a : SockAddr) : Prop :=
  i = l ∨ a = o.socketAddr ∨ ∃ f, o.filter = some f ∧ f a i = false

/-- **C109 (the address is taken)** A handshake packet of `A` arrives at `B`, which has a record of `A`: the
address in the record becomes the one `A` announced, unless `B` objects to it. This
does not depend on what becomes of the packet otherwise. -/
theorem C109_address_taken (hc : c.Lawful) {oA oB : Opts c} {ul : Bool} {kA kB : c.Sec} {now nowB : Nat}
    {p p' : Peer c} {out : OutMessages} {ms : List Message} {r : Rand c} {d : Bytes}
    (h : Shake oA oB ul kA kB now nowB p p' out ms r d) (ul' : Bool) (s : State c) (q : Peer c)
    (hq : s.peer (shortId c (c.pubOf kB)) (shortId c (c.pubOf kA)) = some q) (key : c.Sec) (rand : Nat → Rand c) :
    ∃ q', (handle oB ul' nowB s d key rand).1.peer (shortId c (c.pubOf kB)) (shortId c (c.pubOf kA)) = some q' ∧
      (Objects oB (shortId c (c.pubOf kB)) (shortId c (c.pubOf kA)) (localAddr ul oA.socketAddr (unpack p.addr)) →
        q'.addr = q.addr) ∧
      (¬ Objects oB (shortId c (c.pubOf kB)) (shortId c (c.pubOf kA)) (localAddr ul oA.socketAddr (unpack p.addr)) →
        unpack q'.addr = localAddr ul oA.socketAddr (unpack p.addr)) := by
  obtain ⟨-, s1, a, pkt, ha, hput, f5, f6, f7, hh⟩ := handshake_checked_addr hc oA oB ul ul' now nowB _ p p' kA kB
    out ms r d h.sent h.carries h.raw h.rand h.pub (hc.sha_length _) h.key h.version h.time h.start h.date h.count
    h.confirm h.clock h.inTime h.started s q hq key rand
  obtain ⟨q', h1, h2⟩ := session_addr oB ul' nowB s1 pkt _ _ { q with addr := a } hput.here false rand
  refine ⟨q', ?_, ?_⟩
  · rw [hh]
    rw [← h1]
    split <;> rename_i e <;> rw [e]
  · have hf : ((oB.filter.map (fun f => f (localAddr ul oA.socketAddr (unpack p.addr)) (shortId c (c.pubOf kA)))).getD
        true = false) ↔ ∃ f, oB.filter = some f ∧ f (localAddr ul oA.socketAddr (unpack p.addr))
          (shortId c (c.pubOf kA)) = false := by
      cases oB.filter <;> simp
    rw [h2]
    simp only [ha, learnt, Objects]
    rw [← hf]
    refine ⟨fun e => if_pos e, fun e => ?_⟩
    rw [if_neg e]
    exact C23_pack_unpack _

/-- **C109 (a wrong address is corrected)** If `A` can reach `B`, then after any handshake packet of `A` that `B`
does not object to, `B`'s datagrams for `A` reach `A`, wherever `B` sent them before. -/
theorem C109_corrected (hc : c.Lawful) {oA oB : Opts c} {ul : Bool} {kA kB : c.Sec} {now nowB : Nat}
    {p p' : Peer c} {out : OutMessages} {ms : List Message} {r : Rand c} {d : Bytes}
    (h : Shake oA oB ul kA kB now nowB p p' out ms r d) (ul' : Bool) (s : State c) (q : Peer c)
    (hq : s.peer (shortId c (c.pubOf kB)) (shortId c (c.pubOf kA)) = some q)
    (hreach : lands oA.socketAddr (destination ul oA.socketAddr (unpack p.addr)) = oB.socketAddr)
    (hnear : oA.socketAddr.a = 127 → oA.socketAddr.octets = oB.socketAddr.octets)
    (hok : ¬ Objects oB (shortId c (c.pubOf kB)) (shortId c (c.pubOf kA)) (localAddr ul oA.socketAddr (unpack p.addr)))
    (key : c.Sec) (rand : Nat → Rand c) :
    ∃ q', (handle oB ul' nowB s d key rand).1.peer (shortId c (c.pubOf kB)) (shortId c (c.pubOf kA)) = some q' ∧
      lands oB.socketAddr (destination ul' oB.socketAddr (unpack q'.addr)) = oA.socketAddr := by
  obtain ⟨q', h1, -, h2⟩ := C109_address_taken hc h ul' s q hq key rand
  refine ⟨q', h1, ?_⟩
  rw [lands_destination, h2 hok]
  rw [lands_destination] at hreach
  exact lands_announced hreach hnear

/-! ### Two nodes that keep their addresses -/

theorem gram_addr (hc : c.Lawful) {P : Pair c} (hP : P.Fits) (hN : P.Near) {σ : Sys c} {pr : Bool → Peer c}
    (h : Inv P σ pr) (hf : Found P σ) (b : Bool) (g : Gram) (hg : g ∈ σ.net b) (now : Nat)
    (h1 : now + (P.opts !b).clockTolerance < 2 ^ 32)
    (h2 : (P.opts b).startTime ≤ now + (P.opts !b).clockTolerance)
    (h3 : now ≤ g.sentAt + (P.opts b).addressListTimeout) (key : c.Sec) (rand : Nat → Rand c) :
    ∃ q', (handle (P.opts !b) (P.loop !b) now (σ.node !b) g.data key rand).1.peer (P.id !b) (P.id b) = some q' ∧
      lands (P.opts !b).socketAddr (unpack q'.addr) = (P.opts b).socketAddr := by
  obtain ⟨p, p', signer, out, r, hsend, hpub, hdate, hm, hraw, hr, hnow, hprio, hn, hn64, hvia, hdst, hconf, hver, hsig⟩ :=
    (h.gram b g hg).made
  have hq : (σ.node !b).peer (P.id !b) (P.id b) = some (pr !b) := by
    have := (h.node !b).peer; simp only [Bool.not_not] at this; exact this
  have hs := (h.peer !b).small
  have hst := hP.start b
  have hst' := hP.start (!b)
  have hsd : p.sendDate < 2 ^ 32 := by rcases hdate with e | e <;> omega
  have hcf : (p.recvHist g.prio).seqno < 2 ^ 64 := by have := hs g.prio; omega
  have hrec : lands (P.opts !b).socketAddr (unpack (pr !b).addr) = (P.opts b).socketAddr := by
    have := hf.record (!b) (pr !b) (by rw [Bool.not_not]; exact hq)
    rwa [Bool.not_not] at this
  have hsent := hf.sent b g hg
  rw [hdst, Pair.target, lands_destination] at hsent
  cases signer with
  | random k =>
    simp only at hsig
    subst hsig
    have ep : g.prio = false := hprio
    rw [ep] at hn hconf hcf
    obtain ⟨q', a1, a2, a3⟩ := C109_address_taken (oB := P.opts !b) (kB := P.sec !b) hc
      ⟨hsend, hm, hraw, hr, hpub, hP.key (!b), hver, hnow, hst, hsd,
        by rw [← show p.sendSeqno false = p.sendOrd from rfl]; omega, hcf, h1, h3, h2, hdate⟩
      (P.loop !b) (σ.node !b) (pr !b) hq key rand
    refine ⟨q', a1, ?_⟩
    by_cases e : Objects (P.opts !b) (P.id !b) (P.id b) (localAddr (P.loop b) (P.opts b).socketAddr (unpack p.addr))
    · rw [a2 e]; exact hrec
    · rw [a3 e]
      exact lands_announced hsent (hN b)
  | channel ch pr0 =>
    obtain ⟨s', q', hh, hnode, -, -, -, -, -, hlast⟩ := arrives hc hP h b g hg now h1 h2 h3 key rand
    refine ⟨q', ?_, ?_⟩
    · rw [hh]
      have := hnode.peer
      rwa [Bool.not_not] at this
    · rw [(hlast hvia).1]
      exact hrec

theorem step_found (hc : c.Lawful) {P : Pair c} (hP : P.Fits) (hN : P.Near) {σ τ : Sys c} (h : Reachable P σ)
    (hf : Found P σ) (hs : Step P σ τ) : Found P τ := by
  obtain ⟨pr, hI⟩ := reachable_inv hc hP h
  cases hs with
  | send b now p p' signer out ms r d a1 a2 a3 a4 a5 a6 a7 a8 a9 a10 =>
    have hp := hf.record b p a1
    have hsame : p'.addr = p.addr := by
      have := (sendPacket_onlySent _ _ _ _ _ _ _ _ _ _ a9).1
      rw [this]
    refine ⟨?_, ?_⟩
    · intro b' q hq
      rcases bool_cases b b' with rfl | rfl
      · simp only [upd_self] at hq
        rw [(Put.setPeer a1 p').here] at hq
        cases hq
        rw [hsame]
        exact hp
      · simp only [upd_not] at hq
        exact hf.record _ q hq
    · intro b' g hg
      rcases bool_cases b b' with rfl | rfl
      · simp only [upd_self, List.mem_append, List.mem_singleton] at hg
        rcases hg with hg | rfl
        · exact hf.sent b' g hg
        · simp only [Pair.target, lands_destination]
          exact hp
      · simp only [upd_not] at hg
        exact hf.sent _ g hg
  | deliver b i g now key rand a1 a2 a3 a4 =>
    refine ⟨?_, hf.sent⟩
    intro b' q hq
    have hg := List.mem_of_getElem? a1
    rcases bool_cases b b' with rfl | rfl
    · simp only [upd_not'] at hq
      exact hf.record _ q hq
    · simp only [upd_self, Bool.not_not] at hq ⊢
      obtain ⟨s', q', hh, n1, -⟩ := arrives hc hP hI b g hg now a2 a3 a4 key rand
      obtain ⟨q2, g1, g2⟩ := gram_addr hc hP hN hI hf b g hg now a2 a3 a4 key rand
      have hpeer := n1.peer
      rw [Bool.not_not] at hpeer
      rw [hh] at g1
      simp only [hpeer, Option.some.injEq] at g1
      subst g1
      have harr : (arrive (P.opts !b) (P.loop !b) now (σ.node !b) g.data key rand).peer (P.id !b) (P.id b) =
          some q' := by
        unfold arrive
        rw [hh]
        by_cases hfr : fresh (P.opts !b) (pr !b) g.prio g.n = true
        · rw [if_pos hfr]
          simp only
          have := (absorbAll_ok hc hP (b := !b) g.ms s' n1
            (by rw [Bool.not_not]; exact (hI.gram b g hg).honest)).1.peer
          rwa [Bool.not_not] at this
        · rw [if_neg hfr]
          exact hpeer
      rw [harr] at hq
      cases hq
      exact g2
  | other b s' hu =>
    refine ⟨?_, hf.sent⟩
    intro b' q hq
    rcases bool_cases b b' with rfl | rfl
    · simp only [upd_self] at hq
      rw [hu.peer] at hq
      exact hf.record _ q hq
    · simp only [upd_not] at hq
      exact hf.record _ q hq

/-- **C109 (datagrams reach the peer)** Two nodes that keep their socket addresses, and whose records of each other
and datagrams lead to the other at some time: from then on each datagram either of them sends the other is sent to
an address where the other receives it. This holds with `use_loopback_for_neighbours` on either side or none,
whatever is lost, duplicated or late, and whatever else the nodes do. -/
theorem C109_found (hc : c.Lawful) (P : Pair c) (hP : P.Fits) (hN : P.Near) (σ τ : Sys c) (h : Reachable P σ)
    (hf : Found P σ) (hl : Leads P σ τ) : Found P τ := by
  have : Reachable P τ ∧ Found P τ := by
    induction hl with
    | refl => exact ⟨h, hf⟩
    | step τ υ _ hs ih => exact ⟨.step _ _ ih.1 hs, step_found hc hP hN ih.1 ih.2 hs⟩
  exact this.2

/-- Two nodes that have added each other with their socket addresses have this property from the start. -/
theorem C109_found_at_start (P : Pair c) (hN : P.Near) (σ : Sys c) (h0 : Start P σ)
    (ha : ∀ b p, (σ.node b).peer (P.id b) (P.id !b) = some p → p.addr = pack (P.opts !b).socketAddr) : Found P σ := by
  refine ⟨?_, ?_⟩
  · intro b p hp
    rw [ha b p hp, C23_pack_unpack]
    unfold lands
    split
    · rename_i e
      have := hN (!b) e
      rw [Bool.not_not] at this
      exact (octets_eq this).symm
    · rfl
  · intro b g hg
    rw [(h0.net b).1] at hg
    cases hg

/-! ### A node that has moved -/

/-- What is wanted: once a node knows that a peer has been started again, at another address, a packet from before
does not bring back the old address. -/
def C109_full : Prop := ∀ (c : Crypto) (oA oB : Opts c) (ul : Bool) (kA kB : c.Sec) (now nowB : Nat) (p p' : Peer c)
  (out : OutMessages) (ms : List Message) (r : Rand c) (d : Bytes) (s : State c) (q q' : Peer c)
  (key : c.Sec) (rand : Nat → Rand c), c.Lawful → Shake oA oB ul kA kB now nowB p p' out ms r d →
  s.peer (shortId c (c.pubOf kB)) (shortId c (c.pubOf kA)) = some q → oA.startTime < q.sendDate →
  (handle oB ul nowB s d key rand).1.peer (shortId c (c.pubOf kB)) (shortId c (c.pubOf kA)) = some q' →
  q'.addr = q.addr

/-- Refused packets change the address too: as long as its address list is valid, a packet of an earlier session
makes the node send to where the peer was then. -/
theorem C109_old_address_partial (hc : c.Lawful) {oA oB : Opts c} {ul : Bool} {kA kB : c.Sec} {now nowB : Nat}
    {p p' : Peer c} {out : OutMessages} {ms : List Message} {r : Rand c} {d : Bytes}
    (h : Shake oA oB ul kA kB now nowB p p' out ms r d) (ul' : Bool) (s : State c) (q : Peer c)
    (hq : s.peer (shortId c (c.pubOf kB)) (shortId c (c.pubOf kA)) = some q) (hold : oA.startTime < q.sendDate)
    (hok : ¬ Objects oB (shortId c (c.pubOf kB)) (shortId c (c.pubOf kA)) (localAddr ul oA.socketAddr (unpack p.addr)))
    (key : c.Sec) (rand : Nat → Rand c) :
    ∃ q', (handle oB ul' nowB s d key rand).2 = (.fail .srcTooOld, []) ∧
      (handle oB ul' nowB s d key rand).1.peer (shortId c (c.pubOf kB)) (shortId c (c.pubOf kA)) = some q' ∧
      unpack q'.addr = localAddr ul oA.socketAddr (unpack p.addr) := by
  obtain ⟨q', h1, -, h2⟩ := C109_address_taken hc h ul' s q hq key rand
  obtain ⟨s', a, h3, -⟩ := C108_old_source_refused hc h ul' s q hq hold key rand
  exact ⟨q', by rw [h3], h1, h2 hok⟩

/-- Only handshake packets change addresses, and once the channel is ready on both sides none are sent
(`sender.rs:116-122`): the old address stays. -/
theorem C109_channel_keeps_partial (o : Opts c) (ul : Bool) (now : Nat) (s : State c) (d : Bytes) (key : c.Sec)
    (rand : Nat → Rand c) (l i : Bytes) (q q' : Peer c) (hd : o.keys (d.take 32) = none)
    (hq : s.peer l i = some q) (hq' : (handle o ul now s d key rand).1.peer l i = some q') : q'.addr = q.addr := by
  rcases C22_by_packet o ul now s d key rand l i q' hq' with ⟨p, h1, h2, -⟩ | h
  · rw [hq] at h1
    cases h1
    exact h2
  · obtain ⟨v, payload, pkt, rest, pk, pub, list, addr, h1, -⟩ := h
    unfold parseHandshake at h1
    rw [hd] at h1
    split at h1 <;> cases h1

/-! ### Examples -/

/-- The second toy node knows that the first one has been started again at 150, at 9.9.9.9:9. -/
def toyMoved : Peer Crypto.toy := { toyOther with sendDate := 150, addr := pack ⟨9, 9, 9, 9, 9⟩ }

/-- A packet of the first toy node at its old address. -/
theorem toy_old_packet : ∃ p' d, sendPacket (toyPair.opts false) false 190 (toyPair.id true) toyPeer
      (.random (toyPair.sec false)) (.single (writeMessage .nop)) ⟨leBytes 10 1, (show UInt8 from 11)⟩ = .ok (p', d) ∧
    Shake (toyPair.opts false) (toyPair.opts true) false (toyPair.sec false) (toyPair.sec true) 190 200 toyPeer p'
      (.single (writeMessage .nop)) [.nop] ⟨leBytes 10 1, (show UInt8 from 11)⟩ d := by
  cases hs : sendPacket (toyPair.opts false) false 190 (toyPair.id !false) toyPeer (.random (toyPair.sec false))
    (.single (writeMessage .nop)) ⟨leBytes 10 1, (show UInt8 from 11)⟩ with
  | error e => cases hs
  | ok r =>
    obtain ⟨p', d⟩ := r
    exact ⟨p', d, hs, toyShake false (toyPair.opts false) (toyPair.opts true) rfl rfl rfl rfl (by decide) toyPeer p'
      rfl (.inl rfl) (by decide) (by decide) (by decide) (.single (writeMessage .nop)) [.nop] ⟨_, rfl, rfl, trivial⟩
      (by decide +kernel) d hs⟩

theorem toy_accepts_address : ¬ Objects (toyPair.opts true) (shortId Crypto.toy (Crypto.toy.pubOf (toyPair.sec true)))
    (shortId Crypto.toy (Crypto.toy.pubOf (toyPair.sec false)))
    (localAddr false (toyPair.opts false).socketAddr (unpack toyPeer.addr)) := by
  rintro (e | e | ⟨f, e, -⟩)
  · exact absurd e (by decide +kernel)
  · exact absurd e (by decide +kernel)
  · cases e

/-- The packet is refused, and the second node sends to 1.2.3.5:5 afterwards. -/
theorem C109_full_false : ¬ C109_full := by
  intro hfull
  obtain ⟨p', d, -, hsh⟩ := toy_old_packet
  obtain ⟨q', -, h1, h2⟩ := C109_old_address_partial Crypto.toy_lawful hsh false (toyWith true toyMoved) toyMoved
    (toyWith_peer true _) (by decide) toy_accepts_address (show UInt8 from 1) toyRand
  have h3 := hfull Crypto.toy (toyPair.opts false) (toyPair.opts true) false (toyPair.sec false) (toyPair.sec true) 190
    200 toyPeer p' (.single (writeMessage .nop)) [.nop] ⟨leBytes 10 1, (show UInt8 from 11)⟩ d (toyWith true toyMoved)
    toyMoved q' (show UInt8 from 1) toyRand Crypto.toy_lawful hsh (toyWith_peer true _) (by decide) h1
  rw [h3] at h2
  exact absurd h2 (by decide +kernel)

/-- A wrong address is corrected. -/
example : ∃ p' d, sendPacket (toyPair.opts false) false 190 (toyPair.id true) toyPeer
      (.random (toyPair.sec false)) (.single (writeMessage .nop)) ⟨leBytes 10 1, (show UInt8 from 11)⟩ = .ok (p', d) ∧
    ∃ q', (handle (toyPair.opts true) true 200 (toyWith true { toyOther with addr := pack ⟨8, 8, 8, 8, 8⟩ }) d
        (show UInt8 from 1) toyRand).1.peer (toyPair.id true) (toyPair.id false) = some q' ∧
      lands (toyPair.opts true).socketAddr (destination true (toyPair.opts true).socketAddr (unpack q'.addr)) =
        (toyPair.opts false).socketAddr := by
  obtain ⟨p', d, hs, hsh⟩ := toy_old_packet
  exact ⟨p', d, hs, C109_corrected Crypto.toy_lawful hsh true _ _ (toyWith_peer true _) (by decide +kernel)
    (by decide +kernel) toy_accepts_address _ _⟩

/-- A datagram that is no handshake packet leaves the address of the node that has moved alone. -/
example : ∀ q', (handle (toyPair.opts true) false 200 (toyWith true toyMoved) (List.replicate 200 9) (show UInt8 from 1)
      toyRand).1.peer (toyPair.id true) (toyPair.id false) = some q' → unpack q'.addr = ⟨9, 9, 9, 9, 9⟩ := by
  intro q' h
  rw [C109_channel_keeps_partial _ _ _ _ _ _ _ _ _ toyMoved q' (by decide +kernel) (toyWith_peer true _) h]
  decide +kernel

theorem toyPair_near : toyPair.Near := by intro b h; cases b <;> exact absurd h (by decide)

/-- The toy nodes have each other's addresses at the start. -/
theorem toy_found : Found toyPair toySys := by
  refine C109_found_at_start toyPair toyPair_near toySys toy_start ?_
  intro b p hp
  have : (toySys.node b).peer (toyPair.id b) (toyPair.id !b) =
      some (Peer.new 120 ⟨1, 2, 3, if b then 5 else 4, 5⟩ (toyPair.sec !b) (toyPair.chan b)) := by
    simp [toySys, toyNode, State.peer, AMap.get]
  rw [this] at hp
  cases hp
  cases b <;> rfl

/-- Two neighbours: the node 1.2.3.4:5 sends to the node 1.2.3.4:6 over 127.0.0.1, the datagram arrives there. -/
example : destination true ⟨1, 2, 3, 4, 5⟩ ⟨1, 2, 3, 4, 6⟩ = ⟨127, 0, 0, 1, 6⟩ ∧
    lands ⟨1, 2, 3, 4, 5⟩ ⟨127, 0, 0, 1, 6⟩ = ⟨1, 2, 3, 4, 6⟩ ∧
    localAddr true ⟨1, 2, 3, 4, 5⟩ ⟨1, 2, 3, 4, 6⟩ = ⟨127, 0, 0, 1, 5⟩ ∧
    destination true ⟨1, 2, 3, 4, 5⟩ ⟨127, 0, 0, 2, 6⟩ = ⟨127, 0, 0, 2, 6⟩ ∧
    destination false ⟨1, 2, 3, 4, 5⟩ ⟨1, 2, 3, 4, 6⟩ = ⟨1, 2, 3, 4, 6⟩ := by decide

/-- The first datagram of the first toy node, with the address it is sent to. -/
example : ∃ σ g, Leads toyPair toySys σ ∧ Found toyPair σ ∧ σ.net false = [g] ∧ g.dst = ⟨1, 2, 3, 4, 5⟩ := by
  cases hs : sendPacket (toyPair.opts false) false 130 (toyPair.id true) toyPeer
    (.random (show UInt8 from 3)) toyOut ⟨leBytes 10 1, (show UInt8 from 11)⟩ with
  | error e => cases hs
  | ok r =>
    obtain ⟨p', d⟩ := r
    have hstep := Step.send (P := toyPair) toySys false 130 toyPeer p' (.random (show UInt8 from 3)) toyOut
      [.createChannel (leBytes 32 7) 130, .query (List.replicate 32 4) (List.replicate 8 5)]
      ⟨leBytes 10 1, (show UInt8 from 11)⟩ d
      (by simp [toySys, toyNode, State.peer, AMap.get]; rfl) rfl
      ⟨_, _, rfl, rfl, by simp [Message.wf], by simp [Message.wf]⟩ (by decide +kernel)
      (by intro m hm; simp only [List.mem_cons, List.not_mem_nil, or_false] at hm
          rcases hm with rfl | rfl
          · exact ⟨rfl, by decide⟩
          · trivial)
      (by decide) (by decide) (by decide) hs (.inl rfl)
    refine ⟨_, _, .step _ _ .refl hstep, C109_found Crypto.toy_lawful toyPair toyPair_fits toyPair_near toySys _
      (.start _ toy_start) toy_found (.step _ _ .refl hstep), rfl, ?_⟩
    show toyPair.target false toyPeer = _
    decide +kernel

-- C109_address_taken, C109_old_address_partial: the packet of `toy_old_packet`; C109_found_at_start: `toy_found`
example : ∃ p' d, sendPacket (toyPair.opts false) false 190 (toyPair.id true) toyPeer
      (.random (toyPair.sec false)) (.single (writeMessage .nop)) ⟨leBytes 10 1, (show UInt8 from 11)⟩ = .ok (p', d) ∧
    (∃ q', (handle (toyPair.opts true) true 200 (toyWith true { toyOther with addr := pack ⟨8, 8, 8, 8, 8⟩ }) d
        (show UInt8 from 1) toyRand).1.peer (toyPair.id true) (toyPair.id false) = some q') ∧
    (handle (toyPair.opts true) true 200 (toyWith true toyMoved) d (show UInt8 from 1) toyRand).2 = (.fail .srcTooOld, []) := by
  obtain ⟨p', d, hs, hsh⟩ := toy_old_packet
  obtain ⟨q', h, -⟩ := C109_address_taken Crypto.toy_lawful hsh true _ _
    (toyWith_peer true { toyOther with addr := pack ⟨8, 8, 8, 8, 8⟩ }) (show UInt8 from 1) toyRand
  obtain ⟨q'', h2, -⟩ := C109_old_address_partial Crypto.toy_lawful hsh true _ _ (toyWith_peer true toyMoved) (by decide +kernel)
    toy_accepts_address (show UInt8 from 1) toyRand
  exact ⟨p', d, hs, ⟨q', h⟩, h2⟩
example : Found toyPair toySys := toy_found

end Verif.Delivery
