import Verif.Props.Reset

/-!
# C108: after a restart

A node that is started again has lost its channels, counters and histories, and has a later start time, which
it puts into its handshake packets as reinit date (`src/adnl/node/sender.rs:265-271`). The other side compares
it with the date it knows (`src/adnl/node/receiver.rs:457-481`, `src/adnl/peer.rs:41-57`).
-/
namespace Verif.Delivery
open Verif.Tl Verif.Adnl Verif.AdnlProto Verif.Address Verif.Node Verif.Receiver Verif.Sender Verif.Props

variable {c : Crypto}

/-- A record whose counters and histories were reset because of the date `t`. -/
def forgotten (q : Peer c) (t : Nat) : Peer c :=
  { q with
    sendDate := t
    sendOrd := 0
    sendPrio := 0
    recvOrd := PacketsHistory.reset q.recvOrd
    recvPrio := PacketsHistory.reset q.recvPrio }

theorem tryReinit_later {q : Peer c} {t : Nat} (h0 : q.sendDate ≠ 0) (hlt : q.sendDate < t) :
    q.tryReinit t = (forgotten q t, true) := by
  unfold Peer.tryReinit
  rw [if_neg (by omega), if_pos (by omega), if_pos h0]
  rfl

theorem tryReinit_earlier {q : Peer c} {t : Nat} (hlt : t < q.sendDate) : q.tryReinit t = (q, false) := by
  unfold Peer.tryReinit
  rw [if_neg (by omega), if_neg (by omega)]

theorem tryReinit_known {q : Peer c} {t : Nat} (h : q.sendDate = 0 ∨ q.sendDate = t) :
    q.tryReinit t = ({ q with sendDate := t }, true) := by
  unfold Peer.tryReinit
  rcases h with e | e
  · by_cases e0 : t = 0
    · rw [if_pos (by omega), e0, ← e]
    · rw [if_neg (by omega), if_pos (by omega), if_neg (by simp [e])]
  · rw [if_pos e.symm, ← e]

theorem fresh_reset (o : Opts c) (q : Peer c) (h : PacketsHistory.Hist) (xs : List Nat)
    (hq : q.recvOrd = PacketsHistory.run (PacketsHistory.reset h) xs) (n : Nat) (h0 : n ≠ 0) (hn : n ∉ xs) :
    fresh o q false n = true := by
  rw [fresh_eq]
  split
  · have : q.recvHist false = q.recvOrd := rfl
    rw [this, hq]
    exact C02_fresh_number_accepted_after_reset h xs n h0 hn
  · rfl

theorem noted_forgotten (oB : Opts c) (q : Peer c) (h : PacketsHistory.Hist) (hq : q.recvOrd = PacketsHistory.reset h)
    (n : Nat) : ∃ xs, (xs = [] ∨ xs = [n]) ∧
      (noted oB q false n).recvOrd = PacketsHistory.run (PacketsHistory.reset h) xs := by
  have hr := noted_recv oB q false n false
  have e : q.recvHist false = PacketsHistory.reset h := hq
  rw [e] at hr
  by_cases he : oB.historyEnabled = true
  · rw [if_pos ⟨he, rfl⟩] at hr
    exact ⟨[n], .inr rfl, hr⟩
  · rw [if_neg (by simp [he])] at hr
    exact ⟨[], .inl rfl, hr⟩

theorem run_reset_seqno (h : PacketsHistory.Hist) (xs : List Nat) :
    (PacketsHistory.run (PacketsHistory.reset h) xs).seqno = xs.foldl max 0 := by
  refine (PacketsHistory.seqno_run (PacketsHistory.reset h) rfl xs ?_).1
  intro t ht hb
  rw [PacketsHistory.bitOf_reset h t ht] at hb
  simp only [decide_eq_true_eq] at hb
  omega

/-! ### The other side notices -/

/-- **C108 (noticed)** A node that has restarted sends a handshake packet, the first one or a later one. If the
other side knows an earlier date, the packet is accepted whatever was remembered: the history, the numbers sent
and the address of the earlier session. Afterwards the other side counts from 1 again and takes every number
but this one. -/
theorem C108_noticed (hc : c.Lawful) {oA oB : Opts c} {ul : Bool} {kA kB : c.Sec} {now nowB : Nat}
    {p p' : Peer c} {out : OutMessages} {ms : List Message} {r : Rand c} {d : Bytes}
    (h : Shake oA oB ul kA kB now nowB p p' out ms r d) (hnone : p.recvOrd.seqno = 0)
    (ul' : Bool) (s : State c) (q : Peer c)
    (hq : s.peer (shortId c (c.pubOf kB)) (shortId c (c.pubOf kA)) = some q)
    (hknown : q.sendDate ≠ 0) (hlater : q.sendDate < oA.startTime) (key : c.Sec) (rand : Nat → Rand c) :
    ∃ s' q1, handle oB ul' nowB s d key rand =
        (s', .accepted (shortId c (c.pubOf kB)) (shortId c (c.pubOf kA)) false ms, []) ∧
      Put s s' (shortId c (c.pubOf kB)) (shortId c (c.pubOf kA)) q1 ∧
      q1.sendDate = oA.startTime ∧ q1.sendOrd = 0 ∧ q1.sendPrio = 0 ∧ q1.recvPrio.seqno = 0 ∧
      q1.recvOrd.seqno ≤ p.sendOrd + 1 ∧ q1.pub = q.pub ∧ q1.channelKey = q.channelKey ∧
      ∀ n, n ≠ 0 → n ≠ p.sendOrd + 1 → fresh oB q1 false n = true := by
  have e0 : ∀ a : Nat, (({ q with addr := a } : Peer c).tryReinit oA.startTime) =
      (forgotten { q with addr := a } oA.startTime, true) := fun a => tryReinit_later hknown hlater
  obtain ⟨-, s', a, hh, hput⟩ := handshake_arrives hc oA oB ul ul' now nowB _ p p' kA kB out ms r d h.sent
    h.carries h.raw h.rand h.pub (hc.sha_length _) h.key h.version h.time h.start h.date h.count h.confirm h.clock
    h.inTime s q hq ⟨h.known, h.started, by simp only; omega⟩ (by omega) key rand
  rw [tryReinit_later hknown hlater, fresh_reset oB (forgotten q oA.startTime) q.recvOrd [] rfl _ (by omega) (by simp),
    if_pos rfl] at hh
  rw [e0 a] at hput
  obtain ⟨xs, hxs, hrec⟩ := noted_forgotten oB (forgotten { q with addr := a } oA.startTime) q.recvOrd rfl
    (p.sendOrd + 1)
  have hf := noted_fields oB (forgotten { q with addr := a } oA.startTime) false (p.sendOrd + 1)
  refine ⟨s', _, hh, hput, hf.2.2, noted_send _ _ _ false _, noted_send _ _ _ true _, ?_, ?_, hf.1, hf.2.1, ?_⟩
  · have hr := noted_recv oB (forgotten { q with addr := a } oA.startTime) false (p.sendOrd + 1) true
    rw [if_neg (by simp)] at hr
    have e : ∀ x : Peer c, x.recvPrio = x.recvHist true := fun _ => rfl
    rw [e, hr]
    rfl
  · rw [hrec, run_reset_seqno]
    rcases hxs with rfl | rfl <;> simp
  · intro n hn0 hn
    refine fresh_reset oB _ q.recvOrd xs hrec n hn0 ?_
    rcases hxs with rfl | rfl <;> simp [hn]

/-! ### Packets of the earlier session -/

/-- **C108 (old packets of the restarted node)** Once the other side knows the new date, handshake packets made
before the restart are refused. Nothing is sent, and only the address is taken from them. -/
theorem C108_old_source_refused (hc : c.Lawful) {oA oB : Opts c} {ul : Bool} {kA kB : c.Sec} {now nowB : Nat}
    {p p' : Peer c} {out : OutMessages} {ms : List Message} {r : Rand c} {d : Bytes}
    (h : Shake oA oB ul kA kB now nowB p p' out ms r d) (ul' : Bool) (s : State c) (q : Peer c)
    (hq : s.peer (shortId c (c.pubOf kB)) (shortId c (c.pubOf kA)) = some q)
    (hearlier : oA.startTime < q.sendDate) (key : c.Sec) (rand : Nat → Rand c) :
    ∃ s' a, handle oB ul' nowB s d key rand = (s', .fail .srcTooOld, []) ∧
      Put s s' (shortId c (c.pubOf kB)) (shortId c (c.pubOf kA)) { q with addr := a } := by
  obtain ⟨-, s1, a, pkt, hput, f5, f6, f7, hh⟩ := handshake_checked hc oA oB ul ul' now nowB _ p p' kA kB out
    ms r d h.sent h.carries h.raw h.rand h.pub (hc.sha_length _) h.key h.version h.time h.start h.date h.count
    h.confirm h.clock h.inTime h.started s q hq key rand
  have hdat : checkDates oB nowB { q with addr := a } pkt.reinitDates = ({ q with addr := a }, .fail .srcTooOld) := by
    rw [f7]
    unfold checkDates
    simp only [addU32_eq oB.build h.clock]
    rw [if_neg (by have := h.known; omega), if_neg (by have := h.started; omega),
      tryReinit_earlier (q := { q with addr := a }) hearlier]
  refine ⟨_, a, ?_, hput.trans (Put.setPeer hput.here _)⟩
  rw [hh]
  unfold session
  rw [hdat]

/-- What is wanted: a packet sent to a node before it was restarted (at `t`) is not accepted afterwards. -/
def C108_full : Prop := ∀ (c : Crypto) (oA oB : Opts c) (ul : Bool) (kA kB : c.Sec) (now nowA : Nat) (q q' : Peer c)
  (out : OutMessages) (ms : List Message) (r : Rand c) (d : Bytes) (t : Nat) (s : State c) (a : SockAddr) (x : c.Sec)
  (key : c.Sec) (rand : Nat → Rand c), c.Lawful → Shake oB oA ul kB kA now nowA q q' out ms r d →
  oA.startTime < t → t ≤ nowA →
  s.peer (shortId c (c.pubOf kA)) (shortId c (c.pubOf kB)) = some (Peer.new t a (c.pubOf kB) x) →
  (handle { oA with startTime := t } ul nowA s d key rand).2.1 ≠
    .accepted (shortId c (c.pubOf kA)) (shortId c (c.pubOf kB)) false ms

theorem nop_sent {o : Opts c} {ul : Bool} {now : Nat} {s : State c} {l q : Bytes} {p : Peer c} {k : c.Sec}
    (hp : s.peer l q = some p) (hk : o.keys l = some k) (hch : s.channel q = none)
    (hnow : now + o.addressListTimeout < 2 ^ 32) (rand : Nat → Rand c) :
    ∃ p2 x, sendPacket o ul now q p (.random k)
        (.pair (writeMessage (.createChannel (c.pubBytes (c.pubOf p.channelKey)) now) ++ writeMessage .nop)) (rand 0) =
        .ok (p2, x) ∧
      sendMessage o ul now s l q .nop false rand = .ok (p2, [x]) := by
  have hok : ∃ p2 x, sendPacket o ul now q p (.random k)
        (.pair (writeMessage (.createChannel (c.pubBytes (c.pubOf p.channelKey)) now) ++ writeMessage .nop)) (rand 0) =
        .ok (p2, x) := by
    unfold sendPacket
    rw [addU32_eq o.build hnow]
    exact ⟨_, _, rfl⟩
  obtain ⟨p2, x, h⟩ := hok
  refine ⟨p2, x, h, ?_⟩
  unfold State.peer at hp
  unfold sendMessage
  cases hl : s.peers.get l with
  | none => rw [hl] at hp; cases hp
  | some t =>
    rw [hl] at hp
    simp only at hp
    simp only [hp, hk, hch, countedSize, signerOf, additional]
    unfold packets
    simp only [Option.map_some, Option.getD_some]
    rw [if_pos (by omega)]
    simp only [sendAll]
    rw [h]

/-- **C108 (old packets for the restarted node)** A packet that names the date of the earlier session is refused
by the node that has restarted. Of its record only the address, the date of the other side and the number of
packets sent change; the answer is one packet with a channel request and a `Nop`, which tells the other side
about the restart (`C108_noticed`). -/
theorem C108_old_target_refused_partial (hc : c.Lawful) {oA oB : Opts c} {ul : Bool} {kA kB : c.Sec} {now nowA : Nat}
    {q q' : Peer c} {out : OutMessages} {ms : List Message} {r : Rand c} {d : Bytes}
    (h : Shake oB oA ul kB kA now nowA q q' out ms r d) (hnamed : q.sendDate ≠ 0)
    (t : Nat) (ht : oA.startTime < t) (ul' : Bool) (s : State c) (p : Peer c)
    (hp : s.peer (shortId c (c.pubOf kA)) (shortId c (c.pubOf kB)) = some p)
    (hdate : p.sendDate = 0 ∨ p.sendDate = oB.startTime) (hch : s.channel (shortId c (c.pubOf kB)) = none)
    (hnow : nowA + oA.addressListTimeout < 2 ^ 32) (key : c.Sec) (rand : Nat → Rand c) :
    ∃ s' a p2 x, handle { oA with startTime := t } ul' nowA s d key rand = (s', .fail .dstTooOld, [x]) ∧
      Put s s' (shortId c (c.pubOf kA)) (shortId c (c.pubOf kB)) p2 ∧
      p2 = { p with addr := a, sendDate := oB.startTime, sendOrd := p.sendOrd + 1 } ∧
      sendPacket { oA with startTime := t } ul' nowA (shortId c (c.pubOf kB))
        { p with addr := a, sendDate := oB.startTime } (.random kA)
        (.pair (writeMessage (.createChannel (c.pubBytes (c.pubOf p.channelKey)) nowA) ++ writeMessage .nop))
        (rand 0) = .ok (p2, x) := by
  obtain ⟨-, s1, a, pkt, hput, f5, f6, f7, hh⟩ := handshake_checked hc oB { oA with startTime := t } ul ul' now nowA _
    q q' kB kA out ms r d h.sent h.carries h.raw h.rand h.pub (hc.sha_length _) h.key h.version h.time h.start h.date
    h.count h.confirm h.clock h.inTime h.started s p hp key rand
  have hdat : checkDates { oA with startTime := t } nowA { p with addr := a } pkt.reinitDates =
      ({ p with addr := a, sendDate := oB.startTime }, .nop) := by
    rw [f7]
    unfold checkDates
    have hcl : nowA + oA.clockTolerance < 2 ^ 32 := h.clock
    have hst : oB.startTime ≤ nowA + oA.clockTolerance := h.started
    have hkn := h.known
    simp only [addU32_eq oA.build hcl]
    rw [if_neg (by omega), if_neg (by omega), tryReinit_known (q := { p with addr := a }) hdate]
    simp only
    rw [if_pos ⟨hnamed, by omega⟩]
  have hput1 := hput.trans (Put.setPeer hput.here ({ p with addr := a, sendDate := oB.startTime } : Peer c))
  obtain ⟨p2, x, h1, h2⟩ := nop_sent (o := { oA with startTime := t }) (ul := ul') (now := nowA) hput1.here h.key
    (by rw [put_channel hput1]; exact hch) hnow rand
  refine ⟨_, a, p2, x, ?_, hput1.trans (Put.setPeer hput1.here p2), ?_, h1⟩
  · rw [hh]
    unfold session
    rw [hdat]
    simp only
    rw [h2]
  · exact sendPacket_rec h1

/-- **C108 (replay)** A packet that names no date, because its sender had not heard from the node yet, is
accepted after the restart, whether or not it was accepted before it: the new session has no history. -/
theorem C108_replayed_partial (hc : c.Lawful) {oA oB : Opts c} {ul : Bool} {kA kB : c.Sec} {now nowA : Nat}
    {q q' : Peer c} {out : OutMessages} {ms : List Message} {r : Rand c} {d : Bytes}
    (h : Shake oB oA ul kB kA now nowA q q' out ms r d) (hnamed : q.sendDate = 0) (hconf : q.recvOrd.seqno = 0)
    (t : Nat) (ul' : Bool) (s : State c) (a : SockAddr) (x : c.Sec)
    (hp : s.peer (shortId c (c.pubOf kA)) (shortId c (c.pubOf kB)) = some (Peer.new t a (c.pubOf kB) x))
    (key : c.Sec) (rand : Nat → Rand c) :
    (handle { oA with startTime := t } ul' nowA s d key rand).2.1 =
      .accepted (shortId c (c.pubOf kA)) (shortId c (c.pubOf kB)) false ms := by
  have h' : Shake oB { oA with startTime := t } ul kB kA now nowA q q' out ms r d :=
    { sent := h.sent, carries := h.carries, raw := h.raw, rand := h.rand, pub := h.pub, key := h.key,
      version := h.version, time := h.time, start := h.start, date := h.date, count := h.count, confirm := h.confirm,
      clock := h.clock, inTime := h.inTime, started := h.started, known := .inl hnamed }
  obtain ⟨-, s', a', -, hh⟩ := shake_decides hc h' ul' s _ hp (.inl rfl) key rand
  rw [hh, verdict_eq _ _ _ _ _ _ _ (by rw [hconf]; exact Nat.zero_le _),
    fresh_above (q := Peer.new t a (c.pubOf kB) x) (xs := []) rfl (by simp), if_pos rfl]

/-! ### A new channel -/

/-- **C108 (recovery)** A has restarted and has not accepted anything from B yet. A's next packet, with a channel
request, is accepted by B and gives B a new channel, if it is later than the channel B has. B's next packet, with
the confirmation, is accepted by A and gives A a channel which is ready; the two are mirror images. -/
theorem C108_recovers_partial (hc : c.Lawful) (oA oB : Opts c) (kA kB : c.Sec) (sA sB : State c)
    (hgA : Good sA) (hgB : Good sB) (p q : Peer c)
    (hp : sA.peer (shortId c (c.pubOf kA)) (shortId c (c.pubOf kB)) = some p)
    (hq : sB.peer (shortId c (c.pubOf kB)) (shortId c (c.pubOf kA)) = some q)
    (hchA : sA.channel (shortId c (c.pubOf kB)) = none) (hnew : p.recvOrd = PacketsHistory.forRecv)
    (hknown : q.sendDate ≠ 0) (hlater : q.sendDate < oA.startTime)
    (hdp : p.sendDate = 0 ∨ p.sendDate = oB.startTime)
    (ul1 ul2 : Bool) (now1 nowB : Nat) (p1 : Peer c) (out1 : OutMessages) (ms1 : List Message) (r1 : Rand c)
    (d1 : Bytes) (date1 : Nat) (hms1 : ∀ m ∈ ms1, Plain m)
    (h1 : Shake oA oB ul1 kA kB now1 nowB p p1 out1
      (.createChannel (c.pubBytes (c.pubOf p.channelKey)) date1 :: ms1) r1 d1)
    (hchB : ∀ ch, sB.channel (shortId c (c.pubOf kA)) = some ch →
      ch.peerKey ≠ c.pubBytes (c.pubOf p.channelKey) ∧ ch.peerDate < date1)
    (key1 : c.Sec) (rand1 : Nat → Rand c) :
    (handle oB ul2 nowB sB d1 key1 rand1).2.1 = .accepted (shortId c (c.pubOf kB)) (shortId c (c.pubOf kA)) false
      (.createChannel (c.pubBytes (c.pubOf p.channelKey)) date1 :: ms1) ∧
    (arrive oB ul2 nowB sB d1 key1 rand1).channel (shortId c (c.pubOf kA)) =
      some (Channel.new c (shortId c (c.pubOf kB)) (shortId c (c.pubOf kA)) q.channelKey (c.pubOf p.channelKey)
        date1 .create) ∧
    ∃ q1, (arrive oB ul2 nowB sB d1 key1 rand1).peer (shortId c (c.pubOf kB)) (shortId c (c.pubOf kA)) = some q1 ∧
      ∀ (ul3 ul4 : Bool) (now3 nowA : Nat) (q2 : Peer c) (out3 : OutMessages) (ms3 : List Message) (r3 : Rand c)
        (d3 : Bytes) (pk : Bytes) (date3 : Nat) (key3 : c.Sec) (rand3 : Nat → Rand c), (∀ m ∈ ms3, Plain m) →
        Shake oB oA ul3 kB kA now3 nowA q1 q2 out3
          (.confirmChannel (c.pubBytes (c.pubOf q.channelKey)) pk date3 :: ms3) r3 d3 →
        (handle oA ul4 nowA (sA.setPeer (shortId c (c.pubOf kA)) (shortId c (c.pubOf kB)) p1) d3 key3 rand3).2.1 =
          .accepted (shortId c (c.pubOf kA)) (shortId c (c.pubOf kB)) false
            (.confirmChannel (c.pubBytes (c.pubOf q.channelKey)) pk date3 :: ms3) ∧
        ∃ chA chB, (arrive oA ul4 nowA (sA.setPeer (shortId c (c.pubOf kA)) (shortId c (c.pubOf kB)) p1) d3 key3
            rand3).channel (shortId c (c.pubOf kB)) = some chA ∧ chA.ready = true ∧
          (arrive oB ul2 nowB sB d1 key1 rand1).channel (shortId c (c.pubOf kA)) = some chB ∧
          chA.out = chB.inn ∧ chA.inn = chB.out := by
  obtain ⟨sB1, q1, hh, hput, hd1, hs1, -, -, hr1, -, hk1, -⟩ := C108_noticed hc h1 (by rw [hnew]; rfl) ul2 sB q hq
    hknown hlater key1 rand1
  have hp1 : p1 = p.setSendSeqno false (p.sendOrd + 1) := by
    exact (handshake_checked hc oA oB ul1 ul2 now1 nowB _ p p1 kA kB out1
      _ r1 d1 h1.sent h1.carries h1.raw h1.rand h1.pub (hc.sha_length _) h1.key h1.version h1.time h1.start h1.date
      h1.count h1.confirm h1.clock h1.inTime h1.started sB q hq key1 rand1).1
  have harr := arrive_accepted hh
  rw [List.foldl_cons, absorb_plains ms1 hms1] at harr
  simp only [absorb] at harr
  rw [channelMessage_fst hc] at harr
  have hgB1 : Good sB1 := (put_tab hput).good hgB
  have hchB1 := createChannel_new hgB1 hput.here (c.pubOf p.channelKey) date1 .create
    (by rw [put_channel hput]; exact hchB)
  rw [hk1] at hchB1
  have hchB2 : (arrive oB ul2 nowB sB d1 key1 rand1).channel (shortId c (c.pubOf kA)) =
      some (Channel.new c (shortId c (c.pubOf kB)) (shortId c (c.pubOf kA)) q.channelKey (c.pubOf p.channelKey)
        date1 .create) := by
    rw [harr]; exact hchB1
  refine ⟨by rw [hh], hchB2, q1, ?_, ?_⟩
  · rw [harr]
    unfold State.peer
    rw [Establish.createChannel_peers]
    exact hput.here
  intro ul3 ul4 now3 nowA q2 out3 ms3 r3 d3 pk date3 key3 rand3 hms3 h3
  have hputA := Put.setPeer hp p1
  subst hp1
  obtain ⟨-, sA1, a', hput', hh'⟩ := shake_decides hc h3 ul4
    (sA.setPeer (shortId c (c.pubOf kA)) (shortId c (c.pubOf kB)) (p.setSendSeqno false (p.sendOrd + 1)))
    (p.setSendSeqno false (p.sendOrd + 1)) hputA.here hdp key3 rand3
  rw [verdict_eq _ _ _ _ _ _ _ (by exact hr1), hs1,
    fresh_above (q := p.setSendSeqno false (p.sendOrd + 1)) (xs := []) hnew (by simp), if_pos rfl] at hh'
  have harr' := arrive_accepted hh'
  rw [List.foldl_cons, absorb_plains ms3 hms3] at harr'
  simp only [absorb] at harr'
  rw [channelMessage_fst hc] at harr'
  have hgA1 : Good sA1 := (put_tab hput').good ((put_tab hputA).good hgA)
  have hnone : sA1.channel (shortId c (c.pubOf kB)) = none := by
    rw [put_channel hput', put_channel hputA]; exact hchA
  have hchA1 := Establish.createChannel_first (key := c.pubOf q.channelKey) (date := date3) (x := .confirm)
    hgA1 hput'.here hnone
  rw [(noted_fields _ _ _ _).2.1] at hchA1
  refine ⟨by rw [hh'], _, _, by rw [harr']; exact hchA1, rfl, hchB2, ?_, ?_⟩
  · exact (C12_ends_are_mirrored c hc _ _ p.channelKey q.channelKey date3 date1 .confirm .create).1
  · exact (C12_ends_are_mirrored c hc _ _ p.channelKey q.channelKey date3 date1 .confirm .create).2

/-- **C108 (same second)** If the channel of the earlier session carries the same date as the request, or a later
one, the restart is noticed but the old channel stays, ready as it was: B goes on sending through it. -/
theorem C108_channel_kept_partial (hc : c.Lawful) {oA oB : Opts c} {ul : Bool} {kA kB : c.Sec} {now nowB : Nat}
    {p p' : Peer c} {out : OutMessages} {ms : List Message} {date : Nat} {r : Rand c} {d : Bytes}
    (hms : ∀ m ∈ ms, Plain m)
    (h : Shake oA oB ul kA kB now nowB p p' out (.createChannel (c.pubBytes (c.pubOf p.channelKey)) date :: ms) r d)
    (hnone : p.recvOrd.seqno = 0) (ul' : Bool) (s : State c) (q : Peer c)
    (hq : s.peer (shortId c (c.pubOf kB)) (shortId c (c.pubOf kA)) = some q)
    (hknown : q.sendDate ≠ 0) (hlater : q.sendDate < oA.startTime) (ch : Channel)
    (hch : s.channel (shortId c (c.pubOf kA)) = some ch) (hold : date ≤ ch.peerDate)
    (key : c.Sec) (rand : Nat → Rand c) :
    (arrive oB ul' nowB s d key rand).channel (shortId c (c.pubOf kA)) = some ch := by
  obtain ⟨s1, q1, hh, hput, -⟩ := C108_noticed hc h hnone ul' s q hq hknown hlater key rand
  have harr := arrive_accepted hh
  rw [List.foldl_cons, absorb_plains ms hms] at harr
  simp only [absorb] at harr
  rw [channelMessage_fst hc] at harr
  rw [harr]
  have hch1 : s1.channel (shortId c (c.pubOf kA)) = some ch := by rw [put_channel hput]; exact hch
  obtain ⟨g, h1, h2⟩ := Establish.channel_of hch1
  have hp1 := hput.here
  unfold State.peer at hp1
  unfold createChannel
  cases hl : s1.peers.get (shortId c (c.pubOf kB)) with
  | none => rw [hl] at hp1; cases hp1
  | some t =>
    rw [hl] at hp1
    simp only at hp1
    simp only [hp1, h1, h2]
    rw [if_pos (by simp [Channel.stillValid]; omega)]
    exact hch1

/-- **C108 (old channel)** A node that has restarted does not read datagrams of a channel it does not have:
nothing changes and nothing is answered, so the other side learns nothing from sending them. -/
theorem C108_old_channel_ignored (o : Opts c) (ul : Bool) (now : Nat) (s : State c) (d : Bytes) (key : c.Sec)
    (rand : Nat → Rand c) (hid : s.byId.get (d.take 32) = none) (hk : o.keys (d.take 32) = none) :
    ∃ e, (e = Outcome.unknownId ∨ e = .fail .badHandshakeLength) ∧ handle o ul now s d key rand = (s, e, []) := by
  have hdec : decrypt o s d = (s, .ok none) ∨ decrypt o s d = (s, .error .badHandshakeLength) := by
    unfold decrypt parseHandshake
    by_cases hlen : d.length < 96
    · simp [hlen]
    · simp [hlen, hk, hid]
  unfold handle
  rcases hdec with e | e
  · exact ⟨_, .inl rfl, by rw [e]⟩
  · exact ⟨_, .inr rfl, by rw [e]⟩

/-! ### The hypotheses can be met -/

/-- A packet of a toy node with the message `nop`, in time. -/
theorem toyShake (b : Bool) (oA oB : Opts Crypto.toy)
    (hB : oB.keys = (toyPair.opts !b).keys) (hv : oA.version = some 0) (hl : oA.addressListTimeout = 1000)
    (ht : oB.clockTolerance = 60) (hs : oA.startTime ≤ 200) (p p' : Peer Crypto.toy)
    (hp : p.pub = Crypto.toy.pubOf (toyPair.sec !b)) (hd : p.sendDate = 0 ∨ p.sendDate = oB.startTime)
    (hb : oB.startTime ≤ 200) (hn : p.sendOrd < 100) (hr : p.recvOrd.seqno < 100) (out : OutMessages)
    (ms : List Message) (hc : Carries out ms) (hlen : (rawOf out).length ≤ 60000) (d : Bytes)
    (h : sendPacket oA false 190 (toyPair.id !b) p (.random (toyPair.sec b)) out ⟨leBytes 10 1, (show UInt8 from 11)⟩ =
      .ok (p', d)) :
    Shake oA oB false (toyPair.sec b) (toyPair.sec !b) 190 200 p p' out ms ⟨leBytes 10 1, (show UInt8 from 11)⟩ d :=
  { sent := h
    carries := hc
    raw := hlen
    rand := by decide
    pub := hp
    key := by rw [hB]; exact toyPair_fits.key !b
    version := .inl hv
    time := by omega
    start := by omega
    date := by omega
    count := by omega
    confirm := by omega
    clock := by omega
    inTime := by omega
    started := by omega
    known := hd }

/-- The first toy node after a restart at 180. -/
def toyAfter : Opts Crypto.toy := { toyPair.opts false with startTime := 180 }

/-- The record of the second toy node in the first one after the restart. -/
def toyFresh : Peer Crypto.toy := Peer.new 180 ⟨1, 2, 3, 4, 5⟩ (show UInt8 from 5) (show UInt8 from 8)

theorem toyGood (b : Bool) (p : Peer Crypto.toy) : Good (toyWith b p) :=
  { live := by intro _ _ h; cases h
    bound := by intro _ _ h; cases h
    listed := by intro _ _ _ h; cases h }

theorem toyWith_peer (b : Bool) (p : Peer Crypto.toy) :
    (toyWith b p).peer (toyPair.id b) (toyPair.id !b) = some p := by
  simp [toyWith, State.peer, AMap.get]

/-- A packet of the second toy node from before the restart, which names no date, is accepted afterwards. -/
theorem C108_full_false : ¬ C108_full := by
  intro hfull
  cases hs : sendPacket (toyPair.opts true) false 190 (toyPair.id !true)
    (Peer.new 120 ⟨1, 2, 3, 5, 5⟩ (show UInt8 from 3) (show UInt8 from 9)) (.random (toyPair.sec true))
    (.single (writeMessage .nop)) ⟨leBytes 10 1, (show UInt8 from 11)⟩ with
  | error e => cases hs
  | ok r =>
    obtain ⟨q', d⟩ := r
    have hsh := toyShake true (toyPair.opts true) (toyPair.opts false) rfl rfl rfl rfl (by decide) _ q' rfl (.inl rfl)
      (by decide) (by decide) (by decide) (.single (writeMessage .nop)) [.nop] ⟨_, rfl, rfl, trivial⟩ (by decide +kernel) d hs
    have hp := toyWith_peer false toyFresh
    have h1 := C108_replayed_partial Crypto.toy_lawful hsh rfl rfl 180 false _ _ _ hp (show UInt8 from 1) toyRand
    exact hfull Crypto.toy _ _ _ _ _ _ _ _ _ _ _ _ _ 180 _ _ _ (show UInt8 from 1) toyRand Crypto.toy_lawful hsh
      (by decide) (by decide) hp h1

/-- The second toy node remembers a number and has sent three packets; the first packet of the first one after
its restart is accepted, and what was sent before the restart is refused then. -/
example : ∃ p' d, sendPacket toyAfter false 190 (toyPair.id true) toyFresh (.random (toyPair.sec false)) toyRequest
      ⟨leBytes 10 1, (show UInt8 from 11)⟩ = .ok (p', d) ∧
    (handle (toyPair.opts true) false 200 (toyWith true toyOther) d (show UInt8 from 1) toyRand).2.1 =
      .accepted (toyPair.id true) (toyPair.id false) false
        [.createChannel (leBytes 32 8) 190, .query (List.replicate 32 4) (List.replicate 8 5)] := by
  cases hs : sendPacket toyAfter false 190 (toyPair.id !false) toyFresh (.random (toyPair.sec false)) toyRequest
    ⟨leBytes 10 1, (show UInt8 from 11)⟩ with
  | error e => cases hs
  | ok r =>
    obtain ⟨p', d⟩ := r
    have hsh := toyShake false toyAfter (toyPair.opts true) rfl rfl rfl rfl (by decide) toyFresh p' rfl (.inl rfl)
      (by decide) (by decide) (by decide) toyRequest
      [.createChannel (leBytes 32 8) 190, .query (List.replicate 32 4) (List.replicate 8 5)]
      ⟨_, _, rfl, rfl, by simp [Message.wf], by simp [Message.wf]⟩ (by decide +kernel) d hs
    refine ⟨p', d, hs, ?_⟩
    exact (C108_recovers_partial Crypto.toy_lawful toyAfter (toyPair.opts true) (toyPair.sec false)
      (toyPair.sec true) (toyWith false toyFresh) (toyWith true toyOther) (toyGood _ _) (toyGood _ _) toyFresh toyOther
      (toyWith_peer false _) (toyWith_peer true _) rfl rfl (by decide) (by decide) (.inl rfl) false false 190 200 p'
      toyRequest [.query (List.replicate 32 4) (List.replicate 8 5)] _ d 190
      (by intro m hm; simp only [List.mem_singleton] at hm; subst hm; trivial) hsh
      (by intro ch h; cases h) (show UInt8 from 1) toyRand).1

/-- The same node keeps a channel which is not older than the request. -/
example : ∃ p' d, sendPacket toyAfter false 190 (toyPair.id true) toyFresh (.random (toyPair.sec false)) toyRequest
      ⟨leBytes 10 1, (show UInt8 from 11)⟩ = .ok (p', d) ∧
    let s := (createChannel (toyWith true toyOther) (toyPair.id true) (toyPair.id false) (show UInt8 from 7) 190
      .confirm).1
    ∃ ch, ch.ready = true ∧ s.channel (toyPair.id false) = some ch ∧
      (arrive (toyPair.opts true) false 200 s d (show UInt8 from 1) toyRand).channel (toyPair.id false) = some ch := by
  cases hs : sendPacket toyAfter false 190 (toyPair.id !false) toyFresh (.random (toyPair.sec false)) toyRequest
    ⟨leBytes 10 1, (show UInt8 from 11)⟩ with
  | error e => cases hs
  | ok r =>
    obtain ⟨p', d⟩ := r
    have hsh := toyShake false toyAfter (toyPair.opts true) rfl rfl rfl rfl (by decide) toyFresh p' rfl (.inl rfl)
      (by decide) (by decide) (by decide) toyRequest
      [.createChannel (leBytes 32 8) 190, .query (List.replicate 32 4) (List.replicate 8 5)]
      ⟨_, _, rfl, rfl, by simp [Message.wf], by simp [Message.wf]⟩ (by decide +kernel) d hs
    have hfirst := Establish.createChannel_first (key := (show UInt8 from 7)) (date := 190) (x := .confirm)
      (toyGood true toyOther) (toyWith_peer true toyOther) rfl
    have hpeer : (createChannel (toyWith true toyOther) (toyPair.id true) (toyPair.id !true) (show UInt8 from 7) 190
        .confirm).1.peer (toyPair.id true) (toyPair.id !true) = some toyOther := by
      unfold State.peer
      have := Establish.createChannel_peers (toyWith true toyOther) (toyPair.id true) (toyPair.id !true)
        (show Crypto.toy.Pub from (show UInt8 from 7)) 190 .confirm
      simp only [this]
      exact toyWith_peer true toyOther
    refine ⟨p', d, hs, _, ?_, hfirst, ?_⟩
    · rfl
    · exact C108_channel_kept_partial Crypto.toy_lawful
        (by intro m hm; simp only [List.mem_singleton] at hm; subst hm; trivial) hsh rfl false _ toyOther
        hpeer
        (by decide) (by decide) _ hfirst (Nat.le_refl 190) _ _

/-- A packet of the first toy node from before its restart, when the second one knows the new date. -/
example : ∃ p' d, sendPacket (toyPair.opts false) false 190 (toyPair.id true) toyPeer (.random (toyPair.sec false))
      (.single (writeMessage .nop)) ⟨leBytes 10 1, (show UInt8 from 11)⟩ = .ok (p', d) ∧
    ∃ s' a, handle (toyPair.opts true) false 200 (toyWith true { toyOther with sendDate := 180 }) d
        (show UInt8 from 1) toyRand = (s', .fail .srcTooOld, []) ∧
      Put (toyWith true { toyOther with sendDate := 180 }) s' (toyPair.id true) (toyPair.id false)
        { toyOther with sendDate := 180, addr := a } := by
  cases hs : sendPacket (toyPair.opts false) false 190 (toyPair.id !false) toyPeer (.random (toyPair.sec false))
    (.single (writeMessage .nop)) ⟨leBytes 10 1, (show UInt8 from 11)⟩ with
  | error e => cases hs
  | ok r =>
    obtain ⟨p', d⟩ := r
    have hsh := toyShake false (toyPair.opts false) (toyPair.opts true) rfl rfl rfl rfl (by decide) toyPeer p' rfl
      (.inl rfl) (by decide) (by decide) (by decide) (.single (writeMessage .nop)) [.nop] ⟨_, rfl, rfl, trivial⟩ (by decide +kernel) d hs
    exact ⟨p', d, hs, C108_old_source_refused Crypto.toy_lawful hsh false _ _ (toyWith_peer true _) (by decide) _ _⟩

/-- A packet for the first toy node from before its restart, which names the date of the earlier session: refused,
and one datagram is sent back. -/
example : ∃ q' d, sendPacket (toyPair.opts true) false 190 (toyPair.id false) toyOther (.random (toyPair.sec true))
      (.single (writeMessage .nop)) ⟨leBytes 10 1, (show UInt8 from 11)⟩ = .ok (q', d) ∧
    ∃ s' x, handle toyAfter false 200 (toyWith false toyFresh) d (show UInt8 from 1) toyRand =
      (s', .fail .dstTooOld, [x]) := by
  cases hs : sendPacket (toyPair.opts true) false 190 (toyPair.id !true) toyOther (.random (toyPair.sec true))
    (.single (writeMessage .nop)) ⟨leBytes 10 1, (show UInt8 from 11)⟩ with
  | error e => cases hs
  | ok r =>
    obtain ⟨q', d⟩ := r
    have hsh := toyShake true (toyPair.opts true) (toyPair.opts false) rfl rfl rfl rfl (by decide) toyOther q' rfl
      (.inr rfl) (by decide) (by decide) (by decide) (.single (writeMessage .nop)) [.nop] ⟨_, rfl, rfl, trivial⟩ (by decide +kernel) d hs
    refine ⟨q', d, hs, ?_⟩
    obtain ⟨s', a, p2, x, h1, -⟩ := C108_old_target_refused_partial Crypto.toy_lawful hsh (by decide) 180 (by decide)
      false (toyWith false toyFresh) toyFresh (toyWith_peer false _) (.inl rfl) rfl (by decide) (show UInt8 from 1) toyRand
    exact ⟨s', x, h1⟩

/-- A datagram for an unknown id. -/
example : ∃ e, (e = Outcome.unknownId ∨ e = .fail .badHandshakeLength) ∧
    handle toyAfter false 200 (toyWith false toyFresh) (List.replicate 200 9) (show UInt8 from 1) toyRand =
      (toyWith false toyFresh, e, []) :=
  C108_old_channel_ignored _ _ _ _ _ _ _ rfl (by decide +kernel)

-- C108_noticed
example : ∃ (p' : Peer Crypto.toy) (d : Bytes) (s' : State Crypto.toy) (q1 : Peer Crypto.toy),
    sendPacket toyAfter false 190 (toyPair.id true) toyFresh (.random (toyPair.sec false)) (.single (writeMessage .nop))
      ⟨leBytes 10 1, (show UInt8 from 11)⟩ = .ok (p', d) ∧
    Put (toyWith true toyOther) s' (toyPair.id true) (toyPair.id false) q1 ∧ q1.sendDate = 180 := by
  cases hs : sendPacket toyAfter false 190 (toyPair.id !false) toyFresh (.random (toyPair.sec false))
    (.single (writeMessage .nop)) ⟨leBytes 10 1, (show UInt8 from 11)⟩ with
  | error e => cases hs
  | ok r =>
    obtain ⟨p', d⟩ := r
    have hsh := toyShake false toyAfter (toyPair.opts true) rfl rfl rfl rfl (by decide) toyFresh p' rfl (.inl rfl)
      (by decide) (by decide) (by decide) (.single (writeMessage .nop)) [.nop] ⟨_, rfl, rfl, trivial⟩ (by decide +kernel)
      d hs
    obtain ⟨s', q1, -, h1, h2, -⟩ := C108_noticed Crypto.toy_lawful hsh rfl false (toyWith true toyOther) toyOther
      (toyWith_peer true _) (by decide) (by decide) (show UInt8 from 1) toyRand
    exact ⟨p', d, s', q1, hs, h1, h2⟩

end Verif.Delivery
