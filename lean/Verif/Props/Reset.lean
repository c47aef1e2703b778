import Verif.Props.Delivery
import Verif.Props.Replay

/-!
# C76: after a reset

`reset_peer` (`src/adnl/node/mod.rs:522-538`) forgets the channel, the counters and the histories of a pair
on one side. What the other side remembers is not touched, and the reinit date in the packets, which tells
it to forget, stays the start time of the node.
-/
namespace Verif.Delivery
open Verif.Tl Verif.Adnl Verif.AdnlProto Verif.Address Verif.Node Verif.Receiver Verif.Sender Verif.Props

variable {c : Crypto}

/-- A handshake packet for the node with the key `kB`, made by `send_packet` from the record `p`, is read
by that node in time. -/
structure Shake (oA oB : Opts c) (ul : Bool) (kA kB : c.Sec) (now nowB : Nat) (p p' : Peer c)
    (out : OutMessages) (ms : List Message) (r : Rand c) (d : Bytes) : Prop where
  sent : sendPacket oA ul now (shortId c (c.pubOf kB)) p (.random kA) out r = .ok (p', d)
  carries : Carries out ms
  raw : (rawOf out).length ≤ 60000
  rand : r.bytes.length = 10
  pub : p.pub = c.pubOf kB
  key : oB.keys (shortId c (c.pubOf kB)) = some kB
  version : VersionFits oA.version (LooksVersioned c (c.dh kB (c.pubOf r.temp)) d)
  time : now + oA.addressListTimeout < 2 ^ 32
  start : oA.startTime < 2 ^ 32
  date : p.sendDate < 2 ^ 32
  count : p.sendOrd + 1 < 2 ^ 64
  confirm : p.recvOrd.seqno < 2 ^ 64
  clock : nowB + oB.clockTolerance < 2 ^ 32
  inTime : nowB ≤ now + oA.addressListTimeout
  started : oA.startTime ≤ nowB + oB.clockTolerance
  /-- the sender knows no other start time of the receiver -/
  known : p.sendDate = 0 ∨ p.sendDate = oB.startTime

/-- What becomes of the packet, by the record `q` of the receiver: its number `n` is looked up in the
history, then the number it confirms is compared with the counter of the receiver. -/
def verdict (oB : Opts c) (q : Peer c) (n confirm : Nat) (l i : Bytes) (ms : List Message) : Outcome :=
  if fresh oB q false n then
    if confirm ≤ q.sendOrd then .accepted l i false ms else .fail .confirmTooNew
  else .duplicate

theorem shake_decides (hc : c.Lawful) {oA oB : Opts c} {ul : Bool} {kA kB : c.Sec} {now nowB : Nat}
    {p p' : Peer c} {out : OutMessages} {ms : List Message} {r : Rand c} {d : Bytes}
    (h : Shake oA oB ul kA kB now nowB p p' out ms r d) (ul' : Bool) (s : State c) (q : Peer c)
    (hq : s.peer (shortId c (c.pubOf kB)) (shortId c (c.pubOf kA)) = some q)
    (hdate : q.sendDate = 0 ∨ q.sendDate = oA.startTime) (key : c.Sec) (rand : Nat → Rand c) :
    p' = p.setSendSeqno false (p.sendOrd + 1) ∧
    ∃ s' a, Put s s' (shortId c (c.pubOf kB)) (shortId c (c.pubOf kA))
        (noted oB { q with sendDate := oA.startTime, addr := a } false (p.sendOrd + 1)) ∧
      handle oB ul' nowB s d key rand =
        (s', verdict oB q (p.sendOrd + 1) p.recvOrd.seqno (shortId c (c.pubOf kB)) (shortId c (c.pubOf kA)) ms,
          []) := by
  obtain ⟨hp', s1, a, pkt, hput, f5, f6, f7, hh⟩ := handshake_checked hc oA oB ul ul' now nowB _ p p' kA kB out
    ms r d h.sent h.carries h.raw h.rand h.pub (hc.sha_length _) h.key h.version h.time h.start h.date h.count
    h.confirm h.clock h.inTime h.started s q hq key rand
  refine ⟨hp', ?_⟩
  have hre : ∀ a, (({ q with addr := a } : Peer c).tryReinit oA.startTime).1 =
      { q with sendDate := oA.startTime, addr := a } := by
    intro a
    unfold Peer.tryReinit
    simp only
    rcases hdate with e | e
    · by_cases e0 : oA.startTime = 0
      · rw [if_pos (by omega)]; simp only; rw [e0, ← e]
      · rw [if_neg (by omega), if_pos (by omega), if_neg (by simp [e])]
    · rw [if_pos e.symm]; simp only; rw [← e]
  have hdat : checkDates oB nowB { q with addr := a } pkt.reinitDates =
      ({ q with sendDate := oA.startTime, addr := a }, .go) := by
    rw [checkDates_fit h.clock]
    · rw [f7]; simp only [dated, hre]
    · rw [f7]
      exact ⟨h.known, h.started, by rcases hdate with e | e <;> simp [e]⟩
  have hfr : fresh oB { q with sendDate := oA.startTime, addr := a } false (p.sendOrd + 1) =
      fresh oB q false (p.sendOrd + 1) := by
    simp only [fresh_eq]; rfl
  have hsend : (noted oB { q with sendDate := oA.startTime, addr := a } false (p.sendOrd + 1)).sendSeqno false =
      q.sendOrd := by
    rw [noted_send]; rfl
  refine ⟨s1.setPeer _ _ _, a, hput.trans (Put.setPeer hput.here _), ?_⟩
  rw [hh]
  unfold session
  rw [hdat]
  simp only
  rw [f5, f6]
  unfold checkSeqnos
  have e : checkHistory oB { q with sendDate := oA.startTime, addr := a } false (some (p.sendOrd + 1)) =
      (noted oB { q with sendDate := oA.startTime, addr := a } false (p.sendOrd + 1),
        fresh oB q false (p.sendOrd + 1)) := by
    rw [← hfr]; rfl
  rw [e]
  unfold verdict
  cases fresh oB q false (p.sendOrd + 1) with
  | false => rfl
  | true =>
    simp only [if_true]
    rw [hsend]
    by_cases hle : p.recvOrd.seqno ≤ q.sendOrd
    · rw [if_neg (by omega), if_pos hle]
    · rw [if_pos (by omega), if_neg hle]

theorem le_foldl_max (zs : List Nat) : ∀ (x m : Nat), x ∈ zs ∨ x ≤ m → x ≤ zs.foldl max m := by
  induction zs with
  | nil => intro x m h; rcases h with h | h <;> [cases h; exact h]
  | cons z zs ih =>
    intro x m h
    refine ih x (max m z) ?_
    rcases h with h | h
    · rcases List.mem_cons.mp h with rfl | h
      · exact .inr (by omega)
      · exact .inl h
    · exact .inr (by omega)

/-! ### What the resetting side forgets -/

theorem resetPeer_eq {s : State c} {l q : Bytes} {p : Peer c} (hp : s.peer l q = some p) (key : c.Sec) :
    resetPeer s l q key = (dropChannel s q).setPeer l q (p.reset key) := by
  unfold resetPeer; rw [hp]

theorem dropChannel_peer (s : State c) (q l i : Bytes) : (dropChannel s q).peer l i = s.peer l i := by
  have e : (dropChannel s q).peers = s.peers := by
    unfold dropChannel
    split
    · rfl
    · split <;> rfl
  unfold State.peer
  rw [e]

theorem reset_record {s : State c} {l q : Bytes} {p : Peer c} (hp : s.peer l q = some p) (key : c.Sec) :
    (resetPeer s l q key).peer l q = some (p.reset key) := by
  rw [resetPeer_eq hp]
  exact (Put.setPeer (s := dropChannel s q) (by rw [dropChannel_peer]; exact hp) _).here

/-- **C76 (reset)** A reset leaves the pair without a channel: the ids of the old one are unknown, so its
datagrams are no longer read. The counters and histories start again, and the date of this side is counted up. Records of other pairs and channels
with other peers stay. -/
theorem C76_reset_forgets {s : State c} (hg : Good s) {l q : Bytes} {p : Peer c} (hp : s.peer l q = some p)
    (key : c.Sec) :
    (∃ p1, (resetPeer s l q key).peer l q = some p1 ∧ p1.channelKey = key ∧ p1.addr = p.addr ∧ p1.pub = p.pub ∧
      p1.sendOrd = 0 ∧ p1.sendPrio = 0 ∧ p1.recvOrd = PacketsHistory.forRecv ∧
      p1.recvPrio = PacketsHistory.forRecv ∧ p1.sendDate = 0 ∧ p1.recvDate = p.recvDate + 1) ∧
    (resetPeer s l q key).channel q = none ∧
    (∀ ch, s.channel q = some ch → ∀ (prio : Bool) (o : Opts c) (ul : Bool) (now : Nat) (d : Bytes) (k : c.Sec)
      (rand : Nat → Rand c), d.take 32 = (ch.inn.sub prio).id → o.keys (ch.inn.sub prio).id = none →
      ∃ e, (e = Outcome.unknownId ∨ e = .fail .badHandshakeLength) ∧
        handle o ul now (resetPeer s l q key) d k rand = (resetPeer s l q key, e, [])) ∧
    (∀ l' q', (l', q') ≠ (l, q) → (resetPeer s l q key).peer l' q' = s.peer l' q') ∧
    (∀ q', q' ≠ q → (resetPeer s l q key).channel q' = s.channel q') := by
  obtain ⟨-, d2, d3, d4, -⟩ := dropChannel_good hg q
  have hp1 : (dropChannel s q).peer l q = some p := by rw [dropChannel_peer]; exact hp
  have hput := Put.setPeer hp1 (p.reset key)
  rw [resetPeer_eq hp]
  refine ⟨⟨_, hput.here, rfl, rfl, rfl, rfl, rfl, rfl, rfl, rfl, rfl⟩, ?_, ?_, ?_, ?_⟩
  · rw [put_channel hput]
    unfold State.channel
    rw [d2]
  · intro ch hch prio o ul now d k rand hd hk
    have hid : ((dropChannel s q).setPeer l q (p.reset key)).byId.get (d.take 32) = none := by
      rw [(setPeer_tab _ _ _ _).byId, hd]
      obtain ⟨r, h1, h2⟩ := Establish.channel_of hch
      unfold dropChannel
      rw [h1]
      simp only [h2]
      cases prio <;> simp [AMap.get_erase, Side.sub]
    have hdec : decrypt o ((dropChannel s q).setPeer l q (p.reset key)) d =
          ((dropChannel s q).setPeer l q (p.reset key), .ok none) ∨
        decrypt o ((dropChannel s q).setPeer l q (p.reset key)) d =
          ((dropChannel s q).setPeer l q (p.reset key), .error .badHandshakeLength) := by
      rw [← hd] at hk
      unfold decrypt parseHandshake
      by_cases hlen : d.length < 96
      · simp [hlen]
      · simp [hlen, hk, hid]
    unfold handle
    rcases hdec with e | e
    · exact ⟨_, .inl rfl, by rw [e]⟩
    · exact ⟨_, .inr rfl, by rw [e]⟩
  · intro l' q' hne
    rw [hput.others l' q' (by rintro ⟨rfl, rfl⟩; exact hne rfl), dropChannel_peer]
  · intro q' hne
    rw [put_channel hput]
    unfold State.channel
    rw [d3 q' hne, d4]

/-! ### Packets of the resetting side -/

theorem verdict_eq (oB : Opts c) (q : Peer c) (n confirm : Nat) (l i : Bytes) (ms : List Message)
    (hcf : confirm ≤ q.sendOrd) :
    verdict oB q n confirm l i ms = if fresh oB q false n then .accepted l i false ms else .duplicate := by
  unfold verdict
  rw [if_pos hcf]

theorem fresh_run {oB : Opts c} {q : Peer c} {xs : List Nat}
    (hx : q.recvOrd = PacketsHistory.run PacketsHistory.forRecv xs) (n : Nat) :
    fresh oB q false n = false ↔ oB.historyEnabled = true ∧ n < 256 ∧ n ∈ Spec.remembered xs := by
  rw [fresh_eq]
  have : q.recvHist false = PacketsHistory.run PacketsHistory.forRecv xs := hx
  rw [this]
  by_cases he : oB.historyEnabled = true
  · simp [he, C01_exact_filter]
  · simp [he]

/-- **C76 (numbers)** After a reset the packets are numbered from 1 again. The other side, which remembers
the numbers `xs`, drops the packet exactly if the filter of C01 remembers its number, and takes it otherwise.
Its own record is not reset. -/
theorem C76_number_decides (hc : c.Lawful) {oA oB : Opts c} {ul : Bool} {kA kB : c.Sec} {now nowB : Nat}
    {p p' : Peer c} {out : OutMessages} {ms : List Message} {r : Rand c} {d : Bytes}
    (h : Shake oA oB ul kA kB now nowB p p' out ms r d) (ul' : Bool) (s : State c) (q : Peer c)
    (hq : s.peer (shortId c (c.pubOf kB)) (shortId c (c.pubOf kA)) = some q)
    (hdate : q.sendDate = 0 ∨ q.sendDate = oA.startTime) (hcf : p.recvOrd.seqno ≤ q.sendOrd)
    (xs : List Nat) (hx : q.recvOrd = PacketsHistory.run PacketsHistory.forRecv xs)
    (key : c.Sec) (rand : Nat → Rand c) :
    ((handle oB ul' nowB s d key rand).2.1 = .duplicate ↔
      oB.historyEnabled = true ∧ p.sendOrd + 1 < 256 ∧ p.sendOrd + 1 ∈ Spec.remembered xs) ∧
    ((handle oB ul' nowB s d key rand).2.1 ≠ .duplicate → (handle oB ul' nowB s d key rand).2.1 =
      .accepted (shortId c (c.pubOf kB)) (shortId c (c.pubOf kA)) false ms) ∧
    ∃ q1, (handle oB ul' nowB s d key rand).1.peer (shortId c (c.pubOf kB)) (shortId c (c.pubOf kA)) = some q1 ∧
      q1.sendOrd = q.sendOrd ∧ q1.sendPrio = q.sendPrio ∧ q1.channelKey = q.channelKey ∧
      ∀ x ∈ xs, x ≤ q1.recvOrd.seqno := by
  obtain ⟨-, s', a, hput, hh⟩ := shake_decides hc h ul' s q hq hdate key rand
  rw [hh, verdict_eq _ _ _ _ _ _ _ hcf]
  refine ⟨?_, ?_, _, hput.here, noted_send _ _ _ false _, noted_send _ _ _ true _, (noted_fields _ _ _ _).2.1, ?_⟩
  · rw [← fresh_run hx]
    cases fresh oB q false (p.sendOrd + 1) <;> simp
  · cases fresh oB q false (p.sendOrd + 1) <;> simp
  · intro x hxs
    have hr := noted_recv oB { q with sendDate := oA.startTime, addr := a } false (p.sendOrd + 1) false
    have hh' : ({ q with sendDate := oA.startTime, addr := a } : Peer c).recvHist false =
      PacketsHistory.run PacketsHistory.forRecv xs := hx
    rw [hh'] at hr
    have hle : ∀ zs : List Nat, x ∈ zs → x ≤ (PacketsHistory.run PacketsHistory.forRecv zs).seqno := by
      intro zs hz
      rw [C02_seqno_is_max]
      exact le_foldl_max zs x 0 (.inl hz)
    have e : (noted oB { q with sendDate := oA.startTime, addr := a } false (p.sendOrd + 1)).recvOrd =
      (noted oB { q with sendDate := oA.startTime, addr := a } false (p.sendOrd + 1)).recvHist false := rfl
    rw [e, hr]
    split
    · rw [← run_append]
      exact hle _ (by simp [hxs])
    · exact hle _ hxs

/-- **C76 (answers)** What the other side sends meanwhile confirms the largest number it has seen. If that is
more than the resetting side has sent since, its packets are refused. -/
theorem C76_answers_refused (hc : c.Lawful) {oA oB : Opts c} {ul : Bool} {kA kB : c.Sec} {now nowA : Nat}
    {q q' : Peer c} {out : OutMessages} {ms : List Message} {r : Rand c} {d : Bytes}
    (h : Shake oB oA ul kB kA now nowA q q' out ms r d) (ul' : Bool) (s : State c) (p : Peer c)
    (hp : s.peer (shortId c (c.pubOf kA)) (shortId c (c.pubOf kB)) = some p)
    (hdate : p.sendDate = 0 ∨ p.sendDate = oB.startTime)
    (xs : List Nat) (hx : q.recvOrd = PacketsHistory.run PacketsHistory.forRecv xs)
    (x : Nat) (hxs : x ∈ xs) (hlt : p.sendOrd < x)
    (key : c.Sec) (rand : Nat → Rand c) :
    (handle oA ul' nowA s d key rand).2.1 = .fail .confirmTooNew ∨
    (handle oA ul' nowA s d key rand).2.1 = .duplicate := by
  obtain ⟨-, s', a, -, hh⟩ := shake_decides hc h ul' s p hp hdate key rand
  rw [hh]
  unfold verdict
  have : x ≤ q.recvOrd.seqno := by
    rw [hx, C02_seqno_is_max]
    exact le_foldl_max xs x 0 (.inl hxs)
  rw [if_neg (show ¬ q.recvOrd.seqno ≤ p.sendOrd by omega)]
  split
  · exact .inl rfl
  · exact .inr rfl

/-! ### The claim -/

/-- A side of a running pair has reset the other and sends its next packet, which arrives in time. -/
structure Next (P : Pair c) (σ : Sys c) (b : Bool) (key : c.Sec) (now nowB : Nat) (out : OutMessages)
    (ms : List Message) (r : Rand c) (d : Bytes) : Prop where
  sent : ∃ p p', (resetPeer (σ.node b) (P.id b) (P.id !b) key).peer (P.id b) (P.id !b) = some p ∧
    sendPacket (P.opts b) (P.loop b) now (P.id !b) p (.random (P.sec b)) out r = .ok (p', d)
  carries : Carries out ms
  raw : (rawOf out).length ≤ 60000
  rand : r.bytes.length = 10
  version : VersionFits (P.opts b).version (LooksVersioned c (c.dh (P.sec !b) (c.pubOf r.temp)) d)
  time : now + (P.opts b).addressListTimeout < 2 ^ 32
  clock : nowB + (P.opts !b).clockTolerance < 2 ^ 32
  inTime : nowB ≤ now + (P.opts b).addressListTimeout
  started : (P.opts b).startTime ≤ nowB + (P.opts !b).clockTolerance

/-- C76 as one would like it: the first packet after a reset reaches the other side. -/
def C76_full : Prop := ∀ (c : Crypto) (P : Pair c) (σ : Sys c) (b : Bool) (key : c.Sec) (now nowB : Nat)
  (out : OutMessages) (ms : List Message) (r : Rand c) (d : Bytes) (k : c.Sec) (rand : Nat → Rand c),
  c.Lawful → P.Fits → Reachable P σ → Next P σ b key now nowB out ms r d →
  (handle (P.opts !b) (P.loop !b) nowB (σ.node !b) d k rand).2.1 = .accepted (P.id !b) (P.id b) false ms

theorem Next.shake (hc : c.Lawful) {P : Pair c} (hP : P.Fits) {σ : Sys c} (hr : Reachable P σ) {b : Bool}
    {key : c.Sec} {now nowB : Nat} {out : OutMessages} {ms : List Message} {r : Rand c} {d : Bytes}
    (h : Next P σ b key now nowB out ms r d) :
    ∃ p p', p.sendOrd = 0 ∧ p.recvOrd.seqno = 0 ∧
      Shake (P.opts b) (P.opts !b) (P.loop b) (P.sec b) (P.sec !b) now nowB p p' out ms r d := by
  obtain ⟨pr, hinv⟩ := reachable_inv hc hP hr
  obtain ⟨p1, p', hp1, hs⟩ := h.sent
  have hn := (hinv.node b).peer
  rw [resetPeer_eq hn] at hp1
  have hp2 := (Put.setPeer (s := dropChannel (σ.node b) (P.id !b)) (by rw [dropChannel_peer]; exact hn)
    ((pr b).reset key)).here
  rw [hp2] at hp1
  cases hp1
  exact ⟨_, p', rfl, rfl, hs, h.carries, h.raw, h.rand, (hinv.peer b).pub, hP.key !b, h.version, h.time,
    hP.start b, show (0 : Nat) < 2 ^ 32 by decide, show (0 : Nat) + 1 < 2 ^ 64 by decide,
    show (0 : Nat) < 2 ^ 64 by decide, h.clock, h.inTime, h.started, .inl rfl⟩

/-- **C76 (lost)** If packet number 1 of the time before the reset has arrived and fewer than 256 packets
were sent, the first packet after the reset is dropped as a duplicate. -/
theorem C76_first_packet_lost (hc : c.Lawful) {P : Pair c} (hP : P.Fits) {σ : Sys c} (hr : Reachable P σ)
    {b : Bool} {key : c.Sec} {now nowB : Nat} {out : OutMessages} {ms : List Message} {r : Rand c} {d : Bytes}
    (h : Next P σ b key now nowB out ms r d) (hen : (P.opts !b).historyEnabled = true)
    (i : Nat) (g : Gram) (hi : i ∈ σ.seen b) (hg : (σ.net b)[i]? = some g) (hprio : g.prio = false) (h1 : g.n = 1)
    (hfew : ∀ g ∈ σ.net b, g.n < 256) (k : c.Sec) (rand : Nat → Rand c) :
    (handle (P.opts !b) (P.loop !b) nowB (σ.node !b) d k rand).2.1 = .duplicate := by
  obtain ⟨pr, hinv⟩ := reachable_inv hc hP hr
  obtain ⟨p, p', e0, e1, hs⟩ := h.shake hc hP hr
  have hn := (hinv.node !b).peer
  have hpo := hinv.peer !b
  obtain ⟨xs, hx, hin, hall⟩ := hpo.hist false
  simp only [Bool.not_not] at hin hall hn
  have hdate := hpo.date
  simp only [Bool.not_not] at hdate
  have hmem : 1 ∈ xs := by
    have := hall hen i g hi hg hprio
    rwa [h1] at this
  have hsmall : ∀ x ∈ xs, x < 256 := by
    intro x hxs
    obtain ⟨i', g', -, hg', -, rfl⟩ := hin x hxs
    exact hfew g' (List.mem_of_getElem? hg')
  refine (C76_number_decides hc hs (P.loop !b) (σ.node !b) _ hn hdate (by omega) xs hx k rand).1.mpr ?_
  refine ⟨hen, by omega, ?_⟩
  rw [e0]
  unfold Spec.remembered
  cases hxs : xs with
  | nil => rw [hxs] at hmem; cases hmem
  | cons y ys =>
    simp only
    rw [← hxs, List.takeWhile_eq_self_iff.mpr (by simpa using hsmall)]
    simpa using hmem

/-- The toy nodes of C70: one packet has been sent and has arrived. -/
theorem toy_arrived : ∃ σ g, Reachable toyPair σ ∧ σ.net false = [g] ∧ σ.seen false = [0] ∧
    g.prio = false ∧ g.n = 1 ∧
    (σ.node false).peer (toyPair.id false) (toyPair.id true) = some (toyPeer.setSendSeqno false 1) := by
  cases hs : sendPacket (toyPair.opts false) false 130 (toyPair.id true) toyPeer
    (.random (show UInt8 from 3)) toyOut ⟨leBytes 10 1, (show UInt8 from 11)⟩ with
  | error e => cases hs
  | ok r =>
    obtain ⟨p', d⟩ := r
    have hstep := Step.send (P := toyPair) toySys false 130 toyPeer p' (.random (show UInt8 from 3)) toyOut
      [.createChannel (leBytes 32 7) 130, .query (List.replicate 32 4) (List.replicate 8 5)]
      ⟨leBytes 10 1, (show UInt8 from 11)⟩ d
      (by simp [toySys, toyNode, State.peer, AMap.get]; rfl) rfl
      ⟨_, _, rfl, rfl, by simp [Message.wf], by simp [Message.wf]⟩ (by decide +kernel)
      (by intro m hm; simp only [List.mem_cons, List.not_mem_nil, or_false] at hm
          rcases hm with rfl | rfl
          · exact ⟨rfl, by decide⟩
          · trivial)
      (by decide) (by decide) (by decide) hs (.inl rfl)
    refine ⟨_, _, .step _ _ (.step _ _ (.start _ toy_start) hstep)
      (Step.deliver _ false 0 _ 140 (show UInt8 from 1) toyRand rfl (by decide) (by decide)
        (show 140 ≤ 130 + 1000 by decide)), rfl, rfl, rfl, rfl, ?_⟩
    have hp' : p' = toyPeer.setSendSeqno false 1 := sendPacket_rec hs
    subst hp'
    exact (Put.setPeer (s := toyNode false) (l := toyPair.id false) (q := toyPair.id true) (p0 := toyPeer)
      (by simp [toyNode, State.peer, AMap.get]; rfl) _).here

theorem C76_full_false : ¬ C76_full := by
  intro hfull
  obtain ⟨σ, g, hr, hnet, hseen, hprio, hn, hp⟩ := toy_arrived
  have hrec : (resetPeer (σ.node false) (toyPair.id false) (toyPair.id true) (show UInt8 from 8)).peer
      (toyPair.id false) (toyPair.id true) = some ((toyPeer.setSendSeqno false 1).reset (show UInt8 from 8)) :=
    reset_record hp _
  cases hs : sendPacket (toyPair.opts false) false 190 (toyPair.id true)
    ((toyPeer.setSendSeqno false 1).reset (show UInt8 from 8))
    (.random (show UInt8 from 3)) toyOut ⟨leBytes 10 1, (show UInt8 from 11)⟩ with
  | error e => cases hs
  | ok r =>
    obtain ⟨p', d⟩ := r
    have hnext : Next toyPair σ false (show UInt8 from 8) 190 200 toyOut
        [.createChannel (leBytes 32 7) 130, .query (List.replicate 32 4) (List.replicate 8 5)]
        ⟨leBytes 10 1, (show UInt8 from 11)⟩ d :=
      { sent := ⟨_, p', hrec, hs⟩
        carries := ⟨_, _, rfl, rfl, by simp [Message.wf], by simp [Message.wf]⟩
        raw := by decide +kernel
        rand := by decide
        version := .inl rfl
        time := by decide
        clock := by decide
        inTime := by decide
        started := by decide }
    have h1 := hfull _ _ _ _ _ _ _ _ _ _ _ (show UInt8 from 1) toyRand Crypto.toy_lawful toyPair_fits hr hnext
    have h2 := C76_first_packet_lost Crypto.toy_lawful toyPair_fits hr hnext rfl 0 g (by rw [hseen]; simp)
      (by rw [hnet]; rfl) hprio hn (by rw [hnet]; intro g' hg'; simp only [List.mem_singleton] at hg'; subst hg'; omega)
      (show UInt8 from 1) toyRand
    rw [h2] at h1
    cases h1

/-! ### Recovery -/

/-- Messages that do not concern channels. -/
def Plain : Message → Prop
  | .createChannel .. => False
  | .confirmChannel .. => False
  | _ => True

theorem absorb_plain {l q : Bytes} {m : Message} (h : Plain m) (s : State c) : absorb l q s m = s := by
  cases m <;> first | rfl | cases h

theorem absorb_plains {l q : Bytes} (ms : List Message) (h : ∀ m ∈ ms, Plain m) (s : State c) :
    ms.foldl (absorb l q) s = s := by
  induction ms generalizing s with
  | nil => rfl
  | cons m ms ih =>
    rw [List.foldl_cons, absorb_plain (h m (by simp))]
    exact ih (fun m hm => h m (by simp [hm])) s

theorem channelMessage_fst (hc : c.Lawful) (s : State c) (l q : Bytes) (pub : c.Pub) (date : Nat) (x : Ctx) :
    (Process.channelMessage s l q (c.pubBytes pub) date x).1 = (createChannel s l q pub date x).1 := by
  unfold Process.channelMessage
  rw [hc.decode_pub]
  simp only
  cases createChannel s l q pub date x with
  | mk s' r => cases r <;> rfl

/-- A channel message with a key which is new and not older than what is there makes a new channel. -/
theorem createChannel_new {s : State c} (hg : Good s) {l q : Bytes} {p : Peer c} (hp : s.peer l q = some p)
    (key : c.Pub) (date : Nat) (x : Ctx)
    (hold : ∀ ch, s.channel q = some ch → ch.peerKey ≠ c.pubBytes key ∧ ch.peerDate < date) :
    (createChannel s l q key date x).1.channel q = some (Channel.new c l q p.channelKey key date x) := by
  cases hch : s.channel q with
  | none => exact Establish.createChannel_first hg hp hch
  | some old =>
    obtain ⟨h1, h2⟩ := hold old hch
    obtain ⟨r, g1, g2⟩ := Establish.channel_of hch
    unfold State.peer at hp
    unfold createChannel
    cases hl : s.peers.get l with
    | none => rw [hl] at hp; cases hp
    | some t =>
      rw [hl] at hp
      simp only at hp
      simp only [hp, g1, g2]
      rw [if_neg (by simp [Channel.stillValid, h1]; omega)]
      simp [State.channel, insertChannel]

/-- Numbers the other side has seen are at most `j`: then `j + 1` is new to it. -/
theorem fresh_above {oB : Opts c} {q : Peer c} {xs : List Nat}
    (hx : q.recvOrd = PacketsHistory.run PacketsHistory.forRecv xs) {j : Nat} (hle : ∀ x ∈ xs, x ≤ j) :
    fresh oB q false (j + 1) = true := by
  cases h : fresh oB q false (j + 1) with
  | true => rfl
  | false =>
    have := hle _ (PacketsHistory.mem_of_remembered xs _ ((fresh_run hx _).mp h).2.2)
    omega

theorem foldl_max_le (zs : List Nat) : ∀ (j m : Nat), m ≤ j → (∀ z ∈ zs, z ≤ j) → zs.foldl max m ≤ j := by
  induction zs with
  | nil => intro j m h _; exact h
  | cons z zs ih =>
    intro j m h hz
    have := hz z (by simp)
    exact ih j (max m z) (by omega) (fun y hy => hz y (by simp [hy]))

theorem arrive_accepted {o : Opts c} {ul : Bool} {now : Nat} {s s' : State c} {d : Bytes} {key : c.Sec}
    {rand : Nat → Rand c} {l q : Bytes} {prio : Bool} {ms : List Message} {x : List Bytes}
    (h : handle o ul now s d key rand = (s', .accepted l q prio ms, x)) :
    arrive o ul now s d key rand = ms.foldl (absorb l q) s' := by
  unfold arrive
  rw [h]

/-- **C76 (recovery)** Side A has reset the pair, and has since sent at least as many packets as the largest
number B remembers. Then A's next packet, with a channel request, is accepted and gives B a new channel; B's
next packet, with the confirmation, is accepted and gives A a channel which is ready; the two are mirror images. -/
theorem C76_recovers_partial (hc : c.Lawful) (oA oB : Opts c) (kA kB : c.Sec) (sA sB : State c)
    (hgA : Good sA) (hgB : Good sB) (p q : Peer c)
    (hp : sA.peer (shortId c (c.pubOf kA)) (shortId c (c.pubOf kB)) = some p)
    (hq : sB.peer (shortId c (c.pubOf kB)) (shortId c (c.pubOf kA)) = some q)
    (hchA : sA.channel (shortId c (c.pubOf kB)) = none)
    (xs ys : List Nat) (hx : q.recvOrd = PacketsHistory.run PacketsHistory.forRecv xs)
    (hy : p.recvOrd = PacketsHistory.run PacketsHistory.forRecv ys)
    (hxs : ∀ x ∈ xs, x ≤ p.sendOrd) (hys : ∀ y ∈ ys, y ≤ q.sendOrd)
    (hdq : q.sendDate = 0 ∨ q.sendDate = oA.startTime) (hdp : p.sendDate = 0 ∨ p.sendDate = oB.startTime)
    (ul1 ul2 : Bool) (now1 nowB : Nat) (p1 : Peer c) (out1 : OutMessages) (ms1 : List Message) (r1 : Rand c)
    (d1 : Bytes) (date1 : Nat) (hms1 : ∀ m ∈ ms1, Plain m)
    (h1 : Shake oA oB ul1 kA kB now1 nowB p p1 out1
      (.createChannel (c.pubBytes (c.pubOf p.channelKey)) date1 :: ms1) r1 d1)
    (hchB : ∀ ch, sB.channel (shortId c (c.pubOf kA)) = some ch →
      ch.peerKey ≠ c.pubBytes (c.pubOf p.channelKey) ∧ ch.peerDate < date1)
    (key1 : c.Sec) (rand1 : Nat → Rand c) :
    (handle oB ul2 nowB sB d1 key1 rand1).2.1 = .accepted (shortId c (c.pubOf kB)) (shortId c (c.pubOf kA)) false
      (.createChannel (c.pubBytes (c.pubOf p.channelKey)) date1 :: ms1) ∧
    (arrive oB ul2 nowB sB d1 key1 rand1).channel (shortId c (c.pubOf kA)) =
      some (Channel.new c (shortId c (c.pubOf kB)) (shortId c (c.pubOf kA)) q.channelKey (c.pubOf p.channelKey)
        date1 .create) ∧
    ∃ q1, (arrive oB ul2 nowB sB d1 key1 rand1).peer (shortId c (c.pubOf kB)) (shortId c (c.pubOf kA)) = some q1 ∧
      ∀ (ul3 ul4 : Bool) (now3 nowA : Nat) (q2 : Peer c) (out3 : OutMessages) (ms3 : List Message) (r3 : Rand c)
        (d3 : Bytes) (pk : Bytes) (date3 : Nat) (key3 : c.Sec) (rand3 : Nat → Rand c), (∀ m ∈ ms3, Plain m) →
        Shake oB oA ul3 kB kA now3 nowA q1 q2 out3
          (.confirmChannel (c.pubBytes (c.pubOf q.channelKey)) pk date3 :: ms3) r3 d3 →
        (handle oA ul4 nowA (sA.setPeer (shortId c (c.pubOf kA)) (shortId c (c.pubOf kB)) p1) d3 key3 rand3).2.1 =
          .accepted (shortId c (c.pubOf kA)) (shortId c (c.pubOf kB)) false
            (.confirmChannel (c.pubBytes (c.pubOf q.channelKey)) pk date3 :: ms3) ∧
        ∃ chA chB, (arrive oA ul4 nowA (sA.setPeer (shortId c (c.pubOf kA)) (shortId c (c.pubOf kB)) p1) d3 key3
            rand3).channel (shortId c (c.pubOf kB)) = some chA ∧ chA.ready = true ∧
          (arrive oB ul2 nowB sB d1 key1 rand1).channel (shortId c (c.pubOf kA)) = some chB ∧
          chA.out = chB.inn ∧ chA.inn = chB.out := by
  have hmaxx : q.recvOrd.seqno ≤ p.sendOrd := by
    rw [hx, C02_seqno_is_max]; exact foldl_max_le xs _ _ (by omega) hxs
  have hmaxy : p.recvOrd.seqno ≤ q.sendOrd := by
    rw [hy, C02_seqno_is_max]; exact foldl_max_le ys _ _ (by omega) hys
  obtain ⟨hp1, sB1, a, hput, hh⟩ := shake_decides hc h1 ul2 sB q hq hdq key1 rand1
  rw [verdict_eq _ _ _ _ _ _ _ hmaxy, fresh_above hx hxs, if_pos rfl] at hh
  have harr := arrive_accepted hh
  rw [List.foldl_cons, absorb_plains ms1 hms1] at harr
  simp only [absorb] at harr
  rw [channelMessage_fst hc] at harr
  have hfields := noted_fields oB { q with sendDate := oA.startTime, addr := a } false (p.sendOrd + 1)
  have hgB1 : Good sB1 := (put_tab hput).good hgB
  have hchB1 := createChannel_new hgB1 hput.here (c.pubOf p.channelKey) date1 .create
    (by rw [put_channel hput]; exact hchB)
  rw [hfields.2.1] at hchB1
  have hchB2 : (arrive oB ul2 nowB sB d1 key1 rand1).channel (shortId c (c.pubOf kA)) =
      some (Channel.new c (shortId c (c.pubOf kB)) (shortId c (c.pubOf kA)) q.channelKey (c.pubOf p.channelKey)
        date1 .create) := by
    rw [harr]; exact hchB1
  refine ⟨by rw [hh], hchB2, noted oB { q with sendDate := oA.startTime, addr := a } false (p.sendOrd + 1), ?_, ?_⟩
  · rw [harr]
    unfold State.peer
    rw [Establish.createChannel_peers]
    exact hput.here
  intro ul3 ul4 now3 nowA q2 out3 ms3 r3 d3 pk date3 key3 rand3 hms3 h3
  have hputA := Put.setPeer hp p1
  subst hp1
  have hrec : (noted oB { q with sendDate := oA.startTime, addr := a } false (p.sendOrd + 1)).recvOrd.seqno ≤
      p.sendOrd + 1 := by
    have hr := noted_recv oB { q with sendDate := oA.startTime, addr := a } false (p.sendOrd + 1) false
    have hh' : ({ q with sendDate := oA.startTime, addr := a } : Peer c).recvHist false =
      PacketsHistory.run PacketsHistory.forRecv xs := hx
    rw [hh'] at hr
    have e : (noted oB { q with sendDate := oA.startTime, addr := a } false (p.sendOrd + 1)).recvOrd =
      (noted oB { q with sendDate := oA.startTime, addr := a } false (p.sendOrd + 1)).recvHist false := rfl
    rw [e, hr]
    split
    · rw [← run_append, C02_seqno_is_max]
      refine foldl_max_le _ _ _ (by omega) ?_
      intro z hz
      rcases List.mem_append.mp hz with hz | hz
      · have := hxs z hz; omega
      · simp only [List.mem_singleton] at hz; omega
    · rw [← hx]; omega
  obtain ⟨-, sA1, a', hput', hh'⟩ := shake_decides hc h3 ul4
    (sA.setPeer (shortId c (c.pubOf kA)) (shortId c (c.pubOf kB)) (p.setSendSeqno false (p.sendOrd + 1)))
    (p.setSendSeqno false (p.sendOrd + 1)) hputA.here hdp key3 rand3
  have hq1 : (noted oB { q with sendDate := oA.startTime, addr := a } false (p.sendOrd + 1)).sendOrd = q.sendOrd :=
    noted_send _ _ _ false _
  rw [verdict_eq _ _ _ _ _ _ _ (by exact hrec), hq1,
    fresh_above (q := p.setSendSeqno false (p.sendOrd + 1)) hy hys, if_pos rfl] at hh'
  have harr' := arrive_accepted hh'
  rw [List.foldl_cons, absorb_plains ms3 hms3] at harr'
  simp only [absorb] at harr'
  rw [channelMessage_fst hc] at harr'
  have hgA1 : Good sA1 := (put_tab hput').good ((put_tab hputA).good hgA)
  have hnone : sA1.channel (shortId c (c.pubOf kB)) = none := by
    rw [put_channel hput', put_channel hputA]; exact hchA
  have hchA1 := Establish.createChannel_first (key := c.pubOf q.channelKey) (date := date3) (x := .confirm)
    hgA1 hput'.here hnone
  rw [(noted_fields _ _ _ _).2.1] at hchA1
  refine ⟨by rw [hh'], _, _, by rw [harr']; exact hchA1, rfl, hchB2, ?_, ?_⟩
  · exact (C12_ends_are_mirrored c hc _ _ p.channelKey q.channelKey date3 date1 .confirm .create).1
  · exact (C12_ends_are_mirrored c hc _ _ p.channelKey q.channelKey date3 date1 .confirm .create).2

/-! ### The hypotheses can be met -/

/-- A record of the first toy node that was reset and used for one packet since. -/
def toyAgain : Peer Crypto.toy := (toyPeer.reset (show UInt8 from 8)).setSendSeqno false 1

/-- The second toy node remembers the number 1 and has sent three packets. -/
def toyOther : Peer Crypto.toy :=
  { Peer.new 120 ⟨1, 2, 3, 5, 5⟩ (show UInt8 from 3) (show UInt8 from 9) with
    recvOrd := PacketsHistory.run PacketsHistory.forRecv [1], sendOrd := 3, sendDate := 100 }

def toyWith (b : Bool) (p : Peer Crypto.toy) : State Crypto.toy :=
  { toyNode b with peers := [(toyPair.id b, [(toyPair.id !b, p)])] }

def toyRequest : OutMessages :=
  .pair (writeMessage (.createChannel (leBytes 32 8) 190) ++
    writeMessage (.query (List.replicate 32 4) (List.replicate 8 5)))

/-- The first toy node sends its second packet after the reset: it is accepted, though the first one
(`C76_first_packet_lost`) was dropped. -/
example : ∃ p' d, sendPacket (toyPair.opts false) false 190 (toyPair.id true) toyAgain
      (.random (show UInt8 from 3)) toyRequest ⟨leBytes 10 1, (show UInt8 from 11)⟩ = .ok (p', d) ∧
    (handle (toyPair.opts true) false 200 (toyWith true toyOther) d (show UInt8 from 1) toyRand).2.1 =
      .accepted (toyPair.id true) (toyPair.id false) false
        [.createChannel (leBytes 32 8) 190, .query (List.replicate 32 4) (List.replicate 8 5)] := by
  cases hs : sendPacket (toyPair.opts false) false 190 (toyPair.id true) toyAgain
    (.random (show UInt8 from 3)) toyRequest ⟨leBytes 10 1, (show UInt8 from 11)⟩ with
  | error e => cases hs
  | ok r =>
    obtain ⟨p', d⟩ := r
    refine ⟨p', d, rfl, ?_⟩
    have hg : ∀ b p, Good (toyWith b p) := fun b p =>
      { live := by intro _ _ h; cases h
        bound := by intro _ _ h; cases h
        listed := by intro _ _ _ h; cases h }
    exact (C76_recovers_partial Crypto.toy_lawful (toyPair.opts false) (toyPair.opts true) (show UInt8 from 3)
      (show UInt8 from 5) (toyWith false toyAgain) (toyWith true toyOther) (hg _ _) (hg _ _) toyAgain toyOther
      (by simp [toyWith, State.peer, AMap.get]; rfl) (by simp [toyWith, State.peer, AMap.get]; rfl) rfl [1] [] rfl rfl
      (by decide) (by decide) (.inr rfl) (.inl rfl) false false 190 200 p' toyRequest
      [.query (List.replicate 32 4) (List.replicate 8 5)] ⟨leBytes 10 1, (show UInt8 from 11)⟩ d 190
      (by intro m hm; simp only [List.mem_singleton] at hm; subst hm; trivial)
      { sent := hs
        carries := ⟨_, _, rfl, rfl, by simp [Message.wf]; decide, by simp [Message.wf]⟩
        raw := by decide +kernel
        rand := by decide
        pub := rfl
        key := toyPair_fits.key true
        version := .inl rfl
        time := by decide
        start := by decide
        date := by decide
        count := by decide
        confirm := by decide
        clock := by decide
        inTime := by decide
        started := by decide
        known := .inl rfl }
      (by intro ch h; cases h) (show UInt8 from 1) toyRand).1

/-- A node with a channel, before and after a reset. -/
example :
    let s := (createChannel (toyNode false) (toyPair.id false) (toyPair.id true) (show UInt8 from 9) 130 .confirm).1
    (s.channel (toyPair.id true)).isSome = true ∧
    (s.peer (toyPair.id false) (toyPair.id true)).isSome = true ∧
    ((resetPeer s (toyPair.id false) (toyPair.id true) (show UInt8 from 8)).channel (toyPair.id true)).isSome =
      false := by
  decide +kernel

/-- The second toy node remembers the numbers 1 to 5 and sends a message: the first one, which has sent one
packet since its reset, refuses it. -/
example : ∃ q' d, sendPacket (toyPair.opts true) false 190 (toyPair.id false)
      { toyOther with recvOrd := PacketsHistory.run PacketsHistory.forRecv [1, 2, 3, 4, 5] }
      (.random (show UInt8 from 5)) (.single (writeMessage .nop)) ⟨leBytes 10 1, (show UInt8 from 11)⟩ = .ok (q', d) ∧
    ((handle (toyPair.opts false) false 200 (toyWith false toyAgain) d (show UInt8 from 1) toyRand).2.1 =
        .fail .confirmTooNew ∨
      (handle (toyPair.opts false) false 200 (toyWith false toyAgain) d (show UInt8 from 1) toyRand).2.1 =
        .duplicate) := by
  cases hs : sendPacket (toyPair.opts true) false 190 (toyPair.id false)
      { toyOther with recvOrd := PacketsHistory.run PacketsHistory.forRecv [1, 2, 3, 4, 5] }
      (.random (show UInt8 from 5)) (.single (writeMessage .nop)) ⟨leBytes 10 1, (show UInt8 from 11)⟩ with
  | error e => cases hs
  | ok r =>
    obtain ⟨q', d⟩ := r
    refine ⟨q', d, rfl, ?_⟩
    exact C76_answers_refused Crypto.toy_lawful (kA := show UInt8 from 3) (kB := show UInt8 from 5) (ms := [.nop])
      { sent := hs
        carries := ⟨_, rfl, rfl, trivial⟩
        raw := by decide +kernel
        rand := by decide
        pub := rfl
        key := toyPair_fits.key false
        version := .inl rfl
        time := by decide
        start := by decide
        date := by decide
        count := by decide
        confirm := by decide
        clock := by decide
        inTime := by decide
        started := by decide
        known := .inr rfl }
      false (toyWith false toyAgain) toyAgain (by simp [toyWith, State.peer, AMap.get]; rfl) (.inl rfl)
      [1, 2, 3, 4, 5] rfl 5 (by decide) (by decide) _ _

-- C76_reset_forgets: a node with a channel
example (p : Peer Crypto.toy)
    (hp : (createChannel (toyNode false) (toyPair.id false) (toyPair.id true) (show UInt8 from 9) 130 .confirm).1.peer
      (toyPair.id false) (toyPair.id true) = some p) :=
  C76_reset_forgets (s := (createChannel (toyNode false) (toyPair.id false) (toyPair.id true) (show UInt8 from 9) 130
      .confirm).1)
    (createChannel_good (s := toyNode false)
      ⟨(by intro _ _ h; cases h), (by intro _ _ h; cases h), (by intro _ _ _ h; cases h)⟩ _ _ _ _ _) hp (show UInt8 from 8)

-- C76_number_decides: packet 2 comes to a node that has had packet 1
example : ∃ p' d, sendPacket (toyPair.opts false) false 190 (toyPair.id true) toyAgain
      (.random (show UInt8 from 3)) toyRequest ⟨leBytes 10 1, (show UInt8 from 11)⟩ = .ok (p', d) ∧
    ((handle (toyPair.opts true) false 200 (toyWith true toyOther) d (show UInt8 from 1) toyRand).2.1 = .duplicate ↔
      (toyPair.opts true).historyEnabled = true ∧ toyAgain.sendOrd + 1 < 256 ∧ toyAgain.sendOrd + 1 ∈ Spec.remembered [1]) := by
  cases hs : sendPacket (toyPair.opts false) false 190 (toyPair.id true) toyAgain
    (.random (show UInt8 from 3)) toyRequest ⟨leBytes 10 1, (show UInt8 from 11)⟩ with
  | error e => cases hs
  | ok r =>
    obtain ⟨p', d⟩ := r
    refine ⟨p', d, rfl, ?_⟩
    exact (C76_number_decides Crypto.toy_lawful (kA := show UInt8 from 3) (kB := show UInt8 from 5)
      (ms := [.createChannel (leBytes 32 8) 190, .query (List.replicate 32 4) (List.replicate 8 5)])
      { sent := hs
        carries := ⟨_, _, rfl, rfl, by simp [Message.wf], by simp [Message.wf]⟩
        raw := by decide +kernel
        rand := by decide
        pub := rfl
        key := toyPair_fits.key true
        version := .inl rfl
        time := by decide
        start := by decide
        date := by decide
        count := by decide
        confirm := by decide
        clock := by decide
        inTime := by decide
        started := by decide
        known := .inl rfl }
      false (toyWith true toyOther) toyOther (by simp [toyWith, State.peer, AMap.get]; rfl) (.inr rfl) (by decide) [1] rfl
      (show UInt8 from 1) toyRand).1

-- C70_later_copies, C70_copy_dropped_below_256: the packet comes a second time
example : ∃ σ g, Reachable toyPair σ ∧ (σ.net false)[0]? = some g ∧ 0 ∈ σ.seen false ∧
    (g.sentAt = 130 → (handle (toyPair.opts true) false 150 (σ.node true) g.data (show UInt8 from 1) toyRand).2 =
      (.duplicate, [])) := by
  obtain ⟨σ, g, h, h1, h2, h3, h4, -⟩ := toy_arrived
  have hi : (σ.net false)[0]? = some g := by rw [h1]; rfl
  refine ⟨σ, g, h, hi, by rw [h2]; simp, fun ht => ?_⟩
  have h3' : 150 ≤ g.sentAt + (toyPair.opts false).addressListTimeout := by rw [ht]; decide
  have := C70_later_copies Crypto.toy_lawful toyPair toyPair_fits σ h false 0 g hi 150 (by decide) (by decide) h3'
    (show UInt8 from 1) toyRand
  exact C70_copy_dropped_below_256 Crypto.toy_lawful toyPair toyPair_fits σ h false rfl 0 g hi (by rw [h2]; simp)
    (by rw [h1]; intro g' hg' _; simp only [List.mem_singleton] at hg'; subst hg'; omega) 150 (by decide) (by decide) h3' _ _

end Verif.Delivery
