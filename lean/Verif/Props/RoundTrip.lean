import Verif.Props.Delivery
import Verif.Props.Processing

/-!
# C72: queries and custom messages between two honest nodes, end to end

The system of C70 with the users of the nodes: they send queries and custom messages with `send_message`,
and received packets are processed as in `handle_received_data`, where subscribers answer queries.
Messages are short enough for one packet (longer ones are split, C04).
-/
namespace Verif.RoundTrip
open Verif.Tl Verif.Adnl Verif.AdnlProto Verif.Address Verif.Node Verif.Receiver Verif.Sender Verif.Props
open Verif.Process Verif.Delivery
open Verif.Establish (upd upd_self upd_not upd_not' Expected)

variable {c : Crypto}

/-! ### The system -/

/-- Messages that fit into one packet together with any channel message (sender.rs:107-124). -/
def Small : Message → Prop
  | .query id d => id.length = 32 ∧ d.length ≤ 908
  | .answer id d => id.length = 32 ∧ d.length ≤ 908
  | .custom d => d.length ≤ 940
  | _ => False

/-- Messages users can ask a node to send (`query`, `send_custom_message`). -/
def Asked : Message → Prop
  | .query id d => Small (.query id d)
  | .custom d => Small (.custom d)
  | _ => False

/-- Two nodes, the datagrams each has sent with the time (oldest first), which of them have arrived, the
messages their users asked them to send, and what subscribers and queries of each side got to see about the
other side, with the reaction. -/
structure Real (c : Crypto) where
  node : Bool → Full c
  net : Bool → List (Nat × Bytes)
  seen : Bool → List Nat
  told : Bool → List Message
  log : Bool → List (Event × Reply)

/-- Times and counters within their types, ten random bytes for each packet. -/
structure CanSend (P : Pair c) (b : Bool) (s : State c) (now : Nat) (rand : Nat → Rand c) : Prop where
  bytes : ∀ k, (rand k).bytes.length = 10
  time : now + (P.opts b).addressListTimeout < 2 ^ 32
  count : ∀ p prio, s.peer (P.id b) (P.id !b) = some p → p.sendSeqno prio + 1 < 2 ^ 64

/-- Version 0 is used, or no version and the datagram does not look like a versioned one by accident. -/
def NoAccident (P : Pair c) (b : Bool) (s : State c) (prio : Bool) (r : Rand c) (d : Bytes) : Prop :=
  ∀ p, s.peer (P.id b) (P.id !b) = some p → VersionFits (P.opts b).version
    (Accident P b p r d (signerOf (P.sec b) prio (s.channel (P.id !b))))

/-- Datagram `i` of side `b` arrives and is processed; `subs` is how the subscribers react, `f` the node and
`r` the result. The clock fits and the datagram is not older than its address list; answers are short enough
for one packet. -/
structure Arrives (P : Pair c) (ρ : Real c) (b : Bool) (i now : Nat) (subs : Event → Reply) (key : c.Sec)
    (rand : Nat → Rand c) (t : Nat) (d : Bytes) (f : Full c) (r : Result) : Prop where
  sent : (ρ.net b)[i]? = some (t, d)
  clock : now + (P.opts !b).clockTolerance < 2 ^ 32
  started : (P.opts b).startTime ≤ now + (P.opts !b).clockTolerance
  recent : now ≤ t + (P.opts b).addressListTimeout
  short : ∀ e a, subs e = .answer a → a.length ≤ 908
  can : CanSend P (!b) (arrive (P.opts !b) (P.loop !b) now (ρ.node !b).node d key rand) now rand
  result : receive (P.opts !b) (P.loop !b) now subs (ρ.node !b) d key rand = (f, r)
  accident : ∀ prio, ∀ d' ∈ r.sent, NoAccident P (!b)
    (arrive (P.opts !b) (P.loop !b) now (ρ.node !b).node d key rand) prio (rand 0) d'

/-- The state after `send_message`. -/
def afterTell (P : Pair c) (ρ : Real c) (b : Bool) (now : Nat) (m : Message) (p' : Peer c) (ds : List Bytes) :
    Real c :=
  { ρ with
    node := upd ρ.node b ⟨(ρ.node b).node.setPeer (P.id b) (P.id !b) p', (ρ.node b).transfers⟩
    net := upd ρ.net b (ρ.net b ++ ds.map (now, ·))
    told := upd ρ.told b (m :: ρ.told b) }

/-- The state after an arrival. -/
def afterArrival (ρ : Real c) (b : Bool) (i now : Nat) (subs : Event → Reply) (f : Full c) (r : Result) :
    Real c :=
  { ρ with
    node := upd ρ.node (!b) f
    net := upd ρ.net (!b) (ρ.net (!b) ++ r.sent.map (now, ·))
    seen := upd ρ.seen b (i :: ρ.seen b)
    log := upd ρ.log (!b) (ρ.log (!b) ++ r.events.map fun e => (e, subs e)) }

inductive RStep (P : Pair c) : Real c → Real c → Prop
  /-- the users of side `b` send a message -/
  | tell (ρ : Real c) (b : Bool) (now : Nat) (m : Message) (prio : Bool) (rand : Nat → Rand c)
      (p' : Peer c) (ds : List Bytes) :
      Asked m → CanSend P b (ρ.node b).node now rand →
      sendMessage (P.opts b) (P.loop b) now (ρ.node b).node (P.id b) (P.id !b) m prio rand = .ok (p', ds) →
      (∀ d ∈ ds, NoAccident P b (ρ.node b).node prio (rand 0) d) →
      RStep P ρ (afterTell P ρ b now m p' ds)
  /-- a datagram of side `b` arrives, perhaps again -/
  | deliver (ρ : Real c) (b : Bool) (i now : Nat) (subs : Event → Reply) (key : c.Sec) (rand : Nat → Rand c)
      (t : Nat) (d : Bytes) (f : Full c) (r : Result) :
      Arrives P ρ b i now subs key rand t d f r → RStep P ρ (afterArrival ρ b i now subs f r)
  /-- something else happens at side `b`, which leaves the record and the channel of the other side alone -/
  | other (ρ : Real c) (b : Bool) (f : Full c) : Undisturbed P b (ρ.node b).node f.node →
      RStep P ρ { ρ with node := upd ρ.node b f }

/-- Start as in C70. -/
structure RStart (P : Pair c) (ρ : Real c) : Prop where
  sys : Start P ⟨fun b => (ρ.node b).node, fun _ => [], fun _ => []⟩
  net : ∀ b, ρ.net b = [] ∧ ρ.seen b = []
  log : ∀ b, ρ.log b = []

inductive Leads (P : Pair c) : Real c → Real c → Prop
  | refl (ρ : Real c) : Leads P ρ ρ
  | step (ρ₁ ρ₂ ρ₃ : Real c) : Leads P ρ₁ ρ₂ → RStep P ρ₂ ρ₃ → Leads P ρ₁ ρ₃

/-! ### Sending -/

/-- The channel messages put before a message. -/
def Extra (P : Pair c) (b : Bool) : Message → Prop
  | .createChannel key _ => key = c.pubBytes (c.pubOf (P.chan b))
  | .confirmChannel key _ _ => key = c.pubBytes (c.pubOf (P.chan b))
  | _ => False

theorem small_size {m : Message} (h : Small m) :
    m.wf ∧ idsTyped m ∧ ∃ size, countedSize m = some size ∧ size + 72 ≤ 1024 := by
  cases m with
  | query id d =>
    obtain ⟨h1, h2⟩ := h
    exact ⟨⟨h1, by omega⟩, h1, _, rfl, by omega⟩
  | answer id d =>
    obtain ⟨h1, h2⟩ := h
    exact ⟨⟨h1, by omega⟩, h1, _, rfl, by omega⟩
  | custom d =>
    have h2 : d.length ≤ 940 := h
    exact ⟨by simp only [Message.wf]; omega, trivial, _, rfl, by omega⟩
  | _ => cases h

theorem small_honest {P : Pair c} {b : Bool} {has : Prop} {m : Message} (h : Small m) : Honest P b has m := by
  cases m <;> first | trivial | cases h

theorem small_not_part {m : Message} (h : Small m) : isPart m = false := by
  cases m <;> first | rfl | cases h

theorem extra_not_part {P : Pair c} {b : Bool} {m : Message} (h : Extra P b m) : isPart m = false := by
  cases m <;> first | rfl | cases h

theorem extra_event {P : Pair c} {b : Bool} {m : Message} (h : Extra P b m) (l q : Bytes) :
    eventOf l q m = none := by
  cases m <;> first | rfl | cases h

/-- Sending a small message gives one datagram and is a send step of C70. -/
theorem tell_step (hc : c.Lawful) {P : Pair c} (hP : P.Fits) {σ : Sys c} (hr : Reachable P σ) (b : Bool)
    (now : Nat) (m : Message) (hm : Small m) (prio : Bool) (rand : Nat → Rand c)
    (hcan : CanSend P b (σ.node b) now rand) :
    ∃ p' d g add, sendMessage (P.opts b) (P.loop b) now (σ.node b) (P.id b) (P.id !b) m prio rand =
        .ok (p', [d]) ∧ g.data = d ∧ g.sentAt = now ∧ g.ms = add ++ [m] ∧ (∀ x ∈ add, Extra P b x) ∧
      (NoAccident P b (σ.node b) prio (rand 0) d →
        Step P σ { σ with
          node := upd σ.node b ((σ.node b).setPeer (P.id b) (P.id !b) p')
          net := upd σ.net b (σ.net b ++ [g]) }) := by
  obtain ⟨pr, hinv⟩ := reachable_inv hc hP hr
  have hn := hinv.node b
  obtain ⟨hwf, hids, size, hsize, hle⟩ := small_size hm
  have hp := hn.peer
  have hadd : ∃ e, addU32 (P.opts b).build now (P.opts b).addressListTimeout = some e :=
    ⟨_, addU32_eq _ hcan.time⟩
  obtain ⟨e, hadd⟩ := hadd
  -- the attached message
  have hextra : ∀ a, additional now (pr b) ((σ.node b).channel (P.id !b)) = some a →
      a.1 ≤ 72 ∧ a.2.wf ∧ (writeMessage a.2).length = a.1 ∧ Extra P b a.2 ∧
      Honest P b ((σ.node b).channel (P.id !b) ≠ none) a.2 := by
    intro a ha
    have hkey : (pr b).channelKey = P.chan b := hn.key
    have hnow : now < 2 ^ 32 := by have := hcan.time; omega
    cases hx : (σ.node b).channel (P.id !b) with
    | none =>
      rw [hx] at ha
      simp only [additional, Option.some.injEq] at ha
      subst ha
      refine ⟨show 40 ≤ 72 by decide, ⟨by rw [hc.pub_length], hnow⟩, ?_, ?_, ?_, hnow⟩
      · simp [writeMessage, writeU32_length, hc.pub_length]
      · simp only [Extra, hkey]
      · rw [hkey]
    | some ch =>
      rw [hx] at ha
      simp only [additional] at ha
      split at ha
      · cases ha
      · cases ha
        have hdate := hn.date ch hx
        obtain ⟨d0, x0, hexp⟩ := hn.chan ch hx
        have hpk : ch.peerKey.length = 32 := by rw [hexp]; exact hc.pub_length _
        refine ⟨show 72 ≤ 72 by decide, ⟨by rw [hc.pub_length], hpk, hdate⟩, ?_, ?_, ?_, hdate, by simp⟩
        · simp [writeMessage, writeU32_length, hc.pub_length, hpk]
        · simp only [Extra, hkey]
        · rw [hkey]
  generalize hA : additional now (pr b) ((σ.node b).channel (P.id !b)) = A at hextra
  -- one packet
  have hpk : ∃ out add, packets c.sha A m size = [out] ∧ Carries out (add ++ [m]) ∧
      (∀ x ∈ add, Extra P b x ∧ Honest P b ((σ.node b).channel (P.id !b) ≠ none) x) := by
    cases A with
    | none =>
      refine ⟨.single (writeMessage m), [], ?_, ⟨m, rfl, rfl, hwf⟩, by simp⟩
      unfold packets
      rw [if_pos (by simp only [Option.map_none, Option.getD_none]; omega)]
    | some a =>
      obtain ⟨a1, a2, -, a4, a5⟩ := hextra a rfl
      refine ⟨.pair (writeMessage a.2 ++ writeMessage m), [a.2], ?_, ⟨a.2, m, rfl, rfl, a2, hwf⟩, ?_⟩
      · unfold packets
        rw [if_pos (by simp only [Option.map_some, Option.getD_some]; omega)]
      · intro x hx
        simp only [List.mem_singleton] at hx
        subst hx
        exact ⟨a4, a5⟩
  obtain ⟨out, add, hpk, hcar, hadd'⟩ := hpk
  have hraw : (rawOf out).length ≤ 1075 := by
    refine packets_le c.sha hc.sha_length A m size (writeMessage_le m size hids hsize) ?_ out (by rw [hpk]; simp)
    intro a ha
    obtain ⟨a1, -, a3, -⟩ := hextra a ha
    exact ⟨a3, a1⟩
  have hsend : ∃ p' d, sendPacket (P.opts b) (P.loop b) now (P.id !b) (pr b)
      (signerOf (P.sec b) prio ((σ.node b).channel (P.id !b))) out (rand 0) = .ok (p', d) := by
    unfold sendPacket
    rw [hadd]
    cases signerOf (P.sec b) prio ((σ.node b).channel (P.id !b)) <;> exact ⟨_, _, rfl⟩
  obtain ⟨p', d, hsend⟩ := hsend
  refine ⟨p', d, ⟨d, now, add ++ [m], prioOf (pr b) (signerOf (P.sec b) prio ((σ.node b).channel (P.id !b))),
    (pr b).sendSeqno (prioOf (pr b) (signerOf (P.sec b) prio ((σ.node b).channel (P.id !b)))) + 1,
    isChannel (signerOf (P.sec b) prio ((σ.node b).channel (P.id !b))), P.target b (pr b)⟩, add, ?_, rfl, rfl, rfl,
    fun x hx => (hadd' x hx).1, ?_⟩
  rotate_left
  · intro hno
    refine Step.send σ b now (pr b) p' _ out (add ++ [m]) (rand 0) d hp ?_ hcar (by omega) ?_
      (hcan.bytes 0) hcan.time (hcan.count _ _ hp) hsend (hno _ hp)
    · cases hx : (σ.node b).channel (P.id !b) with
      | none => rfl
      | some ch =>
        simp only [signerOf]
        by_cases hready : ch.ready = true
        · rw [if_pos hready]; exact ⟨hx, hready⟩
        · rw [if_neg hready]; rfl
    · intro x hx
      rcases List.mem_append.mp hx with hx | hx
      · exact (hadd' x hx).2
      · simp only [List.mem_singleton] at hx
        subst hx
        exact small_honest hm
  · unfold sendMessage
    unfold State.peer at hp
    cases ht : (σ.node b).peers.get (P.id b) with
    | none => rw [ht] at hp; cases hp
    | some t =>
      rw [ht] at hp
      simp only at hp
      simp only [hp, hP.key b, hsize, hA, hpk, sendAll, hsend]

/-! ### Receiving -/

theorem absorb_small {l q : Bytes} {s : State c} {m : Message} (h : Small m) : absorb l q s m = s := by
  cases m <;> first | rfl | cases h

/-- Processing a packet of an honest peer: the channel messages are absorbed, then the message itself is
processed. -/
theorem process_honest (hc : c.Lawful) {P : Pair c} (hP : P.Fits) {b : Bool} {q' : Peer c} {other : Prop}
    (now : Nat) (subs : Event → Reply) (prio : Bool) (T : Transfer.Table) (m : Message) (hm : Small m) :
    ∀ (add : List Message) (s : State c) (rand : Nat → Rand c), NodeOk P (!b) s q' other →
      (∀ x ∈ add, Extra P b x ∧ Honest P b other x) →
      let S := (add ++ [m]).foldl (absorb (P.id !b) (P.id b)) s
      let r := processAll (P.opts !b) (P.loop !b) now subs (P.id !b) (P.id b) prio rand ⟨s, T⟩ (add ++ [m])
      let w := processWhole (P.opts !b) (P.loop !b) now subs ⟨S, T⟩ (P.id !b) (P.id b) prio rand m
      r.1 = w.1 ∧ r.2.events = w.2.events ∧ r.2.sent = w.2.sent
  | [], s, rand, _, _ => by
    simp only [List.nil_append, List.foldl_cons, List.foldl_nil, absorb_small hm, processAll]
    rw [processMessage_whole _ _ _ _ _ _ _ _ _ _ (small_not_part hm)]
    split
    · simp
    · exact ⟨rfl, rfl, rfl⟩
  | x :: add, s, rand, hn, hx => by
    obtain ⟨hx1, hx2⟩ := hx x (by simp)
    have hno := absorb_ok hc hP hn x (by rw [Bool.not_not]; exact hx2)
    rw [Bool.not_not] at hno
    have hnp : s.peer (P.id !b) (P.id b) ≠ none := by
      have := hn.peer
      rw [Bool.not_not] at this
      rw [this]; simp
    have hstep : processMessage (P.opts !b) (P.loop !b) now subs ⟨s, T⟩ (P.id !b) (P.id b) prio rand x =
        (⟨absorb (P.id !b) (P.id b) s x, T⟩, ⟨[], [], true⟩) := by
      have hok : ∀ (key : Bytes) (date : Nat) (y : Ctx), key = c.pubBytes (c.pubOf (P.chan b)) →
          (channelMessage s (P.id !b) (P.id b) key date y).2 = true := by
        intro key date y hkey
        by_contra h
        have := (channelMessage_ok s (P.id !b) (P.id b) key date y).mp (by simpa using h)
        rcases this with h | h
        · rw [hkey, hc.decode_pub] at h; cases h
        · exact hnp h
      cases x with
      | createChannel key date =>
        simp only [processMessage, processWhole, absorb, hok key date .create hx1]
      | confirmChannel key pk date =>
        simp only [processMessage, processWhole, absorb, hok key date .confirm hx1]
      | _ => cases hx1
    have ih := process_honest hc hP now subs prio T m hm add (absorb (P.id !b) (P.id b) s x) rand hno.1
      (fun y hy => hx y (by simp [hy]))
    simp only [List.cons_append, processAll, hstep, List.length_nil, Nat.zero_add, if_true, List.nil_append,
      List.foldl_cons] at ih ⊢
    exact ih

/-- The arrival of a datagram whose message is small, processed as a whole, is a delivery of C70, followed by
a send step if a subscriber answers. -/
theorem deliver_step (hc : c.Lawful) {P : Pair c} (hP : P.Fits) {σ : Sys c} (hr : Reachable P σ) (b : Bool)
    (i : Nat) (g : Gram) (hi : (σ.net b)[i]? = some g) (add : List Message) (m : Message)
    (hms : g.ms = add ++ [m]) (hadd : ∀ x ∈ add, Extra P b x) (hm : Small m) (now : Nat)
    (h1 : now + (P.opts !b).clockTolerance < 2 ^ 32)
    (h2 : (P.opts b).startTime ≤ now + (P.opts !b).clockTolerance)
    (h3 : now ≤ g.sentAt + (P.opts b).addressListTimeout) (subs : Event → Reply)
    (hsub : ∀ e a, subs e = .answer a → a.length ≤ 908) (key : c.Sec) (rand : Nat → Rand c)
    (T : Transfer.Table)
    (hcan : CanSend P (!b) (arrive (P.opts !b) (P.loop !b) now (σ.node !b) g.data key rand) now rand)
    (f : Full c) (r : Result)
    (hrec : receive (P.opts !b) (P.loop !b) now subs ⟨σ.node !b, T⟩ g.data key rand = (f, r))
    (hno : ∀ prio, ∀ d' ∈ r.sent, NoAccident P (!b)
        (arrive (P.opts !b) (P.loop !b) now (σ.node !b) g.data key rand) prio (rand 0) d') :
    f.transfers = T ∧
    ∃ σ' gs, Reachable P σ' ∧ σ'.node = upd σ.node (!b) f.node ∧ σ'.seen = upd σ.seen b (i :: σ.seen b) ∧
      σ'.net = upd σ.net (!b) (σ.net (!b) ++ gs) ∧
      gs.map (fun g => (g.sentAt, g.data)) = r.sent.map (now, ·) ∧
      (∀ g' ∈ gs, ∃ add' qid a q, g'.ms = add' ++ [.answer qid a] ∧ (∀ x ∈ add', Extra P (!b) x) ∧
        Small (.answer qid a) ∧ m = .query qid q ∧ r.events = [.query (P.id !b) (P.id b) qid q] ∧
        subs (.query (P.id !b) (P.id b) qid q) = .answer a) ∧
      (r.events = [] ∨ r.events = (eventOf (P.id !b) (P.id b) m).toList) ∧
      (i ∉ σ.seen b → r.events = (eventOf (P.id !b) (P.id b) m).toList ∧
        ∀ qid q a, m = .query qid q → subs (.query (P.id !b) (P.id b) qid q) = .answer a →
          ∃ g' add', gs = [g'] ∧ g'.ms = add' ++ [.answer qid a]) := by
  obtain ⟨pr, hinv⟩ := reachable_inv hc hP hr
  have hg := List.mem_of_getElem? hi
  obtain ⟨s', q', hh, hn, -⟩ := arrives hc hP hinv b g hg now h1 h2 h3 key rand
  have hdel := Reachable.step _ _ hr (Step.deliver σ b i g now key rand hi h1 h2 h3)
  have hhonest := (hinv.gram b g hg).honest
  unfold receive at hrec
  by_cases hf : fresh (P.opts !b) (pr !b) g.prio g.n = true
  · rw [if_pos hf] at hh
    have harr : arrive (P.opts !b) (P.loop !b) now (σ.node !b) g.data key rand =
        (add ++ [m]).foldl (absorb (P.id !b) (P.id b)) s' := by
      unfold arrive
      rw [hh]
      simp only [hms]
    rw [harr] at hcan hno hdel
    rw [hh] at hrec
    simp only [List.length_nil, Nat.zero_add, List.nil_append, hms] at hrec
    have hproc := process_honest hc hP now subs g.prio T m hm add s' rand hn (by
      intro x hx
      exact ⟨hadd x hx, hhonest x (by rw [hms]; simp [hx])⟩)
    simp only at hproc
    obtain ⟨hp1, hp2, hp3⟩ := hproc
    have hf1 := congrArg Prod.fst hrec
    have hr1 := congrArg Prod.snd hrec
    simp only at hf1 hr1
    rw [hp1] at hf1
    have hev : r.events = (eventOf (P.id !b) (P.id b) m).toList := by
      rw [← hr1]
      simp only
      rw [hp2, (processWhole_result _ _ _ _ _ _ _ _ _ _).1]
    have hsent : r.sent = (processWhole (P.opts !b) (P.loop !b) now subs
        ⟨(add ++ [m]).foldl (absorb (P.id !b) (P.id b)) s', T⟩ (P.id !b) (P.id b) g.prio rand m).2.sent := by
      rw [← hr1]
      simp only
      rw [hp3]
    generalize hS : (add ++ [m]).foldl (absorb (P.id !b) (P.id b)) s' = S at *
    have quiet : f = ⟨S, T⟩ → r.sent = [] →
        (∀ qid q a, m = .query qid q → subs (.query (P.id !b) (P.id b) qid q) ≠ .answer a) →
        f.transfers = T ∧
        ∃ σ' gs, Reachable P σ' ∧ σ'.node = upd σ.node (!b) f.node ∧ σ'.seen = upd σ.seen b (i :: σ.seen b) ∧
          σ'.net = upd σ.net (!b) (σ.net (!b) ++ gs) ∧
          gs.map (fun g => (g.sentAt, g.data)) = r.sent.map (now, ·) ∧
          (∀ g' ∈ gs, ∃ add' qid a q, g'.ms = add' ++ [.answer qid a] ∧ (∀ x ∈ add', Extra P (!b) x) ∧
            Small (.answer qid a) ∧ m = .query qid q ∧ r.events = [.query (P.id !b) (P.id b) qid q] ∧
            subs (.query (P.id !b) (P.id b) qid q) = .answer a) ∧
          (r.events = [] ∨ r.events = (eventOf (P.id !b) (P.id b) m).toList) ∧
          (i ∉ σ.seen b → r.events = (eventOf (P.id !b) (P.id b) m).toList ∧
            ∀ qid q a, m = .query qid q → subs (.query (P.id !b) (P.id b) qid q) = .answer a →
              ∃ g' add', gs = [g'] ∧ g'.ms = add' ++ [.answer qid a]) := by
      intro e1 e2 e3
      subst e1
      refine ⟨rfl, _, [], hdel, rfl, rfl, ?_, by rw [e2]; rfl, by simp, .inr hev, fun _ => ⟨hev, ?_⟩⟩
      · funext b'
        rcases bool_cases b b' with rfl | rfl
        · simp
        · simp
      · intro qid q a x1 x2
        exact absurd x2 (e3 qid q a x1)
    cases m with
    | answer id a => exact quiet (by rw [← hf1]; rfl) (by rw [hsent]; rfl) (by intro _ _ _ h; cases h)
    | custom d =>
      refine quiet ?_ ?_ (by intro _ _ _ h; cases h)
      · rw [← hf1]; simp only [processWhole]; cases subs (.custom (P.id !b) (P.id b) d) <;> rfl
      · rw [hsent]; simp only [processWhole]; cases subs (.custom (P.id !b) (P.id b) d) <;> rfl
    | query qid q =>
      cases hs : subs (.query (P.id !b) (P.id b) qid q) with
      | failed =>
        refine quiet ?_ ?_ (by intro _ _ _ h; cases h; rw [hs]; simp)
        · rw [← hf1]; simp only [processWhole, hs]
        · rw [hsent]; simp only [processWhole, hs]
      | done =>
        refine quiet ?_ ?_ (by intro _ _ _ h; cases h; rw [hs]; simp)
        · rw [← hf1]; simp only [processWhole, hs]
        · rw [hsent]; simp only [processWhole, hs]
      | answer a =>
        have hsm : Small (.answer qid a) := ⟨hm.1, hsub _ _ hs⟩
        obtain ⟨p', d, g', add', t1, t2, t3, t4, t5, t6⟩ := tell_step hc hP hdel (!b) now (.answer qid a) hsm
          g.prio rand (by simp only [upd_self]; exact hcan)
        simp only [upd_self, Bool.not_not] at t1 t6
        simp only [processWhole, hs, t1] at hf1 hsent
        have hst := t6 (hno g.prio d (by rw [hsent]; simp))
        subst hf1
        refine ⟨rfl, _, [g'], .step _ _ hdel hst, ?_, rfl, rfl, by simp [hsent, t2, t3], ?_, .inr hev,
          fun _ => ⟨hev, ?_⟩⟩
        · funext b'
          rcases bool_cases b b' with rfl | rfl <;> simp
        · intro g'' hg''
          simp only [List.mem_singleton] at hg''
          subst hg''
          exact ⟨add', qid, a, q, t4, t5, hsm, rfl, hev, hs⟩
        · intro qid' q' a' x1 x2
          cases x1
          rw [hs] at x2
          cases x2
          exact ⟨g', add', rfl, t4⟩
    | _ => cases hm
  · rw [if_neg hf] at hh
    have harr : arrive (P.opts !b) (P.loop !b) now (σ.node !b) g.data key rand = s' := by
      unfold arrive
      rw [hh]
    rw [harr] at hdel
    rw [hh] at hrec
    simp only at hrec
    cases hrec
    refine ⟨rfl, _, [], hdel, rfl, rfl, ?_, rfl, by simp, .inl rfl, ?_⟩
    · funext b'
      rcases bool_cases b b' with rfl | rfl <;> simp
    · intro hnew
      exfalso
      have := C70_first_copy_accepted hc P hP σ hr b i g hi hnew now h1 h2 h3 key rand
      rw [hh] at this
      cases this

/-! ### Every run is a run of C70 -/

theorem asked_small {m : Message} (h : Asked m) : Small m := by
  cases m <;> first | exact h | cases h

/-- Where a message of side `b` comes from: its users asked for it, or it is the answer a subscriber gave to
a query of the other side. -/
def Origin (P : Pair c) (ρ : Real c) (b : Bool) (m : Message) : Prop :=
  (m ∈ ρ.told b ∧ Asked m) ∨
    ∃ qid a q, m = .answer qid a ∧ (.query (P.id b) (P.id !b) qid q, .answer a) ∈ ρ.log b

structure Rel (P : Pair c) (ρ : Real c) (σ : Sys c) : Prop where
  reach : Reachable P σ
  node : ∀ b, σ.node b = (ρ.node b).node
  seen : ∀ b, σ.seen b = ρ.seen b
  net : ∀ b, ρ.net b = (σ.net b).map fun g => (g.sentAt, g.data)
  shape : ∀ b, ∀ g ∈ σ.net b, ∃ add m, g.ms = add ++ [m] ∧ (∀ x ∈ add, Extra P b x) ∧ Small m ∧ Origin P ρ b m
  logged : ∀ b, ∀ x ∈ ρ.log b, ∃ m, eventOf (P.id b) (P.id !b) m = some x.1 ∧ Origin P ρ (!b) m

theorem origin_mono {P : Pair c} {ρ ρ' : Real c} {b : Bool} {m : Message} (h : Origin P ρ b m)
    (h1 : ∀ x ∈ ρ.told b, x ∈ ρ'.told b) (h2 : ∀ x ∈ ρ.log b, x ∈ ρ'.log b) : Origin P ρ' b m := by
  rcases h with ⟨h, ha⟩ | ⟨qid, a, q, h, hl⟩
  · exact .inl ⟨h1 _ h, ha⟩
  · exact .inr ⟨qid, a, q, h, h2 _ hl⟩

theorem upd_mono {α : Type} {x : Bool → List α} {b : Bool} {l : List α} (h : ∀ y ∈ x b, y ∈ l) (b' : Bool) :
    ∀ y ∈ x b', y ∈ upd x b l b' := by
  rcases bool_cases b b' with rfl | rfl
  · simpa using h
  · simp

/-- What a sent message becomes. -/
theorem sim_tell (hc : c.Lawful) {P : Pair c} (hP : P.Fits) {ρ : Real c} {σ : Sys c} (hR : Rel P ρ σ)
    {b : Bool} {now : Nat} {m : Message} {prio : Bool} {rand : Nat → Rand c} {p' : Peer c} {ds : List Bytes}
    (hm : Asked m) (hcan : CanSend P b (ρ.node b).node now rand)
    (hs : sendMessage (P.opts b) (P.loop b) now (ρ.node b).node (P.id b) (P.id !b) m prio rand = .ok (p', ds))
    (hno : ∀ d ∈ ds, NoAccident P b (ρ.node b).node prio (rand 0) d) :
    ∃ σ' g add, Rel P (afterTell P ρ b now m p' ds) σ' ∧ σ'.net = upd σ.net b (σ.net b ++ [g]) ∧
      ds = [g.data] ∧ g.sentAt = now ∧ g.ms = add ++ [m] := by
  obtain ⟨p1, d, g, add, t1, t2, t3, t4, t5, t6⟩ := tell_step hc hP hR.reach b now m (asked_small hm) prio rand
    (by rw [hR.node]; exact hcan)
  rw [hR.node, hs] at t1
  cases t1
  have hst := t6 (by rw [hR.node]; exact hno d (by simp))
  have mono : ∀ b' x, Origin P ρ b' x → Origin P (afterTell P ρ b now m p' [d]) b' x := by
    intro b' x hx
    exact origin_mono hx (upd_mono (x := ρ.told) (by intro y hy; simp [hy]) b') (fun _ h => h)
  refine ⟨_, g, add, ⟨.step _ _ hR.reach hst, ?_, hR.seen, ?_, ?_, ?_⟩, rfl, by rw [t2], t3, t4⟩
  · intro b'
    rcases bool_cases b b' with rfl | rfl
    · simp only [afterTell, upd_self]; rw [hR.node]
    · simp only [afterTell, upd_not]; rw [hR.node]
  · intro b'
    rcases bool_cases b b' with rfl | rfl
    · simp only [afterTell, upd_self]
      rw [hR.net, List.map_append]
      simp [t2, t3]
    · simp only [afterTell, upd_not]; rw [hR.net]
  · intro b' g' hg'
    rcases bool_cases b b' with rfl | rfl
    · simp only [upd_self, List.mem_append, List.mem_singleton] at hg'
      rcases hg' with hg' | rfl
      · obtain ⟨add', m', s1, s2, s3, s4⟩ := hR.shape _ g' hg'
        exact ⟨add', m', s1, s2, s3, mono _ _ s4⟩
      · exact ⟨add, m, t4, t5, asked_small hm, .inl ⟨by simp [afterTell], hm⟩⟩
    · simp only [upd_not] at hg'
      obtain ⟨add', m', s1, s2, s3, s4⟩ := hR.shape _ g' hg'
      exact ⟨add', m', s1, s2, s3, mono _ _ s4⟩
  · intro b' x hx
    obtain ⟨m', e1, e2⟩ := hR.logged b' x hx
    exact ⟨m', e1, mono _ _ e2⟩

/-- What an arrival does. -/
theorem sim_deliver (hc : c.Lawful) {P : Pair c} (hP : P.Fits) {ρ : Real c} {σ : Sys c} (hR : Rel P ρ σ)
    {b : Bool} {i now : Nat} {subs : Event → Reply} {key : c.Sec} {rand : Nat → Rand c} {t : Nat} {d : Bytes}
    {f : Full c} {r : Result} (h : Arrives P ρ b i now subs key rand t d f r) :
    ∃ σ' gs g add m, (σ.net b)[i]? = some g ∧ g.ms = add ++ [m] ∧ Small m ∧ Origin P ρ b m ∧
      Rel P (afterArrival ρ b i now subs f r) σ' ∧ σ'.net = upd σ.net (!b) (σ.net (!b) ++ gs) ∧
      (r.events = [] ∨ r.events = (eventOf (P.id !b) (P.id b) m).toList) ∧
      (i ∉ ρ.seen b → r.events = (eventOf (P.id !b) (P.id b) m).toList ∧
        ∀ qid q a, m = .query qid q → subs (.query (P.id !b) (P.id b) qid q) = .answer a →
          ∃ g' add', gs = [g'] ∧ g'.ms = add' ++ [.answer qid a]) ∧
      gs.map (fun g => (g.sentAt, g.data)) = r.sent.map (now, ·) := by
  obtain ⟨g, hg, htd⟩ : ∃ g, (σ.net b)[i]? = some g ∧ (g.sentAt, g.data) = (t, d) := by
    have := h.sent
    rw [hR.net, List.getElem?_map] at this
    cases hx : (σ.net b)[i]? with
    | none => rw [hx] at this; cases this
    | some g => rw [hx] at this; exact ⟨g, rfl, by simpa using this⟩
  cases htd
  obtain ⟨add, m, s1, s2, s3, s4⟩ := hR.shape b g (List.mem_of_getElem? hg)
  have hrec := h.result
  have hcan := h.can
  have hacc := h.accident
  have hnode : ρ.node (!b) = ⟨σ.node !b, (ρ.node !b).transfers⟩ := by rw [hR.node]
  rw [hnode] at hrec hcan hacc
  obtain ⟨-, σ', gs, d1, d2, d3, d4, d5, d6, d7, d8⟩ := deliver_step hc hP hR.reach b i g hg add m s1 s2 s3 now h.clock
    h.started h.recent subs h.short key rand _ hcan f r hrec hacc
  have mono : ∀ b' x, Origin P ρ b' x → Origin P (afterArrival ρ b i now subs f r) b' x := by
    intro b' x hx
    exact origin_mono hx (fun _ h => h) (upd_mono (x := ρ.log) (by intro y hy; simp [hy]) b')
  refine ⟨σ', gs, g, add, m, hg, s1, s3, s4, ⟨d1, ?_, ?_, ?_, ?_, ?_⟩, d4, d7, ?_, d5⟩
  · intro b'
    rw [d2]
    rcases bool_cases (!b) b' with rfl | rfl
    · simp only [afterArrival, upd_self]
    · simp only [afterArrival, upd_not]; rw [hR.node]
  · intro b'
    rw [d3]
    rcases bool_cases b b' with rfl | rfl
    · simp only [afterArrival, upd_self]; rw [hR.seen]
    · simp only [afterArrival, upd_not]; rw [hR.seen]
  · intro b'
    rw [d4]
    rcases bool_cases (!b) b' with rfl | rfl
    · simp only [afterArrival, upd_self]
      rw [hR.net, List.map_append, d5]
    · simp only [afterArrival, upd_not]; rw [hR.net]
  · intro b' g' hg'
    rw [d4] at hg'
    rcases bool_cases (!b) b' with rfl | rfl
    · simp only [upd_self, List.mem_append] at hg'
      rcases hg' with hg' | hg'
      · obtain ⟨add', m', u1, u2, u3, u4⟩ := hR.shape _ g' hg'
        exact ⟨add', m', u1, u2, u3, mono _ _ u4⟩
      · obtain ⟨add', qid, a, q, u1, u2, u3, u4, u5, u6⟩ := d6 g' hg'
        refine ⟨add', _, u1, u2, u3, .inr ⟨qid, a, q, rfl, ?_⟩⟩
        simp only [afterArrival, upd_self, Bool.not_not, List.mem_append, List.mem_map]
        exact .inr ⟨.query (P.id !b) (P.id b) qid q, by rw [u5]; simp, by rw [u6]⟩
    · simp only [upd_not] at hg'
      obtain ⟨add', m', u1, u2, u3, u4⟩ := hR.shape _ g' hg'
      exact ⟨add', m', u1, u2, u3, mono _ _ u4⟩
  · intro b' x hx
    rcases bool_cases (!b) b' with rfl | rfl
    · simp only [afterArrival, upd_self, List.mem_append, List.mem_map] at hx
      rcases hx with hx | ⟨e, he, rfl⟩
      · obtain ⟨m', e1, e2⟩ := hR.logged _ x hx
        exact ⟨m', e1, mono _ _ e2⟩
      · refine ⟨m, ?_, by rw [Bool.not_not]; exact mono _ _ s4⟩
        rw [Bool.not_not]
        rcases d7 with h7 | h7
        · rw [h7] at he; cases he
        · rw [h7] at he; simpa [Option.mem_toList] using he
    · simp only [afterArrival, upd_not] at hx
      obtain ⟨m', e1, e2⟩ := hR.logged _ x hx
      exact ⟨m', e1, mono _ _ e2⟩
  · rw [← hR.seen]; exact d8

theorem sim (hc : c.Lawful) {P : Pair c} (hP : P.Fits) {ρ ρ' : Real c} {σ : Sys c} (hR : Rel P ρ σ)
    (h : RStep P ρ ρ') : ∃ σ', Rel P ρ' σ' ∧ ∀ b, σ.net b <+: σ'.net b := by
  cases h with
  | tell b now m prio rand p' ds h1 h2 h3 h4 =>
    obtain ⟨σ', g, add, hr, hn, -⟩ := sim_tell hc hP hR h1 h2 h3 h4
    refine ⟨σ', hr, fun b' => ?_⟩
    rw [hn]
    rcases bool_cases b b' with rfl | rfl <;> simp
  | deliver b i now subs key rand t d f r h =>
    obtain ⟨σ', gs, g, add, m, -, -, -, -, hr, hn, -⟩ := sim_deliver hc hP hR h
    refine ⟨σ', hr, fun b' => ?_⟩
    rw [hn]
    rcases bool_cases (!b) b' with rfl | rfl <;> simp
  | other b f h =>
    refine ⟨{ σ with node := upd σ.node b f.node }, ⟨.step _ _ hR.reach (.other σ b f.node ?_), ?_, hR.seen, hR.net,
      hR.shape, hR.logged⟩, fun _ => List.prefix_rfl⟩
    · rw [hR.node]; exact h
    · intro b'
      rcases bool_cases b b' with rfl | rfl
      · simp only [upd_self]
      · simp only [upd_not]; rw [hR.node]

theorem sim_leads (hc : c.Lawful) {P : Pair c} (hP : P.Fits) {ρ ρ' : Real c} (h : Leads P ρ ρ') :
    ∀ σ, Rel P ρ σ → ∃ σ', Rel P ρ' σ' ∧ ∀ b, σ.net b <+: σ'.net b := by
  induction h with
  | refl => exact fun σ hR => ⟨σ, hR, fun _ => List.prefix_rfl⟩
  | step ρ₂ ρ₃ _ h2 ih =>
    intro σ hR
    obtain ⟨σ1, hR1, hp1⟩ := ih σ hR
    obtain ⟨σ2, hR2, hp2⟩ := sim hc hP hR1 h2
    exact ⟨σ2, hR2, fun b => (hp1 b).trans (hp2 b)⟩

theorem rel_start {P : Pair c} {ρ : Real c} (h : RStart P ρ) :
    Rel P ρ ⟨fun b => (ρ.node b).node, fun _ => [], fun _ => []⟩ where
  reach := .start _ h.sys
  node := fun _ => rfl
  seen := fun b => ((h.net b).2).symm
  net := fun b => (h.net b).1
  shape := by intro _ _ h; cases h
  logged := by intro b x hx; rw [h.log b] at hx; cases hx

/-! ### C72 -/

/-- **C72 (nothing is made up)** In every run of two honest nodes: a query or a custom message seen by the
subscribers of side `b` is one the users of the other side asked to send, with the same contents, and an
answer handed to a query of side `b` is the answer a subscriber of the other side gave to a query with this
id, which the users of side `b` asked to send. -/
theorem C72_nothing_made_up (hc : c.Lawful) (P : Pair c) (hP : P.Fits) (ρ₀ ρ : Real c) (h0 : RStart P ρ₀)
    (h : Leads P ρ₀ ρ) (b : Bool) (e : Event) (y : Reply) (he : (e, y) ∈ ρ.log b) :
    (∃ qid q, e = .query (P.id b) (P.id !b) qid q ∧ .query qid q ∈ ρ.told (!b)) ∨
    (∃ d, e = .custom (P.id b) (P.id !b) d ∧ .custom d ∈ ρ.told (!b)) ∨
    (∃ qid a q, e = .answer qid a ∧ .query qid q ∈ ρ.told b ∧
      (.query (P.id !b) (P.id b) qid q, .answer a) ∈ ρ.log (!b)) := by
  obtain ⟨σ, hR, -⟩ := sim_leads hc hP h _ (rel_start h0)
  obtain ⟨m, hm, ho⟩ := hR.logged b _ he
  rcases ho with ⟨ht, ha⟩ | ⟨qid, a, q, rfl, hl⟩
  · cases m with
    | query qid q => cases hm; exact .inl ⟨qid, q, rfl, ht⟩
    | custom d => cases hm; exact .inr (.inl ⟨d, rfl, ht⟩)
    | _ => cases ha
  · cases hm
    rw [Bool.not_not] at hl
    obtain ⟨m2, hm2, ho2⟩ := hR.logged (!b) _ hl
    simp only [Bool.not_not] at hm2 ho2
    refine .inr (.inr ⟨qid, a, q, rfl, ?_, hl⟩)
    cases m2 with
    | query qid' q' =>
      cases hm2
      rcases ho2 with ⟨ht, -⟩ | ⟨_, _, _, h, -⟩
      · exact ht
      · cases h
    | _ => cases hm2

theorem last_eq {add add' : List Message} {m m' : Message} (h : add ++ [m] = add' ++ [m']) : m = m' := by
  have := congrArg List.getLast? h
  simpa using this

theorem prefix_get {α : Type} {x y : List α} (h : x <+: y) {i : Nat} {a : α} (hi : x[i]? = some a) :
    y[i]? = some a := by
  obtain ⟨z, rfl⟩ := h
  obtain ⟨hlt, hx⟩ := List.getElem?_eq_some_iff.mp hi
  rw [List.getElem?_append_left hlt]
  exact hi

/-- **C72 (sending works)** In every run of two honest nodes whose clocks and counters are within their types,
sending a query or a custom message succeeds and gives one datagram. -/
theorem C72_send_succeeds (hc : c.Lawful) (P : Pair c) (hP : P.Fits) (ρ₀ ρ : Real c) (h0 : RStart P ρ₀)
    (h : Leads P ρ₀ ρ) (b : Bool) (now : Nat) (m : Message) (prio : Bool) (rand : Nat → Rand c)
    (hm : Asked m) (hcan : CanSend P b (ρ.node b).node now rand) :
    ∃ p' d, sendMessage (P.opts b) (P.loop b) now (ρ.node b).node (P.id b) (P.id !b) m prio rand =
      .ok (p', [d]) := by
  obtain ⟨σ, hR, -⟩ := sim_leads hc hP h _ (rel_start h0)
  obtain ⟨p1, d, g, add, t1, -⟩ := tell_step hc hP hR.reach b now m (asked_small hm) prio rand
    (by rw [hR.node]; exact hcan)
  rw [hR.node] at t1
  exact ⟨p1, d, t1⟩

/-- **C72 (messages arrive)** After the users of side `b` have sent a message, whatever happens next: the
first time its datagram arrives at the other side, the subscribers there see exactly this message (a query or
a custom message with its contents, ids of the two sides), and nothing else. -/
theorem C72_message_arrives (hc : c.Lawful) (P : Pair c) (hP : P.Fits) (ρ₀ ρ ρ₂ : Real c) (h0 : RStart P ρ₀)
    (h : Leads P ρ₀ ρ) (b : Bool) (now : Nat) (m : Message) (prio : Bool) (rand : Nat → Rand c)
    (p' : Peer c) (ds : List Bytes) (hm : Asked m) (hcan : CanSend P b (ρ.node b).node now rand)
    (hs : sendMessage (P.opts b) (P.loop b) now (ρ.node b).node (P.id b) (P.id !b) m prio rand = .ok (p', ds))
    (hno : ∀ d ∈ ds, NoAccident P b (ρ.node b).node prio (rand 0) d)
    (h2 : Leads P (afterTell P ρ b now m p' ds) ρ₂) (hnew : (ρ.net b).length ∉ ρ₂.seen b)
    (now' : Nat) (subs : Event → Reply) (key : c.Sec) (rand' : Nat → Rand c) (t : Nat) (d : Bytes) (f : Full c)
    (r : Result) (ha : Arrives P ρ₂ b (ρ.net b).length now' subs key rand' t d f r) :
    ds = [d] ∧ t = now ∧
    (∀ qid q, m = .query qid q → r.events = [.query (P.id !b) (P.id b) qid q]) ∧
    (∀ x, m = .custom x → r.events = [.custom (P.id !b) (P.id b) x]) := by
  obtain ⟨σ, hR, -⟩ := sim_leads hc hP h _ (rel_start h0)
  obtain ⟨σ1, g, add, hR1, hn1, e1, e2, e3⟩ := sim_tell hc hP hR hm hcan hs hno
  obtain ⟨σ2, hR2, hp2⟩ := sim_leads hc hP h2 _ hR1
  have hlen : (ρ.net b).length = (σ.net b).length := by rw [hR.net]; simp
  have hg : (σ2.net b)[(ρ.net b).length]? = some g := by
    refine prefix_get (hp2 b) ?_
    rw [hn1, upd_self, hlen]
    simp
  have hd := ha.sent
  rw [hR2.net, List.getElem?_map, hg] at hd
  simp only [Option.map_some, Option.some.injEq, Prod.mk.injEq] at hd
  obtain ⟨σ3, gs, g', add', m', f1, f2, -, -, -, -, -, f3, -⟩ := sim_deliver hc hP hR2 ha
  rw [hg] at f1
  cases f1
  have hmm := last_eq (e3.symm.trans f2)
  subst hmm
  obtain ⟨f3, -⟩ := f3 hnew
  refine ⟨by rw [e1, hd.2], by rw [← hd.1, e2], ?_, ?_⟩
  · intro qid q hq; subst hq; exact f3
  · intro x hx; subst hx; exact f3

/-- **C72 (answers arrive)** When the first copy of a datagram with a query arrives and a subscriber answers
it, one datagram is sent back, and whatever happens next: the first time this datagram arrives, the query of
the other side gets exactly this answer. -/
theorem C72_answer_arrives (hc : c.Lawful) (P : Pair c) (hP : P.Fits) (ρ₀ ρ : Real c) (h0 : RStart P ρ₀)
    (h : Leads P ρ₀ ρ) (b : Bool) (i now : Nat) (subs : Event → Reply) (key : c.Sec) (rand : Nat → Rand c)
    (t : Nat) (d : Bytes) (f : Full c) (r : Result) (ha : Arrives P ρ b i now subs key rand t d f r)
    (hnew : i ∉ ρ.seen b) (qid q a : Bytes) (hq : .query (P.id !b) (P.id b) qid q ∈ r.events)
    (hsub : subs (.query (P.id !b) (P.id b) qid q) = .answer a) :
    ∃ d', r.sent = [d'] ∧
      ∀ (ρ₂ : Real c), Leads P (afterArrival ρ b i now subs f r) ρ₂ → (ρ.net !b).length ∉ ρ₂.seen (!b) →
      ∀ (now' : Nat) (subs' : Event → Reply) (key' : c.Sec) (rand' : Nat → Rand c) (t' : Nat) (d'' : Bytes)
        (f' : Full c) (r' : Result),
        Arrives P ρ₂ (!b) (ρ.net !b).length now' subs' key' rand' t' d'' f' r' →
        d'' = d' ∧ t' = now ∧ r'.events = [.answer qid a] := by
  obtain ⟨σ, hR, -⟩ := sim_leads hc hP h _ (rel_start h0)
  obtain ⟨σ1, gs, g, add, m, -, -, -, -, hR1, hn1, -, f3, f4⟩ := sim_deliver hc hP hR ha
  obtain ⟨f3, f5⟩ := f3 hnew
  rw [f3] at hq
  have hm : m = .query qid q := by
    cases m <;> simp [eventOf] at hq
    obtain ⟨rfl, rfl⟩ := hq
    rfl
  obtain ⟨g', add', rfl, e3⟩ := f5 qid q a hm hsub
  obtain ⟨d', hd', hgd⟩ : ∃ d', r.sent = [d'] ∧ (g'.sentAt, g'.data) = (now, d') := by
    cases hs : r.sent with
    | nil => rw [hs] at f4; cases f4
    | cons x xs =>
      rw [hs] at f4
      simp only [List.map_cons, List.map_nil, List.cons.injEq, List.nil_eq, List.map_eq_nil_iff] at f4
      obtain ⟨f4, rfl⟩ := f4
      exact ⟨x, rfl, f4⟩
  refine ⟨d', hd', ?_⟩
  intro ρ₂ h2 hnew2 now' subs' key' rand' t' d'' f' r' ha2
  obtain ⟨σ2, hR2, hp2⟩ := sim_leads hc hP h2 _ hR1
  have hlen : (ρ.net !b).length = (σ.net !b).length := by rw [hR.net]; simp
  have hg : (σ2.net !b)[(ρ.net !b).length]? = some g' := by
    refine prefix_get (hp2 _) ?_
    rw [hn1, upd_self, hlen]
    simp
  have hd := ha2.sent
  rw [hR2.net, List.getElem?_map, hg] at hd
  simp only [Option.map_some, Option.some.injEq, hgd, Prod.mk.injEq] at hd
  obtain ⟨σ3, gs3, g3, add3, m3, u1, u2, -, -, -, -, -, u3, -⟩ := sim_deliver hc hP hR2 ha2
  rw [hg] at u1
  cases u1
  have hmm := last_eq (e3.symm.trans u2)
  subst hmm
  exact ⟨hd.2.symm, hd.1.symm, (u3 hnew2).1⟩

/-! ### Example -/

def toyReal : Real Crypto.toy := ⟨fun b => ⟨toyNode b, []⟩, fun _ => [], fun _ => [], fun _ => [], fun _ => []⟩

theorem toyReal_start : RStart toyPair toyReal := ⟨toy_start, fun _ => ⟨rfl, rfl⟩, fun _ => rfl⟩

def toyRands : Nat → Rand Crypto.toy := fun _ => ⟨leBytes 10 1, (show UInt8 from 11)⟩

/-- Subscribers answer every query with one byte. -/
def toySubs : Event → Reply
  | .query _ _ _ _ => .answer [42]
  | _ => .done

theorem toy_peer (b : Bool) : (toyNode b).peer (toyPair.id b) (toyPair.id !b) =
    some (Peer.new 120 ⟨1, 2, 3, if b then 5 else 4, 5⟩ (toyPair.sec !b) (toyPair.chan b)) := by
  simp [toyNode, State.peer, AMap.get]

theorem toy_can (b : Bool) : CanSend toyPair b (toyReal.node b).node 130 toyRands where
  bytes _ := rfl
  time := by cases b <;> decide
  count p prio h := by
    have := toy_peer b
    simp only [toyReal] at h
    rw [this] at h
    cases h
    cases b <;> cases prio <;> decide

def toyQuery : Message := .query (List.replicate 32 4) [5]

/-- The datagram of the query. -/
def toyDatagram : Bytes :=
  match sendMessage (toyPair.opts false) false 130 (toyNode false) (toyPair.id false) (toyPair.id true) toyQuery
    false toyRands with
  | .ok (_, [d]) => d
  | _ => []

theorem toy_counts : ∀ prio, ((arrive (toyPair.opts true) false 140 (toyNode true) toyDatagram (show UInt8 from 1)
    toyRands).peer (toyPair.id true) (toyPair.id false)).map (·.sendSeqno prio) = some 0 := by
  decide +kernel

/-- A query is sent, arrives and is answered; the answer is a datagram of the other side. -/
theorem toy_trip : ∃ p' f r d', sendMessage (toyPair.opts false) false 130 (toyNode false) (toyPair.id false)
      (toyPair.id true) toyQuery false toyRands = .ok (p', [toyDatagram]) ∧
    Arrives toyPair (afterTell toyPair toyReal false 130 toyQuery p' [toyDatagram]) false 0 140
      toySubs (show UInt8 from 1) toyRands 130 toyDatagram f r ∧
    r.events = [.query (toyPair.id true) (toyPair.id false) (List.replicate 32 4) [5]] ∧ r.sent = [d'] := by
  have hask : Asked toyQuery := ⟨by decide, by decide⟩
  obtain ⟨p', d, hs⟩ := C72_send_succeeds Crypto.toy_lawful toyPair toyPair_fits toyReal toyReal toyReal_start
    (.refl _) false 130 toyQuery false toyRands hask (toy_can false)
  have hd : toyDatagram = d := by
    unfold toyDatagram
    have : sendMessage (toyPair.opts false) false 130 (toyNode false) (toyPair.id false) (toyPair.id true) toyQuery
      false toyRands = .ok (p', [d]) := hs
    rw [this]
  rw [← hd] at hs
  have hno : ∀ x ∈ [toyDatagram], NoAccident toyPair false (toyReal.node false).node false (toyRands 0) x :=
    fun _ _ _ _ => .inl rfl
  have hcan : CanSend toyPair true (arrive (toyPair.opts true) false 140 (toyNode true) toyDatagram
      (show UInt8 from 1) toyRands) 140 toyRands :=
    { bytes := fun _ => rfl
      time := by decide
      count := by
        intro p prio h
        have := toy_counts prio
        rw [show toyPair.id (!true) = toyPair.id false from rfl] at h
        rw [h] at this
        simp only [Option.map_some, Option.some.injEq] at this
        rw [this]; decide }
  cases hf : receive (toyPair.opts true) false 140 toySubs ⟨toyNode true, []⟩ toyDatagram (show UInt8 from 1) toyRands with
  | mk f r =>
    have ha : Arrives toyPair (afterTell toyPair toyReal false 130 toyQuery p' [toyDatagram]) false 0 140
        toySubs (show UInt8 from 1) toyRands 130 toyDatagram f r :=
      { sent := rfl
        clock := by decide
        started := by decide
        recent := show 140 ≤ 130 + 1000 by decide
        short := by intro e a h; cases e <;> simp [toySubs] at h; subst h; decide
        can := hcan
        result := hf
        accident := fun _ _ _ _ _ => .inl rfl }
    have h1 := C72_message_arrives Crypto.toy_lawful toyPair toyPair_fits toyReal toyReal _ toyReal_start (.refl _)
      false 130 toyQuery false toyRands p' [toyDatagram] hask (toy_can false) hs hno (.refl _)
      (by simp [afterTell, toyReal]) _ _ _ _ _ _ _ _ ha
    have h2 := h1.2.2.1 _ _ rfl
    have h3 := C72_answer_arrives Crypto.toy_lawful toyPair toyPair_fits toyReal _ toyReal_start
      (.step _ _ _ (.refl _) (.tell toyReal false 130 toyQuery false toyRands p' [toyDatagram] hask (toy_can false) hs hno))
      false 0 140 toySubs _ _ _ _ f r ha (by simp [afterTell, toyReal]) (List.replicate 32 4) [5] [42]
      (by rw [h2]; exact List.mem_singleton.mpr rfl) rfl
    obtain ⟨d', h3, -⟩ := h3
    exact ⟨p', f, r, d', hs, ha, h2, h3⟩

-- C72_nothing_made_up: the query that reached the subscribers
example : .query (List.replicate 32 4) [5] ∈ [toyQuery] := by
  obtain ⟨p', f, r, d', hs, ha, h2, -⟩ := toy_trip
  have hno : ∀ x ∈ [toyDatagram], NoAccident toyPair false (toyReal.node false).node false (toyRands 0) x :=
    fun _ _ _ _ => .inl rfl
  rcases C72_nothing_made_up Crypto.toy_lawful toyPair toyPair_fits toyReal _ toyReal_start
    (.step _ _ _ (.step _ _ _ (.refl _) (.tell toyReal false 130 toyQuery false toyRands p' [toyDatagram]
      ⟨by decide, by decide⟩ (toy_can false) hs hno)) (.deliver _ _ _ _ _ _ _ _ _ _ _ ha)) true
    (.query (toyPair.id true) (toyPair.id false) (List.replicate 32 4) [5]) (.answer [42])
    (by simp [afterArrival, h2, toySubs, Establish.upd]) with ⟨_, _, h, h'⟩ | ⟨_, h, -⟩ | ⟨_, _, _, h, -⟩
  · cases h; exact h'
  · cases h
  · cases h

end Verif.RoundTrip
