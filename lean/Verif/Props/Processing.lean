import Verif.Props.Establish2
import Verif.Props.Attribution
import Verif.Props.Transfer

/-!
# C71: what subscribers and waiting queries get to see
-/
namespace Verif.Process
open Verif.Adnl Verif.AdnlProto Verif.Address Verif.Node

variable {c : Crypto}

/-! ### Specification -/

/-- What a message of peer `q` to the local id `l` says to the users of the node. -/
def eventOf (l q : Bytes) : Message → Option Event
  | .answer id a => some (.answer id a)
  | .custom d => some (.custom l q d)
  | .query id d => some (.query l q id d)
  | _ => none

def isPart : Message → Bool
  | .part _ _ _ _ => true
  | _ => false

/-- Reasons for which processing stops after a message: its subscriber fails, the answer cannot be sent, a
channel message has an invalid key or comes from an unknown peer, or the message is of an unused kind. -/
def Fails (o : Opts c) (ul : Bool) (now : Nat) (subs : Event → Reply) (l q : Bytes) (prio : Bool)
    (rand : Nat → Sender.Rand c) (s : State c) : Message → Prop
  | .answer _ _ => False
  | .nop => False
  | .custom d => subs (.custom l q d) = .failed
  | .query id d => subs (.query l q id d) = .failed ∨
      ∃ a e, subs (.query l q id d) = .answer a ∧
        Sender.sendMessage o ul now s l q (.answer id a) prio rand = .error e
  | .createChannel key _ => c.decodePub key = none ∨ s.peer l q = none
  | .confirmChannel key _ _ => c.decodePub key = none ∨ s.peer l q = none
  | .reinit _ => True
  | .part _ _ _ _ => True

/-! ### Proofs -/

theorem channelMessage_ok (s : State c) (l q key : Bytes) (date : Nat) (x : Ctx) :
    (channelMessage s l q key date x).2 = false ↔ c.decodePub key = none ∨ s.peer l q = none := by
  unfold channelMessage
  cases c.decodePub key with
  | none => simp
  | some pub =>
    unfold createChannel State.peer
    cases s.peers.get l with
    | none => simp
    | some t =>
      simp only
      cases t.get q with
      | none => simp
      | some p =>
        simp only
        cases s.byPeer.get q with
        | none => simp
        | some r =>
          simp only
          cases s.heap.get r with
          | none => simp
          | some old => by_cases hv : old.stillValid (c.pubBytes pub) date = true <;> simp [hv]

theorem processWhole_result (o : Opts c) (ul : Bool) (now : Nat) (subs : Event → Reply) (s : Full c)
    (l q : Bytes) (prio : Bool) (rand : Nat → Sender.Rand c) (m : Message) :
    (processWhole o ul now subs s l q prio rand m).2.events = (eventOf l q m).toList ∧
    ((processWhole o ul now subs s l q prio rand m).2.ok = false ↔
      Fails o ul now subs l q prio rand s.node m) := by
  cases m with
  | answer id a => exact ⟨rfl, by simp [processWhole, Fails]⟩
  | nop => exact ⟨rfl, by simp [processWhole, Fails]⟩
  | reinit d => exact ⟨rfl, by simp [processWhole, Fails]⟩
  | part h t f d => exact ⟨rfl, by simp [processWhole, Fails]⟩
  | createChannel key date => exact ⟨rfl, channelMessage_ok _ _ _ _ _ _⟩
  | confirmChannel key pk date => exact ⟨rfl, channelMessage_ok _ _ _ _ _ _⟩
  | custom d =>
    simp only [processWhole, Fails, eventOf]
    cases subs (.custom l q d) <;> simp
  | query id d =>
    simp only [processWhole, Fails, eventOf]
    cases subs (.query l q id d) with
    | failed => simp
    | done => simp
    | answer a =>
      simp only
      cases hs : Sender.sendMessage o ul now s.node l q (.answer id a) prio rand with
      | error e => simp [hs]
      | ok r => simp [hs]

theorem processMessage_whole (o : Opts c) (ul : Bool) (now : Nat) (subs : Event → Reply) (s : Full c)
    (l q : Bytes) (prio : Bool) (rand : Nat → Sender.Rand c) (m : Message) (h : isPart m = false) :
    processMessage o ul now subs s l q prio rand m = processWhole o ul now subs s l q prio rand m := by
  cases m <;> first | rfl | cases h

/-- C71: the users of the node see the messages of an accepted packet one after the other, each once,
under the ids of the packet and with the query id in the message, up to and including the first message
that fails; if none fails they see all of them. (Packets without parts; for parts see below.) -/
theorem C71_in_order (o : Opts c) (ul : Bool) (now : Nat) (subs : Event → Reply) (l q : Bytes)
    (prio : Bool) (rand : Nat → Sender.Rand c) (s : Full c) (ms : List Message)
    (hw : ∀ m ∈ ms, isPart m = false) :
    let r := processAll o ul now subs l q prio rand s ms
    (r.2.ok = true ∧ r.2.events = ms.filterMap (eventOf l q)) ∨
    ∃ pre m post, ms = pre ++ m :: post ∧ r.2.ok = false ∧
      (processAll o ul now subs l q prio rand s pre).2.ok = true ∧
      r.2.events = (pre ++ [m]).filterMap (eventOf l q) ∧
      Fails o ul now subs l q prio
        (fun k => rand ((processAll o ul now subs l q prio rand s pre).2.sent.length + k))
        (processAll o ul now subs l q prio rand s pre).1.node m := by
  induction ms generalizing s rand with
  | nil => exact .inl ⟨rfl, rfl⟩
  | cons m ms ih =>
    have hm := processMessage_whole o ul now subs s l q prio rand m (hw m (by simp))
    obtain ⟨hev, hok⟩ := processWhole_result o ul now subs s l q prio rand m
    rw [← hm] at hev hok
    simp only [processAll]
    by_cases h : (processMessage o ul now subs s l q prio rand m).2.ok = true
    · simp only [h, if_true]
      have := ih (fun k => rand ((processMessage o ul now subs s l q prio rand m).2.sent.length + k))
        (processMessage o ul now subs s l q prio rand m).1 (fun x hx => hw x (by simp [hx]))
      rcases this with ⟨a, b⟩ | ⟨pre, x, post, a1, a2, a3, a4, a5⟩
      · refine .inl ⟨a, ?_⟩
        rw [b, hev]
        cases he : eventOf l q m <;> simp [he]
      · refine .inr ⟨m :: pre, x, post, by rw [a1]; rfl, a2, ?_, ?_, ?_⟩
        · simp only [processAll, h, if_true]; exact a3
        · rw [a4, hev]
          cases he : eventOf l q m <;> simp [he]
        · simp only [processAll, h, if_true]
          simp only [List.length_append, Nat.add_assoc]
          exact a5
    · simp only [h]
      have h' : (processMessage o ul now subs s l q prio rand m).2.ok = false := by simpa using h
      refine .inr ⟨[], m, ms, rfl, h', rfl, ?_, ?_⟩
      · simp only [Bool.false_eq_true, if_false]
        rw [hev]
        cases he : eventOf l q m <;> simp [he]
      · simp only [processAll, List.length_nil, Nat.zero_add]
        exact hok.mp h'

/-- C71: nothing reaches the users of the node unless the datagram was accepted, and everything that does
is a message of the packet under its ids, or a message put together from parts, the last of which is in the
packet, whose bytes have the hash named in that part. -/
theorem C71_events_come_from_the_packet (o : Opts c) (ul : Bool) (now : Nat) (subs : Event → Reply)
    (s : Full c) (data : Bytes) (key : c.Sec) (rand : Nat → Sender.Rand c) (e : Event)
    (he : e ∈ (receive o ul now subs s data key rand).2.events) :
    ∃ l q prio ms, (Receiver.handle o ul now s.node data key rand).2.1 = .accepted l q prio ms ∧
      ((∃ m ∈ ms, eventOf l q m = some e) ∨
        ∃ hash total offset d buf m rest, Message.part hash total offset d ∈ ms ∧ c.sha buf = hash ∧
          readMessage buf = some (m, rest) ∧ eventOf l q m = some e) := by
  unfold receive at he
  cases hh : Receiver.handle o ul now s.node data key rand with
  | mk n z =>
    obtain ⟨w, out⟩ := z
    rw [hh] at he
    cases w with
    | accepted l q prio ms =>
      refine ⟨l, q, prio, ms, rfl, ?_⟩
      simp only at he
      clear hh
      generalize ({ s with node := n } : Full c) = s at he
      generalize (fun k => rand (out.length + k)) = rand at he
      induction ms generalizing s rand with
      | nil => cases he
      | cons m ms ih =>
        have lift : ∀ (X : Message → Prop), (∃ x ∈ ms, X x) → ∃ x ∈ m :: ms, X x :=
          fun X ⟨x, hx, h⟩ => ⟨x, by simp [hx], h⟩
        have here : e ∈ (processMessage o ul now subs s l q prio rand m).2.events →
            ((∃ x ∈ m :: ms, eventOf l q x = some e) ∨
              ∃ hash total offset d buf x rest, Message.part hash total offset d ∈ m :: ms ∧
                c.sha buf = hash ∧ readMessage buf = some (x, rest) ∧ eventOf l q x = some e) := by
          intro hm
          have one : ∀ (s : Full c) (x : Message),
              e ∈ (processWhole o ul now subs s l q prio rand x).2.events → eventOf l q x = some e := by
            intro s x hx
            rw [(processWhole_result o ul now subs s l q prio rand x).1] at hx
            simpa using hx
          cases m with
          | part hash total offset d =>
            simp only [processMessage] at hm
            cases hr : Transfer.recvPart c.sha s.transfers ⟨hash, total, offset, d⟩ with
            | mk t res =>
              rw [hr] at hm
              cases res with
              | some buf =>
                simp only at hm
                cases hrd : readMessage buf with
                | none => rw [hrd] at hm; cases hm
                | some y =>
                  obtain ⟨x, rest⟩ := y
                  rw [hrd] at hm
                  refine .inr ⟨hash, total, offset, d, buf, x, rest, by simp, ?_, hrd, one _ _ hm⟩
                  have := Props.C05_receiver_integrity c.sha s.transfers ⟨hash, total, offset, d⟩ buf
                    (by rw [hr])
                  exact this
              | _ => cases hm
          | _ => exact .inl ⟨_, by simp, one s _ hm⟩
        simp only [processAll] at he
        split at he
        · simp only [List.mem_append] at he
          rcases he with he | he
          · exact here he
          · rcases ih _ _ he with h | ⟨hash, total, offset, d, buf, x, rest, h1, h2⟩
            · exact .inl (lift _ h)
            · exact .inr ⟨hash, total, offset, d, buf, x, rest, by simp [h1], h2⟩
        · exact here he
    | _ => cases he

/-- C71: if a message of a packet fails, what it and the messages before it did stays done, and nothing of the
messages after it happens. -/
theorem C71_failure (o : Opts c) (ul : Bool) (now : Nat) (subs : Event → Reply) (l q : Bytes)
    (prio : Bool) (rand : Nat → Sender.Rand c) (s s₁ s₂ : Full c) (r₁ r₂ : Result) (pre post : List Message) (m : Message)
    (hpre : processAll o ul now subs l q prio rand s pre = (s₁, r₁)) (hok : r₁.ok = true)
    (hm : processMessage o ul now subs s₁ l q prio (fun k => rand (r₁.sent.length + k)) m = (s₂, r₂)) (hf : r₂.ok = false) :
    processAll o ul now subs l q prio rand s (pre ++ m :: post) =
      (s₂, ⟨r₁.events ++ r₂.events, r₁.sent ++ r₂.sent, false⟩) := by
  induction pre generalizing s rand r₁ with
  | nil =>
    cases hpre
    simp only [List.length_nil, Nat.zero_add] at hm
    simp only [List.nil_append, processAll, hm, hf, Bool.false_eq_true, if_false]
    rw [← hf]
  | cons x xs ih =>
    simp only [processAll] at hpre
    cases hx : processMessage o ul now subs s l q prio rand x with
    | mk sx rx =>
      rw [hx] at hpre
      simp only at hpre
      by_cases hxo : rx.ok = true
      · simp only [hxo, if_true] at hpre
        cases hxs : processAll o ul now subs l q prio (fun k => rand (rx.sent.length + k)) sx xs with
        | mk sy ry =>
          rw [hxs] at hpre
          cases hpre
          simp only [List.length_append, Nat.add_assoc] at hm
          have := ih _ _ _ hxs hok hm
          simp only [List.cons_append, processAll, hx, hxo, if_true, this, List.append_assoc]
      · simp only [hxo] at hpre
        cases hpre
        exact absurd hok hxo

/-- C71: of a datagram that is not accepted nothing reaches the users and no part is kept; what stays is what the
checks did to the tables of peers and channels, and their answer is sent. -/
theorem C71_refused (o : Opts c) (ul : Bool) (now : Nat) (subs : Event → Reply) (s : Full c) (data : Bytes)
    (key : c.Sec) (rand : Nat → Sender.Rand c)
    (h : ∀ l q prio ms, (Receiver.handle o ul now s.node data key rand).2.1 ≠ .accepted l q prio ms) :
    (receive o ul now subs s data key rand).1.node = (Receiver.handle o ul now s.node data key rand).1 ∧
    (receive o ul now subs s data key rand).1.transfers = s.transfers ∧
    (receive o ul now subs s data key rand).2.events = [] ∧
    (receive o ul now subs s data key rand).2.sent = (Receiver.handle o ul now s.node data key rand).2.2 := by
  unfold receive
  cases hh : Receiver.handle o ul now s.node data key rand with
  | mk n z =>
    obtain ⟨w, out⟩ := z
    rw [hh] at h
    cases w with
    | accepted l q prio ms => exact absurd rfl (h l q prio ms)
    | _ => exact ⟨rfl, rfl, rfl, rfl⟩

/-- C16, for the processing of messages: a confirmation from a known peer leaves a ready channel to it. -/
theorem C16_confirmation_makes_ready (o : Opts c) (ul : Bool) (now : Nat) (subs : Event → Reply)
    (s : Full c) (hg : Good s.node) (l q : Bytes) (prio : Bool) (rand : Nat → Sender.Rand c) (key pk : Bytes)
    (date : Nat) (pub : c.Pub) (hk : c.decodePub key = some pub) (p : Peer c)
    (hp : s.node.peer l q = some p) :
    ∃ ch, (processMessage o ul now subs s l q prio rand (.confirmChannel key pk date)).1.node.channel q =
      some ch ∧ ch.ready = true := by
  have e : (processMessage o ul now subs s l q prio rand (.confirmChannel key pk date)).1.node =
      (createChannel s.node l q pub date .confirm).1 := by
    simp only [processMessage, processWhole, channelMessage, hk]
    cases createChannel s.node l q pub date .confirm with
    | mk s' r => cases r <;> rfl
  rw [e]
  cases hold : s.node.channel q with
  | none => exact ⟨_, Establish.createChannel_first hg hp hold, rfl⟩
  | some old =>
    obtain ⟨r, h1, h2⟩ := Establish.channel_of hold
    rcases (Establish.C16_replaced_only_by_newer hg l q pub date .confirm old hold).1 with
      g | ⟨-, -, g⟩ | ⟨-, -, p0, -, g⟩
    · by_cases hv : old.stillValid (c.pubBytes pub) date = true
      · refine ⟨old, g, ?_⟩
        have : (createChannel s.node l q pub date .confirm).1.channel q = some { old with ready := true } := by
          unfold State.peer at hp
          unfold createChannel
          cases hl : s.node.peers.get l with
          | none => rw [hl] at hp; cases hp
          | some t =>
            rw [hl] at hp
            simp only at hp
            simp only [hp, h1, h2, hv, if_true]
            simp [State.channel, State.setReady, h1, h2]
        rw [g] at this
        simp only [Option.some.injEq] at this
        rw [this]
      · exfalso
        have hd : (createChannel s.node l q pub date .confirm).1.channel q =
            some (Channel.new c l q p.channelKey pub date .confirm) := by
          unfold State.peer at hp
          unfold createChannel
          cases hl : s.node.peers.get l with
          | none => rw [hl] at hp; cases hp
          | some t =>
            rw [hl] at hp
            simp only at hp
            simp only [hp, h1, h2, hv]
            simp [State.channel, insertChannel]
        rw [g] at hd
        cases hd
        exact hv (by simp [Channel.stillValid, Channel.new])
    · exact ⟨_, g, rfl⟩
    · exact ⟨_, g, rfl⟩

/-- C16: a request from a known peer with which there is no channel makes one which is not ready. -/
theorem C16_request_makes_channel (o : Opts c) (ul : Bool) (now : Nat) (subs : Event → Reply)
    (s : Full c) (hg : Good s.node) (l q : Bytes) (prio : Bool) (rand : Nat → Sender.Rand c) (key : Bytes)
    (date : Nat) (pub : c.Pub) (hk : c.decodePub key = some pub) (p : Peer c)
    (hp : s.node.peer l q = some p) (hn : s.node.channel q = none) :
    ∃ ch, (processMessage o ul now subs s l q prio rand (.createChannel key date)).1.node.channel q =
      some ch ∧ ch.ready = false ∧ ch.peerKey = c.pubBytes pub ∧ ch.peerDate = date := by
  have e : (processMessage o ul now subs s l q prio rand (.createChannel key date)).1.node =
      (createChannel s.node l q pub date .create).1 := by
    simp only [processMessage, processWhole, channelMessage, hk]
    cases createChannel s.node l q pub date .create with
    | mk s' r => cases r <;> rfl
  rw [e]
  exact ⟨_, Establish.createChannel_first hg hp hn, rfl, rfl, rfl⟩

/-- Both hypotheses are met by the toy node, which has a peer and no channel. -/
example : (Sender.toyState.peer (List.replicate 32 1) (List.replicate 32 2)).isSome = true ∧
    (Sender.toyState.channel (List.replicate 32 2)).isNone = true ∧
    (Crypto.toy.decodePub (leBytes 32 9)).isSome = true ∧ Good Sender.toyState := by
  refine ⟨by decide, by decide, by decide, ?_⟩
  exact { live := by intro _ _ h; cases h
          bound := by intro _ _ h; cases h
          listed := by intro _ _ _ h; cases h }

/-- A node with a peer gets a channel request, a query that is answered, a custom message that fails, and
an answer: the first three are processed. -/
example : (processAll Sender.toyOpts false 200 (fun e => match e with | .custom _ _ _ => .failed | _ => .answer [7])
      (List.replicate 32 1) (List.replicate 32 2) false Sender.toyRand ⟨Sender.toyState, []⟩
      [.createChannel (leBytes 32 9) 5, .query [1] [2], .custom [3], .answer [4] [5]]).2.events =
    [.query (List.replicate 32 1) (List.replicate 32 2) [1] [2],
      .custom (List.replicate 32 1) (List.replicate 32 2) [3]] := by decide +kernel

/-- The forged packet of `Props/Attribution.lean` causes an event. -/
example : (receive Sender.toyOpts false 200 (fun _ => .done) ⟨Sender.toyState, []⟩ Receiver.forgedPacket
      (13 : UInt8) Sender.toyRand).2.events =
    [.custom (List.replicate 32 1) (List.replicate 32 2) [1, 2, 3, 4]] := by decide +kernel

-- C71_in_order, C71_events_come_from_the_packet, C16_confirmation_makes_ready
example := C71_in_order Sender.toyOpts false 200 (fun e => match e with | .custom _ _ _ => .failed | _ => .answer [7])
  (List.replicate 32 1) (List.replicate 32 2) false Sender.toyRand ⟨Sender.toyState, []⟩
  [.createChannel (leBytes 32 9) 5, .query [1] [2], .custom [3], .answer [4] [5]] (by decide)
example := C71_events_come_from_the_packet Sender.toyOpts false 200 (fun _ => .done) ⟨Sender.toyState, []⟩
  Receiver.forgedPacket (13 : UInt8) Sender.toyRand (.custom (List.replicate 32 1) (List.replicate 32 2) [1, 2, 3, 4])
  (by decide +kernel)
example (p : Peer Crypto.toy) (pub : Crypto.toy.Pub) (hk : Crypto.toy.decodePub (leBytes 32 9) = some pub)
    (hp : Sender.toyState.peer (List.replicate 32 1) (List.replicate 32 2) = some p) :=
  C16_confirmation_makes_ready Sender.toyOpts false 200 (fun _ => .done) ⟨Sender.toyState, []⟩
    ⟨(by intro _ _ h; cases h), (by intro _ _ h; cases h), (by intro _ _ _ h; cases h)⟩ (List.replicate 32 1) (List.replicate 32 2)
    false Sender.toyRand (leBytes 32 9) (leBytes 32 8) 5 pub hk p hp

-- C71_failure: a custom message whose subscriber fails, after a channel request
example (s₁ s₂ : Full Crypto.toy) (r₁ r₂ : Result) (hpre : processAll Sender.toyOpts false 200 (fun _ => .failed)
      (List.replicate 32 1) (List.replicate 32 2) false Sender.toyRand ⟨Sender.toyState, []⟩ [.createChannel (leBytes 32 9) 5] =
      (s₁, r₁)) (hm : processMessage Sender.toyOpts false 200 (fun _ => .failed) s₁ (List.replicate 32 1) (List.replicate 32 2)
      false (fun k => Sender.toyRand (r₁.sent.length + k)) (.custom [3]) = (s₂, r₂)) :=
  C71_failure Sender.toyOpts false 200 (fun _ => .failed) (List.replicate 32 1) (List.replicate 32 2) false Sender.toyRand
    ⟨Sender.toyState, []⟩ s₁ s₂ r₁ r₂ [.createChannel (leBytes 32 9) 5] [.nop] (.custom [3]) hpre
    (by cases hpre; decide +kernel) hm (by cases hpre; cases hm; decide +kernel)

-- C71_refused: a datagram of no bytes
example := C71_refused Sender.toyOpts false 200 (fun _ => .done) ⟨Sender.toyState, []⟩ [] (13 : UInt8) Sender.toyRand
  (by intro l q prio ms h; cases h)

end Verif.Process
