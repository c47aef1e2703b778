import Verif.Props.RoundTrip
import Verif.Proofs.Lane

/-!
# C111: messages of any length between two honest nodes, end to end

The system of C72 without its limit on the length of messages: `send_message` cuts long ones into parts, every
part travels in a packet of its own, and the receiver puts them together (receiver.rs:188-256).
-/
namespace Verif.LongTrip
open Verif.Tl Verif.Adnl Verif.AdnlProto Verif.Address Verif.Node Verif.Receiver Verif.Sender Verif.Props
open Verif.Process Verif.Delivery Verif.RoundTrip
open Verif.Establish (upd upd_self upd_not upd_not' Expected)

variable {c : Crypto}

/-! ### Sending several packets -/

theorem put_put {κ ν : Type} [DecidableEq κ] (m : AMap κ ν) (k : κ) (v v' : ν) : (m.put k v).put k v' = m.put k v' := by
  simp [AMap.put, AMap.erase, List.filter_filter]

theorem setPeer_setPeer (s : State c) (l q : Bytes) (p p' : Peer c) :
    (s.setPeer l q p).setPeer l q p' = s.setPeer l q p' := by
  unfold State.setPeer
  cases h : s.peers.get l with
  | none => simp only [h]
  | some t => simp only [AMap.get_put_self, put_put]

/-- No datagram looks like a versioned one by accident, under the key it was sent with. -/
def Clean (P : Pair c) (b : Bool) (signer : Signer c) (rand : Nat → Rand c) (ds : List Bytes) : Prop :=
  ∀ k d, ds[k]? = some d → ∀ p, VersionFits (P.opts b).version (Accident P b p (rand k) d signer)

theorem sendAll_ok {P : Pair c} {b : Bool} {now : Nat} (htime : now + (P.opts b).addressListTimeout < 2 ^ 32)
    (signer : Signer c) : ∀ (outs : List OutMessages) (p : Peer c) (rand : Nat → Rand c), ∃ p' ds,
      sendAll (P.opts b) (P.loop b) now (P.id !b) signer p outs rand = .ok (p', ds) ∧ ds.length = outs.length := by
  intro outs
  induction outs with
  | nil => exact fun p rand => ⟨p, [], rfl, rfl⟩
  | cons x xs ih =>
    intro p rand
    obtain ⟨p1, d, hsend⟩ : ∃ p' d, sendPacket (P.opts b) (P.loop b) now (P.id !b) p signer x (rand 0) = .ok (p', d) := by
      unfold sendPacket
      rw [addU32_eq _ htime]
      cases signer <;> exact ⟨_, _, rfl⟩
    obtain ⟨p', ds, h1, h2⟩ := ih p1 (fun k => rand (k + 1))
    refine ⟨p', d :: ds, ?_, by simp [h2]⟩
    rw [sendAll, hsend]
    simp only []
    rw [h1]

theorem send_list {P : Pair c} (b : Bool) (now : Nat)
    (htime : now + (P.opts b).addressListTimeout < 2 ^ 32) (signer : Signer c) :
    ∀ (x : OutMessages × List Message) (xs : List (OutMessages × List Message)) (σ : Sys c) (p : Peer c)
      (rand : Nat → Rand c), Reachable P σ → (σ.node b).peer (P.id b) (P.id !b) = some p → SignerFits P σ b signer →
      (∀ y ∈ x :: xs, Carries y.1 y.2 ∧ (rawOf y.1).length ≤ 60000 ∧
        ∀ m ∈ y.2, Honest P b ((σ.node b).channel (P.id !b) ≠ none) m) →
      (∀ k, (rand k).bytes.length = 10) → (∀ prio, p.sendSeqno prio + (x :: xs).length < 2 ^ 64) →
      ∃ p' ds, sendAll (P.opts b) (P.loop b) now (P.id !b) signer p ((x :: xs).map (·.1)) rand = .ok (p', ds) ∧
        ds.length = (x :: xs).length ∧
        (Clean P b signer rand ds → ∃ gs, Reachable P { σ with
            node := upd σ.node b ((σ.node b).setPeer (P.id b) (P.id !b) p')
            net := upd σ.net b (σ.net b ++ gs) } ∧
          gs.map (·.data) = ds ∧ (∀ g ∈ gs, g.sentAt = now) ∧ gs.map (·.ms) = (x :: xs).map (·.2)) := by
  intro x xs
  induction xs generalizing x with
  | nil =>
    intro σ p rand hr hp hs hx hb hn
    obtain ⟨h1, h2, h3⟩ := hx x (by simp)
    obtain ⟨p', d, hsend⟩ : ∃ p' d, sendPacket (P.opts b) (P.loop b) now (P.id !b) p signer x.1 (rand 0) = .ok (p', d) := by
      unfold sendPacket
      rw [addU32_eq _ htime]
      cases signer <;> exact ⟨_, _, rfl⟩
    refine ⟨p', [d], ?_, rfl, ?_⟩
    · simp only [List.map_cons, List.map_nil, sendAll, hsend]
    · intro hcl
      have hst := Step.send σ b now p p' signer x.1 x.2 (rand 0) d hp hs h1 h2 h3 (hb 0) htime (hn _) hsend (hcl 0 d rfl p)
      exact ⟨_, .step _ _ hr hst, rfl, by simp, rfl⟩
  | cons y ys ih =>
    intro σ p rand hr hp hs hx hb hn
    obtain ⟨h1, h2, h3⟩ := hx x (by simp)
    obtain ⟨p1, d, hsend⟩ : ∃ p' d, sendPacket (P.opts b) (P.loop b) now (P.id !b) p signer x.1 (rand 0) = .ok (p', d) := by
      unfold sendPacket
      rw [addU32_eq _ htime]
      cases signer <;> exact ⟨_, _, rfl⟩
    have hrec := sendPacket_rec hsend
    have hn1 : ∀ prio, p1.sendSeqno prio + (y :: ys).length < 2 ^ 64 := by
      intro prio
      have h5 := hn prio
      have h6 : p1.sendSeqno prio ≤ p.sendSeqno prio + 1 := by
        rw [hrec]
        cases prioOf p signer <;> cases prio <;> simp [Peer.setSendSeqno, Peer.sendSeqno]
      simp only [List.length_cons] at h5 ⊢
      omega
    have htab : ∃ t, (σ.node b).peers.get (P.id b) = some t := by
      unfold State.peer at hp
      cases ht : (σ.node b).peers.get (P.id b) with
      | none => rw [ht] at hp; cases hp
      | some t => exact ⟨t, rfl⟩
    obtain ⟨t, ht⟩ := htab
    have hpeer1 : ((σ.node b).setPeer (P.id b) (P.id !b) p1).peer (P.id b) (P.id !b) = some p1 := by
      simp [State.setPeer, State.peer, ht]
    have hch1 : ((σ.node b).setPeer (P.id b) (P.id !b) p1).channel (P.id !b) = (σ.node b).channel (P.id !b) := by
      simp [State.setPeer, State.channel, ht]
    -- the rest, from the state after the first packet if it is sent
    obtain ⟨p', ds, h7, h8⟩ : ∃ p' ds, sendAll (P.opts b) (P.loop b) now (P.id !b) signer p1 ((y :: ys).map (·.1))
        (fun k => rand (k + 1)) = .ok (p', ds) ∧ ds.length = (y :: ys).length := by
      obtain ⟨p', ds, e1, e2⟩ := sendAll_ok htime signer ((y :: ys).map (·.1)) p1 (fun k => rand (k + 1))
      exact ⟨p', ds, e1, by rw [e2, List.length_map]⟩
    refine ⟨p', d :: ds, ?_, by simp [h8], ?_⟩
    · rw [List.map_cons, sendAll, hsend]
      simp only []
      rw [h7]
    · intro hcl
      have hst := Step.send σ b now p p1 signer x.1 x.2 (rand 0) d hp hs h1 h2 h3 (hb 0) htime
        (by have := hn (prioOf p signer); simp only [List.length_cons] at this; omega) hsend (hcl 0 d rfl p)
      obtain ⟨p2, ds2, e1, -, e3⟩ := ih y _ p1 (fun k => rand (k + 1)) (.step _ _ hr hst) (by simp only [upd_self]; exact hpeer1)
        (by
          cases signer with
          | random k => exact hs
          | channel ch prio =>
            simp only [SignerFits, upd_self, hch1]
            exact hs)
        (by
          intro z hz
          simp only [upd_self, hch1]
          exact hx z (List.mem_cons_of_mem _ hz))
        (fun k => hb _) hn1
      rw [h7] at e1
      cases e1
      obtain ⟨gs, f1, f2, f3, f4⟩ := e3 (fun k d' hd' => hcl (k + 1) d' (by simpa using hd'))
      refine ⟨⟨d, now, x.2, prioOf p signer, p.sendSeqno (prioOf p signer) + 1, isChannel signer, P.target b p⟩ :: gs,
        ?_, ?_, ?_, ?_⟩
      · simp only [upd_self, setPeer_setPeer, List.append_assoc, List.singleton_append] at f1
        have e1 : upd (upd σ.node b ((σ.node b).setPeer (P.id b) (P.id !b) p1)) b
            ((σ.node b).setPeer (P.id b) (P.id !b) p') = upd σ.node b ((σ.node b).setPeer (P.id b) (P.id !b) p') := by
          funext b'
          rcases bool_cases b b' with rfl | rfl <;> simp
        have e2 : ∀ z w : List Gram, upd (upd σ.net b z) b w = upd σ.net b w := by
          intro z w
          funext b'
          rcases bool_cases b b' with rfl | rfl <;> simp
        rw [e1, e2] at f1
        exact f1
      · rw [List.map_cons, f2]
      · intro g hg
        rcases List.mem_cons.mp hg with rfl | hg
        · rfl
        · exact f3 g hg
      · simp only [List.map_cons] at f4 ⊢
        rw [f4]

/-! ### The system -/

/-- Messages users can ask a node to send (`query`, `send_custom_message`). -/
def User : Message → Prop
  | .query id d => Whole (.query id d)
  | .custom d => Whole (.custom d)
  | _ => False

/-- Size of the channel message sent along (sender.rs:79-104): none once the channel is ready. -/
def attached : Option Channel → Option Nat
  | none => some 40
  | some ch => if ch.ready then none else some 72

/-- Two nodes; the datagrams each has sent with the time (oldest first), which of them have arrived, the messages
their users asked for, everything they sent (messages of users and answers, with the size of the channel message
sent along), for each datagram which of these messages it belongs to, and what subscribers and queries of each side
got to see about the other side, with the reaction. -/
structure Talk (c : Crypto) where
  node : Bool → Full c
  net : Bool → List (Nat × Bytes)
  seen : Bool → List Nat
  told : Bool → List Message
  sends : Bool → List (Message × Option Nat)
  src : Bool → List Nat
  log : Bool → List (Event × Reply)

/-- Clocks and counters are within their types, with room for any number of packets a message may need. -/
structure Able (P : Pair c) (b : Bool) (s : State c) (now : Nat) (rand : Nat → Rand c) : Prop where
  bytes : ∀ k, (rand k).bytes.length = 10
  time : now + (P.opts b).addressListTimeout < 2 ^ 32
  count : ∀ p prio, s.peer (P.id b) (P.id !b) = some p → p.sendSeqno prio < 2 ^ 63

/-- Version 0 is used, or none and no datagram looks like a versioned one by accident. -/
def NoAccidents (P : Pair c) (b : Bool) (s : State c) (prio : Bool) (rand : Nat → Rand c) (ds : List Bytes) : Prop :=
  Clean P b (signerOf (P.sec b) prio (s.channel (P.id !b))) rand ds

/-- The answer to a query, if the subscribers give one. -/
def answerTo (subs : Event → Reply) : Event → Option Message
  | .query l q id d =>
    match subs (.query l q id d) with
    | .answer a => some (.answer id a)
    | _ => none
  | _ => none

/-- Datagram `i` of side `b` arrives and is processed; `subs` is how the subscribers react, `f` the node and
`r` the result. The clock fits and the datagram is not older than its address list; answers are among the
messages `M`. -/
structure Comes (P : Pair c) (M : Message → Prop) (ρ : Talk c) (b : Bool) (i now : Nat) (subs : Event → Reply)
    (key : c.Sec) (rand : Nat → Rand c) (t : Nat) (d : Bytes) (f : Full c) (r : Result) : Prop where
  sent : (ρ.net b)[i]? = some (t, d)
  clock : now + (P.opts !b).clockTolerance < 2 ^ 32
  started : (P.opts b).startTime ≤ now + (P.opts !b).clockTolerance
  recent : now ≤ t + (P.opts b).addressListTimeout
  mine : ∀ l q id x a, id.length = 32 → subs (.query l q id x) = .answer a → a.length < 2 ^ 24 ∧ M (.answer id a)
  able : ∀ e a, subs e = .answer a → Able P (!b) (arrive (P.opts !b) (P.loop !b) now (ρ.node !b).node d key rand) now rand
  result : receive (P.opts !b) (P.loop !b) now subs (ρ.node !b) d key rand = (f, r)
  clean : ∀ prio, NoAccidents P (!b) (arrive (P.opts !b) (P.loop !b) now (ρ.node !b).node d key rand) prio rand r.sent

/-- The state after `send_message`. -/
def told (P : Pair c) (ρ : Talk c) (b : Bool) (now : Nat) (m : Message) (p' : Peer c) (ds : List Bytes) : Talk c :=
  { ρ with
    node := upd ρ.node b ⟨(ρ.node b).node.setPeer (P.id b) (P.id !b) p', (ρ.node b).transfers⟩
    net := upd ρ.net b (ρ.net b ++ ds.map (now, ·))
    told := upd ρ.told b (m :: ρ.told b)
    sends := upd ρ.sends b (ρ.sends b ++ [(m, attached ((ρ.node b).node.channel (P.id !b)))])
    src := upd ρ.src b (ρ.src b ++ List.replicate ds.length (ρ.sends b).length) }

/-- The state after an arrival. -/
def come (P : Pair c) (ρ : Talk c) (b : Bool) (i now : Nat) (subs : Event → Reply) (key : c.Sec) (rand : Nat → Rand c)
    (d : Bytes) (f : Full c) (r : Result) : Talk c :=
  { ρ with
    node := upd ρ.node (!b) f
    net := upd ρ.net (!b) (ρ.net (!b) ++ r.sent.map (now, ·))
    seen := upd ρ.seen b (i :: ρ.seen b)
    sends := upd ρ.sends (!b) (ρ.sends (!b) ++ (r.events.filterMap (answerTo subs)).map fun m =>
      (m, attached ((arrive (P.opts !b) (P.loop !b) now (ρ.node !b).node d key rand).channel (P.id b))))
    src := upd ρ.src (!b) (ρ.src (!b) ++ List.replicate r.sent.length (ρ.sends (!b)).length)
    log := upd ρ.log (!b) (ρ.log (!b) ++ r.events.map fun e => (e, subs e)) }

/-- `M` are the messages the two sides send each other; nobody else uses their hashes for transfers. The transfers
of the messages `G` may be given up (receiver.rs:217-225). -/
inductive TStep (P : Pair c) (M G : Message → Prop) : Talk c → Talk c → Prop
  /-- the users of side `b` send a message -/
  | tell (ρ : Talk c) (b : Bool) (now : Nat) (m : Message) (prio : Bool) (rand : Nat → Rand c)
      (p' : Peer c) (ds : List Bytes) :
      User m → M m → Able P b (ρ.node b).node now rand →
      sendMessage (P.opts b) (P.loop b) now (ρ.node b).node (P.id b) (P.id !b) m prio rand = .ok (p', ds) →
      NoAccidents P b (ρ.node b).node prio rand ds →
      TStep P M G ρ (told P ρ b now m p' ds)
  /-- a datagram of side `b` arrives, perhaps again -/
  | deliver (ρ : Talk c) (b : Bool) (i now : Nat) (subs : Event → Reply) (key : c.Sec) (rand : Nat → Rand c)
      (t : Nat) (d : Bytes) (f : Full c) (r : Result) :
      Comes P M ρ b i now subs key rand t d f r → TStep P M G ρ (come P ρ b i now subs key rand d f r)
  /-- something else happens at side `b`: it leaves the record and the channel of the other side alone; transfers
  may be given up, but nobody else adds parts to those of the messages `M` -/
  | other (ρ : Talk c) (b : Bool) (f : Full c) : Undisturbed P b (ρ.node b).node f.node →
      (∀ m, M m → f.transfers.get (c.sha (writeMessage m)) = (ρ.node b).transfers.get (c.sha (writeMessage m)) ∨
        (G m ∧ f.transfers.get (c.sha (writeMessage m)) = none)) →
      TStep P M G ρ { ρ with node := upd ρ.node b f }

/-- Start as in C70, with no transfers of the messages `M`. -/
structure TStart (P : Pair c) (M : Message → Prop) (ρ : Talk c) : Prop where
  sys : Start P ⟨fun b => (ρ.node b).node, fun _ => [], fun _ => []⟩
  net : ∀ b, ρ.net b = [] ∧ ρ.seen b = [] ∧ ρ.src b = [] ∧ ρ.sends b = []
  log : ∀ b, ρ.log b = []
  transfers : ∀ b m, M m → (ρ.node b).transfers.get (c.sha (writeMessage m)) = none

inductive Goes (P : Pair c) (M G : Message → Prop) : Talk c → Talk c → Prop
  | refl (ρ : Talk c) : Goes P M G ρ ρ
  | step (ρ₁ ρ₂ ρ₃ : Talk c) : Goes P M G ρ₁ ρ₂ → TStep P M G ρ₂ ρ₃ → Goes P M G ρ₁ ρ₃

/-! ### What a packet carries -/

/-- The packets of a message (sender.rs:124-202). -/
theorem packets_carry (sha : Bytes → Bytes) (hsha : ∀ d, (sha d).length = 32) (A : Option (Nat × Message)) (m : Message)
    (hm : Whole m) (hA : ∀ x, A = some x → x.1 ∈ [40, 72] ∧ x.2.wf ∧ (writeMessage x.2).length = x.1) :
    ∃ x xs, packets sha A m (counted m) = (x :: xs).map Prod.fst ∧ (x :: xs).length ≤ 2 ^ 26 ∧
      ((x :: xs).map fun (y : OutMessages × List Message) => y.2.getLast?) = (cargo sha (A.map (·.1)) m).map some ∧
      ∀ y ∈ x :: xs, Carries y.1 y.2 ∧ (rawOf y.1).length ≤ 60000 ∧ ∃ add z, y.2 = add ++ [z] ∧
        (∀ w ∈ add, ∃ a, A = some a ∧ w = a.2) ∧ (Whole z ∨ ∃ q, z = partMessage q) := by
  obtain ⟨hwf, hids, hsize, -⟩ := whole_wf hm
  obtain ⟨hne, hlen⟩ := whole_length hm
  have hraw := packets_le sha hsha A m (counted m) (writeMessage_le m _ hids hsize) (by
    intro a ha
    obtain ⟨h1, -, h3⟩ := hA a ha
    simp only [List.mem_cons, List.not_mem_nil, or_false] at h1
    exact ⟨h3, by omega⟩)
  by_cases hfit : (A.map (·.1)).getD 0 + counted m ≤ 1024
  · cases A with
    | none =>
      have hpk : packets sha none m (counted m) = [.single (writeMessage m)] := by
        unfold packets
        rw [if_pos hfit]
      refine ⟨(.single (writeMessage m), [m]), [], hpk, by simp, by unfold cargo; rw [if_pos hfit]; rfl, ?_⟩
      intro y hy
      rw [List.mem_singleton.mp hy]
      refine ⟨⟨m, rfl, rfl, hwf⟩, ?_, [], m, rfl, by simp, .inl hm⟩
      have := hraw (.single (writeMessage m)) (by rw [hpk]; simp)
      simp only; omega
    | some a =>
      have hpk : packets sha (some a) m (counted m) = [.pair (writeMessage a.2 ++ writeMessage m)] := by
        unfold packets
        rw [if_pos hfit]
      refine ⟨(.pair (writeMessage a.2 ++ writeMessage m), [a.2, m]), [], hpk, by simp, by unfold cargo; rw [if_pos hfit]; rfl, ?_⟩
      intro y hy
      rw [List.mem_singleton.mp hy]
      refine ⟨⟨a.2, m, rfl, rfl, (hA a rfl).2.1, hwf⟩, ?_, [a.2], m, rfl, ?_, .inl hm⟩
      · have := hraw (.pair (writeMessage a.2 ++ writeMessage m)) (by rw [hpk]; simp)
        simp only; omega
      · intro w hw
        exact ⟨a, rfl, List.mem_singleton.mp hw⟩
  · have ha : A.map (·.1) ∈ [none, some 40, some 72] := by
      cases A with
      | none => simp
      | some a =>
        have := (hA a rfl).1
        simp only [List.mem_cons, List.not_mem_nil, or_false] at this
        rcases this with h | h <;> simp [h]
    have hpieces := Transfer.split_pieces (writeMessage m) (sha (writeMessage m)) (by omega) hne (A.map (·.1))
      (firstPart_pos ha).2.2
    have hcount := Transfer.split_count (writeMessage m) (sha (writeMessage m)) (A.map (·.1))
    have hpwf : ∀ q ∈ Transfer.split (writeMessage m) (sha (writeMessage m)) (A.map (·.1)), (partMessage q).wf := by
      intro q hq
      obtain ⟨h1, h2, h3, h4, -⟩ := hpieces q hq
      have h5 : q.data.length ≤ 1024 := by
        revert hq
        cases A.map (·.1) with
        | none => exact fun hq => (splitLoop_data _ _ 0 q hq).1
        | some a =>
          intro hq
          rcases List.mem_cons.mp hq with rfl | hq
          · have := (buildPart_data (writeMessage m) (sha (writeMessage m)) (1024 - 40 - a) 0).1
            omega
          · exact (splitLoop_data _ _ _ q hq).1
      refine ⟨by rw [h1]; exact hsha _, by omega, by omega, by omega⟩
    cases hsp : Transfer.split (writeMessage m) (sha (writeMessage m)) (A.map (·.1)) with
    | nil => exact absurd hsp (Transfer.split_ne_nil _ _ _ hne)
    | cons first rest =>
      rw [hsp] at hcount hpwf
      have hpk : packets sha A m (counted m) = (match A with
          | some a => .pair (writeMessage a.2 ++ writeMessage (partMessage first))
          | none => .single (writeMessage (partMessage first))) ::
            rest.map fun q => .single (writeMessage (partMessage q)) := by
        unfold packets
        rw [if_neg hfit]
        simp only [hsp]
        cases A <;> rfl
      refine ⟨((match A with
          | some a => .pair (writeMessage a.2 ++ writeMessage (partMessage first))
          | none => .single (writeMessage (partMessage first))), (A.map (·.2)).toList ++ [partMessage first]),
        rest.map fun q => (.single (writeMessage (partMessage q)), [partMessage q]), ?_, ?_, ?_, ?_⟩
      · rw [hpk]
        simp
      · simp only [List.length_cons, List.length_map] at hcount ⊢
        omega
      · unfold cargo
        rw [if_neg hfit, hsp]
        simp [Function.comp_def]
      · intro y hy
        have hy1 : (rawOf y.1).length ≤ 60000 := by
          have : y.1 ∈ packets sha A m (counted m) := by
            rw [hpk]
            rcases List.mem_cons.mp hy with rfl | hy
            · simp
            · obtain ⟨q, hq, rfl⟩ := List.mem_map.mp hy
              exact List.mem_cons_of_mem _ (List.mem_map.mpr ⟨q, hq, rfl⟩)
          have := hraw _ this
          omega
        rcases List.mem_cons.mp hy with rfl | hy
        · refine ⟨?_, hy1, _, _, rfl, ?_, .inr ⟨first, rfl⟩⟩
          · cases A with
            | none => exact ⟨_, rfl, rfl, hpwf first (by simp)⟩
            | some a => exact ⟨_, _, rfl, rfl, (hA a rfl).2.1, hpwf first (by simp)⟩
          · intro w hw
            cases A with
            | none => simp at hw
            | some a => exact ⟨a, rfl, by simpa using hw⟩
        · obtain ⟨q, hq, rfl⟩ := List.mem_map.mp hy
          exact ⟨⟨_, rfl, rfl, hpwf q (List.mem_cons_of_mem _ hq)⟩, hy1, [], _, rfl, by simp,
            .inr ⟨q, rfl⟩⟩

/-- What a sent message becomes. -/
structure Sent (P : Pair c) (b : Bool) (a : Option Nat) (m : Message) (gs : List Gram) : Prop where
  carried : ∀ g ∈ gs, ∃ add x, g.ms = add ++ [x] ∧ ∀ y ∈ add, Extra P b y
  lasts : gs.map (·.ms.getLast?) = (cargo c.sha a m).map some

/-- `send_message` gives one or more datagrams, sent by send steps of C70. -/
theorem tell_any (hc : c.Lawful) {P : Pair c} (hP : P.Fits) {σ : Sys c} (hr : Reachable P σ) (b : Bool)
    (now : Nat) (m : Message) (hm : Whole m) (prio : Bool) (rand : Nat → Rand c)
    (hable : Able P b (σ.node b) now rand) :
    ∃ p' ds, sendMessage (P.opts b) (P.loop b) now (σ.node b) (P.id b) (P.id !b) m prio rand = .ok (p', ds) ∧
      ds ≠ [] ∧ ((attached ((σ.node b).channel (P.id !b))).getD 0 + counted m ≤ 1024 → ds.length = 1) ∧
      (NoAccidents P b (σ.node b) prio rand ds → ∃ gs, Reachable P { σ with
          node := upd σ.node b ((σ.node b).setPeer (P.id b) (P.id !b) p')
          net := upd σ.net b (σ.net b ++ gs) } ∧
        gs.map (fun g => (g.sentAt, g.data)) = ds.map (now, ·) ∧
        Sent P b (attached ((σ.node b).channel (P.id !b))) m gs) := by
  obtain ⟨pr, hinv⟩ := reachable_inv hc hP hr
  have hn := hinv.node b
  obtain ⟨hwf, hids, hsize, -⟩ := whole_wf hm
  have hp := hn.peer
  have hextra : ∀ a, additional now (pr b) ((σ.node b).channel (P.id !b)) = some a →
      a.1 ∈ [40, 72] ∧ a.2.wf ∧ (writeMessage a.2).length = a.1 ∧ Extra P b a.2 ∧
      Honest P b ((σ.node b).channel (P.id !b) ≠ none) a.2 := by
    intro a ha
    have hkey : (pr b).channelKey = P.chan b := hn.key
    have hnow : now < 2 ^ 32 := by have := hable.time; omega
    cases hx : (σ.node b).channel (P.id !b) with
    | none =>
      rw [hx] at ha
      simp only [additional, Option.some.injEq] at ha
      subst ha
      refine ⟨show 40 ∈ [40, 72] by decide, ⟨by rw [hc.pub_length], hnow⟩, ?_, ?_, ?_, hnow⟩
      · simp [writeMessage, writeU32_length, hc.pub_length]
      · simp only [Extra, hkey]
      · rw [hkey]
    | some ch =>
      rw [hx] at ha
      simp only [additional] at ha
      split at ha
      · cases ha
      · cases ha
        have hdate := hn.date ch hx
        obtain ⟨d0, x0, hexp⟩ := hn.chan ch hx
        have hpk : ch.peerKey.length = 32 := by rw [hexp]; exact hc.pub_length _
        refine ⟨show 72 ∈ [40, 72] by decide, ⟨by rw [hc.pub_length], hpk, hdate⟩, ?_, ?_, ?_, hdate, by simp⟩
        · simp [writeMessage, writeU32_length, hc.pub_length, hpk]
        · simp only [Extra, hkey]
        · rw [hkey]
  have hatt : (additional now (pr b) ((σ.node b).channel (P.id !b))).map (·.1) =
      attached ((σ.node b).channel (P.id !b)) := by
    cases (σ.node b).channel (P.id !b) with
    | none => rfl
    | some ch => simp only [additional, attached]; split <;> rfl
  generalize hA : additional now (pr b) ((σ.node b).channel (P.id !b)) = A at hextra hatt
  obtain ⟨x, xs, k1, k2, k3, k4⟩ := packets_carry c.sha hc.sha_length A m hm
    (fun a ha => ⟨(hextra a ha).1, (hextra a ha).2.1, (hextra a ha).2.2.1⟩)
  obtain ⟨p', ds, e1, e2, e3⟩ := send_list b now hable.time (signerOf (P.sec b) prio ((σ.node b).channel (P.id !b)))
    x xs σ (pr b) rand hr hp
    (by
      cases hx : (σ.node b).channel (P.id !b) with
      | none => rfl
      | some ch =>
        simp only [signerOf]
        by_cases hready : ch.ready = true
        · rw [if_pos hready]; exact ⟨hx, hready⟩
        · rw [if_neg hready]; rfl)
    (by
      intro y hy
      obtain ⟨f1, f2, add, z, f3, f4, f5⟩ := k4 y hy
      refine ⟨f1, f2, ?_⟩
      intro w hw
      rw [f3] at hw
      rcases List.mem_append.mp hw with hw | hw
      · obtain ⟨a, h1, rfl⟩ := f4 w hw
        exact (hextra a h1).2.2.2.2
      · rw [List.mem_singleton.mp hw]
        rcases f5 with f5 | ⟨q, rfl⟩
        · cases z <;> trivial
        · trivial)
    hable.bytes
    (by
      intro pri
      have := hable.count _ pri hp
      omega)
  refine ⟨p', ds, ?_, ?_, ?_, ?_⟩
  · unfold sendMessage
    unfold State.peer at hp
    cases ht : (σ.node b).peers.get (P.id b) with
    | none => rw [ht] at hp; cases hp
    | some t =>
      rw [ht] at hp
      simp only at hp
      simp only [hp, hP.key b, hsize, hA, k1, e1]
  · intro h0
    rw [h0] at e2
    cases e2
  · intro hfit
    rw [e2]
    have : ((x :: xs).map Prod.fst).length = 1 := by
      rw [← k1]
      unfold packets
      rw [if_pos (by rw [hatt]; exact hfit)]
      cases A <;> rfl
    simpa using this
  · intro hno
    obtain ⟨gs, f1, f2, f3, f4⟩ := e3 hno
    refine ⟨gs, f1, ?_, ?_, ?_⟩
    · rw [← f2, List.map_map]
      refine List.map_congr_left ?_
      intro g hg
      simp [f3 g hg]
    · intro g hg
      have : g.ms ∈ (x :: xs).map (·.2) := by rw [← f4]; exact List.mem_map_of_mem hg
      obtain ⟨y, hy, hyg⟩ := List.mem_map.mp this
      obtain ⟨-, -, add, z, g3, g4, g5⟩ := k4 y hy
      refine ⟨add, z, by rw [← hyg, g3], ?_⟩
      intro w hw
      obtain ⟨a, h1, rfl⟩ := g4 w hw
      exact (hextra a h1).2.2.2.1
    · have : gs.map (·.ms.getLast?) = (x :: xs).map fun (y : OutMessages × List Message) => y.2.getLast? := by
        have := congrArg (List.map List.getLast?) f4
        simpa [Function.comp_def] using this
      rw [this, ← hatt]
      exact k3

/-! ### Receiving -/

/-- Processing a packet of an honest peer: the channel messages are absorbed, then what it carries is processed. -/
theorem process_list (hc : c.Lawful) {P : Pair c} (hP : P.Fits) {b : Bool} {q' : Peer c} {other : Prop}
    (now : Nat) (subs : Event → Reply) (prio : Bool) (T : Transfer.Table) (x : Message)
    (hx0 : Whole x ∨ isPart x = true) :
    ∀ (add : List Message) (s : State c) (rand : Nat → Rand c), NodeOk P (!b) s q' other →
      (∀ x ∈ add, Extra P b x ∧ Honest P b other x) →
      let S := (add ++ [x]).foldl (absorb (P.id !b) (P.id b)) s
      let r := processAll (P.opts !b) (P.loop !b) now subs (P.id !b) (P.id b) prio rand ⟨s, T⟩ (add ++ [x])
      let w := processMessage (P.opts !b) (P.loop !b) now subs ⟨S, T⟩ (P.id !b) (P.id b) prio rand x
      r.1 = w.1 ∧ r.2.events = w.2.events ∧ r.2.sent = w.2.sent
  | [], s, rand, _, _ => by
    have habs : absorb (P.id !b) (P.id b) s x = s := by
      rcases hx0 with h | h <;> cases x <;> first | rfl | cases h
    simp only [List.nil_append, List.foldl_cons, List.foldl_nil, habs, processAll]
    split
    · simp
    · exact ⟨rfl, rfl, rfl⟩
  | y :: add, s, rand, hn, hx => by
    obtain ⟨hx1, hx2⟩ := hx y (by simp)
    have hno := absorb_ok hc hP hn y (by rw [Bool.not_not]; exact hx2)
    rw [Bool.not_not] at hno
    have hnp : s.peer (P.id !b) (P.id b) ≠ none := by
      have := hn.peer
      rw [Bool.not_not] at this
      rw [this]; simp
    have hstep : processMessage (P.opts !b) (P.loop !b) now subs ⟨s, T⟩ (P.id !b) (P.id b) prio rand y =
        (⟨absorb (P.id !b) (P.id b) s y, T⟩, ⟨[], [], true⟩) := by
      have hok : ∀ (key : Bytes) (date : Nat) (z : Ctx), key = c.pubBytes (c.pubOf (P.chan b)) →
          (channelMessage s (P.id !b) (P.id b) key date z).2 = true := by
        intro key date z hkey
        by_contra h
        have := (channelMessage_ok s (P.id !b) (P.id b) key date z).mp (by simpa using h)
        rcases this with h | h
        · rw [hkey, hc.decode_pub] at h; cases h
        · exact hnp h
      cases y with
      | createChannel key date =>
        simp only [processMessage, processWhole, absorb, hok key date .create hx1]
      | confirmChannel key pk date =>
        simp only [processMessage, processWhole, absorb, hok key date .confirm hx1]
      | _ => cases hx1
    have ih := process_list hc hP now subs prio T x hx0 add (absorb (P.id !b) (P.id b) s y) rand hno.1
      (fun z hz => hx z (by simp [hz]))
    simp only [List.cons_append, processAll, hstep, List.length_nil, Nat.zero_add, if_true, List.nil_append,
      List.foldl_cons] at ih ⊢
    exact ih

/-- A message processed as a whole: its event, and the answer if there is one. -/
theorem react (hc : c.Lawful) {P : Pair c} (hP : P.Fits) {M : Message → Prop} {σ : Sys c} (hr : Reachable P σ) (b : Bool)
    (now : Nat) (m : Message) (hm : Whole m) (prio : Bool) (subs : Event → Reply) (rand : Nat → Rand c) (T : Transfer.Table)
    (hable : ∀ e a, subs e = .answer a → Able P b (σ.node b) now rand)
    (hmine : ∀ l q id x a, id.length = 32 → subs (.query l q id x) = .answer a → a.length < 2 ^ 24 ∧ M (.answer id a))
    (f : Full c) (r : Result)
    (hw : processWhole (P.opts b) (P.loop b) now subs ⟨σ.node b, T⟩ (P.id b) (P.id !b) prio rand m = (f, r))
    (hno : NoAccidents P b (σ.node b) prio rand r.sent) :
    f.transfers = T ∧ r.events = (eventOf (P.id b) (P.id !b) m).toList ∧
    ∃ gs, Reachable P { σ with node := upd σ.node b f.node, net := upd σ.net b (σ.net b ++ gs) } ∧
      gs.map (fun g => (g.sentAt, g.data)) = r.sent.map (now, ·) ∧
      ((r.events.filterMap (answerTo subs) = [] ∧ gs = []) ∨
        ∃ m', r.events.filterMap (answerTo subs) = [m'] ∧ Whole m' ∧ M m' ∧
          Sent P b (attached ((σ.node b).channel (P.id !b))) m' gs) := by
  have hev : r.events = (eventOf (P.id b) (P.id !b) m).toList := by
    have := (processWhole_result (P.opts b) (P.loop b) now subs ⟨σ.node b, T⟩ (P.id b) (P.id !b) prio rand m).1
    rw [hw] at this
    exact this
  have quiet : f = ⟨σ.node b, T⟩ → r.sent = [] → r.events.filterMap (answerTo subs) = [] →
      f.transfers = T ∧ r.events = (eventOf (P.id b) (P.id !b) m).toList ∧
      ∃ gs, Reachable P { σ with node := upd σ.node b f.node, net := upd σ.net b (σ.net b ++ gs) } ∧
        gs.map (fun g => (g.sentAt, g.data)) = r.sent.map (now, ·) ∧
        ((r.events.filterMap (answerTo subs) = [] ∧ gs = []) ∨
          ∃ m', r.events.filterMap (answerTo subs) = [m'] ∧ Whole m' ∧ M m' ∧
            Sent P b (attached ((σ.node b).channel (P.id !b))) m' gs) := by
    intro e1 e2 e3
    subst e1
    refine ⟨rfl, hev, [], ?_, by rw [e2]; rfl, .inl ⟨e3, rfl⟩⟩
    have h1 : upd σ.node b (σ.node b) = σ.node := by
      funext b'; rcases bool_cases b b' with rfl | rfl <;> simp
    have h2 : upd σ.net b (σ.net b ++ []) = σ.net := by
      funext b'; rcases bool_cases b b' with rfl | rfl <;> simp
    simp only [h1, h2]
    exact hr
  cases m with
  | answer id a => cases hw; exact quiet rfl rfl rfl
  | custom d =>
    simp only [processWhole] at hw
    cases hs : subs (.custom (P.id b) (P.id !b) d) <;> rw [hs] at hw <;> cases hw <;> exact quiet rfl rfl rfl
  | query qid q =>
    simp only [processWhole] at hw
    cases hs : subs (.query (P.id b) (P.id !b) qid q) with
    | failed =>
      rw [hs] at hw; cases hw
      exact quiet rfl rfl (by simp [answerTo, hs])
    | done =>
      rw [hs] at hw; cases hw
      exact quiet rfl rfl (by simp [answerTo, hs])
    | answer a =>
      rw [hs] at hw
      obtain ⟨ha, hM⟩ := hmine _ _ _ _ _ hm.1 hs
      have hwa : Whole (.answer qid a) := ⟨hm.1, ha⟩
      obtain ⟨p', ds, t1, -, -, t4⟩ := tell_any hc hP hr b now (.answer qid a) hwa prio rand (hable _ _ hs)
      simp only [t1] at hw
      cases hw
      obtain ⟨gs, u1, u2, u3⟩ := t4 hno
      exact ⟨rfl, rfl, gs, u1, u2, .inr ⟨.answer qid a, by simp [answerTo, hs], hwa, hM, u3⟩⟩
  | _ => cases hm

/-- The part of the state of a run that concerns the messages of side `b`. -/
def laneOf (ρ : Talk c) (b : Bool) (last evs : List Message) : Lane :=
  ⟨ρ.sends b, ρ.src b, last, ρ.seen b, (ρ.node !b).transfers, evs⟩

/-- Side `b` has sent fewer than 256 datagrams, and the other side keeps a history of their numbers. -/
def Young (P : Pair c) (ρ : Talk c) (b : Bool) : Prop := (P.opts !b).historyEnabled = true ∧ (ρ.net b).length < 256

/-- The other side treats datagrams that arrive again by this rule. -/
def Keeps (P : Pair c) (ρ : Talk c) (b : Bool) (N : Rule) : Prop :=
  (N.young → Young P ρ b) ∧ (N.off → (P.opts !b).historyEnabled = false)

/-- A run of the two nodes, as a run of C70 and a run of each direction. -/
structure Rel (P : Pair c) (M : Message → Prop) (G : Message → Prop) (N : Bool → Rule) (T : Bool → Transfer.Table) (ρ : Talk c) (σ : Sys c)
    (evs : Bool → List Message) : Prop where
  reach : Reachable P σ
  node : ∀ b, σ.node b = (ρ.node b).node
  seen : ∀ b, σ.seen b = ρ.seen b
  net : ∀ b, ρ.net b = (σ.net b).map fun g => (g.sentAt, g.data)
  extra : ∀ b, ∀ g ∈ σ.net b, ∃ add x, g.ms = add ++ [x] ∧ ∀ y ∈ add, Extra P b y
  lane : ∀ b, ∃ last, (σ.net b).map (·.ms.getLast?) = last.map some ∧
    LRun c.sha M G (N b) ⟨[], [], [], [], T (!b), []⟩ (laneOf ρ b last (evs b))
  log : ∀ b, (ρ.log (!b)).map (fun x => some x.1) = (evs b).map (eventOf (P.id !b) (P.id b))
  origin : ∀ b, ∀ x ∈ ρ.sends b, (User x.1 ∧ x.1 ∈ ρ.told b) ∨
    ∃ qid a q, x.1 = .answer qid a ∧ (.query (P.id b) (P.id !b) qid q, .answer a) ∈ ρ.log b
  answered : ∀ b qid q a, (.query (P.id b) (P.id !b) qid q, .answer a) ∈ ρ.log b → ∃ s, (.answer qid a, s) ∈ ρ.sends b

/-- What an arrival does: a delivery of C70, followed by send steps if a subscriber answers, and a step of the
direction. -/
theorem deliver_any (hc : c.Lawful) {P : Pair c} (hP : P.Fits) {M G : Message → Prop} {N : Rule} {σ : Sys c} (hr : Reachable P σ)
    (b : Bool) (i : Nat) (g : Gram) (hi : (σ.net b)[i]? = some g) (add : List Message) (x : Message)
    (hms : g.ms = add ++ [x]) (hadd : ∀ y ∈ add, Extra P b y) (L : Lane) (hI : LaneInv c.sha M L)
    (hx : L.last[i]? = some x) (hseen : L.seen = σ.seen b)
    (hN : N.young → (P.opts !b).historyEnabled = true ∧ (σ.net b).length < 256)
    (hoff : N.off → (P.opts !b).historyEnabled = false) (now : Nat)
    (h1 : now + (P.opts !b).clockTolerance < 2 ^ 32)
    (h2 : (P.opts b).startTime ≤ now + (P.opts !b).clockTolerance)
    (h3 : now ≤ g.sentAt + (P.opts b).addressListTimeout) (subs : Event → Reply)
    (hmine : ∀ l q id x a, id.length = 32 → subs (.query l q id x) = .answer a → a.length < 2 ^ 24 ∧ M (.answer id a))
    (key : c.Sec) (rand : Nat → Rand c)
    (hable : ∀ e a, subs e = .answer a →
      Able P (!b) (arrive (P.opts !b) (P.loop !b) now (σ.node !b) g.data key rand) now rand)
    (f : Full c) (r : Result)
    (hrec : receive (P.opts !b) (P.loop !b) now subs ⟨σ.node !b, L.table⟩ g.data key rand = (f, r))
    (hno : ∀ prio, NoAccidents P (!b) (arrive (P.opts !b) (P.loop !b) now (σ.node !b) g.data key rand) prio rand r.sent) :
    ∃ gs evs1, Reachable P ⟨upd σ.node (!b) f.node, upd σ.net (!b) (σ.net (!b) ++ gs), upd σ.seen b (i :: σ.seen b)⟩ ∧
      gs.map (fun g => (g.sentAt, g.data)) = r.sent.map (now, ·) ∧
      r.events.map some = evs1.map (eventOf (P.id !b) (P.id b)) ∧
      LStep c.sha M G N L { L with seen := i :: L.seen, table := f.transfers, evs := L.evs ++ evs1 } ∧
      ((r.events.filterMap (answerTo subs) = [] ∧ gs = []) ∨
        ∃ m', r.events.filterMap (answerTo subs) = [m'] ∧ Whole m' ∧ M m' ∧ Sent P (!b) (attached
          ((arrive (P.opts !b) (P.loop !b) now (σ.node !b) g.data key rand).channel (P.id b))) m' gs) := by
  obtain ⟨pr, hinv⟩ := reachable_inv hc hP hr
  have hg := List.mem_of_getElem? hi
  obtain ⟨s', q', hh, hn, -⟩ := arrives hc hP hinv b g hg now h1 h2 h3 key rand
  have hdel := Reachable.step _ _ hr (Step.deliver σ b i g now key rand hi h1 h2 h3)
  have hhonest := (hinv.gram b g hg).honest
  obtain ⟨k, m, a, s1, s2, s3⟩ := hI.shape i x hx
  obtain ⟨hwm, hMm, ha⟩ := hI.sends _ (List.mem_of_getElem? s2)
  have hx0 : Whole x ∨ ∃ q, x = partMessage q := by
    unfold cargo at s3
    split at s3
    · rw [List.mem_singleton.mp s3]; exact .inl hwm
    · obtain ⟨q, -, rfl⟩ := List.mem_map.mp s3; exact .inr ⟨q, rfl⟩
  have hupd : ∀ (y : State c), upd (upd σ.node (!b) y) (!b) f.node = upd σ.node (!b) f.node := by
    intro y; funext b'; rcases bool_cases b b' with rfl | rfl <;> simp
  have hnil : upd σ.net (!b) (σ.net (!b) ++ []) = σ.net := by
    funext b'; rcases bool_cases b b' with rfl | rfl <;> simp
  unfold receive at hrec
  by_cases hf : fresh (P.opts !b) (pr !b) g.prio g.n = true
  · rw [if_pos hf] at hh
    have harr : arrive (P.opts !b) (P.loop !b) now (σ.node !b) g.data key rand =
        (add ++ [x]).foldl (absorb (P.id !b) (P.id b)) s' := by
      unfold arrive
      rw [hh]
      simp only [hms]
    rw [harr] at hable hno hdel ⊢
    rw [hh] at hrec
    simp only [List.length_nil, Nat.zero_add, List.nil_append, hms] at hrec
    have hproc := process_list hc hP now subs g.prio L.table x (hx0.imp id (fun ⟨q, h⟩ => by rw [h]; rfl)) add s' rand hn (by
      intro y hy
      exact ⟨hadd y hy, hhonest y (by rw [hms]; simp [hy])⟩)
    simp only at hproc
    obtain ⟨hp1, hp2, hp3⟩ := hproc
    have hf1 := congrArg Prod.fst hrec
    have hr1 := congrArg Prod.snd hrec
    simp only at hf1 hr1
    have hev := congrArg Result.events hr1
    have hst := congrArg Result.sent hr1
    simp only at hev hst
    rw [hp1] at hf1
    rw [hp2] at hev
    rw [hp3] at hst
    have hfirst : N.young → i ∉ L.seen := by
      intro hn hin
      have := C70_copy_dropped_below_256 hc P hP σ hr b (hN hn).1 i g hi (hseen ▸ hin)
        (fun g' hg' _ => by
          have h1 := (hinv.gram b g' hg').le
          have h2 := hinv.few b g'.prio
          have h3 := (hN hn).2
          omega) now h1 h2 h3 key rand
      rw [hh] at this
      cases this
    generalize hS : (add ++ [x]).foldl (absorb (P.id !b) (P.id b)) s' = S at *
    -- a message processed as a whole
    have whole : ∀ (m : Message) (T : Transfer.Table), Whole m →
        processMessage (P.opts !b) (P.loop !b) now subs ⟨S, L.table⟩ (P.id !b) (P.id b) g.prio rand x =
          processWhole (P.opts !b) (P.loop !b) now subs ⟨S, T⟩ (P.id !b) (P.id b) g.prio rand m →
        f.transfers = T ∧ r.events.map some = [m].map (eventOf (P.id !b) (P.id b)) ∧
        ∃ gs, Reachable P ⟨upd σ.node (!b) f.node, upd σ.net (!b) (σ.net (!b) ++ gs), upd σ.seen b (i :: σ.seen b)⟩ ∧
          gs.map (fun g => (g.sentAt, g.data)) = r.sent.map (now, ·) ∧
          ((r.events.filterMap (answerTo subs) = [] ∧ gs = []) ∨
            ∃ m', r.events.filterMap (answerTo subs) = [m'] ∧ Whole m' ∧ M m' ∧
              Sent P (!b) (attached (S.channel (P.id b))) m' gs) := by
      intro m T hm hpm
      rw [hpm] at hf1 hev hst
      have hR := react hc hP (M := M) hdel (!b) now m hm g.prio subs rand T
        (by simp only [upd_self]; exact hable) hmine f
        (processWhole (P.opts !b) (P.loop !b) now subs ⟨S, T⟩ (P.id !b) (P.id b) g.prio rand m).2
        (by simp only [upd_self, Bool.not_not]; rw [← hf1])
        (by simp only [upd_self]; rw [hst]; exact hno g.prio)
      simp only [upd_self, Bool.not_not, hupd, hev, hst] at hR
      obtain ⟨e1, e2, e3⟩ := hR
      refine ⟨e1, ?_, e3⟩
      rw [e2]
      cases m <;> first | rfl | cases hm
    rcases hx0 with hw | ⟨q, rfl⟩
    · obtain ⟨e1, e2, gs, e3, e4, e5⟩ := whole x L.table hw
        (processMessage_whole _ _ _ _ _ _ _ _ _ _ (whole_wf hw).2.2.2)
      refine ⟨gs, [x], e3, e4, e2, ?_, e5⟩
      rw [e1]
      exact .whole L i x hx hw hfirst
    · obtain ⟨k', m', a', -, -, hw, -, -, -, -, -, -, c5, -⟩ := part_outcome hI hx
      have hstep := LStep.part (sha := c.sha) (M := M) (G := G) (N := N) L i q hx hfirst
      have silent : processMessage (P.opts !b) (P.loop !b) now subs ⟨S, L.table⟩ (P.id !b) (P.id b) g.prio rand (partMessage q) =
            (⟨S, (Transfer.recvPart c.sha L.table q).1⟩, ⟨[], [], (processMessage (P.opts !b) (P.loop !b) now subs
              ⟨S, L.table⟩ (P.id !b) (P.id b) g.prio rand (partMessage q)).2.ok⟩) →
          delivered (Transfer.recvPart c.sha L.table q).2 = [] →
          ∃ gs evs1, Reachable P ⟨upd σ.node (!b) f.node, upd σ.net (!b) (σ.net (!b) ++ gs), upd σ.seen b (i :: σ.seen b)⟩ ∧
            gs.map (fun g => (g.sentAt, g.data)) = r.sent.map (now, ·) ∧
            r.events.map some = evs1.map (eventOf (P.id !b) (P.id b)) ∧
            LStep c.sha M G N L { L with seen := i :: L.seen, table := f.transfers, evs := L.evs ++ evs1 } ∧
            ((r.events.filterMap (answerTo subs) = [] ∧ gs = []) ∨
              ∃ m', r.events.filterMap (answerTo subs) = [m'] ∧ Whole m' ∧ M m' ∧
                Sent P (!b) (attached (S.channel (P.id b))) m' gs) := by
        intro e1 e2
        rw [e1] at hf1 hev hst
        simp only at hf1 hev hst
        subst hf1
        rw [e2] at hstep
        refine ⟨[], [], ?_, by rw [← hst]; rfl, by rw [← hev]; rfl, hstep, .inl ⟨by rw [← hev]; rfl, rfl⟩⟩
        rw [hnil]
        exact hdel
      rcases c5 with ⟨c5, c6⟩ | c5
      · obtain ⟨e1, e2, gs, e3, e4, e5⟩ := whole m' (Transfer.recvPart c.sha L.table q).1 hw (by
          cases hrp : Transfer.recvPart c.sha L.table q with
          | mk T' res =>
            rw [hrp] at c5
            simp only at c5
            subst c5
            simp only [partMessage, processMessage, hrp, whole_read hw])
        refine ⟨gs, [m'], e3, e4, e2, ?_, e5⟩
        rw [e1, ← c6]
        exact hstep
      · cases hrp : Transfer.recvPart c.sha L.table q with
        | mk T' res =>
          rw [hrp] at c5
          refine silent ?_ ?_
          · rcases c5 with c5 | c5 | c5 <;> simp only at c5 <;> subst c5 <;>
              simp only [partMessage, processMessage, hrp]
          · rw [hrp]
            rcases c5 with c5 | c5 | c5 <;> simp only at c5 <;> subst c5 <;> rfl
  · rw [if_neg hf] at hh
    have harr : arrive (P.opts !b) (P.loop !b) now (σ.node !b) g.data key rand = s' := by
      unfold arrive
      rw [hh]
    rw [harr] at hdel
    rw [hh] at hrec
    simp only at hrec
    cases hrec
    have his : i ∈ σ.seen b := by
      by_contra hnew
      have := C70_first_copy_accepted hc P hP σ hr b i g hi hnew now h1 h2 h3 key rand
      rw [hh] at this
      cases this
    refine ⟨[], [], ?_, rfl, rfl, ?_, .inl ⟨rfl, rfl⟩⟩
    · rw [hnil]
      exact hdel
    · rw [List.append_nil]
      refine .drop L i (by rw [hseen]; exact his) fun ho => hf ?_
      rw [fresh_eq, hoff ho]
      rfl

theorem attached_sizes (x : Option Channel) : attached x ∈ [none, some 40, some 72] := by
  cases x with
  | none => simp [attached]
  | some ch => simp only [attached]; split <;> simp

theorem user_whole {m : Message} (h : User m) : Whole m := by
  cases m <;> first | exact h | cases h

theorem map_length_eq {α β γ : Type} {f : α → γ} {g : β → γ} {x : List α} {y : List β} (h : x.map f = y.map g) :
    x.length = y.length := by
  have := congrArg List.length h
  simpa using this

theorem sim_told (hc : c.Lawful) {P : Pair c} (hP : P.Fits) {M G : Message → Prop} {N : Bool → Rule} {T : Bool → Transfer.Table}
    {ρ : Talk c} {σ : Sys c} {evs : Bool → List Message} (hR : Rel P M G N T ρ σ evs)
    {b : Bool} {now : Nat} {m : Message} {prio : Bool} {rand : Nat → Rand c} {p' : Peer c} {ds : List Bytes}
    (hu : User m) (hM : M m) (hable : Able P b (ρ.node b).node now rand)
    (hs : sendMessage (P.opts b) (P.loop b) now (ρ.node b).node (P.id b) (P.id !b) m prio rand = .ok (p', ds))
    (hno : NoAccidents P b (ρ.node b).node prio rand ds) :
    ∃ σ', Rel P M G N T (told P ρ b now m p' ds) σ' evs := by
  obtain ⟨p1, ds1, t1, -, -, t4⟩ := tell_any hc hP hR.reach b now m (user_whole hu) prio rand (by rw [hR.node]; exact hable)
  rw [hR.node, hs] at t1
  cases t1
  obtain ⟨gs, u1, u2, u3⟩ := t4 (by rw [hR.node]; exact hno)
  have hlen : ds.length = (cargo c.sha (attached ((ρ.node b).node.channel (P.id !b))) m).length := by
    rw [← map_length_eq u2]
    have := map_length_eq u3.lasts
    rwa [hR.node] at this
  refine ⟨_, ⟨u1, ?_, hR.seen, ?_, ?_, ?_, hR.log, ?_, ?_⟩⟩
  · intro b'
    rcases bool_cases b b' with rfl | rfl
    · simp only [told, upd_self]; rw [hR.node]
    · simp only [told, upd_not]; rw [hR.node]
  · intro b'
    rcases bool_cases b b' with rfl | rfl
    · simp only [told, upd_self]
      rw [hR.net, List.map_append, u2]
    · simp only [told, upd_not]; rw [hR.net]
  · intro b' g hg
    rcases bool_cases b b' with rfl | rfl
    · simp only [upd_self] at hg
      rcases List.mem_append.mp hg with hg | hg
      · exact hR.extra _ g hg
      · exact u3.carried g hg
    · simp only [upd_not] at hg
      exact hR.extra _ g hg
  · intro b'
    obtain ⟨last, l1, l2⟩ := hR.lane b'
    rcases bool_cases b b' with rfl | rfl
    · refine ⟨last ++ cargo c.sha (attached ((ρ.node b').node.channel (P.id !b'))) m, ?_, ?_⟩
      · simp only [upd_self, List.map_append]
        rw [l1, u3.lasts, hR.node]
      · have := LRun.step _ _ _ l2 (.send _ m (attached ((ρ.node b').node.channel (P.id !b'))) (user_whole hu) hM (attached_sizes _))
        simp only [laneOf, told, upd_self, upd_not, hlen] at this ⊢
        exact this
    · refine ⟨last, by simp only [upd_not]; exact l1, ?_⟩
      simp only [laneOf, told, upd_not, Bool.not_not, upd_self] at l2 ⊢
      exact l2
  · intro b' x hx
    rcases bool_cases b b' with rfl | rfl
    · simp only [told, upd_self] at hx ⊢
      rcases List.mem_append.mp hx with hx | hx
      · rcases hR.origin _ x hx with ⟨h1, h2⟩ | h
        · exact .inl ⟨h1, List.mem_cons_of_mem _ h2⟩
        · exact .inr h
      · rw [List.mem_singleton.mp hx]
        exact .inl ⟨hu, by simp⟩
    · simp only [told, upd_not] at hx ⊢
      exact hR.origin _ x hx
  · intro b' qid q a h
    obtain ⟨s, hsd⟩ := hR.answered b' qid q a h
    refine ⟨s, ?_⟩
    rcases bool_cases b b' with rfl | rfl
    · simp only [told, upd_self]; exact List.mem_append_left _ hsd
    · simp only [told, upd_not]; exact hsd

theorem sim_come (hc : c.Lawful) {P : Pair c} (hP : P.Fits) {M G : Message → Prop} {N : Bool → Rule} (hA : Apart c.sha M)
    {T : Bool → Transfer.Table} (hT : ∀ b m, M m → (T b).get (c.sha (writeMessage m)) = none)
    {ρ : Talk c} {σ : Sys c} {evs : Bool → List Message} (hR : Rel P M G N T ρ σ evs) (hN : ∀ b, Keeps P ρ b (N b))
    {b : Bool} {i now : Nat} {subs : Event → Reply} {key : c.Sec} {rand : Nat → Rand c} {t : Nat} {d : Bytes}
    {f : Full c} {r : Result} (h : Comes P M ρ b i now subs key rand t d f r) :
    ∃ σ' evs', Rel P M G N T (come P ρ b i now subs key rand d f r) σ' evs' := by
  obtain ⟨g, hg, htd⟩ : ∃ g, (σ.net b)[i]? = some g ∧ (g.sentAt, g.data) = (t, d) := by
    have := h.sent
    rw [hR.net, List.getElem?_map] at this
    cases hx : (σ.net b)[i]? with
    | none => rw [hx] at this; cases this
    | some g => rw [hx] at this; exact ⟨g, rfl, by simpa using this⟩
  cases htd
  obtain ⟨add, x, e1, e2⟩ := hR.extra b g (List.mem_of_getElem? hg)
  obtain ⟨last, l1, l2⟩ := hR.lane b
  have hlast : last[i]? = some x := by
    have := congrArg (·[i]?) l1
    simp only [List.getElem?_map, hg, Option.map_some, e1, List.getLast?_append, List.getLast?_singleton,
      Option.some_or] at this
    cases hl : last[i]? with
    | none => rw [hl] at this; cases this
    | some y => rw [hl] at this; simpa using this.symm
  have hI := (lane_run hA (hT (!b)) l2).1
  have hrec := h.result
  have hable := h.able
  have hacc := h.clean
  have hnode : ρ.node (!b) = ⟨σ.node !b, (ρ.node !b).transfers⟩ := by rw [hR.node]
  rw [hnode] at hrec hable hacc
  obtain ⟨gs, evs1, d1, d2, d3, d4, d5⟩ := deliver_any hc hP (M := M) (G := G) hR.reach b i g hg add x e1 e2
    (laneOf ρ b last (evs b)) hI hlast (by simp only [laneOf]; rw [hR.seen])
    (fun hn => ⟨((hN b).1 hn).1, by have := ((hN b).1 hn).2; rw [hR.net, List.length_map] at this; exact this⟩) (hN b).2
    now h.clock h.started h.recent subs h.mine key rand
    hable f r hrec hacc
  have hsent : r.sent.length = gs.length := (map_length_eq d2).symm
  refine ⟨_, upd evs b (evs b ++ evs1), ⟨d1, ?_, ?_, ?_, ?_, ?_, ?_, ?_, ?_⟩⟩
  · intro b'
    rcases bool_cases (!b) b' with rfl | rfl
    · simp only [come, upd_self]
    · simp only [come, upd_not]; rw [hR.node]
  · intro b'
    rcases bool_cases b b' with rfl | rfl
    · simp only [come, upd_self]; rw [hR.seen]
    · simp only [come, upd_not]; rw [hR.seen]
  · intro b'
    rcases bool_cases (!b) b' with rfl | rfl
    · simp only [come, upd_self]
      rw [hR.net, List.map_append, d2]
    · simp only [come, upd_not]; rw [hR.net]
  · intro b' g' hg'
    rcases bool_cases (!b) b' with rfl | rfl
    · simp only [upd_self] at hg'
      rcases List.mem_append.mp hg' with hg' | hg'
      · exact hR.extra _ g' hg'
      · rcases d5 with ⟨-, rfl⟩ | ⟨m', -, -, -, d5⟩
        · cases hg'
        · exact d5.carried g' hg'
    · simp only [upd_not] at hg'
      exact hR.extra _ g' hg'
  · intro b'
    rcases bool_cases b b' with rfl | rfl
    · refine ⟨last, ?_, ?_⟩
      · simp only [upd_not']; exact l1
      · have := LRun.step _ _ _ l2 d4
        simp only [laneOf, come, upd_self, upd_not'] at this ⊢
        exact this
    · obtain ⟨last', l1', l2'⟩ := hR.lane (!b)
      rcases d5 with ⟨d5, rfl⟩ | ⟨m', d5, hw, hM, d6⟩
      · refine ⟨last', by simp only [upd_self, List.append_nil]; exact l1', ?_⟩
        simp only [laneOf, come, upd_self, upd_not, Bool.not_not, d5, hsent, List.map_nil, List.append_nil, List.length_nil,
          List.replicate_zero, upd_not'] at l2' ⊢
        exact l2'
      · refine ⟨last' ++ cargo c.sha (attached ((arrive (P.opts !b) (P.loop !b) now (σ.node !b) g.data key rand).channel
          (P.id b))) m', ?_, ?_⟩
        · simp only [upd_self, List.map_append]
          rw [l1', d6.lasts]
        · have := LRun.step _ _ _ l2' (.send _ m' _ hw hM (attached_sizes
            ((arrive (P.opts !b) (P.loop !b) now (σ.node !b) g.data key rand).channel (P.id b))))
          rw [← map_length_eq d6.lasts, ← hsent] at this
          simp only [laneOf, come, upd_self, upd_not, upd_not', Bool.not_not, d5, List.map_cons, List.map_nil] at this ⊢
          rw [← hR.node]
          exact this
  · intro b'
    rcases bool_cases b b' with rfl | rfl
    · simp only [come, upd_self, List.map_append, List.map_map]
      rw [hR.log b', ← d3]
      rfl
    · simp only [come, upd_not, Bool.not_not, upd_not']
      have := hR.log (!b)
      rwa [Bool.not_not] at this
  · intro b' y hy
    rcases bool_cases b b' with rfl | rfl
    · simp only [come, upd_not'] at hy ⊢
      exact hR.origin _ y hy
    · simp only [come, upd_self] at hy ⊢
      rcases List.mem_append.mp hy with hy | hy
      · rcases hR.origin _ y hy with h | ⟨qid, a, q, h1, h2⟩
        · exact .inl h
        · exact .inr ⟨qid, a, q, h1, List.mem_append_left _ h2⟩
      · obtain ⟨m', hm', rfl⟩ := List.mem_map.mp hy
        obtain ⟨e, he, hans⟩ := List.mem_filterMap.mp hm'
        right
        cases e with
        | query l q id x =>
          simp only [answerTo] at hans
          cases hsub : subs (.query l q id x) with
          | answer a =>
            rw [hsub] at hans
            simp only [Option.some.injEq] at hans
            -- the event is about the two sides
            have hmem : (some (Event.query l q id x)) ∈ evs1.map (eventOf (P.id !b) (P.id b)) := by
              rw [← d3]; exact List.mem_map_of_mem he
            obtain ⟨m2, -, hm2⟩ := List.mem_map.mp hmem
            have : l = P.id !b ∧ q = P.id b := by
              cases m2 <;> simp [eventOf] at hm2
              exact ⟨hm2.1.symm, hm2.2.1.symm⟩
            obtain ⟨rfl, rfl⟩ := this
            refine ⟨id, a, x, hans.symm, List.mem_append_right _ (List.mem_map.mpr ⟨_, he, ?_⟩)⟩
            rw [hsub, Bool.not_not]
          | failed => rw [hsub] at hans; cases hans
          | done => rw [hsub] at hans; cases hans
        | _ => cases hans
  · intro b' qid q a hl
    rcases bool_cases b b' with rfl | rfl
    · simp only [come, upd_not'] at hl ⊢
      exact hR.answered _ qid q a hl
    · simp only [come, upd_self] at hl ⊢
      rcases List.mem_append.mp hl with hl | hl
      · obtain ⟨s, hs⟩ := hR.answered _ qid q a hl
        exact ⟨s, List.mem_append_left _ hs⟩
      · obtain ⟨e, he, hea⟩ := List.mem_map.mp hl
        simp only [Prod.mk.injEq] at hea
        obtain ⟨rfl, hea⟩ := hea
        refine ⟨_, List.mem_append_right _ (List.mem_map.mpr ⟨.answer qid a, List.mem_filterMap.mpr ⟨_, he, ?_⟩, rfl⟩)⟩
        simp only [answerTo, hea]

theorem sim_step (hc : c.Lawful) {P : Pair c} (hP : P.Fits) {M G : Message → Prop} {N : Bool → Rule} (hA : Apart c.sha M)
    {T : Bool → Transfer.Table} (hT : ∀ b m, M m → (T b).get (c.sha (writeMessage m)) = none)
    {ρ ρ' : Talk c} {σ : Sys c} {evs : Bool → List Message} (hR : Rel P M G N T ρ σ evs)
    (hN : ∀ b, Keeps P ρ b (N b)) (h : TStep P M G ρ ρ') :
    ∃ σ' evs', Rel P M G N T ρ' σ' evs' := by
  cases h with
  | tell b now m prio rand p' ds h1 h2 h3 h4 h5 =>
    obtain ⟨σ', h⟩ := sim_told hc hP hR h1 h2 h3 h4 h5
    exact ⟨σ', evs, h⟩
  | deliver b i now subs key rand t d f r h => exact sim_come hc hP hA hT hR hN h
  | other b f h1 h2 =>
    refine ⟨{ σ with node := upd σ.node b f.node }, evs, ⟨.step _ _ hR.reach (.other σ b f.node (by rw [hR.node]; exact h1)),
      ?_, hR.seen, hR.net, hR.extra, ?_, hR.log, hR.origin, hR.answered⟩⟩
    · intro b'
      rcases bool_cases b b' with rfl | rfl
      · simp only [upd_self]
      · simp only [upd_not]; rw [hR.node]
    · intro b'
      obtain ⟨last, l1, l2⟩ := hR.lane b'
      refine ⟨last, l1, ?_⟩
      rcases bool_cases b b' with rfl | rfl
      · simp only [laneOf, upd_not] at l2 ⊢
        exact l2
      · have := LRun.step _ _ _ l2 (.other _ f.transfers (by simp only [laneOf, Bool.not_not]; exact h2))
        simp only [laneOf, Bool.not_not, upd_self] at this ⊢
        exact this

theorem net_grows {P : Pair c} {M G : Message → Prop} {ρ ρ' : Talk c} (h : TStep P M G ρ ρ') (b : Bool) :
    (ρ.net b).length ≤ (ρ'.net b).length := by
  cases h with
  | tell b' now m prio rand p' ds h1 h2 h3 h4 h5 =>
    rcases bool_cases b' b with rfl | rfl
    · simp only [told, upd_self, List.length_append]; omega
    · simp only [told, upd_not]; exact Nat.le_refl _
  | deliver b' i now subs key rand t d f r h =>
    rcases bool_cases (!b') b with rfl | rfl
    · simp only [come, upd_self, List.length_append]; omega
    · simp only [come, upd_not]; exact Nat.le_refl _
  | other b' f h1 h2 => exact Nat.le_refl _

theorem sim_goes_young (hc : c.Lawful) {P : Pair c} (hP : P.Fits) {M G : Message → Prop} (hA : Apart c.sha M)
    {ρ₀ ρ : Talk c} (h0 : TStart P M ρ₀) (h : Goes P M G ρ₀ ρ) (N : Bool → Rule) (hN : ∀ b, Keeps P ρ b (N b)) :
    ∃ σ evs, Rel P M G N (fun b => (ρ₀.node b).transfers) ρ σ evs := by
  induction h with
  | refl =>
    refine ⟨⟨fun b => (ρ₀.node b).node, fun _ => [], fun _ => []⟩, fun _ => [], ⟨.start _ h0.sys, fun _ => rfl, ?_, ?_, ?_, ?_, ?_, ?_, ?_⟩⟩
    · intro b; rw [(h0.net b).2.1]
    · intro b; rw [(h0.net b).1]; rfl
    · intro b g hg; cases hg
    · intro b
      refine ⟨[], rfl, ?_⟩
      unfold laneOf
      rw [(h0.net b).2.1, (h0.net b).2.2.1, (h0.net b).2.2.2]
      exact .refl _
    · intro b; rw [h0.log]; rfl
    · intro b x hx; rw [(h0.net b).2.2.2] at hx; cases hx
    · intro b qid q a h; rw [h0.log] at h; cases h
  | step ρ₂ ρ₃ _ h2 ih =>
    have hN2 : ∀ b, Keeps P ρ₂ b (N b) := fun b =>
      ⟨fun hn => ⟨((hN b).1 hn).1, Nat.lt_of_le_of_lt (net_grows h2 b) ((hN b).1 hn).2⟩, (hN b).2⟩
    obtain ⟨σ, evs, hR⟩ := ih hN2
    exact sim_step hc hP hA h0.transfers hR hN2 h2

theorem sim_goes (hc : c.Lawful) {P : Pair c} (hP : P.Fits) {M G : Message → Prop} (hA : Apart c.sha M)
    {ρ₀ ρ : Talk c} (h0 : TStart P M ρ₀) (h : Goes P M G ρ₀ ρ) :
    ∃ σ evs, Rel P M G (fun _ => ⟨False, False⟩) (fun b => (ρ₀.node b).transfers) ρ σ evs :=
  sim_goes_young hc hP hA h0 h _ (fun _ => ⟨fun h => h.elim, fun h => h.elim⟩)

/-! ### C111 -/

/-- The users of the other side have seen the message `m` of side `b`: its query or custom message, or its answer to
their query. -/
def Shown (P : Pair c) (ρ : Talk c) (b : Bool) (m : Message) : Prop :=
  ∃ e y, eventOf (P.id !b) (P.id b) m = some e ∧ (e, y) ∈ ρ.log (!b)

/-- Side `b` has sent `m` once, as number `k`, with a channel message of size `a`. -/
def SentOnce (ρ : Talk c) (b : Bool) (m : Message) (k : Nat) (a : Option Nat) : Prop :=
  (ρ.sends b)[k]? = some (m, a) ∧ ∀ (k' : Nat) a', (ρ.sends b)[k']? = some (m, a') → k' = k

/-- Every datagram of message number `k` has arrived at least once. -/
def AllHere (ρ : Talk c) (b : Bool) (k : Nat) : Prop := ∀ i : Nat, (ρ.src b)[i]? = some k → i ∈ ρ.seen b

theorem shown_iff {P : Pair c} {M G : Message → Prop} {N : Bool → Rule} {T : Bool → Transfer.Table} {ρ : Talk c} {σ : Sys c}
    {evs : Bool → List Message} (hR : Rel P M G N T ρ σ evs) {b : Bool} {m : Message} (hm : Whole m)
    (hall : ∀ x ∈ evs b, Whole x) : Shown P ρ b m ↔ m ∈ evs b := by
  have hlog := hR.log b
  constructor
  · rintro ⟨e, y, h1, h2⟩
    have : some e ∈ (evs b).map (eventOf (P.id !b) (P.id b)) := by
      rw [← hlog]; exact List.mem_map.mpr ⟨_, h2, rfl⟩
    obtain ⟨m', hm', he⟩ := List.mem_map.mp this
    have hw := hall m' hm'
    rw [← h1] at he
    have : m' = m := by
      cases m' <;> first | cases hw | skip
      all_goals cases m <;> first | cases hm | skip
      all_goals simp [eventOf] at he ⊢
      all_goals exact he
    rw [← this]
    exact hm'
  · intro h
    obtain ⟨e, he⟩ : ∃ e, eventOf (P.id !b) (P.id b) m = some e := by
      cases m <;> first | exact ⟨_, rfl⟩ | cases hm
    have : some e ∈ (ρ.log (!b)).map (fun x => some x.1) := by
      rw [hlog, ← he]; exact List.mem_map_of_mem h
    obtain ⟨x, hx, hxe⟩ := List.mem_map.mp this
    cases hxe
    exact ⟨x.1, x.2, he, hx⟩

/-- **C111 (sending works)** In every run of two honest nodes whose clocks and counters are within their types,
sending a query or a custom message of less than 16 MiB succeeds and gives at least one datagram, and exactly one if the
message and the channel message sent along are counted as at most 1024 bytes. -/
theorem C111_send_succeeds (hc : c.Lawful) (P : Pair c) (hP : P.Fits) (M G : Message → Prop) (hA : Apart c.sha M)
    (ρ₀ ρ : Talk c) (h0 : TStart P M ρ₀) (h : Goes P M G ρ₀ ρ) (b : Bool) (now : Nat) (m : Message) (prio : Bool)
    (rand : Nat → Rand c) (hm : User m) (hable : Able P b (ρ.node b).node now rand) :
    ∃ p' ds, sendMessage (P.opts b) (P.loop b) now (ρ.node b).node (P.id b) (P.id !b) m prio rand = .ok (p', ds) ∧
      ds ≠ [] ∧ ((attached ((ρ.node b).node.channel (P.id !b))).getD 0 + counted m ≤ 1024 → ds.length = 1) := by
  obtain ⟨σ, evs, hR⟩ := sim_goes hc hP hA h0 h
  obtain ⟨p', ds, h1, h2, h3, -⟩ := tell_any hc hP hR.reach b now m (user_whole hm) prio rand (by rw [hR.node]; exact hable)
  rw [hR.node] at h1 h3
  exact ⟨p', ds, h1, h2, h3⟩

/-- **C111 (nothing is made up)** In every run of two honest nodes, whatever arrives in whatever order and however
often and whatever is given up: a query or a custom message seen by the users of side `b` is one the users of the
other side asked to send, with the same contents, and an answer handed to a query of side `b` is the answer a subscriber of the other
side gave to a query with this id, which the users of side `b` asked to send. -/
theorem C111_nothing_made_up (hc : c.Lawful) (P : Pair c) (hP : P.Fits) (M G : Message → Prop) (hA : Apart c.sha M)
    (ρ₀ ρ : Talk c) (h0 : TStart P M ρ₀) (h : Goes P M G ρ₀ ρ) (b : Bool) (e : Event) (y : Reply) (he : (e, y) ∈ ρ.log b) :
    (∃ qid q, e = .query (P.id b) (P.id !b) qid q ∧ .query qid q ∈ ρ.told (!b)) ∨
    (∃ d, e = .custom (P.id b) (P.id !b) d ∧ .custom d ∈ ρ.told (!b)) ∨
    (∃ qid a q, e = .answer qid a ∧ .query qid q ∈ ρ.told b ∧
      (.query (P.id !b) (P.id b) qid q, .answer a) ∈ ρ.log (!b)) := by
  obtain ⟨σ, evs, hR⟩ := sim_goes hc hP hA h0 h
  have source : ∀ b e y, (e, y) ∈ ρ.log b → ∃ m, eventOf (P.id b) (P.id !b) m = some e ∧
      ((User m ∧ m ∈ ρ.told (!b)) ∨
        ∃ qid a q, m = .answer qid a ∧ (.query (P.id !b) (P.id b) qid q, .answer a) ∈ ρ.log (!b)) := by
    intro b e y he
    have hlog := hR.log (!b)
    rw [Bool.not_not] at hlog
    have : some e ∈ (evs !b).map (eventOf (P.id b) (P.id !b)) := by
      rw [← hlog]; exact List.mem_map.mpr ⟨_, he, rfl⟩
    obtain ⟨m, hm, hme⟩ := List.mem_map.mp this
    obtain ⟨last, -, hl⟩ := hR.lane (!b)
    obtain ⟨a, ha⟩ := (lane_run hA (h0.transfers _) hl).1.evs m hm
    have ho := hR.origin (!b) _ ha
    rw [Bool.not_not] at ho
    exact ⟨m, hme, ho⟩
  obtain ⟨m, hm, ho⟩ := source b e y he
  rcases ho with ⟨hu, ht⟩ | ⟨qid, a, q, rfl, hl⟩
  · cases m with
    | query qid q => cases hm; exact .inl ⟨qid, q, rfl, ht⟩
    | custom d => cases hm; exact .inr (.inl ⟨d, rfl, ht⟩)
    | _ => cases hu
  · cases hm
    obtain ⟨m2, hm2, ho2⟩ := source (!b) _ _ hl
    simp only [Bool.not_not] at hm2 ho2
    refine .inr (.inr ⟨qid, a, q, rfl, ?_, hl⟩)
    cases m2 with
    | query qid' q' =>
      cases hm2
      rcases ho2 with ⟨-, ht⟩ | ⟨_, _, _, h, -⟩
      · exact ht
      · cases h
    | _ => cases hm2

/-- Full claim: a message sent once, whose datagrams have all arrived and whose transfer is not given up, has been seen
by the users of the other side. -/
def C111_full : Prop :=
  ∀ (c : Crypto), c.Lawful → ∀ (P : Pair c), P.Fits → ∀ (M G : Message → Prop), Apart c.sha M → ∀ (ρ₀ ρ : Talk c),
    TStart P M ρ₀ → Goes P M G ρ₀ ρ → ∀ (b : Bool) (m : Message) (k : Nat) (a : Option Nat), SentOnce ρ b m k a → ¬ G m →
    AllHere ρ b k → Shown P ρ b m

/-- **C111 (one datagram)** A message that fits into one datagram (query, answer or custom message) has been seen by the
users of the other side as soon as its datagram has arrived once, whatever else happens. -/
theorem C111_one_datagram (hc : c.Lawful) (P : Pair c) (hP : P.Fits) (M G : Message → Prop) (hA : Apart c.sha M)
    (ρ₀ ρ : Talk c) (h0 : TStart P M ρ₀) (h : Goes P M G ρ₀ ρ) (b : Bool) (m : Message) (k : Nat) (a : Option Nat)
    (hk : (ρ.sends b)[k]? = some (m, a)) (hfit : a.getD 0 + counted m ≤ 1024) (i : Nat)
    (hi : (ρ.src b)[i]? = some k) (hs : i ∈ ρ.seen b) : Shown P ρ b m := by
  obtain ⟨σ, evs, hR⟩ := sim_goes hc hP hA h0 h
  obtain ⟨last, -, hl⟩ := hR.lane b
  have hI := (lane_run hA (h0.transfers _) hl).1
  have hwh : ∀ x ∈ evs b, Whole x := by
    intro x hx
    obtain ⟨a, ha⟩ := hI.evs x hx
    exact (hI.sends _ ha).1
  exact (shown_iff hR (hI.sends _ (List.mem_of_getElem? hk)).1 hwh).mpr (lane_one hI hk hfit hi hs)

/-- **C111 (up to two datagrams)** Partial: a message sent once whose encoding has at most 1024 bytes more than fit into
its first part, whose transfer is not given up, has been seen by the users of the other side as soon as all its
datagrams have arrived, in any order and with any repetitions and other traffic. (Missing: longer messages, next theorem.) -/
theorem C111_arrives_partial (hc : c.Lawful) (P : Pair c) (hP : P.Fits) (M G : Message → Prop) (hA : Apart c.sha M)
    (ρ₀ ρ : Talk c) (h0 : TStart P M ρ₀) (h : Goes P M G ρ₀ ρ) (b : Bool) (m : Message) (k : Nat) (a : Option Nat)
    (hO : SentOnce ρ b m k a) (hG : ¬ G m) (hall : AllHere ρ b k)
    (hshort : (writeMessage m).length ≤ firstPart a + 1024) : Shown P ρ b m := by
  obtain ⟨σ, evs, hR⟩ := sim_goes hc hP hA h0 h
  obtain ⟨last, -, hl⟩ := hR.lane b
  obtain ⟨hI, hT⟩ := lane_run hA (h0.transfers _) hl
  have hwh : ∀ x ∈ evs b, Whole x := by
    intro x hx
    obtain ⟨a, ha⟩ := hI.evs x hx
    exact (hI.sends _ ha).1
  exact (shown_iff hR (hI.sends _ (List.mem_of_getElem? hO.1)).1 hwh).mpr
    (lane_two hI hO (hT m k a hO) hG hshort hall)

/-- **C111 (answers are sent)** An answer a subscriber of side `b` gives to a query of the other side is sent: there is a
message with this answer, with at least one datagram. (It then arrives as any message: the theorems before and after.) -/
theorem C111_answers_are_sent (hc : c.Lawful) (P : Pair c) (hP : P.Fits) (M G : Message → Prop) (hA : Apart c.sha M)
    (ρ₀ ρ : Talk c) (h0 : TStart P M ρ₀) (h : Goes P M G ρ₀ ρ) (b : Bool) (qid q a : Bytes)
    (hl : (.query (P.id b) (P.id !b) qid q, .answer a) ∈ ρ.log b) :
    ∃ (k : Nat) (s : Option Nat) (i : Nat) (d : Nat × Bytes), (ρ.sends b)[k]? = some (.answer qid a, s) ∧
      (ρ.src b)[i]? = some k ∧ (ρ.net b)[i]? = some d := by
  obtain ⟨σ, evs, hR⟩ := sim_goes hc hP hA h0 h
  obtain ⟨s, hs⟩ := hR.answered b qid q a hl
  obtain ⟨k, hk, hks⟩ := List.mem_iff_getElem.mp hs
  obtain ⟨last, l1, l2⟩ := hR.lane b
  have hI := (lane_run hA (h0.transfers _) l2).1
  have hk' : (ρ.sends b)[k]? = some (.answer qid a, s) := by rw [List.getElem?_eq_getElem hk, hks]
  have hne : cargo c.sha s (.answer qid a) ≠ [] := by
    unfold cargo
    split
    · simp
    · intro h0
      exact Transfer.split_ne_nil _ _ s (whole_length (hI.sends _ hs).1).1 (List.map_eq_nil_iff.mp h0)
  obtain ⟨x, hx⟩ := List.exists_mem_of_ne_nil _ hne
  obtain ⟨i, h1, h2⟩ := hI.all k _ s hk' x hx
  have hlen : (ρ.net b).length = last.length := by
    rw [hR.net, List.length_map]
    exact map_length_eq l1
  have hi : i < (ρ.net b).length := by
    rw [hlen]; exact (List.getElem?_eq_some_iff.mp h2).1
  exact ⟨k, s, i, _, hk', h1, List.getElem?_eq_getElem hi⟩

/-- **C111 (longer messages never arrive)** A message sent once whose encoding is longer than that is never seen by the
users of the other side, whatever arrives. -/
theorem C111_long_never_arrives (hc : c.Lawful) (P : Pair c) (hP : P.Fits) (M G : Message → Prop) (hA : Apart c.sha M)
    (ρ₀ ρ : Talk c) (h0 : TStart P M ρ₀) (h : Goes P M G ρ₀ ρ) (b : Bool) (m : Message) (k : Nat) (a : Option Nat)
    (hO : SentOnce ρ b m k a) (hlong : firstPart a + 1024 < (writeMessage m).length) : ¬ Shown P ρ b m := by
  obtain ⟨σ, evs, hR⟩ := sim_goes hc hP hA h0 h
  obtain ⟨last, -, hl⟩ := hR.lane b
  obtain ⟨hI, hT⟩ := lane_run hA (h0.transfers _) hl
  have hwh : ∀ x ∈ evs b, Whole x := by
    intro x hx
    obtain ⟨a, ha⟩ := hI.evs x hx
    exact (hI.sends _ ha).1
  rw [shown_iff hR (hI.sends _ (List.mem_of_getElem? hO.1)).1 hwh]
  exact (hT m k a hO).long hlong

theorem goes_more {P : Pair c} {M G G' : Message → Prop} (hG : ∀ m, G m → G' m) {ρ₀ ρ : Talk c}
    (h : Goes P M G ρ₀ ρ) : Goes P M G' ρ₀ ρ := by
  induction h with
  | refl => exact .refl _
  | step ρ₂ ρ₃ _ hs ih =>
    refine .step _ _ _ ih ?_
    cases hs with
    | tell b now m prio rand p' ds h1 h2 h3 h4 h5 => exact .tell _ b now m prio rand p' ds h1 h2 h3 h4 h5
    | deliver b i now subs key rand t d f r h1 => exact .deliver _ b i now subs key rand t d f r h1
    | other b f h1 h2 => exact .other _ b f h1 fun m hm => (h2 m hm).imp_right fun h => ⟨hG m h.1, h.2⟩

/-- **C111 (giving up)** When the transfer `id` of a side is given up (receiver.rs:217-225), all other messages still
arrive: the run continues as one in which only the messages with this hash may be given up. -/
theorem C111_giving_up (hc : c.Lawful) (P : Pair c) (hP : P.Fits) (M G : Message → Prop) (hA : Apart c.sha M)
    (ρ₀ ρ : Talk c) (h0 : TStart P M ρ₀) (h : Goes P M G ρ₀ ρ) (b : Bool) (id : Bytes) :
    Goes P M (fun m => G m ∨ c.sha (writeMessage m) = id) ρ₀
      { ρ with node := upd ρ.node b ⟨(ρ.node b).node, Transfer.expire (ρ.node b).transfers id⟩ } := by
  refine .step _ _ _ (goes_more (fun m h => .inl h) h) (.other ρ b _ ?_ ?_)
  · obtain ⟨σ, evs, hR⟩ := sim_goes hc hP hA h0 h
    obtain ⟨pr, hI⟩ := reachable_inv hc hP hR.reach
    have hg := (hI.node b).good
    rw [hR.node] at hg
    exact ⟨hg, rfl, rfl, rfl, fun _ => rfl⟩
  · intro m _
    by_cases hm : c.sha (writeMessage m) = id
    · refine .inr ⟨.inr hm, ?_⟩
      show (Transfer.expire _ _).get _ = none
      rw [hm]
      exact (AMap.get_erase _ _ _).trans (if_pos rfl)
    · exact .inl ((AMap.get_erase _ _ _).trans (if_neg hm))

/-! ### Example -/

def toyTalk : Talk Crypto.toy :=
  ⟨fun b => ⟨toyNode b, []⟩, fun _ => [], fun _ => [], fun _ => [], fun _ => [], fun _ => [], fun _ => []⟩

theorem toyTalk_start (M : Message → Prop) : TStart toyPair M toyTalk where
  sys := toy_start
  net := fun _ => ⟨rfl, rfl, rfl, rfl⟩
  log := fun _ => rfl
  transfers := fun _ _ _ => rfl

/-- The datagrams arrive one after the other. -/
theorem toy_deliver {M G : Message → Prop} {ρ₀ ρ : Talk Crypto.toy} (h : Goes toyPair M G ρ₀ ρ)
    (ht : ∀ x ∈ ρ.net false, x.1 = 130) : ∀ n, n ≤ (ρ.net false).length → ∃ ρ', Goes toyPair M G ρ₀ ρ' ∧
      ρ'.net false = ρ.net false ∧ ρ'.sends false = ρ.sends false ∧ ρ'.src false = ρ.src false ∧ ρ'.told = ρ.told ∧
      ∀ i < n, i ∈ ρ'.seen false := by
  intro n
  induction n with
  | zero => exact fun _ => ⟨ρ, h, rfl, rfl, rfl, rfl, by simp⟩
  | succ n ih =>
    intro hn
    obtain ⟨ρ', h1, h2, h3, h4, ht', h5⟩ := ih (by omega)
    have hget : (ρ'.net false)[n]? = some ((ρ'.net false)[n]'(by rw [h2]; omega)) := List.getElem?_eq_getElem _
    generalize (ρ'.net false)[n]'(by rw [h2]; omega) = x at hget
    have hx : x.1 = 130 := ht x (by rw [← h2]; exact List.mem_of_getElem? hget)
    obtain ⟨t, d⟩ := x
    simp only at hx
    subst hx
    cases hr : receive (toyPair.opts true) (toyPair.loop true) 140 (fun _ => .done) (ρ'.node true) d (show UInt8 from 1) toyRands with
    | mk f r =>
      refine ⟨_, .step _ _ _ h1 (.deliver ρ' false n 140 (fun _ => .done) (show UInt8 from 1) toyRands 130 d f r
        { sent := hget
          clock := by decide
          started := by decide
          recent := show 140 ≤ 130 + 1000 by decide
          mine := by intro l q id x a _ h; cases h
          able := by intro e a h; cases h
          result := hr
          clean := fun _ _ _ _ _ => .inl rfl }), ?_, ?_, ?_, ?_, ?_⟩
      · exact h2
      · exact h3
      · exact h4
      · exact ht'
      · intro i hi
        show i ∈ n :: ρ'.seen false
        by_cases hin : i = n
        · rw [hin]; simp
        · exact List.mem_cons_of_mem _ (h5 i (by omega))

theorem toy_able : Able toyPair false (toyTalk.node false).node 130 toyRands where
  bytes _ := rfl
  time := by decide
  count p prio h := by
    have := toy_peer false
    simp only [toyTalk] at h
    rw [this] at h
    cases h
    cases prio <;> decide

/-- A run in which one message is sent and all its datagrams arrive. -/
theorem toy_whole_told (m : Message) (hm : User m) : ∃ ρ, Goes toyPair (· = m) (fun _ => False) toyTalk ρ ∧
    SentOnce ρ false m 0 (some 40) ∧ AllHere ρ false 0 ∧ ρ.told false = [m] ∧ ρ.told true = [] := by
  have hA : Apart Crypto.toy.sha (· = m) := fun x y hx hy _ => hx.trans hy.symm
  obtain ⟨p', ds, hs, -⟩ := C111_send_succeeds Crypto.toy_lawful toyPair toyPair_fits (· = m) (fun _ => False) hA toyTalk
    toyTalk (toyTalk_start _) (.refl _) false 130 m false toyRands hm toy_able
  have hgo : Goes toyPair (· = m) (fun _ => False) toyTalk (told toyPair toyTalk false 130 m p' ds) :=
    .step _ _ _ (.refl _) (.tell toyTalk false 130 m false toyRands p' ds hm rfl toy_able hs
      (fun _ _ _ _ => .inl rfl))
  obtain ⟨ρ, h1, h2, h3, h4, ht, h5⟩ := toy_deliver hgo (by
    intro x hx
    obtain ⟨d, -, rfl⟩ := List.mem_map.mp (show x ∈ ds.map (130, ·) from hx)
    rfl) _ (Nat.le_refl _)
  have hsends : ρ.sends false = [(m, some 40)] := h3
  have hsrc : ρ.src false = List.replicate ds.length 0 := h4
  have hlen : ((told toyPair toyTalk false 130 m p' ds).net false).length = ds.length := by
    show (ds.map (130, ·)).length = _
    simp
  rw [hlen] at h5
  refine ⟨ρ, h1, ⟨by rw [hsends]; rfl, ?_⟩, ?_, by rw [ht]; rfl, by rw [ht]; rfl⟩
  · intro k' a' hk
    rw [hsends] at hk
    obtain ⟨h, -⟩ := List.getElem?_eq_some_iff.mp hk
    simp only [List.length_cons, List.length_nil] at h
    omega
  · intro i hi
    rw [hsrc] at hi
    exact h5 i (get_replicate hi).2

theorem toy_whole_run (m : Message) (hm : User m) : ∃ ρ, Goes toyPair (· = m) (fun _ => False) toyTalk ρ ∧
    SentOnce ρ false m 0 (some 40) ∧ AllHere ρ false 0 := by
  obtain ⟨ρ, h1, h2, h3, -⟩ := toy_whole_told m hm
  exact ⟨ρ, h1, h2, h3⟩

/-- A custom message of 900 bytes is sent, its datagram arrives, and it is seen. -/
example : ∃ ρ, Goes toyPair (· = .custom (List.replicate 900 7)) (fun _ => False) toyTalk ρ ∧
    Shown toyPair ρ false (.custom (List.replicate 900 7)) := by
  have hm : User (.custom (List.replicate 900 7)) := by
    show (List.replicate 900 (7 : UInt8)).length < 2 ^ 24
    rw [List.length_replicate]; decide
  obtain ⟨ρ, h1, h2, h3⟩ := toy_whole_run _ hm
  have hA : Apart Crypto.toy.sha (· = Message.custom (List.replicate 900 7)) := fun x y hx hy _ => hx.trans hy.symm
  have h4 : counted (.custom (List.replicate 900 7)) = 912 := by simp only [counted, List.length_replicate]
  have hfit : (some 40).getD 0 + counted (.custom (List.replicate 900 7)) ≤ 1024 := by
    rw [h4]; decide
  obtain ⟨σ, evs, hR⟩ := sim_goes Crypto.toy_lawful toyPair_fits hA (toyTalk_start _) h1
  obtain ⟨last, -, l2⟩ := hR.lane false
  have hI := (lane_run hA ((toyTalk_start _).transfers _) l2).1
  obtain ⟨i, hi, -⟩ := hI.all 0 _ _ h2.1 (.custom (List.replicate 900 7)) (by
    unfold cargo
    rw [if_pos hfit]
    exact List.mem_singleton.mpr rfl)
  exact ⟨ρ, h1, C111_one_datagram Crypto.toy_lawful toyPair toyPair_fits _ _ hA toyTalk ρ (toyTalk_start _) h1 false _ 0 _ h2.1
    hfit i hi (h3 i hi)⟩

/-- A custom message of 1500 bytes is sent, its two datagrams arrive, and it is seen. -/
example : ∃ ρ, Goes toyPair (· = .custom (List.replicate 1500 7)) (fun _ => False) toyTalk ρ ∧
    Shown toyPair ρ false (.custom (List.replicate 1500 7)) := by
  have hm : User (.custom (List.replicate 1500 7)) := by
    show (List.replicate 1500 (7 : UInt8)).length < 2 ^ 24
    rw [List.length_replicate]; decide
  obtain ⟨ρ, h1, h2, h3⟩ := toy_whole_run _ hm
  refine ⟨ρ, h1, C111_arrives_partial Crypto.toy_lawful toyPair toyPair_fits _ _ (fun x y hx hy _ => hx.trans hy.symm) toyTalk ρ
    (toyTalk_start _) h1 false _ 0 _ h2 (fun h => h) h3 ?_⟩
  obtain ⟨e1, e2, e3, -⟩ := whole_wf (user_whole hm)
  have := writeMessage_le _ _ e2 e3
  have h4 : counted (.custom (List.replicate 1500 7)) = 1512 := by simp only [counted, List.length_replicate]
  rw [h4] at this
  have : firstPart (some 40) + 1024 = 1968 := rfl
  omega

/-- **C111** The full claim is false: a custom message of 2500 bytes is sent as two datagrams, both arrive, and nobody
sees it. -/
theorem C111_full_false : ¬ C111_full := by
  intro hfull
  have hm : User (.custom (List.replicate 2500 7)) := by
    show (List.replicate 2500 (7 : UInt8)).length < 2 ^ 24
    rw [List.length_replicate]; decide
  have hA : Apart Crypto.toy.sha (· = Message.custom (List.replicate 2500 7)) := fun x y hx hy _ => hx.trans hy.symm
  obtain ⟨ρ, h1, h2, h3⟩ := toy_whole_run _ hm
  refine C111_long_never_arrives Crypto.toy_lawful toyPair toyPair_fits _ _ hA toyTalk ρ (toyTalk_start _) h1 false _ 0 _ h2 ?_
    (hfull _ Crypto.toy_lawful toyPair toyPair_fits _ _ hA toyTalk ρ (toyTalk_start _) h1 false _ 0 _ h2 (fun h => h) h3)
  have : 2500 ≤ (writeMessage (.custom (List.replicate 2500 7))).length := by
    simp only [writeMessage, List.length_append, writeBytes_length, List.length_replicate]
    rw [if_neg (by decide)]
    omega
  have : firstPart (some 40) + 1024 = 1968 := rfl
  omega

/-- Answers the query of the toy nodes. -/
def toyReply : Event → Reply
  | .query _ _ id _ => if id = List.replicate 32 4 then .answer [42] else .done
  | _ => .done

/-- C111_nothing_made_up, C111_answers_are_sent: a query of one side arrives at the other, which answers. -/
example : ∃ ρ M, Apart Crypto.toy.sha M ∧ Goes toyPair M (fun _ => False) toyTalk ρ ∧
    (.query (toyPair.id true) (toyPair.id false) (List.replicate 32 4) [5], .answer [42]) ∈ ρ.log true ∧
    (∃ (k : Nat) (s : Option Nat), (ρ.sends true)[k]? = some (.answer (List.replicate 32 4) [42], s)) ∧
    toyQuery ∈ ρ.told false := by
  have hm : User toyQuery := by refine ⟨?_, ?_⟩ <;> decide
  have hA : Apart Crypto.toy.sha (fun m => m = toyQuery ∨ m = .answer (List.replicate 32 4) [42]) := by
    intro x y hx hy h
    rcases hx with rfl | rfl <;> rcases hy with rfl | rfl <;> first | rfl | exact absurd h (by decide +kernel)
  obtain ⟨p', ds, hs, -, hone⟩ := C111_send_succeeds Crypto.toy_lawful toyPair toyPair_fits _ (fun _ => False) hA toyTalk
    toyTalk (toyTalk_start _) (.refl _) false 130 toyQuery false toyRands hm toy_able
  obtain ⟨d, rfl⟩ := List.length_eq_one_iff.mp (hone (by decide))
  have hd : toyDatagram = d := by
    unfold toyDatagram
    have : sendMessage (toyPair.opts false) false 130 (toyNode false) (toyPair.id false) (toyPair.id true) toyQuery
      false toyRands = .ok (p', [d]) := hs
    rw [this]
  subst hd
  have hgo : Goes toyPair (fun m => m = toyQuery ∨ m = .answer (List.replicate 32 4) [42]) (fun _ => False) toyTalk
      (told toyPair toyTalk false 130 toyQuery p' [toyDatagram]) :=
    .step _ _ _ (.refl _) (.tell toyTalk false 130 toyQuery false toyRands p' [toyDatagram] hm (.inl rfl) toy_able hs
      (fun _ _ _ _ => .inl rfl))
  have g1 : ((told toyPair toyTalk false 130 toyQuery p' [toyDatagram]).net false)[0]? = some (130, toyDatagram) := rfl
  have g2 : ((told toyPair toyTalk false 130 toyQuery p' [toyDatagram]).node true).node = toyNode true := rfl
  have g3 : ((told toyPair toyTalk false 130 toyQuery p' [toyDatagram]).sends false)[0]? = some (toyQuery, some 40) := rfl
  have g4 : ((told toyPair toyTalk false 130 toyQuery p' [toyDatagram]).src false)[0]? = some 0 := rfl
  have g5 : (told toyPair toyTalk false 130 toyQuery p' [toyDatagram]).log true = [] := rfl
  generalize told toyPair toyTalk false 130 toyQuery p' [toyDatagram] = ρ at hgo g1 g2 g3 g4 g5
  cases hr : receive (toyPair.opts true) (toyPair.loop true) 140 toyReply
      (ρ.node true) toyDatagram (show UInt8 from 1) toyRands with
  | mk f r =>
    have hgo2 := Goes.step _ _ _ hgo (.deliver ρ false 0 140 toyReply (show UInt8 from 1) toyRands 130 toyDatagram f r
      { sent := g1
        clock := by decide
        started := by decide
        recent := show 140 ≤ 130 + 1000 by decide
        mine := by
          intro l q id x a _ h
          simp only [toyReply] at h
          split at h
          · next e => cases h; subst e; exact ⟨by decide, .inr rfl⟩
          · cases h
        able := fun _ _ _ =>
          { bytes := fun _ => rfl
            time := by decide
            count := by
              intro p prio h
              have := toy_counts prio
              rw [show toyPair.id (!(!false)) = toyPair.id false from rfl, show ρ.node (!false) = ρ.node true from rfl, g2] at h
              have h' : (arrive (toyPair.opts true) false 140 (toyNode true) toyDatagram (show UInt8 from 1)
                toyRands).peer (toyPair.id true) (toyPair.id false) = some p := h
              rw [h'] at this
              simp only [Option.map_some, Option.some.injEq] at this
              rw [this]; decide }
        result := hr
        clean := fun _ _ _ _ _ => .inl rfl })
    obtain ⟨e, y, he, hlog⟩ := C111_one_datagram Crypto.toy_lawful toyPair toyPair_fits _ _ hA toyTalk _ (toyTalk_start _) hgo2
      false toyQuery 0 (some 40) g3 (by decide) 0 g4 (show 0 ∈ 0 :: ρ.seen false from List.mem_cons_self)
    simp only [toyQuery, eventOf, Option.some.injEq] at he
    subst he
    have hy : y = .answer [42] := by
      obtain ⟨e', -, h⟩ := List.mem_map.mp (show _ ∈ r.events.map fun e => (e, toyReply e) by
        have h : _ ∈ ρ.log true ++ r.events.map fun e => (e, toyReply e) := hlog
        rw [g5] at h
        exact h)
      cases h
      rfl
    subst hy
    obtain ⟨k, s, -, -, h1, -⟩ := C111_answers_are_sent Crypto.toy_lawful toyPair toyPair_fits _ _ hA toyTalk _ (toyTalk_start _)
      hgo2 true (List.replicate 32 4) [5] [42] hlog
    rcases C111_nothing_made_up Crypto.toy_lawful toyPair toyPair_fits _ _ hA toyTalk _ (toyTalk_start _) hgo2 true _ _ hlog with
      ⟨_, _, h2, h3⟩ | ⟨_, h2, -⟩ | ⟨_, _, _, h2, -⟩
    · cases h2
      exact ⟨_, _, hA, hgo2, hlog, ⟨k, s, h1⟩, h3⟩
    · cases h2
    · cases h2

-- C111_giving_up: nothing has happened yet
example (m : Message) := C111_giving_up Crypto.toy_lawful toyPair toyPair_fits (· = m) (fun _ => False)
  (fun _ _ hx hy _ => hx.trans hy.symm) toyTalk toyTalk (toyTalk_start _) (.refl _) false (List.replicate 32 7)

end Verif.LongTrip
