import Verif.Proofs.Receiver2
import Verif.Props.Attribution
import Verif.Model.ReinitConc

/-!
# C15: session dates
-/
namespace Verif.Receiver
open Verif.Adnl Verif.AdnlProto Verif.Address Verif.Node

variable {c : Crypto}

/-- What happens to a node: a datagram arrives or a message is sent. -/
inductive Op (c : Crypto) where
  | recv (now : Nat) (data : Bytes) (key : c.Sec) (rand : Nat → Sender.Rand c)
  | send (now : Nat) (localId peerId : Bytes) (m : Message) (priority : Bool)
      (rand : Nat → Sender.Rand c)

/-- One operation; a failed send leaves the numbers as they were. -/
def stepOp (o : Opts c) (ul : Bool) (s : State c) : Op c → State c
  | .recv now data key rand => (handle o ul now s data key rand).1
  | .send now l q m prio rand =>
    match Sender.sendMessage o ul now s l q m prio rand with
    | .ok (p, _) => s.setPeer l q p
    | .error _ => s

def runOps (o : Opts c) (ul : Bool) (s : State c) (ops : List (Op c)) : State c :=
  ops.foldl (stepOp o ul) s

theorem tryReinit_date_le (p : Peer c) (d : Nat) : p.sendDate ≤ (p.tryReinit d).1.sendDate := by
  unfold Peer.tryReinit
  split
  · exact Nat.le_refl _
  split
  · split <;> (simp only; omega)
  · exact Nat.le_refl _

theorem checkDates_date_le (o : Opts c) (now : Nat) (p : Peer c) (d : Option ReinitDates) :
    p.sendDate ≤ (checkDates o now p d).1.sendDate := by
  unfold checkDates
  cases d with
  | none => exact Nat.le_refl _
  | some d =>
    simp only
    split
    · exact Nat.le_refl _
    cases addU32 o.build now o.clockTolerance with
    | none => exact Nat.le_refl _
    | some limit =>
      simp only
      split
      · exact Nat.le_refl _
      have := tryReinit_date_le p d.loc
      cases hr : p.tryReinit d.loc with
      | mk p' b =>
        rw [hr] at this
        cases b with
        | false => exact this
        | true => simp only; split <;> exact this

theorem checkHistory_date (o : Opts c) (p : Peer c) (prio : Bool) (n : Option Nat) :
    (checkHistory o p prio n).1.sendDate = p.sendDate := by
  unfold checkHistory
  cases n with
  | none => rfl
  | some n =>
    simp only
    split
    · cases prio <;> rfl
    · rfl

/-- C15: over any history of received datagrams (arbitrary bytes, arbitrary clock readings) and sent
messages, a known peer stays known and its remembered reinit date never decreases. -/
theorem C15_date_never_decreases (o : Opts c) (ul : Bool) (s : State c) (ops : List (Op c))
    (l q : Bytes) (p : Peer c) (h : s.peer l q = some p) :
    ∃ p', (runOps o ul s ops).peer l q = some p' ∧ p.sendDate ≤ p'.sendDate := by
  have key : ∀ ops : List (Op c), ∀ s : State c,
      Ext (fun a b => a.sendDate ≤ b.sendDate) s (runOps o ul s ops) := by
    intro ops
    induction ops with
    | nil => intro s; exact Ext.refl (fun _ => Nat.le_refl _) s
    | cons op ops ih =>
      intro s
      refine Ext.trans (G := fun a b : Peer c => a.sendDate ≤ b.sendDate)
        (fun _ _ _ => Nat.le_trans) ?_ (ih (stepOp o ul s op))
      cases op with
      | recv now data key rand =>
        refine handle_ext (G := fun a b : Peer c => a.sendDate ≤ b.sendDate) (fun _ => Nat.le_refl _) (fun _ _ _ => Nat.le_trans)
          (fun _ _ => Nat.le_refl _) (fun p d now o => checkDates_date_le o now p d) ?_ ?_ o ul now s
          data key rand
        · intro p prio n cf o
          rw [checkSeqnos_fst, checkHistory_date]
          exact Nat.le_refl _
        · intro p p' os
          rw [os.1]
          exact Nat.le_refl _
      | send now l q m prio rand =>
        simp only [stepOp]
        cases hm : Sender.sendMessage o ul now s l q m prio rand with
        | error e => exact Ext.refl (fun _ => Nat.le_refl _) s
        | ok r =>
          obtain ⟨p', ds⟩ := r
          obtain ⟨p0, h0, os⟩ := Sender.sendMessage_onlySent _ _ _ _ _ _ _ _ _ _ _ hm
          refine Ext.setPeer (fun _ => Nat.le_refl _) h0 ?_
          rw [os.1]
          exact Nat.le_refl _
  exact key ops s l q p h

theorem addU32_le {m : Build} {a b x : Nat} (h : addU32 m a b = some x) : x ≤ a + b := by
  unfold addU32 at h
  split at h
  · cases h; exact Nat.le_refl _
  · cases m with
    | debug => cases h
    | release => simp only [Option.some.injEq] at h; rw [← h]; exact Nat.mod_le _ _

theorem tryReinit_true {p p' : Peer c} {d : Nat} (h : p.tryReinit d = (p', true)) :
    p.sendDate ≤ d ∧ p'.sendDate = d := by
  unfold Peer.tryReinit at h
  split at h
  · cases h
    rename_i he
    exact ⟨by omega, he.symm⟩
  split at h
  · split at h <;> (cases h; exact ⟨by omega, rfl⟩)
  · cases h

theorem checkDates_go {o : Opts c} {now : Nat} {p p' : Peer c} {d : ReinitDates}
    (h : checkDates o now p (some d) = (p', .go)) :
    d.target ≤ o.startTime ∧ d.loc ≤ now + o.clockTolerance ∧ p.tryReinit d.loc = (p', true) ∧
    (d.target = 0 ∨ d.target = o.startTime) := by
  unfold checkDates at h
  simp only at h
  split at h
  · cases h
  rename_i h1
  cases ha : addU32 o.build now o.clockTolerance with
  | none => rw [ha] at h; cases h
  | some limit =>
    rw [ha] at h
    simp only at h
    split at h
    · cases h
    rename_i h2
    cases hr : p.tryReinit d.loc with
    | mk p1 b =>
      rw [hr] at h
      cases b with
      | false => cases h
      | true =>
        simp only at h
        split at h
        · cases h
        · rename_i h3
          cases h
          have := addU32_le ha
          exact ⟨by omega, by omega, rfl, by omega⟩

/-- C15: a packet is processed only if its dates are acceptable: our date in it is not newer than our
start (nor older, unless it is 0), the peer's date is not newer than the clock plus the tolerance and
not older than the date remembered before; afterwards the remembered date is the one in the packet. -/
theorem C15_accepted_dates (o : Opts c) (ul : Bool) (now : Nat) (s : State c) (data : Bytes)
    (key : c.Sec) (rand : Nat → Sender.Rand c) (l q : Bytes) (prio : Bool) (ms : List Message)
    (hacc : (handle o ul now s data key rand).2.1 = .accepted l q prio ms) :
    ∃ s1 d pkt rest, decrypt o s data = (s1, .ok (some d)) ∧ readPacket d.data = some (pkt, rest) ∧
      ∀ dates, pkt.reinitDates = some dates →
        dates.target ≤ o.startTime ∧ (dates.target = 0 ∨ dates.target = o.startTime) ∧
        dates.loc ≤ now + o.clockTolerance ∧
        (∀ p, s.peer l q = some p → p.sendDate ≤ dates.loc) ∧
        ∃ p', (handle o ul now s data key rand).1.peer l q = some p' ∧ p'.sendDate = dates.loc := by
  obtain ⟨s1, d, pkt, rest, e1, e2, rfl, rfl, rfl, -, e3, e4⟩ := handle_accepted hacc
  refine ⟨s1, d, pkt, rest, e1, e2, ?_⟩
  intro dates hdates
  obtain ⟨s2, check, p2, f1, f2, f3, f4, f5⟩ := checkPacket_peer e3
  obtain ⟨p3, p4, g1, g2, g3⟩ := session_peer f4
  rw [hdates] at g1
  obtain ⟨a1, a2, a3, a4⟩ := checkDates_go g1
  obtain ⟨b1, b2⟩ := tryReinit_true a3
  refine ⟨a1, a4, a2, ?_, ?_⟩
  · intro p hp
    have x0 : Ext (fun a b : Peer c => a.sendDate = b.sendDate) s s1 := by
      have := decrypt_ext (G := fun a b : Peer c => a.sendDate = b.sendDate) (fun _ => rfl) o s data
      rw [e1] at this
      exact this
    have x1 := source_ext (G := fun a b : Peer c => a.sendDate = b.sendDate) (fun _ => rfl)
      (fun _ _ => rfl) o now s1 d.data pkt d.localId d.chan key
    rw [f1] at x1
    obtain ⟨p', hp', hd'⟩ := Ext.trans (G := fun a b : Peer c => a.sendDate = b.sendDate)
      (fun _ _ _ a b => Eq.trans a b) x0 x1 _ _ _ hp
    rw [lookup_ok f2] at hp'
    cases hp'
    omega
  · refine ⟨p4, ?_, ?_⟩
    · rw [e4, f5, g3, peer_setPeer, if_pos ⟨rfl, rfl, peer_some_table (lookup_ok f2)⟩]
    · have : p4 = (checkHistory o p3 d.priority pkt.seqno).1 := by
        rw [← checkSeqnos_fst o p3 d.priority pkt.seqno pkt.confirmSeqno, g2]
      rw [this, checkHistory_date]
      exact b2

/-- C15: a packet is processed only if it does not confirm a packet that was never sent: the number it confirms is at
most the number of packets of its kind sent to the peer. -/
theorem C15_accepted_confirms (o : Opts c) (ul : Bool) (now : Nat) (s : State c) (data : Bytes)
    (key : c.Sec) (rand : Nat → Sender.Rand c) (l q : Bytes) (prio : Bool) (ms : List Message)
    (hacc : (handle o ul now s data key rand).2.1 = .accepted l q prio ms) :
    ∃ s1 d pkt rest, decrypt o s data = (s1, .ok (some d)) ∧ readPacket d.data = some (pkt, rest) ∧
      ∃ p', (handle o ul now s data key rand).1.peer l q = some p' ∧
        ∀ n, pkt.confirmSeqno = some n → n ≤ p'.sendSeqno prio := by
  obtain ⟨s1, d, pkt, rest, e1, e2, rfl, rfl, rfl, -, e3, e4⟩ := handle_accepted hacc
  refine ⟨s1, d, pkt, rest, e1, e2, ?_⟩
  obtain ⟨s2, check, p2, f1, f2, f3, f4, f5⟩ := checkPacket_peer e3
  obtain ⟨p3, p4, g1, g2, g3⟩ := session_peer f4
  refine ⟨p4, ?_, ?_⟩
  · rw [e4, f5, g3, peer_setPeer, if_pos ⟨rfl, rfl, peer_some_table (lookup_ok f2)⟩]
  · intro n hn
    rw [hn] at g2
    unfold checkSeqnos at g2
    split at g2
    · cases g2
    · simp only at g2
      split at g2
      · cases g2
      · cases g2
        omega

/-- Errors about dates that are raised before anything is remembered. -/
def dateError : Err → Bool
  | .dstTooNew | .srcTooNew | .srcTooOld => true
  | _ => false

theorem checkDates_fail {o : Opts c} {now : Nat} {p p' : Peer c} {d : Option ReinitDates} {e : Err}
    (h : checkDates o now p d = (p', .fail e)) : p' = p := by
  unfold checkDates at h
  cases d with
  | none => cases h
  | some d =>
    simp only at h
    split at h
    · cases h; rfl
    cases ha : addU32 o.build now o.clockTolerance with
    | none => rw [ha] at h; cases h; rfl
    | some limit =>
      rw [ha] at h
      simp only at h
      split at h
      · cases h; rfl
      cases hr : p.tryReinit d.loc with
      | mk p1 b =>
        rw [hr] at h
        cases b with
        | false =>
          simp only at h
          cases h
          unfold Peer.tryReinit at hr
          split at hr
          · cases hr
          split at hr
          · split at hr <;> cases hr
          · cases hr; rfl
        | true =>
          simp only at h
          split at h <;> cases h

/-- C15: a datagram refused because of its dates leaves every known peer as it was: dates, histories,
numbers and keys; only the address may have been updated from the packet. -/
theorem C15_rejected_untouched (o : Opts c) (ul : Bool) (now : Nat) (s : State c) (data : Bytes)
    (key : c.Sec) (rand : Nat → Sender.Rand c) (e : Err) (he : dateError e = true)
    (hrej : (handle o ul now s data key rand).2.1 = .fail e) (l q : Bytes) (p : Peer c)
    (hp : s.peer l q = some p) :
    ∃ a, (handle o ul now s data key rand).1.peer l q = some { p with addr := a } := by
  let G : Peer c → Peer c → Prop := fun a b => b = { a with addr := b.addr }
  have hG : ∀ p, G p p := fun _ => rfl
  have hT : ∀ a b d, G a b → G b d → G a d := by
    intro a b d h1 h2
    simp only [G] at *
    rw [h2, h1]
  suffices hx : Ext G s (handle o ul now s data key rand).1 by
    obtain ⟨p', h1, h2⟩ := hx l q p hp
    exact ⟨p'.addr, by rw [h1]; exact congrArg some h2⟩
  have x0 := decrypt_ext hG o s data
  unfold handle at hrej ⊢
  cases hdec : decrypt o s data with
  | mk s1 r =>
    rw [hdec] at hrej x0
    cases r with
    | error e => exact x0
    | ok x =>
      cases x with
      | none => exact x0
      | some d =>
        simp only at hrej ⊢
        split
        · exact x0
        rename_i hver
        rw [if_neg hver] at hrej
        cases hr : readPacket d.data with
        | none => exact x0
        | some y =>
          obtain ⟨pkt, rest⟩ := y
          rw [hr] at hrej
          simp only at hrej ⊢
          have x1 := source_ext hG (fun _ _ => rfl) o now s1 d.data pkt d.localId d.chan key
          have main : ∀ z, (checkPacket o ul now s1 d.data pkt d.localId d.chan d.priority key rand) = z →
              z.2.1 = .fail e → Ext G s z.1 := by
            intro z hz hze
            subst hz
            unfold checkPacket at hze ⊢
            cases hsrc : source o now s1 d.data pkt d.localId d.chan key with
            | mk s2 r =>
              rw [hsrc] at x1 hze
              cases r with
              | error e => exact Ext.trans hT x0 x1
              | ok x =>
                obtain ⟨q', check⟩ := x
                simp only at hze ⊢
                cases hl : lookup s2 d.localId q' d.chan.isSome with
                | error e => exact Ext.trans hT x0 x1
                | ok p2 =>
                  rw [hl] at hze
                  simp only at hze ⊢
                  cases hv : (if check = true then verify c d.data pkt.signature p2.pub false else none) with
                  | some e => exact Ext.trans hT x0 x1
                  | none =>
                    rw [hv] at hze
                    simp only at hze ⊢
                    refine Ext.trans hT x0 (Ext.trans hT x1 ?_)
                    unfold session at hze ⊢
                    cases hcd : checkDates o now p2 pkt.reinitDates with
                    | mk p' v =>
                      rw [hcd] at hze
                      cases v with
                      | fail e' =>
                        simp only
                        rw [checkDates_fail hcd]
                        exact Ext.setPeer hG (lookup_ok hl) (hG _)
                      | nop =>
                        exfalso
                        simp only at hze
                        cases hm : Sender.sendMessage o ul now (s2.setPeer d.localId q' p') d.localId q'
                            .nop false rand with
                        | error e' => rw [hm] at hze; simp only at hze; cases hze; cases he
                        | ok r => rw [hm] at hze; simp only at hze; cases hze; cases he
                      | go =>
                        exfalso
                        simp only at hze
                        cases hq : checkSeqnos o p' d.priority pkt.seqno pkt.confirmSeqno with
                        | mk p'' w =>
                          rw [hq] at hze
                          cases w with
                          | go => cases hze
                          | duplicate => cases hze
                          | confirmTooNew => simp only at hze; cases hze; cases he
          cases hcp : checkPacket o ul now s1 d.data pkt d.localId d.chan d.priority key rand with
          | mk s2 z =>
            obtain ⟨z1, z2⟩ := z
            rw [hcp] at hrej
            cases z1 with
            | peer id => cases hrej
            | duplicate => cases hrej
            | fail e' =>
              simp only at hrej
              cases hrej
              exact main _ hcp rfl

/-- The histories of a peer as after a restart of the other side. -/
def Fresh (p : Peer c) : Prop :=
  p.sendOrd = 0 ∧ p.sendPrio = 0 ∧ p.recvOrd = PacketsHistory.reset p.recvOrd ∧
  p.recvPrio = PacketsHistory.reset p.recvPrio

/-- C15: a date newer than a known one is remembered and resets all four histories. -/
theorem C15_newer_date_resets_partial (p : Peer c) (d : Nat) (hknown : p.sendDate ≠ 0)
    (h : p.sendDate < d) :
    Fresh (p.tryReinit d).1 ∧ (p.tryReinit d).1.sendDate = d ∧ (p.tryReinit d).2 = true := by
  unfold Peer.tryReinit
  rw [if_neg (by omega), if_pos (by omega), if_pos hknown]
  exact ⟨⟨rfl, rfl, rfl, rfl⟩, rfl, rfl⟩

/-- C15: the same date again, or an older one, changes nothing. -/
theorem C15_same_or_older_date_keeps (p : Peer c) (d : Nat) (h : d ≤ p.sendDate) :
    (p.tryReinit d).1 = p := by
  unfold Peer.tryReinit
  split
  · rfl
  · rw [if_neg (by omega)]

/-- Dates applied one after the other; the flags tell at which ones the histories were reset. -/
def resets (p : Peer c) : List Nat → List (Nat × Bool)
  | [] => []
  | d :: ds => (d, decide (p.sendDate ≠ 0 ∧ p.sendDate < d)) :: resets (p.tryReinit d).1 ds

/-- C15: for every sequence of dates, each date resets the histories at most once: the dates at which
resets happen are strictly increasing. -/
theorem C15_each_date_resets_at_most_once (p : Peer c) (ds : List Nat) :
    (((resets p ds).filter (·.2)).map (·.1)).Pairwise (· < ·) ∧
    ∀ d ∈ ((resets p ds).filter (·.2)).map (·.1), p.sendDate < d := by
  induction ds generalizing p with
  | nil => simp [resets]
  | cons d ds ih =>
    obtain ⟨h1, h2⟩ := ih (p.tryReinit d).1
    have hle := tryReinit_date_le p d
    simp only [resets, List.filter_cons]
    by_cases hc : p.sendDate ≠ 0 ∧ p.sendDate < d
    · have hd := (C15_newer_date_resets_partial p d hc.1 hc.2).2.1
      rw [if_pos (by simpa using hc)]
      simp only [List.map_cons, List.pairwise_cons, List.mem_cons]
      refine ⟨⟨?_, h1⟩, ?_⟩
      · intro x hx
        have := h2 x hx
        omega
      · rintro x (rfl | hx)
        · exact hc.2
        · have := h2 x hx
          omega
    · rw [if_neg (by simpa using hc)]
      refine ⟨h1, ?_⟩
      intro x hx
      have := h2 x hx
      omega

/-- C15, the last clause in full: every strictly newer date resets the history. -/
def C15_full : Prop :=
  ∀ (c : Crypto) (p : Peer c) (d : Nat), p.sendDate < d → Fresh (p.tryReinit d).1

/-- It fails for the first date: while none is known (0) the histories are kept. -/
theorem C15_full_false : ¬ C15_full := by
  intro h
  have := (h Crypto.toy { Peer.new 100 ⟨1, 2, 3, 4, 5⟩ (7 : UInt8) (9 : UInt8) with sendOrd := 3 } 50
    (by decide)).1
  revert this
  decide

/-- With several threads the date can go back: two packets with dates 10 and 7 for a peer with date 5
both load 5, the first stores 10, then the second stores 7. (Packets are handled by separate tasks.) -/
theorem C15_concurrent_date_can_decrease :
    ∃ (ts : List ReinitConc.Pc) (sched sched' : List Nat),
      (ReinitConc.run ⟨5, 0⟩ ts sched).1.date = 10 ∧
      (ReinitConc.run ⟨5, 0⟩ ts (sched ++ sched')).1.date = 7 :=
  ⟨[.start 10, .start 7], [0, 1, 0], [1, 0, 1], by decide, by decide⟩

/-- Non-vacuity: an honest handshake packet is accepted and its date remembered; the same packet with
the receiver started long ago is refused with an untouched peer. -/
example : (match handle { Sender.toyOpts with socketAddr := ⟨9, 9, 9, 9, 9⟩ } false 200
    Sender.toyState honestPacket (13 : UInt8) Sender.toyRand with
    | (s, .accepted l q _ _, _) => (s.peer l q).map (·.sendDate)
    | _ => none) = some 100 := by decide +kernel

example : (handle { Sender.toyOpts with socketAddr := ⟨9, 9, 9, 9, 9⟩, clockTolerance := 10 } false 20
    Sender.toyState honestPacket (13 : UInt8) Sender.toyRand).2.1 = .fail .badAddressList := by
  decide +kernel

/-- Handshake contents with the given dates, unsigned, naming a known peer. -/
def datedContents (id : Bytes) (loc target : Nat) : Bytes :=
  Tl.writeU32 0xd142cd89 ++ (Tl.writeBytes [1, 2, 3] ++ (Tl.writeU32 (2 + 4 + 1024) ++ (id ++
    (writeMessage .nop ++ (Tl.writeU32 loc ++ (Tl.writeU32 target ++
      Tl.writeBytes [0, 0, 0, 0, 0, 0, 0]))))))

def datedPacket (loc target : Nat) : Bytes :=
  buildHandshake Crypto.toy (List.replicate 32 1) (Crypto.toy.pubOf (3 : UInt8)) (11 : UInt8) none
    (datedContents (List.replicate 32 2) loc target)

/-- All three refusals occur. -/
example :
    (handle Sender.toyOpts false 200 Sender.toyState (datedPacket 150 101) (13 : UInt8)
      Sender.toyRand).2.1 = .fail .dstTooNew ∧
    (handle Sender.toyOpts false 200 Sender.toyState (datedPacket 261 100) (13 : UInt8)
      Sender.toyRand).2.1 = .fail .srcTooNew ∧
    (handle Sender.toyOpts false 200
      (handle Sender.toyOpts false 200 Sender.toyState (datedPacket 150 100) (13 : UInt8)
        Sender.toyRand).1 (datedPacket 149 100) (13 : UInt8) Sender.toyRand).2.1 =
      .fail .srcTooOld := by decide +kernel

namespace SessionExample
def start : State Crypto.toy :=
  (handle Sender.toyOpts false 200 Sender.toyState (datedPacket 150 100) (13 : UInt8) Sender.toyRand).1

-- C15_date_never_decreases, C15_rejected_untouched: the peer is known after the first packet, and an older
-- packet is refused
example : start.peer (List.replicate 32 1) (List.replicate 32 2) ≠ none ∧
    (handle Sender.toyOpts false 200 start (datedPacket 149 100) (13 : UInt8) Sender.toyRand).2.1 = .fail .srcTooOld :=
  by decide +kernel

example (p : Peer Crypto.toy) (h : start.peer (List.replicate 32 1) (List.replicate 32 2) = some p) :=
  C15_date_never_decreases Sender.toyOpts false start [.recv 200 (datedPacket 160 100) (13 : UInt8) Sender.toyRand]
    (List.replicate 32 1) (List.replicate 32 2) p h

example (p : Peer Crypto.toy) (h : start.peer (List.replicate 32 1) (List.replicate 32 2) = some p) :=
  C15_rejected_untouched Sender.toyOpts false 200 start (datedPacket 149 100) (13 : UInt8) Sender.toyRand .srcTooOld rfl
    (by decide +kernel) (List.replicate 32 1) (List.replicate 32 2) p h

-- C15_accepted_dates
example := C15_accepted_dates Sender.toyOpts false 200 Sender.toyState (datedPacket 150 100) (13 : UInt8) Sender.toyRand
  (List.replicate 32 1) (List.replicate 32 2) false [.nop] (by decide +kernel)

-- C15_accepted_confirms
example := C15_accepted_confirms Sender.toyOpts false 200 Sender.toyState (datedPacket 150 100) (13 : UInt8) Sender.toyRand
  (List.replicate 32 1) (List.replicate 32 2) false [.nop] (by decide +kernel)

/-- Contents as above which confirm packet number `n`. -/
def confirmingContents (id : Bytes) (n : Nat) : Bytes :=
  Tl.writeU32 0xd142cd89 ++ (Tl.writeBytes [1, 2, 3] ++ (Tl.writeU32 (2 + 4 + 128) ++ (id ++
    (writeMessage .nop ++ (Tl.writeU64 n ++ Tl.writeBytes [0, 0, 0, 0, 0, 0, 0])))))

/-- A packet that confirms packet 1 is refused by a node which has sent none. -/
example : (handle Sender.toyOpts false 200 Sender.toyState (buildHandshake Crypto.toy (List.replicate 32 1)
      (Crypto.toy.pubOf (3 : UInt8)) (11 : UInt8) none (confirmingContents (List.replicate 32 2) 1)) (13 : UInt8)
      Sender.toyRand).2.1 = .fail .confirmTooNew ∧
    (handle Sender.toyOpts false 200 Sender.toyState (buildHandshake Crypto.toy (List.replicate 32 1)
      (Crypto.toy.pubOf (3 : UInt8)) (11 : UInt8) none (confirmingContents (List.replicate 32 2) 0)) (13 : UInt8)
      Sender.toyRand).2.1 = .accepted (List.replicate 32 1) (List.replicate 32 2) false [.nop] := by decide +kernel

-- C15_newer_date_resets_partial, C15_same_or_older_date_keeps
example (p : Peer Crypto.toy) (h : start.peer (List.replicate 32 1) (List.replicate 32 2) = some p)
    (hd : p.sendDate = 150) :=
  And.intro (C15_newer_date_resets_partial p 160 (by omega) (by omega)) (C15_same_or_older_date_keeps p 150 (by omega))

example : (start.peer (List.replicate 32 1) (List.replicate 32 2)).map (·.sendDate) = some 150 := by decide +kernel
end SessionExample

end Verif.Receiver
