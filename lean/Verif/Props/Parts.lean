import Verif.Props.Processing

/-!
# C71: messages that arrive in parts
-/
namespace Verif.Process
open Verif.Adnl Verif.AdnlProto Verif.Address Verif.Node

variable {c : Crypto}

/-- A message of an accepted packet, with everything it is processed with. `before` is whatever happened to
the node since the previous message. -/
structure Arrival (c : Crypto) where
  before : State c → State c
  ul : Bool
  now : Nat
  subs : Event → Reply
  l : Bytes
  q : Bytes
  prio : Bool
  rand : Nat → Sender.Rand c
  msg : Message

/-- Processing of one arrival. -/
def arrive (o : Opts c) (s : Full c) (a : Arrival c) : Full c × Result :=
  processMessage o a.ul a.now a.subs { s with node := a.before s.node } a.l a.q a.prio a.rand a.msg

/-- Processing of arrivals of any packets of any peers, one after the other. -/
def arriveAll (o : Opts c) (s : Full c) : List (Arrival c) → Full c × List Result
  | [] => (s, [])
  | a :: as =>
    let r := arrive o s a
    let rs := arriveAll o r.1 as
    (rs.1, r.2 :: rs.2)

/-- The part in a message. -/
def partOf : Message → Option Transfer.Part
  | .part hash total offset data => some ⟨hash, total, offset, data⟩
  | _ => none

theorem processWhole_transfers (o : Opts c) (ul : Bool) (now : Nat) (subs : Event → Reply) (s : Full c)
    (l q : Bytes) (prio : Bool) (rand : Nat → Sender.Rand c) (m : Message) :
    (processWhole o ul now subs s l q prio rand m).1.transfers = s.transfers := by
  cases m with
  | custom d => simp only [processWhole]; cases subs (.custom l q d) <;> rfl
  | query id d =>
    simp only [processWhole]
    cases subs (.query l q id d) with
    | answer a =>
      simp only
      cases Sender.sendMessage o ul now s.node l q (.answer id a) prio rand with
      | error e => rfl
      | ok r => rfl
    | _ => rfl
  | _ => rfl

theorem arrive_transfers (o : Opts c) (s : Full c) (a : Arrival c) :
    (arrive o s a).1.transfers =
      match partOf a.msg with
      | some p => (Transfer.recvPart c.sha s.transfers p).1
      | none => s.transfers := by
  unfold arrive
  cases hm : a.msg with
  | part hash total offset data =>
    simp only [processMessage, partOf]
    cases hr : Transfer.recvPart c.sha s.transfers ⟨hash, total, offset, data⟩ with
    | mk t res =>
      cases res with
      | some buf =>
        simp only
        cases readMessage buf with
        | none => rfl
        | some y => simp only; rw [processWhole_transfers]
      | _ => rfl
  | _ => simp only [processMessage, partOf]; rw [processWhole_transfers]

/-- The parts among the arrivals. -/
def partsOf (as : List (Arrival c)) : List Transfer.Part := as.filterMap (fun a => partOf a.msg)

theorem arriveAll_transfers (o : Opts c) (as : List (Arrival c)) : ∀ (s : Full c),
    (arriveAll o s as).1.transfers = (Transfer.recvParts c.sha s.transfers (partsOf as)).1 := by
  induction as with
  | nil => intro s; rfl
  | cons a as ih =>
    intro s
    simp only [arriveAll, ih, arrive_transfers, partsOf, List.filterMap_cons]
    cases partOf a.msg with
    | none => rfl
    | some p => rfl

theorem arrive_part_none (o : Opts c) (s : Full c) (a : Arrival c) (p : Transfer.Part) (hp : partOf a.msg = some p)
    (h : (Transfer.recvPart c.sha s.transfers p).2 = .none) : (arrive o s a).2 = ⟨[], [], true⟩ := by
  unfold arrive
  cases hm : a.msg with
  | part hash total offset data =>
    rw [hm] at hp
    simp only [partOf, Option.some.injEq] at hp
    subst hp
    simp only [processMessage]
    cases hr : Transfer.recvPart c.sha s.transfers ⟨hash, total, offset, data⟩ with
    | mk t res =>
      rw [hr] at h
      simp only at h
      subst h
      rfl
  | _ => rw [hm] at hp; cases hp

theorem arriveAll_parts_none (o : Opts c) (hash : Bytes) (as : List (Arrival c)) : ∀ (s : Full c),
    (∀ e ∈ (partsOf as).zip (Transfer.recvParts c.sha s.transfers (partsOf as)).2, e.1.hash = hash → e.2 = .none) →
    ∀ e ∈ as.zip (arriveAll o s as).2, ∀ p, partOf e.1.msg = some p → p.hash = hash → e.2 = ⟨[], [], true⟩ := by
  induction as with
  | nil => intro s _ e he; simp [arriveAll] at he
  | cons a as ih =>
    intro s h e he p hp hh
    simp only [arriveAll, List.zip_cons_cons, List.mem_cons] at he
    have ht := arrive_transfers o s a
    cases hpa : partOf a.msg with
    | none =>
      rw [hpa] at ht
      have e1 : partsOf (a :: as) = partsOf as := by simp [partsOf, hpa]
      rw [e1] at h
      rcases he with rfl | he
      · rw [hpa] at hp; cases hp
      · exact ih (arrive o s a).1 (by rw [ht]; exact h) e he p hp hh
    | some p0 =>
      rw [hpa] at ht
      have e1 : partsOf (a :: as) = p0 :: partsOf as := by simp [partsOf, hpa]
      rw [e1] at h
      simp only [Transfer.recvParts, List.zip_cons_cons, List.mem_cons] at h
      rcases he with rfl | he
      · rw [hpa] at hp
        cases hp
        exact arrive_part_none o s a _ hpa (h _ (.inl rfl) hh)
      · exact ih (arrive o s a).1 (by rw [ht]; exact fun x hx => h x (.inr hx)) e he p hp hh

/-- **C71 (parts)** A message is cut into pieces, which arrive in any order, repeated any number of times, in
any packets, with any other messages of anybody in between. Until the last missing piece arrives nothing
happens; when it does, the node behaves as if the message itself had arrived in its place, and no trace of
the pieces is left. -/
theorem C71_parts (o : Opts c) (m : Message) (hm : m.wf) (hnp : isPart m = false)
    (ps : List (Nat × Bytes)) (hcut : Spec.IsCut (writeMessage m) ps)
    (s : Full c) (hnew : s.transfers.get (c.sha (writeMessage m)) = none)
    (pre : List (Arrival c)) (last : Arrival c) (offset : Nat) (d : Bytes)
    (hlast : last.msg = .part (c.sha (writeMessage m)) (writeMessage m).length offset d)
    (hin : (offset, d) ∈ ps)
    (hpre : ∀ a ∈ pre, ∀ p, partOf a.msg = some p → p.hash = c.sha (writeMessage m) →
      p.total = (writeMessage m).length ∧ (p.offset, p.data) ∈ ps ∧ (p.offset, p.data) ≠ (offset, d))
    (hcover : ∀ x ∈ ps, x = (offset, d) ∨
      ∃ a ∈ pre, a.msg = .part (c.sha (writeMessage m)) (writeMessage m).length x.1 x.2) :
    (∀ e ∈ pre.zip (arriveAll o s pre).2, ∀ p, partOf e.1.msg = some p → p.hash = c.sha (writeMessage m) →
      e.2 = ⟨[], [], true⟩) ∧
    let s' := (arriveAll o s pre).1
    let clean : Full c := { s' with transfers := s'.transfers.erase (c.sha (writeMessage m)) }
    arrive o s' last = arrive o clean { last with msg := m } ∧
    (arrive o s' last).1.transfers.get (c.sha (writeMessage m)) = none := by
  have hmem : ∀ q ∈ partsOf pre, ∃ a ∈ pre, partOf a.msg = some q := by
    intro q hq
    exact List.mem_filterMap.mp hq
  have key := Props.C06_completes_on_last_part c.sha (writeMessage m) ps hcut s.transfers hnew (partsOf pre)
    ⟨c.sha (writeMessage m), (writeMessage m).length, offset, d⟩
    (by intro q hq hh
        obtain ⟨a, ha, hpa⟩ := hmem q hq
        exact ⟨(hpre a ha q hpa hh).1, (hpre a ha q hpa hh).2.1⟩)
    rfl rfl hin
    (by intro q hq hh
        obtain ⟨a, ha, hpa⟩ := hmem q hq
        exact (hpre a ha q hpa hh).2.2)
    (by intro x hx
        rcases hcover x hx with h | ⟨a, ha, h⟩
        · exact .inl h
        · exact .inr ⟨⟨c.sha (writeMessage m), (writeMessage m).length, x.1, x.2⟩,
            List.mem_filterMap.mpr ⟨a, ha, by rw [h]; rfl⟩, rfl, rfl⟩)
  refine ⟨arriveAll_parts_none o _ pre s key.1, ?_⟩
  have ht := arriveAll_transfers o pre s
  have h2 := key.2
  rw [← ht] at h2
  intro s' clean
  have hst : s'.transfers = (arriveAll o s pre).1.transfers := rfl
  rw [← hst] at h2
  have hrd : readMessage (writeMessage m) = some (m, []) := by
    have := AdnlProto.message_encodes m hm []
    simpa using this
  have hrecv : Transfer.recvPart c.sha s'.transfers
      ⟨c.sha (writeMessage m), (writeMessage m).length, offset, d⟩ =
      (s'.transfers.erase (c.sha (writeMessage m)), .some (writeMessage m)) := by
    unfold Transfer.recvPart at h2 ⊢
    simp only at h2 ⊢
    revert h2
    split
    · intro h; cases h
    · intro h; cases h
    · rename_i x hx hx'
      intro h
      rw [h]
  have e : arrive o s' last = arrive o clean { last with msg := m } := by
    unfold arrive
    rw [hlast]
    simp only
    rw [processMessage_whole _ _ _ _ _ _ _ _ _ m hnp]
    simp only [processMessage, hrecv, hrd]
    rfl
  refine ⟨e, ?_⟩
  rw [e, arrive_transfers]
  have : partOf m = none := by cases m <;> first | rfl | cases hnp
  simp only [this]
  rw [AMap.get_erase]
  simp

/-- A query in two parts, in the wrong order, with one of them twice and other messages in between, seen by
the subscribers once, under the ids of the packet with the last part. -/
example :
    let l := List.replicate 32 1
    let data := writeMessage (.query (List.replicate 32 4) [1, 2, 3])
    let h := Crypto.toy.sha data
    let q (k : UInt8) := List.replicate 32 k
    let a (k : UInt8) (m : Message) : Arrival Crypto.toy :=
      ⟨id, false, 200, fun _ => .done, l, q k, false, Sender.toyRand, m⟩
    let r := arriveAll Sender.toyOpts ⟨Sender.toyState, []⟩
      [a 2 (.part h 40 30 (data.drop 30)), a 2 (.custom [9]), a 2 (.part h 40 30 (data.drop 30)), a 2 .nop,
        a 2 (.part h 40 0 (data.take 30))]
    r.2.map (·.events) = [[], [.custom l (q 2) [9]], [], [], [.query l (q 2) (List.replicate 32 4) [1, 2, 3]]] ∧
    r.1.transfers.length = 0 := by decide +kernel

end Verif.Process
