import Verif.Proofs.Lane
import Mathlib.Algebra.BigOperators.Group.Finset.Basic
import Mathlib.Algebra.Order.BigOperators.Group.Finset

/-!
# Counting: how often a message of a direction is seen (for C116)

Each packet carries a number of bytes of a message; seeing the message takes all its bytes, and if packets which have
arrived before are dropped, the bytes of a packet count once.
-/
namespace Verif.LongTrip
open Verif.Tl Verif.Adnl Verif.AdnlProto Verif.Address Verif.Node Verif.Receiver Verif.Sender Verif.Props

/-- Bytes the table holds of a transfer. -/
def heldBytes (T : Transfer.Table) (h : Bytes) : Nat := ((T.get h).map (·.received)).getD 0

/-- A part adds its bytes at most; a message is complete when there are enough. -/
theorem held_part (sha : Bytes → Bytes) (tbl : Transfer.Table) (q : Transfer.Part)
    (hT : ∀ t, tbl.get q.hash = some t → t.total = q.total) :
    (∀ buf, (Transfer.recvPart sha tbl q).2 = .some buf →
      heldBytes tbl q.hash + q.data.length = q.total ∧ heldBytes (Transfer.recvPart sha tbl q).1 q.hash = 0) ∧
    ((Transfer.recvPart sha tbl q).2 ≠ .hang →
      heldBytes (Transfer.recvPart sha tbl q).1 q.hash ≤ heldBytes tbl q.hash + q.data.length) := by
  obtain ⟨t, ht, hr, htot⟩ : ∃ t, (tbl.get q.hash).getD (Transfer.Transfer.new q.total) = t ∧ t.received = heldBytes tbl q.hash ∧
      t.total = q.total := by
    unfold heldBytes
    cases hg : tbl.get q.hash with
    | none => exact ⟨_, rfl, rfl, rfl⟩
    | some t => exact ⟨t, rfl, rfl, hT t hg⟩
  have herase : heldBytes (AMap.erase tbl q.hash) q.hash = 0 := by
    unfold heldBytes
    rw [AMap.get_erase, if_pos rfl]; rfl
  have hput : ∀ x : Transfer.Transfer, heldBytes (AMap.put tbl q.hash x) q.hash = x.received := by
    intro x
    unfold heldBytes
    rw [AMap.get_put_self]; rfl
  unfold Transfer.recvPart
  simp only [ht]
  by_cases hs : (t.parts.get q.offset).isSome = true
  · simp only [Transfer.addPart, hs, if_true]
    refine ⟨fun buf h => (by cases h), fun _ => ?_⟩
    rw [hput, ← hr]
    exact Nat.le_add_right _ _
  · simp only [Transfer.addPart, hs, if_false, Bool.false_eq_true]
    by_cases he : t.received + q.data.length = t.total
    · simp only [he, if_true]
      cases hf : Transfer.finish sha (t.parts.put q.offset q.data) t.total q.hash with
      | some buf => exact ⟨fun _ _ => ⟨by rw [← hr, he, htot], herase⟩, fun _ => by rw [herase]; exact Nat.zero_le _⟩
      | none =>
        exfalso
        unfold Transfer.finish at hf
        split at hf <;> try cases hf
        split at hf <;> cases hf
      | hang => exact ⟨fun _ h => (by cases h), fun h => absurd rfl h⟩
      | tooMuch => exact ⟨fun _ h => (by cases h), fun _ => by rw [herase]; exact Nat.zero_le _⟩
      | partMissing => exact ⟨fun _ h => (by cases h), fun _ => by rw [herase]; exact Nat.zero_le _⟩
      | invalidHash => exact ⟨fun _ h => (by cases h), fun _ => by rw [herase]; exact Nat.zero_le _⟩
    · simp only [he, if_false]
      by_cases hg : t.received + q.data.length > t.total
      · simp only [hg, if_true]
        exact ⟨fun _ h => (by cases h), fun _ => by rw [herase]; exact Nat.zero_le _⟩
      · simp only [hg, if_false]
        refine ⟨fun buf h => (by cases h), fun _ => ?_⟩
        rw [hput, ← hr]

/-- Bytes of `m` in a packet. -/
def weight (sha : Bytes → Bytes) (m : Message) : Message → Nat
  | .part h _ _ d => if h = sha (writeMessage m) then d.length else 0
  | x => if x = m then (writeMessage m).length else 0

theorem weight_whole {sha : Bytes → Bytes} {m x : Message} (hx : Whole x) :
    weight sha m x = if x = m then (writeMessage m).length else 0 := by
  cases x <;> first | rfl | cases hx

theorem weight_part (sha : Bytes → Bytes) (m : Message) (q : Transfer.Part) :
    weight sha m (partMessage q) = if q.hash = sha (writeMessage m) then q.data.length else 0 := rfl

/-- Bytes of `m` in packet `i`. -/
def weightAt (sha : Bytes → Bytes) (m : Message) (last : List Message) (i : Nat) : Nat :=
  (last[i]?.map (weight sha m)).getD 0

/-- Bytes of `m` that have arrived. -/
def arrivedBytes (sha : Bytes → Bytes) (m : Message) (L : Lane) : Nat :=
  ∑ i ∈ L.seen.toFinset, weightAt sha m L.last i

theorem sum_last (w : Message → Nat) (last : List Message) :
    ∑ i ∈ Finset.range last.length, (last[i]?.map w).getD 0 = (last.map w).sum := by
  induction last using List.reverseRecOn with
  | nil => rfl
  | append_singleton xs x ih =>
    rw [List.length_append, List.length_singleton, Finset.sum_range_succ, List.map_append, List.sum_append, ← ih]
    congr 1
    · refine Finset.sum_congr rfl fun i hi => ?_
      rw [List.getElem?_append_left (Finset.mem_range.mp hi)]
    · simp

/-- How often `m` was sent. -/
def sentTimes (L : Lane) (m : Message) : Nat := L.sends.countP fun x => decide (x.1 = m)

theorem cargo_weight {sha : Bytes → Bytes} {M : Message → Prop} (hA : Apart sha M) {a : Option Nat} {m m' : Message}
    (hm : M m) (hm' : M m') (hw' : Whole m') (ha : a ∈ [none, some 40, some 72])
    (hshort : m' = m → (writeMessage m).length ≤ firstPart a + 1024) :
    ((cargo sha a m').map (weight sha m)).sum = if m' = m then (writeMessage m).length else 0 := by
  unfold cargo
  split
  · simp [weight_whole hw']
  · by_cases he : m' = m
    · subst he
      rw [if_pos rfl]
      obtain ⟨bs, h1, h2, h3⟩ := pieces_cut (sha := sha) hw' ha (hshort rfl)
      have hsum : Transfer.sumLen (piecesOf sha a m') = (writeMessage m').length := by
        rw [h3, Transfer.sumLen_layout, h2]
      rw [← hsum]
      unfold Transfer.sumLen piecesOf Transfer.pairs
      rw [List.map_map, List.map_map]
      congr 1
      refine List.map_congr_left fun q hq => ?_
      have := (Transfer.split_pieces _ (sha (writeMessage m')) (by have := (whole_length hw').2; omega)
                (whole_length hw').1 a (firstPart_pos ha).2.2 q hq).1
      simp [weight_part, this]
    · rw [if_neg he, List.map_map]
      rw [List.map_congr_left (g := fun _ => 0)]
      · simp
      · intro q hq
        have := (Transfer.split_pieces _ (sha (writeMessage m')) (by have := (whole_length hw').2; omega)
                (whole_length hw').1 a (firstPart_pos ha).2.2 q hq).1
        simp only [Function.comp_apply, weight_part]
        rw [if_neg]
        intro h
        exact he (hA m' m hm' hm (this.symm.trans h))

/-- What is seen, held and arrived of a message. -/
structure CountInv (sha : Bytes → Bytes) (m : Message) (L : Lane) : Prop where
  seen : (writeMessage m).length * L.evs.count m + heldBytes L.table (sha (writeMessage m)) ≤ arrivedBytes sha m L
  sent : (L.last.map (weight sha m)).sum = (writeMessage m).length * sentTimes L m

theorem arrived_cons {sha : Bytes → Bytes} {m : Message} {L L' : Lane} {i : Nat} (hi : i ∉ L.seen) (hs : L'.seen = i :: L.seen)
    (hl : L'.last = L.last) : arrivedBytes sha m L' = weightAt sha m L.last i + arrivedBytes sha m L := by
  unfold arrivedBytes
  rw [hs, hl, List.toFinset_cons, Finset.sum_insert (by simpa using hi)]

theorem count_step {sha : Bytes → Bytes} {M G : Message → Prop} {N : Rule} (hN : N.young) (hA : Apart sha M) {L L' : Lane} (hI : LaneInv sha M L)
    {m : Message} (hm : M m)
    (hshort : ∀ a, (m, a) ∈ L'.sends → (writeMessage m).length ≤ firstPart a + 1024) (h : LStep sha M G N L L')
    (hC : CountInv sha m L) : CountInv sha m L' := by
  cases h with
  | send m' a hw' hM' ha =>
    refine ⟨?_, ?_⟩
    · have : arrivedBytes sha m { L with
          sends := L.sends ++ [(m', a)]
          src := L.src ++ List.replicate (cargo sha a m').length L.sends.length
          last := L.last ++ cargo sha a m' } = arrivedBytes sha m L := by
        refine Finset.sum_congr rfl fun i hi => ?_
        have := hI.old i (List.mem_toFinset.mp hi)
        simp only [weightAt]
        rw [List.getElem?_append_left this]
      rw [this]
      exact hC.seen
    · simp only [List.map_append, List.sum_append, hC.sent, sentTimes, List.countP_append,
        cargo_weight hA hm hM' hw' ha (fun e => hshort a (by simp [e]))]
      by_cases he : m' = m <;> simp [he, Nat.mul_add]
  | drop i hi _ =>
    refine ⟨?_, hC.sent⟩
    have : arrivedBytes sha m { L with seen := i :: L.seen } = arrivedBytes sha m L := by
      unfold arrivedBytes
      rw [List.toFinset_cons, Finset.insert_eq_of_mem (List.mem_toFinset.mpr hi)]
    rw [this]
    exact hC.seen
  | whole i x hl hx hnew =>
    refine ⟨?_, hC.sent⟩
    rw [show arrivedBytes sha m _ = _ from arrived_cons (L := L) (L' := { L with seen := i :: L.seen, evs := L.evs ++ [x] })
      (hnew hN) rfl rfl]
    have := hC.seen
    simp only [weightAt, hl, Option.map_some, Option.getD_some, weight_whole hx, List.count_append, List.count_singleton,
      beq_iff_eq, Nat.mul_add]
    by_cases he : x = m <;> simp [he] <;> omega
  | part i q hq hnew =>
    refine ⟨?_, hC.sent⟩
    rw [show arrivedBytes sha m _ = _ from arrived_cons (L := L) (L' := { L with
        seen := i :: L.seen
        table := (Transfer.recvPart sha L.table q).1
        evs := L.evs ++ delivered (Transfer.recvPart sha L.table q).2 }) (hnew hN) rfl rfl]
    obtain ⟨k, m', a, h1, h2, hw', hM', ha, c1, c2, c3, c4, c5, c6⟩ := part_outcome hI hq
    have := hC.seen
    by_cases he : m' = m
    · subst he
      have hT : ∀ t, L.table.get q.hash = some t → t.total = q.total := by
        intro t ht
        rw [c3] at ht
        rw [(hI.table m' hm t ht).1.tot, c4]
      obtain ⟨p1, p2⟩ := held_part sha L.table q hT
      rw [c3] at p1 p2
      simp only [weightAt, hq, Option.map_some, Option.getD_some, weight_part, c3, if_true, List.count_append, Nat.mul_add]
      rcases c5 with ⟨e1, e2⟩ | e
      · obtain ⟨p3, p4⟩ := p1 _ e1
        rw [e2, p4]
        simp only [List.count_singleton, beq_self_eq_true, if_true, Nat.mul_one]
        omega
      · have hd : delivered (Transfer.recvPart sha L.table q).2 = [] := by
          rcases e with e | e | e <;> rw [e] <;> rfl
        rw [hd]
        have := p2 (by rcases e with e | e | e <;> rw [e] <;> intro h <;> cases h)
        simp only [List.count_nil, Nat.mul_zero]
        omega
    · have hne : sha (writeMessage m) ≠ q.hash := by
        rw [c3]
        intro h
        exact he (hA m m' hm hM' h).symm
      have hheld : heldBytes (Transfer.recvPart sha L.table q).1 (sha (writeMessage m)) = heldBytes L.table (sha (writeMessage m)) := by
        unfold heldBytes
        rw [Transfer.recvPart_other sha L.table q _ hne]
      have hd : (delivered (Transfer.recvPart sha L.table q).2).count m = 0 := by
        rcases c5 with ⟨-, e2⟩ | e
        · rw [e2]; simp [he]
        · rcases e with e | e | e <;> rw [e] <;> rfl
      simp only [List.count_append, hd, hheld, Nat.add_zero]
      omega
  | other T hT =>
    refine ⟨?_, hC.sent⟩
    have := hC.seen
    have hle : heldBytes T (sha (writeMessage m)) ≤ heldBytes L.table (sha (writeMessage m)) := by
      unfold heldBytes
      rcases hT m hm with h | ⟨-, h⟩
      · rw [h]
      · rw [h]; exact Nat.zero_le _
    have e : arrivedBytes sha m { L with table := T } = arrivedBytes sha m L := rfl
    rw [e]
    simp only
    omega

/-- Sent messages stay sent. -/
theorem sends_grow {sha : Bytes → Bytes} {M G : Message → Prop} {N : Rule} {L L' : Lane} (h : LStep sha M G N L L')
    {x : Message × Option Nat} (hx : x ∈ L.sends) : x ∈ L'.sends := by
  cases h with
  | send m a _ _ _ => exact List.mem_append_left _ hx
  | _ => exact hx

/-- A message of at most two packets is seen at most as often as it was sent, if packets which have arrived before
are dropped. -/
theorem lane_count {sha : Bytes → Bytes} {M G : Message → Prop} {N : Rule} (hN : N.young) (hA : Apart sha M) {T : Transfer.Table}
    (hT : ∀ m, M m → T.get (sha (writeMessage m)) = none) {L : Lane} (h : LRun sha M G N ⟨[], [], [], [], T, []⟩ L)
    {m : Message} (hm : M m) (hw : Whole m) (hshort : ∀ a, (m, a) ∈ L.sends → (writeMessage m).length ≤ firstPart a + 1024) :
    L.evs.count m ≤ sentTimes L m := by
  have hC : CountInv sha m L := by
    revert hshort
    generalize hL : (⟨[], [], [], [], T, []⟩ : Lane) = L₀ at h
    induction h with
    | refl =>
      subst hL
      intro _
      refine ⟨?_, rfl⟩
      unfold heldBytes
      rw [hT m hm]
      exact Nat.zero_le _
    | step L₂ L₃ h1 h2 ih =>
      subst hL
      intro hshort
      exact count_step hN hA (lane_run hA hT h1).1 hm hshort h2 (ih fun a ha => hshort a (sends_grow h2 ha))
  have hI := (lane_run hA hT h).1
  have hle : arrivedBytes sha m L ≤ (L.last.map (weight sha m)).sum := by
    rw [← sum_last]
    refine Finset.sum_le_sum_of_subset fun i hi => ?_
    exact Finset.mem_range.mpr (hI.old i (List.mem_toFinset.mp hi))
  have h1 := hC.seen
  have h2 := hC.sent
  have hpos : 0 < (writeMessage m).length := List.length_pos_iff.mpr (whole_length hw).1
  exact Nat.le_of_mul_le_mul_left (by omega : (writeMessage m).length * _ ≤ (writeMessage m).length * _) hpos

/-- The packet carries the message `m`. -/
def isCopy (last : List Message) (m : Message) (i : Nat) : Bool := decide (last[i]? = some m)

/-- Without a history, a message that fits into one packet is seen whenever a packet with it arrives. -/
theorem lane_off {sha : Bytes → Bytes} {M G : Message → Prop} {N : Rule} (hN : N.off) (hA : Apart sha M)
    {T : Transfer.Table} (hT : ∀ m, M m → T.get (sha (writeMessage m)) = none) {L : Lane}
    (h : LRun sha M G N ⟨[], [], [], [], T, []⟩ L) {m : Message} (hw : Whole m)
    (hfit : ∀ a, (m, a) ∈ L.sends → a.getD 0 + counted m ≤ 1024) : L.evs.count m = L.seen.countP (isCopy L.last m) := by
  revert hfit
  generalize hL : (⟨[], [], [], [], T, []⟩ : Lane) = L₀ at h
  induction h with
  | refl => subst hL; intro _; rfl
  | step L₂ L₃ h1 h2 ih =>
    subst hL
    intro hfit
    have hI := (lane_run hA hT h1).1
    have ih := ih fun a ha => hfit a (sends_grow h2 ha)
    cases h2 with
    | send m' a _ _ _ =>
      rw [show L₂.evs.count m = _ from ih]
      refine List.countP_congr fun i hi => ?_
      simp only [isCopy]
      rw [List.getElem?_append_left (hI.old i hi)]
    | drop i _ ho => exact absurd hN ho
    | whole i x hl hx _ =>
      simp only [List.count_append, ih, List.countP_cons]
      congr 1
      by_cases he : x = m
      · subst he; simp [isCopy, hl]
      · simp [isCopy, hl, he]
    | part i q hq _ =>
      obtain ⟨k, m', a, h1, h2, hw', hM', ha, c1, c2, c3, c4, c5, c6⟩ := part_outcome hI hq
      have hne : m' ≠ m := by
        rintro rfl
        have := hfit a (List.mem_of_getElem? h2)
        omega
      have hd : (delivered (Transfer.recvPart sha L₂.table q).2).count m = 0 := by
        rcases c5 with ⟨-, e2⟩ | e
        · rw [e2]; simp [hne]
        · rcases e with e | e | e <;> rw [e] <;> rfl
      have hc : isCopy L₂.last m i = false := by
        simp only [isCopy, hq, decide_eq_false_iff_not]
        intro h
        cases h
        cases hw
      simp only [List.count_append, hd, ih, List.countP_cons, hc]
      rfl
    | other T hT => exact ih

end Verif.LongTrip
