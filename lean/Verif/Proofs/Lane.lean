import Verif.Props.Transfer
import Verif.Proofs.Pieces
import Verif.Props.Processing

/-!
# One direction of a conversation: messages, what their packets carry, and the table of transfers

Used by C111: the traffic from one node to the other, with the packets reduced to the message or part they carry.
-/
namespace Verif.LongTrip
open Verif.Tl Verif.AdnlProto Verif.Sender Verif.Props

/-- Messages users and subscribers make, of any length the format can express. -/
def Whole : Message → Prop
  | .query id d => id.length = 32 ∧ d.length < 2 ^ 24
  | .answer id d => id.length = 32 ∧ d.length < 2 ^ 24
  | .custom d => d.length < 2 ^ 24
  | _ => False

/-- Size of a message as the sender counts it (sender.rs:107-114). -/
def counted : Message → Nat
  | .query _ d => d.length + 44
  | .answer _ d => d.length + 44
  | .custom d => d.length + 12
  | _ => 0

/-- What the packets of a message carry, besides channel messages: the message, or its parts (sender.rs:124-202);
`a` is the size of the channel message sent along. -/
def cargo (sha : Bytes → Bytes) (a : Option Nat) (m : Message) : List Message :=
  if a.getD 0 + counted m ≤ 1024 then [m]
  else (Transfer.split (writeMessage m) (sha (writeMessage m)) a).map partMessage

theorem whole_wf {m : Message} (h : Whole m) : m.wf ∧ idsTyped m ∧ countedSize m = some (counted m) ∧ Process.isPart m = false := by
  cases m with
  | query id d => exact ⟨h, h.1, rfl, rfl⟩
  | answer id d => exact ⟨h, h.1, rfl, rfl⟩
  | custom d => exact ⟨h, trivial, rfl, rfl⟩
  | _ => cases h

theorem whole_length {m : Message} (h : Whole m) : writeMessage m ≠ [] ∧ (writeMessage m).length < 2 ^ 25 := by
  obtain ⟨h1, h2, h3, -⟩ := whole_wf h
  refine ⟨?_, ?_⟩
  · intro h0
    have := congrArg List.length h0
    cases m <;> simp [writeMessage, writeU32_length] at this
  · have := writeMessage_le m _ h2 h3
    have h5 : counted m < 2 ^ 24 + 44 := by
      cases m with
      | query id d => have := h.2; simp only [counted]; omega
      | answer id d => have := h.2; simp only [counted]; omega
      | custom d => have : d.length < 2 ^ 24 := h; simp only [counted]; omega
      | _ => cases h
    omega

theorem firstPart_pos {a : Option Nat} (ha : a ∈ [none, some 40, some 72]) :
    0 < firstPart a ∧ firstPart a ≤ 1024 ∧ ∀ n, a = some n → n < 984 := by
  simp only [List.mem_cons, List.not_mem_nil, or_false] at ha
  rcases ha with rfl | rfl | rfl <;> simp [firstPart]

theorem split_offsets (data hash : Bytes) (hd : data ≠ []) (hlt : data.length < 2 ^ 32) {a : Option Nat}
    (ha : a ∈ [none, some 40, some 72]) :
    ((Transfer.pairs (Transfer.split data hash a)).map (·.1)).Nodup := by
  obtain ⟨h1, h2, -⟩ := firstPart_pos ha
  by_cases h : data.length ≤ firstPart a + 1024
  · rw [Transfer.split_short data hash hd a (firstPart a) (by cases a <;> rfl) h1 h2 h]
    have := (Transfer.cutAt_isCut data (firstPart a) h1 hd)
    obtain ⟨bs, hb, -, he⟩ := this
    rw [show Transfer.pairs ((Spec.layout 0 (Transfer.cutAt data (firstPart a))).map
        (fun e => (⟨hash, data.length, e.1, e.2⟩ : Transfer.Part))) =
        Spec.layout 0 (Transfer.cutAt data (firstPart a)) by
      simp [Transfer.pairs, Function.comp_def]]
    rw [he]
    exact Transfer.layout_keys_nodup 0 bs hb
  · exact (Transfer.split_long data hash hlt a (firstPart a) (by cases a <;> rfl) h1 h2 (by omega)).2.1

theorem whole_read {m : Message} (h : Whole m) : readMessage (writeMessage m) = some (m, []) := by
  have := AdnlProto.message_encodes m (whole_wf h).1 []
  simpa using this

/-- The hashes of the messages are different. -/
def Apart (sha : Bytes → Bytes) (M : Message → Prop) : Prop :=
  ∀ m m', M m → M m' → sha (writeMessage m) = sha (writeMessage m') → m = m'

/-- Messages sent (with the size of the channel message), for each packet the message it belongs to and what it
carries, the packets that have arrived, the transfers of the receiver, and what its users have seen. -/
structure Lane where
  sends : List (Message × Option Nat)
  src : List Nat
  last : List Message
  seen : List Nat
  table : Transfer.Table
  evs : List Message

/-- What comes out of the table. -/
def delivered : Transfer.Res → List Message
  | .some buf => ((readMessage buf).map (·.1)).toList
  | _ => []

/-- What is known about packets that arrive again: `young` says they are all dropped, `off` that none is. -/
structure Rule where
  young : Prop
  off : Prop

/-- `M` are the messages of the two nodes, transfers of the messages `G` may be given up, packets which arrive again
are treated by the rule `N`. -/
inductive LStep (sha : Bytes → Bytes) (M G : Message → Prop) (N : Rule) : Lane → Lane → Prop
  | send (L : Lane) (m : Message) (a : Option Nat) : Whole m → M m → a ∈ [none, some 40, some 72] →
      LStep sha M G N L { L with
        sends := L.sends ++ [(m, a)]
        src := L.src ++ List.replicate (cargo sha a m).length L.sends.length
        last := L.last ++ cargo sha a m }
  | drop (L : Lane) (i : Nat) : i ∈ L.seen → ¬ N.off → LStep sha M G N L { L with seen := i :: L.seen }
  | whole (L : Lane) (i : Nat) (m : Message) : L.last[i]? = some m → Whole m → (N.young → i ∉ L.seen) →
      LStep sha M G N L { L with seen := i :: L.seen, evs := L.evs ++ [m] }
  | part (L : Lane) (i : Nat) (q : Transfer.Part) : L.last[i]? = some (partMessage q) → (N.young → i ∉ L.seen) →
      LStep sha M G N L { L with
        seen := i :: L.seen
        table := (Transfer.recvPart sha L.table q).1
        evs := L.evs ++ delivered (Transfer.recvPart sha L.table q).2 }
  | other (L : Lane) (T : Transfer.Table) :
      (∀ m, M m → T.get (sha (writeMessage m)) = L.table.get (sha (writeMessage m)) ∨
        (G m ∧ T.get (sha (writeMessage m)) = none)) → LStep sha M G N L { L with table := T }

structure LaneInv (sha : Bytes → Bytes) (M : Message → Prop) (L : Lane) : Prop where
  len : L.src.length = L.last.length
  src : ∀ (i k : Nat), L.src[i]? = some k → k < L.sends.length
  old : ∀ i ∈ L.seen, i < L.last.length
  sends : ∀ x ∈ L.sends, Whole x.1 ∧ M x.1 ∧ x.2 ∈ [none, some 40, some 72]
  shape : ∀ (i : Nat) (x : Message), L.last[i]? = some x → ∃ (k : Nat) (m : Message) (a : Option Nat), L.src[i]? = some k ∧ L.sends[k]? = some (m, a) ∧ x ∈ cargo sha a m
  all : ∀ (k : Nat) m a, L.sends[k]? = some (m, a) → ∀ x ∈ cargo sha a m, ∃ i : Nat, L.src[i]? = some k ∧ L.last[i]? = some x
  table : ∀ m, M m → ∀ t, L.table.get (sha (writeMessage m)) = some t →
    Transfer.Filled (writeMessage m) t ∧ ∃ a, (m, a) ∈ L.sends
  evs : ∀ m ∈ L.evs, ∃ a, (m, a) ∈ L.sends
  wholes : ∀ i ∈ L.seen, ∀ m, Whole m → L.last[i]? = some m → m ∈ L.evs

theorem get_append_or {α : Type} {x y : List α} {i : Nat} {a : α} (h : (x ++ y)[i]? = some a) :
    x[i]? = some a ∨ (x.length ≤ i ∧ y[i - x.length]? = some a) := by
  by_cases hi : i < x.length
  · rw [List.getElem?_append_left hi] at h; exact .inl h
  · rw [List.getElem?_append_right (by omega)] at h; exact .inr ⟨by omega, h⟩

theorem get_append_left {α : Type} {x y : List α} {i : Nat} {a : α} (h : x[i]? = some a) : (x ++ y)[i]? = some a := by
  obtain ⟨hi, -⟩ := List.getElem?_eq_some_iff.mp h
  rw [List.getElem?_append_left hi]; exact h

theorem get_replicate {n k i j : Nat} (h : (List.replicate n k)[i]? = some j) : j = k ∧ i < n := by
  rw [List.getElem?_replicate] at h
  split at h
  · cases h; exact ⟨rfl, by assumption⟩
  · cases h

/-- A part among the cargo of a message. -/
theorem cargo_part {sha : Bytes → Bytes} {a : Option Nat} {m : Message} (hm : Whole m) {q : Transfer.Part}
    (ha : a ∈ [none, some 40, some 72]) (h : partMessage q ∈ cargo sha a m) :
    1024 < a.getD 0 + counted m ∧ q ∈ Transfer.split (writeMessage m) (sha (writeMessage m)) a ∧
      q.hash = sha (writeMessage m) ∧ q.total = (writeMessage m).length ∧
      Transfer.Piece (writeMessage m) q.offset q.data := by
  unfold cargo at h
  split at h
  · have := (whole_wf hm).2.2.2
    rw [← List.mem_singleton.mp h] at this
    cases this
  · obtain ⟨q', hq', he⟩ := List.mem_map.mp h
    have : q' = q := by
      cases q'; cases q
      simp only [partMessage, Message.part.injEq] at he
      obtain ⟨rfl, rfl, rfl, rfl⟩ := he
      rfl
    subst this
    obtain ⟨h1, h2⟩ := whole_length hm
    exact ⟨by omega, hq', Transfer.split_pieces _ _ (by omega) h1 a (firstPart_pos ha).2.2 q' hq'⟩

theorem cargo_whole {sha : Bytes → Bytes} {a : Option Nat} {m m' : Message} (hm : Whole m')
    (h : m' ∈ cargo sha a m) : m' = m ∧ a.getD 0 + counted m ≤ 1024 := by
  unfold cargo at h
  split at h
  · exact ⟨List.mem_singleton.mp h, by assumption⟩
  · obtain ⟨q, -, rfl⟩ := List.mem_map.mp h
    cases hm

theorem inv_start (sha : Bytes → Bytes) (M : Message → Prop) (T : Transfer.Table)
    (hT : ∀ m, M m → T.get (sha (writeMessage m)) = none) : LaneInv sha M ⟨[], [], [], [], T, []⟩ where
  len := rfl
  src := by intro i k h; simp at h
  old := by intro i h; cases h
  sends := by intro x h; cases h
  shape := by intro i x h; simp at h
  all := by intro k m a h; simp at h
  table := by intro m hm t ht; rw [hT m hm] at ht; cases ht
  evs := by intro m h; cases h
  wholes := by intro i h; cases h

/-- What a part does to the table: the entry of its message. -/
theorem part_outcome {sha : Bytes → Bytes} {M : Message → Prop} {L : Lane} (hI : LaneInv sha M L) {i : Nat}
    {q : Transfer.Part} (hq : L.last[i]? = some (partMessage q)) :
    ∃ (k : Nat) (m : Message) (a : Option Nat), L.src[i]? = some k ∧ L.sends[k]? = some (m, a) ∧ Whole m ∧ M m ∧ a ∈ [none, some 40, some 72] ∧
      1024 < a.getD 0 + counted m ∧ q ∈ Transfer.split (writeMessage m) (sha (writeMessage m)) a ∧
      q.hash = sha (writeMessage m) ∧ q.total = (writeMessage m).length ∧
      (((Transfer.recvPart sha L.table q).2 = .some (writeMessage m) ∧ delivered (Transfer.recvPart sha L.table q).2 = [m]) ∨
        ((Transfer.recvPart sha L.table q).2 = .none ∨ (Transfer.recvPart sha L.table q).2 = .tooMuch ∨
          (Transfer.recvPart sha L.table q).2 = .partMissing)) ∧
      ∀ t, (Transfer.recvPart sha L.table q).1.get (sha (writeMessage m)) = some t →
        Transfer.Filled (writeMessage m) t := by
  obtain ⟨k, m, a, h1, h2, h3⟩ := hI.shape i _ hq
  obtain ⟨hw, hM, ha⟩ := hI.sends _ (List.mem_of_getElem? h2)
  obtain ⟨c1, c2, c3, c4, c5⟩ := cargo_part hw ha h3
  refine ⟨k, m, a, h1, h2, hw, hM, ha, c1, c2, c3, c4, ?_⟩
  have hqe : q = ⟨sha (writeMessage m), (writeMessage m).length, q.offset, q.data⟩ := by
    rw [← c3, ← c4]
  have := Transfer.recv_piece sha (writeMessage m) L.table (fun t ht => (hI.table m hM t ht).1) q.offset q.data c5
  rw [← hqe] at this
  rcases this with ⟨e1, t', e2, e3, -⟩ | ⟨e1, e2⟩ | ⟨e1, e2⟩
  · exact ⟨.inr (.inl e1), fun t ht => by rw [e2] at ht; cases ht; exact e3⟩
  · refine ⟨.inl ⟨e1, ?_⟩, fun t ht => by rw [e2] at ht; cases ht⟩
    rw [e1]
    simp [delivered, whole_read hw]
  · exact ⟨.inr (.inr e1), fun t ht => by rw [e2] at ht; cases ht⟩

theorem inv_step {sha : Bytes → Bytes} {M G : Message → Prop} {N : Rule} (hA : Apart sha M) {L L' : Lane} (hI : LaneInv sha M L)
    (h : LStep sha M G N L L') : LaneInv sha M L' := by
  cases h with
  | send m a hw hM ha =>
    have hold : ∀ x, x ∈ L.sends → x ∈ L.sends ++ [(m, a)] := fun x hx => List.mem_append_left _ hx
    refine ⟨?_, ?_, ?_, ?_, ?_, ?_, ?_, ?_, ?_⟩
    · simp [hI.len]
    · intro i k h
      simp only [List.length_append, List.length_cons, List.length_nil]
      rcases get_append_or h with h | ⟨-, h⟩
      · have := hI.src i k h; omega
      · have := (get_replicate h).1; omega
    · intro i hi
      have := hI.old i hi
      simp only [List.length_append]; omega
    · intro x hx
      rcases List.mem_append.mp hx with hx | hx
      · exact hI.sends x hx
      · rw [List.mem_singleton.mp hx]; exact ⟨hw, hM, ha⟩
    · intro i x hx
      rcases get_append_or hx with hx | ⟨hi, hx⟩
      · obtain ⟨k, m', a', h1, h2, h3⟩ := hI.shape i x hx
        exact ⟨k, m', a', get_append_left h1, get_append_left h2, h3⟩
      · refine ⟨L.sends.length, m, a, ?_, by simp, List.mem_of_getElem? hx⟩
        obtain ⟨hlt, -⟩ := List.getElem?_eq_some_iff.mp hx
        simp only
        rw [List.getElem?_append_right (by rw [hI.len]; exact hi), hI.len, List.getElem?_replicate, if_pos hlt]
    · intro k m' a' hk x hx
      rcases get_append_or hk with hk | ⟨hle, hk⟩
      · obtain ⟨i, h1, h2⟩ := hI.all k m' a' hk x hx
        exact ⟨i, get_append_left h1, get_append_left h2⟩
      · have hk0 : k - L.sends.length = 0 := by
          obtain ⟨h, -⟩ := List.getElem?_eq_some_iff.mp hk
          simp only [List.length_cons, List.length_nil] at h; omega
        rw [hk0] at hk
        simp only [List.getElem?_cons_zero, Option.some.injEq, Prod.mk.injEq] at hk
        obtain ⟨rfl, rfl⟩ := hk
        obtain ⟨j, hj, hjx⟩ := List.mem_iff_getElem.mp hx
        refine ⟨L.last.length + j, ?_, ?_⟩
        · simp only
          rw [List.getElem?_append_right (by rw [hI.len]; omega), hI.len, List.getElem?_replicate, if_pos (by omega)]
          congr 1; omega
        · simp only
          rw [List.getElem?_append_right (by omega), show L.last.length + j - L.last.length = j by omega,
            List.getElem?_eq_getElem hj, hjx]
    · intro m' hM' t ht
      obtain ⟨h1, a', h2⟩ := hI.table m' hM' t ht
      exact ⟨h1, a', hold _ h2⟩
    · intro m' hm'
      obtain ⟨a', h⟩ := hI.evs m' hm'
      exact ⟨a', hold _ h⟩
    · intro i hi m' hw' hl
      rcases get_append_or hl with hl | ⟨hle, -⟩
      · exact hI.wholes i hi m' hw' hl
      · have := hI.old i hi; omega
  | drop i hi _ =>
    refine ⟨hI.len, hI.src, ?_, hI.sends, hI.shape, hI.all, hI.table, hI.evs, ?_⟩
    · intro j hj
      rcases List.mem_cons.mp hj with rfl | hj
      · exact hI.old _ hi
      · exact hI.old j hj
    · intro j hj
      rcases List.mem_cons.mp hj with rfl | hj
      · exact hI.wholes _ hi
      · exact hI.wholes j hj
  | whole i m hl hw _ =>
    refine ⟨hI.len, hI.src, ?_, hI.sends, hI.shape, hI.all, hI.table, ?_, ?_⟩
    · intro j hj
      rcases List.mem_cons.mp hj with rfl | hj
      · exact (List.getElem?_eq_some_iff.mp hl).1
      · exact hI.old j hj
    · intro m' hm'
      rcases List.mem_append.mp hm' with hm' | hm'
      · exact hI.evs m' hm'
      · rw [List.mem_singleton.mp hm']
        obtain ⟨k, m0, a, -, h2, h3⟩ := hI.shape i m hl
        obtain ⟨rfl, -⟩ := cargo_whole hw h3
        exact ⟨a, List.mem_of_getElem? h2⟩
    · intro j hj m' hw' hl'
      rcases List.mem_cons.mp hj with rfl | hj
      · simp only at hl'
        rw [hl] at hl'
        cases hl'
        simp
      · exact List.mem_append_left _ (hI.wholes j hj m' hw' hl')
  | part i q hq _ =>
    obtain ⟨k, m, a, h1, h2, hw, hM, ha, -, -, c3, -, c5, c6⟩ := part_outcome hI hq
    refine ⟨hI.len, hI.src, ?_, hI.sends, hI.shape, hI.all, ?_, ?_, ?_⟩
    · intro j hj
      rcases List.mem_cons.mp hj with rfl | hj
      · exact (List.getElem?_eq_some_iff.mp hq).1
      · exact hI.old j hj
    · intro m' hM' t ht
      simp only at ht
      by_cases he : sha (writeMessage m') = q.hash
      · have := hA m' m hM' hM (he.trans c3)
        subst this
        exact ⟨c6 t ht, a, List.mem_of_getElem? h2⟩
      · rw [Transfer.recvPart_other sha L.table q _ he] at ht
        exact hI.table m' hM' t ht
    · intro m' hm'
      rcases List.mem_append.mp hm' with hm' | hm'
      · exact hI.evs m' hm'
      · rcases c5 with ⟨-, c5⟩ | c5
        · rw [c5] at hm'
          rw [List.mem_singleton.mp hm']
          exact ⟨a, List.mem_of_getElem? h2⟩
        · rcases c5 with c5 | c5 | c5 <;> rw [c5] at hm' <;> cases hm'
    · intro j hj m' hw' hl'
      rcases List.mem_cons.mp hj with rfl | hj
      · simp only at hl'
        rw [hq] at hl'
        cases hl'
        cases hw'
      · exact List.mem_append_left _ (hI.wholes j hj m' hw' hl')
  | other T hT =>
    refine ⟨hI.len, hI.src, hI.old, hI.sends, hI.shape, hI.all, ?_, hI.evs, hI.wholes⟩
    intro m hM t ht
    rcases hT m hM with h | ⟨-, h⟩
    · simp only at ht
      rw [h] at ht
      exact hI.table m hM t ht
    · simp only at ht
      rw [h] at ht
      cases ht

/-- `m` has been sent once, as number `k`, with a channel message of size `a`. -/
def Only (L : Lane) (m : Message) (k : Nat) (a : Option Nat) : Prop :=
  L.sends[k]? = some (m, a) ∧ ∀ (k' : Nat) a', L.sends[k']? = some (m, a') → k' = k

/-- Pieces of the message. -/
abbrev piecesOf (sha : Bytes → Bytes) (a : Option Nat) (m : Message) : List (Nat × Bytes) :=
  Transfer.pairs (Transfer.split (writeMessage m) (sha (writeMessage m)) a)

/-- While `m` has been sent once: what the table holds of it. If it is short enough and not given up, it holds all
that has arrived until the message is seen; if it is too long, it is not seen. -/
structure Track (sha : Bytes → Bytes) (G : Message → Prop) (m : Message) (L : Lane) (k : Nat) (a : Option Nat) : Prop where
  feeding : ∀ t, L.table.get (sha (writeMessage m)) = some t →
    Transfer.Feeding (piecesOf sha a m) (writeMessage m).length t
  short : ¬ G m → (writeMessage m).length ≤ firstPart a + 1024 → m ∈ L.evs ∨
    ∃ got : Nat × Bytes → Prop, Transfer.Holds (piecesOf sha a m) (writeMessage m).length (sha (writeMessage m)) L.table got ∧
      (¬ ∀ x ∈ piecesOf sha a m, got x) ∧
      ∀ (i : Nat) (q : Transfer.Part), i ∈ L.seen → L.src[i]? = some k → L.last[i]? = some (partMessage q) → got (q.offset, q.data)
  long : firstPart a + 1024 < (writeMessage m).length → m ∉ L.evs

theorem pieces_cut {sha : Bytes → Bytes} {a : Option Nat} {m : Message} (hw : Whole m) (ha : a ∈ [none, some 40, some 72])
    (h : (writeMessage m).length ≤ firstPart a + 1024) : Spec.IsCut (writeMessage m) (piecesOf sha a m) := by
  obtain ⟨h1, h2, -⟩ := firstPart_pos ha
  have hd := (whole_length hw).1
  unfold piecesOf
  rw [Transfer.split_short _ _ hd a (firstPart a) (by cases a <;> rfl) h1 h2 h]
  have := (Transfer.cutAt_isCut (writeMessage m) (firstPart a) h1 hd)
  simpa [Transfer.pairs, Function.comp_def] using this

theorem pieces_some {sha : Bytes → Bytes} {a : Option Nat} {m : Message} (hw : Whole m) : piecesOf sha a m ≠ [] := by
  unfold piecesOf Transfer.pairs
  intro h
  exact Transfer.split_ne_nil _ _ a (whole_length hw).1 (List.map_eq_nil_iff.mp h)

/-- The message starts with nothing held. -/
theorem track_new {sha : Bytes → Bytes} {G : Message → Prop} {m : Message} (hw : Whole m) {L : Lane} {k : Nat} {a : Option Nat}
    (h1 : L.table.get (sha (writeMessage m)) = none) (h2 : ∀ i ∈ L.seen, L.src[i]? ≠ some k) (h3 : m ∉ L.evs) :
    Track sha G m L k a where
  feeding := by intro t ht; rw [h1] at ht; cases ht
  short := by
    intro _ _
    refine .inr ⟨fun _ => False, ?_, ?_, ?_⟩
    · unfold Transfer.Holds; rw [h1]; simp
    · intro h
      cases hp : piecesOf sha a m with
      | nil => exact pieces_some hw hp
      | cons x xs => exact h x (by rw [hp]; simp)
    · intro i q hi hk _
      exact absurd hk (h2 i hi)
  long := fun _ => h3

theorem track_step {sha : Bytes → Bytes} {M G : Message → Prop} {N : Rule} (hA : Apart sha M) {L L' : Lane} (hI : LaneInv sha M L)
    (h : LStep sha M G N L L') (m : Message) (hK : ∀ k a, Only L m k a → Track sha G m L k a) :
    ∀ k a, Only L' m k a → Track sha G m L' k a := by
  have absent : (∀ a, (m, a) ∉ L.sends) → M m → L.table.get (sha (writeMessage m)) = none ∧ m ∉ L.evs := by
    intro hn hM
    refine ⟨?_, ?_⟩
    · cases hg : L.table.get (sha (writeMessage m)) with
      | none => rfl
      | some t => obtain ⟨-, a, h⟩ := hI.table m hM t hg; exact absurd h (hn a)
    · intro he
      obtain ⟨a, h⟩ := hI.evs m he
      exact hn a h
  cases h with
  | send m' a' hw hM ha =>
    intro k a hO
    obtain ⟨o1, o2⟩ := hO
    simp only at o1 o2
    rcases get_append_or o1 with o1 | ⟨hle, o1⟩
    · obtain ⟨f1, f2, f3⟩ := hK k a ⟨o1, fun k' a' h => o2 k' a' (get_append_left h)⟩
      refine ⟨f1, ?_, f3⟩
      intro hG hs
      rcases f2 hG hs with f2 | ⟨got, g1, g2, g3⟩
      · exact .inl f2
      · refine .inr ⟨got, g1, g2, ?_⟩
        intro i q hi hk hl
        have hlt := hI.old i hi
        rcases get_append_or hk with hk | ⟨h, -⟩
        · rcases get_append_or hl with hl | ⟨h, -⟩
          · exact g3 i q hi hk hl
          · omega
        · have := hI.len; omega
    · have hk0 : k = L.sends.length := by
        obtain ⟨h, -⟩ := List.getElem?_eq_some_iff.mp o1
        simp only [List.length_cons, List.length_nil] at h; omega
      subst hk0
      simp only [Nat.sub_self, List.getElem?_cons_zero, Option.some.injEq, Prod.mk.injEq] at o1
      obtain ⟨rfl, rfl⟩ := o1
      have hn : ∀ a, (m', a) ∉ L.sends := by
        intro a ha
        obtain ⟨j, hj, hx⟩ := List.mem_iff_getElem.mp ha
        have := o2 j a (get_append_left (by rw [List.getElem?_eq_getElem hj, hx]))
        omega
      obtain ⟨e1, e2⟩ := absent hn hM
      refine track_new hw e1 ?_ e2
      intro i hi hk
      have hlt := hI.old i hi
      rcases get_append_or hk with hk | ⟨h, -⟩
      · have := hI.src i _ hk; omega
      · have := hI.len; omega
  | drop i hi _ =>
    intro k a hO
    obtain ⟨f1, f2, f3⟩ := hK k a hO
    refine ⟨f1, ?_, f3⟩
    intro hG hs
    rcases f2 hG hs with f2 | ⟨got, g1, g2, g3⟩
    · exact .inl f2
    · refine .inr ⟨got, g1, g2, ?_⟩
      intro j q hj
      rcases List.mem_cons.mp hj with rfl | hj
      · exact g3 _ q hi
      · exact g3 j q hj
  | whole i m' hl hw _ =>
    intro k a hO
    obtain ⟨f1, f2, f3⟩ := hK k a hO
    refine ⟨f1, ?_, ?_⟩
    · intro hG hs
      rcases f2 hG hs with f2 | ⟨got, g1, g2, g3⟩
      · exact .inl (List.mem_append_left _ f2)
      · refine .inr ⟨got, g1, g2, ?_⟩
        intro j q hj hk hlj
        rcases List.mem_cons.mp hj with rfl | hj
        · simp only at hlj
          rw [hl] at hlj
          cases hlj
          cases hw
        · exact g3 j q hj hk hlj
    · intro hlong hm
      rcases List.mem_append.mp hm with hm | hm
      · exact f3 hlong hm
      · rw [List.mem_singleton] at hm
        subst hm
        obtain ⟨k', m0, a', h1, h2, h3⟩ := hI.shape i m hl
        obtain ⟨rfl, hfit⟩ := cargo_whole hw h3
        have := hO.2 k' a' h2
        subst this
        have he : a' = a := by
          have := hO.1
          simp only at this
          rw [h2] at this
          cases this; rfl
        subst he
        have hle := writeMessage_le m _ (whole_wf hw).2.1 (whole_wf hw).2.2.1
        have : firstPart a' ≥ 912 := by
          have := (hI.sends _ (List.mem_of_getElem? h2)).2.2
          simp only [List.mem_cons, List.not_mem_nil, or_false] at this
          rcases this with rfl | rfl | rfl <;> decide
        omega
  | part i q hq _ =>
    intro k a hO
    obtain ⟨f1, f2, f3⟩ := hK k a hO
    obtain ⟨k', m', a', h1, h2, hw, hM', ha, c1, c2, c3, c4, c5, c6⟩ := part_outcome hI hq
    by_cases hmm : m' = m
    · subst hmm
      have hk' := hO.2 k' a' h2
      subst hk'
      have he : a' = a := by
        have := hO.1
        simp only at this
        rw [h2] at this
        cases this; rfl
      subst he
      have hmem : (q.offset, q.data) ∈ piecesOf sha a' m' := List.mem_map.mpr ⟨q, c2, rfl⟩
      by_cases hs : (writeMessage m').length ≤ firstPart a' + 1024
      · have hcut : Spec.IsCut (writeMessage m') (piecesOf sha a' m') := pieces_cut hw ha hs
        -- with the entry as it is
        have hH : Transfer.Holds (piecesOf sha a' m') (writeMessage m').length (sha (writeMessage m')) L.table
            (fun x => ∃ t, L.table.get (sha (writeMessage m')) = some t ∧ x ∈ t.parts) := by
          unfold Transfer.Holds
          cases hg : L.table.get (sha (writeMessage m')) with
          | none => simp
          | some t => exact ⟨f1 t hg, fun x => by simp⟩
        have hstep := Transfer.recvPart_holds sha (writeMessage m') (piecesOf sha a' m') hcut L.table _ hH q c3 c4 hmem
        refine ⟨?_, ?_, fun h => by omega⟩
        · intro t ht
          simp only at ht
          by_cases hgot : ∃ t, L.table.get (sha (writeMessage m')) = some t ∧ (q.offset, q.data) ∈ t.parts
          · have := (hstep.1 hgot).2
            unfold Transfer.Holds at this
            rw [ht] at this
            exact this.1
          · by_cases hall : ∀ x ∈ piecesOf sha a' m', x = (q.offset, q.data) ∨
                ∃ t, L.table.get (sha (writeMessage m')) = some t ∧ x ∈ t.parts
            · have hsome := hstep.2.1 hgot hall
              have hpc := (Transfer.split_pieces _ (sha (writeMessage m')) (by have := (whole_length hw).2; omega)
                (whole_length hw).1 a' (firstPart_pos ha).2.2 q c2).2.2
              have hqe : q = ⟨sha (writeMessage m'), (writeMessage m').length, q.offset, q.data⟩ := by
                rw [← c3, ← c4]
              have := Transfer.recv_piece sha (writeMessage m') L.table (fun t ht => (hI.table m' hM' t ht).1)
                q.offset q.data hpc
              rw [← hqe, hsome] at this
              rcases this with ⟨e1, -⟩ | ⟨-, e2⟩ | ⟨e1, -⟩
              · cases e1
              · rw [e2] at ht; cases ht
              · rcases e1 with e1 | e1 <;> cases e1
            · have := (hstep.2.2 hgot hall).2
              unfold Transfer.Holds at this
              rw [ht] at this
              exact this.1
        · intro hG _
          rcases f2 hG hs with f2 | ⟨got, g1, g2, g3⟩
          · exact .inl (List.mem_append_left _ f2)
          · have hst := Transfer.recvPart_holds sha (writeMessage m') (piecesOf sha a' m') hcut L.table got g1 q c3 c4 hmem
            have hgot' : ∀ (got' : Nat × Bytes → Prop), (∀ x, got x → got' x) → got' (q.offset, q.data) →
                ∀ (j : Nat) (q' : Transfer.Part), j ∈ i :: L.seen → L.src[j]? = some k' → L.last[j]? = some (partMessage q') →
                  got' (q'.offset, q'.data) := by
              intro got' e1 e2 j q' hj hk hl
              rcases List.mem_cons.mp hj with rfl | hj
              · rw [hq] at hl
                simp only [partMessage, Option.some.injEq, Message.part.injEq] at hl
                rw [← hl.2.2.1, ← hl.2.2.2]
                exact e2
              · exact e1 _ (g3 j q' hj hk hl)
            by_cases hg : got (q.offset, q.data)
            · exact .inr ⟨got, (hst.1 hg).2, g2, hgot' got (fun _ h => h) hg⟩
            · by_cases hall : ∀ x ∈ piecesOf sha a' m', x = (q.offset, q.data) ∨ got x
              · have hsome := hst.2.1 hg hall
                left
                simp only
                rw [hsome]
                refine List.mem_append_right _ ?_
                simp [delivered, whole_read hw]
              · exact .inr ⟨fun x => x = (q.offset, q.data) ∨ got x, (hst.2.2 hg hall).2, hall,
                  hgot' (fun x => x = (q.offset, q.data) ∨ got x) (fun _ h => Or.inr h) (Or.inl rfl)⟩
      · have hlong : firstPart a' + 1024 < (writeMessage m').length := by omega
        obtain ⟨p1, p2, -⟩ := firstPart_pos ha
        obtain ⟨-, l2, l3⟩ := Transfer.split_long (writeMessage m') (sha (writeMessage m'))
          (by have := (whole_length hw).2; omega) a' (firstPart a') (by cases a' <;> rfl) p1 p2 hlong
        obtain ⟨t, htd, htf⟩ : ∃ t, (L.table.get q.hash).getD (Transfer.Transfer.new q.total) = t ∧
            Transfer.Feeding (piecesOf sha a' m') (writeMessage m').length t := by
          rw [c3, c4]
          cases hg : L.table.get (sha (writeMessage m')) with
          | none => exact ⟨_, rfl, Transfer.feeding_new _ _⟩
          | some t => exact ⟨t, rfl, f1 t hg⟩
        obtain ⟨x1, x2⟩ := Transfer.addPart_short sha q.hash (piecesOf sha a' m') (writeMessage m').length l2 l3 t htf
          (q.offset, q.data) hmem
        simp only at x1 x2
        have hrec : Transfer.recvPart sha L.table q =
            (L.table.put q.hash (Transfer.addPart sha t q.offset q.data q.hash).1, .none) := by
          unfold Transfer.recvPart
          simp only [htd, x1]
        refine ⟨?_, fun _ h => absurd h hs, ?_⟩
        · intro t' ht'
          simp only at ht'
          rw [hrec, c3] at ht'
          simp only [AMap.get_put_self, Option.some.injEq] at ht'
          subst ht'
          rw [← c3]
          exact x2
        · intro _ hm
          simp only at hm
          rw [hrec] at hm
          rcases List.mem_append.mp hm with hm | hm
          · exact f3 hlong hm
          · cases hm
    · have hM : M m := (hI.sends _ (List.mem_of_getElem? hO.1)).2.1
      have hne : sha (writeMessage m) ≠ q.hash := by
        rw [c3]
        intro h
        exact hmm (hA m m' hM hM' h).symm
      have hget := Transfer.recvPart_other sha L.table q _ hne
      refine ⟨?_, ?_, ?_⟩
      · intro t ht
        simp only at ht
        rw [hget] at ht
        exact f1 t ht
      · intro hG hs
        rcases f2 hG hs with f2 | ⟨got, g1, g2, g3⟩
        · exact .inl (List.mem_append_left _ f2)
        · refine .inr ⟨got, ?_, g2, ?_⟩
          · unfold Transfer.Holds at g1 ⊢
            simp only
            rw [hget]
            exact g1
          · intro j q' hj hk hl
            rcases List.mem_cons.mp hj with rfl | hj
            · simp only at hk
              rw [h1] at hk
              cases hk
              have := hO.1
              simp only at this
              rw [h2] at this
              cases this
              exact absurd rfl hmm
            · exact g3 j q' hj hk hl
      · intro hlong hm
        rcases List.mem_append.mp hm with hm | hm
        · exact f3 hlong hm
        · rcases c5 with ⟨-, c5⟩ | c5
          · rw [c5] at hm
            exact hmm (List.mem_singleton.mp hm).symm
          · rcases c5 with c5 | c5 | c5 <;> rw [c5] at hm <;> cases hm
  | other T hT =>
    intro k a hO
    obtain ⟨f1, f2, f3⟩ := hK k a hO
    have hM : M m := (hI.sends _ (List.mem_of_getElem? hO.1)).2.1
    refine ⟨?_, ?_, f3⟩
    · intro t ht
      simp only at ht
      rcases hT m hM with h | ⟨-, h⟩
      · rw [h] at ht; exact f1 t ht
      · rw [h] at ht; cases ht
    · intro hG hs
      rcases f2 hG hs with f2 | ⟨got, g1, g2, g3⟩
      · exact .inl f2
      · refine .inr ⟨got, ?_, g2, g3⟩
        unfold Transfer.Holds at g1 ⊢
        simp only
        rcases hT m hM with h | ⟨h, -⟩
        · rw [h]; exact g1
        · exact absurd h hG

inductive LRun (sha : Bytes → Bytes) (M G : Message → Prop) (N : Rule) : Lane → Lane → Prop
  | refl (L : Lane) : LRun sha M G N L L
  | step (L₁ L₂ L₃ : Lane) : LRun sha M G N L₁ L₂ → LStep sha M G N L₂ L₃ → LRun sha M G N L₁ L₃

theorem lane_run {sha : Bytes → Bytes} {M G : Message → Prop} {N : Rule} (hA : Apart sha M) {T : Transfer.Table}
    (hT : ∀ m, M m → T.get (sha (writeMessage m)) = none) {L : Lane} (h : LRun sha M G N ⟨[], [], [], [], T, []⟩ L) :
    LaneInv sha M L ∧ ∀ m k a, Only L m k a → Track sha G m L k a := by
  generalize hL : (⟨[], [], [], [], T, []⟩ : Lane) = L₀ at h
  induction h with
  | refl =>
    subst hL
    exact ⟨inv_start sha M T hT, fun m k a h => by simp [Only] at h⟩
  | step L₂ L₃ _ h2 ih =>
    obtain ⟨i1, i2⟩ := ih
    exact ⟨inv_step hA i1 h2, fun m => track_step hA i1 h2 m (i2 m)⟩

/-- A message whose packets have all arrived: seen, if it was sent in one packet. -/
theorem lane_one {sha : Bytes → Bytes} {M : Message → Prop} {L : Lane} (hI : LaneInv sha M L) {k : Nat} {m : Message}
    {a : Option Nat} (hk : L.sends[k]? = some (m, a)) (hfit : a.getD 0 + counted m ≤ 1024) {i : Nat}
    (hi : L.src[i]? = some k) (hs : i ∈ L.seen) : m ∈ L.evs := by
  obtain ⟨hw, -⟩ := hI.sends _ (List.mem_of_getElem? hk)
  have hlt := hI.old i hs
  obtain ⟨k', m', a', h1, h2, h3⟩ := hI.shape i _ (List.getElem?_eq_getElem hlt)
  rw [hi] at h1
  cases h1
  rw [hk] at h2
  cases h2
  refine hI.wholes i hs m hw ?_
  rw [List.getElem?_eq_getElem hlt]
  unfold cargo at h3
  rw [if_pos hfit] at h3
  rw [List.mem_singleton.mp h3]

theorem lane_two {sha : Bytes → Bytes} {M G : Message → Prop} {L : Lane} (hI : LaneInv sha M L) {k : Nat} {m : Message}
    {a : Option Nat} (hO : Only L m k a) (hT : Track sha G m L k a) (hG : ¬ G m)
    (hshort : (writeMessage m).length ≤ firstPart a + 1024) (hs : ∀ i : Nat, L.src[i]? = some k → i ∈ L.seen) : m ∈ L.evs := by
  by_cases hfit : a.getD 0 + counted m ≤ 1024
  · obtain ⟨i, h1, -⟩ := hI.all k m a hO.1 m (by unfold cargo; rw [if_pos hfit]; simp)
    exact lane_one hI hO.1 hfit h1 (hs i h1)
  · rcases hT.short hG hshort with h | ⟨got, -, g2, g3⟩
    · exact h
    · exfalso
      apply g2
      intro x hx
      obtain ⟨q, hq, rfl⟩ := List.mem_map.mp hx
      obtain ⟨i, h1, h2⟩ := hI.all k m a hO.1 (partMessage q) (by
        unfold cargo; rw [if_neg hfit]; exact List.mem_map.mpr ⟨q, hq, rfl⟩)
      exact g3 i q (hs i h1) h1 h2

end Verif.LongTrip
