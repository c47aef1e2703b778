import Verif.Proofs.PeersSetMem
import Verif.Spec.Fifo

/-!
# C104: the references handed out by the iterator of a peers set

`PeersSet::iter` yields `&'a NodeIdShort` where `'a` is the life of the set, so a caller may keep such a
reference when the iterator, and with it the read lock, is gone.
-/
namespace Verif.Props
open Verif.Spec Verif.PeersSetMem
open Verif.Views (Mem)

variable {α : Type} [DecidableEq α]

/-- Members of a set created with the peers `ps` after the inserts `qs`, oldest first. -/
def peerHistory (c : Nat) (ps qs : List α) : List α :=
  qs.foldl (fifoInsert (max 1 c)) (firstDistinct (max 1 c) ps)

/-- **C104, full statement**: a reference obtained from the iterator can be read as long as the set
exists, whatever is inserted later. -/
def C104_full (α : Type) [DecidableEq α] : Prop :=
  ∀ (c : Nat) (ps qs rs : List α) (m m' : State α), inserts (withPeers ps c) qs = .ok m →
    inserts m rs = .ok m' → ∀ a ∈ iter m, ∃ x, deref m'.heap a = .ok x

private theorem history (c : Nat) (ps qs : List α) :
    ∃ m, inserts (withPeers ps c) qs = .ok m ∧
      Sim m (PeersSet.extend (PeersSet.withPeers ps c) qs) ∧
      PeersSet.Inv (PeersSet.extend (PeersSet.withPeers ps c) qs) ∧
      (peerHistory c ps qs).Perm (PeersSet.extend (PeersSet.withPeers ps c) qs).index := by
  obtain ⟨hi, hcap, hq⟩ := PeersSet.withPeers_spec ps c
  obtain ⟨m, e, hm, hinv, _⟩ := inserts_sim qs _ _ hi (sim_withPeers ps c)
  refine ⟨m, e, hm, hinv, ?_⟩
  have := (PeersSet.extend_spec hi qs).2.2
  rw [hcap, hq] at this
  rw [peerHistory, ← this]
  exact PeersSet.queue_perm _

/-- No sequence of inserts touches freed memory or frees twice, and what a caller reads while the iterator
is alive (the lock is held, so nothing is inserted) are the members, each once. -/
theorem C104_read_under_lock_partial (c : Nat) (ps qs : List α) :
    ∃ m ids, inserts (withPeers ps c) qs = .ok m ∧
      List.Forall₂ (fun a x => deref m.heap a = .ok x) (iter m) ids ∧
      ids.Perm (peerHistory c ps qs) := by
  obtain ⟨m, e, hm, _, hp⟩ := history c ps qs
  refine ⟨m, _, e, ?_, hp.symm⟩
  exact hm.forall₂.imp (fun a x h => by simp [deref, h])

example : inserts (withPeers [1, 1, 2, 3] 2) [4] =
    .ok (⟨[(3, (4, 2)), (2, (2, 2))], 4, [(4, (3, 0)), (2, (2, 1))], [3, 2], 2, 1⟩ : State Nat) ∧
    peerHistory 2 [1, 1, 2, 3] [4] = [2, 4] := by decide

/-- Nothing is leaked: the allocations that live are those of the members. -/
theorem C104_no_leak (c : Nat) (ps qs : List α) (m : State α)
    (h : inserts (withPeers ps c) qs = .ok m) (a : Nat) :
    (∃ x, deref m.heap a = .ok x) ↔ a ∈ iter m := by
  obtain ⟨m', e, hm, _, _⟩ := history c ps qs
  rw [h] at e; cases e
  constructor
  · rintro ⟨x, hx⟩
    apply hm.noleak
    unfold deref at hx
    cases hg : m.heap.get a with
    | none => rw [hg] at hx; cases hx
    | some v => rfl
  · intro ha
    obtain ⟨i, hi⟩ := List.mem_iff_getElem?.mp ha
    have hl := (List.getElem?_eq_some_iff.mp hi).1
    rw [show (iter m).length = m.index.length from rfl, hm.len] at hl
    exact ⟨_, by rw [deref, hm.cells i a _ hi (List.getElem?_eq_getElem hl)]⟩

/-- Exactly when a reference that is kept can still be read: as long as its peer has been a member without
interruption. Otherwise reading it is a use after free; that the peer is a member again does not help. -/
theorem C104_dangling_iff (c : Nat) (ps qs rs : List α) (m m' : State α)
    (h : inserts (withPeers ps c) qs = .ok m) (h' : inserts m rs = .ok m') (a : Nat) (x : α)
    (ha : a ∈ iter m) (hx : deref m.heap a = .ok x) :
    ((∀ k, k ≤ rs.length → x ∈ peerHistory c ps (qs ++ rs.take k)) → deref m'.heap a = .ok x) ∧
    ((∃ k, k ≤ rs.length ∧ x ∉ peerHistory c ps (qs ++ rs.take k)) → deref m'.heap a = .undefined) := by
  obtain ⟨m1, e, hm, hinv, _⟩ := history c ps qs
  rw [h] at e; cases e
  obtain ⟨i, hi⟩ := List.mem_iff_getElem?.mp ha
  have hl := (List.getElem?_eq_some_iff.mp hi).1
  rw [show (iter m).length = m.index.length from rfl, hm.len] at hl
  have hcell := hm.cells i a _ hi (List.getElem?_eq_getElem hl)
  have hxi : (PeersSet.extend (PeersSet.withPeers ps c) qs).index[i]? = some x := by
    rw [deref, hcell] at hx
    rw [List.getElem?_eq_getElem hl]
    simpa using hx
  obtain ⟨hor, hiff⟩ := kept_iff rs m m' _ hinv hm i a x hi hxi h'
  have hsame : ∀ k, x ∈ peerHistory c ps (qs ++ rs.take k) ↔
      x ∈ (PeersSet.extend (PeersSet.extend (PeersSet.withPeers ps c) qs) (rs.take k)).index := by
    intro k
    obtain ⟨_, _, _, _, hp⟩ := history c ps (qs ++ rs.take k)
    rw [hp.mem_iff]
    simp [PeersSet.extend, List.foldl_append]
  constructor
  · intro hk
    have := hiff.mpr (fun k hkk => (hsame k).mp (hk k hkk))
    rcases hor with e | e
    · simp [deref, e]
    · rw [e] at this; simp at this
  · rintro ⟨k, hkk, hn⟩
    rcases hor with e | e
    · exact absurd (hiff.mp (by simp [e]) k hkk) (fun hc => hn ((hsame k).mpr hc))
    · simp [deref, e]

/-- One insert is enough: in a full set, the insert of a new peer makes the reference to the oldest
dangling. -/
theorem C104_one_insert (c : Nat) (ps qs : List α) (m : State α) (x q : α) (rest : List α)
    (h : inserts (withPeers ps c) qs = .ok m) (hold : peerHistory c ps qs = x :: rest)
    (hfull : (peerHistory c ps qs).length = max 1 c) (hq : q ∉ peerHistory c ps qs) :
    ∃ a ∈ iter m, deref m.heap a = .ok x ∧
      ∃ m', inserts m [q] = .ok m' ∧ deref m'.heap a = .undefined := by
  obtain ⟨m1, e, hm, hinv, hp⟩ := history c ps qs
  rw [h] at e; cases e
  have hx : x ∈ (PeersSet.extend (PeersSet.withPeers ps c) qs).index := by
    rw [← hp.mem_iff, hold]; simp
  obtain ⟨i, hi⟩ := List.mem_iff_getElem?.mp hx
  have hl : i < m.index.length := by rw [hm.len]; exact (List.getElem?_eq_some_iff.mp hi).1
  have hcell := hm.cells i _ x (List.getElem?_eq_getElem hl) hi
  obtain ⟨m', e', _⟩ := inserts_sim [q] m _ hinv hm
  have hd : deref m.heap m.index[i] = .ok x := by rw [deref, hcell]
  refine ⟨m.index[i], List.getElem_mem hl, hd, m', e', ?_⟩
  refine (C104_dangling_iff c ps qs [q] m m' h e' _ x (List.getElem_mem hl) hd).2 ⟨1, by simp, ?_⟩
  have hnd : (x :: rest).Nodup := hold ▸ hp.nodup_iff.mpr hinv.nodup
  have hstep : peerHistory c ps (qs ++ [q]) = rest ++ [q] := by
    have : peerHistory c ps (qs ++ [q]) = fifoInsert (max 1 c) (peerHistory c ps qs) q := by
      simp [peerHistory, List.foldl_append]
    rw [this, fifoInsert, if_neg hq, if_neg (by omega), hold]
    rfl
  simp only [List.take_succ_cons, List.take_zero]
  rw [hstep, List.mem_append, List.mem_singleton]
  rintro (hc | rfl)
  · exact (List.nodup_cons.mp hnd).1 hc
  · exact hq (by rw [hold]; simp)

/-- The set taken apart (`into_iter`) yields every member once: the map is dropped first, so each `Rc` of
the index is the only one. -/
theorem C104_into_iter (c : Nat) (ps qs : List α) (m : State α)
    (h : inserts (withPeers ps c) qs = .ok m) :
    ∃ ids, intoIter m = .ok ids ∧ ids.Perm (peerHistory c ps qs) := by
  obtain ⟨m', e, hm, hinv, hp⟩ := history c ps qs
  rw [h] at e; cases e
  exact ⟨_, intoIter_sim hinv hm, hp.symm⟩

example : (inserts (withPeers [1, 1, 2, 3] 2) [4] >>= fun m => intoIter (m : State Nat)) = .ok [4, 2] := by
  decide

/-- The full statement is false. -/
theorem C104_full_false : ¬ C104_full Nat := by
  intro h
  obtain ⟨x, hx⟩ := h 1 [1] [] [2] ⟨[(0, (1, 2))], 1, [(1, (0, 0))], [0], 1, 0⟩
    ⟨[(1, (2, 2))], 2, [(2, (1, 0))], [1], 1, 0⟩ (by decide) (by decide) 0 (by decide)
  exact absurd hx (by simp [deref, AMap.get])

/-- The hypotheses of `C104_one_insert` are met by a set of two with two members. -/
example : peerHistory 2 [] [5, 6] = [5, 6] ∧ (peerHistory 2 [] [5, 6] : List Nat).length = max 1 2 ∧
    7 ∉ peerHistory 2 [] [5, 6] := by decide

-- C104_no_leak, C104_dangling_iff, C104_one_insert
example := C104_no_leak 2 [1, 1, 2, 3] [4]
  (⟨[(3, (4, 2)), (2, (2, 2))], 4, [(4, (3, 0)), (2, (2, 1))], [3, 2], 2, 1⟩ : State Nat) (by decide)
example (m m' : State Nat) (h : inserts (withPeers [] 2) [5, 6] = .ok m) (h' : inserts m [7] = .ok m') (a : Nat)
    (ha : a ∈ iter m) (hx : deref m.heap a = .ok 5) : deref m'.heap a = .undefined :=
  (C104_dangling_iff 2 [] [5, 6] [7] m m' h h' a 5 ha hx).2 ⟨1, by decide, by decide⟩
example (m : State Nat) (h : inserts (withPeers [] 2) [5, 6] = .ok m) :=
  C104_one_insert 2 [] [5, 6] m 5 7 [6] h (by decide) (by decide) (by decide)
example : ∃ m m' : State Nat, ∃ a, inserts (withPeers [] 2) [5, 6] = .ok m ∧ inserts m [7] = .ok m' ∧ a ∈ iter m ∧
    deref m.heap a = .ok 5 := ⟨_, _, 0, rfl, rfl, by decide, rfl⟩

end Verif.Props
