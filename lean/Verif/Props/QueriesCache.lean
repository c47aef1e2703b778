import Verif.Proofs.QueriesCache

/-!
# C20: outstanding queries (`src/adnl/queries_cache.rs`)

`run init ops` is the state after an arbitrary interleaving of query creations, answers from the
network (split in table removal and channel send), polls of `wait` and drops (timeouts).
-/
namespace Verif.Props
open Verif Verif.QueriesCache

variable {ι β : Type} [DecidableEq ι]

/-- Each query completes at most once, and only with an answer that arrived with its id. -/
theorem C20_at_most_once_own_answer (ops : List (Op ι β)) (n : Nat) (p : Pending ι β)
    (hp : (run init ops).pend n = some p) :
    p.results.length ≤ 1 ∧ ∀ b, some b ∈ p.results → Op.answer p.id b ∈ ops :=
  ((run_inv ops).res n p hp).2

/-- After a query was answered (taken out) or dropped nothing about it remains in the table: every
entry of the table belongs to a query with that id that is still waiting. -/
theorem C20_no_leftovers (ops : List (Op ι β)) (id : ι) (n : Nat)
    (h : (run init ops).table.get id = some n) :
    ∃ p, (run init ops).pend n = some p ∧ p.id = id ∧ p.alive = true ∧ p.results = [] := by
  obtain ⟨_, p, h1, h2, h3, _⟩ := (run_inv ops).table id n h
  exact ⟨p, h1, h2, h3, ((run_inv ops).res n p h1).1 h3⟩

/-- Answers for unknown ids change nothing. -/
theorem C20_unknown_answer_ignored (s : Sys ι β) (id : ι) (b : β) (h : s.table.get id = none) :
    step s (.answer id b) = s := by
  simp [step, h]

/-- No answer is lost (ids are chosen at random, so never reused): as long as a query waits it is
in the table or its answer is about to be sent, and `wait` never fails spuriously. -/
theorem C20_waiting_query_is_reachable (ops : List (Op ι β)) (hf : freshIds ops) (n : Nat)
    (p : Pending ι β) (hp : (run init ops).pend n = some p) (ha : p.alive = true) :
    (p.chan = .open → (run init ops).table.get p.id = some n ∨
      ∃ b, (n, b) ∈ (run init ops).inflight) ∧ p.chan ≠ .closed :=
  (run_linv ops hf).live n p hp ha

/-- …and an answer then really arrives: answer, send, poll give the answer to the waiting caller. -/
theorem C20_answer_is_delivered (ops : List (Op ι β)) (n : Nat)
    (p : Pending ι β) (hp : (run init ops).pend n = some p)
    (ht : (run init ops).table.get p.id = some n) (b : β) :
    ∃ q, (run init (ops ++ [.answer p.id b, .send (run init ops).inflight.length, .poll n])).pend n
      = some q ∧ q.results = [some b] ∧ q.alive = false := by
  have hinv := run_inv ops
  obtain ⟨_, p', h1, _, ha, _⟩ := hinv.table _ _ ht
  rw [hp] at h1; cases h1
  have hr := (hinv.res n p hp).1 ha
  have hrun : run init (ops ++ [.answer p.id b, .send (run init ops).inflight.length, .poll n]) =
      step (step (step (run init ops) (.answer p.id b)) (.send (run init ops).inflight.length))
        (.poll n) := by
    simp [run, List.foldl_append]
  rw [hrun]
  generalize run init ops = s at *
  simp only [step, ht, List.getElem?_append_right (Nat.le_refl _), Nat.sub_self,
    List.getElem?_cons_zero, hp, setPend, if_true, ha]
  exact ⟨_, rfl, by simp [hr], rfl⟩

/-- Two queries answered in the other order, one of them twice, and a third dropped by timeout. -/
example :
    let ops : List (Op Nat Nat) := [.add 10, .add 20, .add 30, .answer 20 5, .send 0, .answer 10 4,
      .answer 20 9, .drop 2, .send 0, .poll 0, .poll 1, .poll 0, .answer 30 1]
    freshIds ops ∧ (run init ops).table = [] ∧
    ((run init ops).pend 0).map (·.results) = some [some 4] ∧
    ((run init ops).pend 1).map (·.results) = some [some 5] ∧
    ((run init ops).pend 2).map (·.results) = some [] := by
  refine ⟨?_, ?_⟩
  · simp [freshIds]
  · decide

-- C20_at_most_once_own_answer, C20_no_leftovers, C20_unknown_answer_ignored, C20_waiting_query_is_reachable
example (p : Pending Nat Nat) (hp : (run init ([.add 10, .add 20, .answer 20 5, .send 0] : List (Op Nat Nat))).pend 1 = some p) :=
  C20_at_most_once_own_answer _ 1 p hp
example := C20_no_leftovers ([.add 10, .add 20, .answer 20 5] : List (Op Nat Nat)) 10 0 (by decide)
example := C20_unknown_answer_ignored (run init ([.add 10, .add 20, .answer 20 5] : List (Op Nat Nat))) 20 7 (by decide)
example (p : Pending Nat Nat) (hp : (run init ([.add 10, .add 20] : List (Op Nat Nat))).pend 1 = some p)
    (ha : p.alive = true) :=
  C20_waiting_query_is_reachable _ (by simp [freshIds]) 1 p hp ha
example : ((run init ([.add 10, .add 20, .answer 20 5, .send 0] : List (Op Nat Nat))).pend 1).isSome = true ∧
    ((run init ([.add 10, .add 20] : List (Op Nat Nat))).pend 1).map (·.alive) = some true := by decide

omit [DecidableEq ι] in
theorem closeSender_self {f : Nat → Option (Pending ι β)} {n : Nat} {p : Pending ι β} (hp : f n = some p)
    (ho : p.chan = .open) : closeSender f (some n) n = some { p with chan := .closed } := by
  unfold closeSender
  simp only [hp, ho]
  simp [setPend]

/-- Ids that come twice: the older query of an id, still waiting, is told that there will be no answer when the id is
given out again, or when another query with that id is dropped. -/
theorem C20_replaced_is_told (ops : List (Op ι β)) (n : Nat) (p : Pending ι β) (hp : (run init ops).pend n = some p)
    (ht : (run init ops).table.get p.id = some n) (o : Op ι β)
    (ho : o = .add p.id ∨ ∃ m q, m ≠ n ∧ o = .drop m ∧ (run init ops).pend m = some q ∧ q.alive = true ∧ q.id = p.id) :
    ∃ q, (run init (ops ++ [o, .poll n])).pend n = some q ∧ q.results = [none] ∧ q.alive = false := by
  have hinv := run_inv ops
  obtain ⟨hlt, p', h1, _, ha, hch⟩ := hinv.table _ _ ht
  rw [hp] at h1; cases h1
  have hr := (hinv.res n p hp).1 ha
  have hrun : run init (ops ++ [o, .poll n]) = step (step (run init ops) o) (.poll n) := by simp [run, List.foldl_append]
  rw [hrun]
  have key : (step (run init ops) o).pend n = some { p with chan := .closed } := by
    generalize run init ops = s at *
    rcases ho with rfl | ⟨m, q, hm, rfl, hq, hqa, hqi⟩
    · have hn : n ≠ s.next := by omega
      simp only [step, ht, setPend, if_neg hn]
      exact closeSender_self hp hch
    · simp only [step, hq, hqa, if_true, hqi, ht, setPend, if_neg (Ne.symm hm)]
      exact closeSender_self hp hch
  generalize step (run init ops) o = s at key
  simp only [step, key, ha, if_true, setPend]
  exact ⟨_, rfl, by simp [hr], rfl⟩
-- C20_replaced_is_told: the id 10 is given out twice; and the newer of two queries with one id waits while the older is dropped
example (p : Pending Nat Nat) (hp : (run init ([.add 10, .add 20] : List (Op Nat Nat))).pend 0 = some p) (h10 : p.id = 10) :=
  C20_replaced_is_told _ 0 p hp (by rw [h10]; decide) (.add p.id) (.inl rfl)
example : ((run init ([.add 10, .add 20, .add 10, .poll 0, .answer 10 3, .send 0, .poll 2] : List (Op Nat Nat))).pend 0).map
      (·.results) = some [none] ∧
    ((run init ([.add 10, .add 20, .add 10, .poll 0, .answer 10 3, .send 0, .poll 2] : List (Op Nat Nat))).pend 2).map
      (·.results) = some [some 3] ∧
    ((run init ([.add 10, .add 10, .drop 0, .poll 1] : List (Op Nat Nat))).pend 1).map (·.results) = some [none] := by decide

end Verif.Props
