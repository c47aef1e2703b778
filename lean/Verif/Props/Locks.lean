import Verif.Proofs.Locks

/-!
# C68: the locks of the node cannot deadlock; C69: peer sets filled from each other

Any number of tasks, each running any sequence of the sections of `Model/Locks.lean` with any keys, in any
interleaving. A reader may be kept out by a waiting writer (`CanStep`), but may also get in before it
(`step`).

* `C68_no_deadlock`: in every reachable state some task can make its next step, unless all are done.
* `C68_finishes`: from every reachable state all tasks can be run to their end, with all locks released.
* `C69_full`: the same for `PeersSet::randomly_fill_from` between arbitrary sets. It is false: two tasks that
  fill two sets from each other block for ever (`C69_full_false`, `C69_stuck_for_ever`).
* `C69_one_way_partial`: it is true when the sets can be numbered so that each is only filled from sets with
  smaller numbers.
-/
namespace Verif.Props.Locks
open Verif.Locks

theorem C68_no_deadlock (tasks : List (List Section)) (sched : List Nat)
    (hu : ∃ t ∈ run (start tasks) sched, t.rest ≠ []) : ∃ i, CanStep (run (start tasks) sched) i :=
  progress below_irrefl below_trans (run_ordered (start_ordered tasks) sched) hu

example := C68_no_deadlock [[Section.sendMessage 0 5 (some 5)], [.createChannel 0 5 5 none (some (1, 2))],
  [.resetPeer 0 5 5 (some (1, 2))]] [0, 1, 1]
  ⟨⟨[(⟨.peers, 0, 5⟩, .read)], _⟩, List.mem_cons_self, by decide⟩

theorem C68_finishes (tasks : List (List Section)) (sched : List Nat) :
    ∃ more : List Nat, ∀ t ∈ run (start tasks) (sched ++ more), t.rest = [] ∧ t.held = [] := by
  obtain ⟨more, h⟩ := finish below_irrefl below_trans _ _ (Nat.le_refl _)
    (run_ordered (start_ordered tasks) sched)
  refine ⟨more, ?_⟩
  have e : run (start tasks) (sched ++ more) = run (run (start tasks) sched) more := by
    simp [run, List.foldl_append]
  rw [e]; exact h

/-- `CanStep` is not more than what the step function allows: such a step is made and is progress. -/
theorem C68_step_is_progress (s : State) (i : Nat) (h : CanStep s i) : work (step s i) < work s :=
  canStep_work h

/-- Three tasks about to send, to make a channel and to reset the same peer: the reset has to wait for the
sender, the sender goes on. -/
example :
    let tasks := [[Section.sendMessage 0 5 (some 5)], [.createChannel 0 5 5 none (some (1, 2))],
      [.resetPeer 0 5 5 (some (1, 2))]]
    let s := run (start tasks) [0, 1, 1]
    (∃ t ∈ s, t.rest ≠ []) ∧
      step s 2 = s ∧                                    -- the reset waits for both readers of the peer
      step s 0 = s ∧                                    -- the sender waits for the channel
      (step s 1).map (·.rest.length) = [3, 5, 8] := by  -- the channel is made
  refine ⟨⟨⟨[(⟨.peers, 0, 5⟩, .read)], _⟩, List.mem_cons_self, by decide⟩, rfl, rfl, by decide⟩

/-! ## Sets of peers -/

/-- The lock of set number `a`. -/
def setLock (a : Nat) : Lock := ⟨.localSet, a, 0⟩

/-- A task that fills set `p.2` from set `p.1`, for each `p`. -/
def fills (ps : List (Nat × Nat)) : Thread := ⟨[], ps.flatMap (fun p => fillFrom (setLock p.1) (setLock p.2) [])⟩

/-- The whole claim: tasks filling different sets from each other never block for ever. (A set filled from
itself is left alone, peers_set.rs:92-94.) -/
def C69_full : Prop :=
  ∀ (tasks : List (List (Nat × Nat))) (sched : List Nat), (∀ ps ∈ tasks, ∀ p ∈ ps, p.1 ≠ p.2) →
    (∃ t ∈ run (tasks.map fills) sched, t.rest ≠ []) → ∃ i, CanStep (run (tasks.map fills) sched) i

/-- Both tasks hold the set they read from. -/
def stuck : State := run ([[(0, 1)], [(1, 0)]].map fills) [0, 1]

theorem stuck_cannot : ∀ i, ¬ CanStep stuck i := by
  intro i ⟨t, ht, hc⟩
  match i, ht with
  | 0, ht =>
    simp only [stuck, run, List.foldl, List.map, fills, step, Thread.advance] at ht
    have : t = ⟨[(setLock 0, .read)], [.acq (setLock 1) .write, .rel (setLock 1) .write, .rel (setLock 0) .read]⟩ := by
      revert ht; exact fun ht => (Option.some.inj ht).symm
    subst this
    revert hc; decide
  | 1, ht =>
    have : t = ⟨[(setLock 1, .read)], [.acq (setLock 0) .write, .rel (setLock 0) .write, .rel (setLock 1) .read]⟩ :=
      (Option.some.inj ht).symm
    subst this
    revert hc; decide
  | i + 2, ht => exact absurd ht (by simp [stuck, run, fills, step, Thread.advance, List.length])

theorem C69_full_false : ¬ C69_full := by
  intro h
  obtain ⟨i, hi⟩ := h [[(0, 1)], [(1, 0)]] [0, 1] (by decide)
    ⟨⟨[(setLock 0, .read)], _⟩, List.mem_cons_self, by decide⟩
  exact stuck_cannot i hi

/-- No schedule gets the two tasks any further. -/
theorem C69_stuck_for_ever (sched : List Nat) : run stuck sched = stuck := by
  induction sched with
  | nil => rfl
  | cons i sched ih =>
    have e : step stuck i = stuck := by
      match i with
      | 0 => rfl
      | 1 => rfl
      | i + 2 => rfl
    show run (step stuck i) sched = stuck
    rw [e]; exact ih

/-- If the sets can be numbered so that every filling goes upwards, nothing blocks. -/
theorem C69_one_way_partial (f : Nat → Nat) (tasks : List (List (Nat × Nat))) (sched : List Nat)
    (hf : ∀ ps ∈ tasks, ∀ p ∈ ps, f p.1 < f p.2) (hu : ∃ t ∈ run (tasks.map fills) sched, t.rest ≠ []) :
    ∃ i, CanStep (run (tasks.map fills) sched) i := by
  refine progress (lt := fun a b => f a.inst < f b.inst) (fun _ => Nat.lt_irrefl _)
    (fun _ _ _ => Nat.lt_trans) (run_ordered ?_ sched) hu
  intro t ht
  rw [List.mem_map] at ht
  obtain ⟨ps, hps, rfl⟩ := ht
  have hps' := hf ps hps
  clear hf hu hps
  show Ordered _ [] (ps.flatMap _)
  induction ps with
  | nil => rfl
  | cons p ps ih =>
    rw [List.flatMap_cons]
    refine Nested.during (by simp) (Nested.during ?_ Nested.nil) _
      (ih (fun q hq => hps' q (List.mem_cons_of_mem _ hq)))
    intro h hh
    simp only [List.mem_cons, List.not_mem_nil, or_false] at hh
    subst hh
    exact hps' p List.mem_cons_self

/-- Neighbours from known peers and a local set from neighbours. -/
example : ∀ ps ∈ [[(0, 1)], [(1, 2), (0, 2)]], ∀ p ∈ ps, (id : Nat → Nat) p.1 < id p.2 := by decide

end Verif.Props.Locks
