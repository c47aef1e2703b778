import Verif.Proofs.PacketsHistoryConc

/-!
# C01–C03: replay protection (`src/util/packets_history.rs`)
-/
namespace Verif.Props
open Verif.PacketsHistory

/-- C01, full statement: whatever was delivered, a number delivered before is refused.
**False in the code**, see `C01_full_false`. -/
def C01_full : Prop :=
  ∀ (xs : List Nat) (s : Nat), (∀ x ∈ xs, x < 2 ^ 64) → s ∈ xs →
    (deliver (run forRecv xs) s).2 = false

/-- The code accepts the same number twice: packet number 256 is accepted, and accepted again. -/
theorem C01_full_false : ¬ C01_full := by
  intro h
  have := h [256] 256 (by decide) (by decide)
  exact absurd this (by decide)

/-- How bad it is: *every* number from 256 on is accepted *every* time, in every history, because
the window base (`index`) never moves. -/
theorem C01_large_always_accepted (xs : List Nat) (s : Nat) (hs : 256 ≤ s) :
    (deliver (run forRecv xs) s).2 = true :=
  (accepts_iff _ (run_index _ rfl xs) s).mpr (.inl hs)

example : (deliver (run forRecv [300, 300, 300]) 300).2 = true :=
  C01_large_always_accepted _ _ (by decide)

/-- C01 for connections on which all packet numbers stay below 256: a number that was delivered
is refused from then on, on a fresh history. What is missing for the full property: numbers
from 256 on. -/
theorem C01_no_replay_partial (xs : List Nat) (s : Nat) (hsmall : ∀ x ∈ xs, x < 256)
    (hs : s ∈ xs) : (deliver (run forRecv xs) s).2 = false := by
  have hs256 := hsmall s hs
  have hb := bitOf_run_fresh xs s hs256
  rw [decide_eq_true (mem_remembered_of_small xs s hsmall hs)] at hb
  have := (accepts_iff (run forRecv xs) (run_index _ rfl xs) s)
  rw [hb] at this
  have h2 : ¬ 256 ≤ s := by omega
  simpa [h2] using this

example : (deliver (run forRecv [3, 200, 7]) 200).2 = false :=
  C01_no_replay_partial [3, 200, 7] 200 (by decide) (by decide)

/-- The same after `reset` (a session reinitialisation): no number below 256 is accepted twice,
and number 0 is refused from the start. -/
theorem C01_no_replay_after_reset_partial (h : Hist) (xs : List Nat) (s : Nat)
    (hsmall : ∀ x ∈ xs, x < 256) (hs : s ∈ xs ∨ s = 0) :
    (deliver (run (reset h) xs) s).2 = false := by
  have hs256 : s < 256 := by
    rcases hs with hs | hs
    · exact hsmall s hs
    · omega
  have hb := bitOf_run_reset h xs s hs256
  have hd : s ∈ Spec.remembered xs ∨ (s = 0 ∧ ∀ x ∈ xs, x < 256) := by
    rcases hs with hs | hs
    · exact .inl (mem_remembered_of_small xs s hsmall hs)
    · exact .inr ⟨hs, hsmall⟩
  rw [decide_eq_true hd] at hb
  have := (accepts_iff (run (reset h) xs) (run_index _ rfl xs) s)
  rw [hb] at this
  have h2 : ¬ 256 ≤ s := by omega
  simpa [h2] using this

example : (deliver (run (reset forRecv) [1, 2, 255]) 255).2 = false :=
  C01_no_replay_after_reset_partial _ _ _ (by decide) (by decide)

/-- Exact description of the implemented filter for every history (any numbers): a number is
refused iff it is below 256 and was delivered after the last number `≥ 256`. -/
theorem C01_exact_filter (xs : List Nat) (s : Nat) :
    (deliver (run forRecv xs) s).2 = false ↔ (s < 256 ∧ s ∈ Spec.remembered xs) := by
  have h := accepts_iff (run forRecv xs) (run_index _ rfl xs) s
  by_cases hs : s < 256
  · rw [bitOf_run_fresh xs s hs] at h
    have h2 : ¬ 256 ≤ s := by omega
    simp only [h2, false_or, decide_eq_false_iff_not] at h
    rw [← Bool.not_eq_true, h]
    simp [hs]
  · have h2 : 256 ≤ s := by omega
    simp only [h2, true_or, iff_true] at h
    simp [h, hs]

example : (deliver (run forRecv [5, 300, 7]) 5).2 = true ∧
    (deliver (run forRecv [5, 300, 7]) 7).2 = false := by
  constructor
  · by_contra h
    have := (C01_exact_filter [5, 300, 7] 5).mp (by simpa using h)
    exact absurd this.2 (by decide)
  · exact (C01_exact_filter [5, 300, 7] 7).mpr (by decide)

/-- C02: a packet number that was never delivered on this connection is accepted, for every
history on a fresh receive history (no lower limit is needed: the implemented window never
moves, so nothing is ever "too old"). -/
theorem C02_fresh_number_accepted (xs : List Nat) (s : Nat) (hs : s ∉ xs) :
    (deliver (run forRecv xs) s).2 = true := by
  by_contra h
  have h1 : (deliver (run forRecv xs) s).2 = false := by simpa using h
  exact hs (mem_of_remembered xs s ((C01_exact_filter xs s).mp h1).2)

example : (deliver (run forRecv [1, 2, 500, 3]) 4).2 = true :=
  C02_fresh_number_accepted _ _ (by decide)

/-- C02 after a session reset: every non-zero number not delivered since the reset is accepted
(0 is never used by the sender, whose counter starts at 1). -/
theorem C02_fresh_number_accepted_after_reset (h : Hist) (xs : List Nat) (s : Nat)
    (h0 : s ≠ 0) (hs : s ∉ xs) : (deliver (run (reset h) xs) s).2 = true := by
  rw [accepts_iff _ (run_index _ rfl xs) s]
  by_cases hs2 : s < 256
  · right
    rw [bitOf_run_reset h xs s hs2]
    simp only [decide_eq_false_iff_not]
    rintro (h1 | ⟨h1, _⟩)
    · exact hs (mem_of_remembered xs s h1)
    · exact h0 h1
  · left; omega

example : (deliver (run (reset forRecv) [1, 2]) 3).2 = true :=
  C02_fresh_number_accepted_after_reset _ _ _ (by decide) (by decide)

/-- The reported highest number is the maximum of all delivered numbers, in every history. -/
theorem C02_seqno_is_max (xs : List Nat) : (run forRecv xs).seqno = xs.foldl max 0 :=
  (seqno_run forRecv rfl xs (by intro t _ h; simp [bitOf, forRecv] at h)).1

example : (run forRecv [4, 9, 2, 9]).seqno = 9 := by rw [C02_seqno_is_max]; decide

/-- Sender counter: every packet gets a number larger than all numbers used before. -/
theorem C02_bump_strictly_increasing (last : Nat) : last < (bump last).2 ∧ (bump last).1 = (bump last).2 := by
  simp [bump]

/-- C02: a history of sent numbers accepts every number and remembers the greatest. -/
theorem C02_send_history (xs : List Nat) (last : Nat) :
    (xs.foldl (fun l x => (deliverSend l x).1) last) = xs.foldl max last ∧ ∀ l x, (deliverSend l x).2 = true := by
  refine ⟨?_, fun _ _ => rfl⟩
  congr 1
  funext l x
  unfold deliverSend
  simp only
  split <;> omega

example : ([3, 9, 4].foldl (fun l x => (deliverSend l x).1) 0) = 9 := by rw [(C02_send_history _ _).1]; decide

/-- C03, full statement: whatever the interleaving, two different tasks delivering the same number
do not both get `true`. **False in the code**, see `C03_full_false`. -/
def C03_full : Prop :=
  ∀ (seqnos : Nat → Nat) (sched : List Nat) (a b : Nat), (∀ t, seqnos t < 256) → a ≠ b →
    seqnos a = seqnos b →
    ¬ (((Sys.init.run seqnos sched).pc a = .done true) ∧
       ((Sys.init.run seqnos sched).pc b = .done true))

/-- Thread 0 checks the bit, then thread 1 delivers the same packet completely, then thread 0's
compare-exchange still succeeds because `index` has returned to the same value (ABA): both accept. -/
theorem C03_full_false : ¬ C03_full := by
  intro h
  exact h (fun _ => 5) [0, 0, 0, 1, 1, 1, 1, 1, 1, 1, 1, 0, 0, 0, 0] 0 1
    (by intro _; decide) (by decide) rfl (by decide)

/-- C03 without overlap: if a task got `true` for a number (below 256) before another task with
the same number starts, the second task is never told `true`, whatever any number of other tasks
do. Missing for the full property: tasks overlapping in time, and numbers from 256 on. -/
theorem C03_no_double_accept_partial (seqnos : Nat → Nat) (hsmall : ∀ t, seqnos t < 256)
    (pre post : List Nat) (a b : Nat) (hsame : seqnos a = seqnos b)
    (ha : (Sys.init.run seqnos pre).pc a = .done true)
    (hb : (Sys.init.run seqnos pre).pc b = .load) :
    (Sys.init.run seqnos (pre ++ post)).pc b ≠ .done true := by
  have hinv := run_inv seqnos hsmall Sys.init (init_inv seqnos) pre
  have hbit : bitOf (Sys.init.run seqnos pre).hist (seqnos b) = true := by
    have := hinv.ok a
    rw [ha] at this
    rw [← hsame]; exact this
  have hr : ((Sys.init.run seqnos pre).pc b).refusing = true := by rw [hb]; rfl
  have := refusing_run seqnos hsmall _ hinv b hbit hr post
  rw [show Sys.init.run seqnos (pre ++ post) = (Sys.init.run seqnos pre).run seqnos post by
    simp [Sys.run, List.foldl_append]]
  intro hc
  rw [hc] at this
  simp [PC.refusing] at this

example : (Sys.init.run (fun _ => 5) [1, 1, 1, 1, 1, 1, 1, 1]).pc 1 = .done true ∧
    (Sys.init.run (fun _ => 5) [1, 1, 1, 1, 1, 1, 1, 1]).pc 0 = .load := by decide

/-- Mutual exclusion: at most one task is between taking and releasing the lock. -/
theorem C03_mutual_exclusion_partial (seqnos : Nat → Nat) (hsmall : ∀ t, seqnos t < 256)
    (sched : List Nat) (a b : Nat)
    (ha : ((Sys.init.run seqnos sched).pc a).crit = true)
    (hb : ((Sys.init.run seqnos sched).pc b).crit = true) : a = b :=
  (run_inv seqnos hsmall Sys.init (init_inv seqnos) sched).mutex a b ha hb

example : ((Sys.init.run (fun t => t % 256) [3, 3, 3, 3]).pc 3).crit = true := by decide

/-- No packet is lost by a race: a task is refused only if another task delivering the same number
has recorded it and has returned `true` or is bound to (it is past the recording step). -/
theorem C03_refusal_means_recorded_partial (seqnos : Nat → Nat) (hsmall : ∀ t, seqnos t < 256)
    (sched : List Nat) (b : Nat) (hb : (Sys.init.run seqnos sched).pc b = .done false) :
    ∃ a, a ≠ b ∧ seqnos a = seqnos b ∧ ((Sys.init.run seqnos sched).pc a).past = true := by
  have hinv := run_inv seqnos hsmall Sys.init (init_inv seqnos) sched
  have hbit := hinv.ok b
  rw [hb] at hbit
  obtain ⟨a, h1, h2⟩ := hinv.origin (seqnos b) (hsmall b) hbit
  refine ⟨a, ?_, h1, h2⟩
  rintro rfl
  rw [hb] at h2
  simp [PC.past] at h2

example : (Sys.init.run (fun _ => 9) [1, 1, 1, 1, 1, 1, 1, 1, 0, 0, 0]).pc 0 = .done false := by
  decide

/-- "Bound to" is meant literally: a task past the recording step has returned `true` after at
most three more steps of its own, whatever other tasks do in between (it waits for nobody). -/
theorem C03_recorded_task_returns_true (seqnos : Nat → Nat) (a : Nat) :
    ∀ (sched : List Nat) (σ : Sys), (σ.pc a).past = true → 3 ≤ sched.count a →
      (σ.run seqnos sched).pc a = .done true := by
  have key : ∀ (sched : List Nat) (σ : Sys), (σ.pc a).past = true →
      (match σ.pc a with | .readSeq _ _ => 3 | .storeSeq _ _ => 2 | .unlock _ _ => 1 | _ => 0)
        ≤ sched.count a → (σ.run seqnos sched).pc a = .done true := by
    intro sched
    induction sched with
    | nil =>
      intro σ hp hc
      cases h : σ.pc a with
      | done r => cases r <;> simp_all [PC.past, Sys.run]
      | _ => simp_all [PC.past, Sys.run]
    | cons t ts ih =>
      intro σ hp hc
      show ((σ.step seqnos t).run seqnos ts).pc a = _
      by_cases hta : t = a
      · subst hta
        simp only [List.count_cons_self] at hc
        cases h : σ.pc t with
        | readSeq i n =>
          by_cases hs : σ.hist.seqno < seqnos t
          · have e : (σ.step seqnos t).pc t = .storeSeq i n := by simp [Sys.step, h, stepPC, hs]
            exact ih _ (by rw [e]; rfl) (by rw [e]; simp only [h] at hc; simp only; omega)
          · have e : (σ.step seqnos t).pc t = .unlock i n := by simp [Sys.step, h, stepPC, hs]
            exact ih _ (by rw [e]; rfl) (by rw [e]; simp only [h] at hc; simp only; omega)
        | storeSeq i n =>
          have e : (σ.step seqnos t).pc t = .unlock i n := by simp [Sys.step, h, stepPC]
          exact ih _ (by rw [e]; rfl) (by rw [e]; simp only [h] at hc; simp only; omega)
        | unlock i n =>
          have e : (σ.step seqnos t).pc t = .done true := by simp [Sys.step, h, stepPC]
          exact ih _ (by rw [e]; rfl) (by rw [e]; exact Nat.zero_le _)
        | done r =>
          have e : (σ.step seqnos t).pc t = .done r := by simp [Sys.step, h, stepPC]
          exact ih _ (by rw [e, ← h]; exact hp) (by rw [e]; exact Nat.zero_le _)
        | _ => simp [h, PC.past] at hp
      · have hpc : (σ.step seqnos t).pc a = σ.pc a := by
          simp [Sys.step, Ne.symm hta]
        rw [List.count_cons_of_ne hta] at hc
        exact ih _ (by rw [hpc]; exact hp) (by rw [hpc]; exact hc)
  intro sched σ hp hc
  apply key sched σ hp
  split <;> omega

example : ((Sys.init.run (fun _ => 9) [0, 0, 0, 0, 0]).pc 0).past = true := by decide

end Verif.Props
