import Verif.Props.TransferTimeout

/-!
# C67: tasks that handle parts do not touch each other
-/
namespace Verif.TransferTimeout
open Verif.Transfer

/-- The task that acts; time and timers are nobody's. -/
def Act.by? : Act → Option Nat
  | .lookup t _ => some t
  | .handle t => some t
  | _ => none

theorem pcs_setPC (s : State) (t u : Nat) (c : PC) (h : t ≠ u) : (setPC s t c).pcs u = s.pcs u := by
  simp only [setPC]
  exact if_neg (fun e => h e.symm)

theorem pcs_afterAdd (s : State) (t u : Nat) (hash : Bytes) (r : Res) (h : t ≠ u) :
    (afterAdd s t hash r).pcs u = s.pcs u := by
  cases r <;> exact pcs_setPC _ _ _ _ h

theorem pcs_step (sha : Bytes → Bytes) (c : Cfg) (s : State) (a : Act) (u : Nat) (h : a.by? ≠ some u) :
    (step sha c s a).pcs u = s.pcs u := by
  cases a with
  | tick d =>
    simp only [step, tick]
    split <;> rfl
  | lookup t p =>
    have ht : t ≠ u := fun e => h (by rw [e]; rfl)
    simp only [step, lookup]
    split
    · split
      · exact pcs_setPC _ _ _ _ ht
      · exact pcs_setPC _ _ _ _ ht
    · rfl
  | handle t =>
    have ht : t ≠ u := fun e => h (by rw [e]; rfl)
    simp only [step, handle]
    split
    · rfl
    · split
      · exact pcs_setPC _ _ _ _ ht
      · rfl
    · split
      · exact pcs_afterAdd _ _ _ _ _ ht
      · rfl
    · exact pcs_setPC _ _ _ _ ht
    · rfl
  | timer i =>
    simp only [step, timer]
    split
    · rfl
    · split
      · rfl
      · split
        · rfl
        · split <;> rfl
      · rfl

/-- C67: a task that handles a part is where it was until it acts itself, whatever other tasks, timers and the clock do
meanwhile. -/
theorem C67_apart (sha : Bytes → Bytes) (c : Cfg) (s : State) (as : List Act) (u : Nat)
    (h : ∀ a ∈ as, a.by? ≠ some u) : (run sha c s as).pcs u = s.pcs u := by
  induction as generalizing s with
  | nil => rfl
  | cons a as ih =>
    show (run sha c (step sha c s a) as).pcs u = s.pcs u
    rw [ih _ (fun b hb => h b (List.mem_cons_of_mem _ hb)), pcs_step sha c s a u (h a (List.mem_cons_self ..))]

-- task 1 handles a part while task 0 has found its transfer
example (sha : Bytes → Bytes) (c : Cfg) :=
  C67_apart sha c (step sha c State.init (.lookup 0 ⟨List.replicate 32 1, 4, 0, [1, 2]⟩))
    [.lookup 1 ⟨List.replicate 32 1, 4, 2, [3, 4]⟩, .tick 5, .handle 1, .handle 1, .timer 0] 0
    (by
      intro a ha
      simp only [List.mem_cons, List.not_mem_nil, or_false] at ha
      rcases ha with rfl | rfl | rfl | rfl | rfl <;> simp [Act.by?])
end Verif.TransferTimeout
