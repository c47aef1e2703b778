import Verif.Props.LongTrip

/-!
# Computed runs of the system of C111

Runs of two nodes given as lists of commands, for the examples of theorems about such runs.
-/
namespace Verif.LongTrip
open Verif.Tl Verif.Adnl Verif.AdnlProto Verif.Address Verif.Node Verif.Receiver Verif.Sender Verif.Props
open Verif.Process Verif.Delivery Verif.RoundTrip
open Verif.Establish (upd upd_self upd_not upd_not' Expected)

deriving instance DecidableEq for Reply

variable {c : Crypto}

/-- A step of a computed run. -/
inductive Cmd where
  | tell (b : Bool) (now : Nat) (m : Message)
  | deliver (b : Bool) (i now : Nat) (subs : Event → Reply)

/-- The counters of the peer leave room. -/
def countsOk (P : Pair c) (b : Bool) (s : State c) : Bool :=
  match s.peer (P.id b) (P.id !b) with
  | none => true
  | some p => decide (p.sendSeqno false < 2 ^ 63) && decide (p.sendSeqno true < 2 ^ 63)

theorem countsOk_spec {P : Pair c} {b : Bool} {s : State c} (h : countsOk P b s = true) :
    ∀ p prio, s.peer (P.id b) (P.id !b) = some p → p.sendSeqno prio < 2 ^ 63 := by
  intro p prio hp
  unfold countsOk at h
  rw [hp] at h
  simp only [Bool.and_eq_true, decide_eq_true_eq] at h
  cases prio
  · exact h.1
  · exact h.2

def exec1 (P : Pair c) (key : c.Sec) (rand : Nat → Rand c) (ρ : Talk c) : Cmd → Option (Talk c)
  | .tell b now m =>
    if now + (P.opts b).addressListTimeout < 2 ^ 32 ∧ countsOk P b (ρ.node b).node = true then
      match sendMessage (P.opts b) (P.loop b) now (ρ.node b).node (P.id b) (P.id !b) m false rand with
      | .ok (p', ds) => some (told P ρ b now m p' ds)
      | .error _ => none
    else none
  | .deliver b i now subs =>
    match (ρ.net b)[i]? with
    | none => none
    | some (t, d) =>
      if now + (P.opts !b).clockTolerance < 2 ^ 32 ∧ (P.opts b).startTime ≤ now + (P.opts !b).clockTolerance ∧
        now ≤ t + (P.opts b).addressListTimeout ∧ now + (P.opts !b).addressListTimeout < 2 ^ 32 ∧
        countsOk P (!b) (arrive (P.opts !b) (P.loop !b) now (ρ.node !b).node d key rand) = true then
        let x := receive (P.opts !b) (P.loop !b) now subs (ρ.node !b) d key rand
        some (come P ρ b i now subs key rand d x.1 x.2)
      else none

def exec (P : Pair c) (key : c.Sec) (rand : Nat → Rand c) (ρ : Talk c) : List Cmd → Option (Talk c)
  | [] => some ρ
  | x :: xs =>
    match exec1 P key rand ρ x with
    | none => none
    | some ρ' => exec P key rand ρ' xs

/-- Commands that stay within the messages `M`. -/
def CmdOk (M : Message → Prop) : Cmd → Prop
  | .tell _ _ m => User m ∧ M m
  | .deliver _ _ _ subs => ∀ l q id x a, id.length = 32 → subs (.query l q id x) = .answer a → a.length < 2 ^ 24 ∧ M (.answer id a)

theorem exec1_goes {P : Pair c} (hv : ∀ b, (P.opts b).version = some 0) (M G : Message → Prop) (key : c.Sec) (rand : Nat → Rand c)
    (hb : ∀ k, (rand k).bytes.length = 10) (ρ ρ' : Talk c) (x : Cmd) (hx : CmdOk M x) (h : exec1 P key rand ρ x = some ρ') :
    TStep P M G ρ ρ' := by
  cases x with
  | tell b now m =>
    rw [exec1] at h
    split at h
    · rename_i hc
      split at h
      · rename_i p' ds hs
        cases h
        exact .tell ρ b now m false rand p' ds hx.1 hx.2 ⟨hb, hc.1, countsOk_spec hc.2⟩ hs (fun _ _ _ _ => .inl (hv b))
      · cases h
    · cases h
  | deliver b i now subs =>
    rw [exec1] at h
    split at h
    · cases h
    · rename_i t d hsent
      split at h
      · rename_i hc
        cases h
        exact .deliver ρ b i now subs key rand t d _ _
          { sent := hsent
            clock := hc.1
            started := hc.2.1
            recent := hc.2.2.1
            mine := hx
            able := fun _ _ _ => ⟨hb, hc.2.2.2.1, countsOk_spec hc.2.2.2.2⟩
            result := rfl
            clean := fun _ _ _ _ _ => .inl (hv !b) }
      · cases h

theorem exec_goes {P : Pair c} (hv : ∀ b, (P.opts b).version = some 0) (M G : Message → Prop) (key : c.Sec) (rand : Nat → Rand c)
    (hb : ∀ k, (rand k).bytes.length = 10) (xs : List Cmd) : ∀ (ρ₀ ρ ρ' : Talk c), Goes P M G ρ₀ ρ → (∀ x ∈ xs, CmdOk M x) →
      exec P key rand ρ xs = some ρ' → Goes P M G ρ₀ ρ' := by
  induction xs with
  | nil => intro ρ₀ ρ ρ' h _ he; cases he; exact h
  | cons x xs ih =>
    intro ρ₀ ρ ρ' h hx he
    unfold exec at he
    split at he
    · cases he
    · rename_i ρ'' h1
      exact ih ρ₀ ρ'' ρ' (.step _ _ _ h (exec1_goes hv M G key rand hb ρ ρ'' x (hx x List.mem_cons_self) h1))
        (fun y hy => hx y (List.mem_cons_of_mem _ hy)) he

end Verif.LongTrip
