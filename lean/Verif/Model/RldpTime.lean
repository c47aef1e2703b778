import Verif.Model.RldpQuery

/-!
# How long an RLDP query takes

`TransfersCache::query` (transfers_cache.rs:44-160) as a sequence of waits: one for each part of the query
that is sent, one for the answer. What the loops read at each check is given by the environment.
-/
namespace Verif.Rldp

/-- What is read at a check: the time, `seqno_in` of the current part, `updates` of the answer, and whether
the wait is over: `is_finished_or_next_part` while a part is sent (transfers_cache.rs:493-501), the
received answer afterwards (transfers_cache.rs:129). -/
structure Obs where
  now : Nat
  seqno : Nat
  updates : Nat
  finished : Bool
deriving DecidableEq

/-- Where the query is. `sending n w`: `n` parts follow the current one. -/
inductive Stage where
  | sending (left : Nat) (w : Wait)
  | receiving (w : Wait)
  | returned (answer : Bool)

/-- `send` with `parts` parts at time `t0` (transfers_cache.rs:464-482); with no part it returns at once
and the wait for the answer begins (lines 109-112). -/
def Stage.init (o : QueryOptions) (parts t0 : Nat) (roundtrip : Option Nat) : Stage :=
  match parts with
  | 0 => .receiving ⟨t0, o.computeTimeout (some (roundtrip.getD 0)), roundtrip.getD 0, 0⟩
  | n + 1 => .sending n ⟨t0, o.computeTimeout roundtrip, roundtrip.getD 0, 0⟩

/-- One check (transfers_cache.rs:493-516 and 114-133). -/
def Stage.step (o : QueryOptions) : Stage → Obs → Stage
  | .sending left w, b =>
    if b.finished then
      let u := o.updateRoundtrip w.roundtrip (b.now - w.start)
      match left with
      | 0 => .receiving ⟨b.now, o.computeTimeout (some u.1), u.1, b.updates⟩
      | n + 1 => .sending n ⟨b.now, u.2, u.1, 0⟩
    else
      match w.check o b.now b.seqno with
      | some w' => .sending left w'
      | none => .returned false
  | .receiving w, b =>
    match w.check o b.now b.updates with
    | none => .returned false
    | some w' => if b.finished then .returned true else .receiving w'
  | .returned a, _ => .returned a

def Stage.run (o : QueryOptions) (s : Stage) (bs : List Obs) : Stage := bs.foldl (fun s b => s.step o b) s

/-- The future is not ready yet. -/
def Stage.pending : Stage → Bool
  | .returned _ => false
  | _ => true

end Verif.Rldp
