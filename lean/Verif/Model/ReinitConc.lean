/-!
# `Peer::try_reinit_sender` (`src/adnl/peer.rs:41-57`) run by several threads

Each received packet is handled by its own task (receiver.rs:87-101), so several calls for one peer can
interleave. One step of a thread is one access to the shared `reinit_date`; the resets of the four
histories are counted.
-/
namespace Verif.ReinitConc

/-- Position of a thread in the call with the date `d`. -/
inductive Pc where
  /-- before the load (line 42) -/
  | start (d : Nat)
  /-- the date was loaded (line 43) -/
  | loaded (d old : Nat)
  /-- the new date was stored; the histories are to be reset if `old` is not 0 (lines 47-52) -/
  | stored (old : Nat)
  | done (result : Bool)
deriving DecidableEq, Repr

/-- Shared state: the date and the number of resets so far. -/
structure Shared where
  date : Nat
  resets : Nat
deriving DecidableEq, Repr

/-- One step of a thread. -/
def step (s : Shared) : Pc → Shared × Pc
  | .start d => (s, .loaded d s.date)
  | .loaded d old =>
    if d = old then (s, .done true)
    else if d > old then ({ s with date := d }, .stored old)
    else (s, .done false)
  | .stored old => (if old ≠ 0 then { s with resets := s.resets + 1 } else s, .done true)
  | .done r => (s, .done r)

/-- Threads `ts` run by the schedule (a list of thread numbers). -/
def run (s : Shared) (ts : List Pc) : List Nat → Shared × List Pc
  | [] => (s, ts)
  | i :: rest =>
    match ts[i]? with
    | none => run s ts rest
    | some pc => run (step s pc).1 (ts.set i (step s pc).2) rest

end Verif.ReinitConc
