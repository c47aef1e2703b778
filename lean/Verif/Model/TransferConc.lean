import Verif.Model.Transfer

/-!
# `Transfer::add_part` executed concurrently (`src/adnl/transfer.rs:45-115`)

Parts of one transfer may be handled by several tasks at once (receiver.rs:88, 197-243). A step is
one atomic operation on the shared map or counter.
-/
namespace Verif.Transfer

/-- Program counter of one `add_part` call. -/
inductive TPC where
  /-- about to `parts.insert` (line 52) -/
  | insert
  /-- about to `fetch_add` (line 58) -/
  | add
  /-- about to `compare_exchange` (lines 62-70) -/
  | cas
  /-- joining loop at position `pos` (lines 85-93) -/
  | join (pos : Nat) (buf : Bytes)
  /-- returned -/
  | ret (r : Res)
deriving DecidableEq

/-- Shared part of a transfer and the program counters of all callers. -/
structure TSys where
  parts : AMap Nat Bytes
  received : Nat
  pc : Nat → TPC

/-- One step of caller `i`, which adds `(args i).2` at offset `(args i).1`. -/
def TSys.step (sha : Bytes → Bytes) (total : Nat) (id : Bytes) (args : Nat → Nat × Bytes)
    (σ : TSys) (i : Nat) : TSys :=
  let upd (p : TPC) : Nat → TPC := fun j => if j = i then p else σ.pc j
  match σ.pc i with
  | .insert =>
    { σ with parts := σ.parts.put (args i).1 (args i).2,
             pc := upd (if (σ.parts.get (args i).1).isSome then .ret .none else .add) }
  | .add => { σ with received := σ.received + (args i).2.length, pc := upd .cas }
  | .cas =>
    if σ.received = total then { σ with received := total * 2, pc := upd (.join 0 []) }
    else if σ.received > total then { σ with pc := upd (.ret .tooMuch) }
    else { σ with pc := upd (.ret .none) }
  | .join pos buf =>
    if pos < total then
      match σ.parts.get pos with
      | some d => { σ with pc := upd (.join (pos + d.length) (buf ++ d)) }
      | none => { σ with pc := upd (.ret .partMissing) }
    else { σ with pc := upd (.ret (if sha buf = id then .some buf else .invalidHash)) }
  | .ret _ => σ

/-- Any schedule. -/
def TSys.run (sha : Bytes → Bytes) (total : Nat) (id : Bytes) (args : Nat → Nat × Bytes)
    (σ : TSys) (sched : List Nat) : TSys := sched.foldl (TSys.step sha total id args) σ

/-- A new transfer, no call started. -/
def TSys.init : TSys := ⟨[], 0, fun _ => .insert⟩

end Verif.Transfer
