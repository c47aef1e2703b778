import Verif.Model.RldpTable

/-!
# What the statements about RLDP queries among others (C112) talk about
-/
namespace Verif.RldpTable
open Verif.Rldp

/-- The transfer a message belongs to. -/
def idOf : PartMsg → Bytes
  | .part id _ => id
  | .confirm id _ _ => id
  | .complete id _ => id

/-- The query of node `a` to node `b` on its own, with the options of the two nodes. -/
def alone (e : Env) (a b : Nat) (queryId data : Bytes) (timeout : Nat) : Setup :=
  { zstd := e.zstd, subs := (e.opts b).subs, forceClient := (e.opts a).force, forceServer := (e.opts b).force,
    maxClient := (e.opts a).maxAnswer, maxServer := (e.opts b).maxAnswer, timeout, queryId, data }

/-- Neither the query `t` nor its answer. -/
def Other (t id : Bytes) : Prop := id ≠ t ∧ id ≠ negateId t

/-- No other query is given the transfer id `t` or its negation, and nobody makes up messages for these transfers. -/
def Avoids (t : Bytes) : WAct → Prop
  | .ask _ _ id _ _ _ => Other t id
  | .inject _ _ m => Other t (idOf m)
  | _ => True

/-- The query is not timed out, and its tasks do not give up. -/
def Patient (t : Bytes) : WAct → Prop
  | .send _ id k => id = t ∨ id = negateId t → k ≠ .giveUp
  | .quit _ id => id ≠ t
  | .expire _ id => id ≠ t
  | _ => True

/-- Steps of the nodes and the network: no further queries, nothing made up. -/
def Honest : WAct → Prop
  | .ask .. => False
  | .inject .. => False
  | _ => True

end Verif.RldpTable
