import Verif.Model.Gossip

/-!
# Specification of C113 and C114: what happens in an overlay
-/
namespace Verif.Gossip
open Verif.Overlay Verif.Rldp

variable {c : Crypto} {f : Fec}

/-- What the members do in the course of a run, with what could be seen of it. -/
def events (o : Bytes → Opts) (overlay : Bytes) (w : World c f) : List (Act c) → List (Bytes × Action × Out)
  | [] => []
  | a :: as =>
    ((event c f overlay w a).map fun p =>
      (p.1, p.2, (Overlay.step c f (o p.1).env (w.node p.1) p.2).2)).toList ++
    events o overlay (step c f o overlay w a) as

/-- The part of one member. -/
def eventsOf (o : Bytes → Opts) (overlay : Bytes) (n : Bytes) (w : World c f) (as : List (Act c)) :
    List (Action × Out) :=
  (events o overlay w as).filterMap fun e => if e.1 = n then some e.2 else none

/-- What the member gives to its application on receiving the ordinary broadcast `b`. -/
def given (o : Bytes → Opts) (overlay : Bytes) (b : Ordinary) (n : Bytes) (w : World c f) (as : List (Act c)) :
    List Delivery :=
  (eventsOf o overlay n w as).filterMap fun e => match e.1 with
    | .ordinary _ b' => if b' = b then e.2.delivered else none
    | _ => none

def isDelivery : Act c → Bool
  | .deliver .. => true
  | _ => false

/-- The letters with a given message that are not passed on by a member that received it: those of a `tell`,
and those posted. -/
def started (o : Bytes → Opts) (overlay msg : Bytes) (w : World c f) : List (Act c) → Nat
  | [] => 0
  | a :: as =>
    (if isDelivery a then 0 else (letters c f o overlay w a).countP fun m => decide (m.msg = msg)) +
    started o overlay msg (step c f o overlay w a) as

/-- How many letters with a given message there are. -/
def copies (msg : Bytes) (w : World c f) : Nat := w.net.countP fun m => decide (m.msg = msg)

/-- The letter at position `k` is delivered in the run, when the clock of its receiver shows `now`. -/
def Arrives (o : Bytes → Opts) (overlay : Bytes) (w : World c f) (as : List (Act c)) (k now : Nat) : Prop :=
  ∃ before chosen after, as = before ++ .deliver k now chosen :: after ∧
    k < (run c f o overlay w before).net.length

/-- Members connected by neighbourhood, `neighbours` giving the neighbours of each. -/
inductive Connected (neighbours : Bytes → List Bytes) (start : Bytes) : Bytes → Prop where
  | start : Connected neighbours start start
  | next {n m : Bytes} : Connected neighbours start n → m ∈ neighbours n → Connected neighbours start m

/-- A message that has nothing to do with the broadcast `bid`. -/
def Unrelated (c : Crypto) (bid msg : Bytes) : Prop :=
  (∀ id b e now data source, Overlay.readMessage msg = some (id, .ordinary b) →
    checkOrdinary c e now b ≠ .ok bid data source) ∧
  (∀ id b, Overlay.readMessage msg = some (id, .fec b) → b.dataHash ≠ bid)

end Verif.Gossip
