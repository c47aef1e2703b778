import Verif.Model.PacketsHistory

/-!
# `deliver_packet` as a concurrent step machine (`src/util/packets_history.rs:64-179`)

Every received datagram is handled by its own task (receiver.rs:88), so several tasks may execute
`deliver_packet` on one history at the same time.  A step of a thread is one atomic operation.
Interleavings are sequentially consistent (the `Acquire`/`Release` annotations are not modelled).
`reset` is not part of this machine.
-/
namespace Verif.PacketsHistory

/-- Program counter of one execution of `deliver_packet`. The argument `index` is the local
variable `index` read at line 85. -/
inductive PC where
  /-- about to load `mask.index` (line 85) -/
  | load
  /-- about to load the bit word (line 109) -/
  | readBit (index : Nat)
  /-- about to load `mask.index` again (line 111) with `already_delivered` in hand -/
  | recheck (index : Nat) (already : Bool)
  /-- about to CAS `index → IN_TRANSIT` in the `Some` branch (line 120) -/
  | casBit (index : Nat)
  /-- about to CAS `index → IN_TRANSIT` in the `None` branch (line 133) -/
  | casShift (index : Nat)
  /-- about to `fetch_or` the bit (line 128) -/
  | setBit (index : Nat)
  /-- about to store word `i` of the shift loops (lines 142-151) -/
  | shift (index : Nat) (i : Nat)
  /-- about to store word `i` of the clear loop (lines 153-155) -/
  | clear (index : Nat) (i : Nat)
  /-- about to load `seqno` (line 162) -/
  | readSeq (index next : Nat)
  /-- about to store `seqno` (line 164) -/
  | storeSeq (index next : Nat)
  /-- about to CAS `IN_TRANSIT → next_index | index_masked` (line 168) -/
  | unlock (index next : Nat)
  /-- returned -/
  | done (result : Bool)
deriving DecidableEq, Repr

/-- Word offset used in the `Some` branch (lines 100-108) for the loaded `index`. -/
def wordOf (index seqno : Nat) : Nat :=
  (if index - index % half > seqno - seqno % half then 0 else 4) + seqno % half / 64

/-- One atomic step of a thread delivering `seqno` (lines 84-178). In the shift loop the load of
word `i+4` and the store of word `i` are one step (only the lock holder writes them). -/
def stepPC (h : Hist) (seqno : Nat) : PC → Hist × PC
  | .load =>
    if h.index = inTransit then (h, .load)
    else if h.index - h.index % half > (seqno - seqno % half + half) % 2 ^ 64 then
      (h, .done false)
    else if h.index - h.index % half < seqno - seqno % half then (h, .casShift h.index)
    else (h, .readBit h.index)
  | .readBit index =>
    (h, .recheck index (h.bits (wordOf index seqno) &&& 1 <<< (seqno % half % 64) ≠ 0))
  | .recheck index already =>
    if h.index ≠ index then (h, .load)
    else if already then (h, .done false)
    else (h, .casBit index)
  | .casBit index =>
    if h.index = index then ({ h with index := inTransit }, .setBit index) else (h, .load)
  | .casShift index =>
    if h.index = index then
      ({ h with index := inTransit },
        if index - index % half + half = seqno - seqno % half then .shift index 0
        else .clear index 0)
    else (h, .load)
  | .setBit index =>
    ({ h with bits := fun i => if i = wordOf index seqno
                then h.bits i ||| 1 <<< (seqno % half % 64) else h.bits i },
      .readSeq index index)
  | .shift index i =>
    ({ h with bits := fun j => if j = i then (if i < 4 then h.bits (i + 4) else 0) else h.bits j },
      if i < 7 then .shift index (i + 1) else .readSeq index (index - index % half))
  | .clear index i =>
    ({ h with bits := fun j => if j = i then 0 else h.bits j },
      if i < 7 then .clear index (i + 1) else .readSeq index (index - index % half))
  | .readSeq index next =>
    if h.seqno < seqno then (h, .storeSeq index next) else (h, .unlock index next)
  | .storeSeq index next => ({ h with seqno := seqno }, .unlock index next)
  | .unlock index next =>
    (if h.index = inTransit then
        { h with index := next ||| ((index % half + 1) - (index % half + 1) % half) }
      else h, .done true)
  | .done r => (h, .done r)

/-- Shared history plus the program counters of arbitrarily many threads. -/
structure Sys where
  hist : Hist
  pc : Nat → PC

/-- Thread `t` (delivering `seqnos t`) makes one step. -/
def Sys.step (seqnos : Nat → Nat) (σ : Sys) (t : Nat) : Sys :=
  let r := stepPC σ.hist (seqnos t) (σ.pc t)
  ⟨r.1, fun u => if u = t then r.2 else σ.pc u⟩

/-- Run an arbitrary schedule (list of thread ids). -/
def Sys.run (seqnos : Nat → Nat) (σ : Sys) (sched : List Nat) : Sys :=
  sched.foldl (Sys.step seqnos) σ

/-- All threads are about to start on a fresh history (`for_recv`, packets_history.rs:16-21). -/
def Sys.init : Sys := ⟨forRecv, fun _ => .load⟩

end Verif.PacketsHistory
