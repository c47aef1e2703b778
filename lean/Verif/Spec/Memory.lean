import Verif.Model.Transfer
import Verif.Model.RldpTable

/-!
# What is held for transfers that are not complete yet

Specification for C118: how many bytes a node keeps for unfinished ADNL messages and reserves for unfinished RLDP
transfers, and how many it was sent.
-/
namespace Verif.Memory
open Verif.Tl Verif.Transfer Verif.Rldp Verif.RldpTable

/-! ### ADNL: parts are kept in a map until the message is complete (transfer.rs:14-23) -/

/-- Bytes held for one unfinished message. -/
def heldBy (t : Transfer) : Nat := (t.parts.map fun e => e.2.length).sum

/-- Bytes held for all unfinished messages. -/
def held (tbl : Table) : Nat := (tbl.map fun e => heldBy e.2).sum

/-- What happens to the table of unfinished messages: a part arrives, or a timeout task removes an entry. -/
inductive Ev where
  | part (p : Transfer.Part)
  | expire (id : Bytes)

def Ev.step (sha : Bytes → Bytes) (tbl : Table) : Ev → Table
  | .part p => (recvPart sha tbl p).1
  | .expire id => Transfer.expire tbl id

def after (sha : Bytes → Bytes) (evs : List Ev) : Table := evs.foldl (Ev.step sha) []

/-- The parts that arrived. -/
def arrived : List Ev → List Transfer.Part
  | [] => []
  | .part p :: evs => p :: arrived evs
  | .expire _ :: evs => arrived evs

def bytes (ps : List Transfer.Part) : Nat := (ps.map fun p => p.data.length).sum

/-! ### RLDP: `data` has room for the whole transfer from the first part on (incoming_transfer.rs:66-67) -/

variable {f : Fec}

/-- What the receiving tasks have reserved with `reserve_exact` (incoming_transfer.rs:67): the announced size of every
transfer that is in the table as incoming and whose loop was not left. -/
def reserved (s : RNode f) : Nat :=
  (s.ins.map fun e =>
    if s.table.get e.1 = some .incoming ∧ e.2.rcv.left = false then e.2.rcv.transfer.totalSize.getD 0 else 0).sum

/-- Everything a node does (`Model/RldpTable.lean`). -/
inductive RAct where
  /-- a message of a peer arrives -/
  | msg (src : Nat) (m : PartMsg)
  | ask (peer : Nat) (id queryId data : Bytes) (timeout : Nat)
  | send (id : Bytes) (a : SendAct)
  | serve (id : Bytes)
  | finish (id : Bytes)
  | quit (id : Bytes)
  | expire (id : Bytes)

def RAct.step (z : Zstd) (o : ROpts) (build : Build) (s : RNode f) : RAct → RNode f
  | .msg src m => (s.handle o build src m).1
  | .ask peer id qid data timeout => s.ask z o peer id qid data timeout
  | .send id a => (s.send build id a).1
  | .serve id => s.serve z o id
  | .finish id => s.finish z id
  | .quit id => s.quit id
  | .expire id => s.expire id

def rafter (f : Fec) (z : Zstd) (o : ROpts) (build : Build) (acts : List RAct) : RNode f :=
  acts.foldl (RAct.step z o build) (RNode.init f)

/-- Bytes of data that came in message parts. -/
def rbytes : List RAct → Nat
  | [] => 0
  | .msg _ (.part _ m) :: acts => m.data.length + rbytes acts
  | _ :: acts => rbytes acts

/-- The transfers that parts came for, and those of the answers to own queries. -/
def rids : List RAct → List Bytes
  | [] => []
  | .msg _ (.part id _) :: acts => id :: rids acts
  | .ask _ id _ _ _ :: acts => negateId id :: rids acts
  | _ :: acts => rids acts

end Verif.Memory
