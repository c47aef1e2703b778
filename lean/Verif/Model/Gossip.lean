import Verif.Model.BroadcastSend
import Verif.Model.OverlayNode
import Verif.Model.OverlayPeers

/-!
# The members of one overlay and the messages between them

Every member is a state of `OverlayBroadcast`; a custom message is a letter, and all letters ever sent stay
where they can be delivered, in any order, any number of times or never (what ADNL makes of a message is in
RoundTrip, Transfer and Node). The wall clock and the outcome of the random generator are arguments of the
steps that use them. The sending tasks of FEC broadcasts (`OutFec`) are not part of the world: their packets
are letters that somebody posts.
-/
namespace Verif.Gossip
open Verif.Overlay Verif.Rldp

variable (c : Crypto) (f : Fec)

/-- Options of a member (overlay.rs:22-95). -/
structure Opts where
  env : Env
  /-- `force_compression` -/
  compressing : Bool
  /-- `secondary_broadcast_target_count` -/
  onward : Nat
  /-- `secondary_fec_broadcast_target_count` -/
  onwardFec : Nat

/-- A custom message of one node to another. -/
structure Letter where
  src : Bytes
  dst : Bytes
  msg : Bytes
deriving DecidableEq, Repr

/-- The members by id and all letters sent so far. -/
structure World where
  node : Bytes → State c f
  net : List Letter

def World.init : World c f := ⟨fun _ => State.init c f, []⟩

inductive Act where
  /-- `broadcast` of data short enough (overlay.rs:423-444) at member `n`, signed with `sec`, to the
  neighbours `targets`, given or drawn (overlay.rs:765-771) -/
  | tell (n : Bytes) (now : Nat) (sec : c.Sec) (data : Bytes) (targets : List Bytes)
  /-- the letter at position `k` arrives; `chosen` is what `choose_multiple` would return -/
  | deliver (k now : Nat) (chosen : List Bytes)
  /-- anything else is sent -/
  | post (m : Letter)
  /-- a timer or task of member `n` -/
  | inner (n : Bytes) (a : Action)

/-- Steps of a member that do not process a message. -/
def isInner : Action → Bool
  | .ordinary .. => false
  | .fec .. => false
  | .own _ => false
  | _ => true

/-- The id of a broadcast being sent (overlay.rs:729-730). -/
def idOf (data : Bytes) (now : Nat) : Bytes := c.sha (ordinaryToSign c.sha data now none)

/-- What a letter makes its receiver do (overlay/node.rs:138-170); messages for other overlays and other
kinds of broadcasts do nothing here. -/
def reaction (overlay : Bytes) (m : Letter) (now : Nat) : Option (Bytes × Action) :=
  match Overlay.readMessage m.msg with
  | some (id, .ordinary b) => if id = overlay then some (m.dst, .ordinary now b) else none
  | some (id, .fec b) => if id = overlay then some (m.dst, .fec now b) else none
  | _ => none

/-- The member that takes a step of its own, and which. -/
def event (overlay : Bytes) (w : World c f) : Act c → Option (Bytes × Action)
  | .tell n now _ data _ => some (n, .own (idOf c data now))
  | .deliver k now _ => (w.net[k]?).bind fun m => reaction overlay m now
  | .post _ => none
  | .inner n a => if isInner a then some (n, a) else none

/-- Neighbours to which a broadcast is passed on (overlay.rs:599-602, 677-681). -/
def onwardTo (o : Opts) (chosen : List Bytes) (src : Bytes) : Action → List Bytes
  | .ordinary .. => targets chosen o.onward (some src)
  | .fec .. => targets chosen o.onwardFec (some src)
  | _ => []

/-- Letters sent in a step: those of `send_broadcast` (overlay.rs:731-773), and the raw message passed on by
`receive_broadcast` and `receive_fec_broadcast` (overlay.rs:599-603, 677-682). -/
def letters (o : Bytes → Opts) (overlay : Bytes) (w : World c f) : Act c → List Letter
  | .tell n now sec data ts =>
    match (sendOrdinary c f (o n).env (o n).compressing overlay now sec (w.node n) data).2 with
    | some msg => ts.map fun t => ⟨n, t, msg⟩
    | none => []
  | .deliver k now chosen =>
    match w.net[k]? with
    | none => []
    | some m =>
      match reaction overlay m now with
      | none => []
      | some (n, a) =>
        if (Overlay.step c f (o n).env (w.node n) a).2.forwarded then
          (onwardTo (o n) chosen m.src a).map fun t => ⟨n, t, m.msg⟩
        else []
  | .post m => [m]
  | .inner .. => []

/-- One member changes. -/
def World.update {c : Crypto} {f : Fec} (w : World c f) (n : Bytes) (s : State c f) : World c f :=
  { w with node := fun x => if x = n then s else w.node x }

def step (o : Bytes → Opts) (overlay : Bytes) (w : World c f) (a : Act c) : World c f :=
  let w' := match event c f overlay w a with
    | none => w
    | some (n, x) => w.update n (Overlay.step c f (o n).env (w.node n) x).1
  { w' with net := w.net ++ letters c f o overlay w a }

def run (o : Bytes → Opts) (overlay : Bytes) (w : World c f) : List (Act c) → World c f
  | [] => w
  | a :: as => run o overlay (step c f o overlay w a) as

end Verif.Gossip
