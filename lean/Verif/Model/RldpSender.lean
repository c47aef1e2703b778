import Verif.Model.RldpSystem

/-!
# The RLDP sender alone, with arbitrary confirmations

The same steps as in `Model/RldpSystem.lean`, but confirmations are not limited to what an honest
receiver would send.
-/
namespace Verif.Rldp

/-- The number of the symbol that the next `prepare_chunk` sends (outgoing_transfer.rs:73-76). -/
def Outgoing.nextNumber (f : Fec) (t : Outgoing) : Option Nat :=
  t.enc.map fun e => (e.encode f t.st.seqnoOut).1

/-- The window is open for symbol `n` (outgoing_transfer.rs:81) in exact arithmetic. -/
def Outgoing.windowOpen (t : Outgoing) (n : Nat) : Bool :=
  decide (t.st.seqnoIn ≤ n) && decide (n - t.st.seqnoIn ≤ window)

structure Snd where
  out : Outgoing
  phase : Phase
  /-- numbers sent for the current part (ghost) -/
  sent : List Nat
  /-- the window was open for the last of them (ghost) -/
  wasOpen : Bool

def Snd.init (data : Bytes) : Snd := ⟨Outgoing.new data, .start, [], true⟩

inductive SAct where
  | begin | bind | chunk | check | giveUp | reply
  | ack (a : Ack)
deriving DecidableEq, Repr

def Snd.begin (f : Fec) (s : Snd) : Snd :=
  match s.out.startNextPart f with
  | (o, none) => { s with out := o, phase := .ok }
  | (o, some _) => ⟨o, .begun, [], true⟩

def Snd.chunk (f : Fec) (build : Build) (s : Snd) : Snd :=
  match s.out.prepareChunk f build with
  | (o, .part m) => { s with out := o, sent := s.sent ++ [m.seqno], wasOpen := s.out.windowOpen m.seqno }
  | (o, _) => { s with out := o, phase := .failed }

def Snd.check (build : Build) (s : Snd) (p : Nat) : Snd :=
  match s.out.finishedOrNext build p with
  | .no => s
  | .yes => { s with phase := .start }
  | _ => { s with phase := .failed }

/-- One step; the citations are those of `Act`. -/
def Snd.step (f : Fec) (build : Build) (s : Snd) : SAct → Snd
  | .begin => if s.phase = .start then s.begin f else s
  | .bind => if s.phase = .begun then { s with phase := .sending s.out.st.part } else s
  | .chunk =>
    match s.phase with
    | .sending _ => s.chunk f build
    | _ => s
  | .check =>
    match s.phase with
    | .sending p => s.check build p
    | _ => s
  | .giveUp =>
    match s.phase with
    | .sending _ => { s with phase := .failed }
    | _ => s
  | .reply => { s with out := { s.out with st := { s.out.st with hasReply := true } } }
  | .ack a =>
    if s.phase.running then { s with out := { s.out with st := s.out.st.ack build a } } else s

def Snd.run (f : Fec) (build : Build) (s : Snd) (as : List SAct) : Snd :=
  as.foldl (fun s a => s.step f build a) s

end Verif.Rldp
