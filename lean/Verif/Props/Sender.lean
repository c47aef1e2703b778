import Verif.Proofs.Sender

/-!
# C07: datagrams stay below 1500 bytes
-/
namespace Verif.Sender
open Verif.Adnl Verif.AdnlProto Verif.Address Verif.Node

variable {c : Crypto}

/-- C07: whatever the message, the peer, the channel (none, not ready, ready), the options and the
randomness, every datagram of a successful `send_message` has at most 1359 bytes, so it is shorter
than 1500. The hypotheses are the widths given by the types of the code (`[u8; 32]`, `[u8; 10]`). -/
theorem C07_datagrams_below_1500 (hc : c.Lawful) (o : Opts c) (useLoopback : Bool) (now : Nat)
    (s : State c) (localId peerId : Bytes) (m : Message) (priority : Bool) (rand : Nat → Rand c)
    (hm : idsTyped m) (hid : peerId.length = 32) (hrand : ∀ k, (rand k).bytes.length = 10)
    (hch : ∀ ch, s.channel peerId = some ch →
      ch.peerKey.length = 32 ∧ ∀ p, (ch.out.sub p).id.length = 32)
    (p' : Peer c) (ds : List Bytes)
    (h : sendMessage o useLoopback now s localId peerId m priority rand = .ok (p', ds)) :
    ∀ d ∈ ds, d.length ≤ 1359 ∧ d.length < 1500 := by
  suffices hh : ∀ d ∈ ds, d.length ≤ 1359 from fun d hd => ⟨hh d hd, by have := hh d hd; omega⟩
  unfold sendMessage at h
  cases h1 : s.peers.get localId with
  | none => rw [h1] at h; cases h
  | some t =>
    rw [h1] at h
    simp only at h
    cases h2 : t.get peerId with
    | none => rw [h2] at h; cases h
    | some p =>
      rw [h2] at h
      simp only at h
      cases h3 : o.keys localId with
      | none => rw [h3] at h; cases h
      | some key =>
        rw [h3] at h
        simp only at h
        cases h4 : countedSize m with
        | none => rw [h4] at h; cases h
        | some size =>
          rw [h4] at h
          simp only at h
          refine sendAll_le o hc useLoopback now peerId hid _ ?_ _ ?_ p rand hrand p' ds h
          · cases hx : s.channel peerId with
            | none => trivial
            | some ch =>
              simp only [signerOf]
              split
              · exact (hch ch hx).2
              · trivial
          · refine packets_le c.sha hc.sha_length _ m size (writeMessage_le m size hm h4) ?_
            intro a ha
            cases hx : s.channel peerId with
            | none =>
              rw [hx] at ha
              simp only [additional, Option.some.injEq] at ha
              subst ha
              simp [writeMessage, Tl.writeU32_length, hc.pub_length]
            | some ch =>
              rw [hx] at ha
              simp only [additional] at ha
              split at ha
              · cases ha
              · cases ha
                simp [writeMessage, Tl.writeU32_length, hc.pub_length, (hch ch hx).1]

/-- A toy node with one peer and no channel. -/
def toyOpts : Opts Crypto.toy where
  build := .debug
  version := some 0
  startTime := 100
  socketAddr := ⟨1, 2, 3, 4, 5⟩
  addressListTimeout := 1000
  clockTolerance := 60
  signatureRequired := true
  historyEnabled := true
  keys := fun _ => some (3 : UInt8)
  filter := none

def toyState : State Crypto.toy where
  peers := [(List.replicate 32 1,
    [(List.replicate 32 2, Peer.new 100 ⟨1, 2, 3, 5, 5⟩ (7 : UInt8) (9 : UInt8))])]
  heap := []
  next := 0
  byPeer := []
  byId := []

def toyRand : Nat → Rand Crypto.toy := fun k => ⟨leBytes 10 k, (11 : UInt8)⟩

/-- The hypotheses are met by a query of 900 bytes, which goes out in one datagram together with the
channel request. -/
example : (match sendMessage toyOpts false 200 toyState (List.replicate 32 1) (List.replicate 32 2)
    (.query (List.replicate 32 4) (List.replicate 900 5)) false toyRand with
    | .ok (_, ds) => ds.map List.length
    | .error _ => []) = [1264] := by decide +kernel

example : idsTyped (.query (List.replicate 32 4) (List.replicate 900 5)) ∧
    (List.replicate 32 (2 : UInt8)).length = 32 ∧ (∀ k, (toyRand k).bytes.length = 10) ∧
    (∀ ch, toyState.channel (List.replicate 32 2) = some ch →
      ch.peerKey.length = 32 ∧ ∀ p, (ch.out.sub p).id.length = 32) :=
  ⟨rfl, rfl, fun k => by simp [toyRand], fun ch h => by cases h⟩

end Verif.Sender
