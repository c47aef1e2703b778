import Verif.Props.Restart
import Verif.Model.Process

/-!
# C108, continued: a stale packet repairs the session

What the node does as a whole with a packet of the earlier session, and what its answer does at the other side.
-/
namespace Verif.Delivery
open Verif.Tl Verif.Adnl Verif.AdnlProto Verif.Address Verif.Node Verif.Receiver Verif.Sender Verif.Props
open Verif.Process

variable {c : Crypto}

/-- **C108 (repair)** A packet that names the date of the earlier session arrives at the node A that has restarted
at `t`. No subscriber of A sees anything of it, and A sends one datagram. When this datagram arrives at the other
side, which knows the earlier date, it is accepted, and from then on the other side knows `t` and counts from 1. -/
theorem C108_repaired (hc : c.Lawful) {oA oB : Opts c} {ul : Bool} {kA kB : c.Sec} {now nowA : Nat}
    {q q' : Peer c} {out : OutMessages} {ms : List Message} {r : Rand c} {d : Bytes}
    (h : Shake oB oA ul kB kA now nowA q q' out ms r d) (hnamed : q.sendDate ≠ 0)
    (t : Nat) (ht : oA.startTime < t) (ht32 : t < 2 ^ 32) (ul' : Bool) (s : State c) (p : Peer c)
    (hp : s.peer (shortId c (c.pubOf kA)) (shortId c (c.pubOf kB)) = some p) (hpub : p.pub = c.pubOf kB)
    (hdate : p.sendDate = 0 ∨ p.sendDate = oB.startTime) (hch : s.channel (shortId c (c.pubOf kB)) = none)
    (hcount : p.sendOrd + 1 < 2 ^ 64) (hnone : p.recvOrd.seqno = 0)
    (hnow : nowA + oA.addressListTimeout < 2 ^ 32) (key : c.Sec) (rand : Nat → Rand c) (hrand : (rand 0).bytes.length = 10)
    (subs : Event → Reply) (transfers : Transfer.Table)
    (nowB : Nat) (hclock : nowB + oB.clockTolerance < 2 ^ 32) (hin : nowB ≤ nowA + oA.addressListTimeout)
    (hstart : t ≤ nowB + oB.clockTolerance) (hkey : oB.keys (shortId c (c.pubOf kB)) = some kB)
    (hversion : ∀ x, VersionFits oA.version (LooksVersioned c (c.dh kB (c.pubOf (rand 0).temp)) x))
    (sB : State c) (ulB : Bool) (qB : Peer c)
    (hq : sB.peer (shortId c (c.pubOf kB)) (shortId c (c.pubOf kA)) = some qB) (hknown : qB.sendDate ≠ 0)
    (hlater : qB.sendDate < t) (keyB : c.Sec) (randB : Nat → Rand c) :
    ∃ x, (receive { oA with startTime := t } ul' nowA subs ⟨s, transfers⟩ d key rand).2 = ⟨[], [x], false⟩ ∧
      ∃ s' q1, handle oB ulB nowB sB x keyB randB = (s', .accepted (shortId c (c.pubOf kB)) (shortId c (c.pubOf kA)) false
          [.createChannel (c.pubBytes (c.pubOf p.channelKey)) nowA, .nop], []) ∧
        s'.peer (shortId c (c.pubOf kB)) (shortId c (c.pubOf kA)) = some q1 ∧ q1.sendDate = t ∧ q1.sendOrd = 0 ∧
        ∀ n, n ≠ 0 → n ≠ p.sendOrd + 1 → fresh oB q1 false n = true := by
  obtain ⟨s', a, p2, x, h1, -, -, h4⟩ := C108_old_target_refused_partial hc h hnamed t ht ul' s p hp hdate hch hnow key rand
  refine ⟨x, ?_, ?_⟩
  · unfold receive
    rw [h1]
  · have hnow32 : nowA < 2 ^ 32 := by omega
    have hsh : Shake { oA with startTime := t } oB ul' kA kB nowA nowB
        ({ p with addr := a, sendDate := oB.startTime } : Peer c) p2
        (.pair (writeMessage (.createChannel (c.pubBytes (c.pubOf p.channelKey)) nowA) ++ writeMessage .nop))
        [.createChannel (c.pubBytes (c.pubOf p.channelKey)) nowA, .nop] (rand 0) x :=
      { sent := h4
        carries := ⟨_, _, rfl, rfl, ⟨hc.pub_length _, hnow32⟩, trivial⟩
        raw := by
          simp only [rawOf, writeMessage, List.length_append, hc.pub_length, writeU32_length]
          decide
        rand := hrand, pub := hpub, key := hkey, version := hversion x, time := hnow, start := ht32
        date := h.start, count := hcount, confirm := by
          show p.recvOrd.seqno < 2 ^ 64
          rw [hnone]; decide
        clock := hclock, inTime := hin, started := hstart, known := .inr rfl }
    obtain ⟨s1, q1, g1, g2, g3, g4, -, -, -, -, -, g5⟩ := C108_noticed hc hsh hnone ulB sB qB hq hknown hlater keyB randB
    exact ⟨s1, q1, g1, g2.here, g3, g4, g5⟩

-- C108_repaired: the first toy node restarts at 180
example : ∃ q' d x, sendPacket (toyPair.opts true) false 190 (toyPair.id false) toyOther (.random (toyPair.sec true))
      (.single (writeMessage .nop)) ⟨leBytes 10 1, (show UInt8 from 11)⟩ = .ok (q', d) ∧
    (receive toyAfter false 200 (fun _ => .done) ⟨toyWith false toyFresh, []⟩ d (show UInt8 from 1) toyRand).2 =
      ⟨[], [x], false⟩ := by
  cases hs : sendPacket (toyPair.opts true) false 190 (toyPair.id !true) toyOther (.random (toyPair.sec true))
    (.single (writeMessage .nop)) ⟨leBytes 10 1, (show UInt8 from 11)⟩ with
  | error e => cases hs
  | ok r =>
    obtain ⟨q', d⟩ := r
    have hsh := toyShake true (toyPair.opts true) (toyPair.opts false) rfl rfl rfl rfl (by decide) toyOther q' rfl
      (.inr rfl) (by decide) (by decide) (by decide) (.single (writeMessage .nop)) [.nop] ⟨_, rfl, rfl, trivial⟩
      (by decide +kernel) d hs
    obtain ⟨x, h1, -⟩ := C108_repaired Crypto.toy_lawful hsh (by decide) 180 (by decide) (by decide) false
      (toyWith false toyFresh) toyFresh (toyWith_peer false _) rfl (.inl rfl) rfl (by decide) rfl (by decide)
      (show UInt8 from 1) toyRand (by decide) (fun _ => .done) [] 210 (by decide) (by decide) (by decide)
      (toyPair_fits.key true) (fun x => .inl rfl) (toyWith true toyOther) false toyOther (toyWith_peer true _)
      (by decide) (by decide) (show UInt8 from 1) toyRand
    exact ⟨q', d, x, hs, h1⟩

end Verif.Delivery
