import Verif.Model.BroadcastSend

/-!
# The task that sends an FEC broadcast in waves: `src/overlay/overlay.rs:834-867`
-/
namespace Verif.Overlay
open Verif.Rldp

variable (c : Crypto) (f : Fec)

/-- The inner loop (overlay.rs:844-862) with `n` turns left and `i` packets sent before; `clock i` is the time of
`now()` while the packet with this index is made. The packets, and whether the outer loop is left. As in
`OutFec.prepare`, the encoder does not fail. -/
def OutFec.burst (clock : Nat → Nat) (sec : c.Sec) : (n : Nat) → OutFec → (i : Nat) → OutFec × List FecPart × Bool
  | 0, t, _ => (t, [], false)
  | n + 1, t, i =>
    let p := t.prepare c f (clock i) sec
    if p.1.packets < p.1.seqno then (p.1, [p.2], true)
    else
      let r := OutFec.burst clock sec n p.1 (i + 1)
      (r.1, p.2 :: r.2.1, r.2.2)

/-- The outer loop (overlay.rs:843-866), stopped after `fuel` turns: the packets of each wave, and whether the task has
ended by itself. Between two waves the task sleeps (overlay.rs:865). -/
def OutFec.waves (clock : Nat → Nat) (sec : c.Sec) (waveLen : Nat) :
    (fuel : Nat) → OutFec → (i : Nat) → List (List FecPart) × Bool
  | 0, t, _ => ([], decide (t.packets < t.seqno))
  | fuel + 1, t, i =>
    if t.seqno ≤ t.packets then
      let b := t.burst c f clock sec waveLen i
      if b.2.2 then ([b.2.1], true)
      else
        let r := OutFec.waves clock sec waveLen fuel b.1 (i + b.2.1.length)
        (b.2.1 :: r.1, r.2)
    else ([], true)

end Verif.Overlay
