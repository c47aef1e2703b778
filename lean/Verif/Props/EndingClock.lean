import Verif.Props.Ending
import Verif.Props.Session

/-!
# C124: panics in the checks and the bound on the clock
-/
namespace Verif.Process
open Verif.Adnl Verif.AdnlProto Verif.Address Verif.Node
variable {c : Crypto}

/-- C124: the checks of a datagram never panic, nor does sending the reply they may call for, while the clock fits. -/
theorem C124_checks_never_panic (hc : c.Lawful) (o : Opts c) (ul : Bool) (now : Nat) (h : ClockFits o now)
    (s : State c) (data : Bytes) (key : c.Sec) (rand : Nat → Sender.Rand c) :
    (Receiver.handle o ul now s data key rand).2.1 ≠ .fail .panic ∧
    (Receiver.handle o ul now s data key rand).2.1 ≠ .fail (.sender .panic) := by
  cases hh : Receiver.handle o ul now s data key rand with
  | mk s' r =>
    obtain ⟨v, out⟩ := r
    constructor
    · rintro rfl
      exact absurd (.inl rfl) (handle_ok hc o ul now h _ _ _ _ _ _ _ hh)
    · rintro rfl
      exact absurd (.inr rfl) (handle_ok hc o ul now h _ _ _ _ _ _ _ hh)

/-- C124: a panic in the checks aborts the task, whatever the subscribers do. -/
theorem C124_panic_aborts (o : Opts c) (ul : Bool) (now : Nat) (subs : Event → Reply) (s : Full c) (data : Bytes)
    (key : c.Sec) (rand : Nat → Sender.Rand c)
    (h : (Receiver.handle o ul now s.node data key rand).2.1 = .fail .panic ∨
      (Receiver.handle o ul now s.node data key rand).2.1 = .fail (.sender .panic)) :
    ending o ul now subs s data key rand = .aborted := by
  unfold ending
  generalize Receiver.handle o ul now s.node data key rand = r at h ⊢
  obtain ⟨n, out, ds⟩ := r
  rcases h with h | h <;> (simp only [] at h; subst h; rfl)

/-- C124: the bound on the clock is needed: a debug build whose clock is within the tolerance of 60 seconds of 2^32
panics over a packet with dates. -/
theorem C124_clock_needed : ¬ ClockFits Sender.toyOpts (2 ^ 32 - 60) ∧
    ∀ subs : Event → Reply, ending Sender.toyOpts false (2 ^ 32 - 60) subs ⟨Sender.toyState, []⟩
      (Receiver.datedPacket 150 100) (13 : UInt8) Sender.toyRand = .aborted := by
  refine ⟨fun h => absurd (h rfl).1 (by decide), fun subs => C124_panic_aborts _ _ _ _ _ _ _ _ (.inl ?_)⟩
  decide +kernel

-- C124_checks_never_panic, C124_panic_aborts: the same packet in 2^32 - 1001 and in 2^32 - 60
example := C124_checks_never_panic Crypto.toy_lawful Sender.toyOpts false (2 ^ 32 - 1001) (fun _ => by decide)
  Sender.toyState (Receiver.datedPacket 150 100) (13 : UInt8) Sender.toyRand
example := C124_panic_aborts Sender.toyOpts false (2 ^ 32 - 60) (fun _ => .done) ⟨Sender.toyState, []⟩
  (Receiver.datedPacket 150 100) (13 : UInt8) Sender.toyRand (.inl (by decide +kernel))
end Verif.Process
