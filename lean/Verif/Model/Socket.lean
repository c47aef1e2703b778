import Mathlib.Data.Int.Order.Basic
import Mathlib.Tactic.Common

/-!
# Receive buffer of the socket: `maximise_recv_buffer` (src/adnl/socket.rs:35-59)

The system call is a parameter: `accepts n` says whether `setsockopt(SO_RCVBUF, n)` succeeds. The arithmetic is
that of `c_int`, with `none` for an overflow, which panics in debug builds and wraps in release builds.
-/
namespace Verif.Socket

/-- A result of `c_int` arithmetic, `none` when it does not fit. -/
def int32 (x : Int) : Option Int := if -2 ^ 31 ≤ x ∧ x < 2 ^ 31 then some x else none

/-- `MAX_UDP_RECV_BUFFER_SIZE` (socket.rs:37). -/
def maxSize : Int := 2 ^ 24

/-- What the loop leaves: the sizes asked for, in order, and the size of the buffer. -/
structure Result where
  asked : List Int
  size : Int
deriving DecidableEq, Repr

/-- The loop (socket.rs:42-55), with fuel; `none` is an overflow or that the fuel does not suffice.
`size` is the present size of the buffer. -/
def search (accepts : Int → Bool) : Nat → (size min max : Int) → Option Result
  | 0, _, _, _ => none
  | fuel + 1, size, min, max =>
    if min ≤ max then do
      let d ← int32 (max - min)
      let avg ← int32 (min + d / 2)
      if accepts avg then
        let min' ← int32 (avg + 1)
        let r ← search accepts fuel avg min' max
        return ⟨avg :: r.asked, r.size⟩
      else
        let max' ← int32 (avg - 1)
        let r ← search accepts fuel size min max'
        return ⟨avg :: r.asked, r.size⟩
    else some ⟨[], size⟩

/-- `maximise_recv_buffer` (socket.rs:35-59) after `getsockopt` gave `current`. -/
def maximise (accepts : Int → Bool) (fuel : Nat) (current : Int) : Option Result :=
  search accepts fuel current current maxSize

end Verif.Socket
