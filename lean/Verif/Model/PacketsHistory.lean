/-!
# Model of `src/util/packets_history.rs`

`AtomicU64` words are natural numbers below `2^64`; `x & INDEX_MASK` is written `x % 256` and
`x & !INDEX_MASK` is written `x - x % 256` (INDEX_MASK = 255, line 188).
-/
namespace Verif.PacketsHistory

/-- `INDEX_MASK + 1` (packets_history.rs:188, 191): half of the 512 history bits. -/
def half : Nat := 256

/-- `IN_TRANSIT` (packets_history.rs:189). -/
def inTransit : Nat := 2 ^ 64 - 1

/-- Receive history: `HistoryBits { index, bits }` and `seqno`
(packets_history.rs:3-6, 182-186).  `bits i` is the value of the `i`-th of the 8 words;
positions `≥ 8` do not exist in the code and are never read by the model. -/
structure Hist where
  index : Nat
  bits : Nat → Nat
  seqno : Nat

/-- `PacketsHistory::for_recv` (packets_history.rs:16-21): everything zero. -/
def forRecv : Hist := ⟨0, fun _ => 0, 0⟩

/-- `PacketsHistory::reset` on a receive history (packets_history.rs:23-54): word 4 becomes 1,
the other words, `seqno` and `index` become 0. -/
def reset (_ : Hist) : Hist := ⟨0, fun i => if i = 4 then 1 else 0, 0⟩

/-- Shifting the upper half of the words into the lower half and clearing the upper half
(packets_history.rs:142-151). -/
def shiftBits (b : Nat → Nat) : Nat → Nat :=
  fun i => if i < 4 then b (i + 4) else 0

/-- `PacketsHistory::deliver_packet` on a receive history, run without interference
(packets_history.rs:81-178).  The addition `seqno_normalized + INDEX_MASK + 1` (line 94) is the
wrapping addition of release builds. The spinning on `IN_TRANSIT` (lines 86-89) and the failed CAS
branches do not occur without interference; they are modelled in `Model/PacketsHistoryConc.lean`. -/
def deliver (h : Hist) (seqno : Nat) : Hist × Bool :=
  let seqnoMasked := seqno % half                              -- line 81
  let seqnoNorm := seqno - seqno % half                        -- line 82
  let indexMasked := h.index % half                            -- line 91
  let indexNorm := h.index - h.index % half                    -- line 92
  if indexNorm > (seqnoNorm + half) % 2 ^ 64 then              -- line 94
    (h, false)
  else
    let bit := 1 <<< (seqnoMasked % 64)                        -- line 99
    let finish (bits : Nat → Nat) (next : Nat) : Hist × Bool := -- lines 162-178
      (⟨next ||| ((indexMasked + 1) - (indexMasked + 1) % half), bits,
        if h.seqno < seqno then seqno else h.seqno⟩, true)
    let withBit (off : Nat) : Hist × Bool :=                   -- lines 107-131
      let o := off + seqnoMasked / 64
      if h.bits o &&& bit ≠ 0 then (h, false)
      else finish (fun i => if i = o then h.bits i ||| bit else h.bits i) h.index
    if indexNorm > seqnoNorm then withBit 0                    -- line 101
    else if indexNorm = seqnoNorm then withBit 4               -- line 102
    else if indexNorm + half = seqnoNorm then                  -- lines 132-158
      finish (shiftBits h.bits) indexNorm
    else
      finish (fun _ => 0) indexNorm

/-- A history of deliveries, returning the final state. -/
def run (h : Hist) (xs : List Nat) : Hist := xs.foldl (fun h s => (deliver h s).1) h

/-- `deliver_packet` on a send history (packets_history.rs:67-78, mask `None`): the number is
maximised, the answer is always `true`. -/
def deliverSend (last seqno : Nat) : Nat × Bool :=
  (if last < seqno then seqno else last, true)

/-- `bump_seqno` (packets_history.rs:60-62): the new value is stored and returned. -/
def bump (last : Nat) : Nat × Nat := (last + 1, last + 1)

end Verif.PacketsHistory
