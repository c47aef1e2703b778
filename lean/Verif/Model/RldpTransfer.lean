import Verif.Model.RldpProto

/-!
# RLDP transfers: `src/rldp/{encoder,decoder,incoming_transfer,outgoing_transfer}.rs`

RaptorQ is a parameter (`Fec`). With `MAX_TRANSMISSION_UNIT` = 768 and parts of at most 2000000 bytes
an object has a single source block, so `encoder_index` stays 0 and the decoder's block number 0 is
right.
-/
namespace Verif.Rldp

/-- `MAX_TRANSMISSION_UNIT` (encoder.rs:65). -/
def mtu : Nat := 768

/-- `SLICE` (outgoing_transfer.rs:171). -/
def sliceLen : Nat := 2000000

/-- `WINDOW` (outgoing_transfer.rs:170). -/
def window : Nat := 1000

/-- The RaptorQ library (`everscale_raptorq`). -/
structure Fec where
  /-- state of a `Decoder` -/
  Dec : Type
  /-- `Decoder::new(ObjectTransmissionInformation::with_defaults(total_len, packet_len))` -/
  new : FecType → Dec
  /-- `Decoder::decode` of the symbol with the given number -/
  decode : Dec → Nat → Bytes → Dec × Option Bytes
  /-- number of source packets of some data -/
  count : Bytes → Nat
  /-- the symbol with the given number (encoding symbol id); the source symbols are those below
  `count` -/
  symbol : Bytes → Nat → Bytes
  /-- number of the symbol made by `repair_packets(seqno, 1)` -/
  repairId : Bytes → Nat → Nat

/-- `RaptorQEncoder::params` (encoder.rs:22-28). -/
def Fec.params (f : Fec) (d : Bytes) : FecType := ⟨d.length, mtu, f.count d⟩

/-! ### Receiving -/

/-- `IncomingTransfer` (incoming_transfer.rs:10-20) with the decoder's parameters, state and last
number. Not modelled: the capacity of `data`, and overflow of `part` at 2^32 parts. -/
structure Incoming (f : Fec) where
  maxSize : Nat
  confirmCount : Nat
  data : Bytes
  decoder : Option (FecType × f.Dec)
  part : Nat
  totalSize : Option Nat

/-- `IncomingTransfer::new` (incoming_transfer.rs:23-35). -/
def Incoming.new (f : Fec) (maxSize : Nat) : Incoming f := ⟨maxSize, 0, [], none, 0, none⟩

/-- Result of `process_chunk`: the reply or the error. -/
inductive Reply where
  | nothing
  | complete (part : Nat)
  | confirm (part seqno : Nat)
  | sizeMismatch
  | paramsMismatch
  | tooBig
deriving DecidableEq, Repr

/-- Decoding (incoming_transfer.rs:101-138) for the current part with the decoder `dec`. -/
def Incoming.decodePart {f : Fec} (t : Incoming f) (total : Nat) (dec : f.Dec) (m : Part) :
    Incoming f × Reply :=
  match f.decode dec m.seqno m.data with
  | (dec', some d) =>
    if d.length + t.data.length > total then ({ t with decoder := some (m.fec, dec') }, .tooBig)
    else if t.data.length + d.length < total then
      ({ t with data := t.data ++ d, decoder := none, part := t.part + 1, confirmCount := 0 },
        .complete m.part)
    else ({ t with data := t.data ++ d, decoder := some (m.fec, dec') }, .complete m.part)
  | (dec', none) =>
    if t.confirmCount = 9 then
      ({ t with decoder := some (m.fec, dec'), confirmCount := 0 }, .confirm m.part m.seqno)
    else ({ t with decoder := some (m.fec, dec'), confirmCount := t.confirmCount + 1 }, .nothing)

/-- Choice of the decoder (incoming_transfer.rs:76-99). -/
def Incoming.partStep {f : Fec} (t : Incoming f) (total : Nat) (m : Part) : Incoming f × Reply :=
  if m.part < t.part then (t, .complete m.part)
  else if t.part < m.part then (t, .nothing)
  else
    match t.decoder with
    | some (params, dec) =>
      if params ≠ m.fec then (t, .paramsMismatch) else t.decodePart total dec m
    | none => t.decodePart total (f.new m.fec) m

/-- `process_chunk` (incoming_transfer.rs:53-139). -/
def Incoming.processChunk {f : Fec} (t : Incoming f) (m : Part) : Incoming f × Reply :=
  match t.totalSize with
  | some n => if n ≠ m.totalSize then (t, .sizeMismatch) else t.partStep n m
  | none =>
    if m.totalSize > t.maxSize then (t, .tooBig)
    else { t with totalSize := some m.totalSize }.partStep m.totalSize m

/-- The exit test of `receive` (transfers_cache.rs:387-395). -/
def Incoming.done {f : Fec} (t : Incoming f) : Bool :=
  match t.totalSize with
  | some n => decide (n ≤ t.data.length)
  | none => false

/-- State of the loop of `receive` (transfers_cache.rs:359-401): the transfer, the counter `updates`,
and whether the loop was left. -/
structure Receiving (f : Fec) where
  transfer : Incoming f
  updates : Nat
  left : Bool

/-- One turn of the loop; after it was left, messages are dropped (transfers_cache.rs:398-400). -/
def Receiving.step {f : Fec} (r : Receiving f) (m : Part) : Receiving f × Option Reply :=
  if r.left then (r, none)
  else
    let p := r.transfer.processChunk m
    (⟨p.1, r.updates + 1, p.1.done⟩, some p.2)

def Receiving.run {f : Fec} (r : Receiving f) (ms : List Part) : Receiving f :=
  ms.foldl (fun r m => (r.step m).1) r

def Receiving.new (f : Fec) (maxSize : Nat) : Receiving f := ⟨Incoming.new f maxSize, 0, false⟩

/-! ### Sending -/

/-- `OutgoingTransferState` (outgoing_transfer.rs:123-129). -/
structure OutState where
  part : Nat
  hasReply : Bool
  seqnoOut : Nat
  seqnoIn : Nat
deriving DecidableEq, Repr

/-- `RaptorQEncoder` (encoder.rs:6-11): the data and the number of source packets already popped. -/
structure Enc where
  data : Bytes
  next : Nat
deriving DecidableEq, Repr

/-- `OutgoingTransfer` (outgoing_transfer.rs:11-18). -/
structure Outgoing where
  data : Bytes
  cur : Nat
  enc : Option Enc
  st : OutState

/-- `OutgoingTransfer::new` (outgoing_transfer.rs:21-32). -/
def Outgoing.new (data : Bytes) : Outgoing := ⟨data, 0, none, ⟨0, false, 0, 0⟩⟩

/-- The bytes of a part (outgoing_transfer.rs:46-57). -/
def partData (data : Bytes) (p : Nat) : Bytes := (data.drop (p * sliceLen)).take sliceLen

/-- `is_finished` (outgoing_transfer.rs:102-104). -/
def Outgoing.isFinished (t : Outgoing) : Bool :=
  t.st.hasReply && decide (t.data.length ≤ (t.st.part + 1) * sliceLen)

/-- `start_next_part` (outgoing_transfer.rs:40-65); the result tells whether there is something to
send. -/
def Outgoing.startNextPart (f : Fec) (t : Outgoing) : Outgoing × Option Nat :=
  if t.isFinished then (t, none)
  else if t.data.length ≤ t.st.part * sliceLen then (t, none)
  else
    ({ t with cur := t.st.part, enc := some ⟨partData t.data t.st.part, 0⟩ },
      if f.count (partData t.data t.st.part) > 0 then some (f.count (partData t.data t.st.part))
      else none)

/-- `RaptorQEncoder::encode` (encoder.rs:35-52): the number of the symbol. -/
def Enc.encode (f : Fec) (e : Enc) (seqno : Nat) : Nat × Enc :=
  if e.next < f.count e.data then (e.next, { e with next := e.next + 1 })
  else (f.repairId e.data seqno, e)

/-- `set_seqno_out` (outgoing_transfer.rs:154-156). -/
def OutState.setSeqnoOut (s : OutState) (n : Nat) : OutState := { s with seqnoOut := max s.seqnoOut n }

/-- Result of `prepare_chunk`. -/
inductive Chunk where
  | part (m : Part)
  | notReady
  | panic
deriving DecidableEq, Repr

/-- `prepare_chunk` (outgoing_transfer.rs:67-100). One step: a confirmation handled meanwhile on
another thread has the same effect before or after it. -/
def Outgoing.prepareChunk (f : Fec) (build : Build) (t : Outgoing) : Outgoing × Chunk :=
  match t.enc with
  | none => (t, .notReady)
  | some e =>
    let n := (e.encode f t.st.seqnoOut).1
    let m : Part := ⟨f.params e.data, t.cur, t.data.length, n, f.symbol e.data n⟩
    let t' := { t with enc := some (e.encode f t.st.seqnoOut).2 }
    match subU32 build n t.st.seqnoIn with
    | none => (t', .panic)
    | some w =>
      if w ≤ window then
        if t.st.seqnoOut = n then
          match addU32 build n 1 with
          | none => (t', .panic)
          | some n' => ({ t' with st := t.st.setSeqnoOut n' }, .part m)
        else ({ t' with st := t.st.setSeqnoOut n }, .part m)
      else (t', .part m)

/-- `set_part` (outgoing_transfer.rs:136-140); `none` is a panic. -/
def OutState.setPart (build : Build) (s : OutState) (p : Nat) : Option OutState :=
  match subU32 build p 1 with
  | none => none
  | some q => some (if s.part = q then { s with part := p } else s)

/-- `set_seqno_in` (outgoing_transfer.rs:162-167). -/
def OutState.setSeqnoIn (s : OutState) (n : Nat) : OutState :=
  if n > s.seqnoOut then s else { s with seqnoIn := max s.seqnoIn n }

/-- Handling of a `Confirm` (transfers_cache.rs:243-255). -/
def OutState.confirm (s : OutState) (part seqno : Nat) : OutState :=
  if s.part = part then s.setSeqnoIn seqno else s

/-- Handling of a `Complete` (transfers_cache.rs:256-262); `none` is a panic. -/
def OutState.complete (build : Build) (s : OutState) (part : Nat) : Option OutState :=
  match addU32 build part 1 with
  | none => none
  | some p => s.setPart build p

/-- `is_finished_or_next_part` (outgoing_transfer.rs:106-116). -/
inductive PartCheck where
  | no | yes | mismatch | panic
deriving DecidableEq, Repr

def Outgoing.finishedOrNext (build : Build) (t : Outgoing) (part : Nat) : PartCheck :=
  if t.isFinished then .yes
  else if t.st.part = part then .no
  else
    match addU32 build part 1 with
    | none => .panic
    | some p => if t.st.part = p then .yes else .mismatch

end Verif.Rldp
