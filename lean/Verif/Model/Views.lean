import Verif.Model.Channel
import Verif.Model.AdnlProto
import Verif.Model.RldpProto

/-!
# Unsafe code on buffers

The other models treat buffers as values. Here the places that go around the checks of the compiler are
modelled on the memory they touch: reading or writing outside it, or using bytes that were never written,
is the explicit result `undefined`.
-/
namespace Verif.Views
open Verif.Adnl Verif.AdnlProto Verif.Tl

/-- Result of a computation: undefined behaviour, a panic, or a value. -/
inductive Mem (α : Type) where
  | undefined
  | panic
  | ok (x : α)
deriving DecidableEq

def Mem.bind {α β : Type} : Mem α → (α → Mem β) → Mem β
  | .undefined, _ => .undefined
  | .panic, _ => .panic
  | .ok x, f => f x

instance : Monad Mem where
  pure := .ok
  bind := Mem.bind

/-! ### `PacketView` (packet_view.rs) -/

/-- `PacketView` (packet_view.rs:3-5): the bytes of `base` from `off` on. The allocation `base` stays the
same when the view shrinks, and pointers into it stay valid. -/
structure View where
  base : Bytes
  off : Nat
deriving DecidableEq

/-- `PacketView::from` (packet_view.rs:68-72). -/
def View.ofBuffer (b : Bytes) : View := ⟨b, 0⟩

/-- `as_slice` (packet_view.rs:13-16). -/
def View.bytes (v : View) : Bytes := v.base.drop v.off

/-- `len` (packet_view.rs:18-21). -/
def View.len (v : View) : Nat := v.base.length - v.off

/-- `remove_prefix` (packet_view.rs:23-29): `ptr.add(n)` and `len - n` are not checked. -/
def View.removePrefix (v : View) (n : Nat) : Mem View :=
  if n ≤ v.len then .ok ⟨v.base, v.off + n⟩ else .undefined

/-- `&view[a..b]` (packet_view.rs:32-47). -/
def View.range (v : View) (a b : Nat) : Mem Bytes :=
  if a ≤ b ∧ b ≤ v.len then .ok (slice v.base (v.off + a) (v.off + b)) else .panic

/-- `&view[a..]` (packet_view.rs:54-60). -/
def View.rest (v : View) (a : Nat) : Mem Bytes :=
  if a ≤ v.len then .ok (v.base.drop (v.off + a)) else .panic

/-- `cipher.apply_keystream(&mut view[a..])`, in place. -/
def View.apply (c : Crypto) (secret checksum : Bytes) (v : View) (a : Nat) : Mem View :=
  if a ≤ v.len then
    .ok ⟨v.base.take (v.off + a) ++ cipher c secret checksum (v.base.drop (v.off + a)), v.off⟩
  else .panic

/-- `&*(ptr as *const NodeIdShort)` (handshake.rs:105-107): 32 bytes of the allocation from `p` on. -/
def rawId (base : Bytes) (p : Nat) : Mem Bytes :=
  if p + 32 ≤ base.length then .ok (slice base p (p + 32)) else .undefined

/-- The last part of opening a packet (handshake.rs:152-165, channel.rs:192-206): `none` is a bad
checksum. -/
def openRest (c : Crypto) (h : Nat) (secret : Bytes) (v : View) : Mem (Option (Option Nat) × View) := do
  let checksum ← v.range h (h + 32)
  let v ← v.apply c secret checksum (h + 32)
  let data ← v.rest (h + 32)
  let sum ← v.range h (h + 32)
  if dataHash c none data ≠ sum then pure (none, v)
  else do
    let v ← v.removePrefix (h + 32)
    pure (some none, v)

/-- Opening a packet in place (handshake.rs:125-166 with `h` = 64, channel.rs:167-206 with `h` = 32). -/
def openView (c : Crypto) (h : Nat) (secret : Bytes) (v : View) : Mem (Option (Option Nat) × View) :=
  if v.len > h + 36 then do
    let pre ← v.range 0 (h + 36)
    match decodeVersion (h + 36) pre with
    | some ver => do
      let checksum ← v.range (h + 4) (h + 36)
      let v ← v.apply c secret checksum (h + 36)
      let data ← v.rest (h + 36)
      let sum ← v.range (h + 4) (h + 36)
      if dataHash c (some ver) data = sum then do
        let v ← v.removePrefix (h + 36)
        pure (some (some ver), v)
      else do
        let v ← v.apply c secret checksum (h + 36)
        openRest c h secret v
    | none => openRest c h secret v
  else openRest c h secret v

/-- `parse_handshake_packet` (handshake.rs:85-166) in place. The local id is a reference into the buffer;
it is copied when the function returns (lines 143 and 165), after the buffer was decrypted and the prefix
removed. -/
def parseView (c : Crypto) (keys : Bytes → Option c.Sec) (v : View) : Mem (Handshake × View) :=
  if v.len < 96 then pure (.badLength, v)
  else do
    let id ← rawId v.base v.off
    match keys id with
    | none => pure (.notForUs, v)
    | some key => do
      let pk ← v.range 32 64
      match c.decodePub pk with
      | none => pure (.invalidPublicKey, v)
      | some pub => do
        let r ← openView c 64 (c.dh key pub) v
        match r.1 with
        | none => pure (.badChecksum, r.2)
        | some ver => do
          let id ← rawId r.2.base v.off
          pure (.ok id ver r.2.bytes, r.2)

/-- `Channel::decrypt` (channel.rs:140-207) in place. -/
def decryptView (c : Crypto) (ch : Channel) (priority : Bool) (v : View) : Mem (Decrypted × View) :=
  if v.len < 64 then pure (.tooShort, v)
  else do
    let r ← openView c 32 (ch.inn.sub priority).secret v
    match r.1 with
    | none => pure (.badChecksum, r.2)
    | some ver => pure (.ok ver r.2.bytes, r.2)

/-! ### `PacketContentsSignature::extract` (proto/adnl.rs:234-281) -/

/-- `std::ptr::copy` inside one allocation. -/
def copyWithin (buf : Bytes) (src dst n : Nat) : Mem Bytes :=
  if src + n ≤ buf.length ∧ dst + n ≤ buf.length then .ok (memmove buf src dst n) else .undefined

/-- `slice::from_raw_parts(origin, n)`. -/
def rawPrefix (buf : Bytes) (n : Nat) : Mem Bytes :=
  if n ≤ buf.length then .ok (buf.take n) else .undefined

/-- `packet[i] &= 0xf7` (proto/adnl.rs:257). -/
def clearBit (buf : Bytes) (i : Nat) : Mem Bytes :=
  if i < buf.length then .ok (buf.set i ((buf.getD i 0) &&& 0xf7)) else .panic

/-- `extract` (proto/adnl.rs:243-281): the buffer afterwards, the message and the signature. The length is
cast to `u16`; `flags_offset + 1` is taken modulo 2^16 (a panic in a debug build, for `flags_offset` =
65535). -/
def extractView (s : SigInfo) (packet : Bytes) : Mem (Option (Bytes × Bytes × Bytes)) :=
  let len := packet.length % 2 ^ 16
  let fo := (s.flagsOffset + 1) % 2 ^ 16
  if fo < len ∧ s.start < s.stop ∧ s.stop < len then do
    let p1 ← clearBit packet fo
    let p2 ← copyWithin p1 s.stop s.start (len - s.stop)
    let m ← rawPrefix p2 (packet.length - (s.stop - s.start))
    pure (some (p2, m, s.signature))
  else pure none

/-! ### `OwnedRldpMessageQuery::from_data` (rldp/transfers_cache.rs:606-644) -/

/-- `BytesMeta::read_from` (external) at `off`: the lengths of the prefix, of the data and of the padding
of the `bytes` value that starts there, if it is complete. The offset stays. -/
def bytesMeta (d : Bytes) (off : Nat) : Option (Nat × Nat × Nat) :=
  match d.drop off with
  | [] => none
  | b :: r =>
    if b.toNat = 254 then
      if r.length < 3 then none
      else
        let l := ofLE (r.take 3)
        if off + 4 + l + padding l ≤ d.length then some (4, l, padding l) else none
    else if off + 1 + b.toNat + padding (1 + b.toNat) ≤ d.length then
      some (1, b.toNat, padding (1 + b.toNat))
    else none

/-- `Vec::set_len` to at most the present length. -/
def setLen (buf : Bytes) (n : Nat) : Mem Bytes := if n ≤ buf.length then .ok (buf.take n) else .undefined

/-- The header read by `Query::read_from` (transfers_cache.rs:608-620): query id and greatest answer. -/
def queryHeader (d : Bytes) : Option (Bytes × Nat) :=
  match (do
    let id ← readU32
    if id = 0x8a794d69 then do
      let q ← readHash
      let m ← readU64
      let _ ← readU32
      pure (q, m)
    else fail : Reader (Bytes × Nat)) d with
  | some (x, _) => some x
  | none => none

/-- `from_data` in place: the header has 48 bytes. -/
def fromDataView (d : Bytes) : Mem (Option Rldp.OwnedQuery) :=
  match queryHeader d with
  | none => pure none
  | some (q, m) =>
    match bytesMeta d 48 with
    | none => pure none
    | some (pre, len, _) => do
      let d1 ← copyWithin d (48 + pre) 0 len
      let d2 ← setLen d1 len
      pure (some ⟨q, m, d2⟩)

/-! ### The receive loop (adnl/node/receiver.rs:46-104) -/

/-- A buffer of the receive loop: its capacity in cells, `none` where nothing was written yet. -/
abbrev Cells := List (Option UInt8)

/-- `RECV_BUFFER_SIZE` (receiver.rs:38). -/
def recvBufferSize : Nat := 2048

/-- What `socket.recv_from` gives: a datagram (as sent), or an error. -/
inductive Recv where
  | datagram (d : Bytes)
  | error

/-- The kernel writes the datagram to the front of the buffer and cuts off what does not fit. -/
def writeFront (b : Cells) (d : Bytes) : Cells :=
  (d.take b.length).map some ++ b.drop (min d.length b.length)

/-- `buffer.set_len(len)` (receiver.rs:80) on a buffer of length 0, and using the bytes afterwards. -/
def takeWritten (b : Cells) (len : Nat) : Mem Bytes :=
  if len ≤ b.length ∧ (b.take len).all Option.isSome then .ok ((b.take len).filterMap id) else .undefined

/-- One turn of the loop (receiver.rs:52-101): the buffer kept for the next turn, and the bytes handed to
`handle_received_data`, if any. -/
def recvTurn (buffer : Option Cells) (r : Recv) : Option Cells × Mem (Option Bytes) :=
  let b := buffer.getD (List.replicate recvBufferSize none)
  match r with
  | .error => (some b, pure none)
  | .datagram d =>
    let len := min d.length b.length
    if len = 0 then (some (writeFront b d), pure none)
    else (none, do
      let x ← takeWritten (writeFront b d) len
      pure (some x))

/-- The loop over what the socket gives: what is handed on at each turn. -/
def recvLoop (buffer : Option Cells) : List Recv → List (Mem (Option Bytes))
  | [] => []
  | r :: rs => (recvTurn buffer r).2 :: recvLoop (recvTurn buffer r).1 rs

end Verif.Views
