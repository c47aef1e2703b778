import Verif.Model.Bytes

/-!
# How ids are printed

`Display` of `NodeIdShort` (adnl/node_id.rs:110-120), `DisplayTransferId` (adnl/transfer.rs:118-130),
`DisplayBroadcastId` (overlay/overlay.rs:1400-1412) and overlay ids (overlay/overlay_id.rs:130-134). The
first three write hexadecimal digits into an array of 64 zero bytes, drop the error and hand the array to
`from_utf8_unchecked`, which is undefined behaviour for anything but UTF-8. `hex` is an external crate;
`hexDigit`, `hexOf` and `encodeToSlice` are its documented behaviour (lower case, an error and an
untouched buffer if the buffer is not exactly twice as long).
-/
namespace Verif.Display

/-- The digit of a number below 16 (table `0123456789abcdef` of the crate `hex`). -/
def hexDigit (n : Nat) : UInt8 := if n < 10 then UInt8.ofNat (48 + n) else UInt8.ofNat (87 + n)

/-- Two digits per byte, the high half first (`hex::encode`). -/
def hexOf : Bytes → Bytes
  | [] => []
  | b :: bs => hexDigit (b.toNat / 16) :: hexDigit (b.toNat % 16) :: hexOf bs

/-- `hex::encode_to_slice`: what the buffer holds afterwards, and whether the call succeeded. -/
def encodeToSlice (data buf : Bytes) : Bytes × Bool :=
  if data.length * 2 = buf.length then (hexOf data, true) else (buf, false)

/-- What `from_utf8_unchecked` is given (node_id.rs:112-116, transfer.rs:123-127, overlay.rs:1405-1409):
the buffer after the call, whatever its result. -/
def shown (id : Bytes) : Bytes := (encodeToSlice id (List.replicate 64 0)).1

/-- `Display` of an overlay id (overlay_id.rs:130-134). -/
def shownOverlay (id : Bytes) : Bytes := hexOf id

end Verif.Display
