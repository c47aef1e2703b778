import Verif.Model.Crypto

/-!
# `src/adnl/encryption.rs`, `src/adnl/handshake.rs`
-/
namespace Verif.Adnl

/-- `&d[a..b]`; `none` is the out-of-bounds panic. -/
def sliceP (d : Bytes) (a b : Nat) : Option Bytes :=
  if a ≤ b ∧ b ≤ d.length then some (slice d a b) else none

/-- `&d[a..]`; `none` is the out-of-bounds panic. -/
def fromP (d : Bytes) (a : Nat) : Option Bytes :=
  if a ≤ d.length then some (d.drop a) else none

/-- `build_packet_cipher` (encryption.rs:3-15) followed by `apply_keystream`. -/
def cipher (c : Crypto) (secret checksum data : Bytes) : Bytes :=
  c.aes (secret.take 16 ++ slice checksum 16 32) (checksum.take 4 ++ slice secret 20 32) data

/-- `compute_packet_data_hash` (encryption.rs:17-28). -/
def dataHash (c : Crypto) (version : Option Nat) (data : Bytes) : Bytes :=
  match version with
  | some v => c.sha (beBytes 2 v ++ data)
  | none => c.sha data

/-- `for (i, byte) in bytes.iter().enumerate() { xor[i % 4] ^= *byte; }`
(encryption.rs:35-37, handshake.rs:48-53), from index `i`. -/
def xorLoop : Nat → Bytes → Bytes → Bytes
  | _, x, [] => x
  | i, x, b :: bs => xorLoop (i + 1) (x.set (i % 4) ((x.getD (i % 4) 0) ^^^ b)) bs

/-- `decode_version::<LEN>` (encryption.rs:30-46) on a prefix of `len` bytes. -/
def decodeVersion (len : Nat) (pre : Bytes) : Option Nat :=
  let stop := len - 32
  let start := stop - 4
  let x := xorLoop 0 (xorLoop 0 (slice pre start stop) (pre.take start)) (pre.drop stop)
  if x.getD 0 0 = x.getD 2 0 ∧ x.getD 1 0 = x.getD 3 0 then some (ofBE (x.take 2)) else none

/-- The version field written by the sender (handshake.rs:41-53, channel.rs:226-238). -/
def encodeVersion (v : Nat) (header checksum : Bytes) : Bytes :=
  xorLoop 0 (xorLoop 0 (beBytes 2 v ++ beBytes 2 v) header) checksum

/-- Sealed packet behind a header: `header ‖ [version] ‖ checksum ‖ ciphertext`
(handshake.rs:33-65 with a 64 byte header, channel.rs:210-250 with a 32 byte header). -/
def sealPacket (c : Crypto) (header secret : Bytes) (version : Option Nat) (data : Bytes) : Bytes :=
  let checksum := dataHash c version data
  match version with
  | some v => header ++ encodeVersion v header checksum ++ checksum ++ cipher c secret checksum data
  | none => header ++ checksum ++ cipher c secret checksum data

/-- Result of opening a packet. -/
inductive Opened where
  | ok (version : Option Nat) (data : Bytes)
  | badChecksum
  /-- index out of bounds -/
  | panic
deriving DecidableEq, Repr

/-- Opening a packet with a header of `h` bytes: handshake.rs:125-166 (`h` = 64), channel.rs:167-206
(`h` = 32). -/
def openOrdinary (c : Crypto) (h : Nat) (secret buffer : Bytes) : Opened :=
  match sliceP buffer h (h + 32), fromP buffer (h + 32) with
  | some checksum, some enc =>
    let data := cipher c secret checksum enc
    if dataHash c none data ≠ checksum then .badChecksum else .ok none data
  | _, _ => .panic

def openPacket (c : Crypto) (h : Nat) (secret buffer : Bytes) : Opened :=
  if buffer.length > h + 36 then
    match sliceP buffer 0 (h + 36) with
    | none => .panic
    | some pre =>
      match decodeVersion (h + 36) pre with
      | some v =>
        match sliceP buffer (h + 4) (h + 36), fromP buffer (h + 36) with
        | some checksum, some enc =>
          let data := cipher c secret checksum enc
          if dataHash c (some v) data = checksum then .ok (some v) data
          -- restoring the buffer: the keystream is applied once more (handshake.rs:148-149)
          else openOrdinary c h secret (buffer.take (h + 36) ++ cipher c secret checksum data)
        | _, _ => .panic
      | none => openOrdinary c h secret buffer
  else openOrdinary c h secret buffer

/-- Result of `parse_handshake_packet` (handshake.rs:85-166). -/
inductive Handshake where
  | ok (localId : Bytes) (version : Option Nat) (data : Bytes)
  | notForUs
  | badLength
  | badChecksum
  | invalidPublicKey
  | panic
deriving DecidableEq, Repr

/-- `parse_handshake_packet` (handshake.rs:85-166); `keys` is the key store. -/
def parseHandshake (c : Crypto) (keys : Bytes → Option c.Sec) (buffer : Bytes) : Handshake :=
  if buffer.length < 96 then .badLength
  else
    match keys (buffer.take 32) with
    | none => .notForUs
    | some key =>
      match sliceP buffer 32 64 with
      | none => .panic
      | some pk =>
        match c.decodePub pk with
        | none => .invalidPublicKey
        | some pub =>
          match openPacket c 64 (c.dh key pub) buffer with
          | .ok v d => .ok (buffer.take 32) v d
          | .badChecksum => .badChecksum
          | .panic => .panic

/-- `build_handshake_packet` (handshake.rs:19-66) with the temporary key `temp`. -/
def buildHandshake (c : Crypto) (peerId : Bytes) (peer : c.Pub) (temp : c.Sec) (version : Option Nat)
    (data : Bytes) : Bytes :=
  sealPacket c (peerId ++ c.pubBytes (c.pubOf temp)) (c.dh temp peer) version data

end Verif.Adnl
