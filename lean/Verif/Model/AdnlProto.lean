import Verif.Model.Tl
import Verif.Model.Address

/-!
# ADNL packets on the wire: `src/proto/adnl.rs`

Constructor ids are the CRC-32 of the lines of `src/scheme.tl`, as computed by `tl_proto::id!`.
-/
namespace Verif.AdnlProto
open Verif.Tl Verif.Address

/-- `everscale_crypto::tl::PublicKey` (external crate). -/
inductive PubKey where
  | ed25519 (key : Bytes)
  | aes (key : Bytes)
  | overlay (name : Bytes)
  | unenc (data : Bytes)
deriving DecidableEq, Repr

def writePubKey : PubKey → Bytes
  | .ed25519 k => writeU32 0x4813b4c6 ++ k
  | .aes k => writeU32 0x2dbcadd4 ++ k
  | .overlay n => writeU32 0x34ba45cb ++ writeBytes n
  | .unenc d => writeU32 0xb61f450a ++ writeBytes d

def readPubKey : Reader PubKey := do
  let id ← readU32
  if id = 0x4813b4c6 then do
    let k ← readHash
    pure (.ed25519 k)
  else if id = 0x2dbcadd4 then do
    let k ← readHash
    pure (.aes k)
  else if id = 0x34ba45cb then do
    let n ← readBytes
    pure (.overlay n)
  else if id = 0xb61f450a then do
    let d ← readBytes
    pure (.unenc d)
  else fail

/-- `Message` (proto/adnl.rs:290-334). -/
inductive Message where
  | answer (queryId answer : Bytes)
  | custom (data : Bytes)
  | confirmChannel (key peerKey : Bytes) (date : Nat)
  | part (hash : Bytes) (totalSize offset : Nat) (data : Bytes)
  | createChannel (key : Bytes) (date : Nat)
  | query (queryId query : Bytes)
  | nop
  | reinit (date : Nat)
deriving DecidableEq, Repr

/-- Derived `TlWrite` of `Message` (proto/adnl.rs:290-334). -/
def writeMessage : Message → Bytes
  | .answer q a => writeU32 0x0fac8416 ++ (q ++ writeBytes a)
  | .custom d => writeU32 0x204818f5 ++ writeBytes d
  | .confirmChannel k p d => writeU32 0x60dd1d69 ++ (k ++ (p ++ writeU32 d))
  | .part h t o d => writeU32 0xfd452d39 ++ (h ++ (writeU32 t ++ (writeU32 o ++ writeBytes d)))
  | .createChannel k d => writeU32 0xe673c3bb ++ (k ++ writeU32 d)
  | .query q d => writeU32 0xb48bf97a ++ (q ++ writeBytes d)
  | .nop => writeU32 0x17f8dfda
  | .reinit d => writeU32 0x10c20520 ++ writeU32 d

/-- Derived `TlRead` of `Message`. -/
def readMessage : Reader Message := do
  let id ← readU32
  if id = 0x0fac8416 then do
    let q ← readHash
    let a ← readBytes
    pure (.answer q a)
  else if id = 0x204818f5 then do
    let d ← readBytes
    pure (.custom d)
  else if id = 0x60dd1d69 then do
    let k ← readHash
    let p ← readHash
    let d ← readU32
    pure (.confirmChannel k p d)
  else if id = 0xfd452d39 then do
    let h ← readHash
    let t ← readU32
    let o ← readU32
    let d ← readBytes
    pure (.part h t o d)
  else if id = 0xe673c3bb then do
    let k ← readHash
    let d ← readU32
    pure (.createChannel k d)
  else if id = 0xb48bf97a then do
    let q ← readHash
    let d ← readBytes
    pure (.query q d)
  else if id = 0x17f8dfda then pure .nop
  else if id = 0x10c20520 then do
    let d ← readU32
    pure (.reinit d)
  else fail

/-- `Address` (proto/adnl.rs:402-407). -/
def writeAddr (a : Addr) : Bytes := writeU32 0x670da6e7 ++ (writeU32 a.ip ++ writeU32 a.port)

def readAddr : Reader Addr := do
  let id ← readU32
  if id = 0x670da6e7 then do
    let ip ← readU32
    let port ← readU32
    pure ⟨ip, port⟩
  else fail

/-- `AddressList::write_to` (proto/adnl.rs:362-373). -/
def writeAddrList (l : AddrList) : Bytes :=
  writeU32 (if l.address.isSome then 1 else 0) ++ (writeOpt writeAddr l.address ++
    (writeU32 l.version ++ (writeU32 l.reinitDate ++ (writeU32 0 ++ writeU32 l.expireAt))))

/-- `AddressList::read_from` (proto/adnl.rs:379-400): only the first address is kept. -/
def readAddrList : Reader AddrList := do
  let n ← readU32
  let addrs ← readN readAddr n
  let version ← readU32
  let reinit ← readU32
  let _ ← readU32
  let expire ← readU32
  pure ⟨addrs.head?, version, reinit, expire⟩

/-- `ReinitDates` (proto/adnl.rs:283-288). -/
structure ReinitDates where
  loc : Nat
  target : Nat
deriving DecidableEq, Repr

def writeDates (d : ReinitDates) : Bytes := writeU32 d.loc ++ writeU32 d.target

def readDates : Reader ReinitDates := do
  let l ← readU32
  let t ← readU32
  pure ⟨l, t⟩

/-- `OutgoingMessages` (proto/adnl.rs:69-74): already serialised messages. -/
inductive OutMessages where
  | single (raw : Bytes)
  | pair (raw : Bytes)

/-- `is_single` (proto/adnl.rs:76-81). -/
def OutMessages.isSingle : OutMessages → Bool
  | .single _ => true
  | .pair _ => false

/-- `OutgoingMessages::write_to` (proto/adnl.rs:95-107). -/
def writeOutMessages : OutMessages → Bytes
  | .single raw => raw
  | .pair raw => writeU32 2 ++ raw

/-- `OutgoingPacketContents` (proto/adnl.rs:8-21). -/
structure OutPacket where
  rand1 : Bytes
  src : Option PubKey
  messages : OutMessages
  address : AddrList
  seqno : Nat
  confirmSeqno : Nat
  reinitDates : Option ReinitDates
  signature : Option Bytes
  rand2 : Bytes

def bitIf (c : Bool) (n : Nat) : Nat := if c then 1 <<< n else 0

/-- Flags (proto/adnl.rs:44-53). -/
def flagsOf (src single dates sig : Bool) : Nat :=
  (1 <<< 4 ||| 1 <<< 6 ||| 1 <<< 7) ||| bitIf src 0
    ||| (if single then 1 <<< 2 else 1 <<< 3) ||| bitIf dates 10 ||| bitIf sig 11

def outFlags (p : OutPacket) : Nat :=
  flagsOf p.src.isSome p.messages.isSingle p.reinitDates.isSome p.signature.isSome

/-- `OutgoingPacketContents::write_to` (proto/adnl.rs:38-66). -/
def writePacket (p : OutPacket) : Bytes :=
  writeU32 0xd142cd89 ++ (writeBytes p.rand1 ++ (writeU32 (outFlags p) ++
    (writeOpt writePubKey p.src ++ (writeOutMessages p.messages ++ (writeAddrList p.address ++
    (writeU64 p.seqno ++ (writeU64 p.confirmSeqno ++ (writeOpt writeDates p.reinitDates ++
    (writeOpt writeBytes p.signature ++ writeBytes p.rand2)))))))))

/-- `PacketContentsSignature` (proto/adnl.rs:226-232); the offsets are `u16`. -/
structure SigInfo where
  signature : Bytes
  flagsOffset : Nat
  start : Nat
  stop : Nat
deriving DecidableEq, Repr

/-- `IncomingPacketContents` (proto/adnl.rs:109-124). -/
structure InPacket where
  src : Option PubKey
  srcShort : Option Bytes
  messages : List Message
  address : Option AddrList
  seqno : Option Nat
  confirmSeqno : Option Nat
  reinitDates : Option ReinitDates
  signature : Option SigInfo
deriving DecidableEq

/-- Fields between the flags and the signature (proto/adnl.rs:160-183). -/
structure Mid where
  src : Option PubKey
  srcShort : Option Bytes
  message : Option Message
  messages : Option (List Message)
  address : Option AddrList
  seqno : Option Nat
  confirmSeqno : Option Nat
  reinitDates : Option ReinitDates

def readMid (flags : Nat) : Reader Mid := do
  let src ← readOpt flags 0 readPubKey
  let srcShort ← readOpt flags 1 readHash
  let message ← readOpt flags 2 readMessage
  let messages ← readOpt flags 3 (readVec readMessage)
  let address ← readOpt flags 4 readAddrList
  let _ ← readOpt flags 5 readAddrList
  let seqno ← readOpt flags 6 readU64
  let confirmSeqno ← readOpt flags 7 readU64
  let _ ← readOpt flags 8 readU32
  let _ ← readOpt flags 9 readU32
  let reinitDates ← readOpt flags 10 readDates
  pure ⟨src, srcShort, message, messages, address, seqno, confirmSeqno, reinitDates⟩

/-- The signature field (proto/adnl.rs:185-202): must be 64 bytes. `off` is the offset at which it
starts, `flagsOff` that of the flags; both are cast to `u16`. -/
def readSig (flags flagsOff off : Nat) : Reader (Option SigInfo) :=
  if flags.testBit 11 then do
    let (s, n) ← measured readBytes
    if s.length ≠ 64 then fail
    else pure (some ⟨s, flagsOff % 2 ^ 16, off % 2 ^ 16, (off + n) % 2 ^ 16⟩)
  else pure none

/-- Joining `message` and `messages` (proto/adnl.rs:209-221). -/
def joinMessages : Option (List Message) → Option Message → Option (List Message)
  | some ms, none => some ms
  | none, some m => some [m]
  | some ms, some m => some (m :: ms)
  | none, none => none

/-- `IncomingPacketContents::read_from` (proto/adnl.rs:132-224), started at offset 0 as the receiver
does (receiver.rs:149). -/
def readPacket : Reader InPacket := do
  let id ← readU32
  if id ≠ 0xd142cd89 then fail
  else do
    let (_, n1) ← measured readBytes
    let flags ← readU32
    let (mid, n2) ← measured (readMid flags)
    let sig ← readSig flags (4 + n1) (4 + n1 + 4 + n2)
    let _ ← readBytes
    match joinMessages mid.messages mid.message with
    | some ms =>
      pure ⟨mid.src, mid.srcShort, ms, mid.address, mid.seqno, mid.confirmSeqno, mid.reinitDates, sig⟩
    | none => fail

/-- `std::ptr::copy` of `n` bytes inside one buffer (memmove semantics). -/
def memmove (buf : Bytes) (src dst n : Nat) : Bytes :=
  buf.take dst ++ slice buf src (src + n) ++ buf.drop (dst + n)

/-- `PacketContentsSignature::extract` (proto/adnl.rs:243-280): the buffer afterwards, the returned
slice and the signature. Offsets are `u16`, as is the length compared with them. -/
def extract (s : SigInfo) (packet : Bytes) : Option (Bytes × Bytes × Bytes) :=
  let len := packet.length % 2 ^ 16
  let fo := (s.flagsOffset + 1) % 2 ^ 16
  if fo < len ∧ s.start < s.stop ∧ s.stop < len then
    let p1 := packet.set fo ((packet.getD fo 0) &&& 0xf7)
    let sigLen := s.stop - s.start
    let remaining := len - s.stop
    let p2 := memmove p1 s.stop s.start remaining
    some (p2, p2.take (packet.length - sigLen), s.signature)
  else none

end Verif.AdnlProto
