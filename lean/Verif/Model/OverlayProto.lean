import Verif.Model.DhtProto
import Verif.Model.RldpProto

/-!
# Overlay messages on the wire: `src/proto/overlay.rs`, `src/proto/rpc.rs`
-/
namespace Verif.Overlay
open Verif.Tl Verif.AdnlProto Verif.DhtProto Verif.Rldp

/-- `Certificate` (proto/overlay.rs:159-171). -/
inductive Certificate where
  | certificate (issuedBy : PubKey) (expireAt maxSize : Nat) (signature : Bytes)
  | empty
deriving DecidableEq, Repr

def writeCertificate : Certificate → Bytes
  | .certificate k e m s =>
    writeU32 0xe09ed731 ++ (writePubKey k ++ (writeU32 e ++ (writeU32 m ++ writeBytes s)))
  | .empty => writeU32 0x32dabccf

def readCertificate : Reader Certificate := do
  let id ← readU32
  if id = 0xe09ed731 then do
    let k ← readPubKey
    let e ← readU32
    let m ← readU32
    let s ← readBytes
    pure (.certificate k e m s)
  else if id = 0x32dabccf then pure .empty
  else fail

/-- `OverlayBroadcast` (proto/overlay.rs:142-150). -/
structure Ordinary where
  src : PubKey
  certificate : Certificate
  flags : Nat
  data : Bytes
  date : Nat
  signature : Bytes
deriving DecidableEq, Repr

/-- `OverlayBroadcastFec` (proto/overlay.rs:152-165). -/
structure FecPart where
  src : PubKey
  certificate : Certificate
  dataHash : Bytes
  dataSize : Nat
  flags : Nat
  data : Bytes
  seqno : Nat
  fec : FecType
  date : Nat
  signature : Bytes
deriving DecidableEq, Repr

/-- `Broadcast` (proto/overlay.rs:106-131). -/
inductive Broadcast where
  | ordinary (b : Ordinary)
  | fec (b : FecPart)
  | fecShort (src : PubKey) (certificate : Certificate) (broadcastHash partDataHash : Bytes)
      (seqno : Nat) (signature : Bytes)
  | notFound
  | fecCompleted (hash : Bytes)
  | fecReceived (hash : Bytes)
  | unicast (data : Bytes)
deriving DecidableEq, Repr

def writeOrdinary (b : Ordinary) : Bytes :=
  writePubKey b.src ++ (writeCertificate b.certificate ++ (writeU32 b.flags ++ (writeBytes b.data ++
    (writeU32 b.date ++ writeBytes b.signature))))

def writeFecPart (b : FecPart) : Bytes :=
  writePubKey b.src ++ (writeCertificate b.certificate ++ (b.dataHash ++ (writeU32 b.dataSize ++
    (writeU32 b.flags ++ (writeBytes b.data ++ (writeU32 b.seqno ++ (writeFec b.fec ++
      (writeU32 b.date ++ writeBytes b.signature))))))))

/-- Derived `TlWrite` of `Broadcast`. -/
def writeBroadcast : Broadcast → Bytes
  | .ordinary b => writeU32 0xb15a2b6b ++ writeOrdinary b
  | .fec b => writeU32 0xbad7c36a ++ writeFecPart b
  | .fecShort k c h p n s => writeU32 0xf1881342 ++ (writePubKey k ++ (writeCertificate c ++ (h ++ (p ++
      (writeU32 n ++ writeBytes s)))))
  | .notFound => writeU32 0x95863624
  | .fecCompleted h => writeU32 0x09d76914 ++ h
  | .fecReceived h => writeU32 0xd55c14ec ++ h
  | .unicast d => writeU32 0x33534e24 ++ writeBytes d

def readOrdinary : Reader Ordinary := do
  let src ← readPubKey
  let certificate ← readCertificate
  let flags ← readU32
  let data ← readBytes
  let date ← readU32
  let signature ← readBytes
  pure ⟨src, certificate, flags, data, date, signature⟩

def readFecPart : Reader FecPart := do
  let src ← readPubKey
  let certificate ← readCertificate
  let dataHash ← readHash
  let dataSize ← readU32
  let flags ← readU32
  let data ← readBytes
  let seqno ← readU32
  let fec ← readFec
  let date ← readU32
  let signature ← readBytes
  pure ⟨src, certificate, dataHash, dataSize, flags, data, seqno, fec, date, signature⟩

/-- Derived `TlRead` of `Broadcast`. -/
def readBroadcast : Reader Broadcast := do
  let id ← readU32
  if id = 0xb15a2b6b then do
    let b ← readOrdinary
    pure (.ordinary b)
  else if id = 0xbad7c36a then do
    let b ← readFecPart
    pure (.fec b)
  else if id = 0xf1881342 then do
    let k ← readPubKey
    let c ← readCertificate
    let h ← readHash
    let p ← readHash
    let n ← readU32
    let s ← readBytes
    pure (.fecShort k c h p n s)
  else if id = 0x95863624 then pure .notFound
  else if id = 0x09d76914 then do
    let h ← readHash
    pure (.fecCompleted h)
  else if id = 0xd55c14ec then do
    let h ← readHash
    pure (.fecReceived h)
  else if id = 0x33534e24 then do
    let d ← readBytes
    pure (.unicast d)
  else fail

/-- `overlay::Message::TL_ID` (proto/overlay.rs:100-104). -/
def messageId : Nat := 0x75252420

/-- `rpc::OverlayQuery::TL_ID` (proto/rpc.rs:8-15). -/
def queryId : Nat := 0xccfd8443

/-- `rpc::OverlayGetRandomPeers::TL_ID` (proto/rpc.rs:17-21). -/
def getRandomPeersId : Nat := 0x48ee64ab

/-- `message_prefix` of an overlay (overlay.rs:151-153). -/
def messagePrefix (overlay : Bytes) : Bytes := writeU32 messageId ++ overlay

/-- `query_prefix` of an overlay (overlay.rs:148-150). -/
def queryPrefix (overlay : Bytes) : Bytes := writeU32 queryId ++ overlay

/-- `rpc::OverlayGetRandomPeers`, boxed; the list inside is bare. -/
def writeGetRandomPeers (l : List ONode) : Bytes := writeU32 getRandomPeersId ++ writeVec writeONode l

def readGetRandomPeers : Reader (List ONode) := do
  let id ← readU32
  if id = getRandomPeersId then readVec readONode else fail

/-! ### Overlay ids (`src/overlay/overlay_id.rs`) -/

/-- `proto::overlay::ShardPublicOverlayId` (proto/overlay.rs:74-80); the workchain is the bit pattern
of an `i32`. -/
def writeShardPublicOverlayId (workchain shard : Nat) (zeroState : Bytes) : Bytes :=
  writeU32 0x4d9ed329 ++ (writeU32 workchain ++ (writeU64 shard ++ zeroState))

/-- `proto::overlay::CatchainFirstBlock` (proto/overlay.rs:82-104). -/
def writeCatchainFirstBlock (uniqueHash : Bytes) (nodes : List Bytes) : Bytes :=
  writeU32 0x10c904fb ++ (uniqueHash ++ writeVec (fun x => x) nodes)

/-- `IdFull::for_workchain_overlay` (overlay_id.rs:30-36). -/
def forWorkchain (sha : Bytes → Bytes) (workchain : Nat) (zeroState : Bytes) : Bytes :=
  sha (writeShardPublicOverlayId workchain (2 ^ 63) zeroState)

/-- `IdFull::for_catchain_overlay` (overlay_id.rs:19-27). -/
def forCatchain (sha : Bytes → Bytes) (uniqueHash : Bytes) (nodes : List Bytes) : Bytes :=
  sha (writeCatchainFirstBlock uniqueHash nodes)

/-- `IdFull::compute_short_id` (overlay_id.rs:44-47). -/
def shortOfFull (sha : Bytes → Bytes) (full : Bytes) : Bytes := sha (writePubKey (.overlay full))

end Verif.Overlay
