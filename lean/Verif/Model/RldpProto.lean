import Verif.Model.Tl

/-!
# RLDP messages on the wire: `src/proto/rldp.rs`
-/
namespace Verif.Rldp
open Verif.Tl

/-- `Message` (proto/rldp.rs:5-28). -/
inductive Message where
  | message (id data : Bytes)
  | answer (queryId data : Bytes)
  | query (queryId : Bytes) (maxAnswerSize timeout : Nat) (data : Bytes)
deriving DecidableEq, Repr

/-- Derived `TlWrite` of `Message`. -/
def writeMessage : Message → Bytes
  | .message id d => writeU32 0x7d1bcd1e ++ (id ++ writeBytes d)
  | .answer q d => writeU32 0xa3fc5c03 ++ (q ++ writeBytes d)
  | .query q m t d => writeU32 0x8a794d69 ++ (q ++ (writeU64 m ++ (writeU32 t ++ writeBytes d)))

/-- Derived `TlRead` of `Message`. -/
def readMessage : Reader Message := do
  let id ← readU32
  if id = 0x7d1bcd1e then do
    let i ← readHash
    let d ← readBytes
    pure (.message i d)
  else if id = 0xa3fc5c03 then do
    let q ← readHash
    let d ← readBytes
    pure (.answer q d)
  else if id = 0x8a794d69 then do
    let q ← readHash
    let m ← readU64
    let t ← readU32
    let d ← readBytes
    pure (.query q m t d)
  else fail

/-- `RaptorQFecType` (proto/rldp.rs:56-62). -/
structure FecType where
  totalLen : Nat
  packetLen : Nat
  packetCount : Nat
deriving DecidableEq, Repr

def writeFec (f : FecType) : Bytes :=
  writeU32 0x8b93a7e0 ++ (writeU32 f.totalLen ++ (writeU32 f.packetLen ++ writeU32 f.packetCount))

def readFec : Reader FecType := do
  let id ← readU32
  if id = 0x8b93a7e0 then do
    let t ← readU32
    let l ← readU32
    let c ← readU32
    pure ⟨t, l, c⟩
  else fail

/-- `incoming_transfer::MessagePart` (incoming_transfer.rs:161-167). -/
structure Part where
  fec : FecType
  part : Nat
  totalSize : Nat
  seqno : Nat
  data : Bytes
deriving DecidableEq, Repr

/-- `proto::rldp::MessagePart` (proto/rldp.rs:30-54). -/
inductive PartMsg where
  | part (id : Bytes) (p : Part)
  | confirm (id : Bytes) (part seqno : Nat)
  | complete (id : Bytes) (part : Nat)
deriving DecidableEq, Repr

/-- Derived `TlWrite` of `MessagePart`. -/
def writePartMsg : PartMsg → Bytes
  | .part id p => writeU32 0x185c22cc ++ (id ++ (writeFec p.fec ++ (writeU32 p.part ++
      (writeU64 p.totalSize ++ (writeU32 p.seqno ++ writeBytes p.data)))))
  | .confirm id p s => writeU32 0xf582dc58 ++ (id ++ (writeU32 p ++ writeU32 s))
  | .complete id p => writeU32 0xbc0cb2bf ++ (id ++ writeU32 p)

/-- Derived `TlRead` of `MessagePart`. -/
def readPartMsg : Reader PartMsg := do
  let id ← readU32
  if id = 0x185c22cc then do
    let i ← readHash
    let f ← readFec
    let p ← readU32
    let t ← readU64
    let s ← readU32
    let d ← readBytes
    pure (.part i ⟨f, p, t, s, d⟩)
  else if id = 0xf582dc58 then do
    let i ← readHash
    let p ← readU32
    let s ← readU32
    pure (.confirm i p s)
  else if id = 0xbc0cb2bf then do
    let i ← readHash
    let p ← readU32
    pure (.complete i p)
  else fail

/-- `OwnedRldpMessageQuery` (transfers_cache.rs:600-604). -/
structure OwnedQuery where
  queryId : Bytes
  maxAnswerSize : Nat
  data : Bytes
deriving DecidableEq, Repr

/-- `OwnedRldpMessageQuery::from_data` (transfers_cache.rs:607-644). `BytesMeta::read_from`
(external) is taken to check that a whole `bytes` value follows and to leave the offset at its start,
so the bytes copied to the front are those `readBytes` returns. -/
def fromData (d : Bytes) : Option OwnedQuery :=
  match readU32 d with
  | none => none
  | some (id, r) =>
    if id = 0x8a794d69 then
      match readHash r with
      | none => none
      | some (q, r1) =>
        match readU64 r1 with
        | none => none
        | some (m, r2) =>
          match readU32 r2 with
          | none => none
          | some (_, r3) =>
            match readBytes r3 with
            | none => none
            | some (b, _) => some ⟨q, m, b⟩
    else none

end Verif.Rldp
