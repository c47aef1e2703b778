import Verif.Model.AdnlProto

/-!
# DHT and overlay node records on the wire: `src/proto/dht.rs`, `src/proto/overlay.rs`
-/
namespace Verif.DhtProto
open Verif.Tl Verif.Address Verif.AdnlProto

/-- `overlay::Node` (proto/overlay.rs:27-34). -/
structure ONode where
  id : PubKey
  overlay : Bytes
  version : Nat
  signature : Bytes
deriving DecidableEq, Repr

/-- Derived `TlWrite` of `overlay::Node`. -/
def writeONode (n : ONode) : Bytes :=
  writePubKey n.id ++ (n.overlay ++ (writeU32 n.version ++ writeBytes n.signature))

/-- Derived `TlRead` of `overlay::Node`. -/
def readONode : Reader ONode := do
  let id ← readPubKey
  let overlay ← readHash
  let version ← readU32
  let signature ← readBytes
  pure ⟨id, overlay, version, signature⟩

/-- `overlay::Nodes`, boxed (proto/overlay.rs:7-14). -/
def writeONodes (l : List ONode) : Bytes := writeU32 0xe487290e ++ writeVec writeONode l

/-- `deserialize_as_boxed::<overlay::Nodes>`. -/
def readONodes : Reader (List ONode) := do
  let id ← readU32
  if id = 0xe487290e then readVec readONode else fail

/-- `overlay::NodeToSign`, boxed (proto/overlay.rs, `overlay.node.toSign`). -/
def writeNodeToSign (id overlay : Bytes) (version : Nat) : Bytes :=
  writeU32 0x03d8a8e1 ++ (id ++ (overlay ++ writeU32 version))

/-- `dht::Key` (proto/dht.rs:178-184). -/
structure Key where
  id : Bytes
  name : Bytes
  idx : Nat
deriving DecidableEq, Repr

def writeKey (k : Key) : Bytes := k.id ++ (writeBytes k.name ++ writeU32 k.idx)

def readKey : Reader Key := do
  let id ← readHash
  let name ← readBytes
  let idx ← readU32
  pure ⟨id, name, idx⟩

/-- `Key`, boxed: what is hashed into the storage key. -/
def writeKeyBoxed (k : Key) : Bytes := writeU32 0xf667de8f ++ writeKey k

/-- `dht::UpdateRule` (proto/dht.rs:226-236). -/
inductive UpdateRule where
  | signature | anybody | overlayNodes
deriving DecidableEq, Repr

def writeRule : UpdateRule → Bytes
  | .signature => writeU32 0xcc9f31f7
  | .anybody => writeU32 0x61578e14
  | .overlayNodes => writeU32 0x26779383

def readRule : Reader UpdateRule := do
  let id ← readU32
  if id = 0xcc9f31f7 then pure .signature
  else if id = 0x61578e14 then pure .anybody
  else if id = 0x26779383 then pure .overlayNodes
  else fail

/-- `dht::KeyDescription` (proto/dht.rs:131-137). -/
structure KeyDesc where
  key : Key
  id : PubKey
  rule : UpdateRule
  signature : Bytes
deriving DecidableEq, Repr

def writeKeyDesc (d : KeyDesc) : Bytes :=
  writeKey d.key ++ (writePubKey d.id ++ (writeRule d.rule ++ writeBytes d.signature))

def readKeyDesc : Reader KeyDesc := do
  let key ← readKey
  let id ← readPubKey
  let rule ← readRule
  let signature ← readBytes
  pure ⟨key, id, rule, signature⟩

/-- Boxed, as signed. -/
def writeKeyDescBoxed (d : KeyDesc) : Bytes := writeU32 0x281d4e05 ++ writeKeyDesc d

/-- `dht::Value` (proto/dht.rs:86-92). -/
structure Value where
  key : KeyDesc
  value : Bytes
  ttl : Nat
  signature : Bytes
deriving DecidableEq, Repr

def writeValue (v : Value) : Bytes :=
  writeKeyDesc v.key ++ (writeBytes v.value ++ (writeU32 v.ttl ++ writeBytes v.signature))

def readValue : Reader Value := do
  let key ← readKeyDesc
  let value ← readBytes
  let ttl ← readU32
  let signature ← readBytes
  pure ⟨key, value, ttl, signature⟩

/-- Boxed, as signed. -/
def writeValueBoxed (v : Value) : Bytes := writeU32 0x90ad27cb ++ writeValue v

/-- `dht::Node` (proto/dht.rs:43-49). -/
structure DNode where
  id : PubKey
  addrList : AddrList
  version : Nat
  signature : Bytes
deriving DecidableEq

def writeDNode (n : DNode) : Bytes :=
  writePubKey n.id ++ (writeAddrList n.addrList ++ (writeU32 n.version ++ writeBytes n.signature))

def readDNode : Reader DNode := do
  let id ← readPubKey
  let addr ← readAddrList
  let version ← readU32
  let signature ← readBytes
  pure ⟨id, addr, version, signature⟩

/-- Boxed, as signed. -/
def writeDNodeBoxed (n : DNode) : Bytes := writeU32 0x84533248 ++ writeDNode n

/-- `dht::ValueResult` (proto/dht.rs:7-14). -/
inductive ValueResult where
  | found (v : Value)
  | notFound (nodes : List DNode)

/-- Derived `TlRead` of `ValueResult`; the value is boxed, the node list bare. -/
def readValueResult : Reader ValueResult := do
  let id ← readU32
  if id = 0xe40cf774 then do
    let t ← readU32
    if t = 0x90ad27cb then do
      let v ← readValue
      pure (.found v)
    else fail
  else if id = 0xa2620568 then do
    let l ← readVec readDNode
    pure (.notFound l)
  else fail

def writeValueResult : ValueResult → Bytes
  | .found v => writeU32 0xe40cf774 ++ writeValueBoxed v
  | .notFound l => writeU32 0xa2620568 ++ writeVec writeDNode l

end Verif.DhtProto
