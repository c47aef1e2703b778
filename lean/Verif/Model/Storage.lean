import Verif.Model.DhtProto
import Verif.Model.Receiver

/-!
# `src/dht/storage.rs`

An `insert` works on one map entry under the lock of its shard, so it is one step. `gc` is
`DashMap::retain`, which locks one shard after another: a step removes the expired entries of an
arbitrary set of keys, a whole collection is a step for all keys. The clock is read twice by `insert`
(`now` at the beginning, `now'` in `insert_overlay_nodes`), and is not assumed monotonic.
-/
namespace Verif.Storage
open Verif.Tl Verif.AdnlProto Verif.DhtProto

variable (c : Crypto)

/-- `StorageOptions` (storage.rs:13-16). -/
structure Opts where
  maxNameLen : Nat
  maxIndex : Nat

/-- `FastDashMap<StorageKeyId, ValueOwned>`. -/
abbrev St := AMap Bytes Value

/-- `StorageError` (storage.rs:234-250) and the errors passed on. -/
inductive Err where
  | unsupportedRule | invalidSignatureValue | invalidKeyDescription | invalidDhtKey | emptyNodes
  | expired | invalidKey | badOwner | badSignature | decode
deriving DecidableEq, Repr

/-- `NodeIdFull::verify` (node_id.rs:34-43). -/
def verifySig (p : c.Pub) (msg sig : Bytes) : Bool := decide (sig.length = 64) && c.verify p msg sig

/-- `get_ref` (storage.rs:44-52). -/
def getRef (st : St) (key : Bytes) (now : Nat) : Option Value :=
  match st.get key with
  | some v => if v.ttl > now then some v else none
  | none => none

/-- `gc` (storage.rs:80-83) on the shards with the keys in `shard`. -/
def gcPart (st : St) (shard : Bytes → Bool) (now : Nat) : St :=
  st.filter fun e => !shard e.1 || decide (e.2.ttl > now)

/-- `gc` as a whole. -/
def gc (st : St) (now : Nat) : St := gcPart st (fun _ => true) now

/-- The signature checks of `insert_signed_value` (storage.rs:89-97): the key description is signed
without its signature, the value with the one of the key and without its own. -/
def signedOk (v : Value) : Except Err Unit :=
  match Receiver.fullId c v.key.id with
  | none => .error .badOwner
  | some p =>
    if verifySig c p (writeKeyDescBoxed { v.key with signature := [] }) v.key.signature = false then
      .error .badSignature
    else if verifySig c p (writeValueBoxed { v with signature := [] }) v.signature = false then
      .error .badSignature
    else .ok ()

/-- `hash_as_boxed(value.key.key)`. -/
def storageKey (k : Key) : Bytes := c.sha (writeKeyBoxed k)

/-- `insert_signed_value` (storage.rs:86-111). -/
def insertSigned (st : St) (v : Value) : St × Except Err Bool :=
  match signedOk c v with
  | .error e => (st, .error e)
  | .ok _ =>
    match st.get (storageKey c v.key.key) with
    | some old =>
      if old.ttl < v.ttl then (st.put (storageKey c v.key.key) v, .ok true) else (st, .ok false)
    | none => (st.put (storageKey c v.key.key) v, .ok true)

/-- `verify_overlay_node` (overlay_id.rs:62-79). -/
def verifyONode (overlay : Bytes) (n : ONode) : Bool :=
  decide (n.overlay = overlay) &&
  match Receiver.fullId c n.id with
  | none => false
  | some p => verifySig c p (writeNodeToSign (Node.shortId c p) n.overlay n.version) n.signature

/-- One new node in `make_overlay_nodes_value` (storage.rs:190-201). -/
def mergeNode (m : AMap PubKey ONode) (n : ONode) : AMap PubKey ONode :=
  match m.get n.id with
  | some old => if old.version < n.version then m.put n.id n else m
  | none => m.put n.id n

/-- The map built in `make_overlay_nodes_value` (storage.rs:182-201). -/
def merge (old new : List ONode) : AMap PubKey ONode :=
  new.foldl mergeNode (old.foldl (fun m n => m.put n.id n) [])

/-- `make_overlay_nodes_value` (storage.rs:175-221); `order` is the iteration order of the hash map. -/
def makeValue (order : List ONode → List ONode) (v : Value) (new old : List ONode) : Value :=
  { v with value := writeONodes (order ((merge old new).map (·.2))) }

/-- `"nodes"` (`KEY_NODES`, dht/mod.rs). -/
def keyNodes : Bytes := [110, 111, 100, 101, 115]

/-- `deserialize_overlay_nodes` (storage.rs:223-230). -/
def decodeNodes (b : Bytes) : Option (List ONode) := (readONodes b).map (·.1)

def isOverlay : PubKey → Bool
  | .overlay _ => true
  | _ => false

/-- The checks of `insert_overlay_nodes` before the storage is used (storage.rs:119-150): the valid new
nodes. -/
def overlayOk (v : Value) : Except Err (List ONode) :=
  if v.signature ≠ [] ∨ v.key.signature ≠ [] then .error .invalidSignatureValue
  else if isOverlay v.key.id = false then .error .invalidKeyDescription
  else if v.key.key ≠ ⟨c.sha (writePubKey v.key.id), keyNodes, 0⟩ then .error .invalidDhtKey
  else
    match decodeNodes v.value with
    | none => .error .decode
    | some l =>
      if l.filter (verifyONode c (c.sha (writePubKey v.key.id))) = [] then .error .emptyNodes
      else .ok (l.filter (verifyONode c (c.sha (writePubKey v.key.id))))

/-- `insert_overlay_nodes` (storage.rs:116-171). -/
def insertOverlay (order : List ONode → List ONode) (now' : Nat) (st : St) (v : Value) :
    St × Except Err Bool :=
  match overlayOk c v with
  | .error e => (st, .error e)
  | .ok new =>
    match st.get (storageKey c v.key.key) with
    | some old =>
      if old.ttl < now' then (st.put (storageKey c v.key.key) (makeValue order v new []), .ok true)
      else if old.ttl > v.ttl then (st, .ok false)
      else
        match decodeNodes old.value with
        | none => (st, .error .decode)
        | some l => (st.put (storageKey c v.key.key) (makeValue order v new l), .ok true)
    | none => (st.put (storageKey c v.key.key) (makeValue order v new []), .ok true)

/-- `insert` (storage.rs:57-77). -/
def insert (o : Opts) (order : List ONode → List ONode) (now now' : Nat) (st : St) (v : Value) :
    St × Except Err Bool :=
  if v.ttl ≤ now then (st, .error .expired)
  else if v.key.key.name.length > o.maxNameLen ∨ v.key.key.idx > o.maxIndex then
    (st, .error .invalidKey)
  else if v.key.key.id ≠ c.sha (writePubKey v.key.id) then (st, .error .invalidKey)
  else
    match v.key.rule with
    | .signature => insertSigned c st v
    | .overlayNodes => insertOverlay c order now' st v
    | .anybody => (st, .error .unsupportedRule)

/-- An operation on the storage. -/
inductive Op where
  | insert (order : List ONode → List ONode) (now now' : Nat) (v : Value)
  | gc (shard : Bytes → Bool) (now : Nat)

def step (o : Opts) (st : St) : Op → St
  | .insert order now now' v => (insert c o order now now' st v).1
  | .gc shard now => gcPart st shard now

def run (o : Opts) (st : St) (ops : List Op) : St := ops.foldl (step c o) st

end Verif.Storage
