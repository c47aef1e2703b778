import Verif.Model.DhtRpc

/-!
# Publishing in the DHT: `src/dht/entry.rs`, `src/dht/futures.rs`, and the callers in `src/dht/node.rs`
-/
namespace Verif.Dht
open Verif.Tl Verif.Address Verif.AdnlProto Verif.DhtProto Verif.Storage

variable {c : Crypto}

/-- `EntryWithData` (entry.rs:104-108) with its `Entry` (entry.rs:17-22). -/
structure Entry where
  id : Bytes
  name : Bytes
  keyIndex : Nat
  data : Bytes
  expireAt : Option Nat

/-- `Entry::key` (entry.rs:95-101). -/
def Entry.key (e : Entry) : Key := ⟨e.id, e.name, e.keyIndex⟩

/-- `with_ttl` (entry.rs:118-121); `none` is an overflow panic. -/
def Entry.withTtl (e : Entry) (m : Build) (now ttl : Nat) : Option Entry :=
  (addU32 m now ttl).map fun t => { e with expireAt := some t }

/-- `key.full_id().as_tl()` (node_id.rs:26-30). -/
def fullTl (c : Crypto) (sec : c.Sec) : PubKey := .ed25519 (c.pubBytes (c.pubOf sec))

/-- `make_value` (entry.rs:152-170); `none` is an overflow panic of `now() + value_ttl_sec`. -/
def Entry.makeValue (c : Crypto) (m : Build) (now valueTtl : Nat) (e : Entry) (sec : c.Sec) : Option Value :=
  let ttl := match e.expireAt with
    | some t => some t
    | none => addU32 m now valueTtl
  ttl.map fun t => ⟨⟨e.key, fullTl c sec, .signature, []⟩, e.data, t, []⟩

/-- Signing the key description and then the value (entry.rs:126-133, 142-147). -/
def signValue (c : Crypto) (sec : c.Sec) (v : Value) : Value :=
  let k := { v.key with signature := c.sign sec (writeKeyDescBoxed v.key) }
  let v := { v with key := k }
  { v with signature := c.sign sec (writeValueBoxed v) }

/-- `sign` (entry.rs:124-134). -/
def Entry.sign (c : Crypto) (m : Build) (now valueTtl : Nat) (e : Entry) (sec : c.Sec) : Option Value :=
  (e.makeValue c m now valueTtl sec).map (signValue c sec)

/-- `StoreValue::new` (futures.rs:29-42): the value goes into the own storage first; then the query to be sent.
`None` is the error of `insert`. -/
def storeNew (o : Opts c) (e : Env c) (s : State c) (v : Value) : State c × Option Bytes :=
  match Storage.insert c o.storage e.order e.now e.now' s.storage v with
  | (st, .ok _) => ({ s with storage := st }, some (writeQuery (.store v)))
  | (st, .error _) => ({ s with storage := st }, none)

/-- The queries made by the first poll of `StoreValue` (futures.rs:63-72): one to every known peer. -/
def storeQueries (s : State c) (query : Bytes) : List (Bytes × Bytes) :=
  (s.known.index.map fun peer => (peer, query))

/-- `DhtStoreValueWithCheck::poll` (futures.rs:111-136) on the values the lookup gives, in order; the flag
`check_all` (futures.rs:90, 96-99) is not looked at. -/
def checkStored {T E : Type} (check : KeyDesc → T → Except E Bool) (_checkAll : Bool) :
    List (KeyDesc × T) → Except E Bool
  | [] => .ok false
  | (k, v) :: rest =>
    match check k v with
    | .ok true => .ok true
    | .ok false => checkStored check _checkAll rest
    | .error e => .error e

/-- `"address"` (`KEY_ADDRESS`, dht/mod.rs). -/
def keyAddress : Bytes := [97, 100, 100, 114, 101, 115, 115]

/-- `adnl.addressList`, boxed. -/
def writeAddrListBoxed (l : AddrList) : Bytes := writeU32 0x2227e658 ++ writeAddrList l

/-- `tl_proto::deserialize::<BoxedWrapper<AddressList>>`. -/
def readAddrListBoxed (b : Bytes) : Option AddrList :=
  match readU32 b with
  | some (0x2227e658, rest) => (readAddrList rest).map (·.1)
  | _ => none

/-- The entry made by `store_address` (node.rs:424-433). -/
def addressEntry (c : Crypto) (now startTime : Nat) (sec : c.Sec) (addr : SockAddr) : Entry :=
  ⟨Node.shortId c (c.pubOf sec), keyAddress, 0,
    writeAddrListBoxed ⟨some (toAddr addr), now, startTime, 0⟩, none⟩

/-- The value made by `store_overlay_node` (node.rs:379-399) once the node is verified; `none` is an overflow
panic. -/
def overlayValue (c : Crypto) (m : Build) (now valueTtl : Nat) (fullId : Bytes) (node : ONode) : Option Value :=
  (addU32 m now valueTtl).map fun t =>
    ⟨⟨⟨c.sha (writePubKey (.overlay fullId)), keyNodes, 0⟩, .overlay fullId, .overlayNodes, []⟩,
      writeONodes [node], t, []⟩

/-- `store_overlay_node` up to the queries (node.rs:371-401); `none` is any error. -/
def storeOverlayNode (o : Opts c) (e : Env c) (valueTtl : Nat) (s : State c) (fullId : Bytes) (node : ONode) :
    State c × Option Bytes :=
  if verifyONode c (c.sha (writePubKey (.overlay fullId))) node = false then (s, none)
  else
    match overlayValue c o.adnl.build e.now valueTtl fullId node with
    | none => (s, none)
    | some v => storeNew o e s v

/-- `sign_local_node(build_address_list())` (node.rs:562-571, adnl/node/mod.rs:289-296). -/
def localNode (c : Crypto) (now startTime : Nat) (addr : SockAddr) (sec : c.Sec) : DNode :=
  let n : DNode := ⟨fullTl c sec, ⟨some (toAddr addr), now, startTime, 0⟩, now, []⟩
  { n with signature := c.sign sec (writeDNodeBoxed n) }

end Verif.Dht
