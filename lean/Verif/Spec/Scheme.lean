import Verif.Model.Bytes
import Verif.Model.Num

/-!
# The TL scheme of the protocol

`declarations` is the text of `src/scheme.tl` (comments and the built-in types left out, line breaks replaced
by spaces). The rest says what the text means: how a value of a declared type is written, by the rules of the
TL language. Nothing here refers to the model.
-/
namespace Verif.Spec.Scheme

/-- A text as the list of its character codes. -/
abbrev Text := List Nat

/-- `tl!"abc"` is `[97, 98, 99]`. -/
macro:max "tl!" s:str : term => do
  let codes := s.getString.toList.map fun x => Lean.Syntax.mkNumLit (toString x.toNat)
  `(([$(codes.toArray),*] : List Nat))

/-- `src/scheme.tl:22-176`. -/
def declarations : List Text := [
  tl!"fec.raptorQ data_size:int symbol_size:int symbols_count:int = fec.Type",
  tl!"pub.ed25519 key:int256 = PublicKey",
  tl!"pub.aes key:int256 = PublicKey",
  tl!"pub.overlay name:bytes = PublicKey",
  tl!"adnl.id.short id:int256 = adnl.id.Short",
  tl!"adnl.address.udp ip:int port:int = adnl.Address",
  tl!"adnl.address.udp6 ip:int128 port:int = adnl.Address",
  tl!"adnl.addressList addrs:(vector adnl.Address) version:int reinit_date:int priority:int expire_at:int = adnl.AddressList",
  tl!"adnl.node id:PublicKey addr_list:adnl.addressList = adnl.Node",
  tl!"adnl.nodes nodes:(vector adnl.node) = adnl.Nodes",
  tl!"adnl.packetContents rand1:bytes flags:# from:flags.0?PublicKey from_short:flags.1?adnl.id.short message:flags.2?adnl.Message messages:flags.3?(vector adnl.Message) address:flags.4?adnl.addressList priority_address:flags.5?adnl.addressList seqno:flags.6?long confirm_seqno:flags.7?long recv_addr_list_version:flags.8?int recv_priority_addr_list_version:flags.9?int reinit_date:flags.10?int dst_reinit_date:flags.10?int signature:flags.11?bytes rand2:bytes = adnl.PacketContents",
  tl!"adnl.message.createChannel key:int256 date:int = adnl.Message",
  tl!"adnl.message.confirmChannel key:int256 peer_key:int256 date:int = adnl.Message",
  tl!"adnl.message.custom data:bytes = adnl.Message",
  tl!"adnl.message.nop = adnl.Message",
  tl!"adnl.message.reinit date:int = adnl.Message",
  tl!"adnl.message.query query_id:int256 query:bytes = adnl.Message",
  tl!"adnl.message.answer query_id:int256 answer:bytes = adnl.Message",
  tl!"adnl.message.part hash:int256 total_size:int offset:int data:bytes = adnl.Message",
  tl!"adnl.pong value:long = adnl.Pong",
  tl!"adnl.ping value:long = adnl.Pong",
  tl!"rldp.messagePart transfer_id:int256 fec_type:fec.Type part:int total_size:long seqno:int data:bytes = rldp.MessagePart",
  tl!"rldp.confirm transfer_id:int256 part:int seqno:int = rldp.MessagePart",
  tl!"rldp.complete transfer_id:int256 part:int = rldp.MessagePart",
  tl!"rldp.message id:int256 data:bytes = rldp.Message",
  tl!"rldp.query query_id:int256 max_answer_size:long timeout:int data:bytes = rldp.Message",
  tl!"rldp.answer query_id:int256 data:bytes = rldp.Message",
  tl!"dht.node id:PublicKey addr_list:adnl.addressList version:int signature:bytes = dht.Node",
  tl!"dht.nodes nodes:(vector dht.node) = dht.Nodes",
  tl!"dht.key id:int256 name:bytes idx:int = dht.Key",
  tl!"dht.updateRule.signature = dht.UpdateRule",
  tl!"dht.updateRule.anybody = dht.UpdateRule",
  tl!"dht.updateRule.overlayNodes = dht.UpdateRule",
  tl!"dht.keyDescription key:dht.key id:PublicKey update_rule:dht.UpdateRule signature:bytes = dht.KeyDescription",
  tl!"dht.value key:dht.keyDescription value:bytes ttl:int signature:bytes = dht.Value",
  tl!"dht.pong random_id:long = dht.Pong",
  tl!"dht.valueNotFound nodes:dht.nodes = dht.ValueResult",
  tl!"dht.valueFound value:dht.Value = dht.ValueResult",
  tl!"dht.stored = dht.Stored",
  tl!"dht.message node:dht.node = dht.Message",
  tl!"dht.ping random_id:long = dht.Pong",
  tl!"dht.store value:dht.value = dht.Stored",
  tl!"dht.findNode key:int256 k:int = dht.Nodes",
  tl!"dht.findValue key:int256 k:int = dht.ValueResult",
  tl!"dht.getSignedAddressList = dht.Node",
  tl!"dht.query node:dht.node = True",
  tl!"overlay.node.toSign id:adnl.id.short overlay:int256 version:int = overlay.node.ToSign",
  tl!"overlay.node id:PublicKey overlay:int256 version:int signature:bytes = overlay.Node",
  tl!"overlay.nodes nodes:(vector overlay.node) = overlay.Nodes",
  tl!"overlay.message overlay:int256 = overlay.Message",
  tl!"overlay.fec.received hash:int256 = overlay.Broadcast",
  tl!"overlay.fec.completed hash:int256 = overlay.Broadcast",
  tl!"overlay.broadcast.id src:int256 data_hash:int256 flags:int = overlay.broadcast.Id",
  tl!"overlay.broadcastFec.id src:int256 type:int256 data_hash:int256 size:int flags:int = overlay.broadcastFec.Id",
  tl!"overlay.broadcastFec.partId broadcast_hash:int256 data_hash:int256 seqno:int = overlay.broadcastFec.PartId",
  tl!"overlay.broadcast.toSign hash:int256 date:int = overlay.broadcast.ToSign",
  tl!"overlay.certificate issued_by:PublicKey expire_at:int max_size:int signature:bytes = overlay.Certificate",
  tl!"overlay.emptyCertificate = overlay.Certificate",
  tl!"overlay.unicast data:bytes = overlay.Broadcast",
  tl!"overlay.broadcast src:PublicKey certificate:overlay.Certificate flags:int data:bytes date:int signature:bytes = overlay.Broadcast",
  tl!"overlay.broadcastFec src:PublicKey certificate:overlay.Certificate data_hash:int256 data_size:int flags:int data:bytes seqno:int fec:fec.Type date:int signature:bytes = overlay.Broadcast",
  tl!"overlay.broadcastFecShort src:PublicKey certificate:overlay.Certificate broadcast_hash:int256 part_data_hash:int256 seqno:int signature:bytes = overlay.Broadcast",
  tl!"overlay.broadcastNotFound = overlay.Broadcast",
  tl!"overlay.getRandomPeers peers:overlay.nodes = overlay.Nodes",
  tl!"overlay.query overlay:int256 = True",
  tl!"tonNode.shardPublicOverlayId workchain:int shard:long zero_state_file_hash:int256 = tonNode.ShardPublicOverlayId",
  tl!"catchain.firstblock unique_hash:int256 nodes:(vector int256) = catchain.FirstBlock"]

/-! ### Constructor ids: CRC-32 of the declaration without parentheses -/

def crcByte (c : Nat) : Nat → Nat
  | 0 => c
  | k + 1 => crcByte (if c % 2 = 1 then (c / 2) ^^^ 0xedb88320 else c / 2) k

def crc32 (t : Text) : Nat :=
  (t.foldl (fun c b => crcByte (c ^^^ b) 8) 0xffffffff) ^^^ 0xffffffff

/-- 40 and 41 are the parentheses. -/
def idOf (decl : Text) : Nat := crc32 (decl.filter fun x => x ≠ 40 ∧ x ≠ 41)

/-! ### Reading declarations -/

inductive Ty where
  /-- `int` and `#` -/
  | int
  | long
  | int128
  | int256
  | bytes
  /-- lower case: a constructor, written without its id -/
  | bare (con : Text)
  /-- upper case: a type, written as any of its constructors with the id -/
  | boxed (type : Text)
  | vector (t : Ty)
  /-- `flags.bit?t` -/
  | cond (bit : Nat) (t : Ty)
deriving DecidableEq, Repr

structure Decl where
  id : Nat
  fields : List (Text × Ty)
  type : Text
deriving DecidableEq, Repr

/-- What is before and what is after the first `x`. -/
def cut (x : Nat) : Text → Text × Text
  | [] => ([], [])
  | y :: t => if y = x then ([], t) else ((y :: (cut x t).1), (cut x t).2)

/-- The part of a name after its last dot (46). -/
def lastName (t : Text) : Text := t.foldl (fun acc x => if x = 46 then [] else acc ++ [x]) []

def isUpper (x : Nat) : Bool := decide (65 ≤ x ∧ x ≤ 90)

def parseSimple (t : Text) : Ty :=
  if t = tl!"int" ∨ t = tl!"#" then .int
  else if t = tl!"long" then .long
  else if t = tl!"int128" then .int128
  else if t = tl!"int256" then .int256
  else if t = tl!"bytes" then .bytes
  else if isUpper ((lastName t).head?.getD 0) then .boxed t
  else .bare t

/-- `(vector T)` or a simple type. -/
def parseVector (t : Text) : Ty :=
  if t.take 8 = tl!"(vector " then .vector (parseSimple (t.drop 8).dropLast) else parseSimple t

def digit (x : Nat) : Nat := x - 48

/-- `flags.N?T` or any other type. -/
def parseTy (t : Text) : Ty :=
  if t.take 6 = tl!"flags." then
    let r := cut 63 (t.drop 6)
    .cond (r.1.foldl (fun n x => 10 * n + digit x) 0) (parseVector r.2)
  else parseVector t

/-- Words separated by spaces outside parentheses. -/
def wordsFrom (depth : Nat) (word : Text) : Text → List Text
  | [] => [word]
  | x :: t =>
    if x = 40 then wordsFrom (depth + 1) (word ++ [x]) t
    else if x = 41 then wordsFrom (depth - 1) (word ++ [x]) t
    else if x = 32 ∧ depth = 0 then word :: wordsFrom 0 [] t
    else wordsFrom depth (word ++ [x]) t

def words (t : Text) : List Text := wordsFrom 0 [] t

def parseField (w : Text) : Text × Ty := ((cut 58 w).1, parseTy (cut 58 w).2)

/-- `name field … field = type`. -/
def parseDecl (t : Text) : Decl :=
  let ws := words t
  { id := idOf t, fields := ((ws.drop 1).takeWhile (· ≠ [61])).map parseField, type := ws.getLast?.getD [] }

/-- The declaration of a constructor or function. -/
def find (con : Text) : Option Decl :=
  (declarations.find? fun d => (cut 32 d).1 = con).map fun d => parseDecl d

/-! ### Writing values -/

inductive Val where
  /-- `int`, `#`, `long` -/
  | num (n : Nat)
  /-- `int128`, `int256`, `bytes` -/
  | raw (b : Bytes)
  /-- a constructor with its fields in order; absent conditional fields are left out -/
  | obj (con : Text) (fields : List (Text × Val))
  | vec (l : List Val)

/-- Zero bytes up to a multiple of four. -/
def padded (b : Bytes) : Bytes := b ++ List.replicate ((4 - b.length % 4) % 4) 0

def writeBytes (b : Bytes) : Option Bytes :=
  if b.length < 254 then some (padded (leBytes 1 b.length ++ b))
  else if b.length < 2 ^ 24 then some (padded (leBytes 1 254 ++ leBytes 3 b.length ++ b))
  else none

/-- The value of the field `flags`. -/
def flagsIn (fields : List (Text × Val)) : Nat :=
  match fields.find? (fun f => f.1 = tl!"flags") with
  | some (_, .num n) => n
  | _ => 0

/-- The declared fields present under these flags. -/
def present (flags : Nat) (fields : List (Text × Ty)) : List (Text × Ty) :=
  fields.filterMap fun f =>
    match f.2 with
    | .cond bit t => if flags.testBit bit then some (f.1, t) else none
    | _ => some f

mutual

/-- A value of a type; `none` if it is not one. -/
def write : Val → Ty → Option Bytes
  | .num n, .int => if n < 2 ^ 32 then some (leBytes 4 n) else none
  | .num n, .long => if n < 2 ^ 64 then some (leBytes 8 n) else none
  | .raw b, .int128 => if b.length = 16 then some b else none
  | .raw b, .int256 => if b.length = 32 then some b else none
  | .raw b, .bytes => writeBytes b
  | .obj con fields, .bare name =>
    match find con with
    | some d => if con = name then writeFields fields (present (flagsIn fields) d.fields) else none
    | none => none
  | .obj con fields, .boxed type =>
    match find con with
    | some d =>
      if d.type = type then
        match writeFields fields (present (flagsIn fields) d.fields) with
        | some b => some (leBytes 4 d.id ++ b)
        | none => none
      else none
    | none => none
  | .vec l, .vector t =>
    match writeAll l t with
    | some b => if l.length < 2 ^ 32 then some (leBytes 4 l.length ++ b) else none
    | none => none
  | _, _ => none

/-- All fields, in the order and under the names of the declaration. -/
def writeFields : List (Text × Val) → List (Text × Ty) → Option Bytes
  | [], [] => some []
  | (name, v) :: vs, (name', t) :: ts =>
    if name = name' then
      match write v t, writeFields vs ts with
      | some a, some b => some (a ++ b)
      | _, _ => none
    else none
  | _, _ => none

def writeAll : List Val → Ty → Option Bytes
  | [], _ => some []
  | v :: vs, t =>
    match write v t, writeAll vs t with
    | some a, some b => some (a ++ b)
    | _, _ => none

end

/-- A function call: like a boxed value, the type after `=` being that of the answer. -/
def writeCall (con : Text) (fields : List (Text × Val)) : Option Bytes :=
  match find con with
  | some d => write (.obj con fields) (.boxed d.type)
  | none => none

end Verif.Spec.Scheme
