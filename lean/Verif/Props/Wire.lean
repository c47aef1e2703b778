import Verif.Proofs.OverlayProto
import Verif.Props.Scheme
import Verif.Props.DhtNode

/-!
# C138: records read back as written

The readers of ADNL, RLDP, the DHT and overlays against their writers. `wf` are the widths of the fields of the Rust types.
-/
namespace Verif.Wire
open Verif.Tl Verif.Address Verif.AdnlProto Verif.DhtProto

/-- What was written is read back, and what follows it is left. -/
def ReadsBack {α : Type} (rd : Reader α) (wr : α → Bytes) (ok : α → Prop) : Prop :=
  ∀ x, ok x → ∀ rest, rd (wr x ++ rest) = some (x, rest)

/-- No encoding of a value is the beginning of an encoding of another. -/
def Unambiguous {α : Type} (wr : α → Bytes) (ok : α → Prop) : Prop :=
  ∀ x y, ok x → ok y → ∀ r r', wr x ++ r = wr y ++ r' → x = y ∧ r = r'

/-- Whatever bytes a value was read from, written again it is read as the same value. -/
def Stable {α : Type} (rd : Reader α) (wr : α → Bytes) : Prop :=
  ∀ b x r, rd b = some (x, r) → ∀ rest, rd (wr x ++ rest) = some (x, rest)

/-- Only what the writer writes is read. -/
def Canonical {α : Type} (rd : Reader α) (wr : α → Bytes) : Prop :=
  ∀ b x r, rd b = some (x, r) → b = wr x ++ r

theorem ReadsBack.unambiguous {α : Type} {rd : Reader α} {wr : α → Bytes} {ok : α → Prop} (h : ReadsBack rd wr ok) :
    Unambiguous wr ok := by
  intro x y hx hy r r' e
  have h1 := h x hx r
  rw [e, h y hy r'] at h1
  simpa [eq_comm] using h1

theorem ReadsBack.stable {α : Type} {rd : Reader α} {wr : α → Bytes} {ok : α → Prop} (h : ReadsBack rd wr ok)
    (hy : Yields rd ok) : Stable rd wr :=
  fun _ x _ hb rest => h x (hy _ _ _ hb) rest

/-! ### What is read has the widths of its fields -/

theorem u64_yields : Yields readU64 (· < 2 ^ 64) := by
  refine Yields.bind (Yields.raw 8) fun d hd => Yields.pure ?_
  have := ofLE_lt d
  rw [hd] at this
  exact this

theorem adnlMessage_yields : Yields AdnlProto.readMessage AdnlProto.Message.wf := by
  refine Yields.bind Yields.u32 fun _ _ => Yields.ite ?_ (Yields.ite ?_ (Yields.ite ?_ (Yields.ite ?_ (Yields.ite ?_
    (Yields.ite ?_ (Yields.ite ?_ (Yields.ite ?_ Yields.fail)))))))
  · exact Yields.bind Yields.hash fun _ h1 => Yields.bind Yields.bytes fun _ h2 => Yields.pure ⟨h1, h2⟩
  · exact Yields.bind Yields.bytes fun _ h => Yields.pure h
  · exact Yields.bind Yields.hash fun _ h1 => Yields.bind Yields.hash fun _ h2 => Yields.bind Yields.u32 fun _ h3 =>
      Yields.pure ⟨h1, h2, h3⟩
  · exact Yields.bind Yields.hash fun _ h1 => Yields.bind Yields.u32 fun _ h2 => Yields.bind Yields.u32 fun _ h3 =>
      Yields.bind Yields.bytes fun _ h4 => Yields.pure ⟨h1, h2, h3, h4⟩
  · exact Yields.bind Yields.hash fun _ h1 => Yields.bind Yields.u32 fun _ h2 => Yields.pure ⟨h1, h2⟩
  · exact Yields.bind Yields.hash fun _ h1 => Yields.bind Yields.bytes fun _ h2 => Yields.pure ⟨h1, h2⟩
  · exact Yields.pure trivial
  · exact Yields.bind Yields.u32 fun _ h => Yields.pure h

theorem addr_yields : Yields readAddr (fun a => a.ip < 2 ^ 32 ∧ a.port < 2 ^ 32) :=
  Yields.bind Yields.u32 fun _ _ => Yields.ite
    (Yields.bind Yields.u32 fun _ h1 => Yields.bind Yields.u32 fun _ h2 => Yields.pure ⟨h1, h2⟩) Yields.fail

theorem addrList_yields : Yields readAddrList addrListWf :=
  Yields.bind Yields.u32 fun n _ => Yields.bind (Yields.readN addr_yields n) fun _ hl =>
    Yields.bind Yields.u32 fun _ h1 => Yields.bind Yields.u32 fun _ h2 => Yields.bind Yields.u32 fun _ _ =>
      Yields.bind Yields.u32 fun _ h3 => Yields.pure
        ⟨fun a ha => hl.2 a (List.mem_of_head? ha), h1, h2, h3⟩

theorem dnode_yields : Yields readDNode DNode.wf :=
  Yields.bind pubKey_yields fun _ h1 => Yields.bind addrList_yields fun _ h2 => Yields.bind Yields.u32 fun _ h3 =>
    Yields.bind Yields.bytes fun _ h4 => Yields.pure ⟨h1, h2, h3, h4⟩

/-- Widths of the fields of an answer to `findValue`. -/
def resultOk : ValueResult → Prop
  | .found v => v.wf
  | .notFound l => l.length < 2 ^ 32 ∧ ∀ n ∈ l, DNode.wf n

theorem result_yields : Yields readValueResult resultOk :=
  Yields.bind Yields.u32 fun _ _ => Yields.ite
    (Yields.bind Yields.u32 fun _ _ => Yields.ite (Yields.bind value_yields fun _ h => Yields.pure h) Yields.fail)
    (Yields.ite (Yields.bind (Yields.vec dnode_yields) fun _ h => Yields.pure h) Yields.fail)

theorem fec_yields : Yields Rldp.readFec Rldp.FecType.wf :=
  Yields.bind Yields.u32 fun _ _ => Yields.ite
    (Yields.bind Yields.u32 fun _ h1 => Yields.bind Yields.u32 fun _ h2 => Yields.bind Yields.u32 fun _ h3 =>
      Yields.pure ⟨h1, h2, h3⟩) Yields.fail

theorem rldpMessage_yields : Yields Rldp.readMessage Rldp.Message.wf := by
  refine Yields.bind Yields.u32 fun _ _ => Yields.ite ?_ (Yields.ite ?_ (Yields.ite ?_ Yields.fail))
  · exact Yields.bind Yields.hash fun _ h1 => Yields.bind Yields.bytes fun _ h2 => Yields.pure ⟨h1, h2⟩
  · exact Yields.bind Yields.hash fun _ h1 => Yields.bind Yields.bytes fun _ h2 => Yields.pure ⟨h1, h2⟩
  · exact Yields.bind Yields.hash fun _ h1 => Yields.bind u64_yields fun _ h2 => Yields.bind Yields.u32 fun _ h3 =>
      Yields.bind Yields.bytes fun _ h4 => Yields.pure ⟨h1, h2, h3, h4⟩

theorem partMsg_yields : Yields Rldp.readPartMsg Rldp.PartMsg.wf := by
  refine Yields.bind Yields.u32 fun _ _ => Yields.ite ?_ (Yields.ite ?_ (Yields.ite ?_ Yields.fail))
  · exact Yields.bind Yields.hash fun _ h1 => Yields.bind fec_yields fun _ h2 => Yields.bind Yields.u32 fun _ h3 =>
      Yields.bind u64_yields fun _ h4 => Yields.bind Yields.u32 fun _ h5 => Yields.bind Yields.bytes fun _ h6 =>
        Yields.pure ⟨h1, h2, h3, h4, h5, h6⟩
  · exact Yields.bind Yields.hash fun _ h1 => Yields.bind Yields.u32 fun _ h2 => Yields.bind Yields.u32 fun _ h3 =>
      Yields.pure ⟨h1, h2, h3⟩
  · exact Yields.bind Yields.hash fun _ h1 => Yields.bind Yields.u32 fun _ h2 => Yields.pure ⟨h1, h2⟩

theorem ordinary_yields : Yields Overlay.readOrdinary Overlay.Ordinary.wf :=
  Yields.bind pubKey_yields fun _ h1 => Yields.bind Overlay.certificate_yields fun _ h2 => Yields.bind Yields.u32 fun _ h3 =>
    Yields.bind Yields.bytes fun _ h4 => Yields.bind Yields.u32 fun _ h5 => Yields.bind Yields.bytes fun _ h6 =>
      Yields.pure ⟨h1, h2, h3, h4, h5, h6⟩

theorem fecPart_yields : Yields Overlay.readFecPart Overlay.FecPart.wf :=
  Yields.bind pubKey_yields fun _ h1 => Yields.bind Overlay.certificate_yields fun _ h2 => Yields.bind Yields.hash fun _ h3 =>
    Yields.bind Yields.u32 fun _ h4 => Yields.bind Yields.u32 fun _ h5 => Yields.bind Yields.bytes fun _ h6 =>
      Yields.bind Yields.u32 fun _ h7 => Yields.bind fec_yields fun _ h8 => Yields.bind Yields.u32 fun _ h9 =>
        Yields.bind Yields.bytes fun _ h10 => Yields.pure ⟨h1, h2, h3, h4, h5, h6, h7, h8, h9, h10⟩

theorem broadcast_yields : Yields Overlay.readBroadcast Overlay.Broadcast.wf := by
  refine Yields.bind Yields.u32 fun _ _ => Yields.ite ?_ (Yields.ite ?_ (Yields.ite ?_ (Yields.ite ?_ (Yields.ite ?_
    (Yields.ite ?_ (Yields.ite ?_ Yields.fail))))))
  · exact Yields.bind ordinary_yields fun _ h => Yields.pure h
  · exact Yields.bind fecPart_yields fun _ h => Yields.pure h
  · exact Yields.bind pubKey_yields fun _ h1 => Yields.bind Overlay.certificate_yields fun _ h2 =>
      Yields.bind Yields.hash fun _ h3 => Yields.bind Yields.hash fun _ h4 => Yields.bind Yields.u32 fun _ h5 =>
        Yields.bind Yields.bytes fun _ h6 => Yields.pure ⟨h1, h2, h3, h4, h5, h6⟩
  · exact Yields.pure trivial
  · exact Yields.bind Yields.hash fun _ h => Yields.pure h
  · exact Yields.bind Yields.hash fun _ h => Yields.pure h
  · exact Yields.bind Yields.bytes fun _ h => Yields.pure h

theorem peersQuery_yields : Yields Overlay.readGetRandomPeers (fun l => l.length < 2 ^ 32 ∧ ∀ n ∈ l, ONode.wf n) :=
  Yields.bind Yields.u32 fun _ _ => Yields.ite (Yields.vec onode_yields) Yields.fail

/-! ### C138 -/

/-- Widths of a list of overlay nodes. -/
def nodesOk (l : List ONode) : Prop := l.length < 2 ^ 32 ∧ ∀ n ∈ l, ONode.wf n

/-- A statement about every kind of record that is both read and written. -/
structure Each (P : ∀ {α : Type}, Reader α → (α → Bytes) → (α → Prop) → Prop) : Prop where
  key : P readPubKey writePubKey PubKey.wf
  message : P AdnlProto.readMessage AdnlProto.writeMessage AdnlProto.Message.wf
  addresses : P readAddrList writeAddrList addrListWf
  rldpMessage : P Rldp.readMessage Rldp.writeMessage Rldp.Message.wf
  rldpPart : P Rldp.readPartMsg Rldp.writePartMsg Rldp.PartMsg.wf
  dhtKey : P readKey writeKey DhtProto.Key.wf
  dhtDescription : P readKeyDesc writeKeyDesc KeyDesc.wf
  dhtValue : P readValue writeValue Value.wf
  dhtNode : P readDNode writeDNode DNode.wf
  dhtResult : P readValueResult writeValueResult resultOk
  overlayNode : P readONode writeONode ONode.wf
  overlayNodes : P readONodes writeONodes nodesOk
  certificate : P Overlay.readCertificate Overlay.writeCertificate Overlay.Certificate.wf
  broadcast : P Overlay.readBroadcast Overlay.writeBroadcast Overlay.Broadcast.wf
  peersQuery : P Overlay.readGetRandomPeers Overlay.writeGetRandomPeers nodesOk

/-- C138: every record is read back as it was written, whatever follows. -/
theorem C138_read_back : Each ReadsBack where
  key := pubKey_encodes
  message := AdnlProto.message_encodes
  addresses := addrList_encodes
  rldpMessage := Rldp.message_encodes
  rldpPart := Rldp.partMsg_encodes
  dhtKey := key_encodes
  dhtDescription := keyDesc_encodes
  dhtValue := value_encodes
  dhtNode := dnode_encodes
  dhtResult := fun r h => valueResult_encodes r (by cases r <;> exact h)
  overlayNode := onode_encodes
  overlayNodes := fun l h => onodes_encodes l h.1 h.2
  certificate := Overlay.certificate_encodes
  broadcast := Overlay.broadcast_encodes
  peersQuery := fun l h => Overlay.getRandomPeers_encodes l h.1 h.2

/-- C138: different records have different encodings, none the beginning of another. -/
theorem C138_unambiguous : Each fun _ wr ok => Unambiguous wr ok where
  key := C138_read_back.key.unambiguous
  message := C138_read_back.message.unambiguous
  addresses := C138_read_back.addresses.unambiguous
  rldpMessage := C138_read_back.rldpMessage.unambiguous
  rldpPart := C138_read_back.rldpPart.unambiguous
  dhtKey := C138_read_back.dhtKey.unambiguous
  dhtDescription := C138_read_back.dhtDescription.unambiguous
  dhtValue := C138_read_back.dhtValue.unambiguous
  dhtNode := C138_read_back.dhtNode.unambiguous
  dhtResult := C138_read_back.dhtResult.unambiguous
  overlayNode := C138_read_back.overlayNode.unambiguous
  overlayNodes := C138_read_back.overlayNodes.unambiguous
  certificate := C138_read_back.certificate.unambiguous
  broadcast := C138_read_back.broadcast.unambiguous
  peersQuery := C138_read_back.peersQuery.unambiguous

/-- C138: from whatever bytes a record was read, written again it is read as the same record. So what a node keeps of a
record (`as_equivalent_owned`, proto/dht.rs, proto/overlay.rs) and passes on means the same to the next node. -/
theorem C138_stable : Each fun rd wr _ => Stable rd wr where
  key := C138_read_back.key.stable pubKey_yields
  message := C138_read_back.message.stable adnlMessage_yields
  addresses := C138_read_back.addresses.stable addrList_yields
  rldpMessage := C138_read_back.rldpMessage.stable rldpMessage_yields
  rldpPart := C138_read_back.rldpPart.stable partMsg_yields
  dhtKey := C138_read_back.dhtKey.stable key_yields
  dhtDescription := C138_read_back.dhtDescription.stable keyDesc_yields
  dhtValue := C138_read_back.dhtValue.stable value_yields
  dhtNode := C138_read_back.dhtNode.stable dnode_yields
  dhtResult := C138_read_back.dhtResult.stable result_yields
  overlayNode := C138_read_back.overlayNode.stable onode_yields
  overlayNodes := C138_read_back.overlayNodes.stable onodes_yields
  certificate := C138_read_back.certificate.stable Overlay.certificate_yields
  broadcast := C138_read_back.broadcast.stable broadcast_yields
  peersQuery := C138_read_back.peersQuery.stable peersQuery_yields


/-! ### Not only what is written is read -/

open Verif.Spec.Scheme

/-- An address list of the scheme: any number of addresses, and a priority. -/
def listVal (as : List Addr) (version reinit priority expire : Nat) : Val :=
  .obj tl!"adnl.addressList" [(tl!"addrs", .vec (as.map addrVal)), (tl!"version", .num version),
    (tl!"reinit_date", .num reinit), (tl!"priority", .num priority), (tl!"expire_at", .num expire)]

/-- Its bytes. -/
def listBytes (as : List Addr) (version reinit priority expire : Nat) : Bytes :=
  writeVec writeAddr as ++ (writeU32 version ++ (writeU32 reinit ++ (writeU32 priority ++ writeU32 expire)))

theorem listVal_write {as : List Addr} {version reinit priority expire : Nat} (hl : as.length < 2 ^ 32)
    (ha : ∀ a ∈ as, a.ip < 2 ^ 32 ∧ a.port < 2 ^ 32) (h1 : version < 2 ^ 32) (h2 : reinit < 2 ^ 32)
    (h3 : priority < 2 ^ 32) (h4 : expire < 2 ^ 32) :
    write (listVal as version reinit priority expire) (.bare tl!"adnl.addressList") =
      some (listBytes as version reinit priority expire) := by
  have hv := write_vector as addrVal (.boxed tl!"adnl.Address") writeAddr hl fun a h =>
    boxed_plain find_adnl_address_udp (by simp)
      (Fields.cons (write_int a.ip (ha a h).1) (.last (write_int a.port (ha a h).2)))
  exact bare_plain find_adnl_addressList (by simp)
    (Fields.cons hv (.cons (write_int _ h1) (.cons (write_int _ h2) (.cons (write_int _ h3) (.last (write_int _ h4))))))

theorem listBytes_read {as : List Addr} {version reinit priority expire : Nat} (hl : as.length < 2 ^ 32)
    (ha : ∀ a ∈ as, a.ip < 2 ^ 32 ∧ a.port < 2 ^ 32) (h1 : version < 2 ^ 32) (h2 : reinit < 2 ^ 32)
    (h3 : priority < 2 ^ 32) (h4 : expire < 2 ^ 32) :
    Encodes readAddrList (listBytes as version reinit priority expire) ⟨as.head?, version, reinit, expire⟩ := by
  have hn : ∀ l : List Addr, (∀ a ∈ l, a.ip < 2 ^ 32 ∧ a.port < 2 ^ 32) →
      Encodes (readN readAddr l.length) ((l.map writeAddr).flatten) l := by
    intro l
    induction l with
    | nil => intro _; exact Encodes.pure _
    | cons a l ih =>
      intro h
      exact Encodes.bind (addr_encodes a (h a List.mem_cons_self))
        (Encodes.bindPure (ih fun x hx => h x (List.mem_cons_of_mem _ hx)) rfl)
  unfold listBytes writeVec
  rw [List.append_assoc]
  exact Encodes.bind (Encodes.u32 hl) (Encodes.bind (hn as ha) (Encodes.bind (Encodes.u32 h1) (Encodes.bind (Encodes.u32 h2)
    (Encodes.bind (Encodes.u32 h3) (Encodes.bindPure (Encodes.u32 h4) rfl)))))

theorem addrs_length (as : List Addr) : ((as.map writeAddr).flatten).length = 12 * as.length := by
  induction as with
  | nil => rfl
  | cons a as ih => simp [ih, writeAddr, writeU32]; omega

theorem list_same {as : List Addr} {version reinit priority expire : Nat} (h3 : priority < 2 ^ 32) :
    writeAddrList ⟨as.head?, version, reinit, expire⟩ = listBytes as version reinit priority expire ↔
      as.length ≤ 1 ∧ priority = 0 := by
  constructor
  · intro e
    have hlen := congrArg List.length e
    match as with
    | [] =>
      simp only [writeAddrList, listBytes, writeVec, List.head?_nil, Option.isSome_none, writeOpt, List.map_nil,
        List.flatten_nil, List.append_nil, List.length_nil, List.nil_append] at e
      have e := List.append_cancel_left (List.append_cancel_left (List.append_cancel_left e))
      have e := (List.append_inj e (by simp [writeU32])).1
      refine ⟨by simp, ?_⟩
      have := congrArg ofLE e
      rw [writeU32, writeU32, ofLE_leBytes_of_lt (by decide), ofLE_leBytes_of_lt (by simpa using h3)] at this
      exact this.symm
    | [a] =>
      simp only [writeAddrList, listBytes, writeVec, List.head?_cons, Option.isSome_some, if_true, writeOpt, List.map_cons,
        List.map_nil, List.flatten_cons, List.flatten_nil, List.append_nil, List.length_cons, List.length_nil, Nat.zero_add,
        List.append_assoc] at e
      have e := List.append_cancel_left (List.append_cancel_left (List.append_cancel_left (List.append_cancel_left e)))
      have e := (List.append_inj e (by simp [writeU32])).1
      refine ⟨by simp, ?_⟩
      have := congrArg ofLE e
      rw [writeU32, writeU32, ofLE_leBytes_of_lt (by decide), ofLE_leBytes_of_lt (by simpa using h3)] at this
      exact this.symm
    | a :: b :: l =>
      exfalso
      simp only [writeAddrList, listBytes, writeVec, List.length_append, addrs_length, writeOpt, List.head?_cons,
        writeAddr, writeU32, leBytes_length, List.length_cons] at hlen
      omega
  · rintro ⟨h, rfl⟩
    match as with
    | [] => rfl
    | [a] => simp [writeAddrList, listBytes, writeVec, writeOpt]
    | a :: b :: l => simp at h

/-- C138: an address list of the scheme is read with its first address only and without its priority. Written again it has
the bytes it was read from exactly if it has at most one address and the priority 0. -/
theorem C138_address_lists (as : List Addr) (version reinit priority expire : Nat) (hl : as.length < 2 ^ 32)
    (ha : ∀ a ∈ as, a.ip < 2 ^ 32 ∧ a.port < 2 ^ 32) (h1 : version < 2 ^ 32) (h2 : reinit < 2 ^ 32)
    (h3 : priority < 2 ^ 32) (h4 : expire < 2 ^ 32) :
    ∃ b, write (listVal as version reinit priority expire) (.bare tl!"adnl.addressList") = some b ∧
      (∀ rest, readAddrList (b ++ rest) = some (⟨as.head?, version, reinit, expire⟩, rest)) ∧
      (writeAddrList ⟨as.head?, version, reinit, expire⟩ = b ↔ as.length ≤ 1 ∧ priority = 0) :=
  ⟨_, listVal_write hl ha h1 h2 h3 h4, listBytes_read hl ha h1 h2 h3 h4, list_same h3⟩

/-- A list with two addresses. -/
def twoAddresses : Bytes := listBytes [⟨1, 2⟩, ⟨3, 4⟩] 5 6 0 0

/-- C138 as stated: records are read back as written, and only what is written is read. -/
def C138_full : Prop := Each ReadsBack ∧ Each fun rd wr _ => Canonical rd wr

/-- C138 as stated is false: two addresses are read, one is written. -/
theorem C138_full_false : ¬ C138_full := by
  intro h
  have h1 := listBytes_read (as := [⟨1, 2⟩, ⟨3, 4⟩]) (version := 5) (reinit := 6) (priority := 0) (expire := 0)
    (by decide) (by decide) (by decide) (by decide) (by decide) (by decide) []
  have h2 := h.2.addresses _ _ _ h1
  rw [List.append_nil, List.append_nil] at h2
  exact absurd ((list_same (by decide)).mp h2.symm).1 (by decide)

/-- A node record of the scheme with such a list. -/
def recordVal (key : Bytes) (list : Val) (version : Nat) (signature : Bytes) : Val :=
  .obj tl!"dht.node" [(tl!"id", keyVal (.ed25519 key)), (tl!"addr_list", list), (tl!"version", .num version),
    (tl!"signature", .raw signature)]

theorem record_write {key : Bytes} {list : Val} {lb : Bytes} {version : Nat} {signature : Bytes} (hk : key.length = 32)
    (hb : write list (.bare tl!"adnl.addressList") = some lb) (hv : version < 2 ^ 32) (hs : signature.length < 2 ^ 24) :
    write (recordVal key list version signature) (.bare tl!"dht.node") =
      some (writePubKey (.ed25519 key) ++ (lb ++ (writeU32 version ++ Tl.writeBytes signature))) ∧
    write (recordVal key list version signature) (.boxed tl!"dht.Node") =
      some (writeU32 0x84533248 ++ (writePubKey (.ed25519 key) ++ (lb ++ (writeU32 version ++ Tl.writeBytes signature)))) := by
  have hf := Fields.cons (C78_public_key (.ed25519 key) hk trivial) (name := tl!"id")
    (.cons hb (name := tl!"addr_list") (.cons (write_int version hv) (name := tl!"version")
      (.last (write_bytes signature hs) (name := tl!"signature"))))
  exact ⟨bare_plain find_dht_node (by simp) hf, boxed_plain find_dht_node (by simp) hf⟩

/-- C138: a node record that its owner signed as the scheme says, with more than one address or with a priority, is read;
but it is taken over by `add_dht_peer` only if the signature is one of a text the owner did not sign: what is checked is the
record written again. -/
theorem C138_signed_records {c : Crypto} (o : Dht.Opts c) (now : Nat) (s : Dht.State c) (chan : c.Sec) (key : Bytes)
    (hk : key.length = 32) (as : List Addr) (lversion reinit priority expire version : Nat) (hl : as.length < 2 ^ 32)
    (ha : ∀ a ∈ as, a.ip < 2 ^ 32 ∧ a.port < 2 ^ 32) (h1 : lversion < 2 ^ 32) (h2 : reinit < 2 ^ 32)
    (h3 : priority < 2 ^ 32) (h4 : expire < 2 ^ 32) (h5 : version < 2 ^ 32) (signature : Bytes)
    (hs : signature.length < 2 ^ 24) (hmore : 1 < as.length ∨ priority ≠ 0) :
    ∃ text bytes n,
      write (recordVal key (listVal as lversion reinit priority expire) version []) (.boxed tl!"dht.Node") = some text ∧
      write (recordVal key (listVal as lversion reinit priority expire) version signature) (.bare tl!"dht.node") = some bytes ∧
      readDNode bytes = some (n, []) ∧ writeDNodeBoxed { n with signature := [] } ≠ text ∧
      ∀ id, (Dht.addDhtPeer o now s n chan).2 = .some id →
        ∃ pub, c.decodePub key = some pub ∧
          c.verify pub (writeDNodeBoxed { n with signature := [] }) signature = true := by
  have hw := listVal_write hl ha h1 h2 h3 h4
  have w1 := (record_write (signature := []) hk hw h5 (by decide)).2
  have w2 := (record_write hk hw h5 hs).1
  let n : DNode := ⟨.ed25519 key, ⟨as.head?, lversion, reinit, expire⟩, version, signature⟩
  have hr : Encodes readDNode (writePubKey (.ed25519 key) ++ (listBytes as lversion reinit priority expire ++
      (writeU32 version ++ Tl.writeBytes signature))) n :=
    Encodes.bind (pubKey_encodes (.ed25519 key) hk) (Encodes.bind (listBytes_read hl ha h1 h2 h3 h4)
      (Encodes.bind (Encodes.u32 h5) (Encodes.bindPure (Encodes.bytes hs) rfl)))
  refine ⟨_, _, n, w1, w2, by simpa using hr [], ?_, ?_⟩
  · intro e
    have e := List.append_cancel_left (List.append_cancel_left e)
    have e := (List.append_inj' e rfl).1
    have := (list_same h3).mp e
    rcases hmore with h | h
    · omega
    · exact h this.2
  · intro id he
    unfold Dht.addDhtPeer at he
    cases hf : Receiver.fullId c n.id with
    | none => rw [hf] at he; cases he
    | some pub =>
      rw [hf] at he
      simp only at he
      split at he
      · cases he
      · rename_i hv
        refine ⟨pub, hf, ?_⟩
        have hv' : Storage.verifySig c pub (writeDNodeBoxed { n with signature := [] }) n.signature = true := by
          cases hx : Storage.verifySig c pub (writeDNodeBoxed { n with signature := [] }) n.signature with
          | true => rfl
          | false => exact absurd hx hv
        exact (Bool.and_eq_true_iff.mp hv').2

/-! ### Cases -/

-- C138_read_back, C138_stable: a message, also in bytes its writer does not write (length 1 in the long form, padding that
-- is not zero)
example : Overlay.readBroadcast (Overlay.writeBroadcast (.unicast [7]) ++ [1, 2]) = some (.unicast [7], [1, 2]) :=
  C138_read_back.broadcast (.unicast [7]) (show [7].length < 2 ^ 24 by decide) [1, 2]
example : Overlay.readBroadcast ((Overlay.writeBroadcast (.unicast [7])).take 4 ++ [254, 1, 0, 0, 7, 9, 9, 9]) =
    some (.unicast [7], []) := by decide +kernel
example : Overlay.readBroadcast (Overlay.writeBroadcast (.unicast [7]) ++ [5]) = some (.unicast [7], [5]) :=
  C138_stable.broadcast ((Overlay.writeBroadcast (.unicast [7])).take 4 ++ [254, 1, 0, 0, 7, 9, 9, 9]) _ []
    (by decide +kernel) [5]
-- C138_unambiguous
example : Overlay.writeBroadcast (.fecCompleted (List.replicate 32 1)) ≠
    Overlay.writeBroadcast (.fecReceived (List.replicate 32 1)) := fun e =>
  absurd (C138_unambiguous.broadcast (.fecCompleted _) (.fecReceived _) (List.length_replicate ..) (List.length_replicate ..)
    [] [] (by rw [e])).1 (by simp)
-- C138_address_lists
example := C138_address_lists [⟨1, 2⟩, ⟨3, 4⟩] 5 6 0 0 (by decide) (by decide) (by decide) (by decide) (by decide) (by decide)
-- C138_signed_records: the toy node 2 signs its record with two addresses; the signature is the one of its record as the
-- scheme has it, and it is refused
example := C138_signed_records Dht.Example.o 1000 Dht.Example.s0 (7 : UInt8) (Crypto.toy.pubBytes (2 : UInt8))
  (by decide +kernel) [⟨1, 2⟩, ⟨3, 4⟩] 5 6 0 0 1 (by decide) (by decide) (by decide) (by decide) (by decide)
  (by decide) (by decide) (List.replicate 64 1) (by decide) (.inl (by decide))

/-- The text such a node signs. -/
def signedText : Bytes :=
  writeU32 0x84533248 ++ (writePubKey (.ed25519 (Crypto.toy.pubBytes (2 : UInt8))) ++ (listBytes [⟨77, 88⟩, ⟨3, 4⟩] 1 1 0 0 ++
    (writeU32 1 ++ Tl.writeBytes [])))

example : (Dht.addDhtPeer Dht.Example.o 1000 Dht.Example.s0
      ⟨.ed25519 (Crypto.toy.pubBytes (2 : UInt8)), ⟨some ⟨77, 88⟩, 1, 1, 0⟩, 1, Crypto.toy.sign (2 : UInt8) signedText⟩
      (7 : UInt8)).2 = .none ∧
    (Dht.addDhtPeer Dht.Example.o 1000 Dht.Example.s0 (Dht.Example.node 2 1) (7 : UInt8)).2 =
      .some (Node.shortId Crypto.toy (2 : UInt8)) := by decide +kernel

end Verif.Wire
