import Verif.Proofs.Scheme
import Verif.Proofs.OverlayProto
import Verif.Props.PacketCodec
import Verif.Model.OverlayBroadcast
import Verif.Model.DhtRpc

/-!
# C78: everything sent is written as the scheme says
-/
namespace Verif.Spec.Scheme
open Verif.AdnlProto Verif.DhtProto Verif.Address

/-! ### What is meant: constructors and fields by their names in the scheme -/

/-- A key whose type the scheme declares (all but `pub.unenc`, which only the external crate knows). -/
def declaredKey : PubKey → Prop
  | .unenc _ => False
  | _ => True

def keyVal : PubKey → Val
  | .ed25519 k => .obj tl!"pub.ed25519" [(tl!"key", .raw k)]
  | .aes k => .obj tl!"pub.aes" [(tl!"key", .raw k)]
  | .overlay n => .obj tl!"pub.overlay" [(tl!"name", .raw n)]
  | .unenc d => .obj tl!"pub.unenc" [(tl!"data", .raw d)]

def messageVal : AdnlProto.Message → Val
  | .answer q a => .obj tl!"adnl.message.answer" [(tl!"query_id", .raw q), (tl!"answer", .raw a)]
  | .custom d => .obj tl!"adnl.message.custom" [(tl!"data", .raw d)]
  | .confirmChannel k p d =>
    .obj tl!"adnl.message.confirmChannel" [(tl!"key", .raw k), (tl!"peer_key", .raw p), (tl!"date", .num d)]
  | .part h t o d =>
    .obj tl!"adnl.message.part"
      [(tl!"hash", .raw h), (tl!"total_size", .num t), (tl!"offset", .num o), (tl!"data", .raw d)]
  | .createChannel k d => .obj tl!"adnl.message.createChannel" [(tl!"key", .raw k), (tl!"date", .num d)]
  | .query q d => .obj tl!"adnl.message.query" [(tl!"query_id", .raw q), (tl!"query", .raw d)]
  | .nop => .obj tl!"adnl.message.nop" []
  | .reinit d => .obj tl!"adnl.message.reinit" [(tl!"date", .num d)]

def addrVal (a : Addr) : Val := .obj tl!"adnl.address.udp" [(tl!"ip", .num a.ip), (tl!"port", .num a.port)]

def addrListVal (l : AddrList) : Val :=
  .obj tl!"adnl.addressList" [(tl!"addrs", .vec (l.address.toList.map addrVal)), (tl!"version", .num l.version),
    (tl!"reinit_date", .num l.reinitDate), (tl!"priority", .num 0), (tl!"expire_at", .num l.expireAt)]

/-- One message is sent as `message`, several as `messages`. -/
def messagesVal : List AdnlProto.Message → List (Text × Val)
  | [m] => [(tl!"message", messageVal m)]
  | ms => [(tl!"messages", .vec (ms.map messageVal))]

/-- A packet with its messages. -/
def packetVal (p : OutPacket) (flags : Nat) (ms : List AdnlProto.Message) : Val :=
  .obj tl!"adnl.packetContents" ([(tl!"rand1", .raw p.rand1), (tl!"flags", .num flags)] ++
    (p.src.toList.map fun k => (tl!"from", keyVal k)) ++
    messagesVal ms ++
    [(tl!"address", addrListVal p.address), (tl!"seqno", .num p.seqno), (tl!"confirm_seqno", .num p.confirmSeqno)] ++
    (match p.reinitDates with
      | some d => [(tl!"reinit_date", .num d.loc), (tl!"dst_reinit_date", .num d.target)]
      | none => []) ++
    (p.signature.toList.map fun s => (tl!"signature", .raw s)) ++ [(tl!"rand2", .raw p.rand2)])

def fecVal (f : Rldp.FecType) : Val :=
  .obj tl!"fec.raptorQ" [(tl!"data_size", .num f.totalLen), (tl!"symbol_size", .num f.packetLen),
    (tl!"symbols_count", .num f.packetCount)]

def rldpMessageVal : Rldp.Message → Val
  | .message i d => .obj tl!"rldp.message" [(tl!"id", .raw i), (tl!"data", .raw d)]
  | .answer q d => .obj tl!"rldp.answer" [(tl!"query_id", .raw q), (tl!"data", .raw d)]
  | .query q m t d =>
    .obj tl!"rldp.query"
      [(tl!"query_id", .raw q), (tl!"max_answer_size", .num m), (tl!"timeout", .num t), (tl!"data", .raw d)]

def rldpPartVal : Rldp.PartMsg → Val
  | .part i p =>
    .obj tl!"rldp.messagePart" [(tl!"transfer_id", .raw i), (tl!"fec_type", fecVal p.fec), (tl!"part", .num p.part),
      (tl!"total_size", .num p.totalSize), (tl!"seqno", .num p.seqno), (tl!"data", .raw p.data)]
  | .confirm i p s => .obj tl!"rldp.confirm" [(tl!"transfer_id", .raw i), (tl!"part", .num p), (tl!"seqno", .num s)]
  | .complete i p => .obj tl!"rldp.complete" [(tl!"transfer_id", .raw i), (tl!"part", .num p)]

def dnodeVal (n : DNode) : Val :=
  .obj tl!"dht.node" [(tl!"id", keyVal n.id), (tl!"addr_list", addrListVal n.addrList), (tl!"version", .num n.version),
    (tl!"signature", .raw n.signature)]

def dkeyVal (k : DhtProto.Key) : Val :=
  .obj tl!"dht.key" [(tl!"id", .raw k.id), (tl!"name", .raw k.name), (tl!"idx", .num k.idx)]

def ruleVal : UpdateRule → Val
  | .signature => .obj tl!"dht.updateRule.signature" []
  | .anybody => .obj tl!"dht.updateRule.anybody" []
  | .overlayNodes => .obj tl!"dht.updateRule.overlayNodes" []

def keyDescVal (d : KeyDesc) : Val :=
  .obj tl!"dht.keyDescription" [(tl!"key", dkeyVal d.key), (tl!"id", keyVal d.id), (tl!"update_rule", ruleVal d.rule),
    (tl!"signature", .raw d.signature)]

def valueVal (v : DhtProto.Value) : Val :=
  .obj tl!"dht.value" [(tl!"key", keyDescVal v.key), (tl!"value", .raw v.value), (tl!"ttl", .num v.ttl),
    (tl!"signature", .raw v.signature)]

def dnodesVal (l : List DNode) : Val := .obj tl!"dht.nodes" [(tl!"nodes", .vec (l.map dnodeVal))]

def valueResultVal : ValueResult → Val
  | .found v => .obj tl!"dht.valueFound" [(tl!"value", valueVal v)]
  | .notFound l => .obj tl!"dht.valueNotFound" [(tl!"nodes", dnodesVal l)]

def onodeVal (n : ONode) : Val :=
  .obj tl!"overlay.node" [(tl!"id", keyVal n.id), (tl!"overlay", .raw n.overlay), (tl!"version", .num n.version),
    (tl!"signature", .raw n.signature)]

def onodesVal (l : List ONode) : Val := .obj tl!"overlay.nodes" [(tl!"nodes", .vec (l.map onodeVal))]

def certificateVal : Overlay.Certificate → Val
  | .certificate k e m s =>
    .obj tl!"overlay.certificate"
      [(tl!"issued_by", keyVal k), (tl!"expire_at", .num e), (tl!"max_size", .num m), (tl!"signature", .raw s)]
  | .empty => .obj tl!"overlay.emptyCertificate" []

def broadcastVal : Overlay.Broadcast → Val
  | .ordinary b =>
    .obj tl!"overlay.broadcast" [(tl!"src", keyVal b.src), (tl!"certificate", certificateVal b.certificate),
      (tl!"flags", .num b.flags), (tl!"data", .raw b.data), (tl!"date", .num b.date), (tl!"signature", .raw b.signature)]
  | .fec b =>
    .obj tl!"overlay.broadcastFec" [(tl!"src", keyVal b.src), (tl!"certificate", certificateVal b.certificate),
      (tl!"data_hash", .raw b.dataHash), (tl!"data_size", .num b.dataSize), (tl!"flags", .num b.flags),
      (tl!"data", .raw b.data), (tl!"seqno", .num b.seqno), (tl!"fec", fecVal b.fec), (tl!"date", .num b.date),
      (tl!"signature", .raw b.signature)]
  | .fecShort k c h p n s =>
    .obj tl!"overlay.broadcastFecShort" [(tl!"src", keyVal k), (tl!"certificate", certificateVal c),
      (tl!"broadcast_hash", .raw h), (tl!"part_data_hash", .raw p), (tl!"seqno", .num n), (tl!"signature", .raw s)]
  | .notFound => .obj tl!"overlay.broadcastNotFound" []
  | .fecCompleted h => .obj tl!"overlay.fec.completed" [(tl!"hash", .raw h)]
  | .fecReceived h => .obj tl!"overlay.fec.received" [(tl!"hash", .raw h)]
  | .unicast d => .obj tl!"overlay.unicast" [(tl!"data", .raw d)]

/-! ### Proofs -/

theorem writeBytes_eq (b : Bytes) (h : b.length < 2 ^ 24) : writeBytes b = some (Tl.writeBytes b) := by
  unfold writeBytes Tl.writeBytes padded Tl.padding
  by_cases h1 : b.length < 254
  · simp [h1]
  · simp only [h1, if_false, h, if_true]
    congr 1
    have : (4 - (1 + (3 + b.length)) % 4) % 4 = (4 - b.length % 4) % 4 := by omega
    simp [this]

theorem write_int (n : Nat) (h : n < 2 ^ 32) : write (.num n) .int = some (Tl.writeU32 n) := by
  simp [write, Tl.writeU32, h]

theorem write_long (n : Nat) (h : n < 2 ^ 64) : write (.num n) .long = some (Tl.writeU64 n) := by
  simp [write, Tl.writeU64, h]

theorem write_int256 (b : Bytes) (h : b.length = 32) : write (.raw b) .int256 = some b := by
  simp [write, h]

theorem write_bytes (b : Bytes) (h : b.length < 2 ^ 24) : write (.raw b) .bytes = some (Tl.writeBytes b) := by
  rw [write, writeBytes_eq b h]

theorem writeFields_cons {name : Text} {v : Val} {t : Ty} {vs : List (Text × Val)} {ts : List (Text × Ty)} {a b : Bytes}
    (h1 : write v t = some a) (h2 : writeFields vs ts = some b) :
    writeFields ((name, v) :: vs) ((name, t) :: ts) = some (a ++ b) := by
  simp [writeFields, h1, h2]

theorem writeFields_nil : writeFields [] [] = some [] := by rw [writeFields]

theorem write_boxed {con : Text} {d : Decl} {fields : List (Text × Val)} {b : Bytes} (hf : find con = some d)
    (h : writeFields fields (present (flagsIn fields) d.fields) = some b) :
    write (.obj con fields) (.boxed d.type) = some (Tl.writeU32 d.id ++ b) := by
  rw [write]; simp [hf, h, Tl.writeU32]

theorem write_bare {con : Text} {d : Decl} {fields : List (Text × Val)} {b : Bytes} (hf : find con = some d)
    (h : writeFields fields (present (flagsIn fields) d.fields) = some b) :
    write (.obj con fields) (.bare con) = some b := by
  rw [write]; simp [hf, h]

theorem writeAll_map {α : Type} (l : List α) (val : α → Val) (t : Ty) (w : α → Bytes)
    (h : ∀ x ∈ l, write (val x) t = some (w x)) : writeAll (l.map val) t = some (l.map w).flatten := by
  induction l with
  | nil => rw [List.map_nil, writeAll]; rfl
  | cons x l ih =>
    rw [List.map_cons, writeAll, h x (by simp), ih (fun y hy => h y (by simp [hy]))]
    rfl

theorem write_vector {α : Type} (l : List α) (val : α → Val) (t : Ty) (w : α → Bytes) (hl : l.length < 2 ^ 32)
    (h : ∀ x ∈ l, write (val x) t = some (w x)) :
    write (.vec (l.map val)) (.vector t) = some (Tl.writeVec w l) := by
  rw [write, writeAll_map l val t w h]
  simp [Tl.writeVec, Tl.writeU32, hl]

/-- `present` of a declaration without conditional fields. -/
theorem present_plain (flags : Nat) (fs : List (Text × Ty)) (h : ∀ f ∈ fs, ∀ b t, f.2 ≠ .cond b t) :
    present flags fs = fs := by
  induction fs with
  | nil => rfl
  | cons f fs ih =>
    have h0 := h f (by simp)
    have ih := ih (fun g hg => h g (by simp [hg]))
    unfold present at ih ⊢
    rw [List.filterMap_cons, ih]
    obtain ⟨name, t⟩ := f
    cases t with
    | cond b t => exact absurd rfl (h0 b t)
    | _ => rfl

/-- A field list that is written as `w`. -/
def Fields (vs : List (Text × Val)) (ts : List (Text × Ty)) (w : Bytes) : Prop := writeFields vs ts = some w

theorem Fields.nil : Fields [] [] [] := writeFields_nil

theorem Fields.cons {name : Text} {v : Val} {t : Ty} {vs : List (Text × Val)} {ts : List (Text × Ty)} {a b : Bytes}
    (h1 : write v t = some a) (h2 : Fields vs ts b) : Fields ((name, v) :: vs) ((name, t) :: ts) (a ++ b) :=
  writeFields_cons h1 h2

theorem Fields.last {name : Text} {v : Val} {t : Ty} {a : Bytes} (h1 : write v t = some a) :
    Fields [(name, v)] [(name, t)] a := by
  have := Fields.cons (name := name) h1 Fields.nil
  simpa using this

/-- An object all of whose fields are unconditional. -/
theorem boxed_plain {con : Text} {d : Decl} {fields : List (Text × Val)} {b : Bytes} (hf : find con = some d)
    (hp : ∀ f ∈ d.fields, ∀ b t, f.2 ≠ .cond b t) (h : Fields fields d.fields b) :
    write (.obj con fields) (.boxed d.type) = some (Tl.writeU32 d.id ++ b) :=
  write_boxed hf (by rw [present_plain _ _ hp]; exact h)

theorem bare_plain {con : Text} {d : Decl} {fields : List (Text × Val)} {b : Bytes} (hf : find con = some d)
    (hp : ∀ f ∈ d.fields, ∀ b t, f.2 ≠ .cond b t) (h : Fields fields d.fields b) :
    write (.obj con fields) (.bare con) = some b :=
  write_bare hf (by rw [present_plain _ _ hp]; exact h)

theorem boxed_empty {con : Text} {d : Decl} (hf : find con = some d) (hp : d.fields = []) :
    write (.obj con []) (.boxed d.type) = some (Tl.writeU32 d.id) := by
  have := write_boxed (fields := []) (b := []) hf (by rw [hp]; exact writeFields_nil)
  simpa using this

/-- A public key. -/
theorem C78_public_key (k : PubKey) (h : k.wf) (hd : declaredKey k) :
    write (keyVal k) (.boxed tl!"PublicKey") = some (writePubKey k) := by
  cases k with
  | ed25519 k => exact boxed_plain find_pub_ed25519 (by simp) (Fields.last (write_int256 k h))
  | aes k => exact boxed_plain find_pub_aes (by simp) (Fields.last (write_int256 k h))
  | overlay n => exact boxed_plain find_pub_overlay (by simp) (Fields.last (write_bytes n h))
  | unenc d => exact hd.elim

example : write (.obj tl!"pub.overlay" [(tl!"name", .raw [7, 8])]) (.boxed tl!"PublicKey") =
    some [0xcb, 0x45, 0xba, 0x34, 2, 7, 8, 0] := by
  rw [show Val.obj tl!"pub.overlay" [(tl!"name", .raw [7, 8])] = keyVal (.overlay [7, 8]) from rfl,
    C78_public_key (.overlay [7, 8]) (show 2 < 2 ^ 24 by decide) trivial]
  decide

/-- ADNL messages. -/
theorem C78_message (m : AdnlProto.Message) (h : m.wf) :
    write (messageVal m) (.boxed tl!"adnl.Message") = some (writeMessage m) := by
  cases m with
  | answer q a =>
    exact boxed_plain find_adnl_message_answer (by simp) (.cons (write_int256 q h.1) (.last (write_bytes a h.2)))
  | custom d => exact boxed_plain find_adnl_message_custom (by simp) (Fields.last (write_bytes d h))
  | confirmChannel k p d =>
    exact boxed_plain find_adnl_message_confirmChannel (by simp)
      (Fields.cons (write_int256 k h.1) (.cons (write_int256 p h.2.1) (.last (write_int d h.2.2))))
  | part x t o d =>
    exact boxed_plain find_adnl_message_part (by simp)
      (Fields.cons (write_int256 x h.1) (.cons (write_int t h.2.1) (.cons (write_int o h.2.2.1)
        (.last (write_bytes d h.2.2.2)))))
  | createChannel k d =>
    exact boxed_plain find_adnl_message_createChannel (by simp)
      (Fields.cons (write_int256 k h.1) (.last (write_int d h.2)))
  | query q d =>
    exact boxed_plain find_adnl_message_query (by simp) (Fields.cons (write_int256 q h.1) (.last (write_bytes d h.2)))
  | nop => exact boxed_empty find_adnl_message_nop rfl
  | reinit d => exact boxed_plain find_adnl_message_reinit (by simp) (Fields.last (write_int d h))

example : write (messageVal (.confirmChannel (List.replicate 32 1) (List.replicate 32 2) 7)) (.boxed tl!"adnl.Message") =
    some (writeMessage (.confirmChannel (List.replicate 32 1) (List.replicate 32 2) 7)) :=
  C78_message _ ⟨List.length_replicate, List.length_replicate, by decide⟩

/-- Address lists. -/
theorem C78_address_list (l : AddrList) (h : addrListWf l) :
    write (addrListVal l) (.bare tl!"adnl.addressList") = some (writeAddrList l) := by
  have ha : write (.vec (l.address.toList.map addrVal)) (.vector (.boxed tl!"adnl.Address")) =
      some (Tl.writeU32 (if l.address.isSome then 1 else 0) ++ Tl.writeOpt writeAddr l.address) := by
    have := write_vector l.address.toList addrVal (.boxed tl!"adnl.Address") writeAddr
      (by cases l.address <;> simp)
      (by intro a ha
          have := h.1 a (by simpa using ha)
          exact boxed_plain find_adnl_address_udp (by simp)
            (Fields.cons (write_int a.ip this.1) (.last (write_int a.port this.2))))
    rw [this]
    cases l.address <;> simp [Tl.writeVec, Tl.writeOpt]
  have := bare_plain find_adnl_addressList (by simp)
    (Fields.cons ha (.cons (write_int l.version h.2.1) (.cons (write_int l.reinitDate h.2.2.1)
      (.cons (write_int 0 (by decide)) (.last (write_int l.expireAt h.2.2.2))))))
  rw [addrListVal, this, writeAddrList, List.append_assoc]

example : write (addrListVal ⟨some ⟨0x7f000001, 30000⟩, 5, 6, 0⟩) (.bare tl!"adnl.addressList") =
    some (writeAddrList ⟨some ⟨0x7f000001, 30000⟩, 5, 6, 0⟩) :=
  C78_address_list _ ⟨fun a ha => by cases ha; exact ⟨by decide, by decide⟩, by decide, by decide, by decide⟩

/-! ### Packets -/

/-- The fields present under the flags are written as `w`. -/
def CFields (flags : Nat) (vs : List (Text × Val)) (ts : List (Text × Ty)) (w : Bytes) : Prop :=
  writeFields vs (present flags ts) = some w

theorem CFields.nil {flags : Nat} : CFields flags [] [] [] := writeFields_nil

theorem CFields.cons {flags : Nat} {name : Text} {v : Val} {t : Ty} {vs : List (Text × Val)} {ts : List (Text × Ty)}
    {a b : Bytes} (ht : ∀ bit t', t ≠ .cond bit t') (h1 : write v t = some a) (h2 : CFields flags vs ts b) :
    CFields flags ((name, v) :: vs) ((name, t) :: ts) (a ++ b) := by
  have : present flags ((name, t) :: ts) = (name, t) :: present flags ts := by
    unfold present
    rw [List.filterMap_cons]
    cases t with
    | cond bit t => exact absurd rfl (ht bit t)
    | _ => rfl
  unfold CFields
  rw [this]
  exact writeFields_cons h1 h2

theorem CFields.here {flags bit : Nat} {name : Text} {v : Val} {t : Ty} {vs : List (Text × Val)} {ts : List (Text × Ty)}
    {a b : Bytes} (hb : flags.testBit bit = true) (h1 : write v t = some a) (h2 : CFields flags vs ts b) :
    CFields flags ((name, v) :: vs) ((name, .cond bit t) :: ts) (a ++ b) := by
  have : present flags ((name, .cond bit t) :: ts) = (name, t) :: present flags ts := by
    unfold present
    rw [List.filterMap_cons]
    simp [hb]
  unfold CFields
  rw [this]
  exact writeFields_cons h1 h2

theorem CFields.skip {flags bit : Nat} {name : Text} {t : Ty} {vs : List (Text × Val)} {ts : List (Text × Ty)}
    {b : Bytes} (hb : flags.testBit bit = false) (h2 : CFields flags vs ts b) :
    CFields flags vs ((name, .cond bit t) :: ts) b := by
  have : present flags ((name, .cond bit t) :: ts) = present flags ts := by
    unfold present
    rw [List.filterMap_cons]
    simp [hb]
  unfold CFields
  rw [this]
  exact h2

/-- An optional field. -/
theorem CFields.opt {α : Type} {flags bit : Nat} {name : Text} {x : Option α} {val : α → Val} {wr : α → Bytes} {t : Ty}
    {vs : List (Text × Val)} {ts : List (Text × Ty)} {b : Bytes} (hb : flags.testBit bit = x.isSome)
    (h1 : ∀ y, x = some y → write (val y) t = some (wr y)) (h2 : CFields flags vs ts b) :
    CFields flags ((x.toList.map fun y => (name, val y)) ++ vs) ((name, .cond bit t) :: ts) (Tl.writeOpt wr x ++ b) := by
  cases x with
  | none => exact CFields.skip hb h2
  | some y => exact CFields.here hb (h1 y rfl) h2

/-- Both reinit dates, under one flag. -/
theorem CFields.dates {flags : Nat} {x : Option ReinitDates} {vs : List (Text × Val)} {ts : List (Text × Ty)} {b : Bytes}
    (hb : flags.testBit 10 = x.isSome) (h1 : ∀ d, x = some d → d.loc < 2 ^ 32 ∧ d.target < 2 ^ 32)
    (h2 : CFields flags vs ts b) :
    CFields flags ((match x with
        | some d => [(tl!"reinit_date", Val.num d.loc), (tl!"dst_reinit_date", .num d.target)]
        | none => []) ++ vs)
      ((tl!"reinit_date", .cond 10 .int) :: (tl!"dst_reinit_date", .cond 10 .int) :: ts)
      (Tl.writeOpt writeDates x ++ b) := by
  cases x with
  | none => exact CFields.skip hb (CFields.skip hb h2)
  | some d =>
    have := CFields.here (name := tl!"reinit_date") hb (write_int d.loc (h1 d rfl).1)
      (CFields.here (name := tl!"dst_reinit_date") hb (write_int d.target (h1 d rfl).2) h2)
    rw [← List.append_assoc] at this
    exact this

/-- The messages, under one of two flags. -/
theorem CFields.messages {flags : Nat} {out : OutMessages} {ms : List AdnlProto.Message} {vs : List (Text × Val)}
    {ts : List (Text × Ty)} {b : Bytes} (hm : Props.Carries out ms) (b2 : flags.testBit 2 = out.isSingle)
    (b3 : flags.testBit 3 = !out.isSingle) (h2 : CFields flags vs ts b) :
    CFields flags (messagesVal ms ++ vs)
      ((tl!"message", .cond 2 (.boxed tl!"adnl.Message")) ::
        (tl!"messages", .cond 3 (.vector (.boxed tl!"adnl.Message"))) :: ts) (writeOutMessages out ++ b) := by
  cases out with
  | single raw =>
    obtain ⟨m, rfl, rfl, hw⟩ := hm
    exact CFields.here b2 (C78_message m hw) (CFields.skip b3 h2)
  | pair raw =>
    obtain ⟨m1, m2, rfl, rfl, hw1, hw2⟩ := hm
    have hv := write_vector [m1, m2] messageVal (.boxed tl!"adnl.Message") writeMessage (by simp)
      (by intro m hmem
          simp only [List.mem_cons, List.not_mem_nil, or_false] at hmem
          rcases hmem with rfl | rfl
          · exact C78_message _ hw1
          · exact C78_message _ hw2)
    have e : writeOutMessages (.pair (writeMessage m1 ++ writeMessage m2)) = Tl.writeVec writeMessage [m1, m2] := by
      simp [writeOutMessages, Tl.writeVec]
    rw [e]
    exact CFields.skip b2 (CFields.here b3 hv h2)

/-- Packets: the packet with the messages `ms`, its flags saying which fields are present. -/
theorem C78_packet (p : OutPacket) (ms : List AdnlProto.Message) (hm : Props.Carries p.messages ms) (h : Props.OutWf p)
    (hk : ∀ k, p.src = some k → declaredKey k) :
    write (packetVal p (outFlags p) ms) (.boxed tl!"adnl.PacketContents") = some (writePacket p) := by
  obtain ⟨b0, b1, b2, b3, b4, b5, b6, b7, b8, b9, b10, b11⟩ := outFlags_bits p
  have hend := CFields.opt (flags := outFlags p) (name := tl!"signature") (val := Val.raw) b11
    (fun s hs => write_bytes s (by rw [h.signature s hs]; decide))
    (CFields.cons (name := tl!"rand2") (by simp) (write_bytes p.rand2 h.rand2) CFields.nil)
  have hmid := CFields.here (name := tl!"address") b4 (C78_address_list p.address h.address)
    (CFields.skip (name := tl!"priority_address") (t := .bare tl!"adnl.addressList") b5
      (CFields.here (name := tl!"seqno") b6 (write_long p.seqno h.seqno)
        (CFields.here (name := tl!"confirm_seqno") b7 (write_long p.confirmSeqno h.confirm)
          (CFields.skip (name := tl!"recv_addr_list_version") (t := .int) b8
            (CFields.skip (name := tl!"recv_priority_addr_list_version") (t := .int) b9
              (CFields.dates b10 h.dates hend))))))
  have hall := CFields.cons (name := tl!"rand1") (by simp) (write_bytes p.rand1 h.rand1)
    (CFields.cons (name := tl!"flags") (t := .int) (by simp) (write_int (outFlags p) (outFlags_lt p))
      (CFields.opt (name := tl!"from") (val := keyVal) b0 (fun k hk' => C78_public_key k (h.src k hk') (hk k hk'))
        (CFields.skip (name := tl!"from_short") (t := .bare tl!"adnl.id.short") b1
          (CFields.messages hm b2 b3 hmid))))
  have hwr := write_boxed (con := tl!"adnl.packetContents") (fields := _) find_adnl_packetContents hall
  rw [List.append_nil] at hwr
  unfold packetVal writePacket
  simp only [List.append_assoc, List.cons_append, List.nil_append]
  exact hwr

/-! ### RLDP -/

theorem write_fec (f : Rldp.FecType) (h : f.wf) : write (fecVal f) (.boxed tl!"fec.Type") = some (Rldp.writeFec f) :=
  boxed_plain find_fec_raptorQ (by simp)
    (Fields.cons (write_int _ h.1) (.cons (write_int _ h.2.1) (.last (write_int _ h.2.2))))

/-- RLDP messages. -/
theorem C78_rldp_message (m : Rldp.Message) (h : m.wf) :
    write (rldpMessageVal m) (.boxed tl!"rldp.Message") = some (Rldp.writeMessage m) := by
  cases m with
  | message i d =>
    exact boxed_plain find_rldp_message (by simp) (Fields.cons (write_int256 i h.1) (.last (write_bytes d h.2)))
  | answer q d =>
    exact boxed_plain find_rldp_answer (by simp) (Fields.cons (write_int256 q h.1) (.last (write_bytes d h.2)))
  | query q m t d =>
    exact boxed_plain find_rldp_query (by simp)
      (Fields.cons (write_int256 q h.1) (.cons (write_long m h.2.1) (.cons (write_int t h.2.2.1)
        (.last (write_bytes d h.2.2.2)))))

example : write (rldpMessageVal (.query (List.replicate 32 1) 1000 7 [1, 2, 3])) (.boxed tl!"rldp.Message") =
    some (Rldp.writeMessage (.query (List.replicate 32 1) 1000 7 [1, 2, 3])) :=
  C78_rldp_message _ ⟨List.length_replicate, by decide, by decide, by decide⟩

/-- Parts of RLDP transfers and their acknowledgements. -/
theorem C78_rldp_part (m : Rldp.PartMsg) (h : m.wf) :
    write (rldpPartVal m) (.boxed tl!"rldp.MessagePart") = some (Rldp.writePartMsg m) := by
  cases m with
  | part i p =>
    exact boxed_plain find_rldp_messagePart (by simp)
      (Fields.cons (write_int256 i h.1) (.cons (write_fec p.fec h.2.1) (.cons (write_int _ h.2.2.1)
        (.cons (write_long _ h.2.2.2.1) (.cons (write_int _ h.2.2.2.2.1) (.last (write_bytes _ h.2.2.2.2.2)))))))
  | confirm i p s =>
    exact boxed_plain find_rldp_confirm (by simp)
      (Fields.cons (write_int256 i h.1) (.cons (write_int _ h.2.1) (.last (write_int _ h.2.2))))
  | complete i p =>
    exact boxed_plain find_rldp_complete (by simp) (Fields.cons (write_int256 i h.1) (.last (write_int _ h.2)))

example : write (rldpPartVal (.part (List.replicate 32 1) ⟨⟨2000, 768, 3⟩, 0, 2000, 4, [1, 2, 3]⟩))
    (.boxed tl!"rldp.MessagePart") =
    some (Rldp.writePartMsg (.part (List.replicate 32 1) ⟨⟨2000, 768, 3⟩, 0, 2000, 4, [1, 2, 3]⟩)) :=
  C78_rldp_part _ ⟨by decide, ⟨by decide, by decide, by decide⟩, by decide, by decide, by decide, by decide⟩

/-! ### DHT -/

theorem dnode_fields (n : DNode) (h : n.wf) (hk : declaredKey n.id) :
    Fields [(tl!"id", keyVal n.id), (tl!"addr_list", addrListVal n.addrList), (tl!"version", .num n.version),
      (tl!"signature", .raw n.signature)] [(tl!"id", .boxed tl!"PublicKey"), (tl!"addr_list", .bare tl!"adnl.addressList"),
      (tl!"version", .int), (tl!"signature", .bytes)] (writeDNode n) :=
  Fields.cons (C78_public_key _ h.1 hk) (.cons (C78_address_list _ h.2.1) (.cons (write_int _ h.2.2.1)
    (.last (write_bytes _ h.2.2.2))))

theorem write_dnode (n : DNode) (h : n.wf) (hk : declaredKey n.id) :
    write (dnodeVal n) (.bare tl!"dht.node") = some (writeDNode n) :=
  bare_plain find_dht_node (by simp) (dnode_fields n h hk)

theorem write_dnodes (l : List DNode) (hl : l.length < 2 ^ 32) (h : ∀ n ∈ l, n.wf ∧ declaredKey n.id) :
    Fields [(tl!"nodes", .vec (l.map dnodeVal))] [(tl!"nodes", .vector (.bare tl!"dht.node"))] (Tl.writeVec writeDNode l) :=
  .last (write_vector l dnodeVal _ writeDNode hl fun n hn => write_dnode n (h n hn).1 (h n hn).2)

theorem write_dkey (k : DhtProto.Key) (h : k.wf) : write (dkeyVal k) (.bare tl!"dht.key") = some (writeKey k) :=
  bare_plain find_dht_key (by simp)
    (Fields.cons (write_int256 _ h.1) (.cons (write_bytes _ h.2.1) (.last (write_int _ h.2.2))))

theorem write_rule (r : UpdateRule) : write (ruleVal r) (.boxed tl!"dht.UpdateRule") = some (writeRule r) := by
  cases r with
  | signature => exact boxed_empty find_dht_updateRule_signature rfl
  | anybody => exact boxed_empty find_dht_updateRule_anybody rfl
  | overlayNodes => exact boxed_empty find_dht_updateRule_overlayNodes rfl

theorem keyDesc_fields (d : KeyDesc) (h : d.wf) (hk : declaredKey d.id) :
    Fields [(tl!"key", dkeyVal d.key), (tl!"id", keyVal d.id), (tl!"update_rule", ruleVal d.rule),
      (tl!"signature", .raw d.signature)] [(tl!"key", .bare tl!"dht.key"), (tl!"id", .boxed tl!"PublicKey"),
      (tl!"update_rule", .boxed tl!"dht.UpdateRule"), (tl!"signature", .bytes)] (writeKeyDesc d) :=
  Fields.cons (write_dkey _ h.1) (.cons (C78_public_key _ h.2.1 hk) (.cons (write_rule _) (.last (write_bytes _ h.2.2))))

theorem value_fields (v : DhtProto.Value) (h : v.wf) (hk : declaredKey v.key.id) :
    Fields [(tl!"key", keyDescVal v.key), (tl!"value", .raw v.value), (tl!"ttl", .num v.ttl),
      (tl!"signature", .raw v.signature)] [(tl!"key", .bare tl!"dht.keyDescription"), (tl!"value", .bytes),
      (tl!"ttl", .int), (tl!"signature", .bytes)] (writeValue v) :=
  Fields.cons (bare_plain find_dht_keyDescription (by simp) (keyDesc_fields _ h.1 hk))
    (.cons (write_bytes _ h.2.1) (.cons (write_int _ h.2.2.1) (.last (write_bytes _ h.2.2.2))))

/-- DHT keys (as hashed), key descriptions, values and node records (as signed). -/
theorem C78_dht_boxed :
    (∀ k : DhtProto.Key, k.wf → write (dkeyVal k) (.boxed tl!"dht.Key") = some (writeKeyBoxed k)) ∧
    (∀ d : KeyDesc, d.wf → declaredKey d.id →
      write (keyDescVal d) (.boxed tl!"dht.KeyDescription") = some (writeKeyDescBoxed d)) ∧
    (∀ v : DhtProto.Value, v.wf → declaredKey v.key.id →
      write (valueVal v) (.boxed tl!"dht.Value") = some (writeValueBoxed v)) ∧
    (∀ n : DNode, n.wf → declaredKey n.id → write (dnodeVal n) (.boxed tl!"dht.Node") = some (writeDNodeBoxed n)) := by
  refine ⟨fun k h => ?_, fun d h hk => ?_, fun v h hk => ?_, fun n h hk => ?_⟩
  · exact boxed_plain find_dht_key (by simp)
      (Fields.cons (write_int256 _ h.1) (.cons (write_bytes _ h.2.1) (.last (write_int _ h.2.2))))
  · exact boxed_plain find_dht_keyDescription (by simp) (keyDesc_fields d h hk)
  · exact boxed_plain find_dht_value (by simp) (value_fields v h hk)
  · exact boxed_plain find_dht_node (by simp) (dnode_fields n h hk)

/-- A query as the scheme has it; with a node record, the call of `dht.query` comes first. -/
def queryCall : Dht.Query → Option Bytes
  | .ping r => writeCall tl!"dht.ping" [(tl!"random_id", .num r)]
  | .findNode key k => writeCall tl!"dht.findNode" [(tl!"key", .raw key), (tl!"k", .num k)]
  | .findValue key k => writeCall tl!"dht.findValue" [(tl!"key", .raw key), (tl!"k", .num k)]
  | .getSignedAddressList => writeCall tl!"dht.getSignedAddressList" []
  | .store v => writeCall tl!"dht.store" [(tl!"value", valueVal v)]
  | .withNode n q =>
    match writeCall tl!"dht.query" [(tl!"node", dnodeVal n)], queryCall q with
    | some a, some b => some (a ++ b)
    | _, _ => none

/-- Field widths of a query. -/
def queryWf : Dht.Query → Prop
  | .ping r => r < 2 ^ 64
  | .findNode key k => key.length = 32 ∧ k < 2 ^ 32
  | .findValue key k => key.length = 32 ∧ k < 2 ^ 32
  | .getSignedAddressList => True
  | .store v => v.wf ∧ declaredKey v.key.id
  | .withNode n q => n.wf ∧ declaredKey n.id ∧ queryWf q

theorem call_plain {con : Text} {d : Decl} {fields : List (Text × Val)} {b : Bytes} (hf : find con = some d)
    (hp : ∀ f ∈ d.fields, ∀ b t, f.2 ≠ .cond b t) (h : Fields fields d.fields b) :
    writeCall con fields = some (Tl.writeU32 d.id ++ b) := by
  unfold writeCall
  rw [hf]
  exact boxed_plain hf hp h

/-- DHT queries. -/
theorem C78_dht_query (q : Dht.Query) (h : queryWf q) : queryCall q = some (Dht.writeQuery q) := by
  induction q with
  | ping r => exact call_plain find_dht_ping (by simp) (Fields.last (write_long _ h))
  | findNode key k =>
    exact call_plain find_dht_findNode (by simp) (Fields.cons (write_int256 _ h.1) (.last (write_int _ h.2)))
  | findValue key k =>
    exact call_plain find_dht_findValue (by simp) (Fields.cons (write_int256 _ h.1) (.last (write_int _ h.2)))
  | getSignedAddressList =>
    have := call_plain find_dht_getSignedAddressList (by simp) Fields.nil
    rw [queryCall, this, Dht.writeQuery, List.append_nil]
    rfl
  | store v =>
    exact call_plain find_dht_store (by simp)
      (Fields.last (bare_plain find_dht_value (by simp) (value_fields v h.1 h.2)))
  | withNode n q ih =>
    have h1 := call_plain find_dht_query (by simp) (Fields.last (name := tl!"node") (write_dnode n h.1 h.2.1))
    rw [queryCall, h1, ih h.2.2, Dht.writeQuery, ← List.append_assoc]
    rfl

/-- DHT answers. -/
theorem C78_dht_answer :
    (∀ r, r < 2 ^ 64 → write (.obj tl!"dht.pong" [(tl!"random_id", .num r)]) (.boxed tl!"dht.Pong") =
      some (Dht.writePong r)) ∧
    (∀ l : List DNode, l.length < 2 ^ 32 → (∀ n ∈ l, n.wf ∧ declaredKey n.id) →
      write (dnodesVal l) (.boxed tl!"dht.Nodes") = some (Dht.writeDNodes l)) ∧
    write (.obj tl!"dht.stored" []) (.boxed tl!"dht.Stored") = some Dht.writeStored ∧
    (∀ v : DhtProto.Value, v.wf → declaredKey v.key.id →
      write (valueResultVal (.found v)) (.boxed tl!"dht.ValueResult") = some (writeValueResult (.found v))) ∧
    (∀ l : List DNode, l.length < 2 ^ 32 → (∀ n ∈ l, n.wf ∧ declaredKey n.id) →
      write (valueResultVal (.notFound l)) (.boxed tl!"dht.ValueResult") = some (writeValueResult (.notFound l))) := by
  refine ⟨fun r h => ?_, fun l hl h => ?_, ?_, fun v h hk => ?_, fun l hl h => ?_⟩
  · exact boxed_plain find_dht_pong (by simp) (Fields.last (write_long _ h))
  · exact boxed_plain find_dht_nodes (by simp) (write_dnodes l hl h)
  · exact boxed_empty find_dht_stored rfl
  · exact boxed_plain find_dht_valueFound (by simp) (Fields.last (C78_dht_boxed.2.2.1 v h hk))
  · exact boxed_plain find_dht_valueNotFound (by simp)
      (Fields.last (bare_plain find_dht_nodes (by simp) (write_dnodes l hl h)))

/-! ### Overlays -/

theorem write_onode (n : ONode) (h : n.wf) (hk : declaredKey n.id) :
    write (onodeVal n) (.bare tl!"overlay.node") = some (writeONode n) :=
  bare_plain find_overlay_node (by simp)
    (Fields.cons (C78_public_key _ h.1 hk) (.cons (write_int256 _ h.2.1) (.cons (write_int _ h.2.2.1)
      (.last (write_bytes _ h.2.2.2)))))

theorem write_onodes (l : List ONode) (hl : l.length < 2 ^ 32) (h : ∀ n ∈ l, n.wf ∧ declaredKey n.id) :
    Fields [(tl!"nodes", .vec (l.map onodeVal))] [(tl!"nodes", .vector (.bare tl!"overlay.node"))]
      (Tl.writeVec writeONode l) :=
  .last (write_vector l onodeVal _ writeONode hl fun n hn => write_onode n (h n hn).1 (h n hn).2)

/-- Lists of overlay nodes, the query for them, what is signed in a node record, and the prefixes of overlay
messages and queries. -/
theorem C78_overlay_nodes (l : List ONode) (hl : l.length < 2 ^ 32) (h : ∀ n ∈ l, n.wf ∧ declaredKey n.id)
    (id overlay : Bytes) (version : Nat) (hi : id.length = 32) (ho : overlay.length = 32) (hv : version < 2 ^ 32) :
    write (onodesVal l) (.boxed tl!"overlay.Nodes") = some (writeONodes l) ∧
    writeCall tl!"overlay.getRandomPeers" [(tl!"peers", onodesVal l)] = some (Overlay.writeGetRandomPeers l) ∧
    write (.obj tl!"overlay.node.toSign" [(tl!"id", .obj tl!"adnl.id.short" [(tl!"id", .raw id)]),
      (tl!"overlay", .raw overlay), (tl!"version", .num version)]) (.boxed tl!"overlay.node.ToSign") =
      some (writeNodeToSign id overlay version) ∧
    write (.obj tl!"overlay.message" [(tl!"overlay", .raw overlay)]) (.boxed tl!"overlay.Message") =
      some (Overlay.messagePrefix overlay) ∧
    writeCall tl!"overlay.query" [(tl!"overlay", .raw overlay)] = some (Overlay.queryPrefix overlay) := by
  refine ⟨?_, ?_, ?_, ?_, ?_⟩
  · exact boxed_plain find_overlay_nodes (by simp) (write_onodes l hl h)
  · exact call_plain find_overlay_getRandomPeers (by simp)
      (Fields.last (bare_plain find_overlay_nodes (by simp) (write_onodes l hl h)))
  · exact boxed_plain find_overlay_node_toSign (by simp)
      (Fields.cons (bare_plain find_adnl_id_short (by simp) (Fields.last (write_int256 id hi)))
        (.cons (write_int256 overlay ho) (.last (write_int version hv))))
  · exact boxed_plain find_overlay_message (by simp) (Fields.last (write_int256 overlay ho))
  · exact call_plain find_overlay_query (by simp) (Fields.last (write_int256 overlay ho))

example : write (onodesVal [⟨.ed25519 (List.replicate 32 1), List.replicate 32 2, 3, List.replicate 64 4⟩])
    (.boxed tl!"overlay.Nodes") =
    some (writeONodes [⟨.ed25519 (List.replicate 32 1), List.replicate 32 2, 3, List.replicate 64 4⟩]) :=
  (C78_overlay_nodes _ (by decide)
    (fun n hn => by
      rw [List.mem_singleton.mp hn]
      exact ⟨⟨List.length_replicate, List.length_replicate, by decide, by decide⟩, trivial⟩)
    (List.replicate 32 5) (List.replicate 32 6) 7 List.length_replicate List.length_replicate (by decide)).1

/-- Certificates whose issuer has a declared key. -/
def declaredCert : Overlay.Certificate → Prop
  | .certificate k _ _ _ => declaredKey k
  | .empty => True

theorem write_certificate (x : Overlay.Certificate) (h : x.wf) (hk : declaredCert x) :
    write (certificateVal x) (.boxed tl!"overlay.Certificate") = some (Overlay.writeCertificate x) := by
  cases x with
  | certificate k e m s =>
    exact boxed_plain find_overlay_certificate (by simp)
      (Fields.cons (C78_public_key k h.1 hk) (.cons (write_int _ h.2.1) (.cons (write_int _ h.2.2.1)
        (.last (write_bytes _ h.2.2.2)))))
  | empty => exact boxed_empty find_overlay_emptyCertificate rfl

/-- The keys in a broadcast are declared. -/
def declaredBroadcast : Overlay.Broadcast → Prop
  | .ordinary b => declaredKey b.src ∧ declaredCert b.certificate
  | .fec b => declaredKey b.src ∧ declaredCert b.certificate
  | .fecShort k c _ _ _ _ => declaredKey k ∧ declaredCert c
  | _ => True

/-- Broadcasts. -/
theorem C78_broadcast (b : Overlay.Broadcast) (h : b.wf) (hk : declaredBroadcast b) :
    write (broadcastVal b) (.boxed tl!"overlay.Broadcast") = some (Overlay.writeBroadcast b) := by
  cases b with
  | ordinary b =>
    obtain ⟨h1, h2, h3, h4, h5, h6⟩ := h
    exact boxed_plain find_overlay_broadcast (by simp)
      (Fields.cons (C78_public_key _ h1 hk.1) (.cons (write_certificate _ h2 hk.2) (.cons (write_int _ h3)
        (.cons (write_bytes _ h4) (.cons (write_int _ h5) (.last (write_bytes _ h6)))))))
  | fec b =>
    obtain ⟨h1, h2, h3, h4, h5, h6, h7, h8, h9, h10⟩ := h
    exact boxed_plain find_overlay_broadcastFec (by simp)
      (Fields.cons (C78_public_key _ h1 hk.1) (.cons (write_certificate _ h2 hk.2) (.cons (write_int256 _ h3)
        (.cons (write_int _ h4) (.cons (write_int _ h5) (.cons (write_bytes _ h6) (.cons (write_int _ h7)
          (.cons (write_fec _ h8) (.cons (write_int _ h9) (.last (write_bytes _ h10)))))))))))
  | fecShort k c x p n s =>
    obtain ⟨h1, h2, h3, h4, h5, h6⟩ := h
    exact boxed_plain find_overlay_broadcastFecShort (by simp)
      (Fields.cons (C78_public_key _ h1 hk.1) (.cons (write_certificate _ h2 hk.2) (.cons (write_int256 _ h3)
        (.cons (write_int256 _ h4) (.cons (write_int _ h5) (.last (write_bytes _ h6)))))))
  | notFound => exact boxed_empty find_overlay_broadcastNotFound rfl
  | fecCompleted x => exact boxed_plain find_overlay_fec_completed (by simp) (Fields.last (write_int256 x h))
  | fecReceived x => exact boxed_plain find_overlay_fec_received (by simp) (Fields.last (write_int256 x h))
  | unicast d => exact boxed_plain find_overlay_unicast (by simp) (Fields.last (write_bytes d h))

example : write (broadcastVal (.ordinary ⟨.ed25519 (List.replicate 32 1),
      .certificate (.ed25519 (List.replicate 32 2)) 10 20 (List.replicate 64 3), 0, [1, 2, 3], 7, List.replicate 64 1⟩))
      (.boxed tl!"overlay.Broadcast") =
    some (Overlay.writeBroadcast (.ordinary ⟨.ed25519 (List.replicate 32 1),
      .certificate (.ed25519 (List.replicate 32 2)) 10 20 (List.replicate 64 3), 0, [1, 2, 3], 7, List.replicate 64 1⟩)) :=
  C78_broadcast _ ⟨List.length_replicate, ⟨List.length_replicate, by decide, by decide, by decide⟩, by decide, by decide,
    by decide, by decide⟩ ⟨trivial, trivial⟩

/-- What is signed in a broadcast: the scheme's `toSign` of the hash of the scheme's id; for a coded broadcast
the id of the part contains the hash of the id of the broadcast. -/
theorem C78_broadcast_signed (sha : Bytes → Bytes) (hs : ∀ b, (sha b).length = 32) (data : Bytes) (date : Nat)
    (hd : date < 2 ^ 32) (source : Option Bytes) (hsrc : ∀ x, source = some x → x.length = 32)
    (dataHash : Bytes) (hh : dataHash.length = 32) (dataSize flags seqno : Nat) (h1 : dataSize < 2 ^ 32)
    (h2 : flags < 2 ^ 32) (h3 : seqno < 2 ^ 32) (params : Rldp.FecType) (hp : params.wf) (part : Bytes) :
    (∃ id, write (.obj tl!"overlay.broadcast.id" [(tl!"src", .raw (source.getD (List.replicate 32 0))),
        (tl!"data_hash", .raw (sha data)), (tl!"flags", .num 1)]) (.boxed tl!"overlay.broadcast.Id") = some id ∧
      write (.obj tl!"overlay.broadcast.toSign" [(tl!"hash", .raw (sha id)), (tl!"date", .num date)])
        (.boxed tl!"overlay.broadcast.ToSign") = some (Overlay.ordinaryToSign sha data date source)) ∧
    (∃ fec id partId, write (fecVal params) (.boxed tl!"fec.Type") = some fec ∧
      write (.obj tl!"overlay.broadcastFec.id" [(tl!"src", .raw (source.getD (List.replicate 32 0))),
        (tl!"type", .raw (sha fec)), (tl!"data_hash", .raw dataHash), (tl!"size", .num dataSize),
        (tl!"flags", .num flags)]) (.boxed tl!"overlay.broadcastFec.Id") = some id ∧
      write (.obj tl!"overlay.broadcastFec.partId" [(tl!"broadcast_hash", .raw (sha id)), (tl!"data_hash", .raw (sha part)),
        (tl!"seqno", .num seqno)]) (.boxed tl!"overlay.broadcastFec.PartId") = some partId ∧
      write (.obj tl!"overlay.broadcast.toSign" [(tl!"hash", .raw (sha partId)), (tl!"date", .num date)])
        (.boxed tl!"overlay.broadcast.ToSign") =
        some (Overlay.fecToSign sha dataHash dataSize date flags params part seqno source)) := by
  have hsl : (source.getD (List.replicate 32 0)).length = 32 := by
    cases source with
    | none => simp
    | some x => exact hsrc x rfl
  have sign : ∀ b, write (.obj tl!"overlay.broadcast.toSign" [(tl!"hash", .raw (sha b)), (tl!"date", .num date)])
      (.boxed tl!"overlay.broadcast.ToSign") = some (Overlay.writeToSign (sha b) date) := fun b =>
    boxed_plain find_overlay_broadcast_toSign (by simp)
      (Fields.cons (write_int256 _ (hs _)) (.last (write_int _ hd)))
  refine ⟨⟨_, boxed_plain find_overlay_broadcast_id (by simp)
    (Fields.cons (write_int256 _ hsl) (.cons (write_int256 _ (hs _)) (.last (write_int _ (by decide))))), sign _⟩, ?_⟩
  refine ⟨_, _, _, write_fec params hp, boxed_plain find_overlay_broadcastFec_id (by simp)
    (Fields.cons (write_int256 _ hsl) (.cons (write_int256 _ (hs _)) (.cons (write_int256 _ hh) (.cons (write_int _ h1)
      (.last (write_int _ h2)))))),
    boxed_plain find_overlay_broadcastFec_partId (by simp)
      (Fields.cons (write_int256 _ (hs _)) (.cons (write_int256 _ (hs _)) (.last (write_int _ h3)))), sign _⟩

/-- A hash function for examples. -/
def toySha (b : Bytes) : Bytes := (b.reverse ++ List.replicate 32 0).take 32

theorem toySha_length (b : Bytes) : (toySha b).length = 32 := by simp [toySha]

example : ∃ id, write (.obj tl!"overlay.broadcast.id" [(tl!"src", .raw (List.replicate 32 9)),
      (tl!"data_hash", .raw (toySha [1, 2, 3])), (tl!"flags", .num 1)]) (.boxed tl!"overlay.broadcast.Id") =
      some id ∧
    write (.obj tl!"overlay.broadcast.toSign" [(tl!"hash", .raw (toySha id)), (tl!"date", .num 5)])
      (.boxed tl!"overlay.broadcast.ToSign") =
      some (Overlay.ordinaryToSign toySha [1, 2, 3] 5 (some (List.replicate 32 9))) :=
  (C78_broadcast_signed toySha toySha_length [1, 2, 3] 5 (by decide)
    (some (List.replicate 32 9)) (fun x hx => by cases hx; exact List.length_replicate) (List.replicate 32 4)
    List.length_replicate 3 0 1 (by decide) (by decide) (by decide) ⟨2000, 768, 3⟩ ⟨by decide, by decide, by decide⟩
    [1]).1

/-- Ids of overlays: what is hashed. -/
theorem C78_overlay_id (workchain shard : Nat) (zeroState uniqueHash : Bytes) (nodes : List Bytes)
    (h1 : workchain < 2 ^ 32) (h2 : shard < 2 ^ 64) (h3 : zeroState.length = 32) (h4 : uniqueHash.length = 32)
    (h5 : nodes.length < 2 ^ 32) (h6 : ∀ n ∈ nodes, n.length = 32) :
    write (.obj tl!"tonNode.shardPublicOverlayId" [(tl!"workchain", .num workchain), (tl!"shard", .num shard),
      (tl!"zero_state_file_hash", .raw zeroState)]) (.boxed tl!"tonNode.ShardPublicOverlayId") =
      some (Overlay.writeShardPublicOverlayId workchain shard zeroState) ∧
    write (.obj tl!"catchain.firstblock" [(tl!"unique_hash", .raw uniqueHash), (tl!"nodes", .vec (nodes.map .raw))])
      (.boxed tl!"catchain.FirstBlock") = some (Overlay.writeCatchainFirstBlock uniqueHash nodes) := by
  refine ⟨?_, ?_⟩
  · exact boxed_plain find_tonNode_shardPublicOverlayId (by simp)
      (Fields.cons (write_int _ h1) (.cons (write_long _ h2) (.last (write_int256 _ h3))))
  · exact boxed_plain find_catchain_firstblock (by simp)
      (Fields.cons (write_int256 _ h4) (.last (write_vector nodes Val.raw .int256 (fun x => x) h5
        fun n hn => write_int256 n (h6 n hn))))

example : write (.obj tl!"catchain.firstblock" [(tl!"unique_hash", .raw (List.replicate 32 1)),
      (tl!"nodes", .vec [.raw (List.replicate 32 2), .raw (List.replicate 32 3)])]) (.boxed tl!"catchain.FirstBlock") =
    some (Overlay.writeCatchainFirstBlock (List.replicate 32 1) [List.replicate 32 2, List.replicate 32 3]) :=
  (C78_overlay_id 0xffffffff (2 ^ 63) (List.replicate 32 7) (List.replicate 32 1)
    [List.replicate 32 2, List.replicate 32 3] (by decide) (by decide) List.length_replicate List.length_replicate (by decide)
    (by
      intro n hn
      rcases List.mem_cons.mp hn with rfl | hn
      · exact List.length_replicate
      · rw [List.mem_singleton.mp hn]; exact List.length_replicate)).2

/-- Ids of overlays, from the scheme alone: the id of a workchain's overlay is the hash of the declared object for the
shard 8000000000000000, the id of a catchain's overlay that of the declared first block, and the short id is the hash
of the declared key. -/
theorem C78_overlay_id_hash (sha : Bytes → Bytes) (hs : ∀ x, (sha x).length = 32) (workchain : Nat)
    (zeroState uniqueHash : Bytes) (nodes : List Bytes)
    (h1 : workchain < 2 ^ 32) (h3 : zeroState.length = 32) (h4 : uniqueHash.length = 32)
    (h5 : nodes.length < 2 ^ 32) (h6 : ∀ n ∈ nodes, n.length = 32) :
    (∃ b k, write (.obj tl!"tonNode.shardPublicOverlayId" [(tl!"workchain", .num workchain),
        (tl!"shard", .num 0x8000000000000000), (tl!"zero_state_file_hash", .raw zeroState)])
        (.boxed tl!"tonNode.ShardPublicOverlayId") = some b ∧
      Overlay.forWorkchain sha workchain zeroState = sha b ∧
      write (.obj tl!"pub.overlay" [(tl!"name", .raw (sha b))]) (.boxed tl!"PublicKey") = some k ∧
      Overlay.shortOfFull sha (Overlay.forWorkchain sha workchain zeroState) = sha k) ∧
    (∃ b k, write (.obj tl!"catchain.firstblock" [(tl!"unique_hash", .raw uniqueHash), (tl!"nodes", .vec (nodes.map .raw))])
        (.boxed tl!"catchain.FirstBlock") = some b ∧
      Overlay.forCatchain sha uniqueHash nodes = sha b ∧
      write (.obj tl!"pub.overlay" [(tl!"name", .raw (sha b))]) (.boxed tl!"PublicKey") = some k ∧
      Overlay.shortOfFull sha (Overlay.forCatchain sha uniqueHash nodes) = sha k) := by
  obtain ⟨w1, w2⟩ := C78_overlay_id workchain (2 ^ 63) zeroState uniqueHash nodes h1 (by decide) h3 h4 h5 h6
  have hk : ∀ x, write (.obj tl!"pub.overlay" [(tl!"name", .raw (sha x))]) (.boxed tl!"PublicKey") =
      some (writePubKey (.overlay (sha x))) := fun x =>
    boxed_plain find_pub_overlay (by simp) (Fields.last (write_bytes _ (by rw [hs]; decide)))
  exact ⟨⟨_, _, w1, rfl, hk _, rfl⟩, ⟨_, _, w2, rfl, hk _, rfl⟩⟩

example : ∃ b k, write (.obj tl!"tonNode.shardPublicOverlayId" [(tl!"workchain", .num 0xffffffff),
      (tl!"shard", .num 0x8000000000000000), (tl!"zero_state_file_hash", .raw (List.replicate 32 7))])
      (.boxed tl!"tonNode.ShardPublicOverlayId") = some b ∧
    Overlay.forWorkchain toySha 0xffffffff (List.replicate 32 7) =
      toySha b ∧
    write (.obj tl!"pub.overlay" [(tl!"name", .raw (toySha b))]) (.boxed tl!"PublicKey") = some k ∧
    Overlay.shortOfFull toySha
      (Overlay.forWorkchain toySha 0xffffffff (List.replicate 32 7)) =
      toySha k :=
  (C78_overlay_id_hash toySha toySha_length 0xffffffff (List.replicate 32 7)
    (List.replicate 32 1) [] (by decide) List.length_replicate List.length_replicate (by decide) (fun n hn => by cases hn)).1

/-- Spec: two given inputs collide. -/
def Collide (sha : Bytes → Bytes) (x y : Bytes) : Prop := x ≠ y ∧ sha x = sha y

/-- Different overlays have different ids, unless the hashed objects - those of the scheme (C78_overlay_id) - or the
keys made of their hashes collide. -/
theorem C78_overlay_ids_differ (sha : Bytes → Bytes) (hs : ∀ x, (sha x).length = 32)
    (w w' : Nat) (z z' u : Bytes) (nodes : List Bytes) (h1 : w < 2 ^ 32) (h2 : w' < 2 ^ 32) :
    let b := Overlay.writeShardPublicOverlayId w (2 ^ 63) z
    let b' := Overlay.writeShardPublicOverlayId w' (2 ^ 63) z'
    let b'' := Overlay.writeCatchainFirstBlock u nodes
    (Overlay.shortOfFull sha (Overlay.forWorkchain sha w z) = Overlay.shortOfFull sha (Overlay.forWorkchain sha w' z') →
      w = w' ∧ z = z' ∨ Collide sha b b' ∨
        Collide sha (writePubKey (.overlay (sha b))) (writePubKey (.overlay (sha b')))) ∧
    (Overlay.shortOfFull sha (Overlay.forWorkchain sha w z) = Overlay.shortOfFull sha (Overlay.forCatchain sha u nodes) →
      Collide sha b b'' ∨ Collide sha (writePubKey (.overlay (sha b))) (writePubKey (.overlay (sha b'')))) := by
  intro b b' b''
  have hfull : ∀ x y, sha (writePubKey (.overlay (sha x))) = sha (writePubKey (.overlay (sha y))) →
      x = y ∨ Collide sha x y ∨ Collide sha (writePubKey (.overlay (sha x))) (writePubKey (.overlay (sha y))) := by
    intro x y h
    by_cases hk : writePubKey (.overlay (sha x)) = writePubKey (.overlay (sha y))
    · have e1 := pubKey_encodes (.overlay (sha x)) (show _ < _ by rw [hs]; decide) []
      have e2 := pubKey_encodes (.overlay (sha y)) (show _ < _ by rw [hs]; decide) []
      rw [hk, e2] at e1
      simp only [Option.some.injEq, Prod.mk.injEq, PubKey.overlay.injEq, and_true] at e1
      by_cases hx : x = y
      · exact .inl hx
      · exact .inr (.inl ⟨hx, e1.symm⟩)
    · exact .inr (.inr ⟨hk, h⟩)
  constructor
  · intro h
    rcases hfull b b' h with h | h | h
    · left
      unfold b b' Overlay.writeShardPublicOverlayId at h
      have h := List.append_cancel_left h
      obtain ⟨e1, h⟩ := List.append_inj h rfl
      have h := List.append_cancel_left h
      refine ⟨?_, h⟩
      have e3 := Tl.Encodes.u32 h1 []
      rw [e1, Tl.Encodes.u32 h2 []] at e3
      simpa using e3.symm
    · exact .inr (.inl h)
    · exact .inr (.inr h)
  · intro h
    rcases hfull b b'' h with h | h | h
    · exfalso
      unfold b b'' Overlay.writeShardPublicOverlayId Overlay.writeCatchainFirstBlock at h
      obtain ⟨e1, -⟩ := List.append_inj h rfl
      revert e1
      decide
    · exact .inl h
    · exact .inr h

/-- The overlays of workchains 0 and -1 with the same zero state. -/
example (h : Overlay.shortOfFull toySha (Overlay.forWorkchain toySha 0 (List.replicate 32 7)) =
      Overlay.shortOfFull toySha (Overlay.forWorkchain toySha 0xffffffff (List.replicate 32 7))) :
    Collide toySha (Overlay.writeShardPublicOverlayId 0 (2 ^ 63) (List.replicate 32 7))
        (Overlay.writeShardPublicOverlayId 0xffffffff (2 ^ 63) (List.replicate 32 7)) ∨
      Collide toySha
        (writePubKey (.overlay (toySha (Overlay.writeShardPublicOverlayId 0 (2 ^ 63) (List.replicate 32 7)))))
        (writePubKey (.overlay (toySha (Overlay.writeShardPublicOverlayId 0xffffffff (2 ^ 63) (List.replicate 32 7))))) :=
  ((C78_overlay_ids_differ toySha toySha_length 0 0xffffffff (List.replicate 32 7) (List.replicate 32 7) [] [] (by decide)
    (by decide)).1 h).resolve_left (fun h => absurd h.1 (by decide))

/-! ### What is declared but not understood -/

/-- An address of the new internet protocol is declared, but a list which has one is not read at all. -/
theorem C78_udp6_not_read (ip : Bytes) (port : Nat) (hi : ip.length = 16) (hp : port < 2 ^ 32) :
    ∃ b, write (.obj tl!"adnl.address.udp6" [(tl!"ip", .raw ip), (tl!"port", .num port)]) (.boxed tl!"adnl.Address") =
        some b ∧ readAddr b = none ∧
      ∀ n rest, 0 < n → n < 2 ^ 32 → readAddrList (Tl.writeU32 n ++ (b ++ rest)) = none := by
  have hw : write (.raw ip) .int128 = some ip := by simp [write, hi]
  have hu : ∀ n rest, n < 2 ^ 32 → Tl.readU32 (Tl.writeU32 n ++ rest) = some (n, rest) :=
    fun n rest hn => Tl.Encodes.u32 hn rest
  have hid : ∀ rest, readAddr (Tl.writeU32 0xe31d63fa ++ rest) = none := by
    intro rest
    unfold readAddr
    rw [Tl.bind_def, hu _ _ (by decide)]
    rfl
  refine ⟨_, boxed_plain find_adnl_address_udp6 (by simp) (Fields.cons hw (.last (write_int port hp))), hid _, ?_⟩
  intro n rest h0 hn
  obtain ⟨m, rfl⟩ : ∃ m, n = m + 1 := ⟨n - 1, by omega⟩
  unfold readAddrList
  rw [Tl.bind_def, hu _ _ hn, List.append_assoc]
  have : Tl.readN readAddr (m + 1) (Tl.writeU32 0xe31d63fa ++ ((ip ++ Tl.writeU32 port) ++ rest)) = none := by
    rw [Tl.readN, Tl.bind_def, hid]
  simp only [Tl.bind_def, this]

/-! ### The hypotheses are met -/

example : write (packetVal Props.samplePacket 0xcd9
    [.createChannel (List.replicate 32 9) 5, .custom [1, 2, 3, 4, 5]]) (.boxed tl!"adnl.PacketContents") =
    some (writePacket Props.samplePacket) :=
  C78_packet Props.samplePacket _ Props.samplePacket_wf.2 Props.samplePacket_wf.1 (by intro k hk; cases hk; trivial)

/-- The bytes of a query, worked out from the declarations. -/
example : queryCall (.findNode (List.replicate 32 7) 6) =
    some ([0x6b, 0xce, 0xe2, 0x6c] ++ List.replicate 32 7 ++ [6, 0, 0, 0]) := by
  rw [C78_dht_query (.findNode (List.replicate 32 7) 6) ⟨by decide, by decide⟩]
  decide

example : queryWf (.withNode ⟨.ed25519 (List.replicate 32 1), ⟨some ⟨1, 2⟩, 3, 4, 5⟩, 6, List.replicate 64 9⟩
    (.store ⟨⟨⟨List.replicate 32 3, [97], 0⟩, .ed25519 (List.replicate 32 1), .signature, List.replicate 64 2⟩,
      [1, 2], 100, List.replicate 64 4⟩)) := by
  refine ⟨⟨List.length_replicate, ⟨?_, ?_⟩, ?_⟩, trivial, ⟨⟨⟨?_, ?_⟩, List.length_replicate, ?_⟩, ?_⟩, trivial⟩
  all_goals first
    | decide
    | (constructor <;> decide)
    | (intro a ha; cases ha; decide)

example : Rldp.PartMsg.wf (.part (List.replicate 32 1) ⟨⟨2000, 768, 3⟩, 0, 2000, 4, [1, 2, 3]⟩) := by
  refine ⟨by decide, ⟨by decide, by decide, by decide⟩, by decide, by decide, by decide, by decide⟩

example : declaredBroadcast (.ordinary ⟨.ed25519 (List.replicate 32 1), .empty, 0, [1, 2, 3], 7, List.replicate 64 1⟩) ∧
    Overlay.Broadcast.wf (.ordinary ⟨.ed25519 (List.replicate 32 1), .empty, 0, [1, 2, 3], 7, List.replicate 64 1⟩) :=
  ⟨⟨trivial, trivial⟩, List.length_replicate, trivial, by decide, by decide, by decide, by decide⟩

example : ∃ sha : Bytes → Bytes, (∀ b, (sha b).length = 32) ∧ sha [1] ≠ sha [2] :=
  ⟨fun b => (b ++ List.replicate 32 0).take 32, by intro b; simp, by decide⟩

end Verif.Spec.Scheme
