import Verif.Props.PacketCodec
import Verif.Props.OverlayOrdinary
import Verif.Props.OverlayFec
import Verif.Props.Storage

/-!
# C73: a signature covers every field and is good for one purpose

One key of a node signs ADNL packets, DHT keys, values and node records, overlay node records and
broadcasts. The texts are those given to `sign` and `verify` in sender.rs:274, receiver.rs:384,
dht/storage.rs:92-96, dht/entry.rs:130-148, dht/node.rs:569, 582, 737-741, overlay/overlay.rs:468, 566-585,
739, 1088, 1246 and overlay/overlay_id.rs:76.
-/
namespace Verif.Signed
open Verif.Tl Verif.Address Verif.AdnlProto Verif.DhtProto Verif.Overlay Verif.Props

/-- Everything that is signed. -/
inductive Text where
  /-- packet contents without their signature; `q` is what they are read as -/
  | packet (raw : Bytes) (q : InPacket) (rest : Bytes)
  /-- description of a DHT key, with an empty signature -/
  | key (id name : Bytes) (idx : Nat) (owner : PubKey) (rule : UpdateRule)
  /-- DHT value with the signed description of its key, with an empty signature of its own -/
  | value (key : KeyDesc) (value : Bytes) (ttl : Nat)
  /-- DHT node record, with an empty signature -/
  | node (id : PubKey) (addresses : AddrList) (version : Nat)
  /-- member of an overlay -/
  | member (id overlay : Bytes) (version : Nat)
  /-- broadcast or part of one: hash of its description, date -/
  | broadcast (hash : Bytes) (date : Nat)

/-- As serialised for signing. -/
def Text.bytes : Text → Bytes
  | .packet raw _ _ => raw
  | .key id name idx owner rule => writeKeyDescBoxed ⟨⟨id, name, idx⟩, owner, rule, []⟩
  | .value k v ttl => writeValueBoxed ⟨k, v, ttl, []⟩
  | .node id addresses version => writeDNodeBoxed ⟨id, addresses, version, []⟩
  | .member id overlay version => writeNodeToSign id overlay version
  | .broadcast hash date => writeToSign hash date

/-- Field widths of the Rust types. -/
def Text.wf : Text → Prop
  | .packet raw q rest => readPacket raw = some (q, rest)
  | .key id name idx owner _ => id.length = 32 ∧ name.length < 2 ^ 24 ∧ idx < 2 ^ 32 ∧ owner.wf
  | .value k v ttl => k.wf ∧ v.length < 2 ^ 24 ∧ ttl < 2 ^ 32
  | .node id addresses version => id.wf ∧ addrListWf addresses ∧ version < 2 ^ 32
  | .member id overlay version => id.length = 32 ∧ overlay.length = 32 ∧ version < 2 ^ 32
  | .broadcast hash date => hash.length = 32 ∧ date < 2 ^ 32

/-- Constructor at the start of the text. -/
def tag : Text → Nat
  | .packet _ _ _ => 0xd142cd89
  | .key _ _ _ _ _ => 0x281d4e05
  | .value _ _ _ => 0x90ad27cb
  | .node _ _ _ => 0x84533248
  | .member _ _ _ => 0x03d8a8e1
  | .broadcast _ _ => 0xfa374e7c

theorem tag_read (x : Text) (h : x.wf) : ∃ r, readU32 x.bytes = some (tag x, r) := by
  cases x with
  | packet raw q rest =>
    obtain ⟨id, r0, h0, hq⟩ := bind_some h
    by_cases hid : id ≠ 0xd142cd89
    · rw [if_pos hid] at hq; cases hq
    · refine ⟨r0, ?_⟩
      rw [show (Text.packet raw q rest).bytes = raw from rfl, h0]
      simp only [ne_eq, Decidable.not_not] at hid
      rw [hid]; rfl
  | key => exact ⟨_, Encodes.u32 (n := 0x281d4e05) (by decide) _⟩
  | value => exact ⟨_, Encodes.u32 (n := 0x90ad27cb) (by decide) _⟩
  | node => exact ⟨_, Encodes.u32 (n := 0x84533248) (by decide) _⟩
  | member => exact ⟨_, Encodes.u32 (n := 0x03d8a8e1) (by decide) _⟩
  | broadcast => exact ⟨_, Encodes.u32 (n := 0xfa374e7c) (by decide) _⟩

theorem strip {t : Nat} {x y : Bytes} (h : writeU32 t ++ x = writeU32 t ++ y) : x = y :=
  List.append_cancel_left h

theorem enc_inj {α : Type} {rd : Reader α} {w w' : Bytes} {x y : α} (h : Encodes rd w x) (h' : Encodes rd w' y)
    (e : w = w') : x = y := by
  subst e; exact h.inj h'

theorem u32_inj {a b : Nat} (ha : a < 2 ^ 32) (hb : b < 2 ^ 32) (h : writeU32 a = writeU32 b) : a = b :=
  enc_inj (Encodes.u32 ha) (Encodes.u32 hb) h

/-- **C73** Two signed texts with the same bytes are the same: of the same kind, with the same fields. So a
signature made for a packet, a DHT record, a membership or a broadcast is not valid for any other record. -/
theorem C73_text_determines (x y : Text) (hx : x.wf) (hy : y.wf) (h : x.bytes = y.bytes) : x = y := by
  have ht : tag x = tag y := by
    obtain ⟨r, h1⟩ := tag_read x hx
    obtain ⟨r', h2⟩ := tag_read y hy
    rw [h, h2] at h1
    simp only [Option.some.injEq, Prod.mk.injEq] at h1
    exact h1.1.symm
  cases x with
  | packet raw q rest =>
    cases y <;> simp [tag] at ht
    cases h
    simp only [Text.wf] at hx hy
    rw [hx] at hy
    cases hy
    rfl
  | key id name idx owner rule =>
    cases y <;> simp [tag] at ht
    have := enc_inj (keyDesc_encodes _ ⟨⟨hx.1, hx.2.1, hx.2.2.1⟩, hx.2.2.2, by simp⟩)
      (keyDesc_encodes _ ⟨⟨hy.1, hy.2.1, hy.2.2.1⟩, hy.2.2.2, by simp⟩) (strip (h : writeU32 _ ++ _ = writeU32 _ ++ _))
    cases this
    rfl
  | value key value ttl =>
    cases y <;> simp [tag] at ht
    have := enc_inj (value_encodes _ ⟨hx.1, hx.2.1, hx.2.2, by simp⟩)
      (value_encodes _ ⟨hy.1, hy.2.1, hy.2.2, by simp⟩) (strip (h : writeU32 _ ++ _ = writeU32 _ ++ _))
    cases this
    rfl
  | node id addresses version =>
    cases y <;> simp [tag] at ht
    have := enc_inj (dnode_encodes _ ⟨hx.1, hx.2.1, hx.2.2, by simp⟩)
      (dnode_encodes _ ⟨hy.1, hy.2.1, hy.2.2, by simp⟩) (strip (h : writeU32 _ ++ _ = writeU32 _ ++ _))
    cases this
    rfl
  | member id overlay version =>
    cases y <;> simp [tag] at ht
    obtain ⟨h1, h2⟩ := List.append_inj (strip h) (by rw [hx.1, hy.1])
    obtain ⟨h3, h4⟩ := List.append_inj h2 (by rw [hx.2.1, hy.2.1])
    have := u32_inj hx.2.2 hy.2.2 h4
    subst h1 h3 this
    rfl
  | broadcast hash date =>
    cases y <;> simp [tag] at ht
    obtain ⟨h1, h2⟩ := List.append_inj (strip h) (by rw [hx.1, hy.1])
    have := u32_inj hx.2 hy.2 h2
    subst h1 this
    rfl

/-- Two records that differ in nothing but a version are two texts; a packet is a text. -/
example : (Text.member (List.replicate 32 1) (List.replicate 32 2) 3).wf ∧
    (Text.member (List.replicate 32 1) (List.replicate 32 2) 4).wf :=
  ⟨⟨by simp, by simp, by decide⟩, ⟨by simp, by simp, by decide⟩⟩

/-- Packets: what the receiver checks a signature against (receiver.rs:369-392) is such a text, so it is none
of the other records. -/
theorem C73_packet_texts (raw : Bytes) (q : InPacket) (r : Bytes) (info : SigInfo)
    (hq : readPacket raw = some (q, r)) (hi : q.signature = some info) (hlen : raw.length < 2 ^ 16) :
    ∃ buf signed, extract info raw = some (buf, signed, info.signature) ∧
      (Text.packet signed { q with signature := none } r).wf ∧
      ∀ y : Text, y.wf → y.bytes = signed → y = Text.packet signed { q with signature := none } r := by
  obtain ⟨buf, signed, h1, -, h3⟩ := C09_verified_bytes_determine_contents raw q r info hq hi hlen
  exact ⟨buf, signed, h1, h3, fun y hy e => C73_text_determines y _ hy h3 e⟩

example : ∃ raw signed q r, raw = writeU32 0xd142cd89 ++ writeBytes [] ++ writeU32 0xb0a ++ List.replicate 32 5 ++
    writeVec writeMessage [.nop, .reinit 3, .nop] ++ writeU32 7 ++ writeU32 8 ++
    writeBytes (List.replicate 64 1) ++ writeBytes [] ∧
    ∀ y : Text, y.wf → y.bytes = signed → y = Text.packet signed q r := by
  have h : (readPacket (writeU32 0xd142cd89 ++ writeBytes [] ++ writeU32 0xb0a ++ List.replicate 32 5 ++
    writeVec writeMessage [.nop, .reinit 3, .nop] ++ writeU32 7 ++ writeU32 8 ++
    writeBytes (List.replicate 64 1) ++ writeBytes [])).map (fun x => x.1.signature.isSome) = some true := by
    decide +kernel
  obtain ⟨⟨q, r⟩, h1, h2⟩ := Option.map_eq_some_iff.mp h
  obtain ⟨info, h3⟩ := Option.isSome_iff_exists.mp h2
  obtain ⟨-, signed, -, -, h4⟩ := C73_packet_texts _ q r info h1 h3 (by decide +kernel)
  exact ⟨_, signed, _, r, rfl, h4⟩

/-- Broadcasts: the text of an ordinary broadcast is never that of a part of a coded one, unless two named
inputs of the hash function collide. -/
theorem C73_broadcast_kinds (sha : Bytes → Bytes) (hsha : ∀ x, (sha x).length = 32) (data : Bytes)
    (date : Nat) (source : Option Bytes) (dataHash : Bytes) (dataSize date' flags : Nat)
    (params : Rldp.FecType) (part : Bytes) (seqno : Nat) (source' : Option Bytes)
    (h : ordinaryToSign sha data date source =
      fecToSign sha dataHash dataSize date' flags params part seqno source') :
    let x := writeU32 0x51fd789a ++ (sourceBytes source ++ (sha data ++ writeU32 anySender))
    let y := writeU32 0xa46962d0 ++ (sha (writeU32 0xfb3155a6 ++ (sourceBytes source' ++
      (sha (Rldp.writeFec params) ++ (dataHash ++ (writeU32 dataSize ++ writeU32 flags))))) ++
      (sha part ++ writeU32 seqno))
    x ≠ y ∧ sha x = sha y := by
  intro x y
  refine ⟨?_, ?_⟩
  · intro e
    have h1 := (List.append_inj e (by simp)).1
    exact absurd (u32_inj (by decide) (by decide) h1) (by decide)
  · exact (List.append_inj (strip h) (by rw [hsha, hsha])).1

-- with a hash that maps everything to zeros the two kinds of broadcast have the same text
example := C73_broadcast_kinds (fun _ => List.replicate 32 0) (fun _ => rfl) [1] 5 none (List.replicate 32 1) 6 5 1
  ⟨6, 768, 1⟩ [7] 0 none rfl

/-- Storage keys of the DHT: equal keys mean equal owner, name and index, unless the hash function collides
on their descriptions. -/
theorem C73_storage_keys (c : Crypto) (k k' : Key) (hk : k.wf) (hk' : k'.wf)
    (h : Storage.storageKey c k = Storage.storageKey c k') :
    k = k' ∨ (writeKeyBoxed k ≠ writeKeyBoxed k' ∧ c.sha (writeKeyBoxed k) = c.sha (writeKeyBoxed k')) := by
  by_cases e : writeKeyBoxed k = writeKeyBoxed k'
  · exact .inl (enc_inj (key_encodes k hk) (key_encodes k' hk') (strip e))
  · exact .inr ⟨e, h⟩

example : (⟨List.replicate 32 1, [2], 3⟩ : Key).wf ∧ (⟨List.replicate 32 1, [2], 4⟩ : Key).wf :=
  ⟨⟨by simp, by simp, by decide⟩, ⟨by simp, by simp, by decide⟩⟩

end Verif.Signed
