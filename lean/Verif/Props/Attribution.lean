import Verif.Proofs.Receiver2
import Verif.Props.Sender

/-!
# C14: whom a packet received outside a channel is attributed to
-/
namespace Verif.Receiver
open Verif.Adnl Verif.AdnlProto Verif.Address Verif.Node

variable {c : Crypto}

/-- The packet contents carry a signature of `pub` over the packet (C09 says that the verified bytes
are the contents without the signature). -/
def SignedBy (c : Crypto) (payload : Bytes) (pub : c.Pub) : Prop :=
  ∃ pkt rest si buf msg, readPacket payload = some (pkt, rest) ∧ pkt.signature = some si ∧
    extract si payload = some (buf, msg, si.signature) ∧ c.verify pub msg si.signature = true

/-- C14, full statement. -/
def C14_full : Prop :=
  ∀ (c : Crypto), c.Lawful → ∀ (o : Opts c) (ul : Bool) (now : Nat) (s : State c) (data : Bytes)
    (key : c.Sec) (rand : Nat → Sender.Rand c) (l q payload : Bytes) (v : Option Nat) (prio : Bool)
    (ms : List Message),
    o.signatureRequired = true →
    parseHandshake c o.keys data = .ok l v payload →
    (handle o ul now s data key rand).2.1 = .accepted l q prio ms →
    ∃ pub, shortId c pub = q ∧ SignedBy c payload pub

/-- An unsigned packet that only names the short id of the sender. -/
def forgedContents (id : Bytes) : Bytes :=
  Tl.writeU32 0xd142cd89 ++ (Tl.writeBytes [1, 2, 3] ++ (Tl.writeU32 6 ++ (id ++
    (writeMessage (.custom [1, 2, 3, 4]) ++ Tl.writeBytes [0, 0, 0, 0, 0, 0, 0]))))

/-- Anybody can build it: the handshake encryption only needs the key of the recipient. -/
def forgedPacket : Bytes :=
  buildHandshake Crypto.toy (List.replicate 32 1) (Crypto.toy.pubOf (3 : UInt8)) (11 : UInt8) none
    (forgedContents (List.replicate 32 2))

theorem forged_accepted :
    (handle Sender.toyOpts false 200 Sender.toyState forgedPacket (13 : UInt8) Sender.toyRand).2.1 =
      .accepted (List.replicate 32 1) (List.replicate 32 2) false [.custom [1, 2, 3, 4]] := by
  decide +kernel

theorem forged_opens : parseHandshake Crypto.toy Sender.toyOpts.keys forgedPacket =
    .ok (List.replicate 32 1) none (forgedContents (List.replicate 32 2)) := by decide +kernel

theorem forged_unsigned : (readPacket (forgedContents (List.replicate 32 2))).map
    (fun x => x.1.signature.isSome) = some false := by decide +kernel

/-- C14 is violated: with signatures required, an unsigned packet that names a known peer by its short
id is processed as coming from that peer (receiver.rs:432 leads to line 454, where the signature is not
mandatory). -/
theorem C14_full_false : ¬ C14_full := by
  intro h
  obtain ⟨pub, -, pkt, rest, si, buf, msg, h1, h2, -⟩ :=
    h Crypto.toy Crypto.toy_lawful Sender.toyOpts false 200 Sender.toyState forgedPacket (13 : UInt8)
      Sender.toyRand (List.replicate 32 1) (List.replicate 32 2) _ none false [.custom [1, 2, 3, 4]]
      rfl forged_opens forged_accepted
  have h3 := forged_unsigned
  rw [h1] at h3
  simp [h2] at h3

/-- C14 for packets that carry the sender's public key: accepted only with a valid signature of the
key whose id the packet is attributed to. -/
theorem C14_with_key_partial (o : Opts c) (ul : Bool) (now : Nat) (s : State c) (data : Bytes)
    (key : c.Sec) (rand : Nat → Sender.Rand c) (l q payload : Bytes) (v : Option Nat) (prio : Bool)
    (ms : List Message) (hreq : o.signatureRequired = true)
    (hopen : parseHandshake c o.keys data = .ok l v payload)
    (hacc : (handle o ul now s data key rand).2.1 = .accepted l q prio ms)
    (hkey : ∀ pkt rest, readPacket payload = some (pkt, rest) → pkt.src.isSome) :
    ∃ pub, shortId c pub = q ∧ SignedBy c payload pub := by
  obtain ⟨s1, d, pkt, rest, e1, e2, el, ep, em, -, e3, -⟩ := handle_accepted hacc
  rw [decrypt_handshake hopen] at e1
  cases e1
  simp only at e2 e3
  obtain ⟨s2, check, p, f1, f2, f3, -, -⟩ := checkPacket_peer e3
  rcases source_handshake f1 with ⟨-, pk, pub, g1, g2, g3, g4, -⟩ | ⟨-, g1, -⟩
  · refine ⟨pub, g3.symm, ?_⟩
    rcases verify_none g4 with ⟨-, h⟩ | ⟨si, buf, msg, h1, h2, h3⟩
    · rw [hreq] at h; cases h
    · exact ⟨pkt, rest, si, buf, msg, e2, h1, h2, h3⟩
  · have := hkey pkt rest e2
    rw [g1] at this
    cases this

/-- Exactly what acceptance outside a channel means, for every packet and option: either the packet
carries a key with that id and (if signatures are required) a valid signature of it, or it names a
peer that was already known, and then it is either signed with the stored key or not signed at all. A
short id beside the key is the id of the key, and the version of the packet is 0 or missing. -/
theorem C14_characterisation_partial (o : Opts c) (ul : Bool) (now : Nat) (s : State c) (data : Bytes)
    (key : c.Sec) (rand : Nat → Sender.Rand c) (l q payload : Bytes) (v : Option Nat) (prio : Bool)
    (ms : List Message)
    (hopen : parseHandshake c o.keys data = .ok l v payload)
    (hacc : (handle o ul now s data key rand).2.1 = .accepted l q prio ms) :
    ∃ pkt rest, readPacket payload = some (pkt, rest) ∧ pkt.messages = ms ∧ prio = false ∧
      (v = none ∨ v = some 0) ∧
      ((∃ pk pub, pkt.src = some pk ∧ fullId c pk = some pub ∧ shortId c pub = q ∧
          (pkt.srcShort = none ∨ pkt.srcShort = some q) ∧
          (SignedBy c payload pub ∨ (pkt.signature = none ∧ o.signatureRequired = false))) ∨
       (pkt.src = none ∧ pkt.srcShort = some q ∧ ∃ p, s.peer l q = some p ∧
          (SignedBy c payload p.pub ∨ pkt.signature = none))) := by
  obtain ⟨s1, d, pkt, rest, e1, e2, el, ep, em, ev, e3, -⟩ := handle_accepted hacc
  rw [decrypt_handshake hopen] at e1
  cases e1
  simp only at e2 e3
  obtain ⟨s2, check, p, f1, f2, f3, -, -⟩ := checkPacket_peer e3
  refine ⟨pkt, rest, e2, em, ep.symm, ev, ?_⟩
  rcases source_handshake f1 with ⟨-, pk, pub, g1, g2, g3, g4, g5⟩ | ⟨g0, g1, g2, rfl⟩
  · refine .inl ⟨pk, pub, g1, g2, g3.symm, g5, ?_⟩
    rcases verify_none g4 with h | ⟨si, buf, msg, h1, h2, h3⟩
    · exact .inr h
    · exact .inl ⟨pkt, rest, si, buf, msg, e2, h1, h2, h3⟩
  · refine .inr ⟨g1, g2, p, lookup_ok f2, ?_⟩
    rcases verify_none (f3 g0) with h | ⟨si, buf, msg, h1, h2, h3⟩
    · exact .inr h.1
    · exact .inl ⟨pkt, rest, si, buf, msg, e2, h1, h2, h3⟩

/-- What acceptance through a channel means: the first 32 bytes name one of our channels, the rest opens
with its key, the packet names no sender of its own and is attributed to the peer of the channel, which is
known; a signature, if there is one, is the peer's. -/
theorem C14_through_channel (o : Opts c) (ul : Bool) (now : Nat) (s : State c) (data : Bytes)
    (key : c.Sec) (rand : Nat → Sender.Rand c) (l q : Bytes) (prio : Bool) (ms : List Message)
    (hopen : parseHandshake c o.keys data = .notForUs)
    (hacc : (handle o ul now s data key rand).2.1 = .accepted l q prio ms) :
    ∃ r ch v payload pkt rest p, s.byId.get (data.take 32) = some (r, prio) ∧ s.heap.get r = some ch ∧
      ch.decrypt c prio data = .ok v payload ∧ (v = none ∨ v = some 0) ∧
      l = ch.localId ∧ q = ch.peerId ∧ readPacket payload = some (pkt, rest) ∧ pkt.messages = ms ∧
      pkt.src = none ∧ pkt.srcShort = none ∧ s.peer l q = some p ∧
      (SignedBy c payload p.pub ∨ pkt.signature = none) := by
  obtain ⟨s1, d, pkt, rest, e1, e2, el, ep, em, ev, e3, -⟩ := handle_accepted hacc
  obtain ⟨r, ch, d1, d2, d3, d4, d5, d6⟩ := decrypt_channel hopen e1
  obtain ⟨s2, check, p, f1, f2, f3, -, -⟩ := checkPacket_peer e3
  rw [d5] at f1
  obtain ⟨g1, g2, g3, g4, g5⟩ := source_channel f1
  subst ep
  refine ⟨r, ch, d.version, d.data, pkt, rest, p, d1, d2, d3, ev, el ▸ d4, g1, e2, em, g4, g5, ?_, ?_⟩
  · have := lookup_ok f2
    rw [g3, d6] at this
    simpa using this
  · rcases verify_none (f3 g2) with h | ⟨si, buf, msg, h1, h2, h3⟩
    · exact .inr h.1
    · exact .inl ⟨pkt, rest, si, buf, msg, e2, h1, h2, h3⟩

/-- The two ends of a channel. -/
def toyChannel (b : Bool) : Channel :=
  let ids := (List.replicate 32 (1 : UInt8), List.replicate 32 (2 : UInt8))
  if b then Channel.new Crypto.toy ids.1 ids.2 (show UInt8 from 7) (show UInt8 from 9) 5 .create
  else Channel.new Crypto.toy ids.2 ids.1 (show UInt8 from 9) (show UInt8 from 7) 5 .create

/-- The toy node with one end of it. -/
def toyWithChannel : State Crypto.toy :=
  { Sender.toyState with
    heap := [(0, toyChannel true)], next := 1, byPeer := [(List.replicate 32 2, 0)]
    byId := [((toyChannel true).inn.priority.id, (0, true)), ((toyChannel true).inn.ordinary.id, (0, false))] }

/-- The hypotheses are met by a priority packet made with the other end. -/
example : (match Sender.sendPacket Sender.toyOpts false 200 (List.replicate 32 1)
      (Peer.new 100 ⟨1, 2, 3, 5, 6⟩ (show UInt8 from 3) (show UInt8 from 9)) (.channel (toyChannel false) true)
      (.single (writeMessage (.custom [1, 2, 3, 4]))) (Sender.toyRand 0) with
    | .error _ => false
    | .ok (_, d) =>
      let o := { Sender.toyOpts with keys := fun _ => none }
      (match parseHandshake Crypto.toy o.keys d with | .notForUs => true | _ => false) &&
      (match (handle o false 200 toyWithChannel d (show UInt8 from 13) Sender.toyRand).2.1 with
        | .accepted l q prio ms => l == List.replicate 32 1 && q == List.replicate 32 2 && prio &&
            ms == [.custom [1, 2, 3, 4]]
        | _ => false)) = true := by decide +kernel

/-- Handling any datagram keeps the public keys of known peers, and a peer that becomes known is
stored under the id of its key. So a signature checked with the stored key is one of the peer's key. -/
theorem C14_stored_keys_match (o : Opts c) (ul : Bool) (now : Nat) (s : State c) (data : Bytes)
    (key : c.Sec) (rand : Nat → Sender.Rand c)
    (h : AllPeers (fun q p => shortId c p.pub = q) s) :
    AllPeers (fun q p => shortId c p.pub = q) (handle o ul now s data key rand).1 :=
  handle_keys o ul now s data key rand h

/-- A signed handshake packet as the sender makes it. -/
def honestPacket : Bytes :=
  match Sender.sendMessage { Sender.toyOpts with keys := fun _ => some (21 : UInt8) } false 200
    { Sender.toyState with peers := [(List.replicate 32 6,
      [(List.replicate 32 1, Peer.new 100 ⟨1, 2, 3, 5, 6⟩ (3 : UInt8) (9 : UInt8))])] }
    (List.replicate 32 6) (List.replicate 32 1) (.custom [1, 2, 3, 4]) false Sender.toyRand with
  | .ok (_, [d]) => d
  | _ => []

/-- The hypotheses of `C14_with_key_partial` are met by an honest packet. -/
example :
    Sender.toyOpts.signatureRequired = true ∧
    (match parseHandshake Crypto.toy Sender.toyOpts.keys honestPacket with
      | .ok l _ payload => (l == List.replicate 32 1) &&
          (readPacket payload).map (fun x => x.1.src.isSome) == some true
      | _ => false) = true ∧
    (match (handle { Sender.toyOpts with socketAddr := ⟨9, 9, 9, 9, 9⟩ } false 200 Sender.toyState
        honestPacket (13 : UInt8) Sender.toyRand).2.1 with
      | .accepted l q _ ms => (l == List.replicate 32 1) && (q == shortId Crypto.toy (21 : UInt8)) &&
          ms.length == 2
      | _ => false) = true := by decide +kernel

/-- The toy state used above satisfies `KeysMatch` once its peer is stored under its own id. -/
example : KeysMatch ({ Sender.toyState with peers := [(List.replicate 32 1,
    [(shortId Crypto.toy (7 : UInt8), Peer.new 100 ⟨1, 2, 3, 5, 5⟩ (7 : UInt8) (9 : UInt8))])] } :
    State Crypto.toy) := by
  intro l q p h
  unfold State.peer at h
  simp only [AMap.get] at h
  split at h
  · rename_i t ht
    split at ht
    · cases ht
      simp only [AMap.get] at h
      split at h
      · cases h; assumption
      · cases h
    · cases ht
  · cases h

-- C14_with_key_partial, C14_characterisation_partial: the packet with a key
example : ∃ v payload pub, shortId Crypto.toy pub = shortId Crypto.toy (21 : UInt8) ∧
    parseHandshake Crypto.toy Sender.toyOpts.keys honestPacket = .ok (List.replicate 32 1) v payload ∧
    SignedBy Crypto.toy payload pub := by
  have h1 : (match parseHandshake Crypto.toy Sender.toyOpts.keys honestPacket with
      | .ok l _ payload => (l == List.replicate 32 1) &&
          (readPacket payload).map (fun x => x.1.src.isSome) == some true
      | _ => false) = true := by decide +kernel
  have h2 : (match (handle { Sender.toyOpts with socketAddr := ⟨9, 9, 9, 9, 9⟩ } false 200 Sender.toyState
        honestPacket (13 : UInt8) Sender.toyRand).2.1 with
      | .accepted l q _ _ => (l == List.replicate 32 1) && (q == shortId Crypto.toy (21 : UInt8))
      | _ => false) = true := by decide +kernel
  cases hp : parseHandshake Crypto.toy Sender.toyOpts.keys honestPacket with
  | ok l v payload =>
    rw [hp] at h1
    simp only [Bool.and_eq_true, beq_iff_eq] at h1
    obtain ⟨rfl, h1⟩ := h1
    cases ha : (handle { Sender.toyOpts with socketAddr := ⟨9, 9, 9, 9, 9⟩ } false 200 Sender.toyState
        honestPacket (13 : UInt8) Sender.toyRand).2.1 with
    | accepted l q prio ms =>
      rw [ha] at h2
      simp only [Bool.and_eq_true, beq_iff_eq] at h2
      obtain ⟨rfl, rfl⟩ := h2
      have := C14_characterisation_partial { Sender.toyOpts with socketAddr := ⟨9, 9, 9, 9, 9⟩ } false 200 Sender.toyState honestPacket
        (13 : UInt8) Sender.toyRand _ _ payload v prio ms hp ha
      obtain ⟨pub, e1, e2⟩ := C14_with_key_partial { Sender.toyOpts with socketAddr := ⟨9, 9, 9, 9, 9⟩ } false 200 Sender.toyState honestPacket
        (13 : UInt8) Sender.toyRand _ _ payload v prio ms rfl hp ha (by
        intro pkt rest h
        rw [h] at h1
        simpa using h1)
      exact ⟨v, payload, pub, e1, rfl, e2⟩
    | _ => rw [ha] at h2; cases h2
  | _ => rw [hp] at h1; cases h1

end Verif.Receiver
