import Verif.Proofs.AdnlProto

/-!
# C08, C09: the packet contents on the wire
-/
namespace Verif.Props
open Verif Verif.Tl Verif.AdnlProto Verif.Address

/-- The raw messages of a packet are the serialisation of `ms`, as built in sender.rs:125-199. -/
def Carries : OutMessages → List Message → Prop
  | .single raw, ms => ∃ m, ms = [m] ∧ raw = writeMessage m ∧ m.wf
  | .pair raw, ms => ∃ m1 m2, ms = [m1, m2] ∧ raw = writeMessage m1 ++ writeMessage m2 ∧ m1.wf ∧ m2.wf

/-- Field widths of a packet the sender can serialise. -/
structure OutWf (p : OutPacket) : Prop where
  rand1 : p.rand1.length < 2 ^ 24
  src : ∀ k, p.src = some k → k.wf
  address : addrListWf p.address
  seqno : p.seqno < 2 ^ 64
  confirm : p.confirmSeqno < 2 ^ 64
  dates : ∀ d, p.reinitDates = some d → d.loc < 2 ^ 32 ∧ d.target < 2 ^ 32
  signature : ∀ s, p.signature = some s → s.length = 64
  rand2 : p.rand2.length < 2 ^ 24

theorem readMid_encodes (p : OutPacket) (ms : List Message) (hm : Carries p.messages ms)
    (h : OutWf p) : ∃ mid, joinMessages mid.messages mid.message = some ms ∧ mid.src = p.src ∧
      mid.srcShort = none ∧ mid.address = some p.address ∧ mid.seqno = some p.seqno ∧
      mid.confirmSeqno = some p.confirmSeqno ∧ mid.reinitDates = p.reinitDates ∧
      Encodes (readMid (outFlags p)) (writeOpt writePubKey p.src ++ (writeOutMessages p.messages ++
        (writeAddrList p.address ++ (writeU64 p.seqno ++ (writeU64 p.confirmSeqno ++
        writeOpt writeDates p.reinitDates))))) mid := by
  obtain ⟨b0, b1, b2, b3, b4, b5, b6, b7, b8, b9, b10, _⟩ := outFlags_bits p
  have tail : ∀ (message : Option Message) (messages : Option (List Message)),
      Encodes (do
        let address ← readOpt (outFlags p) 4 readAddrList
        let _ ← readOpt (outFlags p) 5 readAddrList
        let seqno ← readOpt (outFlags p) 6 readU64
        let confirmSeqno ← readOpt (outFlags p) 7 readU64
        let _ ← readOpt (outFlags p) 8 readU32
        let _ ← readOpt (outFlags p) 9 readU32
        let reinitDates ← readOpt (outFlags p) 10 readDates
        pure (⟨p.src, none, message, messages, address, seqno, confirmSeqno, reinitDates⟩ : Mid))
      (writeAddrList p.address ++ (writeU64 p.seqno ++ (writeU64 p.confirmSeqno ++
        writeOpt writeDates p.reinitDates)))
      ⟨p.src, none, message, messages, some p.address, some p.seqno, some p.confirmSeqno,
        p.reinitDates⟩ := by
    intro message messages
    refine Encodes.bind (Encodes.optSome b4 (addrList_encodes _ h.address)) ?_
    refine Encodes.bind (w := []) (Encodes.optNone b5) ?_
    refine Encodes.bind (Encodes.optSome b6 (Encodes.u64 h.seqno)) ?_
    refine Encodes.bind (Encodes.optSome b7 (Encodes.u64 h.confirm)) ?_
    refine Encodes.bind (w := []) (Encodes.optNone b8) ?_
    refine Encodes.bind (w := []) (Encodes.optNone b9) ?_
    exact Encodes.bindPure (Encodes.opt b10 fun d hd => dates_encodes d (h.dates d hd)) rfl
  cases hms : p.messages with
  | single raw =>
    rw [hms] at hm
    obtain ⟨m, rfl, rfl, hw⟩ := hm
    rw [hms] at b2 b3
    refine ⟨⟨p.src, none, some m, none, _, _, _, _⟩, rfl, rfl, rfl, rfl, rfl, rfl, rfl, ?_⟩
    refine Encodes.bind (Encodes.opt b0 fun k hk => pubKey_encodes k (h.src k hk)) ?_
    refine Encodes.bind (w := []) (Encodes.optNone b1) ?_
    refine Encodes.bind (Encodes.optSome b2 (message_encodes m hw)) ?_
    exact Encodes.bind (w := []) (Encodes.optNone b3) (tail _ _)
  | pair raw =>
    rw [hms] at hm
    obtain ⟨m1, m2, rfl, rfl, hw1, hw2⟩ := hm
    rw [hms] at b2 b3
    refine ⟨⟨p.src, none, none, some [m1, m2], _, _, _, _⟩, rfl, rfl, rfl, rfl, rfl, rfl, rfl, ?_⟩
    refine Encodes.bind (Encodes.opt b0 fun k hk => pubKey_encodes k (h.src k hk)) ?_
    refine Encodes.bind (w := []) (Encodes.optNone b1) ?_
    refine Encodes.bind (w := []) (Encodes.optNone b2) ?_
    refine Encodes.bind (w := writeOutMessages (.pair (writeMessage m1 ++ writeMessage m2)))
      (Encodes.optSome (x := [m1, m2]) b3 ?_) (tail none (some [m1, m2]))
    have := Encodes.vec (rd := readMessage) (w := writeMessage) [m1, m2] (by simp)
      (by intro x hx; simp at hx; rcases hx with rfl | rfl
          · exact message_encodes _ hw1
          · exact message_encodes _ hw2)
    simpa [writeVec, writeOutMessages] using this

/-- Bytes between the flags and the signature. -/
def midBytes (p : OutPacket) : Bytes :=
  writeOpt writePubKey p.src ++ (writeOutMessages p.messages ++
    (writeAddrList p.address ++ (writeU64 p.seqno ++ (writeU64 p.confirmSeqno ++
    writeOpt writeDates p.reinitDates))))

/-- Where the reader finds the signature. -/
def sigInfo (p : OutPacket) (s : Bytes) : SigInfo :=
  let fo := 4 + (writeBytes p.rand1).length
  let off := fo + 4 + (midBytes p).length
  ⟨s, fo % 2 ^ 16, off % 2 ^ 16, (off + (writeBytes s).length) % 2 ^ 16⟩

theorem readSig_encodes (p : OutPacket) (h : OutWf p) (fo off : Nat) :
    Encodes (readSig (outFlags p) fo off) (writeOpt writeBytes p.signature)
      (p.signature.map fun s => (⟨s, fo % 2 ^ 16, off % 2 ^ 16,
        (off + (writeBytes s).length) % 2 ^ 16⟩ : SigInfo)) := by
  have b11 := (outFlags_bits p).2.2.2.2.2.2.2.2.2.2.2
  unfold readSig
  cases hs : p.signature with
  | none => rw [hs] at b11; rw [b11]; exact Encodes.pure _
  | some s =>
    rw [hs] at b11; rw [b11]
    have hl := h.signature s hs
    refine Encodes.bindPure (Encodes.measured (Encodes.bytes (by omega))) ?_
    simp only [hl, ne_eq, not_true_eq_false, if_false]
    rfl

theorem packet_encodes (p : OutPacket) (ms : List Message) (hm : Carries p.messages ms)
    (h : OutWf p) : Encodes readPacket (writePacket p)
      ⟨p.src, none, ms, some p.address, some p.seqno, some p.confirmSeqno, p.reinitDates,
        p.signature.map (sigInfo p)⟩ := by
  obtain ⟨mid, m1, m2, m3, m4, m5, m6, m7, m8⟩ := readMid_encodes p ms hm h
  rw [← m2, ← m3, ← m4, ← m5, ← m6, ← m7]
  refine Encodes.bind (Encodes.u32 (by decide)) ?_
  rw [if_neg (by simp)]
  refine Encodes.bind (Encodes.measured (Encodes.bytes h.rand1)) ?_
  refine Encodes.bind (Encodes.u32 (outFlags_lt p)) ?_
  have e := Encodes.bind (f := fun (x : Mid × Nat) => do
      let sig ← readSig (outFlags p) (4 + (writeBytes p.rand1).length)
        (4 + (writeBytes p.rand1).length + 4 + x.2)
      let _ ← readBytes
      match joinMessages x.1.messages x.1.message with
      | some ms => pure (⟨x.1.src, x.1.srcShort, ms, x.1.address, x.1.seqno, x.1.confirmSeqno,
          x.1.reinitDates, sig⟩ : InPacket)
      | none => fail) (Encodes.measured m8)
    (Encodes.bind (readSig_encodes p h _ _) (Encodes.bindPure (Encodes.bytes h.rand2) (by rw [m1])))
  simp only [List.append_assoc] at e
  exact e

/-- C08: whatever the sender serialises, the receiver parses to the same source, messages,
address list, sequence numbers, dates and signature, with nothing left over. -/
theorem C08_roundtrip (p : OutPacket) (ms : List Message) (hm : Carries p.messages ms)
    (h : OutWf p) (rest : Bytes) :
    ∃ q, readPacket (writePacket p ++ rest) = some (q, rest) ∧
      q.src = p.src ∧ q.srcShort = none ∧ q.messages = ms ∧ q.address = some p.address ∧
      q.seqno = some p.seqno ∧ q.confirmSeqno = some p.confirmSeqno ∧
      q.reinitDates = p.reinitDates ∧ q.signature.map SigInfo.signature = p.signature := by
  refine ⟨_, packet_encodes p ms hm h rest, rfl, rfl, rfl, rfl, rfl, rfl, rfl, ?_⟩
  cases p.signature <;> rfl

/-- A packet with every optional field: source, two messages, dates and signature. -/
def samplePacket : OutPacket :=
  { rand1 := [1, 2, 3], src := some (.ed25519 (List.replicate 32 7)),
    messages := .pair (writeMessage (.createChannel (List.replicate 32 9) 5) ++
      writeMessage (.custom [1, 2, 3, 4, 5])),
    address := ⟨some ⟨0x7f000001, 3000⟩, 1, 2, 3⟩, seqno := 2 ^ 64 - 1, confirmSeqno := 0,
    reinitDates := some ⟨1, 2⟩, signature := some (List.replicate 64 0xaa), rand2 := [1, 2, 3, 4, 5, 6, 7] }

theorem samplePacket_wf : OutWf samplePacket ∧ Carries samplePacket.messages
    [.createChannel (List.replicate 32 9) 5, .custom [1, 2, 3, 4, 5]] := by
  refine ⟨⟨by decide, ?_, ?_, by decide, by decide, ?_, ?_, by decide⟩, ?_⟩
  · intro k hk; cases hk; exact List.length_replicate
  · refine ⟨?_, by decide, by decide, by decide⟩
    intro a ha; cases ha; decide
  · intro d hd; cases hd; decide
  · intro s hs; cases hs; decide
  · exact ⟨_, _, rfl, rfl, ⟨by decide, by decide⟩, show 5 < 2 ^ 24 by decide⟩

example : ∃ q, readPacket (writePacket samplePacket ++ []) = some (q, []) ∧ q.messages =
    [.createChannel (List.replicate 32 9) 5, .custom [1, 2, 3, 4, 5]] := by
  obtain ⟨q, h1, _, _, h2, _⟩ := C08_roundtrip _ _ samplePacket_wf.2 samplePacket_wf.1 []
  exact ⟨q, h1, h2⟩

/-! ### Packets of other implementations

Written after the TL scheme of `adnl.packetContents`: every field with a flag may be there or not, address
lists may hold several addresses, and a packet may have both a `message` and `messages`. -/

/-- `adnl.addressList` with any number of addresses and any priority. -/
structure SchemeAddrs where
  addrs : List Addr
  version : Nat
  reinitDate : Nat
  priority : Nat
  expireAt : Nat

def SchemeAddrs.write (l : SchemeAddrs) : Bytes :=
  writeVec writeAddr l.addrs ++ (writeU32 l.version ++ (writeU32 l.reinitDate ++ (writeU32 l.priority ++
    writeU32 l.expireAt)))

structure SchemeAddrs.Wf (l : SchemeAddrs) : Prop where
  count : l.addrs.length < 2 ^ 32
  addrs : ∀ a ∈ l.addrs, a.ip < 2 ^ 32 ∧ a.port < 2 ^ 32
  version : l.version < 2 ^ 32
  reinitDate : l.reinitDate < 2 ^ 32
  priority : l.priority < 2 ^ 32
  expireAt : l.expireAt < 2 ^ 32

/-- `adnl.packetContents`. -/
structure SchemePacket where
  rand1 : Bytes
  flags : Nat
  src : Option PubKey
  srcShort : Option Bytes
  message : Option Message
  messages : Option (List Message)
  address : Option SchemeAddrs
  priorityAddress : Option SchemeAddrs
  seqno : Option Nat
  confirmSeqno : Option Nat
  recvAddrVersion : Option Nat
  recvPriorityAddrVersion : Option Nat
  reinitDates : Option ReinitDates
  signature : Option Bytes
  rand2 : Bytes

def SchemePacket.write (p : SchemePacket) : Bytes :=
  writeU32 0xd142cd89 ++ (writeBytes p.rand1 ++ (writeU32 p.flags ++
    ((writeOpt writePubKey p.src ++ (writeOpt id p.srcShort ++ (writeOpt writeMessage p.message ++
    (writeOpt (writeVec writeMessage) p.messages ++ (writeOpt SchemeAddrs.write p.address ++
    (writeOpt SchemeAddrs.write p.priorityAddress ++ (writeOpt writeU64 p.seqno ++
    (writeOpt writeU64 p.confirmSeqno ++ (writeOpt writeU32 p.recvAddrVersion ++
    (writeOpt writeU32 p.recvPriorityAddrVersion ++ writeOpt writeDates p.reinitDates)))))))))) ++
    (writeOpt writeBytes p.signature ++ writeBytes p.rand2))))

/-- The flags say which fields there are; flags above bit 11 are arbitrary. -/
structure SchemePacket.Wf (p : SchemePacket) : Prop where
  rand1 : p.rand1.length < 2 ^ 24
  flags : p.flags < 2 ^ 32
  b0 : p.flags.testBit 0 = p.src.isSome
  b1 : p.flags.testBit 1 = p.srcShort.isSome
  b2 : p.flags.testBit 2 = p.message.isSome
  b3 : p.flags.testBit 3 = p.messages.isSome
  b4 : p.flags.testBit 4 = p.address.isSome
  b5 : p.flags.testBit 5 = p.priorityAddress.isSome
  b6 : p.flags.testBit 6 = p.seqno.isSome
  b7 : p.flags.testBit 7 = p.confirmSeqno.isSome
  b8 : p.flags.testBit 8 = p.recvAddrVersion.isSome
  b9 : p.flags.testBit 9 = p.recvPriorityAddrVersion.isSome
  b10 : p.flags.testBit 10 = p.reinitDates.isSome
  b11 : p.flags.testBit 11 = p.signature.isSome
  src : ∀ k, p.src = some k → k.wf
  srcShort : ∀ k, p.srcShort = some k → k.length = 32
  message : ∀ m, p.message = some m → m.wf
  messages : ∀ ms, p.messages = some ms → ms.length < 2 ^ 32 ∧ ∀ m ∈ ms, m.wf
  address : ∀ a, p.address = some a → a.Wf
  priorityAddress : ∀ a, p.priorityAddress = some a → a.Wf
  seqno : ∀ n, p.seqno = some n → n < 2 ^ 64
  confirm : ∀ n, p.confirmSeqno = some n → n < 2 ^ 64
  version : ∀ n, p.recvAddrVersion = some n → n < 2 ^ 32
  priorityVersion : ∀ n, p.recvPriorityAddrVersion = some n → n < 2 ^ 32
  dates : ∀ d, p.reinitDates = some d → d.loc < 2 ^ 32 ∧ d.target < 2 ^ 32
  signature : ∀ s, p.signature = some s → s.length = 64
  rand2 : p.rand2.length < 2 ^ 24

theorem schemeAddrs_encodes (l : SchemeAddrs) (h : l.Wf) :
    Encodes readAddrList l.write ⟨l.addrs.head?, l.version, l.reinitDate, l.expireAt⟩ := by
  have hv := Encodes.vec (rd := readAddr) (w := writeAddr) l.addrs h.count
    (fun a ha => addr_encodes a (h.addrs a ha))
  have e : Encodes (readVec readAddr >>= fun addrs => do
      let version ← readU32
      let reinit ← readU32
      let _ ← readU32
      let expire ← readU32
      pure (⟨addrs.head?, version, reinit, expire⟩ : AddrList)) l.write
      ⟨l.addrs.head?, l.version, l.reinitDate, l.expireAt⟩ :=
    Encodes.bind hv (Encodes.bind (Encodes.u32 h.version) (Encodes.bind (Encodes.u32 h.reinitDate)
      (Encodes.bind (Encodes.u32 h.priority) (Encodes.bindPure (Encodes.u32 h.expireAt) rfl))))
  intro r
  have := e r
  rw [← this]
  simp only [readAddrList, readVec, bind_def]
  cases readU32 (l.write ++ r) <;> rfl

/-- What the receiver keeps of an address list. -/
def SchemeAddrs.kept (l : SchemeAddrs) : AddrList := ⟨l.addrs.head?, l.version, l.reinitDate, l.expireAt⟩

theorem schemeAddrs_opt {flags bit : Nat} {o : Option SchemeAddrs} (hf : flags.testBit bit = o.isSome)
    (h : ∀ l, o = some l → l.Wf) :
    Encodes (readOpt flags bit readAddrList) (writeOpt SchemeAddrs.write o) (o.map SchemeAddrs.kept) := by
  cases o with
  | none => exact Encodes.optNone hf
  | some l => exact Encodes.optSome hf (schemeAddrs_encodes l (h l rfl))

def SchemePacket.midBytes (p : SchemePacket) : Bytes :=
  writeOpt writePubKey p.src ++ (writeOpt id p.srcShort ++ (writeOpt writeMessage p.message ++
    (writeOpt (writeVec writeMessage) p.messages ++ (writeOpt SchemeAddrs.write p.address ++
    (writeOpt SchemeAddrs.write p.priorityAddress ++ (writeOpt writeU64 p.seqno ++
    (writeOpt writeU64 p.confirmSeqno ++ (writeOpt writeU32 p.recvAddrVersion ++
    (writeOpt writeU32 p.recvPriorityAddrVersion ++ writeOpt writeDates p.reinitDates)))))))))

theorem schemeMid_encodes (p : SchemePacket) (h : p.Wf) : Encodes (readMid p.flags) p.midBytes
    ⟨p.src, p.srcShort, p.message, p.messages, p.address.map SchemeAddrs.kept, p.seqno, p.confirmSeqno,
      p.reinitDates⟩ := by
  refine Encodes.bind (Encodes.opt h.b0 fun k hk => pubKey_encodes k (h.src k hk)) ?_
  refine Encodes.bind (Encodes.opt h.b1 fun k hk => Encodes.hash (h.srcShort k hk)) ?_
  refine Encodes.bind (Encodes.opt h.b2 fun k hk => message_encodes k (h.message k hk)) ?_
  refine Encodes.bind (Encodes.opt h.b3 fun k hk => Encodes.vec k (h.messages k hk).1
    fun m hm => message_encodes m ((h.messages k hk).2 m hm)) ?_
  refine Encodes.bind (schemeAddrs_opt h.b4 h.address) ?_
  refine Encodes.bind (schemeAddrs_opt h.b5 h.priorityAddress) ?_
  refine Encodes.bind (Encodes.opt h.b6 fun k hk => Encodes.u64 (h.seqno k hk)) ?_
  refine Encodes.bind (Encodes.opt h.b7 fun k hk => Encodes.u64 (h.confirm k hk)) ?_
  refine Encodes.bind (Encodes.opt h.b8 fun k hk => Encodes.u32 (h.version k hk)) ?_
  refine Encodes.bind (Encodes.opt h.b9 fun k hk => Encodes.u32 (h.priorityVersion k hk)) ?_
  exact Encodes.bindPure (Encodes.opt h.b10 fun k hk => dates_encodes k (h.dates k hk)) rfl

theorem schemeSig_encodes (p : SchemePacket) (h : p.Wf) (fo off : Nat) :
    Encodes (readSig p.flags fo off) (writeOpt writeBytes p.signature)
      (p.signature.map fun s => (⟨s, fo % 2 ^ 16, off % 2 ^ 16,
        (off + (writeBytes s).length) % 2 ^ 16⟩ : SigInfo)) := by
  have b11 := h.b11
  unfold readSig
  cases hs : p.signature with
  | none => rw [hs] at b11; rw [b11]; exact Encodes.pure _
  | some s =>
    rw [hs] at b11; rw [b11]
    have hl := h.signature s hs
    refine Encodes.bindPure (Encodes.measured (Encodes.bytes (by omega))) ?_
    simp only [hl, ne_eq, not_true_eq_false, if_false]
    rfl

theorem scheme_reads (p : SchemePacket) (h : p.Wf) (rest : Bytes) :
    ∃ sig : Option SigInfo, sig.map SigInfo.signature = p.signature ∧
      readPacket (p.write ++ rest) = match joinMessages p.messages p.message with
        | some ms => some (⟨p.src, p.srcShort, ms, p.address.map SchemeAddrs.kept, p.seqno,
            p.confirmSeqno, p.reinitDates, sig⟩, rest)
        | none => none := by
  let off := 4 + (writeBytes p.rand1).length
  refine ⟨p.signature.map fun s => (⟨s, off % 2 ^ 16, (off + 4 + p.midBytes.length) % 2 ^ 16,
        (off + 4 + p.midBytes.length + (writeBytes s).length) % 2 ^ 16⟩ : SigInfo), ?_, ?_⟩
  · cases p.signature <;> rfl
  have e0 : Encodes readU32 (writeU32 0xd142cd89) 0xd142cd89 := Encodes.u32 (by decide)
  have e1 := Encodes.measured (Encodes.bytes h.rand1)
  have e2 := Encodes.u32 h.flags
  have e3 := Encodes.measured (schemeMid_encodes p h)
  have e4 := schemeSig_encodes p h off (off + 4 + p.midBytes.length)
  have e5 := Encodes.bytes h.rand2
  have hw : p.write ++ rest = writeU32 0xd142cd89 ++ (writeBytes p.rand1 ++ (writeU32 p.flags ++
      (p.midBytes ++ (writeOpt writeBytes p.signature ++ (writeBytes p.rand2 ++ rest))))) := by
    simp only [SchemePacket.write, SchemePacket.midBytes, List.append_assoc]
  rw [hw]
  unfold readPacket
  simp only [bind_def, e0 _]
  rw [if_neg (by simp)]
  simp only [bind_def, e1 _, e2 _, e3 _, e4 _, e5 _, off]
  cases joinMessages p.messages p.message <;> rfl

/-- C08 for packets of other implementations: every field is read as it was written, a lone message comes
before the list of messages, only the first address is kept, and a packet without messages is refused. -/
theorem C08_scheme (p : SchemePacket) (h : p.Wf) (rest : Bytes) :
    (p.message = none ∧ p.messages = none → readPacket (p.write ++ rest) = none) ∧
    (¬ (p.message = none ∧ p.messages = none) →
      ∃ q, readPacket (p.write ++ rest) = some (q, rest) ∧
        q.src = p.src ∧ q.srcShort = p.srcShort ∧ q.messages = p.message.toList ++ p.messages.getD [] ∧
        q.address = p.address.map (fun l => ⟨l.addrs.head?, l.version, l.reinitDate, l.expireAt⟩) ∧
        q.seqno = p.seqno ∧ q.confirmSeqno = p.confirmSeqno ∧ q.reinitDates = p.reinitDates ∧
        q.signature.map SigInfo.signature = p.signature) := by
  obtain ⟨sig, hs, hr⟩ := scheme_reads p h rest
  rw [hr]
  constructor
  · rintro ⟨h1, h2⟩
    rw [h1, h2]; rfl
  · intro hn
    cases h1 : p.message with
    | none =>
      cases h2 : p.messages with
      | none => exact absurd ⟨h1, h2⟩ hn
      | some ms => exact ⟨_, rfl, rfl, rfl, rfl, rfl, rfl, rfl, rfl, hs⟩
    | some m =>
      cases h2 : p.messages with
      | none => exact ⟨_, rfl, rfl, rfl, rfl, rfl, rfl, rfl, rfl, hs⟩
      | some ms => exact ⟨_, rfl, rfl, rfl, rfl, rfl, rfl, rfl, rfl, hs⟩

/-- The hypotheses of `C08_scheme` hold of a packet with a message, a list of messages, two addresses, a
priority address list and address list versions. -/
example : SchemePacket.Wf
    { rand1 := [1, 2, 3], flags := 0b001101111111, src := some (.ed25519 (List.replicate 32 7)),
      srcShort := some (List.replicate 32 8), message := some .nop, messages := some [.nop, .nop],
      address := some ⟨[⟨1, 2⟩, ⟨3, 4⟩], 5, 6, 7, 8⟩, priorityAddress := some ⟨[], 0, 0, 1, 0⟩,
      seqno := some 9, confirmSeqno := none, recvAddrVersion := some 10,
      recvPriorityAddrVersion := some 11, reinitDates := none, signature := none, rand2 := [4] } := by
  constructor <;> first
    | decide
    | (intro x hx; cases hx; first
        | decide
        | trivial
        | (constructor <;> decide)
        | (refine ⟨by decide, fun m hm => ?_⟩; simp at hm; subst hm; trivial)
        | (exact ⟨rfl⟩))

/-! ## C09 -/

theorem writePacket_sections (p : OutPacket) : writePacket p =
    (writeU32 0xd142cd89 ++ writeBytes p.rand1) ++ writeU32 (outFlags p) ++ midBytes p ++
      writeOpt writeBytes p.signature ++ writeBytes p.rand2 := by
  simp [writePacket, midBytes]

theorem writeBytes_pos (d : Bytes) : 0 < (writeBytes d).length := by
  rw [writeBytes_length]; split <;> omega

/-- C09: from the signed packet as parsed by the receiver, removing the signature in place yields
exactly the bytes the sender signed (the packet serialised without signature) and the signature;
the bytes of the buffer behind the returned slice keep their old values. -/
theorem C09_extract_gives_signed_bytes (p : OutPacket) (s : Bytes) (ms : List Message)
    (hm : Carries p.messages ms) (h : OutWf p) (hs : p.signature = some s)
    (hlen : (writePacket p).length < 2 ^ 16) :
    ∃ q info, readPacket (writePacket p) = some (q, []) ∧ q.signature = some info ∧
      extract info (writePacket p) =
        some (writePacket { p with signature := none } ++
            (writePacket p).drop (writePacket { p with signature := none }).length,
          writePacket { p with signature := none }, s) := by
  have hr := packet_encodes p ms hm h []
  rw [List.append_nil] at hr
  refine ⟨_, sigInfo p s, hr, by rw [hs]; rfl, ?_⟩
  have hw := writePacket_sections p
  have hw' := writePacket_sections { p with signature := none }
  have hwl := writeBytes_length s
  have h64 := h.signature s hs
  have hl' : (writePacket p).length = 4 + (writeBytes p.rand1).length + 4 + (midBytes p).length +
      (writeBytes s).length + (writeBytes p.rand2).length := by
    rw [hw, hs]; simp [writeOpt]; omega
  have key := extract_sections (writeU32 0xd142cd89 ++ writeBytes p.rand1) (writeU32 (outFlags p))
    (midBytes p) (writeBytes s) (writeBytes p.rand2) s (by simp) (writeBytes_pos _)
    (writeBytes_pos _) (by rw [hw, hs] at hlen; exact hlen)
  simp only [flags_clear] at key
  have hinfo : sigInfo p s = ⟨s, (writeU32 0xd142cd89 ++ writeBytes p.rand1).length,
      (writeU32 0xd142cd89 ++ writeBytes p.rand1).length + 4 + (midBytes p).length,
      (writeU32 0xd142cd89 ++ writeBytes p.rand1).length + 4 + (midBytes p).length +
        (writeBytes s).length⟩ := by
    simp only [sigInfo, List.length_append, writeU32_length]
    rw [Nat.mod_eq_of_lt (by omega), Nat.mod_eq_of_lt (by omega), Nat.mod_eq_of_lt (by omega)]
  have hmid : midBytes { p with signature := none } = midBytes p := rfl
  have hq : writePacket { p with signature := none } =
      (writeU32 0xd142cd89 ++ writeBytes p.rand1) ++ writeU32 (outFlags { p with signature := none })
        ++ midBytes p ++ writeBytes p.rand2 := by
    rw [hw', hmid]; simp [writeOpt]
  rw [hinfo, hq]
  rw [hs] at hw
  rw [hw]
  exact key

example : ∃ q info, readPacket (writePacket samplePacket) = some (q, []) ∧ q.signature = some info ∧
    (extract info (writePacket samplePacket)).map (·.2.1) =
      some (writePacket { samplePacket with signature := none }) := by
  obtain ⟨q, info, h1, h2, h3⟩ := C09_extract_gives_signed_bytes samplePacket _ _ samplePacket_wf.2
    samplePacket_wf.1 rfl (by decide +kernel)
  exact ⟨q, info, h1, h2, by rw [h3]; rfl⟩

theorem readSig_some {flags fo off : Nat} {b r : Bytes} {info : SigInfo}
    (h : readSig flags fo off b = some (some info, r)) :
    flags.testBit 11 = true ∧ ∃ S, b = S ++ r ∧ 64 ≤ S.length ∧ info.signature.length = 64 ∧
      info = ⟨info.signature, fo % 2 ^ 16, off % 2 ^ 16, (off + S.length) % 2 ^ 16⟩ := by
  unfold readSig at h
  by_cases hf : flags.testBit 11 = true
  · rw [if_pos hf] at h
    refine ⟨hf, ?_⟩
    obtain ⟨⟨s, n⟩, r1, hm, h2⟩ := bind_some h
    simp only at h2
    by_cases hl : s.length ≠ 64
    · rw [if_pos hl] at h2; cases h2
    · rw [if_neg hl] at h2
      have hr : r1 = r := by cases h2; rfl
      have hi : info = ⟨s, fo % 2 ^ 16, off % 2 ^ 16, (off + n) % 2 ^ 16⟩ := by cases h2; rfl
      subst hr
      obtain ⟨w, hw, hn, he⟩ := measured_some Local.bytes hm
      have hge : s.length ≤ w.length := by
        have h0 := he []
        rw [List.append_nil] at h0
        exact readBytes_length_le h0
      have hl : s.length = 64 := by omega
      refine ⟨w, hw, by omega, by rw [hi]; exact hl, ?_⟩
      rw [hi, hn]
  · rw [if_neg hf] at h
    cases h

/-- C09 for any received packet, whoever made it: if it parses and has a signature, the signature
can be removed and the bytes that get verified parse to the same contents without signature. So a
valid signature covers everything the receiver acts on. -/
theorem C09_verified_bytes_determine_contents (b : Bytes) (q : InPacket) (r : Bytes) (info : SigInfo)
    (hq : readPacket b = some (q, r)) (hi : q.signature = some info) (hlen : b.length < 2 ^ 16) :
    ∃ buf signed, extract info b = some (buf, signed, info.signature) ∧
      info.signature.length = 64 ∧
      readPacket signed = some ({ q with signature := none }, r) := by
  obtain ⟨id, r0, h0, hq⟩ := bind_some hq
  by_cases hid : id ≠ 0xd142cd89
  · rw [if_pos hid] at hq; cases hq
  rw [if_neg hid] at hq
  obtain ⟨⟨x, n1⟩, r1, h1, hq⟩ := bind_some hq
  obtain ⟨flags, r2, h2, hq⟩ := bind_some hq
  obtain ⟨⟨mid, n2⟩, r3, h3, hq⟩ := bind_some hq
  obtain ⟨sig, r4, h4, hq⟩ := bind_some hq
  obtain ⟨rand2, r5, h5, hq⟩ := bind_some hq
  cases hj : joinMessages mid.messages mid.message with
  | none => simp only [hj] at hq; cases hq
  | some ms =>
    simp only [hj] at hq
    have hqe : q = ⟨mid.src, mid.srcShort, ms, mid.address, mid.seqno, mid.confirmSeqno,
      mid.reinitDates, sig⟩ := by cases hq; rfl
    have hre : r5 = r := by cases hq; rfl
    subst hre
    have hsig : sig = some info := by rw [hqe] at hi; exact hi
    subst hsig
    obtain ⟨w1, hw1, rfl, hid'⟩ := readU32_some h0
    obtain ⟨w2, rfl, hn1, he2⟩ := measured_some Local.bytes h1
    obtain ⟨F, hF, rfl, hflags⟩ := readU32_some h2
    obtain ⟨B, rfl, hn2, he3⟩ := measured_some (readMid_local flags) h3
    obtain ⟨hbit, S, rfl, hS, hs64, hinfo⟩ := readSig_some h4
    obtain ⟨R, rfl, heR⟩ := Local.bytes _ _ _ h5
    have hRpos : 0 < (R ++ r5).length := by
      cases hR : R ++ r5 with
      | nil => rw [hR] at h5; rw [readBytes_nil] at h5; cases h5
      | cons a l => simp
    have hb : w1 ++ (w2 ++ (F ++ (B ++ (S ++ (R ++ r5))))) = (w1 ++ w2) ++ F ++ B ++ S ++ (R ++ r5) := by
      simp
    rw [hb] at hlen ⊢
    have hL : ((w1 ++ w2) ++ F ++ B ++ S ++ (R ++ r5)).length =
        4 + w2.length + 4 + B.length + S.length + (R ++ r5).length := by
      simp [hw1, hF]; omega
    have hinfo' : info = ⟨info.signature, (w1 ++ w2).length, (w1 ++ w2).length + 4 + B.length,
        (w1 ++ w2).length + 4 + B.length + S.length⟩ := by
      rw [hinfo]
      have hwl : (w1 ++ w2).length = 4 + w2.length := by simp [hw1]
      rw [hwl]
      subst hn1 hn2
      rw [Nat.mod_eq_of_lt (a := 4 + w2.length) (by omega), Nat.mod_eq_of_lt (by omega),
        Nat.mod_eq_of_lt (by omega)]
    have hext := extract_sections (w1 ++ w2) F B S (R ++ r5) info.signature hF (by omega) hRpos hlen
    simp only at hext
    rw [← hinfo'] at hext
    refine ⟨_, _, hext, hs64, ?_⟩
    generalize hF' : F.set 1 ((F.getD 1 0) &&& 0xf7) = F'
    have hF'l : F'.length = 4 := by rw [← hF']; simp [hF]
    have hbits : ∀ i, (ofLE F').testBit i = (flags.testBit i && decide (i ≠ 11)) := by
      intro i; rw [← hF', hflags]; exact ofLE_clear_testBit F hF i
    have hmid : readMid (ofLE F') = readMid flags := by
      apply readMid_congr
      intro i hi
      rw [hbits]
      have : decide (i ≠ 11) = true := by simp; omega
      rw [this, Bool.and_true]
    have h11 : (ofLE F').testBit 11 = false := by rw [hbits]; simp
    have henc : Encodes readPacket (w1 ++ (w2 ++ (F' ++ (B ++ ([] ++ R)))))
        { q with signature := none } := by
      have e1 : Encodes readU32 w1 id := by rw [hid']; exact Encodes.u32_raw hw1
      refine Encodes.bind e1 ?_
      rw [if_neg hid]
      refine Encodes.bind (Encodes.measured he2) ?_
      refine Encodes.bind (Encodes.u32_raw hF'l) ?_
      rw [hmid]
      refine Encodes.bind (Encodes.measured he3) ?_
      have es : readSig (ofLE F') (4 + w2.length) (4 + w2.length + 4 + B.length) = pure none := by
        unfold readSig; rw [h11]; rfl
      simp only [es]
      refine Encodes.bind (Encodes.pure _) ?_
      refine Encodes.bindPure heR ?_
      simp only [hj, hqe]
    have := henc r5
    simp only [List.nil_append, List.append_assoc] at this ⊢
    exact this

/-- The hypotheses are met by a packet whose fields the sender of this library never writes: a
vector of three messages, a short source id and extra list versions. -/
example : (readPacket (writeU32 0xd142cd89 ++ writeBytes [] ++ writeU32 0xb0a ++ List.replicate 32 5 ++
    writeVec writeMessage [.nop, .reinit 3, .nop] ++ writeU32 7 ++ writeU32 8 ++
    writeBytes (List.replicate 64 1) ++ writeBytes [])).map
      (fun x => (x.1.messages, x.1.srcShort, x.1.signature.isSome, x.2)) =
    some ([.nop, .reinit 3, .nop], some (List.replicate 32 5), true, []) := by decide +kernel

end Verif.Props
