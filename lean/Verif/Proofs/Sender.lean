import Verif.Model.Sender
import Verif.Proofs.AdnlProto
import Verif.Proofs.Encryption

namespace Verif.Sender
open Verif.Adnl Verif.AdnlProto Verif.Address Verif.Node Verif.Tl

variable {c : Crypto}

theorem writeBytes_le (d : Bytes) : (writeBytes d).length ≤ d.length + 7 := by
  rw [writeBytes_length]
  have := padding_lt (1 + d.length)
  have := padding_lt d.length
  split <;> omega

/-- Widths of the fixed size fields (`[u8; 32]` in the code). -/
def idsTyped : Message → Prop
  | .answer q _ => q.length = 32
  | .confirmChannel k p _ => k.length = 32 ∧ p.length = 32
  | .part h _ _ _ => h.length = 32
  | .createChannel k _ => k.length = 32
  | .query q _ => q.length = 32
  | _ => True

theorem writeMessage_le (m : Message) (size : Nat) (h : idsTyped m) (hs : countedSize m = some size) :
    (writeMessage m).length ≤ size := by
  cases m with
  | answer q a =>
    have := writeBytes_le a
    simp only [countedSize, Option.some.injEq] at hs
    simp only [idsTyped] at h
    simp only [writeMessage, List.length_append, writeU32_length, h]
    omega
  | query q a =>
    have := writeBytes_le a
    simp only [countedSize, Option.some.injEq] at hs
    simp only [idsTyped] at h
    simp only [writeMessage, List.length_append, writeU32_length, h]
    omega
  | custom d =>
    have := writeBytes_le d
    simp only [countedSize, Option.some.injEq] at hs
    simp only [writeMessage, List.length_append, writeU32_length]
    omega
  | confirmChannel k p d =>
    simp only [countedSize, Option.some.injEq] at hs
    simp only [idsTyped] at h
    simp only [writeMessage, List.length_append, writeU32_length, h]
    omega
  | nop =>
    simp only [countedSize, Option.some.injEq] at hs
    simp only [writeMessage, writeU32_length]
    omega
  | part h t o d => simp [countedSize] at hs
  | createChannel k d => simp [countedSize] at hs
  | reinit d => simp [countedSize] at hs

theorem slice_length_le (d : Bytes) (a b : Nat) : (slice d a b).length ≤ b - a := by
  unfold slice; rw [List.length_take]; omega

theorem buildPart_data (data hash : Bytes) (maxSize offset : Nat) :
    (Transfer.buildPart data hash maxSize offset).1.data.length ≤ maxSize ∧
    (Transfer.buildPart data hash maxSize offset).1.hash = hash := by
  refine ⟨?_, rfl⟩
  simp only [Transfer.buildPart]
  split
  · have := slice_length_le data offset (min data.length (offset + maxSize))
    omega
  · simp

theorem splitLoop_data (data hash : Bytes) (offset : Nat) :
    ∀ q ∈ Transfer.splitLoop data hash offset, q.data.length ≤ 1024 ∧ q.hash = hash := by
  induction offset using Transfer.splitLoop.induct (data := data) (hash := hash) with
  | case1 o h ih =>
    intro q hq
    rw [Transfer.splitLoop, if_pos h] at hq
    rcases List.mem_cons.mp hq with rfl | hq
    · exact buildPart_data data hash 1024 o
    · exact ih q hq
  | case2 o h =>
    intro q hq
    rw [Transfer.splitLoop, if_neg h] at hq
    cases hq

theorem partMessage_le (q : Transfer.Part) (h : q.hash.length = 32) :
    (writeMessage (partMessage q)).length ≤ q.data.length + 51 := by
  have := writeBytes_le q.data
  simp only [partMessage, writeMessage, List.length_append, writeU32_length, h]
  omega

def rawOf : OutMessages → Bytes
  | .single r => r
  | .pair r => r

/-- Everything put into one packet takes at most 1075 bytes. -/
theorem packets_le (sha : Bytes → Bytes) (hsha : ∀ d, (sha d).length = 32)
    (add : Option (Nat × Message)) (m : Message) (size : Nat)
    (hm : (writeMessage m).length ≤ size)
    (hadd : ∀ a, add = some a → (writeMessage a.2).length = a.1 ∧ a.1 ≤ 72) :
    ∀ x ∈ packets sha add m size, (rawOf x).length ≤ 1075 := by
  intro x hx
  unfold packets at hx
  split at hx
  · rename_i hs
    cases add with
    | none =>
      simp only [List.mem_singleton] at hx
      subst hx
      simp only [Option.map_none, Option.getD_none] at hs
      simp only [rawOf]
      omega
    | some a =>
      simp only [List.mem_singleton] at hx
      subst hx
      simp only [Option.map_some, Option.getD_some] at hs
      have := hadd a rfl
      simp only [rawOf, List.length_append]
      omega
  · have loop : ∀ o, ∀ q ∈ Transfer.splitLoop (writeMessage m) (sha (writeMessage m)) o,
        (writeMessage (partMessage q)).length ≤ 1075 := by
      intro o q hq
      obtain ⟨h1, h2⟩ := splitLoop_data _ _ o q hq
      have := partMessage_le q (by rw [h2, hsha])
      omega
    cases add with
    | none =>
      simp only [Option.map_none, Transfer.split] at hx
      have : x ∈ (Transfer.splitLoop (writeMessage m) (sha (writeMessage m)) 0).map
          fun q => OutMessages.single (writeMessage (partMessage q)) := by
        revert hx
        cases Transfer.splitLoop (writeMessage m) (sha (writeMessage m)) 0 <;> exact fun h => h
      obtain ⟨q, hq, rfl⟩ := List.mem_map.mp this
      exact loop 0 q hq
    | some a =>
      simp only [Option.map_some, Transfer.split, List.mem_cons] at hx
      rcases hx with rfl | hx
      · obtain ⟨h1, h2⟩ := buildPart_data (writeMessage m) (sha (writeMessage m)) (1024 - 40 - a.1) 0
        have := partMessage_le (Transfer.buildPart (writeMessage m) (sha (writeMessage m))
          (1024 - 40 - a.1) 0).1 (by rw [h2, hsha])
        have := hadd a rfl
        simp only [rawOf, List.length_append]
        omega
      · obtain ⟨q, hq, rfl⟩ := List.mem_map.mp hx
        exact loop _ q hq

theorem writeAddrList_some (a : Addr) (v r e : Nat) :
    (writeAddrList ⟨some a, v, r, e⟩).length = 32 := by
  simp [writeAddrList, writeOpt, writeAddr]

theorem writeOutMessages_le (m : OutMessages) : (writeOutMessages m).length ≤ (rawOf m).length + 4 := by
  cases m <;> simp [writeOutMessages, rawOf] <;> omega

theorem writeBytes_small (d : Bytes) (n : Nat) (h : d.length = n) (hn : n < 254) :
    (writeBytes d).length = 1 + n + padding (1 + n) := by
  rw [writeBytes_length, h, if_pos hn]

/-- Length of the packet contents: 76 bytes around the messages in a channel packet, at most 184 in a
handshake packet. -/
theorem packet_le (o : Opts c) (hc : c.Lawful) (ul : Bool) (now expire : Nat) (p : Peer c)
    (rand : Bytes) (hr : rand.length = 10) (k : Option c.Sec) (m : OutMessages) (n cf : Nat)
    (sig : Option Bytes) (hsig : ∀ s, sig = some s → s.length = 64) :
    (writePacket { basePacket o ul now expire p rand k m n cf with signature := sig }).length ≤
      (rawOf m).length + 184 := by
  have h1 := writeBytes_small (rand.take 3) 3 (by simp [hr]) (by omega)
  have h2 := writeBytes_small (rand.drop 3) 7 (by simp [hr]) (by omega)
  have hm := writeOutMessages_le m
  have e1 : padding (1 + 3) = 0 := rfl
  have e2 : padding (1 + 7) = 0 := rfl
  have hs : (writeOpt writeBytes sig).length ≤ 68 := by
    cases sig with
    | none => simp [writeOpt]
    | some s =>
      have := writeBytes_small s 64 (hsig s rfl) (by omega)
      have e3 : padding (1 + 64) = 3 := rfl
      simp only [writeOpt]
      omega
  cases k with
  | none =>
    simp only [writePacket, basePacket, List.length_append, writeU32_length, writeU64_length, h1, h2,
      writeAddrList_some, Option.map_none, writeOpt, List.length_nil]
    simp only [writeOpt] at hs
    omega
  | some k =>
    simp only [writePacket, basePacket, List.length_append, writeU32_length, writeU64_length, h1, h2,
      writeAddrList_some, Option.map_some, writeOpt, writePubKey, writeDates, hc.pub_length]
    simp only [writeOpt] at hs
    omega

theorem seal_le (c : Crypto) (hc : c.Lawful) (header secret : Bytes) (v : Option Nat) (d : Bytes) :
    (sealPacket c header secret v d).length ≤ header.length + 36 + d.length := by
  unfold sealPacket
  cases v with
  | none => simp only [List.length_append, dataHash_length c hc, cipher_length c hc]; omega
  | some v =>
    simp only [List.length_append, dataHash_length c hc, cipher_length c hc, encodeVersion_length]
    omega

/-- `[u8; 32]` fields of a signer's channel. -/
def signerTyped : Signer c → Prop
  | .channel ch _ => ∀ p, (ch.out.sub p).id.length = 32
  | .random _ => True

theorem sendPacket_le (o : Opts c) (hc : c.Lawful) (ul : Bool) (now : Nat) (peerId : Bytes)
    (hid : peerId.length = 32) (p : Peer c) (sg : Signer c) (hsg : signerTyped sg) (m : OutMessages)
    (r : Rand c) (hr : r.bytes.length = 10) (p' : Peer c) (d : Bytes)
    (h : sendPacket o ul now peerId p sg m r = .ok (p', d)) :
    d.length ≤ (rawOf m).length + 284 := by
  unfold sendPacket at h
  split at h
  · cases h
  · cases sg with
    | channel ch prio =>
      simp only at h
      cases h
      have := packet_le o hc ul now ‹Nat› p r.bytes hr none m
        (PacketsHistory.bump (p.sendSeqno (effectivePriority p prio))).2
        (p.recvHist (effectivePriority p prio)).seqno none (by simp)
      refine Nat.le_trans (seal_le c hc _ _ _ _) ?_
      rw [hsg]
      simp only [basePacket] at this ⊢
      omega
    | random key =>
      simp only at h
      cases h
      have := packet_le o hc ul now ‹Nat› p r.bytes hr (some key) m
        (PacketsHistory.bump (p.sendSeqno false)).2 (p.recvHist false).seqno
        (some (c.sign key (writePacket (basePacket o ul now ‹Nat› p r.bytes (some key) m
          (PacketsHistory.bump (p.sendSeqno false)).2 (p.recvHist false).seqno))))
        (by intro s hs; cases hs; exact hc.sign_length _ _)
      refine Nat.le_trans (seal_le c hc _ _ _ _) ?_
      simp only [List.length_append, hid, hc.pub_length]
      simp only [] at this ⊢
      omega

theorem sendAll_le (o : Opts c) (hc : c.Lawful) (ul : Bool) (now : Nat) (peerId : Bytes)
    (hid : peerId.length = 32) (sg : Signer c) (hsg : signerTyped sg) (ms : List OutMessages)
    (hms : ∀ m ∈ ms, (rawOf m).length ≤ 1075) :
    ∀ (p : Peer c) (rand : Nat → Rand c), (∀ k, (rand k).bytes.length = 10) →
    ∀ (p' : Peer c) (ds : List Bytes), sendAll o ul now peerId sg p ms rand = .ok (p', ds) →
      ∀ d ∈ ds, d.length ≤ 1359 := by
  induction ms with
  | nil =>
    intro p rand _ p' ds h d hd
    cases h
    cases hd
  | cons m ms ih =>
    intro p rand hr p' ds h d hd
    unfold sendAll at h
    cases h1 : sendPacket o ul now peerId p sg m (rand 0) with
    | error e => rw [h1] at h; cases h
    | ok x =>
      obtain ⟨p1, d1⟩ := x
      rw [h1] at h
      simp only at h
      cases h2 : sendAll o ul now peerId sg p1 ms (fun k => rand (k + 1)) with
      | error e => rw [h2] at h; cases h
      | ok y =>
        obtain ⟨p2, ds2⟩ := y
        rw [h2] at h
        simp only at h
        cases h
        rcases List.mem_cons.mp hd with rfl | hd
        · have := sendPacket_le o hc ul now peerId hid p sg hsg m _ (hr 0) _ _ h1
          have := hms m (by simp)
          omega
        · exact ih (fun x hx => hms x (by simp [hx])) p1 _ (fun k => hr (k + 1)) _ _ h2 d hd

end Verif.Sender
