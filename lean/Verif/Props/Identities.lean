import Verif.Props.Attribution
import Verif.Props.PacketCodec
import Verif.Props.Handshake
import Verif.Props.Establish

/-!
# C93: a node with several local ids

`channels_by_peers` has one entry per remote id, whichever local id the channel was made for.
-/
namespace Verif.Identities
open Verif.Tl Verif.Adnl Verif.AdnlProto Verif.Address Verif.Node Verif.Receiver Verif.Sender Verif.Process
open Verif.Props (OutWf Carries)
open Verif.Establish (NoChannels)

variable {c : Crypto}

/-! ### Two nodes on a network that loses nothing -/

/-- The nodes `false` and `true`. -/
structure Nodes (c : Crypto) where
  opts : Bool → Opts c
  /-- `use_loopback_for_neighbours` -/
  loop : Bool → Bool

/-- Keys are stored under their ids (C19). -/
def Nodes.Honest (N : Nodes c) : Prop :=
  ∀ b l k, (N.opts b).keys l = some k → l = shortId c (c.pubOf k)

/-- The application of node `node` sends a message from `l` to `q`. -/
structure Act (c : Crypto) where
  node : Bool
  now : Nat
  l : Bytes
  q : Bytes
  m : Message
  prio : Bool
  rand : Nat → Rand c

/-- `send_message` of an action. -/
def sent (N : Nodes c) (σ : Bool → Full c) (a : Act c) : Except Sender.Err (Peer c × List Bytes) :=
  sendMessage (N.opts a.node) (N.loop a.node) a.now (σ a.node).node a.l a.q a.m a.prio a.rand

/-- The message is sent and the other node receives the datagrams in order. Answers are not delivered. -/
def act (N : Nodes c) (σ : Bool → Full c) (a : Act c) : Bool → Full c :=
  match sent N σ a with
  | .error _ => σ
  | .ok (p, ds) => fun b =>
    if b = a.node then { σ b with node := (σ b).node.setPeer a.l a.q p }
    else ds.foldl (fun s d => (receive (N.opts b) (N.loop b) a.now (fun _ => .done) s d (a.rand 0).temp a.rand).1)
      (σ b)

/-- Both nodes at the start: no channels, peers stored under their ids. -/
def Start (σ : Bool → Full c) : Prop :=
  ∀ b, NoChannels (σ b).node ∧ AllPeers (fun q p => shortId c p.pub = q) (σ b).node

/-- C93, full statement: after any exchange of messages, what one node sends from `l` to `q` is attributed
by the other one to `l` and `q`, if it is accepted. -/
def C93_full : Prop :=
  ∀ (c : Crypto), c.Lawful → ∀ (N : Nodes c), N.Honest → ∀ (σ : Bool → Full c), Start σ →
    ∀ (as : List (Act c)) (a : Act c) (p : Peer c) (ds : List Bytes),
      sent N (as.foldl (act N) σ) a = .ok (p, ds) →
      ∀ d ∈ ds, ∀ (now : Nat) (key : c.Sec) (rand : Nat → Rand c) (l' q' : Bytes) (prio : Bool)
        (ms : List Message),
        (handle (N.opts !a.node) (N.loop !a.node) now (as.foldl (act N) σ !a.node).node d key rand).2.1 =
          .accepted l' q' prio ms →
        l' = a.q ∧ q' = a.l

/-! ### The witness -/
namespace Toy

/-- Ids of the keys 3 and 4 (first node) and 5 (second node). -/
def ident (k : UInt8) : Bytes := shortId Crypto.toy k

def nodes : Nodes Crypto.toy where
  opts b := { toyOpts with
    startTime := if b then 110 else 100
    socketAddr := ⟨1, 2, 3, if b then 4 else 5, 5⟩
    keys := fun i =>
      if b then if i = ident 5 then some (show UInt8 from 5) else none
      else if i = ident 3 then some (show UInt8 from 3)
      else if i = ident 4 then some (show UInt8 from 4) else none }
  loop _ := false

def peer (b : Bool) (pub chan : UInt8) : Peer Crypto.toy :=
  Peer.new (if b then 110 else 100) ⟨1, 2, 3, if b then 5 else 4, 5⟩ pub chan

/-- Every local ident knows the ids of the other node. -/
def start (b : Bool) : Full Crypto.toy where
  node :=
    { peers :=
        if b then [(ident 5, [(ident 3, peer b 3 9), (ident 4, peer b 4 10)])]
        else [(ident 3, [(ident 5, peer b 5 7)]), (ident 4, [(ident 5, peer b 5 8)])]
      heap := [], next := 0, byPeer := [], byId := [] }
  transfers := []

def say (node : Bool) (now : Nat) (l q : UInt8) : Act Crypto.toy where
  node := node
  now := now
  l := ident l
  q := ident q
  m := .custom [1, 2, 3, 4]
  prio := false
  rand := toyRand

/-- The first two messages make a channel between the ids 3 and 5, through which id 4 then sends. -/
def before : List (Act Crypto.toy) := [say false 120 3 5, say true 121 5 3, say false 122 4 5]

/-- What becomes of the next message of id 4 after the first `n` of these. -/
def outcome (n : Nat) : Option Outcome :=
  match sent nodes ((before.take n).foldl (act nodes) start) (say false 123 4 5) with
  | .ok (_, [d]) => some (handle (nodes.opts true) false 123 ((before.take n).foldl (act nodes) start true).node d
      (show UInt8 from 1) toyRand).2.1
  | _ => none

theorem attributed : outcome 3 = some (.accepted (ident 5) (ident 3) false [.custom [1, 2, 3, 4]]) := by
  decide +kernel

theorem dropped : outcome 2 = some .duplicate := by decide +kernel

theorem honest : nodes.Honest := by
  intro b l k h
  cases b
  · simp only [nodes, Bool.false_eq_true, if_false] at h
    split at h
    · cases h; assumption
    · split at h
      · cases h; assumption
      · cases h
  · simp only [nodes, if_true] at h
    split at h
    · cases h; assumption
    · cases h

theorem started : Start start := by
  intro b
  refine ⟨⟨rfl, rfl, rfl⟩, ?_⟩
  intro l q p h
  unfold State.peer at h
  cases b
  · simp only [start, Bool.false_eq_true, if_false, AMap.get] at h
    split at h
    · rename_i t ht
      split at ht
      · cases ht
        simp only [AMap.get] at h
        split at h
        · cases h; subst q; rfl
        · cases h
      · split at ht
        · cases ht
          simp only [AMap.get] at h
          split at h
          · cases h; subst q; rfl
          · cases h
        · cases ht
    · cases h
  · simp only [start, if_true, AMap.get] at h
    split at h
    · rename_i t ht
      split at ht
      · cases ht
        simp only [AMap.get] at h
        split at h
        · cases h; subst q; rfl
        · split at h
          · cases h; subst q; rfl
          · cases h
      · cases ht
    · cases h

end Toy

/-- C93 is violated: after the local id 3 has made a channel with the remote id 5, messages of the local
id 4 to that peer go through this channel and are taken as messages of id 3. -/
theorem C93_full_false : ¬ C93_full := by
  intro h
  have ho := Toy.attributed
  unfold Toy.outcome at ho
  split at ho
  · rename_i p d hs
    have := h Crypto.toy Crypto.toy_lawful Toy.nodes Toy.honest Toy.start Toy.started (Toy.before.take 3)
      (Toy.say false 123 4 5) p [d] hs d (by simp) 123 (show UInt8 from 1) toyRand (Toy.ident 5) (Toy.ident 3)
      false [.custom [1, 2, 3, 4]] (Option.some.inj ho)
    exact absurd this.2 (by decide +kernel)
  · cases ho

/-! ### What holds -/

/-- Reading a packet gives the source that was written, whatever the messages are. -/
theorem read_source {p : OutPacket} {pkt : InPacket} {r rest : Bytes} (hr : p.rand1.length < 2 ^ 24)
    (hk : ∀ k, p.src = some k → k.wf) (h : readPacket (writePacket p ++ r) = some (pkt, rest)) :
    pkt.src = p.src ∧ pkt.srcShort = none := by
  obtain ⟨b0, b1, -⟩ := outFlags_bits p
  have e1 := Encodes.u32 (n := 0xd142cd89) (by decide)
  have e2 := Encodes.measured (Encodes.bytes hr)
  have e3 := Encodes.u32 (outFlags_lt p)
  have e4 := Encodes.opt (rd := readPubKey) (w := writePubKey) b0 fun k h => pubKey_encodes k (hk k h)
  have e5 := Encodes.optNone (rd := readHash) b1
  unfold readPacket writePacket at h
  simp only [List.append_assoc] at h
  rw [bind_def, e1] at h
  simp only [ne_eq, not_true_eq_false, if_false] at h
  rw [bind_def, e2] at h
  simp only at h
  rw [bind_def, e3] at h
  simp only at h
  generalize writeOutMessages p.messages ++ _ = tail at h
  rw [bind_def] at h
  have hmid : ∀ x r', measured (readMid (outFlags p)) (writeOpt writePubKey p.src ++ tail) = some (x, r') →
      x.1.src = p.src ∧ x.1.srcShort = none := by
    intro x r' hx
    unfold measured at hx
    cases hm : readMid (outFlags p) (writeOpt writePubKey p.src ++ tail) with
    | none => rw [hm] at hx; cases hx
    | some y =>
      obtain ⟨y, r2⟩ := y
      rw [hm] at hx
      simp only [Option.some.injEq, Prod.mk.injEq] at hx
      obtain ⟨rfl, rfl⟩ := hx
      unfold readMid at hm
      rw [bind_def, e4] at hm
      simp only at hm
      have e5' := e5 tail
      rw [List.nil_append] at e5'
      rw [bind_def, e5'] at hm
      simp only at hm
      obtain ⟨_, _, -, hm⟩ := bind_some hm
      obtain ⟨_, _, -, hm⟩ := bind_some hm
      obtain ⟨_, _, -, hm⟩ := bind_some hm
      obtain ⟨_, _, -, hm⟩ := bind_some hm
      obtain ⟨_, _, -, hm⟩ := bind_some hm
      obtain ⟨_, _, -, hm⟩ := bind_some hm
      obtain ⟨_, _, -, hm⟩ := bind_some hm
      obtain ⟨_, _, -, hm⟩ := bind_some hm
      obtain ⟨_, _, -, hm⟩ := bind_some hm
      cases hm
      exact ⟨rfl, rfl⟩
  cases hm : measured (readMid (outFlags p)) (writeOpt writePubKey p.src ++ tail) with
  | none => rw [hm] at h; cases h
  | some x =>
    obtain ⟨⟨mid, n⟩, r'⟩ := x
    rw [hm] at h
    have := hmid _ _ hm
    simp only at h this
    obtain ⟨_, _, -, h⟩ := bind_some h
    obtain ⟨_, _, -, h⟩ := bind_some h
    cases hj : joinMessages mid.messages mid.message with
    | none => rw [hj] at h; cases h
    | some ms => rw [hj] at h; cases h; exact this

/-- The datagrams of `sendAll` are made by `sendPacket` for the same peer. -/
theorem sendAll_mem {o : Opts c} {ul : Bool} {now : Nat} {q : Bytes} {sg : Signer c} :
    ∀ {ms : List OutMessages} {p p' : Peer c} {rand : Nat → Rand c} {ds : List Bytes},
    sendAll o ul now q sg p ms rand = .ok (p', ds) → ∀ d ∈ ds, ∃ p1 p2 m k, p1.pub = p.pub ∧
      sendPacket o ul now q p1 sg m (rand k) = .ok (p2, d) := by
  intro ms
  induction ms with
  | nil => intro p p' rand ds h d hd; cases h; cases hd
  | cons m ms ih =>
    intro p p' rand ds h d hd
    unfold sendAll at h
    cases h1 : sendPacket o ul now q p sg m (rand 0) with
    | error e => rw [h1] at h; cases h
    | ok x =>
      obtain ⟨p1, d1⟩ := x
      rw [h1] at h
      simp only at h
      cases h2 : sendAll o ul now q sg p1 ms (fun k => rand (k + 1)) with
      | error e => rw [h2] at h; cases h
      | ok y =>
        obtain ⟨p3, ds'⟩ := y
        rw [h2] at h
        simp only [Except.ok.injEq, Prod.mk.injEq] at h
        obtain ⟨rfl, rfl⟩ := h
        rcases List.mem_cons.mp hd with rfl | hd
        · exact ⟨p, p1, m, 0, rfl, h1⟩
        · obtain ⟨a, b, m', k, e, e'⟩ := ih h2 d hd
          refine ⟨a, b, m', k + 1, e.trans ?_, e'⟩
          unfold sendPacket at h1
          split at h1
          · cases h1
          · split at h1 <;> cases h1 <;> (unfold Peer.setSendSeqno; split <;> rfl)

/-- What `send_message` needs and does. -/
theorem sendMessage_parts {o : Opts c} {ul : Bool} {now : Nat} {s : State c} {l q : Bytes} {m : Message}
    {prio : Bool} {rand : Nat → Rand c} {p' : Peer c} {ds : List Bytes}
    (h : sendMessage o ul now s l q m prio rand = .ok (p', ds)) :
    ∃ p k outs, s.peer l q = some p ∧ o.keys l = some k ∧
      sendAll o ul now q (signerOf k prio (s.channel q)) p outs rand = .ok (p', ds) := by
  unfold sendMessage at h
  cases h1 : s.peers.get l with
  | none => rw [h1] at h; cases h
  | some t =>
    rw [h1] at h
    simp only at h
    cases h2 : t.get q with
    | none => rw [h2] at h; cases h
    | some p =>
      rw [h2] at h
      simp only at h
      cases h3 : o.keys l with
      | none => rw [h3] at h; cases h
      | some k =>
        rw [h3] at h
        simp only at h
        cases h4 : countedSize m with
        | none => rw [h4] at h; cases h
        | some size =>
          rw [h4] at h
          exact ⟨p, k, _, by rw [State.peer, h1]; exact h2, rfl, h⟩

/-- Without a ready channel with the peer (of any local id), everything sent from `l` to `q` is attributed
to `l` and `q` or not accepted, in any state of the receiver that holds the key of `q`. Unversioned packets
may look like versioned ones by accident (C10). -/
theorem C93_handshake_partial (hc : c.Lawful) (oA oB : Opts c) (ul ul' : Bool) (now now' : Nat)
    (sA sB : State c) (l q : Bytes) (m : Message) (prio : Bool) (rand : Nat → Rand c) (p p' : Peer c)
    (kA kB : c.Sec) (ds : List Bytes)
    (hsend : sendMessage oA ul now sA l q m prio rand = .ok (p', ds))
    (hno : ∀ ch, sA.channel q = some ch → ch.ready = false)
    (hA : oA.keys l = some kA) (hl : l = shortId c (c.pubOf kA))
    (hB : oB.keys q = some kB) (hq : q.length = 32) (hp : sA.peer l q = some p) (hpub : p.pub = c.pubOf kB)
    (hr : ∀ k, (rand k).bytes.length = 10)
    (hv : oA.version = some 0 ∨
      (oA.version = none ∧ ∀ d ∈ ds, ∀ k, ¬ LooksVersioned c (c.dh kB (c.pubOf (rand k).temp)) d))
    (d : Bytes) (hd : d ∈ ds) (key : c.Sec) (rand' : Nat → Rand c) (l' q' : Bytes) (prio' : Bool)
    (ms : List Message)
    (hacc : (handle oB ul' now' sB d key rand').2.1 = .accepted l' q' prio' ms) :
    l' = q ∧ q' = l := by
  obtain ⟨p0, k0, outs, e1, e2, e3⟩ := sendMessage_parts hsend
  rw [hp] at e1; cases e1
  rw [hA] at e2; cases e2
  have hsg : signerOf kA prio (sA.channel q) = .random kA := by
    cases hx : sA.channel q with
    | none => rfl
    | some ch => simp [signerOf, hno ch hx]
  rw [hsg] at e3
  obtain ⟨p1, p2, out, k, f1, f2⟩ := sendAll_mem e3 d hd
  unfold sendPacket at f2
  split at f2
  · cases f2
  rename_i expire hexp
  simp only [Except.ok.injEq, Prod.mk.injEq] at f2
  obtain ⟨-, f2⟩ := f2
  generalize hpk : ({ basePacket oA ul now expire p1 (rand k).bytes (some kA) out
    (PacketsHistory.bump (p1.sendSeqno false)).2 (p1.recvHist false).seqno with
    signature := some (c.sign kA (writePacket (basePacket oA ul now expire p1 (rand k).bytes (some kA) out
      (PacketsHistory.bump (p1.sendSeqno false)).2 (p1.recvHist false).seqno))) } : OutPacket) = pk at f2
  rw [f1, hpub] at f2
  have hdec : ∃ v, parseHandshake c oB.keys d = .ok q v (writePacket pk) := by
    rcases hv with hv | ⟨hv, hno⟩
    · rw [hv] at f2
      rw [← f2]
      exact ⟨_, C10_versioned_partial c hc oB.keys q kB (rand k).temp 0 _ hq hB (by decide)
        (by intro h; have := congrArg List.length h; simp [writePacket] at this)⟩
    · have := hno d hd k
      rw [hv] at f2
      rw [← f2] at this ⊢
      exact ⟨_, C10_unversioned_partial c hc oB.keys q kB (rand k).temp _ hq hB this⟩
  obtain ⟨v, hdec⟩ := hdec
  obtain ⟨s1, dd, pkt, rest, g1, g2, g3, -, -, -, g4, -⟩ := handle_accepted hacc
  rw [decrypt_handshake hdec] at g1
  cases g1
  simp only at g2 g3 g4
  refine ⟨g3.symm, ?_⟩
  have hsrc := read_source (p := pk) (r := []) (by rw [← hpk]; simp [basePacket, hr])
    (by intro k' hk'; rw [← hpk] at hk'; cases hk'; exact hc.pub_length _) (by rw [List.append_nil]; exact g2)
  obtain ⟨s2, check, p3, i1, -⟩ := checkPacket_peer g4
  rcases source_handshake i1 with ⟨-, pk', pub, j1, j2, j3, -⟩ | ⟨-, j1, -⟩
  · rw [hsrc.1, ← hpk] at j1
    cases j1
    simp only [fullId, hc.decode_pub, Option.some.injEq] at j2
    rw [j3, ← j2, hl]
  · rw [hsrc.1, ← hpk] at j1
    cases j1

/-- With a ready channel with the peer, everything sent to `q` from any local id `l` is attributed to the
two ids of the channel that the receiver lists under the id of the sender's channel, which does not depend
on `l`. -/
theorem C93_channel_partial (oA oB : Opts c) (ul ul' : Bool) (now now' : Nat)
    (sA sB : State c) (l q : Bytes) (m : Message) (prio : Bool) (rand : Nat → Rand c) (p' : Peer c)
    (ds : List Bytes) (ch : Channel) (L Q : Bytes)
    (hsend : sendMessage oA ul now sA l q m prio rand = .ok (p', ds))
    (hch : sA.channel q = some ch) (hready : ch.ready = true)
    (hid : ∀ b, (ch.out.sub b).id.length = 32 ∧ oB.keys (ch.out.sub b).id = none)
    (hB : ∀ b, ∃ r x, sB.byId.get (ch.out.sub b).id = some (r, b) ∧ sB.heap.get r = some x ∧
      x.localId = L ∧ x.peerId = Q)
    (d : Bytes) (hd : d ∈ ds) (key : c.Sec) (rand' : Nat → Rand c) (l' q' : Bytes) (prio' : Bool)
    (ms : List Message)
    (hacc : (handle oB ul' now' sB d key rand').2.1 = .accepted l' q' prio' ms) :
    l' = L ∧ q' = Q := by
  obtain ⟨p0, k0, outs, e1, e2, e3⟩ := sendMessage_parts hsend
  simp only [hch, signerOf, hready, if_true] at e3
  obtain ⟨p1, p2, out, k, f1, f2⟩ := sendAll_mem e3 d hd
  unfold sendPacket at f2
  split at f2
  · cases f2
  simp only [Except.ok.injEq, Prod.mk.injEq] at f2
  obtain ⟨-, f2⟩ := f2
  generalize effectivePriority p1 prio = b at f2
  obtain ⟨hb1, hb2⟩ := hid b
  have htake : d.take 32 = (ch.out.sub b).id := by
    rw [← f2]
    unfold Channel.encrypt sealPacket
    cases oA.version <;> simp only [List.append_assoc] <;> rw [List.take_append_of_le_length (by omega)] <;>
      exact List.take_of_length_le (by omega)
  obtain ⟨r, x, hB1, hx1, hx2, hx3⟩ := hB b
  have hnot : parseHandshake c oB.keys d = .notForUs ∨ parseHandshake c oB.keys d = .badLength := by
    unfold parseHandshake
    split
    · exact .inr rfl
    · rw [htake, hb2]; exact .inl rfl
  rcases hnot with hnot | hnot
  · obtain ⟨r1, c1, v, pl, pkt, rest, p3, i1, i2, -, -, i3, i4, -⟩ := C14_through_channel oB ul' now' sB d key
      rand' l' q' prio' ms hnot hacc
    rw [htake, hB1] at i1
    cases i1
    rw [hx1] at i2
    cases i2
    exact ⟨i3.trans hx2, i4.trans hx3⟩
  · obtain ⟨s1, dd, pkt, rest, g1, -⟩ := handle_accepted hacc
    unfold decrypt at g1
    rw [hnot] at g1
    cases g1

/-- The hypotheses of `C93_channel_partial` are met by the toy nodes after the first two messages: the only
channel of the first node is ready, it was made for id 3, and the second node lists its two ids for the
channel of the ids 5 and 3. The next but one message of id 4 is accepted (`Toy.attributed`). -/
example : let σ := (Toy.before.take 2).foldl (act Toy.nodes) Toy.start
    ((σ false).node.channel (Toy.ident 5)).map (fun ch => (ch.ready, ch.localId, [true, false].all fun b =>
      (ch.out.sub b).id.length == 32 && ((Toy.nodes.opts true).keys (ch.out.sub b).id).isNone &&
      (match (σ true).node.byId.get (ch.out.sub b).id with
        | some (r, b') => b' == b && (match (σ true).node.heap.get r with
          | some x => x.localId == Toy.ident 5 && x.peerId == Toy.ident 3
          | none => false)
        | none => false))) = some (true, Toy.ident 3, true) := by decide +kernel

/-- The hypotheses of `C93_handshake_partial` are met by the first message of id 4, whose packet is
versioned here. -/
example :
    let oA := { Toy.nodes.opts false with version := some 0 }
    (match sendMessage oA false 120 (Toy.start false).node (Toy.ident 4) (Toy.ident 5) (.custom [1, 2, 3, 4])
        false toyRand with
      | .ok (_, [d]) => (match (handle (Toy.nodes.opts true) false 123 (Toy.start true).node d
          (show UInt8 from 1) toyRand).2.1 with
        | .accepted l q _ _ => l == Toy.ident 5 && q == Toy.ident 4
        | _ => false)
      | _ => false) = true ∧
    ((Toy.start false).node.channel (Toy.ident 5)).isNone ∧
    ((Toy.start false).node.peer (Toy.ident 4) (Toy.ident 5)).map (·.pub) =
      some (Crypto.toy.pubOf (show UInt8 from 5)) ∧
    (Toy.ident 5).length = 32 := by
  refine ⟨?_, ?_, rfl, ?_⟩ <;> decide +kernel

/-- The first message of id 4 after the channel of id 3 is dropped: its number was used by id 3. -/
example : Toy.outcome 2 = some .duplicate := Toy.dropped

-- C93_handshake_partial
example : ∃ (p' : Peer Crypto.toy) (d : Bytes) (l' q' : Bytes) (prio' : Bool) (ms : List Message),
    sendMessage { Toy.nodes.opts false with version := some 0 } false 120 (Toy.start false).node (Toy.ident 4)
      (Toy.ident 5) (.custom [1, 2, 3, 4]) false toyRand = .ok (p', [d]) ∧
    (handle (Toy.nodes.opts true) false 123 (Toy.start true).node d (show UInt8 from 1) toyRand).2.1 =
      .accepted l' q' prio' ms ∧ l' = Toy.ident 5 ∧ q' = Toy.ident 4 := by
  have h : (match sendMessage { Toy.nodes.opts false with version := some 0 } false 120 (Toy.start false).node
        (Toy.ident 4) (Toy.ident 5) (.custom [1, 2, 3, 4]) false toyRand with
      | .ok (_, [d]) => (match (handle (Toy.nodes.opts true) false 123 (Toy.start true).node d
          (show UInt8 from 1) toyRand).2.1 with
        | .accepted _ _ _ _ => true
        | _ => false)
      | _ => false) = true := by decide +kernel
  generalize hs : sendMessage { Toy.nodes.opts false with version := some 0 } false 120 (Toy.start false).node
    (Toy.ident 4) (Toy.ident 5) (.custom [1, 2, 3, 4]) false toyRand = r at h
  match r, hs, h with
  | .ok (p', [d]), hs, h =>
    simp only at h
    generalize hh : (handle (Toy.nodes.opts true) false 123 (Toy.start true).node d
          (show UInt8 from 1) toyRand).2.1 = out at h
    cases out with
    | accepted l' q' prio' ms =>
      refine ⟨p', d, l', q', prio', ms, rfl, hh, ?_⟩
      exact C93_handshake_partial Crypto.toy_lawful { Toy.nodes.opts false with version := some 0 } (Toy.nodes.opts true)
        false false 120 123 (Toy.start false).node (Toy.start true).node (Toy.ident 4) (Toy.ident 5)
        (.custom [1, 2, 3, 4]) false toyRand (Toy.peer false 5 8) p' (show UInt8 from 4) (show UInt8 from 5) [d] hs
        (by intro ch hch; exact absurd hch (by rw [show (Toy.start false).node.channel (Toy.ident 5) = none by rfl]; simp))
        (by rfl) (by rfl) (by rfl) (by decide +kernel) (by rfl) (by rfl) (by intro k; rfl) (.inl rfl) d
        List.mem_cons_self (show UInt8 from 1) toyRand l' q' prio' ms hh
    | _ => cases h

end Verif.Identities
