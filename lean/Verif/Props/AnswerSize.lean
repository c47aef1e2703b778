import Verif.Model.DhtRpc
import Verif.Props.DhtNode
import Verif.Props.Transfer
import Verif.Proofs.Sender
import Mathlib.Data.List.Dedup

/-!
# C99: every answer of a DHT node can reach the node that asked
-/
namespace Verif.Dht
open Verif.Tl Verif.Address Verif.AdnlProto Verif.DhtProto Verif.Storage Verif.Transfer

/-- A message can arrive: it fits into one packet (sender.rs:124), or the parts that are sent for it, in some
order, each as often as one likes, are joined to it by the receiver. `add` is the size of the message attached
while there is no ready channel (40 or 72). -/
def CanArrive (sha : Bytes → Bytes) (add : Option Nat) (m : Message) : Prop :=
  (∃ n, Sender.countedSize m = some n ∧ add.getD 0 + n ≤ 1024) ∨
  ∃ arrivals : List Part, (∀ q ∈ arrivals, q ∈ split (writeMessage m) (sha (writeMessage m)) add) ∧
    Res.some (writeMessage m) ∈ (recvParts sha [] arrivals).2

/-- The longest answer that can arrive. -/
def longest : Option Nat → Nat
  | none => 2008
  | some a => 1968 - a

/-- C99 as stated: whatever a DHT node answers in whatever state, the answer can arrive through a ready channel. -/
def C99_full : Prop :=
  ∀ (c : Crypto) (_ : c.Lawful) (o : Opts c) (adnl : Node.State c) (localId : Bytes) (maxPeers : Nat)
    (ops : List (Op c)) (e : Env c) (q : Query) (a queryId : Bytes), queryId.length = 32 →
    (answerTo o e (run o (init adnl localId maxPeers) ops) q).2 = .answer a →
    CanArrive c.sha none (.answer queryId a)

theorem answer_length (queryId a : Bytes) (hq : queryId.length = 32) :
    (writeMessage (.answer queryId a)).length = 36 + (writeBytes a).length := by
  simp [writeMessage, hq]; omega

/-- The parts in order. -/
theorem split_arrives (sha : Bytes → Bytes) (data : Bytes) (hd : data ≠ []) (add : Option Nat)
    (hadd : add ∈ [none, some 40, some 72]) (h : data.length ≤ Props.firstPart add + 1024) :
    ∃ arrivals : List Part, (∀ q ∈ arrivals, q ∈ split data (sha data) add) ∧
      Res.some data ∈ (recvParts sha [] arrivals).2 := by
  have hne : split data (sha data) add ≠ [] := by
    have hl : 0 < data.length := List.length_pos_iff.mpr hd
    cases add with
    | some a => simp [split]
    | none =>
      rw [split, splitLoop, if_pos hl]
      exact List.cons_ne_nil _ _
  -- distinct parts, the last one at the end
  let ps := (split data (sha data) add).dedup
  have hps : ps ≠ [] := by
    intro h0
    obtain ⟨x, hx⟩ := List.exists_mem_of_ne_nil _ hne
    have : x ∈ ps := List.mem_dedup.mpr hx
    rw [h0] at this; cases this
  have hnd : ps.Nodup := List.nodup_dedup _
  have hsplit : ps.dropLast ++ [ps.getLast hps] = ps := List.dropLast_append_getLast hps
  have hmem : ∀ q, q ∈ ps ↔ q ∈ split data (sha data) add := fun q => List.mem_dedup
  have hlast : ps.getLast hps ∉ ps.dropLast := by
    rw [← hsplit, List.nodup_append] at hnd
    intro hin
    exact hnd.2.2 _ hin _ (List.mem_singleton.mpr rfl) rfl
  have := Props.C04_reassembled_partial sha data hd add hadd h [] rfl ps.dropLast (ps.getLast hps)
    (fun q hq _ => (hmem q).mp (List.dropLast_subset _ hq)) ((hmem _).mp (List.getLast_mem hps)) hlast
    (fun q hq => by
      have : q ∈ ps.dropLast ++ [ps.getLast hps] := by rw [hsplit]; exact (hmem q).mpr hq
      rcases List.mem_append.mp this with h1 | h1
      · exact .inr h1
      · exact .inl (List.mem_singleton.mp h1))
  refine ⟨ps, fun q hq => (hmem q).mp hq, ?_⟩
  rw [← hsplit, recvParts_append]
  simp [recvParts, this.2]

/-- C99: exactly which answers can arrive: those of up to 2008 bytes through a ready channel, of up to 1928 or
1896 before it is ready. Longer ones never do, whatever arrives of the packets sent for them. -/
theorem C99_arrives_iff_partial (sha : Bytes → Bytes) (add : Option Nat) (hadd : add ∈ [none, some 40, some 72])
    (queryId a : Bytes) (hq : queryId.length = 32) (ha : a.length < 2 ^ 24) :
    CanArrive sha add (.answer queryId a) ↔ a.length ≤ longest add := by
  have hl := answer_length queryId a hq
  have hne : writeMessage (.answer queryId a) ≠ [] := by
    intro h0; rw [h0] at hl; simp at hl; omega
  have hbytes := Tl.writeBytes_length a
  have hfit : (writeMessage (.answer queryId a)).length ≤ Props.firstPart add + 1024 ↔ a.length ≤ longest add := by
    rw [hl, hbytes]
    unfold padding
    simp only [List.mem_cons, List.not_mem_nil, or_false] at hadd
    rcases hadd with rfl | rfl | rfl <;> simp only [Props.firstPart, longest] <;> split <;> omega
  rw [← hfit]
  constructor
  · rintro (⟨n, hn, hle⟩ | ⟨arrivals, hm, hres⟩)
    · simp only [Sender.countedSize, Option.some.injEq] at hn
      have := Sender.writeBytes_le a
      simp only [List.mem_cons, List.not_mem_nil, or_false] at hadd
      rcases hadd with rfl | rfl | rfl <;> simp only [Props.firstPart, Option.getD] at hle ⊢ <;> omega
    · by_contra hlong
      have := Props.C04_long_never_delivered sha _ add hadd (by
        rw [hl, hbytes]; unfold padding; split <;> omega) (by omega) arrivals (fun q hq _ => hm q hq)
      obtain ⟨i, hi, hget⟩ := List.mem_iff_getElem.mp hres
      have hlen := Props.recvParts_length sha arrivals []
      have hi2 : i < arrivals.length := by omega
      have hz : (arrivals[i], Res.some (writeMessage (.answer queryId a))) ∈
          arrivals.zip (recvParts sha [] arrivals).2 := by
        rw [List.mem_iff_getElem]
        exact ⟨i, by simp; omega, by simp [hget]⟩
      have hf := this _ hz (by
        have := hm _ (List.getElem_mem hi2)
        have hsl := split_long (writeMessage (.answer queryId a)) (sha (writeMessage (.answer queryId a))) (by
          rw [hl, hbytes]; unfold padding; split <;> omega) add (Props.firstPart add)
          (by cases add <;> rfl)
          (by simp only [List.mem_cons, List.not_mem_nil, or_false] at hadd
              rcases hadd with rfl | rfl | rfl <;> simp [Props.firstPart])
          (by simp only [List.mem_cons, List.not_mem_nil, or_false] at hadd
              rcases hadd with rfl | rfl | rfl <;> simp [Props.firstPart]) (by omega)
        exact (hsl.1 _ this).1)
      cases hf
  · intro h
    exact .inr (split_arrives sha _ hne add hadd h)

example := C99_arrives_iff_partial (fun d => d) (some 40) (by simp) (List.replicate 32 1) [1, 2, 3] (by decide) (by decide)

/-! ### Node records -/

variable {c : Crypto}

/-- The node records in a query. -/
def Query.records : Query → List DNode
  | .withNode n q => n :: q.records
  | _ => []

/-- The node records in what happens to the node. -/
def Op.records : Op c → List DNode
  | .query _ _ _ _ q => q.records
  | .learned _ _ n => [n]
  | _ => []

/-- Keys have 32 bytes, as their type in the code says (`[u8; 32]`). -/
def Typed (n : DNode) : Prop := ∀ key, n.id = .ed25519 key → key.length = 32

/-- The size of a record that was accepted. -/
def Full (n : DNode) : Prop := (writeDNode n).length = 140

theorem full_of {localId id : Bytes} {n : DNode} (h : NodeOk c localId id n) (ht : Typed n)
    (ha : n.addrList.address ≠ none) : Full n := by
  obtain ⟨key, pub, hk, -, -, -, hs, -⟩ := h
  have hkl := ht key hk
  obtain ⟨pid, ⟨addr, v, r, ex⟩, ver, sig⟩ := n
  simp only at hk hs ha ⊢
  subst hk
  cases addr with
  | none => exact absurd rfl ha
  | some a =>
    unfold Full
    simp [writeDNode, writePubKey, writeAddrList, writeOpt, writeAddr, Tl.writeBytes_length, hs, hkl, padding]

theorem parse_ok_some {build : Build} {now tol : Nat} {l : AddrList} {a : SockAddr}
    (h : parse build now tol l = .ok a) : l.address ≠ none := by
  intro h0
  unfold parse at h
  rw [h0] at h
  cases h

theorem addDhtPeer_has_address {o : Opts c} {s : State c} (h : ∀ j id n, (id, n) ∈ s.buckets.bucket j →
      n.addrList.address ≠ none ∧ Typed n) (now : Nat) (peer : DNode) (ht : Typed peer) (key : c.Sec) :
    ∀ j id n, (id, n) ∈ (addDhtPeer o now s peer key).1.buckets.bucket j →
      n.addrList.address ≠ none ∧ Typed n := by
  unfold addDhtPeer
  cases hf : Receiver.fullId c peer.id with
  | none => exact h
  | some pub =>
    simp only
    by_cases hv : verifySig c pub (writeDNodeBoxed { peer with signature := [] }) peer.signature = false
    · rw [if_pos hv]; exact h
    rw [if_neg hv]
    cases hp : parse o.adnl.build now o.adnl.clockTolerance peer.addrList with
    | listIsEmpty => exact h
    | tooNew => exact h
    | expired => exact h
    | panic => exact h
    | ok addr =>
      simp only
      cases ha : Node.addPeer o.adnl s.adnl s.buckets.localId (Node.shortId c pub) addr pub key with
      | mk adnl r =>
        cases r with
        | peersNotFound => exact h
        | no => exact h
        | yes =>
          simp only
          by_cases hi : (PeersSet.insert s.known (Node.shortId c pub)).2 = true
          · rw [if_pos hi]
            intro j id n hm
            simp only [Buckets.insert] at hm
            split at hm
            · rcases Buckets.insertInto_mem hm with hm | hm
              · exact h _ _ _ hm
              · cases hm; exact ⟨parse_ok_some hp, ht⟩
            · exact h _ _ _ hm
          · rw [if_neg hi]
            exact h

theorem handle_has_address {o : Opts c} (order : List ONode → List ONode) (now now' : Nat) (key : c.Sec)
    (q : Query) : ∀ {s : State c}, (∀ n ∈ q.records, Typed n) → (∀ j id n, (id, n) ∈ s.buckets.bucket j →
      n.addrList.address ≠ none ∧ Typed n) → ∀ j id n,
      (id, n) ∈ (handle o order now now' key s q).1.buckets.bucket j → n.addrList.address ≠ none ∧ Typed n := by
  induction q with
  | ping r => intro s _ h; exact h
  | findNode k n => intro s _ h; exact h
  | findValue k n => intro s _ h; unfold handle; cases findValue o now s k n <;> exact h
  | getSignedAddressList => intro s _ h; exact h
  | store v =>
    intro s _ h
    unfold handle
    cases hi : Storage.insert c o.storage order now now' s.storage v with
    | mk st r => cases r <;> exact h
  | withNode node q ih =>
    intro s ht h
    have h1 := addDhtPeer_has_address (o := o) h now node (ht node List.mem_cons_self) key
    have ht' : ∀ n ∈ q.records, Typed n := fun n hn => ht n (List.mem_cons_of_mem _ hn)
    unfold handle
    cases ha : addDhtPeer o now s node key with
    | mk s' r =>
      rw [ha] at h1
      cases r with
      | error => exact h1
      | none => exact ih ht' h1
      | some id => exact ih ht' h1

theorem run_has_address {o : Opts c} (ops : List (Op c)) : ∀ {s : State c},
    (∀ op ∈ ops, ∀ n ∈ op.records, Typed n) → (∀ j id n, (id, n) ∈ s.buckets.bucket j →
      n.addrList.address ≠ none ∧ Typed n) →
    ∀ j id n, (id, n) ∈ (run o s ops).buckets.bucket j → n.addrList.address ≠ none ∧ Typed n := by
  induction ops with
  | nil => intro s _ h; exact h
  | cons op ops ih =>
    intro s ht h
    refine ih (fun op' h' => ht op' (List.mem_cons_of_mem _ h')) ?_
    have ht0 := ht op List.mem_cons_self
    cases op with
    | query order now now' key q => exact handle_has_address order now now' key q ht0 h
    | learned now key node =>
      exact addDhtPeer_has_address h now node (ht0 node (List.mem_singleton.mpr rfl)) key
    | gc shard now => exact h
    | status peer r => exact h

/-- Every record in the routing table has 140 bytes. -/
theorem run_full (o : Opts c) (adnl : Node.State c) (localId : Bytes) (maxPeers : Nat) (ops : List (Op c))
    (ht : ∀ op ∈ ops, ∀ n ∈ op.records, Typed n) (j : Nat) (id : Bytes) (n : DNode)
    (h : (id, n) ∈ (run o (init adnl localId maxPeers) ops).buckets.bucket j) : Full n := by
  have h1 := (C56_routing_table_is_authentic o adnl localId maxPeers ops).1 j id n h
  have h2 := run_has_address (o := o) ops (s := init adnl localId maxPeers) ht
    (fun _ _ _ h => absurd h List.not_mem_nil) j id n h
  exact full_of h1.1 h2.2 h2.1

theorem flatten_full (l : List DNode) (h : ∀ n ∈ l, Full n) : ((l.map writeDNode).flatten).length = 140 * l.length := by
  induction l with
  | nil => rfl
  | cons n l ih =>
    have := h n List.mem_cons_self
    unfold Full at this
    simp only [List.map_cons, List.flatten_cons, List.length_append, List.length_cons, this,
      ih fun m hm => h m (List.mem_cons_of_mem _ hm)]
    omega

theorem nodes_length (l : List DNode) (h : ∀ n ∈ l, Full n) : (writeDNodes l).length = 8 + 140 * l.length := by
  simp [writeDNodes, writeVec, flatten_full l h]; omega

theorem pushAll_mem {α : Type} (k : Nat) (bucket : Nat → List α) (ds : List Nat) (x : α)
    (h : x ∈ Buckets.pushAll k bucket [] ds) : ∃ d ∈ ds, x ∈ bucket d := by
  rw [Buckets.pushAll_eq k bucket [] ds (by simp; omega), List.nil_append] at h
  exact List.mem_flatMap.mp (List.mem_of_mem_take h)

theorem pushAll_le {α : Type} (k : Nat) (bucket : Nat → List α) (ds : List Nat) :
    (Buckets.pushAll k bucket [] ds).length ≤ max k 1 := by
  rw [Buckets.pushAll_eq k bucket [] ds (by simp; omega)]
  simp; omega

/-- C99: the answer to a query for nodes has 8 bytes and 140 for every node, of which there are at most as many
as asked for (at least one). It can arrive through a ready channel if and only if there are no more than 14 nodes,
so it always can when no more than 14 are asked for; before the channel is ready, 13. -/
theorem C99_nodes_partial (o : Opts c) (adnl : Node.State c) (localId : Bytes) (maxPeers : Nat)
    (ops : List (Op c)) (ht : ∀ op ∈ ops, ∀ n ∈ op.records, Typed n) (e : Env c) (key : Bytes) (k : Nat)
    (queryId : Bytes) (hq : queryId.length = 32) :
    let s := run o (init adnl localId maxPeers) ops
    ∃ l, (answerTo o e s (.findNode key k)).2 = .answer (writeDNodes l) ∧ l.length ≤ max k 1 ∧
      (writeDNodes l).length = 8 + 140 * l.length ∧
      (l.length < 100000 →
        (CanArrive c.sha none (.answer queryId (writeDNodes l)) ↔ l.length ≤ 14) ∧
        (CanArrive c.sha (some 40) (.answer queryId (writeDNodes l)) ↔ l.length ≤ 13) ∧
        (CanArrive c.sha (some 72) (.answer queryId (writeDNodes l)) ↔ l.length ≤ 13)) := by
  intro s
  refine ⟨findNode s key k, rfl, ?_, ?_⟩
  · rw [findNode, List.length_map]; exact pushAll_le _ _ _
  have hfull : ∀ n ∈ findNode s key k, Full n := by
    intro n hn
    obtain ⟨⟨id, n'⟩, hm, rfl⟩ := List.mem_map.mp hn
    obtain ⟨j, -, hj⟩ := pushAll_mem _ _ _ _ hm
    exact run_full o adnl localId maxPeers ops ht j id n' hj
  have hlen := nodes_length _ hfull
  refine ⟨hlen, fun hb => ?_⟩
  have h := fun add hadd => C99_arrives_iff_partial c.sha add hadd queryId (writeDNodes (findNode s key k)) hq
    (by rw [hlen]; omega)
  refine ⟨(h none (by simp)).trans ?_, (h (some 40) (by simp)).trans ?_, (h (some 72) (by simp)).trans ?_⟩ <;>
    rw [hlen] <;> simp only [longest] <;> omega

/-- C99: the same for the nodes answered instead of a value that is not stored. The number asked for is limited by
`max_allowed_k` here. -/
theorem C99_not_found_partial (o : Opts c) (adnl : Node.State c) (localId : Bytes) (maxPeers : Nat)
    (ops : List (Op c)) (ht : ∀ op ∈ ops, ∀ n ∈ op.records, Typed n) (now : Nat) (key : Bytes) (k : Nat)
    (l : List DNode) (queryId : Bytes) (hq : queryId.length = 32)
    (h : findValue o now (run o (init adnl localId maxPeers) ops) key k = some (.notFound l)) :
    l.length ≤ o.maxK ∧ (writeValueResult (.notFound l)).length = 8 + 140 * l.length ∧
    (l.length < 100000 →
      (CanArrive c.sha none (.answer queryId (writeValueResult (.notFound l))) ↔ l.length ≤ 14)) := by
  unfold findValue at h
  split at h
  · cases h
  rename_i hk
  cases hg : Storage.getRef (run o (init adnl localId maxPeers) ops).storage key now with
  | some v => rw [hg] at h; cases h
  | none =>
    rw [hg] at h
    simp only [Option.some.injEq, ValueResult.notFound.injEq] at h
    subst h
    have hfull : ∀ n ∈ firstNodes (run o (init adnl localId maxPeers) ops) k, Full n := by
      intro n hn
      obtain ⟨⟨id, n'⟩, hm, rfl⟩ := List.mem_map.mp hn
      obtain ⟨j, -, hj⟩ := pushAll_mem _ _ _ _ hm
      exact run_full o adnl localId maxPeers ops ht j id n' hj
    have hlen : (writeValueResult (.notFound (firstNodes (run o (init adnl localId maxPeers) ops) k))).length =
        8 + 140 * (firstNodes (run o (init adnl localId maxPeers) ops) k).length := by
      simp [writeValueResult, writeVec, flatten_full _ hfull]; omega
    refine ⟨?_, hlen, fun hb => ?_⟩
    · have := pushAll_le k (run o (init adnl localId maxPeers) ops).buckets.bucket (List.range 256)
      rw [firstNodes, List.length_map]
      omega
    · rw [C99_arrives_iff_partial c.sha none (by simp) queryId _ hq (by rw [hlen]; omega), hlen]
      simp only [longest]; omega

/-! ### Node lists of overlays -/

/-- Overlay node lists carry no signatures of their own. -/
theorem overlay_unsigned {o : Storage.Opts} (ops : List Storage.Op) : ∀ {st : St},
    (∀ k e, (k, e) ∈ st → e.key.rule = .overlayNodes → e.signature = [] ∧ e.key.signature = []) →
    ∀ k e, (k, e) ∈ Storage.run c o st ops → e.key.rule = .overlayNodes → e.signature = [] ∧ e.key.signature = [] := by
  induction ops with
  | nil => intro st h; exact h
  | cons op ops ih =>
    intro st h
    refine ih ?_
    cases op with
    | gc shard now => intro k e hm; exact h k e (List.mem_of_mem_filter hm)
    | insert order now now' v =>
      simp only [Storage.step]
      have he := insert_effect (c := c) o order now now' st v
      generalize (insert c o order now now' st v).1 = st' at he ⊢
      generalize (insert c o order now now' st v).2 = res at he
      cases he with
      | refused e => exact h
      | kept old ht hg hr => exact h
      | signed ht hn hi hk hr hs hv =>
        intro k e hm
        rcases AMap.mem_put.mp hm with hm | ⟨hm, -⟩
        · cases hm; intro h'; rw [hr] at h'; cases h'
        · exact h k e hm
      | overlay new old ht hn hi hk hr hs hv =>
        intro k e hm
        rcases AMap.mem_put.mp hm with hm | ⟨hm, -⟩
        · cases hm
          intro _
          unfold overlayOk at hs
          split at hs
          · cases hs
          · rename_i h0
            simp only [not_or, ne_eq, Decidable.not_not] at h0
            exact h0
        · exact h k e hm

theorem onode_length {overlay : Bytes} {n : ONode} (h : ValidNode c overlay n) (hw : n.wf) :
    (writeONode n).length = 140 := by
  obtain ⟨key, pub, hk, -, ho, hs, -⟩ := h
  obtain ⟨h1, h2, -, -⟩ := hw
  obtain ⟨pid, ov, ver, sig⟩ := n
  simp only at hk ho hs h1 h2 ⊢
  subst hk
  have hkl : key.length = 32 := h1
  simp [writeONode, writePubKey, Tl.writeBytes_length, hs, hkl, h2, padding]

theorem flatten_onodes (l : List ONode) (h : ∀ n ∈ l, (writeONode n).length = 140) :
    ((l.map writeONode).flatten).length = 140 * l.length := by
  induction l with
  | nil => rfl
  | cons n l ih =>
    simp only [List.map_cons, List.flatten_cons, List.length_append, List.length_cons, h n List.mem_cons_self,
      ih fun m hm => h m (List.mem_cons_of_mem _ hm)]
    omega

/-- C99: the list of an overlay stored after any operations can be fetched through a ready channel if and only if
it has no more than 13 nodes. The name of the overlay has 32 bytes (it is a hash). The storage sets no such limit:
every list stored for the overlay adds its nodes to it (C31). -/
theorem C99_overlay_list_partial (hl : c.Lawful) (o : Storage.Opts) (ops : List Storage.Op) (h : History c ops)
    (k : Bytes) (v : Value) (hg : (Storage.run c o [] ops).get k = some v) (hr : v.key.rule = .overlayNodes)
    (name : Bytes) (hid : v.key.id = .overlay name) (hn : name.length = 32)
    (queryId : Bytes) (hq : queryId.length = 32) :
    ∃ nodes, decodeNodes v.value = some nodes ∧ (nodes.length < 100000 →
      (writeValueResult (.found v)).length = 120 + 140 * nodes.length ∧
      (CanArrive c.sha none (.answer queryId (writeValueResult (.found v))) ↔ nodes.length ≤ 13)) := by
  have hm := AMap.mem_of_get hg
  have hov := history_ovOk (o := o) h
  obtain ⟨nodes, h1, h2, h3, h4⟩ := hov.nodes k v hm hr
  have hdec : decodeNodes v.value = some nodes := by
    rw [h1]
    exact decodeNodes_write (by have := h.small; omega) fun n hn => (h4 n hn).1
  obtain ⟨hs1, hs2⟩ := overlay_unsigned (c := c) (o := o) ops (st := [])
    (fun _ _ h => absurd h List.not_mem_nil) k v hm hr
  have hok := hov.ok k v hm
  have hname : v.key.key.name = keyNodes := by
    rcases hok.rule with ⟨h', -⟩ | ⟨-, h', -⟩
    · rw [hr] at h'; cases h'
    · exact h'
  have hkid : v.key.key.id.length = 32 := by rw [hok.owner]; exact hl.sha_length _
  have hflat := flatten_onodes nodes fun n hn => onode_length (h4 n hn).2 (h4 n hn).1
  have hval : v.value.length = 8 + 140 * nodes.length := by
    rw [h1]; simp [writeONodes, writeVec, hflat]; omega
  refine ⟨nodes, hdec, fun hb => ?_⟩
  have hvw : (writeBytes v.value).length = v.value.length + 4 := by
    rw [Tl.writeBytes_length, hval]
    unfold padding
    split <;> omega
  have hlen : (writeValueResult (.found v)).length = 120 + 140 * nodes.length := by
    have e1 : (writeBytes keyNodes).length = 8 := by decide
    have e2 : (writeBytes ([] : Bytes)).length = 4 := by decide
    have e3 : (writeBytes name).length = 36 := by rw [Tl.writeBytes_length, hn]; rfl
    simp only [writeValueResult, writeValueBoxed, writeValue, writeKeyDesc, writeKey, hr, hid, hs1, hs2, hname,
      writePubKey, writeRule, List.length_append, writeU32_length, hkid, e1, e2, e3, hvw, hval]
    omega
  refine ⟨hlen, ?_⟩
  rw [C99_arrives_iff_partial c.sha none (by simp) queryId _ hq (by rw [hlen]; omega), hlen]
  simp only [longest]; omega

/-! ### Witnesses -/

namespace AnswerExample
open Dht.Example

/-- An overlay, the record of the toy node `k` in it, and a list of records. -/
def owner : PubKey := .overlay (List.replicate 32 7)

def member (k : UInt8) : ONode :=
  ⟨.ed25519 (T.pubBytes k), T.sha (writePubKey owner), 1,
    T.sign k (writeNodeToSign (Node.shortId T k) (T.sha (writePubKey owner)) 1)⟩

def list (l : List ONode) : Value :=
  ⟨⟨⟨T.sha (writePubKey owner), keyNodes, 0⟩, owner, .overlayNodes, []⟩, writeONodes l, 40, []⟩

/-- Fourteen members of an overlay, one after the other, publish their membership. -/
def publications : List (Op T) :=
  (List.range 14).map fun i => .query id 10 10 (7 : UInt8)
    (.store (list [member (UInt8.ofNat (i + 1))]))

def env : Env T := ⟨20, 20, id, (7 : UInt8), node 100 1⟩

/-- The list is asked for. -/
def question : Query := .findValue (storageKey T (list []).key.key) 6

/-- Everything published was acknowledged. -/
theorem acknowledged : ∀ i < 14, (match publications[i]? with
    | some (Op.query order now now' key q) =>
      match (handle o order now now' key (run o s0 (publications.take i)) q).2 with
      | .stored => true
      | _ => false
    | _ => false) = true := by decide +kernel

theorem answered : (match (answerTo o env (run o s0 publications) question).2 with
    | .answer a => decide (a.length = 2080)
    | _ => false) = true := by decide +kernel

end AnswerExample

/-- C99 as stated is false: once fourteen members of an overlay have published themselves, nobody gets the list. -/
theorem C99_full_false : ¬ C99_full := by
  intro h
  have h1 := AnswerExample.answered
  cases hr : (answerTo Dht.Example.o AnswerExample.env (run Dht.Example.o Dht.Example.s0 AnswerExample.publications)
      AnswerExample.question).2 with
  | answer a =>
    rw [hr] at h1
    simp only [decide_eq_true_eq] at h1
    have h2 := h Crypto.toy Crypto.toy_lawful Dht.Example.o _ _ _ AnswerExample.publications AnswerExample.env
      AnswerExample.question a (List.replicate 32 0) List.length_replicate hr
    rw [C99_arrives_iff_partial _ none (by simp) _ a List.length_replicate (by omega)] at h2
    simp only [longest] at h2
    omega
  | rejected => rw [hr] at h1; cases h1
  | error => rw [hr] at h1; cases h1

/-- Non-vacuity of `C99_nodes_partial`: a table with two nodes. -/
example : (∀ op ∈ [Dht.Example.learn 1 1, Dht.Example.learn 2 1], ∀ n ∈ op.records, Typed n) ∧
    (findNode (run Dht.Example.o Dht.Example.s0 [Dht.Example.learn 1 1, Dht.Example.learn 2 1])
      (Node.shortId Crypto.toy (2 : UInt8)) 10).length = 2 := by
  refine ⟨?_, by decide +kernel⟩
  intro op hop n hn key hk
  simp only [List.mem_cons, List.not_mem_nil, or_false] at hop
  rcases hop with rfl | rfl <;>
    (simp only [Dht.Example.learn, Op.records, List.mem_singleton] at hn
     subst hn
     simp only [Dht.Example.node, PubKey.ed25519.injEq] at hk
     subst hk
     exact Crypto.toy_lawful.pub_length _)

/-- Non-vacuity of `C99_not_found_partial`. -/
example : (match findValue Dht.Example.o 1000 (run Dht.Example.o Dht.Example.s0 [Dht.Example.learn 1 1,
    Dht.Example.learn 4 1]) (Node.shortId Crypto.toy (4 : UInt8)) 2 with
    | some (.notFound l) => decide (l.length = 2)
    | _ => false) = true := by decide +kernel

/-- Non-vacuity of `C99_overlay_list_partial`: a list with two nodes, published one by one. -/
example : History Crypto.toy [.insert id 10 10 (AnswerExample.list [AnswerExample.member 1]),
      .insert id 11 11 (AnswerExample.list [AnswerExample.member 2])] ∧
    (((Storage.run Crypto.toy ⟨127, 15⟩ [] [.insert id 10 10 (AnswerExample.list [AnswerExample.member 1]),
      .insert id 11 11 (AnswerExample.list [AnswerExample.member 2])]).get
        (storageKey Crypto.toy (AnswerExample.list []).key.key)).bind fun v => decodeNodes v.value).map
      List.length = some 2 := by
  refine ⟨⟨by decide +kernel, ?_, by decide +kernel⟩, by decide +kernel⟩
  intro op h
  simp only [List.mem_cons, List.not_mem_nil, or_false] at h
  rcases h with rfl | rfl <;> exact fun l => List.Perm.refl l

theorem AnswerExample.typed : ∀ op ∈ [Dht.Example.learn 1 1, Dht.Example.learn 4 1], ∀ n ∈ op.records, Typed n := by
  intro op hop n hn key hk
  simp only [List.mem_cons, List.not_mem_nil, or_false] at hop
  rcases hop with rfl | rfl <;>
    (simp only [Dht.Example.learn, Op.records, List.mem_singleton] at hn
     subst hn
     simp only [Dht.Example.node, PubKey.ed25519.injEq] at hk
     subst hk
     exact Crypto.toy_lawful.pub_length _)

-- C99_nodes_partial, C99_not_found_partial with these nodes; C99_overlay_list_partial with these lists
example := C99_nodes_partial Dht.Example.o ⟨[(Dht.Example.localId, [])], [], 0, [], []⟩ Dht.Example.localId 100
  [Dht.Example.learn 1 1, Dht.Example.learn 4 1] AnswerExample.typed AnswerExample.env (Node.shortId Crypto.toy (4 : UInt8))
  10 (List.replicate 32 1) (by decide)

example (l : List DNode) (h : findValue Dht.Example.o 1000 (run Dht.Example.o Dht.Example.s0 [Dht.Example.learn 1 1,
    Dht.Example.learn 4 1]) (Node.shortId Crypto.toy (4 : UInt8)) 2 = some (.notFound l)) :=
  C99_not_found_partial Dht.Example.o _ Dht.Example.localId 100 [Dht.Example.learn 1 1, Dht.Example.learn 4 1]
    AnswerExample.typed 1000 _ 2 l (List.replicate 32 1) (by decide) h

example (v : Value) (hv : (Storage.run Crypto.toy ⟨127, 15⟩ [] [.insert id 10 10 (AnswerExample.list [AnswerExample.member 1]),
      .insert id 11 11 (AnswerExample.list [AnswerExample.member 2])]).get
        (storageKey Crypto.toy (AnswerExample.list []).key.key) = some v)
    (hk : v.key = (AnswerExample.list []).key) :=
  C99_overlay_list_partial Crypto.toy_lawful ⟨127, 15⟩ _ ⟨by decide +kernel, by
      intro op h
      simp only [List.mem_cons, List.not_mem_nil, or_false] at h
      rcases h with rfl | rfl <;> exact fun l => List.Perm.refl l, by decide +kernel⟩ _ v hv (by rw [hk]; rfl)
    (List.replicate 32 7) (by rw [hk]; rfl) (by decide) (List.replicate 32 1) (by decide)

example : ((Storage.run Crypto.toy ⟨127, 15⟩ [] [.insert id 10 10 (AnswerExample.list [AnswerExample.member 1]),
      .insert id 11 11 (AnswerExample.list [AnswerExample.member 2])]).get
        (storageKey Crypto.toy (AnswerExample.list []).key.key)).map (·.key) = some (AnswerExample.list []).key := by
  decide +kernel

end Verif.Dht
