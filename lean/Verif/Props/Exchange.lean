import Verif.Model.Exchange
import Verif.Props.OverlayPeers
import Verif.Props.OverlayNode
import Verif.Props.AnswerSize
import Verif.Props.RoundTrip

/-!
# C101: members of an overlay get to know each other by exchanging random peers
-/
namespace Verif.Props
open Verif.Tl Verif.DhtProto Verif.Dispatch Verif.Overlay Verif.Spec

variable {c : Crypto}

/-- A member of an overlay: everything that determines the state of its peers, and the time and the choice of
neighbours for the records it hands out. -/
structure Side (c : Crypto) where
  env : PEnv c
  peers : List Bytes
  ch0 : List Bytes
  /-- what has happened so far -/
  past : List PAction
  now : Nat
  chosen : List Bytes

/-- The peers of the overlay now. -/
def Side.state (x : Side c) : PState := prun x.env (PState.init x.env x.peers x.ch0) x.past

/-- The records it hands out. -/
def Side.records (x : Side c) : List ONode := prepareRandomPeers x.env x.state x.now x.chosen

/-- The clock fits 32 bits, the choice is one the code can make, and records it was given came from the wire. -/
structure Side.Real (x : Side c) : Prop where
  id : x.env.overlay.length = 32
  clock : x.now < 2 ^ 32
  sample : IsSample x.chosen x.state.neighbours.index 4
  wire : ∀ a n, (a, n) ∈ offers x.past → n.wf

/-- The records handed out are genuine, well-formed and take 140 bytes each. -/
theorem records_ok (hl : c.Lawful) (x : Side c) (hx : x.Real) :
    x.records.length ≤ 5 ∧ ∀ n ∈ x.records, n.wf ∧ (∃ pub, Genuine c x.env.overlay n pub) ∧ (writeONode n).length = 140 := by
  obtain ⟨rest, h1, -, h3, -, h5, h6, -⟩ := C53_random_peers hl x.env x.peers x.ch0 x.past x.now x.chosen hx.sample
  refine ⟨h6, fun n hn => ?_⟩
  have hw : n.wf ∧ ∃ pub, Genuine c x.env.overlay n pub := by
    unfold Side.records Side.state at hn
    rw [h1] at hn
    rcases List.mem_cons.mp hn with rfl | hn
    · exact ⟨⟨hl.pub_length _, hx.id, hx.clock, by rw [h3.2.2.1]; decide⟩, _, h3⟩
    · obtain ⟨addr, pub, ho, hg, -⟩ := h5 n hn
      exact ⟨hx.wire _ _ ho, pub, hg⟩
  refine ⟨hw.1, hw.2, ?_⟩
  obtain ⟨pub, hg⟩ := hw.2
  refine Dht.onode_length (c := c) (overlay := x.env.overlay) ?_ hw.1
  exact (Verif.Storage.verifyONode_iff _ _).mp (verifyONode_iff.mpr ⟨pub, hg⟩)


theorem flatten_140 (l : List ONode) (h : ∀ n ∈ l, (writeONode n).length = 140) :
    (writeVec writeONode l).length = 4 + 140 * l.length := by
  simp only [writeVec, List.length_append, Dht.flatten_onodes l h]
  rfl

/-- **C101.** A member asks another one of the same overlay for random peers. The other one answers; it keeps the
record of the asking node, or a newer one, for `take_new_peers`, and so it does with all records in the query that
are not its own. The asking node gets the id of the other one, unless it says it knows it, and the ids of neighbours
of the other one, none twice and none it says it knows. Both messages are small. -/
theorem C101_exchange (hl : c.Lawful) (A B : Side c) (hA : A.Real) (hB : B.Real)
    (ho : A.env.overlay = B.env.overlay) (hk : c.pubBytes (c.pubOf A.env.key) ≠ c.pubBytes (c.pubOf B.env.key))
    (h : Handlers PState) (hh : ∀ s l, h.randomPeers s l = processGetRandomPeers B.env s l B.now B.chosen)
    (n : NState PState) (hn : n.overlays.get B.env.overlay = some B.state) (existing : Bytes → Bool) :
    let q := exchangeQuery A.env A.state A.now A.chosen
    let r := consumeQuery h n 0xccfd8443 q
    ∃ answer new sB, r.2 = .consumed (some answer) ∧ r.1.overlays.get B.env.overlay = some sB ∧
      newPeersOf A.env existing answer = some new ∧
      (∃ x, sB.received.get (.ed25519 (c.pubBytes (c.pubOf A.env.key))) = some x ∧ A.now ≤ x.version ∧
        Genuine c B.env.overlay x (c.pubOf A.env.key)) ∧
      (∀ y ∈ A.records, y.id ≠ .ed25519 (c.pubBytes (c.pubOf B.env.key)) →
        ∃ x, sB.received.get y.id = some x ∧ y.version ≤ x.version) ∧
      (B.env.localId ∈ new ↔ existing B.env.localId = false) ∧
      (∀ id ∈ new, existing id = false ∧ (id = B.env.localId ∨ id ∈ B.state.neighbours.index)) ∧
      new.Nodup ∧ q.length ≤ 744 ∧ answer.length ≤ 708 := by
  intro q r
  obtain ⟨a1, a2⟩ := records_ok hl A hA
  obtain ⟨b1, b2⟩ := records_ok hl B hB
  have hq : q = writeU32 0xccfd8443 ++ (B.env.overlay ++ (writeGetRandomPeers A.records ++ [])) := by
    show queryPrefix A.env.overlay ++ writeGetRandomPeers A.records = _
    rw [List.append_nil, ← ho]
    simp only [queryPrefix, List.append_assoc]
    rfl
  obtain ⟨-, c2, -, -⟩ := C52_random_peers h n B.env.overlay hB.id A.records (by omega) (fun y hy => (a2 y hy).1) []
  obtain ⟨d1, d2⟩ := c2 B.state hn
  have hr : r = consumeQuery h n 0xccfd8443 (writeU32 0xccfd8443 ++ (B.env.overlay ++ (writeGetRandomPeers A.records ++ []))) := by
    show consumeQuery h n 0xccfd8443 q = _
    rw [hq]
  rw [← hr, hh] at d1 d2
  have hrec : (processGetRandomPeers B.env B.state A.records B.now B.chosen).2 = B.records := rfl
  rw [hrec] at d2
  have hdec : Storage.decodeNodes (writeONodes B.records) = some B.records := by
    have := onodes_encodes B.records (by omega) (fun y hy => (b2 y hy).1) []
    rw [List.append_nil] at this
    unfold Storage.decodeNodes
    rw [this]
    rfl
  obtain ⟨rest, e1, -, e3, -, e5, -, e7⟩ :=
    C53_random_peers hl B.env B.peers B.ch0 B.past B.now B.chosen hB.sample
  obtain ⟨rA, f1, -, f3, f4, -⟩ := C53_random_peers hl A.env A.peers A.ch0 A.past A.now A.chosen hA.sample
  have hR : ReceivedInv B.env (processGetRandomPeers B.env B.state A.records B.now B.chosen).1.received
      (heard [] B.past ++ A.records) := by
    have h0 : ReceivedInv B.env B.state.received (heard [] B.past) := by
      refine receivedInv_run B.env B.past _ [] ?_
      rw [init_received]
      constructor
      · intro k n hn; cases hn
      · intro n hn; cases hn
    exact h0.batch A.records
  have hnew : newPeersOf A.env existing (writeONodes B.records) = some ((filterNodes A.env B.records).filterMap fun n =>
      ((Receiver.fullId c n.id).map (Node.shortId c)).filter fun id => !existing id) := by
    unfold newPeersOf
    rw [hdec]
    rfl
  have hmem := C49_answer A.env existing _ _ hnew
  obtain ⟨l, hl', hiff⟩ := hmem
  rw [hdec] at hl'
  cases hl'
  refine ⟨writeONodes B.records, _, _, d2, d1, hnew, ?_, ?_, ?_, ?_, ?_, ?_, ?_⟩
  · have hin : signLocalNode A.env A.now ∈ heard [] B.past ++ A.records := by
      refine List.mem_append_right _ ?_
      show _ ∈ prepareRandomPeers _ _ _ _
      unfold Side.state
      rw [f1]
      exact List.mem_cons_self ..
    have hf : Foreign B.env (signLocalNode A.env A.now) := by
      refine ⟨?_, _, ho ▸ f3⟩
      intro h
      exact hk (by injection h)
    obtain ⟨x, hx⟩ := hR.present _ hin hf
    obtain ⟨-, g2, ⟨-, pub, g3⟩, g4⟩ := hR.stored _ _ hx
    refine ⟨x, hx, ?_, ?_⟩
    · have := g4 _ hin rfl hf
      rwa [f4] at this
    · have : pub = c.pubOf A.env.key := by
        have h1 := g3.2.1
        rw [g2] at h1
        have h2 := f3.2.1
        rw [h1] at h2
        exact Option.some.inj h2
      rw [← this]
      exact g3
  · intro y hy hne
    have hin : y ∈ heard [] B.past ++ A.records := List.mem_append_right _ hy
    obtain ⟨pub, hg⟩ := (a2 y hy).2.1
    have hf : Foreign B.env y := ⟨hne, pub, ho ▸ hg⟩
    obtain ⟨x, hx⟩ := hR.present _ hin hf
    exact ⟨x, hx, (hR.stored _ _ hx).2.2.2 _ hin rfl hf⟩
  · rw [hiff]
    constructor
    · exact fun h => h.1
    · intro hx
      refine ⟨hx, signLocalNode B.env B.now, ?_, ⟨?_, _, ho ▸ e3⟩, _, ho ▸ e3, rfl⟩
      · unfold Side.records Side.state
        rw [e1]
        exact List.mem_cons_self ..
      · intro h
        exact hk (by injection h with h; exact h.symm)
  · intro id hid
    obtain ⟨hx, y, hy, -, pub, hg, rfl⟩ := (hiff id).mp hid
    refine ⟨hx, ?_⟩
    unfold Side.records Side.state at hy
    rw [e1] at hy
    rcases List.mem_cons.mp hy with rfl | hy
    · left
      have h1 := hg.2.1
      rw [e3.2.1] at h1
      rw [← Option.some.inj h1]
      rfl
    · obtain ⟨_, pub', -, hg', hm, -⟩ := e5 y hy
      have h1 := hg.2.1
      rw [hg'.2.1] at h1
      rw [← Option.some.inj h1]
      exact .inr hm
  · have hnd : (B.records.map (fun n => (Receiver.fullId c n.id).map (Node.shortId c))).Nodup := e7
    have hsub : ((filterNodes A.env B.records).map (fun n => (Receiver.fullId c n.id).map (Node.shortId c))).Nodup :=
      hnd.sublist ((List.filter_sublist).map _)
    generalize filterNodes A.env B.records = L at hsub
    have hh : (L.filterMap fun n => ((Receiver.fullId c n.id).map (Node.shortId c)).filter fun id => !existing id) =
        (L.map (fun n => (Receiver.fullId c n.id).map (Node.shortId c))).filterMap
          (fun o => o.filter fun id => !existing id) := by
      rw [List.filterMap_map]; rfl
    rw [hh]
    refine hsub.filterMap ?_
    intro a a' b hb hb'
    rw [Option.mem_def, Option.filter_eq_some_iff] at hb hb'
    rw [hb.1, hb'.1]
  · rw [hq]
    have := flatten_140 A.records (fun y hy => (a2 y hy).2.2)
    simp only [writeGetRandomPeers, List.length_append, hB.id, this, List.length_nil]
    have h4 : ∀ k, (writeU32 k).length = 4 := fun k => rfl
    rw [h4, h4]
    omega
  · have := flatten_140 B.records (fun y hy => (b2 y hy).2.2)
    simp only [writeONodes, List.length_append, this]
    have h4 : ∀ k, (writeU32 k).length = 4 := fun k => rfl
    rw [h4]
    omega

/-- **C101.** Both messages are of the kind that arrives in one datagram between honest nodes
(`C72_message_arrives`, `C72_answer_arrives`). -/
theorem C101_one_datagram (hl : c.Lawful) (A : Side c) (hA : A.Real) (qid : Bytes) (hq : qid.length = 32) :
    RoundTrip.Small (.query qid (exchangeQuery A.env A.state A.now A.chosen)) ∧
    RoundTrip.Small (.answer qid (writeONodes A.records)) := by
  obtain ⟨a1, a2⟩ := records_ok hl A hA
  have h140 := flatten_140 A.records (fun y hy => (a2 y hy).2.2)
  have h4 : ∀ k, (writeU32 k).length = 4 := fun k => rfl
  refine ⟨⟨hq, ?_⟩, hq, ?_⟩
  · show (queryPrefix A.env.overlay ++ writeGetRandomPeers A.records).length ≤ 908
    simp only [queryPrefix, writeGetRandomPeers, List.length_append, h140, h4, hA.id]
    omega
  · simp only [writeONodes, List.length_append, h140, h4]
    omega

/-! ### A concrete exchange -/

/-- The node with key 1, which knows nobody. -/
def sideA : Side Crypto.toy := ⟨sampleOverlay, [], [], [], 3, []⟩

/-- The node with key 9, to which the node with key 8 was added. -/
def sideB : Side Crypto.toy :=
  ⟨{ sampleOverlay with key := (9 : UInt8) }, [], [], [.add sampleAddr (recordOf 8 4)], 5, [idOf 8]⟩

theorem sideA_real : sideA.Real :=
  ⟨by decide, by decide, ⟨List.nil_subperm, by decide +kernel⟩, fun _ _ h => by cases h⟩

theorem sideB_neighbours : sideB.state.neighbours.index = [idOf 8] := by decide +kernel

theorem sideB_real : sideB.Real := by
  refine ⟨by decide, by decide, ⟨?_, ?_⟩, fun a n h => ?_⟩
  · rw [sideB_neighbours]; exact (List.Perm.refl _).subperm
  · rw [sideB_neighbours]; rfl
  · have : (a, n) = (sampleAddr, recordOf 8 4) := by simpa [sideB, offers] using h
    cases this
    exact ⟨Crypto.toy_lawful.pub_length _, by decide, by decide, by decide +kernel⟩

/-- What the overlay of the second node does with a query. -/
def handlersB : Handlers PState :=
  ⟨fun o _ _ => (o, true), fun o _ _ => (o, true), fun s l => processGetRandomPeers sideB.env s l sideB.now sideB.chosen⟩

example : ∃ answer new, (consumeQuery handlersB ⟨[(sideB.env.overlay, sideB.state)], []⟩ 0xccfd8443
      (exchangeQuery sideA.env sideA.state sideA.now sideA.chosen)).2 = .consumed (some answer) ∧
    newPeersOf sideA.env (fun _ => false) answer = some new ∧ sideB.env.localId ∈ new := by
  obtain ⟨answer, new, sB, h1, -, h3, -, -, h6, -⟩ := C101_exchange Crypto.toy_lawful sideA sideB sideA_real sideB_real
    rfl (by decide) handlersB (fun _ _ => rfl) ⟨[(sideB.env.overlay, sideB.state)], []⟩
    (by simp [AMap.get]) (fun _ => false)
  exact ⟨answer, new, h1, h3, h6.mpr rfl⟩

/-- The ids the first node gets: the other one and its neighbour. -/
example : newPeersOf sideA.env (fun _ => false) (writeONodes sideB.records) = some [idOf 9, idOf 8] := by
  decide +kernel

end Verif.Props
