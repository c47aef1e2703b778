import Verif.Props.DhtJoin
import Verif.Props.ReadYourWrites
import Verif.Props.Wire

/-!
# C144: a node whose request to join the DHT was answered is known from then on
-/
namespace Verif.Dht
open Verif.Tl Verif.Address Verif.AdnlProto Verif.DhtProto Verif.Storage Verif.Spec

variable {c : Crypto}

/-! ### Specification -/

/-- The records a node learned from answers to its own queries have fields of the widths on the wire. -/
def LearnedFromWire (ds : List (Did c)) : Prop := ∀ now key n, Did.aside (.learn now key n) ∈ ds → DNode.wf n

/-- The node tells everybody who asks for nodes near any place about the node `id`, if it is closer to that place
than the node asked and there is room in the answer. -/
def TellsAll (c : Crypto) (gid : Bytes) (s : State c) (id : Bytes) : Prop :=
  ∀ (target : Bytes) (k : Nat), target.length = 32 → (findNode s target k).length < k →
    Xor.dist id target < Xor.dist gid target → ∃ n ∈ findNode s target k, NodeOk c gid id n

/-! ### Everything that happens to a DHT node, as steps on its tables -/

theorem readPlain_records {id : Nat} {b r : Bytes} {q : Query} (h : readPlain id b = some (q, r)) : queryRecords q = [] := by
  unfold readPlain at h
  by_cases h1 : id = pingId
  · rw [if_pos h1] at h
    simp only [bind, pure] at h
    split at h <;> cases h
    rfl
  rw [if_neg h1] at h
  by_cases h2 : id = findNodeId
  · rw [if_pos h2] at h
    simp only [bind, pure] at h
    split at h
    · cases h
    · split at h <;> cases h
      rfl
  rw [if_neg h2] at h
  by_cases h3 : id = findValueId
  · rw [if_pos h3] at h
    simp only [bind, pure] at h
    split at h
    · cases h
    · split at h <;> cases h
      rfl
  rw [if_neg h3] at h
  by_cases h4 : id = storeId
  · rw [if_pos h4] at h
    simp only [bind, pure] at h
    split at h <;> cases h
    rfl
  rw [if_neg h4] at h
  cases h

theorem dht_run_append (o : Opts c) (s : State c) (a b : List (Op c)) : run o s (a ++ b) = run o (run o s a) b := by
  simp [run, List.foldl_append]

theorem consume_steps (o : Opts c) (e : Env c) : ∀ (fuel : Nat) (s : State c) (data : Bytes),
    ∃ ops, FromWire ops ∧ (consume o e fuel s data).1 = run o s ops := by
  have none : ∀ s : State c, ∃ ops : List (Op c), FromWire ops ∧ s = run o s ops :=
    fun s => ⟨[], (fun _ h => by cases h), rfl⟩
  intro fuel
  induction fuel with
  | zero => intro s data; exact none s
  | succ fuel ih =>
    intro s data
    unfold consume
    cases h1 : readU32 data with
    | none => exact none s
    | some p =>
      obtain ⟨id, rest⟩ := p
      simp only
      split
      · cases h2 : readDNode rest with
        | none => exact none s
        | some p =>
          obtain ⟨node, inner⟩ := p
          simp only
          cases h3 : readU32 inner with
          | none => exact none s
          | some p =>
            simp only
            have hwf : node.wf := Wire.dnode_yields rest node inner h2
            have hw : FromWire [Op.learned e.now e.channelKey node] := by
              intro op hop r hr
              cases List.mem_singleton.mp hop
              cases List.mem_singleton.mp hr
              exact hwf
            cases h4 : addDhtPeer o e.now s node e.channelKey with
            | mk s' r =>
              have hs : s' = run o s [Op.learned e.now e.channelKey node] := by
                show s' = (addDhtPeer o e.now s node e.channelKey).1
                rw [h4]
              obtain ⟨ops, g1, g2⟩ := ih s' inner
              have go : ∃ ops, FromWire ops ∧ (consume o e fuel s' inner).1 = run o s ops := by
                refine ⟨[Op.learned e.now e.channelKey node] ++ ops, ?_, ?_⟩
                · intro op hop
                  rcases List.mem_append.mp hop with hop | hop
                  · exact hw op hop
                  · exact g1 op hop
                · rw [dht_run_append, ← hs]; exact g2
              cases r with
              | error => exact ⟨_, hw, hs⟩
              | none =>
                simp only
                cases h5 : consume o e fuel s' inner with
                | mk s'' rd =>
                  rw [h5] at go
                  obtain ⟨r, d⟩ := rd
                  cases r <;> exact go
              | some x =>
                simp only
                cases h5 : consume o e fuel s' inner with
                | mk s'' rd =>
                  rw [h5] at go
                  obtain ⟨r, d⟩ := rd
                  cases r <;> exact go
      · split
        · exact none s
        · split
          · cases h2 : readPlain id rest with
            | none => exact none s
            | some p =>
              obtain ⟨q, r⟩ := p
              refine ⟨[.query e.order e.now e.now' e.channelKey q], ?_, rfl⟩
              intro op hop r' hr
              cases List.mem_singleton.mp hop
              simp only [records, readPlain_records h2, List.map_nil] at hr
              cases hr
          · exact none s

theorem storeNew_steps (o : Opts c) (e : Env c) (s : State c) (v : Value) :
    ∃ ops, FromWire ops ∧ (storeNew o e s v).1 = run o s ops := by
  refine ⟨[.query e.order e.now e.now' e.channelKey (.store v)], ?_, ?_⟩
  · intro op hop r hr
    cases List.mem_singleton.mp hop
    cases hr
  · show (storeNew o e s v).1 = (handle o e.order e.now e.now' e.channelKey s (.store v)).1
    unfold storeNew handle
    cases Storage.insert c o.storage e.order e.now e.now' s.storage v with
    | mk st r => cases r <;> rfl

theorem did_steps (o : Opts c) (s : State c) (d : Did c) (hd : LearnedFromWire [d]) :
    ∃ ops, FromWire ops ∧ d.step o s = run o s ops := by
  have single : ∀ op : Op c, records op = [] → FromWire [op] := by
    intro op h x hx r hr
    cases List.mem_singleton.mp hx
    rw [h] at hr; cases hr
  cases d with
  | asked e l p qid data => exact consume_steps o e _ s data
  | other ev y => exact ⟨[], (fun _ h => by cases h), rfl⟩
  | aside a =>
    cases a with
    | query e data => exact consume_steps o e _ s data
    | publish e v => exact storeNew_steps o e s v
    | announce e ttl fullId node =>
      show ∃ ops, _ ∧ (storeOverlayNode o e ttl s fullId node).1 = _
      unfold storeOverlayNode
      split
      · exact ⟨[], (fun _ h => by cases h), rfl⟩
      · split
        · exact ⟨[], (fun _ h => by cases h), rfl⟩
        · exact storeNew_steps o e s _
    | learn now key n =>
      refine ⟨[.learned now key n], ?_, rfl⟩
      intro op hop r hr
      cases List.mem_singleton.mp hop
      cases List.mem_singleton.mp hr
      exact hd now key n (List.mem_singleton.mpr rfl)
    | collect shard now => exact ⟨[.gc shard now], single _ rfl, rfl⟩
    | asked peer r => exact ⟨[.status peer r], single _ rfl, rfl⟩

theorem replay_steps (o : Opts c) (ds : List (Did c)) : LearnedFromWire ds → ∀ s : State c,
    ∃ ops, FromWire ops ∧ replay o s ds = run o s ops := by
  induction ds with
  | nil => exact fun _ s => ⟨[], (fun _ h => by cases h), rfl⟩
  | cons d ds ih =>
    intro h s
    obtain ⟨a, h1, h2⟩ := did_steps o s d (fun now key n hm => h now key n (by
      rw [List.mem_singleton.mp hm]; exact List.mem_cons_self))
    obtain ⟨b, h3, h4⟩ := ih (fun now key n hm => h now key n (List.mem_cons_of_mem _ hm)) (d.step o s)
    refine ⟨a ++ b, ?_, ?_⟩
    · intro op hop
      rcases List.mem_append.mp hop with hop | hop
      · exact h1 op hop
      · exact h3 op hop
    · rw [dht_run_append, ← h2]; exact h4

/-- C144: what a joining node is told, and what others are told about it, when anything happens to the node asked
before, and anything after. -/
theorem C144_known (hc : c.Lawful) (o : Opts c) (adnl : Node.State c) (gid : Bytes) (maxPeers : Nat)
    (hl : gid.length = 32) (ht : (adnl.peers.get gid).isSome) (as bs : List (Did c)) (e : Env c) (l peer qid : Bytes)
    (j : Joiner c) (k : Nat) (hk : k < 2 ^ 32) (hw : Welcome o gid e.now j)
    (hlearn : LearnedFromWire (as ++ .asked e l peer qid (nodesQuery j.own j.id k true) :: bs)) :
    TellsAll c gid (replay o (init adnl gid maxPeers) (as ++ .asked e l peer qid (nodesQuery j.own j.id k true) :: bs))
      j.id := by
  obtain ⟨ops, h1, h2⟩ := replay_steps o as (fun now key n h => hlearn now key n (List.mem_append_left _ h))
    (init adnl gid maxPeers)
  have hg := run_asked (o := o) ops h1 (init_asked o adnl gid maxPeers ht)
  rw [← h2] at hg
  obtain ⟨g1, -, g3, -, -⟩ := join_eq hc hg hl e j k hk hw
  obtain ⟨ops', h3, h4⟩ := replay_steps o bs (fun now key n h => hlearn now key n
    (List.mem_append_right _ (List.mem_cons_of_mem _ h))) (join o e (replay o (init adnl gid maxPeers) as) j k).1
  have hrep : replay o (init adnl gid maxPeers) (as ++ .asked e l peer qid (nodesQuery j.own j.id k true) :: bs) =
      run o (join o e (replay o (init adnl gid maxPeers) as) j k).1 ops' := by
    rw [replay_append, ← h4]; rfl
  rw [hrep]
  have hg' := run_asked (o := o) ops' h3 g1
  obtain ⟨n, hn, -⟩ := mem_of_tells g1 g3
  obtain ⟨n', hn', -⟩ := C102_told_for_ever o _ ops' j.id n hn
  intro target k' htl hlen hd
  exact (told_iff hc hg' hl target htl k' hlen j.id).mpr ⟨⟨n', AMap.mem_of_get hn'⟩, hd⟩

end Verif.Dht

namespace Verif.LongTrip
open Verif.Tl Verif.Adnl Verif.AdnlProto Verif.Address Verif.Node Verif.Receiver Verif.Sender Verif.Props
open Verif.Process Verif.Delivery Verif.RoundTrip Verif.Spec
open Verif.Dht (Did logOf LeavesDht NoQuery Joiner Welcome LearnedFromWire TellsAll Tells NodeOk nodesQuery nodesAnswer)

variable {c : Crypto}

/-- C144: side `b` asks the other side for nodes near itself, with its own record in front, over a network that loses,
repeats, reorders and delays datagrams. If an answer to that query comes, it is the answer of the DHT node of the other
side: it can be read, and tells, when there is room, about exactly the nodes the other side knew and the asking node
itself, as far as they are closer to it. Whatever else the other side went through by then or goes through later, it
tells everybody about the asking node. -/
theorem C144_joined_over_adnl (hc : c.Lawful) (P : Pair c) (hP : P.Fits) (M G : Message → Prop) (hA : Apart c.sha M)
    (ρ₀ ρ₁ : Talk c) (h0 : TStart P M ρ₀) (h1 : Goes P M G ρ₀ ρ₁) (b : Bool)
    (o : Dht.Opts c) (adnl : Node.State c) (gid : Bytes) (maxPeers : Nat) (hl : gid.length = 32)
    (ht : (adnl.peers.get gid).isSome)
    (pre post : List Dispatch.QuerySub) (ms : List Dispatch.MsgSub) (hpre : LeavesDht pre)
    (ds : List (Did c)) (hds : ∀ d ∈ ds, NoQuery d) (hlearn : LearnedFromWire ds)
    (hlog : ρ₁.log (!b) = logOf o pre post ms (Dht.init adnl gid maxPeers) ds)
    (qid : Bytes) (j : Joiner c) (k : Nat) (hk : k < 2 ^ 32)
    (hwel : ∀ e l peer data, .asked e l peer qid data ∈ ds → Welcome o gid e.now j)
    (hone : ∀ x, .query qid x ∈ ρ₁.told b → x = nodesQuery j.own j.id k true)
    (a : Bytes) (y : Reply) (hgot : (.answer qid a, y) ∈ ρ₁.log b) :
    (∃ as bs e l, ds = as ++ .asked e (P.id !b) (P.id b) qid (nodesQuery j.own j.id k true) :: bs ∧
      nodesAnswer (some a) = some l ∧ l.length ≤ max k 1 ∧
      (l.length < k → ∀ id, (∃ n ∈ l, NodeOk c gid id n) ↔
        (id = j.id ∨ Tells (Dht.replay o (Dht.init adnl gid maxPeers) as) id) ∧
          Xor.dist id j.id < Xor.dist gid j.id)) ∧
    ∀ ds', LearnedFromWire ds' → TellsAll c gid (Dht.replay o (Dht.init adnl gid maxPeers) (ds ++ ds')) j.id := by
  have hq : (.query (P.id !b) (P.id b) qid (nodesQuery j.own j.id k true), .answer a) ∈ ρ₁.log (!b) := by
    rcases C111_nothing_made_up hc P hP M G hA ρ₀ ρ₁ h0 h1 b _ _ hgot with ⟨_, _, h, -⟩ | ⟨_, h, -⟩ | ⟨_, _, x, h, g1, g2⟩
    · cases h
    · cases h
    · cases h
      rw [hone x g1] at g2
      exact g2
  rw [hlog] at hq
  obtain ⟨as, e, bs, hsplit, hreply⟩ := Dht.mem_logOf o pre post ms ds hds _ _ _ _ _ _ hq
  have hw : Welcome o gid e.now j := hwel e (P.id !b) (P.id b) (nodesQuery j.own j.id k true) (by rw [hsplit]; simp)
  have hid : j.id.length = 32 := hc.sha_length _
  have hwf : j.own.wf := Dht.localNode_wf hc _ _ _ _ hw.created hw.started
  have hsays := Dht.says_write (.withNode j.own (.findNode j.id k)) ⟨hwf, hid, hk⟩ []
  rw [List.append_nil, ← Dht.nodesQuery_true] at hsays
  have hans := (Dht.reaction_dht o e _ pre post ms hpre _ _ _ _ _ hsays _).mp hreply.symm
  refine ⟨⟨as, bs, e, ?_⟩, ?_⟩
  · obtain ⟨ops, g1, g2⟩ := Dht.replay_steps o as (fun now key n h => hlearn now key n
      (by rw [hsplit]; exact List.mem_append_left _ h)) (Dht.init adnl gid maxPeers)
    obtain ⟨l, h2, h3, h4⟩ := Dht.C140_told_iff hc o adnl gid maxPeers ops e j k hl ht g1 hk hw
    rw [← g2] at h2 h4
    unfold Dht.join at h2
    rw [hans] at h2
    exact ⟨l, hsplit, h2, h3, h4⟩
  · intro ds' hds'
    rw [hsplit, List.append_assoc, List.cons_append]
    refine Dht.C144_known hc o adnl gid maxPeers hl ht as (bs ++ ds') e _ _ qid j k hk hw ?_
    intro now key n hm
    have : Did.aside (.learn now key n) ∈ ds ++ ds' := by
      rw [hsplit, List.append_assoc, List.cons_append]; exact hm
    rcases List.mem_append.mp this with h | h
    · exact hlearn now key n h
    · exact hds' now key n h

/-! ### Examples -/

namespace JoinOver

def j : Joiner Crypto.toy := Dht.Example.joiner 2
def joinQ : Bytes := nodesQuery j.own j.id 10 true
def told : Bytes := Dht.writeDNodes [j.own]

/-- One node asks to join. -/
def ds : List (Did Crypto.toy) := [.asked Dht.Example.env (toyPair.id true) (toyPair.id false) Ryw.qid joinQ]

theorem learned (l : List (Did Crypto.toy)) (h : ∀ now key n, Did.aside (.learn now key n) ∉ l) : LearnedFromWire l :=
  fun now key n hm => absurd hm (h now key n)

theorem ds_learned : LearnedFromWire ds := learned _ fun now key n h => by cases List.mem_singleton.mp h

/-- C144_known: others learn of the node that joined, also after the collection of old values. -/
example : TellsAll Crypto.toy Dht.Example.localId (Dht.replay Dht.Example.o Ryw.dht
    ([] ++ .asked Dht.Example.env (toyPair.id true) (toyPair.id false) Ryw.qid (nodesQuery j.own j.id 10 true) ::
      [.aside (.collect (fun _ => true) 1500)])) j.id :=
  Dht.C144_known Crypto.toy_lawful Dht.Example.o _ _ _ (by decide +kernel) Dht.Example.adnl_table [] _ Dht.Example.env _ _ _ j 10
    (by decide) (Dht.Example.joiner_welcome 2 (by decide)) (learned _ fun now key n h => by
      rcases List.mem_cons.mp h with h | h
      · cases h
      · cases List.mem_singleton.mp h)

/-- The spec is not empty: such a node is told about. -/
example : (Dht.findNode (Dht.replay Dht.Example.o Ryw.dht ds) j.id 10) = [j.own] := by decide +kernel

def cmds : List Cmd := [.tell false 130 (.query Ryw.qid joinQ), .deliver false 0 140 (Ryw.answers Ryw.qid joinQ told),
  .deliver true 0 141 (fun _ => .done)]

def M (m : Message) : Prop := m ∈ [.query Ryw.qid joinQ, .answer Ryw.qid told]

theorem apart : Apart Crypto.toy.sha M := by
  intro x y hx hy h
  simp only [M, List.mem_cons, List.not_mem_nil, or_false] at hx hy
  rcases hx with rfl | rfl <;> rcases hy with rfl | rfl <;> first | rfl | exact absurd h (by decide +kernel)

theorem answers_ok (b : Bool) (i now : Nat) : CmdOk M (.deliver b i now (Ryw.answers Ryw.qid joinQ told)) := by
  intro l p id' x a' _ h
  simp only [Ryw.answers] at h
  split at h
  · rename_i e
    cases h
    obtain ⟨-, -, rfl, -⟩ := Event.query.inj e
    exact ⟨by decide +kernel, by simp [M]⟩
  · cases h

theorem cmds_ok : ∀ x ∈ cmds, CmdOk M x := by
  intro x hx
  simp only [cmds, List.mem_cons, List.not_mem_nil, or_false] at hx
  rcases hx with rfl | rfl | rfl
  · exact ⟨⟨rfl, by decide +kernel⟩, by simp [M]⟩
  · exact answers_ok _ _ _
  · intro _ _ _ _ _ _ h; cases h

theorem after : ((exec toyPair (show UInt8 from 1) toyRands toyTalk cmds).map fun ρ => (ρ.log true, ρ.log false, ρ.told false)) =
    some (logOf Dht.Example.o [] [] [] Ryw.dht ds, [(.answer Ryw.qid told, .done)], [.query Ryw.qid joinQ]) := by
  decide +kernel

/-- C144_joined_over_adnl: the request goes over the connection and is answered. -/
example : TellsAll Crypto.toy Dht.Example.localId (Dht.replay Dht.Example.o Ryw.dht (ds ++ [])) j.id := by
  have h1 := after
  cases e1 : exec toyPair (show UInt8 from 1) toyRands toyTalk cmds with
  | none => rw [e1] at h1; cases h1
  | some ρ₁ =>
    rw [e1] at h1
    simp only [Option.map_some, Option.some.injEq, Prod.mk.injEq] at h1
    exact (C144_joined_over_adnl Crypto.toy_lawful toyPair toyPair_fits M (fun _ => False) apart toyTalk ρ₁
      (toyTalk_start _)
      (exec_goes (fun _ => rfl) _ _ _ _ (fun _ => rfl) cmds _ _ _ (.refl _) cmds_ok e1) false
      Dht.Example.o _ _ _ (by decide +kernel) Dht.Example.adnl_table [] [] [] (fun _ h => by cases h) ds
      (fun d hd => by cases List.mem_singleton.mp hd; trivial) ds_learned h1.1 Ryw.qid j 10 (by decide)
      (fun e l p x hx => by cases List.mem_singleton.mp hx; exact Dht.Example.joiner_welcome 2 (by decide))
      (by intro x hx; rw [h1.2.2] at hx; cases List.mem_singleton.mp hx; rfl)
      told .done (by rw [h1.2.1]; simp)).2 [] (fun _ _ _ h => by cases h)

end JoinOver

end Verif.LongTrip
