import Verif.Model.DhtJoin
import Verif.Model.DhtEntry
import Verif.Props.Publish
import Verif.Props.Discover
import Verif.Props.DhtTables

/-!
# C140: nodes that join the DHT through the same node
-/
namespace Verif.Dht
open Verif.Tl Verif.Address Verif.AdnlProto Verif.DhtProto Verif.Storage Verif.Spec

variable {c : Crypto}

/-! ### Specification -/

/-- A node that joins: its key, its address, when it was started and when its DHT node was created. -/
structure Joiner (c : Crypto) where
  sec : c.Sec
  addr : SockAddr
  created : Nat
  started : Nat

/-- The id of the node. -/
def Joiner.id (j : Joiner c) : Bytes := Node.shortId c (c.pubOf j.sec)

/-- The record it puts in front of its queries. -/
def Joiner.own (j : Joiner c) : DNode := localNode c j.created j.started j.addr j.sec

/-- Nothing forbids the node asked to take the joining one: it is another node at another address, which the
application accepts, and was not started in the future. -/
structure Welcome (o : Opts c) (gid : Bytes) (now : Nat) (j : Joiner c) : Prop where
  other : j.id ≠ gid
  address : j.addr ≠ o.adnl.socketAddr
  filter : ∀ f, o.adnl.filter = some f → f j.addr j.id = true
  clock : j.started ≤ now + o.adnl.clockTolerance
  noOverflow : now + o.adnl.clockTolerance < 2 ^ 32
  created : j.created < 2 ^ 32
  started : j.started < 2 ^ 32

/-- The node asked gets the query of the joining one and answers: its state afterwards and what the joining
node reads. -/
def join (o : Opts c) (e : Env c) (g : State c) (j : Joiner c) (k : Nat) : State c × Option (List DNode) :=
  ((consumeQuery o e g (nodesQuery j.own j.id k true)).1,
    match (consumeQuery o e g (nodesQuery j.own j.id k true)).2.1 with
    | .answer data => nodesAnswer (some data)
    | _ => none)

/-- The records that reached the node before have fields of the widths on the wire. -/
def FromWire (ops : List (Op c)) : Prop := ∀ op ∈ ops, ∀ r ∈ records op, DNode.wf r.2

/-- C140, full statement: of two nodes that join through the same node, the second learns of the first, when there
is room in the answer. -/
def C140_full (c : Crypto) : Prop :=
  ∀ (o : Opts c) (adnl : Node.State c) (gid : Bytes) (maxPeers : Nat) (before between : List (Op c)) (e₁ e₂ : Env c)
    (j₁ j₂ : Joiner c) (k₁ k₂ : Nat) (l : List DNode),
    gid.length = 32 → (adnl.peers.get gid).isSome → FromWire before → FromWire between →
    k₁ < 2 ^ 32 → k₂ < 2 ^ 32 → Welcome o gid e₁.now j₁ → Welcome o gid e₂.now j₂ → j₁.id ≠ j₂.id →
    (join o e₂ (run o (join o e₁ (run o (init adnl gid maxPeers) before) j₁ k₁).1 between) j₂ k₂).2 = some l →
    l.length < k₂ →
    ∃ n ∈ l, NodeOk c gid j₁.id n

/-! ### The invariant of the node asked -/

structure Asked (o : Opts c) (gid : Bytes) (cap : Nat) (s : State c) : Prop where
  good : Good o gid s
  tab : Tables gid cap s
  wf : ∀ b id n, (id, n) ∈ s.buckets.bucket b → DNode.wf n
  table : HasTable s

theorem addDhtPeer_asked {o : Opts c} {gid : Bytes} {cap : Nat} {s : State c} (h : Asked o gid cap s) (now : Nat)
    (n : DNode) (hn : n.wf) (key : c.Sec) : Asked o gid cap (addDhtPeer o now s n key).1 := by
  refine ⟨addDhtPeer_good h.good now n key, addDhtPeer_tab h.tab now n key, ?_,
    (addDhtPeer_effect o now s n key).table h.table⟩
  obtain ⟨h1 | ⟨x, addr, pub, adnl', -, -, -, e3⟩, -⟩ := addDhtPeer_tables o now s n key
  · rw [h1]; exact h.wf
  · rw [e3]
    intro b id m hm
    split at hm
    · simp only [Buckets.insert] at hm
      split at hm
      · rcases Buckets.insertInto_mem hm with hm | hm
        · exact h.wf _ _ _ hm
        · cases hm; exact hn
      · exact h.wf _ _ _ hm
    · exact h.wf _ _ _ hm

theorem Asked.congr {o : Opts c} {gid : Bytes} {cap : Nat} {s s' : State c} (h : Asked o gid cap s)
    (hg : Good o gid s') (ha : s'.adnl = s.adnl) (hk : s'.known = s.known) (hb : s'.buckets = s.buckets) :
    Asked o gid cap s' :=
  ⟨hg, ⟨hb ▸ h.tab.loc, hk ▸ h.tab.inv, hk ▸ h.tab.cap, hk ▸ hb ▸ h.tab.told, hk ▸ ha ▸ h.tab.peer⟩, hb ▸ h.wf,
    by unfold HasTable; rw [ha, hb]; exact h.table⟩

theorem handle_asked {o : Opts c} {gid : Bytes} {cap : Nat} (order : List ONode → List ONode) (now now' : Nat)
    (key : c.Sec) (q : Query) (hq : ∀ n ∈ queryRecords q, DNode.wf n) : ∀ {s : State c}, Asked o gid cap s →
      Asked o gid cap (handle o order now now' key s q).1 := by
  induction q with
  | ping r => intro s h; exact h
  | findNode k n => intro s h; exact h
  | findValue k n => intro s h; unfold handle; cases findValue o now s k n <;> exact h
  | getSignedAddressList => intro s h; exact h
  | store v =>
    intro s h
    have hg := handle_good order now now' key (.store v) h.good
    unfold handle at hg ⊢
    cases hi : Storage.insert c o.storage order now now' s.storage v with
    | mk st r =>
      rw [hi] at hg
      cases r <;> exact h.congr hg rfl rfl rfl
  | withNode node q ih =>
    intro s h
    have h1 := addDhtPeer_asked h now node (hq node (List.mem_cons_self ..)) key
    have hq' := fun n hn => hq n (List.mem_cons_of_mem _ hn)
    unfold handle
    cases ha : addDhtPeer o now s node key with
    | mk s' r =>
      rw [ha] at h1
      cases r with
      | error => exact h1
      | none => exact ih hq' h1
      | some id => exact ih hq' h1

theorem run_asked {o : Opts c} {gid : Bytes} {cap : Nat} (ops : List (Op c)) (hw : FromWire ops) :
    ∀ {s : State c}, Asked o gid cap s → Asked o gid cap (run o s ops) := by
  induction ops with
  | nil => intro s h; exact h
  | cons op ops ih =>
    intro s h
    refine ih (fun x hx => hw x (List.mem_cons_of_mem _ hx)) (s := step o s op) ?_
    have hop := hw op (List.mem_cons_self ..)
    cases op with
    | query order now now' key q =>
      exact handle_asked order now now' key q (fun n hn => hop (now, n) (List.mem_map_of_mem hn)) h
    | learned now key n => exact addDhtPeer_asked h now n (hop (now, n) (List.mem_singleton.mpr rfl)) key
    | gc shard now => exact h.congr (step_good h.good (.gc shard now)) rfl rfl rfl
    | status peer r => exact h.congr (step_good h.good (.status peer r)) rfl rfl rfl

theorem init_asked (o : Opts c) (adnl : Node.State c) (gid : Bytes) (maxPeers : Nat)
    (ht : (adnl.peers.get gid).isSome) : Asked o gid (max 1 maxPeers) (init adnl gid maxPeers) :=
  ⟨init_good o adnl gid maxPeers, init_tab adnl gid maxPeers, fun _ _ _ h => absurd h List.not_mem_nil, ht⟩

theorem Asked.reached (hc : c.Lawful) {o : Opts c} {gid : Bytes} {cap : Nat} {s : State c} (h : Asked o gid cap s)
    (hl : gid.length = 32) : Buckets.Reached s.buckets := by
  refine ⟨h.good.buckets, by rw [h.good.loc]; exact hl, ?_⟩
  intro j id n hm
  obtain ⟨key, pub, -, -, h3, h4, -⟩ := h.good.nodes j id n hm
  rw [h.good.loc]
  exact ⟨by rw [h3]; exact hc.sha_length _, h4⟩

/-! ### One joining node -/

theorem nodesQuery_true (own : DNode) (id : Bytes) (k : Nat) :
    nodesQuery own id k true = writeQuery (.withNode own (.findNode id k)) := by
  simp [nodesQuery, makeQuery, queryPrefix, writeQuery]

theorem readNodes_write (l : List DNode) (hl : l.length < 2 ^ 32) (h : ∀ n ∈ l, DNode.wf n) :
    readNodes (writeDNodes l) = some l := by
  unfold readNodes writeDNodes
  rw [readU32_write _ (by decide)]
  have h2 := Encodes.vec l hl (fun n hn => dnode_encodes n (h n hn)) []
  rw [List.append_nil] at h2
  simp only [↓reduceIte, h2, Option.map_some]

theorem NodeOk.id_unique {gid gid' a b : Bytes} {n : DNode} (h : NodeOk c gid a n) (h' : NodeOk c gid' b n) : a = b := by
  obtain ⟨k, p, h1, h2, h3, -⟩ := h
  obtain ⟨k', p', h1', h2', h3', -⟩ := h'
  rw [h1] at h1'
  cases h1'
  rw [h2] at h2'
  cases h2'
  rw [h3, h3']

theorem join_eq (hc : c.Lawful) {o : Opts c} {gid : Bytes} {cap : Nat} {g : State c} (h : Asked o gid cap g)
    (hl : gid.length = 32) (e : Env c) (j : Joiner c) (k : Nat) (hk : k < 2 ^ 32) (hw : Welcome o gid e.now j) :
    Asked o gid cap (join o e g j k).1 ∧ (join o e g j k).2 = some (findNode (join o e g j k).1 j.id k) ∧
    Tells (join o e g j k).1 j.id ∧ (∀ id n, Buckets.lookup g.buckets id = some n →
      ∃ n', Buckets.lookup (join o e g j k).1.buckets id = some n' ∧ n.version ≤ n'.version) ∧
    (∀ id, Tells (join o e g j k).1 id → id = j.id ∨ Tells g id) := by
  have hwf : j.own.wf := localNode_wf hc _ _ _ _ hw.created hw.started
  have hid : j.id.length = 32 := hc.sha_length _
  obtain ⟨g', ha, -, hnew⟩ := C82_own_record_accepted hc j.created j.started j.addr j.sec o g e.now e.channelKey
    (by rw [h.good.loc]; exact hw.other) hw.address hw.filter (Option.isSome_iff_exists.mp h.table) hw.noOverflow hw.clock
  have hq := C79_consumes_query o e g (.withNode j.own (.findNode j.id k)) ⟨hwf, hid, hk⟩ []
  rw [List.append_nil, ← nodesQuery_true] at hq
  have hh : handle o e.order e.now e.now' e.channelKey g (.withNode j.own (.findNode j.id k)) =
      (g', .nodes (findNode g' j.id k)) := by
    rw [handle, Joiner.own, ha]
    rfl
  rw [hh] at hq
  have h1 : (join o e g j k).1 = g' := hq.1
  have hg' : Asked o gid cap g' := by
    have := addDhtPeer_asked h e.now j.own hwf e.channelKey
    rw [Joiner.own, ha] at this
    exact this
  have hr := hg'.reached hc hl
  rw [h1]
  refine ⟨hg', ?_, ?_, ?_, ?_⟩
  · unfold join
    rw [hq.2]
    simp only [replyOf, nodesAnswer]
    refine readNodes_write _ ?_ ?_
    · have := Buckets.C26_at_most_k g'.buckets hr j.id hid k
      simp only [findNode, List.length_map]
      omega
    · intro n hn
      obtain ⟨⟨id, n'⟩, hm, rfl⟩ := List.mem_map.mp hn
      exact hg'.wf _ _ _ (AMap.mem_of_get (Buckets.C26_answers_are_stored_and_closer hr j.id hid k id n' hm).1)
  · by_cases hkn : j.id ∈ PeersSet.queue g'.known
    · obtain ⟨n, hn⟩ := hg'.tab.told _ hkn
      exact ⟨n, AMap.mem_of_get hn⟩
    · by_cases hk' : j.id ∈ AMap.keys g.known.cache
      · have hc1 := (asks_iff h.tab.inv j.id).mp (by
          unfold Asks PeersSet.contains
          rw [Option.isSome_iff_ne_none, ne_eq, AMap.get_eq_none_iff]
          exact fun hno => hno hk')
        obtain ⟨n, hn⟩ := h.tab.told _ hc1
        obtain ⟨n', hn', -⟩ := C102_told_for_ever o g [.learned e.now e.channelKey j.own] j.id n hn
        have e1 : run o g [.learned e.now e.channelKey j.own] = g' := by
          show (addDhtPeer o e.now g j.own e.channelKey).1 = g'
          rw [Joiner.own, ha]
        rw [e1] at hn'
        exact ⟨n', AMap.mem_of_get hn'⟩
      · obtain ⟨n, hn, -⟩ := hnew hk'
        exact ⟨n, AMap.mem_of_get hn⟩
  · intro id n hn
    have := C102_told_for_ever o g [.learned e.now e.channelKey j.own] id n hn
    have e1 : run o g [.learned e.now e.channelKey j.own] = g' := by
      show (addDhtPeer o e.now g j.own e.channelKey).1 = g'
      rw [Joiner.own, ha]
    rwa [e1] at this
  · rintro id ⟨n, hn⟩
    have hok := hg'.good.nodes _ _ _ hn
    obtain ⟨h2 | ⟨x, addr, pub, adnl', -, -, -, e3⟩, -⟩ := addDhtPeer_tables o e.now g j.own e.channelKey
    · rw [Joiner.own, ha] at h2
      simp only at h2
      rw [h2] at hn
      exact .inr ⟨n, hn⟩
    · rw [Joiner.own, ha] at e3
      simp only at e3
      rw [hg'.good.loc, ← h.good.loc, e3] at hn
      split at hn
      · simp only [Buckets.insert] at hn
        split at hn
        · rename_i hb
          rcases Buckets.insertInto_mem hn with hm | hm
          · rw [← hb] at hm
            exact .inr ⟨n, hm⟩
          · refine .inl ?_
            cases hm
            obtain ⟨key, p, h3, h4, h5, -⟩ := hok
            cases h3
            rw [hc.decode_pub] at h4
            cases h4
            exact h5
        · exact .inr ⟨n, hn⟩
      · exact .inr ⟨n, hn⟩

theorem mem_of_tells {o : Opts c} {gid : Bytes} {cap : Nat} {s : State c} (h : Asked o gid cap s) {id : Bytes}
    (ht : Tells s id) : ∃ n, Buckets.lookup s.buckets id = some n ∧ NodeOk c gid id n := by
  obtain ⟨n, hn⟩ := ht
  exact ⟨n, AMap.get_of_mem (h.good.buckets.nodup _) hn, h.good.nodes _ _ _ hn⟩

theorem told_iff (hc : c.Lawful) {o : Opts c} {gid : Bytes} {cap : Nat} {s : State c} (h : Asked o gid cap s)
    (hl : gid.length = 32) (target : Bytes) (ht : target.length = 32) (k : Nat)
    (hk : (findNode s target k).length < k) (id : Bytes) :
    (∃ n ∈ findNode s target k, NodeOk c gid id n) ↔ Tells s id ∧ Xor.dist id target < Xor.dist gid target := by
  have hr := h.reached hc hl
  constructor
  · rintro ⟨n, hn, hok⟩
    obtain ⟨⟨id', n'⟩, hm, rfl⟩ := List.mem_map.mp hn
    obtain ⟨h1, h2⟩ := Buckets.C26_answers_are_stored_and_closer hr target ht k id' n' hm
    have hm' := AMap.mem_of_get h1
    have := (h.good.nodes _ _ _ hm').id_unique hok
    subst this
    rw [h.good.loc] at h2
    exact ⟨⟨n', hm'⟩, h2⟩
  · rintro ⟨hT, hd⟩
    obtain ⟨n, hn, hok⟩ := mem_of_tells h hT
    refine ⟨n, List.mem_map.mpr ⟨(id, n), ?_, rfl⟩, hok⟩
    refine Buckets.C26_short_answer_is_complete s.buckets hr target ht k ?_ id n hn (by rw [h.good.loc]; exact hd)
    simpa [findNode] using hk

theorem dist_self_lt {a b : Bytes} (ha : a.length = 32) (hb : b.length = 32) (h : a ≠ b) :
    Xor.dist a a < Xor.dist b a := by
  rw [Buckets.dist_comm b a]
  refine Buckets.C25_longer_prefix_is_closer a a b ha ha hb ?_
  have hne : Xor.bits a ≠ Xor.bits b := fun e => h (Xor.bits_inj (by omega) e)
  obtain ⟨p, x, s, s', h1, -, h3⟩ := Xor.commonPrefix_split
    (by rw [Xor.bits_length, Xor.bits_length]; omega) hne
  rw [Xor.commonPrefix_self, ← h3, h1]
  simp

/-- C140: what a joining node is told. Its query is always answered. If the answer has room, the records in it are of
exactly those nodes which the node asked has in its table and which are closer to the joining node than the node
asked is. -/
theorem C140_told_iff (hc : c.Lawful) (o : Opts c) (adnl : Node.State c) (gid : Bytes) (maxPeers : Nat)
    (ops : List (Op c)) (e : Env c) (j : Joiner c) (k : Nat) (hl : gid.length = 32) (ht : (adnl.peers.get gid).isSome)
    (hw : FromWire ops) (hk : k < 2 ^ 32) (hj : Welcome o gid e.now j) :
    ∃ l, (join o e (run o (init adnl gid maxPeers) ops) j k).2 = some l ∧ l.length ≤ max k 1 ∧
      (l.length < k → ∀ id, (∃ n ∈ l, NodeOk c gid id n) ↔
        (id = j.id ∨ Tells (run o (init adnl gid maxPeers) ops) id) ∧ Xor.dist id j.id < Xor.dist gid j.id) := by
  have hg := run_asked (o := o) ops hw (init_asked o adnl gid maxPeers ht)
  obtain ⟨h1, h2, h3, h4, h5⟩ := join_eq hc hg hl e j k hk hj
  have hid : j.id.length = 32 := hc.sha_length _
  refine ⟨_, h2, ?_, fun hlen id => ?_⟩
  · rw [findNode, List.length_map]
    exact Buckets.C26_at_most_k _ (h1.reached hc hl) j.id hid k
  · rw [told_iff hc h1 hl j.id hid k hlen id]
    refine and_congr_left fun _ => ⟨h5 id, ?_⟩
    rintro (rfl | hT)
    · exact h3
    · obtain ⟨n, hn, -⟩ := mem_of_tells hg hT
      obtain ⟨n', hn', -⟩ := h4 id n hn
      exact ⟨n', AMap.mem_of_get hn'⟩

/-- C140: a joining node is always told about itself, when there is room; its record takes one of the places in the
answer. It does nothing with it. -/
theorem C140_itself (hc : c.Lawful) (o : Opts c) (adnl : Node.State c) (gid : Bytes) (maxPeers : Nat)
    (ops : List (Op c)) (e : Env c) (j : Joiner c) (k : Nat) (hl : gid.length = 32) (ht : (adnl.peers.get gid).isSome)
    (hw : FromWire ops) (hk : k < 2 ^ 32) (hj : Welcome o gid e.now j) (l : List DNode)
    (h : (join o e (run o (init adnl gid maxPeers) ops) j k).2 = some l) (hlen : l.length < k) :
    ∃ n ∈ l, NodeOk c gid j.id n ∧
      ∀ (o' : Opts c) (now : Nat) (s : State c) (key : c.Sec), s.buckets.localId = j.id →
        (addDhtPeer o' now s n key).1 = s := by
  obtain ⟨l', h', -, hiff⟩ := C140_told_iff hc o adnl gid maxPeers ops e j k hl ht hw hk hj
  rw [h] at h'
  cases h'
  obtain ⟨n, hn, hok⟩ := (hiff hlen j.id).mpr ⟨.inl rfl, dist_self_lt (hc.sha_length _) hl hj.other⟩
  refine ⟨n, hn, hok, fun o' now s key hs => ?_⟩
  obtain ⟨key', pub, h1, h2, h3, -⟩ := hok
  unfold addDhtPeer
  have hf : Receiver.fullId c n.id = some pub := by rw [h1]; exact h2
  rw [hf]
  simp only
  split
  · rfl
  · cases parse o'.adnl.build now o'.adnl.clockTolerance n.addrList with
    | ok a =>
      simp only
      rw [Node.addPeer, if_pos (.inl (by rw [hs, h3]))]
    | _ => rfl

/-- C140: a node that asks without its record (`store_self` is false) leaves the node asked as it is. It is told, when
there is room, about exactly the nodes which the node asked has in its table and which are closer. -/
theorem C140_without_record (hc : c.Lawful) (o : Opts c) (adnl : Node.State c) (gid : Bytes) (maxPeers : Nat)
    (ops : List (Op c)) (e : Env c) (j : Joiner c) (k : Nat) (hl : gid.length = 32) (ht : (adnl.peers.get gid).isSome)
    (hw : FromWire ops) (hk : k < 2 ^ 32) (s : State c) (hs : s = run o (init adnl gid maxPeers) ops) :
    (consumeQuery o e s (nodesQuery j.own j.id k false)).1 = s ∧
    ∃ data l, (consumeQuery o e s (nodesQuery j.own j.id k false)).2.1 = .answer data ∧
      nodesAnswer (some data) = some l ∧ l.length ≤ max k 1 ∧
      (l.length < k → ∀ id, (∃ n ∈ l, NodeOk c gid id n) ↔ Tells s id ∧ Xor.dist id j.id < Xor.dist gid j.id) := by
  have hg := run_asked (o := o) ops hw (init_asked o adnl gid maxPeers ht)
  rw [← hs] at hg
  have hid : j.id.length = 32 := hc.sha_length _
  have hr := hg.reached hc hl
  have hq := C79_consumes_query o e s (.findNode j.id k) ⟨hid, hk⟩ []
  rw [List.append_nil] at hq
  rw [show nodesQuery j.own j.id k false = writeQuery (.findNode j.id k) by simp [nodesQuery, makeQuery]]
  refine ⟨hq.1, _, findNode s j.id k, hq.2, ?_, ?_, fun hlen id => told_iff hc hg hl j.id hid k hlen id⟩
  · simp only [nodesAnswer]
    refine readNodes_write _ ?_ ?_
    · have := Buckets.C26_at_most_k s.buckets hr j.id hid k
      simp only [findNode, List.length_map]
      omega
    · intro n hn
      obtain ⟨⟨id, n'⟩, hm, rfl⟩ := List.mem_map.mp hn
      exact hg.wf _ _ _ (AMap.mem_of_get (Buckets.C26_answers_are_stored_and_closer hr j.id hid k id n' hm).1)
  · rw [findNode, List.length_map]
    exact Buckets.C26_at_most_k _ hr j.id hid k

/-- C140: no answer in time is not an error; nothing is learned. -/
theorem C140_silence (o : Opts c) (now : Nat) (s : State c) :
    ∃ l, nodesAnswer none = some l ∧ ∀ added : List (DNode × c.Sec), added.map (·.1) = l → addEach o now s added = s := by
  refine ⟨[], rfl, fun added h => ?_⟩
  rw [List.map_eq_nil_iff.mp h]
  rfl

/-- C140, the part that holds: of two nodes that join through the same node, the second is told about the first, in a
record that is not older, if there is room and the first is closer to it than the node asked. When it adds the records
it was told and this one is useful to it, it knows the first node. -/
theorem C140_learns_partial (hc : c.Lawful) (o : Opts c) (adnl : Node.State c) (gid : Bytes) (maxPeers : Nat)
    (before between : List (Op c)) (e₁ e₂ : Env c) (j₁ j₂ : Joiner c) (k₁ k₂ : Nat) (l : List DNode)
    (hl : gid.length = 32) (ht : (adnl.peers.get gid).isSome) (hb : FromWire before) (hb' : FromWire between)
    (hk₁ : k₁ < 2 ^ 32) (hk₂ : k₂ < 2 ^ 32) (h₁ : Welcome o gid e₁.now j₁) (h₂ : Welcome o gid e₂.now j₂)
    (hjoin : (join o e₂ (run o (join o e₁ (run o (init adnl gid maxPeers) before) j₁ k₁).1 between) j₂ k₂).2 = some l)
    (hlen : l.length < k₂) (hnear : Xor.dist j₁.id j₂.id < Xor.dist gid j₂.id) :
    ∃ n ∈ l, NodeOk c gid j₁.id n ∧
      ∀ (o' : Opts c) (now : Nat) (s : State c) (added : List (DNode × c.Sec)), HasTable s →
        s.buckets.localId = j₂.id → added.map (·.1) = l → Useful o' now j₂.id n j₁.id →
        KnownPeer (addEach o' now s added) j₁.id := by
  have hg := run_asked (o := o) before hb (init_asked o adnl gid maxPeers ht)
  obtain ⟨h1, -, h3, -, -⟩ := join_eq hc hg hl e₁ j₁ k₁ hk₁ h₁
  have hg₂ := run_asked (o := o) between hb' h1
  obtain ⟨n₁, hn₁, -⟩ := mem_of_tells h1 h3
  obtain ⟨n₂, hn₂, -⟩ := C102_told_for_ever o _ between j₁.id n₁ hn₁
  obtain ⟨h6, h7, -, h9, -⟩ := join_eq hc hg₂ hl e₂ j₂ k₂ hk₂ h₂
  obtain ⟨n₃, hn₃, -⟩ := h9 _ _ hn₂
  rw [h7] at hjoin
  cases hjoin
  obtain ⟨n, hn, hok⟩ := (told_iff hc h6 hl j₂.id (hc.sha_length _) k₂ hlen j₁.id).mpr ⟨⟨n₃, AMap.mem_of_get hn₃⟩, hnear⟩
  refine ⟨n, hn, hok, fun o' now s added hs hloc hadd hu => ?_⟩
  rw [← hadd] at hn
  obtain ⟨⟨m, key⟩, hm, rfl⟩ := List.mem_map.mp hn
  exact C89_lookups_add_all_partial o' now s added hs m key j₁.id hm (hloc ▸ hu)


/-! ### What does not hold -/

namespace Example

/-- The toy node `k` wants to join. -/
def joiner (k : UInt8) : Joiner T := ⟨k, ⟨1, 2, 3, k, 77⟩, 990, 980⟩

theorem joiner_welcome (k : UInt8) (hk : k = 1 ∨ k = 2 ∨ k = 6) : Welcome o localId env.now (joiner k) := by
  refine ⟨?_, ?_, (fun f hf => by cases hf), show 980 ≤ 1000 + 60 by decide, show 1000 + 60 < 2 ^ 32 by decide,
    show 990 < 2 ^ 32 by decide, show 980 < 2 ^ 32 by decide⟩
  · rcases hk with rfl | rfl | rfl <;> decide +kernel
  · rcases hk with rfl | rfl | rfl <;> decide

/-- The toy node 2 joins after the toy node 6: it gets one record, its own. -/
theorem not_told : (join o env (run o (join o env (run o s0 []) (joiner 6) 10).1 []) (joiner 2) 10).2 =
    some [(joiner 2).own] := by decide +kernel

theorem adnl_table : ((⟨[(localId, [])], [], 0, [], []⟩ : Node.State T).peers.get localId).isSome := by decide +kernel

end Example

/-- C140 does not hold as it stands: the node asked only tells about nodes closer to the one that joins than it is
itself. -/
theorem C140_full_false : ¬ C140_full Crypto.toy := fun h => by
  obtain ⟨n, hn, hok⟩ := h Example.o _ Example.localId 100 [] [] Example.env Example.env (Example.joiner 6)
    (Example.joiner 2) 10 10 _ (by decide +kernel) Example.adnl_table (fun _ h => by cases h) (fun _ h => by cases h)
    (by decide) (by decide) (Example.joiner_welcome 6 (by decide)) (Example.joiner_welcome 2 (by decide))
    (by decide +kernel) Example.not_told (by decide)
  rw [List.mem_singleton] at hn
  subst hn
  obtain ⟨key, pub, h1, h2, h3, -⟩ := hok
  cases h1
  rw [Crypto.toy_lawful.decode_pub] at h2
  cases h2
  exact absurd h3 (by decide +kernel)

/-! ### Examples -/

/-- The toy node 2 joins after the toy node 1: it is told about the node 1 and about itself. -/
example : (join Example.o Example.env (run Example.o (join Example.o Example.env (run Example.o Example.s0 [])
    (Example.joiner 1) 10).1 []) (Example.joiner 2) 10).2 = some [(Example.joiner 2).own, (Example.joiner 1).own] := by
  decide +kernel

/-- With one place in the answer it can be told about itself only. -/
example : (join Example.o Example.env (run Example.o Example.s0 []) (Example.joiner 2) 1).2 =
    some [(Example.joiner 2).own] := by decide +kernel

/-- The records of the toy nodes have the widths of the wire. -/
example : FromWire [Dht.Example.learn 1 1] := by
  intro op hop r hr
  rw [List.mem_singleton] at hop
  subst hop
  simp only [Dht.Example.learn, records, List.mem_singleton] at hr
  subst hr
  exact ⟨Crypto.toy_lawful.pub_length _, ⟨fun a ha => by cases ha; decide, by decide, by decide, by decide⟩, by decide, by decide +kernel⟩

example := C140_told_iff Crypto.toy_lawful Example.o _ Example.localId 100 [] Example.env (Example.joiner 2) 10
  (by decide +kernel) Example.adnl_table (fun _ h => by cases h) (by decide) (Example.joiner_welcome 2 (by decide))

example := C140_itself Crypto.toy_lawful Example.o _ Example.localId 100 [] Example.env (Example.joiner 2) 10
  (by decide +kernel) Example.adnl_table (fun _ h => by cases h) (by decide) (Example.joiner_welcome 2 (by decide))
  [(Example.joiner 2).own] (by decide +kernel) (by decide)

example := C140_learns_partial Crypto.toy_lawful Example.o _ Example.localId 100 [] [] Example.env Example.env
  (Example.joiner 1) (Example.joiner 2) 10 10 [(Example.joiner 2).own, (Example.joiner 1).own] (by decide +kernel)
  Example.adnl_table (fun _ h => by cases h) (fun _ h => by cases h) (by decide) (by decide)
  (Example.joiner_welcome 1 (by decide)) (Example.joiner_welcome 2 (by decide)) (by decide +kernel) (by decide)
  (by decide +kernel)

/-- The toy node 2 asks without its record after the toy node 1 joined: it is told about the node 1 only. -/
example : (match (consumeQuery Example.o Example.env (join Example.o Example.env Example.s0 (Example.joiner 1) 10).1
      (nodesQuery (Example.joiner 2).own (Example.joiner 2).id 10 false)).2.1 with
    | .answer data => nodesAnswer (some data)
    | _ => none) = some [(Example.joiner 1).own] := by decide +kernel

-- C140_without_record
example := C140_without_record Crypto.toy_lawful Example.o _ Example.localId 100 [] Example.env (Example.joiner 2) 10
  (by decide +kernel) Example.adnl_table (fun _ h => by cases h) (by decide) _ rfl

-- C140_silence
example := C140_silence Example.o 1000 Example.s0

end Verif.Dht
