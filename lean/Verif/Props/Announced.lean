import Verif.Props.Found
import Verif.Props.OverlayPublish
import Verif.Props.Search

/-!
# C122: a member of an overlay that announced itself is found

What `insert_overlay_nodes` (`src/dht/storage.rs:116-171`) does with lists of overlay members, under everything that
happens to a DHT node, and what `find_overlay_nodes` (`src/dht/node.rs:277-343`) makes of the answers.
-/
namespace Verif.Dht
open Verif.Tl Verif.Address Verif.AdnlProto Verif.DhtProto Verif.Storage
open SearchNet (NoBad Over Near search knownAfter Complete)

variable {c : Crypto}

/-! ### Spec -/

/-- The clocks and the order of hash maps when something happens that may store a value. -/
def Did.env : Did c → Option (Env c)
  | .asked e _ _ _ _ => some e
  | .aside (.query e _) => some e
  | .aside (.publish e _) => some e
  | .aside (.announce e _ _ _) => some e
  | _ => none

/-- Hash maps are iterated in some order. -/
def SomeOrder (ds : List (Did c)) : Prop := ∀ d ∈ ds, ∀ e, d.env = some e → ∀ l, (e.order l).Perm l

/-- All lists ever offered to the node have fewer than 2^32 records together. -/
def FewRecords (o : Opts c) (ds : List (Did c)) : Prop :=
  ∃ b : Did c → Nat, (∀ d ∈ ds, ∀ v nodes, d.offers o v → decodeNodes v.value = some nodes → nodes.length ≤ b d) ∧
    (ds.map b).sum < 2 ^ 32

/-- `w` is a list of members of the same overlay as `v`, all of them with valid signatures, that lasts at least as
long as `v` and has the record `n` or a newer one of the same member. -/
structure HasNode (c : Crypto) (v w : Value) (n : ONode) : Prop where
  key : w.key.key = v.key.key
  owner : w.key.id = v.key.id
  rule : w.key.rule = .overlayNodes
  lasts : v.ttl ≤ w.ttl
  listed : ∃ nodes n', decodeNodes w.value = some nodes ∧ n' ∈ nodes ∧ n'.id = n.id ∧ n.version ≤ n'.version ∧
    ∀ m ∈ nodes, ValidNode c v.key.key.id m

/-- Node records of an overlay were offered to a DHT node after `ds` and acknowledged, one of them the valid record `n`;
`ds'` happened afterwards, before the list expires. -/
structure Announced (o : Opts c) (adnl : Node.State c) (localId : Bytes) (maxPeers : Nat) (ds ds' : List (Did c))
    (e : Env c) (l peer qid data : Bytes) (v : Value) (n : ONode) : Prop where
  offered : Offers data v
  rule : v.key.rule = .overlayNodes
  acknowledged : (consumeQuery o e (replay o (init adnl localId maxPeers) ds) data).2.1 = .answer writeStored
  listed : ∃ sent, decodeNodes v.value = some sent ∧ n ∈ sent
  valid : ValidNode c v.key.key.id n
  noCollision : NoCollision o (ds ++ .asked e l peer qid data :: ds')
  order : SomeOrder (ds ++ .asked e l peer qid data :: ds')
  few : FewRecords o (ds ++ .asked e l peer qid data :: ds')
  clocks : ∀ d ∈ ds', ∀ e', d.env = some e' → e'.now < v.ttl ∧ e'.now' < v.ttl
  collected : ∀ d ∈ ds', ∀ t, d.collects t → t < v.ttl

/-- No list of this overlay that was offered before outlasts `v`, except for lists that had expired. -/
def NoneOutlasts (o : Opts c) (ds : List (Did c)) (e : Env c) (v : Value) : Prop :=
  ∀ d ∈ ds, ∀ w, d.offers o w → w.key.key = v.key.key → w.ttl ≤ v.ttl ∨ w.ttl < e.now'

/-- The property C122: whoever asks the node for the members of the overlay before the list expires is given a list with
this record or a newer one of the same member. -/
def C122_full (c : Crypto) : Prop :=
  ∀ (o : Opts c) (adnl : Node.State c) (localId : Bytes) (maxPeers : Nat) (ds ds' : List (Did c)) (e e' : Env c)
    (l peer qid data question : Bytes) (v : Value) (n : ONode) (k : Nat),
    Announced o adnl localId maxPeers ds ds' e l peer qid data v n → e'.now < v.ttl → 0 < k → k ≤ o.maxK →
    Says question (.findValue (c.sha (writeKeyBoxed v.key.key)) k) →
    ∃ w, (replay o (init adnl localId maxPeers) (ds ++ .asked e l peer qid data :: ds')).storage.get
        (c.sha (writeKeyBoxed v.key.key)) = some w ∧ HasNode c v w n ∧
      (consumeQuery o e' (replay o (init adnl localId maxPeers) (ds ++ .asked e l peer qid data :: ds')) question).2.1 =
        .answer (writeValueResult (.found w))

/-- The lists of members that a search hands out: what it reads from the answers of those that gave a value. -/
def handedOut (c : Crypto) (ask : Bytes → Option Bytes) (found : List Bytes) : List (List ONode) :=
  found.filterMap fun p => (ask p).bind fun a =>
    match parseValueResult c decodeNodes a with
    | .value _ nodes => some nodes
    | _ => none

/-! ### What everything does to the storage, with clocks -/

/-- The operations of the storage something gives rise to. -/
def Did.From (o : Opts c) (d : Did c) : Storage.Op → Prop
  | .insert order now now' v => ∃ e, d.env = some e ∧ order = e.order ∧ now = e.now ∧ now' = e.now' ∧ d.offers o v
  | .gc _ t => d.collects t

theorem handle_op (o : Opts c) (order : List ONode → List ONode) (now now' : Nat) (key : c.Sec) (q : Query) :
    ∀ s : State c, (handle o order now now' key s q).1.storage = s.storage ∨
      ∃ v, q.stored = some v ∧
        (handle o order now now' key s q).1.storage = Storage.run c o.storage s.storage [.insert order now now' v] := by
  induction q with
  | ping r => exact fun s => .inl rfl
  | findNode key k => exact fun s => .inl rfl
  | findValue key k =>
    refine fun s => .inl ?_
    rw [handle]
    split <;> rfl
  | getSignedAddressList => exact fun s => .inl rfl
  | store v =>
    refine fun s => .inr ⟨v, rfl, ?_⟩
    rw [handle]
    show _ = (Storage.insert c o.storage order now now' s.storage v).1
    split <;> rename_i h <;> rw [h]
  | withNode node q ih =>
    intro s
    rw [handle]
    have hs := addDhtPeer_storage o now s node key
    generalize hx : addDhtPeer o now s node key = x at hs
    obtain ⟨s', r⟩ := x
    simp only at hs
    cases r with
    | error => exact .inl hs
    | none => rw [← hs]; exact ih s'
    | some id => rw [← hs]; exact ih s'

theorem did_op (o : Opts c) (s : State c) (d : Did c) : (d.step o s).storage = s.storage ∨
    ∃ op, d.From o op ∧ (d.step o s).storage = Storage.run c o.storage s.storage [op] := by
  have hq : ∀ (e : Env c) (data : Bytes), (consumeQuery o e s data).1.storage = s.storage ∨
      ∃ v, Offers data v ∧ (consumeQuery o e s data).1.storage =
        Storage.run c o.storage s.storage [.insert e.order e.now e.now' v] := by
    intro e data
    by_cases h : ∃ q, Says data q
    · obtain ⟨q, hq⟩ := h
      rw [(C79_does_what_it_says o e s data q hq).1]
      rcases handle_op o e.order e.now e.now' e.channelKey q s with h | ⟨v, h1, h2⟩
      · exact .inl h
      · exact .inr ⟨v, ⟨q, hq, h1⟩, h2⟩
    · exact .inl (C79_nothing_else o e s data (fun q hq => h ⟨q, hq⟩)).2.2
  cases d with
  | asked e l p qid data =>
    rcases hq e data with h | ⟨v, h1, h2⟩
    · exact .inl h
    · exact .inr ⟨.insert e.order e.now e.now' v, ⟨e, rfl, rfl, rfl, rfl, h1⟩, h2⟩
  | other ev y => exact .inl rfl
  | aside a =>
    cases a with
    | query e data =>
      rcases hq e data with h | ⟨v, h1, h2⟩
      · exact .inl h
      · exact .inr ⟨.insert e.order e.now e.now' v, ⟨e, rfl, rfl, rfl, rfl, h1⟩, h2⟩
    | publish e v => exact .inr ⟨.insert e.order e.now e.now' v, ⟨e, rfl, rfl, rfl, rfl, rfl⟩, storeNew_ops o e s v⟩
    | announce e ttl fullId node =>
      show (storeOverlayNode o e ttl s fullId node).1.storage = _ ∨ ∃ op, _ ∧ (storeOverlayNode o e ttl s fullId node).1.storage = _
      unfold storeOverlayNode
      split
      · exact .inl rfl
      · cases h : overlayValue c o.adnl.build e.now ttl fullId node with
        | none => exact .inl rfl
        | some v => exact .inr ⟨.insert e.order e.now e.now' v, ⟨e, rfl, rfl, rfl, rfl, h⟩, storeNew_ops o e s v⟩
    | learn now key node => exact .inl (addDhtPeer_storage o now s node key)
    | collect shard now => exact .inr ⟨.gc shard now, rfl, rfl⟩
    | asked peer r => exact .inl rfl

theorem total_append (a b : List Storage.Op) : total (a ++ b) = total a + total b := by
  unfold total
  rw [values_append, List.map_append, List.sum_append]

theorem replay_from (o : Opts c) (b : Did c → Nat) (ds : List (Did c)) : ∀ s : State c,
    (∀ d ∈ ds, ∀ v nodes, d.offers o v → decodeNodes v.value = some nodes → nodes.length ≤ b d) →
    ∃ ops, (replay o s ds).storage = Storage.run c o.storage s.storage ops ∧
      (∀ op ∈ ops, ∃ d ∈ ds, d.From o op) ∧ total ops ≤ (ds.map b).sum := by
  induction ds with
  | nil => exact fun s _ => ⟨[], rfl, by simp, Nat.le_refl _⟩
  | cons d ds ih =>
    intro s hb
    obtain ⟨ops', g1, g2, g3⟩ := ih (d.step o s) (fun d' hd' => hb d' (List.mem_cons_of_mem _ hd'))
    have hb' := hb d List.mem_cons_self
    rcases did_op o s d with h | ⟨op, h1, h2⟩
    · refine ⟨ops', by rw [← h]; exact g1, fun op hop => ?_, ?_⟩
      · obtain ⟨d', a, h⟩ := g2 op hop
        exact ⟨d', List.mem_cons_of_mem _ a, h⟩
      · rw [List.map_cons, List.sum_cons]; omega
    · refine ⟨op :: ops', ?_, fun op' hop => ?_, ?_⟩
      · show (replay o (d.step o s) ds).storage = _
        rw [g1, h2]; rfl
      · rcases List.mem_cons.mp hop with rfl | hop
        · exact ⟨d, List.mem_cons_self, h1⟩
        · obtain ⟨d', a, h⟩ := g2 op' hop
          exact ⟨d', List.mem_cons_of_mem _ a, h⟩
      · rw [List.map_cons, List.sum_cons, total_cons]
        refine Nat.add_le_add ?_ g3
        cases op with
        | gc shard t => simp [total, values]
        | insert order now now' v =>
          obtain ⟨e, -, -, -, -, ho⟩ := h1
          simp only [total, values, List.map_cons, List.map_nil, List.sum_cons, List.sum_nil, Nat.add_zero, count]
          cases hn : decodeNodes v.value with
          | none => simp
          | some nodes => simpa using hb' v nodes ho hn

theorem mem_values {ops : List Storage.Op} {v : Value} (h : v ∈ values ops) : ∃ order now now', Storage.Op.insert order now now' v ∈ ops := by
  induction ops with
  | nil => cases h
  | cons op ops ih =>
    cases op with
    | gc shard t =>
      obtain ⟨a, b, d, h⟩ := ih h
      exact ⟨a, b, d, List.mem_cons_of_mem _ h⟩
    | insert order now now' w =>
      rcases List.mem_cons.mp h with rfl | h
      · exact ⟨_, _, _, List.mem_cons_self⟩
      · obtain ⟨a, b, d, h⟩ := ih h
        exact ⟨a, b, d, List.mem_cons_of_mem _ h⟩

theorem values_offered {o : Opts c} {ds : List (Did c)} {ops : List Storage.Op} (h : ∀ op ∈ ops, ∃ d ∈ ds, d.From o op)
    {v : Value} (hv : v ∈ values ops) : ∃ d ∈ ds, d.offers o v := by
  obtain ⟨a, b, e, hm⟩ := mem_values hv
  obtain ⟨d, hd, e', -, -, -, -, ho⟩ := h _ hm
  exact ⟨d, hd, ho⟩

/-- A stored value has key, expiry and signature of one that was inserted. -/
theorem run_source_ttl (o : Storage.Opts) (ops : List Storage.Op) : ∀ (st : St) (k : Bytes) (w : Value),
    (k, w) ∈ Storage.run c o st ops → (k, w) ∈ st ∨
      ∃ v ∈ values ops, v.key = w.key ∧ v.ttl = w.ttl ∧ v.signature = w.signature := by
  induction ops with
  | nil => exact fun st k w h => .inl h
  | cons op ops ih =>
    intro st k w h
    rcases ih (Storage.step c o st op) k w h with h | ⟨v, h1, h2⟩
    · cases op with
      | gc shard now => exact .inl (List.mem_filter.mp h).1
      | insert order now now' v =>
        have he := insert_effect (c := c) o order now now' st v
        change (k, w) ∈ (Storage.insert c o order now now' st v).1 at h
        generalize (Storage.insert c o order now now' st v).1 = st' at he h
        generalize (Storage.insert c o order now now' st v).2 = res at he
        cases he with
        | refused => exact .inl h
        | kept => exact .inl h
        | signed =>
          rcases AMap.mem_put.mp h with h | ⟨h, -⟩
          · obtain ⟨-, rfl⟩ := Prod.mk.inj h
            exact .inr ⟨_, List.mem_cons_self, rfl, rfl, rfl⟩
          · exact .inl h
        | overlay new old ht hn hi hk hr hs hv =>
          rcases AMap.mem_put.mp h with h | ⟨h, -⟩
          · obtain ⟨-, rfl⟩ := Prod.mk.inj h
            exact .inr ⟨v, List.mem_cons_self, rfl, rfl, rfl⟩
          · exact .inl h
    · refine .inr ⟨v, ?_, h2⟩
      cases op with
      | insert => exact List.mem_cons_of_mem _ h1
      | gc => exact h1

/-- A list is acknowledged without being taken only if a living list outlasts it. -/
theorem insert_list_kept (o : Storage.Opts) (order : List ONode → List ONode) (now now' : Nat) (st st' : St) (v : Value)
    (hr : v.key.rule = .overlayNodes) (h : Storage.insert c o order now now' st v = (st', .ok false)) :
    ∃ old, st.get (storageKey c v.key.key) = some old ∧ now' ≤ old.ttl ∧ v.ttl < old.ttl := by
  unfold Storage.insert at h
  split at h
  · cases h
  split at h
  · cases h
  split at h
  · cases h
  rw [hr] at h
  simp only at h
  unfold insertOverlay at h
  cases hs : overlayOk c v with
  | error er => rw [hs] at h; cases h
  | ok new =>
    rw [hs] at h
    simp only at h
    cases hg : st.get (storageKey c v.key.key) with
    | none => rw [hg] at h; simp at h
    | some old =>
      rw [hg] at h
      simp only at h
      split at h
      · simp at h
      · split at h
        · exact ⟨old, rfl, by omega, by omega⟩
        · split at h
          · simp at h
          · simp at h

theorem insert_list_checks (o : Storage.Opts) (order : List ONode → List ONode) (now now' : Nat) (st st' : St) (v : Value)
    (b : Bool) (hr : v.key.rule = .overlayNodes) (h : Storage.insert c o order now now' st v = (st', .ok b)) :
    v.key.key.id = c.sha (writePubKey v.key.id) ∧ isOverlay v.key.id = true := by
  unfold Storage.insert at h
  split at h
  · cases h
  split at h
  · cases h
  split at h
  · cases h
  rename_i hk
  rw [hr] at h
  simp only at h
  unfold insertOverlay at h
  cases hs : overlayOk c v with
  | error er => rw [hs] at h; cases h
  | ok new =>
    obtain ⟨-, -, g3, -⟩ := overlayOk_some hs
    exact ⟨by simpa using hk, g3⟩

/-! ### C122 -/

/-- **C122, partial** (in the storage). A node acknowledged a list with the valid record `n`, and no list offered before
for this overlay outlasts it (except for lists that have expired). Until it expires, the node has a list with this
record or a newer one of the same member. -/
theorem C122_listed_partial (o : Opts c) (adnl : Node.State c) (localId : Bytes) (maxPeers : Nat) (ds ds' : List (Did c))
    (e : Env c) (l peer qid data : Bytes) (v : Value) (n : ONode)
    (h : Announced o adnl localId maxPeers ds ds' e l peer qid data v n) (hold : NoneOutlasts o ds e v) :
    ∃ w, (replay o (init adnl localId maxPeers) (ds ++ .asked e l peer qid data :: ds')).storage.get
        (c.sha (writeKeyBoxed v.key.key)) = some w ∧ HasNode c v w n ∧
      ∃ d ∈ ds ++ .asked e l peer qid data :: ds', ∃ u, d.offers o u ∧ u.key = w.key ∧ u.ttl = w.ttl ∧ u.signature = w.signature := by
  obtain ⟨⟨q, hq, hqv⟩, hr, hack, ⟨sent, hsent, hn⟩, hval, hno, hord, ⟨b, hb, hsum⟩, hclk, hgc⟩ := h
  have hlast : (Did.asked e l peer qid data).offers o v := ⟨q, hq, hqv⟩
  have hmem : Did.asked e l peer qid data ∈ ds ++ .asked e l peer qid data :: ds' := by simp
  obtain ⟨ops, h1, h2, h3⟩ := replay_from o b ds (init adnl localId maxPeers) (fun d hd => hb d (by simp [hd]))
  change (replay o (init adnl localId maxPeers) ds).storage = Storage.run c o.storage [] ops at h1
  rw [replay_append]
  generalize replay o (init adnl localId maxPeers) ds = s at h1 hack ⊢
  show ∃ w, (replay o (consumeQuery o e s data).1 ds').storage.get _ = some w ∧ _
  rw [(C79_does_what_it_says o e s data q hq).2] at hack
  obtain ⟨bb, hins⟩ := acknowledged o e q v hqv s hack
  rw [← (C79_does_what_it_says o e s data q hq).1] at hins
  obtain ⟨ops', k1, k2, k3⟩ := replay_from o b ds' (consumeQuery o e s data).1 (fun d hd => hb d (by simp [hd]))
  have hop : (consumeQuery o e s data).1.storage = Storage.run c o.storage [] (ops ++ [.insert e.order e.now e.now' v]) := by
    rw [run_append, ← h1]
    show _ = (Storage.insert c o.storage e.order e.now e.now' s.storage v).1
    rw [hins]
  -- the whole history
  have hfrom : ∀ op ∈ (ops ++ [.insert e.order e.now e.now' v]) ++ ops', ∃ d ∈ ds ++ .asked e l peer qid data :: ds', d.From o op := by
    intro op hop
    rcases List.mem_append.mp hop with hop | hop
    · rcases List.mem_append.mp hop with hop | hop
      · obtain ⟨d, hd, h⟩ := h2 op hop
        exact ⟨d, by simp [hd], h⟩
      · rw [List.mem_singleton.mp hop]
        exact ⟨_, hmem, e, rfl, rfl, rfl, rfl, hlast⟩
    · obtain ⟨d, hd, h⟩ := k2 op hop
      exact ⟨d, by simp [hd], h⟩
  have hH : History c ((ops ++ [.insert e.order e.now e.now' v]) ++ ops') := by
    refine ⟨fun x hx y hy => hno x y (values_offered hfrom hx) (values_offered hfrom hy), ?_, ?_⟩
    · intro op hop
      obtain ⟨d, hd, h⟩ := hfrom op hop
      cases op with
      | gc shard t => trivial
      | insert order now now' x =>
        obtain ⟨e', he', rfl, -⟩ := h
        exact hord d hd e' he'
    · have hc : total [Storage.Op.insert e.order e.now e.now' v] ≤ b (.asked e l peer qid data) := by
        simp only [total, values, List.map_cons, List.map_nil, List.sum_cons, List.sum_nil, Nat.add_zero, count, hsent, Option.getD_some]
        exact hb _ hmem v sent hlast hsent
      rw [List.map_append, List.map_cons, List.sum_append, List.sum_cons] at hsum
      rw [total_append, total_append]
      omega
  -- a stored value under this key is a list for the same overlay
  have hkk : v.key.key.id = c.sha (writePubKey v.key.id) ∧ isOverlay v.key.id = true :=
    insert_list_checks o.storage e.order e.now e.now' s.storage _ v bb hr hins
  have hsame : ∀ ops0, (∀ op ∈ ops0, ∃ d ∈ ds ++ .asked e l peer qid data :: ds', d.From o op) → ∀ w,
      (Storage.run c o.storage [] ops0).get (storageKey c v.key.key) = some w →
      w.key.key = v.key.key ∧ w.key.id = v.key.id ∧ w.key.rule = .overlayNodes ∧
        ∃ u ∈ values ops0, u.key = w.key ∧ u.ttl = w.ttl ∧ u.signature = w.signature := by
    intro ops0 hf w hg
    have hok := C29_entries_are_authentic (c := c) o.storage ops0 _ w hg
    rcases run_source_ttl o.storage ops0 [] _ w (AMap.mem_of_get hg) with h | ⟨u, hu, hku, hut, hus⟩
    · cases h
    have hnc : ¬ Collide c v u := hno v u ⟨_, hmem, hlast⟩ (values_offered hf hu)
    have hkey : w.key.key = v.key.key := by
      by_contra hne
      exact hnc (.inl ⟨by rw [hku]; exact fun h => hne h.symm, by rw [hku, ← hok.key]; rfl⟩)
    have hid : w.key.id = v.key.id := by
      by_contra hne
      refine hnc (.inr ⟨by rw [hku]; exact fun h => hne h.symm, ?_⟩)
      rw [hku, ← hok.owner, hkey, hkk.1]
    refine ⟨hkey, hid, ?_, u, hu, hku, hut, hus⟩
    rcases hok.rule with ⟨-, key, pub, h', -⟩ | h
    · have := hkk.2
      rw [← hid, h'] at this
      cases this
    · exact h.1
  have hf1 : ∀ op ∈ ops, ∃ d ∈ ds ++ .asked e l peer qid data :: ds', d.From o op := fun op hop => hfrom op (by simp [hop])
  have hf2 : ∀ op ∈ ops ++ [.insert e.order e.now e.now' v], ∃ d ∈ ds ++ .asked e l peer qid data :: ds', d.From o op :=
    fun op hop => hfrom op (List.mem_append_left _ hop)
  -- it is taken
  have htrue : (Storage.insert c o.storage e.order e.now e.now' (Storage.run c o.storage [] ops) v).2 = .ok true := by
    rw [← h1, hins]
    cases bb with
    | true => rfl
    | false =>
      exfalso
      obtain ⟨old, g1, g2, g3⟩ := insert_list_kept o.storage e.order e.now e.now' s.storage _ v hr hins
      rw [h1] at g1
      obtain ⟨a1, -, -, u, hu, a2, a3, -⟩ := hsame ops hf1 old g1
      obtain ⟨d, hd, hd'⟩ := values_offered h2 hu
      rcases hold d hd u hd' (by rw [a2]; exact a1) with h | h <;> omega
  obtain ⟨sent', old, res, w0, m1, -, m3, m4, m5, -, -, m8⟩ := C31_merge o.storage ops e.order e.now e.now' v hH.prefix hr htrue
  rw [hsent] at m1
  cases m1
  obtain ⟨n0, hn0, hid0, hver0⟩ := m8 n (.inr ⟨hn, by rw [← hkk.1]; exact hval⟩)
  obtain ⟨-, -, hr0, -⟩ := hsame _ hf2 w0 m3
  obtain ⟨w, nodes, f1, f2, f3, f4⟩ := C31_nodes_stay_while_alive o.storage ops' _ _ w0 res hH m3 hr0 m5 (by
    intro op hop
    obtain ⟨d, hd, h⟩ := k2 op hop
    rw [m4]
    cases op with
    | gc shard t => exact hgc d hd t h
    | insert order now now' x =>
      obtain ⟨e', he', rfl, rfl, rfl, -⟩ := h
      exact hclk d hd e' he')
  obtain ⟨s1, s2, s3, u, hu, s4⟩ := hsame _ hfrom w f1
  obtain ⟨n', hn', hid', hver'⟩ := f4 n0 hn0
  obtain ⟨nodes2, v1, -, v3⟩ := C31_stored_lists_are_valid o.storage _ hH _ w f1 s3
  rw [f3] at v1
  cases v1
  obtain ⟨d, hd, hd'⟩ := values_offered hfrom hu
  refine ⟨w, ?_, ⟨s1, s2, s3, by omega, nodes, n', f3, hn', hid'.trans hid0, by omega, ?_⟩, d, hd, u, hd', s4⟩
  · rw [k1, hop, ← run_append]
    exact f1
  · rw [hkk.1, ← s2]
    exact v3

/-- A stored value that has not expired is the answer to whoever asks for it. -/
theorem answer_found (o : Opts c) (e : Env c) (s : State c) {key : Bytes} {w : Value} (hg : s.storage.get key = some w)
    (ht : e.now < w.ttl) {k : Nat} (hk0 : 0 < k) (hk : k ≤ o.maxK) {question : Bytes} (hq : Says question (.findValue key k)) :
    (consumeQuery o e s question).2.1 = .answer (writeValueResult (.found w)) := by
  rw [(C79_does_what_it_says o e s question _ hq).2, handle]
  have : findValue o e.now s key k = some (.found w) := by
    unfold findValue
    rw [if_neg (by omega), (C28_lookup_is_live s.storage _ e.now w).mpr ⟨hg, ht⟩]
  rw [this]
  rfl

/-- **C122, partial** (asking the node). If no list offered before outlasts the acknowledged one, whoever asks the node
for the members of the overlay before the list expires is given a list with the record or a newer one of the same
member. Missing: lists that outlast it, see `C122_full_false`. -/
theorem C122_found_partial (o : Opts c) (adnl : Node.State c) (localId : Bytes) (maxPeers : Nat) (ds ds' : List (Did c))
    (e e' : Env c) (l peer qid data question : Bytes) (v : Value) (n : ONode) (k : Nat)
    (h : Announced o adnl localId maxPeers ds ds' e l peer qid data v n) (hold : NoneOutlasts o ds e v)
    (hnow : e'.now < v.ttl) (hk0 : 0 < k) (hk : k ≤ o.maxK)
    (hq : Says question (.findValue (c.sha (writeKeyBoxed v.key.key)) k)) :
    ∃ w, (replay o (init adnl localId maxPeers) (ds ++ .asked e l peer qid data :: ds')).storage.get
        (c.sha (writeKeyBoxed v.key.key)) = some w ∧ HasNode c v w n ∧
      (consumeQuery o e' (replay o (init adnl localId maxPeers) (ds ++ .asked e l peer qid data :: ds')) question).2.1 =
        .answer (writeValueResult (.found w)) := by
  obtain ⟨w, h1, h2, -⟩ := C122_listed_partial o adnl localId maxPeers ds ds' e l peer qid data v n h hold
  have := h2.lasts
  exact ⟨w, h1, h2, answer_found o e' _ h1 (by omega) hk0 hk hq⟩

/-- **C122, partial** (searching). Node `p` acknowledged the list some time; the search asks it some time later, before
the list expires. One of the lists handed out has the record or a newer one of the same member, and all records of
this list have valid signatures. The lists must be short enough to be sent: below 16 MB. -/
theorem C122_search_partial {cfg : Lookup.Cfg} (hs : Lookup.SortOk cfg.sort)
    (accept : List DNode → List Bytes) (ask : Bytes → Option Bytes) {known : List Bytes} (hn : known.Nodup)
    (bad : Bytes → Bool) (evs : List SearchNet.Ev)
    (ho : Over cfg (search cfg (asNet c decodeNodes accept ask) known bad evs)) {p : Bytes}
    (hp : p ∈ (search cfg (asNet c decodeNodes accept ask) known bad evs).stream.asked)
    (o : Opts c) (adnl : Node.State c) (localId : Bytes) (maxPeers : Nat) (ds ds' : List (Did c))
    (e e' : Env c) (l peer qid data question : Bytes) (v : Value) (n : ONode) (k : Nat)
    (h : Announced o adnl localId maxPeers ds ds' e l peer qid data v n) (hold : NoneOutlasts o ds e v)
    (hown : ∀ d ∈ ds ++ .asked e l peer qid data :: ds', ∀ a w, d = .aside a → d.offers o w → w.wf)
    (hlen : ∀ w, (replay o (init adnl localId maxPeers) (ds ++ .asked e l peer qid data :: ds')).storage.get
      (c.sha (writeKeyBoxed v.key.key)) = some w → w.value.length < 2 ^ 24)
    (hnow : e'.now < v.ttl) (hk0 : 0 < k) (hk : k ≤ o.maxK)
    (hq : Says question (.findValue (c.sha (writeKeyBoxed v.key.key)) k))
    (hask : ask p = (consumeQuery o e' (replay o (init adnl localId maxPeers) (ds ++ .asked e l peer qid data :: ds'))
      question).2.1.toAsker) :
    p ∈ (search cfg (asNet c decodeNodes accept ask) known bad evs).found ∧
      ∃ nodes ∈ handedOut c ask (search cfg (asNet c decodeNodes accept ask) known bad evs).found,
        (∃ n' ∈ nodes, n'.id = n.id ∧ n.version ≤ n'.version) ∧ ∀ m ∈ nodes, ValidNode c v.key.key.id m := by
  obtain ⟨w, h1, h2, d, hd, u, h3, h4, h5, h6⟩ :=
    C122_listed_partial o adnl localId maxPeers ds ds' e l peer qid data v n h hold
  have hlast := h2.lasts
  rw [answer_found o e' _ h1 (by omega) hk0 hk hq] at hask
  have hu : u.wf := by
    cases d with
    | asked e l peer qid data => obtain ⟨q, g1, g2⟩ := h3; exact says_stored_wf g1 _ g2
    | other ev y => exact h3.elim
    | aside a => exact hown _ hd a u rfl h3
  have hw : w.wf := ⟨h4 ▸ hu.1, hlen w h1, h5 ▸ hu.2.2.1, h6 ▸ hu.2.2.2⟩
  obtain ⟨nodes, n', g1, g2, g3, g4, g5⟩ := h2.listed
  have hread : parseValueResult c decodeNodes (writeValueResult (.found w)) = .value w.key nodes := by
    have hr := valueResult_encodes (.found w) hw []
    rw [List.append_nil] at hr
    unfold parseValueResult
    rw [hr]
    simp only
    rw [if_neg (by rw [h2.rule]; simp), g1]
  have hfound : p ∈ (search cfg (asNet c decodeNodes accept ask) known bad evs).found := by
    have hnet : asNet c decodeNodes accept ask p = .value := by
      unfold asNet
      rw [hask]
      simp only [Reply.toAsker, hread]
    have hi := SearchNet.run_inv (net := asNet c decodeNodes accept ask) hs evs (SearchNet.start_inv hs hn bad)
    have ht := SearchNet.run_told hs evs (SearchNet.start_inv hs hn bad)
      (SearchNet.start_told cfg (asNet c decodeNodes accept ask) known bad)
    rw [show (search cfg (asNet c decodeNodes accept ask) known bad evs).found = _ from ht.found]
    exact List.mem_filter.mpr ⟨(SearchNet.over_seen hi ho).2.mem_iff.mp hp, by simpa using hnet⟩
  refine ⟨hfound, nodes, List.mem_filterMap.mpr ⟨p, hfound, ?_⟩, ⟨n', g2, g3, g4⟩, g5⟩
  rw [hask]
  simp only [Reply.toAsker, Option.bind_some, hread]

theorem valid_peerId {overlay : Bytes} {n : ONode} (h : ValidNode c overlay n) : ∃ id, peerId c n = some id := by
  obtain ⟨key, pub, h1, h2, -⟩ := h
  exact ⟨Node.shortId c pub, by simp [peerId, Receiver.fullId, h1, h2]⟩

/-- **C122, partial** (from announcing to finding). If the first search of `find_overlay_nodes` asks node `p` and the
address of the member can be found, then `find_overlay_nodes` ends after that search, and the member is in its
result with that address. -/
theorem C122_discovered_partial {cfg : Lookup.Cfg} (hs : Lookup.SortOk cfg.sort)
    (accept : List DNode → List Bytes) (ask : Bytes → Option Bytes) {known : List Bytes} (hn : known.Nodup)
    (bad : Bytes → Bool) (evs : List SearchNet.Ev)
    (ho : Over cfg (search cfg (asNet c decodeNodes accept ask) known bad evs)) {p : Bytes}
    (hp : p ∈ (search cfg (asNet c decodeNodes accept ask) known bad evs).stream.asked)
    (o : Opts c) (adnl : Node.State c) (localId : Bytes) (maxPeers : Nat) (ds ds' : List (Did c))
    (e e' : Env c) (l peer qid data question : Bytes) (v : Value) (n : ONode) (k : Nat)
    (h : Announced o adnl localId maxPeers ds ds' e l peer qid data v n) (hold : NoneOutlasts o ds e v)
    (hown : ∀ d ∈ ds ++ .asked e l peer qid data :: ds', ∀ a w, d = .aside a → d.offers o w → w.wf)
    (hlen : ∀ w, (replay o (init adnl localId maxPeers) (ds ++ .asked e l peer qid data :: ds')).storage.get
      (c.sha (writeKeyBoxed v.key.key)) = some w → w.value.length < 2 ^ 24)
    (hnow : e'.now < v.ttl) (hk0 : 0 < k) (hk : k ≤ o.maxK)
    (hq : Says question (.findValue (c.sha (writeKeyBoxed v.key.key)) k))
    (hask : ask p = (consumeQuery o e' (replay o (init adnl localId maxPeers) (ds ++ .asked e l peer qid data :: ds'))
      question).2.1.toAsker)
    (r : Round) (rs : List Round) (hord : Orders [r])
    (hr : r.received = handedOut c ask (search cfg (asNet c decodeNodes accept ask) known bad evs).found)
    (id : Bytes) (hid : peerId c n = some id) (addr : SockAddr) (ha : r.address id = some addr) :
    ∃ res m, findOverlay c Search.start (r :: rs) = some res ∧ (addr, m) ∈ res ∧ peerId c m = some id := by
  obtain ⟨-, nodes, g1, ⟨n', g2, g3, -⟩, -⟩ := C122_search_partial hs accept ask hn bad evs ho hp o adnl localId maxPeers ds ds'
    e e' l peer qid data question v n k h hold hown hlen hnow hk0 hk hq hask
  have hrec : Received c r id := ⟨n', List.mem_flatten.mpr ⟨nodes, hr ▸ g1, g2⟩, by rw [peerId, g3]; exact hid⟩
  cases hf : findOverlay c Search.start [r] with
  | none =>
    have := ((C91_goes_on_partial [r] hord).mp hf [] r [] rfl).2 id hrec (by simp)
    rw [ha] at this
    cases this
  | some res =>
    obtain ⟨-, mid, r', post, h1, -, h2⟩ := C90_search_results [r] hord res hf
    have hmid : mid = [] ∧ r' = r := by
      cases mid with
      | nil => simp only [List.nil_append, List.cons.injEq] at h1; exact ⟨rfl, h1.1.symm⟩
      | cons x xs => simp at h1
    obtain ⟨rfl, rfl⟩ := hmid
    obtain ⟨m, h3, h4⟩ := h2 id addr hrec (by simp) ha
    refine ⟨res, m, ?_, h3, h4⟩
    rw [findOverlay] at hf ⊢
    generalize searchTurn c Search.start r' = x at hf ⊢
    obtain ⟨s', b⟩ := x
    cases b with
    | true => exact hf
    | false => cases hf

/-! ### The negation, and examples -/

namespace AnnouncedExample
open SearchNet.Example (ids wholeCfg two)
open Storage.Example (node)

/-- Toy node 1 announced itself first. -/
def first (ttl : Nat) : Value := Storage.Example.overlayValue [node 1 5] ttl

/-- Then toy node 2 announces itself; a record with a wrong signature is in the list as well. -/
def second : Value := Storage.Example.overlayValue [node 2 7, { node 4 1 with signature := [1] }] 3620

def storeQ (v : Value) : Bytes := writeQuery (.store v)
def findQ : Bytes := writeQuery (.findValue (Crypto.toy.sha (writeKeyBoxed second.key.key)) 5)
def qid : Bytes := List.replicate 32 4

def adnl : Node.State Crypto.toy := ⟨[(Example.localId, [])], [], 0, [], []⟩

def did (v : Value) : Did Crypto.toy :=
  .asked Example.env (Delivery.toyPair.id true) (Delivery.toyPair.id false) qid (storeQ v)

/-- Later expired values are dropped, and another peer asks for the members. -/
def after : List (Did Crypto.toy) := [.aside (.collect (fun _ => true) 1500), .aside (.query Example.env findQ)]

theorem first_wf {ttl : Nat} (h : ttl < 2 ^ 32) : (first ttl).wf := by
  have h0 : (first 0).value.length < 2 ^ 24 := by decide +kernel
  refine ⟨⟨⟨Crypto.toy_lawful.sha_length _, ?_, ?_⟩, ?_, ?_⟩, h0, h, ?_⟩
  · show keyNodes.length < 2 ^ 24
    decide
  · exact (by decide : 0 < 2 ^ 32)
  · show ([7] : Bytes).length < 2 ^ 24
    decide
  · exact (by decide : 0 < 2 ^ 24)
  · exact (by decide : 0 < 2 ^ 24)

theorem second_wf : second.wf := by
  refine ⟨⟨⟨Crypto.toy_lawful.sha_length _, by decide, by decide⟩, ?_, by decide⟩, by decide +kernel, by decide, by decide⟩
  show ([7] : Bytes).length < 2 ^ 24
  decide

theorem store_says {v : Value} (h : v.wf) : Says (storeQ v) (.store v) := by
  have := says_write (.store v) h []
  rwa [List.append_nil] at this

theorem find_says : Says findQ (.findValue (Crypto.toy.sha (writeKeyBoxed second.key.key)) 5) := by
  have := says_write (.findValue (Crypto.toy.sha (writeKeyBoxed second.key.key)) 5) ⟨Crypto.toy_lawful.sha_length _, by decide⟩ []
  rwa [List.append_nil] at this

theorem offers_only {v : Value} (h : v.wf) : ∀ w, Offers (storeQ v) w → w = v := by
  rintro w ⟨q, h1, h2⟩
  cases says_unique (store_says h) h1
  exact (Option.some.inj h2).symm

theorem offered {ttl : Nat} (ht : ttl < 2 ^ 32) {w : Value} {d : Did Crypto.toy} (hd : d ∈ [did (first ttl)] ++ did second :: after)
    (hw : d.offers Example.o w) : w = first ttl ∨ w = second := by
  simp only [after, List.cons_append, List.nil_append, List.mem_cons, List.not_mem_nil, or_false] at hd
  rcases hd with rfl | rfl | rfl | rfl
  · exact .inl (offers_only (first_wf ht) w hw)
  · exact .inr (offers_only second_wf w hw)
  · exact hw.elim
  · obtain ⟨q, h1, h2⟩ := hw
    cases says_unique find_says h1
    cases h2

theorem first_nodes (ttl : Nat) : decodeNodes (first ttl).value = some [node 1 5] := by
  show decodeNodes (first 0).value = _
  decide +kernel

theorem second_nodes : decodeNodes second.value = some [node 2 7, { node 4 1 with signature := [1] }] := by decide +kernel

theorem second_valid : ValidNode Crypto.toy second.key.key.id (node 2 7) := (verifyONode_iff _ _).mp (by decide +kernel)

theorem no_collision {ttl : Nat} (ht : ttl < 2 ^ 32) : NoCollision Example.o ([did (first ttl)] ++ did second :: after) := by
  rintro x y ⟨d, hd, hx⟩ ⟨d', hd', hy⟩
  rcases offered ht hd hx with rfl | rfl <;> rcases offered ht hd' hy with rfl | rfl <;>
    (rintro (⟨h, -⟩ | ⟨h, -⟩) <;> exact h rfl)

theorem env_only {ttl : Nat} {d : Did Crypto.toy} (hd : d ∈ [did (first ttl)] ++ did second :: after) {e : Env Crypto.toy}
    (he : d.env = some e) : e = Example.env := by
  simp only [after, List.cons_append, List.nil_append, List.mem_cons, List.not_mem_nil, or_false] at hd
  rcases hd with rfl | rfl | rfl | rfl
  · exact (Option.some.inj he).symm
  · exact (Option.some.inj he).symm
  · cases he
  · exact (Option.some.inj he).symm

theorem few {ttl : Nat} (ht : ttl < 2 ^ 32) : FewRecords Example.o ([did (first ttl)] ++ did second :: after) := by
  refine ⟨fun _ => 2, fun d hd x nodes hx hn => ?_, ?_⟩
  · rcases offered ht hd hx with rfl | rfl
    · rw [first_nodes] at hn
      cases hn
      exact (by decide : 1 ≤ 2)
    · rw [second_nodes] at hn
      cases hn
      exact (by decide : 2 ≤ 2)
  · simp [after]

theorem collected : ∀ d ∈ after, ∀ t, d.collects t → t < second.ttl := by
  intro d hd t h
  simp only [after, List.mem_cons, List.not_mem_nil, or_false] at hd
  rcases hd with rfl | rfl
  · have : t = 1500 := h
    rw [this]; decide
  · exact h.elim

theorem clocks : ∀ d ∈ after, ∀ e, d.env = some e → e.now < second.ttl ∧ e.now' < second.ttl := by
  intro d hd e he
  rw [env_only (ttl := 0) (List.mem_append_right _ (List.mem_cons_of_mem _ hd)) he]
  decide

theorem announced {ttl : Nat} (ht : ttl < 2 ^ 32)
    (hack : (consumeQuery Example.o Example.env (replay Example.o (init adnl Example.localId 100)
      [did (first ttl)]) (storeQ second)).2.1 = .answer writeStored) :
    Announced Example.o adnl Example.localId 100 [did (first ttl)] after Example.env
      (Delivery.toyPair.id true) (Delivery.toyPair.id false) qid (storeQ second) second (node 2 7) :=
  ⟨⟨_, store_says second_wf, rfl⟩, rfl, hack, ⟨_, second_nodes, List.mem_cons_self⟩, second_valid, no_collision ht,
    fun d hd e he m => by rw [env_only (ttl := ttl) hd he]; exact List.Perm.refl _, few ht,
    clocks, collected⟩

theorem acknowledged_late : (consumeQuery Example.o Example.env
    (replay Example.o (init adnl Example.localId 100) [did (first (2 ^ 32 - 1))]) (storeQ second)).2.1 = .answer writeStored := by
  decide +kernel

/-- The node says that it stored the record of toy node 2, and still has the list without it. -/
theorem kept_first : ((replay Example.o (init adnl Example.localId 100) ([did (first (2 ^ 32 - 1))] ++ did second :: after)).storage.get
    (Crypto.toy.sha (writeKeyBoxed second.key.key))).bind (fun w => decodeNodes w.value) = some [node 1 5] := by
  decide +kernel

end AnnouncedExample

open AnnouncedExample in
/-- **C122** is false: a list with a later expiry, which needs nobody's signature, makes the node acknowledge records
without keeping them. -/
theorem C122_full_false : ¬ C122_full Crypto.toy := by
  intro h
  obtain ⟨w, h1, h2, -⟩ := h Example.o adnl Example.localId 100 [did (first (2 ^ 32 - 1))] after Example.env Example.env
    (Delivery.toyPair.id true) (Delivery.toyPair.id false) qid (storeQ second) findQ second (Storage.Example.node 2 7) 5
    (announced (by decide) acknowledged_late) (by decide) (by decide) (by decide) find_says
  obtain ⟨nodes, n', h3, h4, h5, -⟩ := h2.listed
  have h6 := kept_first
  rw [show (replay Example.o (init adnl Example.localId 100) ([did (first (2 ^ 32 - 1))] ++ did second :: after)).storage.get
    (Crypto.toy.sha (writeKeyBoxed second.key.key)) = some w from h1] at h6
  simp only [Option.bind_some] at h6
  rw [h3] at h6
  cases h6
  rw [List.mem_singleton.mp h4] at h5
  revert h5
  decide +kernel

/-! With an ordinary expiry of the first list: of two known peers one does not answer, the other one acknowledged the
record of toy node 2 some time ago. -/
namespace AnnouncedExample
open SearchNet.Example (ids wholeCfg two)
open Storage.Example (node)

theorem acknowledged_early : (consumeQuery Example.o Example.env
    (replay Example.o (init adnl Example.localId 100) [did (first 3000)]) (storeQ second)).2.1 = .answer writeStored := by
  decide +kernel

theorem none_outlasts : NoneOutlasts Example.o [did (first 3000)] Example.env second := by
  intro d hd w hw hk
  rw [List.mem_singleton.mp hd] at hw
  rw [offers_only (first_wf (by decide)) w hw]
  exact .inl (by decide)

def late : Env Crypto.toy := { Example.env with now := 3100 }

def answer : Option Bytes := (consumeQuery Example.o late (replay Example.o (init adnl Example.localId 100)
  ([did (first 3000)] ++ did second :: after)) findQ).2.1.toAsker

def ask (p : Bytes) : Option Bytes := if p = ids 2 then answer else none

theorem ask_self : ask (ids 2) = answer := if_pos rfl

abbrev S := search wholeCfg (asNet Crypto.toy decodeNodes (fun _ => []) ask) [ids 1, ids 2] (fun _ => false) two

theorem over : Over wholeCfg S := by
  unfold Over; decide +kernel

theorem asked : ids 2 ∈ S.stream.asked := by decide +kernel

theorem short : ∀ w, (replay Example.o (init adnl Example.localId 100) ([did (first 3000)] ++ did second :: after)).storage.get
    (Crypto.toy.sha (writeKeyBoxed second.key.key)) = some w → w.value.length < 2 ^ 24 := by
  have h : ((replay Example.o (init adnl Example.localId 100) ([did (first 3000)] ++ did second :: after)).storage.get
    (Crypto.toy.sha (writeKeyBoxed second.key.key))).all (fun w => w.value.length < 2 ^ 24) = true := by decide +kernel
  intro w hw
  rw [hw] at h
  simpa using h

theorem own : ∀ d ∈ [did (first 3000)] ++ did second :: after, ∀ a w, d = .aside a → d.offers Example.o w → w.wf := by
  intro d hd a w _ hw
  rcases offered (by decide) hd hw with rfl | rfl
  · exact first_wf (by decide)
  · exact second_wf

/-- The address of toy node 2 is found, others' addresses are not. -/
def round : Round := ⟨handedOut Crypto.toy ask S.found, fun p => if p = Node.shortId Crypto.toy (2 : UInt8) then some ⟨1, 2, 3, 4, 5⟩ else none, id⟩

theorem addr : round.address (Node.shortId Crypto.toy (2 : UInt8)) = some ⟨1, 2, 3, 4, 5⟩ := by
  simp only [round, if_true]

attribute [local irreducible] SearchNet.run

example := C122_listed_partial Example.o adnl Example.localId 100 [did (first 3000)] after Example.env
  (Delivery.toyPair.id true) (Delivery.toyPair.id false) qid (storeQ second) second (node 2 7)
  (announced (by decide) acknowledged_early) none_outlasts

example := C122_found_partial Example.o adnl Example.localId 100 [did (first 3000)] after Example.env late
  (Delivery.toyPair.id true) (Delivery.toyPair.id false) qid (storeQ second) findQ second (node 2 7) 5
  (announced (by decide) acknowledged_early) none_outlasts (by decide) (by decide) (by decide) find_says

example := C122_search_partial (c := Crypto.toy) (cfg := wholeCfg) Lookup.sortDesc_ok (fun _ => []) ask (known := [ids 1, ids 2])
  (by decide) (fun _ => false) two over (p := ids 2) asked Example.o adnl Example.localId 100 [did (first 3000)] after Example.env late
  (Delivery.toyPair.id true) (Delivery.toyPair.id false) qid (storeQ second) findQ second (node 2 7) 5
  (announced (by decide) acknowledged_early) none_outlasts own short (by decide) (by decide) (by decide) find_says ask_self

example := C122_discovered_partial (c := Crypto.toy) (cfg := wholeCfg) Lookup.sortDesc_ok (fun _ => []) ask (known := [ids 1, ids 2])
  (by decide) (fun _ => false) two over (p := ids 2) asked Example.o adnl Example.localId 100 [did (first 3000)] after Example.env late
  (Delivery.toyPair.id true) (Delivery.toyPair.id false) qid (storeQ second) findQ second (node 2 7) 5
  (announced (by decide) acknowledged_early) none_outlasts own short (by decide) (by decide) (by decide) find_says ask_self
  round [] (fun r hr l => by rw [List.mem_singleton.mp hr]; exact List.Perm.refl _) rfl (Node.shortId Crypto.toy (2 : UInt8)) (by decide +kernel)
  ⟨1, 2, 3, 4, 5⟩ addr

end AnnouncedExample

end Verif.Dht
