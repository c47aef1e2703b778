import Verif.Props.Publish
import Verif.Props.Runs
import Verif.Props.OverlayTalk
import Verif.Model.DhtServe

/-!
# C119: a DHT node keeps what it acknowledged and gives it to whoever asks

The storage of `src/dht/storage.rs` under everything `src/dht/node.rs` does with it, first as a node by itself, then
asked over an ADNL connection.
-/
namespace Verif.Dht
open Verif.Tl Verif.Address Verif.AdnlProto Verif.DhtProto Verif.Storage

variable {c : Crypto}

/-! ### Spec -/

/-- The value a query asks to store. -/
def Query.stored : Query → Option Value
  | .store v => some v
  | .withNode _ q => q.stored
  | _ => none

/-- The message asks to store the value, perhaps after records of the asking node. -/
def Offers (data : Bytes) (v : Value) : Prop := ∃ q, Says data q ∧ q.stored = some v

/-- The message asks for the value of a key, perhaps after records of the asking node. -/
def Query.sought : Query → Option (Bytes × Nat)
  | .findValue key k => some (key, k)
  | .withNode _ q => q.sought
  | _ => none

/-- Values that others or the own user want stored. -/
def Did.offers (o : Opts c) : Did c → Value → Prop
  | .asked _ _ _ _ data, v => Offers data v
  | .aside (.query _ data), v => Offers data v
  | .aside (.publish _ w), v => v = w
  | .aside (.announce e ttl fullId node), v => overlayValue c o.adnl.build e.now ttl fullId node = some v
  | _, _ => False

/-- The clock when expired values were dropped. -/
def Did.collects : Did c → Nat → Prop
  | .aside (.collect _ now), t => t = now
  | _, _ => False

/-- No two values that were to be stored collide in the hash function. -/
def NoCollision (o : Opts c) (ds : List (Did c)) : Prop :=
  ∀ v w, (∃ d ∈ ds, d.offers o v) → (∃ d ∈ ds, d.offers o w) → ¬ Collide c v w

/-- `w` is what the owner of `v` signed under the same key, and lasts at least as long as `v`. -/
structure NoOlder (c : Crypto) (v w : Value) : Prop where
  key : w.key.key = v.key.key
  owner : w.key.id = v.key.id
  rule : w.key.rule = .signature
  signed : SignedByOwner c w
  lasts : v.ttl ≤ w.ttl

/-! ### What a message says -/

theorem readPlain_own : readPlain getSignedId = fail := by
  simp [readPlain, getSignedId, pingId, findNodeId, findValueId, storeId]
theorem readPlain_nested : readPlain dhtQueryId = fail := by
  simp [readPlain, dhtQueryId, pingId, findNodeId, findValueId, storeId]

/-- A message says at most one query. -/
theorem says_unique {data : Bytes} {q q' : Query} (h : Says data q) (h' : Says data q') : q = q' := by
  induction h generalizing q' with
  | plain h1 h2 =>
    cases h' with
    | plain g1 g2 =>
      rw [h1] at g1; cases g1
      rw [h2] at g2; cases g2; rfl
    | own g1 => rw [h1] at g1; cases g1; rw [readPlain_own] at h2; cases h2
    | nested g1 g2 g3 => rw [h1] at g1; cases g1; rw [readPlain_nested] at h2; cases h2
  | own h1 =>
    cases h' with
    | plain g1 g2 => rw [h1] at g1; cases g1; rw [readPlain_own] at g2; cases g2
    | own g1 => rfl
    | nested g1 g2 g3 => rw [h1] at g1; exact absurd (Option.some.inj g1) (by simp [getSignedId, dhtQueryId])
  | nested h1 h2 h3 ih =>
    cases h' with
    | plain g1 g2 => rw [h1] at g1; cases g1; rw [readPlain_nested] at g2; cases g2
    | own g1 => rw [h1] at g1; exact absurd (Option.some.inj g1) (by simp [getSignedId, dhtQueryId])
    | nested g1 g2 g3 =>
      rw [h1] at g1; cases g1
      rw [h2] at g2; cases g2
      rw [ih g3]

theorem says_plain {id : Nat} (hid : id < 2 ^ 32) {body : Bytes} {q : Query} (h : Encodes (readPlain id) body q) (rest : Bytes) :
    Says (writeU32 id ++ body ++ rest) q := by
  rw [List.append_assoc]
  exact .plain (readU32_write _ hid _) (h rest)

/-- A query written down says itself. -/
theorem says_write (q : Query) (hq : q.wf) (rest : Bytes) : Says (writeQuery q ++ rest) q := by
  induction q generalizing rest with
  | ping r =>
    simp only [Query.wf] at hq
    have h : Encodes (readPlain pingId) (writeU64 r) (Query.ping r) := by
      rw [readPlain_ping]
      exact Encodes.bindPure (Encodes.u64 hq) rfl
    exact says_plain (by decide) h rest
  | findNode key k =>
    simp only [Query.wf] at hq
    have h : Encodes (readPlain findNodeId) ((key ++ writeU32 k)) (Query.findNode key k) := by
      rw [readPlain_findNode]
      exact Encodes.bind (Encodes.raw _ hq.1) (Encodes.bindPure (Encodes.u32 hq.2) rfl)
    exact says_plain (by decide) h rest
  | findValue key k =>
    simp only [Query.wf] at hq
    have h : Encodes (readPlain findValueId) ((key ++ writeU32 k)) (Query.findValue key k) := by
      rw [readPlain_findValue]
      exact Encodes.bind (Encodes.raw _ hq.1) (Encodes.bindPure (Encodes.u32 hq.2) rfl)
    exact says_plain (by decide) h rest
  | getSignedAddressList => exact .own (readU32_write _ (by decide) _)
  | store v =>
    simp only [Query.wf] at hq
    have h : Encodes (readPlain storeId) (writeValue v) (Query.store v) := by
      rw [readPlain_store]
      exact Encodes.bindPure (value_encodes v hq) rfl
    exact says_plain (by decide) h rest
  | withNode n q ih =>
    simp only [Query.wf] at hq
    rw [writeQuery, List.append_assoc, List.append_assoc]
    exact .nested (readU32_write _ (by decide) _) (dnode_encodes n hq.1 _) (ih hq.2 rest)

/-- What a query written down offers. -/
theorem offers_write (q : Query) (hq : q.wf) (rest : Bytes) (v : Value) : Offers (writeQuery q ++ rest) v ↔ q.stored = some v :=
  ⟨fun ⟨q', h1, h2⟩ => says_unique (says_write q hq rest) h1 ▸ h2, fun h => ⟨q, says_write q hq rest, h⟩⟩

/-! ### What everything does to the storage -/

theorem addDhtPeer_storage (o : Opts c) (now : Nat) (s : State c) (n : DNode) (key : c.Sec) :
    (addDhtPeer o now s n key).1.storage = s.storage := by
  unfold addDhtPeer
  split
  · rfl
  · split
    · rfl
    · split
      · split
        · rfl
        · rfl
        · split <;> rfl
      · rfl

/-- A query as insertions. -/
theorem handle_ops (o : Opts c) (order : List ONode → List ONode) (now now' : Nat) (key : c.Sec) (q : Query) :
    ∀ s : State c, ∃ ops, (handle o order now now' key s q).1.storage = Storage.run c o.storage s.storage ops ∧
      (∀ v ∈ values ops, q.stored = some v) ∧ gcTimes ops = [] := by
  induction q with
  | ping r => exact fun s => ⟨[], rfl, by simp [values], rfl⟩
  | findNode key k => exact fun s => ⟨[], rfl, by simp [values], rfl⟩
  | findValue key k =>
    refine fun s => ⟨[], ?_, by simp [values], rfl⟩
    rw [handle]
    split <;> rfl
  | getSignedAddressList => exact fun s => ⟨[], rfl, by simp [values], rfl⟩
  | store v =>
    refine fun s => ⟨[.insert order now now' v], ?_, by simp [values, Query.stored], rfl⟩
    rw [handle]
    show _ = (Storage.insert c o.storage order now now' s.storage v).1
    split <;> rename_i h <;> rw [h]
  | withNode node q ih =>
    intro s
    rw [handle]
    have hs := addDhtPeer_storage o now s node key
    generalize hx : addDhtPeer o now s node key = x at hs
    obtain ⟨s', r⟩ := x
    simp only at hs
    cases r with
    | error => exact ⟨[], hs, by simp [values], rfl⟩
    | none =>
      obtain ⟨ops, h1, h2, h3⟩ := ih s'
      exact ⟨ops, by simp only [h1, hs], h2, h3⟩
    | some id =>
      obtain ⟨ops, h1, h2, h3⟩ := ih s'
      exact ⟨ops, by simp only [h1, hs], h2, h3⟩

theorem consume_ops (o : Opts c) (e : Env c) (s : State c) (data : Bytes) :
    ∃ ops, (consumeQuery o e s data).1.storage = Storage.run c o.storage s.storage ops ∧
      (∀ v ∈ values ops, Offers data v) ∧ gcTimes ops = [] := by
  by_cases h : ∃ q, Says data q
  · obtain ⟨q, hq⟩ := h
    rw [(C79_does_what_it_says o e s data q hq).1]
    obtain ⟨ops, h1, h2, h3⟩ := handle_ops o e.order e.now e.now' e.channelKey q s
    exact ⟨ops, h1, fun v hv => ⟨q, hq, h2 v hv⟩, h3⟩
  · exact ⟨[], (C79_nothing_else o e s data (fun q hq => h ⟨q, hq⟩)).2.2, by simp [values], rfl⟩

theorem storeNew_ops (o : Opts c) (e : Env c) (s : State c) (v : Value) :
    (storeNew o e s v).1.storage = Storage.run c o.storage s.storage [.insert e.order e.now e.now' v] := by
  unfold storeNew
  show _ = (Storage.insert c o.storage e.order e.now e.now' s.storage v).1
  split <;> rename_i h <;> rw [h]

theorem did_ops (o : Opts c) (s : State c) (d : Did c) :
    ∃ ops, (d.step o s).storage = Storage.run c o.storage s.storage ops ∧
      (∀ v ∈ values ops, d.offers o v) ∧ ∀ t ∈ gcTimes ops, d.collects t := by
  cases d with
  | asked e l p qid data =>
    obtain ⟨ops, h1, h2, h3⟩ := consume_ops o e s data
    exact ⟨ops, h1, h2, by simp [h3]⟩
  | other ev y => exact ⟨[], rfl, by simp [values], by simp [gcTimes]⟩
  | aside a =>
    cases a with
    | query e data =>
      obtain ⟨ops, h1, h2, h3⟩ := consume_ops o e s data
      exact ⟨ops, h1, h2, by simp [h3]⟩
    | publish e v => exact ⟨_, storeNew_ops o e s v, by simp [values, Did.offers], by simp [gcTimes]⟩
    | announce e ttl fullId node =>
      show ∃ ops, (storeOverlayNode o e ttl s fullId node).1.storage = _ ∧ _
      unfold storeOverlayNode
      split
      · exact ⟨[], rfl, by simp [values], by simp [gcTimes]⟩
      · cases h : overlayValue c o.adnl.build e.now ttl fullId node with
        | none => exact ⟨[], rfl, by simp [values], by simp [gcTimes]⟩
        | some v => exact ⟨_, storeNew_ops o e s v, by simp [values, Did.offers, h], by simp [gcTimes]⟩
    | learn now key node => exact ⟨[], addDhtPeer_storage o now s node key, by simp [values], by simp [gcTimes]⟩
    | collect shard now =>
      exact ⟨[.gc shard now], rfl, by simp [values], by simp [gcTimes, Did.collects]⟩
    | asked peer r => exact ⟨[], rfl, by simp [values], by simp [gcTimes]⟩

theorem values_append (a b : List Storage.Op) : values (a ++ b) = values a ++ values b := by
  induction a with
  | nil => rfl
  | cons x xs ih => cases x <;> simp [values, ih]

theorem gcTimes_append (a b : List Storage.Op) : gcTimes (a ++ b) = gcTimes a ++ gcTimes b := by
  induction a with
  | nil => rfl
  | cons x xs ih => cases x <;> simp [gcTimes, ih]

theorem run_append (o : Storage.Opts) (st : St) (a b : List Storage.Op) :
    Storage.run c o st (a ++ b) = Storage.run c o (Storage.run c o st a) b := by
  simp [Storage.run, List.foldl_append]

theorem replay_ops (o : Opts c) (ds : List (Did c)) : ∀ s : State c,
    ∃ ops, (replay o s ds).storage = Storage.run c o.storage s.storage ops ∧
      (∀ v ∈ values ops, ∃ d ∈ ds, d.offers o v) ∧ ∀ t ∈ gcTimes ops, ∃ d ∈ ds, d.collects t := by
  induction ds with
  | nil => exact fun s => ⟨[], rfl, by simp [values], by simp [gcTimes]⟩
  | cons d ds ih =>
    intro s
    obtain ⟨ops, h1, h2, h3⟩ := did_ops o s d
    obtain ⟨ops', g1, g2, g3⟩ := ih (d.step o s)
    refine ⟨ops ++ ops', ?_, ?_, ?_⟩
    · show (replay o (d.step o s) ds).storage = _
      rw [g1, h1, run_append]
    · intro v hv
      rw [values_append] at hv
      rcases List.mem_append.mp hv with hv | hv
      · exact ⟨d, List.mem_cons_self, h2 v hv⟩
      · obtain ⟨d', a, b⟩ := g2 v hv
        exact ⟨d', List.mem_cons_of_mem _ a, b⟩
    · intro v hv
      rw [gcTimes_append] at hv
      rcases List.mem_append.mp hv with hv | hv
      · exact ⟨d, List.mem_cons_self, h3 v hv⟩
      · obtain ⟨d', a, b⟩ := g3 v hv
        exact ⟨d', List.mem_cons_of_mem _ a, b⟩

theorem replay_append (o : Opts c) (s : State c) (a b : List (Did c)) :
    replay o s (a ++ b) = replay o (replay o s a) b := by
  simp [replay, List.foldl_append]

/-- Stored values were inserted, or are merged lists under the key of an inserted value. -/
theorem run_source (o : Storage.Opts) (ops : List Storage.Op) : ∀ (st : St) (k : Bytes) (w : Value),
    (k, w) ∈ Storage.run c o st ops → (k, w) ∈ st ∨ ∃ v ∈ values ops, v.key = w.key ∧ (w.key.rule = .signature → v = w) := by
  induction ops with
  | nil => exact fun st k w h => .inl h
  | cons op ops ih =>
    intro st k w h
    rcases ih (Storage.step c o st op) k w h with h | ⟨v, h1, h2⟩
    · cases op with
      | gc shard now => exact .inl (List.mem_filter.mp h).1
      | insert order now now' v =>
        have he := insert_effect (c := c) o order now now' st v
        change (k, w) ∈ (Storage.insert c o order now now' st v).1 at h
        generalize (Storage.insert c o order now now' st v).1 = st' at he h
        generalize (Storage.insert c o order now now' st v).2 = res at he
        cases he with
        | refused => exact .inl h
        | kept => exact .inl h
        | signed =>
          rcases AMap.mem_put.mp h with h | ⟨h, -⟩
          · obtain ⟨-, h⟩ := Prod.mk.inj h
            exact .inr ⟨v, List.mem_cons_self, by rw [h], fun _ => h.symm⟩
          · exact .inl h
        | overlay new old ht hn hi hk hr hs hv =>
          rcases AMap.mem_put.mp h with h | ⟨h, -⟩
          · obtain ⟨-, h⟩ := Prod.mk.inj h
            refine .inr ⟨v, List.mem_cons_self, by rw [h]; rfl, fun hw => ?_⟩
            rw [h] at hw
            have : v.key.rule = .signature := hw
            rw [hr] at this; cases this
          · exact .inl h
    · refine .inr ⟨v, ?_, h2⟩
      cases op with
      | insert => exact List.mem_cons_of_mem _ h1
      | gc => exact h1

/-! ### C119: the node by itself -/

/-- Accepted signed values are signed by the owner of the key. -/
theorem insert_checks (o : Storage.Opts) (order : List ONode → List ONode) (now now' : Nat) (st st' : St) (v : Value) (b : Bool)
    (hr : v.key.rule = .signature) (h : Storage.insert c o order now now' st v = (st', .ok b)) :
    v.key.key.id = c.sha (writePubKey v.key.id) ∧ SignedByOwner c v := by
  unfold Storage.insert at h
  split at h
  · cases h
  split at h
  · cases h
  split at h
  · cases h
  rename_i hk
  rw [hr] at h
  simp only at h
  unfold insertSigned at h
  cases hs : signedOk c v with
  | error er => rw [hs] at h; cases h
  | ok u => exact ⟨by simpa using hk, signedOk_owner hs⟩

/-- What an acknowledged value leaves behind. -/
theorem acknowledged (o : Opts c) (e : Env c) (q : Query) (v : Value) (hv : q.stored = some v) : ∀ s : State c,
    replyOf e (handle o e.order e.now e.now' e.channelKey s q).2 = .answer writeStored →
    ∃ b, Storage.insert c o.storage e.order e.now e.now' s.storage v =
      ((handle o e.order e.now e.now' e.channelKey s q).1.storage, .ok b) := by
  induction q with
  | ping r => cases hv
  | findNode key k => cases hv
  | findValue key k => cases hv
  | getSignedAddressList => cases hv
  | store w =>
    intro s h
    cases hv
    rw [handle] at h ⊢
    cases hi : Storage.insert c o.storage e.order e.now e.now' s.storage v with
    | mk st r =>
      rw [hi] at h
      cases r with
      | ok b => exact ⟨b, rfl⟩
      | error er => cases h
  | withNode node q ih =>
    intro s
    rw [handle]
    have hs := addDhtPeer_storage o e.now s node e.channelKey
    generalize hx : addDhtPeer o e.now s node e.channelKey = x at hs
    obtain ⟨s', r⟩ := x
    simp only at hs
    cases r with
    | error => intro h; cases h
    | none => rw [← hs]; exact ih hv s'
    | some id => rw [← hs]; exact ih hv s'

theorem sought_answer (o : Opts c) (e : Env c) (q : Query) (key : Bytes) (k : Nat) (hq : q.sought = some (key, k)) :
    ∀ s : State c, (∀ s', s'.storage = s.storage → ∃ a, findValue o e.now s' key k = some a) →
      ∀ a, replyOf e (handle o e.order e.now e.now' e.channelKey s q).2 = .answer a →
      ∃ s', s'.storage = s.storage ∧ ∃ r, findValue o e.now s' key k = some r ∧ a = writeValueResult r := by
  induction q with
  | ping r => cases hq
  | findNode key k => cases hq
  | findValue key' k' =>
    intro s hs a ha
    cases hq
    obtain ⟨r, hr⟩ := hs s rfl
    rw [handle, hr] at ha
    simp only [replyOf, Reply.answer.injEq] at ha
    exact ⟨s, rfl, r, hr, ha.symm⟩
  | getSignedAddressList => cases hq
  | store w => cases hq
  | withNode node q ih =>
    intro s hs a
    rw [handle]
    have hst := addDhtPeer_storage o e.now s node e.channelKey
    generalize hx : addDhtPeer o e.now s node e.channelKey = x at hst
    obtain ⟨s', r⟩ := x
    simp only at hst
    cases r with
    | error => intro h; cases h
    | none =>
      intro ha
      obtain ⟨s'', h1, h2⟩ := ih hq s' (fun s'' h => hs s'' (h.trans hst)) a ha
      exact ⟨s'', h1.trans hst, h2⟩
    | some id =>
      intro ha
      obtain ⟨s'', h1, h2⟩ := ih hq s' (fun s'' h => hs s'' (h.trans hst)) a ha
      exact ⟨s'', h1.trans hst, h2⟩

/-- C119: once a node has acknowledged a signed value, it holds that value or a newer one of the same owner under the
same key, whatever else happens, until the value expires. -/
theorem C119_kept (o : Opts c) (adnl : Node.State c) (localId : Bytes) (maxPeers : Nat) (ds ds' : List (Did c))
    (e : Env c) (l peer qid data : Bytes) (v : Value) (hv : Offers data v) (hr : v.key.rule = .signature)
    (hack : (consumeQuery o e (replay o (init adnl localId maxPeers) ds) data).2.1 = .answer writeStored)
    (hno : NoCollision o (ds ++ .asked e l peer qid data :: ds'))
    (hgc : ∀ d ∈ ds', ∀ t, d.collects t → t < v.ttl) :
    ∃ w, (replay o (init adnl localId maxPeers) (ds ++ .asked e l peer qid data :: ds')).storage.get
        (c.sha (writeKeyBoxed v.key.key)) = some w ∧ NoOlder c v w ∧
      ∃ d ∈ ds ++ .asked e l peer qid data :: ds', d.offers o w := by
  obtain ⟨q, hq, hqv⟩ := hv
  -- the storage as a run
  obtain ⟨ops, h1, h2, -⟩ := replay_ops o ds (init adnl localId maxPeers)
  change (replay o (init adnl localId maxPeers) ds).storage = Storage.run c o.storage [] ops at h1
  have hlast : (Did.asked e l peer qid data).offers o v := ⟨q, hq, hqv⟩
  have hmem : Did.asked e l peer qid data ∈ ds ++ .asked e l peer qid data :: ds' := by simp
  rw [replay_append]
  generalize replay o (init adnl localId maxPeers) ds = s at h1 hack ⊢
  show ∃ w, (replay o (consumeQuery o e s data).1 ds').storage.get _ = some w ∧ _
  rw [(C79_does_what_it_says o e s data q hq).2] at hack
  obtain ⟨b, hins⟩ := acknowledged o e q v hqv s hack
  rw [← (C79_does_what_it_says o e s data q hq).1] at hins
  have hsig := insert_checks o.storage e.order e.now e.now' s.storage _ v b hr hins
  -- the value right after the acknowledgement
  have hop : (consumeQuery o e s data).1.storage = Storage.run c o.storage [] (ops ++ [.insert e.order e.now e.now' v]) := by
    rw [run_append, ← h1]
    show _ = (Storage.insert c o.storage e.order e.now e.now' s.storage v).1
    rw [hins]
  have hold : ∃ w, (consumeQuery o e s data).1.storage.get (storageKey c v.key.key) = some w ∧ w.key.key = v.key.key ∧
      w.key.id = v.key.id ∧ w.key.rule = .signature ∧ v.ttl ≤ w.ttl := by
    have he := insert_effect (c := c) o.storage e.order e.now e.now' s.storage v
    rw [hins] at he
    simp only at he
    generalize (consumeQuery o e s data).1.storage = st' at he hop ⊢
    cases he with
    | kept old ht hg hr' =>
      have hle : v.ttl ≤ old.ttl := by
        rcases hr' with h | h
        · exact h.2
        · rw [hr] at h; cases h.1
      rw [h1] at hg
      have hok := C29_entries_are_authentic (c := c) o.storage ops _ old hg
      obtain ⟨u, hu, hku, -⟩ : ∃ u ∈ values ops, u.key = old.key ∧ (old.key.rule = .signature → u = old) := by
        rcases run_source o.storage ops [] _ old (AMap.mem_of_get hg) with h | h
        · cases h
        · exact h
      obtain ⟨d, hd, hdo⟩ := h2 u hu
      have hnc : ¬ Collide c v u := hno v u ⟨_, hmem, hlast⟩ ⟨d, List.mem_append_left _ hd, hdo⟩
      have hkey : old.key.key = v.key.key := by
        by_contra hne
        exact hnc (.inl ⟨by rw [hku]; exact fun h => hne h.symm, by rw [hku, ← hok.key]; rfl⟩)
      have hid : old.key.id = v.key.id := by
        by_contra hne
        refine hnc (.inr ⟨by rw [hku]; exact fun h => hne h.symm, ?_⟩)
        rw [hku, ← hok.owner, hkey, hsig.1]
      refine ⟨old, by rw [h1]; exact hg, hkey, hid, ?_, hle⟩
      rcases hok.rule with h | ⟨-, -, -, name, h⟩
      · exact h.1
      · obtain ⟨key, pub, h', -⟩ := hsig.2
        rw [hid, h'] at h; cases h
    | signed ht hn hi hk hr' hs hv =>
      exact ⟨v, AMap.get_put_self _ _ _, rfl, rfl, hr, Nat.le_refl _⟩
    | overlay new old ht hn hi hk hr' hs hv => rw [hr] at hr'; cases hr'
  obtain ⟨w, g1, g2, g3, g4, g5⟩ := hold
  obtain ⟨ops', k1, k2, k3⟩ := replay_ops o ds' (consumeQuery o e s data).1
  have hcol : ∀ x y : Value, x ∈ w :: values ops' → y ∈ values ops' → ¬ Collide c x y := by
    intro x y hx hy
    obtain ⟨d', hd', hy'⟩ := k2 y hy
    have hy2 : ∃ d ∈ ds ++ .asked e l peer qid data :: ds', d.offers o y := ⟨d', by simp [hd'], hy'⟩
    rcases List.mem_cons.mp hx with rfl | hx
    · have := hno v y ⟨_, hmem, hlast⟩ hy2
      unfold Collide at this ⊢
      rw [g2, g3]
      exact this
    · obtain ⟨d'', hd'', hx'⟩ := k2 x hx
      exact hno x y ⟨d'', by simp [hd''], hx'⟩ hy2
  rw [hop] at g1 k1
  obtain ⟨w', l1, l2, l3, l4, l5, l6⟩ := C30_ttl_never_decreases (c := c) o.storage ops' _ _ w g1 g4
    (fun x hx y hy => hcol x y hx hy) (by
      intro t ht
      obtain ⟨d, hd, hd'⟩ := k3 t ht
      have := hgc d hd t hd'
      omega)
  refine ⟨w', by rw [k1, ← run_append]; exact l1, ⟨l3.trans g2, l4.trans g3, l2, l5, by omega⟩, ?_⟩
  rcases run_source o.storage _ [] _ w' (AMap.mem_of_get l1) with h | ⟨u, hu, -, hu'⟩
  · cases h
  · rw [hu' l2, values_append, values_append] at hu
    rcases List.mem_append.mp hu with hu | hu
    · rcases List.mem_append.mp hu with hu | hu
      · obtain ⟨d, hd, hd'⟩ := h2 _ hu
        exact ⟨d, List.mem_append_left _ hd, hd'⟩
      · rw [show w' = v by simpa [values] using hu]
        exact ⟨_, hmem, hlast⟩
    · obtain ⟨d, hd, hd'⟩ := k2 _ hu
      exact ⟨d, by simp [hd], hd'⟩

/-- C119: whoever asks the node for the key before the value expires is given the value or a newer one of the same
owner. (The node answers the question if it accepts the node records before it, if there are any.) -/
theorem C119_found (o : Opts c) (adnl : Node.State c) (localId : Bytes) (maxPeers : Nat) (ds ds' : List (Did c))
    (e e' : Env c) (l peer qid data data' : Bytes) (v : Value) (hv : Offers data v) (hr : v.key.rule = .signature)
    (hack : (consumeQuery o e (replay o (init adnl localId maxPeers) ds) data).2.1 = .answer writeStored)
    (hno : NoCollision o (ds ++ .asked e l peer qid data :: ds'))
    (hgc : ∀ d ∈ ds', ∀ t, d.collects t → t < v.ttl) (hnow : e'.now < v.ttl)
    (q : Query) (k : Nat) (hq : Says data' q) (hs : q.sought = some (c.sha (writeKeyBoxed v.key.key), k))
    (hk0 : 0 < k) (hk : k ≤ o.maxK) :
    ∃ w, NoOlder c v w ∧ (∃ d ∈ ds ++ .asked e l peer qid data :: ds', d.offers o w) ∧
      (∀ a, (consumeQuery o e' (replay o (init adnl localId maxPeers) (ds ++ .asked e l peer qid data :: ds')) data').2.1 =
        .answer a → a = writeValueResult (.found w)) ∧
      (q = .findValue (c.sha (writeKeyBoxed v.key.key)) k →
        (consumeQuery o e' (replay o (init adnl localId maxPeers) (ds ++ .asked e l peer qid data :: ds')) data').2.1 =
          .answer (writeValueResult (.found w))) := by
  obtain ⟨w, h1, h2, h3⟩ := C119_kept o adnl localId maxPeers ds ds' e l peer qid data v hv hr hack hno hgc
  refine ⟨w, h2, h3, ?_⟩
  generalize replay o (init adnl localId maxPeers) (ds ++ .asked e l peer qid data :: ds') = s at h1 ⊢
  have hfind : ∀ s' : State c, s'.storage = s.storage → findValue o e'.now s' (c.sha (writeKeyBoxed v.key.key)) k = some (.found w) := by
    intro s' hs'
    unfold findValue
    rw [if_neg (by omega), hs', (C28_lookup_is_live s.storage _ e'.now w).mpr ⟨h1, by have := h2.lasts; omega⟩]
  rw [(C79_does_what_it_says o e' s data' q hq).2]
  constructor
  · intro a ha
    obtain ⟨s', g1, r, g2, g3⟩ := sought_answer o e' q _ k hs s (fun s' hs' => ⟨_, hfind s' hs'⟩) a ha
    rw [hfind s' g1] at g2
    cases g2
    exact g3
  · intro hq'
    rw [hq', handle, hfind s rfl]
    rfl

/-- C119: if the owner signed nothing else under that key that lasts as long, the value itself is given. -/
theorem C119_exact (o : Opts c) (adnl : Node.State c) (localId : Bytes) (maxPeers : Nat) (ds ds' : List (Did c))
    (e e' : Env c) (l peer qid data data' : Bytes) (v : Value) (hv : Offers data v) (hr : v.key.rule = .signature)
    (hack : (consumeQuery o e (replay o (init adnl localId maxPeers) ds) data).2.1 = .answer writeStored)
    (hno : NoCollision o (ds ++ .asked e l peer qid data :: ds'))
    (hgc : ∀ d ∈ ds', ∀ t, d.collects t → t < v.ttl) (hnow : e'.now < v.ttl)
    (honly : ∀ d ∈ ds ++ .asked e l peer qid data :: ds', ∀ w, d.offers o w → NoOlder c v w → w = v)
    (k : Nat) (hk0 : 0 < k) (hk : k ≤ o.maxK) (hq : Says data' (.findValue (c.sha (writeKeyBoxed v.key.key)) k)) :
    (consumeQuery o e' (replay o (init adnl localId maxPeers) (ds ++ .asked e l peer qid data :: ds')) data').2.1 =
      .answer (writeValueResult (.found v)) := by
  obtain ⟨w, h1, ⟨d, hd, h2⟩, -, h3⟩ := C119_found o adnl localId maxPeers ds ds' e e' l peer qid data data' v hv hr hack hno
    hgc hnow _ k hq rfl hk0 hk
  rw [h3 rfl, honly d hd w h2 h1]

/-! ### C119: over an ADNL connection -/

open OverlayTalk (reaction) in
/-- What ADNL hands out of what the peer sends, with the reaction of the node, whose subscribers for queries are
`pre`, the DHT node, and `post`. -/
def shows (o : Opts c) (pre post : List Dispatch.QuerySub) (ms : List Dispatch.MsgSub) (s : State c) :
    Did c → List (Process.Event × Process.Reply)
  | .asked e l peer qid data => [(.query l peer qid data, reaction (pre ++ dhtSub o e s :: post) ms (.query l peer qid data))]
  | .other ev y => [(ev, y)]
  | .aside _ => []

/-- The log of a node that goes through `ds`. -/
def logOf (o : Opts c) (pre post : List Dispatch.QuerySub) (ms : List Dispatch.MsgSub) :
    State c → List (Did c) → List (Process.Event × Process.Reply)
  | _, [] => []
  | s, d :: ds => shows o pre post ms s d ++ logOf o pre post ms (d.step o s) ds

/-- Subscribers that hand DHT queries back untouched. -/
def LeavesDht (qs : List Dispatch.QuerySub) : Prop :=
  ∀ s ∈ qs, ∀ k ∈ [pingId, findNodeId, findValueId, getSignedId, storeId, dhtQueryId], ∀ q, s k q = .rejected q

/-- Things besides queries. -/
def NoQuery : Did c → Prop
  | .other (.query _ _ _ _) _ => False
  | _ => True

theorem logOf_append (o : Opts c) (pre post : List Dispatch.QuerySub) (ms : List Dispatch.MsgSub) (ds ds' : List (Did c)) :
    ∀ s, logOf o pre post ms s (ds ++ ds') = logOf o pre post ms s ds ++ logOf o pre post ms (replay o s ds) ds' := by
  induction ds with
  | nil => intro s; rfl
  | cons d ds ih =>
    intro s
    rw [List.cons_append, logOf, ih, logOf, List.append_assoc]
    rfl

theorem mem_logOf (o : Opts c) (pre post : List Dispatch.QuerySub) (ms : List Dispatch.MsgSub) (ds : List (Did c))
    (hds : ∀ d ∈ ds, NoQuery d) (l peer qid data : Bytes) (y : Process.Reply) : ∀ s,
    (.query l peer qid data, y) ∈ logOf o pre post ms s ds → ∃ as e bs, ds = as ++ .asked e l peer qid data :: bs ∧
      y = OverlayTalk.reaction (pre ++ dhtSub o e (replay o s as) :: post) ms (.query l peer qid data) := by
  induction ds with
  | nil => intro s h; cases h
  | cons d ds ih =>
    intro s h
    rw [logOf] at h
    rcases List.mem_append.mp h with h | h
    · cases d with
      | asked e l' peer' qid' data' =>
        obtain ⟨h1, h2⟩ := Prod.mk.inj (List.mem_singleton.mp h)
        cases h1
        exact ⟨[], e, ds, rfl, h2⟩
      | other ev y' =>
        obtain ⟨h1, h2⟩ := Prod.mk.inj (List.mem_singleton.mp h)
        have := hds (.other ev y') List.mem_cons_self
        rw [← h1] at this
        exact this.elim
      | aside a => cases h
    · obtain ⟨as, e, bs, h1, h2⟩ := ih (fun d hd => hds d (List.mem_cons_of_mem _ hd)) _ h
      exact ⟨d :: as, e, bs, by rw [h1]; rfl, h2⟩

theorem says_constructor {data : Bytes} {q : Query} (h : Says data q) :
    ∃ k ∈ [pingId, findNodeId, findValueId, getSignedId, storeId, dhtQueryId], Dispatch.readConstructor data = some k := by
  have key : ∀ k rest, readU32 data = some (k, rest) → Dispatch.readConstructor data = some k := by
    intro k rest h
    unfold Dispatch.readConstructor
    by_cases hl : data.length < 4
    · simp [readU32, bind, readRaw, hl] at h
    · rw [if_neg hl]
      simp [readU32, bind, readRaw, hl, pure] at h
      rw [h.1]
  cases h with
  | plain h1 h2 =>
    rename_i rest r id
    refine ⟨id, ?_, key _ _ h1⟩
    unfold readPlain at h2
    split at h2
    · rename_i h; simp [h]
    split at h2
    · rename_i h; simp [h]
    split at h2
    · rename_i h; simp [h]
    split at h2
    · rename_i h; simp [h]
    · cases h2
  | own h1 => exact ⟨_, by simp, key _ _ h1⟩
  | nested h1 h2 h3 => exact ⟨_, by simp, key _ _ h1⟩

theorem queryLoop_leaves {pre : List Dispatch.QuerySub} (hpre : LeavesDht pre) (rest : List Dispatch.QuerySub) (q : Bytes) (k : Nat)
    (hk : k ∈ [pingId, findNodeId, findValueId, getSignedId, storeId, dhtQueryId]) :
    ∀ i, (Dispatch.queryLoop k i (pre ++ rest) q).1 = (Dispatch.queryLoop k (i + pre.length) rest q).1 := by
  induction pre with
  | nil => intro i; rfl
  | cons s ss ih =>
    intro i
    rw [List.cons_append, Dispatch.queryLoop, hpre s List.mem_cons_self k hk q]
    show (Dispatch.queryLoop _ (i + 1) (ss ++ rest) q).1 = _
    rw [ih (fun t ht => hpre t (List.mem_cons_of_mem _ ht)), List.length_cons]
    congr 2; omega

/-- DHT queries reach the DHT node, and its answer is the reaction. -/
theorem reaction_dht (o : Opts c) (e : Env c) (s : State c) (pre post : List Dispatch.QuerySub) (ms : List Dispatch.MsgSub)
    (hpre : LeavesDht pre) (l peer qid data : Bytes) (q : Query) (hq : Says data q) (a : Bytes) :
    OverlayTalk.reaction (pre ++ dhtSub o e s :: post) ms (.query l peer qid data) = .answer a ↔
      (consumeQuery o e s data).2.1 = .answer a := by
  obtain ⟨k, hk, hd⟩ := says_constructor hq
  have h1 : (Dispatch.processQuery (pre ++ dhtSub o e s :: post) data).1 =
      (Dispatch.queryLoop k pre.length (dhtSub o e s :: post) data).1 := by
    unfold Dispatch.processQuery
    rw [hd]
    show (Dispatch.queryLoop k 0 _ data).1 = _
    rw [queryLoop_leaves hpre _ data k hk, Nat.zero_add]
  have hrej := answerTo_not_rejected o e s q
  rw [OverlayTalk.reaction, Dispatch.queryEffect, h1, Dispatch.queryLoop]
  have h2 := (C79_does_what_it_says o e s data q hq).2
  change _ = (answerTo o e s q).2 at h2
  rw [← h2] at hrej
  unfold dhtSub
  cases h : (consumeQuery o e s data).2.1 with
  | answer x => simp
  | rejected => exact absurd h hrej
  | error => simp

/-- C79: a query of another kind goes on to the next subscriber as it is, and leaves no trace at the node. -/
theorem C79_passed_on (o : Opts c) (e : Env c) (s : State c) (post : List Dispatch.QuerySub) (id : Nat) (data rest : Bytes)
    (hd : readU32 data = some (id, rest))
    (hid : id ∉ [pingId, findNodeId, findValueId, getSignedId, storeId, dhtQueryId]) (k i : Nat) :
    (Dispatch.queryLoop k i (dhtSub o e s :: post) data).1 = (Dispatch.queryLoop k (i + 1) post data).1 ∧
    (consumeQuery o e s data).1 = s := by
  have h := (C79_rejected_iff o e s data).mpr ⟨id, rest, hd, hid⟩
  refine ⟨?_, ?_⟩
  · rw [Dispatch.queryLoop]
    unfold dhtSub
    rw [h]
  · unfold consumeQuery at h ⊢
    simp only [List.mem_cons, List.not_mem_nil, or_false, not_or] at hid
    obtain ⟨h1, h2, h3, h4, h5, h6⟩ := hid
    cases hl : data.length with
    | zero => rfl
    | succ n => simp [consume, hd, h1, h2, h3, h4, h5, h6]

/-- C79: an overlay query goes on to the overlay node. -/
example (post : List Dispatch.QuerySub) := C79_passed_on Example.o Example.env Example.s0 post _
  (writeU32 0xccfd8443 ++ List.replicate 32 1) _ (readU32_write 0xccfd8443 (by decide) _) (by decide)

end Verif.Dht

namespace Verif.LongTrip
open Verif.Tl Verif.Adnl Verif.AdnlProto Verif.Address Verif.Node Verif.Receiver Verif.Sender Verif.Props
open Verif.Process Verif.Delivery Verif.RoundTrip
open Verif.Dht (Did logOf LeavesDht NoQuery NoCollision NoOlder Offers Says)
open Verif.DhtProto (Value writeValueResult writeKeyBoxed)

variable {c : Crypto}

/-- C119: read your writes. Side `b` sent a query to store a signed value and got the acknowledgement. Whatever it
asks for that key afterwards, over a network that loses, repeats, reorders and delays datagrams, and whatever
else the other side goes through: if an answer comes that was made before the value expires, it is that value or a
newer one of the same owner. -/
theorem C119_read_your_writes (hc : c.Lawful) (P : Pair c) (hP : P.Fits) (M G : Message → Prop) (hA : Apart c.sha M)
    (ρ₀ ρ₁ ρ₂ : Talk c) (h0 : TStart P M ρ₀) (h1 : Goes P M G ρ₀ ρ₁) (h2 : Goes P M G ρ₀ ρ₂) (b : Bool)
    (o : Dht.Opts c) (adnl : Node.State c) (localId : Bytes) (maxPeers : Nat)
    (pre post : List Dispatch.QuerySub) (ms : List Dispatch.MsgSub) (hpre : LeavesDht pre)
    (ds ds' : List (Did c)) (hds : ∀ d ∈ ds ++ ds', NoQuery d)
    (hlog1 : ρ₁.log (!b) = logOf o pre post ms (Dht.init adnl localId maxPeers) ds)
    (hlog2 : ρ₂.log (!b) = logOf o pre post ms (Dht.init adnl localId maxPeers) (ds ++ ds'))
    (qid data : Bytes) (v : Value) (hv : Offers data v) (hr : v.key.rule = .signature)
    (hone : ∀ x, .query qid x ∈ ρ₁.told b → x = data)
    (y : Reply) (hack : (.answer qid Dht.writeStored, y) ∈ ρ₁.log b)
    (qid' data' : Bytes) (q : Dht.Query) (k : Nat) (hq : Says data' q)
    (hs : q.sought = some (c.sha (writeKeyBoxed v.key.key), k)) (hk0 : 0 < k) (hk : k ≤ o.maxK)
    (hlater : ∀ x, .query qid' x ∉ ρ₁.told b)
    (hone' : ∀ x, .query qid' x ∈ ρ₂.told b → x = data')
    (hno : NoCollision o (ds ++ ds')) (hgc : ∀ d ∈ ds ++ ds', ∀ t, d.collects t → t < v.ttl)
    (hnow : ∀ e l peer, .asked e l peer qid' data' ∈ ds' → e.now < v.ttl)
    (a : Bytes) (y' : Reply) (hgot : (.answer qid' a, y') ∈ ρ₂.log b) :
    ∃ w, a = writeValueResult (.found w) ∧ NoOlder c v w ∧ ∃ d ∈ ds ++ ds', d.offers o w := by
  -- the query of the acknowledgement
  have hstore : (.query (P.id !b) (P.id b) qid data, .answer Dht.writeStored) ∈ ρ₁.log (!b) := by
    rcases C111_nothing_made_up hc P hP M G hA ρ₀ ρ₁ h0 h1 b _ _ hack with ⟨_, _, h, -⟩ | ⟨_, h, -⟩ | ⟨_, _, x, h, g1, g2⟩
    · cases h
    · cases h
    · cases h
      rw [hone x g1] at g2
      exact g2
  -- the query of the answer
  have hfind : (.query (P.id !b) (P.id b) qid' data', .answer a) ∈ ρ₂.log (!b) := by
    rcases C111_nothing_made_up hc P hP M G hA ρ₀ ρ₂ h0 h2 b _ _ hgot with ⟨_, _, h, -⟩ | ⟨_, h, -⟩ | ⟨_, _, x, h, g1, g2⟩
    · cases h
    · cases h
    · cases h
      rw [hone' x g1] at g2
      exact g2
  rw [hlog1] at hstore
  obtain ⟨as, e, bs, hsplit, hreply⟩ := Dht.mem_logOf o pre post ms ds (fun d hd => hds d (by simp [hd])) _ _ _ _ _ _ hstore
  rw [hlog2, Dht.logOf_append] at hfind
  have hfind2 : (.query (P.id !b) (P.id b) qid' data', .answer a) ∈
      logOf o pre post ms (Dht.replay o (Dht.init adnl localId maxPeers) ds) ds' := by
    rcases List.mem_append.mp hfind with h | h
    · rw [← hlog1] at h
      rcases C111_nothing_made_up hc P hP M G hA ρ₀ ρ₁ h0 h1 (!b) _ _ h with ⟨_, _, e, g⟩ | ⟨_, e, -⟩ | ⟨_, _, _, e, -⟩
      · obtain ⟨-, -, rfl, -⟩ := Event.query.inj e
        rw [Bool.not_not] at g
        exact absurd g (hlater _)
      · cases e
      · cases e
    · exact h
  obtain ⟨as', e', bs', hsplit', hreply'⟩ := Dht.mem_logOf o pre post ms ds' (fun d hd => hds d (by simp [hd])) _ _ _ _ _ _ hfind2
  obtain ⟨q0, hq0, -⟩ := id hv
  have hack' := (Dht.reaction_dht o e _ pre post ms hpre _ _ _ _ q0 hq0 _).mp hreply.symm
  have hans := (Dht.reaction_dht o e' _ pre post ms hpre _ _ _ _ q hq _).mp hreply'.symm
  have hsub : ∀ d ∈ as ++ .asked e (P.id !b) (P.id b) qid data :: (bs ++ as'), d ∈ ds ++ ds' := by
    intro d hd
    rw [hsplit, hsplit']
    simp only [List.mem_append, List.mem_cons] at hd ⊢
    tauto
  obtain ⟨w, g1, ⟨d, g2, g3⟩, g4, -⟩ := Dht.C119_found o adnl localId maxPeers as (bs ++ as') e e' (P.id !b) (P.id b) qid data data' v
    hv hr hack' (fun x z hx hz => hno x z (hx.imp fun d h => ⟨hsub d h.1, h.2⟩) (hz.imp fun d h => ⟨hsub d h.1, h.2⟩))
    (fun d hd t ht => hgc d (hsub d (List.mem_append_right _ (List.mem_cons_of_mem _ hd))) t ht)
    (hnow e' (P.id !b) (P.id b) (by rw [hsplit']; simp)) q k hq hs hk0 hk
  refine ⟨w, g4 a ?_, g1, d, hsub d g2, g3⟩
  rw [hsplit, ← Dht.replay_append] at hans
  simpa using hans

/-! ### Examples -/

namespace Ryw

def v : Value := Dht.Example.value 1
def storeQ : Bytes := Dht.writeQuery (.store v)
def findQ : Bytes := Dht.writeQuery (.findValue (Crypto.toy.sha (writeKeyBoxed v.key.key)) 5)
def qid : Bytes := List.replicate 32 4
def qid' : Bytes := List.replicate 32 5
def found : Bytes := writeValueResult (.found v)

theorem v_wf : v.wf := Dht.published_wf Crypto.toy_lawful (m := .release) (t0 := 1000) (valueTtl := 1000) (en := Dht.Example.entry 1)
  (sec := (3 : UInt8)) rfl rfl (Dht.Example.entry_wf 1)

theorem store_says : Says storeQ (.store v) := by
  have := Dht.says_write (.store v) v_wf []
  rwa [List.append_nil] at this

theorem find_says : Says findQ (.findValue (Crypto.toy.sha (writeKeyBoxed v.key.key)) 5) := by
  have := Dht.says_write (.findValue (Crypto.toy.sha (writeKeyBoxed v.key.key)) 5) ⟨Crypto.toy_lawful.sha_length _, by decide⟩ []
  rwa [List.append_nil] at this

/-- The value is stored, everything expired is dropped, another peer asks for the value, and the first one does. -/
def ds : List (Did Crypto.toy) := [.asked Dht.Example.env (toyPair.id true) (toyPair.id false) qid storeQ]

def ds' : List (Did Crypto.toy) := [.aside (.collect (fun _ => true) 1500), .aside (.query Dht.Example.env findQ),
  .asked { Dht.Example.env with now := 1600 } (toyPair.id true) (toyPair.id false) qid' findQ]

def dht : Dht.State Crypto.toy := Dht.init ⟨[(Dht.Example.localId, [])], [], 0, [], []⟩ Dht.Example.localId 100

theorem only_v : ∀ w, (∃ d ∈ ds ++ ds', d.offers Dht.Example.o w) → w = v := by
  have hs : ∀ w, Offers storeQ w → w = v := by
    rintro w ⟨q, h1, h2⟩
    cases Dht.says_unique store_says h1
    exact (Option.some.inj h2).symm
  have hf : ∀ w, ¬ Offers findQ w := by
    rintro w ⟨q, h1, h2⟩
    cases Dht.says_unique find_says h1
    cases h2
  rintro w ⟨d, hd, hw⟩
  simp only [ds, ds', List.cons_append, List.nil_append, List.mem_cons, List.not_mem_nil, or_false] at hd
  rcases hd with rfl | rfl | rfl | rfl
  · exact hs w hw
  · exact hw.elim
  · exact absurd hw (hf w)
  · exact absurd hw (hf w)

theorem no_collision : NoCollision Dht.Example.o (ds ++ ds') := by
  intro x y hx hy
  rw [only_v x hx, only_v y hy]
  rintro (⟨h, -⟩ | ⟨h, -⟩) <;> exact h rfl

theorem collects : ∀ d ∈ ds ++ ds', ∀ t, d.collects t → t < v.ttl := by
  intro d hd t ht
  simp only [ds, ds', List.cons_append, List.nil_append, List.mem_cons, List.not_mem_nil, or_false] at hd
  rcases hd with rfl | rfl | rfl | rfl
  · exact ht.elim
  · have : t = 1500 := ht
    rw [this]; decide
  · exact ht.elim
  · exact ht.elim

/-- C119_kept, C119_found, C119_exact: the node is asked 600 seconds after it acknowledged the value. -/
example : (Dht.consumeQuery Dht.Example.o { Dht.Example.env with now := 1600 }
    (Dht.replay Dht.Example.o dht (ds ++ ds')) findQ).2.1 = .answer found :=
  Dht.C119_exact Dht.Example.o _ _ _ [] ds' Dht.Example.env _ (toyPair.id true) (toyPair.id false) qid storeQ findQ v
    ⟨_, store_says, rfl⟩ rfl (by decide +kernel) no_collision (fun d hd => collects d (List.mem_append_right _ hd))
    (show 1600 < 2000 by decide) (fun d hd w hw _ => only_v w ⟨d, hd, hw⟩) 5 (by decide) (by decide) find_says

/-- Subscribers that answer one query. -/
def answers (id q a : Bytes) : Event → Reply := fun e =>
  if e = .query (toyPair.id true) (toyPair.id false) id q then .answer a else .done

def cmds₁ : List Cmd := [.tell false 130 (.query qid storeQ), .deliver false 0 140 (answers qid storeQ Dht.writeStored),
  .deliver true 0 141 (fun _ => .done)]

def cmds₂ : List Cmd := [.tell false 142 (.query qid' findQ), .deliver false 1 143 (answers qid' findQ found),
  .deliver true 1 144 (fun _ => .done)]

def M (m : Message) : Prop :=
  m ∈ [.query qid storeQ, .query qid' findQ, .answer qid Dht.writeStored, .answer qid' found]

theorem apart : Apart Crypto.toy.sha M := by
  intro x y hx hy h
  simp only [M, List.mem_cons, List.not_mem_nil, or_false] at hx hy
  rcases hx with rfl | rfl | rfl | rfl <;> rcases hy with rfl | rfl | rfl | rfl <;>
    first | rfl | exact absurd h (by decide +kernel)

theorem answers_ok (id q a : Bytes) (ha : a.length < 2 ^ 24) (hm : M (.answer id a)) (b : Bool) (i now : Nat) :
    CmdOk M (.deliver b i now (answers id q a)) := by
  intro l p id' x a' _ h
  simp only [answers] at h
  split at h
  · rename_i e; cases h; obtain ⟨-, -, rfl, -⟩ := Event.query.inj e; exact ⟨ha, hm⟩
  · cases h

theorem cmds_ok : ∀ x ∈ cmds₁ ++ cmds₂, CmdOk M x := by
  intro x hx
  simp only [cmds₁, cmds₂, List.cons_append, List.nil_append, List.mem_cons, List.not_mem_nil, or_false] at hx
  rcases hx with rfl | rfl | rfl | rfl | rfl | rfl
  · exact ⟨⟨rfl, by decide +kernel⟩, by simp [M]⟩
  · exact answers_ok _ _ _ (by decide) (by simp [M]) _ _ _
  · intro _ _ _ _ _ _ h; cases h
  · exact ⟨⟨rfl, by decide +kernel⟩, by simp [M]⟩
  · exact answers_ok _ _ _ (by decide +kernel) (by simp [M]) _ _ _
  · intro _ _ _ _ _ _ h; cases h

theorem after₁ : ((exec toyPair (show UInt8 from 1) toyRands toyTalk cmds₁).map fun ρ => (ρ.log true, ρ.log false, ρ.told false)) =
    some (logOf Dht.Example.o [] [] [] dht ds, [(.answer qid Dht.writeStored, .done)], [.query qid storeQ]) := by
  decide +kernel

theorem after₂ : ((exec toyPair (show UInt8 from 1) toyRands toyTalk (cmds₁ ++ cmds₂)).map fun ρ =>
      (ρ.log true, ρ.log false, ρ.told false)) =
    some (logOf Dht.Example.o [] [] [] dht (ds ++ ds'),
      [(.answer qid Dht.writeStored, .done), (.answer qid' found, .done)], [.query qid' findQ, .query qid storeQ]) := by
  decide +kernel

/-- C119_read_your_writes: the value is stored over the connection, acknowledged, asked for and got. -/
example : ∃ w, found = writeValueResult (.found w) ∧ NoOlder Crypto.toy v w := by
  have h1 := after₁
  have h2 := after₂
  cases e1 : exec toyPair (show UInt8 from 1) toyRands toyTalk cmds₁ with
  | none => rw [e1] at h1; cases h1
  | some ρ₁ =>
    cases e2 : exec toyPair (show UInt8 from 1) toyRands toyTalk (cmds₁ ++ cmds₂) with
    | none => rw [e2] at h2; cases h2
    | some ρ₂ =>
      rw [e1] at h1
      rw [e2] at h2
      simp only [Option.map_some, Option.some.injEq, Prod.mk.injEq] at h1 h2
      obtain ⟨w, a, b, -⟩ := C119_read_your_writes Crypto.toy_lawful toyPair toyPair_fits M (fun _ => False) apart toyTalk ρ₁ ρ₂
        (toyTalk_start _)
        (exec_goes (fun _ => rfl) _ _ _ _ (fun _ => rfl) cmds₁ _ _ _ (.refl _) (fun x hx => cmds_ok x (List.mem_append_left _ hx)) e1)
        (exec_goes (fun _ => rfl) _ _ _ _ (fun _ => rfl) _ _ _ _ (.refl _) cmds_ok e2) false
        Dht.Example.o _ _ _ [] [] [] (fun _ h => by cases h) ds ds'
        (by intro d hd
            simp only [ds, ds', List.cons_append, List.nil_append, List.mem_cons, List.not_mem_nil, or_false] at hd
            rcases hd with rfl | rfl | rfl | rfl <;> trivial)
        h1.1 h2.1 qid storeQ v ⟨_, store_says, rfl⟩ rfl
        (by intro x hx; rw [h1.2.2] at hx; cases List.mem_singleton.mp hx; rfl)
        .done (by rw [h1.2.1]; simp) qid' findQ _ 5 find_says rfl (by decide) (by decide)
        (by intro x hx; rw [h1.2.2] at hx; have := (Message.query.inj (List.mem_singleton.mp hx)).1; revert this; decide)
        (by
          intro x hx
          rw [h2.2.2] at hx
          rcases List.mem_cons.mp hx with h | h
          · exact (Message.query.inj h).2
          · exact absurd (Message.query.inj (List.mem_singleton.mp h)).1 (by decide))
        no_collision collects
        (by
          intro e l p h
          simp only [ds', List.mem_cons, List.not_mem_nil, or_false] at h
          rcases h with h | h | h
          · cases h
          · cases h
          · cases h
            decide)
        found .done (by rw [h2.2.1]; simp)
      exact ⟨w, a, b⟩

end Ryw

end Verif.LongTrip
