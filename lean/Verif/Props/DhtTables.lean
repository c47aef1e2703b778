import Verif.Props.Discover
import Verif.Props.PeersSet
import Verif.Proofs.Encryption
import Mathlib.Data.List.Induction

/-!
# C102: the tables of a DHT node

`known_peers` holds the nodes that lookups and stores ask (dht/futures.rs:64, dht/peers_iter.rs:63,
dht/node.rs:246), the buckets hold the nodes returned to others (dht/node.rs:637-666).
-/
namespace Verif.Dht
open Verif.Tl Verif.Address Verif.AdnlProto Verif.DhtProto Verif.Storage Verif.Spec

variable {c : Crypto}

/-- A node record every rule admits: it is signed by the key it names, its address list is valid and
names another socket, it is not the record of the node itself, and the application accepts it. -/
structure Admitted (o : Opts c) (localId : Bytes) (now : Nat) (n : DNode) (id : Bytes) : Prop where
  ex : ∃ key pub addr, n.id = .ed25519 key ∧ c.decodePub key = some pub ∧ id = Node.shortId c pub ∧
    n.signature.length = 64 ∧
    c.verify pub (writeDNodeBoxed { n with signature := [] }) n.signature = true ∧
    parse o.adnl.build now o.adnl.clockTolerance n.addrList = .ok addr ∧
    addr ≠ o.adnl.socketAddr ∧ ∀ f, o.adnl.filter = some f → f addr id = true
  other : id ≠ localId

/-- The node is told about an admitted record: in front of a query of a stranger, or in an answer. -/
inductive Announces (o : Opts c) (localId : Bytes) : Op c → Bytes → Prop
  | query {order now now' key n id r} : Admitted o localId now n id →
      Announces o localId (.query order now now' key (.withNode n (.ping r))) id
  | learned {now key n id} : Admitted o localId now n id → Announces o localId (.learned now key n) id

/-- The node asks this one in its own lookups. -/
def Asks (s : State c) (id : Bytes) : Prop := PeersSet.contains s.known id = true

/-- The node tells others about this one. -/
def Tells (s : State c) (id : Bytes) : Prop := ∃ n, (id, n) ∈ s.buckets.bucket (Buckets.affinity s.buckets.localId id)

/-- C102, full statement: the node tells others about exactly the nodes it asks itself. -/
def C102_full : Prop :=
  ∀ (c : Crypto), c.Lawful → ∀ (o : Opts c) (adnl : Node.State c) (localId : Bytes) (maxPeers : Nat)
    (ops : List (Op c)) (id : Bytes),
    Asks (run o (init adnl localId maxPeers) ops) id ↔ Tells (run o (init adnl localId maxPeers) ops) id

/-! ### One record -/

/-- What happens to the tables when `add_dht_peer` is called: nothing, or the peer enters all three. -/
theorem addDhtPeer_tables (o : Opts c) (now : Nat) (s : State c) (n : DNode) (key : c.Sec) :
    ((addDhtPeer o now s n key).1 = s ∨ ∃ id addr pub adnl',
      Node.addPeer o.adnl s.adnl s.buckets.localId id addr pub key = (adnl', .yes) ∧
      (addDhtPeer o now s n key).1.adnl = adnl' ∧
      (addDhtPeer o now s n key).1.known = (PeersSet.insert s.known id).1 ∧
      (addDhtPeer o now s n key).1.buckets =
        if (PeersSet.insert s.known id).2 then Buckets.insert s.buckets id n else s.buckets) ∧
    (addDhtPeer o now s n key).1.storage = s.storage := by
  unfold addDhtPeer
  cases hf : Receiver.fullId c n.id with
  | none => exact ⟨.inl rfl, rfl⟩
  | some pub =>
    simp only
    split
    · exact ⟨.inl rfl, rfl⟩
    cases hp : parse o.adnl.build now o.adnl.clockTolerance n.addrList with
    | ok addr =>
      simp only
      cases ha : Node.addPeer o.adnl s.adnl s.buckets.localId (Node.shortId c pub) addr pub key with
      | mk adnl r =>
        cases r with
        | peersNotFound => exact ⟨.inl rfl, rfl⟩
        | no => exact ⟨.inl rfl, rfl⟩
        | yes =>
          simp only
          split
          · rename_i hi
            refine ⟨.inr ⟨_, addr, pub, adnl, ha, rfl, rfl, ?_⟩, rfl⟩
            rw [if_pos hi]
          · rename_i hi
            refine ⟨.inr ⟨_, addr, pub, adnl, ha, rfl, ?_, ?_⟩, rfl⟩
            · unfold PeersSet.insert at hi ⊢
              split
              · rfl
              · rename_i hg
                simp only [hg] at hi
                split at hi <;> simp at hi
            · rw [if_neg hi]
    | listIsEmpty => exact ⟨.inl rfl, rfl⟩
    | tooNew => exact ⟨.inl rfl, rfl⟩
    | expired => exact ⟨.inl rfl, rfl⟩
    | panic => exact ⟨.inl rfl, rfl⟩

theorem addDhtPeer_admitted {o : Opts c} {localId : Bytes} {now : Nat} {n : DNode} {id : Bytes}
    (h : Admitted o localId now n id) (s : State c) (key : c.Sec) (hl : s.buckets.localId = localId)
    (hp : (s.adnl.peers.get localId).isSome) :
    (addDhtPeer o now s n key).2 = .some id ∧
    (addDhtPeer o now s n key).1.known = (PeersSet.insert s.known id).1 ∧
    (addDhtPeer o now s n key).1.buckets =
      (if (PeersSet.insert s.known id).2 then Buckets.insert s.buckets id n else s.buckets) := by
  obtain ⟨k, pub, addr, h1, h2, h3, h4, h5, h6, h7, h8⟩ := h.ex
  have hv : verifySig c pub (writeDNodeBoxed { n with signature := [] }) n.signature = true := by
    simp [verifySig, h4, h5]
  have hf : Receiver.fullId c n.id = some pub := by rw [h1]; exact h2
  have hne : ¬ (id = localId ∨ addr = o.adnl.socketAddr) := fun e => e.elim h.other h7
  have hfil : ¬ ((o.adnl.filter.map (fun f => f addr id)).getD true = false) := by
    cases hx : o.adnl.filter with
    | none => simp
    | some f => simp [h8 f hx]
  obtain ⟨t, ht⟩ := Option.isSome_iff_exists.mp hp
  have ha : ∃ a, Node.addPeer o.adnl s.adnl s.buckets.localId id addr pub key = (a, .yes) := by
    rw [hl, Node.addPeer, if_neg hne, if_neg hfil]
    simp only [ht]
    cases t.get id <;> exact ⟨_, rfl⟩
  obtain ⟨a, ha⟩ := ha
  unfold addDhtPeer
  simp only [hf, hv, Bool.true_eq_false, if_false, h6, ← h3, ha]
  split
  · rename_i hi; exact ⟨rfl, rfl, rfl⟩
  · rename_i hi
    refine ⟨rfl, ?_, rfl⟩
    unfold PeersSet.insert at hi ⊢
    split
    · rfl
    · rename_i hg
      simp only [hg] at hi
      split at hi <;> simp at hi

/-! ### The invariant -/

structure Tables (localId : Bytes) (cap : Nat) (s : State c) : Prop where
  loc : s.buckets.localId = localId
  inv : PeersSet.Inv s.known
  cap : s.known.capacity = cap
  told : ∀ id, id ∈ PeersSet.queue s.known → ∃ n, Buckets.lookup s.buckets id = some n
  peer : ∀ id, id ∈ PeersSet.queue s.known → (s.adnl.peer localId id).isSome

theorem asks_iff {s : State c} (h : PeersSet.Inv s.known) (id : Bytes) :
    Asks s id ↔ id ∈ PeersSet.queue s.known := by
  unfold Asks PeersSet.contains
  rw [(PeersSet.queue_perm s.known).mem_iff, h.mem_iff]

theorem mem_fifoInsert {cap : Nat} {q : List Bytes} {x y : Bytes} (h : y ∈ fifoInsert cap q x) :
    y ∈ q ∨ y = x := by
  unfold fifoInsert at h
  split at h
  · exact .inl h
  split at h
  · simpa using h
  · rcases List.mem_append.mp h with h | h
    · exact .inl (List.mem_of_mem_tail h)
    · exact .inr (by simpa using h)

theorem addDhtPeer_tab {localId : Bytes} {cap : Nat} {o : Opts c} {s : State c} (h : Tables localId cap s)
    (now : Nat) (n : DNode) (key : c.Sec) : Tables localId cap (addDhtPeer o now s n key).1 := by
  obtain ⟨h1 | ⟨id, addr, pub, adnl', ha, e1, e2, e3⟩, -⟩ := addDhtPeer_tables o now s n key
  · rw [h1]; exact h
  obtain ⟨i1, i2, i3, i4, -⟩ := PeersSet.insert_spec h.inv id
  have hq : ∀ x, x ∈ PeersSet.queue (addDhtPeer o now s n key).1.known →
      x ∈ PeersSet.queue s.known ∨ x = id := by
    intro x hx
    rw [e2, i4] at hx
    exact mem_fifoInsert hx
  rw [h.loc] at ha
  obtain ⟨-, hp, p, -, hs⟩ := addPeer_yes _ _ _ _ _ _ _ _ ha
  refine ⟨?_, by rw [e2]; exact i1, by rw [e2, i2, h.cap], ?_, ?_⟩
  · rw [e3]; split
    · exact h.loc
    · exact h.loc
  · intro x hx
    rw [e3]
    split
    · rw [Buckets.insert_lookup]
      split
      · exact ⟨_, rfl⟩
      · rename_i hne
        exact h.told x ((hq x hx).resolve_right hne)
    · rename_i hi
      rcases hq x hx with hx | hx
      · exact h.told x hx
      · subst hx
        rw [i3] at hi
        refine h.told x ((PeersSet.queue_perm s.known).mem_iff.mpr ?_)
        simpa using hi
  · intro x hx
    rw [e1, hs]
    by_cases hne : x = id
    · subst hne
      obtain ⟨t, ht⟩ := Option.isSome_iff_exists.mp hp
      simp [Node.State.peer, Node.State.setPeer, ht]
    · have := h.peer x ((hq x hx).resolve_right hne)
      obtain ⟨t, ht⟩ := Option.isSome_iff_exists.mp hp
      simp only [Node.State.peer, Node.State.setPeer, ht] at this ⊢
      simpa [AMap.get_put_ne _ _ hne] using this

/-- Whatever `add_dht_peer` preserves, handling a query preserves. -/
theorem handle_induct {P : State c → Prop} {o : Opts c}
    (hadd : ∀ s now n key, P s → P (addDhtPeer o now s n key).1)
    (hst : ∀ (s : State c) st, P s → P { s with storage := st })
    (order : List ONode → List ONode) (now now' : Nat) (key : c.Sec) (q : Query) :
    ∀ {s : State c}, P s → P (handle o order now now' key s q).1 := by
  induction q with
  | ping r => intro s h; exact h
  | findNode k n => intro s h; exact h
  | findValue k n => intro s h; unfold handle; cases findValue o now s k n <;> exact h
  | getSignedAddressList => intro s h; exact h
  | store v =>
    intro s h
    unfold handle
    cases hi : Storage.insert c o.storage order now now' s.storage v with
    | mk st r => cases r <;> exact hst s st h
  | withNode node q ih =>
    intro s h
    have h1 := hadd s now node key h
    unfold handle
    cases ha : addDhtPeer o now s node key with
    | mk s' r =>
      rw [ha] at h1
      cases r with
      | error => exact h1
      | none => exact ih h1
      | some id => exact ih h1

theorem run_induct {P : State c → Prop} {o : Opts c}
    (hadd : ∀ s now n key, P s → P (addDhtPeer o now s n key).1)
    (hst : ∀ (s : State c) st, P s → P { s with storage := st })
    (hpen : ∀ (s : State c) p, P s → P { s with penalties := p })
    (ops : List (Op c)) : ∀ {s : State c}, P s → P (run o s ops) := by
  induction ops with
  | nil => intro s h; exact h
  | cons op ops ih =>
    intro s h
    refine ih (s := step o s op) ?_
    cases op with
    | query order now now' key q => exact handle_induct hadd hst order now now' key q h
    | learned now key n => exact hadd s now n key h
    | gc shard now => exact hst s _ h
    | status peer r => exact hpen s _ h

theorem run_tab {localId : Bytes} {cap : Nat} {o : Opts c} (ops : List (Op c)) {s : State c}
    (h : Tables localId cap s) : Tables localId cap (run o s ops) :=
  run_induct (P := Tables localId cap) (fun _ now n key h => addDhtPeer_tab h now n key)
    (fun _ _ h => ⟨h.loc, h.inv, h.cap, h.told, h.peer⟩)
    (fun _ _ h => ⟨h.loc, h.inv, h.cap, h.told, h.peer⟩) ops h

theorem init_tab (adnl : Node.State c) (localId : Bytes) (maxPeers : Nat) :
    Tables localId (max 1 maxPeers) (init adnl localId maxPeers) :=
  ⟨rfl, PeersSet.withCapacity_inv _, rfl, fun _ h => by simp [init, PeersSet.withCapacity, PeersSet.queue] at h,
    fun _ h => by simp [init, PeersSet.withCapacity, PeersSet.queue] at h⟩

/-- C102: the node tells others about every node it asks itself, and it can send to each of them. -/
theorem C102_asked_are_told_partial (o : Opts c) (adnl : Node.State c) (localId : Bytes) (maxPeers : Nat)
    (ops : List (Op c)) (id : Bytes) (h : Asks (run o (init adnl localId maxPeers) ops) id) :
    Tells (run o (init adnl localId maxPeers) ops) id ∧
    ((run o (init adnl localId maxPeers) ops).adnl.peer localId id).isSome := by
  have ht := run_tab (o := o) ops (init_tab adnl localId maxPeers)
  have hq := (asks_iff ht.inv id).mp h
  obtain ⟨n, hn⟩ := ht.told id hq
  exact ⟨⟨n, AMap.mem_of_get hn⟩, ht.peer id hq⟩

/-- C102: a node that was ever told to others is told to others for ever, under a version that does not
go back. Nothing ever leaves the routing table. -/
theorem C102_told_for_ever (o : Opts c) (s : State c) (ops : List (Op c)) (id : Bytes) (n : DNode)
    (h : Buckets.lookup s.buckets id = some n) :
    ∃ n', Buckets.lookup (run o s ops).buckets id = some n' ∧ n.version ≤ n'.version := by
  refine run_induct (P := fun s => ∃ n', Buckets.lookup s.buckets id = some n' ∧ n.version ≤ n'.version)
    ?_ (fun _ _ h => h) (fun _ _ h => h) ops ⟨n, h, Nat.le_refl _⟩
  rintro s now m key ⟨n', hn', hv⟩
  obtain ⟨h1 | ⟨x, addr, pub, adnl', -, -, -, e3⟩, -⟩ := addDhtPeer_tables o now s m key
  · rw [h1]; exact ⟨n', hn', hv⟩
  · rw [e3]
    split
    · rw [Buckets.insert_lookup]
      split
      · rename_i e
        subst e
        simp only [hn']
        by_cases hlt : n'.version < m.version
        · exact ⟨m, by rw [if_pos hlt], by omega⟩
        · exact ⟨n', by rw [if_neg hlt], hv⟩
      · exact ⟨n', hn', hv⟩
    · exact ⟨n', hn', hv⟩

/-! ### Bounded queues -/

theorem fifo_fold_drop {cap : Nat} (hcap : 0 < cap) (q : List Bytes) (hq : q.length ≤ cap) (xs : List Bytes)
    (hn : (q ++ xs).Nodup) :
    xs.foldl (fifoInsert cap) q = (q ++ xs).drop ((q ++ xs).length - cap) := by
  induction xs using List.reverseRecOn with
  | nil => simp [Nat.sub_eq_zero_of_le hq]
  | append_singleton xs y ih =>
    rw [← List.append_assoc] at hn
    have hn' := (List.nodup_append.mp hn).1
    rw [List.foldl_append, ih hn', List.foldl_cons, List.foldl_nil, ← List.append_assoc]
    have hy : y ∉ (q ++ xs) := by
      intro hy
      exact (List.nodup_append.mp hn).2.2 y hy y (by simp) rfl
    have hy' : y ∉ (q ++ xs).drop ((q ++ xs).length - cap) := fun h => hy (List.mem_of_mem_drop h)
    unfold fifoInsert
    rw [if_neg hy']
    generalize q ++ xs = l at *
    by_cases hl : l.length < cap
    · have e1 : l.length - cap = 0 := by omega
      have e2 : (l ++ [y]).length - cap = 0 := by simp; omega
      rw [e1, e2]
      simp [hl]
    · rw [if_neg (by simp; omega)]
      have e2 : (l ++ [y]).length - cap = (l.length - cap) + 1 := by simp; omega
      rw [e2, List.drop_append_of_le_length (by omega), List.tail_drop]

theorem fifo_keeps {cap : Nat} (x : Bytes) (xs : List Bytes) : ∀ (a b : List Bytes),
    b.length + xs.length < cap → x ∈ xs.foldl (fifoInsert cap) (a ++ x :: b) := by
  induction xs with
  | nil => intro a b _; simp
  | cons y xs ih =>
    intro a b h
    simp only [List.length_cons] at h
    rw [List.foldl_cons]
    unfold fifoInsert
    split
    · exact ih a b (by omega)
    split
    · rw [List.append_assoc, List.cons_append]
      exact ih a (b ++ [y]) (by simp; omega)
    · rename_i hl
      cases a with
      | nil => simp at hl; omega
      | cons z a =>
        rw [List.cons_append, List.tail_cons, List.append_assoc, List.cons_append]
        exact ih a (b ++ [y]) (by simp; omega)

/-! ### Announcements -/

theorem announce_step {o : Opts c} {localId : Bytes} {op : Op c} {id : Bytes} (h : Announces o localId op id)
    (s : State c) (hl : s.buckets.localId = localId) (hp : (s.adnl.peers.get localId).isSome) :
    (step o s op).known = (PeersSet.insert s.known id).1 ∧
    ∃ n, (step o s op).buckets =
      if (PeersSet.insert s.known id).2 then Buckets.insert s.buckets id n else s.buckets := by
  cases h with
  | @query order now now' key n _ r h =>
    obtain ⟨h1, h2, h3⟩ := addDhtPeer_admitted h s key hl hp
    have : step o s (.query order now now' key (.withNode n (.ping r))) = (addDhtPeer o now s n key).1 := by
      simp only [step, handle]
      cases ha : addDhtPeer o now s n key with
      | mk s' r =>
        cases r <;> rfl
    rw [this]
    exact ⟨h2, n, h3⟩
  | @learned now key n _ h =>
    obtain ⟨h1, h2, h3⟩ := addDhtPeer_admitted h s key hl hp
    exact ⟨h2, n, h3⟩

theorem peers_kept (o : Opts c) (localId : Bytes) (ops : List (Op c)) (s : State c)
    (hp : (s.adnl.peers.get localId).isSome) : ((run o s ops).adnl.peers.get localId).isSome := by
  refine run_induct (P := fun s => (s.adnl.peers.get localId).isSome) ?_ (fun _ _ h => h) (fun _ _ h => h) ops hp
  intro s now m key h
  obtain ⟨h1 | ⟨x, addr, pub, adnl', ha, e1, -, -⟩, -⟩ := addDhtPeer_tables o now s m key
  · rw [h1]; exact h
  · rw [e1]
    obtain ⟨-, hp, p, -, hs⟩ := addPeer_yes _ _ _ _ _ _ _ _ ha
    rw [hs]
    obtain ⟨t, ht⟩ := Option.isSome_iff_exists.mp hp
    simp only [Node.State.setPeer, ht]
    by_cases e : localId = s.buckets.localId
    · subst e; simp
    · rw [AMap.get_put_ne _ _ e]; exact h

theorem announce_run {o : Opts c} {localId : Bytes} {cap : Nat} {ops : List (Op c)} {ids : List Bytes}
    (h : List.Forall₂ (Announces o localId) ops ids) : ∀ (s : State c), Tables localId cap s →
    (s.adnl.peers.get localId).isSome →
    PeersSet.queue (run o s ops).known = ids.foldl (fifoInsert cap) (PeersSet.queue s.known) ∧
    ∀ id ∈ ids, ∃ n, Buckets.lookup (run o s ops).buckets id = some n := by
  induction h with
  | nil => intro s _ _; exact ⟨rfl, fun _ h => absurd h List.not_mem_nil⟩
  | @cons op id ops ids h1 h2 ih =>
    intro s ht hp
    obtain ⟨e1, n, e2⟩ := announce_step h1 s ht.loc hp
    have ht' : Tables localId cap (step o s op) := run_tab (o := o) [op] ht
    have hp' : ((step o s op).adnl.peers.get localId).isSome := peers_kept o localId [op] s hp
    obtain ⟨i1, i2⟩ := ih (step o s op) ht' hp'
    obtain ⟨-, -, -, j4, -⟩ := PeersSet.insert_spec ht.inv id
    refine ⟨?_, ?_⟩
    · show PeersSet.queue (run o (step o s op) ops).known = _
      rw [i1, e1, j4, ht.cap]; rfl
    · intro x hx
      rcases List.mem_cons.mp hx with rfl | hx
      · have hin : x ∈ PeersSet.queue (step o s op).known ∨
            ∃ n', Buckets.lookup (step o s op).buckets x = some n' := by
          right
          rw [e2]
          split
          · rw [Buckets.insert_lookup, if_pos rfl]; exact ⟨_, rfl⟩
          · rename_i hi
            obtain ⟨-, -, j3, -, -⟩ := PeersSet.insert_spec ht.inv x
            rw [j3] at hi
            exact ht.told x ((PeersSet.queue_perm s.known).mem_iff.mpr (by simpa using hi))
        rcases hin with hin | ⟨n', hn'⟩
        · obtain ⟨n', hn'⟩ := ht'.told x hin
          obtain ⟨m, hm, -⟩ := C102_told_for_ever o _ ops x n' hn'
          exact ⟨m, hm⟩
        · obtain ⟨m, hm, -⟩ := C102_told_for_ever o _ ops x n' hn'
          exact ⟨m, hm⟩
      · exact i2 x hx

/-- C102: after announcements of `capacity` distinct nodes that were not known, the node asks none of
the nodes it asked before: strangers who sign enough records decide alone whom it asks. -/
theorem C102_flushed (o : Opts c) (adnl : Node.State c) (localId : Bytes)
    (hp : (adnl.peers.get localId).isSome) (maxPeers : Nat) (before ops : List (Op c)) (ids : List Bytes)
    (h : List.Forall₂ (Announces o localId) ops ids) (hn : ids.Nodup)
    (hnew : ∀ id ∈ ids, ¬ Asks (run o (init adnl localId maxPeers) before) id)
    (hlen : max 1 maxPeers ≤ ids.length) (id : Bytes) :
    Asks (run o (init adnl localId maxPeers) (before ++ ops)) id ↔
      id ∈ ids.drop (ids.length - max 1 maxPeers) := by
  have ht := run_tab (o := o) before (init_tab adnl localId maxPeers)
  have hp' := peers_kept o localId before (init adnl localId maxPeers) hp
  have e : run o (init adnl localId maxPeers) (before ++ ops) =
      run o (run o (init adnl localId maxPeers) before) ops := by simp [run, List.foldl_append]
  have ht2 := run_tab (o := o) ops ht
  rw [e, asks_iff ht2.inv, (announce_run h _ ht hp').1]
  generalize hs : run o (init adnl localId maxPeers) before = s at *
  have hqn : (PeersSet.queue s.known).Nodup := (PeersSet.queue_perm s.known).nodup_iff.mpr ht.inv.nodup
  have hql : (PeersSet.queue s.known).length ≤ max 1 maxPeers := by
    rw [(PeersSet.queue_perm s.known).length_eq, ← ht.cap]; exact ht.inv.le
  rw [fifo_fold_drop (by omega) _ hql]
  · rw [List.drop_append, List.drop_eq_nil_of_le (by simp; omega), List.nil_append, List.length_append]
    have : (PeersSet.queue s.known).length + ids.length - max 1 maxPeers - (PeersSet.queue s.known).length =
      ids.length - max 1 maxPeers := by omega
    rw [this]
  · refine List.nodup_append.mpr ⟨hqn, hn, ?_⟩
    intro a ha b hb hab
    subst hab
    exact hnew a hb ((asks_iff ht.inv a).mpr ha)

/-- C102: meanwhile all the announced nodes are told to others, however many there are: the routing
table has no limit. -/
theorem C102_unlimited (o : Opts c) (adnl : Node.State c) (localId : Bytes)
    (hp : (adnl.peers.get localId).isSome) (maxPeers : Nat) (before ops : List (Op c)) (ids : List Bytes)
    (h : List.Forall₂ (Announces o localId) ops ids) (id : Bytes) (hid : id ∈ ids) :
    Tells (run o (init adnl localId maxPeers) (before ++ ops)) id := by
  have ht := run_tab (o := o) before (init_tab adnl localId maxPeers)
  have hp' := peers_kept o localId before (init adnl localId maxPeers) hp
  have e : run o (init adnl localId maxPeers) (before ++ ops) =
      run o (run o (init adnl localId maxPeers) before) ops := by simp [run, List.foldl_append]
  rw [e]
  obtain ⟨n, hn⟩ := (announce_run h _ ht hp').2 id hid
  exact ⟨n, AMap.mem_of_get hn⟩

/-- C102: a node just announced for the first time stays among those asked while fewer than `capacity`
further announcements arrive. -/
theorem C102_newest_kept (o : Opts c) (adnl : Node.State c) (localId : Bytes)
    (hp : (adnl.peers.get localId).isSome) (maxPeers : Nat) (before ops : List (Op c)) (op : Op c) (id : Bytes)
    (ids : List Bytes) (h0 : Announces o localId op id)
    (hnew : ¬ Asks (run o (init adnl localId maxPeers) before) id)
    (h : List.Forall₂ (Announces o localId) ops ids) (hlen : ids.length < max 1 maxPeers) :
    Asks (run o (init adnl localId maxPeers) (before ++ op :: ops)) id := by
  have ht := run_tab (o := o) before (init_tab adnl localId maxPeers)
  have hp' := peers_kept o localId before (init adnl localId maxPeers) hp
  have e : run o (init adnl localId maxPeers) (before ++ op :: ops) =
      run o (run o (init adnl localId maxPeers) before) (op :: ops) := by simp [run, List.foldl_append]
  have ht2 := run_tab (o := o) (op :: ops) ht
  rw [e, asks_iff ht2.inv, (announce_run (List.Forall₂.cons h0 h) _ ht hp').1, List.foldl_cons]
  have hx : id ∉ PeersSet.queue (run o (init adnl localId maxPeers) before).known :=
    fun hx => hnew ((asks_iff ht.inv id).mpr hx)
  unfold fifoInsert
  rw [if_neg hx]
  split
  · exact fifo_keeps id ids _ [] (by simpa using hlen)
  · exact fifo_keeps id ids _ [] (by simpa using hlen)

/-! ### The full statement fails -/

/-- Room for one node only; the code has room for 65536 (`C102_flushed`, `C102_unlimited` say the same
for every capacity). -/
def smallStart : State Crypto.toy := init ⟨[(Example.localId, [])], [], 0, [], []⟩ Example.localId 1

theorem evicted_is_told :
    PeersSet.contains (run Example.o smallStart [Example.learn 1 1, Example.learn 2 1]).known
      (Node.shortId Crypto.toy (1 : UInt8)) = false ∧
    ((run Example.o smallStart [Example.learn 1 1, Example.learn 2 1]).buckets.bucket
      (Buckets.affinity Example.localId (Node.shortId Crypto.toy (1 : UInt8)))).get
        (Node.shortId Crypto.toy (1 : UInt8)) = some (Example.node 1 1) := by
  constructor <;> decide +kernel

/-- C102 is violated: a node that dropped out of the bounded set is still told to others. -/
theorem C102_full_false : ¬ C102_full := by
  intro h
  obtain ⟨h1, h2⟩ := evicted_is_told
  have := (h Crypto.toy Crypto.toy_lawful Example.o ⟨[(Example.localId, [])], [], 0, [], []⟩ Example.localId 1
    [Example.learn 1 1, Example.learn 2 1] (Node.shortId Crypto.toy (1 : UInt8))).mpr
    ⟨Example.node 1 1, AMap.mem_of_get h2⟩
  exact absurd (h1.symm.trans this) (by simp)

/-! ### The hypotheses can be met -/

theorem toy_admitted (k : UInt8) (hk : k = 1 ∨ k = 2 ∨ k = 3) :
    Admitted Example.o Example.localId 1000 (Example.node k 1) (Node.shortId Crypto.toy k) := by
  refine ⟨⟨Crypto.toy.pubBytes k, k, ⟨0, 0, 0, 77, 88⟩, rfl, ?_, rfl, ?_, ?_, ?_, ?_, ?_⟩, ?_⟩
  · exact Crypto.toy_lawful.decode_pub k
  · exact Crypto.toy_lawful.sign_length _ _
  · exact Crypto.toy_lawful.sign_verify _ _
  · rcases hk with rfl | rfl | rfl <;> decide +kernel
  · decide +kernel
  · intro f hf; cases hf
  · rcases hk with rfl | rfl | rfl <;> decide +kernel

/-- A stranger announces the nodes 2 and 3 in front of pings; the node had known node 1. -/
example : List.Forall₂ (Announces Example.o Example.localId)
    [.query id 1000 1000 (7 : UInt8) (.withNode (Example.node 2 1) (.ping 5)), Example.learn 3 1]
    [Node.shortId Crypto.toy (2 : UInt8), Node.shortId Crypto.toy (3 : UInt8)] ∧
    [Node.shortId Crypto.toy (2 : UInt8), Node.shortId Crypto.toy (3 : UInt8)].Nodup ∧
    Asks (run Example.o smallStart [Example.learn 1 1]) (Node.shortId Crypto.toy (1 : UInt8)) ∧
    ¬ Asks (run Example.o smallStart [Example.learn 1 1]) (Node.shortId Crypto.toy (2 : UInt8)) ∧
    ¬ Asks (run Example.o smallStart [Example.learn 1 1]) (Node.shortId Crypto.toy (3 : UInt8)) := by
  refine ⟨.cons (.query (toy_admitted 2 (by simp))) (.cons (.learned (toy_admitted 3 (by simp))) .nil), ?_, ?_, ?_, ?_⟩
  · decide +kernel
  · unfold Asks; decide +kernel
  · unfold Asks; decide +kernel
  · unfold Asks; decide +kernel

-- C102_asked_are_told_partial: node 1 is asked, and told
example := C102_asked_are_told_partial Example.o ⟨[(Example.localId, [])], [], 0, [], []⟩ Example.localId 1
  [Example.learn 1 1] (Node.shortId Crypto.toy (1 : UInt8)) (show _ = _ by decide +kernel)

-- C102_told_for_ever: the record of node 1 outlives the arrival of node 2
example := C102_told_for_ever Example.o (run Example.o smallStart [Example.learn 1 1]) [Example.learn 2 1]
  (Node.shortId Crypto.toy (1 : UInt8)) (Example.node 1 1) (by decide +kernel)

theorem toy_announced : List.Forall₂ (Announces Example.o Example.localId)
    [.query id 1000 1000 (7 : UInt8) (.withNode (Example.node 2 1) (.ping 5)), Example.learn 3 1]
    [Node.shortId Crypto.toy (2 : UInt8), Node.shortId Crypto.toy (3 : UInt8)] :=
  .cons (.query (toy_admitted 2 (by simp))) (.cons (.learned (toy_admitted 3 (by simp))) .nil)

theorem toy_unasked (k : UInt8) (hk : k = 2 ∨ k = 3) :
    ¬ Asks (run Example.o smallStart [Example.learn 1 1]) (Node.shortId Crypto.toy k) := by
  rcases hk with rfl | rfl <;> (unfold Asks; decide +kernel)

-- C102_flushed: room for one, node 1 known, nodes 2 and 3 announced: only node 3 is left
example := C102_flushed Example.o ⟨[(Example.localId, [])], [], 0, [], []⟩ Example.localId rfl 1
  [Example.learn 1 1] _ _ toy_announced (by decide +kernel)
  (by intro id h; rcases List.mem_cons.mp h with rfl | h
      · exact toy_unasked 2 (.inl rfl)
      · rcases List.mem_singleton.mp h with rfl; exact toy_unasked 3 (.inr rfl)) (by decide)

-- C102_unlimited: both announced nodes are told although there is room for one
example := C102_unlimited Example.o ⟨[(Example.localId, [])], [], 0, [], []⟩ Example.localId rfl 1
  [Example.learn 1 1] _ _ toy_announced (Node.shortId Crypto.toy (2 : UInt8)) (by simp)

-- C102_newest_kept: room for two, one announced after node 2
example := C102_newest_kept Example.o ⟨[(Example.localId, [])], [], 0, [], []⟩ Example.localId rfl 2
  [Example.learn 1 1] [Example.learn 3 1] (Example.learn 2 1) (Node.shortId Crypto.toy (2 : UInt8))
  [Node.shortId Crypto.toy (3 : UInt8)] (.learned (toy_admitted 2 (by simp))) (by unfold Asks; decide +kernel)
  (.cons (.learned (toy_admitted 3 (by simp))) .nil) (by decide)

end Verif.Dht
