import Verif.Props.Publish

/-!
# C83: publishing the membership of an overlay
-/
namespace Verif.Dht
open Verif.Tl Verif.AdnlProto Verif.DhtProto Verif.Storage

variable {c : Crypto}

/-- Where the nodes of an overlay are stored. -/
def nodesKey (c : Crypto) (fullId : Bytes) : Bytes :=
  storageKey c ⟨c.sha (writePubKey (.overlay fullId)), keyNodes, 0⟩

/-- The stored list has the node, in this version or a newer one. -/
def Listed (c : Crypto) (st : St) (fullId : Bytes) (n : ONode) : Prop :=
  ∃ e nodes n', st.get (nodesKey c fullId) = some e ∧ decodeNodes e.value = some nodes ∧ n' ∈ nodes ∧
    n'.id = n.id ∧ n.version ≤ n'.version

/-- The property: if a node acknowledges the record that a member of an overlay publishes, its list has the
record from then on. -/
def C83_full (c : Crypto) : Prop :=
  ∀ (o : Storage.Opts) (ops : List Storage.Op) (order : List ONode → List ONode) (m : Build)
    (t now now' valueTtl : Nat) (fullId : Bytes) (n : ONode) (v : Value),
    ValidNode c (c.sha (writePubKey (.overlay fullId))) n → n.wf →
    overlayValue c m t valueTtl fullId n = some v → History c (ops ++ [.insert order now now' v]) →
    ∀ b, (Storage.insert c o order now now' (Storage.run c o [] ops) v).2 = .ok b →
      Listed c (Storage.run c o [] (ops ++ [.insert order now now' v])) fullId n

theorem overlayValue_some {m : Build} {t valueTtl : Nat} {fullId : Bytes} {n : ONode} {v : Value}
    (h : overlayValue c m t valueTtl fullId n = some v) :
    ∃ ttl, addU32 m t valueTtl = some ttl ∧
      v = ⟨⟨⟨c.sha (writePubKey (.overlay fullId)), keyNodes, 0⟩, .overlay fullId, .overlayNodes, []⟩,
        writeONodes [n], ttl, []⟩ := by
  unfold overlayValue at h
  cases ha : addU32 m t valueTtl with
  | none => rw [ha] at h; cases h
  | some ttl => rw [ha] at h; cases h; exact ⟨ttl, rfl, rfl⟩

/-- A list of one valid record passes the checks. -/
theorem overlayOk_one {fullId : Bytes} {n : ONode} (hn : ValidNode c (c.sha (writePubKey (.overlay fullId))) n)
    (hw : n.wf) (ttl : Nat) :
    overlayOk c ⟨⟨⟨c.sha (writePubKey (.overlay fullId)), keyNodes, 0⟩, .overlay fullId, .overlayNodes, []⟩,
      writeONodes [n], ttl, []⟩ = .ok [n] := by
  have hd : decodeNodes (writeONodes [n]) = some [n] :=
    decodeNodes_write (show 1 < 2 ^ 32 by decide) fun x hx => by rw [List.mem_singleton.mp hx]; exact hw
  have hv := (verifyONode_iff _ _).mpr hn
  unfold overlayOk
  simp only [ne_eq, not_true_eq_false, or_self, if_false, isOverlay, Bool.true_eq_false, hd, List.filter_cons, hv,
    if_true, List.filter_nil, List.cons_ne_nil]

theorem values_append (a b : List Storage.Op) : values (a ++ b) = values a ++ values b := by
  induction a with
  | nil => rfl
  | cons x a ih => rw [List.cons_append, values_cons, ih, values_cons x a, List.append_assoc]

/-- A value with one valid record is taken unless a living list outlives it. -/
theorem one_taken (o : Storage.Opts) (ops : List Storage.Op) (order : List ONode → List ONode)
    (now now' ttl : Nat) (fullId : Bytes) (n : ONode)
    (hn : ValidNode c (c.sha (writePubKey (.overlay fullId))) n) (hw : n.wf) (h : History c (ops ++ [.insert order now now'
      ⟨⟨⟨c.sha (writePubKey (.overlay fullId)), keyNodes, 0⟩, .overlay fullId, .overlayNodes, []⟩,
        writeONodes [n], ttl, []⟩])) (hname : 5 ≤ o.maxNameLen) (hlive : now < ttl)
    (hold : ∀ e, (Storage.run c o [] ops).get (nodesKey c fullId) = some e → e.ttl < now' ∨ e.ttl ≤ ttl) :
    (Storage.insert c o order now now' (Storage.run c o [] ops)
      ⟨⟨⟨c.sha (writePubKey (.overlay fullId)), keyNodes, 0⟩, .overlay fullId, .overlayNodes, []⟩,
        writeONodes [n], ttl, []⟩).2 = .ok true := by
  unfold Storage.insert
  rw [if_neg (by simpa using hlive), if_neg, if_neg (by simp)]
  · simp only
    unfold insertOverlay
    rw [overlayOk_one hn hw]
    simp only
    cases hg : (Storage.run c o [] ops).get (storageKey c ⟨c.sha (writePubKey (.overlay fullId)), keyNodes, 0⟩) with
    | none => rfl
    | some e =>
      simp only
      by_cases he : e.ttl < now'
      · rw [if_pos he]
      · rw [if_neg he, if_neg]
        · have hst := history_ovOk (o := o) h.prefix
          have hst' : OvOk c o (values (ops ++ [.insert order now now' ⟨⟨⟨c.sha (writePubKey (.overlay fullId)), keyNodes, 0⟩,
              .overlay fullId, .overlayNodes, []⟩, writeONodes [n], ttl, []⟩])) (total ops) (Storage.run c o [] ops) :=
            ⟨hst.ok, fun k e hm => by
              obtain ⟨w, hw, he⟩ := hst.src k e hm
              exact ⟨w, by rw [values_append]; simp [hw], he⟩, hst.nodes⟩
          obtain ⟨-, -, h3⟩ := same_key hst' h.noCollision (by rw [values_append]; simp [values]; exact .inr rfl) rfl rfl hg
          obtain ⟨nodes, h1, -⟩ := decode_ok (hst.nodes _ _ (AMap.mem_of_get hg) h3) h.prefix.small
          rw [h1]
        · rcases hold e hg with h1 | h1
          · exact absurd h1 he
          · exact Nat.not_lt.mpr h1
  · simp only [gt_iff_lt, not_or, Nat.not_lt]
    exact ⟨hname, Nat.zero_le _⟩

/-- **C83, partial.** The property holds as long as the list stored before, if still alive, does not outlive the new
value. -/
theorem C83_listed_partial (o : Storage.Opts) (ops : List Storage.Op) (order : List ONode → List ONode) (m : Build)
    (t now now' valueTtl : Nat) (fullId : Bytes) (n : ONode) (v : Value)
    (hn : ValidNode c (c.sha (writePubKey (.overlay fullId))) n) (hw : n.wf)
    (hv : overlayValue c m t valueTtl fullId n = some v) (h : History c (ops ++ [.insert order now now' v]))
    (hname : 5 ≤ o.maxNameLen) (hlive : now < v.ttl)
    (hold : ∀ e, (Storage.run c o [] ops).get (nodesKey c fullId) = some e → e.ttl < now' ∨ e.ttl ≤ v.ttl) :
    (Storage.insert c o order now now' (Storage.run c o [] ops) v).2 = .ok true ∧
      Listed c (Storage.run c o [] (ops ++ [.insert order now now' v])) fullId n := by
  obtain ⟨ttl, -, rfl⟩ := overlayValue_some hv
  have hok := one_taken o ops order now now' ttl fullId n hn hw h hname hlive hold
  refine ⟨hok, ?_⟩
  obtain ⟨sent, old, res, e, h1, -, h3, -, h5, -, -, h8⟩ := C31_merge o ops order now now' _ h rfl hok
  have hd : decodeNodes (writeONodes [n]) = some [n] :=
    decodeNodes_write (show 1 < 2 ^ 32 by decide) fun x hx => by rw [List.mem_singleton.mp hx]; exact hw
  rw [hd] at h1
  cases h1
  obtain ⟨n', h9, h10, h11⟩ := h8 n (.inr ⟨List.mem_singleton.mpr rfl, hn⟩)
  exact ⟨e, res, n', h3, h5, h9, h10, h11⟩

/-- **C83.** A node publishes only records of the overlay which have the signature of the node they name, under the
key of the overlay; and what it sends is what the other theorems are about. -/
theorem C83_published (o : Opts c) (e : Env c) (valueTtl : Nat) (s : State c) (fullId : Bytes) (n : ONode) (q : Bytes)
    (h : (storeOverlayNode o e valueTtl s fullId n).2 = some q) :
    ValidNode c (c.sha (writePubKey (.overlay fullId))) n ∧
      ∃ v, overlayValue c o.adnl.build e.now valueTtl fullId n = some v ∧ q = writeQuery (.store v) ∧
        v.key.key.name.map (·.toNat) = tl!"nodes" ∧ v.key.key.id = c.sha (writePubKey (.overlay fullId)) ∧
        decodeNodes v.value = decodeNodes (writeONodes [n]) ∧
        (storeOverlayNode o e valueTtl s fullId n).1.storage =
          (Storage.insert c o.storage e.order e.now e.now' s.storage v).1 := by
  unfold storeOverlayNode at h ⊢
  split at h
  · cases h
  rename_i hv
  rw [if_neg hv]
  cases ho : overlayValue c o.adnl.build e.now valueTtl fullId n with
  | none => rw [ho] at h; cases h
  | some v =>
    rw [ho] at h
    simp only at h ⊢
    refine ⟨(verifyONode_iff _ _).mp (by simpa using hv), v, rfl, ?_⟩
    obtain ⟨ttl, -, hvv⟩ := overlayValue_some ho
    unfold storeNew at h ⊢
    split at h
    · rename_i st b hi
      cases h
      refine ⟨rfl, ?_, ?_, ?_, ?_⟩
      · rw [hvv]; rfl
      · rw [hvv]
      · rw [hvv]
      · simp only [hi]
    · cases h

theorem get_filter_keep {p : Bytes × Value → Bool} {k : Bytes} {e : Value} : ∀ {st : St}, st.get k = some e →
    p (k, e) = true → AMap.get (st.filter p) k = some e := by
  intro st
  induction st with
  | nil => intro h; cases h
  | cons x st ih =>
    obtain ⟨k', v⟩ := x
    intro h hp
    rw [AMap.get_cons] at h
    by_cases hk : k' = k
    · rw [if_pos hk] at h
      cases h
      subst hk
      rw [List.filter_cons, if_pos hp, AMap.get_cons, if_pos rfl]
    · rw [if_neg hk] at h
      rw [List.filter_cons]
      split
      · rw [AMap.get_cons, if_neg hk]; exact ih h hp
      · exact ih h hp

/-- **C83.** What one list of far-away expiry does: as long as the clock has not passed the expiry, nothing that
expires earlier is ever taken for the same key, whoever publishes it and however often. -/
theorem C83_frozen (o : Storage.Opts) (k : Bytes) (e : Value) (ops : List Storage.Op) : ∀ (st : St), st.get k = some e →
    (∀ op ∈ ops, match op with
      | .insert _ _ now' v => now' ≤ e.ttl ∧ v.ttl < e.ttl
      | .gc _ now => now < e.ttl) →
    (Storage.run c o st ops).get k = some e := by
  induction ops with
  | nil => intro st h _; exact h
  | cons op ops ih =>
    intro st h hb
    have hop := hb op List.mem_cons_self
    refine ih (Storage.step c o st op) ?_ fun x hx => hb x (List.mem_cons_of_mem _ hx)
    cases op with
    | gc shard now =>
      have hop : now < e.ttl := hop
      exact get_filter_keep h (by simp [hop])
    | insert order now now' v =>
      obtain ⟨h1, h2⟩ : now' ≤ e.ttl ∧ v.ttl < e.ttl := hop
      show (Storage.insert c o order now now' st v).1.get k = some e
      have he := insert_effect (c := c) o order now now' st v
      generalize (Storage.insert c o order now now' st v).1 = st' at he ⊢
      generalize (Storage.insert c o order now now' st v).2 = res at he
      cases he with
      | refused => exact h
      | kept => exact h
      | signed ht hn hi hk hr' hs hv =>
        by_cases hkk : k = storageKey c v.key.key
        · subst hkk
          have := hv e h
          omega
        · rw [AMap.get_put_ne _ _ hkk]; exact h
      | overlay new old ht hn hi hk hr' hs hv =>
        by_cases hkk : k = storageKey c v.key.key
        · subst hkk
          rw [h] at hv
          rcases hv with ⟨hv, -⟩ | ⟨e', hv, h3, -⟩ | ⟨e', hv, -, h3, -⟩
          · cases hv
          · cases hv; omega
          · cases hv; omega
        · rw [AMap.get_put_ne _ _ hkk]; exact h

/-- **C83.** Any key can do this to any public overlay: a record needs only the signature of the node it names, and
the expiry of the list is not covered by any signature. Afterwards, up to the end of time, everybody else's records
are acknowledged but not kept. -/
theorem C83_anyone_can_freeze (o : Storage.Opts) (ops : List Storage.Op) (order : List ONode → List ONode)
    (now now' : Nat) (fullId : Bytes) (n : ONode) (hn : ValidNode c (c.sha (writePubKey (.overlay fullId))) n)
    (hw : n.wf) (v : Value)
    (hv : v = ⟨⟨⟨c.sha (writePubKey (.overlay fullId)), keyNodes, 0⟩, .overlay fullId, .overlayNodes, []⟩,
      writeONodes [n], 2 ^ 32 - 1, []⟩) (h : History c (ops ++ [.insert order now now' v]))
    (hname : 5 ≤ o.maxNameLen) (hnow : now < 2 ^ 32 - 1)
    (hold : ∀ e, (Storage.run c o [] ops).get (nodesKey c fullId) = some e → e.ttl < 2 ^ 32) :
    ∃ e nodes, decodeNodes e.value = some nodes ∧ ∀ later : List Storage.Op,
      (∀ op ∈ later, match op with
        | .insert _ _ now' v => now' < 2 ^ 32 ∧ v.ttl < 2 ^ 32 - 1
        | .gc _ now => now < 2 ^ 32 - 1) →
      (Storage.run c o [] (ops ++ .insert order now now' v :: later)).get (nodesKey c fullId) = some e := by
  subst hv
  have hok := one_taken o ops order now now' (2 ^ 32 - 1) fullId n hn hw h hname hnow (fun e he => by
    have := hold e he; omega)
  obtain ⟨sent, old, res, e, -, -, h3, h4, h5, -⟩ := C31_merge o ops order now now' _ h rfl hok
  refine ⟨e, res, h5, fun later hl => ?_⟩
  have h4 : e.ttl = 2 ^ 32 - 1 := h4
  have := C83_frozen (c := c) o (nodesKey c fullId) e later _ h3 (fun op ho => by
    have := hl op ho
    cases op with
    | insert _ _ now' v =>
      have : now' < 2 ^ 32 ∧ v.ttl < 2 ^ 32 - 1 := this
      show now' ≤ e.ttl ∧ v.ttl < e.ttl
      omega
    | gc _ now =>
      have : now < 2 ^ 32 - 1 := this
      show now < e.ttl
      omega)
  rw [← this]
  simp [Storage.run, List.foldl_append]

/-! #### The negation -/

namespace Example

/-- The toy node 1 stores a list with the last possible expiry. -/
def frozen : List Storage.Op := [.insert id 10 10 (Storage.Example.overlayValue [Storage.Example.node 1 5] (2 ^ 32 - 1))]

/-- Then the toy node 2 publishes its record for an hour. -/
def late : Value := Storage.Example.overlayValue [Storage.Example.node 2 7] 3620

def lateOp : Storage.Op := .insert id 20 20 late

theorem history : History Crypto.toy (frozen ++ [lateOp]) := by
  refine ⟨by decide +kernel, ?_, by decide +kernel⟩
  intro op h
  simp only [frozen, lateOp, List.cons_append, List.nil_append, List.mem_cons, List.not_mem_nil, or_false] at h
  rcases h with rfl | rfl
  · exact fun l => List.Perm.refl l
  · exact fun l => List.Perm.refl l

end Example

/-- `C83_published` applies to the record of the toy node 2. -/
example : (storeOverlayNode Dht.Example.o Dht.Example.env 3600 Dht.Example.s0 [7] (Storage.Example.node 2 7)).2.isSome :=
  by decide +kernel

theorem late_not_kept : (Storage.insert Crypto.toy Storage.Example.o id 20 20
      (Storage.run Crypto.toy Storage.Example.o [] Example.frozen) Example.late).2 = .ok false ∧
    (((Storage.run Crypto.toy Storage.Example.o [] (Example.frozen ++ [Example.lateOp])).get (nodesKey Crypto.toy [7])).bind
      fun e => decodeNodes e.value) = some [Storage.Example.node 1 5] := by decide +kernel

theorem node_wf : (Storage.Example.node 2 7).wf := by
  refine ⟨?_, by decide +kernel, by decide +kernel, by decide +kernel⟩
  show (Crypto.toy.pubBytes (2 : UInt8)).length = 32
  decide +kernel

/-- **C83** is false: the record is acknowledged, but the list is as before. -/
theorem C83_full_false : ¬ C83_full Crypto.toy := by
  intro h
  have hn : ValidNode Crypto.toy (Crypto.toy.sha (writePubKey (.overlay [7]))) (Storage.Example.node 2 7) :=
    (verifyONode_iff _ _).mp (by decide +kernel)
  obtain ⟨e, nodes, n', h1, h2, h3, h4, -⟩ := h Storage.Example.o Example.frozen id .release 20 20 20 3600 [7]
    (Storage.Example.node 2 7) Example.late hn node_wf (by rfl) Example.history false late_not_kept.1
  have h5 := late_not_kept.2
  have h1' : (Storage.run Crypto.toy Storage.Example.o [] (Example.frozen ++ [Example.lateOp])).get
    (nodesKey Crypto.toy [7]) = some e := h1
  rw [h1'] at h5
  simp only [Option.bind_some] at h5
  rw [h2] at h5
  cases h5
  rw [List.mem_singleton.mp h3] at h4
  revert h4
  decide +kernel

/-- Without the first operation the record is kept: the hypotheses of the partial theorem can be met. -/
example : Listed Crypto.toy (Storage.run Crypto.toy Storage.Example.o [] ([] ++ [Example.lateOp])) [7]
    (Storage.Example.node 2 7) := by
  have hn : ValidNode Crypto.toy (Crypto.toy.sha (writePubKey (.overlay [7]))) (Storage.Example.node 2 7) :=
    (verifyONode_iff _ _).mp (by decide +kernel)
  refine (C83_listed_partial Storage.Example.o [] id .release 20 20 20 3600 [7] (Storage.Example.node 2 7) Example.late hn
    node_wf (by rfl) ⟨by decide +kernel, ?_, by decide +kernel⟩ (by decide) (by decide +kernel) ?_).2
  · intro op h
    rw [List.nil_append, List.mem_singleton] at h
    subst h
    exact fun l => List.Perm.refl l
  · intro e he
    cases he

-- C83_published
example : ∃ q v, overlayValue Crypto.toy Dht.Example.o.adnl.build Dht.Example.env.now 3600 [7] (Storage.Example.node 2 7)
    = some v ∧ q = writeQuery (.store v) := by
  have h : (storeOverlayNode Dht.Example.o Dht.Example.env 3600 Dht.Example.s0 [7] (Storage.Example.node 2 7)).2.isSome =
    true := by decide +kernel
  obtain ⟨q, h⟩ := Option.isSome_iff_exists.mp h
  obtain ⟨-, v, h1, h2, -⟩ := C83_published _ _ _ _ _ _ _ h
  exact ⟨q, v, h1, h2⟩

-- C83_frozen: a value that lasts for ever, and a later store
example := C83_frozen (c := Crypto.toy) Storage.Example.o (nodesKey Crypto.toy [7])
  (Storage.Example.overlayValue [Storage.Example.node 1 5] (2 ^ 32 - 1)) [Example.lateOp]
  (Storage.run Crypto.toy Storage.Example.o [] Example.frozen) (by decide +kernel) (by
    intro op h
    rw [List.mem_singleton] at h
    subst h
    exact ⟨by decide, by decide +kernel⟩)

end Verif.Dht
