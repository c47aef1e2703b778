import Verif.Props.OverlayPeers
import Verif.Props.Publish

/-!
# C128: how much others can make a node keep
-/
namespace Verif.Hoard
open Verif.Overlay Verif.Dht Verif.Storage Verif.AdnlProto Verif.DhtProto Verif.Props Verif.Spec

variable {c : Crypto}

/-! ### Specification -/

/-- Whatever happens, an overlay keeps at most 65536 known peers (the limit in the code), not more neighbours than
configured, at most 65536 records of nodes and as many new ones. -/
def OverlayLimited : Prop := ∀ (c : Crypto), c.Lawful →
  ∀ (e : PEnv c) (peers chosen : List Bytes) (as : List PAction),
    let s := prun e (PState.init e peers chosen) as
    s.known.index.length ≤ 65536 ∧ s.neighbours.index.length ≤ max 1 e.maxNeighbours ∧ s.nodes.length ≤ 65536 ∧
      s.received.length ≤ 65536

/-- Whatever it is told to store, a DHT node that takes the keys it takes by default (names up to 127 bytes, indices up
to 15) keeps at most 65536 values. -/
def StorageLimited : Prop := ∀ (c : Crypto), c.Lawful →
  ∀ ops : List Op, (Storage.run c ⟨127, 15⟩ [] ops).length ≤ 65536

/-- C128, full statement. -/
def C128_full : Prop := OverlayLimited ∧ StorageLimited

/-- The record a node with key `sec` makes of itself (overlay.rs:457-475). -/
def record (c : Crypto) (overlay : Bytes) (version : Nat) (sec : c.Sec) : ONode :=
  ⟨.ed25519 (c.pubBytes (c.pubOf sec)), overlay, version,
    c.sign sec (writeNodeToSign (Node.shortId c (c.pubOf sec)) overlay version)⟩

/-! ### Counting -/

theorem length_of_keys {κ ν : Type} [DecidableEq κ] (m : AMap κ ν) {ks : List κ} (hn : ks.Nodup)
    (h : ∀ k ∈ ks, k ∈ m.keys) : ks.length ≤ m.length := by
  have := (List.subperm_of_subset hn h).length_le
  rwa [AMap.keys, List.length_map] at this

/-! ### Overlay -/

/-- C128 for the peers of an overlay: the two sets never outgrow their capacities. -/
theorem C128_sets_partial (e : PEnv c) (peers chosen : List Bytes) (as : List PAction) :
    let s := prun e (PState.init e peers chosen) as
    s.known.index.length ≤ 65536 ∧ s.neighbours.index.length ≤ max 1 e.maxNeighbours := by
  intro s
  have h : SetsInv e s := setsInv_run (setsInv_init e peers chosen) as
  have h1 := h.known.le
  have h2 := h.neigh.le
  rw [h.knownCap] at h1
  rw [h.neighCap] at h2
  exact ⟨h1, h2⟩

theorem nodup_storeNewer {m : AMap PubKey ONode} (h : m.keys.Nodup) (k : PubKey) (n : ONode) :
    (storeNewer m k n).keys.Nodup := by
  unfold storeNewer
  split
  · split
    · exact AMap.nodup_put h _ _
    · exact h
  · exact AMap.nodup_put h _ _

theorem nodup_received (e : PEnv c) (as : List PAction) : ∀ s : PState, s.received.keys.Nodup →
    (prun e s as).received.keys.Nodup := by
  induction as with
  | nil => intro s h; exact h
  | cons a as ih =>
    intro s h
    refine ih _ ?_
    cases a with
    | add addr n => simp only [pstep]; rw [add_received]; exact h
    | addMany l => simp only [pstep]; rw [addMany_received]; exact h
    | remove p ch => simp only [pstep]; rw [remove_received]; exact h
    | refresh ch => exact h
    | exchange l now ch =>
      show ((filterNodes e l).foldl (fun m n => storeNewer m n.id n) s.received).keys.Nodup
      generalize filterNodes e l = xs
      generalize s.received = m at h
      induction xs generalizing m with
      | nil => exact h
      | cons x xs ihx => exact ihx _ (nodup_storeNewer h _ _)
    | take => exact List.nodup_nil
    | adnl t => exact h

/-- C128 for the new records of an overlay: there are not more of them than were received since they were last taken.
Missing from the full claim: nothing else limits them. -/
theorem C128_received_partial (e : PEnv c) (peers chosen : List Bytes) (as : List PAction) :
    (prun e (PState.init e peers chosen) as).received.length ≤ (heard [] as).length := by
  have hn := nodup_received e as (PState.init e peers chosen) (by rw [init_received]; exact List.nodup_nil)
  have h := (C49_received e peers chosen as).1
  have := (List.subperm_of_subset hn (l₂ := (heard [] as).map (·.id)) (fun k hk => by
    obtain ⟨n, hk⟩ := Option.isSome_iff_exists.mp (AMap.get_isSome_iff.mpr hk)
    obtain ⟨h1, h2, -⟩ := h k n hk
    exact List.mem_map.mpr ⟨n, h1, h2⟩)).length_le
  rwa [AMap.keys, List.length_map, List.length_map] at this

theorem record_foreign (hc : c.Lawful) {e : PEnv c} {sec : c.Sec} (version : Nat)
    (h : c.pubBytes (c.pubOf sec) ≠ c.pubBytes (c.pubOf e.key)) : Foreign e (record c e.overlay version sec) := by
  refine ⟨fun hh => h (PubKey.ed25519.inj hh), c.pubOf sec, ?_⟩
  refine ⟨rfl, ?_, ?_, ?_⟩
  · exact hc.decode_pub _
  · exact hc.sign_length _ _
  · exact hc.sign_verify _ _

/-- C128, what breaks the claim in an overlay: whoever has `secs` different keys makes the node keep as many records, by
having it receive the record of each key since the new records were last taken. -/
theorem C128_received (hc : c.Lawful) (e : PEnv c) (peers chosen : List Bytes) (as : List PAction) (secs : List c.Sec)
    (version : Nat) (hn : (secs.map fun s => c.pubBytes (c.pubOf s)).Nodup)
    (hown : ∀ s ∈ secs, c.pubBytes (c.pubOf s) ≠ c.pubBytes (c.pubOf e.key))
    (hsent : ∀ s ∈ secs, record c e.overlay version s ∈ heard [] as) :
    secs.length ≤ (prun e (PState.init e peers chosen) as).received.length := by
  have h := (C49_received e peers chosen as).2
  have hk : ((secs.map fun s => c.pubBytes (c.pubOf s)).map PubKey.ed25519).Nodup :=
    hn.map fun a b hab => PubKey.ed25519.inj hab
  have := length_of_keys (prun e (PState.init e peers chosen) as).received hk (by
    intro k hk
    obtain ⟨b, hb, rfl⟩ := List.mem_map.mp hk
    obtain ⟨s, hs, rfl⟩ := List.mem_map.mp hb
    obtain ⟨n', hn'⟩ := h _ (hsent s hs) (record_foreign hc version (hown s hs))
    exact AMap.get_isSome_iff.mp (by
      show (AMap.get _ (record c e.overlay version s).id).isSome
      rw [show (prun e (PState.init e peers chosen) as).received.get (record c e.overlay version s).id = some n'
        from hn']; rfl))
  rwa [List.length_map, List.length_map] at this

/-- C128, what breaks the claim for the stored records: a peer that was once added stays among them for ever, also
after it was removed. -/
theorem C128_nodes (e : PEnv c) (peers chosen : List Bytes) (as : List PAction) (pubs : List c.Pub)
    (hn : (pubs.map (Node.shortId c)).Nodup)
    (hadd : ∀ p ∈ pubs, ∃ addr n, (addr, n) ∈ offers as ∧ Welcome e addr n p) :
    pubs.length ≤ (prun e (PState.init e peers chosen) as).nodes.length := by
  have h := (C49_stored e peers chosen as).2
  have := length_of_keys (prun e (PState.init e peers chosen) as).nodes hn (by
    intro k hk
    obtain ⟨p, hp, rfl⟩ := List.mem_map.mp hk
    obtain ⟨addr, n, h1, h2⟩ := hadd p hp
    obtain ⟨n', hn'⟩ := h addr n p h1 h2
    exact AMap.get_isSome_iff.mp (by rw [hn']; rfl))
  rwa [List.length_map] at this

/-! ### DHT storage -/

theorem keys_values (o : Storage.Opts) (ops : List Op) : ∀ (st : St) (k : Bytes), k ∈ (Storage.run c o st ops).keys →
    k ∈ st.keys ∨ k ∈ (values ops).map fun v => storageKey c v.key.key := by
  induction ops with
  | nil => intro st k h; exact .inl h
  | cons op ops ih =>
    intro st k hk
    rcases ih _ k hk with h | h
    · clear hk
      cases op with
      | gc shard now =>
        exact .inl ((List.Sublist.map _ List.filter_sublist).subset h)
      | insert order now now' v =>
        simp only [Storage.step] at h
        have he := insert_effect (c := c) o order now now' st v
        generalize Storage.insert c o order now now' st v = r at h he
        obtain ⟨st', res⟩ := r
        simp only at h he
        cases he with
        | refused => exact .inl h
        | kept => exact .inl h
        | signed =>
          rcases AMap.mem_keys_put.mp h with h | h
          · right; simp [values, h]
          · exact .inl h
        | overlay =>
          rcases AMap.mem_keys_put.mp h with h | h
          · right; simp [values, h]
          · exact .inl h
    · right
      clear hk
      cases op with
      | gc shard now => exact h
      | insert order now now' v => simp only [values, List.map_cons]; exact List.mem_cons_of_mem _ h

/-- C128 for a DHT node: there are not more values than it was told to store. Missing from the full claim: nothing else
limits them. -/
theorem C128_storage_partial (o : Storage.Opts) (ops : List Op) :
    (Storage.run c o [] ops).length ≤ (values ops).length := by
  have hn : (AMap.keys (Storage.run c o [] ops)).Nodup := run_nodup ops List.nodup_nil
  have := (List.subperm_of_subset hn (l₂ := (values ops).map fun v => storageKey c v.key.key) (fun k hk => by
    rcases keys_values o ops [] k hk with h | h
    · cases h
    · exact h)).length_le
  rwa [AMap.keys, List.length_map, List.length_map] at this

/-- The operation takes place before `T`. -/
def Before (T : Nat) : Op → Prop
  | .insert _ now now' _ => now < T ∧ now' < T
  | .gc _ now => now < T

theorem stays {o : Storage.Opts} {T : Nat} {op : Op} (hb : Before T op) {st : St} (hnd : (AMap.keys st).Nodup)
    {k : Bytes} (h : ∃ e, st.get k = some e ∧ T ≤ e.ttl) : ∃ e, (Storage.step c o st op).get k = some e ∧ T ≤ e.ttl := by
  obtain ⟨e, he, ht⟩ := h
  cases op with
  | gc shard now =>
    simp only [Before] at hb
    refine ⟨e, AMap.get_of_mem (hnd.sublist (List.Sublist.map _ List.filter_sublist)) ?_, ht⟩
    exact (C28_gc_partial_progress st shard now k e).mpr ⟨AMap.mem_of_get he, fun _ => by omega⟩
  | insert order now now' v =>
    simp only [Storage.step, Before] at hb ⊢
    have hf := insert_effect (c := c) o order now now' st v
    generalize Storage.insert c o order now now' st v = r at hf
    obtain ⟨st', res⟩ := r
    simp only at hf ⊢
    cases hf with
    | refused => exact ⟨e, he, ht⟩
    | kept => exact ⟨e, he, ht⟩
    | signed _ _ _ _ _ _ hv =>
      by_cases hk : k = storageKey c v.key.key
      · subst hk
        rw [AMap.get_put_self]
        exact ⟨v, rfl, by have := hv e he; omega⟩
      · rw [AMap.get_put_ne _ _ hk]; exact ⟨e, he, ht⟩
    | overlay new old _ _ _ _ _ _ hv =>
      by_cases hk : k = storageKey c v.key.key
      · subst hk
        rw [AMap.get_put_self]
        refine ⟨_, rfl, ?_⟩
        show T ≤ v.ttl
        rcases hv with ⟨h0, -⟩ | ⟨e', h0, h1, -⟩ | ⟨e', h0, -, h1, -⟩
        · rw [he] at h0; cases h0
        · rw [he] at h0; cases h0; omega
        · rw [he] at h0; cases h0; omega
      · rw [AMap.get_put_ne _ _ hk]; exact ⟨e, he, ht⟩

theorem stay {o : Storage.Opts} {T : Nat} (ops : List Op) (hb : ∀ op ∈ ops, Before T op) : ∀ {st : St},
    (AMap.keys st).Nodup → ∀ {k : Bytes}, (∃ e, st.get k = some e ∧ T ≤ e.ttl) →
    ∃ e, (Storage.run c o st ops).get k = some e ∧ T ≤ e.ttl := by
  induction ops with
  | nil => intro st _ k h; exact h
  | cons op ops ih =>
    intro st hn k h
    exact ih (fun x hx => hb x (List.mem_cons_of_mem _ hx)) (run_nodup (c := c) [op] hn)
      (stays (hb op List.mem_cons_self) hn h)

/-- `v` is what the owner of `sec` publishes under `en`, within the limits of the node. -/
structure Published (c : Crypto) (o : Storage.Opts) (sec : c.Sec) (en : Entry) (v : Value) : Prop where
  signed : ∃ m t0 ttl, en.sign c m t0 ttl sec = some v
  own : en.id = Node.shortId c (c.pubOf sec)
  fits : Fits o en

theorem published_there (hc : c.Lawful) {o : Storage.Opts} {T : Nat} {sec : c.Sec} {en : Entry} {v : Value}
    (hp : Published c o sec en v) (ht : T ≤ v.ttl) {order : List ONode → List ONode} {now now' : Nat} :
    ∀ (ops : List Op) (st : St), (AMap.keys st).Nodup → (∀ op ∈ ops, Before T op) → .insert order now now' v ∈ ops →
    ∃ e, (Storage.run c o st ops).get (storageKey c en.key) = some e ∧ T ≤ e.ttl := by
  intro ops
  induction ops with
  | nil => intro st _ _ h; cases h
  | cons op ops ih =>
    intro st hn hb h
    have hn' : (AMap.keys (Storage.step c o st op)).Nodup := run_nodup (c := c) [op] hn
    have hb' : ∀ x ∈ ops, Before T x := fun x hx => hb x (List.mem_cons_of_mem _ hx)
    rcases List.mem_cons.mp h with h | h
    · subst h
      refine stay ops hb' hn' ?_
      have hnow : now < T := (hb _ List.mem_cons_self).1
      obtain ⟨m, t0, ttl, hs⟩ := hp.signed
      simp only [Storage.step]
      rw [insert_published hc hs hp.own o hp.fits order now now' st (by omega)]
      cases hg : st.get (storageKey c en.key) with
      | none => exact ⟨v, AMap.get_put_self _ _ _, ht⟩
      | some old =>
        simp only
        split
        · exact ⟨v, AMap.get_put_self _ _ _, ht⟩
        · exact ⟨old, hg, by omega⟩
    · exact ih _ hn' hb' h

/-- C128, what breaks the claim in a DHT node: a single owner makes it keep as many values as it publishes under
different keys, until they expire, whatever else happens. -/
theorem C128_storage (hc : c.Lawful) (o : Storage.Opts) (T : Nat) (ops : List Op) (hb : ∀ op ∈ ops, Before T op)
    (sec : c.Sec) (ens : List Entry) (hn : (ens.map fun en => storageKey c en.key).Nodup)
    (hsent : ∀ en ∈ ens, ∃ v order now now', Published c o sec en v ∧ T ≤ v.ttl ∧ .insert order now now' v ∈ ops) :
    ens.length ≤ (Storage.run c o [] ops).length := by
  have := length_of_keys (Storage.run c o [] ops) hn (by
    intro k hk
    obtain ⟨en, hen, rfl⟩ := List.mem_map.mp hk
    obtain ⟨v, order, now, now', hp, ht, hi⟩ := hsent en hen
    obtain ⟨e, he, -⟩ := published_there hc hp ht ops [] List.nodup_nil hb hi
    exact AMap.get_isSome_iff.mp (by rw [he]; rfl))
  rwa [List.length_map] at this

/-! ### The full claim fails -/

/-- A lawful instance with many keys. -/
def wide : Crypto where
  Pub := Fin (2 ^ 32)
  Sec := Fin (2 ^ 32)
  sha d := leBytes 32 (ofLE (d.drop 36))
  aes _ _ d := d
  pubOf s := s
  pubBytes p := leBytes 32 p.val
  decodePub b := some (Fin.ofNat (2 ^ 32) (ofLE b))
  dh _ _ := leBytes 32 0
  verify p _ s := s == leBytes 64 p.val
  sign s _ := leBytes 64 s.val

theorem wide_lawful : wide.Lawful where
  sha_length _ := leBytes_length _ _
  aes_length _ _ _ := rfl
  aes_inv _ _ _ := rfl
  pub_length _ := leBytes_length _ _
  decode_pub p := by
    have hp := p.isLt
    show some (Fin.ofNat (2 ^ 32) (ofLE (leBytes 32 p.val))) = some p
    rw [ofLE_leBytes_of_lt (by omega)]
    exact congrArg some (Fin.ext (Nat.mod_eq_of_lt hp))
  dh_length _ _ := leBytes_length _ _
  dh_comm _ _ := rfl
  sign_length _ _ := leBytes_length _ _
  sign_verify _ _ := beq_self_eq_true _

/-- The key with number `i`. -/
def wideKey (i : Nat) : wide.Sec := Fin.ofNat (2 ^ 32) i

theorem wideKey_bytes {i : Nat} (h : i < 2 ^ 32) : wide.pubBytes (wide.pubOf (wideKey i)) = leBytes 32 i :=
  congrArg (leBytes 32) (Nat.mod_eq_of_lt h)

theorem leBytes32_inj {a b : Nat} (ha : a < 2 ^ 256) (hb : b < 2 ^ 256) (h : leBytes 32 a = leBytes 32 b) : a = b := by
  have := congrArg ofLE h
  rwa [ofLE_leBytes_of_lt (by simpa using ha), ofLE_leBytes_of_lt (by simpa using hb)] at this

/-- `n` keys other than key 0. -/
def manyKeys (n : Nat) : List wide.Sec := (List.range n).map fun i => wideKey (i + 1)

theorem heard_each (l : List ONode) : ∀ acc, heard acc (l.map fun r => .exchange [r] 0 []) = acc ++ l := by
  induction l with
  | nil => intro acc; simp [heard]
  | cons x l ih => intro acc; simp [heard, ih]

def wideEnv : PEnv wide := ⟨leBytes 32 9, wideKey 0, 200, none, ⟨127, 0, 0, 1, 1000⟩⟩

/-- Somebody with `n` keys asks for peers `n` times. -/
def asked (n : Nat) : List PAction :=
  ((manyKeys n).map fun s => record wide wideEnv.overlay 1 s).map fun r => .exchange [r] 0 []

theorem received_exceeds (n : Nat) (hn : n < 2 ^ 32) :
    n ≤ (prun wideEnv (PState.init wideEnv [] []) (asked n)).received.length := by
  have h := C128_received wide_lawful wideEnv [] [] (asked n) (manyKeys n) 1
    (by
      unfold manyKeys
      rw [List.map_map]
      refine List.Nodup.map_on ?_ List.nodup_range
      intro a ha b hb hab
      have ha := List.mem_range.mp ha
      have hb := List.mem_range.mp hb
      rw [Function.comp_apply, Function.comp_apply, wideKey_bytes (by omega), wideKey_bytes (by omega)] at hab
      have := leBytes32_inj (by omega) (by omega) hab
      omega)
    (by
      intro s hs hh
      obtain ⟨i, hi, rfl⟩ := List.mem_map.mp hs
      have hi := List.mem_range.mp hi
      rw [wideKey_bytes (by omega), show wideEnv.key = wideKey 0 from rfl, wideKey_bytes (by decide)] at hh
      have := leBytes32_inj (by omega) (by omega) hh
      omega)
    (by
      intro s hs
      unfold asked
      rw [heard_each]
      exact List.mem_map.mpr ⟨s, hs, rfl⟩)
  rwa [manyKeys, List.length_map, List.length_range] at h

/-- An entry of the owner of key 0, with a name of four bytes. -/
def entry (i : Nat) : Entry := ⟨Node.shortId wide (wide.pubOf (wideKey 0)), leBytes 4 i, 0, [1], some 1000⟩

theorem entry_key {i j : Nat} (hi : i < 2 ^ 32) (hj : j < 2 ^ 32)
    (h : storageKey wide (entry i).key = storageKey wide (entry j).key) : i = j := by
  have hd : ∀ k, (writeKeyBoxed (entry k).key).drop 36 = 4 :: (leBytes 4 k ++ [0, 0, 0, 0, 0, 0, 0]) := by
    intro k
    rw [writeKeyBoxed, writeKey, ← List.append_assoc, List.drop_left' (by
      rw [List.length_append]
      show _ + (wide.sha _).length = 36
      rw [wide_lawful.sha_length]; rfl)]
    show Tl.writeBytes (leBytes 4 k) ++ Tl.writeU32 0 = _
    rw [Tl.writeBytes, leBytes_length, if_pos (by decide)]
    have h1 : leBytes 1 4 = [4] := by decide
    have h2 : List.replicate (Tl.padding (1 + 4)) (0 : UInt8) = [0, 0, 0] := by decide
    have h3 : Tl.writeU32 0 = [0, 0, 0, 0] := by decide
    rw [h1, h2, h3]
    simp
  have h : leBytes 32 (ofLE ((writeKeyBoxed (entry i).key).drop 36)) =
    leBytes 32 (ofLE ((writeKeyBoxed (entry j).key).drop 36)) := h
  rw [hd, hd] at h
  have hlen : ∀ k, (4 :: (leBytes 4 k ++ [0, 0, 0, 0, 0, 0, 0])).length = 12 := by
    intro k; rw [List.length_cons, List.length_append, leBytes_length]; rfl
  have hlt : ∀ k, ofLE (4 :: (leBytes 4 k ++ [0, 0, 0, 0, 0, 0, 0])) < 256 ^ 12 := fun k => hlen k ▸ ofLE_lt _
  have h := leBytes32_inj (by have := hlt i; omega) (by have := hlt j; omega) h
  have h := congrArg (leBytes 12) h
  have hb : ∀ k, leBytes 12 (ofLE (4 :: (leBytes 4 k ++ [0, 0, 0, 0, 0, 0, 0]))) =
      4 :: (leBytes 4 k ++ [0, 0, 0, 0, 0, 0, 0]) := fun k => by
    have := leBytes_ofLE (4 :: (leBytes 4 k ++ [0, 0, 0, 0, 0, 0, 0]))
    rwa [hlen] at this
  rw [hb, hb] at h
  have h := congrArg ofLE (List.append_cancel_right (List.cons.inj h).2)
  rwa [ofLE_leBytes_of_lt (by simpa using hi), ofLE_leBytes_of_lt (by simpa using hj)] at h

/-- The values with these entries, as signed by the owner. -/
def value (i : Nat) : Value :=
  signValue wide (wideKey 0) ⟨⟨(entry i).key, fullTl wide (wideKey 0), .signature, []⟩, [1], 1000, []⟩

/-- The owner has `n` values stored. -/
def stored (n : Nat) : List Op := (List.range n).map fun i => .insert id 0 0 (value i)

theorem storage_exceeds (n : Nat) (hn : n < 2 ^ 32) : n ≤ (Storage.run wide ⟨127, 15⟩ [] (stored n)).length := by
  have h := C128_storage wide_lawful ⟨127, 15⟩ 1000 (stored n)
    (by
      intro op hop
      obtain ⟨i, -, rfl⟩ := List.mem_map.mp hop
      exact ⟨by decide, by decide⟩)
    (wideKey 0) ((List.range n).map entry)
    (by
      rw [List.map_map]
      refine List.Nodup.map_on ?_ List.nodup_range
      intro a ha b hb hab
      have ha := List.mem_range.mp ha
      have hb := List.mem_range.mp hb
      exact entry_key (by omega) (by omega) hab)
    (by
      intro en hen
      obtain ⟨i, hi, rfl⟩ := List.mem_map.mp hen
      refine ⟨value i, id, 0, 0, ⟨⟨.release, 0, 0, rfl⟩, rfl, ?_, ?_⟩, Nat.le_refl _, List.mem_map.mpr ⟨i, hi, rfl⟩⟩
      · show (leBytes 4 i).length ≤ 127
        rw [leBytes_length]; decide
      · exact Nat.zero_le _)
  rwa [List.length_map, List.length_range] at h

/-- C128: neither half of the full claim holds. -/
theorem C128_full_false : ¬ OverlayLimited ∧ ¬ StorageLimited ∧ ¬ C128_full := by
  have h1 : ¬ OverlayLimited := fun h => by
    have h1 := (h wide wide_lawful wideEnv [] [] (asked 65537)).2.2.2
    have h2 := received_exceeds 65537 (by decide)
    omega
  have h2 : ¬ StorageLimited := fun h => by
    have h1 := h wide wide_lawful (stored 65537)
    have h2 := storage_exceeds 65537 (by decide)
    omega
  exact ⟨h1, h2, fun h => h1 h.1⟩

/-- The hypotheses of `C128_received` and `C128_storage` are met with a million keys and names. -/
example : 1000000 ≤ (prun wideEnv (PState.init wideEnv [] []) (asked 1000000)).received.length ∧
    1000000 ≤ (Storage.run wide ⟨127, 15⟩ [] (stored 1000000)).length :=
  ⟨received_exceeds _ (by decide), storage_exceeds _ (by decide)⟩

def toyEnv : PEnv Crypto.toy := ⟨leBytes 32 9, (1 : UInt8), 200, none, ⟨127, 0, 0, 1, 1000⟩⟩

/-- The hypotheses of `C128_nodes` are met: two peers are added and removed, and are still there. -/
example : 2 ≤ (prun toyEnv (PState.init toyEnv [] [])
    [.add ⟨10, 0, 0, 1, 2000⟩ (record Crypto.toy (leBytes 32 9) 1 (7 : UInt8)),
     .add ⟨10, 0, 0, 2, 2000⟩ (record Crypto.toy (leBytes 32 9) 1 (8 : UInt8)),
     .remove (Node.shortId Crypto.toy (7 : UInt8)) [],
     .remove (Node.shortId Crypto.toy (8 : UInt8)) []]).nodes.length := by
  refine C128_nodes toyEnv [] [] _
    [(7 : UInt8), (8 : UInt8)] (by decide +kernel) ?_
  intro p hp
  rcases List.mem_cons.mp hp with rfl | hp
  · exact ⟨_, _, List.mem_cons_self, by
      refine ⟨⟨rfl, Crypto.toy_lawful.decode_pub _, Crypto.toy_lawful.sign_length _ _, Crypto.toy_lawful.sign_verify _ _⟩,
        by decide +kernel, by decide, fun f hf => by cases hf⟩⟩
  · rw [List.mem_singleton.mp hp]
    exact ⟨_, _, List.mem_cons_of_mem _ List.mem_cons_self, by
      refine ⟨⟨rfl, Crypto.toy_lawful.decode_pub _, Crypto.toy_lawful.sign_length _ _, Crypto.toy_lawful.sign_verify _ _⟩,
        by decide +kernel, by decide, fun f hf => by cases hf⟩⟩

end Verif.Hoard
