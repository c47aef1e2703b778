import Verif.Proofs.Storage

/-!
# C28-C31: the DHT storage
-/
namespace Verif.Storage
open Verif.Tl Verif.AdnlProto Verif.DhtProto

variable {c : Crypto}

/-! ### C28: expiry -/

/-- C28: a lookup returns a value exactly if it is stored with a ttl strictly greater than the current
time, in any state of the storage, so whether or not the collector ran. -/
theorem C28_lookup_is_live (st : St) (key : Bytes) (now : Nat) (v : Value) :
    getRef st key now = some v ↔ st.get key = some v ∧ now < v.ttl := by
  unfold getRef
  cases h : st.get key with
  | none => simp
  | some w =>
    simp only
    by_cases ht : w.ttl > now
    · rw [if_pos ht]
      constructor
      · rintro ⟨⟩; exact ⟨rfl, ht⟩
      · rintro ⟨⟨⟩, _⟩; rfl
    · rw [if_neg ht]
      constructor
      · rintro ⟨⟩
      · rintro ⟨⟨⟩, h2⟩; exact absurd h2 ht

/-- C28: a collection removes exactly the expired values. -/
theorem C28_gc_exact (st : St) (now : Nat) (k : Bytes) (v : Value) :
    (k, v) ∈ gc st now ↔ (k, v) ∈ st ∧ now < v.ttl := by
  simp [gc, gcPart]

/-- C28: also while it is under way (any set of shards done) it never removes a live value and keeps
everything in the shards not reached yet. -/
theorem C28_gc_partial_progress (st : St) (shard : Bytes → Bool) (now : Nat) (k : Bytes) (v : Value) :
    (k, v) ∈ gcPart st shard now ↔ (k, v) ∈ st ∧ (shard k = true → now < v.ttl) := by
  simp only [gcPart, List.mem_filter, Bool.or_eq_true, Bool.not_eq_true', decide_eq_true_eq]
  cases shard k <;> simp

/-- C28: in every history, a collection takes out the expired values of its shards, and nothing else. -/
theorem C28_collected (o : Opts) (st : St) (ops : List Op) (shard : Bytes → Bool) (now : Nat) (k : Bytes) (v : Value) :
    (k, v) ∈ run c o st (ops ++ [.gc shard now]) ↔ (k, v) ∈ run c o st ops ∧ (shard k = true → now < v.ttl) := by
  rw [run, List.foldl_append]
  exact C28_gc_partial_progress _ shard now k v

/-- C28: collecting does not change what any lookup at that time or later returns. -/
theorem C28_gc_invisible (st : St) (hn : (AMap.keys st).Nodup) (shard : Bytes → Bool) (now t : Nat)
    (ht : now ≤ t) (key : Bytes) : getRef (gcPart st shard now) key t = getRef st key t := by
  have hn' : (AMap.keys (gcPart st shard now)).Nodup :=
    hn.sublist (List.Sublist.map _ List.filter_sublist)
  apply Option.ext
  intro v
  rw [C28_lookup_is_live, C28_lookup_is_live]
  constructor
  · rintro ⟨h1, h2⟩
    have := (C28_gc_partial_progress st shard now key v).mp (AMap.mem_of_get h1)
    exact ⟨AMap.get_of_mem hn this.1, h2⟩
  · rintro ⟨h1, h2⟩
    refine ⟨AMap.get_of_mem hn' ?_, h2⟩
    exact (C28_gc_partial_progress st shard now key v).mpr ⟨AMap.mem_of_get h1, fun _ => by omega⟩

/-- C28: storing an expired value is an error and changes nothing. -/
theorem C28_expired_is_refused (o : Opts) (order : List ONode → List ONode) (now now' : Nat) (st : St)
    (v : Value) (h : v.ttl ≤ now) :
    insert c o order now now' st v = (st, .error .expired) := by
  rw [insert, if_pos h]

/-! ### The form of an insertion -/

/-- What an insertion can do: nothing, or put one entry. -/
inductive Effect (c : Crypto) (o : Opts) (order : List ONode → List ONode) (now now' : Nat) (st : St)
    (v : Value) : St → Except Err Bool → Prop
  | refused (e : Err) : Effect c o order now now' st v st (.error e)
  | kept (old : Value) (ht : now < v.ttl) (hg : st.get (storageKey c v.key.key) = some old)
      (hr : v.key.rule = .signature ∧ v.ttl ≤ old.ttl ∨ v.key.rule = .overlayNodes ∧ v.ttl < old.ttl) :
      Effect c o order now now' st v st (.ok false)
  | signed (ht : now < v.ttl) (hn : v.key.key.name.length ≤ o.maxNameLen)
      (hi : v.key.key.idx ≤ o.maxIndex) (hk : v.key.key.id = c.sha (writePubKey v.key.id))
      (hr : v.key.rule = .signature) (hs : signedOk c v = .ok ())
      (hv : ∀ old, st.get (storageKey c v.key.key) = some old → old.ttl < v.ttl) :
      Effect c o order now now' st v (st.put (storageKey c v.key.key) v) (.ok true)
  | overlay (new old : List ONode) (ht : now < v.ttl) (hn : v.key.key.name.length ≤ o.maxNameLen)
      (hi : v.key.key.idx ≤ o.maxIndex) (hk : v.key.key.id = c.sha (writePubKey v.key.id))
      (hr : v.key.rule = .overlayNodes) (hs : overlayOk c v = .ok new)
      (hv : (st.get (storageKey c v.key.key) = none ∧ old = []) ∨
        (∃ e, st.get (storageKey c v.key.key) = some e ∧ e.ttl < now' ∧ old = []) ∨
        (∃ e, st.get (storageKey c v.key.key) = some e ∧ now' ≤ e.ttl ∧ e.ttl ≤ v.ttl ∧
          decodeNodes e.value = some old)) :
      Effect c o order now now' st v (st.put (storageKey c v.key.key) (makeValue order v new old))
        (.ok true)

theorem insert_effect (o : Opts) (order : List ONode → List ONode) (now now' : Nat) (st : St) (v : Value) :
    Effect c o order now now' st v (insert c o order now now' st v).1
      (insert c o order now now' st v).2 := by
  unfold insert
  by_cases h1 : v.ttl ≤ now
  · rw [if_pos h1]; exact .refused _
  rw [if_neg h1]
  by_cases h2 : v.key.key.name.length > o.maxNameLen ∨ v.key.key.idx > o.maxIndex
  · rw [if_pos h2]; exact .refused _
  rw [if_neg h2]
  by_cases h3 : v.key.key.id ≠ c.sha (writePubKey v.key.id)
  · rw [if_pos h3]; exact .refused _
  rw [if_neg h3]
  simp only [ne_eq, Decidable.not_not] at h3
  simp only [not_or, Nat.not_lt, gt_iff_lt] at h2
  cases hr : v.key.rule with
  | anybody => exact .refused _
  | signature =>
    simp only
    unfold insertSigned
    cases hs : signedOk c v with
    | error e => exact .refused _
    | ok u =>
      cases u
      simp only
      cases hg : st.get (storageKey c v.key.key) with
      | none =>
        exact .signed (by omega) h2.1 h2.2 h3 hr hs fun old ho => by rw [hg] at ho; cases ho
      | some old =>
        simp only
        by_cases hv : old.ttl < v.ttl
        · rw [if_pos hv]
          exact .signed (by omega) h2.1 h2.2 h3 hr hs fun old ho => by rw [hg] at ho; cases ho; exact hv
        · rw [if_neg hv]
          exact .kept old (by omega) hg (.inl ⟨hr, by omega⟩)
  | overlayNodes =>
    simp only
    unfold insertOverlay
    cases hs : overlayOk c v with
    | error e => exact .refused _
    | ok new =>
      simp only
      cases hg : st.get (storageKey c v.key.key) with
      | none => exact .overlay new [] (by omega) h2.1 h2.2 h3 hr hs (.inl ⟨hg, rfl⟩)
      | some old =>
        simp only
        by_cases ha : old.ttl < now'
        · rw [if_pos ha]
          exact .overlay new [] (by omega) h2.1 h2.2 h3 hr hs (.inr (.inl ⟨old, hg, ha, rfl⟩))
        · rw [if_neg ha]
          by_cases hb : old.ttl > v.ttl
          · rw [if_pos hb]
            exact .kept old (by omega) hg (.inr ⟨hr, hb⟩)
          · rw [if_neg hb]
            cases hd : decodeNodes old.value with
            | none => exact .refused _
            | some l =>
              exact .overlay new l (by omega) h2.1 h2.2 h3 hr hs
                (.inr (.inr ⟨old, hg, by omega, by omega, hd⟩))

/-! ### C29: every entry is authentic -/

/-- The value and its key description carry valid signatures of the owner of the key. -/
def SignedByOwner (c : Crypto) (v : Value) : Prop :=
  ∃ key pub, v.key.id = .ed25519 key ∧ c.decodePub key = some pub ∧
    v.key.signature.length = 64 ∧
    c.verify pub (writeKeyDescBoxed { v.key with signature := [] }) v.key.signature = true ∧
    v.signature.length = 64 ∧
    c.verify pub (writeValueBoxed { v with signature := [] }) v.signature = true

theorem signedOk_owner {v : Value} (h : signedOk c v = .ok ()) : SignedByOwner c v := by
  obtain ⟨p, h1, h2, h3⟩ := (signedOk_iff v).mp h
  simp only [verifySig, Bool.and_eq_true, decide_eq_true_eq] at h2 h3
  cases hk : v.key.id with
  | ed25519 k =>
    rw [hk] at h1
    exact ⟨k, p, hk, h1, h2.1, h2.2, h3.1, h3.2⟩
  | aes k => rw [hk] at h1; cases h1
  | overlay k => rw [hk] at h1; cases h1
  | unenc k => rw [hk] at h1; cases h1

/-- What the storage guarantees of an entry `e` under the key `k`. -/
structure EntryOk (c : Crypto) (o : Opts) (k : Bytes) (e : Value) : Prop where
  key : k = c.sha (writeKeyBoxed e.key.key)
  name : e.key.key.name.length ≤ o.maxNameLen
  index : e.key.key.idx ≤ o.maxIndex
  owner : e.key.key.id = c.sha (writePubKey e.key.id)
  rule : e.key.rule = .signature ∧ SignedByOwner c e ∨
    e.key.rule = .overlayNodes ∧ e.key.key.name = "nodes".toUTF8.data.toList ∧ e.key.key.idx = 0 ∧
      ∃ name, e.key.id = .overlay name

def AllOk (c : Crypto) (o : Opts) (st : St) : Prop := ∀ k e, (k, e) ∈ st → EntryOk c o k e

theorem step_allOk {o : Opts} {st : St} (h : AllOk c o st) (op : Op) : AllOk c o (step c o st op) := by
  cases op with
  | gc shard now =>
    intro k e hm
    exact h k e (List.mem_of_mem_filter hm)
  | insert order now now' v =>
    simp only [step]
    have he := insert_effect (c := c) o order now now' st v
    generalize (insert c o order now now' st v).1 = st' at he ⊢
    generalize (insert c o order now now' st v).2 = res at he
    cases he with
    | refused e => exact h
    | kept old ht hg hr => exact h
    | signed ht hn hi hk hr hs hv =>
      intro k e hm
      rcases AMap.mem_put.mp hm with hm | ⟨hm, -⟩
      · cases hm
        exact ⟨rfl, hn, hi, hk, .inl ⟨hr, signedOk_owner hs⟩⟩
      · exact h k e hm
    | overlay new old ht hn hi hk hr hs hv =>
      intro k e hm
      rcases AMap.mem_put.mp hm with hm | ⟨hm, -⟩
      · cases hm
        obtain ⟨-, -, h3, h4, -, -⟩ := overlayOk_some hs
        refine ⟨rfl, hn, hi, hk, .inr ⟨hr, ?_, ?_, ?_⟩⟩
        · simp only [makeValue]; rw [h4]; rfl
        · simp only [makeValue]; rw [h4]
        · simp only [makeValue]
          cases hid : v.key.id with
          | overlay n => exact ⟨n, rfl⟩
          | ed25519 k => rw [hid] at h3; cases h3
          | aes k => rw [hid] at h3; cases h3
          | unenc k => rw [hid] at h3; cases h3
      · exact h k e hm

theorem run_allOk {o : Opts} (ops : List Op) : ∀ {st : St}, AllOk c o st → AllOk c o (run c o st ops) := by
  induction ops with
  | nil => intro st h; exact h
  | cons op ops ih => intro st h; exact ih (step_allOk h op)

/-- C29: after any operations every entry is stored under the hash of its own key, its name and index
are within the limits, its owner hashes to the key id, and if it is signature-updated, key description
and value carry valid signatures by the owner. No other kinds are stored except overlay node lists. -/
theorem C29_entries_are_authentic (o : Opts) (ops : List Op) (k : Bytes) (e : Value)
    (h : (run c o [] ops).get k = some e) : EntryOk c o k e :=
  run_allOk ops (fun _ _ h => absurd h List.not_mem_nil) k e (AMap.mem_of_get h)

theorem run_nodup {o : Opts} (ops : List Op) : ∀ {st : St}, (AMap.keys st).Nodup →
    (AMap.keys (run c o st ops)).Nodup := by
  induction ops with
  | nil => intro st h; exact h
  | cons op ops ih =>
    intro st h
    refine ih ?_
    cases op with
    | gc shard now => exact h.sublist (List.Sublist.map _ List.filter_sublist)
    | insert order now now' v =>
      simp only [step]
      have he := insert_effect (c := c) o order now now' st v
      generalize (insert c o order now now' st v).1 = st' at he ⊢
      generalize (insert c o order now now' st v).2 = res at he
      cases he with
      | refused e => exact h
      | kept old ht hg hr => exact h
      | signed ht hn hi hk hr hs hv => exact AMap.nodup_put h _ _
      | overlay new old ht hn hi hk hr hs hv => exact AMap.nodup_put h _ _

/-! ### C30: signed values only move forward -/

/-- Two values with the same storage key in spite of different keys or owners: a collision of SHA-256
that can be computed from them. -/
def Collide (c : Crypto) (v w : Value) : Prop :=
  v.key.key ≠ w.key.key ∧ c.sha (writeKeyBoxed v.key.key) = c.sha (writeKeyBoxed w.key.key) ∨
  v.key.id ≠ w.key.id ∧ c.sha (writePubKey v.key.id) = c.sha (writePubKey w.key.id)

theorem overlay_vs_signed {o : Opts} {k : Bytes} {e v : Value} (he : EntryOk c o k e)
    (hr : e.key.rule = .signature) (hk : storageKey c v.key.key = k)
    (hv : v.key.key.id = c.sha (writePubKey v.key.id)) (ho : isOverlay v.key.id = true) :
    Collide c e v := by
  by_cases hkey : e.key.key = v.key.key
  · right
    have h1 := he.owner
    rw [hkey, hv] at h1
    refine ⟨?_, h1.symm⟩
    intro hid
    rcases he.rule with ⟨-, key, p, h2, -⟩ | ⟨h2, -⟩
    · rw [← hid, h2] at ho; cases ho
    · rw [hr] at h2; cases h2
  · left
    exact ⟨hkey, by rw [← he.key, ← hk]; rfl⟩

/-- C30: an insertion reports `true` exactly if it changed the storage. -/
theorem C30_reports_change (o : Opts) (order : List ONode → List ONode) (now now' : Nat) (st : St)
    (v : Value) (hr : v.key.rule = .signature) :
    ((insert c o order now now' st v).2 = .ok true ↔
      (insert c o order now now' st v).1.get (storageKey c v.key.key) = some v ∧
      st.get (storageKey c v.key.key) ≠ some v) ∧
    ((insert c o order now now' st v).2 ≠ .ok true → (insert c o order now now' st v).1 = st) := by
  have he := insert_effect (c := c) o order now now' st v
  generalize (insert c o order now now' st v).1 = st' at he ⊢
  generalize (insert c o order now now' st v).2 = res at he ⊢
  cases he with
  | refused e => exact ⟨⟨fun h => (by cases h), fun h => absurd h.1 h.2⟩, fun _ => rfl⟩
  | kept old ht hg hr' => exact ⟨⟨fun h => (by cases h), fun h => absurd h.1 h.2⟩, fun _ => rfl⟩
  | signed ht hn hi hk hr' hs hv =>
    refine ⟨⟨fun _ => ⟨by rw [AMap.get_put_self], ?_⟩, fun _ => rfl⟩, fun h => absurd rfl h⟩
    intro h
    have := hv v h
    omega
  | overlay new old ht hn hi hk hr' hs hv => rw [hr] at hr'; cases hr'

/-- C30: one operation on a storage reached by any operations leaves a signature-updated entry as it
is, or replaces it by a signature-updated value of the same owner with strictly larger ttl, or, if it is
a collection, removes it because it expired (or there is an explicit hash collision). -/
theorem C30_only_forward (o : Opts) (ops : List Op) (op : Op) (k : Bytes) (e : Value)
    (h : (run c o [] ops).get k = some e) (hr : e.key.rule = .signature) :
    (run c o [] (ops ++ [op])).get k = some e ∨
    (∃ order now now' v, op = .insert order now now' v ∧
      (run c o [] (ops ++ [op])).get k = some v ∧ v.key.rule = .signature ∧ SignedByOwner c v ∧
      (v.key.key = e.key.key ∧ v.key.id = e.key.id ∨ Collide c e v) ∧
      e.ttl < v.ttl) ∨
    (∃ shard now, op = .gc shard now ∧ (run c o [] (ops ++ [op])).get k = none ∧ e.ttl ≤ now) ∨
    (∃ order now now' v, op = .insert order now now' v ∧ Collide c e v) := by
  have hok := C29_entries_are_authentic (c := c) o ops k e h
  have hnd : (AMap.keys (run c o [] ops)).Nodup := run_nodup ops List.nodup_nil
  have hrun : run c o [] (ops ++ [op]) = step c o (run c o [] ops) op := by
    simp [run, List.foldl_append]
  rw [hrun]
  generalize run c o [] ops = st at h hnd ⊢
  cases op with
  | gc shard now =>
    simp only [step]
    by_cases hl : shard k = true ∧ e.ttl ≤ now
    · right; right; left
      refine ⟨shard, now, rfl, ?_, hl.2⟩
      cases hg : (gcPart st shard now).get k with
      | none => rfl
      | some e' =>
        have := (C28_gc_partial_progress st shard now k e').mp (AMap.mem_of_get hg)
        have h2 := AMap.get_of_mem hnd this.1
        rw [h] at h2
        cases h2
        have := this.2 hl.1
        omega
    · left
      apply AMap.get_of_mem (hnd.sublist (List.Sublist.map _ List.filter_sublist))
      refine (C28_gc_partial_progress st shard now k e).mpr ⟨AMap.mem_of_get h, fun hs => ?_⟩
      by_cases hle : e.ttl ≤ now
      · exact absurd ⟨hs, hle⟩ hl
      · omega
  | insert order now now' v =>
    simp only [step]
    have he := insert_effect (c := c) o order now now' st v
    generalize (insert c o order now now' st v).1 = st' at he ⊢
    generalize (insert c o order now now' st v).2 = res at he
    cases he with
    | refused _ => exact .inl h
    | kept old ht hg hr' => exact .inl h
    | signed ht hn hi hk hr' hs hv =>
      by_cases hkk : k = storageKey c v.key.key
      · right; left
        subst hkk
        refine ⟨order, now, now', v, rfl, by rw [AMap.get_put_self], hr', signedOk_owner hs, ?_, hv e h⟩
        by_cases h1 : e.key.key = v.key.key
        · by_cases h2 : e.key.id = v.key.id
          · exact .inl ⟨h1.symm, h2.symm⟩
          · exact .inr (.inr ⟨h2, by rw [← hok.owner, h1, hk]⟩)
        · exact .inr (.inl ⟨h1, hok.key.symm⟩)
      · left; rw [AMap.get_put_ne _ _ hkk]; exact h
    | overlay new old ht hn hi hk hr' hs hv =>
      by_cases hkk : k = storageKey c v.key.key
      · right; right; right
        obtain ⟨-, -, h3, -⟩ := overlayOk_some hs
        exact ⟨order, now, now', v, rfl, overlay_vs_signed hok hr hkk.symm hk h3⟩
      · left; rw [AMap.get_put_ne _ _ hkk]; exact h

/-- Values inserted by a list of operations. -/
def values : List Op → List Value
  | [] => []
  | .insert _ _ _ v :: ops => v :: values ops
  | .gc _ _ :: ops => values ops

/-- Clock readings of the collections in a list of operations. -/
def gcTimes : List Op → List Nat
  | [] => []
  | .insert _ _ _ _ :: ops => gcTimes ops
  | .gc _ now :: ops => now :: gcTimes ops

/-- C30: as long as a signature-updated entry is not expired at a collection, it stays, with the same
key and owner, and its ttl never decreases, whatever is inserted (unless two of the values at hand are a
hash collision). -/
theorem C30_ttl_never_decreases (o : Opts) (ops' : List Op) : ∀ (ops : List Op) (k : Bytes) (e : Value),
    (run c o [] ops).get k = some e → e.key.rule = .signature →
    (∀ v ∈ e :: values ops', ∀ w ∈ values ops', ¬ Collide c v w) →
    (∀ t ∈ gcTimes ops', t < e.ttl) →
    ∃ e', (run c o [] (ops ++ ops')).get k = some e' ∧ e'.key.rule = .signature ∧
      e'.key.key = e.key.key ∧ e'.key.id = e.key.id ∧ SignedByOwner c e' ∧ e.ttl ≤ e'.ttl := by
  induction ops' with
  | nil =>
    intro ops k e h hr _ _
    have := C29_entries_are_authentic (c := c) o ops k e h
    refine ⟨e, by simpa using h, hr, rfl, rfl, ?_, Nat.le_refl _⟩
    rcases this.rule with ⟨-, hs⟩ | ⟨h2, -⟩
    · exact hs
    · rw [hr] at h2; cases h2
  | cons op ops' ih =>
    intro ops k e h hr hc hg
    rw [show ops ++ op :: ops' = (ops ++ [op]) ++ ops' by simp]
    have hsub : ∀ v ∈ values ops', v ∈ values (op :: ops') := by
      intro v hv
      cases op with
      | insert _ _ _ w => exact List.mem_cons_of_mem _ hv
      | gc _ _ => exact hv
    have hsubg : ∀ t ∈ gcTimes ops', t ∈ gcTimes (op :: ops') := by
      intro v hv
      cases op with
      | insert _ _ _ w => exact hv
      | gc _ _ => exact List.mem_cons_of_mem _ hv
    rcases C30_only_forward (c := c) o ops op k e h hr with h1 | h1 | h1 | h1
    · refine ih (ops ++ [op]) k e h1 hr ?_ fun t ht => hg t (hsubg t ht)
      intro v hv w hw
      refine hc v ?_ w (hsub w hw)
      rcases List.mem_cons.mp hv with hv | hv
      · exact hv ▸ List.mem_cons_self
      · exact List.mem_cons_of_mem _ (hsub v hv)
    · obtain ⟨order, now, now', v, rfl, h2, h3, h4, h5, h6⟩ := h1
      have hkey : v.key.key = e.key.key ∧ v.key.id = e.key.id := by
        rcases h5 with h5 | h5
        · exact h5
        · exact absurd h5 (hc e List.mem_cons_self v List.mem_cons_self)
      obtain ⟨e', g1, g2, g3, g4, g5, g6⟩ := ih (ops ++ [.insert order now now' v]) k v h2 h3
        (by
          intro a ha b hb
          refine hc a ?_ b (hsub b hb)
          rcases List.mem_cons.mp ha with ha | ha
          · rw [ha]; exact List.mem_cons_of_mem _ List.mem_cons_self
          · exact List.mem_cons_of_mem _ (hsub a ha))
        (fun t ht => by have := hg t (hsubg t ht); omega)
      exact ⟨e', g1, g2, g3.trans hkey.1, g4.trans hkey.2, g5, by omega⟩
    · obtain ⟨shard, now, rfl, -, h3⟩ := h1
      have := hg now List.mem_cons_self
      omega
    · obtain ⟨order, now, now', v, rfl, h2⟩ := h1
      exact absurd h2 (hc e List.mem_cons_self v List.mem_cons_self)

/-! ### C31: merging overlay node lists -/

/-- A node record with a valid signature for an overlay. -/
def ValidNode (c : Crypto) (overlay : Bytes) (n : ONode) : Prop :=
  ∃ key pub, n.id = .ed25519 key ∧ c.decodePub key = some pub ∧ n.overlay = overlay ∧
    n.signature.length = 64 ∧
    c.verify pub (writeNodeToSign (Node.shortId c pub) overlay n.version) n.signature = true

theorem verifyONode_iff (overlay : Bytes) (n : ONode) :
    verifyONode c overlay n = true ↔ ValidNode c overlay n := by
  unfold verifyONode ValidNode
  constructor
  · intro h
    simp only [Bool.and_eq_true, decide_eq_true_eq] at h
    obtain ⟨h1, h2⟩ := h
    cases hk : n.id with
    | ed25519 k =>
      rw [hk] at h2
      cases hd : c.decodePub k with
      | none => simp [Receiver.fullId, hd] at h2
      | some p =>
        simp only [Receiver.fullId, hd, verifySig, Bool.and_eq_true, decide_eq_true_eq] at h2
        exact ⟨k, p, rfl, hd, h1, h2.1, by rw [← h1]; exact h2.2⟩
    | aes k => rw [hk] at h2; cases h2
    | overlay k => rw [hk] at h2; cases h2
    | unenc k => rw [hk] at h2; cases h2
  · rintro ⟨k, p, h1, h2, h3, h4, h5⟩
    simp [Receiver.fullId, h1, h2, h3, verifySig, h4, h5]

/-- The stored node list of an overlay: distinct, valid, at most `N` records. -/
def NodesOk (c : Crypto) (N : Nat) (e : Value) : Prop :=
  ∃ nodes, e.value = writeONodes nodes ∧ (nodes.map (·.id)).Nodup ∧ nodes.length ≤ N ∧
    ∀ n ∈ nodes, n.wf ∧ ValidNode c (c.sha (writePubKey e.key.id)) n

/-- Number of records in a value. -/
def count (v : Value) : Nat := ((decodeNodes v.value).getD []).length

def total (ops : List Op) : Nat := ((values ops).map count).sum

structure OvOk (c : Crypto) (o : Opts) (vals : List Value) (N : Nat) (st : St) : Prop where
  ok : AllOk c o st
  src : ∀ k e, (k, e) ∈ st → ∃ w ∈ vals, w.key = e.key
  nodes : ∀ k e, (k, e) ∈ st → e.key.rule = .overlayNodes → NodesOk c N e

theorem same_key {o : Opts} {vals : List Value} {N : Nat} {st : St} (h : OvOk c o vals N st)
    (hc : ∀ v ∈ vals, ∀ w ∈ vals, ¬ Collide c v w) {v e : Value} (hv : v ∈ vals)
    (hk : v.key.key.id = c.sha (writePubKey v.key.id)) (ho : isOverlay v.key.id = true)
    (hg : st.get (storageKey c v.key.key) = some e) :
    e.key.key = v.key.key ∧ e.key.id = v.key.id ∧ e.key.rule = .overlayNodes := by
  have hm := AMap.mem_of_get hg
  have hok := h.ok _ _ hm
  obtain ⟨w, hw, hwe⟩ := h.src _ _ hm
  have hno : ¬ Collide c e v := by
    intro hcol
    refine hc w hw v hv ?_
    unfold Collide at hcol ⊢
    rwa [hwe]
  have h1 : e.key.key = v.key.key := by
    by_cases h1 : e.key.key = v.key.key
    · exact h1
    · exact absurd (.inl ⟨h1, hok.key.symm⟩) hno
  have h2 : e.key.id = v.key.id := by
    by_cases h2 : e.key.id = v.key.id
    · exact h2
    · exact absurd (.inr ⟨h2, by rw [← hok.owner, h1, hk]⟩) hno
  refine ⟨h1, h2, ?_⟩
  rcases hok.rule with ⟨hr, -⟩ | ⟨hr, -⟩
  · exact absurd (overlay_vs_signed hok hr rfl hk ho) hno
  · exact hr

theorem decode_ok {N : Nat} {e : Value} (h : NodesOk c N e) (hN : N < 2 ^ 32) :
    ∃ nodes, decodeNodes e.value = some nodes ∧ (nodes.map (·.id)).Nodup ∧ nodes.length ≤ N ∧
      ∀ n ∈ nodes, n.wf ∧ ValidNode c (c.sha (writePubKey e.key.id)) n := by
  obtain ⟨nodes, h1, h2, h3, h4⟩ := h
  refine ⟨nodes, ?_, h2, h3, h4⟩
  rw [h1]
  exact decodeNodes_write (by omega) fun n hn => (h4 n hn).1

/-- The result of a merge of `old` (distinct, valid) with the valid records of `v`. -/
theorem makeValue_spec {order : List ONode → List ONode} (hord : ∀ l, (order l).Perm l) {N : Nat}
    {v : Value} {new old : List ONode} (hs : overlayOk c v = .ok new)
    (hold : (old.map (·.id)).Nodup ∧ old.length ≤ N ∧
      ∀ n ∈ old, n.wf ∧ ValidNode c (c.sha (writePubKey v.key.id)) n) (hN : N + count v < 2 ^ 32) :
    ∃ res, decodeNodes (makeValue order v new old).value = some res ∧
      NodesOk c (N + count v) (makeValue order v new old) ∧
      (res.map (·.id)).Nodup ∧
      (∀ n ∈ res, ValidNode c (c.sha (writePubKey v.key.id)) n ∧ (n ∈ old ∨ n ∈ new)) ∧
      (∀ n, n ∈ old ∨ n ∈ new → ∃ n' ∈ res, n'.id = n.id ∧ n.version ≤ n'.version) := by
  obtain ⟨-, -, -, -, -, l, hl, hnew⟩ := overlayOk_some hs
  have hwf := decodeNodes_wf hl
  have hm := merged_list (merge_merged old new hold.1) (hord _)
  obtain ⟨h1, h2, h3, h4⟩ := hm
  have hcount : new.length ≤ count v := by
    rw [count, hl, hnew]
    exact List.length_filter_le _ _
  have hval : ∀ n ∈ order ((merge old new).map (·.2)),
      n.wf ∧ ValidNode c (c.sha (writePubKey v.key.id)) n := by
    intro n hn
    rcases List.mem_append.mp (h2 n hn) with h | h
    · exact hold.2.2 n h
    · rw [hnew, List.mem_filter] at h
      exact ⟨hwf.2 n h.1, (verifyONode_iff _ _).mp h.2⟩
  have hlen : (order ((merge old new).map (·.2))).length ≤ N + count v := by
    rw [List.length_append] at h4
    have := hold.2.1
    omega
  refine ⟨order ((merge old new).map (·.2)), ?_, ⟨_, rfl, h1, hlen, hval⟩, h1, ?_, ?_⟩
  · exact decodeNodes_write (by omega) fun n hn => (hval n hn).1
  · intro n hn
    exact ⟨(hval n hn).2, List.mem_append.mp (h2 n hn)⟩
  · intro n hn
    exact h3 n (List.mem_append.mpr hn)

theorem nodesOk_mono {N M : Nat} {e : Value} (h : NodesOk c N e) (hNM : N ≤ M) : NodesOk c M e := by
  obtain ⟨nodes, h1, h2, h3, h4⟩ := h
  exact ⟨nodes, h1, h2, by omega, h4⟩

/-- Iteration orders are permutations. -/
def OrderOk : Op → Prop
  | .insert order _ _ _ => ∀ l, (order l).Perm l
  | .gc _ _ => True

/-- The stored list `old` used by an overlay insertion is fine. -/
theorem old_ok {o : Opts} {vals : List Value} {N : Nat} {st : St} (h : OvOk c o vals N st)
    (hc : ∀ v ∈ vals, ∀ w ∈ vals, ¬ Collide c v w) {v : Value} (hv : v ∈ vals) {now' : Nat}
    {old : List ONode} (hN : N < 2 ^ 32) (hk : v.key.key.id = c.sha (writePubKey v.key.id))
    (ho : isOverlay v.key.id = true)
    (hold : (st.get (storageKey c v.key.key) = none ∧ old = []) ∨
        (∃ e, st.get (storageKey c v.key.key) = some e ∧ e.ttl < now' ∧ old = []) ∨
        (∃ e, st.get (storageKey c v.key.key) = some e ∧ now' ≤ e.ttl ∧ e.ttl ≤ v.ttl ∧
          decodeNodes e.value = some old)) :
    (old.map (·.id)).Nodup ∧ old.length ≤ N ∧
      ∀ n ∈ old, n.wf ∧ ValidNode c (c.sha (writePubKey v.key.id)) n := by
  rcases hold with ⟨-, rfl⟩ | ⟨e, -, -, rfl⟩ | ⟨e, hg, -, -, hd⟩
  · exact ⟨List.nodup_nil, Nat.zero_le _, fun _ h => absurd h List.not_mem_nil⟩
  · exact ⟨List.nodup_nil, Nat.zero_le _, fun _ h => absurd h List.not_mem_nil⟩
  · obtain ⟨-, e2, e3⟩ := same_key h hc hv hk ho hg
    obtain ⟨nodes, h1, h2, h3, h4⟩ := decode_ok (h.nodes _ _ (AMap.mem_of_get hg) e3) hN
    rw [hd] at h1
    cases h1
    rw [e2] at h4
    exact ⟨h2, h3, h4⟩

theorem step_ovOk {o : Opts} {vals : List Value} {N : Nat} {st : St} (h : OvOk c o vals N st)
    (hc : ∀ v ∈ vals, ∀ w ∈ vals, ¬ Collide c v w) (op : Op) (hop : OrderOk op)
    (hin : ∀ v ∈ values [op], v ∈ vals) (hN : N + total [op] < 2 ^ 32) :
    OvOk c o vals (N + total [op]) (step c o st op) := by
  refine ⟨step_allOk h.ok op, ?_, ?_⟩
  · cases op with
    | gc shard now => intro k e hm; exact h.src k e (List.mem_of_mem_filter hm)
    | insert order now now' v =>
      simp only [step]
      have he := insert_effect (c := c) o order now now' st v
      generalize (insert c o order now now' st v).1 = st' at he ⊢
      generalize (insert c o order now now' st v).2 = res at he
      cases he with
      | refused e => exact h.src
      | kept old ht hg hr => exact h.src
      | signed ht hn hi hk hr hs hv =>
        intro k e hm
        rcases AMap.mem_put.mp hm with hm | ⟨hm, -⟩
        · cases hm; exact ⟨v, hin v List.mem_cons_self, rfl⟩
        · exact h.src k e hm
      | overlay new old ht hn hi hk hr hs hv =>
        intro k e hm
        rcases AMap.mem_put.mp hm with hm | ⟨hm, -⟩
        · cases hm; exact ⟨v, hin v List.mem_cons_self, rfl⟩
        · exact h.src k e hm
  · cases op with
    | gc shard now =>
      intro k e hm hr
      exact nodesOk_mono (h.nodes k e (List.mem_of_mem_filter hm) hr) (by omega)
    | insert order now now' v =>
      have ht' : total [Op.insert order now now' v] = count v := by simp [total, values]
      rw [ht'] at hN ⊢
      have hvin := hin v List.mem_cons_self
      simp only [step]
      have he := insert_effect (c := c) o order now now' st v
      generalize (insert c o order now now' st v).1 = st' at he ⊢
      generalize (insert c o order now now' st v).2 = res at he
      cases he with
      | refused e => exact fun k e hm hr => nodesOk_mono (h.nodes k e hm hr) (by omega)
      | kept old ht hg hr => exact fun k e hm hr => nodesOk_mono (h.nodes k e hm hr) (by omega)
      | signed ht hn hi hk hr hs hv =>
        intro k e hm hr'
        rcases AMap.mem_put.mp hm with hm | ⟨hm, -⟩
        · cases hm; rw [hr] at hr'; cases hr'
        · exact nodesOk_mono (h.nodes k e hm hr') (by omega)
      | overlay new old ht hn hi hk hr hs hv =>
        intro k e hm hr'
        rcases AMap.mem_put.mp hm with hm | ⟨hm, -⟩
        · cases hm
          obtain ⟨-, -, h3, -⟩ := overlayOk_some hs
          have hold := old_ok h hc hvin (by omega) hk h3 hv
          obtain ⟨res, -, hr2, -⟩ := makeValue_spec hop hs hold hN
          exact hr2
        · exact nodesOk_mono (h.nodes k e hm hr') (by omega)

theorem total_cons (op : Op) (ops : List Op) : total (op :: ops) = total [op] + total ops := by
  cases op <;> simp [total, values]

theorem values_cons (op : Op) (ops : List Op) : values (op :: ops) = values [op] ++ values ops := by
  cases op <;> simp [values]

theorem run_ovOk {o : Opts} {vals : List Value} (hc : ∀ v ∈ vals, ∀ w ∈ vals, ¬ Collide c v w)
    (ops : List Op) : ∀ {N : Nat} {st : St}, OvOk c o vals N st → (∀ op ∈ ops, OrderOk op) →
      (∀ v ∈ values ops, v ∈ vals) → N + total ops < 2 ^ 32 →
      OvOk c o vals (N + total ops) (run c o st ops) := by
  induction ops with
  | nil => intro N st h _ _ _; exact h
  | cons op ops ih =>
    intro N st h ho hin hN
    rw [total_cons] at hN ⊢
    rw [values_cons] at hin
    have h1 := step_ovOk h hc op (ho op List.mem_cons_self)
      (fun v hv => hin v (List.mem_append.mpr (.inl hv))) (by omega)
    have h2 := ih h1 (fun x hx => ho x (List.mem_cons_of_mem _ hx))
      (fun v hv => hin v (List.mem_append.mpr (.inr hv))) (by omega)
    rw [← Nat.add_assoc]
    exact h2

/-- A history of operations without hash collisions between the values, with arbitrary hash map
iteration orders and fewer than 2^32 node records altogether. -/
structure History (c : Crypto) (ops : List Op) : Prop where
  noCollision : ∀ v ∈ values ops, ∀ w ∈ values ops, ¬ Collide c v w
  orders : ∀ op ∈ ops, OrderOk op
  small : total ops < 2 ^ 32

theorem History.prefix {ops ops' : List Op} (h : History c (ops ++ ops')) : History c ops := by
  have hv : ∀ a b : List Op, values (a ++ b) = values a ++ values b := by
    intro a b
    induction a with
    | nil => rfl
    | cons x a ih => rw [List.cons_append, values_cons, ih, values_cons x a, List.append_assoc]
  refine ⟨?_, fun op ho => h.orders op (List.mem_append.mpr (.inl ho)), ?_⟩
  · intro v h1 w h2
    exact h.noCollision v (by rw [hv]; simp [h1]) w (by rw [hv]; simp [h2])
  · have := h.small
    unfold total at this ⊢
    rw [hv, List.map_append, List.sum_append] at this
    omega

theorem history_ovOk {o : Opts} {ops : List Op} (h : History c ops) :
    OvOk c o (values ops) (total ops) (run c o [] ops) := by
  have hempty : OvOk c o (values ops) 0 [] :=
    ⟨fun _ _ h => absurd h List.not_mem_nil, fun _ _ h => absurd h List.not_mem_nil,
      fun _ _ h => absurd h List.not_mem_nil⟩
  have := run_ovOk h.noCollision ops hempty h.orders (fun _ h => h) (by have := h.small; omega)
  rwa [Nat.zero_add] at this

/-- C31: after any operations the node list stored for a public overlay can be read, has one record per
node id, and only records with valid signatures for that overlay. -/
theorem C31_stored_lists_are_valid (o : Opts) (ops : List Op) (h : History c ops) (k : Bytes) (e : Value)
    (hg : (run c o [] ops).get k = some e) (hr : e.key.rule = .overlayNodes) :
    ∃ nodes, decodeNodes e.value = some nodes ∧ (nodes.map (·.id)).Nodup ∧
      ∀ n ∈ nodes, ValidNode c (c.sha (writePubKey e.key.id)) n := by
  obtain ⟨nodes, h1, h2, -, h4⟩ :=
    decode_ok ((history_ovOk (o := o) h).nodes k e (AMap.mem_of_get hg) hr) h.small
  exact ⟨nodes, h1, h2, fun n hn => (h4 n hn).2⟩

/-- C31: a list accepted for an overlay is merged: the new stored list consists of records of the list
stored before (if that was not expired) and of the valid records of the value, and has for every id in
either of them a record whose version is at least every version seen. -/
theorem C31_merge (o : Opts) (ops : List Op) (order : List ONode → List ONode) (now now' : Nat)
    (v : Value) (h : History c (ops ++ [.insert order now now' v]))
    (hr : v.key.rule = .overlayNodes)
    (hok : (insert c o order now now' (run c o [] ops) v).2 = .ok true) :
    ∃ (sent old res : List ONode) (e : Value),
      decodeNodes v.value = some sent ∧
      ((run c o [] ops).get (storageKey c v.key.key) = none ∧ old = [] ∨
        ∃ e0, (run c o [] ops).get (storageKey c v.key.key) = some e0 ∧
          (if e0.ttl < now' then old = [] else decodeNodes e0.value = some old ∧ e0.ttl ≤ v.ttl)) ∧
      (run c o [] (ops ++ [.insert order now now' v])).get (storageKey c v.key.key) = some e ∧
      e.ttl = v.ttl ∧ decodeNodes e.value = some res ∧
      (res.map (·.id)).Nodup ∧
      (∀ n ∈ res, ValidNode c (c.sha (writePubKey v.key.id)) n ∧ (n ∈ old ∨ n ∈ sent)) ∧
      (∀ n, n ∈ old ∨ n ∈ sent ∧ ValidNode c (c.sha (writePubKey v.key.id)) n →
        ∃ n' ∈ res, n'.id = n.id ∧ n.version ≤ n'.version) := by
  have hst := history_ovOk (o := o) h.prefix
  have hv : ∀ a b : List Op, values (a ++ b) = values a ++ values b := by
    intro a b
    induction a with
    | nil => rfl
    | cons x a ih => rw [List.cons_append, values_cons, ih, values_cons x a, List.append_assoc]
  have hst' : OvOk c o (values (ops ++ [.insert order now now' v])) (total ops) (run c o [] ops) :=
    ⟨hst.ok, fun k e hm => by
      obtain ⟨w, hw, he⟩ := hst.src k e hm
      exact ⟨w, by rw [hv]; simp [hw], he⟩, hst.nodes⟩
  have hvin : v ∈ values (ops ++ [.insert order now now' v]) := by rw [hv]; simp [values]
  have htot : total ops + count v < 2 ^ 32 := by
    have := h.small
    unfold total at this ⊢
    rw [hv, List.map_append, List.sum_append] at this
    simpa [values] using this
  have hrun : run c o [] (ops ++ [.insert order now now' v]) =
      (insert c o order now now' (run c o [] ops) v).1 := by
    simp [run, List.foldl_append, step]
  rw [hrun]
  generalize run c o [] ops = st at hst' hok ⊢
  have he := insert_effect (c := c) o order now now' st v
  generalize (insert c o order now now' st v).1 = st' at he hok ⊢
  generalize (insert c o order now now' st v).2 = res at he hok
  cases he with
  | refused e => cases hok
  | kept old ht hg hr => cases hok
  | signed ht hn hi hk hr' hs hv => rw [hr] at hr'; cases hr'
  | overlay new old ht hn hi hk hr' hs hv =>
    obtain ⟨-, -, h3, -, -, l, hl, hnew⟩ := overlayOk_some hs
    have hold := old_ok hst' h.noCollision hvin (by omega) hk h3 hv
    obtain ⟨res, g1, -, g3, g4, g5⟩ :=
      makeValue_spec (h.orders _ (List.mem_append.mpr (.inr List.mem_cons_self))) hs hold htot
    refine ⟨l, old, res, makeValue order v new old, hl, ?_, AMap.get_put_self _ _ _, rfl, g1, g3,
      ?_, ?_⟩
    · rcases hv with hv | ⟨e, h1, h2, h3⟩ | ⟨e, h1, h2, h3, h4⟩
      · exact .inl hv
      · exact .inr ⟨e, h1, by rw [if_pos h2]; exact h3⟩
      · exact .inr ⟨e, h1, by rw [if_neg (by omega)]; exact ⟨h4, h3⟩⟩
    · intro n hn
      obtain ⟨h1, h2⟩ := g4 n hn
      refine ⟨h1, ?_⟩
      rcases h2 with h2 | h2
      · exact .inl h2
      · rw [hnew] at h2; exact .inr (List.mem_of_mem_filter h2)
    · intro n hn
      refine g5 n ?_
      rcases hn with hn | ⟨hn, hval⟩
      · exact .inl hn
      · right
        rw [hnew, List.mem_filter]
        exact ⟨hn, (verifyONode_iff _ _).mpr hval⟩

/-- All clock readings of an operation are below `t`. -/
def Before (t : Nat) : Op → Prop
  | .insert _ now now' _ => now < t ∧ now' < t
  | .gc _ now => now < t

/-- C31: no node disappears from a list while it is alive: as long as the clock is below the ttl of the
entry, every node in it stays, with the same or a greater version, whatever is stored. -/
theorem C31_nodes_stay_while_alive (o : Opts) (ops' : List Op) : ∀ (ops : List Op) (k : Bytes) (e : Value)
    (nodes : List ONode), History c (ops ++ ops') →
    (run c o [] ops).get k = some e → e.key.rule = .overlayNodes →
    decodeNodes e.value = some nodes → (∀ op ∈ ops', Before e.ttl op) →
    ∃ e' nodes', (run c o [] (ops ++ ops')).get k = some e' ∧ e.ttl ≤ e'.ttl ∧
      decodeNodes e'.value = some nodes' ∧
      ∀ n ∈ nodes, ∃ n' ∈ nodes', n'.id = n.id ∧ n.version ≤ n'.version := by
  induction ops' with
  | nil =>
    intro ops k e nodes _ hg _ hd _
    exact ⟨e, nodes, by simpa using hg, Nat.le_refl _, hd, fun n hn => ⟨n, hn, rfl, Nat.le_refl _⟩⟩
  | cons op ops' ih =>
    intro ops k e nodes h hg hr hd hb
    have hh : History c (ops ++ [op]) := by
      refine History.prefix (ops' := ops') ?_
      simpa using h
    have hb' : ∀ x ∈ ops', Before e.ttl x := fun x hx => hb x (List.mem_cons_of_mem _ hx)
    have hbo := hb op List.mem_cons_self
    rw [show ops ++ op :: ops' = (ops ++ [op]) ++ ops' by simp] at h ⊢
    have hok := C29_entries_are_authentic (c := c) o ops k e hg
    have hnd : (AMap.keys (run c o [] ops)).Nodup := run_nodup ops List.nodup_nil
    have hrun : run c o [] (ops ++ [op]) = step c o (run c o [] ops) op := by
      simp [run, List.foldl_append]
    have hsame : step c o (run c o [] ops) op = run c o [] ops →
        (run c o [] (ops ++ [op])).get k = some e := by
      intro e1; rw [hrun, e1]; exact hg
    cases op with
    | gc shard now =>
      refine ih (ops ++ [.gc shard now]) k e nodes h ?_ hr hd hb'
      rw [hrun]
      apply AMap.get_of_mem (hnd.sublist (List.Sublist.map _ List.filter_sublist))
      exact (C28_gc_partial_progress _ shard now k e).mpr ⟨AMap.mem_of_get hg, fun _ => hbo⟩
    | insert order now now' v =>
      have he := insert_effect (c := c) o order now now' (run c o [] ops) v
      have hstep : step c o (run c o [] ops) (.insert order now now' v) =
          (insert c o order now now' (run c o [] ops) v).1 := rfl
      by_cases hres : (insert c o order now now' (run c o [] ops) v).2 = .ok true
      · by_cases hkk : k = storageKey c v.key.key
        · subst hkk
          -- the entry is for the same key: it was merged
          have hrv : v.key.rule = .overlayNodes := by
            generalize (insert c o order now now' (run c o [] ops) v).1 = st' at he
            generalize (insert c o order now now' (run c o [] ops) v).2 = res at he hres
            cases he with
            | refused e => cases hres
            | kept old ht hg hr => cases hres
            | overlay new old ht hn hi hk hr' hs hv => exact hr'
            | signed ht hn hi hk hr' hs hv =>
              exfalso
              have hst := history_ovOk (o := o) hh.prefix
              obtain ⟨w, hw, hwe⟩ := hst.src _ _ (AMap.mem_of_get hg)
              have hvals : ∀ x ∈ values ops ++ [v], x ∈ values (ops ++ [.insert order now now' v]) := by
                intro x hx
                have hv : ∀ a b : List Op, values (a ++ b) = values a ++ values b := by
                  intro a b
                  induction a with
                  | nil => rfl
                  | cons x a ih =>
                    rw [List.cons_append, values_cons, ih, values_cons x a, List.append_assoc]
                rw [hv]; exact hx
              have hno := hh.noCollision w (hvals w (by simp [hw])) v (hvals v (by simp))
              apply hno
              unfold Collide
              rw [hwe]
              by_cases h1 : e.key.key = v.key.key
              · right
                refine ⟨?_, by rw [← hok.owner, h1, hk]⟩
                intro hid
                rcases hok.rule with ⟨h2, -⟩ | ⟨-, -, -, name, h2⟩
                · rw [hr] at h2; cases h2
                · obtain ⟨key, pub, h3, -⟩ := signedOk_owner hs
                  rw [hid, h3] at h2; cases h2
              · exact .inl ⟨h1, hok.key.symm⟩
          obtain ⟨sent, old, res, e', g1, g2, g3, g4, g5, g6, g7, g8⟩ :=
            C31_merge o ops order now now' v hh hrv hres
          have hbo2 : now' < e.ttl := hbo.2
          have hold : old = nodes ∧ e.ttl ≤ v.ttl := by
            rcases g2 with ⟨h1, -⟩ | ⟨e0, h1, h2⟩
            · rw [hg] at h1; cases h1
            · rw [hg] at h1; cases h1
              rw [if_neg (by omega), hd] at h2
              exact ⟨(Option.some.inj h2.1).symm, h2.2⟩
          have hr' : e'.key.rule = .overlayNodes := by
            have hok' := C29_entries_are_authentic (c := c) o _ _ _ g3
            rw [hrun, hstep] at g3
            generalize (insert c o order now now' (run c o [] ops) v).1 = st' at he g3
            generalize (insert c o order now now' (run c o [] ops) v).2 = res at he hres
            cases he with
            | refused e => cases hres
            | kept old ht hg hr => cases hres
            | overlay new old ht hn hi hk hr' hs hv =>
              rw [AMap.get_put_self] at g3; cases g3; exact hr'
            | signed ht hn hi hk hr' hs hv => rw [hrv] at hr'; cases hr'
          obtain ⟨e'', nodes'', k1, k2, k3, k4⟩ :=
            ih (ops ++ [.insert order now now' v]) _ e' res h g3 hr' g5
              (by
                intro x hx
                have hx' := hb' x hx
                have : e.ttl ≤ e'.ttl := by rw [g4]; exact hold.2
                cases x with
                | insert _ _ _ _ => exact ⟨Nat.lt_of_lt_of_le hx'.1 this, Nat.lt_of_lt_of_le hx'.2 this⟩
                | gc _ _ => exact Nat.lt_of_lt_of_le hx' this)
          refine ⟨e'', nodes'', k1, by rw [g4] at k2; omega, k3, ?_⟩
          intro n hn
          obtain ⟨n1, m1, m2, m3⟩ := g8 n (.inl (hold.1 ▸ hn))
          obtain ⟨n2, p1, p2, p3⟩ := k4 n1 m1
          exact ⟨n2, p1, p2.trans m2, by omega⟩
        · refine ih (ops ++ [.insert order now now' v]) k e nodes h ?_ hr hd hb'
          rw [hrun, hstep]
          generalize (insert c o order now now' (run c o [] ops) v).1 = st' at he ⊢
          generalize (insert c o order now now' (run c o [] ops) v).2 = res at he
          cases he with
          | refused e => exact hg
          | kept old ht hg' hr => exact hg
          | signed ht hn hi hk hr' hs hv => rw [AMap.get_put_ne _ _ hkk]; exact hg
          | overlay new old ht hn hi hk hr' hs hv => rw [AMap.get_put_ne _ _ hkk]; exact hg
      · refine ih (ops ++ [.insert order now now' v]) k e nodes h ?_ hr hd hb'
        apply hsame
        rw [hstep]
        generalize (insert c o order now now' (run c o [] ops) v).1 = st' at he ⊢
        generalize (insert c o order now now' (run c o [] ops) v).2 = res at he hres
        cases he with
        | refused e => rfl
        | kept old ht hg' hr => rfl
        | signed ht hn hi hk hr' hs hv => exact absurd rfl hres
        | overlay new old ht hn hi hk hr' hs hv => exact absurd rfl hres

/-! ### Non-vacuity -/

namespace Example

abbrev T := Crypto.toy

def o : Opts := ⟨127, 15⟩

/-- A value signed with the toy key 3. -/
def signed (ttl : Nat) : Value :=
  let owner : PubKey := .ed25519 (T.pubBytes (3 : UInt8))
  let key : Key := ⟨T.sha (writePubKey owner), [1, 2], 0⟩
  let desc : KeyDesc := ⟨key, owner, .signature, []⟩
  let desc' : KeyDesc := { desc with signature := T.sign (3 : UInt8) (writeKeyDescBoxed desc) }
  let v : Value := ⟨desc', [9], ttl, []⟩
  { v with signature := T.sign (3 : UInt8) (writeValueBoxed v) }

def owner : PubKey := .overlay [7]

/-- A record of the toy node `k` in the overlay. -/
def node (k : UInt8) (version : Nat) : ONode :=
  let m := writeNodeToSign (Node.shortId T k) (T.sha (writePubKey owner)) version
  ⟨.ed25519 (T.pubBytes k), T.sha (writePubKey owner), version, T.sign k m⟩

def overlayValue (l : List ONode) (ttl : Nat) : Value :=
  ⟨⟨⟨T.sha (writePubKey owner), keyNodes, 0⟩, owner, .overlayNodes, []⟩, writeONodes l, ttl, []⟩

def ops : List Op :=
  [.insert id 10 10 (signed 20), .insert id 11 11 (signed 30), .gc (fun _ => true) 12,
   .insert id 12 12 (overlayValue [node 1 5, node 2 7] 40)]

def op2 : Op := .insert id 13 13 (overlayValue [node 2 9, node 3 1, { node 4 1 with signature := [1] }] 50)

instance (v w : Value) : Decidable (Collide T v w) := by unfold Collide; infer_instance

theorem history : History T (ops ++ [op2]) := by
  refine ⟨by decide +kernel, ?_, by decide +kernel⟩
  intro op h
  simp only [ops, op2, List.cons_append, List.nil_append, List.mem_cons, List.not_mem_nil, or_false] at h
  rcases h with rfl | rfl | rfl | rfl | rfl
  · exact fun l => List.Perm.refl l
  · exact fun l => List.Perm.refl l
  · trivial
  · exact fun l => List.Perm.refl l
  · exact fun l => List.Perm.refl l

/-- The signed value with the larger ttl is stored. -/
example : ((run T o [] ops).get (storageKey T (signed 30).key.key)).map (·.ttl) = some 30 := by
  decide +kernel

/-- After the merge: the newer record of node 2, the others, and not the one with a wrong signature. -/
example : (((run T o [] (ops ++ [op2])).get (storageKey T (overlayValue [] 0).key.key)).bind
    (fun e => decodeNodes e.value)).map (fun l => l.map fun n => (n.id, n.version)) =
    some [(.ed25519 (T.pubBytes (3 : UInt8)), 1), (.ed25519 (T.pubBytes (2 : UInt8)), 9),
      (.ed25519 (T.pubBytes (1 : UInt8)), 5)] := by
  decide +kernel

/-- C28: the collection of garbage between, an expired value. -/
example : getRef (gcPart (run T o [] ops) (fun _ => true) 35) (storageKey T (overlayValue [] 0).key.key) 36 =
      getRef (run T o [] ops) (storageKey T (overlayValue [] 0).key.key) 36 ∧
    insert T o id 30 30 (run T o [] ops) (signed 30) = (run T o [] ops, .error .expired) :=
  ⟨C28_gc_invisible _ (by decide +kernel) _ 35 36 (by decide) _, C28_expired_is_refused o id 30 30 _ (signed 30) (by decide)⟩

/-- C29: an entry of the storage above. -/
example : EntryOk T o (storageKey T (signed 30).key.key) (signed 30) :=
  C29_entries_are_authentic o ops _ _ (by decide +kernel)

/-- C28: the value with ttl 30 is there before the collection at 30 and not after it. -/
example : (storageKey T (signed 30).key.key, signed 30) ∈ run T o [] ops ∧
    (storageKey T (signed 30).key.key, signed 30) ∉ run T o [] (ops ++ [.gc (fun _ => true) 30]) :=
  ⟨by decide +kernel, fun h => absurd (((C28_collected (c := T) o [] ops _ 30 _ _).mp h).2 rfl) (by decide)⟩

/-- C30: a newer value of the same owner replaces the entry, and that is reported; an older one does not. -/
example : (insert T o id 13 13 (run T o [] ops) (signed 35)).2 = .ok true ∧
    (insert T o id 13 13 (run T o [] ops) (signed 25)).1 = run T o [] ops :=
  ⟨(C30_reports_change o id 13 13 (run T o [] ops) (signed 35) rfl).1.mpr ⟨by decide +kernel, by decide +kernel⟩,
    (C30_reports_change o id 13 13 (run T o [] ops) (signed 25) rfl).2 (by decide +kernel)⟩

example := C30_only_forward (c := T) o ops (.insert id 13 13 (signed 35)) (storageKey T (signed 30).key.key) (signed 30)
  (by decide +kernel) rfl

example : ∃ e', (run T o [] (ops ++ [.insert id 13 13 (signed 25), .gc (fun _ => true) 14])).get
      (storageKey T (signed 30).key.key) = some e' ∧ 30 ≤ e'.ttl := by
  obtain ⟨e', h1, -, -, -, -, h2⟩ := C30_ttl_never_decreases (c := T) o [.insert id 13 13 (signed 25), .gc (fun _ => true) 14] ops
    (storageKey T (signed 30).key.key) (signed 30) (by decide +kernel) rfl (by decide +kernel) (by decide)
  exact ⟨e', h1, h2⟩

/-- C31: the list of an overlay after two values for it. -/
example : ∃ nodes, (((run T o [] (ops ++ [op2])).get (storageKey T (overlayValue [] 0).key.key)).bind
    fun e => decodeNodes e.value) = some nodes ∧ (nodes.map (·.id)).Nodup := by
  cases hg : (run T o [] (ops ++ [op2])).get (storageKey T (overlayValue [] 0).key.key) with
  | none => exact absurd hg (by decide +kernel)
  | some e =>
    have hr : e.key.rule = .overlayNodes := by
      have : ((run T o [] (ops ++ [op2])).get (storageKey T (overlayValue [] 0).key.key)).map (·.key.rule) =
        some .overlayNodes := by decide +kernel
      rw [hg] at this
      exact Option.some.inj this
    obtain ⟨nodes, h1, h2, -⟩ := C31_stored_lists_are_valid o _ history _ e hg hr
    exact ⟨nodes, h1, h2⟩

example : ∃ e, (run T o [] (ops ++ [op2])).get (storageKey T (overlayValue [] 0).key.key) = some e ∧ e.ttl = 50 := by
  obtain ⟨_, _, _, e, -, -, h1, h2, -⟩ := C31_merge o ops id 13 13
    (overlayValue [node 2 9, node 3 1, { node 4 1 with signature := [1] }] 50) history rfl (by decide +kernel)
  exact ⟨e, h1, h2⟩

end Example

end Verif.Storage
