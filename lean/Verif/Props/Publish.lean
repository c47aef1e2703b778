import Verif.Model.DhtEntry
import Verif.Props.DhtRpc
import Verif.Props.Address
import Verif.Props.PeersSet
import Verif.Spec.Scheme

/-!
# C81, C82, C87: publishing in the DHT
-/
namespace Verif.Dht
open Verif.Tl Verif.Address Verif.AdnlProto Verif.DhtProto Verif.Storage

variable {c : Crypto}

/-! ### C81: values -/

/-- The limits of a node for keys. -/
def Fits (o : Storage.Opts) (e : Entry) : Prop := e.name.length ≤ o.maxNameLen ∧ e.keyIndex ≤ o.maxIndex

/-- The fields have their widths (the id is 32 bytes anyway). -/
def Entry.wf (e : Entry) : Prop :=
  e.name.length < 2 ^ 24 ∧ e.keyIndex < 2 ^ 32 ∧ e.data.length < 2 ^ 24 ∧ ∀ t, e.expireAt = some t → t < 2 ^ 32

theorem verify_sign (hc : c.Lawful) (sec : c.Sec) (m : Bytes) : verifySig c (c.pubOf sec) m (c.sign sec m) = true := by
  simp [verifySig, hc.sign_length, hc.sign_verify]

theorem signedOk_sign (hc : c.Lawful) (sec : c.Sec) (key : Key) (data : Bytes) (t : Nat) :
    signedOk c (signValue c sec ⟨⟨key, fullTl c sec, .signature, []⟩, data, t, []⟩) = .ok () := by
  unfold signedOk signValue fullTl
  simp only [Receiver.fullId, hc.decode_pub, verify_sign hc]
  rfl

/-- What `sign` gives. -/
theorem sign_some {m : Build} {now valueTtl : Nat} {e : Entry} {sec : c.Sec} {v : Value}
    (h : e.sign c m now valueTtl sec = some v) :
    ∃ t, v = signValue c sec ⟨⟨e.key, fullTl c sec, .signature, []⟩, e.data, t, []⟩ ∧
      (e.expireAt = some t ∨ e.expireAt = none ∧ addU32 m now valueTtl = some t) := by
  unfold Entry.sign Entry.makeValue at h
  cases hx : e.expireAt with
  | some t =>
    simp only [hx, Option.map_some, Option.some.injEq] at h
    exact ⟨t, h.symm, .inl rfl⟩
  | none =>
    simp only [hx] at h
    cases ha : addU32 m now valueTtl with
    | none => rw [ha] at h; cases h
    | some t =>
      simp only [ha, Option.map_some, Option.some.injEq] at h
      exact ⟨t, h.symm, .inr ⟨rfl, rfl⟩⟩

/-- What the storage of a node looks like after a value was accepted: nothing changes if what is there lives at
least as long. -/
theorem insert_published (hc : c.Lawful) {m : Build} {t0 valueTtl : Nat} {en : Entry} {sec : c.Sec} {v : Value}
    (hv : en.sign c m t0 valueTtl sec = some v) (hid : en.id = Node.shortId c (c.pubOf sec))
    (o : Storage.Opts) (hf : Fits o en) (order : List ONode → List ONode) (now now' : Nat) (st : St)
    (hlive : now < v.ttl) :
    Storage.insert c o order now now' st v =
      match st.get (storageKey c en.key) with
      | some old => if old.ttl < v.ttl then (st.put (storageKey c en.key) v, .ok true) else (st, .ok false)
      | none => (st.put (storageKey c en.key) v, .ok true) := by
  obtain ⟨t, rfl, -⟩ := sign_some hv
  have hs := signedOk_sign hc sec en.key en.data t
  have hk : (signValue c sec ⟨⟨en.key, fullTl c sec, .signature, []⟩, en.data, t, []⟩).key.key = en.key := rfl
  unfold Storage.insert
  rw [if_neg (by omega), if_neg, if_neg]
  · simp only [show (signValue c sec ⟨⟨en.key, fullTl c sec, .signature, []⟩, en.data, t, []⟩).key.rule = .signature
      from rfl]
    unfold insertSigned
    rw [hs, hk]
    rfl
  · rw [hk]
    simp only [Entry.key, hid, ne_eq, Decidable.not_not]
    rfl
  · rw [hk]
    simp only [Entry.key, not_or, Nat.not_lt]
    exact hf

/-- A signed value is well-formed on the wire. -/
theorem published_wf (hc : c.Lawful) {m : Build} {t0 valueTtl : Nat} {en : Entry} {sec : c.Sec} {v : Value}
    (hv : en.sign c m t0 valueTtl sec = some v) (hid : en.id = Node.shortId c (c.pubOf sec)) (hw : en.wf) :
    v.wf := by
  obtain ⟨t, rfl, ht⟩ := sign_some hv
  obtain ⟨h1, h2, h3, h4⟩ := hw
  have ht : t < 2 ^ 32 := by
    rcases ht with ht | ⟨-, ht⟩
    · exact h4 t ht
    · unfold addU32 at ht
      split at ht
      · cases ht; assumption
      · cases m with
        | debug => cases ht
        | release => cases ht; exact Nat.mod_lt _ (by decide)
  have hsl : (64 : Nat) < 2 ^ 24 := by decide
  refine ⟨⟨⟨?_, h1, h2⟩, hc.pub_length _, ?_⟩, h3, ht, ?_⟩
  · show en.id.length = 32
    rw [hid]; exact hc.sha_length _
  · show (c.sign sec _).length < 2 ^ 24
    rw [hc.sign_length]; exact hsl
  · show (c.sign sec _).length < 2 ^ 24
    rw [hc.sign_length]; exact hsl

/-- **C81.** A value that is signed with the key its entry belongs to is stored by its own node and, when sent
to any other node, acknowledged by it, as long as the limits for keys allow it and it is not expired. -/
theorem C81_accepted (hc : c.Lawful) {m : Build} {t0 valueTtl : Nat} {en : Entry} {sec : c.Sec} {v : Value}
    (hv : en.sign c m t0 valueTtl sec = some v) (hid : en.id = Node.shortId c (c.pubOf sec)) (hw : en.wf)
    (o : Opts c) (hf : Fits o.storage en) (e : Env c) (s : State c) (hlive : e.now < v.ttl) :
    (storeNew o e s v).2 = some (writeQuery (.store v)) ∧
    (consumeQuery o e s (writeQuery (.store v))).2.1 = .answer writeStored := by
  have hi := insert_published hc hv hid o.storage hf e.order e.now e.now' s.storage hlive
  have hok : ∃ st b, Storage.insert c o.storage e.order e.now e.now' s.storage v = (st, .ok b) := by
    rw [hi]
    split
    · split
      · exact ⟨_, _, rfl⟩
      · exact ⟨_, _, rfl⟩
    · exact ⟨_, _, rfl⟩
  obtain ⟨st, b, hok⟩ := hok
  constructor
  · unfold storeNew
    rw [hok]
  · have := (C79_consumes_query o e s (.store v) (published_wf hc hv hid hw) []).2
    rw [List.append_nil] at this
    rw [this, handle, hok]
    rfl

/-- **C81.** With another key nothing is stored, neither here nor elsewhere. -/
theorem C81_foreign_id_refused {m : Build} {t0 valueTtl : Nat} {en : Entry} {sec : c.Sec} {v : Value}
    (hv : en.sign c m t0 valueTtl sec = some v) (hid : en.id ≠ Node.shortId c (c.pubOf sec))
    (o : Opts c) (e : Env c) (s : State c) :
    storeNew o e s v = (s, none) ∧ (handle o e.order e.now e.now' e.channelKey s (.store v)).1 = s ∧
      replyOf e (handle o e.order e.now e.now' e.channelKey s (.store v)).2 = .error := by
  obtain ⟨t, rfl, -⟩ := sign_some hv
  have : ∃ err, Storage.insert c o.storage e.order e.now e.now' s.storage
      (signValue c sec ⟨⟨en.key, fullTl c sec, .signature, []⟩, en.data, t, []⟩) = (s.storage, .error err) := by
    unfold Storage.insert
    split
    · exact ⟨_, rfl⟩
    · split
      · exact ⟨_, rfl⟩
      · rw [if_pos]
        · exact ⟨_, rfl⟩
        · exact hid
  obtain ⟨err, h⟩ := this
  refine ⟨?_, ?_, ?_⟩
  · unfold storeNew; rw [h]
  · rw [handle, h]
  · rw [handle, h]; rfl

/-- The property: once a node has acknowledged a value, it answers with this value (as long as it lives and
nothing else is stored). -/
def C81_full (c : Crypto) : Prop :=
  ∀ (m : Build) (t0 valueTtl : Nat) (en : Entry) (sec : c.Sec) (v : Value),
    en.sign c m t0 valueTtl sec = some v → en.id = Node.shortId c (c.pubOf sec) → en.wf →
    ∀ (o : Opts c) (ops : List Storage.Op) (e : Env c) (s : State c), s.storage = Storage.run c o.storage [] ops →
      (consumeQuery o e s (writeQuery (.store v))).2.1 = .answer writeStored →
      ∀ (e' : Env c) (k : Nat), e.now ≤ e'.now → e'.now < v.ttl → 0 < k → k ≤ o.maxK → k < 2 ^ 32 →
        (consumeQuery o e' (consumeQuery o e s (writeQuery (.store v))).1
          (writeQuery (.findValue (storageKey c en.key) k))).2.1 = .answer (writeValueResult (.found v))

/-- **C81, partial.** The property holds when what the node has stored before lives less long. -/
theorem C81_found_partial (hc : c.Lawful) {m : Build} {t0 valueTtl : Nat} {en : Entry} {sec : c.Sec} {v : Value}
    (hv : en.sign c m t0 valueTtl sec = some v) (hid : en.id = Node.shortId c (c.pubOf sec)) (hw : en.wf)
    (o : Opts c) (hf : Fits o.storage en) (e : Env c) (s : State c) (hlive : e.now < v.ttl)
    (hold : ∀ old, s.storage.get (storageKey c en.key) = some old → old.ttl < v.ttl)
    (e' : Env c) (k : Nat) (hlive' : e'.now < v.ttl) (hk : 0 < k) (hk' : k ≤ o.maxK) (hk2 : k < 2 ^ 32) :
    (consumeQuery o e' (consumeQuery o e s (writeQuery (.store v))).1
      (writeQuery (.findValue (storageKey c en.key) k))).2.1 = .answer (writeValueResult (.found v)) := by
  have hi := insert_published hc hv hid o.storage hf e.order e.now e.now' s.storage hlive
  have hi' : Storage.insert c o.storage e.order e.now e.now' s.storage v =
      (s.storage.put (storageKey c en.key) v, .ok true) := by
    rw [hi]
    cases hg : s.storage.get (storageKey c en.key) with
    | none => rfl
    | some old => simp only; rw [if_pos (hold old hg)]
  have h1 := (C79_consumes_query o e s (.store v) (published_wf hc hv hid hw) []).1
  rw [List.append_nil, handle, hi'] at h1
  rw [h1]
  have h2 := (C79_consumes_query o e' { s with storage := s.storage.put (storageKey c en.key) v }
    (.findValue (storageKey c en.key) k) ⟨hc.sha_length _, hk2⟩ []).2
  rw [List.append_nil] at h2
  rw [h2, handle]
  have hfv : findValue o e'.now { s with storage := s.storage.put (storageKey c en.key) v } (storageKey c en.key) k =
      some (.found v) := by
    unfold findValue
    rw [if_neg (by omega)]
    unfold Storage.getRef
    simp only [AMap.get_put_self]
    rw [if_pos hlive']
  rw [hfv]
  rfl

/-- **C81, partial.** The same holds for the node that publishes: it answers with the value itself. -/
theorem C81_kept_here_partial (hc : c.Lawful) {m : Build} {t0 valueTtl : Nat} {en : Entry} {sec : c.Sec} {v : Value}
    (hv : en.sign c m t0 valueTtl sec = some v) (hid : en.id = Node.shortId c (c.pubOf sec))
    (o : Opts c) (hf : Fits o.storage en) (e : Env c) (s : State c) (hlive : e.now < v.ttl)
    (hold : ∀ old, s.storage.get (storageKey c en.key) = some old → old.ttl < v.ttl)
    (e' : Env c) (k : Nat) (hlive' : e'.now < v.ttl) (hk : 0 < k) (hk' : k ≤ o.maxK) (hk2 : k < 2 ^ 32) :
    (consumeQuery o e' (storeNew o e s v).1 (writeQuery (.findValue (storageKey c en.key) k))).2.1 =
      .answer (writeValueResult (.found v)) := by
  have hi := insert_published hc hv hid o.storage hf e.order e.now e.now' s.storage hlive
  have hi' : Storage.insert c o.storage e.order e.now e.now' s.storage v =
      (s.storage.put (storageKey c en.key) v, .ok true) := by
    rw [hi]
    cases hg : s.storage.get (storageKey c en.key) with
    | none => rfl
    | some old => simp only; rw [if_pos (hold old hg)]
  have h1 : (storeNew o e s v).1 = { s with storage := s.storage.put (storageKey c en.key) v } := by
    unfold storeNew
    rw [hi']
  rw [h1]
  have h2 := (C79_consumes_query o e' { s with storage := s.storage.put (storageKey c en.key) v }
    (.findValue (storageKey c en.key) k) ⟨hc.sha_length _, hk2⟩ []).2
  rw [List.append_nil] at h2
  rw [h2, handle]
  have hfv : findValue o e'.now { s with storage := s.storage.put (storageKey c en.key) v } (storageKey c en.key) k =
      some (.found v) := by
    unfold findValue
    rw [if_neg (by omega)]
    unfold Storage.getRef
    simp only [AMap.get_put_self]
    rw [if_pos hlive']
  rw [hfv]
  rfl

/-- **C81.** The value lives for the time asked for, or for the time of the options, counted from when it is
made. -/
theorem C81_lifetime {m : Build} {now t0 ttl valueTtl : Nat} {en : Entry} {sec : c.Sec} :
    (now + ttl < 2 ^ 32 → ∃ en' v, en.withTtl m now ttl = some en' ∧ en'.sign c m t0 valueTtl sec = some v ∧
      v.ttl = now + ttl ∧ v.value = en.data ∧ v.key.key = en.key) ∧
    (en.expireAt = none → t0 + valueTtl < 2 ^ 32 → ∃ v, en.sign c m t0 valueTtl sec = some v ∧
      v.ttl = t0 + valueTtl) := by
  constructor
  · intro h
    refine ⟨{ en with expireAt := some (now + ttl) }, _, ?_, rfl, rfl, rfl, rfl⟩
    unfold Entry.withTtl
    rw [show addU32 m now ttl = some (now + ttl) by unfold addU32; rw [if_pos h]]
    rfl
  · intro he h
    unfold Entry.sign Entry.makeValue
    rw [he, show addU32 m t0 valueTtl = some (t0 + valueTtl) by unfold addU32; rw [if_pos h]]
    exact ⟨_, rfl, rfl⟩

example : ∃ en' v, (⟨[1], [2], 0, [3], none⟩ : Entry).withTtl .debug 100 3600 = some en' ∧
    en'.sign Crypto.toy .debug 7 60 (show UInt8 from 3) = some v ∧ v.ttl = 3700 :=
  have ⟨en', v, h1, h2, h3, _⟩ := (C81_lifetime (c := Crypto.toy) (m := .debug) (now := 100) (t0 := 7) (ttl := 3600)
    (valueTtl := 60) (en := ⟨[1], [2], 0, [3], none⟩) (sec := (show UInt8 from 3))).1 (by omega)
  ⟨en', v, h1, h2, h3⟩

/-- **C81.** Every known peer gets the query, once, and nobody else gets anything. -/
theorem C81_every_peer (s : State c) (hs : Props.Reachable s.known) (q : Bytes) (peer x : Bytes) :
    (storeQueries s q).count (peer, x) = if PeersSet.contains s.known peer = true ∧ x = q then 1 else 0 := by
  obtain ⟨-, h2, h3, -⟩ := Props.C17_bounded_unique_consistent s.known hs
  have hnd : s.known.index.Nodup := by
    rw [List.nodup_iff_getElem?_ne_getElem?]
    intro i j hij hj he
    have := h2 i j _ (List.getElem?_eq_getElem (by omega)) (by rw [PeersSet.get, ← he, List.getElem?_eq_getElem])
    omega
  have hnd' : (storeQueries s q).Nodup := by
    refine List.Nodup.map ?_ hnd
    intro a b hab
    exact congrArg Prod.fst hab
  have hm : (peer, x) ∈ storeQueries s q ↔ PeersSet.contains s.known peer = true ∧ x = q := by
    simp only [storeQueries, List.mem_map, Prod.mk.injEq]
    rw [h3 peer]
    constructor
    · rintro ⟨a, ha, rfl, rfl⟩
      exact ⟨List.mem_iff_getElem?.mp ha, rfl⟩
    · rintro ⟨hi, rfl⟩
      exact ⟨peer, List.mem_iff_getElem?.mpr hi, rfl, rfl⟩
  by_cases h : (peer, x) ∈ storeQueries s q
  · rw [if_pos (hm.mp h), List.count_eq_one_of_mem hnd' h]
  · rw [if_neg (fun hx => h (hm.mpr hx)), List.count_eq_zero_of_not_mem h]

/-- **C81, partial.** The one who asked takes the answer for what was published: the key, the owner and the
data. -/
theorem C81_read_partial (hc : c.Lawful) {m : Build} {t0 valueTtl : Nat} {en : Entry} {sec : c.Sec} {v : Value}
    (hv : en.sign c m t0 valueTtl sec = some v) (hid : en.id = Node.shortId c (c.pubOf sec)) (hw : en.wf)
    {T : Type} (parseT : Bytes → Option T) (x : T) (hx : parseT en.data = some x) :
    ∃ key, parseValueResult c parseT (writeValueResult (.found v)) = .value key x ∧ key.key = en.key ∧
      key.id = fullTl c sec := by
  have hwf := published_wf hc hv hid hw
  obtain ⟨t, rfl, -⟩ := sign_some hv
  have hr := valueResult_encodes (.found (signValue c sec ⟨⟨en.key, fullTl c sec, .signature, []⟩, en.data, t, []⟩))
    hwf []
  rw [List.append_nil] at hr
  refine ⟨(signValue c sec ⟨⟨en.key, fullTl c sec, .signature, []⟩, en.data, t, []⟩).key, ?_, rfl, rfl⟩
  unfold parseValueResult
  rw [hr]
  simp only
  rw [if_neg]
  · show (match parseT en.data with
      | none => Parsed.error
      | some t => Parsed.value _ t) = _
    rw [hx]
  · rintro ⟨-, h⟩
    unfold verifySigned at h
    rw [signedOk_sign hc] at h
    simp only [Bool.and_true, decide_eq_false_iff_not] at h
    exact h hid

/-! #### The negation: a value of equal lifetime is acknowledged, but not kept -/

namespace Example

/-- Two values for one key, published within the same second. -/
def entry (x : UInt8) : Entry := ⟨Node.shortId T (3 : UInt8), [1], 0, [x], some 2000⟩

def value (x : UInt8) : Value := signValue T (3 : UInt8) ⟨⟨(entry x).key, fullTl T (3 : UInt8), .signature, []⟩, [x], 2000, []⟩

/-- The node has the first value. -/
def first : List Storage.Op := [.insert id 1000 1000 (value 1)]

def s1 : State T := { s0 with storage := Storage.run T o.storage [] first }

end Example

theorem first_stays : (consumeQuery Example.o Example.env Example.s1 (writeQuery (.store (Example.value 2)))).2.1 =
      .answer writeStored ∧
    (consumeQuery Example.o Example.env
      (consumeQuery Example.o Example.env Example.s1 (writeQuery (.store (Example.value 2)))).1
        (writeQuery (.findValue (storageKey Example.T (Example.entry 2).key) 1))).2.1 ≠
      .answer (writeValueResult (.found (Example.value 2))) := by decide +kernel

/-- **C81** is false as stated: a value published again within the second, or with a shorter life, is
acknowledged but not kept. -/
theorem C81_full_false : ¬ C81_full Crypto.toy := by
  intro h
  have hs : Example.s1.storage = Storage.run Crypto.toy Example.o.storage [] Example.first := by
    simp only [Example.s1]
  have hw : (Example.entry 2).wf := by
    refine ⟨by decide, by decide, by decide, ?_⟩
    intro t ht
    cases ht
    decide
  have h1 := h .release 1000 1000 (Example.entry 2) (3 : UInt8) (Example.value 2) rfl rfl hw Example.o
    Example.first Example.env Example.s1 hs
  generalize hq : consumeQuery Example.o Example.env Example.s1 (writeQuery (.store (Example.value 2))) = r at h1
  have h2 := first_stays
  simp only [hq] at h2
  exact h2.2 (h1 h2.1 Example.env 1 (Nat.le_refl _) (show 1000 < 2000 by decide) (by decide) (by decide) (by decide))

theorem Example.entry_wf (x : UInt8) : (Example.entry x).wf := by
  refine ⟨show 1 < 2 ^ 24 by decide, show 0 < 2 ^ 32 by decide, show 1 < 2 ^ 24 by decide, ?_⟩
  intro t ht
  cases ht
  decide

/-- The published value is acknowledged and found, and read by the one who asked. -/
example := C81_accepted Crypto.toy_lawful (m := .release) (t0 := 1000) (valueTtl := 1000) (en := Example.entry 1)
  (sec := (3 : UInt8)) (v := Example.value 1) rfl rfl (Example.entry_wf 1) Example.o ⟨by decide, by decide⟩ Example.env
  Example.s0 (show 1000 < 2000 by decide)

example : storeNew Example.o Example.env Example.s0 (signValue Crypto.toy (4 : UInt8) ⟨⟨(Example.entry 1).key,
    fullTl Crypto.toy (4 : UInt8), .signature, []⟩, [1], 2000, []⟩) = (Example.s0, none) :=
  (C81_foreign_id_refused (c := Crypto.toy) (m := .release) (t0 := 1000) (valueTtl := 1000) (en := Example.entry 1)
    (sec := (4 : UInt8)) rfl (by decide +kernel) Example.o Example.env Example.s0).1

example : (consumeQuery Example.o Example.env (consumeQuery Example.o Example.env Example.s0
      (writeQuery (.store (Example.value 1)))).1 (writeQuery (.findValue (storageKey Crypto.toy (Example.entry 1).key) 1))).2.1 =
    .answer (writeValueResult (.found (Example.value 1))) :=
  C81_found_partial Crypto.toy_lawful (m := .release) (t0 := 1000) (valueTtl := 1000) (en := Example.entry 1) (sec := (3 : UInt8))
    rfl rfl (Example.entry_wf 1) Example.o ⟨by decide, by decide⟩ Example.env Example.s0 (show 1000 < 2000 by decide)
    (fun old h => by cases h) Example.env 1 (show 1000 < 2000 by decide) (by decide) (by decide) (by decide)

example : (consumeQuery Example.o Example.env (storeNew Example.o Example.env Example.s0 (Example.value 1)).1
      (writeQuery (.findValue (storageKey Crypto.toy (Example.entry 1).key) 1))).2.1 =
    .answer (writeValueResult (.found (Example.value 1))) :=
  C81_kept_here_partial Crypto.toy_lawful (m := .release) (t0 := 1000) (valueTtl := 1000) (en := Example.entry 1)
    (sec := (3 : UInt8)) rfl rfl Example.o ⟨by decide, by decide⟩ Example.env Example.s0 (show 1000 < 2000 by decide)
    (fun old h => by cases h) Example.env 1 (show 1000 < 2000 by decide) (by decide) (by decide) (by decide)

example : ∃ key, parseValueResult Crypto.toy some (writeValueResult (.found (Example.value 1))) = .value key [1] := by
  obtain ⟨key, h, -⟩ := C81_read_partial Crypto.toy_lawful (m := .release) (t0 := 1000) (valueTtl := 1000)
    (en := Example.entry 1) (sec := (3 : UInt8)) rfl rfl (Example.entry_wf 1) some [1] rfl
  exact ⟨key, h⟩

/-- Two known peers get the query once each. -/
example : (storeQueries { Example.s0 with known := (PeersSet.insert (PeersSet.insert (PeersSet.withCapacity 5) [1]).1 [2]).1 }
    [9]).count ([2], [9]) = 1 := by
  rw [C81_every_peer _ (Props.Reachable.insert _ _ (.insert _ _ (.empty 5))) [9] [2] [9]]
  decide

/-- The hypotheses of the other theorems are met by the first value. -/
example : (Example.entry 1).sign Crypto.toy .release 1000 1000 (3 : UInt8) = some (Example.value 1) ∧
    (Example.entry 1).id = Node.shortId Crypto.toy (3 : UInt8) ∧ Fits Example.o.storage (Example.entry 1) ∧
    Example.env.now < (Example.value 1).ttl ∧ Example.s0.storage.get (storageKey Crypto.toy (Example.entry 1).key) = none :=
  ⟨rfl, rfl, ⟨by decide, by decide⟩, by decide, rfl⟩

/-! #### Addresses -/

theorem readAddrListBoxed_write (l : AddrList) (h : addrListWf l) : readAddrListBoxed (writeAddrListBoxed l) = some l := by
  unfold readAddrListBoxed writeAddrListBoxed
  rw [readU32_write _ (by decide)]
  have := addrList_encodes l h []
  rw [List.append_nil] at this
  simp only [this, Option.map_some]

theorem toAddr_wf (a : SockAddr) : (toAddr a).ip < 2 ^ 32 ∧ (toAddr a).port < 2 ^ 32 := by
  constructor
  · show ofBE a.octets < 2 ^ 32
    have := ofLE_lt a.octets.reverse
    have h4 : a.octets.reverse.length = 4 := rfl
    rw [h4] at this
    exact Nat.lt_of_lt_of_le this (by decide)
  · show a.port.toNat < 2 ^ 32
    have := a.port.toNat_lt
    omega

/-- **C81, partial.** The address stored by `store_address` is found by `find_address` in the answer, together
with the owner's key, when the clock of the one who asks is not too far behind. -/
theorem C81_address_partial (hc : c.Lawful) (m m' : Build) (now startTime valueTtl now' tolerance : Nat) (sec : c.Sec)
    (addr : SockAddr) (v : Value) (hnow : now < 2 ^ 32) (hstart : startTime < 2 ^ 32)
    (hv : (addressEntry c now startTime sec addr).sign c m now valueTtl sec = some v)
    (htol : now' + tolerance < 2 ^ 32) (hclock : startTime ≤ now' + tolerance) :
    ∃ key list, parseValueResult c readAddrListBoxed (writeValueResult (.found v)) = .value key list ∧
      key.key.id = Node.shortId c (c.pubOf sec) ∧ key.key.name.map (·.toNat) = tl!"address" ∧ key.key.idx = 0 ∧
      findAddress c m' now' tolerance [(key, list)] = some (addr, c.pubOf sec) := by
  have hwl : addrListWf ⟨some (toAddr addr), now, startTime, 0⟩ :=
    ⟨(by intro a ha; cases ha; exact toAddr_wf addr), hnow, hstart, show 0 < 2 ^ 32 by decide⟩
  have hlen : (writeAddrListBoxed ⟨some (toAddr addr), now, startTime, 0⟩).length = 36 := by
    simp only [writeAddrListBoxed, writeAddrList, writeOpt, writeAddr, List.length_append, writeU32_length]
  have hw : (addressEntry c now startTime sec addr).wf := by
    refine ⟨show keyAddress.length < 2 ^ 24 by decide, show 0 < 2 ^ 32 by decide, ?_, ?_⟩
    · show (writeAddrListBoxed _).length < 2 ^ 24
      rw [hlen]; decide
    · intro t ht; cases ht
  obtain ⟨key, h1, h2, h3⟩ := C81_read_partial hc hv rfl hw readAddrListBoxed _ (readAddrListBoxed_write _ hwl)
  refine ⟨key, _, h1, by rw [h2]; rfl, by rw [h2]; rfl, by rw [h2]; rfl, ?_⟩
  unfold findAddress parse
  simp only [addU32, if_pos htol, h3, fullTl, Receiver.fullId, hc.decode_pub]
  rw [if_neg (by omega), if_neg (by omega)]
  rw [Props.C23_address_roundtrip addr]

example : ∃ v key list, (addressEntry Crypto.toy 1000 900 (3 : UInt8) ⟨1, 2, 3, 4, 5⟩).sign Crypto.toy .release 1000 3600
      (3 : UInt8) = some v ∧
    parseValueResult Crypto.toy readAddrListBoxed (writeValueResult (.found v)) = .value key list ∧
    findAddress Crypto.toy .release 1010 60 [(key, list)] = some (⟨1, 2, 3, 4, 5⟩, (3 : UInt8)) := by
  obtain ⟨v, hv⟩ : ∃ v, (addressEntry Crypto.toy 1000 900 (3 : UInt8) ⟨1, 2, 3, 4, 5⟩).sign Crypto.toy .release 1000 3600
    (3 : UInt8) = some v := ⟨_, rfl⟩
  obtain ⟨key, list, h1, -, -, -, h2⟩ := C81_address_partial Crypto.toy_lawful .release .release 1000 900 3600 1010 60
    (3 : UInt8) ⟨1, 2, 3, 4, 5⟩ v (by decide) (by decide) hv (by decide) (by decide)
  exact ⟨v, key, list, hv, h1, h2⟩

/-! ### C87: checking what is stored -/

/-- The property: with `check_all` the check succeeds only if every value found passes. -/
def C87_full : Prop :=
  ∀ (T E : Type) (check : KeyDesc → T → Except E Bool) (values : List (KeyDesc × T)),
    checkStored check true values = .ok true → ∀ x ∈ values, check x.1 x.2 = .ok true

/-- **C87** is false: the values behind the first one that passes are not looked at. -/
theorem C87_full_false : ¬ C87_full := by
  intro h
  have := h Bool Unit (fun _ b => .ok b)
    [(⟨⟨[], [], 0⟩, .overlay [], .anybody, []⟩, true), (⟨⟨[], [], 0⟩, .overlay [], .anybody, []⟩, false)] rfl
    (⟨⟨[], [], 0⟩, .overlay [], .anybody, []⟩, false) (by simp)
  cases this

theorem checkStored_first {T E : Type} (check : KeyDesc → T → Except E Bool) (all : Bool)
    (values : List (KeyDesc × T)) (r : Except E Bool) (hr : r ≠ .ok false) : checkStored check all values = r ↔
      ∃ before x after, values = before ++ x :: after ∧ check x.1 x.2 = r ∧
        ∀ y ∈ before, check y.1 y.2 = .ok false := by
  induction values with
  | nil =>
    constructor
    · intro h; exact absurd h.symm hr
    · rintro ⟨before, x, after, h, -⟩
      simp at h
  | cons v rest ih =>
    obtain ⟨k, v⟩ := v
    have hfalse : ∀ r', check k v = r' → r' ≠ .ok false → (r' = r ↔ ∃ before x after,
        (k, v) :: rest = before ++ x :: after ∧ check x.1 x.2 = r ∧ ∀ y ∈ before, check y.1 y.2 = .ok false) := by
      intro r' h1 h2
      constructor
      · rintro rfl
        exact ⟨[], (k, v), rest, rfl, h1, fun _ h => absurd h List.not_mem_nil⟩
      · rintro ⟨before, x, after, h3, h4, h5⟩
        cases before with
        | nil => cases h3; exact h1.symm.trans h4
        | cons y before =>
          cases h3
          exact absurd (h1.symm.trans (h5 (k, v) List.mem_cons_self)) h2
    unfold checkStored
    cases hc : check k v with
    | error e => exact hfalse _ hc (by simp)
    | ok b =>
      cases b with
      | true => exact hfalse _ hc (by simp)
      | false =>
        simp only
        rw [ih]
        constructor
        · rintro ⟨before, x, after, rfl, h4, h5⟩
          refine ⟨(k, v) :: before, x, after, rfl, h4, ?_⟩
          intro y hy
          rcases List.mem_cons.mp hy with rfl | hy
          · exact hc
          · exact h5 y hy
        · rintro ⟨before, x, after, h3, h4, h5⟩
          cases before with
          | nil => cases h3; exact absurd (h4.symm.trans hc) hr
          | cons y before =>
            cases h3
            exact ⟨before, x, after, rfl, h4, fun y hy => h5 y (List.mem_cons_of_mem _ hy)⟩

/-- **C87, partial.** What the results say, with and without `check_all`: `true` means that some value passes and
all before it were rejected without an error; `false` means that all were rejected; an error is the one of the first
value which was not just rejected. -/
theorem C87_result_partial {T E : Type} (check : KeyDesc → T → Except E Bool) (all : Bool) (values : List (KeyDesc × T)) :
    (checkStored check all values = .ok true ↔ ∃ before x after, values = before ++ x :: after ∧
      check x.1 x.2 = .ok true ∧ ∀ y ∈ before, check y.1 y.2 = .ok false) ∧
    (checkStored check all values = .ok false ↔ ∀ y ∈ values, check y.1 y.2 = .ok false) ∧
    (∀ e, checkStored check all values = .error e ↔ ∃ before x after, values = before ++ x :: after ∧
      check x.1 x.2 = .error e ∧ ∀ y ∈ before, check y.1 y.2 = .ok false) := by
  refine ⟨checkStored_first check all values _ (by simp), ?_,
    fun e => checkStored_first check all values _ (by simp)⟩
  induction values with
  | nil => exact ⟨fun _ _ h => absurd h List.not_mem_nil, fun _ => rfl⟩
  | cons v rest ih =>
    obtain ⟨k, v⟩ := v
    unfold checkStored
    cases hc : check k v with
    | error e => simp only [reduceCtorEq, List.forall_mem_cons, hc, false_and]
    | ok b =>
      cases b with
      | true => simp [hc]
      | false => simp only [List.forall_mem_cons, hc, true_and]; exact ih

/-! ### C82: the own record -/

theorem localNode_wf (hc : c.Lawful) (now startTime : Nat) (addr : SockAddr) (sec : c.Sec) (hnow : now < 2 ^ 32)
    (hstart : startTime < 2 ^ 32) : (localNode c now startTime addr sec).wf := by
  refine ⟨hc.pub_length _, ⟨?_, hnow, hstart, show 0 < 2 ^ 32 by decide⟩, hnow, ?_⟩
  · intro a ha; cases ha; exact toAddr_wf addr
  · show (c.sign sec _).length < 2 ^ 24
    rw [hc.sign_length]; decide

/-- **C82.** A node that knows nothing about us, or knows us from earlier, takes the record we send about ourselves:
our address is from then on the one of this record. The record is in the routing table unless we were known
before. -/
theorem C82_own_record_accepted (hc : c.Lawful) (now startTime : Nat) (addr : SockAddr) (sec : c.Sec)
    (o : Opts c) (s : State c) (now' : Nat) (channelKey : c.Sec)
    (hself : Node.shortId c (c.pubOf sec) ≠ s.buckets.localId) (haddr : addr ≠ o.adnl.socketAddr)
    (hfilter : ∀ f, o.adnl.filter = some f → f addr (Node.shortId c (c.pubOf sec)) = true)
    (hpeers : ∃ t, s.adnl.peers.get s.buckets.localId = some t)
    (htol : now' + o.adnl.clockTolerance < 2 ^ 32) (hclock : startTime ≤ now' + o.adnl.clockTolerance) :
    ∃ s', addDhtPeer o now' s (localNode c now startTime addr sec) channelKey =
        (s', .some (Node.shortId c (c.pubOf sec))) ∧
      (∃ p, s'.adnl.peer s.buckets.localId (Node.shortId c (c.pubOf sec)) = some p ∧ unpack p.addr = addr) ∧
      (Node.shortId c (c.pubOf sec) ∉ AMap.keys s.known.cache →
        ∃ n, Buckets.lookup s'.buckets (Node.shortId c (c.pubOf sec)) = some n ∧ now ≤ n.version ∧
          (Buckets.lookup s.buckets (Node.shortId c (c.pubOf sec)) = none → n = localNode c now startTime addr sec)) := by
  have hid : Receiver.fullId c (localNode c now startTime addr sec).id = some (c.pubOf sec) := hc.decode_pub _
  have hsig : verifySig c (c.pubOf sec) (writeDNodeBoxed { localNode c now startTime addr sec with signature := [] })
      (localNode c now startTime addr sec).signature = true := verify_sign hc sec _
  have hparse : parse o.adnl.build now' o.adnl.clockTolerance (localNode c now startTime addr sec).addrList = .ok addr := by
    show parse o.adnl.build now' o.adnl.clockTolerance ⟨some (toAddr addr), now, startTime, 0⟩ = .ok addr
    unfold parse
    simp only [addU32, if_pos htol]
    rw [if_neg (by omega), if_neg (by omega), Props.C23_address_roundtrip addr]
  have hadd : ∃ adnl p, Node.addPeer o.adnl s.adnl s.buckets.localId (Node.shortId c (c.pubOf sec)) addr (c.pubOf sec)
      channelKey = (adnl, .yes) ∧
      adnl.peer s.buckets.localId (Node.shortId c (c.pubOf sec)) = some p ∧ unpack p.addr = addr := by
    obtain ⟨t, ht⟩ := hpeers
    unfold Node.addPeer
    rw [if_neg (by rintro (h | h); exacts [hself h, haddr h]), if_neg, ht]
    · simp only
      cases hg : t.get (Node.shortId c (c.pubOf sec)) with
      | none =>
        refine ⟨_, Node.Peer.new o.adnl.startTime addr (c.pubOf sec) channelKey, rfl, ?_, ?_⟩
        · rw [Node.State.setPeer, ht]
          simp only [Node.State.peer, AMap.get_put_self]
        · exact Props.C23_pack_unpack addr
      | some p =>
        refine ⟨_, { p with addr := pack addr }, rfl, ?_, ?_⟩
        · rw [Node.State.setPeer, ht]
          simp only [Node.State.peer, AMap.get_put_self]
        · exact Props.C23_pack_unpack addr
    · cases hf : o.adnl.filter with
      | none => simp
      | some f => simp [hfilter f hf]
  obtain ⟨adnl, p, h1, h2, h3⟩ := hadd
  unfold addDhtPeer
  rw [hid]
  simp only
  rw [if_neg (by rw [hsig]; decide), hparse]
  simp only [h1]
  by_cases hk : (PeersSet.insert s.known (Node.shortId c (c.pubOf sec))).2 = true
  · rw [if_pos hk]
    refine ⟨_, rfl, ⟨p, h2, h3⟩, fun _ => ?_⟩
    simp only [Buckets.insert_lookup, if_pos trivial]
    refine ⟨_, rfl, ?_, ?_⟩
    · split
      · split
        · exact Nat.le_refl _
        · rename_i h; exact Nat.le_of_not_lt h
      · exact Nat.le_refl _
    · intro hn
      rw [hn]
  · rw [if_neg hk]
    refine ⟨_, rfl, ⟨p, h2, h3⟩, fun hno => absurd ?_ hk⟩
    unfold PeersSet.insert
    rw [AMap.get_eq_none_iff.mpr hno]
    simp only
    split <;> rfl

/-- **C82.** So a query sent with our record in front of it is answered as without the record, in the state
with the record. -/
theorem C82_query_after_record (hc : c.Lawful) (now startTime : Nat) (addr : SockAddr) (sec : c.Sec)
    (hnow : now < 2 ^ 32) (hstart : startTime < 2 ^ 32) (o : Opts c) (s : State c) (e : Env c)
    (hself : Node.shortId c (c.pubOf sec) ≠ s.buckets.localId) (haddr : addr ≠ o.adnl.socketAddr)
    (hfilter : ∀ f, o.adnl.filter = some f → f addr (Node.shortId c (c.pubOf sec)) = true)
    (hpeers : ∃ t, s.adnl.peers.get s.buckets.localId = some t)
    (htol : e.now + o.adnl.clockTolerance < 2 ^ 32) (hclock : startTime ≤ e.now + o.adnl.clockTolerance)
    (q : Query) (hq : q.wf) :
    ∃ s', addDhtPeer o e.now s (localNode c now startTime addr sec) e.channelKey =
        (s', .some (Node.shortId c (c.pubOf sec))) ∧
      (consumeQuery o e s (writeQuery (.withNode (localNode c now startTime addr sec) q))).1 =
        (consumeQuery o e s' (writeQuery q)).1 ∧
      (consumeQuery o e s (writeQuery (.withNode (localNode c now startTime addr sec) q))).2.1 =
        (consumeQuery o e s' (writeQuery q)).2.1 := by
  obtain ⟨s', h, -⟩ := C82_own_record_accepted hc now startTime addr sec o s e.now e.channelKey hself haddr hfilter
    hpeers htol hclock
  have h1 := C79_consumes_query o e s (.withNode (localNode c now startTime addr sec) q)
    ⟨localNode_wf hc now startTime addr sec hnow hstart, hq⟩ []
  have h2 := C79_consumes_query o e s' q hq []
  rw [List.append_nil] at h1 h2
  refine ⟨s', h, ?_, ?_⟩
  · rw [h1.1, h2.1, handle, h]
  · rw [h1.2, h2.2, handle, h]

/-- The node of the examples learns the toy node 3. -/
example : ∃ s', addDhtPeer Example.o 1000 Example.s0 (localNode Crypto.toy 990 980 ⟨1, 2, 3, 5, 77⟩ (3 : UInt8)) (7 : UInt8) =
    (s', .some (Node.shortId Crypto.toy (3 : UInt8))) := by
  obtain ⟨s', h, -⟩ := C82_own_record_accepted Crypto.toy_lawful 990 980 ⟨1, 2, 3, 5, 77⟩ (3 : UInt8) Example.o Example.s0
    1000 (7 : UInt8) (by decide +kernel) (by decide) (fun f hf => by cases hf) ⟨[], by simp [Example.s0, init, AMap.get, Buckets.new]⟩
    (show 1000 + 60 < 2 ^ 32 by decide) (show 980 ≤ 1000 + 60 by decide)
  exact ⟨s', h⟩

end Verif.Dht
