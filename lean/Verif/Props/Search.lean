import Verif.Model.Discover
import Mathlib.Data.List.Perm.Basic

/-!
# C90, C91: searching for the nodes of an overlay
-/
namespace Verif.Dht
open Verif.Address Verif.DhtProto

variable {c : Crypto}

/-! ### Specification -/

/-- The short id of a node record, if its key is valid. -/
def peerId (c : Crypto) (n : ONode) : Option Bytes := (Receiver.fullId c n.id).map (Node.shortId c)

/-- The node with this id was received in the round. -/
def Received (c : Crypto) (r : Round) (id : Bytes) : Prop := ∃ n ∈ r.received.flatten, peerId c n = some id

/-- The lookups end in some order. -/
def Orders (rs : List Round) : Prop := ∀ r ∈ rs, ∀ l, (r.order l).Perm l

/-- The property C91: a search which has heard of a node ends as soon as the address of the node can be found. -/
def C91_full (c : Crypto) : Prop :=
  ∀ (rs : List Round) (r : Round) (id : Bytes), Orders (rs ++ [r]) → r.received ≠ [] →
    (∃ r' ∈ rs ++ [r], Received c r' id) → (r.address id).isSome → findOverlay c Search.start (rs ++ [r]) ≠ none

/-! ### One turn -/

theorem lookups_cache (l : List ONode) : ∀ cache id,
    id ∈ (lookups c cache l).1 ↔ id ∈ cache ∨ ∃ n ∈ l, peerId c n = some id := by
  induction l with
  | nil => simp [lookups]
  | cons n l ih =>
    intro cache id
    simp only [lookups]
    cases hf : Receiver.fullId c n.id with
    | none => simp [ih, peerId, hf]
    | some pub =>
      simp only
      split
      · rename_i hm
        rw [ih]
        constructor
        · rintro (h | ⟨m, h1, h2⟩)
          · exact .inl h
          · exact .inr ⟨m, List.mem_cons_of_mem _ h1, h2⟩
        · rintro (h | ⟨m, h1, h2⟩)
          · exact .inl h
          · rcases List.mem_cons.mp h1 with rfl | h1
            · simp only [peerId, hf, Option.map_some, Option.some.injEq] at h2
              rw [h2] at hm
              exact .inl hm
            · exact .inr ⟨m, h1, h2⟩
      · rw [ih]
        simp only [List.mem_cons, exists_eq_or_imp]
        simp only [peerId, hf, Option.map_some, Option.some.injEq]
        constructor
        · rintro ((rfl | h) | h)
          · exact .inr (.inl rfl)
          · exact .inl h
          · exact .inr (.inr h)
        · rintro (h | rfl | h)
          · exact .inl (.inr h)
          · exact .inl (.inl rfl)
          · exact .inr h

theorem lookups_mem (l : List ONode) : ∀ cache id n, (id, n) ∈ (lookups c cache l).2 →
    n ∈ l ∧ peerId c n = some id ∧ id ∉ cache := by
  induction l with
  | nil => intro cache id n h; simp [lookups] at h
  | cons m l ih =>
    intro cache id n h
    simp only [lookups] at h
    have up : ∀ {cache'}, (id, n) ∈ (lookups c cache' l).2 → cache ⊆ cache' →
        n ∈ m :: l ∧ peerId c n = some id ∧ id ∉ cache := fun h hs =>
      have ⟨h1, h2, h3⟩ := ih _ id n h
      ⟨List.mem_cons_of_mem _ h1, h2, fun h4 => h3 (hs h4)⟩
    cases hf : Receiver.fullId c m.id with
    | none => rw [hf] at h; exact up h (fun _ h => h)
    | some pub =>
      rw [hf] at h
      simp only at h
      split at h
      · exact up h (fun _ h => h)
      · rename_i hc
        rcases List.mem_cons.mp h with h | h
        · cases h
          exact ⟨List.mem_cons_self, by simp [peerId, hf], hc⟩
        · exact up h (fun _ h => List.mem_cons_of_mem _ h)

/-- Each new id is looked up. -/
theorem lookups_all (l : List ONode) : ∀ cache id, id ∉ cache → (∃ n ∈ l, peerId c n = some id) →
    ∃ n, (id, n) ∈ (lookups c cache l).2 := by
  induction l with
  | nil => rintro cache id - ⟨n, h, -⟩; cases h
  | cons m l ih =>
    rintro cache id hc ⟨n, h1, h2⟩
    simp only [lookups]
    cases hf : Receiver.fullId c m.id with
    | none =>
      refine ih cache id hc ⟨n, ?_, h2⟩
      rcases List.mem_cons.mp h1 with rfl | h1
      · simp [peerId, hf] at h2
      · exact h1
    | some pub =>
      simp only
      by_cases hp : Node.shortId c pub = id
      · rw [if_neg (by rw [hp]; exact hc), hp]
        exact ⟨m, List.mem_cons_self⟩
      · have hn : ∃ n ∈ l, peerId c n = some id := by
          refine ⟨n, ?_, h2⟩
          rcases List.mem_cons.mp h1 with rfl | h1
          · simp only [peerId, hf, Option.map_some, Option.some.injEq] at h2
            exact absurd h2 hp
          · exact h1
        split
        · exact ih cache id hc hn
        · obtain ⟨n', h3⟩ := ih (Node.shortId c pub :: cache) id
            (fun h => by rcases List.mem_cons.mp h with h | h <;> [exact hp h.symm; exact hc h]) hn
          exact ⟨n', List.mem_cons_of_mem _ h3⟩

theorem lookups_nodup (l : List ONode) : ∀ cache, ((lookups c cache l).2.map (·.1)).Nodup := by
  induction l with
  | nil => intro cache; exact List.nodup_nil
  | cons m l ih =>
    intro cache
    simp only [lookups]
    cases hf : Receiver.fullId c m.id with
    | none => exact ih cache
    | some pub =>
      simp only
      split
      · exact ih cache
      · rw [List.map_cons, List.nodup_cons]
        refine ⟨fun h => ?_, ih _⟩
        obtain ⟨⟨id, n⟩, h1, h2⟩ := List.mem_map.mp h
        simp only at h2
        subst h2
        exact (lookups_mem l _ _ n h1).2.2 List.mem_cons_self

/-- Those whose address is found. -/
def found (address : Bytes → Option SockAddr) (l : List (Bytes × ONode)) : List (SockAddr × ONode) :=
  l.filterMap fun e => (address e.1).map fun ip => (ip, e.2)

theorem collect_result (address : Bytes → Option SockAddr) (l : List (Bytes × ONode)) : ∀ result nodes,
    (collect address result nodes l).1 = result ++ found address l := by
  induction l with
  | nil => simp [collect, found]
  | cons e l ih =>
    intro result nodes
    obtain ⟨id, n⟩ := e
    simp only [collect]
    cases h : address id with
    | some ip => simp [ih, found, h]
    | none =>
      simp only
      split <;> simp [ih, found, h]

theorem collect_nodes (address : Bytes → Option SockAddr) (l : List (Bytes × ONode)) : ∀ result nodes n,
    n ∈ (collect address result nodes l).2 → n ∈ nodes ∨ ∃ id, (id, n) ∈ l := by
  induction l with
  | nil => intro result nodes n h; exact .inl h
  | cons e l ih =>
    intro result nodes n h
    obtain ⟨id, m⟩ := e
    simp only [collect] at h
    have up : ∀ {ns : List ONode}, (n ∈ ns ∨ ∃ id, (id, n) ∈ l) → (∀ x ∈ ns, x ∈ nodes ∨ x = m) →
        n ∈ nodes ∨ ∃ id', (id', n) ∈ (id, m) :: l := by
      rintro ns (h | ⟨i, h⟩) hs
      · rcases hs n h with h | rfl
        · exact .inl h
        · exact .inr ⟨id, List.mem_cons_self⟩
      · exact .inr ⟨i, List.mem_cons_of_mem _ h⟩
    cases ha : address id with
    | some ip => rw [ha] at h; exact up (ih _ _ _ h) (fun x hx => .inl hx)
    | none =>
      rw [ha] at h
      simp only at h
      split at h
      · exact up (ih _ _ _ h) (fun x hx => by simpa using List.mem_append.mp hx)
      · exact up (ih _ _ _ h) (fun x hx => .inl hx)

/-! ### Runs -/

/-- State of a search which has gone through the rounds `pre` and found nothing. -/
structure Going (c : Crypto) (pre : List Round) (s : Search) : Prop where
  result : s.result = []
  cache : ∀ id, id ∈ s.cache ↔ ∃ r ∈ pre, Received c r id
  nodes : ∀ n ∈ s.nodes, ∃ id, peerId c n = some id ∧ id ∈ s.cache

theorem Going.start : Going c [] Search.start := ⟨rfl, by simp [Search.start], by simp [Search.start]⟩

/-- What a round can find: nodes heard of for the first time, with the addresses found now. -/
theorem Going.looked {pre : List Round} {s : Search} (h : Going c pre s) (r : Round) {id : Bytes} {n : ONode}
    (hm : (id, n) ∈ (lookups c s.cache (r.received.flatten ++ s.nodes)).2) :
    n ∈ r.received.flatten ∧ peerId c n = some id ∧ ∀ r' ∈ pre, ¬ Received c r' id := by
  obtain ⟨h1, h2, h3⟩ := lookups_mem _ _ _ _ hm
  refine ⟨?_, h2, fun r' hr hc => h3 ((h.cache id).mpr ⟨r', hr, hc⟩)⟩
  rcases List.mem_append.mp h1 with h1 | h1
  · exact h1
  · obtain ⟨i, h4, h5⟩ := h.nodes n h1
    rw [h2] at h4
    cases h4
    exact absurd h5 h3

theorem found_mem {address : Bytes → Option SockAddr} {l : List (Bytes × ONode)} {ip : SockAddr} {n : ONode}
    (h : (ip, n) ∈ found address l) : ∃ id, (id, n) ∈ l ∧ address id = some ip := by
  obtain ⟨⟨id, m⟩, h1, h2⟩ := List.mem_filterMap.mp h
  simp only [Option.map_eq_some_iff, Prod.mk.injEq] at h2
  obtain ⟨a, h3, rfl, rfl⟩ := h2
  exact ⟨id, h1, h3⟩

theorem turn_eq {s : Search} (hs : s.result = []) {r : Round} (hr : r.received ≠ []) :
    (searchTurn c s r).2 = decide (found r.address (r.order (lookups c s.cache (r.received.flatten ++ s.nodes)).2) ≠ []) ∧
    (searchTurn c s r).1.result = found r.address (r.order (lookups c s.cache (r.received.flatten ++ s.nodes)).2) := by
  simp only [searchTurn, if_neg hr, collect_result, hs, List.nil_append, and_self]

theorem Going.turn {pre : List Round} {s : Search} (h : Going c pre s) {r : Round} (hr : r.received ≠ [])
    (ho : ∀ l, (r.order l).Perm l) (he : (searchTurn c s r).2 = false) :
    Going c (pre ++ [r]) (searchTurn c s r).1 := by
  obtain ⟨h1, h2⟩ := turn_eq (c := c) h.result hr
  rw [he] at h1
  have h1 := (of_decide_eq_false h1.symm)
  simp only [ne_eq, not_not] at h1
  have hc : ∀ id, id ∈ (searchTurn c s r).1.cache ↔ ∃ r' ∈ pre ++ [r], Received c r' id := by
    intro id
    simp only [searchTurn, if_neg hr]
    rw [lookups_cache]
    constructor
    · rintro (h3 | ⟨n, h3, h4⟩)
      · obtain ⟨r', h5, h6⟩ := (h.cache id).mp h3
        exact ⟨r', List.mem_append_left _ h5, h6⟩
      · rcases List.mem_append.mp h3 with h3 | h3
        · exact ⟨r, by simp, n, h3, h4⟩
        · obtain ⟨i, h5, h6⟩ := h.nodes n h3
          rw [h4] at h5
          cases h5
          obtain ⟨r', h5, h6⟩ := (h.cache id).mp h6
          exact ⟨r', List.mem_append_left _ h5, h6⟩
    · rintro ⟨r', h3, h4⟩
      rcases List.mem_append.mp h3 with h3 | h3
      · exact .inl ((h.cache id).mpr ⟨r', h3, h4⟩)
      · rw [List.mem_singleton] at h3
        subst h3
        obtain ⟨n, h5, h6⟩ := h4
        exact .inr ⟨n, List.mem_append_left _ h5, h6⟩
  refine ⟨h2.trans h1, hc, ?_⟩
  intro n hn
  have hn' : n ∈ (collect r.address s.result [] (r.order (lookups c s.cache (r.received.flatten ++ s.nodes)).2)).2 := by
    simpa only [searchTurn, if_neg hr] using hn
  rcases collect_nodes _ _ _ _ _ hn' with h3 | ⟨id, h3⟩
  · cases h3
  · obtain ⟨h4, h5, -⟩ := h.looked r ((ho _).mem_iff.mp h3)
    exact ⟨id, h5, (hc id).mpr ⟨r, by simp, n, h4, h5⟩⟩

/-- The results of a search from the middle. -/
theorem search_result (rs : List Round) : ∀ {pre : List Round} {s : Search}, Going c pre s → Orders rs →
    ∀ res, findOverlay c s rs = some res →
    ∃ mid r post, rs = mid ++ r :: post ∧
      ((r.received = [] ∧ res = []) ∨ (r.received ≠ [] ∧ res ≠ [] ∧ ∃ l, res = found r.address l ∧
        (l.map (·.1)).Nodup ∧
        (∀ id n, (id, n) ∈ l → n ∈ r.received.flatten ∧ peerId c n = some id) ∧
        ∀ id, Received c r id → (∀ r' ∈ pre ++ mid, ¬ Received c r' id) → ∃ n, (id, n) ∈ l)) := by
  induction rs with
  | nil => intro pre s _ _ res h; cases h
  | cons r rs ih =>
    intro pre s h ho res hres
    simp only [findOverlay] at hres
    cases ht : searchTurn c s r with
    | mk s' e =>
      rw [ht] at hres
      cases e with
      | true =>
        simp only [Option.some.injEq] at hres
        refine ⟨[], r, rs, rfl, ?_⟩
        by_cases hr : r.received = []
        · simp only [searchTurn, if_pos hr, Prod.mk.injEq, and_true] at ht
          exact .inl ⟨hr, by rw [← hres, ← ht]; exact h.result⟩
        · obtain ⟨h1, h2⟩ := turn_eq (c := c) h.result hr
          rw [ht] at h1 h2
          simp only at h1 h2
          have hp := ho r (by simp) (lookups c s.cache (r.received.flatten ++ s.nodes)).2
          refine .inr ⟨hr, ?_, r.order (lookups c s.cache (r.received.flatten ++ s.nodes)).2, hres.symm.trans h2, ?_, ?_, ?_⟩
          · rw [← hres, h2]
            exact of_decide_eq_true h1.symm
          · exact (hp.map _).nodup_iff.mpr (lookups_nodup _ _)
          · intro id n hm
            have := h.looked r (hp.mem_iff.mp hm)
            exact ⟨this.1, this.2.1⟩
          · rintro id ⟨n, h3, h4⟩ h5
            rw [List.append_nil] at h5
            obtain ⟨m, h6⟩ := lookups_all (r.received.flatten ++ s.nodes) s.cache id
              (fun hc => by obtain ⟨r', h7, h8⟩ := (h.cache id).mp hc; exact h5 r' h7 h8)
              ⟨n, List.mem_append_left _ h3, h4⟩
            exact ⟨m, hp.mem_iff.mpr h6⟩
      | false =>
        have hr : r.received ≠ [] := by
          intro hr
          simp [searchTurn, hr] at ht
        have hg := h.turn hr (ho r (by simp)) (by rw [ht])
        rw [ht] at hg
        obtain ⟨mid, r', post, h1, h2⟩ := ih hg (fun x hx => ho x (by simp [hx])) res hres
        refine ⟨r :: mid, r', post, by rw [h1]; rfl, ?_⟩
        simpa using h2

/-- C90: every result of the search is a node received from the DHT with the address found for its own id, no two
results have the same id, and the result is empty only if the DHT gave nothing. A node received for the first time
in the last round is in the result if its address was found. -/
theorem C90_search_results (rs : List Round) (ho : Orders rs) (res : List (SockAddr × ONode))
    (h : findOverlay c Search.start rs = some res) :
    (∃ l : List (Bytes × SockAddr × ONode), res = l.map (·.2) ∧ (l.map (·.1)).Nodup ∧
      ∀ id ip n, (id, ip, n) ∈ l → peerId c n = some id ∧
        ∃ r ∈ rs, n ∈ r.received.flatten ∧ r.address id = some ip) ∧
    ∃ mid r post, rs = mid ++ r :: post ∧ (res = [] ↔ r.received = []) ∧
      ∀ id ip, Received c r id → (∀ r' ∈ mid, ¬ Received c r' id) → r.address id = some ip →
        ∃ n, (ip, n) ∈ res ∧ peerId c n = some id := by
  obtain ⟨mid, r, post, h1, h2⟩ := search_result rs Going.start ho res h
  have hr : r ∈ rs := by rw [h1]; simp
  rcases h2 with ⟨h2, rfl⟩ | ⟨h2, h3, l, rfl, h5, h6, h7⟩
  · refine ⟨⟨[], rfl, List.nodup_nil, by simp⟩, mid, r, post, h1, by simp [h2], ?_⟩
    rintro id ip ⟨n, h3, -⟩
    rw [h2] at h3
    cases h3
  · refine ⟨⟨l.filterMap fun e => (r.address e.1).map fun ip => (e.1, ip, e.2), ?_, ?_, ?_⟩, mid, r, post, h1, ?_, ?_⟩
    · rw [found, List.map_filterMap]
      congr 1
      funext e
      cases r.address e.1 <;> rfl
    · have : (l.filterMap fun e => (r.address e.1).map fun ip => (e.1, ip, e.2)).map (·.1) =
          (l.filter fun e => (r.address e.1).isSome).map (·.1) := by
        clear h3 h5 h6 h7 h
        induction l with
        | nil => rfl
        | cons e l ih =>
          cases ha : r.address e.1 <;> simp [ha, ih]
      rw [this]
      exact h5.sublist (List.filter_sublist.map _)
    · intro id ip n hm
      obtain ⟨⟨i, m⟩, h8, h9⟩ := List.mem_filterMap.mp hm
      simp only [Option.map_eq_some_iff, Prod.mk.injEq] at h9
      obtain ⟨a, h9, rfl, rfl, rfl⟩ := h9
      exact ⟨(h6 _ _ h8).2, r, hr, (h6 _ _ h8).1, h9⟩
    · simp [h2, h3]
    · intro id ip h8 h9 h10
      obtain ⟨n, h11⟩ := h7 id h8 (by simpa using h9)
      refine ⟨n, List.mem_filterMap.mpr ⟨(id, n), h11, by simp [h10]⟩, (h6 _ _ h11).2⟩

/-- The search is still going on after the rounds. -/
theorem search_going (rs : List Round) : ∀ {pre : List Round} {s : Search}, Going c pre s → Orders rs →
    (findOverlay c s rs = none ↔ ∀ mid r post, rs = mid ++ r :: post → r.received ≠ [] ∧
      ∀ id, Received c r id → (∀ r' ∈ pre ++ mid, ¬ Received c r' id) → r.address id = none) := by
  induction rs with
  | nil =>
    intro pre s _ _
    simp [findOverlay]
  | cons r rs ih =>
    intro pre s h ho
    simp only [findOverlay]
    cases ht : searchTurn c s r with
    | mk s' e =>
      have hp := ho r (by simp) (lookups c s.cache (r.received.flatten ++ s.nodes)).2
      cases e with
      | true =>
        simp only [reduceCtorEq, false_iff]
        intro hall
        obtain ⟨hr, h3⟩ := hall [] r rs rfl
        obtain ⟨h1, -⟩ := turn_eq (c := c) h.result hr
        rw [ht] at h1
        have h1 := of_decide_eq_true h1.symm
        obtain ⟨⟨ip, n⟩, hm⟩ := List.exists_mem_of_ne_nil _ h1
        obtain ⟨id, h4, h5⟩ := found_mem hm
        obtain ⟨h6, h7, h8⟩ := h.looked r (hp.mem_iff.mp h4)
        rw [h3 id ⟨n, h6, h7⟩ (by simpa using h8)] at h5
        cases h5
      | false =>
        have hr : r.received ≠ [] := by
          intro hr
          simp [searchTurn, hr] at ht
        have hg := h.turn hr (ho r (by simp)) (by rw [ht])
        rw [ht] at hg
        simp only
        rw [ih hg (fun x hx => ho x (by simp [hx]))]
        constructor
        · intro hall mid r' post he
          match mid, he with
          | [], he =>
            simp only [List.nil_append, List.cons.injEq] at he
            obtain ⟨rfl, rfl⟩ := he
            refine ⟨hr, ?_⟩
            rintro id ⟨n, h3, h4⟩ h5
            rw [List.append_nil] at h5
            obtain ⟨h1, -⟩ := turn_eq (c := c) h.result hr
            rw [ht] at h1
            have h1 := of_decide_eq_false h1.symm
            simp only [ne_eq, not_not] at h1
            obtain ⟨m, h6⟩ := lookups_all (r.received.flatten ++ s.nodes) s.cache id
              (fun hc => by obtain ⟨r', h7, h8⟩ := (h.cache id).mp hc; exact h5 r' h7 h8)
              ⟨n, List.mem_append_left _ h3, h4⟩
            cases ha : r.address id with
            | none => rfl
            | some ip =>
              have : (ip, m) ∈ found r.address (r.order (lookups c s.cache (r.received.flatten ++ s.nodes)).2) :=
                List.mem_filterMap.mpr ⟨(id, m), hp.mem_iff.mpr h6, by simp [ha]⟩
              rw [h1] at this
              cases this
          | x :: mid, he =>
            simp only [List.cons_append, List.cons.injEq] at he
            obtain ⟨rfl, he⟩ := he
            simpa using hall mid r' post he
        · intro hall mid r' post he
          simpa using hall (r :: mid) r' post (by rw [he]; rfl)

/-- C91, when the search goes on, exactly: in every round something was received, and of each node the address was
not found in the round in which the node was received for the first time. Later rounds do not count: the nodes kept
for them are never looked up again. -/
theorem C91_goes_on_partial (rs : List Round) (ho : Orders rs) :
    findOverlay c Search.start rs = none ↔ ∀ mid r post, rs = mid ++ r :: post → r.received ≠ [] ∧
      ∀ id, Received c r id → (∀ r' ∈ mid, ¬ Received c r' id) → r.address id = none := by
  simpa using search_going rs Going.start ho

/-- C91, why the full statement fails: if after some rounds without success the DHT keeps giving nodes already seen,
the search never ends, even if all their addresses can be found by then. -/
theorem C91_forever_partial (pre more : List Round) (ho : Orders (pre ++ more))
    (h : findOverlay c Search.start pre = none)
    (hm : ∀ r ∈ more, r.received ≠ [] ∧ ∀ id, Received c r id → ∃ r' ∈ pre, Received c r' id) :
    findOverlay c Search.start (pre ++ more) = none := by
  rw [C91_goes_on_partial _ ho]
  rw [C91_goes_on_partial _ (fun r hr => ho r (List.mem_append_left _ hr))] at h
  intro mid r post he
  rcases List.append_eq_append_iff.mp he with ⟨a, h1, h2⟩ | ⟨b, h1, h2⟩
  · have hr : r ∈ more := by rw [h2]; simp
    refine ⟨(hm r hr).1, fun id h3 h4 => ?_⟩
    obtain ⟨r', h5, h6⟩ := (hm r hr).2 id h3
    exact absurd h6 (h4 r' (by rw [h1]; exact List.mem_append_left _ h5))
  · match b, h1, h2 with
    | [], h1, h2 =>
      rw [List.append_nil] at h1
      have hr : r ∈ more := by
        have : more = r :: post := by simpa using h2.symm
        rw [this]; simp
      refine ⟨(hm r hr).1, fun id h3 h4 => ?_⟩
      obtain ⟨r', h5, h6⟩ := (hm r hr).2 id h3
      exact absurd h6 (h4 r' (by rw [← h1]; exact h5))
    | x :: b, h1, h2 =>
      simp only [List.cons_append, List.cons.injEq] at h2
      obtain ⟨rfl, -⟩ := h2
      exact h mid r b h1

namespace SearchExample

/-- A node of the overlay. -/
def node (k : UInt8) : ONode := ⟨.ed25519 [k], List.replicate 32 9, 7, []⟩

def id (k : UInt8) : Bytes := Node.shortId Crypto.toy k

/-- The DHT gives two nodes, of which one has an address (and one twice). -/
def good : Round := ⟨[[node 3, node 4], [node 3]], fun i => if i = id 4 then some ⟨1, 2, 3, 4, 5⟩ else none, List.reverse⟩

/-- Nobody has an address. -/
def bad : Round := { good with address := fun _ => none }

/-- `C90_search_results` applies, with a non-trivial result. -/
example : findOverlay Crypto.toy Search.start [bad] = none := by decide +kernel

example : findOverlay Crypto.toy Search.start [good] = some [(⟨1, 2, 3, 4, 5⟩, node 4)] := by decide +kernel

theorem orders : Orders [bad, good] := by
  intro r hr l
  simp only [List.mem_cons, List.not_mem_nil, or_false] at hr
  rcases hr with rfl | rfl <;> exact List.reverse_perm l

theorem received (r : Round) (h : r.received = good.received) (k : UInt8) (hk : k = 3 ∨ k = 4) :
    Received Crypto.toy r (id k) := by
  refine ⟨node k, ?_, ?_⟩
  · rw [h]
    rcases hk with rfl | rfl <;> decide
  · rcases hk with rfl | rfl <;> decide +kernel

/-- `C91_forever_partial` applies: found in the first round, never looked up again in the second. -/
theorem forever : findOverlay Crypto.toy Search.start ([bad] ++ [good]) = none :=
  C91_forever_partial [bad] [good] orders (by decide +kernel) (by
    intro r hr
    rw [List.mem_singleton] at hr
    subst hr
    exact ⟨by decide, fun i hi => ⟨bad, by simp, hi⟩⟩)

end SearchExample

open SearchExample in
/-- C91 is false. -/
theorem C91_full_false : ¬ C91_full Crypto.toy := fun h =>
  h [bad] good (id 4) orders (by decide) ⟨good, by simp, received good rfl 4 (.inr rfl)⟩ (by decide +kernel) forever

open SearchExample in
example := C90_search_results (c := Crypto.toy) [good]
  (by intro r hr; exact orders r (by simp [List.mem_singleton.mp hr]))
  [(⟨1, 2, 3, 4, 5⟩, SearchExample.node 4)] (by decide +kernel)
open SearchExample in
example := (C91_goes_on_partial (c := Crypto.toy) [bad]
  (by intro r hr; exact orders r (by simp [List.mem_singleton.mp hr]))).mp (by decide +kernel)

end Verif.Dht
