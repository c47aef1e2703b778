import Verif.Model.Dispatch

/-!
# C21: subscriber dispatch
-/
namespace Verif.Props
open Verif Verif.Dispatch

theorem queryLoop_spec (c : Nat) : ∀ (subs : List QuerySub) (i : Nat) (q : Bytes),
    let r := queryLoop c i subs q
    r.2.length ≤ subs.length ∧
    (∀ (k : Nat) (e : Nat × Bytes), r.2[k]? = some e → e.1 = i + k ∧ k < subs.length) ∧
    (∀ e, r.2[0]? = some e → e.2 = q) ∧
    (∀ (k : Nat) (e e' : Nat × Bytes), r.2[k]? = some e → r.2[k + 1]? = some e' →
      ∃ s, subs[k]? = some s ∧ s c e.2 = .rejected e'.2) ∧
    (match r.1 with
      | .rejected => r.2.length = subs.length ∧
          ∀ (k : Nat) (e : Nat × Bytes), r.2[k]? = some e → ∃ (s : QuerySub) (q' : Bytes), subs[k]? = some s ∧ s c e.2 = .rejected q'
      | .processed a => ∃ (k : Nat) (e : Nat × Bytes) (s : QuerySub), r.2.length = k + 1 ∧ r.2[k]? = some e ∧ subs[k]? = some s ∧
          s c e.2 = .consumed a
      | .error => ∃ (k : Nat) (e : Nat × Bytes) (s : QuerySub), r.2.length = k + 1 ∧ r.2[k]? = some e ∧ subs[k]? = some s ∧
          s c e.2 = .error) := by
  intro subs
  induction subs with
  | nil => intro i q; simp [queryLoop]
  | cons s ss ih =>
    intro i q
    simp only [queryLoop]
    cases hs : s c q with
    | error =>
      simp only
      refine ⟨by simp, ?_, by simp, ?_, 0, (i, q), s, rfl, rfl, rfl, hs⟩
      · intro k e he
        cases k with
        | zero => simp at he; simp [← he]
        | succ k => simp at he
      · intro k e e' _ he'; simp at he'
    | consumed a =>
      simp only
      refine ⟨by simp, ?_, by simp, ?_, 0, (i, q), s, rfl, rfl, rfl, hs⟩
      · intro k e he
        cases k with
        | zero => simp at he; simp [← he]
        | succ k => simp at he
      · intro k e e' _ he'; simp at he'
    | rejected q' =>
      obtain ⟨h1, h2, h3, h4, h5⟩ := ih (i + 1) q'
      simp only
      refine ⟨by simp; omega, ?_, by simp, ?_, ?_⟩
      · intro k e he
        cases k with
        | zero => simp at he; simp [← he]
        | succ k =>
          simp only [List.getElem?_cons_succ] at he
          obtain ⟨a, b⟩ := h2 k e he
          exact ⟨by omega, by simp; omega⟩
      · intro k e e' he he'
        cases k with
        | zero =>
          simp only [List.getElem?_cons_zero, Option.some_inj] at he
          simp only [Nat.zero_add, List.getElem?_cons_succ] at he'
          refine ⟨s, rfl, ?_⟩
          rw [← he, h3 e' he']; exact hs
        | succ k =>
          simp only [List.getElem?_cons_succ] at he he'
          obtain ⟨t, t1, t2⟩ := h4 k e e' he he'
          exact ⟨t, by simpa using t1, t2⟩
      · cases hr : (queryLoop c (i + 1) ss q').1 with
        | rejected =>
          simp only [hr] at h5 ⊢
          refine ⟨by simp [h5.1], ?_⟩
          intro k e he
          cases k with
          | zero =>
            simp only [List.getElem?_cons_zero, Option.some_inj] at he
            exact ⟨s, q', rfl, by rw [← he]; exact hs⟩
          | succ k =>
            simp only [List.getElem?_cons_succ] at he
            obtain ⟨t, x, t1, t2⟩ := h5.2 k e he
            exact ⟨t, x, by simpa using t1, t2⟩
        | processed a =>
          simp only [hr] at h5 ⊢
          obtain ⟨k, e, t, t1, t2, t3, t4⟩ := h5
          exact ⟨k + 1, e, t, by simp [t1], by simpa using t2, by simpa using t3, t4⟩
        | error =>
          simp only [hr] at h5 ⊢
          obtain ⟨k, e, t, t1, t2, t3, t4⟩ := h5
          exact ⟨k + 1, e, t, by simp [t1], by simpa using t2, by simpa using t3, t4⟩

/-- C21 for queries. The trace lists the calls made. Call `k` goes to subscriber `k` (registration
order, nobody is skipped); the first gets the original bytes, each next one the bytes its
predecessor rejected; all get the constructor of the original query; the query is reported
unhandled iff all subscribers were asked and all rejected, otherwise the result is that of the last
subscriber asked, and nobody after it was asked. -/
theorem C21_query_dispatch (subs : List QuerySub) (q : Bytes) :
    let r := processQuery subs q
    (q.length < 4 → r = (.error, [])) ∧
    (4 ≤ q.length →
      (∀ (k : Nat) (e : Nat × Bytes), r.2[k]? = some e → e.1 = k ∧ k < subs.length) ∧
      (∀ e, r.2[0]? = some e → e.2 = q) ∧
      (∀ (k : Nat) (e e' : Nat × Bytes), r.2[k]? = some e → r.2[k + 1]? = some e' →
        ∃ s, subs[k]? = some s ∧ s (ofLE (q.take 4)) e.2 = .rejected e'.2) ∧
      (match r.1 with
        | .rejected => r.2.length = subs.length ∧
            ∀ (k : Nat) (e : Nat × Bytes), r.2[k]? = some e → ∃ (s : QuerySub) (q' : Bytes), subs[k]? = some s ∧
              s (ofLE (q.take 4)) e.2 = .rejected q'
        | .processed a => ∃ (k : Nat) (e : Nat × Bytes) (s : QuerySub), r.2.length = k + 1 ∧ r.2[k]? = some e ∧ subs[k]? = some s ∧
            s (ofLE (q.take 4)) e.2 = .consumed a
        | .error => ∃ (k : Nat) (e : Nat × Bytes) (s : QuerySub), r.2.length = k + 1 ∧ r.2[k]? = some e ∧ subs[k]? = some s ∧
            s (ofLE (q.take 4)) e.2 = .error)) := by
  refine ⟨?_, ?_⟩
  · intro h; simp [processQuery, readConstructor, h]
  · intro h
    have hn : ¬ q.length < 4 := by omega
    have hr : processQuery subs q = queryLoop (ofLE (q.take 4)) 0 subs q := by
      simp [processQuery, readConstructor, hn]
    rw [hr]
    obtain ⟨_, h2, h3, h4, h5⟩ := queryLoop_spec (ofLE (q.take 4)) subs 0 q
    refine ⟨?_, h3, h4, h5⟩
    intro k e he
    have := h2 k e he
    simpa using this

/-- Subscribers that hand rejected queries on unchanged all see the original bytes. -/
theorem C21_same_bytes (subs : List QuerySub) (q : Bytes)
    (hid : ∀ s ∈ subs, ∀ c x y, s c x = .rejected y → y = x) :
    ∀ e ∈ (processQuery subs q).2, e.2 = q := by
  by_cases h : 4 ≤ q.length
  · obtain ⟨_, h2, h3, _⟩ := (C21_query_dispatch subs q).2 h
    have key : ∀ (k : Nat) (e : Nat × Bytes), (processQuery subs q).2[k]? = some e → e.2 = q := by
      intro k
      induction k with
      | zero => exact h2
      | succ k ih =>
        intro e he
        have hlt : k < (processQuery subs q).2.length := by
          have := (List.getElem?_eq_some_iff.mp he).1; omega
        have hk := List.getElem?_eq_getElem hlt
        obtain ⟨s, s1, s2⟩ := h3 k _ e hk he
        rw [hid s (List.mem_of_getElem? s1) _ _ _ s2]
        exact ih _ hk
    intro e he
    obtain ⟨k, hk⟩ := List.mem_iff_getElem?.mp he
    exact key k e hk
  · have := (C21_query_dispatch subs q).1 (by omega)
    intro e he; rw [this] at he; cases he

/-- `x` is what subscriber `k` is offered when all those before it rejected the query. -/
inductive Reaches (subs : List QuerySub) (c : Nat) (q : Bytes) : Nat → Bytes → Prop
  | first : Reaches subs c q 0 q
  | next {k : Nat} {x y : Bytes} {s : QuerySub} : Reaches subs c q k x → subs[k]? = some s →
      s c x = .rejected y → Reaches subs c q (k + 1) y

theorem Reaches.unique {subs : List QuerySub} {c : Nat} {q : Bytes} : ∀ {k : Nat} {x y : Bytes},
    Reaches subs c q k x → Reaches subs c q k y → x = y := by
  intro k
  induction k with
  | zero => intro x y hx hy; cases hx; cases hy; rfl
  | succ k ih =>
    intro x y hx hy
    cases hx with
    | next a b d =>
      cases hy with
      | next a' b' d' =>
        cases ih a a'
        rw [b] at b'; cases b'
        rw [d] at d'; cases d'; rfl

theorem Reaches.before {subs : List QuerySub} {c : Nat} {q : Bytes} {k : Nat} {x : Bytes}
    (h : Reaches subs c q k x) : ∀ j, j < k → ∃ (y z : Bytes) (s : QuerySub), Reaches subs c q j y ∧
      subs[j]? = some s ∧ s c y = .rejected z := by
  induction h with
  | first => intro j hj; omega
  | next a b d ih =>
    rename_i k x y s
    intro j hj
    by_cases hjk : j = k
    · subst hjk; exact ⟨x, y, s, a, b, d⟩
    · exact ih j (by omega)

/-- At most one subscriber settles a query. -/
theorem Reaches.settles_once {subs : List QuerySub} {c : Nat} {q : Bytes} {k k' : Nat} {x x' : Bytes}
    {s s' : QuerySub} (h : Reaches subs c q k x) (hs : subs[k]? = some s) (hn : ∀ y, s c x ≠ .rejected y)
    (h' : Reaches subs c q k' x') (hs' : subs[k']? = some s') (hn' : ∀ y, s' c x' ≠ .rejected y) :
    s c x = s' c x' := by
  have key : k = k' := by
    rcases Nat.lt_trichotomy k k' with hl | he | hl
    · obtain ⟨y, z, t, t1, t2, t3⟩ := h'.before k hl
      rw [hs] at t2; cases t2
      exact absurd (by rw [h.unique t1]; exact t3) (hn z)
    · exact he
    · obtain ⟨y, z, t, t1, t2, t3⟩ := h.before k' hl
      rw [hs'] at t2; cases t2
      exact absurd (by rw [h'.unique t1]; exact t3) (hn' z)
  subst key
  rw [hs] at hs'; cases hs'
  rw [h.unique h']

theorem trace_reaches (subs : List QuerySub) (q : Bytes) (h4 : 4 ≤ q.length) :
    ∀ (k : Nat) (e : Nat × Bytes), (processQuery subs q).2[k]? = some e →
      Reaches subs (ofLE (q.take 4)) q k e.2 := by
  obtain ⟨_, h2, h3, _⟩ := (C21_query_dispatch subs q).2 h4
  intro k
  induction k with
  | zero => intro e he; rw [h2 e he]; exact .first
  | succ k ih =>
    intro e he
    have hlt : k < (processQuery subs q).2.length := by
      have := (List.getElem?_eq_some_iff.mp he).1; omega
    have hk := List.getElem?_eq_getElem hlt
    obtain ⟨s, s1, s2⟩ := h3 k _ e hk he
    exact .next (ih _ hk) s1 s2

/-- C21: what the node does with a query. It sends `a` back iff the subscriber the query ends up at consumed
it with the answer `a`; it sends nothing iff that subscriber consumed it without an answer; otherwise (too
short, a failure, or nobody wants it) the packet is refused. -/
theorem C21_effect (subs : List QuerySub) (q : Bytes) :
    (∀ a, queryEffect subs q = .sendAnswer a ↔ 4 ≤ q.length ∧ ∃ (k : Nat) (x : Bytes) (s : QuerySub),
      Reaches subs (ofLE (q.take 4)) q k x ∧ subs[k]? = some s ∧
      s (ofLE (q.take 4)) x = .consumed (some a)) ∧
    (queryEffect subs q = .nothing ↔ 4 ≤ q.length ∧ ∃ (k : Nat) (x : Bytes) (s : QuerySub),
      Reaches subs (ofLE (q.take 4)) q k x ∧ subs[k]? = some s ∧
      s (ofLE (q.take 4)) x = .consumed none) := by
  by_cases h4 : 4 ≤ q.length
  · have ht := trace_reaches subs q h4
    obtain ⟨hlen, _, _, h5⟩ := (C21_query_dispatch subs q).2 h4
    -- a subscriber that consumes the query determines the outcome
    have back : ∀ (k : Nat) (x : Bytes) (s : QuerySub) (o : Option Bytes),
        Reaches subs (ofLE (q.take 4)) q k x → subs[k]? = some s →
        s (ofLE (q.take 4)) x = .consumed o → (processQuery subs q).1 = .processed o := by
      intro k x s o hr hs hc
      cases hp : (processQuery subs q).1 with
      | processed a =>
        rw [hp] at h5
        obtain ⟨j, e, t, _, t2, t3, t4⟩ := h5
        have := hr.settles_once hs (by intro y hy; rw [hc] at hy; cases hy) (ht j e t2) t3
          (by intro y hy; rw [t4] at hy; cases hy)
        rw [hc, t4] at this; cases this; rfl
      | error =>
        rw [hp] at h5
        obtain ⟨j, e, t, _, t2, t3, t4⟩ := h5
        have := hr.settles_once hs (by intro y hy; rw [hc] at hy; cases hy) (ht j e t2) t3
          (by intro y hy; rw [t4] at hy; cases hy)
        rw [hc, t4] at this; cases this
      | rejected =>
        rw [hp] at h5
        have hlt : k < (processQuery subs q).2.length := by
          rw [h5.1]; exact (List.getElem?_eq_some_iff.mp hs).1
        have hk := List.getElem?_eq_getElem hlt
        obtain ⟨t, y, t1, t2⟩ := h5.2 k _ hk
        rw [hs] at t1; cases t1
        rw [← hr.unique (ht k _ hk), hc] at t2; cases t2
    have fwd : ∀ o, (processQuery subs q).1 = .processed o → ∃ (k : Nat) (x : Bytes) (s : QuerySub),
        Reaches subs (ofLE (q.take 4)) q k x ∧ subs[k]? = some s ∧
        s (ofLE (q.take 4)) x = .consumed o := by
      intro o ho
      rw [ho] at h5
      obtain ⟨j, e, t, _, t2, t3, t4⟩ := h5
      exact ⟨j, e.2, t, ht j e t2, t3, t4⟩
    refine ⟨fun a => ⟨fun h => ⟨h4, ?_⟩, ?_⟩, ⟨fun h => ⟨h4, ?_⟩, ?_⟩⟩
    · apply fwd
      unfold queryEffect at h
      cases hp : (processQuery subs q).1 with
      | processed o =>
        rw [hp] at h
        cases o with
        | none => cases h
        | some b => cases h; rfl
      | rejected => rw [hp] at h; cases h
      | error => rw [hp] at h; cases h
    · rintro ⟨_, k, x, s, h1, h2, h3⟩
      rw [queryEffect, back k x s _ h1 h2 h3]
    · apply fwd
      unfold queryEffect at h
      cases hp : (processQuery subs q).1 with
      | processed o =>
        rw [hp] at h
        cases o with
        | none => rfl
        | some b => cases h
      | rejected => rw [hp] at h; cases h
      | error => rw [hp] at h; cases h
    · rintro ⟨_, k, x, s, h1, h2, h3⟩
      rw [queryEffect, back k x s _ h1 h2 h3]
  · have := (C21_query_dispatch subs q).1 (by omega)
    have he : queryEffect subs q = .error := by rw [queryEffect, this]
    rw [he]
    exact ⟨fun a => ⟨fun h => (by cases h), fun h => absurd h.1 h4⟩,
      ⟨fun h => (by cases h), fun h => absurd h.1 h4⟩⟩

/-- The first subscriber rejects, the second consumes without an answer, the third is not asked. -/
example : queryEffect [fun _ x => .rejected x, fun _ _ => .consumed none, fun _ x => .consumed (some x)]
    [1, 2, 3, 4] = .nothing := by decide

theorem customLoop_spec (c : Nat) (data : Bytes) : ∀ (subs : List MsgSub) (i : Nat),
    ∃ n, n ≤ subs.length ∧
      (customLoop c data i subs).2 = (List.range' i n).map (fun k => (k, data)) ∧
      (∀ k s, k + 1 < n → subs[k]? = some s → s c data = some false) ∧
      (match (customLoop c data i subs).1 with
        | some false => n = subs.length ∧ ∀ s ∈ subs, s c data = some false
        | some true => ∃ k s, n = k + 1 ∧ subs[k]? = some s ∧ s c data = some true
        | none => ∃ k s, n = k + 1 ∧ subs[k]? = some s ∧ s c data = none) := by
  intro subs
  induction subs with
  | nil => intro i; exact ⟨0, by simp [customLoop]⟩
  | cons s ss ih =>
    intro i
    simp only [customLoop]
    cases hs : s c data with
    | none => exact ⟨1, by simp, by simp, by intro k _ hk; omega, 0, s, rfl, rfl, hs⟩
    | some b =>
      cases b with
      | true => exact ⟨1, by simp, by simp, by intro k _ hk; omega, 0, s, rfl, rfl, hs⟩
      | false =>
        obtain ⟨n, h1, h2, h3, h4⟩ := ih (i + 1)
        refine ⟨n + 1, by simp; omega, ?_, ?_, ?_⟩
        · simp only [h2, List.range'_succ, List.map_cons]
        · intro k t hk ht
          cases k with
          | zero => simp at ht; rw [← ht]; exact hs
          | succ k =>
            simp only [List.getElem?_cons_succ] at ht
            exact h3 k t (by omega) ht
        · simp only
          cases hr : (customLoop c data (i + 1) ss).1 with
          | none =>
            simp only [hr] at h4 ⊢
            obtain ⟨k, t, a, b, d⟩ := h4
            exact ⟨k + 1, t, by omega, by simpa using b, d⟩
          | some b =>
            cases b with
            | true =>
              simp only [hr] at h4 ⊢
              obtain ⟨k, t, a, b, d⟩ := h4
              exact ⟨k + 1, t, by omega, by simpa using b, d⟩
            | false =>
              simp only [hr] at h4 ⊢
              refine ⟨by simp [h4.1], ?_⟩
              intro t ht
              rcases List.mem_cons.mp ht with rfl | ht
              · exact hs
              · exact h4.2 t ht

/-- C21 for custom messages: the first `n` subscribers, in order, each see exactly the message; all
but the last of them declined; it is unhandled iff everyone declined. -/
theorem C21_custom_dispatch (subs : List MsgSub) (data : Bytes) (h4 : 4 ≤ data.length) :
    let c := ofLE (data.take 4)
    ∃ n, n ≤ subs.length ∧
      (processCustom subs data).2 = (List.range n).map (fun k => (k, data)) ∧
      (∀ k s, k + 1 < n → subs[k]? = some s → s c data = some false) ∧
      (match (processCustom subs data).1 with
        | some false => n = subs.length ∧ ∀ s ∈ subs, s c data = some false
        | some true => ∃ k s, n = k + 1 ∧ subs[k]? = some s ∧ s c data = some true
        | none => ∃ k s, n = k + 1 ∧ subs[k]? = some s ∧ s c data = none) := by
  have hn : ¬ data.length < 4 := by omega
  have hr : processCustom subs data = customLoop (ofLE (data.take 4)) data 0 subs := by
    simp [processCustom, readConstructor, hn]
  obtain ⟨n, h⟩ := customLoop_spec (ofLE (data.take 4)) data subs 0
  rw [← List.range_eq_range'] at h
  rw [hr]
  exact ⟨n, h⟩

/-- A custom message too short for a constructor is shown to nobody. -/
theorem C21_custom_short (subs : List MsgSub) (data : Bytes) (h : data.length < 4) :
    processCustom subs data = (none, []) := by
  simp [processCustom, readConstructor, h]

example := C21_custom_short [fun _ _ => some true] [1, 2, 3] (by decide)

/-- Three subscribers: the first passes changed bytes on, the second consumes, the third is not
asked. -/
example :
    let s0 : QuerySub := fun _ q => .rejected (q ++ [9])
    let s1 : QuerySub := fun c q => if c = 1 then .consumed (some q) else .rejected q
    let s2 : QuerySub := fun _ _ => .error
    processQuery [s0, s1, s2] [1, 0, 0, 0] =
      (.processed (some [1, 0, 0, 0, 9]), [(0, [1, 0, 0, 0]), (1, [1, 0, 0, 0, 9])]) := by decide

example :
    processCustom [fun _ _ => some false, fun _ _ => some true, fun _ _ => none] [1, 0, 0, 0] =
      (some true, [(0, [1, 0, 0, 0]), (1, [1, 0, 0, 0])]) := by decide

example := C21_same_bytes [fun _ x => .rejected x, fun _ _ => .consumed none] [1, 2, 3, 4] (by
  intro s hs c x y h
  simp only [List.mem_cons, List.not_mem_nil, or_false] at hs
  rcases hs with rfl | rfl <;> cases h
  rfl)

end Verif.Props
