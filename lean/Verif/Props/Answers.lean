import Verif.Model.QueryRaw
import Verif.Props.Processing
import Verif.Props.QueriesCache
import Verif.Props.RoundTrip
import Mathlib.Data.List.Induction

/-!
# C88: who answers a query
-/
namespace Verif.QueryRaw
open Verif.Adnl Verif.AdnlProto Verif.Node Verif.Process Verif.QueriesCache

variable {c : Crypto}

/-! ### Specification -/

/-- The queries asked so far, in order: local id, peer, query id. -/
def asked (as : List (Act c)) : List (Bytes × Bytes × Bytes) :=
  as.filterMap fun
    | .ask _ _ l q id _ _ _ => some (l, q, id)
    | _ => none

/-- In the state `s` the datagram is accepted as one from `q` to `l`, and it has the answer `a` for the query id. -/
def Brings (o : Opts c) (s : State c) (l q id a : Bytes) : Act c → Prop
  | .datagram ul now subs data key rand =>
    (∃ prio ms, (Receiver.handle o ul now s.full.node data key rand).2.1 = .accepted l q prio ms) ∧
    Event.answer id a ∈ (receive o ul now subs s.full data key rand).2.events
  | _ => False

/-- The `n`-th query has ended with the answer `a`. -/
def Answered (s : State c) (n : Nat) (a : Bytes) : Prop :=
  ∃ p, s.cache.pend n = some p ∧ some a ∈ p.results

/-- The property: the answer to a query comes from the peer that was asked. -/
def C88_full (c : Crypto) : Prop :=
  ∀ (o : Opts c) (f : Full c) (as : List (Act c)) (n : Nat) (l q id a : Bytes),
    (asked as)[n]? = some (l, q, id) → Answered (run o (State.start f) as) n a →
    ∃ pre act post, as = pre ++ act :: post ∧ n < (asked pre).length ∧
      Brings o (run o (State.start f) pre) l q id a act

/-! ### What the cache does with answers -/

section cache
variable {ι β : Type} [DecidableEq ι]

/-- The answer is on its way to the query or has arrived. -/
def Has (s : Sys ι β) (n : Nat) (b : β) : Prop :=
  (n, b) ∈ s.inflight ∨ ∃ p, s.pend n = some p ∧ (p.chan = .sent b ∨ some b ∈ p.results)

theorem closed_not_sent {f : Nat → Option (Pending ι β)} {k : Option Nat} {n : Nat} {b : β} {p : Pending ι β}
    (h : closeSender f k n = some p) (hb : p.chan = .sent b ∨ some b ∈ p.results) :
    ∃ p', f n = some p' ∧ (p'.chan = .sent b ∨ some b ∈ p'.results) := by
  obtain ⟨q, h1, -, -, h4, h5⟩ := (closeSender_spec f k n).2.1 p h
  refine ⟨q, h1, ?_⟩
  rcases hb with hb | hb
  · rcases h5 with h5 | ⟨-, h5⟩
    · rw [h5] at hb; exact .inl hb
    · rw [h5] at hb; cases hb
  · rw [h4] at hb; exact .inr hb

theorem has_step {s : Sys ι β} {op : Op ι β} {n : Nat} {b : β} (h : Has (QueriesCache.step s op) n b) :
    Has s n b ∨ ∃ id, op = .answer id b ∧ s.table.get id = some n := by
  cases op with
  | add id =>
    refine .inl ?_
    rcases h with h | ⟨p, h, hb⟩
    · exact .inl h
    · simp only [QueriesCache.step, setPend_eq] at h
      split at h
      · cases h; rcases hb with hb | hb <;> cases hb
      · exact .inr (closed_not_sent h hb)
  | answer id b' =>
    simp only [QueriesCache.step] at h
    cases ht : s.table.get id with
    | none => rw [ht] at h; exact .inl h
    | some m =>
      rw [ht] at h
      rcases h with h | h
      · rcases List.mem_append.mp h with h | h
        · exact .inl (.inl h)
        · simp only [List.mem_singleton, Prod.mk.injEq] at h
          obtain ⟨rfl, rfl⟩ := h
          exact .inr ⟨id, rfl, ht⟩
      · exact .inl (.inr h)
  | send k =>
    refine .inl ?_
    simp only [QueriesCache.step] at h
    cases hk : s.inflight[k]? with
    | none => rw [hk] at h; exact h
    | some e =>
      obtain ⟨m, b'⟩ := e
      rw [hk] at h
      simp only at h
      cases hp : s.pend m with
      | none => rw [hp] at h; exact h
      | some p =>
        rw [hp] at h
        simp only at h
        rcases h with h | ⟨p', h, hb⟩
        · exact .inl (List.mem_of_mem_eraseIdx h)
        · simp only [setPend_eq] at h
          split at h
          · rename_i hm
            subst hm
            cases h
            split at hb
            · rcases hb with hb | hb
              · cases hb; exact .inl (List.mem_of_getElem? hk)
              · exact .inr ⟨p, hp, .inr hb⟩
            · exact .inr ⟨p, hp, hb⟩
          · exact .inr ⟨p', h, hb⟩
  | poll m =>
    refine .inl ?_
    simp only [QueriesCache.step] at h
    cases hp : s.pend m with
    | none => rw [hp] at h; exact h
    | some p =>
      rw [hp] at h
      simp only at h
      split at h
      · cases hch : p.chan with
        | «open» => rw [hch] at h; exact h
        | sent b' =>
          rw [hch] at h
          rcases h with h | ⟨p', h, hb⟩
          · exact .inl h
          · simp only [setPend_eq] at h
            split at h
            · rename_i hm
              subst hm
              cases h
              simp only [List.mem_append, List.mem_singleton, Option.some.injEq] at hb
              rcases hb with hb | hb | rfl
              · exact .inr ⟨p, hp, .inl (hch.trans (hb ▸ rfl))⟩
              · exact .inr ⟨p, hp, .inr hb⟩
              · exact .inr ⟨p, hp, .inl hch⟩
            · exact .inr ⟨p', h, hb⟩
        | closed =>
          rw [hch] at h
          rcases h with h | ⟨p', h, hb⟩
          · exact .inl h
          · simp only [setPend_eq] at h
            split at h
            · rename_i hm
              subst hm
              cases h
              simp only [List.mem_append, List.mem_singleton, reduceCtorEq, or_false, false_or] at hb
              exact .inr ⟨p, hp, .inr hb⟩
            · exact .inr ⟨p', h, hb⟩
      · exact h
  | drop m =>
    refine .inl ?_
    simp only [QueriesCache.step] at h
    cases hp : s.pend m with
    | none => rw [hp] at h; exact h
    | some p =>
      rw [hp] at h
      simp only at h
      split at h
      · rcases h with h | ⟨p', h, hb⟩
        · exact .inl h
        · simp only [setPend_eq] at h
          split at h
          · rename_i hm
            subst hm
            cases h
            simp only [reduceCtorEq, false_or] at hb
            exact .inr ⟨p, hp, .inr hb⟩
          · exact .inr (closed_not_sent h hb)
      · exact h

theorem pend_step {s : Sys ι β} {op : Op ι β} {n : Nat} {p : Pending ι β}
    (h : (QueriesCache.step s op).pend n = some p) :
    (∃ p', s.pend n = some p' ∧ p'.id = p.id) ∨ (op = .add p.id ∧ n = s.next) := by
  cases op with
  | add id =>
    simp only [QueriesCache.step, setPend_eq] at h
    split at h
    · cases h; exact .inr ⟨rfl, by assumption⟩
    · obtain ⟨q, h1, h2, -⟩ := (closeSender_spec s.pend _ n).2.1 p h
      exact .inl ⟨q, h1, h2.symm⟩
  | answer id b =>
    refine .inl ?_
    simp only [QueriesCache.step] at h
    split at h <;> exact ⟨p, h, rfl⟩
  | send k =>
    refine .inl ?_
    simp only [QueriesCache.step] at h
    split at h
    · exact ⟨p, h, rfl⟩
    · split at h
      · exact ⟨p, h, rfl⟩
      · rename_i p' hp'
        simp only [setPend_eq] at h
        split at h
        · rename_i hm
          subst hm
          cases h
          refine ⟨p', hp', ?_⟩
          split <;> rfl
        · exact ⟨p, h, rfl⟩
  | poll m =>
    refine .inl ?_
    simp only [QueriesCache.step] at h
    split at h
    · exact ⟨p, h, rfl⟩
    · rename_i p' hp'
      split at h
      · split at h
        · exact ⟨p, h, rfl⟩
        · simp only [setPend_eq] at h
          split at h
          · rename_i hm
            subst hm
            cases h
            exact ⟨p', hp', rfl⟩
          · exact ⟨p, h, rfl⟩
        · simp only [setPend_eq] at h
          split at h
          · rename_i hm
            subst hm
            cases h
            exact ⟨p', hp', rfl⟩
          · exact ⟨p, h, rfl⟩
      · exact ⟨p, h, rfl⟩
  | drop m =>
    refine .inl ?_
    simp only [QueriesCache.step] at h
    split at h
    · exact ⟨p, h, rfl⟩
    · rename_i p' hp'
      split at h
      · simp only [setPend_eq] at h
        split at h
        · rename_i hm
          subst hm
          cases h
          exact ⟨p', hp', rfl⟩
        · obtain ⟨q, h1, h2, -⟩ := (closeSender_spec s.pend _ n).2.1 p h
          exact ⟨q, h1, h2.symm⟩
      · exact ⟨p, h, rfl⟩

theorem next_step (s : Sys ι β) (op : Op ι β) :
    (QueriesCache.step s op).next = s.next + (match op with | .add _ => 1 | _ => 0) := by
  cases op with
  | add id => rfl
  | answer id b => simp only [QueriesCache.step]; split <;> rfl
  | send k => simp only [QueriesCache.step]; split <;> [rfl; split <;> rfl]
  | poll m =>
    simp only [QueriesCache.step]
    split
    · rfl
    · split
      · split <;> rfl
      · rfl
  | drop m =>
    simp only [QueriesCache.step]
    split
    · rfl
    · split <;> rfl

/-- The cache belongs to queries with the given ids, in order. -/
structure Ids (L : List ι) (s : Sys ι β) : Prop where
  reach : ∃ ops, s = QueriesCache.run init ops
  next : s.next = L.length
  ids : ∀ n p, s.pend n = some p → L[n]? = some p.id

theorem Ids.step {L : List ι} {s : Sys ι β} (h : Ids L s) (op : Op ι β) :
    Ids (L ++ (match op with | .add id => [id] | _ => [])) (QueriesCache.step s op) := by
  obtain ⟨ops, hr⟩ := h.reach
  refine ⟨⟨ops ++ [op], by rw [hr]; simp [QueriesCache.run, List.foldl_append]⟩, ?_, ?_⟩
  · rw [next_step, h.next]
    cases op <;> simp
  · intro n p hp
    rcases pend_step hp with ⟨p', h1, h2⟩ | ⟨rfl, rfl⟩
    · have := h.ids n p' h1
      rw [h2] at this
      rw [List.getElem?_append_left (List.getElem?_eq_some_iff.mp this).1]
      exact this
    · rw [h.next]
      simp

theorem Ids.table {L : List ι} {s : Sys ι β} (h : Ids L s) {id : ι} {n : Nat} (ht : s.table.get id = some n) :
    L[n]? = some id := by
  obtain ⟨ops, rfl⟩ := h.reach
  obtain ⟨-, p, h1, h2, -⟩ := (run_inv ops).table id n ht
  rw [← h2]
  exact h.ids n p h1

end cache

theorem Ids.answers {L : List Bytes} (evs : List Event) : ∀ {s : Sys Bytes Bytes}, Ids L s → Ids L (answers s evs) := by
  induction evs with
  | nil => intro s h; exact h
  | cons e evs ih =>
    intro s h
    cases e with
    | answer id a =>
      have := h.step (.answer id a)
      rw [List.append_nil] at this
      exact ih this
    | custom => exact ih h
    | query => exact ih h

theorem has_answers {L : List Bytes} {n : Nat} {b : Bytes} (evs : List Event) : ∀ {s : Sys Bytes Bytes}, Ids L s →
    Has (answers s evs) n b → Has s n b ∨ ∃ id, .answer id b ∈ evs ∧ L[n]? = some id := by
  induction evs with
  | nil => intro s _ h; exact .inl h
  | cons e evs ih =>
    intro s h hh
    have keep : ∀ {x : Prop}, (x ∨ ∃ id, .answer id b ∈ evs ∧ L[n]? = some id) →
        (x ∨ ∃ id, .answer id b ∈ e :: evs ∧ L[n]? = some id) := fun hx =>
      hx.imp id fun ⟨id, h1, h2⟩ => ⟨id, List.mem_cons_of_mem _ h1, h2⟩
    cases e with
    | answer id a =>
      have h1 := h.step (.answer id a)
      rw [List.append_nil] at h1
      rcases keep (ih h1 hh) with h2 | h2
      · rcases has_step h2 with h2 | ⟨id', h2, h3⟩
        · exact .inl h2
        · cases h2
          exact .inr ⟨id, List.mem_cons_self, h.table h3⟩
      · exact .inr h2
    | custom => exact keep (ih h hh)
    | query => exact keep (ih h hh)

/-! ### Runs -/

theorem run_append (o : Opts c) (as bs : List (Act c)) : ∀ s, run o s (as ++ bs) = run o (run o s as) bs := by
  induction as with
  | nil => intro s; rfl
  | cons a as ih => intro s; exact ih _

theorem asked_append (as bs : List (Act c)) : asked (as ++ bs) = asked as ++ asked bs := List.filterMap_append

/-- The ids of the queries asked. -/
def ids (as : List (Act c)) : List Bytes := (asked as).map (·.2.2)

theorem ids_run (o : Opts c) (f : Full c) (as : List (Act c)) : Ids (ids as) (run o (State.start f) as).cache := by
  induction as using List.reverseRecOn with
  | nil => exact ⟨⟨[], rfl⟩, rfl, fun n p h => by simp [run, State.start, init] at h⟩
  | append_singleton as a ih =>
    rw [run_append, ids, asked_append, List.map_append]
    show Ids (ids as ++ _) (step o (run o (State.start f) as) a).cache
    cases a with
    | ask ul now l q id data prio rand =>
      have h1 := ih.step (.add id)
      simp only [step]
      split
      · exact h1
      · have := h1.step (.drop (run o (State.start f) as).cache.next)
        rw [List.append_nil] at this
        exact this
    | datagram ul now subs data key rand =>
      have := ih.answers (receive o ul now subs (run o (State.start f) as).full data key rand).2.events
      rw [← List.append_nil (ids as)] at this
      exact this
    | send k => exact ih.step (.send k)
    | poll n => exact ih.step (.poll n)
    | drop n => exact ih.step (.drop n)

/-- C88, what holds: an answer given to a query was brought, after the query had been asked, by a datagram which
was accepted, with the id of the query. No query ends with two results. Missing for the full statement: the datagram
may come from anybody the node has a packet accepted from. -/
theorem C88_brought_partial (o : Opts c) (f : Full c) (as : List (Act c)) (n : Nat) (l q id a : Bytes)
    (hn : (asked as)[n]? = some (l, q, id)) (h : Answered (run o (State.start f) as) n a) :
    (∃ pre act post l' q', as = pre ++ act :: post ∧ n < (asked pre).length ∧
      Brings o (run o (State.start f) pre) l' q' id a act) ∧
    ∀ p, (run o (State.start f) as).cache.pend n = some p → p.results = [some a] := by
  have main : ∀ n b, Has (run o (State.start f) as).cache n b → ∃ id, (ids as)[n]? = some id ∧
      ∃ pre act post l' q', as = pre ++ act :: post ∧ n < (asked pre).length ∧
        Brings o (run o (State.start f) pre) l' q' id b act := by
    clear h hn n
    induction as using List.reverseRecOn with
    | nil =>
      intro n b h
      rcases h with h | ⟨p, h, -⟩ <;> simp [run, State.start, init] at h
    | append_singleton as x ih =>
      intro n b h
      rw [run_append] at h
      have old : Has (run o (State.start f) as).cache n b → ∃ id, (ids (as ++ [x]))[n]? = some id ∧
          ∃ pre act post l' q', as ++ [x] = pre ++ act :: post ∧ n < (asked pre).length ∧
            Brings o (run o (State.start f) pre) l' q' id b act := by
        intro h
        obtain ⟨id, h1, pre, act, post, l', q', rfl, h2, h3⟩ := ih n b h
        refine ⟨id, ?_, pre, act, post ++ [x], l', q', by simp, h2, h3⟩
        have h4 : ids (pre ++ act :: post ++ [x]) = ids (pre ++ act :: post) ++ ids [x] := by
          simp only [ids, asked_append, List.map_append]
        rw [h4, List.getElem?_append_left (List.getElem?_eq_some_iff.mp h1).1]
        exact h1
      have other : ∀ op, (∀ id b, op ≠ .answer id b) →
          Has (QueriesCache.step (run o (State.start f) as).cache op) n b →
          Has (run o (State.start f) as).cache n b := by
        intro op hop h
        rcases has_step h with h | ⟨id, h, -⟩
        · exact h
        · exact absurd h (hop _ _)
      have hids := ids_run o f as
      cases x with
      | ask ul now l q id data prio rand =>
        refine old ?_
        change Has (step o (run o (State.start f) as) _).cache n b at h
        simp only [step] at h
        split at h
        · exact other (.add id) (by simp) h
        · rcases has_step h with h | ⟨_, h, -⟩
          · exact other (.add id) (by simp) h
          · cases h
      | datagram ul now subs data key rand =>
        rcases has_answers _ hids h with h | ⟨id, h1, h2⟩
        · exact old h
        · obtain ⟨l', q', prio, ms, h3, -⟩ := C71_events_come_from_the_packet o ul now subs
            (run o (State.start f) as).full data key rand _ h1
          have hlt := (List.getElem?_eq_some_iff.mp h2).1
          refine ⟨id, ?_, as, _, [], l', q', rfl, by simpa [ids] using hlt, ⟨prio, ms, h3⟩, h1⟩
          have h4 : ids (as ++ [Act.datagram ul now subs data key rand]) = ids as ++ [] := by
            simp only [ids, asked_append, List.map_append]; rfl
          rw [h4, List.append_nil]
          exact h2
      | send k => exact old (other (.send k) (by simp) h)
      | poll k => exact old (other (.poll k) (by simp) h)
      | drop k => exact old (other (.drop k) (by simp) h)
  obtain ⟨p, h1, h2⟩ := h
  constructor
  · obtain ⟨id', h3, h4⟩ := main n a (.inr ⟨p, h1, .inr h2⟩)
    have : (ids as)[n]? = some id := by simp [ids, hn]
    rw [this] at h3
    cases h3
    exact h4
  · intro p' hp'
    rw [h1] at hp'
    cases hp'
    obtain ⟨ops, hr⟩ := (ids_run o f as).reach
    have := (Props.C20_at_most_once_own_answer ops n p (by rw [← hr]; exact h1)).1
    match hl : p.results, this, h2 with
    | [x], _, h2 => simp only [List.mem_singleton] at h2; rw [h2]
    | _ :: _ :: _, h, _ => simp at h

/-- C88, why the full statement fails: whoever's packet it is, an answer with the id of a waiting query is handed to
the query. -/
theorem C88_anybody_partial (o : Opts c) (f : Full c) (as : List (Act c)) (n : Nat) (id a : Bytes)
    (hw : (run o (State.start f) as).cache.table.get id = some n) (ul : Bool) (now : Nat)
    (subs : Event → Reply) (data : Bytes) (key : c.Sec) (rand : Nat → Sender.Rand c)
    (hev : (receive o ul now subs (run o (State.start f) as).full data key rand).2.events = [.answer id a]) :
    Answered (run o (State.start f) (as ++ [.datagram ul now subs data key rand,
      .send (run o (State.start f) as).cache.inflight.length, .poll n])) n a := by
  obtain ⟨ops, hr⟩ := (ids_run o f as).reach
  obtain ⟨-, p, h1, h2, -⟩ := (run_inv ops).table id n (by rw [← hr]; exact hw)
  rw [hr] at hw
  rw [← h2] at hw
  obtain ⟨q, h3, h4, -⟩ := Props.C20_answer_is_delivered ops n p h1 hw a
  refine ⟨q, ?_, by rw [h4]; exact List.mem_singleton.mpr rfl⟩
  rw [run_append]
  simp only [run, step, hev, answers]
  rw [hr, ← h2]
  simpa [QueriesCache.run, List.foldl_append] using h3

namespace Example
open Verif.RoundTrip Verif.Delivery Verif.Establish

/-- A third peer. -/
def third : Bytes := shortId Crypto.toy (9 : UInt8)

/-- A node which knows the other one of the toy pair, and the third. -/
def node : Full Crypto.toy :=
  ⟨(toyNode false).setPeer (toyPair.id false) third (Peer.new 120 ⟨1, 2, 3, 9, 5⟩ (9 : UInt8) (8 : UInt8)), []⟩

def queryId : Bytes := List.replicate 32 4

/-- The node asks the third peer. -/
def ask : Act Crypto.toy := .ask false 130 (toyPair.id false) third queryId [5] false toyRands

/-- The other node of the pair sends an answer. -/
def answerGram : Bytes :=
  match Sender.sendMessage (toyPair.opts true) false 130 (toyNode true) (toyPair.id true) (toyPair.id false)
    (.answer queryId [66]) false toyRands with
  | .ok (_, [d]) => d
  | _ => []

def gram : Act Crypto.toy := .datagram false 140 toySubs answerGram (1 : UInt8) toyRands

def sourceOf : Receiver.Outcome → Option (Bytes × Bytes)
  | .accepted l q _ _ => some (l, q)
  | _ => none

theorem source : sourceOf (Receiver.handle (toyPair.opts false) false 140
    (run (toyPair.opts false) (State.start node) [ask]).full.node answerGram (1 : UInt8) toyRands).2.1 =
      some (toyPair.id false, toyPair.id true) := by decide +kernel

/-- `C88_anybody_partial` applies. -/
theorem answered : Answered (run (toyPair.opts false) (State.start node) [ask, gram, .send 0, .poll 0]) 0 [66] :=
  C88_anybody_partial (toyPair.opts false) node [ask] 0 queryId [66] (by decide +kernel) false 140 toySubs answerGram
    (1 : UInt8) toyRands (by decide +kernel)

/-- `C88_brought_partial` applies. -/
example := C88_brought_partial (toyPair.opts false) node [ask, gram, .send 0, .poll 0] 0 (toyPair.id false) third queryId
  [66] rfl answered

end Example

open Example Verif.RoundTrip Verif.Delivery Verif.Establish in
/-- C88 is false: the node asks the third peer, and the other one answers. -/
theorem C88_full_false : ¬ C88_full Crypto.toy := by
  intro h
  obtain ⟨pre, act, post, h1, h2, h3⟩ := h (toyPair.opts false) node [ask, gram, .send 0, .poll 0] 0 (toyPair.id false)
    third queryId [66] rfl answered
  match pre, h1, h2 with
  | [], _, h2 => simp [asked] at h2
  | [x], h1, _ =>
    simp only [List.cons_append, List.nil_append, List.cons.injEq] at h1
    obtain ⟨rfl, rfl, -⟩ := h1
    obtain ⟨⟨prio, ms, h4⟩, -⟩ := h3
    have h5 := source
    rw [h4] at h5
    simp only [sourceOf, Option.some.injEq, Prod.mk.injEq, true_and] at h5
    revert h5
    decide +kernel
  | [x, y], h1, _ =>
    simp only [List.cons_append, List.nil_append, List.cons.injEq] at h1
    obtain ⟨-, -, rfl, -⟩ := h1
    exact h3
  | [x, y, z], h1, _ =>
    simp only [List.cons_append, List.nil_append, List.cons.injEq] at h1
    obtain ⟨-, -, -, rfl, -⟩ := h1
    exact h3
  | x :: y :: z :: w :: rest, h1, _ =>
    have := congrArg List.length h1
    simp at this

end Verif.QueryRaw
