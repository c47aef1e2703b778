import Verif.Proofs.RldpCache2
import Verif.Props.RldpReceive
import Verif.Props.RldpQuery

/-!
# C54, C61, C62: the table of RLDP transfers
-/
namespace Verif.Rldp
open Verif.Tl
variable {f : Fec}

/-- Times at which the handler was run for transfer `x`. -/
def runsOf (s : Cache f) (x : Bytes) : List Nat := (s.runs.filter fun e => e.1 = x).map fun e => e.2.1

/-- C54 as stated: for no order and repetition of messages is the handler run twice for one transfer. -/
def C54_full : Prop := ∀ (f : Fec) (maxSize interval : Nat) (acts : List CAct) (x : Bytes),
  (runsOf ((Cache.init f).run maxSize interval acts) x).length ≤ 1

/-- A small query. -/
def sampleQuery : Bytes := writeMessage (.query (List.replicate 32 1) 100 0 [1, 0, 0, 0])

/-- Its only part. -/
def samplePart : Part := honestPart Fec.toy sampleQuery 0 0

def sampleId : Bytes := List.replicate 32 7

/-- A message arrives and is handled at once; the call and the task it creates have the given numbers. -/
def serveOnce (id : Bytes) (c k : Nat) (ok : Bool) : List CAct :=
  [.arrive id samplePart, .look c, .create c, .send c, .arm k, .recv k, .finish k, .answer k ok, .sent k true,
    .rest k]

/-- A copy of the message that arrives after the entry was removed runs the handler again. -/
theorem C54_full_false : ¬ C54_full := by
  intro h
  have := h Fec.toy 1000 2
    (serveOnce sampleId 0 0 true ++ [.tick, .tick, .fire 0, .remove 0] ++ serveOnce sampleId 1 1 true)
    sampleId
  exact absurd this (by decide +kernel)

/-- C54: runs of the handler for one transfer are at least the completion interval apart, for every order
and repetition of messages of any transfers, provided that no transfer with the negated id comes in. -/
theorem C54_apart_partial (f : Fec) (maxSize interval : Nat) (acts : List CAct) (x : Bytes)
    (hx : ∀ m, CAct.arrive (negateId x) m ∉ acts) :
    (runsOf ((Cache.init f).run maxSize interval acts) x).Pairwise fun t u => t + interval ≤ u := by
  have h := (WInv.run (f := f) maxSize acts hx (WInv.init interval x)).apart
  unfold runsOf
  rw [List.pairwise_map]
  refine List.Pairwise.imp_of_mem ?_ (h.sublist List.filter_sublist)
  intro a b ha hb hab
  have e1 := (List.mem_filter.1 ha).2
  have e2 := (List.mem_filter.1 hb).2
  exact hab (by simpa using e1) (by simpa using e2)

/-- C54: within one completion interval from the start the handler is run at most once for a transfer. -/
theorem C54_once_partial (f : Fec) (maxSize interval : Nat) (acts : List CAct) (x : Bytes)
    (hx : ∀ m, CAct.arrive (negateId x) m ∉ acts)
    (hnow : ((Cache.init f).run maxSize interval acts).now < interval) :
    (runsOf ((Cache.init f).run maxSize interval acts) x).length ≤ 1 := by
  have h1 := C54_apart_partial f maxSize interval acts x hx
  have h2 := (WInv.run (f := f) maxSize acts hx (WInv.init interval x)).past
  have h3 : ∀ t ∈ runsOf ((Cache.init f).run maxSize interval acts) x,
      t ≤ ((Cache.init f).run maxSize interval acts).now := by
    intro t ht
    obtain ⟨e, he, rfl⟩ := List.mem_map.1 ht
    exact h2 e (List.mem_filter.1 he).1
  cases hl : runsOf ((Cache.init f).run maxSize interval acts) x with
  | nil => simp
  | cons t l =>
    cases l with
    | nil => simp
    | cons u l =>
      rw [hl] at h1 h3
      have := (List.pairwise_cons.1 h1).1 u List.mem_cons_self
      have := h3 u (List.mem_cons_of_mem _ List.mem_cons_self)
      omega

/-- C54: while a transfer is being handled, or finished but not yet removed, no further task is made for
it. -/
theorem C54_single_task_partial (f : Fec) (maxSize interval : Nat) (acts : List CAct) (x : Bytes)
    (hx : ∀ m, CAct.arrive (negateId x) m ∉ acts) (i j : Nat) (t u : Task f)
    (hi : ((Cache.init f).run maxSize interval acts).tasks[i]? = some t)
    (hj : ((Cache.init f).run maxSize interval acts).tasks[j]? = some u)
    (ht : t.id = x) (hu : u.id = x) (ha : t.phase ≠ .over) (hb : u.phase ≠ .over) : i = j :=
  (WInv.run (f := f) maxSize acts hx (WInv.init interval x)).one i j t u hi hj ht hu ha hb

/-- C54_apart_partial, C54_once_partial, C54_single_task_partial: three parts of one query, handled by three callers. -/
def threeCallers : List CAct :=
  [.arrive sampleId samplePart, .arrive sampleId samplePart, .arrive sampleId samplePart, .look 0, .look 1,
    .create 0, .create 1, .look 1, .send 0, .recv 0, .finish 0]

theorem threeCallers_id : ∀ m, CAct.arrive (negateId sampleId) m ∉ threeCallers := by
  intro m h
  simp only [threeCallers, List.mem_cons, CAct.arrive.injEq, List.not_mem_nil, or_false, reduceCtorEq] at h
  rcases h with ⟨h, -⟩ | ⟨h, -⟩ | ⟨h, -⟩ <;> exact absurd h (by decide)

example := C54_apart_partial Fec.toy 1000 5 threeCallers sampleId threeCallers_id
example := C54_once_partial Fec.toy 1000 5 threeCallers sampleId threeCallers_id (by decide +kernel)
example (t : Task Fec.toy) (h : ((Cache.init Fec.toy).run 1000 5 threeCallers).tasks[0]? = some t) (hi : t.id = sampleId)
    (ha : t.phase ≠ .over) :=
  C54_single_task_partial Fec.toy 1000 5 threeCallers sampleId threeCallers_id 0 0 t t h h hi hi ha ha
example : (((Cache.init Fec.toy).run 1000 5 threeCallers).tasks[0]?).any
    (fun t => decide (t.id = sampleId ∧ t.phase ≠ .over)) = true := by decide +kernel

/-- The proviso is needed: a transfer with the negated id - from any peer - registers its answer under the
id of the first transfer and later removes it; the handler is then run twice within the interval. -/
theorem C54_negated_id_partial : ∃ (acts : List CAct) (t u : Nat), u < t + 5 ∧
    runsOf ((Cache.init Fec.toy).run 1000 5 acts) sampleId = [t, u] :=
  ⟨[.arrive sampleId samplePart, .look 0, .create 0] ++ serveOnce (negateId sampleId) 1 1 true ++
    [.tick, .tick, .tick, .tick, .send 0, .recv 0, .finish 0, .answer 0 true, .tick, .remove 1] ++
    serveOnce sampleId 2 2 true, 4, 5, by decide, by decide +kernel⟩

/-- Many copies within the interval, handled by interleaved calls. -/
example : runsOf ((Cache.init Fec.toy).run 1000 5
    [.arrive sampleId samplePart, .arrive sampleId samplePart, .arrive sampleId samplePart, .look 0, .look 1,
      .create 0, .create 1, .look 1, .send 0, .recv 0, .finish 0, .tick, .answer 0 true, .look 2]) sampleId =
    [1] := by decide +kernel

/-! ### C61 -/

/-- C61 as stated: once everything is finished nothing is left in the table. -/
def C61_full : Prop := ∀ (f : Fec) (maxSize interval : Nat) (acts : List CAct),
  (∀ t ∈ ((Cache.init f).run maxSize interval acts).tasks, t.phase = .over ∧ t.timer = .fired) →
  ∀ id, ((Cache.init f).run maxSize interval acts).entries.get id = none

/-- If sending the answer fails, the entry of the answer stays. -/
theorem C61_full_false : ¬ C61_full := by
  intro h
  have := h Fec.toy 1000 2
    [.arrive sampleId samplePart, .look 0, .create 0, .send 0, .arm 0, .recv 0, .finish 0, .answer 0 true,
      .sent 0 false, .rest 0, .tick, .tick, .fire 0, .remove 0] (by decide +kernel) (negateId sampleId)
  exact absurd this (by decide +kernel)

/-- The other way to leave an entry behind: the second task starts its sleep later than the first and
inserts `Done` after the removal; the entry stays for ever. -/
theorem C61_late_timer_partial : ∃ acts : List CAct,
    (∀ t ∈ ((Cache.init Fec.toy).run 1000 2 acts).tasks, t.phase = .over ∧ t.timer = .fired) ∧
    ((Cache.init Fec.toy).run 1000 2 acts).entries.get sampleId = some .done :=
  ⟨[.arrive sampleId samplePart, .look 0, .create 0, .send 0, .recv 0, .finish 0, .answer 0 false, .rest 0,
    .tick, .arm 0, .tick, .remove 0, .tick, .fire 0], by decide +kernel, by decide +kernel⟩

/-- C61: if no sending of an answer fails and each timer fires before the removal by its task, then every
entry belongs to a task that is not finished; so nothing is left once all are finished. -/
theorem C61_removed_partial (f : Fec) (maxSize interval : Nat) (acts : List CAct)
    (ho : OrderlyRun maxSize interval (Cache.init f) acts) (id : Bytes)
    (h : ∀ t ∈ ((Cache.init f).run maxSize interval acts).tasks, t.id = id ∨ negateId t.id = id →
      t.phase = .over) :
    ((Cache.init f).run maxSize interval acts).entries.get id = none := by
  have hinv := OInv.run maxSize interval acts (OInv.init (f := f)) ho
  cases he : ((Cache.init f).run maxSize interval acts).entries.get id with
  | none => rfl
  | some e =>
    obtain ⟨k, t, hk, hact, hid⟩ := hinv.owned id (by rw [he]; exact fun e => (by cases e))
    exact absurd (h t (List.mem_of_getElem? hk) (hid.imp Eq.symm fun x => x.1.symm)) hact

example : OrderlyRun 1000 2 (Cache.init Fec.toy)
    (serveOnce sampleId 0 0 true ++ [.tick, .tick, .fire 0, .remove 0]) := by
  refine ⟨trivial, trivial, trivial, trivial, trivial, trivial, trivial, trivial, rfl, trivial, trivial,
    trivial, trivial, ?_, trivial⟩
  intro t ht
  have : (((Cache.init Fec.toy).run 1000 2
    (serveOnce sampleId 0 0 true ++ [.tick, .tick, .fire 0])).tasks[0]?.map Task.timer) = some .fired := by
    decide +kernel
  have e : ((Cache.init Fec.toy).run 1000 2
    (serveOnce sampleId 0 0 true ++ [.tick, .tick, .fire 0])).tasks[0]? = some t := ht
  rw [e] at this
  exact Option.some.inj this

/-! ### C62 -/

/-- C62: if the messages of transfer `x` come from a sender of one query, the handler is given that query
and nothing else, whatever is lost, repeated, reordered, delayed or cut off by a timeout. -/
theorem C62_complete_query (f : Fec) (hf : f.Lawful) (maxSize interval : Nat) (queryId q : Bytes)
    (maxAnswer timeout : Nat) (hwf : (Message.query queryId maxAnswer timeout q).wf)
    (hm : (writeMessage (.query queryId maxAnswer timeout q)).length ≤ maxSize)
    (x : Bytes) (acts : List CAct)
    (ha : ∀ m, CAct.arrive x m ∈ acts →
      ∃ p n, m = honestPart f (writeMessage (.query queryId maxAnswer timeout q)) p n)
    (t : Nat) (o : OwnedQuery) (hr : (x, t, o) ∈ ((Cache.init f).run maxSize interval acts).runs) :
    o = ⟨queryId, maxAnswer, q⟩ := by
  have hne : writeMessage (.query queryId maxAnswer timeout q) ≠ [] := by
    intro e
    have := congrArg List.length e
    simp [writeMessage, writeU32] at this
  have h := (HInv.run hf interval hm hne (fromData_prefix _ hwf) acts ha (HInv.init (f := f) _ x)).runs
    _ hr rfl
  have h2 : fromData (writeMessage (.query queryId maxAnswer timeout q)) =
      some ⟨queryId, maxAnswer, q⟩ := by
    rw [C60_from_data]
    refine ⟨timeout, [], ?_⟩
    have := message_encodes _ hwf []
    rwa [List.append_nil] at this
  rw [h2] at h
  exact (Option.some.inj h).symm

/-- The handler is run although the rest of the first copy was cut off and came again later. -/
example : ((Cache.init Fec.toy).run 1000 2
    ([.arrive sampleId samplePart, .look 0, .create 0, .arm 0, .tick, .tick, .fire 0, .send 0, .recv 0,
      .finish 0, .answer 0 true])).runs.map (fun e => e.2.2) =
    [⟨List.replicate 32 1, 100, [1, 0, 0, 0]⟩] := by decide +kernel

/-! ### A transfer is not given up while parts can still come -/

/-- A task leaves the loop of `receive` only with a complete transfer, or when no sender half is left. -/
theorem leaves_loop (maxSize interval : Nat) (s : Cache f) (a : CAct) (k : Nat) (t t' : Task f)
    (hk : s.tasks[k]? = some t) (hk' : (s.step maxSize interval a).tasks[k]? = some t') (hp : t.phase = .receiving)
    (hp' : t'.phase ≠ .receiving) : t'.rcv.left = true ∨ s.hasSender k t.id = false := by
  have hsame : ∀ ts : List (Task f), ts = s.tasks → ts[k]? ≠ some t' := by
    intro ts e h
    rw [e, hk] at h
    cases h
    exact hp' hp
  have hset : ∀ (j : Nat) (x y : Task f), s.tasks[j]? = some x → (s.tasks.set j y)[k]? = some t' → j = k ∧ x = t ∧ y = t' := by
    intro j x y hx h
    rw [List.getElem?_set] at h
    split at h
    · rename_i e
      subst e
      rw [hk] at hx
      split at h
      · cases hx; cases h; exact ⟨rfl, rfl, rfl⟩
      · cases h
    · rw [hk] at h; cases h; exact absurd hp hp'
  have hdel : ∀ (j : Nat) (m : Part), (s.deliver j m).tasks[k]? ≠ some t' := by
    intro j m h
    unfold Cache.deliver at h
    cases hj : s.tasks[j]? with
    | none => rw [hj] at h; exact hsame _ rfl h
    | some x =>
      rw [hj] at h
      simp only at h
      split at h
      · obtain ⟨_, rfl, e⟩ := hset _ _ _ hj h
        subst e
        exact hp' hp
      · exact hsame _ rfl h
  cases a with
  | arrive id m => exact absurd hk' (hsame _ rfl)
  | tick => exact absurd hk' (hsame _ rfl)
  | look c =>
    simp only [Cache.step] at hk'
    split at hk'
    · split at hk'
      · split at hk'
        · exact absurd hk' (hdel _ _)
        · exact absurd hk' (hsame _ rfl)
        · exact absurd hk' (hsame _ rfl)
      · exact absurd hk' (hsame _ rfl)
    · exact absurd hk' (hsame _ rfl)
  | create c =>
    simp only [Cache.step] at hk'
    split at hk'
    · split at hk'
      · split at hk'
        · simp only [Cache.setPc] at hk'
          rw [List.getElem?_append_left (List.getElem?_eq_some_iff.1 hk).1, hk] at hk'
          cases hk'
          exact absurd hp hp'
        · exact absurd hk' (hsame _ rfl)
      · exact absurd hk' (hsame _ rfl)
    · exact absurd hk' (hsame _ rfl)
  | send c =>
    simp only [Cache.step] at hk'
    split at hk'
    · split at hk'
      · exact absurd hk' (hdel _ _)
      · exact absurd hk' (hsame _ rfl)
    · exact absurd hk' (hsame _ rfl)
  | recv j =>
    simp only [Cache.step] at hk'
    split at hk'
    · rename_i x hx
      split at hk'
      · split at hk'
        · obtain ⟨_, rfl, e⟩ := hset _ _ _ hx hk'
          subst e
          simp only at hp'
          split at hp'
          · rename_i hl; exact .inl hl
          · exact absurd rfl hp'
        · split at hk'
          · exact absurd hk' (hsame _ rfl)
          · rename_i hn
            obtain ⟨rfl, rfl, e⟩ := hset _ _ _ hx hk'
            exact .inr (by simpa using hn)
      · exact absurd hk' (hsame _ rfl)
    · exact absurd hk' (hsame _ rfl)
  | finish j =>
    simp only [Cache.step] at hk'
    split at hk'
    · rename_i x hx
      split at hk'
      · rename_i h1
        obtain ⟨_, rfl, _⟩ := hset _ _ _ hx hk'
        rw [hp] at h1; cases h1
      · exact absurd hk' (hsame _ rfl)
    · exact absurd hk' (hsame _ rfl)
  | answer j o =>
    simp only [Cache.step] at hk'
    split at hk'
    · rename_i x hx
      split at hk'
      · rename_i h1
        split at hk'
        · obtain ⟨_, rfl, _⟩ := hset _ _ _ hx hk'
          rw [hp] at h1; cases h1
        · split at hk'
          · obtain ⟨_, rfl, _⟩ := hset _ _ _ hx hk'
            rw [hp] at h1; cases h1
          · obtain ⟨_, rfl, _⟩ := hset _ _ _ hx hk'
            rw [hp] at h1; cases h1
      · exact absurd hk' (hsame _ rfl)
    · exact absurd hk' (hsame _ rfl)
  | sent j ok =>
    simp only [Cache.step] at hk'
    split at hk'
    · rename_i x hx
      split at hk'
      · rename_i h1
        obtain ⟨_, rfl, _⟩ := hset _ _ _ hx hk'
        rw [hp] at h1; cases h1
      · exact absurd hk' (hsame _ rfl)
    · exact absurd hk' (hsame _ rfl)
  | rest j =>
    simp only [Cache.step] at hk'
    split at hk'
    · rename_i x hx
      split at hk'
      · rename_i h1
        obtain ⟨_, rfl, _⟩ := hset _ _ _ hx hk'
        rw [hp] at h1; cases h1
      · exact absurd hk' (hsame _ rfl)
    · exact absurd hk' (hsame _ rfl)
  | remove j =>
    simp only [Cache.step] at hk'
    split at hk'
    · rename_i x hx
      split at hk'
      · rename_i h1
        split at hk'
        · obtain ⟨_, rfl, _⟩ := hset _ _ _ hx hk'
          rw [hp] at h1; cases h1
        · exact absurd hk' (hsame _ rfl)
      · exact absurd hk' (hsame _ rfl)
    · exact absurd hk' (hsame _ rfl)
  | arm j =>
    simp only [Cache.step] at hk'
    split at hk'
    · rename_i x hx
      split at hk'
      · obtain ⟨_, rfl, e⟩ := hset _ _ _ hx hk'
        subst e; exact absurd hp hp'
      · exact absurd hk' (hsame _ rfl)
    · exact absurd hk' (hsame _ rfl)
  | fire j =>
    simp only [Cache.step] at hk'
    split at hk'
    · rename_i x hx
      split at hk'
      · split at hk'
        · obtain ⟨_, rfl, e⟩ := hset _ _ _ hx hk'
          subst e; exact absurd hp hp'
        · exact absurd hk' (hsame _ rfl)
      · exact absurd hk' (hsame _ rfl)
    · exact absurd hk' (hsame _ rfl)

/-- Sender halves belong to tasks, and tasks that gave up have none. -/
structure OpenInv (s : Cache f) : Prop where
  entry : ∀ id k, s.entries.get id = some (.incoming k) → k < s.tasks.length
  call : ∀ c ∈ s.calls, ∀ k, c.pc = .send k → k < s.tasks.length
  given : ∀ (k : Nat) (t : Task f), s.tasks[k]? = some t → t.phase ≠ .receiving → t.rcv.left = true ∨
    (s.entries.get t.id ≠ some (.incoming k) ∧ ∀ c ∈ s.calls, c.pc ≠ .send k)

/-- What a step does to one task and to the sender halves. -/
theorem step_halves (maxSize interval : Nat) (s : Cache f) (a : CAct) :
    (∀ (k : Nat) (t' : Task f), (s.step maxSize interval a).tasks[k]? = some t' →
      (k = s.tasks.length ∧ t'.phase = .receiving) ∨ ∃ t, s.tasks[k]? = some t ∧ t'.id = t.id ∧
        (t.phase ≠ .receiving → t'.rcv = t.rcv ∧ t'.phase ≠ .receiving)) ∧
    s.tasks.length ≤ (s.step maxSize interval a).tasks.length ∧
    (∀ id k, (s.step maxSize interval a).entries.get id = some (.incoming k) →
      s.entries.get id = some (.incoming k) ∨ (k = s.tasks.length ∧ k < (s.step maxSize interval a).tasks.length)) ∧
    (∀ c ∈ (s.step maxSize interval a).calls, ∀ k, c.pc = .send k → (∃ c0 ∈ s.calls, c0.pc = .send k) ∨
      (k = s.tasks.length ∧ k < (s.step maxSize interval a).tasks.length)) := by
  have hset : ∀ (j : Nat) (x y : Task f), s.tasks[j]? = some x → y.id = x.id →
      (x.phase ≠ .receiving → y.rcv = x.rcv ∧ y.phase ≠ .receiving) → ∀ (k : Nat) (t' : Task f), (s.tasks.set j y)[k]? = some t' →
      ∃ t, s.tasks[k]? = some t ∧ t'.id = t.id ∧ (t.phase ≠ .receiving → t'.rcv = t.rcv ∧ t'.phase ≠ .receiving) := by
    intro j x y hx hid hr k t' h
    rw [List.getElem?_set] at h
    split at h
    · rename_i e
      subst e
      split at h
      · cases h; exact ⟨x, hx, hid, hr⟩
      · cases h
    · exact ⟨t', h, rfl, fun h => ⟨rfl, h⟩⟩
  have hfrom : ∀ (s' : Cache f), (∀ c ∈ s'.calls, CallFrom s c) → ∀ c ∈ s'.calls, ∀ k, c.pc = .send k →
      ∃ c0 ∈ s.calls, c0.pc = .send k := by
    intro s' h c hc k e
    obtain ⟨c0, h0, -, -, h1⟩ := h c hc
    exact ⟨c0, h0, h1 k e⟩
  have hmv : ∀ {p p' : TaskPhase}, Moves s.now interval p p' → p ≠ .receiving → p' ≠ .receiving := by
    intro p p' h hp
    cases h
    · exact hp
    · exact absurd rfl hp
    all_goals exact fun e => by cases e
  have he := cstep_eff maxSize interval s a
  generalize s.step maxSize interval a = s' at he
  cases he with
  | calls _ _ he ht hr hn hc =>
    rw [ht, he]
    refine ⟨fun k t' h => .inr ⟨t', h, rfl, fun h => ⟨rfl, h⟩⟩, Nat.le_refl _, fun _ _ h => .inl h, ?_⟩
    intro c hcm k e
    rcases hc c hcm with ⟨c0, h0, -, -, h1⟩ | ⟨-, h1⟩
    · exact .inl ⟨c0, h0, h1 k e⟩
    · rw [h1] at e; cases e
  | create c call _ hc h0 he ht hr hn hcs =>
    have hl : s'.tasks.length = s.tasks.length + 1 := by rw [ht]; simp
    refine ⟨?_, by omega, ?_, ?_⟩
    · intro k t' h
      rw [ht] at h
      by_cases hk : k < s.tasks.length
      · rw [List.getElem?_append_left hk] at h
        exact .inr ⟨t', h, rfl, fun h => ⟨rfl, h⟩⟩
      · rw [List.getElem?_append_right (Nat.le_of_not_lt hk)] at h
        rcases Nat.eq_zero_or_pos (k - s.tasks.length) with e | e
        · rw [e] at h
          cases h
          exact .inl ⟨by omega, rfl⟩
        · rw [List.getElem?_eq_none (by simpa using (show 1 ≤ _ from e))] at h; cases h
    · intro id k h
      rw [he, AMap.get_put] at h
      split at h
      · cases h; exact .inr ⟨rfl, by omega⟩
      · exact .inl h
    · intro c' hc' k e
      rcases hcs c' hc' with ⟨c0, h0, -, -, h1⟩ | ⟨-, -, h1⟩
      · exact .inl ⟨c0, h0, h1 k e⟩
      · rw [h1] at e; cases e; exact .inr ⟨rfl, by omega⟩
  | deliver _ c k call t _ hc hk hp hid he ht hr hn hcs =>
    rw [ht, he]
    refine ⟨fun k' t' h => .inr (hset _ _ _ hk (by rfl) (fun h => absurd hp h) k' t' h), by simp, fun _ _ h => .inl h,
      fun c hc k e => .inl (hfrom s' hcs c hc k e)⟩
  | take k t m q p _ hk hq hp hp' he ht hr hn hcs =>
    rw [ht, he, hcs]
    refine ⟨fun k' t' h => .inr (hset _ _ _ hk (by rfl) (fun h => absurd hp h) k' t' h), by simp, fun _ _ h => .inl h,
      fun c hc k e => .inl ⟨c, hc, e⟩⟩
  | move _ k t p tm _ hk hm he hi ht hr hn hcs =>
    rw [ht, hcs]
    refine ⟨fun k' t' h => .inr (hset _ _ { t with phase := p, timer := tm } hk rfl (fun h => ⟨rfl, hmv hm h⟩) k' t' h), by simp,
      fun _ _ h => .inl (hi _ _ h), fun c hc k e => .inl ⟨c, hc, e⟩⟩
  | run k o t p q _ hk h0 hp hq he hi ht hr hn hcs =>
    rw [ht, hcs]
    refine ⟨fun k' t' h => .inr (hset _ _ { t with phase := p } hk rfl (fun h => ⟨rfl, ?_⟩) k' t' h), by simp,
      fun _ _ h => .inl (hi _ _ h), fun c hc k e => .inl ⟨c, hc, e⟩⟩
    rcases hp with rfl | rfl <;> exact fun e => by cases e

theorem OpenInv.step (maxSize interval : Nat) {s : Cache f} (h : OpenInv s) (a : CAct) :
    OpenInv (s.step maxSize interval a) := by
  obtain ⟨h1, h2, h3, h4⟩ := step_halves maxSize interval s a
  refine ⟨?_, ?_, ?_⟩
  · intro id k hk
    rcases h3 id k hk with h' | h'
    · exact Nat.lt_of_lt_of_le (h.entry id k h') h2
    · exact h'.2
  · intro c hc k e
    rcases h4 c hc k e with ⟨c0, h0, e0⟩ | h'
    · exact Nat.lt_of_lt_of_le (h.call c0 h0 k e0) h2
    · exact h'.2
  · intro k t' hk hp
    rcases h1 k t' hk with ⟨-, e⟩ | ⟨t, ht, hid, hsame⟩
    · exact absurd e hp
    · have hlt : k < s.tasks.length := (List.getElem?_eq_some_iff.1 ht).1
      have hback : s.entries.get t.id ≠ some (.incoming k) ∧ (∀ c ∈ s.calls, c.pc ≠ .send k) →
          (s.step maxSize interval a).entries.get t'.id ≠ some (.incoming k) ∧
          ∀ c ∈ (s.step maxSize interval a).calls, c.pc ≠ .send k := by
        rintro ⟨g1, g2⟩
        constructor
        · intro e
          rw [hid] at e
          rcases h3 _ _ e with h' | h'
          · exact g1 h'
          · omega
        · intro c hc e
          rcases h4 c hc k e with ⟨c0, h0, e0⟩ | h'
          · exact g2 c0 h0 e0
          · omega
      by_cases hr : t.phase = .receiving
      · rcases leaves_loop maxSize interval s a k t t' ht hk hr hp with hl | hn
        · exact .inl hl
        · refine .inr (hback ?_)
          unfold Cache.hasSender at hn
          rw [Bool.or_eq_false_iff] at hn
          refine ⟨by simpa using hn.1, ?_⟩
          intro c hc e
          have := List.any_eq_false.1 hn.2 c hc
          simp [e] at this
      · rcases h.given k t ht hr with hl | hg
        · rw [← (hsame hr).1] at hl; exact .inl hl
        · exact .inr (hback hg)

theorem OpenInv.run (maxSize interval : Nat) (acts : List CAct) : ∀ {s : Cache f}, OpenInv s →
    OpenInv (s.run maxSize interval acts) := by
  induction acts with
  | nil => intro s h; exact h
  | cons a acts ih => intro s h; exact ih (h.step maxSize interval a)

/-- C62: an incomplete transfer is not given up while parts can still come: as long as its entry is in the table, or a
call holds the sender half of its queue, its task is receiving, and a part that arrives is put in its queue. -/
theorem C62_not_given_up (f : Fec) (maxSize interval : Nat) (acts : List CAct) (k : Nat) (t : Task f)
    (hk : ((Cache.init f).run maxSize interval acts).tasks[k]? = some t) (hl : t.rcv.left = false) :
    (((Cache.init f).run maxSize interval acts).entries.get t.id = some (.incoming k) → t.phase = .receiving ∧
      ∀ (c : Nat) (call : Call), ((Cache.init f).run maxSize interval acts).calls[c]? = some call → call.id = t.id →
        call.pc = .look → (((Cache.init f).run maxSize interval acts).step maxSize interval (.look c)).tasks[k]? =
          some { t with queue := t.queue ++ [call.m] }) ∧
    (∀ (c : Nat) (call : Call), ((Cache.init f).run maxSize interval acts).calls[c]? = some call →
      call.pc = .send k → t.phase = .receiving ∧
        (((Cache.init f).run maxSize interval acts).step maxSize interval (.send c)).tasks[k]? =
          some { t with queue := t.queue ++ [call.m] }) := by
  have h : OpenInv ((Cache.init f).run maxSize interval acts) := OpenInv.run maxSize interval acts
    ⟨fun _ _ h => (by cases h), fun _ h => absurd h List.not_mem_nil, fun _ _ h => (by simp [Cache.init] at h)⟩
  generalize (Cache.init f).run maxSize interval acts = s at h hk
  have hlt := (List.getElem?_eq_some_iff.1 hk).1
  have hd : t.phase = .receiving → ∀ m, (s.deliver k m).tasks[k]? = some { t with queue := t.queue ++ [m] } := by
    intro hp m
    simp only [Cache.deliver, hk, if_pos hp]
    rw [List.getElem?_set, if_pos rfl, if_pos hlt]
  constructor
  · intro he
    have hp : t.phase = .receiving := by
      refine Decidable.byContradiction fun hp => ?_
      rcases h.given k t hk hp with hl' | hg
      · rw [hl] at hl'; cases hl'
      · exact hg.1 he
    refine ⟨hp, fun c call hc hid hpc => ?_⟩
    simp only [Cache.step, hc, if_pos hpc, hid, he]
    exact hd hp _
  · intro c call hc hpc
    have hp : t.phase = .receiving := by
      refine Decidable.byContradiction fun hp => ?_
      rcases h.given k t hk hp with hl' | hg
      · rw [hl] at hl'; cases hl'
      · exact hg.2 call (List.mem_of_getElem? hc) hpc
    refine ⟨hp, ?_⟩
    simp only [Cache.step, hc, hpc]
    exact hd hp _

/-- A part is on its way to the queue while the first attempt to take from it finds it empty. -/
example : (((Cache.init Fec.toy).run 1000 5 [.arrive sampleId samplePart, .look 0, .create 0, .recv 0]).tasks[0]?).map
      (fun t => (t.rcv.left, t.phase)) = some (false, .receiving) ∧
    (((Cache.init Fec.toy).run 1000 5 [.arrive sampleId samplePart, .look 0, .create 0, .recv 0]).calls[0]?).map (·.pc) =
      some (.send 0) := by decide +kernel

end Verif.Rldp
