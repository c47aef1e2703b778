import Verif.Model.RldpCache
import Verif.Proofs.AMap
import Verif.Proofs.RldpTransfer

/-!
# The table of RLDP transfers: effects of the steps and the invariant for one id
-/
namespace Verif.Rldp
variable {f : Fec}

/-- What a step does to the phase of a task. -/
inductive Moves (now interval : Nat) : TaskPhase → TaskPhase → Prop where
  | same (p) : Moves now interval p p
  | received : Moves now interval .receiving .received
  | finished : Moves now interval .received .finished
  | nothing : Moves now interval .finished (.answered false)
  | sent (ok) : Moves now interval .sending (.answered ok)
  | rest (o) : Moves now interval (.answered o) (.sleeping (now + interval) o)
  | remove (till o) (h : till ≤ now) : Moves now interval (.sleeping till o) .over

/-- The call `c` was there before, possibly at another position. -/
def CallFrom (s : Cache f) (c : Call) : Prop :=
  ∃ c0 ∈ s.calls, c.id = c0.id ∧ c.m = c0.m ∧ ∀ k, c.pc = .send k → c0.pc = .send k

/-- Effects of a step. -/
inductive CEff (maxSize interval : Nat) (s : Cache f) : CAct → Cache f → Prop where
  /-- at most the calls and the clock -/
  | calls (a) (s' : Cache f) (he : s'.entries = s.entries) (ht : s'.tasks = s.tasks)
      (hr : s'.runs = s.runs) (hn : s.now ≤ s'.now)
      (hc : ∀ c ∈ s'.calls, CallFrom s c ∨ (a = .arrive c.id c.m ∧ c.pc = .look)) :
      CEff maxSize interval s a s'
  /-- a new task -/
  | create (c : Nat) (call : Call) (s' : Cache f) (hc : s.calls[c]? = some call)
      (h0 : s.entries.get call.id = none)
      (he : s'.entries = s.entries.put call.id (.incoming s.tasks.length))
      (ht : s'.tasks = s.tasks ++ [⟨call.id, Receiving.new f maxSize, [], .receiving, .idle⟩])
      (hr : s'.runs = s.runs) (hn : s'.now = s.now)
      (hcs : ∀ c ∈ s'.calls, CallFrom s c ∨
        (c.id = call.id ∧ c.m = call.m ∧ c.pc = .send s.tasks.length)) :
      CEff maxSize interval s (.create c) s'
  /-- a message enters the queue of a task -/
  | deliver (a) (c k : Nat) (call : Call) (t : Task f) (s' : Cache f) (hc : s.calls[c]? = some call)
      (hk : s.tasks[k]? = some t) (hp : t.phase = .receiving)
      (hid : s.entries.get call.id = some (.incoming k) ∨ call.pc = .send k)
      (he : s'.entries = s.entries)
      (ht : s'.tasks = s.tasks.set k { t with queue := t.queue ++ [call.m] })
      (hr : s'.runs = s.runs) (hn : s'.now = s.now)
      (hcs : ∀ c ∈ s'.calls, CallFrom s c) :
      CEff maxSize interval s a s'
  /-- a message leaves the queue -/
  | take (k : Nat) (t : Task f) (m : Part) (q : List Part) (p : TaskPhase) (s' : Cache f)
      (hk : s.tasks[k]? = some t) (hq : t.queue = m :: q) (hp : t.phase = .receiving)
      (hp' : p = if (t.rcv.step m).1.left then .received else .receiving)
      (he : s'.entries = s.entries)
      (ht : s'.tasks = s.tasks.set k { t with rcv := (t.rcv.step m).1, queue := q, phase := p })
      (hr : s'.runs = s.runs) (hn : s'.now = s.now) (hcs : s'.calls = s.calls) :
      CEff maxSize interval s (.recv k) s'
  /-- a task goes on -/
  | move (a) (k : Nat) (t : Task f) (p : TaskPhase) (tm : Timer) (s' : Cache f)
      (hk : s.tasks[k]? = some t) (hm : Moves s.now interval t.phase p)
      (he : (∀ id, s.entries.get id ≠ none → s'.entries.get id = none →
        p = .over ∧ t.phase ≠ .over ∧ (id = t.id ∨ id = negateId t.id)))
      (hi : ∀ id k, s'.entries.get id = some (.incoming k) → s.entries.get id = some (.incoming k))
      (ht : s'.tasks = s.tasks.set k { t with phase := p, timer := tm })
      (hr : s'.runs = s.runs) (hn : s'.now = s.now) (hcs : s'.calls = s.calls) :
      CEff maxSize interval s a s'
  /-- the handler is run -/
  | run (k : Nat) (some? : Bool) (t : Task f) (p : TaskPhase) (q : OwnedQuery) (s' : Cache f)
      (hk : s.tasks[k]? = some t) (h0 : t.phase = .finished)
      (hp : p = .sending ∨ p = .answered false)
      (hq : fromData t.rcv.transfer.data = some q)
      (he : ∀ id, s.entries.get id ≠ none → s'.entries.get id ≠ none)
      (hi : ∀ id k, s'.entries.get id = some (.incoming k) → s.entries.get id = some (.incoming k))
      (ht : s'.tasks = s.tasks.set k { t with phase := p })
      (hr : s'.runs = s.runs ++ [(t.id, s.now, q)]) (hn : s'.now = s.now) (hcs : s'.calls = s.calls) :
      CEff maxSize interval s (.answer k some?) s'

theorem CEff.refl (maxSize interval : Nat) (s : Cache f) (a : CAct) : CEff maxSize interval s a s :=
  .calls a s rfl rfl rfl (Nat.le_refl _) fun c hc => .inl ⟨c, hc, rfl, rfl, fun _ h => h⟩

theorem setPc_calls (s : Cache f) {c : Nat} {call : Call} (pc : CallPc) (h : s.calls[c]? = some call)
    (hpc : ∀ k, pc ≠ .send k) : ∀ x ∈ (s.setPc c call pc).calls, CallFrom s x := by
  intro x hx
  rcases List.mem_or_eq_of_mem_set hx with hx | rfl
  · exact ⟨x, hx, rfl, rfl, fun _ h => h⟩
  · exact ⟨call, List.mem_of_getElem? h, rfl, rfl, fun k hk => absurd hk (hpc k)⟩

theorem deliver_eff (maxSize interval : Nat) (s : Cache f) (a : CAct) {c : Nat} {call : Call} (k : Nat)
    (h : s.calls[c]? = some call)
    (hid : s.entries.get call.id = some (.incoming k) ∨ call.pc = .send k) :
    CEff maxSize interval s a ((s.deliver k call.m).setPc c call .over) := by
  unfold Cache.deliver
  cases hk : s.tasks[k]? with
  | none =>
    exact .calls a _ rfl rfl rfl (Nat.le_refl _) fun x hx => .inl (setPc_calls s _ h (fun k e => by cases e) x hx)
  | some t =>
    simp only
    by_cases hp : t.phase = .receiving
    · rw [if_pos hp]
      exact .deliver a c k call t _ h hk hp hid rfl rfl rfl rfl (setPc_calls s _ h fun k e => by cases e)
    · rw [if_neg hp]
      exact .calls a _ rfl rfl rfl (Nat.le_refl _) fun x hx => .inl (setPc_calls s _ h (fun k e => by cases e) x hx)

theorem set_self {α : Type} {l : List α} {k : Nat} {t : α} (h : l[k]? = some t) : l.set k t = l := by
  obtain ⟨hk, rfl⟩ := List.getElem?_eq_some_iff.1 h
  exact List.set_getElem_self hk

theorem put_get_ne_none {m : AMap Bytes Entry} {k id : Bytes} {v : Entry} (h : m.get id ≠ none) :
    (m.put k v).get id ≠ none := by
  rw [AMap.get_put]
  split
  · intro h; cases h
  · exact h

theorem put_incoming {m : AMap Bytes Entry} {x id : Bytes} {v : Entry} {k : Nat}
    (hv : ∀ k, v ≠ .incoming k) (h : (m.put x v).get id = some (.incoming k)) :
    m.get id = some (.incoming k) := by
  rw [AMap.get_put] at h
  split at h
  · exact absurd (Option.some.inj h) (hv k)
  · exact h

theorem cstep_eff (maxSize interval : Nat) (s : Cache f) (a : CAct) :
    CEff maxSize interval s a (s.step maxSize interval a) := by
  cases a with
  | arrive id m =>
    refine .calls _ _ rfl rfl rfl (Nat.le_refl _) fun c hc => ?_
    rcases List.mem_append.1 hc with hc | hc
    · exact .inl ⟨c, hc, rfl, rfl, fun _ h => h⟩
    · rw [List.mem_singleton] at hc
      subst hc
      exact .inr ⟨rfl, rfl⟩
  | tick => exact .calls _ _ rfl rfl rfl (Nat.le_succ _) fun c hc => .inl ⟨c, hc, rfl, rfl, fun _ h => h⟩
  | look c =>
    simp only [Cache.step]
    cases h : s.calls[c]? with
    | none => exact CEff.refl _ _ _ _
    | some call =>
      simp only
      by_cases hp : call.pc = .look
      · rw [if_pos hp]
        cases he : s.entries.get call.id with
        | none =>
          exact .calls _ _ rfl rfl rfl (Nat.le_refl _) fun x hx => .inl (setPc_calls s _ h (fun k e => by cases e) x hx)
        | some e =>
          cases e with
          | incoming k => exact deliver_eff _ _ _ _ k h (.inl he)
          | outgoing =>
            exact .calls _ _ rfl rfl rfl (Nat.le_refl _) fun x hx => .inl (setPc_calls s _ h (fun k e => by cases e) x hx)
          | done =>
            exact .calls _ _ rfl rfl rfl (Nat.le_refl _) fun x hx => .inl (setPc_calls s _ h (fun k e => by cases e) x hx)
      · rw [if_neg hp]; exact CEff.refl _ _ _ _
  | create c =>
    simp only [Cache.step]
    cases h : s.calls[c]? with
    | none => exact CEff.refl _ _ _ _
    | some call =>
      simp only
      by_cases hp : call.pc = .create
      · rw [if_pos hp]
        cases he : s.entries.get call.id with
        | none =>
          refine .create c call _ h he rfl rfl rfl rfl ?_
          intro x hx
          rcases List.mem_or_eq_of_mem_set hx with hx | rfl
          · exact .inl ⟨x, hx, rfl, rfl, fun _ h => h⟩
          · exact .inr ⟨rfl, rfl, rfl⟩
        | some e =>
          exact .calls _ _ rfl rfl rfl (Nat.le_refl _) fun x hx => .inl (setPc_calls s _ h (fun k e => by cases e) x hx)
      · rw [if_neg hp]; exact CEff.refl _ _ _ _
  | send c =>
    simp only [Cache.step]
    cases h : s.calls[c]? with
    | none => exact CEff.refl _ _ _ _
    | some call =>
      simp only
      split
      · rename_i k hk
        exact deliver_eff _ _ _ _ k h (.inr hk)
      · exact CEff.refl _ _ _ _
  | recv k =>
    simp only [Cache.step]
    cases h : s.tasks[k]? with
    | none => exact CEff.refl _ _ _ _
    | some t =>
      simp only
      by_cases hp : t.phase = .receiving
      · rw [if_pos hp]
        cases hq : t.queue with
        | cons m q => exact .take k t m q _ _ h hq hp rfl rfl rfl rfl rfl rfl
        | nil =>
          simp only
          split
          · exact CEff.refl _ _ _ _
          · refine .move _ k t .received t.timer _ h (hp ▸ .received) (fun id h1 h2 => absurd h2 h1) (fun _ _ h => h) ?_
              rfl rfl rfl
            rw [← hq]
      · rw [if_neg hp]; exact CEff.refl _ _ _ _
  | finish k =>
    simp only [Cache.step]
    cases h : s.tasks[k]? with
    | none => exact CEff.refl _ _ _ _
    | some t =>
      simp only
      by_cases hp : t.phase = .received
      · rw [if_pos hp]
        exact .move _ k t .finished t.timer _ h (hp ▸ .finished)
          (fun id h1 h2 => absurd h2 (put_get_ne_none h1)) (fun _ _ h => put_incoming (fun _ e => by cases e) h)
            rfl rfl rfl rfl
      · rw [if_neg hp]; exact CEff.refl _ _ _ _
  | answer k b =>
    simp only [Cache.step]
    cases h : s.tasks[k]? with
    | none => exact CEff.refl _ _ _ _
    | some t =>
      simp only
      by_cases hp : t.phase = .finished
      · rw [if_pos hp]
        cases hq : fromData t.rcv.transfer.data with
        | none =>
          exact .move _ k t (.answered false) t.timer _ h (hp ▸ .nothing)
            (fun id h1 h2 => absurd h2 h1) (fun _ _ h => h) rfl rfl rfl rfl
        | some q =>
          cases b with
          | true =>
            exact .run k true t .sending q _ h hp (.inl rfl) hq (fun id h1 => put_get_ne_none h1)
              (fun _ _ h => put_incoming (fun _ e => by cases e) h)
              rfl rfl rfl rfl
          | false =>
            exact .run k false t (.answered false) q _ h hp (.inr rfl) hq (fun id h1 => h1) (fun _ _ h => h)
              rfl rfl rfl rfl
      · rw [if_neg hp]; exact CEff.refl _ _ _ _
  | sent k ok =>
    simp only [Cache.step]
    cases h : s.tasks[k]? with
    | none => exact CEff.refl _ _ _ _
    | some t =>
      simp only
      by_cases hp : t.phase = .sending
      · rw [if_pos hp]
        exact .move _ k t (.answered ok) t.timer _ h (hp ▸ .sent ok)
          (fun id h1 h2 => absurd h2 h1) (fun _ _ h => h) rfl rfl rfl rfl
      · rw [if_neg hp]; exact CEff.refl _ _ _ _
  | rest k =>
    simp only [Cache.step]
    cases h : s.tasks[k]? with
    | none => exact CEff.refl _ _ _ _
    | some t =>
      simp only
      split
      · rename_i o hp
        exact .move _ k t _ t.timer _ h (hp ▸ .rest o) (fun id h1 h2 => absurd h2 h1) (fun _ _ h => h) rfl rfl rfl rfl
      · exact CEff.refl _ _ _ _
  | remove k =>
    simp only [Cache.step]
    cases h : s.tasks[k]? with
    | none => exact CEff.refl _ _ _ _
    | some t =>
      simp only
      split
      · rename_i till o hp
        by_cases hn : till ≤ s.now
        · rw [if_pos hn]
          refine .move _ k t .over t.timer _ h (hp ▸ .remove till o hn) ?_ ?_ rfl rfl rfl rfl
          swap
          · intro id k hi
            simp only [AMap.get_erase] at hi
            split at hi
            · cases hi
            · cases o with
              | false => exact hi
              | true =>
                simp only [if_true, AMap.get_erase] at hi
                split at hi
                · cases hi
                · exact hi
          intro id h1 h2
          refine ⟨rfl, (by rw [hp]; exact fun h => (by cases h)), ?_⟩
          by_cases hid : id = t.id
          · exact .inl hid
          · refine .inr ?_
            simp only [AMap.get_erase] at h2
            rw [if_neg hid] at h2
            cases o with
            | false => exact absurd h2 h1
            | true =>
              simp only [if_true, AMap.get_erase] at h2
              by_cases hid' : id = negateId t.id
              · exact hid'
              · rw [if_neg hid'] at h2; exact absurd h2 h1
        · rw [if_neg hn]; exact CEff.refl _ _ _ _
      · exact CEff.refl _ _ _ _
  | arm k =>
    simp only [Cache.step]
    cases h : s.tasks[k]? with
    | none => exact CEff.refl _ _ _ _
    | some t =>
      simp only
      split
      · exact .move _ k t t.phase _ _ h (.same _) (fun id h1 h2 => absurd h2 h1) (fun _ _ h => h) rfl rfl rfl rfl
      · exact CEff.refl _ _ _ _
  | fire k =>
    simp only [Cache.step]
    cases h : s.tasks[k]? with
    | none => exact CEff.refl _ _ _ _
    | some t =>
      simp only
      split
      · split
        · exact .move _ k t t.phase _ _ h (.same _)
            (fun id h1 h2 => absurd h2 (put_get_ne_none h1)) (fun _ _ h => put_incoming (fun _ e => by cases e) h)
            rfl rfl rfl rfl
        · exact CEff.refl _ _ _ _
      · exact CEff.refl _ _ _ _

/-- The task has run the handler, and if its sleep has begun, it is till `n` at least. -/
def Ran (n : Nat) : TaskPhase → Prop
  | .sending => True
  | .answered _ => True
  | .sleeping till _ => n ≤ till
  | _ => False

/-- Invariant for one transfer id, as long as no transfer with the negated id arrives. -/
structure WInv (interval : Nat) (x : Bytes) (s : Cache f) : Prop where
  calls : ∀ c ∈ s.calls, c.id ≠ negateId x
  ids : ∀ (i : Nat) (t : Task f), s.tasks[i]? = some t → t.id ≠ negateId x
  one : ∀ (i j : Nat) (t u : Task f), s.tasks[i]? = some t → s.tasks[j]? = some u → t.id = x → u.id = x →
    t.phase ≠ .over → u.phase ≠ .over → i = j
  listed : ∀ (i : Nat) (t : Task f), s.tasks[i]? = some t → t.id = x → t.phase ≠ .over →
    s.entries.get x ≠ none
  past : ∀ e ∈ s.runs, e.2.1 ≤ s.now
  runs : ∀ e ∈ s.runs, e.1 = x → e.2.1 + interval ≤ s.now ∨
    ∃ (i : Nat) (t : Task f), s.tasks[i]? = some t ∧ t.id = x ∧ Ran (e.2.1 + interval) t.phase
  apart : s.runs.Pairwise fun a b => a.1 = x → b.1 = x → a.2.1 + interval ≤ b.2.1

theorem Ran.active {n : Nat} {p : TaskPhase} (h : Ran n p) : p ≠ .over := by
  rintro rfl; exact h

theorem Moves.active {now interval : Nat} {p p' : TaskPhase} (h : Moves now interval p p')
    (ha : p' ≠ .over) : p ≠ .over := by
  cases h with
  | same => exact ha
  | _ => intro h; cases h

theorem Moves.ran {now interval n : Nat} {p p' : TaskPhase} (h : Moves now interval p p') (hn : n ≤ now)
    (hr : Ran (n + interval) p) : Ran (n + interval) p' ∨ n + interval ≤ now := by
  cases h with
  | same => exact .inl hr
  | received => exact hr.elim
  | finished => exact hr.elim
  | nothing => exact hr.elim
  | sent => exact .inl trivial
  | rest => exact .inl (Nat.add_le_add_right hn _)
  | remove till o ht => exact .inr (Nat.le_trans hr ht)

/-- One task changes and the handler is not run. -/
theorem WInv.update {interval : Nat} {x : Bytes} {s s' : Cache f} (h : WInv interval x s) {k : Nat}
    {t t' : Task f} (hk : s.tasks[k]? = some t) (hid : t'.id = t.id)
    (hm : Moves s.now interval t.phase t'.phase)
    (he : s.entries.get x ≠ none → s'.entries.get x = none →
      t'.phase = .over ∧ t.phase ≠ .over ∧ (x = t.id ∨ x = negateId t.id))
    (ht : s'.tasks = s.tasks.set k t') (hr : s'.runs = s.runs) (hn : s'.now = s.now)
    (hc : ∀ c ∈ s'.calls, c.id ≠ negateId x) : WInv interval x s' := by
  have get' : ∀ (i : Nat) (u : Task f), s'.tasks[i]? = some u →
      (i = k ∧ u = t') ∨ (i ≠ k ∧ s.tasks[i]? = some u) := by
    intro i u hi
    rw [ht, List.getElem?_set] at hi
    by_cases e : k = i
    · rw [if_pos e] at hi
      split at hi
      · exact .inl ⟨e.symm, (Option.some.inj hi).symm⟩
      · cases hi
    · rw [if_neg e] at hi
      exact .inr ⟨fun e' => e e'.symm, hi⟩
  -- the task before the step
  have before : ∀ (i : Nat) (u : Task f), s'.tasks[i]? = some u →
      ∃ u0, s.tasks[i]? = some u0 ∧ u0.id = u.id ∧ (u.phase ≠ .over → u0.phase ≠ .over) := by
    intro i u hi
    rcases get' i u hi with ⟨rfl, rfl⟩ | ⟨_, hi⟩
    · exact ⟨t, hk, hid.symm, hm.active⟩
    · exact ⟨u, hi, rfl, id⟩
  refine ⟨hc, ?_, ?_, ?_, ?_, ?_, ?_⟩
  · intro i u hi
    obtain ⟨u0, h1, h2, _⟩ := before i u hi
    rw [← h2]
    exact h.ids i u0 h1
  · intro i j u v hi hj hu hv au av
    obtain ⟨u0, h1, h2, h3⟩ := before i u hi
    obtain ⟨v0, k1, k2, k3⟩ := before j v hj
    exact h.one i j u0 v0 h1 k1 (h2.trans hu) (k2.trans hv) (h3 au) (k3 av)
  · intro i u hi hu au hnone
    obtain ⟨u0, h1, h2, h3⟩ := before i u hi
    obtain ⟨e1, e2, e3⟩ := he (h.listed i u0 h1 (h2.trans hu) (h3 au)) hnone
    have htx : t.id = x := by
      rcases e3 with e3 | e3
      · exact e3.symm
      · exact absurd (show t.id = negateId x by
          rw [e3]; unfold negateId; rw [List.map_map]
          conv => lhs; rw [← List.map_id t.id]
          exact List.map_congr_left fun b _ => by
            simp [UInt8.xor_assoc]) (h.ids k t hk)
    have := h.one i k u0 t h1 hk (h2.trans hu) htx (h3 au) e2
    subst this
    rcases get' _ u hi with ⟨_, rfl⟩ | ⟨e, _⟩
    · exact au e1
    · exact e rfl
  · rw [hr, hn]; exact h.past
  · rw [hr, hn]
    intro e hin hex
    rcases h.runs e hin hex with h1 | ⟨i, u, hi, hu, hran⟩
    · exact .inl h1
    · by_cases hik : i = k
      · subst hik
        rw [hk] at hi
        cases hi
        rcases hm.ran (h.past e hin) hran with h2 | h2
        · refine .inr ⟨i, t', ?_, hid.trans hu, h2⟩
          rw [ht, List.getElem?_set, if_pos rfl, if_pos (List.getElem?_eq_some_iff.1 hk).1]
        · exact .inl h2
      · refine .inr ⟨i, u, ?_, hu, hran⟩
        rw [ht, List.getElem?_set, if_neg (fun e => hik e.symm)]
        exact hi
  · rw [hr]; exact h.apart

theorem WInv.step (maxSize : Nat) {interval : Nat} {x : Bytes} {s : Cache f} (h : WInv interval x s)
    (a : CAct) (ha : ∀ m, a ≠ .arrive (negateId x) m) :
    WInv interval x (s.step maxSize interval a) := by
  have hcalls : ∀ cs : List Call, (∀ c ∈ cs, CallFrom s c) →
      ∀ c ∈ cs, c.id ≠ negateId x := by
    intro cs hcs c hc
    obtain ⟨c0, h1, h2, _⟩ := hcs c hc
    rw [h2]
    exact h.calls c0 h1
  have he := cstep_eff maxSize interval s a
  generalize s.step maxSize interval a = s' at he ⊢
  cases he with
  | calls a s' he ht hr hn hc =>
    refine ⟨?_, ?_, ?_, ?_, ?_, ?_, ?_⟩
    · intro c hin
      rcases hc c hin with ⟨c0, h1, h2, _⟩ | ⟨h1, _⟩
      · rw [h2]; exact h.calls c0 h1
      · intro e
        rw [e] at h1
        exact ha _ h1
    · rw [ht]; exact h.ids
    · rw [ht]; exact h.one
    · rw [ht, he]; exact h.listed
    · rw [hr]; exact fun e hin => Nat.le_trans (h.past e hin) hn
    · rw [hr, ht]
      intro e hin hex
      rcases h.runs e hin hex with h1 | h1
      · exact .inl (Nat.le_trans h1 hn)
      · exact .inr h1
    · rw [hr]; exact h.apart
  | create c call s' hc h0 he ht hr hn hcs =>
    have hidc : call.id ≠ negateId x := h.calls call (List.mem_of_getElem? hc)
    have get' : ∀ (i : Nat) (u : Task f), s'.tasks[i]? = some u → s.tasks[i]? = some u ∨
        (i = s.tasks.length ∧ u = ⟨call.id, Receiving.new f maxSize, [], .receiving, .idle⟩) := by
      intro i u hi
      rw [ht, List.getElem?_append] at hi
      split at hi
      · exact .inl hi
      · rename_i hlt
        have : i - s.tasks.length = 0 := by
          rcases Nat.eq_zero_or_pos (i - s.tasks.length) with h | h
          · exact h
          · rw [List.getElem?_eq_none (by simpa using (show 1 ≤ _ from h))] at hi; cases hi
        rw [this] at hi
        exact .inr ⟨by omega, (Option.some.inj hi).symm⟩
    refine ⟨?_, ?_, ?_, ?_, ?_, ?_, ?_⟩
    · intro c hin
      rcases hcs c hin with ⟨c0, h1, h2, _⟩ | ⟨h1, _⟩
      · rw [h2]; exact h.calls c0 h1
      · rw [h1]; exact hidc
    · intro i u hi
      rcases get' i u hi with h1 | ⟨_, rfl⟩
      · exact h.ids i u h1
      · exact hidc
    · intro i j u v hi hj hu hv au av
      rcases get' i u hi with h1 | ⟨e1, rfl⟩ <;> rcases get' j v hj with h2 | ⟨e2, rfl⟩
      · exact h.one i j u v h1 h2 hu hv au av
      · have hv' : call.id = x := hv
        exact absurd (hv' ▸ h0) (h.listed i u h1 hu au)
      · have hu' : call.id = x := hu
        exact absurd (hu' ▸ h0) (h.listed j v h2 hv av)
      · rw [e1, e2]
    · intro i u hi hu au
      rw [he]
      rcases get' i u hi with h1 | ⟨_, rfl⟩
      · exact put_get_ne_none (h.listed i u h1 hu au)
      · have hu' : call.id = x := hu
        rw [hu', AMap.get_put_self]
        intro e; cases e
    · rw [hr, hn]; exact h.past
    · rw [hr, hn]
      intro e hin hex
      rcases h.runs e hin hex with h1 | ⟨i, u, hi, hu⟩
      · exact .inl h1
      · refine .inr ⟨i, u, ?_, hu⟩
        rw [ht, List.getElem?_append_left (List.getElem?_eq_some_iff.1 hi).1]
        exact hi
    · rw [hr]; exact h.apart
  | deliver a c k call t s' hc hk hp hid he ht hr hn hcs =>
    exact h.update (t' := { t with queue := t.queue ++ [call.m] }) hk rfl (.same _) (fun h1 h2 => absurd (he ▸ h2) h1) ht hr hn (hcalls _ hcs)
  | take k t m q p s' hk hq hp hp' he ht hr hn hcs =>
    refine h.update (t' := { t with rcv := (t.rcv.step m).1, queue := q, phase := p }) hk rfl ?_ (fun h1 h2 => absurd (he ▸ h2) h1) ht hr hn (hcs ▸ h.calls)
    show Moves _ _ t.phase p
    rw [hp, hp']
    split
    · exact .received
    · exact .same _
  | move a k t p tm s' hk hm he hi ht hr hn hcs =>
    exact h.update (t' := { t with phase := p, timer := tm }) hk rfl hm (he x) ht hr hn (hcs ▸ h.calls)
  | run k b t p q s' hk h0 hp hq he hi ht hr hn hcs =>
    have hpa : p ≠ .over := by rcases hp with rfl | rfl <;> exact fun e => (by cases e)
    have hpr : ∀ n, Ran n p := by intro n; rcases hp with rfl | rfl <;> trivial
    have get' : ∀ (i : Nat) (u : Task f), s'.tasks[i]? = some u →
        ∃ u0, s.tasks[i]? = some u0 ∧ u0.id = u.id ∧ (u.phase ≠ .over → u0.phase ≠ .over) := by
      intro i u hi
      rw [ht, List.getElem?_set] at hi
      by_cases e : k = i
      · rw [if_pos e] at hi
        split at hi
        · subst e
          cases hi
          exact ⟨t, hk, rfl, fun _ => by rw [h0]; exact fun e => (by cases e)⟩
        · cases hi
      · rw [if_neg e] at hi
        exact ⟨u, hi, rfl, id⟩
    have hnew : s'.tasks[k]? = some { t with phase := p } := by
      rw [ht, List.getElem?_set, if_pos rfl, if_pos (List.getElem?_eq_some_iff.1 hk).1]
    have h0a : t.phase ≠ .over := by rw [h0]; exact fun e => (by cases e)
    -- earlier runs for the same id are long ago
    have old : t.id = x → ∀ e ∈ s.runs, e.1 = x → e.2.1 + interval ≤ s.now := by
      intro htx e hin hex
      rcases h.runs e hin hex with h1 | ⟨i, u, hi, hu, hran⟩
      · exact h1
      · have := h.one i k u t hi hk hu htx hran.active h0a
        subst this
        rw [hk] at hi
        cases hi
        rw [h0] at hran
        exact hran.elim
    refine ⟨hcs ▸ h.calls, ?_, ?_, ?_, ?_, ?_, ?_⟩
    · intro i u hi
      obtain ⟨u0, h1, h2, _⟩ := get' i u hi
      rw [← h2]
      exact h.ids i u0 h1
    · intro i j u v hi hj hu hv au av
      obtain ⟨u0, h1, h2, h3⟩ := get' i u hi
      obtain ⟨v0, k1, k2, k3⟩ := get' j v hj
      exact h.one i j u0 v0 h1 k1 (h2.trans hu) (k2.trans hv) (h3 au) (k3 av)
    · intro i u hi hu au
      obtain ⟨u0, h1, h2, h3⟩ := get' i u hi
      exact he x (h.listed i u0 h1 (h2.trans hu) (h3 au))
    · rw [hr, hn]
      intro e hin
      rcases List.mem_append.1 hin with hin | hin
      · exact h.past e hin
      · rw [List.mem_singleton] at hin
        subst hin
        exact Nat.le_refl _
    · rw [hr, hn]
      intro e hin hex
      rcases List.mem_append.1 hin with hin | hin
      · rcases h.runs e hin hex with h1 | ⟨i, u, hi, hu, hran⟩
        · exact .inl h1
        · by_cases hik : i = k
          · subst hik
            exact .inr ⟨i, _, hnew, (by rw [hk] at hi; cases hi; exact hu), hpr _⟩
          · refine .inr ⟨i, u, ?_, hu, hran⟩
            rw [ht, List.getElem?_set, if_neg (fun e => hik e.symm)]
            exact hi
      · rw [List.mem_singleton] at hin
        subst hin
        exact .inr ⟨k, _, hnew, hex, hpr _⟩
    · rw [hr, List.pairwise_append]
      refine ⟨h.apart, List.pairwise_singleton _ _, ?_⟩
      intro e hin e' hin' hex hex'
      rw [List.mem_singleton] at hin'
      subst hin'
      exact old hex' e hin hex

theorem WInv.init (interval : Nat) (x : Bytes) : WInv interval x (Cache.init f) := by
  refine ⟨?_, ?_, ?_, ?_, ?_, ?_, List.Pairwise.nil⟩
  · exact fun c hc => absurd hc List.not_mem_nil
  · intro i t hi; simp [Cache.init] at hi
  · intro i j t u hi; simp [Cache.init] at hi
  · intro i t hi; simp [Cache.init] at hi
  · exact fun c hc => absurd hc List.not_mem_nil
  · exact fun c hc => absurd hc List.not_mem_nil

theorem WInv.run (maxSize : Nat) {interval : Nat} {x : Bytes} (acts : List CAct)
    (ha : ∀ m, CAct.arrive (negateId x) m ∉ acts) : ∀ {s : Cache f}, WInv interval x s →
    WInv interval x (s.run maxSize interval acts) := by
  induction acts with
  | nil => intro s h; exact h
  | cons a acts ih =>
    intro s h
    exact ih (fun m hm => ha m (List.mem_cons_of_mem _ hm))
      (h.step maxSize a fun m e => ha m (e ▸ List.mem_cons_self))

end Verif.Rldp
