import Verif.Model.ChannelDrop

/-!
# C75: channels are dropped only after a silence (`src/adnl/node/mod.rs`, `src/adnl/channel.rs`)
-/
namespace Verif.ChannelDrop

/-! ### Specification: the stamp as the time of the first unanswered query -/

/-- For every channel, when the first query through it timed out since the last packet that came through
it. -/
def missStep (s : State) (miss : Nat → Option Nat) : Act → (Nat → Option Nat)
  | .create => fun j => if j = s.chans.length then none else miss j
  | .packet i => fun j => if j = i then none else miss j
  | .expire q =>
    match s.queries[q]? with
    | some (.waiting (some i)) => fun j => if j = i ∧ miss i = none then some s.now else miss j
    | _ => miss
  | _ => miss

/-- The first unanswered queries after a run. -/
def misses (timeout : Nat) : State → (Nat → Option Nat) → List Act → (Nat → Option Nat)
  | _, miss, [] => miss
  | s, miss, a :: as => misses timeout (step timeout s a) (missStep s miss a) as

/-! ### Invariant -/

structure Inv (timeout : Nat) (s : State) (miss : Nat → Option Nat) : Prop where
  pos : 0 < s.now
  refs : ∀ (q i : Nat), (s.queries[q]? = some (.waiting (some i)) ∨ s.queries[q]? = some (.resetting i)) →
    i < s.chans.length
  cur : ∀ i, s.current = some i → i < s.chans.length
  stamp : ∀ (i : Nat) (ch : Chan), s.chans[i]? = some ch → ch.drop = (match miss i with | none => 0 | some t => t + timeout)
  missed : ∀ (i : Nat) (ch : Chan) (t : Nat), s.chans[i]? = some ch → miss i = some t → 0 < t ∧ ch.lastPacket ≤ t ∧ t ≤ s.now
  last : ∀ (i : Nat) (ch : Chan), s.chans[i]? = some ch → ch.lastPacket ≤ s.now

theorem getElem?_set' {α : Type} {l : List α} {i j : Nat} {x y : α} (h : (l.set i x)[j]? = some y) :
    (j = i ∧ y = x) ∨ (j ≠ i ∧ l[j]? = some y) := by
  rw [List.getElem?_set] at h
  split at h
  · rename_i e
    split at h
    · cases h; exact .inl ⟨e.symm, rfl⟩
    · cases h
  · rename_i e
    exact .inr ⟨fun e' => e e'.symm, h⟩

theorem Inv.setQuery {timeout : Nat} {s : State} {miss : Nat → Option Nat} (h : Inv timeout s miss) (q : Nat)
    (x : Query) (hx : ∀ i, (x = .waiting (some i) ∨ x = .resetting i) → i < s.chans.length) :
    Inv timeout { s with queries := s.queries.set q x } miss := by
  refine { h with refs := ?_ }
  intro q' i hq
  rcases hq with hq | hq <;> rcases getElem?_set' hq with ⟨-, e⟩ | ⟨-, e⟩
  · exact hx i (.inl e.symm)
  · exact h.refs q' i (.inl e)
  · exact hx i (.inr e.symm)
  · exact h.refs q' i (.inr e)

theorem Inv.step {timeout : Nat} {s : State} {miss : Nat → Option Nat} (h : Inv timeout s miss) (a : Act) :
    Inv timeout (step timeout s a) (missStep s miss a) := by
  cases a with
  | tick d =>
    simp only [ChannelDrop.step, missStep]
    refine { h with pos := ?_, missed := ?_, last := ?_ }
    · have := h.pos; show 0 < s.now + d; omega
    · intro i ch t h1 h2
      obtain ⟨a1, a2, a3⟩ := h.missed i ch t h1 h2
      exact ⟨a1, a2, Nat.le_trans a3 (Nat.le_add_right _ _)⟩
    · intro i ch h1
      exact Nat.le_trans (h.last i ch h1) (Nat.le_add_right _ _)
  | create =>
    simp only [ChannelDrop.step, missStep]
    have old : ∀ i ch, (s.chans ++ [(⟨0, s.now⟩ : Chan)])[i]? = some ch →
        (i = s.chans.length ∧ ch = ⟨0, s.now⟩) ∨ (i ≠ s.chans.length ∧ s.chans[i]? = some ch) := by
      intro i ch hi
      rw [List.getElem?_append] at hi
      split at hi
      · exact .inr ⟨by omega, hi⟩
      · have hlt := (List.getElem?_eq_some_iff.mp hi).1
        simp only [List.length_singleton] at hlt
        have e : i = s.chans.length := by omega
        subst e
        simp at hi
        exact .inl ⟨rfl, hi.symm⟩
    refine ⟨h.pos, ?_, ?_, ?_, ?_, ?_⟩
    · intro q i hq
      have := h.refs q i hq
      simp only [List.length_append, List.length_singleton]
      omega
    · intro i hi
      cases hi
      simp
    · intro i ch hi
      rcases old i ch hi with ⟨e1, e2⟩ | ⟨e1, e2⟩
      · subst e2; simp [e1]
      · simp only [if_neg e1]; exact h.stamp i ch e2
    · intro i ch t hi hm
      rcases old i ch hi with ⟨e1, e2⟩ | ⟨e1, e2⟩
      · simp [e1] at hm
      · simp only [if_neg e1] at hm; exact h.missed i ch t e2 hm
    · intro i ch hi
      rcases old i ch hi with ⟨e1, e2⟩ | ⟨e1, e2⟩
      · subst e2; exact Nat.le_refl _
      · exact h.last i ch e2
  | remove =>
    simp only [ChannelDrop.step, missStep]
    exact { h with cur := by intro i hi; cases hi }
  | packet i =>
    simp only [ChannelDrop.step, missStep]
    split
    · rename_i ch0 hch
      refine ⟨h.pos, ?_, ?_, ?_, ?_, ?_⟩
      · intro q j hq; rw [List.length_set]; exact h.refs q j hq
      · intro j hj; rw [List.length_set]; exact h.cur j hj
      · intro j ch hj
        rcases getElem?_set' hj with ⟨e1, e2⟩ | ⟨e1, e2⟩
        · subst e2; simp [e1]
        · simp only [if_neg e1]; exact h.stamp j ch e2
      · intro j ch t hj hm
        rcases getElem?_set' hj with ⟨e1, e2⟩ | ⟨e1, e2⟩
        · simp [e1] at hm
        · simp only [if_neg e1] at hm; exact h.missed j ch t e2 hm
      · intro j ch hj
        rcases getElem?_set' hj with ⟨e1, e2⟩ | ⟨e1, e2⟩
        · subst e2; exact Nat.le_refl _
        · exact h.last j ch e2
    · rename_i hch
      have hne : ∀ j ch, s.chans[j]? = some ch → j ≠ i := by
        intro j ch hj e; subst e; rw [hch] at hj; cases hj
      refine { h with stamp := ?_, missed := ?_ }
      · intro j ch hj; simp only [if_neg (hne j ch hj)]; exact h.stamp j ch hj
      · intro j ch t hj hm
        simp only [if_neg (hne j ch hj)] at hm
        exact h.missed j ch t hj hm
  | query =>
    simp only [ChannelDrop.step, missStep]
    refine { h with refs := ?_ }
    intro q i hq
    have : ∀ x, (s.queries ++ [Query.sent])[q]? = some x → x ≠ .sent → s.queries[q]? = some x := by
      intro x hx hn
      rw [List.getElem?_append] at hx
      split at hx
      · exact hx
      · have hlt := (List.getElem?_eq_some_iff.mp hx).1
        simp only [List.length_singleton] at hlt
        have e : q - s.queries.length = 0 := by omega
        rw [e] at hx
        simp at hx
        exact absurd hx.symm hn
    exact h.refs q i (hq.imp (fun e => this _ e nofun) (fun e => this _ e nofun))
  | find q =>
    simp only [ChannelDrop.step, missStep]
    split
    · refine h.setQuery q _ ?_
      rintro i (e | e)
      · exact h.cur i (by injection e)
      · cases e
    · exact h
  | answer q =>
    simp only [ChannelDrop.step, missStep]
    split
    · refine h.setQuery q _ ?_
      rintro i (e | e) <;> cases e
    · exact h
  | expire q =>
    simp only [ChannelDrop.step, missStep]
    split
    · rename_i c hq
      cases c with
      | none =>
        simp only [expireStep, hq]
        refine h.setQuery q _ ?_
        rintro i (e | e) <;> cases e
      | some i =>
        have hi := h.refs q i (.inl hq)
        obtain ⟨ch, hch⟩ : ∃ ch, s.chans[i]? = some ch := ⟨_, List.getElem?_eq_getElem hi⟩
        simp only [expireStep, hch, hq]
        have hst := h.stamp i ch hch
        have hq' := h.setQuery q (if (updateDrop ch.drop s.now timeout).2 then .resetting i else .done) (by
          intro j hj
          split at hj
          · rcases hj with e | e
            · cases e
            · cases e; exact hi
          · rcases hj with e | e <;> cases e)
        refine ⟨h.pos, ?_, ?_, ?_, ?_, ?_⟩
        · intro q' j hj
          rw [List.length_set]
          exact hq'.refs q' j hj
        · intro j hj; rw [List.length_set]; exact h.cur j hj
        · intro j ch' hj
          rcases getElem?_set' hj with ⟨e1, e2⟩ | ⟨e1, e2⟩
          · subst e1
            subst e2
            show (updateDrop ch.drop s.now timeout).1 = _
            cases hm : miss j with
            | none =>
              rw [hm] at hst
              simp [updateDrop, hst]
            | some t =>
              rw [hm] at hst
              obtain ⟨a1, -, -⟩ := h.missed j ch t hch hm
              simp only at hst
              simp only [updateDrop, reduceCtorEq, and_false, if_false]
              rw [if_neg (by omega)]
              exact hst
          · simp only [show ¬ (j = i ∧ miss i = none) from fun e => e1 e.1, if_false]
            exact h.stamp j ch' e2
        · intro j ch' t hj hm
          rcases getElem?_set' hj with ⟨e1, e2⟩ | ⟨e1, e2⟩
          · subst e1
            subst e2
            cases hm' : miss j with
            | none =>
              simp only [hm', and_self, if_true, Option.some.injEq] at hm
              subst hm
              exact ⟨h.pos, h.last j ch hch, Nat.le_refl _⟩
            | some t' =>
              simp only [hm', reduceCtorEq, and_false, if_false] at hm
              cases hm
              exact h.missed j ch t hch hm'
          · simp only [show ¬ (j = i ∧ miss i = none) from fun e => e1 e.1, if_false] at hm
            exact h.missed j ch' t e2 hm
        · intro j ch' hj
          rcases getElem?_set' hj with ⟨e1, e2⟩ | ⟨e1, e2⟩
          · subst e1; subst e2; exact h.last j ch hch
          · exact h.last j ch' e2
    · rename_i hn
      split
      · rename_i i hq
        exact absurd hq (hn _)
      · exact h
  | reset q =>
    simp only [ChannelDrop.step, missStep]
    split
    · have h' := h.setQuery q .done (by rintro i (e | e) <;> cases e)
      exact { pos := h'.pos, refs := h'.refs, cur := (by intro i hi; cases hi),
              stamp := h'.stamp, missed := h'.missed, last := h'.last }
    · exact h

theorem Inv.run {timeout : Nat} (as : List Act) : ∀ {s : State} {miss : Nat → Option Nat}, Inv timeout s miss →
    Inv timeout (run timeout s as) (misses timeout s miss as) := by
  induction as with
  | nil => exact fun h => h
  | cons a as ih => exact fun h => ih (h.step a)

theorem Inv.init (timeout now : Nat) (h : 0 < now) : Inv timeout (State.init now) (fun _ => none) := by
  refine ⟨h, ?_, ?_, ?_, ?_, ?_⟩ <;> simp [State.init]

/-! ### Theorems -/

/-- **C75 (decision)** In every execution, a query that times out decides to reset the pair if and only if
the first query that timed out through the same channel since the last packet did so more than the timeout
ago. -/
theorem C75_decision (timeout now : Nat) (hnow : 0 < now) (as : List Act) (q i : Nat)
    (hq : (run timeout (State.init now) as).queries[q]? = some (.waiting (some i))) :
    let s := run timeout (State.init now) as
    (step timeout s (.expire q)).queries[q]? =
      some (if ∃ t, misses timeout (State.init now) (fun _ => none) as i = some t ∧ t + timeout < s.now
        then .resetting i else .done) := by
  have h := (Inv.init timeout now hnow).run as
  generalize run timeout (State.init now) as = s at *
  generalize misses timeout (State.init now) (fun _ => none) as = miss at *
  have hi := h.refs q i (.inl hq)
  have hql : q < s.queries.length := (List.getElem?_eq_some_iff.mp hq).1
  obtain ⟨ch, hch⟩ : ∃ ch, s.chans[i]? = some ch := ⟨_, List.getElem?_eq_getElem hi⟩
  have hst := h.stamp i ch hch
  simp only [step, hq, expireStep, hch]
  rw [List.getElem?_set, if_pos rfl, if_pos hql]
  congr 1
  cases hm : miss i with
  | none =>
    rw [hm] at hst
    simp [updateDrop, hst]
  | some t =>
    rw [hm] at hst
    obtain ⟨a1, -, -⟩ := h.missed i ch t hch hm
    simp only at hst
    simp only [updateDrop, if_neg (show ¬ ch.drop = 0 by omega), Option.some.injEq, exists_eq_left']
    by_cases hlt : t + timeout < s.now
    · rw [if_pos hlt, if_pos (by simp; omega)]
    · rw [if_neg hlt, if_neg (by simp; omega)]

/-- C75 as stated: a reset drops a channel only if nothing came through it for longer than the timeout. -/
def C75_full : Prop := ∀ (timeout now : Nat) (as : List Act) (q i k : Nat) (ch : Chan), 0 < now →
  let s := run timeout (State.init now) as
  s.queries[q]? = some (.resetting i) → s.current = some k → s.chans[k]? = some ch →
  ch.lastPacket + timeout < s.now

/-- A query goes through channel 0 and times out; a second one is still waiting when the other side makes a
new channel, 29 seconds later; it times out after 31 seconds, and the pair is reset although a packet has
just come through the new channel. -/
def staleRun : List Act :=
  [.create, .query, .query, .find 0, .find 1, .expire 0, .tick 29, .create, .tick 2, .packet 1, .expire 1]

theorem C75_full_false : ¬ C75_full := by
  intro h
  have := h 30 1000 staleRun 1 0 1 ⟨0, 1031⟩ (by decide) (by decide) (by decide) (by decide)
  revert this
  decide

/-- **C75 (partial)** When a query decides to reset the pair, no packet has come through the channel it was
sent with for longer than the timeout. So the claim holds if that is still the channel of the pair. Missing:
the channel may have been replaced by a newer, active one. -/
theorem C75_silent_partial (timeout now : Nat) (hnow : 0 < now) (as : List Act) (q i : Nat) (ch : Chan)
    (hq : (run timeout (State.init now) as).queries[q]? = some (.waiting (some i)))
    (hch : (run timeout (State.init now) as).chans[i]? = some ch)
    (hr : (step timeout (run timeout (State.init now) as) (.expire q)).queries[q]? = some (.resetting i)) :
    ch.lastPacket + timeout < (run timeout (State.init now) as).now := by
  have hd := C75_decision timeout now hnow as q i hq
  have h := (Inv.init timeout now hnow).run as
  simp only [hr] at hd
  split at hd
  · rename_i he
    obtain ⟨t, h1, h2⟩ := he
    obtain ⟨-, a2, -⟩ := h.missed i ch t hch h1
    omega
  · cases hd

/-- **C75 (one missed answer is not enough)** The first query that times out after a packet came through
the channel never resets the pair. -/
theorem C75_first_miss_keeps (timeout now : Nat) (hnow : 0 < now) (as : List Act) (q i : Nat)
    (hq : (run timeout (State.init now) as).queries[q]? = some (.waiting (some i)))
    (hm : misses timeout (State.init now) (fun _ => none) as i = none) :
    (step timeout (run timeout (State.init now) as) (.expire q)).queries[q]? = some .done := by
  have hd := C75_decision timeout now hnow as q i hq
  simp only [hm] at hd
  simpa using hd

/-- **C75 (dead channels are dropped)** If a query through the channel timed out more than the timeout ago
and nothing came through since, the next query that times out resets the pair: then it has no channel. -/
theorem C75_dead_channel_dropped (timeout now : Nat) (hnow : 0 < now) (as : List Act) (q i t : Nat)
    (hq : (run timeout (State.init now) as).queries[q]? = some (.waiting (some i)))
    (hm : misses timeout (State.init now) (fun _ => none) as i = some t)
    (ht : t + timeout < (run timeout (State.init now) as).now) :
    (run timeout (run timeout (State.init now) as) [.expire q, .reset q]).current = none := by
  have hd := C75_decision timeout now hnow as q i hq
  simp only at hd
  rw [if_pos ⟨t, hm, ht⟩] at hd
  simp only [run, List.foldl_cons, List.foldl_nil] at hd ⊢
  generalize step timeout (List.foldl (step timeout) (State.init now) as) (.expire q) = s' at hd
  simp only [step, hd]

/-- The channel stays silent: one query at the start, a second one after 31 seconds. -/
example : let as : List Act := [.create, .query, .find 0, .expire 0, .tick 31, .query, .find 1]
    (run 30 (State.init 1000) as).queries[1]? = some (.waiting (some 0)) ∧
    misses 30 (State.init 1000) (fun _ => none) as 0 = some 1000 ∧
    (run 30 (State.init 1000) (as ++ [.expire 1])).queries[1]? = some (.resetting 0) ∧
    (run 30 (State.init 1000) (as ++ [.expire 1, .reset 1])).current = none := by decide

/-- A packet in between keeps it. -/
example : let as : List Act := [.create, .query, .find 0, .expire 0, .tick 20, .packet 0, .tick 11, .query, .find 1]
    misses 30 (State.init 1000) (fun _ => none) as 0 = none ∧
    (run 30 (State.init 1000) (as ++ [.expire 1])).queries[1]? = some .done := by decide

-- C75_decision, C75_silent_partial (the first run above) and C75_first_miss_keeps (the second)
example := C75_decision 30 1000 (by decide) [.create, .query, .find 0, .expire 0, .tick 31, .query, .find 1] 1 0 (by decide)
example (ch : Chan)
    (h : (run 30 (State.init 1000) [.create, .query, .find 0, .expire 0, .tick 31, .query, .find 1]).chans[0]? = some ch) :=
  C75_silent_partial 30 1000 (by decide) [.create, .query, .find 0, .expire 0, .tick 31, .query, .find 1] 1 0 ch (by decide) h
    (by decide)
example := C75_first_miss_keeps 30 1000 (by decide)
  [.create, .query, .find 0, .expire 0, .tick 20, .packet 0, .tick 11, .query, .find 1] 1 0 (by decide) (by decide)

end Verif.ChannelDrop
