import Verif.Props.OverlayConcEnd

/-!
# C143: a node does not deliver the broadcasts it sent itself
-/
namespace Verif.Overlay.Conc
open Verif.Tl Verif.AdnlProto Verif.Rldp Verif.Overlay

variable {c : Crypto} {f : Fec}

/-! ### Specification -/

/-- The next step of the `k`-th task marks the broadcast `bid` as one sent by this node: the task is at
`create_broadcast`, and the broadcast is not known. -/
def Marks (c : Crypto) (f : Fec) (e : Env) (as : List Act) (k : Nat) (bid : Bytes) : Prop :=
  (run c f e (State.init c f) as).threads[k]? = some (.own bid) ∧
  (run c f e (State.init c f) as).shared.owned.get bid = none

/-- Nothing is under way for the broadcast: no receiving task of it is in its loop, and no task has created it and not
yet passed it on. -/
def Unheard (c : Crypto) (f : Fec) (e : Env) (as : List Act) (bid : Bytes) : Prop :=
  (∀ t ∈ (run c f e (State.init c f) as).shared.transfers, t.bid = bid → t.phase ≠ .running) ∧
  ∀ th ∈ (run c f e (State.init c f) as).threads, (∀ data source, th ≠ .created bid data source) ∧ th ≠ .pushed bid

/-- A packet that a task has in hand after it was looked up. -/
def Thread.part : Thread c → Option FecPart
  | .refresh _ _ b | .deliver _ _ b | .load _ _ b | .send _ _ b | .forward _ b => some b
  | _ => none

/-- What is seen from the moment on at which a node marks a broadcast as its own: the node gives it to its own
application, or passes it on, only after it has forgotten it, and as often as it forgets it at most; and it passes on no
packet of it before. -/
def C143_full : Prop :=
  ∀ (c : Crypto) (f : Fec) (e : Env) (as bs : List Act) (k : Nat) (bid : Bytes), Marks c f e as k bid →
    ∃ news, history c f e (as ++ .thread k :: bs) = history c f e as ++ news ∧
      news.countP (Event.isDelivered bid) ≤ news.countP (Event.isForgotten bid) ∧
      news.countP (Event.isPassed bid) ≤ news.countP (Event.isForgotten bid) ∧
      (Event.forgotten bid ∉ news → ∀ b, Event.passedPart b ∈ news → b.dataHash ≠ bid)

/-! ### Proof -/

theorem run_from (e : Env) (as : List Act) (k : Nat) (bs : List Act) :
    run c f e (State.init c f) (as ++ .thread k :: bs) =
      run c f e (step c f e (run c f e (State.init c f) as) (.thread k)) bs := by
  unfold run; rw [List.foldl_append]; rfl

theorem step_log (e : Env) (s : State c f) (a : Act) : ∃ news, (step c f e s a).log = s.log ++ news := by
  cases a with
  | thread k =>
    simp only [step]
    split
    · exact ⟨[], by simp⟩
    · exact ⟨_, rfl⟩
  | task i =>
    simp only [step, receiverStep]
    split
    · exact ⟨[], by simp⟩
    · split
      · exact ⟨[], by simp⟩
      · exact ⟨_, rfl⟩
  | gcPop => exact ⟨_, rfl⟩
  | _ => exact ⟨[], by simp [step]⟩

theorem run_log (e : Env) (as : List Act) : ∀ (s : State c f), ∃ news, (run c f e s as).log = s.log ++ news := by
  induction as with
  | nil => intro s; exact ⟨[], by simp [run]⟩
  | cons a as ih =>
    intro s
    obtain ⟨n1, h1⟩ := step_log e s a
    obtain ⟨n2, h2⟩ := ih (step c f e s a)
    refine ⟨n1 ++ n2, ?_⟩
    show (run c f e (step c f e s a) as).log = _
    rw [h2, h1, List.append_assoc]

theorem run_pays (e : Env) (bid : Bytes) (as : List Act) : ∀ (s : State c f), Bounded bid s (run c f e s as) := by
  induction as with
  | nil => intro s; exact ⟨Nat.le_refl _, Nat.le_refl _⟩
  | cons a as ih =>
    intro s
    obtain ⟨h1, h2⟩ := step_bounded e s a bid
    obtain ⟨h3, h4⟩ := ih (step c f e s a)
    refine ⟨?_, ?_⟩
    · show given bid (run c f e (step c f e s a) as) + _ ≤ _ + times bid (run c f e (step c f e s a) as)
      omega
    · show passing bid (run c f e (step c f e s a) as) + _ ≤ _ + times bid (run c f e (step c f e s a) as)
      omega

theorem marks_step {e : Env} {as : List Act} {k : Nat} {bid : Bytes} (h : Marks c f e as k bid) :
    step c f e (run c f e (State.init c f) as) (.thread k) =
      { shared := { (run c f e (State.init c f) as).shared with
          owned := (run c f e (State.init c f) as).shared.owned.put bid .other }
        threads := (run c f e (State.init c f) as).threads.set k (.cleaning bid)
        log := (run c f e (State.init c f) as).log ++ [] } := by
  obtain ⟨h1, h2⟩ := h
  simp only [step, h1, threadStep, h2]

/-- The node remembers the broadcast as its own, and no task has a packet of it in hand. -/
def Own (bid : Bytes) (s : State c f) : Prop :=
  s.shared.owned.get bid = some .other ∧ ∀ th ∈ s.threads, ∀ b, th.part = some b → b.dataHash ≠ bid

/-- What a step does while the broadcast is the node's own. -/
def OwnStep (bid : Bytes) (s s' : State c f) : Prop :=
  ∃ news, s'.log = s.log ++ news ∧ (∀ b, Event.passedPart b ∈ news → b.dataHash ≠ bid) ∧
    (Own bid s' ∨ Event.forgotten bid ∈ news)

theorem ownStep_same {bid : Bytes} {s s' : State c f} (h : Own bid s) {news : List Event} (hl : s'.log = s.log ++ news)
    (hn : ∀ b, Event.passedPart b ∉ news) (ho : s'.shared.owned.get bid = some .other) (ht : s'.threads = s.threads) :
    OwnStep bid s s' :=
  ⟨news, hl, fun b hb => absurd hb (hn b), .inl ⟨ho, by rw [ht]; exact h.2⟩⟩

theorem threadStep_own {bid : Bytes} {e : Env} {s : Overlay.State c f} (ho : s.owned.get bid = some .other)
    {th : Thread c} (hth : ∀ b, th.part = some b → b.dataHash ≠ bid) :
    (threadStep c f e s th).1.owned.get bid = some .other ∧
    (∀ b, (threadStep c f e s th).2.1.part = some b → b.dataHash ≠ bid) ∧
    ∀ b, Event.passedPart b ∈ (threadStep c f e s th).2.2 → b.dataHash ≠ bid := by
  have no : ∀ b : FecPart, (none : Option FecPart) = some b → b.dataHash ≠ bid := fun _ h => by cases h
  have nil : ∀ b, Event.passedPart b ∈ ([] : List Event) → b.dataHash ≠ bid := fun _ h => absurd h List.not_mem_nil
  have failed : ∀ b, Event.passedPart b ∈ [Event.failed] → b.dataHash ≠ bid := fun _ h => by simp at h
  have put : ∀ x v, s.owned.get x = none → (s.owned.put x v).get bid = some .other := by
    intro x v hx
    have : bid ≠ x := by rintro rfl; rw [ho] at hx; cases hx
    rw [AMap.get_put_ne _ _ this]
    exact ho
  cases th with
  | ordinary now b =>
    simp only [threadStep]
    split
    · exact ⟨ho, no, nil⟩
    · exact ⟨ho, no, failed⟩
    · split
      · exact ⟨ho, no, nil⟩
      · next hx => exact ⟨put _ _ hx, no, nil⟩
  | created x data source =>
    refine ⟨ho, no, ?_⟩
    intro b hb
    simp [threadStep] at hb
  | pushed x =>
    refine ⟨ho, no, ?_⟩
    intro b hb
    simp [threadStep] at hb
  | cleaning x => exact ⟨ho, no, nil⟩
  | own x =>
    simp only [threadStep]
    split
    · exact ⟨ho, no, nil⟩
    · next hx => exact ⟨put _ _ hx, no, nil⟩
  | fec now b =>
    simp only [threadStep]
    split
    · exact ⟨ho, no, failed⟩
    · exact ⟨ho, no, nil⟩
    · split
      · exact ⟨ho, no, failed⟩
      · split
        · exact ⟨ho, no, failed⟩
        · split
          · next i hx =>
            refine ⟨ho, ?_, nil⟩
            intro b' hb'
            simp only [Thread.part, Option.some.injEq] at hb'
            subst hb'
            intro h
            rw [h, ho] at hx
            cases hx
          · exact ⟨ho, no, nil⟩
          · next hx =>
            refine ⟨put _ _ hx, ?_, nil⟩
            intro b' hb'
            simp only [Thread.part, Option.some.injEq] at hb'
            subst hb'
            intro h
            rw [h, ho] at hx
            cases hx
  | refresh i pub b =>
    simp only [threadStep]
    split
    · exact ⟨ho, no, nil⟩
    · split
      · exact ⟨ho, no, nil⟩
      · exact ⟨ho, fun b' hb' => hth b' hb', nil⟩
  | deliver i pub b =>
    simp only [threadStep]
    split
    · exact ⟨ho, no, nil⟩
    · refine ⟨ho, ?_, nil⟩
      split
      · exact fun b' hb' => hth b' hb'
      · exact no
  | load i pub b =>
    simp only [threadStep]
    split
    · exact ⟨ho, no, nil⟩
    · refine ⟨ho, ?_, nil⟩
      split <;> exact fun b' hb' => hth b' hb'
  | send i pub b =>
    simp only [threadStep]
    split
    · exact ⟨ho, no, nil⟩
    · split
      · exact ⟨ho, no, failed⟩
      · exact ⟨ho, fun b' hb' => hth b' hb', nil⟩
  | forward i b =>
    refine ⟨ho, no, ?_⟩
    intro b' hb'
    simp only [threadStep, List.mem_singleton, Event.passedPart.injEq] at hb'
    subst hb'
    exact hth _ rfl
  | done => exact ⟨ho, no, nil⟩

theorem task_owned (e : Env) (s : Overlay.State c f) (i : Nat) : (taskStep c f e s i).1.owned = s.owned := by
  unfold taskStep
  split
  · rfl
  · split
    · rfl
    · split
      · split <;> rfl
      · split <;> rfl

theorem mark_owned (s : Overlay.State c f) (i : Nat) : (markStep c f s i).owned = s.owned := by
  unfold markStep
  split
  · rfl
  · split
    · rfl
    · simp only
      split
      · split <;> rfl
      · rfl

theorem own_step {bid : Bytes} {e : Env} {s : State c f} (h : Own bid s) (a : Act) :
    OwnStep bid s (step c f e s a) := by
  have spawn : ∀ th : Thread c, th.part = none → OwnStep bid s { s with threads := s.threads ++ [th] } := by
    intro th hth
    refine ⟨[], by simp, fun b hb => absurd hb List.not_mem_nil, .inl ⟨h.1, ?_⟩⟩
    intro x hx b hb
    rcases List.mem_append.mp hx with hx | hx
    · exact h.2 x hx b hb
    · simp only [List.mem_singleton] at hx
      subst hx; rw [hth] at hb; cases hb
  cases a with
  | ordinary now b => exact spawn _ rfl
  | fec now b => exact spawn _ rfl
  | own x => exact spawn _ rfl
  | thread k =>
    simp only [step]
    split
    · exact ownStep_same h (news := []) (by simp) (by simp) h.1 rfl
    · next th hth =>
      obtain ⟨h1, h2, h3⟩ := threadStep_own (e := e) h.1 (h.2 th (List.mem_of_getElem? hth))
      refine ⟨_, rfl, h3, .inl ⟨h1, ?_⟩⟩
      intro x hx b hb
      rcases mem_set hx with hx | rfl
      · exact h.2 x hx b hb
      · exact h2 b hb
  | task i =>
    simp only [step, receiverStep]
    split
    · exact ownStep_same h (news := []) (by simp) (by simp) h.1 rfl
    · split
      · exact ownStep_same h (news := []) (by simp) (by simp) h.1 rfl
      · refine ownStep_same h rfl ?_ (by simp only [task_owned]; exact h.1) rfl
        intro b hb
        simp at hb
  | mark i => exact ownStep_same h (news := []) (by simp [step]) (by simp) (by simp only [step, Overlay.step, mark_owned]; exact h.1) rfl
  | cleanup i =>
    refine ownStep_same h (news := []) (by simp [step]) (by simp) ?_ rfl
    simp only [step, Overlay.step, cleanupStep]
    split
    · exact h.1
    · split
      · exact h.1
      · split <;> exact h.1
  | tick ms => exact ownStep_same h (news := []) (by simp [step]) (by simp) h.1 rfl
  | expire i =>
    refine ownStep_same h (news := []) (by simp [step]) (by simp) ?_ rfl
    simp only [step, Overlay.step]
    split
    · exact h.1
    · split <;> exact h.1
  | push i =>
    refine ownStep_same h (news := []) (by simp [step]) (by simp) ?_ rfl
    simp only [step, Overlay.step]
    split <;> exact h.1
  | gcCheck =>
    refine ownStep_same h (news := []) (by simp [step]) (by simp) ?_ rfl
    simp only [step, Overlay.step]
    split <;> exact h.1
  | gcPop =>
    refine ⟨forgets c f s.shared, rfl, ?_, ?_⟩
    · intro b hb
      unfold forgets at hb
      split at hb
      · split at hb
        · simp at hb
        · split at hb <;> simp at hb
      · simp at hb
    · by_cases hg : s.shared.gc = .pop
      · cases hq : s.shared.queue with
        | nil =>
          refine .inl ⟨?_, h.2⟩
          simp only [step, Overlay.step, hg, hq, if_true]
          exact h.1
        | cons x rest =>
          by_cases hx : x = bid
          · right
            subst hx
            unfold forgets
            simp [hg, hq, h.1]
          · refine .inl ⟨?_, h.2⟩
            simp only [step, Overlay.step, hg, hq, if_true]
            rw [AMap.get_erase, if_neg (fun e => hx e.symm)]
            exact h.1
      · refine .inl ⟨?_, h.2⟩
        simp only [step, Overlay.step, if_neg hg]
        exact h.1
  | gcSub =>
    refine ownStep_same h (news := []) (by simp [step]) (by simp) ?_ rfl
    simp only [step, Overlay.step]
    split <;> exact h.1

theorem own_run {bid : Bytes} (e : Env) (as : List Act) : ∀ {s : State c f}, Own bid s →
    ∃ news, (run c f e s as).log = s.log ++ news ∧
      (Event.forgotten bid ∉ news → ∀ b, Event.passedPart b ∈ news → b.dataHash ≠ bid) := by
  induction as with
  | nil => intro s _; exact ⟨[], by simp [run], fun _ b hb => absurd hb List.not_mem_nil⟩
  | cons a as ih =>
    intro s h
    obtain ⟨n1, h1, h2, h3⟩ := own_step (e := e) h a
    rcases h3 with h3 | h3
    · obtain ⟨n2, h4, h5⟩ := ih h3
      refine ⟨n1 ++ n2, ?_, ?_⟩
      · show (run c f e (step c f e s a) as).log = _
        rw [h4, h1, List.append_assoc]
      · intro hf b hb
        rcases List.mem_append.mp hb with hb | hb
        · exact h2 b hb
        · exact h5 (fun h => hf (List.mem_append_right _ h)) b hb
    · obtain ⟨n2, h4⟩ := run_log e as (step c f e s a)
      refine ⟨n1 ++ n2, ?_, fun hf => absurd (List.mem_append_left _ h3) hf⟩
      show (run c f e (step c f e s a) as).log = _
      rw [h4, h1, List.append_assoc]

/-! ### Claims -/

/-- From the moment on at which a node marks a broadcast as its own, if nothing is under way for it, the node gives it
to its own application, and passes it on, at most as often as it has forgotten it. -/
theorem C143_own_partial (e : Env) (as bs : List Act) (k : Nat) (bid : Bytes) (hm : Marks c f e as k bid)
    (hu : Unheard c f e as bid) :
    ∃ news, history c f e (as ++ .thread k :: bs) = history c f e as ++ news ∧
      news.countP (Event.isDelivered bid) ≤ news.countP (Event.isForgotten bid) ∧
      news.countP (Event.isPassed bid) ≤ news.countP (Event.isForgotten bid) := by
  unfold history
  rw [run_from, marks_step hm]
  generalize hσ : run c f e (State.init c f) as = σ at *
  generalize hs : State.mk _ _ _ = s
  obtain ⟨news, hn⟩ := run_log e bs s
  obtain ⟨h1, h2⟩ := run_pays e bid bs s
  have hlog : s.log = σ.log := by rw [← hs]; simp
  refine ⟨news, by rw [hn, hlog], ?_⟩
  have hr : running bid s.shared = 0 := by
    rw [← hs]
    unfold running
    rw [List.countP_eq_zero]
    intro t ht
    simp only [isRunning, decide_eq_true_eq, not_and]
    exact hu.1 t (by rw [hσ]; exact ht)
  have hth : ∀ th ∈ s.threads, (∀ data source, th ≠ .created bid data source) ∧ th ≠ .pushed bid := by
    rw [← hs]
    intro th hth
    rcases mem_set hth with hth | rfl
    · exact hu.2 th (by rw [hσ]; exact hth)
    · exact ⟨(fun _ _ h => by cases h), (fun h => by cases h)⟩
  have hc : s.threads.countP (Thread.isCreated bid) = 0 := by
    rw [List.countP_eq_zero]
    intro th hmem
    cases th <;> simp [Thread.isCreated]
    intro heq; subst heq
    exact (hth _ hmem).1 _ _ rfl
  have hp : s.threads.countP (Thread.isPassing bid) = 0 := by
    rw [List.countP_eq_zero]
    intro th hmem
    cases th <;> simp [Thread.isPassing]
    · intro heq; subst heq
      exact (hth _ hmem).1 _ _ rfl
    · intro heq; subst heq
      exact (hth _ hmem).2 rfl
  have hk : known bid s.shared = 1 := by rw [← hs]; simp [known]
  have hk' : known bid (run c f e s bs).shared ≤ 1 := by unfold known; split <;> omega
  unfold given times at h1
  unfold passing times at h2
  rw [hn] at h1 h2
  simp only [List.countP_append] at h1 h2
  omega

/-- If no task has a packet of the broadcast in hand either, no packet of it is passed on before it is forgotten. -/
theorem C143_packets_partial (e : Env) (as bs : List Act) (k : Nat) (bid : Bytes) (hm : Marks c f e as k bid)
    (hu : ∀ th ∈ (run c f e (State.init c f) as).threads, ∀ b, th.part = some b → b.dataHash ≠ bid) :
    ∃ news, history c f e (as ++ .thread k :: bs) = history c f e as ++ news ∧
      (Event.forgotten bid ∉ news → ∀ b, Event.passedPart b ∈ news → b.dataHash ≠ bid) := by
  unfold history
  rw [run_from, marks_step hm]
  generalize hσ : run c f e (State.init c f) as = σ at *
  generalize hs : State.mk _ _ _ = s
  have ho : Own bid s := by
    rw [← hs]
    refine ⟨by simp, ?_⟩
    intro x hx b hb
    rcases mem_set hx with hx | rfl
    · exact hu x hx b hb
    · cases hb
  obtain ⟨news, h1, h2⟩ := own_run e bs ho
  exact ⟨news, by rw [h1, ← hs]; simp, h2⟩

/-! ### Examples and the witness -/

-- C143_own_partial, C143_packets_partial: a node sends a broadcast, and a packet of it comes back
example : Marks Crypto.toy Fec.toy sampleEnv [.own samplePart.dataHash] 0 samplePart.dataHash ∧
    Unheard Crypto.toy Fec.toy sampleEnv [.own samplePart.dataHash] samplePart.dataHash ∧
    (∀ th ∈ (run Crypto.toy Fec.toy sampleEnv (State.init Crypto.toy Fec.toy) [.own samplePart.dataHash]).threads,
      ∀ b, th.part = some b → b.dataHash ≠ samplePart.dataHash) ∧
    history Crypto.toy Fec.toy sampleEnv ([.own samplePart.dataHash] ++ .thread 0 :: [.fec 100 samplePart, .thread 1,
      .thread 1, .thread 1, .thread 1, .thread 1, .thread 0, .task 0]) = [] := by
  refine ⟨⟨rfl, rfl⟩, ⟨(fun t h => absurd h List.not_mem_nil), ?_⟩, ?_, by decide +kernel⟩
  · intro th h
    simp only [run, List.foldl_cons, List.foldl_nil, step, State.init, List.nil_append, List.mem_singleton] at h
    subst h
    exact ⟨(fun _ _ h => by cases h), (fun h => by cases h)⟩
  · intro th h b hb
    simp only [run, List.foldl_cons, List.foldl_nil, step, State.init, List.nil_append, List.mem_singleton] at h
    subst h
    cases hb

/-- A log of no broadcasts, a timeout of a minute. -/
def shortEnv : Env := { sampleEnv with maxLog := 0 }

/-- A packet is in the channel of its transfer when the transfer times out and is forgotten; the node then sends a
broadcast with the same data. -/
def slowTask : List Act :=
  [.fec 100 samplePart, .thread 0, .thread 0, .thread 0, .thread 0, .thread 0, .thread 0, .tick 200000, .cleanup 0,
    .tick 200000, .expire 0, .push 0, .gcCheck, .gcPop, .gcSub, .own samplePart.dataHash]

/-- A receiving task that is still in its loop gives the application a broadcast the node has sent in the meantime. -/
theorem C143_full_false : ¬ C143_full := by
  intro h
  have hm : Marks Crypto.toy Fec.toy shortEnv slowTask 1 samplePart.dataHash := by
    refine ⟨?_, by decide +kernel⟩
    have h : (match (run Crypto.toy Fec.toy shortEnv (State.init Crypto.toy Fec.toy) slowTask).threads[1]? with
        | some (Thread.own bid) => decide (bid = samplePart.dataHash)
        | _ => false) = true := by decide +kernel
    split at h
    · next bid hb =>
      simp only [decide_eq_true_eq] at h
      rw [hb, h]
    · cases h
  obtain ⟨news, h1, h2, _⟩ := h Crypto.toy Fec.toy shortEnv slowTask [.task 0] 1 samplePart.dataHash hm
  have hd := congrArg (List.countP (Event.isDelivered samplePart.dataHash)) h1
  have hf := congrArg (List.countP (Event.isForgotten samplePart.dataHash)) h1
  rw [List.countP_append] at hd hf
  have e1 : (history Crypto.toy Fec.toy shortEnv (slowTask ++ .thread 1 :: [.task 0])).countP
      (Event.isDelivered samplePart.dataHash) = 1 := by decide +kernel
  have e2 : (history Crypto.toy Fec.toy shortEnv slowTask).countP (Event.isDelivered samplePart.dataHash) = 0 := by
    decide +kernel
  have e3 : (history Crypto.toy Fec.toy shortEnv (slowTask ++ .thread 1 :: [.task 0])).countP
      (Event.isForgotten samplePart.dataHash) = 1 := by decide +kernel
  have e4 : (history Crypto.toy Fec.toy shortEnv slowTask).countP (Event.isForgotten samplePart.dataHash) = 1 := by
    decide +kernel
  omega

end Verif.Overlay.Conc
