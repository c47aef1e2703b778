import Verif.Props.ReceiveSession

/-!
# C134: tasks that handle packets of one peer do not block each other for good
-/
namespace Verif.ReceiveConc
open Verif.PacketsHistory

theorem stepPC_release (h : Hist) (s : Nat) (p : PC) (hz : zero p)
    (hl : locked p = true → h.index = inTransit) (h1 : locked p = true)
    (h2 : locked (stepPC h s p).2 = false) : (stepPC h s p).1.index = 0 := by
  cases p with
  | unlock i n =>
    obtain ⟨rfl, rfl⟩ := hz
    simp [stepPC, hl h1, half]
  | shift i j => simp only [stepPC] at h2; split at h2 <;> simp [locked] at h2
  | clear i j => simp only [stepPC] at h2; split at h2 <;> simp [locked] at h2
  | readSeq i n => simp only [stepPC] at h2; split at h2 <;> simp [locked] at h2
  | setBit i => simp [stepPC, locked] at h2
  | storeSeq i n => simp [stepPC, locked] at h2
  | _ => simp [locked] at h1

/-- A task that stops writing has freed the history. -/
theorem stepOf_release (σ : Sys) (k : Task) (pc : Pc) (hs : pc.shape) (p : Bool)
    (hl : pc.writing k p = true → (σ.hist p).index = inTransit) (h1 : pc.writing k p = true)
    (h2 : (stepOf σ k pc).2.writing k p = false) : ((stepOf σ k pc).1.hist p).index = 0 := by
  cases pc with
  | word q i =>
    simp only [Pc.writing, beq_iff_eq] at h1
    subst h1
    by_cases h7 : i < 7 <;> simp [stepOf, h7, Pc.writing] at h2
  | seqno q =>
    simp only [Pc.writing, beq_iff_eq] at h1
    subst h1
    simp [stepOf, Pc.writing] at h2
  | unlock q =>
    have hi := hl h1
    simp only [Pc.writing, beq_iff_eq] at h1
    subst h1
    simp [stepOf, hi, Sys.setHist]
  | deliver pc =>
    have hi := hl h1
    simp only [Pc.writing, Bool.and_eq_true, beq_iff_eq] at h1
    obtain ⟨rfl, h1⟩ := h1
    simp only [stepOf, Pc.writing, beq_self_eq_true, Bool.true_and] at h2
    simp only [stepOf, Sys.setHist, if_true]
    exact stepPC_release _ _ _ hs (fun _ => hi) h1 h2
  | _ => simp [Pc.writing] at h1

/-- A locked history has a writer. -/
def Owned (tasks : Nat → Task) (σ : Sys) : Prop :=
  ∀ p, (σ.hist p).index = inTransit → ∃ t, (σ.pc t).writing (tasks t) p = true

theorem step_owned (tasks : Nat → Task) (σ : Sys) (hi : LockInv tasks σ) (ho : Owned tasks σ)
    (t : Nat) : Owned tasks (σ.step tasks t) := by
  intro p hp
  have hp' : ((stepOf σ (tasks t) (σ.pc t)).1.hist p).index = inTransit := hp
  obtain ⟨-, -, -, -, f5⟩ :=
    stepOf_lock σ (tasks t) (σ.pc t) (hi.shape t) hi.idx (fun p => hi.lock p t) p
  by_cases h2 : (stepOf σ (tasks t) (σ.pc t)).2.writing (tasks t) p = true
  · exact ⟨t, by simpa [Sys.step] using h2⟩
  · have h2 : (stepOf σ (tasks t) (σ.pc t)).2.writing (tasks t) p = false := by simpa using h2
    by_cases h1 : (σ.pc t).writing (tasks t) p = true
    · have := stepOf_release σ (tasks t) (σ.pc t) (hi.shape t) p (hi.lock p t) h1 h2
      rw [this] at hp'
      exact absurd hp' (by decide)
    · have h1 : (σ.pc t).writing (tasks t) p = false := by simpa using h1
      obtain ⟨u, hu⟩ := ho p (by rw [← f5 h1 h2]; exact hp')
      have hut : u ≠ t := by rintro rfl; rw [hu] at h1; cases h1
      exact ⟨u, by simpa [Sys.step, hut] using hu⟩

structure Lively (tasks : Nat → Task) (σ : Sys) : Prop where
  lock : LockInv tasks σ
  owned : Owned tasks σ

theorem step_lively (tasks : Nat → Task) (σ : Sys) (h : Lively tasks σ) (t : Nat) :
    Lively tasks (σ.step tasks t) :=
  ⟨step_lock tasks σ h.lock t, step_owned tasks σ h.lock h.owned t⟩

theorem run_lively (tasks : Nat → Task) (sched : List Nat) : ∀ σ, Lively tasks σ →
    Lively tasks (σ.run tasks sched) := by
  induction sched with
  | nil => exact fun σ h => h
  | cons t ts ih => exact fun σ h => ih _ (step_lively tasks σ h t)

theorem init_lively (tasks : Nat → Task) (d : Nat) : Lively tasks (Sys.init d) :=
  ⟨init_lock tasks d, by intro p h; exact absurd h (by simp [Sys.init, forRecv]; decide)⟩

/-! ### How far a task is from its end -/

def rankPC : PC → Nat
  | .load => 20
  | .readBit _ => 19
  | .recheck _ _ => 18
  | .casBit _ => 17
  | .casShift _ => 17
  | .setBit _ => 16
  | .shift _ i => 4 + (8 - i)
  | .clear _ i => 4 + (8 - i)
  | .readSeq _ _ => 3
  | .storeSeq _ _ => 2
  | .unlock _ _ => 1
  | .done _ => 0

def rank : Pc → Nat
  | .start => 48
  | .loaded _ => 47
  | .lockLoad p => if p then 33 else 46
  | .lockCas p _ => if p then 32 else 45
  | .word p i => (if p then 23 else 36) + (8 - i)
  | .seqno p => if p then 22 else 35
  | .unlock p => if p then 21 else 34
  | .deliver pc => rankPC pc
  | .refused => 0

theorem rank_afterDate (k : Task) : rank (afterDate k) ≤ 20 := by
  unfold afterDate; split <;> simp [rank, rankPC]

theorem idle_of_rank {pc : Pc} (h : rank pc = 0) : pc.idle = true := by
  cases pc with
  | deliver pc => cases pc <;> simp_all [rank, rankPC, Pc.idle]
  | word p i => cases p <;> simp [rank] at h
  | lockLoad p => cases p <;> simp [rank] at h
  | lockCas p i => cases p <;> simp [rank] at h
  | seqno p => cases p <;> simp [rank] at h
  | unlock p => cases p <;> simp [rank] at h
  | start => simp [rank] at h
  | loaded o => simp [rank] at h
  | refused => rfl

theorem stepPC_rank (h : Hist) (s : Nat) (p : PC) (hz : zero p)
    (hfree : locked p = false → h.index = 0) (hr : rankPC p ≠ 0) :
    rankPC (stepPC h s p).2 < rankPC p := by
  have hne : (0 : Nat) ≠ inTransit := by decide
  cases p with
  | load =>
    have h0 := hfree rfl
    simp only [stepPC, h0, hne, if_false]
    split
    · simp [rankPC]
    · split <;> simp [rankPC]
  | readBit i => simp [stepPC, rankPC]
  | recheck i a =>
    have h0 := hfree rfl
    simp only [zero] at hz; subst hz
    simp only [stepPC, h0]
    cases a <;> simp [rankPC]
  | casBit i =>
    have h0 := hfree rfl
    simp only [zero] at hz; subst hz
    simp [stepPC, h0, rankPC]
  | casShift i =>
    have h0 := hfree rfl
    simp only [zero] at hz; subst hz
    simp only [stepPC, h0, if_true]
    split <;> simp [rankPC]
  | setBit i => simp [stepPC, rankPC]
  | shift i j => simp only [stepPC]; split <;> simp only [rankPC] <;> omega
  | clear i j => simp only [stepPC]; split <;> simp only [rankPC] <;> omega
  | readSeq i n => simp only [stepPC]; split <;> simp [rankPC]
  | storeSeq i n => simp [stepPC, rankPC]
  | unlock i n => simp [stepPC, rankPC]
  | done r => simp [rankPC] at hr

/-- If every history is free or held by the task itself, a step brings it closer to its end. -/
theorem stepOf_rank (σ : Sys) (k : Task) (pc : Pc) (hs : pc.shape)
    (hfree : ∀ p, pc.writing k p = false → (σ.hist p).index = 0) (hr : rank pc ≠ 0) :
    rank (stepOf σ k pc).2 < rank pc := by
  have hne : (0 : Nat) ≠ inTransit := by decide
  have ha := rank_afterDate k
  cases pc with
  | start => simp only [stepOf]; split <;> simp [rank, rankPC]
  | loaded old =>
    simp only [stepOf]
    split
    · simp [rank, rankPC]
    · split
      · exact Nat.lt_of_le_of_lt ha (by simp [rank])
      · split
        · split
          · simp [rank]
          · exact Nat.lt_of_le_of_lt ha (by simp [rank])
        · simp [rank]
  | lockLoad p =>
    have h0 := hfree p rfl
    simp only [stepOf, h0, hne, if_false, rank]
    cases p <;> simp
  | lockCas p i =>
    have h0 := hfree p rfl
    simp only [Pc.shape] at hs; subst hs
    simp only [stepOf, h0, if_true, rank]
    cases p <;> simp
  | word p i =>
    simp only [stepOf]
    by_cases h7 : i < 7
    · simp only [h7, if_true, rank]; cases p <;> simp <;> omega
    · simp only [h7, if_false, rank]; cases p <;> simp <;> omega
  | seqno p => simp only [stepOf, rank]; cases p <;> simp
  | unlock p =>
    simp only [stepOf]
    cases p
    · simp [rank]
    · exact Nat.lt_of_le_of_lt ha (by simp [rank])
  | deliver pc =>
    simp only [stepOf, rank]
    exact stepPC_rank _ _ _ hs (fun h => hfree k.priority (by simp [Pc.writing, h])) hr
  | refused => simp [rank] at hr

/-- No task but `t` is writing. -/
def OnlyWriter (tasks : Nat → Task) (σ : Sys) (t : Nat) : Prop :=
  ∀ p u, u ≠ t → (σ.pc u).writing (tasks u) p = false

theorem onlyWriter_free (tasks : Nat → Task) (σ : Sys) (h : Lively tasks σ) (t : Nat)
    (ho : OnlyWriter tasks σ t) (p : Bool) (hw : (σ.pc t).writing (tasks t) p = false) :
    (σ.hist p).index = 0 := by
  rcases h.lock.idx p with h0 | h1
  · exact h0
  · obtain ⟨u, hu⟩ := h.owned p h1
    by_cases e : u = t
    · subst e; rw [hu] at hw; cases hw
    · rw [ho p u e] at hu; cases hu

theorem onlyWriter_step (tasks : Nat → Task) (σ : Sys) (t : Nat) (ho : OnlyWriter tasks σ t) :
    OnlyWriter tasks (σ.step tasks t) t := by
  intro p u hu
  have : (σ.step tasks t).pc u = σ.pc u := by simp [Sys.step, hu]
  rw [this]; exact ho p u hu

theorem alone_ends (tasks : Nat → Task) (t : Nat) : ∀ (n : Nat) (σ : Sys), Lively tasks σ →
    OnlyWriter tasks σ t → rank (σ.pc t) ≤ n →
    rank ((σ.run tasks (List.replicate n t)).pc t) = 0 ∧
    OnlyWriter tasks (σ.run tasks (List.replicate n t)) t := by
  intro n
  induction n with
  | zero => intro σ _ ho h; exact ⟨by simpa [Sys.run] using h, ho⟩
  | succ n ih =>
    intro σ hl ho h
    have e : σ.run tasks (List.replicate (n + 1) t) = (σ.step tasks t).run tasks (List.replicate n t) := rfl
    rw [e]
    refine ih _ (step_lively tasks σ hl t) (onlyWriter_step tasks σ t ho) ?_
    have hpt : (σ.step tasks t).pc t = (stepOf σ (tasks t) (σ.pc t)).2 := by simp [Sys.step]
    rw [hpt]
    by_cases hr : rank (σ.pc t) = 0
    · have : (stepOf σ (tasks t) (σ.pc t)).2 = σ.pc t := by
        have hid := idle_of_rank hr
        cases hpc : σ.pc t with
        | deliver pc =>
          rw [hpc] at hr
          cases pc <;> simp [rank, rankPC] at hr
          rfl
        | refused => rfl
        | start => rw [hpc] at hr; simp [rank] at hr
        | _ => rw [hpc] at hid; simp [Pc.idle] at hid
      rw [this, hr]; omega
    · have := stepOf_rank σ (tasks t) (σ.pc t) (hl.lock.shape t)
        (onlyWriter_free tasks σ hl t ho) hr
      omega

/-- At the end a task writes nothing. -/
theorem rank_zero_not_writing (k : Task) (p : Bool) {pc : Pc} (h : rank pc = 0) :
    pc.writing k p = false := by
  have := idle_of_rank h
  cases pc with
  | deliver pc => cases pc <;> simp_all [rank, rankPC, Pc.writing, locked]
  | _ => simp_all [Pc.idle, Pc.writing]

/-! ### The writer frees the history -/

theorem stepOf_writing_rank (σ : Sys) (k : Task) (pc : Pc) (p : Bool)
    (h1 : pc.writing k p = true) (h2 : (stepOf σ k pc).2.writing k p = true) :
    rank (stepOf σ k pc).2 < rank pc := by
  cases pc with
  | word q i =>
    simp only [stepOf]
    by_cases h7 : i < 7
    · simp only [h7, if_true, rank]; cases q <;> simp <;> omega
    · simp only [h7, if_false, rank]; cases q <;> simp <;> omega
  | seqno q => simp only [stepOf, rank]; cases q <;> simp
  | unlock q =>
    cases q
    · simp [stepOf, Pc.writing] at h2
    · simp only [stepOf, if_true] at h2
      rw [afterDate_writing] at h2; cases h2
  | deliver pc =>
    simp only [Pc.writing, Bool.and_eq_true, beq_iff_eq] at h1
    simp only [stepOf, rank]
    cases pc with
    | setBit i => simp [stepPC, rankPC]
    | shift i j => simp only [stepPC]; split <;> simp only [rankPC] <;> omega
    | clear i j => simp only [stepPC]; split <;> simp only [rankPC] <;> omega
    | readSeq i n => simp only [stepPC]; split <;> simp [rankPC]
    | storeSeq i n => simp [stepPC, rankPC]
    | unlock i n => simp [stepPC, rankPC]
    | _ => simp [locked] at h1
  | _ => simp [Pc.writing] at h1

/-- How many steps the writer of `p` still needs. -/
def left : Pc → Nat
  | .word _ i => 3 + (8 - i)
  | .seqno _ => 2
  | .unlock _ => 1
  | .deliver pc => rankPC pc
  | _ => 0

theorem stepOf_left (σ : Sys) (k : Task) (pc : Pc) (p : Bool) (h1 : pc.writing k p = true)
    (h2 : (stepOf σ k pc).2.writing k p = true) : left (stepOf σ k pc).2 < left pc := by
  cases pc with
  | word q i =>
    simp only [stepOf]
    by_cases h7 : i < 7
    · simp only [h7, if_true, left]; omega
    · simp only [h7, if_false, left]; omega
  | seqno q => simp [stepOf, left]
  | unlock q =>
    cases q
    · simp [stepOf, Pc.writing] at h2
    · simp only [stepOf, if_true] at h2
      rw [afterDate_writing] at h2; cases h2
  | deliver pc => exact stepOf_writing_rank σ k _ p h1 h2
  | _ => simp [Pc.writing] at h1

theorem left_pos (k : Task) (p : Bool) {pc : Pc} (h : pc.writing k p = true) :
    0 < left pc ∧ left pc ≤ 16 := by
  cases pc with
  | word q i => simp only [left]; omega
  | seqno q => simp [left]
  | unlock q => simp [left]
  | deliver pc =>
    simp only [Pc.writing, Bool.and_eq_true] at h
    cases pc <;> simp [locked] at h <;> simp only [left, rankPC] <;> omega
  | _ => simp [Pc.writing] at h

/-- **C134** A task that writes to a history waits for nobody: after at most 16 steps of its own,
whatever the other tasks do in between, it has freed the history. -/
theorem C134_writer_finishes (tasks : Nat → Task) (σ : Sys) (t : Nat) (p : Bool)
    (hw : (σ.pc t).writing (tasks t) p = true) (sched : List Nat) (hc : 16 ≤ sched.count t) :
    ∃ s₁ s₂, sched = s₁ ++ s₂ ∧ ((σ.run tasks s₁).pc t).writing (tasks t) p = false := by
  have key : ∀ (sched : List Nat) (σ : Sys), left (σ.pc t) ≤ sched.count t →
      ∃ s₁ s₂, sched = s₁ ++ s₂ ∧ ((σ.run tasks s₁).pc t).writing (tasks t) p = false := by
    intro sched
    induction sched with
    | nil =>
      intro σ h
      refine ⟨[], [], rfl, ?_⟩
      by_contra hw
      have := (left_pos (tasks t) p (by simpa [Sys.run] using hw)).1
      simp at h; omega
    | cons u us ih =>
      intro σ h
      by_cases hw : (σ.pc t).writing (tasks t) p = true
      · have hstep : left ((σ.step tasks u).pc t) ≤ us.count t ∨
            ((σ.step tasks u).pc t).writing (tasks t) p = false := by
          by_cases e : u = t
          · subst e
            have hpt : (σ.step tasks u).pc u = (stepOf σ (tasks u) (σ.pc u)).2 := by simp [Sys.step]
            rw [hpt]
            by_cases h2 : (stepOf σ (tasks u) (σ.pc u)).2.writing (tasks u) p = true
            · left
              have := stepOf_left σ (tasks u) (σ.pc u) p hw h2
              simp at h; omega
            · right; simpa using h2
          · left
            have hpt : (σ.step tasks u).pc t = σ.pc t := by simp [Sys.step, Ne.symm e]
            rw [hpt]
            rwa [List.count_cons_of_ne e] at h
        rcases hstep with h' | h'
        · obtain ⟨s₁, s₂, e1, e2⟩ := ih _ h'
          exact ⟨u :: s₁, s₂, by simp [e1], e2⟩
        · exact ⟨[u], us, rfl, h'⟩
      · exact ⟨[], u :: us, rfl, by simpa [Sys.run] using hw⟩
  exact key sched σ (Nat.le_trans (left_pos _ p hw).2 hc)

/-- **C134** A task that nobody disturbs comes to its end: from any state that can be reached, if no
other task is writing, 48 steps are enough. -/
theorem C134_undisturbed (tasks : Nat → Task) (date : Nat) (sched : List Nat) (t : Nat)
    (halone : ∀ p u, u ≠ t →
      (((Sys.init date).run tasks sched).pc u).writing (tasks u) p = false) :
    (((Sys.init date).run tasks (sched ++ List.replicate 48 t)).pc t = .refused ∨
      ∃ r, ((Sys.init date).run tasks (sched ++ List.replicate 48 t)).pc t = .deliver (.done r)) := by
  rw [run_append]
  have hl := run_lively tasks sched _ (init_lively tasks date)
  generalize (Sys.init date).run tasks sched = σ at *
  have hr : rank (σ.pc t) ≤ 48 := by
    cases h : σ.pc t with
    | deliver pc => cases pc <;> simp only [rank, rankPC] <;> omega
    | word q i => simp only [rank]; split <;> omega
    | lockLoad q => simp only [rank]; split <;> omega
    | lockCas q i => simp only [rank]; split <;> omega
    | seqno q => simp only [rank]; split <;> omega
    | unlock q => simp only [rank]; split <;> omega
    | _ => simp [rank]
  have h := (alone_ends tasks t 48 σ hl halone hr).1
  cases hx : (σ.run tasks (List.replicate 48 t)).pc t with
  | refused => exact .inl rfl
  | deliver pc =>
    rw [hx] at h
    cases pc <;> simp [rank, rankPC] at h
    exact .inr ⟨_, rfl⟩
  | start => rw [hx] at h; simp [rank] at h
  | _ =>
    have := idle_of_rank h
    rw [hx] at this; simp [Pc.idle] at this

/-- Freeing a history: its writer, run alone, stops writing to it, and the other history is as locked
as before. -/
theorem release (tasks : Nat → Task) (σ : Sys) (hl : Lively tasks σ) (p : Bool) :
    ∃ more, ((σ.run tasks more).hist p).index = 0 ∧
      ((σ.hist (!p)).index = 0 → ((σ.run tasks more).hist (!p)).index = 0) := by
  rcases hl.lock.idx p with h0 | h1
  · exact ⟨[], h0, fun h => h⟩
  · obtain ⟨t, ht⟩ := hl.owned p h1
    have key : ∀ (n : Nat) (σ : Sys), Lively tasks σ → left (σ.pc t) ≤ n →
        (σ.pc t).writing (tasks t) p = true →
        ∃ more, ((σ.run tasks more).hist p).index = 0 ∧
          ((σ.hist (!p)).index = 0 → ((σ.run tasks more).hist (!p)).index = 0) := by
      intro n
      induction n with
      | zero =>
        intro σ _ h hw
        have := (left_pos _ p hw).1
        omega
      | succ n ih =>
        intro σ hl h hw
        have hpt : (σ.step tasks t).pc t = (stepOf σ (tasks t) (σ.pc t)).2 := by simp [Sys.step]
        have hother : (σ.step tasks t).hist (!p) = σ.hist (!p) := by
          show (stepOf σ (tasks t) (σ.pc t)).1.hist (!p) = σ.hist (!p)
          have hne : ¬ (!p) = p := by cases p <;> decide
          cases hpc : σ.pc t with
          | word q i =>
            rw [hpc] at hw
            simp only [Pc.writing, beq_iff_eq] at hw; subst hw
            simp [stepOf, Sys.setHist]
          | seqno q =>
            rw [hpc] at hw
            simp only [Pc.writing, beq_iff_eq] at hw; subst hw
            simp [stepOf, Sys.setHist]
          | unlock q =>
            rw [hpc] at hw
            simp only [Pc.writing, beq_iff_eq] at hw; subst hw
            simp only [stepOf]
            split <;> simp [Sys.setHist]
          | deliver pc =>
            rw [hpc] at hw
            simp only [Pc.writing, Bool.and_eq_true, beq_iff_eq] at hw
            obtain ⟨rfl, -⟩ := hw
            simp [stepOf, Sys.setHist]
          | _ => rw [hpc] at hw; simp [Pc.writing] at hw
        by_cases h2 : (stepOf σ (tasks t) (σ.pc t)).2.writing (tasks t) p = true
        · have hlt := stepOf_left σ (tasks t) (σ.pc t) p hw h2
          obtain ⟨more, m1, m2⟩ := ih (σ.step tasks t) (step_lively tasks σ hl t)
            (by rw [hpt]; omega) (by rw [hpt]; exact h2)
          exact ⟨t :: more, m1, fun h => m2 (by rw [hother]; exact h)⟩
        · have h2 : (stepOf σ (tasks t) (σ.pc t)).2.writing (tasks t) p = false := by simpa using h2
          refine ⟨[t], ?_, fun h => ?_⟩
          · exact stepOf_release σ (tasks t) (σ.pc t) (hl.lock.shape t) p (hl.lock.lock p t) hw h2
          · show ((σ.step tasks t).hist (!p)).index = 0
            rw [hother]; exact h
    exact key _ σ hl (Nat.le_refl _) ht

/-- Nobody writes to a free history. -/
theorem nobody_writes (tasks : Nat → Task) (σ : Sys) (hl : Lively tasks σ)
    (h0 : ∀ p, (σ.hist p).index = 0) (p : Bool) (t : Nat) :
    (σ.pc t).writing (tasks t) p = false := by
  by_contra h
  have := hl.lock.lock p t (by simpa using h)
  rw [h0 p] at this
  exact absurd this (by decide)

theorem run_idle (tasks : Nat → Task) (u : Nat) : ∀ (sched : List Nat) (σ : Sys),
    rank (σ.pc u) = 0 → (∀ t ∈ sched, t ≠ u) → rank ((σ.run tasks sched).pc u) = 0 := by
  intro sched
  induction sched with
  | nil => exact fun σ h _ => h
  | cons t ts ih =>
    intro σ h hne
    refine ih (σ.step tasks t) ?_ (fun x hx => hne x (by simp [hx]))
    have e : (σ.step tasks t).pc u = σ.pc u := by
      have := hne t (by simp)
      simp [Sys.step, Ne.symm this]
    rw [e]; exact h

/-- **C134** No deadlock: whatever has happened, the tasks can all still be brought to their end: there
is a continuation after which every one of the first `n` tasks is through. -/
theorem C134_no_deadlock (tasks : Nat → Task) (date : Nat) (sched : List Nat) (n : Nat) :
    ∃ more, ∀ t, t < n →
      ((Sys.init date).run tasks (sched ++ more)).pc t = .refused ∨
      ∃ r, ((Sys.init date).run tasks (sched ++ more)).pc t = .deliver (.done r) := by
  have hl := run_lively tasks sched _ (init_lively tasks date)
  simp only [run_append]
  generalize (Sys.init date).run tasks sched = σ at *
  obtain ⟨m₁, a1, -⟩ := release tasks σ hl false
  have hl1 := run_lively tasks m₁ σ hl
  obtain ⟨m₂, b1, b2⟩ := release tasks _ hl1 true
  have hl2 := run_lively tasks m₂ _ hl1
  have hfree : ∀ p, (((σ.run tasks m₁).run tasks m₂).hist p).index = 0 := by
    intro p
    cases p
    · exact b2 a1
    · exact b1
  have key : ∀ (n : Nat) (τ : Sys), Lively tasks τ → (∀ p t, (τ.pc t).writing (tasks t) p = false) →
      ∃ more, (∀ x ∈ more, x < n) ∧ (∀ t, t < n → rank ((τ.run tasks more).pc t) = 0) ∧
        ∀ p t, (((τ.run tasks more).pc t).writing (tasks t) p) = false := by
    intro n
    induction n with
    | zero => intro τ _ h; exact ⟨[], by simp, by intro t ht; omega, h⟩
    | succ n ih =>
      intro τ hlτ h
      obtain ⟨more, h1, h2, h3⟩ := ih τ hlτ h
      have hlm := run_lively tasks more τ hlτ
      obtain ⟨e1, e2⟩ := alone_ends tasks n (rank ((τ.run tasks more).pc n)) (τ.run tasks more) hlm
        (fun p u _ => h3 p u) (Nat.le_refl _)
      refine ⟨more ++ List.replicate (rank ((τ.run tasks more).pc n)) n, ?_, ?_, ?_⟩
      · intro x hx
        rcases List.mem_append.mp hx with hx | hx
        · have := h1 x hx; omega
        · have := List.eq_of_mem_replicate hx; omega
      · intro t ht
        rw [run_append]
        by_cases e : t = n
        · subst e; exact e1
        · refine run_idle tasks t _ _ (h2 t (by omega)) ?_
          intro x hx
          rw [List.eq_of_mem_replicate hx]; omega
      · intro p t
        rw [run_append]
        by_cases e : t = n
        · subst e; exact rank_zero_not_writing _ p e1
        · exact e2 p t e
  obtain ⟨more, -, h2, -⟩ := key n _ hl2 (fun p t => nobody_writes tasks _ hl2 hfree p t)
  refine ⟨m₁ ++ (m₂ ++ more), ?_⟩
  intro t ht
  simp only [run_append]
  have h := h2 t ht
  cases hx : (((σ.run tasks m₁).run tasks m₂).run tasks more).pc t with
  | refused => exact .inl rfl
  | deliver pc =>
    rw [hx] at h
    cases pc <;> simp [rank, rankPC] at h
    exact .inr ⟨_, rfl⟩
  | start => rw [hx] at h; simp [rank] at h
  | _ =>
    have := idle_of_rank h
    rw [hx] at this; simp [Pc.idle] at this

/-- C134, full statement: there is a number of steps after which every task is through, whatever the
others do in between. **False in the code**, see `C134_full_false`. -/
def C134_full : Prop :=
  ∃ B : Nat, ∀ (tasks : Nat → Task) (date : Nat) (sched : List Nat) (t : Nat),
    B ≤ sched.count t → (((Sys.init date).run tasks sched).pc t).idle = true

/-- A task that finds the history locked loops (packets_history.rs:86-89, "TODO: yield"), as long as
the task that locked it is not run. -/
theorem C134_full_false : ¬ C134_full := by
  rintro ⟨B, h⟩
  let tasks : Nat → Task := fun _ => ⟨none, false, 1, false⟩
  have hspin : ∀ (n : Nat) (σ : Sys), (σ.hist false).index = inTransit →
      σ.pc 0 = .deliver .load → (σ.run tasks (List.replicate n 0)).pc 0 = .deliver .load := by
    intro n
    induction n with
    | zero => intro σ _ h; exact h
    | succ n ih =>
      intro σ h1 h2
      have e1 : ((σ.step tasks 0).hist false).index = inTransit := by
        simp [Sys.step, h2, stepOf, tasks, stepPC, h1, Sys.setHist]
      have e2 : (σ.step tasks 0).pc 0 = .deliver .load := by
        simp [Sys.step, h2, stepOf, tasks, stepPC, h1]
      exact ih _ e1 e2
  have := h tasks 5 ([1, 1, 1, 1, 1, 0] ++ List.replicate B 0) 0 (by simp)
  rw [run_append, hspin B _ (by decide) (by decide)] at this
  simp [Pc.idle] at this

/-- Non-vacuity: the tasks of `C133_full_false` stopped in the middle of a reset can go on. -/
example : ∃ more, ∀ t, t < 3 →
    ((Sys.init 5).run restarted ([0, 0, 0, 0, 0, 1, 1, 1] ++ more)).pc t = .refused ∨
    ∃ r, ((Sys.init 5).run restarted ([0, 0, 0, 0, 0, 1, 1, 1] ++ more)).pc t = .deliver (.done r) :=
  C134_no_deadlock restarted 5 _ 3

/-- Non-vacuity of `C134_writer_finishes`: task 0 is in the middle of a reset; task 1 is run as well. -/
example : ∃ s₁ s₂, (List.replicate 16 1 ++ List.replicate 16 0) = s₁ ++ s₂ ∧
    ((((Sys.init 5).run restarted [0, 0, 0, 0, 0]).run restarted s₁).pc 0).writing (restarted 0) false
      = false :=
  C134_writer_finishes restarted ((Sys.init 5).run restarted [0, 0, 0, 0, 0]) 0 false
    (by decide +kernel) _ (by decide)

/-- Non-vacuity of `C134_undisturbed`: the first packet after a restart. -/
example : ((Sys.init 5).run restarted ([] ++ List.replicate 48 0)).pc 0 = .refused ∨
    ∃ r, ((Sys.init 5).run restarted ([] ++ List.replicate 48 0)).pc 0 = .deliver (.done r) :=
  C134_undisturbed restarted 5 [] 0 (fun _ _ _ => rfl)

end Verif.ReceiveConc
