import Verif.Model.TransferTimeout
import Verif.Proofs.AMap

/-! # Invariant of the transfer table with timeouts -/
namespace Verif.TransferTimeout
open Verif.Transfer

/-- What is known about a timeout task at time `now`. -/
def TaskOk (c : Cfg) (now : Nat) (o : Obj) : Prop :=
  match o.task with
  | .spawned a => a ≤ o.lastPart ∧ now ≤ a + c.late
  | .sleeping w => now ≤ w + c.late ∧ w ≤ o.lastPart + 2 * (c.timeout * 1000) + c.late
  | .ended => True

structure ObjOk (c : Cfg) (now : Nat) (o : Obj) : Prop where
  started : o.started ≤ o.lastPart
  last : o.lastPart ≤ now
  updated : o.updated = (o.lastPart - o.started) / 1000
  task : TaskOk c now o

structure Inv (c : Cfg) (s : State) : Prop where
  fresh : ∀ i o, s.objs i = some o → i < s.next
  obj : ∀ i o, s.objs i = some o → ObjOk c s.now o
  tbl : ∀ h i, s.table.get h = some i → ∃ o, s.objs i = some o ∧ o.id = h ∧ o.task ≠ .ended ∧
    ∀ j oj, s.objs j = some oj → oj.id = h → j ≤ i

theorem inv_init (c : Cfg) : Inv c .init :=
  ⟨(by intro i o h; cases h), (by intro i o h; cases h), (by intro h i hh; cases hh)⟩

theorem inv_setPC {c : Cfg} {s : State} (h : Inv c s) (t : Nat) (p : PC) : Inv c (setPC s t p) :=
  ⟨h.fresh, h.obj, h.tbl⟩

theorem inv_erase {c : Cfg} {s : State} (h : Inv c s) (k : Bytes) :
    Inv c { s with table := s.table.erase k } := by
  refine ⟨h.fresh, h.obj, ?_⟩
  intro k' i hk
  simp only [AMap.get_erase] at hk
  split at hk
  · cases hk
  · exact h.tbl k' i hk

/-- Replacing a transfer by one with the same id and a living task. -/
theorem inv_setObj {c : Cfg} {s : State} (h : Inv c s) {i : Nat} {o o' : Obj} (ho : s.objs i = some o)
    (hid : o'.id = o.id) (ht : o.task ≠ .ended → o'.task ≠ .ended) (hok : ObjOk c s.now o') :
    Inv c (setObj s i o') := by
  refine ⟨?_, ?_, ?_⟩
  · intro j oj hj
    simp only [setObj] at hj ⊢
    split at hj
    · rename_i e; rw [e]; exact h.fresh i o ho
    · exact h.fresh j oj hj
  · intro j oj hj
    simp only [setObj] at hj ⊢
    split at hj
    · cases hj; exact hok
    · exact h.obj j oj hj
  · intro k j hk
    obtain ⟨oj, h1, h2, h3, h4⟩ := h.tbl k j hk
    have hmax : ∀ m om, (setObj s i o').objs m = some om → om.id = k → m ≤ j := by
      intro m om hm hk'
      simp only [setObj] at hm
      split at hm
      · rename_i e; cases hm; rw [e]; exact h4 i o ho (by rw [← hid]; exact hk')
      · exact h4 m om hm hk'
    by_cases e : j = i
    · subst e
      rw [ho] at h1; cases h1
      exact ⟨o', by simp [setObj], by rw [hid]; exact h2, ht h3, hmax⟩
    · exact ⟨oj, by simp [setObj, e, h1], h2, h3, hmax⟩

theorem refresh_ok {c : Cfg} {now : Nat} {o : Obj} (h : ObjOk c now o) : ObjOk c now (o.refresh now) := by
  obtain ⟨h1, h2, h3, h4⟩ := h
  refine ⟨Nat.le_trans h1 h2, Nat.le_refl _, rfl, ?_⟩
  unfold TaskOk at h4 ⊢
  simp only [Obj.refresh]
  cases ht : o.task <;> simp only [ht] at h4 ⊢
  · omega
  · omega

theorem inv_tick {c : Cfg} {s : State} (h : Inv c s) (d : Nat) : Inv c (tick c s d) := by
  unfold tick
  split
  · rename_i hall
    refine ⟨h.fresh, ?_, h.tbl⟩
    intro i o ho
    obtain ⟨h1, h2, h3, h4⟩ := h.obj i o ho
    have hw := (List.all_eq_true.mp hall) i (List.mem_range.mpr (h.fresh i o ho))
    refine ⟨h1, ?_, h3, ?_⟩
    · show o.lastPart ≤ s.now + d; omega
    · rw [ho] at hw
      simp only [mayWait] at hw
      unfold TaskOk at h4 ⊢
      cases ht : o.task <;> simp only [ht, decide_eq_true_eq] at h4 hw ⊢
      · exact ⟨h4.1, hw⟩
      · exact ⟨hw, h4.2⟩
  · exact h

theorem inv_lookup {c : Cfg} {s : State} (h : Inv c s) (t : Nat) (p : Part) : Inv c (lookup s t p) := by
  unfold lookup
  split
  · split
    · exact inv_setPC h _ _
    · rename_i hn
      apply inv_setPC
      refine ⟨?_, ?_, ?_⟩
      · intro j oj hj
        simp only [setObj] at hj ⊢
        split at hj
        · omega
        · have := h.fresh j oj hj; omega
      · intro j oj hj
        simp only [setObj] at hj ⊢
        split at hj
        · cases hj
          exact ⟨Nat.le_refl _, Nat.le_refl _, by simp, ⟨Nat.le_refl _, Nat.le_add_right _ _⟩⟩
        · exact h.obj j oj hj
      · intro k i hk
        simp only [AMap.get_put] at hk
        split at hk
        · rename_i e
          cases hk
          refine ⟨_, by simp [setObj]; rfl, e.symm, (by simp), ?_⟩
          intro j oj hj _
          simp only [setObj] at hj
          split at hj
          · omega
          · have := h.fresh j oj hj; omega
        · rename_i e
          obtain ⟨o, h1, h2, h3, h4⟩ := h.tbl k i hk
          have hi := h.fresh i o h1
          refine ⟨o, by simp [setObj, Nat.ne_of_lt hi, h1], h2, h3, ?_⟩
          intro j oj hj hid
          simp only [setObj] at hj
          split at hj
          · cases hj; exact absurd hid.symm e
          · exact h4 j oj hj hid
  · exact h

theorem inv_handle {sha : Bytes → Bytes} {c : Cfg} {s : State} (h : Inv c s) (t : Nat) :
    Inv c (handle sha s t) := by
  unfold handle
  split
  · exact h
  · split
    · rename_i o ho
      exact inv_setPC (inv_setObj (o' := o.refresh s.now) h ho rfl (fun x => x) (refresh_ok (h.obj _ _ ho))) _ _
    · exact h
  · rename_i i p hpc
    split
    · rename_i o ho
      have hok := h.obj _ _ ho
      have h2 : ∀ tr : Transfer, Inv c (setObj s i { o with inner := tr }) := fun tr =>
        inv_setObj h ho rfl (fun x => x) ⟨hok.started, hok.last, hok.updated, hok.task⟩
      simp only
      generalize addPart sha o.inner p.offset p.data p.hash = r
      obtain ⟨r1, r2⟩ := r
      cases r2 <;> simp only [afterAdd] <;> apply inv_setPC
      · exact h2 _
      · exact ⟨(h2 r1).fresh, (h2 r1).obj, (h2 r1).tbl⟩
      all_goals exact h2 _
    · exact h
  · exact inv_setPC (inv_erase h _) _ _
  · exact h

/-- A task that does not see its transfer expired saw a part within the timeout. -/
theorem not_expired {c : Cfg} {now : Nat} {o : Obj} (h : ObjOk c now o)
    (he : o.expired c.timeout now = false) : now < o.lastPart + c.timeout * 1000 := by
  obtain ⟨h1, h2, h3, -⟩ := h
  simp only [Obj.expired, decide_eq_false_iff_not, h3] at he
  omega

theorem expired_idle {c : Cfg} {now : Nat} {o : Obj} (h : ObjOk c now o)
    (he : o.expired c.timeout now = true) : o.lastPart + c.timeout * 1000 < now + 1000 := by
  obtain ⟨h1, h2, h3, -⟩ := h
  simp only [Obj.expired, decide_eq_true_eq, h3] at he
  omega

theorem inv_timer {c : Cfg} {s : State} (h : Inv c s) (i : Nat) : Inv c (timer c s i) := by
  unfold timer
  split
  · exact h
  · rename_i o ho
    have hok := h.obj i o ho
    have h4 := hok.task
    split
    · rename_i a hta
      simp only [TaskOk, hta] at h4
      refine inv_setObj h ho rfl (by simp) ⟨hok.started, hok.last, hok.updated, ?_⟩
      show s.now ≤ s.now + c.timeout * 1000 + c.late ∧ _
      refine ⟨by omega, ?_⟩
      show s.now + c.timeout * 1000 ≤ o.lastPart + 2 * (c.timeout * 1000) + c.late
      omega
    · rename_i w htw
      simp only [TaskOk, htw] at h4
      split
      · exact h
      · split
        · refine ⟨?_, ?_, ?_⟩
          · intro j oj hj
            simp only [setObj] at hj ⊢
            split at hj
            · rename_i e; rw [e]; exact h.fresh i o ho
            · exact h.fresh j oj hj
          · intro j oj hj
            simp only [setObj] at hj ⊢
            split at hj
            · cases hj; exact ⟨hok.started, hok.last, hok.updated, trivial⟩
            · exact h.obj j oj hj
          · intro k j hk
            simp only [AMap.get_erase] at hk
            split at hk
            · cases hk
            · rename_i e
              obtain ⟨oj, h1, h2, h3, hm⟩ := h.tbl k j hk
              have hne : j ≠ i := by
                intro e'; subst e'; rw [ho] at h1; cases h1; exact e h2.symm
              refine ⟨oj, by simp [setObj, hne, h1], h2, h3, ?_⟩
              intro m om hmm hid
              simp only [setObj] at hmm
              split at hmm
              · rename_i e'; cases hmm; exact absurd hid.symm e
              · exact hm m om hmm hid
        · rename_i he
          have hlt := not_expired hok (by simpa using he)
          refine inv_setObj h ho rfl (by simp) ⟨hok.started, hok.last, hok.updated, ?_⟩
          show s.now ≤ s.now + c.timeout * 1000 + c.late ∧ _
          refine ⟨by omega, ?_⟩
          show s.now + c.timeout * 1000 ≤ o.lastPart + 2 * (c.timeout * 1000) + c.late
          omega
    · exact h

theorem inv_step {sha : Bytes → Bytes} {c : Cfg} {s : State} (h : Inv c s) (a : Act) :
    Inv c (step sha c s a) := by
  cases a <;> simp only [step]
  · exact inv_tick h _
  · exact inv_lookup h _ _
  · exact inv_handle h _
  · exact inv_timer h _

theorem inv_run {sha : Bytes → Bytes} {c : Cfg} {s : State} (h : Inv c s) (as : List Act) :
    Inv c (run sha c s as) := by
  induction as generalizing s with
  | nil => exact h
  | cons a as ih => exact ih (inv_step h a)

/-! ## Time can always pass -/

/-- The next millisecond can pass as far as this transfer is concerned. -/
def Free (c : Cfg) (s : State) (i : Nat) : Prop := mayWait c (s.now + 1) (s.objs i) = true

theorem timer_now (c : Cfg) (s : State) (i : Nat) : (timer c s i).now = s.now ∧ (timer c s i).next = s.next := by
  unfold timer
  split
  · exact ⟨rfl, rfl⟩
  · split
    · exact ⟨rfl, rfl⟩
    · split
      · exact ⟨rfl, rfl⟩
      · split <;> exact ⟨rfl, rfl⟩
    · exact ⟨rfl, rfl⟩

theorem timer_other (c : Cfg) (s : State) (i j : Nat) (h : j ≠ i) : (timer c s i).objs j = s.objs j := by
  unfold timer
  split
  · rfl
  · split
    · simp [setObj, h]
    · split
      · rfl
      · split <;> simp [setObj, h]
    · rfl

/-- After two runs of its task a transfer does not hold up the clock. -/
theorem free_after_two {c : Cfg} {s : State} (h : Inv c s) (i : Nat) :
    Free c (timer c (timer c s i) i) i := by
  have key : ∀ s : State, Inv c s → (∀ o, s.objs i = some o → ∀ a, o.task ≠ .spawned a) →
      Free c (timer c s i) i := by
    intro s h hns
    unfold Free timer
    split
    · rename_i hn; simp [mayWait, hn]
    · rename_i o ho
      have hok := h.obj i o ho
      split
      · rename_i a hta; exact absurd hta (hns o ho a)
      · rename_i w htw
        split
        · simp only [ho, mayWait, htw, decide_eq_true_eq]; omega
        · split
          · simp [setObj, mayWait]
          · rename_i he
            have hlt := not_expired hok (by simpa using he)
            have := hok.last
            have : 0 < c.timeout := by omega
            simp only [setObj]
            rw [if_pos trivial]
            simp only [mayWait, decide_eq_true_eq]; omega
      · rename_i ht; simp [mayWait, ho, ht]
  apply key _ (inv_timer h i)
  intro o ho a
  unfold timer at ho
  split at ho
  · rename_i hn; rw [hn] at ho; cases ho
  · rename_i o' ho'
    split at ho
    · simp only [setObj, if_true, Option.some.injEq] at ho; rw [← ho]; simp
    · rename_i w htw
      split at ho
      · rw [ho'] at ho; cases ho; rw [htw]; simp
      · split at ho <;> simp only [setObj, if_true, Option.some.injEq] at ho <;> rw [← ho] <;> simp
    · rename_i ht; rw [ho'] at ho; cases ho; rw [ht]; simp

/-- Every timeout task up to `n` runs twice. -/
def allTimers : Nat → List Act
  | 0 => []
  | n + 1 => allTimers n ++ [.timer n, .timer n]

theorem run_append (sha : Bytes → Bytes) (c : Cfg) (s : State) (as bs : List Act) :
    run sha c s (as ++ bs) = run sha c (run sha c s as) bs := by
  simp [run, List.foldl_append]

theorem allTimers_free {sha : Bytes → Bytes} {c : Cfg} {s : State} (h : Inv c s) (n : Nat) :
    (run sha c s (allTimers n)).now = s.now ∧ (run sha c s (allTimers n)).next = s.next ∧
      ∀ i, i < n → Free c (run sha c s (allTimers n)) i := by
  induction n with
  | zero => exact ⟨rfl, rfl, by intro i hi; omega⟩
  | succ n ih =>
    obtain ⟨h1, h2, h3⟩ := ih
    have hinv : Inv c (run sha c s (allTimers n)) := inv_run h _
    simp only [allTimers, run_append]
    generalize run sha c s (allTimers n) = u at *
    have e : run sha c u [.timer n, .timer n] = timer c (timer c u n) n := rfl
    rw [e]
    refine ⟨?_, ?_, ?_⟩
    · rw [(timer_now _ _ _).1, (timer_now _ _ _).1, h1]
    · rw [(timer_now _ _ _).2, (timer_now _ _ _).2, h2]
    · intro i hi
      by_cases hin : i = n
      · subst hin; exact free_after_two hinv i
      · have := h3 i (by omega)
        unfold Free at this ⊢
        rw [timer_other _ _ _ _ hin, timer_other _ _ _ _ hin, (timer_now _ _ _).1, (timer_now _ _ _).1]
        exact this

theorem time_passes {sha : Bytes → Bytes} {c : Cfg} {s : State} (h : Inv c s) :
    (run sha c s (allTimers s.next ++ [.tick 1])).now = s.now + 1 := by
  obtain ⟨h1, h2, h3⟩ := allTimers_free (sha := sha) h s.next
  rw [run_append]
  generalize run sha c s (allTimers s.next) = u at *
  show (tick c u 1).now = s.now + 1
  have : (List.range u.next).all (fun i => mayWait c (u.now + 1) (u.objs i)) = true := by
    rw [List.all_eq_true]
    intro i hi
    exact h3 i (by rw [← h2]; exact List.mem_range.mp hi)
  unfold tick
  rw [if_pos this, h1]

end Verif.TransferTimeout
