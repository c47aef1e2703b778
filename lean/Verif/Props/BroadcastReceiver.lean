import Verif.Proofs.BroadcastReceiver

/-!
# C51: received broadcasts reach waiting consumers (`src/overlay/broadcast_receiver.rs`)

Also C66: notifier tasks end.

Every interleaving of pushes, notifier tasks, calls of `pop` and dropped calls is a schedule `Nat → Act`
(or a finite list of actions). What is promised:

* `C51_exactly_once`: for every schedule, dropped calls included, what was taken from the queue followed by
  what is still in it is what was pushed, and each item taken belongs to exactly one call, which returns it.
* `C51_full`: no call that is never dropped waits forever while there is data. It is false: a dropped call
  leaves its barrier in the queue and takes the wake-up of another one (`C51_full_false`).
* `C51_waiting_partial`: it is true of schedules in which no call is dropped.
* `C51_arriving_partial`: it is true of all schedules for calls that do not wait at a barrier yet.
-/
namespace Verif.Props.BroadcastReceiver
open Verif.BroadcastReceiver

variable {T : Type}

/-! ## Fair schedules -/

/-- Call `i` can make a step. -/
def ConsumerReady (s : State T) (i : Nat) : Prop :=
  match s.consumers[i]? with
  | some (.waiting b) => 2 ≤ s.count b
  | some (.returned _) => False
  | some .cancelled => False
  | some _ => True
  | none => False

/-- Notifier task `j` can make a step. -/
def NotifierReady (s : State T) (j : Nat) : Prop :=
  match s.notifiers[j]? with
  | some (.waiting b) => 2 ≤ s.count b
  | some .done => False
  | some _ => True
  | none => False

/-- Whoever can make a step from some time on makes one (weak fairness). -/
structure Fair (sched : Nat → Act T) : Prop where
  consumer : ∀ i k, (∀ k', k ≤ k' → ConsumerReady (states sched k') i) → ∃ k', k ≤ k' ∧ sched k' = .consumer i
  notifier : ∀ j k, (∀ k', k ≤ k' → NotifierReady (states sched k') j) → ∃ k', k ≤ k' ∧ sched k' = .notifier j
  spawn : ∀ k, (∀ k', k ≤ k' → 0 < (states sched k').toSpawn) → ∃ k', k ≤ k' ∧ sched k' = .spawn

/-! ## Exactly once, in order -/

/-- Call `i` has taken `x` and returns it or has returned it. -/
def Took (s : State T) (i : Nat) (x : T) : Prop :=
  s.consumers[i]? = some (.got x) ∨ s.consumers[i]? = some (.returned x)

structure OnceInv (s : State T) : Prop where
  order : s.popped.map Prod.snd ++ s.data = s.pushed
  took : ∀ i x, Took s i x ↔ (i, x) ∈ s.popped
  calls : (s.popped.map Prod.fst).Nodup

theorem once_congr {s s' : State T} (h : OnceInv s) (hd : s'.data = s.data) (hpo : s'.popped = s.popped)
    (hpu : s'.pushed = s.pushed) (ht : ∀ i x, Took s' i x ↔ Took s i x) : OnceInv s' :=
  ⟨by rw [hd, hpo, hpu]; exact h.order, fun i x => by rw [ht, hpo]; exact h.took i x, by rw [hpo]; exact h.calls⟩

theorem took_set {s s' : State T} {i : Nat} {p p' : CPc T} (hp : s.consumers[i]? = some p)
    (hc : s'.consumers = s.consumers.set i p') (h : ∀ x, (p' = .got x ∨ p' = .returned x) ↔ (p = .got x ∨ p = .returned x))
    (k : Nat) (x : T) : Took s' k x ↔ Took s k x := by
  unfold Took
  rw [hc, getElem?_set' hp]
  by_cases hk : k = i
  · subst hk
    rw [if_pos rfl, hp]
    simp only [Option.some.injEq]
    exact h x
  · rw [if_neg hk]

theorem once_step {s : State T} (h : OnceInv s) (a : Act T) : OnceInv (step s a) := by
  cases a with
  | push x =>
    refine ⟨?_, h.took, h.calls⟩
    show s.popped.map Prod.snd ++ (s.data ++ [x]) = s.pushed ++ [x]
    rw [← h.order, List.append_assoc]
  | spawn =>
    simp only [step]
    split
    · exact h
    · exact ⟨h.order, h.took, h.calls⟩
  | notifier j =>
    simp only [step]
    split
    · rename_i pc _
      cases pc with
      | popB =>
        simp only [notifierStep]
        split <;> exact ⟨h.order, h.took, h.calls⟩
      | waiting b =>
        simp only [notifierStep]
        split <;> exact ⟨h.order, h.took, h.calls⟩
      | _ => exact ⟨h.order, h.took, h.calls⟩
    · exact h
  | call =>
    refine once_congr h rfl rfl rfl fun i x => ?_
    show ((s.consumers ++ [CPc.start])[i]? = _ ∨ (s.consumers ++ [CPc.start])[i]? = _) ↔ _
    rw [getElem?_append_one, getElem?_append_one]
    simp [Took]
  | cancel i =>
    simp only [step]
    split
    · rename_i pc hp
      cases pc with
      | waiting b => exact once_congr h rfl rfl rfl (took_set hp rfl (by simp))
      | _ => exact h
    · exact h
  | consumer i =>
    simp only [step]
    split
    · rename_i pc hp
      cases pc with
      | start => exact once_congr h rfl rfl rfl (took_set hp rfl (by simp))
      | tryPop =>
        simp only [consumerStep]
        split
        · rename_i x rest hd
          have hni : ∀ y, (i, y) ∉ s.popped := by
            intro y hy
            rcases (h.took i y).mpr hy with h' | h' <;> rw [hp] at h' <;> cases h'
          refine ⟨?_, ?_, ?_⟩
          · show (s.popped ++ [(i, x)]).map Prod.snd ++ rest = s.pushed
            rw [← h.order, hd]
            simp
          · intro k y
            show ((s.consumers.set i (.got x))[k]? = _ ∨ (s.consumers.set i (.got x))[k]? = _) ↔ (k, y) ∈ s.popped ++ [(i, x)]
            rw [getElem?_set' hp, List.mem_append, ← h.took k y]
            by_cases hk : k = i
            · subst hk
              rw [if_pos rfl]
              simp only [Took, hp]
              simp [eq_comm]
            · rw [if_neg hk]
              simp [Took, hk]
          · show ((s.popped ++ [(i, x)]).map Prod.fst).Nodup
            rw [List.map_append, List.nodup_append]
            refine ⟨h.calls, by simp, ?_⟩
            intro a ha b hb hab
            simp only [List.map_cons, List.map_nil, List.mem_singleton] at hb
            rw [List.mem_map] at ha
            obtain ⟨⟨a', y⟩, hm, rfl⟩ := ha
            simp only at hab
            subst hab
            subst hb
            exact hni y hm
        · exact once_congr h rfl rfl rfl (took_set hp rfl (by simp))
      | pushB => exact once_congr h rfl rfl rfl (took_set hp rfl (by simp))
      | arrive b => exact once_congr h rfl rfl rfl (took_set hp rfl (by simp))
      | waiting b =>
        simp only [consumerStep]
        split
        · exact h
        · exact once_congr h rfl rfl rfl (took_set hp rfl (by simp))
      | got x => exact once_congr h rfl rfl rfl (took_set hp rfl (by simp))
      | returned x => exact h
      | cancelled => exact h
    · exact h

theorem once_run (acts : List (Act T)) {s : State T} (h : OnceInv s) : OnceInv (run s acts) := by
  induction acts generalizing s with
  | nil => exact h
  | cons a as ih => exact ih (once_step h a)

/-- What a schedule pushes, in order. -/
def pushes : List (Act T) → List T
  | [] => []
  | .push x :: as => x :: pushes as
  | _ :: as => pushes as

theorem pushed_step (s : State T) (a : Act T) :
    (step s a).pushed = s.pushed ++ pushes [a] := by
  cases a with
  | push x => rfl
  | spawn => simp only [step]; split <;> simp [pushes]
  | notifier j =>
    simp only [step]
    split
    · rename_i pc _
      cases pc <;> simp only [notifierStep] <;> (try split) <;> simp [pushes]
    · simp [pushes]
  | call => simp [step, pushes]
  | cancel i =>
    simp only [step]
    split
    · rename_i pc _
      cases pc <;> simp [cancelStep, pushes]
    · simp [pushes]
  | consumer i =>
    simp only [step]
    split
    · rename_i pc _
      cases pc <;> simp only [consumerStep] <;> (try split) <;> simp [pushes]
    · simp [pushes]

theorem pushes_cons (a : Act T) (as : List (Act T)) : pushes (a :: as) = pushes [a] ++ pushes as := by
  cases a <;> simp [pushes]

theorem pushed_run (acts : List (Act T)) (s : State T) : (run s acts).pushed = s.pushed ++ pushes acts := by
  induction acts generalizing s with
  | nil => simp [run, pushes]
  | cons a as ih =>
    rw [pushes_cons]
    show (run (step s a) as).pushed = _
    rw [ih, pushed_step, List.append_assoc]

/-- **C51 (exactly once, in order).** After any schedule there is a list of (call, item) pairs, all calls
different, such that the items in it followed by what is still queued are exactly what was pushed, in order,
and a call has taken (and returns) an item exactly if the list says so. -/
theorem C51_exactly_once (acts : List (Act T)) :
    ∃ taken : List (Nat × T),
      taken.map Prod.snd ++ (run State.init acts).data = pushes acts ∧
      (taken.map Prod.fst).Nodup ∧
      ∀ i x, Took (run State.init acts) i x ↔ (i, x) ∈ taken := by
  have h0 : OnceInv (State.init : State T) := by
    refine ⟨rfl, fun i x => ?_, ?_⟩ <;> simp [State.init, Took]
  have h := once_run acts h0
  refine ⟨(run State.init acts).popped, ?_, h.calls, h.took⟩
  rw [h.order, pushed_run]
  rfl

/-! ## No lost wake-ups: the claim, and why it is false -/

/-- **C51 (full).** In a fair schedule a call of `pop` that is never dropped does not wait forever while
there is data. -/
def C51_full : Prop :=
  ∀ (T : Type) (sched : Nat → Act T), Fair sched → ∀ i k : Nat,
    (∃ p, (states sched k).consumers[i]? = some p ∧ p ≠ .cancelled) →
    (∀ k', k ≤ k' → sched k' ≠ .cancel i) →
    (∀ k', k ≤ k' → (states sched k').data ≠ []) →
    ∃ k', k ≤ k' ∧ ∃ x, (states sched k').consumers[i]? = some (.returned x)

/-- Two calls wait, the first is dropped, one item is pushed and its notifier runs to the end. -/
def lostPrefix : List (Act Nat) :=
  [.call, .call, .consumer 0, .consumer 0, .consumer 0, .consumer 0,
   .consumer 1, .consumer 1, .consumer 1, .consumer 1,
   .cancel 0, .push 7, .spawn, .notifier 0, .notifier 0, .notifier 0]

/-- Then nothing happens any more. -/
def lostSched (k : Nat) : Act Nat := (lostPrefix[k]?).getD (.consumer 0)

/-- Where it ends: one item, a finished notifier, and the second call waiting at its barrier. -/
def lostState : State Nat :=
  { data := [7], barriers := [1], bars := [⟨2, 0, some 0⟩, ⟨1, 1, none⟩], sync := 2, toSpawn := 0,
    notifiers := [.done], consumers := [.cancelled, .waiting 1], pushed := [7], popped := [] }

theorem lost_states (k : Nat) : states lostSched (16 + k) = lostState := by
  induction k with
  | zero => rfl
  | succ k ih =>
    show step (states lostSched (16 + k)) (lostSched (16 + k)) = lostState
    rw [ih]
    have : lostSched (16 + k) = .consumer 0 := by
      unfold lostSched
      rw [List.getElem?_eq_none (by simp [lostPrefix])]
      rfl
    rw [this]
    rfl

theorem lost_fair : Fair lostSched := by
  have far : ∀ k, k ≤ 16 + k := fun k => by omega
  refine ⟨fun i k h => ?_, fun j k h => ?_, fun k h => ?_⟩
  · have := h _ (far k)
    rw [lost_states] at this
    match i, this with
    | 0, this => exact this.elim
    | 1, this => exact absurd this (by simp [ConsumerReady, lostState, State.count])
    | i + 2, this => exact this.elim
  · have := h _ (far k)
    rw [lost_states] at this
    match j, this with
    | 0, this => exact this.elim
    | j + 1, this => exact this.elim
  · have := h _ (far k)
    rw [lost_states] at this
    exact absurd this (by simp [lostState])

/-- **C51 (full) is false**: a dropped call takes the wake-up of another one. -/
theorem C51_full_false : ¬ C51_full := by
  intro h
  obtain ⟨k', hk, x, hx⟩ := h Nat lostSched lost_fair 1 16 ⟨.waiting 1, by rw [lost_states 0]; rfl, by simp⟩
    (fun k' hk => by
      unfold lostSched
      rw [List.getElem?_eq_none (by simpa [lostPrefix] using hk)]
      simp)
    (fun k' hk => by
      obtain ⟨d, rfl⟩ := Nat.exists_eq_add_of_le hk
      rw [lost_states]; simp [lostState])
  obtain ⟨d, rfl⟩ := Nat.exists_eq_add_of_le hk
  rw [lost_states] at hx
  simp [lostState] at hx

/-! ## What a step leaves alone -/

theorem consumers_other {s : State T} {a : Act T} {i : Nat} {p : CPc T} (h : s.consumers[i]? = some p)
    (h1 : a ≠ .consumer i) (h2 : a ≠ .cancel i) : (step s a).consumers[i]? = some p := by
  cases a with
  | push x => exact h
  | spawn => simp only [step]; split <;> exact h
  | notifier j =>
    simp only [step]
    split
    · rename_i pc _
      cases pc <;> simp only [notifierStep] <;> (try split) <;> exact h
    · exact h
  | call => exact (getElem?_append_one _ _ _ _).mpr (.inl h)
  | cancel k =>
    have hk : i ≠ k := fun e => h2 (by rw [e])
    simp only [step]
    split
    · rename_i pc hp
      cases pc <;> simp only [cancelStep] <;> first | exact h | (rw [getElem?_set' hp, if_neg hk]; exact h)
    · exact h
  | consumer k =>
    have hk : i ≠ k := fun e => h1 (by rw [e])
    simp only [step]
    split
    · rename_i pc hp
      cases pc <;> simp only [consumerStep] <;> (try split) <;>
        first | exact h | (rw [getElem?_set' hp, if_neg hk]; exact h)
    · exact h

theorem notifiers_other {s : State T} {a : Act T} {j : Nat} {p : NPc} (h : s.notifiers[j]? = some p)
    (h1 : a ≠ .notifier j) : (step s a).notifiers[j]? = some p := by
  cases a with
  | push x => exact h
  | spawn =>
    simp only [step]
    split
    · exact h
    · exact (getElem?_append_one _ _ _ _).mpr (.inl h)
  | notifier k =>
    have hk : j ≠ k := fun e => h1 (by rw [e])
    simp only [step]
    split
    · rename_i pc hp
      cases pc <;> simp only [notifierStep] <;> (try split) <;>
        first | exact h | (rw [getElem?_set' hp, if_neg hk]; exact h)
    · exact h
  | call => exact h
  | cancel k =>
    simp only [step]
    split
    · rename_i pc hp
      cases pc <;> exact h
    · exact h
  | consumer k =>
    simp only [step]
    split
    · rename_i pc hp
      cases pc <;> simp only [consumerStep] <;> (try split) <;> exact h
    · exact h

theorem count_arriveAt_le (s s' : State T) (b k : Nat) (h : s'.bars = arriveAt s.bars b) : s.count k ≤ s'.count k := by
  unfold State.count
  rw [h, getElem?_arriveAt]
  by_cases hk : k = b
  · rw [if_pos hk]
    cases s.bars[k]? with
    | none => exact Nat.le_refl _
    | some r => show r.count ≤ r.count + 1; omega
  · rw [if_neg hk]; exact Nat.le_refl _

theorem count_mono (s : State T) (a : Act T) (b : Nat) : s.count b ≤ (step s a).count b := by
  cases a with
  | push x => exact Nat.le_refl _
  | spawn => simp only [step]; split <;> exact Nat.le_refl _
  | notifier j =>
    simp only [step]
    split
    · rename_i pc _
      cases pc with
      | check => exact Nat.le_refl _
      | popB =>
        simp only [notifierStep]
        split
        · exact Nat.le_refl _
        · refine Nat.le_of_eq (Eq.symm ?_)
          exact count_take (s := s)
      | arrive b' => exact count_arriveAt_le _ _ b' b rfl
      | waiting b' => simp only [notifierStep]; split <;> exact Nat.le_refl _
      | done => exact Nat.le_refl _
    · exact Nat.le_refl _
  | call => exact Nat.le_refl _
  | cancel k =>
    simp only [step]
    split
    · rename_i pc hp
      cases pc <;> exact Nat.le_refl _
    · exact Nat.le_refl _
  | consumer k =>
    simp only [step]
    split
    · rename_i pc hp
      cases pc with
      | pushB =>
        unfold State.count
        simp only [consumerStep]
        cases hb : s.bars[b]? with
        | none => exact Nat.zero_le _
        | some r =>
          rw [(getElem?_append_one _ _ _ _).mpr (.inl hb)]
          exact Nat.le_refl _
      | arrive b' => exact count_arriveAt_le _ _ b' b rfl
      | tryPop => simp only [consumerStep]; split <;> exact Nat.le_refl _
      | waiting b' => simp only [consumerStep]; split <;> exact Nat.le_refl _
      | _ => exact Nat.le_refl _
    · exact Nat.le_refl _

theorem count_mono_states (sched : Nat → Act T) (b : Nat) {k k' : Nat} (h : k ≤ k') :
    (states sched k).count b ≤ (states sched k').count b := by
  induction h with
  | refl => exact Nat.le_refl _
  | step _ ih => exact Nat.le_trans ih (count_mono _ _ _)

theorem toSpawn_other (s : State T) {a : Act T} (h : a ≠ .spawn) : s.toSpawn ≤ (step s a).toSpawn := by
  cases a with
  | push x => exact Nat.le_succ _
  | spawn => exact absurd rfl h
  | notifier j =>
    simp only [step]
    split
    · rename_i pc _
      cases pc <;> simp only [notifierStep] <;> (try split) <;> exact Nat.le_refl _
    · exact Nat.le_refl _
  | call => exact Nat.le_refl _
  | cancel k =>
    simp only [step]
    split
    · rename_i pc hp
      cases pc <;> exact Nat.le_refl _
    · exact Nat.le_refl _
  | consumer k =>
    simp only [step]
    split
    · rename_i pc hp
      cases pc <;> simp only [consumerStep] <;> (try split) <;> exact Nat.le_refl _
    · exact Nat.le_refl _

/-! ## Progress of single threads -/

section
variable {sched : Nat → Act T}

/-- A call that stays ready at `p` makes its step from there. -/
theorem adv_consumer (hf : Fair sched) {i k : Nat} {p : CPc T} (h : (states sched k).consumers[i]? = some p)
    (hr : ∀ k', k ≤ k' → (states sched k').consumers[i]? = some p → ConsumerReady (states sched k') i)
    (hnc : ∀ k', k ≤ k' → sched k' ≠ .cancel i) :
    ∃ k', k ≤ k' ∧ (states sched k').consumers[i]? = some p ∧ sched k' = .consumer i := by
  refine Classical.byContradiction fun hno => ?_
  have hstay : ∀ d, (states sched (k + d)).consumers[i]? = some p := by
    intro d
    induction d with
    | zero => exact h
    | succ d ih =>
      exact consumers_other ih (fun e => hno ⟨k + d, by omega, ih, e⟩) (hnc (k + d) (by omega))
  have hstay' : ∀ k', k ≤ k' → (states sched k').consumers[i]? = some p := by
    intro k' hk
    obtain ⟨d, rfl⟩ := Nat.exists_eq_add_of_le hk
    exact hstay d
  obtain ⟨k', hk, he⟩ := hf.consumer i k fun k' hk => hr k' hk (hstay' k' hk)
  exact hno ⟨k', hk, hstay' k' hk, he⟩

theorem adv_notifier (hf : Fair sched) {j k : Nat} {p : NPc} (h : (states sched k).notifiers[j]? = some p)
    (hr : ∀ k', k ≤ k' → (states sched k').notifiers[j]? = some p → NotifierReady (states sched k') j) :
    ∃ k', k ≤ k' ∧ (states sched k').notifiers[j]? = some p ∧ sched k' = .notifier j := by
  refine Classical.byContradiction fun hno => ?_
  have hstay : ∀ d, (states sched (k + d)).notifiers[j]? = some p := by
    intro d
    induction d with
    | zero => exact h
    | succ d ih => exact notifiers_other ih (fun e => hno ⟨k + d, by omega, ih, e⟩)
  have hstay' : ∀ k', k ≤ k' → (states sched k').notifiers[j]? = some p := by
    intro k' hk
    obtain ⟨d, rfl⟩ := Nat.exists_eq_add_of_le hk
    exact hstay d
  obtain ⟨k', hk, he⟩ := hf.notifier j k fun k' hk => hr k' hk (hstay' k' hk)
  exact hno ⟨k', hk, hstay' k' hk, he⟩

theorem step_consumer {s : State T} {i : Nat} {p : CPc T} (h : s.consumers[i]? = some p) :
    step s (.consumer i) = consumerStep s i p := by
  simp only [step, h]

theorem step_notifier {s : State T} {j : Nat} {p : NPc} (h : s.notifiers[j]? = some p) :
    step s (.notifier j) = notifierStep s j p := by
  simp only [step, h]

theorem get_set_self {α : Type} {l : List α} {i : Nat} {x y : α} (h : l[i]? = some x) : (l.set i y)[i]? = some y := by
  rw [getElem?_set' h, if_pos rfl]

/-- A call that is about to look for data takes an item. -/
theorem tryPop_takes (hf : Fair sched) {i k : Nat} (h : (states sched k).consumers[i]? = some .tryPop)
    (hnc : ∀ k', k ≤ k' → sched k' ≠ .cancel i) (hd : ∀ k', k ≤ k' → (states sched k').data ≠ []) :
    ∃ k', k ≤ k' ∧ (∃ x, (states sched (k' + 1)).consumers[i]? = some (.got x)) ∧
      (states sched (k' + 1)).data.length + 1 = (states sched k').data.length := by
  obtain ⟨k', hk, hp, he⟩ := adv_consumer hf h (fun k' _ hp => by simp [ConsumerReady, hp]) hnc
  refine ⟨k', hk, ?_⟩
  show (∃ x, (step (states sched k') (sched k')).consumers[i]? = _) ∧
    (step (states sched k') (sched k')).data.length + 1 = _
  rw [he, step_consumer hp]
  simp only [consumerStep]
  cases hq : (states sched k').data with
  | nil => exact absurd hq (hd k' hk)
  | cons x rest => exact ⟨⟨x, get_set_self hp⟩, rfl⟩

theorem got_returns (hf : Fair sched) {i k : Nat} {x : T} (h : (states sched k).consumers[i]? = some (.got x))
    (hnc : ∀ k', k ≤ k' → sched k' ≠ .cancel i) :
    ∃ k', k ≤ k' ∧ (states sched k').consumers[i]? = some (.returned x) := by
  obtain ⟨k', hk, hp, he⟩ := adv_consumer hf h (fun k' _ hp => by simp [ConsumerReady, hp]) hnc
  refine ⟨k' + 1, by omega, ?_⟩
  show (step (states sched k') (sched k')).consumers[i]? = _
  rw [he, step_consumer hp]
  exact get_set_self hp

theorem tryPop_returns (hf : Fair sched) {i k : Nat} (h : (states sched k).consumers[i]? = some .tryPop)
    (hnc : ∀ k', k ≤ k' → sched k' ≠ .cancel i) (hd : ∀ k', k ≤ k' → (states sched k').data ≠ []) :
    ∃ k', k ≤ k' ∧ ∃ x, (states sched k').consumers[i]? = some (.returned x) := by
  obtain ⟨k', hk, ⟨x, hx⟩, _⟩ := tryPop_takes hf h hnc hd
  obtain ⟨k'', hk', hx'⟩ := got_returns hf hx (fun m hm => hnc m (by omega))
  exact ⟨k'', by omega, x, hx'⟩

/-- **C51 (calls that are not waiting yet).** In every fair schedule, dropped calls of others included, a
call that has just begun, is about to look for data or has found some returns if data stays available. What
is missing is the call that waits at a barrier already. -/
theorem C51_arriving_partial (hf : Fair sched) (i k : Nat) {p : CPc T}
    (hp : (states sched k).consumers[i]? = some p) (hpc : p = .start ∨ p = .tryPop ∨ ∃ x, p = .got x)
    (hnc : ∀ k', k ≤ k' → sched k' ≠ .cancel i) (hd : ∀ k', k ≤ k' → (states sched k').data ≠ []) :
    ∃ k', k ≤ k' ∧ ∃ x, (states sched k').consumers[i]? = some (.returned x) := by
  rcases hpc with rfl | rfl | ⟨x, rfl⟩
  · obtain ⟨k', hk, hp', he⟩ := adv_consumer hf hp (fun k' _ hp => by simp [ConsumerReady, hp]) hnc
    have : (states sched (k' + 1)).consumers[i]? = some .tryPop := by
      show (step (states sched k') (sched k')).consumers[i]? = _
      rw [he, step_consumer hp']
      exact get_set_self hp'
    obtain ⟨k'', hk', hx⟩ := tryPop_returns hf this (fun m hm => hnc m (by omega)) (fun m hm => hd m (by omega))
    exact ⟨k'', by omega, hx⟩
  · exact tryPop_returns hf hp hnc hd
  · obtain ⟨k', hk, hx⟩ := got_returns hf hp hnc
    exact ⟨k', hk, x, hx⟩

/-- A released call looks for data again. -/
theorem released_tries (hf : Fair sched) {i k b : Nat} (h : (states sched k).consumers[i]? = some (.waiting b))
    (h2 : 2 ≤ (states sched k).count b) (hnc : ∀ k', k ≤ k' → sched k' ≠ .cancel i) :
    ∃ k', k ≤ k' ∧ (states sched k').consumers[i]? = some .tryPop := by
  obtain ⟨k', hk, hp, he⟩ := adv_consumer hf h (fun k' hk hp => by
    simp only [ConsumerReady, hp]
    exact Nat.le_trans h2 (count_mono_states sched b hk)) hnc
  refine ⟨k' + 1, by omega, ?_⟩
  show (step (states sched k') (sched k')).consumers[i]? = _
  rw [he, step_consumer hp]
  have := count_mono_states sched b hk
  simp only [consumerStep]
  rw [if_neg (by omega)]
  exact get_set_self hp

theorem adv_spawn (hf : Fair sched) {k : Nat} (h : 0 < (states sched k).toSpawn) :
    ∃ k', k ≤ k' ∧ 0 < (states sched k').toSpawn ∧ sched k' = .spawn := by
  refine Classical.byContradiction fun hno => ?_
  have hstay : ∀ d, 0 < (states sched (k + d)).toSpawn := by
    intro d
    induction d with
    | zero => exact h
    | succ d ih =>
      have hne : sched (k + d) ≠ .spawn := fun e => hno ⟨k + d, by omega, ih, e⟩
      exact Nat.lt_of_lt_of_le ih (toSpawn_other _ hne)
  have hstay' : ∀ k', k ≤ k' → 0 < (states sched k').toSpawn := by
    intro k' hk
    obtain ⟨d, rfl⟩ := Nat.exists_eq_add_of_le hk
    exact hstay d
  obtain ⟨k', hk, he⟩ := hf.spawn k hstay'
  exact hno ⟨k', hk, hstay' k' hk, he⟩

theorem inv_states (hnc : ∀ k i, sched k ≠ .cancel i) (k : Nat) : Inv (states sched k) := by
  induction k with
  | zero => exact inv_init
  | succ k ih => exact inv_step ih _ (hnc k)

theorem no_descent (f : Nat → Nat) (k1 : Nat) (h : ∀ k, k1 ≤ k → ∃ k', k ≤ k' ∧ f k' < f k) : False := by
  have : ∀ n k, k1 ≤ k → f k ≤ n → False := by
    intro n
    induction n with
    | zero =>
      intro k hk hn
      obtain ⟨k', _, hlt⟩ := h k hk
      omega
    | succ n ih =>
      intro k hk hn
      obtain ⟨k', hk', hlt⟩ := h k hk
      exact ih k' (by omega) (by omega)
  exact this _ k1 (Nat.le_refl _) (Nat.le_refl _)

/-- A call about to arrive at its barrier arrives. -/
theorem arriveC_arrives (hf : Fair sched) (hnc : ∀ k i, sched k ≠ .cancel i) {i k b : Nat}
    (h : (states sched k).consumers[i]? = some (.arrive b)) :
    ∃ k', k < k' ∧ (states sched k').consumers[i]? = some (.waiting b) ∧
      (states sched k).count b + 1 ≤ (states sched k').count b := by
  obtain ⟨k', hk, hp, he⟩ := adv_consumer hf h (fun k' _ hp => by simp [ConsumerReady, hp]) (fun k' _ => hnc k' i)
  obtain ⟨r, hr, _⟩ := (inv_states hnc k').cons i b (.inl hp)
  refine ⟨k' + 1, by omega, ?_, ?_⟩
  · show (step (states sched k') (sched k')).consumers[i]? = _
    rw [he, step_consumer hp]
    exact get_set_self hp
  · have h1 : (states sched (k' + 1)).count b = r.count + 1 := by
      rw [count_arrive (s := states sched k') hr, if_pos rfl]
      show (step (states sched k') (sched k')).bars = _
      rw [he, step_consumer hp]
      rfl
    have h2 := count_mono_states sched b hk
    rw [count_of hr] at h2
    omega

/-- A released call takes an item. -/
theorem activeC_takes (hf : Fair sched) (hnc : ∀ k i, sched k ≠ .cancel i) {i k : Nat} {p : CPc T}
    (h : (states sched k).consumers[i]? = some p) (ha : cActive (states sched k).count p = true)
    (hd : ∀ k', k ≤ k' → (states sched k').data ≠ []) :
    ∃ k', k ≤ k' ∧ (states sched (k' + 1)).data.length + 1 = (states sched k').data.length := by
  have htry : ∃ k', k ≤ k' ∧ (states sched k').consumers[i]? = some .tryPop := by
    cases p with
    | tryPop => exact ⟨k, Nat.le_refl _, h⟩
    | waiting b =>
      exact released_tries hf h (by simpa [cActive] using ha) (fun k' _ => hnc k' i)
    | _ => cases ha
  obtain ⟨k', hk, ht⟩ := htry
  obtain ⟨k'', hk', _, hl⟩ := tryPop_takes hf ht (fun m _ => hnc m i) (fun m hm => hd m (by omega))
  exact ⟨k'', by omega, hl⟩

/-- A barrier whose second party has arrived has a call that takes an item, unless it has moved on. -/
theorem full_takes (hf : Fair sched) (hnc : ∀ k i, sched k ≠ .cancel i) {i k b : Nat}
    (h : (states sched k).consumers[i]? = some (.waiting b)) (h2 : ∃ k', k ≤ k' ∧ 2 ≤ (states sched k').count b)
    (hd : ∀ k', k ≤ k' → (states sched k').data ≠ []) :
    ∃ k', k ≤ k' ∧ (states sched (k' + 1)).data.length + 1 = (states sched k').data.length := by
  obtain ⟨k', hk, hc⟩ := h2
  -- either it still waits at k' or it has left before
  have : ∀ d, (states sched (k + d)).consumers[i]? = some (.waiting b) ∨
      ∃ m, k ≤ m ∧ (states sched m).consumers[i]? = some .tryPop := by
    intro d
    induction d with
    | zero => exact .inl h
    | succ d ih =>
      rcases ih with ih | ih
      · by_cases he : sched (k + d) = .consumer i
        · have hs : states sched (k + d + 1) = consumerStep (states sched (k + d)) i (.waiting b) := by
            show step (states sched (k + d)) (sched (k + d)) = _
            rw [he, step_consumer ih]
          by_cases hc' : (states sched (k + d)).count b < 2
          · refine .inl ?_
            show (states sched (k + d + 1)).consumers[i]? = _
            rw [hs]
            simp only [consumerStep]
            rw [if_pos hc']
            exact ih
          · refine .inr ⟨k + d + 1, by omega, ?_⟩
            rw [hs]
            simp only [consumerStep]
            rw [if_neg hc']
            exact get_set_self ih
        · exact .inl (consumers_other ih he (hnc _ i))
      · exact .inr ih
  obtain ⟨d, rfl⟩ := Nat.exists_eq_add_of_le hk
  rcases this d with hw | ⟨m, hm, ht⟩
  · obtain ⟨m, hm, hl⟩ := activeC_takes hf hnc hw (by simpa [cActive] using hc) (fun m hm => hd m (by omega))
    exact ⟨m, by omega, hl⟩
  · obtain ⟨m', hm', hl⟩ := activeC_takes hf hnc ht rfl (fun m' hm' => hd m' (by omega))
    exact ⟨m', by omega, hl⟩

/-- A notifier that waits at a barrier leads to an item being taken. -/
theorem waitingN_takes (hf : Fair sched) (hnc : ∀ k i, sched k ≠ .cancel i) {j k b : Nat}
    (h : (states sched k).notifiers[j]? = some (.waiting b)) (hlt : (states sched k).count b < 2)
    (hd : ∀ k', k ≤ k' → (states sched k').data ≠ []) :
    ∃ k', k ≤ k' ∧ (states sched (k' + 1)).data.length + 1 = (states sched k').data.length := by
  have hinv := inv_states hnc k
  obtain ⟨r, hr, ht⟩ := hinv.nots j b (.inr h)
  have hok := hinv.bars b r hr
  have hcount := hok.count
  rw [count_of hr] at hlt
  rw [ht] at hcount
  simp only [h, nAt_ne (p := some (NPc.waiting b)) (b := b) (by simp)] at hcount
  have hc : (states sched k).consumers[r.owner]? = some (.arrive b) := by
    rcases hok.cons hlt with hc | hc
    · exact hc
    · rw [hc, cAt_ne (by simp)] at hcount; omega
  obtain ⟨m, hm, hw, hcm⟩ := arriveC_arrives hf hnc hc
  rw [count_of hr, hcount] at hcm
  obtain ⟨m', hm', hl⟩ := full_takes hf hnc hw ⟨m, Nat.le_refl _, by omega⟩ (fun m' hm' => hd m' (by omega))
  exact ⟨m', by omega, hl⟩

/-- A notifier that is about to arrive at a barrier arrives, as second party or to wait there. -/
theorem arriveN_arrives (hf : Fair sched) (hnc : ∀ k i, sched k ≠ .cancel i) {j k b : Nat}
    (h : (states sched k).notifiers[j]? = some (.arrive b)) :
    ∃ k', k ≤ k' ∧
      (((states sched (k' + 1)).notifiers[j]? = some (.waiting b) ∧ (states sched (k' + 1)).count b < 2) ∨
       ((∃ i : Nat, (states sched k').consumers[i]? = some (.waiting b)) ∧ 2 ≤ (states sched (k' + 1)).count b)) := by
  obtain ⟨k', hk, hp, he⟩ := adv_notifier hf h (fun k' _ hp => by simp [NotifierReady, hp])
  have hinv := inv_states hnc k'
  obtain ⟨r, hr, ht⟩ := hinv.nots j b (.inl hp)
  have hok := hinv.bars b r hr
  have hcount := hok.count
  rw [ht] at hcount
  simp only [hp, nAt_arrive] at hcount
  have h1 : (states sched (k' + 1)).count b = r.count + 1 := by
    rw [count_arrive (s := states sched k') hr, if_pos rfl]
    show (step (states sched k') (sched k')).bars = _
    rw [he, step_notifier hp]
    rfl
  refine ⟨k', hk, ?_⟩
  by_cases h0 : r.count = 0
  · refine .inl ⟨?_, by omega⟩
    show (step (states sched k') (sched k')).notifiers[j]? = _
    rw [he, step_notifier hp]
    simp only [notifierStep]
    rw [get_set_self hp, count_of hr, if_pos h0]
  · refine .inr ⟨⟨r.owner, ?_⟩, by omega⟩
    have hle : cAt (states sched k').consumers[r.owner]? b ≤ 1 := by
      unfold cAt; split
      · split <;> omega
      · omega
    rcases hok.cons (by omega) with hc | hc
    · rw [hc, cAt_arrive] at hcount; omega
    · exact hc

theorem activeN_takes (hf : Fair sched) (hnc : ∀ k i, sched k ≠ .cancel i) {j k b : Nat}
    (h : (states sched k).notifiers[j]? = some (.arrive b))
    (hd : ∀ k', k ≤ k' → (states sched k').data ≠ []) :
    ∃ k', k ≤ k' ∧ (states sched (k' + 1)).data.length + 1 = (states sched k').data.length := by
  obtain ⟨m, hm, ⟨hw, hlt⟩ | ⟨⟨i, hi⟩, h2⟩⟩ := arriveN_arrives hf hnc h
  · obtain ⟨m', hm', hl⟩ := waitingN_takes hf hnc hw hlt (fun m' hm' => hd m' (by omega))
    exact ⟨m', by omega, hl⟩
  · obtain ⟨m', hm', hl⟩ := full_takes hf hnc hi ⟨m + 1, by omega, h2⟩ (fun m' hm' => hd m' (by omega))
    exact ⟨m', by omega, hl⟩

/-! ## The call that waits -/

/-- What a step does to the queue of barriers. -/
theorem barriers_step (s : State T) (a : Act T) :
    (step s a).barriers = s.barriers ∨ (∃ n, (step s a).barriers = s.barriers ++ [n]) ∨
      ∃ x, s.barriers = x :: (step s a).barriers := by
  cases a with
  | push x => exact .inl rfl
  | spawn => simp only [step]; split <;> exact .inl rfl
  | notifier j =>
    simp only [step]
    split
    · rename_i pc _
      cases pc with
      | popB =>
        simp only [notifierStep]
        split
        · rename_i hq; exact .inl rfl
        · rename_i b rest hq; exact .inr (.inr ⟨b, hq⟩)
      | waiting b => simp only [notifierStep]; split <;> exact .inl rfl
      | _ => exact .inl rfl
    · exact .inl rfl
  | call => exact .inl rfl
  | cancel k =>
    simp only [step]
    split
    · rename_i pc hp
      cases pc <;> exact .inl rfl
    · exact .inl rfl
  | consumer k =>
    simp only [step]
    split
    · rename_i pc hp
      cases pc with
      | pushB => exact .inr (.inl ⟨_, rfl⟩)
      | tryPop => simp only [consumerStep]; split <;> exact .inl rfl
      | waiting b => simp only [consumerStep]; split <;> exact .inl rfl
      | _ => exact .inl rfl
    · exact .inl rfl

/-- Data grows only by a push. -/
theorem data_step (s : State T) (a : Act T) (h : ∀ x, a ≠ .push x) : (step s a).data.length ≤ s.data.length := by
  cases a with
  | push x => exact absurd rfl (h x)
  | spawn => simp only [step]; split <;> exact Nat.le_refl _
  | notifier j =>
    simp only [step]
    split
    · rename_i pc _
      cases pc <;> simp only [notifierStep] <;> (try split) <;> exact Nat.le_refl _
    · exact Nat.le_refl _
  | call => exact Nat.le_refl _
  | cancel k =>
    simp only [step]
    split
    · rename_i pc hp
      cases pc <;> exact Nat.le_refl _
    · exact Nat.le_refl _
  | consumer k =>
    simp only [step]
    split
    · rename_i pc hp
      cases pc <;> simp only [consumerStep] <;> (try split) <;> first | exact Nat.le_refl _ | skip
      rename_i hd
      rw [hd]
      exact Nat.le_succ _
    · exact Nat.le_refl _

/-- A call cannot wait at its barrier forever while there is data. -/
theorem stuck_false (hf : Fair sched) (hnc : ∀ k i, sched k ≠ .cancel i) {i b k1 : Nat}
    (hw : ∀ k, k1 ≤ k → (states sched k).consumers[i]? = some (.waiting b))
    (hc : ∀ k, k1 ≤ k → (states sched k).count b < 2)
    (hd : ∀ k, k1 ≤ k → (states sched k).data ≠ []) : False := by
  -- its barrier stays in the queue
  have hq : ∀ k, k1 ≤ k → b ∈ (states sched k).barriers := by
    intro k hk
    have hinv := inv_states hnc k
    obtain ⟨r, hr, ho⟩ := hinv.cons i b (.inr (hw k hk))
    have hok := hinv.bars b r hr
    have hlt := hc k hk
    rw [count_of hr] at hlt
    cases ht : r.taker with
    | none => exact hok.queue.mp ht
    | some j =>
      exfalso
      have hcount := hok.count
      rw [ht, ho, hw k hk, cAt_ne (by simp)] at hcount
      simp only at hcount
      rcases hok.nots j ht hlt with hn | hn
      · obtain ⟨m, hm, ⟨hwn, hlt'⟩ | ⟨_, h2⟩⟩ := arriveN_arrives hf hnc hn
        · have hinv' := inv_states hnc (m + 1)
          obtain ⟨r', hr', ht'⟩ := hinv'.nots j b (.inr hwn)
          have hcount' := (hinv'.bars b r' hr').count
          obtain ⟨r'', hr'', ho''⟩ := hinv'.cons i b (.inr (hw (m + 1) (by omega)))
          rw [hr'] at hr''
          cases hr''
          rw [ht', ho'', hw (m + 1) (by omega), cAt_ne (by simp)] at hcount'
          simp only [hwn, nAt_ne (p := some (NPc.waiting b)) (b := b) (by simp)] at hcount'
          rw [count_of hr'] at hlt'
          omega
        · have := hc (m + 1) (by omega)
          omega
      · rw [hn, nAt_ne (by simp)] at hcount
        omega
  -- so its position in the queue cannot decrease forever
  refine no_descent (fun k => (states sched k).barriers.idxOf b) k1 fun m hm => ?_
  refine Classical.byContradiction fun hno => ?_
  have hge : ∀ k, m ≤ k → (states sched m).barriers.idxOf b ≤ (states sched k).barriers.idxOf b := by
    intro k hk
    refine Nat.le_of_not_lt fun hlt => hno ⟨k, hk, hlt⟩
  have hmono : ∀ k, m ≤ k → (states sched (k + 1)).barriers.idxOf b ≤ (states sched k).barriers.idxOf b ∧
      ((∃ x, (states sched k).barriers = x :: (states sched (k + 1)).barriers) →
        (states sched (k + 1)).barriers.idxOf b < (states sched k).barriers.idxOf b) := by
    intro k hk
    have hb := hq k (by omega)
    have hb' := hq (k + 1) (by omega)
    have hcase : ∀ x, (states sched k).barriers = x :: (states sched (k + 1)).barriers →
        (states sched (k + 1)).barriers.idxOf b < (states sched k).barriers.idxOf b := by
      intro x hx
      have hnd := (inv_states hnc k).nodup
      rw [hx, List.nodup_cons] at hnd
      have hne : x ≠ b := by rintro rfl; exact hnd.1 hb'
      rw [hx, List.idxOf_cons_ne _ hne]
      exact Nat.lt_succ_self _
    refine ⟨?_, fun ⟨x, hx⟩ => hcase x hx⟩
    rcases barriers_step (states sched k) (sched k) with h | ⟨n, h⟩ | ⟨x, h⟩
    · show (step _ _).barriers.idxOf b ≤ _
      rw [h]
      exact Nat.le_refl _
    · show (step _ _).barriers.idxOf b ≤ _
      rw [h, List.idxOf_append_of_mem hb]
      exact Nat.le_refl _
    · exact Nat.le_of_lt (hcase x h)
  have hle : ∀ d, (states sched (m + d)).barriers.idxOf b ≤ (states sched m).barriers.idxOf b := by
    intro d
    induction d with
    | zero => exact Nat.le_refl _
    | succ d ih => exact Nat.le_trans (hmono (m + d) (by omega)).1 ih
  have hnopop : ∀ k, m ≤ k → ¬ ∃ x, (states sched k).barriers = x :: (states sched (k + 1)).barriers := by
    intro k hk hx
    obtain ⟨d, rfl⟩ := Nat.exists_eq_add_of_le hk
    have h1 := (hmono (m + d) (by omega)).2 hx
    have h2 := hle d
    have h3 := hge (m + d + 1) (by omega)
    omega
  -- nobody comes for a barrier any more
  have hpopB : ∀ k, m ≤ k → ∀ j : Nat, (states sched k).notifiers[j]? ≠ some .popB := by
    intro k hk j hj
    obtain ⟨k', hk', hp, he⟩ := adv_notifier hf hj (fun k' _ hp => by simp [NotifierReady, hp])
    refine hnopop k' (by omega) ?_
    show ∃ x, _ = x :: (step (states sched k') (sched k')).barriers
    rw [he, step_notifier hp]
    simp only [notifierStep]
    cases hbq : (states sched k').barriers with
    | nil => have := hq k' (by omega); rw [hbq] at this; cases this
    | cons x rest => exact ⟨x, rfl⟩
  have hsync : ∀ k, m ≤ k → (states sched k).sync > 0 := by
    intro k hk
    rw [(inv_states hnc k).sync]
    exact List.countP_pos_iff.mpr ⟨_, List.mem_of_getElem? (hw k (by omega)), rfl⟩
  have hcheck : ∀ k, m ≤ k → ∀ j : Nat, (states sched k).notifiers[j]? ≠ some .check := by
    intro k hk j hj
    obtain ⟨k', hk', hp, he⟩ := adv_notifier hf hj (fun k' _ hp => by simp [NotifierReady, hp])
    refine hpopB (k' + 1) (by omega) j ?_
    show (step (states sched k') (sched k')).notifiers[j]? = _
    rw [he, step_notifier hp]
    simp only [notifierStep]
    rw [get_set_self hp, if_pos (hsync k' (by omega))]
  have hspawn : ∀ k, m ≤ k → (states sched k).toSpawn = 0 := by
    intro k hk
    refine Nat.eq_zero_of_not_pos fun hpos => ?_
    obtain ⟨k', hk', hp, he⟩ := adv_spawn hf hpos
    refine hcheck (k' + 1) (by omega) (states sched k').notifiers.length ?_
    show (step (states sched k') (sched k')).notifiers[_]? = _
    rw [he]
    simp only [step]
    rw [if_neg (by omega)]
    simp
  have hpush : ∀ k, m ≤ k → ∀ x, sched k ≠ .push x := by
    intro k hk x he
    have := hspawn (k + 1) (by omega)
    have h2 : (states sched (k + 1)).toSpawn = (states sched k).toSpawn + 1 := by
      show (step (states sched k) (sched k)).toSpawn = _
      rw [he]
      rfl
    omega
  -- so the data cannot decrease forever
  refine no_descent (fun k => (states sched k).data.length) m fun k hk => ?_
  have hdle : ∀ k', k ≤ k' → (states sched k').data.length ≤ (states sched k).data.length := by
    intro k' hk'
    induction hk' with
    | refl => exact Nat.le_refl _
    | step hk' ih =>
      rename_i n
      have hk'' : k ≤ n := hk'
      exact Nat.le_trans (data_step _ _ (hpush n (by omega))) ih
  have htake : ∃ k', k ≤ k' ∧ (states sched (k' + 1)).data.length + 1 = (states sched k').data.length := by
    have hd' : ∀ k', k ≤ k' → (states sched k').data ≠ [] := fun k' hk' => hd k' (by omega)
    have hen := (inv_states hnc k).enough ⟨_, List.mem_of_getElem? (hw k (by omega)), rfl⟩
    have hpos : 0 < (states sched k).data.length := List.length_pos_of_ne_nil (hd k (by omega))
    unfold weight at hen
    rw [hspawn k hk] at hen
    by_cases hN : 0 < (states sched k).notifiers.countP (nActive (states sched k).count)
    · obtain ⟨p, hp, ha⟩ := List.countP_pos_iff.mp hN
      obtain ⟨j, hj⟩ := List.mem_iff_getElem?.mp hp
      cases p with
      | check => exact absurd hj (hcheck k hk j)
      | popB => exact absurd hj (hpopB k hk j)
      | arrive b' => exact activeN_takes hf hnc hj hd'
      | waiting b' => exact waitingN_takes hf hnc hj (by simpa [nActive] using ha) hd'
      | done => cases ha
    · have hC : 0 < (states sched k).consumers.countP (cActive (states sched k).count) := by omega
      obtain ⟨p, hp, ha⟩ := List.countP_pos_iff.mp hC
      obtain ⟨i', hi'⟩ := List.mem_iff_getElem?.mp hp
      exact activeC_takes hf hnc hi' ha hd'
  obtain ⟨k', hk', hl⟩ := htake
  have := hdle k' hk'
  exact ⟨k' + 1, by omega, by show _ < _; omega⟩

/-- **C51 (no lost wake-ups without dropped calls).** In every fair schedule in which no call is dropped,
every call returns if data stays available. What is missing is exactly schedules with dropped calls, for
which it is false (`C51_full_false`). -/
theorem C51_waiting_partial (hf : Fair sched) (hnc : ∀ k i, sched k ≠ .cancel i) (i k : Nat) {p : CPc T}
    (hp : (states sched k).consumers[i]? = some p) (hpc : p ≠ .cancelled)
    (hd : ∀ k', k ≤ k' → (states sched k').data ≠ []) :
    ∃ k', k ≤ k' ∧ ∃ x, (states sched k').consumers[i]? = some (.returned x) := by
  have hnc' : ∀ k' : Nat, sched k' ≠ .cancel i := fun k' => hnc k' i
  -- the call that waits
  have hwait : ∀ k2 b, k ≤ k2 → (states sched k2).consumers[i]? = some (.waiting b) →
      ∃ k', k2 ≤ k' ∧ ∃ x, (states sched k').consumers[i]? = some (.returned x) := by
    intro k2 b hk2 hw
    refine Classical.byContradiction fun hno => ?_
    have hstay : ∀ d, (states sched (k2 + d)).consumers[i]? = some (.waiting b) ∧ (states sched (k2 + d)).count b < 2 := by
      have hrel : ∀ d, (states sched (k2 + d)).consumers[i]? = some (.waiting b) →
          (states sched (k2 + d)).count b < 2 := by
        intro d hwd
        refine Nat.lt_of_not_le fun h2 => hno ?_
        obtain ⟨k3, hk3, ht⟩ := released_tries hf hwd h2 (fun k' _ => hnc' k')
        obtain ⟨k4, hk4, hx⟩ := tryPop_returns hf ht (fun k' _ => hnc' k') (fun k' hk' => hd k' (by omega))
        exact ⟨k4, by omega, hx⟩
      intro d
      induction d with
      | zero => exact ⟨hw, hrel 0 hw⟩
      | succ d ih =>
        have : (states sched (k2 + (d + 1))).consumers[i]? = some (.waiting b) := by
          by_cases he : sched (k2 + d) = .consumer i
          · show (step (states sched (k2 + d)) (sched (k2 + d))).consumers[i]? = _
            rw [he, step_consumer ih.1]
            simp only [consumerStep]
            rw [if_pos ih.2]
            exact ih.1
          · exact consumers_other ih.1 he (hnc' _)
        exact ⟨this, hrel _ this⟩
    have hst : ∀ k', k2 ≤ k' → (states sched k').consumers[i]? = some (.waiting b) ∧ (states sched k').count b < 2 := by
      intro k' hk'
      obtain ⟨d, rfl⟩ := Nat.exists_eq_add_of_le hk'
      exact hstay d
    exact stuck_false hf hnc (fun k' hk' => (hst k' hk').1) (fun k' hk' => (hst k' hk').2) (fun k' hk' => hd k' (by omega))
  have harr : ∀ k2 b, k ≤ k2 → (states sched k2).consumers[i]? = some (.arrive b) →
      ∃ k', k2 ≤ k' ∧ ∃ x, (states sched k').consumers[i]? = some (.returned x) := by
    intro k2 b hk2 ha
    obtain ⟨k3, hk3, hw, _⟩ := arriveC_arrives hf hnc ha
    obtain ⟨k4, hk4, hx⟩ := hwait k3 b (by omega) hw
    exact ⟨k4, by omega, hx⟩
  cases p with
  | start => exact C51_arriving_partial hf i k hp (.inl rfl) (fun k' _ => hnc' k') hd
  | tryPop => exact C51_arriving_partial hf i k hp (.inr (.inl rfl)) (fun k' _ => hnc' k') hd
  | got x => exact C51_arriving_partial hf i k hp (.inr (.inr ⟨x, rfl⟩)) (fun k' _ => hnc' k') hd
  | pushB =>
    obtain ⟨k', hk, hp', he⟩ := adv_consumer hf hp (fun k' _ hp => by simp [ConsumerReady, hp]) (fun k' _ => hnc' k')
    have : (states sched (k' + 1)).consumers[i]? = some (.arrive (states sched k').bars.length) := by
      show (step (states sched k') (sched k')).consumers[i]? = _
      rw [he, step_consumer hp']
      exact get_set_self hp'
    obtain ⟨k4, hk4, hx⟩ := harr _ _ (by omega) this
    exact ⟨k4, by omega, hx⟩
  | arrive b => exact harr k b (Nat.le_refl _) hp
  | waiting b => exact hwait k b (Nat.le_refl _) hp
  | returned x => exact ⟨k, Nat.le_refl _, x, hp⟩
  | cancelled => exact absurd rfl hpc

end

/-! ## Notifier tasks end -/

/-- **C66 (full).** Once every call has returned or was dropped and no new ones are made, every notifier task
ends. -/
def C66_full : Prop :=
  ∀ (T : Type) (sched : Nat → Act T), Fair sched → ∀ j k : Nat,
    (∃ p, (states sched k).notifiers[j]? = some p) →
    (∀ k', k ≤ k' → ∀ p ∈ (states sched k').consumers, p = .cancelled ∨ ∃ x, p = .returned x) →
    ∃ k', k ≤ k' ∧ (states sched k').notifiers[j]? = some .done

/-- One call waits and is dropped; two items are pushed; the first notifier takes the barrier that is left. -/
def spinPrefix : List (Act Nat) :=
  [.call, .consumer 0, .consumer 0, .consumer 0, .consumer 0, .cancel 0,
   .push 7, .spawn, .notifier 0, .notifier 0, .notifier 0, .push 8, .spawn]

/-- From then on the second notifier reads `sync_lock`, finds no barrier, and so on. -/
def spinSched (k : Nat) : Act Nat := (spinPrefix[k]?).getD (.notifier 1)

def spinState (pc : NPc) : State Nat :=
  { data := [7, 8], barriers := [], bars := [⟨2, 0, some 0⟩], sync := 1, toSpawn := 0,
    notifiers := [.done, pc], consumers := [.cancelled], pushed := [7, 8], popped := [] }

theorem spin_states (k : Nat) : states spinSched (13 + k) = spinState .check ∨ states spinSched (13 + k) = spinState .popB := by
  induction k with
  | zero => exact .inl rfl
  | succ k ih =>
    have : spinSched (13 + k) = .notifier 1 := by
      unfold spinSched
      rw [List.getElem?_eq_none (by simp [spinPrefix])]
      rfl
    show step (states spinSched (13 + k)) (spinSched (13 + k)) = _ ∨ step (states spinSched (13 + k)) (spinSched (13 + k)) = _
    rw [this]
    rcases ih with ih | ih <;> rw [ih]
    · exact .inr rfl
    · exact .inl rfl

theorem spin_state (k : Nat) : ∃ pc, (pc = .check ∨ pc = .popB) ∧ states spinSched (13 + k) = spinState pc := by
  rcases spin_states k with h | h
  · exact ⟨_, .inl rfl, h⟩
  · exact ⟨_, .inr rfl, h⟩

theorem spin_fair : Fair spinSched := by
  have far : ∀ k, k ≤ 13 + k := fun k => by omega
  refine ⟨fun i k h => ?_, fun j k h => ?_, fun k h => ?_⟩
  · have := h _ (far k)
    obtain ⟨pc, _, hs⟩ := spin_state k
    rw [hs] at this
    match i, this with
    | 0, this => exact this.elim
    | i + 1, this => exact this.elim
  · have := h _ (far k)
    obtain ⟨pc, _, hs⟩ := spin_state k
    rw [hs] at this
    match j, this with
    | 0, this => exact this.elim
    | 1, _ =>
      refine ⟨13 + k, far k, ?_⟩
      unfold spinSched
      rw [List.getElem?_eq_none (by simp [spinPrefix])]
      rfl
    | j + 2, this => exact this.elim
  · have := h _ (far k)
    obtain ⟨pc, _, hs⟩ := spin_state k
    rw [hs] at this
    exact absurd this (by simp [spinState])

/-- **C66 (full) is false**: a dropped call leaves `sync_lock` raised, and every later notifier that finds no
barrier spins forever. -/
theorem C66_full_false : ¬ C66_full := by
  intro h
  obtain ⟨k', hk, hx⟩ := h Nat spinSched spin_fair 1 13 ⟨.check, rfl⟩ (fun k' hk p hp => by
    obtain ⟨d, rfl⟩ := Nat.exists_eq_add_of_le hk
    obtain ⟨pc, _, hs⟩ := spin_state d
    rw [hs] at hp
    exact .inl (by simpa [spinState] using hp))
  obtain ⟨d, rfl⟩ := Nat.exists_eq_add_of_le hk
  obtain ⟨pc, hpc, hs⟩ := spin_state d
  rw [hs] at hx
  rcases hpc with rfl | rfl <;> simp [spinState] at hx

/-- **C66 (without dropped calls).** If no call is ever dropped, every notifier task ends once every call has
returned and no new ones are made. What is missing is exactly schedules with dropped calls. -/
theorem C66_ends_partial {sched : Nat → Act T} (hf : Fair sched) (hnc : ∀ k i, sched k ≠ .cancel i) (j k : Nat)
    {p : NPc} (hp : (states sched k).notifiers[j]? = some p)
    (hc : ∀ k', k ≤ k' → ∀ p ∈ (states sched k').consumers, ∃ x, p = .returned x) :
    ∃ k', k ≤ k' ∧ (states sched k').notifiers[j]? = some .done := by
  have hnoOwner : ∀ k', k ≤ k' → ∀ (i b : Nat), ¬ ((states sched k').consumers[i]? = some (.arrive b) ∨
      (states sched k').consumers[i]? = some (.waiting b)) := by
    rintro k' hk' i b (h | h) <;> obtain ⟨x, hx⟩ := hc k' hk' _ (List.mem_of_getElem? h) <;> cases hx
  have hfull : ∀ k', k ≤ k' → ∀ (b : Nat) (r : Bar), (states sched k').bars[b]? = some r → 2 ≤ r.count := by
    intro k' hk' b r hr
    refine Nat.le_of_not_lt fun hlt => ?_
    exact hnoOwner k' hk' _ _ (((inv_states hnc k').bars b r hr).cons hlt)
  have hcAt : ∀ k', k ≤ k' → ∀ (i b : Nat), cAt (states sched k').consumers[i]? b = 1 := fun k' hk' i b =>
    cAt_ne fun h => hnoOwner k' hk' i b (.inl h)
  have hsync : ∀ k', k ≤ k' → (states sched k').sync = 0 := by
    intro k' hk'
    rw [(inv_states hnc k').sync]
    refine Nat.eq_zero_of_not_pos fun hpos => ?_
    obtain ⟨q, hq, ha⟩ := List.countP_pos_iff.mp hpos
    obtain ⟨x, rfl⟩ := hc k' hk' q hq
    cases ha
  have hempty : ∀ k', k ≤ k' → (states sched k').barriers = [] := by
    intro k' hk'
    cases hq : (states sched k').barriers with
    | nil => rfl
    | cons b rest =>
      exfalso
      have hi := inv_states hnc k'
      have hbm : b ∈ (states sched k').barriers := by rw [hq]; simp
      have hlt := hi.queue b hbm
      have hr : (states sched k').bars[b]? = some (states sched k').bars[b] := by simp [hlt]
      have hok := hi.bars b _ hr
      have h2 := hfull k' hk' b _ hr
      have hcount := hok.count
      rw [hok.queue.mpr hbm, hcAt k' hk'] at hcount
      simp only at hcount
      omega
  have hcheck : ∀ k2, k ≤ k2 → (states sched k2).notifiers[j]? = some .check →
      ∃ k', k2 ≤ k' ∧ (states sched k').notifiers[j]? = some .done := by
    intro k2 hk2 h
    obtain ⟨k', hk, hp', he⟩ := adv_notifier hf h (fun k' _ hp => by simp [NotifierReady, hp])
    refine ⟨k' + 1, by omega, ?_⟩
    show (step (states sched k') (sched k')).notifiers[j]? = _
    rw [he, step_notifier hp']
    simp only [notifierStep]
    rw [get_set_self hp', hsync k' (by omega)]
    rfl
  cases p with
  | check => exact hcheck k (Nat.le_refl _) hp
  | popB =>
    obtain ⟨k', hk, hp', he⟩ := adv_notifier hf hp (fun k' _ hp => by simp [NotifierReady, hp])
    have : (states sched (k' + 1)).notifiers[j]? = some .check := by
      show (step (states sched k') (sched k')).notifiers[j]? = _
      rw [he, step_notifier hp']
      simp only [notifierStep, hempty k' hk]
      exact get_set_self hp'
    obtain ⟨k'', hk', hx⟩ := hcheck (k' + 1) (by omega) this
    exact ⟨k'', by omega, hx⟩
  | arrive b =>
    exfalso
    have hi := inv_states hnc k
    obtain ⟨r, hr, ht⟩ := hi.nots j b (.inl hp)
    have hcount := (hi.bars b r hr).count
    have h2 := hfull k (Nat.le_refl _) b r hr
    rw [ht, hcAt k (Nat.le_refl _)] at hcount
    simp only [hp, nAt_arrive] at hcount
    omega
  | waiting b =>
    have hi := inv_states hnc k
    obtain ⟨r, hr, ht⟩ := hi.nots j b (.inr hp)
    have h2 := hfull k (Nat.le_refl _) b r hr
    rw [← count_of hr] at h2
    obtain ⟨k', hk, hp', he⟩ := adv_notifier hf hp (fun k' hk hp' => by
      simp only [NotifierReady, hp']
      exact Nat.le_trans h2 (count_mono_states sched b hk))
    refine ⟨k' + 1, by omega, ?_⟩
    have h3 := count_mono_states sched b hk
    show (step (states sched k') (sched k')).notifiers[j]? = _
    rw [he, step_notifier hp']
    simp only [notifierStep]
    rw [if_neg (by omega)]
    exact get_set_self hp'
  | done => exact ⟨k, Nat.le_refl _, hp⟩

/-! ## Examples -/

/-- A call waits, two items are pushed, everybody runs to the end. -/
def okPrefix : List (Act Nat) :=
  [.call, .consumer 0, .consumer 0, .consumer 0, .consumer 0, .push 7, .push 8, .spawn, .spawn,
   .notifier 0, .notifier 0, .notifier 0, .notifier 1, .notifier 1,
   .consumer 0, .consumer 0, .consumer 0, .notifier 1]

def okSched (k : Nat) : Act Nat := (okPrefix[k]?).getD (.consumer 0)

def okState : State Nat :=
  { data := [8], barriers := [], bars := [⟨2, 0, some 0⟩], sync := 0, toSpawn := 0,
    notifiers := [.done, .done], consumers := [.returned 7], pushed := [7, 8], popped := [(0, 7)] }

theorem ok_states (k : Nat) : states okSched (18 + k) = okState := by
  induction k with
  | zero => rfl
  | succ k ih =>
    show step (states okSched (18 + k)) (okSched (18 + k)) = okState
    rw [ih]
    have : okSched (18 + k) = .consumer 0 := by
      unfold okSched
      rw [List.getElem?_eq_none (by simp [okPrefix])]
      rfl
    rw [this]
    rfl

theorem ok_fair : Fair okSched := by
  have far : ∀ k, k ≤ 18 + k := fun k => by omega
  refine ⟨fun i k h => ?_, fun j k h => ?_, fun k h => ?_⟩
  · have := h _ (far k)
    rw [ok_states] at this
    match i, this with
    | 0, this => exact this.elim
    | i + 1, this => exact this.elim
  · have := h _ (far k)
    rw [ok_states] at this
    match j, this with
    | 0, this => exact this.elim
    | 1, this => exact this.elim
    | j + 2, this => exact this.elim
  · have := h _ (far k)
    rw [ok_states] at this
    exact absurd this (by simp [okState])

theorem ok_upto {P : Nat → Prop} (h : ∀ k, k < 18 → P k) (h' : ∀ d, P (18 + d)) (k : Nat) : P k := by
  rcases Nat.lt_or_ge k 18 with hk | hk
  · exact h k hk
  · obtain ⟨d, rfl⟩ := Nat.exists_eq_add_of_le hk
    exact h' d

/-- Nobody is dropped in it. -/
theorem ok_no_cancel (k i : Nat) : okSched k ≠ .cancel i := by
  unfold okSched
  cases h : okPrefix[k]? with
  | none => simp
  | some a =>
    have hm := List.mem_of_getElem? h
    simp only [okPrefix, List.mem_cons, List.not_mem_nil, or_false] at hm
    simp only [Option.getD_some]
    rintro rfl
    simp at hm

/-- Data is available in it from step 6 on. -/
theorem ok_data (k : Nat) (hk : 6 ≤ k) : (states okSched k).data ≠ [] := by
  have : ∀ k, 6 ≤ k → (states okSched k).data ≠ [] := by
    refine ok_upto ?_ ?_
    · decide
    · intro d _; rw [ok_states]; simp [okState]
  exact this k hk

/-- The hypotheses of `C51_waiting_partial` are met by a call that waits at its barrier. -/
example : ∃ k', 7 ≤ k' ∧ ∃ x, (states okSched k').consumers[0]? = some (.returned x) :=
  C51_waiting_partial ok_fair ok_no_cancel 0 7 (p := .waiting 0) rfl (by simp) (fun k' hk => ok_data k' (by omega))

/-- The hypotheses of `C51_arriving_partial` are met by a call that looks for data. -/
example : ∃ k', 15 ≤ k' ∧ ∃ x, (states okSched k').consumers[0]? = some (.returned x) :=
  C51_arriving_partial ok_fair 0 15 (p := .tryPop) rfl (.inr (.inl rfl)) (fun k' _ => ok_no_cancel k' 0)
    (fun k' hk => ok_data k' (by omega))

/-- The hypotheses of `C66_ends_partial` are met by a notifier that spins until the call has returned. -/
example : ∃ k', 17 ≤ k' ∧ (states okSched k').notifiers[1]? = some .done :=
  C66_ends_partial ok_fair ok_no_cancel 1 17 (p := .check) rfl (by
    have : ∀ k', 17 ≤ k' → ∀ p ∈ (states okSched k').consumers, ∃ x, p = .returned x := by
      refine ok_upto ?_ ?_
      · intro k hk hk'
        have : k = 17 := by omega
        subst this
        intro p hp
        have : p = .returned 7 := by simpa [states, step, okSched, okPrefix, State.init, consumerStep, notifierStep, arriveAt, State.count] using hp
        exact ⟨7, this⟩
      · intro d _ p hp
        rw [ok_states] at hp
        exact ⟨7, by simpa [okState] using hp⟩
    exact this)

/-- `C51_exactly_once` is about something: here one item was taken and one is left. -/
example : Took (run State.init okPrefix) 0 7 ∧ (run State.init okPrefix).data = [8] ∧ pushes okPrefix = [7, 8] :=
  ⟨.inr rfl, rfl, rfl⟩

end Verif.Props.BroadcastReceiver
