import Verif.Props.Session

/-!
# C15: calls of `try_reinit_sender` for one peer at the same time
-/
namespace Verif.ReinitConc
open Verif.Adnl Verif.Node

/-- What is known of the thread with the date `d` that is at `pc`, when the date was `first` at the start and all
dates are in `ds`. -/
def Known (first : Nat) (ds : List Nat) (d : Nat) : Pc → Prop
  | .start d' => d' = d
  | .loaded d' old => d' = d ∧ first ≤ old ∧ (old = first ∨ old ∈ ds)
  | .stored old => first ≤ old ∧ old < d
  | .done true => first ≤ d
  | .done false => ∃ d', (d' = first ∨ d' ∈ ds) ∧ d < d'

/-- Invariant of all interleavings. -/
structure Inv (s0 : Shared) (ds : List Nat) (s : Shared) (ts : List Pc) : Prop where
  le : s0.date ≤ s.date
  mem : s.date = s0.date ∨ s.date ∈ ds
  len : ts.length = ds.length
  known : ∀ (i : Nat) (d : Nat) (pc : Pc), ds[i]? = some d → ts[i]? = some pc → Known s0.date ds d pc
  kept : s0.resets ≤ s.resets
  changed : s0.date ≠ 0 → s.date ≠ s0.date → s0.resets < s.resets ∨ ∃ (i old : Nat), ts[i]? = some (Pc.stored old)

theorem inv_step {s0 : Shared} {ds : List Nat} {s : Shared} {ts : List Pc} (h : Inv s0 ds s ts) (i : Nat) (pc : Pc)
    (hi : ts[i]? = some pc) : Inv s0 ds (step s pc).1 (ts.set i (step s pc).2) := by
  obtain ⟨hlt, -⟩ := List.getElem?_eq_some_iff.1 hi
  obtain ⟨d, hd⟩ : ∃ d, ds[i]? = some d := ⟨ds[i]'(h.len ▸ hlt), List.getElem?_eq_getElem _⟩
  have hk := h.known i d pc hd hi
  have hmem : d ∈ ds := List.mem_of_getElem? hd
  have others : Known s0.date ds d (step s pc).2 → ∀ (j : Nat) (d' : Nat) (pc' : Pc), ds[j]? = some d' →
      (ts.set i (step s pc).2)[j]? = some pc' → Known s0.date ds d' pc' := by
    intro hn j d' pc' hj hj'
    rw [List.getElem?_set] at hj'
    split at hj'
    · rename_i hij
      subst hij
      cases hj'
      rw [hd] at hj
      cases hj
      exact hn
    · exact h.known j d' pc' hj hj'
  have keep : (∀ old, pc ≠ .stored old) → s0.date ≠ 0 → s.date ≠ s0.date →
      s0.resets < s.resets ∨ ∃ (j old : Nat), (ts.set i (step s pc).2)[j]? = some (Pc.stored old) := by
    intro hp h0 hne
    rcases h.changed h0 hne with hr | ⟨j, old, hj⟩
    · exact .inl hr
    · refine .inr ⟨j, old, ?_⟩
      rw [List.getElem?_set, if_neg, hj]
      rintro rfl
      rw [hi] at hj
      cases hj
      exact hp old rfl
  cases pc with
  | start d' =>
    refine ⟨h.le, h.mem, by simp [h.len], others ⟨hk, h.le, h.mem⟩, h.kept, ?_⟩
    exact keep (fun _ e => by cases e)
  | loaded d' old =>
    obtain ⟨rfl, h1, h2⟩ := hk
    simp only [step] at others keep ⊢
    by_cases e1 : d' = old
    · simp only [if_pos e1] at others keep ⊢
      exact ⟨h.le, h.mem, by simp [h.len], others (by show s0.date ≤ d'; omega), h.kept, keep (fun _ e => by cases e)⟩
    · simp only [if_neg e1] at others keep ⊢
      by_cases e2 : d' > old
      · simp only [if_pos e2] at others keep ⊢
        refine ⟨by show s0.date ≤ d'; omega, .inr hmem, by simp [h.len], others ⟨h1, e2⟩, h.kept, ?_⟩
        intro _ _
        refine .inr ⟨i, old, ?_⟩
        rw [List.getElem?_set, if_pos rfl, if_pos hlt]
      · simp only [if_neg e2] at others keep ⊢
        exact ⟨h.le, h.mem, by simp [h.len], others ⟨old, h2, by omega⟩, h.kept, keep (fun _ e => by cases e)⟩
  | stored old =>
    obtain ⟨h1, h2⟩ := hk
    simp only [step] at others ⊢
    have hdone : Known s0.date ds d (.done true) := by show s0.date ≤ d; omega
    by_cases e : old ≠ 0
    · simp only [if_pos e] at others ⊢
      have := h.kept
      refine ⟨h.le, h.mem, by simp [h.len], others hdone, by show s0.resets ≤ s.resets + 1; omega, ?_⟩
      intro _ _
      exact .inl (by show s0.resets < s.resets + 1; omega)
    · simp only [if_neg e] at others ⊢
      refine ⟨h.le, h.mem, by simp [h.len], others hdone, h.kept, ?_⟩
      intro h0
      omega
  | done r =>
    refine ⟨h.le, h.mem, by simp [h.len], others hk, h.kept, keep (fun _ e => by cases e)⟩

theorem inv_run {s0 : Shared} {ds : List Nat} (sched : List Nat) : ∀ {s : Shared} {ts : List Pc}, Inv s0 ds s ts →
    Inv s0 ds (run s ts sched).1 (run s ts sched).2 := by
  induction sched with
  | nil => intro s ts h; exact h
  | cons i rest ih =>
    intro s ts h
    unfold run
    cases hi : ts[i]? with
    | none => exact ih h
    | some pc => exact ih (inv_step h i pc hi)

theorem inv_start (s0 : Shared) (ds : List Nat) : Inv s0 ds s0 (ds.map Pc.start) := by
  refine ⟨Nat.le_refl _, .inl rfl, by simp, ?_, Nat.le_refl _, fun _ h => absurd rfl h⟩
  intro i d pc hd hp
  rw [List.getElem?_map, hd] at hp
  cases hp
  rfl

/-- C15, several packets at once: however the calls of `try_reinit_sender` for the dates `ds` interleave, the
remembered date never falls below the one known before them, and it is that one or one of theirs. A call that returned
`true` had a date at least as late as the one known before; one that returned `false` had a date earlier than that one
or than the one of another call. Missing for the whole claim: between two of the calls the date can go back
(`C15_concurrent_date_can_decrease`). -/
theorem C15_concurrent_dates_partial (s : Shared) (ds : List Nat) (sched : List Nat) :
    let r := run s (ds.map Pc.start) sched
    s.date ≤ r.1.date ∧ (r.1.date = s.date ∨ r.1.date ∈ ds) ∧
    ∀ (i d : Nat), ds[i]? = some d →
      (r.2[i]? = some (Pc.done true) → s.date ≤ d) ∧
      (r.2[i]? = some (Pc.done false) → ∃ d', (d' = s.date ∨ d' ∈ ds) ∧ d < d') := by
  have h := inv_run sched (inv_start s ds)
  exact ⟨h.le, h.mem, fun i d hd => ⟨fun hr => h.known i d _ hd hr, fun hr => h.known i d _ hd hr⟩⟩

/-- C15, several packets at once: once all calls have returned, a date that replaced a known one has reset the
histories at least once. Missing for the whole claim: calls with the same new date can reset them several times
(`C15_concurrent_resets_twice`). -/
theorem C15_concurrent_resets_partial (s : Shared) (ds : List Nat) (sched : List Nat) (hs : s.date ≠ 0)
    (hdone : ∀ pc ∈ (run s (ds.map Pc.start) sched).2, ∃ b, pc = .done b)
    (hnew : (run s (ds.map Pc.start) sched).1.date ≠ s.date) :
    s.resets < (run s (ds.map Pc.start) sched).1.resets := by
  have h := inv_run sched (inv_start s ds)
  rcases h.changed hs hnew with hr | ⟨i, old, hi⟩
  · exact hr
  · obtain ⟨b, hb⟩ := hdone _ (List.mem_of_getElem? hi)
    cases hb

theorem run_append (sched' : List Nat) : ∀ (sched : List Nat) (s : Shared) (ts : List Pc),
    run s ts (sched ++ sched') = run (run s ts sched).1 (run s ts sched).2 sched'
  | [], _, _ => rfl
  | i :: rest, s, ts => by
    simp only [List.cons_append, run]
    cases ts[i]? with
    | none => exact run_append sched' rest s ts
    | some pc => exact run_append sched' rest _ _

theorem date_le_step {s0 : Shared} {ds : List Nat} {s : Shared} {ts : List Pc}
    (hone : ∀ d ∈ ds, ∀ d' ∈ ds, s0.date < d → s0.date < d' → d = d') (h : Inv s0 ds s ts) (i : Nat) (pc : Pc)
    (hi : ts[i]? = some pc) : s.date ≤ (step s pc).1.date := by
  obtain ⟨hlt, -⟩ := List.getElem?_eq_some_iff.1 hi
  obtain ⟨d, hd⟩ : ∃ d, ds[i]? = some d := ⟨ds[i]'(h.len ▸ hlt), List.getElem?_eq_getElem _⟩
  have hk := h.known i d pc hd hi
  have hmem : d ∈ ds := List.mem_of_getElem? hd
  have hle := h.le
  cases pc with
  | start d' => exact Nat.le_refl _
  | loaded d' old =>
    obtain ⟨rfl, h1, h2⟩ := hk
    simp only [step]
    split
    · exact Nat.le_refl _
    split
    · rename_i e1 e2
      show s.date ≤ d'
      rcases h.mem with hm | hm
      · omega
      · by_cases e : s.date = s0.date
        · omega
        · exact Nat.le_of_eq (hone _ hm _ hmem (by omega) (by omega))
    · exact Nat.le_refl _
  | stored old =>
    simp only [step]
    split <;> exact Nat.le_refl _
  | done r => exact Nat.le_refl _

theorem date_le_run {s0 : Shared} {ds : List Nat}
    (hone : ∀ d ∈ ds, ∀ d' ∈ ds, s0.date < d → s0.date < d' → d = d') (sched : List Nat) :
    ∀ {s : Shared} {ts : List Pc}, Inv s0 ds s ts → s.date ≤ (run s ts sched).1.date := by
  induction sched with
  | nil => intro s ts _; exact Nat.le_refl _
  | cons i rest ih =>
    intro s ts h
    unfold run
    cases hi : ts[i]? with
    | none => exact ih h
    | some pc => exact Nat.le_trans (date_le_step hone h i pc hi) (ih (inv_step h i pc hi))

/-- C15, several packets at once: if only one date later than the known one is among those of the calls (the other
side restarted once), the remembered date never goes back, however the calls interleave. Missing for the whole claim:
two different later dates (`C15_concurrent_date_can_decrease`). -/
theorem C15_concurrent_one_restart_partial (s : Shared) (ds : List Nat)
    (hone : ∀ d ∈ ds, ∀ d' ∈ ds, s.date < d → s.date < d' → d = d') (sched sched' : List Nat) :
    (run s (ds.map Pc.start) sched).1.date ≤ (run s (ds.map Pc.start) (sched ++ sched')).1.date := by
  rw [run_append]
  exact date_le_run hone sched' (inv_run sched (inv_start s ds))

/-- C15: a call that nothing interrupts does what the call in the model of one thread does (`Peer.tryReinit`): the same
answer, the same date, and a reset exactly if a known date is replaced by a later one. -/
theorem C15_alone {c : Crypto} (p : Peer c) (d n : Nat) :
    run ⟨p.sendDate, n⟩ [.start d] [0, 0, 0] =
      (⟨(p.tryReinit d).1.sendDate, if p.sendDate ≠ 0 ∧ p.sendDate < d then n + 1 else n⟩,
        [.done (p.tryReinit d).2]) := by
  unfold Peer.tryReinit
  simp only [run, step, List.getElem?_cons_zero, List.set_cons_zero]
  by_cases e1 : d = p.sendDate
  · simp [e1]
  · by_cases e2 : d > p.sendDate
    · by_cases e3 : p.sendDate = 0
      · have h1 : d ≠ 0 := by omega
        have h2 : 0 < d := by omega
        simp [e3, h1, h2]
      · simp [e1, e2, e3]
    · simp [e1, e2]

/-- The call has not returned. -/
def Pc.open : Pc → Bool
  | .done _ => false
  | _ => true

theorem opens_step (s : Shared) (ts : List Pc) (i : Nat) (pc : Pc) (hi : ts[i]? = some pc) :
    (step s pc).1.resets + (ts.set i (step s pc).2).countP Pc.open ≤ s.resets + ts.countP Pc.open := by
  obtain ⟨hlt, he⟩ := List.getElem?_eq_some_iff.1 hi
  rw [List.countP_set hlt, he]
  have hpos : pc.open = true → 0 < ts.countP Pc.open := fun h =>
    List.countP_pos_iff.2 ⟨pc, List.mem_of_getElem? hi, h⟩
  cases pc with
  | start d => have := hpos rfl; simp only [step, Pc.open, if_true]; omega
  | loaded d old =>
    have := hpos rfl
    simp only [step]
    split
    · simp [Pc.open]
    · split
      · simp only [Pc.open, if_true]; omega
      · simp [Pc.open]
  | stored old =>
    have := hpos rfl
    simp only [step]
    split <;> simp [Pc.open] <;> omega
  | done r => simp [step, Pc.open]

theorem opens_run (sched : List Nat) : ∀ (s : Shared) (ts : List Pc),
    (run s ts sched).1.resets + (run s ts sched).2.countP Pc.open ≤ s.resets + ts.countP Pc.open := by
  induction sched with
  | nil => intro s ts; exact Nat.le_refl _
  | cons i rest ih =>
    intro s ts
    unfold run
    cases hi : ts[i]? with
    | none => exact ih s ts
    | some pc => exact Nat.le_trans (ih _ _) (opens_step s ts i pc hi)

/-- C15, several packets at once: each call resets the histories at most once, however the calls interleave. -/
theorem C15_concurrent_at_most_once_each_partial (s : Shared) (ds : List Nat) (sched : List Nat) :
    (run s (ds.map Pc.start) sched).1.resets ≤ s.resets + ds.length := by
  have h := opens_run sched s (ds.map Pc.start)
  have h2 : (ds.map Pc.start).countP Pc.open ≤ ds.length := by
    have := List.countP_le_length (p := Pc.open) (l := ds.map Pc.start)
    simpa using this
  omega

/-- C15: two packets of one restart handled at the same time can reset the histories twice: what the first one recorded
after its reset is forgotten by the second. -/
theorem C15_concurrent_resets_twice :
    ∃ sched, run ⟨5, 0⟩ ([10, 10].map Pc.start) sched = (⟨10, 2⟩, [.done true, .done true]) :=
  ⟨[0, 1, 0, 0, 1, 1], by decide⟩

-- C15_concurrent_dates_partial, C15_concurrent_resets_partial: three calls with the dates 7, 10 and 3 for a peer with the
-- date 5. All have returned, the date is 10, one was refused and the histories were reset twice.
example : run ⟨5, 0⟩ ([7, 10, 3].map Pc.start) [2, 0, 1, 0, 1, 2, 1, 0] =
    (⟨10, 2⟩, [.done true, .done true, .done false]) := by decide

example := C15_concurrent_dates_partial ⟨5, 0⟩ [7, 10, 3] [2, 0, 1, 0, 1, 2, 1, 0]

example := C15_concurrent_resets_partial ⟨5, 0⟩ [7, 10, 3] [2, 0, 1, 0, 1, 2, 1, 0] (by decide)
  (by
    intro pc h
    have : (run ⟨5, 0⟩ ([7, 10, 3].map Pc.start) [2, 0, 1, 0, 1, 2, 1, 0]).2 =
      [.done true, .done true, .done false] := by decide
    rw [this] at h
    simp only [List.mem_cons, List.not_mem_nil, or_false] at h
    rcases h with rfl | rfl | rfl <;> exact ⟨_, rfl⟩)
  (by decide)

-- C15_concurrent_one_restart_partial: packets sent before and after a restart at 10
example := C15_concurrent_one_restart_partial ⟨5, 0⟩ [10, 5, 10, 3]
  (by
    intro d hd d' hd' h h'
    simp only [List.mem_cons, List.not_mem_nil, or_false] at hd hd'
    have h : 5 < d := h
    have h' : 5 < d' := h'
    omega) [0, 1, 2, 0, 3, 1] [0, 2, 2, 3]

-- C15_concurrent_at_most_once_each_partial: the two packets of above
example := C15_concurrent_at_most_once_each_partial ⟨5, 0⟩ [10, 10] [0, 1, 0, 0, 1, 1]

-- C15_alone: a later date
example := C15_alone { Peer.new (c := Crypto.toy) 100 ⟨1, 2, 3, 4, 5⟩ (7 : UInt8) (9 : UInt8) with sendDate := 5 } 10 0

end Verif.ReinitConc
