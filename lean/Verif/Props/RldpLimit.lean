import Verif.Model.RldpLimit
import Verif.Proofs.AMap

/-!
# C55: limit of parallel RLDP queries
-/
namespace Verif.Rldp

/-- The query is in progress. -/
def Query.isRunning (q : Query) : Bool := match q.pc with | .running _ => true | _ => false

/-- Number of queries to a peer in progress. -/
def inProgress (s : Limiter) (peer : Nat) : Nat :=
  (s.queries.filter fun q => q.isRunning && decide (q.peer = peer)).length

/-- C55 as stated. -/
def C55_full : Prop := ∀ (max : Nat) (acts : List LAct) (peer : Nat),
  inProgress (Limiter.init.run max acts) peer ≤ max

/-- `gc` between the lookup of the semaphore and `acquire` removes a semaphore that is about to be used:
the next query makes another one. -/
theorem C55_full_false : ¬ C55_full := by
  intro h
  exact absurd (h 1 [.start 5, .clone 0, .gc 5, .start 5, .clone 1, .acquire 0, .acquire 1] 5) (by decide)

/-- Number of queries holding a permit of semaphore `k`. -/
def holders (s : Limiter) (k : Nat) : Nat := s.queries.countP fun q => decide (q.pc = .running k)

theorem countP_set {α : Type} (p : α → Bool) {l : List α} : ∀ {i : Nat} {a b : α}, l[i]? = some b →
    (l.set i a).countP p + (if p b then 1 else 0) = l.countP p + (if p a then 1 else 0) := by
  induction l with
  | nil => intro i a b h; simp at h
  | cons x l ih =>
    intro i a b h
    cases i with
    | zero =>
      simp only [List.getElem?_cons_zero, Option.some.injEq] at h
      subst h
      simp only [List.set_cons_zero, List.countP_cons]
      omega
    | succ i =>
      simp only [List.getElem?_cons_succ] at h
      have := ih (a := a) h
      simp only [List.set_cons_succ, List.countP_cons]
      omega

/-- Every permit is free or held. -/
structure Permits (max : Nat) (s : Limiter) : Prop where
  sum : ∀ (k n : Nat), s.free[k]? = some n → n + holders s k = max
  known : ∀ q ∈ s.queries, ∀ k, q.pc = .cloned k ∨ q.pc = .running k → k < s.free.length
  table : ∀ p k, s.table.get p = some k → k < s.free.length

theorem holders_append (s : Limiter) (p k : Nat) :
    holders { s with queries := s.queries ++ [⟨p, .start⟩] } k = holders s k := by
  unfold holders
  simp

theorem holders_set (s : Limiter) (t : AMap Nat Nat) (fr : List Nat) {q : Nat} {x : Query} (pc : QPc)
    (k : Nat) (h : s.queries[q]? = some x) :
    holders (Limiter.setPc ⟨t, fr, s.queries⟩ q x pc) k + (if x.pc = .running k then 1 else 0) =
      holders s k + (if pc = .running k then 1 else 0) := by
  have := countP_set (fun q => decide (q.pc = .running k)) (a := { x with pc := pc }) h
  simpa [holders, Limiter.setPc] using this

theorem Permits.step {max : Nat} {s : Limiter} (h : Permits max s) (a : LAct) :
    Permits max (s.step max a) := by
  cases a with
  | start p =>
    refine ⟨fun k n hk => by rw [Limiter.step, holders_append]; exact h.sum k n hk, ?_, h.table⟩
    intro q hq k hpc
    rcases List.mem_append.1 hq with hq | hq
    · exact h.known q hq k hpc
    · rw [List.mem_singleton] at hq
      subst hq
      rcases hpc with e | e <;> cases e
  | clone q =>
    simp only [Limiter.step]
    cases hq : s.queries[q]? with
    | none => exact h
    | some x =>
      simp only
      by_cases hp : x.pc = .start
      · rw [if_pos hp]
        have hs : ∀ (t : AMap Nat Nat) (fr : List Nat) (j k : Nat),
            holders (Limiter.setPc ⟨t, fr, s.queries⟩ q x (.cloned j)) k = holders s k := by
          intro t fr j k
          have := holders_set s t fr (.cloned j) k hq
          simpa [hp] using this
        cases ht : s.table.get x.peer with
        | some j =>
          refine ⟨fun k n hk => (by rw [hs s.table s.free j k]; exact h.sum k n hk), ?_, h.table⟩
          intro y hy k hpc
          rcases List.mem_or_eq_of_mem_set hy with hy | rfl
          · exact h.known y hy k hpc
          · rcases hpc with e | e
            · cases e; exact h.table _ _ ht
            · cases e
        | none =>
          have hz : holders s s.free.length = 0 := by
            unfold holders
            rw [List.countP_eq_zero]
            intro y hy e
            exact Nat.lt_irrefl _ (h.known y hy _ (.inr (by simpa using e)))
          refine ⟨?_, ?_, ?_⟩
          · intro k n hk
            simp only
            rw [hs]
            have hk : (s.free ++ [max])[k]? = some n := hk
            rw [List.getElem?_append] at hk
            split at hk
            · exact h.sum k n hk
            · rename_i hlt
              have e : k = s.free.length := by
                rcases Nat.eq_zero_or_pos (k - s.free.length) with e | e
                · omega
                · rw [List.getElem?_eq_none (by simpa using (show 1 ≤ _ from e))] at hk; cases hk
              subst e
              simp at hk
              omega
          · intro y hy k hpc
            show k < (s.free ++ [max]).length
            rw [List.length_append, List.length_singleton]
            rcases List.mem_or_eq_of_mem_set hy with hy | rfl
            · have := h.known y hy k hpc; omega
            · rcases hpc with e | e
              · cases e; omega
              · cases e
          · intro p k hk
            show k < (s.free ++ [max]).length
            rw [List.length_append, List.length_singleton]
            have hk : (s.table.put x.peer s.free.length).get p = some k := hk
            rw [AMap.get_put] at hk
            split at hk
            · cases hk; omega
            · have := h.table p k hk; omega
      · rw [if_neg hp]; exact h
  | acquire q =>
    simp only [Limiter.step]
    cases hq : s.queries[q]? with
    | none => exact h
    | some x =>
      simp only
      cases hp : x.pc with
      | start => exact h
      | running j => exact h
      | over => exact h
      | cloned j =>
        simp only
        cases hf : s.free[j]? with
        | none => exact h
        | some m =>
          cases m with
          | zero => exact h
          | succ m =>
            refine ⟨?_, ?_, ?_⟩
            · intro k n hk
              have hh := holders_set s s.table (s.free.set j m) (.running j) k hq
              have hk : (s.free.set j m)[k]? = some n := hk
              rw [hp] at hh
              rw [if_neg (fun e => by cases e)] at hh
              rw [List.getElem?_set] at hk
              simp only
              by_cases e : j = k
              · subst e
                rw [if_pos rfl] at hk hh
                have hlt := (List.getElem?_eq_some_iff.1 hf).1
                rw [if_pos hlt] at hk
                cases hk
                have := h.sum j _ hf
                omega
              · rw [if_neg e] at hk
                rw [if_neg (fun e' => e (QPc.running.inj e'))] at hh
                have := h.sum k n hk
                omega
            · intro y hy k hpc
              show k < (s.free.set j m).length
              rw [List.length_set]
              rcases List.mem_or_eq_of_mem_set hy with hy | rfl
              · exact h.known y hy k hpc
              · rcases hpc with e | e
                · cases e
                · cases e
                  exact (List.getElem?_eq_some_iff.1 hf).1
            · intro p k hk
              show k < (s.free.set j m).length
              rw [List.length_set]
              exact h.table p k hk
  | release q =>
    simp only [Limiter.step]
    cases hq : s.queries[q]? with
    | none => exact h
    | some x =>
      simp only
      cases hp : x.pc with
      | start => exact h
      | cloned j => exact h
      | over => exact h
      | running j =>
        simp only
        cases hf : s.free[j]? with
        | none => exact h
        | some m =>
          refine ⟨?_, ?_, ?_⟩
          · intro k n hk
            have hh := holders_set s s.table (s.free.set j (m + 1)) .over k hq
            have hk : (s.free.set j (m + 1))[k]? = some n := hk
            rw [hp] at hh
            rw [if_neg (show ¬ QPc.over = .running k from fun e => by cases e)] at hh
            rw [List.getElem?_set] at hk
            simp only
            by_cases e : j = k
            · subst e
              rw [if_pos rfl] at hk hh
              have hlt := (List.getElem?_eq_some_iff.1 hf).1
              rw [if_pos hlt] at hk
              cases hk
              have := h.sum j _ hf
              omega
            · rw [if_neg e] at hk
              rw [if_neg (fun e' => e (QPc.running.inj e'))] at hh
              have := h.sum k n hk
              omega
          · intro y hy k hpc
            show k < (s.free.set j (m + 1)).length
            rw [List.length_set]
            rcases List.mem_or_eq_of_mem_set hy with hy | rfl
            · exact h.known y hy k hpc
            · rcases hpc with e | e <;> cases e
          · intro p k hk
            show k < (s.free.set j (m + 1)).length
            rw [List.length_set]
            exact h.table p k hk
  | gc p =>
    simp only [Limiter.step]
    split
    · split
      · split
        · exact h
        · refine ⟨h.sum, h.known, ?_⟩
          intro p' k hk
          have hk : (s.table.erase p).get p' = some k := hk
          rw [AMap.get_erase] at hk
          split at hk
          · cases hk
          · exact h.table p' k hk
      · exact h
    · exact h

theorem Permits.init (max : Nat) : Permits max Limiter.init :=
  ⟨fun k n h => by simp [Limiter.init] at h, fun q h => absurd h List.not_mem_nil,
    fun p k h => by cases h⟩

theorem Permits.run {max : Nat} (acts : List LAct) : ∀ {s : Limiter}, Permits max s →
    Permits max (s.run max acts) := by
  induction acts with
  | nil => intro s h; exact h
  | cons a acts ih => intro s h; exact ih (h.step a)

/-- C55: no semaphore ever has more holders than permits, whatever `gc` does. -/
theorem C55_per_semaphore_partial (max : Nat) (acts : List LAct) (k : Nat) :
    holders (Limiter.init.run max acts) k ≤ max := by
  have h := (Permits.init max).run acts
  by_cases hk : k < (Limiter.init.run max acts).free.length
  · have := h.sum k _ (List.getElem?_eq_getElem hk)
    omega
  · have hz : holders (Limiter.init.run max acts) k = 0 := by
      unfold holders
      rw [List.countP_eq_zero]
      intro y hy e
      exact hk (h.known y hy _ (.inr (by simpa using e)))
    omega

/-- A step of `gc` at a moment when no query to the peer is between lookup and `acquire`. -/
def Quiet (s : Limiter) : LAct → Prop
  | .gc p => ∀ q ∈ s.queries, q.peer = p → ∀ k, q.pc ≠ .cloned k
  | _ => True

/-- All `gc` steps of the run are of that kind. -/
def QuietRun (max : Nat) : Limiter → List LAct → Prop
  | _, [] => True
  | s, a :: acts => Quiet s a ∧ QuietRun max (s.step max a) acts

/-- All live queries to a peer use the semaphore in the table. -/
def Current (s : Limiter) : Prop := ∀ q ∈ s.queries, ∀ k, q.pc = .cloned k ∨ q.pc = .running k →
  s.table.get q.peer = some k

theorem Current.step {max : Nat} {s : Limiter} (hp : Permits max s) (h : Current s) (a : LAct)
    (ha : Quiet s a) : Current (s.step max a) := by
  cases a with
  | start p =>
    intro q hq k hpc
    rcases List.mem_append.1 hq with hq | hq
    · exact h q hq k hpc
    · rw [List.mem_singleton] at hq
      subst hq
      rcases hpc with e | e <;> cases e
  | clone q =>
    simp only [Limiter.step]
    cases hq : s.queries[q]? with
    | none => exact h
    | some x =>
      simp only
      split
      · cases ht : s.table.get x.peer with
        | some j =>
          intro y hy k hpc
          rcases List.mem_or_eq_of_mem_set hy with hy | rfl
          · exact h y hy k hpc
          · rcases hpc with e | e
            · cases e; exact ht
            · cases e
        | none =>
          intro y hy k hpc
          show (s.table.put x.peer s.free.length).get y.peer = some k
          rcases List.mem_or_eq_of_mem_set hy with hy | rfl
          · have h1 := h y hy k hpc
            rw [AMap.get_put_ne]
            · exact h1
            · intro e
              rw [e, ht] at h1
              cases h1
          · rcases hpc with e | e
            · cases e; exact AMap.get_put_self _ _ _
            · cases e
      · exact h
  | acquire q =>
    simp only [Limiter.step]
    cases hq : s.queries[q]? with
    | none => exact h
    | some x =>
      simp only
      split
      · rename_i j hpc0
        split
        · intro y hy k hpc
          rcases List.mem_or_eq_of_mem_set hy with hy | rfl
          · exact h y hy k hpc
          · rcases hpc with e | e
            · cases e
            · cases e
              exact h x (List.mem_of_getElem? hq) _ (.inl hpc0)
        · exact h
      · exact h
  | release q =>
    simp only [Limiter.step]
    cases hq : s.queries[q]? with
    | none => exact h
    | some x =>
      simp only
      split
      · split
        · intro y hy k hpc
          rcases List.mem_or_eq_of_mem_set hy with hy | rfl
          · exact h y hy k hpc
          · rcases hpc with e | e <;> cases e
        · exact h
      · exact h
  | gc p =>
    simp only [Limiter.step]
    cases ht : s.table.get p with
    | none => exact h
    | some j =>
      simp only
      cases hf : s.free[j]? with
      | none => exact h
      | some n =>
        simp only
        split
        · exact h
        · rename_i hn
          intro y hy k hpc
          show (s.table.erase p).get y.peer = some k
          have h1 := h y hy k hpc
          rw [AMap.get_erase]
          split
          · rename_i e
            exfalso
            rw [e, ht] at h1
            cases h1
            rcases hpc with hpc | hpc
            · exact ha y hy e _ hpc
            · have h2 := hp.sum _ _ hf
              have h3 : 0 < holders s j := by
                unfold holders
                rw [List.countP_pos_iff]
                exact ⟨y, hy, by simpa using hpc⟩
              omega
          · exact h1

theorem Current.run {max : Nat} (acts : List LAct) : ∀ {s : Limiter}, Permits max s → Current s →
    QuietRun max s acts → Current (s.run max acts) := by
  induction acts with
  | nil => intro s _ h _; exact h
  | cons a acts ih => intro s hp h ha; exact ih (hp.step a) (h.step hp a ha.1) ha.2

/-- C55: if `gc` never comes between the lookup of the semaphore and `acquire` of a query to the same peer -
in particular if it is not called - then at most the configured number of queries to one peer is in
progress, for every interleaving of queries to any peers. -/
theorem C55_bounded_partial (max : Nat) (acts : List LAct) (peer : Nat)
    (hq : QuietRun max Limiter.init acts) :
    inProgress (Limiter.init.run max acts) peer ≤ max := by
  have hc := Current.run acts (Permits.init max) (fun q h => absurd h List.not_mem_nil) hq
  generalize hs : Limiter.init.run max acts = s at hc
  have hb := C55_per_semaphore_partial max acts
  rw [hs] at hb
  cases ht : s.table.get peer with
  | none =>
    have : inProgress s peer = 0 := by
      unfold inProgress
      rw [List.length_eq_zero_iff, List.filter_eq_nil_iff]
      intro q hq e
      simp only [Query.isRunning, Bool.and_eq_true, decide_eq_true_eq] at e
      split at e
      · rename_i k hk
        have := hc q hq k (.inr hk)
        rw [e.2, ht] at this
        cases this
      · exact absurd e.1 (by decide)
    omega
  | some k =>
    refine Nat.le_trans ?_ (hb k)
    unfold inProgress holders
    rw [← List.countP_eq_length_filter]
    refine List.countP_mono_left ?_
    intro q hq e
    simp only [Query.isRunning, Bool.and_eq_true, decide_eq_true_eq] at e ⊢
    split at e
    · rename_i j hj
      have := hc q hq j (.inr hj)
      rw [e.2, ht] at this
      cases this
      exact hj
    · exact absurd e.1 (by decide)

/-- Three queries and a limit of two: the third has to wait; `gc` runs in between. -/
example : QuietRun 2 Limiter.init [.start 5, .start 5, .start 5, .clone 0, .clone 1, .clone 2, .acquire 0,
      .acquire 1, .acquire 2] ∧
    inProgress (Limiter.init.run 2 [.start 5, .start 5, .start 5, .clone 0, .clone 1, .clone 2, .acquire 0,
      .acquire 1, .acquire 2]) 5 = 2 :=
  ⟨⟨trivial, trivial, trivial, trivial, trivial, trivial, trivial, trivial, trivial, trivial⟩, by decide⟩

/-- Queries with the same semaphore are for the same peer. -/
structure Shared (s : Limiter) : Prop where
  queries : ∀ x ∈ s.queries, ∀ y ∈ s.queries, ∀ k, (x.pc = .cloned k ∨ x.pc = .running k) →
    (y.pc = .cloned k ∨ y.pc = .running k) → x.peer = y.peer
  table : ∀ x ∈ s.queries, ∀ k, (x.pc = .cloned k ∨ x.pc = .running k) → ∀ p, s.table.get p = some k → p = x.peer
  one : ∀ p q k, s.table.get p = some k → s.table.get q = some k → p = q

theorem Shared.set {s : Limiter} (h : Shared s) {q : Nat} {x : Query} (hq : s.queries[q]? = some x) (fr : List Nat) (pc : QPc)
    (hpc : ∀ k, pc = .cloned k ∨ pc = .running k → (x.pc = .cloned k ∨ x.pc = .running k) ∨ s.table.get x.peer = some k) :
    Shared (Limiter.setPc { s with free := fr } q x pc) := by
  have hx := List.mem_of_getElem? hq
  have hnew : ∀ y ∈ s.queries, ∀ k, pc = .cloned k ∨ pc = .running k → (y.pc = .cloned k ∨ y.pc = .running k) → x.peer = y.peer := by
    intro y hy k hk hyk
    rcases hpc k hk with h' | h'
    · exact h.queries x hx y hy k h' hyk
    · exact h.table y hy k hyk _ h'
  refine ⟨?_, ?_, h.one⟩
  · intro a ha b hb k hak hbk
    rcases List.mem_or_eq_of_mem_set ha with ha | rfl
    · rcases List.mem_or_eq_of_mem_set hb with hb | rfl
      · exact h.queries a ha b hb k hak hbk
      · exact (hnew a ha k hbk hak).symm
    · rcases List.mem_or_eq_of_mem_set hb with hb | rfl
      · exact hnew b hb k hak hbk
      · rfl
  · intro a ha k hak p hp
    rcases List.mem_or_eq_of_mem_set ha with ha | rfl
    · exact h.table a ha k hak p hp
    · rcases hpc k hak with h' | h'
      · exact h.table x hx k h' p hp
      · exact h.one p _ k hp h'

theorem Shared.step {max : Nat} {s : Limiter} (hp : Permits max s) (h : Shared s) (a : LAct) : Shared (s.step max a) := by
  cases a with
  | start p =>
    have hno : ∀ x ∈ s.queries ++ [⟨p, .start⟩], ∀ k, x.pc = .cloned k ∨ x.pc = .running k → x ∈ s.queries := by
      intro x hx k hk
      rcases List.mem_append.1 hx with hx | hx
      · exact hx
      · rw [List.mem_singleton] at hx
        subst hx
        rcases hk with e | e <;> cases e
    exact ⟨fun x hx y hy k h1 h2 => h.queries x (hno x hx k h1) y (hno y hy k h2) k h1 h2,
      fun x hx k h1 p' hp' => h.table x (hno x hx k h1) k h1 p' hp', h.one⟩
  | clone q =>
    simp only [Limiter.step]
    cases hq : s.queries[q]? with
    | none => exact h
    | some x =>
      simp only
      split
      · cases ht : s.table.get x.peer with
        | some j =>
          refine h.set hq s.free _ fun k hk => .inr ?_
          rcases hk with e | e <;> cases e
          exact ht
        | none =>
          have hn : ∀ p k, s.table.get p = some k → k ≠ s.free.length := fun p k h1 e => by
            have := hp.table p k h1; omega
          have h' : Shared { s with table := s.table.put x.peer s.free.length } := by
            refine ⟨h.queries, ?_, ?_⟩
            · intro y hy k hk p hpk
              have hpk : (s.table.put x.peer s.free.length).get p = some k := hpk
              rw [AMap.get_put] at hpk
              split at hpk
              · cases hpk
                have := hp.known y hy _ hk
                omega
              · exact h.table y hy k hk p hpk
            · intro p p' k h1 h2
              have h1 : (s.table.put x.peer s.free.length).get p = some k := h1
              have h2 : (s.table.put x.peer s.free.length).get p' = some k := h2
              rw [AMap.get_put] at h1 h2
              split at h1
              · rename_i e1
                cases h1
                split at h2
                · rename_i e2; rw [e1, e2]
                · exact absurd rfl (hn _ _ h2)
              · split at h2
                · cases h2; exact absurd rfl (hn _ _ h1)
                · exact h.one p p' k h1 h2
          refine Shared.set (s := { s with table := s.table.put x.peer s.free.length }) h' hq (s.free ++ [max]) _ fun k hk => .inr ?_
          rcases hk with e | e <;> cases e
          exact AMap.get_put_self _ _ _
      · exact h
  | acquire q =>
    simp only [Limiter.step]
    cases hq : s.queries[q]? with
    | none => exact h
    | some x =>
      simp only
      split
      · rename_i j hpc
        split
        · refine h.set hq _ _ fun k hk => .inl ?_
          rcases hk with e | e <;> cases e
          exact .inl hpc
        · exact h
      · exact h
  | release q =>
    simp only [Limiter.step]
    cases hq : s.queries[q]? with
    | none => exact h
    | some x =>
      simp only
      split
      · split
        · refine h.set hq _ _ fun k hk => ?_
          rcases hk with e | e <;> cases e
        · exact h
      · exact h
  | gc p =>
    simp only [Limiter.step]
    split
    · split
      · split
        · exact h
        · have he : ∀ p' k, (s.table.erase p).get p' = some k → s.table.get p' = some k := by
            intro p' k hk
            rw [AMap.get_erase] at hk
            split at hk
            · cases hk
            · exact hk
          exact ⟨h.queries, fun x hx k hk p' hp' => h.table x hx k hk p' (he _ _ hp'),
            fun p' q' k h1 h2 => h.one p' q' k (he _ _ h1) (he _ _ h2)⟩
      · exact h
    · exact h

theorem Shared.run {max : Nat} (acts : List LAct) : ∀ {s : Limiter}, Permits max s → Shared s →
    Shared (s.run max acts) := by
  induction acts with
  | nil => intro s _ h; exact h
  | cons a acts ih => intro s hp h; exact ih (hp.step a) (h.step hp a)

/-- C55: the limit is all that a query waits for: whatever happened before - including `gc` at any moment - a query
that waits for its permit gets it as soon as fewer than the configured number of queries to its peer are in progress;
permits are not lost. -/
theorem C55_not_stuck (max : Nat) (acts : List LAct) (q : Nat) (x : Query) (k : Nat)
    (hq : (Limiter.init.run max acts).queries[q]? = some x) (hx : x.pc = .cloned k)
    (hfew : inProgress (Limiter.init.run max acts) x.peer < max) :
    (((Limiter.init.run max acts).step max (.acquire q)).queries[q]?).map (·.isRunning) = some true := by
  have hp := (Permits.init max).run acts
  have hs : Shared (Limiter.init.run max acts) := Shared.run acts (Permits.init max)
    ⟨fun _ h => absurd h List.not_mem_nil, fun _ h => absurd h List.not_mem_nil, fun _ _ _ h => by cases h⟩
  generalize Limiter.init.run max acts = s at *
  have hmem := List.mem_of_getElem? hq
  have hk := hp.known x hmem k (.inl hx)
  have hle : holders s k ≤ inProgress s x.peer := by
    unfold holders inProgress
    rw [← List.countP_eq_length_filter]
    refine List.countP_mono_left fun y hy hyk => ?_
    have hyk : y.pc = .running k := by simpa using hyk
    have := hs.queries x hmem y hy k (.inl hx) (.inr hyk)
    simp [Query.isRunning, hyk, this]
  have hsum := hp.sum k _ (List.getElem?_eq_getElem hk)
  cases hf : s.free[k]? with
  | none => rw [List.getElem?_eq_getElem hk] at hf; cases hf
  | some n =>
    rw [List.getElem?_eq_getElem hk] at hf
    cases hf
    obtain ⟨m, hm⟩ : ∃ m, s.free[k] = m + 1 := ⟨s.free[k] - 1, by omega⟩
    have hlt := (List.getElem?_eq_some_iff.1 hq).1
    simp only [Limiter.step, hq, hx, List.getElem?_eq_getElem hk, hm, Limiter.setPc]
    rw [List.getElem?_set, if_pos rfl, if_pos hlt]
    rfl

/-- Two queries are through, the third waits; `gc` has been there. -/
example : ((Limiter.init.run 1 [.start 5, .clone 0, .acquire 0, .release 0, .gc 5, .start 5, .clone 1, .start 5, .clone 2,
      .acquire 1, .release 1]).queries[2]?) = some ⟨5, .cloned 1⟩ ∧
    inProgress (Limiter.init.run 1 [.start 5, .clone 0, .acquire 0, .release 0, .gc 5, .start 5, .clone 1, .start 5, .clone 2,
      .acquire 1, .release 1]) 5 = 0 := by decide

end Verif.Rldp
