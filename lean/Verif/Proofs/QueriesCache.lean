import Verif.Model.QueriesCache
import Verif.Proofs.AMap
import Mathlib.Data.List.Perm.Basic
import Mathlib.Tactic.ByContra

namespace Verif.QueriesCache

variable {ι β : Type} [DecidableEq ι]

structure QInv (ops : List (Op ι β)) (s : Sys ι β) : Prop where
  /-- entries belong to live queries that were not answered -/
  table : ∀ id n, s.table.get id = some n → n < s.next ∧
    ∃ p, s.pend n = some p ∧ p.id = id ∧ p.alive = true ∧ p.chan = .open
  /-- answers in flight carry the id of their query -/
  flight : ∀ n b, (n, b) ∈ s.inflight → n < s.next ∧
    ∃ p, s.pend n = some p ∧ Op.answer p.id b ∈ ops ∧ s.table.get p.id ≠ some n ∧
      ¬ (∃ c, p.chan = .sent c) ∧ (p.alive = true → p.chan = .open)
  flightOnce : (s.inflight.map (·.1)).Nodup
  sent : ∀ n p b, s.pend n = some p → p.chan = .sent b → Op.answer p.id b ∈ ops
  res : ∀ n p, s.pend n = some p →
    (p.alive = true → p.results = []) ∧ p.results.length ≤ 1 ∧
    (∀ b, some b ∈ p.results → Op.answer p.id b ∈ ops)
  bound : ∀ n, s.next ≤ n → s.pend n = none

theorem init_inv : QInv ([] : List (Op ι β)) init := by
  refine ⟨?_, ?_, ?_, ?_, ?_, ?_⟩ <;> simp [init]

theorem setPend_eq (f : Nat → Option (Pending ι β)) (n : Nat) (p : Pending ι β) (m : Nat) :
    setPend f n p m = if m = n then some p else f m := rfl

/-- closing a sender touches only that query, and only its channel -/
theorem closeSender_spec (f : Nat → Option (Pending ι β)) (o : Option Nat) (m : Nat) :
    (o ≠ some m → closeSender f o m = f m) ∧
    (∀ p, closeSender f o m = some p → ∃ q, f m = some q ∧ p.id = q.id ∧ p.alive = q.alive ∧
      p.results = q.results ∧ (p.chan = q.chan ∨ (q.chan = .open ∧ p.chan = .closed))) ∧
    (∀ q, f m = some q → ∃ p, closeSender f o m = some p) := by
  cases o with
  | none =>
    refine ⟨fun _ => rfl, ?_, ?_⟩
    · intro p hp; exact ⟨p, hp, rfl, rfl, rfl, .inl rfl⟩
    · intro q hq; exact ⟨q, hq⟩
  | some n =>
    simp only [closeSender]
    cases hf : f n with
    | none =>
      refine ⟨fun _ => rfl, ?_, ?_⟩
      · intro p hp; exact ⟨p, hp, rfl, rfl, rfl, .inl rfl⟩
      · intro q hq; exact ⟨q, hq⟩
    | some q0 =>
      simp only [setPend_eq]
      refine ⟨?_, ?_, ?_⟩
      · intro h
        have : m ≠ n := fun hc => h (by rw [hc])
        simp [this]
      · intro p hp
        by_cases hm : m = n
        · subst hm
          simp only [if_true, Option.some_inj] at hp
          subst hp
          refine ⟨q0, hf, rfl, rfl, rfl, ?_⟩
          cases hc : q0.chan <;> simp
        · simp only [hm, if_false] at hp
          exact ⟨p, hp, rfl, rfl, rfl, .inl rfl⟩
      · intro q hq
        by_cases hm : m = n
        · simp [hm]
        · simp [hm, hq]

theorem step_inv (ops : List (Op ι β)) (s : Sys ι β) (h : QInv ops s) (op : Op ι β) :
    QInv (ops ++ [op]) (step s op) := by
  have mono : ∀ id b, Op.answer id b ∈ ops → Op.answer id b ∈ ops ++ [op] :=
    fun id b hm => List.mem_append_left _ hm
  have weak : QInv (ops ++ [op]) s := by
    refine ⟨h.table, ?_, h.flightOnce, ?_, ?_, h.bound⟩
    · intro n b hm
      obtain ⟨h1, p, h2, h3, h4⟩ := h.flight n b hm
      exact ⟨h1, p, h2, mono _ _ h3, h4⟩
    · intro n p b h1 h2; exact mono _ _ (h.sent n p b h1 h2)
    · intro n p h1
      obtain ⟨a, b, c⟩ := h.res n p h1
      exact ⟨a, b, fun x hx => mono _ _ (c x hx)⟩
  cases op with
  | add id =>
    simp only [step]
    have hnext : s.pend s.next = none := h.bound _ (Nat.le_refl _)
    have cs := closeSender_spec s.pend (s.table.get id)
    refine ⟨?_, ?_, h.flightOnce, ?_, ?_, ?_⟩
    · intro id' n hg
      simp only [AMap.get_put] at hg
      split at hg
      · cases hg
        refine ⟨Nat.lt_succ_self _, _, by simp [setPend_eq]; rfl, ?_, rfl, rfl⟩
        simp [*]
      · rename_i hne
        obtain ⟨h1, p, h2, h3, h4, h5⟩ := h.table id' n hg
        refine ⟨Nat.lt_succ_of_lt h1, p, ?_, h3, h4, h5⟩
        have : n ≠ s.next := by omega
        simp only [setPend_eq, this, if_false]
        rw [(cs n).1]; exact h2
        intro hc
        obtain ⟨_, q, q2, q3, _⟩ := h.table id n hc
        rw [h2] at q2; cases q2
        exact hne (h3.symm.trans q3)
    · intro n b hm
      obtain ⟨h1, p, h2, h3, h4, h5, h6⟩ := h.flight n b hm
      have hn : n ≠ s.next := by omega
      have htn : s.table.get id ≠ some n := by
        intro hc
        obtain ⟨_, q, q2, q3, _⟩ := h.table id n hc
        rw [h2] at q2; cases q2
        rw [q3] at h4; exact h4 hc
      refine ⟨Nat.lt_succ_of_lt h1, p, ?_, mono _ _ h3, ?_, h5, h6⟩
      · simp only [setPend_eq, hn, if_false]
        rw [(cs n).1 htn]; exact h2
      · rw [AMap.get_put]
        split
        · intro hc; cases hc; exact hn rfl
        · exact h4
    · intro n p b hp hc
      simp only [setPend_eq] at hp
      split at hp
      · cases hp; cases hc
      · obtain ⟨q, q1, q2, q3, q4, q5⟩ := (cs n).2.1 p hp
        rcases q5 with q5 | ⟨_, q5⟩
        · rw [q2]; exact mono _ _ (h.sent n q b q1 (q5 ▸ hc))
        · rw [q5] at hc; cases hc
    · intro n p hp
      simp only [setPend_eq] at hp
      split at hp
      · cases hp; simp
      · obtain ⟨q, q1, q2, q3, q4, q5⟩ := (cs n).2.1 p hp
        obtain ⟨r1, r2, r3⟩ := h.res n q q1
        rw [q4, q3, q2]
        exact ⟨r1, r2, fun x hx => mono _ _ (r3 x hx)⟩
    · intro n hn
      simp only at hn
      have hn' : n ≠ s.next := by omega
      simp only [setPend_eq, hn', if_false]
      cases hc : closeSender s.pend (s.table.get id) n with
      | none => rfl
      | some p =>
        obtain ⟨q, q1, _⟩ := (cs n).2.1 p hc
        rw [h.bound n (by omega)] at q1; cases q1
  | answer id b =>
    simp only [step]
    cases hg : s.table.get id with
    | none => exact weak
    | some n =>
      simp only
      obtain ⟨t1, p, t2, t3, t4, t5⟩ := h.table id n hg
      have hnf : n ∉ s.inflight.map (·.1) := by
        intro hc
        obtain ⟨⟨m, c⟩, hm, rfl⟩ := List.mem_map.mp hc
        obtain ⟨_, q, q2, _, q4, _⟩ := h.flight _ _ hm
        simp only at t2 hg
        rw [t2] at q2; cases q2
        rw [t3] at q4; exact q4 hg
      refine ⟨?_, ?_, ?_, weak.sent, weak.res, h.bound⟩
      · intro id' m hg'
        rw [AMap.get_erase] at hg'
        split at hg'
        · cases hg'
        · exact h.table id' m hg'
      · intro m c hm
        rcases List.mem_append.mp hm with hm | hm
        · obtain ⟨h1, q, h2, h3, h4, h5, h6⟩ := weak.flight m c hm
          refine ⟨h1, q, h2, h3, ?_, h5, h6⟩
          rw [AMap.get_erase]
          split
          · simp
          · exact h4
        · simp only [List.mem_singleton, Prod.mk.injEq] at hm
          obtain ⟨rfl, rfl⟩ := hm
          refine ⟨t1, p, t2, ?_, ?_, ?_, fun _ => t5⟩
          · rw [t3]; simp
          · rw [t3, AMap.get_erase]; simp
          · rw [t5]; simp
      · simp only [List.map_append, List.map_cons, List.map_nil]
        rw [List.nodup_append]
        refine ⟨h.flightOnce, by simp, ?_⟩
        intro a ha c hc hac
        simp only [List.mem_singleton] at hc
        subst hc; subst hac; exact hnf ha
  | send k =>
    simp only [step]
    cases hk : s.inflight[k]? with
    | none => exact weak
    | some e =>
      obtain ⟨n, b⟩ := e
      simp only
      have hmem : (n, b) ∈ s.inflight := List.mem_of_getElem? hk
      obtain ⟨f1, p, f2, f3, f4, f5, f6⟩ := h.flight n b hmem
      simp only [f2]
      have hkl : k < s.inflight.length := (List.getElem?_eq_some_iff.mp hk).1
      have hsub : (s.inflight.eraseIdx k).Sublist s.inflight := List.eraseIdx_sublist ..
      have hother : ∀ m c, (m, c) ∈ s.inflight.eraseIdx k → m ≠ n := by
        intro m c hm hc
        subst hc
        have hnd := h.flightOnce
        have hperm := List.getElem_cons_eraseIdx_perm hkl
        have hke : s.inflight[k] = (m, b) := (List.getElem?_eq_some_iff.mp hk).2
        rw [hke] at hperm
        have hp2 := (hperm.map (·.1)).nodup_iff.mpr hnd
        simp only [List.map_cons, List.nodup_cons] at hp2
        exact hp2.1 (List.mem_map.mpr ⟨_, hm, rfl⟩)
      refine ⟨?_, ?_, ?_, ?_, ?_, ?_⟩
      · intro id' m hg
        obtain ⟨h1, q, h2, h3, h4, h5⟩ := h.table id' m hg
        have : m ≠ n := by
          rintro rfl
          rw [f2] at h2; cases h2
          rw [h3] at f4; exact f4 hg
        refine ⟨h1, q, ?_, h3, h4, h5⟩
        simp [setPend_eq, this, h2]
      · intro m c hm
        obtain ⟨h1, q, h2, h3, h4⟩ := weak.flight m c (hsub.subset hm)
        refine ⟨h1, q, ?_, h3, h4⟩
        simp [setPend_eq, hother m c hm, h2]
      · exact (hsub.map _).nodup h.flightOnce
      · intro m q c hq hc
        simp only [setPend_eq] at hq
        split at hq
        · cases hq
          by_cases ha : p.alive = true
          · simp only [ha, if_true] at hc ⊢
            cases hc
            exact mono _ _ f3
          · simp only [ha] at hc ⊢
            exact absurd ⟨c, hc⟩ f5
        · exact weak.sent m q c hq hc
      · intro m q hq
        simp only [setPend_eq] at hq
        split at hq
        · cases hq
          obtain ⟨r1, r2, r3⟩ := weak.res n p f2
          split <;> exact ⟨r1, r2, r3⟩
        · exact weak.res m q hq
      · intro m hm
        have : m ≠ n := by simp only at hm; omega
        simp [setPend_eq, this, h.bound m hm]
  | poll n =>
    simp only [step]
    cases hp : s.pend n with
    | none => exact weak
    | some p =>
      simp only
      by_cases ha : p.alive = true
      · simp only [ha, if_true]
        -- finishing the query with result `r`
        have fin : ∀ r : Option β, p.chan ≠ .open → (∀ b, r = some b → p.chan = .sent b) →
            QInv (ops ++ [Op.poll n]) { s with pend := setPend s.pend n { p with alive := false, results := p.results ++ [r] } } := by
          intro r hno hr
          obtain ⟨r1, r2, r3⟩ := weak.res n p hp
          refine ⟨?_, ?_, h.flightOnce, ?_, ?_, ?_⟩
          · intro id' m hg
            obtain ⟨h1, q, h2, h3, h4, h5⟩ := h.table id' m hg
            have : m ≠ n := by
              rintro rfl
              rw [hp] at h2; cases h2
              exact hno h5
            exact ⟨h1, q, by simp [setPend_eq, this, h2], h3, h4, h5⟩
          · intro m c hm
            obtain ⟨h1, q, h2, h3, h4, h5, h6⟩ := weak.flight m c hm
            by_cases hmn : m = n
            · subst hmn
              rw [hp] at h2; cases h2
              exact absurd (h6 ha) hno
            · exact ⟨h1, q, by simp [setPend_eq, hmn, h2], h3, h4, h5, h6⟩
          · intro m q c hq hc
            simp only [setPend_eq] at hq
            split at hq
            · cases hq; exact weak.sent n p c hp hc
            · exact weak.sent m q c hq hc
          · intro m q hq
            simp only [setPend_eq] at hq
            split at hq
            · cases hq
              rw [r1 ha]
              refine ⟨by simp, by simp, ?_⟩
              intro b hb
              simp only [List.nil_append, List.mem_singleton] at hb
              exact weak.sent n p b hp (hr b hb.symm)
            · exact weak.res m q hq
          · intro m hm
            have : m ≠ n := by
              rintro rfl
              rw [h.bound m hm] at hp; cases hp
            simp [setPend_eq, this, h.bound m hm]
        cases hc : p.chan with
        | «open» => exact weak
        | sent b =>
          have := fin (some b) (by rw [hc]; simp) (by intro b' hb; cases hb; exact hc)
          simpa [hc] using this
        | closed =>
          have := fin none (by rw [hc]; simp) (by intro b' hb; cases hb)
          simpa [hc] using this
      · simp only [ha]; exact weak
  | drop n =>
    simp only [step]
    cases hp : s.pend n with
    | none => exact weak
    | some p =>
      simp only
      by_cases ha : p.alive = true
      · simp only [ha, if_true]
        have cs := closeSender_spec s.pend (s.table.get p.id)
        refine ⟨?_, ?_, h.flightOnce, ?_, ?_, ?_⟩
        · intro id' m hg
          rw [AMap.get_erase] at hg
          split at hg
          · cases hg
          · rename_i hne
            obtain ⟨h1, q, h2, h3, h4, h5⟩ := h.table id' m hg
            have hmn : m ≠ n := by
              rintro rfl
              rw [hp] at h2; cases h2
              exact hne h3.symm
            refine ⟨h1, q, ?_, h3, h4, h5⟩
            simp only [setPend_eq, hmn, if_false]
            rw [(cs m).1]; exact h2
            intro hc
            obtain ⟨_, q', e2, e3, _⟩ := h.table _ _ hc
            rw [h2] at e2; cases e2
            exact hne (h3.symm.trans e3)
        · intro m c hm
          obtain ⟨h1, q, h2, h3, h4, h5, h6⟩ := weak.flight m c hm
          have hnt : (s.table.erase p.id).get q.id ≠ some m := by
            rw [AMap.get_erase]
            split
            · simp
            · exact h4
          by_cases hmn : m = n
          · subst hmn
            rw [hp] at h2; cases h2
            refine ⟨h1, { p with alive := false, chan := .closed }, by simp [setPend_eq], h3, hnt,
              by simp, by simp⟩
          · refine ⟨h1, q, ?_, h3, hnt, h5, h6⟩
            simp only [setPend_eq, hmn, if_false]
            rw [(cs m).1]; exact h2
            intro hc
            obtain ⟨_, q', e2, e3, _⟩ := h.table _ _ hc
            rw [h2] at e2; cases e2
            rw [e3] at h4; exact h4 hc
        · intro m q c hq hc
          simp only [setPend_eq] at hq
          split at hq
          · cases hq; cases hc
          · obtain ⟨q0, q1, q2, q3, q4, q5⟩ := (cs m).2.1 q hq
            rcases q5 with q5 | ⟨_, q5⟩
            · rw [q2]; exact weak.sent m q0 c q1 (q5 ▸ hc)
            · rw [q5] at hc; cases hc
        · intro m q hq
          simp only [setPend_eq] at hq
          split at hq
          · cases hq
            obtain ⟨r1, r2, r3⟩ := weak.res n p hp
            exact ⟨by simp, r2, r3⟩
          · obtain ⟨q0, q1, q2, q3, q4, q5⟩ := (cs m).2.1 q hq
            obtain ⟨r1, r2, r3⟩ := weak.res m q0 q1
            rw [q4, q3, q2]
            exact ⟨r1, r2, r3⟩
        · intro m hm
          have : m ≠ n := by
            rintro rfl
            rw [h.bound m hm] at hp; cases hp
          simp only [setPend_eq, this, if_false]
          cases hc : closeSender s.pend (s.table.get p.id) m with
          | none => rfl
          | some q =>
            obtain ⟨q0, q1, _⟩ := (cs m).2.1 q hc
            rw [h.bound m hm] at q1; cases q1
      · simp only [ha]; exact weak

theorem run_inv (ops : List (Op ι β)) : QInv ops (run init ops) := by
  have key : ∀ (rest pre : List (Op ι β)) (s : Sys ι β), QInv pre s → QInv (pre ++ rest) (run s rest) := by
    intro rest
    induction rest with
    | nil => intro pre s h; rw [List.append_nil]; exact h
    | cons o rest ih =>
      intro pre s h
      have := ih (pre ++ [o]) (step s o) (step_inv pre s h o)
      rw [List.append_assoc] at this
      exact this
  simpa using key ops [] init init_inv

/-! ## Nothing gets lost when ids are not reused -/

/-- The ids of all queries of the history are different. -/
def freshIds (ops : List (Op ι β)) : Prop :=
  (ops.filterMap (fun o => match o with | .add id => some id | _ => none)).Nodup

/-- A live unanswered query is in the table or its answer is in flight. -/
structure LInv (ops : List (Op ι β)) (s : Sys ι β) : Prop where
  live : ∀ n p, s.pend n = some p → p.alive = true →
    (p.chan = .open → s.table.get p.id = some n ∨ ∃ b, (n, b) ∈ s.inflight) ∧ p.chan ≠ .closed
  ids : ∀ n p, s.pend n = some p → Op.add p.id ∈ ops
  uniq : ∀ n m p q, s.pend n = some p → s.pend m = some q → p.id = q.id → n = m

theorem step_linv (ops : List (Op ι β)) (s : Sys ι β) (h : QInv ops s) (l : LInv ops s) (op : Op ι β)
    (hf : ∀ id, op = .add id → Op.add id ∉ ops) : LInv (ops ++ [op]) (step s op) := by
  have weak : LInv (ops ++ [op]) s :=
    ⟨l.live, fun n p hp => List.mem_append_left _ (l.ids n p hp), l.uniq⟩
  cases op with
  | add id =>
    have hfr := hf id rfl
    have hnone : s.table.get id = none := by
      cases hg : s.table.get id with
      | none => rfl
      | some n =>
        obtain ⟨_, p, h2, h3, _⟩ := h.table id n hg
        exact absurd (h3 ▸ l.ids n p h2) hfr
    simp only [step, hnone, closeSender]
    refine ⟨?_, ?_, ?_⟩
    · intro n p hp ha
      simp only [setPend_eq] at hp
      split at hp
      · cases hp
        exact ⟨fun _ => .inl (by simp [*]), by simp⟩
      · obtain ⟨a, b⟩ := l.live n p hp ha
        refine ⟨fun hc => ?_, b⟩
        rcases a hc with a | a
        · left
          rw [AMap.get_put]
          split
          · rename_i he
            exact absurd (he ▸ l.ids n p hp) hfr
          · exact a
        · exact .inr a
    · intro n p hp
      simp only [setPend_eq] at hp
      split at hp
      · cases hp; simp
      · exact List.mem_append_left _ (l.ids n p hp)
    · intro n m p q hp hq he
      simp only [setPend_eq] at hp hq
      split at hp <;> split at hq
      · omega
      · cases hp; simp only at he
        exact absurd (he ▸ l.ids m q hq) hfr
      · cases hq; simp only at he
        exact absurd (he ▸ l.ids n p hp) hfr
      · exact l.uniq n m p q hp hq he
  | answer id b =>
    simp only [step]
    cases hg : s.table.get id with
    | none => exact weak
    | some n =>
      refine ⟨?_, weak.ids, l.uniq⟩
      intro m p hp ha
      obtain ⟨a, c⟩ := l.live m p hp ha
      refine ⟨fun hc => ?_, c⟩
      rcases a hc with a | ⟨x, a⟩
      · by_cases he : p.id = id
        · right
          rw [he, hg] at a; cases a
          exact ⟨b, by simp⟩
        · left; simp only; rw [AMap.get_erase]; simp [he, a]
      · exact .inr ⟨x, List.mem_append_left _ a⟩
  | send k =>
    simp only [step]
    cases hk : s.inflight[k]? with
    | none => exact weak
    | some e =>
      obtain ⟨n, b⟩ := e
      simp only
      have hmem : (n, b) ∈ s.inflight := List.mem_of_getElem? hk
      obtain ⟨f1, p, f2, f3, f4, f5, f6⟩ := h.flight n b hmem
      simp only [f2]
      have hkl : k < s.inflight.length := (List.getElem?_eq_some_iff.mp hk).1
      refine ⟨?_, ?_, ?_⟩
      · intro m q hq ha
        simp only [setPend_eq] at hq
        split at hq
        · cases hq
          by_cases hpa : p.alive = true
          · simp [hpa]
          · simp only [hpa] at ha
            exact absurd ha hpa
        · rename_i hmn
          obtain ⟨a, c⟩ := l.live m q hq ha
          refine ⟨fun hc => ?_, c⟩
          rcases a hc with a | ⟨x, a⟩
          · exact .inl a
          · right
            refine ⟨x, ?_⟩
            have hperm := List.getElem_cons_eraseIdx_perm hkl
            have hke : s.inflight[k] = (n, b) := (List.getElem?_eq_some_iff.mp hk).2
            rw [hke] at hperm
            have := hperm.mem_iff.mpr a
            rcases List.mem_cons.mp this with h1 | h1
            · cases h1; exact absurd rfl hmn
            · exact h1
      · intro m q hq
        simp only [setPend_eq] at hq
        split at hq
        · cases hq
          have := weak.ids n p f2
          split <;> exact this
        · exact weak.ids m q hq
      · intro m m' q q' hq hq' he
        have idq : ∀ m q, setPend s.pend n (if p.alive = true then { p with chan := .sent b } else p) m = some q →
            ∃ q0, s.pend m = some q0 ∧ q0.id = q.id := by
          intro m q hq
          simp only [setPend_eq] at hq
          split at hq
          · rename_i hm; cases hq; refine ⟨p, hm ▸ f2, ?_⟩; split <;> rfl
          · exact ⟨q, hq, rfl⟩
        obtain ⟨a, a1, a2⟩ := idq m q hq
        obtain ⟨b', b1, b2⟩ := idq m' q' hq'
        exact l.uniq m m' a b' a1 b1 (by rw [a2, b2, he])
  | poll n =>
    simp only [step]
    cases hp : s.pend n with
    | none => exact weak
    | some p =>
      simp only
      by_cases ha : p.alive = true
      · simp only [ha, if_true]
        have fin : ∀ r : Option β,
            LInv (ops ++ [Op.poll n]) { s with pend := setPend s.pend n { p with alive := false, results := p.results ++ [r] } } := by
          intro r
          refine ⟨?_, ?_, ?_⟩
          · intro m q hq hqa
            simp only [setPend_eq] at hq
            split at hq
            · cases hq; simp at hqa
            · exact l.live m q hq hqa
          · intro m q hq
            simp only [setPend_eq] at hq
            split at hq
            · cases hq; exact weak.ids n p hp
            · exact weak.ids m q hq
          · intro m m' q q' hq hq' he
            have idq : ∀ m q, setPend s.pend n { p with alive := false, results := p.results ++ [r] } m = some q →
                ∃ q0, s.pend m = some q0 ∧ q0.id = q.id := by
              intro m q hq
              simp only [setPend_eq] at hq
              split at hq
              · rename_i hm; cases hq; exact ⟨p, hm ▸ hp, rfl⟩
              · exact ⟨q, hq, rfl⟩
            obtain ⟨a, a1, a2⟩ := idq m q hq
            obtain ⟨b', b1, b2⟩ := idq m' q' hq'
            exact l.uniq m m' a b' a1 b1 (by rw [a2, b2, he])
        cases hc : p.chan with
        | «open» => exact weak
        | sent b => simpa [hc] using fin (some b)
        | closed => simpa [hc] using fin none
      · simp only [ha]; exact weak
  | drop n =>
    simp only [step]
    cases hp : s.pend n with
    | none => exact weak
    | some p =>
      simp only
      by_cases ha : p.alive = true
      · simp only [ha, if_true]
        have cs := closeSender_spec s.pend (s.table.get p.id)
        have honly : ∀ m, s.table.get p.id = some m → m = n := by
          intro m hg
          obtain ⟨_, q, h2, h3, _⟩ := h.table _ _ hg
          exact l.uniq m n q p h2 hp h3
        have idq : ∀ m q, setPend (closeSender s.pend (s.table.get p.id)) n { p with alive := false, chan := .closed } m = some q →
            (m = n ∧ q.alive = false ∧ q.id = p.id) ∨ (m ≠ n ∧ s.pend m = some q) := by
          intro m q hq
          simp only [setPend_eq] at hq
          split at hq
          · rename_i hm; cases hq; exact .inl ⟨hm, rfl, rfl⟩
          · rename_i hm
            rw [(cs m).1 (fun hc => hm (honly m hc))] at hq
            exact .inr ⟨hm, hq⟩
        refine ⟨?_, ?_, ?_⟩
        · intro m q hq hqa
          rcases idq m q hq with ⟨_, h1, _⟩ | ⟨hm, h1⟩
          · rw [h1] at hqa; cases hqa
          · obtain ⟨a, c⟩ := l.live m q h1 hqa
            refine ⟨fun hc => ?_, c⟩
            rcases a hc with a | a
            · left
              rw [AMap.get_erase]
              split
              · rename_i he
                exact absurd (l.uniq m n q p h1 hp he) hm
              · exact a
            · exact .inr a
        · intro m q hq
          rcases idq m q hq with ⟨_, _, h1⟩ | ⟨_, h1⟩
          · rw [h1]; exact weak.ids n p hp
          · exact weak.ids m q h1
        · intro m m' q q' hq hq' he
          rcases idq m q hq with ⟨h0, _, h1⟩ | ⟨h0, h1⟩ <;>
            rcases idq m' q' hq' with ⟨g0, _, g1⟩ | ⟨g0, g1⟩
          · omega
          · rw [h0]; exact l.uniq n m' p q' hp g1 (by rw [← h1, he])
          · rw [g0]; exact l.uniq m n q p h1 hp (by rw [← g1, he])
          · exact l.uniq m m' q q' h1 g1 he
      · simp only [ha]; exact weak

theorem run_linv (ops : List (Op ι β)) (hf : freshIds ops) : LInv ops (run init ops) := by
  have key : ∀ (rest pre : List (Op ι β)) (s : Sys ι β), QInv pre s → LInv pre s →
      freshIds (pre ++ rest) → LInv (pre ++ rest) (run s rest) := by
    intro rest
    induction rest with
    | nil => intro pre s _ h _; rw [List.append_nil]; exact h
    | cons o rest ih =>
      intro pre s hq hl hfr
      have := ih (pre ++ [o]) (step s o) (step_inv pre s hq o) (step_linv pre s hq hl o ?_)
        (by simpa using hfr)
      · rw [List.append_assoc] at this; exact this
      · intro id ho hm
        subst ho
        simp only [freshIds, List.filterMap_append, List.filterMap_cons] at hfr
        rw [List.nodup_append] at hfr
        exact hfr.2.2 id (List.mem_filterMap.mpr ⟨_, hm, rfl⟩) id (by simp) rfl
  have l0 : LInv ([] : List (Op ι β)) init := ⟨by simp [init], by simp [init], by simp [init]⟩
  simpa using key ops [] init init_inv l0 (by simpa using hf)

end Verif.QueriesCache
