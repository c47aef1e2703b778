import Verif.Model.RldpOwn
import Verif.Proofs.AMap
import Verif.Proofs.RldpMany
import Verif.Proofs.OverlayFec

/-!
# C132: abandoned RLDP queries leave nothing behind
-/
namespace Verif.Rldp.Own
open Verif.Rldp
open Verif.RldpTable (negate_ne)

/-! ### Specification -/

/-- The call has returned, or was dropped by the application. -/
def Phase.gone : Phase → Bool
  | .sending | .waiting | .closing => false
  | _ => true

/-- Nothing in the table was put there for the query. -/
def Clear (s : State) (i : Nat) : Prop := ∀ x e, s.entries.get x = some e → e.owner ≠ .query i

/-- C132 as stated: once the call is gone, a continuation without new messages and queries clears the table of what it
left, and its receiving task ends. -/
def C132_full : Prop := ∀ (interval : Nat) (as : List Act) (i : Nat) (q : Query),
  (run interval .init as).queries[i]? = some q → q.phase.gone = true →
  ∃ bs q', Clear (run interval (run interval .init as) bs) i ∧
    (run interval (run interval .init as) bs).queries[i]? = some q' ∧ q'.receiving = false

/-! ### The invariant -/

def Phase.live : Phase → Bool
  | .halfRemoved | .over => false
  | _ => true

def expectOut (i : Nat) : Phase → Entry
  | .sending | .dropped false => .outgoing (.query i)
  | _ => .done (.query i)

def expectIn (i : Nat) : Phase → Entry
  | .closed | .resting _ => .done (.query i)
  | _ => .incoming (.query i)

theorem neg_eq {x y : Bytes} : negateId x = y ↔ x = negateId y :=
  ⟨fun h => by rw [← h, negateId_negateId], fun h => by rw [h, negateId_negateId]⟩

structure Inv (s : State) : Prop where
  apart : ∀ (i j : Nat) (q r : Query), s.queries[i]? = some q → s.queries[j]? = some r → i ≠ j →
    q.id ≠ r.id ∧ q.id ≠ negateId r.id
  nonempty : ∀ q ∈ s.queries, q.id ≠ []
  live : ∀ (i : Nat) (q : Query), s.queries[i]? = some q → q.phase.live = true →
    s.entries.get q.id = some (expectOut i q.phase) ∧ s.entries.get (negateId q.id) = some (expectIn i q.phase) ∧
    ∀ h ∈ s.handlers, h ≠ q.id ∧ h ≠ negateId q.id
  owned : ∀ x e i, s.entries.get x = some e → e.owner = .query i → ∃ q, s.queries[i]? = some q ∧
    ((x = q.id ∧ q.phase.live = true) ∨ (x = negateId q.id ∧ q.phase ≠ .over))

theorem set_get {α : Type} {l : List α} {i : Nat} {a : α} (h : l[i]? = some a) (x : α) (j : Nat) :
    (l.set i x)[j]? = if j = i then some x else l[j]? := by
  have hi : i < l.length := (List.getElem?_eq_some_iff.mp h).1
  rw [List.getElem?_set]
  by_cases hij : i = j
  · subst hij; simp [hi]
  · simp [hij, Ne.symm hij]

/-- A step of one query. -/
theorem Inv.query {s : State} (h : Inv s) {i : Nat} {q q' : Query} (hq : s.queries[i]? = some q) (hid : q'.id = q.id)
    {m : AMap Bytes Entry} (hm : ∀ x, x ≠ q.id → x ≠ negateId q.id → m.get x = s.entries.get x)
    (hl : q'.phase.live = true → q.phase.live = true ∧ m.get q.id = some (expectOut i q'.phase) ∧
      m.get (negateId q.id) = some (expectIn i q'.phase))
    (ho : ∀ e j, m.get q.id = some e → e.owner = .query j → j = i ∧ q'.phase.live = true)
    (hn : ∀ e j, m.get (negateId q.id) = some e → e.owner = .query j → j = i ∧ q'.phase ≠ .over) :
    Inv { s with entries := m, queries := s.queries.set i q' } := by
  refine ⟨?_, ?_, ?_, ?_⟩
  · intro j k r t hr ht hjk
    simp only [set_get hq] at hr ht
    split at hr <;> split at ht
    · next h1 h2 => exact absurd (h1.trans h2.symm) hjk
    · next h1 h2 =>
      subst h1; cases hr; rw [hid]
      exact h.apart _ k q t hq ht hjk
    · next h1 h2 =>
      subst h2; cases ht; rw [hid]
      exact h.apart j _ r q hr hq hjk
    · exact h.apart j k r t hr ht hjk
  · intro r hr
    rcases Overlay.mem_set hr with hr | rfl
    · exact h.nonempty r hr
    · rw [hid]; exact h.nonempty q (List.mem_of_getElem? hq)
  · intro j r hr hlive
    simp only [set_get hq] at hr
    split at hr
    · next h1 =>
      subst h1; cases hr
      obtain ⟨h2, h3, h4⟩ := hl hlive
      obtain ⟨_, _, h5⟩ := h.live _ q hq h2
      rw [hid]
      exact ⟨h3, h4, h5⟩
    · next h1 =>
      obtain ⟨h2, h3, h4⟩ := h.live j r hr hlive
      obtain ⟨h5, h6⟩ := h.apart j i r q hr hq h1
      refine ⟨?_, ?_, h4⟩
      · simp only; rw [hm _ h5 h6]; exact h2
      · simp only
        rw [hm _ (fun e => h6 (neg_eq.mp e)) (fun e => h5 (by
          have := congrArg negateId e; rwa [negateId_negateId, negateId_negateId] at this))]
        exact h3
  · intro x e j hx he
    simp only at hx
    by_cases h1 : x = q.id
    · subst h1
      obtain ⟨rfl, h2⟩ := ho e j hx he
      exact ⟨q', by rw [set_get hq, if_pos rfl], .inl ⟨hid.symm, h2⟩⟩
    · by_cases h2 : x = negateId q.id
      · subst h2
        obtain ⟨rfl, h3⟩ := hn e j hx he
        exact ⟨q', by rw [set_get hq, if_pos rfl], .inr ⟨by rw [hid], h3⟩⟩
      · rw [hm x h1 h2] at hx
        obtain ⟨r, hr, h3⟩ := h.owned x e j hx he
        have hji : j ≠ i := by
          rintro rfl
          rw [hq] at hr; cases hr
          rcases h3 with h3 | h3
          · exact h1 h3.1
          · exact h2 h3.1
        refine ⟨r, ?_, h3⟩
        simp only [set_get hq]
        rw [if_neg hji]
        exact hr

theorem Inv.neg_ne {s : State} (h : Inv s) {i : Nat} {q : Query} (hq : s.queries[i]? = some q) :
    negateId q.id ≠ q.id := negate_ne (h.nonempty q (List.mem_of_getElem? hq))

/-- A step of a transfer others began. -/
theorem Inv.other {s : State} (h : Inv s) {m : AMap Bytes Entry} {hs : List Bytes}
    (hm : ∀ (i : Nat) (q : Query), s.queries[i]? = some q → q.phase.live = true →
      m.get q.id = s.entries.get q.id ∧ m.get (negateId q.id) = s.entries.get (negateId q.id))
    (hh : ∀ (i : Nat) (q : Query), s.queries[i]? = some q → q.phase.live = true →
      ∀ x ∈ hs, x ≠ q.id ∧ x ≠ negateId q.id)
    (ho : ∀ x e j, m.get x = some e → e.owner = .query j → s.entries.get x = some e) :
    Inv { s with entries := m, handlers := hs } := by
  refine ⟨h.apart, h.nonempty, ?_, ?_⟩
  · intro i q hq hl
    obtain ⟨h1, h2⟩ := hm i q hq hl
    obtain ⟨h3, h4, _⟩ := h.live i q hq hl
    exact ⟨h1.trans h3, h2.trans h4, hh i q hq hl⟩
  · intro x e i hx he
    exact h.owned x e i (ho x e i hx he) he

theorem Inv.step {interval : Nat} {s : State} (h : Inv s) (a : Act) : Inv (step interval s a) := by
  cases a with
  | start t =>
    simp only [Own.step]
    split
    · exact h
    · next hc =>
      rw [not_or] at hc
      obtain ⟨ht, hseen⟩ := hc
      have hne := negate_ne ht
      simp only [State.seen, Bool.or_eq_true, not_or, List.any_eq_true, beq_iff_eq, not_exists, not_and] at hseen
      obtain ⟨h1, h2⟩ := hseen
      have hlen : ∀ {j : Nat} {q : Query}, s.queries[j]? = some q → j < s.queries.length :=
        fun hj => (List.getElem?_eq_some_iff.mp hj).1
      have hsplit : ∀ {j : Nat} {q : Query}, (s.queries ++ [⟨t, .sending, true⟩])[j]? = some q →
          s.queries[j]? = some q ∨ (j = s.queries.length ∧ q = ⟨t, .sending, true⟩) := by
        intro j q hj
        by_cases hlt : j < s.queries.length
        · rw [List.getElem?_append_left hlt] at hj; exact .inl hj
        · rw [List.getElem?_append_right (by omega)] at hj
          have : j - s.queries.length = 0 := by
            have := (List.getElem?_eq_some_iff.mp hj).1
            simp at this; omega
          rw [this] at hj
          simp at hj
          exact .inr ⟨by omega, hj.symm⟩
      have hfar : ∀ {j : Nat} {q : Query}, s.queries[j]? = some q → t ≠ q.id ∧ t ≠ negateId q.id :=
        fun hj => h1 _ (List.mem_of_getElem? hj)
      refine ⟨?_, ?_, ?_, ?_⟩
      · intro i j q r hq hr hij
        rcases hsplit hq with hq | ⟨hi, rfl⟩ <;> rcases hsplit hr with hr | ⟨hj, rfl⟩
        · exact h.apart i j q r hq hr hij
        · obtain ⟨h3, h4⟩ := hfar hq
          exact ⟨h3.symm, fun e => h4 (neg_eq.mp e.symm)⟩
        · exact hfar hr
        · omega
      · intro q hq
        simp only [List.mem_append, List.mem_singleton] at hq
        rcases hq with hq | rfl
        · exact h.nonempty q hq
        · exact ht
      · intro j q hq hl
        rcases hsplit hq with hq | ⟨rfl, rfl⟩
        · obtain ⟨h3, h4⟩ := hfar hq
          obtain ⟨h5, h6, h7⟩ := h.live j q hq hl
          have e1 : q.id ≠ negateId t := fun e => h4 (neg_eq.mp e.symm)
          have e2 : negateId q.id ≠ negateId t := fun e => h3 (by
            have := congrArg negateId e; rw [negateId_negateId, negateId_negateId] at this; exact this.symm)
          refine ⟨?_, ?_, h7⟩
          · simp only; rw [AMap.get_put_ne _ _ e1, AMap.get_put_ne _ _ h3.symm]; exact h5
          · simp only; rw [AMap.get_put_ne _ _ e2, AMap.get_put_ne _ _ h4.symm]; exact h6
        · refine ⟨?_, ?_, ?_⟩
          · simp only; rw [AMap.get_put_ne _ _ hne.symm, AMap.get_put_self]; rfl
          · simp only; rw [AMap.get_put_self]; rfl
          · intro x hx
            obtain ⟨h3, h4⟩ := h2 x hx
            exact ⟨fun e => h3 e.symm, fun e => h4 (neg_eq.mp e.symm)⟩
      · intro x e i hx he
        simp only [AMap.get_put] at hx
        have hnew : (s.queries ++ [⟨t, .sending, true⟩])[s.queries.length]? = some ⟨t, .sending, true⟩ := by simp
        split at hx
        · next h3 =>
          cases hx; cases he
          exact ⟨_, hnew, .inr ⟨h3, by simp⟩⟩
        · split at hx
          · next h3 =>
            cases hx; cases he
            exact ⟨_, hnew, .inl ⟨h3, rfl⟩⟩
          · obtain ⟨q, hq, h3⟩ := h.owned x e i hx he
            exact ⟨q, by simp only; rw [List.getElem?_append_left (hlen hq)]; exact hq, h3⟩
  | sent i reached =>
    simp only [Own.step]
    split
    · exact h
    · next q hq =>
      split
      · next hp =>
        obtain ⟨h1, h2, _⟩ := h.live i q hq (by rw [hp]; rfl)
        have hne := h.neg_ne hq
        refine h.query (q' := { q with phase := if reached then .waiting else .closing }) hq rfl
          (fun x hx _ => AMap.get_put_ne _ _ hx) ?_ ?_ ?_
        · intro _
          refine ⟨by rw [hp]; rfl, ?_, ?_⟩
          · rw [AMap.get_put_self]; cases reached <;> rfl
          · rw [AMap.get_put_ne _ _ hne, h2, hp]; cases reached <;> rfl
        · intro e j he ho
          rw [AMap.get_put_self] at he; cases he; cases ho
          exact ⟨rfl, by cases reached <;> rfl⟩
        · intro e j he ho
          rw [AMap.get_put_ne _ _ hne, h2, hp] at he; cases he; cases ho
          exact ⟨rfl, by cases reached <;> simp⟩
      · exact h
  | waited i =>
    simp only [Own.step]
    split
    · exact h
    · next q hq =>
      split
      · next hp =>
        obtain ⟨h1, h2, _⟩ := h.live i q hq (by rw [hp]; rfl)
        rw [hp] at h1 h2
        refine h.query (q' := { q with phase := .closing }) (m := s.entries) hq rfl (fun x _ _ => rfl) ?_ ?_ ?_
        · intro _; exact ⟨by rw [hp]; rfl, h1, h2⟩
        · intro e j he ho; rw [h1] at he; cases he; cases ho; exact ⟨rfl, rfl⟩
        · intro e j he ho; rw [h2] at he; cases he; cases ho; exact ⟨rfl, by simp⟩
      · exact h
  | close i =>
    simp only [Own.step]
    split
    · exact h
    · next q hq =>
      split
      · next hp =>
        obtain ⟨h1, h2, _⟩ := h.live i q hq (by rw [hp]; rfl)
        have hne := h.neg_ne hq
        rw [hp] at h1
        refine h.query (q' := { q with phase := .closed }) hq rfl (fun x _ hx => AMap.get_put_ne _ _ hx) ?_ ?_ ?_
        · intro _
          exact ⟨by rw [hp]; rfl, by rw [AMap.get_put_ne _ _ hne.symm]; exact h1, by rw [AMap.get_put_self]; rfl⟩
        · intro e j he ho
          rw [AMap.get_put_ne _ _ hne.symm, h1] at he; cases he; cases ho; exact ⟨rfl, rfl⟩
        · intro e j he ho
          rw [AMap.get_put_self] at he; cases he; cases ho; exact ⟨rfl, by simp⟩
      · exact h
  | rest i =>
    simp only [Own.step]
    split
    · exact h
    · next q hq =>
      split
      · next hp =>
        obtain ⟨h1, h2, _⟩ := h.live i q hq (by rw [hp]; rfl)
        rw [hp] at h1 h2
        refine h.query (q' := { q with phase := .resting (s.now + interval) }) (m := s.entries) hq rfl (fun x _ _ => rfl) ?_ ?_ ?_
        · intro _; exact ⟨by rw [hp]; rfl, h1, h2⟩
        · intro e j he ho; rw [h1] at he; cases he; cases ho; exact ⟨rfl, rfl⟩
        · intro e j he ho; rw [h2] at he; cases he; cases ho; exact ⟨rfl, by simp⟩
      · exact h
  | removeOut i =>
    simp only [Own.step]
    split
    · exact h
    · next q hq =>
      split
      · next till hp =>
        split
        · obtain ⟨h1, h2, _⟩ := h.live i q hq (by rw [hp]; rfl)
          have hne := h.neg_ne hq
          rw [hp] at h2
          refine h.query (q' := { q with phase := .halfRemoved }) hq rfl
            (fun x hx _ => by rw [AMap.get_erase, if_neg hx]) (fun hl => by cases hl) ?_ ?_
          · intro e j he ho; rw [AMap.get_erase, if_pos rfl] at he; cases he
          · intro e j he ho
            rw [AMap.get_erase, if_neg hne, h2] at he; cases he; cases ho; exact ⟨rfl, by simp⟩
        · exact h
      · exact h
  | removeIn i =>
    simp only [Own.step]
    split
    · exact h
    · next q hq =>
      split
      · next hp =>
        have hne := h.neg_ne hq
        refine h.query (q' := { q with phase := .over }) hq rfl
          (fun x _ hx => by rw [AMap.get_erase, if_neg hx]) (fun hl => by cases hl) ?_ ?_
        · intro e j he ho
          rw [AMap.get_erase, if_neg hne.symm] at he
          obtain ⟨r, hr, h1⟩ := h.owned _ e j he ho
          by_cases hji : j = i
          · subst hji
            rw [hq] at hr; cases hr
            rcases h1 with h1 | h1
            · rw [hp] at h1; cases h1.2
            · exact absurd h1.1.symm hne
          · obtain ⟨h2, h3⟩ := h.apart j i r q hr hq hji
            rcases h1 with h1 | h1
            · exact absurd h1.1.symm h2
            · exact absurd (neg_eq.mp h1.1.symm) h3
        · intro e j he ho; rw [AMap.get_erase, if_pos rfl] at he; cases he
      · exact h
  | drop i =>
    simp only [Own.step]
    split
    · exact h
    · next q hq =>
      split
      · next hp =>
        obtain ⟨h1, h2, _⟩ := h.live i q hq (by rw [hp]; rfl)
        rw [hp] at h1 h2
        refine h.query (q' := { q with phase := .dropped false }) (m := s.entries) hq rfl (fun x _ _ => rfl) ?_ ?_ ?_
        · intro _; exact ⟨by rw [hp]; rfl, h1, h2⟩
        · intro e j he ho; rw [h1] at he; cases he; cases ho; exact ⟨rfl, rfl⟩
        · intro e j he ho; rw [h2] at he; cases he; cases ho; exact ⟨rfl, by simp⟩
      · split
        · next hp =>
          obtain ⟨h1, h2, _⟩ := h.live i q hq (by rw [hp]; rfl)
          rw [hp] at h1 h2
          refine h.query (q' := { q with phase := .dropped true }) (m := s.entries) hq rfl (fun x _ _ => rfl) ?_ ?_ ?_
          · intro _; exact ⟨by rw [hp]; rfl, h1, h2⟩
          · intro e j he ho; rw [h1] at he; cases he; cases ho; exact ⟨rfl, rfl⟩
          · intro e j he ho; rw [h2] at he; cases he; cases ho; exact ⟨rfl, by simp⟩
        · exact h
  | received i complete =>
    simp only [Own.step]
    split
    · exact h
    · next q hq =>
      split
      · refine h.query (q' := { q with receiving := false }) (m := s.entries) hq rfl (fun x _ _ => rfl) ?_ ?_ ?_
        · intro hl
          obtain ⟨h1, h2, _⟩ := h.live i q hq hl
          exact ⟨hl, h1, h2⟩
        · intro e j he ho
          obtain ⟨r, hr, h1⟩ := h.owned _ e j he ho
          by_cases hji : j = i
          · subst hji
            rw [hq] at hr; cases hr
            rcases h1 with h1 | h1
            · exact ⟨rfl, h1.2⟩
            · exact absurd h1.1.symm (h.neg_ne hq)
          · obtain ⟨h2, h3⟩ := h.apart j i r q hr hq hji
            rcases h1 with h1 | h1
            · exact absurd h1.1.symm h2
            · exact absurd (neg_eq.mp h1.1.symm) h3
        · intro e j he ho
          obtain ⟨r, hr, h1⟩ := h.owned _ e j he ho
          by_cases hji : j = i
          · subst hji
            rw [hq] at hr; cases hr
            rcases h1 with h1 | h1
            · exact absurd h1.1 (h.neg_ne hq)
            · exact ⟨rfl, h1.2⟩
          · obtain ⟨h2, h3⟩ := h.apart j i r q hr hq hji
            rcases h1 with h1 | h1
            · exact absurd h1.1.symm h3
            · exact absurd (by
                have := congrArg negateId h1.1
                rw [negateId_negateId, negateId_negateId] at this
                exact this.symm) h2
      · exact h
  | arrive x =>
    simp only [Own.step]
    split
    · exact h
    · next hx =>
      have hne : ∀ (i : Nat) (q : Query), s.queries[i]? = some q → q.phase.live = true → q.id ≠ x ∧ negateId q.id ≠ x := by
        intro i q hq hl
        obtain ⟨h1, h2, _⟩ := h.live i q hq hl
        exact ⟨fun e => (by rw [e, hx] at h1; cases h1), fun e => (by rw [e, hx] at h2; cases h2)⟩
      refine h.other ?_ ?_ ?_
      · intro i q hq hl
        obtain ⟨h1, h2⟩ := hne i q hq hl
        exact ⟨AMap.get_put_ne _ _ h1, AMap.get_put_ne _ _ h2⟩
      · intro i q hq hl y hy
        rcases List.mem_append.mp hy with hy | hy
        · exact (h.live i q hq hl).2.2 y hy
        · simp only [List.mem_singleton] at hy
          subst hy
          obtain ⟨h1, h2⟩ := hne i q hq hl
          exact ⟨h1.symm, h2.symm⟩
      · intro y e j hy ho
        rw [AMap.get_put] at hy
        split at hy
        · cases hy; cases ho
        · exact hy
  | handler k d =>
    simp only [Own.step]
    split
    · exact h
    · next x hx =>
      have hfar : ∀ (i : Nat) (q : Query), s.queries[i]? = some q → q.phase.live = true →
          q.id ≠ x ∧ negateId q.id ≠ x ∧ q.id ≠ negateId x ∧ negateId q.id ≠ negateId x := by
        intro i q hq hl
        obtain ⟨h1, h2⟩ := (h.live i q hq hl).2.2 x (List.mem_of_getElem? hx)
        refine ⟨h1.symm, h2.symm, fun e => h2 (neg_eq.mp e.symm), fun e => h1 ?_⟩
        have := congrArg negateId e
        rw [negateId_negateId, negateId_negateId] at this
        exact this.symm
      have hh := fun (i : Nat) (q : Query) (hq : s.queries[i]? = some q) (hl : q.phase.live = true) =>
        (h.live i q hq hl).2.2
      cases d with
      | done =>
        refine h.other (hs := s.handlers) ?_ hh ?_
        · intro i q hq hl
          obtain ⟨h1, h2, _, _⟩ := hfar i q hq hl
          exact ⟨AMap.get_put_ne _ _ h1, AMap.get_put_ne _ _ h2⟩
        · intro y e j hy ho
          rw [AMap.get_put] at hy
          split at hy
          · cases hy; cases ho
          · exact hy
      | reply =>
        refine h.other (hs := s.handlers) ?_ hh ?_
        · intro i q hq hl
          obtain ⟨_, _, h1, h2⟩ := hfar i q hq hl
          exact ⟨AMap.get_put_ne _ _ h1, AMap.get_put_ne _ _ h2⟩
        · intro y e j hy ho
          rw [AMap.get_put] at hy
          split at hy
          · cases hy; cases ho
          · exact hy
      | removeReply =>
        refine h.other (hs := s.handlers) ?_ hh ?_
        · intro i q hq hl
          obtain ⟨_, _, h1, h2⟩ := hfar i q hq hl
          simp only [AMap.get_erase, if_neg h1, if_neg h2, and_self]
        · intro y e j hy ho
          rw [AMap.get_erase] at hy
          split at hy
          · cases hy
          · exact hy
      | remove =>
        refine h.other (hs := s.handlers) ?_ hh ?_
        · intro i q hq hl
          obtain ⟨h1, h2, _, _⟩ := hfar i q hq hl
          simp only [AMap.get_erase, if_neg h1, if_neg h2, and_self]
        · intro y e j hy ho
          rw [AMap.get_erase] at hy
          split at hy
          · cases hy
          · exact hy
  | pass ms => exact ⟨h.apart, h.nonempty, h.live, h.owned⟩

theorem Inv.init : Inv .init :=
  ⟨fun i j q r hq => (by cases hq), fun q hq => absurd hq List.not_mem_nil, fun i q hq => (by cases hq),
    fun x e i hx => (by cases hx)⟩

theorem Inv.run {interval : Nat} (as : List Act) : ∀ {s : State}, Inv s → Inv (run interval s as) := by
  induction as with
  | nil => intro s h; exact h
  | cons a as ih => intro s h; exact ih (h.step a)

theorem reach (interval : Nat) (as : List Act) : Inv (run interval .init as) := Inv.run as Inv.init

/-! ### Queries that are not dropped -/

/-- What is wanted of a query whose call is gone. -/
def Settles (interval : Nat) (s : State) (i : Nat) : Prop :=
  ∃ bs q', Clear (run interval s bs) i ∧ (run interval s bs).queries[i]? = some q' ∧ q'.receiving = false

theorem Settles.before {interval : Nat} {s : State} {i : Nat} {a : Act} (h : Settles interval (step interval s a) i) :
    Settles interval s i := by
  obtain ⟨bs, q', h⟩ := h
  exact ⟨a :: bs, q', h⟩

theorem settles_over {interval : Nat} {s : State} {i : Nat} {q : Query} (h : Inv s) (hq : s.queries[i]? = some q)
    (hp : q.phase = .over) : Clear s i ∧ Settles interval s i := by
  have hc : Clear s i := by
    intro x e hx he
    obtain ⟨r, hr, h1⟩ := h.owned x e i hx he
    rw [hq] at hr; cases hr
    rw [hp] at h1
    rcases h1 with h1 | h1
    · cases h1.2
    · exact h1.2 rfl
  refine ⟨hc, [.received i false], { q with receiving := false }, ?_⟩
  have hs : step interval s (.received i false) = { s with queries := s.queries.set i { q with receiving := false } } := by
    simp only [Own.step, hq]
    rw [if_pos (.inr (fun e => hc _ _ e rfl))]
  simp only [run, List.foldl_cons, List.foldl_nil, hs]
  exact ⟨hc, by rw [set_get hq, if_pos rfl], trivial⟩

theorem settles_half {interval : Nat} {s : State} {i : Nat} {q : Query} (h : Inv s) (hq : s.queries[i]? = some q)
    (hp : q.phase = .halfRemoved) : Settles interval s i := by
  refine Settles.before (a := .removeIn i) ?_
  refine (settles_over (q := { q with phase := .over }) (h.step _) ?_ rfl).2
  simp only [Own.step, hq, if_pos hp, State.setPhase, set_get hq, if_true]

theorem settles_rested {interval : Nat} {s : State} {i till : Nat} {q : Query} (h : Inv s)
    (hq : s.queries[i]? = some q) (hp : q.phase = .resting till) (hle : till ≤ s.now) : Settles interval s i := by
  refine Settles.before (a := .removeOut i) ?_
  refine settles_half (q := { q with phase := .halfRemoved }) (h.step _) ?_ rfl
  simp only [Own.step, hq, hp, if_pos hle, State.setPhase, set_get hq, if_true]

theorem settles_resting {interval : Nat} {s : State} {i till : Nat} {q : Query} (h : Inv s)
    (hq : s.queries[i]? = some q) (hp : q.phase = .resting till) : Settles interval s i :=
  Settles.before (a := .pass till)
    (settles_rested (h.step _) hq hp (show till ≤ s.now + till by omega))

theorem settles_closed {interval : Nat} {s : State} {i : Nat} {q : Query} (h : Inv s)
    (hq : s.queries[i]? = some q) (hp : q.phase = .closed) : Settles interval s i := by
  refine Settles.before (a := .rest i) ?_
  refine settles_resting (q := { q with phase := .resting (s.now + interval) }) (h.step _) ?_ rfl
  simp only [Own.step, hq, if_pos hp, State.setPhase, set_get hq, if_true]

/-- C132 for the calls that return (`C132_full` without the dropped ones): nothing stays in the table, and the
receiving task ends. Missing: the calls dropped while they wait (`C132_dropped`). -/
theorem C132_returned_partial (interval : Nat) (as : List Act) (i : Nat) (q : Query)
    (hq : (run interval .init as).queries[i]? = some q) (hg : q.phase.gone = true)
    (hd : ∀ b, q.phase ≠ .dropped b) :
    ∃ bs q', Clear (run interval (run interval .init as) bs) i ∧
      (run interval (run interval .init as) bs).queries[i]? = some q' ∧ q'.receiving = false := by
  have h := reach interval as
  cases hp : q.phase with
  | sending | waiting | closing => rw [hp] at hg; cases hg
  | closed => exact settles_closed h hq hp
  | resting till => exact settles_resting h hq hp
  | halfRemoved => exact settles_half h hq hp
  | over => exact (settles_over h hq hp).2
  | dropped b => exact absurd hp (hd b)

/-- A query is sent, answered, and closed while others send parts and begin a transfer. -/
def answered : List Act :=
  [.start [1, 2], .arrive [9, 9], .sent 0 true, .arrive [253, 1], .received 0 true, .handler 0 .done, .waited 0, .close 0]

example := C132_returned_partial 1000 answered 0 ⟨[1, 2], .closed, false⟩ (by decide) rfl (by simp)

example : (run 1000 .init answered).entries.length = 4 := by decide

/-- A query that is over or dropped stays as it is, apart from its receiving task. -/
theorem still {interval : Nat} {s : State} {i : Nat} {q : Query} (a : Act) (hq : s.queries[i]? = some q)
    (hp : q.phase = .over ∨ ∃ b, q.phase = .dropped b) :
    ∃ q', (step interval s a).queries[i]? = some q' ∧ q'.id = q.id ∧ q'.phase = q.phase ∧
      (a ≠ .received i true → s.entries.get (negateId q.id) = some (.incoming (.query i)) → q'.receiving = q.receiving) := by
  have same : ∃ q', s.queries[i]? = some q' ∧ q'.id = q.id ∧ q'.phase = q.phase ∧
      (a ≠ .received i true → s.entries.get (negateId q.id) = some (.incoming (.query i)) → q'.receiving = q.receiving) :=
    ⟨q, hq, rfl, rfl, fun _ _ => rfl⟩
  have other : ∀ (j : Nat) (r r' : Query), s.queries[j]? = some r → j ≠ i →
      (s.queries.set j r')[i]? = some q := by
    intro j r r' hr hji
    rw [set_get hr, if_neg (fun e => hji e.symm)]
    exact hq
  have ph : ∀ {j : Nat} {r : Query}, s.queries[j]? = some r → r.phase ≠ .over → (∀ b, r.phase ≠ .dropped b) → j ≠ i := by
    rintro j r hr h1 h2 rfl
    rw [hq] at hr; cases hr
    rcases hp with hp | ⟨b, hp⟩
    · exact h1 hp
    · exact h2 b hp
  cases a with
  | start t =>
    simp only [Own.step]
    split
    · exact same
    · exact ⟨q, by simp only; rw [List.getElem?_append_left (List.getElem?_eq_some_iff.mp hq).1]; exact hq, rfl, rfl,
        fun _ _ => rfl⟩
  | received j complete =>
    simp only [Own.step]
    split
    · exact same
    · next r hr =>
      split
      · next hc =>
        by_cases hji : j = i
        · subst hji
          rw [hq] at hr; cases hr
          refine ⟨{ q with receiving := false }, by simp only; rw [set_get hq, if_pos rfl], rfl, rfl, fun h1 h2 => ?_⟩
          rcases hc with hc | hc
          · subst hc; exact absurd rfl h1
          · exact absurd h2 hc
        · exact ⟨q, other j r _ hr hji, rfl, rfl, fun _ _ => rfl⟩
      · exact same
  | arrive x => simp only [Own.step]; split <;> exact same
  | handler k d =>
    simp only [Own.step]
    split
    · exact same
    · cases d <;> exact same
  | pass ms => exact same
  | sent j reached =>
    simp only [Own.step]
    split
    · exact same
    · next r hr =>
      split
      · next h1 => exact ⟨q, other j r _ hr (ph hr (by simp [h1]) (by simp [h1])), rfl, rfl, fun _ _ => rfl⟩
      · exact same
  | waited j | close j | rest j | removeIn j =>
    simp only [Own.step]
    split
    · exact same
    · next r hr =>
      split
      · next h1 => exact ⟨q, other j r _ hr (ph hr (by simp [h1]) (by simp [h1])), rfl, rfl, fun _ _ => rfl⟩
      · exact same
  | removeOut j =>
    simp only [Own.step]
    split
    · exact same
    · next r hr =>
      split
      · next till h1 =>
        split
        · exact ⟨q, other j r _ hr (ph hr (by simp [h1]) (by simp [h1])), rfl, rfl, fun _ _ => rfl⟩
        · exact same
      · exact same
  | drop j =>
    simp only [Own.step]
    split
    · exact same
    · next r hr =>
      split
      · next h1 => exact ⟨q, other j r _ hr (ph hr (by simp [h1]) (by simp [h1])), rfl, rfl, fun _ _ => rfl⟩
      · split
        · next h1 => exact ⟨q, other j r _ hr (ph hr (by simp [h1]) (by simp [h1])), rfl, rfl, fun _ _ => rfl⟩
        · exact same

/-- Once the task left by a query has made its two removals, nothing of the query is in the table, now and in every
continuation. -/
theorem C132_over_partial (interval : Nat) (as bs : List Act) (i : Nat) (q : Query)
    (hq : (run interval .init as).queries[i]? = some q) (hp : q.phase = .over) :
    Clear (run interval (run interval .init as) bs) i := by
  have key : ∀ (bs : List Act) (s : State) (q : Query), Inv s → s.queries[i]? = some q → q.phase = .over →
      ∃ q', (run interval s bs).queries[i]? = some q' ∧ q'.phase = .over := by
    intro bs
    induction bs with
    | nil => intro s q _ hq hp; exact ⟨q, hq, hp⟩
    | cons b bs ih =>
      intro s q h hq hp
      obtain ⟨q', hq', hp'⟩ := still (interval := interval) b hq (.inl hp)
      exact ih _ q' (h.step b) hq' (hp'.2.1.trans hp)
  obtain ⟨q', hq', hp'⟩ := key bs _ q (reach interval as) hq hp
  exact (settles_over (interval := interval) (Inv.run bs (reach interval as)) hq' hp').1

example := C132_over_partial 1000 (answered ++ [.rest 0, .pass 1000, .removeOut 0, .removeIn 0])
  [.arrive [1, 2], .start [1, 2], .start [7]] 0 ⟨[1, 2], .over, false⟩ (by decide) rfl

/-- Waiting for its removal, which is due at `due` or later. -/
def Due (interval due now : Nat) (p : Phase) : Prop :=
  (p = .closed ∧ due ≤ now + interval) ∨ ∃ till, p = .resting till ∧ due ≤ till

theorem Due.pass {interval due now : Nat} {p : Phase} (h : Due interval due now p) (ms : Nat) :
    Due interval due (now + ms) p := by
  rcases h with ⟨h1, h2⟩ | h
  · exact .inl ⟨h1, by omega⟩
  · exact .inr h

theorem due_step {interval due : Nat} {s : State} {i : Nat} {q : Query} (a : Act) (hq : s.queries[i]? = some q)
    (hp : Due interval due s.now q.phase) (hnow : s.now < due) :
    ∃ q', (step interval s a).queries[i]? = some q' ∧ q'.id = q.id ∧
      Due interval due (step interval s a).now q'.phase ∧ s.now ≤ (step interval s a).now := by
  have same : ∃ q', s.queries[i]? = some q' ∧ q'.id = q.id ∧ Due interval due s.now q'.phase ∧ s.now ≤ s.now :=
    ⟨q, hq, rfl, hp, Nat.le_refl _⟩
  have other : ∀ (j : Nat) (r r' : Query), s.queries[j]? = some r → j ≠ i →
      ∃ q', (s.queries.set j r')[i]? = some q' ∧ q'.id = q.id ∧ Due interval due s.now q'.phase ∧ s.now ≤ s.now := by
    intro j r r' hr hji
    exact ⟨q, by rw [set_get hr, if_neg (fun e => hji e.symm)]; exact hq, rfl, hp, Nat.le_refl _⟩
  have ph : ∀ {j : Nat} {r : Query}, s.queries[j]? = some r → r.phase ≠ .closed → (∀ t, r.phase ≠ .resting t) →
      j ≠ i := by
    rintro j r hr h1 h2 rfl
    rw [hq] at hr; cases hr
    rcases hp with hp | ⟨t, hp, _⟩
    · exact h1 hp.1
    · exact h2 t hp
  cases a with
  | start t =>
    simp only [Own.step]
    split
    · exact same
    · exact ⟨q, by simp only; rw [List.getElem?_append_left (List.getElem?_eq_some_iff.mp hq).1]; exact hq, rfl, hp,
        Nat.le_refl _⟩
  | received j complete =>
    simp only [Own.step]
    split
    · exact same
    · next r hr =>
      split
      · by_cases hji : j = i
        · subst hji
          rw [hq] at hr; cases hr
          exact ⟨{ q with receiving := false }, by simp only; rw [set_get hq, if_pos rfl], rfl, hp, Nat.le_refl _⟩
        · exact other j r _ hr hji
      · exact same
  | arrive x => simp only [Own.step]; split <;> exact same
  | handler k d =>
    simp only [Own.step]
    split
    · exact same
    · cases d <;> exact same
  | pass ms => exact ⟨q, hq, rfl, hp.pass ms, Nat.le_add_right _ _⟩
  | sent j reached =>
    simp only [Own.step]
    split
    · exact same
    · next r hr =>
      split
      · next h1 => exact other j r _ hr (ph hr (by simp [h1]) (by simp [h1]))
      · exact same
  | waited j | close j | removeIn j =>
    simp only [Own.step]
    split
    · exact same
    · next r hr =>
      split
      · next h1 => exact other j r _ hr (ph hr (by simp [h1]) (by simp [h1]))
      · exact same
  | rest j =>
    simp only [Own.step]
    split
    · exact same
    · next r hr =>
      split
      · next h1 =>
        by_cases hji : j = i
        · subst hji
          rw [hq] at hr; cases hr
          refine ⟨{ q with phase := .resting (s.now + interval) }, by
            simp only [State.setPhase]; rw [set_get hq, if_pos rfl], rfl, .inr ⟨_, rfl, ?_⟩, Nat.le_refl _⟩
          rcases hp with hp | ⟨t, hp, _⟩
          · exact hp.2
          · rw [h1] at hp; cases hp
        · exact other j r _ hr hji
      · exact same
  | removeOut j =>
    simp only [Own.step]
    split
    · exact same
    · next r hr =>
      split
      · next till h1 =>
        split
        · next hle =>
          refine other j r _ hr ?_
          rintro rfl
          rw [hq] at hr; cases hr
          rcases hp with hp | ⟨t, hp, hd⟩
          · rw [h1] at hp; cases hp.1
          · rw [h1] at hp; cases hp
            omega
        · exact same
      · exact same
  | drop j =>
    simp only [Own.step]
    split
    · exact same
    · next r hr =>
      split
      · next h1 => exact other j r _ hr (ph hr (by simp [h1]) (by simp [h1]))
      · split
        · next h1 => exact other j r _ hr (ph hr (by simp [h1]) (by simp [h1]))
        · exact same

theorem step_now {interval : Nat} {s : State} (a : Act) : s.now ≤ (step interval s a).now := by
  cases a <;> simp only [Own.step, State.setPhase] <;> repeat' split
  all_goals first | exact Nat.le_refl _ | exact Nat.le_add_right _ _

theorem run_now {interval : Nat} (as : List Act) : ∀ (s : State), s.now ≤ (run interval s as).now := by
  induction as with
  | nil => intro s; exact Nat.le_refl _
  | cons a as ih => intro s; exact Nat.le_trans (step_now a) (ih _)

/-- C132: the entries are not removed early. Until the completion interval has passed after the call, both are there as
`Done`, so that parts that come late begin no transfer, whatever else happens. -/
theorem C132_kept (interval : Nat) (as bs : List Act) (i : Nat) (q : Query)
    (hq : (run interval .init as).queries[i]? = some q) (hp : q.phase = .closed)
    (hnow : (run interval (run interval .init as) bs).now < (run interval .init as).now + interval) :
    let s := run interval (run interval .init as) bs
    s.entries.get q.id = some (.done (.query i)) ∧ s.entries.get (negateId q.id) = some (.done (.query i)) := by
  have key : ∀ (bs : List Act) (s : State) (q : Query) (due : Nat), s.queries[i]? = some q →
      Due interval due s.now q.phase → (run interval s bs).now < due →
      ∃ q', (run interval s bs).queries[i]? = some q' ∧ q'.id = q.id ∧
        Due interval due (run interval s bs).now q'.phase := by
    intro bs
    induction bs with
    | nil => intro s q due hq hp _; exact ⟨q, hq, rfl, hp⟩
    | cons b bs ih =>
      intro s q due hq hp hn
      obtain ⟨q', h1, h2, h3, h4⟩ := due_step b hq hp (Nat.lt_of_le_of_lt (run_now (b :: bs) s) hn)
      obtain ⟨q'', h5, h6, h7⟩ := ih _ q' due h1 h3 hn
      exact ⟨q'', h5, h6.trans h2, h7⟩
  obtain ⟨q', h1, h2, h3⟩ := key bs _ q _ hq (.inl ⟨hp, Nat.le_refl _⟩) hnow
  have hi := Inv.run (interval := interval) bs (reach interval as)
  have h4 := hi.live i q' h1
  rw [h2] at h4
  rcases h3 with ⟨h3, _⟩ | ⟨t, h3, _⟩
  · rw [h3] at h4
    obtain ⟨h5, h6, _⟩ := h4 rfl
    exact ⟨h5, h6⟩
  · rw [h3] at h4
    obtain ⟨h5, h6, _⟩ := h4 rfl
    exact ⟨h5, h6⟩

example := C132_kept 1000 answered [.rest 0, .pass 999, .removeOut 0, .removeIn 0, .arrive [1, 2], .arrive [254, 253]] 0
  ⟨[1, 2], .closed, false⟩ (by decide) rfl (by decide)

/-! ### Queries that are dropped -/

/-- When the call was dropped while the query was being sent (`sent = false`) or while the answer was awaited, then in
every continuation both entries are in the table as they were; and unless the whole answer comes, the receiving task
waits for ever if it waited then. -/
theorem C132_dropped (interval : Nat) (as bs : List Act) (i : Nat) (q : Query) (sent : Bool)
    (hq : (run interval .init as).queries[i]? = some q) (hp : q.phase = .dropped sent) :
    let s := run interval (run interval .init as) bs
    s.entries.get q.id = some (if sent then .done (.query i) else .outgoing (.query i)) ∧
    s.entries.get (negateId q.id) = some (.incoming (.query i)) ∧
    (.received i true ∉ bs → ∃ q', s.queries[i]? = some q' ∧ q'.receiving = q.receiving) := by
  have key : ∀ (bs : List Act) (s : State) (q : Query), Inv s → s.queries[i]? = some q → q.phase = .dropped sent →
      ∃ q', (run interval s bs).queries[i]? = some q' ∧ q'.id = q.id ∧ q'.phase = .dropped sent ∧
        (.received i true ∉ bs → q'.receiving = q.receiving) := by
    intro bs
    induction bs with
    | nil => intro s q _ hq hp; exact ⟨q, hq, rfl, hp, fun _ => rfl⟩
    | cons b bs ih =>
      intro s q h hq hp
      obtain ⟨q', hq', hid, hp', hr⟩ := still (interval := interval) b hq (.inr ⟨sent, hp⟩)
      obtain ⟨q'', h1, h2, h3, h4⟩ := ih _ q' (h.step b) hq' (hp'.trans hp)
      refine ⟨q'', h1, h2.trans hid, h3, fun hn => ?_⟩
      rw [List.mem_cons, not_or] at hn
      refine (h4 hn.2).trans (hr (fun e => hn.1 e.symm) ?_)
      have := (h.live i q hq (by rw [hp]; rfl)).2.1
      rw [this, hp]; rfl
  obtain ⟨q', h1, h2, h3, h4⟩ := key bs _ q (reach interval as) hq hp
  obtain ⟨h5, h6, _⟩ := (Inv.run (interval := interval) bs (reach interval as)).live i q' h1 (by rw [h3]; rfl)
  rw [h2, h3] at h5 h6
  refine ⟨h5.trans (by cases sent <;> rfl), h6, fun hn => ⟨q', h1, h4 hn⟩⟩

example := C132_dropped 1000 [.start [1, 2], .start [3], .sent 0 true, .drop 0]
  [.waited 0, .close 0, .arrive [253, 1], .sent 1 false, .close 1, .rest 1, .pass 1000, .removeOut 1, .removeIn 1,
    .received 0 false] 0 ⟨[1, 2], .dropped true, true⟩ true (by decide) rfl

theorem C132_full_false : ¬ C132_full := by
  intro h
  obtain ⟨bs, q', hc, _⟩ := h 1000 [.start [1], .drop 0] 0 ⟨[1], .dropped false, true⟩ (by decide) rfl
  have := C132_dropped 1000 [.start [1], .drop 0] bs 0 ⟨[1], .dropped false, true⟩ false (by decide) rfl
  exact hc _ _ this.2.1 rfl

/-! ### Growth -/

/-- Queries with the ids `ts` are begun and dropped. -/
def leave : Nat → List Bytes → List Act
  | _, [] => []
  | k, t :: ts => .start t :: .drop k :: leave (k + 1) ts

theorem leave_run {interval : Nat} (ts : List Bytes) : ∀ (s : State), s.handlers = [] → (∀ t ∈ ts, t ≠ []) →
    ts.Pairwise (fun a b => b ≠ a ∧ b ≠ negateId a) →
    (∀ t ∈ ts, ∀ q ∈ s.queries, t ≠ q.id ∧ t ≠ negateId q.id) →
    (run interval s (leave s.queries.length ts)).queries = s.queries ++ ts.map (fun t => ⟨t, .dropped false, true⟩) := by
  induction ts with
  | nil => intro s _ _ _ _; simp [leave, run]
  | cons t ts ih =>
    intro s hh hne hpw hfar
    have hseen : ¬ (t = [] ∨ s.seen t = true) := by
      rw [not_or]
      refine ⟨hne t List.mem_cons_self, ?_⟩
      simp only [State.seen, hh, List.any_nil, Bool.or_false, List.any_eq_true, Bool.or_eq_true, beq_iff_eq, not_exists,
        not_and, not_or]
      exact fun q hq => hfar t List.mem_cons_self q hq
    have h1 : ∃ m, step interval (step interval s (.start t)) (.drop s.queries.length) =
        { s with entries := m, queries := s.queries ++ [⟨t, .dropped false, true⟩] } := by
      refine ⟨(s.entries.put t (.outgoing (.query s.queries.length))).put (negateId t)
        (.incoming (.query s.queries.length)), ?_⟩
      simp only [Own.step, if_neg hseen]
      simp [State.setPhase]
    obtain ⟨m, h1⟩ := h1
    have h2 : run interval s (leave s.queries.length (t :: ts)) =
        run interval { s with entries := m, queries := s.queries ++ [⟨t, .dropped false, true⟩] }
          (leave (s.queries.length + 1) ts) := by
      simp only [leave, run, List.foldl_cons, h1]
    rw [h2]
    have h3 := ih { s with entries := m, queries := s.queries ++ [⟨t, .dropped false, true⟩] } hh
      (fun x hx => hne x (List.mem_cons_of_mem _ hx)) (List.pairwise_cons.mp hpw).2 (by
        intro x hx q hq
        simp only [List.mem_append, List.mem_singleton] at hq
        rcases hq with hq | rfl
        · exact hfar x (List.mem_cons_of_mem _ hx) q hq
        · exact (List.pairwise_cons.mp hpw).1 x hx)
    simp only [List.length_append, List.length_cons, List.length_nil, Nat.zero_add] at h3
    rw [h3]
    simp

/-- Calls that are dropped make the table grow: for any number of queries with different ids, each dropped while it is
being sent, whatever happens afterwards, the table holds both ids of every one of them, which is at least twice as many
entries as there were queries. -/
theorem C132_grows (interval : Nat) (ts : List Bytes) (hne : ∀ t ∈ ts, t ≠ [])
    (hpw : ts.Pairwise (fun a b => b ≠ a ∧ b ≠ negateId a)) (bs : List Act) :
    let s := run interval .init (leave 0 ts ++ bs)
    (∀ t ∈ ts, (s.entries.get t).isSome ∧ (s.entries.get (negateId t)).isSome) ∧ 2 * ts.length ≤ s.entries.length := by
  intro s
  have hs : s = run interval (run interval .init (leave 0 ts)) bs := by
    show List.foldl _ _ _ = _
    rw [List.foldl_append]; rfl
  have hq := leave_run (interval := interval) ts .init rfl hne hpw (fun t _ q hq => absurd hq List.not_mem_nil)
  have hall : ∀ t ∈ ts, (s.entries.get t).isSome ∧ (s.entries.get (negateId t)).isSome := by
    intro t ht
    obtain ⟨j, hj⟩ := List.getElem?_of_mem ht
    have hj' : (run interval .init (leave 0 ts)).queries[j]? = some ⟨t, .dropped false, true⟩ := by
      have : (run interval .init (leave 0 ts)).queries = _ := hq
      rw [this]
      simp [State.init, hj]
    obtain ⟨h1, h2, _⟩ := C132_dropped interval (leave 0 ts) bs j _ false hj' rfl
    rw [hs]
    exact ⟨by rw [h1]; rfl, by rw [h2]; rfl⟩
  refine ⟨hall, ?_⟩
  have hnd : (ts ++ ts.map negateId).Nodup := by
    have h1 : ts.Nodup := hpw.imp (fun h => h.1.symm)
    rw [List.nodup_append]
    refine ⟨h1, ?_, ?_⟩
    · exact (List.nodup_map_iff_inj_on h1).mpr (fun a _ b _ e => by
        have := congrArg negateId e; rwa [negateId_negateId, negateId_negateId] at this)
    · intro a ha b hb e
      subst e
      obtain ⟨c, hc, rfl⟩ := List.mem_map.mp hb
      obtain ⟨j, hj⟩ := List.getElem?_of_mem ha
      obtain ⟨k, hk⟩ := List.getElem?_of_mem hc
      have hrel := List.pairwise_iff_getElem.mp hpw
      obtain ⟨hj1, hj2⟩ := List.getElem?_eq_some_iff.mp hj
      obtain ⟨hk1, hk2⟩ := List.getElem?_eq_some_iff.mp hk
      rcases Nat.lt_trichotomy j k with h | h | h
      · have := (hrel j k hj1 hk1 h).2
        rw [hj2, hk2, negateId_negateId] at this
        exact this rfl
      · subst h
        rw [hj2] at hk2
        exact negate_ne (hne c hc) hk2
      · have := (hrel k j hk1 hj1 h).2
        rw [hj2, hk2] at this
        exact this rfl
  have hsub : (ts ++ ts.map negateId) ⊆ s.entries.map Prod.fst := by
    intro x hx
    rcases List.mem_append.mp hx with hx | hx
    · exact AMap.get_isSome_iff.mp (hall x hx).1
    · obtain ⟨c, hc, rfl⟩ := List.mem_map.mp hx
      exact AMap.get_isSome_iff.mp (hall c hc).2
  have hlen := (List.Nodup.subperm hnd hsub).length_le
  simp only [List.length_append, List.length_map] at hlen
  omega

example := C132_grows 1000 [[1], [2], [3]] (by decide) (by decide) [.pass 100000, .received 0 false, .arrive [1]]

end Verif.Rldp.Own
