import Verif.Model.PeersSet
import Verif.Proofs.AMap
import Verif.Spec.Fifo
import Mathlib.Data.List.Nodup
import Mathlib.Tactic.ByContra

namespace Verif.PeersSet
open Verif.Spec

variable {α : Type} [DecidableEq α]

/-- Invariant of the ring buffer. -/
structure Inv (s : State α) : Prop where
  pos : 0 < s.capacity
  nodup : s.index.Nodup
  le : s.index.length ≤ s.capacity
  up : s.upper < s.capacity
  notfull : s.index.length < s.capacity → s.upper = s.index.length
  cache : ∀ x i, s.cache.get x = some i ↔ s.index[i]? = some x

/-- Members, oldest first. -/
def queue (s : State α) : List α := s.index.drop s.upper ++ s.index.take s.upper

theorem queue_perm (s : State α) : (queue s).Perm s.index := by
  have h : (s.index.take s.upper ++ s.index.drop s.upper).Perm s.index := by
    rw [List.take_append_drop]
  exact List.perm_append_comm.trans h

theorem Inv.mem_iff {s : State α} (h : Inv s) (x : α) :
    (s.cache.get x).isSome = true ↔ x ∈ s.index := by
  rw [Option.isSome_iff_exists, List.mem_iff_getElem?]
  constructor
  · rintro ⟨i, hi⟩; exact ⟨i, (h.cache x i).mp hi⟩
  · rintro ⟨i, hi⟩; exact ⟨i, (h.cache x i).mpr hi⟩

theorem withCapacity_inv (c : Nat) : Inv (withCapacity c : State α) := by
  refine ⟨?_, by simp [withCapacity], by simp [withCapacity], ?_, by simp [withCapacity], ?_⟩
  · simp only [withCapacity, makeCapacity]; omega
  · simp only [withCapacity, makeCapacity]; omega
  · intro x i; simp [withCapacity, AMap.get]

theorem getElem?_set_iff {l : List α} (hn : l.Nodup) {u : Nat} {old p : α}
    (hu : l[u]? = some old) (hp : p ∉ l) (x : α) (i : Nat) :
    (l.set u p)[i]? = some x ↔ (x = p ∧ i = u) ∨ (x ≠ p ∧ x ≠ old ∧ l[i]? = some x) := by
  have hul : u < l.length := (List.getElem?_eq_some_iff.mp hu).1
  by_cases hi : i = u
  · subst hi
    rw [List.getElem?_set_self hul, Option.some_inj]
    constructor
    · rintro rfl; exact .inl ⟨rfl, rfl⟩
    · rintro (⟨h, _⟩ | ⟨h1, h2, h3⟩)
      · exact h.symm
      · rw [hu] at h3; cases h3; exact absurd rfl h2
  · rw [List.getElem?_set_ne (fun h => hi h.symm)]
    constructor
    · intro h
      refine .inr ⟨?_, ?_, h⟩
      · rintro rfl; exact hp (List.mem_of_getElem? h)
      · rintro rfl
        apply hi
        obtain ⟨a, ha⟩ := List.getElem?_eq_some_iff.mp h
        obtain ⟨b, hb⟩ := List.getElem?_eq_some_iff.mp hu
        exact (List.Nodup.getElem_inj_iff hn).mp (ha.trans hb.symm)
    · rintro (⟨_, h⟩ | ⟨_, _, h⟩)
      · exact absurd h hi
      · exact h

theorem insert_present {s : State α} (h : Inv s) {p : α} (hp : p ∈ s.index) :
    insert s p = (s, false) := by
  obtain ⟨v, hv⟩ := Option.isSome_iff_exists.mp ((h.mem_iff p).mpr hp)
  simp [insert, hv]

theorem Inv.get_none {s : State α} (h : Inv s) {p : α} (hp : p ∉ s.index) :
    s.cache.get p = none := by
  cases hg : s.cache.get p with
  | none => rfl
  | some v => exact absurd ((h.mem_iff p).mp (by simp [hg])) hp

theorem insert_spec {s : State α} (h : Inv s) (p : α) :
    Inv (insert s p).1 ∧ (insert s p).1.capacity = s.capacity ∧
    (insert s p).2 = decide (p ∉ s.index) ∧
    queue (insert s p).1 = fifoInsert s.capacity (queue s) p ∧
    (insert s p).1.version = s.version + (if p ∈ s.index then 0 else 1) := by
  by_cases hp : p ∈ s.index
  · rw [insert_present h hp]
    have : p ∈ queue s := (queue_perm s).mem_iff.mpr hp
    exact ⟨h, rfl, by simp [hp], by simp [fifoInsert, this], by simp [hp]⟩
  · have hg := h.get_none hp
    have hq : p ∉ queue s := fun hc => hp ((queue_perm s).mem_iff.mp hc)
    by_cases hfull : s.index.length < s.capacity
    · -- room left
      have hu := h.notfull hfull
      have hnone : s.index[s.upper]? = none := by rw [hu]; simp
      have hins : insert s p = (⟨s.version + 1, s.cache.put p s.upper, s.index ++ [p], s.capacity,
          (s.upper + 1) % s.capacity⟩, true) := by
        simp [insert, hg, hnone]
      rw [hins]
      have hlen : (s.index ++ [p]).length = s.index.length + 1 := by simp
      refine ⟨⟨h.pos, ?_, ?_, Nat.mod_lt _ h.pos, ?_, ?_⟩, rfl, by simp [hp], ?_, by simp [hp]⟩
      · simp only
        rw [List.nodup_append]
        refine ⟨h.nodup, by simp, ?_⟩
        intro a ha b hb hab
        simp only [List.mem_singleton] at hb
        subst hb; subst hab; exact hp ha
      · simp only [hlen]; omega
      · simp only [hlen]
        intro hlt
        rw [hu, Nat.mod_eq_of_lt hlt]
      · intro x i
        simp only
        rw [AMap.get_put]
        by_cases hx : x = p
        · subst hx
          simp only [if_true, Option.some_inj]
          constructor
          · rintro rfl; rw [hu]; simp
          · intro hi
            by_contra hne
            obtain ⟨hlt, hi2⟩ := List.getElem?_eq_some_iff.mp hi
            rw [hlen] at hlt
            have : i < s.index.length := by omega
            rw [List.getElem_append_left this] at hi2
            exact hp (hi2 ▸ List.getElem_mem this)
        · simp only [hx, if_false]
          rw [h.cache]
          constructor
          · intro hi
            have hlt : i < s.index.length := (List.getElem?_eq_some_iff.mp hi).1
            rw [List.getElem?_append_left hlt]; exact hi
          · intro hi
            obtain ⟨hlt, hi2⟩ := List.getElem?_eq_some_iff.mp hi
            rw [hlen] at hlt
            by_cases hlt2 : i < s.index.length
            · rw [List.getElem?_append_left hlt2] at hi; exact hi
            · have : i = s.index.length := by omega
              subst this
              simp at hi
              exact absurd hi.symm hx
      · have hq0 : queue s = s.index := by simp [queue, hu]
        simp only [fifoInsert, hq, if_false, hq0, hfull, if_true]
        simp only [queue]
        by_cases hlt : s.upper + 1 < s.capacity
        · rw [Nat.mod_eq_of_lt hlt, hu, List.drop_of_length_le (by simp),
            List.take_of_length_le (by simp)]
          simp [hp]
        · have : s.upper + 1 = s.capacity := by have := h.up; omega
          rw [this, Nat.mod_self]; simp [hp]
    · -- full
      have hl : s.index.length = s.capacity := by have := h.le; omega
      have hul : s.upper < s.index.length := by have := h.up; omega
      obtain ⟨old, hold⟩ : ∃ old, s.index[s.upper]? = some old :=
        ⟨_, List.getElem?_eq_getElem hul⟩
      have hne : old ≠ p := by rintro rfl; exact hp (List.mem_of_getElem? hold)
      have hgo : (s.cache.put p s.upper).get old = some s.upper := by
        rw [AMap.get_put_ne _ _ hne]; exact (h.cache old _).mpr hold
      have hins : insert s p = (⟨s.version + 1, (s.cache.put p s.upper).erase old,
          s.index.set s.upper p, s.capacity, (s.upper + 1) % s.capacity⟩, true) := by
        simp [insert, hg, hold, hgo]
      rw [hins]
      refine ⟨⟨h.pos, ?_, ?_, Nat.mod_lt _ h.pos, ?_, ?_⟩, rfl, by simp [hp], ?_, by simp [hp]⟩
      · simp only
        rw [List.nodup_iff_injective_getElem]
        intro ⟨a, ha⟩ ⟨b, hb⟩ hab
        simp only at hab
        rw [List.length_set] at ha hb
        have h1 : (s.index.set s.upper p)[a]? = some ((s.index.set s.upper p)[a]'(by simpa using ha)) :=
          List.getElem?_eq_getElem _
        have h2 : (s.index.set s.upper p)[b]? = some ((s.index.set s.upper p)[b]'(by simpa using hb)) :=
          List.getElem?_eq_getElem _
        rw [← hab] at h2
        rw [getElem?_set_iff h.nodup hold hp] at h1 h2
        rcases h1 with ⟨e1, e2⟩ | ⟨n1, _, e2⟩ <;> rcases h2 with ⟨f1, f2⟩ | ⟨m1, _, f2⟩
        · exact Fin.ext (by simp only; omega)
        · exact absurd e1 m1
        · exact absurd f1 n1
        · obtain ⟨_, x1⟩ := List.getElem?_eq_some_iff.mp e2
          obtain ⟨_, x2⟩ := List.getElem?_eq_some_iff.mp f2
          exact Fin.ext ((List.Nodup.getElem_inj_iff h.nodup).mp (x1.trans x2.symm))
      · simp only [List.length_set]; omega
      · simp only [List.length_set]; intro hc; omega
      · intro x i
        simp only
        rw [getElem?_set_iff h.nodup hold hp, AMap.get_erase]
        by_cases hxo : x = old
        · subst hxo
          simp [hne]
        · simp only [hxo, if_false]
          rw [AMap.get_put]
          by_cases hxp : x = p
          · subst hxp; simp [eq_comm]
          · simp [hxp, hxo, h.cache]
      · have hqlen : (queue s).length = s.capacity := by
          rw [(queue_perm s).length_eq]; exact hl
        simp only [fifoInsert, hq, if_false, hqlen, Nat.lt_irrefl]
        have hdrop : s.index.drop s.upper = old :: s.index.drop (s.upper + 1) := by
          rw [List.drop_eq_getElem_cons hul]
          congr 1
          exact (List.getElem?_eq_some_iff.mp hold).2
        have htail : (queue s).tail = s.index.drop (s.upper + 1) ++ s.index.take s.upper := by
          simp [queue, hdrop]
        rw [htail]
        simp only [queue]
        by_cases hlt : s.upper + 1 < s.capacity
        · rw [Nat.mod_eq_of_lt hlt, List.drop_set_of_lt (by omega), List.take_set,
            List.append_assoc]
          congr 1
          rw [List.take_add_one, hold]
          rw [List.set_append_right _ _ (by simp; omega)]
          simp [Nat.min_eq_left (Nat.le_of_lt hul)]
        · have hcap : s.upper + 1 = s.capacity := by have := h.up; omega
          rw [hcap, Nat.mod_self]
          simp only [List.drop_zero, List.take_zero, List.append_nil]
          rw [← hl, List.drop_length, List.nil_append]
          have : s.index = s.index.take s.upper ++ [old] := by
            conv => lhs; rw [← List.take_append_drop s.upper s.index, hdrop]
            rw [List.drop_of_length_le (by omega)]
          conv => lhs; rw [this]
          rw [List.set_append_right _ _ (by simp; omega)]
          simp [Nat.min_eq_left (Nat.le_of_lt hul)]

theorem extend_spec {s : State α} (h : Inv s) (ps : List α) :
    Inv (extend s ps) ∧ (extend s ps).capacity = s.capacity ∧
    queue (extend s ps) = ps.foldl (fifoInsert s.capacity) (queue s) := by
  induction ps generalizing s with
  | nil => exact ⟨h, rfl, rfl⟩
  | cons p ps ih =>
    obtain ⟨h1, h2, _, h4, _⟩ := insert_spec h p
    obtain ⟨i1, i2, i3⟩ := ih h1
    refine ⟨i1, i2.trans h2, ?_⟩
    show queue (extend (insert s p).1 ps) = _
    rw [i3, h4, h2]; rfl

/-- Loop invariant of the constructor: not wrapped yet. -/
structure FillInv (s : State α) : Prop where
  pos : 0 < s.capacity
  nodup : s.index.Nodup
  le : s.index.length ≤ s.capacity
  up : s.upper = s.index.length
  cache : ∀ x i, s.cache.get x = some i ↔ s.index[i]? = some x

theorem foldl_full (cap : Nat) (q xs : List α) (h : cap ≤ q.length) :
    xs.foldl (fun q x => if q.length < cap ∧ x ∉ q then q ++ [x] else q) q = q := by
  induction xs with
  | nil => rfl
  | cons x xs ih =>
    have : ¬ (q.length < cap ∧ x ∉ q) := by omega
    simp only [List.foldl_cons, this, if_false]
    exact ih

theorem fillLoop_spec (ps : List α) : ∀ (s : State α), FillInv s →
    FillInv (fillLoop s ps) ∧ (fillLoop s ps).capacity = s.capacity ∧
    (fillLoop s ps).version = s.version ∧
    (fillLoop s ps).index =
      ps.foldl (fun q x => if q.length < s.capacity ∧ x ∉ q then q ++ [x] else q) s.index := by
  induction ps with
  | nil => intro s h; exact ⟨h, rfl, rfl, rfl⟩
  | cons p ps ih =>
    intro s h
    simp only [fillLoop]
    by_cases hge : s.upper ≥ s.capacity
    · simp only [hge, if_true]
      refine ⟨h, trivial, trivial, ?_⟩
      rw [foldl_full]
      rw [← h.up]; exact hge
    · simp only [hge, if_false]
      have hlt : s.index.length < s.capacity := by rw [← h.up]; omega
      have hmem : (s.cache.get p).isSome = true ↔ p ∈ s.index := by
        rw [Option.isSome_iff_exists, List.mem_iff_getElem?]
        exact exists_congr (fun i => h.cache p i)
      cases hg : s.cache.get p with
      | some v =>
        have hp : p ∈ s.index := hmem.mp (by simp [hg])
        simp only
        obtain ⟨a, b, c, d⟩ := ih s h
        refine ⟨a, b, c, ?_⟩
        rw [d]
        simp [hp]
      | none =>
        have hp : p ∉ s.index := fun hc => by have := hmem.mpr hc; simp [hg] at this
        simp only
        obtain ⟨a, b, c, d⟩ := ih ⟨s.version, s.cache.put p s.upper, s.index ++ [p], s.capacity,
            s.upper + 1⟩ (by
          refine ⟨h.pos, ?_, by simp; omega, by simp [h.up], ?_⟩
          · simp only
            rw [List.nodup_append]
            refine ⟨h.nodup, by simp, ?_⟩
            intro a ha b hb hab
            simp only [List.mem_singleton] at hb
            subst hb; subst hab; exact hp ha
          · intro x i
            simp only
            rw [AMap.get_put]
            by_cases hx : x = p
            · subst hx
              simp only [if_true, Option.some_inj]
              constructor
              · rintro rfl; rw [h.up]; simp
              · intro hi
                by_contra hne
                obtain ⟨hlt, hi2⟩ := List.getElem?_eq_some_iff.mp hi
                have hl : (s.index ++ [x]).length = s.index.length + 1 := by simp
                have hup := h.up
                have : i < s.index.length := by omega
                rw [List.getElem_append_left this] at hi2
                exact hp (hi2 ▸ List.getElem_mem this)
            · simp only [hx, if_false]
              rw [h.cache]
              constructor
              · intro hi
                have hlt : i < s.index.length := (List.getElem?_eq_some_iff.mp hi).1
                rw [List.getElem?_append_left hlt]; exact hi
              · intro hi
                obtain ⟨hlt, hi2⟩ := List.getElem?_eq_some_iff.mp hi
                have hl : (s.index ++ [p]).length = s.index.length + 1 := by simp
                by_cases hlt2 : i < s.index.length
                · rw [List.getElem?_append_left hlt2] at hi; exact hi
                · have : i = s.index.length := by omega
                  subst this
                  simp at hi
                  exact absurd hi.symm hx)
        refine ⟨a, b, c, ?_⟩
        rw [d]
        simp [hp, hlt]

theorem withPeers_spec (peers : List α) (c : Nat) :
    Inv (withPeers peers c) ∧ (withPeers peers c).capacity = max 1 c ∧
    queue (withPeers peers c) = firstDistinct (max 1 c) peers := by
  obtain ⟨a, b, _, d⟩ := fillLoop_spec peers (withCapacity c) (by
    refine ⟨?_, by simp [withCapacity], by simp [withCapacity], by simp [withCapacity], ?_⟩
    · simp only [withCapacity, makeCapacity]; omega
    · intro x i; simp [withCapacity, AMap.get])
  have hcap : (fillLoop (withCapacity c) peers).capacity = max 1 c := b
  refine ⟨⟨a.pos, a.nodup, a.le, Nat.mod_lt _ a.pos, ?_, a.cache⟩, hcap, ?_⟩
  · intro h
    simp only [withPeers] at h ⊢
    rw [a.up, Nat.mod_eq_of_lt h]
  · have hidx : (fillLoop (withCapacity c) peers).index = firstDistinct (max 1 c) peers := d
    simp only [queue, withPeers]
    rw [← hidx]
    by_cases h : (fillLoop (withCapacity c) peers).index.length < (fillLoop (withCapacity c) peers).capacity
    · rw [a.up, Nat.mod_eq_of_lt h]; simp
    · have : (fillLoop (withCapacity c) peers).index.length = (fillLoop (withCapacity c) peers).capacity := by
        have := a.le; omega
      rw [a.up, this, Nat.mod_self]; simp

/-! ## Samples -/

theorem filter_take_sample (pool chosen : List α) (n k : Nat) (P : α → Bool)
    (hk : (pool.filter (fun x => !P x)).length + n ≤ k)
    (hs : IsSample chosen pool k) :
    ((chosen.filter P).take n).length = min n (pool.filter P).length := by
  obtain ⟨hsub, hlen⟩ := hs
  have split : ∀ l : List α, (l.filter P).length + (l.filter (fun x => !P x)).length = l.length := by
    intro l
    induction l with
    | nil => rfl
    | cons a l ih => simp only [List.filter_cons]; cases P a <;> simp <;> omega
  have h1 := split chosen
  have h2 := split pool
  have h3 : (chosen.filter (fun x => !P x)).length ≤ (pool.filter (fun x => !P x)).length :=
    (hsub.filter _).length_le
  have h4 : (chosen.filter P).length ≤ (pool.filter P).length := (hsub.filter _).length_le
  rw [List.length_take]
  omega

end Verif.PeersSet
